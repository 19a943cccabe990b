import Verif.Model.Basic

/-!
Device tables: crates/otspec/src/layout/device.rs.
-/

namespace FT.Device
open FT Reader

/-- `Device` (device.rs:11-16). -/
structure Device where
  startSize : UInt16
  endSize : UInt16
  deltaFormat : Option UInt16
  deltaValues : List Int8
  deriving DecidableEq, Repr

/-- Decoding loop (device.rs:32-44). `nb` is `num_bits`; `tmp`, `shift` the state; the last argument is `count`.
`shift -= num_bits` cannot underflow because `num_bits` divides 16 (formats 0..3). -/
def decLoop (nb : Nat) (tmp shift : Nat) : Nat → Reader (List Int8)
  | 0 => pure []
  | n + 1 => do
    let st ← (if shift = 0 then (do let t ← readU16; return (t.toNat, 16)) else pure (tmp, shift) : Reader (Nat × Nat))
    let shift' := st.2 - nb
    let value : Nat := (st.1 >>> shift') &&& (2 ^ nb - 1)
    let v : Int := if value &&& 2 ^ (nb - 1) ≠ 0 then (value : Int) - 2 ^ nb else value
    let rest ← decLoop nb st.1 shift' n
    return Int8.ofInt v :: rest

/-- `Device::from_bytes` (device.rs:18-53). `endSize - startSize + 1` panics on overflow; for formats other
than 0x8000 and 0..3 the shift `1i16 << num_bits` (or `1 << format`) panics. -/
def read : Reader Device := do
  let s ← readU16
  let e ← readU16
  let f ← readU16
  if f = 0x8000 then return ⟨s, e, some f, []⟩
  else if e.toNat < s.toNat then crash
  else if e.toNat - s.toNat + 1 > 65535 then crash
  else if f.toNat > 3 then crash
  else do
    let vs ← decLoop (2 ^ f.toNat) 0 0 (e.toNat - s.toNat + 1)
    return ⟨s, e, some f, vs⟩

/-- `suggest_format` (device.rs:56-67). -/
def suggestFormat : List Int8 → UInt16
  | [] => 1
  | v :: l =>
    if v.toInt < -9 ∨ v.toInt > 8 then 3
    else if v.toInt < -3 ∨ v.toInt > 2 then 2
    else suggestFormat l

/-- Encoding loop (device.rs:80-91): `(value as i16 & mask) as u16` keeps the low `num_bits` bits. -/
def encLoop (nb : Nat) (tmp shift : Nat) : List Int8 → Bytes
  | [] => if shift ≠ 16 then encU16 (UInt16.ofNat tmp) else []
  | v :: l =>
    let shift' := shift - nb
    let tmp' := tmp ||| ((v.toInt % 2 ^ nb).toNat <<< shift')
    if shift' = 0 then encU16 (UInt16.ofNat tmp') ++ encLoop nb 0 16 l
    else encLoop nb tmp' shift' l

/-- `Device::to_bytes` (device.rs:69-93): `1 << format` or `1i16 << num_bits` panics for formats above 3. -/
def toBytes (d : Device) : Res Bytes :=
  let f := d.deltaFormat.getD (suggestFormat d.deltaValues)
  if f.toNat > 3 then .panic
  else .ok (encU16 d.startSize ++ encU16 d.endSize ++ encU16 f ++ encLoop (2 ^ f.toNat) 0 16 d.deltaValues)

end FT.Device
