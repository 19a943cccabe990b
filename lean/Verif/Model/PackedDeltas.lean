import Verif.Model.Basic

/-! Packed deltas: `src/otvar/packeddeltas.rs`. -/

namespace FT.PackedDeltas
open FT Reader

/-- `(-128..=127).contains(&v)` (packeddeltas.rs:67,72,112). -/
def isByte (v : Int16) : Bool := -128 ≤ v && v ≤ 127

/-- The run decoded from one control byte (packeddeltas.rs:29-42): `& 0x3f` plus one values, zeros if
`0x80` is set, else words if `0x40` is set, else bytes. -/
def readRun : Reader (List Int16) := do
  let c ← readU8
  let n := (c &&& 0x3f).toNat + 1
  if (c &&& 0x80) > 0 then
    pure (List.replicate n 0)
  else if (c &&& 0x40) > 0 then
    deCounted readI16 n
  else do
    let bs ← deCounted readI8 n
    return bs.map Int8.toInt16

/-- The `while res.len() < num_points` loop (packeddeltas.rs:28-44); `need` is
`num_points - res.len()` (saturating). Each round yields at least one value, so `fuel = num_points`
rounds suffice; running out of fuel is `panic` (proved unreachable for written data). -/
def readLoop : Nat → Nat → Reader (List Int16)
  | 0, need => if need = 0 then pure [] else crash
  | k + 1, need =>
    if need = 0 then pure []
    else do
      let run ← readRun
      let rest ← readLoop k (need - run.length)
      return run ++ rest

/-- `from_bytes` (packeddeltas.rs:23-46). -/
def read (numPoints : Nat) : Reader (List Int16) := readLoop numPoints numPoints

/-- `while run_length >= 64 { .. } if run_length > 0 { .. }` for runs that carry values
(packeddeltas.rs:81-101 with `base = 0`, 120-134 with `base = 0x40`). -/
def emitRun (base : UInt8) (enc : Int16 → Bytes) : Nat → List Int16 → Bytes
  | 0, _ => []
  | k + 1, l =>
    if 64 ≤ l.length then
      encU8 (base ||| 63) ++ encVec enc (l.take 64) ++ emitRun base enc k (l.drop 64)
    else if 0 < l.length then
      encU8 (base ||| UInt8.ofNat (l.length - 1)) ++ encVec enc l
    else []

/-- Emission of a zero run (packeddeltas.rs:60-66). -/
def emitZeros : Nat → Nat → Bytes
  | 0, _ => []
  | k + 1, n =>
    if 64 ≤ n then encU8 (0x80 ||| 63) ++ emitZeros k (n - 64)
    else if 0 < n then encU8 (0x80 ||| UInt8.ofNat (n - 1))
    else []

/-- Zero run starting at the current position (packeddeltas.rs:56-59): its length and what follows. -/
def splitZeros : List Int16 → Nat × List Int16
  | [] => (0, [])
  | v :: t => if v = 0 then ((splitZeros t).1 + 1, (splitZeros t).2) else (0, v :: t)

/-- Extent of a byte run (packeddeltas.rs:70-80). -/
def splitBytes : List Int16 → List Int16 × List Int16
  | [] => ([], [])
  | v :: t =>
    if !isByte v then ([], v :: t)
    else if v = 0 ∧ t.head? = some 0 then ([], v :: t)
    else (v :: (splitBytes t).1, (splitBytes t).2)

/-- Extent of a word run (packeddeltas.rs:105-119). -/
def splitWords : List Int16 → List Int16 × List Int16
  | [] => ([], [])
  | v :: t =>
    if v = 0 then ([], v :: t)
    else if isByte v && t.head?.any isByte then ([], v :: t)
    else (v :: (splitWords t).1, (splitWords t).2)

/-- `*x as i8` then the byte (packeddeltas.rs:84-89). -/
def encByte (v : Int16) : Bytes := encI8 v.toInt8

/-- The main loop of `to_bytes` (packeddeltas.rs:52-136) on the deltas not yet written.
`run_length` of a zero run is a `u8` (its type comes from `DELTAS_ARE_ZERO | (run_length - 1)`), so
`run_length += 1` overflows at 256 zeros: panic (a release build would wrap to 0 and lose 256 deltas).
Each round consumes at least one delta, so `fuel = deltas.len()` rounds suffice. -/
def encLoop : Nat → List Int16 → Res Bytes
  | 0, l => if l.isEmpty then .ok [] else .panic
  | k + 1, l =>
    match l with
    | [] => .ok []
    | v :: _ =>
      if v = 0 then
        let n := (splitZeros l).1
        if n > 255 then .panic
        else do
          let rest ← encLoop k (splitZeros l).2
          return emitZeros (n + 1) n ++ rest
      else if isByte v then do
        let run := (splitBytes l).1
        let rest ← encLoop k (splitBytes l).2
        return emitRun 0 encByte (run.length + 1) run ++ rest
      else do
        let run := (splitWords l).1
        let rest ← encLoop k (splitWords l).2
        return emitRun 0x40 encI16 (run.length + 1) run ++ rest

/-- `PackedDeltas::to_bytes` (packeddeltas.rs:48-139). -/
def encode (l : List Int16) : Res Bytes := encLoop l.length l

end FT.PackedDeltas
