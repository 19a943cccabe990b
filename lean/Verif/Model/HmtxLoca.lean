import Verif.Model.Basic

/-! Horizontal metrics (src/tables/hmtx.rs), glyph locations (src/tables/loca.rs) and the compilation of
glyf/loca on save (src/table_store.rs). -/

namespace FT.Hmtx
open FT Reader

/-- `Metric` (hmtx.rs:13-18). -/
structure Metric where
  advanceWidth : UInt16
  lsb : Int16
  deriving DecidableEq, Repr

/-- Derived codecs of `Metric` (hmtx.rs:11). -/
def encMetric (m : Metric) : Bytes := encU16 m.advanceWidth ++ encI16 m.lsb
/-- Goes with `encMetric` (hmtx.rs:11). -/
def readMetric : Reader Metric := do
  let advanceWidth ← readU16
  let lsb ← readI16
  return ⟨advanceWidth, lsb⟩

/-- The `while` loop of `hmtx::to_bytes` (hmtx.rs:36-41), started at index `k`. -/
def endIndex (l : List Metric) : Nat → Nat
  | 0 => 0
  | k + 1 =>
    if (l[k]?).map Metric.advanceWidth = (l[k + 1]?).map Metric.advanceWidth then endIndex l k else k + 1

/-- The output loop (hmtx.rs:44-50), at metric number `i`. -/
def encMetrics (e : Nat) : Nat → List Metric → Bytes
  | _, [] => []
  | i, m :: l => (if i ≤ e then encMetric m else encI16 m.lsb) ++ encMetrics e (i + 1) l

/-- `hmtx::to_bytes` (hmtx.rs:31-53); the count is cast with `as u16`. -/
def toBytes (l : List Metric) : Bytes × UInt16 :=
  if l.isEmpty then ([], 0)
  else
    let e := endIndex l (l.length - 1)
    (encMetrics e 0 l, UInt16.ofNat (e + 1))

/-- `hmtx::number_of_hmetrics` (hmtx.rs:56-70); `try_into().unwrap()` panics above 65535. -/
def numberOfHMetrics (l : List Metric) : Res UInt16 :=
  match l.reverse with
  | [] => .ok 0
  | m :: rest =>
    let dupes := (rest.takeWhile (fun x => x.advanceWidth == m.advanceWidth)).length
    if l.length - dupes > 65535 then .panic else .ok (UInt16.ofNat (l.length - dupes))

/-- `hmtx::from_bytes` (hmtx.rs:86-110). Reading the trailing `Vec<int16>` always succeeds, so `expect`
panics whenever no full metric was read. -/
def fromBytes (n : UInt16) : Reader (List Metric) := do
  let full ← deCounted readMetric n.toNat
  let others ← readVec readI16
  match full.getLast? with
  | none => crash
  | some m => return full ++ others.map (fun x => ⟨m.advanceWidth, x⟩)

end FT.Hmtx

namespace FT.Loca
open FT Reader

/-- `windows(2)` loop of `loca::from_bytes` (loca.rs:37-45). -/
def pairs : List UInt32 → List (Option UInt32)
  | a :: b :: l => (if a = b then none else some a) :: pairs (b :: l)
  | _ => []

/-- The raw offsets (loca.rs:27-32). `(*x as u32) * 2` cannot overflow. -/
def readRaw (is32 : Bool) : Reader (List UInt32) :=
  if is32 then readVec readU32
  else do
    let x ← readVec readU16
    return x.map (fun v => UInt32.ofNat (v.toNat * 2))

/-- `loca::from_bytes` (loca.rs:20-47). -/
def fromBytes (is32 : Bool) : Reader (List (Option UInt32)) := do
  let raw ← readRaw is32
  return pairs raw

variable {G : Type}

/-- `while glyf_output.len() % 4 != 0 { push(0) }` (table_store.rs:444-446). -/
def pad4 (out : Bytes) : Bytes := out ++ List.replicate ((4 - out.length % 4) % 4) 0

/-- The glyph loop of `compile_glyf_loca_maxp` (table_store.rs:436-447). `ser g` is the outcome of
serializing one glyph; its error is unwrapped, i.e. a panic. -/
def compileLoop (isEmpty : G → Bool) (ser : G → Res Bytes) : List G → Bytes → Res (List UInt32 × Bytes)
  | [], out => .ok ([], out)
  | g :: gs, out =>
    if out.length > 4294967295 then .panic
    else if isEmpty g then
      match compileLoop isEmpty ser gs out with
      | .ok (ix, o) => .ok (UInt32.ofNat out.length :: ix, o)
      | .err => .err
      | .panic => .panic
    else match ser g with
      | .ok bs => match compileLoop isEmpty ser gs (pad4 (out ++ bs)) with
        | .ok (ix, o) => .ok (UInt32.ofNat out.length :: ix, o)
        | .err => .err
        | .panic => .panic
      | _ => .panic

/-- The glyf and loca part of `compile_glyf_loca_maxp` (table_store.rs:432-464): glyf bytes, loca bytes, and
whether loca is 32-bit. -/
def compile (isEmpty : G → Bool) (ser : G → Res Bytes) (gs : List G) : Res (Bytes × Bytes × Bool) :=
  match compileLoop isEmpty ser gs [] with
  | .err => .err
  | .panic => .panic
  | .ok (ix, o) =>
    let out := if o.isEmpty then [0] else o
    if out.length > 4294967295 then .panic
    else
      let loca := ix ++ [UInt32.ofNat out.length]
      let is32 := decide (out.length > 65535)
      if is32 then .ok (out, encVec encU32 loca, true)
      else .ok (out, encVec encU16 (loca.map (fun x => UInt16.ofNat (x.toNat / 2))), false)

/-- `glyf::from_rc` (src/tables/glyf.rs:41-68) over any glyph reader; the cursor is restored after each
glyph. -/
def readGlyphs (empty : G) (p : Reader G) : List (Option UInt32) → Reader (List G)
  | [] => pure []
  | none :: l => do
    let gs ← readGlyphs empty p l
    return empty :: gs
  | some off :: l => do
    let old ← getPtr
    setPtr off.toNat
    let g ← p
    setPtr old
    let gs ← readGlyphs empty p l
    return g :: gs

end FT.Loca
