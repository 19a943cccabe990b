import Verif.Model.Basic

/-! Packed point numbers: `src/otvar/packedpoints.rs`. -/

namespace FT.PackedPoints
open FT Reader

/-- One run of point deltas (packedpoints.rs:34-45). -/
def readRun : Reader (List UInt16) := do
  let c ← readU8
  let n := (c &&& 0x7f).toNat + 1
  if (c &&& 0x80) > 0 then
    deCounted readU16 n
  else do
    let bs ← deCounted readU8 n
    return bs.map UInt8.toUInt16

/-- `while res.len() < count` (packedpoints.rs:33-47); `need = count - res.len()` (saturating),
`fuel = count`. -/
def readLoop : Nat → Nat → Reader (List UInt16)
  | 0, need => if need = 0 then pure [] else crash
  | k + 1, need =>
    if need = 0 then pure []
    else do
      let run ← readRun
      let rest ← readLoop k (need - run.length)
      return run ++ rest

/-- Running sum (packedpoints.rs:48-54); the `u16` accumulator overflow is a panic. -/
def cumsum : UInt16 → List UInt16 → Res (List UInt16)
  | _, [] => .ok []
  | acc, x :: t =>
    if acc.toNat + x.toNat > 65535 then .panic
    else do
      let rest ← cumsum (acc + x) t
      return (acc + x) :: rest

/-- `PackedPoints::from_bytes` (packedpoints.rs:20-59). Note that the two-byte count is used without
clearing the high bit (line 26: `(count & 0xff) << 8 | count2`). -/
def read : Reader (Option (List UInt16)) := do
  let c1 ← readU8
  let count ← (if c1.toNat > 127 then do
      let c2 ← readU8
      pure ((c1.toUInt16 <<< 8) ||| c2.toUInt16)
    else pure c1.toUInt16)
  if count = 0 then pure none
  else do
    let res ← readLoop count.toNat count.toNat
    let pts ← Reader.lift (cumsum 0 res)
    return some pts

/-- Inner loop of the writer (packedpoints.rs:79-96). `run` holds the control byte placeholder followed by
the bytes pushed so far. Returns `use_bytes`, the run, `last_value` and the remaining points.
`current - last_value` underflow is a panic. -/
def runLoop : Option Bool → Bytes → UInt16 → List UInt16 → Res (Option Bool × Bytes × UInt16 × List UInt16)
  | ub, run, last, [] => .ok (ub, run, last, [])
  | ub, run, last, cur :: t =>
    if run.length < 127 then
      if cur.toNat < last.toNat then .panic
      else
        let delta := cur.toNat - last.toNat
        let ub' := match ub with
          | none => decide (delta ≤ 0xff)
          | some b => b
        if ub' = true ∧ delta > 0xff then .ok (some ub', run, last, cur :: t)
        else if ub' = true then runLoop (some ub') (run ++ [UInt8.ofNat delta]) cur t
        else runLoop (some ub') (run ++ [UInt8.ofNat (delta / 256), UInt8.ofNat (delta % 256)]) cur t
    else .ok (ub, run, last, cur :: t)

/-- Outer loop of the writer (packedpoints.rs:76-103): one run per round, `fuel = points.len()`.
The control byte of a word run is `run.len() - 2` although each point took two bytes (line 100). -/
def encLoop : Nat → UInt16 → List UInt16 → Res Bytes
  | 0, _, l => if l.isEmpty then .ok [] else .panic
  | k + 1, last, l =>
    if l.isEmpty then .ok []
    else
      match runLoop none [0] last l with
      | .ok (some ub, run, last', rest) =>
        let n := run.length
        let ctrl := if ub then UInt8.ofNat (n - 2) else (UInt8.ofNat (n - 2)) ||| 0x80
        match encLoop k last' rest with
        | .ok more => .ok (run.set 0 ctrl ++ more)
        | .err => .err
        | .panic => .panic
      | .ok (none, _, _, _) => .panic
      | .err => .err
      | .panic => .panic

/-- `PackedPoints::to_bytes` (packedpoints.rs:61-106). `points.len() as uint16` wraps. -/
def encode : Option (List UInt16) → Res Bytes
  | none => .ok (encU8 0)
  | some points =>
    let n : UInt16 := UInt16.ofNat points.length
    let prefix_ := if n.toNat ≤ 0x80 then encU8 (UInt8.ofNat n.toNat) else encU16 (n ||| 0x8000)
    match encLoop points.length 0 points with
    | .ok bs => .ok (prefix_ ++ bs)
    | .err => .err
    | .panic => .panic

end FT.PackedPoints
