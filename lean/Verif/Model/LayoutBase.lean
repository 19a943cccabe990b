import Verif.Model.Offsets
import Verif.Model.Coverage

/-!
Pieces shared by the layout tables of crates/otspec/src/layout and src/layout.

A low-level value is what the structures of crates/otspec/src/layout hold; the `link` of an `Offset16<T>` is an
`Option T`. The writer of a structure gives the table (`Tab`, see Model/Offsets.lean) that the generated
serializer works on. If building the bytes of some coverage or class table panics, the result is `panic`
(in Rust an offset overflow elsewhere could be reported first).
-/

namespace FT.Lay
open FT Reader FT.Off

/-- A structure with an `offset_base` first field (otspec_macros/src/de.rs: `c.push()` before, `c.pop()` after
the fields). (de.rs:26-43.) -/
def inTable {α : Type} (p : Reader α) : Reader α := do
  pushTop
  let x ← p
  popTop
  return x

/-- An `Offset16<T>` field, given the writer of `T`; `vec` as in `Tab.link`. -/
def optOff {α : Type} (vec : Bool) (f : α → Res Tab) : Option α → Res Tab
  | none => .ok (.nullOff .w16)
  | some a => match f a with
    | .ok t => .ok (.link .w16 vec false none t .nil)
    | .err => .err
    | .panic => .panic

/-- A counted `VecOffset16<T>` field (`CountedOffset16`; VecOffset: offsets.rs:240-310, written through
`Counted`). -/
def offVec {α : Type} (f : α → Res Tab) (l : List (Option α)) : Res Tab :=
  match Res.mapL (optOff true f) l with
  | .ok ts => .ok ((Tab.bytes (encU16 (UInt16.ofNat l.length))).append (Tab.concat ts))
  | .err => .err
  | .panic => .panic

/-- Reading it. (offsets.rs:190-205.) -/
def readOffVec {α : Type} (p : Reader α) : Reader (List (Option α)) := readCounted (readOffset .w16 p)

/-- A `Coverage` as a linked table. -/
def covTab (gs : List UInt16) : Res Tab := match Coverage.toBytes gs with
  | .ok bs => .ok (.bytes bs)
  | .err => .err
  | .panic => .panic

/-- A `ClassDef` as a linked table. -/
def classTab (m : List (UInt16 × UInt16)) : Res Tab := match ClassDef.toBytes m with
  | .ok bs => .ok (.bytes bs)
  | .err => .err
  | .panic => .panic

/-- `Offset16<Coverage>` read / as a linked glyph list. -/
abbrev Cov := Option (List UInt16)

/-- `coverage_or_nah` (src/layout/common.rs:24-31): the glyphs, none for a null offset. -/
def covGlyphs (c : Cov) : List UInt16 := c.getD []

/-- Two byte counted vector of `uint16`. -/
def u16s (l : List UInt16) : Bytes := encCounted encU16 l
/-- Generated reader of `Counted(uint16)` (counted.rs:30-42). -/
def readU16s : Reader (List UInt16) := readCounted readU16

end FT.Lay
