import Verif.Model.Basic

/-!
Offset-linked tables: crates/otspec/src/offsets.rs, offsetmanager.rs and the code generated by
crates/otspec_macros/src/ser.rs for structures with offset fields.

A table is the sequence of what its fields write. An offset field either is null or links to another table.
-/

namespace FT.Off
open FT Reader

/-- Width of an offset field: `Offset16` or `Offset32` (offsets.rs:47-48). -/
inductive Width where
  | w16
  | w32
  deriving DecidableEq, Repr

/-- Goes with `Width` (offsets.rs:47-48). -/
def Width.size : Width → Nat
  | .w16 => 2
  | .w32 => 4

/-- Goes with `Width` (offsets.rs:47-48). -/
def Width.max : Width → Nat
  | .w16 => 65535
  | .w32 => 4294967295

/-- `U::to_bytes` for the offset type. -/
def Width.enc (w : Width) (n : Nat) : Bytes := match w with
  | .w16 => encU16 (UInt16.ofNat n)
  | .w32 => encU32 (UInt32.ofNat n)

/-- A table, as the list of its fields in serialization order.
* `raw`: bytes written by fields without offsets;
* `null`: an `Offset` with `link = None` and stored offset 0 (`to_nothing`, or read from a null field);
* `link`: an `Offset` with `link = Some child`; `off` is the interior-mutable `RefCell<Option<U>>`
  (offsets.rs:41-45); `vec` says that the field is in a `VecOffset` or an embedded record, whose children are
  enumerated after the direct offset fields (ser.rs:65-69, 173-200); `opt` that it is an `Option<Offset>`
  (offsets.rs:357-410).
An `Option<Offset>` that is `None` writes nothing and is not represented. -/
inductive Tab where
  | nil
  | raw (bs : Bytes) (rest : Tab)
  | null (w : Width) (rest : Tab)
  | link (w : Width) (vec opt : Bool) (off : Option Nat) (child rest : Tab)
  deriving DecidableEq

/-- Fields of `t` followed by fields of `u`. -/
def Tab.append : Tab → Tab → Tab
  | .nil, u => u
  | .raw bs r, u => .raw bs (r.append u)
  | .null w r, u => .null w (r.append u)
  | .link w v o off c r, u => .link w v o off c (r.append u)

/-- Single fields: plain bytes, null offset, offset to a table. -/
abbrev Tab.bytes (bs : Bytes) : Tab := .raw bs .nil
/-- A null offset field. -/
abbrev Tab.nullOff (w : Width) : Tab := .null w .nil
/-- `Offset16` field of the table itself. -/
abbrev Tab.off16 (c : Tab) : Tab := .link .w16 false false none c .nil
/-- `Offset16` in a `VecOffset16` or an embedded record. -/
abbrev Tab.vecOff16 (c : Tab) : Tab := .link .w16 true false none c .nil

/-- Sequence of fields. -/
def Tab.concat : List Tab → Tab
  | [] => .nil
  | t :: l => t.append (concat l)

/-- An `Offset16<T>` field: null (`link = None`) or linked. -/
def Tab.optOff16 (vec : Bool) : Option Tab → Tab
  | none => .nullOff .w16
  | some c => .link .w16 vec false none c .nil

/-- `ot_binary_size` of the table without its descendants (ser.rs:57-59, 107-141). Simplification: the size
declared by a field is taken to be the number of bytes it writes; `Version16Dot16` declares 2 instead of 4
(types.rs:200-202), but no table with offset fields uses it. -/
def size : Tab → Nat
  | .nil => 0
  | .raw bs r => bs.length + size r
  | .null w r => w.size + size r
  | .link w _ _ _ _ r => w.size + size r

/-- Sizes of the subtrees below the children with the given `vec` flag (sums of `object_size`). -/
def descSize : Tab → Bool → Nat
  | .nil, _ => 0
  | .raw _ r, s => descSize r s
  | .null _ r, s => descSize r s
  | .link _ v _ _ c r, s =>
    (if v = s then size c + descSize c false + descSize c true else 0) + descSize r s

/-- `object_size` of a table plus those of all its descendants. -/
def total (t : Tab) : Nat := size t + descSize t false + descSize t true

/-- `set` of `Offset` (offsets.rs:116-118: the offset becomes `None` if it does not fit) and of
`Option<Offset>` (offsets.rs:380-394: panics if it does not fit). -/
def setOff (w : Width) (opt : Bool) (n : Nat) : Res (Option Nat) :=
  if n ≤ w.max then .ok (some n) else if opt then .panic else .ok none

/-- `OffsetManager::resolve` (offsetmanager.rs:40-90). `petgraph::visit::Topo` visits a tree in depth-first
preorder, children in the order in which their edges were added, i.e. direct offset fields first, then the
others (`neighbors` enumerates newest first and the visit stack reverses that). The first pass assigns
consecutive positions in that order; `d` and `v` are the positions of the next direct and the next other child.
The second pass stores position minus the position `base` of the owner (offsetmanager.rs:79). Simplification:
the cast `offset as u32` is omitted (positions below 2^32 are unaffected). -/
def resolve : Tab → (base d v : Nat) → Res Tab
  | .nil, _, _, _ => .ok .nil
  | .raw bs r, base, d, v => match resolve r base d v with
    | .ok r' => .ok (.raw bs r')
    | .err => .err
    | .panic => .panic
  | .null w r, base, d, v => match resolve r base d v with
    | .ok r' => .ok (.null w r')
    | .err => .err
    | .panic => .panic
  | .link w vec opt _ c r, base, d, v =>
    let pos := if vec then v else d
    match setOff w opt (pos - base) with
    | .ok o => match resolve c pos (pos + size c) (pos + size c + descSize c false) with
      | .ok c' => match resolve r base (if vec then d else d + total c) (if vec then v + total c else v) with
        | .ok r' => .ok (.link w vec opt o c' r')
        | .err => .err
        | .panic => .panic
      | .err => .err
      | .panic => .panic
    | .err => .err
    | .panic => .panic

/-- `to_bytes_shallow` (ser.rs:59-63) with `Offset::to_bytes` (offsets.rs:172-180). -/
def shallow : Tab → Res Bytes
  | .nil => .ok []
  | .raw bs r => match shallow r with
    | .ok x => .ok (bs ++ x)
    | .err => .err
    | .panic => .panic
  | .null w r => match shallow r with
    | .ok x => .ok (w.enc 0 ++ x)
    | .err => .err
    | .panic => .panic
  | .link w _ _ off _ r => match off with
    | none => .err
    | some n => match shallow r with
      | .ok x => .ok (w.enc n ++ x)
      | .err => .err
      | .panic => .panic

/-- `OffsetManager::serialize` (offsetmanager.rs:95-115) restricted to the subtrees of the children with the
given flag: shallow contents in preorder. -/
def serDesc : Tab → Bool → Res Bytes
  | .nil, _ => .ok []
  | .raw _ r, s => serDesc r s
  | .null _ r, s => serDesc r s
  | .link _ v _ _ c r, s => do
    let here ← (if v = s then do
        let a ← shallow c
        let b ← serDesc c false
        let e ← serDesc c true
        return a ++ b ++ e
      else .ok [])
    let more ← serDesc r s
    return here ++ more

/-- The generated `to_bytes` of a table with offsets (ser.rs:27-50): resolve, write own fields, then all
descendants. -/
def toBytes (t : Tab) : Res Bytes := do
  let t' ← resolve t 0 (size t) (size t + descSize t false)
  let top ← shallow t'
  let direct ← serDesc t' false
  let others ← serDesc t' true
  return top ++ direct ++ others

/-- `U::from_bytes` for the offset type. (offsets.rs:192.) -/
def readWidth : Width → Reader Nat
  | .w16 => do return (← readU16).toNat
  | .w32 => do return (← readU32).toNat

/-- `Deserialize for Offset<T, U>` (offsets.rs:190-205): a zero field is a null link; otherwise the offset is
converted to 16 bits (`try_into().unwrap()`), followed from the current table base, and the cursor restored. -/
def readOffset {α : Type} (w : Width) (p : Reader α) : Reader (Option α) := do
  let off ← readWidth w
  if off = 0 then return none
  else if off > 65535 then crash
  else do
    let old ← getPtr
    followOffset (UInt16.ofNat off)
    let a ← p
    setPtr old
    return some a

end FT.Off
