import Verif.Model.Offsets

/-!
The code generated by `#[derive(Serialize, Deserialize)]` (crates/otspec_macros/src/ser.rs, de.rs) for any
structure, as the `tables!` macro (crates/otspec_macros/src/tables.rs) declares them, together with what it calls:
`Counted`, `Vec`, `Offset`, `VecOffset` (crates/otspec/src/counted.rs, lib.rs, offsets.rs) and `OffsetManager`
(offsetmanager.rs).

A declaration is a value of `Ty`; `Ty.den` is the Rust type it declares. Unlike `Model/Offsets`, which starts from the
sequence of what the fields of one table write, this models the generated code itself, for well and badly chosen
attributes alike.

Simplifications: `Maybe(..)` (`Option`) fields and plain `Vec` fields are left out (there is no `Deserialize` for
`Option`, and `Vec` reads to the end of the file); generic parameters are left out.
-/

namespace FT.Der
open FT FT.Off Reader

/-- A field type with its own `Serialize` and `Deserialize` and without offsets in it: numbers, tags, `Fixed`,
or any type with hand-written code. `size` is its `ot_binary_size`. -/
structure Leaf where
  α : Type
  enc : α → Res Bytes
  size : α → Nat
  read : Reader α

mutual
/-- What can stand before a name in `tables!` (tables.rs:179-247):
`leaf`: any type name (tables.rs:244-247); `counted`: `Counted(T)` and `Counted32(T)`, a `Vec<T>` with the attribute
`with = "Counted"` (tables.rs:188-205); `off`: `Offset16(T)`, `Offset32(T)` (tables.rs:206-221); `offs`:
`CountedOffset16(T)`, `CountedOffset32(T)`, a `VecOffset` with the attribute `with = "Counted"` (tables.rs:222-239);
`record`: the name of another declared structure; `embedded` is its pragma `[embedded]` (tables.rs:134-135). -/
inductive Ty : Type 1 where
  | leaf (c : Leaf)
  | counted (w : Width) (t : Ty)
  | off (w : Width) (t : Ty)
  | offs (c w : Width) (t : Ty)
  | record (embedded : Bool) (fs : Fields)
/-- Fields of a structure, with the pragmas `[offset_base]` and `[embed]` (tables.rs:169-178). -/
inductive Fields : Type 1 where
  | nil
  | cons (base embed : Bool) (t : Ty) (rest : Fields)
end

/-- `Offset<T, U>` (offsets.rs:41-45): the stored number, and the table. -/
structure Link (α : Type) where
  off : Option Nat
  link : Option α

/-- `Offset::to` (offsets.rs:133-138). -/
def Link.to {α : Type} (a : α) : Link α := ⟨none, some a⟩
/-- `Offset::to_nothing` (offsets.rs:149-154). -/
def Link.nothing {α : Type} : Link α := ⟨some 0, none⟩
/-- `is_explicitly_zero` (offsets.rs:108-112). -/
def Link.isZero {α : Type} (l : Link α) : Bool := l.link.isNone && l.off == some 0

/-- A `VecOffset` (ser.rs:179-184). -/
def Ty.isOffs : Ty → Bool
  | .offs _ _ _ => true
  | _ => false

/-- An `Offset` (ser.rs:153-154). -/
def Ty.isOff : Ty → Bool
  | .off _ _ => true
  | _ => false

mutual
/-- Values of the declared type. -/
@[reducible] def Ty.den : Ty → Type
  | .leaf c => c.α
  | .counted _ t => List t.den
  | .off _ t => Link t.den
  | .offs _ _ t => List (Link t.den)
  | .record _ fs => fs.den
/-- Values of the declared fields. -/
@[reducible] def Fields.den : Fields → Type
  | .nil => Unit
  | .cons _ _ t r => t.den × r.den
end

mutual
/-- `ot_binary_size`: ser.rs:64-66, 110-142; counted.rs:18-20, 77-79; offsets.rs:182-184; lib.rs:255-257. -/
def size : (t : Ty) → t.den → Nat
  | .leaf c, a => c.size a
  | .counted w t, l => w.size + ((l : List t.den).map (size t)).sum
  | .off w _, _ => w.size
  | .offs c w t, l => c.size + ((l : List (Link t.den)).map (fun _ => w.size)).sum
  | .record _ fs, v => sizeF fs v
/-- Goes with `size` (ser.rs:64-66, 110-142; counted.rs:18-20, 77-79; offsets.rs:182-184). -/
def sizeF : (fs : Fields) → fs.den → Nat
  | .nil, _ => 0
  | .cons _ _ t r, (x, y) => size t x + sizeF r y
end

/-- A loop that carries a position. -/
def thread {α : Type} (f : α → Nat → α × Nat) : List α → Nat → List α × Nat
  | [], p => ([], p)
  | a :: l, p =>
    let (a', p1) := f a p
    let (l', p2) := thread f l p1
    (a' :: l', p2)

/-- One node of the graph in `OffsetManager::resolve` (offsetmanager.rs:40-90): the table gets the position `p`, the
tables below it follow, and the number stored is the distance from `base`, unless the offset is explicitly zero
(offsetmanager.rs:81-84); `set` stores nothing if the number does not fit (offsets.rs:116-118). An `Offset` whose
`link` was taken away has size 0 and no children (offsets.rs:78-85) but a position like the others. -/
def placeLink {α : Type} (w : Width) (sz : α → Nat) (below : α → Nat → Nat → α × Nat)
    (l : Link α) (base p : Nat) : Link α × Nat :=
  match l.link with
  | none => (if l.isZero then l else ⟨if p - base ≤ w.max then some (p - base) else none, none⟩, p)
  | some a =>
    let (a', p') := below a p (p + sz a)
    (⟨if p - base ≤ w.max then some (p - base) else none, some a'⟩, p')

mutual
/-- `OffsetManager::resolve` for what `offset_fields` of a value lists: `Vec` and `Counted` list what their elements
list (lib.rs:258-264, counted.rs:21-27), `VecOffset` its offsets (offsets.rs:270-276), an `Offset` by itself nothing
(offsets.rs:185-187), a structure first its fields of type `Offset`, then what its `VecOffset` fields and its fields
marked `embed` list (ser.rs:68-72, 144-195). Nodes are visited in preorder (see `Off.resolve`). -/
def place : (t : Ty) → t.den → (base p : Nat) → t.den × Nat
  | .leaf _, v, _, p => (v, p)
  | .counted _ t, l, base, p => thread (fun x q => place t x base q) l p
  | .off _ _, v, _, p => (v, p)
  | .offs _ w t, l, base, p => thread (fun x q => placeLink w (size t) (place t) x base q) l p
  | .record _ fs, v, base, p =>
    let (v1, p1) := placeDirect fs v base p
    placeRest fs v1 base p1
/-- A field of type `Offset` (ser.rs:153-154). -/
def placeHere : (t : Ty) → t.den → (base p : Nat) → t.den × Nat
  | .off w t, l, base, p => placeLink w (size t) (place t) l base p
  | .leaf _, v, _, p => (v, p)
  | .counted _ _, v, _, p => (v, p)
  | .offs _ _ _, v, _, p => (v, p)
  | .record _ _, v, _, p => (v, p)
/-- The fields of type `Offset`. -/
def placeDirect : (fs : Fields) → fs.den → (base p : Nat) → fs.den × Nat
  | .nil, v, _, p => (v, p)
  | .cons _ _ t r, (x, y), base, p =>
    let (x', p1) := placeHere t x base p
    let (y', p2) := placeDirect r y base p1
    ((x', y'), p2)
/-- The other fields: `VecOffset`s and those marked `embed`. -/
def placeRest : (fs : Fields) → fs.den → (base p : Nat) → fs.den × Nat
  | .nil, v, _, p => (v, p)
  | .cons _ e t r, (x, y), base, p =>
    let (x', p1) := if e || t.isOffs then place t x base p else (x, p)
    let (y', p2) := placeRest r y base p1
    ((x', y'), p2)
end

mutual
/-- Number of offsets that `offset_fields` lists (see `place`). -/
def marks : (t : Ty) → t.den → Nat
  | .leaf _, _ => 0
  | .counted _ t, l => ((l : List t.den).map (marks t)).sum
  | .off _ _, _ => 0
  | .offs _ _ t, l => (l : List (Link t.den)).length
  | .record _ fs, v => marksF fs v
/-- `marks` of the fields of a structure (ser.rs:64-142). -/
def marksF : (fs : Fields) → fs.den → Nat
  | .nil, _ => 0
  | .cons _ e t r, (x, y) => (if t.isOff then 1 else 0) + (if e || t.isOffs then marks t x else 0) + marksF r y
end

/-- `Offset::to_bytes` (offsets.rs:172-180). -/
def encLink {α : Type} (w : Width) (l : Link α) : Res Bytes :=
  match l.off with
  | some n => .ok (w.enc n)
  | none => match l.link with
    | none => .ok (w.enc 0)
    | some _ => .err

/-- A node in `OffsetManager::serialize` (offsetmanager.rs:95-116): its contents (`serialize_contents`,
offsets.rs:119-124), then the nodes below it. -/
def writeLink {α : Type} (own below : α → Res Bytes) (l : Link α) : Res Bytes :=
  match l.link with
  | none => .ok []
  | some a => do
    let x ← own a
    let y ← below a
    return x ++ y

mutual
/-- `to_bytes`: a structure that is not `[embedded]` and whose value lists offsets resolves them, writes its fields
and then all tables below it (ser.rs:28-57); otherwise it only writes its fields. `Counted` and `Vec` call `to_bytes`
of their elements (counted.rs:13-17, 72-76; lib.rs:234-236, 249-254). -/
def toBytes : (t : Ty) → t.den → Res Bytes
  | .leaf c, a => c.enc a
  | .counted w t, l => do
    let x ← encVecR (toBytes t) l
    return w.enc (l : List t.den).length ++ x
  | .off w _, l => encLink w l
  | .offs c w t, l => do
    let x ← encVecR (encLink w) l
    return c.enc (l : List (Link t.den)).length ++ x
  | .record emb fs, v =>
    if emb || marksF fs v == 0 then shallow fs v
    else
      let v1 := placeDirect fs v 0 (sizeF fs v)
      let v2 := (placeRest fs v1.1 0 v1.2).1
      do
        let x ← shallow fs v2
        let y ← writeDirect fs v2
        let z ← writeRest fs v2
        return x ++ y ++ z
/-- `to_bytes_shallow` of a linked table: of a structure, its fields (ser.rs:59-63); otherwise `to_bytes`
(lib.rs:163-165). -/
def own : (t : Ty) → t.den → Res Bytes
  | .leaf c, a => c.enc a
  | .counted w t, l => do
    let x ← encVecR (toBytes t) l
    return w.enc (l : List t.den).length ++ x
  | .off w _, l => encLink w l
  | .offs c w t, l => do
    let x ← encVecR (encLink w) l
    return c.enc (l : List (Link t.den)).length ++ x
  | .record _ fs, v => shallow fs v
/-- The fields of a structure, each with its `to_bytes` (ser.rs:81-108). -/
def shallow : (fs : Fields) → fs.den → Res Bytes
  | .nil, _ => .ok []
  | .cons _ _ t r, (x, y) => do
    let a ← toBytes t x
    let b ← shallow r y
    return a ++ b
/-- The tables below a value: what `offset_fields` lists, each followed by what is below it. -/
def write : (t : Ty) → t.den → Res Bytes
  | .leaf _, _ => .ok []
  | .counted _ t, l => encVecR (write t) l
  | .off _ _, _ => .ok []
  | .offs _ _ t, l => encVecR (writeLink (own t) (write t)) l
  | .record _ fs, v => do
    let x ← writeDirect fs v
    let y ← writeRest fs v
    return x ++ y
/-- What `to_bytes_shallow` writes for a value (ser.rs:59-63; see `write`). -/
def writeHere : (t : Ty) → t.den → Res Bytes
  | .off _ t, l => writeLink (own t) (write t) l
  | .leaf _, _ => .ok []
  | .counted _ _, _ => .ok []
  | .offs _ _ _, _ => .ok []
  | .record _ _, _ => .ok []
/-- What `to_bytes_shallow` writes for the fields of a structure (ser.rs:59-63; see `write`). -/
def writeDirect : (fs : Fields) → fs.den → Res Bytes
  | .nil, _ => .ok []
  | .cons _ _ t r, (x, y) => do
    let a ← writeHere t x
    let b ← writeDirect r y
    return a ++ b
/-- What `to_bytes` puts after the fields of a structure (ser.rs:7-79; see `write`). -/
def writeRest : (fs : Fields) → fs.den → Res Bytes
  | .nil, _ => .ok []
  | .cons _ e t r, (x, y) => do
    let a ← (if e || t.isOffs then write t x else .ok [])
    let b ← writeRest r y
    return a ++ b
end

/-- `Deserialize for Offset` (offsets.rs:190-205); the number is converted to 16 bits with `unwrap`. -/
def readLink {α : Type} (w : Width) (p : Reader α) : Reader (Link α) := do
  let off ← readWidth w
  if off = 0 then return ⟨some 0, none⟩
  else if off > 65535 then crash
  else do
    let old ← getPtr
    followOffset (UInt16.ofNat off)
    let a ← p
    setPtr old
    return ⟨some off, some a⟩

/-- Some field has the pragma `[offset_base]` (de.rs:28-32). -/
def Fields.anyBase : Fields → Bool
  | .nil => false
  | .cons b _ _ r => b || r.anyBase

mutual
/-- `from_bytes`: the fields in order, `push` before each field with `[offset_base]`, one `pop` at the end if there is
such a field (de.rs:26-43, 49-128); `Counted` (counted.rs:30-42, 89-101). -/
def read : (t : Ty) → Reader t.den
  | .leaf c => c.read
  | .counted w t => do
    let n ← readWidth w
    deCounted (read t) n
  | .off w t => readLink w (read t)
  | .offs c w t => do
    let n ← readWidth c
    deCounted (readLink w (read t)) n
  | .record _ fs => do
    let v ← readF fs
    if fs.anyBase then popTop
    return v
/-- Goes with `read` (de.rs:26-43, 49-128; counted.rs:30-42, 89-101). -/
def readF : (fs : Fields) → Reader fs.den
  | .nil => pure ()
  | .cons b _ t r => do
    if b then pushTop
    let x ← read t
    let y ← readF r
    return (x, y)
end

end FT.Der
