import Verif.Model.LayoutTables

/-!
The table set (src/table_store.rs): lazy loading, shared pointers and copy-on-write.

Memory is explicit: `Rc` allocations are cells of a heap that is never reclaimed, and the reference count of a cell is
the number of live references to it in the store and in the caller's variables. The values themselves (`V`, the
`LoadedTable` payloads) and their parsers are parameters.
-/

namespace FT.Store
open FT

/-- What the store needs to know about tables. -/
structure Parser (V : Type) where
  /-- The table that must be loaded first (`deserialize_table`, table_store.rs:326-393): GPOS, GSUB need maxp; hmtx
  needs hhea; loca needs head; glyf needs loca; gvar needs glyf. -/
  dep : Tag → Option Tag
  /-- Parsing, given the value of the dependency. -/
  parse : Tag → Bytes → Option V → Res V
  /-- `LoadedTable::to_bytes` (table_store.rs:636-666). -/
  ser : V → Res Bytes

/-- `Table` (table_store.rs:57-66): `ptr` is the address in the `Rc`. -/
structure Table where
  tag : Tag
  raw : Option Bytes
  ptr : Nat
  deriving DecidableEq, Repr

/-- `LazyItem` (table_store.rs:50-53). -/
inductive Item where
  | unloaded (b : Bytes)
  | loaded (t : Table)
  deriving DecidableEq, Repr

/-- A variable of the caller: a `Table` or a typed `CowPtr` (table_store.rs:149-152), whose type determines the tag
under which it can be inserted. -/
inductive Holder where
  | table (t : Table)
  | cow (tag : Tag) (ptr : Nat)
  deriving DecidableEq, Repr

/-- The object that a holder points to. -/
def Holder.ptr : Holder → Nat
  | .table t => t.ptr
  | .cow _ p => p

/-- The table store (`TableSet`, table_store.rs:44-46), the objects its pointers refer to, and the pointers given out.
-/
structure St (V : Type) where
  heap : List V
  store : List (Tag × Item)
  holders : List (Option Holder)

variable {V : Type}

/-- The objects that an entry of the store refers to. -/
def Item.refs : Item → List Nat
  | .unloaded _ => []
  | .loaded t => [t.ptr]

/-- The objects that a pointer given out refers to. -/
def holderRefs : Option Holder → List Nat
  | none => []
  | some h => [h.ptr]

/-- All live references. -/
def St.refs (s : St V) : List Nat := s.store.flatMap (fun x => x.2.refs) ++ s.holders.flatMap holderRefs

/-- `Rc::strong_count`. -/
def St.count (s : St V) (p : Nat) : Nat := s.refs.count p

/-- `BTreeMap::remove`. -/
def erase {α : Type} (m : List (Tag × α)) (t : Tag) : List (Tag × α) := m.filter (fun x => decide (x.1 ≠ t))

/-- The end of `deserialize_table` and `load_if_needed` (table_store.rs:320-323, 388-393): a fresh `Rc` for the parsed
value; the raw bytes are kept. The flag is `false` for an error. -/
def St.finish (P : Parser V) (t : Tag) (b : Bytes) (d : Option V) (s : St V) : Res (Bool × St V) :=
  match P.parse t b d with
  | .ok v => .ok (true, { s with heap := s.heap ++ [v],
                                 store := BMap.insert s.store t (.loaded ⟨t, some b, s.heap.length⟩) })
  | .err => .ok (false, s)
  | .panic => .panic

/-- The value of a loaded table. -/
def St.valueAt (s : St V) (t : Tag) : Option V := match BMap.get? s.store t with
  | some (.loaded tb) => s.heap[tb.ptr]?
  | _ => none

/-- `load_if_needed` (table_store.rs:310-324) with `deserialize_table` (table_store.rs:326-394). `fuel` bounds the
chain of dependencies; the longest in the code is gvar, glyf, loca, head. A missing dependency is an error; tables that
were loaded on the way stay loaded even if a later step fails. -/
def St.load (P : Parser V) : Nat → Tag → St V → Res (Bool × St V)
  | fuel, t, s => match BMap.get? s.store t with
    | none => .ok (true, s)
    | some (.loaded _) => .ok (true, s)
    | some (.unloaded b) => match P.dep t with
      | none => s.finish P t b none
      | some d => match fuel with
        | 0 => .panic
        | fuel + 1 => match St.load P fuel d s with
          | .ok (false, s) => .ok (false, s)
          | .ok (true, s) => match s.valueAt d with
            | none => .ok (false, s)
            | some v => s.finish P t b (some v)
          | .err => .err
          | .panic => .panic

/-- What a caller can see of an operation. -/
inductive Obs (V : Type) where
  | done
  | absent
  | failed
  | value (v : V)
  | wrote (r : Res Bytes)

/-- The public operations. `modify` is any use of a `&mut` method through `DerefMut`. (table_store.rs:156-308.) -/
inductive Op (V : Type) where
  | get (t : Tag)
  | open_ (t : Tag)
  | clone (i : Nat)
  | read (i : Nat)
  | modify (i : Nat) (f : V → V)
  | intoOwned (i : Nat)
  | insertHolder (i : Nat)
  | insertNew (t : Tag) (v : V)
  | insertRaw (t : Tag) (b : Bytes)
  | remove (t : Tag)
  | drop (i : Nat)
  | write (t : Tag)

/-- The pointer given out as number `i`, if it has not been dropped. -/
def St.holder (s : St V) (i : Nat) : Option Holder := (s.holders[i]?).join

/-- Giving out a pointer. -/
def St.push (s : St V) (h : Option Holder) : St V := { s with holders := s.holders ++ [h] }

/-- Replacing or dropping a pointer given out. -/
def St.setHolder (s : St V) (i : Nat) (h : Option Holder) : St V := { s with holders := s.holders.set i h }

/-- `get` (table_store.rs:243-249) and the typed accessors (table_store.rs:609-612), which turn the `Table` into a
`CowPtr`. -/
def St.getAs (P : Parser V) (t : Tag) (wrap : Table → Holder) (s : St V) : Res (Obs V × St V) :=
  match s.load P 4 t with
  | .ok (false, s) => .ok (.failed, s)
  | .ok (true, s) => match BMap.get? s.store t with
    | some (.loaded tb) => .ok (.done, s.push (some (wrap tb)))
    | _ => .ok (.absent, s)
  | .err => .err
  | .panic => .panic

/-- Goes with `St.getAs` (table_store.rs:243-249; table_store.rs:609-612). -/
def asCow (tb : Table) : Holder := .cow tb.tag tb.ptr

/-- `Rc::make_mut` through `DerefMut` (table_store.rs:181-185) followed by an update of the value: in place if the
reference is unique, else on a fresh copy. Only `CowPtr` can be dereferenced. -/
def St.modify (i : Nat) (f : V → V) (s : St V) : Res (Obs V × St V) :=
  match s.holder i with
  | some (.cow t p) => match s.heap[p]? with
    | some v =>
      if s.count p = 1 then .ok (.done, { s with heap := s.heap.set p (f v) })
      else .ok (.done, { s with heap := s.heap ++ [f v], holders := s.holders.set i (some (.cow t s.heap.length)) })
    | none => .panic
  | _ => .ok (.absent, s)

/-- `insert` (table_store.rs:294-299) of a variable: a `Table` keeps its raw bytes, a `CowPtr` has none
(table_store.rs:578-588). -/
def St.insertHolder (i : Nat) (s : St V) : Res (Obs V × St V) :=
  match s.holder i with
  | some (.table tb) => .ok (.done, ({ s with store := BMap.insert s.store tb.tag (.loaded tb) }).setHolder i none)
  | some (.cow t p) => .ok (.done, ({ s with store := BMap.insert s.store t (.loaded ⟨t, none, p⟩) }).setHolder i none)
  | none => .ok (.absent, s)

/-- `write_table` (table_store.rs:506-523): an absent table writes nothing. -/
def St.write (P : Parser V) (t : Tag) (s : St V) : Res Bytes := match BMap.get? s.store t with
  | none => .ok []
  | some (.unloaded b) => .ok b
  | some (.loaded tb) => match tb.raw with
    | some b => .ok b
    | none => match s.heap[tb.ptr]? with
      | some v => P.ser v
      | none => .panic

/-- Looking through a pointer given out (`Deref`, table_store.rs:173-178). -/
def St.read (i : Nat) (s : St V) : Obs V := match s.holder i with
  | some h => match s.heap[h.ptr]? with
    | some v => .value v
    | none => .absent
  | none => .absent

/-- One operation. (table_store.rs:156-308.) -/
def step (P : Parser V) : Op V → St V → Res (Obs V × St V)
  | .get t, s => s.getAs P t .table
  | .open_ t, s => s.getAs P t asCow
  | .clone i, s => match s.holder i with
    | some h => .ok (.done, s.push (some h))
    | none => .ok (.absent, s)
  | .read i, s => .ok (s.read i, s)
  | .modify i f, s => s.modify i f
  | .intoOwned i, s => .ok (s.read i, s.setHolder i none)
  | .insertHolder i, s => s.insertHolder i
  | .insertNew t v, s => .ok (.done, { s with heap := s.heap ++ [v],
                                              store := BMap.insert s.store t (.loaded ⟨t, none, s.heap.length⟩) })
  | .insertRaw t b, s => .ok (.done, { s with store := BMap.insert s.store t (.unloaded b) })
  | .remove t, s => match BMap.get? s.store t with
    | some (.loaded tb) => .ok (.done, ({ s with store := erase s.store t }).push (some (.table tb)))
    | some (.unloaded _) => .ok (.absent, { s with store := erase s.store t })
    | none => .ok (.absent, s)
  | .drop i, s => .ok (.done, s.setHolder i none)
  | .write t, s => .ok (.wrote (s.write P t), s)

/-- A history of operations: all observations, and the final state. -/
def run (P : Parser V) : List (Op V) → St V → Res (List (Obs V) × St V)
  | [], s => .ok ([], s)
  | op :: ops, s => match step P op s with
    | .ok (o, s) => match run P ops s with
      | .ok (os, s) => .ok (o :: os, s)
      | .err => .err
      | .panic => .panic
    | .err => .err
    | .panic => .panic

/-- A freshly loaded font: raw tables only (`TableLoader::add`, table_store.rs:190-194). -/
def fresh (tables : List (Tag × Bytes)) : St V := ⟨[], tables.map (fun x => (x.1, .unloaded x.2)), []⟩

end FT.Store
