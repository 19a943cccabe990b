/-
Core vocabulary of the model: outcomes, the reader state, primitive codecs.

Models `crates/otspec/src/lib.rs`, `types.rs` (integers), `counted.rs` and `tag.rs`.
-/

namespace FT

/-- Outcome of a Rust call: `Ok a`, `Err _` (message dropped), or a panic
(explicit `panic!`, `unwrap` on `None`, slice index out of range, arithmetic overflow in a
debug build). -/
inductive Res (α : Type u) where
  | ok (a : α)
  | err
  | panic
  deriving DecidableEq, Repr

namespace Res

/-- The `?` operator. -/
@[inline] def bind {α : Type u} {β : Type v} (x : Res α) (f : α → Res β) : Res β :=
  match x with
  | ok a => f a
  | err => err
  | panic => panic

instance : Monad Res where
  pure := ok
  bind := bind

@[simp] theorem pure_eq {α : Type u} (a : α) : (pure a : Res α) = ok a := rfl
@[simp] theorem ok_bind {α β : Type u} (a : α) (f : α → Res β) : (ok a >>= f) = f a := rfl
@[simp] theorem err_bind {α β : Type u} (f : α → Res β) : ((err : Res α) >>= f) = err := rfl
@[simp] theorem panic_bind {α β : Type u} (f : α → Res β) : ((panic : Res α) >>= f) = panic := rfl
@[simp] theorem map_ok {α β : Type u} (a : α) (f : α → β) : (f <$> ok a) = ok (f a) := rfl

/-- `Option::ok_or`. -/
def ofOption {α : Type u} : Option α → Res α
  | some a => ok a
  | none => err

/-- `Option::unwrap`. -/
def unwrap {α : Type u} : Option α → Res α
  | some a => ok a
  | none => panic

@[simp] theorem unwrap_some {α : Type u} (a : α) : unwrap (some a) = ok a := rfl
@[simp] theorem ofOption_some {α : Type u} (a : α) : ofOption (some a) = ok a := rfl

/-- Run a fallible action on each element in order, stopping at the first failure
(`for x in v { f(x)? }` or `.map(f).collect::<Result<Vec<_>,_>>()`). -/
def mapL {α : Type u} {β : Type v} (f : α → Res β) : List α → Res (List β)
  | [] => ok []
  | a :: l => match f a with
    | ok b => match mapL f l with
      | ok bs => ok (b :: bs)
      | err => err
      | panic => panic
    | err => err
    | panic => panic

end Res

/-- Byte strings: `Vec<u8>` and `&[u8]`. -/
abbrev Bytes := List UInt8

/-- `ReaderContext` (crates/otspec/src/lib.rs:26-30): input, cursor, stack of table bases
(head of the list = top of the stack). -/
structure Rd where
  inp : Bytes
  ptr : Nat
  stk : List Nat
  deriving DecidableEq, Repr

/-- A deserializer. The reader state after an error is not modelled (callers propagate the error),
except for `readVec` below. -/
def Reader (α : Type) := Rd → Res (α × Rd)

namespace Reader

instance : Monad Reader where
  pure a := fun r => .ok (a, r)
  bind p f := fun r => match p r with
    | .ok (a, r') => f a r'
    | .err => .err
    | .panic => .panic

theorem pure_run {α : Type} (a : α) (r : Rd) : (pure a : Reader α) r = .ok (a, r) := rfl
theorem bind_run {α β : Type} (p : Reader α) (f : α → Reader β) (r : Rd) :
    (p >>= f) r = match p r with
      | .ok (a, r') => f a r'
      | .err => .err
      | .panic => .panic := rfl

/-- `return Err(..)`. -/
def fail {α : Type} : Reader α := fun _ => .err
/-- A panic. -/
def crash {α : Type} : Reader α := fun _ => .panic
/-- Lift a pure outcome. -/
def lift {α : Type} (x : Res α) : Reader α := fun r => match x with
  | .ok a => .ok (a, r)
  | .err => .err
  | .panic => .panic

end Reader

open Reader

/-- `ReaderContext::new` (lib.rs:33-39). -/
def Rd.new (b : Bytes) : Rd := ⟨b, 0, [0]⟩

/-- `ReaderContext::consume` (lib.rs:41-59, `consume_or_peek` with `consume = true`): error without
moving if the request does not fit, otherwise the bytes, with the cursor advanced. -/
def consume (n : Nat) : Reader Bytes := fun r =>
  if r.ptr + n > r.inp.length then .err
  else .ok ((r.inp.drop r.ptr).take n, { r with ptr := r.ptr + n })

/-- `ReaderContext::peek` (lib.rs:61-63). -/
def peek (n : Nat) : Reader Bytes := fun r =>
  if r.ptr + n > r.inp.length then .err
  else .ok ((r.inp.drop r.ptr).take n, r)

/-- The whole buffer (`ReaderContext::input`). -/
def getInp : Reader Bytes := fun r => .ok (r.inp, r)

/-- `ReaderContext::push` (lib.rs:65-67). -/
def pushTop : Reader Unit := fun r => .ok ((), { r with stk := r.ptr :: r.stk })

/-- `ReaderContext::pop` (lib.rs:68-72); `expect` panics on an empty stack. -/
def popTop : Reader Unit := fun r => match r.stk with
  | [] => .panic
  | _ :: s => .ok ((), { r with stk := s })

/-- `ReaderContext::top_of_table` (lib.rs:73-75). -/
def topOfTable : Reader Nat := fun r => match r.stk with
  | [] => .panic
  | b :: _ => .ok (b, r)

/-- `ReaderContext::skip` (lib.rs:76-78): unchecked. -/
def skip (n : Nat) : Reader Unit := fun r => .ok ((), { r with ptr := r.ptr + n })

/-- Reading and assigning the public field `ptr`. -/
def getPtr : Reader Nat := fun r => .ok (r.ptr, r)
/-- Assigning the public field `ptr` (lib.rs:28). -/
def setPtr (n : Nat) : Reader Unit := fun r => .ok ((), { r with ptr := n })

/-- `ReaderContext::follow_offset` (lib.rs:80-91). -/
def followOffset (off : UInt16) : Reader Unit := fun r => match r.stk with
  | [] => .panic
  | b :: _ =>
    if b + off.toNat > r.inp.length then .err
    else .ok ((), { r with ptr := b + off.toNat })

/-! ### Primitive codecs (lib.rs:174-206: `to_be_bytes` / `from_be_bytes`) -/

/-- Primitive codec (crates/otspec/src/lib.rs:174-206). -/
def encU8 (x : UInt8) : Bytes := [x]
/-- Primitive codec (crates/otspec/src/lib.rs:174-206). -/
def encU16 (x : UInt16) : Bytes := [UInt8.ofNat (x.toNat / 256), UInt8.ofNat (x.toNat % 256)]
/-- Primitive codec (crates/otspec/src/lib.rs:174-206). -/
def encU32 (x : UInt32) : Bytes :=
  [UInt8.ofNat (x.toNat / 16777216), UInt8.ofNat (x.toNat / 65536 % 256),
   UInt8.ofNat (x.toNat / 256 % 256), UInt8.ofNat (x.toNat % 256)]
/-- Primitive codec (crates/otspec/src/lib.rs:174-206). -/
def encU64 (x : UInt64) : Bytes :=
  encU32 (UInt32.ofNat (x.toNat / 4294967296)) ++ encU32 (UInt32.ofNat (x.toNat % 4294967296))
/-- Primitive codec (crates/otspec/src/lib.rs:174-206). -/
def encI8 (x : Int8) : Bytes := [x.toUInt8]
/-- Primitive codec (crates/otspec/src/lib.rs:174-206). -/
def encI16 (x : Int16) : Bytes := encU16 x.toUInt16
/-- Primitive codec (crates/otspec/src/lib.rs:174-206). -/
def encI32 (x : Int32) : Bytes := encU32 x.toUInt32
/-- Primitive codec (crates/otspec/src/lib.rs:174-206). -/
def encI64 (x : Int64) : Bytes := encU64 x.toUInt64

/-- Primitive codec (crates/otspec/src/lib.rs:174-206). -/
def readU8 : Reader UInt8 := do
  match ← consume 1 with
  | [a] => pure a
  | _ => fail
/-- Primitive codec (crates/otspec/src/lib.rs:174-206). -/
def readU16 : Reader UInt16 := do
  match ← consume 2 with
  | [a, b] => pure (UInt16.ofNat (a.toNat * 256 + b.toNat))
  | _ => fail
/-- Primitive codec (crates/otspec/src/lib.rs:174-206). -/
def readU32 : Reader UInt32 := do
  match ← consume 4 with
  | [a, b, c, d] =>
    pure (UInt32.ofNat (a.toNat * 16777216 + b.toNat * 65536 + c.toNat * 256 + d.toNat))
  | _ => fail
/-- Primitive codec (crates/otspec/src/lib.rs:174-206). -/
def readI8 : Reader Int8 := do return (← readU8).toInt8
/-- Primitive codec (crates/otspec/src/lib.rs:174-206). -/
def readI16 : Reader Int16 := do return (← readU16).toInt16
/-- Primitive codec (crates/otspec/src/lib.rs:174-206). -/
def readI32 : Reader Int32 := do return (← readU32).toInt32
/-- Primitive codec (crates/otspec/src/lib.rs:174-206). -/
def readI64 : Reader Int64 := do
  match ← consume 8 with
  | [a, b, c, d, e, f, g, h] =>
    pure (UInt64.ofNat
      ((a.toNat * 16777216 + b.toNat * 65536 + c.toNat * 256 + d.toNat) * 4294967296 +
       (e.toNat * 16777216 + f.toNat * 65536 + g.toNat * 256 + h.toNat))).toInt64
  | _ => fail

/-- `uint24::to_bytes` (types.rs:29-40). The struct wraps a `u32`. -/
def encU24 (x : UInt32) : Res Bytes :=
  if x.toNat > 16777215 then .err
  else .ok [UInt8.ofNat (x.toNat / 65536 % 256), UInt8.ofNat (x.toNat / 256 % 256),
            UInt8.ofNat (x.toNat % 256)]

/-- `de_counted` (lib.rs:125-132): exactly `n` elements, stopping at the first error. -/
def deCounted {α : Type} (p : Reader α) : Nat → Reader (List α)
  | 0 => pure []
  | n + 1 => do
    let a ← p
    let l ← deCounted p n
    return a :: l

/-- `uint24::from_bytes` (types.rs:54-61). -/
def readU24 : Reader UInt32 := do
  match ← deCounted readU8 3 with
  | [a, b, c] => pure (UInt32.ofNat (a.toNat * 65536 + b.toNat * 256 + c.toNat))
  | _ => crash

/-- Fuelled loop of `readVec`. -/
def readVecFuel {α : Type} (p : Reader α) : Nat → Reader (List α)
  | 0 => pure []
  | k + 1 => fun r => match p r with
    | .ok (a, r') => match readVecFuel p k r' with
      | .ok (l, r'') => .ok (a :: l, r'')
      | .err => .err
      | .panic => .panic
    | .err => .ok ([], r)
    | .panic => .panic

/-- `Deserialize for Vec<T>` (lib.rs:267-283): read elements until one fails, then succeed.
Simplifications: the cursor is left after the last complete element (Rust leaves it wherever the failed
element left it, which at end of file is the same for fixed-size primitives); an element reader that
consumes nothing would loop forever in Rust, here the number of rounds is bounded by the number of input
bytes plus one. -/
def readVec {α : Type} (p : Reader α) : Reader (List α) := fun r =>
  readVecFuel p (r.inp.length + 1) r

/-- `Serialize for Vec<T>`/`[T]` (lib.rs:230-265) for an element writer that cannot fail. -/
def encVec {α : Type} (enc : α → Bytes) (l : List α) : Bytes := l.flatMap enc

/-- `Serialize for Vec<T>` for an element writer that may fail. -/
def encVecR {α : Type} (enc : α → Res Bytes) : List α → Res Bytes
  | [] => .ok []
  | a :: l => match enc a with
    | .ok x => match encVecR enc l with
      | .ok y => .ok (x ++ y)
      | .err => .err
      | .panic => .panic
    | .err => .err
    | .panic => .panic

/-- `Serialize for Option<T>` (lib.rs:208-217): `None` writes nothing. -/
def encOption {α : Type} (enc : α → Bytes) : Option α → Bytes
  | none => []
  | some a => enc a

/-- `Counted<T>::to_bytes` (counted.rs:9-16): the length is cast with `as uint16`. -/
def encCounted {α : Type} (enc : α → Bytes) (l : List α) : Bytes :=
  encU16 (UInt16.ofNat l.length) ++ encVec enc l

/-- `Counted<T>::from_bytes` (counted.rs:30-42). -/
def readCounted {α : Type} (p : Reader α) : Reader (List α) := do
  let n ← readU16
  deCounted p n.toNat

/-- `Counted32<T>::to_bytes` (counted.rs:68-75): the length is cast with `as uint32`. -/
def encCounted32 {α : Type} (enc : α → Bytes) (l : List α) : Bytes :=
  encU32 (UInt32.ofNat l.length) ++ encVec enc l

/-- `Counted32<T>::from_bytes` (counted.rs:89-101). -/
def readCounted32 {α : Type} (p : Reader α) : Reader (List α) := do
  let n ← readU32
  deCounted p n.toNat

/-! ### Tags (tag.rs) -/

/-- `Tag([u8; 4])` (tag.rs:14-15). -/
structure Tag where
  a : UInt8
  b : UInt8
  c : UInt8
  d : UInt8
  deriving DecidableEq, Repr

/-- Byte allowed in a tag (tag.rs:35): `0x20..=0x7E`. -/
def tagByteOk (x : UInt8) : Bool := 0x20 ≤ x && x ≤ 0x7E

/-- The four bytes of a tag (crates/otspec/src/tag.rs:35). -/
def Tag.bytes (t : Tag) : Bytes := [t.a, t.b, t.c, t.d]

/-- `Tag::from_raw` (tag.rs:30-46): 1 to 4 printable bytes, right-padded with spaces. -/
def Tag.fromRaw (s : Bytes) : Res Tag :=
  if s.isEmpty || s.length > 4 then .err
  else if s.all tagByteOk then
    match s ++ List.replicate (4 - s.length) 0x20 with
    | [a, b, c, d] => .ok ⟨a, b, c, d⟩
    | _ => .panic
  else .err

/-- Every tag built through the safe constructor satisfies this. -/
def Tag.Valid (t : Tag) : Prop :=
  tagByteOk t.a ∧ tagByteOk t.b ∧ tagByteOk t.c ∧ tagByteOk t.d

instance (t : Tag) : Decidable t.Valid := by unfold Tag.Valid; infer_instance

/-- `Tag::to_bytes` (tag.rs:133-140). -/
def encTag (t : Tag) : Bytes := encU8 t.a ++ encU8 t.b ++ encU8 t.c ++ encU8 t.d

/-- `Tag::from_bytes` (tag.rs:146-151). -/
def readTag : Reader Tag := do
  let bs ← consume 4
  Reader.lift (Tag.fromRaw bs)

end FT
