import Verif.Model.Derive

/-!
What can be asked of the offsets of a structure, for any declaration: `any_offsets_need_resolving`, `resolve_offsets`
(crates/otspec/src/offsetmanager.rs) and `needs_resolving`, `total_size_with_descendants` (crates/otspec/src/offsets.rs).
-/

namespace FT.Der
open FT FT.Off

/-- `needs_resolving` of an offset (offsets.rs:96-106): no number is stored, or one of its children needs it. -/
def needsLink {α : Type} (below : α → Bool) (l : Link α) : Bool := l.off.isNone || (match l.link with
  | none => false
  | some a => below a)

mutual
/-- Some of what `offset_fields` of a value lists needs resolving (offsetmanager.rs:118-132); for what is listed see `place`
(lib.rs:258-264, counted.rs:21-27, offsets.rs:185-187, 270-276, ser.rs:68-72, 144-195). -/
def needs : (t : Ty) → t.den → Bool
  | .leaf _, _ => false
  | .counted _ t, l => (l : List t.den).any (needs t)
  | .off _ _, _ => false
  | .offs _ _ t, l => (l : List (Link t.den)).any (needsLink (needs t))
  | .record _ fs, v => needsDirect fs v || needsRest fs v
/-- A field of type `Offset` (ser.rs:153-154). -/
def needsHere : (t : Ty) → t.den → Bool
  | .off _ t, l => needsLink (needs t) l
  | .leaf _, _ => false
  | .counted _ _, _ => false
  | .offs _ _ _, _ => false
  | .record _ _, _ => false
/-- The fields of type `Offset` (ser.rs:144-195). -/
def needsDirect : (fs : Fields) → fs.den → Bool
  | .nil, _ => false
  | .cons _ _ t r, (x, y) => needsHere t x || needsDirect r y
/-- The other fields: `VecOffset`s and those marked `embed` (ser.rs:144-195). -/
def needsRest : (fs : Fields) → fs.den → Bool
  | .nil, _ => false
  | .cons _ e t r, (x, y) => (if e || t.isOffs then needs t x else false) || needsRest r y
end

/-- `total_size_with_descendants` of an offset (offsets.rs:86-94): its table (offsets.rs:83-85) and its children. -/
def totalLink {α : Type} (sz below : α → Nat) (l : Link α) : Nat := match l.link with
  | none => 0
  | some a => sz a + below a

mutual
/-- The sum of `total_size_with_descendants` over what `offset_fields` lists (offsets.rs:86-94); see `needs`. -/
def totals : (t : Ty) → t.den → Nat
  | .leaf _, _ => 0
  | .counted _ t, l => ((l : List t.den).map (totals t)).sum
  | .off _ _, _ => 0
  | .offs _ _ t, l => ((l : List (Link t.den)).map (totalLink (size t) (totals t))).sum
  | .record _ fs, v => totalsDirect fs v + totalsRest fs v
/-- A field of type `Offset` (ser.rs:153-154). -/
def totalsHere : (t : Ty) → t.den → Nat
  | .off _ t, l => totalLink (size t) (totals t) l
  | .leaf _, _ => 0
  | .counted _ _, _ => 0
  | .offs _ _ _, _ => 0
  | .record _ _, _ => 0
/-- The fields of type `Offset` (ser.rs:144-195). -/
def totalsDirect : (fs : Fields) → fs.den → Nat
  | .nil, _ => 0
  | .cons _ _ t r, (x, y) => totalsHere t x + totalsDirect r y
/-- The other fields: `VecOffset`s and those marked `embed` (ser.rs:144-195). -/
def totalsRest : (fs : Fields) → fs.den → Nat
  | .nil, _ => 0
  | .cons _ e t r, (x, y) => (if e || t.isOffs then totals t x else 0) + totalsRest r y
end

/-- `resolve_offsets` of a structure (offsetmanager.rs:134-142): it is put at position 0 of a graph of its own. -/
def resolveOffsets (emb : Bool) (fs : Fields) (v : fs.den) : fs.den := (place (.record emb fs) v 0 (sizeF fs v)).1

end FT.Der
