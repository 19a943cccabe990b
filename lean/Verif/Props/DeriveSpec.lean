import Verif.Props.Primitives
import Verif.Model.Derive

/-!
# C106: structures declared with `tables!`: what the statements say
-/

namespace FT.Props
open FT FT.Off FT.Der Reader

/-! ### Specification -/

mutual
/-- Values of this type can have offsets in their own bytes. -/
def hasOff : Ty → Bool
  | .leaf _ => false
  | .counted _ t => hasOff t
  | .off _ _ => true
  | .offs _ _ _ => true
  | .record _ fs => hasOffF fs
def hasOffF : Fields → Bool
  | .nil => false
  | .cons _ _ t r => hasOff t || hasOffF r
end

/-- No field is marked `[offset_base]`. -/
def unbased : Fields → Bool
  | .nil => true
  | .cons b _ _ r => !b && unbased r

/-- The first field is marked `[offset_base]`, and no other. -/
def based : Fields → Bool
  | .nil => false
  | .cons b _ _ r => b && unbased r

mutual
/-- The type may stand inside a table (`embed` is the pragma of the field): a structure with offsets must be
`[embedded]`, its field marked `[embed]`, and no field of it `[offset_base]`. -/
def partOK : (embed : Bool) → Ty → Bool
  | _, .leaf _ => true
  | e, .counted _ t => partOK e t
  | _, .off _ _ => false
  | _, .offs _ _ _ => false
  | e, .record emb fs => fieldsOK fs && (if hasOffF fs then emb && e && unbased fs else unbased fs || based fs)
/-- The type of a field: also offsets to tables. -/
def fieldOK : (embed : Bool) → Ty → Bool
  | _, .off _ t => tableOK t
  | _, .offs _ _ t => tableOK t
  | _, .leaf _ => true
  | e, .counted _ t => partOK e t
  | e, .record emb fs => fieldsOK fs && (if hasOffF fs then emb && e && unbased fs else unbased fs || based fs)
def fieldsOK : Fields → Bool
  | .nil => true
  | .cons _ e t r => fieldOK e t && fieldsOK r
/-- The type may stand behind an offset: a structure with offsets must have its first field marked `[offset_base]`. -/
def tableOK : Ty → Bool
  | .leaf _ => true
  | .counted _ _ => false
  | .off _ _ => false
  | .offs _ _ _ => false
  | .record _ fs => fieldsOK fs && (based fs || (unbased fs && !hasOffF fs))
end

/-- A structure that is read and written by itself. -/
@[reducible] def WellDeclared (embedded : Bool) (fs : Fields) : Prop :=
  fieldsOK fs = true ∧ (based fs = true ∨ unbased fs = true) ∧ (hasOffF fs = true → embedded = false)

mutual
/-- All field types with own code satisfy `P`, all offsets have a width that satisfies `Q`. -/
def TyAll (P : Leaf → Prop) (Q : Width → Prop) : Ty → Prop
  | .leaf c => P c
  | .counted _ t => TyAll P Q t
  | .off w t => Q w ∧ TyAll P Q t
  | .offs _ w t => Q w ∧ TyAll P Q t
  | .record _ fs => FieldsAll P Q fs
def FieldsAll (P : Leaf → Prop) (Q : Width → Prop) : Fields → Prop
  | .nil => True
  | .cons _ _ t r => TyAll P Q t ∧ FieldsAll P Q r
end

/-- The declared size of a type with its own code is the number of bytes it writes. -/
def Sized (c : Leaf) : Prop := ∀ a bs, c.enc a = .ok bs → bs.length = c.size a

/-- The same number of elements, equal one by one. -/
def SameL {α : Type} (R : α → α → Prop) : List α → List α → Prop
  | [], [] => True
  | a :: l, b :: m => R a b ∧ SameL R l m
  | _, _ => False

/-- Equality of `Offset`s (offsets.rs:161-166): both have no table, or equal tables. -/
def SameLink {α : Type} (R : α → α → Prop) (l m : Link α) : Prop :=
  match l.link, m.link with
  | none, none => True
  | some a, some b => R a b
  | _, _ => False

mutual
/-- `PartialEq`: offsets are compared by what they link to. -/
def Same : (t : Ty) → t.den → t.den → Prop
  | .leaf _, a, b => a = b
  | .counted _ t, l, m => SameL (Same t) l m
  | .off _ t, l, m => SameLink (Same t) l m
  | .offs _ _ t, l, m => SameL (SameLink (Same t)) l m
  | .record _ fs, v, w => SameF fs v w
def SameF : (fs : Fields) → fs.den → fs.den → Prop
  | .nil, _, _ => True
  | .cons _ _ t r, (x, y), (x', y') => Same t x x' ∧ SameF r y y'
end

/-- A link that was made by `Offset::to`, `to_nothing` or by reading: not one whose table was taken away. -/
def FitsLink {α : Type} (P : α → Prop) (l : Link α) : Prop :=
  match l.link with
  | none => l.off = some 0
  | some a => P a

mutual
/-- Every part with own code is written and reads back as itself; every count fits its field. -/
def Fits : (t : Ty) → t.den → Prop
  | .leaf c, a => ∃ bs, c.enc a = .ok bs ∧ RoundTripsAt c.read bs a
  | .counted w t, l => (l : List t.den).length ≤ w.max ∧ ∀ x ∈ (l : List t.den), Fits t x
  | .off _ t, l => FitsLink (Fits t) l
  | .offs c _ t, l => (l : List (Link t.den)).length ≤ c.max ∧ ∀ x ∈ (l : List (Link t.den)), FitsLink (Fits t) x
  | .record _ fs, v => FitsF fs v
def FitsF : (fs : Fields) → fs.den → Prop
  | .nil, _ => True
  | .cons _ _ t r, (x, y) => Fits t x ∧ FitsF r y
end

/-- What a link takes up outside its own field. -/
def belowLink {α : Type} (f g : α → Nat) (l : Link α) : Nat :=
  match l.link with
  | none => 0
  | some a => f a + g a

mutual
/-- Number of bytes of all tables below a value. -/
def below : (t : Ty) → t.den → Nat
  | .leaf _, _ => 0
  | .counted _ t, l => ((l : List t.den).map (below t)).sum
  | .off _ t, l => belowLink (Der.size t) (below t) l
  | .offs _ _ t, l => ((l : List (Link t.den)).map (belowLink (Der.size t) (below t))).sum
  | .record _ fs, v => belowF fs v
def belowF : (fs : Fields) → fs.den → Nat
  | .nil, _ => 0
  | .cons _ _ t r, (x, y) => below t x + belowF r y
end

/-- Offsets of this width can be read if they are at most `M`. -/
def Reach (M : Nat) (w : Width) : Prop := w = .w16 ∨ M ≤ 65535

end FT.Props
