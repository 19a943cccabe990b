import Verif.Props.DeriveSpec

/-!
# C109: the two models of written structures: what the statement says
-/

namespace FT.Props
open FT FT.Off FT.Der

/-- As many elements, related one by one. -/
def All2 {α β : Type} (R : α → β → Prop) : List α → List β → Prop
  | [], [] => True
  | a :: l, b :: m => R a b ∧ All2 R l m
  | _, _ => False

/-- An offset in the sequence of fields of `Model/Offsets`. -/
def IsLink {α : Type} (w : Width) (vec : Bool) (R : α → Tab → Prop) (l : Link α) (T : Tab) : Prop :=
  match l.link with
  | none => l.off = some 0 ∧ T = Tab.nullOff w
  | some a => ∃ C, R a C ∧ T = .link w vec false l.off C .nil

mutual
/-- `T` is what the fields of a value write, as `Model/Offsets` has it: bytes and offsets in a row. `vec`: offsets are those of a
record inside another. -/
def IsTab : (vec : Bool) → (t : Ty) → t.den → Tab → Prop
  | _, .leaf c, a, T => ∃ bs, c.enc a = .ok bs ∧ T = .bytes bs
  | _, .counted w t, l, T => ∃ Ts, All2 (IsTab true t) (l : List t.den) Ts ∧
      T = (Tab.bytes (w.enc (l : List t.den).length)).append (Tab.concat Ts)
  | vec, .off w t, l, T => IsLink w vec (IsTab false t) l T
  | _, .offs c w t, l, T => ∃ Ts, All2 (IsLink w true (IsTab false t)) (l : List (Link t.den)) Ts ∧
      T = (Tab.bytes (c.enc (l : List (Link t.den)).length)).append (Tab.concat Ts)
  | vec, .record _ fs, v, T => IsTabF vec fs v T
def IsTabF : (vec : Bool) → (fs : Fields) → fs.den → Tab → Prop
  | _, .nil, _, T => T = .nil
  | vec, .cons _ _ t r, (x, y), T => ∃ T1 T2, IsTab (vec || !t.isOff) t x T1 ∧ IsTabF vec r y T2 ∧ T = T1.append T2
end

mutual
/-- In a record inside another, offsets are single fields. -/
def flat : (inner : Bool) → Ty → Bool
  | _, .leaf _ => true
  | _, .counted _ t => flat true t
  | _, .off _ t => flat false t
  | _, .offs _ _ t => flat false t
  | inner, .record _ fs => flatF inner fs
def flatF : (inner : Bool) → Fields → Bool
  | _, .nil => true
  | inner, .cons _ _ t r => (!inner || t.isOff || !hasOff t) && flat true t && flatF inner r
end

/-- Two readers do the same: they fail or panic together, or leave the same state, with results related by `R`. -/
def Alike {α β : Type} (R : α → β → Prop) (p : Reader α) (q : Reader β) : Prop := ∀ s,
  match p s, q s with
  | .ok (a, s'), .ok (b, s'') => R a b ∧ s' = s''
  | .err, .err => True
  | .panic, .panic => True
  | _, _ => False

end FT.Props
