/-!
Model of `std::collections::BTreeMap` as an association list in strictly increasing key order.
Only the operations the code uses: `insert`, `get`, iteration (the list itself), `collect`.
-/

namespace FT

/-- The `Ord` of a map key. -/
class Key (κ : Type) where
  lt : κ → κ → Bool
  irrefl : ∀ a, lt a a = false
  trans : ∀ a b c, lt a b = true → lt b c = true → lt a c = true
  tri : ∀ a b, lt a b = false → lt b a = false → a = b

instance : Key UInt16 where
  lt a b := decide (a.toNat < b.toNat)
  irrefl a := by simp
  trans a b c h1 h2 := by simp at *; omega
  tri a b h1 h2 := by simp at *; exact UInt16.toNat_inj.mp (by omega)

instance : Key UInt32 where
  lt a b := decide (a.toNat < b.toNat)
  irrefl a := by simp
  trans a b c h1 h2 := by simp at *; omega
  tri a b h1 h2 := by simp at *; exact UInt32.toNat_inj.mp (by omega)

instance : Key Nat where
  lt a b := decide (a < b)
  irrefl a := by simp
  trans a b c h1 h2 := by simp at *; omega
  tri a b h1 h2 := by simp at *; omega

/-- Lexicographic order on pairs (derived `Ord` of tuples). -/
instance {κ ι : Type} [Key κ] [Key ι] : Key (κ × ι) where
  lt a b := Key.lt a.1 b.1 || (!Key.lt b.1 a.1 && Key.lt a.2 b.2)
  irrefl a := by simp [Key.irrefl]
  trans a b c h1 h2 := by
    simp only [Bool.or_eq_true, Bool.and_eq_true, Bool.not_eq_true'] at *
    rcases h1 with h1 | ⟨h1, h1'⟩
    · rcases h2 with h2 | ⟨h2, h2'⟩
      · exact .inl (Key.trans _ _ _ h1 h2)
      · left
        cases hbc : Key.lt b.1 c.1 with
        | true => exact Key.trans _ _ _ h1 hbc
        | false => rw [← Key.tri _ _ hbc h2]; exact h1
    · rcases h2 with h2 | ⟨h2, h2'⟩
      · left
        cases hab : Key.lt a.1 b.1 with
        | true => exact Key.trans _ _ _ hab h2
        | false => rw [Key.tri _ _ hab h1]; exact h2
      · cases hab : Key.lt a.1 b.1 with
        | true =>
          left
          cases hbc : Key.lt b.1 c.1 with
          | true => exact Key.trans _ _ _ hab hbc
          | false => rw [← Key.tri _ _ hbc h2]; exact hab
        | false =>
          have e := Key.tri _ _ hab h1
          right
          rw [e]
          exact ⟨h2, Key.trans _ _ _ h1' h2'⟩
  tri a b h1 h2 := by
    simp only [Bool.or_eq_false_iff, Bool.and_eq_false_iff, Bool.not_eq_false'] at *
    obtain ⟨h1, h1'⟩ := h1
    obtain ⟨h2, h2'⟩ := h2
    have e1 := Key.tri _ _ h1 h2
    have e2 : a.2 = b.2 := by
      apply Key.tri
      · rcases h1' with h | h
        · rw [h] at h2; cases h2
        · exact h
      · rcases h2' with h | h
        · rw [h] at h1; cases h1
        · exact h
    exact Prod.ext e1 e2

/-- Lexicographic order on lists (derived `Ord` of `Vec`). -/
def Key.ltList {κ : Type} [Key κ] : List κ → List κ → Bool
  | _, [] => false
  | [], _ :: _ => true
  | a :: l, b :: m => Key.lt a b || (!Key.lt b a && Key.ltList l m)

theorem Key.ltList_irrefl {κ : Type} [Key κ] (l : List κ) : Key.ltList l l = false := by
  induction l with
  | nil => rfl
  | cons a l ih => simp [Key.ltList, Key.irrefl, ih]

theorem Key.ltList_trans {κ : Type} [Key κ] : ∀ (a b c : List κ), Key.ltList a b = true →
    Key.ltList b c = true → Key.ltList a c = true
  | a, b, [], _, h2 => by cases b <;> simp [Key.ltList] at h2
  | a, [], z :: c, h1, _ => by cases a <;> simp [Key.ltList] at h1
  | [], y :: b, z :: c, _, _ => rfl
  | x :: a, y :: b, z :: c, h1, h2 => by
    have ih := Key.ltList_trans a b c
    simp only [Key.ltList, Bool.or_eq_true, Bool.and_eq_true, Bool.not_eq_true'] at *
    rcases h1 with h1 | ⟨h1, h1'⟩
    · rcases h2 with h2 | ⟨h2, h2'⟩
      · exact .inl (Key.trans _ _ _ h1 h2)
      · left
        cases hbc : Key.lt y z with
        | true => exact Key.trans _ _ _ h1 hbc
        | false => rw [← Key.tri _ _ hbc h2]; exact h1
    · cases hab : Key.lt x y with
      | true =>
        left
        rcases h2 with h2 | ⟨h2, h2'⟩
        · exact Key.trans _ _ _ hab h2
        · cases hbc : Key.lt y z with
          | true => exact Key.trans _ _ _ hab hbc
          | false => rw [← Key.tri _ _ hbc h2]; exact hab
      | false =>
        have e := Key.tri _ _ hab h1
        subst e
        rcases h2 with h2 | ⟨h2, h2'⟩
        · exact .inl h2
        · exact .inr ⟨h2, ih h1' h2'⟩

theorem Key.ltList_tri {κ : Type} [Key κ] : ∀ (a b : List κ), Key.ltList a b = false →
    Key.ltList b a = false → a = b
  | [], [], _, _ => rfl
  | [], _ :: _, h, _ => by simp [Key.ltList] at h
  | _ :: _, [], _, h => by simp [Key.ltList] at h
  | x :: a, y :: b, h1, h2 => by
    simp only [Key.ltList, Bool.or_eq_false_iff, Bool.and_eq_false_iff, Bool.not_eq_false'] at *
    have e := Key.tri _ _ h1.1 h2.1
    subst e
    have i := Key.irrefl x
    have h1' := h1.2.resolve_left (by simp [i])
    have h2' := h2.2.resolve_left (by simp [i])
    rw [Key.ltList_tri a b h1' h2']

instance {κ : Type} [Key κ] : Key (List κ) where
  lt := Key.ltList
  irrefl := Key.ltList_irrefl
  trans := Key.ltList_trans
  tri := Key.ltList_tri

namespace BMap

/-- Strictly increasing keys: the invariant of a `BTreeMap`. -/
def Sorted {κ α : Type} [Key κ] (m : List (κ × α)) : Prop :=
  m.Pairwise (fun x y => Key.lt x.1 y.1 = true)

/-- `BTreeMap::insert`: replaces the value of an existing key. -/
def insert {κ α : Type} [Key κ] (m : List (κ × α)) (k : κ) (v : α) : List (κ × α) :=
  match m with
  | [] => [(k, v)]
  | (k', v') :: l =>
    if Key.lt k k' then (k, v) :: (k', v') :: l
    else if Key.lt k' k then (k', v') :: insert l k v
    else (k, v) :: l

/-- `BTreeMap::get`. -/
def get? {κ α : Type} [Key κ] (m : List (κ × α)) (k : κ) : Option α :=
  match m with
  | [] => none
  | (k', v') :: l =>
    if Key.lt k k' then none
    else if Key.lt k' k then get? l k
    else some v'

/-- `iter().collect::<BTreeMap<_, _>>()`, or a loop of `insert`s: later entries win. -/
def collect {κ α : Type} [Key κ] (l : List (κ × α)) : List (κ × α) :=
  l.foldl (fun m x => insert m x.1 x.2) []

end BMap
end FT
