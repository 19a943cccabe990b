import Verif.Model.BTree

namespace FT.BMap
open FT

variable {κ α : Type} [Key κ]

theorem Sorted.tail {x : κ × α} {m : List (κ × α)} (h : Sorted (x :: m)) : Sorted m :=
  (List.pairwise_cons.mp h).2

theorem Sorted.head_lt {x : κ × α} {m : List (κ × α)} (h : Sorted (x :: m)) : ∀ y ∈ m, Key.lt x.1 y.1 = true :=
  (List.pairwise_cons.mp h).1

theorem lt_asymm {a b : κ} (h : Key.lt a b = true) : Key.lt b a = false := by
  cases e : Key.lt b a with
  | false => rfl
  | true => have := Key.trans _ _ _ h e; rw [Key.irrefl] at this; cases this

theorem lt_ne {a b : κ} (h : Key.lt a b = true) : a ≠ b := by
  intro e; subst e; rw [Key.irrefl] at h; cases h

theorem get?_none_of_lt {m : List (κ × α)} {k : κ} (h : ∀ y ∈ m, Key.lt k y.1 = true) : get? m k = none := by
  cases m with
  | nil => rfl
  | cons x m => rw [get?, if_pos (h x (by simp))]

theorem get?_eq_some {m : List (κ × α)} (hs : Sorted m) {k : κ} {v : α} :
    get? m k = some v ↔ (k, v) ∈ m := by
  induction m with
  | nil => simp [get?]
  | cons x m ih =>
    obtain ⟨k', v'⟩ := x
    rw [get?]
    split
    · rename_i h
      constructor
      · intro h'; cases h'
      · intro h'
        rcases List.mem_cons.mp h' with h' | h'
        · injection h' with h1 h2; subst h1; rw [Key.irrefl] at h; cases h
        · have := lt_asymm (Key.trans _ _ _ h (hs.head_lt _ h'))
          simp only at this; rw [Key.trans _ _ _ h (hs.head_lt _ h')] at this; cases this
          
    · rename_i h
      split
      · rename_i h2
        rw [ih hs.tail, List.mem_cons]
        constructor
        · exact .inr
        · rintro (h' | h')
          · injection h' with h1 h3; subst h1; rw [Key.irrefl] at h2; cases h2
          · exact h'
      · rename_i h2
        have e := Key.tri _ _ (by simpa using h) (by simpa using h2)
        subst e
        rw [List.mem_cons]
        constructor
        · intro h'; injection h' with h'; subst h'; exact .inl rfl
        · rintro (h' | h')
          · injection h' with h1 h3; rw [h3]
          · have := hs.head_lt _ h'
            simp only at this; rw [Key.irrefl] at this; cases this

theorem get?_eq_none {m : List (κ × α)} (hs : Sorted m) {k : κ} :
    get? m k = none ↔ ∀ x ∈ m, x.1 ≠ k := by
  constructor
  · intro h x hx e
    subst e
    rw [(get?_eq_some hs (k := x.1) (v := x.2)).mpr hx] at h; cases h
  · intro h
    cases e : get? m k with
    | none => rfl
    | some v => exact absurd rfl (h _ ((get?_eq_some hs).mp e))

theorem mem_insert {m : List (κ × α)} {k : κ} {v : α} {x : κ × α} (h : x ∈ insert m k v) :
    x = (k, v) ∨ x ∈ m := by
  induction m with
  | nil => simp [insert] at h; exact .inl h
  | cons y m ih =>
    obtain ⟨k', v'⟩ := y
    rw [insert] at h
    split at h
    · rcases List.mem_cons.mp h with h | h
      · exact .inl h
      · exact .inr h
    · split at h
      · rcases List.mem_cons.mp h with h | h
        · exact .inr (by simp [h])
        · rcases ih h with h | h
          · exact .inl h
          · exact .inr (by simp [h])
      · rcases List.mem_cons.mp h with h | h
        · exact .inl h
        · exact .inr (by simp [h])

theorem insert_sorted {m : List (κ × α)} (hs : Sorted m) (k : κ) (v : α) : Sorted (insert m k v) := by
  induction m with
  | nil => simp [insert, Sorted]
  | cons y m ih =>
    obtain ⟨k', v'⟩ := y
    rw [insert]
    split
    · rename_i h
      refine List.pairwise_cons.mpr ⟨?_, hs⟩
      intro x hx
      rcases List.mem_cons.mp hx with rfl | hx
      · exact h
      · exact Key.trans _ _ _ h (hs.head_lt x hx)
    · split
      · rename_i h h2
        refine List.pairwise_cons.mpr ⟨?_, ih hs.tail⟩
        intro x hx
        rcases mem_insert hx with rfl | hx
        · exact h2
        · exact hs.head_lt x hx
      · rename_i h h2
        have e := Key.tri _ _ (by simpa using h) (by simpa using h2)
        subst e
        exact List.pairwise_cons.mpr ⟨hs.head_lt, hs.tail⟩

theorem get?_insert_self {m : List (κ × α)} (k : κ) (v : α) : get? (insert m k v) k = some v := by
  induction m with
  | nil => simp [insert, get?, Key.irrefl]
  | cons y m ih =>
    obtain ⟨k', v'⟩ := y
    rw [insert]
    split
    · simp [get?, Key.irrefl]
    · split
      · rename_i h h2
        rw [get?, if_neg h, if_pos h2, ih]
      · simp [get?, Key.irrefl]

theorem get?_insert_ne {m : List (κ × α)} {k k2 : κ} (v : α) (hne : k2 ≠ k) :
    get? (insert m k v) k2 = get? m k2 := by
  induction m with
  | nil =>
    simp only [insert, get?]
    split
    · rfl
    · split
      · rfl
      · rename_i h h2
        exact absurd (Key.tri _ _ (by simpa using h) (by simpa using h2)) hne
  | cons y m ih =>
    obtain ⟨k', v'⟩ := y
    rw [insert]
    split
    · rename_i h
      rw [get?]
      split
      · rename_i h3
        rw [get?, if_pos (Key.trans _ _ _ h3 h)]
      · split
        · rfl
        · rename_i h3 h4
          exact absurd (Key.tri _ _ (by simpa using h3) (by simpa using h4)) hne
    · split
      · rw [get?, get?, ih]
      · rename_i h h2
        have e := Key.tri _ _ (by simpa using h) (by simpa using h2)
        subst e
        rw [get?, get?]
        split
        · rfl
        · split
          · rfl
          · rename_i h3 h4
            exact absurd (Key.tri _ _ (by simpa using h3) (by simpa using h4)) hne

theorem get?_insert [DecidableEq κ] {m : List (κ × α)} (k k2 : κ) (v : α) :
    get? (insert m k v) k2 = if k2 = k then some v else get? m k2 := by
  split
  · rename_i h; subst h; exact get?_insert_self _ _
  · rename_i h; exact get?_insert_ne v h

/-- Maps are equal as soon as all lookups agree. -/
theorem ext {m n : List (κ × α)} (hm : Sorted m) (hn : Sorted n) (h : ∀ k, get? m k = get? n k) : m = n := by
  induction m generalizing n with
  | nil =>
    cases n with
    | nil => rfl
    | cons y n =>
      have := h y.1
      rw [(get?_eq_some hn (k := y.1) (v := y.2)).mpr (by simp)] at this
      simp [get?] at this
  | cons x m ih =>
    cases n with
    | nil =>
      have := h x.1
      rw [(get?_eq_some hm (k := x.1) (v := x.2)).mpr (by simp)] at this
      simp [get?] at this
    | cons y n =>
      have hx : x ∈ y :: n := by
        have := h x.1
        rw [(get?_eq_some hm (k := x.1) (v := x.2)).mpr (by simp)] at this
        exact (get?_eq_some hn).mp this.symm
      have hy : y ∈ x :: m := by
        have := h y.1
        rw [(get?_eq_some hn (k := y.1) (v := y.2)).mpr (by simp)] at this
        exact (get?_eq_some hm).mp this
      have e : x = y := by
        rcases List.mem_cons.mp hx with e | hx
        · exact e
        · rcases List.mem_cons.mp hy with e | hy
          · exact e.symm
          · have h1 := hn.head_lt x hx
            have h2 := hm.head_lt y hy
            have := Key.trans _ _ _ h1 h2
            rw [Key.irrefl] at this; cases this
      subst e
      congr 1
      apply ih hm.tail hn.tail
      intro k
      have hk := h k
      rw [get?, get?] at hk
      split at hk
      · rename_i hlt
        rw [get?_none_of_lt (fun z hz => Key.trans _ _ _ hlt (hm.head_lt z hz)),
          get?_none_of_lt (fun z hz => Key.trans _ _ _ hlt (hn.head_lt z hz))]
      · split at hk
        · exact hk
        · rename_i h1 h2
          have e := Key.tri _ _ (by simpa using h1) (by simpa using h2)
          subst e
          rw [get?_none_of_lt hm.head_lt, get?_none_of_lt hn.head_lt]

theorem insert_append {m : List (κ × α)} {k : κ} {v : α} (h : ∀ x ∈ m, Key.lt x.1 k = true) :
    insert m k v = m ++ [(k, v)] := by
  induction m with
  | nil => rfl
  | cons y m ih =>
    have h1 := h y (by simp)
    rw [insert, if_neg (by rw [lt_asymm h1]; simp), if_pos h1, ih (fun x hx => h x (by simp [hx]))]
    rfl

theorem foldl_insert_sorted {l : List (κ × α)} : ∀ {m : List (κ × α)}, Sorted m →
    Sorted (l.foldl (fun m x => insert m x.1 x.2) m) := by
  induction l with
  | nil => intro m h; exact h
  | cons x l ih => intro m h; exact ih (insert_sorted h _ _)

theorem collect_sorted (l : List (κ × α)) : Sorted (collect l) :=
  foldl_insert_sorted (by simp [Sorted])

theorem foldl_insert_append {l : List (κ × α)} : ∀ {m : List (κ × α)}, Sorted (m ++ l) →
    l.foldl (fun m x => insert m x.1 x.2) m = m ++ l := by
  induction l with
  | nil => intro m _; simp
  | cons x l ih =>
    intro m h
    have hx : ∀ y ∈ m, Key.lt y.1 x.1 = true := by
      intro y hy
      exact (List.pairwise_append.mp h).2.2 y hy x (by simp)
    simp only [List.foldl_cons]
    rw [insert_append hx, ih]
    · simp
    · simpa using h

/-- Collecting entries that are already in order gives exactly these entries. -/
theorem collect_of_sorted {l : List (κ × α)} (h : Sorted l) : collect l = l := by
  have := foldl_insert_append (m := ([] : List (κ × α))) (l := l) (by simpa using h)
  simpa [collect] using this

end FT.BMap
