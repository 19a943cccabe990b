import Verif.Model.Cmap
import Verif.Lemmas.BTree

/-!
C35 and C36: choosing a character map and reversing it.
-/

namespace FT.Props
open FT FT.Cmap

/-! ### Specification -/

/-- Platform and encoding pairs in the order in which they are preferred. -/
def preferred : List (UInt16 × UInt16) := [(3, 10), (0, 6), (0, 4), (3, 1), (0, 3), (0, 2), (0, 1), (0, 0)]

/-- The subtable is for this platform and encoding. -/
def IsFor (s : Subtable) (pe : UInt16 × UInt16) : Prop := s.platformID = pe.1 ∧ s.encodingID = pe.2

/-- `s` is the first subtable for a platform and encoding. -/
def FirstFor (sts : List Subtable) (pe : UInt16 × UInt16) (s : Subtable) : Prop :=
  ∃ before after, sts = before ++ s :: after ∧ IsFor s pe ∧ ∀ s' ∈ before, ¬ IsFor s' pe

/-- Some Unicode subtable (platform 0, or platform 3 with encoding 0, 1 or 10) maps character `c` to glyph `g`. -/
def UnicodeMaps (sts : List Subtable) (c : UInt32) (g : UInt16) : Prop :=
  ∃ s ∈ sts, (s.platformID = 0 ∨ (s.platformID = 3 ∧ (s.encodingID = 0 ∨ s.encodingID = 1 ∨ s.encodingID = 10))) ∧
    (c, g) ∈ s.mapping

/-! ### C35 -/

theorem getMapping_some {sts : List Subtable} {pe : UInt16 × UInt16} {m : Map} (h : getMapping sts pe.1 pe.2 = some m) :
    ∃ s, FirstFor sts pe s ∧ m = s.mapping := by
  induction sts with
  | nil => cases h
  | cons st l ih =>
    simp only [getMapping] at h
    split at h
    · rename_i hf
      cases h
      exact ⟨st, ⟨[], l, rfl, hf, by simp⟩, rfl⟩
    · rename_i hf
      obtain ⟨s, ⟨b, a, h1, h2, h3⟩, h4⟩ := ih h
      refine ⟨s, ⟨st :: b, a, by rw [h1]; rfl, h2, ?_⟩, h4⟩
      intro s' hs'
      rcases List.mem_cons.mp hs' with rfl | hs'
      · exact hf
      · exact h3 s' hs'

theorem getMapping_none {sts : List Subtable} {pe : UInt16 × UInt16} :
    getMapping sts pe.1 pe.2 = none ↔ ∀ s ∈ sts, ¬ IsFor s pe := by
  induction sts with
  | nil => simp [getMapping]
  | cons st l ih =>
    simp only [getMapping]
    split
    · rename_i hf
      simp only [reduceCtorEq, List.mem_cons, forall_eq_or_imp, false_iff]
      exact fun h => h.1 hf
    · rename_i hf
      rw [ih]
      simp only [List.mem_cons, forall_eq_or_imp]
      exact ⟨fun h => ⟨hf, h⟩, fun h => h.2⟩

/-- **C35** (a given platform and encoding). The mapping found is that of the first such subtable. -/
theorem C35_mapping (sts : List Subtable) (p e : UInt16) (m : Map) :
    (getMapping sts p e = some m ↔ ∃ s, FirstFor sts (p, e) s ∧ m = s.mapping) ∧
    (getMapping sts p e = none ↔ ∀ s ∈ sts, ¬ IsFor s (p, e)) := by
  refine ⟨⟨fun h => getMapping_some (pe := (p, e)) h, ?_⟩, getMapping_none (pe := (p, e))⟩
  rintro ⟨s, ⟨b, a, h1, h2, h3⟩, rfl⟩
  subst h1
  induction b with
  | nil => simp only [List.nil_append, getMapping]; exact if_pos h2
  | cons x b ih =>
    simp only [List.cons_append, getMapping]
    rw [if_neg (show ¬ (x.platformID = p ∧ x.encodingID = e) from h3 x (by simp)), ih (fun s' hs' => h3 s' (by simp [hs']))]

theorem bestOf_some {sts : List Subtable} : ∀ {l : List (UInt16 × UInt16)} {m : Map}, bestOf sts l = some m →
    ∃ (i : Nat) (pe : UInt16 × UInt16) (s : Subtable), l[i]? = some pe ∧ FirstFor sts pe s ∧ m = s.mapping ∧
      ∀ j < i, ∀ pe', l[j]? = some pe' → ∀ s' ∈ sts, ¬ IsFor s' pe'
  | [], _, h => by cases h
  | (p, e) :: l, m, h => by
    simp only [bestOf] at h
    cases hg : getMapping sts p e with
    | some m' =>
      rw [hg] at h
      cases h
      obtain ⟨s, h1, h2⟩ := getMapping_some (pe := (p, e)) hg
      exact ⟨0, (p, e), s, rfl, h1, h2, by intro j hj; omega⟩
    | none =>
      rw [hg] at h
      obtain ⟨i, pe, s, h1, h2, h3, h4⟩ := bestOf_some h
      refine ⟨i + 1, pe, s, by simpa using h1, h2, h3, ?_⟩
      intro j hj pe' hpe'
      cases j with
      | zero =>
        simp only [List.getElem?_cons_zero, Option.some.injEq] at hpe'
        subst hpe'
        exact getMapping_none (pe := (p, e)) |>.mp hg
      | succ j => exact h4 j (by omega) pe' (by simpa using hpe')

theorem bestOf_none {sts : List Subtable} : ∀ {l : List (UInt16 × UInt16)},
    bestOf sts l = none ↔ ∀ pe ∈ l, ∀ s ∈ sts, ¬ IsFor s pe
  | [] => by simp [bestOf]
  | (p, e) :: l => by
    simp only [bestOf]
    cases hg : getMapping sts p e with
    | some m' =>
      simp only [reduceCtorEq, false_iff]
      intro h
      have := getMapping_none (pe := (p, e)) |>.mpr (h (p, e) (by simp))
      simp only at this
      rw [hg] at this
      cases this
    | none =>
      simp only
      rw [bestOf_none]
      constructor
      · intro h pe hpe
        rcases List.mem_cons.mp hpe with rfl | hpe
        · exact getMapping_none (pe := (p, e)) |>.mp hg
        · exact h pe hpe
      · intro h pe hpe
        exact h pe (by simp [hpe])

/-- **C35**. The best mapping is that of the first subtable for the most preferred platform and encoding that the table
has at all. Nothing is returned exactly if the table has no subtable of any preferred kind. -/
theorem C35_best (sts : List Subtable) :
    (∀ m, getBestMapping sts = some m → ∃ (i : Nat) (pe : UInt16 × UInt16) (s : Subtable), preferred[i]? = some pe ∧ FirstFor sts pe s ∧ m = s.mapping ∧
      ∀ j < i, ∀ pe', preferred[j]? = some pe' → ∀ s' ∈ sts, ¬ IsFor s' pe') ∧
    (getBestMapping sts = none ↔ ∀ pe ∈ preferred, ∀ s ∈ sts, ¬ IsFor s pe) :=
  ⟨fun _ h => bestOf_some h, bestOf_none⟩

/-- A symbol-encoded subtable is not a candidate, and the full repertoire is preferred to the Basic Multilingual Plane. -/
example : getBestMapping [⟨4, 3, 0, 0, [(0xF041, 3)], none⟩] = none ∧
    getBestMapping [⟨4, 3, 1, 0, [(0x41, 3)], none⟩, ⟨12, 3, 10, 0, [(0x41, 4)], none⟩] = some [(0x41, 4)] := by decide

/-! ### C36 -/

theorem addReversed_ok : ∀ (m : Map) (res : List (UInt16 × List UInt32)), BMap.Sorted res →
    BMap.Sorted (addReversed res m) ∧
    ∀ g c, (∃ l, BMap.get? (addReversed res m) g = some l ∧ c ∈ l) ↔
      (∃ l, BMap.get? res g = some l ∧ c ∈ l) ∨ (c, g) ∈ m
  | [], res, hs => ⟨hs, fun g c => by simp [addReversed]⟩
  | x :: m, res, hs => by
    have hs' : BMap.Sorted (BMap.insert res x.2 (setInsert ((BMap.get? res x.2).getD []) x.1)) := BMap.insert_sorted hs ..
    obtain ⟨h1, h2⟩ := addReversed_ok m _ hs'
    refine ⟨h1, fun g c => ?_⟩
    show (∃ l, BMap.get? (addReversed (BMap.insert res x.2 (setInsert ((BMap.get? res x.2).getD []) x.1)) m) g = some l ∧ c ∈ l) ↔ _
    rw [h2]
    by_cases hg : g = x.2
    · subst hg
      rw [BMap.get?_insert_self]
      have hin : c ∈ setInsert ((BMap.get? res x.2).getD []) x.1 ↔ c = x.1 ∨ c ∈ (BMap.get? res x.2).getD [] := by
        unfold setInsert
        split
        · rename_i hm
          constructor
          · exact Or.inr
          · rintro (rfl | h)
            · exact hm
            · exact h
        · simp
      simp only [Option.some.injEq, exists_eq_left', hin, List.mem_cons]
      cases hr : BMap.get? res x.2 with
      | none => 
        simp only [Option.getD_none, List.not_mem_nil, or_false, reduceCtorEq, false_and, exists_false, false_or]
        constructor
        · rintro (rfl | h)
          · exact Or.inl rfl
          · exact Or.inr h
        · rintro (h | h)
          · rw [← h]; exact Or.inl rfl
          · exact Or.inr h
      | some l =>
        simp only [Option.getD_some, Option.some.injEq, exists_eq_left']
        constructor
        · rintro ((rfl | h) | h)
          · exact Or.inr (Or.inl rfl)
          · exact Or.inl h
          · exact Or.inr (Or.inr h)
        · rintro (h | h | h)
          · exact Or.inl (Or.inr h)
          · rw [← h]; exact Or.inl (Or.inl rfl)
          · exact Or.inr h
    · rw [BMap.get?_insert_ne _ hg]
      have : ((c, g) : UInt32 × UInt16) ≠ x := by rintro rfl; exact hg rfl
      simp [this]

theorem addReversed_nonempty : ∀ (m : Map) (res : List (UInt16 × List UInt32)),
    (∀ g l, BMap.get? res g = some l → l ≠ []) → ∀ g l, BMap.get? (addReversed res m) g = some l → l ≠ []
  | [], _, h => h
  | x :: m, res, h => by
    apply addReversed_nonempty m
    intro g l hl
    by_cases hg : g = x.2
    · subst hg
      rw [BMap.get?_insert_self] at hl
      cases hl
      unfold setInsert
      split
      · rename_i hm; intro e; rw [e] at hm; simp at hm
      · simp
    · rw [BMap.get?_insert_ne _ hg] at hl
      exact h g l hl

theorem reversed_ok : ∀ (sts : List Subtable) (res : List (UInt16 × List UInt32)), BMap.Sorted res →
    (∀ g l, BMap.get? res g = some l → l ≠ []) →
    let r := sts.foldl (fun res st => if st.isUnicode then addReversed res st.mapping else res) res
    BMap.Sorted r ∧ (∀ g l, BMap.get? r g = some l → l ≠ []) ∧
    ∀ g c, (∃ l, BMap.get? r g = some l ∧ c ∈ l) ↔ (∃ l, BMap.get? res g = some l ∧ c ∈ l) ∨ UnicodeMaps sts c g
  | [], res, hs, hn => ⟨hs, hn, fun g c => by simp [UnicodeMaps]⟩
  | st :: sts, res, hs, hn => by
    have huni : st.isUnicode = true ↔ (st.platformID = 0 ∨ (st.platformID = 3 ∧ (st.encodingID = 0 ∨ st.encodingID = 1 ∨ st.encodingID = 10))) := by
      simp [Subtable.isUnicode, or_assoc]
    have hsplit : ∀ c g, UnicodeMaps (st :: sts) c g ↔ (st.isUnicode = true ∧ (c, g) ∈ st.mapping) ∨ UnicodeMaps sts c g := by
      intro c g
      unfold UnicodeMaps
      rw [huni]
      simp only [List.mem_cons, exists_eq_or_imp]
    intro r
    by_cases hu : st.isUnicode = true
    · obtain ⟨a1, a2⟩ := addReversed_ok st.mapping res hs
      obtain ⟨b1, b2, b3⟩ := reversed_ok sts (addReversed res st.mapping) a1 (addReversed_nonempty _ _ hn)
      have e : r = sts.foldl (fun res st => if st.isUnicode then addReversed res st.mapping else res) (addReversed res st.mapping) := by
        show List.foldl _ (if st.isUnicode = true then addReversed res st.mapping else res) sts = _
        rw [if_pos hu]
      rw [e]
      refine ⟨b1, b2, fun g c => ?_⟩
      rw [b3, a2, hsplit, or_assoc]
      simp [hu]
    · obtain ⟨b1, b2, b3⟩ := reversed_ok sts res hs hn
      have e : r = sts.foldl (fun res st => if st.isUnicode then addReversed res st.mapping else res) res := by
        show List.foldl _ (if st.isUnicode = true then addReversed res st.mapping else res) sts = _
        rw [if_neg hu]
      rw [e]
      refine ⟨b1, b2, fun g c => ?_⟩
      rw [b3, hsplit]
      simp [hu]

/-- **C36**. In the reversed map a character is listed under a glyph exactly if some Unicode subtable maps the character to
the glyph; each glyph has one entry, and no entry is empty. -/
theorem C36_reversed (sts : List Subtable) :
    (∀ c g, (∃ l, (g, l) ∈ reversed sts ∧ c ∈ l) ↔ UnicodeMaps sts c g) ∧
    (reversed sts).Pairwise (fun a b => a.1 < b.1) ∧ ∀ x ∈ reversed sts, x.2 ≠ [] := by
  obtain ⟨h1, h2, h3⟩ := reversed_ok sts [] (by simp [BMap.Sorted]) (by intro g l h; simp [BMap.get?] at h)
  refine ⟨fun c g => ?_, ?_, ?_⟩
  · have := h3 g c
    simp only [BMap.get?, reduceCtorEq, false_and, exists_false, false_or] at this
    rw [← this]
    constructor
    · rintro ⟨l, hl, hc⟩; exact ⟨l, (BMap.get?_eq_some h1).mpr hl, hc⟩
    · rintro ⟨l, hl, hc⟩; exact ⟨l, (BMap.get?_eq_some h1).mp hl, hc⟩
  · refine h1.imp ?_
    intro a b hab
    simpa [Key.lt, UInt16.lt_iff_toNat_lt] using hab
  · rintro ⟨g, l⟩ hx
    exact h2 g l ((BMap.get?_eq_some h1).mpr hx)

/-- Only Unicode subtables count: a Macintosh subtable is left out. -/
example : reversed [⟨4, 3, 1, 0, [(0x20, 3), (0xA0, 3)], none⟩, ⟨4, 1, 0, 0, [(0x41, 4)], none⟩] = [(3, [0xA0, 0x20])] := by
  decide

end FT.Props
