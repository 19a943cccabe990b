import Verif.Model.GsubHigh
import Verif.Lemmas.BTree
import Verif.Lemmas.Gsub

/-! Lemmas for the conversions between user-facing GSUB rules and binary structures. -/

namespace FT
open FT.Gsub FT.Lay

theorem toInt16_inj {a b : UInt16} : a.toInt16 = b.toInt16 ↔ a = b :=
  ⟨fun h => by simpa using congrArg Int16.toUInt16 h, fun h => h ▸ rfl⟩

theorem BMap.map_fst_snd {κ α : Type} (m : List (κ × α)) : (m.map Prod.fst).zip (m.map Prod.snd) = m := by
  induction m with
  | nil => rfl
  | cons x m ih => simp [ih]

theorem BMap.zip_map_getD {κ α : Type} (m : List (κ × List α)) :
    (m.map Prod.fst).zip ((m.map (fun x => some x.2)).map (fun x => x.getD [])) = m := by
  induction m with
  | nil => rfl
  | cons x m ih => simp only [List.map_cons, List.zip_cons_cons, ih]; rfl

/-- A map is determined by its entries. -/
theorem BMap.collect_eq {κ α : Type} [Key κ] {l m : List (κ × α)} (hm : BMap.Sorted m)
    (h : ∀ x, x ∈ l ↔ x ∈ m) : BMap.collect l = m := by
  classical
  have key : ∀ (l m0 : List (κ × α)), BMap.Sorted m0 → (∀ x ∈ l, x ∈ m) → (∀ x ∈ m0, x ∈ m) →
      ∀ x, x ∈ l.foldl (fun m x => BMap.insert m x.1 x.2) m0 ↔ x ∈ l ∨ x ∈ m0 := by
    intro l
    induction l with
    | nil => intro m0 _ _ _ x; simp
    | cons y l ih =>
      intro m0 h0 hl hm0 x
      rw [List.foldl_cons, ih (BMap.insert m0 y.1 y.2) (BMap.insert_sorted h0 _ _) (fun x hx => hl x (by simp [hx]))]
      · have hx : x ∈ BMap.insert m0 y.1 y.2 ↔ x = y ∨ x ∈ m0 := by
          constructor
          · intro hx
            rcases BMap.mem_insert hx with e | e
            · exact .inl e
            · exact .inr e
          · intro hx
            have hget : BMap.get? (BMap.insert m0 y.1 y.2) x.1 = some x.2 := by
              rw [BMap.get?_insert]
              rcases hx with e | e
              · rw [e, if_pos rfl]
              · split
                · rename_i he
                  have h1 : BMap.get? m x.1 = some x.2 := (BMap.get?_eq_some hm).mpr (hm0 x e)
                  have h2 : BMap.get? m y.1 = some y.2 := (BMap.get?_eq_some hm).mpr (hl y (by simp))
                  rw [he, h2] at h1
                  exact h1
                · exact (BMap.get?_eq_some h0).mpr e
            exact (BMap.get?_eq_some (BMap.insert_sorted h0 _ _)).mp hget
        rw [hx]; simp only [List.mem_cons]
        tauto
      · intro x hx
        rcases BMap.mem_insert hx with e | e
        · rw [e]; exact hl y (by simp)
        · exact hm0 x e
  have hk := key l [] (by simp [BMap.Sorted]) (fun x hx => (h x).mp hx) (by simp)
  refine BMap.ext (BMap.collect_sorted l) hm (fun k => ?_)
  apply Option.ext
  intro v
  rw [BMap.get?_eq_some (BMap.collect_sorted l), BMap.get?_eq_some hm]
  unfold BMap.collect
  rw [hk, h]
  simp

theorem sorted_keys_asc {α : Type} {m : List (UInt16 × α)} (h : BMap.Sorted m) :
    Props.Ascending (m.map Prod.fst) := by
  unfold Props.Ascending
  rw [List.pairwise_map]
  exact h.imp (fun h => by simpa [Key.lt] using h)

theorem asc_keys_sorted {α : Type} {m : List (UInt16 × α)} (h : Props.Ascending (m.map Prod.fst)) :
    BMap.Sorted m := by
  unfold Props.Ascending at h
  rw [List.pairwise_map] at h
  exact h.imp (fun h => by simpa [Key.lt] using h)

theorem slotOf_asc {l : List UInt16} (h : Props.Ascending l) : slotOf l = l := by
  unfold slotOf
  rw [BMap.collect_of_sorted]
  · rw [List.map_map]; simp [Function.comp_def]
  · apply asc_keys_sorted
    rw [List.map_map]
    simpa [Function.comp_def] using h

end FT
