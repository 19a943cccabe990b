import Verif.Model.HmtxLoca
import Verif.Lemmas.Reads

namespace FT.Hmtx
open FT Reader

/-- Advance of metric `i`, if there is one. -/
def advAt (l : List Metric) (i : Nat) : Option UInt16 := (l[i]?).map Metric.advanceWidth

theorem endIndex_le (l : List Metric) : ∀ k, endIndex l k ≤ k
  | 0 => by simp [endIndex]
  | k + 1 => by
    unfold endIndex
    split
    · have := endIndex_le l k; omega
    · omega

theorem endIndex_same (l : List Metric) : ∀ k i, endIndex l k ≤ i → i ≤ k → advAt l i = advAt l k
  | 0, i, _, h => by
    have : i = 0 := by omega
    subst this; rfl
  | k + 1, i, h1, h2 => by
    by_cases hi : i = k + 1
    · subst hi; rfl
    · unfold endIndex at h1
      split at h1
      · rename_i he
        rw [endIndex_same l k i h1 (by omega)]
        exact he
      · omega

theorem endIndex_min (l : List Metric) : ∀ k, 0 < endIndex l k → advAt l (endIndex l k - 1) ≠ advAt l (endIndex l k)
  | 0, h => by simp [endIndex] at h
  | k + 1, h => by
    unfold endIndex at h ⊢
    split
    · rename_i he
      rw [if_pos he] at h
      exact endIndex_min l k h
    · rename_i he; exact he

theorem encMetrics_tail (e : Nat) : ∀ (l : List Metric) (i : Nat), e < i →
    encMetrics e i l = encVec encI16 (l.map Metric.lsb)
  | [], _, _ => rfl
  | m :: l, i, h => by
    rw [encMetrics, if_neg (by omega), encMetrics_tail e l (i + 1) (by omega)]
    simp

theorem encMetrics_split (e : Nat) : ∀ (full rest : List Metric) (i : Nat), i + full.length = e + 1 →
    encMetrics e i (full ++ rest) = encVec encMetric full ++ encVec encI16 (rest.map Metric.lsb)
  | [], rest, i, h => by
    simp only [List.nil_append, encVec_nil]
    exact encMetrics_tail e rest i (by simp at h; omega)
  | m :: full, rest, i, h => by
    simp only [List.length_cons] at h
    rw [List.cons_append, encMetrics, if_pos (by omega),
      encMetrics_split e full rest (i + 1) (by omega), encVec_cons, List.append_assoc]

theorem reads_metric (m : Metric) : Reads readMetric (encMetric m) m := by
  unfold readMetric encMetric
  exact Reads.bind (reads_u16 _) (Reads.bind' (reads_i16 _) (Reads.pure _) (List.append_nil _).symm)

theorem readsEnd_fromBytes {full : List Metric} {m : Metric} {others : List Int16} {n : UInt16}
    (hn : n.toNat = full.length) (hl : full.getLast? = some m) :
    ReadsEnd (fromBytes n) (encVec encMetric full ++ encVec encI16 others)
      (full ++ others.map (fun x => ⟨m.advanceWidth, x⟩)) := by
  unfold fromBytes
  refine Reads.bindEnd (reads_deCounted' hn (fun a _ => reads_metric a)) ?_
  refine ReadsEnd.bindPure (readsEnd_vec others readI16_failsAtEnd (fun a _ => by simp)
    (fun a _ => reads_i16 a)) ?_
  rw [hl]

theorem takeWhile_dupes (l : List Metric) (m : Metric) (rest : List Metric) (h : l.reverse = m :: rest) :
    (rest.takeWhile (fun x => x.advanceWidth == m.advanceWidth)).length = l.length - 1 - endIndex l (l.length - 1) := by
  have hl : l = rest.reverse ++ [m] := by
    have := congrArg List.reverse h
    simpa using this
  have key : ∀ (rest suf : List Metric) (a : UInt16), (∀ x ∈ suf, x.advanceWidth = a) → suf ≠ [] →
      (rest.takeWhile (fun x => x.advanceWidth == a)).length =
        rest.length - endIndex (rest.reverse ++ suf) rest.length := by
    intro rest
    induction rest with
    | nil => intro suf a _ _; simp [endIndex]
    | cons b rest ih =>
      intro suf a hs hne
      obtain ⟨s, suf', rfl⟩ := List.exists_cons_of_ne_nil hne
      have hsa := hs s (by simp)
      have e1 : ((b :: rest).reverse ++ s :: suf')[rest.length]? = some b := by simp
      have e2 : ((b :: rest).reverse ++ s :: suf')[rest.length + 1]? = some s := by
        rw [List.getElem?_append_right (by simp)]; simp
      rw [List.length_cons, endIndex, e1, e2]
      simp only [Option.map_some, Option.some.injEq, hsa]
      by_cases hb : b.advanceWidth = a
      · rw [if_pos hb, List.takeWhile_cons_of_pos (by simp [hb]), List.length_cons,
          ih (b :: s :: suf') a (by intro x hx; cases hx with | head => exact hb | tail _ hx => exact hs x hx) (by simp)]
        have := endIndex_le (rest.reverse ++ b :: s :: suf') rest.length
        simp only [List.reverse_cons, List.append_assoc, List.singleton_append]
        omega
      · rw [if_neg hb, List.takeWhile_cons_of_neg (by simp [hb])]
        simp
  have := key rest [m] m.advanceWidth (by simp) (by simp)
  rw [this, ← hl]
  simp [hl]

end FT.Hmtx
