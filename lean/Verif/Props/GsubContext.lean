import Verif.Props.Gsub

/-!
C14: contextual and reverse chaining rules survive serialization; C55: contexts read from binary match what the
binary says.
-/

namespace FT.Props
open FT FT.Gsub FT.Lay FT.Off

/-! ### C14: collation of lookup records -/

theorem filter_all_lt (l : List LookupRec) (i : Nat) (h : ∀ r ∈ l, r.1.toNat < i) :
    l.filter (fun x => x.1.toNat == i) = [] := by
  rw [List.filter_eq_nil_iff]
  intro r hr
  have := h r hr
  simp; omega

theorem recordsFrom_ge : ∀ (rule : CtxRule) (i : Nat), i + rule.length ≤ 65536 →
    ∀ r ∈ recordsFrom i rule, i ≤ r.1.toNat
  | [], _, _, r, h => by cases h
  | (s, ids) :: l, i, hl, r, h => by
    simp only [List.length_cons] at hl
    rw [recordsFrom, List.mem_append] at h
    rcases h with h | h
    · obtain ⟨x, _, rfl⟩ := List.mem_map.mp h
      simp only [ofNat16_toNat (n := i) (by omega)]; omega
    · have := recordsFrom_ge l (i + 1) (by omega) r h; omega

theorem collateFrom_records : ∀ (rule : CtxRule) (i : Nat) (pre : List LookupRec), i + rule.length ≤ 65536 →
    (∀ r ∈ pre, r.1.toNat < i) → collateFrom i (rule.map Prod.fst) (pre ++ recordsFrom i rule) = rule
  | [], _, _, _, _ => rfl
  | (s, ids) :: l, i, pre, hl, hp => by
    simp only [List.length_cons] at hl
    have hi : (UInt16.ofNat i).toNat = i := ofNat16_toNat (by omega)
    have h1 : (ids.map (fun x => (UInt16.ofNat i, x))).filter (fun x => x.1.toNat == i) =
        ids.map (fun x => (UInt16.ofNat i, x)) := by
      rw [List.filter_eq_self]
      intro r hr
      obtain ⟨x, _, rfl⟩ := List.mem_map.mp hr
      simp [hi]
    have h2 : (recordsFrom (i + 1) l).filter (fun x => x.1.toNat == i) = [] := by
      rw [List.filter_eq_nil_iff]
      intro r hr
      have := recordsFrom_ge l (i + 1) (by omega) r hr
      simp; omega
    have ih := collateFrom_records l (i + 1) (pre ++ ids.map (fun x => (UInt16.ofNat i, x))) (by omega) (by
      intro r hr
      rcases List.mem_append.mp hr with h | h
      · have := hp r h; omega
      · obtain ⟨x, _, rfl⟩ := List.mem_map.mp h
        simp only [hi]; omega)
    simp only [List.map_cons, collateFrom, recordsFrom]
    rw [List.append_assoc] at ih
    rw [ih, List.filter_append, List.filter_append, filter_all_lt pre i hp, h1, h2]
    simp [Function.comp_def]

/-- **C14.** Writing the lookups of a rule as lookup records and collating them again gives every position its
slot and its lookups in order. -/
theorem C14_collation (rule : CtxRule) (h : rule.length ≤ 65536) :
    collate (rule.map Prod.fst) (recordsFrom 0 rule) = rule := by
  have := collateFrom_records rule 0 [] (by omega) (by simp)
  simpa [collate] using this

theorem collateFrom_get : ∀ (slots : List Slot) (recs : List LookupRec) (j i : Nat),
    (collateFrom j slots recs)[i]? =
      slots[i]?.map (fun s => (s, (recs.filter (fun r => r.1.toNat == j + i)).map Prod.snd))
  | [], _, _, _ => by simp [collateFrom]
  | s :: l, recs, j, 0 => by simp [collateFrom]
  | s :: l, recs, j, i + 1 => by
    simp only [collateFrom, List.getElem?_cons_succ, collateFrom_get l recs (j + 1) i]
    have : j + 1 + i = j + (i + 1) := by omega
    rw [this]

/-- **C14.** For any records: position `i` gets exactly the lookups recorded for `i`, in the order recorded, and
no position is added or lost. -/
theorem C14_positions (slots : List Slot) (recs : List LookupRec) :
    (collate slots recs).length = slots.length ∧ ∀ i s, slots[i]? = some s →
      (collate slots recs)[i]? = some (s, (recs.filter (fun r => r.1.toNat == i)).map Prod.snd) := by
  constructor
  · unfold collate
    generalize 0 = j
    induction slots generalizing j with
    | nil => rfl
    | cons s l ih => simp [collateFrom, ih]
  · intro i s hs
    unfold collate
    rw [collateFrom_get, hs]
    simp

/-- The order of records of different positions is not kept: two different record lists (which OpenType applies in
the order given) become the same rule. -/
theorem C14_record_order_lost : collate [[1], [2]] [(1, 5), (0, 6)] = collate [[1], [2]] [(0, 6), (1, 5)] := by decide

/-! ### C14: serialization -/

/-- A slot: an ascending list of glyphs for which a coverage table can be written. -/
def SlotOk (s : Slot) : Prop := Ascending s ∧ Coverable s

theorem covSlot_some {s : Slot} (h : Ascending s) : covSlot (some s) = s := slotOf_asc h

theorem map_covSlot : ∀ (l : List Slot), (∀ s ∈ l, Ascending s) → (l.map some).map covSlot = l
  | [], _ => rfl
  | s :: l, h => by
    simp only [List.map_cons]
    rw [covSlot_some (h s (by simp)), map_covSlot l (fun x hx => h x (by simp [hx]))]

theorem covsOk_slots {l : List Slot} (hl : l.length ≤ 65535) (h : ∀ s ∈ l, SlotOk s) : CovsOk (l.map some) := by
  refine ⟨by simpa using hl, fun gs hgs => ?_⟩
  obtain ⟨s, hs, e⟩ := List.mem_map.mp hgs
  obtain rfl := Option.some.inj e
  exact covOk_of_asc (h s hs).1 (h s hs).2

/-- **C14.** A chained rule is converted to a subtable and back to itself. -/
theorem C14_chained_roundtrip (max : UInt16) (r : ChainedRule) (hb : ∀ s ∈ r.backtrack, Ascending s)
    (ha : ∀ s ∈ r.lookahead, Ascending s) (hi : ∀ x ∈ r.input, Ascending x.1) (hl : r.input.length ≤ 65536) :
    chainFromLow max (chainTo3 r) = .ok [r] := by
  simp only [chainTo3, chainFromLow, chainFrom3]
  rw [map_covSlot _ hb, map_covSlot _ ha]
  have : (r.input.map (fun x => some x.1)).map covSlot = r.input.map Prod.fst := by
    have := map_covSlot (r.input.map Prod.fst) (by
      intro s hs; obtain ⟨x, hx, rfl⟩ := List.mem_map.mp hs; exact hi x hx)
    rw [← this]; simp [Function.comp_def]
  rw [this, C14_collation _ hl]

/-- Counts of a chained rule that fit their 16-bit fields, with slots that can be written. -/
def ChainedOk (r : ChainedRule) : Prop :=
  r.backtrack.length ≤ 65535 ∧ (∀ s ∈ r.backtrack, SlotOk s) ∧ r.lookahead.length ≤ 65535 ∧
  (∀ s ∈ r.lookahead, SlotOk s) ∧ r.input.length ≤ 65535 ∧ (∀ x ∈ r.input, SlotOk x.1) ∧
  (r.input.map (fun x => x.2.length)).sum ≤ 65535

theorem recordsFrom_length : ∀ (rule : CtxRule) (i : Nat),
    (recordsFrom i rule).length = (rule.map (fun x => x.2.length)).sum
  | [], _ => rfl
  | (_, ids) :: l, i => by simp [recordsFrom, recordsFrom_length l]

theorem subOk_chain {r : ChainedRule} (h : ChainedOk r) : SubOk (chainTo3 r) := by
  obtain ⟨h1, h2, h3, h4, h5, h6, h7⟩ := h
  refine ⟨covsOk_slots h1 h2, ?_, covsOk_slots h3 h4, by rw [recordsFrom_length]; exact h7⟩
  have := covsOk_slots (l := r.input.map Prod.fst) (by simpa using h5) (by
    intro s hs; obtain ⟨x, hx, rfl⟩ := List.mem_map.mp hs; exact h6 x hx)
  simpa [Function.comp_def] using this

/-- **C14, down to bytes.** -/
theorem C14_chained_bytes (max : UInt16) (r : ChainedRule) (h : ChainedOk r) :
    Survives (chainTo3 r) 6 (chainFromLow max) [r] :=
  survives_of (low := chainTo3 r) (subOk_chain h) (C14_chained_roundtrip max r (fun s hs => (h.2.1 s hs).1)
    (fun s hs => (h.2.2.2.1 s hs).1) (fun x hx => (h.2.2.2.2.2.1 x hx).1) (by have := h.2.2.2.2.1; omega))

example : ChainedOk ⟨[[1, 2]], [[7]], [([3, 4], [0, 1]), ([5], [])]⟩ := by
  refine ⟨by decide, ?_, by decide, ?_, by decide, ?_, by decide⟩ <;>
  · intro s hs
    simp only [List.mem_cons, List.not_mem_nil, or_false] at hs
    rcases hs with rfl | rfl <;> exact ⟨by simp [Ascending], .inl (by decide)⟩

theorem mapL_unresolved_err : ∀ (covs : List Cov), (∃ c ∈ covs, c ≠ none) → Res.mapL unresolvedOff covs = .err
  | [], h => by obtain ⟨_, h, _⟩ := h; cases h
  | none :: l, h => by
    have : ∃ c ∈ l, c ≠ none := by
      obtain ⟨c, hc, hn⟩ := h
      rcases List.mem_cons.mp hc with e | e
      · exact absurd e hn
      · exact ⟨c, e, hn⟩
    simp only [Res.mapL, unresolvedOff, mapL_unresolved_err l this]
  | some _ :: l, _ => rfl

/-- **C14.** A plain (unchained) coverage-based context with at least one input glyph cannot be written: every
attempt is an error. -/
theorem C14_plain_never_written (rule : CtxRule) (h : rule ≠ []) : Sub.tab (ctxTo3 rule) = .err := by
  cases rule with
  | nil => exact absurd rfl h
  | cons x l =>
    simp only [ctxTo3, Sub.tab]
    rw [mapL_unresolved_err _ ⟨some x.1, by simp, by simp⟩]
    rfl

/-- The same for any subtable of that format that links to a coverage table. -/
theorem C14_plain_low_never_written (g s : UInt16) (covs : List Cov) (recs : List LookupRec)
    (h : ∃ c ∈ covs, c ≠ none) : Sub.tab (.s5_3 g s covs recs) = .err := by
  simp only [Sub.tab]
  rw [mapL_unresolved_err _ h]
  rfl

example : ([([3, 4], [0, 1])] : CtxRule) ≠ [] := by decide

/-! ### Reverse chaining -/

/-- **C14.** Reverse chaining substitutions survive. -/
theorem C14_reverse (r : RevSubst) (hs : BMap.Sorted r.mapping) (hb : ∀ s ∈ r.backtrack, SlotOk s)
    (ha : ∀ s ∈ r.lookahead, SlotOk s) :
    RevSubst.fromLow r.toLow = .ok r ∧
    (Coverable (r.mapping.map Prod.fst) → r.backtrack.length ≤ 65535 → r.lookahead.length ≤ 65535 →
      Survives r.toLow 8 RevSubst.fromLow r) := by
  have h1 : RevSubst.fromLow r.toLow = .ok r := by
    simp only [RevSubst.toLow, RevSubst.fromLow, covGlyphs, Option.getD_some, BMap.map_fst_snd,
      BMap.collect_of_sorted hs]
    rw [map_covSlot _ (fun s h => (hb s h).1), map_covSlot _ (fun s h => (ha s h).1)]
  refine ⟨h1, fun hc hbl hal => ?_⟩
  refine survives_of (low := r.toLow) ⟨covLinkOk_keys hs hc, covsOk_slots hbl hb, covsOk_slots hal ha, ?_⟩ h1
  simpa using keys_length hs hc

example : BMap.Sorted ([(70, 89)] : List (UInt16 × UInt16)) ∧ (∀ s ∈ ([[69], [66, 67, 68]] : List Slot), SlotOk s) := by
  refine ⟨by simp [BMap.Sorted], ?_⟩
  intro s hs
  simp only [List.mem_cons, List.not_mem_nil, or_false] at hs
  rcases hs with rfl | rfl <;> exact ⟨by simp [Ascending], .inl (by decide)⟩

end FT.Props
