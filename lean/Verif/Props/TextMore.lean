import Verif.Props.NameTable
import Verif.Props.Fvar
import Verif.Props.TupleHeaderMore
import Verif.Lemmas.CliSave

/-!
C48: which axis maps are written. C50: name tables with too many records.
-/

namespace FT.Props
open FT FT.AxisMaps FT.F32 FT.Reader FT.Cli

theorem encF2dot14_outcome (c : ℚ) : (∃ b, encF2dot14 c = .ok b) ∨ encF2dot14 c = .err := by
  unfold encF2dot14 f2dot14AsPacked
  simp only
  split
  · exact Or.inl ⟨_, rfl⟩
  · exact Or.inr rfl

theorem encF2dot14_held {c : ℚ} (h : Holds14 c) : ∃ b, encF2dot14 c = .ok b := by
  obtain ⟨p, e⟩ := (C04_f2dot14_range c).1 h
  unfold encF2dot14
  rw [e]
  exact ⟨_, rfl⟩

theorem encF2dot14_refused {c : ℚ} (h : 2 ≤ c ∨ c ≤ -2 - 1 / 16384) : encF2dot14 c = .err := by
  unfold encF2dot14
  rw [(C04_f2dot14_range c).2 h]
  rfl

/-- A list is written or refused; it is refused if an element is, and written if all are. -/
theorem encVecR_outcome {α : Type} {enc : α → Res Bytes} (h : ∀ a, (∃ b, enc a = .ok b) ∨ enc a = .err) : ∀ l : List α,
    ((∃ b, encVecR enc l = .ok b) ∨ encVecR enc l = .err) ∧ ((∃ a ∈ l, enc a = .err) → encVecR enc l = .err) ∧
    ((∀ a ∈ l, ∃ b, enc a = .ok b) → ∃ b, encVecR enc l = .ok b)
  | [] => ⟨Or.inl ⟨[], rfl⟩, (by rintro ⟨a, ha, _⟩; cases ha), fun _ => ⟨[], rfl⟩⟩
  | a :: l => by
    obtain ⟨h1, h2, h3⟩ := encVecR_outcome h l
    refine ⟨?_, ?_, ?_⟩
    · rcases h a with ⟨b, e⟩ | e
      · rcases h1 with ⟨c, e'⟩ | e'
        · exact Or.inl ⟨b ++ c, by simp only [encVecR, e, e']⟩
        · exact Or.inr (by simp only [encVecR, e, e'])
      · exact Or.inr (by simp only [encVecR, e])
    · rintro ⟨x, hx, e⟩
      rcases List.mem_cons.mp hx with rfl | hx'
      · simp only [encVecR, e]
      · rcases h a with ⟨b, e'⟩ | e'
        · simp only [encVecR, e', h2 ⟨x, hx', e⟩]
        · simp only [encVecR, e']
    · intro ha
      obtain ⟨b, e⟩ := ha a List.mem_cons_self
      obtain ⟨c, e'⟩ := h3 (fun x hx => ha x (List.mem_cons_of_mem _ hx))
      exact ⟨b ++ c, by simp only [encVecR, e, e']⟩

theorem encAxisValue_outcome (x : ℚ × ℚ) : ((∃ b, encAxisValue x = .ok b) ∨ encAxisValue x = .err) ∧
    (encF2dot14 x.1 = .err ∨ encF2dot14 x.2 = .err → encAxisValue x = .err) ∧
    ((∃ b, encF2dot14 x.1 = .ok b) → (∃ b, encF2dot14 x.2 = .ok b) → ∃ b, encAxisValue x = .ok b) := by
  unfold encAxisValue
  rcases encF2dot14_outcome x.1 with ⟨a, e⟩ | e
  · rcases encF2dot14_outcome x.2 with ⟨b, e'⟩ | e'
    · rw [e, e']
      exact ⟨Or.inl ⟨_, rfl⟩, (by rintro (h | h) <;> cases h), fun _ _ => ⟨_, rfl⟩⟩
    · rw [e, e']
      exact ⟨Or.inr rfl, fun _ => rfl, fun _ ⟨b, h⟩ => by cases h⟩
  · rw [e]
    exact ⟨Or.inr rfl, fun _ => rfl, fun ⟨b, h⟩ => by cases h⟩

theorem encSegment_outcome (m : List (ℚ × ℚ)) : ((∃ b, encSegment m = .ok b) ∨ encSegment m = .err) ∧
    ((∃ x ∈ m, encAxisValue x = .err) → encSegment m = .err) ∧
    ((∀ x ∈ m, ∃ b, encAxisValue x = .ok b) → ∃ b, encSegment m = .ok b) := by
  obtain ⟨h1, h2, h3⟩ := encVecR_outcome (enc := encAxisValue) (fun x => (encAxisValue_outcome x).1) m
  unfold encSegment
  refine ⟨?_, ?_, ?_⟩
  · rcases h1 with ⟨b, e⟩ | e
    · rw [e]; exact Or.inl ⟨_, rfl⟩
    · rw [e]; exact Or.inr rfl
  · intro h
    rw [h2 h]; rfl
  · intro h
    obtain ⟨b, e⟩ := h3 h
    rw [e]; exact ⟨_, rfl⟩

/-- **C48** (which maps are written). An `avar` table is written if all coordinates lie between -2 and 2 - 2⁻¹⁴, and refused with an
error if one is 2 or more, or -2 - 2⁻¹⁴ or less. -/
theorem C48_avar_outcome (maps : List (List (ℚ × ℚ))) :
    ((∀ m ∈ maps, ∀ x ∈ m, Holds14 x.1 ∧ Holds14 x.2) → ∃ bs, encAvar maps = .ok bs) ∧
    ((∃ m ∈ maps, ∃ x ∈ m, ∃ c, (c = x.1 ∨ c = x.2) ∧ (2 ≤ c ∨ c ≤ -2 - 1 / 16384)) → encAvar maps = .err) := by
  obtain ⟨-, h2, h3⟩ := encVecR_outcome (enc := encSegment) (fun m => (encSegment_outcome m).1) maps
  unfold encAvar
  constructor
  · intro h
    obtain ⟨b, e⟩ := h3 (fun m hm => (encSegment_outcome m).2.2 (fun x hx =>
      (encAxisValue_outcome x).2.2 (encF2dot14_held (h m hm x hx).1) (encF2dot14_held (h m hm x hx).2)))
    rw [e]
    exact ⟨_, rfl⟩
  · rintro ⟨m, hm, x, hx, c, hc, hr⟩
    rw [h2 ⟨m, hm, (encSegment_outcome m).2.1 ⟨x, hx, (encAxisValue_outcome x).2.1 (by
      rcases hc with rfl | rfl
      · exact Or.inl (encF2dot14_refused hr)
      · exact Or.inr (encF2dot14_refused hr))⟩⟩]
    rfl

example : Holds14 (3 / 10) ∧ ((2 : ℚ) ≤ 5 / 2 ∨ (5 / 2 : ℚ) ≤ -2 - 1 / 16384) := by
  unfold Holds14
  norm_num

/-- **C50** (too many records). A name table of more than 5460 records never survives: the writer panics, or, if the number of
records does not fit sixteen bits, writes a table which reads as another list, wherever it is put. -/
theorem C50_too_many_lost {lib : Strings.Legacy} {rs : List Strings.NameRecord} (h : 5461 ≤ rs.length) :
    Strings.encName lib rs = .panic ∨
    (65536 ≤ rs.length ∧ ∀ r rs' r', Strings.readName lib r = .ok (rs', r') → rs' ≠ rs) := by
  by_cases hl : rs.length ≤ 65535
  · exact Or.inl (C50_too_many h hl)
  · refine Or.inr ⟨by omega, ?_⟩
    intro r rs' r' hr e
    subst e
    unfold Strings.readName at hr
    obtain ⟨_, r1, _, hr⟩ := reader_bind_ok hr
    obtain ⟨count, r2, _, hr⟩ := reader_bind_ok hr
    obtain ⟨_, r3, _, hr⟩ := reader_bind_ok hr
    obtain ⟨irs, r4, hirs, hr⟩ := reader_bind_ok hr
    obtain ⟨_, r5, _, hr⟩ := reader_bind_ok hr
    obtain ⟨recs, r6, hrecs, hr⟩ := reader_bind_ok hr
    obtain ⟨_, r7, _, hr⟩ := reader_bind_ok hr
    rw [pure_run] at hr
    have e : recs = rs' := by
      injection hr with h1
      exact congrArg Prod.fst h1
    subst e
    have hlen : ∀ (irs : List Strings.NameInternal) (r r' : Rd) (l : List Strings.NameRecord),
        Strings.readNames lib irs r = .ok (l, r') → l.length = irs.length := by
      intro irs
      induction irs with
      | nil =>
        intro r r' l h
        unfold Strings.readNames at h
        rw [pure_run] at h
        cases h
        rfl
      | cons a irs ih =>
        intro r r' l h
        unfold Strings.readNames at h
        obtain ⟨x, q, _, h⟩ := reader_bind_ok h
        obtain ⟨l', q', h', h⟩ := reader_bind_ok h
        rw [pure_run] at h
        cases h
        rw [List.length_cons, List.length_cons, ih _ _ _ h']
    have h1 := hlen _ _ _ _ hrecs
    have h2 := deCounted_length hirs
    have := count.toNat_lt
    omega

end FT.Props
