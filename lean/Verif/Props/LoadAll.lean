import Verif.Props.WholeFont

/-!
C97: reading all tables at once, and the number of glyphs.
-/

namespace FT.Props
open FT Reader FT.Store FT.Save FT.Cli FT.Whole

/-! ### Vocabulary -/

/-- Looking up the table is an error. -/
def LookupFails (E : Env) (s : Tables) (t : Tag) : Prop := ∃ s', Store.step (parser (Formats E)) (.open_ t) s = .ok (.failed, s')

/-- Looking up the table panics. -/
def LookupPanics (E : Env) (s : Tables) (t : Tag) : Prop := Store.step (parser (Formats E)) (.open_ t) s = .panic

/-- There is no such table. -/
def LookupAbsent (E : Env) (s : Tables) (t : Tag) : Prop := ∃ s', Store.step (parser (Formats E)) (.open_ t) s = .ok (.absent, s')

/-- A font that was loaded from a file and then used in any way that replaces no table. -/
def FromFile (E : Env) (file : Bytes) (s : Tables) : Prop :=
  ∃ v s0 ops os, fromBytes E file = .ok (v, s0) ∧ (∀ op ∈ ops, ReadOnly op) ∧ Store.run (parser (Formats E)) ops s0 = .ok (os, s)

/-! ### Proofs -/

section
variable {E : Env} {T : Tag → Option Bytes} {s s' : Tables}

theorem look_cases (h : Whole.Holds (Formats E) T s) (t : Tag) :
    (LookupAbsent E s t ↔ T t = none) ∧ (∀ v, Opens (Formats E) s t v ↔ Means (Formats E) T t v) ∧
    (LookupFails E s t ↔ Fails (Formats E) T t) ∧ (LookupPanics E s t ↔ Breaks (Formats E) T t) := by
  have a1 : T t = none → LookupAbsent E s t := fun hn => holds_absent h hn
  have a2 : ∀ v, Means (Formats E) T t v → Opens (Formats E) s t v := fun v hm => holds_opens h hm
  have a3 : Fails (Formats E) T t → LookupFails E s t := fun hf => fails_open h hf
  have a4 : Breaks (Formats E) T t → LookupPanics E s t := by
    intro hb
    obtain ⟨a, hr, ha⟩ := h
    have e := load_breaks hb 4 a (rank_le t) ha
    have hs := sim_load (parser (Formats E)) 4 hr t
    rw [e] at hs
    show St.getAs _ _ _ _ = _
    unfold St.getAs
    cases hl : s.load (parser (Formats E)) 4 t with
    | panic => rfl
    | err => rw [hl] at hs; exact hs.elim
    | ok r => rw [hl] at hs; exact hs.elim
  have x12 : ∀ v, LookupAbsent E s t → ¬ Opens (Formats E) s t v := by
    rintro v ⟨_, e⟩ ⟨_, e', _⟩; rw [e] at e'; cases e'
  have x13 : LookupAbsent E s t → ¬ LookupFails E s t := by rintro ⟨_, e⟩ ⟨_, e'⟩; rw [e] at e'; cases e'
  have x14 : LookupAbsent E s t → ¬ LookupPanics E s t := by rintro ⟨_, e⟩ e'; unfold LookupPanics at e'; rw [e] at e'; cases e'
  have x23 : ∀ v, Opens (Formats E) s t v → ¬ LookupFails E s t := by rintro v ⟨_, e, _⟩ ⟨_, e'⟩; rw [e] at e'; cases e'
  have x24 : ∀ v, Opens (Formats E) s t v → ¬ LookupPanics E s t := by
    rintro v ⟨_, e, _⟩ e'; unfold LookupPanics at e'; rw [e] at e'; cases e'
  have x34 : LookupFails E s t → ¬ LookupPanics E s t := by rintro ⟨_, e⟩ e'; unfold LookupPanics at e'; rw [e] at e'; cases e'
  have x2 : ∀ v w, Opens (Formats E) s t v → Opens (Formats E) s t w → v = w := fun v w h1 h2 => Whole.Opens.unique h1 h2
  rcases four (Formats E) T 4 t (rank_le t) with b | ⟨w, b⟩ | b | b
  · have n2 : ∀ v, ¬ Means (Formats E) T t v := fun v hm => x12 v (a1 b) (a2 v hm)
    refine ⟨⟨fun _ => b, a1⟩, fun v => ⟨fun ho => absurd ho (x12 v (a1 b)), a2 v⟩, ⟨fun hf => absurd hf (x13 (a1 b)), a3⟩,
      ⟨fun hf => absurd hf (x14 (a1 b)), a4⟩⟩
  · refine ⟨⟨fun ha => absurd (a2 w b) (x12 w ha), a1⟩, fun v => ⟨fun ho => by rw [x2 v w ho (a2 w b)]; exact b, a2 v⟩,
      ⟨fun hf => absurd hf (x23 w (a2 w b)), a3⟩, ⟨fun hf => absurd hf (x24 w (a2 w b)), a4⟩⟩
  · refine ⟨⟨fun ha => absurd (a3 b) (x13 ha), a1⟩, fun v => ⟨fun ho => absurd (a3 b) (x23 v ho), a2 v⟩, ⟨fun _ => b, a3⟩,
      ⟨fun hf => absurd hf (x34 (a3 b)), a4⟩⟩
  · refine ⟨⟨fun ha => absurd (a4 b) (x14 ha), a1⟩, fun v => ⟨fun ho => absurd (a4 b) (x24 v ho), a2 v⟩,
      ⟨fun hf => absurd (a4 b) (x34 hf), a3⟩, ⟨fun _ => b, a4⟩⟩

theorem FromFile.holds {file : Bytes} (h : FromFile E file s) : ∃ T, Whole.Holds (Formats E) T s := by
  obtain ⟨v, s0, ops, os, h1, h2, h3⟩ := h
  have h1' := h1
  unfold fromBytes at h1'
  cases e : Font.readTables (Rd.new file) with
  | err => rw [e] at h1'; cases h1'
  | panic => rw [e] at h1'; cases h1'
  | ok x =>
    obtain ⟨⟨version, tables⟩, r⟩ := x
    obtain ⟨_, h4⟩ := opened_holds (version := version) (T := fun t => BMap.get? tables t) ⟨tables, r, e, fun _ => rfl⟩ h1
    exact ⟨_, holds_run h2 h4 h3⟩

/-- The state in which every table with one of these tags that can be read has been read. -/
def Ready (E : Env) (T : Tag → Option Bytes) (a : Indep.St (Val More)) (t : Tag) : Prop :=
  ∀ v, Means (Formats E) T t v → Indep.valueAt a t = some v

/-- A state in which nothing was replaced, with what has been read. -/
def HoldsReady (E : Env) (T : Tag → Option Bytes) (s : Tables) (done : Tag → Prop) : Prop :=
  ∃ a, Rep s a ∧ Stands (Formats E) T a ∧ ∀ t, done t → Ready E T a t

theorem load_ready {done : Tag → Prop} (t : Tag) (h : HoldsReady E T s done) :
    ((T t = none ∨ ∃ v, Means (Formats E) T t v) ∧ ∃ s', loadTable E t s = .ok (true, s') ∧ HoldsReady E T s' (fun x => done x ∨ x = t)) ∨
    (Fails (Formats E) T t ∧ ∃ s', loadTable E t s = .ok (false, s') ∧ HoldsReady E T s' (fun x => done x ∨ x = t)) ∨
    (Breaks (Formats E) T t ∧ loadTable E t s = .panic) := by
  obtain ⟨a, hr, ha, hd⟩ := h
  have hs := sim_load (parser (Formats E)) 4 hr t
  have keep : ∀ c a', Indep.load (parser (Formats E)) 4 t a = .ok (c, a') → ∀ x, done x → Ready E T a' x := by
    intro c a' e x hx v hv
    have h1 := hd x hx v hv
    rcases (load_evolves _ x 4 t a a' c e).1 with h2 | ⟨b, v', d, h2, _⟩
    · unfold Indep.valueAt at h1 ⊢; rw [h2]; exact h1
    · unfold Indep.valueAt at h1; rw [h2] at h1; cases h1
  have fin : ∀ c a', Indep.load (parser (Formats E)) 4 t a = .ok (c, a') → Ready E T a' t →
      ∃ s', loadTable E t s = .ok (c, s') ∧ HoldsReady E T s' (fun x => done x ∨ x = t) := by
    intro c a' e hready
    rw [e] at hs
    unfold loadTable
    cases hl : s.load (parser (Formats E)) 4 t with
    | err => rw [hl] at hs; exact hs.elim
    | panic => rw [hl] at hs; exact hs.elim
    | ok r =>
      obtain ⟨c', s'⟩ := r
      rw [hl] at hs
      obtain ⟨rfl, h2⟩ := hs
      refine ⟨s', rfl, a', h2, (stands_load 4 t a a' _ ha e).1, ?_⟩
      rintro x (hx | rfl)
      · exact keep _ _ e x hx
      · exact hready
  rcases four (Formats E) T 4 t (rank_le t) with h | ⟨v, h⟩ | h | h
  · refine .inl ⟨.inl h, fin true a (by unfold Indep.load; rw [(entry_none (ha t)).mpr h]) ?_⟩
    intro v hv
    cases hv <;> simp_all
  · obtain ⟨a', b, e, e2⟩ := load_ok h 4 a (rank_le t) ha
    refine .inl ⟨.inr ⟨v, h⟩, fin _ _ e ?_⟩
    intro w hw
    obtain rfl := h.unique hw
    simp only [Indep.valueAt, e2]
  · obtain ⟨a', e⟩ := load_fails h 4 a (rank_le t) ha
    exact .inr (.inl ⟨h, fin _ _ e (fun v hv => absurd hv (h.not_means v))⟩)
  · have e := load_breaks h 4 a (rank_le t) ha
    refine .inr (.inr ⟨h, ?_⟩)
    rw [e] at hs
    unfold loadTable
    cases hl : s.load (parser (Formats E)) 4 t with
    | panic => rfl
    | err => rw [hl] at hs; exact hs.elim
    | ok r => rw [hl] at hs; exact hs.elim

theorem each_ready : ∀ {ts : List Tag} {s : Tables} {done : Tag → Prop}, HoldsReady E T s done →
    ((∀ t ∈ ts, ¬ Breaks (Formats E) T t) ∧ ∃ s', loadEach E ts s = .ok s' ∧ HoldsReady E T s' (fun x => done x ∨ x ∈ ts)) ∨
    ((∃ t ∈ ts, Breaks (Formats E) T t) ∧ loadEach E ts s = .panic)
  | [], s, done, h => .inl ⟨by simp, s, rfl, by
      obtain ⟨a, h1, h2, h3⟩ := h
      exact ⟨a, h1, h2, fun t ht => h3 t (by simpa using ht)⟩⟩
  | t :: ts, s, done, h => by
    have next : ∀ {c : Bool} {s1 : Tables}, loadTable E t s = .ok (c, s1) → ¬ Breaks (Formats E) T t →
        HoldsReady E T s1 (fun x => done x ∨ x = t) →
        ((∀ x ∈ t :: ts, ¬ Breaks (Formats E) T x) ∧ ∃ s', loadEach E (t :: ts) s = .ok s' ∧ HoldsReady E T s' (fun x => done x ∨ x ∈ t :: ts)) ∨
        ((∃ x ∈ t :: ts, Breaks (Formats E) T x) ∧ loadEach E (t :: ts) s = .panic) := by
      intro c s1 e hb h1
      rcases each_ready (ts := ts) h1 with ⟨h2, s', e', h3⟩ | ⟨⟨x, hx, h2⟩, e'⟩
      · left
        refine ⟨?_, s', by unfold loadEach; rw [e]; exact e', ?_⟩
        · intro x hx
          rcases List.mem_cons.mp hx with rfl | hx
          · exact hb
          · exact h2 x hx
        · obtain ⟨a, g1, g2, g3⟩ := h3
          refine ⟨a, g1, g2, fun x hx => g3 x ?_⟩
          rcases hx with hx | hx
          · exact .inl (.inl hx)
          · rcases List.mem_cons.mp hx with rfl | hx
            · exact .inl (.inr rfl)
            · exact .inr hx
      · right
        exact ⟨⟨x, by simp [hx], h2⟩, by unfold loadEach; rw [e]; exact e'⟩
    rcases load_ready t h with ⟨b, s1, e, h1⟩ | ⟨b, s1, e, h1⟩ | ⟨b, e⟩
    · refine next e ?_ h1
      intro hb
      rcases b with b | ⟨v, b⟩
      · cases hb <;> simp_all
      · exact hb.not_means v b
    · refine next e ?_ h1
      intro hb
      obtain ⟨a, hr, ha, _⟩ := h
      have e1 := load_breaks hb 4 a (rank_le t) ha
      obtain ⟨a', e2⟩ := load_fails b 4 a (rank_le t) ha
      rw [e1] at e2
      cases e2
    · right
      exact ⟨⟨t, by simp, b⟩, by unfold loadEach; rw [e]⟩

theorem keys_of (h : Whole.Holds (Formats E) T s) (t : Tag) : t ∈ s.store.map Prod.fst ↔ T t ≠ none := by
  obtain ⟨a, hr, ha⟩ := h
  have h1 := hr.items t
  have h2 := entry_none (ha t)
  have h3 : t ∈ s.store.map Prod.fst ↔ BMap.get? s.store t ≠ none := by
    constructor
    · intro hm hn
      obtain ⟨x, hx, rfl⟩ := List.mem_map.mp hm
      have := (BMap.get?_eq_some hr.sorted).mpr hx
      rw [hn] at this
      cases this
    · intro hn
      obtain ⟨x, hx⟩ := Option.ne_none_iff_exists'.mp hn
      exact List.mem_map.mpr ⟨(t, x), (BMap.get?_eq_some hr.sorted).mp hx, rfl⟩
  rw [h3]
  cases hg : BMap.get? s.store t with
  | none =>
    rw [hg] at h1
    cases hst : a.store t with
    | none => simp [h2.mp hst]
    | some x => rw [hst] at h1; exact h1.elim
  | some x =>
    rw [hg] at h1
    cases hst : a.store t with
    | none => rw [hst] at h1; cases x <;> exact h1.elim
    | some y =>
      have : T t ≠ none := fun hn => by have := h2.mpr hn; rw [hst] at this; cases this
      simp [this]

theorem HoldsReady.holds {done : Tag → Prop} (h : HoldsReady E T s done) : Whole.Holds (Formats E) T s := by
  obtain ⟨a, h1, h2, _⟩ := h
  exact ⟨a, h1, h2⟩

theorem one_ready {done : Tag → Prop} (t : Tag) (h : HoldsReady E T s done) (f : Tables → Res (Bool × Tables)) :
    (¬ Fails (Formats E) T t ∧ ¬ Breaks (Formats E) T t ∧ ∃ s', andThen (loadTable E t s) f = f s' ∧ HoldsReady E T s' (fun x => done x ∨ x = t)) ∨
    (Fails (Formats E) T t ∧ ∃ s', andThen (loadTable E t s) f = .ok (false, s')) ∨
    (Breaks (Formats E) T t ∧ andThen (loadTable E t s) f = .panic) := by
  have hx := look_cases h.holds t
  rcases load_ready t h with ⟨b, s1, e, h1⟩ | ⟨b, s1, e, h1⟩ | ⟨b, e⟩
  · refine .inl ⟨?_, ?_, s1, by rw [e]; rfl, h1⟩
    · intro hb
      rcases b with b | ⟨v, b⟩
      · cases hb <;> simp_all
      · exact hb.not_means v b
    · intro hb
      rcases b with b | ⟨v, b⟩
      · cases hb <;> simp_all
      · exact hb.not_means v b
  · exact .inr (.inl ⟨b, s1, by rw [e]; rfl⟩)
  · exact .inr (.inr ⟨b, by rw [e]; rfl⟩)

theorem glyf_before (h : Fails (Formats E) T tagLoca) (hg : T tagGlyf ≠ none) : Fails (Formats E) T tagGlyf := by
  obtain ⟨b, hb⟩ := Option.ne_none_iff_exists'.mp hg
  exact .before hb (by decide) h

theorem try_ready {done : Tag → Prop} (h : HoldsReady E T s done) :
    ((¬ Fails (Formats E) T tagHead ∧ ¬ Fails (Formats E) T tagMaxp ∧ ¬ Fails (Formats E) T tagGlyf ∧ ∀ t, ¬ Breaks (Formats E) T t) ∧
      ∃ s', fullyDeserialize E s = .ok s' ∧ HoldsReady E T s' (fun _ => True)) ∨
    ((Fails (Formats E) T tagHead ∨ Fails (Formats E) T tagMaxp ∨ Fails (Formats E) T tagGlyf ∨ ∃ t, Breaks (Formats E) T t) ∧
      fullyDeserialize E s = .panic) := by
  unfold fullyDeserialize tryDeserialize
  rcases one_ready tagHead h (fun s => andThen (loadTable E tagMaxp s) fun s => andThen (loadGlyphs E s) (loadAll E)) with
    ⟨n1, _, s1, e1, h1⟩ | ⟨b, s1, e1⟩ | ⟨b, e1⟩
  rotate_left
  · right; exact ⟨.inl b, by rw [e1]⟩
  · right; exact ⟨.inr (.inr (.inr ⟨_, b⟩)), by rw [e1]⟩
  rw [e1]
  rcases one_ready tagMaxp h1 (fun s => andThen (loadGlyphs E s) (loadAll E)) with ⟨n2, _, s2, e2, h2⟩ | ⟨b, s2, e2⟩ | ⟨b, e2⟩
  rotate_left
  · right; exact ⟨.inr (.inl b), by rw [e2]⟩
  · right; exact ⟨.inr (.inr (.inr ⟨_, b⟩)), by rw [e2]⟩
  rw [e2]
  have last : ∀ {s : Tables} {done : Tag → Prop}, HoldsReady E T s done → ¬ Fails (Formats E) T tagGlyf →
      ((¬ Fails (Formats E) T tagHead ∧ ¬ Fails (Formats E) T tagMaxp ∧ ¬ Fails (Formats E) T tagGlyf ∧ ∀ t, ¬ Breaks (Formats E) T t) ∧
        ∃ s', (match loadAll E s with | .ok (true, s) => Res.ok s | _ => .panic) = .ok s' ∧ HoldsReady E T s' (fun _ => True)) ∨
      ((Fails (Formats E) T tagHead ∨ Fails (Formats E) T tagMaxp ∨ Fails (Formats E) T tagGlyf ∨ ∃ t, Breaks (Formats E) T t) ∧
        (match loadAll E s with | .ok (true, s) => Res.ok s | _ => .panic) = .panic) := by
    intro s done h n3
    have hk := keys_of h.holds
    unfold loadAll
    rcases each_ready (ts := s.store.map Prod.fst) h with ⟨h3, s3, e3, h4⟩ | ⟨⟨t, _, h3⟩, e3⟩
    · left
      refine ⟨⟨n1, n2, n3, fun t hb => ?_⟩, s3, by rw [e3], ?_⟩
      · by_cases ht : t ∈ s.store.map Prod.fst
        · exact h3 t ht hb
        · have : T t = none := by by_contra hc; exact ht ((hk t).mpr hc)
          cases hb <;> simp_all
      · obtain ⟨a, g1, g2, g3⟩ := h4
        refine ⟨a, g1, g2, fun t _ => ?_⟩
        by_cases ht : t ∈ s.store.map Prod.fst
        · exact g3 t (.inr ht)
        · have : T t = none := by by_contra hc; exact ht ((hk t).mpr hc)
          intro v hv
          cases hv <;> simp_all
    · right
      exact ⟨.inr (.inr (.inr ⟨t, h3⟩)), by rw [e3]⟩
  have hg : (BMap.get? s2.store tagGlyf).isSome = true ↔ T tagGlyf ≠ none := by
    rw [← keys_of h2.holds tagGlyf, Option.isSome_iff_exists]
    obtain ⟨a, hr, _⟩ := h2
    constructor
    · rintro ⟨x, hx⟩
      exact List.mem_map.mpr ⟨(_, x), (BMap.get?_eq_some hr.sorted).mp hx, rfl⟩
    · intro hm
      obtain ⟨x, hx, e⟩ := List.mem_map.mp hm
      exact ⟨x.2, (BMap.get?_eq_some hr.sorted).mpr (by rw [← e]; exact hx)⟩
  unfold loadGlyphs
  by_cases hT : T tagGlyf = none
  · rw [if_neg (by rw [hg]; simp [hT])]
    show _ ∨ _
    refine last h2 ?_
    intro hb
    cases hb <;> simp_all
  · rw [if_pos (hg.mpr hT)]
    rcases one_ready tagLoca h2 (loadTable E tagGlyf) with ⟨n4, _, s4, e4, h4⟩ | ⟨b, s4, e4⟩ | ⟨b, e4⟩
    · rw [e4]
      rcases one_ready tagGlyf h4 (loadAll E) with ⟨n5, _, s5, e5, h5⟩ | ⟨b, s5, e5⟩ | ⟨b, e5⟩
      · rw [e5]; exact last h5 n5
      · right; exact ⟨.inr (.inr (.inl b)), by rw [e5]⟩
      · right; exact ⟨.inr (.inr (.inr ⟨_, b⟩)), by rw [e5]⟩
    · right; exact ⟨.inr (.inr (.inl (glyf_before b hT))), by rw [e4]; rfl⟩
    · right; exact ⟨.inr (.inr (.inr ⟨_, b⟩)), by rw [e4]; rfl⟩

theorem value_at {done : Tag → Prop} (h : HoldsReady E T s done) {t : Tag} (ht : done t) {v : Val More} (hm : Means (Formats E) T t v) :
    s.valueAt t = some v := by
  obtain ⟨a, hr, _, hd⟩ := h
  rw [sim_valueAt hr]
  exact hd t ht v hm

end

/-! ### The statements -/

/-- **C97.** Reading all tables of a font whose tables were not replaced: it succeeds exactly if `head`, `maxp` and `glyf` can be
looked up (or are absent) and looking up no table panics; otherwise it panics. -/
theorem C97_outcome (E : Env) (file : Bytes) (s : Tables) (h : FromFile E file s) :
    ((∃ s', fullyDeserialize E s = .ok s') ↔
      ¬ LookupFails E s tagHead ∧ ¬ LookupFails E s tagMaxp ∧ ¬ LookupFails E s tagGlyf ∧ ∀ t, ¬ LookupPanics E s t) ∧
    (fullyDeserialize E s = .panic ↔
      LookupFails E s tagHead ∨ LookupFails E s tagMaxp ∨ LookupFails E s tagGlyf ∨ ∃ t, LookupPanics E s t) := by
  obtain ⟨T, a, hr, ha⟩ := h.holds
  have hh : Whole.Holds (Formats E) T s := ⟨a, hr, ha⟩
  have hf : ∀ t, LookupFails E s t ↔ Fails (Formats E) T t := fun t => (look_cases hh t).2.2.1
  have hp : ∀ t, LookupPanics E s t ↔ Breaks (Formats E) T t := fun t => (look_cases hh t).2.2.2
  simp only [hf, hp]
  rcases try_ready (done := fun _ => False) ⟨a, hr, ha, fun _ h => h.elim⟩ with ⟨c, s', e, _⟩ | ⟨c, e⟩
  · refine ⟨⟨fun _ => c, fun _ => ⟨s', e⟩⟩, ⟨fun e' => (by rw [e] at e'; cases e'), fun hc => ?_⟩⟩
    obtain ⟨c1, c2, c3, c4⟩ := c
    rcases hc with hc | hc | hc | ⟨t, hc⟩
    exacts [absurd hc c1, absurd hc c2, absurd hc c3, absurd hc (c4 t)]
  · refine ⟨⟨fun ⟨s', e'⟩ => (by rw [e] at e'; cases e'), fun hc => ?_⟩, ⟨fun _ => c, fun _ => e⟩⟩
    obtain ⟨c1, c2, c3, c4⟩ := hc
    rcases c with hc | hc | hc | ⟨t, hc⟩
    exacts [absurd hc c1, absurd hc c2, absurd hc c3, absurd hc (c4 t)]

/-- **C97.** When it succeeds, every table that can be looked up has been read, with the value that the lookup gives; and nothing
else has changed: every lookup has the same outcome as before, and every table is written as the same bytes. -/
theorem C97_reads_all (E : Env) (file : Bytes) (s s' : Tables) (h : FromFile E file s) (hs : fullyDeserialize E s = .ok s') (t : Tag) :
    (∀ v, Opens (Formats E) s t v → s'.valueAt t = some v) ∧
    (∀ v, Opens (Formats E) s' t v ↔ Opens (Formats E) s t v) ∧ (LookupAbsent E s' t ↔ LookupAbsent E s t) ∧
    (LookupFails E s' t ↔ LookupFails E s t) ∧ (LookupPanics E s' t ↔ LookupPanics E s t) ∧
    s'.write (parser (Formats E)) t = s.write (parser (Formats E)) t := by
  obtain ⟨T, a, hr, ha⟩ := h.holds
  have hh : Whole.Holds (Formats E) T s := ⟨a, hr, ha⟩
  rcases try_ready (done := fun _ => False) ⟨a, hr, ha, fun _ h => h.elim⟩ with ⟨c, s1, e, h1⟩ | ⟨c, e⟩
  · rw [hs] at e
    cases e
    obtain ⟨a1, a2, a3, a4⟩ := look_cases hh t
    obtain ⟨b1, b2, b3, b4⟩ := look_cases h1.holds t
    refine ⟨fun v hv => value_at h1 trivial ((a2 v).mp hv), fun v => (b2 v).trans (a2 v).symm, b1.trans a1.symm, b3.trans a3.symm,
      b4.trans a4.symm, ?_⟩
    rw [holds_write hh, holds_write h1.holds]
  · rw [hs] at e
    cases e

/-! ### The number of glyphs -/

theorem load_holders {V : Type} (P : Store.Parser V) : ∀ (fuel : Nat) (t : Tag) (s s' : Store.St V) (c : Bool),
    s.load P fuel t = .ok (c, s') → s'.holders = s.holders := by
  have fin : ∀ (t : Tag) (b : Bytes) (d : Option V) (s s' : Store.St V) (c : Bool), s.finish P t b d = .ok (c, s') → s'.holders = s.holders := by
    intro t b d s s' c h
    unfold St.finish at h
    split at h <;> cases h <;> rfl
  intro fuel
  induction fuel with
  | zero =>
    intro t s s' c h
    unfold St.load at h
    split at h
    · cases h; rfl
    · cases h; rfl
    · split at h
      · exact fin _ _ _ _ _ _ h
      · cases h
  | succ k ih =>
    intro t s s' c h
    unfold St.load at h
    split at h
    · cases h; rfl
    · cases h; rfl
    · split at h
      · exact fin _ _ _ _ _ _ h
      · simp only at h
        split at h
        · next e => cases h; exact ih _ _ _ _ e
        · next e =>
          have h1 := ih _ _ _ _ e
          split at h
          · cases h; exact h1
          · rw [fin _ _ _ _ _ _ h, h1]
        · cases h
        · cases h

/-- **C97.** The number of glyphs is the one in `maxp` at the time of the first call. -/
theorem C97_count (E : Env) (f : Whole.Font) (h0 : f.numGlyphs = none) (m : Tables.Maxp) (hm : Opens (Formats E) f.tables tagMaxp (.maxp m)) :
    ∃ s, f.countOf E = .ok (m.numGlyphs, { f with tables := s, numGlyphs := some m.numGlyphs }) := by
  obtain ⟨s1, e1, e2⟩ := hm
  have hl : s1.holders.length = f.tables.holders.length + 1 := by
    have e1' := e1
    simp only [Store.step, St.getAs] at e1'
    cases hl : f.tables.load (parser (Formats E)) 4 tagMaxp with
    | err => rw [hl] at e1'; cases e1'
    | panic => rw [hl] at e1'; cases e1'
    | ok x =>
      obtain ⟨c, s2⟩ := x
      have hh := load_holders _ _ _ _ _ _ hl
      rw [hl] at e1'
      cases c with
      | false => cases e1'
      | true =>
        simp only at e1'
        split at e1' <;> cases e1'
        simp [St.push, hh]
  have hv : s1.read f.tables.holders.length = .value (.maxp m) := by
    unfold lastVar at e2
    rw [hl] at e2
    exact e2
  have hc : Whole.countGlyphs E f.tables = .ok (m.numGlyphs, s1.setHolder f.tables.holders.length none) := by
    unfold Whole.countGlyphs require access Save.valueOf exec
    simp only [storeMachine, e1, Res.ok_bind]
    simp only [Store.step, hv, Res.ok_bind]
  refine ⟨s1.setHolder f.tables.holders.length none, ?_⟩
  unfold Whole.Font.countOf
  rw [h0]
  simp only
  rw [hc]
  rfl

/-- **C97.** Later calls give the same number, whatever happens to the tables in between. -/
theorem C97_count_again (E : Env) (f f' : Whole.Font) (n : UInt16) (h : f.countOf E = .ok (n, f')) (s : Tables) :
    ({ f' with tables := s } : Whole.Font).countOf E = .ok (n, { f' with tables := s }) := by
  have : f'.numGlyphs = some n := by
    unfold Whole.Font.countOf at h
    split at h
    · next e => cases h; exact e
    · obtain ⟨x, _, h2⟩ := bind_eq_ok h
      cases h2
      rfl
  unfold Whole.Font.countOf
  simp only [this]

/-- **C97.** The first call panics if there is no `maxp` or it cannot be read. -/
theorem C97_count_panics (E : Env) (f : Whole.Font) (h0 : f.numGlyphs = none)
    (h : LookupAbsent E f.tables tagMaxp ∨ LookupFails E f.tables tagMaxp ∨ LookupPanics E f.tables tagMaxp) :
    f.countOf E = .panic := by
  have hc : Whole.countGlyphs E f.tables = .panic := by
    unfold Whole.countGlyphs require access
    rcases h with ⟨s', e⟩ | ⟨s', e⟩ | e
    · simp only [storeMachine, e, Res.ok_bind]; rfl
    · simp only [storeMachine, e]; rfl
    · unfold LookupPanics at e; simp only [storeMachine, e]; rfl
  unfold Whole.Font.countOf
  rw [h0]
  simp only
  rw [hc]
  rfl

/-! ### Examples -/

theorem odd_from (E : Env) : ∃ s, FromFile E oddFile s := by
  obtain ⟨v, s, h⟩ := C96_opens E oddFile oddFile_font (.inl ⟨_, oddFile_head⟩)
  exact ⟨s, v, s, [], [], h, by simp, rfl⟩

/-- Only the tables of this file can be present. -/
theorem odd_tags {t : Tag} {b : Bytes} (h : TableIn oddFile t b) : t = tagHead ∨ t = tagMaxp ∨ t = zzzz := by
  obtain ⟨i, hi, ht, _⟩ := h
  have hi : i < 4 := hi
  have key : ∀ t', recordTag oddFile i = t'.bytes → t = t' := fun t' h' => Font.tag_bytes_inj (ht.symm.trans h')
  interval_cases i
  · exact .inl (key _ (by decide +kernel))
  · exact .inr (.inl (key _ (by decide +kernel)))
  · exact .inr (.inr (key _ (by decide +kernel)))
  · exact .inr (.inr (key _ (by decide +kernel)))

theorem odd_every (E : Env) {s : Tables} (h : FromFile E oddFile s) : EveryTable E oddFile s := by
  obtain ⟨v, s0, ops, os, h1, h2, h3⟩ := h
  exact (C96_reads E oddFile oddFile_font v s0 h1 ops h2 os s h3).2

theorem odd_maxp : MaxpSays oddFile ⟨0x8000, .v05 ⟨300⟩⟩ :=
  ⟨rfl, _, oddFile_in (i := 1) (by decide) (by decide +kernel) (by decide +kernel), flat_shown (by decide +kernel)⟩

/-- All tables of this font are read. -/
example (E : Env) : ∃ s s', FromFile E oddFile s ∧ fullyDeserialize E s = .ok s' ∧ s'.valueAt tagHead = some (.head fileHead) ∧
    s'.valueAt zzzz = some (.other zzzz (.rest (.unknown [8, 9]))) := by
  obtain ⟨s, hs⟩ := odd_from E
  have he := odd_every E hs
  have hm := odd_maxp
  have hz := he.unknown zzzz _ (by decide +kernel) (oddFile_in (i := 2) (by decide) (by decide +kernel) (by decide +kernel))
  have open_not : ∀ {t : Tag} {v : Val More}, Opens (Formats E) s t v → ¬ LookupFails E s t ∧ ¬ LookupPanics E s t := by
    rintro t v ⟨_, e, _⟩
    exact ⟨(by rintro ⟨_, e'⟩; rw [e] at e'; cases e'), (by intro e'; unfold LookupPanics at e'; rw [e] at e'; cases e')⟩
  have none_not : ∀ {t : Tag}, (∀ b, ¬ TableIn oddFile t b) → ¬ LookupFails E s t ∧ ¬ LookupPanics E s t := by
    intro t ht
    obtain ⟨_, e⟩ := he.none t ht
    exact ⟨(by rintro ⟨_, e'⟩; rw [e] at e'; cases e'), (by intro e'; unfold LookupPanics at e'; rw [e] at e'; cases e')⟩
  have all : ∀ t, ¬ LookupFails E s t ∧ ¬ LookupPanics E s t := by
    intro t
    by_cases h1 : t = tagHead
    · subst h1; exact open_not (he.head _ oddFile_head)
    by_cases h2 : t = tagMaxp
    · subst h2; exact open_not (he.maxp _ hm)
    by_cases h3 : t = zzzz
    · subst h3; exact open_not hz
    · exact none_not fun b hb => by rcases odd_tags hb with h | h | h; exacts [h1 h, h2 h, h3 h]
  obtain ⟨s', e⟩ := (C97_outcome E oddFile s hs).1.mpr ⟨(all _).1, (all _).1, (all _).1, fun t => (all t).2⟩
  exact ⟨s, s', hs, e, (C97_reads_all E oddFile s s' hs e _).1 _ (he.head _ oddFile_head), (C97_reads_all E oddFile s s' hs e _).1 _ hz⟩

theorem open_inserted {F : Fmt Glyf.Glyph (Other More)} (s : Tables) (t : Tag) (raw : Option Bytes) (v : Val More) :
    Opens F { s with heap := s.heap ++ [v], store := BMap.insert s.store t (.loaded ⟨t, raw, s.heap.length⟩) } t v := by
  refine ⟨St.push { s with heap := s.heap ++ [v], store := BMap.insert s.store t (.loaded ⟨t, raw, s.heap.length⟩) }
    (some (.cow t s.heap.length)), ?_, ?_⟩
  · simp only [Store.step, St.getAs, St.load, BMap.get?_insert_self]
    rfl
  · simp [lastVar, St.read, St.holder, St.push, Holder.ptr]

/-- The number of glyphs does not follow `maxp`: after another one was inserted, it is still the old one. -/
theorem C97_stale (E : Env) : ∃ (f f1 : Whole.Font) (s : Tables) (m : Tables.Maxp), f.countOf E = .ok (300, f1) ∧
    Store.step (parser (Formats E)) (.insertNew tagMaxp (.maxp m)) f1.tables = .ok (.done, s) ∧
    Opens (Formats E) s tagMaxp (.maxp m) ∧ m.numGlyphs = 5 ∧
    ({ f1 with tables := s } : Whole.Font).countOf E = .ok (300, { f1 with tables := s }) := by
  obtain ⟨s0, hs⟩ := odd_from E
  obtain ⟨s1, e1⟩ := C97_count E ⟨0x10000, s0, none⟩ rfl _ ((odd_every E hs).maxp _ odd_maxp)
  refine ⟨_, _, _, ⟨0x8000, .v05 ⟨5⟩⟩, e1, rfl, ?_, rfl, C97_count_again E _ _ _ e1 _⟩
  exact open_inserted _ _ _ _

end FT.Props
