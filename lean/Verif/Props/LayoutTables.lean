import Verif.Lemmas.LayoutTables
import Verif.Lemmas.GsubHigh

/-!
C17: script, language system and feature lists.
-/

namespace FT.Props
open FT FT.Lay FT.Off FT.Gsub

/-- What survives of a language system whatever its indices are: everything modulo 2^16, a required feature
congruent to 65535 meaning "none". -/
def truncated (l : LanguageSystem) : LanguageSystem :=
  ⟨l.required.bind (fun r => if r % 65536 = 65535 then none else some (r % 65536)), l.features.map (· % 65536)⟩

theorem langsys_low (l : LanguageSystem) : LanguageSystem.ofLow l.toLow = truncated l := by
  obtain ⟨r, f⟩ := l
  simp only [LanguageSystem.ofLow, LanguageSystem.toLow, truncated, LanguageSystem.mk.injEq]
  constructor
  · cases r with
    | none => rfl
    | some r =>
      by_cases h : r % 65536 = 65535 <;> simp [h]
  · rw [List.map_map]
    apply List.map_congr_left
    intro x _
    simp

/-- A language system whose indices fit: below 2^16, the required feature not 65535, at most 65535 features. -/
def LanguageOk (l : LanguageSystem) : Prop :=
  (∀ r, l.required = some r → r < 65535) ∧ (∀ i ∈ l.features, i < 65536) ∧ l.features.length ≤ 65535

theorem truncated_ok {l : LanguageSystem} (h : LanguageOk l) : truncated l = l := by
  obtain ⟨r, f⟩ := l
  simp only [truncated, LanguageSystem.mk.injEq]
  constructor
  · cases r with
    | none => rfl
    | some r =>
      have := h.1 r rfl
      simp only [Option.bind_some]
      rw [if_neg (by omega), Nat.mod_eq_of_lt (by omega)]
  · conv => rhs; rw [← List.map_id f]
    apply List.map_congr_left
    intro x hx
    have := h.2.1 x hx
    simp only [id]; omega

/-- **C17.** A language system converted to its binary record and back: exact for all inputs. -/
theorem C17_language_exact (l : LanguageSystem) :
    LanguageSystem.ofLow l.toLow = truncated l ∧ (LanguageOk l → LanguageSystem.ofLow l.toLow = l) :=
  ⟨langsys_low l, fun h => by rw [langsys_low, truncated_ok h]⟩

/-- A required feature with index 65535 is silently lost, index 65536 becomes 0. -/
theorem C17_sentinel_lost : LanguageSystem.ofLow (LanguageSystem.toLow ⟨some 65535, []⟩) = ⟨none, []⟩ ∧
    LanguageSystem.ofLow (LanguageSystem.toLow ⟨some 65536, [65537]⟩) = ⟨some 0, [1]⟩ := by decide

def ScriptOk (s : Script) : Prop := (∀ l, s.dflt = some l → LanguageOk l) ∧ BMap.Sorted s.langs ∧
  s.langs.length ≤ 65535 ∧ ∀ x ∈ s.langs, x.1.Valid ∧ LanguageOk x.2

/-- A script list with printable tags and indices that fit; maps are given in key order. -/
def ScriptsOk (l : ScriptList) : Prop := BMap.Sorted l ∧ l.length ≤ 65535 ∧ ∀ x ∈ l, x.1.Valid ∧ ScriptOk x.2

/-- A feature list with printable tags and indices that fit. -/
def FeaturesOk (l : FeatureList) : Prop := l.length ≤ 65535 ∧
  ∀ x ∈ l, x.1.Valid ∧ (∀ i ∈ x.2.1, i < 65536) ∧ x.2.1.length ≤ 65535

theorem mapL_unwrapRec {α β : Type} {f : α → Res β} : ∀ (l : List (Tag × β)) (g : β → α),
    (∀ x ∈ l, f (g x.2) = .ok x.2) → Res.mapL (unwrapRec f) (l.map (fun x => (x.1, some (g x.2)))) = .ok l
  | [], _, _ => rfl
  | x :: l, g, h => by
    have ih := mapL_unwrapRec l g (fun y hy => h y (by simp [hy]))
    simp only [List.map_cons, Res.mapL, ih, unwrapRec, h x (by simp)]

theorem script_low {s : Script} (h : ScriptOk s) : Script.ofLow s.toLow = .ok s := by
  obtain ⟨d, m⟩ := s
  obtain ⟨h1, h2, _, h4⟩ := h
  simp only [Script.ofLow, Script.toLow]
  rw [mapL_unwrapRec m LanguageSystem.toLow (fun x hx => by rw [(C17_language_exact x.2).2 (h4 x hx).2])]
  simp only [BMap.collect_of_sorted h2]
  congr
  cases d with
  | none => rfl
  | some l =>
    simp only [Option.map_some]
    rw [(C17_language_exact l).2 (h1 l rfl)]

theorem scripts_low {l : ScriptList} (h : ScriptsOk l) : ScriptList.ofLow l.toLow = .ok l := by
  simp only [ScriptList.ofLow, ScriptList.toLow]
  rw [mapL_unwrapRec l Script.toLow (fun x hx => script_low (h.2.2 x hx).2)]
  simp only [BMap.collect_of_sorted h.1]

theorem langSys_fits {l : LanguageSystem} (h : LanguageOk l) : LangSysFits l.toLow := by
  simpa [LangSysFits, LanguageSystem.toLow] using h.2.2

theorem scripts_fit {l : ScriptList} (h : ScriptsOk l) : ScriptListFits l.toLow := by
  refine ⟨by simpa [ScriptList.toLow] using h.2.1, ?_⟩
  intro x hx
  obtain ⟨y, hy, rfl⟩ := List.mem_map.mp hx
  obtain ⟨hv, h1, h2, h3, h4⟩ := h.2.2 y hy
  refine ⟨hv, ?_⟩
  intro s hs
  obtain rfl := Option.some.inj hs
  refine ⟨?_, by simpa [Script.toLow] using h3, ?_⟩
  · intro l hl
    simp only [Script.toLow, Option.map_eq_some_iff] at hl
    obtain ⟨a, ha, rfl⟩ := hl
    exact langSys_fits (h1 a ha)
  · intro z hz
    obtain ⟨w, hw, rfl⟩ := List.mem_map.mp hz
    refine ⟨(h4 w hw).1, ?_⟩
    intro l hl
    obtain rfl := Option.some.inj hl
    exact langSys_fits (h4 w hw).2

/-- Drop the parameters of each feature. -/
def withoutParams (l : FeatureList) : FeatureList := l.map (fun x => (x.1, x.2.1, none))

theorem features_low {l : FeatureList} (h : FeaturesOk l) : FeatureList.ofLow l.toLow = .ok (withoutParams l) := by
  have := mapL_unwrapRec (f := fun t : FeatureTable => .ok (t.lookups.map UInt16.toNat, (none : Option FeatureParams)))
    (withoutParams l) (fun x => ⟨0, x.1.map UInt16.ofNat⟩) (fun x hx => by
      obtain ⟨y, hy, rfl⟩ := List.mem_map.mp hx
      simp only [List.map_map]
      congr
      conv => rhs; rw [← List.map_id y.2.1]
      apply List.map_congr_left
      intro i hi
      have := (h.2 y hy).2.1 i hi
      simp only [Function.comp_apply, UInt16.toNat_ofNat', id]
      omega)
  rw [← this]
  simp only [FeatureList.ofLow, FeatureList.toLow, withoutParams, List.map_map, Function.comp_def]

theorem features_fit {l : FeatureList} (h : FeaturesOk l) : FeatureListFits l.toLow := by
  refine ⟨by simpa [FeatureList.toLow] using h.1, ?_⟩
  intro x hx
  obtain ⟨y, hy, rfl⟩ := List.mem_map.mp hx
  refine ⟨(h.2 y hy).1, ?_⟩
  intro t ht
  obtain rfl := Option.some.inj ht
  simpa using (h.2 y hy).2.2

/-- **C17.** A script list survives conversion, writing and reading, wherever its bytes are placed. -/
theorem C17_scripts (l : ScriptList) (h : ScriptsOk l) :
    ∃ t, scriptListTab l.toLow = .ok t ∧ ∀ bs, toBytes t = .ok bs → ∀ (before after : Bytes) (stk : List Nat),
      ∃ low r', readScriptList ⟨before ++ bs ++ after, before.length, stk⟩ = .ok (low, r') ∧ r'.stk = stk ∧
        ScriptList.ofLow low = .ok l := by
  obtain ⟨t, e, r⟩ := writes_scriptList l.toLow (scripts_fit h)
  refine ⟨t, e, fun bs hbs before after stk => ?_⟩
  obtain ⟨ptr, e⟩ := r.run hbs before after stk
  exact ⟨_, _, e, rfl, scripts_low h⟩

/-- **C17.** A feature list survives except for its parameters, which are always lost. -/
theorem C17_features (l : FeatureList) (h : FeaturesOk l) :
    ∃ t, featureListTab l.toLow = .ok t ∧ ∀ bs, toBytes t = .ok bs → ∀ (before after : Bytes) (stk : List Nat),
      ∃ low r', readFeatureList ⟨before ++ bs ++ after, before.length, stk⟩ = .ok (low, r') ∧ r'.stk = stk ∧
        FeatureList.ofLow low = .ok (withoutParams l) := by
  obtain ⟨t, e, r⟩ := writes_featureList l.toLow (features_fit h)
  refine ⟨t, e, fun bs hbs before after stk => ?_⟩
  obtain ⟨ptr, e⟩ := r.run hbs before after stk
  exact ⟨_, _, e, rfl, features_low h⟩

theorem mapL_null_panics {α β : Type} {f : α → Res β} (hf : ∀ a, f a ≠ .err) : ∀ (l : List (Tag × Option α)),
    (∃ x ∈ l, x.2 = none) → Res.mapL (unwrapRec f) l = .panic
  | [], h => by obtain ⟨_, h, _⟩ := h; cases h
  | x :: l, h => by
    simp only [Res.mapL]
    cases hx : unwrapRec f x with
    | panic => rfl
    | err =>
      exfalso
      simp only [unwrapRec] at hx
      cases h2 : x.2 with
      | none => rw [h2] at hx; cases hx
      | some a =>
        rw [h2] at hx
        simp only at hx
        have := hf a
        cases h3 : f a with
        | ok b => rw [h3] at hx; cases hx
        | err => exact this h3
        | panic => rw [h3] at hx; cases hx
    | ok b =>
      obtain ⟨y, hy, hn⟩ := h
      rcases List.mem_cons.mp hy with rfl | hy
      · simp only [unwrapRec, hn] at hx; cases hx
      · simp only [mapL_null_panics hf l ⟨y, hy, hn⟩]

theorem script_ofLow_ne_err (s : ScriptLow) : Script.ofLow s ≠ .err := by
  simp only [Script.ofLow]
  have : ∀ l : List (Tag × Option LangSys), Res.mapL (unwrapRec (fun l => .ok (LanguageSystem.ofLow l))) l ≠ .err := by
    intro l
    induction l with
    | nil => simp [Res.mapL]
    | cons x l ih =>
      simp only [Res.mapL, unwrapRec]
      cases x.2 with
      | none => simp
      | some a =>
        simp only
        revert ih
        generalize Res.mapL (unwrapRec (fun l => .ok (LanguageSystem.ofLow l))) l = z
        cases z <;> simp
  specialize this s.langs
  revert this
  generalize Res.mapL (unwrapRec (fun l => .ok (LanguageSystem.ofLow l))) s.langs = z
  cases z <;> simp

/-- **C17.** A record whose offset is null makes the reader panic (a malformed but parseable font): for scripts,
languages and features. -/
theorem C17_null_record_panics :
    (∀ l : ScriptListLow, (∃ x ∈ l, x.2 = none) → ScriptList.ofLow l = .panic) ∧
    (∀ s : ScriptLow, (∃ x ∈ s.langs, x.2 = none) → Script.ofLow s = .panic) ∧
    (∀ l : FeatureListLow, (∃ x ∈ l, x.2 = none) → FeatureList.ofLow l = .panic) := by
  refine ⟨fun l h => ?_, fun s h => ?_, fun l h => ?_⟩
  · simp only [ScriptList.ofLow, mapL_null_panics script_ofLow_ne_err l h]
  · simp only [Script.ofLow]
    rw [mapL_null_panics (fun a => by simp) s.langs h]
  · exact mapL_null_panics (fun a => by simp) l h

/-- DFLT and latn scripts, one language, a required feature. -/
example : ScriptsOk [(⟨0x44, 0x46, 0x4C, 0x54⟩, ⟨some ⟨none, [0, 1]⟩, []⟩),
    (⟨0x6C, 0x61, 0x74, 0x6E⟩, ⟨none, [(⟨0x54, 0x52, 0x4B, 0x20⟩, ⟨some 2, [0]⟩)]⟩)] := by
  refine ⟨?_, by decide, ?_⟩
  · simp [BMap.Sorted, Key.lt, Tag.num]
  · intro x hx
    simp only [List.mem_cons, List.not_mem_nil, or_false] at hx
    rcases hx with rfl | rfl
    · refine ⟨by decide, ?_, by simp [BMap.Sorted], by decide, by simp⟩
      intro l hl
      obtain rfl := Option.some.inj hl
      exact ⟨by simp, by decide, by decide⟩
    · refine ⟨by decide, by simp, by simp [BMap.Sorted], by decide, ?_⟩
      intro y hy
      simp only [List.mem_cons, List.not_mem_nil, or_false] at hy
      subst hy
      exact ⟨by decide, by simp, by decide, by decide⟩

/-- The parameters of a stylistic set are lost. -/
example : FeaturesOk [(⟨0x73, 0x73, 0x30, 0x31⟩, [3, 4], some (.stylisticSet 0 256))] ∧
    withoutParams [(⟨0x73, 0x73, 0x30, 0x31⟩, [3, 4], some (.stylisticSet 0 256))] ≠
      [(⟨0x73, 0x73, 0x30, 0x31⟩, [3, 4], some (.stylisticSet 0 256))] := by
  refine ⟨⟨by decide, ?_⟩, by decide⟩
  intro x hx
  simp only [List.mem_cons, List.not_mem_nil, or_false] at hx
  subst hx
  exact ⟨by decide, by decide, by decide⟩

end FT.Props
