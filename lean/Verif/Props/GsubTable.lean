import Verif.Model.GsubTable
import Verif.Props.LayoutTables
import Verif.Props.GsubLigature
import Verif.Props.GsubContext

/-!
C56: whole GSUB tables. C57: extension lookups.
-/

namespace FT.Props
open FT FT.Gsub FT.Lay FT.Off Reader

/-! ### Subtables -/

theorem writes_plain {s : Sub} {ty : Nat} (h : SubOk s) (hty : s.type = ty) :
    Writes SubX.tab (SubX.read ty) (.plain s) := by
  obtain ⟨t, h1, h2⟩ := writes_sub s h
  refine ⟨t, h1, ?_⟩
  intro B base ext stk hb hh
  obtain ⟨ptr, e⟩ := h2 B base ext stk hb hh
  refine ⟨ptr, ?_⟩
  rw [← hty]
  have h7 : s.type ≠ 7 := by cases s <;> simp [Sub.type]
  unfold SubX.read
  rw [if_neg h7, Reader.bind_run, e]
  rfl

theorem writes_ext {s : Sub} {fmt ty : UInt16} (h : SubOk s) (hty : s.type = ty.toNat) (h6 : ty.toNat ≤ 6) :
    Writes SubX.tab (SubX.read 7) (.ext fmt ty s) := by
  obtain ⟨c, h1, h2⟩ := writes_sub s h
  refine ⟨_, by simp only [SubX.tab, h1]; rfl, ?_⟩
  unfold SubX.read
  rw [if_pos rfl]
  refine ReadsTab.inTable (ReadsTab.bind (readsTab_u16 _) (ReadsTab.bind (readsTab_u16 _) ?_))
  rw [if_neg (by omega)]
  intro B base pos ext stk hh
  obtain ⟨off, e1, e2, g1, g2, g3, g4, g5, _, _⟩ := hh
  have g2' : off ≤ 4294967295 := g2
  have hto : (UInt32.ofNat off).toNat = off := ofNat32_toNat (by omega)
  have g3' : encU32 (UInt32.ofNat off) <+: B.drop pos := g3
  have e := reads_of_prefix' (reads_u32 (UInt32.ofNat off)) g3' (base :: stk) (by simp)
  obtain ⟨ptr, hptr⟩ := h2 B (base + off) e1 (base :: stk) g4 g5
  rw [hty] at hptr
  rw [Reader.bind_run, e]
  simp only [hto]
  rw [Reader.bind_run]
  simp only [getPtr]
  rw [Reader.bind_run]
  simp only [topOfTable]
  rw [Reader.bind_run]
  simp only [setPtr]
  rw [Reader.bind_run, hptr]
  rfl

/-! ### C56 -/

/-- Rules that fit the binary format (C11–C14): maps in key order, coverable glyph sets, counts below 2^16. -/
def SubstOk : Subst → Prop
  | .single l => l.length ≤ 65535 ∧ ∀ m ∈ l, BMap.Sorted m ∧ Coverable (m.map Prod.fst) ∧
      ¬ (ConstantShift m ∧ ∃ x ∈ m, Far x)
  | .multiple l => l.length ≤ 65535 ∧ ∀ m ∈ l, BMap.Sorted m ∧ Coverable (m.map Prod.fst) ∧ ∀ x ∈ m, x.2.length ≤ 65535
  | .alternate l => l.length ≤ 65535 ∧ ∀ m ∈ l, BMap.Sorted m ∧ Coverable (m.map Prod.fst) ∧ ∀ x ∈ m, x.2.length ≤ 65535
  | .ligature l => l.length ≤ 65535 ∧ ∀ m ∈ l, BMap.Sorted m ∧ m.length ≤ 65535 ∧
      ∀ x ∈ m, x.1 ≠ [] ∧ x.1.length ≤ 65535 ∧ ∀ g, x.1.head? = some g → g.toNat ≠ 65535
  | .contextual l => l.flatten.length ≤ 65535 ∧ ∀ rules ∈ l, ∀ r ∈ rules, r = []
  | .chained l => l.flatten.length ≤ 65535 ∧ ∀ rules ∈ l, ∀ r ∈ rules, ChainedOk r
  | .reverse l => l.length ≤ 65535 ∧ ∀ m ∈ l, BMap.Sorted m.mapping ∧ Coverable (m.mapping.map Prod.fst) ∧
      m.backtrack.length ≤ 65535 ∧ (∀ s ∈ m.backtrack, SlotOk s) ∧
      m.lookahead.length ≤ 65535 ∧ (∀ s ∈ m.lookahead, SlotOk s)

/-- What a rule reads back as: contextual subtables come back with one rule each. -/
def afterReading : Subst → Subst
  | .contextual l => .contextual (l.flatten.map (fun r => [r]))
  | .chained l => .chained (l.flatten.map (fun r => [r]))
  | s => s

/-- A GSUB table that can be written: fitting rules, a mark filtering set exactly where the lookup flag announces
one, fitting script and feature lists. -/
def GsubOk (g : GSUB) : Prop := g.lookups.length ≤ 65535 ∧
  (∀ l ∈ g.lookups, SubstOk l.rule ∧ l.mfs.isSome = usesMfs l.flags) ∧ ScriptsOk g.scripts ∧ FeaturesOk g.features

/-- The table after a save/load cycle. -/
def savedForm (g : GSUB) : GSUB :=
  ⟨g.lookups.map (fun l => { l with rule := afterReading l.rule }), g.scripts, withoutParams g.features⟩

theorem mapL_map_ok {α β γ : Type} {f : β → Res γ} {g : α → β} {k : α → γ} : ∀ (l : List α),
    (∀ a ∈ l, f (g a) = .ok (k a)) → Res.mapL f (l.map g) = .ok (l.map k)
  | [], _ => rfl
  | a :: l, h => by
    simp only [List.map_cons, Res.mapL, h a (by simp), mapL_map_ok l (fun x hx => h x (by simp [hx]))]

theorem convert_ok {α β : Type} {f : Sub → Res α} {w : List α → Subst} {g : β → Sub} {k : β → α} (l : List β)
    (h : ∀ a ∈ l, f (g a) = .ok (k a)) : convert f w (l.map g) = .ok (w (l.map k)) := by
  simp only [convert, mapL_map_ok l h]

/-- The subtables of a fitting rule: plain, readable under the lookup type, and converted back to the rule. -/
theorem subs_ok (s : Subst) (h : SubstOk s) (max : UInt16) :
    ∃ ss : List Sub, s.subs = .ok (ss.map .plain) ∧ ss.length ≤ 65535 ∧
      (∀ x ∈ ss, SubOk x ∧ x.type = s.type.toNat) ∧
      rulePlain max s.type.toNat ss = .ok (afterReading s) := by
  cases s with
  | single l =>
    refine ⟨l.map SingleSubst.toLow, by simp [Subst.subs], by simpa using h.1, ?_, ?_⟩
    · intro x hx
      obtain ⟨m, hm, rfl⟩ := List.mem_map.mp hx
      obtain ⟨hs, hc, _⟩ := h.2 m hm
      rcases toLow_cases m with ⟨d, _, _, _, e⟩ | ⟨_, e⟩
      · rw [e]; exact ⟨covLinkOk_keys hs hc, rfl⟩
      · rw [e]; exact ⟨⟨covLinkOk_keys hs hc, by simpa using keys_length hs hc⟩, rfl⟩
    · have := convert_ok (f := SingleSubst.fromLow) (w := .single) (g := SingleSubst.toLow) (k := id) l
        (fun m hm => (C11_roundtrip m (h.2 m hm).1).1 (h.2 m hm).2.2)
      simpa [rulePlain, Subst.type, afterReading] using this
  | multiple l =>
    refine ⟨l.map MultiSubst.toLow2, by simp [Subst.subs], by simpa using h.1, ?_, ?_⟩
    · intro x hx
      obtain ⟨m, hm, rfl⟩ := List.mem_map.mp hx
      obtain ⟨hs, hc, hl⟩ := h.2 m hm
      refine ⟨⟨covLinkOk_keys hs hc, by simpa using keys_length hs hc, ?_⟩, rfl⟩
      intro y hy
      obtain ⟨z, hz, e⟩ := List.mem_map.mp hy
      obtain rfl := Option.some.inj e
      exact hl z hz
    · have := convert_ok (f := MultiSubst.fromLow2) (w := .multiple) (g := MultiSubst.toLow2) (k := id) l
        (fun m hm => C12_multiple m (h.2 m hm).1)
      simpa [rulePlain, Subst.type, afterReading] using this
  | alternate l =>
    refine ⟨l.map MultiSubst.toLow3, by simp [Subst.subs], by simpa using h.1, ?_, ?_⟩
    · intro x hx
      obtain ⟨m, hm, rfl⟩ := List.mem_map.mp hx
      obtain ⟨hs, hc, hl⟩ := h.2 m hm
      refine ⟨⟨covLinkOk_keys hs hc, by simpa using keys_length hs hc, ?_⟩, rfl⟩
      intro y hy
      obtain ⟨z, hz, e⟩ := List.mem_map.mp hy
      obtain rfl := Option.some.inj e
      exact hl z hz
    · have := convert_ok (f := MultiSubst.fromLow3) (w := .alternate) (g := MultiSubst.toLow3) (k := id) l
        (fun m hm => C12_alternate m (h.2 m hm).1)
      simpa [rulePlain, Subst.type, afterReading] using this
  | ligature l =>
    obtain ⟨lows, h1, h2⟩ := mapL_ok (f := LigSubst.toLow) l
      (fun m low => LigSubst.fromLow low = .ok m ∧ SubOk low ∧ low.type = 4)
      (fun m hm => by
        obtain ⟨hs, hl, hx⟩ := h.2 m hm
        obtain ⟨low, a, b⟩ := subOk_lig m hs (fun x hx' => (hx x hx').1) (fun x hx' => (hx x hx').2.2) hl
          (fun x hx' => (hx x hx').2.1)
        exact ⟨low, a, b⟩)
    refine ⟨lows, by simp only [Subst.subs, h1], by rw [← h2.length_eq]; exact h.1, ?_, ?_⟩
    · clear h1 h
      induction h2 with
      | nil => simp
      | cons hab _ ih =>
        intro x hx
        rcases List.mem_cons.mp hx with rfl | hx
        · exact hab.2
        · exact ih x hx
    · have : Res.mapL LigSubst.fromLow lows = .ok l := by
        clear h1 h
        induction h2 with
        | nil => rfl
        | cons hab _ ih => simp only [Res.mapL, hab.1, ih]
      simp [rulePlain, Subst.type, afterReading, convert, this]
  | contextual l =>
    have hr : ∀ r ∈ l.flatten, r = [] := by
      intro r hr
      obtain ⟨rules, h1, h2⟩ := List.mem_flatten.mp hr
      exact h.2 rules h1 r h2
    refine ⟨l.flatten.map ctxTo3, by simp only [Subst.subs, List.map_map]; rfl, by rw [List.length_map]; exact h.1, ?_, ?_⟩
    · intro x hx
      obtain ⟨r, hm, rfl⟩ := List.mem_map.mp hx
      rw [hr r hm]
      exact ⟨⟨rfl, rfl, by simp⟩, rfl⟩
    · have := convert_ok (f := ctxFromLow max) (w := .contextual) (g := ctxTo3) (k := fun r => [r]) l.flatten
        (fun r hm => by rw [hr r hm]; rfl)
      simpa [rulePlain, Subst.type, afterReading] using this
  | chained l =>
    have hr : ∀ r ∈ l.flatten, ChainedOk r := by
      intro r hr
      obtain ⟨rules, h1, h2⟩ := List.mem_flatten.mp hr
      exact h.2 rules h1 r h2
    refine ⟨l.flatten.map chainTo3, by simp only [Subst.subs, List.map_map]; rfl, by rw [List.length_map]; exact h.1, ?_, ?_⟩
    · intro x hx
      obtain ⟨r, hm, rfl⟩ := List.mem_map.mp hx
      exact ⟨subOk_chain (hr r hm), rfl⟩
    · have := convert_ok (f := chainFromLow max) (w := .chained) (g := chainTo3) (k := fun r => [r]) l.flatten
        (fun r hm => by
          have h := hr r hm
          exact C14_chained_roundtrip max r (fun s hs => (h.2.1 s hs).1)
            (fun s hs => (h.2.2.2.1 s hs).1) (fun x hx => (h.2.2.2.2.2.1 x hx).1) (by have := h.2.2.2.2.1; omega))
      simpa [rulePlain, Subst.type, afterReading] using this
  | reverse l =>
    refine ⟨l.map RevSubst.toLow, by simp [Subst.subs], by simpa using h.1, ?_, ?_⟩
    · intro x hx
      obtain ⟨m, hm, rfl⟩ := List.mem_map.mp hx
      obtain ⟨hs, hc, hb1, hb, ha1, ha⟩ := h.2 m hm
      exact ⟨⟨covLinkOk_keys hs hc, covsOk_slots hb1 hb, covsOk_slots ha1 ha, by simpa using keys_length hs hc⟩, rfl⟩
    · have := convert_ok (f := RevSubst.fromLow) (w := .reverse) (g := RevSubst.toLow) (k := id) l
        (fun m hm => by
          obtain ⟨hs, hc, hb1, hb, ha1, ha⟩ := h.2 m hm
          exact (C14_reverse m hs hb ha).1)
      simpa [rulePlain, Subst.type, afterReading] using this

theorem mapL_asPlain (l : List Sub) : Res.mapL asPlain (l.map .plain) = .ok l := by
  have := mapL_map_ok (f := asPlain) (g := SubX.plain) (k := id) l (fun _ _ => rfl)
  simpa using this

/-- A low-level lookup made from a fitting lookup. -/
theorem lookup_ok (l : Lookup Subst) (h : SubstOk l.rule) (hm : l.mfs.isSome = usesMfs l.flags) (max : UInt16) :
    ∃ ss : List Sub, Lookup.toLow Subst.type Subst.subs l = .ok ⟨l.rule.type, l.flags, ss.map .plain, l.mfs⟩ ∧
      LookupFits (⟨l.rule.type, l.flags, ss.map .plain, l.mfs⟩ : LookupLow SubX) ∧
      (∀ x ∈ ss, SubOk x ∧ x.type = l.rule.type.toNat) ∧
      Lookup.ofLow (ruleOf max) ⟨l.rule.type, l.flags, ss.map .plain, l.mfs⟩ =
        .ok { l with rule := afterReading l.rule } := by
  obtain ⟨ss, h1, h2, h3, h4⟩ := subs_ok l.rule h max
  refine ⟨ss, by simp only [Lookup.toLow, h1], ⟨by simpa using h2, hm⟩, h3, ?_⟩
  have h7 : l.rule.type.toNat ≠ 7 := by cases l.rule <;> simp [Subst.type]
  simp only [Lookup.ofLow, ruleOf, if_neg h7, mapL_asPlain, h4]

/-- The low-level form of a fitting table. -/
theorem table_ok (g : GSUB) (h : GsubOk g) (max : UInt16) :
    ∃ low : TableLow SubX, g.toLow Subst.type Subst.subs = .ok low ∧ TableFits SubX.tab SubX.read low ∧
      low.major = 1 ∧ low.minor = 0 ∧ GposGsub.ofLow (ruleOf max) low = .ok (savedForm g) := by
  obtain ⟨h1, h2, h3, h4⟩ := h
  obtain ⟨lows, e, hall⟩ := mapL_ok (f := Lookup.toLow Subst.type Subst.subs) g.lookups
    (fun l low => LookupFits low ∧ (∀ s ∈ low.subs, Writes SubX.tab (SubX.read low.type.toNat) s) ∧
      Lookup.ofLow (ruleOf max) low = .ok { l with rule := afterReading l.rule })
    (fun l hl => by
      obtain ⟨ss, a, b, c, d⟩ := lookup_ok l (h2 l hl).1 (h2 l hl).2 max
      refine ⟨_, a, b, ?_, d⟩
      intro s hs
      obtain ⟨x, hx, rfl⟩ := List.mem_map.mp hs
      exact writes_plain (c x hx).1 (c x hx).2)
  refine ⟨_, by simp only [GposGsub.toLow, e]; rfl, ⟨?_, ?_, ?_⟩, rfl, rfl, ?_⟩
  · intro s hs
    obtain rfl := Option.some.inj hs
    exact scripts_fit h3
  · intro s hs
    obtain rfl := Option.some.inj hs
    exact features_fit h4
  · intro l hl
    obtain rfl := Option.some.inj hl
    refine ⟨by rw [List.length_map, ← hall.length_eq]; exact h1, ?_⟩
    intro x hx
    obtain ⟨y, hy, ey⟩ := List.mem_map.mp hx
    obtain rfl := Option.some.inj ey
    have key : ∀ (ls : List (Lookup Subst)) (lows : List (LookupLow SubX)),
        List.Forall₂ (fun l low => LookupFits low ∧ (∀ s ∈ low.subs, Writes SubX.tab (SubX.read low.type.toNat) s) ∧
          Lookup.ofLow (ruleOf max) low = .ok { l with rule := afterReading l.rule }) ls lows →
        ∀ y ∈ lows, LookupFits y ∧ ∀ s ∈ y.subs, Writes SubX.tab (SubX.read y.type.toNat) s := by
      intro ls lows hall
      induction hall with
      | nil => simp
      | cons hab _ ih =>
        intro y hy
        rcases List.mem_cons.mp hy with rfl | hy
        · exact ⟨hab.1, hab.2.1⟩
        · exact ih y hy
    exact key _ _ hall y hy
  · have hl : Res.mapL (Lookup.ofLow (ruleOf max)) lows =
        .ok (g.lookups.map (fun l => { l with rule := afterReading l.rule })) := by
      clear e h1 h2
      generalize g.lookups = ls at hall
      induction hall with
      | nil => rfl
      | cons hab _ ih => simp only [Res.mapL, hab.2.2, ih, List.map_cons]
    simp only [GposGsub.ofLow, Option.getD_some, List.filterMap_map, Function.comp_def, id]
    have e2 : List.filterMap (fun x => some x) lows = lows := List.filterMap_some
    rw [e2, hl, scripts_low h3, features_low h4]
    rfl

/-- **C56.** Whenever a GSUB table whose contents fit the format is written, reading the bytes gives the same
lookups with the same flags and mark filtering sets in the same order, the same scripts and the same features;
contextual subtables come back split into one subtable per rule, and feature parameters are lost. -/
theorem C56_roundtrip (g : GSUB) (h : GsubOk g) (max : UInt16) (bs : Bytes) (hbs : GSUB.toBytes g = .ok bs) :
    ∃ r', GSUB.read max (Rd.new bs) = .ok (savedForm g, r') := by
  obtain ⟨low, e, hf, hmaj, hmin, hof⟩ := table_ok g h max
  obtain ⟨tab, e2, hr⟩ := read_table (ruleOf max) low hf hmaj hmin
  have : Off.toBytes tab = .ok bs := by
    unfold GSUB.toBytes GposGsub.toBytes at hbs
    rw [e] at hbs
    simp only [Res.ok_bind] at hbs
    rw [e2] at hbs
    exact hbs
  exact hr bs this _ hof

theorem withoutParams_idem (l : FeatureList) : withoutParams (withoutParams l) = withoutParams l := by
  simp [withoutParams]

theorem flatten_singletons {α : Type} (l : List α) : (l.map (fun r => [r])).flatten = l := by
  induction l with
  | nil => rfl
  | cons a l ih => simp [ih]

theorem afterReading_idem (s : Subst) : afterReading (afterReading s) = afterReading s := by
  cases s <;> simp only [afterReading]
  · rw [flatten_singletons]
  · rw [flatten_singletons]

/-- **C56.** Saving and loading a second time changes nothing: the result of one cycle can be written again and is
its own saved form. -/
theorem C56_second_cycle (g : GSUB) (h : GsubOk g) : GsubOk (savedForm g) ∧ savedForm (savedForm g) = savedForm g := by
  constructor
  · refine ⟨by simpa [savedForm] using h.1, ?_, h.2.2.1, ?_⟩
    · intro l hl
      obtain ⟨l0, hl0, rfl⟩ := List.mem_map.mp hl
      obtain ⟨h1, h2⟩ := h.2.1 l0 hl0
      refine ⟨?_, h2⟩
      generalize l0.rule = s at h1
      cases s with
      | contextual l =>
        simp only [afterReading, SubstOk, flatten_singletons] at h1 ⊢
        refine ⟨h1.1, ?_⟩
        intro rules hr r hr'
        obtain ⟨r0, hr0, rfl⟩ := List.mem_map.mp hr
        obtain rfl := List.mem_singleton.mp hr'
        obtain ⟨rs, a, b⟩ := List.mem_flatten.mp hr0
        exact h1.2 rs a _ b
      | chained l =>
        simp only [afterReading, SubstOk, flatten_singletons] at h1 ⊢
        refine ⟨h1.1, ?_⟩
        intro rules hr r hr'
        obtain ⟨r0, hr0, rfl⟩ := List.mem_map.mp hr
        obtain rfl := List.mem_singleton.mp hr'
        obtain ⟨rs, a, b⟩ := List.mem_flatten.mp hr0
        exact h1.2 rs a _ b
      | _ => exact h1
    · refine ⟨by simpa [savedForm, withoutParams] using h.2.2.2.1, ?_⟩
      intro x hx
      obtain ⟨y, hy, rfl⟩ := List.mem_map.mp hx
      exact h.2.2.2.2 y hy
  · simp only [savedForm, withoutParams_idem, List.map_map]
    congr 1
    apply List.map_congr_left
    intro l _
    simp only [Function.comp_apply, afterReading_idem]

theorem mapL_not_ok {α β : Type} {f : α → Res β} : ∀ (l : List α), (∃ a ∈ l, ∀ b, f a ≠ .ok b) →
    ∀ bs, Res.mapL f l ≠ .ok bs
  | [], h => by obtain ⟨_, h, _⟩ := h; cases h
  | a :: l, h => by
    intro bs hb
    simp only [Res.mapL] at hb
    cases ha : f a with
    | err => rw [ha] at hb; cases hb
    | panic => rw [ha] at hb; cases hb
    | ok b =>
      rw [ha] at hb
      simp only at hb
      obtain ⟨x, hx, hn⟩ := h
      rcases List.mem_cons.mp hx with rfl | hx
      · exact hn b ha
      · cases hl : Res.mapL f l with
        | ok bs' => exact mapL_not_ok l ⟨x, hx, hn⟩ bs' hl
        | err => rw [hl] at hb; cases hb
        | panic => rw [hl] at hb; cases hb

/-- **C56.** A table with a plain contextual rule that has at least one input position can never be written. -/
theorem C56_plain_context_never_written (g : GSUB)
    (h : ∃ l ∈ g.lookups, ∃ c, l.rule = .contextual c ∧ ∃ rules ∈ c, ∃ r ∈ rules, r ≠ []) (bs : Bytes) :
    GSUB.toBytes g ≠ .ok bs := by
  intro hbs
  obtain ⟨l, hl, c, hc, rules, hr, r, hr', hne⟩ := h
  unfold GSUB.toBytes GposGsub.toBytes at hbs
  cases hlow : g.toLow Subst.type Subst.subs with
  | err => rw [hlow] at hbs; cases hbs
  | panic => rw [hlow] at hbs; cases hbs
  | ok low =>
    rw [hlow] at hbs
    simp only [Res.ok_bind] at hbs
    simp only [GposGsub.toLow] at hlow
    cases hm : Res.mapL (Lookup.toLow Subst.type Subst.subs) g.lookups with
    | err => rw [hm] at hlow; cases hlow
    | panic => rw [hm] at hlow; cases hlow
    | ok lows =>
      rw [hm] at hlow
      simp only [Res.ok.injEq] at hlow
      subst hlow
      have hmem : ∀ (ls : List (Lookup Subst)) (lows : List (LookupLow SubX)),
          Res.mapL (Lookup.toLow Subst.type Subst.subs) ls = .ok lows → l ∈ ls →
          ∃ low ∈ lows, Lookup.toLow Subst.type Subst.subs l = .ok low := by
        intro ls
        induction ls with
        | nil => intro _ _ h; cases h
        | cons a ls ih =>
          intro lows hm hl
          simp only [Res.mapL] at hm
          cases ha : Lookup.toLow Subst.type Subst.subs a with
          | err => rw [ha] at hm; cases hm
          | panic => rw [ha] at hm; cases hm
          | ok b =>
            rw [ha] at hm
            simp only at hm
            cases hb : Res.mapL (Lookup.toLow Subst.type Subst.subs) ls with
            | err => rw [hb] at hm; cases hm
            | panic => rw [hb] at hm; cases hm
            | ok bs' =>
              rw [hb] at hm
              simp only [Res.ok.injEq] at hm
              subst hm
              rcases List.mem_cons.mp hl with rfl | hl
              · exact ⟨b, by simp, ha⟩
              · obtain ⟨low, h1, h2⟩ := ih bs' hb hl
                exact ⟨low, by simp [h1], h2⟩
      obtain ⟨low, hlowm, hlow⟩ := hmem _ _ hm hl
      have hsub : SubX.plain (ctxTo3 r) ∈ low.subs := by
        simp only [Lookup.toLow, hc, Subst.subs, Res.ok.injEq] at hlow
        subst hlow
        simp only [List.mem_map, List.mem_flatten]
        exact ⟨r, ⟨rules, hr, hr'⟩, rfl⟩
      have h1 : ∀ t, lookupTab SubX.tab low ≠ .ok t := by
        intro t ht
        simp only [lookupTab] at ht
        cases hx : Res.mapL (fun s => optOff true SubX.tab (some s)) low.subs with
        | err => rw [hx] at ht; cases ht
        | panic => rw [hx] at ht; cases ht
        | ok ts =>
          refine mapL_not_ok _ ⟨_, hsub, ?_⟩ ts hx
          intro b hb
          simp only [optOff, SubX.tab, C14_plain_never_written r hne] at hb
          cases hb
      have h2 : ∀ t, optOff false (lookupListTab SubX.tab) (some (lows.map some)) ≠ .ok t := by
        intro t ht
        simp only [optOff, lookupListTab, offVec] at ht
        cases hx : Res.mapL (optOff true (lookupTab SubX.tab)) (lows.map some) with
        | err => rw [hx] at ht; cases ht
        | panic => rw [hx] at ht; cases ht
        | ok ts =>
          refine mapL_not_ok _ ⟨some low, List.mem_map.mpr ⟨low, hlowm, rfl⟩, ?_⟩ ts hx
          intro b hb
          simp only [optOff] at hb
          cases hy : lookupTab SubX.tab low with
          | ok t => exact h1 t hy
          | err => rw [hy] at hb; cases hb
          | panic => rw [hy] at hb; cases hb
      simp only [TableLow.tab] at hbs
      cases ha : optOff false scriptListTab (some g.scripts.toLow) with
      | err => rw [ha] at hbs; cases hbs
      | panic => rw [ha] at hbs; cases hbs
      | ok a =>
        rw [ha] at hbs
        cases hb : optOff false featureListTab (some g.features.toLow) with
        | err => rw [hb] at hbs; cases hbs
        | panic => rw [hb] at hbs; cases hbs
        | ok b =>
          rw [hb] at hbs
          cases hd : optOff false (lookupListTab SubX.tab) (some (lows.map some)) with
          | ok d => exact h2 d hd
          | err => rw [hd] at hbs; cases hbs
          | panic => rw [hd] at hbs; cases hbs

/-- A table with lookups of several kinds, a script and a feature. -/
def sampleGsub : GSUB :=
  ⟨[⟨0, none, .single [[(10, 20), (11, 30)], [(5, 6)]]⟩,
    ⟨0x10, some 3, .multiple [[(7, [1, 2, 3]), (9, [])]]⟩,
    ⟨1, none, .alternate [[(40, [41, 42])], [(50, [51])]]⟩,
    ⟨0, none, .chained [[⟨[[1]], [[4]], [([2, 3], [0])]⟩, ⟨[], [], [([8], [])]⟩]]⟩],
   [(⟨0x6C, 0x61, 0x74, 0x6E⟩, ⟨some ⟨none, [0]⟩, [(⟨0x54, 0x52, 0x4B, 0x20⟩, ⟨some 0, []⟩)]⟩)],
   [(⟨0x6C, 0x69, 0x67, 0x61⟩, [2, 3], none)]⟩

set_option maxRecDepth 100000 in
example : (match GSUB.toBytes sampleGsub with | .ok bs => decide (100 < bs.length) | _ => false) = true ∧
    savedForm sampleGsub ≠ sampleGsub := by decide +kernel

theorem sampleGsub_ok : GsubOk sampleGsub := by
  refine ⟨by decide, ?_, ?_, ?_⟩
  · intro l hl
    simp only [sampleGsub, List.mem_cons, List.not_mem_nil, or_false] at hl
    rcases hl with rfl | rfl | rfl | rfl
    · refine ⟨⟨by decide, ?_⟩, rfl⟩
      intro m hm
      simp only [List.mem_cons, List.not_mem_nil, or_false] at hm
      rcases hm with rfl | rfl
      · refine ⟨by simp [BMap.Sorted, Key.lt], .inl (by decide), ?_⟩
        rintro ⟨-, x, hx, hf⟩
        simp only [List.mem_cons, List.not_mem_nil, or_false] at hx
        rcases hx with rfl | rfl <;> exact absurd hf (by simp [Far, signed])
      · refine ⟨by simp [BMap.Sorted, Key.lt], .inl (by decide), ?_⟩
        rintro ⟨-, x, hx, hf⟩
        simp only [List.mem_cons, List.not_mem_nil, or_false] at hx
        subst hx
        exact absurd hf (by simp [Far, signed])
    · refine ⟨⟨by decide, ?_⟩, rfl⟩
      intro m hm
      simp only [List.mem_cons, List.not_mem_nil, or_false] at hm
      subst hm
      exact ⟨by simp [BMap.Sorted, Key.lt], .inl (by decide), by simp⟩
    · refine ⟨⟨by decide, ?_⟩, rfl⟩
      intro m hm
      simp only [List.mem_cons, List.not_mem_nil, or_false] at hm
      rcases hm with rfl | rfl <;> exact ⟨by simp [BMap.Sorted, Key.lt], .inl (by decide), by simp⟩
    · refine ⟨⟨by decide, ?_⟩, rfl⟩
      intro rules hr r hr'
      simp only [List.mem_cons, List.not_mem_nil, or_false] at hr
      subst hr
      simp only [List.mem_cons, List.not_mem_nil, or_false] at hr'
      rcases hr' with rfl | rfl
      · refine ⟨by decide, ?_, by decide, ?_, by decide, ?_, by decide⟩ <;>
          (intro s hs; simp only [List.mem_cons, List.not_mem_nil, or_false] at hs; subst hs;
            exact ⟨by simp [Ascending], .inl (by decide)⟩)
      · refine ⟨by decide, ?_, by decide, ?_, by decide, ?_, by decide⟩
        · intro s hs; cases hs
        · intro s hs; cases hs
        · intro s hs
          simp only [List.mem_cons, List.not_mem_nil, or_false] at hs; subst hs;
            exact ⟨by simp [Ascending], .inl (by decide)⟩
  · refine ⟨by simp [sampleGsub, BMap.Sorted], by decide, ?_⟩
    intro x hx
    simp only [sampleGsub, List.mem_cons, List.not_mem_nil, or_false] at hx
    subst hx
    refine ⟨by decide, ?_, by simp [BMap.Sorted], by decide, ?_⟩
    · intro l hl
      obtain rfl := Option.some.inj hl
      exact ⟨by simp, by decide, by decide⟩
    · intro y hy
      simp only [List.mem_cons, List.not_mem_nil, or_false] at hy
      subst hy
      exact ⟨by decide, by simp, by simp, by decide⟩
  · refine ⟨by decide, ?_⟩
    intro x hx
    simp only [sampleGsub, List.mem_cons, List.not_mem_nil, or_false] at hx
    subst hx
    exact ⟨by decide, by decide, by decide⟩

/-! ### C57 -/

def wrapSub (ty : UInt16) : SubX → SubX
  | .plain s => .ext 1 ty s
  | e => e

/-- The lookup with its subtables moved into extension subtables. -/
def wrapExt (l : LookupLow SubX) : LookupLow SubX := ⟨7, l.flag, l.subs.map (wrapSub l.type), l.mfs⟩

/-- All subtables of the lookup are ordinary ones. -/
def AllPlain (l : LookupLow SubX) : Prop := ∀ s ∈ l.subs, ∃ p, s = .plain p

theorem allPlain_eq (l : List SubX) (h : ∀ s ∈ l, ∃ p, s = .plain p) : ∃ ss : List Sub, l = ss.map .plain := by
  induction l with
  | nil => exact ⟨[], rfl⟩
  | cons a l ih =>
    obtain ⟨p, rfl⟩ := h a (by simp)
    obtain ⟨ss, rfl⟩ := ih (fun s hs => h s (by simp [hs]))
    exact ⟨p :: ss, rfl⟩

/-- **C57.** Wrapping the subtables of a (non-empty) lookup in extension subtables does not change the rule that is
read from it. -/
theorem C57_same_rule (max : UInt16) (l : LookupLow SubX) (hp : AllPlain l) (hne : l.subs ≠ [])
    (h7 : l.type.toNat ≠ 7) :
    Lookup.ofLow (ruleOf max) (wrapExt l) = Lookup.ofLow (ruleOf max) l := by
  obtain ⟨ss, hss⟩ := allPlain_eq l.subs hp
  have e1 : Res.mapL asExt ((ss.map SubX.plain).map (wrapSub l.type)) = .ok (ss.map (fun s => (l.type, s))) := by
    rw [List.map_map]
    exact mapL_map_ok ss (fun _ _ => rfl)
  have : ruleOf max 7 ((ss.map SubX.plain).map (wrapSub l.type)) = ruleOf max l.type.toNat (ss.map .plain) := by
    unfold ruleOf
    rw [if_pos rfl, if_neg h7, e1, mapL_asPlain]
    cases ss with
    | nil => exact absurd hss hne
    | cons a ss =>
      simp only [List.map_cons]
      rw [if_pos (by simp)]
      simp [Function.comp_def]
  simp only [Lookup.ofLow, wrapExt, hss]
  rw [show ((7 : UInt16).toNat) = 7 from rfl, this]

/-- A lookup of a file and the lookup another writer might have put there instead. -/
def MaybeWrapped (l l' : LookupLow SubX) : Prop :=
  l' = l ∨ (l.type.toNat ≤ 6 ∧ l.subs ≠ [] ∧ l' = wrapExt l)

/-- **C57.** If the low-level form of a fitting table is changed by wrapping the subtables of any selection of its
lookups (types 1 to 6, not empty), then reading the resulting bytes gives exactly what reading the unwrapped table
gives. -/
theorem C57_table (g : GSUB) (h : GsubOk g) (max : UInt16) (low : TableLow SubX)
    (hlow : g.toLow Subst.type Subst.subs = .ok low) (lows lows' : List (LookupLow SubX))
    (hl : low.lookups = some (lows.map some)) (hw : List.Forall₂ MaybeWrapped lows lows')
    (tab : Tab) (bs : Bytes) (htab : TableLow.tab SubX.tab { low with lookups := some (lows'.map some) } = .ok tab)
    (hbs : Off.toBytes tab = .ok bs) :
    ∃ r', GSUB.read max (Rd.new bs) = .ok (savedForm g, r') := by
  have hplain : ∀ l ∈ lows, ∃ ss : List Sub, l.subs = ss.map .plain ∧
      (∀ x ∈ ss, SubOk x ∧ x.type = l.type.toNat) ∧ LookupFits l ∧ l.type.toNat ≠ 7 := by
    obtain ⟨h1, h2, -, -⟩ := h
    simp only [GposGsub.toLow] at hlow
    cases hm : Res.mapL (Lookup.toLow Subst.type Subst.subs) g.lookups with
    | err => rw [hm] at hlow; cases hlow
    | panic => rw [hm] at hlow; cases hlow
    | ok ls =>
      rw [hm] at hlow
      simp only [Res.ok.injEq] at hlow
      subst hlow
      have : lows = ls := by
        have := Option.some.inj hl
        exact ((List.map_injective_iff.mpr (fun _ _ h => Option.some.inj h)) this).symm
      subst this
      clear hl hw htab h1
      revert hm h2 lows
      generalize g.lookups = gl
      induction gl with
      | nil =>
        intro lows h2 hm l hl
        simp only [Res.mapL, Res.ok.injEq] at hm
        subst hm
        cases hl
      | cons a gl ih =>
        intro lows h2 hm
        obtain ⟨ss, e, f1, f2, _⟩ := lookup_ok a (h2 a (by simp)).1 (h2 a (by simp)).2 max
        simp only [Res.mapL, e] at hm
        cases hb : Res.mapL (Lookup.toLow Subst.type Subst.subs) gl with
        | err => rw [hb] at hm; cases hm
        | panic => rw [hb] at hm; cases hm
        | ok bs' =>
          rw [hb] at hm
          simp only [Res.ok.injEq] at hm
          subst hm
          intro l hl
          rcases List.mem_cons.mp hl with rfl | hl
          · exact ⟨ss, rfl, f2, f1, by cases a.rule <;> simp [Subst.type]⟩
          · exact ih _ (fun l hl => h2 l (by simp [hl])) hb l hl
  obtain ⟨low2, e, hf, hmaj, hmin, hof⟩ := table_ok g h max
  rw [hlow] at e
  obtain rfl := Res.ok.inj e
  have hlen := hw.length_eq
  have hfits : TableFits SubX.tab SubX.read { low with lookups := some (lows'.map some) } := by
    refine ⟨hf.1, hf.2.1, ?_⟩
    intro ll hll
    obtain rfl := Option.some.inj hll
    have hcnt := (hf.2.2 _ hl).1
    refine ⟨by simpa [← hlen] using hcnt, ?_⟩
    intro x hx
    obtain ⟨y, hy, ey⟩ := List.mem_map.mp hx
    obtain rfl := Option.some.inj ey
    clear hcnt hll hx hlen hl htab
    induction hw with
    | nil => cases hy
    | cons hab _ ih =>
      rename_i a b la lb _
      rcases List.mem_cons.mp hy with rfl | hy
      · obtain ⟨ss, e1, e2, e3, e4⟩ := hplain a (by simp)
        rcases hab with rfl | ⟨h6, _, rfl⟩
        · refine ⟨e3, ?_⟩
          intro s hs
          rw [e1] at hs
          obtain ⟨z, hz, rfl⟩ := List.mem_map.mp hs
          exact writes_plain (e2 z hz).1 (e2 z hz).2
        · refine ⟨⟨by simpa [wrapExt] using e3.1, e3.2⟩, ?_⟩
          intro s hs
          simp only [wrapExt, e1, List.map_map] at hs
          obtain ⟨z, hz, rfl⟩ := List.mem_map.mp hs
          exact writes_ext (e2 z hz).1 (e2 z hz).2 h6
      · exact ih (fun l hl => hplain l (by simp [hl])) hy
  have hsame : Res.mapL (Lookup.ofLow (ruleOf max)) lows' = Res.mapL (Lookup.ofLow (ruleOf max)) lows := by
    clear hfits hl htab hlen
    induction hw with
    | nil => rfl
    | cons hab _ ih =>
      rename_i a b la lb _
      obtain ⟨ss, e1, e2, e3, e4⟩ := hplain a (by simp)
      have : Lookup.ofLow (ruleOf max) b = Lookup.ofLow (ruleOf max) a := by
        rcases hab with rfl | ⟨h6, hne, rfl⟩
        · rfl
        · refine C57_same_rule max a ?_ hne e4
          intro s hs
          rw [e1] at hs
          obtain ⟨z, _, rfl⟩ := List.mem_map.mp hs
          exact ⟨z, rfl⟩
      simp only [Res.mapL, this, ih (fun l hl => hplain l (by simp [hl]))]
  have hof' : GposGsub.ofLow (ruleOf max) { low with lookups := some (lows'.map some) } = .ok (savedForm g) := by
    rw [← hof]
    simp only [GposGsub.ofLow, hl, Option.getD_some, List.filterMap_map, Function.comp_def, id]
    rw [show (fun x : LookupLow SubX => some x) = some from rfl, List.filterMap_some, List.filterMap_some, hsame]
  obtain ⟨tab', e2, hr⟩ := read_table (ruleOf max) _ hfits hmaj hmin
  rw [htab] at e2
  obtain rfl := Res.ok.inj e2
  exact hr bs hbs _ hof'

/-- **C57.** An extension subtable that wraps a lookup type above 6 (in particular reverse chaining, 8, which the
format allows) is rejected, whatever follows. -/
theorem C57_type_above_6_rejected (fmt ty : UInt16) (h : 6 < ty.toNat) (rest : Bytes) :
    SubX.read 7 (Rd.new (encU16 fmt ++ (encU16 ty ++ rest))) = .err := by
  have e1 := reads_u16 fmt [] (encU16 ty ++ rest) [0, 0]
  have e2 := reads_u16 ty (encU16 fmt) rest [0, 0]
  simp only [List.nil_append, List.length_nil] at e1
  rw [List.append_assoc] at e2
  unfold SubX.read readExt inTable
  rw [if_pos rfl, Reader.bind_run]
  simp only [pushTop, Rd.new]
  rw [Reader.bind_run, Reader.bind_run, e1]
  simp only
  rw [Reader.bind_run, show 0 + (encU16 fmt).length = (encU16 fmt).length by simp, e2]
  simp only
  rw [if_pos h]
  rfl

/-- **C57.** An extension lookup without subtables makes the reader panic, although an ordinary lookup without
subtables is read. -/
theorem C57_empty_panics (max : UInt16) (flag : UInt16) (mfs : Option UInt16) :
    Lookup.ofLow (ruleOf max) ⟨7, flag, [], mfs⟩ = .panic ∧
    Lookup.ofLow (ruleOf max) ⟨1, flag, [], mfs⟩ = .ok ⟨flag, mfs, .single []⟩ := ⟨rfl, rfl⟩

/-- **C57.** An extension lookup whose subtables wrap different types makes the reader panic. -/
theorem C57_mixed_panics (max : UInt16) (flag : UInt16) (mfs : Option UInt16) (f1 t1 : UInt16) (s1 : Sub)
    (rest : List SubX) (h : ∃ f t s, SubX.ext f t s ∈ rest ∧ t ≠ t1) :
    Lookup.ofLow (ruleOf max) ⟨7, flag, .ext f1 t1 s1 :: rest, mfs⟩ = .panic := by
  obtain ⟨f, t, s, hm, hne⟩ := h
  have : ruleOf max 7 (.ext f1 t1 s1 :: rest) = .panic := by
    unfold ruleOf
    rw [if_pos rfl]
    simp only [Res.mapL, asExt]
    have key : ∀ rest : List SubX, SubX.ext f t s ∈ rest → Res.mapL asExt rest = .panic ∨
        ∃ es, Res.mapL asExt rest = .ok es ∧ (t, s) ∈ es := by
      intro rest
      induction rest with
      | nil => intro h; cases h
      | cons a rest ih =>
        intro hm
        cases a with
        | plain p => left; rfl
        | ext f' t' s' =>
          simp only [Res.mapL, asExt]
          rcases List.mem_cons.mp hm with e | hm
          · cases e
            cases hr : Res.mapL asExt rest with
            | ok es => right; exact ⟨_, rfl, by simp⟩
            | panic => left; rfl
            | err =>
              exfalso
              clear ih hm
              revert hr
              induction rest with
              | nil => simp [Res.mapL]
              | cons b rest ih =>
                intro hr
                cases b with
                | plain => simp [Res.mapL, asExt] at hr
                | ext =>
                  simp only [Res.mapL, asExt] at hr
                  cases hr' : Res.mapL asExt rest with
                  | err => exact ih hr'
                  | ok => rw [hr'] at hr; cases hr
                  | panic => rw [hr'] at hr; cases hr
          · rcases ih hm with e | ⟨es, e, h2⟩
            · left; rw [e]
            · right; rw [e]; exact ⟨_, rfl, by simp [h2]⟩
    rcases key rest hm with e | ⟨es, e, h2⟩
    · rw [e]
    · rw [e]
      simp only
      rw [if_neg]
      simp only [List.all_eq_true, beq_iff_eq]
      intro hall
      exact hne (hall _ h2)
  simp only [Lookup.ofLow, show ((7 : UInt16).toNat) = 7 from rfl, this]

end FT.Props
