import Verif.Model.EditMath
import Verif.Lemmas.CliRename
import Verif.Props.ForeignMath
import Verif.Props.DesignMap
import Verif.Props.CliEnds
import Verif.Lemmas.WholeFont

/-!
C101: what `ttf-edit-math` prints.
-/

namespace FT.Props
open FT FT.Math FT.Store FT.Save FT.Cli FT.Whole FT.EditMath

/-! ### Specification -/

/-- What the glyph is called in the output: its name, or a backslash and its number if there is none. -/
def Called (names : List String) (g : UInt16) (n : String) : Prop :=
  names[g.toNat]? = some n ∨ (names.length ≤ g.toNat ∧ n = "\\" ++ toString g.toNat)

/-- The last entry of the list for a glyph called `n`. -/
def LastCalled {α : Type} (names : List String) (l : List (UInt16 × α)) (n : String) (a : α) : Prop :=
  ∃ before g after, l = before ++ (g, a) :: after ∧ Called names g n ∧ ∀ x ∈ after, ¬ Called names x.1 n

/-- The keys of an object: different, in ascending order. -/
def KeysAscend (l : List (String × Json)) : Prop := (l.map Prod.fst).Pairwise (fun a b => Key.lt a b = true)

/-- The object has, for each name, the last entry for it. -/
def MapSays {α : Type} (names : List String) (l : List (UInt16 × α)) (Is : Json → α → Prop) (j : Json) : Prop :=
  ∃ o, j = .obj o ∧ KeysAscend o ∧ (∀ n x, (n, x) ∈ o → ∃ a, LastCalled names l n a ∧ Is x a) ∧
    ∀ n a, LastCalled names l n a → ∃ x, (n, x) ∈ o

/-- The numbers of a list of values. -/
def NumbersAre (j : Json) (l : List Value) : Prop := j = .arr (l.map fun v => .num v.value.toInt)

/-- An object with the parts that are there, under these names. -/
def PartsAre {α : Type} (parts : List (String × Option α)) (Is : Json → α → Prop) (j : Json) : Prop :=
  ∃ o, j = .obj o ∧ (o.map Prod.fst).Nodup ∧ (∀ n x, (n, x) ∈ o → ∃ a, (n, some a) ∈ parts ∧ Is x a) ∧
    ∀ n a, (n, some a) ∈ parts → ∃ x, (n, x) ∈ o

def ifAny {α : Type} (l : List α) : Option (List α) := if l = [] then none else some l

/-- Heights and kerns. -/
def KernSays (j : Json) (k : Kern) : Prop :=
  PartsAre [("correction_height", ifAny k.heights), ("kern_values", ifAny k.kerns)] NumbersAre j

/-- The four corners. -/
def CornersSay (j : Json) (r : KernRecord) : Prop :=
  PartsAre [("top_right", r.topRight), ("bottom_left", r.bottomLeft), ("bottom_right", r.bottomRight), ("top_left", r.topLeft)] KernSays j

def NumberIs (j : Json) (v : Value) : Prop := j = .num v.value.toInt

/-- The names of the constants, in the order of the OpenType specification. -/
def constantNames : List String :=
  ["scriptPercentScaleDown", "scriptScriptPercentScaleDown", "delimitedSubFormulaMinHeight", "displayOperatorMinHeight", "mathLeading",
   "axisHeight", "accentBaseHeight", "flattenedAccentBaseHeight", "subscriptShiftDown", "subscriptTopMax", "subscriptBaselineDropMin",
   "superscriptShiftUp", "superscriptShiftUpCramped", "superscriptBottomMin", "superscriptBaselineDropMax", "subSuperscriptGapMin",
   "superscriptBottomMaxWithSubscript", "spaceAfterScript", "upperLimitGapMin", "upperLimitBaselineRiseMin", "lowerLimitGapMin",
   "lowerLimitBaselineDropMin", "stackTopShiftUp", "stackTopDisplayStyleShiftUp", "stackBottomShiftDown",
   "stackBottomDisplayStyleShiftDown", "stackGapMin", "stackDisplayStyleGapMin", "stretchStackTopShiftUp",
   "stretchStackBottomShiftDown", "stretchStackGapAboveMin", "stretchStackGapBelowMin", "fractionNumeratorShiftUp",
   "fractionNumeratorDisplayStyleShiftUp", "fractionDenominatorShiftDown", "fractionDenominatorDisplayStyleShiftDown",
   "fractionNumeratorGapMin", "fractionNumDisplayStyleGapMin", "fractionRuleThickness", "fractionDenominatorGapMin",
   "fractionDenomDisplayStyleGapMin", "skewedFractionHorizontalGap", "skewedFractionVerticalGap", "overbarVerticalGap",
   "overbarRuleThickness", "overbarExtraAscender", "underbarVerticalGap", "underbarRuleThickness", "underbarExtraDescender",
   "radicalVerticalGap", "radicalDisplayStyleVerticalGap", "radicalRuleThickness", "radicalExtraAscender", "radicalKernBeforeDegree",
   "radicalKernAfterDegree", "radicalDegreeBottomRaisePercent"]

/-- The numbers of the constants, in the order of the OpenType specification. -/
def constantNumbers (c : Constants) : List Int :=
  [c.scriptPercentScaleDown.toInt, c.scriptScriptPercentScaleDown.toInt, c.delimitedSubFormulaMinHeight.toNat, c.displayOperatorMinHeight.toNat] ++
    (constantValues c).map (fun v => v.value.toInt) ++ [c.radicalDegreeBottomRaisePercent.toInt]

/-- Specification: what is printed for a table. -/
def Prints (names : List String) (m : MATH) (j : Json) : Prop :=
  ∃ constants italics accents extended kerning overlap, j = .obj [("constants", constants), ("italic_correction", italics),
      ("top_accent_attachment", accents), ("extended_shapes", extended), ("kerning", kerning), ("min_overlap", overlap),
      ("vertical_extensions", .num 1), ("horizontal_extensions", .num 1)] ∧
    constants = .obj (constantNames.zip ((constantNumbers m.constants).map .num)) ∧
    MapSays names m.italics NumberIs italics ∧ MapSays names m.accents NumberIs accents ∧ MapSays names m.kerning CornersSay kerning ∧
    (∃ l : List String, extended = .arr (l.map .str) ∧ l.Pairwise (fun a b => Key.lt a b = true) ∧ ∀ n, n ∈ l ↔ ∃ g ∈ m.extended, Called names g n) ∧
    (m.minOverlap = none → overlap = .null) ∧ ∀ n, m.minOverlap = some n → overlap = .num n.toNat

/-- The `MATH` table can be read. -/
def MathTableIs (T : Tag → Option Bytes) (m : MATH) : Prop := ∃ b, T tagMATH = some b ∧ runAll readMath b = .ok m

/-! ### Proofs -/

theorem called_iff (names : List String) (g : UInt16) (n : String) : Called names g n ↔ glyphName names g = n := by
  unfold Called glyphName
  cases h : names[g.toNat]? with
  | none =>
    rw [List.getElem?_eq_none_iff] at h
    simp [h, eq_comm]
  | some x =>
    have := (List.getElem?_eq_some_iff.mp h).1
    simp only [Option.some.injEq]
    constructor
    · rintro (h | h)
      · exact h
      · omega
    · exact .inl

theorem collect_append {κ α : Type} [Key κ] (l : List (κ × α)) (x : κ × α) : BMap.collect (l ++ [x]) = BMap.insert (BMap.collect l) x.1 x.2 := by
  unfold BMap.collect
  rw [List.foldl_append]
  rfl

/-- Later entries win. -/
theorem get_collect_iff {κ α : Type} [Key κ] [DecidableEq κ] (k : κ) (v : α) (l : List (κ × α)) :
    BMap.get? (BMap.collect l) k = some v ↔ ∃ before after, l = before ++ (k, v) :: after ∧ ∀ x ∈ after, x.1 ≠ k := by
  induction l using List.reverseRecOn with
  | nil => simp [BMap.collect, BMap.get?]
  | append_singleton l x ih =>
    rw [collect_append, BMap.get?_insert]
    obtain ⟨k', v'⟩ := x
    by_cases e : k = k'
    · subst e
      rw [if_pos rfl]
      constructor
      · intro h
        cases h
        exact ⟨l, [], rfl, by simp⟩
      · rintro ⟨before, after, h1, h2⟩
        rcases List.eq_nil_or_concat after with rfl | ⟨a', y, rfl⟩
        · have := List.append_inj' h1 rfl
          simp only [List.cons.injEq, Prod.mk.injEq] at this
          rw [this.2.1.2]
        · exfalso
          rw [List.concat_eq_append, ← List.cons_append, ← List.append_assoc] at h1
          have := List.append_inj' h1 rfl
          simp only [List.cons.injEq, and_true] at this
          exact h2 y (by simp) (by rw [← this.2])
    · rw [if_neg e, ih]
      constructor
      · rintro ⟨before, after, rfl, h2⟩
        refine ⟨before, after ++ [(k', v')], by simp, ?_⟩
        intro x hx
        rcases List.mem_append.mp hx with hx | hx
        · exact h2 x hx
        · simp only [List.mem_singleton] at hx
          rw [hx]
          exact fun h => e h.symm
      · rintro ⟨before, after, h1, h2⟩
        rcases List.eq_nil_or_concat after with rfl | ⟨a', y, rfl⟩
        · have := List.append_inj' h1 rfl
          simp only [List.cons.injEq, Prod.mk.injEq] at this
          exact absurd this.2.1.1.symm e
        · rw [List.concat_eq_append, ← List.cons_append, ← List.append_assoc] at h1
          have := List.append_inj' h1 rfl
          exact ⟨before, a', this.1, fun x hx => h2 x (by simp [hx])⟩

theorem byName_says {α : Type} (names : List String) (f : α → Json) (l : List (UInt16 × α)) {Is : Json → α → Prop} (h : ∀ a, Is (f a) a) :
    MapSays names l Is (byName names f l) := by
  have hs := BMap.collect_sorted (l.map fun x => (glyphName names x.1, f x.2))
  refine ⟨_, rfl, ?_, ?_, ?_⟩
  · unfold KeysAscend
    rw [List.pairwise_map]
    exact hs
  · intro n x hx
    obtain ⟨before, after, h1, h2⟩ := (get_collect_iff n x _).mp ((BMap.get?_eq_some hs).mpr hx)
    rw [List.map_eq_append_iff] at h1
    obtain ⟨b1, rest, rfl, rfl, h3⟩ := h1
    rw [List.map_eq_cons_iff] at h3
    obtain ⟨⟨g, a⟩, a1, rfl, h4, rfl⟩ := h3
    cases h4
    refine ⟨a, ⟨b1, g, a1, rfl, (called_iff ..).mpr rfl, fun y hy hc => ?_⟩, h a⟩
    exact h2 _ (List.mem_map_of_mem hy) ((called_iff ..).mp hc)
  · rintro n a ⟨before, g, after, rfl, h1, h2⟩
    refine ⟨f a, (BMap.get?_eq_some hs).mp ((get_collect_iff n _ _).mpr ⟨before.map fun x => (glyphName names x.1, f x.2), after.map fun x => (glyphName names x.1, f x.2), ?_, ?_⟩)⟩
    · rw [List.map_append, List.map_cons, (called_iff ..).mp h1]
    · intro x hx
      obtain ⟨y, hy, rfl⟩ := List.mem_map.mp hx
      exact fun e => h2 y hy ((called_iff ..).mpr e)

theorem kern_says (k : Kern) : KernSays (kern k) k := by
  unfold KernSays PartsAre kern ifAny NumbersAre
  refine ⟨_, rfl, ?_, ?_, ?_⟩
  · cases hh : k.heights <;> cases hk : k.kerns <;> simp
  · intro n x hx
    cases hh : k.heights <;> cases hk : k.kerns <;> simp_all
    rcases hx with ⟨rfl, rfl⟩ | ⟨rfl, rfl⟩ <;> simp
  · intro n a
    cases hh : k.heights <;> cases hk : k.kerns <;> simp_all
    rintro (⟨rfl, rfl⟩ | ⟨rfl, rfl⟩)
    · exact ⟨_, .inl ⟨rfl, rfl⟩⟩
    · exact ⟨_, .inr ⟨rfl, rfl⟩⟩

theorem corners_say (r : KernRecord) : CornersSay (kernRecord r) r := by
  unfold CornersSay PartsAre kernRecord
  refine ⟨_, rfl, ?_, ?_, ?_⟩
  · cases r.topRight <;> cases r.bottomLeft <;> cases r.bottomRight <;> cases r.topLeft <;> simp
  · intro n x hx
    simp only [List.mem_append] at hx
    rcases hx with ((hx | hx) | hx) | hx <;> (split at hx <;> simp only [List.not_mem_nil, List.mem_singleton, Prod.mk.injEq] at hx)
    all_goals
      obtain ⟨rfl, rfl⟩ := hx
      exact ⟨_, by simp [*], kern_says _⟩
  · intro n a ha
    simp only [List.mem_cons, Prod.mk.injEq, List.not_mem_nil, or_false] at ha
    rcases ha with ⟨rfl, e⟩ | ⟨rfl, e⟩ | ⟨rfl, e⟩ | ⟨rfl, e⟩ <;> exact ⟨kern a, by simp [← e]⟩

theorem constants_say (c : Constants) : constants c = .obj (constantNames.zip ((constantNumbers c).map .num)) := rfl

/-- **C101** (the table). -/
theorem C101_prints (m : MATH) (names : List String) : Prints names m (simplify m names) := by
  refine ⟨_, _, _, _, _, _, rfl, constants_say _, byName_says _ _ _ (fun _ => rfl), byName_says _ _ _ (fun _ => rfl),
    byName_says _ _ _ corners_say, ⟨(BMap.collect (m.extended.map fun g => (glyphName names g, ()))).map Prod.fst, by simp, ?_, ?_⟩, ?_, ?_⟩
  · rw [List.pairwise_map]
    exact BMap.collect_sorted _
  · intro n
    have hs := BMap.collect_sorted (m.extended.map fun g => (glyphName names g, ()))
    constructor
    · intro h
      obtain ⟨⟨n, u⟩, h1, rfl⟩ := List.mem_map.mp h
      obtain ⟨before, after, h2, _⟩ := (get_collect_iff n u _).mp ((BMap.get?_eq_some hs).mpr h1)
      have : (n, u) ∈ m.extended.map fun g => (glyphName names g, ()) := by rw [h2]; simp
      obtain ⟨g, hg, e⟩ := List.mem_map.mp this
      cases e
      exact ⟨g, hg, (called_iff ..).mpr rfl⟩
    · rintro ⟨g, hg, hc⟩
      rw [called_iff] at hc
      subst hc
      have := get?_collect_last (glyphName names g) () (m.extended.map fun g => (glyphName names g, ())) [] (fun _ _ _ => rfl)
        (.inl ⟨_, List.mem_map_of_mem hg, rfl⟩)
      exact List.mem_map.mpr ⟨_, (BMap.get?_eq_some hs).mp this, rfl⟩
  · intro h
    rw [h]
  · intro n h
    rw [h]

/-! ### The file -/

variable {E : Env} {T : Tag → Option Bytes}

theorem means_math {v : Val More} : Means (Formats E) T tagMATH v ↔ ∃ m, MathTableIs T m ∧ v = .other tagMATH (.rest (.math m)) := by
  rw [means_rest (by decide) (by decide)]
  have hp : ∀ b, parseRest (rest E) tagMATH b none = (do return .rest (.math (← runAll readMath b))) := by
    intro b
    unfold parseRest
    rw [if_neg (by decide), if_neg (by decide), if_neg (by decide), if_neg (by decide), if_neg (by decide), if_neg (by decide), if_neg (by decide)]
    show (do return Other.rest (← parseMore E tagMATH b none)) = _
    unfold parseMore
    rw [if_neg (by decide), if_neg (by decide), if_neg (by decide), if_neg (by decide), if_neg (by decide), if_pos rfl]
    cases runAll readMath b <;> rfl
  constructor
  · rintro ⟨b, x, h1, h2, rfl⟩
    rw [hp] at h2
    obtain ⟨p, h3, h4⟩ := bind_eq_ok h2
    cases h4
    exact ⟨p, ⟨b, h1, h3⟩, rfl⟩
  · rintro ⟨p, ⟨b, h1, h2⟩, rfl⟩
    exact ⟨b, _, h1, by rw [hp, h2]; rfl, rfl⟩

theorem sim_editBody (dump : Bool) (s : Tables) (a : AStore More) (h : Rep s a) :
    RelR (fun x y => x = y) (editBody dump (storeMachine (Formats E)) s) (editBody dump (indepMachine (Formats E)) a) := by
  have hS := sim_indep (Formats E)
  unfold editBody
  refine (sim_require hS _ h).bind ?_
  rintro ⟨i, s1⟩ ⟨j, a1⟩ ⟨e, h1⟩
  obtain rfl : i = j := e
  refine (sim_valueOf hS i h1).bind ?_
  rintro v _ rfl
  split
  · cases dump with
    | false => exact RelR.eq _
    | true =>
      refine (sim_require hS _ h1).bind ?_
      rintro ⟨i, s2⟩ ⟨j, a2⟩ ⟨e, h2⟩
      obtain rfl : i = j := e
      refine (sim_valueOf hS i h2).bind ?_
      rintro v _ rfl
      exact RelR.eq _
  · exact RelR.eq _

/-- What the tool does with the tables. -/
def Edits (dump : Bool) (T : Tag → Option Bytes) (r : Option Json) : Prop :=
  ∃ p, PostIs T p ∧ ((dump = false ∧ r = none) ∨ (dump = true ∧ ∃ m, MathTableIs T m ∧ r = some (simplify m (p.glyphnames.getD []))))

theorem edit_tables {dump : Bool} {a : AStore More} (ha : Stands (Formats E) T a) (r : Option Json) :
    editBody dump (indepMachine (Formats E)) a = .ok r ↔ Edits dump T r := by
  constructor
  · intro h
    unfold editBody at h
    obtain ⟨⟨i, a1⟩, h1, h⟩ := bind_eq_ok h
    obtain ⟨g1, v, g2, g3, rfl⟩ := require_stands ha h1
    obtain ⟨w, h2, h⟩ := bind_eq_ok h
    rw [valueOf_last (var_last g3)] at h2
    cases h2
    obtain ⟨p, hp, rfl⟩ := means_post.mp g2
    refine ⟨p, hp, ?_⟩
    cases dump with
    | false =>
      cases h
      exact .inl ⟨rfl, rfl⟩
    | true =>
      simp only [Indep.Var.val, if_true] at h
      obtain ⟨⟨i, a2⟩, h3, h⟩ := bind_eq_ok h
      obtain ⟨k1, v, k2, k3, rfl⟩ := require_stands g1 h3
      obtain ⟨w, h4, h⟩ := bind_eq_ok h
      rw [valueOf_last (var_last k3)] at h4
      cases h4
      obtain ⟨m, hm, rfl⟩ := means_math.mp k2
      cases h
      exact .inr ⟨rfl, m, hm, rfl⟩
  · rintro ⟨p, hp, h⟩
    obtain ⟨a1, e1, s1, v1⟩ := require_means ha (means_post.mpr ⟨p, hp, rfl⟩)
    unfold editBody
    rw [e1, Res.ok_bind]
    simp only
    rw [valueOf_last (var_last v1), Res.ok_bind]
    simp only [Indep.Var.val]
    rcases h with ⟨rfl, rfl⟩ | ⟨rfl, m, hm, rfl⟩
    · rfl
    · obtain ⟨a2, e2, s2, v2⟩ := require_means s1 (means_math.mpr ⟨m, hm, rfl⟩)
      rw [if_pos rfl, e2, Res.ok_bind]
      simp only
      rw [valueOf_last (var_last v2), Res.ok_bind]
      rfl

theorem edit_iff (E : Env) (dump : Bool) (input : Bytes) (r : Option Json) : editMath E dump input = .ok r ↔
    ∃ v T, IsFont input v T ∧ Openable T ∧ Edits dump T r := by
  have hsim : ∀ {tables : List (Tag × Bytes)}, BMap.Sorted tables →
      RelR Rep (openTables (storeMachine (Formats E)) (Store.fresh tables)) (openTables (indepMachine (Formats E)) (Indep.fresh tables)) :=
    fun hs => sim_openTables (sim_indep (Formats E)) (rep_fresh (V := Val More) _ hs)
  constructor
  · intro h
    unfold editMath at h
    cases hr : Font.readTables (Rd.new input) with
    | err => rw [hr] at h; cases h
    | panic => rw [hr] at h; cases h
    | ok x =>
      obtain ⟨⟨v, tables⟩, rd⟩ := x
      rw [hr] at h
      obtain ⟨s, h1, h⟩ := bind_eq_ok h
      have g := hsim (loads_facts hr).1
      rw [h1] at g
      cases ha : openTables (indepMachine (Formats E)) (Indep.fresh tables) with
      | err => rw [ha] at g; exact g.elim
      | panic => rw [ha] at g; exact g.elim
      | ok a =>
        rw [ha] at g
        obtain ⟨g1, g2⟩ := open_stands (T := fun t => BMap.get? tables t) ha (fun _ => rfl)
        refine ⟨v, _, ⟨tables, rd, hr, fun _ => rfl⟩, g1, (edit_tables g2 r).mp ?_⟩
        have k := sim_editBody (E := E) dump s a g
        rw [h] at k
        cases hb : editBody dump (indepMachine (Formats E)) a with
        | err => rw [hb] at k; exact k.elim
        | panic => rw [hb] at k; exact k.elim
        | ok r' =>
          rw [hb] at k
          obtain rfl : r = r' := k
          rfl
  · rintro ⟨v, T, ⟨tables, rd, hr, eT⟩, g1, hT⟩
    unfold editMath
    rw [hr]
    simp only
    obtain ⟨a, e2, g2⟩ := open_ok (Formats E) g1 eT
    have g := hsim (loads_facts hr).1
    rw [e2] at g
    cases hb : openTables (storeMachine (Formats E)) (Store.fresh tables) with
    | err => rw [hb] at g; exact g.elim
    | panic => rw [hb] at g; exact g.elim
    | ok s =>
      rw [hb] at g
      have k := sim_editBody (E := E) dump s a g
      rw [(edit_tables g2 r).mpr hT] at k
      rw [Res.ok_bind]
      cases hc : editBody dump (storeMachine (Formats E)) s with
      | err => rw [hc] at k; exact k.elim
      | panic => rw [hc] at k; exact k.elim
      | ok r' =>
        rw [hc] at k
        obtain rfl : r' = r := k
        rfl

/-- **C101** (dump). Something is printed exactly if the file is a font whose `post` and `MATH` tables can be read; it is then the
simplified table, with the names of `post` or none. -/
theorem C101_dump (E : Env) (input : Bytes) :
    (∀ r, editMath E true input = .ok r → ∃ j v T p m, r = some j ∧ IsFont input v T ∧ Openable T ∧ PostIs T p ∧ MathTableIs T m ∧
      Prints (p.glyphnames.getD []) m j) ∧
    ∀ v T p m, IsFont input v T → Openable T → PostIs T p → MathTableIs T m →
      ∃ j, editMath E true input = .ok (some j) ∧ Prints (p.glyphnames.getD []) m j := by
  constructor
  · intro r h
    obtain ⟨v, T, h1, h2, p, h3, ⟨h, _⟩ | ⟨_, m, h4, rfl⟩⟩ := (edit_iff E true input r).mp h
    · cases h
    · exact ⟨_, v, T, p, m, rfl, h1, h2, h3, h4, C101_prints _ _⟩
  · intro v T p m h1 h2 h3 h4
    exact ⟨_, (edit_iff E true input _).mpr ⟨v, T, h1, h2, p, h3, .inr ⟨rfl, m, h4, rfl⟩⟩, C101_prints _ _⟩

/-- **C101** (load). `load` does nothing, whether or not there is a `MATH` table; it panics exactly if the file is not a font with a
`post` table that can be read. -/
theorem C101_load (E : Env) (input : Bytes) :
    (∀ r, editMath E false input = .ok r ↔ r = none ∧ ∃ v T p, IsFont input v T ∧ Openable T ∧ PostIs T p) := by
  intro r
  rw [edit_iff]
  constructor
  · rintro ⟨v, T, h1, h2, p, h3, ⟨_, rfl⟩ | ⟨h, _⟩⟩
    · exact ⟨rfl, v, T, p, h1, h2, h3⟩
    · cases h
  · rintro ⟨rfl, v, T, p, h1, h2, h3⟩
    exact ⟨v, T, h1, h2, p, h3, .inl ⟨rfl, rfl⟩⟩

/-- **C101** (ends). In either mode the tool finishes or panics. -/
theorem C101_ends (E : Env) (dump : Bool) (input : Bytes) : ResultOrPanic (editMath E dump input) := by
  refine resultOrPanic ?_
  unfold editMath
  split
  · exact bind_noErr (open_noErr _) fun _ => by
      unfold editBody
      refine bind_noErr (require_noErr _ _) fun _ => bind_noErr (valueOf_noErr _ _) fun _ => ?_
      split
      · refine ite_noErr (bind_noErr (require_noErr _ _) fun _ => bind_noErr (valueOf_noErr _ _) fun _ => ?_) (ok_noErr _)
        split
        · exact ok_noErr _
        · exact panic_noErr
      · exact panic_noErr
  · exact panic_noErr
  · exact panic_noErr

/-- **C101** (what is lost). Tables that differ in their variants, assemblies or device tables are printed alike, and of two glyphs with
one name only the second is printed. So the table cannot be rebuilt from what is printed. -/
theorem C101_lost :
    (∀ (m : MATH) names vertical horizontal, simplify { m with vertical := vertical, horizontal := horizontal } names = simplify m names) ∧
    (∀ (m : MATH) names (g : UInt16) (v : Int16) d d', simplify { m with italics := [(g, ⟨v, d⟩)] } names = simplify { m with italics := [(g, ⟨v, d'⟩)] } names) ∧
    ∀ (m : MATH) (n : String) (v w : Value), simplify { m with italics := [(0, v), (1, w)] } [n, n] = simplify { m with italics := [(1, w)] } [n, n] := by
  refine ⟨fun _ _ _ _ => rfl, fun _ _ _ _ _ _ => rfl, ?_⟩
  intro m n v w
  have h : BMap.collect [(n, Json.num v.value.toInt), (n, .num w.value.toInt)] = BMap.collect [(n, .num w.value.toInt)] := by
    simp [BMap.collect, BMap.insert, Key.irrefl]
  unfold simplify byName
  simp only [List.map_cons, List.map_nil]
  rw [show glyphName [n, n] 0 = n from rfl, show glyphName [n, n] 1 = n from rfl, h]

/-! ### A font -/

/-- A `post` table of version 2 with ten standard names. -/
def tenNames : Bytes := [0, 2, 0, 0] ++ List.replicate 28 0 ++ [0, 10, 0, 0, 0, 1, 0, 2, 0, 3, 0, 4, 0, 5, 0, 6, 0, 7, 0, 8, 0, 9]

theorem tenNames_reads : ∃ p, runAll Strings.readPost tenNames = .ok p ∧ (p.glyphnames.getD [])[9]? = some "ampersand" :=
  have h : (match runAll Strings.readPost tenNames with
    | .ok p => decide ((p.glyphnames.getD [])[9]? = some "ampersand")
    | _ => false) = true := by decide +kernel
  match e : runAll Strings.readPost tenNames with
  | .ok p => by
      rw [e] at h
      exact ⟨p, rfl, of_decide_eq_true h⟩
  | .err => by rw [e] at h; cases h
  | .panic => by rw [e] at h; cases h

theorem decoy_reads : ∃ m, runAll readMath decoyMath = .ok m ∧ m.italics = [(9, ⟨50, none⟩)] ∧ m.extended = [9] :=
  have h : (match runAll readMath decoyMath with
    | .ok m => decide (m.italics = [(9, ⟨50, none⟩)]) && decide (m.extended = [9])
    | _ => false) = true := by decide +kernel
  match e : runAll readMath decoyMath with
  | .ok m => by
      rw [e] at h
      rw [Bool.and_eq_true] at h
      exact ⟨m, rfl, of_decide_eq_true h.1, of_decide_eq_true h.2⟩
  | .err => by rw [e] at h; cases h
  | .panic => by rw [e] at h; cases h

/-- A font for `C101_dump`: the italics correction of glyph 9 is printed under its name. -/
example (E : Env) : ∃ input constants kerning accents overlap, editMath E true input = .ok (some (.obj [("constants", constants),
    ("italic_correction", .obj [("ampersand", .num 50)]), ("top_accent_attachment", accents), ("extended_shapes", .arr [.str "ampersand"]),
    ("kerning", kerning), ("min_overlap", overlap), ("vertical_extensions", .num 1), ("horizontal_extensions", .num 1)])) := by
  have hsort : BMap.Sorted [(tagMATH, decoyMath), (tagPost, tenNames)] := by simp [BMap.Sorted]; decide
  obtain ⟨file, e⟩ := (C18_saving_succeeds_iff 0x00010000 _ (sorted_ascending hsort)).1.mpr
    ⟨by simp, fun t c hc ht => by
      exfalso
      obtain rfl : t = tagHead := by rw [(isHead_iff t).mp ht]; rfl
      simp only [List.mem_cons, Prod.mk.injEq, List.not_mem_nil, or_false] at hc
      rcases hc with ⟨h, _⟩ | ⟨h, _⟩ <;> exact absurd h (by decide)⟩
  have hl : file.length < 2 ^ 32 := by
    have := small_file hsort e 300 (by
      intro x hx
      simp only [List.mem_cons, List.not_mem_nil, or_false] at hx
      rcases hx with rfl | rfl <;> decide +kernel)
    simp only [List.length_cons, List.length_nil] at this
    omega
  obtain ⟨T, h1, h2, h3⟩ := (saved_of (T := fun t => BMap.get? [(tagMATH, decoyMath), (tagPost, tenNames)] t) (.inl rfl) (by
    intro t ht
    obtain ⟨b, hb⟩ := Option.ne_none_iff_exists'.mp ht
    have hm := (BMap.get?_eq_some hsort).mp hb
    simp only [List.mem_cons, Prod.mk.injEq, List.not_mem_nil, or_false] at hm
    rcases hm with ⟨rfl, _⟩ | ⟨rfl, _⟩ <;> decide) hsort (fun _ => rfl) e hl).font
  obtain ⟨p, hp, hn⟩ := tenNames_reads
  obtain ⟨m, hm, hi, hx⟩ := decoy_reads
  have hnone : ∀ t, t ≠ tagMATH → t ≠ tagPost → BMap.get? [(tagMATH, decoyMath), (tagPost, tenNames)] t = none := by
    intro t k1 k2
    exact (BMap.get?_eq_none hsort).mpr (by simpa using ⟨fun h => k1 h.symm, fun h => k2 h.symm⟩)
  have hno : ∀ t, t ≠ tagMATH → t ≠ tagPost → T t = none := by
    intro t k1 k2
    by_cases ht : t = tagHead
    · subst ht
      rcases h3 with ⟨_, h3⟩ | ⟨b, _, h3, _⟩
      · exact h3
      · rw [hnone _ k1 k2] at h3; cases h3
    · rw [h2 t ht, hnone _ k1 k2]
  have hr := (edit_iff E true file _).mpr ⟨_, T, h1, ⟨.inl (hno _ (by decide) (by decide)), .inl (hno _ (by decide) (by decide))⟩, p,
    ⟨_, by rw [h2 _ (by decide)]; exact (BMap.get?_eq_some hsort).mpr (by simp), hp⟩, .inr ⟨rfl, m,
    ⟨_, by rw [h2 _ (by decide)]; exact (BMap.get?_eq_some hsort).mpr (by simp), hm⟩, rfl⟩⟩
  have hg : glyphName (p.glyphnames.getD []) 9 = "ampersand" := by
    unfold glyphName
    rw [show ((9 : UInt16).toNat) = 9 from rfl, hn]
  have hs : ∃ constants kerning accents overlap, simplify m (p.glyphnames.getD []) = .obj [("constants", constants),
      ("italic_correction", .obj [("ampersand", .num 50)]), ("top_accent_attachment", accents), ("extended_shapes", .arr [.str "ampersand"]),
      ("kerning", kerning), ("min_overlap", overlap), ("vertical_extensions", .num 1), ("horizontal_extensions", .num 1)] := by
    refine ⟨constants m.constants, byName (p.glyphnames.getD []) kernRecord m.kerning,
      byName (p.glyphnames.getD []) (fun v => .num v.value.toInt) m.accents, (match m.minOverlap with | none => .null | some n => .num n.toNat), ?_⟩
    unfold simplify
    have h5 : byName (p.glyphnames.getD []) (fun v => .num v.value.toInt) m.italics = .obj [("ampersand", .num 50)] := by
      unfold byName
      rw [hi]
      simp only [List.map_cons, List.map_nil, hg]
      rfl
    have h6 : (BMap.collect (m.extended.map fun g => (glyphName (p.glyphnames.getD []) g, ()))).map (fun x => Json.str x.1) = [.str "ampersand"] := by
      rw [hx]
      simp only [List.map_cons, List.map_nil, hg]
      rfl
    rw [h5, h6]
    cases m.minOverlap <;> rfl
  obtain ⟨c, k, a, o, hs⟩ := hs
  rw [hs] at hr
  exact ⟨file, c, k, a, o, hr⟩

end FT.Props
