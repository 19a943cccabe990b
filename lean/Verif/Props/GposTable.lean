import Verif.Model.GposTable
import Verif.Lemmas.LayoutTablesAs
import Verif.Lemmas.LayoutBad
import Verif.Props.GsubTable
import Verif.Props.GposMark

/-!
C69: whole GPOS tables. C70: extension lookups of GPOS.
-/

namespace FT.Props
open FT FT.Gpos FT.Lay FT.Off Reader
open FT.Gsub (ctxTo3 chainTo3)

/-! ### Subtables -/

/-- A subtable as it is read back. -/
def backX : SubX → SubX
  | .plain s => .plain (posBack s)
  | .ext f t s => .ext f t (posBack s)

theorem posType_ne_nine (s : Sub) (h : PosOk s) : posType s ≠ 9 := by
  cases s <;> simp only [posType] <;> try omega
  rcases h.2 with e | e <;> omega

theorem writes_posPlain {s : Sub} {ty : Nat} (h : PosOk s) (hty : posType s = ty) :
    WritesAs SubX.tab (SubX.read ty) (.plain s) (backX (.plain s)) := by
  obtain ⟨t, h1, h2⟩ := writes_pos s h
  refine ⟨t, h1, ?_⟩
  intro B base ext stk hb hh
  obtain ⟨ptr, e⟩ := h2 B base ext stk hb hh
  refine ⟨ptr, ?_⟩
  rw [← hty]
  unfold SubX.read
  rw [if_neg (posType_ne_nine s h), Reader.bind_run, e]
  rfl

theorem writes_posExt {s : Sub} {fmt ty : UInt16} (h : PosOk s) (hty : posType s = ty.toNat) (h6 : ty.toNat ≤ 6) :
    WritesAs SubX.tab (SubX.read 9) (.ext fmt ty s) (backX (.ext fmt ty s)) := by
  obtain ⟨c, h1, h2⟩ := writes_pos s h
  refine ⟨_, by simp only [SubX.tab, h1]; rfl, ?_⟩
  unfold SubX.read
  rw [if_pos rfl]
  refine ReadsTab.inTable (ReadsTab.bind (readsTab_u16 _) (ReadsTab.bind (readsTab_u16 _) ?_))
  rw [if_neg (by omega)]
  intro B base pos ext stk hh
  obtain ⟨off, e1, e2, g1, g2, g3, g4, g5, _, _⟩ := hh
  have g2' : off ≤ 4294967295 := g2
  have hto : (UInt32.ofNat off).toNat = off := ofNat32_toNat (by omega)
  have g3' : encU32 (UInt32.ofNat off) <+: B.drop pos := g3
  have e := reads_of_prefix' (reads_u32 (UInt32.ofNat off)) g3' (base :: stk) (by simp)
  obtain ⟨ptr, hptr⟩ := h2 B (base + off) e1 (base :: stk) g4 g5
  rw [hty] at hptr
  rw [Reader.bind_run, e]
  simp only [hto]
  rw [Reader.bind_run]
  simp only [getPtr]
  rw [Reader.bind_run]
  simp only [topOfTable]
  rw [Reader.bind_run]
  simp only [setPtr]
  rw [Reader.bind_run, hptr]
  rfl

/-! ### C69 -/

/-- A single positioning subtable that survives (C65). -/
def SinglePosOk (m : SinglePos) : Prop := BMap.Sorted m ∧ Coverable (m.map Prod.fst) ∧ m ≠ [] ∧
  ((∀ x ∈ m, NoDevices x.2) ∨ (UniformSingle m ∧ ∀ x ∈ m, x.2.xPlaDevice.isSome = x.2.yPlaDevice.isSome ∧
      ∀ d, some (some d) ∈ devices x.2 → DeviceOk d))

/-- A pair positioning subtable that survives (C15). -/
def PairPosOk (m : PairPos) : Prop := BMap.Sorted m ∧ Coverable ((m.map (fun x => x.1.1)).dedup) ∧
  (∀ g, (m.filter (fun x => x.1.1 = g)).length ≤ 65535) ∧ (∀ x ∈ m, NoDevices x.2.1 ∧ NoDevices x.2.2) ∧
  SameFields (m.map (fun x => x.2.1)) ∧ SameFields (m.map (fun x => x.2.2))

/-- Rules that can be written (C14–C16, C65–C67). -/
def PositioningOk : Positioning → Prop
  | .single l => l.length ≤ 65535 ∧ ∀ m ∈ l, SinglePosOk m
  | .pair l => l.length ≤ 65535 ∧ ∀ m ∈ l, PairPosOk m
  | .cursive l => l.length ≤ 65535 ∧ ∀ m ∈ l, BMap.Sorted m ∧ Coverable (m.map Prod.fst)
  | .markToBase l => l.length ≤ 65535 ∧ ∀ p ∈ l, MarksOk p.marks ∧ BasesOk p.bases
  | .markToLig l => l.length ≤ 65535 ∧ ∀ p ∈ l, MarksOk p.marks ∧ p.ligatures.length ≤ 1 ∧
      Coverable (p.ligatures.map Prod.fst) ∧
      ∀ x ∈ p.ligatures, x.2.length ≤ 65535 ∧ ∀ b ∈ x.2, BMap.Sorted b
  | .markToMark l => l.length ≤ 65535 ∧ ∀ p ∈ l, MarksOk p.marks ∧ BasesOk p.bases
  | .contextual l => l.flatten.length ≤ 65535 ∧ ∀ rules ∈ l, ∀ r ∈ rules, r = []
  | .chained l => l.flatten.length ≤ 65535 ∧ ∀ rules ∈ l, ∀ r ∈ rules, ChainedOk r

/-- What a rule is read back as: the same adjustments (zeros may be dropped or added), the anchors up to the largest
class of the marks, contextual subtables split into one per rule. -/
def SameRule : Positioning → Positioning → Prop
  | .single l, .single l' => List.Forall₂ SameSingle l l'
  | .pair l, .pair l' => List.Forall₂ SamePairs l l'
  | .cursive l, .cursive l' => l' = l
  | .markToBase l, .markToBase l' => l' = l.map keptMarkPos
  | .markToLig l, .markToLig l' => l' = l.map keptMarkLig
  | .contextual l, .contextual l' => l' = l.flatten.map (fun r => [r])
  | .chained l, .chained l' => l' = l.flatten.map (fun r => [r])
  | _, _ => False

def isMarkToMark : Positioning → Bool
  | .markToMark _ => true
  | _ => false

/-- A GPOS table that can be written. -/
def GposOk (g : GPOS) : Prop := g.lookups.length ≤ 65535 ∧
  (∀ l ∈ g.lookups, PositioningOk l.rule ∧ l.mfs.isSome = usesMfs l.flags) ∧ ScriptsOk g.scripts ∧ FeaturesOk g.features

/-- Two tables with the same rules in the sense of `SameRule`, the second without feature parameters. -/
def SameGpos (g g' : GPOS) : Prop :=
  List.Forall₂ (fun l l' => l'.flags = l.flags ∧ l'.mfs = l.mfs ∧ SameRule l.rule l'.rule) g.lookups g'.lookups ∧
  g'.scripts = g.scripts ∧ g'.features = withoutParams g.features

theorem forall₂_mem_right {α β : Type} {R : α → β → Prop} {l : List α} {l' : List β} (h : List.Forall₂ R l l') :
    ∀ b ∈ l', ∃ a ∈ l, R a b := by
  induction h with
  | nil => intro b hb; cases hb
  | cons h1 _ ih =>
    intro b hb
    rcases List.mem_cons.mp hb with rfl | hb
    · exact ⟨_, by simp, h1⟩
    · obtain ⟨a, ha, hr⟩ := ih b hb
      exact ⟨a, by simp [ha], hr⟩

/-- Subtables of a rule made one by one. -/
theorem subsOf_ok {α : Type} {f : α → Res Sub} {back : Sub → Res α} {R : α → α → Prop} {ty : Nat} (l : List α)
    (h : ∀ a ∈ l, ∃ low, f a = .ok low ∧ PosOk low ∧ posType low = ty ∧ ∃ a', back (posBack low) = .ok a' ∧ R a a') :
    ∃ (ss : List Sub) (l' : List α), subsOf f l = .ok (ss.map .plain) ∧ ss.length = l.length ∧ (∀ x ∈ ss, PosOk x ∧ posType x = ty) ∧
      Res.mapL back (ss.map posBack) = .ok l' ∧ List.Forall₂ R l l' := by
  obtain ⟨ss, h1, h2⟩ := mapL_ok (f := f) l
    (fun a low => PosOk low ∧ posType low = ty ∧ ∃ a', back (posBack low) = .ok a' ∧ R a a') h
  have h3 : ∃ l', Res.mapL back (ss.map posBack) = .ok l' ∧ List.Forall₂ R l l' := by
    clear h1 h
    induction h2 with
    | nil => exact ⟨[], rfl, .nil⟩
    | cons hab _ ih =>
      obtain ⟨_, _, a', e, hr⟩ := hab
      obtain ⟨l', e2, hf⟩ := ih
      exact ⟨a' :: l', by simp only [List.map_cons, Res.mapL, e, e2], .cons hr hf⟩
  obtain ⟨l', e, hf⟩ := h3
  refine ⟨ss, l', by simp only [subsOf, h1], h2.length_eq.symm, ?_, e, hf⟩
  intro x hx
  obtain ⟨a, _, hx⟩ := forall₂_mem_right h2 x hx
  exact ⟨hx.1, hx.2.1⟩

theorem forall₂_eq_map {α : Type} {k : α → α} {l l' : List α} (h : List.Forall₂ (fun a b => b = k a) l l') :
    l' = l.map k := by
  induction h with
  | nil => rfl
  | cons h1 _ ih => rw [h1, ih]; rfl

theorem subsOf_total {α : Type} (f : α → Sub) (l : List α) :
    subsOf (fun a => .ok (f a)) l = .ok (l.map (fun a => .plain (f a))) := by
  have := mapL_map_ok (f := fun a => .ok (f a)) (g := id) (k := f) l (fun a _ => rfl)
  rw [List.map_id] at this
  simp only [subsOf, this, List.map_map]; rfl

/-- The subtables of a fitting rule: plain, readable under the lookup type, and converted back to the rule unless it
is a mark-to-mark rule. -/
theorem posSubs_ok (s : Positioning) (h : PositioningOk s) (max : UInt16) :
    ∃ ss : List Sub, s.subs = .ok (ss.map .plain) ∧ ss.length ≤ 65535 ∧
      (∀ x ∈ ss, PosOk x ∧ posType x = s.type.toNat) ∧
      (isMarkToMark s = true → rulePlain max s.type.toNat (ss.map posBack) = .panic) ∧
      (isMarkToMark s = false → ∃ s', rulePlain max s.type.toNat (ss.map posBack) = .ok s' ∧ SameRule s s') := by
  cases s with
  | single l =>
    obtain ⟨ss, l', h1, h2, h3, h4, h5⟩ := subsOf_ok (f := SinglePos.toLow) (back := SinglePos.fromLow)
      (R := SameSingle) (ty := 1) l (fun m hm => by
        obtain ⟨a, b, c, d⟩ := h.2 m hm
        obtain ⟨low, m', e1, e2, e3, e4, e5⟩ := single_low m a b c d
        exact ⟨low, e1, e2, e3, m', e4, e5⟩)
    exact ⟨ss, h1, h2.trans_le h.1, h3, by simp [isMarkToMark],
      fun _ => ⟨.single l', by simp only [rulePlain, Positioning.type, convert]; simp [h4], h5⟩⟩
  | pair l =>
    obtain ⟨ss, l', h1, h2, h3, h4, h5⟩ := subsOf_ok (f := fun m => .ok (PairPos.toLow m)) (back := PairPos.fromLow max)
      (R := SamePairs) (ty := 2) l (fun m hm => by
        obtain ⟨a, b, c, d, e, f⟩ := h.2 m hm
        obtain ⟨e1, e2⟩ := pair_low m a b c d e f max
        refine ⟨_, rfl, e1, rfl, simplifyPairs m, e2, ?_, ?_⟩
        · simp only [simplifyPairs, List.map_map]; rfl
        · simp only [simplifyPairs, List.map_map]
          apply List.map_congr_left
          intro x _
          simp only [Function.comp_apply, (C10_simplify _).1])
    rw [subsOf_total] at h1
    exact ⟨ss, h1, h2.trans_le h.1, h3, by simp [isMarkToMark],
      fun _ => ⟨.pair l', by simp only [rulePlain, Positioning.type, convert]; simp [h4], h5⟩⟩
  | cursive l =>
    obtain ⟨ss, l', h1, h2, h3, h4, h5⟩ := subsOf_ok (f := fun m => .ok (CursivePos.toLow m)) (back := CursivePos.fromLow)
      (R := fun m m' => m' = id m) (ty := 3) l (fun m hm => by
        obtain ⟨hs, hc⟩ := h.2 m hm
        refine ⟨_, rfl, ⟨covLinkOk_keys hs hc, by simpa using keys_length hs hc⟩, rfl, m, ?_, rfl⟩
        simp only [CursivePos.toLow, posBack, CursivePos.fromLow, covGlyphs, Option.getD_some, BMap.map_fst_snd,
          BMap.collect_of_sorted hs])
    rw [subsOf_total] at h1
    exact ⟨ss, h1, h2.trans_le h.1, h3, by simp [isMarkToMark],
      fun _ => ⟨.cursive l', by simp only [rulePlain, Positioning.type, convert]; simp [h4],
        (forall₂_eq_map h5).trans (List.map_id l)⟩⟩
  | markToBase l =>
    obtain ⟨ss, l', h1, h2, h3, h4, h5⟩ := subsOf_ok (f := MarkPos.toLow .p4_1) (back := MarkPos.fromLow4)
      (R := fun m m' => m' = keptMarkPos m) (ty := 4) l (fun m hm => by
        obtain ⟨low, e1, e2, e3, e4, e5⟩ := (mark_low m (h.2 m hm).1 (h.2 m hm).2).1
        exact ⟨low, e1, e2, e3, _, by rw [e4]; exact e5, rfl⟩)
    exact ⟨ss, h1, h2.trans_le h.1, h3, by simp [isMarkToMark],
      fun _ => ⟨.markToBase l', by simp only [rulePlain, Positioning.type, convert]; simp [h4], forall₂_eq_map h5⟩⟩
  | markToLig l =>
    obtain ⟨ss, l', h1, h2, h3, h4, h5⟩ := subsOf_ok (f := MarkLigPos.toLow) (back := MarkLigPos.fromLow)
      (R := fun m m' => m' = keptMarkLig m) (ty := 5) l (fun m hm => by
        obtain ⟨a, b, c, d⟩ := h.2 m hm
        obtain ⟨low, e1, e2, e3, e4, e5⟩ := markLig_low m a b c d
        exact ⟨low, e1, e2, e3, _, by rw [e4]; exact e5, rfl⟩)
    exact ⟨ss, h1, h2.trans_le h.1, h3, by simp [isMarkToMark],
      fun _ => ⟨.markToLig l', by simp only [rulePlain, Positioning.type, convert]; simp [h4], forall₂_eq_map h5⟩⟩
  | markToMark l =>
    obtain ⟨ss, l', h1, h2, h3, _, _⟩ := subsOf_ok (f := MarkPos.toLow .p6_1) (back := MarkPos.fromLow6)
      (R := fun m m' => m' = keptMarkPos m) (ty := 6) l (fun m hm => by
        obtain ⟨low, e1, e2, e3, e4, e5⟩ := (mark_low m (h.2 m hm).1 (h.2 m hm).2).2
        exact ⟨low, e1, e2, e3, _, by rw [e4]; exact e5, rfl⟩)
    exact ⟨ss, h1, h2.trans_le h.1, h3, fun _ => rfl, by simp [isMarkToMark]⟩
  | contextual l =>
    have hr : ∀ r ∈ l.flatten, r = [] := by
      intro r hr
      obtain ⟨rules, h1, h2⟩ := List.mem_flatten.mp hr
      exact h.2 rules h1 r h2
    refine ⟨l.flatten.map (fun r => .ctx (ctxTo3 r)), by simp only [Positioning.subs, List.map_map]; rfl,
      by rw [List.length_map]; exact h.1, ?_, by simp [isMarkToMark], fun _ => ⟨.contextual (l.flatten.map (fun r => [r])), ?_, rfl⟩⟩
    · intro x hx
      obtain ⟨r, hm, rfl⟩ := List.mem_map.mp hx
      rw [hr r hm]
      exact ⟨⟨⟨rfl, rfl, by simp⟩, .inl rfl⟩, rfl⟩
    · have := mapL_map_ok (f := ctxOf max) (g := fun r => posBack (.ctx (ctxTo3 r))) (k := fun r => [r]) l.flatten
        (fun r hm => by rw [hr r hm]; rfl)
      show convert (ctxOf max) .contextual _ = _
      simp only [convert, List.map_map, Function.comp_def, this]
  | chained l =>
    have hr : ∀ r ∈ l.flatten, ChainedOk r := by
      intro r hr
      obtain ⟨rules, h1, h2⟩ := List.mem_flatten.mp hr
      exact h.2 rules h1 r h2
    refine ⟨l.flatten.map (fun r => .ctx (chainTo3 r)), by simp only [Positioning.subs, List.map_map]; rfl,
      by rw [List.length_map]; exact h.1, ?_, by simp [isMarkToMark], fun _ => ⟨.chained (l.flatten.map (fun r => [r])), ?_, rfl⟩⟩
    · intro x hx
      obtain ⟨r, hm, rfl⟩ := List.mem_map.mp hx
      exact ⟨⟨subOk_chain (hr r hm), .inr rfl⟩, rfl⟩
    · have := mapL_map_ok (f := chainOf max) (g := fun r => posBack (.ctx (chainTo3 r))) (k := fun r => [r]) l.flatten
        (fun r hm => by
          have h := hr r hm
          exact C14_chained_roundtrip max r (fun s hs => (h.2.1 s hs).1)
            (fun s hs => (h.2.2.2.1 s hs).1) (fun x hx => (h.2.2.2.2.2.1 x hx).1) (by have := h.2.2.2.2.1; omega))
      show convert (chainOf max) .chained _ = _
      simp only [convert, List.map_map, Function.comp_def, this]

theorem mapL_posPlain (l : List Sub) : Res.mapL asPlain (l.map .plain) = .ok l := by
  have := mapL_map_ok (f := asPlain) (g := SubX.plain) (k := id) l (fun _ _ => rfl)
  simpa using this

theorem type_ne_nine (s : Positioning) : s.type.toNat ≠ 9 := by cases s <;> simp [Positioning.type]

theorem ruleOf_plain (max : UInt16) {ty : Nat} (h : ty ≠ 9) (l : List Sub) :
    ruleOf max ty (l.map .plain) = rulePlain max ty l := by
  simp only [ruleOf, if_neg h, mapL_posPlain]

/-- What is known of the low-level form of a fitting lookup. -/
def LookupMade (max : UInt16) (l : Lookup Positioning) (low : LookupLow SubX) : Prop :=
  LookupFits low ∧ low.type = l.rule.type ∧
  (∃ ss : List Sub, low.subs = ss.map .plain ∧ ∀ x ∈ ss, PosOk x ∧ posType x = low.type.toNat) ∧
  (isMarkToMark l.rule = true → Lookup.ofLow (ruleOf max) (backLookup backX low) = .panic) ∧
  (isMarkToMark l.rule = false → ∃ l', Lookup.ofLow (ruleOf max) (backLookup backX low) = .ok l' ∧
    l'.flags = l.flags ∧ l'.mfs = l.mfs ∧ SameRule l.rule l'.rule)

theorem posLookup_ok (l : Lookup Positioning) (h : PositioningOk l.rule) (hm : l.mfs.isSome = usesMfs l.flags)
    (max : UInt16) : ∃ low, Lookup.toLow Positioning.type Positioning.subs l = .ok low ∧ LookupMade max l low := by
  obtain ⟨ss, h1, h2, h3, h4, h5⟩ := posSubs_ok l.rule h max
  have hb : (ss.map SubX.plain).map backX = (ss.map posBack).map SubX.plain := by
    simp only [List.map_map]; rfl
  have key : ruleOf max l.rule.type.toNat ((ss.map SubX.plain).map backX) =
      rulePlain max l.rule.type.toNat (ss.map posBack) := by
    rw [hb, ruleOf_plain max (type_ne_nine _)]
  refine ⟨_, by simp only [Lookup.toLow, h1]; rfl, ⟨by simpa using h2, hm⟩, rfl, ⟨ss, rfl, h3⟩, ?_, ?_⟩
  · intro hk
    simp only [Lookup.ofLow, backLookup, key, h4 hk]
  · intro hk
    obtain ⟨s', e, hs⟩ := h5 hk
    exact ⟨⟨l.flags, l.mfs, s'⟩, by simp only [Lookup.ofLow, backLookup, key, e], rfl, rfl, hs⟩

theorem made_writes {max : UInt16} {l : Lookup Positioning} {low : LookupLow SubX} (h : LookupMade max l low) :
    ∀ s ∈ low.subs, WritesAs SubX.tab (SubX.read low.type.toNat) s (backX s) := by
  obtain ⟨_, _, ⟨ss, e, hs⟩, _⟩ := h
  intro s hm
  rw [e] at hm
  obtain ⟨x, hx, rfl⟩ := List.mem_map.mp hm
  exact writes_posPlain (hs x hx).1 (hs x hx).2

/-- Converting the lookups that were read back: the rules, or a panic if there is a mark-to-mark rule. -/
theorem lookups_back {max : UInt16} {ls : List (Lookup Positioning)} {lows : List (LookupLow SubX)}
    (h : List.Forall₂ (LookupMade max) ls lows) :
    ((∃ l ∈ ls, isMarkToMark l.rule = true) →
      Res.mapL (Lookup.ofLow (ruleOf max)) (lows.map (backLookup backX)) = .panic) ∧
    ((∀ l ∈ ls, isMarkToMark l.rule = false) →
      ∃ ls', Res.mapL (Lookup.ofLow (ruleOf max)) (lows.map (backLookup backX)) = .ok ls' ∧
      List.Forall₂ (fun l l' => l'.flags = l.flags ∧ l'.mfs = l.mfs ∧ SameRule l.rule l'.rule) ls ls') := by
  induction h with
  | nil => exact ⟨fun h => by simp at h, fun _ => ⟨[], rfl, .nil⟩⟩
  | cons hab _ ih =>
    rename_i a b la lb _
    obtain ⟨_, _, _, hp, hk⟩ := hab
    constructor
    · rintro ⟨l, hl, hm⟩
      simp only [List.map_cons, Res.mapL]
      cases ha : isMarkToMark a.rule with
      | true => rw [hp ha]
      | false =>
        obtain ⟨l', e, _⟩ := hk ha
        rw [e]
        have : ∃ l ∈ la, isMarkToMark l.rule = true := by
          rcases List.mem_cons.mp hl with rfl | hl
          · rw [hm] at ha; cases ha
          · exact ⟨l, hl, hm⟩
        rw [ih.1 this]
    · intro hall
      obtain ⟨l', e, hs⟩ := hk (hall a (by simp))
      obtain ⟨ls', e2, hf⟩ := ih.2 (fun l hl => hall l (by simp [hl]))
      exact ⟨l' :: ls', by simp only [List.map_cons, Res.mapL, e, e2], .cons hs hf⟩

theorem posTable_ok (g : GPOS) (h : GposOk g) (max : UInt16) :
    ∃ lows : List (LookupLow SubX), List.Forall₂ (LookupMade max) g.lookups lows ∧
      g.toLow Positioning.type Positioning.subs =
        .ok ⟨1, 0, some g.scripts.toLow, some g.features.toLow, some (lows.map some)⟩ ∧
      TableFitsAs SubX.tab SubX.read backX
        ⟨1, 0, some g.scripts.toLow, some g.features.toLow, some (lows.map some)⟩ := by
  obtain ⟨h1, h2, h3, h4⟩ := h
  obtain ⟨lows, e, hall⟩ := mapL_ok (f := Lookup.toLow Positioning.type Positioning.subs) g.lookups (LookupMade max)
    (fun l hl => posLookup_ok l (h2 l hl).1 (h2 l hl).2 max)
  refine ⟨lows, hall, by simp only [GposGsub.toLow, e], ?_, ?_, ?_⟩
  · intro s hs
    obtain rfl := Option.some.inj hs
    exact scripts_fit h3
  · intro s hs
    obtain rfl := Option.some.inj hs
    exact features_fit h4
  · intro l hl
    obtain rfl := Option.some.inj hl
    refine ⟨by rw [List.length_map, ← hall.length_eq]; exact h1, ?_⟩
    intro x hx
    obtain ⟨y, hy, ey⟩ := List.mem_map.mp hx
    obtain rfl := Option.some.inj ey
    obtain ⟨a, _, hm⟩ := forall₂_mem_right hall y hy
    exact ⟨hm.1, made_writes hm⟩

/-- Conversion of a table that was read back. -/
theorem ofLow_back (max : UInt16) (g : GPOS) (lows : List (LookupLow SubX)) (hs : ScriptsOk g.scripts)
    (hf : FeaturesOk g.features) :
    GposGsub.ofLow (ruleOf max) (backTable backX
      ⟨1, 0, some g.scripts.toLow, some g.features.toLow, some (lows.map some)⟩) =
    (match Res.mapL (Lookup.ofLow (ruleOf max)) (lows.map (backLookup backX)) with
      | .ok ls => .ok ⟨ls, g.scripts, withoutParams g.features⟩
      | .err => .err
      | .panic => .panic) := by
  have e : ((lows.map some).map (Option.map (backLookup backX))).filterMap id = lows.map (backLookup backX) := by
    simp only [List.map_map, List.filterMap_map]
    exact List.filterMap_eq_map.symm ▸ rfl
  simp only [GposGsub.ofLow, backTable, Option.getD_some, Option.map_some, e, scripts_low hs, features_low hf]
  cases Res.mapL (Lookup.ofLow (ruleOf max)) (lows.map (backLookup backX)) <;> rfl

/-- **C69.** Whenever a GPOS table whose contents fit the format and which has no mark-to-mark lookup is written,
reading the bytes gives the same lookups with the same flags and mark filtering sets in the same order, the same
scripts and the same features without parameters. -/
theorem C69_roundtrip (g : GPOS) (h : GposOk g) (hm : ∀ l ∈ g.lookups, isMarkToMark l.rule = false) (max : UInt16)
    (bs : Bytes) (hbs : GPOS.toBytes g = .ok bs) :
    ∃ g' r', GPOS.read max (Rd.new bs) = .ok (g', r') ∧ SameGpos g g' := by
  obtain ⟨lows, hall, e, hf⟩ := posTable_ok g h max
  obtain ⟨tab, e2, hr⟩ := read_tableAs (ruleOf max) _ hf rfl rfl
  unfold GPOS.toBytes GposGsub.toBytes at hbs
  rw [e] at hbs
  simp only [Res.ok_bind] at hbs
  rw [e2] at hbs
  obtain ⟨r', e3⟩ := hr bs hbs
  obtain ⟨ls', e4, h5⟩ := (lookups_back hall).2 hm
  rw [ofLow_back max g lows h.2.2.1 h.2.2.2, e4] at e3
  exact ⟨_, _, e3, h5, rfl, rfl⟩

/-- **C69.** If it has a mark-to-mark lookup, the bytes are written but reading them panics. -/
theorem C69_mark_to_mark_panics (g : GPOS) (h : GposOk g) (hm : ∃ l ∈ g.lookups, isMarkToMark l.rule = true)
    (max : UInt16) (bs : Bytes) (hbs : GPOS.toBytes g = .ok bs) : GPOS.read max (Rd.new bs) = .panic := by
  obtain ⟨lows, hall, e, hf⟩ := posTable_ok g h max
  obtain ⟨tab, e2, hr⟩ := read_tableAs (ruleOf max) _ hf rfl rfl
  unfold GPOS.toBytes GposGsub.toBytes at hbs
  rw [e] at hbs
  simp only [Res.ok_bind] at hbs
  rw [e2] at hbs
  obtain ⟨r', e3⟩ := hr bs hbs
  rw [ofLow_back max g lows h.2.2.1 h.2.2.2, (lookups_back hall).1 hm] at e3
  exact e3

/-- Rules that no table can be written with: single positioning of no glyph (as after `add_subtable_break`) or of
different adjustments with a device, marks of class 65535, plain contexts with an input position. -/
def UnwritableRule : Positioning → Prop
  | .single l => [] ∈ l ∨ ∃ m ∈ l, BMap.Sorted m ∧ Coverable (m.map Prod.fst) ∧ ¬ UniformSingle m ∧
      ∃ x ∈ m, ∃ d, some (some d) ∈ devices x.2
  | .markToBase l => ∃ p ∈ l, ∃ x ∈ p.marks, x.2.1.toNat = 65535
  | .markToMark l => ∃ p ∈ l, ∃ x ∈ p.marks, x.2.1.toNat = 65535
  | .markToLig l => ∃ p ∈ l, ∃ x ∈ p.marks, x.2.1.toNat = 65535
  | .contextual l => ∃ rules ∈ l, ∃ r ∈ rules, r ≠ []
  | _ => False

theorem subsOf_no {α : Type} {f : α → Res Sub} {l : List α} (h : ∃ a ∈ l, ∀ b, f a ≠ .ok b) :
    ∀ ss, subsOf f l ≠ .ok ss := by
  intro ss hs
  simp only [subsOf] at hs
  cases e : Res.mapL f l with
  | ok x => exact mapL_no l h x e
  | err => rw [e] at hs; cases hs
  | panic => rw [e] at hs; cases hs

/-- **C69.** A table with such a rule is never written. -/
theorem C69_unwritable (g : GPOS) (h : ∃ l ∈ g.lookups, UnwritableRule l.rule) (bs : Bytes) : GPOS.toBytes g ≠ .ok bs := by
  obtain ⟨l, hl, hu⟩ := h
  refine toBytes_no g l hl ?_ bs
  intro ss hss
  generalize l.rule = rule at hu hss
  cases rule with
  | single l =>
    rcases hu with hu | ⟨m, hm, hs, hc, hne, hd⟩
    · exact absurd hss (subsOf_no ⟨[], hu, by intro b hb; cases hb⟩ ss)
    · obtain ⟨low, e1, e2⟩ := C65_devices_fail m hs hc hne hd
      simp only [Positioning.subs, subsOf] at hss
      cases e : Res.mapL SinglePos.toLow l with
      | ok x =>
        rw [e] at hss
        simp only [Res.ok.injEq] at hss
        subst hss
        obtain ⟨b, hb, e3⟩ := mapL_mem e m hm
        rw [e1] at e3
        obtain rfl := Res.ok.inj e3
        exact ⟨.plain low, List.mem_map.mpr ⟨low, hb, rfl⟩, by intro t ht; simp only [SubX.tab, e2] at ht; cases ht⟩
      | err => rw [e] at hss; cases hss
      | panic => rw [e] at hss; cases hss
  | markToBase l =>
    obtain ⟨p, hp, hx⟩ := hu
    refine absurd hss (subsOf_no ⟨p, hp, ?_⟩ ss)
    rw [C16_last_class_panics p hx]; intro b hb; cases hb
  | markToMark l =>
    obtain ⟨p, hp, hx⟩ := hu
    refine absurd hss (subsOf_no ⟨p, hp, ?_⟩ ss)
    rw [C16_last_class_panics p hx]; intro b hb; cases hb
  | markToLig l =>
    obtain ⟨p, hp, hx⟩ := hu
    refine absurd hss (subsOf_no ⟨p, hp, ?_⟩ ss)
    simp only [MarkLigPos.toLow, classCount_panics _ _ hx, bind, Res.bind]; intro b hb; cases hb
  | contextual l =>
    obtain ⟨rules, hr, r, hr', hne⟩ := hu
    simp only [Positioning.subs, Res.ok.injEq] at hss
    subst hss
    refine ⟨.plain (.ctx (ctxTo3 r)), List.mem_map.mpr ⟨r, List.mem_flatten.mpr ⟨rules, hr, hr'⟩, rfl⟩, ?_⟩
    intro t ht
    simp only [SubX.tab, Sub.tab, C14_plain_never_written r hne] at ht
    cases ht
  | pair l => exact hu.elim
  | cursive l => exact hu.elim
  | chained l => exact hu.elim

example : UnwritableRule (.single [[(10, { xAdvance := some 5 })], []]) ∧ UnwritableRule (.contextual [[[([5], [0])]]]) :=
  ⟨.inl (by simp), ⟨[[([5], [0])]], by simp, [([5], [0])], by simp, by simp⟩⟩

/-- A table with lookups of several kinds, a script and a feature. -/
def sampleGpos : GPOS :=
  ⟨[⟨0, none, .single [[(10, { xAdvance := some 5 }), (11, { xAdvance := some 0, yPlacement := some (-3) })]]⟩,
    ⟨0x10, some 3, .pair [[((7, 8), ({ xAdvance := some (-20) }, {})), ((7, 9), ({ xAdvance := some 4 }, {}))]]⟩,
    ⟨1, none, .cursive [[(40, (some ⟨1, 2, none⟩, none))]]⟩,
    ⟨0, none, .markToBase [⟨[(10, [(0, ⟨1, 2, none⟩), (1, ⟨3, 4, none⟩)])], [(50, (0, ⟨5, 6, none⟩))]⟩]⟩],
   [(⟨0x6C, 0x61, 0x74, 0x6E⟩, ⟨some ⟨none, [0]⟩, []⟩)],
   [(⟨0x6B, 0x65, 0x72, 0x6E⟩, [0, 1], none)]⟩

set_option maxRecDepth 100000 in
example : (match GPOS.toBytes sampleGpos with | .ok bs => decide (100 < bs.length) | _ => false) = true := by
  decide +kernel

theorem script_sample : ScriptsOk sampleGpos.scripts := by
  refine ⟨by simp [sampleGpos, BMap.Sorted], by decide, ?_⟩
  intro x hx
  simp only [sampleGpos, List.mem_cons, List.not_mem_nil, or_false] at hx
  subst hx
  refine ⟨by decide, ?_, by simp [BMap.Sorted], by decide, by simp⟩
  intro l hl
  obtain rfl := Option.some.inj hl
  exact ⟨by simp, by decide, by decide⟩

theorem sampleGpos_ok : GposOk sampleGpos := by
  refine ⟨by decide, ?_, script_sample, ?_⟩
  · intro l hl
    simp only [sampleGpos, List.mem_cons, List.not_mem_nil, or_false] at hl
    rcases hl with rfl | rfl | rfl | rfl
    · refine ⟨⟨by decide, ?_⟩, rfl⟩
      intro m hm
      simp only [List.mem_cons, List.not_mem_nil, or_false] at hm
      subst hm
      exact ⟨by simp [BMap.Sorted, Key.lt], .inl (by decide), by simp, .inl (by simp [NoDevices])⟩
    · refine ⟨⟨by decide, ?_⟩, rfl⟩
      intro m hm
      simp only [List.mem_cons, List.not_mem_nil, or_false] at hm
      subst hm
      refine ⟨by simp [BMap.Sorted, Key.lt], .inl (by decide), ?_, by simp [NoDevices], ?_, ?_⟩
      · intro g
        refine le_trans (List.length_filter_le _ _) (by decide)
      · simp [SameFields, nonZero, adjustment]
      · simp [SameFields, nonZero]
    · refine ⟨⟨by decide, ?_⟩, rfl⟩
      intro m hm
      simp only [List.mem_cons, List.not_mem_nil, or_false] at hm
      subst hm
      exact ⟨by simp [BMap.Sorted], .inl (by decide)⟩
    · refine ⟨⟨by decide, ?_⟩, rfl⟩
      intro m hm
      simp only [List.mem_cons, List.not_mem_nil, or_false] at hm
      subst hm
      exact ⟨⟨by simp [BMap.Sorted], .inl (by decide), by simp⟩, ⟨by simp [BMap.Sorted], .inl (by decide),
        by simp [BMap.Sorted, Key.lt]⟩⟩
  · refine ⟨by decide, ?_⟩
    intro x hx
    simp only [sampleGpos, List.mem_cons, List.not_mem_nil, or_false] at hx
    subst hx
    exact ⟨by decide, by decide, by decide⟩

/-- A table with a mark-to-mark lookup can be written. -/
example : GposOk ⟨[⟨0, none, .markToMark [⟨[(10, [(0, ⟨1, 2, none⟩)])], [(50, (0, ⟨5, 6, none⟩))]⟩]⟩], [], []⟩ ∧
    (GPOS.toBytes ⟨[⟨0, none, .markToMark [⟨[(10, [(0, ⟨1, 2, none⟩)])], [(50, (0, ⟨5, 6, none⟩))]⟩]⟩], [], []⟩ matches
      .ok _) = true := by
  refine ⟨⟨by decide, ?_, ⟨by simp [BMap.Sorted], by decide, by simp⟩, by decide, by simp⟩, by decide +kernel⟩
  intro l hl
  simp only [List.mem_cons, List.not_mem_nil, or_false] at hl
  subst hl
  refine ⟨⟨by decide, ?_⟩, rfl⟩
  intro m hm
  simp only [List.mem_cons, List.not_mem_nil, or_false] at hm
  subst hm
  exact ⟨⟨by simp [BMap.Sorted], .inl (by decide), by simp⟩, ⟨by simp [BMap.Sorted], .inl (by decide),
    by simp [BMap.Sorted]⟩⟩

/-! ### C70 -/

def wrapPos (ty : UInt16) : SubX → SubX
  | .plain s => .ext 1 ty s
  | e => e

/-- The lookup with its subtables moved into extension subtables. -/
def wrapPosExt (l : LookupLow SubX) : LookupLow SubX := ⟨9, l.flag, l.subs.map (wrapPos l.type), l.mfs⟩

/-- A lookup of a file and the lookup another writer might have put there instead. -/
def MaybeWrappedPos (l l' : LookupLow SubX) : Prop :=
  l' = l ∨ (l.type.toNat ≤ 6 ∧ l.subs ≠ [] ∧ l' = wrapPosExt l)

/-- Wrapping the (ordinary) subtables of a lookup does not change the rule that is made of what is read back. -/
theorem wrapped_rule (max : UInt16) (l : LookupLow SubX) (ss : List Sub) (hss : l.subs = ss.map .plain)
    (hne : l.subs ≠ []) (h9 : l.type.toNat ≠ 9) :
    Lookup.ofLow (ruleOf max) (backLookup backX (wrapPosExt l)) = Lookup.ofLow (ruleOf max) (backLookup backX l) := by
  have e1 : Res.mapL asExt (((ss.map SubX.plain).map (wrapPos l.type)).map backX) =
      .ok (ss.map (fun s => (l.type, posBack s))) := by
    rw [List.map_map, List.map_map]
    exact mapL_map_ok ss (fun _ _ => rfl)
  have e2 : ruleOf max l.type.toNat ((ss.map SubX.plain).map backX) = rulePlain max l.type.toNat (ss.map posBack) := by
    have : (ss.map SubX.plain).map backX = (ss.map posBack).map SubX.plain := by simp only [List.map_map]; rfl
    rw [this, ruleOf_plain max h9]
  have : ruleOf max 9 (((ss.map SubX.plain).map (wrapPos l.type)).map backX) =
      ruleOf max l.type.toNat ((ss.map SubX.plain).map backX) := by
    rw [e2]
    unfold ruleOf
    rw [if_pos rfl, e1]
    cases ss with
    | nil => exact absurd hss hne
    | cons a ss =>
      simp only [List.map_cons]
      rw [if_pos (by simp)]
      simp [Function.comp_def]
  simp only [Lookup.ofLow, wrapPosExt, backLookup, hss]
  rw [show ((9 : UInt16).toNat) = 9 from rfl, this]

/-- **C70.** If the low-level form of a fitting table is changed by wrapping the subtables of any selection of its
lookups (types 1 to 6, not empty) in extension subtables, then reading the resulting bytes gives exactly what
reading the unwrapped table gives, or panics if that panics. -/
theorem C70_table (g : GPOS) (h : GposOk g) (max : UInt16) (low : TableLow SubX)
    (hlow : g.toLow Positioning.type Positioning.subs = .ok low) (lows lows' : List (LookupLow SubX))
    (hl : low.lookups = some (lows.map some)) (hw : List.Forall₂ MaybeWrappedPos lows lows')
    (tab tab' : Tab) (bs bs' : Bytes) (htab : TableLow.tab SubX.tab low = .ok tab) (hbs : Off.toBytes tab = .ok bs)
    (htab' : TableLow.tab SubX.tab { low with lookups := some (lows'.map some) } = .ok tab')
    (hbs' : Off.toBytes tab' = .ok bs') :
    (∀ l ∈ g.lookups, isMarkToMark l.rule = false) ∧ (∃ g' r r', GPOS.read max (Rd.new bs) = .ok (g', r) ∧
      GPOS.read max (Rd.new bs') = .ok (g', r') ∧ SameGpos g g') ∨
    (∃ l ∈ g.lookups, isMarkToMark l.rule = true) ∧ GPOS.read max (Rd.new bs) = .panic ∧
      GPOS.read max (Rd.new bs') = .panic := by
  obtain ⟨lows2, hall, e, hf⟩ := posTable_ok g h max
  rw [hlow] at e
  obtain rfl := Res.ok.inj e
  have : lows = lows2 :=
    ((List.map_injective_iff.mpr (fun _ _ h => Option.some.inj h)) (Option.some.inj hl)).symm
  subst this
  have hmade : ∀ l ∈ lows, ∃ a, LookupMade max a l := fun l hl => by
    obtain ⟨a, _, h⟩ := forall₂_mem_right hall l hl
    exact ⟨a, h⟩
  have hf' : TableFitsAs SubX.tab SubX.read backX
      ⟨1, 0, some g.scripts.toLow, some g.features.toLow, some (lows'.map some)⟩ := by
    refine ⟨hf.1, hf.2.1, ?_⟩
    intro ll hll
    obtain rfl := Option.some.inj hll
    refine ⟨by simpa [← hw.length_eq] using (hf.2.2 _ rfl).1, ?_⟩
    intro x hx
    obtain ⟨y, hy, ey⟩ := List.mem_map.mp hx
    obtain rfl := Option.some.inj ey
    obtain ⟨a, ha, hab⟩ := forall₂_mem_right hw y hy
    obtain ⟨b, hb⟩ := hmade a ha
    rcases hab with rfl | ⟨h6, _, rfl⟩
    · exact ⟨hb.1, made_writes hb⟩
    · obtain ⟨e3, _, ⟨ss, e1, e2⟩, _⟩ := hb
      refine ⟨⟨by simpa [wrapPosExt] using e3.1, e3.2⟩, ?_⟩
      intro s hs
      simp only [wrapPosExt, e1, List.map_map] at hs
      obtain ⟨z, hz, rfl⟩ := List.mem_map.mp hs
      exact writes_posExt (e2 z hz).1 (e2 z hz).2 h6
  have hsame : Res.mapL (Lookup.ofLow (ruleOf max)) (lows'.map (backLookup backX)) =
      Res.mapL (Lookup.ofLow (ruleOf max)) (lows.map (backLookup backX)) := by
    clear hf hf' hall htab htab' hlow hl e
    induction hw with
    | nil => rfl
    | cons hab _ ih =>
      rename_i a b la lb _
      have : Lookup.ofLow (ruleOf max) (backLookup backX b) = Lookup.ofLow (ruleOf max) (backLookup backX a) := by
        rcases hab with rfl | ⟨h6, hne, rfl⟩
        · rfl
        · obtain ⟨c, _, _, ⟨ss, e1, _⟩, _⟩ := hmade a (by simp)
          exact wrapped_rule max a ss e1 hne (by omega)
      simp only [List.map_cons, Res.mapL, this, ih (fun l hl => hmade l (by simp [hl]))]
  obtain ⟨t1, e1, hr1⟩ := read_tableAs (ruleOf max) _ hf rfl rfl
  obtain ⟨t2, e2, hr2⟩ := read_tableAs (ruleOf max) _ hf' rfl rfl
  rw [htab] at e1
  obtain rfl := Res.ok.inj e1
  rw [htab'] at e2
  obtain rfl := Res.ok.inj e2
  obtain ⟨r1, q1⟩ := hr1 bs hbs
  obtain ⟨r2, q2⟩ := hr2 bs' hbs'
  rw [ofLow_back max g lows h.2.2.1 h.2.2.2] at q1
  rw [ofLow_back max g lows' h.2.2.1 h.2.2.2, hsame] at q2
  by_cases hm : ∃ l ∈ g.lookups, isMarkToMark l.rule = true
  · right
    rw [(lookups_back hall).1 hm] at q1 q2
    exact ⟨hm, q1, q2⟩
  · left
    have hm' : ∀ l ∈ g.lookups, isMarkToMark l.rule = false := by
      intro l hl
      by_contra hc
      exact hm ⟨l, hl, by simpa using hc⟩
    obtain ⟨ls', e4, h5⟩ := (lookups_back hall).2 hm'
    rw [e4] at q1 q2
    exact ⟨hm', _, _, _, q1, q2, h5, rfl, rfl⟩

/-- **C70.** An extension subtable that wraps a lookup type above 6 (in particular contextual and chained positioning,
7 and 8, which the format allows) is rejected, whatever follows. -/
theorem C70_context_rejected (fmt ty : UInt16) (h : 6 < ty.toNat) (rest : Bytes) :
    SubX.read 9 (Rd.new (encU16 fmt ++ (encU16 ty ++ rest))) = .err := by
  have e1 := reads_u16 fmt [] (encU16 ty ++ rest) [0, 0]
  have e2 := reads_u16 ty (encU16 fmt) rest [0, 0]
  simp only [List.nil_append, List.length_nil] at e1
  rw [List.append_assoc] at e2
  unfold SubX.read readExt inTable
  rw [if_pos rfl, Reader.bind_run]
  simp only [pushTop, Rd.new]
  rw [Reader.bind_run, Reader.bind_run, e1]
  simp only
  rw [Reader.bind_run, show 0 + (encU16 fmt).length = (encU16 fmt).length by simp, e2]
  simp only
  rw [if_pos h]
  rfl

/-- **C70.** An extension lookup without subtables makes the reader panic, although an ordinary lookup without
subtables is read. -/
theorem C70_empty_panics (max : UInt16) (flag : UInt16) (mfs : Option UInt16) :
    Lookup.ofLow (ruleOf max) ⟨9, flag, [], mfs⟩ = .panic ∧
    Lookup.ofLow (ruleOf max) ⟨1, flag, [], mfs⟩ = .ok ⟨flag, mfs, .single []⟩ := ⟨rfl, rfl⟩

/-- A pair lookup wrapped in an extension is read like the plain one. -/
example : MaybeWrappedPos ⟨2, 0, [.plain (PairPos.toLow [((7, 8), ({ xAdvance := some 4 }, {}))])], none⟩
    ⟨9, 0, [.ext 1 2 (PairPos.toLow [((7, 8), ({ xAdvance := some 4 }, {}))])], none⟩ :=
  .inr ⟨by decide, by simp, rfl⟩

end FT.Props
