import Verif.Lemmas.Layout

/-!
Every GSUB subtable is read back as written.
-/

namespace FT
open Reader FT.Off FT.Props FT.Lay FT.Gsub

theorem reads_u16s (l : List UInt16) (hl : l.length ≤ 65535) : Reads readU16s (u16s l) l :=
  reads_counted l hl (fun x _ => reads_u16 x)

theorem u16s_pos (l : List UInt16) : 0 < (u16s l).length := by simp [u16s, encCounted]; omega

theorem readsTab_u16s (l : List UInt16) (hl : l.length ≤ 65535) : ReadsTab readU16s (.bytes (u16s l)) l :=
  (reads_u16s l hl).tab (u16s_pos l)

theorem reads_rec (r : LookupRec) : Reads readRec (encRec r) r :=
  (reads_u16 r.1).bind (Reads.map (fun b => (r.1, b)) (reads_u16 r.2))

theorem readsTab_recs (l : List LookupRec) (hl : l.length ≤ 65535) :
    ReadsTab (readCounted readRec) (.bytes (encCounted encRec l)) l :=
  (reads_counted l hl (fun x _ => reads_rec x)).tab (by simp [encCounted]; omega)

/-- Peeking at the format before reading the table. -/
theorem readsChild_peek {α : Type} {f : Bytes → Reader α} {p : Reader α} {k : UInt16} {u : Tab} {a : α}
    (h : ReadsChild p ((Tab.bytes (encU16 k)).append u) a) (hf : f (encU16 k) = p) :
    ReadsChild (peekFormat >>= f) ((Tab.bytes (encU16 k)).append u) a := by
  intro B base ext stk hlen hh
  obtain ⟨ptr, e⟩ := h B base ext stk hlen hh
  refine ⟨ptr, ?_⟩
  obtain ⟨post, hp⟩ := hh.1
  have hl : 2 ≤ (B.drop base).length := by rw [← hp]; simp
  rw [List.length_drop] at hl
  rw [Reader.bind_run]
  have : peekFormat ⟨B, base, stk⟩ = .ok (encU16 k, ⟨B, base, stk⟩) := by
    unfold peekFormat peek
    simp only
    rw [if_neg (by omega), ← hp, List.take_left' (by simp)]
  rw [this]
  simp only [hf, e]

theorem readsChild_peekBytes {α : Type} {f : Bytes → Reader α} {p : Reader α} {k : UInt16} {bs : Bytes} {a : α}
    (h : ReadsChild p (.bytes (encU16 k ++ bs)) a) (hf : f (encU16 k) = p) :
    ReadsChild (peekFormat >>= f) (.bytes (encU16 k ++ bs)) a := by
  intro B base ext stk hlen hh
  obtain ⟨ptr, e⟩ := h B base ext stk hlen hh
  refine ⟨ptr, ?_⟩
  obtain ⟨post, hp⟩ := hh.1
  have hl : 2 ≤ (B.drop base).length := by rw [← hp]; simp
  rw [List.length_drop] at hl
  rw [Reader.bind_run]
  have : peekFormat ⟨B, base, stk⟩ = .ok (encU16 k, ⟨B, base, stk⟩) := by
    unfold peekFormat peek
    simp only
    rw [if_neg (by omega), ← hp, List.append_assoc, List.take_left' (by simp)]
  rw [this]
  simp only [hf, e]

theorem flatten_nulls : ∀ (covs : List Cov),
    (covs.map (fun _ => encU16 0)).flatten = encVec (fun _ => encU16 0) covs
  | [] => rfl
  | c :: l => by simp only [List.map_cons, List.flatten_cons, flatten_nulls l]; rfl

/-- Specification: coverage link that survives. -/
def CovLinkOk (c : Cov) : Prop := ∀ gs, c = some gs → CovOk gs
def CovsOk (l : List Cov) : Prop := l.length ≤ 65535 ∧ ∀ gs, some gs ∈ l → CovOk gs
def ClassLinkOk (c : Option ClassMap) : Prop := ∀ m, c = some m → ClassOk m

/-- Sets of rules: all counts fit, all rules satisfy `P`. -/
def SetsOk {α : Type} (P : α → Prop) (sets : List (Option (List (Option α)))) : Prop :=
  sets.length ≤ 65535 ∧ ∀ s, some s ∈ sets → s.length ≤ 65535 ∧ ∀ a, some a ∈ s → P a

def LigOk (l : Ligature) : Prop := l.components.length ≤ 65534
def SeqRuleOk (r : SeqRule) : Prop :=
  r.glyphCount.toNat = r.input.length + 1 ∧ r.seqLookupCount.toNat = r.recs.length
def ChainRuleOk (r : ChainRule) : Prop :=
  r.backtrack.length ≤ 65535 ∧ r.inputGlyphCount.toNat = r.input.length + 1 ∧ r.lookahead.length ≤ 65535 ∧
  r.recs.length ≤ 65535

/-- Specification: what a subtable must satisfy to survive serialization: every list fits its 16-bit count,
every coverage and class table survives (C07, C08), redundant counts agree, and a plain coverage-based context
has no coverage at all. -/
def SubOk : Sub → Prop
  | .s1_1 cov _ => CovLinkOk cov
  | .s1_2 cov l => CovLinkOk cov ∧ l.length ≤ 65535
  | .s2_1 _ cov l => CovLinkOk cov ∧ l.length ≤ 65535 ∧ ∀ x, some x ∈ l → x.length ≤ 65535
  | .s3_1 _ cov l => CovLinkOk cov ∧ l.length ≤ 65535 ∧ ∀ x, some x ∈ l → x.length ≤ 65535
  | .s4_1 _ cov l => CovLinkOk cov ∧ SetsOk LigOk l
  | .s5_1 cov l => CovLinkOk cov ∧ SetsOk SeqRuleOk l
  | .s5_2 cov k l => CovLinkOk cov ∧ ClassLinkOk k ∧ SetsOk SeqRuleOk l
  | .s5_3 g s covs recs => g.toNat = covs.length ∧ s.toNat = recs.length ∧ ∀ c ∈ covs, c = none
  | .s6_1 cov l => CovLinkOk cov ∧ SetsOk ChainRuleOk l
  | .s6_2 cov b i a l => CovLinkOk cov ∧ ClassLinkOk b ∧ ClassLinkOk i ∧ ClassLinkOk a ∧ SetsOk ChainRuleOk l
  | .s6_3 b i a recs => CovsOk b ∧ CovsOk i ∧ CovsOk a ∧ recs.length ≤ 65535
  | .s8_1 _ cov b a l => CovLinkOk cov ∧ CovsOk b ∧ CovsOk a ∧ l.length ≤ 65535

theorem writes_seq {l : List UInt16} (h : l.length ≤ 65535) : Writes seqTab readU16s l :=
  ⟨_, rfl, (reads_u16s l h).child⟩

theorem writes_lig {l : Ligature} (h : LigOk l) : Writes Ligature.tab Ligature.read l := by
  unfold LigOk at h
  have h1 : (UInt16.ofNat l.components.length).toNat = l.components.length := ofNat16_toNat (by omega)
  refine ⟨.bytes (encU16 l.glyph ++ encU16 (UInt16.ofNat (l.components.length + 1)) ++ encVec encU16 l.components),
    ?_, Reads.child ?_⟩
  · unfold Ligature.tab
    simp only [h1]
    rw [if_neg (by omega)]
  · rw [List.append_assoc]
    refine (reads_u16 _).bind ((reads_u16 _).bind ?_)
    rw [ofNat16_toNat (by omega), if_neg (by omega)]
    exact Reads.map (fun c => (⟨l.glyph, c⟩ : Ligature))
      (reads_deCounted' (by omega) (fun x _ => reads_u16 x))

theorem writes_seqRule {r : SeqRule} (h : SeqRuleOk r) : Writes SeqRule.tab SeqRule.read r := by
  refine ⟨_, rfl, Reads.child ?_⟩
  simp only [List.append_assoc]
  refine (reads_u16 _).bind ((reads_u16 _).bind ?_)
  rw [if_neg (by have := h.1; omega)]
  refine (reads_deCounted' (by have := h.1; omega) (fun x _ => reads_u16 x)).bind ?_
  exact Reads.map (fun c => (⟨r.glyphCount, r.seqLookupCount, r.input, c⟩ : SeqRule))
      (reads_deCounted' h.2 (fun x _ => reads_rec x))

theorem writes_chainRule {r : ChainRule} (h : ChainRuleOk r) : Writes ChainRule.tab ChainRule.read r := by
  obtain ⟨h1, h2, h3, h4⟩ := h
  refine ⟨_, rfl, Reads.child ?_⟩
  simp only [List.append_assoc]
  refine (reads_u16s _ h1).bind ((reads_u16 _).bind ?_)
  rw [if_neg (by omega)]
  refine (reads_deCounted' (by omega) (fun x _ => reads_u16 x)).bind ((reads_u16s _ h3).bind ?_)
  exact Reads.map (fun c => (⟨r.backtrack, r.inputGlyphCount, r.input, r.lookahead, c⟩ : ChainRule))
      (reads_counted _ h4 (fun x _ => reads_rec x))

theorem writes_set {α : Type} {f : α → Res Tab} {q : Reader α} {P : α → Prop} (hf : ∀ a, P a → Writes f q a)
    {s : List (Option α)} (hl : s.length ≤ 65535) (h : ∀ a, some a ∈ s → P a) :
    Writes (setTab f) (readSet q) s := by
  obtain ⟨t, h1, h2⟩ := readsTab_offVec (f := f) (q := q) s hl (fun a ha => hf a (h a ha))
  exact ⟨t, h1, h2.inTable⟩

theorem readsTab_sets {α : Type} {f : α → Res Tab} {q : Reader α} {P : α → Prop} (hf : ∀ a, P a → Writes f q a)
    {sets : List (Option (List (Option α)))} (h : SetsOk P sets) :
    ∃ t, offVec (setTab f) sets = .ok t ∧ ReadsTab (readOffVec (readSet q)) t sets :=
  readsTab_offVec sets h.1 (fun s hs => writes_set hf (h.2 s hs).1 (h.2 s hs).2)

theorem readsTab_cov {c : Cov} (h : CovLinkOk c) : ∃ t, optOff false covTab c = .ok t ∧ ReadsTab readCov t c :=
  readsTab_optOff false c (fun gs e => writes_cov (h gs e))

theorem readsTab_covs {l : List Cov} (h : CovsOk l) :
    ∃ t, offVec covTab l = .ok t ∧ ReadsTab (readOffVec Coverage.read) t l :=
  readsTab_offVec l h.1 (fun gs e => writes_cov (h.2 gs e))

theorem readsTab_cls {c : Option ClassMap} (h : ClassLinkOk c) :
    ∃ t, optOff false classTab c = .ok t ∧ ReadsTab readCls t c :=
  readsTab_optOff false c (fun gs e => writes_class (h gs e))

theorem mapL_unresolved : ∀ (covs : List Cov), (∀ c ∈ covs, c = none) →
    Res.mapL unresolvedOff covs = .ok (covs.map (fun _ => encU16 0))
  | [], _ => rfl
  | c :: l, h => by
    have hc := h c (by simp)
    subst hc
    simp only [Res.mapL, unresolvedOff, mapL_unresolved l (fun x hx => h x (by simp [hx])), List.map_cons]

theorem reads_null_cov (stk : List Nat) (B : Bytes) (pos : Nat) (h : encU16 0 <+: B.drop pos) :
    readCov ⟨B, pos, stk⟩ = .ok (none, ⟨B, pos + 2, stk⟩) := by
  have e := reads_of_prefix' (readWidth16 0) h stk (by simp)
  unfold readCov readOffset
  rw [Reader.bind_run, e]
  rfl

theorem reads_null : Reads readCov (encU16 0) none := by
  intro before after stk
  rw [reads_null_cov]
  · simp
  · rw [List.append_assoc, List.drop_left]; exact List.prefix_append _ _

/-- Every subtable satisfying `SubOk` is written (up to offset overflow) and read back as itself. -/
theorem writes_sub (s : Sub) (h : SubOk s) : Writes Sub.tab (Sub.read s.type) s := by
  cases s with
  | s1_1 cov d =>
    obtain ⟨c, c1, c2⟩ := readsTab_cov h
    refine ⟨_, by simp only [Sub.tab, c1]; rfl, readsChild_peek (p := read1_1) ?_ rfl⟩
    exact ((readsTab_u16 _).bind (c2.bind (ReadsTab.map (Sub.s1_1 cov) (readsTab_i16 d)))).inTable
  | s1_2 cov l =>
    obtain ⟨c, c1, c2⟩ := readsTab_cov h.1
    refine ⟨_, by simp only [Sub.tab, c1]; rfl, readsChild_peek (p := read1_2) ?_ rfl⟩
    exact ((readsTab_u16 _).bind (c2.bind (ReadsTab.map (Sub.s1_2 cov) (readsTab_u16s l h.2)))).inTable
  | s2_1 f cov l =>
    obtain ⟨c, c1, c2⟩ := readsTab_cov h.1
    obtain ⟨v, v1, v2⟩ := readsTab_offVec (f := seqTab) l h.2.1 (fun x hx => writes_seq (h.2.2 x hx))
    refine ⟨_, by simp only [Sub.tab, c1, v1]; rfl, ?_⟩
    exact ((readsTab_u16 _).bind (c2.bind (ReadsTab.map (Sub.s2_1 f cov) v2))).inTable
  | s3_1 f cov l =>
    obtain ⟨c, c1, c2⟩ := readsTab_cov h.1
    obtain ⟨v, v1, v2⟩ := readsTab_offVec (f := seqTab) l h.2.1 (fun x hx => writes_seq (h.2.2 x hx))
    refine ⟨_, by simp only [Sub.tab, c1, v1]; rfl, ?_⟩
    exact ((readsTab_u16 _).bind (c2.bind (ReadsTab.map (Sub.s3_1 f cov) v2))).inTable
  | s4_1 f cov l =>
    obtain ⟨c, c1, c2⟩ := readsTab_cov h.1
    obtain ⟨v, v1, v2⟩ := readsTab_sets (fun a => writes_lig) h.2
    refine ⟨_, by simp only [Sub.tab, c1, v1]; rfl, ?_⟩
    exact ((readsTab_u16 _).bind (c2.bind (ReadsTab.map (Sub.s4_1 f cov) v2))).inTable
  | s5_1 cov l =>
    obtain ⟨c, c1, c2⟩ := readsTab_cov h.1
    obtain ⟨v, v1, v2⟩ := readsTab_sets (fun a => writes_seqRule) h.2
    refine ⟨_, by simp only [Sub.tab, c1, v1]; rfl, readsChild_peek (p := read5_1) ?_ rfl⟩
    exact ((readsTab_u16 _).bind (c2.bind (ReadsTab.map (Sub.s5_1 cov) v2))).inTable
  | s5_2 cov k l =>
    obtain ⟨c, c1, c2⟩ := readsTab_cov h.1
    obtain ⟨kt, k1, k2⟩ := readsTab_cls h.2.1
    obtain ⟨v, v1, v2⟩ := readsTab_sets (fun a => writes_seqRule) h.2.2
    refine ⟨_, by simp only [Sub.tab, c1, v1, k1]; rfl, readsChild_peek (p := read5_2) ?_ rfl⟩
    exact ((readsTab_u16 _).bind (c2.bind (k2.bind (ReadsTab.map (Sub.s5_2 cov k) v2)))).inTable
  | s5_3 g s covs recs =>
    obtain ⟨h1, h2, h3⟩ := h
    refine ⟨_, by simp only [Sub.tab, mapL_unresolved covs h3]; rfl, ?_⟩
    rw [flatten_nulls covs]
    simp only [List.append_assoc]
    refine readsChild_peekBytes (p := read5_3) ?_ rfl
    refine (Reads.tab ?_ (by simp; omega)).inTable
    refine (reads_u16 _).bind ((reads_u16 _).bind ((reads_u16 _).bind ?_))
    refine (reads_deCounted' (enc := fun _ => encU16 0) h1 (fun x hx => by rw [h3 x hx]; exact reads_null)).bind ?_
    exact Reads.map (Sub.s5_3 g s covs) (reads_deCounted' h2 (fun x _ => reads_rec x))
  | s6_1 cov l =>
    obtain ⟨c, c1, c2⟩ := readsTab_cov h.1
    obtain ⟨v, v1, v2⟩ := readsTab_sets (fun a => writes_chainRule) h.2
    refine ⟨_, by simp only [Sub.tab, c1, v1]; rfl, readsChild_peek (p := read6_1) ?_ rfl⟩
    exact ((readsTab_u16 _).bind (c2.bind (ReadsTab.map (Sub.s6_1 cov) v2))).inTable
  | s6_2 cov b i a l =>
    obtain ⟨c, c1, c2⟩ := readsTab_cov h.1
    obtain ⟨bt, b1, b2⟩ := readsTab_cls h.2.1
    obtain ⟨it, i1, i2⟩ := readsTab_cls h.2.2.1
    obtain ⟨at', a1, a2⟩ := readsTab_cls h.2.2.2.1
    obtain ⟨v, v1, v2⟩ := readsTab_sets (fun a => writes_chainRule) h.2.2.2.2
    refine ⟨_, by simp only [Sub.tab, c1, v1, b1, i1, a1]; rfl, readsChild_peek (p := read6_2) ?_ rfl⟩
    exact ((readsTab_u16 _).bind (c2.bind (b2.bind (i2.bind (a2.bind
      (ReadsTab.map (Sub.s6_2 cov b i a) v2)))))).inTable
  | s6_3 b i a recs =>
    obtain ⟨bt, b1, b2⟩ := readsTab_covs h.1
    obtain ⟨it, i1, i2⟩ := readsTab_covs h.2.1
    obtain ⟨at', a1, a2⟩ := readsTab_covs h.2.2.1
    refine ⟨_, by simp only [Sub.tab, b1, i1, a1]; rfl, readsChild_peek (p := read6_3) ?_ rfl⟩
    exact ((readsTab_u16 _).bind (b2.bind (i2.bind (a2.bind
      (ReadsTab.map (Sub.s6_3 b i a) (readsTab_recs recs h.2.2.2)))))).inTable
  | s8_1 f cov b a l =>
    obtain ⟨c, c1, c2⟩ := readsTab_cov h.1
    obtain ⟨bt, b1, b2⟩ := readsTab_covs h.2.1
    obtain ⟨at', a1, a2⟩ := readsTab_covs h.2.2.1
    refine ⟨_, by simp only [Sub.tab, c1, b1, a1]; rfl, ?_⟩
    exact ((readsTab_u16 _).bind (c2.bind (b2.bind (a2.bind
      (ReadsTab.map (Sub.s8_1 f cov b a) (readsTab_u16s l h.2.2.2)))))).inTable

end FT
