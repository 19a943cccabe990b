import Verif.Props.ForeignCov
import Verif.Props.SpecGsub

/-!
# C88: GSUB subtables written by any program

Every subtable format of the OpenType specification, with its parts in any arrangement: the reader returns what the
bytes say.
-/

namespace FT.Props
open FT Reader FT.Off FT.Lay FT.Gsub

/-! ### Specification -/

/-- Sequence lookup records: position in the input and lookup. -/
def recRows (l : List LookupRec) : List Cell := l.flatMap (fun r => [u16 r.1, u16 r.2])

/-- A 16-bit count and that many offsets, which may be null. -/
def setRows {α : Type} (P : α → Bytes → Nat → Prop) (l : List (Option α)) : List Cell :=
  .num 2 l.length :: l.map (linked P)

/-- A sequence rule: numbers of glyphs (with the first, which is not listed) and of records. -/
def seqRuleRows (r : SeqRule) : List Cell :=
  [.num 2 ((r.input.length + 1 : Nat) : ℤ), .num 2 r.recs.length] ++ r.input.map u16 ++ recRows r.recs

/-- A chained sequence rule. -/
def chainRuleRows (r : ChainRule) : List Cell :=
  wordRows r.backtrack ++ (.num 2 ((r.input.length + 1 : Nat) : ℤ) :: (r.input.map u16 ++ (wordRows r.lookahead ++
    (.num 2 r.recs.length :: recRows r.recs))))

/-- The GSUB subtables of the OpenType specification. -/
def subRows : Sub → List Cell
  | .s1_1 cov d => [.num 2 1, linked CoverageAt cov, i16 d]
  | .s1_2 cov l => [.num 2 2, linked CoverageAt cov] ++ wordRows l
  | .s2_1 _ cov l => [.num 2 1, linked CoverageAt cov] ++ setRows (fun l => At (wordRows l)) l
  | .s3_1 _ cov l => [.num 2 1, linked CoverageAt cov] ++ setRows (fun l => At (wordRows l)) l
  | .s4_1 _ cov l => [.num 2 1, linked CoverageAt cov] ++
      setRows (fun s => At (setRows (fun e : Ligature => At (ligatureRows e.components e.glyph)) s)) l
  | .s5_1 cov l => [.num 2 1, linked CoverageAt cov] ++ setRows (fun s => At (setRows (fun r => At (seqRuleRows r)) s)) l
  | .s5_2 cov k l => [.num 2 2, linked CoverageAt cov, linked ClassListAt k] ++
      setRows (fun s => At (setRows (fun r => At (seqRuleRows r)) s)) l
  | .s5_3 _ _ covs recs => [.num 2 3, .num 2 covs.length, .num 2 recs.length] ++
      (covs.map (linked CoverageAt) ++ recRows recs)
  | .s6_1 cov l => [.num 2 1, linked CoverageAt cov] ++ setRows (fun s => At (setRows (fun r => At (chainRuleRows r)) s)) l
  | .s6_2 cov b i a l => [.num 2 2, linked CoverageAt cov, linked ClassListAt b, linked ClassListAt i, linked ClassListAt a] ++
      setRows (fun s => At (setRows (fun r => At (chainRuleRows r)) s)) l
  | .s6_3 b i a recs => .num 2 3 :: (setRows CoverageAt b ++ (setRows CoverageAt i ++ (setRows CoverageAt a ++
      (.num 2 recs.length :: recRows recs))))
  | .s8_1 _ cov b a l => [.num 2 1, linked CoverageAt cov] ++ (setRows CoverageAt b ++ (setRows CoverageAt a ++ wordRows l))

/-! 16-bit numbers can count at most 65535 things; a stored count says how long its list is. -/

/-- A list whose length a 16-bit number can express, with items of which `P` is true. -/
def ListOk {α : Type} (P : α → Prop) (l : List (Option α)) : Prop := l.length ≤ 65535 ∧ ∀ x ∈ l, ∀ a ∈ x, P a

def CovOk (c : Cov) : Prop := ∀ gs ∈ c, GlyphsOk gs
def ClsOk (k : Option ClassMap) : Prop := ∀ m ∈ k, AscendingKeys m ∧ GlyphsOk (m.map Prod.fst)
def WordsOk (l : List UInt16) : Prop := l.length ≤ 65535
def SeqRuleOk (r : SeqRule) : Prop :=
  r.glyphCount.toNat = r.input.length + 1 ∧ r.seqLookupCount.toNat = r.recs.length
def ChainRuleOk (r : ChainRule) : Prop :=
  r.inputGlyphCount.toNat = r.input.length + 1 ∧ r.backtrack.length ≤ 65535 ∧ r.lookahead.length ≤ 65535 ∧
    r.recs.length ≤ 65535

def SubWell : Sub → Prop
  | .s1_1 cov _ => CovOk cov
  | .s1_2 cov l => CovOk cov ∧ l.length ≤ 65535
  | .s2_1 f cov l => f = 1 ∧ CovOk cov ∧ ListOk WordsOk l
  | .s3_1 f cov l => f = 1 ∧ CovOk cov ∧ ListOk WordsOk l
  | .s4_1 f cov l => f = 1 ∧ CovOk cov ∧ ListOk (ListOk fun e : Ligature => e.components.length < 65535) l
  | .s5_1 cov l => CovOk cov ∧ ListOk (ListOk SeqRuleOk) l
  | .s5_2 cov k l => CovOk cov ∧ ClsOk k ∧ ListOk (ListOk SeqRuleOk) l
  | .s5_3 g s covs recs => g.toNat = covs.length ∧ s.toNat = recs.length ∧ ∀ c ∈ covs, CovOk c
  | .s6_1 cov l => CovOk cov ∧ ListOk (ListOk ChainRuleOk) l
  | .s6_2 cov b i a l => CovOk cov ∧ ClsOk b ∧ ClsOk i ∧ ClsOk a ∧ ListOk (ListOk ChainRuleOk) l
  | .s6_3 b i a recs => ListOk GlyphsOk b ∧ ListOk GlyphsOk i ∧ ListOk GlyphsOk a ∧ recs.length ≤ 65535
  | .s8_1 f cov b a l => f = 1 ∧ CovOk cov ∧ ListOk GlyphsOk b ∧ ListOk GlyphsOk a ∧ l.length ≤ 65535

/-! ### Proofs -/

theorem finds_cov {c : Cov} (h : CovOk c) : Finds readCov c [linked CoverageAt c] :=
  finds_linked fun gs hg => finds_coverage (h gs hg)
theorem finds_cls {k : Option ClassMap} (h : ClsOk k) : Finds readCls k [linked ClassListAt k] :=
  finds_linked fun m hm => finds_classes (h m hm).1 (h m hm).2
theorem plain_rec (r : LookupRec) : Plain readRec r [u16 r.1, u16 r.2] := (plain_u16 _).cons ((plain_u16 _).last rfl)

theorem finds_covs {l : List Cov} (h : ListOk GlyphsOk l) : Finds (readOffVec Coverage.read) l (setRows CoverageAt l) :=
  finds_offVec h.1 fun x hx gs hg => finds_coverage (h.2 x hx gs hg)

theorem words_wide (l : List UInt16) : 0 < widths (wordRows l) := by simp [wordRows, widths_cons, Cell.width]
theorem set_wide {α : Type} (P : α → Bytes → Nat → Prop) (l : List (Option α)) : 0 < widths (setRows P l) := by
  simp [setRows, widths_cons, Cell.width]

theorem finds_seqs {l : List (Option (List UInt16))} (h : ListOk WordsOk l) :
    Finds (readOffVec readU16s) l (setRows (fun l => At (wordRows l)) l) :=
  finds_offVec h.1 fun x hx w hw => (plain_words (h.2 x hx w hw)).table (words_wide w)

theorem plain_lig {e : Ligature} (h : e.components.length < 65535) :
    Plain Ligature.read e (ligatureRows e.components e.glyph) := by
  unfold Ligature.read ligatureRows
  refine (plain_u16 _).cons ((plain_count (by omega)).cons ?_)
  rw [ofNat16_toNat (by omega), if_neg (by omega), Nat.add_sub_cancel]
  exact (plain_list1 fun x _ => plain_u16 x).last rfl

theorem plain_seqRule {r : SeqRule} (h : SeqRuleOk r) : Plain SeqRule.read r (seqRuleRows r) := by
  obtain ⟨h1, h2⟩ := h
  have := r.glyphCount.toNat_lt
  have := r.seqLookupCount.toNat_lt
  unfold SeqRule.read seqRuleRows
  refine (plain_num16 r.glyphCount (by omega)).cons ((plain_num16 r.seqLookupCount (by omega)).cons ?_)
  rw [if_neg (by omega), h1, Nat.add_sub_cancel, h2]
  exact (plain_list1 fun x _ => plain_u16 x).bind ((plain_list fun x _ => plain_rec x).last rfl)

theorem plain_chainRule {r : ChainRule} (h : ChainRuleOk r) : Plain ChainRule.read r (chainRuleRows r) := by
  obtain ⟨h1, h2, h3, h4⟩ := h
  have := r.inputGlyphCount.toNat_lt
  unfold ChainRule.read chainRuleRows
  refine (plain_words h2).bind ((plain_num16 r.inputGlyphCount (by omega)).cons ?_)
  rw [if_neg (by omega), h1, Nat.add_sub_cancel]
  exact (plain_list1 fun x _ => plain_u16 x).bind ((plain_words h3).bind
    ((plain_counted h4 fun x _ => plain_rec x).last rfl))

/-- A set of rules, each with its own offset. -/
theorem finds_set {α : Type} {p : Reader α} {rows : α → List Cell} {ok : α → Prop} {l : List (Option α)}
    (hl : ListOk ok l) (h : ∀ a, ok a → Plain p a (rows a)) (hw : ∀ a, 0 < widths (rows a)) :
    FindsAt (readSet p) l (At (setRows (fun a => At (rows a)) l)) :=
  (finds_offVec hl.1 fun x hx a ha => (h a (hl.2 x hx a ha)).table (hw a)).table (set_wide _ _)

theorem finds_sets {α : Type} {p : Reader α} {rows : α → List Cell} {ok : α → Prop} {l : List (Option (List (Option α)))}
    (hl : ListOk (ListOk ok) l) (h : ∀ a, ok a → Plain p a (rows a)) (hw : ∀ a, 0 < widths (rows a)) :
    Finds (readOffVec (readSet p)) l (setRows (fun s => At (setRows (fun a => At (rows a)) s)) l) :=
  finds_offVec hl.1 fun x hx s hs => finds_set (hl.2 x hx s hs) h hw

theorem seqRule_wide (r : SeqRule) : 0 < widths (seqRuleRows r) := by simp [seqRuleRows, widths_cons, Cell.width]
theorem chainRule_wide (r : ChainRule) : 0 < widths (chainRuleRows r) := by
  simp [chainRuleRows, wordRows, widths_cons, Cell.width]
theorem lig_wide (e : Ligature) : 0 < widths (ligatureRows e.components e.glyph) := by
  simp [ligatureRows, widths_cons, Cell.width]

theorem peek_at {α : Type} {f : Bytes → Reader α} {a : α} {rest : List Cell} {v : ℤ} (b0 b1 : UInt8)
    (h : FindsAt (f [b0, b1]) a (At (.num 2 v :: rest))) (hv : v = ((b0.toNat * 256 + b1.toNat : Nat) : ℤ)) :
    FindsAt (FT.peek 2 >>= f) a (At (.num 2 v :: rest)) :=
  h.peek fun B start hs => ⟨rest, by rw [← hv]; exact hs⟩

theorem sub_wide (s : Sub) : 0 < widths (subRows s) := by
  cases s <;> simp [subRows, widths_cons, Cell.width]

/-- Subtables of every type and format are read as what they say. -/
theorem finds_sub {s : Sub} (h : SubWell s) : FindsAt (Sub.read s.type) s (At (subRows s)) := by
  have w := sub_wide s
  cases s with
  | s1_1 cov d =>
    refine peek_at 0 1 (Finds.table (p := _) ?_ w) (by decide)
    exact (plain_num16 1 (by decide)).finds.cons ((finds_cov h).cons ((plain_i16 d).finds.last rfl))
  | s1_2 cov l =>
    refine peek_at 0 2 (Finds.table (p := _) ?_ w) (by decide)
    exact (plain_num16 2 (by decide)).finds.cons ((finds_cov h.1).cons ((plain_words h.2).finds.last rfl))
  | s2_1 f cov l =>
    obtain ⟨rfl, h1, h2⟩ := h
    refine Finds.table (p := _) ?_ w
    exact (plain_num16 1 (by decide)).finds.cons ((finds_cov h1).cons ((finds_seqs h2).last rfl))
  | s3_1 f cov l =>
    obtain ⟨rfl, h1, h2⟩ := h
    refine Finds.table (p := _) ?_ w
    exact (plain_num16 1 (by decide)).finds.cons ((finds_cov h1).cons ((finds_seqs h2).last rfl))
  | s4_1 f cov l =>
    obtain ⟨rfl, h1, h2⟩ := h
    refine Finds.table (p := _) ?_ w
    exact (plain_num16 1 (by decide)).finds.cons ((finds_cov h1).cons
      ((finds_sets (rows := fun e : Ligature => ligatureRows e.components e.glyph) h2 (fun _ => plain_lig) lig_wide).last rfl))
  | s5_1 cov l =>
    refine peek_at 0 1 (Finds.table (p := _) ?_ w) (by decide)
    exact (plain_num16 1 (by decide)).finds.cons ((finds_cov h.1).cons
      ((finds_sets h.2 (fun _ => plain_seqRule) seqRule_wide).last rfl))
  | s5_2 cov k l =>
    refine peek_at 0 2 (Finds.table (p := _) ?_ w) (by decide)
    exact (plain_num16 2 (by decide)).finds.cons ((finds_cov h.1).cons ((finds_cls h.2.1).cons
      ((finds_sets h.2.2 (fun _ => plain_seqRule) seqRule_wide).last rfl)))
  | s5_3 g s covs recs =>
    obtain ⟨h1, h2, h3⟩ := h
    have := g.toNat_lt
    have := s.toNat_lt
    refine peek_at 0 3 (Finds.table (p := _) ?_ w) (by decide)
    refine (plain_num16 3 (by decide)).finds.cons ((plain_num16 g (by omega)).finds.cons
      ((plain_num16 s (by omega)).finds.cons ?_))
    rw [h1, h2]
    exact (finds_list1 fun c hc => finds_cov (h3 c hc)).bind ((plain_list fun x _ => plain_rec x).finds.last rfl)
  | s6_1 cov l =>
    refine peek_at 0 1 (Finds.table (p := _) ?_ w) (by decide)
    exact (plain_num16 1 (by decide)).finds.cons ((finds_cov h.1).cons
      ((finds_sets h.2 (fun _ => plain_chainRule) chainRule_wide).last rfl))
  | s6_2 cov b i a l =>
    obtain ⟨h1, h2, h3, h4, h5⟩ := h
    refine peek_at 0 2 (Finds.table (p := _) ?_ w) (by decide)
    exact (plain_num16 2 (by decide)).finds.cons ((finds_cov h1).cons ((finds_cls h2).cons ((finds_cls h3).cons
      ((finds_cls h4).cons ((finds_sets h5 (fun _ => plain_chainRule) chainRule_wide).last rfl)))))
  | s6_3 b i a recs =>
    obtain ⟨h1, h2, h3, h4⟩ := h
    refine peek_at 0 3 (Finds.table (p := _) ?_ w) (by decide)
    exact (plain_num16 3 (by decide)).finds.cons ((finds_covs h1).bind ((finds_covs h2).bind ((finds_covs h3).bind
      ((plain_counted h4 fun x _ => plain_rec x).finds.last rfl))))
  | s8_1 f cov b a l =>
    obtain ⟨rfl, h1, h2, h3, h4⟩ := h
    refine Finds.table (p := _) ?_ w
    exact (plain_num16 1 (by decide)).finds.cons ((finds_cov h1).cons ((finds_covs h2).bind ((finds_covs h3).bind
      ((plain_words h4).finds.last rfl))))

end FT.Props
