import Verif.Lemmas.Coverage

/-!
# C07: coverage tables
-/

namespace FT.Props
open FT FT.Coverage

/-- Specification: number of maximal runs of consecutive glyph ids. -/
def runs : List UInt16 → Nat
  | [] => 0
  | [_] => 1
  | a :: b :: l => (if b.toNat = a.toNat + 1 then 0 else 1) + runs (b :: l)

/-- Specification: in ascending order without duplicates. -/
def Ascending (l : List UInt16) : Prop := l.Pairwise (fun a b => a.toNat < b.toNat)

/-- Specification: in order, duplicates allowed. -/
def InOrder (l : List UInt16) : Prop := l.Pairwise (fun a b => a.toNat ≤ b.toNat)

/-- Specification: the range encoding (6 bytes per run) is strictly shorter than the list encoding (2 bytes
per glyph), and the order of the list allows it. -/
def RangesShorter (l : List UInt16) : Prop := InOrder l ∧ 6 * runs l < 2 * l.length

/-- Specification: the last glyph id 65535 occurs nowhere but possibly in last place. -/
def MaxOnlyLast (l : List UInt16) : Prop := ∀ x ∈ l.dropLast, x.toNat ≠ 65535

theorem adj_fst {α : Type} : ∀ (l : List α), (adj l).map Prod.fst = l.dropLast
  | [] => rfl
  | [_] => rfl
  | a :: b :: l => by
    rw [adj_cons_cons, List.map_cons, adj_fst (b :: l)]; rfl

theorem isSortedGo_iff : ∀ (l : List UInt16) (a : UInt16), isSortedGo a l = true ↔ InOrder (a :: l) := by
  intro l
  induction l with
  | nil => intro a; simp [isSortedGo, InOrder]
  | cons b l ih =>
    intro a
    rw [isSortedGo]
    split
    · rename_i h
      constructor
      · intro h'; cases h'
      · intro h'
        have := (List.pairwise_cons.mp h').1 b (by simp)
        omega
    · rename_i h
      rw [ih]
      constructor
      · intro h'
        refine List.pairwise_cons.mpr ⟨?_, h'⟩
        intro x hx
        rcases List.mem_cons.mp hx with rfl | hx
        · omega
        · have := (List.pairwise_cons.mp h').1 x hx
          omega
      · intro h'; exact (List.pairwise_cons.mp h').2

theorem isSorted_iff (l : List UInt16) : isSorted l = true ↔ InOrder l := by
  cases l with
  | nil => simp [isSorted, InOrder]
  | cons a l => exact isSortedGo_iff l a

theorem runs_eq : ∀ (l : List UInt16) (a : UInt16), (∀ x ∈ (a :: l).dropLast, x.toNat ≠ 65535) →
    runs (a :: l) = 1 + ((adj (a :: l)).filter (fun p => decide (brk p.1 p.2 = .ok true))).length := by
  intro l
  induction l with
  | nil => intro a _; rfl
  | cons b l ih =>
    intro a h
    have ha := a.toNat_lt
    have h0 := h a (by simp)
    rw [runs, ih b (fun x hx => h x (by simp [hx])), adj_cons_cons, List.filter_cons]
    by_cases e : b.toNat = a.toNat + 1
    · rw [if_pos e, if_neg]
      · omega
      · simp only [decide_eq_true_eq]; rw [brk_true]; simp [e]
    · rw [if_neg e, if_pos]
      · simp only [List.length_cons]; omega
      · simp only [decide_eq_true_eq]; rw [brk_true]; exact ⟨by omega, e⟩

theorem slices_spec (l : List UInt16) (h : MaxOnlyLast l) :
    ∃ sl, slices brk l = .ok sl ∧ sl.flatten = l ∧ (∀ s ∈ sl, Run s) ∧ sl.length = runs l := by
  cases l with
  | nil => exact ⟨[], rfl, rfl, by simp, rfl⟩
  | cons a l =>
    have hok : ∀ p ∈ adj (a :: l), ∃ t, brk p.1 p.2 = .ok t := by
      intro p hp
      have hm : p.1 ∈ (a :: l).dropLast := by rw [← adj_fst]; exact List.mem_map_of_mem hp
      have h1 := h p.1 hm
      have := p.1.toNat_lt
      by_cases e : p.2.toNat = p.1.toNat + 1
      · exact ⟨false, brk_false.mpr ⟨by omega, e⟩⟩
      · exact ⟨true, brk_true.mpr ⟨by omega, e⟩⟩
    obtain ⟨sl, hsl⟩ := slicesGo_ok l [a] a hok
    obtain ⟨g1, g2, g3⟩ := slicesGo_spec (P := Run) run_single (fun c a b => run_snoc c a b) l [] a sl
      (run_single a) hsl
    exact ⟨sl, hsl, by simpa using g1, fun s hs => (g2 s hs).1, by rw [g3, runs_eq l a h]⟩

theorem format_eq (l : List UInt16) (sl : List (List UInt16)) (hn : sl.length = runs l) :
    (RangesShorter l → format l sl = 2) ∧ (¬ RangesShorter l → format l sl = 1) := by
  unfold format
  constructor
  · intro ⟨h1, h2⟩
    rw [if_neg]
    simp only [Bool.or_eq_true, List.isEmpty_iff, Bool.not_eq_true', decide_eq_true_eq, not_or]
    refine ⟨⟨?_, ?_⟩, by omega⟩
    · intro e; subst e; simp at h2
    · rw [(isSorted_iff l).mpr h1]; simp
  · intro h
    rw [if_pos]
    simp only [Bool.or_eq_true, List.isEmpty_iff, Bool.not_eq_true', decide_eq_true_eq]
    cases hs : isSorted l with
    | false => exact .inl (.inr rfl)
    | true =>
      right
      have h1 := (isSorted_iff l).mp hs
      have : ¬ 6 * runs l < 2 * l.length := fun h2 => h ⟨h1, h2⟩
      omega

/-- Any list of up to 65535 glyph ids in which 65535 occurs at most in last place is written, in the shorter
of the two encodings its order allows, and reads back as itself; except that, if the range encoding is chosen
and the list contains 65535, the reader panics. -/
theorem C07_any_list (l : List UInt16) (hlen : l.length ≤ 65535) (hmax : MaxOnlyLast l) :
    ∃ bs, toBytes l = .ok bs ∧
      (¬ RangesShorter l → bs.length = 4 + 2 * l.length ∧ Reads Coverage.read bs l) ∧
      (RangesShorter l → bs.length = 4 + 6 * runs l) ∧
      (RangesShorter l → (∀ g ∈ l, g.toNat ≠ 65535) → Reads Coverage.read bs l) ∧
      (RangesShorter l → (∃ g ∈ l, g.toNat = 65535) → ∀ before after stk,
        Coverage.read ⟨before ++ bs ++ after, before.length, stk⟩ = .panic) := by
  obtain ⟨sl, h1, h2, h3, h4⟩ := slices_spec l hmax
  have hf := format_eq l sl h4
  by_cases hr : RangesShorter l
  · have hfmt := hf.1 hr
    obtain ⟨recs, g1, g2, g3, g4, g5⟩ := records_spec sl 0 h3 (by rw [sum_lengths, h2]; simpa using hlen)
    have hk : sl.length ≤ 65535 := by have := hr.2; omega
    have hbytes : toBytes l = .ok (encU16 2 ++ encCounted RangeRecord.enc recs) := by
      unfold toBytes
      simp only [h1, Res.ok_bind]
      rw [if_neg (by omega), g1]
      simp only [Res.ok_bind, Res.pure_eq, encCounted, g2, List.append_assoc]
    refine ⟨_, hbytes, fun h => absurd hr h, fun _ => ?_, fun _ hall => ?_, fun _ hex => ?_⟩
    · simp only [List.length_append, encU16_length, encCounted]
      rw [encVec_length (k := 6) (fun r => by simp [RangeRecord.enc]), g2, h4]; omega
    · refine Reads.bind (reads_u16 2) ?_
      rw [if_neg (by decide)]
      refine Reads.bind' (reads_counted recs (by omega) (fun r _ => r.reads)) (bs' := []) ?_ (by simp)
      refine Reads.bind' (bs := []) (bs' := []) (Reads.lift (g3 ?_)) (b := l) ?_ rfl
      · intro s hs g hg
        exact hall g (by rw [← h2]; exact List.mem_flatten_of_mem hs hg)
      · rw [h2]; exact Reads.pure l
    · intro before after stk
      obtain ⟨g, hg, hgv⟩ := hex
      rw [← h2] at hg
      obtain ⟨s, hs, hgs⟩ := List.mem_flatten.mp hg
      have hpan := g4 ⟨s, hs, g, hgs, hgv⟩
      have r1 := reads_u16 2 before (encCounted RangeRecord.enc recs ++ after) stk
      have r2 := reads_counted recs (by omega) (fun r _ => r.reads) (before ++ encU16 2) after stk
      simp only [List.append_assoc, List.length_append] at r1 r2 ⊢
      unfold Coverage.read
      rw [Reader.bind_run, r1]
      simp only
      rw [if_neg (by decide), Reader.bind_run, r2]
      simp only
      rw [Reader.bind_run, hpan]
      rfl
  · have hfmt := hf.2 hr
    have hbytes : toBytes l = .ok (encU16 1 ++ encCounted encU16 l) := by
      unfold toBytes
      simp only [h1, Res.ok_bind]
      rw [if_pos hfmt]; rfl
    refine ⟨_, hbytes, fun _ => ⟨?_, ?_⟩, fun h => absurd h hr, fun h => absurd h hr, fun h => absurd h hr⟩
    · simp only [List.length_append, encU16_length, encCounted]
      rw [encVec_length (k := 2) (fun r => by simp)]; omega
    · refine Reads.bind (reads_u16 1) ?_
      rw [if_pos rfl]
      exact reads_counted l hlen (fun r _ => reads_u16 r)

theorem asc_bound : ∀ (l : List UInt16) (a z : UInt16), Ascending (a :: l) → (a :: l).getLast? = some z →
    a.toNat + (a :: l).length + runs (a :: l) ≤ z.toNat + 2 := by
  intro l
  induction l with
  | nil =>
    intro a z _ hz
    simp only [List.getLast?_singleton, Option.some.injEq] at hz
    subst hz
    simp [runs]
  | cons b l ih =>
    intro a z h hz
    have h1 := (List.pairwise_cons.mp h).1 b (by simp)
    have := ih b z (List.pairwise_cons.mp h).2 (by simpa using hz)
    rw [runs]
    simp only [List.length_cons] at *
    split <;> omega

theorem asc_maxOnlyLast (l : List UInt16) (h : Ascending l) : MaxOnlyLast l := by
  intro x hx
  rcases List.eq_nil_or_concat l with rfl | ⟨l', z, rfl⟩
  · simp at hx
  · simp only [List.concat_eq_append, List.dropLast_concat] at hx
    rw [List.concat_eq_append] at h
    have := (List.pairwise_append.mp h).2.2 x hx z (by simp)
    have := z.toNat_lt
    omega

theorem asc_inOrder (l : List UInt16) (h : Ascending l) : InOrder l :=
  h.imp (fun h => Nat.le_of_lt h)

theorem asc_length (l : List UInt16) (h : Ascending l)
    (hguard : (∀ g ∈ l, g.toNat ≠ 65535) ∨ 2 * l.length ≤ 6 * runs l) : l.length ≤ 65535 := by
  cases l with
  | nil => simp
  | cons a l =>
    obtain ⟨z, hz⟩ : ∃ z, (a :: l).getLast? = some z := by
      cases e : (a :: l).getLast? with
      | none => simp at e
      | some z => exact ⟨z, rfl⟩
    have hb := asc_bound l a z h hz
    have := z.toNat_lt
    have hr : 1 ≤ runs (a :: l) := by
      clear hguard h hz hb
      induction l generalizing a with
      | nil => simp [runs]
      | cons b l ih => have := ih b; rw [runs]; omega
    rcases hguard with hg | hg
    · have := hg z (List.mem_of_getLast? hz)
      omega
    · omega

/-- Every ascending duplicate-free glyph list is written in the smaller of the two encodings and reads back as
itself, at any position of any buffer, unless it contains 65535 and the range encoding is the smaller one. -/
theorem C07_roundtrip (l : List UInt16) (h : Ascending l)
    (hguard : (∀ g ∈ l, g.toNat ≠ 65535) ∨ 2 * l.length ≤ 6 * runs l) :
    ∃ bs, toBytes l = .ok bs ∧ bs.length = 4 + min (2 * l.length) (6 * runs l) ∧ Reads Coverage.read bs l := by
  have hlen := asc_length l h hguard
  obtain ⟨bs, h1, h2, h3, h4, _⟩ := C07_any_list l hlen (asc_maxOnlyLast l h)
  refine ⟨bs, h1, ?_⟩
  by_cases hr : RangesShorter l
  · have := hr.2
    rcases hguard with hg | hg
    · exact ⟨by rw [h3 hr]; omega, h4 hr hg⟩
    · omega
  · have : ¬ 6 * runs l < 2 * l.length := fun h' => hr ⟨asc_inOrder l h, h'⟩
    exact ⟨by rw [(h2 hr).1]; omega, (h2 hr).2⟩

/-- Outside that guard the written table cannot be read: the reader panics. -/
theorem C07_last_glyph_panics (l : List UInt16) (h : Ascending l) (hlen : l.length ≤ 65535)
    (hmax : ∃ g ∈ l, g.toNat = 65535) (hshort : 6 * runs l < 2 * l.length) :
    ∃ bs, toBytes l = .ok bs ∧ ∀ before after stk, Coverage.read ⟨before ++ bs ++ after, before.length, stk⟩ = .panic := by
  obtain ⟨bs, h1, _, _, _, h5⟩ := C07_any_list l hlen (asc_maxOnlyLast l h)
  exact ⟨bs, h1, h5 ⟨asc_inOrder l h, hshort⟩ hmax⟩

/-- A list with 65535 before the last place makes the writer panic. -/
theorem C07_max_inside_panics (l : List UInt16) (h : ¬ MaxOnlyLast l) : toBytes l = .panic := by
  cases l with
  | nil => exact absurd (by intro x hx; simp at hx) h
  | cons a l =>
    have hex : ∃ p ∈ adj (a :: l), brk p.1 p.2 = .panic := by
      apply Classical.byContradiction
      intro hno
      apply h
      intro x hx hxv
      rw [← adj_fst] at hx
      obtain ⟨p, hp, rfl⟩ := List.mem_map.mp hx
      exact hno ⟨p, hp, brk_panic.mpr hxv⟩
    have := slicesGo_panic brk_ne_err l [a] a hex
    simp [toBytes, slices, this]

/-- In the range encoding, each record says which position of the list its glyphs have: the `j`-th glyph of a
range is the glyph at position `index + j` of the list. -/
theorem C07_index (l : List UInt16) (hlen : l.length ≤ 65535) (hmax : MaxOnlyLast l) (hr : RangesShorter l) :
    ∃ recs, toBytes l = .ok (encU16 2 ++ encU16 (UInt16.ofNat recs.length) ++ encVec RangeRecord.enc recs) ∧
      ∀ r ∈ recs, r.startG.toNat ≤ r.endG.toNat ∧ ∀ j ≤ r.endG.toNat - r.startG.toNat,
        l[r.index.toNat + j]? = some (UInt16.ofNat (r.startG.toNat + j)) := by
  obtain ⟨sl, h1, h2, h3, h4⟩ := slices_spec l hmax
  have hfmt := (format_eq l sl h4).1 hr
  obtain ⟨recs, g1, g2, _, _, g5⟩ := records_spec sl 0 h3 (by rw [sum_lengths, h2]; simpa using hlen)
  refine ⟨recs, ?_, ?_⟩
  · unfold toBytes
    simp only [h1, Res.ok_bind]
    rw [if_neg (by omega), g1]
    simp only [Res.ok_bind, Res.pure_eq, g2]
  · intro r hrm
    obtain ⟨pre, s, post, q1, q2, q3, q4⟩ := g5 r hrm
    obtain ⟨f, n, hn, hf, e⟩ := h3 s (by rw [q1]; simp)
    rw [e, iota_head f n hn] at q2
    rw [e, iota_last f n hn] at q3
    injection q2 with q2
    injection q3 with q3
    have e1 : r.startG.toNat = f := by rw [← q2]; exact ofNat16_toNat (by omega)
    have e2 : r.endG.toNat = f + (n - 1) := by rw [← q3]; exact ofNat16_toNat (by omega)
    refine ⟨by omega, ?_⟩
    intro j hj
    have hz : (0 : UInt16).toNat = 0 := rfl
    rw [q4, hz, Nat.zero_add, ← h2, q1, List.flatten_append, List.flatten_cons, e1,
      List.getElem?_append_right (by omega), Nat.add_sub_cancel_left, List.getElem?_append_left (by
        rw [e, iota_length]; omega), e]
    simp only [iota, List.getElem?_map]
    rw [List.getElem?_range (by omega)]
    rfl

/-- The declared size of a coverage table is the number of bytes it writes. -/
theorem C07_size (l : List UInt16) (hlen : l.length ≤ 65535) (hmax : MaxOnlyLast l) :
    ∃ bs, toBytes l = .ok bs ∧ binarySize l = .ok bs.length := by
  obtain ⟨bs, h1, h2, h3, _⟩ := C07_any_list l hlen hmax
  obtain ⟨sl, g1, _, _, g4⟩ := slices_spec l hmax
  have hf := format_eq l sl g4
  refine ⟨bs, h1, ?_⟩
  unfold binarySize
  simp only [g1, Res.ok_bind, Res.pure_eq]
  by_cases hr : RangesShorter l
  · rw [if_neg (by rw [hf.1 hr]; decide), h3 hr, g4]; congr 1; omega
  · rw [if_pos (hf.2 hr), (h2 hr).1]; congr 1; omega

/-! Both formats and both failures occur. -/
example : toBytes [3, 4, 5, 6, 7, 8, 20] =
    .ok [0, 2, 0, 2, 0, 3, 0, 8, 0, 0, 0, 20, 0, 20, 0, 6] := by decide
example : Ascending [3, 4, 5, 6, 7, 8, 20] ∧ (∀ g ∈ [3, 4, 5, 6, 7, 8, (20 : UInt16)], g.toNat ≠ 65535) := by
  refine ⟨by simp [Ascending], by decide⟩
example : toBytes [3, 4, 9, 65535] = .ok [0, 1, 0, 4, 0, 3, 0, 4, 0, 9, 255, 255] := by decide
example : Ascending [65532, 65533, 65534, 65535] ∧ 6 * runs [65532, 65533, 65534, 65535] < 8 := by
  refine ⟨by simp [Ascending], by decide⟩
example : ¬ MaxOnlyLast [65535, 2] := fun h => h 65535 (by simp) rfl
example : RangesShorter [1, 1, 2, 3, 4, 5, 6] ∧ MaxOnlyLast [1, 1, 2, 3, 4, 5, 6] := by
  refine ⟨⟨by simp [InOrder], by decide⟩, ?_⟩
  intro x hx
  simp at hx
  rcases hx with rfl | rfl | rfl | rfl | rfl <;> decide

end FT.Props
