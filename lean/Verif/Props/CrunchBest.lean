import Verif.Props.CrunchOpt

/-!
C102: how good the curves are which the optimiser of `fontcrunch` chooses.
-/

namespace FT.Props
open FT FT.Glyf FT.Crunch

variable {F : Type} {S : Scores F} {measure : ℚ → ℚ → Quad → Res F} {breaks : List Break}

/-! ### Specification -/

/-- Whether a curve is cheaper: a straight one, or one after a curve such that the point between is implied. -/
def Cheap (before : Option Quad) (q : Quad) : Prop :=
  q.p1 = halfway q.p0 q.p2 ∨ ∃ a, before = some a ∧ a.p1 ≠ halfway a.p0 a.p2 ∧ q.p0 = halfway a.p1 q.p1

/-- The score of curves ending at a break: that of the curves before, the price of the last one, and how far it is from the stretch
between its breaks. -/
inductive Scored (S : Scores F) (measure : ℚ → ℚ → Quad → Res F) (breaks : List Break) : Nat → List Quad → F → Prop
  | one {j : Nat} {b0 b : Break} {q : Quad} {m : F} (cheap : Bool) : breaks[0]? = some b0 → breaks[j]? = some b → q.p0 = b0.xy → q.p2 = b.xy →
      measure b0.s b.s q = .ok m → (cheap = true ↔ Cheap none q) → Scored S measure breaks j [q] (S.combine none cheap m)
  | more {i j : Nat} {bi b : Break} {l : List Quad} {last q : Quad} {x m : F} (cheap : Bool) : Scored S measure breaks i (l ++ [last]) x →
      breaks[i]? = some bi → breaks[j]? = some b → q.p0 = bi.xy → q.p2 = b.xy → measure bi.s b.s q = .ok m →
      (cheap = true ↔ Cheap (some last) q) → Scored S measure breaks j (l ++ [last] ++ [q]) (S.combine (some x) cheap m)

/-! ### Proof -/

/-- A piece, or one of whose parts. -/
theorem smooth_cheap {a q : Quad} (ha : Piece a) (hq : Piece q) : (q.isLine || smooth a q) = true ↔ Cheap (some a) q := by
  unfold Cheap
  rw [Bool.or_eq_true, piece_line hq]
  unfold smooth
  rw [Bool.and_eq_true, Bool.not_eq_true', ← Bool.not_eq_true, piece_line ha, midPt_halfway]
  constructor
  · rintro (h | ⟨h1, h2⟩)
    · exact .inl h
    · by_cases hl : q.p1 = halfway q.p0 q.p2
      · exact .inl hl
      · refine .inr ⟨a, rfl, h1, ?_⟩
        have wa : WholePt a.p1 := ha.2.2.resolve_left fun e => h1 e.1
        have wq : WholePt q.p1 := hq.2.2.resolve_left fun e => hl e.1
        exact ((close_quarters (halfway_quarters (whole_half wa) (whole_half wq)) (half_quarters hq.1)).mp h2).symm
  · rintro (h | ⟨a', e, h1, h2⟩)
    · exact .inl h
    · cases e
      refine .inr ⟨h1, ?_⟩
      rw [← h2]
      unfold closePt isClose
      simp

theorem line_cheap {q : Quad} (hq : Piece q) : q.isLine = true ↔ Cheap none q := by
  rw [piece_line hq]
  unfold Cheap
  constructor
  · exact .inl
  · rintro (h | ⟨a, e, _⟩)
    · exact h
    · cases e

def AllScored (S : Scores F) (measure : ℚ → ℚ → Quad → Res F) (breaks : List Break) (states : List (Option (Chain F))) : Prop :=
  ∀ i c, states[i]? = some (some c) → Scored S measure breaks i c.quads c.score

/-- Nothing in place `n` is worse than `a`. -/
def NotWorse (S : Scores F) (a : F) (n : Nat) (states : List (Option (Chain F))) : Prop := ∃ c, states[n]? = some (some c) ∧ S.less a c.score = false

theorem tryQuad_scored {score : F} {states new : List (Option (Chain F))} {i j : Nat} {bi bj : Break} {q : Quad} (hs : GoodStates breaks states)
    (ha : AllScored S measure breaks states) (h : tryQuad S score states i j q = .ok new) (hi : breaks[i]? = some bi) (hj : breaks[j]? = some bj)
    (hq : Piece q) (e0 : q.p0 = bi.xy) (e2 : q.p2 = bj.xy) (hm : measure bi.s bj.s q = .ok score) :
    AllScored S measure breaks new := by
  unfold tryQuad at h
  obtain ⟨p, h1, h⟩ := Res.bind_inv h
  have hp := stateAt_ok h1
  split at h
  · cases h
    exact ha
  next hne =>
  obtain ⟨old, h2, h⟩ := Res.bind_inv h
  have hnew : Scored S measure breaks j (Chain.extend S p score q).quads (Chain.extend S p score q).score := by
    cases p with
    | none =>
      obtain rfl : i = 0 := by
        by_contra h0
        exact hne ⟨h0, rfl⟩
      exact .one _ hi hj e0 e2 hm (line_cheap hq)
    | some c =>
      have g := ha i c hp
      obtain ⟨_, _, _, _, _, k, _⟩ := hs.2 i c hp
      have hquads : c.quads = c.before.reverse ++ [c.quad] := by simp [Chain.quads]
      rw [hquads] at g
      have : (Chain.extend S (some c) score q).quads = c.before.reverse ++ [c.quad] ++ [q] := by simp [Chain.extend, Chain.quads]
      rw [this]
      exact .more _ g hi hj e0 e2 hm (smooth_cheap (k c.quad (by simp [Chain.quads])).1 hq)
  have hset : AllScored S measure breaks (states.set j (some (Chain.extend S p score q))) := by
    intro k c hk
    rw [List.getElem?_set] at hk
    split at hk
    · next e =>
      subst e
      split at hk
      · cases hk
        exact hnew
      · cases hk
    · exact ha k c hk
  cases old with
  | none =>
    cases h
    exact hset
  | some c =>
    simp only [Res.pure_eq] at h
    cases h
    split
    · exact hset
    · exact ha

/-- A try leaves nothing worse, and nothing worse than what is tried. -/
theorem tryQuad_best (hirr : ∀ a, S.less a a = false) (htrans : ∀ a b c, S.less a b = true → S.less b c = true → S.less a c = true)
    {score : F} {states new : List (Option (Chain F))} {i j : Nat} {q : Quad} (h : tryQuad S score states i j q = .ok new) :
    (∀ a n, NotWorse S a n states → NotWorse S a n new) ∧
    (∀ p, states[i]? = some p → (i = 0 ∨ p ≠ none) → NotWorse S (Chain.extend S p score q).score j new) := by
  unfold tryQuad at h
  obtain ⟨p, h1, h⟩ := Res.bind_inv h
  have hp := stateAt_ok h1
  split at h
  · next hne =>
    cases h
    refine ⟨fun _ _ h => h, ?_⟩
    intro p' hp' hor
    rw [hp] at hp'
    cases hp'
    rcases hor with h0 | h0
    · exact absurd h0 hne.1
    · cases p
      · exact absurd rfl h0
      · cases hne.2
  next hne =>
  obtain ⟨old, h2, h⟩ := Res.bind_inv h
  have ho := stateAt_ok h2
  have hlt : j < states.length := (List.getElem?_eq_some_iff.mp ho).1
  have hset : (states.set j (some (Chain.extend S p score q)))[j]? = some (some (Chain.extend S p score q)) := by
    rw [List.getElem?_set_self hlt]
  constructor
  · rintro a n ⟨c, hc, hl⟩
    cases old with
    | none =>
      cases h
      by_cases e : j = n
      · subst e
        rw [ho] at hc
        cases hc
      · exact ⟨c, by rw [List.getElem?_set_ne e]; exact hc, hl⟩
    | some d =>
      simp only [Res.pure_eq] at h
      cases h
      split
      · next hlt' =>
        by_cases e : j = n
        · subst e
          rw [ho] at hc
          cases hc
          refine ⟨_, hset, ?_⟩
          by_contra hno
          rw [Bool.not_eq_false] at hno
          rw [htrans _ _ _ hno hlt'] at hl
          cases hl
        · exact ⟨c, by rw [List.getElem?_set_ne e]; exact hc, hl⟩
      · exact ⟨c, hc, hl⟩
  · intro p' hp' _
    rw [hp] at hp'
    cases hp'
    cases old with
    | none =>
      cases h
      exact ⟨_, hset, hirr _⟩
    | some d =>
      simp only [Res.pure_eq] at h
      cases h
      split
      · exact ⟨_, hset, hirr _⟩
      · next hn => exact ⟨d, ho, by simpa using hn⟩

theorem tryLineQuad_best (hirr : ∀ a, S.less a a = false) (htrans : ∀ a b c, S.less a b = true → S.less b c = true → S.less a c = true)
    (hb : ∀ b ∈ breaks, HalfPt b.xy) {states new : List (Option (Chain F))} {i j : Nat} (hs : GoodStates breaks states)
    (ha : AllScored S measure breaks states) (h : tryLineQuad S measure breaks states i j = .ok new) :
    AllScored S measure breaks new ∧ (∀ a n, NotWorse S a n states → NotWorse S a n new) ∧
    ∀ bi bj, breaks[i]? = some bi → breaks[j]? = some bj → states[i]? = some none → i = 0 → i ≠ j → WholePt bi.xy →
      (∃ m, measure bi.s bj.s ⟨bi.xy, halfway bi.xy bj.xy, bj.xy⟩ = .ok m ∧ NotWorse S (S.combine none true m) j new) ∧
      (∀ mid, intersect bi.xy bi.dir bj.xy bj.dir = some mid → ∃ (m : F) (cheap : Bool),
        measure bi.s bj.s ⟨bi.xy, roundPt mid, bj.xy⟩ = .ok m ∧ (cheap = true ↔ Cheap none ⟨bi.xy, roundPt mid, bj.xy⟩) ∧
          NotWorse S (S.combine none cheap m) j new) := by
  have hgood := tryLineQuad_good hb hs h
  unfold tryLineQuad at h
  obtain ⟨b0, h1, h⟩ := Res.bind_inv h
  obtain ⟨b1, h2, h⟩ := Res.bind_inv h
  obtain ⟨mid, h3, h⟩ := Res.bind_inv h
  have g1 := breakAt_ok h1
  have g2 := breakAt_ok h2
  have k1 := hb _ (List.mem_of_getElem? g1)
  have k2 := hb _ (List.mem_of_getElem? g2)
  have hmid : GoodStates breaks mid ∧ AllScored S measure breaks mid ∧ (∀ a n, NotWorse S a n states → NotWorse S a n mid) ∧
      (WholePt b0.xy → states[i]? = some none → i = 0 → ∃ m, measure b0.s b1.s ⟨b0.xy, halfway b0.xy b1.xy, b1.xy⟩ = .ok m ∧
        NotWorse S (S.combine none true m) j mid) ∧ (states[i]? = some none → i ≠ j → mid[i]? = some none) := by
    unfold tryLine at h3
    split at h3
    · next hw =>
      obtain ⟨sc, hsc, h3⟩ := Res.bind_inv h3
      have hw := (intPt_half k1).mp hw
      have hpiece : Piece ⟨b0.xy, midPt b0.xy b1.xy, b1.xy⟩ := ⟨k1, k2, .inl ⟨midPt_halfway _ _, hw⟩⟩
      obtain ⟨n1, n2⟩ := tryQuad_best hirr htrans h3
      refine ⟨tryQuad_good hs h3 g1 g2 hpiece rfl rfl (.inl hw), tryQuad_scored hs ha h3 g1 g2 hpiece rfl rfl hsc, n1, ?_, ?_⟩
      · intro _ hn h0
        refine ⟨sc, by rw [← midPt_halfway]; exact hsc, ?_⟩
        have := n2 none hn (.inl h0)
        unfold Chain.extend at this
        rw [(piece_line hpiece).mpr (midPt_halfway _ _)] at this
        exact this
      · intro hn hij
        unfold tryQuad at h3
        obtain ⟨p, _, h3⟩ := Res.bind_inv h3
        split at h3
        · cases h3
          exact hn
        · obtain ⟨old, _, h3⟩ := Res.bind_inv h3
          cases old with
          | none =>
            cases h3
            rw [List.getElem?_set_ne (Ne.symm hij)]
            exact hn
          | some c =>
            simp only [Res.pure_eq] at h3
            cases h3
            split
            · rw [List.getElem?_set_ne (Ne.symm hij)]
              exact hn
            · exact hn
    · next hw =>
      cases h3
      exact ⟨hs, ha, fun _ _ h => h, fun h' => absurd ((intPt_half k1).mpr h') hw, fun h _ => h⟩
  obtain ⟨m1, m2, m3, m4, m5⟩ := hmid
  have hfin : AllScored S measure breaks new ∧ (∀ a n, NotWorse S a n mid → NotWorse S a n new) ∧
      (WholePt b0.xy → mid[i]? = some none → i = 0 → ∀ x, intersect b0.xy b0.dir b1.xy b1.dir = some x → ∃ (m : F) (cheap : Bool),
        measure b0.s b1.s ⟨b0.xy, roundPt x, b1.xy⟩ = .ok m ∧ (cheap = true ↔ Cheap none ⟨b0.xy, roundPt x, b1.xy⟩) ∧
          NotWorse S (S.combine none cheap m) j new) := by
    unfold tryCurve at h
    split at h
    · next hi =>
      cases h
      exact ⟨m2, fun _ _ h => h, fun _ _ _ x hx => by rw [hi] at hx; cases hx⟩
    · next x hi =>
      have hpiece : Piece ⟨b0.xy, roundPt x, b1.xy⟩ := ⟨k1, k2, .inr (roundPt_whole _)⟩
      obtain ⟨p, h4, h⟩ := Res.bind_inv h
      split at h
      · obtain ⟨sc, hsc, h⟩ := Res.bind_inv h
        obtain ⟨n1, n2⟩ := tryQuad_best hirr htrans h
        refine ⟨tryQuad_scored m1 m2 h g1 g2 hpiece rfl rfl hsc, n1, ?_⟩
        intro _ hn h0 x' hx'
        rw [hi] at hx'
        cases hx'
        exact ⟨sc, _, hsc, line_cheap hpiece, n2 none hn (.inl h0)⟩
      · next hok =>
        cases h
        refine ⟨m2, fun _ _ h => h, ?_⟩
        intro hw _ _
        refine absurd ?_ hok
        unfold okForHalf
        simp only
        rw [(intPt_half k1).mpr hw]
        rfl
  refine ⟨hfin.1, fun a n h => hfin.2.1 a n (m3 a n h), ?_⟩
  intro bi bj hi hj hn h0 hij hw
  rw [g1] at hi
  rw [g2] at hj
  cases hi
  cases hj
  obtain ⟨m, hm, hw'⟩ := m4 hw hn h0
  exact ⟨⟨m, hm, hfin.2.1 _ _ hw'⟩, hfin.2.2 hw (m5 hn hij) h0⟩

theorem tryAll_best (hirr : ∀ a, S.less a a = false) (htrans : ∀ a b c, S.less a b = true → S.less b c = true → S.less a c = true)
    (hb : ∀ b ∈ breaks, HalfPt b.xy) : ∀ (l : List (Nat × Nat)) {states new : List (Option (Chain F))}, GoodStates breaks states →
    AllScored S measure breaks states → tryAll S measure breaks l states = .ok new →
    AllScored S measure breaks new ∧ ∀ a n, NotWorse S a n states → NotWorse S a n new
  | [], _, _, _, ha, h => by
    cases h
    exact ⟨ha, fun _ _ h => h⟩
  | (i, j) :: l, states, new, hs, ha, h => by
    unfold tryAll at h
    obtain ⟨mid, h1, h⟩ := Res.bind_inv h
    obtain ⟨g1, g2, _⟩ := tryLineQuad_best hirr htrans hb hs ha h1
    obtain ⟨g3, g4⟩ := tryAll_best hirr htrans hb l (tryLineQuad_good hb hs h1) g1 h
    exact ⟨g3, fun a n h => g4 a n (g2 a n h)⟩

/-- **C102** (the best of what is tried). If scores are compared in any sensible way (nothing is less than itself, and what is less than
something lesser is less), the score of what is returned is the sum over its curves, and neither a single straight line nor the single curve
with the directions of the ends would have had a lesser one. -/
theorem C102_best (hirr : ∀ a, S.less a a = false) (htrans : ∀ a b c, S.less a b = true → S.less b c = true → S.less a c = true)
    (hb : ∀ b ∈ breaks, HalfPt b.xy) {b0 bn : Break} (h0 : breaks.head? = some b0) (hn : breaks.getLast? = some bn) (h2 : 2 ≤ breaks.length)
    {qs : List Quad} (h : search S measure breaks = .ok (some qs)) :
    ∃ x, Scored S measure breaks (breaks.length - 1) qs x ∧
      (∃ m, measure b0.s bn.s ⟨b0.xy, halfway b0.xy bn.xy, bn.xy⟩ = .ok m ∧ S.less (S.combine none true m) x = false) ∧
      ∀ mid, intersect b0.xy b0.dir bn.xy bn.dir = some mid → ∃ (m : F) (cheap : Bool), measure b0.s bn.s ⟨b0.xy, roundPt mid, bn.xy⟩ = .ok m ∧
        (cheap = true ↔ Cheap none ⟨b0.xy, roundPt mid, bn.xy⟩) ∧ S.less (S.combine none cheap m) x = false := by
  have hw : WholePt b0.xy := by
    by_contra hno
    rw [(C102_declines (S := S) (measure := measure) hb h0).1 hno] at h
    cases h
  rw [List.head?_eq_getElem?] at h0
  rw [List.getLast?_eq_getElem?] at hn
  unfold search at h
  split at h
  · cases h
  obtain ⟨s1, h1, h⟩ := Res.bind_inv h
  have hgood1 := tryLineQuad_good hb start_good h1
  have hstart : AllScored S measure breaks (List.replicate breaks.length none) := by
    intro i c h
    rw [List.getElem?_replicate] at h
    split at h <;> cases h
  obtain ⟨a1, _, a3⟩ := tryLineQuad_best hirr htrans hb start_good hstart h1
  obtain ⟨⟨ml, e1, w1⟩, w2⟩ := a3 b0 bn h0 hn (by rw [List.getElem?_replicate, if_pos (by omega)]) rfl (by omega) hw
  have key : ∀ {states : List (Option (Chain F))} {c : Chain F}, AllScored S measure breaks states →
      (∀ a, NotWorse S a (breaks.length - 1) s1 → NotWorse S a (breaks.length - 1) states) → stateAt states (breaks.length - 1) = .ok (some c) →
      c.quads = qs → ∃ x, Scored S measure breaks (breaks.length - 1) qs x ∧
      (∃ m, measure b0.s bn.s ⟨b0.xy, halfway b0.xy bn.xy, bn.xy⟩ = .ok m ∧ S.less (S.combine none true m) x = false) ∧
      ∀ mid, intersect b0.xy b0.dir bn.xy bn.dir = some mid → ∃ (m : F) (cheap : Bool), measure b0.s bn.s ⟨b0.xy, roundPt mid, bn.xy⟩ = .ok m ∧
        (cheap = true ↔ Cheap none ⟨b0.xy, roundPt mid, bn.xy⟩) ∧ S.less (S.combine none cheap m) x = false := by
    rintro states c hs hk hc rfl
    have hc := stateAt_ok hc
    have use : ∀ a, NotWorse S a (breaks.length - 1) s1 → S.less a c.score = false := by
      intro a ha
      obtain ⟨d, hd, hl⟩ := hk a ha
      rw [hc] at hd
      cases hd
      exact hl
    refine ⟨c.score, hs _ c hc, ⟨ml, e1, use _ w1⟩, ?_⟩
    intro mid hmid
    obtain ⟨m, cheap, e2, e3, w3⟩ := w2 mid hmid
    exact ⟨m, cheap, e2, e3, use _ w3⟩
  obtain ⟨o1, h3, h⟩ := Res.bind_inv h
  cases o1 with
  | none => cases h
  | some c1 =>
    simp only at h
    split at h
    · obtain ⟨s2, h4, h⟩ := Res.bind_inv h
      obtain ⟨a4, a5⟩ := tryAll_best hirr htrans hb _ hgood1 a1 h4
      have hgood2 := tryAll_good hb _ hgood1 h4
      obtain ⟨o2, h5, h⟩ := Res.bind_inv h
      cases o2 with
      | none => cases h
      | some c2 =>
        simp only at h
        split at h
        · obtain ⟨s3, h6, h⟩ := Res.bind_inv h
          obtain ⟨a6, a7⟩ := tryAll_best hirr htrans hb _ hgood2 a4 h6
          obtain ⟨o3, h7, h⟩ := Res.bind_inv h
          cases o3 with
          | none => cases h
          | some c3 =>
            simp only [Res.pure_eq] at h
            cases h
            exact key a6 (fun a ha => a7 a _ (a5 a _ ha)) h7 rfl
        · simp only [Res.pure_eq] at h
          cases h
          exact key a4 (fun a ha => a5 a _ ha) h5 rfl
    · simp only [Res.pure_eq] at h
      cases h
      exact key a1 (fun _ h => h) h3 rfl

/-- Comparing by `<` is sensible. -/
example : (∀ a, plainScores.less a a = false) ∧ ∀ a b c, plainScores.less a b = true → plainScores.less b c = true → plainScores.less a c = true := by
  constructor
  · intro a
    simp [plainScores]
  · intro a b c h1 h2
    simp only [plainScores, decide_eq_true_eq] at *
    exact h1.trans h2

end FT.Props
