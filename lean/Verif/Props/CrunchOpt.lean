import Verif.Model.CrunchOpt
import Verif.Props.Crunch
import Mathlib.Tactic.Linarith
import Mathlib.Tactic.FieldSimp
import Mathlib.Tactic.Ring

/-!
C102: what the optimiser of `fontcrunch` makes of a stretch.
-/

namespace FT.Props
open FT FT.Glyf FT.Crunch

/-! ### Specification -/

/-- Both coordinates are whole numbers. -/
def WholePt (p : Pt) : Prop := ∃ a b : ℤ, p = ⟨a, b⟩

/-- Both coordinates are whole numbers or halves. -/
def HalfPt (p : Pt) : Prop := ∃ a b : ℤ, p = ⟨a / 2, b / 2⟩

/-- The point halfway. -/
def halfway (p q : Pt) : Pt := ⟨(p.x + q.x) / 2, (p.y + q.y) / 2⟩

/-- Curves from one point to another, each beginning where the one before ends. -/
inductive Connected : Pt → List Quad → Pt → Prop
  | one (q : Quad) : Connected q.p0 [q] q.p2
  | more (q : Quad) {l : List Quad} {p : Pt} : Connected q.p2 l p → Connected q.p0 (q :: l) p

/-- A piece: a straight line from a point with whole coordinates, or a curve whose control point has whole coordinates. -/
def Piece (q : Quad) : Prop := HalfPt q.p0 ∧ HalfPt q.p2 ∧ ((q.p1 = halfway q.p0 q.p2 ∧ WholePt q.p0) ∨ WholePt q.p1)

/-- What may come after what: the point between has whole coordinates, or is halfway between two control points which have them, and
so need not be stored. -/
def Joint (a b : Quad) : Prop :=
  WholePt b.p0 ∨ (WholePt a.p1 ∧ WholePt b.p1 ∧ a.p1 ≠ halfway a.p0 a.p2 ∧ b.p1 ≠ halfway b.p0 b.p2 ∧ b.p0 = halfway a.p1 b.p1)

/-! ### Whole numbers and halves -/

theorem whole_half {p : Pt} (h : WholePt p) : HalfPt p := by
  obtain ⟨a, b, rfl⟩ := h
  exact ⟨2 * a, 2 * b, by push_cast; congr 1 <;> ring⟩

theorem isClose_half {a b : ℤ} : isClose ((a : ℚ) / 4) (b / 4) = true ↔ a = b := by
  unfold isClose
  rw [decide_eq_true_iff]
  constructor
  · intro h
    by_contra hne
    have h1 : (1 : ℤ) ≤ |a - b| := Int.one_le_abs (sub_ne_zero.mpr hne)
    have h2 : (1 : ℚ) ≤ |(a : ℚ) - b| := by exact_mod_cast h1
    have h3 : (a : ℚ) / 4 - b / 4 = (a - b) / 4 := by ring
    rw [h3, abs_div] at h
    norm_num at h
    linarith
  · rintro rfl
    simp

theorem isInt_half (a : ℤ) : isInt ((a : ℚ) / 2) = true ↔ ∃ b : ℤ, (a : ℚ) / 2 = b := by
  unfold isInt
  have h : (a : ℚ) / 2 - ⌊(a : ℚ) / 2⌋ = ((2 * a - 4 * ⌊(a : ℚ) / 2⌋ : ℤ) : ℚ) / 4 := by push_cast; ring
  rw [h, show (0 : ℚ) = ((0 : ℤ) : ℚ) / 4 by simp, isClose_half]
  constructor
  · intro e
    refine ⟨⌊(a : ℚ) / 2⌋, ?_⟩
    have : (2 * a - 4 * ⌊(a : ℚ) / 2⌋ : ℚ) = 0 := by exact_mod_cast e
    linarith
  · rintro ⟨b, hb⟩
    have h1 : ⌊(a : ℚ) / 2⌋ = b := by rw [hb]; exact Int.floor_intCast b
    have h2 : a = 2 * b := by
      have : (a : ℚ) = 2 * b := by linarith
      exact_mod_cast this
    rw [h1, h2]
    ring

theorem intPt_half {p : Pt} (h : HalfPt p) : intPt p = true ↔ WholePt p := by
  obtain ⟨a, b, rfl⟩ := h
  unfold intPt WholePt
  rw [Bool.and_eq_true, isInt_half, isInt_half]
  constructor
  · rintro ⟨⟨c, hc⟩, d, hd⟩
    exact ⟨c, d, by rw [hc, hd]⟩
  · rintro ⟨c, d, h⟩
    rw [Pt.mk.injEq] at h
    exact ⟨⟨c, h.1⟩, d, h.2⟩

theorem midPt_halfway (p q : Pt) : midPt p q = halfway p q := by
  unfold midPt halfway
  congr 1 <;> ring

theorem close_quarters {p q : Pt} (hp : ∃ a b : ℤ, p = ⟨a / 4, b / 4⟩) (hq : ∃ a b : ℤ, q = ⟨a / 4, b / 4⟩) : closePt p q = true ↔ p = q := by
  obtain ⟨a, b, rfl⟩ := hp
  obtain ⟨c, d, rfl⟩ := hq
  unfold closePt
  rw [Bool.and_eq_true, isClose_half, isClose_half]
  constructor
  · rintro ⟨rfl, rfl⟩
    rfl
  · intro h
    rw [Pt.mk.injEq] at h
    refine ⟨?_, ?_⟩
    · have : (a : ℚ) = c := by linarith [h.1]
      exact_mod_cast this
    · have : (b : ℚ) = d := by linarith [h.2]
      exact_mod_cast this

theorem half_quarters {p : Pt} (h : HalfPt p) : ∃ a b : ℤ, p = ⟨a / 4, b / 4⟩ := by
  obtain ⟨a, b, rfl⟩ := h
  exact ⟨2 * a, 2 * b, by push_cast; congr 1 <;> ring⟩

theorem halfway_quarters {p q : Pt} (hp : HalfPt p) (hq : HalfPt q) : ∃ a b : ℤ, halfway p q = ⟨a / 4, b / 4⟩ := by
  obtain ⟨a, b, rfl⟩ := hp
  obtain ⟨c, d, rfl⟩ := hq
  refine ⟨a + c, b + d, ?_⟩
  unfold halfway
  push_cast
  congr 1 <;> ring

theorem isLine_half {q : Quad} (h0 : HalfPt q.p0) (h1 : ∃ a b : ℤ, q.p1 = ⟨a / 4, b / 4⟩) (h2 : HalfPt q.p2) :
    q.isLine = true ↔ q.p1 = halfway q.p0 q.p2 := by
  have : q.isLine = closePt q.p1 (midPt q.p0 q.p2) := rfl
  rw [this, midPt_halfway, close_quarters h1 (halfway_quarters h0 h2)]

theorem piece_line {q : Quad} (h : Piece q) : q.isLine = true ↔ q.p1 = halfway q.p0 q.p2 := by
  obtain ⟨h0, h2, h⟩ := h
  refine isLine_half h0 ?_ h2
  rcases h with ⟨h, _⟩ | h
  · rw [h]
    exact halfway_quarters h0 h2
  · exact half_quarters (whole_half h)

theorem smooth_joint {a b : Quad} (ha : Piece a) (hb : Piece b) (hl : b.isLine = false) (h : smooth a b = true) : Joint a b := by
  unfold smooth at h
  rw [Bool.and_eq_true, Bool.not_eq_true'] at h
  have na : a.p1 ≠ halfway a.p0 a.p2 := fun e => by rw [(piece_line ha).mpr e] at h; cases h.1
  have nb : b.p1 ≠ halfway b.p0 b.p2 := fun e => by rw [(piece_line hb).mpr e] at hl; cases hl
  have wa : WholePt a.p1 := by
    rcases ha.2.2 with ⟨e, _⟩ | e
    · exact absurd e na
    · exact e
  have wb : WholePt b.p1 := by
    rcases hb.2.2 with ⟨e, _⟩ | e
    · exact absurd e nb
    · exact e
  refine .inr ⟨wa, wb, na, nb, ?_⟩
  rw [midPt_halfway, close_quarters (halfway_quarters (whole_half wa) (whole_half wb)) (half_quarters hb.1)] at h
  exact h.2.symm

/-! ### The search -/

variable {F : Type} {S : Scores F} {measure : ℚ → ℚ → Quad → Res F} {breaks : List Break}

/-- The state for a break is a chain of curves from the first break. -/
def GoodChain (breaks : List Break) (i : Nat) (c : Chain F) : Prop :=
  ∃ b0 b, breaks[0]? = some b0 ∧ breaks[i]? = some b ∧ Connected b0.xy c.quads b.xy ∧ (∀ q ∈ c.quads, Piece q ∧ ∃ b ∈ breaks, q.p2 = b.xy) ∧
    c.quads.IsChain Joint

def GoodStates (breaks : List Break) (states : List (Option (Chain F))) : Prop :=
  states.length = breaks.length ∧ ∀ i c, states[i]? = some (some c) → GoodChain breaks i c

theorem connected_append {p r : Pt} {l : List Quad} (h : Connected p l r) (q : Quad) (e : q.p0 = r) : Connected p (l ++ [q]) q.p2 := by
  induction h with
  | one a =>
    subst_vars
    exact .more a (e ▸ .one q)
  | more a _ ih => exact .more a (ih e)

theorem extend_good {p : Option (Chain F)} {score : F} {q : Quad} {i j : Nat} {bi bj : Break} (hp : ∀ c, p = some c → GoodChain breaks i c)
    (h0 : p = none → i = 0) (hi : breaks[i]? = some bi) (hj : breaks[j]? = some bj) (hq : Piece q) (e0 : q.p0 = bi.xy) (e2 : q.p2 = bj.xy)
    (hjoint : WholePt q.p0 ∨ ∀ c, p = some c → smooth c.quad q = true ∧ q.isLine = false) :
    GoodChain breaks j (Chain.extend S p score q) := by
  cases p with
  | none =>
    obtain rfl := h0 rfl
    refine ⟨bi, bj, hi, hj, ?_, ?_, ?_⟩
    · rw [← e0, ← e2]
      exact .one q
    · intro x hx
      simp only [Chain.extend, Chain.quads, List.reverse_cons, List.reverse_nil, List.nil_append, List.mem_singleton] at hx
      subst hx
      exact ⟨hq, bj, List.mem_of_getElem? hj, e2⟩
    · simp [Chain.extend, Chain.quads]
  | some c =>
    obtain ⟨b0, b, h1, h2, h3, h4, h5⟩ := hp c rfl
    rw [hi] at h2
    cases h2
    have hquads : (Chain.extend S (some c) score q).quads = c.quads ++ [q] := by
      simp [Chain.extend, Chain.quads]
    refine ⟨b0, bj, h1, hj, ?_, ?_, ?_⟩
    · rw [hquads, ← e2]
      exact connected_append h3 q e0
    · rw [hquads]
      intro x hx
      rcases List.mem_append.mp hx with hx | hx
      · exact h4 x hx
      · simp only [List.mem_singleton] at hx
        subst hx
        exact ⟨hq, bj, List.mem_of_getElem? hj, e2⟩
    · rw [hquads]
      refine List.isChain_append.mpr ⟨h5, by simp, ?_⟩
      intro x hx y hy
      simp only [List.head?_cons, Option.mem_def, Option.some.injEq] at hy
      subst hy
      have hlast : c.quads.getLast? = some c.quad := by simp [Chain.quads]
      rw [Option.mem_def, hlast] at hx
      cases hx
      rcases hjoint with h | h
      · exact .inl h
      · obtain ⟨k1, k2⟩ := h c rfl
        exact smooth_joint (h4 c.quad (by simp [Chain.quads])).1 hq k2 k1

theorem stateAt_ok {states : List (Option (Chain F))} {i : Nat} {s : Option (Chain F)} (h : stateAt states i = .ok s) : states[i]? = some s := by
  unfold stateAt at h
  split at h
  · cases h
    assumption
  · cases h

theorem breakAt_ok {i : Nat} {b : Break} (h : breakAt breaks i = .ok b) : breaks[i]? = some b := by
  unfold breakAt at h
  split at h
  · cases h
    assumption
  · cases h

theorem set_good {states : List (Option (Chain F))} {j : Nat} {c : Chain F} (hs : GoodStates breaks states) (hc : GoodChain breaks j c) :
    GoodStates breaks (states.set j (some c)) := by
  refine ⟨by rw [List.length_set, hs.1], ?_⟩
  intro i d h
  rw [List.getElem?_set] at h
  split at h
  · next e =>
    subst e
    split at h
    · cases h
      exact hc
    · cases h
  · exact hs.2 i d h

theorem tryQuad_good {score : F} {states new : List (Option (Chain F))} {i j : Nat} {bi bj : Break} {q : Quad} (hs : GoodStates breaks states)
    (h : tryQuad S score states i j q = .ok new) (hi : breaks[i]? = some bi) (hj : breaks[j]? = some bj) (hq : Piece q) (e0 : q.p0 = bi.xy)
    (e2 : q.p2 = bj.xy) (hjoint : WholePt q.p0 ∨ ∀ c, states[i]? = some (some c) → smooth c.quad q = true ∧ q.isLine = false) :
    GoodStates breaks new := by
  unfold tryQuad at h
  obtain ⟨p, h1, h⟩ := Res.bind_inv h
  have hp := stateAt_ok h1
  split at h
  · cases h
    exact hs
  · next hne =>
    obtain ⟨old, h2, h⟩ := Res.bind_inv h
    have hgood : GoodChain breaks j (Chain.extend S p score q) := by
      refine extend_good (fun c hc => hs.2 i c (by rw [hp, hc])) (fun hn => ?_) hi hj hq e0 e2 ?_
      · by_contra h0
        exact hne ⟨h0, by rw [hn]; rfl⟩
      · rcases hjoint with k | k
        · exact .inl k
        · exact .inr fun c hc => k c (by rw [hp, hc])
    cases old with
    | none =>
      cases h
      exact set_good hs hgood
    | some c =>
      simp only [Res.pure_eq] at h
      cases h
      split
      · exact set_good hs hgood
      · exact hs

theorem roundPt_whole (p : Pt) : WholePt (roundPt p) := ⟨_, _, rfl⟩

theorem roundHalf_half (p : Pt) : HalfPt (roundHalf p) := ⟨roundAway (2 * p.x), roundAway (2 * p.y), by unfold roundHalf; congr 1 <;> ring⟩

theorem tryLineQuad_good (hb : ∀ b ∈ breaks, HalfPt b.xy) {states new : List (Option (Chain F))} {i j : Nat} (hs : GoodStates breaks states)
    (h : tryLineQuad S measure breaks states i j = .ok new) : GoodStates breaks new := by
  unfold tryLineQuad at h
  obtain ⟨b0, h1, h⟩ := Res.bind_inv h
  obtain ⟨b1, h2, h⟩ := Res.bind_inv h
  obtain ⟨mid, h3, h⟩ := Res.bind_inv h
  have g1 := breakAt_ok h1
  have g2 := breakAt_ok h2
  have k1 := hb _ (List.mem_of_getElem? g1)
  have k2 := hb _ (List.mem_of_getElem? g2)
  have hm : GoodStates breaks mid := by
    unfold tryLine at h3
    split at h3
    · next hw =>
      obtain ⟨sc, _, h3⟩ := Res.bind_inv h3
      have hw := (intPt_half k1).mp hw
      exact tryQuad_good hs h3 g1 g2 ⟨k1, k2, .inl ⟨midPt_halfway _ _, hw⟩⟩ rfl rfl (.inl hw)
    · cases h3
      exact hs
  unfold tryCurve at h
  split at h
  · cases h
    exact hm
  · next m hi =>
    obtain ⟨p, h4, h⟩ := Res.bind_inv h
    have g4 := stateAt_ok h4
    split at h
    · next hok =>
      obtain ⟨sc, _, h⟩ := Res.bind_inv h
      refine tryQuad_good hm h g1 g2 ⟨k1, k2, .inr (roundPt_whole _)⟩ rfl rfl ?_
      unfold okForHalf at hok
      split at hok
      · next hw => exact .inl ((intPt_half k1).mp hw)
      · right
        intro c hc
        rw [g4] at hc
        cases hc
        split at hok
        · cases hok
        · next hl => exact ⟨hok, by simpa using hl⟩
    · cases h
      exact hm

theorem tryAll_good (hb : ∀ b ∈ breaks, HalfPt b.xy) : ∀ (l : List (Nat × Nat)) {states new : List (Option (Chain F))}, GoodStates breaks states →
    tryAll S measure breaks l states = .ok new → GoodStates breaks new
  | [], _, _, hs, h => by
    cases h
    exact hs
  | (i, j) :: l, states, new, hs, h => by
    unfold tryAll at h
    obtain ⟨mid, h1, h⟩ := Res.bind_inv h
    exact tryAll_good hb l (tryLineQuad_good hb hs h1) h

theorem start_good : GoodStates breaks (List.replicate breaks.length (none : Option (Chain F))) := by
  refine ⟨by simp, ?_⟩
  intro i c h
  rw [List.getElem?_replicate] at h
  split at h <;> cases h

/-- **C102** (what is returned). Curves from the first break to the last, each beginning at a break where the one before ends. The ends
have whole or half coordinates; control points of curves have whole ones. Where two curves meet at a point that has not, it is halfway
between their control points, so that it is implied. -/
theorem C102_search (hb : ∀ b ∈ breaks, HalfPt b.xy) {qs : List Quad} (h : search S measure breaks = .ok (some qs)) :
    ∃ b0 bn, breaks.head? = some b0 ∧ breaks.getLast? = some bn ∧ Connected b0.xy qs bn.xy ∧ (∀ q ∈ qs, Piece q ∧ ∃ b ∈ breaks, q.p2 = b.xy) ∧
      qs.IsChain Joint := by
  unfold search at h
  split at h
  · cases h
  have key : ∀ {states : List (Option (Chain F))} {c : Chain F}, GoodStates breaks states → stateAt states (breaks.length - 1) = .ok (some c) →
      c.quads = qs → ∃ b0 bn, breaks.head? = some b0 ∧ breaks.getLast? = some bn ∧ Connected b0.xy qs bn.xy ∧
        (∀ q ∈ qs, Piece q ∧ ∃ b ∈ breaks, q.p2 = b.xy) ∧ qs.IsChain Joint := by
    rintro states c hs hc rfl
    obtain ⟨b0, bn, g1, g2, g3, g4, g5⟩ := hs.2 _ c (stateAt_ok hc)
    exact ⟨b0, bn, by rw [List.head?_eq_getElem?]; exact g1, by rw [List.getLast?_eq_getElem?]; exact g2, g3, g4, g5⟩
  obtain ⟨s1, h1, h⟩ := Res.bind_inv h
  have g1 := tryLineQuad_good hb start_good h1
  obtain ⟨o1, h2, h⟩ := Res.bind_inv h
  cases o1 with
  | none => cases h
  | some c1 =>
    simp only at h
    split at h
    · obtain ⟨s2, h3, h⟩ := Res.bind_inv h
      have g2 := tryAll_good hb _ g1 h3
      obtain ⟨o2, h4, h⟩ := Res.bind_inv h
      cases o2 with
      | none => cases h
      | some c2 =>
        simp only at h
        split at h
        · obtain ⟨s3, h5, h⟩ := Res.bind_inv h
          have g3 := tryAll_good hb _ g2 h5
          obtain ⟨o3, h6, h⟩ := Res.bind_inv h
          cases o3 with
          | none => cases h
          | some c3 =>
            simp only [Res.pure_eq] at h
            cases h
            exact key g3 h6 rfl
        · simp only [Res.pure_eq] at h
          cases h
          exact key g2 h4 rfl
    · simp only [Res.pure_eq] at h
      cases h
      exact key g1 h2 rfl

/-! ### Whether anything is returned -/

/-- A state that is there stays there. -/
def Reached (n : Nat) (states : List (Option (Chain F))) : Prop := ∃ c, states[n]? = some (some c)

theorem stateAt_some {states : List (Option (Chain F))} {i : Nat} (h : i < states.length) : ∃ s, stateAt states i = .ok s ∧ states[i]? = some s := by
  refine ⟨states[i], ?_, List.getElem?_eq_getElem h⟩
  unfold stateAt
  rw [List.getElem?_eq_getElem h]

theorem tryQuad_total (score : F) {states : List (Option (Chain F))} {i j : Nat} (q : Quad) (hi : i < states.length) (hj : j < states.length) :
    ∃ new, tryQuad S score states i j q = .ok new ∧ new.length = states.length ∧ (∀ n, Reached n states → Reached n new) ∧
      ((i = 0 ∨ Reached i states) → Reached j new) := by
  obtain ⟨p, h1, h1'⟩ := stateAt_some hi
  obtain ⟨o, h2, h2'⟩ := stateAt_some hj
  have hset : ∀ c : Chain F, Reached j (states.set j (some c)) := fun c => ⟨c, by rw [List.getElem?_set_self hj]⟩
  have hkeep : ∀ (c : Chain F) n, Reached n states → Reached n (states.set j (some c)) := by
    rintro c n ⟨d, hd⟩
    by_cases e : j = n
    · subst e
      exact hset c
    · exact ⟨d, by rw [List.getElem?_set_ne e]; exact hd⟩
  unfold tryQuad
  rw [h1, Res.ok_bind]
  split
  · next h =>
    refine ⟨states, rfl, rfl, fun _ h => h, ?_⟩
    rintro (h0 | ⟨c, hc⟩)
    · exact absurd h0 h.1
    · rw [h1'] at hc
      cases hc
      cases h.2
  · rw [h2, Res.ok_bind]
    cases o with
    | none => exact ⟨_, rfl, by simp, hkeep _, fun _ => hset _⟩
    | some c =>
      simp only [Res.pure_eq]
      refine ⟨_, rfl, ?_, ?_, ?_⟩
      · split <;> simp
      · intro n hn
        split
        · exact hkeep _ n hn
        · exact hn
      · intro _
        split
        · exact hset _
        · exact ⟨c, h2'⟩

theorem tryLineQuad_total (hm : ∀ a b q, ∃ m, measure a b q = .ok m) {states : List (Option (Chain F))} {i j : Nat}
    (hs : states.length = breaks.length) (hi : i < breaks.length) (hj : j < breaks.length) :
    ∃ new, tryLineQuad S measure breaks states i j = .ok new ∧ new.length = breaks.length ∧ (∀ n, Reached n states → Reached n new) ∧
      (∀ b0, breaks[i]? = some b0 → intPt b0.xy = true → i = 0 → Reached j new) := by
  obtain ⟨b0, e0⟩ : ∃ b0, breaks[i]? = some b0 := ⟨_, List.getElem?_eq_getElem hi⟩
  obtain ⟨b1, e1⟩ : ∃ b1, breaks[j]? = some b1 := ⟨_, List.getElem?_eq_getElem hj⟩
  have a0 : breakAt breaks i = .ok b0 := by unfold breakAt; rw [e0]
  have a1 : breakAt breaks j = .ok b1 := by unfold breakAt; rw [e1]
  obtain ⟨mid, k1, k2, k3, k4⟩ : ∃ mid, tryLine S measure i j b0 b1 states = .ok mid ∧ mid.length = breaks.length ∧
      (∀ n, Reached n states → Reached n mid) ∧ (intPt b0.xy = true → i = 0 → Reached j mid) := by
    unfold tryLine
    split
    · obtain ⟨m, hm⟩ := hm b0.s b1.s ⟨b0.xy, midPt b0.xy b1.xy, b1.xy⟩
      obtain ⟨new, g1, g2, g3, g4⟩ := tryQuad_total (S := S) m (states := states) (i := i) (j := j) ⟨b0.xy, midPt b0.xy b1.xy, b1.xy⟩ (by omega) (by omega)
      exact ⟨new, by simp only; rw [hm, Res.ok_bind]; exact g1, by rw [g2, hs], g3, fun _ h => g4 (.inl h)⟩
    · next h => exact ⟨states, rfl, hs, fun _ h => h, fun h' => absurd h' h⟩
  obtain ⟨new, l1, l2, l3⟩ : ∃ new, tryCurve S measure i j b0 b1 mid = .ok new ∧ new.length = breaks.length ∧ ∀ n, Reached n mid → Reached n new := by
    unfold tryCurve
    split
    · exact ⟨mid, rfl, k2, fun _ h => h⟩
    · next m _ =>
      obtain ⟨p, h1, _⟩ := stateAt_some (states := mid) (i := i) (by omega)
      rw [h1, Res.ok_bind]
      split
      · obtain ⟨m', hm⟩ := hm b0.s b1.s ⟨b0.xy, roundPt m, b1.xy⟩
        obtain ⟨new, g1, g2, g3, g4⟩ := tryQuad_total (S := S) m' (states := mid) (i := i) (j := j) ⟨b0.xy, roundPt m, b1.xy⟩ (by omega) (by omega)
        exact ⟨new, by rw [hm, Res.ok_bind]; exact g1, by rw [g2, k2], g3⟩
      · exact ⟨mid, rfl, k2, fun _ h => h⟩
  refine ⟨new, ?_, l2, fun n h => l3 n (k3 n h), ?_⟩
  · unfold tryLineQuad
    rw [a0, Res.ok_bind, a1, Res.ok_bind, k1, Res.ok_bind, l1]
  · intro b hb hint h0
    rw [e0] at hb
    cases hb
    exact l3 j (k4 hint h0)

theorem tryAll_total (hm : ∀ a b q, ∃ m, measure a b q = .ok m) : ∀ (l : List (Nat × Nat)) {states : List (Option (Chain F))},
    states.length = breaks.length → (∀ x ∈ l, x.1 < breaks.length ∧ x.2 < breaks.length) →
    ∃ new, tryAll S measure breaks l states = .ok new ∧ new.length = breaks.length ∧ ∀ n, Reached n states → Reached n new
  | [], states, hs, _ => ⟨states, rfl, hs, fun _ h => h⟩
  | (i, j) :: l, states, hs, hl => by
    obtain ⟨mid, h1, h2, h3, _⟩ := tryLineQuad_total (S := S) hm hs (hl (i, j) (by simp)).1 (hl (i, j) (by simp)).2
    obtain ⟨new, h4, h5, h6⟩ := tryAll_total hm l h2 fun x hx => hl x (by simp [hx])
    refine ⟨new, ?_, h5, fun n h => h6 n (h3 n h)⟩
    unfold tryAll
    rw [h1, Res.ok_bind, h4]

theorem splitPairs_lt {n : Nat} : ∀ x ∈ splitPairs n, x.1 < n + 1 ∧ x.2 < n + 1 := by
  intro x hx
  unfold splitPairs at hx
  obtain ⟨i, hi, hx⟩ := List.mem_flatMap.mp hx
  rw [List.mem_range'_1] at hi
  simp only [List.mem_cons, List.not_mem_nil, or_false] at hx
  rcases hx with rfl | rfl <;> simp <;> omega

theorem allPairs_lt {n : Nat} : ∀ x ∈ allPairs n, x.1 < n + 1 ∧ x.2 < n + 1 := by
  intro x hx
  unfold allPairs at hx
  obtain ⟨i, hi, hx⟩ := List.mem_flatMap.mp hx
  rw [List.mem_range'_1] at hi
  obtain ⟨j, hj, rfl⟩ := List.mem_map.mp hx
  rw [List.mem_reverse, List.mem_range] at hj
  simp only
  omega

/-- **C102** (whether anything is returned). If measuring does not panic, curves are returned exactly if the first break has whole
coordinates; otherwise the optimiser declines. -/
theorem C102_declines (hb : ∀ b ∈ breaks, HalfPt b.xy) {b0 : Break} (h0 : breaks.head? = some b0) :
    (¬ WholePt b0.xy → search S measure breaks = .ok none) ∧
    (WholePt b0.xy → (∀ a b q, ∃ m, measure a b q = .ok m) → ∃ qs, search S measure breaks = .ok (some qs)) := by
  have hne : breaks.isEmpty = false := by cases breaks <;> simp_all
  have hlen : 0 < breaks.length := by cases breaks <;> simp_all
  have g0 : breaks[0]? = some b0 := by rw [← List.head?_eq_getElem?]; exact h0
  have k0 := hb b0 (List.mem_of_getElem? g0)
  constructor
  · intro hw
    have hi : intPt b0.xy = false := by
      rw [← Bool.not_eq_true]
      exact fun h => hw ((intPt_half k0).mp h)
    obtain ⟨bn, gn⟩ : ∃ bn, breaks[breaks.length - 1]? = some bn := ⟨_, List.getElem?_eq_getElem (by omega)⟩
    have hst : stateAt (List.replicate breaks.length (none : Option (Chain F))) 0 = .ok none := by
      unfold stateAt
      rw [List.getElem?_replicate, if_pos hlen]
    have hsn : stateAt (List.replicate breaks.length (none : Option (Chain F))) (breaks.length - 1) = .ok none := by
      unfold stateAt
      rw [List.getElem?_replicate, if_pos (by omega)]
    have hlq : tryLineQuad S measure breaks (List.replicate breaks.length none) 0 (breaks.length - 1) = .ok (List.replicate breaks.length none) := by
      unfold tryLineQuad breakAt
      rw [g0, Res.ok_bind, gn, Res.ok_bind]
      unfold tryLine
      rw [hi, if_neg (by simp), Res.ok_bind]
      unfold tryCurve
      split
      · rfl
      · rw [hst, Res.ok_bind]
        have : okForHalf (none : Option (Chain F)) ⟨b0.xy, roundPt ‹Pt›, bn.xy⟩ = false := by
          unfold okForHalf
          simp only [hi]
          simp
        rw [this]
        rfl
    unfold search
    rw [if_neg (by simp [hne])]
    simp only
    rw [hlq, Res.ok_bind, hsn, Res.ok_bind]
    rfl
  · intro hw hm
    have hi := (intPt_half k0).mpr hw
    unfold search
    rw [if_neg (by simp [hne])]
    simp only
    obtain ⟨s1, e1, l1, _, r1⟩ := tryLineQuad_total (S := S) hm (states := List.replicate breaks.length none) (i := 0) (j := breaks.length - 1)
      (by simp) hlen (by omega)
    obtain ⟨c1, hc1⟩ := r1 b0 g0 hi rfl
    have hst : ∀ {states : List (Option (Chain F))} {c}, states[breaks.length - 1]? = some (some c) → stateAt states (breaks.length - 1) = .ok (some c) := by
      intro states c h
      unfold stateAt
      rw [h]
    rw [e1, Res.ok_bind, hst hc1, Res.ok_bind]
    simp only
    split
    · obtain ⟨s2, e2, l2, r2⟩ := tryAll_total (S := S) hm (splitPairs (breaks.length - 1)) l1 (fun x hx => by
        have := splitPairs_lt x hx
        omega)
      obtain ⟨c2, hc2⟩ := r2 _ ⟨c1, hc1⟩
      rw [e2, Res.ok_bind, hst hc2, Res.ok_bind]
      simp only
      split
      · obtain ⟨s3, e3, l3, r3⟩ := tryAll_total (S := S) hm (allPairs (breaks.length - 1)) l2 (fun x hx => by
          have := allPairs_lt x hx
          omega)
        obtain ⟨c3, hc3⟩ := r3 _ ⟨c2, hc2⟩
        rw [e3, Res.ok_bind, hst hc3, Res.ok_bind]
        exact ⟨_, rfl⟩
      · exact ⟨_, rfl⟩
    · exact ⟨_, rfl⟩

/-! ### Examples -/

/-- Scores as in the code, with a penalty of 1. -/
def plainScores : Scores ℚ where
  combine prev cheap m := prev.getD 0 + (if cheap then 1 else 2) + m
  less a b := decide (a < b)
  over3 a := decide (3 < a)
  over4 a := decide (4 < a)

/-- Whatever is straight or goes all the way is bad. -/
def plainMeasure : ℚ → ℚ → Quad → Res ℚ := fun a b q => .ok (if q.isLine ∨ b - a > 3 then 100 else 0)

def plainBreaks : List Break := [⟨0, ⟨0, 0⟩, ⟨1, 0⟩⟩, ⟨27 / 10, ⟨5 / 2, 1 / 2⟩, ⟨1, 1⟩⟩, ⟨27 / 5, ⟨3, 3⟩, ⟨0, 1⟩⟩]

theorem plain_half : ∀ b ∈ plainBreaks, HalfPt b.xy := by
  intro b hb
  simp only [plainBreaks, List.mem_cons, List.not_mem_nil, or_false] at hb
  rcases hb with rfl | rfl | rfl
  · exact ⟨0, 0, by norm_num⟩
  · exact ⟨5, 1, by norm_num⟩
  · exact ⟨6, 6, by norm_num⟩

def plainQuads : List Quad := [⟨⟨0, 0⟩, ⟨2, 0⟩, ⟨5 / 2, 1 / 2⟩⟩, ⟨⟨5 / 2, 1 / 2⟩, ⟨3, 1⟩, ⟨3, 3⟩⟩]

/-- Two curves meeting at a point with halves, which is halfway between their control points. -/
theorem plain_search : search plainScores plainMeasure plainBreaks = .ok (some plainQuads) := by
  have : (match search plainScores plainMeasure plainBreaks with
    | .ok (some qs) => decide (qs = plainQuads)
    | _ => false) = true := by decide +kernel
  split at this
  · next qs h => rw [h, of_decide_eq_true this]
  · cases this

example : plainQuads.IsChain Joint := by
  obtain ⟨_, _, _, _, _, _, h⟩ := C102_search plain_half plain_search
  exact h

example : WholePt (⟨0, ⟨0, 0⟩, ⟨1, 0⟩⟩ : Break).xy := ⟨0, 0, rfl⟩

end FT.Props
