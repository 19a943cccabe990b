import Verif.Model.Gvar
import Verif.Props.IupGlyph

/-!
What the optimiser of glyph deltas keeps: pairs only, nothing of a glyph which does not move, and something which moves of
a glyph which does.
-/

namespace FT.Props
open FT FT.F32 FT.Glyf FT.Iup FT.TupleVar FT.Gvar

/-- Every given delta is a pair. -/
def AllPairs (l : List (Option TupleVar.Delta)) : Prop := ∀ o ∈ l, ∀ d, o = some d → ∃ p : Pt, d = twoD p

theorem allPairs_asDeltas {l : List (Option TupleVar.Delta)} (h : AllPairs l) : ∃ gs : List (Option Pt), l = asDeltas gs := by
  induction l with
  | nil => exact ⟨[], rfl⟩
  | cons o l ih =>
    obtain ⟨gs, rfl⟩ := ih (fun o' ho => h o' (by simp [ho]))
    cases o with
    | none => exact ⟨none :: gs, rfl⟩
    | some d =>
      obtain ⟨p, rfl⟩ := h (some d) (by simp) d rfl
      exact ⟨some p :: gs, rfl⟩

theorem allPairs_append {l r : List (Option TupleVar.Delta)} (h1 : AllPairs l) (h2 : AllPairs r) : AllPairs (l ++ r) := by
  intro o ho
  rcases List.mem_append.1 ho with h | h
  · exact h1 o h
  · exact h2 o h

theorem allPairs_none (n : Nat) : AllPairs (List.replicate n none) := by
  intro o ho d e
  rw [List.eq_of_mem_replicate ho] at e
  simp at e

theorem allPairs_keepAt (ds : List Pt) (sol : List Int) : AllPairs (keepAt ds sol) := by
  intro o ho d e
  unfold keepAt at ho
  rw [List.mem_map] at ho
  obtain ⟨x, _, hx⟩ := ho
  rw [e] at hx
  split at hx
  · injection hx with hx
    exact ⟨x.1, hx.symm⟩
  · simp at hx

theorem optimizeContour_pairs {ds cs : List Pt} {out : List (Option TupleVar.Delta)} (h : optimizeContour ds cs = .ok out) :
    AllPairs out := by
  unfold optimizeContour at h
  obtain ⟨b, _, h⟩ := Res.bind_inv h
  split at h
  · injection h with h
    subst h
    exact allPairs_none _
  · split at h
    · injection h with h
      subst h
      intro o ho
      simp at ho
    · injection h with h
      subst h
      rename_i d _
      intro o ho d' e
      rw [List.mem_singleton] at ho
      rw [ho] at e
      injection e with e
      exact ⟨d, e.symm⟩
    · rename_i d rest _ _ _
      split at h
      · injection h with h
        subst h
        intro o ho d' e
        rcases List.mem_cons.1 ho with ho | ho
        · rw [ho] at e
          injection e with e
          exact ⟨d, e.symm⟩
        · exact allPairs_none _ o ho d' e
      · split at h
        · simp at h
        · obtain ⟨f, _, h⟩ := Res.bind_inv h
          split at h
          · unfold optimizeFree at h
            by_cases hbig : 16384 ≤ (d :: rest).length
            · rw [if_pos hbig] at h; cases h
            rw [if_neg hbig] at h
            simp only [Res.pure_eq, Res.ok_bind] at h
            obtain ⟨r, _, h⟩ := Res.bind_inv h
            obtain ⟨sol, _, h⟩ := Res.bind_inv h
            injection h with h
            subst h
            exact allPairs_keepAt _ _
          · unfold optimizeForced at h
            obtain ⟨r, _, h⟩ := Res.bind_inv h
            injection h with h
            subst h
            intro o ho
            exact allPairs_keepAt _ _ o (rotate_mem ho)

theorem optimizeContours_pairs {xy cs : List Pt} : ∀ (ends : List Nat) (start : Nat) (out : List (Option TupleVar.Delta)),
    optimizeContours xy cs start ends = .ok out → AllPairs out
  | [], start, out, h => by
    simp only [optimizeContours, Res.ok.injEq] at h
    subst h
    intro o ho
    simp at ho
  | e :: es, start, out, h => by
    unfold optimizeContours at h
    obtain ⟨d, _, h⟩ := Res.bind_inv h
    obtain ⟨c, _, h⟩ := Res.bind_inv h
    obtain ⟨l, h3, h⟩ := Res.bind_inv h
    split at h
    · obtain ⟨r, h4, h⟩ := Res.bind_inv h
      injection h with h
      subst h
      exact allPairs_append (optimizeContour_pairs h3) (optimizeContours_pairs es _ r h4)
    · simp at h

theorem optimizeDeltas_pairs {ds : List (Option TupleVar.Delta)} {g : Glyph} {out : List (Option TupleVar.Delta)}
    (h : optimizeDeltas ds g = .ok out) : AllPairs out := by
  unfold optimizeDeltas at h
  obtain ⟨ce, _, h⟩ := Res.bind_inv h
  obtain ⟨xy, _, h⟩ := Res.bind_inv h
  exact optimizeContours_pairs _ _ _ h

/-! ### Nothing moves -/

theorem allSmall_zero : ∀ (l : List Pt), (∀ p ∈ l, p = (0, 0)) → allSmall l = .ok true
  | [], _ => rfl
  | p :: l, h => by
    have e := h p (by simp)
    subst e
    have ih := allSmall_zero l (fun p hp => h p (by simp [hp]))
    unfold allSmall
    have e0 : absI16 0 = .ok 0 := by decide
    rw [e0]
    simp [Res.ok_bind, ih]

theorem optimizeContours_zero {xy cs : List Pt} (hz : ∀ p ∈ xy, p = (0, 0)) : ∀ (ends : List Nat) (start : Nat)
    (out : List (Option TupleVar.Delta)), optimizeContours xy cs start ends = .ok out → ∀ o ∈ out, o = none
  | [], start, out, h => by
    simp only [optimizeContours, Res.ok.injEq] at h
    subst h
    intro o ho
    simp at ho
  | e :: es, start, out, h => by
    unfold optimizeContours at h
    obtain ⟨d, hd, h⟩ := Res.bind_inv h
    obtain ⟨c, _, h⟩ := Res.bind_inv h
    obtain ⟨l, h3, h⟩ := Res.bind_inv h
    obtain ⟨_, _, a3⟩ := slice_ok hd
    have hdz : ∀ p ∈ d, p = (0, 0) := by
      intro p hp
      rw [a3] at hp
      exact hz p (List.mem_of_mem_drop (List.mem_of_mem_take hp))
    unfold optimizeContour at h3
    rw [allSmall_zero d hdz] at h3
    simp only [Res.ok_bind, if_pos] at h3
    injection h3 with h3
    split at h
    · obtain ⟨r, h4, h⟩ := Res.bind_inv h
      injection h with h
      subst h
      intro o ho
      rcases List.mem_append.1 ho with ho | ho
      · rw [← h3] at ho
        exact List.eq_of_mem_replicate ho
      · exact optimizeContours_zero hz es _ r h4 o ho
    · simp at h

/-! ### The expansion of deltas which are all zero -/

theorem iupContour_zero {gs : List (Option Pt)} {cs : List Pt} (hl : cs.length = gs.length)
    (hz : ∀ p, some p ∈ gs → p = (0, 0)) {out : List Pt} (h : iupContour (asDeltas gs) cs = .ok out) :
    ∀ p ∈ out, p = (0, 0) := by
  obtain ⟨h1, h2, h3, h4⟩ := C41_contour gs cs hl out h
  intro p hp
  obtain ⟨i, hi, rfl⟩ := List.mem_iff_getElem.1 hp
  cases hg : gs[i]? with
  | none => rw [List.getElem?_eq_none_iff] at hg; omega
  | some o =>
    cases o with
    | some d =>
      have e := h2 i d hg
      rw [List.getElem?_eq_getElem hi] at e
      injection e with e
      rw [e]
      exact hz d (List.mem_of_getElem? hg)
    | none =>
      by_cases hne : ∃ j, Given gs j
      · obtain ⟨p, q, cp, dp, cq, dq, c, r, _, _, _, g1, _, g2, _, e, hin⟩ := h4 i hg hne
        have z1 := hz dp (List.mem_of_getElem? g1)
        have z2 := hz dq (List.mem_of_getElem? g2)
        subst z1
        subst z2
        rw [List.getElem?_eq_getElem hi] at e
        injection e with e
        rw [e]
        have k : ∀ {x1 x2 x r : ℤ}, Inferred x1 0 x2 0 x r → r = 0 := by
          intro x1 x2 x r hI
          rcases C41_stays_between hI with h | h
          · simp at h; omega
          · exact h.2.2
        have a := k hin.1
        have b := k hin.2
        refine Prod.ext ?_ ?_
        · exact Int16.toInt_inj.mp (by rw [a]; rfl)
        · exact Int16.toInt_inj.mp (by rw [b]; rfl)
      · have e := h3 (fun j hj => hne ⟨j, hj⟩)
        obtain ⟨x, hx⟩ : ∃ x, x = out[i] := ⟨_, rfl⟩
        rw [← hx] at hp ⊢
        rw [e] at hp
        exact List.eq_of_mem_replicate hp

theorem iupContours_zero {gs : List (Option Pt)} {cs : List Pt} (hl : cs.length = gs.length)
    (hz : ∀ p, some p ∈ gs → p = (0, 0)) : ∀ (ends : List Nat) (start : Nat) (out : List Pt),
    iupContours (asDeltas gs) cs start ends = .ok out → ∀ p ∈ out, p = (0, 0)
  | [], start, out, h => by
    simp only [iupContours, Res.ok.injEq] at h
    subst h
    intro p hp
    simp at hp
  | e :: es, start, out, h => by
    unfold iupContours at h
    obtain ⟨d, hd, h⟩ := Res.bind_inv h
    obtain ⟨c, hc, h⟩ := Res.bind_inv h
    obtain ⟨l, h3, h⟩ := Res.bind_inv h
    obtain ⟨r, h4, h⟩ := Res.bind_inv h
    injection h with h
    subst h
    obtain ⟨a1, a2, a3⟩ := slice_ok hd
    obtain ⟨b1, b2, b3⟩ := slice_ok hc
    have de : d = asDeltas ((gs.drop start).take (e + 1 - start)) := by
      rw [a3]; simp [asDeltas, List.map_take, List.map_drop]
    rw [de] at h3
    intro p hp
    rcases List.mem_append.1 hp with hp | hp
    · refine iupContour_zero ?_ (fun p hp => hz p (List.mem_of_mem_drop (List.mem_of_mem_take hp))) h3 p hp
      rw [b3]
      simp only [List.length_take, List.length_drop]
      omega
    · exact iupContours_zero hl hz es _ r h4 p hp

theorem collect_full (l : List Pt) : collect (l.map (fun p => some (twoD p))) = .ok l := by
  unfold collect
  induction l with
  | nil => rfl
  | cons p l ih => rw [List.map_cons, mapL_cons', ih]; rfl

theorem iupDelta_full (l : List Pt) (cs : List Pt) (ends : List Nat) :
    iupDelta (l.map (fun p => some (twoD p))) cs ends = .ok l := by
  unfold iupDelta
  rw [if_pos (by simp), collect_eq, collect_full]

theorem iupDelta_zero {gs : List (Option Pt)} {cs : List Pt} (hl : cs.length = gs.length)
    (hz : ∀ p, some p ∈ gs → p = (0, 0)) {ends : List Nat} {out : List Pt} (h : iupDelta (asDeltas gs) cs ends = .ok out) :
    ∀ p ∈ out, p = (0, 0) := by
  by_cases hall : (asDeltas gs).all (·.isSome) = true
  · have : ∃ l : List Pt, gs = l.map some := by
      clear h hl hz
      induction gs with
      | nil => exact ⟨[], rfl⟩
      | cons o gs ih =>
        simp only [asDeltas, List.map_cons, List.all_cons, Bool.and_eq_true] at hall
        obtain ⟨l, rfl⟩ := ih hall.2
        cases o with
        | none => simp at hall
        | some p => exact ⟨p :: l, rfl⟩
    obtain ⟨l, rfl⟩ := this
    have e : asDeltas (l.map some) = l.map (fun p => some (twoD p)) := by
      unfold asDeltas; rw [List.map_map]; rfl
    rw [e, iupDelta_full] at h
    injection h with h
    subst h
    intro p hp
    exact hz p (List.mem_map_of_mem hp)
  · unfold iupDelta at h
    rw [if_neg hall] at h
    exact iupContours_zero hl hz ends 0 out h

end FT.Props
