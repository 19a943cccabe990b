import Verif.Props.CliEnds
import Verif.Props.OverlapFile
import Verif.Props.CrunchFile

/-!
C99 and C100: `ttf-remove-overlap` and `fontcrunch` report no errors: they finish or panic.
-/

namespace FT.Props
open FT FT.Glyf FT.Store FT.Save FT.Tables FT.Cli FT.Crunch

theorem insertLoop_noErr : ∀ (n : ℕ) (c : List Point), insertLoop n c ≠ .err
  | 0, _ => ok_noErr _
  | n + 1, c => by
    unfold insertLoop
    have hm : ∀ p q : Point, midPoint p q ≠ .err := fun p q => by
      unfold midPoint
      exact bind_noErr (addI16_noErr _ _) fun _ => bind_noErr (addI16_noErr _ _) fun _ => pure_noErr _
    split
    · refine ite_noErr ?_ (insertLoop_noErr n _)
      exact bind_noErr (hm _ _) fun _ => insertLoop_noErr n _
    · exact panic_noErr

theorem insertExplicit_noErr (c : List Point) : insertExplicit c ≠ .err := by
  unfold insertExplicit
  exact ite_noErr panic_noErr (insertLoop_noErr _ _)

theorem staysTest_noErr (p q r : Point) : staysTest p q r ≠ .err := by
  unfold staysTest
  exact ite_noErr (ok_noErr _) (bind_noErr (addI16_noErr _ _) fun _ => ite_noErr (pure_noErr _) (bind_noErr (addI16_noErr _ _) fun _ => pure_noErr _))

theorem removeLoop_noErr : ∀ (n i : ℕ) (c : List Point), removeLoop n i c ≠ .err
  | 0, _, _ => ok_noErr _
  | n + 1, i, c => by
    unfold removeLoop
    refine ite_noErr (ok_noErr _) ?_
    split
    · split
      · exact removeLoop_noErr n _ _
      · exact removeLoop_noErr n _ _
      · next h => exact absurd h (staysTest_noErr _ _ _)
      · exact panic_noErr
    · exact panic_noErr

theorem segments_noErr (p : List PathEl) : segments p ≠ .err := by
  unfold segments
  split <;> noerr

theorem toPath_noErr (c : List Point) : toPath c ≠ .err := by
  unfold toPath
  refine bind_noErr (insertExplicit_noErr c) fun c => ?_
  noerr

theorem fromPath_noErr (quads : Pt → Pt → Pt → Pt → List (Pt × Pt)) (p : List PathEl) : fromPath quads p ≠ .err := by
  unfold fromPath
  refine bind_noErr ?_ fun _ => bind_noErr (segments_noErr p) fun _ => pure_noErr _
  split <;> noerr

theorem segAt_noErr (segs : List PathSeg) (i : ℕ) : segAt segs i ≠ .err := by
  unfold segAt
  noerr

theorem signLoop_noErr (segs : List PathSeg) : ∀ (k : ℕ) (x y : ℚ) (res : List ℕ), signLoop segs k x y res ≠ .err
  | 0, _, _, _ => ok_noErr _
  | k + 1, x, y, res => by
    unfold signLoop
    refine bind_noErr (segAt_noErr _ _) fun s => bind_noErr (by cases s <;> simp [chord]) fun _ => ?_
    exact ite_noErr (signLoop_noErr segs k _ _ _) (signLoop_noErr segs k _ _ _)

theorem cornerLoop_noErr (segs : List PathSeg) : ∀ (k : ℕ) (res : List ℕ), cornerLoop segs k res ≠ .err
  | 0, _ => ok_noErr _
  | k + 1, res => by
    unfold cornerLoop
    exact bind_noErr (segAt_noErr _ _) fun s => bind_noErr (by cases s <;> simp [arrives]) fun _ => bind_noErr (segAt_noErr _ _) fun s =>
      bind_noErr (by cases s <;> simp [leaves]) fun _ => cornerLoop_noErr segs k _

theorem breaks_noErr (segs : List PathSeg) : breaks segs ≠ .err := by
  unfold breaks
  exact bind_noErr (signLoop_noErr _ _ _ _ _) fun _ => bind_noErr (cornerLoop_noErr _ _ _) fun _ => pure_noErr _

theorem crunchLoop_noErr {opt : Optimiser} (ho : ∀ qs, opt qs ≠ .err) (segs : List PathSeg) : ∀ l : List ℕ, crunchLoop opt segs l ≠ .err
  | [] => ok_noErr _
  | [_] => ok_noErr _
  | b0 :: b1 :: l => by
    unfold crunchLoop
    refine bind_noErr (segAt_noErr _ _) fun s => ite_noErr ?_ ?_
    · refine bind_noErr (mapL_noErr (fun s => by cases s <;> simp [asQuad]) _) fun qs => bind_noErr (ho qs) fun new => ?_
      cases new with
      | none => exact pure_noErr _
      | some new => exact bind_noErr (crunchLoop_noErr ho segs (b1 :: l)) fun _ => pure_noErr _
    · exact bind_noErr (crunchLoop_noErr ho segs (b1 :: l)) fun _ => pure_noErr _

theorem crunchContour_noErr {opt : Optimiser} (ho : ∀ qs, opt qs ≠ .err) (quads : Pt → Pt → Pt → Pt → List (Pt × Pt)) (c : List Point) :
    crunchContour opt quads c ≠ .err := by
  unfold crunchContour
  refine bind_noErr (toPath_noErr _) fun p => bind_noErr ?_ fun _ => bind_noErr (fromPath_noErr _ _) fun c => removeLoop_noErr _ _ _
  unfold crunchPath
  refine bind_noErr (segments_noErr _) fun _ => bind_noErr (breaks_noErr _) fun _ => ?_
  split
  · exact panic_noErr
  · refine bind_noErr (crunchLoop_noErr ho _ _) fun _ => ?_
    noerr

theorem crunchFrom_noErr {opt : Optimiser} (ho : ∀ qs, opt qs ≠ .err) (quads : Pt → Pt → Pt → Pt → List (Pt × Pt)) (names : Option (List String)) :
    ∀ (i : ℕ) (gs : List Glyph), crunchFrom opt quads names i gs ≠ .err
  | _, [] => ok_noErr _
  | i, g :: gs => by
    unfold crunchFrom
    refine bind_noErr ?_ fun _ => bind_noErr (crunchFrom_noErr ho quads names (i + 1) gs) fun _ => pure_noErr _
    unfold crunchOne
    refine ite_noErr (ok_noErr _) (bind_noErr (by unfold nameAt; noerr) fun _ => ?_)
    unfold crunchGlyph
    exact bind_noErr (mapL_noErr (crunchContour_noErr ho quads) _) fun _ => pure_noErr _

theorem verbPoints_noErr (points : List Pt) : ∀ (n cur : ℕ), verbPoints points cur n ≠ .err
  | 0, _ => ok_noErr _
  | n + 1, cur => by
    unfold verbPoints
    split
    · exact panic_noErr
    · exact bind_noErr (verbPoints_noErr points n _) fun _ => pure_noErr _

theorem verbLoop_noErr (points : List Pt) : ∀ (verbs : List ℕ) (cur : ℕ) (c : List Point) (g : List (List Point)), verbLoop points verbs cur c g ≠ .err
  | [], _, _, _ => ok_noErr _
  | v :: vs, cur, c, g => by
    unfold verbLoop
    exact ite_noErr (verbLoop_noErr points vs _ _ _) (bind_noErr (verbPoints_noErr points _ _) fun _ => verbLoop_noErr points vs _ _ _)

theorem removeOverlap_noErr (simplify : List SkEl → Option (List SkEl)) (g : Glyph) : removeOverlap simplify g ≠ .err := by
  unfold removeOverlap
  refine ite_noErr (ok_noErr _) (bind_noErr (mapL_noErr insertExplicit_noErr _) fun _ => bind_noErr (mapL_noErr (fun c => by cases c <;> simp [skContour]) _) fun _ => ?_)
  split
  · exact bind_noErr (verbLoop_noErr _ _ _ _ _) fun _ => pure_noErr _
  · exact pure_noErr _

theorem recalc_noErr (gs : List Glyph) : recalcBounds gs ≠ .err := by
  unfold recalcBounds
  refine bind_noErr (mapL_noErr (fun g => ?_) _) fun _ => mapL_noErr (fun g => ?_) _
  · unfold flattenOne
    exact ite_noErr (bind_noErr (flatDepth_noErr gs 65 g) fun _ => pure_noErr _) (ok_noErr _)
  · have hb : ∀ boxes i, boxAt boxes i ≠ .err := fun boxes i => by unfold boxAt; noerr
    unfold boundsComposite
    refine ite_noErr ?_ (ok_noErr _)
    split
    · exact bind_noErr (hb _ _) fun _ => pure_noErr _
    · refine bind_noErr (mapL_noErr (fun c => bind_noErr (hb _ _) fun _ => pure_noErr _) _) fun rs => bind_noErr ?_ fun _ => pure_noErr _
      cases rs <;> simp [unionAll]

/-- **C99** (ends). -/
theorem C99_ends {X : Type} (R : Rest X) (simplify : List SkEl → Option (List SkEl)) (input : Bytes) : ResultOrPanic (removeOverlaps R simplify input) := by
  refine resultOrPanic (tool_noErr (fun s => ?_) _)
  unfold glyphBody
  refine bind_noErr (require_noErr _ _) fun _ => bind_noErr (glyphsOf_noErr _ _) fun _ => bind_noErr ?_ fun _ => bind_noErr (exec_noErr _ _) fun _ => exec_noErr _ _
  unfold withoutOverlap
  exact bind_noErr (mapL_noErr (removeOverlap_noErr simplify) _) fun _ => recalc_noErr _

/-- **C100** (ends). The optimiser reports no errors either. -/
theorem C100_ends {X : Type} (R : Rest X) (opt : Optimiser) (ho : ∀ qs, opt qs ≠ .err) (quads : Pt → Pt → Pt → Pt → List (Pt × Pt)) (input : Bytes) :
    ResultOrPanic (crunchFile R opt quads input) := by
  refine resultOrPanic ?_
  unfold crunchFile
  split
  · refine bind_noErr (open_noErr _) fun _ => ite_noErr (pure_noErr _) (bind_noErr ?_ fun _ => bind_noErr (saveFont_noErr _ _) fun _ => pure_noErr _)
    unfold crunchBody
    refine bind_noErr ?_ fun _ => bind_noErr (access_noErr _ _) fun x => ?_
    · unfold namesIn
      refine bind_noErr (access_noErr _ _) fun ⟨x, _⟩ => ?_
      cases x with
      | none => exact ok_noErr _
      | some x =>
        refine bind_noErr (valueOf_noErr _ _) fun _ => ?_
        noerr
    · obtain ⟨x, _⟩ := x
      cases x
      · exact ok_noErr _
      · exact bind_noErr (glyphsOf_noErr _ _) fun _ => bind_noErr (crunchFrom_noErr ho quads _ _ _) fun _ => bind_noErr (exec_noErr _ _) fun _ => exec_noErr _ _
  · exact panic_noErr
  · exact panic_noErr

end FT.Props
