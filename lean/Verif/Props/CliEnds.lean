import Verif.Props.CliInstance

/-!
C83: how the tools end. Errors are turned into panics by `expect` and `unwrap`, so that a tool which does not panic has written its
file.
-/

namespace FT.Props
open FT FT.Cli FT.Tables FT.Save FT.Store FT.Glyf FT.AxisMaps FT.Instancer FT.Gvar FT.F32

theorem panic_noErr {α : Type} : (Res.panic : Res α) ≠ .err := by intro h; cases h
theorem ok_noErr {α : Type} (a : α) : Res.ok a ≠ .err := by intro h; cases h
theorem orPanic_noErr {α : Type} (x : Res α) : Cmap.orPanic x ≠ .err := by
  unfold Cmap.orPanic
  split <;> (intro h; cases h)

theorem ite_noErr {α : Type} {c : Prop} [Decidable c] {a b : Res α} (h1 : a ≠ .err) (h2 : b ≠ .err) : (if c then a else b) ≠ .err := by
  split
  · exact h1
  · exact h2

macro "noerr" : tactic => `(tactic| repeat' first
  | exact panic_noErr | exact ok_noErr _ | exact pure_noErr _ | exact unwrap_noErr _ | exact orPanic_noErr _ | assumption
  | refine ite_noErr ?_ ?_ | refine bind_noErr ?_ fun _ => ?_ | split)

/-! ### The tables -/

section
variable {X : Type} {R : Rest X}

theorem finish_noErr {V : Type} (P : Parser V) (t : Tag) (b : Bytes) (d : Option V) (s : Store.St V) : s.finish P t b d ≠ .err := by
  unfold St.finish
  noerr

theorem load_noErr {V : Type} (P : Parser V) : ∀ (n : ℕ) (t : Tag) (s : Store.St V), St.load P n t s ≠ .err
  | n, t, s => by
    unfold St.load
    split
    · noerr
    · noerr
    · split
      · exact finish_noErr _ _ _ _ _
      · split
        · noerr
        · rename_i n' d
          have := load_noErr P ‹ℕ› ‹Tag› s
          split
          · noerr
          · split
            · noerr
            · exact finish_noErr _ _ _ _ _
          · next e => exact absurd e this
          · noerr

theorem getAs_noErr {V : Type} (P : Parser V) (t : Tag) (w : Table → Holder) (s : Store.St V) : s.getAs P t w ≠ .err := by
  unfold St.getAs
  have := load_noErr P 4 t s
  split
  · noerr
  · noerr
  · next e => exact absurd e this
  · noerr

theorem step_noErr {V : Type} (P : Parser V) (op : Op V) (s : Store.St V) : Store.step P op s ≠ .err := by
  cases op <;> simp only [Store.step]
  · exact getAs_noErr _ _ _ _
  · exact getAs_noErr _ _ _ _
  all_goals try unfold St.modify
  all_goals try unfold St.insertHolder
  all_goals noerr

theorem exec_noErr (op : Op (Val X)) (s : Store.St (Val X)) : exec (storeMachine (fmt R)) op s ≠ .err := by
  unfold exec
  have := step_noErr (parser (fmt R)) op s
  split
  · noerr
  · next e => exact absurd e this
  · noerr

theorem access_noErr (t : Tag) (s : Store.St (Val X)) : access (storeMachine (fmt R)) t s ≠ .err := by
  unfold access
  noerr

theorem valueOf_noErr (i : ℕ) (s : Store.St (Val X)) : valueOf (storeMachine (fmt R)) i s ≠ .err := by
  unfold valueOf
  noerr

theorem require_noErr (t : Tag) (s : Store.St (Val X)) : require (storeMachine (fmt R)) t s ≠ .err := by
  unfold require
  refine bind_noErr (access_noErr _ _) fun _ => ?_
  noerr

theorem preload_noErr (t : Tag) (s : Store.St (Val X)) : preload (storeMachine (fmt R)) t s ≠ .err := by
  unfold preload
  split
  · noerr
  · exact exec_noErr _ _
  all_goals noerr

theorem open_noErr (s : Store.St (Val X)) : openTables (storeMachine (fmt R)) s ≠ .err :=
  bind_noErr (preload_noErr _ _) fun _ => preload_noErr _ _

theorem saveFont_noErr (v : UInt32) (s : Store.St (Val X)) : saveFont R v s ≠ .err := by
  unfold saveFont
  noerr

theorem tool_noErr {body : Store.St (Val X) → Res (Store.St (Val X))} (h : ∀ s, body s ≠ .err) (input : Bytes) : tool R body input ≠ .err := by
  unfold tool
  split
  · exact bind_noErr (open_noErr _) fun _ => bind_noErr (h _) fun _ => saveFont_noErr _ _
  all_goals noerr

/-! ### The bodies -/

theorem dsig_noErr (s : Store.St (Val X)) : dsigBody (storeMachine (fmt R)) s ≠ .err := by
  unfold dsigBody
  exact ite_noErr (ok_noErr _) (exec_noErr _ _)

theorem nonHinted_noErr (s : Store.St (Val X)) : nonHintedBody (storeMachine (fmt R)) s ≠ .err := by
  unfold nonHintedBody gaspBody
  exact bind_noErr (ite_noErr (ok_noErr _) (exec_noErr _ _)) fun _ => exec_noErr _ _

theorem glyphsOf_noErr (i : ℕ) (s : Store.St (Val X)) : glyphsOf (storeMachine (fmt R)) i s ≠ .err := by
  unfold glyphsOf
  refine bind_noErr (valueOf_noErr _ _) fun _ => ?_
  noerr

theorem gvarOf_noErr (i : ℕ) (s : Store.St (Val X)) : gvarOf (storeMachine (fmt R)) i s ≠ .err := by
  unfold gvarOf
  refine bind_noErr (valueOf_noErr _ _) fun _ => ?_
  noerr

theorem gvarBody_noErr (order : List Bytes → List Bytes) (s : Store.St (Val X)) : gvarBody order (storeMachine (fmt R)) s ≠ .err := by
  unfold gvarBody
  refine ite_noErr ?_ (ok_noErr _)
  exact bind_noErr (require_noErr _ _) fun _ => bind_noErr (require_noErr _ _) fun _ => bind_noErr (require_noErr _ _) fun _ =>
    bind_noErr (require_noErr _ _) fun _ => bind_noErr (require_noErr _ _) fun _ => bind_noErr (glyphsOf_noErr _ _) fun _ =>
    bind_noErr (gvarOf_noErr _ _) fun _ => bind_noErr (orPanic_noErr _) fun _ => exec_noErr _ _

theorem mapL_noErr {α β : Type} {f : α → Res β} (h : ∀ a, f a ≠ .err) : ∀ l : List α, Res.mapL f l ≠ .err
  | [] => ok_noErr _
  | a :: l => by
    rw [mapL_cons']
    exact bind_noErr (h a) fun _ => bind_noErr (mapL_noErr h l) fun _ => pure_noErr _

theorem flatDepth_noErr (gs : List Glyph) : ∀ (n : ℕ) (g : Glyph), flatDepth gs n g ≠ .err
  | 0, _ => ok_noErr _
  | n + 1, g => by
    unfold flatDepth
    have : ∀ cs, flatLoop gs (flatDepth gs n) cs ≠ .err := by
      intro cs
      induction cs with
      | nil => exact ok_noErr _
      | cons c cs ih =>
        unfold flatLoop
        refine bind_noErr (by unfold glyphAt; noerr) fun g' => ?_
        refine bind_noErr (ite_noErr (bind_noErr (flatDepth_noErr gs n g') fun _ => pure_noErr _) (pure_noErr _)) fun _ => ?_
        exact bind_noErr ih fun _ => pure_noErr _
    exact this _

theorem flatten_noErr (s : Store.St (Val X)) : flattenBody (storeMachine (fmt R)) s ≠ .err := by
  unfold flattenBody
  refine bind_noErr (require_noErr _ _) fun _ => bind_noErr (glyphsOf_noErr _ _) fun gs => bind_noErr (mapL_noErr (fun g => ?_) _) fun _ =>
    bind_noErr (exec_noErr _ _) fun _ => exec_noErr _ _
  unfold flattenOne
  exact ite_noErr (bind_noErr (flatDepth_noErr gs 65 g) fun _ => pure_noErr _) (ok_noErr _)

theorem renameFrom_noErr (rev : List (UInt16 × List UInt32)) : ∀ (n i : ℕ) (l : List String), renameFrom rev i n l ≠ .err
  | 0, _, _ => by unfold renameFrom; exact ok_noErr _
  | _ + 1, _, [] => by unfold renameFrom; exact panic_noErr
  | n + 1, i, x :: l => by
    unfold renameFrom
    refine bind_noErr ?_ fun _ => bind_noErr (renameFrom_noErr rev n (i + 1) l) fun _ => pure_noErr _
    unfold productionName smallest
    noerr

theorem rename_noErr (drop : Bool) (s : Store.St (Val X)) : renameBody drop (storeMachine (fmt R)) s ≠ .err := by
  unfold renameBody
  refine bind_noErr ?_ fun n => bind_noErr ?_ fun rev => bind_noErr (access_noErr _ _) fun j => ?_
  · unfold countGlyphs
    refine bind_noErr (require_noErr _ _) fun _ => bind_noErr (valueOf_noErr _ _) fun _ => ?_
    noerr
  · unfold reversedMap
    refine bind_noErr (access_noErr _ _) fun j => ?_
    rcases j with ⟨j, s'⟩
    cases j with
    | none => exact ok_noErr _
    | some j =>
      refine bind_noErr (valueOf_noErr _ _) fun _ => ?_
      noerr
  · rcases j with ⟨j, s'⟩
    cases j with
    | none => exact ok_noErr _
    | some j =>
      refine ite_noErr (exec_noErr _ _) ?_
      unfold renamePost
      refine bind_noErr (valueOf_noErr _ _) fun _ => ?_
      split
      · split
        · noerr
        · exact bind_noErr (renameFrom_noErr _ _ _ _) fun _ => bind_noErr (exec_noErr _ _) fun _ => exec_noErr _ _
      · noerr

/-! ### The instancer -/

theorem segMap_noErr (rd : ℚ → ℚ) (m : List (ℚ × ℚ)) (v : ℚ) : segMap rd m v ≠ .err := by
  have hb : ∀ (m : List (ℚ × ℚ)) (p : Option (ℚ × ℚ)), segBetween rd v p m ≠ .err := by
    intro m
    induction m with
    | nil => intro p; exact panic_noErr
    | cons x m ih =>
      intro p
      unfold segBetween
      refine ite_noErr ?_ (ih _)
      noerr
  unfold segMap
  refine ite_noErr (ok_noErr _) (ite_noErr (ok_noErr _) ?_)
  split
  · noerr
  · exact hb _ _

theorem round_noErr (x : ℚ) : roundF2dot14 x ≠ .err := by
  unfold roundF2dot14
  noerr

theorem normLimit_noErr (rd : ℚ → ℚ) (v a b c : ℚ) (s : Option (List (ℚ × ℚ))) : normLimit rd v a b c s ≠ .err := by
  unfold normLimit
  refine ite_noErr ?_ panic_noErr
  cases s with
  | none => exact round_noErr _
  | some m => exact bind_noErr (segMap_noErr _ _ _) fun _ => round_noErr _

theorem normLimits_noErr (rd : ℚ → ℚ) (axes : List AxisRecord) (m : Option (List (List (ℚ × ℚ)))) (l : UserLimits) :
    normLimits rd axes m l ≠ .err := by
  unfold normLimits
  refine ite_noErr (ite_noErr (mapL_noErr (fun a => ?_) _) panic_noErr) panic_noErr
  unfold normOne
  refine bind_noErr (unwrap_noErr _) fun u => ?_
  cases u with
  | range lo hi => exact bind_noErr (normLimit_noErr _ _ _ _ _ _) fun _ => bind_noErr (normLimit_noErr _ _ _ _ _ _) fun _ => pure_noErr _
  | full v => exact bind_noErr (normLimit_noErr _ _ _ _ _ _) fun _ => pure_noErr _
  | drop => exact panic_noErr

theorem populate_noErr (axes : List AxisRecord) (l : UserLimits) : populate axes l ≠ .err := by
  unfold populate
  refine mapL_noErr (fun x => ?_) _
  unfold populate.one
  noerr

theorem movePoints_noErr : ∀ (ps : List Point) (ds : List Iup.Pt), movePoints ps ds ≠ .err
  | [], _ => by unfold movePoints; exact ok_noErr _
  | _ :: _, [] => by unfold movePoints; exact panic_noErr
  | p :: ps, d :: ds => by
    unfold movePoints
    exact bind_noErr (addI16_noErr _ _) fun _ => bind_noErr (addI16_noErr _ _) fun _ => bind_noErr (movePoints_noErr ps ds) fun _ => pure_noErr _

theorem moveContours_noErr : ∀ (cs : List (List Point)) (ds : List Iup.Pt), moveContours cs ds ≠ .err
  | [], _ => by unfold moveContours; exact ok_noErr _
  | c :: cs, ds => by
    unfold moveContours
    exact bind_noErr (movePoints_noErr _ _) fun _ => bind_noErr (moveContours_noErr cs _) fun _ => pure_noErr _

theorem instantiateGlyph_noErr (rd : ℚ → ℚ) (tags : List Tag) (limits : Limits) (g : Glyph) (v : Option (List DeltaSet)) :
    instantiateGlyph rd tags limits g v ≠ .err := by
  cases v with
  | none => exact ok_noErr _
  | some ds =>
    unfold instantiateGlyph
    refine bind_noErr ?_ fun _ => bind_noErr (moveContours_noErr _ _) fun _ => pure_noErr _
    unfold instantiateData
    exact bind_noErr (pinSome_noErr _ _ _ _) fun _ => ite_noErr (bind_noErr (mergeAll_noErr _ _ _ _) fun _ => pure_noErr _) panic_noErr

theorem instantiateGlyphs_noErr (rd : ℚ → ℚ) (tags : List Tag) (limits : Limits) : ∀ (gs : List Glyph) (v : Gvar),
    instantiateGlyphs rd tags limits gs v ≠ .err
  | [], _ => by unfold instantiateGlyphs; exact ok_noErr _
  | _ :: _, [] => by unfold instantiateGlyphs; exact panic_noErr
  | g :: gs, v :: vs => by
    unfold instantiateGlyphs
    exact bind_noErr (instantiateGlyph_noErr _ _ _ _ _) fun _ => bind_noErr (instantiateGlyphs_noErr rd tags limits gs vs) fun _ => pure_noErr _

theorem instantiateAvar_noErr (rd : ℚ → ℚ) (axes : List AxisRecord) (limits : UserLimits) (maps : List (List (ℚ × ℚ))) :
    instantiateAvar rd axes limits maps ≠ .err := by
  unfold instantiateAvar
  refine bind_noErr (normLimits_noErr _ _ _ _) fun norm => ite_noErr (pure_noErr _) ?_
  refine bind_noErr (mapL_noErr (fun x => ?_) _) fun _ => bind_noErr (mapL_noErr (fun _ => unwrap_noErr _) _) fun _ => pure_noErr _
  unfold newSegment
  refine ite_noErr ?_ (ok_noErr _)
  split
  · refine bind_noErr ?_ fun _ => pure_noErr _
    unfold narrow
    refine bind_noErr (segMap_noErr _ _ _) fun _ => bind_noErr (round_noErr _) fun _ => bind_noErr (segMap_noErr _ _ _) fun _ =>
      bind_noErr (round_noErr _) fun _ => bind_noErr (mapL_noErr (fun y => ?_) _) fun _ => ?_
    · unfold narrowPoint
      exact ite_noErr (ok_noErr _) (ite_noErr panic_noErr (bind_noErr (round_noErr _) fun _ => bind_noErr (round_noErr _) fun _ => pure_noErr _))
    · unfold segNew
      noerr
  · noerr

theorem matchPins_noErr (rd : ℚ → ℚ) : ∀ p l : Var.Loc, matchPins rd p l ≠ .err
  | [], _ => by unfold matchPins; exact ok_noErr _
  | (t, v) :: rest, l => by
    unfold matchPins
    exact bind_noErr (unwrap_noErr _) fun _ => ite_noErr (pure_noErr _) (matchPins_noErr rd rest _)

theorem instantiateFvar_noErr (rd : ℚ → ℚ) (limits : UserLimits) (f : Fvar) : instantiateFvar rd limits f ≠ .err := by
  unfold instantiateFvar
  refine ite_noErr (ok_noErr _) (bind_noErr (mapL_noErr (fun i => ?_) _) fun _ => pure_noErr _)
  unfold newInstance
  refine bind_noErr (matchPins_noErr _ _ _) fun m => ?_
  cases m with
  | none => exact pure_noErr _
  | some l => exact ite_noErr (bind_noErr (mapL_noErr (fun _ => unwrap_noErr _) _) fun _ => pure_noErr _) (pure_noErr _)

theorem instantiateStat_noErr (rd : ℚ → ℚ) (limits : UserLimits) (t : Stat.Table) : instantiateStat rd limits t ≠ .err := by
  unfold instantiateStat
  refine ite_noErr (ok_noErr _) (bind_noErr ?_ fun _ => pure_noErr _)
  have : ∀ vs, keepValues rd limits t.axes vs ≠ .err := by
    intro vs
    induction vs with
    | nil => exact ok_noErr _
    | cons v vs ih =>
      unfold keepValues
      refine bind_noErr ?_ fun _ => ite_noErr ih (bind_noErr ?_ fun _ => bind_noErr ih fun _ => pure_noErr _)
      · unfold nominalOutside
        split
        · exact bind_noErr (unwrap_noErr _) fun _ => outsideAt_noErr _ _ _ _ _
        · noerr
      · unfold locationsOutside
        split
        · exact anyOutside_noErr _ _ _ _
        · noerr
  exact this _

theorem look_noErr (t : Tag) (s : Store.St (Val X)) : look (storeMachine (fmt R)) t s ≠ .err :=
  bind_noErr (require_noErr _ _) fun _ => bind_noErr (valueOf_noErr _ _) fun _ => pure_noErr _

theorem lookFvar_noErr (s : Store.St (Val X)) : lookFvar (storeMachine (fmt R)) s ≠ .err := by
  unfold lookFvar
  refine bind_noErr (look_noErr _ _) fun _ => ?_
  noerr

theorem lookAvar_noErr (s : Store.St (Val X)) : lookAvar (storeMachine (fmt R)) s ≠ .err := by
  unfold lookAvar
  refine bind_noErr (look_noErr _ _) fun _ => ?_
  noerr

theorem lookGlyf_noErr (s : Store.St (Val X)) : lookGlyf (storeMachine (fmt R)) s ≠ .err := by
  unfold lookGlyf
  refine bind_noErr (look_noErr _ _) fun _ => ?_
  noerr

theorem lookGvar_noErr (s : Store.St (Val X)) : lookGvar (storeMachine (fmt R)) s ≠ .err := by
  unfold lookGvar
  refine bind_noErr (look_noErr _ _) fun _ => ?_
  noerr

theorem lookStat_noErr (s : Store.St (Val X)) : lookStat (storeMachine (fmt R)) s ≠ .err := by
  unfold lookStat
  refine bind_noErr (look_noErr _ _) fun _ => ?_
  noerr

theorem maybeAvar_noErr (s : Store.St (Val X)) : maybeAvar (storeMachine (fmt R)) s ≠ .err := by
  unfold maybeAvar
  refine bind_noErr (access_noErr _ _) fun j => ?_
  rcases j with ⟨j, s'⟩
  cases j with
  | none => exact ok_noErr _
  | some j =>
    refine bind_noErr (valueOf_noErr _ _) fun _ => ?_
    noerr

theorem putOr_noErr (t : Tag) (v : Option (Val X)) (s : Store.St (Val X)) : putOr (storeMachine (fmt R)) t v s ≠ .err := by
  cases v with
  | none => exact exec_noErr _ _
  | some v => exact exec_noErr (R := R) (.insertNew t v) s

theorem instance_noErr (limits : UserLimits) (s : Store.St (Val X)) : instanceBody limits (storeMachine (fmt R)) s ≠ .err := by
  unfold instanceBody
  refine ite_noErr ?_ panic_noErr
  refine bind_noErr (lookFvar_noErr _) fun _ => bind_noErr (populate_noErr _ _) fun _ => bind_noErr ?_ fun _ =>
    bind_noErr (access_noErr _ _) fun _ => bind_noErr (access_noErr _ _) fun _ => bind_noErr ?_ fun _ => bind_noErr ?_ fun _ =>
    bind_noErr ?_ fun _ => bind_noErr ?_ fun _ => ?_
  · exact bind_noErr (lookFvar_noErr _) fun _ => bind_noErr (maybeAvar_noErr _) fun _ => bind_noErr (normLimits_noErr _ _ _ _) fun _ =>
      pure_noErr _
  · unfold gvarIn
    refine ite_noErr ?_ (ok_noErr _)
    refine bind_noErr (lookFvar_noErr _) fun _ => bind_noErr (lookGvar_noErr _) fun _ => bind_noErr (lookGlyf_noErr _) fun _ =>
      bind_noErr ?_ fun _ => bind_noErr (putOr_noErr _ _ _) fun _ => exec_noErr _ _
    exact bind_noErr (instantiateGlyphs_noErr _ _ _ _ _) fun _ => pure_noErr _
  · unfold avarIn
    exact ite_noErr (bind_noErr (lookAvar_noErr _) fun _ => bind_noErr (lookFvar_noErr _) fun _ =>
      bind_noErr (instantiateAvar_noErr _ _ _ _) fun _ => putOr_noErr _ _ _) (ok_noErr _)
  · unfold statIn
    exact ite_noErr (bind_noErr (lookStat_noErr _) fun _ => ite_noErr (ok_noErr _) (bind_noErr (instantiateStat_noErr _ _ _) fun _ =>
      exec_noErr _ _)) (ok_noErr _)
  · exact bind_noErr (lookFvar_noErr _) fun _ => bind_noErr (instantiateFvar_noErr _ _ _) fun _ => putOr_noErr _ _ _
  · unfold overlapIn
    exact ite_noErr (ok_noErr _) panic_noErr

end

/-! ### How the tools end -/

/-- Specification: the program ends normally with a result, or it panics. -/
def ResultOrPanic {α : Type} (x : Res α) : Prop := (∃ a, x = .ok a) ∨ x = .panic

theorem resultOrPanic {α : Type} {x : Res α} (h : x ≠ .err) : ResultOrPanic x := by
  cases x with
  | ok a => exact .inl ⟨a, rfl⟩
  | err => exact absurd rfl h
  | panic => exact .inr rfl

/-- **C83** (and C84 to C87). Whatever the input file and however the remaining tables are read and written, a tool writes a file or
panics; in particular no error goes unnoticed. -/
theorem C83_ends {X : Type} (R : Rest X) (input : Bytes) : ResultOrPanic (fixChecksum R input) ∧ ResultOrPanic (addMinimalDsig R input) ∧
    ResultOrPanic (fixNonHinted R input) ∧ (∀ drop, ResultOrPanic (renameGlyphs R drop input)) ∧
    (∀ order, ResultOrPanic (optimizeGvar R order input)) ∧ ResultOrPanic (flattenComponents R input) ∧
    ∀ num args, ResultOrPanic (instantiateTool R num args input) := by
  refine ⟨resultOrPanic (tool_noErr (fun _ => ok_noErr _) _), resultOrPanic (tool_noErr dsig_noErr _), resultOrPanic (tool_noErr nonHinted_noErr _),
    fun d => resultOrPanic (tool_noErr (rename_noErr d) _), fun o => resultOrPanic (tool_noErr (gvarBody_noErr o) _),
    resultOrPanic (tool_noErr flatten_noErr _), fun num args => resultOrPanic ?_⟩
  unfold instantiateTool
  refine bind_noErr (bind_noErr (mapL_noErr (readArg_noErr num) _) fun _ => pure_noErr _) fun _ => ite_noErr ?_ (pure_noErr _)
  unfold instantiateFile
  split
  · exact bind_noErr (open_noErr _) fun _ => ite_noErr (bind_noErr (instance_noErr _ _) fun _ => bind_noErr (saveFont_noErr _ _) fun _ =>
      pure_noErr _) (pure_noErr _)
  all_goals noerr

/-- Both happen: the empty file makes a tool panic, a small font does not. -/
example {X : Type} (R : Rest X) : fixChecksum R [] = .panic ∧ ∃ input out, instantiateFile R [(wght, .drop)] input = .ok (some out) := by
  obtain ⟨input, out, _, h, _⟩ := var_runs R
  exact ⟨rfl, input, out, h⟩

end FT.Props
