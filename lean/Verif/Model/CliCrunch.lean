import Verif.Model.Cli
import Verif.Model.Crunch

/-!
The main program of `fontcrunch` (crates/fonttools-cli/src/bin/fontcrunch.rs:649-704), from the bytes of the input file to the bytes of
the output file.
-/

namespace FT.Cli
open FT FT.Store FT.Save FT.Tables FT.Glyf FT.Crunch

variable {X S : Type}

/-- The names of the glyphs (fontcrunch.rs:659-663). -/
def namesIn (M : Machine (Val X) S) (s : S) : Res (Option (List String) × S) := do
  let (i, s) ← access M tagPost s
  match i with
  | none => .ok (none, s)
  | some i => do
    let v ← valueOf M i s
    match v with
    | .other _ (.post p) => .ok (p.glyphnames, s)
    | _ => .panic

/-- `glyphnames.as_ref().map_or("", |gn| &gn[ix])` (fontcrunch.rs:689): the name only goes into the log. -/
def nameAt (names : Option (List String)) (i : Nat) : Res String := match names with
  | none => .ok ""
  | some l => match l[i]? with
    | some n => .ok n
    | none => .panic

/-- The glyph with index `i`: if it has contours, it is crunched (fontcrunch.rs:669-673, 688-697). -/
def crunchOne (opt : Optimiser) (quads : Pt → Pt → Pt → Pt → List (Pt × Pt)) (names : Option (List String)) (i : Nat) (g : Glyph) : Res Glyph :=
  if g.contours.isEmpty then .ok g
  else do
    let _ ← nameAt names i
    crunchGlyph opt quads g

/-- The glyphs from index `i` on (fontcrunch.rs:667-697). They are crunched in parallel, which makes no difference to the result. -/
def crunchFrom (opt : Optimiser) (quads : Pt → Pt → Pt → Pt → List (Pt × Pt)) (names : Option (List String)) : Nat → List Glyph → Res (List Glyph)
  | _, [] => .ok []
  | i, g :: gs => do
    let g' ← crunchOne opt quads names i g
    let rest ← crunchFrom opt quads names (i + 1) gs
    return g' :: rest

/-- fontcrunch.rs:659-699. -/
def crunchBody (opt : Optimiser) (quads : Pt → Pt → Pt → Pt → List (Pt × Pt)) (M : Machine (Val X) S) (s : S) : Res S := do
  let (names, s) ← namesIn M s
  let (i, s) ← access M tagGlyf s
  match i with
  | none => .ok s
  | some i => do
    let gs ← glyphsOf M i s
    let new ← crunchFrom opt quads names 0 gs
    let s ← exec M (.modify i (fun _ => .glyf new)) s
    exec M (.insertHolder i) s

/-- `main` (fontcrunch.rs:649-704): the file that is written, `none` for none. -/
def crunchFile (R : Rest X) (opt : Optimiser) (quads : Pt → Pt → Pt → Pt → List (Pt × Pt)) (input : Bytes) : Res (Option Bytes) :=
  match Font.readTables (Rd.new input) with
  | .ok ((version, tables), _) => do
    let s ← openTables (storeMachine (fmt R)) (Store.fresh tables)
    if contains (storeMachine (fmt R)) s tagGvar then return none
    else do
      let s ← crunchBody opt quads (storeMachine (fmt R)) s
      let b ← saveFont R version s
      return some b
  | .err => .panic
  | .panic => .panic

end FT.Cli
