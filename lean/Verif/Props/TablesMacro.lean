import Verif.Props.TablesMacroSpec
import Verif.Lemmas.Reads

/-! C110: the `tables!` macro. -/

namespace FT.Props
open FT FT.Off FT.Der FT.Macro Reader

/-! ### The tokens of a declaration -/

theorem wrapper_text : ∀ w : Word, ∃ attrs ty, wrapper w.text = some (attrs, ty) ∧
    ∀ t i, attrs = (Written.of w t i).via.toList.map Attr.withPath ∧ ty t = (Written.of w t i).rust := by
  intro w
  cases w <;> exact ⟨_, _, rfl, fun _ _ => ⟨rfl, rfl⟩⟩

theorem wrapper_none {t : String} (h : ∀ w ∈ Word.all, t ≠ w.text) : wrapper t = none := by
  have k1 := h .maybe (by decide)
  have k2 := h .counted (by decide)
  have k3 := h .counted32 (by decide)
  have k4 := h .offset16 (by decide)
  have k5 := h .offset32 (by decide)
  have k6 := h .countedOffset16 (by decide)
  have k7 := h .countedOffset32 (by decide)
  simp only [Word.text] at k1 k2 k3 k4 k5 k6 k7
  unfold wrapper
  split <;> first | contradiction | rfl

theorem wrapper_some {t : String} {x : List Attr × (Tok → RTy)} (h : wrapper t = some x) : ∃ w : Word, t = w.text := by
  unfold wrapper at h
  split at h
  · exact ⟨.maybe, rfl⟩
  · exact ⟨.counted, rfl⟩
  · exact ⟨.counted32, rfl⟩
  · exact ⟨.offset16, rfl⟩
  · exact ⟨.offset32, rfl⟩
  · exact ⟨.countedOffset16, rfl⟩
  · exact ⟨.countedOffset32, rfl⟩
  · cases h

theorem special_lookup (t : String) : specialType t = seenAs.lookup t := by
  unfold specialType
  split
  · rfl
  · rfl
  · rfl
  · rfl
  · next h1 h2 h3 h4 =>
    simp only [seenAs, List.lookup, beq_eq_false_iff_ne.mpr h1, beq_eq_false_iff_ne.mpr h2, beq_eq_false_iff_ne.mpr h3,
      beq_eq_false_iff_ne.mpr h4]

theorem fieldPragma_text (p : Pragma) : fieldPragma [.ident p.text] = .ok p.attr := by cases p <;> rfl

/-- The pragmas before a field. -/
theorem loop_pragmas : ∀ (ps : List Pragma) (rest : List Tok) (pend : List Attr),
    fieldLoop (ps.map (fun p => bracketed p.text) ++ rest) pend = fieldLoop rest (pend ++ ps.map Pragma.attr)
  | [], rest, pend => by simp
  | p :: ps, rest, pend => by
    rw [List.map_cons, List.cons_append]
    show fieldLoop (.group .bracket [.ident p.text] :: _) pend = _
    rw [fieldLoop, fieldPragma_text]
    show fieldLoop (ps.map (fun p => bracketed p.text) ++ rest) (pend ++ [p.attr]) = _
    rw [loop_pragmas ps]
    simp

theorem loop_field {f : FieldSrc} (hf : f.Proper) (rest : List Tok) :
    fieldLoop (f.toks ++ rest) [] = (do
      let (fs, loose) ← fieldLoop rest []
      return (f.field :: fs, loose)) := by
  unfold FieldSrc.toks
  rw [List.append_assoc, List.append_assoc, loop_pragmas]
  obtain ⟨ps, wr, n⟩ := f
  cases wr with
  | name t =>
    have hw := wrapper_none (hf t rfl)
    simp only [Written.toks, List.cons_append, List.nil_append]
    rw [fieldLoop]
    · simp only [expectIdent]
      show (match wrapper t with | some (attrs, ty) => _ | none => _) = _
      rw [hw]
      simp only
      show (fieldLoop rest [] >>= fun (fs, loose) => _) = _
      congr 1
      funext x
      obtain ⟨fs, loose⟩ := x
      simp only [FieldSrc.field, Written.via, Written.rust, special_lookup]
      cases seenAs.lookup t <;> simp
    · intro ts h; cases h
  | of w t i =>
    obtain ⟨attrs, ty, hw, hx⟩ := wrapper_text w
    simp only [Written.toks, List.cons_append, List.nil_append]
    rw [fieldLoop]
    · simp only [expectIdent]
      show (match wrapper w.text with | some (attrs, ty) => _ | none => _) = _
      rw [hw]
      simp only [expectGroup, if_true]
      show (fieldLoop rest [] >>= fun (fs, loose) => _) = _
      congr 1
      funext x
      obtain ⟨fs, loose⟩ := x
      simp only [FieldSrc.field]
      rw [(hx t i).1, (hx t i).2]
    · intro ts h; cases h

theorem loop_fields : ∀ {l : List FieldSrc} (_ : ∀ f ∈ l, f.Proper) (tr : List Pragma),
    fieldLoop (l.flatMap FieldSrc.toks ++ tr.map (fun p => bracketed p.text)) [] =
      .ok (l.map FieldSrc.field, tr.map Pragma.attr)
  | [], _, tr => by
    have := loop_pragmas tr [] []
    rw [List.append_nil] at this
    rw [List.flatMap_nil, List.nil_append, this, fieldLoop]
    simp
  | f :: l, h, tr => by
    rw [List.flatMap_cons, List.append_assoc, loop_field (h f (by simp)),
      loop_fields (fun g hg => h g (List.mem_cons_of_mem _ hg)) tr]
    rfl

/-- The flags after some pragmas. -/
def flagsAfter (f : Flags) : List TablePragma → Flags
  | [] => f
  | .embedded :: l => flagsAfter { f with embedded := true } l
  | .nodebug :: l => flagsAfter { f with debug := false } l
  | .noserialize :: l => flagsAfter { f with ser := false } l
  | .default :: l => flagsAfter { f with default := true } l
  | .nodeserialize :: l => flagsAfter { f with de := false } l

theorem flagsAfter_eq : ∀ (l : List TablePragma) (f : Flags), flagsAfter f l =
    { ser := f.ser && !l.contains .noserialize
      de := f.de && !l.contains .nodeserialize
      debug := f.debug && !l.contains .nodebug
      default := f.default || l.contains .default
      embedded := f.embedded || l.contains .embedded }
  | [], f => by simp [flagsAfter]
  | p :: l, f => by
    cases p <;> (rw [flagsAfter, flagsAfter_eq l]; simp)

theorem after_pragmas (name : String) : ∀ (ps : List TablePragma) (f : Flags) (rest : List Tok),
    afterName name f (ps.map (fun p => bracketed p.text) ++ rest) = afterName name (flagsAfter f ps) rest
  | [], f, rest => rfl
  | p :: ps, f, rest => by
    rw [List.map_cons, List.cons_append]
    show afterName name f (.group .bracket [.ident p.text] :: _) = _
    rw [afterName]
    cases p <;> exact after_pragmas name ps _ rest

theorem expand_one {d : TableSrc} (h : d.Proper) (rest : List Tok) :
    expandTables (d.toks ++ rest) = (do let more ← expandTables rest; return d.struct :: more) := by
  unfold TableSrc.toks
  rw [List.cons_append, List.cons_append, expandTables]
  show afterName d.name {} _ = _
  rw [List.append_assoc, after_pragmas, List.singleton_append, afterName]
  · simp only [expectGroup, if_true]
    rw [loop_fields h]
    show (expandTables rest >>= fun more => _) = _
    congr 1
    funext more
    rw [flagsAfter_eq]
    simp [TableSrc.struct]
  · intro ts h; cases h

/-- **C110** (declarations). Whatever tables are declared, the macro writes exactly their structures, in order: the fields in order,
each with its pragmas, the type the user sees and what reads and writes it. -/
theorem C110_declares : ∀ (ds : List TableSrc), (∀ d ∈ ds, d.Proper) →
    expandTables (ds.flatMap TableSrc.toks) = .ok (ds.map TableSrc.struct)
  | [], _ => rfl
  | d :: ds, h => by
    rw [List.flatMap_cons, expand_one (h d (by simp)),
      C110_declares ds (fun e he => h e (List.mem_cons_of_mem _ he))]
    rfl

/-! ### Nothing else is accepted -/

/-- A type that cannot exist: the macro puts it where it expected parentheses. -/
def Bogus (f : FieldDecl) : Prop := f.ty.arg = some (.ident "compile_error")

theorem res_bind_ok {α β : Type} {x : Res α} {f : α → Res β} {b : β} (h : (x >>= f) = .ok b) : ∃ a, x = .ok a ∧ f a = .ok b := by
  cases x with
  | ok a => exact ⟨a, rfl, h⟩
  | err => cases h
  | panic => cases h

theorem expectIdent_ok {t : Option Tok} {s : String} (h : expectIdent t = .ok s) : t = some (.ident s) := by
  unfold expectIdent at h
  split at h
  · cases h; rfl
  · cases h

theorem fieldPragma_ok {ts : List Tok} {a : Attr} (h : fieldPragma ts = .ok a) : ∃ p : Pragma, ts = [.ident p.text] ∧ a = p.attr := by
  unfold fieldPragma at h
  split at h
  · cases h; exact ⟨.offsetBase, rfl, rfl⟩
  · cases h; exact ⟨.embed, rfl, rfl⟩
  · cases h

theorem group_paren {g : Tok} {sub : Tok} {more : List Tok} (h : expectGroup (some g) .paren = sub :: more) :
    g = .group .paren (sub :: more) ∨ sub = .ident "compile_error" := by
  unfold expectGroup at h
  split at h
  · next d ts e =>
    cases e
    split at h
    · next e => subst e; left; rw [h]
    · cases h; right; rfl
  · next e => cases e
  · cases h; right; rfl

theorem loop_only : ∀ (toks : List Tok) (ps : List Pragma) (fs : List FieldDecl) (loose : List Attr),
    fieldLoop toks (ps.map Pragma.attr) = .ok (fs, loose) →
    (∃ f ∈ fs, Bogus f) ∨ ∃ (l : List FieldSrc) (tr : List Pragma), (∀ f ∈ l, f.Proper) ∧
      ps.map (fun p => bracketed p.text) ++ toks = l.flatMap FieldSrc.toks ++ tr.map (fun p => bracketed p.text) ∧
      fs = l.map FieldSrc.field ∧ loose = tr.map Pragma.attr
  | [], ps, fs, loose, h => by
    rw [fieldLoop] at h
    cases h
    exact Or.inr ⟨[], ps, by simp, by simp, rfl, rfl⟩
  | .group .bracket ts :: rest, ps, fs, loose, h => by
    rw [fieldLoop] at h
    obtain ⟨a, ha, h⟩ := res_bind_ok h
    obtain ⟨p, rfl, rfl⟩ := fieldPragma_ok ha
    have e : ps.map Pragma.attr ++ [p.attr] = (ps ++ [p]).map Pragma.attr := by simp
    rw [e] at h
    rcases loop_only rest (ps ++ [p]) fs loose h with k | ⟨l, tr, h1, h2, h3, h4⟩
    · exact Or.inl k
    · refine Or.inr ⟨l, tr, h1, ?_, h3, h4⟩
      rw [← h2]
      simp [bracketed]
  | .group .paren ts :: rest, ps, fs, loose, h => by
    rw [fieldLoop] at h
    · cases h
    · intro _ h; cases h
  | .group .brace ts :: rest, ps, fs, loose, h => by
    rw [fieldLoop] at h
    · cases h
    · intro _ h; cases h
  | .punct c :: rest, ps, fs, loose, h => by
    rw [fieldLoop] at h
    · cases h
    · intro _ h; cases h
  | .lit c :: rest, ps, fs, loose, h => by
    rw [fieldLoop] at h
    · cases h
    · intro _ h; cases h
  | [.ident t], ps, fs, loose, h => by
    rw [fieldLoop] at h
    · obtain ⟨_, _, h⟩ := res_bind_ok h
      split at h <;> cases h
    · intro _ h; cases h
  | .ident t :: n :: rest, ps, fs, loose, h => by
    rw [fieldLoop] at h
    · obtain ⟨w, hw, h'⟩ := res_bind_ok h
      clear h
      have h := h'
      clear h'
      cases hw
      cases e : wrapper t with
      | some x =>
        obtain ⟨attrs, ty⟩ := x
        dsimp only at h
        rw [e] at h
        dsimp only at h
        obtain ⟨w, rfl⟩ := wrapper_some e
        obtain ⟨attrs', ty', e', hx⟩ := wrapper_text w
        rw [e'] at e
        cases e
        split at h
        · next g n' rest' e1 =>
          cases e1
          split at h
          · cases h
          · next sub more hg =>
            obtain ⟨name, hn, h⟩ := res_bind_ok h
            obtain ⟨⟨fs', loose'⟩, hr, h⟩ := res_bind_ok h
            cases h
            have := expectIdent_ok hn
            cases this
            rcases group_paren hg with rfl | rfl
            · rcases loop_only rest' [] fs' loose' hr with ⟨f, hf, hb⟩ | ⟨l, tr, h1, h2, rfl, rfl⟩
              · exact Or.inl ⟨f, List.mem_cons_of_mem _ hf, hb⟩
              · refine Or.inr ⟨⟨ps, .of w sub more, name⟩ :: l, tr, ?_, ?_, ?_, rfl⟩
                · intro f hf
                  rcases List.mem_cons.mp hf with rfl | hf
                  · intro t ht; cases ht
                  · exact h1 f hf
                · simp only [List.map_nil, List.nil_append] at h2
                  rw [List.flatMap_cons, List.append_assoc, ← h2]
                  simp [FieldSrc.toks, Written.toks]
                · rw [List.map_cons]
                  simp only [FieldSrc.field]
                  rw [(hx sub more).1, (hx sub more).2]
            · left
              refine ⟨_, List.mem_cons_self, ?_⟩
              unfold Bogus
              simp only
              rw [(hx (.ident "compile_error") []).2]
              cases w <;> rfl
        · cases h
      | none =>
        dsimp only at h
        rw [e] at h
        dsimp only at h
        obtain ⟨name, hn, h3⟩ := res_bind_ok h
        obtain ⟨⟨fs', loose'⟩, hr, h4⟩ := res_bind_ok h3
        clear h h3
        have := expectIdent_ok hn
        cases this
        have key : fs = (FieldSrc.mk ps (.name t) name).field :: fs' ∧ loose = loose' := by
          simp only [FieldSrc.field, Written.via, Written.rust]
          rw [special_lookup] at h4
          dsimp only at h4
          split at h4
          · next r hq => cases h4; rw [hq]; simp
          · next hq => cases h4; rw [hq]; simp
        obtain ⟨rfl, rfl⟩ := key
        rcases loop_only rest [] fs' loose hr with ⟨f, hf, hb⟩ | ⟨l, tr, h1, h2, rfl, rfl⟩
        · exact Or.inl ⟨f, List.mem_cons_of_mem _ hf, hb⟩
        · refine Or.inr ⟨⟨ps, .name t, name⟩ :: l, tr, ?_, ?_, rfl, rfl⟩
          · intro f hf
            rcases List.mem_cons.mp hf with rfl | hf
            · intro t' ht w _ hw
              cases ht
              subst hw
              obtain ⟨_, _, e', _⟩ := wrapper_text w
              rw [e'] at e; cases e
            · exact h1 f hf
          · simp only [List.map_nil, List.nil_append] at h2
            rw [List.flatMap_cons, List.append_assoc, ← h2]
            simp [FieldSrc.toks, Written.toks]
    · intro _ h; cases h

theorem tablePragma_ok {f g : Flags} {ts : List Tok} (h : tablePragma f ts = .ok g) :
    ∃ p : TablePragma, ts = [.ident p.text] ∧ g = flagsAfter f [p] := by
  unfold tablePragma at h
  split at h
  · cases h; exact ⟨.embedded, rfl, rfl⟩
  · cases h; exact ⟨.nodebug, rfl, rfl⟩
  · cases h; exact ⟨.noserialize, rfl, rfl⟩
  · cases h; exact ⟨.default, rfl, rfl⟩
  · cases h; exact ⟨.nodeserialize, rfl, rfl⟩
  · cases h

theorem flagsAfter_append : ∀ (a b : List TablePragma) (f : Flags), flagsAfter f (a ++ b) = flagsAfter (flagsAfter f a) b
  | [], b, f => rfl
  | p :: a, b, f => by cases p <;> exact flagsAfter_append a b _

theorem loop_compileError (m : String) : fieldLoop (compileError m) [] = .panic := by
  unfold compileError
  rw [fieldLoop]
  · rfl
  · intro _ h; cases h

/-- What `expandTables` gives. -/
def Declared (toks : List Tok) (out : List StructDecl) : Prop :=
  (∃ s ∈ out, ∃ f ∈ s.fields, Bogus f) ∨
  ∃ ds : List TableSrc, (∀ d ∈ ds, d.Proper) ∧ toks = ds.flatMap TableSrc.toks ∧ out = ds.map TableSrc.struct

mutual
theorem expand_only : ∀ (toks : List Tok) (out : List StructDecl), expandTables toks = .ok out → Declared toks out
  | [], out, h => by
    rw [expandTables] at h
    cases h
    exact Or.inr ⟨[], by simp, rfl, rfl⟩
  | t :: rest, out, h => by
    rw [expandTables] at h
    obtain ⟨name, hn, h'⟩ := res_bind_ok h
    have := expectIdent_ok hn
    cases this
    exact after_only name rest [] out h'
theorem after_only (name : String) : ∀ (toks : List Tok) (ps : List TablePragma) (out : List StructDecl),
    afterName name (flagsAfter {} ps) toks = .ok out →
    Declared (.ident name :: ps.map (fun p => bracketed p.text) ++ toks) out
  | .group .bracket ts :: rest, ps, out, h => by
    rw [afterName] at h
    obtain ⟨f', hf, h'⟩ := res_bind_ok h
    obtain ⟨p, rfl, rfl⟩ := tablePragma_ok hf
    rw [← flagsAfter_append] at h'
    have := after_only name rest (ps ++ [p]) out h'
    rw [List.map_append, List.cons_append, List.append_assoc] at this
    exact this
  | .group .brace ts :: rest, ps, out, h => by
    rw [afterName] at h
    · obtain ⟨⟨fields, loose⟩, hl, h2⟩ := res_bind_ok h
      obtain ⟨more, hm, h3⟩ := res_bind_ok h2
      clear h h2
      cases h3
      rcases loop_only ts [] fields loose hl with ⟨f, hf, hb⟩ | ⟨l, tr, h1, h2, rfl, rfl⟩
      · exact Or.inl ⟨_, List.mem_cons_self, f, hf, hb⟩
      · rcases expand_only rest more hm with ⟨s, hs, k⟩ | ⟨ds, d1, d2, rfl⟩
        · exact Or.inl ⟨s, List.mem_cons_of_mem _ hs, k⟩
        · refine Or.inr ⟨⟨name, ps, l, tr⟩ :: ds, ?_, ?_, ?_⟩
          · intro d hd
            rcases List.mem_cons.mp hd with rfl | hd
            · exact h1
            · exact d1 d hd
          · simp only [List.map_nil, List.nil_append] at h2
            rw [List.flatMap_cons, ← d2, h2]
            simp [TableSrc.toks]
          · rw [List.map_cons, flagsAfter_eq]
            simp [TableSrc.struct]
    · intro _ h; cases h
  | .group .paren ts :: rest, ps, out, h => by
    rw [afterName] at h
    · obtain ⟨_, hl, _⟩ := res_bind_ok h
      simp only [expectGroup, reduceCtorEq, if_false] at hl
      rw [loop_compileError] at hl
      cases hl
    · intro _ h; cases h
  | .ident c :: rest, ps, out, h => by
    rw [afterName] at h
    · obtain ⟨_, hl, _⟩ := res_bind_ok h
      simp only [expectGroup] at hl
      rw [loop_compileError] at hl
      cases hl
    · intro _ h; cases h
  | .punct c :: rest, ps, out, h => by
    rw [afterName] at h
    · obtain ⟨_, hl, _⟩ := res_bind_ok h
      simp only [expectGroup] at hl
      rw [loop_compileError] at hl
      cases hl
    · intro _ h; cases h
  | .lit c :: rest, ps, out, h => by
    rw [afterName] at h
    · obtain ⟨_, hl, _⟩ := res_bind_ok h
      simp only [expectGroup] at hl
      rw [loop_compileError] at hl
      cases hl
    · intro _ h; cases h
  | [], ps, out, h => by
    rw [afterName] at h
    obtain ⟨_, hl, _⟩ := res_bind_ok h
    simp only [expectGroup] at hl
    rw [loop_compileError] at hl
    cases hl
end

/-- **C110** (nothing else). Whatever tokens the macro is given, if it writes anything, the tokens are declarations and it writes their
structures; or a word was not followed by parentheses, and then a type `compile_error` is in what it writes. -/
theorem C110_only {toks : List Tok} {out : List StructDecl} (h : expandTables toks = .ok out) :
    (∃ ds : List TableSrc, (∀ d ∈ ds, d.Proper) ∧ toks = ds.flatMap TableSrc.toks ∧ out = ds.map TableSrc.struct) ∨
    ∃ s ∈ out, ∃ f ∈ s.fields, f.ty.arg = some (.ident "compile_error") :=
  (expand_only toks out h).symm

/-! ### What is derived -/

/-- The attributes of a field as they should be understood. -/
def FieldSrc.understood (f : FieldSrc) : FieldAttrs :=
  ⟨f.pragmas.contains .offsetBase, f.pragmas.contains .embed, f.written.via⟩

theorem attrs_pragmas : ∀ (ps : List Pragma) (rest : List Attr) (a : FieldAttrs),
    fieldAttrs (ps.map Pragma.attr ++ rest) a =
      if ps.Nodup ∧ (.offsetBase ∈ ps → a.offsetBase = false) ∧ (.embed ∈ ps → a.embedded = false) then
        fieldAttrs rest { a with offsetBase := a.offsetBase || ps.contains .offsetBase
                                 embedded := a.embedded || ps.contains .embed }
      else .err
  | [], rest, a => by simp
  | p :: ps, rest, a => by
    rw [List.map_cons, List.cons_append]
    cases p with
    | offsetBase =>
      show fieldAttrs (.offsetBase :: _) a = _
      rw [fieldAttrs]
      cases ha : a.offsetBase with
      | true => simp [ha]
      | false =>
        simp only [Bool.false_eq_true, if_false]
        rw [attrs_pragmas ps]
        by_cases hm : Pragma.offsetBase ∈ ps
        · simp [hm]
        · simp [hm, ha]
    | embed =>
      show fieldAttrs (.embed :: _) a = _
      rw [fieldAttrs]
      cases ha : a.embedded with
      | true => simp [ha]
      | false =>
        simp only [Bool.false_eq_true, if_false]
        rw [attrs_pragmas ps]
        by_cases hm : Pragma.embed ∈ ps
        · simp [hm]
        · simp [hm, ha]

theorem attrs_field (f : FieldSrc) : fieldAttrs f.field.attrs {} = if f.pragmas.Nodup then .ok (FieldSrc.understood f) else .err := by
  unfold FieldSrc.field
  rw [attrs_pragmas]
  simp only [implies_true, and_true, Bool.false_or]
  split
  · cases h : f.written.via with
    | none => simp [fieldAttrs, FieldSrc.understood, h]
    | some p => simp [fieldAttrs, FieldSrc.understood, h]
  · rfl

theorem withAttrs_fields : ∀ l : List FieldSrc, withAttrs (l.map FieldSrc.field) =
    if ∀ f ∈ l, f.pragmas.Nodup then .ok (l.map (fun f => (f.field, FieldSrc.understood f))) else .err
  | [] => by simp [withAttrs]
  | f :: l => by
    rw [List.map_cons, withAttrs, attrs_field, withAttrs_fields l]
    by_cases h : f.pragmas.Nodup
    · by_cases h2 : ∀ f ∈ l, f.pragmas.Nodup
      · rw [if_pos h, if_pos h2, if_pos (by simpa using ⟨h, h2⟩)]
        rfl
      · rw [if_pos h, if_neg h2, if_neg (by simp only [List.mem_cons, forall_eq_or_imp]; exact fun k => h2 k.2)]
        rfl
    · rw [if_neg h, if_neg (c := ∀ g ∈ f :: l, g.pragmas.Nodup) (fun k => h (k f (by simp)))]
      rfl

theorem lists_self {f : FieldSrc} (hf : f.Proper) (hg : ∀ t, f.written = .name t → t ∉ ["Option", "VecOffset16", "VecOffset32"]) :
    listsSelf f.field.ty = IsOffset f.written := by
  obtain ⟨ps, wr, n⟩ := f
  cases wr with
  | name t =>
    have h1 := hf t rfl .offset16 (by decide)
    have h2 := hf t rfl .offset32 (by decide)
    have h3 := hg t rfl
    simp only [Word.text] at h1 h2
    simp only [List.mem_cons, not_or] at h3
    show listsSelf (.plain ((seenAs.lookup t).getD t)) = false
    rw [← special_lookup]
    unfold specialType
    split
    · rfl
    · rfl
    · rfl
    · rfl
    · simp [listsSelf, RTy.head, h1, h2, h3.1]
  | of w t i =>
    cases w <;> try rfl
    cases t <;> rfl

theorem lists_below {f : FieldSrc} (hg : ∀ t, f.written = .name t → t ∉ ["Option", "VecOffset16", "VecOffset32"]) :
    listsBelow (FieldSrc.understood f) f.field.ty = (f.pragmas.contains .embed || IsOffsets f.written) := by
  unfold listsBelow
  obtain ⟨ps, wr, n⟩ := f
  show (ps.contains .embed || _) = (ps.contains .embed || _)
  congr 1
  cases wr with
  | name t =>
    have h3 := hg t rfl
    simp only [List.mem_cons, not_or] at h3
    show ((RTy.plain ((seenAs.lookup t).getD t)).head == _ || (RTy.plain ((seenAs.lookup t).getD t)).head == _) = false
    rw [← special_lookup]
    unfold specialType
    split
    · rfl
    · rfl
    · rfl
    · rfl
    · simp [RTy.head, h3.2.1, h3.2.2.1]
  | of w t i => cases w <;> rfl

/-- How a field is written and measured. -/
theorem enc_declared {types : String → Ty} (hs : Sensible types) {f : FieldSrc} {t : Ty} (ht : f.written.ty types = some t) :
    (∀ x, runEnc (encOf (FieldSrc.understood f)) t x = some (toBytes t x)) ∧
    (∀ x, runSize (encOf (FieldSrc.understood f)) t x = some (size t x)) := by
  obtain ⟨ps, wr, n⟩ := f
  cases wr with
  | name u =>
    cases ht
    show (∀ x, runEnc (encOf ⟨_, _, if (seenAs.lookup u).isSome then some u else none⟩) _ x = _) ∧
      (∀ x, runSize (encOf ⟨_, _, if (seenAs.lookup u).isSome then some u else none⟩) _ x = _)
    rcases hs u with ⟨c, hc⟩ | ⟨⟨e, fs, hc⟩, hn⟩
    · rw [hc]
      cases hl : (seenAs.lookup u).isSome with
      | false => exact ⟨fun x => rfl, fun x => rfl⟩
      | true =>
        rw [← special_lookup] at hl
        unfold specialType at hl
        split at hl
        · exact ⟨fun x => rfl, fun x => rfl⟩
        · exact ⟨fun x => rfl, fun x => rfl⟩
        · exact ⟨fun x => rfl, fun x => rfl⟩
        · exact ⟨fun x => rfl, fun x => rfl⟩
        · cases hl
    · rw [hc, if_neg (by cases h : seenAs.lookup u <;> simp_all)]
      exact ⟨fun x => rfl, fun x => rfl⟩
  | of w u i =>
    cases w <;> cases u <;> first | (cases ht; done) | (cases ht; exact ⟨fun x => rfl, fun x => rfl⟩)

/-- How a field is read. -/
theorem dec_field {types : String → Ty} (hs : Sensible types) {f : FieldSrc} {t : Ty} (ht : f.written.ty types = some t) :
    ∃ d, decOf (FieldSrc.understood f) f.field.ty = .ok d ∧ runDec d t = some (Der.read t) := by
  obtain ⟨ps, wr, n⟩ := f
  cases wr with
  | name u =>
    cases ht
    show ∃ d, decOf ⟨_, _, if (seenAs.lookup u).isSome then some u else none⟩ _ = _ ∧ _
    rcases hs u with ⟨c, hc⟩ | ⟨⟨e, fs, hc⟩, hn⟩
    · rw [hc]
      have hr : Der.read (.leaf c) = c.read := by rw [Der.read]
      cases hl : (seenAs.lookup u).isSome with
      | false => exact ⟨.direct, rfl, by rw [hr]; rfl⟩
      | true =>
        rw [← special_lookup] at hl
        unfold specialType at hl
        split at hl
        · exact ⟨.wrap _, rfl, by rw [hr]; rfl⟩
        · exact ⟨.wrap _, rfl, by rw [hr]; rfl⟩
        · exact ⟨.wrap _, rfl, by rw [hr]; rfl⟩
        · exact ⟨.wrap _, rfl, by rw [hr]; rfl⟩
        · cases hl
    · rw [hc, if_neg (by cases h : seenAs.lookup u <;> simp_all)]
      exact ⟨.direct, rfl, rfl⟩
  | of w u i =>
    cases w <;> cases u <;> first | (cases ht; done) | (cases ht; exact ⟨_, rfl, rfl⟩)

theorem fieldsOf_cons {types : String → Ty} {f : FieldSrc} {l : List FieldSrc} {fs : Fields}
    (h : fieldsOf types (f :: l) = some fs) : ∃ t r, f.written.ty types = some t ∧ fieldsOf types l = some r ∧
      fs = .cons (f.pragmas.contains .offsetBase) (f.pragmas.contains .embed) t r := by
  rw [fieldsOf] at h
  cases ht : f.written.ty types with
  | none => rw [ht] at h; cases h
  | some t =>
    cases hr : fieldsOf types l with
    | none => rw [ht, hr] at h; cases h
    | some r => rw [ht, hr] at h; cases h; exact ⟨t, r, rfl, rfl, rfl⟩

theorem writes_fields {types : String → Ty} (hs : Sensible types) : ∀ (l : List FieldSrc) (fs : Fields), fieldsOf types l = some fs →
    ∀ v, runWrites (l.map (fun f => (f.name, encOf (FieldSrc.understood f)))) fs v = some (shallow fs v) ∧
      runSizes (l.map (fun f => (f.name, encOf (FieldSrc.understood f)))) fs v = some (sizeF fs v)
  | [], fs, h, v => by
    cases h
    exact ⟨by simp only [List.map_nil, runWrites, Der.shallow], by simp only [List.map_nil, runSizes, sizeF]⟩
  | f :: l, fs, h, v => by
    obtain ⟨t, r, ht, hr, rfl⟩ := fieldsOf_cons h
    obtain ⟨x, y⟩ := v
    obtain ⟨h1, h2⟩ := enc_declared hs ht
    obtain ⟨i1, i2⟩ := writes_fields hs l r hr y
    refine ⟨?_, ?_⟩
    · rw [List.map_cons, runWrites, h1 x, i1, Der.shallow]
    · rw [List.map_cons, runSizes, h2 x, i2, sizeF]

theorem steps_fields {types : String → Ty} (hs : Sensible types) : ∀ (l : List FieldSrc) (fs : Fields), fieldsOf types l = some fs →
    ∃ steps, deSteps (l.map (fun f => (f.field, FieldSrc.understood f))) = .ok steps ∧ runSteps steps fs = some (readF fs) ∧
      (l.any (fun f => f.pragmas.contains .offsetBase)) = fs.anyBase
  | [], fs, h => by
    cases h
    exact ⟨[], rfl, by simp only [runSteps, readF], rfl⟩
  | f :: l, fs, h => by
    obtain ⟨t, r, ht, hr, rfl⟩ := fieldsOf_cons h
    obtain ⟨d, hd, hd2⟩ := dec_field hs ht
    obtain ⟨steps, h1, h2, h3⟩ := steps_fields hs l r hr
    refine ⟨⟨f.pragmas.contains .offsetBase, f.name, d⟩ :: steps, ?_, ?_, ?_⟩
    · rw [List.map_cons, deSteps, hd, h1]; rfl
    · rw [runSteps]
      simp only
      rw [hd2, h2, readF]
    · rw [List.any_cons, h3]; rfl

/-- **C110** (writing). The code derived for writing writes and measures every field as declared, in order, looks for offsets first in
the fields that are offsets, then below lists of offsets and the fields marked `[embed]`, and resolves offsets unless the table is
marked `[embedded]`. -/
theorem C110_writes {d : TableSrc} (hp : d.Proper) (hg : d.NoGenericNames) (hn : ∀ f ∈ d.fields, f.pragmas.Nodup)
    {types : String → Ty} (hs : Sensible types) {fs : Fields} (hf : fieldsOf types d.fields = some fs) :
    ∃ c, deriveSer d.struct = .ok c ∧
      (∀ v, runWrites c.writes fs v = some (shallow fs v)) ∧ (∀ v, runSizes c.sizes fs v = some (sizeF fs v)) ∧
      c.selves = (d.fields.filter (fun f => IsOffset f.written)).map FieldSrc.name ∧
      c.below = (d.fields.filter (fun f => f.pragmas.contains .embed || IsOffsets f.written)).map FieldSrc.name ∧
      c.resolves = (!d.fields.isEmpty && !d.pragmas.contains .embedded) := by
  refine ⟨_, by unfold deriveSer TableSrc.struct; rw [withAttrs_fields, if_pos hn]; rfl, ?_, ?_, ?_, ?_, ?_⟩
  · intro v
    simp only [List.map_map, Function.comp_def]
    exact (writes_fields hs d.fields fs hf v).1
  · intro v
    simp only [List.map_map, Function.comp_def]
    exact (writes_fields hs d.fields fs hf v).2
  · simp only [List.filter_map, List.map_map, Function.comp_def]
    rw [List.filter_congr (fun f hf => lists_self (hp f hf) (hg f hf))]
    rfl
  · simp only [List.filter_map, List.map_map, Function.comp_def]
    rw [List.filter_congr (fun f hf => lists_below (hg f hf))]
    rfl
  · cases d.fields <;> rfl

/-- **C110** (reading). The code derived for reading reads the fields in order, each as declared, from the place its `[offset_base]`
says, and builds the structure from all of them. -/
theorem C110_reads {d : TableSrc} (hn : ∀ f ∈ d.fields, f.pragmas.Nodup)
    {types : String → Ty} (hs : Sensible types) {fs : Fields} (hf : fieldsOf types d.fields = some fs) :
    ∃ c, deriveDe d.struct = .ok c ∧ c.run fs = some (Der.read (.record (d.pragmas.contains .embedded) fs)) ∧
      c.build = d.fields.map FieldSrc.name := by
  obtain ⟨steps, h1, h2, h3⟩ := steps_fields hs d.fields fs hf
  refine ⟨_, by unfold deriveDe TableSrc.struct; rw [withAttrs_fields, if_pos hn]; show (deSteps _ >>= _) = _; rw [h1]; rfl, ?_, ?_⟩
  · unfold DeCode.run
    simp only
    rw [h2, Der.read]
    simp only [List.any_map, Function.comp_def]
    have : (d.fields.any fun f => (FieldSrc.understood f).offsetBase) = fs.anyBase := h3
    rw [this]
  · simp only [List.map_map, Function.comp_def]
    rfl

theorem dec_any (f : FieldSrc) : ∃ d, decOf (FieldSrc.understood f) f.field.ty = .ok d := by
  obtain ⟨ps, wr, n⟩ := f
  cases wr with
  | name u =>
    show ∃ d, decOf ⟨_, _, if (seenAs.lookup u).isSome then some u else none⟩ _ = _
    cases hl : (seenAs.lookup u).isSome with
    | false => exact ⟨.direct, rfl⟩
    | true =>
      rw [← special_lookup] at hl
      unfold specialType at hl
      split at hl
      · exact ⟨.wrap _, rfl⟩
      · exact ⟨.wrap _, rfl⟩
      · exact ⟨.wrap _, rfl⟩
      · exact ⟨.wrap _, rfl⟩
      · cases hl
  | of w u i => cases w <;> exact ⟨_, rfl⟩

theorem steps_any : ∀ l : List FieldSrc, ∃ steps, deSteps (l.map (fun f => (f.field, FieldSrc.understood f))) = .ok steps
  | [] => ⟨[], rfl⟩
  | f :: l => by
    obtain ⟨d, hd⟩ := dec_any f
    obtain ⟨s, hs⟩ := steps_any l
    exact ⟨_, by rw [List.map_cons, deSteps, hd, hs]; rfl⟩

theorem derive_both (d : TableSrc) :
    if ∀ f ∈ d.fields, f.pragmas.Nodup then (∃ c, deriveSer d.struct = .ok c) ∧ (∃ c, deriveDe d.struct = .ok c)
    else deriveSer d.struct = .err ∧ deriveDe d.struct = .err := by
  split
  · next h =>
    obtain ⟨s, hs⟩ := steps_any d.fields
    exact ⟨⟨_, by unfold deriveSer TableSrc.struct; rw [withAttrs_fields, if_pos h]; rfl⟩,
      ⟨_, by unfold deriveDe TableSrc.struct; rw [withAttrs_fields, if_pos h]; show (deSteps _ >>= _) = _; rw [hs]; rfl⟩⟩
  · next h =>
    constructor
    · unfold deriveSer TableSrc.struct; rw [withAttrs_fields, if_neg h]; rfl
    · unfold deriveDe TableSrc.struct; rw [withAttrs_fields, if_neg h]; rfl

/-- **C110** (what compiles). Pragmas after the last field or given twice to a field are refused by the compiler, and any attribute if
nothing is derived; all else compiles as far as the macros go, with what is asked for. -/
theorem C110_compiles (d : TableSrc) :
    (d.Compiles → ∃ s r, compileTable d.struct = .ok (s, r) ∧
      (if .noserialize ∈ d.pragmas then s = none else ∃ c, s = some c ∧ deriveSer d.struct = .ok c) ∧
      (if .nodeserialize ∈ d.pragmas then r = none else ∃ c, r = some c ∧ deriveDe d.struct = .ok c)) ∧
    (¬ d.Compiles → compileTable d.struct = .err) := by
  have hb := derive_both d
  have e1 : d.struct.ser = !d.pragmas.contains .noserialize := rfl
  have e2 : d.struct.de = !d.pragmas.contains .nodeserialize := rfl
  have e3 : d.struct.embedded = d.pragmas.contains .embedded := rfl
  have e4 : d.struct.loose.isEmpty = d.trailing.isEmpty := by
    show (d.trailing.map _).isEmpty = _
    cases d.trailing <;> rfl
  have e5 : d.struct.fields.any (fun f => !f.attrs.isEmpty) = true ↔ ¬ ∀ f ∈ d.fields, f.pragmas = [] ∧ f.written.via = none := by
    show (d.fields.map FieldSrc.field).any _ = true ↔ _
    rw [List.any_eq_true]
    constructor
    · rintro ⟨g, hg, hx⟩ hall
      obtain ⟨f, hf, rfl⟩ := List.mem_map.mp hg
      obtain ⟨h1, h2⟩ := hall f hf
      simp [FieldSrc.field, h1, h2] at hx
    · intro hall
      apply Classical.byContradiction
      intro hno
      apply hall
      intro f hf
      have hk : f.field.attrs = [] := by
        apply Classical.byContradiction
        intro hne
        exact hno ⟨f.field, List.mem_map_of_mem hf, by cases h : f.field.attrs <;> simp_all⟩
      simp only [FieldSrc.field, List.append_eq_nil_iff, List.map_eq_nil_iff] at hk
      refine ⟨hk.1, ?_⟩
      cases h : f.written.via with
      | none => rfl
      | some p => rw [h] at hk; simp at hk
  unfold compileTable TableSrc.Compiles
  rw [e1, e2, e3, e4]
  by_cases ht : d.trailing = []
  · simp only [ht, List.isEmpty_nil, Bool.not_true, Bool.false_eq_true, if_false, true_and]
    by_cases hs : TablePragma.noserialize ∈ d.pragmas <;> by_cases hd : TablePragma.nodeserialize ∈ d.pragmas
    · simp only [List.contains_iff_mem.mpr hs, List.contains_iff_mem.mpr hd, Bool.not_true, Bool.not_false, Bool.true_and, hs, hd,
        and_self, if_true]
      cases hB : (d.pragmas.contains .embedded || d.struct.fields.any (fun f => !f.attrs.isEmpty)) with
      | true =>
        rw [Bool.or_eq_true, e5] at hB
        refine ⟨fun k => ?_, fun _ => rfl⟩
        rcases hB with hB | hB
        · exact absurd (List.contains_iff_mem.mp hB) k.1
        · exact absurd k.2 hB
      | false =>
        rw [Bool.or_eq_false_iff] at hB
        refine ⟨fun _ => ⟨none, none, rfl, rfl, rfl⟩, fun k => absurd ⟨?_, ?_⟩ k⟩
        · intro hx
          rw [List.contains_iff_mem.mpr hx] at hB
          cases hB.1
        · apply Classical.byContradiction
          intro hy
          rw [e5.mpr hy] at hB
          cases hB.2
    all_goals
      have cs : d.pragmas.contains TablePragma.noserialize = decide (TablePragma.noserialize ∈ d.pragmas) := by
        simp [Bool.eq_iff_iff]
      have cd : d.pragmas.contains TablePragma.nodeserialize = decide (TablePragma.nodeserialize ∈ d.pragmas) := by
        simp [Bool.eq_iff_iff]
      rw [cs, cd]
      simp only [hs, hd, decide_true, decide_false, Bool.not_true, Bool.not_false, Bool.false_and, Bool.true_and, and_true, and_false,
        and_self, Bool.false_eq_true, if_false, if_true]
      by_cases hn : ∀ f ∈ d.fields, f.pragmas.Nodup
      · rw [if_pos hn] at hb
        obtain ⟨⟨c1, h1⟩, c2, h2⟩ := hb
        refine ⟨fun _ => ⟨_, _, by simp only [h1, h2]; rfl, ?_, ?_⟩, fun k => absurd hn k⟩ <;>
          first | rfl | exact ⟨_, rfl, h1⟩ | exact ⟨_, rfl, h2⟩
      · rw [if_neg hn] at hb
        obtain ⟨h1, h2⟩ := hb
        exact ⟨fun k => absurd k hn, fun _ => by simp only [h1, h2]; rfl⟩
  · have : d.trailing.isEmpty = false := by cases h : d.trailing <;> simp_all
    simp only [this, Bool.not_false, if_true]
    exact ⟨fun k => absurd k.1 ht, fun _ => by simp⟩

/-! ### Instances -/

/-- A table with every kind of field. -/
def sampleDecl : TableSrc :=
  ⟨"Sample", [.default, .nodebug], [
    ⟨[.offsetBase], .name "uint16", "version"⟩,
    ⟨[], .name "Fixed", "angle"⟩,
    ⟨[], .of .counted (.ident "uint16") [.punct ',', .ident "int16"], "numbers"⟩,
    ⟨[], .of .offset16 (.ident "Part") [], "part"⟩,
    ⟨[], .of .countedOffset32 (.ident "Part") [], "parts"⟩], []⟩

def samplePart : TableSrc := ⟨"Part", [.embedded], [⟨[], .name "uint16", "first"⟩], []⟩

theorem sample_proper : ∀ d ∈ [sampleDecl, samplePart], d.Proper := by
  intro d hd f hf t ht
  simp only [List.mem_cons, List.not_mem_nil, or_false] at hd
  rcases hd with rfl | rfl
  · simp only [sampleDecl, List.mem_cons, List.not_mem_nil, or_false] at hf
    rcases hf with rfl | rfl | rfl | rfl | rfl <;> cases ht <;> decide
  · simp only [samplePart, List.mem_cons, List.not_mem_nil, or_false] at hf
    subst hf
    cases ht
    decide

example : expandTables (sampleDecl.toks ++ samplePart.toks) = .ok [
    ⟨true, true, false, true, false, "Sample", [
      ⟨[.offsetBase], "version", .plain "uint16"⟩,
      ⟨[.withPath "Fixed"], "angle", .plain "f32"⟩,
      ⟨[.withPath "Counted"], "numbers", .vec (.ident "uint16")⟩,
      ⟨[], "part", .offset16 (.ident "Part")⟩,
      ⟨[.withPath "Counted"], "parts", .vecOffset32 (.ident "Part")⟩], []⟩,
    ⟨true, true, true, false, true, "Part", [⟨[], "first", .plain "uint16"⟩], []⟩] := C110_declares [sampleDecl, samplePart] sample_proper

example : sampleDecl.Compiles := ⟨rfl, by rw [if_neg (by decide)]; decide⟩

/-- **C110, witness**: what follows the first token in parentheses is ignored, so these two declarations, of which one is nonsense, are the same. -/
theorem C110_ignored : ∃ a b : List Tok, a ≠ b ∧ ∃ s, expandTables a = .ok s ∧ expandTables b = .ok s :=
  ⟨[.ident "T", .group .brace [.ident "Counted", .group .paren [.ident "uint16"], .ident "x"]],
    [.ident "T", .group .brace [.ident "Counted", .group .paren [.ident "uint16", .punct '<', .ident "uint8", .punct '>'], .ident "x"]],
    by simp, _,
    C110_declares [⟨"T", [], [⟨[], .of .counted (.ident "uint16") [], "x"⟩], []⟩] (by
      intro d hd f hf t ht
      simp only [List.mem_singleton] at hd
      subst hd
      simp only [List.mem_singleton] at hf
      subst hf
      cases ht),
    C110_declares [⟨"T", [], [⟨[], .of .counted (.ident "uint16") [.punct '<', .ident "uint8", .punct '>'], "x"⟩], []⟩] (by
      intro d hd f hf t ht
      simp only [List.mem_singleton] at hd
      subst hd
      simp only [List.mem_singleton] at hf
      subst hf
      cases ht)⟩

/-- **C110, witness**: a word without parentheses is not refused by the macro itself. -/
theorem C110_no_parentheses : expandTables [.ident "T", .group .brace [.ident "Counted", .ident "uint16", .ident "x"]] =
    .ok [⟨true, true, true, false, false, "T", [⟨[.withPath "Counted"], "x", .vec (.ident "compile_error")⟩], []⟩] := by
  have h : fieldLoop [.ident "Counted", .ident "uint16", .ident "x"] [] =
      .ok ([⟨[.withPath "Counted"], "x", .vec (.ident "compile_error")⟩], []) := by
    rw [fieldLoop]
    · rfl
    · intro _ h; cases h
  rw [expandTables]
  show afterName "T" {} _ = _
  rw [afterName]
  · show (fieldLoop [.ident "Counted", .ident "uint16", .ident "x"] [] >>= _) = _
    rw [h]
    rfl
  · intro _ h; cases h

/-- Commas between fields, unknown pragmas and missing bodies are refused. -/
example : expandTables [.ident "T", .group .brace [.ident "uint16", .ident "x", .punct ',', .ident "uint16", .ident "y"]] = .panic := by
  have h : ∃ d, fieldLoop [.punct ',', .ident "uint16", .ident "y"] [] = d ∧ d = .panic := by
    refine ⟨_, rfl, ?_⟩
    rw [fieldLoop]
    · rfl
    · intro _ h; cases h
  have h' : fieldLoop [.ident "uint16", .ident "x", .punct ',', .ident "uint16", .ident "y"] [] = .panic := by
    rw [fieldLoop]
    · show (fieldLoop [.punct ',', .ident "uint16", .ident "y"] [] >>= _) = _
      obtain ⟨d, h1, h2⟩ := h
      rw [h1, h2]
      rfl
    · intro _ h; cases h
  rw [expandTables]
  show afterName "T" {} _ = _
  rw [afterName]
  · show (fieldLoop [.ident "uint16", .ident "x", .punct ',', .ident "uint16", .ident "y"] [] >>= _) = _
    rw [h']
    rfl
  · intro _ h; cases h
example : expandTables [.ident "T", bracketed "packed", .group .brace []] = .panic := by with_unfolding_all rfl
example : expandTables [.ident "T"] = .panic := by
  rw [expandTables]
  show afterName "T" {} [] = _
  rw [afterName]
  show (fieldLoop (compileError _) [] >>= _) = _
  rw [loop_compileError]
  rfl

/-- Names for the sample: `Part` is a structure, the others are numbers. -/
def sampleTypes (num : Leaf) : String → Ty
  | "Part" => .record true (.cons false false (.leaf num) .nil)
  | _ => .leaf num

example (num : Leaf) : Sensible (sampleTypes num) ∧ ∃ fs, fieldsOf (sampleTypes num) sampleDecl.fields = some fs := by
  refine ⟨fun n => ?_, _, rfl⟩
  unfold sampleTypes
  split
  · exact Or.inr ⟨⟨_, _, rfl⟩, rfl⟩
  · exact Or.inl ⟨_, rfl⟩

end FT.Props
