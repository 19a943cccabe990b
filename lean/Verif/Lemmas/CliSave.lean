import Verif.Lemmas.Cli

/-! Saving in the command line tools. -/

namespace FT.Cli
open FT FT.Store FT.Save FT.Tables FT.Props

/-! ### For examples -/

def okIs {α : Type} [DecidableEq α] (r : Res α) (a : α) : Bool := match r with
  | .ok x => decide (x = a)
  | _ => false

theorem okIs_eq {α : Type} [DecidableEq α] {r : Res α} {a : α} (h : okIs r a = true) : r = .ok a := by
  cases r <;> simp_all [okIs]

/-! ### What loading a file gives -/

theorem insertTable_eq (t : Tag) (b : Bytes) : ∀ l : List (Tag × Bytes), Font.insertTable t b l = BMap.insert l t b
  | [] => rfl
  | (t', b') :: l => by
    have hk : ∀ x y : Tag, (Key.lt x y = true) = (Font.key x < Font.key y) := by
      intro x y
      show (decide _ = true) = _
      rw [decide_eq_true_iff]
      rfl
    unfold Font.insertTable BMap.insert
    simp only [hk]
    split
    · rfl
    · next h1 =>
      split
      · next h2 => rw [if_neg (by omega)]
      · next h2 => rw [if_pos (by omega), insertTable_eq t b l]

theorem slice_facts (inp : Bytes) : ∀ (l : List Font.Rec) (acc T : List (Tag × Bytes)), BMap.Sorted acc →
    (∀ x ∈ acc, x.1.Valid) → (∀ r ∈ l, r.tag.Valid) → Font.sliceTables inp l acc = .ok T →
    BMap.Sorted T ∧ ∀ x ∈ T, x.1.Valid
  | [], acc, T, hs, hv, _, h => by cases h; exact ⟨hs, hv⟩
  | r :: l, acc, T, hs, hv, hr, h => by
    unfold Font.sliceTables at h
    split at h
    · cases h
    · refine slice_facts inp l _ T ?_ ?_ (fun r' h' => hr r' (by simp [h'])) h
      · rw [insertTable_eq]; exact BMap.insert_sorted hs _ _
      · intro x hx
        rw [insertTable_eq] at hx
        rcases BMap.mem_insert hx with rfl | hx
        · exact hr r (by simp)
        · exact hv x hx

theorem reader_bind_ok {α β : Type} {p : Reader α} {q : α → Reader β} {r : Rd} {x : β × Rd} (h : (p >>= q) r = .ok x) :
    ∃ a r', p r = .ok (a, r') ∧ q a r' = .ok x := by
  rw [Reader.bind_run] at h
  cases hp : p r with
  | err => rw [hp] at h; cases h
  | panic => rw [hp] at h; cases h
  | ok y => rw [hp] at h; exact ⟨y.1, y.2, rfl, h⟩

theorem readTag_valid {r r' : Rd} {t : Tag} (h : readTag r = .ok (t, r')) : t.Valid := by
  unfold readTag at h
  obtain ⟨bs, r1, _, h⟩ := reader_bind_ok h
  cases hb : Tag.fromRaw bs with
  | err => simp [Reader.lift, hb] at h
  | panic => simp [Reader.lift, hb] at h
  | ok t' =>
    simp [Reader.lift, hb] at h
    obtain ⟨rfl, _⟩ := h
    unfold Tag.fromRaw at hb
    split at hb
    · cases hb
    · split at hb
      · next hall =>
        split at hb
        · next a b c d e =>
          cases hb
          have hx : ∀ x ∈ bs ++ List.replicate (4 - bs.length) 0x20, tagByteOk x = true := by
            intro x hx
            rcases List.mem_append.mp hx with hx | hx
            · exact List.all_eq_true.mp hall x hx
            · rw [(List.mem_replicate.mp hx).2]; decide
          rw [e] at hx
          exact ⟨hx a (by simp), hx b (by simp), hx c (by simp), hx d (by simp)⟩
        · cases hb
      · cases hb

theorem deCounted_all {α : Type} {p : Reader α} {Q : α → Prop} (hp : ∀ r a r', p r = .ok (a, r') → Q a) : ∀ (n : Nat) (r r' : Rd)
    (l : List α), deCounted p n r = .ok (l, r') → ∀ a ∈ l, Q a
  | 0, r, r', l, h => by cases h; intro a ha; cases ha
  | n + 1, r, r', l, h => by
    unfold deCounted at h
    obtain ⟨a, r1, h1, h⟩ := reader_bind_ok h
    obtain ⟨l', r2, h2, h⟩ := reader_bind_ok h
    cases h
    intro x hx
    rcases List.mem_cons.mp hx with rfl | hx
    · exact hp _ _ _ h1
    · exact deCounted_all hp n _ _ _ h2 x hx

/-- Loaded tables are in order, have proper tags, and the version is known. -/
theorem loads_facts {input : Bytes} {v : UInt32} {T : List (Tag × Bytes)} {r : Rd}
    (h : Font.readTables (Rd.new input) = .ok ((v, T), r)) : BMap.Sorted T ∧ (∀ x ∈ T, x.1.Valid) ∧ VersionOk v := by
  unfold Font.readTables at h
  obtain ⟨⟨v', recs⟩, r1, h1, h⟩ := reader_bind_ok h
  obtain ⟨inp, r2, h2, h⟩ := reader_bind_ok h
  obtain ⟨T', r3, h3, h⟩ := reader_bind_ok h
  cases h
  have hs : Font.sliceTables inp (recs.mergeSort (fun a b => a.offset.toNat ≤ b.offset.toNat)) [] = .ok T := by
    revert h3
    cases Font.sliceTables inp (recs.mergeSort (fun a b => a.offset.toNat ≤ b.offset.toNat)) [] with
    | ok x => intro h; simp [Reader.lift] at h; rw [h.1]
    | err => intro h; cases h
    | panic => intro h; cases h
  unfold Font.readDirectory at h1
  obtain ⟨w, _, _, h1⟩ := reader_bind_ok h1
  obtain ⟨n, _, _, h1⟩ := reader_bind_ok h1
  obtain ⟨_, _, _, h1⟩ := reader_bind_ok h1
  obtain ⟨_, _, _, h1⟩ := reader_bind_ok h1
  obtain ⟨_, _, _, h1⟩ := reader_bind_ok h1
  split at h1
  · next hv =>
    obtain ⟨l, _, hl, h1⟩ := reader_bind_ok h1
    cases h1
    have hval : ∀ x ∈ recs, x.tag.Valid := deCounted_all (fun r a r' h => by
      unfold Font.readRec at h
      obtain ⟨t, _, ht, h⟩ := reader_bind_ok h
      obtain ⟨_, _, _, h⟩ := reader_bind_ok h
      obtain ⟨_, _, _, h⟩ := reader_bind_ok h
      obtain ⟨_, _, _, h⟩ := reader_bind_ok h
      cases h
      exact readTag_valid ht) _ _ _ _ hl
    obtain ⟨a, b⟩ := slice_facts inp _ [] T (by simp [BMap.Sorted]) (by simp)
      (fun r hr => hval r (List.mem_mergeSort.mp hr)) hs
    refine ⟨a, b, ?_⟩
    unfold Font.versionOk at hv
    simpa [VersionOk] using hv
  · cases h1

/-! ### Saving when nothing has to be compiled -/

section
variable {G O : Type} {F : Fmt G O}

/-- The tables that saving may compile. -/
def Compiled (t : Tag) : Prop := t = tagGlyf ∨ t = tagLoca ∨ t = tagMaxp ∨ t = tagGPOS ∨ t = tagGSUB

/-- All of these still have their bytes. -/
def Raw5 (a : ASt G O) : Prop := ∀ t, Compiled t → (isSerializedA a t).getD true = true

theorem isSer_of_evolves {P : Parser (Loaded G O)} {a a' : ASt G O} {t : Tag} (h : Evolves P t (a.store t) (a'.store t)) :
    (isSerializedA a' t).getD true = true ↔ (isSerializedA a t).getD true = true := by
  unfold isSerializedA
  rcases h with e | ⟨b, v, d, e1, e2, _⟩
  · rw [e]
  · rw [e1, e2]; simp

theorem compileAll_raw {a : ASt G O} (h : Raw5 a) :
    compileAll F (indepMachine F) a = (do
      let (i, a1) ← access (indepMachine F) tagMaxp a
      match i with
      | none => .panic
      | some i => do
        let v ← valueOf (indepMachine F) i a1
        match v with
        | .maxp _ => exec (indepMachine F) (.drop i) a1
        | _ => .panic) := by
  have hg : compileGlyf F (indepMachine F) a = .ok a := by
    unfold compileGlyf
    simp only [indepMachine, h tagGlyf (.inl rfl), h tagLoca (.inr (.inl rfl)), h tagMaxp (.inr (.inr (.inl rfl))),
      Bool.and_self, if_true]
  unfold compileAll compileLayouts
  rw [hg, Res.ok_bind]
  cases ha : access (indepMachine F) tagMaxp a with
  | err => rfl
  | panic => rfl
  | ok r =>
    obtain ⟨i, a1⟩ := r
    simp only [Res.ok_bind]
    cases i with
    | none => rfl
    | some i =>
      simp only
      cases hv : valueOf (indepMachine F) i a1 with
      | err => rfl
      | panic => rfl
      | ok v =>
        simp only [Res.ok_bind]
        cases v with
        | maxp m =>
          simp only
          have hd : exec (indepMachine F) (.drop i) a1 = .ok { a1 with vars := a1.vars.set i none } := rfl
          rw [hd, Res.ok_bind]
          have hev := (access_ok ha).1
          have hlay : ∀ t, t = tagGPOS ∨ t = tagGSUB → compileLayout F (indepMachine F) m.numGlyphs t
              { a1 with vars := a1.vars.set i none } = .ok { a1 with vars := a1.vars.set i none } := by
            intro t ht
            unfold compileLayout
            rw [if_pos]
            exact (isSer_of_evolves (a' := a1) (hev t)).mpr (h t (by unfold Compiled; tauto))
          rw [hlay _ (.inl rfl), Res.ok_bind, hlay _ (.inr rfl)]
        | _ => rfl

/-- The bytes of each table. -/
def bytesOf (F : Fmt G O) (a : ASt G O) (t : Tag) : Option (Res Bytes) := (a.store t).map (fun _ => Indep.write (parser F) a t)

theorem bytesOf_ev {a a' : ASt G O} (h : Ev (parser F) a a') : bytesOf F a' = bytesOf F a := by
  funext t
  unfold bytesOf
  rw [evolves_write (h t)]
  have := evolves_none (h t)
  cases h1 : a.store t <;> cases h2 : a'.store t <;> simp_all

theorem mapL_forall₂ {α β : Type} {f : α → Res β} : ∀ {l : List α} {bs : List β},
    List.Forall₂ (fun a b => f a = .ok b) l bs → Res.mapL f l = .ok bs
  | [], _, .nil => rfl
  | a :: l, _, .cons h t => by simp only [Res.mapL, h, mapL_forall₂ t]

theorem get_keys {V α : Type} {m : List (Tag × V)} {n : List (Tag × α)} (h : n.map Prod.fst = m.map Prod.fst) (t : Tag)
    (hm : BMap.Sorted m) : BMap.get? n t = none ↔ BMap.get? m t = none := by
  have hn : BMap.Sorted n := sorted_tags h hm
  rw [BMap.get?_eq_none hn, BMap.get?_eq_none hm]
  have key : (∃ x ∈ n, x.1 = t) ↔ ∃ x ∈ m, x.1 = t := by
    have : t ∈ n.map Prod.fst ↔ t ∈ m.map Prod.fst := by rw [h]
    simpa only [List.mem_map] using this
  constructor
  · intro h1 x hx he
    obtain ⟨y, hy, e⟩ := key.mpr ⟨x, hx, he⟩
    exact h1 y hy e
  · intro h1 x hx he
    obtain ⟨y, hy, e⟩ := key.mp ⟨x, hx, he⟩
    exact h1 y hy e

theorem writeAll_iff {s : Store.St (Loaded G O)} {a : ASt G O} (hr : Rep s a) (T : List (Tag × Bytes)) :
    writeAll F s = .ok T ↔ BMap.Sorted T ∧ ∀ t, (BMap.get? T t).map Res.ok = bytesOf F a t := by
  constructor
  · intro h
    obtain ⟨h1, h2⟩ := writeAll_ok h
    have hT : BMap.Sorted T := sorted_tags h1 hr.sorted
    refine ⟨hT, fun t => ?_⟩
    unfold bytesOf
    cases hg : BMap.get? T t with
    | none =>
      have := (get_keys h1 t hr.sorted).mp hg
      rw [(get_none_iff hr t).mp this]
      rfl
    | some b =>
      have hm := h2 t b ((BMap.get?_eq_some hT).mp hg)
      rw [sim_write hr] at hm
      rw [hm]
      have : a.store t ≠ none := by
        intro e
        have := (get_keys h1 t hr.sorted).mpr ((get_none_iff hr t).mpr e)
        rw [hg] at this; cases this
      cases ha : a.store t with
      | none => exact absurd ha this
      | some x => rfl
  · rintro ⟨hT, h⟩
    have hall : ∀ t ∈ s.store.map Prod.fst, ∃ b, BMap.get? T t = some b ∧ s.write (parser F) t = .ok b := by
      intro t ht
      obtain ⟨x, hx, rfl⟩ := List.mem_map.mp ht
      have hs := (BMap.get?_eq_some hr.sorted (v := x.2)).mpr hx
      have hne : a.store x.1 ≠ none := by
        intro e
        rw [(get_none_iff hr x.1).mpr e] at hs; cases hs
      have := h x.1
      unfold bytesOf at this
      cases hax : a.store x.1 with
      | none => exact absurd hax hne
      | some y =>
        rw [hax] at this
        cases hg : BMap.get? T x.1 with
        | none => rw [hg] at this; cases this
        | some b =>
          rw [hg] at this
          simp only [Option.map_some, Option.some.injEq] at this
          exact ⟨b, rfl, by rw [sim_write hr, this]⟩
    obtain ⟨T', hT'⟩ : ∃ T', writeAll F s = .ok T' := by
      refine mapL_eq _ ?_
      intro t ht
      obtain ⟨b, _, e⟩ := hall t ht
      rw [e]
      exact ⟨_, rfl⟩
    rw [hT']
    obtain ⟨h1, h2⟩ := writeAll_ok hT'
    have hs' : BMap.Sorted T' := sorted_tags h1 hr.sorted
    congr 1
    refine BMap.ext hs' hT ?_
    intro t
    cases hg : BMap.get? T' t with
    | none =>
      have e := (get_none_iff hr t).mp ((get_keys h1 t hr.sorted).mp hg)
      have := h t
      unfold bytesOf at this
      rw [e] at this
      cases hg2 : BMap.get? T t with
      | none => rfl
      | some b => rw [hg2] at this; cases this
    | some b =>
      have hmem := (BMap.get?_eq_some hs').mp hg
      obtain ⟨b', e1, e2⟩ := hall t (by rw [← h1]; exact List.mem_map.mpr ⟨_, hmem, rfl⟩)
      rw [h2 t b hmem] at e2
      cases e2
      exact e1.symm

/-- Saving a font whose compiled tables still have their bytes. -/
theorem save_iff {s : Store.St (Loaded G O)} {a : ASt G O} (hr : Rep s a) (h5 : Raw5 a) (version : UInt32) (out : Bytes) :
    save F version s = .ok out ↔
      (∃ m i a1, access (indepMachine F) tagMaxp a = .ok (some i, a1) ∧ valueOf (indepMachine F) i a1 = .ok (.maxp m)) ∧
      ∃ T, BMap.Sorted T ∧ (∀ t, (BMap.get? T t).map Res.ok = bytesOf F a t) ∧ Font.toBytes version T = .ok out := by
  have hsim := sim_compileAll (sim_indep F) F hr
  constructor
  · intro h
    obtain ⟨s', h1, h⟩ := bind_eq_ok h
    obtain ⟨T, h2, h3⟩ := bind_eq_ok h
    rw [h1] at hsim
    cases hc : compileAll F (indepMachine F) a with
    | err => rw [hc] at hsim; exact hsim.elim
    | panic => rw [hc] at hsim; exact hsim.elim
    | ok a' =>
      rw [hc] at hsim
      have hr' : Rep s' a' := hsim
      rw [compileAll_raw h5] at hc
      obtain ⟨⟨i, a1⟩, ha, hc⟩ := bind_eq_ok hc
      cases i with
      | none => cases hc
      | some i =>
        obtain ⟨v, hv, hc⟩ := bind_eq_ok hc
        cases v with
        | maxp m =>
          obtain ⟨hT, hb⟩ := (writeAll_iff hr' T).mp h2
          refine ⟨⟨m, i, a1, ha, hv⟩, T, hT, ?_, h3⟩
          have hev := (access_ok ha).1
          have hst := exec_drop hc
          intro t
          rw [hb t, ← bytesOf_ev hev]
          unfold bytesOf Indep.write
          rw [hst]
        | _ => cases hc
  · rintro ⟨⟨m, i, a1, ha, hv⟩, T, hT, hb, h3⟩
    have hd : exec (indepMachine F) (.drop i) a1 = .ok { a1 with vars := a1.vars.set i none } := rfl
    have hc : compileAll F (indepMachine F) a = .ok { a1 with vars := a1.vars.set i none } := by
      rw [compileAll_raw h5, ha, Res.ok_bind]
      simp only
      rw [hv, Res.ok_bind]
      exact hd
    rw [hc] at hsim
    unfold save
    cases hc' : compileAll F (storeMachine F) s with
    | err => rw [hc'] at hsim; exact hsim.elim
    | panic => rw [hc'] at hsim; exact hsim.elim
    | ok s' =>
      rw [hc'] at hsim
      have hr' : Rep s' { a1 with vars := a1.vars.set i none } := hsim
      have hw : writeAll F s' = .ok T := by
        refine (writeAll_iff hr' T).mpr ⟨hT, fun t => ?_⟩
        rw [hb t, ← bytesOf_ev (access_ok ha).1]
        rfl
      rw [Res.ok_bind, hw, Res.ok_bind, h3]

end

/-- Fewer than 4096 tables. -/
def FewTables (T : Tag → Option Bytes) : Prop := ∃ l : List Tag, l.length < 4096 ∧ ∀ t, T t ≠ none → t ∈ l

section
variable {G O : Type} {F : Fmt G O}

/-- Before saving: the bytes that each table will have; the tables that saving looks at are those of the file. -/
structure Left (F : Fmt G O) (T T' : Tag → Option Bytes) (a : ASt G O) : Prop where
  bytes : ∀ t, bytesOf F a t = (T' t).map Res.ok
  raw : Raw5 a
  maxp : Entry F T tagMaxp (a.store tagMaxp)

theorem means_maxp {T : Tag → Option Bytes} {v : Loaded G O} : Means F T tagMaxp v ↔
    ∃ b m, T tagMaxp = some b ∧ runAll readMaxp b = .ok m ∧ v = .maxp m := by
  have hd : dep tagMaxp = none := by decide
  have hp : ∀ b d, Save.parse F tagMaxp b d = (do return .maxp (← runAll readMaxp b)) := by
    intro b d
    unfold Save.parse
    rw [if_neg (by decide), if_neg (by decide), if_pos rfl]
  constructor
  · intro h
    cases h with
    | plain h _ h2 =>
      rw [hp] at h2
      obtain ⟨m, h3, h4⟩ := bind_eq_ok h2
      exact ⟨_, m, h, h3, (Res.ok.inj h4).symm⟩
    | after _ h2 => rw [hd] at h2; cases h2
  · rintro ⟨b, m, h1, h2, rfl⟩
    refine .plain h1 hd ?_
    rw [hp, h2]
    rfl

theorem access_maxp {T : Tag → Option Bytes} {a : ASt G O} (he : Entry F T tagMaxp (a.store tagMaxp)) :
    (∃ m i a1, access (indepMachine F) tagMaxp a = .ok (some i, a1) ∧ valueOf (indepMachine F) i a1 = .ok (.maxp m)) ↔
    ∃ b m, T tagMaxp = some b ∧ runAll readMaxp b = .ok m := by
  have hd : (parser F).dep tagMaxp = none := by show dep tagMaxp = none; decide
  constructor
  · rintro ⟨m, i, a1, h1, h2⟩
    rcases he with ⟨h, he⟩ | ⟨b, h, he⟩
    · exfalso
      unfold access at h1
      simp only [indepMachine, Indep.step, Indep.getAs, Indep.load, he] at h1
      cases h1
    · obtain ⟨_, _, h3⟩ := access_ok h1
      rcases h3 with ⟨h3, _⟩ | ⟨e, tb, h4, h5⟩
      · cases h3
      · have hm : Means F T tagMaxp tb.val := by
          rcases (access_ok h1).1 tagMaxp with e' | ⟨b', v', d', e1, e2, e3⟩
          · rw [e'] at h4
            rcases he with he | ⟨w, he, hw⟩
            · rw [he] at h4; cases h4
            · rw [he] at h4; cases h4; exact hw
          · rw [e2] at h4
            cases h4
            rcases he with he | ⟨w, he, hw⟩
            · rw [he] at e1; cases e1
              refine means_maxp.mpr ?_
              have e3 : Save.parse F tagMaxp b d' = .ok v' := e3.1
              unfold Save.parse at e3
              rw [if_neg (by decide), if_neg (by decide), if_pos rfl] at e3
              obtain ⟨m', h6, h7⟩ := bind_eq_ok e3
              exact ⟨b, m', h, h6, (Res.ok.inj h7).symm⟩
            · rw [he] at e1; cases e1
        obtain ⟨b', m', g1, g2, _⟩ := means_maxp.mp hm
        exact ⟨b', m', g1, g2⟩
  · rintro ⟨b, m, h1, h2⟩
    have hm : Means F T tagMaxp (.maxp m) := means_maxp.mpr ⟨b, m, h1, h2, rfl⟩
    have hl : ∃ a1 b1, Indep.load (parser F) 4 tagMaxp a = .ok (true, a1) ∧
        a1.store tagMaxp = some (.loaded ⟨tagMaxp, some b1, .maxp m⟩) ∧ a1.vars = a.vars := by
      rcases he with ⟨h, he⟩ | ⟨b', h, he | ⟨w, he, hw⟩⟩
      · rw [h] at h1; cases h1
      · rw [h] at h1; cases h1
        refine ⟨{ a with store := Indep.set a.store tagMaxp (some (.loaded ⟨tagMaxp, some b, .maxp m⟩)) }, b, ?_, ?_, rfl⟩
        · have hp : (parser F).parse tagMaxp b none = .ok (.maxp m) := by
            show Save.parse F tagMaxp b none = _
            unfold Save.parse
            rw [if_neg (by decide), if_neg (by decide), if_pos rfl, h2]
            rfl
          unfold Indep.load
          rw [he]
          simp only [hd, Indep.finish, hp]
        · simp [Indep.set]
      · obtain rfl := hm.unique hw
        exact ⟨a, b', by unfold Indep.load; rw [he], he, rfl⟩
    obtain ⟨a1, b1, e1, e2, e3⟩ := hl
    refine ⟨m, a.vars.length, { a1 with vars := a1.vars ++ [some (.cow tagMaxp (.maxp m))] }, ?_, ?_⟩
    · unfold access
      simp only [indepMachine, Indep.step, Indep.getAs, e1, e2, Indep.asCow]
    · rw [← e3]
      exact valueOf_last (a := { a1 with vars := a1.vars ++ [some (.cow tagMaxp (.maxp m))] }) (var_last (a := a1) rfl)

end

/-! ### A whole tool -/

section
variable {X : Type} {R : Rest X}
abbrev AStore (X : Type) := ASt Glyf.Glyph (Other X)

theorem saveFont_ok {v : UInt32} {s : Store.St (Val X)} {out : Bytes} : saveFont R v s = .ok out ↔ save (fmt R) v s = .ok out := by
  unfold saveFont
  cases save (fmt R) v s <;> simp

theorem tool_ok {body : Store.St (Val X) → Res (Store.St (Val X))} {bodyA : AStore X → Res (AStore X)}
    (hsim : ∀ s a, Rep s a → RelR Rep (body s) (bodyA a)) {input out : Bytes} (h : tool R body input = .ok out) :
    ∃ v T r a a' s', Font.readTables (Rd.new input) = .ok ((v, T), r) ∧
      openTables (indepMachine (fmt R)) (Indep.fresh T) = .ok a ∧ bodyA a = .ok a' ∧ Rep s' a' ∧
      save (fmt R) v s' = .ok out := by
  unfold tool at h
  cases hr : Font.readTables (Rd.new input) with
  | err => rw [hr] at h; cases h
  | panic => rw [hr] at h; cases h
  | ok x =>
    obtain ⟨⟨v, T⟩, r⟩ := x
    rw [hr] at h
    obtain ⟨s1, h1, h⟩ := bind_eq_ok h
    obtain ⟨s2, h2, h⟩ := bind_eq_ok h
    have hs := (loads_facts hr).1
    have g := sim_openTables (sim_indep (fmt R)) (rep_fresh (V := Val X) T hs)
    rw [h1] at g
    cases ha : openTables (indepMachine (fmt R)) (Indep.fresh T) with
    | err => rw [ha] at g; exact g.elim
    | panic => rw [ha] at g; exact g.elim
    | ok a =>
      rw [ha] at g
      have g2 := hsim s1 a g
      rw [h2] at g2
      cases hb : bodyA a with
      | err => rw [hb] at g2; exact g2.elim
      | panic => rw [hb] at g2; exact g2.elim
      | ok a' =>
        rw [hb] at g2
        exact ⟨v, T, r, a, a', s2, rfl, ha, hb, g2, saveFont_ok.mp h⟩

theorem tool_of {body : Store.St (Val X) → Res (Store.St (Val X))} {bodyA : AStore X → Res (AStore X)}
    (hsim : ∀ s a, Rep s a → RelR Rep (body s) (bodyA a)) {input out : Bytes} {v : UInt32} {T : List (Tag × Bytes)} {r : Rd}
    {a a' : AStore X} (h1 : Font.readTables (Rd.new input) = .ok ((v, T), r))
    (h2 : openTables (indepMachine (fmt R)) (Indep.fresh T) = .ok a) (h3 : bodyA a = .ok a')
    (h4 : ∀ s', Rep s' a' → save (fmt R) v s' = .ok out) : tool R body input = .ok out := by
  unfold tool
  rw [h1]
  simp only
  have hs := (loads_facts h1).1
  have g := sim_openTables (sim_indep (fmt R)) (rep_fresh (V := Val X) T hs)
  rw [h2] at g
  cases hb : openTables (storeMachine (fmt R)) (Store.fresh T) with
  | err => rw [hb] at g; exact g.elim
  | panic => rw [hb] at g; exact g.elim
  | ok s1 =>
    rw [hb] at g
    rw [Res.ok_bind]
    have g2 := hsim s1 a g
    rw [h3] at g2
    cases hc : body s1 with
    | err => rw [hc] at g2; exact g2.elim
    | panic => rw [hc] at g2; exact g2.elim
    | ok s2 =>
      rw [hc] at g2
      rw [Res.ok_bind]
      exact saveFont_ok.mpr (h4 s2 g2)

end

end FT.Cli
