import Verif.Model.AllTables
import Verif.Lemmas.CliRename
import Verif.Lemmas.CliInstance
import Verif.Lemmas.CliFlat
import Verif.Lemmas.CliGvar

/-! A font file in memory in which no table was replaced. -/

namespace FT.Whole
open FT FT.Store FT.Save FT.Tables FT.Glyf FT.Strings FT.Cli FT.Props

section
variable {G O : Type} {F : Fmt G O} {T : Tag → Option Bytes}

/-- No table was replaced. -/
def Holds (F : Fmt G O) (T : Tag → Option Bytes) (s : Store.St (Loaded G O)) : Prop := ∃ a, Rep s a ∧ Stands F T a

/-- The operations that replace no table of the font. What is done with the values that were looked up does not matter. -/
def ReadOnly {V : Type} : Op V → Prop
  | .insertHolder _ => False
  | .insertNew _ _ => False
  | .insertRaw _ _ => False
  | .remove _ => False
  | _ => True

/-- Reading the table is an error. -/
inductive Fails (F : Fmt G O) (T : Tag → Option Bytes) : Tag → Prop
  | plain {t : Tag} {b : Bytes} (h : T t = some b) (hd : dep t = none) (hp : Save.parse F t b none = .err) : Fails F T t
  | after {t d : Tag} {b : Bytes} {w : Loaded G O} (h : T t = some b) (hd : dep t = some d) (hw : Means F T d w)
      (hp : Save.parse F t b (some w) = .err) : Fails F T t
  | missing {t d : Tag} {b : Bytes} (h : T t = some b) (hd : dep t = some d) (hn : T d = none) : Fails F T t
  | before {t d : Tag} {b : Bytes} (h : T t = some b) (hd : dep t = some d) (hf : Fails F T d) : Fails F T t

/-- Reading the table panics. -/
inductive Breaks (F : Fmt G O) (T : Tag → Option Bytes) : Tag → Prop
  | plain {t : Tag} {b : Bytes} (h : T t = some b) (hd : dep t = none) (hp : Save.parse F t b none = .panic) : Breaks F T t
  | after {t d : Tag} {b : Bytes} {w : Loaded G O} (h : T t = some b) (hd : dep t = some d) (hw : Means F T d w)
      (hp : Save.parse F t b (some w) = .panic) : Breaks F T t
  | before {t d : Tag} {b : Bytes} (h : T t = some b) (hd : dep t = some d) (hf : Breaks F T d) : Breaks F T t

theorem four (F : Fmt G O) (T : Tag → Option Bytes) : ∀ (n : Nat) (t : Tag), rank t ≤ n →
    T t = none ∨ (∃ v, Means F T t v) ∨ Fails F T t ∨ Breaks F T t
  | n, t, hn => by
    cases hb : T t with
    | none => exact .inl rfl
    | some b =>
      right
      cases hd : dep t with
      | none =>
        cases hp : Save.parse F t b none with
        | ok v => exact .inl ⟨v, .plain hb hd hp⟩
        | err => exact .inr (.inl (.plain hb hd hp))
        | panic => exact .inr (.inr (.plain hb hd hp))
      | some d =>
        have hr := dep_rank hd
        obtain ⟨k, rfl⟩ : ∃ k, n = k + 1 := ⟨n - 1, by omega⟩
        rcases four F T k d (by omega) with h | ⟨w, h⟩ | h | h
        · exact .inr (.inl (.missing hb hd h))
        · cases hp : Save.parse F t b (some w) with
          | ok v => exact .inl ⟨v, .after hb hd h hp⟩
          | err => exact .inr (.inl (.after hb hd h hp))
          | panic => exact .inr (.inr (.after hb hd h hp))
        · exact .inr (.inl (.before hb hd h))
        · exact .inr (.inr (.before hb hd h))

theorem not_loaded {t : Tag} {b : Bytes} {a : ASt G O} (ha : Stands F T a) (hb : T t = some b) (hm : ∀ v, ¬ Means F T t v) :
    a.store t = some (.unloaded b) := by
  rcases ha t with ⟨h1, _⟩ | ⟨b', hb', h1 | ⟨w, h1, hw⟩⟩
  · rw [hb] at h1; cases h1
  · rw [hb] at hb'; cases hb'; exact h1
  · exact absurd hw (hm w)

theorem Fails.not_means {t : Tag} (h : Fails F T t) : ∀ v, ¬ Means F T t v := by
  induction h with
  | plain h hd hp => intro v hm; cases hm with
    | plain h2 hd2 hp2 => rw [h] at h2; cases h2; rw [hp] at hp2; cases hp2
    | after h2 hd2 _ _ => rw [hd] at hd2; cases hd2
  | after h hd hw hp => intro v hm; cases hm with
    | plain h2 hd2 hp2 => rw [hd] at hd2; cases hd2
    | after h2 hd2 hw2 hp2 =>
      rw [h] at h2; cases h2; rw [hd] at hd2; cases hd2
      obtain rfl := hw.unique hw2
      rw [hp] at hp2; cases hp2
  | missing h hd hn => intro v hm; cases hm with
    | plain h2 hd2 hp2 => rw [hd] at hd2; cases hd2
    | after h2 hd2 hw2 hp2 =>
      rw [hd] at hd2; cases hd2
      cases hw2 with
      | plain h3 _ _ => rw [hn] at h3; cases h3
      | after h3 _ _ _ => rw [hn] at h3; cases h3
  | before h hd hf ih => intro v hm; cases hm with
    | plain h2 hd2 hp2 => rw [hd] at hd2; cases hd2
    | after h2 hd2 hw2 hp2 => rw [hd] at hd2; cases hd2; exact ih _ hw2

theorem Breaks.not_means {t : Tag} (h : Breaks F T t) : ∀ v, ¬ Means F T t v := by
  induction h with
  | plain h hd hp => intro v hm; cases hm with
    | plain h2 hd2 hp2 => rw [h] at h2; cases h2; rw [hp] at hp2; cases hp2
    | after h2 hd2 _ _ => rw [hd] at hd2; cases hd2
  | after h hd hw hp => intro v hm; cases hm with
    | plain h2 hd2 hp2 => rw [hd] at hd2; cases hd2
    | after h2 hd2 hw2 hp2 =>
      rw [h] at h2; cases h2; rw [hd] at hd2; cases hd2
      obtain rfl := hw.unique hw2
      rw [hp] at hp2; cases hp2
  | before h hd hf ih => intro v hm; cases hm with
    | plain h2 hd2 hp2 => rw [hd] at hd2; cases hd2
    | after h2 hd2 hw2 hp2 => rw [hd] at hd2; cases hd2; exact ih _ hw2

theorem load_fails {t : Tag} (h : Fails F T t) : ∀ (fuel : Nat) (a : ASt G O), rank t ≤ fuel → Stands F T a →
    ∃ a', Indep.load (parser F) fuel t a = .ok (false, a') := by
  induction h with
  | @plain t b h hd hp =>
    intro fuel a _ ha
    have h1 := not_loaded ha h (Fails.plain h hd hp).not_means
    exact ⟨a, by unfold Indep.load; rw [h1]; simp only [show (parser F).dep t = none from hd, Indep.finish,
      show (parser F).parse t b none = .err from hp]⟩
  | @after t d b w h hd hw hp =>
    intro fuel a hf ha
    have h1 := not_loaded ha h (Fails.after h hd hw hp).not_means
    have := dep_rank hd
    obtain ⟨k, rfl⟩ : ∃ k, fuel = k + 1 := ⟨fuel - 1, by omega⟩
    obtain ⟨a1, b1, e1, e2⟩ := load_ok hw k a (by omega) ha
    exact ⟨a1, by unfold Indep.load; rw [h1]; simp only [show (parser F).dep t = some d from hd, e1, Indep.valueAt, e2, Indep.finish,
      show (parser F).parse t b (some w) = .err from hp]⟩
  | @missing t d b h hd hn =>
    intro fuel a hf ha
    have h1 := not_loaded ha h (Fails.missing h hd hn).not_means
    have := dep_rank hd
    obtain ⟨k, rfl⟩ : ∃ k, fuel = k + 1 := ⟨fuel - 1, by omega⟩
    have h2 := (entry_none (ha d)).mpr hn
    have e1 : Indep.load (parser F) k d a = .ok (true, a) := by unfold Indep.load; rw [h2]
    exact ⟨a, by unfold Indep.load; rw [h1]; simp only [show (parser F).dep t = some d from hd, e1, Indep.valueAt, h2]⟩
  | @before t d b h hd hff ih =>
    intro fuel a hf ha
    have h1 := not_loaded ha h (Fails.before h hd hff).not_means
    have := dep_rank hd
    obtain ⟨k, rfl⟩ : ∃ k, fuel = k + 1 := ⟨fuel - 1, by omega⟩
    obtain ⟨a1, e1⟩ := ih k a (by omega) ha
    exact ⟨a1, by unfold Indep.load; rw [h1]; simp only [show (parser F).dep t = some d from hd, e1]⟩

theorem load_breaks {t : Tag} (h : Breaks F T t) : ∀ (fuel : Nat) (a : ASt G O), rank t ≤ fuel → Stands F T a →
    Indep.load (parser F) fuel t a = .panic := by
  induction h with
  | @plain t b h hd hp =>
    intro fuel a _ ha
    have h1 := not_loaded ha h (Breaks.plain h hd hp).not_means
    unfold Indep.load; rw [h1]
    simp only [show (parser F).dep t = none from hd, Indep.finish, show (parser F).parse t b none = .panic from hp]
  | @after t d b w h hd hw hp =>
    intro fuel a hf ha
    have h1 := not_loaded ha h (Breaks.after h hd hw hp).not_means
    have := dep_rank hd
    obtain ⟨k, rfl⟩ : ∃ k, fuel = k + 1 := ⟨fuel - 1, by omega⟩
    obtain ⟨a1, b1, e1, e2⟩ := load_ok hw k a (by omega) ha
    unfold Indep.load; rw [h1]
    simp only [show (parser F).dep t = some d from hd, e1, Indep.valueAt, e2, Indep.finish,
      show (parser F).parse t b (some w) = .panic from hp]
  | @before t d b h hd hff ih =>
    intro fuel a hf ha
    have h1 := not_loaded ha h (Breaks.before h hd hff).not_means
    have := dep_rank hd
    obtain ⟨k, rfl⟩ : ∃ k, fuel = k + 1 := ⟨fuel - 1, by omega⟩
    have e1 := ih k a (by omega) ha
    unfold Indep.load; rw [h1]
    simp only [show (parser F).dep t = some d from hd, e1]

/-- What loading one table does. -/
theorem load_all (t : Tag) {s : Store.St (Loaded G O)} (h : Holds F T s) :
    ((T t = none ∨ ∃ v, Means F T t v) ∧ ∃ s', s.load (parser F) 4 t = .ok (true, s') ∧ Holds F T s') ∨
    (Fails F T t ∧ ∃ s', s.load (parser F) 4 t = .ok (false, s') ∧ Holds F T s') ∨
    (Breaks F T t ∧ s.load (parser F) 4 t = .panic) := by
  obtain ⟨a, hr, ha⟩ := h
  have hs := sim_load (parser F) 4 hr t
  have fin : ∀ c a', Indep.load (parser F) 4 t a = .ok (c, a') → ∃ s', s.load (parser F) 4 t = .ok (c, s') ∧ Holds F T s' := by
    intro c a' e
    rw [e] at hs
    cases hl : s.load (parser F) 4 t with
    | err => rw [hl] at hs; exact hs.elim
    | panic => rw [hl] at hs; exact hs.elim
    | ok r =>
      obtain ⟨c', s'⟩ := r
      rw [hl] at hs
      obtain ⟨rfl, h2⟩ := hs
      exact ⟨s', rfl, a', h2, (stands_load 4 t a a' _ ha e).1⟩
  rcases four F T 4 t (rank_le t) with h | ⟨v, h⟩ | h | h
  · exact .inl ⟨.inl h, fin true a (by unfold Indep.load; rw [(entry_none (ha t)).mpr h])⟩
  · obtain ⟨a', b, e, _⟩ := load_ok h 4 a (rank_le t) ha
    exact .inl ⟨.inr ⟨v, h⟩, fin _ _ e⟩
  · obtain ⟨a', e⟩ := load_fails h 4 a (rank_le t) ha
    exact .inr (.inl ⟨h, fin _ _ e⟩)
  · have e := load_breaks h 4 a (rank_le t) ha
    refine .inr (.inr ⟨h, ?_⟩)
    rw [e] at hs
    cases hl : s.load (parser F) 4 t with
    | panic => rfl
    | err => rw [hl] at hs; exact hs.elim
    | ok r => rw [hl] at hs; exact hs.elim

theorem holds_fresh {tables : List (Tag × Bytes)} (hs : BMap.Sorted tables) (hT : ∀ t, BMap.get? tables t = T t) :
    Holds F T (Store.fresh tables) := by
  obtain rfl : (fun t => BMap.get? tables t) = T := funext hT
  exact ⟨_, rep_fresh tables hs, stands_fresh tables⟩

theorem stands_getAs {t : Tag} {w : Indep.Table (Loaded G O) → Indep.Var (Loaded G O)} {a a' : ASt G O} {o : Obs (Loaded G O)}
    (ha : Stands F T a) (h : Indep.getAs (parser F) t w a = .ok (o, a')) : Stands F T a' := by
  unfold Indep.getAs at h
  cases hl : Indep.load (parser F) 4 t a with
  | err => rw [hl] at h; cases h
  | panic => rw [hl] at h; cases h
  | ok r =>
    obtain ⟨c, a1⟩ := r
    rw [hl] at h
    obtain ⟨g1, _⟩ := stands_load 4 t a a1 c ha hl
    cases c with
    | false => cases h; exact g1
    | true =>
      simp only at h
      split at h
      · cases h; exact stands_of_store rfl g1
      · cases h; exact g1

theorem stands_step {op : Op (Loaded G O)} (hop : ReadOnly op) {a a' : ASt G O} {o : Obs (Loaded G O)} (ha : Stands F T a)
    (h : Indep.step (parser F) op a = .ok (o, a')) : Stands F T a' := by
  cases op with
  | get t => exact stands_getAs ha h
  | open_ t => exact stands_getAs ha h
  | clone i =>
    simp only [Indep.step] at h
    split at h <;> cases h
    · exact stands_of_store rfl ha
    · exact ha
  | read i => cases h; exact ha
  | modify i f =>
    simp only [Indep.step] at h
    split at h <;> cases h
    · exact stands_of_store rfl ha
    · exact ha
  | intoOwned i => cases h; exact stands_of_store rfl ha
  | insertHolder i => exact hop.elim
  | insertNew t v => exact hop.elim
  | insertRaw t b => exact hop.elim
  | remove t => exact hop.elim
  | drop i => cases h; exact stands_of_store rfl ha
  | write t => cases h; exact ha

theorem holds_step {op : Op (Loaded G O)} (hop : ReadOnly op) {s s' : Store.St (Loaded G O)} {o : Obs (Loaded G O)} (hs : Holds F T s)
    (h : Store.step (parser F) op s = .ok (o, s')) : Holds F T s' := by
  obtain ⟨a, hr, ha⟩ := hs
  obtain ⟨a', e, hr'⟩ := sameOut_ok (sim_step (parser F) op hr) h
  exact ⟨a', hr', stands_step hop ha e⟩

theorem holds_run : ∀ {ops : List (Op (Loaded G O))} (_ : ∀ op ∈ ops, ReadOnly op) {s s' : Store.St (Loaded G O)}
    {os : List (Obs (Loaded G O))} (_ : Holds F T s) (_ : Store.run (parser F) ops s = .ok (os, s')), Holds F T s'
  | [], _, s, s', os, hs, h => by cases h; exact hs
  | op :: ops, hop, s, s', os, hs, h => by
    obtain ⟨o, s1, os', h1, h2, _⟩ := run_cons_ok h
    exact holds_run (fun x hx => hop x (by simp [hx])) (holds_step (hop op (by simp)) hs h1) h2

/-- Looking up a table. -/
theorem holds_opens {s : Store.St (Loaded G O)} (h : Holds F T s) {t : Tag} {v : Loaded G O} (hm : Means F T t v) : Opens F s t v := by
  obtain ⟨a, hr, ha⟩ := h
  obtain ⟨a1, b, e1, e2⟩ := load_ok hm 4 a (rank_le t) ha
  have e : Indep.step (parser F) (.open_ t) a = .ok (.done, { a1 with vars := a1.vars ++ [some (.cow t v)] }) := by
    simp only [Indep.step, Indep.getAs, e1, e2, Indep.asCow]
  have hsim := sim_step (parser F) (.open_ t) hr
  rw [e] at hsim
  cases hs : Store.step (parser F) (.open_ t) s with
  | err => rw [hs] at hsim; exact hsim.elim
  | panic => rw [hs] at hsim; exact hsim.elim
  | ok r =>
    obtain ⟨o, s'⟩ := r
    rw [hs] at hsim
    obtain ⟨rfl, hr⟩ := hsim
    exact ⟨s', hs, lastVar_push hr⟩

/-- Looking up a table that is not there. -/
theorem holds_absent {s : Store.St (Loaded G O)} (h : Holds F T s) {t : Tag} (hn : T t = none) :
    ∃ s', Store.step (parser F) (.open_ t) s = .ok (.absent, s') := by
  obtain ⟨a, hr, ha⟩ := h
  have h2 := (entry_none (ha t)).mpr hn
  have e : Indep.step (parser F) (.open_ t) a = .ok (.absent, a) := by
    simp only [Indep.step, Indep.getAs, Indep.load, h2]
  have hsim := sim_step (parser F) (.open_ t) hr
  rw [e] at hsim
  cases hs : Store.step (parser F) (.open_ t) s with
  | err => rw [hs] at hsim; exact hsim.elim
  | panic => rw [hs] at hsim; exact hsim.elim
  | ok r =>
    obtain ⟨o, s'⟩ := r
    rw [hs] at hsim
    obtain ⟨rfl, hr⟩ := hsim
    exact ⟨s', rfl⟩

/-- The bytes that are written. -/
theorem holds_write {s : Store.St (Loaded G O)} (h : Holds F T s) (t : Tag) : s.write (parser F) t = .ok ((T t).getD []) := by
  obtain ⟨a, hr, ha⟩ := h
  rw [sim_write hr]
  unfold Indep.write
  rcases ha t with ⟨h1, h2⟩ | ⟨b, hb, h1 | ⟨v, h1, hm⟩⟩
  · rw [h2, h1]; rfl
  · rw [h1, hb]; rfl
  · rw [h1, hb]; rfl

theorem Opens.unique {s : Store.St (Loaded G O)} {t : Tag} {v w : Loaded G O} (h : Opens F s t v) (h' : Opens F s t w) : v = w := by
  obtain ⟨s1, e1, e2⟩ := h
  obtain ⟨s2, e3, e4⟩ := h'
  rw [e1] at e3
  cases e3
  rw [e2] at e4
  cases e4
  rfl

end

/-! ### All tables -/

variable {E : Env} {T : Tag → Option Bytes}

theorem run_ok {α : Type} {p : Reader α} {b : Bytes} {x : α} (h : ∃ rd, p (Rd.new b) = .ok (x, rd)) : runAll p b = .ok x := by
  obtain ⟨rd, e⟩ := h
  unfold runAll
  rw [e]

theorem means_more {t : Tag} {b : Bytes} {x : More} (hd : dep t = none)
    (ht : t ≠ tagHead ∧ t ≠ tagHhea ∧ t ≠ tagMaxp ∧ t ≠ tagHmtx ∧ t ≠ tagLoca ∧ t ≠ tagGlyf)
    (ho : t ≠ tagPost ∧ t ≠ tagCmap ∧ t ≠ tagGasp ∧ t ≠ tagGvar ∧ t ≠ tagFvar ∧ t ≠ tagAvar ∧ t ≠ tagSTAT)
    (hb : T t = some b) (h : parseMore E t b none = .ok x) : Means (Formats E) T t (.other t (.rest x)) := by
  refine (means_rest hd ht).mpr ⟨b, .rest x, hb, ?_, rfl⟩
  unfold parseRest
  rw [if_neg ho.1, if_neg ho.2.1, if_neg ho.2.2.1, if_neg ho.2.2.2.1, if_neg ho.2.2.2.2.1, if_neg ho.2.2.2.2.2.1,
    if_neg ho.2.2.2.2.2.2]
  show (do return Other.rest (← parseMore E t b none)) = _
  rw [h]
  rfl

theorem means_layout {t : Tag} (ht : t = tagGPOS ∨ t = tagGSUB) {b mb : Bytes} {m : Maxp} {x : More} (hb : T t = some b)
    (hm : T tagMaxp = some mb) (hm' : runAll readMaxp mb = .ok m) (h : parseMore E t b (some (.maxp m)) = .ok x) :
    Means (Formats E) T t (.other t (.rest x)) := by
  have hd : dep t = some tagMaxp := by rcases ht with rfl | rfl <;> decide
  refine .after hb hd (means_maxp.mpr ⟨mb, m, hm, hm', rfl⟩) ?_
  unfold Save.parse
  rw [if_neg (by rcases ht with rfl | rfl <;> decide), if_neg (by rcases ht with rfl | rfl <;> decide),
    if_neg (by rcases ht with rfl | rfl <;> decide), if_neg (by rcases ht with rfl | rfl <;> decide),
    if_neg (by rcases ht with rfl | rfl <;> decide), if_neg (by rcases ht with rfl | rfl <;> decide)]
  show (do return Loaded.other t (← parseRest (rest E) t b (some (.maxp m)))) = _
  unfold parseRest
  rw [if_neg (by rcases ht with rfl | rfl <;> decide), if_neg (by rcases ht with rfl | rfl <;> decide),
    if_neg (by rcases ht with rfl | rfl <;> decide), if_neg (by rcases ht with rfl | rfl <;> decide),
    if_neg (by rcases ht with rfl | rfl <;> decide), if_neg (by rcases ht with rfl | rfl <;> decide),
    if_neg (by rcases ht with rfl | rfl <;> decide)]
  show (do return Loaded.other t (← (do return Other.rest (← parseMore E t b (some (.maxp m)))))) = _
  rw [h]
  rfl

theorem need_ok {s : Tables} (h : Holds (Formats E) T s) {t : Tag} :
    ((T t = none ∨ ∃ v, Means (Formats E) T t v) ∧ ∃ s', need E t s = .ok s' ∧ Holds (Formats E) T s') ∨
    (Fails (Formats E) T t ∧ need E t s = .err) ∨ (Breaks (Formats E) T t ∧ need E t s = .panic) := by
  rcases load_all t h with ⟨h1, s', h2, h3⟩ | ⟨h1, s', h2, h3⟩ | ⟨h1, h2⟩
  · exact .inl ⟨h1, s', by unfold need loadTable; rw [h2]; rfl, h3⟩
  · exact .inr (.inl ⟨h1, by unfold need loadTable; rw [h2]; rfl⟩)
  · exact .inr (.inr ⟨h1, by unfold need loadTable; rw [h2]; rfl⟩)

end FT.Whole
