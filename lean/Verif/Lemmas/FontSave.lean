import Verif.Model.FontSave
import Verif.Props.TableStore

/-! Saving on the heap and saving on independent values agree; effect of the compilation steps. -/

namespace FT.Save
open FT FT.Store FT.Props

variable {G O : Type}

def RelR {α β : Type} (R : α → β → Prop) : Res α → Res β → Prop
  | .ok a, .ok b => R a b
  | .err, .err => True
  | .panic, .panic => True
  | _, _ => False

theorem RelR.bind {α β α' β' : Type} {R : α → β → Prop} {R' : α' → β' → Prop} {x : Res α} {y : Res β}
    {f : α → Res α'} {g : β → Res β'} (h : RelR R x y) (h' : ∀ a b, R a b → RelR R' (f a) (g b)) :
    RelR R' (x >>= f) (y >>= g) := by
  match x, y, h with
  | .ok a, .ok b, h => exact h' a b h
  | .err, .err, _ => trivial
  | .panic, .panic, _ => trivial

theorem RelR.eq {α : Type} (x : Res α) : RelR (fun a b => a = b) x x := by
  cases x <;> first | rfl | trivial

def isSerializedA {V : Type} (a : Indep.St V) (t : Tag) : Option Bool := match a.store t with
  | none => none
  | some (.unloaded _) => some true
  | some (.loaded tb) => some tb.raw.isSome

/-- The machine of independent values. -/
def indepMachine (F : Fmt G O) : Machine (Loaded G O) (Indep.St (Loaded G O)) :=
  ⟨Indep.step (parser F), fun a => a.vars.length, isSerializedA⟩

variable {V : Type} {S T : Type}

/-- Two machines in step. -/
structure Sim (M : Machine V S) (N : Machine V T) (R : S → T → Prop) : Prop where
  step : ∀ op s t, R s t → RelR (fun x y => x.1 = y.1 ∧ R x.2 y.2) (M.step op s) (N.step op t)
  next : ∀ s t, R s t → M.next s = N.next t
  isSer : ∀ s t, R s t → ∀ tag, M.isSer s tag = N.isSer t tag

theorem sim_indep (F : Fmt G O) : Sim (storeMachine F) (indepMachine F) Rep := by
  refine ⟨?_, ?_, ?_⟩
  · intro op s a h
    have h1 := sim_step (parser F) op h
    show RelR _ (Store.step (parser F) op s) (Indep.step (parser F) op a)
    revert h1
    cases Store.step (parser F) op s with
    | ok x => cases Indep.step (parser F) op a with
      | ok y => exact id
      | err => exact id
      | panic => exact id
    | err => cases Indep.step (parser F) op a <;> exact id
    | panic => cases Indep.step (parser F) op a <;> exact id
  · intro s a h; exact h.len
  · intro s a h t
    have hi := h.items t
    show isSerialized s t = isSerializedA a t
    unfold isSerialized isSerializedA
    cases hs : BMap.get? s.store t with
    | none => rw [hs] at hi; cases ha : a.store t with
      | none => rfl
      | some y => rw [ha] at hi; exact hi.elim
    | some x => rw [hs] at hi; cases ha : a.store t with
      | none => rw [ha] at hi; cases x <;> exact hi.elim
      | some y =>
        rw [ha] at hi
        cases x with
        | unloaded => cases y with
          | unloaded => rfl
          | loaded => exact hi.elim
        | loaded => cases y with
          | unloaded => exact hi.elim
          | loaded => simp only [hi.2.1]

section
variable {M : Machine V S} {N : Machine V T} {R : S → T → Prop} (hS : Sim M N R)
include hS

theorem sim_access (t : Tag) {s : S} {a : T} (h : R s a) :
    RelR (fun x y => x.1 = y.1 ∧ R x.2 y.2) (access M t s) (access N t a) := by
  have h1 := hS.step (.open_ t) s a h
  unfold access
  revert h1
  cases M.step (.open_ t) s with
  | ok x => cases N.step (.open_ t) a with
    | ok y =>
      obtain ⟨o, s'⟩ := x
      obtain ⟨o', a'⟩ := y
      rintro ⟨e, h2⟩
      obtain rfl : o = o' := e
      cases o with
      | done => exact ⟨by simp only [hS.next s a h], h2⟩
      | absent => exact ⟨rfl, h2⟩
      | _ => trivial
    | _ => exact fun h => h.elim
  | err => cases N.step (.open_ t) a with
    | err => exact fun _ => trivial
    | _ => exact fun h => h.elim
  | panic => cases N.step (.open_ t) a with
    | panic => exact fun _ => trivial
    | _ => exact fun h => h.elim

theorem sim_valueOf (i : Nat) {s : S} {a : T} (h : R s a) :
    RelR (fun x y => x = y) (valueOf M i s) (valueOf N i a) := by
  have h1 := hS.step (.read i) s a h
  unfold valueOf
  revert h1
  cases M.step (.read i) s with
  | ok x => cases N.step (.read i) a with
    | ok y =>
      obtain ⟨o, s'⟩ := x
      obtain ⟨o', a'⟩ := y
      rintro ⟨e, h2⟩
      obtain rfl : o = o' := e
      cases o <;> first | rfl | trivial
    | _ => exact fun h => h.elim
  | err => cases N.step (.read i) a with
    | err => exact fun _ => trivial
    | _ => exact fun h => h.elim
  | panic => cases N.step (.read i) a with
    | panic => exact fun _ => trivial
    | _ => exact fun h => h.elim

theorem sim_exec (op : Op V) {s : S} {a : T} (h : R s a) : RelR R (exec M op s) (exec N op a) := by
  have h1 := hS.step op s a h
  unfold exec
  revert h1
  cases M.step op s with
  | ok x => cases N.step op a with
    | ok y => exact fun h => h.2
    | _ => exact fun h => h.elim
  | err => cases N.step op a with
    | err => exact fun _ => trivial
    | _ => exact fun h => h.elim
  | panic => cases N.step op a with
    | panic => exact fun _ => trivial
    | _ => exact fun h => h.elim

end

section
variable {M : Machine (Loaded G O) S} {N : Machine (Loaded G O) T} {R : S → T → Prop} (hS : Sim M N R)
include hS

theorem sim_compileMaxp (n : Nat) {s : S} {a : T} (h : R s a) :
    RelR R (compileMaxp M n s) (compileMaxp N n a) := by
  refine (sim_access hS _ h).bind ?_
  rintro ⟨j, s1⟩ ⟨j', a1⟩ ⟨e, h1⟩
  obtain rfl : j = j' := e
  simp only
  cases j with
  | none => trivial
  | some j =>
    simp only
    split
    · trivial
    · exact (sim_exec hS _ h1).bind fun _ _ h2 => sim_exec hS _ h2

theorem sim_compileHead (b : Bool) {s : S} {a : T} (h : R s a) :
    RelR R (compileHead M b s) (compileHead N b a) := by
  refine (sim_access hS _ h).bind ?_
  rintro ⟨j, s1⟩ ⟨j', a1⟩ ⟨e, h1⟩
  obtain rfl : j = j' := e
  simp only
  cases j with
  | none => trivial
  | some j => exact (sim_exec hS _ h1).bind fun _ _ h2 => sim_exec hS _ h2

theorem sim_compileHhea {s : S} {a : T} (h : R s a) : RelR R (compileHhea M s) (compileHhea N a) := by
  refine (sim_access hS _ h).bind ?_
  rintro ⟨j, s1⟩ ⟨j', a1⟩ ⟨e, h1⟩
  obtain rfl : j = j' := e
  simp only
  cases j with
  | none => exact h1
  | some j =>
    refine (sim_valueOf hS _ h1).bind ?_
    rintro v _ rfl
    cases v with
    | hmtx l =>
      refine (RelR.eq _).bind ?_
      rintro n _ rfl
      refine (sim_exec hS _ h1).bind fun s2 a2 h2 => ?_
      refine (sim_access hS _ h2).bind ?_
      rintro ⟨k, s3⟩ ⟨k', a3⟩ ⟨e, h3⟩
      obtain rfl : k = k' := e
      cases k with
      | none => exact h3
      | some k => exact (sim_exec hS _ h3).bind fun _ _ h4 => sim_exec hS _ h4
    | _ => trivial

theorem sim_compileGlyf (F : Fmt G O) {s : S} {a : T} (h : R s a) :
    RelR R (compileGlyf F M s) (compileGlyf F N a) := by
  unfold compileGlyf
  simp only [hS.isSer s a h]
  split
  · exact h
  · refine (sim_access hS _ h).bind ?_
    rintro ⟨j, s1⟩ ⟨j', a1⟩ ⟨e, h1⟩
    obtain rfl : j = j' := e
    simp only
    cases j with
    | none => exact h1
    | some j =>
      refine (sim_valueOf hS _ h1).bind ?_
      rintro v _ rfl
      cases v with
      | glyf gs =>
        refine (RelR.eq _).bind ?_
        rintro ⟨out, loca, is32⟩ _ rfl
        refine (sim_exec hS _ h1).bind fun s2 a2 h2 => ?_
        refine (sim_exec hS _ h2).bind fun s3 a3 h3 => ?_
        refine (sim_exec hS _ h3).bind fun s4 a4 h4 => ?_
        refine (sim_compileMaxp hS _ h4).bind fun s5 a5 h5 => ?_
        refine (sim_compileHead hS _ h5).bind fun s6 a6 h6 => ?_
        exact sim_compileHhea hS h6
      | _ => trivial

theorem sim_compileLayout (F : Fmt G O) (n : UInt16) (t : Tag) {s : S} {a : T} (h : R s a) :
    RelR R (compileLayout F M n t s) (compileLayout F N n t a) := by
  unfold compileLayout
  simp only [hS.isSer s a h]
  split
  · exact h
  · refine (sim_access hS _ h).bind ?_
    rintro ⟨j, s1⟩ ⟨j', a1⟩ ⟨e, h1⟩
    obtain rfl : j = j' := e
    simp only
    cases j with
    | none => exact h1
    | some j =>
      refine (sim_valueOf hS _ h1).bind ?_
      rintro v _ rfl
      cases v with
      | other _ x =>
        refine (RelR.eq _).bind ?_
        rintro ⟨bytes, failed⟩ _ rfl
        exact (sim_exec hS _ h1).bind fun s2 a2 h2 => sim_exec hS _ h2
      | _ => trivial

theorem sim_compileLayouts (F : Fmt G O) {s : S} {a : T} (h : R s a) :
    RelR R (compileLayouts F M s) (compileLayouts F N a) := by
  refine (sim_access hS _ h).bind ?_
  rintro ⟨j, s1⟩ ⟨j', a1⟩ ⟨e, h1⟩
  obtain rfl : j = j' := e
  simp only
  cases j with
  | none => trivial
  | some j =>
    refine (sim_valueOf hS _ h1).bind ?_
    rintro v _ rfl
    cases v with
    | maxp m =>
      refine (sim_exec hS _ h1).bind fun s2 a2 h2 => ?_
      exact (sim_compileLayout hS F _ _ h2).bind fun s3 a3 h3 => sim_compileLayout hS F _ _ h3
    | _ => trivial

theorem sim_compileAll (F : Fmt G O) {s : S} {a : T} (h : R s a) :
    RelR R (compileAll F M s) (compileAll F N a) :=
  (sim_compileGlyf hS F h).bind fun _ _ h1 => sim_compileLayouts hS F h1

end

/-! ### Effect of the steps on independent values -/

section
variable (P : Parser V)

/-- Nothing was replaced; tables may have been parsed. -/
def Ev (a a' : Indep.St V) : Prop := ∀ t, Evolves P t (a.store t) (a'.store t)

/-- Every entry carries its own tag. -/
def Tagged (a : Indep.St V) : Prop := ∀ t tb, a.store t = some (.loaded tb) → tb.tag = t

/-- The value that opening a table without dependencies yields. -/
def ItemHolds (t : Tag) (x : Option (Indep.Item V)) (v : V) : Prop :=
  (∃ tb, x = some (.loaded tb) ∧ tb.val = v) ∨ ∃ b, x = some (.unloaded b) ∧ P.parse t b none = .ok v

variable {P}

theorem Ev.refl (a : Indep.St V) : Ev P a a := fun _ => .inl rfl

theorem Ev.trans {a b c : Indep.St V} (h : Ev P a b) (h' : Ev P b c) : Ev P a c := fun t => (h t).trans (h' t)

theorem evolves_tagged {a a' : Indep.St V} (h : Ev P a a') (ht : Tagged a) : Tagged a' := by
  intro t tb e
  rcases h t with e' | ⟨b, v, d, _, e2, _⟩
  · rw [e'] at e; exact ht t tb e
  · rw [e2] at e
    obtain rfl := Indep.Item.loaded.inj (Option.some.inj e)
    rfl

theorem evolves_write {a a' : Indep.St V} {t : Tag} (h : Evolves P t (a.store t) (a'.store t)) :
    Indep.write P a' t = Indep.write P a t := by
  unfold Indep.write
  rcases h with e | ⟨b, v, d, e1, e2, _⟩
  · rw [e]
  · rw [e1, e2]

theorem evolves_holds {t : Tag} {x y : Option (Indep.Item V)} (hd : P.dep t = none) (h : Evolves P t x y) {v : V}
    (hv : ItemHolds P t y v) : ItemHolds P t x v := by
  rcases h with rfl | ⟨b, v', d, rfl, rfl, e3, e4⟩
  · exact hv
  · obtain rfl := e4 hd
    rcases hv with ⟨tb, e, rfl⟩ | ⟨b', e, _⟩
    · obtain rfl := Indep.Item.loaded.inj (Option.some.inj e)
      exact .inr ⟨b, rfl, e3⟩
    · cases e

theorem holds_unique {t : Tag} {x : Option (Indep.Item V)} {v w : V} (h : ItemHolds P t x v) (h' : ItemHolds P t x w) :
    v = w := by
  rcases h with ⟨tb, rfl, rfl⟩ | ⟨b, rfl, h⟩
  · rcases h' with ⟨tb', e, rfl⟩ | ⟨b', e, _⟩
    · obtain rfl := Indep.Item.loaded.inj (Option.some.inj e); rfl
    · cases e
  · rcases h' with ⟨tb', e, rfl⟩ | ⟨b', e, h'⟩
    · cases e
    · obtain rfl := Indep.Item.unloaded.inj (Option.some.inj e)
      rw [h] at h'
      exact Res.ok.inj h'

theorem finish_true {t : Tag} {b : Bytes} {d : Option V} {a a' : Indep.St V}
    (h : Indep.finish P t b d a = .ok (true, a')) : ∃ tb, a'.store t = some (.loaded tb) := by
  unfold Indep.finish at h
  cases hp : P.parse t b d with
  | ok v =>
    rw [hp] at h
    obtain ⟨_, rfl⟩ := Prod.mk.inj (Res.ok.inj h)
    exact ⟨⟨t, some b, v⟩, by simp [Indep.set]⟩
  | err => rw [hp] at h; cases h
  | panic => rw [hp] at h; cases h

/-- A successful load leaves the table loaded, if it exists. -/
theorem load_true : ∀ (fuel : Nat) (t : Tag) (a a' : Indep.St V), Indep.load P fuel t a = .ok (true, a') →
    a'.store t = none ∧ a.store t = none ∨ ∃ tb, a'.store t = some (.loaded tb)
  | fuel, t, a, a', h => by
    unfold Indep.load at h
    cases hs : a.store t with
    | none => rw [hs] at h; obtain ⟨_, rfl⟩ := Prod.mk.inj (Res.ok.inj h); exact .inl ⟨hs, rfl⟩
    | some x =>
      rw [hs] at h
      cases x with
      | loaded tb => obtain ⟨_, rfl⟩ := Prod.mk.inj (Res.ok.inj h); exact .inr ⟨tb, hs⟩
      | unloaded b =>
        right
        simp only at h
        cases hd : P.dep t with
        | none => rw [hd] at h; exact finish_true h
        | some d =>
          rw [hd] at h
          simp only at h
          cases fuel with
          | zero => cases h
          | succ fuel =>
            simp only at h
            cases hl : Indep.load P fuel d a with
            | err => rw [hl] at h; cases h
            | panic => rw [hl] at h; cases h
            | ok r =>
              obtain ⟨c1, a1⟩ := r
              rw [hl] at h
              cases c1 with
              | false => cases h
              | true =>
                simp only at h
                cases hv : Indep.valueAt a1 d with
                | none => rw [hv] at h; cases h
                | some v => rw [hv] at h; exact finish_true h

/-- Loading a table without dependencies touches nothing else. -/
theorem load_nodep {fuel : Nat} {t : Tag} {a a' : Indep.St V} {c : Bool} (hd : P.dep t = none)
    (h : Indep.load P fuel t a = .ok (c, a')) : ∀ t', t' ≠ t → a'.store t' = a.store t' := by
  intro t' ht
  unfold Indep.load at h
  cases hs : a.store t with
  | none => rw [hs] at h; obtain ⟨_, rfl⟩ := Prod.mk.inj (Res.ok.inj h); rfl
  | some x =>
    rw [hs] at h
    cases x with
    | loaded tb => obtain ⟨_, rfl⟩ := Prod.mk.inj (Res.ok.inj h); rfl
    | unloaded b =>
      simp only at h
      rw [hd] at h
      rcases (finish_cases P t' t b none a a' c h).2 with e | ⟨e, _⟩
      · exact e
      · exact absurd e ht

/-- What the `get` accessors do. -/
theorem getAs_ok {t : Tag} {w : Indep.Table V → Indep.Var V} {a a' : Indep.St V} {o : Obs V}
    (h : Indep.getAs P t w a = .ok (o, a')) :
    Ev P a a' ∧
    ((o = .failed ∧ a'.vars = a.vars) ∨ (o = .absent ∧ a'.vars = a.vars ∧ a.store t = none ∧ a'.store t = none) ∨
      (o = .done ∧ ∃ tb, a'.store t = some (.loaded tb) ∧ a'.vars = a.vars ++ [some (w tb)])) ∧
    (P.dep t = none → ∀ t', t' ≠ t → a'.store t' = a.store t') := by
  refine ⟨fun t' => (getAs_evolves P t' t w a a' o h).1, ?_⟩
  unfold Indep.getAs at h
  cases hl : Indep.load P 4 t a with
  | err => rw [hl] at h; cases h
  | panic => rw [hl] at h; cases h
  | ok r =>
    obtain ⟨c, a1⟩ := r
    rw [hl] at h
    have hv := (load_evolves P t 4 t a a1 c hl).2
    cases c with
    | false =>
      obtain ⟨rfl, rfl⟩ := Prod.mk.inj (Res.ok.inj h)
      exact ⟨.inl ⟨rfl, hv⟩, fun hd => load_nodep hd hl⟩
    | true =>
      simp only at h
      rcases load_true 4 t a a1 hl with ⟨hn, hn0⟩ | ⟨tb, htb⟩
      · rw [hn] at h
        obtain ⟨rfl, rfl⟩ := Prod.mk.inj (Res.ok.inj h)
        exact ⟨.inr (.inl ⟨rfl, hv, hn0, hn⟩), fun hd => load_nodep hd hl⟩
      · rw [htb] at h
        obtain ⟨rfl, rfl⟩ := Prod.mk.inj (Res.ok.inj h)
        exact ⟨.inr (.inr ⟨rfl, tb, htb, by rw [hv]⟩), fun hd t' ht' => load_nodep hd hl t' ht'⟩

end

variable {F : Fmt G O}

abbrev ASt (G O : Type) := Indep.St (Loaded G O)

theorem access_ok {t : Tag} {a a' : ASt G O} {j : Option Nat} (h : access (indepMachine F) t a = .ok (j, a')) :
    Ev (parser F) a a' ∧ ((parser F).dep t = none → ∀ t', t' ≠ t → a'.store t' = a.store t') ∧
    ((j = none ∧ a'.vars = a.vars ∧ a.store t = none ∧ a'.store t = none) ∨
     (j = some a.vars.length ∧ ∃ tb, a'.store t = some (.loaded tb) ∧ a'.vars = a.vars ++ [some (Indep.asCow tb)])) := by
  unfold access at h
  cases hs : (indepMachine F).step (.open_ t) a with
  | err => rw [hs] at h; cases h
  | panic => rw [hs] at h; cases h
  | ok r =>
    obtain ⟨o, a1⟩ := r
    rw [hs] at h
    obtain ⟨h1, h2, h3⟩ := getAs_ok hs
    rcases h2 with ⟨rfl, _⟩ | ⟨rfl, hv, hn⟩ | ⟨rfl, tb, hb, hv⟩
    · cases h
    · obtain ⟨rfl, rfl⟩ := Prod.mk.inj (Res.ok.inj h)
      exact ⟨h1, h3, .inl ⟨rfl, hv, hn⟩⟩
    · obtain ⟨rfl, rfl⟩ := Prod.mk.inj (Res.ok.inj h)
      exact ⟨h1, h3, .inr ⟨rfl, tb, hb, hv⟩⟩

theorem bind_eq_ok {α β : Type} {x : Res α} {f : α → Res β} {b : β} (h : (x >>= f) = .ok b) :
    ∃ a, x = .ok a ∧ f a = .ok b := by
  cases x with
  | ok a => exact ⟨a, rfl, h⟩
  | err => cases h
  | panic => cases h

/-- `drop` leaves the store alone. -/
theorem exec_drop {i : Nat} {a a' : ASt G O} (h : exec (indepMachine F) (.drop i) a = .ok a') :
    a'.store = a.store := by
  cases h
  rfl

theorem exec_insertRaw {t : Tag} {b : Bytes} {a a' : ASt G O}
    (h : exec (indepMachine F) (.insertRaw t b) a = .ok a') :
    a'.store = Indep.set a.store t (some (.unloaded b)) := by
  cases h
  rfl

theorem exec_modify {i : Nat} {f : Loaded G O → Loaded G O} {a a' : ASt G O}
    (h : exec (indepMachine F) (.modify i f) a = .ok a') :
    a'.store = a.store ∧ ∀ t v, a.var i = some (.cow t v) → a'.var i = some (.cow t (f v)) := by
  unfold exec at h
  simp only [indepMachine, Indep.step] at h
  cases hv : a.var i with
  | none => rw [hv] at h; cases h; exact ⟨rfl, fun t v e => by cases e⟩
  | some y =>
    rw [hv] at h
    cases y with
    | table => cases h; exact ⟨rfl, fun t v e => by cases e⟩
    | cow t v =>
      cases h
      refine ⟨rfl, fun t' v' e => ?_⟩
      cases e
      have hil : i < a.vars.length := (List.getElem?_eq_some_iff.mp (join_eq_some hv)).1
      simp only [Indep.St.var, join_set]
      rw [if_pos ⟨trivial, hil⟩]

theorem exec_insertHolder {i : Nat} {a a' : ASt G O} {t : Tag} {v : Loaded G O} (hv : a.var i = some (.cow t v))
    (h : exec (indepMachine F) (.insertHolder i) a = .ok a') :
    a'.store = Indep.set a.store t (some (.loaded ⟨t, none, v⟩)) := by
  unfold exec at h
  simp only [indepMachine, Indep.step, hv] at h
  cases h
  rfl

theorem var_last {a a' : ASt G O} {y : Indep.Var (Loaded G O)} (h : a'.vars = a.vars ++ [some y]) :
    a'.var a.vars.length = some y := by
  simp [Indep.St.var, h]

theorem valueOf_last {a : ASt G O} {i : Nat} {y : Indep.Var (Loaded G O)} (h : a.var i = some y) :
    valueOf (indepMachine F) i a = .ok y.val := by
  simp [valueOf, indepMachine, Indep.step, Indep.read, h]

theorem compileMaxp_ok {n : Nat} {a a' : ASt G O} (h : compileMaxp (indepMachine F) n a = .ok a') :
    n ≤ 65535 ∧ Ev (parser F) a a' ∧ ∀ t, t ≠ tagMaxp → a'.store t = a.store t := by
  obtain ⟨⟨j, a1⟩, h1, h⟩ := bind_eq_ok h
  obtain ⟨e1, e2, e3⟩ := access_ok h1
  rcases e3 with ⟨rfl, _⟩ | ⟨rfl, tb, hb, hv⟩
  · cases h
  · simp only at h
    split at h
    · cases h
    · next hn =>
      obtain ⟨a2, h2, h3⟩ := bind_eq_ok h
      have s2 := (exec_modify h2).1
      have s3 := exec_drop h3
      refine ⟨by omega, ?_, ?_⟩
      · intro t; rw [s3, s2]; exact e1 t
      · intro t ht; rw [s3, s2]; exact e2 rfl t ht

/-- Opening a table, changing it and inserting it back. -/
theorem edit_ok {t : Tag} {f : Loaded G O → Loaded G O} {a a1 a2 a3 : ASt G O} {j : Nat} (ht : Tagged a)
    (hd : (parser F).dep t = none)
    (h1 : access (indepMachine F) t a = .ok (some j, a1)) (h2 : exec (indepMachine F) (.modify j f) a1 = .ok a2)
    (h3 : exec (indepMachine F) (.insertHolder j) a2 = .ok a3) :
    ∃ v, ItemHolds (parser F) t (a.store t) v ∧ a3.store t = some (.loaded ⟨t, none, f v⟩) ∧
      ∀ t', t' ≠ t → a3.store t' = a.store t' := by
  obtain ⟨e1, e2, e3⟩ := access_ok h1
  rcases e3 with ⟨e, _⟩ | ⟨e, tb, hb, hv⟩
  · cases e
  · obtain rfl := Option.some.inj e
    have htag : tb.tag = t := evolves_tagged e1 ht t tb hb
    have hvar := var_last hv
    obtain ⟨s2, v2⟩ := exec_modify h2
    have hvar2 := v2 _ _ hvar
    rw [htag] at hvar2
    have s3 := exec_insertHolder hvar2 h3
    refine ⟨tb.val, evolves_holds hd (e1 t) (.inl ⟨tb, hb, rfl⟩), by rw [s3]; simp [Indep.set], ?_⟩
    intro t' hne
    rw [s3]
    simp only [Indep.set]
    rw [if_neg hne, s2]
    exact e2 hd t' hne

theorem compileHead_ok {b : Bool} {a a' : ASt G O} (ht : Tagged a) (h : compileHead (indepMachine F) b a = .ok a') :
    ∃ v, ItemHolds (parser F) tagHead (a.store tagHead) v ∧
      a'.store tagHead = some (.loaded ⟨tagHead, none, setFormat b v⟩) ∧
      ∀ t', t' ≠ tagHead → a'.store t' = a.store t' := by
  obtain ⟨⟨j, a1⟩, h1, h⟩ := bind_eq_ok h
  cases j with
  | none => cases h
  | some j =>
    obtain ⟨a2, h2, h3⟩ := bind_eq_ok h
    exact edit_ok ht rfl h1 h2 h3

/-- The metrics that opening hmtx yields. -/
def HmtxHolds (F : Fmt G O) (a : ASt G O) (v : Loaded G O) : Prop :=
  (∃ tb, a.store tagHmtx = some (.loaded tb) ∧ tb.val = v) ∨
  ∃ b w, a.store tagHmtx = some (.unloaded b) ∧ ItemHolds (parser F) tagHhea (a.store tagHhea) w ∧
    parse F tagHmtx b (some w) = .ok v

theorem open_nodep {t : Tag} {a a' : ASt G O} (hd : (parser F).dep t = none)
    (h : Indep.step (parser F) (.open_ t) a = .ok (.done, a')) :
    ∃ tb, a'.vars = a.vars ++ [some (Indep.asCow tb)] ∧ ItemHolds (parser F) t (a.store t) tb.val := by
  obtain ⟨h1, h2, _⟩ := getAs_ok h
  rcases h2 with ⟨h2, _⟩ | ⟨h2, _⟩ | ⟨_, tb, hb, hv⟩
  · cases h2
  · cases h2
  · exact ⟨tb, hv, evolves_holds hd (h1 t) (.inl ⟨tb, hb, rfl⟩)⟩

theorem open_hmtx {a a' : ASt G O} (h : Indep.step (parser F) (.open_ tagHmtx) a = .ok (.done, a')) :
    ∃ tb, a'.store tagHmtx = some (.loaded tb) ∧ a'.vars = a.vars ++ [some (Indep.asCow tb)] ∧ HmtxHolds F a tb.val := by
  obtain ⟨h1, h2, _⟩ := getAs_ok h
  rcases h2 with ⟨h2, _⟩ | ⟨h2, _⟩ | ⟨_, tb, hb, hv⟩
  · cases h2
  · cases h2
  · refine ⟨tb, hb, hv, ?_⟩
    simp only [Indep.step, Indep.getAs] at h
    cases hs : a.store tagHmtx with
    | none =>
      rw [Indep.load] at h
      rw [hs] at h
      simp only [hs] at h
      cases h
    | some x =>
      cases x with
      | loaded tb' =>
        rw [Indep.load] at h
        simp only [hs] at h
        cases h
        rw [hs] at hb
        exact .inl ⟨tb', hs, by obtain rfl := Indep.Item.loaded.inj (Option.some.inj hb); rfl⟩
      | unloaded b =>
        rw [Indep.load] at h
        simp only [hs, show (parser F).dep tagHmtx = some tagHhea from rfl] at h
        cases hl : Indep.load (parser F) 3 tagHhea a with
        | err => rw [hl] at h; cases h
        | panic => rw [hl] at h; cases h
        | ok r =>
          obtain ⟨c1, a1⟩ := r
          rw [hl] at h
          cases c1 with
          | false => cases h
          | true =>
            simp only at h
            have hev := (load_evolves (parser F) tagHhea 3 tagHhea a a1 true hl).1
            cases hva : Indep.valueAt a1 tagHhea with
            | none => rw [hva] at h; cases h
            | some w =>
              rw [hva] at h
              simp only at h
              have hw : ItemHolds (parser F) tagHhea (a.store tagHhea) w := by
                refine evolves_holds rfl hev ?_
                unfold Indep.valueAt at hva
                cases hx : a1.store tagHhea with
                | none => rw [hx] at hva; cases hva
                | some x =>
                  rw [hx] at hva
                  cases x with
                  | unloaded => cases hva
                  | loaded tb => exact .inl ⟨tb, rfl, Option.some.inj hva⟩
              unfold Indep.finish at h
              cases hp : (parser F).parse tagHmtx b (some w) with
              | err => rw [hp] at h; cases h
              | panic => rw [hp] at h; cases h
              | ok v =>
                rw [hp] at h
                simp only at h
                have hset : Indep.set a1.store tagHmtx (some (.loaded ⟨tagHmtx, some b, v⟩)) tagHmtx =
                    some (.loaded ⟨tagHmtx, some b, v⟩) := by simp [Indep.set]
                simp only [hset] at h
                cases h
                replace hb := hset.symm.trans hb
                obtain rfl := Indep.Item.loaded.inj (Option.some.inj hb)
                exact .inr ⟨b, w, hs, hw, hp⟩

theorem hmtxHolds_unique {a : ASt G O} {v w : Loaded G O} (h : HmtxHolds F a v) (h' : HmtxHolds F a w) : v = w := by
  rcases h with ⟨tb, e, rfl⟩ | ⟨b, x, e, hx, h⟩
  · rcases h' with ⟨tb', e', rfl⟩ | ⟨b', x', e', _⟩
    · rw [e] at e'; obtain rfl := Indep.Item.loaded.inj (Option.some.inj e'); rfl
    · rw [e] at e'; cases e'
  · rcases h' with ⟨tb', e', rfl⟩ | ⟨b', x', e', hx', h'⟩
    · rw [e] at e'; cases e'
    · rw [e] at e'
      obtain rfl := Indep.Item.unloaded.inj (Option.some.inj e')
      obtain rfl := holds_unique hx hx'
      rw [h] at h'
      exact Res.ok.inj h'

theorem access_step {t : Tag} {a a' : ASt G O} {j : Nat} (h : access (indepMachine F) t a = .ok (some j, a')) :
    Indep.step (parser F) (.open_ t) a = .ok (.done, a') := by
  unfold access at h
  cases hs : (indepMachine F).step (.open_ t) a with
  | err => rw [hs] at h; cases h
  | panic => rw [hs] at h; cases h
  | ok r =>
    obtain ⟨o, a1⟩ := r
    rw [hs] at h
    cases o with
    | done => cases h; exact hs
    | _ => cases h

theorem tagged_of_store {a a' : ASt G O} (h : a'.store = a.store) (ht : Tagged a) : Tagged a' := by
  intro t tb e; rw [h] at e; exact ht t tb e

theorem evolves_none {P : Parser V} {t : Tag} {x y : Option (Indep.Item V)} (h : Evolves P t x y) :
    x = none ↔ y = none := by
  rcases h with rfl | ⟨b, v, d, rfl, rfl, _⟩
  · rfl
  · simp

theorem compileHhea_ok {a a' : ASt G O} (ht : Tagged a) (h : compileHhea (indepMachine F) a = .ok a') :
    (a.store tagHmtx = none ∧ Ev (parser F) a a') ∨
    ∃ l n, HmtxHolds F a (.hmtx l) ∧ Hmtx.numberOfHMetrics l = .ok n ∧
      ((a.store tagHhea = none ∧ Ev (parser F) a a') ∨
       ∃ v, ItemHolds (parser F) tagHhea (a.store tagHhea) v ∧
        a'.store tagHhea = some (.loaded ⟨tagHhea, none, setMetricCount n v⟩) ∧
        ∀ t', t' ≠ tagHhea → Evolves (parser F) t' (a.store t') (a'.store t')) := by
  obtain ⟨⟨j, a1⟩, h1, h⟩ := bind_eq_ok h
  obtain ⟨e1, _, e3⟩ := access_ok h1
  rcases e3 with ⟨rfl, _, hn, _⟩ | ⟨rfl, tb, hb, hv⟩
  · cases h
    exact .inl ⟨hn, e1⟩
  · obtain ⟨tb', hb', hv', hh⟩ := open_hmtx (access_step h1)
    rw [hb'] at hb
    obtain rfl := Indep.Item.loaded.inj (Option.some.inj hb)
    simp only at h
    obtain ⟨v, hval, h⟩ := bind_eq_ok h
    rw [valueOf_last (var_last hv)] at hval
    cases hval
    simp only [Indep.asCow, Indep.Var.val] at h
    cases hl : tb'.val with
    | hmtx l =>
      rw [hl] at h hh
      simp only at h
      obtain ⟨n, hn, h⟩ := bind_eq_ok h
      obtain ⟨a2, h2, h⟩ := bind_eq_ok h
      obtain ⟨⟨k, a3⟩, h3, h⟩ := bind_eq_ok h
      have s2 := exec_drop h2
      refine .inr ⟨l, n, hh, hn, ?_⟩
      have ev2 : Ev (parser F) a a2 := fun t => by rw [s2]; exact e1 t
      cases k with
      | none =>
        cases h
        obtain ⟨f1, _, f3⟩ := access_ok h3
        rcases f3 with ⟨_, _, hn, _⟩ | ⟨e, _⟩
        · exact .inl ⟨(evolves_none (ev2 tagHhea)).mpr hn, ev2.trans f1⟩
        · cases e
      | some k =>
        obtain ⟨a4, h4, h5⟩ := bind_eq_ok h
        obtain ⟨v, g1, g2, g3⟩ := edit_ok (evolves_tagged ev2 ht) rfl h3 h4 h5
        refine .inr ⟨v, evolves_holds rfl (ev2 tagHhea) g1, g2, ?_⟩
        intro t' ht'
        rw [g3 t' ht']
        exact ev2 t'
    | _ => rw [hl] at h; cases h

theorem tagged_set {a : ASt G O} {m : Tag → Option (Indep.Item (Loaded G O))} {t : Tag}
    {x : Option (Indep.Item (Loaded G O))} (hm : a.store = Indep.set m t x)
    (h : ∀ t' tb, m t' = some (.loaded tb) → tb.tag = t') (hx : ∀ tb, x = some (.loaded tb) → tb.tag = t) :
    Tagged a := by
  intro t' tb e
  rw [hm] at e
  simp only [Indep.set] at e
  split at e
  · next e' => rw [e']; exact hx tb e
  · exact h t' tb e

/-- What compiling glyf and loca does to the table set. -/
structure GlyfEffect (F : Fmt G O) (gs : List G) (a a' : ASt G O) (out loca : Bytes) (is32 : Bool) : Prop where
  compiled : Loca.compile F.isEmpty F.serGlyph gs = .ok (out, loca, is32)
  count : gs.length ≤ 65535
  glyf : Indep.write (parser F) a' tagGlyf = .ok out ∧ a'.store tagGlyf ≠ none
  loca : Indep.write (parser F) a' tagLoca = .ok loca ∧ a'.store tagLoca ≠ none
  head : ∃ v, ItemHolds (parser F) tagHead (a.store tagHead) v ∧
    a'.store tagHead = some (.loaded ⟨tagHead, none, setFormat is32 v⟩)
  hhea : (a.store tagHmtx = none ∨ a.store tagHhea = none) ∧
      Evolves (parser F) tagHhea (a.store tagHhea) (a'.store tagHhea) ∨
    ∃ l n v, HmtxHolds F a (.hmtx l) ∧ Hmtx.numberOfHMetrics l = .ok n ∧
      ItemHolds (parser F) tagHhea (a.store tagHhea) v ∧
      a'.store tagHhea = some (.loaded ⟨tagHhea, none, setMetricCount n v⟩)
  rest : ∀ t, t ≠ tagGlyf → t ≠ tagLoca → t ≠ tagHead → t ≠ tagHhea →
    Evolves (parser F) t (a.store t) (a'.store t)

theorem evolves_unloaded {P : Parser V} {a : Indep.St V} {t : Tag} {b : Bytes}
    (h : Evolves P t (some (.unloaded b)) (a.store t)) : Indep.write P a t = .ok b ∧ a.store t ≠ none := by
  unfold Indep.write
  rcases h with e | ⟨b', v, d, e1, e2, _⟩
  · rw [e]; exact ⟨rfl, by simp⟩
  · cases e1; rw [e2]; exact ⟨rfl, by simp⟩

theorem compileGlyf_ok {a a' : ASt G O} {gs : List G} (ht : Tagged a)
    (hg : a.store tagGlyf = some (.loaded ⟨tagGlyf, none, .glyf gs⟩))
    (h : compileGlyf F (indepMachine F) a = .ok a') :
    ∃ out loca is32, GlyfEffect F gs a a' out loca is32 := by
  unfold compileGlyf at h
  have hser : (indepMachine F).isSer a tagGlyf = some false := by
    simp [indepMachine, isSerializedA, hg]
  rw [hser] at h
  simp only [Option.getD_some, Bool.false_and, Bool.false_eq_true, if_false] at h
  obtain ⟨⟨j, a1⟩, h1, h⟩ := bind_eq_ok h
  have hacc : access (indepMachine F) tagGlyf a =
      .ok (some a.vars.length, { a with vars := a.vars ++ [some (.cow tagGlyf (.glyf gs))] }) := by
    simp [access, indepMachine, Indep.step, Indep.getAs, Indep.load, hg, Indep.asCow]
  rw [hacc] at h1
  cases h1
  simp only at h
  obtain ⟨v, hval, h⟩ := bind_eq_ok h
  rw [valueOf_last (y := .cow tagGlyf (.glyf gs)) (by simp [Indep.St.var])] at hval
  cases hval
  simp only [Indep.Var.val] at h
  obtain ⟨⟨out, loca, is32⟩, hc, h⟩ := bind_eq_ok h
  simp only at h
  obtain ⟨a2, h2, h⟩ := bind_eq_ok h
  obtain ⟨a3, h3, h⟩ := bind_eq_ok h
  obtain ⟨a4, h4, h⟩ := bind_eq_ok h
  obtain ⟨a5, h5, h⟩ := bind_eq_ok h
  obtain ⟨a6, h6, h⟩ := bind_eq_ok h
  have s2 := exec_drop h2
  change a2.store = a.store at s2
  have s3 := exec_insertRaw h3
  have s4 := exec_insertRaw h4
  obtain ⟨hcount, ev5, s5⟩ := compileMaxp_ok h5
  have t3 : Tagged a3 := tagged_set s3 (by rw [s2]; exact ht) (by simp)
  have t4 : Tagged a4 := tagged_set s4 t3 (by simp)
  have t5 : Tagged a5 := evolves_tagged ev5 t4
  obtain ⟨vh, hh1, hh2, s6⟩ := compileHead_ok t5 h6
  have t6 : Tagged a6 := by
    intro t tb e
    by_cases et : t = tagHead
    · subst et
      rw [hh2] at e
      obtain rfl := Indep.Item.loaded.inj (Option.some.inj e)
      rfl
    · rw [s6 t et] at e; exact t5 t tb e
  have q4 : ∀ t, t ≠ tagGlyf → t ≠ tagLoca → a4.store t = a.store t := by
    intro t hn1 hn2
    rw [s4]; simp only [Indep.set]; rw [if_neg hn2, s3]; simp only [Indep.set]; rw [if_neg hn1, s2]
  have q6 : ∀ t, t ≠ tagGlyf → t ≠ tagLoca → t ≠ tagHead → t ≠ tagMaxp → a6.store t = a.store t := by
    intro t n1 n2 n3 n4
    rw [s6 t n3, s5 t n4, q4 t n1 n2]
  have qhhea : a6.store tagHhea = a.store tagHhea := q6 _ (by decide) (by decide) (by decide) (by decide)
  have qhmtx : a6.store tagHmtx = a.store tagHmtx := q6 _ (by decide) (by decide) (by decide) (by decide)
  have ev6 : ∀ t, t ≠ tagGlyf → t ≠ tagLoca → t ≠ tagHead → Evolves (parser F) t (a.store t) (a6.store t) := by
    intro t n1 n2 n3
    rw [s6 t n3, ← q4 t n1 n2]
    exact ev5 t
  have g6 : a6.store tagGlyf = some (.unloaded out) := by
    rw [s6 _ (by decide), s5 _ (by decide), s4]
    simp only [Indep.set]
    rw [if_neg (by decide), s3]
    simp [Indep.set]
  have l6 : a6.store tagLoca = some (.unloaded loca) := by
    rw [s6 _ (by decide), s5 _ (by decide), s4]
    simp [Indep.set]
  have hhead : ItemHolds (parser F) tagHead (a.store tagHead) vh := by
    rw [← q4 tagHead (by decide) (by decide), ← s5 tagHead (by decide)]
    exact hh1
  have hrest : ∀ t, t ≠ tagHhea → Evolves (parser F) t (a6.store t) (a'.store t) := by
    intro t hn
    rcases compileHhea_ok t6 h with ⟨_, e⟩ | ⟨_, _, _, _, ⟨_, e⟩ | ⟨_, _, _, e⟩⟩
    · exact e t
    · exact e t
    · exact e t hn
  refine ⟨out, loca, is32, hc, hcount, ?_, ?_, ?_, ?_, ?_⟩
  · have := hrest tagGlyf (by decide)
    rw [g6] at this
    exact evolves_unloaded this
  · have := hrest tagLoca (by decide)
    rw [l6] at this
    exact evolves_unloaded this
  · refine ⟨vh, hhead, ?_⟩
    rcases hrest tagHead (by decide) with e | ⟨b, _, _, e, _⟩
    · rw [e, hh2]
    · rw [hh2] at e; cases e
  · have hmap : ∀ {v : Loaded G O}, HmtxHolds F a6 v → HmtxHolds F a v := by
      intro v hv
      rcases hv with ⟨tb, e, rfl⟩ | ⟨b, w, e, hw, hp⟩
      · exact .inl ⟨tb, by rw [← qhmtx]; exact e, rfl⟩
      · exact .inr ⟨b, w, by rw [← qhmtx]; exact e, by rw [← qhhea]; exact hw, hp⟩
    rcases compileHhea_ok t6 h with ⟨hn, e⟩ | ⟨l, n, hl, hn, ⟨hz, e⟩ | ⟨v, e1, e2, _⟩⟩
    · exact .inl ⟨.inl (by rw [← qhmtx]; exact hn), by rw [← qhhea]; exact e tagHhea⟩
    · exact .inl ⟨.inr (by rw [← qhhea]; exact hz), by rw [← qhhea]; exact e tagHhea⟩
    · exact .inr ⟨l, n, v, hmap hl, hn, by rw [← qhhea]; exact e1, e2⟩
  · intro t n1 n2 n3 n4
    exact (ev6 t n1 n2 n3).trans (hrest t n4)

theorem compileLayout_ok {n : UInt16} {t : Tag} {a a' : ASt G O}
    (h : compileLayout F (indepMachine F) n t a = .ok a') :
    (∀ t', t' ≠ t → Evolves (parser F) t' (a.store t') (a'.store t')) ∧ (a.store t = none → a'.store t = none) := by
  unfold compileLayout at h
  split at h
  · cases h; exact ⟨fun _ _ => .inl rfl, id⟩
  · obtain ⟨⟨j, a1⟩, h1, h⟩ := bind_eq_ok h
    obtain ⟨e1, _, e3⟩ := access_ok h1
    rcases e3 with ⟨rfl, _, hn, hn'⟩ | ⟨rfl, tb, hb, hv⟩
    · cases h; exact ⟨fun t' _ => e1 t', fun _ => hn'⟩
    · simp only at h
      obtain ⟨v, hval, h⟩ := bind_eq_ok h
      cases v with
      | other tt x =>
        simp only at h
        obtain ⟨⟨bytes, failed⟩, hb', h⟩ := bind_eq_ok h
        obtain ⟨a2, h2, h3⟩ := bind_eq_ok h
        have s2 := exec_drop h2
        have s3 := exec_insertRaw h3
        constructor
        · intro t' hn
          rw [s3]; simp only [Indep.set]; rw [if_neg hn, s2]
          exact e1 t'
        · intro hn
          have := (evolves_none (e1 t)).mp hn
          rw [this] at hb; cases hb
      | _ => cases h

theorem compileLayouts_ok {a a' : ASt G O} (h : compileLayouts F (indepMachine F) a = .ok a') :
    (∀ t', t' ≠ tagGPOS → t' ≠ tagGSUB → Evolves (parser F) t' (a.store t') (a'.store t')) ∧
    (a.store tagGPOS = none → a'.store tagGPOS = none) ∧ (a.store tagGSUB = none → a'.store tagGSUB = none) := by
  obtain ⟨⟨j, a1⟩, h1, h⟩ := bind_eq_ok h
  obtain ⟨e1, _, e3⟩ := access_ok h1
  cases j with
  | none => cases h
  | some j =>
    simp only at h
    obtain ⟨v, hval, h⟩ := bind_eq_ok h
    cases v with
    | maxp m =>
      simp only at h
      obtain ⟨a2, h2, h⟩ := bind_eq_ok h
      obtain ⟨a3, h3, h4⟩ := bind_eq_ok h
      have s2 := exec_drop h2
      obtain ⟨f1, f2⟩ := compileLayout_ok h3
      obtain ⟨g1, g2⟩ := compileLayout_ok h4
      have ev2 : Ev (parser F) a a2 := fun t => by rw [s2]; exact e1 t
      refine ⟨?_, ?_, ?_⟩
      · intro t' n1 n2
        exact ((ev2 t').trans (f1 t' n1)).trans (g1 t' n2)
      · intro hn
        have := f2 ((evolves_none (ev2 _)).mp hn)
        exact (evolves_none (g1 tagGPOS (by decide))).mp this
      · intro hn
        have := (evolves_none (f1 tagGSUB (by decide))).mp ((evolves_none (ev2 _)).mp hn)
        exact g2 this
    | _ => cases h

theorem compileAll_ok {a a' : ASt G O} {gs : List G} (ht : Tagged a)
    (hg : a.store tagGlyf = some (.loaded ⟨tagGlyf, none, .glyf gs⟩))
    (h : compileAll F (indepMachine F) a = .ok a') :
    ∃ out loca is32, Loca.compile F.isEmpty F.serGlyph gs = .ok (out, loca, is32) ∧ gs.length ≤ 65535 ∧
      (Indep.write (parser F) a' tagGlyf = .ok out ∧ a'.store tagGlyf ≠ none) ∧
      (Indep.write (parser F) a' tagLoca = .ok loca ∧ a'.store tagLoca ≠ none) ∧
      (∃ v, ItemHolds (parser F) tagHead (a.store tagHead) v ∧
        a'.store tagHead = some (.loaded ⟨tagHead, none, setFormat is32 v⟩)) ∧
      ((a.store tagHmtx = none ∨ a.store tagHhea = none) ∧
          Evolves (parser F) tagHhea (a.store tagHhea) (a'.store tagHhea) ∨
        ∃ l n v, HmtxHolds F a (.hmtx l) ∧ Hmtx.numberOfHMetrics l = .ok n ∧
          ItemHolds (parser F) tagHhea (a.store tagHhea) v ∧
          a'.store tagHhea = some (.loaded ⟨tagHhea, none, setMetricCount n v⟩)) ∧
      (∀ t, t ≠ tagGlyf → t ≠ tagLoca → t ≠ tagHead → t ≠ tagHhea → t ≠ tagGPOS → t ≠ tagGSUB →
        Evolves (parser F) t (a.store t) (a'.store t)) ∧
      (∀ t, a.store t = none → t ≠ tagLoca → a'.store t = none) := by
  obtain ⟨a1, h1, h2⟩ := bind_eq_ok h
  obtain ⟨out, loca, is32, e⟩ := compileGlyf_ok ht hg h1
  obtain ⟨f1, f2, f3⟩ := compileLayouts_ok h2
  have key : ∀ t v, t ≠ tagGPOS → t ≠ tagGSUB → a1.store t = some (.loaded v) → a'.store t = some (.loaded v) := by
    intro t v n1 n2 hv
    rcases f1 t n1 n2 with e | ⟨b, _, _, e, _⟩
    · rw [e, hv]
    · rw [hv] at e; cases e
  refine ⟨out, loca, is32, e.compiled, e.count, ?_, ?_, ?_, ?_, ?_, ?_⟩
  · have h := f1 tagGlyf (by decide) (by decide)
    rw [evolves_write h]
    exact ⟨e.glyf.1, fun hn => e.glyf.2 ((evolves_none h).mpr hn)⟩
  · have h := f1 tagLoca (by decide) (by decide)
    rw [evolves_write h]
    exact ⟨e.loca.1, fun hn => e.loca.2 ((evolves_none h).mpr hn)⟩
  · obtain ⟨v, g1, g2⟩ := e.head
    exact ⟨v, g1, key _ _ (by decide) (by decide) g2⟩
  · rcases e.hhea with ⟨g1, g2⟩ | ⟨l, n, v, g1, g2, g3, g4⟩
    · exact .inl ⟨g1, g2.trans (f1 _ (by decide) (by decide))⟩
    · exact .inr ⟨l, n, v, g1, g2, g3, key _ _ (by decide) (by decide) g4⟩
  · intro t n1 n2 n3 n4 n5 n6
    exact (e.rest t n1 n2 n3 n4).trans (f1 t n5 n6)
  · intro t hn hl
    have h1n : a1.store t = none := by
      by_cases e1 : t = tagGlyf
      · subst e1; rw [hg] at hn; cases hn
      · by_cases e2 : t = tagHead
        · subst e2
          obtain ⟨v, g1, _⟩ := e.head
          rw [hn] at g1
          rcases g1 with ⟨_, g, _⟩ | ⟨_, g, _⟩ <;> cases g
        · by_cases e3 : t = tagHhea
          · subst e3
            rcases e.hhea with ⟨_, g2⟩ | ⟨_, _, v, _, _, g3, _⟩
            · exact (evolves_none g2).mp hn
            · rw [hn] at g3
              rcases g3 with ⟨_, g, _⟩ | ⟨_, g, _⟩ <;> cases g
          · exact (evolves_none (e.rest t e1 hl e2 e3)).mp hn
    by_cases e1 : t = tagGPOS
    · subst e1; exact f2 h1n
    · by_cases e2 : t = tagGSUB
      · subst e2; exact f3 h1n
      · exact (evolves_none (f1 t e1 e2)).mp h1n

/-- Whatever the state, only these tables can be replaced by compiling glyphs. -/
theorem compileGlyf_rest {a a' : ASt G O} (ht : Tagged a) (h : compileGlyf F (indepMachine F) a = .ok a') :
    ∀ t, t ≠ tagGlyf → t ≠ tagLoca → t ≠ tagHead → t ≠ tagHhea → Evolves (parser F) t (a.store t) (a'.store t) := by
  intro t n1 n2 n3 n4
  unfold compileGlyf at h
  split at h
  · cases h; exact .inl rfl
  · obtain ⟨⟨j, a1⟩, h1, h⟩ := bind_eq_ok h
    obtain ⟨ev1, _, _⟩ := access_ok h1
    cases j with
    | none => cases h; exact ev1 t
    | some j =>
      simp only at h
      obtain ⟨v, _, h⟩ := bind_eq_ok h
      cases v with
      | glyf gs =>
        simp only at h
        obtain ⟨⟨out, loca, is32⟩, _, h⟩ := bind_eq_ok h
        simp only at h
        obtain ⟨a2, h2, h⟩ := bind_eq_ok h
        obtain ⟨a3, h3, h⟩ := bind_eq_ok h
        obtain ⟨a4, h4, h⟩ := bind_eq_ok h
        obtain ⟨a5, h5, h⟩ := bind_eq_ok h
        obtain ⟨a6, h6, h⟩ := bind_eq_ok h
        have s2 := exec_drop h2
        have s3 := exec_insertRaw h3
        have s4 := exec_insertRaw h4
        obtain ⟨_, ev5, _⟩ := compileMaxp_ok h5
        have t3 : Tagged a3 := tagged_set s3 (by rw [s2]; exact evolves_tagged ev1 ht) (by simp)
        have t4 : Tagged a4 := tagged_set s4 t3 (by simp)
        have t5 : Tagged a5 := evolves_tagged ev5 t4
        obtain ⟨vh, _, hh2, s6⟩ := compileHead_ok t5 h6
        have t6 : Tagged a6 := by
          intro t tb e
          by_cases et : t = tagHead
          · subst et
            rw [hh2] at e
            obtain rfl := Indep.Item.loaded.inj (Option.some.inj e)
            rfl
          · rw [s6 t et] at e; exact t5 t tb e
        have e4 : a4.store t = a1.store t := by
          rw [s4]; simp only [Indep.set]; rw [if_neg n2, s3]; simp only [Indep.set]; rw [if_neg n1, s2]
        have e6 : Evolves (parser F) t (a1.store t) (a6.store t) := by
          rw [s6 t n3, ← e4]; exact ev5 t
        refine ((ev1 t).trans e6).trans ?_
        rcases compileHhea_ok t6 h with ⟨_, e⟩ | ⟨_, _, _, _, ⟨_, e⟩ | ⟨_, _, _, e⟩⟩
        · exact e t
        · exact e t
        · exact e t n4
      | _ => cases h

theorem compileAll_rest {a a' : ASt G O} (ht : Tagged a) (h : compileAll F (indepMachine F) a = .ok a') :
    ∀ t, t ≠ tagGlyf → t ≠ tagLoca → t ≠ tagHead → t ≠ tagHhea → t ≠ tagGPOS → t ≠ tagGSUB →
      Evolves (parser F) t (a.store t) (a'.store t) := by
  intro t n1 n2 n3 n4 n5 n6
  obtain ⟨a1, h1, h2⟩ := bind_eq_ok h
  exact (compileGlyf_rest ht h1 t n1 n2 n3 n4).trans ((compileLayouts_ok h2).1 t n5 n6)

end FT.Save
