import Verif.Lemmas.CliTool
import Verif.Props.CmapChoice

/-! `ttf-rename-glyphs`. -/

namespace FT.Cli
open FT FT.Store FT.Save FT.Tables FT.Props FT.Strings

variable {X : Type} {R : Rest X} {T : Tag → Option Bytes}

/-- The `post` table can be read. -/
def PostIs (T : Tag → Option Bytes) (p : Post) : Prop := ∃ b, T tagPost = some b ∧ runAll readPost b = .ok p

/-- The character map can be read; without one, there are no characters. -/
def CmapIs (T : Tag → Option Bytes) (sts : List Cmap.Subtable) : Prop :=
  (T tagCmap = none ∧ sts = []) ∨ ∃ b, T tagCmap = some b ∧ runAll Cmap.readCmap b = .ok sts

theorem means_other {t : Tag} (ht : t = tagPost ∨ t = tagCmap) {v : Val X} : Means (fmt R) T t v ↔
    ∃ b x, T t = some b ∧ parseRest R t b none = .ok x ∧ v = .other t x := by
  have hd : dep t = none := by rcases ht with rfl | rfl <;> decide
  have hp : ∀ b d, Save.parse (fmt R) t b d = (do return .other t (← parseRest R t b d)) := by
    intro b d
    unfold Save.parse
    rw [if_neg (by rcases ht with rfl | rfl <;> decide), if_neg (by rcases ht with rfl | rfl <;> decide),
      if_neg (by rcases ht with rfl | rfl <;> decide), if_neg (by rcases ht with rfl | rfl <;> decide),
      if_neg (by rcases ht with rfl | rfl <;> decide), if_neg (by rcases ht with rfl | rfl <;> decide)]
    rfl
  constructor
  · intro h
    cases h with
    | plain h _ h2 =>
      rw [hp] at h2
      obtain ⟨x, h3, h4⟩ := bind_eq_ok h2
      exact ⟨_, x, h, h3, (Res.ok.inj h4).symm⟩
    | after _ h2 => rw [hd] at h2; cases h2
  · rintro ⟨b, x, h1, h2, rfl⟩
    refine .plain h1 hd ?_
    rw [hp, h2]
    rfl

theorem means_post {v : Val X} : Means (fmt R) T tagPost v ↔ ∃ p, PostIs T p ∧ v = .other tagPost (.post p) := by
  rw [means_other (.inl rfl)]
  have hp : ∀ b, parseRest R tagPost b none = (do return .post (← runAll readPost b)) := by
    intro b
    unfold parseRest
    rw [if_pos rfl]
  constructor
  · rintro ⟨b, x, h1, h2, rfl⟩
    rw [hp] at h2
    obtain ⟨p, h3, h4⟩ := bind_eq_ok h2
    cases h4
    exact ⟨p, ⟨b, h1, h3⟩, rfl⟩
  · rintro ⟨p, ⟨b, h1, h2⟩, rfl⟩
    exact ⟨b, _, h1, by rw [hp, h2]; rfl, rfl⟩

theorem means_cmap {v : Val X} : Means (fmt R) T tagCmap v ↔
    ∃ sts b, T tagCmap = some b ∧ runAll Cmap.readCmap b = .ok sts ∧ v = .other tagCmap (.cmap sts) := by
  rw [means_other (.inr rfl)]
  have hp : ∀ b, parseRest R tagCmap b none = (do return .cmap (← runAll Cmap.readCmap b)) := by
    intro b
    unfold parseRest
    rw [if_neg (by decide), if_pos rfl]
  constructor
  · rintro ⟨b, x, h1, h2, rfl⟩
    rw [hp] at h2
    obtain ⟨p, h3, h4⟩ := bind_eq_ok h2
    cases h4
    exact ⟨p, b, h1, h3, rfl⟩
  · rintro ⟨p, b, h1, h2, rfl⟩
    exact ⟨b, _, h1, by rw [hp, h2]; rfl, rfl⟩

/-! ### The steps -/

theorem require_stands {t : Tag} {a a' : AStore X} {j : Nat} (ha : Stands (fmt R) T a)
    (h : require (indepMachine (fmt R)) t a = .ok (j, a')) :
    Stands (fmt R) T a' ∧ ∃ v, Means (fmt R) T t v ∧ a'.vars = a.vars ++ [some (.cow t v)] ∧ j = a.vars.length := by
  unfold require at h
  obtain ⟨⟨i, a1⟩, h1, h2⟩ := bind_eq_ok h
  obtain ⟨g1, g2⟩ := access_stands ha h1
  rcases g2 with ⟨rfl, _⟩ | ⟨v, rfl, g3, g4⟩
  · cases h2
  · cases h2
    exact ⟨g1, v, g3, g4, rfl⟩

theorem require_means {t : Tag} {v : Val X} {a : AStore X} (ha : Stands (fmt R) T a) (h : Means (fmt R) T t v) :
    ∃ a', require (indepMachine (fmt R)) t a = .ok (a.vars.length, a') ∧ Stands (fmt R) T a' ∧
      a'.vars = a.vars ++ [some (.cow t v)] := by
  obtain ⟨a', e, h1, h2⟩ := access_means ha h
  exact ⟨a', by unfold require; rw [e]; rfl, h1, h2⟩

theorem countGlyphs_stands {a a' : AStore X} {n : UInt16} (ha : Stands (fmt R) T a)
    (h : countGlyphs (indepMachine (fmt R)) a = .ok (n, a')) : Stands (fmt R) T a' ∧ ∃ m, MaxpIs T m ∧ n = m.numGlyphs := by
  unfold countGlyphs at h
  obtain ⟨⟨i, a1⟩, h1, h2⟩ := bind_eq_ok h
  obtain ⟨g1, v, g2, g3, rfl⟩ := require_stands ha h1
  obtain ⟨w, h3, h4⟩ := bind_eq_ok h2
  rw [valueOf_last (var_last g3)] at h3
  cases h3
  obtain ⟨b, m, e1, e2, rfl⟩ := means_maxp.mp g2
  cases h4
  exact ⟨g1, m, ⟨b, e1, e2⟩, rfl⟩

theorem countGlyphs_ok {a : AStore X} {m : Maxp} (ha : Stands (fmt R) T a) (h : MaxpIs T m) :
    ∃ a', countGlyphs (indepMachine (fmt R)) a = .ok (m.numGlyphs, a') ∧ Stands (fmt R) T a' := by
  obtain ⟨b, e1, e2⟩ := h
  obtain ⟨a', h1, h2, h3⟩ := require_means (R := R) ha (means_maxp.mpr ⟨b, m, e1, e2, rfl⟩)
  refine ⟨a', ?_, h2⟩
  unfold countGlyphs
  rw [h1, Res.ok_bind]
  simp only
  rw [valueOf_last (var_last h3), Res.ok_bind]
  rfl

theorem reversedMap_stands {a a' : AStore X} {rev : List (UInt16 × List UInt32)} (ha : Stands (fmt R) T a)
    (h : reversedMap (indepMachine (fmt R)) a = .ok (rev, a')) :
    Stands (fmt R) T a' ∧ ∃ sts, CmapIs T sts ∧ rev = Cmap.reversed sts := by
  unfold reversedMap at h
  obtain ⟨⟨i, a1⟩, h1, h2⟩ := bind_eq_ok h
  obtain ⟨g1, g2⟩ := access_stands ha h1
  rcases g2 with ⟨rfl, _, g3⟩ | ⟨v, rfl, g3, g4⟩
  · cases h2
    exact ⟨g1, [], .inl ⟨g3, rfl⟩, rfl⟩
  · obtain ⟨w, h3, h4⟩ := bind_eq_ok h2
    rw [valueOf_last (var_last g4)] at h3
    cases h3
    obtain ⟨sts, b, e1, e2, rfl⟩ := means_cmap.mp g3
    cases h4
    exact ⟨g1, sts, .inr ⟨b, e1, e2⟩, rfl⟩

theorem reversedMap_ok {a : AStore X} {sts : List Cmap.Subtable} (ha : Stands (fmt R) T a) (h : CmapIs T sts) :
    ∃ a', reversedMap (indepMachine (fmt R)) a = .ok (Cmap.reversed sts, a') ∧ Stands (fmt R) T a' := by
  rcases h with ⟨h, rfl⟩ | ⟨b, e1, e2⟩
  · refine ⟨a, ?_, ha⟩
    unfold reversedMap
    rw [access_absent ha h]
    rfl
  · obtain ⟨a', h1, h2, h3⟩ := access_means (F := fmt R) ha (means_cmap.mpr ⟨sts, b, e1, e2, rfl⟩)
    refine ⟨a', ?_, h2⟩
    unfold reversedMap
    rw [h1, Res.ok_bind]
    simp only
    rw [valueOf_last (var_last h3), Res.ok_bind]
    rfl

theorem exec_modify_ok (a : AStore X) (i : Nat) (f : Val X → Val X) {t : Tag} {v : Val X} (h : a.var i = some (.cow t v)) :
    ∃ a', exec (indepMachine (fmt R)) (.modify i f) a = .ok a' := by
  unfold exec
  simp only [indepMachine, Indep.step, h]
  exact ⟨_, rfl⟩

theorem exec_insertHolder_ok (a : AStore X) (i : Nat) {t : Tag} {v : Val X} (h : a.var i = some (.cow t v)) :
    ∃ a', exec (indepMachine (fmt R)) (.insertHolder i) a = .ok a' := by
  unfold exec
  simp only [indepMachine, Indep.step, h]
  exact ⟨_, rfl⟩

/-- The outcome of renaming. -/
def RenamePost (n : UInt16) (sts : List Cmap.Subtable) (p p' : Post) : Prop :=
  ∃ names names', p.glyphnames = some names ∧ renameFrom (Cmap.reversed sts) 0 n.toNat names = .ok names' ∧
    p' = { p with glyphnames := some names' }

theorem rename_fwd {drop : Bool} {a a' : AStore X} (ha : Stands (fmt R) T a)
    (h : renameBody drop (indepMachine (fmt R)) a = .ok a') : ∃ m sts, MaxpIs T m ∧ CmapIs T sts ∧
      ((T tagPost = none ∧ Stands (fmt R) T a') ∨ ∃ p, PostIs T p ∧ ((drop = true ∧ Stands (fmt R) T a') ∨
        (drop = false ∧ ∃ p' a1, RenamePost m.numGlyphs sts p p' ∧ Stands (fmt R) T a1 ∧
          a'.store = Indep.set a1.store tagPost (some (.loaded ⟨tagPost, none, .other tagPost (.post p')⟩))))) := by
  unfold renameBody at h
  obtain ⟨⟨n, a1⟩, h1, h⟩ := bind_eq_ok h
  obtain ⟨g1, m, em, rfl⟩ := countGlyphs_stands ha h1
  obtain ⟨⟨rev, a2⟩, h2, h⟩ := bind_eq_ok h
  obtain ⟨g2, sts, es, rfl⟩ := reversedMap_stands g1 h2
  obtain ⟨⟨j, a3⟩, h3, h⟩ := bind_eq_ok h
  obtain ⟨g3, c⟩ := access_stands g2 h3
  refine ⟨m, sts, em, es, ?_⟩
  rcases c with ⟨rfl, _, c⟩ | ⟨v, rfl, c1, c2⟩
  · cases h
    exact .inl ⟨c, g3⟩
  · obtain ⟨p, ep, rfl⟩ := means_post.mp c1
    refine .inr ⟨p, ep, ?_⟩
    cases drop with
    | true => exact .inl ⟨rfl, stands_of_store (exec_modify h).1 g3⟩
    | false =>
      refine .inr ⟨rfl, ?_⟩
      simp only [Bool.false_eq_true, if_false] at h
      unfold renamePost at h
      obtain ⟨w, h4, h⟩ := bind_eq_ok h
      rw [valueOf_last (var_last c2)] at h4
      cases h4
      simp only [Indep.Var.val] at h
      cases hn : p.glyphnames with
      | none => rw [hn] at h; cases h
      | some names =>
        rw [hn] at h
        obtain ⟨names', h5, h⟩ := bind_eq_ok h
        obtain ⟨a4, h6, h7⟩ := bind_eq_ok h
        obtain ⟨m1, m2⟩ := exec_modify h6
        have hv := m2 _ _ (var_last c2)
        have := exec_insertHolder hv h7
        exact ⟨_, a4, ⟨names, names', hn, h5, rfl⟩, stands_of_store m1 g3, this⟩

theorem rename_bwd {drop : Bool} {a : AStore X} (ha : Stands (fmt R) T a) {m : Maxp} {sts : List Cmap.Subtable}
    (hm : MaxpIs T m) (hc : CmapIs T sts) :
    (T tagPost = none → ∃ a', renameBody drop (indepMachine (fmt R)) a = .ok a' ∧ Stands (fmt R) T a') ∧
    ∀ p, PostIs T p → (drop = true → ∃ a', renameBody drop (indepMachine (fmt R)) a = .ok a' ∧ Stands (fmt R) T a') ∧
      (drop = false → ∀ p', RenamePost m.numGlyphs sts p p' → ∃ a' a1, renameBody drop (indepMachine (fmt R)) a = .ok a' ∧
        Stands (fmt R) T a1 ∧
        a'.store = Indep.set a1.store tagPost (some (.loaded ⟨tagPost, none, .other tagPost (.post p')⟩))) := by
  obtain ⟨a1, e1, s1⟩ := countGlyphs_ok (R := R) ha hm
  obtain ⟨a2, e2, s2⟩ := reversedMap_ok (R := R) s1 hc
  have hbody : renameBody drop (indepMachine (fmt R)) a = (do
      let (j, s) ← access (indepMachine (fmt R)) tagPost a2
      match j with
      | none => .ok s
      | some j => (if drop then exec (indepMachine (fmt R)) (.modify j dropNames) s
          else renamePost (indepMachine (fmt R)) (Cmap.reversed sts) m.numGlyphs j s)) := by
    unfold renameBody
    rw [e1, Res.ok_bind]
    simp only
    rw [e2, Res.ok_bind]
    rfl
  rw [hbody]
  refine ⟨fun hn => ?_, fun p hp => ?_⟩
  · rw [access_absent s2 hn]
    exact ⟨a2, rfl, s2⟩
  · obtain ⟨a3, e3, s3, v3⟩ := access_means (F := fmt R) s2 (means_post.mpr ⟨p, hp, rfl⟩)
    rw [e3, Res.ok_bind]
    simp only
    refine ⟨?_, ?_⟩
    · rintro rfl
      obtain ⟨a4, e4⟩ := exec_modify_ok (R := R) a3 _ dropNames (var_last v3)
      exact ⟨a4, e4, stands_of_store (exec_modify e4).1 s3⟩
    · rintro rfl p' ⟨names, names', hn, hr, rfl⟩
      obtain ⟨a4, e4⟩ := exec_modify_ok (R := R) a3 _ (fun _ => .other tagPost (.post { p with glyphnames := some names' })) (var_last v3)
      obtain ⟨m1, m2⟩ := exec_modify e4
      have hv := m2 _ _ (var_last v3)
      obtain ⟨a5, e5⟩ := exec_insertHolder_ok (R := R) a4 _ hv
      refine ⟨a5, a4, ?_, stands_of_store m1 s3, exec_insertHolder hv e5⟩
      simp only [Bool.false_eq_true, if_false]
      unfold renamePost
      rw [valueOf_last (var_last v3), Res.ok_bind]
      simp only [Indep.Var.val, hn]
      rw [hr, Res.ok_bind, e4, Res.ok_bind, e5]

theorem sim_rename (drop : Bool) (s : Store.St (Val X)) (a : AStore X) (h : Rep s a) :
    RelR Rep (renameBody drop (storeMachine (fmt R)) s) (renameBody drop (indepMachine (fmt R)) a) := by
  have hS := sim_indep (fmt R)
  unfold renameBody
  refine RelR.bind (R := fun x y => x.1 = y.1 ∧ Rep x.2 y.2) ?_ ?_
  · unfold countGlyphs
    refine (sim_require hS _ h).bind ?_
    rintro ⟨i, s1⟩ ⟨j, a1⟩ ⟨e, h1⟩
    obtain rfl : i = j := e
    refine (sim_valueOf hS i h1).bind ?_
    rintro v _ rfl
    cases v <;> first | exact ⟨rfl, h1⟩ | trivial
  · rintro ⟨n, s1⟩ ⟨_, a1⟩ ⟨e, h1⟩
    obtain rfl : n = _ := e
    refine RelR.bind (R := fun x y => x.1 = y.1 ∧ Rep x.2 y.2) ?_ ?_
    · unfold reversedMap
      refine (sim_access hS _ h1).bind ?_
      rintro ⟨i, s2⟩ ⟨j, a2⟩ ⟨e, h2⟩
      obtain rfl : i = j := e
      cases i with
      | none => exact ⟨rfl, h2⟩
      | some i =>
        refine (sim_valueOf hS i h2).bind ?_
        rintro v _ rfl
        cases v with
        | other t x => cases x <;> first | exact ⟨rfl, h2⟩ | trivial
        | _ => trivial
    · rintro ⟨rev, s2⟩ ⟨_, a2⟩ ⟨e, h2⟩
      obtain rfl : rev = _ := e
      refine (sim_access hS _ h2).bind ?_
      rintro ⟨i, s3⟩ ⟨j, a3⟩ ⟨e, h3⟩
      obtain rfl : i = j := e
      cases i with
      | none => exact h3
      | some i =>
        cases drop with
        | true => exact sim_exec hS _ h3
        | false =>
          simp only [Bool.false_eq_true, if_false]
          unfold renamePost
          refine (sim_valueOf hS i h3).bind ?_
          rintro v _ rfl
          cases v with
          | other t x =>
            cases x with
            | post p =>
              simp only
              cases p.glyphnames with
              | none => trivial
              | some names =>
                simp only
                refine (RelR.eq _).bind ?_
                rintro names' _ rfl
                exact (sim_exec hS _ h3).bind (fun _ _ h4 => sim_exec hS _ h4)
            | _ => trivial
          | _ => trivial

end FT.Cli
