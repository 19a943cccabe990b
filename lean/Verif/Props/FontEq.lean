import Verif.Model.FontEq
import Verif.Props.LoadAll

/-!
C103: when two fonts are equal (`==`).
-/

namespace FT.Props
open FT FT.Store FT.Save FT.Cli FT.Whole

variable {V : Type}

/-! ### Specification -/

/-- What a font has under a tag. -/
inductive Content (V : Type) where
  /-- The bytes of the file, or bytes put in by the caller, which nobody has looked up yet. -/
  | unread (b : Bytes)
  /-- A table that has been looked up, or a value put in by the caller. -/
  | read (v : V)

/-- `s` has content `c` under the tag `t`. -/
def Has (s : Store.St V) (t : Tag) : Content V → Prop
  | .unread b => BMap.get? s.store t = some (.unloaded b)
  | .read v => s.valueAt t = some v

/-- The contents are alike: both unread with the same bytes, or both read with equal values. -/
def Content.Alike (eq : V → V → Prop) : Content V → Content V → Prop
  | .unread a, .unread b => a = b
  | .read v, .read w => eq v w
  | _, _ => False

/-- The same tags, with contents that are alike. -/
def SameContents (eq : V → V → Prop) (s1 s2 : Store.St V) : Prop :=
  ∀ t, ((∃ c, Has s1 t c) ↔ (∃ c, Has s2 t c)) ∧ ∀ c1 c2, Has s1 t c1 → Has s2 t c2 → c1.Alike eq c2

/-! ### Proofs -/

/-- Contents as data. -/
def contentOf (a : Indep.St V) (t : Tag) : Option (Content V) := (a.store t).map fun
  | .unloaded b => .unread b
  | .loaded tb => .read tb.val

theorem has_iff {s : Store.St V} {a : Indep.St V} (h : Rep s a) (t : Tag) (c : Content V) :
    Has s t c ↔ contentOf a t = some c := by
  have hi := h.items t
  unfold contentOf
  cases hs : BMap.get? s.store t with
  | none =>
    rw [hs] at hi
    cases ha : a.store t with
    | none => cases c <;> simp [Has, St.valueAt, hs]
    | some y => rw [ha] at hi; exact hi.elim
  | some x =>
    rw [hs] at hi
    cases ha : a.store t with
    | none => rw [ha] at hi; cases x <;> exact hi.elim
    | some y =>
      rw [ha] at hi
      cases x with
      | unloaded b => cases y with
        | unloaded b' =>
          have e : b = b' := hi
          subst e
          cases c <;> simp [Has, St.valueAt, hs]
        | loaded => exact hi.elim
      | loaded tb => cases y with
        | unloaded => exact hi.elim
        | loaded tb' =>
          have e := hi.2.2
          cases c <;> simp [Has, St.valueAt, hs, e]

/-- Two entries in terms of the values they stand for. -/
theorem same_item (veq : V → V → Bool) {h1 h2 : List V} {x y : Store.Item} {x' y' : Indep.Item V}
    (hx : RepItem h1 (some x) (some x')) (hy : RepItem h2 (some y) (some y')) :
    Item.same veq h1 h2 x y = true ↔ (match x', y' with
      | .unloaded a, .unloaded b => a = b
      | .loaded t, .loaded u => t.tag = u.tag ∧ veq t.val u.val = true
      | _, _ => False) := by
  cases x <;> cases x' <;> cases y <;> cases y' <;> (first | exact hx.elim | exact hy.elim | skip)
  · have e1 := hx; have e2 := hy
    simp only [RepItem] at e1 e2
    subst e1; subst e2
    simp [Item.same]
  · simp [Item.same]
  · simp [Item.same]
  · obtain ⟨a1, _, a3⟩ := hx
    obtain ⟨b1, _, b3⟩ := hy
    simp [Item.same, a1, a3, b1, b3]

/-- Lists compared entry by entry. -/
theorem zip_all {α : Type} (p : α → α → Bool) : ∀ (l m : List α),
    (decide (l.length = m.length) && (l.zip m).all fun x => p x.1 x.2) = true ↔ List.Forall₂ (fun a b => p a b = true) l m
  | [], [] => by simp
  | [], _ :: _ => by simp
  | _ :: _, [] => by simp
  | a :: l, b :: m => by
    have ih := zip_all p l m
    simp only [Bool.and_eq_true, decide_eq_true_eq, List.all_eq_true] at ih
    simp only [List.length_cons, Nat.add_right_cancel_iff, List.zip_cons_cons, List.all_cons, Bool.and_eq_true, decide_eq_true_eq,
      List.all_eq_true, List.forall₂_cons, ← ih]
    tauto

/-- Sorted maps agree entry by entry iff they agree under every key. -/
theorem forall₂_get? {α β : Type} (R : Tag → α → β → Prop) : ∀ {m : List (Tag × α)} {n : List (Tag × β)}, BMap.Sorted m →
    BMap.Sorted n → (List.Forall₂ (fun x y => x.1 = y.1 ∧ R x.1 x.2 y.2) m n ↔
      ∀ t, Option.Rel (R t) (BMap.get? m t) (BMap.get? n t))
  | [], [], _, _ => by simp [BMap.get?, Option.Rel.none]
  | [], y :: n, _, hn => by
    constructor
    · intro h; cases h
    · intro h
      have := h y.1
      rw [(BMap.get?_eq_some hn (k := y.1) (v := y.2)).mpr (by simp)] at this
      cases this
  | x :: m, [], hm, _ => by
    constructor
    · intro h; cases h
    · intro h
      have := h x.1
      rw [(BMap.get?_eq_some hm (k := x.1) (v := x.2)).mpr (by simp)] at this
      cases this
  | (k, x) :: m, (k', y) :: n, hm, hn => by
    rw [List.forall₂_cons, forall₂_get? R hm.tail hn.tail]
    have hgm : ∀ t, BMap.get? ((k, x) :: m) t = if t = k then some x else BMap.get? m t := by
      intro t
      split
      · next e => subst e; exact (BMap.get?_eq_some hm).mpr (by simp)
      · next e =>
        cases hg : BMap.get? m t with
        | none =>
          rw [BMap.get?_eq_none hm]
          intro z hz
          rcases List.mem_cons.mp hz with rfl | hz
          · exact fun e' => e e'.symm
          · exact (BMap.get?_eq_none hm.tail).mp hg z hz
        | some v => exact (BMap.get?_eq_some hm).mpr (List.mem_cons_of_mem _ ((BMap.get?_eq_some hm.tail).mp hg))
    have hgn : ∀ t, BMap.get? ((k', y) :: n) t = if t = k' then some y else BMap.get? n t := by
      intro t
      split
      · next e => subst e; exact (BMap.get?_eq_some hn).mpr (by simp)
      · next e =>
        cases hg : BMap.get? n t with
        | none =>
          rw [BMap.get?_eq_none hn]
          intro z hz
          rcases List.mem_cons.mp hz with rfl | hz
          · exact fun e' => e e'.symm
          · exact (BMap.get?_eq_none hn.tail).mp hg z hz
        | some v => exact (BMap.get?_eq_some hn).mpr (List.mem_cons_of_mem _ ((BMap.get?_eq_some hn.tail).mp hg))
    have hmk : BMap.get? m k = none := BMap.get?_none_of_lt hm.head_lt
    have hnk : BMap.get? n k' = none := BMap.get?_none_of_lt hn.head_lt
    constructor
    · rintro ⟨⟨e, hr⟩, h⟩ t
      simp only at e hr
      subst e
      rw [hgm, hgn]
      split
      · next e => subst e; exact .some hr
      · exact h t
    · intro h
      have hk : k = k' := by
        by_contra hne
        have h1 := h k
        have h2 := h k'
        rw [hgm, hgn, if_pos rfl, if_neg hne] at h1
        rw [hgm, hgn, if_neg (fun e => hne e.symm), if_pos rfl] at h2
        cases e1 : BMap.get? n k with
        | none => rw [e1] at h1; cases h1
        | some v => cases e2 : BMap.get? m k' with
          | none => rw [e2] at h2; cases h2
          | some w =>
            have a1 := hn.head_lt _ ((BMap.get?_eq_some hn.tail).mp e1)
            have a2 := hm.head_lt _ ((BMap.get?_eq_some hm.tail).mp e2)
            have := BMap.lt_asymm a1
            simp only at this a2
            rw [a2] at this
            cases this
      subst hk
      refine ⟨⟨rfl, ?_⟩, ?_⟩
      · have := h k
        rw [hgm, hgn, if_pos rfl, if_pos rfl] at this
        cases this with
        | some h => exact h
      · intro t
        by_cases e : t = k
        · subst e; rw [hmk, hnk]; exact .none
        · have := h t
          rwa [hgm, hgn, if_neg e, if_neg e] at this

/-- Equality in terms of independent values. -/
theorem same_rep (veq : V → V → Bool) {s1 s2 : Store.St V} {a1 a2 : Indep.St V} (h1 : Rep s1 a1) (h2 : Rep s2 a2)
    (t1 : Tagged a1) (t2 : Tagged a2) : s1.same veq s2 = true ↔
      ∀ t, Option.Rel (Content.Alike fun v w => veq v w = true) (contentOf a1 t) (contentOf a2 t) := by
  unfold St.same
  rw [zip_all (fun (x y : Tag × Store.Item) => decide (x.1 = y.1) && Item.same veq s1.heap s2.heap x.2 y.2)]
  have := forall₂_get? (fun _ x y => Item.same veq s1.heap s2.heap x y = true) h1.sorted h2.sorted
  simp only [Bool.and_eq_true, decide_eq_true_eq]
  rw [this]
  refine forall_congr' fun t => ?_
  have i1 := h1.items t
  have i2 := h2.items t
  unfold contentOf
  cases e1 : BMap.get? s1.store t with
  | none =>
    cases f1 : a1.store t with
    | some y => rw [e1, f1] at i1; exact i1.elim
    | none =>
      cases e2 : BMap.get? s2.store t with
      | none =>
        cases f2 : a2.store t with
        | some y => rw [e2, f2] at i2; exact i2.elim
        | none => simp [Option.Rel.none]
      | some x =>
        cases f2 : a2.store t with
        | none => rw [e2, f2] at i2; cases x <;> exact i2.elim
        | some y => constructor <;> intro h <;> cases h
  | some x =>
    cases f1 : a1.store t with
    | none => rw [e1, f1] at i1; cases x <;> exact i1.elim
    | some x' =>
      cases e2 : BMap.get? s2.store t with
      | none =>
        cases f2 : a2.store t with
        | some y => rw [e2, f2] at i2; exact i2.elim
        | none => constructor <;> intro h <;> cases h
      | some y =>
        cases f2 : a2.store t with
        | none => rw [e2, f2] at i2; cases y <;> exact i2.elim
        | some y' =>
          rw [e1, f1] at i1
          rw [e2, f2] at i2
          have key := same_item veq i1 i2
          have g1 := t1 t
          have g2 := t2 t
          simp only [Option.map_some]
          constructor
          · intro h
            cases h with
            | some h =>
              have h := key.mp h
              refine .some ?_
              cases x' <;> cases y' <;> first | exact h.elim | exact h | exact h.2
          · intro h
            cases h with
            | some h =>
              refine .some (key.mpr ?_)
              cases x' <;> cases y' <;> first | exact h.elim | exact h | exact ⟨by rw [g1 _ f1, g2 _ f2], h⟩

theorem contents_iff (eq : V → V → Prop) {s1 s2 : Store.St V} {a1 a2 : Indep.St V} (h1 : Rep s1 a1) (h2 : Rep s2 a2) :
    SameContents eq s1 s2 ↔ ∀ t, Option.Rel (Content.Alike eq) (contentOf a1 t) (contentOf a2 t) := by
  refine forall_congr' fun t => ?_
  simp only [has_iff h1, has_iff h2]
  cases contentOf a1 t with
  | none => cases contentOf a2 t with
    | none => simp [Option.Rel.none]
    | some c => simp
  | some c => cases contentOf a2 t with
    | none => simp
    | some d =>
      simp only [Option.some.injEq, exists_eq', true_and]
      constructor
      · intro h; exact .some (h c d rfl rfl)
      · intro h c' d' e1 e2
        subst e1; subst e2
        cases h with
        | some h => exact h

/-- C103: two table sets are equal exactly if they have the same tags, each with the same unread bytes or with equal read values
in both. -/
theorem C103_equal (P Q : Parser V) (veq : V → V → Bool) (s1 s2 : Store.St V) (h1 : Reachable P s1) (h2 : Reachable Q s2) :
    s1.same veq s2 = true ↔ SameContents (fun v w => veq v w = true) s1 s2 := by
  obtain ⟨a1, r1, t1⟩ := h1.tagged
  obtain ⟨a2, r2, t2⟩ := h2.tagged
  rw [same_rep veq r1 r2 t1 t2, contents_iff _ r1 r2]

/-! #### Equality is an equivalence -/

theorem alike_refl {eq : V → V → Prop} (h : ∀ v, eq v v) : ∀ c : Content V, c.Alike eq c
  | .unread _ => rfl
  | .read v => h v

theorem alike_symm {eq : V → V → Prop} (h : ∀ v w, eq v w → eq w v) : ∀ c d : Content V, c.Alike eq d → d.Alike eq c
  | .unread _, .unread _, e => Eq.symm e
  | .read _, .read _, e => h _ _ e

theorem alike_trans {eq : V → V → Prop} (h : ∀ u v w, eq u v → eq v w → eq u w) :
    ∀ c d e : Content V, c.Alike eq d → d.Alike eq e → c.Alike eq e
  | .unread _, .unread _, .unread _, e, f => Eq.trans e f
  | .read _, .read _, .read _, e, f => h _ _ _ e f

/-- C103: if values are compared by an equivalence, so are fonts. -/
theorem C103_equivalence (P : Parser V) (veq : V → V → Bool) (hv : Equivalence fun v w => veq v w = true) :
    (∀ s, Reachable P s → s.same veq s = true) ∧
    (∀ s1 s2, Reachable P s1 → Reachable P s2 → s1.same veq s2 = true → s2.same veq s1 = true) ∧
    (∀ s1 s2 s3, Reachable P s1 → Reachable P s2 → Reachable P s3 → s1.same veq s2 = true → s2.same veq s3 = true →
      s1.same veq s3 = true) := by
  refine ⟨fun s h => ?_, fun s1 s2 h1 h2 h => ?_, fun s1 s2 s3 h1 h2 h3 h h' => ?_⟩
  · obtain ⟨a, r, t⟩ := h.tagged
    rw [same_rep veq r r t t]
    intro t
    cases contentOf a t with
    | none => exact .none
    | some c => exact .some (alike_refl hv.refl c)
  · obtain ⟨a1, r1, t1⟩ := h1.tagged
    obtain ⟨a2, r2, t2⟩ := h2.tagged
    rw [same_rep veq r1 r2 t1 t2] at h
    rw [same_rep veq r2 r1 t2 t1]
    intro t
    have := h t
    revert this
    cases contentOf a1 t <;> cases contentOf a2 t <;> intro h <;> cases h
    · exact .none
    · next h => exact .some (alike_symm (fun _ _ => hv.symm) _ _ h)
  · obtain ⟨a1, r1, t1⟩ := h1.tagged
    obtain ⟨a2, r2, t2⟩ := h2.tagged
    obtain ⟨a3, r3, t3⟩ := h3.tagged
    rw [same_rep veq r1 r2 t1 t2] at h
    rw [same_rep veq r2 r3 t2 t3] at h'
    rw [same_rep veq r1 r3 t1 t3]
    intro t
    have g := h t
    have g' := h' t
    revert g g'
    cases contentOf a1 t <;> cases contentOf a2 t <;> cases contentOf a3 t <;> intro g g' <;> cases g <;> cases g'
    · exact .none
    · next h h' => exact .some (alike_trans (eq := fun v w => veq v w = true) (fun _ _ _ h1 h2 => hv.trans h1 h2) _ _ _ h h')

/-! #### Looking up a table changes what a font is equal to -/

theorem open_ok {P : Parser V} {s s' : Store.St V} {a : Indep.St V} {t : Tag} {o : Obs V} (h : Rep s a)
    (hs : Store.step P (.open_ t) s = .ok (o, s')) :
    ∃ a1 a' b, Indep.load P 4 t a = .ok (b, a1) ∧ Rep s' a' ∧ (∀ t', contentOf a' t' = contentOf a1 t') ∧
      (o = .done → ∃ v, contentOf a1 t = some (.read v) ∧ lastVar s' = .value v) ∧
      (o = .failed ∧ b = false ∨ o = .absent ∧ b = true ∨ o = .done ∧ b = true) ∧ Indep.step P (.open_ t) a = .ok (o, a') := by
  obtain ⟨a', e, r⟩ := sameOut_ok (sim_step P (.open_ t) h) hs
  have e0 := e
  simp only [Indep.step, Indep.getAs] at e
  cases hl : Indep.load P 4 t a with
  | err => rw [hl] at e; cases e
  | panic => rw [hl] at e; cases e
  | ok x =>
    obtain ⟨b, a1⟩ := x
    rw [hl] at e
    cases b with
    | false => cases e; exact ⟨_, _, false, rfl, r, fun _ => rfl, fun e => (by cases e), .inl ⟨rfl, rfl⟩, e0⟩
    | true =>
      simp only at e
      cases ht : a1.store t with
      | none => rw [ht] at e; cases e; exact ⟨_, _, true, rfl, r, fun _ => rfl, fun e => (by cases e), .inr (.inl ⟨rfl, rfl⟩), e0⟩
      | some y =>
        rw [ht] at e
        cases y with
        | unloaded c => cases e; exact ⟨_, _, true, rfl, r, fun _ => rfl, fun e => (by cases e), .inr (.inl ⟨rfl, rfl⟩), e0⟩
        | loaded tb =>
          cases e
          refine ⟨a1, _, true, rfl, r, fun _ => rfl, fun _ => ⟨tb.val, by simp [contentOf, ht], ?_⟩, .inr (.inr ⟨rfl, rfl⟩), e0⟩
          exact lastVar_push (a := a1) (y := Indep.asCow tb) r

/-- C103: looking up a table that nobody had looked up before makes the font unequal to what it was (and to every font that was
equal to it), although `&Font` is all it needs. -/
theorem C103_lookup_differs (P : Parser V) (veq : V → V → Bool) (s s' : Store.St V) (hs : Reachable P s) (t : Tag) (b : Bytes)
    (hb : Has s t (.unread b)) (h : Store.step P (.open_ t) s = .ok (.done, s')) :
    ∀ s0, Reachable P s0 → s0.same veq s = true → s0.same veq s' = false := by
  intro s0 h0 e
  obtain ⟨a, r, g⟩ := hs.tagged
  obtain ⟨a0, r0, g0⟩ := h0.tagged
  obtain ⟨a1, a', b', hl, r', hc, hd, _, hst⟩ := open_ok r h
  obtain ⟨v, hv, _⟩ := hd rfl
  have g' : Tagged a' := tagged_step P _ g hst
  rw [same_rep veq r0 r g0 g] at e
  cases hh : s0.same veq s' with
  | false => rfl
  | true =>
    rw [same_rep veq r0 r' g0 g'] at hh
    have e1 := e t
    have e2 := hh t
    rw [(has_iff r t _).mp hb] at e1
    rw [hc, hv] at e2
    revert e1 e2
    cases contentOf a0 t with
    | none => intro e1; cases e1
    | some c =>
      intro e1 e2
      cases e1 with
      | some e1 => cases e2 with
        | some e2 => cases c <;> first | exact e1.elim | exact e2.elim

theorem load_read {P : Parser V} {fuel : Nat} {t : Tag} {a : Indep.St V} (h : ∀ b, contentOf a t ≠ some (.unread b)) :
    Indep.load P fuel t a = .ok (true, a) := by
  unfold Indep.load
  cases ht : a.store t with
  | none => rfl
  | some y => cases y with
    | loaded => rfl
    | unloaded b => exact absurd (by simp [contentOf, ht]) (h b)

/-- C103: looking up a table that was read before, or that is absent, leaves the font equal to what it was. -/
theorem C103_lookup_again (P : Parser V) (veq : V → V → Bool) (s s' : Store.St V) (hs : Reachable P s) (t : Tag) (o : Obs V)
    (hb : ∀ b, ¬ Has s t (.unread b)) (h : Store.step P (.open_ t) s = .ok (o, s')) :
    ∀ s0, Reachable P s0 → s0.same veq s' = s0.same veq s := by
  intro s0 h0
  obtain ⟨a, r, g⟩ := hs.tagged
  obtain ⟨a0, r0, g0⟩ := h0.tagged
  obtain ⟨a1, a', b', hl, r', hc, _, _, hst⟩ := open_ok r h
  have g' : Tagged a' := tagged_step P _ g hst
  rw [load_read (fun b e => hb b ((has_iff r t _).mpr e))] at hl
  cases hl
  rw [Bool.eq_iff_iff, same_rep veq r0 r' g0 g', same_rep veq r0 r g0 g]
  simp only [hc]

/-! #### Equal fonts behave alike -/

/-- Results of reading a table which agree. -/
def AgreeRes (veq : V → V → Bool) : Res V → Res V → Prop
  | .ok v, .ok w => veq v w = true
  | .err, .err => True
  | .panic, .panic => True
  | _, _ => False

/-- Reading a table, with equal tables that it depends on, gives equal values. -/
def Respects (P : Parser V) (veq : V → V → Bool) : Prop := ∀ t b d d', Option.Rel (fun v w => veq v w = true) d d' →
  AgreeRes veq (P.parse t b d) (P.parse t b d')

/-- Any parser respects the identity of values. -/
theorem respects_eq [DecidableEq V] (P : Parser V) : Respects P (fun v w => decide (v = w)) := by
  intro t b d d' h
  have e : d = d' := by
    cases h with
    | none => rfl
    | some h => rw [of_decide_eq_true h]
  subst e
  cases P.parse t b d <;> simp [AgreeRes]

abbrev SameIndep (veq : V → V → Bool) (a1 a2 : Indep.St V) : Prop :=
  ∀ t, Option.Rel (Content.Alike fun v w => veq v w = true) (contentOf a1 t) (contentOf a2 t)

def SameLoad (veq : V → V → Bool) : Res (Bool × Indep.St V) → Res (Bool × Indep.St V) → Prop
  | .ok (b, a1), .ok (b', a2) => b = b' ∧ SameIndep veq a1 a2
  | .err, .err => True
  | .panic, .panic => True
  | _, _ => False

theorem contentOf_set (a : Indep.St V) (t t' : Tag) (tb : Indep.Table V) :
    contentOf { a with store := Indep.set a.store t (some (.loaded tb)) } t' =
      if t' = t then some (.read tb.val) else contentOf a t' := by
  simp only [contentOf, Indep.set]
  split <;> rfl

theorem same_finish {P : Parser V} {veq : V → V → Bool} (hP : Respects P veq) {a1 a2 : Indep.St V} (h : SameIndep veq a1 a2)
    (t : Tag) (b : Bytes) {d d' : Option V} (hd : Option.Rel (fun v w => veq v w = true) d d') :
    SameLoad veq (Indep.finish P t b d a1) (Indep.finish P t b d' a2) := by
  have := hP t b d d' hd
  unfold Indep.finish
  revert this
  cases P.parse t b d <;> cases P.parse t b d' <;> intro h' <;> first | exact h'.elim | trivial | skip
  · refine ⟨rfl, fun t' => ?_⟩
    rw [contentOf_set, contentOf_set]
    split
    · exact .some h'
    · exact h t'

theorem same_valueAt {veq : V → V → Bool} {a1 a2 : Indep.St V} (h : SameIndep veq a1 a2) (t : Tag) :
    Option.Rel (fun v w => veq v w = true) (Indep.valueAt a1 t) (Indep.valueAt a2 t) := by
  have := h t
  revert this
  unfold contentOf Indep.valueAt
  cases a1.store t with
  | none => cases a2.store t with
    | none => intro _; exact .none
    | some y => intro h; cases h
  | some x => cases a2.store t with
    | none => intro h; cases h
    | some y =>
      intro h
      cases h with
      | some h => cases x <;> cases y <;> first | exact h.elim | exact .none | exact .some h

theorem same_load {P : Parser V} {veq : V → V → Bool} (hP : Respects P veq) : ∀ (fuel : Nat) (t : Tag) (a1 a2 : Indep.St V),
    SameIndep veq a1 a2 → SameLoad veq (Indep.load P fuel t a1) (Indep.load P fuel t a2) := by
  intro fuel
  induction fuel with
  | zero =>
    intro t a1 a2 h
    have ht := h t
    unfold contentOf at ht
    unfold Indep.load
    revert ht
    cases a1.store t with
    | none => cases a2.store t with
      | none => intro _; exact ⟨rfl, h⟩
      | some y => intro h; cases h
    | some x => cases a2.store t with
      | none => intro h; cases h
      | some y =>
        intro ht
        cases ht with
        | some ht => cases x <;> cases y <;> first | exact ht.elim | exact ⟨rfl, h⟩ | skip
                     next b b' =>
                     obtain rfl : b = b' := ht
                     simp only
                     cases P.dep t with
                     | none => exact same_finish hP h t b .none
                     | some d => trivial
  | succ fuel ih =>
    intro t a1 a2 h
    have ht := h t
    unfold contentOf at ht
    unfold Indep.load
    revert ht
    cases a1.store t with
    | none => cases a2.store t with
      | none => intro _; exact ⟨rfl, h⟩
      | some y => intro h; cases h
    | some x => cases a2.store t with
      | none => intro h; cases h
      | some y =>
        intro ht
        cases ht with
        | some ht => cases x <;> cases y <;> first | exact ht.elim | exact ⟨rfl, h⟩ | skip
                     next b b' =>
                     obtain rfl : b = b' := ht
                     simp only
                     cases P.dep t with
                     | none => exact same_finish hP h t b .none
                     | some d =>
                       simp only
                       have := ih d a1 a2 h
                       revert this
                       cases Indep.load P fuel d a1 with
                       | err => cases Indep.load P fuel d a2 with
                         | err => intro _; trivial
                         | _ => intro h; exact h.elim
                       | panic => cases Indep.load P fuel d a2 with
                         | panic => intro _; trivial
                         | _ => intro h; exact h.elim
                       | ok r => cases Indep.load P fuel d a2 with
                         | err => intro h; exact h.elim
                         | panic => intro h; exact h.elim
                         | ok r' =>
                           obtain ⟨c, s1⟩ := r
                           obtain ⟨c', s2⟩ := r'
                           rintro ⟨rfl, h1⟩
                           cases c with
                           | false => exact ⟨rfl, h1⟩
                           | true =>
                             simp only
                             have hv := same_valueAt h1 d
                             revert hv
                             cases Indep.valueAt s1 d with
                             | none => cases Indep.valueAt s2 d with
                               | none => intro _; exact ⟨rfl, h1⟩
                               | some w => intro h; cases h
                             | some v => cases Indep.valueAt s2 d with
                               | none => intro h; cases h
                               | some w => intro hv; exact same_finish hP h1 t b hv

theorem open_sameIndep {P : Parser V} {veq : V → V → Bool} (hP : Respects P veq) {a1 a2 : Indep.St V} (h : SameIndep veq a1 a2)
    (t : Tag) : (Indep.step P (.open_ t) a1 = .panic ∧ Indep.step P (.open_ t) a2 = .panic) ∨
      (Indep.step P (.open_ t) a1 = .err ∧ Indep.step P (.open_ t) a2 = .err) ∨
      ∃ o a1' a2', Indep.step P (.open_ t) a1 = .ok (o, a1') ∧ Indep.step P (.open_ t) a2 = .ok (o, a2') ∧ SameIndep veq a1' a2' := by
  have := same_load hP 4 t a1 a2 h
  simp only [Indep.step, Indep.getAs]
  revert this
  cases Indep.load P 4 t a1 with
  | err => cases Indep.load P 4 t a2 with
    | err => intro _; exact .inr (.inl ⟨rfl, rfl⟩)
    | _ => intro h; exact h.elim
  | panic => cases Indep.load P 4 t a2 with
    | panic => intro _; exact .inl ⟨rfl, rfl⟩
    | _ => intro h; exact h.elim
  | ok r => cases Indep.load P 4 t a2 with
    | err => intro h; exact h.elim
    | panic => intro h; exact h.elim
    | ok r' =>
      obtain ⟨c, x1⟩ := r
      obtain ⟨c', x2⟩ := r'
      rintro ⟨rfl, h1⟩
      cases c with
      | false => exact .inr (.inr ⟨_, _, _, rfl, rfl, h1⟩)
      | true =>
        simp only
        have ht := h1 t
        unfold contentOf at ht
        revert ht
        cases x1.store t with
        | none => cases x2.store t with
          | none => intro _; exact .inr (.inr ⟨_, _, _, rfl, rfl, h1⟩)
          | some y => intro h; cases h
        | some x => cases x2.store t with
          | none => intro h; cases h
          | some y =>
            intro ht
            cases ht with
            | some ht => cases x <;> cases y <;> first | exact ht.elim | exact .inr (.inr ⟨_, _, _, rfl, rfl, h1⟩)

/-- C103: looking up the same table in two equal fonts has the same outcome in both, gives equal values and leaves the fonts
equal. -/
theorem C103_lookup (P : Parser V) (veq : V → V → Bool) (hP : Respects P veq) (s1 s2 : Store.St V) (h1 : Reachable P s1)
    (h2 : Reachable P s2) (h : s1.same veq s2 = true) (t : Tag) :
    (Store.step P (.open_ t) s1 = .panic ∧ Store.step P (.open_ t) s2 = .panic) ∨
    (Store.step P (.open_ t) s1 = .err ∧ Store.step P (.open_ t) s2 = .err) ∨
    ∃ o s1' s2', Store.step P (.open_ t) s1 = .ok (o, s1') ∧ Store.step P (.open_ t) s2 = .ok (o, s2') ∧
      s1'.same veq s2' = true ∧
      (o = .done → ∃ v w, lastVar s1' = .value v ∧ lastVar s2' = .value w ∧ veq v w = true) := by
  obtain ⟨a1, r1, g1⟩ := h1.tagged
  obtain ⟨a2, r2, g2⟩ := h2.tagged
  rw [same_rep veq r1 r2 g1 g2] at h
  have k1 := sim_step P (.open_ t) r1
  have k2 := sim_step P (.open_ t) r2
  rcases open_sameIndep hP h t with ⟨e1, e2⟩ | ⟨e1, e2⟩ | ⟨o, a1', a2', e1, e2, hs⟩
  · rw [e1] at k1; rw [e2] at k2
    left
    constructor
    · cases hx : Store.step P (.open_ t) s1 <;> rw [hx] at k1 <;> first | rfl | exact k1.elim
    · cases hx : Store.step P (.open_ t) s2 <;> rw [hx] at k2 <;> first | rfl | exact k2.elim
  · rw [e1] at k1; rw [e2] at k2
    right; left
    constructor
    · cases hx : Store.step P (.open_ t) s1 <;> rw [hx] at k1 <;> first | rfl | exact k1.elim
    · cases hx : Store.step P (.open_ t) s2 <;> rw [hx] at k2 <;> first | rfl | exact k2.elim
  · rw [e1] at k1; rw [e2] at k2
    right; right
    cases hx : Store.step P (.open_ t) s1 with
    | err => rw [hx] at k1; exact k1.elim
    | panic => rw [hx] at k1; exact k1.elim
    | ok x => cases hy : Store.step P (.open_ t) s2 with
      | err => rw [hy] at k2; exact k2.elim
      | panic => rw [hy] at k2; exact k2.elim
      | ok y =>
        rw [hx] at k1; rw [hy] at k2
        obtain ⟨o1, s1'⟩ := x
        obtain ⟨o2, s2'⟩ := y
        obtain ⟨rfl, q1⟩ := k1
        obtain ⟨rfl, q2⟩ := k2
        refine ⟨_, s1', s2', rfl, rfl, ?_, ?_⟩
        · rw [same_rep veq q1 q2 (tagged_step P _ g1 e1) (tagged_step P _ g2 e2)]
          exact hs
        · rintro rfl
          obtain ⟨b1, b1', _, _, _, c1, d1, _, e1'⟩ := open_ok r1 hx
          obtain ⟨b2, b2', _, _, _, c2, d2, _, e2'⟩ := open_ok r2 hy
          obtain ⟨v, hv, lv⟩ := d1 rfl
          obtain ⟨w, hw, lw⟩ := d2 rfl
          rw [e1] at e1'; cases e1'
          rw [e2] at e2'; cases e2'
          refine ⟨v, w, lv, lw, ?_⟩
          have := hs t
          rw [c1, c2, hv, hw] at this
          cases this with
          | some h => exact h

/-! #### Whole fonts -/

/-- C103: two fonts are equal exactly if their versions, their tables and the numbers of glyphs that they remember are. -/
theorem C103_font (P Q : Parser (Val More)) (veq : Val More → Val More → Bool) (f g : Whole.Font) (hf : Reachable P f.tables)
    (hg : Reachable Q g.tables) : f.same veq g = true ↔
      f.version = g.version ∧ SameContents (fun v w => veq v w = true) f.tables g.tables ∧ f.numGlyphs = g.numGlyphs := by
  simp only [Whole.Font.same, Bool.and_eq_true, decide_eq_true_eq, C103_equal P Q veq _ _ hf hg, and_assoc]

/-- C103: asking a font for its number of glyphs for the first time makes it unequal to what it was. -/
theorem C103_counting (E : Env) (veq : Val More → Val More → Bool) (f f' : Whole.Font) (n : UInt16) (hn : f.numGlyphs = none)
    (h : f.countOf E = .ok (n, f')) : f.same veq f' = false := by
  unfold Whole.Font.countOf at h
  rw [hn] at h
  simp only at h
  obtain ⟨⟨m, s⟩, _, e⟩ := Res.bind_inv h
  cases e
  simp [Whole.Font.same, hn]

/-! ### Examples -/

/-- A `maxp` table of version 0.5 (300 glyphs). -/
def eqMaxp : Bytes := [0, 0, 0x50, 0, 1, 44]

/-- A font with this table, and one more byte in the second case. -/
abbrev eqFont (more : Bytes) : Tables := Store.fresh [(tagMaxp, eqMaxp ++ more)]

/-- The font after the lookup. -/
def eqRead (more : Bytes) : Tables :=
  ⟨[.maxp ⟨0x8000, .v05 ⟨300⟩⟩], [(tagMaxp, .loaded ⟨tagMaxp, some (eqMaxp ++ more), 0⟩)], [some (.cow tagMaxp 0)]⟩

theorem eqFont_get (more : Bytes) : BMap.get? (eqFont more).store tagMaxp = some (.unloaded (eqMaxp ++ more)) := by
  simp [BMap.get?, Store.fresh, Key.irrefl]

theorem eqFont_reads (E : Env) (more : Bytes) (hm : more = [] ∨ more = [7]) :
    Store.step (parser (Formats E)) (.open_ tagMaxp) (eqFont more) = .ok (.done, eqRead more) := by
  have hp : runAll Tables.readMaxp (eqMaxp ++ more) = .ok ⟨0x8000, .v05 ⟨300⟩⟩ := by
    rcases hm with rfl | rfl
    · exact of_decide_eq_true (p := _ = _) (by decide +kernel)
    · exact of_decide_eq_true (p := _ = _) (by decide +kernel)
  have hd : dep tagMaxp = none := by decide
  have hq : parse (Formats E) tagMaxp (eqMaxp ++ more) none = .ok (.maxp ⟨0x8000, .v05 ⟨300⟩⟩) := by
    unfold parse
    rw [if_neg (by decide), if_neg (by decide), if_pos rfl, hp]
    rfl
  have hg := eqFont_get more
  simp only [Store.step, St.getAs, St.load, hg, parser, hd, St.finish, hq, BMap.get?_insert_self]
  simp [St.push, eqRead, asCow, Store.fresh, BMap.insert, Key.irrefl]

theorem eqFont_reachable (E : Env) (more : Bytes) : Reachable (parser (Formats E)) (eqFont more) :=
  ⟨_, [], [], by simp [BMap.Sorted], rfl⟩

theorem eqRead_reachable (E : Env) (more : Bytes) (hm : more = [] ∨ more = [7]) : Reachable (parser (Formats E)) (eqRead more) :=
  ⟨[(tagMaxp, eqMaxp ++ more)], [.open_ tagMaxp], [.done], by simp [BMap.Sorted], by
    have h := eqFont_reads E more hm
    unfold Store.run
    rw [h]
    rfl⟩

/-- C103: equal fonts may be saved differently. The two fonts differ in a byte behind the fields of `maxp`: they are
unequal at first, become equal when `maxp` is looked up in both, and still write the two different tables. -/
theorem C103_bytes_differ (E : Env) (veq : Val More → Val More → Bool) (hv : ∀ v, veq v v = true) :
    ∃ s1 s2 s1' s2', Reachable (parser (Formats E)) s1 ∧ Reachable (parser (Formats E)) s2 ∧
      Store.step (parser (Formats E)) (.open_ tagMaxp) s1 = .ok (.done, s1') ∧
      Store.step (parser (Formats E)) (.open_ tagMaxp) s2 = .ok (.done, s2') ∧
      s1.same veq s2 = false ∧ s1'.same veq s2' = true ∧
      s1'.write (parser (Formats E)) tagMaxp ≠ s2'.write (parser (Formats E)) tagMaxp := by
  refine ⟨eqFont [], eqFont [7], eqRead [], eqRead [7], eqFont_reachable E _, eqFont_reachable E _, eqFont_reads E _ (.inl rfl),
    eqFont_reads E _ (.inr rfl), rfl, ?_, ?_⟩
  · simp [Store.St.same, eqRead, Item.same, hv]
  · intro h
    have h : Res.ok (eqMaxp ++ []) = Res.ok (eqMaxp ++ [7]) := h
    injection h with h
    exact absurd h (by decide)

/-- The lookup makes the font unequal to what it was. -/
example (E : Env) (veq : Val More → Val More → Bool) :
    (eqFont []).same veq (eqFont []) = true ∧ (eqFont []).same veq (eqRead []) = false := by
  have h0 : (eqFont []).same veq (eqFont []) = true := rfl
  exact ⟨h0, C103_lookup_differs (parser (Formats E)) veq _ _ (eqFont_reachable E []) tagMaxp (eqMaxp ++ []) (eqFont_get [])
    (eqFont_reads E [] (.inl rfl)) _ (eqFont_reachable E []) h0⟩

/-- Two fonts that differ in a byte and are equal after the lookup have the same contents. -/
example (E : Env) (veq : Val More → Val More → Bool) (hv : ∀ v, veq v v = true) :
    SameContents (fun v w => veq v w = true) (eqRead []) (eqRead [7]) :=
  (C103_equal (parser (Formats E)) (parser (Formats E)) veq _ _ (eqRead_reachable E _ (.inl rfl))
    (eqRead_reachable E _ (.inr rfl))).mp (by simp [Store.St.same, eqRead, Item.same, hv])

/-- An equivalence: the identity. -/
example : Equivalence fun v w : Nat => decide (v = w) = true := by
  simpa using (⟨fun _ => rfl, fun h => h.symm, fun h h' => h.trans h'⟩ : Equivalence fun v w : Nat => v = w)

/-- Counting the glyphs of this font makes it unequal to what it was. -/
example (E : Env) (veq : Val More → Val More → Bool) : ∃ f',
    Whole.Font.countOf E ⟨0x10000, eqFont [], none⟩ = .ok (300, f') ∧ Whole.Font.same veq ⟨0x10000, eqFont [], none⟩ f' = false := by
  obtain ⟨s, h⟩ := C97_count E ⟨0x10000, eqFont [], none⟩ rfl _ ⟨_, eqFont_reads E [] (.inl rfl), rfl⟩
  exact ⟨_, h, C103_counting E veq _ _ _ rfl h⟩

end FT.Props
