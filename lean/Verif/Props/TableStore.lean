import Verif.Model.TableStore
import Verif.Lemmas.BTree

/-!
C23: untouched tables are saved unchanged. C24: the table set is a map of independent values.
-/

namespace FT.Props
open FT FT.Store

namespace Indep

/-! ### Specification: every variable and every entry owns its own value

The same operations without any memory: nothing is shared, so that a change through one variable cannot be seen
anywhere else by construction. -/

variable {V : Type}

structure Table (V : Type) where
  tag : Tag
  raw : Option Bytes
  val : V

inductive Item (V : Type) where
  | unloaded (b : Bytes)
  | loaded (t : Table V)

inductive Var (V : Type) where
  | table (t : Table V)
  | cow (tag : Tag) (v : V)

def Var.val : Var V → V
  | .table t => t.val
  | .cow _ v => v

structure St (V : Type) where
  store : Tag → Option (Item V)
  vars : List (Option (Var V))

def set (m : Tag → Option (Item V)) (t : Tag) (x : Option (Item V)) : Tag → Option (Item V) :=
  fun t' => if t' = t then x else m t'

def St.var (a : St V) (i : Nat) : Option (Var V) := (a.vars[i]?).join

def finish (P : Parser V) (t : Tag) (b : Bytes) (d : Option V) (a : St V) : Res (Bool × St V) :=
  match P.parse t b d with
  | .ok v => .ok (true, { a with store := set a.store t (some (.loaded ⟨t, some b, v⟩)) })
  | .err => .ok (false, a)
  | .panic => .panic

def valueAt (a : St V) (t : Tag) : Option V := match a.store t with
  | some (.loaded tb) => some tb.val
  | _ => none

def load (P : Parser V) : Nat → Tag → St V → Res (Bool × St V)
  | fuel, t, a => match a.store t with
    | none => .ok (true, a)
    | some (.loaded _) => .ok (true, a)
    | some (.unloaded b) => match P.dep t with
      | none => finish P t b none a
      | some d => match fuel with
        | 0 => .panic
        | fuel + 1 => match load P fuel d a with
          | .ok (false, a) => .ok (false, a)
          | .ok (true, a) => match valueAt a d with
            | none => .ok (false, a)
            | some v => finish P t b (some v) a
          | .err => .err
          | .panic => .panic

def getAs (P : Parser V) (t : Tag) (wrap : Table V → Var V) (a : St V) : Res (Obs V × St V) :=
  match load P 4 t a with
  | .ok (false, a) => .ok (.failed, a)
  | .ok (true, a) => match a.store t with
    | some (.loaded tb) => .ok (.done, { a with vars := a.vars ++ [some (wrap tb)] })
    | _ => .ok (.absent, a)
  | .err => .err
  | .panic => .panic

def asCow (tb : Table V) : Var V := .cow tb.tag tb.val

def write (P : Parser V) (a : St V) (t : Tag) : Res Bytes := match a.store t with
  | none => .ok []
  | some (.unloaded b) => .ok b
  | some (.loaded tb) => match tb.raw with
    | some b => .ok b
    | none => P.ser tb.val

def read (a : St V) (i : Nat) : Obs V := match a.var i with
  | some h => .value h.val
  | none => .absent

def step (P : Parser V) : Op V → St V → Res (Obs V × St V)
  | .get t, a => getAs P t .table a
  | .open_ t, a => getAs P t asCow a
  | .clone i, a => match a.var i with
    | some h => .ok (.done, { a with vars := a.vars ++ [some h] })
    | none => .ok (.absent, a)
  | .read i, a => .ok (read a i, a)
  | .modify i f, a => match a.var i with
    | some (.cow t v) => .ok (.done, { a with vars := a.vars.set i (some (.cow t (f v))) })
    | _ => .ok (.absent, a)
  | .intoOwned i, a => .ok (read a i, { a with vars := a.vars.set i none })
  | .insertHolder i, a => match a.var i with
    | some (.table tb) => .ok (.done, ⟨set a.store tb.tag (some (.loaded tb)), a.vars.set i none⟩)
    | some (.cow t v) => .ok (.done, ⟨set a.store t (some (.loaded ⟨t, none, v⟩)), a.vars.set i none⟩)
    | none => .ok (.absent, a)
  | .insertNew t v, a => .ok (.done, { a with store := set a.store t (some (.loaded ⟨t, none, v⟩)) })
  | .insertRaw t b, a => .ok (.done, { a with store := set a.store t (some (.unloaded b)) })
  | .remove t, a => match a.store t with
    | some (.loaded tb) => .ok (.done, ⟨set a.store t none, a.vars ++ [some (.table tb)]⟩)
    | some (.unloaded _) => .ok (.absent, { a with store := set a.store t none })
    | none => .ok (.absent, a)
  | .drop i, a => .ok (.done, { a with vars := a.vars.set i none })
  | .write t, a => .ok (.wrote (write P a t), a)

def run (P : Parser V) : List (Op V) → St V → Res (List (Obs V) × St V)
  | [], a => .ok ([], a)
  | op :: ops, a => match step P op a with
    | .ok (o, a) => match run P ops a with
      | .ok (os, a) => .ok (o :: os, a)
      | .err => .err
      | .panic => .panic
    | .err => .err
    | .panic => .panic

/-- A font file: raw tables only. -/
def fresh (tables : List (Tag × Bytes)) : St V := ⟨fun t => (BMap.get? tables t).map .unloaded, []⟩

end Indep

/-! ### The heap implementation behaves like independent values -/

variable {V : Type}

def RepTable (heap : List V) (x : Store.Table) (y : Indep.Table V) : Prop :=
  x.tag = y.tag ∧ x.raw = y.raw ∧ heap[x.ptr]? = some y.val

def RepItem (heap : List V) : Option Store.Item → Option (Indep.Item V) → Prop
  | none, none => True
  | some (.unloaded b), some (.unloaded b') => b = b'
  | some (.loaded x), some (.loaded y) => RepTable heap x y
  | _, _ => False

def RepVar (heap : List V) : Option Store.Holder → Option (Indep.Var V) → Prop
  | none, none => True
  | some (.table x), some (.table y) => RepTable heap x y
  | some (.cow t p), some (.cow t' v) => t = t' ∧ heap[p]? = some v
  | _, _ => False

/-- The state of the implementation represents a state of the specification. -/
structure Rep (s : Store.St V) (a : Indep.St V) : Prop where
  sorted : BMap.Sorted s.store
  items : ∀ t, RepItem s.heap (BMap.get? s.store t) (a.store t)
  len : s.holders.length = a.vars.length
  vars : ∀ i, RepVar s.heap (s.holder i) (a.var i)

theorem getElem?_append_some {α : Type} {l m : List α} {i : Nat} {x : α} (h : l[i]? = some x) :
    (l ++ m)[i]? = some x := by
  have := (List.getElem?_eq_some_iff.mp h).1
  rw [List.getElem?_append_left this, h]

theorem RepTable.push {heap : List V} {x : Store.Table} {y : Indep.Table V} (h : RepTable heap x y) (m : List V) :
    RepTable (heap ++ m) x y := ⟨h.1, h.2.1, getElem?_append_some h.2.2⟩

theorem RepItem.push {heap : List V} {x : Option Store.Item} {y : Option (Indep.Item V)} (h : RepItem heap x y)
    (m : List V) : RepItem (heap ++ m) x y := by
  match x, y, h with
  | none, none, _ => trivial
  | some (.unloaded b), some (.unloaded b'), h => exact h
  | some (.loaded x), some (.loaded y), h => exact RepTable.push h m

theorem RepVar.push {heap : List V} {x : Option Store.Holder} {y : Option (Indep.Var V)} (h : RepVar heap x y)
    (m : List V) : RepVar (heap ++ m) x y := by
  match x, y, h with
  | none, none, _ => trivial
  | some (.table x), some (.table y), h => exact RepTable.push h m
  | some (.cow _ _), some (.cow _ _), h => exact ⟨h.1, getElem?_append_some h.2⟩

theorem Rep.grow {s : Store.St V} {a : Indep.St V} (h : Rep s a) (m : List V) :
    Rep { s with heap := s.heap ++ m } a :=
  ⟨h.sorted, fun t => (h.items t).push m, h.len, fun i => (h.vars i).push m⟩

theorem Rep.insert {s : Store.St V} {a : Indep.St V} (h : Rep s a) (t : Tag) {x : Store.Item} {y : Indep.Item V}
    (hxy : RepItem s.heap (some x) (some y)) :
    Rep { s with store := BMap.insert s.store t x } { a with store := Indep.set a.store t (some y) } := by
  refine ⟨BMap.insert_sorted h.sorted _ _, ?_, h.len, h.vars⟩
  intro t'
  simp only [BMap.get?_insert, Indep.set]
  split
  · exact hxy
  · exact h.items t'

theorem erase_sorted {α : Type} {m : List (Tag × α)} (h : BMap.Sorted m) (t : Tag) : BMap.Sorted (erase m t) :=
  List.Pairwise.filter _ h

theorem get?_erase {α : Type} {m : List (Tag × α)} (h : BMap.Sorted m) (t t' : Tag) :
    BMap.get? (erase m t) t' = if t' = t then none else BMap.get? m t' := by
  split
  · next e =>
    subst e
    rw [BMap.get?_eq_none (erase_sorted h _)]
    intro x hx
    simp only [erase, List.mem_filter, decide_eq_true_eq] at hx
    exact hx.2
  · next e =>
    cases hg : BMap.get? m t' with
    | none =>
      rw [BMap.get?_eq_none h] at hg
      rw [BMap.get?_eq_none (erase_sorted h _)]
      intro x hx
      exact hg x (List.mem_filter.mp hx).1
    | some v =>
      rw [BMap.get?_eq_some h] at hg
      rw [BMap.get?_eq_some (erase_sorted h _)]
      exact List.mem_filter.mpr ⟨hg, by simpa using e⟩

theorem Rep.erase {s : Store.St V} {a : Indep.St V} (h : Rep s a) (t : Tag) :
    Rep { s with store := Store.erase s.store t } { a with store := Indep.set a.store t none } := by
  refine ⟨erase_sorted h.sorted t, ?_, h.len, h.vars⟩
  intro t'
  simp only [get?_erase h.sorted, Indep.set]
  split
  · trivial
  · exact h.items t'

theorem join_append {α : Type} (l : List (Option α)) (x : Option α) (i : Nat) :
    ((l ++ [x])[i]?).join = if i = l.length then x else (l[i]?).join := by
  split
  · next e => subst e; simp
  · next e =>
    rcases Nat.lt_or_ge i l.length with h | h
    · rw [List.getElem?_append_left h]
    · have h1 : l[i]? = none := List.getElem?_eq_none h
      have h2 : (l ++ [x])[i]? = none := List.getElem?_eq_none (by simp; omega)
      rw [h1, h2]

theorem join_set {α : Type} (l : List (Option α)) (x : Option α) (i j : Nat) :
    ((l.set i x)[j]?).join = if j = i ∧ i < l.length then x else (l[j]?).join := by
  rw [List.getElem?_set]
  by_cases h : i = j
  · subst h
    by_cases h2 : i < l.length
    · simp [h2]
    · simp [h2]
  · rw [if_neg h, if_neg (by intro ⟨e, _⟩; exact h e.symm)]

theorem Rep.push {s : Store.St V} {a : Indep.St V} (h : Rep s a) {x : Option Store.Holder} {y : Option (Indep.Var V)}
    (hxy : RepVar s.heap x y) : Rep (s.push x) { a with vars := a.vars ++ [y] } := by
  refine ⟨h.sorted, h.items, by simp [St.push, h.len], ?_⟩
  intro i
  simp only [St.holder, St.push, Indep.St.var, join_append, h.len]
  split
  · exact hxy
  · exact h.vars i

theorem Rep.setVar {s : Store.St V} {a : Indep.St V} (h : Rep s a) (i : Nat) {x : Option Store.Holder}
    {y : Option (Indep.Var V)} (hxy : RepVar s.heap x y) :
    Rep (s.setHolder i x) { a with vars := a.vars.set i y } := by
  refine ⟨h.sorted, h.items, by simp [St.setHolder, h.len], ?_⟩
  intro j
  simp only [St.holder, St.setHolder, Indep.St.var, join_set, h.len]
  split
  · exact hxy
  · exact h.vars j

/-- Outcomes that correspond. -/
def SameOut {α : Type} : Res (α × Store.St V) → Res (α × Indep.St V) → Prop
  | .ok (o, s), .ok (o', a) => o = o' ∧ Rep s a
  | .err, .err => True
  | .panic, .panic => True
  | _, _ => False

theorem sim_finish (P : Parser V) {s : Store.St V} {a : Indep.St V} (h : Rep s a) (t : Tag) (b : Bytes)
    (d : Option V) : SameOut (s.finish P t b d) (Indep.finish P t b d a) := by
  unfold St.finish Indep.finish
  cases P.parse t b d with
  | err => exact ⟨rfl, h⟩
  | panic => trivial
  | ok v =>
    refine ⟨rfl, ?_⟩
    exact (h.grow [v]).insert t ⟨rfl, rfl, by simp⟩

theorem sim_valueAt {s : Store.St V} {a : Indep.St V} (h : Rep s a) (t : Tag) :
    s.valueAt t = Indep.valueAt a t := by
  have := h.items t
  unfold St.valueAt Indep.valueAt
  revert this
  cases BMap.get? s.store t with
  | none => cases a.store t with
    | none => intro _; rfl
    | some y => intro h; exact h.elim
  | some x => cases x with
    | unloaded b => cases a.store t with
      | none => intro h; exact h.elim
      | some y => cases y with
        | unloaded => intro _; rfl
        | loaded => intro h; exact h.elim
    | loaded tb => cases a.store t with
      | none => intro h; exact h.elim
      | some y => cases y with
        | unloaded => intro h; exact h.elim
        | loaded => intro h; exact h.2.2

theorem sim_load (P : Parser V) : ∀ (fuel : Nat) {s : Store.St V} {a : Indep.St V} (_ : Rep s a) (t : Tag),
    SameOut (s.load P fuel t) (Indep.load P fuel t a) := by
  intro fuel
  induction fuel with
  | zero =>
    intro s a h t
    have hi := h.items t
    unfold St.load Indep.load
    revert hi
    cases BMap.get? s.store t with
    | none => cases a.store t with
      | none => intro _; exact ⟨rfl, h⟩
      | some y => intro h; exact h.elim
    | some x => cases x with
      | unloaded b => cases a.store t with
        | none => intro h; exact h.elim
        | some y => cases y with
          | loaded => intro h; exact h.elim
          | unloaded b' =>
            intro hb
            obtain rfl : b = b' := hb
            simp only
            cases P.dep t with
            | none => exact sim_finish P h t b none
            | some d => trivial
      | loaded tb => cases a.store t with
        | none => intro h; exact h.elim
        | some y => cases y with
          | unloaded => intro h; exact h.elim
          | loaded => intro _; exact ⟨rfl, h⟩
  | succ fuel ih =>
    intro s a h t
    have hi := h.items t
    unfold St.load Indep.load
    revert hi
    cases BMap.get? s.store t with
    | none => cases a.store t with
      | none => intro _; exact ⟨rfl, h⟩
      | some y => intro h; exact h.elim
    | some x => cases x with
      | loaded tb => cases a.store t with
        | none => intro h; exact h.elim
        | some y => cases y with
          | unloaded => intro h; exact h.elim
          | loaded => intro _; exact ⟨rfl, h⟩
      | unloaded b => cases a.store t with
        | none => intro h; exact h.elim
        | some y => cases y with
          | loaded => intro h; exact h.elim
          | unloaded b' =>
            intro hb
            obtain rfl : b = b' := hb
            simp only
            cases P.dep t with
            | none => exact sim_finish P h t b none
            | some d =>
              simp only
              have := ih h d
              revert this
              cases St.load P fuel d s with
              | err => cases Indep.load P fuel d a with
                | err => intro _; trivial
                | _ => intro h; exact h.elim
              | panic => cases Indep.load P fuel d a with
                | panic => intro _; trivial
                | _ => intro h; exact h.elim
              | ok r => cases Indep.load P fuel d a with
                | err => intro h; exact h.elim
                | panic => intro h; exact h.elim
                | ok r' =>
                  obtain ⟨c, s1⟩ := r
                  obtain ⟨c', a1⟩ := r'
                  rintro ⟨rfl, h1⟩
                  cases c with
                  | false => exact ⟨rfl, h1⟩
                  | true =>
                    simp only
                    rw [sim_valueAt h1 d]
                    cases Indep.valueAt a1 d with
                    | none => exact ⟨rfl, h1⟩
                    | some v => exact sim_finish P h1 t b (some v)

theorem sim_getAs (P : Parser V) {s : Store.St V} {a : Indep.St V} (h : Rep s a) (t : Tag)
    (w : Store.Table → Holder) (w' : Indep.Table V → Indep.Var V)
    (hw : ∀ heap x y, RepTable heap x y → RepVar heap (some (w x)) (some (w' y))) :
    SameOut (s.getAs P t w) (Indep.getAs P t w' a) := by
  have := sim_load P 4 h t
  unfold St.getAs Indep.getAs
  revert this
  cases St.load P 4 t s with
  | err => cases Indep.load P 4 t a with
    | err => intro _; trivial
    | _ => intro h; exact h.elim
  | panic => cases Indep.load P 4 t a with
    | panic => intro _; trivial
    | _ => intro h; exact h.elim
  | ok r => cases Indep.load P 4 t a with
    | err => intro h; exact h.elim
    | panic => intro h; exact h.elim
    | ok r' =>
      obtain ⟨c, s1⟩ := r
      obtain ⟨c', a1⟩ := r'
      rintro ⟨rfl, h1⟩
      cases c with
      | false => exact ⟨rfl, h1⟩
      | true =>
        simp only
        have hi := h1.items t
        revert hi
        cases BMap.get? s1.store t with
        | none => cases a1.store t with
          | none => intro _; exact ⟨rfl, h1⟩
          | some y => intro h; exact h.elim
        | some x => cases x with
          | unloaded b => cases a1.store t with
            | none => intro h; exact h.elim
            | some y => cases y with
              | loaded => intro h; exact h.elim
              | unloaded => intro _; exact ⟨rfl, h1⟩
          | loaded tb => cases a1.store t with
            | none => intro h; exact h.elim
            | some y => cases y with
              | unloaded => intro h; exact h.elim
              | loaded tb' => intro hr; exact ⟨rfl, h1.push (hw _ _ _ hr)⟩

/-! #### Unique references -/

theorem two_le_countP {α : Type} {p : α → Bool} : ∀ (l : List α) (i j : Nat) {a b : α}, i ≠ j → l[i]? = some a →
    l[j]? = some b → p a = true → p b = true → 2 ≤ l.countP p
  | [], i, _, _, _, _, h, _, _, _ => by simp at h
  | x :: l, 0, 0, _, _, hij, _, _, _, _ => absurd rfl hij
  | x :: l, 0, j + 1, a, b, _, ha, hb, pa, pb => by
    simp only [List.getElem?_cons_zero, Option.some.injEq] at ha
    simp only [List.getElem?_cons_succ] at hb
    subst ha
    have : 0 < l.countP p := List.countP_pos_iff.mpr ⟨b, List.mem_of_getElem? hb, pb⟩
    rw [List.countP_cons, if_pos pa]; omega
  | x :: l, i + 1, 0, a, b, _, ha, hb, pa, pb => by
    simp only [List.getElem?_cons_zero, Option.some.injEq] at hb
    simp only [List.getElem?_cons_succ] at ha
    subst hb
    have : 0 < l.countP p := List.countP_pos_iff.mpr ⟨a, List.mem_of_getElem? ha, pa⟩
    rw [List.countP_cons, if_pos pb]; omega
  | x :: l, i + 1, j + 1, a, b, hij, ha, hb, pa, pb => by
    have := two_le_countP l i j (by omega) (by simpa using ha) (by simpa using hb) pa pb
    rw [List.countP_cons]; omega

theorem count_holders (p : Nat) : ∀ l : List (Option Holder),
    (l.flatMap holderRefs).count p = l.countP (fun h => decide (h.map Holder.ptr = some p))
  | [] => rfl
  | none :: l => by
    rw [List.flatMap_cons, List.count_append, count_holders p l, List.countP_cons]
    simp [holderRefs]
  | some h :: l => by
    rw [List.flatMap_cons, List.count_append, count_holders p l, List.countP_cons]
    by_cases e : h.ptr = p
    · simp [holderRefs, e]; omega
    · simp [holderRefs, e]

theorem join_eq_some {α : Type} {l : List (Option α)} {i : Nat} {x : α} (h : (l[i]?).join = some x) :
    l[i]? = some (some x) := by
  cases hh : l[i]? with
  | none => rw [hh] at h; cases h
  | some y => rw [hh] at h; simp at h; rw [h]

/-- If variable `i` is the only reference to `p`, no other variable and no entry refers to `p`. -/
theorem unique_ref {s : Store.St V} {i p : Nat} {h : Holder} (hi : s.holder i = some h) (hp : h.ptr = p)
    (hc : s.count p = 1) :
    (∀ j h', j ≠ i → s.holder j = some h' → h'.ptr ≠ p) ∧ (∀ x ∈ s.store, p ∉ x.2.refs) := by
  unfold St.count St.refs at hc
  rw [List.count_append, count_holders] at hc
  have h1 := join_eq_some hi
  have hpos : 0 < s.holders.countP (fun h => decide (h.map Holder.ptr = some p)) :=
    List.countP_pos_iff.mpr ⟨_, List.mem_of_getElem? h1, by simp [hp]⟩
  constructor
  · intro j h' hj hh' e
    have h2 := join_eq_some hh'
    have := two_le_countP (p := fun h : Option Holder => decide (h.map Holder.ptr = some p)) s.holders i j
      (Ne.symm hj) h1 h2 (by simp [hp]) (by simp [e])
    omega
  · intro x hx hmem
    have : 0 < (s.store.flatMap (fun x => x.2.refs)).count p :=
      List.count_pos_iff.mpr (List.mem_flatMap.mpr ⟨x, hx, hmem⟩)
    omega

theorem RepTable.write {heap : List V} {x : Store.Table} {y : Indep.Table V} (h : RepTable heap x y) {p : Nat}
    (hp : x.ptr ≠ p) (v : V) : RepTable (heap.set p v) x y :=
  ⟨h.1, h.2.1, by rw [List.getElem?_set_ne (Ne.symm hp)]; exact h.2.2⟩

theorem sim_modify {s : Store.St V} {a : Indep.St V} (h : Rep s a) (P : Parser V) (i : Nat) (f : V → V) :
    SameOut (s.modify i f) (Indep.step P (.modify i f) a) := by
  have hv := h.vars i
  unfold St.modify Indep.step
  simp only
  cases hs : s.holder i with
  | none =>
    rw [hs] at hv
    cases ha : a.var i with
    | none => exact ⟨rfl, h⟩
    | some y => rw [ha] at hv; exact hv.elim
  | some hd =>
    rw [hs] at hv
    cases ha : a.var i with
    | none => rw [ha] at hv; cases hd <;> exact hv.elim
    | some y =>
      rw [ha] at hv
      cases hd with
      | table tb =>
        cases y with
        | table tb' => exact ⟨rfl, h⟩
        | cow => exact hv.elim
      | cow t p =>
        cases y with
        | table => exact hv.elim
        | cow t' v =>
          obtain ⟨rfl, hp⟩ := hv
          simp only [hp]
          have hil : i < s.holders.length := (List.getElem?_eq_some_iff.mp (join_eq_some hs)).1
          have hplt : p < s.heap.length := (List.getElem?_eq_some_iff.mp hp).1
          by_cases hc : s.count p = 1
          · rw [if_pos hc]
            refine ⟨rfl, ?_⟩
            obtain ⟨u1, u2⟩ := unique_ref (p := p) hs rfl hc
            refine ⟨h.sorted, ?_, by simp [h.len], ?_⟩
            · intro t'
              have hi := h.items t'
              simp only
              cases hg : BMap.get? s.store t' with
              | none =>
                rw [hg] at hi
                revert hi
                cases a.store t' <;> exact id
              | some x =>
                rw [hg] at hi
                have hmem := (BMap.get?_eq_some h.sorted).mp hg
                cases x with
                | unloaded b =>
                  revert hi
                  cases a.store t' with
                  | none => exact id
                  | some y => cases y <;> exact id
                | loaded tb =>
                  have hne : tb.ptr ≠ p := by
                    intro e
                    exact u2 _ hmem (by simp [Item.refs, e])
                  cases hy : a.store t' with
                  | none => rw [hy] at hi; exact hi.elim
                  | some y =>
                    rw [hy] at hi
                    cases y with
                    | unloaded => exact hi.elim
                    | loaded tb' => exact RepTable.write hi hne _
            · intro j
              have hj := h.vars j
              show RepVar _ (s.holder j) _
              simp only [Indep.St.var, join_set, ← h.len]
              by_cases e : j = i
              · subst e
                rw [if_pos ⟨rfl, hil⟩, hs]
                exact ⟨rfl, by simp [hplt]⟩
              · rw [if_neg (by simp [e])]
                cases hh : s.holder j with
                | none =>
                  rw [hh] at hj
                  revert hj
                  show RepVar _ none (a.var j) → RepVar _ none (a.var j)
                  cases a.var j <;> exact id
                | some hd =>
                  have hne := u1 j hd e hh
                  rw [hh] at hj
                  cases hy : a.var j with
                  | none => rw [hy] at hj; cases hd <;> exact hj.elim
                  | some y =>
                    have hy' : (a.vars[j]?).join = some y := hy
                    rw [hy'] 
                    rw [hy] at hj
                    cases hd with
                    | table tb =>
                      cases y with
                      | table => exact RepTable.write hj hne _
                      | cow => exact hj.elim
                    | cow t2 q =>
                      cases y with
                      | table => exact hj.elim
                      | cow =>
                        refine ⟨hj.1, ?_⟩
                        rw [List.getElem?_set_ne (Ne.symm (show q ≠ p from hne))]
                        exact hj.2
          · rw [if_neg hc]
            refine ⟨rfl, ?_⟩
            exact (h.grow [f v]).setVar i (x := some (.cow t s.heap.length)) (y := some (.cow t (f v)))
              ⟨rfl, by simp⟩

theorem sim_read {s : Store.St V} {a : Indep.St V} (h : Rep s a) (i : Nat) : s.read i = Indep.read a i := by
  have hv := h.vars i
  unfold St.read Indep.read
  cases hs : s.holder i with
  | none =>
    rw [hs] at hv
    cases ha : a.var i with
    | none => rfl
    | some y => rw [ha] at hv; exact hv.elim
  | some hd =>
    rw [hs] at hv
    cases ha : a.var i with
    | none => rw [ha] at hv; cases hd <;> exact hv.elim
    | some y =>
      rw [ha] at hv
      cases hd with
      | table tb => cases y with
        | table tb' => simp only [Holder.ptr, hv.2.2, Indep.Var.val]
        | cow => exact hv.elim
      | cow t p => cases y with
        | table => exact hv.elim
        | cow => simp only [Holder.ptr, hv.2, Indep.Var.val]

theorem sim_write {s : Store.St V} {a : Indep.St V} (h : Rep s a) (P : Parser V) (t : Tag) :
    s.write P t = Indep.write P a t := by
  have hv := h.items t
  unfold St.write Indep.write
  cases hs : BMap.get? s.store t with
  | none =>
    rw [hs] at hv
    cases ha : a.store t with
    | none => rfl
    | some y => rw [ha] at hv; exact hv.elim
  | some x =>
    rw [hs] at hv
    cases ha : a.store t with
    | none => rw [ha] at hv; cases x <;> exact hv.elim
    | some y =>
      rw [ha] at hv
      cases x with
      | unloaded b => cases y with
        | unloaded b' => simp only; rw [show b = b' from hv]
        | loaded => exact hv.elim
      | loaded tb => cases y with
        | unloaded => exact hv.elim
        | loaded tb' =>
          simp only [hv.2.1, hv.2.2]
          cases tb'.raw <;> rfl

theorem sim_step (P : Parser V) (op : Op V) {s : Store.St V} {a : Indep.St V} (h : Rep s a) :
    SameOut (Store.step P op s) (Indep.step P op a) := by
  cases op with
  | get t => exact sim_getAs P h t _ _ (fun _ _ _ h => h)
  | open_ t => exact sim_getAs P h t _ _ (fun _ _ _ h => ⟨h.1, h.2.2⟩)
  | clone i =>
    have hv := h.vars i
    unfold Store.step Indep.step
    simp only
    cases hs : s.holder i with
    | none =>
      rw [hs] at hv
      cases ha : a.var i with
      | none => exact ⟨rfl, h⟩
      | some y => rw [ha] at hv; exact hv.elim
    | some hd =>
      rw [hs] at hv
      cases ha : a.var i with
      | none => rw [ha] at hv; cases hd <;> exact hv.elim
      | some y => rw [ha] at hv; exact ⟨rfl, h.push hv⟩
  | read i => exact ⟨sim_read h i, h⟩
  | modify i f => exact sim_modify h P i f
  | intoOwned i => exact ⟨sim_read h i, h.setVar i trivial⟩
  | insertHolder i =>
    have hv := h.vars i
    unfold Store.step Indep.step St.insertHolder
    simp only
    cases hs : s.holder i with
    | none =>
      rw [hs] at hv
      cases ha : a.var i with
      | none => exact ⟨rfl, h⟩
      | some y => rw [ha] at hv; exact hv.elim
    | some hd =>
      rw [hs] at hv
      cases ha : a.var i with
      | none => rw [ha] at hv; cases hd <;> exact hv.elim
      | some y =>
        rw [ha] at hv
        cases hd with
        | table tb => cases y with
          | table tb' =>
            obtain ⟨e1, e2, e3⟩ := hv
            simp only [← e1]
            exact ⟨rfl, (h.insert tb.tag (x := .loaded tb) (y := .loaded tb') ⟨e1, e2, e3⟩).setVar i trivial⟩
          | cow => exact hv.elim
        | cow t p => cases y with
          | table => exact hv.elim
          | cow t' v =>
            obtain ⟨rfl, e⟩ := hv
            exact ⟨rfl, (h.insert t (x := .loaded ⟨t, none, p⟩) (y := .loaded ⟨t, none, v⟩)
              ⟨rfl, rfl, e⟩).setVar i trivial⟩
  | insertNew t v => exact ⟨rfl, (h.grow [v]).insert t ⟨rfl, rfl, by simp⟩⟩
  | insertRaw t b => exact ⟨rfl, h.insert t rfl⟩
  | remove t =>
    have hv := h.items t
    unfold Store.step Indep.step
    simp only
    cases hs : BMap.get? s.store t with
    | none =>
      rw [hs] at hv
      cases ha : a.store t with
      | none => exact ⟨rfl, h⟩
      | some y => rw [ha] at hv; exact hv.elim
    | some x =>
      rw [hs] at hv
      cases ha : a.store t with
      | none => rw [ha] at hv; cases x <;> exact hv.elim
      | some y =>
        rw [ha] at hv
        cases x with
        | unloaded b => cases y with
          | unloaded b' => exact ⟨rfl, h.erase t⟩
          | loaded => exact hv.elim
        | loaded tb => cases y with
          | unloaded => exact hv.elim
          | loaded tb' => exact ⟨rfl, (h.erase t).push (x := some (.table tb)) (y := some (.table tb')) hv⟩
  | drop i => exact ⟨rfl, h.setVar i trivial⟩
  | write t => exact ⟨by rw [sim_write h P t], h⟩

theorem sim_run (P : Parser V) : ∀ (ops : List (Op V)) {s : Store.St V} {a : Indep.St V} (_ : Rep s a),
    SameOut (Store.run P ops s) (Indep.run P ops a)
  | [], s, a, h => ⟨rfl, h⟩
  | op :: ops, s, a, h => by
    have h1 := sim_step P op h
    unfold Store.run Indep.run
    revert h1
    cases Store.step P op s with
    | err => cases Indep.step P op a with
      | err => intro _; trivial
      | _ => intro h; exact h.elim
    | panic => cases Indep.step P op a with
      | panic => intro _; trivial
      | _ => intro h; exact h.elim
    | ok r => cases Indep.step P op a with
      | err => intro h; exact h.elim
      | panic => intro h; exact h.elim
      | ok r' =>
        obtain ⟨o, s1⟩ := r
        obtain ⟨o', a1⟩ := r'
        rintro ⟨rfl, h1⟩
        simp only
        have h2 := sim_run P ops h1
        revert h2
        cases Store.run P ops s1 with
        | err => cases Indep.run P ops a1 with
          | err => intro _; trivial
          | _ => intro h; exact h.elim
        | panic => cases Indep.run P ops a1 with
          | panic => intro _; trivial
          | _ => intro h; exact h.elim
        | ok q => cases Indep.run P ops a1 with
          | err => intro h; exact h.elim
          | panic => intro h; exact h.elim
          | ok q' =>
            obtain ⟨os, s2⟩ := q
            obtain ⟨os', a2⟩ := q'
            rintro ⟨rfl, h2⟩
            exact ⟨rfl, h2⟩

theorem rep_fresh (tables : List (Tag × Bytes)) (hs : BMap.Sorted tables) :
    Rep (Store.fresh tables : Store.St V) (Indep.fresh tables) := by
  have hg : ∀ (l : List (Tag × Bytes)) (t : Tag),
      BMap.get? (l.map (fun x => (x.1, Store.Item.unloaded x.2))) t = (BMap.get? l t).map Store.Item.unloaded := by
    intro l t
    induction l with
    | nil => rfl
    | cons x l ih =>
      simp only [List.map_cons, BMap.get?]
      split
      · rfl
      · split
        · exact ih
        · rfl
  refine ⟨?_, ?_, rfl, ?_⟩
  · exact List.pairwise_map.mpr hs
  · intro t
    simp only [Store.fresh, Indep.fresh, hg]
    cases BMap.get? tables t with
    | none => trivial
    | some b => rfl
  · intro i
    simp [Store.fresh, Indep.fresh, St.holder, Indep.St.var, RepVar]

/-- **C24.** For every history of operations on a font, everything a caller observes is as if each variable and each
entry of the table set owned an independent copy of its value: sharing and copy-on-write are invisible. -/
theorem C24_sharing_invisible (P : Parser V) (tables : List (Tag × Bytes)) (hs : BMap.Sorted tables)
    (ops : List (Op V)) :
    (∃ os s a, Store.run P ops (Store.fresh tables) = .ok (os, s) ∧ Indep.run P ops (Indep.fresh tables) = .ok (os, a)) ∨
    (Store.run P ops (Store.fresh tables) = .panic ∧ Indep.run P ops (Indep.fresh tables) = .panic) ∨
    (Store.run P ops (Store.fresh tables) = .err ∧ Indep.run P ops (Indep.fresh tables) = .err) := by
  have h := sim_run P ops (rep_fresh (V := V) tables hs)
  revert h
  cases Store.run P ops (Store.fresh tables) with
  | err => cases Indep.run P ops (Indep.fresh tables) with
    | err => intro _; exact .inr (.inr ⟨rfl, rfl⟩)
    | _ => intro h; exact h.elim
  | panic => cases Indep.run P ops (Indep.fresh tables) with
    | panic => intro _; exact .inr (.inl ⟨rfl, rfl⟩)
    | _ => intro h; exact h.elim
  | ok r => cases Indep.run P ops (Indep.fresh tables) with
    | err => intro h; exact h.elim
    | panic => intro h; exact h.elim
    | ok r' =>
      rintro ⟨e, _⟩
      obtain ⟨os, s⟩ := r
      obtain ⟨os', a⟩ := r'
      simp only at e
      subst e
      exact .inl ⟨os, s, a, rfl, rfl⟩

/-- States that some history of operations on some font file leads to. -/
def Reachable (P : Parser V) (s : Store.St V) : Prop :=
  ∃ tables ops os, BMap.Sorted tables ∧ Store.run P ops (Store.fresh tables) = .ok (os, s)

theorem Reachable.rep {P : Parser V} {s : Store.St V} (h : Reachable P s) : ∃ a, Rep s a := by
  obtain ⟨tables, ops, os, hs, hr⟩ := h
  have h := sim_run P ops (rep_fresh (V := V) tables hs)
  rw [hr] at h
  cases ha : Indep.run P ops (Indep.fresh tables) with
  | err => rw [ha] at h; exact h.elim
  | panic => rw [ha] at h; exact h.elim
  | ok r => rw [ha] at h; exact ⟨r.2, h.2⟩

theorem sameOut_ok {α : Type} {r : Res (α × Store.St V)} {r' : Res (α × Indep.St V)} (h : SameOut r r')
    {o : α} {s : Store.St V} (hr : r = .ok (o, s)) : ∃ a, r' = .ok (o, a) ∧ Rep s a := by
  subst hr
  cases r' with
  | err => exact h.elim
  | panic => exact h.elim
  | ok x =>
    obtain ⟨o', a⟩ := x
    obtain ⟨rfl, h⟩ := h
    exact ⟨a, rfl, h⟩

/-- **C24.** Modifying a table through one variable changes the value of that variable as intended, and changes
neither the value of any other variable nor any table of the font nor what would be saved. -/
theorem C24_modify_local (P : Parser V) (s s' : Store.St V) (hs : Reachable P s) (i : Nat) (f : V → V) (o : Obs V)
    (h : Store.step P (.modify i f) s = .ok (o, s')) :
    (∀ j, j ≠ i → s'.read j = s.read j) ∧ (∀ t, s'.valueAt t = s.valueAt t) ∧ (∀ t, s'.write P t = s.write P t) ∧
    (∀ t p v, s.holder i = some (.cow t p) → s.read i = .value v → s'.read i = .value (f v)) := by
  obtain ⟨a, hr⟩ := hs.rep
  obtain ⟨a', h1, hr'⟩ := sameOut_ok (sim_step P (.modify i f) hr) h
  simp only [sim_read hr, sim_read hr', sim_valueAt hr, sim_valueAt hr', sim_write hr, sim_write hr']
  unfold Indep.step at h1
  simp only at h1
  have hv := hr.vars i
  cases ha : a.var i with
  | none =>
    rw [ha] at h1 hv
    obtain ⟨rfl, rfl⟩ := Prod.mk.inj (Res.ok.inj h1)
    refine ⟨fun _ _ => rfl, fun _ => rfl, fun _ => rfl, ?_⟩
    intro t p v e
    rw [e] at hv
    exact hv.elim
  | some y =>
    rw [ha] at h1 hv
    cases y with
    | table tb =>
      obtain ⟨rfl, rfl⟩ := Prod.mk.inj (Res.ok.inj h1)
      refine ⟨fun _ _ => rfl, fun _ => rfl, fun _ => rfl, ?_⟩
      intro t p v e
      rw [e] at hv
      exact hv.elim
    | cow t v =>
      obtain ⟨rfl, rfl⟩ := Prod.mk.inj (Res.ok.inj h1)
      have hil : i < a.vars.length := (List.getElem?_eq_some_iff.mp (join_eq_some ha)).1
      refine ⟨?_, fun _ => rfl, fun _ => rfl, ?_⟩
      · intro j hj
        simp only [Indep.read, Indep.St.var, join_set]
        rw [if_neg (by simp [hj])]
      · intro t' p v' _ e
        simp only [Indep.read, ha, Indep.Var.val, Obs.value.injEq] at e
        subst e
        simp only [Indep.read, Indep.St.var, join_set, hil, Indep.Var.val]
        simp

/-! ### The table set as a map -/

/-- The tag an operation replaces or removes, if any. -/
def target (s : Store.St V) : Op V → Option Tag
  | .insertHolder i => match s.holder i with
    | some (.table tb) => some tb.tag
    | some (.cow t _) => some t
    | none => none
  | .insertNew t _ => some t
  | .insertRaw t _ => some t
  | .remove t => some t
  | _ => none

/-- A history during which tag `t` is neither inserted nor removed. -/
def Quiet (P : Parser V) (t : Tag) : List (Op V) → Store.St V → Prop
  | [], _ => True
  | op :: ops, s => target s op ≠ some t ∧ ∀ o s', Store.step P op s = .ok (o, s') → Quiet P t ops s'

/-- How an entry may change while it is not written: raw bytes may get parsed. -/
def Evolves (P : Parser V) (t : Tag) (x y : Option (Indep.Item V)) : Prop :=
  y = x ∨ ∃ b v d, x = some (.unloaded b) ∧ y = some (.loaded ⟨t, some b, v⟩) ∧ P.parse t b d = .ok v ∧
    (P.dep t = none → d = none)

theorem Evolves.trans {P : Parser V} {t : Tag} {x y z : Option (Indep.Item V)} (h : Evolves P t x y)
    (h' : Evolves P t y z) : Evolves P t x z := by
  rcases h with rfl | ⟨b, v, d, rfl, rfl, h3⟩
  · exact h'
  · rcases h' with rfl | ⟨b', v', d', h1, _⟩
    · exact .inr ⟨b, v, d, rfl, rfl, h3⟩
    · cases h1

theorem finish_cases (P : Parser V) (t t' : Tag) (b : Bytes) (d : Option V) (a a' : Indep.St V) (c : Bool)
    (h : Indep.finish P t' b d a = .ok (c, a')) :
    a'.vars = a.vars ∧ (a'.store t = a.store t ∨
      (t = t' ∧ ∃ v, a'.store t = some (.loaded ⟨t, some b, v⟩) ∧ P.parse t b d = .ok v)) := by
  unfold Indep.finish at h
  cases hp : P.parse t' b d with
  | err => rw [hp] at h; obtain ⟨rfl, rfl⟩ := Prod.mk.inj (Res.ok.inj h); exact ⟨rfl, .inl rfl⟩
  | panic => rw [hp] at h; cases h
  | ok v =>
    rw [hp] at h
    obtain ⟨rfl, rfl⟩ := Prod.mk.inj (Res.ok.inj h)
    refine ⟨rfl, ?_⟩
    simp only [Indep.set]
    by_cases e : t = t'
    · subst e
      rw [if_pos rfl]
      exact .inr ⟨rfl, v, rfl, hp⟩
    · rw [if_neg e]; exact .inl rfl

theorem finish_evolves (P : Parser V) (t t' : Tag) (b : Bytes) (d : Option V) (a0 a a' : Indep.St V) (c : Bool)
    (hb : a0.store t' = some (.unloaded b)) (hd : P.dep t' = none → d = none)
    (he : Evolves P t (a0.store t) (a.store t))
    (h : Indep.finish P t' b d a = .ok (c, a')) :
    Evolves P t (a0.store t) (a'.store t) ∧ a'.vars = a.vars := by
  obtain ⟨h1, h2⟩ := finish_cases P t t' b d a a' c h
  refine ⟨?_, h1⟩
  rcases h2 with h2 | ⟨rfl, v, h3, h4⟩
  · rw [h2]; exact he
  · exact .inr ⟨b, v, d, hb, h3, h4, hd⟩

theorem load_evolves (P : Parser V) (t : Tag) : ∀ (fuel : Nat) (t' : Tag) (a a' : Indep.St V) (c : Bool),
    Indep.load P fuel t' a = .ok (c, a') → Evolves P t (a.store t) (a'.store t) ∧ a'.vars = a.vars := by
  intro fuel
  induction fuel with
  | zero =>
    intro t' a a' c h
    unfold Indep.load at h
    cases hs : a.store t' with
    | none => rw [hs] at h; obtain ⟨rfl, rfl⟩ := Prod.mk.inj (Res.ok.inj h); exact ⟨.inl rfl, rfl⟩
    | some x =>
      rw [hs] at h
      cases x with
      | loaded => obtain ⟨rfl, rfl⟩ := Prod.mk.inj (Res.ok.inj h); exact ⟨.inl rfl, rfl⟩
      | unloaded b =>
        simp only at h
        cases hd : P.dep t' with
        | none => rw [hd] at h; exact finish_evolves P t t' b none a a a' c hs (fun _ => rfl) (.inl rfl) h
        | some d => rw [hd] at h; cases h
  | succ fuel ih =>
    intro t' a a' c h
    unfold Indep.load at h
    cases hs : a.store t' with
    | none => rw [hs] at h; obtain ⟨rfl, rfl⟩ := Prod.mk.inj (Res.ok.inj h); exact ⟨.inl rfl, rfl⟩
    | some x =>
      rw [hs] at h
      cases x with
      | loaded => obtain ⟨rfl, rfl⟩ := Prod.mk.inj (Res.ok.inj h); exact ⟨.inl rfl, rfl⟩
      | unloaded b =>
        simp only at h
        cases hd : P.dep t' with
        | none => rw [hd] at h; exact finish_evolves P t t' b none a a a' c hs (fun _ => rfl) (.inl rfl) h
        | some d =>
          rw [hd] at h
          simp only at h
          cases hl : Indep.load P fuel d a with
          | err => rw [hl] at h; cases h
          | panic => rw [hl] at h; cases h
          | ok r =>
            obtain ⟨c1, a1⟩ := r
            rw [hl] at h
            obtain ⟨e1, e2⟩ := ih d a a1 c1 hl
            cases c1 with
            | false => obtain ⟨rfl, rfl⟩ := Prod.mk.inj (Res.ok.inj h); exact ⟨e1, e2⟩
            | true =>
              simp only at h
              cases hv : Indep.valueAt a1 d with
              | none => rw [hv] at h; obtain ⟨rfl, rfl⟩ := Prod.mk.inj (Res.ok.inj h); exact ⟨e1, e2⟩
              | some v =>
                rw [hv] at h
                simp only at h
                obtain ⟨f1, f2⟩ := finish_evolves P t t' b (some v) a a1 a' c hs (by rw [hd]; intro h; cases h) e1 h
                exact ⟨f1, f2.trans e2⟩

theorem getAs_evolves (P : Parser V) (t t' : Tag) (w : Indep.Table V → Indep.Var V) (a a' : Indep.St V) (o : Obs V)
    (h : Indep.getAs P t' w a = .ok (o, a')) :
    Evolves P t (a.store t) (a'.store t) ∧
    (a'.vars = a.vars ∨ ∃ tb, a'.store t' = some (.loaded tb) ∧ a'.vars = a.vars ++ [some (w tb)]) := by
  unfold Indep.getAs at h
  cases hl : Indep.load P 4 t' a with
  | err => rw [hl] at h; cases h
  | panic => rw [hl] at h; cases h
  | ok r =>
    obtain ⟨c, a1⟩ := r
    rw [hl] at h
    obtain ⟨e1, e2⟩ := load_evolves P t 4 t' a a1 c hl
    cases c with
    | false => obtain ⟨rfl, rfl⟩ := Prod.mk.inj (Res.ok.inj h); exact ⟨e1, .inl e2⟩
    | true =>
      simp only at h
      cases hs : a1.store t' with
      | none => rw [hs] at h; obtain ⟨rfl, rfl⟩ := Prod.mk.inj (Res.ok.inj h); exact ⟨e1, .inl e2⟩
      | some x =>
        rw [hs] at h
        cases x with
        | unloaded b => obtain ⟨rfl, rfl⟩ := Prod.mk.inj (Res.ok.inj h); exact ⟨e1, .inl e2⟩
        | loaded tb =>
          obtain ⟨rfl, rfl⟩ := Prod.mk.inj (Res.ok.inj h)
          exact ⟨e1, .inr ⟨tb, hs, by rw [e2]⟩⟩

/-- The tag a specification-level operation replaces or removes. -/
def targetA (a : Indep.St V) : Op V → Option Tag
  | .insertHolder i => match a.var i with
    | some (.table tb) => some tb.tag
    | some (.cow t _) => some t
    | none => none
  | .insertNew t _ => some t
  | .insertRaw t _ => some t
  | .remove t => some t
  | _ => none

theorem target_eq {s : Store.St V} {a : Indep.St V} (h : Rep s a) (op : Op V) : target s op = targetA a op := by
  cases op with
  | insertHolder i =>
    have hv := h.vars i
    simp only [target, targetA]
    cases hs : s.holder i with
    | none =>
      rw [hs] at hv
      cases ha : a.var i with
      | none => rfl
      | some y => rw [ha] at hv; exact hv.elim
    | some hd =>
      rw [hs] at hv
      cases ha : a.var i with
      | none => rw [ha] at hv; cases hd <;> exact hv.elim
      | some y =>
        rw [ha] at hv
        cases hd with
        | table tb => cases y with
          | table tb' => simp only [hv.1]
          | cow => exact hv.elim
        | cow t p => cases y with
          | table => exact hv.elim
          | cow => simp only [hv.1]
  | _ => rfl

theorem step_evolves (P : Parser V) (t : Tag) (op : Op V) (a a' : Indep.St V) (o : Obs V)
    (ht : targetA a op ≠ some t) (h : Indep.step P op a = .ok (o, a')) : Evolves P t (a.store t) (a'.store t) := by
  have hset : ∀ (t' : Tag) (x : Option (Indep.Item V)), t' ≠ t → Indep.set a.store t' x t = a.store t := by
    intro t' x hne
    simp only [Indep.set]
    rw [if_neg (Ne.symm hne)]
  cases op with
  | get t' => exact (getAs_evolves P t t' _ a a' o h).1
  | open_ t' => exact (getAs_evolves P t t' _ a a' o h).1
  | clone i =>
    simp only [Indep.step] at h
    cases ha : a.var i <;> rw [ha] at h <;> obtain ⟨rfl, rfl⟩ := Prod.mk.inj (Res.ok.inj h) <;> exact .inl rfl
  | read i => obtain ⟨rfl, rfl⟩ := Prod.mk.inj (Res.ok.inj h); exact .inl rfl
  | modify i f =>
    simp only [Indep.step] at h
    cases ha : a.var i with
    | none => rw [ha] at h; obtain ⟨rfl, rfl⟩ := Prod.mk.inj (Res.ok.inj h); exact .inl rfl
    | some y => rw [ha] at h; cases y <;> obtain ⟨rfl, rfl⟩ := Prod.mk.inj (Res.ok.inj h) <;> exact .inl rfl
  | intoOwned i => obtain ⟨rfl, rfl⟩ := Prod.mk.inj (Res.ok.inj h); exact .inl rfl
  | insertHolder i =>
    simp only [Indep.step] at h
    simp only [targetA] at ht
    cases ha : a.var i with
    | none => rw [ha] at h; obtain ⟨rfl, rfl⟩ := Prod.mk.inj (Res.ok.inj h); exact .inl rfl
    | some y =>
      rw [ha] at h ht
      cases y with
      | table tb =>
        obtain ⟨rfl, rfl⟩ := Prod.mk.inj (Res.ok.inj h)
        exact .inl (hset _ _ (fun e => ht (by simp only [e])))
      | cow t' v =>
        obtain ⟨rfl, rfl⟩ := Prod.mk.inj (Res.ok.inj h)
        exact .inl (hset _ _ (fun e => ht (by simp only [e])))
  | insertNew t' v =>
    obtain ⟨rfl, rfl⟩ := Prod.mk.inj (Res.ok.inj h)
    exact .inl (hset _ _ (fun e => ht (by simp only [targetA, e])))
  | insertRaw t' b =>
    obtain ⟨rfl, rfl⟩ := Prod.mk.inj (Res.ok.inj h)
    exact .inl (hset _ _ (fun e => ht (by simp only [targetA, e])))
  | remove t' =>
    have hne : t' ≠ t := fun e => ht (by simp only [targetA, e])
    simp only [Indep.step] at h
    cases ha : a.store t' with
    | none => rw [ha] at h; obtain ⟨rfl, rfl⟩ := Prod.mk.inj (Res.ok.inj h); exact .inl rfl
    | some x =>
      rw [ha] at h
      cases x <;> obtain ⟨rfl, rfl⟩ := Prod.mk.inj (Res.ok.inj h) <;> exact .inl (hset _ _ hne)
  | drop i => obtain ⟨rfl, rfl⟩ := Prod.mk.inj (Res.ok.inj h); exact .inl rfl
  | write t' => obtain ⟨rfl, rfl⟩ := Prod.mk.inj (Res.ok.inj h); exact .inl rfl

theorem run_cons_ok {P : Parser V} {op : Op V} {ops : List (Op V)} {s s' : Store.St V} {os : List (Obs V)}
    (h : Store.run P (op :: ops) s = .ok (os, s')) :
    ∃ o s1 os', Store.step P op s = .ok (o, s1) ∧ Store.run P ops s1 = .ok (os', s') ∧ os = o :: os' := by
  unfold Store.run at h
  cases h1 : Store.step P op s with
  | err => rw [h1] at h; cases h
  | panic => rw [h1] at h; cases h
  | ok r =>
    obtain ⟨o, s1⟩ := r
    rw [h1] at h
    simp only at h
    cases h2 : Store.run P ops s1 with
    | err => rw [h2] at h; cases h
    | panic => rw [h2] at h; cases h
    | ok q =>
      obtain ⟨os', s2⟩ := q
      rw [h2] at h
      obtain ⟨rfl, rfl⟩ := Prod.mk.inj (Res.ok.inj h)
      exact ⟨o, s1, os', rfl, h2, rfl⟩

theorem quiet_evolves (P : Parser V) (t : Tag) : ∀ (ops : List (Op V)) (s s' : Store.St V) (a : Indep.St V)
    (os : List (Obs V)), Rep s a → Quiet P t ops s → Store.run P ops s = .ok (os, s') →
    ∃ a', Rep s' a' ∧ Evolves P t (a.store t) (a'.store t)
  | [], s, s', a, os, h, _, hr => by
    obtain ⟨rfl, rfl⟩ := Prod.mk.inj (Res.ok.inj hr)
    exact ⟨a, h, .inl rfl⟩
  | op :: ops, s, s', a, os, h, hq, hr => by
    obtain ⟨o, s1, os', h1, h2, _⟩ := run_cons_ok hr
    obtain ⟨a1, e1, hr1⟩ := sameOut_ok (sim_step P op h) h1
    have hev := step_evolves P t op a a1 o (by rw [← target_eq h]; exact hq.1) e1
    obtain ⟨a', hr', hev'⟩ := quiet_evolves P t ops s1 s' a1 os' hr1 (hq.2 o s1 h1) h2
    exact ⟨a', hr', hev.trans hev'⟩

/-- The value of the variable that was created last. -/
def lastVar (s : Store.St V) : Obs V := s.read (s.holders.length - 1)

theorem lastVar_push {s : Store.St V} {a : Indep.St V} {y : Indep.Var V}
    (h : Rep s { a with vars := a.vars ++ [some y] }) : lastVar s = .value y.val := by
  unfold lastVar
  rw [sim_read h, h.len]
  simp [Indep.read, Indep.St.var]

/-- Opening a table whose parsed value is in the store. -/
theorem open_loaded {P : Parser V} {s : Store.St V} {a : Indep.St V} (h : Rep s a) {t : Tag} {tb : Indep.Table V}
    (ht : a.store t = some (.loaded tb)) :
    ∃ s', Store.step P (.open_ t) s = .ok (.done, s') ∧ lastVar s' = .value tb.val := by
  have hsim := sim_step P (.open_ t) h
  have e : Indep.step P (.open_ t) a = .ok (.done, { a with vars := a.vars ++ [some (Indep.asCow tb)] }) := by
    simp [Indep.step, Indep.getAs, Indep.load, ht]
  rw [e] at hsim
  cases hs : Store.step P (.open_ t) s with
  | err => rw [hs] at hsim; exact hsim.elim
  | panic => rw [hs] at hsim; exact hsim.elim
  | ok r =>
    obtain ⟨o, s'⟩ := r
    rw [hs] at hsim
    obtain ⟨rfl, hr⟩ := hsim
    exact ⟨s', rfl, lastVar_push hr⟩

/-- **C24.** After a table value is inserted (directly, or by handing over a variable), and any further history that
neither inserts nor removes that tag, looking the tag up yields exactly the inserted value. -/
theorem C24_last_insert (P : Parser V) (s s1 s2 : Store.St V) (hs : Reachable P s) (t : Tag) (v : V) (op : Op V)
    (hop : op = .insertNew t v ∨
      ∃ i, op = .insertHolder i ∧ target s (.insertHolder i) = some t ∧ s.read i = .value v)
    (o : Obs V) (h1 : Store.step P op s = .ok (o, s1)) (ops : List (Op V)) (os : List (Obs V))
    (h2 : Store.run P ops s1 = .ok (os, s2)) (hq : Quiet P t ops s1) :
    ∃ s3, Store.step P (.open_ t) s2 = .ok (.done, s3) ∧ lastVar s3 = .value v := by
  obtain ⟨a, hr⟩ := hs.rep
  obtain ⟨a1, e1, hr1⟩ := sameOut_ok (sim_step P op hr) h1
  have key : ∃ tb : Indep.Table V, a1.store t = some (.loaded tb) ∧ tb.val = v := by
    rcases hop with rfl | ⟨i, rfl, hti, hri⟩
    · obtain ⟨rfl, rfl⟩ := Prod.mk.inj (Res.ok.inj e1)
      exact ⟨⟨t, none, v⟩, by simp [Indep.set], rfl⟩
    · rw [target_eq hr] at hti
      rw [sim_read hr] at hri
      simp only [targetA] at hti
      simp only [Indep.read] at hri
      simp only [Indep.step] at e1
      cases ha : a.var i with
      | none => rw [ha] at hti; cases hti
      | some y =>
        rw [ha] at hti hri e1
        cases y with
        | table tb =>
          simp only [Option.some.injEq] at hti
          simp only [Indep.Var.val, Obs.value.injEq] at hri
          obtain ⟨rfl, rfl⟩ := Prod.mk.inj (Res.ok.inj e1)
          exact ⟨tb, by simp [Indep.set, hti], hri⟩
        | cow t' v' =>
          simp only [Option.some.injEq] at hti
          simp only [Indep.Var.val, Obs.value.injEq] at hri
          obtain ⟨rfl, rfl⟩ := Prod.mk.inj (Res.ok.inj e1)
          exact ⟨⟨t', none, v'⟩, by simp [Indep.set, hti], hri⟩
  obtain ⟨tb, htb, rfl⟩ := key
  obtain ⟨a2, hr2, hev⟩ := quiet_evolves P t ops s1 s2 a1 os hr1 hq h2
  rcases hev with e | ⟨b, _, _, hx, _⟩
  · exact open_loaded hr2 (e.trans htb)
  · rw [htb] at hx; cases hx

/-- **C24.** After raw bytes are inserted, and any further history that neither inserts nor removes that tag, looking
the tag up, if it succeeds, yields a parse of exactly these bytes; for a table that does not depend on another one this
is *the* parse of the bytes. -/
theorem C24_last_insert_raw (P : Parser V) (s s1 s2 s3 : Store.St V) (hs : Reachable P s) (t : Tag) (b : Bytes)
    (o : Obs V) (h1 : Store.step P (.insertRaw t b) s = .ok (o, s1)) (ops : List (Op V)) (os : List (Obs V))
    (h2 : Store.run P ops s1 = .ok (os, s2)) (hq : Quiet P t ops s1)
    (h3 : Store.step P (.open_ t) s2 = .ok (.done, s3)) :
    ∃ v d, lastVar s3 = .value v ∧ P.parse t b d = .ok v ∧ (P.dep t = none → d = none) := by
  obtain ⟨a, hr⟩ := hs.rep
  obtain ⟨a1, e1, hr1⟩ := sameOut_ok (sim_step P _ hr) h1
  obtain ⟨rfl, rfl⟩ := Prod.mk.inj (Res.ok.inj e1)
  obtain ⟨a2, hr2, hev⟩ := quiet_evolves P t ops s1 s2 _ os hr1 hq h2
  obtain ⟨a3, e3, hr3⟩ := sameOut_ok (sim_step P _ hr2) h3
  have hev3 := step_evolves P t (.open_ t) a2 a3 .done (by simp [targetA]) e3
  have hx := hev.trans hev3
  have hx1 : (Indep.set a.store t (some (Indep.Item.unloaded (V := V) b))) t = some (.unloaded b) := by
    simp [Indep.set]
  simp only [hx1] at hx
  have hpush : ∃ tb, a3.store t = some (.loaded tb) ∧ a3.vars = a2.vars ++ [some (Indep.asCow tb)] := by
    rcases (getAs_evolves P t t _ a2 a3 .done e3).2 with h | h
    · exfalso
      simp only [Indep.step, Indep.getAs] at e3
      cases hl : Indep.load P 4 t a2 with
      | err => rw [hl] at e3; cases e3
      | panic => rw [hl] at e3; cases e3
      | ok r =>
        obtain ⟨c, a'⟩ := r
        rw [hl] at e3
        have hv := (load_evolves P t 4 t a2 a' c hl).2
        cases c with
        | false => have := (Prod.mk.inj (Res.ok.inj e3)).1; cases this
        | true =>
          simp only at e3
          cases hst : a'.store t with
          | none => rw [hst] at e3; have := (Prod.mk.inj (Res.ok.inj e3)).1; cases this
          | some x =>
            rw [hst] at e3
            cases x with
            | unloaded => have := (Prod.mk.inj (Res.ok.inj e3)).1; cases this
            | loaded tb =>
              obtain ⟨_, rfl⟩ := Prod.mk.inj (Res.ok.inj e3)
              rw [hv] at h
              have := congrArg List.length h
              simp at this
    · exact h
  obtain ⟨tb, h4, h5⟩ := hpush
  rcases hx with e | ⟨b', v, d, hb', e, hp, hd⟩
  · rw [h4] at e; cases e
  · cases hb'
    rw [h4] at e
    obtain rfl := Indep.Item.loaded.inj (Option.some.inj e)
    refine ⟨v, d, ?_, hp, hd⟩
    have : a3 = { a3 with vars := a2.vars ++ [some (Indep.asCow ⟨t, some b, v⟩)] } := by rw [← h5]
    rw [this] at hr3
    exact lastVar_push (a := ⟨a3.store, a2.vars⟩) hr3

/-- **C24.** After a table is removed, and any further history that does not insert that tag, looking it up finds
nothing. -/
theorem C24_removed (P : Parser V) (s s1 s2 : Store.St V) (hs : Reachable P s) (t : Tag)
    (o : Obs V) (h1 : Store.step P (.remove t) s = .ok (o, s1)) (ops : List (Op V)) (os : List (Obs V))
    (h2 : Store.run P ops s1 = .ok (os, s2)) (hq : Quiet P t ops s1) :
    ∃ s3, Store.step P (.open_ t) s2 = .ok (.absent, s3) := by
  obtain ⟨a, hr⟩ := hs.rep
  obtain ⟨a1, e1, hr1⟩ := sameOut_ok (sim_step P _ hr) h1
  have hn : a1.store t = none := by
    simp only [Indep.step] at e1
    cases hst : a.store t with
    | none => rw [hst] at e1; obtain ⟨rfl, rfl⟩ := Prod.mk.inj (Res.ok.inj e1); exact hst
    | some x =>
      rw [hst] at e1
      cases x <;> obtain ⟨rfl, rfl⟩ := Prod.mk.inj (Res.ok.inj e1) <;> simp [Indep.set]
  obtain ⟨a2, hr2, hev⟩ := quiet_evolves P t ops s1 s2 a1 os hr1 hq h2
  rw [hn] at hev
  rcases hev with e | ⟨_, _, _, hx, _⟩
  · have hsim := sim_step P (.open_ t) hr2
    have e' : Indep.step P (.open_ t) a2 = .ok (.absent, a2) := by
      simp [Indep.step, Indep.getAs, Indep.load, e]
    rw [e'] at hsim
    cases hs' : Store.step P (.open_ t) s2 with
    | err => rw [hs'] at hsim; exact hsim.elim
    | panic => rw [hs'] at hsim; exact hsim.elim
    | ok r =>
      obtain ⟨o', s3⟩ := r
      rw [hs'] at hsim
      obtain ⟨rfl, _⟩ := hsim
      exact ⟨s3, rfl⟩
  · cases hx

/-! ### C23 -/

/-- The operation puts something other than an unmodified `Table` under tag `t`: new bytes, a new value, or a
`CowPtr` (whose value may have been modified). -/
def Replaces (s : Store.St V) (t : Tag) : Op V → Prop
  | .insertHolder i => ∃ p, s.holder i = some (.cow t p)
  | .insertNew t' _ => t' = t
  | .insertRaw t' _ => t' = t
  | _ => False

/-- A history during which the contents of `t` are never replaced (removing it, and putting back the `Table` that was
obtained, is allowed). -/
def Keeps (P : Parser V) (t : Tag) : List (Op V) → Store.St V → Prop
  | [], _ => True
  | op :: ops, s => ¬ Replaces s t op ∧ ∀ o s', Store.step P op s = .ok (o, s') → Keeps P t ops s'

/-- All copies of table `t` still carry the bytes `b`. -/
structure Faithful (t : Tag) (b : Bytes) (a : Indep.St V) : Prop where
  store : a.store t = none ∨ a.store t = some (.unloaded b) ∨ ∃ v, a.store t = some (.loaded ⟨t, some b, v⟩)
  tags : ∀ t' tb, a.store t' = some (.loaded tb) → tb.tag = t'
  vars : ∀ i tb, a.var i = some (.table tb) → tb.tag = t → tb.raw = some b

theorem Faithful.evolve {P : Parser V} {t : Tag} {b : Bytes} {a a' : Indep.St V} (h : Faithful t b a)
    (he : ∀ t', Evolves P t' (a.store t') (a'.store t')) (hv : a'.vars = a.vars) : Faithful t b a' := by
  refine ⟨?_, ?_, ?_⟩
  · rcases he t with e | ⟨b', v, d, e1, e2, _⟩
    · rw [e]; exact h.store
    · rcases h.store with e | e | ⟨_, e⟩
      · rw [e] at e1; cases e1
      · rw [e] at e1; cases e1; exact .inr (.inr ⟨v, e2⟩)
      · rw [e] at e1; cases e1
  · intro t' tb htb
    rcases he t' with e | ⟨b', v, d, e1, e2, _⟩
    · rw [e] at htb; exact h.tags t' tb htb
    · rw [e2] at htb
      obtain rfl := Indep.Item.loaded.inj (Option.some.inj htb)
      rfl
  · intro i tb hi
    have : a.var i = some (.table tb) := by rw [← hi, Indep.St.var, Indep.St.var, hv]
    exact h.vars i tb this

theorem Faithful.vars' {t : Tag} {b : Bytes} {a : Indep.St V} (h : Faithful t b a) {vs : List (Option (Indep.Var V))}
    (hv : ∀ (i : Nat) tb, (vs[i]?).join = some (.table tb) → tb.tag = t → tb.raw = some b) :
    Faithful t b { a with vars := vs } := ⟨h.store, h.tags, hv⟩

theorem Faithful.raw {t : Tag} {b : Bytes} {a : Indep.St V} (h : Faithful t b a) {t' : Tag} {tb : Indep.Table V}
    (hs : a.store t' = some (.loaded tb)) (ht : tb.tag = t) : tb.raw = some b := by
  have e := h.tags t' tb hs
  have e' : t' = t := e.symm.trans ht
  subst e'
  rcases h.store with e | e | ⟨v, e⟩
  · rw [e] at hs; cases hs
  · rw [e] at hs; cases hs
  · rw [e] at hs
    obtain rfl := Indep.Item.loaded.inj (Option.some.inj hs)
    rfl

theorem getAs_cases (P : Parser V) (t' : Tag) (w : Indep.Table V → Indep.Var V) (a a' : Indep.St V) (o : Obs V)
    (h : Indep.getAs P t' w a = .ok (o, a')) :
    (∀ t, Evolves P t (a.store t) (a'.store t)) ∧
    (a'.vars = a.vars ∨ ∃ tb, a'.store t' = some (.loaded tb) ∧ a'.vars = a.vars ++ [some (w tb)]) :=
  ⟨fun t => (getAs_evolves P t t' w a a' o h).1, (getAs_evolves P t' t' w a a' o h).2⟩

theorem Faithful.pushTable {t : Tag} {b : Bytes} {a : Indep.St V} (h : Faithful t b a) {y : Indep.Var V}
    (hy : ∀ tb, y = .table tb → tb.tag = t → tb.raw = some b) : Faithful t b { a with vars := a.vars ++ [some y] } := by
  refine h.vars' ?_
  intro i tb hi htb
  rw [join_append] at hi
  split at hi
  · exact hy tb (Option.some.inj hi) htb
  · exact h.vars i tb hi htb

theorem Faithful.setVar {t : Tag} {b : Bytes} {a : Indep.St V} (h : Faithful t b a) (i : Nat)
    {y : Option (Indep.Var V)} (hy : ∀ tb, y ≠ some (.table tb)) :
    Faithful t b { a with vars := a.vars.set i y } := by
  refine h.vars' ?_
  intro j tb hj htb
  rw [join_set] at hj
  split at hj
  · exact absurd hj (hy tb)
  · exact h.vars j tb hj htb

theorem Faithful.setStore {t : Tag} {b : Bytes} {a : Indep.St V} (h : Faithful t b a) (t' : Tag)
    {x : Option (Indep.Item V)}
    (hx : t' = t → x = none ∨ x = some (.unloaded b) ∨ ∃ v, x = some (.loaded ⟨t, some b, v⟩))
    (hx' : ∀ tb, x = some (.loaded tb) → tb.tag = t') :
    Faithful t b { a with store := Indep.set a.store t' x } := by
  refine ⟨?_, ?_, h.vars⟩
  · simp only [Indep.set]
    split
    · next e => exact hx e.symm
    · exact h.store
  · intro t2 tb h2
    simp only [Indep.set] at h2
    split at h2
    · next e => rw [e]; exact hx' tb h2
    · exact h.tags t2 tb h2

/-- `Replaces` for the specification. -/
def ReplacesA (a : Indep.St V) (t : Tag) : Op V → Prop
  | .insertHolder i => ∃ v, a.var i = some (.cow t v)
  | .insertNew t' _ => t' = t
  | .insertRaw t' _ => t' = t
  | _ => False

theorem replaces_of {s : Store.St V} {a : Indep.St V} (h : Rep s a) (t : Tag) (op : Op V) :
    ReplacesA a t op → Replaces s t op := by
  cases op with
  | insertHolder i =>
    rintro ⟨v, hv⟩
    have := h.vars i
    rw [hv] at this
    cases hs : s.holder i with
    | none => rw [hs] at this; exact this.elim
    | some hd =>
      rw [hs] at this
      cases hd with
      | table => exact this.elim
      | cow t' p => exact ⟨p, by rw [hs, this.1]⟩
  | _ => exact id

theorem faithful_step (P : Parser V) (t : Tag) (b : Bytes) (op : Op V) (a a' : Indep.St V) (o : Obs V)
    (hf : Faithful t b a) (ht : ¬ ReplacesA a t op) (h : Indep.step P op a = .ok (o, a')) : Faithful t b a' := by
  cases op with
  | get t' =>
    obtain ⟨h1, h2⟩ := getAs_cases P t' _ a a' o h
    rcases h2 with h2 | ⟨tb, h3, h4⟩
    · exact hf.evolve h1 h2
    · have hf' : Faithful t b { a' with vars := a.vars } := hf.evolve h1 rfl
      have := hf'.pushTable (y := .table tb) (fun tb' e ht' => by
        obtain rfl := Indep.Var.table.inj e
        exact hf'.raw h3 ht')
      rw [show a' = { a' with vars := a.vars ++ [some (.table tb)] } by rw [← h4]]
      exact this
  | open_ t' =>
    obtain ⟨h1, h2⟩ := getAs_cases P t' _ a a' o h
    rcases h2 with h2 | ⟨tb, h3, h4⟩
    · exact hf.evolve h1 h2
    · have hf' : Faithful t b { a' with vars := a.vars } := hf.evolve h1 rfl
      have := hf'.pushTable (y := Indep.asCow tb) (fun tb' e ht' => by cases e)
      rw [show a' = { a' with vars := a.vars ++ [some (Indep.asCow tb)] } by rw [← h4]]
      exact this
  | clone i =>
    simp only [Indep.step] at h
    cases ha : a.var i with
    | none => rw [ha] at h; obtain ⟨rfl, rfl⟩ := Prod.mk.inj (Res.ok.inj h); exact hf
    | some y =>
      rw [ha] at h
      obtain ⟨rfl, rfl⟩ := Prod.mk.inj (Res.ok.inj h)
      exact hf.pushTable (fun tb e ht' => by subst e; exact hf.vars i tb ha ht')
  | read i => obtain ⟨rfl, rfl⟩ := Prod.mk.inj (Res.ok.inj h); exact hf
  | modify i f =>
    simp only [Indep.step] at h
    cases ha : a.var i with
    | none => rw [ha] at h; obtain ⟨rfl, rfl⟩ := Prod.mk.inj (Res.ok.inj h); exact hf
    | some y =>
      rw [ha] at h
      cases y with
      | table => obtain ⟨rfl, rfl⟩ := Prod.mk.inj (Res.ok.inj h); exact hf
      | cow => obtain ⟨rfl, rfl⟩ := Prod.mk.inj (Res.ok.inj h); exact hf.setVar i (by simp)
  | intoOwned i => obtain ⟨rfl, rfl⟩ := Prod.mk.inj (Res.ok.inj h); exact hf.setVar i (by simp)
  | insertHolder i =>
    simp only [Indep.step] at h
    cases ha : a.var i with
    | none => rw [ha] at h; obtain ⟨rfl, rfl⟩ := Prod.mk.inj (Res.ok.inj h); exact hf
    | some y =>
      rw [ha] at h
      cases y with
      | table tb =>
        obtain ⟨rfl, rfl⟩ := Prod.mk.inj (Res.ok.inj h)
        refine (hf.setStore tb.tag (x := some (.loaded tb)) ?_ (fun tb' e => by cases e; rfl)).setVar i (by simp)
        intro e
        have hr := hf.vars i tb ha e
        exact .inr (.inr ⟨tb.val, by rw [← hr, ← e]⟩)
      | cow t' v =>
        obtain ⟨rfl, rfl⟩ := Prod.mk.inj (Res.ok.inj h)
        refine (hf.setStore t' (x := some (.loaded ⟨t', none, v⟩)) ?_ (fun tb' e => by cases e; rfl)).setVar i (by simp)
        intro e
        exact absurd ⟨v, by rw [ha, e]⟩ ht
  | insertNew t' v =>
    obtain ⟨rfl, rfl⟩ := Prod.mk.inj (Res.ok.inj h)
    exact hf.setStore t' (fun e => absurd e ht) (fun tb e => by cases e; rfl)
  | insertRaw t' b' =>
    obtain ⟨rfl, rfl⟩ := Prod.mk.inj (Res.ok.inj h)
    exact hf.setStore t' (fun e => absurd e ht) (fun tb e => by cases e)
  | remove t' =>
    simp only [Indep.step] at h
    cases ha : a.store t' with
    | none => rw [ha] at h; obtain ⟨rfl, rfl⟩ := Prod.mk.inj (Res.ok.inj h); exact hf
    | some x =>
      rw [ha] at h
      have hf' : Faithful t b { a with store := Indep.set a.store t' none } :=
        hf.setStore t' (fun _ => .inl rfl) (fun tb e => by cases e)
      cases x with
      | unloaded => obtain ⟨rfl, rfl⟩ := Prod.mk.inj (Res.ok.inj h); exact hf'
      | loaded tb =>
        obtain ⟨rfl, rfl⟩ := Prod.mk.inj (Res.ok.inj h)
        exact hf'.pushTable (fun tb' e ht' => by obtain rfl := Indep.Var.table.inj e; exact hf.raw ha ht')
  | drop i => obtain ⟨rfl, rfl⟩ := Prod.mk.inj (Res.ok.inj h); exact hf.setVar i (by simp)
  | write t' => obtain ⟨rfl, rfl⟩ := Prod.mk.inj (Res.ok.inj h); exact hf

theorem faithful_run (P : Parser V) (t : Tag) (b : Bytes) : ∀ (ops : List (Op V)) (s s' : Store.St V)
    (a : Indep.St V) (os : List (Obs V)), Rep s a → Faithful t b a → Keeps P t ops s →
    Store.run P ops s = .ok (os, s') → ∃ a', Rep s' a' ∧ Faithful t b a'
  | [], s, s', a, os, h, hf, _, hr => by
    obtain ⟨rfl, rfl⟩ := Prod.mk.inj (Res.ok.inj hr)
    exact ⟨a, h, hf⟩
  | op :: ops, s, s', a, os, h, hf, hq, hr => by
    obtain ⟨o, s1, os', h1, h2, _⟩ := run_cons_ok hr
    obtain ⟨a1, e1, hr1⟩ := sameOut_ok (sim_step P op h) h1
    have hf1 := faithful_step P t b op a a1 o hf (fun hh => hq.1 (replaces_of h t op hh)) e1
    exact faithful_run P t b ops s1 s' a1 os' hr1 hf1 (hq.2 o s1 h1) h2

theorem faithful_fresh (tables : List (Tag × Bytes)) (t : Tag) (b : Bytes) (h : BMap.get? tables t = some b) :
    Faithful t b (Indep.fresh tables : Indep.St V) := by
  refine ⟨.inr (.inl (by simp [Indep.fresh, h])), ?_, ?_⟩
  · intro t' tb h'
    simp only [Indep.fresh] at h'
    cases hg : BMap.get? tables t' with
    | none => rw [hg] at h'; cases h'
    | some x => rw [hg] at h'; cases h'
  · intro i tb h'
    simp [Indep.fresh, Indep.St.var] at h'

/-- **C23.** Whatever is done with a font (parsing tables, modifying the values obtained, inserting and removing other
tables, even taking the table out and putting it back), a table whose contents were never replaced is written with
exactly the bytes that were read. -/
theorem C23_unmodified (P : Parser V) (tables : List (Tag × Bytes)) (hs : BMap.Sorted tables) (t : Tag) (b : Bytes)
    (hb : BMap.get? tables t = some b) (ops : List (Op V)) (os : List (Obs V)) (s : Store.St V)
    (hr : Store.run P ops (Store.fresh tables) = .ok (os, s)) (hk : Keeps P t ops (Store.fresh tables)) :
    BMap.get? s.store t = none ∨ s.write P t = .ok b := by
  obtain ⟨a, h1, h2⟩ := faithful_run P t b ops _ s _ os (rep_fresh tables hs) (faithful_fresh tables t b hb) hk hr
  rw [sim_write h1]
  have hi := h1.items t
  rcases h2.store with e | e | ⟨v, e⟩
  · left
    rw [e] at hi
    cases hg : BMap.get? s.store t with
    | none => rfl
    | some x => rw [hg] at hi; cases x <;> exact hi.elim
  · right; simp [Indep.write, e]
  · right; simp [Indep.write, e]

/-! ### Examples -/

/-- Tables of one number: parsing reads a byte, writing writes it. -/
def toyParser : Parser Nat where
  dep _ := none
  parse _ b _ := match b with
    | [x] => .ok x.toNat
    | _ => .err
  ser v := .ok [UInt8.ofNat v, 0]

/-- `head`. -/
def headT : Tag := ⟨0x68, 0x65, 0x61, 0x64⟩

/-- Two variables for the same table; one is modified; the table is saved as it was, then the modified one is
inserted. -/
def toyHistory : List (Op Nat) :=
  [.open_ headT, .open_ headT, .modify 0 (· + 5), .read 0, .read 1, .write headT, .insertHolder 0, .write headT]

example : (match Store.run toyParser toyHistory (Store.fresh [(headT, [7])]) with
    | .ok (os, _) => os.map (fun o => match o with | .value v => some v | .wrote (.ok b) => some (100 + b.length) | _ => none)
    | _ => []) = [none, none, none, some 12, some 7, some 101, none, some 102] := by decide

example : Keeps toyParser headT (toyHistory.take 6) (Store.fresh [(headT, [7])]) := by
  have : ∀ op ∈ toyHistory.take 6, ∀ s, ¬ Replaces s headT op := by
    intro op hop s
    simp only [toyHistory, List.take_succ_cons, List.take_zero, List.mem_cons, List.not_mem_nil, or_false] at hop
    rcases hop with rfl | rfl | rfl | rfl | rfl | rfl <;> exact id
  have key : ∀ (ops : List (Op Nat)), (∀ op ∈ ops, ∀ s, ¬ Replaces s headT op) → ∀ s, Keeps toyParser headT ops s := by
    intro ops
    induction ops with
    | nil => intro _ s; trivial
    | cons op ops ih =>
      intro h s
      exact ⟨h op (by simp) s, fun o s' _ => ih (fun x hx => h x (by simp [hx])) s'⟩
  exact key _ this _

end FT.Props
