import Verif.Lemmas.FontSave
import Verif.Props.Font
import Verif.Props.Loca
import Verif.Props.Hmtx
import Verif.Props.SimpleTables

/-!
C25, C58-C60: what saving a font (`Font::write`) puts into the file.
-/

namespace FT.Props
open FT FT.Store FT.Save FT.Tables

variable {G O : Type} {F : Fmt G O}

/-! ### Vocabulary -/

/-- Asking the font for table `t` yields the value `v`. -/
def Opens (F : Fmt G O) (s : Store.St (Loaded G O)) (t : Tag) (v : Loaded G O) : Prop :=
  ∃ s1, Store.step (parser F) (.open_ t) s = .ok (.done, s1) ∧ lastVar s1 = .value v

/-- Loading `file` as a font gives a table `t` with contents `b`. -/
def InFile (file : Bytes) (t : Tag) (b : Bytes) : Prop :=
  ∃ v tables r, Font.readTables (Rd.new file) = .ok ((v, tables), r) ∧ BMap.get? tables t = some b

/-- At some point of the history of `s` the table `t` was replaced by the value `v` (as a new table or by inserting an
accessed and possibly modified one), and it was neither inserted nor removed since. -/
def Replaced (F : Fmt G O) (t : Tag) (v : Loaded G O) (s : Store.St (Loaded G O)) : Prop :=
  ∃ s0 s1 op o ops os, Reachable (parser F) s0 ∧
    (op = .insertNew t v ∨ ∃ i p, op = .insertHolder i ∧ s0.holder i = some (.cow t p) ∧ s0.read i = .value v) ∧
    Store.step (parser F) op s0 = .ok (o, s1) ∧ Store.run (parser F) ops s1 = .ok (os, s) ∧
    Quiet (parser F) t ops s1

/-- All tags are well-formed (as the `Tag` type guarantees). -/
def TagsValid (s : Store.St (Loaded G O)) : Prop := ∀ t, BMap.get? s.store t ≠ none → t.Valid

/-- The two file versions. -/
def VersionOk (version : UInt32) : Prop := version = 0x00010000 ∨ version = 0x4F54544F

/-! ### From states to files -/

theorem rep_store_unique {V : Type} {s : Store.St V} {a b : Indep.St V} (h : Rep s a) (h' : Rep s b) :
    a.store = b.store := by
  funext t
  have h1 := h.items t
  have h2 := h'.items t
  cases hs : BMap.get? s.store t with
  | none =>
    rw [hs] at h1 h2
    cases ha : a.store t with
    | none => cases hb : b.store t with
      | none => rfl
      | some => rw [hb] at h2; exact h2.elim
    | some => rw [ha] at h1; exact h1.elim
  | some x =>
    rw [hs] at h1 h2
    cases ha : a.store t with
    | none => rw [ha] at h1; cases x <;> exact h1.elim
    | some y => cases hb : b.store t with
      | none => rw [hb] at h2; cases x <;> exact h2.elim
      | some z =>
        rw [ha] at h1
        rw [hb] at h2
        cases x with
        | unloaded => cases y with
          | loaded => exact h1.elim
          | unloaded => cases z with
            | loaded => exact h2.elim
            | unloaded => rw [← show _ = _ from h1, ← show _ = _ from h2]
        | loaded => cases y with
          | unloaded => exact h1.elim
          | loaded u => cases z with
            | unloaded => exact h2.elim
            | loaded w =>
              obtain ⟨e1, e2, e3⟩ := h1
              obtain ⟨f1, f2, f3⟩ := h2
              rw [e3] at f3
              obtain ⟨u1, u2, u3⟩ := u
              obtain ⟨w1, w2, w3⟩ := w
              simp only at e1 e2 f1 f2 f3
              rw [← e1, ← e2, f1, f2, Option.some.inj f3]

theorem tagged_step {V : Type} (P : Parser V) (op : Op V) {a a' : Indep.St V} {o : Obs V} (ht : Tagged a)
    (h : Indep.step P op a = .ok (o, a')) : Tagged a' := by
  have hset : ∀ (t : Tag) (x : Option (Indep.Item V)) (vs : List (Option (Indep.Var V))),
      (∀ tb, x = some (.loaded tb) → tb.tag = t) → Tagged (⟨Indep.set a.store t x, vs⟩ : Indep.St V) := by
    intro t x vs hx t' tb e
    simp only [Indep.set] at e
    split at e
    · next e' => rw [e']; exact hx tb e
    · exact ht t' tb e
  cases op with
  | get t' => exact evolves_tagged (getAs_cases P t' _ a a' o h).1 ht
  | open_ t' => exact evolves_tagged (getAs_cases P t' _ a a' o h).1 ht
  | clone i =>
    simp only [Indep.step] at h
    cases ha : a.var i <;> rw [ha] at h <;> cases h <;> exact ht
  | read i => cases h; exact ht
  | modify i f =>
    simp only [Indep.step] at h
    cases ha : a.var i with
    | none => rw [ha] at h; cases h; exact ht
    | some y => rw [ha] at h; cases y <;> cases h <;> exact ht
  | intoOwned i => cases h; exact ht
  | insertHolder i =>
    simp only [Indep.step] at h
    cases ha : a.var i with
    | none => rw [ha] at h; cases h; exact ht
    | some y =>
      rw [ha] at h
      cases y <;> cases h <;> exact hset _ _ _ (fun tb e => by cases e; rfl)
  | insertNew t' v => cases h; exact hset _ _ _ (fun tb e => by cases e; rfl)
  | insertRaw t' b => cases h; exact hset _ _ _ (fun tb e => by cases e)
  | remove t' =>
    simp only [Indep.step] at h
    cases ha : a.store t' with
    | none => rw [ha] at h; cases h; exact ht
    | some x => rw [ha] at h; cases x <;> cases h <;> exact hset _ _ _ (fun tb e => by cases e)
  | drop i => cases h; exact ht
  | write t' => cases h; exact ht

theorem tagged_run {V : Type} (P : Parser V) : ∀ (ops : List (Op V)) (s s' : Store.St V) (a : Indep.St V)
    (os : List (Obs V)), Rep s a → Tagged a → Store.run P ops s = .ok (os, s') → ∃ a', Rep s' a' ∧ Tagged a'
  | [], s, s', a, os, h, ht, hr => by cases hr; exact ⟨a, h, ht⟩
  | op :: ops, s, s', a, os, h, ht, hr => by
    obtain ⟨o, s1, os', h1, h2, _⟩ := run_cons_ok hr
    obtain ⟨a1, e1, hr1⟩ := sameOut_ok (sim_step P op h) h1
    exact tagged_run P ops s1 s' a1 os' hr1 (tagged_step P op ht e1) h2

theorem Reachable.tagged {V : Type} {P : Parser V} {s : Store.St V} (h : Reachable P s) : ∃ a, Rep s a ∧ Tagged a := by
  obtain ⟨tables, ops, os, hs, hr⟩ := h
  refine tagged_run P ops _ s _ os (rep_fresh tables hs) ?_ hr
  intro t tb e
  simp only [Indep.fresh] at e
  cases hg : BMap.get? tables t <;> rw [hg] at e <;> cases e

theorem Replaced.item {t : Tag} {v : Loaded G O} {s : Store.St (Loaded G O)} (h : Replaced F t v s) :
    ∃ a, Rep s a ∧ Tagged a ∧ a.store t = some (.loaded ⟨t, none, v⟩) := by
  obtain ⟨s0, s1, op, o, ops, os, hreach, hop, h1, h2, hq⟩ := h
  obtain ⟨a0, hr0, ht0⟩ := hreach.tagged
  obtain ⟨a1, e1, hr1⟩ := sameOut_ok (sim_step (parser F) op hr0) h1
  have key : a1.store t = some (.loaded ⟨t, none, v⟩) := by
    rcases hop with rfl | ⟨i, p, rfl, hi, hri⟩
    · cases e1; simp [Indep.set]
    · have hv := hr0.vars i
      rw [hi] at hv
      rw [sim_read hr0] at hri
      cases ha : a0.var i with
      | none => rw [ha] at hv; exact hv.elim
      | some y =>
        rw [ha] at hv
        cases y with
        | table => exact hv.elim
        | cow t' v' =>
          obtain ⟨rfl, _⟩ := hv
          simp only [Indep.read, ha, Indep.Var.val, Obs.value.injEq] at hri
          subst hri
          simp only [Indep.step, ha] at e1
          cases e1
          simp [Indep.set]
  obtain ⟨a2, hr2, ht2⟩ := tagged_run (parser F) ops s1 s a1 os hr1 (tagged_step _ op ht0 e1) h2
  obtain ⟨a3, hr3, hev⟩ := quiet_evolves (parser F) t ops s1 s a1 os hr1 hq h2
  rw [key, ← rep_store_unique hr2 hr3] at hev
  rcases hev with e | ⟨_, _, _, e, _⟩
  · exact ⟨a2, hr2, ht2, e⟩
  · cases e

theorem mapL_inv {α β : Type} {f : α → Res β} : ∀ (l : List α) (bs : List β), Res.mapL f l = .ok bs →
    List.Forall₂ (fun a b => f a = .ok b) l bs
  | [], bs, h => by cases h; exact .nil
  | a :: l, bs, h => by
    simp only [Res.mapL] at h
    cases h1 : f a with
    | err => rw [h1] at h; cases h
    | panic => rw [h1] at h; cases h
    | ok b =>
      rw [h1] at h
      simp only at h
      cases h2 : Res.mapL f l with
      | err => rw [h2] at h; cases h
      | panic => rw [h2] at h; cases h
      | ok cs => rw [h2] at h; cases h; exact .cons h1 (mapL_inv l cs h2)

/-- The tables that are written, of a state. -/
theorem writeAll_ok {s : Store.St (Loaded G O)} {tables : List (Tag × Bytes)} (h : writeAll F s = .ok tables) :
    tables.map Prod.fst = s.store.map Prod.fst ∧ ∀ t b, (t, b) ∈ tables → s.write (parser F) t = .ok b := by
  have := mapL_inv _ _ h
  clear h
  generalize s.store.map Prod.fst = l at this
  induction this with
  | nil => exact ⟨rfl, fun t b hm => by cases hm⟩
  | @cons t x l' ts h1 _ ih =>
    obtain ⟨ih1, ih2⟩ := ih
    have hx : x.1 = t ∧ s.write (parser F) t = .ok x.2 := by
      cases hw : s.write (parser F) t with
      | err => rw [hw] at h1; cases h1
      | panic => rw [hw] at h1; cases h1
      | ok b => rw [hw] at h1; cases h1; exact ⟨rfl, rfl⟩
    refine ⟨by simp [hx.1, ih1], ?_⟩
    intro t' b' hm
    rcases List.mem_cons.mp hm with e | hm
    · rw [← e] at hx
      have := hx.1
      simp only at this
      rw [this]; exact hx.2
    · exact ih2 t' b' hm

theorem sorted_tags {α β : Type} {l : List (Tag × α)} {m : List (Tag × β)} (h : l.map Prod.fst = m.map Prod.fst)
    (hs : BMap.Sorted m) : BMap.Sorted l := by
  unfold BMap.Sorted at *
  have h1 : (m.map Prod.fst).Pairwise (fun x y => Key.lt x y = true) := List.pairwise_map.mpr hs
  rw [← h] at h1
  exact List.pairwise_map.mp h1

theorem sorted_ascending {l : List (Tag × Bytes)} (h : BMap.Sorted l) : AscendingTags l := by
  unfold BMap.Sorted at h
  unfold AscendingTags
  refine h.imp ?_
  intro x y hxy
  have := of_decide_eq_true hxy
  simp only [beValue_tag, Font.key]
  simpa [Tag.num] using this

/-- Tables of the final state are in the file. -/
theorem inFile_of {s : Store.St (Loaded G O)} {a : ASt G O} {version : UInt32} {tables : List (Tag × Bytes)}
    {file : Bytes} (hr : Rep s a) (hvalid : TagsValid s) (hver : VersionOk version)
    (hw : writeAll F s = .ok tables) (hf : Font.toBytes version tables = .ok file) (hsize : file.length < 2 ^ 32)
    (t : Tag) (b : Bytes) (hb : Indep.write (parser F) a t = .ok b) (hp : a.store t ≠ none) :
    (t ≠ tagHead → InFile file t b) ∧ (t = tagHead → ∃ b', sameExceptAdjustment b b' ∧ InFile file t b') := by
  obtain ⟨hk, hm⟩ := writeAll_ok hw
  have hst : BMap.Sorted tables := sorted_tags hk hr.sorted
  have hget : BMap.get? s.store t ≠ none := by
    have := hr.items t
    intro e
    rw [e] at this
    cases ha : a.store t with
    | none => exact hp ha
    | some y => rw [ha] at this; exact this.elim
  have hv : ∀ t b, (t, b) ∈ tables → t.Valid := by
    intro t b hmem
    refine hvalid t ?_
    have : t ∈ s.store.map Prod.fst := by rw [← hk]; exact List.mem_map.mpr ⟨_, hmem, rfl⟩
    obtain ⟨x, hx, rfl⟩ := List.mem_map.mp this
    rw [(BMap.get?_eq_some hr.sorted (v := x.2)).mpr hx]
    simp
  obtain ⟨tables', r', hread, hlen, hall⟩ :=
    C19_save_reload version tables file (sorted_ascending hst) hv hver hf hsize
  have htags : tables'.map Prod.fst = tables.map Prod.fst := by
    refine List.ext_getElem (by simp [hlen]) ?_
    intro i h1 h2
    simp only [List.length_map] at h1 h2
    simp only [List.getElem_map]
    exact (hall i h2 h1).1
  have hst' : BMap.Sorted tables' := sorted_tags htags hst
  cases hg : BMap.get? s.store t with
  | none => exact absurd hg hget
  | some x =>
    have hmem : t ∈ tables.map Prod.fst := by
      rw [hk]; exact List.mem_map.mpr ⟨_, (BMap.get?_eq_some hr.sorted).mp hg, rfl⟩
    obtain ⟨y, hy, rfl⟩ := List.mem_map.mp hmem
    have hyb : y.2 = b := by
      have := hm y.1 y.2 hy
      rw [sim_write hr, hb] at this
      exact (Res.ok.inj this).symm
    subst hyb
    obtain ⟨i, hi, rfl⟩ := List.mem_iff_getElem.mp hy
    have hi' : i < tables'.length := by omega
    obtain ⟨g1, g2, g3⟩ := hall i hi hi'
    have hin : InFile file tables[i].1 tables'[i].2 := by
      refine ⟨version, tables', r', hread, ?_⟩
      rw [BMap.get?_eq_some hst', ← g1]
      exact List.getElem_mem hi'
    constructor
    · intro hne
      rw [g2 (fun hh => hne ((isHead_iff _).mp hh))] at hin
      exact hin
    · intro he
      exact ⟨_, g3 ((isHead_iff _).mpr he), hin⟩

/-- A successful save, taken apart. -/
theorem save_ok {s : Store.St (Loaded G O)} {a : ASt G O} {version : UInt32} {file : Bytes} (hr : Rep s a)
    (h : save F version s = .ok file) :
    ∃ s' a' tables, Rep s' a' ∧ compileAll F (indepMachine F) a = .ok a' ∧ writeAll F s' = .ok tables ∧
      Font.toBytes version tables = .ok file := by
  obtain ⟨s', h1, h⟩ := bind_eq_ok h
  obtain ⟨tables, h2, h3⟩ := bind_eq_ok h
  have := sim_compileAll (sim_indep F) F hr
  rw [h1] at this
  cases ha : compileAll F (indepMachine F) a with
  | err => rw [ha] at this; exact this.elim
  | panic => rw [ha] at this; exact this.elim
  | ok a' => rw [ha] at this; exact ⟨s', a', tables, this, rfl, h2, h3⟩

/-! ### Reading metrics with another count -/

theorem metric_bounded : BoundedRead Hmtx.readMetric 4 := by
  intro r
  unfold Hmtx.readMetric
  constructor
  · intro h
    obtain ⟨a, e1⟩ := (C03_u16 r).1 (by omega)
    obtain ⟨b, e2⟩ := (C03_i16 { r with ptr := r.ptr + 2 }).1 (by simp; omega)
    exact ⟨⟨a, b⟩, by rw [Reader.bind_run, e1]; simp only; rw [Reader.bind_run, e2]; rfl⟩
  · intro h
    rw [Reader.bind_run]
    rcases Nat.lt_or_ge r.inp.length (r.ptr + 2) with h' | h'
    · rw [(C03_u16 r).2 h']
    · obtain ⟨a, e1⟩ := (C03_u16 r).1 h'
      rw [e1]
      simp only
      rw [Reader.bind_run, (C03_i16 { r with ptr := r.ptr + 2 }).2 (by simp; omega)]

theorem readVec_length {α : Type} {p : Reader α} {w : Nat} (hw : 0 < w) (hp : BoundedRead p w) : ∀ (k : Nat) (r : Rd),
    r.inp.length - r.ptr < k → ∃ l r', readVecFuel p k r = .ok (l, r') ∧ l.length = (r.inp.length - r.ptr) / w := by
  intro k
  induction k with
  | zero => intro r h; omega
  | succ k ih =>
    intro r h
    unfold readVecFuel
    rcases Nat.lt_or_ge r.inp.length (r.ptr + w) with hlt | hge
    · rw [(hp r).2 hlt]
      exact ⟨[], r, rfl, by rw [Nat.div_eq_of_lt (by omega)]; rfl⟩
    · obtain ⟨a, e⟩ := (hp r).1 hge
      rw [e]
      obtain ⟨l, r', e', hl⟩ := ih { r with ptr := r.ptr + w } (by simp; omega)
      refine ⟨a :: l, r', by simp only [e'], ?_⟩
      simp only [List.length_cons, hl]
      rw [show r.inp.length - r.ptr = (r.inp.length - (r.ptr + w)) + w by omega, Nat.add_div_right _ hw]

/-- Reading metrics: exactly when it succeeds, and how many there are. -/
theorem hmtx_read (n : UInt16) (b : Bytes) :
    (1 ≤ n.toNat → 4 * n.toNat ≤ b.length → ∃ (full : List Hmtx.Metric) (m : Hmtx.Metric) (others : List Int16), full.length = n.toNat ∧ full.getLast? = some m ∧
      others.length = (b.length - 4 * n.toNat) / 2 ∧
      runAll (Hmtx.fromBytes n) b = .ok (full ++ others.map (fun x => ⟨m.advanceWidth, x⟩))) ∧
    (∀ l, runAll (Hmtx.fromBytes n) b = .ok l → 1 ≤ n.toNat ∧ 4 * n.toNat ≤ b.length) := by
  have hc := C03_counted Hmtx.readMetric 4 n.toNat metric_bounded (Rd.new b) (by simp [Rd.new])
  simp only [Rd.new, Nat.zero_add] at hc
  constructor
  · intro hn hb
    obtain ⟨full, hl, e⟩ := hc.1 (by omega)
    obtain ⟨others, r', e2, ho⟩ := readVec_length (p := readI16) (by omega) C03_i16 (b.length + 1)
      ⟨b, n.toNat * 4, [0]⟩ (by simp; omega)
    cases hm : full.getLast? with
    | none => rw [List.getLast?_eq_none_iff] at hm; rw [hm] at hl; simp at hl; omega
    | some m =>
      refine ⟨full, m, others, hl, hm, by rw [ho]; simp [Nat.mul_comm], ?_⟩
      unfold runAll Hmtx.fromBytes
      rw [Reader.bind_run]
      simp only [Rd.new]
      rw [e]
      simp only
      rw [Reader.bind_run]
      unfold readVec
      simp only
      rw [e2]
      simp only [hm]
      rfl
  · intro l hl
    by_cases hb : 4 * n.toNat ≤ b.length
    · refine ⟨?_, hb⟩
      by_contra hn
      have h0 : n.toNat = 0 := by omega
      have : n = 0 := by apply UInt16.toNat_inj.mp; simpa using h0
      subst this
      unfold runAll at hl
      rw [(C27_empty_panics b).2] at hl
      cases hl
    · exfalso
      unfold runAll Hmtx.fromBytes at hl
      rw [Reader.bind_run] at hl
      simp only [Rd.new] at hl
      rw [hc.2 (by omega)] at hl
      cases hl

theorem takeWhile_ge {α : Type} (p : α → Bool) : ∀ (l m : List α), (∀ x ∈ l, p x = true) →
    l.length ≤ ((l ++ m).takeWhile p).length
  | [], m, _ => by simp
  | x :: l, m, h => by
    simp only [List.cons_append, List.takeWhile_cons, h x (by simp), if_true, List.length_cons]
    have := takeWhile_ge p l m (fun y hy => h y (by simp [hy]))
    omega

/-- The computed count is never larger than the count the metrics were read with. -/
theorem count_is (full : List Hmtx.Metric) (m : Hmtx.Metric) (others : List Int16) (hm : full.getLast? = some m) :
    ∃ k, 1 ≤ k ∧ k ≤ full.length ∧ Hmtx.numberOfHMetrics (full ++ others.map (fun x => ⟨m.advanceWidth, x⟩)) =
      if k > 65535 then .panic else .ok (UInt16.ofNat k) := by
  obtain ⟨init, rfl⟩ : ∃ init, full = init ++ [m] := by
    rw [List.getLast?_eq_some_iff] at hm; exact hm
  unfold Hmtx.numberOfHMetrics
  have hrev : (init ++ [m] ++ others.map (fun x => (⟨m.advanceWidth, x⟩ : Hmtx.Metric))).reverse =
      (others.map (fun x => (⟨m.advanceWidth, x⟩ : Hmtx.Metric))).reverse ++ m :: init.reverse := by simp
  have hadv : ∀ x ∈ (others.map (fun x => (⟨m.advanceWidth, x⟩ : Hmtx.Metric))).reverse,
      x.advanceWidth = m.advanceWidth := by
    intro x hx
    rw [List.mem_reverse] at hx
    obtain ⟨y, _, rfl⟩ := List.mem_map.mp hx
    rfl
  have hol : (others.map (fun x => (⟨m.advanceWidth, x⟩ : Hmtx.Metric))).reverse.length = others.length := by simp
  rw [hrev]
  generalize (others.map (fun x => (⟨m.advanceWidth, x⟩ : Hmtx.Metric))).reverse = R at hadv hol ⊢
  have hlen : (init ++ [m] ++ others.map (fun x => (⟨m.advanceWidth, x⟩ : Hmtx.Metric))).length =
      init.length + 1 + others.length := by simp; omega
  rw [hlen]
  have key : ∀ (y : Hmtx.Metric) (rest : List Hmtx.Metric), R ++ m :: init.reverse = y :: rest →
      others.length ≤ (rest.takeWhile (fun x => x.advanceWidth == y.advanceWidth)).length ∧
      rest.length = init.length + others.length := by
    intro y rest e
    cases R with
    | nil =>
      simp only [List.nil_append, List.cons.injEq] at e
      obtain ⟨rfl, rfl⟩ := e
      simp only [List.length_nil] at hol
      simp only [← hol]
      exact ⟨by omega, by simp⟩
    | cons z R =>
      simp only [List.cons_append, List.cons.injEq] at e
      obtain ⟨rfl, rfl⟩ := e
      simp only [List.length_cons] at hol
      have h2 := takeWhile_ge (fun x : Hmtx.Metric => x.advanceWidth == z.advanceWidth) (R ++ [m]) init.reverse (by
        intro x hx
        have hz := hadv z (by simp)
        rcases List.mem_append.mp hx with hx | hx
        · simp [hadv x (by simp [hx]), hz]
        · simp only [List.mem_singleton] at hx; subst hx; simp [hz])
      simp only [List.append_assoc, List.singleton_append, List.length_append, List.length_singleton] at h2
      exact ⟨by omega, by simp; omega⟩
  cases hR : R ++ m :: init.reverse with
  | nil => simp at hR
  | cons y rest =>
    obtain ⟨k1, k2⟩ := key y rest hR
    have k3 := (List.takeWhile_sublist (p := fun x : Hmtx.Metric => x.advanceWidth == y.advanceWidth) (l := rest)).length_le
    refine ⟨_, ?_, ?_, rfl⟩
    · omega
    · simp only [List.length_append, List.length_singleton]
      omega

theorem count_le (full : List Hmtx.Metric) (m : Hmtx.Metric) (others : List Int16) (n : UInt16)
    (hm : full.getLast? = some m)
    (h : Hmtx.numberOfHMetrics (full ++ others.map (fun x => ⟨m.advanceWidth, x⟩)) = .ok n) :
    1 ≤ n.toNat ∧ n.toNat ≤ full.length := by
  obtain ⟨k, k1, k2, e⟩ := count_is full m others hm
  rw [e] at h
  split at h
  · cases h
  · cases h
    rw [ofNat16_toNat (by omega)]
    omega

/-- Reading the same bytes with the computed count: the list gets longer by the number of dropped full metrics. -/
theorem reread_length (N n : UInt16) (b : Bytes) (l : List Hmtx.Metric) (h : runAll (Hmtx.fromBytes N) b = .ok l)
    (hn : Hmtx.numberOfHMetrics l = .ok n) :
    1 ≤ n.toNat ∧ n.toNat ≤ N.toNat ∧ ∃ l', runAll (Hmtx.fromBytes n) b = .ok l' ∧
      l'.length = l.length + (N.toNat - n.toNat) ∧ (l' = l ↔ n = N) := by
  obtain ⟨h1, h2⟩ := (hmtx_read N b).2 l h
  obtain ⟨full, m, others, e1, e2, e3, e4⟩ := (hmtx_read N b).1 h1 h2
  rw [h] at e4
  cases e4
  obtain ⟨c1, c2⟩ := count_le full m others n e2 hn
  obtain ⟨full', m', others', f1, f2, f3, f4⟩ := (hmtx_read n b).1 c1 (by omega)
  refine ⟨c1, by omega, _, f4, ?_, ?_⟩
  · simp only [List.length_append, List.length_map]
    omega
  · constructor
    · intro e
      have := congrArg List.length e
      simp only [List.length_append, List.length_map] at this
      apply UInt16.toNat_inj.mp
      omega
    · rintro rfl
      rw [h] at f4
      exact (Res.ok.inj f4).symm

/-! ### C25 and C58: saving after the glyphs were replaced -/

theorem opens_holds {s : Store.St (Loaded G O)} {a : ASt G O} (hr : Rep s a) {t : Tag} {v : Loaded G O}
    (hd : dep t = none) (h : Opens F s t v) : ItemHolds (parser F) t (a.store t) v := by
  obtain ⟨s1, h1, h2⟩ := h
  obtain ⟨a1, e1, hr1⟩ := sameOut_ok (sim_step (parser F) _ hr) h1
  obtain ⟨tb, hv, hh⟩ := open_nodep (F := F) hd e1
  have : lastVar s1 = .value (Indep.asCow tb).val := by
    have e : a1 = { a1 with vars := a.vars ++ [some (Indep.asCow tb)] } := by rw [← hv]
    rw [e] at hr1
    exact lastVar_push (a := ⟨a1.store, a.vars⟩) hr1
  rw [h2] at this
  obtain rfl := Obs.value.inj this
  exact hh

theorem opens_hmtx {s : Store.St (Loaded G O)} {a : ASt G O} (hr : Rep s a) {v : Loaded G O}
    (h : Opens F s tagHmtx v) : HmtxHolds F a v := by
  obtain ⟨s1, h1, h2⟩ := h
  obtain ⟨a1, e1, hr1⟩ := sameOut_ok (sim_step (parser F) _ hr) h1
  obtain ⟨tb, _, hv, hh⟩ := open_hmtx (F := F) e1
  have : lastVar s1 = .value (Indep.asCow tb).val := by
    have e : a1 = { a1 with vars := a.vars ++ [some (Indep.asCow tb)] } := by rw [← hv]
    rw [e] at hr1
    exact lastVar_push (a := ⟨a1.store, a.vars⟩) hr1
  rw [h2] at this
  obtain rfl := Obs.value.inj this
  exact hh

theorem get_none_iff {V : Type} {s : Store.St V} {a : Indep.St V} (h : Rep s a) (t : Tag) :
    BMap.get? s.store t = none ↔ a.store t = none := by
  have := h.items t
  cases hs : BMap.get? s.store t with
  | none => rw [hs] at this; cases ha : a.store t with
    | none => simp
    | some => rw [ha] at this; exact this.elim
  | some x => rw [hs] at this; cases ha : a.store t with
    | none => rw [ha] at this; cases x <;> exact this.elim
    | some => simp

theorem compileLoop_length (isEmpty : G → Bool) (ser : G → Res Bytes) : ∀ (gs : List G) (out o : Bytes)
    (ix : List UInt32), Loca.compileLoop isEmpty ser gs out = .ok (ix, o) → ix.length = gs.length
  | [], out, o, ix, h => by cases h; rfl
  | g :: gs, out, o, ix, h => by
    unfold Loca.compileLoop at h
    split at h
    · cases h
    · split at h
      · cases hc : Loca.compileLoop isEmpty ser gs out with
        | err => rw [hc] at h; cases h
        | panic => rw [hc] at h; cases h
        | ok r => rw [hc] at h; cases h; simp [compileLoop_length isEmpty ser gs _ _ _ hc]
      · cases hg : ser g with
        | err => rw [hg] at h; cases h
        | panic => rw [hg] at h; cases h
        | ok bs =>
          rw [hg] at h
          simp only at h
          cases hc : Loca.compileLoop isEmpty ser gs (Loca.pad4 (out ++ bs)) with
          | err => rw [hc] at h; cases h
          | panic => rw [hc] at h; cases h
          | ok r => rw [hc] at h; cases h; simp [compileLoop_length isEmpty ser gs _ _ _ hc]

theorem compile_length (isEmpty : G → Bool) (ser : G → Res Bytes) (gs : List G) (out loca : Bytes) (is32 : Bool)
    (h : Loca.compile isEmpty ser gs = .ok (out, loca, is32)) :
    loca.length = (gs.length + 1) * (if is32 then 4 else 2) ∧ (is32 = true ↔ 65535 < out.length) := by
  unfold Loca.compile at h
  cases hc : Loca.compileLoop isEmpty ser gs [] with
  | err => rw [hc] at h; cases h
  | panic => rw [hc] at h; cases h
  | ok r =>
    obtain ⟨ix, o⟩ := r
    rw [hc] at h
    have hl := compileLoop_length isEmpty ser gs _ _ _ hc
    simp only at h
    generalize (if o.isEmpty then [0] else o) = data at h
    split at h
    · cases h
    · by_cases hb : 65535 < data.length
      · rw [if_pos (by simpa using hb)] at h
        cases h
        refine ⟨?_, by simpa using hb⟩
        rw [encVec_length (k := 4) (by intro x; exact encU32_length x)]
        simp [hl, Nat.mul_comm]
      · rw [if_neg (by simpa using hb)] at h
        cases h
        refine ⟨?_, by simpa using hb⟩
        rw [encVec_length (k := 2) (by intro x; exact encU16_length x)]
        simp [hl, Nat.mul_comm]

section saved
variable {gs : List G} {s : Store.St (Loaded G O)} {version : UInt32} {file : Bytes}

/-- Everything the file contains after the glyphs were replaced. -/
theorem saved_file (hg : Replaced F tagGlyf (.glyf gs) s) (hvalid : TagsValid s) (hver : VersionOk version)
    (hs : save F version s = .ok file) (hsize : file.length < 2 ^ 32) :
    ∃ a a', Rep s a ∧ compileAll F (indepMachine F) a = .ok a' ∧ Tagged a ∧
      a.store tagGlyf = some (.loaded ⟨tagGlyf, none, .glyf gs⟩) ∧
      ∀ t b, Indep.write (parser F) a' t = .ok b → a'.store t ≠ none →
        (t ≠ tagHead → InFile file t b) ∧ (t = tagHead → ∃ b', sameExceptAdjustment b b' ∧ InFile file t b') := by
  obtain ⟨a, hr, ht, hi⟩ := hg.item
  obtain ⟨s', a', tables, hr', hc, hw, hf⟩ := save_ok hr hs
  refine ⟨a, a', hr, hc, ht, hi, ?_⟩
  have hvalid' : TagsValid s' := by
    intro t hne
    have hne' : a'.store t ≠ none := fun e => hne ((get_none_iff hr' t).mpr e)
    by_cases el : t = tagLoca
    · subst el; decide
    · refine hvalid t (fun e => hne' ?_)
      obtain ⟨_, _, _, _, _, _, _, _, _, _, hk⟩ := compileAll_ok ht hi hc
      exact hk t ((get_none_iff hr t).mp e) el
  intro t b hb hp
  exact inFile_of hr' hvalid' hver hw hf hsize t b hb hp

theorem encHead_adjust (h : Head) (b' : Bytes) (hb : sameExceptAdjustment (encHead h) b') :
    ∃ adj, b' = encHead { h with checksumAdjustment := adj } := by
  obtain ⟨adj, hl, rfl⟩ := hb
  match adj, hl with
  | [a, b, c, d], _ =>
    refine ⟨UInt32.ofNat (beValue [a, b, c, d]), ?_⟩
    have henc : encU32 (UInt32.ofNat (beValue [a, b, c, d])) = [a, b, c, d] := by
      have h1 := a.toNat_lt; have h2 := b.toNat_lt; have h3 := c.toNat_lt; have h4 := d.toNat_lt
      unfold encU32 beValue
      simp only [List.foldl]
      rw [ofNat32_toNat (by omega)]
      simp only [List.cons.injEq, and_true]
      refine ⟨?_, ?_, ?_, ?_⟩ <;> apply UInt8.toNat_inj.mp <;> rw [UInt8.toNat_ofNat'] <;> omega
    unfold encHead
    simp only [henc]
    rfl

/-- **C25.** After the glyphs are replaced and the font is saved, the file contains the compiled glyphs and locations
(described by C26): one location per glyph plus one, 32-bit locations exactly when the data is longer than 65535
bytes, and the head table as it was, except that its location format says so (and the checksum adjustment). -/
theorem C25_saved (hg : Replaced F tagGlyf (.glyf gs) s) (hvalid : TagsValid s) (hver : VersionOk version)
    (hs : save F version s = .ok file) (hsize : file.length < 2 ^ 32) (h : Head) (hh : Opens F s tagHead (.head h)) :
    ∃ out loca is32 adj, Loca.compile F.isEmpty F.serGlyph gs = .ok (out, loca, is32) ∧
      InFile file tagGlyf out ∧ InFile file tagLoca loca ∧
      loca.length = (gs.length + 1) * (if is32 then 4 else 2) ∧ (is32 = true ↔ 65535 < out.length) ∧
      InFile file tagHead (encHead { h with indexToLocFormat := if is32 then 1 else 0, checksumAdjustment := adj }) := by
  obtain ⟨a, a', hr, hc, ht, hi, hin⟩ := saved_file hg hvalid hver hs hsize
  obtain ⟨out, loca, is32, hcomp, _, ⟨g1, g2⟩, ⟨l1, l2⟩, ⟨v, e1, e2⟩, _⟩ := compileAll_ok ht hi hc
  obtain rfl := holds_unique (opens_holds hr rfl hh) e1
  obtain ⟨c1, c2⟩ := compile_length _ _ _ _ _ _ hcomp
  have hw : Indep.write (parser F) a' tagHead =
      .ok (encHead { h with indexToLocFormat := if is32 then 1 else 0 }) := by
    unfold Indep.write
    rw [e2]
    rfl
  obtain ⟨b', hb1, hb2⟩ := (hin tagHead _ hw (by rw [e2]; simp)).2 rfl
  obtain ⟨adj, rfl⟩ := encHead_adjust _ _ hb1
  exact ⟨out, loca, is32, adj, hcomp, (hin _ _ g1 g2).1 (by decide), (hin _ _ l1 l2).1 (by decide), c1, c2, hb2⟩

/-- **C25.** The glyph count in the file is the one the font had before: it is right only if it was right already. -/
theorem C25_count_kept (hg : Replaced F tagGlyf (.glyf gs) s) (hvalid : TagsValid s) (hver : VersionOk version)
    (hs : save F version s = .ok file) (hsize : file.length < 2 ^ 32) (b : Bytes) (m : Maxp)
    (hm : BMap.get? s.store tagMaxp ≠ none) (hb : s.write (parser F) tagMaxp = .ok b)
    (hp : runAll readMaxp b = .ok m) :
    InFile file tagMaxp b ∧
    ((∃ b' m', InFile file tagMaxp b' ∧ runAll readMaxp b' = .ok m' ∧ m'.numGlyphs.toNat = gs.length) ↔
      m.numGlyphs.toNat = gs.length) := by
  obtain ⟨a, a', hr, hc, ht, hi, hin⟩ := saved_file hg hvalid hver hs hsize
  have hev := compileAll_rest ht hc tagMaxp (by decide) (by decide) (by decide) (by decide) (by decide) (by decide)
  rw [sim_write hr] at hb
  have hn : a'.store tagMaxp ≠ none := fun e => hm ((get_none_iff hr _).mpr ((evolves_none hev).mpr e))
  have hf := (hin tagMaxp b (by rw [evolves_write hev]; exact hb) hn).1 (by decide)
  refine ⟨hf, ?_, fun e => ⟨b, m, hf, hp, e⟩⟩
  rintro ⟨b', m', ⟨v, tb, r, e1, e2⟩, h2, h3⟩
  obtain ⟨v', tb', r', f1, f2⟩ := hf
  rw [e1] at f1
  cases f1
  rw [e2] at f2
  cases f2
  rw [hp] at h2
  cases h2
  exact h3

/-- **C58.** After the glyphs are replaced and the font is saved, the number of full metrics in hhea is recomputed, but
the metrics themselves are written as they were. They read back equal only if the old number was already the smallest
possible one; otherwise there are too many metrics, by exactly the difference. -/
theorem C58_metrics (hg : Replaced F tagGlyf (.glyf gs) s) (hvalid : TagsValid s) (hver : VersionOk version)
    (hs : save F version s = .ok file) (hsize : file.length < 2 ^ 32) (h : Hhea) (l : List Hmtx.Metric) (b : Bytes)
    (hh : Opens F s tagHhea (.hhea h)) (hm : Opens F s tagHmtx (.hmtx l)) (hb : s.write (parser F) tagHmtx = .ok b)
    (hp : runAll (Hmtx.fromBytes h.numberOfHMetrics) b = .ok l) :
    ∃ n l', InFile file tagHhea (encHhea { h with numberOfHMetrics := n }) ∧ InFile file tagHmtx b ∧
      Hmtx.numberOfHMetrics l = .ok n ∧ n.toNat ≤ h.numberOfHMetrics.toNat ∧
      runAll (Hmtx.fromBytes n) b = .ok l' ∧ l'.length = l.length + (h.numberOfHMetrics.toNat - n.toNat) ∧
      (l' = l ↔ n = h.numberOfHMetrics) := by
  obtain ⟨a, a', hr, hc, ht, hi, hin⟩ := saved_file hg hvalid hver hs hsize
  obtain ⟨_, _, _, _, _, _, _, _, hhea, _⟩ := compileAll_ok ht hi hc
  have hev := compileAll_rest ht hc tagHmtx (by decide) (by decide) (by decide) (by decide) (by decide) (by decide)
  have h1 := opens_hmtx hr hm
  have h2 := opens_holds hr (F := F) (t := tagHhea) rfl hh
  have hmn : a.store tagHmtx ≠ none := by
    rcases h1 with ⟨tb, e, _⟩ | ⟨b, w, e, _⟩ <;> rw [e] <;> simp
  have hhn : a.store tagHhea ≠ none := by
    rcases h2 with ⟨tb, e, _⟩ | ⟨b, e, _⟩ <;> rw [e] <;> simp
  rcases hhea with ⟨e | e, _⟩ | ⟨l2, n, v, g1, g2, g3, g4⟩
  · exact absurd e hmn
  · exact absurd e hhn
  · obtain rfl := holds_unique h2 g3
    have := hmtxHolds_unique h1 g1
    cases this
    obtain ⟨_, c2, l', c3, c4, c5⟩ := reread_length _ n b l hp g2
    refine ⟨n, l', ?_, ?_, g2, c2, c3, c4, c5⟩
    · refine (hin tagHhea _ ?_ (by rw [g4]; simp)).1 (by decide)
      unfold Indep.write
      rw [g4]
      rfl
    · rw [sim_write hr] at hb
      exact (hin tagHmtx b (by rw [evolves_write hev]; exact hb)
        (fun e => hmn ((evolves_none hev).mpr e))).1 (by decide)

end saved

/-! ### C59: tables that cannot be written -/

/-- A value of one of the tables that the code cannot serialize on its own. -/
def Unwritable (t : Tag) (v : Loaded G O) : Prop :=
  (t = tagHmtx ∧ ∃ l, v = .hmtx l) ∨ ((t = tagGvar ∨ t = tagMATH) ∧ ∃ x, v = .other t x)

/-- **C59.** Once hmtx, gvar or MATH is inserted as a value (even one obtained from the font and not modified), saving
never succeeds. -/
theorem C59_never_saved (t : Tag) (v : Loaded G O) (hv : Unwritable t v) (s : Store.St (Loaded G O))
    (hr : Replaced F t v s) (version : UInt32) (file : Bytes) : save F version s ≠ .ok file := by
  intro hs
  obtain ⟨a, hrep, ht, hi⟩ := hr.item
  obtain ⟨s', a', tables, hr', hc, hw, hf⟩ := save_ok hrep hs
  have hne : t ≠ tagGlyf ∧ t ≠ tagLoca ∧ t ≠ tagHead ∧ t ≠ tagHhea ∧ t ≠ tagGPOS ∧ t ≠ tagGSUB := by
    rcases hv with ⟨rfl, _⟩ | ⟨rfl | rfl, _⟩ <;> decide
  have hser : ser F v = .panic := by
    rcases hv with ⟨rfl, l, rfl⟩ | ⟨rfl | rfl, x, rfl⟩ <;> rfl
  obtain ⟨n1, n2, n3, n4, n5, n6⟩ := hne
  have hev := compileAll_rest ht hc t n1 n2 n3 n4 n5 n6
  have hst : a'.store t = some (.loaded ⟨t, none, v⟩) := by
    rcases hev with e | ⟨_, _, _, e, _⟩
    · rw [e, hi]
    · rw [hi] at e; cases e
  obtain ⟨hk, hm⟩ := writeAll_ok hw
  cases hg : BMap.get? s'.store t with
  | none => rw [(get_none_iff hr' t).mp hg] at hst; cases hst
  | some x =>
    have hmem : t ∈ tables.map Prod.fst := by
      rw [hk]; exact List.mem_map.mpr ⟨_, (BMap.get?_eq_some hr'.sorted).mp hg, rfl⟩
    obtain ⟨y, hy, rfl⟩ := List.mem_map.mp hmem
    have := hm y.1 y.2 hy
    rw [sim_write hr'] at this
    unfold Indep.write at this
    rw [hst] at this
    simp only [parser, hser] at this
    cases this

/-! ### C60: saving a font that was only looked at -/

theorem fresh_evolves {tables : List (Tag × Bytes)} (hs : BMap.Sorted tables) {ops : List (Op (Loaded G O))}
    {os : List (Obs (Loaded G O))} {s : Store.St (Loaded G O)}
    (h : Store.run (parser F) ops (Store.fresh tables) = .ok (os, s))
    (hq : ∀ t, Quiet (parser F) t ops (Store.fresh tables)) :
    ∃ a, Rep s a ∧ ∀ t, Evolves (parser F) t ((BMap.get? tables t).map .unloaded) (a.store t) := by
  obtain ⟨a, hr, _⟩ := quiet_evolves (parser F) tagMaxp ops _ s _ os (rep_fresh tables hs) (hq _) h
  refine ⟨a, hr, fun t => ?_⟩
  obtain ⟨a', hr', hev⟩ := quiet_evolves (parser F) t ops _ s _ os (rep_fresh tables hs) (hq t) h
  rw [rep_store_unique hr hr']
  exact hev

/-- Everything present is still in its raw form. -/
theorem isSer_evolved {b : Option Bytes} {a : ASt G O} {t : Tag}
    (h : Evolves (parser F) t (b.map .unloaded) (a.store t)) : (isSerializedA a t).getD true = true := by
  unfold isSerializedA
  rcases h with e | ⟨b', v, d, _, e2, _⟩
  · rw [e]; cases b <;> rfl
  · rw [e2]; rfl

theorem compileAll_untouched {tables : List (Tag × Bytes)} {a : ASt G O}
    (hev : ∀ t, Evolves (parser F) t ((BMap.get? tables t).map .unloaded) (a.store t)) :
    (∀ b m, BMap.get? tables tagMaxp = some b → runAll readMaxp b = .ok m →
      ∃ a', compileAll F (indepMachine F) a = .ok a' ∧
        ∀ t, Evolves (parser F) t ((BMap.get? tables t).map .unloaded) (a'.store t)) ∧
    (BMap.get? tables tagMaxp = none → compileAll F (indepMachine F) a = .panic) := by
  have hg : compileGlyf F (indepMachine F) a = .ok a := by
    unfold compileGlyf
    simp only [indepMachine, isSer_evolved (hev _), Bool.and_self, if_true]
  unfold compileAll
  rw [hg, Res.ok_bind]
  constructor
  · intro b m hb hm
    have hp : parse F tagMaxp b none = .ok (.maxp m) := by
      unfold parse
      rw [if_neg (by decide), if_neg (by decide), if_pos rfl, hm]
      rfl
    obtain ⟨a1, h1, hv1, hev1⟩ : ∃ a1, access (indepMachine F) tagMaxp a = .ok (some a.vars.length, a1) ∧
        a1.vars = a.vars ++ [some (.cow tagMaxp (.maxp m))] ∧
        ∀ t, Evolves (parser F) t ((BMap.get? tables t).map .unloaded) (a1.store t) := by
      have h0 := hev tagMaxp
      rw [hb] at h0
      rcases h0 with e | ⟨b', v, d, e1, e2, e3, e4⟩
      · refine ⟨⟨Indep.set a.store tagMaxp (some (.loaded ⟨tagMaxp, some b, .maxp m⟩)),
          a.vars ++ [some (.cow tagMaxp (.maxp m))]⟩, ?_, rfl, ?_⟩
        · simp only [Option.map_some] at e
          have hl : Indep.load (parser F) 4 tagMaxp a =
              .ok (true, { a with store := Indep.set a.store tagMaxp (some (.loaded ⟨tagMaxp, some b, .maxp m⟩)) }) := by
            unfold Indep.load
            rw [e]
            simp only [show (parser F).dep tagMaxp = none from rfl, Indep.finish,
              show (parser F).parse tagMaxp b none = .ok (.maxp m) from hp]
          unfold access
          simp only [indepMachine, Indep.step, Indep.getAs, hl]
          simp [Indep.set, Indep.asCow]
        · intro t
          simp only [Indep.set]
          split
          · next e' =>
            subst e'
            rw [hb]
            exact .inr ⟨b, _, none, rfl, rfl, hp, fun _ => rfl⟩
          · exact hev t
      · cases e1
        obtain rfl := e4 rfl
        rw [show (parser F).parse tagMaxp b none = .ok (.maxp m) from hp] at e3
        cases e3
        refine ⟨{ a with vars := a.vars ++ [some (.cow tagMaxp (.maxp m))] }, ?_, rfl, hev⟩
        unfold access
        simp [indepMachine, Indep.step, Indep.getAs, Indep.load, e2, Indep.asCow]
    unfold compileLayouts
    rw [h1, Res.ok_bind]
    have hval : valueOf (indepMachine F) a.vars.length a1 = .ok (.maxp m) := by
      simp [valueOf, indepMachine, Indep.step, Indep.read, Indep.St.var, hv1, Indep.Var.val]
    simp only
    rw [hval, Res.ok_bind]
    simp only
    have hd : exec (indepMachine F) (.drop a.vars.length) a1 = .ok { a1 with vars := a1.vars.set a.vars.length none } :=
      rfl
    rw [hd, Res.ok_bind]
    have hlay : ∀ t, compileLayout F (indepMachine F) m.numGlyphs t
        { a1 with vars := a1.vars.set a.vars.length none } = .ok { a1 with vars := a1.vars.set a.vars.length none } := by
      intro t
      unfold compileLayout
      rw [if_pos]
      exact isSer_evolved (b := BMap.get? tables t) (hev1 t)
    rw [hlay, Res.ok_bind, hlay]
    exact ⟨_, rfl, hev1⟩
  · intro hn
    have h0 := hev tagMaxp
    rw [hn] at h0
    have h0 : a.store tagMaxp = none := by
      rcases h0 with e | ⟨_, _, _, e, _⟩
      · exact e
      · cases e
    unfold compileLayouts access
    simp only [indepMachine, Indep.step, Indep.getAs, Indep.load, h0]
    rfl

theorem mapL_eq {α β : Type} {f : α → Res β} : ∀ (l : List α), (∀ a ∈ l, ∃ b, f a = .ok b) → ∃ bs, Res.mapL f l = .ok bs
  | [], _ => ⟨[], rfl⟩
  | a :: l, h => by
    obtain ⟨b, e⟩ := h a (by simp)
    obtain ⟨bs, e'⟩ := mapL_eq l (fun x hx => h x (by simp [hx]))
    exact ⟨b :: bs, by simp only [Res.mapL, e, e']⟩

/-- **C60.** Saving a font after any history of reading its tables (opening, cloning, even modifying copies) without
inserting or removing any writes exactly the tables it was loaded with, provided it has a readable maxp. -/
theorem C60_unmodified (tables : List (Tag × Bytes)) (hs : BMap.Sorted tables) (ops : List (Op (Loaded G O)))
    (os : List (Obs (Loaded G O))) (s : Store.St (Loaded G O))
    (h : Store.run (parser F) ops (Store.fresh tables) = .ok (os, s))
    (hq : ∀ t, Quiet (parser F) t ops (Store.fresh tables)) (b : Bytes) (m : Maxp)
    (hb : BMap.get? tables tagMaxp = some b) (hm : runAll readMaxp b = .ok m) (version : UInt32) :
    save F version s = Font.toBytes version tables := by
  obtain ⟨a, hr, hev⟩ := fresh_evolves hs h hq
  obtain ⟨a', hc, hev'⟩ := (compileAll_untouched hev).1 b m hb hm
  have hsim := sim_compileAll (sim_indep F) F hr
  rw [hc] at hsim
  cases hc' : compileAll F (storeMachine F) s with
  | err => rw [hc'] at hsim; exact hsim.elim
  | panic => rw [hc'] at hsim; exact hsim.elim
  | ok s' =>
    rw [hc'] at hsim
    have hr' : Rep s' a' := hsim
    unfold save
    rw [hc', Res.ok_bind]
    have hw : ∀ t, BMap.get? s'.store t ≠ none → ∃ b, BMap.get? tables t = some b ∧ s'.write (parser F) t = .ok b := by
      intro t ht
      cases hg : BMap.get? tables t with
      | none =>
        have := hev' t
        rw [hg] at this
        exact absurd ((get_none_iff hr' t).mpr ((evolves_none this).mp rfl)) ht
      | some b =>
        refine ⟨b, rfl, ?_⟩
        have := hev' t
        rw [hg] at this
        rw [sim_write hr']
        exact (evolves_unloaded this).1
    obtain ⟨T, hT⟩ : ∃ T, writeAll F s' = .ok T := by
      refine mapL_eq _ ?_
      intro t ht
      obtain ⟨x, hx, rfl⟩ := List.mem_map.mp ht
      obtain ⟨b, _, e⟩ := hw x.1 (by rw [(BMap.get?_eq_some hr'.sorted (v := x.2)).mpr hx]; simp)
      rw [e]
      exact ⟨_, rfl⟩
    obtain ⟨hk, hmem⟩ := writeAll_ok hT
    have hst : BMap.Sorted T := sorted_tags hk hr'.sorted
    have : T = tables := by
      refine BMap.ext hst hs ?_
      intro t
      cases hg : BMap.get? s'.store t with
      | none =>
        have h1 : BMap.get? tables t = none := by
          have := hev' t
          rw [(get_none_iff hr' t).mp hg] at this
          have := (evolves_none this).mpr rfl
          cases ht : BMap.get? tables t with
          | none => rfl
          | some => rw [ht] at this; cases this
        rw [h1]
        rw [BMap.get?_eq_none hst]
        rw [BMap.get?_eq_none hr'.sorted] at hg
        intro v hv e
        have : t ∈ s'.store.map Prod.fst := by rw [← hk]; exact List.mem_map.mpr ⟨_, hv, e⟩
        obtain ⟨x, hx, rfl⟩ := List.mem_map.mp this
        exact hg x hx rfl
      | some x =>
        obtain ⟨b, e1, e2⟩ := hw t (by rw [hg]; simp)
        rw [e1]
        have : t ∈ T.map Prod.fst := by
          rw [hk]; exact List.mem_map.mpr ⟨_, (BMap.get?_eq_some hr'.sorted).mp hg, rfl⟩
        obtain ⟨y, hy, rfl⟩ := List.mem_map.mp this
        rw [BMap.get?_eq_some hst]
        have := hmem y.1 y.2 hy
        rw [e2] at this
        cases this
        exact hy
    rw [hT, Res.ok_bind, this]

/-- **C60.** Without a maxp table, saving a font panics even if nothing was changed. -/
theorem C60_needs_maxp (tables : List (Tag × Bytes)) (hs : BMap.Sorted tables) (ops : List (Op (Loaded G O)))
    (os : List (Obs (Loaded G O))) (s : Store.St (Loaded G O))
    (h : Store.run (parser F) ops (Store.fresh tables) = .ok (os, s))
    (hq : ∀ t, Quiet (parser F) t ops (Store.fresh tables)) (hb : BMap.get? tables tagMaxp = none)
    (version : UInt32) : save F version s = .panic := by
  obtain ⟨a, hr, hev⟩ := fresh_evolves hs h hq
  have hc := (compileAll_untouched hev).2 hb
  have hsim := sim_compileAll (sim_indep F) F hr
  rw [hc] at hsim
  unfold save
  cases hc' : compileAll F (storeMachine F) s with
  | err => rw [hc'] at hsim; exact hsim.elim
  | panic => rfl
  | ok s' => rw [hc'] at hsim; exact hsim.elim

/-! ### Examples -/

/-- Glyphs that are just byte strings. -/
def toyFmt : Fmt Bytes Bytes where
  isEmpty := List.isEmpty
  serGlyph := Res.ok
  parseGlyf := fun b l => .ok (l.map (fun _ => b))
  parseOther := fun _ b _ => .ok b
  serOther := fun _ x => .ok x
  serLayout := fun _ x _ => .ok (x, true)

def toyHead : Bytes := [0, 1, 0, 0] ++ List.replicate 50 0
/-- Two full metrics with the same advance width: one would do. -/
def toyHmtx : Bytes := [0, 9, 0, 1, 0, 9, 0, 2]
def toyFont : List (Tag × Bytes) :=
  [(tagGlyf, [1, 2, 3, 4]), (tagHead, toyHead), (tagHhea, List.replicate 34 0 ++ [0, 2]), (tagHmtx, toyHmtx),
   (tagLoca, [0, 0, 0, 2]), (tagMaxp, [0, 0, 0x50, 0, 0, 1])]

/-- The single glyph was replaced by two. -/
def toyState : Store.St (Loaded Bytes Bytes) :=
  { (Store.fresh toyFont : Store.St (Loaded Bytes Bytes)) with
    heap := [.glyf [[5, 6], [7]]],
    store := BMap.insert (Store.fresh toyFont : Store.St (Loaded Bytes Bytes)).store tagGlyf (.loaded ⟨tagGlyf, none, 0⟩) }

theorem toy_sorted : BMap.Sorted toyFont := by unfold BMap.Sorted toyFont; decide

theorem toy_replaced : Replaced toyFmt tagGlyf (.glyf [[5, 6], [7]]) toyState :=
  ⟨Store.fresh toyFont, toyState, .insertNew tagGlyf (.glyf [[5, 6], [7]]), .done, [], [],
    ⟨toyFont, [], [], toy_sorted, rfl⟩, .inl rfl, rfl, rfl, trivial⟩

theorem toy_valid : TagsValid toyState := by
  intro t ht
  have hs : BMap.Sorted toyState.store := by unfold BMap.Sorted; decide
  cases h : BMap.get? toyState.store t with
  | none => exact absurd h ht
  | some x =>
    rw [BMap.get?_eq_some hs] at h
    have : t ∈ toyState.store.map Prod.fst := List.mem_map.mpr ⟨_, h, rfl⟩
    revert this
    have : ∀ t ∈ toyState.store.map Prod.fst, t.Valid := by decide
    exact this t

def okLength (r : Res Bytes) : Option Nat := match r with
  | .ok b => some b.length
  | _ => none

theorem okLength_some {r : Res Bytes} {n : Nat} (h : okLength r = some n) : ∃ b, r = .ok b ∧ b.length = n := by
  cases r with
  | ok b => exact ⟨b, rfl, Option.some.inj h⟩
  | err => cases h
  | panic => cases h

theorem toy_saved : ∃ file, save toyFmt 0x00010000 toyState = .ok file ∧ file.length < 2 ^ 32 := by
  obtain ⟨file, h1, h2⟩ := okLength_some (r := save toyFmt 0x00010000 toyState) (n := 232) (by decide +kernel)
  exact ⟨file, h1, by omega⟩

theorem toy_head : ∃ h, Opens toyFmt toyState tagHead (.head h) := ⟨_, _, rfl, rfl⟩
theorem toy_hhea : ∃ h : Hhea, Opens toyFmt toyState tagHhea (.hhea h) ∧ h.numberOfHMetrics = 2 :=
  ⟨_, ⟨_, rfl, rfl⟩, rfl⟩
theorem toy_hmtx : Opens toyFmt toyState tagHmtx (.hmtx [⟨9, 1⟩, ⟨9, 2⟩]) := ⟨_, rfl, rfl⟩

/-- All hypotheses of C25 and C58 together. -/
example : ∃ file h hh out loca is32 adj, save toyFmt 0x00010000 toyState = .ok file ∧
    Opens toyFmt toyState tagHead (.head h) ∧ Opens toyFmt toyState tagHhea (.hhea hh) ∧
    Loca.compile toyFmt.isEmpty toyFmt.serGlyph [[5, 6], [7]] = .ok (out, loca, is32) ∧
    InFile file tagGlyf out ∧ InFile file tagLoca loca ∧
    InFile file tagHead (encHead { h with indexToLocFormat := if is32 then 1 else 0, checksumAdjustment := adj }) := by
  obtain ⟨file, h1, h2⟩ := toy_saved
  obtain ⟨h, hh⟩ := toy_head
  obtain ⟨hx, hhx, _⟩ := toy_hhea
  obtain ⟨out, loca, is32, adj, e1, e2, e3, _, _, e4⟩ :=
    C25_saved toy_replaced toy_valid (.inl rfl) h1 h2 h hh
  exact ⟨file, h, hx, out, loca, is32, adj, h1, hh, hhx, e1, e2, e3, e4⟩

/-- **C25, as originally claimed, is false**: after replacing one glyph by two, the saved file still says that there is
one glyph. -/
theorem C25_count_wrong : ∃ file b m, Replaced toyFmt tagGlyf (.glyf [[5, 6], [7]]) toyState ∧
    save toyFmt 0x00010000 toyState = .ok file ∧ InFile file tagMaxp b ∧ runAll readMaxp b = .ok m ∧
    m.numGlyphs = 1 := by
  obtain ⟨file, h1, h2⟩ := toy_saved
  have hm : runAll readMaxp [0, 0, 0x50, 0, 0, 1] = .ok ⟨0x00008000, .v05 ⟨1⟩⟩ := rfl
  refine ⟨file, [0, 0, 0x50, 0, 0, 1], _, toy_replaced, h1, ?_, hm, rfl⟩
  exact (C25_count_kept toy_replaced toy_valid (.inl rfl) h1 h2 _ _ (by decide) rfl hm).1

/-- **C58, witness**: two metrics become three in the saved file. -/
theorem C58_metrics_grow : ∃ (file : Bytes) (hh : Hhea) (l' : List Hmtx.Metric), save toyFmt 0x00010000 toyState = .ok file ∧
    Opens toyFmt toyState tagHmtx (.hmtx [⟨9, 1⟩, ⟨9, 2⟩]) ∧
    InFile file tagHhea (encHhea { hh with numberOfHMetrics := 1 }) ∧ InFile file tagHmtx toyHmtx ∧
    runAll (Hmtx.fromBytes 1) toyHmtx = .ok l' ∧ l'.length = 3 := by
  obtain ⟨file, h1, h2⟩ := toy_saved
  obtain ⟨hh, e1, e2⟩ := toy_hhea
  obtain ⟨n, l', g1, g2, g3, _, g5, g6, _⟩ := C58_metrics toy_replaced toy_valid (.inl rfl) h1 h2 hh
    [⟨9, 1⟩, ⟨9, 2⟩] toyHmtx e1 toy_hmtx rfl (by rw [e2]; rfl)
  have : Hmtx.numberOfHMetrics [⟨9, 1⟩, ⟨9, 2⟩] = .ok 1 := by decide
  rw [this] at g3
  cases g3
  exact ⟨file, hh, l', h1, toy_hmtx, g1, g2, g5, by rw [g6, e2]; rfl⟩

/-- C59 is not vacuous: opening hmtx and inserting it again, unmodified. -/
example : ∃ s, Replaced toyFmt tagHmtx (.hmtx [⟨9, 1⟩, ⟨9, 2⟩]) s ∧ ∀ version file, save toyFmt version s ≠ .ok file := by
  have h : Replaced toyFmt tagHmtx (.hmtx [⟨9, 1⟩, ⟨9, 2⟩]) _ :=
    ⟨Store.fresh toyFont, _, .insertNew tagHmtx (.hmtx [⟨9, 1⟩, ⟨9, 2⟩]), .done, [], [],
      ⟨toyFont, [], [], toy_sorted, rfl⟩, .inl rfl, rfl, rfl, trivial⟩
  exact ⟨_, h, C59_never_saved _ _ (.inl ⟨rfl, _, rfl⟩) _ h⟩

/-- C60 is not vacuous: looking at glyf (which loads loca and head) and modifying the copy. -/
example : ∃ os s, Store.run (parser toyFmt) [.open_ tagGlyf, .modify 0 (fun _ => .glyf [])] (Store.fresh toyFont) =
      .ok (os, s) ∧ save toyFmt 0x00010000 s = Font.toBytes 0x00010000 toyFont := by
  have h : ∃ os s, Store.run (parser toyFmt) [.open_ tagGlyf, .modify 0 (fun _ => .glyf [])] (Store.fresh toyFont) =
      .ok (os, s) := ⟨_, _, rfl⟩
  obtain ⟨os, s, h⟩ := h
  refine ⟨os, s, h, C60_unmodified toyFont toy_sorted _ os s h ?_ [0, 0, 0x50, 0, 0, 1] ⟨0x00008000, .v05 ⟨1⟩⟩ (by decide) rfl _⟩
  intro t
  exact ⟨by simp [target], fun o s' _ => ⟨by simp [target], fun _ _ _ => trivial⟩⟩

end FT.Props
