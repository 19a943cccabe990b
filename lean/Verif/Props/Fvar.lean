import Verif.Model.Fvar
import Verif.Lemmas.FixedEven
import Verif.Props.Normalise
import Verif.Props.TupleVar
import Verif.Props.Cmap4Big

/-! C48: the `avar` and `fvar` tables read back as written. -/

namespace FT.Props
open FT FT.AxisMaps FT.F32 FT.Reader

/-! ### Fixed values beyond 128 (C04) -/

/-- C04: besides the packed values up to 2^23, every even one with at most 24 significant bits survives; in particular every
whole number a `Fixed` can hold. -/
theorem C04_fixed_values {v : ℚ} (h : FixedVal v) : RoundTripsAt readFixed (encFixed v) v := by
  obtain ⟨p, e1, e2, _⟩ := h.packed
  unfold encFixed
  rw [e1]
  have : Int32.ofInt p.toInt = p := by simp
  rw [this, ← e2]
  exact reads_fixed p

theorem C04_fixed_whole {n : ℤ} (h1 : -32768 ≤ n) (h2 : n ≤ 32767) : RoundTripsAt readFixed (encFixed n) n :=
  C04_fixed_values (fixedVal_int h1 h2)

theorem encFixed_length (v : ℚ) : (encFixed v).length = 4 := rfl

/-! ### avar -/

theorem reads_rounded {x : ℚ} {b : Bytes} (h : encF2dot14 x = .ok b) :
    ∃ y, roundF2dot14 x = .ok y ∧ Reads readF2dot14 b y ∧ b.length = 2 := by
  unfold encF2dot14 at h
  cases hp : f2dot14AsPacked x with
  | err => rw [hp] at h; simp at h
  | panic => rw [hp] at h; simp at h
  | ok p =>
    rw [hp, Res.ok_bind] at h
    cases h
    have hr : -32768 ≤ p ∧ p ≤ 32767 := by
      unfold f2dot14AsPacked at hp
      simp only at hp
      split_ifs at hp with hc
      cases hp; exact hc
    refine ⟨f2dot14FromPacked p, by unfold roundF2dot14; rw [hp], ?_, rfl⟩
    have := reads_f2dot14 (Int16.ofInt p)
    rwa [int16_ofInt hr.1 hr.2] at this

/-- Two points agree up to rounding to F2DOT14. -/
def RoundedPoint (x y : ℚ × ℚ) : Prop := roundF2dot14 x.1 = .ok y.1 ∧ roundF2dot14 x.2 = .ok y.2

theorem reads_vecR {α β : Type} {enc : α → Res Bytes} {p : Reader β} {R : α → β → Prop}
    (h : ∀ a b, enc a = .ok b → ∃ y, R a y ∧ Reads p b y) : ∀ (l : List α) (bs : Bytes), encVecR enc l = .ok bs →
    ∃ ys, List.Forall₂ R l ys ∧ Reads (deCounted p l.length) bs ys
  | [], bs, e => by
    simp only [encVecR] at e; cases e
    exact ⟨[], .nil, Reads.deCounted_nil p⟩
  | a :: l, bs, e => by
    simp only [encVecR] at e
    cases ha : enc a with
    | err => rw [ha] at e; simp at e
    | panic => rw [ha] at e; simp at e
    | ok b =>
      cases hl : encVecR enc l with
      | err => rw [ha, hl] at e; simp at e
      | panic => rw [ha, hl] at e; simp at e
      | ok bs' =>
        rw [ha, hl] at e; simp only at e; cases e
        obtain ⟨y, hy, r⟩ := h a b ha
        obtain ⟨ys, hys, rs⟩ := reads_vecR h l bs' hl
        exact ⟨y :: ys, .cons hy hys, Reads.deCounted_cons r rs⟩

theorem reads_axisValue {x : ℚ × ℚ} {b : Bytes} (h : encAxisValue x = .ok b) :
    ∃ y, RoundedPoint x y ∧ Reads readAxisValue b y := by
  unfold encAxisValue at h
  cases h1 : encF2dot14 x.1 with
  | err => rw [h1] at h; simp at h
  | panic => rw [h1] at h; simp at h
  | ok b1 =>
    cases h2 : encF2dot14 x.2 with
    | err => rw [h1, h2] at h; simp at h
    | panic => rw [h1, h2] at h; simp at h
    | ok b2 =>
      rw [h1, h2] at h; simp only [Res.ok_bind] at h; cases h
      obtain ⟨y1, e1, r1, _⟩ := reads_rounded h1
      obtain ⟨y2, e2, r2, _⟩ := reads_rounded h2
      exact ⟨(y1, y2), ⟨e1, e2⟩, r1.bind (r2.map fun b => (y1, b))⟩

theorem reads_segment {m : List (ℚ × ℚ)} (hl : m.length ≤ 65535) {b : Bytes} (h : encSegment m = .ok b) :
    ∃ y, List.Forall₂ RoundedPoint m y ∧ Reads readSegment b y := by
  unfold encSegment at h
  cases h1 : encVecR encAxisValue m with
  | err => rw [h1] at h; simp at h
  | panic => rw [h1] at h; simp at h
  | ok b1 =>
    rw [h1, Res.ok_bind] at h; cases h
    obtain ⟨ys, hy, r⟩ := reads_vecR (R := RoundedPoint) (fun a b hb => reads_axisValue hb) m b1 h1
    refine ⟨ys, hy, ?_⟩
    unfold readSegment readCounted
    refine Reads.bind (reads_u16 _) ?_
    rw [ofNat16_toNat hl]; exact r

/-- Whatever `avar` table is written reads back with every coordinate rounded to F2DOT14. -/
theorem C48_avar_rounded {maps : List (List (ℚ × ℚ))} (hn : maps.length ≤ 65535)
    (hl : ∀ m ∈ maps, m.length ≤ 65535) {bs : Bytes} (h : encAvar maps = .ok bs) :
    ∃ maps', List.Forall₂ (List.Forall₂ RoundedPoint) maps maps' ∧ RoundTripsAt readAvar bs maps' := by
  unfold encAvar at h
  cases h1 : encVecR encSegment maps with
  | err => rw [h1] at h; simp at h
  | panic => rw [h1] at h; simp at h
  | ok b1 =>
    rw [h1, Res.ok_bind] at h; cases h
    have key : ∀ (l : List (List (ℚ × ℚ))) (b : Bytes), (∀ m ∈ l, m.length ≤ 65535) → encVecR encSegment l = .ok b →
        ∃ ys, List.Forall₂ (List.Forall₂ RoundedPoint) l ys ∧ Reads (deCounted readSegment l.length) b ys := by
      intro l
      induction l with
      | nil =>
        intro b _ e
        simp only [encVecR] at e; cases e
        exact ⟨[], .nil, Reads.deCounted_nil _⟩
      | cons a l ih =>
        intro b hl e
        simp only [encVecR] at e
        cases ha : encSegment a with
        | err => rw [ha] at e; simp at e
        | panic => rw [ha] at e; simp at e
        | ok b0 =>
          cases hb : encVecR encSegment l with
          | err => rw [ha, hb] at e; simp at e
          | panic => rw [ha, hb] at e; simp at e
          | ok b1 =>
            rw [ha, hb] at e; simp only at e; cases e
            obtain ⟨y, hy, r⟩ := reads_segment (hl a (by simp)) ha
            obtain ⟨ys, hys, rs⟩ := ih b1 (fun m hm => hl m (List.mem_cons_of_mem _ hm)) hb
            exact ⟨y :: ys, .cons hy hys, Reads.deCounted_cons r rs⟩
    obtain ⟨ys, hy, r⟩ := key maps b1 hl h1
    refine ⟨ys, hy, ?_⟩
    unfold readAvar
    refine Reads.bind (reads_u16 1) (Reads.bind (reads_u16 0) (Reads.bind (reads_u16 0) ?_))
    unfold readCounted
    refine Reads.bind (reads_u16 _) ?_
    rw [ofNat16_toNat hn]; exact r

theorem encF2dot14_grid {x : ℚ} (h : OnGrid x) : ∃ b, encF2dot14 x = .ok b ∧ roundF2dot14 x = .ok x := by
  obtain ⟨a, h1, h2, rfl⟩ := h
  have e := C04_f2dot14 (Int16.ofInt a)
  rw [C04_f2dot14_value, int16_ofInt h1 h2] at e
  refine ⟨encI16 (Int16.ofInt a), ?_, ?_⟩
  · unfold encF2dot14; rw [e]; rfl
  · unfold roundF2dot14; rw [e]; simp only
    have := C04_f2dot14_value (Int16.ofInt a)
    rw [int16_ofInt h1 h2] at this
    rw [this]

theorem forall₂_eq {α : Type} : ∀ {l m : List α}, List.Forall₂ (fun x y => x = y) l m → l = m
  | _, _, .nil => rfl
  | _, _, .cons h t => by rw [h, forall₂_eq t]

theorem encVecR_ok {α : Type} {enc : α → Res Bytes} : ∀ (l : List α), (∀ a ∈ l, ∃ b, enc a = .ok b) →
    ∃ b, encVecR enc l = .ok b
  | [], _ => ⟨[], rfl⟩
  | a :: l, h => by
    obtain ⟨b, hb⟩ := h a (by simp)
    obtain ⟨bs, hbs⟩ := encVecR_ok l fun x hx => h x (List.mem_cons_of_mem _ hx)
    exact ⟨b ++ bs, by simp only [encVecR, hb, hbs]⟩

/-- Segment maps with F2DOT14 coordinates are written and read back as they are. -/
theorem C48_avar {maps : List (List (ℚ × ℚ))} (hn : maps.length ≤ 65535) (hl : ∀ m ∈ maps, m.length ≤ 65535)
    (hg : ∀ m ∈ maps, ∀ x ∈ m, OnGrid x.1 ∧ OnGrid x.2) :
    ∃ bs, encAvar maps = .ok bs ∧ RoundTripsAt readAvar bs maps := by
  have hseg : ∀ m ∈ maps, ∃ b, encSegment m = .ok b := by
    intro m hm
    obtain ⟨b, hb⟩ := encVecR_ok (enc := encAxisValue) m (by
      intro x hx
      obtain ⟨b1, e1, _⟩ := encF2dot14_grid (hg m hm x hx).1
      obtain ⟨b2, e2, _⟩ := encF2dot14_grid (hg m hm x hx).2
      exact ⟨b1 ++ b2, by unfold encAxisValue; rw [e1, e2]; rfl⟩)
    exact ⟨_, by unfold encSegment; rw [hb]; rfl⟩
  obtain ⟨b, hb⟩ := encVecR_ok maps hseg
  have e : ∃ bs, encAvar maps = .ok bs := ⟨_, by unfold encAvar; rw [hb]; rfl⟩
  obtain ⟨bs, e⟩ := e
  obtain ⟨maps', hm, r⟩ := C48_avar_rounded hn hl e
  have : maps = maps' := by
    apply forall₂_eq
    have inner : ∀ (m m' : List (ℚ × ℚ)), List.Forall₂ RoundedPoint m m' → (∀ x ∈ m, OnGrid x.1 ∧ OnGrid x.2) →
        m = m' := by
      intro m m' h
      induction h with
      | nil => intro _; rfl
      | cons h t ih =>
        rename_i x y l l'
        intro hg
        obtain ⟨g1, g2⟩ := hg x (by simp)
        obtain ⟨_, _, e1⟩ := encF2dot14_grid g1
        obtain ⟨_, _, e2⟩ := encF2dot14_grid g2
        obtain ⟨h1, h2⟩ := h
        rw [e1] at h1; rw [e2] at h2
        rw [ih fun z hz => hg z (List.mem_cons_of_mem _ hz)]
        rw [show x = y from Prod.ext (Res.ok.inj h1) (Res.ok.inj h2)]
    clear e r hb b hseg hn hl
    induction hm with
    | nil => exact .nil
    | cons h t ih =>
      exact .cons (inner _ _ h (hg _ (by simp))) (ih fun m hm => hg m (List.mem_cons_of_mem _ hm))
  subst this
  exact ⟨bs, e, r⟩

/-- A coordinate of 2 or more is refused. -/
theorem C48_avar_refused : encAvar [[(-1, -1), (2, 2)]] = .err := by
  have h : encF2dot14 2 = .err := by unfold encF2dot14; rw [C04_f2dot14_two_refused]; rfl
  obtain ⟨b, hb, _⟩ := encF2dot14_grid grid_neg_one
  simp only [encAvar, encVecR, encSegment, encAxisValue, hb, h, Res.ok_bind]
  rfl

/-! ### fvar -/

/-- An axis record that can be written without loss. -/
structure AxisRecordOk (a : AxisRecord) : Prop where
  tag : a.axisTag.Valid
  values : FixedVal a.minValue ∧ FixedVal a.defaultValue ∧ FixedVal a.maxValue

/-- A table that can be written: as many coordinates as axes, PostScript names for all instances or none, counts that fit. -/
structure FvarOk (f : Fvar) : Prop where
  axes : ∀ a ∈ f.axes, AxisRecordOk a
  coords : ∀ i ∈ f.instances, i.coordinates.length = f.axes.length ∧ ∀ c ∈ i.coordinates, FixedVal c
  names : (∀ i ∈ f.instances, i.postscriptNameID.isSome = true) ∨ ∀ i ∈ f.instances, i.postscriptNameID = none
  axisCount : f.axes.length * 4 + 6 ≤ 65535
  instanceCount : f.instances.length ≤ 65535

/-- The instance as read back: flags are not stored. -/
def stored (i : Instance) : Instance := { i with flags := 0 }

theorem reads_axisRecord {a : AxisRecord} (h : AxisRecordOk a) : Reads readAxisRecord (encAxisRecord a) a := by
  obtain ⟨v1, v2, v3⟩ := h.values
  unfold readAxisRecord encAxisRecord
  refine Reads.bind (reads_tag _ h.tag) (Reads.bind (C04_fixed_values v1) (Reads.bind (C04_fixed_values v2)
    (Reads.bind (C04_fixed_values v3) (Reads.bind (reads_u16 _) ?_))))
  exact (reads_u16 a.axisNameID).map fun n => AxisRecord.mk a.axisTag a.minValue a.defaultValue a.maxValue a.flags n

theorem reads_instance {i : Instance} {n : Nat} (hn : i.coordinates.length = n) (hv : ∀ c ∈ i.coordinates, FixedVal c)
    {hasName : Bool} (hname : hasName = i.postscriptNameID.isSome) :
    ∃ b, encInstance hasName i = .ok b ∧ b.length = n * 4 + (if hasName then 6 else 4) ∧
      Reads (readInstance n hasName) b (stored i) := by
  have rc : Reads (deCounted readFixed n) (encVec encFixed i.coordinates) i.coordinates :=
    reads_deCounted' hn.symm fun c hc => C04_fixed_values (hv c hc)
  have lc : (encVec encFixed i.coordinates).length = 4 * n := by
    rw [encVec_length encFixed_length, hn]
  cases hp : i.postscriptNameID with
  | none =>
    rw [hp] at hname; subst hname
    refine ⟨encU16 i.subfamilyNameID ++ (encU16 0 ++ encVec encFixed i.coordinates), ?_, ?_, ?_⟩
    · unfold encInstance; simp
    · simp only [List.length_append, encU16_length, lc]; simp; omega
    · unfold readInstance
      refine Reads.bind (reads_u16 _) (Reads.bind (reads_u16 0) ?_)
      have := rc.map fun c => Instance.mk i.subfamilyNameID 0 c none
      simpa [stored, hp] using this
  | some m =>
    rw [hp] at hname; subst hname
    refine ⟨(encU16 i.subfamilyNameID ++ (encU16 0 ++ encVec encFixed i.coordinates)) ++ encU16 m, ?_, ?_, ?_⟩
    · unfold encInstance; rw [hp]; simp
    · simp only [List.length_append, encU16_length, lc]; simp; omega
    · unfold readInstance
      simp only [List.append_assoc]
      refine Reads.bind (reads_u16 _) (Reads.bind (reads_u16 0) (Reads.bind rc ?_))
      have := (reads_u16 m).map fun k => Instance.mk i.subfamilyNameID 0 i.coordinates (some k)
      simpa [stored, hp] using this

theorem reads_instances {n : Nat} {hasName : Bool} : ∀ (l : List Instance),
    (∀ i ∈ l, i.coordinates.length = n ∧ ∀ c ∈ i.coordinates, FixedVal c) →
    (∀ i ∈ l, hasName = i.postscriptNameID.isSome) →
    ∃ b, encVecR (encInstance hasName) l = .ok b ∧ b.length = (n * 4 + (if hasName then 6 else 4)) * l.length ∧
      Reads (deCounted (readInstance n hasName) l.length) b (l.map stored)
  | [], _, _ => ⟨[], rfl, by simp, Reads.deCounted_nil _⟩
  | i :: l, h1, h2 => by
    obtain ⟨hn, hv⟩ := h1 i (by simp)
    obtain ⟨b, e, len, r⟩ := reads_instance hn hv (h2 i (by simp))
    obtain ⟨bs, es, lens, rs⟩ := reads_instances l (fun j hj => h1 j (List.mem_cons_of_mem _ hj))
      (fun j hj => h2 j (List.mem_cons_of_mem _ hj))
    refine ⟨b ++ bs, by simp only [encVecR, e, es], ?_, Reads.deCounted_cons r rs⟩
    rw [List.length_append, len, lens, List.length_cons, Nat.mul_add, Nat.mul_one, Nat.add_comm]

theorem encAxisRecord_length (a : AxisRecord) : (encAxisRecord a).length = 20 := by
  simp [encAxisRecord, encFixed_length]

/-- Whether the instances carry PostScript names. -/
def namedInstances (f : Fvar) : Bool := f.instances.any fun i => i.postscriptNameID.isSome

theorem named_all {f : Fvar} (h : FvarOk f) : ∀ i ∈ f.instances, namedInstances f = i.postscriptNameID.isSome := by
  intro i hi
  unfold namedInstances
  rcases h.names with k | k
  · rw [k i hi]
    exact List.any_eq_true.2 ⟨i, hi, k i hi⟩
  · rw [k i hi]
    simp only [Option.isSome_none]
    rw [List.any_eq_false]
    intro j hj; rw [k j hj]; simp

/-- A table is written and reads back with the same axes and instances, up to instance flags; its length is that of the
OpenType layout (a header of 16 bytes, 20 per axis, 4 or 6 plus 4 per axis for every instance). -/
theorem C48_fvar {f : Fvar} (h : FvarOk f) :
    ∃ bs, encFvar f = .ok bs ∧
      bs.length = 16 + 20 * f.axes.length + (4 * f.axes.length + if namedInstances f then 6 else 4) * f.instances.length ∧
      ∀ pre rest stk, readFvar ⟨pre ++ bs ++ rest, pre.length, stk⟩ =
        .ok (⟨f.axes, f.instances.map stored⟩, ⟨pre ++ bs ++ rest, pre.length + bs.length, pre.length :: stk⟩) := by
  have hnames := named_all h
  obtain ⟨ib, eib, lib, rib⟩ := reads_instances (n := f.axes.length) (hasName := namedInstances f) f.instances h.coords hnames
  have rax : Reads (deCounted readAxisRecord f.axes.length) (encVec encAxisRecord f.axes) f.axes :=
    reads_deCounted f.axes fun a ha => reads_axisRecord (h.axes a ha)
  have lax := encVec_length encAxisRecord_length f.axes
  have enc : encFvar f = .ok (encU16 1 ++ (encU16 0 ++ (encU16 16 ++ (encU16 2 ++ (encU16 (UInt16.ofNat f.axes.length) ++
      (encU16 20 ++ (encU16 (UInt16.ofNat f.instances.length) ++
      (encU16 (UInt16.ofNat (f.axes.length * 4 + if namedInstances f then 6 else 4)) ++
      (encVec encAxisRecord f.axes ++ ib))))))))) := by
    unfold encFvar
    simp only
    rw [show (f.instances.any fun i => i.postscriptNameID.isSome) = namedInstances f from rfl]
    rw [if_neg, eib]
    · rfl
    · simp only [Bool.and_eq_true, Bool.not_eq_true', not_and]
      intro hn
      rw [hn] at hnames
      rw [Bool.not_eq_false, List.all_eq_true]
      exact fun i hi => (hnames i hi).symm
  refine ⟨_, enc, ?_, ?_⟩
  · simp only [List.length_append, encU16_length, lax, lib]
    rw [Nat.mul_comm 4 f.axes.length]; omega
  · intro pre rest stk
    have hac := h.axisCount
    have hic := h.instanceCount
    -- the header
    obtain ⟨hd, hhd⟩ : ∃ hd, hd = encU16 1 ++ (encU16 0 ++ (encU16 16 ++ (encU16 2 ++
      (encU16 (UInt16.ofNat f.axes.length) ++ (encU16 20 ++ (encU16 (UInt16.ofNat f.instances.length) ++
      encU16 (UInt16.ofNat (f.axes.length * 4 + if namedInstances f then 6 else 4)))))))) := ⟨_, rfl⟩
    have ehd : encU16 1 ++ (encU16 0 ++ (encU16 16 ++ (encU16 2 ++ (encU16 (UInt16.ofNat f.axes.length) ++
      (encU16 20 ++ (encU16 (UInt16.ofNat f.instances.length) ++
      (encU16 (UInt16.ofNat (f.axes.length * 4 + if namedInstances f then 6 else 4)) ++
      (encVec encAxisRecord f.axes ++ ib)))))))) = hd ++ (encVec encAxisRecord f.axes ++ ib) := by
      rw [hhd]; simp only [List.append_assoc]
    rw [ehd]
    have lhd : hd.length = 16 := by rw [hhd]; rfl
    -- everything after the push, with `pre.length` on the stack
    have step : ∀ (p : Reader Fvar), readFvar = (pushTop >>= fun _ => p) →
        p ⟨pre ++ (hd ++ (encVec encAxisRecord f.axes ++ ib)) ++ rest, pre.length, pre.length :: stk⟩ =
          .ok (⟨f.axes, f.instances.map stored⟩, ⟨pre ++ (hd ++ (encVec encAxisRecord f.axes ++ ib)) ++ rest,
            pre.length + (hd ++ (encVec encAxisRecord f.axes ++ ib)).length, pre.length :: stk⟩) →
        readFvar ⟨pre ++ (hd ++ (encVec encAxisRecord f.axes ++ ib)) ++ rest, pre.length, stk⟩ =
          .ok (⟨f.axes, f.instances.map stored⟩, ⟨pre ++ (hd ++ (encVec encAxisRecord f.axes ++ ib)) ++ rest,
            pre.length + (hd ++ (encVec encAxisRecord f.axes ++ ib)).length, pre.length :: stk⟩) := by
      intro p hp hh
      rw [hp, bind_run]; simp only [pushTop]; exact hh
    refine step _ rfl ?_
    -- header fields
    have hdr := fun (q : UInt16 → UInt16 → UInt16 → UInt16 → Reader Fvar) (v : Fvar) (r' : Rd)
        (hq : q 16 (UInt16.ofNat f.axes.length) (UInt16.ofNat f.instances.length)
          (UInt16.ofNat (f.axes.length * 4 + if namedInstances f then 6 else 4))
          ⟨pre ++ (hd ++ (encVec encAxisRecord f.axes ++ ib)) ++ rest, pre.length + 16, pre.length :: stk⟩ = .ok (v, r')) =>
      show (do
        let _ ← readU16
        let _ ← readU16
        let o ← readU16
        let _ ← readU16
        let a ← readU16
        let _ ← readU16
        let i ← readU16
        let s ← readU16
        q o a i s : Reader Fvar)
        ⟨pre ++ (hd ++ (encVec encAxisRecord f.axes ++ ib)) ++ rest, pre.length, pre.length :: stk⟩ = .ok (v, r') by
      have one : ∀ (b1 : Bytes) (x : UInt16) (b2 : Bytes), hd = b1 ++ (encU16 x ++ b2) →
          readU16 ⟨pre ++ (hd ++ (encVec encAxisRecord f.axes ++ ib)) ++ rest, pre.length + b1.length, pre.length :: stk⟩ =
          .ok (x, ⟨pre ++ (hd ++ (encVec encAxisRecord f.axes ++ ib)) ++ rest, pre.length + b1.length + 2,
            pre.length :: stk⟩) := by
        intro b1 x b2 e
        have := reads_u16 x (pre ++ b1) (b2 ++ (encVec encAxisRecord f.axes ++ ib) ++ rest) (pre.length :: stk)
        rw [e]
        simpa [List.append_assoc] using this
      have s1 := one [] 1 (hd.drop 2) (by rw [hhd]; rfl)
      have s2 := one (encU16 1) 0 (hd.drop 4) (by rw [hhd]; rfl)
      have s3 := one (encU16 1 ++ encU16 0) 16 (hd.drop 6) (by rw [hhd]; rfl)
      have s4 := one (encU16 1 ++ (encU16 0 ++ encU16 16)) 2 (hd.drop 8) (by rw [hhd]; rfl)
      have s5 := one (encU16 1 ++ (encU16 0 ++ (encU16 16 ++ encU16 2))) (UInt16.ofNat f.axes.length) (hd.drop 10)
        (by rw [hhd]; rfl)
      have s6 := one (encU16 1 ++ (encU16 0 ++ (encU16 16 ++ (encU16 2 ++ encU16 (UInt16.ofNat f.axes.length))))) 20 (hd.drop 12)
        (by rw [hhd]; rfl)
      have s7 := one (encU16 1 ++ (encU16 0 ++ (encU16 16 ++ (encU16 2 ++ (encU16 (UInt16.ofNat f.axes.length) ++
        encU16 20))))) (UInt16.ofNat f.instances.length) (hd.drop 14) (by rw [hhd]; rfl)
      have s8 := one (encU16 1 ++ (encU16 0 ++ (encU16 16 ++ (encU16 2 ++ (encU16 (UInt16.ofNat f.axes.length) ++
        (encU16 20 ++ encU16 (UInt16.ofNat f.instances.length)))))))
        (UInt16.ofNat (f.axes.length * 4 + if namedInstances f then 6 else 4)) []
        (by rw [hhd]; rfl)
      simp only [List.length_append, encU16_length, List.length_nil, Nat.add_zero, Nat.add_assoc, Nat.reduceAdd]
        at s1 s2 s3 s4 s5 s6 s7 s8
      rw [bind_run, s1]; simp only
      rw [bind_run, s2]; simp only
      rw [bind_run, s3]; simp only
      rw [bind_run, s4]; simp only
      rw [bind_run, s5]; simp only
      rw [bind_run, s6]; simp only
      rw [bind_run, s7]; simp only
      rw [bind_run, s8]; simp only
      exact hq
    refine hdr _ _ _ ?_
    rw [bind_run]; simp only [topOfTable]
    rw [bind_run]; simp only [setPtr]
    have e16 : (16 : UInt16).toNat = 16 := rfl
    rw [e16, ofNat16_toNat (by omega), ofNat16_toNat hic]
    have r1 := rax (pre ++ hd) (ib ++ rest) (pre.length :: stk)
    have hsame : (pre ++ hd) ++ encVec encAxisRecord f.axes ++ (ib ++ rest) =
        pre ++ (hd ++ (encVec encAxisRecord f.axes ++ ib)) ++ rest := by simp only [List.append_assoc]
    rw [hsame, List.length_append, lhd] at r1
    rw [bind_run, r1]; simp only
    have hck : readInstanceChecked (UInt16.ofNat f.axes.length)
        (UInt16.ofNat (f.axes.length * 4 + if namedInstances f then 6 else 4)) =
        readInstance f.axes.length (namedInstances f) := by
      unfold readInstanceChecked
      rw [ofNat16_toNat (by omega), if_pos (by omega), ofNat16_toNat (by split <;> omega)]
      congr 1
      cases namedInstances f with
      | true => simp
      | false => simp
    rw [hck]
    have r2 := rib (pre ++ hd ++ encVec encAxisRecord f.axes) rest (pre.length :: stk)
    have hsame2 : (pre ++ hd ++ encVec encAxisRecord f.axes) ++ ib ++ rest =
        pre ++ (hd ++ (encVec encAxisRecord f.axes ++ ib)) ++ rest := by simp only [List.append_assoc]
    rw [hsame2, List.length_append, List.length_append, lhd] at r2
    rw [bind_run, r2]
    simp only [pure_run, List.length_append, lhd, Nat.add_assoc]

/-- The 20 bytes OpenType assigns to an axis: tag, then minimum, default and maximum as 16.16 numbers, flags, name. -/
def axisBytes (a : AxisRecord) : Bytes :=
  [a.axisTag.a, a.axisTag.b, a.axisTag.c, a.axisTag.d] ++ encFixed a.minValue ++ encFixed a.defaultValue ++
    encFixed a.maxValue ++ encU16 a.flags ++ encU16 a.axisNameID

theorem drop_vec {α : Type} {enc : α → Bytes} {k : Nat} (hk : ∀ a, (enc a).length = k) : ∀ (l : List α) (i : Nat)
    (hi : i < l.length) (rest : Bytes), ((encVec enc l ++ rest).drop (k * i)).take k = enc l[i]
  | a :: l, 0, _, rest => by
    rw [Nat.mul_zero, List.drop_zero, encVec_cons, List.append_assoc, List.take_append_of_le_length (by rw [hk]),
      List.take_of_length_le (by rw [hk])]
    rfl
  | a :: l, i + 1, hi, rest => by
    rw [encVec_cons, List.append_assoc, show k * (i + 1) = (enc a).length + k * i by rw [hk]; ring,
      ← List.drop_drop, List.drop_left]
    exact drop_vec hk l i (by simpa using hi) rest

/-- Axis `i` of a written table occupies the 20 bytes at 16 + 20·i, in OpenType's order. -/
theorem C48_fvar_axis_layout {f : Fvar} {bs : Bytes} (h : encFvar f = .ok bs) {i : Nat} (hi : i < f.axes.length) :
    (bs.drop (16 + 20 * i)).take 20 = axisBytes f.axes[i] := by
  unfold encFvar at h
  simp only at h
  split at h
  · simp at h
  · obtain ⟨ib, _, h⟩ := Res.bind_inv h
    cases h
    have e : ∀ (b1 b2 b3 b4 b5 b6 b7 b8 : UInt16) (t : Bytes), (encU16 b1 ++ (encU16 b2 ++ (encU16 b3 ++ (encU16 b4 ++
        (encU16 b5 ++ (encU16 b6 ++ (encU16 b7 ++ (encU16 b8 ++ t)))))))).drop (16 + 20 * i) = t.drop (20 * i) := by
      intro b1 b2 b3 b4 b5 b6 b7 b8 t
      rw [← List.drop_drop]; rfl
    rw [e, drop_vec encAxisRecord_length _ _ hi]
    rfl

/-- Mixed use of PostScript names is refused. -/
theorem C48_fvar_mixed_names {f : Fvar} (h1 : ∃ i ∈ f.instances, i.postscriptNameID.isSome = true)
    (h2 : ∃ i ∈ f.instances, i.postscriptNameID = none) : encFvar f = .err := by
  obtain ⟨i, hi, e⟩ := h1
  obtain ⟨j, hj, e'⟩ := h2
  unfold encFvar
  simp only
  rw [if_pos]
  rw [Bool.and_eq_true, Bool.not_eq_true', List.any_eq_true, List.all_eq_false]
  exact ⟨⟨i, hi, e⟩, j, hj, by rw [e']; simp⟩

theorem deCounted_length {α : Type} {p : Reader α} : ∀ {n : Nat} {r r' : Rd} {l : List α},
    deCounted p n r = .ok (l, r') → l.length = n
  | 0, r, r', l, h => by simp only [deCounted, pure_run] at h; cases h; rfl
  | n + 1, r, r', l, h => by
    simp only [deCounted] at h
    obtain ⟨a, r1, h1, h⟩ := Props.Reader.bind_inv h
    obtain ⟨l1, r2, h2, h⟩ := Props.Reader.bind_inv h
    simp only [pure_run] at h; cases h
    rw [List.length_cons, deCounted_length h2]

theorem deCounted_all {α : Type} {p : Reader α} {P : α → Prop} (hp : ∀ r a r', p r = .ok (a, r') → P a) :
    ∀ {n : Nat} {r r' : Rd} {l : List α}, deCounted p n r = .ok (l, r') → ∀ a ∈ l, P a
  | 0, r, r', l, h => by simp only [deCounted, pure_run] at h; cases h; simp
  | n + 1, r, r', l, h => by
    simp only [deCounted] at h
    obtain ⟨a, r1, h1, h⟩ := Props.Reader.bind_inv h
    obtain ⟨l1, r2, h2, h⟩ := Props.Reader.bind_inv h
    simp only [pure_run] at h; cases h
    intro b hb
    rcases List.mem_cons.1 hb with e | e
    · rw [e]; exact hp _ _ _ h1
    · exact deCounted_all hp h2 b e

/-- Every table read has as many coordinates in each instance as axes, so an instance written with another number of
coordinates is never read back. -/
theorem C48_fvar_coordinates {r r' : Rd} {f : Fvar} (h : readFvar r = .ok (f, r')) :
    ∀ i ∈ f.instances, i.coordinates.length = f.axes.length := by
  unfold readFvar at h
  obtain ⟨_, _, _, h⟩ := Props.Reader.bind_inv h
  obtain ⟨_, _, _, h⟩ := Props.Reader.bind_inv h
  obtain ⟨_, _, _, h⟩ := Props.Reader.bind_inv h
  obtain ⟨_, _, _, h⟩ := Props.Reader.bind_inv h
  obtain ⟨_, _, _, h⟩ := Props.Reader.bind_inv h
  obtain ⟨ac, _, _, h⟩ := Props.Reader.bind_inv h
  obtain ⟨_, _, _, h⟩ := Props.Reader.bind_inv h
  obtain ⟨ic, _, _, h⟩ := Props.Reader.bind_inv h
  obtain ⟨is, _, _, h⟩ := Props.Reader.bind_inv h
  obtain ⟨_, _, _, h⟩ := Props.Reader.bind_inv h
  obtain ⟨_, _, _, h⟩ := Props.Reader.bind_inv h
  obtain ⟨axes, _, hax, h⟩ := Props.Reader.bind_inv h
  obtain ⟨ins, _, hin, h⟩ := Props.Reader.bind_inv h
  simp only [pure_run] at h; cases h
  simp only
  rw [deCounted_length hax]
  apply deCounted_all (P := fun i => i.coordinates.length = ac.toNat) _ hin
  intro r a r' ha
  unfold readInstanceChecked at ha
  split at ha
  · unfold readInstance at ha
    obtain ⟨_, _, _, ha⟩ := Props.Reader.bind_inv ha
    obtain ⟨_, _, _, ha⟩ := Props.Reader.bind_inv ha
    obtain ⟨cs, _, hc, ha⟩ := Props.Reader.bind_inv ha
    split at ha
    · obtain ⟨_, _, _, ha⟩ := Props.Reader.bind_inv ha
      simp only [pure_run] at ha; cases ha
      exact deCounted_length hc
    · simp only [pure_run] at ha; cases ha
      exact deCounted_length hc
  · simp [crash] at ha

/-- An instance's flags never come back unless they were 0. -/
theorem C48_fvar_flags (i : Instance) : stored i = i ↔ i.flags = 0 := by
  unfold stored
  constructor
  · intro h; rw [← h]
  · intro h; cases i; simp only at h; rw [h]

/-- Two axes and two named instances, one with a fractional coordinate. -/
example : FvarOk ⟨[⟨⟨119, 103, 104, 116⟩, 100, 400, 900, 0, 256⟩, ⟨⟨111, 112, 115, 122⟩, 8, 12, 144, 1, 257⟩],
    [⟨258, 0, [400, 12], some 300⟩, ⟨259, 0, [700, 25 / 2], some 301⟩]⟩ := by
  have f : ∀ n : ℤ, -32768 ≤ n → n ≤ 32767 → FixedVal (n : ℚ) := fun n => fixedVal_int
  refine ⟨?_, ?_, Or.inl (by decide), by decide, by decide⟩
  · intro a ha
    simp only [List.mem_cons, List.not_mem_nil, or_false] at ha
    rcases ha with rfl | rfl
    · exact ⟨by decide, f 100 (by norm_num) (by norm_num), f 400 (by norm_num) (by norm_num),
        f 900 (by norm_num) (by norm_num)⟩
    · exact ⟨by decide, f 8 (by norm_num) (by norm_num), f 12 (by norm_num) (by norm_num),
        f 144 (by norm_num) (by norm_num)⟩
  · intro i hi
    simp only [List.mem_cons, List.not_mem_nil, or_false] at hi
    rcases hi with rfl | rfl
    · refine ⟨rfl, fun c hc => ?_⟩
      simp only [List.mem_cons, List.not_mem_nil, or_false] at hc
      rcases hc with rfl | rfl
      · exact f 400 (by norm_num) (by norm_num)
      · exact f 12 (by norm_num) (by norm_num)
    · refine ⟨rfl, fun c hc => ?_⟩
      simp only [List.mem_cons, List.not_mem_nil, or_false] at hc
      rcases hc with rfl | rfl
      · exact f 700 (by norm_num) (by norm_num)
      · left; exact ⟨819200, by norm_num, by norm_num⟩

example : ∀ m ∈ [[((-1 : ℚ), (-1 : ℚ)), (0, 0), (1 / 2, 0), (1, 1)]], ∀ x ∈ m, OnGrid x.1 ∧ OnGrid x.2 := by
  intro m hm x hx
  simp only [List.mem_singleton] at hm
  subst hm
  simp only [List.mem_cons, List.not_mem_nil, or_false] at hx
  rcases hx with rfl | rfl | rfl | rfl
  · exact ⟨grid_neg_one, grid_neg_one⟩
  · exact ⟨grid_zero, grid_zero⟩
  · exact ⟨grid_half, grid_zero⟩
  · exact ⟨grid_one, grid_one⟩

end FT.Props
