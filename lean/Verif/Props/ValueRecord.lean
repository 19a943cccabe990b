import Verif.Model.ValueRecord
import Verif.Lemmas.Tab
import Verif.Props.Device
import Mathlib.Data.Nat.Bitwise

/-!
C10: value records.
-/

namespace FT.Props
open FT FT.VR FT.Off Reader
open FT.Device (Device)

/-- Specification: the adjustment a value record denotes; an absent field means zero. -/
def adjustment (v : ValueRecord) : Int × Int × Int × Int :=
  ((v.xPlacement.getD 0).toInt, (v.yPlacement.getD 0).toInt, (v.xAdvance.getD 0).toInt, (v.yAdvance.getD 0).toInt)

/-- Specification: the device fields of a record. -/
def devices (v : ValueRecord) : List (Option (Option Device)) :=
  [v.xPlaDevice, v.yPlaDevice, v.xAdvDevice, v.yAdvDevice]

/-- Specification: number of fields present. -/
def present (v : ValueRecord) : Nat :=
  ([v.xPlacement, v.yPlacement, v.xAdvance, v.yAdvance].filter Option.isSome).length +
  ((devices v).filter Option.isSome).length

/-- Specification: a device that survives serialization (C09). -/
def DeviceOk (d : Device) : Prop :=
  ∃ f, d.deltaFormat = some f ∧ f.toNat ≤ 3 ∧ d.startSize.toNat ≤ d.endSize.toNat ∧
    d.deltaValues.length = d.endSize.toNat - d.startSize.toNat + 1 ∧ d.deltaValues.length ≤ 65535 ∧
    ∀ v ∈ d.deltaValues, FitsBits (2 ^ f.toNat) v

theorem deviceOk_reads {d : Device} (h : DeviceOk d) : ∃ bs, Device.toBytes d = .ok bs ∧ Reads Device.read bs d := by
  obtain ⟨f, h1, h2, h3, h4, h5, h6⟩ := h
  obtain ⟨bs, e1, e2⟩ := C09_roundtrip d f h1 h2 h3 h4 h5
  rw [(C09_equal_iff_fits d f h2).mpr h6] at e2
  exact ⟨bs, e1, e2⟩

theorem has_flags (v : ValueRecord) :
    has (flags v) 0x0001 = v.xPlacement.isSome ∧ has (flags v) 0x0002 = v.yPlacement.isSome ∧
    has (flags v) 0x0004 = v.xAdvance.isSome ∧ has (flags v) 0x0008 = v.yAdvance.isSome ∧
    has (flags v) 0x0010 = v.xPlaDevice.isSome ∧ has (flags v) 0x0020 = v.xPlaDevice.isSome ∧
    has (flags v) 0x0040 = v.xAdvDevice.isSome ∧ has (flags v) 0x0080 = v.yAdvDevice.isSome := by
  unfold flags
  generalize v.xPlacement.isSome = b1
  generalize v.yPlacement.isSome = b2
  generalize v.xAdvance.isSome = b3
  generalize v.yAdvance.isSome = b4
  generalize v.xPlaDevice.isSome = b5
  generalize v.xAdvDevice.isSome = b6
  generalize v.yAdvDevice.isSome = b7
  revert b1 b2 b3 b4 b5 b6 b7
  decide

theorem readsTab_int (x : Option Int16) : ReadsTab (readIf x.isSome readI16) (intTab x) x := by
  cases x with
  | none => exact ReadsTab.pure none
  | some x => exact ReadsTab.map some (readsTab_i16 x)

theorem readsTab_dev (x : Option (Option Device)) (h : ∀ d, x = some (some d) → DeviceOk d) :
    ∃ t, devTab x = .ok t ∧ size t = (if x.isSome then 2 else 0) ∧
      ReadsTab (readIf x.isSome (readOffset .w16 Device.read)) t x := by
  match x, h with
  | none, _ => exact ⟨.nil, rfl, rfl, ReadsTab.pure none⟩
  | some none, _ => exact ⟨_, rfl, rfl, ReadsTab.map some (readsTab_null16 _)⟩
  | some (some d), h =>
    obtain ⟨bs, e1, e2⟩ := deviceOk_reads (h d rfl)
    refine ⟨.link .w16 true true none (.bytes bs) .nil, ?_, rfl,
      ReadsTab.map some (readsTab_link16 true true none e2.child)⟩
    simp only [devTab, e1]

/-- C10: a record whose devices are well formed, with an y-placement device exactly if there is an x-placement
device, is written in two bytes per present field, and reading with the record's own flags gives it back. -/
theorem C10_roundtrip (v : ValueRecord) (hxy : v.xPlaDevice.isSome = v.yPlaDevice.isSome)
    (hd : ∀ d, some (some d) ∈ devices v → DeviceOk d) :
    ∃ t, VR.tab v = .ok t ∧ size t = 2 * present v ∧ ReadsTab (VR.read (flags v)) t v := by
  obtain ⟨h1, h2, h3, h4, h5, h6, h7, h8⟩ := has_flags v
  obtain ⟨e, he1, he2, he3⟩ := readsTab_dev v.xPlaDevice (fun d e => hd d (by simp [devices, e]))
  obtain ⟨g, hg1, hg2, hg3⟩ := readsTab_dev v.yPlaDevice (fun d e => hd d (by simp [devices, e]))
  obtain ⟨h, hh1, hh2, hh3⟩ := readsTab_dev v.xAdvDevice (fun d e => hd d (by simp [devices, e]))
  obtain ⟨i, hi1, hi2, hi3⟩ := readsTab_dev v.yAdvDevice (fun d e => hd d (by simp [devices, e]))
  refine ⟨_, by simp only [VR.tab, he1, hg1, hh1, hi1]; rfl, ?_, ?_⟩
  · simp only [size_append, he2, hg2, hh2, hi2, present, devices]
    have hi : ∀ x : Option Int16, size (intTab x) = if x.isSome then 2 else 0 := by
      intro x; cases x <;> rfl
    simp only [hi, List.filter_cons]
    generalize v.xPlacement.isSome = b1
    generalize v.yPlacement.isSome = b2
    generalize v.xAdvance.isSome = b3
    generalize v.yAdvance.isSome = b4
    generalize v.xPlaDevice.isSome = b5
    generalize v.yPlaDevice.isSome = b8
    generalize v.xAdvDevice.isSome = b6
    generalize v.yAdvDevice.isSome = b7
    cases b1 <;> cases b2 <;> cases b3 <;> cases b4 <;> cases b5 <;> cases b6 <;> cases b7 <;> cases b8 <;> rfl
  · unfold VR.read
    rw [h1, h2, h3, h4, h5, h6, h7, h8]
    refine (readsTab_int _).bind ((readsTab_int _).bind ((readsTab_int _).bind ((readsTab_int _).bind
      (he3.bind (ReadsTab.bind (hxy ▸ hg3) (hh3.bind ?_))))))
    exact hi3.map (fun i => (⟨v.xPlacement, v.yPlacement, v.xAdvance, v.yAdvance, v.xPlaDevice, v.yPlaDevice,
      v.xAdvDevice, i⟩ : ValueRecord))

example : ∃ t, VR.tab ⟨none, some 0, some (-7), none, some none, some (some ⟨11, 12, some 2, [3, -4]⟩), none,
    none⟩ = .ok t ∧
    Off.toBytes t = .ok [0, 0, 255, 249, 0, 0, 0, 8, 0, 11, 0, 12, 0, 2, 60, 0] := ⟨_, rfl, by decide⟩

example : DeviceOk ⟨11, 12, some 2, [3, -4]⟩ :=
  ⟨2, rfl, by decide, by decide, by decide, by decide, by
    intro v hv
    simp only [List.mem_cons, List.not_mem_nil, or_false] at hv
    rcases hv with rfl | rfl <;> constructor <;> decide⟩

/-- C10, for the common case: a record without devices is plain bytes, whatever follows it. -/
theorem C10_roundtrip_plain (v : ValueRecord) (hd : ∀ x ∈ devices v, x = none) :
    ∃ t bs, VR.tab v = .ok t ∧ Off.toBytes t = .ok bs ∧ bs.length = 2 * present v ∧ Reads (VR.read (flags v)) bs v := by
  obtain ⟨a, b, c, d, e, g, h, i⟩ := v
  simp only [devices, List.mem_cons, List.not_mem_nil, or_false, forall_eq_or_imp, forall_eq] at hd
  obtain ⟨rfl, rfl, rfl, rfl⟩ := hd
  obtain ⟨h1, h2, h3, h4, h5, h6, h7, h8⟩ := has_flags ⟨a, b, c, d, none, none, none, none⟩
  have key : ∀ x : Option Int16, Reads (readIf x.isSome readI16) ((x.map encI16).getD []) x := by
    intro x
    cases x with
    | none => exact Reads.pure none
    | some x => exact Reads.map some (reads_i16 x)
  refine ⟨_, (a.map encI16).getD [] ++ ((b.map encI16).getD [] ++ ((c.map encI16).getD [] ++
    (d.map encI16).getD [])), rfl, ?_, ?_, ?_⟩
  · cases a <;> cases b <;> cases c <;> cases d <;>
      simp [intTab, Tab.append, Off.toBytes, resolve, shallow, serDesc, bind, Res.bind, pure]
  · cases a <;> cases b <;> cases c <;> cases d <;> simp [present, devices]
  · unfold VR.read
    simp only at h1 h2 h3 h4 h5 h6 h7 h8
    rw [h1, h2, h3, h4, h5, h6, h7, h8]
    refine (key a).bind ((key b).bind ((key c).bind ?_))
    refine Reads.bind' (key d) (Reads.pure _) (by simp)

example : ∃ t, VR.tab { xPlacement := some 5, yAdvance := some (-1) } = .ok t ∧
    Off.toBytes t = .ok [0, 5, 255, 255] := ⟨_, rfl, by decide⟩

theorem readIf_isSome {α : Type} {c : Bool} {p : Reader α} {r r' : Rd} {x : Option α}
    (h : readIf c p r = .ok (x, r')) : x.isSome = c := by
  unfold readIf at h
  cases c with
  | false => cases h; rfl
  | true =>
    simp only [if_true] at h
    rw [Reader.bind_run] at h
    cases hp : p r with
    | ok y => rw [hp] at h; cases h; rfl
    | err => rw [hp] at h; cases h
    | panic => rw [hp] at h; cases h

theorem bind_ok {α β : Type} {p : Reader α} {f : α → Reader β} {r r' : Rd} {b : β}
    (h : (p >>= f) r = .ok (b, r')) : ∃ a r1, p r = .ok (a, r1) ∧ f a r1 = .ok (b, r') := by
  rw [Reader.bind_run] at h
  cases hp : p r with
  | ok y => rw [hp] at h; exact ⟨y.1, y.2, rfl, h⟩
  | err => rw [hp] at h; cases h
  | panic => rw [hp] at h; cases h

/-- C10: outside that condition the record never reads back: whatever bytes are read with the record's own
flags, the result has an y-placement device exactly if the record has an x-placement device. -/
theorem C10_y_device_follows_x (v w : ValueRecord) (r r' : Rd) (h : VR.read (flags v) r = .ok (w, r')) :
    w.yPlaDevice.isSome = v.xPlaDevice.isSome := by
  obtain ⟨h1, h2, h3, h4, h5, h6, h7, h8⟩ := has_flags v
  unfold VR.read at h
  rw [h6] at h
  obtain ⟨_, _, _, h⟩ := bind_ok h
  obtain ⟨_, _, _, h⟩ := bind_ok h
  obtain ⟨_, _, _, h⟩ := bind_ok h
  obtain ⟨_, _, _, h⟩ := bind_ok h
  obtain ⟨_, _, _, h⟩ := bind_ok h
  obtain ⟨y, _, hy, h⟩ := bind_ok h
  obtain ⟨_, _, _, h⟩ := bind_ok h
  obtain ⟨_, _, _, h⟩ := bind_ok h
  cases h
  exact readIf_isSome hy

/-- A record with only an y-placement device and one with only an x-placement device: the first has no flags at
all, the second claims both. -/
example : flags { yPlaDevice := some none } = 0 ∧ flags { xPlaDevice := some none } = 0x30 := by decide

/-- C10: simplification keeps the adjustment and the devices, leaves no explicit zero, and hence the format
mentions exactly the non-zero fields. -/
theorem C10_simplify (v : ValueRecord) :
    adjustment (simplify v) = adjustment v ∧ devices (simplify v) = devices v ∧
    (∀ x ∈ [(simplify v).xPlacement, (simplify v).yPlacement, (simplify v).xAdvance, (simplify v).yAdvance],
      x ≠ some 0) ∧
    (has (flags (simplify v)) 0x0001 = true ↔ (adjustment v).1 ≠ 0) ∧
    (has (flags (simplify v)) 0x0002 = true ↔ (adjustment v).2.1 ≠ 0) ∧
    (has (flags (simplify v)) 0x0004 = true ↔ (adjustment v).2.2.1 ≠ 0) ∧
    (has (flags (simplify v)) 0x0008 = true ↔ (adjustment v).2.2.2 ≠ 0) := by
  obtain ⟨h1, h2, h3, h4, -⟩ := has_flags (simplify v)
  have k1 : ∀ x : Option Int16, (dropZero x).getD 0 = x.getD 0 := by
    intro x; unfold dropZero; split
    · next h => rw [h]; rfl
    · rfl
  have k2 : ∀ x : Option Int16, dropZero x ≠ some 0 := by
    intro x; unfold dropZero; split
    · simp
    · assumption
  have k3 : ∀ x : Option Int16, (dropZero x).isSome = true ↔ (x.getD 0).toInt ≠ 0 := by
    intro x
    cases x with
    | none => simp [dropZero]
    | some x =>
      have : x = 0 ↔ x.toInt = 0 := ⟨fun h => by rw [h]; rfl, fun h => Int16.toInt_inj.mp (by rw [h]; rfl)⟩
      simp [dropZero, this]
  refine ⟨by simp only [adjustment, simplify, k1], rfl, ?_, ?_, ?_, ?_, ?_⟩
  · intro x hx
    simp only [simplify, List.mem_cons, List.not_mem_nil, or_false] at hx
    rcases hx with rfl | rfl | rfl | rfl <;> exact k2 _
  · rw [h1]; exact k3 _
  · rw [h2]; exact k3 _
  · rw [h3]; exact k3 _
  · rw [h4]; exact k3 _

example : simplify { xPlacement := some 0, xAdvance := some 3 } = { xAdvance := some 3 } := by decide

theorem has_bit {b : UInt16} {k : Nat} (hb : b.toNat = 2 ^ k) (f : UInt16) : has f b = f.toNat.testBit k := by
  have h1 : (f &&& b = b) ↔ f.toNat.testBit k = true := by
    rw [← UInt16.toNat_inj, UInt16.toNat_and, hb, Nat.and_two_pow]
    have := Nat.two_pow_pos k
    cases f.toNat.testBit k
    · simp only [Bool.toNat_false, Nat.zero_mul]; constructor
      · omega
      · intro h; cases h
    · simp
  unfold has
  rw [Bool.eq_iff_iff, beq_iff_eq]
  exact h1

theorem has_or {b : UInt16} {k : Nat} (hb : b.toNat = 2 ^ k) (f g : UInt16) :
    has (f ||| g) b = (has f b || has g b) := by
  rw [has_bit hb, has_bit hb, has_bit hb, UInt16.toNat_or, Nat.testBit_or]

theorem has_zero {b : UInt16} {k : Nat} (hb : b.toNat = 2 ^ k) : has 0 b = false := by
  rw [has_bit hb]; simp

theorem has_foldl {b : UInt16} {k : Nat} (hb : b.toNat = 2 ^ k) : ∀ (l : List ValueRecord) (f : UInt16),
    has (l.foldl (fun f w => f ||| flags w) f) b = (has f b || l.any (fun w => has (flags w) b))
  | [], f => by simp
  | w :: l, f => by
    rw [List.foldl_cons, has_foldl hb l, has_or hb, List.any_cons, Bool.or_assoc]

/-- The common format has a bit exactly if some record has it. -/
theorem has_highest {b : UInt16} {k : Nat} (hb : b.toNat = 2 ^ k) (l : List ValueRecord) :
    has (highestFormat l) b = l.any (fun w => has (flags w) b) := by
  cases l with
  | nil => exact has_zero hb
  | cons v l => rw [highestFormat, has_foldl hb, List.any_cons]

theorem allSame_iff {α : Type} [DecidableEq α] (l : List α) :
    allSame l = true ↔ ∀ a ∈ l, ∀ b ∈ l, a = b := by
  cases l with
  | nil => simp [allSame]
  | cons x l =>
    simp only [allSame, List.all_eq_true, decide_eq_true_eq, List.mem_cons]
    constructor
    · intro h a ha b hb
      have : ∀ c, c = x ∨ c ∈ l → c = x := fun c hc => hc.elim id (h c)
      rw [this a ha, this b hb]
    · intro h b hb
      exact h b (.inr hb) x (.inl rfl)

theorem coerceField_isSome (c : Bool) (x : Option Int16) : (coerceField c x).isSome = (c || x.isSome) := by
  unfold coerceField; cases c <;> cases x <;> rfl

theorem coerceField_getD (c : Bool) (x : Option Int16) : (coerceField c x).getD 0 = x.getD 0 := by
  unfold coerceField; cases c <;> cases x <;> rfl

theorem flags_congr {v w : ValueRecord} (h1 : v.xPlacement.isSome = w.xPlacement.isSome)
    (h2 : v.yPlacement.isSome = w.yPlacement.isSome) (h3 : v.xAdvance.isSome = w.xAdvance.isSome)
    (h4 : v.yAdvance.isSome = w.yAdvance.isSome) (hd : devices v = devices w) : flags v = flags w := by
  simp only [devices, List.cons.injEq, and_true] at hd
  unfold flags
  rw [h1, h2, h3, h4, hd.1, hd.2.2.1, hd.2.2.2]

/-- C10: bringing records to a common format keeps the number of records, every adjustment and every device;
records without devices then all have the same format, whose bits are those used by some record. -/
theorem C10_coerce (l : List ValueRecord) :
    (coerceToSame l).map adjustment = l.map adjustment ∧ (coerceToSame l).map devices = l.map devices ∧
    ((∀ v ∈ l, ∀ x ∈ devices v, x = none) →
      ∀ v ∈ coerceToSame l, ∀ k < 8, (flags v).toNat.testBit k = l.any (fun w => (flags w).toNat.testBit k)) := by
  unfold coerceToSame
  split
  · next h =>
    refine ⟨rfl, rfl, ?_⟩
    intro _ v hv k _
    rw [allSame_iff] at h
    have : ∀ w ∈ l, flags w = flags v := fun w hw =>
      h _ (List.mem_map_of_mem hw) _ (List.mem_map_of_mem hv)
    rw [Bool.eq_iff_iff, List.any_eq_true]
    exact ⟨fun hk => ⟨v, hv, hk⟩, fun ⟨w, hw, hk⟩ => this w hw ▸ hk⟩
  · next h =>
    refine ⟨?_, ?_, ?_⟩
    · rw [List.map_map]
      apply List.map_congr_left
      intro v _
      simp only [Function.comp_apply, adjustment, coerceTo, coerceField_getD]
    · rw [List.map_map]; rfl
    · intro hd v hv k hk
      obtain ⟨w, hw, rfl⟩ := List.mem_map.mp hv
      have hwd := hd w hw
      simp only [devices, List.mem_cons, List.not_mem_nil, or_false, forall_eq_or_imp, forall_eq] at hwd
      have hb : ∀ (j : Nat) (b : UInt16), b.toNat = 2 ^ j → (flags (coerceTo (highestFormat l) w)).toNat.testBit j =
          has (flags (coerceTo (highestFormat l) w)) b := fun j b h => (has_bit h _).symm
      have ha : ∀ (j : Nat) (b : UInt16), b.toNat = 2 ^ j → l.any (fun w => (flags w).toNat.testBit j) =
          has (highestFormat l) b := by
        intro j b h
        rw [has_highest h]
        exact congrArg l.any (funext fun w => (has_bit h _).symm)
      have hsub : ∀ (j : Nat) (b : UInt16), b.toNat = 2 ^ j →
          (has (highestFormat l) b || has (flags w) b) = has (highestFormat l) b := by
        intro j b h
        rw [has_highest h, Bool.eq_iff_iff, Bool.or_eq_true, List.any_eq_true]
        exact ⟨fun h => h.elim id (fun h => ⟨w, hw, h⟩), .inl⟩
      have hno : ∀ (j : Nat) (b : UInt16), b.toNat = 2 ^ j → (∀ v ∈ l, has (flags v) b = false) →
          has (highestFormat l) b = false := by
        intro j b h hl
        rw [has_highest h, List.any_eq_false]
        intro v hv
        simp [hl v hv]
      have hdf : ∀ v ∈ l, has (flags v) 0x10 = false ∧ has (flags v) 0x20 = false ∧ has (flags v) 0x40 = false ∧
          has (flags v) 0x80 = false := by
        intro v hv
        obtain ⟨-, -, -, -, h5, h6, h7, h8⟩ := has_flags v
        have := hd v hv
        simp only [devices, List.mem_cons, List.not_mem_nil, or_false, forall_eq_or_imp, forall_eq] at this
        obtain ⟨e1, e2, e3, e4⟩ := this
        rw [h5, h6, h7, h8, e1, e3, e4]
        exact ⟨rfl, rfl, rfl, rfl⟩
      obtain ⟨g1, g2, g3, g4, -⟩ := has_flags w
      obtain ⟨h1, h2, h3, h4, h5, h6, h7, h8⟩ := has_flags (coerceTo (highestFormat l) w)
      simp only [coerceTo, coerceField_isSome, ← g1, ← g2, ← g3, ← g4] at h1 h2 h3 h4 h5 h6 h7 h8
      rw [hsub 0 _ rfl] at h1
      rw [hsub 1 _ rfl] at h2
      rw [hsub 2 _ rfl] at h3
      rw [hsub 3 _ rfl] at h4
      have n1 : w.xPlaDevice.isSome = false := by rw [hwd.1]; rfl
      have n2 : w.xAdvDevice.isSome = false := by rw [hwd.2.2.1]; rfl
      have n3 : w.yAdvDevice.isSome = false := by rw [hwd.2.2.2]; rfl
      match k, hk with
      | 0, _ => rw [hb 0 1 rfl, ha 0 1 rfl]; exact h1
      | 1, _ => rw [hb 1 2 rfl, ha 1 2 rfl]; exact h2
      | 2, _ => rw [hb 2 4 rfl, ha 2 4 rfl]; exact h3
      | 3, _ => rw [hb 3 8 rfl, ha 3 8 rfl]; exact h4
      | 4, _ => rw [hb 4 0x10 rfl, ha 4 0x10 rfl, hno 4 _ rfl fun v hv => (hdf v hv).1]; exact h5.trans n1
      | 5, _ => rw [hb 5 0x20 rfl, ha 5 0x20 rfl, hno 5 _ rfl fun v hv => (hdf v hv).2.1]; exact h6.trans n1
      | 6, _ => rw [hb 6 0x40 rfl, ha 6 0x40 rfl, hno 6 _ rfl fun v hv => (hdf v hv).2.2.1]; exact h7.trans n2
      | 7, _ => rw [hb 7 0x80 rfl, ha 7 0x80 rfl, hno 7 _ rfl fun v hv => (hdf v hv).2.2.2]; exact h8.trans n3

example : coerceToSame [{ xAdvance := some 3 }, { yPlacement := some 1 }] =
    [{ xAdvance := some 3, yPlacement := some 0 }, { xAdvance := some 0, yPlacement := some 1 }] := by decide

/-- Device fields are not brought to a common format. -/
theorem C10_devices_not_coerced :
    (coerceToSame [{ xAdvDevice := some none }, { xAdvance := some 1 }]).map flags = [0x44, 0x04] := by decide

end FT.Props
