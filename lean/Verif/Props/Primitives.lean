import Verif.Lemmas.Reads

/-!
# C01, C02, C03: primitive and counted codecs
-/

namespace FT.Props
open FT

/-- Specification: the number denoted by a big-endian byte string. -/
def beValue (bs : Bytes) : Nat := bs.foldl (fun acc b => acc * 256 + b.toNat) 0

/-- Specification: "`p` placed at the start of `bs`, anywhere in any buffer, returns `a` and stops right
after `bs`". The bytes before and after are arbitrary, so the result cannot depend on them. -/
def RoundTripsAt {α : Type} (p : Reader α) (bs : Bytes) (a : α) : Prop :=
  ∀ (before after : Bytes) (bases : List Nat),
    p ⟨before ++ bs ++ after, before.length, bases⟩ =
      .ok (a, ⟨before ++ bs ++ after, before.length + bs.length, bases⟩)

/-! ## C01 -/

theorem C01_u8 (x : UInt8) :
    beValue (encU8 x) = x.toNat ∧ (encU8 x).length = 1 ∧ RoundTripsAt readU8 (encU8 x) x :=
  ⟨by simp [beValue, encU8], rfl, reads_u8 x⟩

theorem C01_u16 (x : UInt16) :
    beValue (encU16 x) = x.toNat ∧ (encU16 x).length = 2 ∧ RoundTripsAt readU16 (encU16 x) x := by
  refine ⟨?_, rfl, reads_u16 x⟩
  have := x.toNat_lt
  simp [beValue, encU16]
  omega

theorem C01_u32 (x : UInt32) :
    beValue (encU32 x) = x.toNat ∧ (encU32 x).length = 4 ∧ RoundTripsAt readU32 (encU32 x) x := by
  refine ⟨?_, rfl, reads_u32 x⟩
  have := x.toNat_lt
  simp [beValue, encU32]
  omega

/-- Signed integers are written in two's complement. -/
theorem C01_i8 (x : Int8) :
    ((beValue (encI8 x) : Int) = x.toInt % 256) ∧ (encI8 x).length = 1 ∧
    RoundTripsAt readI8 (encI8 x) x := by
  refine ⟨?_, rfl, reads_i8 x⟩
  have h1 : ((x.toUInt8.toNat : Nat) : Int) = x.toInt % 256 := by
    have := x.toBitVec.toInt_eq_toNat_cond
    have h2 : x.toInt = x.toBitVec.toInt := rfl
    have h3 : x.toUInt8.toNat = x.toBitVec.toNat := rfl
    have h4 := x.toBitVec.isLt
    rw [h2, h3, this]
    split <;> omega
  simpa [beValue, encI8] using h1

theorem C01_i16 (x : Int16) :
    ((beValue (encI16 x) : Int) = x.toInt % 65536) ∧ (encI16 x).length = 2 ∧
    RoundTripsAt readI16 (encI16 x) x := by
  refine ⟨?_, rfl, reads_i16 x⟩
  have h1 : ((x.toUInt16.toNat : Nat) : Int) = x.toInt % 65536 := by
    have := x.toBitVec.toInt_eq_toNat_cond
    have h2 : x.toInt = x.toBitVec.toInt := rfl
    have h3 : x.toUInt16.toNat = x.toBitVec.toNat := rfl
    have h4 := x.toBitVec.isLt
    rw [h2, h3, this]
    split <;> omega
  have h2 := (C01_u16 x.toUInt16).1
  unfold encI16
  rw [h2, h1]

theorem C01_i32 (x : Int32) :
    ((beValue (encI32 x) : Int) = x.toInt % 4294967296) ∧ (encI32 x).length = 4 ∧
    RoundTripsAt readI32 (encI32 x) x := by
  refine ⟨?_, rfl, reads_i32 x⟩
  have h1 : ((x.toUInt32.toNat : Nat) : Int) = x.toInt % 4294967296 := by
    have := x.toBitVec.toInt_eq_toNat_cond
    have h2 : x.toInt = x.toBitVec.toInt := rfl
    have h3 : x.toUInt32.toNat = x.toBitVec.toNat := rfl
    have h4 := x.toBitVec.isLt
    rw [h2, h3, this]
    split <;> omega
  have h2 := (C01_u32 x.toUInt32).1
  unfold encI32
  rw [h2, h1]

theorem C01_i64 (x : Int64) :
    ((beValue (encI64 x) : Int) = x.toInt % 18446744073709551616) ∧ (encI64 x).length = 8 ∧
    RoundTripsAt readI64 (encI64 x) x := by
  refine ⟨?_, rfl, reads_i64 x⟩
  have h1 : ((x.toUInt64.toNat : Nat) : Int) = x.toInt % 18446744073709551616 := by
    have := x.toBitVec.toInt_eq_toNat_cond
    have h2 : x.toInt = x.toBitVec.toInt := rfl
    have h3 : x.toUInt64.toNat = x.toBitVec.toNat := rfl
    have h4 := x.toBitVec.isLt
    rw [h2, h3, this]
    split <;> omega
  have h2 : beValue (encI64 x) = x.toUInt64.toNat := by
    have h := x.toUInt64.toNat_lt
    have e : ∀ a b : UInt32, beValue (encU32 a ++ encU32 b) = a.toNat * 4294967296 + b.toNat := by
      intro a b
      have ha := a.toNat_lt
      have hb := b.toNat_lt
      simp [beValue, encU32]
      omega
    unfold encI64 encU64
    rw [e, UInt32.toNat_ofNat_of_lt' (by simp only [UInt32.size]; omega),
      UInt32.toNat_ofNat_of_lt' (by simp only [UInt32.size]; omega)]
    omega
  rw [h2, h1]

/-- A 24-bit integer is either written in three bytes that read back to it, or refused. -/
theorem C01_u24 (x : UInt32) :
    (x.toNat < 2 ^ 24 → ∃ bs, encU24 x = .ok bs ∧ bs.length = 3 ∧ beValue bs = x.toNat ∧
      RoundTripsAt readU24 bs x) ∧
    (2 ^ 24 ≤ x.toNat → encU24 x = .err) := by
  constructor
  · intro h
    have e : encU24 x = .ok [UInt8.ofNat (x.toNat / 65536 % 256), UInt8.ofNat (x.toNat / 256 % 256),
            UInt8.ofNat (x.toNat % 256)] := by
      unfold encU24; rw [if_neg (by omega)]
    refine ⟨_, e, rfl, ?_, reads_u24 x _ e⟩
    simp [beValue]
    omega
  · intro h
    unfold encU24; rw [if_pos (by omega)]

/-- Tags (four printable bytes) round-trip, and what is written is the tag's own bytes. -/
theorem C01_tag (t : Tag) (h : t.Valid) :
    encTag t = [t.a, t.b, t.c, t.d] ∧ RoundTripsAt readTag (encTag t) t :=
  ⟨rfl, reads_tag t h⟩

/-- Every tag the reader accepts is printable (and so can be written and read again). -/
theorem C01_tag_reader_valid (r r' : Rd) (t : Tag) (h : readTag r = .ok (t, r')) : t.Valid := by
  unfold readTag at h
  rw [Reader.bind_run] at h
  split at h
  · rename_i bs r1 hc
    unfold Reader.lift at h
    split at h
    · rename_i t' ht
      simp only [Res.ok.injEq, Prod.mk.injEq] at h
      obtain ⟨rfl, _⟩ := h
      unfold consume at hc
      split at hc
      · cases hc
      · rename_i hlen
        simp only [Res.ok.injEq, Prod.mk.injEq] at hc
        obtain ⟨hbs, _⟩ := hc
        have hl : bs.length = 4 := by
          rw [← hbs]; simp; omega
        match bs, hl with
        | [a, b, c, d], _ =>
          unfold Tag.fromRaw at ht
          split at ht
          · cases ht
          · split at ht
            · rename_i hall
              simp at ht hall
              rw [← ht]
              exact hall
            · cases ht
    · cases h
    · cases h
  · cases h
  · cases h

example : encU16 0xABCD = [0xAB, 0xCD] := by decide
example : encI16 (-2) = [0xFF, 0xFE] := by decide
example : readU16 ⟨[9, 9, 0x12, 0x34, 7], 2, [0]⟩ = .ok (0x1234, ⟨[9, 9, 0x12, 0x34, 7], 4, [0]⟩) := by
  decide
example : (16777216 : UInt32).toNat ≥ 2 ^ 24 ∧ encU24 16777216 = .err := by decide
example : (⟨0x68, 0x65, 0x61, 0x64⟩ : Tag).Valid := by decide

/-! ## C02 -/

/-- A 16-bit counted array of at most 65535 elements round-trips, for any element codec that does. -/
theorem C02_counted {α : Type} (enc : α → Bytes) (p : Reader α)
    (hcodec : ∀ a, RoundTripsAt p (enc a) a) (l : List α) (hl : l.length ≤ 65535) :
    RoundTripsAt (readCounted p) (encCounted enc l) l :=
  reads_counted l hl (fun a _ => hcodec a)

/-- A 32-bit counted array of at most 2^32-1 elements round-trips. -/
theorem C02_counted32 {α : Type} (enc : α → Bytes) (p : Reader α)
    (hcodec : ∀ a, RoundTripsAt p (enc a) a) (l : List α) (hl : l.length ≤ 4294967295) :
    RoundTripsAt (readCounted32 p) (encCounted32 enc l) l :=
  reads_counted32 l hl (fun a _ => hcodec a)

/-- Longer arrays are silently cut: reading back `n` elements gives the first `n mod 65536`. -/
theorem C02_counted_truncates {α : Type} (enc : α → Bytes) (p : Reader α)
    (hcodec : ∀ a, RoundTripsAt p (enc a) a) (l : List α) (before : Bytes) (bases : List Nat) :
    ∃ r', readCounted p ⟨before ++ encCounted enc l, before.length, bases⟩ =
      .ok (l.take (l.length % 65536), r') := by
  have hlen : (l.take (l.length % 65536)).length = l.length % 65536 := by
    rw [List.length_take]; have := Nat.mod_le l.length 65536; omega
  have hsplit : encCounted enc l = (encU16 (UInt16.ofNat l.length) ++
      encVec enc (l.take (l.length % 65536))) ++ encVec enc (l.drop (l.length % 65536)) := by
    unfold encCounted
    rw [List.append_assoc, ← encVec_append, List.take_append_drop]
  have hr : Reads (readCounted p) (encU16 (UInt16.ofNat l.length) ++
      encVec enc (l.take (l.length % 65536))) (l.take (l.length % 65536)) := by
    refine Reads.bind (reads_u16 _) ?_
    apply reads_deCounted' _ (fun a _ => hcodec a)
    rw [hlen]; simp
  rw [hsplit, ← List.append_assoc]
  exact ⟨_, hr before _ bases⟩

/-- In particular an array of 65536 elements reads back as the empty array. -/
theorem C02_counted_65536_lost {α : Type} (enc : α → Bytes) (p : Reader α)
    (hcodec : ∀ a, RoundTripsAt p (enc a) a) (l : List α) (hl : l.length = 65536) :
    ∃ r', readCounted p (Rd.new (encCounted enc l)) = .ok ([], r') := by
  have := C02_counted_truncates enc p hcodec l [] [0]
  simpa [hl, Rd.new] using this

example : readCounted readU16 (Rd.new (encCounted encU16 [1, 2, 3])) =
    .ok ([1, 2, 3], ⟨[0, 3, 0, 1, 0, 2, 0, 3], 8, [0]⟩) := by decide
example : ∀ x, RoundTripsAt readU16 (encU16 x) x := fun x => (C01_u16 x).2.2

/-! ## C03 -/

/-- Specification of a bounded read of `w` bytes: it succeeds exactly if the bytes are there, and then
moves the cursor by exactly `w`, staying inside the buffer; otherwise it is an error, never a panic. -/
def BoundedRead {α : Type} (p : Reader α) (w : Nat) : Prop :=
  ∀ r : Rd, (r.ptr + w ≤ r.inp.length → ∃ a, p r = .ok (a, { r with ptr := r.ptr + w })) ∧
            (r.inp.length < r.ptr + w → p r = .err)

theorem consume_spec (n : Nat) (r : Rd) :
    (r.ptr + n ≤ r.inp.length → ∃ bs : Bytes, bs.length = n ∧ consume n r = .ok (bs, { r with ptr := r.ptr + n })) ∧
    (r.inp.length < r.ptr + n → consume n r = .err) := by
  constructor
  · intro h
    refine ⟨(r.inp.drop r.ptr).take n, ?_, ?_⟩
    · simp; omega
    · unfold consume; rw [if_neg (by omega)]
  · intro h; unfold consume; rw [if_pos (by omega)]

theorem C03_u8 : BoundedRead readU8 1 := by
  intro r
  obtain ⟨h1, h2⟩ := consume_spec 1 r
  constructor
  · intro h
    obtain ⟨bs, hl, e⟩ := h1 h
    match bs, hl with
    | [a], _ => exact ⟨_, by unfold readU8; rw [Reader.bind_run, e]; rfl⟩
  · intro h; unfold readU8; rw [Reader.bind_run, h2 h]

theorem C03_u16 : BoundedRead readU16 2 := by
  intro r
  obtain ⟨h1, h2⟩ := consume_spec 2 r
  constructor
  · intro h
    obtain ⟨bs, hl, e⟩ := h1 h
    match bs, hl with
    | [a, b], _ => exact ⟨_, by unfold readU16; rw [Reader.bind_run, e]; rfl⟩
  · intro h; unfold readU16; rw [Reader.bind_run, h2 h]

theorem C03_u32 : BoundedRead readU32 4 := by
  intro r
  obtain ⟨h1, h2⟩ := consume_spec 4 r
  constructor
  · intro h
    obtain ⟨bs, hl, e⟩ := h1 h
    match bs, hl with
    | [a, b, c, d], _ => exact ⟨_, by unfold readU32; rw [Reader.bind_run, e]; rfl⟩
  · intro h; unfold readU32; rw [Reader.bind_run, h2 h]

theorem BoundedRead.map {α β : Type} {p : Reader α} {w : Nat} (h : BoundedRead p w) (f : α → β) :
    BoundedRead (p >>= fun x => pure (f x)) w := by
  intro r
  obtain ⟨h1, h2⟩ := h r
  constructor
  · intro hr
    obtain ⟨a, e⟩ := h1 hr
    exact ⟨f a, by rw [Reader.bind_run, e]; rfl⟩
  · intro hr; rw [Reader.bind_run, h2 hr]

theorem C03_i8 : BoundedRead readI8 1 := C03_u8.map _
theorem C03_i16 : BoundedRead readI16 2 := C03_u16.map _
theorem C03_i32 : BoundedRead readI32 4 := C03_u32.map _

theorem C03_i64 : BoundedRead readI64 8 := by
  intro r
  obtain ⟨h1, h2⟩ := consume_spec 8 r
  constructor
  · intro h
    obtain ⟨bs, hl, e⟩ := h1 h
    match bs, hl with
    | [a, b, c, d, e', f, g, h], _ => exact ⟨_, by unfold readI64; rw [Reader.bind_run, e]; rfl⟩
  · intro h; unfold readI64; rw [Reader.bind_run, h2 h]

/-- Reading `n` fixed-width elements succeeds exactly if all `n * w` bytes are there. -/
theorem C03_counted {α : Type} (p : Reader α) (w n : Nat) (hp : BoundedRead p w) (r : Rd)
    (hr : r.ptr ≤ r.inp.length) :
    (r.ptr + n * w ≤ r.inp.length → ∃ l : List α, l.length = n ∧
        deCounted p n r = .ok (l, { r with ptr := r.ptr + n * w })) ∧
    (r.inp.length < r.ptr + n * w → deCounted p n r = .err) := by
  induction n generalizing r with
  | zero =>
    constructor
    · intro _; exact ⟨[], rfl, by simp [deCounted, Reader.pure_run]⟩
    · intro h; omega
  | succ n ih =>
    obtain ⟨h1, h2⟩ := hp r
    have hm : (n + 1) * w = n * w + w := Nat.succ_mul n w
    constructor
    · intro h
      obtain ⟨a, e⟩ := h1 (by omega)
      obtain ⟨l, hl, e2⟩ := (ih { r with ptr := r.ptr + w } (by simp; omega)).1 (by simp; omega)
      refine ⟨a :: l, by simp [hl], ?_⟩
      simp only [deCounted, Reader.bind_run, e, e2]
      simp [Reader.pure_run]
      omega
    · intro h
      by_cases hw : r.inp.length < r.ptr + w
      · simp only [deCounted, Reader.bind_run, h2 hw]
      · obtain ⟨a, e⟩ := h1 (by omega)
        have e2 := (ih { r with ptr := r.ptr + w } (by simp; omega)).2 (by simp; omega)
        simp only [deCounted, Reader.bind_run, e, e2]

example : readU32 ⟨[1, 2, 3], 0, [0]⟩ = .err := by decide
example : (⟨[1, 2, 3], 1, [0]⟩ : Rd).ptr + 2 ≤ (⟨[1, 2, 3], 1, [0]⟩ : Rd).inp.length := by decide

end FT.Props
