import Verif.Model.Basic

/-!
Compositional reasoning about readers. `Reads p bs a`: wherever the bytes `bs` sit in a buffer, the
reader `p` started at their beginning returns `a` and stops right after them.
-/

namespace FT
open Reader

/-- `p` decodes exactly the bytes `bs` to `a`, at any position of any buffer, with any stack. -/
def Reads {α : Type} (p : Reader α) (bs : Bytes) (a : α) : Prop :=
  ∀ (pre rest : Bytes) (stk : List Nat),
    p ⟨pre ++ bs ++ rest, pre.length, stk⟩ =
      .ok (a, ⟨pre ++ bs ++ rest, pre.length + bs.length, stk⟩)

/-- Same, but `bs` must be the end of the buffer (readers that read until end of file). -/
def ReadsEnd {α : Type} (p : Reader α) (bs : Bytes) (a : α) : Prop :=
  ∀ (pre : Bytes) (stk : List Nat),
    p ⟨pre ++ bs, pre.length, stk⟩ = .ok (a, ⟨pre ++ bs, pre.length + bs.length, stk⟩)

theorem Reads.toEnd {α : Type} {p : Reader α} {bs : Bytes} {a : α} (h : Reads p bs a) :
    ReadsEnd p bs a := by
  intro pre stk
  have := h pre [] stk
  simpa using this

theorem Reads.pure {α : Type} (a : α) : Reads (pure a) [] a := by
  intro pre rest stk
  simp [pure_run]

theorem Reads.bind {α β : Type} {p : Reader α} {f : α → Reader β} {bs bs' : Bytes} {a : α} {b : β}
    (h1 : Reads p bs a) (h2 : Reads (f a) bs' b) : Reads (p >>= f) (bs ++ bs') b := by
  intro pre rest stk
  rw [bind_run]
  have e1 := h1 pre (bs' ++ rest) stk
  have e2 := h2 (pre ++ bs) rest stk
  simp only [List.append_assoc, List.length_append] at e1 e2 ⊢
  rw [e1]
  simp only
  rw [e2]
  simp [Nat.add_assoc]

theorem Reads.bind' {α β : Type} {p : Reader α} {f : α → Reader β} {bs bs' bs'' : Bytes} {a : α} {b : β}
    (h1 : Reads p bs a) (h2 : Reads (f a) bs' b) (h : bs'' = bs ++ bs') : Reads (p >>= f) bs'' b := by
  subst h; exact h1.bind h2

theorem Reads.bindEnd {α β : Type} {p : Reader α} {f : α → Reader β} {bs bs' : Bytes} {a : α} {b : β}
    (h1 : Reads p bs a) (h2 : ReadsEnd (f a) bs' b) : ReadsEnd (p >>= f) (bs ++ bs') b := by
  intro pre stk
  rw [bind_run]
  have e1 := h1 pre bs' stk
  have e2 := h2 (pre ++ bs) stk
  simp only [List.append_assoc, List.length_append] at e1 e2 ⊢
  rw [e1]
  simp only
  rw [e2]
  simp [Nat.add_assoc]

theorem ReadsEnd.bindPure {α β : Type} {p : Reader α} {f : α → Reader β} {bs : Bytes} {a : α} {b : β}
    (h1 : ReadsEnd p bs a) (h2 : f a = Pure.pure b) : ReadsEnd (p >>= f) bs b := by
  intro pre stk
  rw [bind_run, h1 pre stk]
  simp [h2, pure_run]

theorem Reads.congr {α : Type} {p : Reader α} {bs bs' : Bytes} {a a' : α} (h : Reads p bs a)
    (hb : bs' = bs) (ha : a' = a) : Reads p bs' a' := by subst hb; subst ha; exact h

/-- `p` followed by a pure function. -/
theorem Reads.map {α β : Type} {p : Reader α} {bs : Bytes} {a : α} (f : α → β) (h : Reads p bs a) :
    Reads (p >>= fun x => Pure.pure (f x)) bs (f a) := by
  have := h.bind (f := fun x => Pure.pure (f x)) (Reads.pure (f a))
  simpa using this

theorem reads_consume (bs : Bytes) : Reads (consume bs.length) bs bs := by
  intro pre rest stk
  simp only [consume, List.append_assoc, List.length_append]
  rw [if_neg (by omega)]
  simp

theorem Reads.lift {α : Type} {x : Res α} {a : α} (h : x = .ok a) : Reads (Reader.lift x) [] a := by
  intro pre rest stk
  simp [Reader.lift, h]

theorem reads_consume' {n : Nat} {bs : Bytes} (h : bs.length = n) : Reads (consume n) bs bs := by
  subst h; exact reads_consume bs

/-! ### primitives -/

theorem reads_u8 (x : UInt8) : Reads readU8 (encU8 x) x := by
  refine Reads.bind' (reads_consume' (bs := [x]) rfl) (Reads.pure x) ?_
  simp [encU8]

theorem u16_decode (x : UInt16) :
    UInt16.ofNat ((UInt8.ofNat (x.toNat / 256)).toNat * 256 + (UInt8.ofNat (x.toNat % 256)).toNat) = x := by
  apply UInt16.toNat_inj.mp
  have := x.toNat_lt
  simp
  omega

theorem u32_decode (x : UInt32) :
    UInt32.ofNat ((UInt8.ofNat (x.toNat / 16777216)).toNat * 16777216 +
      (UInt8.ofNat (x.toNat / 65536 % 256)).toNat * 65536 +
      (UInt8.ofNat (x.toNat / 256 % 256)).toNat * 256 + (UInt8.ofNat (x.toNat % 256)).toNat) = x := by
  apply UInt32.toNat_inj.mp
  have := x.toNat_lt
  simp
  omega

theorem reads_u16 (x : UInt16) : Reads readU16 (encU16 x) x := by
  refine Reads.bind' (reads_consume' (bs := encU16 x) rfl) (bs' := []) ?_ (by simp)
  simp only [encU16]
  rw [u16_decode]
  exact Reads.pure x

theorem reads_u32 (x : UInt32) : Reads readU32 (encU32 x) x := by
  refine Reads.bind' (reads_consume' (bs := encU32 x) rfl) (bs' := []) ?_ (by simp)
  simp only [encU32]
  rw [u32_decode]
  exact Reads.pure x

theorem reads_i8 (x : Int8) : Reads readI8 (encI8 x) x := by
  have := (reads_u8 x.toUInt8).map UInt8.toInt8
  simpa [readI8, encI8, encU8] using this

theorem reads_i16 (x : Int16) : Reads readI16 (encI16 x) x := by
  have := (reads_u16 x.toUInt16).map UInt16.toInt16
  simpa [readI16, encI16] using this

theorem reads_i32 (x : Int32) : Reads readI32 (encI32 x) x := by
  have := (reads_u32 x.toUInt32).map UInt32.toInt32
  simpa [readI32, encI32] using this

theorem u64_decode (x : UInt64) :
    UInt64.ofNat
      (((UInt8.ofNat ((x.toNat / 4294967296) / 16777216)).toNat * 16777216 +
        (UInt8.ofNat ((x.toNat / 4294967296) / 65536 % 256)).toNat * 65536 +
        (UInt8.ofNat ((x.toNat / 4294967296) / 256 % 256)).toNat * 256 +
        (UInt8.ofNat ((x.toNat / 4294967296) % 256)).toNat) * 4294967296 +
       ((UInt8.ofNat ((x.toNat % 4294967296) / 16777216)).toNat * 16777216 +
        (UInt8.ofNat ((x.toNat % 4294967296) / 65536 % 256)).toNat * 65536 +
        (UInt8.ofNat ((x.toNat % 4294967296) / 256 % 256)).toNat * 256 +
        (UInt8.ofNat ((x.toNat % 4294967296) % 256)).toNat)) = x := by
  apply UInt64.toNat_inj.mp
  have := x.toNat_lt
  simp
  omega

theorem reads_i64 (x : Int64) : Reads readI64 (encI64 x) x := by
  refine Reads.bind' (reads_consume' (bs := encI64 x) rfl) (bs' := []) ?_ (by simp)
  have hx := x.toUInt64.toNat_lt
  have h1 : (UInt32.ofNat (x.toUInt64.toNat / 4294967296)).toNat = x.toUInt64.toNat / 4294967296 := by
    simp; omega
  have h2 : (UInt32.ofNat (x.toUInt64.toNat % 4294967296)).toNat = x.toUInt64.toNat % 4294967296 := by
    simp
  simp only [encI64, encU64, encU32, List.cons_append, List.nil_append, h1, h2]
  rw [u64_decode]
  simpa using Reads.pure x

theorem Reads.deCounted_nil {α : Type} (p : Reader α) : Reads (deCounted p 0) [] [] := Reads.pure _

theorem Reads.deCounted_cons {α : Type} {p : Reader α} {n : Nat} {b bs : Bytes} {a : α} {l : List α}
    (h1 : Reads p b a) (h2 : Reads (deCounted p n) bs l) :
    Reads (deCounted p (n + 1)) (b ++ bs) (a :: l) := by
  refine Reads.bind h1 ?_
  have := h2.map (fun l => a :: l)
  exact this

/-- Counted read of a concatenation. -/
theorem reads_deCounted {α : Type} {p : Reader α} {enc : α → Bytes} (l : List α)
    (h : ∀ a ∈ l, Reads p (enc a) a) : Reads (deCounted p l.length) (encVec enc l) l := by
  induction l with
  | nil => exact Reads.deCounted_nil p
  | cons a l ih =>
    have := Reads.deCounted_cons (h a (by simp)) (ih (fun x hx => h x (by simp [hx])))
    simpa [encVec] using this

theorem reads_deCounted' {α : Type} {p : Reader α} {enc : α → Bytes} {l : List α} {n : Nat}
    (hn : n = l.length) (h : ∀ a ∈ l, Reads p (enc a) a) :
    Reads (deCounted p n) (encVec enc l) l := by
  subst hn; exact reads_deCounted l h

theorem ofNat16_toNat {n : Nat} (h : n ≤ 65535) : (UInt16.ofNat n).toNat = n := by
  simp; omega

theorem ofNat32_toNat {n : Nat} (h : n ≤ 4294967295) : (UInt32.ofNat n).toNat = n := by
  simp; omega

theorem reads_counted {α : Type} {p : Reader α} {enc : α → Bytes} (l : List α)
    (hl : l.length ≤ 65535) (h : ∀ a ∈ l, Reads p (enc a) a) :
    Reads (readCounted p) (encCounted enc l) l := by
  refine Reads.bind (reads_u16 _) ?_
  rw [ofNat16_toNat hl]
  exact reads_deCounted l h

theorem reads_counted32 {α : Type} {p : Reader α} {enc : α → Bytes} (l : List α)
    (hl : l.length ≤ 4294967295) (h : ∀ a ∈ l, Reads p (enc a) a) :
    Reads (readCounted32 p) (encCounted32 enc l) l := by
  refine Reads.bind (reads_u32 _) ?_
  rw [ofNat32_toNat hl]
  exact reads_deCounted l h

theorem reads_u24 (x : UInt32) (bs : Bytes) (h : encU24 x = .ok bs) : Reads readU24 bs x := by
  unfold encU24 at h
  split at h
  · cases h
  · rename_i hx
    injection h with h
    subst h
    refine Reads.bind' (bs := _) (bs' := [])
      (reads_deCounted' (enc := encU8) (l := [UInt8.ofNat (x.toNat / 65536 % 256),
        UInt8.ofNat (x.toNat / 256 % 256), UInt8.ofNat (x.toNat % 256)]) rfl
        (fun a _ => reads_u8 a)) ?_ (by simp [encVec, encU8])
    have : UInt32.ofNat ((UInt8.ofNat (x.toNat / 65536 % 256)).toNat * 65536 +
      (UInt8.ofNat (x.toNat / 256 % 256)).toNat * 256 + (UInt8.ofNat (x.toNat % 256)).toNat) = x := by
      apply UInt32.toNat_inj.mp
      simp
      omega
    simp only [this]
    exact Reads.pure x

theorem tag_fromRaw_bytes (t : Tag) (h : t.Valid) : Tag.fromRaw t.bytes = .ok t := by
  obtain ⟨h1, h2, h3, h4⟩ := h
  simp [Tag.fromRaw, Tag.bytes, h1, h2, h3, h4]

theorem reads_tag (t : Tag) (h : t.Valid) : Reads readTag (encTag t) t := by
  refine Reads.bind' (reads_consume' (bs := t.bytes) rfl)
    (Reads.lift (tag_fromRaw_bytes t h)) (by simp [encTag, Tag.bytes, encU8])

/-! ### lengths -/
@[simp] theorem encU8_length (x) : (encU8 x).length = 1 := rfl
@[simp] theorem encU16_length (x) : (encU16 x).length = 2 := rfl
@[simp] theorem encU32_length (x) : (encU32 x).length = 4 := rfl
@[simp] theorem encI8_length (x) : (encI8 x).length = 1 := rfl
@[simp] theorem encI16_length (x) : (encI16 x).length = 2 := rfl
@[simp] theorem encI32_length (x) : (encI32 x).length = 4 := rfl
@[simp] theorem encI64_length (x) : (encI64 x).length = 8 := rfl
@[simp] theorem encTag_length (x) : (encTag x).length = 4 := rfl

theorem encVec_length {α : Type} {enc : α → Bytes} {k : Nat} (h : ∀ a, (enc a).length = k) (l : List α) :
    (encVec enc l).length = k * l.length := by
  induction l with
  | nil => simp [encVec]
  | cons a l ih =>
    simp only [encVec, List.flatMap_cons, List.length_append, List.length_cons] at *
    rw [ih, h, Nat.mul_succ, Nat.add_comm]

@[simp] theorem encVec_append {α : Type} (enc : α → Bytes) (l l' : List α) :
    encVec enc (l ++ l') = encVec enc l ++ encVec enc l' := by simp [encVec]

@[simp] theorem encVec_nil {α : Type} (enc : α → Bytes) : encVec enc [] = [] := rfl
@[simp] theorem encVec_cons {α : Type} (enc : α → Bytes) (a : α) (l : List α) :
    encVec enc (a :: l) = enc a ++ encVec enc l := by simp [encVec]

theorem encVec_u8 (l : Bytes) : encVec encU8 l = l := by
  induction l with
  | nil => rfl
  | cons a l ih => rw [encVec_cons, ih]; rfl

/-! ### reading until end of file -/

/-- A reader that fails at end of file. -/
def FailsAtEnd {α : Type} (p : Reader α) : Prop :=
  ∀ (inp : Bytes) (stk : List Nat), p ⟨inp, inp.length, stk⟩ = .err

theorem consume_failsAtEnd {n : Nat} (h : 0 < n) : FailsAtEnd (consume n) := by
  intro inp stk; simp [consume, h]

theorem FailsAtEnd.bind {α β : Type} {p : Reader α} {f : α → Reader β} (h : FailsAtEnd p) :
    FailsAtEnd (p >>= f) := by
  intro inp stk; rw [bind_run, h inp stk]

theorem readU8_failsAtEnd : FailsAtEnd readU8 := (consume_failsAtEnd (by omega)).bind
theorem readU16_failsAtEnd : FailsAtEnd readU16 := (consume_failsAtEnd (by omega)).bind
theorem readU32_failsAtEnd : FailsAtEnd readU32 := (consume_failsAtEnd (by omega)).bind
theorem readI8_failsAtEnd : FailsAtEnd readI8 := readU8_failsAtEnd.bind
theorem readI16_failsAtEnd : FailsAtEnd readI16 := readU16_failsAtEnd.bind

theorem readVecFuel_end {α : Type} {p : Reader α} {enc : α → Bytes} (hend : FailsAtEnd p) :
    ∀ (l : List α) (k : Nat) (pre : Bytes) (stk : List Nat), l.length < k →
      (∀ a ∈ l, Reads p (enc a) a) →
      readVecFuel p k ⟨pre ++ encVec enc l, pre.length, stk⟩ =
        .ok (l, ⟨pre ++ encVec enc l, pre.length + (encVec enc l).length, stk⟩) := by
  intro l
  induction l with
  | nil =>
    intro k pre stk hk _
    cases k with
    | zero => omega
    | succ k =>
      have := hend pre stk
      simp [readVecFuel, this]
  | cons a l ih =>
    intro k pre stk hk hr
    cases k with
    | zero => simp at hk
    | succ k =>
      have h1 := hr a (by simp) pre (encVec enc l) stk
      have h2 := ih k (pre ++ enc a) stk (by simpa using hk) (fun x hx => hr x (by simp [hx]))
      simp only [List.append_assoc, List.length_append] at h1 h2
      simp only [readVecFuel, encVec_cons]
      rw [h1]
      simp only
      rw [h2]
      simp [Nat.add_assoc]

/-- `Vec<T>::from_bytes` on exactly the bytes of a list, each element at least one byte long. -/
theorem readsEnd_vec {α : Type} {p : Reader α} {enc : α → Bytes} (l : List α) (hend : FailsAtEnd p)
    (hpos : ∀ a ∈ l, 0 < (enc a).length) (h : ∀ a ∈ l, Reads p (enc a) a) :
    ReadsEnd (readVec p) (encVec enc l) l := by
  intro pre stk
  have hlen : l.length ≤ (encVec enc l).length := by
    clear h hend
    induction l with
    | nil => simp
    | cons a l ih =>
      have h1 := hpos a (by simp)
      have h2 := ih (fun x hx => hpos x (by simp [hx]))
      simp only [encVec_cons, List.length_append, List.length_cons]
      omega
  unfold readVec
  apply readVecFuel_end hend l _ _ _ _ h
  simp only [List.length_append]
  omega

/-- Run a reader on a whole byte string from its beginning. -/
theorem Reads.run {α : Type} {p : Reader α} {bs : Bytes} {a : α} (h : Reads p bs a) :
    p (Rd.new bs) = .ok (a, ⟨bs, bs.length, [0]⟩) := by
  have := h [] [] [0]
  simpa [Rd.new] using this

theorem ReadsEnd.run {α : Type} {p : Reader α} {bs : Bytes} {a : α} (h : ReadsEnd p bs a) :
    p (Rd.new bs) = .ok (a, ⟨bs, bs.length, [0]⟩) := by
  have := h [] [0]
  simpa [Rd.new] using this

end FT
