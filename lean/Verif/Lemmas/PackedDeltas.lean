import Verif.Model.PackedDeltas
import Verif.Lemmas.Reads

namespace FT.PackedDeltas
open FT Reader

/-- `bs` decodes to `l` when asked for `l.length` values, with enough fuel. -/
def Dec (bs : Bytes) (l : List Int16) : Prop :=
  ∀ k, l.length ≤ k → Reads (readLoop k l.length) bs l

theorem Dec.nil : Dec [] [] := by
  intro k _
  cases k <;> exact Reads.pure _

theorem Dec.run {b1 b2 : Bytes} {l1 l2 : List Int16} (h1 : Reads readRun b1 l1) (hne : 0 < l1.length)
    (h2 : Dec b2 l2) : Dec (b1 ++ b2) (l1 ++ l2) := by
  intro k hk
  rw [List.length_append] at hk
  cases k with
  | zero => omega
  | succ k =>
    rw [readLoop, if_neg (by rw [List.length_append]; omega)]
    refine Reads.bind h1 ?_
    have := h2 k (by omega)
    rw [List.length_append, Nat.add_sub_cancel_left]
    exact this.map (fun x => l1 ++ x)

theorem isByte_roundtrip {v : Int16} (h : isByte v = true) : v.toInt8.toInt16 = v := by
  simp only [isByte, Bool.and_eq_true, decide_eq_true_eq] at h
  have h1 : (-128 : Int) ≤ v.toInt := by simpa [Int16.le_iff_toInt_le] using h.1
  have h2 : v.toInt ≤ 127 := by simpa [Int16.le_iff_toInt_le] using h.2
  apply Int16.toInt_inj.mp
  simp [Int.bmod]
  omega

theorem ctrl_byte : ∀ n : Fin 64, ((0 ||| UInt8.ofNat n : UInt8) &&& 0x3f).toNat = n ∧
    ¬ ((0 ||| UInt8.ofNat n : UInt8) &&& 0x80) > 0 ∧ ¬ ((0 ||| UInt8.ofNat n : UInt8) &&& 0x40) > 0 := by
  decide

theorem ctrl_word : ∀ n : Fin 64, ((0x40 ||| UInt8.ofNat n : UInt8) &&& 0x3f).toNat = n ∧
    ¬ ((0x40 ||| UInt8.ofNat n : UInt8) &&& 0x80) > 0 ∧ ((0x40 ||| UInt8.ofNat n : UInt8) &&& 0x40) > 0 := by
  decide

theorem ctrl_zero : ∀ n : Fin 64, ((0x80 ||| UInt8.ofNat n : UInt8) &&& 0x3f).toNat = n ∧
    ((0x80 ||| UInt8.ofNat n : UInt8) &&& 0x80) > 0 := by
  decide

theorem reads_runBytes (l : List Int16) (h0 : 0 < l.length) (h64 : l.length ≤ 64)
    (hb : ∀ v ∈ l, isByte v = true) :
    Reads readRun (encU8 (0 ||| UInt8.ofNat (l.length - 1)) ++ encVec encByte l) l := by
  obtain ⟨e1, e2, e3⟩ := ctrl_byte ⟨l.length - 1, by omega⟩
  simp only at e1 e2 e3
  refine Reads.bind (reads_u8 _) ?_
  simp only
  rw [if_neg e2, if_neg e3, e1, Nat.sub_add_cancel h0]
  have henc : encVec encByte l = encVec encI8 (l.map Int16.toInt8) := by
    simp [encVec, List.flatMap_map]; rfl
  rw [henc]
  have h := (reads_deCounted' (p := readI8) (enc := encI8) (l := l.map Int16.toInt8) (n := l.length)
    (by simp) (fun a _ => reads_i8 a)).map (fun bs => bs.map Int8.toInt16)
  refine h.congr rfl ?_
  rw [List.map_map]
  symm
  have : ∀ a ∈ l, (Int8.toInt16 ∘ Int16.toInt8) a = id a := fun a ha => isByte_roundtrip (hb a ha)
  rw [List.map_congr_left this, List.map_id]

theorem reads_runWords (l : List Int16) (h0 : 0 < l.length) (h64 : l.length ≤ 64) :
    Reads readRun (encU8 (0x40 ||| UInt8.ofNat (l.length - 1)) ++ encVec encI16 l) l := by
  obtain ⟨e1, e2, e3⟩ := ctrl_word ⟨l.length - 1, by omega⟩
  simp only at e1 e2 e3
  refine Reads.bind (reads_u8 _) ?_
  simp only
  rw [if_neg e2, if_pos e3, e1, Nat.sub_add_cancel h0]
  exact reads_deCounted l (fun a _ => reads_i16 a)

theorem reads_runZeros (n : Nat) (h0 : 0 < n) (h64 : n ≤ 64) :
    Reads readRun (encU8 (0x80 ||| UInt8.ofNat (n - 1))) (List.replicate n 0) := by
  obtain ⟨e1, e2⟩ := ctrl_zero ⟨n - 1, by omega⟩
  simp only at e1 e2
  refine Reads.bind' (bs' := []) (reads_u8 _) ?_ (List.append_nil _).symm
  simp only
  rw [if_pos e2, e1, Nat.sub_add_cancel h0]
  exact Reads.pure _

theorem Dec.emitRun {base : UInt8} {enc : Int16 → Bytes} {P : Int16 → Prop}
    (hrun : ∀ l : List Int16, 0 < l.length → l.length ≤ 64 → (∀ v ∈ l, P v) →
      Reads readRun (encU8 (base ||| UInt8.ofNat (l.length - 1)) ++ encVec enc l) l)
    {b2 : Bytes} {l2 : List Int16} (h2 : Dec b2 l2) :
    ∀ (k : Nat) (l : List Int16), l.length < k → (∀ v ∈ l, P v) →
      Dec (PackedDeltas.emitRun base enc k l ++ b2) (l ++ l2) := by
  intro k
  induction k with
  | zero => intro l h; omega
  | succ k ih =>
    intro l hk hP
    rw [PackedDeltas.emitRun]
    split
    · rename_i h64
      have hlen : (l.take 64).length = 64 := by simp; omega
      have hr := hrun (l.take 64) (by omega) (by omega) (fun v hv => hP v (List.mem_of_mem_take hv))
      rw [hlen] at hr
      have := ih (l.drop 64) (by simp; omega) (fun v hv => hP v (List.mem_of_mem_drop hv))
      have h3 := Dec.run hr (by omega) this
      rw [← List.append_assoc (l.take 64), List.take_append_drop] at h3
      simpa [List.append_assoc] using h3
    · split
      · rename_i h64 h0
        exact Dec.run (hrun l h0 (by omega) hP) h0 h2
      · rename_i h64 h0
        have : l = [] := List.eq_nil_of_length_eq_zero (by omega)
        subst this
        simpa using h2

theorem Dec.emitZeros {b2 : Bytes} {l2 : List Int16} (h2 : Dec b2 l2) :
    ∀ (k n : Nat), n < k → Dec (PackedDeltas.emitZeros k n ++ b2) (List.replicate n 0 ++ l2) := by
  intro k
  induction k with
  | zero => intro n h; omega
  | succ k ih =>
    intro n hk
    rw [PackedDeltas.emitZeros]
    split
    · rename_i h64
      have h3 := Dec.run (reads_runZeros 64 (by omega) (by omega)) (by simp) (ih (n - 64) (by omega))
      have e : List.replicate 64 (0 : Int16) ++ (List.replicate (n - 64) 0 ++ l2) =
          List.replicate n 0 ++ l2 := by
        rw [← List.append_assoc, List.replicate_append_replicate]
        congr 2; omega
      rw [e] at h3
      simpa [List.append_assoc] using h3
    · split
      · rename_i h64 h0
        exact Dec.run (reads_runZeros n h0 (by omega)) (by simpa using h0) h2
      · have : n = 0 := by omega
        subst this
        simpa using h2

theorem splitZeros_eq (l : List Int16) : List.replicate (splitZeros l).1 0 ++ (splitZeros l).2 = l := by
  induction l with
  | nil => rfl
  | cons v t ih =>
    unfold splitZeros
    split
    · rename_i h; subst h
      simp [List.replicate_succ, ih]
    · rfl

theorem splitBytes_eq (l : List Int16) : (splitBytes l).1 ++ (splitBytes l).2 = l := by
  induction l with
  | nil => rfl
  | cons v t ih =>
    unfold splitBytes
    split
    · rfl
    · split
      · rfl
      · simp [ih]

theorem splitBytes_isByte (l : List Int16) : ∀ v ∈ (splitBytes l).1, isByte v = true := by
  induction l with
  | nil => simp [splitBytes]
  | cons v t ih =>
    unfold splitBytes
    split
    · simp
    · split
      · simp
      · intro w hw
        simp only [List.mem_cons] at hw
        rcases hw with rfl | hw
        · rename_i h1 _
          simpa using h1
        · exact ih w hw

theorem splitWords_eq (l : List Int16) : (splitWords l).1 ++ (splitWords l).2 = l := by
  induction l with
  | nil => rfl
  | cons v t ih =>
    unfold splitWords
    split
    · rfl
    · split
      · rfl
      · simp [ih]

theorem encLoop_dec : ∀ (k : Nat) (l : List Int16) (bs : Bytes), encLoop k l = .ok bs → Dec bs l := by
  intro k
  induction k with
  | zero =>
    intro l bs h
    unfold encLoop at h
    split at h
    · injection h with h; subst h
      rename_i hl
      have : l = [] := by simpa using hl
      subst this; exact Dec.nil
    · cases h
  | succ k ih =>
    intro l bs h
    match l with
    | [] => simp [encLoop] at h; subst h; exact Dec.nil
    | v :: t =>
      unfold encLoop at h
      simp only at h
      split at h
      · split at h
        · cases h
        · cases hr : encLoop k (splitZeros (v :: t)).2 with
          | ok rest =>
            rw [hr] at h
            simp only [Res.ok_bind, Res.pure_eq, Res.ok.injEq] at h
            subst h
            have := Dec.emitZeros (ih _ _ hr) ((splitZeros (v :: t)).1 + 1) (splitZeros (v :: t)).1 (by omega)
            rwa [splitZeros_eq] at this
          | err => rw [hr] at h; cases h
          | panic => rw [hr] at h; cases h
      · split at h
        · cases hr : encLoop k (splitBytes (v :: t)).2 with
          | ok rest =>
            rw [hr] at h
            simp only [Res.ok_bind, Res.pure_eq, Res.ok.injEq] at h
            subst h
            have := Dec.emitRun (base := 0) (enc := encByte) (P := fun v => isByte v = true)
              reads_runBytes (ih _ _ hr) _ _ (Nat.lt_succ_self _) (splitBytes_isByte (v :: t))
            rwa [splitBytes_eq] at this
          | err => rw [hr] at h; cases h
          | panic => rw [hr] at h; cases h
        · cases hr : encLoop k (splitWords (v :: t)).2 with
          | ok rest =>
            rw [hr] at h
            simp only [Res.ok_bind, Res.pure_eq, Res.ok.injEq] at h
            subst h
            have := Dec.emitRun (base := 0x40) (enc := encI16) (P := fun _ => True)
              (fun l h0 h1 _ => reads_runWords l h0 h1) (ih _ _ hr) _ (splitWords (v :: t)).1
              (Nat.lt_succ_self _) (fun _ _ => trivial)
            rwa [splitWords_eq] at this
          | err => rw [hr] at h; cases h
          | panic => rw [hr] at h; cases h

/-! ### when does encoding succeed -/

/-- 256 consecutive zeros somewhere. -/
def ZeroRun256 (l : List Int16) : Prop := List.replicate 256 0 <:+: l

theorem splitZeros_rest_head (l : List Int16) : (splitZeros l).2.head? ≠ some 0 := by
  induction l with
  | nil => simp [splitZeros]
  | cons v t ih =>
    unfold splitZeros
    split
    · exact ih
    · rename_i h; simpa using h

theorem zeroRun_cons {v : Int16} {t : List Int16} (hv : v ≠ 0 ∨ t.head? ≠ some 0) :
    ZeroRun256 (v :: t) ↔ ZeroRun256 t := by
  unfold ZeroRun256
  rw [List.infix_cons_iff]
  constructor
  · rintro (h | h)
    · exfalso
      rw [List.replicate_succ, List.cons_prefix_cons] at h
      rcases hv with hv | hv
      · exact hv h.1.symm
      · obtain ⟨u, hu⟩ := h.2
        apply hv
        rw [← hu, List.replicate_succ]; rfl
    · exact h
  · exact Or.inr

theorem replicate_prefix {m n : Nat} {rest : List Int16} (hr : rest.head? ≠ some 0) :
    List.replicate m 0 <+: List.replicate n 0 ++ rest ↔ m ≤ n := by
  induction m generalizing n with
  | zero => simp
  | succ m ih =>
    cases n with
    | zero =>
      simp only [List.replicate_zero, List.nil_append, List.replicate_succ]
      constructor
      · rintro ⟨u, hu⟩; rw [← hu] at hr; simp at hr
      · omega
    | succ n =>
      simp only [List.replicate_succ, List.cons_append, List.cons_prefix_cons, true_and]
      rw [ih]; omega

theorem zeroRun_replicate {n : Nat} {rest : List Int16} (hr : rest.head? ≠ some 0) :
    ZeroRun256 (List.replicate n 0 ++ rest) ↔ 256 ≤ n ∨ ZeroRun256 rest := by
  induction n with
  | zero => simp
  | succ n ih =>
    have : ZeroRun256 (List.replicate (n + 1) 0 ++ rest) ↔
        256 ≤ n + 1 ∨ ZeroRun256 (List.replicate n 0 ++ rest) := by
      rw [← replicate_prefix (m := 256) (n := n + 1) hr]
      unfold ZeroRun256
      rw [show List.replicate (n + 1) (0 : Int16) ++ rest = 0 :: (List.replicate n 0 ++ rest) by
        simp [List.replicate_succ], List.infix_cons_iff]
    rw [this, ih]
    constructor
    · rintro (h | h | h)
      · exact Or.inl h
      · exact Or.inl (by omega)
      · exact Or.inr h
    · rintro (h | h)
      · exact Or.inl h
      · exact Or.inr (Or.inr h)

theorem zeroRun_splitBytes (l : List Int16) : ZeroRun256 l ↔ ZeroRun256 (splitBytes l).2 := by
  induction l with
  | nil => rfl
  | cons v t ih =>
    unfold splitBytes
    split
    · rfl
    · split
      · rfl
      · rename_i h
        rw [zeroRun_cons (by
          by_cases hv : v = 0
          · exact Or.inr (fun h' => h ⟨hv, h'⟩)
          · exact Or.inl hv), ih]

theorem zeroRun_splitWords (l : List Int16) : ZeroRun256 l ↔ ZeroRun256 (splitWords l).2 := by
  induction l with
  | nil => rfl
  | cons v t ih =>
    unfold splitWords
    split
    · rfl
    · split
      · rfl
      · rename_i h _
        rw [zeroRun_cons (Or.inl h), ih]

theorem isByte_zero : isByte 0 = true := by decide

theorem splitZeros_lt {t : List Int16} : (splitZeros (0 :: t)).2.length < (0 :: t : List Int16).length := by
  have h := congrArg List.length (splitZeros_eq (0 :: t))
  have : (splitZeros (0 :: t)).1 = (splitZeros t).1 + 1 := by simp [splitZeros]
  simp only [List.length_append, List.length_replicate] at h
  omega

theorem splitBytes_lt {v : Int16} {t : List Int16} (h0 : v ≠ 0) (hb : isByte v = true) :
    (splitBytes (v :: t)).2.length < (v :: t).length := by
  have h := congrArg List.length (splitBytes_eq (v :: t))
  have : (splitBytes (v :: t)).1 = v :: (splitBytes t).1 := by simp [splitBytes, hb, h0]
  rw [List.length_append, this, List.length_cons] at h
  omega

theorem splitWords_lt {v : Int16} {t : List Int16} (hb : ¬ isByte v = true) :
    (splitWords (v :: t)).2.length < (v :: t).length := by
  have h := congrArg List.length (splitWords_eq (v :: t))
  have h0 : v ≠ 0 := by rintro rfl; exact hb isByte_zero
  have : (splitWords (v :: t)).1 = v :: (splitWords t).1 := by
    simp [splitWords, hb, h0]
  rw [List.length_append, this, List.length_cons] at h
  omega

theorem encLoop_total : ∀ (k : Nat) (l : List Int16), l.length ≤ k →
    (ZeroRun256 l → encLoop k l = .panic) ∧ (¬ ZeroRun256 l → ∃ bs, encLoop k l = .ok bs) := by
  intro k
  induction k with
  | zero =>
    intro l hl
    have : l = [] := List.eq_nil_of_length_eq_zero (by omega)
    subst this
    refine ⟨fun h => ?_, fun _ => ⟨[], rfl⟩⟩
    obtain ⟨s, u, h⟩ := h
    have := congrArg List.length h
    rw [List.length_append, List.length_append, List.length_replicate, List.length_nil] at this
    omega
  | succ k ih =>
    intro l hl
    match l with
    | [] =>
      refine ⟨fun h => ?_, fun _ => ⟨[], rfl⟩⟩
      obtain ⟨s, u, h⟩ := h
      have := congrArg List.length h
      rw [List.length_append, List.length_append, List.length_replicate, List.length_nil] at this
      omega
    | v :: t =>
      unfold encLoop
      simp only
      split
      · rename_i hv; subst hv
        have hlt := splitZeros_lt (t := t)
        obtain ⟨ih1, ih2⟩ := ih (splitZeros (0 :: t)).2 (by omega)
        have hz : ZeroRun256 (0 :: t) ↔ 256 ≤ (splitZeros (0 :: t)).1 ∨ ZeroRun256 (splitZeros (0 :: t)).2 := by
          conv => lhs; rw [← splitZeros_eq (0 :: t)]
          exact zeroRun_replicate (splitZeros_rest_head _)
        rw [hz]
        split
        · exact ⟨fun _ => rfl, fun h => absurd (Or.inl (by omega)) h⟩
        · rename_i hn
          constructor
          · rintro (h | h)
            · omega
            · rw [ih1 h]; rfl
          · intro h
            obtain ⟨bs, e⟩ := ih2 (fun h' => h (Or.inr h'))
            rw [e]; exact ⟨_, rfl⟩
      · rename_i hv
        split
        · rename_i hb
          have hlt := splitBytes_lt (t := t) hv hb
          obtain ⟨ih1, ih2⟩ := ih (splitBytes (v :: t)).2 (by omega)
          rw [zeroRun_splitBytes]
          constructor
          · intro h; rw [ih1 h]; rfl
          · intro h
            obtain ⟨bs, e⟩ := ih2 h
            rw [e]; exact ⟨_, rfl⟩
        · rename_i hb
          have hlt := splitWords_lt (t := t) hb
          obtain ⟨ih1, ih2⟩ := ih (splitWords (v :: t)).2 (by omega)
          rw [zeroRun_splitWords]
          constructor
          · intro h; rw [ih1 h]; rfl
          · intro h
            obtain ⟨bs, e⟩ := ih2 h
            rw [e]; exact ⟨_, rfl⟩

end FT.PackedDeltas
