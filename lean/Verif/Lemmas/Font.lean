import Verif.Model.Font
import Verif.Lemmas.Reads

namespace FT.Font
open FT Reader

/-! ### checksum -/

/-- Weighted byte sum: byte number `i` counts `256^(3 - i mod 4)`. -/
def posSum : Nat → Bytes → Nat
  | _, [] => 0
  | i, b :: t => b.toNat * 256 ^ (3 - i % 4) + posSum (i + 1) t

theorem posSum_add4 (x : Bytes) : ∀ i, posSum (i + 4) x = posSum i x := by
  induction x with
  | nil => intro i; rfl
  | cons b t ih =>
    intro i
    simp only [posSum]
    rw [show i + 4 + 1 = i + 1 + 4 by omega, ih, Nat.add_mod_right]

theorem posSum_append (x y : Bytes) : ∀ i, posSum i (x ++ y) = posSum i x + posSum (i + x.length) y := by
  induction x with
  | nil => intro i; simp [posSum]
  | cons b t ih =>
    intro i
    simp only [List.cons_append, posSum, ih, List.length_cons]
    rw [show i + 1 + t.length = i + (t.length + 1) by omega]
    omega

theorem posSum_mod4 (x : Bytes) {i : Nat} (h : i % 4 = 0) : posSum i x = posSum 0 x := by
  obtain ⟨k, rfl⟩ : ∃ k, i = 4 * k := ⟨i / 4, by omega⟩
  clear h
  induction k with
  | zero => rfl
  | succ k ih => rw [show 4 * (k + 1) = 4 * k + 4 by omega, posSum_add4, ih]

theorem checksumFrom_eq (x : Bytes) : ∀ s, checksumFrom s x = s + UInt32.ofNat (posSum 0 x) := by
  match x with
  | [] => intro s; simp [checksumFrom, posSum]
  | [a] => intro s; simp [checksumFrom, posSum, be32]
  | [a, b] => intro s; simp [checksumFrom, posSum, be32]
  | [a, b, c] => intro s; simp [checksumFrom, posSum, be32, UInt32.add_assoc]
  | a :: b :: c :: d :: t =>
    intro s
    rw [checksumFrom, checksumFrom_eq t]
    have : posSum 0 (a :: b :: c :: d :: t) =
        (a.toNat * 16777216 + b.toNat * 65536 + c.toNat * 256 + d.toNat) + posSum 0 t := by
      have h4 := posSum_add4 t 0
      simp only [posSum]
      simp only [Nat.zero_add] at h4
      simp only [Nat.zero_add, Nat.reduceAdd, Nat.reduceMod, Nat.reduceSub, Nat.reducePow, h4]
      omega
    rw [this, UInt32.ofNat_add, be32, UInt32.add_assoc]
  termination_by x.length

theorem checksum_toNat (x : Bytes) : (checksum x).toNat = posSum 0 x % 2 ^ 32 := by
  unfold checksum
  rw [checksumFrom_eq]
  simp

theorem posSum_encU32 (v : UInt32) {i : Nat} (h : i % 4 = 0) : posSum i (encU32 v) = v.toNat := by
  rw [posSum_mod4 _ h]
  have := v.toNat_lt
  simp [posSum, encU32]
  omega

theorem posSum_zero4 {i : Nat} : posSum i [0, 0, 0, 0] = 0 := by simp [posSum]

/-! ### padding -/

def pad4 (n : Nat) : Nat := n + (4 - n % 4) % 4

theorem pad4_mod (n : Nat) : pad4 n % 4 = 0 := by unfold pad4; omega
theorem le_pad4 (n : Nat) : n ≤ pad4 n := by unfold pad4; omega

@[simp] theorem padTo4_length (b : Bytes) : (padTo4 b).length = pad4 b.length := by
  simp [padTo4, pad4]

/-! ### building -/

/-- Table bytes with the four adjustment bytes of `head` replaced by `v`. -/
def setAdj (v : Bytes) (x : Tag × Bytes) : Tag × Bytes :=
  if x.1 = headTag then (x.1, x.2.take 8 ++ v ++ x.2.drop 12) else x

@[simp] theorem setAdj_fst (v : Bytes) (x) : (setAdj v x).1 = x.1 := by unfold setAdj; split <;> rfl

def HeadOk (tabs : List (Tag × Bytes)) : Prop := ∀ x ∈ tabs, x.1 = headTag → 12 ≤ x.2.length

theorem setAdj_length {v : Bytes} (hv : v.length = 4) {x : Tag × Bytes} (h : x.1 = headTag → 12 ≤ x.2.length) :
    (setAdj v x).2.length = x.2.length := by
  unfold setAdj
  split
  · rename_i hx
    have := h hx
    simp [hv]; omega
  · rfl

def Zero4 : Bytes := [0, 0, 0, 0]

/-- Directory entries, purely. -/
def recsL : Nat → List (Tag × Bytes) → List Rec
  | _, [] => []
  | pos, x :: rest =>
    ⟨x.1, checksum (setAdj Zero4 x).2, UInt32.ofNat pos, UInt32.ofNat x.2.length⟩ ::
      recsL (pos + pad4 x.2.length) rest

def encRec (r : Rec) : Bytes := encTag r.tag ++ encU32 r.checksum ++ encU32 r.offset ++ encU32 r.length

def headPos : Nat → List (Tag × Bytes) → Option Nat
  | _, [] => none
  | pos, x :: rest => match headPos (pos + pad4 x.2.length) rest with
    | some p => some p
    | none => if x.1 = headTag then some pos else none

def dataOf (tabs : List (Tag × Bytes)) : Bytes := tabs.flatMap (fun x => padTo4 x.2)

theorem prepare_eq {x : Tag × Bytes} (h : x.1 = headTag → 12 ≤ x.2.length) :
    prepare x.1 x.2 = .ok (setAdj Zero4 x).2 := by
  unfold prepare setAdj
  split
  · rename_i hx
    unfold zeroAdjustment
    rw [if_neg (by have := h hx; omega)]
    rfl
  · rfl

theorem build_eq (tabs : List (Tag × Bytes)) (h : HeadOk tabs) : ∀ pos,
    build pos tabs = .ok (encVec encRec (recsL pos tabs), dataOf (tabs.map (setAdj Zero4)), headPos pos tabs) := by
  induction tabs with
  | nil => intro pos; rfl
  | cons x rest ih =>
    intro pos
    obtain ⟨t, b⟩ := x
    have hx : (t, b).1 = headTag → 12 ≤ (t, b).2.length := h (t, b) (by simp)
    have hrest : HeadOk rest := fun y hy => h y (by simp [hy])
    have hl : (setAdj Zero4 (t, b)).2.length = b.length := setAdj_length rfl hx
    have hp := prepare_eq hx
    simp only at hp
    simp only [build, hp, Res.ok_bind, padTo4_length, hl, ih hrest]
    simp only [Res.pure_eq, recsL, encVec_cons, encRec, record, hl, dataOf, List.map_cons, List.flatMap_cons,
      headPos]
    rfl

theorem build_panic (tabs : List (Tag × Bytes)) (h : ¬ HeadOk tabs) : ∀ pos, build pos tabs = .panic := by
  induction tabs with
  | nil => exact absurd (fun x hx => by simp at hx) h
  | cons x rest ih =>
    intro pos
    obtain ⟨t, b⟩ := x
    by_cases hx : t = headTag → 12 ≤ b.length
    · have hrest : ¬ HeadOk rest := by
        intro hr
        apply h
        intro y hy
        simp only [List.mem_cons] at hy
        rcases hy with rfl | hy
        · exact hx
        · exact hr y hy
      have hp := prepare_eq (x := (t, b)) hx
      simp only at hp
      simp only [build, hp, Res.ok_bind, ih hrest, Res.panic_bind]
    · have hx' : t = headTag ∧ b.length < 12 := by
        by_cases ht : t = headTag
        · exact ⟨ht, by apply Nat.lt_of_not_le; intro h'; exact hx (fun _ => h')⟩
        · exact absurd (fun h' => absurd h' ht) hx
      simp [build, prepare, hx'.1, zeroAdjustment, hx'.2]

theorem recsL_length (tabs) : ∀ pos, (recsL pos tabs).length = tabs.length := by
  induction tabs with
  | nil => intro pos; rfl
  | cons x rest ih => intro pos; simp [recsL, ih]

theorem encRec_length (r : Rec) : (encRec r).length = 16 := by simp [encRec]

theorem recBytes_length (pos : Nat) (tabs) : (encVec encRec (recsL pos tabs)).length = 16 * tabs.length := by
  rw [encVec_length encRec_length, recsL_length]

theorem headPos_none (tabs : List (Tag × Bytes)) : ∀ pos, headPos pos tabs = none ↔ ∀ x ∈ tabs, x.1 ≠ headTag := by
  induction tabs with
  | nil => intro pos; simp [headPos]
  | cons x rest ih =>
    intro pos
    simp only [headPos, List.mem_cons]
    cases hp : headPos (pos + pad4 x.2.length) rest with
    | some p =>
      simp only [reduceCtorEq, false_iff]
      intro h
      have := (ih (pos + pad4 x.2.length)).mpr (fun y hy => h y (Or.inr hy))
      rw [this] at hp; cases hp
    | none =>
      have := (ih _).mp hp
      simp only
      constructor
      · intro h y hy
        rcases hy with rfl | hy
        · intro hy; rw [if_pos hy] at h; cases h
        · exact this y hy
      · intro h
        rw [if_neg (h x (Or.inl rfl))]

/-- Tags strictly increasing. -/
def Sorted (tabs : List (Tag × Bytes)) : Prop := tabs.Pairwise (fun x y => key x.1 < key y.1)

theorem map_setAdj_id {v : Bytes} {tabs : List (Tag × Bytes)} (h : ∀ x ∈ tabs, x.1 ≠ headTag) :
    tabs.map (setAdj v) = tabs := by
  have : ∀ x ∈ tabs, setAdj v x = id x := by
    intro x hx
    unfold setAdj
    rw [if_neg (h x hx)]; rfl
  rw [List.map_congr_left this, List.map_id]

/-- Where `head`'s adjustment field is. -/
theorem headPos_split (tabs : List (Tag × Bytes)) (hok : HeadOk tabs) (hs : Sorted tabs) : ∀ pos p,
    headPos pos tabs = some p → pos % 4 = 0 →
    ∃ d1 d2, pos + d1.length = p + 8 ∧ d1.length % 4 = 0 ∧
      ∀ v : Bytes, v.length = 4 → dataOf (tabs.map (setAdj v)) = d1 ++ v ++ d2 := by
  induction tabs with
  | nil => intro pos p h; cases h
  | cons x rest ih =>
    intro pos p h hpos
    have hrest : HeadOk rest := fun y hy => hok y (by simp [hy])
    have hs' : Sorted rest := (List.pairwise_cons.mp hs).2
    simp only [headPos] at h
    cases hp : headPos (pos + pad4 x.2.length) rest with
    | some p' =>
      rw [hp] at h
      simp only [Option.some.injEq] at h
      subst h
      obtain ⟨d1, d2, e1, e2, e3⟩ := ih hrest hs' _ _ hp (by have := pad4_mod x.2.length; omega)
      have hx : x.1 ≠ headTag := by
        intro hx
        have : ¬ ∀ y ∈ rest, y.1 ≠ headTag := by
          intro hall
          rw [(headPos_none rest _).mpr hall] at hp; cases hp
        apply this
        intro y hy hyh
        have := (List.pairwise_cons.mp hs).1 y hy
        rw [hx, hyh] at this
        omega
      refine ⟨padTo4 x.2 ++ d1, d2, by simp; omega, by simp; have := pad4_mod x.2.length; omega, ?_⟩
      intro v hv
      have hxa : setAdj v x = x := by unfold setAdj; rw [if_neg hx]
      have := e3 v hv
      unfold dataOf at this ⊢
      rw [List.map_cons, List.flatMap_cons, this, hxa]
      simp
    | none =>
      rw [hp] at h
      simp only at h
      split at h
      · rename_i hx
        simp only [Option.some.injEq] at h
        subst h
        have hno := (headPos_none rest _).mp hp
        have hlen := hok x (by simp) hx
        have h8 : (x.2.take 8).length = 8 := by simp; omega
        refine ⟨x.2.take 8, x.2.drop 12 ++ List.replicate ((4 - x.2.length % 4) % 4) 0 ++ dataOf rest,
          by omega, by omega, ?_⟩
        intro v hv
        have hl := setAdj_length (x := x) hv (fun _ => hlen)
        unfold dataOf
        rw [List.map_cons, List.flatMap_cons, map_setAdj_id hno]
        unfold padTo4
        rw [hl]
        unfold setAdj
        rw [if_pos hx]
        simp [List.append_assoc]
      · cases h

/-- Result of `toBytes`, purely: header, directory, data with the adjustment filled in. -/
theorem toBytes_ok (version : UInt32) (tabs : List (Tag × Bytes)) (sr mp rs : UInt16)
    (hn : tabs.length ≤ 65535) (hok : HeadOk tabs) (hs : Sorted tabs)
    (hsr : getSearchRange (UInt16.ofNat tabs.length) 16 = .ok (sr, mp, rs)) :
    ∃ v : Bytes, v.length = 4 ∧
      toBytes version tabs = .ok ((encU32 version ++ encU16 (UInt16.ofNat tabs.length) ++ encU16 sr ++
        encU16 mp ++ encU16 rs) ++ encVec encRec (recsL (16 * tabs.length + 12) tabs) ++
        dataOf (tabs.map (setAdj v))) ∧
      ((∃ x ∈ tabs, x.1 = headTag) → posSum 0 ((encU32 version ++ encU16 (UInt16.ofNat tabs.length) ++ encU16 sr ++
        encU16 mp ++ encU16 rs) ++ encVec encRec (recsL (16 * tabs.length + 12) tabs) ++
        dataOf (tabs.map (setAdj v))) % 2 ^ 32 = 0xB1B0AFBA) := by
  generalize hH : encU32 version ++ encU16 (UInt16.ofNat tabs.length) ++ encU16 sr ++
        encU16 mp ++ encU16 rs = H
  have hHl : H.length = 12 := by rw [← hH]; rfl
  have hR := recBytes_length (16 * tabs.length + 12) tabs
  generalize hRe : encVec encRec (recsL (16 * tabs.length + 12) tabs) = R at hR
  cases hp : headPos (16 * tabs.length + 12) tabs with
  | none =>
    have hno := (headPos_none tabs _).mp hp
    refine ⟨Zero4, rfl, ?_, ?_⟩
    · unfold toBytes
      rw [if_neg (by omega)]
      simp only [hsr, Res.ok_bind, build_eq tabs hok, hp, hRe]
      rw [← hH]
    · rintro ⟨x, hx, hxh⟩
      exact absurd hxh (hno x hx)
  | some p =>
    obtain ⟨d1, d2, e1, e2, e3⟩ := headPos_split tabs hok hs _ _ hp (by omega)
    have hlen1 : (H ++ R ++ d1).length = p + 8 := by
      simp only [List.length_append]; omega
    generalize hF : (0xB1B0AFBA : UInt32) - checksum (H ++ R ++ dataOf (tabs.map (setAdj Zero4))) = full
    refine ⟨encU32 full, rfl, ?_, ?_⟩
    · unfold toBytes
      rw [if_neg (by omega)]
      simp only [hsr, Res.ok_bind, build_eq tabs hok, hp, hRe]
      rw [hH, hF, e3 Zero4 rfl, e3 (encU32 full) rfl]
      unfold patch4
      have a1 : H ++ R ++ (d1 ++ Zero4 ++ d2) = (H ++ R ++ d1) ++ (Zero4 ++ d2) := by
        simp [List.append_assoc]
      rw [a1, if_neg (by rw [List.length_append, hlen1]; simp [Zero4])]
      rw [List.take_append_of_le_length (by omega), List.take_of_length_le (by omega)]
      have a2 : List.drop (p + 8 + 4) (H ++ R ++ d1 ++ (Zero4 ++ d2)) = d2 := by
        rw [← hlen1, List.drop_length_add_append]
        rfl
      rw [a2]
      simp [List.append_assoc]
    · intro _
      rw [e3 Zero4 rfl] at hF
      rw [e3 (encU32 full) rfl]
      have m0 : (H ++ R ++ d1).length % 4 = 0 := by simp only [List.length_append]; omega
      have s1 : ∀ w : Bytes, w.length = 4 → posSum 0 (H ++ R ++ (d1 ++ w ++ d2)) =
          posSum 0 (H ++ R ++ d1) + posSum 0 w + posSum 0 d2 := by
        intro w hw
        rw [show H ++ R ++ (d1 ++ w ++ d2) = (H ++ R ++ d1) ++ (w ++ d2) by simp [List.append_assoc]]
        rw [posSum_append (H ++ R ++ d1), posSum_append w d2, posSum_mod4 w (by omega),
          posSum_mod4 d2 (by omega)]
        omega
      have hc := checksum_toNat (H ++ R ++ (d1 ++ Zero4 ++ d2))
      rw [s1 Zero4 rfl, show posSum 0 Zero4 = 0 from posSum_zero4] at hc
      rw [s1 (encU32 full) rfl, posSum_encU32 full rfl, ← hF]
      have hlt := (checksum (H ++ R ++ (d1 ++ Zero4 ++ d2))).toNat_lt
      rw [UInt32.toNat_sub]
      have : (0xB1B0AFBA : UInt32).toNat = 0xB1B0AFBA := by decide
      rw [this]
      omega

/-! ### search range -/

theorem log2Loop_ok (n : Nat) (hn : n < 32768) : ∀ (k p : Nat), p + k ≥ 17 → p ≤ 14 → 2 ^ p ≤ n →
    ∃ q, log2Loop n k p = .ok q ∧ 2 ^ q ≤ n ∧ n < 2 ^ (q + 1) ∧ q ≤ 14 := by
  intro k
  induction k with
  | zero => intro p h1 h2; omega
  | succ k ih =>
    intro p h1 h2 h3
    rw [log2Loop, if_neg (by omega)]
    by_cases h : 2 ^ (p + 1) ≤ n
    · rw [if_pos h]
      apply ih _ (by omega) _ h
      rcases Nat.lt_or_ge p 14 with h' | h'
      · omega
      · have : p = 14 := by omega
        subst this; omega
    · rw [if_neg h]; exact ⟨p, rfl, h3, by omega, h2⟩

theorem log2Loop_le (n : Nat) : ∀ (k p q : Nat), log2Loop n k p = .ok q → p ≤ q ∧ (q = p ∨ 2 ^ q ≤ n) := by
  intro k
  induction k with
  | zero => intro p q h; cases h
  | succ k ih =>
    intro p q h
    rw [log2Loop] at h
    split at h
    · cases h
    · split at h
      · rename_i h2
        have := ih _ _ h
        refine ⟨by omega, Or.inr ?_⟩
        rcases this.2 with rfl | h3
        · exact h2
        · exact h3
      · simp only [Res.ok.injEq] at h
        exact ⟨by omega, Or.inl h.symm⟩

theorem getSearchRange_ok (n : Nat) (h1 : 1 ≤ n) (h2 : n < 4096) :
    ∃ q, 2 ^ q ≤ n ∧ n < 2 ^ (q + 1) ∧ getSearchRange (UInt16.ofNat n) 16 =
      .ok (UInt16.ofNat (16 * 2 ^ q), UInt16.ofNat q, UInt16.ofNat (16 * n - 16 * 2 ^ q)) := by
  obtain ⟨q, e1, e2, e3, e4⟩ := log2Loop_ok n (by omega) 17 0 (by omega) (by omega) (by simpa using h1)
  refine ⟨q, e2, e3, ?_⟩
  have hm : (UInt16.ofNat n).toNat = n := by simp; omega
  have h16 : (16 : UInt16).toNat = 16 := rfl
  unfold getSearchRange
  rw [hm, h16]
  simp only [e1, Res.ok_bind, mulU16]
  rw [if_neg (by omega), if_neg (by omega)]
  simp only [Res.ok_bind, Res.pure_eq]
  rw [Nat.max_eq_right (by omega), Nat.mul_comm (2 ^ q) 16, Nat.mul_comm n 16]

theorem getSearchRange_zero : getSearchRange (UInt16.ofNat 0) 16 = .ok (16, 0, 0) := by decide

theorem getSearchRange_any (n : Nat) (h2 : n < 4096) :
    ∃ x, getSearchRange (UInt16.ofNat n) 16 = .ok x := by
  rcases Nat.eq_zero_or_pos n with rfl | h
  · exact ⟨_, getSearchRange_zero⟩
  · obtain ⟨q, _, _, e⟩ := getSearchRange_ok n h h2
    exact ⟨_, e⟩

theorem log2Loop_not_err (n : Nat) : ∀ (k p : Nat), log2Loop n k p ≠ .err := by
  intro k
  induction k with
  | zero => intro p h; cases h
  | succ k ih =>
    intro p
    rw [log2Loop]
    split
    · simp
    · split
      · exact ih _
      · simp

theorem getSearchRange_panic (n : Nat) (h1 : 4096 ≤ n) (h2 : n ≤ 65535) :
    getSearchRange (UInt16.ofNat n) 16 = .panic := by
  have hm : (UInt16.ofNat n).toNat = n := by simp; omega
  have h16 : (16 : UInt16).toNat = 16 := rfl
  unfold getSearchRange
  rw [hm, h16]
  cases e : log2Loop n 17 0 with
  | err => exact absurd e (log2Loop_not_err _ _ _)
  | panic => rfl
  | ok q =>
    simp only [Res.ok_bind, mulU16]
    by_cases hq : 2 ^ q * 16 > 65535
    · rw [if_pos hq]; rfl
    · rw [if_neg hq, if_pos (by omega)]; rfl

theorem toBytes_panic_many (version : UInt32) (tabs : List (Tag × Bytes)) (h : 4096 ≤ tabs.length) :
    toBytes version tabs = .panic := by
  unfold toBytes
  by_cases hn : tabs.length > 65535
  · rw [if_pos hn]
  · rw [if_neg hn]
    simp only [getSearchRange_panic _ h (by omega), Res.panic_bind]

theorem toBytes_panic_head (version : UInt32) (tabs : List (Tag × Bytes)) (h : ¬ HeadOk tabs) :
    toBytes version tabs = .panic := by
  unfold toBytes
  by_cases hn : tabs.length > 65535
  · rw [if_pos hn]
  · rw [if_neg hn]
    by_cases h4 : tabs.length < 4096
    · obtain ⟨⟨a, b, c⟩, e⟩ := getSearchRange_any _ h4
      simp only [e, Res.ok_bind, build_panic tabs h, Res.panic_bind]
    · simp only [getSearchRange_panic tabs.length (by omega) (by omega), Res.panic_bind]

/-! ### reading back -/

theorem reads_rec (r : Rec) (h : r.tag.Valid) : Reads readRec (encRec r) r := by
  unfold readRec encRec
  obtain ⟨t, c, o, l⟩ := r
  simp only [List.append_assoc]
  refine Reads.bind (reads_tag t h) ?_
  refine Reads.bind (reads_u32 c) ?_
  refine Reads.bind (reads_u32 o) ?_
  exact Reads.bind' (reads_u32 l) (Reads.pure _) (List.append_nil _).symm

/-- Table extents, purely. -/
theorem recsL_offsets (tabs : List (Tag × Bytes)) : ∀ pos, pos + (dataOf tabs).length < 2 ^ 32 →
    (recsL pos tabs).Pairwise (fun a b => a.offset.toNat ≤ b.offset.toNat) ∧
    ∀ r ∈ recsL pos tabs, pos ≤ r.offset.toNat := by
  induction tabs with
  | nil => intro pos h; simp [recsL]
  | cons x rest ih =>
    intro pos h
    have hl : (dataOf (x :: rest)).length = pad4 x.2.length + (dataOf rest).length := by
      simp [dataOf]
    rw [hl] at h
    obtain ⟨i1, i2⟩ := ih (pos + pad4 x.2.length) (by omega)
    have hpos : (UInt32.ofNat pos).toNat = pos := by simp; omega
    constructor
    · rw [recsL, List.pairwise_cons]
      refine ⟨?_, i1⟩
      intro r hr
      have := i2 r hr
      simp only [hpos]; omega
    · intro r hr
      rw [recsL, List.mem_cons] at hr
      rcases hr with rfl | hr
      · simp only [hpos]; omega
      · have := i2 r hr; omega

theorem insertTable_last (t : Tag) (b : Bytes) (acc : List (Tag × Bytes))
    (h : ∀ x ∈ acc, key x.1 < key t) : insertTable t b acc = acc ++ [(t, b)] := by
  induction acc with
  | nil => rfl
  | cons x rest ih =>
    have hx := h x (by simp)
    obtain ⟨t', b'⟩ := x
    simp only at hx
    rw [insertTable, if_neg (by omega), if_neg (by omega), ih (fun y hy => h y (by simp [hy]))]
    rfl

theorem dataOf_length {f : Tag × Bytes → Tag × Bytes} (tabs : List (Tag × Bytes))
    (h : ∀ x ∈ tabs, (f x).2.length = x.2.length) : (dataOf (tabs.map f)).length = (dataOf tabs).length := by
  induction tabs with
  | nil => rfl
  | cons x rest ih =>
    have := ih (fun y hy => h y (by simp [hy]))
    have hx := h x (by simp)
    unfold dataOf at this ⊢
    simp only [List.map_cons, List.flatMap_cons, List.length_append, padTo4_length, hx, this]

/-- Slicing by the directory gives the (adjusted) tables. -/
theorem slice_eq (v : Bytes) (hv : v.length = 4) (tabs : List (Tag × Bytes)) :
    ∀ (X : Bytes) (acc : List (Tag × Bytes)), HeadOk tabs →
    Sorted (acc ++ tabs.map (setAdj v)) → X.length + (dataOf tabs).length < 2 ^ 32 →
    sliceTables (X ++ dataOf (tabs.map (setAdj v))) (recsL X.length tabs) acc =
      .ok (acc ++ tabs.map (setAdj v)) := by
  induction tabs with
  | nil => intro X acc hok hs hlt; simp [recsL, sliceTables]
  | cons x rest ih =>
    intro X acc hok hs hlt
    have hx := hok x (by simp)
    have hlx : (setAdj v x).2.length = x.2.length := setAdj_length hv hx
    have hrest : HeadOk rest := fun y hy => hok y (by simp [hy])
    have hl : (dataOf (x :: rest)).length = pad4 x.2.length + (dataOf rest).length := by
      simp [dataOf]
    rw [hl] at hlt
    have hle := le_pad4 x.2.length
    have hpos : (UInt32.ofNat X.length).toNat = X.length := by simp; omega
    have hlen : (UInt32.ofNat x.2.length).toNat = x.2.length := by simp; omega
    have hd : dataOf ((x :: rest).map (setAdj v)) =
        padTo4 (setAdj v x).2 ++ dataOf (rest.map (setAdj v)) := by
      simp [dataOf]
    rw [hd, recsL, sliceTables]
    simp only [hpos, hlen]
    rw [if_neg (by simp only [List.length_append, padTo4_length, hlx]; omega)]
    have hslice : List.take x.2.length (List.drop X.length
        (X ++ (padTo4 (setAdj v x).2 ++ dataOf (rest.map (setAdj v))))) = (setAdj v x).2 := by
      rw [List.drop_left, ← hlx]
      unfold padTo4
      rw [List.append_assoc, List.take_left]
    rw [hslice]
    have hpw := List.pairwise_append.mp hs
    have hins : insertTable x.1 (setAdj v x).2 acc = acc ++ [setAdj v x] := by
      rw [insertTable_last]
      · have : (x.1, (setAdj v x).2) = setAdj v x := by rw [← setAdj_fst v x]
        rw [this]
      · intro y hy
        have := hpw.2.2 y hy (setAdj v x) (by simp)
        simpa using this
    rw [hins]
    have hXl : (X ++ padTo4 (setAdj v x).2).length = X.length + pad4 x.2.length := by
      simp [hlx]
    have := ih (X ++ padTo4 (setAdj v x).2) (acc ++ [setAdj v x]) hrest
      (by simpa [List.append_assoc] using hs) (by rw [hXl]; omega)
    rw [hXl] at this
    rw [← List.append_assoc, this]
    simp

theorem recsL_tags (tabs : List (Tag × Bytes)) : ∀ pos, ∀ r ∈ recsL pos tabs, ∃ x ∈ tabs, x.1 = r.tag := by
  induction tabs with
  | nil => intro pos r hr; simp [recsL] at hr
  | cons x rest ih =>
    intro pos r hr
    rw [recsL, List.mem_cons] at hr
    rcases hr with rfl | hr
    · exact ⟨x, by simp, rfl⟩
    · obtain ⟨y, hy, e⟩ := ih _ r hr
      exact ⟨y, by simp [hy], e⟩

theorem sorted_map {v : Bytes} {tabs} (h : Sorted tabs) : Sorted (tabs.map (setAdj v)) := by
  unfold Sorted
  rw [List.pairwise_map]
  simpa [Sorted] using h

end FT.Font
