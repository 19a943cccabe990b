import Verif.Props.Os2Ranges

/-!
# C76: the code pages of `OS/2`
-/

namespace FT.Props.Os2
open FT FT.Os2 FT.Props

/-! ### Specification -/

/-- The code pages: bit, whether ASCII is needed, and the code points needed besides. -/
def codePages : List (Nat × Bool × List Nat) := [
  (0, true, [0xDE]),                    -- Latin 1: Þ
  (1, true, [0x13D]),                   -- Latin 2: Ľ
  (2, false, [0x411]),                  -- Cyrillic: Б
  (3, false, [0x386]),                  -- Greek: Ά
  (4, true, [0x130]),                   -- Turkish: İ
  (5, false, [0x5D0]),                  -- Hebrew: א
  (6, false, [0x631]),                  -- Arabic: ر
  (7, true, [0x157]),                   -- Baltic: ŗ
  (8, true, [0x20AB]),                  -- Vietnamese: ₫
  (16, false, [0xE45]),                 -- Thai: ๅ
  (17, false, [0x30A8]),                -- Japanese: エ
  (18, false, [0x3105]),                -- simplified Chinese: ㄅ
  (19, false, [0x3131]),                -- Korean Wansung: ㄱ
  (20, false, [0x592E]),                -- traditional Chinese: 央
  (21, false, [0xACF4]),                -- Korean Johab: 곴
  (29, true, [0x2030, 0x2211]),         -- Macintosh: ‰ ∑
  (30, true, [0x2665]),                 -- OEM: ♥
  (48, false, [0x386, 0xBD, 0x2524]),   -- IBM Greek: Ά ½ ┤
  (49, false, [0x411, 0x255C, 0x2524]), -- MS-DOS Russian: Б ╜ ┤
  (50, true, [0xC5, 0x221A, 0x2524]),   -- MS-DOS Nordic: Å √ ┤
  (51, false, [0x631, 0x221A]),         -- Arabic: ر √
  (52, true, [0xE9, 0x221A, 0x2524]),   -- MS-DOS Canadian French: é √ ┤
  (53, false, [0x5D0, 0x221A, 0x2524]), -- Hebrew: א √ ┤
  (54, true, [0xFE, 0x2524]),           -- MS-DOS Icelandic: þ ┤
  (55, true, [0xF5, 0x221A, 0x2524]),   -- MS-DOS Portuguese: õ √ ┤
  (56, true, [0x130, 0x2524]),          -- IBM Turkish: İ ┤
  (57, false, [0x411, 0x405, 0x2524]),  -- IBM Cyrillic: Б Ѕ ┤
  (59, true, [0x157, 0x2524]),          -- MS-DOS Baltic: ŗ ┤
  (60, false, [0x386, 0x221A, 0x2524]), -- Greek, former 437 G: Ά √ ┤
  (61, false, [0x631, 0x2524]),         -- Arabic, ASMO 708: ر ┤
  (62, true, [0x255A]),                 -- WE/Latin 1: ╚
  (63, true, [0x255A])]                 -- US: ╚

/-- The font has a code point. -/
def Has (keys : List UInt32) (c : Nat) : Prop := ∃ k ∈ keys, k.toNat = c

/-- The code page of this bit is supported. ASCII goes from the space to the brace: the tilde is not asked for. -/
def Supported (keys : List UInt32) (b : Nat) : Prop :=
  ∃ p ∈ codePages, p.1 = b ∧ (p.2.1 = true → ∀ x, 0x20 ≤ x → x ≤ 0x7D → Has keys x) ∧ ∀ c ∈ p.2.2, Has keys c

/-- Bit `b` of the two words of the code pages. -/
def pageBit (o : Os2) (b : Nat) : Bool :=
  if b < 32 then o.ulCodePageRange1.any (·.toNat.testBit b) else o.ulCodePageRange2.any (·.toNat.testBit (b - 32))

/-! ### Proofs -/

theorem has_iff (keys : List UInt32) (c : UInt32) : keys.contains c = true ↔ Has keys c.toNat := by
  rw [List.contains_iff_mem]
  exact ⟨fun h => ⟨c, h, rfl⟩, fun ⟨k, hk, e⟩ => UInt32.toNat_inj.1 e ▸ hk⟩

theorem ascii_iff (keys : List UInt32) :
    ((List.range' 0x20 0x5E).all fun x => keys.contains (UInt32.ofNat x)) = true ↔
      ∀ x, 0x20 ≤ x → x ≤ 0x7D → Has keys x := by
  rw [List.all_eq_true]
  simp only [List.mem_range'_1, has_iff]
  constructor
  · intro h x h1 h2
    have := h x ⟨h1, by omega⟩
    rwa [UInt32.toNat_ofNat_of_lt' (Nat.lt_of_le_of_lt h2 (by decide))] at this
  · rintro h x ⟨h1, h2⟩
    rw [UInt32.toNat_ofNat_of_lt' (Nat.lt_of_lt_of_le h2 (by decide))]
    exact h x h1 (by omega)

theorem mem_setIf (b : Bool) (l : List UInt8) (x : UInt8) : x ∈ setIf b l ↔ b = true ∧ x ∈ l := by
  unfold setIf
  cases b <;> simp

theorem mem_pages (keys : List UInt32) (x : UInt8) : x ∈ codePageBits keys ↔ Supported keys x.toNat := by
  have hx : ∀ n : UInt8, x = n ↔ n.toNat = x.toNat := fun n => by rw [eq_comm, UInt8.toNat_inj]
  unfold codePageBits Supported codePages
  simp only [List.mem_append, mem_setIf, Bool.and_eq_true, ascii_iff, has_iff, hx, List.mem_cons,
    List.not_mem_nil, or_false, exists_eq_or_imp, exists_eq_left, forall_eq_or_imp, forall_eq, UInt8.reduceToNat,
    UInt32.reduceToNat, forall_const, Bool.false_eq_true, false_implies, true_and]
  generalize x.toNat = n
  generalize (∀ x, 0x20 ≤ x → x ≤ 0x7D → Has keys x) = A
  simp only [and_assoc, and_comm, and_left_comm]
  exact iff_of_eq (by ac_rfl)

/-- The code pages are computed, and a bit is set exactly if its code page is supported, or it is bit 0 and none is. Nothing else
changes. -/
theorem C76_pages {shuffle : List UInt8 → List UInt8} (hs : Order shuffle) (keys : List UInt32) (o : Os2) :
    ∃ o', calcCodePages shuffle keys o = .ok o' ∧
      (∀ b < 64, pageBit o' b = true ↔ Supported keys b ∨ (b = 0 ∧ ∀ b', ¬ Supported keys b')) ∧
      { o' with ulCodePageRange1 := o.ulCodePageRange1, ulCodePageRange2 := o.ulCodePageRange2 } = o := by
  have hmem : ∀ x, x ∈ shuffle (codePageSet keys) ↔
      Supported keys x.toNat ∨ (x.toNat = 0 ∧ ∀ b', ¬ Supported keys b') := by
    intro x
    rw [(hs _).mem_iff]
    unfold codePageSet
    by_cases he : codePageBits keys = []
    · have hno : ∀ b', ¬ Supported keys b' := by
        intro b' hb
        have hlt : b' < 64 := by
          obtain ⟨p, hp, rfl, -⟩ := hb
          revert p
          decide
        have := (mem_pages keys (UInt8.ofNat b')).2
          (by rwa [UInt8.toNat_ofNat_of_lt' (Nat.lt_trans hlt (by decide))])
        rw [he] at this
        cases this
      simp only [he, List.isEmpty_nil, if_true, List.mem_singleton, hno, not_false_eq_true, implies_true, and_true, false_or]
      rw [← UInt8.toNat_inj]
      rfl
    · have hex : ¬ ∀ b', ¬ Supported keys b' := by
        obtain ⟨y, hy⟩ := List.exists_mem_of_ne_nil _ he
        exact fun h => h _ ((mem_pages keys y).1 hy)
      rw [if_neg (by simpa using he), List.mem_dedup, mem_pages]
      simp [hex]
  have hn : (shuffle (codePageSet keys)).Nodup := by
    rw [(hs _).nodup_iff]
    unfold codePageSet
    split_ifs
    · simp
    · exact List.nodup_dedup _
  unfold calcCodePages
  obtain ⟨n1, e1, h1⟩ := C75_bitset (shuffle (codePageSet keys)) 0 31 hn (by decide)
  obtain ⟨n2, e2, h2⟩ := C75_bitset (shuffle (codePageSet keys)) 32 63 hn (by decide)
  simp only [e1, e2, Res.ok_bind]
  refine ⟨_, rfl, fun b hb => ?_, rfl⟩
  have h8 : (UInt8.ofNat b).toNat = b := UInt8.toNat_ofNat_of_lt' (Nat.lt_trans hb (by decide))
  have hb8 := hmem (UInt8.ofNat b)
  rw [h8] at hb8
  rw [← hb8]
  have key : ∀ x : UInt8, x.toNat = b → (x ∈ shuffle (codePageSet keys) ↔ UInt8.ofNat b ∈ shuffle (codePageSet keys)) := by
    intro x hx
    rw [← hx, UInt8.ofNat_toNat]
  unfold pageBit
  split_ifs with c1
  · simp only [Option.any_some, h1]
    constructor
    · rintro ⟨x, hx, e, -⟩
      exact (key x (by simpa using e)).1 hx
    · intro h
      exact ⟨_, h, by simp [h8], by simp [h8]; omega⟩
  · simp only [Option.any_some, h2]
    constructor
    · rintro ⟨x, hx, e, -⟩
      exact (key x (by simp at e; omega)).1 hx
    · intro h
      exact ⟨_, h, by simp [h8]; omega, by simp [h8]; omega⟩

/-- Some code page is always marked. -/
theorem C76_some {shuffle : List UInt8 → List UInt8} (hs : Order shuffle) {keys : List UInt32} {o o' : Os2}
    (h : calcCodePages shuffle keys o = .ok o') : ∃ b < 64, pageBit o' b = true := by
  obtain ⟨o1, e, hb, -⟩ := C76_pages hs keys o
  cases e.symm.trans h
  by_cases hex : ∃ b, Supported keys b
  · obtain ⟨b, hs⟩ := hex
    have hlt : b < 64 := by
      obtain ⟨p, hp, rfl, -⟩ := hs
      revert p
      decide
    exact ⟨b, hlt, (hb b hlt).2 (.inl hs)⟩
  · exact ⟨0, by omega, (hb 0 (by omega)).2 (.inr ⟨rfl, not_exists.1 hex⟩)⟩

/-- A larger font has the bits of the smaller one, except perhaps bit 0. -/
theorem C76_mono {shuffle : List UInt8 → List UInt8} (hs : Order shuffle) {keys keys' : List UInt32} {o o1 o2 : Os2}
    (hk : keys ⊆ keys') (h1 : calcCodePages shuffle keys o = .ok o1) (h2 : calcCodePages shuffle keys' o = .ok o2)
    {b : Nat} (hb : b < 64) (h0 : b ≠ 0) (hbit : pageBit o1 b = true) : pageBit o2 b = true := by
  obtain ⟨p1, e1, b1, -⟩ := C76_pages hs keys o
  obtain ⟨p2, e2, b2, -⟩ := C76_pages hs keys' o
  cases e1.symm.trans h1
  cases e2.symm.trans h2
  have hm : ∀ c, Has keys c → Has keys' c := fun c ⟨k, hk', e⟩ => ⟨k, hk hk', e⟩
  rcases (b1 b hb).1 hbit with ⟨p, hp, e, ha, hc⟩ | ⟨h, -⟩
  · exact (b2 b hb).2 (.inl ⟨p, hp, e, fun hA x l r => hm x (ha hA x l r), fun c hc' => hm c (hc c hc')⟩)
  · exact absurd h h0

/-- Bit 0 is the exception: a font with nothing but the space is marked as Latin 1, and no longer is once it has a Cyrillic
letter. -/
theorem C76_latin (o : Os2) :
    ∃ o1 o2, calcCodePages id [0x20] o = .ok o1 ∧ calcCodePages id [0x20, 0x411] o = .ok o2 ∧
      o1.ulCodePageRange1 = some 1 ∧ o2.ulCodePageRange1 = some 4 := by
  have h1 : codePageSet [0x20] = [0] := by decide +kernel
  have h2 : codePageSet [0x20, 0x411] = [2] := by decide +kernel
  unfold calcCodePages
  simp only [id, h1, h2]
  exact ⟨_, _, rfl, rfl, rfl, rfl⟩

/-! ### Not vacuous -/

/-- A font with ASCII and thorn supports Latin 1, even without the tilde. -/
example : Supported (0xDE :: (List.range' 0x20 0x5E).map UInt32.ofNat) 0 := by
  refine ⟨(0, true, [0xDE]), by decide, rfl, fun _ x h1 h2 => ?_, ?_⟩
  · refine ⟨UInt32.ofNat x, ?_, UInt32.toNat_ofNat_of_lt' (Nat.lt_of_le_of_lt h2 (by decide))⟩
    exact List.mem_cons_of_mem _ (List.mem_map.2 ⟨x, by rw [List.mem_range'_1]; omega, rfl⟩)
  · intro c hc
    simp only [List.mem_singleton] at hc
    exact ⟨0xDE, by simp, hc.symm⟩

end FT.Props.Os2
