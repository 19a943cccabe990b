import Verif.Lemmas.GsubHigh

/-!
C11, C12: single, multiple and alternate substitutions.
-/

namespace FT.Props
open FT FT.Gsub FT.Lay FT.Off

/-! ### C11 -/

/-- A glyph id reinterpreted as a signed 16-bit number. -/
def signed (g : UInt16) : Int := if g.toNat < 32768 then g.toNat else (g.toNat : Int) - 65536

/-- All entries move the glyph id by the same amount modulo 2^16. -/
def ConstantShift (m : List (UInt16 × UInt16)) : Prop :=
  ∀ x ∈ m, ∀ y ∈ m, (x.2.toNat + y.1.toNat) % 65536 = (y.2.toNat + x.1.toNat) % 65536

/-- The signed distance does not fit a signed 16-bit number. -/
def Far (x : UInt16 × UInt16) : Prop := signed x.2 - signed x.1 < -32768 ∨ 32767 < signed x.2 - signed x.1

theorem signed_eq (g : UInt16) : g.toInt16.toInt = signed g := by
  unfold signed
  have : g.toInt16.toInt = g.toBitVec.toInt := rfl
  rw [this, BitVec.toInt_eq_toNat_cond]
  simp only [UInt16.toNat_toBitVec]
  have := g.toNat_lt
  split <;> split <;> omega

theorem shift_eq_iff (a b l r : UInt16) : (a.toInt16 + (r.toInt16 - l.toInt16) == b.toInt16) = true ↔
    (b.toNat + l.toNat) % 65536 = (r.toNat + a.toNat) % 65536 := by
  rw [beq_iff_eq, ← UInt16.toInt16_sub, ← UInt16.toInt16_add, toInt16_inj, ← UInt16.toNat_inj, UInt16.toNat_add,
    UInt16.toNat_sub]
  have := a.toNat_lt; have := b.toNat_lt; have := r.toNat_lt; have := l.toNat_lt
  omega

theorem signed_diff (l r : UInt16) : (r.toInt16 - l.toInt16).toInt =
    if signed r - signed l > 32767 then signed r - signed l - 65536
    else if signed r - signed l < -32768 then signed r - signed l + 65536 else signed r - signed l := by
  rw [← UInt16.toInt16_sub, signed_eq]
  unfold signed
  rw [UInt16.toNat_sub]
  have := r.toNat_lt; have := l.toNat_lt
  split <;> split <;> split <;> split <;> omega

theorem shiftGlyph_eq (x : UInt16 × UInt16) (d : Int16) (hd : x.2.toInt16 - x.1.toInt16 = d) :
    (¬ Far x → shiftGlyph d x.1 = .ok x) ∧ (Far x → shiftGlyph d x.1 = .panic) := by
  subst hd
  unfold shiftGlyph Far
  simp only [signed_eq, signed_diff]
  have e : x.1.toInt16 + (x.2.toInt16 - x.1.toInt16) = x.2.toInt16 := by
    rw [← beq_iff_eq, shift_eq_iff]
  rw [e]
  have h1 : -32768 ≤ signed x.1 ∧ signed x.1 ≤ 32767 := by
    have := x.1.toNat_lt; unfold signed; split <;> omega
  have h2 : -32768 ≤ signed x.2 ∧ signed x.2 ≤ 32767 := by
    have := x.2.toNat_lt; unfold signed; split <;> omega
  constructor
  · intro h
    rw [if_pos (by split <;> [skip; split] <;> omega)]
    simp
  · intro h
    rw [if_neg (by split <;> [skip; split] <;> omega)]

theorem mapL_shift : ∀ (m : List (UInt16 × UInt16)) (d : Int16), (∀ x ∈ m, x.2.toInt16 - x.1.toInt16 = d) →
    ((∀ x ∈ m, ¬ Far x) → Res.mapL (shiftGlyph d) (m.map Prod.fst) = .ok m) ∧
    ((∃ x ∈ m, Far x) → Res.mapL (shiftGlyph d) (m.map Prod.fst) = .panic)
  | [], _, _ => ⟨fun _ => rfl, fun h => by obtain ⟨_, h, _⟩ := h; cases h⟩
  | x :: m, d, h => by
    have h1 := shiftGlyph_eq x d (h x (by simp))
    have ih := mapL_shift m d (fun y hy => h y (by simp [hy]))
    constructor
    · intro hf
      simp only [List.map_cons, Res.mapL, h1.1 (hf x (by simp)), ih.1 (fun y hy => hf y (by simp [hy]))]
    · rintro ⟨y, hy, hfar⟩
      by_cases hx : Far x
      · simp only [List.map_cons, Res.mapL, h1.2 hx]
      · have hm : ∃ y ∈ m, Far y := by
          rcases List.mem_cons.mp hy with e | e
          · subst e; exact absurd hfar hx
          · exact ⟨y, e, hfar⟩
        simp only [List.map_cons, Res.mapL, h1.1 hx, ih.2 hm]

theorem toLow_cases (m : SingleSubst) :
    (∃ d, m ≠ [] ∧ ConstantShift m ∧ (∀ x ∈ m, x.2.toInt16 - x.1.toInt16 = d) ∧
      m.toLow = .s1_1 (some (m.map Prod.fst)) d) ∨
    ((m = [] ∨ ¬ ConstantShift m) ∧ m.toLow = .s1_2 (some (m.map Prod.fst)) (m.map Prod.snd)) := by
  cases m with
  | nil => exact .inr ⟨.inl rfl, rfl⟩
  | cons a m =>
    obtain ⟨l, r⟩ := a
    by_cases h : m.all (fun x => x.1.toInt16 + (r.toInt16 - l.toInt16) == x.2.toInt16) = true
    · left
      refine ⟨r.toInt16 - l.toInt16, by simp, ?_, ?_, ?_⟩
      · have h1 : ∀ x ∈ (l, r) :: m, (x.2.toNat + l.toNat) % 65536 = (r.toNat + x.1.toNat) % 65536 := by
          intro x hx
          rcases List.mem_cons.mp hx with e | e
          · subst e; rfl
          · exact (shift_eq_iff _ _ _ _).mp (List.all_eq_true.mp h x e)
        intro x hx y hy
        have := h1 x hx; have := h1 y hy
        omega
      · intro x hx
        rcases List.mem_cons.mp hx with e | e
        · subst e; rfl
        · have h2 := (shift_eq_iff _ _ _ _).mp (List.all_eq_true.mp h x e)
          rw [← UInt16.toInt16_sub, ← UInt16.toInt16_sub, toInt16_inj, ← UInt16.toNat_inj, UInt16.toNat_sub,
            UInt16.toNat_sub]
          have := x.1.toNat_lt; have := x.2.toNat_lt; have := r.toNat_lt; have := l.toNat_lt
          omega
      · simp only [SingleSubst.toLow, SingleSubst.bestFormat, h, if_true]
    · right
      refine ⟨.inr ?_, ?_⟩
      · intro hc
        apply h
        rw [List.all_eq_true]
        intro x hx
        rw [shift_eq_iff]
        exact hc x (by simp [hx]) (l, r) (by simp)
      · simp only [SingleSubst.toLow, SingleSubst.bestFormat, h]
        rfl

/-- **C11.** Converting a single substitution map to its subtable and back gives the same map, in whichever
format, except that a map which moves all its glyph ids by the same amount and at least one of them by a
signed distance that overflows panics. -/
theorem C11_roundtrip (m : SingleSubst) (hs : BMap.Sorted m) :
    (¬ (ConstantShift m ∧ ∃ x ∈ m, Far x) → SingleSubst.fromLow m.toLow = .ok m) ∧
    ((ConstantShift m ∧ ∃ x ∈ m, Far x) → SingleSubst.fromLow m.toLow = .panic) := by
  rcases toLow_cases m with ⟨d, _, hc, hd, e⟩ | ⟨hc, e⟩
  · have h := mapL_shift m d hd
    constructor
    · intro hn
      have hf : ∀ x ∈ m, ¬ Far x := fun x hx hfx => hn ⟨hc, x, hx, hfx⟩
      rw [e]
      simp only [SingleSubst.fromLow, covGlyphs, Option.getD_some, h.1 hf, BMap.collect_of_sorted hs]
    · rintro ⟨_, hf⟩
      rw [e]
      simp only [SingleSubst.fromLow, covGlyphs, Option.getD_some, h.2 hf]
  · constructor
    · intro _
      rw [e]
      simp only [SingleSubst.fromLow, covGlyphs, Option.getD_some, BMap.map_fst_snd, BMap.collect_of_sorted hs]
    · rintro ⟨h, x, hx, _⟩
      rcases hc with hc | hc
      · subst hc; cases hx
      · exact absurd h hc

/-- Glyph sets whose coverage table can be written and read (C07): the last glyph id 65535 only if the glyph list
is not longer than the range list. -/
def Coverable (gs : List UInt16) : Prop := (∀ g ∈ gs, g.toNat ≠ 65535) ∨ 2 * gs.length ≤ 6 * runs gs

theorem covLinkOk_keys {α : Type} {m : List (UInt16 × α)} (hs : BMap.Sorted m) (hc : Coverable (m.map Prod.fst)) :
    CovLinkOk (some (m.map Prod.fst)) := by
  intro gs e
  obtain rfl := Option.some.inj e
  exact covOk_of_asc (sorted_keys_asc hs) hc

theorem keys_length {α : Type} {m : List (UInt16 × α)} (hs : BMap.Sorted m) (hc : Coverable (m.map Prod.fst)) :
    m.length ≤ 65535 := by
  have := asc_length _ (sorted_keys_asc hs) hc
  simpa using this

/-- Writing a rule as a subtable of lookup type `ty` and reading the bytes back, at any place in a larger table. -/
def Survives {α : Type} (low : Sub) (ty : Nat) (back : Sub → Res α) (a : α) : Prop :=
  ∃ t, Sub.tab low = .ok t ∧ ∀ bs, toBytes t = .ok bs → ∀ (before after : Bytes) (stk : List Nat),
    ∃ low' r', Sub.read ty ⟨before ++ bs ++ after, before.length, stk⟩ = .ok (low', r') ∧ r'.stk = stk ∧
      back low' = .ok a

theorem survives_of {α : Type} {low : Sub} {back : Sub → Res α} {a : α} (h : SubOk low) (hb : back low = .ok a) :
    Survives low low.type back a := by
  obtain ⟨t, h1, h2⟩ := writes_sub low h
  refine ⟨t, h1, fun bs hbs before after stk => ?_⟩
  obtain ⟨ptr, e⟩ := h2.run hbs before after stk
  exact ⟨low, _, e, rfl, hb⟩

/-- **C11, down to bytes.** The bytes written for a single substitution map, wherever they are placed, are read
back as the same map. -/
theorem C11_bytes (m : SingleSubst) (hs : BMap.Sorted m) (hc : Coverable (m.map Prod.fst))
    (h : ¬ (ConstantShift m ∧ ∃ x ∈ m, Far x)) : Survives m.toLow 1 SingleSubst.fromLow m := by
  have hb := (C11_roundtrip m hs).1 h
  rcases toLow_cases m with ⟨d, _, _, _, e⟩ | ⟨_, e⟩
  · have : Survives m.toLow m.toLow.type SingleSubst.fromLow m :=
      survives_of (by rw [e]; exact covLinkOk_keys hs hc) hb
    rw [e] at this ⊢; exact this
  · have : Survives m.toLow m.toLow.type SingleSubst.fromLow m :=
      survives_of (by rw [e]; exact ⟨covLinkOk_keys hs hc, by simpa using keys_length hs hc⟩) hb
    rw [e] at this ⊢; exact this

/-- The exception is real: replacing glyph 30000 by glyph 40000 gives a table whose reader panics. -/
theorem C11_overflow_panics : SingleSubst.fromLow (SingleSubst.toLow [(30000, 40000)]) = .panic := by decide

example : BMap.Sorted ([(66, 67), (69, 70)] : SingleSubst) ∧ Coverable (([(66, 67), (69, 70)] : SingleSubst).map Prod.fst) ∧
    ¬ (ConstantShift [(66, 67), (69, 70)] ∧ ∃ x ∈ ([(66, 67), (69, 70)] : SingleSubst), Far x) := by
  refine ⟨by simp [BMap.Sorted, Key.lt], .inl (by decide), ?_⟩
  rintro ⟨_, x, hx, hf⟩
  simp only [List.mem_cons, List.not_mem_nil, or_false] at hx
  rcases hx with rfl | rfl <;> revert hf <;> simp [Far, signed]
/-- Wrap-around shift in the compact format. -/
example : SingleSubst.toLow [(40000, 10000), (40001, 10001)] = .s1_1 (some [40000, 40001]) (-30000) ∧
    SingleSubst.fromLow (SingleSubst.toLow [(65000, 100), (65001, 101)]) = .ok [(65000, 100), (65001, 101)] := by decide

/-! ### C12 -/

/-- **C12.** Multiple substitutions. -/
theorem C12_multiple (m : MultiSubst) (hs : BMap.Sorted m) : MultiSubst.fromLow2 m.toLow2 = .ok m := by
  simp only [MultiSubst.fromLow2, MultiSubst.toLow2, covGlyphs, Option.getD_some, BMap.zip_map_getD,
    BMap.collect_of_sorted hs]

/-- **C12.** Alternate substitutions. -/
theorem C12_alternate (m : MultiSubst) (hs : BMap.Sorted m) : MultiSubst.fromLow3 m.toLow3 = .ok m := by
  simp only [MultiSubst.fromLow3, MultiSubst.toLow3, covGlyphs, Option.getD_some, BMap.zip_map_getD,
    BMap.collect_of_sorted hs]

/-- **C12, down to bytes**, when every list fits its 16-bit count. -/
theorem C12_bytes (m : MultiSubst) (hs : BMap.Sorted m) (hc : Coverable (m.map Prod.fst))
    (hl : ∀ x ∈ m, x.2.length ≤ 65535) :
    Survives m.toLow2 2 MultiSubst.fromLow2 m ∧ Survives m.toLow3 3 MultiSubst.fromLow3 m := by
  have h : ∀ x, some x ∈ m.map (fun x => some x.2) → x.length ≤ 65535 := by
    intro x hx
    obtain ⟨y, hy, e⟩ := List.mem_map.mp hx
    obtain rfl := Option.some.inj e
    exact hl y hy
  have hk : (m.map (fun x => some x.2)).length ≤ 65535 := by simpa using keys_length hs hc
  exact ⟨survives_of (low := m.toLow2) ⟨covLinkOk_keys hs hc, hk, h⟩ (C12_multiple m hs),
    survives_of (low := m.toLow3) ⟨covLinkOk_keys hs hc, hk, h⟩ (C12_alternate m hs)⟩

example : BMap.Sorted ([(66, [67, 68]), (69, [])] : MultiSubst) ∧
    Coverable (([(66, [67, 68]), (69, [])] : MultiSubst).map Prod.fst) ∧
    ∀ x ∈ ([(66, [67, 68]), (69, [])] : MultiSubst), x.2.length ≤ 65535 := by
  refine ⟨by simp [BMap.Sorted, Key.lt], .inl (by decide), by decide⟩

end FT.Props
