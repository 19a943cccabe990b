import Verif.Lemmas.Cmap12
import Verif.Lemmas.Field

/-!
C33: format 12 character maps.
-/

namespace FT.Props
open FT Reader FT.Cmap

/-! ### Specification -/

/-- OpenType's meaning of a format 12 subtable (at the beginning of `bs`): number of groups at byte 12, then groups of
first character, last character, first glyph. -/
def Maps12 (bs : Bytes) (c g : Nat) : Prop :=
  ∃ i < field bs 12 4, field bs (16 + 12 * i) 4 ≤ c ∧ c ≤ field bs (20 + 12 * i) 4 ∧
    g = field bs (24 + 12 * i) 4 + (c - field bs (16 + 12 * i) 4)

/-- The map lists glyph `g` for character `c`. -/
def Lists (m : Map) (c g : Nat) : Prop := ∃ x ∈ m, x.1.toNat = c ∧ x.2.toNat = g

/-- Saving a subtable and reading it gives the subtable `s'`. -/
def SavedAs (s s' : Subtable) : Prop :=
  ∃ bs, encSubtable s = .ok bs ∧ ∃ r, readSubtable ⟨s.platformID, s.encodingID, 0⟩ (Rd.new bs) = .ok (s', r)

/-- The format 12 subtable for a map. -/
abbrev sub12 (p e lang : UInt16) (m : Map) : Subtable := ⟨12, p, e, lang, m, none⟩

/-! ### Reading back -/

theorem encGroup_length (g : Group) : (encGroup g).length = 12 := by simp [encGroup]

theorem read12 {t : Cmap12} (hl : t.groups.length ≤ 4294967295) (hf : t.format = 12) (p e : UInt16) (pre post : Bytes)
    (ptr base : Nat) (stk : List Nat) (off : UInt32) (ho : base + off.toNat = pre.length) :
    readSubtable ⟨p, e, off⟩ ⟨pre ++ encCmap12 t ++ post, ptr, base :: stk⟩ = match toMapping12 t with
      | .ok m => .ok (⟨12, p, e, UInt16.ofNat t.language.toNat, m, none⟩,
          ⟨pre ++ encCmap12 t ++ post, pre.length + (encCmap12 t).length, base :: stk⟩)
      | .err => .err
      | .panic => .panic := by
  have h1 := reads_cmap12 t hl pre post (base :: stk)
  have h2 : peek 2 ⟨pre ++ encCmap12 t ++ post, pre.length, base :: stk⟩ =
      .ok ([0, 12], ⟨pre ++ encCmap12 t ++ post, pre.length, base :: stk⟩) := by
    unfold peek
    rw [if_neg (by simp [encCmap12])]
    simp only [List.append_assoc, List.drop_append_length]
    simp only [encCmap12, hf]
    rfl
  unfold readSubtable
  rw [Reader.bind_run]
  simp only [topOfTable]
  rw [Reader.bind_run]
  simp only [setPtr, ho]
  rw [Reader.bind_run, h2]
  simp only
  rw [if_neg (by decide), if_neg (by decide), if_pos trivial, Reader.bind_run, h1]
  simp only
  rw [Reader.bind_run]
  cases toMapping12 t <;> rfl

theorem maps12_iff (t : Cmap12) (hl : t.groups.length ≤ 4294967295) (c g : Nat) :
    Maps12 (encCmap12 t) c g ↔ ∃ x ∈ t.groups, x.startCharCode.toNat ≤ c ∧ c ≤ x.endCharCode.toNat ∧
      g = x.startGlyphID.toNat + (c - x.startCharCode.toNat) := by
  have h12 : field (encCmap12 t) 12 4 = t.groups.length := by
    unfold encCmap12
    rw [field_skip' (j := 10) (by simp), field_skip' (j := 8) (by simp), field_skip' (j := 4) (by simp),
      field_skip' (j := 0) (by simp), field_u32, ofNat32_toNat hl]
  have hv : ∀ j n, field (encCmap12 t) (16 + j) n = field (encVec encGroup t.groups) j n := by
    intro j n
    unfold encCmap12
    rw [field_skip' (j := 14 + j) (by simp; omega), field_skip' (j := 12 + j) (by simp; omega),
      field_skip' (j := 8 + j) (by simp; omega), field_skip' (j := 4 + j) (by simp; omega),
      field_skip' (j := j) (by simp)]
  have hg : ∀ i (hi : i < t.groups.length), field (encCmap12 t) (16 + 12 * i) 4 = t.groups[i].startCharCode.toNat ∧
      field (encCmap12 t) (20 + 12 * i) 4 = t.groups[i].endCharCode.toNat ∧
      field (encCmap12 t) (24 + 12 * i) 4 = t.groups[i].startGlyphID.toNat := by
    intro i hi
    refine ⟨?_, ?_, ?_⟩
    · rw [hv, show 12 * i = 12 * i + 0 by omega, field_vec encGroup_length (by omega) _ hi]
      exact field_u32 _ _
    · rw [show 20 + 12 * i = 16 + (12 * i + 4) by omega, hv, field_vec encGroup_length (by omega) _ hi]
      unfold encGroup
      rw [field_skip' (j := 0) (by simp), field_u32]
    · rw [show 24 + 12 * i = 16 + (12 * i + 8) by omega, hv, field_vec encGroup_length (by omega) _ hi]
      unfold encGroup
      rw [field_skip' (j := 4) (by simp), field_skip' (j := 0) (by simp), field_u32']
  unfold Maps12
  rw [h12]
  constructor
  · rintro ⟨i, hi, h⟩
    obtain ⟨h1, h2, h3⟩ := hg i hi
    rw [h1, h2, h3] at h
    exact ⟨_, List.getElem_mem hi, h⟩
  · rintro ⟨x, hx, h⟩
    obtain ⟨i, hi, e⟩ := List.mem_iff_getElem.mp hx
    obtain ⟨h1, h2, h3⟩ := hg i hi
    refine ⟨i, hi, ?_⟩
    rw [h1, h2, h3, e]
    exact h

/-- Groups that all can be expanded mean their entries. -/
theorem meaning_entries (gs : List Group) (h : ∀ x ∈ gs, GroupOk x) (c g : Nat) :
    (∃ x ∈ gs, x.startCharCode.toNat ≤ c ∧ c ≤ x.endCharCode.toNat ∧
      g = x.startGlyphID.toNat + (c - x.startCharCode.toNat)) ↔ Lists (gs.flatMap entries) c g := by
  constructor
  · rintro ⟨x, hx, h1, h2, h3⟩
    obtain ⟨h4, h5⟩ := h x hx
    have := x.endCharCode.toNat_lt
    refine ⟨(UInt32.ofNat c, UInt16.ofNat g), ?_, ofNat32_toNat (by omega), ofNat16_toNat (by omega)⟩
    rw [List.mem_flatMap]
    refine ⟨x, hx, ?_⟩
    unfold entries
    rw [List.mem_map]
    refine ⟨c - x.startCharCode.toNat, by simp; omega, ?_⟩
    rw [h3, show x.startCharCode.toNat + (c - x.startCharCode.toNat) = c by omega]
  · rintro ⟨y, hy, h1, h2⟩
    rw [List.mem_flatMap] at hy
    obtain ⟨x, hx, hy⟩ := hy
    obtain ⟨h4, h5⟩ := h x hx
    have := x.endCharCode.toNat_lt
    unfold entries at hy
    rw [List.mem_map] at hy
    obtain ⟨i, hi, e⟩ := hy
    rw [List.mem_range] at hi
    subst e
    simp only at h1 h2
    rw [ofNat32_toNat (by omega)] at h1
    rw [ofNat16_toNat (by omega)] at h2
    exact ⟨x, hx, by omega, by omega, by omega⟩

/-! ### What building a subtable gives -/

theorem dropLast_tail_eq {α : Type} (x : α) (l : List α) : (x :: l).tail.dropLast = l.dropLast := rfl

/-- Everything about `fromMapping12` on a nonempty map. -/
theorem fromMapping12_cases (lang : UInt16) (c0 : UInt32) (g0 : UInt16) (l : Map) (hs : BMap.Sorted ((c0, g0) :: l))
    (hg : g0.toNat ≠ 0) (h : ∀ x ∈ l.dropLast, x.2 ≠ 65535) :
    ∃ gs, fromMapping12 lang ((c0, g0) :: l) =
        .ok ⟨12, 0, UInt32.ofNat (16 + 12 * gs.length), UInt32.ofNat lang.toNat, gs⟩ ∧ gs.length ≤ l.length + 1 ∧
      (c0.toNat ≠ 0 → ∃ gs', gs = ⟨c0, UInt32.ofNat (c0.toNat - 1), UInt32.ofNat g0.toNat⟩ :: gs' ∧
        (∀ x ∈ gs', GroupOk x) ∧ gs'.flatMap entries = l) ∧
      (c0.toNat = 0 → (∀ x, l.head? = some x → x.2 ≠ g0) →
        (∀ x ∈ gs, GroupOk x) ∧ gs.flatMap entries = (c0, g0) :: l) ∧
      (c0.toNat = 0 → (∃ x, l.head? = some x ∧ x.2 = g0) →
        ∃ e gs', gs = ⟨c0, e, UInt32.ofNat g0.toNat⟩ :: gs' ∧ 1 ≤ e.toNat ∧
          ∀ x ∈ gs', 1 < x.startCharCode.toNat) := by
  have hg0 := g0.toNat_lt
  have hc0 := c0.toNat_lt
  have hent : ∀ (c : UInt32) (g : UInt16), entries ⟨c, c, UInt32.ofNat g.toNat⟩ = [(c, g)] := by
    intro c g
    have := g.toNat_lt
    simp only [entries]
    rw [show c.toNat + 1 - c.toNat = 1 by omega, ofNat32_toNat (by omega)]
    simp
  have hok1 : ∀ (c : UInt32) (g : UInt16), GroupOk ⟨c, c, UInt32.ofNat g.toNat⟩ := by
    intro c g
    have := g.toNat_lt
    refine ⟨Nat.le_refl _, ?_⟩
    simp only
    rw [ofNat32_toNat (by omega)]; omega
  unfold fromMapping12
  simp only
  rw [if_neg hg]
  cases l with
  | nil =>
    simp only [groupLoop, Res.ok_bind]
    refine ⟨_, rfl, by simp, ?_, ?_, ?_⟩
    · intro hc
      rw [if_neg hc]
      exact ⟨[], rfl, by simp, rfl⟩
    · intro hc _
      rw [if_pos hc]
      simp only [closeGroup, Option.getD_none]
      exact ⟨by simpa using hok1 c0 g0, by simpa using hent c0 g0⟩
    · rintro _ ⟨x, hx, _⟩
      cases hx
  | cons x l =>
    obtain ⟨c1, g1⟩ := x
    have hlt : c0.toNat < c1.toNat := by
      have := hs.head_lt (c1, g1) (by simp)
      simpa [Key.lt] using this
    have hc1 := c1.toNat_lt
    have hg1 := g1.toNat_lt
    -- in the first step the previous glyph is `g0 - 1`
    have hlast : (UInt16.ofNat (g0.toNat - 1)).toNat = g0.toNat - 1 := ofNat16_toNat (by omega)
    by_cases hc : c0.toNat = 0
    · by_cases hgg : g1 = g0
      · have hrun : inRun g1 (UInt16.ofNat (g0.toNat - 1)) c1 none = .ok true := by
          subst hgg
          simp only [inRun, hlast]
          rw [if_neg (by omega), if_neg (by omega)]
        obtain ⟨gs, e⟩ := groupLoop_ok l c0 g0 c1 g1 hs.tail h
        obtain ⟨en, gs', e1, e2, e3⟩ := groupLoop_first l c0 g0 c1 g1 gs hs.tail e
        simp only [groupLoop, if_pos hc, hrun, Res.ok_bind]
        rw [if_pos trivial, e]
        refine ⟨gs, rfl, ?_, fun h => absurd hc h, ?_, ?_⟩
        · have := groupLoop_length l c0 g0 (some c1) g1 gs e
          simp only [List.length_cons]; omega
        · intro _ h2; exact absurd hgg (h2 _ rfl)
        · intro _ _
          refine ⟨en, gs', e1, by omega, ?_⟩
          intro x hx
          have := e3 x hx
          omega
      · have hrun : inRun g1 (UInt16.ofNat (g0.toNat - 1)) c1 none = .ok false := by
          have : g1.toNat ≠ g0.toNat := fun e => hgg (UInt16.toNat_inj.mp e)
          simp only [inRun, hlast]
          rw [if_neg (by omega), if_pos (by omega)]
        obtain ⟨gs, e⟩ := groupLoop_ok l c1 g1 c1 g1 hs.tail h
        obtain ⟨e1, e2⟩ := groupLoop_entries l c1 g1 c1 g1 gs (Nat.le_refl _) (by omega) e
        simp only [groupLoop, if_pos hc, hrun, Res.ok_bind]
        rw [if_neg (by simp), e]
        refine ⟨_ :: gs, rfl, ?_, fun h => absurd hc h, ?_, ?_⟩
        · have := groupLoop_length l c1 g1 (some c1) g1 gs e
          simp only [List.length_cons]; omega
        · intro _ _
          simp only [closeGroup, Option.getD_none]
          refine ⟨?_, ?_⟩
          · intro x hx
            rcases List.mem_cons.mp hx with ee | ee
            · subst ee; exact hok1 c0 g0
            · exact e2 x ee
          · rw [List.flatMap_cons, e1, hent, hent]; rfl
        · rintro _ ⟨x, hx, h2⟩
          simp only [List.head?_cons, Option.some.injEq] at hx
          subst hx
          exact absurd h2 hgg
    · have hrun : inRun g1 (UInt16.ofNat (g0.toNat - 1)) c1 (some (UInt32.ofNat (c0.toNat - 1))) = .ok false := by
        simp only [inRun, hlast]
        rw [if_neg (by omega)]
        split
        · rfl
        · rw [ofNat32_toNat (by omega), if_neg (by omega)]
          rw [decide_eq_false (by omega)]
      obtain ⟨gs, e⟩ := groupLoop_ok l c1 g1 c1 g1 hs.tail h
      obtain ⟨e1, e2⟩ := groupLoop_entries l c1 g1 c1 g1 gs (Nat.le_refl _) (by omega) e
      simp only [groupLoop, if_neg hc, hrun, Res.ok_bind]
      rw [if_neg (by simp), e]
      refine ⟨_ :: gs, rfl, ?_, ?_, fun h => absurd h hc, fun h => absurd h hc⟩
      · have := groupLoop_length l c1 g1 (some c1) g1 gs e
        simp only [List.length_cons]; omega
      · intro _
        refine ⟨gs, rfl, e2, ?_⟩
        rw [e1, hent]; rfl

theorem fromMapping12_panics (lang : UInt16) (c0 : UInt32) (g0 : UInt16) (l : Map) (hs : BMap.Sorted ((c0, g0) :: l))
    (h : g0.toNat = 0 ∨ ∃ x ∈ l.dropLast, x.2 = 65535) : fromMapping12 lang ((c0, g0) :: l) = .panic := by
  unfold fromMapping12
  simp only
  by_cases hg : g0.toNat = 0
  · rw [if_pos hg]
  rw [if_neg hg]
  have hg0 := g0.toNat_lt
  have hc0 := c0.toNat_lt
  obtain ⟨x, hx, hx2⟩ := h.resolve_left hg
  cases l with
  | nil => simp at hx
  | cons y l =>
    obtain ⟨c1, g1⟩ := y
    have hc1 := c1.toNat_lt
    have hp : ∀ s sg, groupLoop l s sg (some c1) g1 = .panic := fun s sg =>
      groupLoop_panic l s sg c1 g1 hs.tail ⟨x, hx, hx2⟩
    have hlast : (UInt16.ofNat (g0.toNat - 1)).toNat = g0.toNat - 1 := ofNat16_toNat (by omega)
    simp only [groupLoop]
    generalize hlc : (if c0.toNat = 0 then none else some (UInt32.ofNat (c0.toNat - 1))) = lc
    have hr : ∃ b, inRun g1 (UInt16.ofNat (g0.toNat - 1)) c1 lc = .ok b := by
      simp only [inRun, hlast]
      rw [if_neg (by omega)]
      split
      · exact ⟨_, rfl⟩
      · cases lc with
        | none => exact ⟨_, rfl⟩
        | some v =>
          split at hlc
          · cases hlc
          · cases hlc
            simp only
            rw [ofNat32_toNat (by omega), if_neg (by omega)]
            exact ⟨_, rfl⟩
    obtain ⟨b, hb⟩ := hr
    rw [hb]
    simp only [Res.ok_bind]
    cases b with
    | true => rw [if_pos rfl, hp]; rfl
    | false => rw [if_neg (by simp), hp]; rfl

/-! ### C33 -/

/-- **C33** (which maps can be saved). Building a format 12 subtable succeeds exactly for nonempty maps whose first glyph
is not 0 and that have no glyph 65535 except at the first and the last character. Otherwise it panics. -/
theorem C33_saves_iff (lang : UInt16) (m : Map) (hs : BMap.Sorted m) :
    ((∃ t, fromMapping12 lang m = .ok t) ↔
      ∃ x l, m = x :: l ∧ x.2 ≠ 0 ∧ ∀ y ∈ l.dropLast, y.2 ≠ 65535) ∧
    ((¬ ∃ t, fromMapping12 lang m = .ok t) → fromMapping12 lang m = .panic) := by
  cases m with
  | nil => 
    refine ⟨⟨?_, ?_⟩, fun _ => rfl⟩
    · rintro ⟨_, h⟩; cases h
    · rintro ⟨_, _, h, _⟩; cases h
  | cons x l =>
    obtain ⟨c0, g0⟩ := x
    by_cases h : g0.toNat = 0 ∨ ∃ x ∈ l.dropLast, x.2 = 65535
    · have e := fromMapping12_panics lang c0 g0 l hs h
      refine ⟨⟨fun ⟨_, h2⟩ => (by rw [e] at h2; cases h2), ?_⟩, fun _ => e⟩
      rintro ⟨x, l', h1, h2, h3⟩
      cases h1
      rcases h with h | ⟨y, hy, h⟩
      · exact absurd (UInt16.toNat_inj.mp (by rw [h]; rfl)) h2
      · exact absurd h (h3 y hy)
    · simp only [not_or, not_exists, not_and] at h
      obtain ⟨gs, e, _⟩ := fromMapping12_cases lang c0 g0 l hs h.1 (fun x hx => h.2 x hx)
      refine ⟨⟨fun _ => ⟨_, _, rfl, ?_, fun x hx => h.2 x hx⟩, fun _ => ⟨_, e⟩⟩, fun h' => absurd ⟨_, e⟩ h'⟩
      intro h2
      apply h.1
      simp only at h2
      rw [h2]; rfl

example : ∃ t, fromMapping12 0 [(0x41, 65535), (0x42, 7), (0x10000, 65535)] = .ok t := ⟨_, rfl⟩
example : fromMapping12 0 [(0x41, 5), (0x42, 65535), (0x10000, 7)] = .panic := rfl

/-- **C33** (what is written). If the smallest character is not 0, the saved subtable maps every other character as the
map does and the smallest to nothing. If it is 0 and the second entry has a different glyph, the saved subtable
means exactly the map. -/
theorem C33_meaning (p e lang : UInt16) (x : UInt32 × UInt16) (l : Map) (hs : BMap.Sorted (x :: l)) (hlen : l.length < 4294967295)
    (bs : Bytes) (hb : encSubtable (sub12 p e lang (x :: l)) = .ok bs) :
    (x.1 ≠ 0 → ∀ c g, Maps12 bs c g ↔ Lists l c g) ∧
    (x.1 = 0 → (∀ y, l.head? = some y → y.2 ≠ x.2) → ∀ c g, Maps12 bs c g ↔ Lists (x :: l) c g) := by
  obtain ⟨c0, g0⟩ := x
  have hb' : (fromMapping12 lang ((c0, g0) :: l) >>= fun t => Res.ok (encCmap12 t)) = .ok bs := hb
  obtain ⟨t, ht, h2⟩ := Res.bind_inv hb'
  cases h2
  have hok := (C33_saves_iff lang _ hs).1.mp ⟨t, ht⟩
  obtain ⟨_, _, h1, h2, h3⟩ := hok
  cases h1
  have hg : g0.toNat ≠ 0 := fun e => h2 (UInt16.toNat_inj.mp (by simp only; rw [e]; rfl))
  obtain ⟨gs, e1, e2, e3, e4, _⟩ := fromMapping12_cases lang c0 g0 l hs hg h3
  rw [e1] at ht
  cases ht
  constructor
  · intro hc c g
    have hc : c0.toNat ≠ 0 := fun e => hc (UInt32.toNat_inj.mp (by simp only; rw [e]; rfl))
    obtain ⟨gs', f1, f2, f3⟩ := e3 hc
    have hc0 := c0.toNat_lt
    rw [maps12_iff _ (by simp only; omega)]
    subst f1
    rw [← f3, ← meaning_entries gs' f2]
    simp only [List.mem_cons]
    constructor
    · rintro ⟨y, hy | hy, h5, h6, h7⟩
      · subst hy
        simp only at h5 h6
        rw [ofNat32_toNat (by omega)] at h6
        omega
      · exact ⟨y, hy, h5, h6, h7⟩
    · rintro ⟨y, hy, h5⟩
      exact ⟨y, .inr hy, h5⟩
  · intro hc hh c g
    obtain ⟨f1, f2⟩ := e4 (by simp only at hc; rw [hc]; rfl) hh
    rw [maps12_iff _ (by simp only; omega), ← f2, ← meaning_entries gs f1]

example : BMap.Sorted ([(0x41, 5), (0x42, 6), (0x10000, 3)] : Map) ∧
    ∃ bs, encSubtable (sub12 3 10 0 [(0x41, 5), (0x42, 6), (0x10000, 3)]) = .ok bs := ⟨by simp [BMap.Sorted, Key.lt], _, rfl⟩

/-- **C33** (exactly which maps survive). Saving a map in format 12 and reading it gives the map back exactly if its
smallest character is 0, mapped to a glyph other than 0 and other than the glyph of the second entry, and no entry
except the first and the last has glyph 65535. -/
theorem C33_exact (p e lang : UInt16) (m : Map) (hs : BMap.Sorted m) (hlen : m.length ≤ 4294967295) :
    SavedAs (sub12 p e lang m) (sub12 p e lang m) ↔
      ∃ g0 l, m = (0, g0) :: l ∧ g0 ≠ 0 ∧ (∀ y, l.head? = some y → y.2 ≠ g0) ∧ ∀ y ∈ l.dropLast, y.2 ≠ 65535 := by
  have hlang : UInt16.ofNat (UInt32.ofNat lang.toNat).toNat = lang := by
    have := lang.toNat_lt
    rw [ofNat32_toNat (by omega)]; simp
  constructor
  · rintro ⟨bs, hb, r, hr⟩
    have hb' : (fromMapping12 lang m >>= fun t => Res.ok (encCmap12 t)) = .ok bs := hb
    obtain ⟨t, ht, h2⟩ := Res.bind_inv hb'
    cases h2
    obtain ⟨⟨c0, g0⟩, l, h1, h2, h3⟩ := (C33_saves_iff lang _ hs).1.mp ⟨t, ht⟩
    subst h1
    have hg : g0.toNat ≠ 0 := fun e => h2 (UInt16.toNat_inj.mp (by simp only; rw [e]; rfl))
    obtain ⟨gs, e1, e2, e3, e4, e5⟩ := fromMapping12_cases lang c0 g0 l hs hg h3
    rw [e1] at ht
    cases ht
    simp only [List.length_cons] at hlen
    have hrd := fun q => read12 (t := ⟨12, 0, q, UInt32.ofNat lang.toNat, gs⟩) (by simp only; omega) rfl p e [] []
      0 0 [] 0 rfl
    simp only [List.nil_append, List.append_nil] at hrd
    unfold Rd.new at hr
    rw [hrd] at hr
    have hc0 := c0.toNat_lt
    have hg0 := g0.toNat_lt
    by_cases hc : c0.toNat = 0
    · have hc' : c0 = 0 := UInt32.toNat_inj.mp (by rw [hc]; rfl)
      subst hc'
      refine ⟨g0, l, rfl, h2, ?_, h3⟩
      intro y hy hyg
      obtain ⟨en, gs', f1, f2, f3⟩ := e5 hc ⟨y, hy, hyg⟩
      subst f1
      -- character 1 gets the wrong glyph
      cases hm : toMapping12 ⟨12, 0, UInt32.ofNat (16 + 12 * (⟨0, en, UInt32.ofNat g0.toNat⟩ :: gs').length),
          UInt32.ofNat lang.toNat, ⟨0, en, UInt32.ofNat g0.toNat⟩ :: gs'⟩ with
      | err => rw [hm] at hr; cases hr
      | panic => rw [hm] at hr; cases hr
      | ok m' =>
        rw [hm] at hr
        have hmm : m' = (0, g0) :: l := by
          simp only [Res.ok.injEq, Prod.mk.injEq, Subtable.mk.injEq] at hr
          exact hr.1.2.2.2.2.1
        subst hmm
        have hgrp : ∀ (g : Group) (k i : Nat) (m m' : Map), expandGroup g k i m = .ok m' →
            1 < g.startCharCode.toNat + i → g.startCharCode.toNat + i + k ≤ 4294967296 →
            BMap.get? m' 1 = BMap.get? m 1 := by
          intro g k
          induction k with
          | zero => intro i m m' h _ _; simp only [expandGroup] at h; cases h; rfl
          | succ k ih =>
            intro i m m' h hi hk
            simp only [expandGroup] at h
            split at h
            · cases h
            rw [ih (i + 1) _ _ h (by omega) (by omega), BMap.get?_insert_ne]
            intro e
            have := congrArg UInt32.toNat e
            rw [ofNat32_toNat (by omega)] at this
            have h1 : (1 : UInt32).toNat = 1 := rfl
            omega
        have hgrps : ∀ (gs : List Group) (m m' : Map), expandGroups gs m = .ok m' →
            (∀ g ∈ gs, 1 < g.startCharCode.toNat) → BMap.get? m' 1 = BMap.get? m 1 := by
          intro gs
          induction gs with
          | nil => intro m m' h _; simp only [expandGroups] at h; cases h; rfl
          | cons g gs ih =>
            intro m m' h hg
            have := g.endCharCode.toNat_lt
            simp only [expandGroups] at h
            split at h
            · cases h
            split at h
            · cases h
            split at h
            · rename_i m2 h2
              rw [ih _ _ h (fun x hx => hg x (by simp [hx]))]
              exact hgrp g _ 0 _ _ h2 (hg g (by simp)) (by omega)
            · cases h
            · cases h
        -- first group
        have hen := en.toNat_lt
        simp only [toMapping12, expandGroups] at hm
        rw [if_neg (by simp)] at hm
        split at hm
        · cases hm
        split at hm
        · rename_i m2 h2'
          have q1 := hgrps _ _ _ hm f3
          have z32 : (0 : UInt32).toNat = 0 := rfl
          obtain ⟨k, hk⟩ : ∃ k, 1 + (en.toNat - (0 : UInt32).toNat) = k + 1 + 1 := ⟨en.toNat - 1, by omega⟩
          rw [hk] at h2'
          simp only [expandGroup] at h2'
          split at h2'
          · cases h2'
          split at h2'
          · cases h2'
          rename_i n1 n2
          have q2 := hgrp _ _ _ _ _ h2' (by simp only; omega) (by simp only; omega)
          rw [q2] at q1
          have : (UInt32.ofNat ((0 : UInt32).toNat + (0 + 1))) = 1 := rfl
          rw [this, BMap.get?_insert_self] at q1
          have q3 := (BMap.get?_eq_some hs).mp q1
          rcases List.mem_cons.mp q3 with q4 | q4
          · cases q4
          · cases l with
            | nil => simp at q4
            | cons z l =>
              simp only [List.head?_cons, Option.some.injEq] at hy
              subst hy
              obtain ⟨c1, g1⟩ := z
              rcases List.mem_cons.mp q4 with q5 | q5
              · simp only [Prod.mk.injEq] at q5
                have e := congrArg UInt16.toNat q5.2
                simp only at hyg
                subst hyg
                rw [ofNat16_toNat (by omega), ofNat32_toNat (by omega)] at e
                rw [ofNat32_toNat (by omega)] at n2
                omega
              · have q6 := hs.head_lt (c1, g1) (by simp)
                have q7 := hs.tail.head_lt _ q5
                simp only [Key.lt, decide_eq_true_eq] at q6 q7
                have : (1 : UInt32).toNat = 1 := rfl
                omega
        · cases hm
        · cases hm
    · exfalso
      obtain ⟨gs', f1, _⟩ := e3 hc
      have : toMapping12 ⟨12, 0, UInt32.ofNat (16 + 12 * gs.length), UInt32.ofNat lang.toNat, gs⟩ = .panic := by
        subst f1
        simp only [toMapping12, expandGroups]
        rw [ofNat32_toNat (by omega), if_pos (by omega)]
      rw [this] at hr
      cases hr
  · rintro ⟨g0, l, h1, h2, h3, h4⟩
    subst h1
    have hg : g0.toNat ≠ 0 := fun e => h2 (UInt16.toNat_inj.mp (by rw [e]; rfl))
    obtain ⟨gs, e1, e2, _, e4, _⟩ := fromMapping12_cases lang 0 g0 l hs hg h4
    obtain ⟨f1, f2⟩ := e4 rfl h3
    simp only [List.length_cons] at hlen
    refine ⟨encCmap12 ⟨12, 0, UInt32.ofNat (16 + 12 * gs.length), UInt32.ofNat lang.toNat, gs⟩, ?_, ?_⟩
    · show (fromMapping12 lang ((0, g0) :: l) >>= fun t => Res.ok (encCmap12 t)) = _
      rw [e1]; rfl
    · have hrd := read12 (t := ⟨12, 0, UInt32.ofNat (16 + 12 * gs.length), UInt32.ofNat lang.toNat, gs⟩)
        (by simp only; omega) rfl p e [] [] 0 0 [] 0 rfl
      simp only [List.nil_append, List.append_nil] at hrd
      unfold Rd.new
      rw [hrd, toMapping12, expandGroups_eq _ _ f1, f2]
      have := BMap.collect_of_sorted hs
      unfold BMap.collect at this
      simp only [this, hlang]
      exact ⟨_, rfl⟩

example : ∃ g0 l, ([(0, 3), (1, 4), (2, 6), (0x1F600, 65535)] : Map) = (0, g0) :: l ∧ g0 ≠ 0 ∧
    (∀ y, l.head? = some y → y.2 ≠ g0) ∧ ∀ y ∈ l.dropLast, y.2 ≠ 65535 := ⟨3, _, rfl, by decide, by simp, by decide⟩

/-- **C33** (what happens to the usual maps). A map that can be saved and whose smallest character is not 0 cannot be
read back: the saved subtable makes the reader panic. -/
theorem C33_unreadable (p e lang : UInt16) (x : UInt32 × UInt16) (l : Map) (hs : BMap.Sorted (x :: l))
    (hlen : l.length < 4294967295) (hx : x.1 ≠ 0) (bs : Bytes)
    (hb : encSubtable (sub12 p e lang (x :: l)) = .ok bs) : readSubtable ⟨p, e, 0⟩ (Rd.new bs) = .panic := by
  obtain ⟨c0, g0⟩ := x
  have hb' : (fromMapping12 lang ((c0, g0) :: l) >>= fun t => Res.ok (encCmap12 t)) = .ok bs := hb
  obtain ⟨t, ht, h2⟩ := Res.bind_inv hb'
  cases h2
  obtain ⟨_, _, h1, h2, h3⟩ := (C33_saves_iff lang _ hs).1.mp ⟨t, ht⟩
  cases h1
  have hg : g0.toNat ≠ 0 := fun e => h2 (UInt16.toNat_inj.mp (by simp only; rw [e]; rfl))
  have hc : c0.toNat ≠ 0 := fun e => hx (UInt32.toNat_inj.mp (by simp only; rw [e]; rfl))
  obtain ⟨gs, e1, e2, e3, _⟩ := fromMapping12_cases lang c0 g0 l hs hg h3
  rw [e1] at ht
  cases ht
  have hc0 := c0.toNat_lt
  have hrd := read12 (t := ⟨12, 0, UInt32.ofNat (16 + 12 * gs.length), UInt32.ofNat lang.toNat, gs⟩)
    (by simp only; omega) rfl p e [] [] 0 0 [] 0 rfl
  simp only [List.nil_append, List.append_nil] at hrd
  unfold Rd.new
  rw [hrd]
  obtain ⟨gs', f1, _⟩ := e3 hc
  have : toMapping12 ⟨12, 0, UInt32.ofNat (16 + 12 * gs.length), UInt32.ofNat lang.toNat, gs⟩ = .panic := by
    subst f1
    simp only [toMapping12, expandGroups]
    rw [ofNat32_toNat (by omega), if_pos (by omega)]
  rw [this]

/-- **C33** refuted as first stated: a map of one character. -/
theorem C33_refuted : ¬ SavedAs (sub12 3 10 0 [(0x41, 1)]) (sub12 3 10 0 [(0x41, 1)]) := by
  intro h
  obtain ⟨g0, l, h1, _⟩ := (C33_exact 3 10 0 _ (by simp [BMap.Sorted]) (by decide)).mp h
  simp at h1

end FT.Props
