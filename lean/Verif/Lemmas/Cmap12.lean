import Verif.Model.Cmap
import Verif.Lemmas.BTree
import Verif.Lemmas.Reads
import Verif.Lemmas.ResBind

/-! Format 12 character maps. -/

namespace FT.Cmap
open FT Reader

/-- The entries of a group. -/
def entries (g : Group) : Map :=
  (List.range (g.endCharCode.toNat + 1 - g.startCharCode.toNat)).map fun i =>
    (UInt32.ofNat (g.startCharCode.toNat + i), UInt16.ofNat (g.startGlyphID.toNat + i))

/-- A group that can be expanded. -/
def GroupOk (g : Group) : Prop :=
  g.startCharCode.toNat ≤ g.endCharCode.toNat ∧
    g.startGlyphID.toNat + (g.endCharCode.toNat - g.startCharCode.toNat) ≤ 65535

theorem expandGroup_eq (g : Group) : ∀ (k i : Nat) (m : Map),
    g.startGlyphID.toNat + i + k ≤ 65536 →
    expandGroup g k i m = .ok (((List.range' i k).map fun i =>
      (UInt32.ofNat (g.startCharCode.toNat + i), UInt16.ofNat (g.startGlyphID.toNat + i))).foldl
        (fun m x => BMap.insert m x.1 x.2) m)
  | 0, _, _, _ => rfl
  | k + 1, i, m, h => by
    simp only [expandGroup]
    rw [if_neg (by omega), expandGroup_eq g k (i + 1) _ (by omega), List.range'_succ, List.map_cons, List.foldl_cons,
      Nat.mod_eq_of_lt (by omega : g.startGlyphID.toNat < 65536), Nat.mod_eq_of_lt (by omega : i < 65536)]

theorem expandGroups_eq : ∀ (gs : List Group) (m : Map), (∀ g ∈ gs, GroupOk g) →
    expandGroups gs m = .ok ((gs.flatMap entries).foldl (fun m x => BMap.insert m x.1 x.2) m)
  | [], _, _ => rfl
  | g :: gs, m, h => by
    obtain ⟨h1, h2⟩ := h g (by simp)
    have := g.endCharCode.toNat_lt
    simp only [expandGroups]
    rw [if_neg (by omega), if_neg (by omega), expandGroup_eq g _ 0 m (by omega)]
    simp only
    rw [expandGroups_eq gs _ (fun x hx => h x (by simp [hx])), List.flatMap_cons, List.foldl_append, entries,
      List.range_eq_range', show 1 + (g.endCharCode.toNat - g.startCharCode.toNat) =
        g.endCharCode.toNat + 1 - g.startCharCode.toNat by omega]

/-- Once a group was opened, the loop writes exactly the open group and the remaining entries. -/
theorem groupLoop_entries : ∀ (l : Map) (s : UInt32) (sg : UInt16) (lc : UInt32) (lg : UInt16) (gs : List Group),
    s.toNat ≤ lc.toNat → lg.toNat = sg.toNat + (lc.toNat - s.toNat) →
    groupLoop l s sg (some lc) lg = .ok gs →
    gs.flatMap entries = entries ⟨s, lc, UInt32.ofNat sg.toNat⟩ ++ l ∧ (∀ g ∈ gs, GroupOk g)
  | [], s, sg, lc, lg, gs, h1, h2, h => by
    simp only [groupLoop, closeGroup] at h
    cases h
    have := lg.toNat_lt
    have := sg.toNat_lt
    refine ⟨by simp, ?_⟩
    intro g hg
    simp only [List.mem_singleton] at hg
    subst hg
    refine ⟨h1, ?_⟩
    simp only [Option.getD_some]
    rw [ofNat32_toNat (by omega)]
    omega
  | (c, g) :: l, s, sg, lc, lg, gs, h1, h2, h => by
    have hlg := lg.toNat_lt
    have hsg := sg.toNat_lt
    simp only [groupLoop] at h
    obtain ⟨b, hb, h⟩ := Res.bind_inv h
    cases b with
    | true =>
      rw [if_pos rfl] at h
      simp only [inRun] at hb
      split at hb
      · cases hb
      split at hb
      · cases hb
      split at hb
      · cases hb
      rename_i e1 e2 e3
      have e4 : c.toNat = 1 + lc.toNat := by cases hb' : decide (c.toNat = 1 + lc.toNat) with
        | true => simpa using hb'
        | false => rw [hb'] at hb; cases hb
      have e5 : g.toNat = 1 + lg.toNat := by omega
      obtain ⟨h3, h4⟩ := groupLoop_entries l s sg c g gs (by omega) (by omega) h
      refine ⟨?_, h4⟩
      rw [h3]
      have : entries ⟨s, c, UInt32.ofNat sg.toNat⟩ = entries ⟨s, lc, UInt32.ofNat sg.toNat⟩ ++ [(c, g)] := by
        simp only [entries]
        rw [show c.toNat + 1 - s.toNat = (lc.toNat + 1 - s.toNat) + 1 by omega, List.range_succ, List.map_append]
        simp only [List.map_cons, List.map_nil]
        rw [ofNat32_toNat (by omega), show s.toNat + (lc.toNat + 1 - s.toNat) = c.toNat by omega,
          show sg.toNat + (lc.toNat + 1 - s.toNat) = g.toNat by omega]
        simp
      rw [this]
      simp
    | false =>
      rw [if_neg (by simp)] at h
      obtain ⟨gs', h', h⟩ := Res.bind_inv h
      cases h
      obtain ⟨h3, h4⟩ := groupLoop_entries l c g c g gs' (by omega) (by omega) h'
      have hg := g.toNat_lt
      refine ⟨?_, ?_⟩
      · rw [List.flatMap_cons, h3]
        simp only [closeGroup, Option.getD_some, List.append_cancel_left_eq]
        simp only [entries]
        rw [show c.toNat + 1 - c.toNat = 1 by omega, ofNat32_toNat (by omega)]
        simp
      · intro x hx
        rcases List.mem_cons.mp hx with e | e
        · subst e
          refine ⟨h1, ?_⟩
          simp only [closeGroup, Option.getD_some]
          rw [ofNat32_toNat (by omega)]
          omega
        · exact h4 x e

/-- It fails only after glyph 65535. -/
theorem groupLoop_ok : ∀ (l : Map) (s : UInt32) (sg : UInt16) (lc : UInt32) (lg : UInt16),
    BMap.Sorted ((lc, lg) :: l) → (∀ x ∈ ((lc, lg) :: l).dropLast, x.2 ≠ 65535) →
    ∃ gs, groupLoop l s sg (some lc) lg = .ok gs
  | [], s, sg, lc, lg, _, _ => ⟨_, rfl⟩
  | (c, g) :: l, s, sg, lc, lg, hs, h => by
    have h1 : lg ≠ 65535 := h (lc, lg) (by simp)
    have h1' : lg.toNat ≠ 65535 := by
      intro e; apply h1; apply UInt16.toNat_inj.mp; rw [e]; rfl
    have h2 : lc.toNat < c.toNat := by
      have := hs.head_lt (c, g) (by simp)
      simpa [Key.lt] using this
    have h3 := c.toNat_lt
    have hr : ∃ b, inRun g lg c (some lc) = .ok b := by
      simp only [inRun]
      rw [if_neg h1']
      split
      · exact ⟨_, rfl⟩
      · rw [if_neg (by omega)]; exact ⟨_, rfl⟩
    obtain ⟨b, hb⟩ := hr
    have h' : ∀ x ∈ ((c, g) :: l).dropLast, x.2 ≠ 65535 := fun x hx => h x (by
      rw [List.dropLast_cons_of_ne_nil (by simp)]; simp [hx])
    simp only [groupLoop, hb, Res.ok_bind]
    cases b with
    | true => exact groupLoop_ok l s sg c g hs.tail h'
    | false =>
      obtain ⟨gs, e⟩ := groupLoop_ok l c g c g hs.tail h'
      rw [if_neg (by simp), e]
      exact ⟨_, rfl⟩

theorem groupLoop_panic : ∀ (l : Map) (s : UInt32) (sg : UInt16) (lc : UInt32) (lg : UInt16),
    BMap.Sorted ((lc, lg) :: l) → (∃ x ∈ ((lc, lg) :: l).dropLast, x.2 = 65535) →
    groupLoop l s sg (some lc) lg = .panic
  | [], s, sg, lc, lg, _, h => by simp at h
  | (c, g) :: l, s, sg, lc, lg, hs, h => by
    by_cases h1 : lg.toNat = 65535
    · simp only [groupLoop, inRun]
      rw [if_pos h1]; rfl
    · have h2 : lc.toNat < c.toNat := by
        have := hs.head_lt (c, g) (by simp)
        simpa [Key.lt] using this
      have h3 := c.toNat_lt
      have hr : ∃ b, inRun g lg c (some lc) = .ok b := by
        simp only [inRun]
        rw [if_neg h1]
        split
        · exact ⟨_, rfl⟩
        · rw [if_neg (by omega)]; exact ⟨_, rfl⟩
      obtain ⟨b, hb⟩ := hr
      have h' : ∃ x ∈ ((c, g) :: l).dropLast, x.2 = 65535 := by
        obtain ⟨x, hx, e⟩ := h
        rw [List.dropLast_cons_of_ne_nil (by simp)] at hx
        rcases List.mem_cons.mp hx with e2 | e2
        · subst e2; simp only at e; subst e; exact absurd rfl h1
        · exact ⟨x, e2, e⟩
      simp only [groupLoop, hb, Res.ok_bind]
      cases b with
      | true => exact groupLoop_panic l s sg c g hs.tail h'
      | false =>
        rw [if_neg (by simp), groupLoop_panic l c g c g hs.tail h']
        rfl

/-- Whatever the state, the first group starts where the open group starts and covers the last code; the later ones
start at later entries. -/
theorem groupLoop_first : ∀ (l : Map) (s : UInt32) (sg : UInt16) (lc : UInt32) (lg : UInt16) (gs : List Group),
    BMap.Sorted ((lc, lg) :: l) → groupLoop l s sg (some lc) lg = .ok gs →
    ∃ e gs', gs = ⟨s, e, UInt32.ofNat sg.toNat⟩ :: gs' ∧ lc.toNat ≤ e.toNat ∧ ∀ g ∈ gs', lc.toNat < g.startCharCode.toNat
  | [], s, sg, lc, lg, gs, _, h => by
    simp only [groupLoop, closeGroup] at h
    cases h
    exact ⟨lc, [], rfl, Nat.le_refl _, by simp⟩
  | (c, g) :: l, s, sg, lc, lg, gs, hs, h => by
    have h2 : lc.toNat < c.toNat := by
      have := hs.head_lt (c, g) (by simp)
      simpa [Key.lt] using this
    simp only [groupLoop] at h
    obtain ⟨b, hb, h⟩ := Res.bind_inv h
    cases b with
    | true =>
      rw [if_pos rfl] at h
      obtain ⟨e, gs', h3, h4, h5⟩ := groupLoop_first l s sg c g gs hs.tail h
      exact ⟨e, gs', h3, by omega, fun x hx => by have := h5 x hx; omega⟩
    | false =>
      rw [if_neg (by simp)] at h
      obtain ⟨gs', h', h⟩ := Res.bind_inv h
      cases h
      obtain ⟨e, gs2, h3, h4, h5⟩ := groupLoop_first l c g c g gs' hs.tail h'
      refine ⟨lc, gs', rfl, Nat.le_refl _, ?_⟩
      intro x hx
      subst h3
      rcases List.mem_cons.mp hx with e | e
      · subst e; exact h2
      · have := h5 x e; omega

theorem groupLoop_length : ∀ (l : Map) (s : UInt32) (sg : UInt16) (lc : Option UInt32) (lg : UInt16) (gs : List Group),
    groupLoop l s sg lc lg = .ok gs → gs.length ≤ l.length + 1
  | [], s, sg, lc, lg, gs, h => by simp only [groupLoop] at h; cases h; simp
  | (c, g) :: l, s, sg, lc, lg, gs, h => by
    simp only [groupLoop] at h
    obtain ⟨b, hb, h⟩ := Res.bind_inv h
    cases b with
    | true =>
      rw [if_pos rfl] at h
      have := groupLoop_length l s sg (some c) g gs h
      simp only [List.length_cons]; omega
    | false =>
      rw [if_neg (by simp)] at h
      obtain ⟨gs', h', h⟩ := Res.bind_inv h
      cases h
      have := groupLoop_length l c g (some c) g gs' h'
      simp only [List.length_cons]; omega

theorem reads_group (g : Group) : Reads readGroup (encGroup g) g :=
  (reads_u32 _).bind ((reads_u32 _).bind ((reads_u32 _).map (fun x => Group.mk _ _ x)))

theorem reads_cmap12 (t : Cmap12) (h : t.groups.length ≤ 4294967295) : Reads readCmap12 (encCmap12 t) t :=
  (reads_u16 _).bind ((reads_u16 _).bind ((reads_u32 _).bind ((reads_u32 _).bind ((reads_u32 _).bind
    ((reads_deCounted' (ofNat32_toNat h) (fun g _ => reads_group g)).map
      (fun gs => Cmap12.mk _ _ _ _ gs))))))

end FT.Cmap
