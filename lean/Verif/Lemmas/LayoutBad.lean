import Verif.Model.LayoutTables
import Verif.Lemmas.ResBind

/-!
A table with a lookup or subtable that cannot be written cannot be written.
-/

namespace FT
open FT.Off FT.Lay

theorem mapL_no {α β : Type} {f : α → Res β} : ∀ (l : List α), (∃ a ∈ l, ∀ b, f a ≠ .ok b) → ∀ bs, Res.mapL f l ≠ .ok bs
  | [], h => by obtain ⟨_, h, _⟩ := h; cases h
  | a :: l, h => by
    intro bs hb
    simp only [Res.mapL] at hb
    cases ha : f a with
    | err => rw [ha] at hb; cases hb
    | panic => rw [ha] at hb; cases hb
    | ok b =>
      rw [ha] at hb
      simp only at hb
      obtain ⟨x, hx, hn⟩ := h
      rcases List.mem_cons.mp hx with rfl | hx
      · exact hn b ha
      · cases hl : Res.mapL f l with
        | ok bs' => exact mapL_no l ⟨x, hx, hn⟩ bs' hl
        | err => rw [hl] at hb; cases hb
        | panic => rw [hl] at hb; cases hb

theorem optOff_no {α : Type} {f : α → Res Tab} {vec : Bool} {a : α} (h : ∀ t, f a ≠ .ok t) :
    ∀ t, optOff vec f (some a) ≠ .ok t := by
  intro t ht
  simp only [optOff] at ht
  cases hf : f a with
  | ok x => exact h x hf
  | err => rw [hf] at ht; cases ht
  | panic => rw [hf] at ht; cases ht

theorem mapL_mem {α β : Type} {f : α → Res β} : ∀ {l : List α} {bs : List β}, Res.mapL f l = .ok bs →
    ∀ a ∈ l, ∃ b ∈ bs, f a = .ok b
  | [], _, _, a, ha => by cases ha
  | x :: l, bs, h, a, ha => by
    cases hx : f x with
    | ok b =>
      cases hl : Res.mapL f l with
      | ok bs' =>
        simp only [Res.mapL, hx, hl, Res.ok.injEq] at h
        subst h
        rcases List.mem_cons.mp ha with rfl | ha
        · exact ⟨b, by simp, hx⟩
        · obtain ⟨y, hy, e⟩ := mapL_mem hl a ha
          exact ⟨y, by simp [hy], e⟩
      | err => simp only [Res.mapL, hx, hl] at h; cases h
      | panic => simp only [Res.mapL, hx, hl] at h; cases h
    | err => simp only [Res.mapL, hx] at h; cases h
    | panic => simp only [Res.mapL, hx] at h; cases h

/-- If some lookup has no subtables to write, or one of them cannot be written, the table cannot be written. -/
theorem toBytes_no {R S : Type} {ty : R → UInt16} {subs : R → Res (List S)} {f : S → Res Tab} (g : GposGsub R)
    (l : Lookup R) (hl : l ∈ g.lookups)
    (h : ∀ ss, subs l.rule = .ok ss → ∃ s ∈ ss, ∀ t, f s ≠ .ok t) (bs : Bytes) :
    GposGsub.toBytes ty subs f g ≠ .ok bs := by
  intro hbs
  unfold GposGsub.toBytes at hbs
  obtain ⟨low, hlow, hbs⟩ := Res.bind_inv hbs
  simp only [GposGsub.toLow] at hlow
  cases hm : Res.mapL (Lookup.toLow ty subs) g.lookups with
  | err => rw [hm] at hlow; cases hlow
  | panic => rw [hm] at hlow; cases hlow
  | ok lows =>
    rw [hm] at hlow
    simp only [Res.ok.injEq] at hlow
    subst hlow
    obtain ⟨low, hlowm, hlow⟩ := mapL_mem hm l hl
    have hss : ∃ s ∈ low.subs, ∀ t, f s ≠ .ok t := by
      simp only [Lookup.toLow] at hlow
      cases hs : subs l.rule with
      | err => rw [hs] at hlow; cases hlow
      | panic => rw [hs] at hlow; cases hlow
      | ok ss =>
        rw [hs] at hlow
        simp only [Res.ok.injEq] at hlow
        subst hlow
        exact h ss hs
    obtain ⟨s, hs, hbad⟩ := hss
    have h1 : ∀ t, lookupTab f low ≠ .ok t := by
      intro t ht
      simp only [lookupTab] at ht
      cases hx : Res.mapL (fun s => optOff true f (some s)) low.subs with
      | err => rw [hx] at ht; cases ht
      | panic => rw [hx] at ht; cases ht
      | ok ts => exact mapL_no _ ⟨s, hs, optOff_no hbad⟩ ts hx
    have h2 : ∀ t, lookupListTab f (lows.map some) ≠ .ok t := by
      intro t ht
      simp only [lookupListTab, offVec] at ht
      cases hx : Res.mapL (optOff true (lookupTab f)) (lows.map some) with
      | err => rw [hx] at ht; cases ht
      | panic => rw [hx] at ht; cases ht
      | ok ts => exact mapL_no _ ⟨some low, List.mem_map.mpr ⟨low, hlowm, rfl⟩, optOff_no h1⟩ ts hx
    obtain ⟨t, ht, _⟩ := Res.bind_inv hbs
    simp only [TableLow.tab] at ht
    obtain ⟨_, _, ht⟩ := Res.bind_inv ht
    obtain ⟨_, _, ht⟩ := Res.bind_inv ht
    obtain ⟨x, hx, _⟩ := Res.bind_inv ht
    exact optOff_no h2 x hx

end FT
