import Verif.Model.Gsub
import Verif.Lemmas.Tab
import Verif.Props.Coverage
import Verif.Props.ClassDef
import Mathlib.Data.List.Forall2

/-!
Writers and readers of layout tables fit together.
-/

namespace FT
open Reader FT.Off FT.Props FT.Lay

/-- The writer `f` succeeds on `a` (up to offset overflow) and the reader `q` gives `a` back from any buffer that
holds the table written. -/
def Writes {α : Type} (f : α → Res Tab) (q : Reader α) (a : α) : Prop := ∃ t, f a = .ok t ∧ ReadsChild q t a

theorem ReadsTab.inTable {α : Type} {p : Reader α} {t : Tab} {a : α} (h : ReadsTab p t a) :
    ReadsChild (inTable p) t a := h.child

theorem readsTab_optOff {α : Type} {f : α → Res Tab} {q : Reader α} (vec : Bool) (x : Option α)
    (h : ∀ a, x = some a → Writes f q a) :
    ∃ t, optOff vec f x = .ok t ∧ ReadsTab (readOffset .w16 q) t x := by
  cases x with
  | none => exact ⟨_, rfl, readsTab_null16 q⟩
  | some a =>
    obtain ⟨t, h1, h2⟩ := h a rfl
    exact ⟨_, by simp only [optOff, h1], readsTab_link16 vec false none h2⟩

theorem mapL_ok {α β : Type} {f : α → Res β} : ∀ (l : List α) (P : α → β → Prop), (∀ a ∈ l, ∃ b, f a = .ok b ∧ P a b) →
    ∃ bs, Res.mapL f l = .ok bs ∧ List.Forall₂ P l bs
  | [], _, _ => ⟨[], rfl, .nil⟩
  | a :: l, P, h => by
    obtain ⟨b, h1, h2⟩ := h a (by simp)
    obtain ⟨bs, h3, h4⟩ := mapL_ok l P (fun x hx => h x (by simp [hx]))
    exact ⟨b :: bs, by simp only [Res.mapL, h1, h3], .cons h2 h4⟩

theorem readsTab_deCountedF {α : Type} {p : Reader α} : ∀ {l : List α} {ts : List Tab},
    List.Forall₂ (fun a t => ReadsTab p t a) l ts → ReadsTab (deCounted p l.length) (Tab.concat ts) l
  | _, _, .nil => ReadsTab.pure []
  | _, _, .cons (a := a) h1 h2 =>
    ReadsTab.bind h1 (ReadsTab.map (fun l => a :: l) (readsTab_deCountedF h2))

theorem readsTab_offVec {α : Type} {f : α → Res Tab} {q : Reader α} (l : List (Option α)) (hl : l.length ≤ 65535)
    (h : ∀ a, some a ∈ l → Writes f q a) :
    ∃ t, offVec f l = .ok t ∧ ReadsTab (readOffVec q) t l := by
  obtain ⟨ts, h1, h2⟩ := mapL_ok (f := optOff true f) l (fun a t => ReadsTab (readOffset .w16 q) t a)
    (fun a ha => readsTab_optOff true a (fun b hb => h b (hb ▸ ha)))
  refine ⟨_, by simp only [offVec, h1]; rfl, ?_⟩
  refine ReadsTab.bind (readsTab_u16 _) ?_
  rw [ofNat16_toNat hl]
  exact readsTab_deCountedF h2

/-- Specification: a coverage table that survives serialization (C07). -/
def CovOk (gs : List UInt16) : Prop := gs.length ≤ 65535 ∧ MaxOnlyLast gs ∧
  (RangesShorter gs → ∀ g ∈ gs, g.toNat ≠ 65535)

theorem covOk_of_asc {gs : List UInt16} (h : Ascending gs)
    (hguard : (∀ g ∈ gs, g.toNat ≠ 65535) ∨ 2 * gs.length ≤ 6 * runs gs) : CovOk gs := by
  refine ⟨asc_length gs h hguard, asc_maxOnlyLast gs h, ?_⟩
  · intro hrs
    rcases hguard with hg | hg
    · exact hg
    · have := hrs.2; omega

theorem writes_cov {gs : List UInt16} (h : CovOk gs) : Writes covTab Coverage.read gs := by
  obtain ⟨bs, h1, h2, _, h4, _⟩ := C07_any_list gs h.1 h.2.1
  refine ⟨.bytes bs, by simp only [covTab, h1], Reads.child ?_⟩
  by_cases hr : RangesShorter gs
  · exact h4 hr (h.2.2 hr)
  · exact (h2 hr).2

/-- Specification: a class definition that reads back literally (C08). -/
def ClassOk (m : List (UInt16 × UInt16)) : Prop := AscendingKeys m ∧
  ∀ first last, m.head? = some first → m.getLast? = some last → last.1.toNat ≤ 65533 ∧ classRuns m ≤ 21845 ∧
    4 + 6 * classRuns m ≤ 8 + 2 * (last.1.toNat - first.1.toNat)

theorem writes_class {m : List (UInt16 × UInt16)} (h : ClassOk m) : Writes classTab ClassDef.read m := by
  cases hm : m with
  | nil =>
    obtain ⟨bs, h1, h2⟩ := C08_empty
    exact ⟨.bytes bs, by simp only [classTab, h1], h2.child⟩
  | cons a l =>
    obtain ⟨z, hz⟩ : ∃ z, (a :: l).getLast? = some z := ⟨_, List.getLast?_eq_some_getLast (by simp)⟩
    subst hm
    obtain ⟨g1, g2, g3⟩ := h.2 a z rfl hz
    obtain ⟨bs, m', h1, h2, _, _, _, _, _, h3⟩ := C08_roundtrip (a :: l) a z h.1 rfl hz g1 g2
    rw [h3 g3] at h2
    exact ⟨.bytes bs, by simp only [classTab, h1], h2.child⟩

end FT
