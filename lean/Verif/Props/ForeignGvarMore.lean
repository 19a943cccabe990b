import Verif.Props.ForeignGvar

/-! # C94: `gvar` tables with too many glyphs or shared tuples, or with short offsets that are too large -/

namespace FT.Props
open FT FT.F32 FT.Glyf FT.Iup FT.TupleVar FT.Gvar Reader

namespace GvarLimits

theorem mapL_one_panic {α β : Type} {f : α → Res β} (hf : ∀ a, f a ≠ .err) : ∀ {l : List α} {i : Nat} {a : α}, l[i]? = some a → f a = .panic →
    Res.mapL f l = .panic
  | x :: l, 0, a, h, hp => by
    cases h
    rw [Res.mapL, hp]
  | x :: l, i + 1, a, h, hp => by
    rw [Res.mapL]
    cases hx : f x with
    | ok b => simp only [mapL_one_panic hf (l := l) h hp]
    | err => exact absurd hx (hf x)
    | panic => rfl

theorem offsets_panic {B : Bytes} {n i : Nat} (hg : gvarLong B = false) (ho : 20 + 2 * (n + 1) ≤ B.length) (hi : i ≤ n)
    (hb : 65536 ≤ gvarOffset B i) {flags : UInt16} (hf : flags.toNat = field B 14 2) (stk : List Nat) :
    readOffsets flags (n + 1) ⟨B, 20, stk⟩ = .panic := by
  unfold readOffsets
  rw [if_pos ((flag_long B flags hf).2 hg)]
  obtain ⟨l, l1, l2, l3⟩ := words_read (B := B) (pos := 20) (n := n + 1) (stk := stk) ho
  have hlt : i < l.length := by omega
  have h2 := l2 i _ (List.getElem?_eq_getElem hlt)
  unfold gvarOffset at hb
  rw [hg, if_neg (by decide)] at hb
  rw [bind_run, l3]
  have : Res.mapL doubled l = .panic := by
    refine mapL_one_panic ?_ (List.getElem?_eq_getElem hlt) ?_
    · intro a; unfold doubled; split <;> simp
    · unfold doubled; rw [if_neg (by omega)]
  simp only [Reader.lift, this]

end GvarLimits
open GvarLimits

/-- **C94** (outside the guard: counts). A table of 65535 glyphs makes the reader panic. -/
theorem C94_many_glyphs (B : Bytes) (ce : List (List Pt × List Nat)) (h20 : 20 ≤ B.length) (hn : field B 12 2 = 65535) :
    readGvar ce (Rd.new B) = .panic := by
  obtain ⟨core, e1, c1, c2, c3, c4, c5, c6⟩ := gvarCore_read (B := B) [0, 0] h20
  unfold readGvar Rd.new
  simp only [bind_run, pushTop, e1]
  rw [if_pos (by omega)]
  rfl

/-- **C94** (outside the guard: short offsets). A table with short offsets, any of which leads 65536 bytes or more into the data, as
OpenType allows (up to 131070), makes the reader panic. -/
theorem C94_far_offsets (B : Bytes) (ce : List (List Pt × List Nat)) (hn : field B 12 2 < 65535) (hg : gvarLong B = false)
    (ho : 20 + 2 * (field B 12 2 + 1) ≤ B.length) (i : Nat) (hi : i ≤ field B 12 2) (hb : 65536 ≤ gvarOffset B i) :
    readGvar ce (Rd.new B) = .panic := by
  obtain ⟨core, e1, c1, c2, c3, c4, c5, c6⟩ := gvarCore_read (B := B) [0, 0] (by omega)
  unfold readGvar Rd.new
  simp only [bind_run, pushTop, e1]
  rw [if_neg (by omega)]
  simp only [bind_run, c4, offsets_panic hg ho hi hb c5]

/-- **C94** (outside the guard: counts). A table of 65535 shared tuples makes the reader panic. -/
theorem C94_many_tuples (B : Bytes) (ce : List (List Pt × List Nat)) (hn : field B 12 2 < 65535) (ht : field B 6 2 = 65535)
    (ho : 20 + (if gvarLong B then 4 else 2) * (field B 12 2 + 1) ≤ B.length)
    (hs : gvarLong B = false → ∀ i ≤ field B 12 2, gvarOffset B i < 65536) : readGvar ce (Rd.new B) = .panic := by
  have h20 : 20 ≤ B.length := by split at ho <;> omega
  obtain ⟨core, e1, c1, c2, c3, c4, c5, c6⟩ := gvarCore_read (B := B) [0, 0] h20
  obtain ⟨offs, ⟨i, p, s⟩, o1, o2, o3, o4⟩ := offsets_read ho hs c5 [0, 0]
  simp only at o2 o3
  subst o2 o3
  unfold readGvar Rd.new
  simp only [bind_run, pushTop, e1]
  rw [if_neg (by omega)]
  simp only [bind_run, c4, o1, topOfTable, setPtr, c3, Nat.zero_add]
  rw [if_pos (by omega)]
  rfl

/-- A table of one glyph with the short offsets 0 and 65536. -/
example : field [0, 1, 0, 0, 0, 1, 0, 0, 0, 0, 0, 24, 0, 1, 0, 0, 0, 0, 0, 24, 0, 0, 128, 0] 12 2 = 1 ∧
    gvarLong [0, 1, 0, 0, 0, 1, 0, 0, 0, 0, 0, 24, 0, 1, 0, 0, 0, 0, 0, 24, 0, 0, 128, 0] = false ∧
    gvarOffset [0, 1, 0, 0, 0, 1, 0, 0, 0, 0, 0, 24, 0, 1, 0, 0, 0, 0, 0, 24, 0, 0, 128, 0] 1 = 65536 := by decide

/-- … of 65535 glyphs, and of one glyph and 65535 shared tuples. -/
example : field [0, 1, 0, 0, 0, 1, 0, 0, 0, 0, 0, 24, 255, 255, 0, 0, 0, 0, 0, 24] 12 2 = 65535 ∧
    field [0, 1, 0, 0, 0, 1, 255, 255, 0, 0, 0, 24, 0, 1, 0, 0, 0, 0, 0, 24, 0, 0, 0, 0] 6 2 = 65535 ∧
    gvarOffset [0, 1, 0, 0, 0, 1, 255, 255, 0, 0, 0, 24, 0, 1, 0, 0, 0, 0, 0, 24, 0, 0, 0, 0] 0 = 0 ∧
    gvarOffset [0, 1, 0, 0, 0, 1, 255, 255, 0, 0, 0, 24, 0, 1, 0, 0, 0, 0, 0, 24, 0, 0, 0, 0] 1 = 0 := by decide

end FT.Props
