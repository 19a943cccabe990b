import Verif.Model.Gpos
import Verif.Lemmas.Gsub
import Verif.Props.ValueRecord

/-!
GPOS subtables are read back as written.
-/

namespace FT
open Reader FT.Off FT.Props FT.Lay FT.Gpos FT.VR

/-- `p` started at the first field of `t` in any buffer that holds `t`, with the base of `t` on top of the stack,
reads `a`; the cursor ends anywhere. -/
def ReadsAway {α : Type} (p : Reader α) (t : Tab) (a : α) : Prop :=
  ∀ (B : Bytes) (base pos : Nat) (ext : List (Nat × Nat)) (stk : List Nat), Holds B t base pos ext →
    ∃ ptr, p ⟨B, pos, base :: stk⟩ = .ok (a, ⟨B, ptr, base :: stk⟩)

theorem ReadsTab.toAway {α : Type} {p : Reader α} {t : Tab} {a : α} (h : ReadsTab p t a) : ReadsAway p t a :=
  fun B base pos ext stk hh => ⟨_, h B base pos ext stk hh⟩

theorem ReadsTab.bindAway {α β : Type} {p : Reader α} {f : α → Reader β} {t u : Tab} {a : α} {b : β}
    (h1 : ReadsTab p t a) (h2 : ReadsAway (f a) u b) : ReadsAway (p >>= f) (t.append u) b := by
  intro B base pos ext stk h
  obtain ⟨e1, e2, g1, g2⟩ := holds_append B t u base pos ext h
  obtain ⟨ptr, e⟩ := h2 B base _ e2 stk g2
  refine ⟨ptr, ?_⟩
  rw [Reader.bind_run, h1 B base pos e1 stk g1]
  exact e

theorem ReadsAway.inTable {α : Type} {p : Reader α} {t : Tab} {a : α} (h : ReadsAway p t a) :
    ReadsChild (inTable p) t a := by
  intro B base ext stk _ hh
  obtain ⟨ptr, e⟩ := h B base base ext stk hh
  refine ⟨ptr, ?_⟩
  unfold Lay.inTable
  rw [Reader.bind_run]
  simp only [pushTop]
  rw [Reader.bind_run, e]
  rfl

theorem ReadsAway.map {α β : Type} {p : Reader α} {t : Tab} {a : α} (f : α → β) (h : ReadsAway p t a) :
    ReadsAway (p >>= fun x => Pure.pure (f x)) t (f a) := by
  intro B base pos ext stk hh
  obtain ⟨ptr, e⟩ := h B base pos ext stk hh
  exact ⟨ptr, by rw [Reader.bind_run, e]; rfl⟩

/-! ### Anchors -/

theorem reads_anchor (a : Anchor) : ∃ bs, Anchor.tab a = .ok (.bytes bs) ∧ Reads Anchor.read bs a := by
  obtain ⟨x, y, p⟩ := a
  cases p with
  | none =>
    refine ⟨_, rfl, ?_⟩
    refine (reads_u16 1).bind ((reads_i16 x).bind ?_)
    exact Reads.bind' (reads_i16 y) (Reads.pure (⟨x, y, none⟩ : Anchor)) (by simp)
  | some p =>
    refine ⟨_, rfl, ?_⟩
    refine (reads_u16 2).bind ((reads_i16 x).bind ((reads_i16 y).bind ?_))
    exact Reads.map (fun p => (⟨x, y, some p⟩ : Anchor)) (reads_u16 p)

theorem writes_anchor (a : Anchor) : Writes Anchor.tab Anchor.read a := by
  obtain ⟨bs, h1, h2⟩ := reads_anchor a
  exact ⟨_, h1, h2.child⟩

theorem readsTab_anchorLink (vec : Bool) (a : AnchorLink) :
    ∃ t, optOff vec Anchor.tab a = .ok t ∧ ReadsTab readAnchorLink t a :=
  readsTab_optOff vec a (fun b _ => writes_anchor b)

theorem readsTab_countedTab {α : Type} {f : α → Res Tab} {p : Reader α} {l : List α} (hl : l.length ≤ 65535)
    (h : ∀ a ∈ l, ∃ t, f a = .ok t ∧ ReadsTab p t a) :
    ∃ t, countedTab f l = .ok t ∧ ReadsTab (readCounted p) t l := by
  obtain ⟨ts, h1, h2⟩ := mapL_ok (f := f) l (fun a t => ReadsTab p t a) h
  refine ⟨_, by simp only [countedTab, h1]; rfl, ReadsTab.bind (readsTab_u16 _) ?_⟩
  rw [ofNat16_toNat hl]
  exact readsTab_deCountedF h2

theorem writes_markArray {l : List MarkRec} (hl : l.length ≤ 65535) : Writes markArrayTab readMarkArray l := by
  obtain ⟨t, h1, h2⟩ := readsTab_countedTab (f := markRecTab) (p := readMarkRec) hl (fun r _ => by
    obtain ⟨t, e, ht⟩ := readsTab_anchorLink true r.2
    refine ⟨_, by simp only [markRecTab, e]; rfl, ?_⟩
    exact ReadsTab.bind (readsTab_u16 r.1) (ReadsTab.map (fun y => (r.1, y)) ht))
  exact ⟨t, h1, h2.inTable⟩

theorem readsTab_row {r : AnchorRow} : ∃ t, rowTab r = .ok t ∧ ReadsTab (readRow r.length) t r := by
  obtain ⟨ts, h1, h2⟩ := mapL_ok (f := optOff true Anchor.tab) r (fun a t => ReadsTab readAnchorLink t a)
    (fun a _ => readsTab_anchorLink true a)
  exact ⟨_, by simp only [rowTab, h1], readsTab_deCountedF h2⟩

theorem writes_rows {n : Nat} {l : List AnchorRow} (hl : l.length ≤ 65535) (h : ∀ r ∈ l, r.length = n) :
    Writes rowsTab (readRows n) l := by
  obtain ⟨t, h1, h2⟩ := readsTab_countedTab (f := rowTab) (p := readRow n) hl (fun r hr => by
    have := readsTab_row (r := r); rwa [h r hr] at this)
  exact ⟨t, h1, h2.inTable⟩

/-! ### Following offsets without coming back -/

theorem readsAway_jump {α : Type} {q : Reader α} {c : Tab} {a : α} (vec opt : Bool) (o : Option Nat)
    (h : ReadsChild q c a) : ReadsAway (do let off ← readU16; jump off; q) (.link .w16 vec opt o c .nil) a := by
  intro B base pos ext stk hh
  obtain ⟨off, e1, e2, h1, h2, h3, h4, h5, _, _⟩ := hh
  have h2' : off ≤ 65535 := h2
  have hto : (UInt16.ofNat off).toNat = off := ofNat16_toNat h2'
  have h3' : encU16 (UInt16.ofNat off) <+: B.drop pos := h3
  have e := reads_of_prefix' (reads_u16 (UInt16.ofNat off)) h3' (base :: stk) (by simp)
  obtain ⟨ptr, hptr⟩ := h B (base + off) e1 (base :: stk) h4 h5
  refine ⟨ptr, ?_⟩
  rw [Reader.bind_run, e]
  simp only [jump]
  rw [Reader.bind_run, Reader.bind_run]
  simp only [topOfTable, setPtr, hto]
  exact hptr

theorem readsAway_follow {α : Type} {q : Reader α} {c : Tab} {a : α} (vec opt : Bool) (o : Option Nat)
    (h : ReadsChild q c a) : ReadsAway (do let off ← readU16; followOffset off; q) (.link .w16 vec opt o c .nil) a := by
  intro B base pos ext stk hh
  obtain ⟨off, e1, e2, h1, h2, h3, h4, h5, _, _⟩ := hh
  have h2' : off ≤ 65535 := h2
  have hto : (UInt16.ofNat off).toNat = off := ofNat16_toNat h2'
  have h3' : encU16 (UInt16.ofNat off) <+: B.drop pos := h3
  have e := reads_of_prefix' (reads_u16 (UInt16.ofNat off)) h3' (base :: stk) (by simp)
  obtain ⟨ptr, hptr⟩ := h B (base + off) e1 (base :: stk) h4 h5
  refine ⟨ptr, ?_⟩
  rw [Reader.bind_run, e]
  simp only
  rw [Reader.bind_run, followOffset_ok (by rw [hto]; omega), hto]
  exact hptr

/-- The writer `f` succeeds on `a` (up to offset overflow) and the reader `q` gives `b` from any buffer that holds the
table written. -/
def WritesAs {α : Type} (f : α → Res Tab) (q : Reader α) (a b : α) : Prop := ∃ t, f a = .ok t ∧ ReadsChild q t b

/-! ### Value records -/

/-- Specification: no device at all. -/
def NoDevices (v : ValueRecord) : Prop := v.xPlaDevice = none ∧ v.yPlaDevice = none ∧ v.xAdvDevice = none ∧
  v.yAdvDevice = none

/-- The bytes of a record without devices. -/
def recBytes (v : ValueRecord) : Bytes := looseInt v.xPlacement ++ (looseInt v.yPlacement ++ (looseInt v.xAdvance ++
  looseInt v.yAdvance))

theorem looseRec_plain {v : ValueRecord} (h : NoDevices v) : looseRec v = .ok (recBytes v) := by
  obtain ⟨a, b, c, d, e, f, g, i⟩ := v
  obtain ⟨h1, h2, h3, h4⟩ := h
  simp only at h1 h2 h3 h4
  subst h1 h2 h3 h4
  simp [looseRec, looseDev, recBytes, bind, Res.bind, pure]

theorem reads_looseInt (x : Option Int16) : Reads (readIf x.isSome readI16) (looseInt x) x := by
  cases x with
  | none => exact Reads.pure none
  | some x => exact Reads.map some (reads_i16 x)

theorem reads_rec_plain {v : ValueRecord} (h : NoDevices v) : Reads (VR.read (flags v)) (recBytes v) v := by
  obtain ⟨a, b, c, d, e, f, g, i⟩ := v
  obtain ⟨h1, h2, h3, h4⟩ := h
  simp only at h1 h2 h3 h4
  subst h1 h2 h3 h4
  obtain ⟨h1, h2, h3, h4, h5, h6, h7, h8⟩ := has_flags ⟨a, b, c, d, none, none, none, none⟩
  unfold VR.read
  simp only at h1 h2 h3 h4 h5 h6 h7 h8
  rw [h1, h2, h3, h4, h5, h6, h7, h8]
  refine (reads_looseInt a).bind ((reads_looseInt b).bind ((reads_looseInt c).bind ?_))
  exact Reads.bind' (reads_looseInt d) (Reads.pure _) (by simp)

theorem inlinePair_plain {a b : ValueRecord} (pre : Bytes) (ha : NoDevices a) (hb : NoDevices b) :
    inlinePair pre a b = .ok (pre ++ (recBytes a ++ recBytes b)) := by
  obtain ⟨a1, a2, a3, a4, a5, a6, a7, a8⟩ := a
  obtain ⟨b1, b2, b3, b4, b5, b6, b7, b8⟩ := b
  obtain ⟨h1, h2, h3, h4⟩ := ha
  obtain ⟨g1, g2, g3, g4⟩ := hb
  simp only at h1 h2 h3 h4 g1 g2 g3 g4
  subst h1 h2 h3 h4 g1 g2 g3 g4
  cases a1 <;> cases a2 <;> cases a3 <;> cases a4 <;> cases b1 <;> cases b2 <;> cases b3 <;> cases b4 <;>
    simp [inlinePair, VR.tab, devTab, recBytes, looseInt, intTab, Tab.append, Off.toBytes, resolve, shallow, serDesc,
      bind, Res.bind, pure]

end FT
