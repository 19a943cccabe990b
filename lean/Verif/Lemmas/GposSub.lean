import Verif.Lemmas.Gpos

/-!
GPOS subtables as wholes.
-/

namespace FT
open Reader FT.Off FT.Props FT.Lay FT.Gpos FT.VR

theorem reads_deCountedF {α : Type} {p : Reader α} : ∀ {l : List α} {bs : List Bytes},
    List.Forall₂ (fun a b => Reads p b a) l bs → Reads (deCounted p l.length) bs.flatten l
  | _, _, .nil => Reads.pure []
  | _, _, .cons (a := a) h1 h2 => Reads.bind h1 (Reads.map (fun l => a :: l) (reads_deCountedF h2))

/-- Two adjacent runs of bytes, the first not empty. -/
theorem Reads.tab2 {α : Type} {p : Reader α} {bs cs : Bytes} {a : α} (h : Reads p (bs ++ cs) a) (hne : 0 < bs.length) :
    ReadsTab p ((Tab.bytes bs).append (.bytes cs)) a := by
  intro B base pos ext stk hh
  obtain ⟨h1, h2, _⟩ := hh
  have hp : bs ++ cs <+: B.drop pos := by
    obtain ⟨r, e⟩ := h1
    have e2 : B.drop (pos + bs.length) = r := by
      rw [← List.drop_drop, ← e, List.drop_left]
    rw [e2] at h2
    obtain ⟨r', e'⟩ := h2
    exact ⟨r', by rw [List.append_assoc, e', e]⟩
  rw [reads_of_prefix' h hp (base :: stk) (by rw [List.length_append]; omega)]
  simp [size, Tab.append, Tab.bytes]

theorem readsAway_jumpMap {α β : Type} {q : Reader α} {c : Tab} {a : α} (k : α → β) (vec opt : Bool) (o : Option Nat)
    (h : ReadsChild q c a) :
    ReadsAway (do let off ← readU16; jump off; let x ← q; return k x) (.link .w16 vec opt o c .nil) (k a) := by
  intro B base pos ext stk hh
  obtain ⟨ptr, e⟩ := readsAway_jump vec opt o h B base pos ext stk hh
  refine ⟨ptr, ?_⟩
  rw [Reader.bind_run] at e ⊢
  cases hr : readU16 ⟨B, pos, base :: stk⟩ with
  | ok y =>
    obtain ⟨off, r⟩ := y
    rw [hr] at e
    simp only at e ⊢
    rw [Reader.bind_run] at e ⊢
    cases hj : jump off r with
    | ok z =>
      obtain ⟨_, r'⟩ := z
      rw [hj] at e
      simp only at e ⊢
      rw [Reader.bind_run, e]
      rfl
    | err => rw [hj] at e; cases e
    | panic => rw [hj] at e; cases e
  | err => rw [hr] at e; cases e
  | panic => rw [hr] at e; cases e

theorem readsAway_followMap {α β : Type} {q : Reader α} {c : Tab} {a : α} (k : α → β) (vec opt : Bool) (o : Option Nat)
    (h : ReadsChild q c a) :
    ReadsAway (do let off ← readU16; followOffset off; let x ← q; return k x) (.link .w16 vec opt o c .nil) (k a) := by
  intro B base pos ext stk hh
  obtain ⟨ptr, e⟩ := readsAway_follow vec opt o h B base pos ext stk hh
  refine ⟨ptr, ?_⟩
  rw [Reader.bind_run] at e ⊢
  cases hr : readU16 ⟨B, pos, base :: stk⟩ with
  | ok y =>
    obtain ⟨off, r⟩ := y
    rw [hr] at e
    simp only at e ⊢
    rw [Reader.bind_run] at e ⊢
    cases hj : followOffset off r with
    | ok z =>
      obtain ⟨_, r'⟩ := z
      rw [hj] at e
      simp only at e ⊢
      rw [Reader.bind_run, e]
      rfl
    | err => rw [hj] at e; cases e
    | panic => rw [hj] at e; cases e
  | err => rw [hr] at e; cases e
  | panic => rw [hr] at e; cases e

/-! ### Pair sets -/

/-- A record that one value format can express. -/
def FitsFormat (f : UInt16) (v : ValueRecord) : Prop := NoDevices v ∧ flags v = f

theorem reads_fits {f : UInt16} {v : ValueRecord} (h : FitsFormat f v) : Reads (VR.read f) (recBytes v) v := by
  have := reads_rec_plain h.1
  rwa [h.2] at this

def PairSetOk (f g : UInt16) (l : List PairRec) : Prop :=
  l.length ≤ 65535 ∧ ∀ r ∈ l, FitsFormat f r.2.1 ∧ FitsFormat g r.2.2

theorem writes_pairSet {f g : UInt16} {l : List PairRec} (h : PairSetOk f g l) :
    ∃ t, pairSetTab l = .ok t ∧ ReadsChild (readCounted (readPairRec f g)) t l := by
  obtain ⟨bs, h1, h2⟩ := mapL_ok (f := fun r : PairRec => inlinePair (encU16 r.1) r.2.1 r.2.2) l
    (fun r b => Reads (readPairRec f g) b r) (fun r hr => by
      obtain ⟨ha, hb⟩ := h.2 r hr
      refine ⟨_, inlinePair_plain _ ha.1 hb.1, ?_⟩
      refine (reads_u16 r.1).bind ((reads_fits ha).bind ?_)
      exact Reads.map (fun b => (r.1, r.2.1, b)) (reads_fits hb))
  refine ⟨_, by simp only [pairSetTab, h1]; rfl, Reads.child ?_⟩
  refine Reads.bind (reads_u16 _) ?_
  rw [ofNat16_toNat h.1]
  exact reads_deCountedF h2

theorem reads_pairSets {f g : UInt16} (B : Bytes) (base : Nat) (stk : List Nat) : ∀ {ls : List (List PairRec)}
    {cs : List Tab}, List.Forall₂ (fun l c => ReadsChild (readCounted (readPairRec f g)) c l) ls cs →
    ∀ (pos : Nat) (ext : List (Nat × Nat)),
    Holds B (Tab.concat (cs.map (fun c => Tab.link .w16 true false none c .nil))) base pos ext →
    ∃ offs : List UInt16, offs.length = ls.length ∧
      deCounted readU16 ls.length ⟨B, pos, base :: stk⟩ = .ok (offs, ⟨B, pos + 2 * ls.length, base :: stk⟩) ∧
      ∀ gs : List UInt16, gs.length = ls.length → ∀ ptr, ∃ ptr', readPairSets f g (gs.zip offs) ⟨B, ptr, base :: stk⟩ =
        .ok (ls.map some, ⟨B, ptr', base :: stk⟩)
  | _, _, .nil, pos, _, _ => ⟨[], rfl, rfl, fun gs hg ptr => ⟨ptr, by
      have : gs = [] := by simpa using hg
      subst this; rfl⟩⟩
  | _, _, .cons (a := l) (b := c) (l₁ := ls) (l₂ := cs) h1 h2, pos, ext, hh => by
    obtain ⟨off, e1, e2, k1, k2, k3, k4, k5, k6, _⟩ := hh
    have k2' : off ≤ 65535 := k2
    have hto : (UInt16.ofNat off).toNat = off := ofNat16_toNat k2'
    have k3' : encU16 (UInt16.ofNat off) <+: B.drop pos := k3
    have e := reads_of_prefix' (reads_u16 (UInt16.ofNat off)) k3' (base :: stk) (by simp)
    obtain ⟨offs, g1, g2, g3⟩ := reads_pairSets B base stk h2 (pos + 2) e2 k6
    refine ⟨UInt16.ofNat off :: offs, by simp [g1], ?_, ?_⟩
    · rw [List.length_cons]
      simp only [deCounted]
      rw [Reader.bind_run, e]
      simp only
      rw [Reader.bind_run]
      have hl : (encU16 (UInt16.ofNat off)).length = 2 := by simp
      rw [hl, g2]
      simp only [Reader.pure_run]
      congr 3
      omega
    · intro gs hg ptr
      cases gs with
      | nil => simp at hg
      | cons y gs =>
        obtain ⟨p1, q1⟩ := h1 B (base + off) e1 (base :: stk) k4 k5
        obtain ⟨p2, q2⟩ := g3 gs (by simpa using hg) p1
        refine ⟨p2, ?_⟩
        simp only [List.zip_cons_cons, readPairSets]
        rw [Reader.bind_run]
        have : readPairSet f g (UInt16.ofNat off) ⟨B, ptr, base :: stk⟩ = .ok (some l, ⟨B, p1, base :: stk⟩) := by
          unfold readPairSet
          rw [Reader.bind_run]
          simp only [topOfTable]
          rw [Reader.bind_run]
          simp only [setPtr, hto]
          rw [Reader.bind_run, q1]
          rfl
        rw [this]
        simp only
        rw [Reader.bind_run, q2]
        rfl

/-! ### What can be written -/

/-- Subtables that survive serialization. -/
def PosOk : Gpos.Sub → Prop
  | .p1_1 cov f v => CovLinkOk cov ∧ flags v = f ∧ v.xPlaDevice.isSome = v.yPlaDevice.isSome ∧
      ∀ d, some (some d) ∈ devices v → DeviceOk d
  | .p1_2 pf cov f vs => pf = 2 ∧ CovLinkOk cov ∧ vs.length ≤ 65535 ∧ ∀ v ∈ vs, FitsFormat f v
  | .p2_1 cov f g sets => ∃ (gs : List UInt16) (ls : List (List PairRec)), cov = some gs ∧ CovOk gs ∧ sets = ls.map some ∧ gs.length = ls.length ∧
      ∀ l ∈ ls, PairSetOk f g l
  | .p2_2 cov f g k1 k2 n1 n2 rows => CovLinkOk cov ∧ ClassLinkOk k1 ∧ ClassLinkOk k2 ∧ rows.length = n1.toNat ∧
      (∀ r ∈ rows, r.length = n2.toNat) ∧ ∀ r ∈ rows, ∀ c ∈ r, FitsFormat f c.1 ∧ FitsFormat g c.2
  | .p3_1 _ cov recs => CovLinkOk cov ∧ recs.length ≤ 65535
  | .p4_1 _ m b n ma ba => CovLinkOk m ∧ CovLinkOk b ∧ (∀ l, ma = some l → l.length ≤ 65535) ∧
      ∃ rows, ba = some rows ∧ rows.length ≤ 65535 ∧ ∀ r ∈ rows, r.length = n.toNat
  | .p5_1 _ m l n ma la => CovLinkOk m ∧ CovLinkOk l ∧ (∀ l, ma = some l → l.length ≤ 65535) ∧
      (la = some [] ∨ ∃ rows, la = some [some rows] ∧ rows.length ≤ 65535 ∧ ∀ r ∈ rows, r.length = n.toNat)
  | .p6_1 _ m b n ma ba => CovLinkOk m ∧ CovLinkOk b ∧ (∀ l, ma = some l → l.length ≤ 65535) ∧
      ∃ rows, ba = some rows ∧ rows.length ≤ 65535 ∧ ∀ r ∈ rows, r.length = n.toNat
  | .ctx s => FT.SubOk s ∧ (s.type = 5 ∨ s.type = 6)

/-- The lookup type of a subtable. -/
def posType : Gpos.Sub → Nat
  | .p1_1 .. => 1
  | .p1_2 .. => 1
  | .p2_1 .. => 2
  | .p2_2 .. => 2
  | .p3_1 .. => 3
  | .p4_1 .. => 4
  | .p5_1 .. => 5
  | .p6_1 .. => 6
  | .ctx s => s.type + 2

/-- What is read back: format 2 of single positioning is stored as format 1. -/
def posBack : Gpos.Sub → Gpos.Sub
  | .p1_2 _ cov f vs => .p1_2 1 cov f vs
  | s => s

theorem readsTab_posCov {c : Cov} (h : CovLinkOk c) :
    ∃ t, optOff false covTab c = .ok t ∧ ReadsTab Gpos.readCov t c :=
  readsTab_optOff false c (fun gs e => writes_cov (h gs e))

theorem readsTab_posCls {c : Option ClassMap} (h : ClassLinkOk c) :
    ∃ t, optOff false classTab c = .ok t ∧ ReadsTab Gpos.readCls t c :=
  readsTab_optOff false c (fun m e => writes_class (h m e))

theorem optOff_some {α : Type} {f : α → Res Tab} {vec : Bool} {a : α} {t : Tab} (h : f a = .ok t) :
    optOff vec f (some a) = .ok (.link .w16 vec false none t .nil) := by simp only [optOff, h]

theorem writes_mark {mk : UInt16 → Cov → Cov → UInt16 → Option (List MarkRec) → Option (List AnchorRow) → Gpos.Sub}
    {f : UInt16} {m b : Cov} {n : UInt16} {ma : Option (List MarkRec)} {rows : List AnchorRow}
    (hm : CovLinkOk m) (hb : CovLinkOk b) (ha : ∀ l, ma = some l → l.length ≤ 65535) (hl : rows.length ≤ 65535)
    (hr : ∀ r ∈ rows, r.length = n.toNat) :
    ∃ t, markTab f m b n ma (some rows) = .ok t ∧ ReadsChild (readMark mk) t (mk f m b n ma (some rows)) := by
  obtain ⟨t1, a1, b1⟩ := readsTab_posCov hm
  obtain ⟨t2, a2, b2⟩ := readsTab_posCov hb
  obtain ⟨t3, a3, b3⟩ := readsTab_optOff (f := markArrayTab) (q := readMarkArray) false ma
    (fun l e => writes_markArray (ha l e))
  obtain ⟨t4, a4, b4⟩ := writes_rows hl hr
  refine ⟨_, by simp only [markTab, a1, a2, a3, optOff_some a4, bind, Res.bind]; rfl, ReadsAway.inTable ?_⟩
  refine (readsTab_u16 f).bindAway (b1.bindAway (b2.bindAway ((readsTab_u16 n).bindAway (b3.bindAway ?_))))
  exact readsAway_jumpMap (fun rows => mk f m b n ma (some rows)) false false none b4

theorem mapL_optOff {α : Type} {f : α → Res Tab} : ∀ {ls : List α} {cs : List Tab}, Res.mapL f ls = .ok cs →
    Res.mapL (optOff true f) (ls.map some) = .ok (cs.map (fun c => Tab.link .w16 true false none c .nil))
  | [], cs, h => by cases h; rfl
  | a :: ls, cs, h => by
    cases ha : f a with
    | ok t =>
      cases hl : Res.mapL f ls with
      | ok ts =>
        simp only [Res.mapL, ha, hl] at h
        cases h
        simp only [List.map_cons, Res.mapL, optOff, ha, mapL_optOff hl]
      | err => simp only [Res.mapL, ha, hl] at h; cases h
      | panic => simp only [Res.mapL, ha, hl] at h; cases h
    | err => simp only [Res.mapL, ha] at h; cases h
    | panic => simp only [Res.mapL, ha] at h; cases h

theorem writes_pos (s : Gpos.Sub) (h : PosOk s) : WritesAs Gpos.Sub.tab (Gpos.Sub.read (posType s)) s (posBack s) := by
  cases s with
  | p1_1 cov f v =>
    obtain ⟨h1, rfl, h3, h4⟩ := h
    obtain ⟨c, a1, b1⟩ := readsTab_posCov h1
    obtain ⟨t, a2, _, b2⟩ := C10_roundtrip v h3 h4
    refine ⟨_, by simp only [Gpos.Sub.tab, a1, a2, bind, Res.bind]; rfl, ReadsTab.inTable ?_⟩
    refine (readsTab_u16 1).bind (b1.bind ((readsTab_u16 _).bind ?_))
    exact b2.map (fun v' => Gpos.Sub.p1_1 cov (flags v) v')
  | p1_2 pf cov f vs =>
    obtain ⟨rfl, h1, h2, h3⟩ := h
    obtain ⟨c, a1, b1⟩ := readsTab_posCov h1
    obtain ⟨bs, a2, b2⟩ := mapL_ok (f := looseRec) vs (fun v b => Reads (VR.read f) b v)
      (fun v hv => ⟨_, looseRec_plain (h3 v hv).1, reads_fits (h3 v hv)⟩)
    refine ⟨_, by simp only [Gpos.Sub.tab, a1, a2, bind, Res.bind]; rfl, ReadsTab.inTable ?_⟩
    refine (readsTab_u16 2).bind (b1.bind ((readsTab_u16 _).bind (Reads.tab ?_ (by simp; omega))))
    refine Reads.bind (reads_u16 _) ?_
    rw [ofNat16_toNat h2]
    exact (reads_deCountedF b2).map (fun vs => Gpos.Sub.p1_2 1 cov f vs)
  | p2_1 cov f g sets =>
    obtain ⟨gs, ls, rfl, h1, rfl, h2, h3⟩ := h
    obtain ⟨c, a1, b1⟩ := readsTab_posCov (c := some gs) (by intro x e; cases e; exact h1)
    obtain ⟨cs, a2, b2⟩ := mapL_ok (f := pairSetTab) ls
      (fun l t => ReadsChild (readCounted (readPairRec f g)) t l) (fun l hl => writes_pairSet (h3 l hl))
    refine ⟨_, by simp only [Gpos.Sub.tab, a1, offVec, mapL_optOff a2, bind, Res.bind]; rfl, ReadsAway.inTable ?_⟩
    refine (readsTab_u16 1).bindAway (b1.bindAway ((readsTab_u16 f).bindAway ((readsTab_u16 g).bindAway ?_)))
    refine (readsTab_u16 _).bindAway ?_
    have hl : ls.length ≤ 65535 := by rw [← h2]; exact h1.1
    rw [List.length_map, ofNat16_toNat hl]
    intro B base pos ext stk hh
    obtain ⟨offs, g1, g2, g3⟩ := reads_pairSets B base stk b2 pos ext hh
    obtain ⟨ptr, e⟩ := g3 gs h2 (pos + 2 * ls.length)
    refine ⟨ptr, ?_⟩
    rw [Reader.bind_run, g2]
    simp only [unwrapCov]
    rw [Reader.bind_run]
    simp only [Reader.pure_run]
    rw [Reader.bind_run, e]
    rfl
  | p2_2 cov f g k1 k2 n1 n2 rows =>
    obtain ⟨h1, h2, h3, h4, h5, h6⟩ := h
    obtain ⟨c, a1, b1⟩ := readsTab_posCov h1
    obtain ⟨x, a2, b2⟩ := readsTab_posCls h2
    obtain ⟨y, a3, b3⟩ := readsTab_posCls h3
    obtain ⟨bs, a4, b4⟩ := mapL_ok (f := classRowBytes) rows
      (fun r b => Reads (deCounted (readClassCell f g) n2.toNat) b r) (fun r hr => by
        obtain ⟨cs, a5, b5⟩ := mapL_ok (f := fun r : ValueRecord × ValueRecord => inlinePair [] r.1 r.2) r
          (fun c b => Reads (readClassCell f g) b c) (fun c hc => by
            obtain ⟨ha, hb⟩ := h6 r hr c hc
            refine ⟨_, inlinePair_plain _ ha.1 hb.1, ?_⟩
            exact (reads_fits ha).bind (Reads.map (fun b => (c.1, b)) (reads_fits hb)))
        refine ⟨cs.flatten, by simp only [classRowBytes, a5], ?_⟩
        rw [← h5 r hr]
        exact reads_deCountedF b5)
    refine ⟨_, by simp only [Gpos.Sub.tab, a1, a2, a3, a4, bind, Res.bind]; rfl, ReadsTab.inTable ?_⟩
    refine (readsTab_u16 2).bind (b1.bind ((readsTab_u16 f).bind ((readsTab_u16 g).bind
      (b2.bind (b3.bind ((readsTab_u16 n1).bind (Reads.tab2 ?_ (by simp))))))))
    refine Reads.bind (reads_u16 n2) ?_
    have := reads_deCountedF b4
    rw [h4] at this
    exact this.map (fun rows => Gpos.Sub.p2_2 cov f g k1 k2 n1 n2 rows)
  | p3_1 f cov recs =>
    obtain ⟨h1, h2⟩ := h
    obtain ⟨c, a1, b1⟩ := readsTab_posCov h1
    obtain ⟨t, a2, b2⟩ := readsTab_countedTab (f := entryExitTab) (p := readEntryExit) h2 (fun r _ => by
      obtain ⟨u, e1, k1⟩ := readsTab_anchorLink true r.1
      obtain ⟨w, e2, k2⟩ := readsTab_anchorLink true r.2
      exact ⟨_, by simp only [entryExitTab, e1, e2, bind, Res.bind]; rfl, k1.bind (k2.map (fun b => (r.1, b)))⟩)
    refine ⟨_, by simp only [Gpos.Sub.tab, a1, a2, bind, Res.bind]; rfl, ReadsTab.inTable ?_⟩
    exact (readsTab_u16 f).bind (b1.bind (b2.map (fun l => Gpos.Sub.p3_1 f cov l)))
  | p4_1 f m b n ma ba =>
    obtain ⟨h1, h2, h3, rows, rfl, h4, h5⟩ := h
    exact writes_mark h1 h2 h3 h4 h5
  | p6_1 f m b n ma ba =>
    obtain ⟨h1, h2, h3, rows, rfl, h4, h5⟩ := h
    exact writes_mark h1 h2 h3 h4 h5
  | p5_1 f m l n ma la =>
    obtain ⟨h1, h2, h3, h4⟩ := h
    obtain ⟨t1, a1, b1⟩ := readsTab_posCov h1
    obtain ⟨t2, a2, b2⟩ := readsTab_posCov h2
    obtain ⟨t3, a3, b3⟩ := readsTab_optOff (f := markArrayTab) (q := readMarkArray) false ma
      (fun l e => writes_markArray (h3 l e))
    have key : ∃ ls t4, la = some ls ∧ ligArrayTab ls = .ok t4 ∧
        ReadsChild (inTable (readCounted (readLigAttach n.toNat))) t4 ls := by
      rcases h4 with rfl | ⟨rows, rfl, h4, h5⟩
      · refine ⟨[], _, rfl, rfl, ReadsTab.inTable ?_⟩
        exact (readsTab_u16 0).bind (ReadsTab.pure [])
      · obtain ⟨t4, a4, b4⟩ := writes_rows h4 h5
        refine ⟨[some rows], _, rfl, by simp only [ligArrayTab, offVec, Res.mapL, optOff, a4]; rfl, ReadsAway.inTable ?_⟩
        refine (readsTab_u16 1).bindAway ?_
        have := readsAway_followMap some true false none b4
        exact this.map (fun a => [a])
    obtain ⟨ls, t4, rfl, a4, b4⟩ := key
    refine ⟨_, by simp only [Gpos.Sub.tab, a1, a2, a3, optOff_some a4, bind, Res.bind]; rfl, ReadsAway.inTable ?_⟩
    refine (readsTab_u16 f).bindAway (b1.bindAway (b2.bindAway ((readsTab_u16 n).bindAway (b3.bindAway ?_))))
    exact readsAway_followMap (fun la => Gpos.Sub.p5_1 f m l n ma (some la)) false false none b4
  | ctx s =>
    obtain ⟨h1, h2⟩ := h
    obtain ⟨t, a1, b1⟩ := writes_sub s h1
    refine ⟨t, a1, ?_⟩
    have hr : Gpos.Sub.read (posType (.ctx s)) = readCtx s.type := by
      rcases h2 with e | e <;> simp only [posType, e] <;> rfl
    rw [hr]
    intro B base ext stk hb hh
    obtain ⟨ptr, e⟩ := b1 B base ext stk hb hh
    refine ⟨ptr, ?_⟩
    unfold readCtx
    rw [Reader.bind_run, e]
    rfl

end FT
