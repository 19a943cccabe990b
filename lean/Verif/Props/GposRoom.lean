import Verif.Props.GsubRoom

/-! C69: how large a GPOS table may be that is written in any case. -/

namespace FT.Props
open FT FT.Lay FT.Off FT.Gpos FT.VR
open FT.Device (Device)

/-! ### The room that rules take, at most -/

/-- The device tables of a value record: each a header and two bytes for each value. -/
def devicesRoom (v : ValueRecord) : Nat :=
  ([v.xPlaDevice, v.yPlaDevice, v.xAdvDevice, v.yAdvDevice].map
    (fun d => d.elim 0 (fun d => d.elim 0 (fun d => 8 + 2 * d.deltaValues.length)))).sum

/-- The number of classes of marks: one more than the largest. -/
def classesOf (ms : Marks) : Nat := ms.foldl (fun n x => max n (x.2.1.toNat + 1)) 0

/-- One subtable of each kind. An anchor takes eight bytes, and its offset two. -/
def singlePosRoom (m : SinglePos) : Nat := 12 + (m.map (fun x => 18 + devicesRoom x.2)).sum
def pairPosRoom (m : PairPos) : Nat := 14 + (m.map (fun x => 40 + devicesRoom x.2.1 + devicesRoom x.2.2)).sum
def cursiveRoom (m : CursivePos) : Nat := 10 + 22 * m.length
def markRoom (p : MarkPos) : Nat := 24 + 14 * p.marks.length + (2 + 10 * classesOf p.marks) * p.bases.length
def markLigRoom (p : MarkLigPos) : Nat :=
  24 + 14 * p.marks.length + (p.ligatures.map (fun x => 6 + 10 * classesOf p.marks * x.2.length)).sum

/-- All subtables of a lookup, each with its offset. -/
def posRoom : Positioning → Nat
  | .single l => (l.map (fun m => 2 + singlePosRoom m)).sum
  | .pair l => (l.map (fun m => 2 + pairPosRoom m)).sum
  | .cursive l => (l.map (fun m => 2 + cursiveRoom m)).sum
  | .markToBase l => (l.map (fun p => 2 + markRoom p)).sum
  | .markToLig l => (l.map (fun p => 2 + markLigRoom p)).sum
  | .markToMark l => (l.map (fun p => 2 + markRoom p)).sum
  | .contextual l => (l.flatten.map (fun r => 2 + contextRoom r)).sum
  | .chained l => (l.flatten.map (fun r => 2 + chainRoom r)).sum

/-! ### They do not take more -/

theorem deltas_length (nb : Nat) : ∀ (l : List Int8) (tmp shift : Nat), (Device.encLoop nb tmp shift l).length ≤ 2 + 2 * l.length
  | [], tmp, shift => by
    rw [Device.encLoop]
    split
    · rw [encU16_length]; simp
    · simp
  | v :: l, tmp, shift => by
    rw [Device.encLoop]
    split
    · rw [List.length_append, encU16_length, List.length_cons]
      have := deltas_length nb l 0 16
      omega
    · have := deltas_length nb l (tmp ||| ((v.toInt % 2 ^ nb).toNat <<< (shift - nb))) (shift - nb)
      rw [List.length_cons]
      omega

theorem devTab_room : Room devTab (fun d => 2 + d.elim 0 (fun d => d.elim 0 (fun d => 8 + 2 * d.deltaValues.length))) := by
  intro d T e
  match d, e with
  | none, e => cases e; rw [total_nil]; exact Nat.zero_le _
  | some none, e => cases e; exact Nat.le_refl _
  | some (some d), e =>
    rw [devTab] at e
    cases e1 : Device.toBytes d with
    | err => rw [e1] at e; cases e
    | panic => rw [e1] at e; cases e
    | ok bs =>
      rw [e1] at e
      cases e
      rw [total_link, total_bytes]
      unfold Device.toBytes at e1
      dsimp only at e1
      split at e1
      · cases e1
      · cases e1
        simp only [List.length_append, encU16_length, Option.elim]
        have := deltas_length (2 ^ (d.deltaFormat.getD (Device.suggestFormat d.deltaValues)).toNat) d.deltaValues 0 16
        have hw : Width.w16.size = 2 := rfl
        omega

theorem intTab_room (x : Option Int16) : total (intTab x) ≤ 2 := by
  cases x with
  | none => exact Nat.zero_le _
  | some x => exact Nat.le_refl _

theorem vr_room : Room VR.tab (fun v => 16 + devicesRoom v) := by
  intro v T e
  rw [VR.tab] at e
  obtain ⟨a, h1, e⟩ := bind_tab e
  obtain ⟨b, h2, e⟩ := bind_tab e
  obtain ⟨c, h3, e⟩ := bind_tab e
  obtain ⟨d, h4, e⟩ := bind_tab e
  cases e
  have k1 := devTab_room _ _ h1
  have k2 := devTab_room _ _ h2
  have k3 := devTab_room _ _ h3
  have k4 := devTab_room _ _ h4
  have i1 := intTab_room v.xPlacement
  have i2 := intTab_room v.yPlacement
  have i3 := intTab_room v.xAdvance
  have i4 := intTab_room v.yAdvance
  simp only [total_append, devicesRoom, List.map_cons, List.map_nil, List.sum_cons, List.sum_nil]
  dsimp only at k1 k2 k3 k4
  omega

theorem devices_simplify (v : ValueRecord) : devicesRoom (simplify v) = devicesRoom v := rfl

theorem looseDev_length {d : Option (Option Device)} {b : Bytes} (h : looseDev d = .ok b) : b.length ≤ 2 := by
  match d, h with
  | none, h => cases h; simp
  | some none, h => cases h; simp
  | some (some _), h => cases h

theorem looseInt_length (x : Option Int16) : (looseInt x).length ≤ 2 := by
  cases x with
  | none => simp [looseInt]
  | some x => exact Nat.le_refl _

theorem loose_length : ∀ (vs : List ValueRecord) (bs : List Bytes), Res.mapL looseRec vs = .ok bs → bs.flatten.length ≤ 16 * vs.length
  | [], bs, e => by cases e; simp
  | v :: vs, bs, e => by
    rw [Res.mapL] at e
    cases e1 : looseRec v with
    | err => rw [e1] at e; cases e
    | panic => rw [e1] at e; cases e
    | ok b =>
      rw [e1] at e
      dsimp only at e
      cases e2 : Res.mapL looseRec vs with
      | err => rw [e2] at e; cases e
      | panic => rw [e2] at e; cases e
      | ok bs' =>
        rw [e2] at e
        cases e
        have ih := loose_length vs bs' e2
        rw [looseRec] at e1
        obtain ⟨a, h1, e1⟩ := bind_tab e1
        obtain ⟨b', h2, e1⟩ := bind_tab e1
        obtain ⟨c, h3, e1⟩ := bind_tab e1
        obtain ⟨d, h4, e1⟩ := bind_tab e1
        cases e1
        have k1 := looseDev_length h1
        have k2 := looseDev_length h2
        have k3 := looseDev_length h3
        have k4 := looseDev_length h4
        have i1 := looseInt_length v.xPlacement
        have i2 := looseInt_length v.yPlacement
        have i3 := looseInt_length v.xAdvance
        have i4 := looseInt_length v.yAdvance
        rw [List.flatten_cons, List.length_append, List.length_cons]
        simp only [List.length_append]
        omega

theorem coerce_length (vs : List ValueRecord) : (coerceToSame vs).length = vs.length := by
  unfold coerceToSame
  split
  · rfl
  · rw [List.length_map]

theorem singlePos_room {m : SinglePos} {low : Gpos.Sub} (e : m.toLow = .ok low) : taken Gpos.Sub.tab low ≤ singlePosRoom m := by
  apply taken_le
  intro T e'
  unfold SinglePos.toLow at e
  dsimp only at e
  unfold singlePosRoom
  split at e
  · cases m with
    | nil => cases e
    | cons x m =>
      cases e
      rw [Gpos.Sub.tab] at e'
      obtain ⟨c, h1, e'⟩ := bind_tab e'
      obtain ⟨t, h2, e'⟩ := bind_tab e'
      cases e'
      have k1 := optOff_room covTab_room _ c h1
      have k2 := vr_room _ t h2
      simp only [Option.elim, List.length_map, List.length_cons, devices_simplify] at k1 k2
      simp only [total_append, total_bytes, encU16_length, List.map_cons, List.sum_cons]
      rw [sum_add, sum_const]
      omega
  · split at e
    · cases e
    · rename_i v l hv
      cases e
      rw [Gpos.Sub.tab] at e'
      obtain ⟨c, h1, e'⟩ := bind_tab e'
      obtain ⟨bs, h2, e'⟩ := bind_tab e'
      cases e'
      have k1 := optOff_room covTab_room _ c h1
      have k2 := loose_length _ _ h2
      have hl : (v :: l).length = m.length := by rw [← hv, coerce_length, List.length_map]
      simp only [Option.elim, List.length_map] at k1
      rw [hl] at k2
      simp only [total_append, total_bytes, encU16_length, List.length_append]
      rw [sum_add, sum_const]
      omega

/-! ### Pairs -/

theorem sum_insert {κ α : Type} [Key κ] (φ : κ × α → Nat) (k : κ) (v : α) : ∀ m : List (κ × α),
    ((BMap.insert m k v).map φ).sum ≤ (m.map φ).sum + φ (k, v)
  | [] => by simp [BMap.insert]
  | (k', v') :: l => by
    rw [BMap.insert]
    split
    · simp only [List.map_cons, List.sum_cons]; omega
    · split
      · have := sum_insert φ k v l
        simp only [List.map_cons, List.sum_cons]
        omega
      · simp only [List.map_cons, List.sum_cons]; omega

theorem sum_replace {κ α : Type} [Key κ] (φ : α → Nat) (k : κ) (v : α) : ∀ m : List (κ × α),
    ((BMap.insert m k v).map (fun x => φ x.2)).sum + ((BMap.get? m k).elim 0 φ) = (m.map (fun x => φ x.2)).sum + φ v
  | [] => by simp [BMap.insert, BMap.get?]
  | (k', v') :: l => by
    rw [BMap.insert, BMap.get?]
    split
    · simp only [List.map_cons, List.sum_cons, Option.elim]; omega
    · split
      · have := sum_replace φ k v l
        simp only [List.map_cons, List.sum_cons]
        omega
      · simp only [List.map_cons, List.sum_cons, Option.elim]; omega

/-- What the pair sets take. -/
def setsRoom (s : SplitPairs) : Nat :=
  (s.map (fun x => 6 + (x.2.map (fun y => 34 + devicesRoom y.2.1 + devicesRoom y.2.2)).sum)).sum

theorem split_room : ∀ (m : PairPos) (out : SplitPairs),
    setsRoom (m.foldl (fun out x => BMap.insert out x.1.1 (BMap.insert ((BMap.get? out x.1.1).getD []) x.1.2 x.2)) out) ≤
      setsRoom out + (m.map (fun x => 40 + devicesRoom x.2.1 + devicesRoom x.2.2)).sum
  | [], out => by simp
  | x :: m, out => by
    rw [List.foldl_cons, List.map_cons, List.sum_cons]
    refine Nat.le_trans (split_room m _) ?_
    have h1 := sum_replace (fun l : List (UInt16 × (ValueRecord × ValueRecord)) =>
      6 + (l.map (fun y => 34 + devicesRoom y.2.1 + devicesRoom y.2.2)).sum) x.1.1
      (BMap.insert ((BMap.get? out x.1.1).getD []) x.1.2 x.2) out
    have h2 := sum_insert (fun y : UInt16 × (ValueRecord × ValueRecord) => 34 + devicesRoom y.2.1 + devicesRoom y.2.2)
      x.1.2 x.2 ((BMap.get? out x.1.1).getD [])
    unfold setsRoom
    cases e : BMap.get? out x.1.1 with
    | none =>
      rw [e] at h1 h2
      simp only [Option.elim, Option.getD, List.map_nil, List.sum_nil] at h1 h2 ⊢
      omega
    | some l =>
      rw [e] at h1 h2
      simp only [Option.elim, Option.getD] at h1 h2 ⊢
      omega

theorem inline_room {pre : Bytes} {a b : ValueRecord} {bs : Bytes} (e : inlinePair pre a b = .ok bs) :
    bs.length ≤ pre.length + 32 + devicesRoom a + devicesRoom b := by
  rw [inlinePair] at e
  obtain ⟨s, h1, e⟩ := bind_tab e
  obtain ⟨t, h2, e⟩ := bind_tab e
  rw [written_length e, total_append, total_append, total_bytes]
  have k1 := vr_room _ _ h1
  have k2 := vr_room _ _ h2
  dsimp only at k1 k2
  omega

theorem pairSet_room : Room pairSetTab (fun l => 2 + (l.map (fun y => 34 + devicesRoom y.2.1 + devicesRoom y.2.2)).sum) := by
  intro l T e
  rw [pairSetTab] at e
  have key : ∀ (l : List PairRec) (bs : List Bytes), Res.mapL (fun r => inlinePair (encU16 r.1) r.2.1 r.2.2) l = .ok bs →
      bs.flatten.length ≤ (l.map (fun y => 34 + devicesRoom y.2.1 + devicesRoom y.2.2)).sum := by
    intro l
    induction l with
    | nil => intro bs e; cases e; simp
    | cons r l ih =>
      intro bs e
      rw [Res.mapL] at e
      cases e1 : inlinePair (encU16 r.1) r.2.1 r.2.2 with
      | err => rw [e1] at e; cases e
      | panic => rw [e1] at e; cases e
      | ok b =>
        rw [e1] at e
        dsimp only at e
        cases e2 : Res.mapL (fun r => inlinePair (encU16 r.1) r.2.1 r.2.2) l with
        | err => rw [e2] at e; cases e
        | panic => rw [e2] at e; cases e
        | ok bs' =>
          rw [e2] at e
          cases e
          have := ih bs' e2
          have k := inline_room e1
          rw [encU16_length] at k
          simp only [List.flatten_cons, List.length_append, List.map_cons, List.sum_cons]
          omega
  cases e1 : Res.mapL (fun r => inlinePair (encU16 r.1) r.2.1 r.2.2) l with
  | err => rw [e1] at e; cases e
  | panic => rw [e1] at e; cases e
  | ok bs =>
    rw [e1] at e
    cases e
    rw [total_bytes, List.length_append, encU16_length]
    exact Nat.add_le_add_left (key l bs e1) 2

theorem pairPos_room (m : PairPos) : taken Gpos.Sub.tab m.toLow ≤ pairPosRoom m := by
  apply taken_le
  intro T e
  unfold PairPos.toLow at e
  dsimp only at e
  rw [Gpos.Sub.tab] at e
  obtain ⟨c, h1, e⟩ := bind_tab e
  obtain ⟨v, h2, e⟩ := bind_tab e
  cases e
  have k1 := optOff_room covTab_room _ c h1
  have k2 := offVec_room pairSet_room _ v h2
  simp only [Option.elim, List.length_map, List.map_map, Function.comp_def] at k1 k2
  have k3 := split_room (simplifyPairs m) []
  have k4 : ((simplifyPairs m).map (fun x => 40 + devicesRoom x.2.1 + devicesRoom x.2.2)).sum =
      (m.map (fun x => 40 + devicesRoom x.2.1 + devicesRoom x.2.2)).sum := by
    unfold simplifyPairs
    rw [List.map_map]
    rfl
  rw [k4] at k3
  have k5 : ((splitPairs (simplifyPairs m)).map
        (fun x => 2 + (2 + (x.2.map (fun y => 34 + devicesRoom y.2.1 + devicesRoom y.2.2)).sum))).sum +
      2 * (splitPairs (simplifyPairs m)).length = setsRoom (splitPairs (simplifyPairs m)) := by
    rw [Nat.add_comm, ← sum_const, ← sum_add]
    unfold setsRoom
    congr 1
    apply List.map_congr_left
    intro x _
    omega
  have k6 : setsRoom [] = 0 := rfl
  unfold splitPairs at k1 k2 k5
  simp only [total_append, total_bytes, encU16_length, pairPosRoom]
  omega

/-! ### Anchors -/

theorem anchor_room : Room Anchor.tab (fun _ => 8) := by
  intro a T e
  cases e
  rw [total_bytes]
  cases a.point <;> simp

theorem anchorLink_room : Room (optOff true Anchor.tab) (fun _ => 10) := by
  intro x T e
  have := optOff_room anchor_room x T e
  show total T ≤ 10
  cases x <;> simp only [Option.elim] at this <;> omega

theorem counted_room {α : Type} {f : α → Res Tab} {b : α → Nat} (h : Room f b) :
    Room (countedTab f) (fun l => 2 + (l.map b).sum) := by
  intro l T e
  rw [countedTab] at e
  cases e1 : Res.mapL f l with
  | err => rw [e1] at e; cases e
  | panic => rw [e1] at e; cases e
  | ok ts =>
    rw [e1] at e
    cases e
    rw [total_append, total_bytes, encU16_length]
    exact Nat.add_le_add_left (mapL_room h l ts e1) 2

theorem entryExit_room : Room entryExitTab (fun _ => 20) := by
  intro r T e
  rw [entryExitTab] at e
  obtain ⟨a, h1, e⟩ := bind_tab e
  obtain ⟨b, h2, e⟩ := bind_tab e
  cases e
  rw [total_append]
  exact Nat.add_le_add (anchorLink_room _ _ h1) (anchorLink_room _ _ h2)

theorem cursive_room (m : CursivePos) : taken Gpos.Sub.tab m.toLow ≤ cursiveRoom m := by
  apply taken_le
  intro T e
  unfold CursivePos.toLow at e
  rw [Gpos.Sub.tab] at e
  obtain ⟨c, h1, e⟩ := bind_tab e
  obtain ⟨v, h2, e⟩ := bind_tab e
  cases e
  have k1 := optOff_room covTab_room _ c h1
  have k2 := counted_room entryExit_room _ v h2
  simp only [Option.elim, List.length_map] at k1 k2
  rw [sum_const, List.length_map] at k2
  simp only [total_append, total_bytes, encU16_length, cursiveRoom]
  omega

theorem markRec_room : Room markRecTab (fun _ => 12) := by
  intro r T e
  rw [markRecTab] at e
  cases e1 : optOff true Anchor.tab r.2 with
  | err => rw [e1] at e; cases e
  | panic => rw [e1] at e; cases e
  | ok t =>
    rw [e1] at e
    cases e
    rw [total_append, total_bytes, encU16_length]
    exact Nat.add_le_add_left (anchorLink_room _ _ e1) 2

theorem row_room : Room rowTab (fun r => 10 * r.length) := by
  intro r T e
  rw [rowTab] at e
  cases e1 : Res.mapL (optOff true Anchor.tab) r with
  | err => rw [e1] at e; cases e
  | panic => rw [e1] at e; cases e
  | ok ts =>
    rw [e1] at e
    cases e
    have := mapL_room anchorLink_room r ts e1
    rw [sum_const] at this
    exact this

theorem classCount_classes : ∀ (ms : Marks) (n k : Nat), classCount ms n = .ok k →
    ms.foldl (fun n x => max n (x.2.1.toNat + 1)) n = k
  | [], n, k, e => by cases e; rfl
  | x :: ms, n, k, e => by
    rw [classCount] at e
    split at e
    · cases e
    · exact classCount_classes ms _ k e

theorem row_length (n : Nat) (b : AnchorMap) : (anchorRow n b).length = n := by
  unfold anchorRow
  rw [List.length_map, List.length_range]

theorem markTab_room {p : MarkPos} {n : Nat} (hn : classCount p.marks 0 = .ok n) {f k : UInt16} {T : Tab}
    (e : markTab f (some (p.marks.map Prod.fst)) (some (p.bases.map Prod.fst)) k (some (markRecs p.marks))
      (some (p.bases.map (fun x => anchorRow n x.2))) = .ok T) : total T ≤ markRoom p := by
  rw [markTab] at e
  obtain ⟨m, h1, e⟩ := bind_tab e
  obtain ⟨b, h2, e⟩ := bind_tab e
  obtain ⟨x, h3, e⟩ := bind_tab e
  obtain ⟨y, h4, e⟩ := bind_tab e
  cases e
  have k1 := optOff_room covTab_room _ _ h1
  have k2 := optOff_room covTab_room _ _ h2
  have k3 := optOff_room (counted_room markRec_room) _ _ h3
  have k4 := optOff_room (counted_room row_room) _ _ h4
  simp only [Option.elim, List.length_map, List.map_map, Function.comp_def, row_length, markRecs] at k1 k2 k3 k4
  rw [sum_const] at k3 k4
  have hc := classCount_classes _ _ _ hn
  simp only [total_append, total_bytes, encU16_length, markRoom, classesOf, hc]
  rw [Nat.add_mul]
  omega

theorem markPos_room {p : MarkPos} {low : Gpos.Sub}
    {mk : UInt16 → Cov → Cov → UInt16 → Option (List MarkRec) → Option (List AnchorRow) → Gpos.Sub}
    (hmk : ∀ f m b n ma ba, (mk f m b n ma ba).tab = markTab f m b n ma ba)
    (e : p.toLow mk = .ok low) : taken Gpos.Sub.tab low ≤ markRoom p := by
  apply taken_le
  intro T e'
  rw [MarkPos.toLow] at e
  obtain ⟨n, hn, e⟩ := bind_tab e
  cases e
  rw [hmk] at e'
  exact markTab_room hn e'

theorem markLig_room {p : MarkLigPos} {low : Gpos.Sub} (e : p.toLow = .ok low) : taken Gpos.Sub.tab low ≤ markLigRoom p := by
  apply taken_le
  intro T e'
  rw [MarkLigPos.toLow] at e
  obtain ⟨n, hn, e⟩ := bind_tab e
  cases e
  rw [Gpos.Sub.tab] at e'
  obtain ⟨m, h1, e'⟩ := bind_tab e'
  obtain ⟨b, h2, e'⟩ := bind_tab e'
  obtain ⟨x, h3, e'⟩ := bind_tab e'
  obtain ⟨y, h4, e'⟩ := bind_tab e'
  cases e'
  have k1 := optOff_room covTab_room _ _ h1
  have k2 := optOff_room covTab_room _ _ h2
  have k3 := optOff_room (counted_room markRec_room) _ _ h3
  have k4 := optOff_room (offVec_room (counted_room row_room)) _ _ h4
  simp only [Option.elim, List.length_map, List.map_map, Function.comp_def, row_length, markRecs, sum_const] at k1 k2 k3 k4
  have hc := classCount_classes _ _ _ hn
  simp only [total_append, total_bytes, encU16_length, markLigRoom, classesOf, hc]
  rw [sum_add, sum_const] at k4 ⊢
  rw [sum_add, sum_const] at k4
  omega

theorem subsOf_room {α : Type} {f : α → Res Gpos.Sub} {r : α → Nat}
    (h : ∀ a low, f a = .ok low → taken Gpos.Sub.tab low ≤ r a) (l : List α) {ss : List Gpos.SubX} (e : subsOf f l = .ok ss) :
    (ss.map (fun x => 2 + taken Gpos.SubX.tab x)).sum ≤ (l.map (fun a => 2 + r a)).sum := by
  rw [subsOf] at e
  cases e1 : Res.mapL f l with
  | err => rw [e1] at e; cases e
  | panic => rw [e1] at e; cases e
  | ok ls =>
    rw [e1] at e
    cases e
    rw [List.map_map]
    revert ls
    induction l with
    | nil => intro ls e; cases e; exact Nat.le_refl _
    | cons a l ih =>
      intro ls e
      rw [Res.mapL] at e
      cases e1 : f a with
      | err => rw [e1] at e; cases e
      | panic => rw [e1] at e; cases e
      | ok low =>
        rw [e1] at e
        dsimp only at e
        cases e2 : Res.mapL f l with
        | err => rw [e2] at e; cases e
        | panic => rw [e2] at e; cases e
        | ok ls' =>
          rw [e2] at e
          cases e
          simp only [List.map_cons, List.sum_cons]
          exact Nat.add_le_add (Nat.add_le_add_left (h a low e1) 2) (ih ls' e2)

theorem pos_room (s : Positioning) {ss : List Gpos.SubX} (e : s.subs = .ok ss) :
    (ss.map (fun x => 2 + taken Gpos.SubX.tab x)).sum ≤ posRoom s := by
  cases s with
  | single l => exact subsOf_room (fun a low h => singlePos_room h) l e
  | pair l =>
    cases e
    rw [List.map_map]
    exact sum_le (fun m _ => Nat.add_le_add_left (pairPos_room m) 2)
  | cursive l =>
    cases e
    rw [List.map_map]
    exact sum_le (fun m _ => Nat.add_le_add_left (cursive_room m) 2)
  | markToBase l => exact subsOf_room (fun a low h => markPos_room (fun _ _ _ _ _ _ => rfl) h) l e
  | markToLig l => exact subsOf_room (fun a low h => markLig_room h) l e
  | markToMark l => exact subsOf_room (fun a low h => markPos_room (fun _ _ _ _ _ _ => rfl) h) l e
  | contextual l =>
    cases e
    rw [List.map_map]
    exact sum_le (fun m _ => Nat.add_le_add_left (context_room m) 2)
  | chained l =>
    cases e
    rw [List.map_map]
    exact sum_le (fun m _ => Nat.add_le_add_left (chain_room m) 2)

/-- **C69** (small tables). A GPOS table whose contents fit the format and need at most 65535 bytes, counting generously, is
written, and with at most as many bytes. -/
theorem C69_small (g : GPOS) (h : GposOk g) (hr : tableRoom posRoom g ≤ 65535) :
    ∃ bs, GPOS.toBytes g = .ok bs ∧ bs.length ≤ tableRoom posRoom g := by
  obtain ⟨low, tab, e1, e2, _, h2⟩ := C69_writes g h
  have ht := layout_room (r := posRoom) (fun l hl ss e => pos_room l.rule e) e1 e2
  obtain ⟨bs, hb⟩ := h2 (by omega)
  refine ⟨bs, hb, ?_⟩
  have e3 : Off.toBytes tab = .ok bs := by
    unfold GPOS.toBytes GposGsub.toBytes at hb
    rw [e1] at hb
    simp only [Res.ok_bind] at hb
    rw [e2] at hb
    exact hb
  rw [written_length e3]
  exact ht

/-- The sample table with a lookup of each of several kinds needs at most 320 bytes, and is written. -/
example : tableRoom posRoom sampleGpos = 320 ∧ ∃ bs, GPOS.toBytes sampleGpos = .ok bs ∧ bs.length ≤ 320 := by
  have h : tableRoom posRoom sampleGpos = 320 := by decide +kernel
  have := C69_small sampleGpos sampleGpos_ok (by omega)
  rw [h] at this
  exact ⟨h, this⟩

end FT.Props
