import Verif.Props.SpecLists
import Verif.Props.GsubLigature
import Verif.Model.GsubTable

/-!
# C82: the bytes of the GSUB table

A written GSUB table, compared with the OpenType specification: every substitution is found where the specification
says.
-/

namespace FT.Props
open FT FT.Off FT.Lay FT.Gsub

/-! ### Specification -/

/-- Single substitution: one number to be added to the glyphs (format 1), or a list of substitutes (format 2). -/
def SingleAt (m : SingleSubst) : Bytes → Nat → Prop := fun B start =>
  (∃ d : ℤ, (∀ x ∈ m, (x.2.toNat : ℤ) = (x.1.toNat + d) % 65536) ∧
    At [.num 2 1, .ref 2 (CoverageAt (m.map Prod.fst)), .num 2 d] B start) ∨
  At ([.num 2 2, .ref 2 (CoverageAt (m.map Prod.fst))] ++ wordRows (m.map Prod.snd)) B start

/-- Multiple and alternate substitution: a list of glyphs for each glyph. -/
def multiRows (m : MultiSubst) : List Cell :=
  [.num 2 1, .ref 2 (CoverageAt (m.map Prod.fst)), .num 2 m.length] ++ m.map (fun x => .ref 2 (At (wordRows x.2)))

/-- The ligature `g` for a first glyph that is followed by `rest`. -/
def ligatureRows (rest : List UInt16) (g : UInt16) : List Cell := [u16 g, .num 2 ((rest.length + 1 : Nat) : ℤ)] ++ rest.map u16

/-- Ligature substitution: for each first glyph, in ascending order, the ligatures beginning with it. They are exactly
those of `m`, each once, and longer ones come before shorter ones. -/
def LigatureAt (m : LigSubst) : Bytes → Nat → Prop := fun B start =>
  ∃ sets : List (UInt16 × List (List UInt16 × UInt16)),
    sets.Pairwise (fun a b => a.1.toNat < b.1.toNat) ∧
    (∀ s ∈ sets, s.2 ≠ [] ∧ s.2.Nodup ∧ s.2.Pairwise (fun a b => b.1.length ≤ a.1.length)) ∧
    (∀ k g, (k, g) ∈ m ↔ ∃ s ∈ sets, ∃ rest, k = s.1 :: rest ∧ (rest, g) ∈ s.2) ∧
    At ([.num 2 1, .ref 2 (CoverageAt (sets.map Prod.fst)), .num 2 sets.length] ++
      sets.map (fun s => .ref 2 (At (.num 2 s.2.length :: s.2.map (fun e => .ref 2 (At (ligatureRows e.1 e.2))))))) B start

/-- Lookup records: the position in the input sequence and the lookup to apply there. -/
def recordRows (input : CtxRule) : List Cell :=
  input.zipIdx.flatMap (fun x => x.1.2.flatMap (fun lookup => [.num 2 x.2, u16 lookup]))

def recordCount (input : CtxRule) : Nat := (input.map (fun x => x.2.length)).sum

/-- A count and that many coverage tables. -/
def slotRows (l : List Slot) : List Cell := .num 2 l.length :: l.map (fun s => .ref 2 (CoverageAt s))

/-- Context, format 3. -/
def contextRows (r : CtxRule) : List Cell :=
  [.num 2 3, .num 2 r.length, .num 2 (recordCount r)] ++ r.map (fun x => .ref 2 (CoverageAt x.1)) ++ recordRows r

/-- Chained context, format 3. -/
def chainRows (r : ChainedRule) : List Cell :=
  .num 2 3 :: (slotRows r.backtrack ++ slotRows (r.input.map Prod.fst) ++ slotRows r.lookahead ++
    [.num 2 (recordCount r.input)] ++ recordRows r.input)

/-- Reverse chaining single substitution. -/
def reverseRows (r : RevSubst) : List Cell :=
  [.num 2 1, .ref 2 (CoverageAt (r.mapping.map Prod.fst))] ++ slotRows r.backtrack ++ slotRows r.lookahead ++
    wordRows (r.mapping.map Prod.snd)

/-- The lookup types of the specification. -/
def substType : Subst → Nat
  | .single _ => 1
  | .multiple _ => 2
  | .alternate _ => 3
  | .ligature _ => 4
  | .contextual _ => 5
  | .chained _ => 6
  | .reverse _ => 8

/-- The subtables of a substitution. -/
def substTables : Subst → List (Bytes → Nat → Prop)
  | .single l => l.map SingleAt
  | .multiple l => l.map (fun m => At (multiRows m))
  | .alternate l => l.map (fun m => At (multiRows m))
  | .ligature l => l.map LigatureAt
  | .contextual l => l.flatten.map (fun r => At (contextRows r))
  | .chained l => l.flatten.map (fun r => At (chainRows r))
  | .reverse l => l.map (fun r => At (reverseRows r))

/-! ### Proofs -/

theorem cov_pics {gs : List UInt16} {vec : Bool} {t : Tab} (h : optOff vec covTab (some gs) = .ok t) :
    Pics t [.ref 2 (CoverageAt gs)] :=
  pics_opt (P := CoverageAt) h fun _ _ _ ht => covTab_at ht

theorem slots_pics {l : List Slot} {t : Tab} (h : offVec covTab (l.map some) = .ok t) : Pics t (slotRows l) := by
  have := pics_offVec (P := CoverageAt) h fun _ _ _ _ _ ht => covTab_at ht
  rw [List.length_map, List.map_map] at this
  exact this

theorem single_delta {m : SingleSubst} {x : UInt16 × UInt16} {d : Int16} (h : x.1.toInt16 + d = x.2.toInt16) :
    (x.2.toNat : ℤ) = (x.1.toNat + d.toInt) % 65536 := by
  have e := congrArg Int16.toUInt16 h
  have e' := congrArg UInt16.toNat e
  simp only [Int16.toUInt16_add, UInt16.toUInt16_toInt16, UInt16.toNat_add] at e'
  have hd : (d.toUInt16.toNat : ℤ) = d.toInt % 65536 := by
    have h1 : d.toInt = d.toBitVec.toInt := rfl
    have h2 := @BitVec.toInt_eq_toNat_cond 16 d.toBitVec
    have h3 : d.toUInt16.toNat = d.toBitVec.toNat := rfl
    have h4 := d.toBitVec.isLt
    rw [h1, h2, h3]
    split <;> omega
  omega

theorem single_at {m : SingleSubst} {t : Tab} (h : m.toLow.tab = .ok t) : PicsAt t (SingleAt m) := by
  unfold SingleSubst.toLow at h
  simp only at h
  split at h
  · next hf =>
    simp only [Sub.tab] at h
    obtain ⟨c, hc, h⟩ := Res.bind_inv h
    cases h
    intro B start ext hl hh
    refine .inl ⟨(SingleSubst.bestFormat m).2.toInt, ?_, ?_⟩
    · cases m with
      | nil => simp
      | cons a m =>
        obtain ⟨l, r⟩ := a
        simp only [SingleSubst.bestFormat] at hf ⊢
        split at hf
        · next hall =>
          intro x hx
          rcases List.mem_cons.mp hx with rfl | hx
          · refine single_delta (m := []) ?_
            rw [Int16.add_comm, Int16.sub_add_cancel]
          · have := List.all_eq_true.mp hall x hx
            exact single_delta (m := []) (by simpa using this)
        · cases hf
    · exact ((lays_len 1).pics.cons ((cov_pics hc).cons (lays_i16 _).pics)).2 B start start ext hh
  · simp only [Sub.tab] at h
    obtain ⟨c, hc, h⟩ := Res.bind_inv h
    cases h
    intro B start ext hl hh
    exact .inr (((lays_len 2).pics.cons ((cov_pics hc).cons (lays_words _).pics)).2 B start start ext hh)

theorem seqs_pics {m : MultiSubst} {t : Tab} (h : offVec seqTab (m.map (fun x => some x.2)) = .ok t) :
    Pics t (.num 2 m.length :: m.map (fun x => .ref 2 (At (wordRows x.2)))) := by
  have := pics_offVec (P := fun l => At (wordRows l)) h fun _ _ a _ t ht => by cases ht; exact (lays_words a).pics.at
  rw [List.length_map, List.map_map] at this
  exact this

theorem multi_pics {m : MultiSubst} {t : Tab} (h : m.toLow2.tab = .ok t) : Pics t (multiRows m) := by
  simp only [MultiSubst.toLow2, Sub.tab] at h
  obtain ⟨c, hc, h⟩ := Res.bind_inv h
  obtain ⟨v, hv, h⟩ := Res.bind_inv h
  cases h
  exact (lays_len 1).pics.cons ((cov_pics hc).cons (seqs_pics hv))

theorem alternate_pics {m : MultiSubst} {t : Tab} (h : m.toLow3.tab = .ok t) : Pics t (multiRows m) := by
  simp only [MultiSubst.toLow3, Sub.tab] at h
  obtain ⟨c, hc, h⟩ := Res.bind_inv h
  obtain ⟨v, hv, h⟩ := Res.bind_inv h
  cases h
  exact (lays_len 1).pics.cons ((cov_pics hc).cons (seqs_pics hv))

theorem ligature_pics {l : Ligature} {t : Tab} (h : l.tab = .ok t) : Pics t (ligatureRows l.components l.glyph) := by
  simp only [Ligature.tab] at h
  split at h
  · cases h
  · next hn =>
    cases h
    rw [List.append_assoc]
    refine ((lays_u16 _).cons (Lays.cons ?_ (lays_vec1 fun x _ => lays_u16 x))).pics
    refine lays_num rfl (by omega) ?_
    rw [field_u16', UInt16.toNat_ofNat', UInt16.toNat_ofNat'] 
    rw [UInt16.toNat_ofNat'] at hn
    push_cast
    omega

theorem lig_nonempty {m : LigSubst} {low : Sub} (h : m.toLow = .ok low) : ∀ x ∈ m, x.1 ≠ [] := by
  have key : ∀ (l : List (List UInt16)) (a s : List (UInt16 × List (List UInt16))), splitMap l a = .ok s →
      ∀ k ∈ l, k ≠ [] := by
    intro l
    induction l with
    | nil => intro a s _ k hk; cases hk
    | cons k l ih =>
      intro a s h k' hk'
      rw [splitMap] at h
      split at h
      case h_2 => cases h
      case h_3 => cases h
      next a' ha =>
      rcases List.mem_cons.mp hk' with rfl | hk'
      · intro hc; subst hc; cases ha
      · exact ih a' s h k' hk'
  intro x hx
  unfold LigSubst.toLow at h
  split at h
  case h_2 => cases h
  case h_3 => cases h
  next split hsp =>
  refine key _ _ _ hsp x.1 ?_
  rw [(sortKeys_perm _).mem_iff]
  exact List.mem_map_of_mem hx

theorem ligature_at {m : LigSubst} (hs : BMap.Sorted m) {low : Sub} (h : m.toLow = .ok low) {t : Tab}
    (ht : low.tab = .ok t) : PicsAt t (LigatureAt m) := by
  have hk := lig_nonempty h
  obtain ⟨split, hsp, e⟩ := toLow_lig m hs hk
  have hheads : ∀ x ∈ split, ∀ k ∈ x.2, k = x.1 :: k.tail := by
    intro x hx k hkx
    rw [mem_split hsp hx, startingWith, List.mem_filter] at hkx
    cases k with
    | nil => simp at hkx
    | cons a t => simp at hkx; rw [hkx.2]; rfl
  have hnd : (m.map Prod.fst).Nodup := by
    rw [List.Nodup, List.pairwise_map]
    exact hs.imp fun h => BMap.lt_ne h
  rw [h] at e
  cases e
  simp only [Sub.tab] at ht
  obtain ⟨c, hc, ht⟩ := Res.bind_inv ht
  obtain ⟨v, hv, ht⟩ := Res.bind_inv ht
  cases ht
  intro B start ext hl hh
  refine ⟨split.map (fun s => (s.1, s.2.map (fun k => (k.tail, val m k)))), ?_, ?_, ?_, ?_⟩
  · rw [List.pairwise_map]
    exact hsp.1.imp fun h => of_decide_eq_true h
  · intro s hs'
    obtain ⟨x, hx, rfl⟩ := List.mem_map.mp hs'
    refine ⟨?_, ?_, ?_⟩
    · have hgx := (BMap.get?_eq_some hsp.1).mpr (show (x.1, x.2) ∈ split from hx)
      rw [hsp.2] at hgx
      split at hgx
      · cases hgx
      · next hne =>
        rw [← Option.some.inj hgx]
        simpa using hne
    · refine List.Nodup.map_on ?_ ?_
      · intro k hk k' hk' e
        rw [hheads x hx k hk, hheads x hx k' hk', (Prod.mk.inj e).1]
      · rw [mem_split hsp hx]
        exact List.Nodup.filter _ ((sortKeys_perm _).nodup_iff.mpr hnd)
    · rw [List.pairwise_map, mem_split hsp hx]
      refine ((sortKeys_desc (m.map Prod.fst)).filter _).imp fun h => ?_
      simp only [List.length_tail]
      omega
  · intro k g
    constructor
    · intro hkg
      have hne := hk _ hkg
      obtain ⟨a, rest, rfl⟩ : ∃ a rest, k = a :: rest := by
        cases k with
        | nil => exact absurd rfl hne
        | cons a rest => exact ⟨a, rest, rfl⟩
      have hmem : a :: rest ∈ startingWith a (sortKeys (m.map Prod.fst)) := by
        rw [startingWith, List.mem_filter, (sortKeys_perm _).mem_iff]
        exact ⟨List.mem_map.mpr ⟨_, hkg, rfl⟩, by simp⟩
      have hget := hsp.2 a
      rw [if_neg (List.ne_nil_of_mem hmem)] at hget
      have hx := (BMap.get?_eq_some hsp.1).mp hget
      refine ⟨_, List.mem_map_of_mem hx, rest, rfl, List.mem_map.mpr ⟨_, hmem, ?_⟩⟩
      rw [show val m (a :: rest) = g from by unfold val; rw [(BMap.get?_eq_some hs).mpr hkg]; rfl]
      rfl
    · rintro ⟨s, hs', rest, rfl, hr⟩
      obtain ⟨x, hx, rfl⟩ := List.mem_map.mp hs'
      obtain ⟨k, hkx, e⟩ := List.mem_map.mp hr
      obtain ⟨rfl, rfl⟩ := Prod.mk.inj e
      rw [← hheads x hx k hkx]
      rw [mem_split hsp hx, startingWith, List.mem_filter, (sortKeys_perm _).mem_iff] at hkx
      obtain ⟨⟨k', g'⟩, hy, e3⟩ := List.mem_map.mp hkx.1
      simp only at e3
      subst e3
      unfold val
      rw [(BMap.get?_eq_some hs).mpr hy]
      exact hy
  · have := pics_offVec (P := fun set : List (Option Ligature) => At (.num 2 set.length ::
      set.map (linked (fun e => At (ligatureRows e.components e.glyph))))) hv fun _ _ a _ t ht =>
        (pics_offVec ht fun _ _ a _ t ht => (ligature_pics ht).at).at
    rw [List.length_map, List.map_map] at this
    have := ((lays_len 1).pics.cons ((cov_pics hc).cons this)).2 B start start ext hh
    simp only [Function.comp_def, List.map_map, List.length_map]
    simp only [Function.comp_def, List.length_map, List.map_map, linked] at this
    exact this

theorem recordsFrom_lays : ∀ (r : CtxRule) (i : Nat), Lays (encVec encRec (recordsFrom i r))
    ((r.zipIdx i).flatMap (fun x => x.1.2.flatMap (fun lookup => [.num 2 x.2, u16 lookup])))
  | [], i => lays_nil
  | (s, ids) :: r, i => by
    rw [recordsFrom, encVec_append, List.zipIdx_cons, List.flatMap_cons]
    refine Lays.append ?_ (recordsFrom_lays r (i + 1))
    induction ids with
    | nil => exact lays_nil
    | cons a l ih =>
      rw [List.map_cons, encVec_cons, List.flatMap_cons]
      exact Lays.append ((lays_len i).cons (lays_u16 a)) ih

theorem recordsFrom_count : ∀ (r : CtxRule) (i : Nat), (recordsFrom i r).length = recordCount r
  | [], _ => rfl
  | (s, ids) :: r, i => by
    rw [recordsFrom, List.length_append, List.length_map, recordsFrom_count r]
    rfl

theorem context_pics {r : CtxRule} {t : Tab} (h : (ctxTo3 r).tab = .ok t) : Pics t (contextRows r) := by
  simp only [ctxTo3, Sub.tab] at h
  obtain ⟨cs, hc, h⟩ := Res.bind_inv h
  cases h
  cases r with
  | nil =>
    cases hc
    exact ((lays_len 3).cons ((lays_len 0).cons (lays_len 0))).pics
  | cons a r =>
    rw [List.map_cons, Res.mapL] at hc
    cases hc

theorem chain_pics {r : ChainedRule} {t : Tab} (h : (chainTo3 r).tab = .ok t) : Pics t (chainRows r) := by
  simp only [chainTo3, Sub.tab] at h
  obtain ⟨vb, hb, h⟩ := Res.bind_inv h
  obtain ⟨vi, hi, h⟩ := Res.bind_inv h
  obtain ⟨va, ha, h⟩ := Res.bind_inv h
  cases h
  unfold chainRows
  rw [List.append_assoc, List.append_assoc, List.append_assoc]
  refine (lays_len 3).pics.cons ((slots_pics hb).append (Pics.append ?_ ((slots_pics ha).append ?_)))
  · exact slots_pics (by rw [List.map_map]; exact hi)
  · unfold encCounted
    rw [recordsFrom_count]
    exact ((lays_len _).append (recordsFrom_lays _ 0)).pics

theorem reverse_pics {r : RevSubst} {t : Tab} (h : r.toLow.tab = .ok t) : Pics t (reverseRows r) := by
  simp only [RevSubst.toLow, Sub.tab] at h
  obtain ⟨c, hc, h⟩ := Res.bind_inv h
  obtain ⟨vb, hb, h⟩ := Res.bind_inv h
  obtain ⟨va, ha, h⟩ := Res.bind_inv h
  cases h
  unfold reverseRows
  rw [List.append_assoc, List.append_assoc]
  exact (lays_len 1).pics.cons ((cov_pics hc).cons ((slots_pics hb).append ((slots_pics ha).append (lays_words _).pics)))

/-- **C82.** A written GSUB table has the layout of the OpenType specification. That the mark filtering set is there exactly
when bit 4 of the flags says so is what the model of lookups assumes (`mfsTab`). -/
theorem C82_gsub (g : GSUB) (_hmfs : ∀ l ∈ g.lookups, l.mfs.isSome = l.flags.toNat.testBit 4)
    (hlig : ∀ l ∈ g.lookups, ∀ ms, l.rule = .ligature ms → ∀ m ∈ ms, BMap.Sorted m)
    (bs : Bytes) (h : GSUB.toBytes g = .ok bs) : At (layoutRows substType substTables g) bs 0 := by
  refine layout_shows (fun r => by cases r <;> rfl) (fun l hl ss hss => ?_) h
  cases hr : l.rule with
  | single ms =>
    rw [hr] at hss; cases hss
    simp only [substTables, List.forall₂_map_left_iff, List.forall₂_map_right_iff, List.forall₂_same]
    exact fun m _ t ht => single_at ht
  | multiple ms =>
    rw [hr] at hss; cases hss
    simp only [substTables, List.forall₂_map_left_iff, List.forall₂_map_right_iff, List.forall₂_same]
    exact fun m _ t ht => (multi_pics ht).at
  | alternate ms =>
    rw [hr] at hss; cases hss
    simp only [substTables, List.forall₂_map_left_iff, List.forall₂_map_right_iff, List.forall₂_same]
    exact fun m _ t ht => (alternate_pics ht).at
  | ligature ms =>
    rw [hr] at hss
    simp only [Subst.subs] at hss
    split at hss
    case h_2 => cases hss
    case h_3 => cases hss
    next ls hls =>
    cases hss
    simp only [substTables, List.forall₂_map_left_iff, List.forall₂_map_right_iff]
    have h2 := (mapL_inv _ _ hls).flip
    have h1 := hlig l hl ms hr
    clear hls hr
    induction h2 with
    | nil => exact .nil
    | cons h h' ih =>
      exact .cons (fun t ht => ligature_at (h1 _ (by simp)) h ht) (ih fun m hm => h1 m (by simp [hm]))
  | contextual ms =>
    rw [hr] at hss; cases hss
    simp only [substTables, List.forall₂_map_left_iff, List.forall₂_map_right_iff, List.forall₂_same]
    exact fun m _ t ht => (context_pics ht).at
  | chained ms =>
    rw [hr] at hss; cases hss
    simp only [substTables, List.forall₂_map_left_iff, List.forall₂_map_right_iff, List.forall₂_same]
    exact fun m _ t ht => (chain_pics ht).at
  | reverse ms =>
    rw [hr] at hss; cases hss
    simp only [substTables, List.forall₂_map_left_iff, List.forall₂_map_right_iff, List.forall₂_same]
    exact fun m _ t ht => (reverse_pics ht).at

/-- A table with lookups of several kinds, a script and a feature. -/
def specGsub : GSUB :=
  ⟨[⟨0, none, .single [[(10, 20), (11, 30)], [(5, 6)]]⟩,
    ⟨0x10, some 3, .multiple [[(7, [1, 2, 3]), (9, [])]]⟩,
    ⟨1, none, .alternate [[(40, [41, 42])], [(50, [51])]]⟩,
    ⟨0, none, .chained [[⟨[[1]], [[4]], [([2, 3], [0])]⟩, ⟨[], [], [([8], [])]⟩]]⟩,
    ⟨0, none, .reverse [⟨[(3, 4)], [[1], [2]], []⟩]⟩],
   [(⟨0x6C, 0x61, 0x74, 0x6E⟩, ⟨some ⟨none, [0]⟩, [(⟨0x54, 0x52, 0x4B, 0x20⟩, ⟨some 0, []⟩)]⟩)],
   [(⟨0x6C, 0x69, 0x67, 0x61⟩, [2, 3], none)]⟩

set_option maxRecDepth 100000 in
example : (∀ l ∈ specGsub.lookups, l.mfs.isSome = l.flags.toNat.testBit 4) ∧
    (∀ l ∈ specGsub.lookups, ∀ ms, l.rule = .ligature ms → ∀ m ∈ ms, BMap.Sorted m) ∧
    (match GSUB.toBytes specGsub with | .ok bs => decide (100 < bs.length) | _ => false) = true := by
  refine ⟨by decide, ?_, by decide +kernel⟩
  intro l hl ms h m hm
  simp only [specGsub, List.mem_cons, List.not_mem_nil, or_false] at hl
  rcases hl with rfl | rfl | rfl | rfl | rfl <;> cases h

theorem sort_sample : sortKeys [[1, 2], [1, 2, 3], [4]] = [[1, 2, 3], [1, 2], [4]] := by
  simp [sortKeys, List.mergeSort, List.MergeSort.Internal.splitInTwo, List.merge]

set_option maxRecDepth 100000 in
/-- Ligatures. -/
example : BMap.Sorted ([([1, 2], 90), ([1, 2, 3], 91), ([4], 92)] : LigSubst) ∧
    (match GSUB.toBytes ⟨[⟨0, none, .ligature [[([1, 2], 90), ([1, 2, 3], 91), ([4], 92)]]⟩], [], []⟩ with
      | .ok bs => decide (50 < bs.length) | _ => false) = true := by
  refine ⟨by simp [BMap.Sorted, Key.lt, Key.ltList], ?_⟩
  have e : LigSubst.toLow [([1, 2], 90), ([1, 2, 3], 91), ([4], 92)] =
      .ok (.s4_1 1 (some [1, 4]) [some [some ⟨91, [2, 3]⟩, some ⟨90, [2]⟩], some [some ⟨92, []⟩]]) := by
    unfold LigSubst.toLow
    simp only [List.map_cons, List.map_nil, sort_sample]
    decide +kernel
  have e2 : Subst.subs (.ligature [[([1, 2], 90), ([1, 2, 3], 91), ([4], 92)]]) =
      .ok [.plain (.s4_1 1 (some [1, 4]) [some [some ⟨91, [2, 3]⟩, some ⟨90, [2]⟩], some [some ⟨92, []⟩]])] := by
    simp only [Subst.subs, Res.mapL, e]
    rfl
  simp only [GSUB.toBytes, GposGsub.toBytes, GposGsub.toLow, Lookup.toLow, Res.mapL, e2]
  decide +kernel

end FT.Props
