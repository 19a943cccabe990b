import Verif.Props.Cmap4
import Verif.Lemmas.Tab32
import Verif.Lemmas.GsubHigh
import Verif.Lemmas.LayoutBad
import Mathlib.Data.List.Induction

/-!
C77: Unicode variation sequences (format 14 character maps).
-/

namespace FT.Props
open FT Reader FT.Cmap FT.Off

/-! ### Specification -/

/-- OpenType's meaning of a format 14 subtable (at the beginning of `bs`): the number of selector records at byte 6;
each record has the selector in three bytes and, seven bytes after its start, the offset of a table of a number and
so many pairs of a character in three bytes and a glyph. -/
def ListsSequence (bs : Bytes) (c s g : Nat) : Prop :=
  ∃ i < field bs 6 4, field bs (10 + 11 * i) 3 = s ∧ field bs (17 + 11 * i) 4 ≠ 0 ∧
    ∃ j < field bs (field bs (17 + 11 * i) 4) 4,
      field bs (field bs (17 + 11 * i) 4 + 4 + 5 * j) 3 = c ∧ field bs (field bs (17 + 11 * i) 4 + 7 + 5 * j) 2 = g

/-- No selector record has a list of default sequences, the records are in increasing order of selector, and the lists
in increasing order of character (so that they can be searched by bisection). -/
structure WellFormed14 (bs : Bytes) : Prop where
  noDefaults : ∀ i < field bs 6 4, field bs (13 + 11 * i) 4 = 0
  selectors : ∀ i k, i < k → k < field bs 6 4 → field bs (10 + 11 * i) 3 < field bs (10 + 11 * k) 3
  characters : ∀ i < field bs 6 4, ∀ j k, j < k → k < field bs (field bs (17 + 11 * i) 4) 4 →
    field bs (field bs (17 + 11 * i) 4 + 4 + 5 * j) 3 < field bs (field bs (17 + 11 * i) 4 + 4 + 5 * k) 3
  inside : ∀ i < field bs 6 4, field bs (17 + 11 * i) 4 + 4 + 5 * field bs (field bs (17 + 11 * i) 4) 4 ≤ bs.length

/-- Characters and selectors fit in three bytes. -/
def Fits24 (m : UvsMap) : Prop := ∀ x ∈ m, x.1.1.toNat < 16777216 ∧ x.1.2.toNat < 16777216

/-- All tables start at most 65535 bytes into the subtable. -/
def NearTables (bs : Bytes) : Prop := ∀ i < field bs 6 4, field bs (17 + 11 * i) 4 ≤ 65535

/-- A format 14 subtable. -/
abbrev sub14 (p e lang : UInt16) (m : Map) (u : Option UvsMap) : Subtable := ⟨14, p, e, lang, m, u⟩

/-! ### The grouping by selector -/

theorem splitUvs_snoc (m : UvsMap) (x : (UInt32 × UInt32) × UInt16) : splitUvs (m ++ [x]) =
    BMap.insert (splitUvs m) x.1.2 ((BMap.get? (splitUvs m) x.1.2).getD [] ++ [(x.1.1, x.2)]) := by
  simp [splitUvs, List.foldl_append]

theorem splitUvs_sorted (m : UvsMap) : BMap.Sorted (splitUvs m) := by
  induction m using List.reverseRecOn with
  | nil => simp [splitUvs, BMap.Sorted]
  | append_singleton m x ih => rw [splitUvs_snoc]; exact BMap.insert_sorted ih _ _

/-- The entries for a selector, in order. -/
def forSel (m : UvsMap) (s : UInt32) : List (UInt32 × UInt16) :=
  (m.filter (fun x => decide (x.1.2 = s))).map (fun x => (x.1.1, x.2))

theorem splitUvs_get (m : UvsMap) (s : UInt32) :
    BMap.get? (splitUvs m) s = if forSel m s = [] then none else some (forSel m s) := by
  induction m using List.reverseRecOn with
  | nil => rfl
  | append_singleton m x ih =>
    rw [splitUvs_snoc, BMap.get?_insert]
    by_cases h : s = x.1.2
    · subst h
      rw [if_pos rfl, ih]
      have : forSel (m ++ [x]) x.1.2 = forSel m x.1.2 ++ [(x.1.1, x.2)] := by simp [forSel]
      rw [this]
      by_cases hn : forSel m x.1.2 = [] <;> simp [hn]
    · have : forSel (m ++ [x]) s = forSel m s := by
        have h' : ¬ x.1.2 = s := fun e => h e.symm
        simp [forSel, h']
      rw [if_neg (by simpa using h), ih, this]

theorem mem_splitUvs {m : UvsMap} {y : UInt32 × List (UInt32 × UInt16)} :
    y ∈ splitUvs m ↔ y.2 = forSel m y.1 ∧ forSel m y.1 ≠ [] := by
  have h := BMap.get?_eq_some (splitUvs_sorted m) (k := y.1) (v := y.2)
  rw [splitUvs_get] at h
  obtain ⟨a, b⟩ := y
  simp only at h ⊢
  rw [← h]
  split
  · rename_i hn; simp [hn]
  · rename_i hn; simp [hn, eq_comm]

theorem mem_forSel {m : UvsMap} {s c : UInt32} {g : UInt16} : (c, g) ∈ forSel m s ↔ ((c, s), g) ∈ m := by
  simp only [forSel, List.mem_map, List.mem_filter, decide_eq_true_eq]
  constructor
  · rintro ⟨x, ⟨h1, h2⟩, h3⟩
    obtain ⟨⟨a, b⟩, d⟩ := x
    simp only [Prod.mk.injEq] at h2 h3
    obtain ⟨rfl, rfl⟩ := h3
    subst h2
    exact h1
  · intro h
    exact ⟨_, ⟨h, rfl⟩, rfl⟩

theorem forSel_sorted {m : UvsMap} (hs : BMap.Sorted m) (s : UInt32) : BMap.Sorted (forSel m s) := by
  unfold BMap.Sorted forSel
  rw [List.pairwise_map]
  refine (List.Pairwise.filter _ hs).imp_of_mem ?_
  intro a b ha hb h
  simp only [List.mem_filter, decide_eq_true_eq] at ha hb
  simp only [Key.lt, Bool.or_eq_true, Bool.and_eq_true, ha.2, hb.2] at h ⊢
  simpa using h

theorem toUvs_fromUvs {m : UvsMap} (hs : BMap.Sorted m) : toUvs (fromUvs (some m)) = m := by
  have h1 : toUvs (fromUvs (some m)) =
      BMap.collect ((splitUvs m).flatMap (fun x => x.2.map (fun r => ((r.1, x.1), r.2)))) := by
    unfold toUvs fromUvs BMap.collect
    simp only [List.foldl_map, List.foldl_flatMap, selectorOf]
  rw [h1]
  refine BMap.collect_eq hs ?_
  rintro ⟨⟨c, s⟩, g⟩
  rw [List.mem_flatMap]
  constructor
  · rintro ⟨x, hx, h⟩
    obtain ⟨r, hr, e⟩ := List.mem_map.mp h
    cases e
    obtain ⟨e1, _⟩ := mem_splitUvs.mp hx
    rw [e1] at hr
    exact mem_forSel.mp hr
  · intro h
    have h' := mem_forSel.mpr h
    exact ⟨(s, forSel m s), mem_splitUvs.mpr ⟨rfl, List.ne_nil_of_mem h'⟩, List.mem_map.mpr ⟨(c, g), h', rfl⟩⟩

theorem splitUvs_total (m : UvsMap) : ((splitUvs m).map (fun x => x.2.length)).sum = m.length ∧
    (splitUvs m).length ≤ m.length := by
  have ins : ∀ (l : List (UInt32 × List (UInt32 × UInt16))) (k : UInt32) (y : UInt32 × UInt16), BMap.Sorted l →
      ((BMap.insert l k ((BMap.get? l k).getD [] ++ [y])).map (fun x => x.2.length)).sum =
        (l.map (fun x => x.2.length)).sum + 1 ∧
      (BMap.insert l k ((BMap.get? l k).getD [] ++ [y])).length ≤ l.length + 1 := by
    intro l k y
    induction l with
    | nil => intro _; simp [BMap.insert, BMap.get?]
    | cons x l ih =>
      intro hs
      obtain ⟨a, b⟩ := x
      obtain ⟨h1, h2⟩ := ih hs.tail
      simp only [BMap.insert, BMap.get?]
      split
      · simp; omega
      · split
        · simp only [List.map_cons, List.sum_cons, List.length_cons, h1]; omega
        · simp; omega
  induction m using List.reverseRecOn with
  | nil => simp [splitUvs]
  | append_singleton m x ih =>
    rw [splitUvs_snoc]
    obtain ⟨h1, h2⟩ := ins (splitUvs m) x.1.2 (x.1.1, x.2) (splitUvs_sorted m)
    rw [h1]
    simp only [List.length_append, List.length_cons, List.length_nil]
    omega

/-! ### The bytes -/

def u24b (x : UInt32) : Bytes :=
  [UInt8.ofNat (x.toNat / 65536 % 256), UInt8.ofNat (x.toNat / 256 % 256), UInt8.ofNat (x.toNat % 256)]

theorem encU24_small {x : UInt32} (h : x.toNat < 16777216) : encU24 x = .ok (u24b x) := by
  unfold encU24
  rw [if_neg (by omega)]
  rfl

theorem encU24_big {x : UInt32} (h : ¬ x.toNat < 16777216) : encU24 x = .err := by
  unfold encU24
  rw [if_pos (by omega)]

def entryB (r : UInt32 × UInt16) : Bytes := u24b r.1 ++ encU16 r.2

theorem entryB_length (r : UInt32 × UInt16) : (entryB r).length = 5 := by simp [entryB, u24b]

def listB (l : List (UInt32 × UInt16)) : Bytes := encU32 (UInt32.ofNat l.length) ++ encVec entryB l

theorem listB_length (l : List (UInt32 × UInt16)) : (listB l).length = 4 + 5 * l.length := by
  rw [listB, List.length_append, encVec_length entryB_length]
  simp

def selT (x : UInt32 × List (UInt32 × UInt16)) : Tab :=
  (Tab.bytes (u24b x.1)).append ((Tab.nullOff .w32).append (.link .w32 true false none (.bytes (listB x.2)) .nil))

theorem field_u24 {x : UInt32} (h : x.toNat < 16777216) (post : Bytes) : field (u24b x ++ post) 0 3 = x.toNat := by
  rw [field_prefix (by simp [u24b])]
  simp only [field, u24b, List.drop_zero, List.take_succ_cons, List.take_zero, beValue, List.foldl_cons, List.foldl_nil]
  have e : ∀ n, (UInt8.ofNat (n % 256)).toNat = n % 256 := fun n => by simp
  rw [e, e, e]
  omega

theorem field_of_prefix {bs B : Bytes} {pos k w : Nat} (h : bs <+: B.drop pos) (hk : k + w ≤ bs.length) :
    field B (pos + k) w = field bs k w := by
  obtain ⟨post, e⟩ := h
  rw [← field_prefix (post := post) hk, e]
  unfold field
  rw [List.drop_drop]

theorem field_mid (pre bs post : Bytes) {k w : Nat} (hk : k + w ≤ bs.length) :
    field (pre ++ bs ++ post) (pre.length + k) w = field bs k w :=
  field_of_prefix ⟨post, by simp⟩ hk

/-- Fields of the subtable. -/
def tabU (m : UvsMap) : Tab :=
  (Tab.bytes (encU16 14)).append ((Tab.bytes (encU32 (fromUvs (some m)).length)).append
    ((Tab.bytes (encU32 (UInt32.ofNat (splitUvs m).length))).append (Tab.concat ((splitUvs m).map selT))))

theorem selectorTab_ok {x : UInt32 × List (UInt32 × UInt16)} (h1 : x.1.toNat < 16777216)
    (h2 : ∀ r ∈ x.2, r.1.toNat < 16777216) : selectorTab (selectorOf x) = .ok (selT x) := by
  have e : Res.mapL encUvsMapping (x.2.map (fun r => (⟨r.1, r.2⟩ : UvsMapping))) = .ok (x.2.map entryB) := by
    have : ∀ l : List (UInt32 × UInt16), (∀ r ∈ l, r.1.toNat < 16777216) →
        Res.mapL encUvsMapping (l.map (fun r => (⟨r.1, r.2⟩ : UvsMapping))) = .ok (l.map entryB) := by
      intro l
      induction l with
      | nil => intro _; rfl
      | cons a l ih =>
        intro h
        simp only [List.map_cons, Res.mapL, encUvsMapping, encU24_small (h a (by simp)), ih (fun x hx => h x (by simp [hx]))]
        rfl
    exact this _ h2
  simp only [selectorTab, selectorOf, encU24_small h1, optOff32, counted32Tab, e, Res.ok_bind, Res.pure_eq, List.length_map]
  rfl

theorem fits_split {m : UvsMap} (h : Fits24 m) {x : UInt32 × List (UInt32 × UInt16)} (hx : x ∈ splitUvs m) :
    x.1.toNat < 16777216 ∧ ∀ r ∈ x.2, r.1.toNat < 16777216 := by
  obtain ⟨h1, h2⟩ := mem_splitUvs.mp hx
  rw [h1]
  refine ⟨?_, fun r hr => (h _ (mem_forSel (c := r.1) (g := r.2).mp hr)).1⟩
  obtain ⟨r, hr⟩ := List.exists_mem_of_ne_nil _ h2
  exact (h _ (mem_forSel (c := r.1) (g := r.2).mp hr)).2

theorem cmap14Tab_ok {m : UvsMap} (h : Fits24 m) : cmap14Tab (fromUvs (some m)) = .ok (tabU m) := by
  have e : Res.mapL selectorTab ((splitUvs m).map selectorOf) = .ok ((splitUvs m).map selT) := by
    have : ∀ l : List (UInt32 × List (UInt32 × UInt16)), (∀ x ∈ l, x ∈ splitUvs m) →
        Res.mapL selectorTab (l.map selectorOf) = .ok (l.map selT) := by
      intro l
      induction l with
      | nil => intro _; rfl
      | cons a l ih =>
        intro hl
        obtain ⟨h1, h2⟩ := fits_split h (hl a (by simp))
        simp only [List.map_cons, Res.mapL, selectorTab_ok h1 h2, ih (fun x hx => hl x (by simp [hx]))]
    exact this _ (fun _ hx => hx)
  simp only [cmap14Tab, fromUvs, e, Res.ok_bind, Res.pure_eq, List.length_map]
  rfl

theorem cmap14Tab_no {m : UvsMap} (h : ¬ Fits24 m) : ∀ t, cmap14Tab (fromUvs (some m)) ≠ .ok t := by
  unfold Fits24 at h
  simp only [not_forall] at h
  obtain ⟨⟨⟨c, s⟩, g⟩, hx, h⟩ := h
  have hm : (s, forSel m s) ∈ splitUvs m :=
    mem_splitUvs.mpr ⟨rfl, List.ne_nil_of_mem (mem_forSel.mpr hx)⟩
  have hno : ∀ t, selectorTab (selectorOf (s, forSel m s)) ≠ .ok t := by
    intro t ht
    unfold selectorTab at ht
    obtain ⟨b, h1, ht⟩ := Res.bind_inv ht
    obtain ⟨d, _, ht⟩ := Res.bind_inv ht
    obtain ⟨n, h3, ht⟩ := Res.bind_inv ht
    simp only [selectorOf] at h1 h3
    by_cases hs : s.toNat < 16777216
    · have hc : ¬ c.toNat < 16777216 := fun hc => h ⟨hc, hs⟩
      have := mapL_no (f := encUvsMapping) ((forSel m s).map (fun r => (⟨r.1, r.2⟩ : UvsMapping)))
        ⟨⟨c, g⟩, List.mem_map.mpr ⟨(c, g), mem_forSel.mpr hx, rfl⟩, by
          intro b; simp [encUvsMapping, encU24_big hc]⟩
      simp only [optOff32, counted32Tab] at h3
      split at h3
      · rename_i h4
        split at h4
        · rename_i h5; exact this _ h5
        · cases h4
        · cases h4
      · cases h3
      · cases h3
    · rw [encU24_big hs] at h1; cases h1
  intro t ht
  unfold cmap14Tab at ht
  obtain ⟨ss, h1, _⟩ := Res.bind_inv ht
  exact mapL_no _ ⟨_, List.mem_map.mpr ⟨_, hm, rfl⟩, hno⟩ _ h1

theorem concat_sel_size (l : List (UInt32 × List (UInt32 × UInt16))) : size (Tab.concat (l.map selT)) = 11 * l.length ∧
    descSize (Tab.concat (l.map selT)) false = 0 ∧
    descSize (Tab.concat (l.map selT)) true = (l.map (fun x => 4 + 5 * x.2.length)).sum := by
  induction l with
  | nil => exact ⟨rfl, rfl, rfl⟩
  | cons x l ih =>
    obtain ⟨h1, h2, h3⟩ := ih
    simp only [List.map_cons, Tab.concat, selT, Tab.append, size, descSize, h1, h2, h3, List.sum_cons, listB_length,
      List.length_cons, u24b, Width.size]
    simp
    omega

theorem total_tabU (m : UvsMap) : total (tabU m) = 10 + ((splitUvs m).map (fun x => 5 * x.2.length + 4 + 11)).sum := by
  obtain ⟨h1, h2, h3⟩ := concat_sel_size (splitUvs m)
  have : ∀ l : List (UInt32 × List (UInt32 × UInt16)), (l.map (fun x => 5 * x.2.length + 4 + 11)).sum =
      11 * l.length + (l.map (fun x => 4 + 5 * x.2.length)).sum := by
    intro l
    induction l with
    | nil => rfl
    | cons x l ih => simp only [List.map_cons, List.sum_cons, List.length_cons, ih]; omega
  simp only [total, tabU, Tab.append, size, descSize, h1, h2, h3, this, encU16_length, encU32_length]
  omega

theorem holds_concat (B : Bytes) (w : Nat) : ∀ (ts : List Tab) (base pos : Nat) (ext : List (Nat × Nat)),
    (∀ t ∈ ts, size t = w) → Holds B (Tab.concat ts) base pos ext →
    ∀ i (hi : i < ts.length), ∃ e, Holds B ts[i] base (pos + w * i) e
  | [], _, _, _, _, _, i, hi => by simp at hi
  | t :: ts, base, pos, ext, hw, h, i, hi => by
    obtain ⟨e1, e2, _, h1, h2⟩ := holds_append' B t (Tab.concat ts) base pos ext h
    cases i with
    | zero => exact ⟨e1, by simpa using h1⟩
    | succ i =>
      obtain ⟨e, he⟩ := holds_concat B w ts base _ e2 (fun t ht => hw t (by simp [ht])) h2 i (by simpa using hi)
      refine ⟨e, ?_⟩
      rw [hw t (by simp)] at he
      rw [show pos + w * (i + 1) = pos + w + w * i by rw [Nat.mul_succ]; omega]
      simpa using he

/-- What the bytes of a selector record are. -/
structure SelAt (B : Bytes) (base pos : Nat) (x : UInt32 × List (UInt32 × UInt16)) : Prop where
  sel : u24b x.1 <+: B.drop pos
  null : encU32 (UInt32.ofNat 0) <+: B.drop (pos + 3)
  link : ∃ off : UInt32, 0 < off.toNat ∧ encU32 off <+: B.drop (pos + 7) ∧ base + off.toNat + (4 + 5 * x.2.length) ≤ B.length ∧
    listB x.2 <+: B.drop (base + off.toNat)

theorem selAt_of_holds {B : Bytes} {base pos : Nat} {x : UInt32 × List (UInt32 × UInt16)} {e : List (Nat × Nat)}
    (h : Holds B (selT x) base pos e) : SelAt B base pos x := by
  obtain ⟨h1, h2, off, e1, e2, h3, h4, h5, h6, h7, _⟩ := h
  refine ⟨h1, h2, UInt32.ofNat off, ?_, h5, ?_, ?_⟩
  all_goals rw [ofNat32_toNat h4]
  · exact h3
  · rw [← listB_length]; exact h6
  · exact h7.1

theorem sub_parts {m : UvsMap} (h : Fits24 m) {bs : Bytes} (hb : encCmap14 (fromUvs (some m)) = .ok bs) (pre post : Bytes) :
    bs.length = 10 + ((splitUvs m).map (fun x => 5 * x.2.length + 4 + 11)).sum ∧
    encU16 14 <+: (pre ++ bs ++ post).drop pre.length ∧
    encU32 (fromUvs (some m)).length <+: (pre ++ bs ++ post).drop (pre.length + 2) ∧
    encU32 (UInt32.ofNat (splitUvs m).length) <+: (pre ++ bs ++ post).drop (pre.length + 6) ∧
    ∀ i (hi : i < (splitUvs m).length), SelAt (pre ++ bs ++ post) pre.length (pre.length + 10 + 11 * i) (splitUvs m)[i] := by
  unfold encCmap14 at hb
  rw [cmap14Tab_ok h] at hb
  have hb : toBytes (tabU m) = .ok bs := hb
  obtain ⟨ext, h1, _, h3, _⟩ := C05_offsets_right _ bs hb pre post
  have hlen : bs.length = total (tabU m) := by
    obtain ⟨t', hd, D, V, g0, g1, g2, g3, rfl⟩ := toBytes_parts hb
    have hsz := resolve_sizes _ _ _ _ _ g0
    have l1 := size_shallow _ _ g1
    have l2 := descSize_serDesc _ _ _ g2
    have l3 := descSize_serDesc _ _ _ g3
    rw [hsz.1] at l1
    rw [hsz.2] at l2 l3
    simp only [List.length_append, total]
    omega
  obtain ⟨p1, p2, p3, p4⟩ := h1
  refine ⟨by rw [hlen, total_tabU], p1, p2, p3, ?_⟩
  intro i hi
  obtain ⟨e, he⟩ := holds_concat _ 11 _ _ _ _ (by
    intro t ht
    obtain ⟨x, _, rfl⟩ := List.mem_map.mp ht
    simp [selT, Tab.append, size, u24b, Width.size]) p4 i (by simpa using hi)
  simp only [List.getElem_map, encU16_length, encU32_length] at he
  exact selAt_of_holds he

/-! ### Reading -/

theorem reads_entry {r : UInt32 × UInt16} (h : r.1.toNat < 16777216) : Reads readUvsMapping (entryB r) ⟨r.1, r.2⟩ :=
  Reads.bind (reads_u24 r.1 _ (encU24_small h)) (Reads.map (fun g => (⟨r.1, g⟩ : UvsMapping)) (reads_u16 r.2))

theorem reads_list {l : List (UInt32 × UInt16)} (hl : l.length ≤ 4294967295) (h : ∀ r ∈ l, r.1.toNat < 16777216) :
    Reads (readCounted32 readUvsMapping) (listB l) (l.map (fun r => ⟨r.1, r.2⟩)) := by
  refine Reads.bind (reads_u32 _) ?_
  rw [ofNat32_toNat hl]
  clear hl
  induction l with
  | nil => exact Reads.pure _
  | cons a l ih =>
    rw [encVec_cons]
    exact Reads.bind (reads_entry (h a (by simp)))
      (Reads.map (fun l => (⟨a.1, a.2⟩ : UvsMapping) :: l) (ih (fun x hx => h x (by simp [hx]))))

theorem field_at {x : UInt32} {B : Bytes} {pos : Nat} (h : encU32 x <+: B.drop pos) : field B pos 4 = x.toNat := by
  have := field_of_prefix (k := 0) (w := 4) h (by simp)
  rw [Nat.add_zero] at this
  rw [this, field_u32']

theorem read_sel {B : Bytes} {base pos : Nat} {x : UInt32 × List (UInt32 × UInt16)} (h : SelAt B base pos x)
    (h1 : x.1.toNat < 16777216) (h2 : ∀ r ∈ x.2, r.1.toNat < 16777216) (hl : x.2.length ≤ 4294967295) (stk : List Nat) :
    readSelector ⟨B, pos, base :: stk⟩ = if 65535 < field B (pos + 7) 4 then .panic
      else .ok (selectorOf x, ⟨B, pos + 11, base :: stk⟩) := by
  obtain ⟨g1, g2, off, g3, g4, g5, g6⟩ := h
  have e1 : readU24 ⟨B, pos, base :: stk⟩ = .ok (x.1, ⟨B, pos + 3, base :: stk⟩) :=
    reads_of_prefix' (reads_u24 x.1 _ (encU24_small h1)) g1 (base :: stk) (by simp [u24b])
  have e2 : readOffset .w32 (readCounted32 readUnicodeRange) ⟨B, pos + 3, base :: stk⟩ =
      .ok (none, ⟨B, pos + 7, base :: stk⟩) :=
    readsTab_null32 _ B base (pos + 3) [] stk ⟨g2, rfl⟩
  have e3 : readWidth .w32 ⟨B, pos + 7, base :: stk⟩ = .ok (off.toNat, ⟨B, pos + 11, base :: stk⟩) :=
    reads_of_prefix' (readWidth32 off) g4 (base :: stk) (by simp)
  rw [field_at g4]
  unfold readSelector
  rw [Reader.bind_run, e1]
  simp only
  rw [Reader.bind_run, e2]
  simp only
  rw [Reader.bind_run]
  unfold readOffset
  rw [Reader.bind_run, e3]
  simp only
  rw [if_neg (by omega)]
  by_cases hf : 65535 < off.toNat
  · rw [if_pos hf, if_pos hf]; rfl
  · rw [if_neg hf, if_neg hf, Reader.bind_run]
    have hto : (UInt16.ofNat off.toNat).toNat = off.toNat := ofNat16_toNat (by omega)
    have e4 := reads_of_prefix' (reads_list hl h2) g6 (base :: stk) (by rw [listB_length]; omega)
    simp only [getPtr]
    rw [Reader.bind_run, followOffset_ok (by rw [hto]; omega), hto]
    simp only
    rw [Reader.bind_run, e4]
    rfl

theorem read_sels {B : Bytes} {base : Nat} : ∀ (l : List (UInt32 × List (UInt32 × UInt16))) (pos : Nat) (stk : List Nat),
    (∀ i (hi : i < l.length), SelAt B base (pos + 11 * i) l[i]) →
    (∀ x ∈ l, x.1.toNat < 16777216 ∧ (∀ r ∈ x.2, r.1.toNat < 16777216) ∧ x.2.length ≤ 4294967295) →
    ((∀ i < l.length, field B (pos + 7 + 11 * i) 4 ≤ 65535) →
      deCounted readSelector l.length ⟨B, pos, base :: stk⟩ = .ok (l.map selectorOf, ⟨B, pos + 11 * l.length, base :: stk⟩)) ∧
    ((∃ i < l.length, 65535 < field B (pos + 7 + 11 * i) 4) →
      deCounted readSelector l.length ⟨B, pos, base :: stk⟩ = .panic)
  | [], pos, stk, _, _ => ⟨fun _ => rfl, fun ⟨i, hi, _⟩ => by simp at hi⟩
  | x :: l, pos, stk, h, hx => by
    obtain ⟨x1, x2, x3⟩ := hx x (by simp)
    have e1 := read_sel (h 0 (by simp)) x1 x2 x3 stk
    obtain ⟨i1, i2⟩ := read_sels (B := B) (base := base) l (pos + 11) stk (by
      intro i hi
      have := h (i + 1) (by simpa using hi)
      rw [show pos + 11 + 11 * i = pos + 11 * (i + 1) by omega]
      simpa using this) (fun y hy => hx y (by simp [hy]))
    rw [show pos + 11 * 0 = pos by omega] at e1
    simp only [List.length_cons]
    unfold deCounted
    rw [Reader.bind_run, e1]
    constructor
    · intro hall
      rw [if_neg (by have := hall 0 (by omega); rw [show pos + 7 + 11 * 0 = pos + 7 by omega] at this; omega)]
      simp only
      rw [Reader.bind_run, i1 (by
        intro i hi
        have := hall (i + 1) (by omega)
        rwa [show pos + 11 + 7 + 11 * i = pos + 7 + 11 * (i + 1) by omega])]
      simp only [List.map_cons]
      rw [show pos + 11 * (l.length + 1) = pos + 11 + 11 * l.length by omega]
      rfl
    · rintro ⟨i, hi, hf⟩
      by_cases hn : 65535 < field B (pos + 7) 4
      · rw [if_pos hn]
      · rw [if_neg hn]
        cases i with
        | zero => rw [show pos + 7 + 11 * 0 = pos + 7 by omega] at hf; exact absurd hf hn
        | succ i =>
          simp only
          rw [Reader.bind_run, i2 ⟨i, by omega, by rwa [show pos + 11 + 7 + 11 * i = pos + 7 + 11 * (i + 1) by omega]⟩]

theorem split_lengths {m : UvsMap} (hm : m.length < 4294967296) {x : UInt32 × List (UInt32 × UInt16)} (hx : x ∈ splitUvs m) :
    x.2.length ≤ 4294967295 := by
  obtain ⟨h1, _⟩ := mem_splitUvs.mp hx
  rw [h1]
  have : (forSel m x.1).length ≤ m.length := by
    unfold forSel; rw [List.length_map]; exact List.length_filter_le _ _
  omega

theorem distances_sel (l : List (UInt32 × List (UInt32 × UInt16))) : ∀ (base d v : Nat),
    ∀ x ∈ distances (Tab.concat (l.map selT)) base d v, x.1 = .w32 := by
  induction l with
  | nil => intro base d v x hx; simp [Tab.concat, distances] at hx
  | cons a l ih =>
    intro base d v x hx
    simp only [List.map_cons, Tab.concat, selT, Tab.append, distances, List.nil_append, List.cons_append, List.mem_cons] at hx
    rcases hx with rfl | hx
    · rfl
    · exact ih _ _ _ x hx

theorem read14 {m : UvsMap} (h : Fits24 m) (hm : m.length < 4294967296) {bs : Bytes}
    (hb : encCmap14 (fromUvs (some m)) = .ok bs) (pre post : Bytes) (stk : List Nat) :
    (NearTables bs → readCmap14 ⟨pre ++ bs ++ post, pre.length, stk⟩ =
      .ok (fromUvs (some m), ⟨pre ++ bs ++ post, pre.length + 10 + 11 * (splitUvs m).length, stk⟩)) ∧
    (¬ NearTables bs → readCmap14 ⟨pre ++ bs ++ post, pre.length, stk⟩ = .panic) := by
  obtain ⟨hl, h1, h2, h3, h4⟩ := sub_parts h hb pre post
  have hcnt : (UInt32.ofNat (splitUvs m).length).toNat = (splitUvs m).length := by
    have := (splitUvs_total m).2
    exact ofNat32_toNat (by omega)
  have hsum : ∀ l : List (UInt32 × List (UInt32 × UInt16)), 15 * l.length ≤ (l.map (fun x => 5 * x.2.length + 4 + 11)).sum := by
    intro l
    induction l with
    | nil => simp
    | cons x l ih => simp only [List.map_cons, List.sum_cons, List.length_cons]; omega
  have hsum := hsum (splitUvs m)
  have hf6 : field bs 6 4 = (splitUvs m).length := by
    rw [← field_mid pre bs post (by omega), field_at h3, hcnt]
  have hf : ∀ i < (splitUvs m).length, field (pre ++ bs ++ post) (pre.length + 10 + 7 + 11 * i) 4 = field bs (17 + 11 * i) 4 := by
    intro i hi
    rw [← field_mid pre bs post (by omega)]
    congr 1
    omega
  obtain ⟨r1, r2⟩ := read_sels (splitUvs m) (pre.length + 10) stk h4 (fun x hx =>
    ⟨(fits_split h hx).1, (fits_split h hx).2, split_lengths hm hx⟩)
  have e1 : readU16 ⟨pre ++ bs ++ post, pre.length, pre.length :: stk⟩ = .ok (14, ⟨pre ++ bs ++ post, pre.length + 2, pre.length :: stk⟩) :=
    reads_of_prefix' (reads_u16 14) h1 _ (by simp)
  have e2 : readU32 ⟨pre ++ bs ++ post, pre.length + 2, pre.length :: stk⟩ =
      .ok ((fromUvs (some m)).length, ⟨pre ++ bs ++ post, pre.length + 6, pre.length :: stk⟩) :=
    reads_of_prefix' (reads_u32 _) h2 _ (by simp)
  have e3 : readU32 ⟨pre ++ bs ++ post, pre.length + 6, pre.length :: stk⟩ =
      .ok (UInt32.ofNat (splitUvs m).length, ⟨pre ++ bs ++ post, pre.length + 10, pre.length :: stk⟩) :=
    reads_of_prefix' (reads_u32 _) h3 _ (by simp)
  unfold readCmap14 Lay.inTable
  rw [Reader.bind_run]
  simp only [pushTop]
  rw [Reader.bind_run, Reader.bind_run, e1]
  simp only
  rw [Reader.bind_run, e2]
  simp only
  rw [Reader.bind_run, e3]
  simp only [hcnt]
  rw [Reader.bind_run]
  constructor
  · intro hn
    rw [r1 (fun i hi => by rw [hf i hi]; exact hn i (by rw [hf6]; exact hi))]
    rfl
  · intro hn
    unfold NearTables at hn
    simp only [not_forall] at hn
    obtain ⟨i, hi, hn⟩ := hn
    rw [hf6] at hi
    rw [r2 ⟨i, hi, by rw [hf i hi]; omega⟩]

/-- A saved format 14 subtable is read back if all its tables start within 65535 bytes; otherwise reading panics. -/
theorem readSub14 (p e lang : UInt16) (mp : Map) {m : UvsMap} (hs : BMap.Sorted m) (h : Fits24 m) (hm : m.length < 4294967296) {bs : Bytes}
    (hb : encSubtable (sub14 p e lang mp (some m)) = .ok bs) (pre post : Bytes) (ptr base : Nat) (stk : List Nat) (off : UInt32)
    (p' e' : UInt16) (ho : base + off.toNat = pre.length) :
    (NearTables bs → ∃ r, readSubtable ⟨p', e', off⟩ ⟨pre ++ bs ++ post, ptr, base :: stk⟩ = .ok (sub14 0 5 0 [] (some m), r) ∧
      r.inp = pre ++ bs ++ post ∧ r.stk = base :: stk) ∧
    (¬ NearTables bs → readSubtable ⟨p', e', off⟩ ⟨pre ++ bs ++ post, ptr, base :: stk⟩ = .panic) := by
  have hb : encCmap14 (fromUvs (some m)) = .ok bs := hb
  obtain ⟨r1, r2⟩ := read14 h hm hb pre post (base :: stk)
  obtain ⟨hl, h1, _⟩ := sub_parts h hb pre post
  have h2 : peek 2 ⟨pre ++ bs ++ post, pre.length, base :: stk⟩ =
      .ok ([0, 14], ⟨pre ++ bs ++ post, pre.length, base :: stk⟩) := by
    unfold peek
    rw [if_neg (by simp; omega)]
    obtain ⟨t, ht⟩ := h1
    simp only
    rw [← ht]
    rfl
  unfold readSubtable
  rw [Reader.bind_run]
  simp only [topOfTable]
  rw [Reader.bind_run]
  simp only [setPtr, ho]
  rw [Reader.bind_run, h2]
  simp only
  rw [if_neg (by decide), if_neg (by decide), if_neg (by decide), if_pos trivial, Reader.bind_run]
  constructor
  · intro hn
    rw [r1 hn]
    exact ⟨_, by simp only [toUvs_fromUvs hs]; rfl, rfl, rfl⟩
  · intro hn
    rw [r2 hn]

/-! ### The property -/

/-- **C77** (what can be saved). A format 14 subtable is saved exactly if every character and every selector is below
2^24; otherwise saving panics. (Less than 4 GB of sequences.) Without sequences ten bytes are written. -/
theorem C77_saves (p e lang : UInt16) (mp : Map) (m : UvsMap) (hm : m.length ≤ 200000000) :
    (Fits24 m → ∃ bs, encSubtable (sub14 p e lang mp (some m)) = .ok bs) ∧
    (¬ Fits24 m → encSubtable (sub14 p e lang mp (some m)) = .panic) ∧
    encSubtable (sub14 p e lang mp none) = .ok [0, 14, 0, 0, 0, 10, 0, 0, 0, 0] := by
  refine ⟨fun h => ?_, fun h => ?_, ?_⟩
  · show ∃ bs, encCmap14 (fromUvs (some m)) = .ok bs
    unfold encCmap14
    rw [cmap14Tab_ok h]
    show ∃ bs, toBytes (tabU m) = .ok bs
    apply (C05_outcome _).1
    have hdist : ∀ (t : Tab) (w : Width), (∀ x ∈ allDistances t, x.1 = w) → total t ≤ w.max →
        ∀ x ∈ allDistances t, x.2.2 ≤ x.1.max := by
      intro t w hw ht x hx
      have := distances_le t 0 (size t) (size t + descSize t false) (total t) (by unfold total; omega)
        (by unfold total; omega) x hx
      rw [hw x hx]; omega
    apply hdist _ .w32
    · exact fun x hx => distances_sel _ _ _ _ x hx
    · rw [total_tabU]
      obtain ⟨h1, h2⟩ := splitUvs_total m
      have : ∀ l : List (UInt32 × List (UInt32 × UInt16)), (l.map (fun x => 5 * x.2.length + 4 + 11)).sum =
          15 * l.length + 5 * (l.map (fun x => x.2.length)).sum := by
        intro l
        induction l with
        | nil => rfl
        | cons x l ih => simp only [List.map_cons, List.sum_cons, List.length_cons, ih]; omega
      rw [this]
      simp only [Width.max]
      omega
  · show encCmap14 (fromUvs (some m)) = .panic
    unfold encCmap14
    have := cmap14Tab_no h
    cases hc : cmap14Tab (fromUvs (some m)) with
    | ok t => exact absurd hc (this t)
    | err => rfl
    | panic => rfl
  · show encCmap14 ⟨14, 10, []⟩ = _
    decide

example : Fits24 [((0x4E08, 0xE0100), 7), ((0x4E08, 0xE0101), 8), ((0x4E0D, 0xE0100), 9)] := by
  unfold Fits24; decide
example : ¬ Fits24 [((0x4E08, 0x1000000), 7)] := by unfold Fits24; decide

/-- **C77** (what is written). The saved subtable lists exactly the sequences of the map, is well formed, and its length
field is its length. -/
theorem C77_meaning (p e lang : UInt16) (mp : Map) (m : UvsMap) (hs : BMap.Sorted m) (hm : m.length < 4294967296) (bs : Bytes)
    (hb : encSubtable (sub14 p e lang mp (some m)) = .ok bs) :
    (∀ c s g : Nat, ListsSequence bs c s g ↔ ∃ x ∈ m, x.1.1.toNat = c ∧ x.1.2.toNat = s ∧ x.2.toNat = g) ∧
    WellFormed14 bs ∧ (bs.length < 4294967296 → field bs 2 4 = bs.length) ∧ field bs 0 2 = 14 := by
  have hb : encCmap14 (fromUvs (some m)) = .ok bs := hb
  have h : Fits24 m := by
    by_contra hn
    have := cmap14Tab_no hn
    unfold encCmap14 at hb
    cases hc : cmap14Tab (fromUvs (some m)) with
    | ok t => exact absurd hc (this t)
    | err => rw [hc] at hb; cases hb
    | panic => rw [hc] at hb; cases hb
  obtain ⟨hl, h1, h2, h3, h4⟩ := sub_parts h hb [] []
  simp only [List.nil_append, List.append_nil, List.length_nil, Nat.zero_add] at h1 h2 h3 h4
  have hcnt : (UInt32.ofNat (splitUvs m).length).toNat = (splitUvs m).length := by
    have := (splitUvs_total m).2
    exact ofNat32_toNat (by omega)
  have hf6 : field bs 6 4 = (splitUvs m).length := by rw [field_at h3, hcnt]
  have hsel : ∀ i (hi : i < (splitUvs m).length), field bs (10 + 11 * i) 3 = (splitUvs m)[i].1.toNat ∧
      field bs (13 + 11 * i) 4 = 0 ∧ field bs (17 + 11 * i) 4 ≠ 0 ∧
      field bs (field bs (17 + 11 * i) 4) 4 = (splitUvs m)[i].2.length ∧
      field bs (17 + 11 * i) 4 + (4 + 5 * (splitUvs m)[i].2.length) ≤ bs.length ∧
      ∀ j (hj : j < (splitUvs m)[i].2.length),
        field bs (field bs (17 + 11 * i) 4 + 4 + 5 * j) 3 = (splitUvs m)[i].2[j].1.toNat ∧
        field bs (field bs (17 + 11 * i) 4 + 7 + 5 * j) 2 = (splitUvs m)[i].2[j].2.toNat := by
    intro i hi
    obtain ⟨g1, g2, off, g3, g4, g5, g6⟩ := h4 i hi
    obtain ⟨f1, f2⟩ := fits_split h (List.getElem_mem hi)
    have hoff : field bs (17 + 11 * i) 4 = off.toNat := by
      rw [← field_at g4]; congr 1; omega
    rw [Nat.zero_add] at g5 g6
    rw [hoff]
    refine ⟨?_, ?_, by omega, ?_, g5, ?_⟩
    · have := field_of_prefix (k := 0) (w := 3) g1 (by simp [u24b])
      rw [Nat.add_zero] at this
      rw [this, ← List.append_nil (u24b _), field_u24 f1]
    · have := field_at g2
      rw [show 10 + 11 * i + 3 = 13 + 11 * i by omega] at this
      rw [this]; rfl
    · have := field_of_prefix (k := 0) (w := 4) g6 (by rw [listB_length]; omega)
      rw [Nat.add_zero] at this
      rw [this, listB, field_u32, ofNat32_toNat (split_lengths hm (List.getElem_mem hi))]
    · intro j hj
      have hlb := listB_length (splitUvs m)[i].2
      constructor
      · rw [show off.toNat + 4 + 5 * j = off.toNat + (4 + (5 * j + 0)) by omega,
          field_of_prefix g6 (by omega), listB, field_skip (by simp), field_vec entryB_length (by omega) _ hj, entryB,
          field_u24 (f2 _ (List.getElem_mem hj))]
      · rw [show off.toNat + 7 + 5 * j = off.toNat + (4 + (5 * j + 3)) by omega,
          field_of_prefix g6 (by omega), listB, field_skip (by simp), field_vec entryB_length (by omega) _ hj, entryB,
          field_skip' (j := 0) (by simp [u24b]), field_u16']
  refine ⟨fun c s g => ?_, ⟨?_, ?_, ?_, ?_⟩, fun hlt => ?_, ?_⟩
  · unfold ListsSequence
    rw [hf6]
    constructor
    · rintro ⟨i, hi, e1, e2, j, hj, e3, e4⟩
      obtain ⟨s1, _, _, s4, _, s6⟩ := hsel i hi
      rw [s4] at hj
      obtain ⟨s7, s8⟩ := s6 j hj
      refine ⟨(((splitUvs m)[i].2[j].1, (splitUvs m)[i].1), (splitUvs m)[i].2[j].2), ?_, ?_, ?_, ?_⟩
      · apply mem_forSel.mp
        rw [← (mem_splitUvs.mp (List.getElem_mem hi)).1]
        exact List.getElem_mem hj
      · rw [← e3, s7]
      · rw [← e1, s1]
      · rw [← e4, s8]
    · rintro ⟨⟨⟨c', s'⟩, g'⟩, hx, rfl, rfl, rfl⟩
      have h5 := mem_forSel.mpr hx
      have h6 : (s', forSel m s') ∈ splitUvs m := mem_splitUvs.mpr ⟨rfl, List.ne_nil_of_mem h5⟩
      obtain ⟨i, hi, e⟩ := List.mem_iff_getElem.mp h6
      obtain ⟨j, hj, e'⟩ := List.mem_iff_getElem.mp h5
      obtain ⟨s1, _, s3, s4, _, s6⟩ := hsel i hi
      have e2 : (splitUvs m)[i].2 = forSel m s' := by rw [e]
      have hj' : j < (splitUvs m)[i].2.length := by rw [e2]; exact hj
      obtain ⟨s7, s8⟩ := s6 j hj'
      have e3 : (splitUvs m)[i].2[j] = (c', g') := by rw [← e']; congr 1
      refine ⟨i, hi, by rw [s1, e], s3, j, by rw [s4]; exact hj', ?_, ?_⟩
      · rw [s7, e3]
      · rw [s8, e3]
  · intro i hi
    rw [hf6] at hi
    exact (hsel i hi).2.1
  · intro i k hik hk
    rw [hf6] at hk
    rw [(hsel i (by omega)).1, (hsel k hk).1]
    have := List.pairwise_iff_getElem.mp (splitUvs_sorted m) i k (by omega) hk hik
    simpa [Key.lt] using this
  · intro i hi j k hjk hk
    rw [hf6] at hi
    obtain ⟨_, _, _, s4, _, s6⟩ := hsel i hi
    rw [s4] at hk
    rw [(s6 j (by omega)).1, (s6 k hk).1]
    have hsrt := forSel_sorted hs (splitUvs m)[i].1
    rw [← (mem_splitUvs.mp (List.getElem_mem hi)).1] at hsrt
    have := List.pairwise_iff_getElem.mp hsrt j k (by omega) hk hjk
    simpa [Key.lt] using this
  · intro i hi
    rw [hf6] at hi
    obtain ⟨_, _, _, s4, s5, _⟩ := hsel i hi
    rw [s4]; omega
  · rw [field_at h2]
    simp only [fromUvs]
    rw [← hl, ofNat32_toNat (by omega)]
  · have := field_of_prefix (k := 0) (w := 2) h1 (by simp)
    rw [Nat.add_zero] at this
    rw [this, field_u16']; rfl

example : BMap.Sorted ([((0x4E08, 0xE0100), 7), ((0x4E08, 0xE0101), 8), ((0x4E0D, 0xE0100), 9)] : UvsMap) ∧
    ∃ bs, encSubtable (sub14 0 5 0 [] (some [((0x4E08, 0xE0100), 7), ((0x4E08, 0xE0101), 8), ((0x4E0D, 0xE0100), 9)])) = .ok bs :=
  ⟨by simp [BMap.Sorted, Key.lt], _, rfl⟩

/-- **C77** (reading back). A saved format 14 subtable, wherever it is in a file, is read as the same sequences (for
platform 0, encoding 5, language 0) if all its tables start at most 65535 bytes into it; otherwise reading panics. -/
theorem C77_roundtrip (p e lang : UInt16) (mp : Map) (m : UvsMap) (hs : BMap.Sorted m) (hm : m.length < 4294967296) (bs : Bytes)
    (hb : encSubtable (sub14 p e lang mp (some m)) = .ok bs) (p' e' : UInt16) (pre post : Bytes) (ptr base : Nat) (stk : List Nat)
    (off : UInt32) (ho : base + off.toNat = pre.length) :
    (NearTables bs → ∃ r, readSubtable ⟨p', e', off⟩ ⟨pre ++ bs ++ post, ptr, base :: stk⟩ = .ok (sub14 0 5 0 [] (some m), r)) ∧
    (¬ NearTables bs → readSubtable ⟨p', e', off⟩ ⟨pre ++ bs ++ post, ptr, base :: stk⟩ = .panic) := by
  have h : Fits24 m := by
    by_contra hn
    have hb : encCmap14 (fromUvs (some m)) = .ok bs := hb
    have := cmap14Tab_no hn
    unfold encCmap14 at hb
    cases hc : cmap14Tab (fromUvs (some m)) with
    | ok t => exact absurd hc (this t)
    | err => rw [hc] at hb; cases hb
    | panic => rw [hc] at hb; cases hb
  obtain ⟨r1, r2⟩ := readSub14 p e lang mp hs h hm hb pre post ptr base stk off p' e' ho
  refine ⟨fun hn => ?_, r2⟩
  obtain ⟨r, hr, _⟩ := r1 hn
  exact ⟨r, hr⟩

/-- **C77** (small subtables are always fine). A saved subtable of at most 65535 bytes can be read back. -/
theorem C77_small (p e lang : UInt16) (mp : Map) (m : UvsMap) (hs : BMap.Sorted m) (hm : m.length < 4294967296) (bs : Bytes)
    (hb : encSubtable (sub14 p e lang mp (some m)) = .ok bs) (hl : bs.length ≤ 65535) :
    SavedAs (sub14 p e lang mp (some m)) (sub14 0 5 0 [] (some m)) := by
  have hn : NearTables bs := by
    intro i hi
    have := (C77_meaning p e lang mp m hs hm bs hb).2.1.inside i hi
    omega
  refine ⟨bs, hb, ?_⟩
  obtain ⟨r, hr⟩ := (C77_roundtrip p e lang mp m hs hm bs hb p e [] [] 0 0 [] 0 rfl).1 hn
  simp only [List.nil_append, List.append_nil] at hr
  exact ⟨r, hr⟩

/-- **C77** (nothing). A format 14 subtable without a map of sequences comes back with an empty one. -/
theorem C77_none (p e lang : UInt16) (mp : Map) : SavedAs (sub14 p e lang mp none) (sub14 0 5 0 [] (some [])) :=
  ⟨_, (C77_saves p e lang mp [] (by simp)).2.2, ⟨[0, 14, 0, 0, 0, 10, 0, 0, 0, 0], 10, [0]⟩, rfl⟩

end FT.Props
