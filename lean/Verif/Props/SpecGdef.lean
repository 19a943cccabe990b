import Verif.Props.SpecLink
import Verif.Props.ItemVar
import Verif.Model.Gdef

/-!
# C82: the bytes of the GDEF table and of item variation stores

Compared with the OpenType specification.
-/

namespace FT.Props
open FT FT.Off FT.Lay FT.Gdef

/-! ### Specification -/

/-- The numbers of the glyph classes. -/
def glyphClassNumber : GlyphClass → UInt16
  | .base => 1
  | .ligature => 2
  | .mark => 3
  | .component => 4

/-- The device table of a caret value. -/
def caretDevice : DevLink → Option Device.Device
  | .null => none
  | .dev _ d => some d

/-- Caret values: a coordinate, a contour point, or a coordinate with a device table. -/
def caretRows : Caret → List Cell
  | .format1 c => [.num 2 1, i16 c]
  | .format2 p => [.num 2 2, u16 p]
  | .format3 c d => [.num 2 3, i16 c, linked DeviceAt (caretDevice d)]

/-- The attachment point list. -/
def attachRows (m : List (UInt16 × List UInt16)) : List Cell :=
  [.ref 2 (CoverageAt (m.map Prod.fst)), .num 2 m.length] ++ m.map (fun x => .ref 2 (At (wordRows x.2)))

/-- The ligature caret list. -/
def ligCaretRows (m : List (UInt16 × List Caret)) : List Cell :=
  [.ref 2 (CoverageAt (m.map Prod.fst)), .num 2 m.length] ++ m.map (fun x =>
    .ref 2 (At (.num 2 x.2.length :: x.2.map (fun c => .ref 2 (At (caretRows c))))))

/-- Mark glyph sets, reached by 32-bit offsets. -/
def markSetRows (l : List (List UInt16)) : List Cell :=
  [.num 2 1, .num 2 l.length] ++ l.map (fun gs => .ref 4 (CoverageAt gs))

/-- Item variation data, all columns being two bytes wide. -/
def itemDataRows (d : ItemVar.Data) : List Cell :=
  [.num 2 d.deltas.length, .num 2 d.regions.length] ++ wordRows d.regions ++ d.deltas.flatMap (fun r => r.map i16)

/-- A list of variation regions. -/
def regionListRows (axisCount : UInt16) (l : List (List ItemVar.RegionAxis)) : List Cell :=
  [u16 axisCount, .num 2 l.length] ++
    l.flatMap (fun r => r.flatMap (fun x => [f2dot14 x.start, f2dot14 x.peak, f2dot14 x.stop]))

/-- An item variation store. -/
def itemStoreRows (s : ItemVar.Store) : List Cell :=
  [.num 2 1, .ref 4 (At (regionListRows s.axisCount s.regions)), .num 2 s.data.length] ++
    s.data.map (fun d => .ref 4 (At (itemDataRows d)))

/-- An offset to the table of a map, null for the empty map. -/
def unlessEmpty {α : Type} (m : List α) (P : Bytes → Nat → Prop) : Cell := if m = [] then .null 2 else .ref 2 P

/-- GDEF, version 1.2, or 1.3 with an item variation store. -/
def gdefRows (g : GDEF) : List Cell :=
  [.num 2 1, .num 2 (if g.store = none then 2 else 3),
    unlessEmpty g.glyphClass (ClassAt (g.glyphClass.map (fun x => (x.1, glyphClassNumber x.2)))),
    unlessEmpty g.attach (At (attachRows g.attach)),
    unlessEmpty g.carets (At (ligCaretRows g.carets)),
    unlessEmpty g.markClass (ClassAt g.markClass),
    linked (fun l => At (markSetRows l)) g.markSets] ++
  (match g.store with | none => [] | some s => [.ref 4 (At (itemStoreRows s))])

/-- Every row of deltas has as many as there are regions, and the regions are made of numbers the format has. -/
def StoreWritable (s : ItemVar.Store) : Prop :=
  (∀ r ∈ s.regions, ∀ x ∈ r, OnGrid x.start ∧ OnGrid x.peak ∧ OnGrid x.stop) ∧
  ∀ d ∈ s.data, ∀ r ∈ d.deltas, r.length = d.regions.length

/-! ### Proofs -/

/-- As `pics_bytes`, for a table that is part of a buffer. -/
theorem pics_inside {t : Tab} {rows : List Cell} {bs : Bytes} (h : Pics t rows) (hb : toBytes t = .ok bs) {B : Bytes}
    {start : Nat} (hl : start ≤ B.length) (hp : bs <+: B.drop start) : At rows B start := by
  obtain ⟨after, ha⟩ := hp
  obtain ⟨ext, h1, _⟩ := C05_offsets_right t bs hb (B.take start) after
  have e : B.take start ++ bs ++ after = B := by rw [List.append_assoc, ha, List.take_append_drop]
  have e2 : (B.take start).length = start := by rw [List.length_take]; omega
  rw [e, e2] at h1
  exact h.2 B start start ext h1

theorem row_lays {n : Nat} : ∀ {l : List Int16} {ix : Nat}, ix + l.length ≤ n →
    Lays (ItemVar.encRow n ix l) (l.map i16)
  | [], _, _ => lays_nil
  | d :: l, ix, h => by
    simp only [List.length_cons] at h
    rw [ItemVar.encRow, if_pos (by omega)]
    exact (lays_i16 d).cons (row_lays (by omega))

theorem itemData_lays {d : ItemVar.Data} (h : ∀ r ∈ d.deltas, r.length = d.regions.length) :
    Lays (ItemVar.encData d) (itemDataRows d) := by
  unfold ItemVar.encData itemDataRows
  rw [List.append_assoc]
  refine (lays_len _).cons ((lays_len _).cons ((lays_words _).append (lays_vec fun r hr => row_lays ?_)))
  rw [h r hr, Nat.zero_add]

theorem axis_lays {x : ItemVar.RegionAxis} (h : OnGrid x.start ∧ OnGrid x.peak ∧ OnGrid x.stop) {b : Bytes}
    (e : ItemVar.encRegionAxis x = .ok b) : Lays b [f2dot14 x.start, f2dot14 x.peak, f2dot14 x.stop] := by
  unfold ItemVar.encRegionAxis at e
  obtain ⟨a, e1, e⟩ := Res.bind_inv e
  obtain ⟨b, e2, e⟩ := Res.bind_inv e
  obtain ⟨c, e3, e⟩ := Res.bind_inv e
  cases e
  exact (lays_f2dot14 h.1 e1).cons ((lays_f2dot14 h.2.1 e2).cons (lays_f2dot14 h.2.2 e3))

/-- Item variation stores. -/
theorem itemStore_pics {s : ItemVar.Store} (h : StoreWritable s) {rb : Bytes}
    (e : ItemVar.encRegionList ⟨s.axisCount, UInt16.ofNat s.regions.length, s.regions⟩ = .ok rb) :
    Pics (ItemVar.storeTab rb s.data) (itemStoreRows s) := by
  unfold ItemVar.encRegionList at e
  obtain ⟨b, hb, e⟩ := Res.bind_inv e
  cases e
  unfold ItemVar.storeTab itemStoreRows
  refine (lays_len 1).pics.cons (Pics.cons (pics_ref (Lays.pics ?_).at) ((lays_len _).pics.cons ?_))
  · exact (lays_u16 _).cons ((lays_len _).cons (lays_vecR hb fun r hr b hb =>
      lays_vecR hb fun x hx b hb => axis_lays (h.1 r hr x hx) hb))
  · have : ∀ l : List ItemVar.Data, (∀ d ∈ l, ∀ r ∈ d.deltas, r.length = d.regions.length) →
        Pics (Tab.concat (l.map fun d => Tab.link .w32 true false none (.bytes (ItemVar.encData d)) .nil))
          (l.map (fun d => .ref 4 (At (itemDataRows d)))) := by
      intro l hl
      induction l with
      | nil => exact pics_nil
      | cons d l ih =>
        exact Pics.cons (pics_ref (w := .w32) (itemData_lays (hl d (by simp))).pics.at) (ih fun d hd => hl d (by simp [hd]))
    exact this _ h.2

/-- **C82.** A written item variation store has the layout of the OpenType specification, its offsets counting from its
own start, wherever it is put. -/
theorem C82_item_store (s : ItemVar.Store) (h : StoreWritable s) (bs : Bytes) (hb : ItemVar.encStore s = .ok bs)
    (before after : Bytes) : At (itemStoreRows s) (before ++ bs ++ after) before.length := by
  unfold ItemVar.encStore at hb
  split at hb
  · next rb e =>
    refine pics_inside (itemStore_pics h e) hb (by simp) ?_
    rw [List.append_assoc, List.drop_left]
    exact List.prefix_append _ _
  · cases hb

theorem caret_at {c : Caret} {t : Tab} (h : caretTab c = .ok t) : PicsAt t (At (caretRows c)) := by
  refine Pics.at ?_
  unfold caretTab at h
  split at h
  · cases h; exact ((lays_len 1).cons (lays_i16 _)).pics
  · cases h; exact ((lays_len 2).cons (lays_u16 _)).pics
  · cases h; exact Pics.append ((lays_len 3).cons (lays_i16 _)).pics (pics_null .w16)
  · cases h
  · split at h
    · next bs hb => cases h; exact Pics.append ((lays_len 3).cons (lays_i16 _)).pics (pics_ref (w := .w16) (device_at hb))
    · cases h

theorem attach_at {m : List (UInt16 × List UInt16)} {t : Tab} (h : attachTab m = .ok t) :
    PicsAt t (At (attachRows m)) := by
  unfold attachTab at h
  obtain ⟨c, hc, h⟩ := Res.bind_inv h
  obtain ⟨v, hv, h⟩ := Res.bind_inv h
  cases h
  have := pics_offVec (P := fun l => At (wordRows l)) hv fun x _ a _ t ht => by cases ht; exact (lays_words a).pics.at
  rw [List.length_map, List.map_map] at this
  exact (Pics.cons (pics_ref (w := .w16) (covTab_at hc)) this).at

theorem ligCaret_at {m : List (UInt16 × List Caret)} {t : Tab} (h : caretsTab m = .ok t) :
    PicsAt t (At (ligCaretRows m)) := by
  unfold caretsTab at h
  obtain ⟨c, hc, h⟩ := Res.bind_inv h
  obtain ⟨v, hv, h⟩ := Res.bind_inv h
  cases h
  have := pics_offVec (P := fun l => At (.num 2 l.length :: l.map (linked fun c => At (caretRows c)))) hv
    fun x _ a _ t ht => (pics_offVec (P := fun c => At (caretRows c)) ht fun _ _ _ _ _ ht => caret_at ht).at
  rw [List.length_map, List.map_map] at this
  simp only [Function.comp_def, linked, List.map_map, List.length_map] at this
  exact (Pics.cons (pics_ref (w := .w16) (covTab_at hc)) this).at

theorem markSets_at {l : List (List UInt16)} {t : Tab} (h : setsTab l = .ok t) : PicsAt t (At (markSetRows l)) := by
  unfold setsTab at h
  obtain ⟨ts, hts, h⟩ := Res.bind_inv h
  cases h
  refine (Pics.append ((lays_len 1).cons (lays_len _)).pics (pics_list1 hts fun gs _ t ht => ?_)).at
  unfold setLink at ht
  obtain ⟨c, hc, ht⟩ := Res.bind_inv ht
  cases ht
  exact pics_ref (w := .w32) (covTab_at hc)

theorem mapOff_pics {α : Type} {f : List α → Res Tab} {m : List α} {t : Tab} {P : Bytes → Nat → Prop}
    (h : mapOff f m = .ok t) (hf : ∀ t, f m = .ok t → PicsAt t P) : Pics t [unlessEmpty m P] := by
  unfold mapOff at h
  unfold unlessEmpty
  cases m with
  | nil => cases h; exact pics_null .w16
  | cons a m =>
    simp only [List.isEmpty_cons, Bool.false_eq_true, if_false] at h
    have := pics_opt (P := fun _ => P) h fun x hx t ht => by cases hx; exact hf t ht
    simpa [linked] using this

/-- **C82.** A written GDEF table has the layout of the OpenType specification. -/
theorem C82_gdef (g : GDEF) (hs : ∀ s ∈ g.store, StoreWritable s) (bs : Bytes) (h : encGdef g = .ok bs) :
    At (gdefRows g) bs 0 := by
  unfold encGdef at h
  obtain ⟨t, ht, h⟩ := Res.bind_inv h
  refine pics_bytes ?_ h
  unfold gdefTab at ht
  obtain ⟨gc, h1, ht⟩ := Res.bind_inv ht
  obtain ⟨al, h2, ht⟩ := Res.bind_inv ht
  obtain ⟨lc, h3, ht⟩ := Res.bind_inv ht
  obtain ⟨mc, h4, ht⟩ := Res.bind_inv ht
  obtain ⟨ms, h5, ht⟩ := Res.bind_inv ht
  obtain ⟨st, h6, ht⟩ := Res.bind_inv ht
  cases ht
  have e0 : Pics (Tab.bytes (encU16 (if g.store.isSome then 3 else 2))) [.num 2 (if g.store = none then 2 else 3)] := by
    cases g.store with
    | none => exact (lays_len 2).pics
    | some s => exact (lays_len 3).pics
  have p1 := mapOff_pics h1 fun t ht => classTab_at ht
  have e1 : unlessEmpty (g.glyphClass.map (fun x => (x.1, x.2.num))) (ClassAt (g.glyphClass.map (fun x => (x.1, x.2.num)))) =
      unlessEmpty g.glyphClass (ClassAt (g.glyphClass.map (fun x => (x.1, glyphClassNumber x.2)))) := by
    have : (fun x : UInt16 × GlyphClass => (x.1, x.2.num)) = fun x => (x.1, glyphClassNumber x.2) :=
      funext fun x => by cases x.2 <;> rfl
    simp only [unlessEmpty, this, List.map_eq_nil_iff]
  rw [e1] at p1
  have p6 : Pics st (match g.store with | none => [] | some s => [.ref 4 (At (itemStoreRows s))]) := by
    cases e : g.store with
    | none => rw [e] at h6; cases h6; exact pics_nil
    | some s =>
      rw [e] at h6
      simp only [storeField, storeLink] at h6
      split at h6
      · next sb hsb =>
        cases h6
        refine pics_ref (w := .w32) fun B start ext hl hh => ?_
        obtain ⟨after, ha⟩ := hh.1
        have := C82_item_store s (hs s e) sb hsb (B.take start) after
        rw [List.append_assoc, ha, List.take_append_drop, List.length_take, Nat.min_eq_left (by omega)] at this
        exact this
      · cases h6
  exact (lays_len 1).pics.cons (e0.cons (p1.cons ((mapOff_pics h2 fun t ht => attach_at ht).cons
    ((mapOff_pics h3 fun t ht => ligCaret_at ht).cons ((mapOff_pics h4 fun t ht => classTab_at ht).cons
      ((pics_opt (P := fun l => At (markSetRows l)) h5 fun _ _ _ ht => markSets_at ht).cons p6))))))

/-- A table with every part: carets of all formats, one with a device, mark glyph sets and a variation store. -/
def specGdef : GDEF := ⟨[(1, .mark), (3, .ligature)], [(4, [1, 2]), (9, [])],
  [(5, [.format1 7, .format2 3, .format3 9 (.dev true ⟨11, 12, none, [1, -1]⟩)])], [(1, 2)], some [[1, 2], [7]],
  some ⟨1, 1, [[⟨0, 1, 1⟩]], [⟨[0], [[-200], [7]]⟩]⟩⟩

set_option maxRecDepth 100000 in
example : (∀ s ∈ specGdef.store, StoreWritable s) ∧
    (match encGdef specGdef with | .ok bs => decide (100 < bs.length) | _ => false) = true := by
  refine ⟨?_, by decide +kernel⟩
  simp only [specGdef, Option.mem_def, Option.some.injEq, forall_eq']
  refine ⟨?_, by simp⟩
  simp only [List.mem_singleton, forall_eq]
  exact ⟨⟨0, by norm_num, by norm_num, by norm_num⟩, ⟨16384, by norm_num, by norm_num, by norm_num⟩,
    ⟨16384, by norm_num, by norm_num, by norm_num⟩⟩

end FT.Props
