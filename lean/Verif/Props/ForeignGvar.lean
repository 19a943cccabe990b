import Verif.Props.ForeignGlyf
import Verif.Props.IupGlyph
import Verif.Props.GvarBounds
import Verif.Props.GvarPoints

/-!
C94: glyph variations (`gvar`) of fonts written by any program.
-/

namespace FT.Props
open FT FT.F32 FT.Glyf FT.Iup FT.TupleVar FT.Gvar Reader

/-! ### Specification -/

/-- Whether offsets are long. -/
def gvarLong (B : Bytes) : Bool := field B 14 2 % 2 = 1

/-- Where the data of glyph `i` begins, from the beginning of the data: short offsets are half of it. -/
def gvarOffset (B : Bytes) (i : Nat) : Nat := if gvarLong B then field B (20 + 4 * i) 4 else 2 * field B (20 + 2 * i) 2

/-- Shared tuple `k`: one 2.14 number for each axis. -/
def sharedPeak (B : Bytes) (k : Nat) : List ℚ :=
  (List.range (field B 4 2)).map fun a => (signed16 (field B (field B 8 4 + 2 * field B 4 2 * k + 2 * a) 2) : ℚ) / 16384

/-- The first point of contour `k`, the contours starting at point `s`. -/
def contourStart (s : Nat) : List Nat → Nat → Nat
  | _, 0 => s
  | [], _ + 1 => s
  | e :: es, k + 1 => contourStart (e + 1) es k

/-- The part of a list from `s` up to and with `e`. -/
def stretch {α : Type} (l : List α) (s e : Nat) : List α := (l.drop s).take (e + 1 - s)

/-- The contours ending at these points cover all `n` points. -/
def EndsCover (s n : Nat) (ends : List Nat) : Prop :=
  (∀ (k e : Nat), ends[k]? = some e → contourStart s ends k ≤ e + 1 ∧ e < n) ∧ contourStart s ends ends.length = n

/-- The deltas of a contour some of which are given: these stay; if none is given, nothing moves; otherwise an omitted one is
inferred from the nearest given ones before and after it. -/
def ContourSays (gs : List (Option Pt)) (cs out : List Pt) : Prop :=
  out.length = gs.length ∧
  (∀ (i : Nat) (d : Pt), gs[i]? = some (some d) → out[i]? = some d) ∧
  ((∀ i : Nat, ¬ Given gs i) → out = List.replicate gs.length (0, 0)) ∧
  (∀ i : Nat, gs[i]? = some none → (∃ j, Given gs j) →
    ∃ (p q : Nat) (cp dp cq dq c r : Pt), NearestBefore gs i p ∧ NearestAfter gs i q ∧
      cs[p]? = some cp ∧ gs[p]? = some (some dp) ∧ cs[q]? = some cq ∧ gs[q]? = some (some dq) ∧ cs[i]? = some c ∧
      out[i]? = some r ∧ InferredPoint cp dp cq dq c r)

/-- The deltas of all points of a glyph. -/
def DeltasSay (gs : List (Option Pt)) (cs : List Pt) (ends : List Nat) (out : List Pt) : Prop :=
  out.length = gs.length ∧ ∀ (k e : Nat), ends[k]? = some e →
    ContourSays (stretch gs (contourStart 0 ends k) e) (stretch cs (contourStart 0 ends k) e) (stretch out (contourStart 0 ends k) e)

/-- The guard for inferring deltas: the differences between the nearest given points fit 16 bits. -/
def ContourFits (gs : List (Option Pt)) (cs : List Pt) : Prop :=
  ∀ (i p q : Nat) (cp dp cq dq : Pt), gs[i]? = some none → NearestBefore gs i p → NearestAfter gs i q →
    cs[p]? = some cp → gs[p]? = some (some dp) → cs[q]? = some cq → gs[q]? = some (some dq) → RefsFit cp dp cq dq

/-- A two-dimensional delta as a point. -/
def pairOf : Option Delta → Option Pt
  | some (.d2 x y) => some (x, y)
  | _ => none

/-- One variation of a glyph: the peak embedded or shared, the differences in range. -/
structure VariationValid (B : Bytes) (c : List Pt × List Nat) (v : Variation) : Prop where
  shared : v.header.peakTuple = none → v.header.sharedTupleIndex.toNat < field B 6 2
  embedded : v.header.sharedTupleIndex.toNat ≤ field B 6 2 + 1
  fits : ∀ (k e : Nat), c.2[k]? = some e →
    ContourFits (stretch (v.deltas.map pairOf) (contourStart 0 c.2 k) e) (stretch c.1 (contourStart 0 c.2 k) e)

/-- What a variation of a glyph says: its peak is the embedded one or the shared one with its index; its start and end are those
given, or else reach from nought to the end of the axis on the side of the peak; its deltas are the given ones and the inferred
ones. -/
structure VariationSays (B : Bytes) (c : List Pt × List Nat) (v : Variation) (d : DeltaSet) : Prop where
  peak : d.peak = v.header.peakTuple.getD (sharedPeak B v.header.sharedTupleIndex.toNat)
  start : d.start = v.header.startTuple.getD (d.peak.map fun x => if 0 < x then 0 else -1)
  stop : d.stop = v.header.endTuple.getD (d.peak.map fun x => if 0 < x then 1 else 0)
  deltas : DeltasSay (v.deltas.map pairOf) c.1 c.2 d.deltas

/-- A `gvar` table for glyphs with these points and contours, in which these variations are stored, as OpenType defines. -/
structure GvarStored (B : Bytes) (ce : List (List Pt × List Nat)) (stores : List (Option (List Variation))) : Prop where
  glyphs : field B 12 2 = stores.length
  few : stores.length < 65535
  tuples : field B 6 2 < 65535
  short : gvarLong B = false → ∀ i ≤ stores.length, gvarOffset B i < 65536
  offsets : 20 + (if gvarLong B then 4 else 2) * (stores.length + 1) ≤ B.length
  room : field B 8 4 + 2 * field B 4 2 * (field B 6 2 + 1) ≤ B.length
  near : ∀ i ≤ stores.length, field B 16 4 + gvarOffset B i ≤ 4294967295
  empty : ∀ i, stores[i]? = some none → gvarOffset B i = gvarOffset B (i + 1)
  data : ∀ i vs, stores[i]? = some (some vs) → gvarOffset B i < gvarOffset B (i + 1) ∧
    ∃ c, ce[i]? = some c ∧ c.1.length ≤ 65535 ∧ EndsCover 0 c.1.length c.2 ∧
      (∃ b rest, B.drop (field B 16 4 + gvarOffset B i) = b ++ rest ∧ DescribesStore (field B 4 2) true c.1.length vs b) ∧
      ∀ v ∈ vs, VariationValid B c v

/-! ### Deltas -/

theorem contours_say {gs : List (Option Pt)} {cs : List Pt} (hl : cs.length = gs.length) : ∀ (ends : List Nat) (s : Nat),
    EndsCover s gs.length ends → s ≤ gs.length →
    (∀ k e, ends[k]? = some e → ContourFits (stretch gs (contourStart s ends k) e) (stretch cs (contourStart s ends k) e)) →
    ∃ out, iupContours (asDeltas gs) cs s ends = .ok out ∧ s + out.length = gs.length ∧
      ∀ k e, ends[k]? = some e → ContourSays (stretch gs (contourStart s ends k) e) (stretch cs (contourStart s ends k) e)
        ((out.drop (contourStart s ends k - s)).take (e + 1 - contourStart s ends k)) ∧ s ≤ contourStart s ends k
  | [], s, hc, _, _ => ⟨[], rfl, hc.2, by simp⟩
  | e :: es, s, hc, hs, hf => by
    obtain ⟨h1, h2⟩ := hc.1 0 e rfl
    have h1' : s ≤ e + 1 := h1
    obtain ⟨out, o1, o2, o3⟩ := contours_say hl es (e + 1) ⟨fun k e' hk => hc.1 (k + 1) e' hk, hc.2⟩ (by omega)
      (fun k e' hk => hf (k + 1) e' hk)
    have hcl : (stretch cs s e).length = (stretch gs s e).length := by
      unfold stretch; simp only [List.length_take, List.length_drop]; omega
    obtain ⟨l, hl1⟩ := (C41_returns (stretch gs s e) (stretch cs s e) hcl).2 (hf 0 e rfl)
    have say := C41_contour _ _ hcl l hl1
    have ll : l.length = e + 1 - s := by
      rw [say.1]; unfold stretch; simp only [List.length_take, List.length_drop]; omega
    refine ⟨l ++ out, ?_, by rw [List.length_append]; omega, ?_⟩
    · unfold iupContours
      rw [show Iup.slice (asDeltas gs) s (e + 1) = .ok (asDeltas (stretch gs s e)) by
        unfold Iup.slice stretch
        rw [if_pos ⟨h1', by rw [List.length_map]; omega⟩, asDeltas, asDeltas, List.map_take, List.map_drop]]
      rw [show Iup.slice cs s (e + 1) = .ok (stretch cs s e) by
        unfold Iup.slice stretch
        rw [if_pos ⟨h1', by omega⟩]]
      simp only [Res.ok_bind]
      rw [hl1, Res.ok_bind, o1, Res.ok_bind]
      rfl
    · intro k e' hk
      cases k with
      | zero =>
        cases hk
        refine ⟨?_, le_refl _⟩
        show ContourSays _ _ (((l ++ out).drop (s - s)).take (e + 1 - s))
        rw [Nat.sub_self, List.drop_zero, List.take_left' ll]
        exact say
      | succ k =>
        obtain ⟨q1, q2⟩ := o3 k e' hk
        refine ⟨?_, ?_⟩
        · show ContourSays (stretch gs (contourStart (e + 1) es k) e') (stretch cs (contourStart (e + 1) es k) e')
            (((l ++ out).drop (contourStart (e + 1) es k - s)).take (e' + 1 - contourStart (e + 1) es k))
          rw [show contourStart (e + 1) es k - s = l.length + (contourStart (e + 1) es k - (e + 1)) by omega, List.drop_append]
          rw [List.drop_eq_nil_of_le (by omega), List.nil_append, Nat.add_sub_cancel_left]
          exact q1
        · show s ≤ contourStart (e + 1) es k
          omega

theorem all_given {gs : List (Option Pt)} (h : (asDeltas gs).all (·.isSome) = true) (i : Nat) (hi : i < gs.length) :
    ∃ d, gs[i]? = some (some d) := by
  rw [List.all_eq_true] at h
  rw [List.getElem?_eq_getElem hi]
  have := h ((gs[i]).map twoD) (by simp only [List.mem_map]; exact ⟨gs[i], List.getElem_mem hi, rfl⟩)
  cases hg : gs[i] with
  | none => rw [hg] at this; simp at this
  | some d => exact ⟨d, rfl⟩

theorem deltas_say {gs : List (Option Pt)} {cs : List Pt} {ends : List Nat} (hl : cs.length = gs.length)
    (hc : EndsCover 0 gs.length ends)
    (hf : ∀ k e, ends[k]? = some e → ContourFits (stretch gs (contourStart 0 ends k) e) (stretch cs (contourStart 0 ends k) e)) :
    ∃ out, iupDelta (asDeltas gs) cs ends = .ok out ∧ DeltasSay gs cs ends out := by
  unfold iupDelta
  split
  · rename_i hall
    have hg := fun i hi => all_given hall i hi
    have : ∃ ps : List Pt, gs = ps.map some := by
      refine ⟨gs.map (fun o => o.getD (0, 0)), ?_⟩
      apply List.ext_getElem?
      intro i
      by_cases hi : i < gs.length
      · obtain ⟨d, hd⟩ := hg i hi
        rw [List.getElem?_map, List.getElem?_map, hd]
        rfl
      · rw [List.getElem?_eq_none (by omega), List.getElem?_eq_none (by simp; omega)]
    obtain ⟨ps, rfl⟩ := this
    have e : Res.mapL (givenAt (asDeltas (ps.map some))) (List.range (asDeltas (ps.map some)).length) = .ok ps := by
      have := iupDelta_full ps cs ends
      unfold iupDelta at this
      rw [if_pos] at this
      · have e2 : asDeltas (ps.map some) = ps.map (fun p => some (twoD p)) := by rw [asDeltas, List.map_map]; rfl
        rw [e2]; exact this
      · simp
    refine ⟨ps, e, by simp, ?_⟩
    intro k e hk
    have es : stretch (ps.map some) (contourStart 0 ends k) e = (stretch ps (contourStart 0 ends k) e).map some := by
      unfold stretch; rw [List.map_take, List.map_drop]
    rw [es]
    generalize stretch ps (contourStart 0 ends k) e = qs
    refine ⟨by simp, ?_, ?_, ?_⟩
    · intro i d hi
      rw [List.getElem?_map] at hi
      cases hq : qs[i]? with
      | none => rw [hq] at hi; simp at hi
      | some q => rw [hq] at hi; simpa using hi
    · intro hn
      cases qs with
      | nil => rfl
      | cons q qs => exact absurd ⟨q, rfl⟩ (hn 0)
    · intro i hi
      rw [List.getElem?_map] at hi
      cases hq : qs[i]? with
      | none => rw [hq] at hi; simp at hi
      | some q => rw [hq] at hi; simp at hi
  · obtain ⟨out, o1, o2, o3⟩ := contours_say hl ends 0 hc (by omega) hf
    refine ⟨out, o1, by omega, fun k e hk => ?_⟩
    have := (o3 k e hk).1
    rwa [Nat.sub_zero] at this

/-! ### One variation -/

theorem givenFrom_of_mem : ∀ (l : List (Option Delta)) (i : Nat) (d : Delta), some d ∈ l → ∃ j, (j, d) ∈ givenFrom i l
  | none :: l, i, d, h => by
    rw [List.mem_cons] at h
    exact givenFrom_of_mem l (i + 1) d (h.resolve_left (by simp))
  | some e :: l, i, d, h => by
    rw [List.mem_cons] at h
    rcases h with h | h
    · injection h with h
      subst h
      exact ⟨i, by simp [givenFrom]⟩
    · obtain ⟨j, hj⟩ := givenFrom_of_mem l (i + 1) d h
      exact ⟨j, by simp [givenFrom, hj]⟩

theorem pairs_only {pc : Nat} {shared : Option (List UInt16)} {v : Variation} {b : Bytes} (h : DescribesData true pc shared v b) :
    asDeltas (v.deltas.map pairOf) = v.deltas ∧ v.deltas.length = pc := by
  obtain ⟨nums, pb, db, ds, -, -, hd, hlen, hg, hn⟩ := h
  refine ⟨?_, hlen⟩
  rw [asDeltas, List.map_map]
  conv => rhs; rw [← List.map_id v.deltas]
  apply List.map_congr_left
  intro o ho
  cases o with
  | none => rfl
  | some d =>
    obtain ⟨j, hj⟩ := givenFrom_of_mem v.deltas 0 d ho
    rw [hg] at hj
    have hm := (List.of_mem_zip hj).2
    cases hd with
    | pairs xs ys bx b' hxy hx hy =>
      obtain ⟨k, hk⟩ := List.getElem?_of_mem hm
      rw [List.getElem?_zipWith] at hk
      cases ha : xs[k]? with
      | none => simp [ha] at hk
      | some x =>
        cases hb : ys[k]? with
        | none => simp [ha, hb] at hk
        | some y =>
          simp only [ha, hb, Option.some.injEq] at hk
          subst hk
          rfl

theorem concat_mem {α : Type} {R : α → Bytes → Prop} {l : List α} {bs : Bytes} (h : Concat R l bs) : ∀ a ∈ l, ∃ b, R a b := by
  induction h with
  | nil => simp
  | cons a l b bs hr _ ih =>
    intro x hx
    rw [List.mem_cons] at hx
    rcases hx with rfl | hx
    · exact ⟨b, hr⟩
    · exact ih x hx

theorem set_says {B : Bytes} {c : List Pt × List Nat} {v : Variation} {shared : List (List ℚ)}
    (hl : shared.length = field B 6 2 + 1) (hs : ∀ k t, shared[k]? = some t → t = sharedPeak B k)
    (hd : asDeltas (v.deltas.map pairOf) = v.deltas) (hn : v.deltas.length = c.1.length) (hc : EndsCover 0 c.1.length c.2)
    (h : VariationValid B c v) : ∃ d, toDeltaSet shared c.1 c.2 v = .ok d ∧ VariationSays B c v d := by
  obtain ⟨out, o1, o2⟩ := deltas_say (gs := v.deltas.map pairOf) (cs := c.1) (ends := c.2) (by rw [List.length_map, hn])
    (by rw [List.length_map, hn]; exact hc) h.fits
  rw [hd] at o1
  unfold toDeltaSet
  rw [o1, Res.ok_bind]
  simp only
  have he := h.embedded
  rw [if_neg (by omega)]
  cases hp : v.header.peakTuple with
  | some p =>
    simp only [Res.ok_bind]
    refine ⟨_, rfl, ?_, rfl, rfl, o2⟩
    rw [hp]
    rfl
  | none =>
    have hi := h.shared hp
    obtain ⟨t, ht⟩ : ∃ t, shared[v.header.sharedTupleIndex.toNat]? = some t := ⟨_, List.getElem?_eq_getElem (by omega)⟩
    simp only [ht, Res.unwrap, Res.ok_bind]
    refine ⟨_, rfl, ?_, rfl, rfl, o2⟩
    rw [hp]
    exact hs _ _ ht

theorem sets_say {B : Bytes} {c : List Pt × List Nat} {shared : List (List ℚ)}
    (hl : shared.length = field B 6 2 + 1) (hs : ∀ k t, shared[k]? = some t → t = sharedPeak B k) (hc : EndsCover 0 c.1.length c.2) :
    ∀ {vs : List Variation}, (∀ v ∈ vs, asDeltas (v.deltas.map pairOf) = v.deltas ∧ v.deltas.length = c.1.length) →
      (∀ v ∈ vs, VariationValid B c v) →
      ∃ ds, Res.mapL (toDeltaSet shared c.1 c.2) vs = .ok ds ∧ List.Forall₂ (VariationSays B c) vs ds
  | [], _, _ => ⟨[], rfl, .nil⟩
  | v :: vs, h1, h2 => by
    obtain ⟨a1, a2⟩ := h1 v (by simp)
    obtain ⟨d, d1, d2⟩ := set_says hl hs a1 a2 hc (h2 v (by simp))
    obtain ⟨ds, e1, e2⟩ := sets_say hl hs hc (vs := vs) (fun v hv => h1 v (by simp [hv])) (fun v hv => h2 v (by simp [hv]))
    exact ⟨d :: ds, by rw [Res.mapL, d1]; simp only [e1], .cons d2 e2⟩

/-! ### The table -/

/-- The variations of glyph `i` are what the table says. -/
def GlyphSays (B : Bytes) (ce : List (List Pt × List Nat)) (i : Nat) (st : Option (List Variation)) (g : Option (List DeltaSet)) : Prop :=
  match st, g with
  | none, none => True
  | some vs, some ds => ∃ c, ce[i]? = some c ∧ List.Forall₂ (VariationSays B c) vs ds
  | _, _ => False

theorem glyphs_say {B : Bytes} {ce : List (List Pt × List Nat)} {stores : List (Option (List Variation))} (h : GvarStored B ce stores)
    {axes : UInt16} (ha : axes.toNat = field B 4 2) {shared : List (List ℚ)} {offs : List Nat}
    (hl : shared.length = field B 6 2 + 1) (hs : ∀ k t, shared[k]? = some t → t = sharedPeak B k)
    (ho : ∀ i ≤ stores.length, offs[i]? = some (gvarOffset B i)) {stk : List Nat} : ∀ (n i ptr : Nat), i + n = stores.length →
    ∃ g r, readGlyphs axes shared (field B 16 4) offs ce n i ⟨B, ptr, 0 :: stk⟩ = .ok (g, r) ∧ g.length = n ∧
      ∀ j st, stores[i + j]? = some st → ∃ x, g[j]? = some x ∧ GlyphSays B ce (i + j) st x
  | 0, i, ptr, hi => ⟨[], _, rfl, rfl, by
      intro j st hj
      have := (List.getElem?_eq_some_iff.1 hj).1
      omega⟩
  | n + 1, i, ptr, hi => by
    have n1 := h.near i (by omega)
    have n2 := h.near (i + 1) (by omega)
    unfold readGlyphs
    simp only [bind_run, ho i (by omega), ho (i + 1) (by omega), Res.unwrap, Reader.lift]
    rw [show addU32 (gvarOffset B i) (field B 16 4) = .ok (gvarOffset B i + field B 16 4) by unfold addU32; rw [if_pos (by omega)],
      show addU32 (gvarOffset B (i + 1)) (field B 16 4) = .ok (gvarOffset B (i + 1) + field B 16 4) by unfold addU32; rw [if_pos (by omega)]]
    simp only
    obtain ⟨st, hst⟩ : ∃ st, stores[i]? = some st := ⟨_, List.getElem?_eq_getElem (by omega)⟩
    cases st with
    | none =>
      have he := h.empty i hst
      rw [if_neg (by omega), if_pos (by omega)]
      obtain ⟨g, r, e1, e2, e3⟩ := glyphs_say h ha hl hs ho n (i + 1) ptr (by omega)
      rw [bind_run, e1]
      refine ⟨none :: g, r, rfl, by simp [e2], ?_⟩
      intro j st hj
      cases j with
      | zero =>
        rw [Nat.add_zero, hst] at hj
        cases hj
        exact ⟨none, rfl, trivial⟩
      | succ j =>
        obtain ⟨x, x1, x2⟩ := e3 j st (by rw [← hj]; congr 1; omega)
        refine ⟨x, x1, ?_⟩
        rwa [show i + (j + 1) = i + 1 + j by omega]
    | some vs =>
      obtain ⟨he, c, hc, hcl, hcov, ⟨b, rest, hb, hd⟩, hv⟩ := h.data i vs hst
      rw [if_neg (by omega), if_neg (by omega)]
      rw [bind_run, hc, show Reader.lift (.ok c) (⟨B, ptr, 0 :: stk⟩ : Rd) = .ok (c, ⟨B, ptr, 0 :: stk⟩) from rfl]
      simp only [bind_run]
      have hpos : 0 < b.length := by
        obtain ⟨w, o, hb', sb, db, sh, rfl, _⟩ := hd
        simp [encU16]
      have hrd := reads_of_prefix' (C40_reads_any axes true (UInt16.ofNat c.1.length) vs b (by
        rw [ha, ofNat16_toNat hcl]; exact hd)) (B := B) (pos := 0 + (gvarOffset B i + field B 16 4)) (by
        rw [Nat.zero_add, Nat.add_comm, hb]; exact List.prefix_append _ _) (0 :: stk) hpos
      have hp : ∀ v ∈ vs, asDeltas (v.deltas.map pairOf) = v.deltas ∧ v.deltas.length = c.1.length := by
        obtain ⟨w, o, hb', sb, db, sh, -, -, -, -, hcd⟩ := hd
        intro v hv
        obtain ⟨b, hb⟩ := concat_mem hcd v hv
        exact pairs_only hb
      obtain ⟨ds, d1, d2⟩ := sets_say hl hs hcov hp hv
      obtain ⟨g, r, e1, e2, e3⟩ := glyphs_say h ha hl hs ho n (i + 1) (0 + (gvarOffset B i + field B 16 4) + b.length) (by omega)
      have hg : readGlyphSets axes shared c.1 c.2 (gvarOffset B i + field B 16 4) ⟨B, ptr, 0 :: stk⟩ =
          .ok (ds, ⟨B, 0 + (gvarOffset B i + field B 16 4) + b.length, 0 :: stk⟩) := by
        unfold readGlyphSets
        simp only [bind_run, topOfTable, setPtr, hrd, Reader.lift, d1]
      rw [hg]
      simp only
      rw [e1]
      refine ⟨some ds :: g, r, rfl, by simp [e2], ?_⟩
      intro j st hj
      cases j with
      | zero =>
        rw [Nat.add_zero, hst] at hj
        cases hj
        exact ⟨some ds, rfl, c, hc, d2⟩
      | succ j =>
        obtain ⟨x, x1, x2⟩ := e3 j st (by rw [← hj]; congr 1; omega)
        refine ⟨x, x1, ?_⟩
        rwa [show i + (j + 1) = i + 1 + j by omega]

theorem flag_long (B : Bytes) (f : UInt16) (h : f.toNat = field B 14 2) : f &&& 1 = 0 ↔ gvarLong B = false := by
  have e : (f &&& 1).toNat = f.toNat % 2 := by
    rw [UInt16.toNat_and]
    exact Nat.and_two_pow_sub_one_eq_mod f.toNat 1
  unfold gvarLong
  rw [decide_eq_false_iff_not, ← h]
  constructor
  · intro h0
    rw [h0] at e
    simp only [UInt16.toNat_zero] at e
    omega
  · intro h0
    apply UInt16.toNat_inj.mp
    rw [e]
    simp only [UInt16.toNat_zero]
    omega

theorem mapL_all {α β : Type} {f : α → Res β} {Q : Nat → β → Prop} : ∀ {l : List α}, (∀ i a, l[i]? = some a → ∃ b, f a = .ok b ∧ Q i b) →
    ∃ m, Res.mapL f l = .ok m ∧ m.length = l.length ∧ ∀ i b, m[i]? = some b → Q i b
  | [], _ => ⟨[], rfl, rfl, by simp⟩
  | a :: l, h => by
    obtain ⟨b, b1, b2⟩ := h 0 a rfl
    obtain ⟨m, m1, m2, m3⟩ := mapL_all (f := f) (Q := fun i => Q (i + 1)) (l := l) (fun i x hx => h (i + 1) x hx)
    refine ⟨b :: m, by rw [Res.mapL, b1]; simp only [m1], by simp [m2], ?_⟩
    intro i x hx
    cases i with
    | zero => cases hx; exact b2
    | succ i => exact m3 i x hx

theorem offsets_read {B : Bytes} {n : Nat} (ho : 20 + (if gvarLong B then 4 else 2) * (n + 1) ≤ B.length)
    (hsh : gvarLong B = false → ∀ i ≤ n, gvarOffset B i < 65536)
    {flags : UInt16} (hf : flags.toNat = field B 14 2) (stk : List Nat) :
    ∃ offs r, readOffsets flags (n + 1) ⟨B, 20, stk⟩ = .ok (offs, r) ∧ r.inp = B ∧ r.stk = stk ∧
      ∀ i ≤ n, offs[i]? = some (gvarOffset B i) := by
  unfold readOffsets
  cases hg : gvarLong B with
  | false =>
    rw [hg, if_neg (by decide)] at ho
    rw [if_pos ((flag_long B flags hf).2 hg)]
    obtain ⟨l, l1, l2, l3⟩ := words_read (B := B) (pos := 20) (n := n + 1) (stk := stk) ho
    obtain ⟨m, m1, m2, m3⟩ := mapL_all (f := doubled) (Q := fun i b => b = gvarOffset B i) (l := l) (by
      intro i a ha
      have hi := (List.getElem?_eq_some_iff.1 ha).1
      have h1 := hsh hg i (by omega)
      have h2 := l2 i a ha
      unfold gvarOffset at h1 ⊢
      rw [hg, if_neg (by decide)] at h1 ⊢
      refine ⟨2 * a.toNat, ?_, by rw [h2]⟩
      unfold doubled
      rw [if_pos (by omega)])
    rw [bind_run, l3]
    simp only [Reader.lift, m1]
    refine ⟨m, _, rfl, rfl, rfl, ?_⟩
    intro i hi
    have hlt : i < m.length := by omega
    rw [List.getElem?_eq_getElem hlt, m3 i _ (List.getElem?_eq_getElem hlt)]
  | true =>
    rw [hg, if_pos rfl] at ho
    rw [if_neg (by rw [flag_long B flags hf, hg]; decide)]
    obtain ⟨l, l1, l2, l3⟩ := list_read (p := readU32Nat) (w := 4) (B := B) (stk := stk) (n + 1) 20
      (Q := fun i a => a = gvarOffset B i) (by
        intro i hi
        obtain ⟨v, e1, e2⟩ := readU32_ok (r := ⟨B, 20 + 4 * i, stk⟩) (by simp only; omega)
        refine ⟨v.toNat, ?_, ?_⟩
        · unfold gvarOffset
          rw [hg, if_pos rfl, e1]
        · unfold readU32Nat
          rw [bind_run, e2]
          rfl)
    refine ⟨l, _, l3, rfl, rfl, ?_⟩
    intro i hi
    have hlt : i < l.length := by omega
    rw [List.getElem?_eq_getElem hlt, l2 i _ (List.getElem?_eq_getElem hlt)]

theorem tuple_read {B : Bytes} {pos n : Nat} {stk : List Nat} (h : pos + 2 * n ≤ B.length) :
    deCounted readF2dot14 n ⟨B, pos, stk⟩ =
      .ok ((List.range n).map (fun a => (signed16 (field B (pos + 2 * a) 2) : ℚ) / 16384), ⟨B, pos + 2 * n, stk⟩) := by
  obtain ⟨l, l1, l2, l3⟩ := list_read (p := readF2dot14) (w := 2) (B := B) (stk := stk) n pos
    (Q := fun i a => a = (signed16 (field B (pos + 2 * i) 2) : ℚ) / 16384) (by
      intro i hi
      obtain ⟨v, e1, e2⟩ := readU16_ok (r := ⟨B, pos + 2 * i, stk⟩) (by simp only; omega)
      simp only at e1
      refine ⟨fixed14 v.toInt16, ?_, ?_⟩
      · unfold fixed14
        rw [signed_toInt16, e1]
      · unfold readF2dot14 readI16
        rw [bind_run, bind_run, e2]
        simp only [pure_run]
        rw [C04_f2dot14_value]
        rfl)
  rw [l3]
  congr 2
  apply List.ext_getElem?
  intro i
  rw [List.getElem?_map]
  by_cases hi : i < n
  · rw [List.getElem?_range hi, List.getElem?_eq_getElem (by omega), l2 i _ (List.getElem?_eq_getElem (by omega))]
    rfl
  · rw [List.getElem?_eq_none (by omega), List.getElem?_eq_none (by simp; omega)]
    rfl

theorem gvarCore_read {B : Bytes} (stk : List Nat) (h : 20 ≤ B.length) : ∃ core : GvarCore,
    readGvarCore ⟨B, 0, stk⟩ = .ok (core, ⟨B, 20, stk⟩) ∧ core.axisCount.toNat = field B 4 2 ∧
    core.sharedTupleCount.toNat = field B 6 2 ∧ core.sharedTuplesOffset.toNat = field B 8 4 ∧
    core.glyphCount.toNat = field B 12 2 ∧ core.flags.toNat = field B 14 2 ∧ core.dataOffset.toNat = field B 16 4 := by
  obtain ⟨v0, _, f0⟩ := readU16_ok (r := ⟨B, 0, stk⟩) (by simp only; omega)
  obtain ⟨v1, _, f1⟩ := readU16_ok (r := ⟨B, 2, stk⟩) (by simp only; omega)
  obtain ⟨v2, e2, f2⟩ := readU16_ok (r := ⟨B, 4, stk⟩) (by simp only; omega)
  obtain ⟨v3, e3, f3⟩ := readU16_ok (r := ⟨B, 6, stk⟩) (by simp only; omega)
  obtain ⟨v4, e4, f4⟩ := readU32_ok (r := ⟨B, 8, stk⟩) (by simp only; omega)
  obtain ⟨v5, e5, f5⟩ := readU16_ok (r := ⟨B, 12, stk⟩) (by simp only; omega)
  obtain ⟨v6, e6, f6⟩ := readU16_ok (r := ⟨B, 14, stk⟩) (by simp only; omega)
  obtain ⟨v7, e7, f7⟩ := readU32_ok (r := ⟨B, 16, stk⟩) (by simp only; omega)
  refine ⟨⟨v0, v1, v2, v3, v4, v5, v6, v7⟩, ?_, e2, e3, e4, e5, e6, e7⟩
  unfold readGvarCore
  simp only [Nat.zero_add, Nat.reduceAdd] at f0 f1 f2 f3 f4 f5 f6 f7
  simp only [bind_run, f0, f1, f2, f3, f4, f5, f6, f7, pure_run]

/-- **C94** (glyph variations). The `gvar` table of any font is read as what it says: for every glyph its variations, each with
the peak, start and end it has, and with the delta of every point, given or inferred. -/
theorem C94_gvar (B : Bytes) (ce : List (List Pt × List Nat)) (stores : List (Option (List Variation)))
    (h : GvarStored B ce stores) :
    ∃ g r, readGvar ce (Rd.new B) = .ok (g, r) ∧ g.length = stores.length ∧
      ∀ i st, stores[i]? = some st → ∃ x, g[i]? = some x ∧ GlyphSays B ce i st x := by
  have h20 : 20 ≤ B.length := by have := h.offsets; split at this <;> omega
  obtain ⟨core, e1, c1, c2, c3, c4, c5, c6⟩ := gvarCore_read (B := B) [0, 0] h20
  have hgl := h.glyphs
  have hfew := h.few
  have htu := h.tuples
  have hro := h.room
  obtain ⟨offs, ⟨i, p, s⟩, o1, o2, o3, o4⟩ := offsets_read h.offsets h.short c5 [0, 0]
  simp only at o2 o3
  subst o2 o3
  obtain ⟨sh, s1, s2, s3⟩ := list_read (p := deCounted readF2dot14 (field i 4 2)) (w := 2 * field i 4 2) (B := i) (stk := [0, 0])
    (field i 6 2 + 1) (field i 8 4) (Q := fun k t => t = sharedPeak i k) (by
      intro k hk
      have : 2 * field i 4 2 * k + 2 * field i 4 2 ≤ 2 * field i 4 2 * (field i 6 2 + 1) := by
        rw [← Nat.mul_succ]; exact Nat.mul_le_mul_left _ (by omega)
      exact ⟨_, rfl, tuple_read (by omega)⟩)
  obtain ⟨g, r, g1, g2, g3⟩ := glyphs_say h (axes := core.axisCount) c1 s1 s2 o4 (stk := [0]) stores.length 0
    (field i 8 4 + 2 * field i 4 2 * (field i 6 2 + 1)) (by omega)
  refine ⟨g, r, ?_, g2, ?_⟩
  · unfold readGvar Rd.new
    simp only [bind_run, pushTop, e1]
    rw [if_neg (by omega)]
    simp only [bind_run, c4, hgl, o1, topOfTable, setPtr, c3, Nat.zero_add]
    rw [if_neg (by omega)]
    simp only [bind_run, c1, c2, s3, c6, g1]
  · intro j st hj
    have := g3 j st (by rw [Nat.zero_add]; exact hj)
    rwa [Nat.zero_add] at this

/-- **C94** (outside the guard: too short). One shared tuple more than there are is asked for: a table that ends with its shared
tuples, or less than a tuple later, is an error. -/
theorem C94_no_room (B : Bytes) (ce : List (List Pt × List Nat)) (hn : field B 12 2 < 65535) (ht : field B 6 2 < 65535)
    (ho : 20 + (if gvarLong B then 4 else 2) * (field B 12 2 + 1) ≤ B.length)
    (hs : gvarLong B = false → ∀ i ≤ field B 12 2, gvarOffset B i < 65536) (hin : field B 8 4 ≤ B.length)
    (hr : B.length < field B 8 4 + 2 * field B 4 2 * (field B 6 2 + 1)) : readGvar ce (Rd.new B) = .err := by
  have h20 : 20 ≤ B.length := by split at ho <;> omega
  obtain ⟨core, e1, c1, c2, c3, c4, c5, c6⟩ := gvarCore_read (B := B) [0, 0] h20
  obtain ⟨offs, ⟨i, p, s⟩, o1, o2, o3, o4⟩ := offsets_read ho hs c5 [0, 0]
  simp only at o2 o3
  subst o2 o3
  have e3 := (((width_f2dot14.counted (field i 4 2)).counted (field i 6 2 + 1)) ⟨i, field i 8 4, [0, 0]⟩).2 hin (by
    rw [show (field i 6 2 + 1) * (field i 4 2 * 2) = 2 * field i 4 2 * (field i 6 2 + 1) by rw [Nat.mul_comm, Nat.mul_comm (field i 4 2) 2]]
    exact hr)
  unfold readGvar Rd.new
  simp only [bind_run, pushTop, e1]
  rw [if_neg (by omega)]
  simp only [bind_run, c4, o1, topOfTable, setPtr, c3, Nat.zero_add]
  rw [if_neg (by omega)]
  simp only [bind_run, c1, c2, e3]

/-! ### Points -/

theorem contourStart_succ : ∀ (ends : List Nat) (s k e : Nat), ends[k]? = some e → contourStart s ends (k + 1) = e + 1
  | [], _, _, _, h => by simp at h
  | a :: es, s, 0, e, h => by
    cases h
    show contourStart (a + 1) es 0 = a + 1
    cases es <;> rfl
  | a :: es, s, k + 1, e, h => contourStart_succ es (a + 1) k e h

theorem contourStart_zero (s : Nat) (ends : List Nat) : contourStart s ends 0 = s := by cases ends <;> rfl

/-- **C94** (points). The points and contours of every glyph whose first contour is not empty cover its points. -/
theorem C94_points (g : Glyph) (h : g.contours.head? ≠ some []) : ∃ c, gvarCoordsAndEnds g = .ok c ∧ EndsCover 0 c.1.length c.2 := by
  obtain ⟨ends, e1, e2, e3, e4⟩ := C61_points g h
  refine ⟨_, e1, ?_⟩
  have hlen : (g.contours.flatten.map (fun p : Point => (p.x, p.y)) ++
        g.components.map (fun c : Component => (qToI16 c.transformation.e, qToI16 c.transformation.f)) ++
          List.replicate 4 ((0 : Int16), (0 : Int16))).length =
      g.contours.flatten.length + g.components.length + 4 := by
    rw [List.length_append, List.length_append, List.length_map, List.length_map, List.length_replicate]
  have hb := pointsBefore_all g.contours
  have hst : ∀ k ≤ g.contours.length, contourStart 0 ends k = pointsBefore g.contours k := by
    intro k hk
    cases k with
    | zero => rw [contourStart_zero]; simp [pointsBefore]
    | succ k =>
      obtain ⟨e, f1, f2⟩ := e3 k hk
      rw [contourStart_succ ends 0 k e f1, f2]
  have hst2 : ∀ j ≤ g.components.length + 4, contourStart 0 ends (g.contours.length + j) = g.contours.flatten.length + j := by
    intro j hj
    cases j with
    | zero => rw [Nat.add_zero, hst _ (le_refl _), hb]; rfl
    | succ j =>
      rw [← Nat.add_assoc, contourStart_succ ends 0 _ _ (e4 j (by omega))]; omega
  have mono := fun j k (h : j ≤ k) => pointsBefore_mono g.contours h
  refine ⟨?_, ?_⟩
  · intro k e hk
    have hk' : k < ends.length := (List.getElem?_eq_some_iff.1 hk).1
    show contourStart 0 ends k ≤ e + 1 ∧ e < _
    simp only at hlen ⊢
    by_cases hc : k < g.contours.length
    · obtain ⟨e', f1, f2⟩ := e3 k hc
      rw [f1] at hk
      cases hk
      have := mono (k + 1) g.contours.length (by omega)
      rw [hst k (by omega), f2]
      refine ⟨mono _ _ (by omega), ?_⟩
      rw [hlen]
      omega
    · obtain ⟨j, rfl⟩ : ∃ j, k = g.contours.length + j := ⟨k - g.contours.length, by omega⟩
      rw [e4 j (by omega)] at hk
      cases hk
      rw [hst2 j (by omega), hlen]
      omega
  · show contourStart 0 ends ends.length = _
    simp only at hlen ⊢
    rw [hlen, e2, Nat.add_assoc, hst2 _ (le_refl _)]
    omega

/-! ### Regions -/

/-- **C94** (regions from nought to the end). Where a variation has no start and end of its own and its peak is at nought or at an
end of the axis, its influence at every place is that of the region OpenType gives it: from nought to the peak. -/
theorem C94_region_to_end (p v : ℚ) (hp : p = -1 ∨ p = 0 ∨ p = 1) :
    tent v (if 0 < p then 0 else -1) p (if 0 < p then 1 else 0) = tent v (min p 0) p (max p 0) := by
  rcases hp with rfl | rfl | rfl
  · rw [if_neg (by norm_num), if_neg (by norm_num), min_eq_left (by norm_num), max_eq_right (by norm_num)]
  · unfold tent TakesPart
    rw [if_pos (by simp), if_pos (by simp)]
  · rw [if_pos (by norm_num), if_pos (by norm_num), min_eq_right (by norm_num), max_eq_left (by norm_num)]

/-- **C94** (inner peaks). Where the peak of such a variation is inside the axis, the variation is given influence beyond its peak,
where OpenType gives it none. -/
theorem C94_inner_peak (p v : ℚ) (h : (0 < p ∧ p < v ∧ v < 1) ∨ (p < 0 ∧ v < p ∧ -1 < v)) :
    tent v (min p 0) p (max p 0) = 0 ∧ 0 < tent v (if 0 < p then 0 else -1) p (if 0 < p then 1 else 0) := by
  rcases h with ⟨h1, h2, h3⟩ | ⟨h1, h2, h3⟩
  · rw [if_pos h1, if_pos h1, min_eq_right h1.le, max_eq_left h1.le]
    unfold tent TakesPart
    refine ⟨?_, ?_⟩
    · rw [if_neg (by push Not; exact ⟨h1.ne', h1.le, le_refl _, fun h => absurd h (lt_irrefl _)⟩), if_pos (.inr h2)]
    · rw [if_neg (by push Not; exact ⟨h1.ne', h1.le, by linarith, fun h => absurd h (lt_irrefl _)⟩),
        if_neg (by push Not; exact ⟨by linarith, by linarith⟩), if_neg (by linarith), if_neg (by linarith)]
      exact div_pos (by linarith) (by linarith)
  · rw [if_neg (by linarith), if_neg (by linarith), min_eq_left h1.le, max_eq_right h1.le]
    unfold tent TakesPart
    refine ⟨?_, ?_⟩
    · rw [if_neg (by push Not; exact ⟨h1.ne, le_refl _, h1.le, fun _ => le_refl _⟩), if_pos (.inl h2)]
    · rw [if_neg (by push Not; exact ⟨h1.ne, by linarith, h1.le, fun _ => le_refl _⟩),
        if_neg (by push Not; exact ⟨by linarith, by linarith⟩), if_neg (by linarith), if_pos h2]
      exact div_pos (by linarith) (by linarith)

/-! ### Example -/

/-- A store of two variations: one at the shared peak moving two of three points, one with its own peak and region. -/
def sampleStore : List Variation :=
  [⟨⟨8, 0x2000, 0, none, none, none⟩, [some (.d2 5 0), none, some (.d2 7 0)]⟩,
   ⟨⟨6, 0xE000, 0, some ([8192].map fixed14), some ([0].map fixed14), some ([16384].map fixed14)⟩,
     [some (.d2 0 1), some (.d2 0 2), some (.d2 0 3)]⟩]

def sampleStoreBytes : Bytes := [0, 2, 0, 18, 0, 8, 0x20, 0, 0, 6, 0xE0, 0, 0x20, 0, 0, 0, 0x40, 0,
  2, 1, 0, 2, 1, 5, 7, 0x81, 0, 0x82, 2, 1, 2, 3]

/-- A table with short offsets for two glyphs, the first without variations, and one shared peak. -/
def sampleGvarBytes : Bytes := [0, 1, 0, 0, 0, 1, 0, 1, 0, 0, 0, 26, 0, 2, 0, 0, 0, 0, 0, 28, 0, 0, 0, 0, 0, 16, 0x40, 0] ++ sampleStoreBytes

theorem sampleStore_described : DescribesStore 1 true 3 sampleStore sampleStoreBytes := by
  refine ⟨2, 18, [0, 8, 0x20, 0, 0, 6, 0xE0, 0, 0x20, 0, 0, 0, 0x40, 0], [], [2, 1, 0, 2, 1, 5, 7, 0x81, 0, 0x82, 2, 1, 2, 3], some [],
    rfl, rfl, .inr ⟨by decide, rfl, rfl⟩, ?_, ?_⟩
  · refine .cons _ _ [0, 8, 0x20, 0] [0, 6, 0xE0, 0, 0x20, 0, 0, 0, 0x40, 0] ?_ (.cons _ _ [0, 6, 0xE0, 0, 0x20, 0, 0, 0, 0x40, 0] [] ?_ .nil)
    · exact ⟨[], [], [], rfl, rfl, .absent (by decide), .absent (by decide), .absent (by decide)⟩
    · exact ⟨[0x20, 0], [0, 0], [0x40, 0], rfl, rfl, .present [8192] (by decide) rfl, .present [0] (by decide) rfl,
        .present [16384] (by decide) rfl⟩
  · refine .cons _ _ [2, 1, 0, 2, 1, 5, 7, 0x81] [0, 0x82, 2, 1, 2, 3] ?_ (.cons _ _ [0, 0x82, 2, 1, 2, 3] [] ?_ .nil)
    · refine ⟨some [0, 2], [2, 1, 0, 2], [1, 5, 7, 0x81], [.d2 5 0, .d2 7 0], rfl, .inl ⟨by decide, ?_⟩, ?_, rfl, rfl, rfl⟩
      · exact .some [0, 2] [0, 2] [1, 0, 2] (by decide) (by decide) rfl (.bytes [0, 2] [] [] (by decide) (by decide) .done)
      · exact .pairs [5, 7] [0, 0] [1, 5, 7] [0x81] rfl (.bytes [5, 7] [] [] (by decide) (by decide) .done)
          (.zeros 2 [] [] (by decide) (by decide) .done)
    · refine ⟨none, [0], [0x82, 2, 1, 2, 3], [.d2 0 1, .d2 0 2, .d2 0 3], rfl, .inl ⟨by decide, .all⟩, ?_, rfl, rfl, rfl⟩
      exact .pairs [0, 0, 0] [1, 2, 3] [0x82] [2, 1, 2, 3] rfl (.zeros 3 [] [] (by decide) (by decide) .done)
          (.bytes [1, 2, 3] [] [] (by decide) (by decide) .done)

theorem contourFits_of {gs : List (Option Pt)} {cs : List Pt}
    (h : ∀ cp ∈ cs, ∀ dp ∈ gs, ∀ cq ∈ cs, ∀ dq ∈ gs, ∀ a b, dp = some a → dq = some b → RefsFit cp a cq b) : ContourFits gs cs := by
  intro i p q cp dp cq dq _ _ _ h1 h2 h3 h4
  exact h cp (List.mem_of_getElem? h1) _ (List.mem_of_getElem? h2) cq (List.mem_of_getElem? h3) _ (List.mem_of_getElem? h4) dp dq rfl rfl

example : GvarStored sampleGvarBytes [([], []), ([(0, 0), (10, 0), (10, 10)], [2])] [none, some sampleStore] := by
  have e : ∀ i, i ≤ 2 → gvarOffset sampleGvarBytes i = if i = 2 then 32 else 0 := by decide +kernel
  refine ⟨by decide +kernel, by decide, by decide +kernel, ?_, by decide +kernel, by decide +kernel, ?_, ?_, ?_⟩
  · intro _ i hi
    rw [e i hi]; split <;> omega
  · intro i hi
    rw [e i hi, show field sampleGvarBytes 16 4 = 28 by decide +kernel]; split <;> omega
  · intro i hi
    match i, hi with
    | 0, _ => decide +kernel
    | 1, hi => simp at hi
    | i + 2, hi => simp at hi
  · intro i vs hi
    match i, hi with
    | 0, hi => simp at hi
    | i + 2, hi => simp at hi
    | 1, hi =>
      cases hi
      refine ⟨by decide +kernel, _, rfl, by decide, ⟨?_, rfl⟩, ⟨sampleStoreBytes, [], by decide +kernel, sampleStore_described⟩, ?_⟩
      · intro k e hk
        match k, hk with
        | 0, hk => cases hk; decide
      · intro v hv
        have hn : field sampleGvarBytes 6 2 = 1 := by decide +kernel
        simp only [sampleStore, List.mem_cons, List.not_mem_nil, or_false] at hv
        rcases hv with rfl | rfl
        · refine ⟨fun _ => by rw [hn]; decide, by rw [hn]; decide, ?_⟩
          intro k e hk
          match k, hk with
          | 0, hk =>
            cases hk
            apply contourFits_of
            intro cp h1 dp h2 cq h3 dq h4 a b ha hb
            subst ha hb
            have h1' : cp ∈ [((0 : Int16), (0 : Int16)), (10, 0), (10, 10)] := h1
            have h3' : cq ∈ [((0 : Int16), (0 : Int16)), (10, 0), (10, 10)] := h3
            have h2' : some a ∈ [some ((5 : Int16), (0 : Int16)), none, some (7, 0)] := h2
            have h4' : some b ∈ [some ((5 : Int16), (0 : Int16)), none, some (7, 0)] := h4
            simp only [List.mem_cons, List.not_mem_nil, or_false, Option.some.injEq, reduceCtorEq, false_or] at h1' h2' h3' h4'
            rcases h1' with rfl | rfl | rfl <;> rcases h2' with rfl | rfl <;> rcases h3' with rfl | rfl | rfl <;>
              rcases h4' with rfl | rfl <;> (unfold RefsFit AxisFits SubFits; decide)
        · refine ⟨fun h => (by simp at h), by rw [hn]; decide, ?_⟩
          intro k e hk
          match k, hk with
          | 0, hk =>
            cases hk
            intro i p q cp dp cq dq hi
            match i, hi with
            | 0, hi => simp [stretch, pairOf, contourStart] at hi
            | 1, hi => simp [stretch, pairOf, contourStart] at hi
            | 2, hi => simp [stretch, pairOf, contourStart] at hi
            | i + 3, hi => simp [stretch, pairOf, contourStart] at hi

/-- The same store with a byte before the data. -/
def gapBytes : Bytes := [0, 2, 0, 19] ++ (sampleStoreBytes.drop 4).take 14 ++ [0] ++ sampleStoreBytes.drop 18

/-- **C94** (outside the guard: gaps). The offset of the data of a glyph is not used: the same variations, their data stored one
byte later, are read with other deltas. -/
theorem C94_gap : readStore 1 true 3 (Rd.new sampleStoreBytes) = .ok (sampleStore, ⟨sampleStoreBytes, 32, [0]⟩) ∧
    readStore 1 true 3 (Rd.new gapBytes) = .ok
      ([⟨⟨8, 0x2000, 0, none, none, none⟩, [some (.d2 1 5), some (.d2 0 7), some (.d2 2 0)]⟩,
        ⟨⟨6, 0xE000, 0, some ([8192].map fixed14), some ([0].map fixed14), some ([16384].map fixed14)⟩,
          [some (.d2 0 1), some (.d2 0 2), some (.d2 0 3)]⟩], ⟨gapBytes, 33, [0]⟩) := by
  decide +kernel

/-- **C94** (outside the guard: many points). A list of points whose number takes two bytes (128 to 32767 points) is never read as
these points. -/
theorem C94_many_points (n : Nat) (h1 : 128 ≤ n) (h2 : n ≤ 32767) (runs before after : Bytes) (stk : List Nat) (pts : List UInt16)
    (hp : pts.length = n) (r : Rd) :
    PackedPoints.read ⟨before ++ (UInt8.ofNat (128 + n / 256) :: UInt8.ofNat n :: runs) ++ after, before.length, stk⟩ ≠
      .ok (some pts, r) := by
  intro hr
  have hb : 128 ≤ (UInt8.ofNat (128 + n / 256)).toNat := by simp only [UInt8.toNat_ofNat']; omega
  have := PackedPoints.read_high_length _ _ before after stk hb pts r hr
  omega

end FT.Props
