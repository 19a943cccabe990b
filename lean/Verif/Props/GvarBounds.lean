import Verif.Props.GvarWrites

/-!
C53: how far the round trip of gvar tables reaches.
-/

namespace FT.Props
open FT FT.F32 FT.Glyf FT.Iup FT.TupleVar FT.Gvar Reader

/-! ### Small glyphs -/

theorem givenFrom_length : ∀ (l : List (Option Delta)) (i : Nat), (givenFrom i l).length ≤ l.length
  | [], _ => by simp [givenFrom]
  | none :: l, i => by
    have := givenFrom_length l (i + 1)
    simp only [givenFrom, List.length_cons]; omega
  | some d :: l, i => by
    have := givenFrom_length l (i + 1)
    simp only [givenFrom, List.length_cons]; omega

theorem givenFrom_bound : ∀ (l : List (Option Delta)) (i : Nat), ∀ p ∈ givenFrom i l, p.1 < i + l.length
  | [], _ => by simp [givenFrom]
  | none :: l, i => by
    intro p hp
    have := givenFrom_bound l (i + 1) p (by simpa [givenFrom] using hp)
    rw [List.length_cons]; omega
  | some d :: l, i => by
    intro p hp
    rw [givenFrom, List.mem_cons] at hp
    rw [List.length_cons]
    rcases hp with rfl | hp
    · simp
    · have := givenFrom_bound l (i + 1) p hp
      omega

theorem isChain_small : ∀ (a : Nat) (l : List Nat), (∀ x ∈ l, x ≤ 255) → List.IsChain (fun a b => b ≤ a + 255) (a :: l)
  | _, [], _ => List.isChain_singleton _
  | a, b :: l, h => .cons_cons (by have := h b (by simp); omega) (isChain_small b l (fun x hx => h x (by simp [hx])))

theorem fewPoints_small {l : List (Option Delta)} (h : l.length ≤ 127) : FewPoints l := by
  refine ⟨Nat.le_trans (givenFrom_length l 0) h, isChain_small _ _ ?_⟩
  intro x hx
  obtain ⟨p, hp, rfl⟩ := List.mem_map.1 hx
  have := givenFrom_bound l 0 p hp
  omega

/-- **C53** (small glyphs). For a glyph with at most 127 points (counting the four phantom points) the deltas may be
anything. -/
theorem C53_small_glyph (axes : Nat) (glyph : Option Glyph) (ce : List Pt × List Nat) (d : DeltaSet)
    (hp : GridTuple axes d.peak) (hs : GridTuple axes d.start) (he : GridTuple axes d.stop) (hl : d.deltas.length = ce.1.length)
    (hn : ce.1.length ≤ 127) (hce : ∀ gl, glyph = some gl → gvarCoordsAndEnds gl = .ok ce) : SetFits axes ce.1.length glyph d := by
  refine ⟨hp, hs, he, hl, replicate_infix_short (by rw [List.length_map]; omega), replicate_infix_short (by rw [List.length_map]; omega), ?_⟩
  intro gl hg out ho _
  apply fewPoints_small
  rw [fullDeltas_asDeltas] at ho
  obtain ⟨c1, _⟩ := C42_glyph (d.deltas.map some) gl ce.1 ce.2 (hce gl hg) (by simpa using hl) out ho
  rw [List.length_map] at c1
  omega

/-! ### Reading tuples of fixed width -/

/-- `p` reads exactly `w` bytes, if there are that many; otherwise it fails. -/
def Width {α : Type} (p : Reader α) (w : Nat) : Prop :=
  ∀ rd : Rd, (rd.ptr + w ≤ rd.inp.length → ∃ a, p rd = .ok (a, { rd with ptr := rd.ptr + w })) ∧
    (rd.ptr ≤ rd.inp.length → rd.inp.length < rd.ptr + w → p rd = .err)

theorem width_f2dot14 : Width readF2dot14 2 := by
  intro rd
  constructor
  · intro h
    obtain ⟨a, b, e⟩ : ∃ a b, (rd.inp.drop rd.ptr).take 2 = [a, b] := by
      have : ((rd.inp.drop rd.ptr).take 2).length = 2 := by rw [List.length_take, List.length_drop]; omega
      match hl : (rd.inp.drop rd.ptr).take 2, this with
      | [a, b], _ => exact ⟨a, b, rfl⟩
    have : consume 2 rd = .ok ([a, b], { rd with ptr := rd.ptr + 2 }) := by
      unfold consume
      rw [if_neg (by omega), e]
    unfold readF2dot14 readI16 readU16
    simp only [bind_run, this]
    exact ⟨_, rfl⟩
  · intro _ h
    have : consume 2 rd = .err := by
      unfold consume
      rw [if_pos (by omega)]
    unfold readF2dot14 readI16 readU16
    simp only [bind_run, this]

theorem Width.counted {α : Type} {p : Reader α} {w : Nat} (h : Width p w) : ∀ n, Width (deCounted p n) (n * w)
  | 0 => by
    intro rd
    rw [Nat.zero_mul]
    constructor
    · intro _; exact ⟨[], rfl⟩
    · intro _ _; omega
  | n + 1 => by
    intro rd
    have e := Nat.succ_mul n w
    rw [show n + 1 = n.succ from rfl, e]
    constructor
    · intro hr
      obtain ⟨a, e1⟩ := (h rd).1 (by omega)
      obtain ⟨l, e2⟩ := (Width.counted h n { rd with ptr := rd.ptr + w }).1 (by simp only; omega)
      refine ⟨a :: l, ?_⟩
      rw [deCounted]
      simp only [bind_run, e1, e2]
      rw [show rd.ptr + w + n * w = rd.ptr + (n * w + w) by omega]
      rfl
    · intro hp hr
      rw [deCounted]
      by_cases hw : rd.ptr + w ≤ rd.inp.length
      · obtain ⟨a, e1⟩ := (h rd).1 hw
        have e2 := (Width.counted h n { rd with ptr := rd.ptr + w }).2 (by simp only; omega) (by simp only; omega)
        simp only [bind_run, e1, e2]
      · have e1 := (h rd).2 hp (by omega)
        simp only [bind_run, e1]

/-! ### Where the round trip ends -/

/-- There are as many shared tuples as different peaks. -/
theorem shared_count {axes : Nat} {g : Gvar} (hf : ∀ d ∈ allSets g, GridTuple axes d.peak) {keys shared : List Bytes}
    (hk : Res.mapL peakBytes (allSets g) = .ok keys) (hm : MostCommon keys shared) : shared.length = (peaksOf g).length := by
  refine Nat.le_antisymm (shared_tuples hf hk hm).2 ?_
  obtain ⟨_, m2, _⟩ := hm
  obtain ⟨_, k2⟩ := peak_keys hk
  have hsub : peaksOf g ⊆ shared.map (fun b => match deCounted readF2dot14 axes (Rd.new b) with
      | .ok (t, _) => t
      | _ => []) := by
    intro t ht
    unfold peaksOf at ht
    rw [List.mem_dedup, List.mem_map] at ht
    obtain ⟨d, hd, rfl⟩ := ht
    obtain ⟨ps, p1, p2⟩ := gridTuple_fixed (hf d hd)
    rw [List.mem_map]
    refine ⟨encVec encI16 ps, (m2 _).2 (k2 d hd _ (peakBytes_fixed p2)), ?_⟩
    have := reads_tuple (t := d.peak) ⟨ps, p1, p2, rfl⟩ [] [] [0]
    simp only [List.nil_append, List.append_nil, List.length_nil] at this
    unfold Rd.new
    rw [this]
  have := ((show (peaksOf g).Nodup from List.nodup_dedup _).subperm hsub).length_le
  rwa [List.length_map] at this

/-- **C53** (too short). The reader asks for one shared tuple more than there are. If the data after the shared tuples is shorter
than a tuple, the table which was written cannot be read. -/
theorem C53_too_short (axes : Nat) (ha : axes ≤ 65535) (glyf : Option (List Glyph)) (ce : List (List Pt × List Nat)) (g : Gvar)
    (bs : Bytes) (hw : MayWrite glyf g bs) (hgrid : ∀ d ∈ allSets g, GridTuple axes d.peak) (hn : g.length ≤ 65534)
    (hp : (peaksOf g).length ≤ 4096) (hB : bs.length ≤ 4294967295)
    (hroom : bs.length < 20 + 4 * (g.length + 1) + 2 * axes * ((peaksOf g).length + 1)) :
    readGvar ce (Rd.new bs) = .err := by
  obtain ⟨core, keys, shared, cs, k1, k2, k3, k4, k5, c1, c2, c3, c4, c5, c6, c7, c8⟩ := C53_layout glyf g bs hw
  obtain ⟨s1, _⟩ := shared_tuples hgrid k1 k2
  have s2 := shared_count hgrid k1 k2
  obtain ⟨ts, t1, t2, t4, t3⟩ := concat_shared s1
  have hcl := chunks_length k3
  have hne : allSets g ≠ [] := by
    intro h0
    obtain ⟨b, hb⟩ := List.exists_mem_of_ne_nil _ k4
    have := (k2.2.1 b).1 hb
    rw [h0] at k1
    injection k1 with k1
    rw [← k1] at this
    simp at this
  rw [last_axes hgrid hne] at c5
  obtain ⟨O, hO⟩ : ∃ O, O = encVec (fun n => encU32 (UInt32.ofNat n)) (offsetsOf 0 cs) := ⟨_, rfl⟩
  have hOl : O.length = 4 * (g.length + 1) := by
    rw [hO, encVec_const_length (k := 4) (fun _ => rfl), offsetsOf_length, hcl]; omega
  rw [← hO] at k5
  have hbl : bs.length = 20 + 4 * (g.length + 1) + shared.flatten.length + cs.flatten.length := by
    rw [k5]
    simp only [List.length_append, encGvarCore_length, hOl]
    omega
  have hglyphs : core.glyphCount.toNat = g.length := by rw [c4]; exact ofNat16_toNat (by omega)
  have haxes : core.axisCount.toNat = axes := by rw [c5]; exact ofNat16_toNat ha
  have hcount : core.sharedTupleCount.toNat = shared.length := by rw [c6]; exact ofNat16_toNat (by omega)
  have ho1 : core.sharedTuplesOffset.toNat = 20 + 4 * (g.length + 1) := by
    rw [c7, hcl, Nat.mod_eq_of_lt (by omega)]; exact ofNat32_toNat (by omega)
  have hoff : Reads (readOffsets core.flags (core.glyphCount.toNat + 1)) O (offsetsOf 0 cs) := by
    unfold readOffsets
    rw [c3, if_neg (by decide), hglyphs, ← hcl, ← offsetsOf_length 0 cs, hO]
    apply reads_offsets32
    intro o ho
    have := offsetsOf_le 0 cs o ho
    omega
  have d1 : bs.drop 20 = O ++ (shared.flatten ++ cs.flatten) := by
    rw [k5]; exact List.drop_left' (encGvarCore_length core)
  have e1 := reads_of_prefix (reads_core core) (B := bs) (pos := 0) (by rw [k5]; exact List.prefix_append _ _) (by omega) [0, 0]
  have e2 := reads_of_prefix hoff (B := bs) (pos := 20) (by rw [d1]; exact List.prefix_append _ _) (by omega) [0, 0]
  have e3 := (((width_f2dot14.counted axes).counted (shared.length + 1)) ⟨bs, 20 + 4 * (g.length + 1), [0, 0]⟩).2 (by simp only; omega) (by
    have : (shared.length + 1) * (axes * 2) = 2 * axes * ((peaksOf g).length + 1) := by rw [s2, Nat.mul_comm, Nat.mul_comm axes 2]
    simp only
    omega)
  unfold readGvar Rd.new
  rw [encGvarCore_length, Nat.zero_add] at e1
  simp only [bind_run, pushTop, e1]
  rw [if_neg (by omega)]
  simp only [bind_run, e2, topOfTable, setPtr, Nat.zero_add, ho1]
  rw [if_neg (by omega)]
  simp only [bind_run, haxes, hcount, e3]

theorem concat_mem_length {α : Type} {R : α → Bytes → Prop} {l : List α} {bs : Bytes} (h : Concat R l bs) {x : α} (hx : x ∈ l) :
    ∃ b, R x b ∧ b.length ≤ bs.length := by
  induction h with
  | nil => simp at hx
  | cons a l b bs h1 _ ih =>
    rcases List.mem_cons.1 hx with rfl | hx
    · exact ⟨b, h1, by rw [List.length_append]; omega⟩
    · obtain ⟨b', e1, e2⟩ := ih hx
      exact ⟨b', e1, by rw [List.length_append]; omega⟩

theorem chunks_mem {shared : List Bytes} {glyf : Option (List Glyph)} {i : Nat} {g : Gvar} {cs : List Bytes}
    (h : GlyphChunks shared glyf i g cs) {ds : List DeltaSet} (hd : some ds ∈ g) :
    ∃ j b, g[j]? = some (some ds) ∧ glyphData shared (outlineOf glyf (i + j)) ds = .ok b ∧ (padEven b).length ≤ cs.flatten.length := by
  induction h with
  | nil i => simp at hd
  | @none i l cs _ ih =>
    obtain ⟨j, b, e0, e1, e2⟩ := ih (by simpa using hd)
    exact ⟨j + 1, b, by simpa using e0, by rwa [show i + (j + 1) = i + 1 + j by omega], by simpa using e2⟩
  | @some i l cs glyph ds' b h1 h2 _ ih =>
    by_cases he : ds = ds'
    · subst he
      have := glyphAt_outline h1
      exact ⟨0, b, rfl, by rw [Nat.add_zero, ← this]; exact h2, by rw [List.flatten_cons, List.length_append]; omega⟩
    · obtain ⟨j, b', e0, e1, e2⟩ := ih (by
        rcases List.mem_cons.1 hd with h | h
        · injection h with h; exact absurd h he
        · exact h)
      exact ⟨j + 1, b', by simpa using e0, by rwa [show i + (j + 1) = i + 1 + j by omega],
        by rw [List.flatten_cons, List.length_append]; omega⟩

theorem padEven_ge (b : Bytes) : b.length ≤ (padEven b).length := (padEven_prefix b).length_le

/-- The data of a glyph with a deltaset which moves something and has a start or an end of its own is longer than two tuples. -/
theorem glyphData_length {axes : UInt16} {glyph : Option Glyph} {ce : List Pt × List Nat} {ds : List DeltaSet}
    (hf : GlyphFits axes.toNat glyph ce ds) {shared : List Bytes} (hsh : shared.length ≤ 4096)
    (hmem : ∀ d ∈ ds, ∀ b, peakBytes d = .ok b → b ∈ shared) {b : Bytes} (h : glyphData shared glyph ds = .ok b)
    {d : DeltaSet} (hd : d ∈ ds) (hm : Moves d) (hi : ¬ (d.start = d.peak ∧ d.stop = d.peak)) : 4 * axes.toNat ≤ b.length := by
  obtain ⟨f1, f2, f3, f4, f5⟩ := hf
  unfold glyphData at h
  obtain ⟨vs, hvs, h'⟩ := Res.bind_inv h
  have key : ∀ e ∈ ds, ∀ v, toTupleVariation shared glyph e = .ok v → ∃ i, i < 4096 ∧ v.header = tupleHeader e (some i) ∧
      VariationFits axes.toNat true ce.1.length v ∧ (hasEffect v = true ↔ Moves e) := by
    intro e he v hv
    obtain ⟨i, pb, a1, a2, a3, a4⟩ := toTuple_inv (f5 e he) f2 (hmem e he) hv
    have hlt : i < shared.length := by
      by_contra hc
      rw [List.getElem?_eq_none (by omega)] at a2
      simp at a2
    exact ⟨i, by omega, a3, variation_fits (f5 e he) f1 (by omega) a3 a4, a4.2.2.2.1 v.header⟩
  have F := mapL_forall₂ hvs
  obtain ⟨v, hv, hdv⟩ : ∃ v ∈ vs, toTupleVariation shared glyph d = .ok v := by
    clear hvs h h' f3 f4 f5 key hmem
    induction F with
    | nil => simp at hd
    | cons h1 _ ih =>
      rcases List.mem_cons.1 hd with rfl | hd
      · exact ⟨_, by simp, h1⟩
      · obtain ⟨v, h2, h3⟩ := ih hd
        exact ⟨v, by simp [h2], h3⟩
  have hall : ∀ w ∈ vs, ∃ e ∈ ds, toTupleVariation shared glyph e = .ok w := by
    clear hvs h h' f3 f4 f5 key hmem hd hv hdv
    induction F with
    | nil => simp
    | cons h1 _ ih =>
      intro w hw
      rcases List.mem_cons.1 hw with rfl | hw
      · exact ⟨_, by simp, h1⟩
      · obtain ⟨e, h2, h3⟩ := ih w hw
        exact ⟨e, by simp [h2], h3⟩
  have hl := F.length_eq
  have hle : (vs.filter hasEffect).length ≤ vs.length := List.length_filter_le _ _
  obtain ⟨bs, hb, db, word, off, vs', w1, w2, _, _, _, w6, w7, _⟩ := C40_writes axes.toNat true ce.1.length (vs.filter hasEffect) f1 (by omega)
    (fun w hw => by
      obtain ⟨e, he, h1⟩ := hall w (List.mem_of_mem_filter hw)
      obtain ⟨_, _, _, h2, _⟩ := key e he w h1
      exact h2) (by
      have : ∀ l : List Variation, (∀ v ∈ l, headerSize axes.toNat v.header ≤ 4 + 4 * axes.toNat) →
          (l.map (fun v => headerSize axes.toNat v.header)).sum ≤ l.length * (4 + 4 * axes.toNat) := by
        intro l
        induction l with
        | nil => simp
        | cons v l ih =>
          intro h
          have h1 := h v (by simp)
          have h2 := ih (fun v hv => h v (by simp [hv]))
          simp only [List.map_cons, List.sum_cons, List.length_cons]
          rw [Nat.succ_mul]
          omega
      have h1 := this (vs.filter hasEffect) (fun w hw => by
        obtain ⟨e, he, h1⟩ := hall w (List.mem_of_mem_filter hw)
        obtain ⟨i, _, h2, _⟩ := key e he w h1
        rw [h2]
        exact tupleHeader_size _ _ _)
      have h2 : (vs.filter hasEffect).length ≤ ds.length := by omega
      have h3 := Nat.mul_le_mul_right (4 + 4 * axes.toNat) h2
      omega)
  rw [w1] at h'
  simp only [unwrapR] at h'
  injection h' with h'
  subst h'
  obtain ⟨i, _, g1, _, g3⟩ := key d hd v hdv
  have hv2 : variationContent v ∈ vs'.map variationContent := by
    rw [w6]
    exact List.mem_map_of_mem (List.mem_filter.2 ⟨hv, g3.2 hm⟩)
  obtain ⟨v', hv', e⟩ := List.mem_map.1 hv2
  have es : v'.header.startTuple = some d.start := by
    have := congrArg (fun x => x.2.2.1) e
    simp only [variationContent] at this
    rw [this, g1, tupleHeader_inter hi]
  have ee : v'.header.endTuple = some d.stop := by
    have := congrArg (fun x => x.2.2.2.1) e
    simp only [variationContent] at this
    rw [this, g1, tupleHeader_inter hi]
  obtain ⟨c, q1, q2⟩ := concat_mem_length w7 hv'
  obtain ⟨b1, b2, b3, rfl, _, _, o2, o3⟩ := q1
  have two : ∀ {p : Prop} {t : List ℚ} {x : Bytes}, OptTuple axes.toNat p (some t) x → x.length = 2 * axes.toNat := by
    intro p t x hx
    generalize ho : some t = o at hx
    cases hx with
    | absent => simp at ho
    | present ps _ hl => rw [encVec_const_length (k := 2) (fun _ => rfl), hl]; omega
  rw [es] at o2
  rw [ee] at o3
  have l2 := two o2
  have l3 := two o3
  rw [w2]
  simp only [List.length_append] at q2 ⊢
  omega

/-- **C53** (enough room). The data is long enough if there are at most three axes, or if some deltaset moves something and has
a start or an end different from its peak. -/
theorem C53_room (axes : Nat) (ha : axes ≤ 65535) (glyf : Option (List Glyph)) (ce : List (List Pt × List Nat)) (g : Gvar)
    (bs : Bytes) (hw : MayWrite glyf g bs) (hf : GvarFits axes glyf ce g) (hp : (peaksOf g).length ≤ 4096)
    (h : axes ≤ 3 ∨ ∃ d ∈ allSets g, Moves d ∧ ¬ (d.start = d.peak ∧ d.stop = d.peak)) :
    20 + 4 * (g.length + 1) + 2 * axes * ((peaksOf g).length + 1) ≤ bs.length := by
  obtain ⟨core, keys, shared, cs, k1, k2, k3, k4, k5, c1, c2, c3, c4, c5, c6, c7, c8⟩ := C53_layout glyf g bs hw
  have hgrid : ∀ d ∈ allSets g, GridTuple axes d.peak := fun d hd => setFits_of_mem hf hd
  obtain ⟨s1, _⟩ := shared_tuples hgrid k1 k2
  have s2 := shared_count hgrid k1 k2
  obtain ⟨_, _, _, t4, _⟩ := concat_shared s1
  have hax : (UInt16.ofNat axes).toNat = axes := ofNat16_toNat ha
  have hbl : bs.length = 20 + 4 * (g.length + 1) + 2 * axes * (peaksOf g).length + cs.flatten.length := by
    rw [k5]
    simp only [List.length_append, encGvarCore_length]
    rw [encVec_const_length (k := 4) (fun _ => rfl), offsetsOf_length, chunks_length k3, t4, s2]
    omega
  have hmem : ∀ ds, some ds ∈ g → ∀ d ∈ ds, ∀ b, peakBytes d = .ok b → b ∈ shared := by
    intro ds hds d hd b hb
    exact (k2.2.1 b).2 ((peak_keys k1).2 d (mem_allSets.2 ⟨ds, hds, hd⟩) b hb)
  have hx : 2 * axes * ((peaksOf g).length + 1) = 2 * axes * (peaksOf g).length + 2 * axes := by rw [Nat.mul_add, Nat.mul_one]
  have goal : 2 * axes ≤ cs.flatten.length := by
    rcases h with h3 | ⟨d, hd, hm, hi⟩
    · obtain ⟨b0, hb0⟩ := List.exists_mem_of_ne_nil _ k4
      obtain ⟨d, hd, _⟩ := (peak_keys k1).1 b0 ((k2.2.1 b0).1 hb0)
      obtain ⟨ds, hds, _⟩ := mem_allSets.1 hd
      obtain ⟨j, b, e0, e1, e2⟩ := chunks_mem k3 hds
      obtain ⟨c, _, hg⟩ := hf j ds e0
      rw [Nat.zero_add] at e1
      rw [← hax] at hg
      obtain ⟨l5, _⟩ := glyphData_reads hg (by omega) (hmem ds hds) e1
      have := padEven_ge b
      have := padEven_even b
      omega
    · obtain ⟨ds, hds, hdd⟩ := mem_allSets.1 hd
      obtain ⟨j, b, e0, e1, e2⟩ := chunks_mem k3 hds
      obtain ⟨c, _, hg⟩ := hf j ds e0
      rw [Nat.zero_add] at e1
      rw [← hax] at hg
      have := glyphData_length hg (by omega) (hmem ds hds) e1 hdd hm hi
      have := padEven_ge b
      omega
  omega

/-- **C53** (no deltasets). A table without any deltaset cannot be written: the writer panics. -/
theorem C53_no_sets (glyf : Option (List Glyph)) (g : Gvar) (h : allSets g = []) :
    ∃ keys, Res.mapL peakBytes (allSets g) = .ok keys ∧ ∀ shared, MostCommon keys shared → encGvar shared glyf g = .panic := by
  refine ⟨[], by rw [h]; rfl, ?_⟩
  intro shared hm
  have : shared = [] := by
    rw [List.eq_nil_iff_forall_not_mem]
    intro b hb
    simpa using (hm.2.1 b).1 hb
  subst this
  unfold encGvar
  rw [h]
  rfl

example : allSets [none, some []] = [] := rfl

/-- **C53** (65535 glyphs). A table for 65535 glyphs cannot be read: the reader panics. -/
theorem C53_all_glyphs (ce : List (List Pt × List Nat)) (core : GvarCore) (rest : Bytes) (h : core.glyphCount = 65535) :
    readGvar ce (Rd.new (encGvarCore core ++ rest)) = .panic := by
  have e1 := reads_core core [] rest [0, 0]
  unfold readGvar Rd.new
  simp only [List.nil_append, List.length_nil] at e1
  simp only [bind_run, pushTop, e1, h]
  rfl

/-- **C53** (short offsets). A table with short offsets (half the distance, 16 bits) panics when some distance is 65536 or more,
as OpenType allows. -/
theorem C53_short_offsets (ce : List (List Pt × List Nat)) (core : GvarCore) (offs : List UInt16) (rest : Bytes)
    (hf : core.flags &&& 1 = 0) (hg : core.glyphCount.toNat + 1 = offs.length) (o : UInt16) (ho : o ∈ offs) (h : 32768 ≤ o.toNat) :
    readGvar ce (Rd.new (encGvarCore core ++ (encVec encU16 offs ++ rest))) = .panic := by
  have e1 := reads_core core [] (encVec encU16 offs ++ rest) [0, 0]
  unfold readGvar Rd.new
  simp only [List.nil_append, List.length_nil] at e1
  simp only [bind_run, pushTop, e1]
  by_cases hc : core.glyphCount.toNat = 65535
  · rw [if_pos hc]
    rfl
  · rw [if_neg hc]
    have e2 := reads_deCounted (p := readU16) (enc := encU16) offs (fun a _ => reads_u16 a) (encGvarCore core) rest [0, 0]
    have e3 : Res.mapL doubled offs = .panic := by
      clear hg e1 e2
      refine mapL_one_panic ?_ ⟨o, ho, ?_⟩
      · intro x _
        unfold doubled
        split <;> simp
      · unfold doubled
        rw [if_neg (by omega)]
    simp only [readOffsets, hf, if_true, bind_run, Nat.zero_add, List.append_assoc] at e2 ⊢
    rw [hg, e2]
    simp only [Reader.lift, e3]

/-! ### Examples -/

/-- A triangle and three deltasets on one axis: full weight, a light weight, one which moves nothing. -/
def exGlyph : Glyph := { contours := [[⟨0, 0, true⟩, ⟨100, 0, true⟩, ⟨50, 80, true⟩]], components := [], instructions := [], overlap := false, xMin := 0, xMax := 100, yMin := 0, yMax := 80 }
def exBold : DeltaSet := { peak := [1], start := [0], stop := [1], deltas := [(0, 0), (10, 0), (5, 3), (0, 0), (15, 0), (0, 0), (0, 0)] }
def exLight : DeltaSet := { peak := [-1], start := [-1], stop := [-1], deltas := [(2, 0), (-3, 0), (0, 0), (0, 0), (-5, 0), (0, 0), (0, 0)] }
def exStill : DeltaSet := { peak := [1], start := [0], stop := [1], deltas := List.replicate 7 (0, 0) }

def exCe : List Pt × List Nat := ([(0, 0), (100, 0), (50, 80), (0, 0), (0, 0), (0, 0), (0, 0)], [2, 3, 4, 5, 6])
def exGvar : Gvar := [none, some [exBold, exLight, exStill]]

theorem grid_minus : OnGrid (-1) := ⟨-16384, by decide, by decide, by norm_num⟩

theorem exFits : GvarFits 1 (some [exGlyph, exGlyph]) [exCe, exCe] exGvar := by
  have hce : gvarCoordsAndEnds exGlyph = .ok exCe := by decide
  have one : ∀ x, OnGrid x → GridTuple 1 [x] := fun x h => ⟨rfl, by simpa using h⟩
  intro i ds hi
  match i, hi with
  | 1, hi =>
    simp only [exGvar, List.getElem?_cons_succ, List.getElem?_cons_zero, Option.some.injEq] at hi
    subst hi
    refine ⟨exCe, rfl, by decide, ?_, by decide, by decide, ?_⟩
    · intro gl hg
      injection hg with hg
      rw [← hg]
      exact hce
    · intro d hd
      have hgl : ∀ gl, outlineOf (some [exGlyph, exGlyph]) 1 = some gl → gvarCoordsAndEnds gl = .ok exCe := by
        intro gl hg
        injection hg with hg
        rw [← hg]
        exact hce
      simp only [List.mem_cons, List.not_mem_nil, or_false] at hd
      rcases hd with rfl | rfl | rfl
      · exact C53_small_glyph 1 _ exCe _ (one _ grid_one) (one _ grid_zero) (one _ grid_one) rfl (by decide) hgl
      · exact C53_small_glyph 1 _ exCe _ (one _ grid_minus) (one _ grid_minus) (one _ grid_minus) rfl (by decide) hgl
      · exact C53_small_glyph 1 _ exCe _ (one _ grid_one) (one _ grid_zero) (one _ grid_one) rfl (by decide) hgl
  | 0, hi => simp [exGvar] at hi
  | i + 2, hi => simp [exGvar] at hi

theorem exOutlines : OutlinesFit (some [exGlyph, exGlyph]) [exCe, exCe] exGvar := by
  refine ⟨by intro l h; injection h with h; rw [← h]; decide, ?_⟩
  intro i ds gl c hi hg hc d hd
  match i, hi with
  | 1, hi =>
    injection hg with hg
    subst hg
    injection hc with hc
    subst hc
    simp only [exGvar, List.getElem?_cons_succ, List.getElem?_cons_zero, Option.some.injEq] at hi
    subst hi
    refine ⟨by decide, by unfold Fits15; decide, ?_⟩
    simp only [List.mem_cons, List.not_mem_nil, or_false] at hd
    rcases hd with rfl | rfl | rfl <;> unfold Fits15 <;> decide
  | 0, hi => simp [exGvar] at hi
  | i + 2, hi => simp [exGvar] at hi

/-- The example is written; read back it has lost the deltaset which moves nothing, and the light weight now reaches from -1
to 0. -/
example : (∃ bs, MayWrite (some [exGlyph, exGlyph]) exGvar bs) ∧
    ∀ bs, MayWrite (some [exGlyph, exGlyph]) exGvar bs → bs.length ≤ 4294967295 →
      ∃ r, readGvar [exCe, exCe] (Rd.new bs) = .ok ([none, some [exBold, { exLight with stop := [0] }]], r) := by
  have hp : (peaksOf exGvar).length ≤ 4096 := by decide
  constructor
  · obtain ⟨keys, k1, ⟨shared, k2⟩, k3⟩ := C53_writes 1 (by decide) (some [exGlyph, exGlyph]) [exCe, exCe] exGvar exFits
      exOutlines (by decide) hp (by decide)
    obtain ⟨bs, hb⟩ := k3 shared k2
    exact ⟨bs, keys, shared, k1, k2, hb⟩
  · intro bs hw hB
    have := C53_roundtrip 1 (by decide) (some [exGlyph, exGlyph]) [exCe, exCe] exGvar bs hw exFits (by decide) hp hB
      (C53_room 1 (by decide) _ _ _ bs hw exFits hp (.inl (by decide)))
    have e : exGvar.map (Option.map glyphBack) = [none, some [exBold, { exLight with stop := [0] }]] := by decide
    rwa [e] at this

/-- Four axes and nothing but a deltaset which moves nothing. -/
def exFlat : Gvar := [some [⟨[0, 0, 0, 0], [0, 0, 0, 0], [0, 0, 0, 0], [(0, 0)]⟩]]

theorem exFlat_grid : ∀ d ∈ allSets exFlat, GridTuple 4 d.peak := by
  intro d hd
  simp only [allSets, exFlat, List.filterMap_cons, List.filterMap_nil, id, List.flatten_cons, List.flatten_nil, List.append_nil, List.mem_singleton] at hd
  rw [hd]
  exact ⟨rfl, by simpa using grid_zero⟩

theorem exFlat_written : MayWrite none exFlat
    [0, 1, 0, 0, 0, 4, 0, 1, 0, 0, 0, 28, 0, 1, 0, 1, 0, 0, 0, 36, 0, 0, 0, 0, 0, 0, 0, 6, 0, 0, 0, 0, 0, 0, 0, 0, 128, 0, 0, 4, 0, 0] := by
  have hz : ([0, 0, 0, 0] : List ℚ) = ([0, 0, 0, 0] : List Int16).map fixed14 := by
    simp [fixed14]
  have hp := peakBytes_fixed (d := ⟨[0, 0, 0, 0], [0, 0, 0, 0], [0, 0, 0, 0], [(0, 0)]⟩) hz
  refine ⟨[[0, 0, 0, 0, 0, 0, 0, 0]], [[0, 0, 0, 0, 0, 0, 0, 0]], ?_, ⟨by decide, by simp, by decide⟩, ?_⟩
  · simp only [exFlat, allSets, List.filterMap_cons, List.filterMap_nil, id, List.flatten_cons, List.flatten_nil, List.append_nil, Res.mapL, hp]
    rfl
  · unfold encGvar
    simp only [exFlat, allSets, List.filterMap_cons, List.filterMap_nil, id, List.flatten_cons, List.flatten_nil, List.append_nil, Res.mapL, hp,
      glyphLoop, glyphData, toTupleVariation, Res.ok_bind, outlineAt]
    rfl

/-- **C53** (refutation). A table with four axes whose only deltaset moves nothing is written, but cannot be read. -/
theorem C53_too_short_example : ∃ g bs, MayWrite none g bs ∧ readGvar [([(0, 0)], [0])] (Rd.new bs) = .err :=
  ⟨exFlat, _, exFlat_written, C53_too_short 4 (by decide) none _ exFlat _ exFlat_written exFlat_grid (by decide) (by decide)
    (by decide) (by decide)⟩

end FT.Props
