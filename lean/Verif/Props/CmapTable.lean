import Verif.Props.Cmap14

/-!
C78: the whole cmap table.
-/

namespace FT.Props
open FT Reader FT.Cmap FT.Off

/-! ### Specification -/

/-- The first subtable of the list whose mapping has the same hash as that of `st`. -/
def firstLike (hash : Map → UInt64) : List Subtable → Subtable → Subtable
  | [], st => st
  | x :: l, st => if hash x.mapping = hash st.mapping then x else firstLike hash l st

/-- A subtable that can be saved and, on its own, comes back with its content. -/
def SurvivesAlone (st : Subtable) : Prop :=
  (st.format = 4 ∧ BMap.Sorted st.mapping ∧ ∃ bs, encSubtable st = .ok bs ∧ bs.length ≤ 65535) ∨
  (st.format = 12 ∧ BMap.Sorted st.mapping ∧ st.mapping.length ≤ 4294967295 ∧
    ∃ g0 l, st.mapping = (0, g0) :: l ∧ g0 ≠ 0 ∧ (∀ y, l.head? = some y → y.2 ≠ g0) ∧ ∀ y ∈ l.dropLast, y.2 ≠ 65535) ∨
  (st.format = 14 ∧ ∃ m, st.uvs = some m ∧ BMap.Sorted m ∧ m.length < 4294967296 ∧
    ∃ bs, encSubtable st = .ok bs ∧ NearTables bs)

/-- What the content of `st` becomes under an encoding record with the given platform and encoding: formats 4 and 12
have no variation sequences; format 14 has nothing else and is always for platform 0, encoding 5. -/
def reread (st : Subtable) (p e : UInt16) : Subtable :=
  if st.format = 14 then ⟨14, 0, 5, 0, [], st.uvs⟩ else ⟨st.format, p, e, st.languageID, st.mapping, none⟩

/-- Nothing is set that the format cannot express. -/
def Expressible (st : Subtable) : Prop :=
  if st.format = 14 then st.platformID = 0 ∧ st.encodingID = 5 ∧ st.languageID = 0 ∧ st.mapping = [] else st.uvs = none

/-- Wherever the bytes of the subtable are, a record with any platform and encoding pointing at them reads as `back`. -/
def ReadsAs (st : Subtable) (back : UInt16 → UInt16 → Subtable) : Prop :=
  ∃ bs, encSubtable st = .ok bs ∧ ∀ (p e : UInt16) (pre post : Bytes) (ptr base : Nat) (stk : List Nat) (off : UInt32),
    base + off.toNat = pre.length → ∃ ptr', readSubtable ⟨p, e, off⟩ ⟨pre ++ bs ++ post, ptr, base :: stk⟩ =
      .ok (back p e, ⟨pre ++ bs ++ post, ptr', base :: stk⟩)

/-! ### Subtables on their own -/

theorem survives_reads {st : Subtable} (h : SurvivesAlone st) : ReadsAs st (reread st) := by
  obtain ⟨f, p0, e0, lang, m, u⟩ := st
  rcases h with ⟨hf, hs, bs, hb, hfit⟩ | ⟨hf, hs, hlen, hx⟩ | ⟨hf, m', hu, hs, hm, bs, hb, hn⟩
  · simp only at hf hs
    subst hf
    have hb' : (fromMapping4 lang m >>= fun t => Res.ok (encCmap4 t)) = .ok bs := hb
    obtain ⟨t, ht, h2⟩ := Res.bind_inv hb'
    cases h2
    obtain ⟨segs, ds, os, b⟩ := built_of_ok hs ht
    refine ⟨_, hb, ?_⟩
    intro p e pre post ptr base stk off ho
    rw [read4 (b.reads hfit) b.format p e pre post ptr base stk off ho, b.toMapping hs hfit, b.language]
    exact ⟨_, rfl⟩
  · simp only at hf hs hlen hx
    subst hf
    obtain ⟨g0, l, h1, h2, h3, h4⟩ := hx
    subst h1
    have hlang : UInt16.ofNat (UInt32.ofNat lang.toNat).toNat = lang := by
      have := lang.toNat_lt
      rw [ofNat32_toNat (by omega)]; simp
    have hg : g0.toNat ≠ 0 := fun e => h2 (UInt16.toNat_inj.mp (by rw [e]; rfl))
    obtain ⟨gs, e1, e2, _, e4, _⟩ := fromMapping12_cases lang 0 g0 l hs hg h4
    obtain ⟨f1, f2⟩ := e4 rfl h3
    simp only [List.length_cons] at hlen
    refine ⟨encCmap12 ⟨12, 0, UInt32.ofNat (16 + 12 * gs.length), UInt32.ofNat lang.toNat, gs⟩, ?_, ?_⟩
    · show (fromMapping12 lang ((0, g0) :: l) >>= fun t => Res.ok (encCmap12 t)) = _
      rw [e1]; rfl
    · intro p e pre post ptr base stk off ho
      rw [read12 (t := ⟨12, 0, UInt32.ofNat (16 + 12 * gs.length), UInt32.ofNat lang.toNat, gs⟩)
        (by simp only; omega) rfl p e pre post ptr base stk off ho, toMapping12, expandGroups_eq _ _ f1, f2]
      have := BMap.collect_of_sorted hs
      unfold BMap.collect at this
      simp only [this, hlang]
      exact ⟨_, rfl⟩
  · simp only at hf hu hs
    subst hf hu
    refine ⟨bs, hb, ?_⟩
    intro p e pre post ptr base stk off ho
    have hfit : Fits24 m' := by
      by_contra hf
      have := (cmap14Tab_no hf)
      have hb : encCmap14 (fromUvs (some m')) = .ok bs := hb
      unfold encCmap14 at hb
      cases hc : cmap14Tab (fromUvs (some m')) with
      | ok t => exact absurd hc (this t)
      | err => rw [hc] at hb; cases hb
      | panic => rw [hc] at hb; cases hb
    obtain ⟨r, h1, h2, h3⟩ := (readSub14 p0 e0 lang m hs hfit hm hb pre post ptr base stk off p e ho).1 hn
    refine ⟨r.ptr, ?_⟩
    obtain ⟨a, b, c⟩ := r
    simp only at h2 h3
    subst h2 h3
    exact h1

/-! ### Writing -/

theorem firstLike_append (hash : Map → UInt64) (st : Subtable) : ∀ (a b : List Subtable),
    firstLike hash (a ++ b) st = if (∃ x ∈ a, hash x.mapping = hash st.mapping) then firstLike hash a st else firstLike hash b st
  | [], b => by simp
  | x :: a, b => by
    simp only [List.cons_append, firstLike]
    by_cases h : hash x.mapping = hash st.mapping
    · rw [if_pos h, if_pos h, if_pos ⟨x, by simp, h⟩]
    · rw [if_neg h, if_neg h, firstLike_append hash st a b]
      congr 1
      simp [h]

theorem firstLike_congr (hash : Map → UInt64) {st st' : Subtable} (h : hash st.mapping = hash st'.mapping) :
    ∀ (a : List Subtable), (∃ x ∈ a, hash x.mapping = hash st.mapping) → firstLike hash a st = firstLike hash a st'
  | [], h' => by obtain ⟨_, h', _⟩ := h'; cases h'
  | x :: a, h' => by
    simp only [firstLike, h]
    split
    · rfl
    · rename_i hn
      apply firstLike_congr hash h
      obtain ⟨y, hy, e⟩ := h'
      rcases List.mem_cons.mp hy with rfl | hy
      · rw [h] at e; exact absurd e hn
      · exact ⟨y, hy, e⟩

/-- Where the bytes of a subtable are in the output. -/
def Placed (base : Nat) (output : Bytes) (f : Subtable) (o : UInt32) : Prop :=
  ∃ sb k, encSubtable f = .ok sb ∧ o = UInt32.ofNat (base + k) ∧ sb <+: output.drop k ∧ k + sb.length ≤ output.length

theorem Placed.mono {base : Nat} {a b : Bytes} {f : Subtable} {o : UInt32} (h : Placed base a f o) : Placed base (a ++ b) f o := by
  obtain ⟨sb, k, h1, h2, h3, h4⟩ := h
  refine ⟨sb, k, h1, h2, ?_, by simp; omega⟩
  rw [List.drop_append_of_le_length (by omega)]
  exact h3.trans (List.prefix_append _ _)

structure WInv (hash : Map → UInt64) (base : Nat) (done : List Subtable) (offsets : List (Nat × UInt32)) (output : Bytes) : Prop where
  some : ∀ (st : Subtable) o, BMap.get? offsets (hash st.mapping).toNat = some o →
    (∃ x ∈ done, hash x.mapping = hash st.mapping) ∧ Placed base output (firstLike hash done st) o
  none : ∀ (st : Subtable), BMap.get? offsets (hash st.mapping).toNat = none → ∀ x ∈ done, hash x.mapping ≠ hash st.mapping

theorem writeLoop_spec (hash : Map → UInt64) (base : Nat) : ∀ (l done : List Subtable) (offsets : List (Nat × UInt32)) (output : Bytes)
    (rs : List EncodingRecord) (out : Bytes), writeLoop hash base l offsets output = .ok (rs, out) → base + out.length ≤ 4294967295 →
    WInv hash base done offsets output → output <+: out ∧
    List.Forall₂ (fun st (r : EncodingRecord) => r.platformID = st.platformID ∧ r.encodingID = st.encodingID ∧
      Placed base out (firstLike hash (done ++ l) st) r.subtableOffset) l rs
  | [], done, offsets, output, rs, out, h, _, _ => by
    simp only [writeLoop] at h
    cases h
    exact ⟨List.prefix_rfl, .nil⟩
  | st :: l, done, offsets, output, rs, out, h, hsz, inv => by
    simp only [writeLoop] at h
    cases hg : BMap.get? offsets (hash st.mapping).toNat with
    | some o =>
      rw [hg] at h
      simp only at h
      obtain ⟨⟨rs', out'⟩, h1, h2⟩ := Res.bind_inv h
      cases h2
      obtain ⟨⟨x, hx, hxe⟩, hp⟩ := inv.some st o hg
      have inv' : WInv hash base (done ++ [st]) offsets output := by
        constructor
        · intro st' o' hg'
          obtain ⟨⟨y, hy, hye⟩, hp'⟩ := inv.some st' o' hg'
          refine ⟨⟨y, by simp [hy], hye⟩, ?_⟩
          rw [firstLike_append, if_pos ⟨y, hy, hye⟩]
          exact hp'
        · intro st' hg' y hy
          rcases List.mem_append.mp hy with hy | hy
          · exact inv.none st' hg' y hy
          · simp only [List.mem_singleton] at hy
            subst hy
            intro e
            rw [e, hg'] at hg
            cases hg
      obtain ⟨p1, p2⟩ := writeLoop_spec hash base l (done ++ [st]) offsets output _ _ h1 hsz inv'
      rw [List.append_assoc, List.singleton_append] at p2
      refine ⟨p1, .cons ⟨rfl, rfl, ?_⟩ p2⟩
      rw [firstLike_append, if_pos ⟨x, hx, hxe⟩]
      obtain ⟨t, rfl⟩ := p1
      exact hp.mono
    | none =>
      rw [hg] at h
      simp only at h
      split at h
      · cases h
      · rename_i hpos
        obtain ⟨sb, h0, h⟩ := Res.bind_inv h
        obtain ⟨⟨rs', out'⟩, h1, h2⟩ := Res.bind_inv h
        cases h2
        have hsb : encSubtable st = .ok sb := by
          cases he : encSubtable st with
          | ok b => rw [he] at h0; exact h0
          | err => rw [he] at h0; cases h0
          | panic => rw [he] at h0; cases h0
        have hnone := inv.none st hg
        have hno : ¬ ∃ x ∈ done, hash x.mapping = hash st.mapping := fun ⟨x, hx, e⟩ => hnone x hx e
        have hself : ∀ st', hash st'.mapping = hash st.mapping → firstLike hash (done ++ [st]) st' = st := by
          intro st' e
          rw [firstLike_append, if_neg (by rw [e]; exact hno)]
          simp [firstLike, e]
        have hpl : ∀ tail, output ++ sb ++ tail = out' → UInt32.ofNat (base % 4294967296 + output.length % 4294967296) = UInt32.ofNat (base + output.length) := by
          intro tail ht
          subst ht
          simp only [List.length_append] at hsz
          rw [Nat.mod_eq_of_lt (by omega), Nat.mod_eq_of_lt (by omega)]
        have hplace : Placed base (output ++ sb) st (UInt32.ofNat (base + output.length)) :=
          ⟨sb, output.length, hsb, rfl, by simp, by simp⟩
        -- the sizes are known to be small only once the rest has been written
        have hgrow : ∀ (l : List Subtable) (offsets : List (Nat × UInt32)) (output : Bytes) (rs : List EncodingRecord) (out : Bytes),
            writeLoop hash base l offsets output = .ok (rs, out) → output <+: out := by
          intro l
          induction l with
          | nil =>
            intro offsets output rs out h
            simp only [writeLoop] at h
            cases h
            exact List.prefix_rfl
          | cons st l ih =>
            intro offsets output rs out h
            simp only [writeLoop] at h
            cases hg : BMap.get? offsets (hash st.mapping).toNat with
            | some o =>
              rw [hg] at h
              simp only at h
              obtain ⟨⟨rs', out'⟩, h1, h2⟩ := Res.bind_inv h
              cases h2
              exact ih _ _ _ _ h1
            | none =>
              rw [hg] at h
              simp only at h
              split at h
              · cases h
              · obtain ⟨sb, h0, h⟩ := Res.bind_inv h
                obtain ⟨⟨rs', out'⟩, h1, h2⟩ := Res.bind_inv h
                cases h2
                exact (List.prefix_append _ _).trans (ih _ _ _ _ h1)
        obtain ⟨tail, ht⟩ := hgrow _ _ _ _ _ h1
        rw [hpl tail ht] at h1 ⊢
        have inv' : WInv hash base (done ++ [st]) (BMap.insert offsets (hash st.mapping).toNat (UInt32.ofNat (base + output.length)))
            (output ++ sb) := by
          constructor
          · intro st' o' hg'
            rw [BMap.get?_insert] at hg'
            split at hg'
            · rename_i he
              cases hg'
              have he' : hash st'.mapping = hash st.mapping := UInt64.toNat_inj.mp he
              refine ⟨⟨st, by simp, he'.symm⟩, ?_⟩
              rw [hself st' he']
              exact hplace
            · obtain ⟨⟨y, hy, hye⟩, hp'⟩ := inv.some st' o' hg'
              refine ⟨⟨y, by simp [hy], hye⟩, ?_⟩
              rw [firstLike_append, if_pos ⟨y, hy, hye⟩]
              exact hp'.mono
          · intro st' hg' y hy
            rw [BMap.get?_insert] at hg'
            split at hg'
            · cases hg'
            · rename_i he
              rcases List.mem_append.mp hy with hy | hy
              · exact inv.none st' hg' y hy
              · simp only [List.mem_singleton] at hy
                subst hy
                intro e
                exact he (by rw [e])
        obtain ⟨p1, p2⟩ := writeLoop_spec hash base l (done ++ [st]) _ _ _ _ h1 hsz inv'
        rw [List.append_assoc, List.singleton_append] at p2
        refine ⟨(List.prefix_append _ _).trans p1, .cons ⟨rfl, rfl, ?_⟩ p2⟩
        have : firstLike hash (done ++ st :: l) st = st := by
          rw [firstLike_append, if_neg hno]
          simp [firstLike]
        rw [this, ← ht]
        exact hplace.mono

/-! ### The property -/

theorem encRecord_length (r : EncodingRecord) : (encRecord r).length = 8 := by simp [encRecord]

/-- The header of a saved table and where its subtables are. -/
theorem cmap_parts (hash : Map → UInt64) (sts : List Subtable) (bs : Bytes) (hb : encCmap hash sts = .ok bs)
    (hsz : bs.length ≤ 4294967295) : ∃ rs out, bs = encU16 0 ++ (encCounted encRecord rs ++ out) ∧ rs.length = sts.length ∧
      List.Forall₂ (fun st (r : EncodingRecord) => r.platformID = st.platformID ∧ r.encodingID = st.encodingID ∧
        ∃ sb, encSubtable (firstLike hash sts st) = .ok sb ∧ sb <+: bs.drop r.subtableOffset.toNat ∧
          r.subtableOffset.toNat + sb.length ≤ bs.length) sts rs := by
  unfold encCmap at hb
  obtain ⟨⟨rs, out⟩, h1, h2⟩ := Res.bind_inv hb
  cases h2
  have hlen : ∀ rs, (encU16 0 ++ (encCounted encRecord rs ++ out)).length = 4 + rs.length * 8 + out.length := by
    intro rs
    simp only [encCounted, List.length_append, encVec_length encRecord_length, encU16_length]
    omega
  have hn : ∀ (l : List Subtable) (offsets : List (Nat × UInt32)) (output : Bytes) (base : Nat) (rs : List EncodingRecord) (out : Bytes),
      writeLoop hash base l offsets output = .ok (rs, out) → rs.length = l.length := by
    intro l
    induction l with
    | nil => intro offsets output base rs out h; simp only [writeLoop] at h; cases h; rfl
    | cons st l ih =>
      intro offsets output base rs out h
      simp only [writeLoop] at h
      split at h
      · obtain ⟨⟨rs', out'⟩, h1, h2⟩ := Res.bind_inv h
        cases h2
        simp [ih _ _ _ _ _ h1]
      · split at h
        · cases h
        · obtain ⟨sb, h0, h⟩ := Res.bind_inv h
          obtain ⟨⟨rs', out'⟩, h1, h2⟩ := Res.bind_inv h
          cases h2
          simp [ih _ _ _ _ _ h1]
  have hn := hn _ _ _ _ _ _ h1
  rw [hlen, hn] at hsz
  obtain ⟨_, p2⟩ := writeLoop_spec hash _ sts [] [] [] rs out h1 hsz
    ⟨fun st o h => by simp [BMap.get?] at h, fun _ _ x hx => by simp at hx⟩
  refine ⟨rs, out, rfl, hn, ?_⟩
  rw [List.nil_append] at p2
  refine p2.imp ?_
  rintro st r ⟨q1, q2, sb, k, q3, q4, q5, q6⟩
  refine ⟨q1, q2, sb, q3, ?_⟩
  have hk : r.subtableOffset.toNat = 4 + sts.length * 8 + k := by
    rw [q4, ofNat32_toNat (by omega)]
  rw [hk, hlen, hn]
  refine ⟨?_, by omega⟩
  have : (encU16 0 ++ (encCounted encRecord rs ++ out)).drop (4 + sts.length * 8 + k) = out.drop k := by
    rw [← List.append_assoc, ← List.drop_drop]
    congr 1
    rw [List.drop_append_of_le_length (by simp [encCounted, encVec_length encRecord_length, hn]; omega),
      List.drop_of_length_le (by simp [encCounted, encVec_length encRecord_length, hn]; omega), List.nil_append]
  rw [this]
  exact q5

/-- **C78** (what is written). A saved cmap table consists of a version 0, the number of subtables, and for each
subtable, in order, its platform, encoding and an offset; at the offset are the bytes of the first subtable whose
mapping has the same hash. -/
theorem C78_layout (hash : Map → UInt64) (sts : List Subtable) (hn : sts.length ≤ 65535) (bs : Bytes) (hb : encCmap hash sts = .ok bs)
    (hsz : bs.length ≤ 4294967295) :
    field bs 0 2 = 0 ∧ field bs 2 2 = sts.length ∧ ∀ i (hi : i < sts.length),
      field bs (4 + 8 * i) 2 = sts[i].platformID.toNat ∧ field bs (6 + 8 * i) 2 = sts[i].encodingID.toNat ∧
      ∃ sb, encSubtable (firstLike hash sts sts[i]) = .ok sb ∧ sb <+: bs.drop (field bs (8 + 8 * i) 4) := by
  obtain ⟨rs, out, h1, h2, h3⟩ := cmap_parts hash sts bs hb hsz
  have hf : ∀ i (hi : i < rs.length), ∀ j n, j + n ≤ 8 → field bs (4 + 8 * i + j) n = field (encRecord rs[i]) j n := by
    intro i hi j n hj
    rw [h1, show 4 + 8 * i + j = 2 + (2 + (8 * i + j)) by omega, field_skip (by simp), encCounted, List.append_assoc, field_skip (by simp),
      field_prefix (by rw [encVec_length encRecord_length]; omega), field_vec encRecord_length hj _ hi]
  refine ⟨?_, ?_, ?_⟩
  · rw [h1, field_u16]; rfl
  · rw [h1, field_skip' (j := 0) (by simp), encCounted, List.append_assoc, field_u16, ofNat16_toNat (by omega), h2]
  · intro i hi
    have hi' : i < rs.length := by omega
    obtain ⟨q1, q2, sb, q3, q4, _⟩ := List.forall₂_iff_get.mp h3 |>.2 i hi hi'
    simp only [List.get_eq_getElem] at q1 q2 q3 q4
    refine ⟨?_, ?_, sb, q3, ?_⟩
    · have := hf i hi' 0 2 (by omega)
      rw [Nat.add_zero] at this
      rw [this, encRecord, field_u16, q1]
    · have := hf i hi' 2 2 (by omega)
      rw [show 4 + 8 * i + 2 = 6 + 8 * i by omega] at this
      rw [this, encRecord, field_skip' (j := 0) (by simp), field_u16, q2]
    · have := hf i hi' 4 4 (by omega)
      rw [show 4 + 8 * i + 4 = 8 + 8 * i by omega] at this
      rw [this, encRecord, field_skip' (j := 2) (by simp), field_skip' (j := 0) (by simp), field_u32']
      exact q4

theorem readSubtables_all {bs : Bytes} {back : Subtable → UInt16 → UInt16 → Subtable} {f : Subtable → Subtable} :
    ∀ {sts : List Subtable} {rs : List EncodingRecord}, List.Forall₂ (fun st (r : EncodingRecord) => r.platformID = st.platformID ∧
      r.encodingID = st.encodingID ∧ ∃ sb, encSubtable (f st) = .ok sb ∧ sb <+: bs.drop r.subtableOffset.toNat ∧
          r.subtableOffset.toNat + sb.length ≤ bs.length) sts rs →
    (∀ st ∈ sts, ReadsAs (f st) (back (f st))) → ∀ ptr, ∃ r, readSubtables rs ⟨bs, ptr, [0]⟩ =
      .ok (sts.map (fun st => back (f st) st.platformID st.encodingID), r)
  | _, _, .nil, _, ptr => ⟨_, rfl⟩
  | _, _, .cons (a := st) (b := r) (l₁ := sts) (l₂ := rs) h1 h2, hr, ptr => by
    obtain ⟨q1, q2, sb, q3, q4, q5⟩ := h1
    obtain ⟨sb', g1, g2⟩ := hr st (by simp)
    rw [q3] at g1
    cases g1
    obtain ⟨t, ht⟩ := q4
    obtain ⟨ptr', g3⟩ := g2 st.platformID st.encodingID (bs.take r.subtableOffset.toNat) t ptr 0 [] r.subtableOffset
      (by rw [List.length_take]; omega)
    have e : bs.take r.subtableOffset.toNat ++ sb ++ t = bs := by rw [List.append_assoc, ht, List.take_append_drop]
    rw [e] at g3
    have er : r = ⟨st.platformID, st.encodingID, r.subtableOffset⟩ := by rw [← q1, ← q2]
    obtain ⟨r', h⟩ := readSubtables_all h2 (fun x hx => hr x (by simp [hx])) ptr'
    refine ⟨r', ?_⟩
    unfold readSubtables
    rw [Reader.bind_run, er, g3]
    simp only
    rw [Reader.bind_run, h]
    rfl

theorem reads_record (r : EncodingRecord) : Reads readRecord (encRecord r) r :=
  Reads.bind (reads_u16 _) (Reads.bind (reads_u16 _) (Reads.map (fun o => (⟨r.platformID, r.encodingID, o⟩ : EncodingRecord)) (reads_u32 _)))

/-- Reading a saved table whose subtables can all be read on their own. -/
theorem cmap_read (hash : Map → UInt64) (sts : List Subtable) (hn : sts.length ≤ 65535) (bs : Bytes) (hb : encCmap hash sts = .ok bs)
    (hsz : bs.length ≤ 4294967295) (back : Subtable → UInt16 → UInt16 → Subtable)
    (hr : ∀ st ∈ sts, ReadsAs (firstLike hash sts st) (back (firstLike hash sts st))) :
    ∃ r, readCmap (Rd.new bs) = .ok (sts.map (fun st => back (firstLike hash sts st) st.platformID st.encodingID), r) := by
  obtain ⟨rs, out, h1, h2, h3⟩ := cmap_parts hash sts bs hb hsz
  have e : Reads (do let _version ← readU16; readCounted readRecord) (encU16 0 ++ encCounted encRecord rs) rs :=
    Reads.bind (reads_u16 0) (reads_counted rs (by omega) (fun r _ => reads_record r))
  have e := e [] out [0, 0]
  simp only [List.nil_append, List.length_nil] at e
  rw [List.append_assoc, ← h1] at e
  obtain ⟨r, h4⟩ := readSubtables_all (back := back) h3 hr (0 + (encU16 0 ++ encCounted encRecord rs).length)
  refine ⟨r, ?_⟩
  unfold readCmap Rd.new Lay.inTable
  rw [Reader.bind_run, Reader.bind_run]
  simp only [pushTop]
  rw [Reader.bind_run, e]
  exact h4

theorem firstLike_mem (hash : Map → UInt64) (st : Subtable) : ∀ (l : List Subtable), st ∈ l → firstLike hash l st ∈ l ∧
    hash (firstLike hash l st).mapping = hash st.mapping
  | [], h => by cases h
  | x :: l, h => by
    simp only [firstLike]
    split
    · rename_i e; exact ⟨by simp, e⟩
    · rename_i e
      rcases List.mem_cons.mp h with rfl | h
      · exact absurd rfl e
      · obtain ⟨h1, h2⟩ := firstLike_mem hash st l h
        exact ⟨by simp [h1], h2⟩

/-- **C78** (what is read). Reading a saved table whose subtables survive on their own gives, for each subtable, the
content of the first subtable whose mapping has the same hash, under the platform and encoding of the subtable
itself (except format 14). -/
theorem C78_reread (hash : Map → UInt64) (sts : List Subtable) (hn : sts.length ≤ 65535) (bs : Bytes) (hb : encCmap hash sts = .ok bs)
    (hsz : bs.length ≤ 4294967295) (hs : ∀ st ∈ sts, SurvivesAlone st) :
    ∃ r, readCmap (Rd.new bs) = .ok (sts.map (fun st => reread (firstLike hash sts st) st.platformID st.encodingID), r) :=
  cmap_read hash sts hn bs hb hsz reread (fun st h => survives_reads (hs _ (firstLike_mem hash st sts h).1))

/-- **C78** (which tables survive). If moreover subtables whose mappings have the same hash have the same format,
language, mapping and sequences, and nothing is set that a format cannot express, the table is read back unchanged. -/
theorem C78_roundtrip (hash : Map → UInt64) (sts : List Subtable) (hn : sts.length ≤ 65535) (bs : Bytes) (hb : encCmap hash sts = .ok bs)
    (hsz : bs.length ≤ 4294967295) (hs : ∀ st ∈ sts, SurvivesAlone st ∧ Expressible st)
    (ha : ∀ a ∈ sts, ∀ b ∈ sts, hash a.mapping = hash b.mapping → a.format = b.format ∧ a.languageID = b.languageID ∧
      a.mapping = b.mapping ∧ a.uvs = b.uvs) :
    ∃ r, readCmap (Rd.new bs) = .ok (sts, r) := by
  obtain ⟨r, h⟩ := C78_reread hash sts hn bs hb hsz (fun st h => (hs st h).1)
  refine ⟨r, ?_⟩
  rw [h]
  have : sts.map (fun st => reread (firstLike hash sts st) st.platformID st.encodingID) = sts.map id := by
    refine List.map_congr_left ?_
    intro st hst
    obtain ⟨h1, h2⟩ := firstLike_mem hash st sts hst
    obtain ⟨e1, e2, e3, e4⟩ := ha _ h1 st hst h2
    have hx := (hs st hst).2
    obtain ⟨f, p, e, lang, m, u⟩ := st
    simp only [reread, e1, e2, e3, e4, id]
    unfold Expressible at hx
    simp only at hx
    split
    · rename_i hf
      rw [if_pos hf] at hx
      obtain ⟨x1, x2, x3, x4⟩ := hx
      subst x1 x2 x3 x4 hf
      rfl
    · rename_i hf
      rw [if_neg hf] at hx
      subst hx
      rfl
  rw [this, List.map_id]

theorem writeLoop_ok (hash : Map → UInt64) (base : Nat) (size : Subtable → Nat) : ∀ (l : List Subtable) (offsets : List (Nat × UInt32))
    (output : Bytes), (∀ st ∈ l, ∃ sb, encSubtable st = .ok sb ∧ sb.length ≤ size st) →
    base + output.length + (l.map size).sum ≤ 4294967295 →
    ∃ rs out, writeLoop hash base l offsets output = .ok (rs, out) ∧ out.length ≤ output.length + (l.map size).sum ∧ rs.length = l.length
  | [], offsets, output, _, _ => ⟨[], output, rfl, by simp, rfl⟩
  | st :: l, offsets, output, h, hsz => by
    simp only [List.map_cons, List.sum_cons] at hsz ⊢
    simp only [writeLoop]
    cases hg : BMap.get? offsets (hash st.mapping).toNat with
    | some o =>
      obtain ⟨rs, out, h1, h2, h3⟩ := writeLoop_ok hash base size l offsets output (fun x hx => h x (by simp [hx])) (by omega)
      simp only [h1, Res.ok_bind, Res.pure_eq]
      exact ⟨⟨st.platformID, st.encodingID, o⟩ :: rs, out, rfl, by omega, by simp [h3]⟩
    | none =>
      obtain ⟨sb, h4, h5⟩ := h st (by simp)
      simp only
      rw [Nat.mod_eq_of_lt (show base < 4294967296 by omega), Nat.mod_eq_of_lt (show output.length < 4294967296 by omega), if_neg (by omega), h4]
      obtain ⟨rs, out, h1, h2, h3⟩ := writeLoop_ok hash base size l
        (BMap.insert offsets (hash st.mapping).toNat (UInt32.ofNat (base + output.length))) (output ++ sb) (fun x hx => h x (by simp [hx]))
        (by simp only [List.length_append]; omega)
      simp only [orPanic, h1, Res.ok_bind, Res.pure_eq]
      simp only [List.length_append] at h2
      exact ⟨⟨st.platformID, st.encodingID, UInt32.ofNat (base + output.length)⟩ :: rs, out, rfl, by omega, by simp [h3]⟩

theorem writeLoop_panics (hash : Map → UInt64) (base : Nat) (st : Subtable) (hst : ∀ sb, encSubtable st ≠ .ok sb) :
    ∀ (l : List Subtable) (offsets : List (Nat × UInt32)) (output : Bytes), st ∈ l → firstLike hash l st = st →
    BMap.get? offsets (hash st.mapping).toNat = none → writeLoop hash base l offsets output = .panic
  | [], _, _, h, _, _ => by cases h
  | x :: l, offsets, output, h, hf, hno => by
    simp only [writeLoop]
    simp only [firstLike] at hf
    by_cases he : hash x.mapping = hash st.mapping
    · rw [if_pos he] at hf
      subst hf
      rw [hno]
      simp only
      split
      · rfl
      · cases hc : encSubtable x with
        | ok b => exact absurd hc (hst b)
        | err => rfl
        | panic => rfl
    · rw [if_neg he] at hf
      have hl : st ∈ l := by
        rcases List.mem_cons.mp h with rfl | h
        · exact absurd rfl he
        · exact h
      cases hg : BMap.get? offsets (hash x.mapping).toNat with
      | some o => simp only [writeLoop_panics hash base st hst l offsets output hl hf hno]; rfl
      | none =>
        simp only
        split
        · rfl
        · cases hc : encSubtable x with
          | ok b =>
            simp only [orPanic, Res.ok_bind]
            rw [writeLoop_panics hash base st hst l _ (output ++ b) hl hf (by
              rw [BMap.get?_insert_ne _ (fun e => he (UInt64.toNat_inj.mp e.symm))]; exact hno)]
            rfl
          | err => rfl
          | panic => rfl

/-- **C78** (what can be saved). A table whose subtables can all be saved, in less than 4 GB, is saved. If a subtable
that is the first with its hash cannot be saved, saving the table panics. -/
theorem C78_saves (hash : Map → UInt64) (sts : List Subtable) :
    (∀ size : Subtable → Nat, (∀ st ∈ sts, ∃ sb, encSubtable st = .ok sb ∧ sb.length ≤ size st) →
      4 + 8 * sts.length + (sts.map size).sum ≤ 4294967295 → ∃ bs, encCmap hash sts = .ok bs ∧ bs.length ≤ 4294967295) ∧
    ((∃ st ∈ sts, firstLike hash sts st = st ∧ ∀ sb, encSubtable st ≠ .ok sb) → encCmap hash sts = .panic) := by
  constructor
  · intro size h hsz
    obtain ⟨rs, out, h1, h2, h3⟩ := writeLoop_ok hash (4 + sts.length * 8) size sts [] [] h (by simp; omega)
    refine ⟨encU16 0 ++ (encCounted encRecord rs ++ out), ?_, ?_⟩
    · unfold encCmap; rw [h1]; rfl
    · simp only [encCounted, List.length_append, encVec_length encRecord_length, encU16_length, h3]
      simp only [List.length_nil] at h2
      omega
  · rintro ⟨st, h1, h2, h3⟩
    unfold encCmap
    rw [writeLoop_panics hash _ st h3 sts [] [] h1 h2 rfl]
    rfl

/-! ### Examples and refutations -/

/-- A map that survives in both formats. -/
def exMap : Map := [(0, 1), (0x41, 5), (0x42, 6)]

theorem exMap_survives4 (p e lang : UInt16) : SurvivesAlone (sub4 p e lang exMap) := by
  left
  refine ⟨rfl, by simp [exMap, BMap.Sorted, Key.lt], ?_⟩
  exact (C34_small p e lang exMap (by simp [exMap, BMap.Sorted, Key.lt]) (by simp [exMap]) (by simp [exMap])
    (by decide) (by decide)).2

theorem exMap_survives12 (p e lang : UInt16) : SurvivesAlone (sub12 p e lang exMap) := by
  right; left
  exact ⟨rfl, by simp [exMap, BMap.Sorted, Key.lt], by simp [exMap], 1, _, rfl, by decide, by simp, by decide⟩

example : Expressible (sub4 3 1 0 exMap) ∧ Expressible (sub14 0 5 0 [] (some [((0x4E08, 0xE0100), 7)])) := by
  simp [Expressible]

/-- **C78** (formats are lost). A table with the same map in format 4 and in format 12 — the usual way to serve old and new
programs — comes back with format 4 twice, whatever the hash function; languages are lost the same way. -/
theorem C78_format_lost (hash : Map → UInt64) (bs : Bytes) (hb : encCmap hash [sub4 3 1 7 exMap, sub12 3 10 9 exMap] = .ok bs)
    (hsz : bs.length ≤ 4294967295) :
    ∃ r, readCmap (Rd.new bs) = .ok ([sub4 3 1 7 exMap, sub4 3 10 7 exMap], r) := by
  have := C78_reread hash _ (by simp) bs hb hsz (by
    intro st h
    rcases List.mem_cons.mp h with rfl | h
    · exact exMap_survives4 _ _ _
    · rw [List.mem_singleton.mp h]; exact exMap_survives12 _ _ _)
  simpa [firstLike, reread] using this

/-- Such bytes exist. -/
theorem C78_format_lost_saves (hash : Map → UInt64) :
    ∃ bs, encCmap hash [sub4 3 1 7 exMap, sub12 3 10 9 exMap] = .ok bs ∧ bs.length ≤ 4294967295 := by
  refine (C78_saves hash _).1 (fun _ => 1000) ?_ (by simp)
  intro st h
  rcases List.mem_cons.mp h with rfl | h
  · exact ⟨_, rfl, by decide⟩
  · rw [List.mem_singleton.mp h]; exact ⟨_, rfl, by decide⟩

/-- Saving the usual pair of records for one format 4 map, and reading it back. -/
example (hash : Map → UInt64) : ∃ bs r, encCmap hash [sub4 0 3 0 exMap, sub4 3 1 0 exMap] = .ok bs ∧
    readCmap (Rd.new bs) = .ok ([sub4 0 3 0 exMap, sub4 3 1 0 exMap], r) := by
  obtain ⟨bs, h1, h2⟩ := (C78_saves hash [sub4 0 3 0 exMap, sub4 3 1 0 exMap]).1 (fun _ => 1000) (by
    intro st h
    rcases List.mem_cons.mp h with rfl | h
    · exact ⟨_, rfl, by decide⟩
    · rw [List.mem_singleton.mp h]; exact ⟨_, rfl, by decide⟩) (by simp)
  obtain ⟨r, h3⟩ := C78_roundtrip hash [sub4 0 3 0 exMap, sub4 3 1 0 exMap] (by simp) bs h1 h2 (by
    intro st h
    rcases List.mem_cons.mp h with rfl | h
    · exact ⟨exMap_survives4 _ _ _, by simp [Expressible]⟩
    · rw [List.mem_singleton.mp h]; exact ⟨exMap_survives4 _ _ _, by simp [Expressible]⟩) (by
    intro a ha b hb _
    simp only [List.mem_cons, List.not_mem_nil, or_false] at ha hb
    rcases ha with rfl | rfl <;> rcases hb with rfl | rfl <;> simp)
  exact ⟨bs, r, h1, h3⟩

/-- **C78** (sequences are lost). Of two format 14 subtables in a table, both come back with the sequences of the first. -/
theorem C78_sequences_lost (hash : Map → UInt64) (m m' : UvsMap) (bs : Bytes)
    (h1 : SurvivesAlone (sub14 0 5 0 [] (some m))) (h2 : SurvivesAlone (sub14 0 5 0 [] (some m')))
    (hb : encCmap hash [sub14 0 5 0 [] (some m), sub14 0 5 0 [] (some m')] = .ok bs) (hsz : bs.length ≤ 4294967295) :
    ∃ r, readCmap (Rd.new bs) = .ok ([sub14 0 5 0 [] (some m), sub14 0 5 0 [] (some m)], r) := by
  have := C78_reread hash _ (by simp) bs hb hsz (by
    intro st h
    rcases List.mem_cons.mp h with rfl | h
    · exact h1
    · rw [List.mem_singleton.mp h]; exact h2)
  simpa [firstLike, reread] using this

example : SurvivesAlone (sub14 0 5 0 [] (some [((0x4E08, 0xE0100), 7), ((0x4E08, 0xE0101), 8)])) := by
  right; right
  exact ⟨rfl, _, rfl, by simp [BMap.Sorted, Key.lt], by simp, _, rfl, by unfold NearTables; decide⟩

end FT.Props
