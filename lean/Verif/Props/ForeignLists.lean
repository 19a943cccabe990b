import Verif.Props.ForeignCov
import Verif.Props.LayoutTables

/-!
# C88: script, feature and lookup lists written by any program
-/

namespace FT.Props
open FT Reader FT.Off FT.Lay

/-! ### Specification -/

/-- What a GSUB or GPOS table says: scripts, features (tag, offset of the parameters or 0, lookups), lookups. -/
structure LayoutSays (R : Type) where
  scripts : ScriptList
  features : List (Tag × UInt16 × List Nat)
  lookups : List (Lookup R)

/-- A Feature table: parameters and lookups. -/
def anyFeatureRows (x : UInt16 × List Nat) : List Cell :=
  [u16 x.1, .num 2 x.2.length] ++ x.2.map (fun i => .num 2 (i : Nat))

/-- A GSUB or GPOS table, version 1.0, given the type number and the subtables of each rule. The three lists, and
everything in them, may be anywhere. -/
def saysRows {R : Type} (ty : R → Nat) (subtables : R → List (Bytes → Nat → Prop)) (t : LayoutSays R) : List Cell :=
  [.num 2 1, .num 2 0,
   .ref 2 (At (taggedRows (fun s => At (scriptRows s)) t.scripts)),
   .ref 2 (At (taggedRows (fun x => At (anyFeatureRows x)) t.features)),
   .ref 2 (At (.num 2 t.lookups.length :: t.lookups.map (fun l => .ref 2 (At (lookupRows ty subtables l)))))]

/-- Numbers and tags that the format can express; scripts and languages in the order of their tags. -/
def SaysOk {R : Type} (ty : R → Nat) (subtables : R → List (Bytes → Nat → Prop)) (t : LayoutSays R) : Prop :=
  ScriptsOk t.scripts ∧
  (t.features.length ≤ 65535 ∧ ∀ x ∈ t.features, x.1.Valid ∧ x.2.2.length ≤ 65535 ∧ ∀ i ∈ x.2.2, i ≤ 65535) ∧
  t.lookups.length ≤ 65535 ∧ ∀ l ∈ t.lookups, ty l.rule ≤ 65535 ∧ (subtables l.rule).length ≤ 65535 ∧
    l.mfs.isSome = l.flags.toNat.testBit 4

/-! ### Proofs -/

theorem plain_tag {t : Tag} (h : t.Valid) : Plain readTag t [tag t] := by
  intro B base pos stk hs
  obtain ⟨h1, _⟩ := hs
  simp only [Cell.Shown] at h1
  have hl := congrArg List.length h1
  simp only [List.length_take, List.length_drop, List.length_cons, List.length_nil] at hl
  unfold readTag
  rw [bind_run]
  unfold consume
  rw [if_neg (by simp only; omega)]
  simp only
  have : (B.drop pos).take 4 = [t.a, t.b, t.c, t.d] := h1
  rw [this]
  have hf : Tag.fromRaw [t.a, t.b, t.c, t.d] = .ok t := by
    obtain ⟨a, b, c, d⟩ := h
    simp [Tag.fromRaw, a, b, c, d]
  rw [hf]
  rfl

theorem plain_indices {l : List Nat} (hl : l.length ≤ 65535) (h : ∀ i ∈ l, i ≤ 65535) :
    Plain readU16s (l.map UInt16.ofNat) (.num 2 l.length :: l.map (fun i => .num 2 (i : Nat))) := by
  have := plain_words (l := l.map UInt16.ofNat) (by simpa using hl)
  unfold wordRows at this
  rw [List.length_map, List.map_map] at this
  have e : (List.map (u16 ∘ UInt16.ofNat) l : List Cell) = l.map (fun i => .num 2 (i : Nat)) := by
    refine List.map_congr_left fun i hi => ?_
    simp only [Function.comp, u16]
    rw [ofNat16_toNat (h i hi)]
  rwa [e] at this

theorem plain_lang {l : LanguageSystem} (h : LanguageOk l) : Plain LangSys.read l.toLow (langRows l) := by
  unfold LangSys.read langRows
  refine (plain_num16 0 (by decide)).cons (Plain.cons (a := UInt16.ofNat (l.required.getD 65535)) (plain_count ?_)
    ((plain_indices h.2.2 fun i hi => by have := h.2.1 i hi; omega).last rfl))
  cases e : l.required with
  | none => simp
  | some r => have := h.1 r e; simp only [Option.getD_some]; omega

theorem lang_wide (l : LanguageSystem) : 0 < widths (langRows l) := by simp [langRows, widths_cons, Cell.width]
theorem tagged_wide {β : Type} (P : β → Bytes → Nat → Prop) (l : List (Tag × β)) : 0 < widths (taggedRows P l) := by
  simp [taggedRows, widths_cons, Cell.width]

theorem deCounted_map_finds {α β : Type} {p : Reader β} {g : α → β} {rows : α → List Cell} : ∀ {l : List α},
    (∀ a ∈ l, Finds p (g a) (rows a)) → Finds (deCounted p l.length) (l.map g) (l.flatMap rows)
  | [], _ => finds_pure []
  | a :: l, h => by
    rw [List.flatMap_cons, List.length_cons, deCounted]
    exact (h a (by simp)).bind ((deCounted_map_finds fun b hb => h b (by simp [hb])).last rfl)

theorem finds_tagged {α β : Type} {q : Reader α} {P : β → Bytes → Nat → Prop} {g : β → α} {l : List (Tag × β)}
    (hl : l.length ≤ 65535) (ht : ∀ x ∈ l, x.1.Valid) (h : ∀ x ∈ l, FindsAt q (g x.2) (P x.2)) :
    Finds (readTagRecs q) (l.map (fun x => (x.1, some (g x.2)))) (taggedRows P l) := by
  unfold readTagRecs readCounted taggedRows
  refine (plain_count hl).finds.cons ?_
  rw [ofNat16_toNat hl]
  refine deCounted_map_finds fun x hx => ?_
  unfold readTagRec
  exact (plain_tag (ht x hx)).finds.cons ((finds_ref (h x hx)).last rfl)

theorem finds_script {s : Script} (h : ScriptOk s) : FindsAt ScriptLow.read s.toLow (At (scriptRows s)) := by
  obtain ⟨h1, _, h3, h4⟩ := h
  refine Finds.table ?_ (by simp [scriptRows, widths_cons]; exact .inr (tagged_wide _ _))
  unfold scriptRows
  refine Finds.cons (a := s.dflt.map LanguageSystem.toLow) ?_
    ((finds_tagged h3 (fun x hx => (h4 x hx).1) fun x hx => (plain_lang (h4 x hx).2).table (lang_wide _)).last rfl)
  cases e : s.dflt with
  | none => exact finds_null _
  | some l => exact finds_ref ((plain_lang (h1 l e)).table (lang_wide l))

theorem finds_scriptList {l : ScriptList} (h : ScriptsOk l) :
    FindsAt readScriptList l.toLow (At (taggedRows (fun s => At (scriptRows s)) l)) :=
  (finds_tagged h.2.1 (fun x hx => (h.2.2 x hx).1) fun x hx => finds_script (h.2.2 x hx).2).table (tagged_wide _ _)

theorem finds_featureList {l : List (Tag × UInt16 × List Nat)} (hl : l.length ≤ 65535)
    (h : ∀ x ∈ l, x.1.Valid ∧ x.2.2.length ≤ 65535 ∧ ∀ i ∈ x.2.2, i ≤ 65535) :
    FindsAt readFeatureList (l.map (fun x => (x.1, some (⟨x.2.1, x.2.2.map UInt16.ofNat⟩ : FeatureTable))))
      (At (taggedRows (fun x => At (anyFeatureRows x)) l)) := by
  refine Finds.table (finds_tagged (g := fun x : UInt16 × List Nat => (⟨x.1, x.2.map UInt16.ofNat⟩ : FeatureTable)) hl
    (fun x hx => (h x hx).1) fun x hx => Plain.table ?_ ?_) (tagged_wide _ _)
  · unfold FeatureTable.read anyFeatureRows
    exact (plain_u16 _).cons ((plain_indices (h x hx).2.1 (h x hx).2.2).last rfl)
  · simp [anyFeatureRows, widths_cons, Cell.width]

theorem finds_refs {S : Type} {q : Reader S} : ∀ {ss : List S} {Ps : List (Bytes → Nat → Prop)},
    List.Forall₂ (fun s P => FindsAt q s P) ss Ps → Finds (deCounted (readSubAt q) ss.length) ss (Ps.map (.ref 2))
  | [], _, .nil => finds_pure []
  | s :: ss, _, .cons (b := P) (l₂ := Ps) h h' => by
    rw [List.length_cons, deCounted, List.map_cons]
    exact (finds_subAt h).cons ((finds_refs h').last rfl)

theorem finds_mfs {flag : UInt16} {mfs : Option UInt16} (h : mfs.isSome = flag.toNat.testBit 4) :
    Finds (readMfs flag) mfs (if flag.toNat.testBit 4 then mfs.toList.map u16 else []) := by
  unfold readMfs
  rw [usesMfs_bit, ← h]
  cases mfs with
  | none => exact finds_pure none
  | some x => exact (plain_u16 x).finds.last rfl

/-- The structure a lookup is read as. -/
def lowLookup {R S : Type} (ty : R → Nat) (subs : R → List S) (l : Lookup R) : LookupLow S :=
  ⟨UInt16.ofNat (ty l.rule), l.flags, subs l.rule, l.mfs⟩

theorem finds_lookup {R S : Type} {ty : R → Nat} {subtables : R → List (Bytes → Nat → Prop)} {subs : R → List S}
    {q : Nat → Reader S} {l : Lookup R} (hty : ty l.rule ≤ 65535) (hn : (subtables l.rule).length ≤ 65535)
    (hm : l.mfs.isSome = l.flags.toNat.testBit 4)
    (hs : List.Forall₂ (fun s P => FindsAt (q (ty l.rule)) s P) (subs l.rule) (subtables l.rule)) :
    FindsAt (readLookup q) (lowLookup ty subs l) (At (lookupRows ty subtables l)) := by
  refine Finds.table ?_ (by simp [lookupRows, widths_cons, Cell.width])
  unfold lookupRows
  rw [List.append_assoc]
  refine (plain_count hty).finds.cons ((plain_u16 _).finds.cons ((plain_count hn).finds.cons ?_))
  rw [ofNat16_toNat hty, ofNat16_toNat hn, ← hs.length_eq]
  exact (finds_refs hs).bind ((finds_mfs hm).last rfl)

theorem finds_lookupList {R S : Type} {ty : R → Nat} {subtables : R → List (Bytes → Nat → Prop)} {subs : R → List S}
    {q : Nat → Reader S} {ls : List (Lookup R)} (hl : ls.length ≤ 65535)
    (h : ∀ l ∈ ls, FindsAt (readLookup q) (lowLookup ty subs l) (At (lookupRows ty subtables l))) :
    FindsAt (readLookupList q) (ls.map (fun l => some (lowLookup ty subs l)))
      (At (.num 2 ls.length :: ls.map (fun l => .ref 2 (At (lookupRows ty subtables l))))) := by
  refine Finds.table ?_ (by simp [widths_cons, Cell.width])
  unfold readOffVec readCounted
  refine (plain_count hl).finds.cons ?_
  rw [ofNat16_toNat hl]
  have := deCounted_map_finds (p := readOffset .w16 (readLookup q)) (g := fun l => some (lowLookup ty subs l))
    (rows := fun l => [.ref 2 (At (lookupRows ty subtables l))]) fun l hl => finds_ref (h l hl)
  rwa [← List.map_eq_flatMap] at this

/-- The header and the three lists. -/
theorem finds_layout {R S : Type} {ty : R → Nat} {subtables : R → List (Bytes → Nat → Prop)} {subs : R → List S}
    {q : Nat → Reader S} {t : LayoutSays R} (ok : SaysOk ty subtables t)
    (hs : ∀ l ∈ t.lookups, List.Forall₂ (fun s P => FindsAt (q (ty l.rule)) s P) (subs l.rule) (subtables l.rule)) :
    Finds (TableLow.read q) ⟨1, 0, some t.scripts.toLow,
      some (t.features.map (fun x => (x.1, some (⟨x.2.1, x.2.2.map UInt16.ofNat⟩ : FeatureTable)))),
      some (t.lookups.map (fun l => some (lowLookup ty subs l)))⟩ (saysRows ty subtables t) := by
  obtain ⟨h1, ⟨h2, h3⟩, h4, h5⟩ := ok
  unfold TableLow.read saysRows
  refine (plain_num16 1 (by decide)).finds.cons ((plain_num16 0 (by decide)).finds.cons
    ((finds_ref (finds_scriptList h1)).cons ((finds_ref (finds_featureList h2 h3)).cons ((finds_ref ?_).last rfl))))
  exact finds_lookupList h4 fun l hl => finds_lookup (h5 l hl).1 (h5 l hl).2.1 (h5 l hl).2.2 (hs l hl)

/-- The features as users see them: parameters are dropped. -/
def saysFeatures {R : Type} (t : LayoutSays R) : FeatureList := t.features.map (fun x => (x.1, x.2.2, none))

theorem features_any {l : List (Tag × UInt16 × List Nat)} (h : ∀ x ∈ l, ∀ i ∈ x.2.2, i ≤ 65535) :
    FeatureList.ofLow (l.map (fun x => (x.1, some (⟨x.2.1, x.2.2.map UInt16.ofNat⟩ : FeatureTable)))) =
      .ok (l.map (fun x => (x.1, x.2.2, none))) := by
  unfold FeatureList.ofLow
  induction l with
  | nil => rfl
  | cons a l ih =>
    rw [List.map_cons, Res.mapL, ih fun x hx => h x (by simp [hx])]
    simp only [unwrapRec, List.map_map, List.map_cons]
    congr 4
    conv => rhs; rw [← List.map_id a.2.2]
    refine List.map_congr_left fun i hi => ?_
    have := h a (by simp) i hi
    simp only [Function.comp_apply, id]
    rw [ofNat16_toNat this]

theorem peek_version {B : Bytes} {rest : List Cell} (h : At (.num 2 1 :: .num 2 0 :: rest) B 0) :
    FT.peek 4 (Rd.new B) = .ok ([0, 1, 0, 0], Rd.new B) := by
  obtain ⟨⟨h1, h2⟩, ⟨h3, h4⟩, _⟩ := h
  simp only [Cell.width] at h3 h4
  unfold FT.peek
  rw [if_neg (by simp only [Rd.new]; omega)]
  have e : (B.drop 0).take 4 = [0, 1, 0, 0] := by
    match B, h3 with
    | a :: b :: c :: d :: B', _ =>
      simp only [field, beValue, List.drop_zero, Nat.zero_add, List.drop_succ_cons, List.take_succ_cons, List.take_zero, List.foldl_cons,
        List.foldl_nil] at h2 h4
      have := a.toNat_lt; have := b.toNat_lt; have := c.toNat_lt; have := d.toNat_lt
      rw [List.drop_zero]
      simp only [List.take_succ_cons, List.take_zero]
      rw [UInt8.toNat_inj.mp (show a.toNat = (0 : UInt8).toNat by simp; omega),
        UInt8.toNat_inj.mp (show b.toNat = (1 : UInt8).toNat by simp; omega),
        UInt8.toNat_inj.mp (show c.toNat = (0 : UInt8).toNat by simp; omega),
        UInt8.toNat_inj.mp (show d.toNat = (0 : UInt8).toNat by simp; omega)]
  simp only [Rd.new, e]

/-- A whole table: every list is read, and every lookup is converted by `rule`. -/
theorem layout_read {R S R' : Type} {ty : R → Nat} {subtables : R → List (Bytes → Nat → Prop)} {subs : R → List S}
    {q : Nat → Reader S} {rule : Nat → List S → Res R'} {M : R → R' → Prop} {t : LayoutSays R}
    (ok : SaysOk ty subtables t)
    (hs : ∀ l ∈ t.lookups, List.Forall₂ (fun s P => FindsAt (q (ty l.rule)) s P) (subs l.rule) (subtables l.rule))
    (hr : ∀ l ∈ t.lookups, ∃ r', rule (ty l.rule) (subs l.rule) = .ok r' ∧ M l.rule r')
    {B : Bytes} (hB : At (saysRows ty subtables t) B 0) :
    ∃ g rd, GposGsub.read q rule (Rd.new B) = .ok (g, rd) ∧ g.scripts = t.scripts ∧ g.features = saysFeatures t ∧
      List.Forall₂ (fun (l : Lookup R) (l' : Lookup R') => l'.flags = l.flags ∧ l'.mfs = l.mfs ∧ M l.rule l'.rule)
        t.lookups g.lookups := by
  have hf := finds_layout ok hs B 0 0 [] hB
  have hls : ∃ ls, Res.mapL (Lookup.ofLow rule) (t.lookups.map (lowLookup ty subs)) = .ok ls ∧
      List.Forall₂ (fun (l : Lookup R) (l' : Lookup R') => l'.flags = l.flags ∧ l'.mfs = l.mfs ∧ M l.rule l'.rule)
        t.lookups ls := by
    have h5 := ok.2.2.2
    generalize t.lookups = lookups at hr h5
    clear hf hB hs ok
    induction lookups with
    | nil => exact ⟨[], rfl, .nil⟩
    | cons a l ih =>
      obtain ⟨ls, e, hl⟩ := ih (fun x hx => hr x (by simp [hx])) (fun x hx => h5 x (by simp [hx]))
      obtain ⟨r', e', hm⟩ := hr a (by simp)
      refine ⟨⟨a.flags, a.mfs, r'⟩ :: ls, ?_, .cons ⟨rfl, rfl, hm⟩ hl⟩
      rw [List.map_cons, Res.mapL, e]
      unfold Lookup.ofLow lowLookup
      simp only
      rw [ofNat16_toNat (h5 a (by simp)).1, e']
  obtain ⟨ls, e1, e2⟩ := hls
  refine ⟨⟨ls, t.scripts, saysFeatures t⟩, ⟨B, 0 + widths (saysRows ty subtables t), [0]⟩, ?_, rfl, rfl, e2⟩
  unfold GposGsub.read
  rw [bind_run, peek_version hB]
  simp only [if_true]
  rw [bind_run]
  have : Rd.new B = ⟨B, 0, [0]⟩ := rfl
  rw [this, hf]
  simp only [GposGsub.ofLow, Option.getD_some]
  rw [List.filterMap_map]
  have : (List.filterMap (id ∘ fun l => some (lowLookup ty subs l)) t.lookups) = t.lookups.map (lowLookup ty subs) := by
    rw [← List.filterMap_eq_map]; rfl
  rw [this, e1, scripts_low ok.1, features_any fun x hx => (ok.2.1.2 x hx).2.2]
  rfl

end FT.Props
