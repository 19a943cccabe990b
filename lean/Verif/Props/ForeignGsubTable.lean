import Verif.Props.ForeignGsub
import Verif.Props.ForeignLists
import Verif.Props.GsubMatch

/-!
# C88: GSUB tables written by any program

A GSUB table that follows the OpenType specification, whatever program wrote it: the substitutions users see are those
the table prescribes.
-/

namespace FT.Props
open FT Reader FT.Off FT.Lay FT.Gsub

/-! ### Specification -/

/-- The item of a list parallel to a coverage table that belongs to a glyph. -/
def entryOf {β : Type} (cov : List UInt16) (l : List β) (g : UInt16) : Option β :=
  (cov.findIdx? (· == g)).bind (fun i => l[i]?)

/-- The substitute of a glyph by a single substitution subtable. Deltas are added modulo 65536. -/
def singleMeans : Sub → UInt16 → Option UInt16
  | .s1_1 cov d, g => if g ∈ covGlyphs cov then some (g + d.toUInt16) else none
  | .s1_2 cov l, g => entryOf (covGlyphs cov) l g
  | _, _ => none

/-- The sequence or the alternates of a glyph by a subtable of type 2 or 3. -/
def sequenceMeans : Sub → UInt16 → Option (List UInt16)
  | .s2_1 _ cov l, g => (entryOf (covGlyphs cov) l g).bind id
  | .s3_1 _ cov l, g => (entryOf (covGlyphs cov) l g).bind id
  | _, _ => none

/-- The substitute of the first glyph of `text`, preceded by `before` (nearest glyph first), by a reverse chaining
subtable. -/
def reverseMeans : Sub → (before text : List UInt16) → Option UInt16
  | .s8_1 _ cov b a l, before, g :: rest =>
    if coveragesMatch b before ∧ coveragesMatch a rest then entryOf (covGlyphs cov) l g else none
  | _, _, _ => none

/-- A lookup as it is stored: directly, or with every subtable in an extension subtable. -/
structure SubstSays where
  ext : Bool
  type : Nat
  subs : List Sub

/-- An extension subtable, leading to a subtable with a 32-bit offset. -/
def extRows (ty : Nat) (s : Sub) : List Cell := [.num 2 1, .num 2 ty, .ref 4 (At (subRows s))]

def SubstSays.number (r : SubstSays) : Nat := if r.ext then 7 else r.type
def SubstSays.tables (r : SubstSays) : List (Bytes → Nat → Prop) :=
  r.subs.map (fun s => if r.ext then At (extRows r.type s) else At (subRows s))

/-- The lookups of a reverse chaining rule of the user-facing structures. -/
def reverseRule (r : RevSubst) (before text : List UInt16) : Option UInt16 := match text with
  | [] => none
  | g :: rest => if slotsMatch r.backtrack before ∧ slotsMatch r.lookahead rest then
      (r.mapping.find? (fun x => x.1 == g)).map Prod.snd else none

/-- `m` has the ligatures of the subtable, and the longest one that matches is the one the subtable prescribes. -/
def LigatureMeans (s : Sub) (m : LigSubst) : Prop := ∀ text : List UInt16,
  (∀ v n, applyLigatures s text = some (v, n) → ∃ k, (k, v) ∈ m ∧ k <+: text ∧ k.length = n ∧
    ∀ x ∈ m, x.1 <+: text → x.1.length ≤ n) ∧
  (applyLigatures s text = none → ∀ x ∈ m, ¬ x.1 <+: text)

/-- Glyphs with which a context subtable can begin to match. Only class-based subtables need this. -/
def startsCovered : Sub → List UInt16 → Prop
  | .s5_2 cov _ _, text => ∃ g ∈ covGlyphs cov, text.head? = some g
  | .s6_2 cov _ _ _ _, text => ∃ g ∈ covGlyphs cov, text.head? = some g
  | _, _ => True

/-- What users see of a lookup means what its subtables mean, one by one, for texts of glyphs up to `max`. -/
def SubstMeans (max : UInt16) (r : SubstSays) : Subst → Prop
  | .single ms => r.type = 1 ∧ List.Forall₂ (fun s m => ∀ g v, (g, v) ∈ m ↔ singleMeans s g = some v) r.subs ms
  | .multiple ms => r.type = 2 ∧ List.Forall₂ (fun s m => ∀ g v, (g, v) ∈ m ↔ sequenceMeans s g = some v) r.subs ms
  | .alternate ms => r.type = 3 ∧ List.Forall₂ (fun s m => ∀ g v, (g, v) ∈ m ↔ sequenceMeans s g = some v) r.subs ms
  | .ligature ms => r.type = 4 ∧ List.Forall₂ LigatureMeans r.subs ms
  | .contextual rs => r.type = 5 ∧ List.Forall₂ (fun s rules => ∀ text : List UInt16, (∀ g ∈ text, g ≤ max) →
      startsCovered s text → rulesMatch rules text = contextMatch s text) r.subs rs
  | .chained rs => r.type = 6 ∧ List.Forall₂ (fun s rules => ∀ before text : List UInt16, (∀ g ∈ before, g ≤ max) →
      (∀ g ∈ text, g ≤ max) → startsCovered s text →
      chainedRulesMatch rules before text = chainMatch s before text) r.subs rs
  | .reverse rs => r.type = 8 ∧ List.Forall₂ (fun s rule => ∀ before text : List UInt16,
      reverseRule rule before text = reverseMeans s before text) r.subs rs

/-- Subtables that are read faithfully: coverage tables list a glyph once, nothing required is null, and
* single substitution with a delta: no glyph, as a signed 16-bit number, overflows when the delta is added;
* ligatures: none comes before a longer one that begins with it;
* classes: class 0 is only implicit. -/
def SubSound : Sub → Prop
  | .s1_1 cov d => (covGlyphs cov).Nodup ∧
      ∀ g ∈ covGlyphs cov, -32768 ≤ g.toInt16.toInt + d.toInt ∧ g.toInt16.toInt + d.toInt ≤ 32767
  | .s1_2 cov _ => (covGlyphs cov).Nodup
  | .s2_1 _ cov l => (covGlyphs cov).Nodup ∧ ∀ x ∈ l, x.isSome
  | .s3_1 _ cov l => (covGlyphs cov).Nodup ∧ ∀ x ∈ l, x.isSome
  | .s4_1 _ cov l => (covGlyphs cov).Nodup ∧ cov.isSome ∧ (∀ x ∈ l, x.isSome) ∧
      ∀ s, some s ∈ l → (∀ x ∈ s, x.isSome) ∧
        (s.filterMap id).Pairwise (fun a b => ¬ a.components <+: b.components)
  | .s5_1 cov _ => (covGlyphs cov).Nodup
  | .s5_2 _ k _ => ClassesOk (k.getD [])
  | .s6_1 cov _ => (covGlyphs cov).Nodup
  | .s6_2 _ b i a _ => ClassesOk (b.getD []) ∧ ClassesOk (i.getD []) ∧ ClassesOk (a.getD [])
  | .s8_1 _ cov _ _ _ => (covGlyphs cov).Nodup
  | _ => True

/-- A lookup with subtables of one known type that are read faithfully. An extension lookup has at least one, not of
type 8. -/
def SubstReadable (r : SubstSays) : Prop :=
  r.type ∈ [1, 2, 3, 4, 5, 6, 8] ∧ (∀ s ∈ r.subs, s.type = r.type ∧ SubWell s ∧ SubSound s) ∧
    (r.ext = true → r.subs ≠ [] ∧ r.type ≠ 8)

/-! ### Extension subtables -/

theorem finds_ext {ty : Nat} {s : Sub} (hty : s.type = ty) (h6 : ty ≤ 6) (h : SubWell s) :
    FindsAt (SubX.read 7) (.ext 1 (UInt16.ofNat ty) s) (At (extRows ty s)) := by
  have hx : SubX.read 7 = readExt := rfl
  rw [hx]
  refine Finds.table (p := _) ?_ (by simp [extRows, widths_cons, Cell.width])
  unfold extRows
  refine (plain_num16 1 (by decide)).finds.cons ((plain_count (n := ty) (by omega)).finds.cons ?_)
  rw [ofNat16_toNat (by omega), if_neg (by omega)]
  intro B base pos stk hs
  obtain ⟨⟨h1, h2, h3⟩, _⟩ := hs
  obtain ⟨y, e1, e2⟩ := readU32_ok (r := ⟨B, pos, base :: stk⟩) h1
  obtain ⟨h4, ptr, h5⟩ := finds_sub h B _ (base :: stk) h3
  rw [hty] at h5
  simp only at e1
  rw [bind_run, e2]
  simp only [bind_run, getPtr, topOfTable, setPtr]
  rw [e1, h5]
  rfl

/-- Reverse chaining subtables cannot be read from extension subtables: the specification allows them, the reader
gives an error. -/
theorem C88_reverse_extension_rejected {s : Sub} {B : Bytes} {start : Nat} {stk : List Nat}
    (h : At (extRows 8 s) B start) : SubX.read 7 ⟨B, start, stk⟩ = .err := by
  have hx : SubX.read 7 = readExt := rfl
  rw [hx]
  obtain ⟨a1, a2, _⟩ := h
  have e1 := plain_num16 (v := 1) 1 (by decide) B start start (start :: stk) ⟨a1, trivial⟩
  have e2 := plain_num16 (v := 8) 8 (by decide) B start (start + 2) (start :: stk) ⟨a2, trivial⟩
  unfold readExt inTable
  simp only [bind_run, pushTop, e1, widths, Cell.width, List.map_cons, List.map_nil, List.sum_cons, List.sum_nil, Nat.add_zero] at e2 ⊢
  rw [e2]
  rfl

/-! ### Meanings -/

theorem mem_zip_entry {β : Type} {cov : List UInt16} (hn : cov.Nodup) (l : List β) (g : UInt16) (v : β) :
    (g, v) ∈ cov.zip l ↔ entryOf cov l g = some v := by
  unfold entryOf
  induction cov generalizing l with
  | nil => simp
  | cons a cov ih =>
    have hn' := List.nodup_cons.mp hn
    cases l with
    | nil =>
      simp only [List.zip_nil_right, List.not_mem_nil, List.getElem?_nil, false_iff]
      simp
    | cons b l =>
      rw [List.zip_cons_cons, List.mem_cons, List.findIdx?_cons]
      by_cases e : a = g
      · subst e
        simp only [beq_self_eq_true, if_true, Option.bind_some, List.getElem?_cons_zero, Prod.mk.injEq, true_and]
        constructor
        · rintro (rfl | h)
          · rfl
          · exact absurd (List.of_mem_zip h).1 hn'.1
        · intro h; cases h; exact .inl rfl
      · have e' : (a == g) = false := by simpa using e
        rw [e', Prod.mk.injEq]
        simp only [Ne.symm e, false_and, false_or, Bool.false_eq_true, if_false]
        rw [ih hn'.2 l]
        cases List.findIdx? (fun x => x == g) cov with
        | none => simp
        | some i => simp

theorem collect_functional {κ α : Type} [Key κ] [DecidableEq κ] {l : List (κ × α)}
    (h : ∀ x ∈ l, ∀ y ∈ l, x.1 = y.1 → x = y) (x : κ × α) : x ∈ BMap.collect l ↔ x ∈ l := by
  have key : ∀ (l m : List (κ × α)) (k : κ) (v : α), (∀ x ∈ l, ∀ y ∈ l, x.1 = y.1 → x = y) →
      (BMap.get? (l.foldl (fun m x => BMap.insert m x.1 x.2) m) k = some v ↔
        (k, v) ∈ l ∨ ((∀ v', (k, v') ∉ l) ∧ BMap.get? m k = some v)) := by
    intro l
    induction l with
    | nil => intro m k v _; simp
    | cons a l ih =>
      intro m k v hl
      rw [List.foldl_cons, ih _ k v (fun x hx y hy => hl x (by simp [hx]) y (by simp [hy])), BMap.get?_insert]
      by_cases e : k = a.1
      · subst e
        simp only [if_true, List.mem_cons]
        constructor
        · rintro (h1 | ⟨h1, h2⟩)
          · exact .inl (.inr h1)
          · cases h2; exact .inl (.inl rfl)
        · rintro ((h1 | h1) | ⟨h1, _⟩)
          · by_cases hm : ∃ v', (a.1, v') ∈ l
            · obtain ⟨v', hv⟩ := hm
              have := hl a (by simp) (a.1, v') (by simp [hv]) rfl
              rw [← h1] at this
              rw [this]; exact .inl hv
            · refine .inr ⟨fun v' hv => hm ⟨v', hv⟩, ?_⟩
              rw [← h1]
          · exact .inl h1
          · exact absurd rfl (fun hh => (h1 a.2) (.inl hh))
      · simp only [if_neg e, List.mem_cons]
        have : ∀ v, ¬ ((k, v) = a) := fun v hv => e (by rw [← hv])
        simp [this]
  have h1 := key l [] x.1 x.2 h
  have h2 : BMap.get? (BMap.collect l) x.1 = some x.2 ↔ (x.1, x.2) ∈ BMap.collect l :=
    BMap.get?_eq_some (BMap.collect_sorted l)
  rw [← show (x.1, x.2) = x from rfl, ← h2]
  refine h1.trans ⟨fun h => ?_, .inl⟩
  rcases h with h | ⟨_, h⟩
  · exact h
  · cases h

theorem collect_zip {β : Type} {cov : List UInt16} (hn : cov.Nodup) (l : List β) (g : UInt16) (v : β) :
    (g, v) ∈ BMap.collect (cov.zip l) ↔ entryOf cov l g = some v := by
  rw [collect_functional, mem_zip_entry hn]
  rintro ⟨a, b⟩ hx ⟨c, d⟩ hy e
  simp only at e
  subst e
  rw [mem_zip_entry hn] at hx hy
  rw [hx] at hy
  cases hy
  rfl

theorem single_sound {s : Sub} (ht : s.type = 1) (h : SubSound s) :
    ∃ m, SingleSubst.fromLow s = .ok m ∧ ∀ g v, (g, v) ∈ m ↔ singleMeans s g = some v := by
  cases s <;> simp [Sub.type] at ht
  case s1_1 cov d =>
    obtain ⟨h1, h2⟩ := h
    have e : Res.mapL (shiftGlyph d) (covGlyphs cov) = .ok ((covGlyphs cov).map (fun g => (g, g + d.toUInt16))) := by
      refine mapL_map _ _ fun g hg => ?_
      unfold shiftGlyph
      simp only
      rw [if_pos (h2 g hg)]
      simp
    refine ⟨_, by simp only [SingleSubst.fromLow, e]; rfl, fun g v => ?_⟩
    rw [collect_functional]
    · simp only [List.mem_map, Prod.mk.injEq, singleMeans]
      constructor
      · rintro ⟨a, ha, rfl, rfl⟩; rw [if_pos ha]
      · intro h
        split at h
        · next hg => exact ⟨g, hg, rfl, Option.some.inj h⟩
        · cases h
    · intro x hx y hy e
      obtain ⟨a, _, rfl⟩ := List.mem_map.mp hx
      obtain ⟨b, _, rfl⟩ := List.mem_map.mp hy
      simp only at e
      rw [e]
  case s1_2 cov l => exact ⟨_, rfl, fun g v => collect_zip h l g v⟩

theorem zip_getD {cov : List UInt16} {l : List (Option (List UInt16))} (h : ∀ x ∈ l, x.isSome) (g : UInt16)
    (v : List UInt16) : entryOf cov (l.map (fun x => x.getD [])) g = some v ↔ (entryOf cov l g).bind id = some v := by
  unfold entryOf
  cases cov.findIdx? (· == g) with
  | none => simp
  | some i =>
    simp only [Option.bind_some, List.getElem?_map]
    cases e : l[i]? with
    | none => simp
    | some x =>
      have := h x (List.mem_of_getElem? e)
      cases x with
      | none => cases this
      | some y => simp

theorem multi_sound {s : Sub} (ht : s.type = 2) (h : SubSound s) :
    ∃ m, MultiSubst.fromLow2 s = .ok m ∧ ∀ g v, (g, v) ∈ m ↔ sequenceMeans s g = some v := by
  cases s <;> simp [Sub.type] at ht
  case s2_1 f cov l =>
    exact ⟨_, rfl, fun g v => by rw [collect_zip h.1, zip_getD h.2]; rfl⟩

theorem alternate_sound {s : Sub} (ht : s.type = 3) (h : SubSound s) :
    ∃ m, MultiSubst.fromLow3 s = .ok m ∧ ∀ g v, (g, v) ∈ m ↔ sequenceMeans s g = some v := by
  cases s <;> simp [Sub.type] at ht
  case s3_1 f cov l =>
    exact ⟨_, rfl, fun g v => by rw [collect_zip h.1, zip_getD h.2]; rfl⟩

theorem context_sound {max : UInt16} {s : Sub} (ht : s.type = 5) (hw : SubWell s) (h : SubSound s) :
    ∃ rules, ctxFromLow max s = .ok rules ∧ ∀ text : List UInt16, (∀ g ∈ text, g ≤ max) → startsCovered s text →
      rulesMatch rules text = contextMatch s text := by
  cases s <;> simp [Sub.type] at ht
  case s5_1 cov l =>
    refine ⟨_, rfl, fun text _ _ => ?_⟩
    obtain ⟨_, e, h'⟩ := C55_plain_glyphs cov l max h text
    cases e; exact h'
  case s5_2 cov k l =>
    refine ⟨_, rfl, fun text ht hc => ?_⟩
    obtain ⟨g, hg, e⟩ := hc
    cases text with
    | nil => cases e
    | cons a rest =>
      cases e
      obtain ⟨_, e, h'⟩ := C55_plain_classes cov k l max h (by have := hw.2.2.1; omega) g rest hg
        (fun x hx => UInt16.le_iff_toNat_le.mp (ht x hx))
      cases e; exact h'
  case s5_3 g s covs recs =>
    refine ⟨_, rfl, fun text _ _ => ?_⟩
    obtain ⟨_, e, h'⟩ := C55_plain_coverages g s covs recs max text
    cases e; exact h'

theorem chain_sound {max : UInt16} {s : Sub} (ht : s.type = 6) (hw : SubWell s) (h : SubSound s) :
    ∃ rules, chainFromLow max s = .ok rules ∧ ∀ before text : List UInt16, (∀ g ∈ before, g ≤ max) →
      (∀ g ∈ text, g ≤ max) → startsCovered s text →
      chainedRulesMatch rules before text = chainMatch s before text := by
  cases s <;> simp [Sub.type] at ht
  case s6_1 cov l =>
    refine ⟨_, rfl, fun before text _ _ _ => ?_⟩
    obtain ⟨_, e, h'⟩ := C55_chained_glyphs cov l max h before text
    cases e; exact h'
  case s6_2 cov b i a l =>
    refine ⟨_, rfl, fun before text hb ht hc => ?_⟩
    obtain ⟨g, hg, e⟩ := hc
    cases text with
    | nil => cases e
    | cons x rest =>
      cases e
      obtain ⟨_, e, h'⟩ := C55_chained_classes cov b i a l max h.1 h.2.1 h.2.2 (by have := hw.2.2.2.2.1; omega) before g rest hg
        (fun x hx => UInt16.le_iff_toNat_le.mp (hb x hx)) (fun x hx => UInt16.le_iff_toNat_le.mp (ht x hx))
      cases e; exact h'
  case s6_3 b i a recs =>
    refine ⟨_, rfl, fun before text _ _ _ => ?_⟩
    obtain ⟨_, e, h'⟩ := C55_chained_coverages b i a recs max before text
    cases e; exact h'

theorem find_unique {β : Type} {m : List (UInt16 × β)} (hs : BMap.Sorted m) (g : UInt16) :
    (m.find? (fun x => x.1 == g)).map Prod.snd = BMap.get? m g := by
  apply Option.ext
  intro v
  rw [BMap.get?_eq_some hs]
  constructor
  · intro h
    cases e : m.find? (fun x => x.1 == g) with
    | none => rw [e] at h; cases h
    | some x =>
      rw [e] at h; cases h
      have h1 := List.mem_of_find?_eq_some e
      have h2 := List.find?_some e
      rw [beq_iff_eq] at h2
      rw [← h2]; exact h1
  · intro h
    cases e : m.find? (fun x => x.1 == g) with
    | none =>
      rw [List.find?_eq_none] at e
      exact absurd (by simp) (e _ h)
    | some x =>
      have h1 := List.mem_of_find?_eq_some e
      have h2 := List.find?_some e
      rw [beq_iff_eq] at h2
      have h3 : BMap.get? m g = some x.2 := (BMap.get?_eq_some hs).mpr (by rw [← h2]; exact h1)
      rw [(BMap.get?_eq_some hs).mpr h] at h3
      cases h3
      rfl

theorem reverse_sound {s : Sub} (ht : s.type = 8) (h : SubSound s) :
    ∃ rule, RevSubst.fromLow s = .ok rule ∧ ∀ before text : List UInt16,
      reverseRule rule before text = reverseMeans s before text := by
  cases s <;> simp [Sub.type] at ht
  case s8_1 f cov b a l =>
    refine ⟨_, rfl, fun before text => ?_⟩
    cases text with
    | nil => rfl
    | cons g rest =>
      simp only [reverseRule, reverseMeans, slots_covs]
      rw [find_unique (BMap.collect_sorted _)]
      congr 1
      apply Option.ext
      intro v
      rw [BMap.get?_eq_some (BMap.collect_sorted _), collect_zip h]

/-- The ligatures of a set, if none is null. -/
def ligList (input : UInt16) (s : List (Option Ligature)) : List (List UInt16 × UInt16) :=
  (s.filterMap id).map (fun l => (input :: l.components, l.glyph))

theorem ligEntries_some {input : UInt16} : ∀ {s : List (Option Ligature)}, (∀ x ∈ s, x.isSome) →
    ligEntries input (some s) = .ok (ligList input s)
  | [], _ => rfl
  | none :: s, h => by have := h none (by simp); cases this
  | some e :: s, h => by
    have ih := ligEntries_some (input := input) (s := s) fun x hx => h x (by simp [hx])
    simp only [ligEntries] at ih ⊢
    rw [Res.mapL, ih]
    rfl

theorem first_longest {rest : List UInt16} : ∀ {s : List Ligature}, s.Pairwise (fun a b => ¬ a.components <+: b.components) →
    (∀ v n, s.findSome? (fun l => if l.components <+: rest then some (l.glyph, l.components.length + 1) else none) = some (v, n) →
      ∃ l ∈ s, l.glyph = v ∧ l.components <+: rest ∧ l.components.length + 1 = n ∧
        ∀ l' ∈ s, l'.components <+: rest → l'.components.length + 1 ≤ n) ∧
    (s.findSome? (fun l => if l.components <+: rest then some (l.glyph, l.components.length + 1) else none) = none →
      ∀ l ∈ s, ¬ l.components <+: rest)
  | [], _ => by simp
  | a :: s, h => by
    obtain ⟨h1, h2⟩ := List.pairwise_cons.mp h
    obtain ⟨ih1, ih2⟩ := first_longest (rest := rest) h2
    rw [List.findSome?_cons]
    by_cases ha : a.components <+: rest
    · rw [if_pos ha]
      refine ⟨?_, by simp⟩
      rintro v n hv
      cases hv
      refine ⟨a, by simp, rfl, ha, rfl, ?_⟩
      intro l' hl' hp
      rcases List.mem_cons.mp hl' with rfl | hl'
      · exact Nat.le_refl _
      · by_contra hlt
        have : a.components.length ≤ l'.components.length := by omega
        exact h1 l' hl' (List.prefix_of_prefix_length_le ha hp this)
    · rw [if_neg ha]
      constructor
      · intro v n hv
        obtain ⟨l, hl, e1, e2, e3, e4⟩ := ih1 v n hv
        refine ⟨l, by simp [hl], e1, e2, e3, ?_⟩
        intro l' hl' hp
        rcases List.mem_cons.mp hl' with rfl | hl'
        · exact absurd hp ha
        · exact e4 l' hl' hp
      · intro hn l hl hp
        rcases List.mem_cons.mp hl with rfl | hl
        · exact ha hp
        · exact ih2 hn l hl hp

theorem findSome_filterMap {α β : Type} (f : α → Option β) : ∀ (s : List (Option α)),
    s.findSome? (fun l => match l with
      | some l => f l
      | none => none) = (s.filterMap id).findSome? f
  | [] => rfl
  | none :: s => by
    rw [List.findSome?_cons, List.filterMap_cons]
    exact findSome_filterMap f s
  | some a :: s => by
    rw [List.findSome?_cons, List.filterMap_cons]
    exact (congrArg (fun r => match f a with
      | some b => some b
      | none => r) (findSome_filterMap f s)).trans List.findSome?_cons.symm

/-- Distinct ligatures of a set have distinct components. -/
theorem comps_unique {s : List Ligature} (h : s.Pairwise (fun a b => ¬ a.components <+: b.components)) {a b : Ligature}
    (ha : a ∈ s) (hb : b ∈ s) (e : a.components = b.components) : a = b := by
  induction s with
  | nil => cases ha
  | cons x s ih =>
    obtain ⟨h1, h2⟩ := List.pairwise_cons.mp h
    rcases List.mem_cons.mp ha with rfl | ha <;> rcases List.mem_cons.mp hb with rfl | hb
    · rfl
    · exact absurd (e ▸ List.prefix_refl _) (h1 b hb)
    · exact absurd (e ▸ List.prefix_refl _) (h1 a (by assumption))
    · exact ih h2 ha hb

theorem ligature_sound {s : Sub} (ht : s.type = 4) (h : SubSound s) :
    ∃ m, LigSubst.fromLow s = .ok m ∧ LigatureMeans s m := by
  cases s <;> simp [Sub.type] at ht
  case s4_1 f cov l =>
    obtain ⟨hn, hc, hl, hs⟩ := h
    cases cov with
    | none => cases hc
    | some gs =>
    simp only [covGlyphs, Option.getD_some] at hn
    have hset : ∀ x ∈ gs.zip l, ∃ s, x.2 = some s ∧ some s ∈ l := by
      intro x hx
      have h2 := (List.of_mem_zip (a := x.1) (b := x.2) hx).2
      cases e : x.2 with
      | none => have := hl _ h2; rw [e] at this; cases this
      | some s => exact ⟨s, rfl, by rw [← e]; exact h2⟩
    have he : Res.mapL (fun x : UInt16 × Option (List (Option Ligature)) => ligEntries x.1 x.2) (gs.zip l) =
        .ok ((gs.zip l).map (fun x => ligList x.1 (x.2.getD []))) := by
      refine mapL_map _ _ fun x hx => ?_
      obtain ⟨s, e, hm⟩ := hset x hx
      rw [e]
      exact ligEntries_some (hs s hm).1
    -- what is in the map
    have hmem : ∀ k v, (k, v) ∈ ((gs.zip l).map (fun x => ligList x.1 (x.2.getD []))).flatten ↔
        ∃ g s e, (g, some s) ∈ gs.zip l ∧ some e ∈ s ∧ k = g :: e.components ∧ v = e.glyph := by
      intro k v
      rw [List.mem_flatten]
      constructor
      · rintro ⟨q, hq, hkv⟩
        obtain ⟨x, hx, rfl⟩ := List.mem_map.mp hq
        obtain ⟨s, e, hm⟩ := hset x hx
        rw [e] at hkv
        simp only [Option.getD_some, ligList, List.mem_map, List.mem_filterMap, id] at hkv
        obtain ⟨e', ⟨o, ho, rfl⟩, e2⟩ := hkv
        cases e2
        exact ⟨x.1, s, e', by rw [← e]; exact hx, ho, rfl, rfl⟩
      · rintro ⟨g, s, e, hx, he, rfl, rfl⟩
        refine ⟨_, List.mem_map.mpr ⟨_, hx, rfl⟩, ?_⟩
        simp only [Option.getD_some, ligList, List.mem_map, List.mem_filterMap, id]
        exact ⟨e, ⟨some e, he, rfl⟩, rfl⟩
    have hone : ∀ g s s', (g, some s) ∈ gs.zip l → (g, some s') ∈ gs.zip l → s = s' := by
      intro g s s' h1 h2
      rw [mem_zip_entry hn] at h1 h2
      rw [h1] at h2
      cases h2
      rfl
    have hfun : ∀ x ∈ ((gs.zip l).map (fun x => ligList x.1 (x.2.getD []))).flatten,
        ∀ y ∈ ((gs.zip l).map (fun x => ligList x.1 (x.2.getD []))).flatten, x.1 = y.1 → x = y := by
      rintro ⟨k, v⟩ hx ⟨k', v'⟩ hy e
      simp only at e
      subst e
      obtain ⟨g, s, a, h1, h2, rfl, rfl⟩ := (hmem _ _).mp hx
      obtain ⟨g', s', b, h3, h4, e, rfl⟩ := (hmem _ _).mp hy
      obtain ⟨rfl, ec⟩ := List.cons.inj e
      obtain rfl := hone _ _ _ h1 h3
      have hm := (List.of_mem_zip h1).2
      rw [comps_unique (hs s hm).2 (List.mem_filterMap.mpr ⟨_, h2, rfl⟩) (List.mem_filterMap.mpr ⟨_, h4, rfl⟩) ec]
    refine ⟨_, by simp only [LigSubst.fromLow, he]; rfl, ?_⟩
    intro text
    have hin : ∀ k v, (k, v) ∈ BMap.collect ((gs.zip l).map (fun x => ligList x.1 (x.2.getD []))).flatten ↔
        ∃ g s e, (g, some s) ∈ gs.zip l ∧ some e ∈ s ∧ k = g :: e.components ∧ v = e.glyph := fun k v => by
      rw [collect_functional hfun, hmem]
    cases text with
    | nil =>
      refine ⟨by simp [applyLigatures], fun _ x hx hp => ?_⟩
      obtain ⟨g, s, e, _, _, hk, _⟩ := (hin x.1 x.2).mp hx
      rw [hk] at hp
      exact absurd (List.prefix_nil.mp hp) (by simp)
    | cons g rest =>
      cases hf : (gs.zip l).find? (fun x => x.1 == g) with
      | none =>
        have hno : applyLigatures (.s4_1 f (some gs) l) (g :: rest) = none := by
          simp only [applyLigatures, hf]
        rw [hno]
        refine ⟨by simp, fun _ x hx hp => ?_⟩
        obtain ⟨g', s, e, h1, h2, hk, _⟩ := (hin x.1 x.2).mp hx
        rw [hk, List.cons_prefix_cons] at hp
        rw [List.find?_eq_none] at hf
        exact hf _ h1 (by simp [hp.1])
      | some x =>
        have h1 := List.mem_of_find?_eq_some hf
        have h2 := List.find?_some hf
        rw [beq_iff_eq] at h2
        obtain ⟨s, e, hm⟩ := hset x h1
        have hx : x = (g, some s) := by rw [← h2, ← e]
        subst hx
        have happ : applyLigatures (.s4_1 f (some gs) l) (g :: rest) = (s.filterMap id).findSome?
            (fun l => if l.components <+: rest then some (l.glyph, l.components.length + 1) else none) := by
          simp only [applyLigatures, hf]
          rw [← findSome_filterMap]
          congr 1
          funext x
          cases x <;> rfl
        rw [happ]
        obtain ⟨f1, f2⟩ := first_longest (rest := rest) (hs s hm).2
        have hall : ∀ y ∈ BMap.collect ((gs.zip l).map (fun x => ligList x.1 (x.2.getD []))).flatten,
            y.1 <+: g :: rest → ∃ e ∈ s.filterMap id, y.1 = g :: e.components ∧ e.components <+: rest := by
          intro y hy hp
          obtain ⟨g', s', e', h3, h4, hk, _⟩ := (hin y.1 y.2).mp hy
          rw [hk, List.cons_prefix_cons] at hp
          obtain ⟨rfl, hp⟩ := hp
          obtain rfl := hone _ _ _ h1 h3
          exact ⟨e', List.mem_filterMap.mpr ⟨_, h4, rfl⟩, hk, hp⟩
        constructor
        · intro v n hv
          obtain ⟨e', he', e1, e2, e3, e4⟩ := f1 v n hv
          obtain ⟨o, ho, hoe⟩ := List.mem_filterMap.mp he'
          simp only [id] at hoe
          subst hoe
          refine ⟨g :: e'.components, (hin _ _).mpr ⟨g, s, e', h1, ho, rfl, e1.symm⟩, ?_, by simpa using e3, ?_⟩
          · rw [List.cons_prefix_cons]; exact ⟨rfl, e2⟩
          · intro y hy hp
            obtain ⟨e'', h5, h6, h7⟩ := hall y hy hp
            rw [h6, List.length_cons]
            exact e4 e'' h5 h7
        · intro hnone y hy hp
          obtain ⟨e'', h5, h6, h7⟩ := hall y hy hp
          exact f2 hnone e'' h5 h7

/-! ### C88 -/

theorem convert_sound {α : Type} {f : Sub → Res α} {wrap : List α → Subst} {M : Sub → α → Prop} : ∀ {l : List Sub},
    (∀ s ∈ l, ∃ a, f s = .ok a ∧ M s a) → ∃ as, convert f wrap l = .ok (wrap as) ∧ List.Forall₂ M l as := by
  intro l h
  have : ∃ as, Res.mapL f l = .ok as ∧ List.Forall₂ M l as := by
    induction l with
    | nil => exact ⟨[], rfl, .nil⟩
    | cons s l ih =>
      obtain ⟨as, e, hf⟩ := ih fun x hx => h x (by simp [hx])
      obtain ⟨a, e', hm⟩ := h s (by simp)
      exact ⟨a :: as, by rw [Res.mapL, e', e], .cons hm hf⟩
  obtain ⟨as, e, hf⟩ := this
  exact ⟨as, by unfold convert; rw [e], hf⟩

theorem rule_sound {max : UInt16} {r : SubstSays} (h : SubstReadable r) :
    ∃ r', rulePlain max r.type r.subs = .ok r' ∧ SubstMeans max r r' := by
  obtain ⟨ht, hs, _⟩ := h
  simp only [List.mem_cons, List.not_mem_nil, or_false] at ht
  rcases ht with e | e | e | e | e | e | e
  · obtain ⟨as, h1, h2⟩ := convert_sound (wrap := .single) fun s hs' => single_sound ((hs s hs').1.trans e) (hs s hs').2.2
    exact ⟨.single as, by rw [e]; exact h1, e, h2⟩
  · obtain ⟨as, h1, h2⟩ := convert_sound (wrap := .multiple) fun s hs' => multi_sound ((hs s hs').1.trans e) (hs s hs').2.2
    exact ⟨.multiple as, by rw [e]; exact h1, e, h2⟩
  · obtain ⟨as, h1, h2⟩ := convert_sound (wrap := .alternate) fun s hs' =>
      alternate_sound ((hs s hs').1.trans e) (hs s hs').2.2
    exact ⟨.alternate as, by rw [e]; exact h1, e, h2⟩
  · obtain ⟨as, h1, h2⟩ := convert_sound (wrap := .ligature) fun s hs' => ligature_sound ((hs s hs').1.trans e) (hs s hs').2.2
    exact ⟨.ligature as, by rw [e]; exact h1, e, h2⟩
  · obtain ⟨as, h1, h2⟩ := convert_sound (wrap := .contextual) fun s hs' =>
      context_sound (max := max) ((hs s hs').1.trans e) (hs s hs').2.1 (hs s hs').2.2
    exact ⟨.contextual as, by rw [e]; exact h1, e, h2⟩
  · obtain ⟨as, h1, h2⟩ := convert_sound (wrap := .chained) fun s hs' =>
      chain_sound (max := max) ((hs s hs').1.trans e) (hs s hs').2.1 (hs s hs').2.2
    exact ⟨.chained as, by rw [e]; exact h1, e, h2⟩
  · obtain ⟨as, h1, h2⟩ := convert_sound (wrap := .reverse) fun s hs' => reverse_sound ((hs s hs').1.trans e) (hs s hs').2.2
    exact ⟨.reverse as, by rw [e]; exact h1, e, h2⟩

/-- The structures the subtables of a lookup are read as. -/
def saysSubs (r : SubstSays) : List SubX := r.subs.map (fun s => if r.ext then .ext 1 (UInt16.ofNat r.type) s else .plain s)

theorem says_found {r : SubstSays} (h : SubstReadable r) :
    List.Forall₂ (fun s P => FindsAt (SubX.read r.number) s P) (saysSubs r) r.tables := by
  obtain ⟨ht, hs, hx⟩ := h
  unfold saysSubs SubstSays.tables
  have key : ∀ l : List Sub, (∀ s ∈ l, s.type = r.type ∧ SubWell s ∧ SubSound s) →
      List.Forall₂ (fun s P => FindsAt (SubX.read r.number) s P)
        (l.map (fun s => if r.ext then .ext 1 (UInt16.ofNat r.type) s else .plain s))
        (l.map (fun s => if r.ext then At (extRows r.type s) else At (subRows s))) := by
    intro l hl
    induction l with
    | nil => exact .nil
    | cons s l ih =>
      obtain ⟨h1, h2, _⟩ := hl s (by simp)
      refine .cons ?_ (ih fun x hx => hl x (by simp [hx]))
      cases e : r.ext with
      | true =>
        have h6 : r.type ≤ 6 := by
          have := (hx e).2
          simp only [List.mem_cons, List.not_mem_nil, or_false] at ht
          omega
        simp only [SubstSays.number, e, if_true]
        exact finds_ext h1 h6 h2
      | false =>
        have h7 : r.type ≠ 7 := by
          simp only [List.mem_cons, List.not_mem_nil, or_false] at ht
          omega
        simp only [SubstSays.number, e, Bool.false_eq_true, if_false]
        unfold SubX.read
        rw [if_neg h7]
        intro B start stk hh
        obtain ⟨g1, ptr, g2⟩ := finds_sub h2 B start stk hh
        rw [h1] at g2
        exact ⟨g1, ptr, by rw [bind_run, g2]; rfl⟩
  exact key r.subs hs

theorem says_rule {max : UInt16} {r : SubstSays} (h : SubstReadable r) :
    ∃ r', ruleOf max r.number (saysSubs r) = .ok r' ∧ SubstMeans max r r' := by
  obtain ⟨r', e, hm⟩ := rule_sound (max := max) h
  refine ⟨r', ?_, hm⟩
  obtain ⟨ht, hs, hx⟩ := h
  rw [← e]
  cases ex : r.ext with
  | true =>
    have hne := (hx ex).1
    have hle : r.type ≤ 65535 := by
      simp only [List.mem_cons, List.not_mem_nil, or_false] at ht
      omega
    have e1 : Res.mapL asExt (saysSubs r) = .ok (r.subs.map (fun s => (UInt16.ofNat r.type, s))) := by
      unfold saysSubs
      rw [mapL_map_arg]
      refine mapL_map _ _ fun s _ => ?_
      simp [ex, asExt]
    unfold ruleOf SubstSays.number
    rw [ex]
    simp only [if_true, e1]
    match hsub : r.subs, hne with
    | s :: l, _ =>
      simp only [List.map_cons]
      rw [if_pos (by simp)]
      simp only [List.map_map]
      have : (Prod.snd ∘ fun s : Sub => (UInt16.ofNat r.type, s)) = id := rfl
      rw [ofNat16_toNat hle, this, List.map_id]
  | false =>
    have h7 : r.type ≠ 7 := by
      simp only [List.mem_cons, List.not_mem_nil, or_false] at ht
      omega
    have e1 : Res.mapL asPlain (saysSubs r) = .ok r.subs := by
      unfold saysSubs
      rw [mapL_map_arg]
      have := mapL_map (f := fun s => asPlain (if r.ext then SubX.ext 1 (UInt16.ofNat r.type) s else .plain s)) id r.subs
        fun s _ => by simp [ex, asPlain]
      rwa [List.map_id] at this
    unfold ruleOf SubstSays.number
    rw [ex]
    simp only [Bool.false_eq_true, if_false, if_neg h7, e1]

/-- **C88.** A GSUB table, version 1.0, whatever program wrote it and however it arranged the parts: reading succeeds,
and gives the scripts, the features with their lookups, and for each lookup its flags, its mark filtering set, and rules
that mean what the subtables mean. -/
theorem C88_gsub (max : UInt16) (t : LayoutSays SubstSays) (ok : SaysOk SubstSays.number SubstSays.tables t)
    (hr : ∀ l ∈ t.lookups, SubstReadable l.rule) (B : Bytes)
    (h : At (saysRows SubstSays.number SubstSays.tables t) B 0) :
    ∃ g rd, GSUB.read max (Rd.new B) = .ok (g, rd) ∧ g.scripts = t.scripts ∧ g.features = saysFeatures t ∧
      List.Forall₂ (fun (l : Lookup SubstSays) (l' : Lookup Subst) =>
        l'.flags = l.flags ∧ l'.mfs = l.mfs ∧ SubstMeans max l.rule l'.rule) t.lookups g.lookups :=
  layout_read ok (fun l hl => says_found (hr l hl)) (fun l hl => says_rule (hr l hl)) h

/-- A table with the lists in an unusual order: one extension lookup, which takes 1 from the glyphs 5 to 7, covered by
a range. -/
def strangeGsub : Bytes :=
  [0, 1, 0, 0, 0, 60, 0, 46, 0, 10,
   0, 1, 0, 4,
   0, 7, 0, 0, 0, 1, 0, 8,
   0, 1, 0, 1, 0, 0, 0, 8,
   0, 1, 0, 6, 255, 255,
   0, 2, 0, 1, 0, 5, 0, 7, 0, 0,
   0, 1, 108, 105, 103, 97, 0, 8,
   0, 0, 0, 1, 0, 0,
   0, 1, 68, 70, 76, 84, 0, 8,
   0, 4, 0, 0,
   0, 0, 255, 255, 0, 1, 0, 0]

def strangeSays : LayoutSays SubstSays where
  scripts := [(⟨68, 70, 76, 84⟩, { dflt := some { required := none, features := [0] }, langs := [] })]
  features := [(⟨108, 105, 103, 97⟩, 0, [0])]
  lookups := [{ flags := 0, mfs := none, rule := { ext := true, type := 1, subs := [.s1_1 (some [5, 6, 7]) (-1)] } }]

theorem strange_follows : At (saysRows SubstSays.number SubstSays.tables strangeSays) strangeGsub 0 := by
  have hcov : CoverageAt [5, 6, 7] strangeGsub 36 :=
    .inr ⟨[(5, 7)], by decide, by decide, ⟨by decide, by decide⟩, ⟨by decide, by decide⟩, ⟨by decide, by decide⟩,
      ⟨by decide, by decide⟩, ⟨by decide, by decide⟩, trivial⟩
  have hsub : At (subRows (.s1_1 (some [5, 6, 7]) (-1))) strangeGsub 30 :=
    ⟨⟨by decide, by decide⟩, ⟨by decide, by decide, hcov⟩, ⟨by decide, by decide⟩, trivial⟩
  have hext : At (extRows 1 (.s1_1 (some [5, 6, 7]) (-1))) strangeGsub 22 :=
    ⟨⟨by decide, by decide⟩, ⟨by decide, by decide⟩, ⟨by decide, by decide, hsub⟩, trivial⟩
  refine ⟨⟨by decide, by decide⟩, ⟨by decide, by decide⟩, ⟨by decide, by decide, ?_⟩, ⟨by decide, by decide, ?_⟩,
    ⟨by decide, by decide, ?_⟩, trivial⟩
  · refine ⟨⟨by decide, by decide⟩, rfl, ⟨by decide, by decide, ?_⟩, trivial⟩
    refine ⟨⟨by decide, by decide, ?_⟩, ⟨by decide, by decide⟩, trivial⟩
    exact ⟨⟨by decide, by decide⟩, ⟨by decide, by decide⟩, ⟨by decide, by decide⟩, ⟨by decide, by decide⟩, trivial⟩
  · refine ⟨⟨by decide, by decide⟩, rfl, ⟨by decide, by decide, ?_⟩, trivial⟩
    exact ⟨⟨by decide, by decide⟩, ⟨by decide, by decide⟩, ⟨by decide, by decide⟩, trivial⟩
  · refine ⟨⟨by decide, by decide⟩, ⟨by decide, by decide, ?_⟩, trivial⟩
    exact ⟨⟨by decide, by decide⟩, ⟨by decide, by decide⟩, ⟨by decide, by decide⟩, ⟨by decide, by decide, hext⟩, trivial⟩

theorem strange_ok : SaysOk SubstSays.number SubstSays.tables strangeSays := by
  refine ⟨?_, ⟨by decide, ?_⟩, by decide, ?_⟩
  · simp [ScriptsOk, strangeSays, ScriptOk, LanguageOk, BMap.Sorted]; decide
  · intro x hx; simp only [strangeSays, List.mem_singleton] at hx; subst hx; decide
  · intro x hx; simp only [strangeSays, List.mem_singleton] at hx; subst hx; decide

theorem strange_readable : ∀ l ∈ strangeSays.lookups, SubstReadable l.rule := by
  intro x hx; simp only [strangeSays, List.mem_singleton] at hx; subst hx
  refine ⟨by decide, ?_, fun _ => ⟨by decide, by decide⟩⟩
  intro s hs
  simp only [List.mem_singleton] at hs; subst hs
  refine ⟨rfl, ?_, by decide, by decide⟩
  intro gs hg; cases hg; exact ⟨by decide, by decide⟩

example : ∃ g rd, GSUB.read 10 (Rd.new strangeGsub) = .ok (g, rd) ∧ g.scripts = strangeSays.scripts ∧
    ∃ l m, g.lookups = [l] ∧ l.rule = .single [m] ∧ ∀ x v : UInt16, (x, v) ∈ m ↔ x ∈ [(5 : UInt16), 6, 7] ∧ v = x + 65535 := by
  obtain ⟨g, rd, h1, h2, _, h3⟩ := C88_gsub 10 strangeSays strange_ok strange_readable strangeGsub strange_follows
  refine ⟨g, rd, h1, h2, ?_⟩
  revert h3
  generalize g.lookups = ls
  intro h3
  cases h3 with
  | cons h h' =>
    cases h'
    rename_i l
    obtain ⟨_, _, hm⟩ := h
    cases hr : l.rule <;> rw [hr] at hm <;> simp only [SubstMeans] at hm <;> try exact absurd hm.1 (by decide)
    obtain ⟨_, hf⟩ := hm
    cases hf with
    | cons hm hn =>
      cases hn
      rename_i m
      refine ⟨l, m, rfl, hr, fun x v => ?_⟩
      rw [hm]
      have e : singleMeans (.s1_1 (some [5, 6, 7]) (-1)) x =
        if x ∈ covGlyphs (some [5, 6, 7]) then some (x + 65535) else none := rfl
      rw [e]
      by_cases hx : x ∈ covGlyphs (some [5, 6, 7])
      · rw [if_pos hx]
        exact ⟨fun h => ⟨hx, (Option.some.inj h).symm⟩, fun h => congrArg some h.2.symm⟩
      · rw [if_neg hx]
        exact ⟨fun h => (by cases h), fun h => absurd h.1 hx⟩

/-! ### Outside the guards -/

/-- Deltas are added to signed numbers: glyph 32760 plus 100 panics, where OpenType says glyph 32860. -/
theorem C88_delta_overflow : ∃ s g, SubWell s ∧ singleMeans s g = some 32860 ∧ SingleSubst.fromLow s = .panic :=
  ⟨.s1_1 (some [32760]) 100, 32760, by intro gs hg; cases hg; exact ⟨by decide, by decide⟩, by decide, by decide⟩

/-- The order of ligatures is lost: OpenType takes the first that matches, here the shorter one; what is read makes the
longer one match. -/
theorem C88_ligature_order : ∃ s m text, SubWell s ∧ LigSubst.fromLow s = .ok m ∧ applyLigatures s text = some (10, 2) ∧
    ([1, 2, 3], 11) ∈ m ∧ [1, 2, 3] <+: text ∧ ¬ LigatureMeans s m := by
  refine ⟨.s4_1 1 (some [1]) [some [some ⟨10, [2]⟩, some ⟨11, [2, 3]⟩]], [([1, 2], 10), ([1, 2, 3], 11)], [1, 2, 3],
    ⟨rfl, ?_, by decide, ?_⟩, by decide, by decide, by decide, by decide, fun h => ?_⟩
  · intro gs hg; cases hg; exact ⟨by decide, by decide⟩
  · intro x hx a ha
    simp only [List.mem_singleton] at hx; subst hx; cases ha
    exact ⟨by decide, by decide⟩
  · obtain ⟨_, _, _, _, h5⟩ := (h [1, 2, 3]).1 10 2 (by decide)
    have := h5 ([1, 2, 3], 11) (by decide) (by decide)
    exact absurd this (by decide)

/-- A lookup of extension type without subtables, which the specification allows, panics. -/
theorem C88_empty_extension (max : UInt16) : ruleOf max 7 [] = .panic := rfl

/-- Every version but 1.0 is rejected; version 1.1, with feature variations, exists since OpenType 1.8. -/
theorem C88_version (max : UInt16) (B : Bytes) (h : B.take 4 ≠ [0, 1, 0, 0]) : GSUB.read max (Rd.new B) = .err := by
  unfold GSUB.read GposGsub.read
  rw [bind_run]
  by_cases hl : B.length < 4
  · have : FT.peek 4 (Rd.new B) = .err := by unfold FT.peek Rd.new; simp only; rw [if_pos (by omega)]
    rw [this]
  · have : FT.peek 4 (Rd.new B) = .ok (B.take 4, Rd.new B) := by
      unfold FT.peek Rd.new; simp only; rw [if_neg (by omega), List.drop_zero]
    rw [this]
    simp only [if_neg h]
    rfl

end FT.Props
