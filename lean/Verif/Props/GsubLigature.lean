import Verif.Props.Gsub

/-!
C13: ligature substitutions.
-/

namespace FT.Props
open FT FT.Gsub FT.Lay FT.Off

/-- What a shaping engine does with a ligature subtable at the beginning of `text`: it looks up the set of the
first glyph in the coverage and takes the first ligature of that set whose components follow. The result is the
ligature glyph and the number of glyphs it replaces. -/
def applyLigatures : Sub → List UInt16 → Option (UInt16 × Nat)
  | .s4_1 _ (some cov) sets, g :: rest =>
    match (cov.zip sets).find? (fun x => x.1 == g) with
    | some (_, some ls) => ls.findSome? (fun l => match l with
      | some l => if l.components <+: rest then some (l.glyph, l.components.length + 1) else none
      | none => none)
    | _ => none
  | _, _ => none

theorem mapL_map {α β : Type} {f : α → Res β} (g : α → β) : ∀ (l : List α), (∀ x ∈ l, f x = .ok (g x)) →
    Res.mapL f l = .ok (l.map g)
  | [], _ => rfl
  | a :: l, h => by
    simp only [Res.mapL, h a (by simp), mapL_map g l (fun x hx => h x (by simp [hx])), List.map_cons]

/-- Keys beginning with `a`, in order. -/
def startingWith (a : UInt16) (keys : List (List UInt16)) : List (List UInt16) :=
  keys.filter (fun k => k.head? == some a)

def Splits (keys : List (List UInt16)) (s : List (UInt16 × List (List UInt16))) : Prop :=
  BMap.Sorted s ∧ ∀ a, BMap.get? s a = if startingWith a keys = [] then none else some (startingWith a keys)

theorem splitMap_ok : ∀ (l done : List (List UInt16)) (m : List (UInt16 × List (List UInt16))),
    Splits done m → (∀ k ∈ l, k ≠ []) → ∃ s, splitMap l m = .ok s ∧ Splits (done ++ l) s
  | [], done, m, h, _ => ⟨m, rfl, by simpa using h⟩
  | [] :: l, done, m, h, hk => absurd rfl (hk [] (by simp))
  | (a :: k) :: l, done, m, h, hk => by
    have hstep : Splits (done ++ [a :: k]) (BMap.insert m a ((BMap.get? m a).getD [] ++ [a :: k])) := by
      refine ⟨BMap.insert_sorted h.1 _ _, fun b => ?_⟩
      rw [BMap.get?_insert]
      unfold startingWith
      rw [List.filter_append]
      have h2 := h.2
      unfold startingWith at h2
      split
      · rename_i e
        subst e
        rw [h2 b]
        have e3 : List.filter (fun k => k.head? == some b) [b :: k] = [b :: k] := by simp
        rw [e3]
        by_cases e2 : List.filter (fun k => k.head? == some b) done = []
        · rw [if_pos e2, e2]; rfl
        · rw [if_neg e2, if_neg (by simp)]; rfl
      · rename_i e
        have e3 : List.filter (fun k => k.head? == some b) [a :: k] = [] := by
          simp [Ne.symm e]
        rw [e3, List.append_nil, h2 b]
    obtain ⟨s, h1, h2⟩ := splitMap_ok l _ _ hstep (fun x hx => hk x (by simp [hx]))
    refine ⟨s, ?_, by simpa using h2⟩
    rw [splitMap]
    simp only [splitStep, h1]

theorem sortKeys_perm (keys : List (List UInt16)) : (sortKeys keys).Perm keys := List.mergeSort_perm _ _

theorem sortKeys_desc (keys : List (List UInt16)) :
    (sortKeys keys).Pairwise (fun a b => b.length ≤ a.length) := by
  have := List.pairwise_mergeSort (le := fun (a b : List UInt16) => decide (b.length ≤ a.length))
    (by intro a b c; simp; omega) (by intro a b; simp; omega) keys
  exact this.imp (by simp)

/-- The value of `k` in a map that has it. -/
def val (m : LigSubst) (k : List UInt16) : UInt16 := (BMap.get? m k).getD 0

theorem toLow_lig (m : LigSubst) (hs : BMap.Sorted m) (hk : ∀ x ∈ m, x.1 ≠ []) :
    ∃ split, Splits (sortKeys (m.map Prod.fst)) split ∧
      m.toLow = .ok (.s4_1 1 (some (split.map Prod.fst))
        (split.map (fun x => some (x.2.map (fun k => some ⟨val m k, k.tail⟩))))) := by
  have hk' : ∀ k ∈ sortKeys (m.map Prod.fst), k ≠ [] := by
    intro k hmem
    rw [(sortKeys_perm _).mem_iff] at hmem
    obtain ⟨x, hx, rfl⟩ := List.mem_map.mp hmem
    exact hk x hx
  obtain ⟨split, h1, h2⟩ := splitMap_ok _ [] [] ⟨by simp [BMap.Sorted], fun a => by simp [BMap.get?, startingWith]⟩ hk'
  refine ⟨split, by simpa using h2, ?_⟩
  have h3 : Res.mapL (fun x => Res.mapL (ligFor m) x.2) split =
      .ok (split.map (fun x => x.2.map (fun k => some ⟨val m k, k.tail⟩))) := by
    apply mapL_map
    intro x hx
    apply mapL_map
    intro k hkx
    have hg := (BMap.get?_eq_some h2.1).mpr (show (x.1, x.2) ∈ split from hx)
    rw [h2.2] at hg
    split at hg
    · cases hg
    · rw [← Option.some.inj hg, startingWith, List.mem_filter] at hkx
      have hkm := hkx.1
      rw [List.nil_append, (sortKeys_perm _).mem_iff] at hkm
      obtain ⟨y, hy, rfl⟩ := List.mem_map.mp hkm
      have hgy := (BMap.get?_eq_some hs).mpr (show (y.1, y.2) ∈ m from hy)
      cases e : y.1 with
      | nil => exact absurd e (hk y hy)
      | cons a t =>
        rw [e] at hgy
        simp [ligFor, val, hgy]
  simp only [LigSubst.toLow, h1, h3, List.map_map]
  rfl

theorem mem_split {keys : List (List UInt16)} {split : List (UInt16 × List (List UInt16))}
    (h : Splits keys split) {x : UInt16 × List (List UInt16)} (hx : x ∈ split) :
    x.2 = startingWith x.1 keys := by
  have hg := (BMap.get?_eq_some h.1).mpr (show (x.1, x.2) ∈ split from hx)
  rw [h.2] at hg
  split at hg
  · cases hg
  · exact (Option.some.inj hg).symm

theorem split_of_mem {keys : List (List UInt16)} {split : List (UInt16 × List (List UInt16))}
    (h : Splits keys split) {a : UInt16} {k : List UInt16} (hk : a :: k ∈ keys) :
    (a, startingWith a keys) ∈ split := by
  rw [← BMap.get?_eq_some h.1, h.2, if_neg]
  apply List.ne_nil_of_mem (a := a :: k)
  rw [startingWith, List.mem_filter]
  exact ⟨hk, by simp⟩

/-- **C13.** Converting a ligature map to its subtable and back gives the same map. -/
theorem C13_roundtrip (m : LigSubst) (hs : BMap.Sorted m) (hk : ∀ x ∈ m, x.1 ≠ []) :
    ∃ low, m.toLow = .ok low ∧ LigSubst.fromLow low = .ok m := by
  obtain ⟨split, hsp, e⟩ := toLow_lig m hs hk
  refine ⟨_, e, ?_⟩
  have hz : (split.map Prod.fst).zip (split.map (fun x => some (x.2.map (fun k => some (⟨val m k, k.tail⟩ : Ligature))))) =
      split.map (fun x => (x.1, some (x.2.map (fun k => some ⟨val m k, k.tail⟩)))) := by
    clear hsp e
    induction split with
    | nil => rfl
    | cons x l ih => simp [ih]
  simp only [LigSubst.fromLow, hz]
  have h1 : Res.mapL (fun x => ligEntries x.1 x.2)
      (split.map (fun x => (x.1, some (x.2.map (fun k => some (⟨val m k, k.tail⟩ : Ligature)))))) =
      .ok (split.map (fun x => x.2.map (fun k => (x.1 :: k.tail, val m k)))) := by
    clear hsp e hz
    induction split with
    | nil => rfl
    | cons x l ih =>
      have h2 : ligEntries x.1 (some (x.2.map (fun k => some (⟨val m k, k.tail⟩ : Ligature)))) =
          .ok (x.2.map (fun k => (x.1 :: k.tail, val m k))) := by
        unfold ligEntries
        simp only
        generalize x.2 = ks
        induction ks with
        | nil => rfl
        | cons k ks ihk => simp only [List.map_cons, Res.mapL, ihk]
      simp only [List.map_cons, Res.mapL, h2, ih]
  simp only [h1]
  rw [BMap.collect_eq hs]
  rintro ⟨k, v⟩
  simp only [List.mem_flatten, List.mem_map]
  constructor
  · rintro ⟨l, ⟨x, hx, rfl⟩, hkv⟩
    obtain ⟨k', hk', e2⟩ := List.mem_map.mp hkv
    rw [mem_split hsp hx, startingWith, List.mem_filter] at hk'
    obtain ⟨hk1, hk2⟩ := hk'
    cases k' with
    | nil => simp at hk2
    | cons a t =>
      simp at hk2
      subst hk2
      obtain ⟨rfl, rfl⟩ := Prod.mk.inj e2
      rw [(sortKeys_perm _).mem_iff] at hk1
      obtain ⟨y, hy, e3⟩ := List.mem_map.mp hk1
      have hgy := (BMap.get?_eq_some hs).mpr (show (y.1, y.2) ∈ m from hy)
      rw [e3] at hgy
      have : ((x.1 :: t, y.2) : List UInt16 × UInt16) = y := by rw [← e3]
      simp only [List.tail_cons, val, hgy, Option.getD_some, this, hy]
  · intro hkv
    cases k with
    | nil => exact absurd rfl (hk _ hkv)
    | cons a t =>
      have hmem : a :: t ∈ sortKeys (m.map Prod.fst) := by
        rw [(sortKeys_perm _).mem_iff]
        exact List.mem_map.mpr ⟨_, hkv, rfl⟩
      refine ⟨_, ⟨_, split_of_mem hsp hmem, rfl⟩, List.mem_map.mpr ⟨a :: t, ?_, ?_⟩⟩
      · simp only [startingWith, List.mem_filter]
        exact ⟨hmem, by simp⟩
      · have hgy := (BMap.get?_eq_some hs).mpr hkv
        simp only [List.tail_cons, val, hgy, Option.getD_some]

theorem find_split {split : List (UInt16 × List (List UInt16))} (h : BMap.Sorted split)
    {β : Type} (f : List (List UInt16) → β) (g : UInt16) :
    ((split.map Prod.fst).zip (split.map (fun x => some (f x.2)))).find? (fun x => x.1 == g) =
      (BMap.get? split g).map (fun ks => (g, some (f ks))) := by
  induction split with
  | nil => rfl
  | cons x l ih =>
    simp only [List.map_cons, List.zip_cons_cons, List.find?_cons, BMap.get?]
    by_cases e : x.1 = g
    · rw [e]; simp [Key.irrefl]
    · have e' : (x.1 == g) = false := by simpa using e
      simp only [e']
      rw [ih h.tail]
      cases h1 : Key.lt g x.1 with
      | true =>
        rw [BMap.get?_none_of_lt]
        · simp
        · intro y hy; exact Key.trans _ _ _ h1 (h.head_lt y hy)
      | false =>
        cases h2 : Key.lt x.1 g with
        | true => simp
        | false => exact absurd (Key.tri _ _ h2 h1) e

/-- Longest-first search. -/
theorem findSome_longest {β : Type} (g : UInt16) (rest : List UInt16) (f : List UInt16 → β) :
    ∀ (ks : List (List UInt16)), ks.Pairwise (fun a b => b.length ≤ a.length) → (∀ k ∈ ks, k.head? = some g) →
    (∀ r, (ks.findSome? (fun k => if k.tail <+: rest then some (f k, k.tail.length + 1) else none)) = some r →
      ∃ k ∈ ks, k <+: g :: rest ∧ r = (f k, k.length) ∧ ∀ k' ∈ ks, k' <+: g :: rest → k'.length ≤ k.length) ∧
    ((ks.findSome? (fun k => if k.tail <+: rest then some (f k, k.tail.length + 1) else none)) = none →
      ∀ k ∈ ks, ¬ k <+: g :: rest) := by
  have key : ∀ k : List UInt16, k.head? = some g → (k <+: g :: rest ↔ k.tail <+: rest) ∧ k.tail.length + 1 = k.length := by
    intro k hk
    cases k with
    | nil => cases hk
    | cons a t => simp at hk; subst hk; simp [List.cons_prefix_cons]
  intro ks
  induction ks with
  | nil => intro _ _; simp
  | cons k ks ih =>
    intro hp hh
    obtain ⟨ih1, ih2⟩ := ih hp.tail (fun x hx => hh x (by simp [hx]))
    obtain ⟨hk1, hk2⟩ := key k (hh k (by simp))
    rw [List.findSome?_cons]
    by_cases h : k.tail <+: rest
    · rw [if_pos h]
      refine ⟨?_, by simp⟩
      intro r hr
      obtain rfl := (Option.some.inj hr).symm
      refine ⟨k, by simp, hk1.mpr h, by rw [hk2], ?_⟩
      intro k' hk' _
      rcases List.mem_cons.mp hk' with rfl | h'
      · exact Nat.le_refl _
      · exact List.rel_of_pairwise_cons hp h'
    · rw [if_neg h]
      constructor
      · intro r hr
        obtain ⟨k2, h1, h2, h3, h4⟩ := ih1 r hr
        refine ⟨k2, by simp [h1], h2, h3, ?_⟩
        intro k' hk' hpre
        rcases List.mem_cons.mp hk' with rfl | h'
        · exact absurd (hk1.mp hpre) h
        · exact h4 k' h' hpre
      · intro hn k' hk' hpre
        rcases List.mem_cons.mp hk' with rfl | h'
        · exact h (hk1.mp hpre)
        · exact ih2 hn k' h' hpre

/-- **C13.** A shaping engine that goes through the subtable in order applies, at every place in every text, the
longest ligature of the map that matches there, and none if no ligature of the map matches. -/
theorem C13_longest (m : LigSubst) (hs : BMap.Sorted m) (hk : ∀ x ∈ m, x.1 ≠ []) (low : Sub) (hl : m.toLow = .ok low)
    (text : List UInt16) :
    (∀ v n, applyLigatures low text = some (v, n) → ∃ k, (k, v) ∈ m ∧ k <+: text ∧ k.length = n ∧
      ∀ x ∈ m, x.1 <+: text → x.1.length ≤ n) ∧
    (applyLigatures low text = none → ∀ x ∈ m, ¬ x.1 <+: text) := by
  obtain ⟨split, hsp, e⟩ := toLow_lig m hs hk
  rw [hl] at e
  obtain rfl := Res.ok.inj e
  cases text with
  | nil =>
    refine ⟨by simp [applyLigatures], fun _ x hx hp => hk x hx (List.prefix_nil.mp hp)⟩
  | cons g rest =>
    have hfind := find_split hsp.1 (fun ks => ks.map (fun k => some (⟨val m k, k.tail⟩ : Ligature))) g
    simp only [applyLigatures]
    rw [hfind, hsp.2]
    by_cases hne : startingWith g (sortKeys (m.map Prod.fst)) = []
    · rw [if_pos hne]
      refine ⟨by simp, fun _ x hx hp => ?_⟩
      have hx1 : x.1 ∈ startingWith g (sortKeys (m.map Prod.fst)) := by
        rw [startingWith, List.mem_filter, (sortKeys_perm _).mem_iff]
        refine ⟨List.mem_map.mpr ⟨x, hx, rfl⟩, ?_⟩
        cases ex : x.1 with
        | nil => exact absurd ex (hk x hx)
        | cons a t => rw [ex, List.cons_prefix_cons] at hp; simp [hp.1]
      rw [hne] at hx1; cases hx1
    · rw [if_neg hne]
      simp only [Option.map_some, List.findSome?_map, Function.comp_def]
      have hpw : (startingWith g (sortKeys (m.map Prod.fst))).Pairwise (fun a b => b.length ≤ a.length) :=
        (sortKeys_desc _).filter _
      have hhd : ∀ k ∈ startingWith g (sortKeys (m.map Prod.fst)), k.head? = some g := by
        intro k hk'
        rw [startingWith, List.mem_filter] at hk'
        simpa using hk'.2
      have hall : ∀ x ∈ m, x.1 <+: g :: rest → x.1 ∈ startingWith g (sortKeys (m.map Prod.fst)) := by
        intro x hx hp
        rw [startingWith, List.mem_filter, (sortKeys_perm _).mem_iff]
        refine ⟨List.mem_map.mpr ⟨x, hx, rfl⟩, ?_⟩
        cases ex : x.1 with
        | nil => exact absurd ex (hk x hx)
        | cons a t => rw [ex, List.cons_prefix_cons] at hp; simp [hp.1]
      obtain ⟨h1, h2⟩ := findSome_longest g rest (val m) _ hpw hhd
      constructor
      · intro v n hv
        obtain ⟨k, hkm, hkp, hr, hmax⟩ := h1 _ hv
        obtain ⟨rfl, rfl⟩ := Prod.mk.inj hr
        have hkm2 := hkm
        rw [startingWith, List.mem_filter, (sortKeys_perm _).mem_iff] at hkm
        obtain ⟨y, hy, rfl⟩ := List.mem_map.mp hkm.1
        have hgy := (BMap.get?_eq_some hs).mpr (show (y.1, y.2) ∈ m from hy)
        refine ⟨y.1, by simp only [val, hgy, Option.getD_some]; exact hy, hkp, rfl, ?_⟩
        intro x hx hp
        exact hmax x.1 (hall x hx hp) hp
      · intro hn x hx hp
        exact h2 hn x.1 (hall x hx hp) hp

theorem splitMap_panic : ∀ (l : List (List UInt16)) (m : List (UInt16 × List (List UInt16))), [] ∈ l →
    splitMap l m = .panic
  | [] :: l, m, _ => rfl
  | (a :: k) :: l, m, h => by
    simp only [splitMap, splitStep]
    exact splitMap_panic l _ (by simpa using h)

/-- The hypothesis on the keys is needed: a map with an empty key panics. -/
theorem C13_empty_key_panics (m : LigSubst) (h : ∃ x ∈ m, x.1 = []) : m.toLow = .panic := by
  obtain ⟨x, hx, e⟩ := h
  unfold LigSubst.toLow
  rw [splitMap_panic]
  rw [(sortKeys_perm _).mem_iff]
  exact List.mem_map.mpr ⟨x, hx, e⟩

theorem subOk_lig (m : LigSubst) (hs : BMap.Sorted m) (hk : ∀ x ∈ m, x.1 ≠ [])
    (hg : ∀ x ∈ m, ∀ g, x.1.head? = some g → g.toNat ≠ 65535) (hlen : m.length ≤ 65535)
    (hcomp : ∀ x ∈ m, x.1.length ≤ 65535) :
    ∃ low, m.toLow = .ok low ∧ LigSubst.fromLow low = .ok m ∧ SubOk low ∧ low.type = 4 := by
  obtain ⟨low, h1, h2⟩ := C13_roundtrip m hs hk
  refine ⟨low, h1, h2, ?_⟩
  obtain ⟨split, hsp, e⟩ := toLow_lig m hs hk
  rw [h1] at e
  have hlow := Res.ok.inj e
  have hmem : ∀ x ∈ split, ∀ k ∈ x.2, k.head? = some x.1 ∧ ∃ v, (k, v) ∈ m := by
    intro x hx k hkx
    rw [mem_split hsp hx, startingWith, List.mem_filter, (sortKeys_perm _).mem_iff] at hkx
    obtain ⟨y, hy, e3⟩ := List.mem_map.mp hkx.1
    exact ⟨by simpa using hkx.2, y.2, by rw [← e3]; exact hy⟩
  have hgs : ∀ g ∈ split.map Prod.fst, g.toNat ≠ 65535 := by
    intro g hgm
    obtain ⟨x, hx, rfl⟩ := List.mem_map.mp hgm
    have hx2 := mem_split hsp hx
    have hgx := (BMap.get?_eq_some hsp.1).mpr (show (x.1, x.2) ∈ split from hx)
    rw [hsp.2] at hgx
    split at hgx
    · cases hgx
    · rename_i hne
      obtain ⟨k, hk2⟩ := List.exists_mem_of_ne_nil _ hne
      rw [← hx2] at hk2
      obtain ⟨a, v, b⟩ := hmem x hx k hk2
      exact hg _ b _ a
  have hok : SubOk low := by
    rw [hlow]
    refine ⟨covLinkOk_keys hsp.1 (.inl hgs), ?_, ?_⟩
    · have := keys_length hsp.1 (.inl hgs)
      simpa using this
    · intro s hs'
      obtain ⟨x, hx, ex⟩ := List.mem_map.mp hs'
      obtain rfl := Option.some.inj ex
      constructor
      · rw [List.length_map, mem_split hsp hx, startingWith]
        refine Nat.le_trans (List.length_filter_le _ _) ?_
        rw [(sortKeys_perm _).length_eq, List.length_map]
        exact hlen
      · intro a ha
        obtain ⟨k, hkx, ek⟩ := List.mem_map.mp ha
        obtain rfl := Option.some.inj ek
        obtain ⟨a1, v, b⟩ := hmem x hx k hkx
        have := hcomp _ b
        unfold LigOk
        simp only [List.length_tail]
        simp only at this
        omega
  exact ⟨hok, by rw [hlow]; rfl⟩

/-- **C13, down to bytes**, when counts fit. -/
theorem C13_bytes (m : LigSubst) (hs : BMap.Sorted m) (hk : ∀ x ∈ m, x.1 ≠ [])
    (hg : ∀ x ∈ m, ∀ g, x.1.head? = some g → g.toNat ≠ 65535) (hlen : m.length ≤ 65535)
    (hcomp : ∀ x ∈ m, x.1.length ≤ 65535) :
    ∃ low, m.toLow = .ok low ∧ Survives low 4 LigSubst.fromLow m := by
  obtain ⟨low, h1, h2, h3, h4⟩ := subOk_lig m hs hk hg hlen hcomp
  have := survives_of h3 h2
  rw [h4] at this
  exact ⟨low, h1, this⟩

example : BMap.Sorted ([([71, 71, 77], 240), ([71, 74], 109)] : LigSubst) ∧
    (∀ x ∈ ([([71, 71, 77], 240), ([71, 74], 109)] : LigSubst), x.1 ≠ []) ∧
    (∀ x ∈ ([([71, 71, 77], 240), ([71, 74], 109)] : LigSubst), ∀ g, x.1.head? = some g → g.toNat ≠ 65535) ∧
    (∀ x ∈ ([([71, 71, 77], 240), ([71, 74], 109)] : LigSubst), x.1.length ≤ 65535) := by
  refine ⟨by simp [BMap.Sorted, Key.lt, Key.ltList], by decide, ?_, by decide⟩
  intro x hx g hg
  simp only [List.mem_cons, List.not_mem_nil, or_false] at hx
  rcases hx with rfl | rfl <;> simp at hg <;> subst hg <;> decide

/-- f + f + i before f + i. -/
example : applyLigatures (.s4_1 1 (some [10]) [some [some ⟨50, [10, 11]⟩, some ⟨51, [11]⟩]]) [10, 11, 10] = some (51, 2) := by
  decide

end FT.Props
