import Verif.Lemmas.TabRoom
import Verif.Props.LayoutWrites

/-! C56: how large a GSUB table may be that is written in any case. -/

namespace FT.Props
open FT FT.Lay FT.Off FT.Gsub

/-! ### The room that rules take, at most -/

/-- A list of sets of glyphs: for each an offset, a header and two bytes for each glyph. -/
def slotsRoom (l : List Slot) : Nat := (l.map (fun s => 6 + 2 * s.length)).sum

/-- One subtable of each kind. -/
def singleRoom (m : SingleSubst) : Nat := 10 + 4 * m.length
def multiRoom (m : MultiSubst) : Nat := 10 + (m.map (fun x => 6 + 2 * x.2.length)).sum
def ligatureRoom (m : LigSubst) : Nat := 10 + (m.map (fun x => 10 + 2 * x.1.length)).sum
def contextRoom (r : CtxRule) : Nat := 6 + (r.map (fun x => 2 + 4 * x.2.length)).sum
def chainRoom (r : ChainedRule) : Nat :=
  10 + slotsRoom r.backtrack + slotsRoom r.lookahead + (r.input.map (fun x => 6 + 2 * x.1.length + 4 * x.2.length)).sum
def reverseRoom (r : RevSubst) : Nat := 14 + 4 * r.mapping.length + slotsRoom r.backtrack + slotsRoom r.lookahead

/-- All subtables of a lookup, each with its offset. -/
def substRoom : Subst → Nat
  | .single l => (l.map (fun m => 2 + singleRoom m)).sum
  | .multiple l => (l.map (fun m => 2 + multiRoom m)).sum
  | .alternate l => (l.map (fun m => 2 + multiRoom m)).sum
  | .ligature l => (l.map (fun m => 2 + ligatureRoom m)).sum
  | .contextual l => (l.flatten.map (fun r => 2 + contextRoom r)).sum
  | .chained l => (l.flatten.map (fun r => 2 + chainRoom r)).sum
  | .reverse l => (l.map (fun m => 2 + reverseRoom m)).sum

/-- A language system, a script, a list of scripts, a list of features. -/
def languageRoom (l : LanguageSystem) : Nat := 6 + 2 * l.features.length
def scriptRoom (s : Script) : Nat := 4 + s.dflt.elim 0 languageRoom + (s.langs.map (fun x => 6 + languageRoom x.2)).sum
def scriptsRoom (l : ScriptList) : Nat := 2 + (l.map (fun x => 6 + scriptRoom x.2)).sum
def featuresRoom (l : FeatureList) : Nat := 2 + (l.map (fun x => 10 + 2 * x.2.1.length)).sum

/-- The whole table, `r` being the room of the subtables of a rule. -/
def tableRoom {R : Type} (r : R → Nat) (g : GposGsub R) : Nat :=
  12 + scriptsRoom g.scripts + featuresRoom g.features + (g.lookups.map (fun l => 10 + r l.rule)).sum

/-! ### They do not take more -/

/-- What a subtable takes, if it can be written. -/
def taken {S : Type} (f : S → Res Tab) (s : S) : Nat := match f s with
  | .ok T => total T
  | _ => 0

theorem room_taken {S : Type} (f : S → Res Tab) : Room f (taken f) := by
  intro s T e
  unfold taken
  rw [e]

theorem taken_le {S : Type} {f : S → Res Tab} {s : S} {n : Nat} (h : ∀ T, f s = .ok T → total T ≤ n) : taken f s ≤ n := by
  unfold taken
  split
  · exact h _ ‹_›
  · exact Nat.zero_le _

theorem bind_tab {α β : Type} {x : Res α} {f : α → Res β} {b : β} (h : (x >>= f) = .ok b) : ∃ a, x = .ok a ∧ f a = .ok b := by
  cases x with
  | ok a => exact ⟨a, rfl, h⟩
  | err => cases h
  | panic => cases h

theorem seqTab_room : Room seqTab (fun l => 2 + 2 * l.length) := by
  intro l T e
  cases e
  rw [total_bytes, u16s_length]

theorem ligature_room : Room Ligature.tab (fun l => 4 + 2 * l.components.length) := by
  intro l T e
  unfold Ligature.tab at e
  dsimp only at e
  split at e
  · cases e
  · cases e
    rw [total_bytes, List.length_append, List.length_append, encU16_length, encU16_length, encVec_length (k := 2) (fun _ => encU16_length _)]

theorem sum_add {α : Type} (f g : α → Nat) : ∀ l : List α, (l.map (fun x => f x + g x)).sum = (l.map f).sum + (l.map g).sum
  | [] => rfl
  | a :: l => by simp only [List.map_cons, List.sum_cons, sum_add f g l]; omega

theorem sum_const {α : Type} (c : Nat) : ∀ l : List α, (l.map (fun _ => c)).sum = c * l.length
  | [] => rfl
  | a :: l => by simp only [List.map_cons, List.sum_cons, sum_const c l, List.length_cons]; rw [Nat.mul_add]; omega

theorem sum_four {α : Type} (f : α → Nat) : ∀ l : List α, (l.map (fun x => 4 * f x)).sum = 4 * (l.map f).sum
  | [] => rfl
  | a :: l => by simp only [List.map_cons, List.sum_cons, sum_four f l]; omega

theorem sum_le {α : Type} {f g : α → Nat} : ∀ {l : List α}, (∀ x ∈ l, f x ≤ g x) → (l.map f).sum ≤ (l.map g).sum
  | [], _ => Nat.le_refl _
  | a :: l, h => by
    simp only [List.map_cons, List.sum_cons]
    exact Nat.add_le_add (h a (by simp)) (sum_le (fun x hx => h x (by simp [hx])))

theorem single_room (m : SingleSubst) : taken Sub.tab m.toLow ≤ singleRoom m := by
  apply taken_le
  intro T e
  rcases toLow_cases m with ⟨d, _, _, _, e'⟩ | ⟨_, e'⟩
  · rw [e', Sub.tab] at e
    obtain ⟨c, h1, h2⟩ := bind_tab e
    cases h2
    have := optOff_room covTab_room _ c h1
    simp only [Option.elim, List.length_map] at this
    simp only [total_append, total_bytes, encU16_length, singleRoom]
    have : (encI16 d).length = 2 := rfl
    omega
  · rw [e', Sub.tab] at e
    obtain ⟨c, h1, h2⟩ := bind_tab e
    cases h2
    have := optOff_room covTab_room _ c h1
    simp only [Option.elim, List.length_map] at this
    simp only [total_append, total_bytes, encU16_length, singleRoom, u16s_length, List.length_map]
    omega

theorem multi_room {m : MultiSubst} {f : UInt16} {c v : Tab} (h1 : optOff false covTab (some (m.map Prod.fst)) = .ok c)
    (h2 : offVec seqTab (m.map (fun x => some x.2)) = .ok v) :
    total ((Tab.bytes (encU16 f)).append (c.append v)) ≤ multiRoom m := by
  have a := optOff_room covTab_room _ c h1
  have b := offVec_room seqTab_room _ v h2
  simp only [Option.elim, List.length_map, List.map_map, Function.comp_def] at a b
  simp only [total_append, total_bytes, encU16_length, multiRoom]
  rw [sum_add] at b ⊢
  rw [sum_add (fun _ => 2)] at b
  rw [sum_const] at b ⊢
  omega

theorem multi2_room (m : MultiSubst) : taken Sub.tab m.toLow2 ≤ multiRoom m := by
  apply taken_le
  intro T e
  rw [MultiSubst.toLow2, Sub.tab] at e
  obtain ⟨c, h1, e⟩ := bind_tab e
  obtain ⟨v, h2, e⟩ := bind_tab e
  cases e
  exact multi_room h1 h2

theorem multi3_room (m : MultiSubst) : taken Sub.tab m.toLow3 ≤ multiRoom m := by
  apply taken_le
  intro T e
  rw [MultiSubst.toLow3, Sub.tab] at e
  obtain ⟨c, h1, e⟩ := bind_tab e
  obtain ⟨v, h2, e⟩ := bind_tab e
  cases e
  exact multi_room h1 h2

theorem slots_room {l : List Slot} {v : Tab} (h : offVec covTab (l.map some) = .ok v) : total v ≤ 2 + slotsRoom l := by
  have b := offVec_room covTab_room _ v h
  simp only [Option.elim, List.map_map, Function.comp_def] at b
  unfold slotsRoom
  have : (l.map (fun s : List UInt16 => 2 + (4 + 2 * s.length))).sum = (l.map (fun s => 6 + 2 * s.length)).sum := by
    congr 1
    apply List.map_congr_left
    intro s _
    omega
  omega

theorem reverse_room (m : RevSubst) : taken Sub.tab m.toLow ≤ reverseRoom m := by
  apply taken_le
  intro T e
  rw [RevSubst.toLow, Sub.tab] at e
  obtain ⟨c, h1, e⟩ := bind_tab e
  obtain ⟨b, h2, e⟩ := bind_tab e
  obtain ⟨a, h3, e⟩ := bind_tab e
  cases e
  have k1 := optOff_room covTab_room _ c h1
  have k2 := slots_room h2
  have k3 := slots_room h3
  simp only [Option.elim, List.length_map] at k1
  simp only [total_append, total_bytes, encU16_length, reverseRoom, u16s_length, List.length_map]
  omega

theorem chain_room (r : ChainedRule) : taken Sub.tab (chainTo3 r) ≤ chainRoom r := by
  apply taken_le
  intro T e
  rw [chainTo3, Sub.tab] at e
  obtain ⟨b, h1, e⟩ := bind_tab e
  obtain ⟨i, h2, e⟩ := bind_tab e
  obtain ⟨a, h3, e⟩ := bind_tab e
  cases e
  have k1 := slots_room h1
  have k2 := slots_room (l := r.input.map Prod.fst) (by rw [List.map_map]; exact h2)
  have k3 := slots_room h3
  have k4 : (encCounted encRec (recordsFrom 0 r.input)).length = 2 + 4 * (recordsFrom 0 r.input).length := by
    unfold encCounted
    rw [List.length_append, encU16_length, encVec_length (k := 4) (fun _ => rfl)]
  rw [recordsFrom_length] at k4
  simp only [total_append, total_bytes, encU16_length, chainRoom]
  rw [sum_add, k4]
  unfold slotsRoom at k2
  rw [List.map_map] at k2
  rw [sum_four]
  simp only [Function.comp_def] at k2
  omega

theorem unresolved_room : ∀ (l : List Cov) (cs : List Bytes), Res.mapL unresolvedOff l = .ok cs → cs.flatten.length = 2 * l.length
  | [], cs, e => by cases e; rfl
  | none :: l, cs, e => by
    rw [Res.mapL, unresolvedOff] at e
    dsimp only at e
    cases e2 : Res.mapL unresolvedOff l with
    | err => rw [e2] at e; cases e
    | panic => rw [e2] at e; cases e
    | ok cs' =>
      rw [e2] at e
      cases e
      rw [List.flatten_cons, List.length_append, encU16_length, unresolved_room l cs' e2, List.length_cons]
      omega
  | some c :: l, cs, e => by
    rw [Res.mapL, unresolvedOff] at e
    cases e

theorem context_room (r : CtxRule) : taken Sub.tab (ctxTo3 r) ≤ contextRoom r := by
  apply taken_le
  intro T e
  rw [ctxTo3] at e
  rw [Sub.tab] at e
  obtain ⟨cs, h1, e⟩ := bind_tab e
  cases e
  have k1 := unresolved_room _ _ h1
  rw [total_bytes]
  simp only [List.length_append, encU16_length, k1, List.length_map]
  rw [encVec_length (k := 4) (fun _ => rfl), recordsFrom_length]
  unfold contextRoom
  rw [sum_add, sum_const]
  rw [sum_four]
  omega

theorem one_of {a : UInt16} {n : Nat} : ∀ {l : List UInt16}, l.Nodup → (l.map (fun b => if a = b then n else 0)).sum ≤ n
  | [], _ => Nat.zero_le _
  | b :: l, h => by
    rw [List.map_cons, List.sum_cons]
    have ih := one_of (a := a) (n := n) (List.nodup_cons.mp h).2
    by_cases e : a = b
    · subst e
      rw [if_pos rfl]
      have : (l.map (fun b => if a = b then n else 0)).sum = 0 := by
        rw [List.sum_eq_zero_iff_forall_eq_nat]
        intro x hx
        obtain ⟨c, hc, rfl⟩ := List.mem_map.mp hx
        rw [if_neg]
        rintro rfl
        exact (List.nodup_cons.mp h).1 hc
      omega
    · rw [if_neg e]
      omega

theorem starting_sum (w : List UInt16 → Nat) {l : List UInt16} (hl : l.Nodup) : ∀ keys : List (List UInt16),
    (l.map (fun a => ((startingWith a keys).map w).sum)).sum ≤ (keys.map w).sum
  | [] => by
    simp only [startingWith, List.filter_nil, List.map_nil, List.sum_nil]
    rw [sum_const]
    omega
  | k :: keys => by
    have ih := starting_sum w hl keys
    have e : ∀ a, ((startingWith a (k :: keys)).map w).sum =
        (if k.head? = some a then w k else 0) + ((startingWith a keys).map w).sum := by
      intro a
      unfold startingWith
      rw [List.filter_cons]
      by_cases h : k.head? = some a
      · simp [h]
      · simp [h]
    simp only [e]
    rw [sum_add, List.map_cons, List.sum_cons]
    refine Nat.add_le_add ?_ ih
    cases hk : k.head? with
    | none =>
      simp only [reduceCtorEq, if_false]
      rw [sum_const]
      omega
    | some b =>
      simp only [Option.some.injEq]
      exact one_of hl

theorem ligKeys_nodup {κ α : Type} [Key κ] {l : List (κ × α)} (h : BMap.Sorted l) : (l.map Prod.fst).Nodup := by
  unfold BMap.Sorted at h
  rw [List.Nodup, List.pairwise_map]
  refine h.imp ?_
  intro a b hab e
  rw [e, Key.irrefl] at hab
  cases hab

theorem perm_sum {l l' : List Nat} (h : l.Perm l') : l.sum = l'.sum := by
  induction h with
  | nil => rfl
  | cons a _ ih => simp only [List.sum_cons, ih]
  | swap a b l => simp only [List.sum_cons]; omega
  | trans _ _ ih1 ih2 => exact ih1.trans ih2

theorem ligatures_room (m : LigSubst) (hs : BMap.Sorted m) (hk : ∀ x ∈ m, x.1 ≠ []) :
    ∃ low, m.toLow = .ok low ∧ taken Sub.tab low ≤ ligatureRoom m := by
  obtain ⟨split, hsp, e⟩ := toLow_lig m hs hk
  refine ⟨_, e, ?_⟩
  apply taken_le
  intro T e
  rw [Sub.tab] at e
  obtain ⟨c, h1, e⟩ := bind_tab e
  obtain ⟨v, h2, e⟩ := bind_tab e
  cases e
  have a := optOff_room covTab_room _ c h1
  have b := offVec_room (offVec_room ligature_room) _ v h2
  simp only [Option.elim, List.length_map, List.map_map, Function.comp_def] at a b
  simp only [total_append, total_bytes, encU16_length, ligatureRoom]
  have hnd : (split.map Prod.fst).Nodup := ligKeys_nodup hsp.1
  have k1 := starting_sum (fun k => 10 + 2 * k.length) hnd (sortKeys (m.map Prod.fst))
  have k2 : ((sortKeys (m.map Prod.fst)).map (fun k => 10 + 2 * k.length)).sum = (m.map (fun x => 10 + 2 * x.1.length)).sum := by
    rw [perm_sum ((sortKeys_perm _).map _), List.map_map]
    rfl
  rw [k2, List.map_map] at k1
  have k3 : (split.map (fun x => 2 + (2 + (2 + (x.2.map (fun k => 2 + (4 + 2 * k.tail.length))).sum)))).sum ≤
      (split.map ((fun a => ((startingWith a (sortKeys (m.map Prod.fst))).map (fun k => 10 + 2 * k.length)).sum) ∘ Prod.fst)).sum := by
    apply sum_le
    intro x hx
    have hx2 := mem_split hsp hx
    simp only [Function.comp_def, ← hx2]
    have hne : x.2 ≠ [] := by
      have hg := (BMap.get?_eq_some hsp.1).mpr (show (x.1, x.2) ∈ split from hx)
      rw [hsp.2] at hg
      split at hg
      · cases hg
      · rw [← Option.some.inj hg]; assumption
    have hpos : ∀ k ∈ x.2, k ≠ [] := by
      intro k hkx
      rw [hx2, startingWith, List.mem_filter] at hkx
      rintro rfl
      simp at hkx
    have : (x.2.map (fun k => 6 + (4 + 2 * k.length))).sum ≤ (x.2.map (fun k => 10 + 2 * k.length)).sum :=
      sum_le (fun k _ => by omega)
    rw [sum_add, sum_const] at this
    have l1 : 1 ≤ x.2.length := List.length_pos_iff.mpr hne
    have l2 : (x.2.map (fun k => 2 + (4 + 2 * k.tail.length))).sum ≤ (x.2.map (fun k => 4 + 2 * k.length)).sum :=
      sum_le (fun k hk => by
        have := List.length_pos_iff.mpr (hpos k hk)
        rw [List.length_tail]
        omega)
    omega
  have k4 : (split.map (fun x => 2 + (2 + (2 + (x.2.map (fun k => 2 + (4 + 2 * k.tail.length))).sum)))).sum =
      2 * split.length + (split.map (fun x => 2 + (2 + (x.2.map (fun k => 2 + (4 + 2 * k.tail.length))).sum))).sum := by
    rw [sum_add, sum_const]
  omega

theorem taken_plain (s : Sub) : taken SubX.tab (.plain s) = taken Sub.tab s := rfl

theorem subst_room (s : Subst) (h : SubstOk s) {ss : List SubX} (e : s.subs = .ok ss) :
    (ss.map (fun x => 2 + taken SubX.tab x)).sum ≤ substRoom s := by
  cases s with
  | single l =>
    cases e
    rw [List.map_map]
    exact sum_le (fun m _ => Nat.add_le_add_left (single_room m) 2)
  | multiple l =>
    cases e
    rw [List.map_map]
    exact sum_le (fun m _ => Nat.add_le_add_left (multi2_room m) 2)
  | alternate l =>
    cases e
    rw [List.map_map]
    exact sum_le (fun m _ => Nat.add_le_add_left (multi3_room m) 2)
  | ligature l =>
    rw [Subst.subs] at e
    have key : ∀ l : List LigSubst, (∀ m ∈ l, BMap.Sorted m ∧ ∀ x ∈ m, x.1 ≠ []) →
        ∃ ls, Res.mapL LigSubst.toLow l = .ok ls ∧
          (ls.map (fun x => 2 + taken SubX.tab (.plain x))).sum ≤ (l.map (fun m => 2 + ligatureRoom m)).sum := by
      intro l
      induction l with
      | nil => intro _; exact ⟨[], rfl, Nat.le_refl _⟩
      | cons m l ih =>
        intro hm
        obtain ⟨ls, h1, h2⟩ := ih (fun x hx => hm x (by simp [hx]))
        obtain ⟨low, h3, h4⟩ := ligatures_room m (hm m (by simp)).1 (hm m (by simp)).2
        refine ⟨low :: ls, by simp only [Res.mapL, h3, h1], ?_⟩
        simp only [List.map_cons, List.sum_cons]
        exact Nat.add_le_add (Nat.add_le_add_left h4 2) h2
    obtain ⟨ls, h1, h2⟩ := key l (fun m hm => ⟨(h.2 m hm).1, fun x hx => ((h.2 m hm).2.2 x hx).1⟩)
    rw [h1] at e
    cases e
    rw [List.map_map]
    exact h2
  | contextual l =>
    cases e
    rw [List.map_map]
    exact sum_le (fun m _ => Nat.add_le_add_left (context_room m) 2)
  | chained l =>
    cases e
    rw [List.map_map]
    exact sum_le (fun m _ => Nat.add_le_add_left (chain_room m) 2)
  | reverse l =>
    cases e
    rw [List.map_map]
    exact sum_le (fun m _ => Nat.add_le_add_left (reverse_room m) 2)

/-- The outer part, for GSUB and GPOS tables alike. -/
theorem layout_room {R S : Type} {ty : R → UInt16} {subs : R → Res (List S)} {f : S → Res Tab} {r : R → Nat} {g : GposGsub R}
    (hr : ∀ l ∈ g.lookups, ∀ ss, subs l.rule = .ok ss → (ss.map (fun x => 2 + taken f x)).sum ≤ r l.rule)
    {low : TableLow S} {T : Tab} (e : g.toLow ty subs = .ok low) (e2 : TableLow.tab f low = .ok T) :
    total T ≤ tableRoom r g := by
  unfold GposGsub.toLow at e
  cases e1 : Res.mapL (Lookup.toLow ty subs) g.lookups with
  | err => rw [e1] at e; cases e
  | panic => rw [e1] at e; cases e
  | ok ls =>
    rw [e1] at e
    cases e
    have h := table_room (room_taken f) rfl rfl rfl e2
    have hl : ∀ (l : List (Lookup R)) (ls : List (LookupLow S)), (∀ x ∈ l, x ∈ g.lookups) →
        Res.mapL (Lookup.toLow ty subs) l = .ok ls →
        (ls.map (fun l => 2 + (8 + (l.subs.map (fun s => 2 + taken f s)).sum))).sum ≤ (l.map (fun l => 10 + r l.rule)).sum := by
      intro l
      induction l with
      | nil => intro ls _ e; cases e; exact Nat.le_refl _
      | cons x l ih =>
        intro ls hx e
        rw [Res.mapL] at e
        cases e3 : Lookup.toLow ty subs x with
        | err => rw [e3] at e; cases e
        | panic => rw [e3] at e; cases e
        | ok y =>
          rw [e3] at e
          dsimp only at e
          cases e4 : Res.mapL (Lookup.toLow ty subs) l with
          | err => rw [e4] at e; cases e
          | panic => rw [e4] at e; cases e
          | ok ys =>
            rw [e4] at e
            cases e
            have i1 := ih ys (fun z hz => hx z (by simp [hz])) e4
            simp only [List.map_cons, List.sum_cons]
            rw [Lookup.toLow] at e3
            cases e5 : subs x.rule with
            | err => rw [e5] at e3; cases e3
            | panic => rw [e5] at e3; cases e3
            | ok ss =>
              rw [e5] at e3
              cases e3
              have := hr x (hx x (by simp)) ss e5
              dsimp only at this ⊢
              omega
    have h1 := hl g.lookups ls (fun _ h => h) e1
    have h2 : (g.scripts.toLow.map (fun x => 6 + x.2.elim 0 (fun s => (2 + s.dflt.elim 0 (fun l => 6 + 2 * l.features.length)) +
        (2 + (s.langs.map (fun x => 6 + x.2.elim 0 (fun l => 6 + 2 * l.features.length))).sum)))).sum + 2 = scriptsRoom g.scripts := by
      unfold scriptsRoom ScriptList.toLow
      rw [List.map_map, Nat.add_comm]
      congr 2
      apply List.map_congr_left
      intro x _
      simp only [Function.comp_def, Option.elim, scriptRoom, Script.toLow, List.map_map, languageRoom, LanguageSystem.toLow,
        List.length_map]
      cases x.2.dflt with
      | none => simp only [Option.map]; omega
      | some d => simp only [Option.map, List.length_map, languageRoom, LanguageSystem.toLow]; omega
    have h3 : (g.features.toLow.map (fun x => 6 + x.2.elim 0 (fun t => 4 + 2 * t.lookups.length))).sum + 2 =
        featuresRoom g.features := by
      unfold featuresRoom FeatureList.toLow
      rw [List.map_map, Nat.add_comm]
      congr 2
      apply List.map_congr_left
      intro x _
      simp only [Function.comp_def, Option.elim, List.length_map]
      omega
    unfold tableRoom
    omega

theorem written_length {t : Tab} {bs : Bytes} (h : Off.toBytes t = .ok bs) : bs.length = total t := by
  obtain ⟨t', hd, D, V, g0, g1, g2, g3, rfl⟩ := toBytes_parts h
  have hsz := resolve_sizes _ _ _ _ _ g0
  have l1 := size_shallow _ _ g1
  have l2 := descSize_serDesc _ _ _ g2
  have l3 := descSize_serDesc _ _ _ g3
  rw [hsz.1] at l1
  rw [hsz.2] at l2 l3
  simp only [List.length_append, total]
  omega

/-- **C56** (small tables). A GSUB table whose contents fit the format and need at most 65535 bytes, counting generously, is
written, and with at most as many bytes. -/
theorem C56_small (g : GSUB) (h : GsubOk g) (hr : tableRoom substRoom g ≤ 65535) :
    ∃ bs, GSUB.toBytes g = .ok bs ∧ bs.length ≤ tableRoom substRoom g := by
  obtain ⟨low, tab, e1, e2, _, h2⟩ := C56_writes g h
  have ht := layout_room (r := substRoom) (fun l hl ss e => subst_room l.rule (h.2.1 l hl).1 e) e1 e2
  obtain ⟨bs, hb⟩ := h2 (by omega)
  refine ⟨bs, hb, ?_⟩
  have e3 : Off.toBytes tab = .ok bs := by
    unfold GSUB.toBytes GposGsub.toBytes at hb
    rw [e1] at hb
    simp only [Res.ok_bind] at hb
    rw [e2] at hb
    exact hb
  rw [written_length e3]
  exact ht

/-- The sample table with a lookup of each of several kinds needs at most 270 bytes, and is written. -/
example : tableRoom substRoom sampleGsub = 270 ∧ ∃ bs, GSUB.toBytes sampleGsub = .ok bs ∧ bs.length ≤ 270 := by
  have h : tableRoom substRoom sampleGsub = 270 := by decide +kernel
  have := C56_small sampleGsub sampleGsub_ok (by omega)
  rw [h] at this
  exact ⟨h, this⟩

end FT.Props
