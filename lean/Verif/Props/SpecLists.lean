import Verif.Props.SpecLink
import Verif.Model.LayoutTables
import Verif.Lemmas.LayoutTables
import Verif.Props.ValueRecord

/-!
# C82: the bytes of script, feature and lookup lists

Written GSUB and GPOS tables, compared with the OpenType specification down to the subtables.
-/

namespace FT.Props
open FT FT.Off FT.Lay

/-! ### Specification -/

/-- A 16-bit count and that many records of a tag and an offset. -/
def taggedRows {β : Type} (P : β → Bytes → Nat → Prop) (l : List (Tag × β)) : List Cell :=
  .num 2 l.length :: l.flatMap (fun x => [tag x.1, .ref 2 (P x.2)])

/-- A LangSys table: the reserved `lookupOrder`, the required feature (0xFFFF if there is none), the other features. -/
def langRows (l : LanguageSystem) : List Cell :=
  [.num 2 0, .num 2 ((l.required.getD 65535 : Nat) : ℤ), .num 2 l.features.length] ++ l.features.map (fun i => .num 2 (i : Nat))

/-- A Script table: the default language system, then the others by tag. -/
def scriptRows (s : Script) : List Cell :=
  linked (fun l => At (langRows l)) s.dflt :: taggedRows (fun l => At (langRows l)) s.langs

/-- A Feature table without parameters: the lookups it turns on. -/
def featureRows (lookups : List Nat) : List Cell :=
  [.num 2 0, .num 2 lookups.length] ++ lookups.map (fun i => .num 2 (i : Nat))

/-- A Lookup table: type, flags, subtables, and the mark filtering set if bit 4 of the flags says that there is one. -/
def lookupRows {R : Type} (ty : R → Nat) (subtables : R → List (Bytes → Nat → Prop)) (l : Lookup R) : List Cell :=
  [.num 2 (ty l.rule), u16 l.flags, .num 2 (subtables l.rule).length] ++ (subtables l.rule).map (.ref 2) ++
    (if l.flags.toNat.testBit 4 then l.mfs.toList.map u16 else [])

/-- A GSUB or GPOS table, version 1.0, given the type number and the subtables of each rule. -/
def layoutRows {R : Type} (ty : R → Nat) (subtables : R → List (Bytes → Nat → Prop)) (g : GposGsub R) : List Cell :=
  [.num 2 1, .num 2 0,
   .ref 2 (At (taggedRows (fun s => At (scriptRows s)) g.scripts)),
   .ref 2 (At (taggedRows (fun x => At (featureRows x.1)) g.features)),
   .ref 2 (At (.num 2 g.lookups.length :: g.lookups.map (fun l => .ref 2 (At (lookupRows ty subtables l)))))]

/-! ### Proofs -/

theorem mapL_map_arg {α β γ : Type} {f : β → Res γ} {g : α → β} : ∀ (l : List α),
    Res.mapL f (l.map g) = Res.mapL (fun a => f (g a)) l
  | [] => rfl
  | a :: l => by rw [List.map_cons, Res.mapL, Res.mapL, mapL_map_arg l]

theorem mapL_same_length {α β : Type} {f : α → Res β} : ∀ {l : List α} {bs : List β}, Res.mapL f l = .ok bs →
    bs.length = l.length
  | [], bs, h => by cases h; rfl
  | a :: l, bs, h => by
    rw [Res.mapL] at h
    split at h
    · split at h
      · next e => cases h; simp [mapL_same_length e]
      · cases h
      · cases h
    · cases h
    · cases h

theorem pics_tagged {α β : Type} {P : β → Bytes → Nat → Prop} {f : α → Res Tab} {g : β → α} {l : List (Tag × β)} {t : Tab}
    (h : tagRecs f (l.map (fun x => (x.1, some (g x.2)))) = .ok t)
    (hf : ∀ x ∈ l, ∀ t, f (g x.2) = .ok t → PicsAt t (P x.2)) : Pics t (taggedRows P l) := by
  unfold tagRecs at h
  rw [mapL_map_arg] at h
  split at h
  · next ts e =>
    cases h
    rw [List.length_map]
    refine (lays_len _).pics.cons (pics_list e fun x hx t ht => ?_)
    simp only [tagRecTab] at ht
    split at ht
    · next u hu =>
      cases ht
      have := pics_opt (P := fun a => P x.2) hu fun a ha t ht => hf x hx t (by cases ha; exact ht)
      exact (lays_tag x.1).pics.cons this
    · cases ht
    · cases ht
  · cases h
  · cases h

theorem lays_indices (l : List Nat) : Lays (u16s (l.map UInt16.ofNat)) (.num 2 l.length :: l.map (fun i => .num 2 (i : Nat))) := by
  unfold u16s encCounted
  rw [List.length_map]
  refine (lays_len _).cons ?_
  induction l with
  | nil => exact lays_nil
  | cons a l ih => rw [List.map_cons, encVec_cons]; exact (lays_len a).cons ih

theorem lang_pics {l : LanguageSystem} {t : Tab} (h : LangSys.tab l.toLow = .ok t) : Pics t (langRows l) := by
  cases h
  exact ((lays_len 0).cons ((lays_len _).cons (lays_indices _))).pics

theorem script_pics {s : Script} {t : Tab} (h : ScriptLow.tab s.toLow = .ok t) : Pics t (scriptRows s) := by
  unfold ScriptLow.tab at h
  obtain ⟨d, hd, h⟩ := Res.bind_inv h
  obtain ⟨r, hr, h⟩ := Res.bind_inv h
  cases h
  refine Pics.cons ?_ (pics_tagged (g := LanguageSystem.toLow) hr fun x _ t ht => (lang_pics ht).at)
  cases hs : s.dflt with
  | none =>
    simp only [Script.toLow, hs] at hd
    cases hd
    exact pics_null .w16
  | some l =>
    simp only [Script.toLow, hs] at hd
    exact pics_opt (P := fun _ => At (langRows l)) hd fun a ha t ht => by cases ha; exact (lang_pics ht).at

theorem feature_pics {x : List Nat × Option FeatureParams} {t : Tab}
    (h : FeatureTable.tab ⟨0, x.1.map UInt16.ofNat⟩ = .ok t) : Pics t (featureRows x.1) := by
  cases h
  exact ((lays_len 0).cons (lays_indices _)).pics

theorem usesMfs_bit (f : UInt16) : usesMfs f = f.toNat.testBit 4 := has_bit (b := 0x10) rfl f

theorem refs_pics {S : Type} {f : S → Res Tab} : ∀ {ss : List S} {Ps : List (Bytes → Nat → Prop)} {ts : List Tab},
    List.Forall₂ (fun s P => ∀ t, f s = .ok t → PicsAt t P) ss Ps →
    Res.mapL (fun s => optOff true f (some s)) ss = .ok ts → Pics (Tab.concat ts) (Ps.map (.ref 2))
  | [], _, ts, h, e => by cases h; cases e; exact pics_nil
  | s :: ss, _, ts, .cons (b := P) (l₂ := Ps) h h', e => by
    rw [Res.mapL] at e
    split at e
    · next u hu =>
      split at e
      · next ts' hts =>
        cases e
        exact (pics_opt (P := fun _ => P) hu fun a ha t ht => by cases ha; exact h t ht).append (refs_pics h' hts)
      · cases e
      · cases e
    · cases e
    · cases e

theorem lookups_pics {R S : Type} {ty : R → UInt16} {subs : R → Res (List S)} {f : S → Res Tab}
    {tyN : R → Nat} {subtables : R → List (Bytes → Nat → Prop)} (hty : ∀ r, (ty r).toNat = tyN r) :
    ∀ {lookups : List (Lookup R)} {ls : List (LookupLow S)} {ts : List Tab},
    (∀ l ∈ lookups, ∀ ss, subs l.rule = .ok ss →
      List.Forall₂ (fun s P => ∀ t, f s = .ok t → PicsAt t P) ss (subtables l.rule)) →
    Res.mapL (Lookup.toLow ty subs) lookups = .ok ls →
    Res.mapL (fun l => optOff true (lookupTab f) (some l)) ls = .ok ts →
    Pics (Tab.concat ts) (lookups.map (fun l => .ref 2 (At (lookupRows tyN subtables l)))) := by
  intro lookups
  induction lookups with
  | nil => intro ls ts hsub hls hts; cases hls; cases hts; exact pics_nil
  | cons a l ih =>
    intro ls ts hsub hls hts
    rw [Res.mapL] at hls
    split at hls
    case h_2 => cases hls
    case h_3 => cases hls
    next low hlow =>
    split at hls
    case h_2 => cases hls
    case h_3 => cases hls
    next ls' hls' =>
    cases hls
    rw [Res.mapL] at hts
    split at hts
    case h_2 => cases hts
    case h_3 => cases hts
    next u hu =>
    split at hts
    case h_2 => cases hts
    case h_3 => cases hts
    next ts' hts' =>
    cases hts
    refine Pics.append (r := [_]) ?_ (ih (fun l hl => hsub l (by simp [hl])) hls' hts')
    refine pics_opt (P := fun _ => At (lookupRows tyN subtables a)) hu fun b hb t ht => ?_
    cases hb
    refine Pics.at ?_
    unfold Lookup.toLow at hlow
    split at hlow
    case h_2 => cases hlow
    case h_3 => cases hlow
    next ss hss =>
    cases hlow
    unfold lookupTab at ht
    simp only at ht
    split at ht
    case h_2 => cases ht
    case h_3 => cases ht
    next vs hvs =>
    cases ht
    have hsf := hsub a (by simp) ss hss
    have h1 : Pics (.bytes (encU16 (ty a.rule))) [.num 2 (tyN a.rule)] := by
      rw [← hty]; exact (lays_u16 _).pics
    refine h1.cons ((lays_u16 _).pics.cons (Pics.cons ?_ ((refs_pics hsf hvs).append ?_)))
    · rw [hsf.length_eq]; exact (lays_len _).pics
    · unfold mfsTab
      rw [usesMfs_bit]
      split
      · cases a.mfs with
        | none => exact pics_nil
        | some x => exact (lays_u16 x).pics
      · exact pics_nil

/-- A layout table shows the rows, if its subtables are what they should be. -/
theorem layout_shows {R S : Type} {ty : R → UInt16} {subs : R → Res (List S)} {f : S → Res Tab}
    {tyN : R → Nat} {subtables : R → List (Bytes → Nat → Prop)} {g : GposGsub R}
    (hty : ∀ r, (ty r).toNat = tyN r)
    (hsub : ∀ l ∈ g.lookups, ∀ ss, subs l.rule = .ok ss →
      List.Forall₂ (fun s P => ∀ t, f s = .ok t → PicsAt t P) ss (subtables l.rule))
    {bs : Bytes} (h : GposGsub.toBytes ty subs f g = .ok bs) : At (layoutRows tyN subtables g) bs 0 := by
  unfold GposGsub.toBytes at h
  obtain ⟨low, hlow, h⟩ := Res.bind_inv h
  obtain ⟨t, ht, h⟩ := Res.bind_inv h
  refine pics_bytes ?_ h
  unfold GposGsub.toLow at hlow
  split at hlow
  case h_2 => cases hlow
  case h_3 => cases hlow
  next ls hls =>
  cases hlow
  unfold TableLow.tab at ht
  obtain ⟨s, hs, ht⟩ := Res.bind_inv ht
  obtain ⟨fe, hfe, ht⟩ := Res.bind_inv ht
  obtain ⟨l, hl, ht⟩ := Res.bind_inv ht
  cases ht
  refine (lays_len 1).pics.cons ((lays_len 0).pics.cons (Pics.cons ?_ (Pics.cons ?_ ?_)))
  · refine pics_opt (P := fun _ => At (taggedRows (fun s => At (scriptRows s)) g.scripts)) hs fun a ha t ht => ?_
    cases ha
    exact (pics_tagged (g := Script.toLow) ht fun x _ t ht => (script_pics ht).at).at
  · refine pics_opt (P := fun _ => At (taggedRows (fun x => At (featureRows x.1)) g.features)) hfe fun a ha t ht => ?_
    cases ha
    exact (pics_tagged (f := FeatureTable.tab) (P := fun x => At (featureRows x.1))
      (g := fun x : List Nat × Option FeatureParams => (⟨0, x.1.map UInt16.ofNat⟩ : FeatureTable)) ht fun x _ t ht => (feature_pics (x := x.2) ht).at).at
  · refine pics_opt (P := fun _ => At (.num 2 g.lookups.length ::
      g.lookups.map (fun l => .ref 2 (At (lookupRows tyN subtables l))))) hl fun a ha t ht => ?_
    cases ha
    refine Pics.at ?_
    unfold lookupListTab offVec at ht
    split at ht
    case h_2 => cases ht
    case h_3 => cases ht
    next ts hts =>
    cases ht
    rw [mapL_map_arg] at hts
    have hlen : ls.length = g.lookups.length := mapL_same_length hls
    rw [List.length_map, hlen]
    refine (lays_len _).pics.cons ?_
    exact lookups_pics hty hsub hls hts

end FT.Props
