import Verif.Lemmas.DeriveTab
import Verif.Model.LayoutTables
import Verif.Lemmas.Reads

/-! How much room tables take, field by field. -/

namespace FT.Props
open FT FT.Lay FT.Off

theorem total_append (t u : Tab) : total (t.append u) = total t + total u := by
  unfold total
  rw [size_append, descSize_append, descSize_append]
  omega

theorem total_bytes (b : Bytes) : total (.bytes b) = b.length := rfl

theorem total_nil : total .nil = 0 := rfl

theorem total_concat : ∀ l : List Tab, total (Tab.concat l) = (l.map total).sum
  | [] => rfl
  | t :: l => by
    rw [Tab.concat, total_append, total_concat l, List.map_cons, List.sum_cons]

theorem total_link (w : Width) (v o : Bool) (x : Option Nat) (t : Tab) : total (.link w v o x t .nil) = w.size + total t := by
  unfold total
  simp only [size, descSize]
  cases v <;> simp <;> omega

/-- Whatever `f` writes for `a` takes at most `b a` bytes, with everything behind it. -/
def Room {α : Type} (f : α → Res Tab) (b : α → Nat) : Prop := ∀ a T, f a = .ok T → total T ≤ b a

theorem mapL_room {α : Type} {f : α → Res Tab} {b : α → Nat} (h : Room f b) :
    ∀ (l : List α) (ts : List Tab), Res.mapL f l = .ok ts → total (Tab.concat ts) ≤ (l.map b).sum
  | [], ts, e => by
    cases e
    exact Nat.le_refl _
  | a :: l, ts, e => by
    rw [Res.mapL] at e
    cases e1 : f a with
    | err => rw [e1] at e; cases e
    | panic => rw [e1] at e; cases e
    | ok t =>
      rw [e1] at e
      dsimp only at e
      cases e2 : Res.mapL f l with
      | err => rw [e2] at e; cases e
      | panic => rw [e2] at e; cases e
      | ok ts' =>
        rw [e2] at e
        cases e
        rw [Tab.concat, total_append, List.map_cons, List.sum_cons]
        exact Nat.add_le_add (h a t e1) (mapL_room h l ts' e2)

theorem optOff_room {α : Type} {v : Bool} {f : α → Res Tab} {b : α → Nat} (h : Room f b) :
    Room (optOff v f) (fun x => 2 + x.elim 0 b) := by
  intro x T e
  cases x with
  | none => cases e; exact Nat.le_refl _
  | some a =>
    rw [optOff] at e
    cases e1 : f a with
    | err => rw [e1] at e; cases e
    | panic => rw [e1] at e; cases e
    | ok t =>
      rw [e1] at e
      cases e
      rw [total_link]
      exact Nat.add_le_add_left (h a t e1) 2

theorem offVec_room {α : Type} {f : α → Res Tab} {b : α → Nat} (h : Room f b) :
    Room (offVec f) (fun l => 2 + (l.map (fun x => 2 + x.elim 0 b)).sum) := by
  intro l T e
  rw [offVec] at e
  cases e1 : Res.mapL (optOff true f) l with
  | err => rw [e1] at e; cases e
  | panic => rw [e1] at e; cases e
  | ok ts =>
    rw [e1] at e
    cases e
    rw [total_append, total_bytes, encU16_length]
    exact Nat.add_le_add_left (mapL_room (optOff_room h) l ts e1) 2

theorem u16s_length (l : List UInt16) : (u16s l).length = 2 + 2 * l.length := by
  unfold u16s encCounted
  rw [List.length_append, encU16_length, encVec_length (k := 2) (fun _ => encU16_length _)]

theorem records_length : ∀ (sl : List (List UInt16)) (i : UInt16) (rs : List Coverage.RangeRecord),
    Coverage.records i sl = .ok rs → rs.length = sl.length
  | [], i, rs, e => by cases e; rfl
  | x :: sl, i, rs, e => by
    rw [Coverage.records] at e
    cases e1 : Res.unwrap x.head? with
    | err => rw [e1] at e; cases e
    | panic => rw [e1] at e; cases e
    | ok a =>
      cases e2 : Res.unwrap x.getLast? with
      | err => rw [e1, e2] at e; cases e
      | panic => rw [e1, e2] at e; cases e
      | ok b =>
        rw [e1, e2] at e
        simp only [Res.ok_bind] at e
        split at e
        · cases e
        · cases e3 : Coverage.records (UInt16.ofNat (i.toNat + (UInt16.ofNat x.length).toNat)) sl with
          | err => rw [e3] at e; cases e
          | panic => rw [e3] at e; cases e
          | ok rs' =>
            rw [e3] at e
            cases e
            rw [List.length_cons, List.length_cons, records_length sl _ rs' e3]

theorem covTab_room : Room covTab (fun gs => 4 + 2 * gs.length) := by
  intro gs T e
  unfold covTab at e
  cases e1 : Coverage.toBytes gs with
  | err => rw [e1] at e; cases e
  | panic => rw [e1] at e; cases e
  | ok bs =>
    rw [e1] at e
    cases e
    rw [total_bytes]
    unfold Coverage.toBytes at e1
    cases e2 : slices Coverage.brk gs with
    | err => rw [e2] at e1; cases e1
    | panic => rw [e2] at e1; cases e1
    | ok sl =>
      rw [e2] at e1
      simp only [Res.ok_bind] at e1
      split at e1
      · cases e1
        rw [List.length_append, encU16_length]
        have := u16s_length gs
        unfold u16s at this
        show _ ≤ 4 + 2 * gs.length
        omega
      · rename_i hf
        have hlt : sl.length * 3 < gs.length := by
          unfold Coverage.format at hf
          apply Nat.lt_of_not_le
          intro hn
          apply hf
          rw [if_pos]
          simp [hn]
        cases e3 : Coverage.records 0 sl with
        | err => rw [e3] at e1; cases e1
        | panic => rw [e3] at e1; cases e1
        | ok rs =>
          rw [e3] at e1
          cases e1
          rw [List.length_append, List.length_append, encU16_length, encU16_length,
            encVec_length (k := 6) (fun _ => rfl), records_length sl 0 rs e3]
          show _ ≤ 4 + 2 * gs.length
          omega

theorem tagRecs_room {α : Type} {f : α → Res Tab} {b : α → Nat} (h : Room f b) :
    Room (tagRecs f) (fun l => 2 + (l.map (fun x => 6 + x.2.elim 0 b)).sum) := by
  intro l T e
  rw [tagRecs] at e
  cases e1 : Res.mapL (tagRecTab f) l with
  | err => rw [e1] at e; cases e
  | panic => rw [e1] at e; cases e
  | ok ts =>
    rw [e1] at e
    cases e
    rw [total_append, total_bytes, encU16_length]
    refine Nat.add_le_add_left (mapL_room (b := fun x => 6 + x.2.elim 0 b) ?_ l ts e1) 2
    intro x T e2
    rw [tagRecTab] at e2
    cases e3 : optOff true f x.2 with
    | err => rw [e3] at e2; cases e2
    | panic => rw [e3] at e2; cases e2
    | ok t =>
      rw [e3] at e2
      cases e2
      have := optOff_room h x.2 t e3
      rw [total_append, total_bytes]
      have h4 : (encTag x.1).length = 4 := rfl
      dsimp only at this ⊢
      omega

theorem langSys_room : Room LangSys.tab (fun l => 6 + 2 * l.features.length) := by
  intro l T e
  cases e
  rw [total_bytes]
  simp only [List.length_append, encU16_length, u16s_length]
  omega

theorem script_room : Room ScriptLow.tab (fun s => (2 + s.dflt.elim 0 (fun l => 6 + 2 * l.features.length)) +
    (2 + (s.langs.map (fun x => 6 + x.2.elim 0 (fun l => 6 + 2 * l.features.length))).sum)) := by
  intro s T e
  rw [ScriptLow.tab] at e
  cases e1 : optOff false LangSys.tab s.dflt with
  | err => rw [e1] at e; cases e
  | panic => rw [e1] at e; cases e
  | ok d =>
    cases e2 : tagRecs LangSys.tab s.langs with
    | err => rw [e1, e2] at e; cases e
    | panic => rw [e1, e2] at e; cases e
    | ok r =>
      rw [e1, e2] at e
      cases e
      rw [total_append]
      exact Nat.add_le_add (optOff_room langSys_room _ d e1) (tagRecs_room langSys_room _ r e2)

theorem feature_room : Room FeatureTable.tab (fun t => 4 + 2 * t.lookups.length) := by
  intro t T e
  cases e
  rw [total_bytes]
  simp only [List.length_append, encU16_length, u16s_length]
  omega

theorem lookup_room {S : Type} {f : S → Res Tab} {b : S → Nat} (h : Room f b) :
    Room (lookupTab f) (fun l => 8 + (l.subs.map (fun s => 2 + b s)).sum) := by
  intro l T e
  rw [lookupTab] at e
  cases e1 : Res.mapL (fun s => optOff true f (some s)) l.subs with
  | err => rw [e1] at e; cases e
  | panic => rw [e1] at e; cases e
  | ok ts =>
    rw [e1] at e
    cases e
    have := mapL_room (f := fun s => optOff true f (some s)) (b := fun s => 2 + b s)
      (fun s T e => optOff_room h (some s) T e) l.subs ts e1
    simp only [total_append, total_bytes, encU16_length]
    have hm : total (mfsTab l.flag l.mfs) ≤ 2 := by
      unfold mfsTab
      split
      · split
        · rw [total_bytes, encU16_length]; omega
        · rw [total_nil]; omega
      · rw [total_nil]; omega
    omega

theorem table_room {S : Type} {f : S → Res Tab} {b : S → Nat} (h : Room f b) {t : TableLow S} {T : Tab}
    {ss : ScriptListLow} {fs : FeatureListLow} {ls : List (LookupLow S)}
    (hs : t.scripts = some ss) (hf : t.features = some fs) (hl : t.lookups = some (ls.map some)) (e : TableLow.tab f t = .ok T) :
    total T ≤ 16 + (ss.map (fun x => 6 + x.2.elim 0 (fun s => (2 + s.dflt.elim 0 (fun l => 6 + 2 * l.features.length)) +
        (2 + (s.langs.map (fun x => 6 + x.2.elim 0 (fun l => 6 + 2 * l.features.length))).sum)))).sum +
      (fs.map (fun x => 6 + x.2.elim 0 (fun t => 4 + 2 * t.lookups.length))).sum +
      (ls.map (fun l => 2 + (8 + (l.subs.map (fun s => 2 + b s)).sum))).sum := by
  rw [TableLow.tab, hs, hf, hl] at e
  cases e1 : optOff false scriptListTab (some ss) with
  | err => rw [e1] at e; cases e
  | panic => rw [e1] at e; cases e
  | ok d =>
    cases e2 : optOff false featureListTab (some fs) with
    | err => rw [e1, e2] at e; cases e
    | panic => rw [e1, e2] at e; cases e
    | ok r =>
      cases e3 : optOff false (lookupListTab f) (some (ls.map some)) with
      | err => rw [e1, e2, e3] at e; cases e
      | panic => rw [e1, e2, e3] at e; cases e
      | ok q =>
        rw [e1, e2, e3] at e
        cases e
        have h1 := optOff_room (tagRecs_room script_room) (some ss) d e1
        have h2 := optOff_room (tagRecs_room feature_room) (some fs) r e2
        have h3 := optOff_room (offVec_room (lookup_room h)) (some (ls.map some)) q e3
        simp only [Option.elim, List.map_map, Function.comp_def] at h1 h2 h3
        simp only [total_append, total_bytes, encU16_length, Option.elim]
        omega

end FT.Props
