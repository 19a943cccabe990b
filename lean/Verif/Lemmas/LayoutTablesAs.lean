import Verif.Lemmas.LayoutTables
import Verif.Lemmas.Gpos

/-!
Lookup lists and tables whose subtables are read back in another form than they were written from (`n s` for `s`).
-/

namespace FT
open Reader FT.Off FT.Props FT.Lay FT.Gsub

theorem readsTab_optOffAs {α : Type} {f : α → Res Tab} {q : Reader α} {n : α → α} (vec : Bool) (x : Option α)
    (h : ∀ a, x = some a → WritesAs f q a (n a)) :
    ∃ t, optOff vec f x = .ok t ∧ ReadsTab (readOffset .w16 q) t (x.map n) := by
  cases x with
  | none => exact ⟨_, rfl, readsTab_null16 q⟩
  | some a =>
    obtain ⟨t, h1, h2⟩ := h a rfl
    exact ⟨_, by simp only [optOff, h1], readsTab_link16 vec false none h2⟩

theorem readsTab_deCountedAs {α : Type} {p : Reader α} {n : α → α} : ∀ {l : List α} {ts : List Tab},
    List.Forall₂ (fun a t => ReadsTab p t (n a)) l ts → ReadsTab (deCounted p l.length) (Tab.concat ts) (l.map n)
  | _, _, .nil => ReadsTab.pure []
  | _, _, .cons (a := a) h1 h2 =>
    ReadsTab.bind h1 (ReadsTab.map (fun l => n a :: l) (readsTab_deCountedAs h2))

theorem readsTab_offVecAs {α : Type} {f : α → Res Tab} {q : Reader α} {n : α → α} (l : List (Option α))
    (hl : l.length ≤ 65535) (h : ∀ a, some a ∈ l → WritesAs f q a (n a)) :
    ∃ t, offVec f l = .ok t ∧ ReadsTab (readOffVec q) t (l.map (Option.map n)) := by
  obtain ⟨ts, h1, h2⟩ := mapL_ok (f := optOff true f) l (fun a t => ReadsTab (readOffset .w16 q) t (a.map n))
    (fun a ha => readsTab_optOffAs true a (fun b hb => h b (hb ▸ ha)))
  refine ⟨_, by simp only [offVec, h1]; rfl, ?_⟩
  refine ReadsTab.bind (readsTab_u16 _) ?_
  rw [ofNat16_toNat hl]
  exact readsTab_deCountedAs h2

/-- A lookup as it is read back. -/
def backLookup {S : Type} (n : S → S) (l : LookupLow S) : LookupLow S := { l with subs := l.subs.map n }

theorem writesAs_lookup {S : Type} {f : S → Res Tab} {q : Nat → Reader S} {n : S → S} (l : LookupLow S)
    (hf : LookupFits l) (h : ∀ s ∈ l.subs, WritesAs f (q l.type.toNat) s (n s)) :
    WritesAs (lookupTab f) (readLookup q) l (backLookup n l) := by
  obtain ⟨ts, h1, h2⟩ := mapL_ok (f := fun s => optOff true f (some s)) l.subs
    (fun s t => ReadsTab (readSubAt (q l.type.toNat)) t (n s))
    (fun s hs => by
      obtain ⟨t, e, r⟩ := h s hs
      exact ⟨_, by simp only [optOff, e], readsTab_subAt true false none r⟩)
  refine ⟨_, by simp only [lookupTab, h1]; rfl, ReadsTab.inTable ?_⟩
  refine ReadsTab.bind (readsTab_u16 _) (ReadsTab.bind (readsTab_u16 _) (ReadsTab.bind (readsTab_u16 _) ?_))
  rw [ofNat16_toNat hf.1]
  exact ReadsTab.bind (readsTab_deCountedAs h2)
    (ReadsTab.map (fun m => (⟨l.type, l.flag, l.subs.map n, m⟩ : LookupLow S)) (readsTab_mfs l.flag l.mfs hf.2))

/-- A table as it is read back. -/
def backTable {S : Type} (n : S → S) (t : TableLow S) : TableLow S :=
  { t with lookups := t.lookups.map (fun l => l.map (Option.map (backLookup n))) }

/-- A table whose lists fit and whose subtables are read back as `n` says. -/
def TableFitsAs {S : Type} (f : S → Res Tab) (q : Nat → Reader S) (n : S → S) (t : TableLow S) : Prop :=
  (∀ s, t.scripts = some s → ScriptListFits s) ∧ (∀ s, t.features = some s → FeatureListFits s) ∧
  ∀ l, t.lookups = some l → l.length ≤ 65535 ∧
    ∀ x, some x ∈ l → LookupFits x ∧ ∀ s ∈ x.subs, WritesAs f (q x.type.toNat) s (n s)

theorem readsTab_tableAs {S : Type} {f : S → Res Tab} {q : Nat → Reader S} {n : S → S} (t : TableLow S)
    (h : TableFitsAs f q n t) :
    ∃ tab, TableLow.tab f t = .ok tab ∧ ReadsTab (TableLow.read q) tab (backTable n t) ∧
      ∃ r, tab = (Tab.bytes (encU16 t.major)).append ((Tab.bytes (encU16 t.minor)).append r) := by
  obtain ⟨t1, e1, r1⟩ := readsTab_optOff false t.scripts (fun a ha => writes_scriptList a (h.1 a ha))
  obtain ⟨t2, e2, r2⟩ := readsTab_optOff false t.features (fun a ha => writes_featureList a (h.2.1 a ha))
  obtain ⟨t3, e3, r3⟩ := readsTab_optOffAs (f := lookupListTab f) (q := readLookupList q)
    (n := fun l => l.map (Option.map (backLookup n))) false t.lookups (fun a ha => by
      obtain ⟨h1, h2⟩ := h.2.2 a ha
      obtain ⟨t, e, r⟩ := readsTab_offVecAs (f := lookupTab f) (q := readLookup q) (n := backLookup n) a h1
        (fun x hx => writesAs_lookup x (h2 x hx).1 (h2 x hx).2)
      exact ⟨t, e, ReadsTab.inTable r⟩)
  refine ⟨_, by simp only [TableLow.tab, e1, e2, e3]; rfl, ?_, _, rfl⟩
  exact ReadsTab.bind (readsTab_u16 _) (ReadsTab.bind (readsTab_u16 _) (ReadsTab.bind r1 (ReadsTab.bind r2
    (ReadsTab.map (fun l => (⟨t.major, t.minor, t.scripts, t.features, l⟩ : TableLow S)) r3))))

/-- A version 1.0 table written on its own is read by `GposGsub.read` as the conversion of what is read back, also if
that conversion panics. -/
theorem read_tableAs {R S : Type} {f : S → Res Tab} {q : Nat → Reader S} {n : S → S} (rule : Nat → List S → Res R)
    (t : TableLow S) (h : TableFitsAs f q n t) (hmaj : t.major = 1) (hmin : t.minor = 0) :
    ∃ tab, TableLow.tab f t = .ok tab ∧ ∀ bs, Off.toBytes tab = .ok bs →
      ∃ r', GposGsub.read q rule (Rd.new bs) = Reader.lift (GposGsub.ofLow rule (backTable n t)) r' := by
  obtain ⟨tab, e, r, rest, htab⟩ := readsTab_tableAs t h
  refine ⟨tab, e, ?_⟩
  intro bs hbs
  obtain ⟨ext, h1, _, h3, h4⟩ := C05_offsets_right tab bs hbs [] []
  simp only [List.append_nil, List.nil_append, List.length_nil] at h1 h3 h4
  have hpeek : peek 4 (Rd.new bs) = .ok ([0, 1, 0, 0], Rd.new bs) := by
    rw [htab, hmaj, hmin] at h1
    obtain ⟨hp1, hp2, _⟩ := h1
    simp only [encU16, List.drop_zero, List.length_cons, List.length_nil] at hp1 hp2
    obtain ⟨p, ep⟩ := hp1
    rw [← ep] at hp2 ⊢
    obtain ⟨p', ep'⟩ := hp2
    simp only [List.cons_append, List.nil_append, List.drop_succ_cons, Nat.zero_add, List.drop_zero] at ep'
    rw [← ep']
    simp [peek, Rd.new]
  have hr := r bs 0 0 ext [] h1
  unfold GposGsub.read
  rw [Reader.bind_run, hpeek]
  simp only
  rw [if_pos trivial, Reader.bind_run]
  have : TableLow.read q (Rd.new bs) = .ok (backTable n t, ⟨bs, 0 + size tab, [0]⟩) := hr
  rw [this]
  exact ⟨_, rfl⟩

end FT
