import Verif.Model.LayoutTables
import Verif.Lemmas.Gsub

/-!
Script, feature and lookup lists: writers and readers fit together.
-/

namespace FT
open Reader FT.Off FT.Props FT.Lay FT.Gsub

theorem writes_langSys (l : LangSys) (h : l.features.length ≤ 65535) : Writes LangSys.tab LangSys.read l := by
  refine ⟨_, rfl, Reads.child ?_⟩
  exact Reads.bind (reads_u16 _) (Reads.bind (reads_u16 _) (Reads.map (fun c => (⟨l.lookupOrder, l.required, c⟩ : LangSys))
    (reads_u16s l.features h)))

theorem writes_featureTable (l : FeatureTable) (h : l.lookups.length ≤ 65535) :
    Writes FeatureTable.tab FeatureTable.read l := by
  refine ⟨_, rfl, Reads.child ?_⟩
  exact Reads.bind (reads_u16 _) (Reads.map (fun c => (⟨l.params, c⟩ : FeatureTable)) (reads_u16s l.lookups h))

theorem readsTab_tagRecs {α : Type} {f : α → Res Tab} {q : Reader α} (l : List (Tag × Option α)) (hl : l.length ≤ 65535)
    (ht : ∀ x ∈ l, x.1.Valid) (h : ∀ x ∈ l, ∀ a, x.2 = some a → Writes f q a) :
    ∃ t, tagRecs f l = .ok t ∧ ReadsTab (readTagRecs q) t l := by
  obtain ⟨ts, h1, h2⟩ := mapL_ok (f := tagRecTab f) l (fun a t => ReadsTab (readTagRec q) t a)
    (fun x hx => by
      obtain ⟨t, e, ht'⟩ := readsTab_optOff true x.2 (h x hx)
      refine ⟨_, by simp only [tagRecTab, e]; rfl, ?_⟩
      exact ReadsTab.bind (readsTab_tag x.1 (ht x hx)) (ReadsTab.map (fun y => (x.1, y)) ht'))
  refine ⟨_, by simp only [tagRecs, h1]; rfl, ?_⟩
  refine ReadsTab.bind (readsTab_u16 _) ?_
  rw [ofNat16_toNat hl]
  exact readsTab_deCountedF h2

/-- A language system that fits its 16-bit count. -/
def LangSysFits (l : LangSys) : Prop := l.features.length ≤ 65535

def ScriptFits (s : ScriptLow) : Prop := (∀ l, s.dflt = some l → LangSysFits l) ∧ s.langs.length ≤ 65535 ∧
  ∀ x ∈ s.langs, x.1.Valid ∧ ∀ l, x.2 = some l → LangSysFits l

theorem writes_script (s : ScriptLow) (h : ScriptFits s) : Writes ScriptLow.tab ScriptLow.read s := by
  obtain ⟨t1, e1, r1⟩ := readsTab_optOff false s.dflt (f := LangSys.tab) (q := LangSys.read)
    (fun a ha => writes_langSys a (h.1 a ha))
  obtain ⟨t2, e2, r2⟩ := readsTab_tagRecs (f := LangSys.tab) (q := LangSys.read) s.langs h.2.1
    (fun x hx => (h.2.2 x hx).1) (fun x hx a ha => writes_langSys a ((h.2.2 x hx).2 a ha))
  refine ⟨t1.append t2, by simp only [ScriptLow.tab, e1, e2]; rfl, ReadsTab.inTable ?_⟩
  exact ReadsTab.bind r1 (ReadsTab.map (fun r => (⟨s.dflt, r⟩ : ScriptLow)) r2)

def ScriptListFits (l : ScriptListLow) : Prop := l.length ≤ 65535 ∧
  ∀ x ∈ l, x.1.Valid ∧ ∀ s, x.2 = some s → ScriptFits s

theorem writes_scriptList (l : ScriptListLow) (h : ScriptListFits l) : Writes scriptListTab readScriptList l := by
  obtain ⟨t, e, r⟩ := readsTab_tagRecs (f := ScriptLow.tab) (q := ScriptLow.read) l h.1
    (fun x hx => (h.2 x hx).1) (fun x hx a ha => writes_script a ((h.2 x hx).2 a ha))
  exact ⟨t, e, ReadsTab.inTable r⟩

def FeatureListFits (l : FeatureListLow) : Prop := l.length ≤ 65535 ∧
  ∀ x ∈ l, x.1.Valid ∧ ∀ t, x.2 = some t → t.lookups.length ≤ 65535

theorem writes_featureList (l : FeatureListLow) (h : FeatureListFits l) : Writes featureListTab readFeatureList l := by
  obtain ⟨t, e, r⟩ := readsTab_tagRecs (f := FeatureTable.tab) (q := FeatureTable.read) l h.1
    (fun x hx => (h.2 x hx).1) (fun x hx a ha => writes_featureTable a ((h.2 x hx).2 a ha))
  exact ⟨t, e, ReadsTab.inTable r⟩

theorem readsTab_subAt {S : Type} {q : Reader S} {c : Tab} {s : S} (vec opt : Bool) (o : Option Nat)
    (h : ReadsChild q c s) : ReadsTab (readSubAt q) (.link .w16 vec opt o c .nil) s := by
  intro B base pos ext stk hh
  obtain ⟨off, e1, e2, h1, h2, h3, h4, h5, _, _⟩ := hh
  have h2' : off ≤ 65535 := h2
  have hto : (UInt16.ofNat off).toNat = off := ofNat16_toNat h2'
  have h3' : encU16 (UInt16.ofNat off) <+: B.drop pos := h3
  have e := reads_of_prefix' (reads_u16 (UInt16.ofNat off)) h3' (base :: stk) (by simp)
  obtain ⟨ptr, hptr⟩ := h B (base + off) e1 (base :: stk) h4 h5
  unfold readSubAt
  rw [Reader.bind_run, e]
  simp only [hto]
  rw [Reader.bind_run]
  simp only [getPtr]
  rw [Reader.bind_run]
  simp only [topOfTable]
  rw [Reader.bind_run]
  simp only [setPtr]
  rw [Reader.bind_run, hptr]
  rfl

theorem readsTab_mfs (flag : UInt16) (mfs : Option UInt16) (h : mfs.isSome = usesMfs flag) :
    ReadsTab (readMfs flag) (mfsTab flag mfs) mfs := by
  unfold readMfs mfsTab
  cases mfs with
  | none =>
    rw [← h]
    exact ReadsTab.pure none
  | some x =>
    rw [← h]
    exact ReadsTab.map some (readsTab_u16 x)

/-- A lookup that fits its counts and has a mark filtering set exactly if its flag says so. -/
def LookupFits {S : Type} (l : LookupLow S) : Prop := l.subs.length ≤ 65535 ∧ l.mfs.isSome = usesMfs l.flag

theorem writes_lookup {S : Type} {f : S → Res Tab} {q : Nat → Reader S} (l : LookupLow S) (hf : LookupFits l)
    (h : ∀ s ∈ l.subs, Writes f (q l.type.toNat) s) : Writes (lookupTab f) (readLookup q) l := by
  obtain ⟨ts, h1, h2⟩ := mapL_ok (f := fun s => optOff true f (some s)) l.subs
    (fun s t => ReadsTab (readSubAt (q l.type.toNat)) t s)
    (fun s hs => by
      obtain ⟨t, e, r⟩ := h s hs
      exact ⟨_, by simp only [optOff, e], readsTab_subAt true false none r⟩)
  refine ⟨_, by simp only [lookupTab, h1]; rfl, ReadsTab.inTable ?_⟩
  refine ReadsTab.bind (readsTab_u16 _) (ReadsTab.bind (readsTab_u16 _) (ReadsTab.bind (readsTab_u16 _) ?_))
  rw [ofNat16_toNat hf.1]
  exact ReadsTab.bind (readsTab_deCountedF h2)
    (ReadsTab.map (fun m => (⟨l.type, l.flag, l.subs, m⟩ : LookupLow S)) (readsTab_mfs l.flag l.mfs hf.2))

def LookupListFits {S : Type} (f : S → Res Tab) (q : Nat → Reader S) (l : LookupListLow S) : Prop := l.length ≤ 65535 ∧
  ∀ x, some x ∈ l → LookupFits x ∧ ∀ s ∈ x.subs, Writes f (q x.type.toNat) s

theorem writes_lookupList {S : Type} {f : S → Res Tab} {q : Nat → Reader S} (l : LookupListLow S)
    (h : LookupListFits f q l) : Writes (lookupListTab f) (readLookupList q) l := by
  obtain ⟨t, e, r⟩ := readsTab_offVec (f := lookupTab f) (q := readLookup q) l h.1
    (fun a ha => writes_lookup a (h.2 a ha).1 (h.2 a ha).2)
  exact ⟨t, e, ReadsTab.inTable r⟩

def TableFits {S : Type} (f : S → Res Tab) (q : Nat → Reader S) (t : TableLow S) : Prop :=
  (∀ s, t.scripts = some s → ScriptListFits s) ∧ (∀ s, t.features = some s → FeatureListFits s) ∧
  ∀ l, t.lookups = some l → LookupListFits f q l

theorem readsTab_table {S : Type} {f : S → Res Tab} {q : Nat → Reader S} (t : TableLow S) (h : TableFits f q t) :
    ∃ tab, TableLow.tab f t = .ok tab ∧ ReadsTab (TableLow.read q) tab t ∧
      ∃ r, tab = (Tab.bytes (encU16 t.major)).append ((Tab.bytes (encU16 t.minor)).append r) := by
  obtain ⟨t1, e1, r1⟩ := readsTab_optOff false t.scripts (fun a ha => writes_scriptList a (h.1 a ha))
  obtain ⟨t2, e2, r2⟩ := readsTab_optOff false t.features (fun a ha => writes_featureList a (h.2.1 a ha))
  obtain ⟨t3, e3, r3⟩ := readsTab_optOff false t.lookups (fun a ha => writes_lookupList a (h.2.2 a ha))
  refine ⟨_, by simp only [TableLow.tab, e1, e2, e3]; rfl, ?_, _, rfl⟩
  exact ReadsTab.bind (readsTab_u16 _) (ReadsTab.bind (readsTab_u16 _) (ReadsTab.bind r1 (ReadsTab.bind r2
    (ReadsTab.map (fun l => (⟨t.major, t.minor, t.scripts, t.features, l⟩ : TableLow S)) r3))))

/-- A version 1.0 table written on its own is read by `GposGsub.read` as the conversion of its low-level form. -/
theorem read_table {R S : Type} {f : S → Res Tab} {q : Nat → Reader S} (rule : Nat → List S → Res R) (t : TableLow S)
    (h : TableFits f q t) (hmaj : t.major = 1) (hmin : t.minor = 0) :
    ∃ tab, TableLow.tab f t = .ok tab ∧ ∀ bs, Off.toBytes tab = .ok bs → ∀ g, GposGsub.ofLow rule t = .ok g →
      ∃ r', GposGsub.read q rule (Rd.new bs) = .ok (g, r') := by
  obtain ⟨tab, e, r, rest, htab⟩ := readsTab_table t h
  refine ⟨tab, e, ?_⟩
  intro bs hbs g hg
  obtain ⟨ext, h1, _, h3, h4⟩ := C05_offsets_right tab bs hbs [] []
  simp only [List.append_nil, List.nil_append, List.length_nil] at h1 h3 h4
  have hpeek : peek 4 (Rd.new bs) = .ok ([0, 1, 0, 0], Rd.new bs) := by
    rw [htab, hmaj, hmin] at h1
    obtain ⟨hp1, hp2, _⟩ := h1
    simp only [encU16, List.drop_zero, List.length_cons, List.length_nil] at hp1 hp2
    obtain ⟨p, ep⟩ := hp1
    rw [← ep] at hp2 ⊢
    obtain ⟨p', ep'⟩ := hp2
    simp only [List.cons_append, List.nil_append, List.drop_succ_cons, Nat.zero_add, List.drop_zero] at ep'
    rw [← ep']
    simp [peek, Rd.new]
  have hr := r bs 0 0 ext [] h1
  unfold GposGsub.read
  rw [Reader.bind_run, hpeek]
  simp only
  rw [if_pos trivial, Reader.bind_run]
  have : TableLow.read q (Rd.new bs) = .ok (t, ⟨bs, 0 + size tab, [0]⟩) := hr
  rw [this]
  simp only [Reader.lift, hg]
  exact ⟨_, rfl⟩

end FT
