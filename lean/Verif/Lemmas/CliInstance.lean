import Verif.Lemmas.CliFlat
import Verif.Model.CliInstance

/-! `ttf-instantiate`: what happens to the tables. -/

namespace FT.Cli
open FT FT.Store FT.Save FT.Tables FT.Glyf FT.Props FT.AxisMaps FT.Instancer

/-- What became of a table. -/
inductive Edit (V : Type) where
  | keep
  | gone
  | value (v : V)

def Edit.ofOption {V : Type} : Option V → Edit V
  | none => .gone
  | some v => .value v

def upd {V : Type} (c : Tag → Edit V) (t : Tag) (x : Edit V) : Tag → Edit V := fun t' => if t' = t then x else c t'

section
variable {G O : Type} {F : Fmt G O} {T : Tag → Option Bytes}

/-- One entry after the change. -/
def EntryAfter (F : Fmt G O) (T : Tag → Option Bytes) (t : Tag) (x : Option (Indep.Item (Loaded G O))) : Edit (Loaded G O) → Prop
  | .keep => Entry F T t x
  | .gone => x = none
  | .value v => x = some (.loaded ⟨t, none, v⟩)

/-- All tables after the changes. -/
def Changed (F : Fmt G O) (T : Tag → Option Bytes) (c : Tag → Edit (Loaded G O)) (a : ASt G O) : Prop :=
  ∀ t, EntryAfter F T t (a.store t) (c t)

theorem stands_changed {a : ASt G O} (h : Stands F T a) : Changed F T (fun _ => .keep) a := h

variable {c : Tag → Edit (Loaded G O)} {a a' : ASt G O}

theorem Changed.tagged (h : Changed F T c a) : Tagged a := by
  intro t tb e
  have := h t
  cases hc : c t with
  | keep => rw [hc] at this; exact (entry_loaded this e).1
  | gone => rw [hc] at this; unfold EntryAfter at this; rw [this] at e; cases e
  | value v => rw [hc] at this; unfold EntryAfter at this; rw [this] at e; cases e; rfl

theorem Changed.put (h : Changed F T c a) {t : Tag} {v : Loaded G O} (he : exec (indepMachine F) (.insertNew t v) a = .ok a') :
    Changed F T (upd c t (.value v)) a' := by
  cases he
  intro t'
  unfold upd
  by_cases e : t' = t
  · rw [if_pos e, e]
    show Indep.set _ _ _ _ = _
    simp [Indep.set]
  · rw [if_neg e]
    have : Indep.set a.store t (some (.loaded ⟨t, none, v⟩)) t' = a.store t' := by simp [Indep.set, e]
    show EntryAfter F T t' (Indep.set a.store t (some (.loaded ⟨t, none, v⟩)) t') (c t')
    rw [this]
    exact h t'

theorem exec_remove {t : Tag} (he : exec (indepMachine F) (.remove t) a = .ok a') : a'.store = Indep.set a.store t none := by
  unfold exec at he
  simp only [indepMachine, Indep.step] at he
  cases hs : a.store t with
  | none =>
    rw [hs] at he
    cases he
    funext t'
    unfold Indep.set
    split
    · next e => rw [e, hs]
    · rfl
  | some x => cases x <;> rw [hs] at he <;> cases he <;> rfl

theorem exec_remove_ok (F : Fmt G O) (t : Tag) (a : ASt G O) : ∃ a', exec (indepMachine F) (.remove t) a = .ok a' := by
  unfold exec
  simp only [indepMachine, Indep.step]
  cases hs : a.store t with
  | none => exact ⟨_, rfl⟩
  | some x => cases x <;> exact ⟨_, rfl⟩

theorem Changed.remove (h : Changed F T c a) {t : Tag} (he : exec (indepMachine F) (.remove t) a = .ok a') :
    Changed F T (upd c t .gone) a' := by
  have hs := exec_remove he
  intro t'
  rw [hs]
  unfold upd Indep.set
  by_cases e : t' = t
  · rw [if_pos e, if_pos e]; rfl
  · rw [if_neg e, if_neg e]; exact h t'

theorem Changed.opened (h : Changed F T c a) {t : Tag} (hk : c t = .keep) (hd : dep t = none) {j : Option Nat}
    (he : access (indepMachine F) t a = .ok (j, a')) : Changed F T c a' ∧ ((j = none ∧ T t = none) ∨
      ∃ v, j = some a.vars.length ∧ Means F T t v ∧ a'.vars = a.vars ++ [some (.cow t v)]) := by
  have hP : Closed (fun t' => t' = t) := by
    rintro t' d rfl e
    rw [hd] at e; cases e
  have ht : StandsOn (fun t' => t' = t) F T a := by
    rintro t' rfl
    have := h t'
    rw [hk] at this
    exact this
  obtain ⟨g1, g2⟩ := access_on hP rfl ht he
  refine ⟨fun t' => ?_, ?_⟩
  · by_cases e : t' = t
    · subst e; rw [hk]; exact g1 t' rfl
    · rw [(access_ok he).2.1 hd t' e]; exact h t'
  · rcases g2 with ⟨h1, _, h2⟩ | h2
    · exact .inl ⟨h1, h2⟩
    · exact .inr h2

theorem Changed.opens (h : Changed F T c a) {t : Tag} (hk : c t = .keep) (hd : dep t = none) {v : Loaded G O}
    (hm : Means F T t v) : ∃ a', access (indepMachine F) t a = .ok (some a.vars.length, a') ∧ Changed F T c a' ∧
      a'.vars = a.vars ++ [some (.cow t v)] := by
  have hP : Closed (fun t' => t' = t) := by
    rintro t' d rfl e
    rw [hd] at e; cases e
  have ht : StandsOn (fun t' => t' = t) F T a := by
    rintro t' rfl
    have := h t'
    rw [hk] at this
    exact this
  obtain ⟨a', e, _, e2⟩ := access_on_means hP rfl ht hm
  exact ⟨a', e, (h.opened hk hd e).1, e2⟩

theorem Changed.contains_keep (h : Changed F T c a) {t : Tag} (hk : c t = .keep) : contains (indepMachine F) a t = (T t).isSome := by
  have := h t
  rw [hk] at this
  unfold contains
  simp only [indepMachine, isSerializedA]
  rcases this with ⟨h1, h2⟩ | ⟨b, h1, h2 | ⟨v, h2, _⟩⟩
  · rw [h1, h2]; rfl
  · rw [h1, h2]; rfl
  · rw [h1, h2]; rfl

theorem Changed.contains_gone (h : Changed F T c a) {t : Tag} (hk : c t = .gone) : contains (indepMachine F) a t = false := by
  have := h t
  rw [hk] at this
  unfold EntryAfter at this
  unfold contains
  simp only [indepMachine, isSerializedA, this]
  rfl

theorem Changed.contains_value (h : Changed F T c a) {t : Tag} {v : Loaded G O} (hk : c t = .value v) :
    contains (indepMachine F) a t = true := by
  have := h t
  rw [hk] at this
  unfold EntryAfter at this
  unfold contains
  simp only [indepMachine, isSerializedA, this]
  rfl

/-! ### Saving -/

/-- The bytes of each table after the changes; of the glyphs only if they were not changed. -/
def Written (F : Fmt G O) (T : Tag → Option Bytes) (c : Tag → Edit (Loaded G O)) (U : Tag → Option Bytes) : Prop :=
  ∀ t, t ≠ tagGlyf → match c t with
    | .keep => U t = T t
    | .gone => U t = none
    | .value v => ∃ b, ser F v = .ok b ∧ U t = some b

theorem after_bytes (h : Changed F T c a) (t : Tag) (x : Option Bytes) : x.map Res.ok = bytesOf F a t ↔ match c t with
    | .keep => x = T t
    | .gone => x = none
    | .value v => ∃ b, ser F v = .ok b ∧ x = some b := by
  have hopt : ∀ x y : Option Bytes, x.map Res.ok = y.map Res.ok ↔ x = y := by
    intro x y
    cases x <;> cases y <;> simp
  have := h t
  cases hc : c t with
  | keep =>
    rw [hc] at this
    rw [entry_bytes this, hopt]
  | gone =>
    rw [hc] at this
    unfold EntryAfter at this
    unfold bytesOf
    rw [this]
    cases x <;> simp
  | value v =>
    rw [hc] at this
    unfold EntryAfter at this
    unfold bytesOf Indep.write
    rw [this]
    simp only [Option.map_some]
    show _ = some (ser F v) ↔ _
    cases x with
    | none => simp
    | some b => simp [eq_comm]

/-- The tables that saving looks at are as before. -/
def Quiet (c : Tag → Edit (Loaded G O)) : Prop :=
  c tagLoca = .keep ∧ c tagMaxp = .keep ∧ c tagGPOS = .keep ∧ c tagGSUB = .keep ∧ c tagHead = .keep ∧ c tagHhea = .keep ∧ c tagHmtx = .keep

theorem Changed.entry (h : Changed F T c a) {t : Tag} (hk : c t = .keep) : Entry F T t (a.store t) := by
  have := h t
  rw [hk] at this
  exact this

/-- Saving when the glyphs were not touched. -/
theorem save_changed {s : Store.St (Loaded G O)} (hr : Rep s a) (h : Changed F T c a) (hq : Quiet c) (hg : c tagGlyf = .keep)
    (version : UInt32) (out : Bytes) : save F version s = .ok out ↔ (∃ m, MaxpIs T m) ∧ ∃ U l, Written F T c U ∧ U tagGlyf = T tagGlyf ∧
      BMap.Sorted l ∧ (∀ t, BMap.get? l t = U t) ∧ Font.toBytes version l = .ok out := by
  have h5 : Raw5 a := by
    intro t ht
    refine entry_ser (h.entry ?_)
    rcases ht with rfl | rfl | rfl | rfl | rfl
    exacts [hg, hq.1, hq.2.1, hq.2.2.1, hq.2.2.2.1]
  rw [save_iff hr h5, access_maxp (h.entry hq.2.1)]
  constructor
  · rintro ⟨⟨b, m, e1, e2⟩, l, e3, e4, e5⟩
    refine ⟨⟨m, b, e1, e2⟩, fun t => BMap.get? l t, l, fun t _ => (after_bytes h t _).mp (e4 t), ?_, e3, fun _ => rfl, e5⟩
    have := (after_bytes h tagGlyf _).mp (e4 tagGlyf)
    rw [hg] at this
    exact this
  · rintro ⟨⟨m, b, e1, e2⟩, U, l, e3, e4, e5, e6, e7⟩
    refine ⟨⟨b, m, e1, e2⟩, l, e5, fun t => ?_, e7⟩
    rw [e6, after_bytes h]
    by_cases e : t = tagGlyf
    · subst e; rw [hg]; exact e4
    · exact e3 t e

theorem means_congr {U : Tag → Option Bytes} {P : Tag → Prop} (hP : Closed P) (hU : ∀ t, P t → U t = T t) {t : Tag} {v : Loaded G O}
    (h : Means F T t v) : P t → Means F U t v := by
  induction h with
  | plain h hd hp => intro ht; exact .plain (by rw [hU _ ht, h]) hd hp
  | after h hd hw hp ih => intro ht; exact .after (by rw [hU _ ht, h]) hd (ih (hP _ _ ht hd)) hp

theorem entry_congr {U : Tag → Option Bytes} {P : Tag → Prop} (hP : Closed P) (hU : ∀ t, P t → U t = T t) {t : Tag}
    {x : Option (Indep.Item (Loaded G O))} (ht : P t) (h : Entry F T t x) : Entry F U t x := by
  rcases h with ⟨h1, h2⟩ | ⟨b, h1, h2 | ⟨v, h2, h3⟩⟩
  · exact .inl ⟨by rw [hU t ht, h1], h2⟩
  · exact .inr ⟨b, by rw [hU t ht, h1], .inl h2⟩
  · exact .inr ⟨b, by rw [hU t ht, h1], .inr ⟨v, h2, means_congr hP hU h3 ht⟩⟩

theorem changed_glyf (h : Changed F T c a) (hq : Quiet c) {gs : List G} (hg : c tagGlyf = .value (.glyf gs)) {U : Tag → Option Bytes}
    (hU : Written F T c U) : OnlyGlyf F U gs a := by
  have hlook : ∀ t, Looked t → c t = .keep := by
    rintro t (rfl | rfl | rfl | rfl)
    exacts [hq.2.2.2.2.1, hq.2.1, hq.2.2.2.2.2.2, hq.2.2.2.2.2.1]
  have hne : ∀ t, Looked t → t ≠ tagGlyf := by rintro t (rfl | rfl | rfl | rfl) <;> decide
  have hsame : ∀ t, Looked t → U t = T t := by
    intro t ht
    have := hU t (hne t ht)
    rw [hlook t ht] at this
    exact this
  refine ⟨?_, fun t ht => entry_congr looked_closed hsame ht (h.entry (hlook t ht)), fun t ht => ?_, fun t ht => entry_ser (h.entry ?_)⟩
  · have := h tagGlyf
    rw [hg] at this
    exact this
  · exact ((after_bytes h t _).mpr (hU t ht)).symm
  · rcases ht with rfl | rfl
    exacts [hq.2.2.1, hq.2.2.2.1]

/-- Saving with new glyphs. -/
theorem save_changed_glyf {s : Store.St (Loaded G O)} (hr : Rep s a) (h : Changed F T c a) (hq : Quiet c) {gs : List G}
    (hg : c tagGlyf = .value (.glyf gs)) (version : UInt32) (out : Bytes) : save F version s = .ok out ↔ ∃ U T' l, Written F T c U ∧
      U tagGlyf = T tagGlyf ∧ NewGlyphs F gs U T' ∧ BMap.Sorted l ∧ (∀ t, BMap.get? l t = T' t) ∧ Font.toBytes version l = .ok out := by
  constructor
  · intro e
    have hU : ∃ U, Written F T c U ∧ U tagGlyf = T tagGlyf := by
      obtain ⟨s', h1, h2⟩ := bind_eq_ok e
      obtain ⟨l, h2, _⟩ := bind_eq_ok h2
      have hsim := sim_compileAll (sim_indep F) F hr
      rw [h1] at hsim
      cases hc : compileAll F (indepMachine F) a with
      | err => rw [hc] at hsim; exact hsim.elim
      | panic => rw [hc] at hsim; exact hsim.elim
      | ok a' =>
        rw [hc] at hsim
        have hr' : Rep s' a' := hsim
        have hrest := compileAll_rest h.tagged hc
        obtain ⟨hT, hb⟩ := (writeAll_iff hr' l).mp h2
        have hbytes : ∀ t, t ≠ tagGlyf → t ≠ tagLoca → t ≠ tagHead → t ≠ tagHhea → t ≠ tagGPOS → t ≠ tagGSUB →
            (BMap.get? l t).map Res.ok = bytesOf F a t := by
          intro t n1 n2 n3 n4 n5 n6
          rw [hb t]
          have hev := hrest t n1 n2 n3 n4 n5 n6
          unfold bytesOf
          rw [evolves_write hev]
          have := evolves_none hev
          cases h1 : a.store t <;> cases h2 : a'.store t <;> simp_all
        refine ⟨fun t => if t = tagGlyf ∨ t = tagLoca ∨ t = tagHead ∨ t = tagHhea ∨ t = tagGPOS ∨ t = tagGSUB then T t else BMap.get? l t,
          fun t ht => ?_, if_pos (.inl rfl)⟩
        by_cases hc : t = tagGlyf ∨ t = tagLoca ∨ t = tagHead ∨ t = tagHhea ∨ t = tagGPOS ∨ t = tagGSUB
        · simp only [if_pos hc]
          rcases hc with rfl | rfl | rfl | rfl | rfl | rfl
          · exact absurd rfl ht
          · simp only [hq.1]
          · simp only [hq.2.2.2.2.1]
          · simp only [hq.2.2.2.2.2.1]
          · simp only [hq.2.2.1]
          · simp only [hq.2.2.2.1]
        · simp only [if_neg hc]
          have hc' := hc
          simp only [not_or] at hc'
          obtain ⟨n1, n2, n3, n4, n5, n6⟩ := hc'
          exact (after_bytes h t _).mp (hbytes t n1 n2 n3 n4 n5 n6)
    obtain ⟨U, hU, hU'⟩ := hU
    obtain ⟨T', l, g1, g2, g3, g4⟩ := (save_glyphs hr (changed_glyf h hq hg hU) version out).mp e
    exact ⟨U, T', l, hU, hU', g1, g2, g3, g4⟩
  · rintro ⟨U, T', l, hU, _, g1, g2, g3, g4⟩
    exact (save_glyphs hr (changed_glyf h hq hg hU) version out).mpr ⟨T', l, g1, g2, g3, g4⟩

end

/-! ### Reading the tables -/

/-- The axes can be read. -/
def FvarIs (T : Tag → Option Bytes) (f : Fvar) : Prop := ∃ b, T tagFvar = some b ∧ runAll readFvar b = .ok f

/-- The axis maps can be read. -/
def AvarIs (T : Tag → Option Bytes) (l : List (List (ℚ × ℚ))) : Prop := ∃ b, T tagAvar = some b ∧ runAll readAvar b = .ok l

/-- The style attributes can be read. -/
def StatIs (T : Tag → Option Bytes) (t : Stat.Table) : Prop := ∃ b, T tagSTAT = some b ∧ runAll Stat.readStat b = .ok t

section
variable {X : Type} {R : Rest X} {T : Tag → Option Bytes}

theorem means_rest {t : Tag} (hd : dep t = none) (ht : t ≠ tagHead ∧ t ≠ tagHhea ∧ t ≠ tagMaxp ∧ t ≠ tagHmtx ∧ t ≠ tagLoca ∧ t ≠ tagGlyf)
    {v : Val X} : Means (fmt R) T t v ↔ ∃ b x, T t = some b ∧ parseRest R t b none = .ok x ∧ v = .other t x := by
  have hp : ∀ b d, Save.parse (fmt R) t b d = (do return .other t (← parseRest R t b d)) := by
    intro b d
    unfold Save.parse
    rw [if_neg ht.1, if_neg ht.2.1, if_neg ht.2.2.1, if_neg ht.2.2.2.1, if_neg ht.2.2.2.2.1, if_neg ht.2.2.2.2.2]
    rfl
  constructor
  · intro h
    cases h with
    | plain h _ h2 =>
      rw [hp] at h2
      obtain ⟨x, h3, h4⟩ := bind_eq_ok h2
      exact ⟨_, x, h, h3, (Res.ok.inj h4).symm⟩
    | after _ h2 => rw [hd] at h2; cases h2
  · rintro ⟨b, x, h1, h2, rfl⟩
    refine .plain h1 hd ?_
    rw [hp, h2]
    rfl

theorem means_fvar {v : Val X} : Means (fmt R) T tagFvar v ↔ ∃ f, FvarIs T f ∧ v = .other tagFvar (.fvar f) := by
  rw [means_rest (by decide) (by decide)]
  have hp : ∀ b, parseRest R tagFvar b none = (do return .fvar (← runAll readFvar b)) := by
    intro b
    unfold parseRest
    rw [if_neg (by decide), if_neg (by decide), if_neg (by decide), if_neg (by decide), if_pos rfl]
  constructor
  · rintro ⟨b, x, h1, h2, rfl⟩
    rw [hp] at h2
    obtain ⟨p, h3, h4⟩ := bind_eq_ok h2
    cases h4
    exact ⟨p, ⟨b, h1, h3⟩, rfl⟩
  · rintro ⟨p, ⟨b, h1, h2⟩, rfl⟩
    exact ⟨b, _, h1, by rw [hp, h2]; rfl, rfl⟩

theorem means_avar {v : Val X} : Means (fmt R) T tagAvar v ↔ ∃ f, AvarIs T f ∧ v = .other tagAvar (.avar f) := by
  rw [means_rest (by decide) (by decide)]
  have hp : ∀ b, parseRest R tagAvar b none = (do return .avar (← runAll readAvar b)) := by
    intro b
    unfold parseRest
    rw [if_neg (by decide), if_neg (by decide), if_neg (by decide), if_neg (by decide), if_neg (by decide), if_pos rfl]
  constructor
  · rintro ⟨b, x, h1, h2, rfl⟩
    rw [hp] at h2
    obtain ⟨p, h3, h4⟩ := bind_eq_ok h2
    cases h4
    exact ⟨p, ⟨b, h1, h3⟩, rfl⟩
  · rintro ⟨p, ⟨b, h1, h2⟩, rfl⟩
    exact ⟨b, _, h1, by rw [hp, h2]; rfl, rfl⟩

theorem means_stat {v : Val X} : Means (fmt R) T tagSTAT v ↔ ∃ f, StatIs T f ∧ v = .other tagSTAT (.stat f) := by
  rw [means_rest (by decide) (by decide)]
  have hp : ∀ b, parseRest R tagSTAT b none = (do return .stat (← runAll Stat.readStat b)) := by
    intro b
    unfold parseRest
    rw [if_neg (by decide), if_neg (by decide), if_neg (by decide), if_neg (by decide), if_neg (by decide), if_neg (by decide), if_pos rfl]
  constructor
  · rintro ⟨b, x, h1, h2, rfl⟩
    rw [hp] at h2
    obtain ⟨p, h3, h4⟩ := bind_eq_ok h2
    cases h4
    exact ⟨p, ⟨b, h1, h3⟩, rfl⟩
  · rintro ⟨p, ⟨b, h1, h2⟩, rfl⟩
    exact ⟨b, _, h1, by rw [hp, h2]; rfl, rfl⟩

variable {c : Tag → Edit (Val X)} {a a' : AStore X}

theorem look_fwd (h : Changed (fmt R) T c a) {t : Tag} (hk : c t = .keep) (hd : dep t = none) {v : Val X}
    (he : look (indepMachine (fmt R)) t a = .ok (v, a')) : Means (fmt R) T t v ∧ Changed (fmt R) T c a' := by
  unfold look require at he
  obtain ⟨⟨i, a1⟩, h1, he⟩ := bind_eq_ok he
  obtain ⟨⟨j, a2⟩, h2, h1⟩ := bind_eq_ok h1
  obtain ⟨g1, g2⟩ := h.opened hk hd h2
  rcases g2 with ⟨rfl, _⟩ | ⟨w, rfl, g2, g3⟩
  · cases h1
  · cases h1
    obtain ⟨x, h3, he⟩ := bind_eq_ok he
    rw [valueOf_last (var_last g3)] at h3
    cases h3
    cases he
    exact ⟨g2, g1⟩

theorem look_bwd (h : Changed (fmt R) T c a) {t : Tag} (hk : c t = .keep) (hd : dep t = none) {v : Val X} (hm : Means (fmt R) T t v) :
    ∃ a', look (indepMachine (fmt R)) t a = .ok (v, a') ∧ Changed (fmt R) T c a' := by
  obtain ⟨a1, e, g1, g2⟩ := h.opens hk hd hm
  refine ⟨a1, ?_, g1⟩
  unfold look require
  rw [e]
  simp only [Res.ok_bind]
  rw [valueOf_last (var_last g2)]
  rfl

theorem look_stands (h : Stands (fmt R) T a) {t : Tag} {v : Val X}
    (he : look (indepMachine (fmt R)) t a = .ok (v, a')) : Means (fmt R) T t v ∧ Stands (fmt R) T a' := by
  unfold look at he
  obtain ⟨⟨i, a1⟩, h1, he⟩ := bind_eq_ok he
  obtain ⟨g1, w, g2, g3, rfl⟩ := require_stands h h1
  obtain ⟨x, h3, he⟩ := bind_eq_ok he
  rw [valueOf_last (var_last g3)] at h3
  cases h3
  cases he
  exact ⟨g2, g1⟩

theorem look_means (h : Stands (fmt R) T a) {t : Tag} {v : Val X} (hm : Means (fmt R) T t v) :
    ∃ a', look (indepMachine (fmt R)) t a = .ok (v, a') ∧ Stands (fmt R) T a' := by
  obtain ⟨a1, e, g1, g2⟩ := require_means (R := R) h hm
  refine ⟨a1, ?_, g1⟩
  unfold look
  rw [e]
  simp only [Res.ok_bind]
  rw [valueOf_last (var_last g2)]
  rfl

theorem lookFvar_fwd (h : Changed (fmt R) T c a) (hk : c tagFvar = .keep) {f : Fvar}
    (he : lookFvar (indepMachine (fmt R)) a = .ok (f, a')) : FvarIs T f ∧ Changed (fmt R) T c a' := by
  unfold lookFvar at he
  obtain ⟨⟨v, a1⟩, h1, he⟩ := bind_eq_ok he
  obtain ⟨g1, g2⟩ := look_fwd h hk (by decide) h1
  obtain ⟨f', e, rfl⟩ := means_fvar.mp g1
  cases he
  exact ⟨e, g2⟩

theorem lookFvar_bwd (h : Changed (fmt R) T c a) (hk : c tagFvar = .keep) {f : Fvar} (hf : FvarIs T f) :
    ∃ a', lookFvar (indepMachine (fmt R)) a = .ok (f, a') ∧ Changed (fmt R) T c a' := by
  obtain ⟨a1, e, g⟩ := look_bwd h hk (by decide) (means_fvar.mpr ⟨f, hf, rfl⟩)
  exact ⟨a1, by unfold lookFvar; rw [e]; rfl, g⟩

theorem lookAvar_fwd (h : Changed (fmt R) T c a) (hk : c tagAvar = .keep) {f : List (List (ℚ × ℚ))}
    (he : lookAvar (indepMachine (fmt R)) a = .ok (f, a')) : AvarIs T f ∧ Changed (fmt R) T c a' := by
  unfold lookAvar at he
  obtain ⟨⟨v, a1⟩, h1, he⟩ := bind_eq_ok he
  obtain ⟨g1, g2⟩ := look_fwd h hk (by decide) h1
  obtain ⟨f', e, rfl⟩ := means_avar.mp g1
  cases he
  exact ⟨e, g2⟩

theorem lookAvar_bwd (h : Changed (fmt R) T c a) (hk : c tagAvar = .keep) {f : List (List (ℚ × ℚ))} (hf : AvarIs T f) :
    ∃ a', lookAvar (indepMachine (fmt R)) a = .ok (f, a') ∧ Changed (fmt R) T c a' := by
  obtain ⟨a1, e, g⟩ := look_bwd h hk (by decide) (means_avar.mpr ⟨f, hf, rfl⟩)
  exact ⟨a1, by unfold lookAvar; rw [e]; rfl, g⟩

theorem lookStat_fwd (h : Changed (fmt R) T c a) (hk : c tagSTAT = .keep) {f : Stat.Table}
    (he : lookStat (indepMachine (fmt R)) a = .ok (f, a')) : StatIs T f ∧ Changed (fmt R) T c a' := by
  unfold lookStat at he
  obtain ⟨⟨v, a1⟩, h1, he⟩ := bind_eq_ok he
  obtain ⟨g1, g2⟩ := look_fwd h hk (by decide) h1
  obtain ⟨f', e, rfl⟩ := means_stat.mp g1
  cases he
  exact ⟨e, g2⟩

theorem lookStat_bwd (h : Changed (fmt R) T c a) (hk : c tagSTAT = .keep) {f : Stat.Table} (hf : StatIs T f) :
    ∃ a', lookStat (indepMachine (fmt R)) a = .ok (f, a') ∧ Changed (fmt R) T c a' := by
  obtain ⟨a1, e, g⟩ := look_bwd h hk (by decide) (means_stat.mpr ⟨f, hf, rfl⟩)
  exact ⟨a1, by unfold lookStat; rw [e]; rfl, g⟩

theorem lookGlyf_fwd (h : Stands (fmt R) T a) {gs : List Glyph} (he : lookGlyf (indepMachine (fmt R)) a = .ok (gs, a')) :
    GlyfIs T gs ∧ Stands (fmt R) T a' := by
  unfold lookGlyf at he
  obtain ⟨⟨v, a1⟩, h1, he⟩ := bind_eq_ok he
  obtain ⟨g1, g2⟩ := look_stands h h1
  obtain ⟨f', e, rfl⟩ := means_glyf.mp g1
  cases he
  exact ⟨e, g2⟩

theorem lookGlyf_bwd (h : Stands (fmt R) T a) {gs : List Glyph} (hf : GlyfIs T gs) :
    ∃ a', lookGlyf (indepMachine (fmt R)) a = .ok (gs, a') ∧ Stands (fmt R) T a' := by
  obtain ⟨a1, e, g⟩ := look_means h (means_glyf.mpr ⟨gs, hf, rfl⟩)
  exact ⟨a1, by unfold lookGlyf; rw [e]; rfl, g⟩

theorem lookGvar_fwd (h : Stands (fmt R) T a) {v : Gvar.Gvar} (he : lookGvar (indepMachine (fmt R)) a = .ok (v, a')) :
    (∃ gs, GlyfIs T gs ∧ GvarIs T gs v) ∧ Stands (fmt R) T a' := by
  unfold lookGvar at he
  obtain ⟨⟨w, a1⟩, h1, he⟩ := bind_eq_ok he
  obtain ⟨g1, g2⟩ := look_stands h h1
  obtain ⟨gs, g, e1, e2, rfl⟩ := means_gvar.mp g1
  cases he
  exact ⟨⟨gs, e1, e2⟩, g2⟩

theorem lookGvar_bwd (h : Stands (fmt R) T a) {gs : List Glyph} {v : Gvar.Gvar} (hg : GlyfIs T gs) (hv : GvarIs T gs v) :
    ∃ a', lookGvar (indepMachine (fmt R)) a = .ok (v, a') ∧ Stands (fmt R) T a' := by
  obtain ⟨a1, e, g⟩ := look_means h (means_gvar.mpr ⟨gs, v, hg, hv, rfl⟩)
  exact ⟨a1, by unfold lookGvar; rw [e]; rfl, g⟩

/-- A table that may be absent. -/
def Maybe {α : Type} (T : Tag → Option Bytes) (t : Tag) (P : α → Prop) (x : Option α) : Prop :=
  (T t = none ∧ x = none) ∨ ∃ v, x = some v ∧ P v

theorem maybeAvar_fwd (h : Changed (fmt R) T c a) (hk : c tagAvar = .keep) {m : Option (List (List (ℚ × ℚ)))}
    (he : maybeAvar (indepMachine (fmt R)) a = .ok (m, a')) : Maybe T tagAvar (AvarIs T) m ∧ Changed (fmt R) T c a' := by
  unfold maybeAvar at he
  obtain ⟨⟨j, a1⟩, h1, he⟩ := bind_eq_ok he
  obtain ⟨g1, g2⟩ := h.opened hk (by decide) h1
  rcases g2 with ⟨rfl, g2⟩ | ⟨w, rfl, g2, g3⟩
  · cases he
    exact ⟨.inl ⟨g2, rfl⟩, g1⟩
  · obtain ⟨x, h3, he⟩ := bind_eq_ok he
    rw [valueOf_last (var_last g3)] at h3
    cases h3
    obtain ⟨f', e, rfl⟩ := means_avar.mp g2
    cases he
    exact ⟨.inr ⟨_, rfl, e⟩, g1⟩

theorem maybeAvar_bwd (h : Changed (fmt R) T c a) (hk : c tagAvar = .keep) {m : Option (List (List (ℚ × ℚ)))}
    (hm : Maybe T tagAvar (AvarIs T) m) :
    ∃ a', maybeAvar (indepMachine (fmt R)) a = .ok (m, a') ∧ Changed (fmt R) T c a' := by
  rcases hm with ⟨h1, rfl⟩ | ⟨v, rfl, h1⟩
  · refine ⟨a, ?_, h⟩
    unfold maybeAvar
    rw [access_on_absent (P := fun t => t = tagAvar) rfl (by
      rintro t rfl
      exact h.entry hk) h1]
    rfl
  · obtain ⟨a1, e, g1, g2⟩ := h.opens hk (by decide) (means_avar.mpr ⟨v, h1, rfl⟩)
    refine ⟨a1, ?_, g1⟩
    unfold maybeAvar
    rw [e]
    simp only [Res.ok_bind]
    rw [valueOf_last (var_last g2)]
    rfl

/-! ### The steps -/

theorem putOr_fwd (h : Changed (fmt R) T c a) {t : Tag} {v : Option (Val X)} (he : putOr (indepMachine (fmt R)) t v a = .ok a') :
    Changed (fmt R) T (upd c t (.ofOption v)) a' := by
  cases v with
  | none => exact h.remove he
  | some v => exact h.put he

theorem putOr_bwd (R : Rest X) (t : Tag) (v : Option (Val X)) (a : AStore X) : ∃ a', putOr (indepMachine (fmt R)) t v a = .ok a' := by
  cases v with
  | none => exact exec_remove_ok (fmt R) t a
  | some v => exact ⟨_, rfl⟩

theorem FvarIs.unique {f f' : Fvar} (h : FvarIs T f) (h' : FvarIs T f') : f = f' := by
  obtain ⟨b, e1, e2⟩ := h
  obtain ⟨b', f1, f2⟩ := h'
  rw [e1] at f1; cases f1
  rw [e2] at f2; cases f2
  rfl

theorem AvarIs.unique {f f' : List (List (ℚ × ℚ))} (h : AvarIs T f) (h' : AvarIs T f') : f = f' := by
  obtain ⟨b, e1, e2⟩ := h
  obtain ⟨b', f1, f2⟩ := h'
  rw [e1] at f1; cases f1
  rw [e2] at f2; cases f2
  rfl

theorem StatIs.unique {f f' : Stat.Table} (h : StatIs T f) (h' : StatIs T f') : f = f' := by
  obtain ⟨b, e1, e2⟩ := h
  obtain ⟨b', f1, f2⟩ := h'
  rw [e1] at f1; cases f1
  rw [e2] at f2; cases f2
  rfl

theorem Maybe.unique {α : Type} {t : Tag} {P : α → Prop} (hP : ∀ v w, P v → P w → v = w) (hn : ∀ v, P v → T t ≠ none) {x y : Option α}
    (h : Maybe T t P x) (h' : Maybe T t P y) : x = y := by
  rcases h with ⟨h1, rfl⟩ | ⟨v, rfl, h1⟩
  · rcases h' with ⟨_, rfl⟩ | ⟨w, rfl, h2⟩
    · rfl
    · exact absurd h1 (hn w h2)
  · rcases h' with ⟨h2, _⟩ | ⟨w, rfl, h2⟩
    · exact absurd h2 (hn v h1)
    · rw [hP v w h1 h2]

/-- The changes of `instantiate_gvar`. -/
def gvarChanges (r : List Glyph × Option Gvar.Gvar) : Tag → Edit (Val X) :=
  upd (upd (fun _ => .keep) tagGvar (.ofOption (r.2.map fun g => .other tagGvar (.gvar g)))) tagGlyf (.value (.glyf r.1))

theorem gvarIn_fwd (h : Stands (fmt R) T a) {norm : Limits} {fv : Fvar} (hf : FvarIs T fv)
    (he : gvarIn (indepMachine (fmt R)) norm a = .ok a') : (T tagGvar = none ∧ a' = a) ∨
      ∃ gs v r, GlyfIs T gs ∧ GvarIs T gs v ∧ instantiateGvar F32.rne (fv.axes.map AxisRecord.axisTag) norm gs v = .ok r ∧
        Changed (fmt R) T (gvarChanges r) a' := by
  unfold gvarIn at he
  rw [contains_iff h] at he
  cases hT : T tagGvar with
  | none => rw [hT] at he; cases he; exact .inl ⟨rfl, rfl⟩
  | some b =>
    rw [hT] at he
    simp only [Option.isSome_some, if_true] at he
    obtain ⟨⟨f1, a1⟩, h1, he⟩ := bind_eq_ok he
    obtain ⟨k1, s1⟩ := lookFvar_fwd (stands_changed h) rfl h1
    obtain rfl := hf.unique k1
    obtain ⟨⟨v, a2⟩, h2, he⟩ := bind_eq_ok he
    obtain ⟨⟨gs, k2, k3⟩, s2⟩ := lookGvar_fwd s1 h2
    obtain ⟨⟨gs', a3⟩, h3, he⟩ := bind_eq_ok he
    obtain ⟨k4, s3⟩ := lookGlyf_fwd s2 h3
    obtain rfl := k2.unique k4
    obtain ⟨r, h4, he⟩ := bind_eq_ok he
    obtain ⟨a4, h5, he⟩ := bind_eq_ok he
    exact .inr ⟨gs, v, r, k2, k3, h4, (putOr_fwd (stands_changed s3) h5).put he⟩

theorem gvarIn_bwd (h : Stands (fmt R) T a) {norm : Limits} {fv : Fvar} (hf : FvarIs T fv) {gs : List Glyph} {v : Gvar.Gvar}
    {r : List Glyph × Option Gvar.Gvar} (hg : GlyfIs T gs) (hv : GvarIs T gs v)
    (hr : instantiateGvar F32.rne (fv.axes.map AxisRecord.axisTag) norm gs v = .ok r) :
    ∃ a', gvarIn (indepMachine (fmt R)) norm a = .ok a' := by
  obtain ⟨_, b, _, hT, _⟩ := id hv
  obtain ⟨a1, e1, s1⟩ := lookFvar_bwd (stands_changed h) rfl hf
  obtain ⟨a2, e2, s2⟩ := lookGvar_bwd s1 hg hv
  obtain ⟨a3, e3, s3⟩ := lookGlyf_bwd s2 hg
  obtain ⟨a4, e4⟩ := putOr_bwd R tagGvar (r.2.map fun g => .other tagGvar (.gvar g)) a3
  unfold gvarIn
  rw [contains_iff h, hT]
  simp only [Option.isSome_some, if_true]
  rw [e1]
  simp only [Res.ok_bind]
  rw [e2]
  simp only [Res.ok_bind]
  rw [e3]
  simp only [Res.ok_bind]
  rw [hr, Res.ok_bind, e4, Res.ok_bind]
  exact ⟨_, rfl⟩

theorem avarIn_fwd (h : Changed (fmt R) T c a) (hk : c tagAvar = .keep) (hk' : c tagFvar = .keep) {limits : UserLimits} {fv : Fvar} (hf : FvarIs T fv)
    (he : avarIn (indepMachine (fmt R)) limits a = .ok a') : (T tagAvar = none ∧ a' = a) ∨
      ∃ maps r, AvarIs T maps ∧ instantiateAvar F32.rne fv.axes limits maps = .ok r ∧
        Changed (fmt R) T (upd c tagAvar (.ofOption (r.map fun l => .other tagAvar (.avar l)))) a' := by
  unfold avarIn at he
  rw [h.contains_keep hk] at he
  cases hT : T tagAvar with
  | none => rw [hT] at he; cases he; exact .inl ⟨rfl, rfl⟩
  | some b =>
    rw [hT] at he
    simp only [Option.isSome_some, if_true] at he
    obtain ⟨⟨maps, a1⟩, h1, he⟩ := bind_eq_ok he
    obtain ⟨k1, s1⟩ := lookAvar_fwd h hk h1
    obtain ⟨⟨f1, a2⟩, h2, he⟩ := bind_eq_ok he
    obtain ⟨k2, s2⟩ := lookFvar_fwd s1 hk' h2
    obtain rfl := hf.unique k2
    obtain ⟨r, h3, he⟩ := bind_eq_ok he
    exact .inr ⟨maps, r, k1, h3, putOr_fwd s2 he⟩

theorem avarIn_bwd (h : Changed (fmt R) T c a) (hk : c tagAvar = .keep) (hk' : c tagFvar = .keep) {limits : UserLimits} {fv : Fvar} (hf : FvarIs T fv)
    {maps : List (List (ℚ × ℚ))} (hm : AvarIs T maps) {r : Option (List (List (ℚ × ℚ)))}
    (hr : instantiateAvar F32.rne fv.axes limits maps = .ok r) : ∃ a', avarIn (indepMachine (fmt R)) limits a = .ok a' := by
  obtain ⟨b, hT, _⟩ := id hm
  obtain ⟨a1, e1, s1⟩ := lookAvar_bwd h hk hm
  obtain ⟨a2, e2, s2⟩ := lookFvar_bwd s1 hk' hf
  obtain ⟨a3, e3⟩ := putOr_bwd R tagAvar (r.map fun l => .other tagAvar (.avar l)) a2
  refine ⟨a3, ?_⟩
  unfold avarIn
  rw [h.contains_keep hk, hT]
  simp only [Option.isSome_some, if_true]
  rw [e1]
  simp only [Res.ok_bind]
  rw [e2]
  simp only [Res.ok_bind]
  rw [hr, Res.ok_bind, e3]

/-- The STAT table is left alone. -/
def statEmpty (t : Stat.Table) : Bool := t.axes.isEmpty || t.values.isEmpty

theorem statIn_fwd (h : Changed (fmt R) T c a) (hk : c tagSTAT = .keep) {limits : UserLimits}
    (he : statIn (indepMachine (fmt R)) limits a = .ok a') : (T tagSTAT = none ∧ a' = a) ∨
      ∃ t r, StatIs T t ∧ instantiateStat F32.rne limits t = .ok r ∧
        Changed (fmt R) T (if statEmpty t then c else upd c tagSTAT (.value (.other tagSTAT (.stat r)))) a' := by
  unfold statIn at he
  rw [h.contains_keep hk] at he
  cases hT : T tagSTAT with
  | none => rw [hT] at he; cases he; exact .inl ⟨rfl, rfl⟩
  | some b =>
    rw [hT] at he
    simp only [Option.isSome_some, if_true] at he
    obtain ⟨⟨t, a1⟩, h1, he⟩ := bind_eq_ok he
    obtain ⟨k1, s1⟩ := lookStat_fwd h hk h1
    simp only at he
    by_cases hem : (t.axes.isEmpty || t.values.isEmpty) = true
    · rw [if_pos hem] at he
      cases he
      refine .inr ⟨t, t, k1, by unfold instantiateStat; rw [if_pos hem], ?_⟩
      rw [if_pos (by exact hem)]
      exact s1
    · rw [if_neg hem] at he
      obtain ⟨r, h2, he⟩ := bind_eq_ok he
      refine .inr ⟨t, r, k1, h2, ?_⟩
      rw [if_neg (by exact hem)]
      exact s1.put he

theorem statIn_bwd (h : Changed (fmt R) T c a) (hk : c tagSTAT = .keep) {limits : UserLimits} {t r : Stat.Table} (ht : StatIs T t)
    (hr : instantiateStat F32.rne limits t = .ok r) : ∃ a', statIn (indepMachine (fmt R)) limits a = .ok a' := by
  obtain ⟨b, hT, _⟩ := id ht
  obtain ⟨a1, e1, s1⟩ := lookStat_bwd h hk ht
  unfold statIn
  rw [h.contains_keep hk, hT]
  simp only [Option.isSome_some, if_true]
  rw [e1]
  simp only [Res.ok_bind]
  by_cases hem : (t.axes.isEmpty || t.values.isEmpty) = true
  · rw [if_pos hem]
    exact ⟨_, rfl⟩
  · rw [if_neg hem, hr, Res.ok_bind]
    exact ⟨_, rfl⟩

theorem fvarIn_fwd (h : Changed (fmt R) T c a) (hk : c tagFvar = .keep) {limits : UserLimits} {fv : Fvar} (hf : FvarIs T fv)
    (he : fvarIn (indepMachine (fmt R)) limits a = .ok a') : ∃ r, instantiateFvar F32.rne limits fv = .ok r ∧
      Changed (fmt R) T (upd c tagFvar (.ofOption (r.map fun f => .other tagFvar (.fvar f)))) a' := by
  unfold fvarIn at he
  obtain ⟨⟨f1, a1⟩, h1, he⟩ := bind_eq_ok he
  obtain ⟨k1, s1⟩ := lookFvar_fwd h hk h1
  obtain rfl := hf.unique k1
  obtain ⟨r, h2, he⟩ := bind_eq_ok he
  exact ⟨r, h2, putOr_fwd s1 he⟩

theorem fvarIn_bwd (h : Changed (fmt R) T c a) (hk : c tagFvar = .keep) {limits : UserLimits} {fv : Fvar} (hf : FvarIs T fv)
    {r : Option Fvar} (hr : instantiateFvar F32.rne limits fv = .ok r) : ∃ a', fvarIn (indepMachine (fmt R)) limits a = .ok a' := by
  obtain ⟨a1, e1, s1⟩ := lookFvar_bwd h hk hf
  obtain ⟨a2, e2⟩ := putOr_bwd R tagFvar (r.map fun f => .other tagFvar (.fvar f)) a1
  refine ⟨a2, ?_⟩
  unfold fvarIn
  rw [e1]
  simp only [Res.ok_bind]
  rw [hr, Res.ok_bind, e2]

theorem normalize_fwd (h : Changed (fmt R) T c a) (hk : c tagAvar = .keep) (hk' : c tagFvar = .keep) {limits : UserLimits} {n : Limits} {fv : Fvar}
    (hf : FvarIs T fv) (he : normalizeIn (indepMachine (fmt R)) limits true a = .ok (n, a')) :
    Changed (fmt R) T c a' ∧ ∃ m, Maybe T tagAvar (AvarIs T) m ∧ normLimits F32.rne fv.axes m limits = .ok n := by
  unfold normalizeIn at he
  obtain ⟨⟨f1, a1⟩, h1, he⟩ := bind_eq_ok he
  obtain ⟨k1, s1⟩ := lookFvar_fwd h hk' h1
  obtain rfl := hf.unique k1
  obtain ⟨⟨m, a2⟩, h2, he⟩ := bind_eq_ok he
  obtain ⟨k2, s2⟩ := maybeAvar_fwd s1 hk h2
  obtain ⟨x, h3, he⟩ := bind_eq_ok he
  cases he
  exact ⟨s2, m, k2, h3⟩

theorem normalize_bwd (h : Changed (fmt R) T c a) (hk : c tagAvar = .keep) (hk' : c tagFvar = .keep) {limits : UserLimits} {n : Limits} {fv : Fvar}
    (hf : FvarIs T fv) {m : Option (List (List (ℚ × ℚ)))} (hm : Maybe T tagAvar (AvarIs T) m)
    (hn : normLimits F32.rne fv.axes m limits = .ok n) :
    ∃ a', normalizeIn (indepMachine (fmt R)) limits true a = .ok (n, a') ∧ Changed (fmt R) T c a' := by
  obtain ⟨a1, e1, s1⟩ := lookFvar_bwd h hk' hf
  obtain ⟨a2, e2, s2⟩ := maybeAvar_bwd s1 hk hm
  refine ⟨a2, ?_, s2⟩
  unfold normalizeIn
  rw [e1]
  simp only [Res.ok_bind]
  rw [e2]
  simp only [Res.ok_bind, if_true]
  rw [hn]
  rfl

end

end FT.Cli
