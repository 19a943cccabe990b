import Verif.Lemmas.CliOn

/-! `ttf-flatten-components`: saving after the glyphs were replaced. -/

namespace FT.Cli
open FT FT.Store FT.Save FT.Tables FT.Glyf FT.Props

/-- The `hhea` table can be read. -/
def HheaIs (T : Tag → Option Bytes) (h : Hhea) : Prop := ∃ b, T tagHhea = some b ∧ runAll readHhea b = .ok h

/-- The metrics can be read. -/
def HmtxIs (T : Tag → Option Bytes) (l : List Hmtx.Metric) : Prop :=
  ∃ h b, HheaIs T h ∧ T tagHmtx = some b ∧ runAll (Hmtx.fromBytes h.numberOfHMetrics) b = .ok l

/-- `hhea` after the glyphs were compiled. -/
def NewHhea (T : Tag → Option Bytes) (x : Option Bytes) : Prop :=
  (T tagHmtx = none ∧ x = T tagHhea) ∨
  ∃ h l n, HheaIs T h ∧ HmtxIs T l ∧ Hmtx.numberOfHMetrics l = .ok n ∧ x = some (encHhea { h with numberOfHMetrics := n })

/-- The tables `T` with one replaced. -/
def put (T : Tag → Option Bytes) (t : Tag) (x : Option Bytes) : Tag → Option Bytes := fun t' => if t' = t then x else T t'

section
variable {G O : Type} {F : Fmt G O} {T : Tag → Option Bytes}

theorem means_hhea {v : Loaded G O} : Means F T tagHhea v ↔ ∃ h, HheaIs T h ∧ v = .hhea h := by
  have hd : dep tagHhea = none := by decide
  have hp : ∀ b d, Save.parse F tagHhea b d = (do return .hhea (← runAll readHhea b)) := by
    intro b d
    unfold Save.parse
    rw [if_neg (by decide), if_pos rfl]
  constructor
  · intro h
    cases h with
    | plain h _ h2 =>
      rw [hp] at h2
      obtain ⟨m, h3, h4⟩ := bind_eq_ok h2
      exact ⟨m, ⟨_, h, h3⟩, (Res.ok.inj h4).symm⟩
    | after _ h2 => rw [hd] at h2; cases h2
  · rintro ⟨m, ⟨b, h1, h2⟩, rfl⟩
    refine .plain h1 hd ?_
    rw [hp, h2]
    rfl

theorem means_hmtx {v : Loaded G O} : Means F T tagHmtx v ↔ ∃ l, HmtxIs T l ∧ v = .hmtx l := by
  have hd : dep tagHmtx = some tagHhea := by decide
  have hp : ∀ b h, Save.parse F tagHmtx b (some (.hhea h)) =
      (do return .hmtx (← runAll (Hmtx.fromBytes h.numberOfHMetrics) b)) := by
    intro b h
    unfold Save.parse
    rw [if_neg (by decide), if_neg (by decide), if_neg (by decide), if_pos rfl]
  constructor
  · intro h
    cases h with
    | plain _ h2 => rw [hd] at h2; cases h2
    | after h h2 h3 h4 =>
      rw [hd] at h2
      cases h2
      obtain ⟨hh, e, rfl⟩ := means_hhea.mp h3
      rw [hp] at h4
      obtain ⟨l, h5, h6⟩ := bind_eq_ok h4
      exact ⟨l, ⟨hh, _, e, h, h5⟩, (Res.ok.inj h6).symm⟩
  · rintro ⟨l, ⟨hh, b, e, h1, h2⟩, rfl⟩
    refine .after h1 hd (means_hhea.mpr ⟨hh, e, rfl⟩) ?_
    rw [hp, h2]
    rfl

/-- In the middle of compiling: the tables in `P` are those of the file, the bytes of all tables are `U`. -/
structure Mid (F : Fmt G O) (T : Tag → Option Bytes) (P : Tag → Prop) (U : Tag → Option Bytes) (a : ASt G O) : Prop where
  on : StandsOn P F T a
  bytes : ∀ t, bytesOf F a t = (U t).map Res.ok
  lay : ∀ t, t = tagGPOS ∨ t = tagGSUB → (isSerializedA a t).getD true = true

variable {P : Tag → Prop} {U : Tag → Option Bytes} {a a' : ASt G O}

theorem Mid.ev (h : Mid F T P U a) (he : Ev (parser F) a a') (ho : StandsOn P F T a') : Mid F T P U a' :=
  ⟨ho, by rw [bytesOf_ev he]; exact h.bytes, fun t ht => (isSer_of_evolves (he t)).mpr (h.lay t ht)⟩

theorem Mid.store (h : Mid F T P U a) (he : a'.store = a.store) : Mid F T P U a' :=
  h.ev (fun t => by rw [he]; exact .inl rfl) (fun t ht => by rw [he]; exact h.on t ht)

theorem Mid.less (h : Mid F T P U a) {Q : Tag → Prop} (hq : ∀ t, Q t → P t) : Mid F T Q U a :=
  ⟨fun t ht => h.on t (hq t ht), h.bytes, h.lay⟩

theorem Mid.value (h : Mid F T P U a) {t : Tag} {v : Loaded G O} {b : Bytes} (hl : t ≠ tagGPOS ∧ t ≠ tagGSUB) (ht : ¬ P t)
    (hb : ser F v = .ok b) (hs : a'.store = Indep.set a.store t (some (.loaded ⟨t, none, v⟩))) : Mid F T P (put U t (some b)) a' := by
  have hstore : ∀ t', a'.store t' = if t' = t then some (.loaded ⟨t, none, v⟩) else a.store t' := by
    intro t'
    rw [hs]
    simp [Indep.set]
  refine ⟨fun t' hp => ?_, fun t' => ?_, fun t' hc => ?_⟩
  · rw [hstore, if_neg (fun e : t' = t => ht (e ▸ hp))]
    exact h.on t' hp
  · have := h.bytes t'
    unfold bytesOf Indep.write at this ⊢
    unfold put
    rw [hstore]
    by_cases e : t' = t
    · subst e
      simp only [if_true, Option.map_some, Option.some.injEq]
      exact hb
    · simp only [e, if_false]; exact this
  · have := h.lay t' hc
    unfold isSerializedA at this ⊢
    rw [hstore, if_neg]
    · exact this
    · rintro rfl
      rcases hc with rfl | rfl
      · exact hl.1 rfl
      · exact hl.2 rfl

/-! ### The steps -/

theorem maxp_fwd (hP : Closed P) (hp : P tagMaxp) {n : Nat} (h : Mid F T P U a) (hc : compileMaxp (indepMachine F) n a = .ok a') :
    n ≤ 65535 ∧ (∃ m, MaxpIs T m) ∧ Mid F T P U a' := by
  obtain ⟨hn, _, _⟩ := compileMaxp_ok hc
  obtain ⟨⟨j, a1⟩, h1, hc⟩ := bind_eq_ok hc
  obtain ⟨g1, g2⟩ := access_on hP hp h.on h1
  rcases g2 with ⟨rfl, _⟩ | ⟨v, rfl, g2, g3⟩
  · cases hc
  · obtain ⟨b, m, e1, e2, rfl⟩ := means_maxp.mp g2
    simp only at hc
    rw [if_neg (by omega)] at hc
    obtain ⟨a2, h2, h3⟩ := bind_eq_ok hc
    refine ⟨hn, ⟨m, b, e1, e2⟩, ((h.ev (access_ok h1).1 g1).store (exec_modify h2).1).store (exec_drop h3)⟩

theorem exec_modify_cow (F : Fmt G O) (a : ASt G O) (i : Nat) (f : Loaded G O → Loaded G O) {t : Tag} {v : Loaded G O}
    (h : a.var i = some (.cow t v)) : ∃ a', exec (indepMachine F) (.modify i f) a = .ok a' := by
  unfold exec
  simp only [indepMachine, Indep.step, h]
  exact ⟨_, rfl⟩

theorem exec_insert_cow (F : Fmt G O) (a : ASt G O) (i : Nat) {t : Tag} {v : Loaded G O} (h : a.var i = some (.cow t v)) :
    ∃ a', exec (indepMachine F) (.insertHolder i) a = .ok a' := by
  unfold exec
  simp only [indepMachine, Indep.step, h]
  exact ⟨_, rfl⟩

theorem maxp_bwd (hP : Closed P) (hp : P tagMaxp) {n : Nat} (h : Mid F T P U a) (hn : n ≤ 65535) {m : Maxp} (hm : MaxpIs T m) :
    ∃ a', compileMaxp (indepMachine F) n a = .ok a' := by
  obtain ⟨b, e1, e2⟩ := hm
  obtain ⟨a1, h1, g1, g2⟩ := access_on_means hP hp h.on (means_maxp.mpr ⟨b, m, e1, e2, rfl⟩)
  obtain ⟨a2, h2⟩ := exec_modify_cow F a1 a.vars.length (setCount n) (var_last g2)
  refine ⟨{ a2 with vars := a2.vars.set a.vars.length none }, ?_⟩
  unfold compileMaxp
  rw [h1, Res.ok_bind]
  simp only
  rw [if_neg (by omega), h2, Res.ok_bind]
  rfl

theorem head_fwd (hP : Closed P) (hp : P tagHead) {is32 : Bool} (h : Mid F T P U a)
    (hc : compileHead (indepMachine F) is32 a = .ok a') : ∃ hd, HeadIs T hd ∧
      Mid F T (fun t => P t ∧ t ≠ tagHead) (put U tagHead (some (encHead { hd with indexToLocFormat := if is32 then 1 else 0 }))) a' := by
  obtain ⟨⟨j, a1⟩, h1, hc⟩ := bind_eq_ok hc
  obtain ⟨g1, g2⟩ := access_on hP hp h.on h1
  rcases g2 with ⟨rfl, _⟩ | ⟨v, rfl, g2, g3⟩
  · cases hc
  · obtain ⟨hd, e, rfl⟩ := means_head.mp g2
    simp only at hc
    obtain ⟨a2, h2, h3⟩ := bind_eq_ok hc
    obtain ⟨s2, v2⟩ := exec_modify h2
    have hs := exec_insertHolder (v2 _ _ (var_last g3)) h3
    refine ⟨hd, e, (((h.ev (access_ok h1).1 g1).store s2).less (fun t ht => ht.1)).value (by decide) (by simp) rfl hs⟩

theorem head_bwd (hP : Closed P) (hp : P tagHead) {is32 : Bool} (h : Mid F T P U a) {hd : Head} (hh : HeadIs T hd) :
    ∃ a', compileHead (indepMachine F) is32 a = .ok a' := by
  obtain ⟨a1, h1, g1, g2⟩ := access_on_means hP hp h.on (means_head.mpr ⟨hd, hh, rfl⟩)
  obtain ⟨a2, h2⟩ := exec_modify_cow F a1 a.vars.length (setFormat is32) (var_last g2)
  obtain ⟨a3, h3⟩ := exec_insert_cow F a2 a.vars.length ((exec_modify h2).2 _ _ (var_last g2))
  refine ⟨a3, ?_⟩
  unfold compileHead
  rw [h1, Res.ok_bind]
  simp only
  rw [h2, Res.ok_bind, h3]

theorem hhea_fwd (hP : Closed P) (hp : P tagHhea ∧ P tagHmtx) (hU : U tagHhea = T tagHhea) (h : Mid F T P U a)
    (hc : compileHhea (indepMachine F) a = .ok a') : ∃ x, NewHhea T x ∧
      Mid F T (fun t => P t ∧ t ≠ tagHhea) (put U tagHhea x) a' := by
  obtain ⟨⟨j, a1⟩, h1, hc⟩ := bind_eq_ok hc
  obtain ⟨g1, g2⟩ := access_on hP hp.2 h.on h1
  rcases g2 with ⟨rfl, _, g2⟩ | ⟨v, rfl, g2, g3⟩
  · cases hc
    have hput : put U tagHhea (T tagHhea) = U := by
      funext t
      unfold put
      split
      · next e => rw [e, hU]
      · rfl
    exact ⟨_, .inl ⟨g2, rfl⟩, by rw [hput]; exact (h.ev (access_ok h1).1 g1).less (fun t ht => ht.1)⟩
  · obtain ⟨l, e, rfl⟩ := means_hmtx.mp g2
    simp only at hc
    obtain ⟨v, h2, hc⟩ := bind_eq_ok hc
    rw [valueOf_last (var_last g3)] at h2
    cases h2
    simp only [Indep.Var.val] at hc
    obtain ⟨n, hn, hc⟩ := bind_eq_ok hc
    obtain ⟨a2, h2, hc⟩ := bind_eq_ok hc
    obtain ⟨⟨k, a3⟩, h3, hc⟩ := bind_eq_ok hc
    have m2 := (h.ev (access_ok h1).1 g1).store (exec_drop h2)
    obtain ⟨k1, k2⟩ := access_on hP hp.1 m2.on h3
    rcases k2 with ⟨rfl, _, k2⟩ | ⟨v, rfl, k2, k3⟩
    · obtain ⟨hh, _, ⟨b, e', _⟩, _⟩ := e
      rw [k2] at e'; cases e'
    · obtain ⟨hh, e', rfl⟩ := means_hhea.mp k2
      simp only at hc
      obtain ⟨a4, h4, h5⟩ := bind_eq_ok hc
      obtain ⟨s4, v4⟩ := exec_modify h4
      have hs := exec_insertHolder (v4 _ _ (var_last k3)) h5
      exact ⟨_, .inr ⟨hh, l, n, e', e, hn, rfl⟩,
        (((m2.ev (access_ok h3).1 k1).store s4).less (fun t ht => ht.1)).value (by decide) (by simp) rfl hs⟩

theorem HheaIs.unique {h h' : Hhea} (e : HheaIs T h) (e' : HheaIs T h') : h = h' := by
  obtain ⟨b, e1, e2⟩ := e
  obtain ⟨b', f1, f2⟩ := e'
  rw [e1] at f1; cases f1
  rw [e2] at f2; cases f2
  rfl

theorem HmtxIs.unique {l l' : List Hmtx.Metric} (e : HmtxIs T l) (e' : HmtxIs T l') : l = l' := by
  obtain ⟨h, b, e0, e1, e2⟩ := e
  obtain ⟨h', b', f0, f1, f2⟩ := e'
  obtain rfl := e0.unique f0
  rw [e1] at f1; cases f1
  rw [e2] at f2; cases f2
  rfl

theorem hhea_bwd (hP : Closed P) (hp : P tagHhea ∧ P tagHmtx) (h : Mid F T P U a) {x : Option Bytes} (hx : NewHhea T x) :
    ∃ a', compileHhea (indepMachine F) a = .ok a' := by
  rcases hx with ⟨hn, _⟩ | ⟨hh, l, n, e1, e2, e3, _⟩
  · refine ⟨a, ?_⟩
    unfold compileHhea
    rw [access_on_absent hp.2 h.on hn, Res.ok_bind]
    rfl
  · obtain ⟨a1, h1, g1, g2⟩ := access_on_means hP hp.2 h.on (means_hmtx.mpr ⟨l, e2, rfl⟩)
    have hd : exec (indepMachine F) (.drop a.vars.length) a1 = .ok { a1 with vars := a1.vars.set a.vars.length none } := rfl
    have m2 := (h.ev (access_ok h1).1 g1).store (exec_drop hd)
    obtain ⟨a3, h3, k1, k2⟩ := access_on_means hP hp.1 m2.on (means_hhea.mpr ⟨hh, e1, rfl⟩)
    obtain ⟨a4, h4⟩ := exec_modify_cow F a3 _ (setMetricCount n) (var_last k2)
    obtain ⟨a5, h5⟩ := exec_insert_cow F a4 _ ((exec_modify h4).2 _ _ (var_last k2))
    refine ⟨a5, ?_⟩
    unfold compileHhea
    rw [h1, Res.ok_bind]
    simp only
    rw [valueOf_last (var_last g2), Res.ok_bind]
    simp only [Indep.Var.val]
    rw [e3, Res.ok_bind, hd, Res.ok_bind, h3, Res.ok_bind]
    simp only
    rw [h4, Res.ok_bind, h5]

theorem layouts_fwd (hP : Closed P) (hp : P tagMaxp) (h : Mid F T P U a) (hc : compileLayouts F (indepMachine F) a = .ok a') :
    Mid F T P U a' := by
  obtain ⟨⟨j, a1⟩, h1, hc⟩ := bind_eq_ok hc
  obtain ⟨g1, g2⟩ := access_on hP hp h.on h1
  rcases g2 with ⟨rfl, _⟩ | ⟨v, rfl, g2, g3⟩
  · cases hc
  · obtain ⟨b, m, e1, e2, rfl⟩ := means_maxp.mp g2
    simp only at hc
    obtain ⟨v, h2, hc⟩ := bind_eq_ok hc
    rw [valueOf_last (var_last g3)] at h2
    cases h2
    simp only [Indep.Var.val] at hc
    obtain ⟨a2, h2, hc⟩ := bind_eq_ok hc
    have m2 := (h.ev (access_ok h1).1 g1).store (exec_drop h2)
    have hl : ∀ t, t = tagGPOS ∨ t = tagGSUB → compileLayout F (indepMachine F) m.numGlyphs t a2 = .ok a2 := by
      intro t ht
      unfold compileLayout
      rw [if_pos]
      exact m2.lay t ht
    rw [hl _ (.inl rfl), Res.ok_bind, hl _ (.inr rfl)] at hc
    cases hc
    exact m2

theorem layouts_bwd (hP : Closed P) (hp : P tagMaxp) (h : Mid F T P U a) {m : Maxp} (hm : MaxpIs T m) :
    ∃ a', compileLayouts F (indepMachine F) a = .ok a' := by
  obtain ⟨b, e1, e2⟩ := hm
  obtain ⟨a1, h1, g1, g2⟩ := access_on_means hP hp h.on (means_maxp.mpr ⟨b, m, e1, e2, rfl⟩)
  have hd : exec (indepMachine F) (.drop a.vars.length) a1 = .ok { a1 with vars := a1.vars.set a.vars.length none } := rfl
  have m2 := (h.ev (access_ok h1).1 g1).store (exec_drop hd)
  have hl : ∀ t, t = tagGPOS ∨ t = tagGSUB → compileLayout F (indepMachine F) m.numGlyphs t
      { a1 with vars := a1.vars.set a.vars.length none } = .ok { a1 with vars := a1.vars.set a.vars.length none } := by
    intro t ht
    unfold compileLayout
    rw [if_pos]
    exact m2.lay t ht
  refine ⟨{ a1 with vars := a1.vars.set a.vars.length none }, ?_⟩
  unfold compileLayouts
  rw [h1, Res.ok_bind]
  simp only
  rw [valueOf_last (var_last g2), Res.ok_bind]
  simp only [Indep.Var.val]
  rw [hd, Res.ok_bind, hl _ (.inl rfl), Res.ok_bind, hl _ (.inr rfl)]

/-! ### All of it -/

/-- The tables after saving with new glyphs. -/
def NewGlyphs (F : Fmt G O) (gs : List G) (T T' : Tag → Option Bytes) : Prop :=
  ∃ out loca is32 h m x, Loca.compile F.isEmpty F.serGlyph gs = .ok (out, loca, is32) ∧ gs.length ≤ 65535 ∧ MaxpIs T m ∧
    HeadIs T h ∧ NewHhea T x ∧
    T' = put (put (put (put T tagGlyf (some out)) tagLoca (some loca)) tagHead
      (some (encHead { h with indexToLocFormat := if is32 then 1 else 0 }))) tagHhea x

/-- The tables that saving reads. -/
def Looked (t : Tag) : Prop := t = tagHead ∨ t = tagMaxp ∨ t = tagHmtx ∨ t = tagHhea

theorem looked_closed : Closed Looked := by
  intro t d h hd
  rcases h with rfl | rfl | rfl | rfl
  · rw [show dep tagHead = none by decide] at hd; cases hd
  · rw [show dep tagMaxp = none by decide] at hd; cases hd
  · obtain rfl : tagHhea = d := by
      have : dep tagHmtx = some tagHhea := by decide
      rw [this] at hd; exact Option.some.inj hd
    exact .inr (.inr (.inr rfl))
  · rw [show dep tagHhea = none by decide] at hd; cases hd

theorem looked_closed1 : Closed (fun t => Looked t ∧ t ≠ tagHead) := by
  intro t d h hd
  refine ⟨looked_closed t d h.1 hd, ?_⟩
  rintro rfl
  obtain ⟨h, _⟩ := h
  rcases h with rfl | rfl | rfl | rfl <;> exact absurd hd (by decide)

theorem looked_closed2 : Closed (fun t => t = tagMaxp) := by
  rintro t d rfl hd
  rw [show dep tagMaxp = none by decide] at hd; cases hd

theorem entry_bytes {t : Tag} (h : Entry F T t (a.store t)) : bytesOf F a t = (T t).map Res.ok := by
  unfold bytesOf Indep.write
  rcases h with ⟨h1, h2⟩ | ⟨b, h1, h2 | ⟨v, h2, _⟩⟩
  · rw [h1, h2]; rfl
  · rw [h1, h2]; rfl
  · rw [h1, h2]; rfl

theorem entry_ser {t : Tag} (h : Entry F T t (a.store t)) : (isSerializedA a t).getD true = true := by
  unfold isSerializedA
  rcases h with ⟨h1, h2⟩ | ⟨b, h1, h2 | ⟨v, h2, _⟩⟩
  · rw [h2]; rfl
  · rw [h2]; rfl
  · rw [h2]; rfl

/-- The glyphs were replaced; the tables that saving reads were not; the bytes of all others are `T`. -/
structure OnlyGlyf (F : Fmt G O) (T : Tag → Option Bytes) (gs : List G) (a : ASt G O) : Prop where
  glyf : a.store tagGlyf = some (.loaded ⟨tagGlyf, none, .glyf gs⟩)
  look : ∀ t, Looked t → Entry F T t (a.store t)
  bytes : ∀ t, t ≠ tagGlyf → bytesOf F a t = (T t).map Res.ok
  lay : ∀ t, t = tagGPOS ∨ t = tagGSUB → (isSerializedA a t).getD true = true

theorem onlyGlyf_of {gs : List G} (hg : a.store tagGlyf = some (.loaded ⟨tagGlyf, none, .glyf gs⟩))
    (h : ∀ t, t ≠ tagGlyf → Entry F T t (a.store t)) : OnlyGlyf F T gs a :=
  ⟨hg, fun t ht => h t (by rcases ht with rfl | rfl | rfl | rfl <;> decide), fun t ht => entry_bytes (h t ht),
    fun t ht => entry_ser (h t (by rcases ht with rfl | rfl <;> decide))⟩

/-- The state after the new tables were put in. -/
theorem start_mid {gs : List G} (h : OnlyGlyf F T gs a) {out loca : Bytes} {a1 a2 a3 : ASt G O} (h1 : a1.store = a.store)
    (h2 : exec (indepMachine F) (.insertRaw tagGlyf out) a1 = .ok a2) (h3 : exec (indepMachine F) (.insertRaw tagLoca loca) a2 = .ok a3) :
    Mid F T Looked (put (put T tagGlyf (some out)) tagLoca (some loca)) a3 := by
  have hs : ∀ t, a3.store t = if t = tagLoca then some (.unloaded loca) else if t = tagGlyf then some (.unloaded out) else a.store t := by
    intro t
    rw [exec_insertRaw h3, Indep.set]
    split
    · rfl
    · rw [exec_insertRaw h2, Indep.set]
      split
      · rfl
      · rw [h1]
  have hk : ∀ t, t ≠ tagLoca → t ≠ tagGlyf → a3.store t = a.store t := by
    intro t n1 n2
    rw [hs, if_neg n1, if_neg n2]
  refine ⟨fun t ht => ?_, fun t => ?_, fun t ht => ?_⟩
  · rw [hk t (by rcases ht with rfl | rfl | rfl | rfl <;> decide) (by rcases ht with rfl | rfl | rfl | rfl <;> decide)]
    exact h.look t ht
  · unfold put
    by_cases n1 : t = tagLoca
    · rw [if_pos n1]
      unfold bytesOf Indep.write
      rw [hs, if_pos n1]
      rfl
    · rw [if_neg n1]
      by_cases n2 : t = tagGlyf
      · rw [if_pos n2]
        unfold bytesOf Indep.write
        rw [hs, if_neg n1, if_pos n2]
        rfl
      · rw [if_neg n2]
        have := h.bytes t n2
        unfold bytesOf Indep.write at this ⊢
        rw [hk t n1 n2]
        exact this
  · have := h.lay t ht
    unfold isSerializedA at this ⊢
    rw [hk t (by rcases ht with rfl | rfl <;> decide) (by rcases ht with rfl | rfl <;> decide)]
    exact this

theorem onlyGlyf_access {gs : List G} (h : OnlyGlyf F T gs a) : access (indepMachine F) tagGlyf a =
    .ok (some a.vars.length, { a with vars := a.vars ++ [some (.cow tagGlyf (.glyf gs))] }) := by
  simp [access, indepMachine, Indep.step, Indep.getAs, Indep.load, h.glyf, Indep.asCow]

theorem compile_fwd {gs : List G} (hg : OnlyGlyf F T gs a) (h : compileAll F (indepMachine F) a = .ok a') :
    ∃ T', NewGlyphs F gs T T' ∧ ∀ t, bytesOf F a' t = (T' t).map Res.ok := by
  obtain ⟨b, h0, hlay⟩ := bind_eq_ok h
  unfold compileGlyf at h0
  have hser : (indepMachine F).isSer a tagGlyf = some false := by
    simp [indepMachine, isSerializedA, hg.glyf]
  rw [hser] at h0
  simp only [Option.getD_some, Bool.false_and, Bool.false_eq_true, if_false] at h0
  rw [onlyGlyf_access hg, Res.ok_bind] at h0
  simp only at h0
  rw [valueOf_last (y := .cow tagGlyf (.glyf gs)) (by simp [Indep.St.var]), Res.ok_bind] at h0
  simp only [Indep.Var.val] at h0
  obtain ⟨⟨out, loca, is32⟩, hc, h0⟩ := bind_eq_ok h0
  obtain ⟨a1, h1, h0⟩ := bind_eq_ok h0
  obtain ⟨a2, h2, h0⟩ := bind_eq_ok h0
  obtain ⟨a3, h3, h0⟩ := bind_eq_ok h0
  obtain ⟨a4, h4, h0⟩ := bind_eq_ok h0
  obtain ⟨a5, h5, h6⟩ := bind_eq_ok h0
  have s1 := exec_drop h1
  have m3 := start_mid hg (a1 := a1) s1 h2 h3
  obtain ⟨hn, ⟨m, hm⟩, m4⟩ := maxp_fwd looked_closed (.inr (.inl rfl)) m3 h4
  obtain ⟨hd, hh, m5⟩ := head_fwd looked_closed (.inl rfl) m4 h5
  obtain ⟨x, hx, m6⟩ := hhea_fwd looked_closed1 ⟨⟨.inr (.inr (.inr rfl)), by decide⟩, ⟨.inr (.inr (.inl rfl)), by decide⟩⟩
    (by unfold put; rw [if_neg (by decide), if_neg (by decide), if_neg (by decide)]) m5 h6
  have m7 := layouts_fwd looked_closed2 rfl (m6.less (Q := fun t => t = tagMaxp) (by
    rintro t rfl
    exact ⟨⟨.inr (.inl rfl), by decide⟩, by decide⟩)) hlay
  exact ⟨_, ⟨out, loca, is32, hd, m, x, hc, hn, hm, hh, hx, rfl⟩, m7.bytes⟩

theorem compile_bwd {gs : List G} (hg : OnlyGlyf F T gs a) {T' : Tag → Option Bytes} (h : NewGlyphs F gs T T') :
    ∃ a', compileAll F (indepMachine F) a = .ok a' := by
  obtain ⟨out, loca, is32, hd, m, x, hc, hn, hm, hh, hx, rfl⟩ := h
  have hser : (indepMachine F).isSer a tagGlyf = some false := by
    simp [indepMachine, isSerializedA, hg.glyf]
  obtain ⟨a1, h1⟩ : ∃ a1, exec (indepMachine F) (.drop a.vars.length)
      { a with vars := a.vars ++ [some (.cow tagGlyf (.glyf gs))] } = .ok a1 := ⟨_, rfl⟩
  obtain ⟨a2, h2⟩ : ∃ a2, exec (indepMachine F) (.insertRaw tagGlyf out) a1 = .ok a2 := ⟨_, rfl⟩
  obtain ⟨a3, h3⟩ : ∃ a3, exec (indepMachine F) (.insertRaw tagLoca loca) a2 = .ok a3 := ⟨_, rfl⟩
  have s1 := exec_drop h1
  have m3 := start_mid hg (a1 := a1) s1 h2 h3
  obtain ⟨a4, h4⟩ := maxp_bwd looked_closed (.inr (.inl rfl)) m3 hn hm
  obtain ⟨_, _, m4⟩ := maxp_fwd looked_closed (.inr (.inl rfl)) m3 h4
  obtain ⟨a5, h5⟩ := head_bwd (is32 := is32) looked_closed (.inl rfl) m4 hh
  obtain ⟨_, _, m5⟩ := head_fwd looked_closed (.inl rfl) m4 h5
  have hpp : (Looked tagHhea ∧ tagHhea ≠ tagHead) ∧ (Looked tagHmtx ∧ tagHmtx ≠ tagHead) :=
    ⟨⟨.inr (.inr (.inr rfl)), by decide⟩, ⟨.inr (.inr (.inl rfl)), by decide⟩⟩
  obtain ⟨a6, h6⟩ := hhea_bwd looked_closed1 hpp m5 hx
  obtain ⟨_, _, m6⟩ := hhea_fwd looked_closed1 hpp
    (by unfold put; rw [if_neg (by decide), if_neg (by decide), if_neg (by decide)]) m5 h6
  obtain ⟨a7, h7⟩ := layouts_bwd looked_closed2 rfl (m6.less (Q := fun t => t = tagMaxp) (by
    rintro t rfl
    exact ⟨⟨.inr (.inl rfl), by decide⟩, by decide⟩)) hm
  refine ⟨a7, ?_⟩
  have hgl : compileGlyf F (indepMachine F) a = .ok a6 := by
    unfold compileGlyf
    rw [hser]
    simp only [Option.getD_some, Bool.false_and, Bool.false_eq_true, if_false]
    rw [onlyGlyf_access hg, Res.ok_bind]
    simp only
    rw [valueOf_last (y := .cow tagGlyf (.glyf gs)) (by simp [Indep.St.var]), Res.ok_bind]
    simp only [Indep.Var.val]
    rw [hc, Res.ok_bind]
    simp only
    rw [h1, Res.ok_bind, h2, Res.ok_bind, h3, Res.ok_bind, h4, Res.ok_bind, h5, Res.ok_bind, h6]
  unfold compileAll
  rw [hgl, Res.ok_bind, h7]

theorem HeadIs.unique {h h' : Head} (e : HeadIs T h) (e' : HeadIs T h') : h = h' := by
  obtain ⟨b, e1, e2⟩ := e
  obtain ⟨b', f1, f2⟩ := e'
  rw [e1] at f1; cases f1
  rw [e2] at f2; cases f2
  rfl

theorem NewGlyphs.unique {gs : List G} {T1 T2 : Tag → Option Bytes} (h : NewGlyphs F gs T T1) (h' : NewGlyphs F gs T T2) : T1 = T2 := by
  obtain ⟨out, loca, is32, hd, m, x, hc, _, _, hh, hx, rfl⟩ := h
  obtain ⟨out', loca', is32', hd', m', x', hc', _, _, hh', hx', rfl⟩ := h'
  rw [hc] at hc'
  cases hc'
  obtain rfl := hh.unique hh'
  have : x = x' := by
    rcases hx with ⟨n1, rfl⟩ | ⟨h1, l1, n1, e1, e2, e3, rfl⟩
    · rcases hx' with ⟨_, rfl⟩ | ⟨_, _, _, _, ⟨_, _, _, e, _⟩, _⟩
      · rfl
      · rw [n1] at e; cases e
    · rcases hx' with ⟨n2, _⟩ | ⟨h2, l2, n2, f1, f2, f3, rfl⟩
      · obtain ⟨_, _, _, e, _⟩ := e2
        rw [n2] at e; cases e
      · obtain rfl := e1.unique f1
        obtain rfl := e2.unique f2
        rw [e3] at f3
        cases f3
        rfl
  rw [this]

/-- Saving a font whose glyphs were replaced. -/
theorem save_glyphs {s : Store.St (Loaded G O)} {gs : List G} (hr : Rep s a) (hg : OnlyGlyf F T gs a) (version : UInt32) (out : Bytes) :
    save F version s = .ok out ↔ ∃ T' l, NewGlyphs F gs T T' ∧ BMap.Sorted l ∧ (∀ t, BMap.get? l t = T' t) ∧
      Font.toBytes version l = .ok out := by
  have hsim := sim_compileAll (sim_indep F) F hr
  have hopt : ∀ x y : Option Bytes, x.map Res.ok = y.map Res.ok ↔ x = y := by
    intro x y
    cases x <;> cases y <;> simp
  constructor
  · intro h
    obtain ⟨s', h1, h⟩ := bind_eq_ok h
    obtain ⟨l, h2, h3⟩ := bind_eq_ok h
    rw [h1] at hsim
    cases hc : compileAll F (indepMachine F) a with
    | err => rw [hc] at hsim; exact hsim.elim
    | panic => rw [hc] at hsim; exact hsim.elim
    | ok a' =>
      rw [hc] at hsim
      have hr' : Rep s' a' := hsim
      obtain ⟨T', g1, g2⟩ := compile_fwd hg hc
      obtain ⟨hT, hb⟩ := (writeAll_iff hr' l).mp h2
      exact ⟨T', l, g1, hT, fun t => (hopt _ _).mp (by rw [hb, g2]), h3⟩
  · rintro ⟨T', l, g1, g2, g3, g4⟩
    obtain ⟨a', hc⟩ := compile_bwd hg g1
    obtain ⟨T2, k1, k2⟩ := compile_fwd hg hc
    obtain rfl := g1.unique k1
    rw [hc] at hsim
    unfold save
    cases hc' : compileAll F (storeMachine F) s with
    | err => rw [hc'] at hsim; exact hsim.elim
    | panic => rw [hc'] at hsim; exact hsim.elim
    | ok s' =>
      rw [hc'] at hsim
      have hr' : Rep s' a' := hsim
      have hw : writeAll F s' = .ok l := (writeAll_iff hr' l).mpr ⟨g2, fun t => by rw [g3, k2]⟩
      rw [Res.ok_bind, hw, Res.ok_bind, g4]

end

/-! ### The tool -/

section
variable {X : Type} {R : Rest X} {T : Tag → Option Bytes}

theorem flatten_fwd {a a' : AStore X} (ha : Stands (fmt R) T a) (h : flattenBody (indepMachine (fmt R)) a = .ok a') :
    ∃ gs flat, GlyfIs T gs ∧ flattenTable gs = .ok flat ∧ OnlyGlyf (fmt R) T flat a' := by
  unfold flattenBody at h
  obtain ⟨⟨i, a1⟩, h1, h⟩ := bind_eq_ok h
  obtain ⟨g1, v, m1, w1, rfl⟩ := require_stands ha h1
  obtain ⟨gs, eg, rfl⟩ := means_glyf.mp m1
  obtain ⟨x, h2, h⟩ := bind_eq_ok h
  unfold glyphsOf at h2
  rw [valueOf_last (var_last w1)] at h2
  cases h2
  obtain ⟨flat, h3, h⟩ := bind_eq_ok h
  obtain ⟨a2, h4, h5⟩ := bind_eq_ok h
  obtain ⟨s4, v4⟩ := exec_modify h4
  have hs := exec_insertHolder (v4 _ _ (var_last w1)) h5
  refine ⟨gs, flat, eg, h3, onlyGlyf_of ?_ fun t ht => ?_⟩
  · rw [hs]; simp [Indep.set]
  · rw [hs, Indep.set, if_neg ht, s4]
    exact g1 t

theorem flatten_bwd {a : AStore X} (ha : Stands (fmt R) T a) {gs flat : List Glyph} (hg : GlyfIs T gs) (hf : flattenTable gs = .ok flat) :
    ∃ a', flattenBody (indepMachine (fmt R)) a = .ok a' := by
  obtain ⟨a1, h1, g1, w1⟩ := require_means (R := R) ha (means_glyf.mpr ⟨gs, hg, rfl⟩)
  obtain ⟨a2, h2⟩ := exec_modify_cow (fmt R) a1 a.vars.length (fun _ => .glyf flat) (var_last w1)
  obtain ⟨a3, h3⟩ := exec_insert_cow (fmt R) a2 a.vars.length ((exec_modify h2).2 _ _ (var_last w1))
  refine ⟨a3, ?_⟩
  unfold flattenBody
  rw [h1, Res.ok_bind]
  simp only
  have v1 : glyphsOf (indepMachine (fmt R)) a.vars.length a1 = .ok gs := by
    unfold glyphsOf
    rw [valueOf_last (var_last w1)]
    rfl
  rw [v1, Res.ok_bind, hf, Res.ok_bind, h2, Res.ok_bind, h3]

theorem sim_flatten (s : Store.St (Val X)) (a : AStore X) (h : Rep s a) :
    RelR Rep (flattenBody (storeMachine (fmt R)) s) (flattenBody (indepMachine (fmt R)) a) := by
  have hS := sim_indep (fmt R)
  unfold flattenBody
  refine (sim_require hS _ h).bind ?_
  rintro ⟨i1, s1⟩ ⟨j1, a1⟩ ⟨e1, k1⟩
  obtain rfl : i1 = j1 := e1
  refine RelR.bind (R := fun x y => x = y) ?_ ?_
  · unfold glyphsOf
    refine (sim_valueOf hS i1 k1).bind ?_
    rintro v _ rfl
    exact RelR.eq _
  rintro gs _ rfl
  refine (RelR.eq _).bind ?_
  rintro flat _ rfl
  refine (sim_exec hS _ k1).bind ?_
  intro s2 a2 k2
  exact sim_exec hS _ k2

theorem flatten_spec (R : Rest X) (input out : Bytes) : flattenComponents R input = .ok out ↔
    ∃ v T gs flat T' l, IsFont input v T ∧ Openable T ∧ GlyfIs T gs ∧ flattenTable gs = .ok flat ∧ NewGlyphs (fmt R) flat T T' ∧
      BMap.Sorted l ∧ (∀ t, BMap.get? l t = T' t) ∧ Font.toBytes v l = .ok out := by
  constructor
  · intro h
    obtain ⟨v, tables, r, a, a', s', e1, e2, e3, e4, e5⟩ := tool_ok (bodyA := flattenBody (indepMachine (fmt R))) sim_flatten h
    obtain ⟨g1, g2⟩ := open_stands (T := fun t => BMap.get? tables t) e2 (fun _ => rfl)
    obtain ⟨gs, flat, g3, g4, g5⟩ := flatten_fwd g2 e3
    obtain ⟨T', l, g6, g7, g8, g9⟩ := (save_glyphs e4 g5 v out).mp e5
    exact ⟨v, _, gs, flat, T', l, ⟨tables, r, e1, fun _ => rfl⟩, g1, g3, g4, g6, g7, g8, g9⟩
  · rintro ⟨v, T, gs, flat, T', l, ⟨tables, r, e1, eT⟩, g1, g3, g4, g6, g7, g8, g9⟩
    obtain ⟨a, e2, g2⟩ := open_ok (fmt R) g1 eT
    obtain ⟨a', e3⟩ := flatten_bwd g2 g3 g4
    obtain ⟨gs2, flat2, k1, k2, k3⟩ := flatten_fwd g2 e3
    obtain rfl := g3.unique k1
    rw [g4] at k2
    cases k2
    exact tool_of (bodyA := flattenBody (indepMachine (fmt R))) sim_flatten e1 e2 e3
      (fun s' hr => (save_glyphs hr k3 v out).mpr ⟨T', l, g6, g7, g8, g9⟩)

end

end FT.Cli
