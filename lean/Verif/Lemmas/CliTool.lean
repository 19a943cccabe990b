import Verif.Lemmas.CliSave

/-! What a command line tool writes, given what it does to the tables. -/

namespace FT.Cli
open FT FT.Store FT.Save FT.Tables FT.Props

/-- The file is a font with this version and these tables. -/
def IsFont (file : Bytes) (version : UInt32) (T : Tag → Option Bytes) : Prop :=
  ∃ tables r, Font.readTables (Rd.new file) = .ok ((version, tables), r) ∧ ∀ t, BMap.get? tables t = T t

/-- The head table can be read. -/
def HeadIs (T : Tag → Option Bytes) (h : Head) : Prop := ∃ b, T tagHead = some b ∧ runAll readHead b = .ok h

/-- A font that can be opened: `head` and `loca`, where present, can be read. -/
def Openable (T : Tag → Option Bytes) : Prop :=
  (T tagHead = none ∨ ∃ h, HeadIs T h) ∧
  (T tagLoca = none ∨ ∃ h b l, HeadIs T h ∧ T tagLoca = some b ∧ runAll (Loca.fromBytes (h.indexToLocFormat == 1)) b = .ok l)

/-- The `maxp` table can be read. -/
def MaxpIs (T : Tag → Option Bytes) (m : Maxp) : Prop := ∃ b, T tagMaxp = some b ∧ runAll readMaxp b = .ok m

/-- `file` is a font with these tables, but for the checksum adjustment, which makes the words of the file add up to
the required sum. -/
structure Saved (version : UInt32) (T : Tag → Option Bytes) (file : Bytes) : Prop where
  font : ∃ T', IsFont file version T' ∧ (∀ t, t ≠ tagHead → T' t = T t) ∧
    ((T tagHead = none ∧ T' tagHead = none) ∨
      ∃ b b', T tagHead = some b ∧ T' tagHead = some b' ∧ sameExceptAdjustment b b')
  sum : T tagHead ≠ none → wordSum file % 2 ^ 32 = 0xB1B0AFBA

theorem IsFont.unique {file : Bytes} {v v' : UInt32} {T T' : Tag → Option Bytes} (h : IsFont file v T)
    (h' : IsFont file v' T') : v = v' ∧ T = T' := by
  obtain ⟨l, r, e, h⟩ := h
  obtain ⟨l', r', e', h'⟩ := h'
  rw [e] at e'
  cases e'
  exact ⟨rfl, funext fun t => by rw [← h t, ← h' t]⟩

section
variable {G O : Type} {F : Fmt G O} {T : Tag → Option Bytes}

theorem means_head {v : Loaded G O} : Means F T tagHead v ↔ ∃ h, HeadIs T h ∧ v = .head h := by
  have hd : dep tagHead = none := by decide
  have hp : ∀ b d, Save.parse F tagHead b d = (do return .head (← runAll readHead b)) := by
    intro b d
    unfold Save.parse
    rw [if_pos rfl]
  constructor
  · intro h
    cases h with
    | plain h _ h2 =>
      rw [hp] at h2
      obtain ⟨m, h3, h4⟩ := bind_eq_ok h2
      exact ⟨m, ⟨_, h, h3⟩, (Res.ok.inj h4).symm⟩
    | after _ h2 => rw [hd] at h2; cases h2
  · rintro ⟨m, ⟨b, h1, h2⟩, rfl⟩
    refine .plain h1 hd ?_
    rw [hp, h2]
    rfl

theorem means_loca {v : Loaded G O} : Means F T tagLoca v ↔ ∃ h b l, HeadIs T h ∧ T tagLoca = some b ∧
    runAll (Loca.fromBytes (h.indexToLocFormat == 1)) b = .ok l ∧ v = .loca l := by
  have hd : dep tagLoca = some tagHead := by decide
  have hp : ∀ b h, Save.parse F tagLoca b (some (.head h)) =
      (do return .loca (← runAll (Loca.fromBytes (h.indexToLocFormat == 1)) b)) := by
    intro b h
    unfold Save.parse
    rw [if_neg (by decide), if_neg (by decide), if_neg (by decide), if_neg (by decide), if_pos rfl]
  constructor
  · intro h
    cases h with
    | plain _ h2 => rw [hd] at h2; cases h2
    | after h h2 h3 h4 =>
      rw [hd] at h2
      cases h2
      obtain ⟨hh, e, rfl⟩ := means_head.mp h3
      rw [hp] at h4
      obtain ⟨l, h5, h6⟩ := bind_eq_ok h4
      exact ⟨hh, _, l, e, h, h5, (Res.ok.inj h6).symm⟩
  · rintro ⟨hh, b, l, e, h1, h2, rfl⟩
    refine .after h1 hd (means_head.mpr ⟨hh, e, rfl⟩) ?_
    rw [hp, h2]
    rfl

theorem open_stands {tables : List (Tag × Bytes)} {a : ASt G O} (h : openTables (indepMachine F) (Indep.fresh tables) = .ok a)
    (hT : ∀ t, BMap.get? tables t = T t) : Openable T ∧ Stands F T a := by
  obtain rfl : (fun t => BMap.get? tables t) = T := funext hT
  obtain ⟨a1, h1, h2⟩ := bind_eq_ok h
  obtain ⟨s1, c1⟩ := preload_stands (stands_fresh tables) h1
  obtain ⟨s2, c2⟩ := preload_stands s1 h2
  refine ⟨⟨?_, ?_⟩, s2⟩
  · rcases c1 with c1 | ⟨v, c1⟩
    · exact .inl c1
    · obtain ⟨h, e, _⟩ := means_head.mp c1; exact .inr ⟨h, e⟩
  · rcases c2 with c2 | ⟨v, c2⟩
    · exact .inl c2
    · obtain ⟨h, b, l, e, e1, e2, _⟩ := means_loca.mp c2; exact .inr ⟨h, b, l, e, e1, e2⟩

theorem open_ok (F : Fmt G O) {tables : List (Tag × Bytes)} (ho : Openable T) (hT : ∀ t, BMap.get? tables t = T t) :
    ∃ a, openTables (indepMachine F) (Indep.fresh tables) = .ok a ∧ Stands F T a := by
  suffices ∃ a, openTables (indepMachine F) (Indep.fresh tables) = .ok a by
    obtain ⟨a, e⟩ := this
    exact ⟨a, e, (open_stands e hT).2⟩
  obtain rfl : (fun t => BMap.get? tables t) = T := funext hT
  obtain ⟨a1, e1, s1⟩ := preload_ok (F := F) (t := tagHead) (stands_fresh tables) (by
    rcases ho.1 with h | ⟨h, e⟩
    · exact .inl h
    · exact .inr ⟨_, means_head.mpr ⟨h, e, rfl⟩⟩)
  obtain ⟨a2, e2, s2⟩ := preload_ok (F := F) (t := tagLoca) s1 (by
    rcases ho.2 with h | ⟨h, b, l, e, e1, e2⟩
    · exact .inl h
    · exact .inr ⟨_, means_loca.mpr ⟨h, b, l, e, e1, e2, rfl⟩⟩)
  exact ⟨a2, by unfold openTables; rw [e1, Res.ok_bind, e2]⟩

/-- Nothing was changed. -/
theorem Stands.bytes {a : ASt G O} (h : Stands F T a) (t : Tag) : bytesOf F a t = (T t).map Res.ok := by
  unfold bytesOf Indep.write
  rcases h t with ⟨h1, h2⟩ | ⟨b, h1, h2 | ⟨v, h2, _⟩⟩
  · rw [h1, h2]; rfl
  · rw [h1, h2]; rfl
  · rw [h1, h2]; rfl

theorem Stands.ser {a : ASt G O} (h : Stands F T a) (t : Tag) : (isSerializedA a t).getD true = true := by
  unfold isSerializedA
  rcases h t with ⟨h1, h2⟩ | ⟨b, h1, h2 | ⟨v, h2, _⟩⟩
  · rw [h2]; rfl
  · rw [h2]; rfl
  · rw [h2]; rfl

theorem Stands.left {a : ASt G O} (h : Stands F T a) : Left F T T a := ⟨h.bytes, fun t _ => h.ser t, h _⟩

/-- Replacing a table by bytes. -/
theorem Left.raw_insert {T' : Tag → Option Bytes} {a a' : ASt G O} (h : Left F T T' a) {t : Tag} {b : Bytes} (ht : ¬ Compiled t)
    (ha : exec (indepMachine F) (.insertRaw t b) a = .ok a') : Left F T (fun t' => if t' = t then some b else T' t') a' := by
  have hs := exec_insertRaw ha
  have hstore : ∀ t', a'.store t' = if t' = t then some (.unloaded b) else a.store t' := by
    intro t'
    rw [hs]
    simp [Indep.set]
  refine ⟨fun t' => ?_, fun t' hc => ?_, ?_⟩
  · have := h.bytes t'
    unfold bytesOf Indep.write at this ⊢
    rw [hstore]
    by_cases e : t' = t
    · simp [e]
    · simp only [e, if_false]; exact this
  · have := h.raw t' hc
    unfold isSerializedA at this ⊢
    rw [hstore, if_neg (fun e : t' = t => ht (e ▸ hc))]
    exact this
  · rw [hstore, if_neg (fun e => ht (by rw [← e]; exact .inr (.inr (.inl rfl))))]
    exact h.maxp

/-- Replacing a table by a value. -/
theorem Left.value_insert {T' : Tag → Option Bytes} {a a' : ASt G O} (h : Left F T T' a) {t : Tag} {v : Loaded G O} {b : Bytes}
    (ht : ¬ Compiled t) (hb : ser F v = .ok b) (hs : a'.store = Indep.set a.store t (some (.loaded ⟨t, none, v⟩))) :
    Left F T (fun t' => if t' = t then some b else T' t') a' := by
  have hstore : ∀ t', a'.store t' = if t' = t then some (.loaded ⟨t, none, v⟩) else a.store t' := by
    intro t'
    rw [hs]
    simp [Indep.set]
  refine ⟨fun t' => ?_, fun t' hc => ?_, ?_⟩
  · have := h.bytes t'
    unfold bytesOf Indep.write at this ⊢
    rw [hstore]
    by_cases e : t' = t
    · subst e
      simp only [if_true, Option.map_some, Option.some.injEq]
      exact hb
    · simp only [e, if_false]; exact this
  · have := h.raw t' hc
    unfold isSerializedA at this ⊢
    rw [hstore, if_neg (fun e : t' = t => ht (e ▸ hc))]
    exact this
  · rw [hstore, if_neg (fun e => ht (by rw [← e]; exact .inr (.inr (.inl rfl))))]
    exact h.maxp

end

section
variable {X : Type} {R : Rest X}

theorem save_left {s : Store.St (Val X)} {a : AStore X} {T T' : Tag → Option Bytes} (hr : Rep s a) (h : Left (fmt R) T T' a)
    (v : UInt32) (out : Bytes) : save (fmt R) v s = .ok out ↔
      (∃ m, MaxpIs T m) ∧ ∃ l, BMap.Sorted l ∧ (∀ t, BMap.get? l t = T' t) ∧ Font.toBytes v l = .ok out := by
  rw [save_iff hr h.raw, access_maxp h.maxp]
  have hopt : ∀ x y : Option Bytes, x.map Res.ok = y.map Res.ok ↔ x = y := by
    intro x y
    cases x <;> cases y <;> simp
  simp only [h.bytes, hopt]
  constructor
  · rintro ⟨⟨b, m, h1, h2⟩, h3⟩
    exact ⟨⟨m, b, h1, h2⟩, h3⟩
  · rintro ⟨⟨m, b, h1, h2⟩, h3⟩
    exact ⟨⟨b, m, h1, h2⟩, h3⟩

/-- A tool that changes the tables according to `Does`. -/
theorem tool_spec {body : Store.St (Val X) → Res (Store.St (Val X))} {bodyA : AStore X → Res (AStore X)}
    (hsim : ∀ s a, Rep s a → RelR Rep (body s) (bodyA a)) {Does : (Tag → Option Bytes) → (Tag → Option Bytes) → Prop}
    (h1 : ∀ T a a' s v out, Stands (fmt R) T a → bodyA a = .ok a' → Rep s a' → save (fmt R) v s = .ok out →
      ∃ T', Does T T' ∧ Left (fmt R) T T' a')
    (h2 : ∀ T T' a, Stands (fmt R) T a → Does T T' → ∃ a', bodyA a = .ok a' ∧ Left (fmt R) T T' a') (input out : Bytes) :
    tool R body input = .ok out ↔ ∃ v T T' l, IsFont input v T ∧ Openable T ∧ Does T T' ∧ (∃ m, MaxpIs T m) ∧
      BMap.Sorted l ∧ (∀ t, BMap.get? l t = T' t) ∧ Font.toBytes v l = .ok out := by
  constructor
  · intro h
    obtain ⟨v, tables, r, a, a', s', e1, e2, e3, e4, e5⟩ := tool_ok hsim h
    obtain ⟨g1, g2⟩ := open_stands (T := fun t => BMap.get? tables t) e2 (fun _ => rfl)
    obtain ⟨T', g3, g4⟩ := h1 _ _ _ _ _ _ g2 e3 e4 e5
    obtain ⟨g5, l, g6, g7, g8⟩ := (save_left e4 g4 v out).mp e5
    exact ⟨v, _, T', l, ⟨tables, r, e1, fun _ => rfl⟩, g1, g3, g5, g6, g7, g8⟩
  · rintro ⟨v, T, T', l, ⟨tables, r, e1, eT⟩, g1, g3, g5, g6, g7, g8⟩
    obtain ⟨a, e2, g2⟩ := open_ok (fmt R) g1 eT
    obtain ⟨a', e3, g4⟩ := h2 _ _ _ g2 g3
    exact tool_of hsim e1 e2 e3 (fun s' hr => (save_left hr g4 v out).mpr ⟨g5, l, g6, g7, g8⟩)

theorem loads_sorted {input : Bytes} {v : UInt32} {T : Tag → Option Bytes} (h : IsFont input v T) :
    (∀ t, T t ≠ none → t.Valid) ∧ VersionOk v := by
  obtain ⟨l, r, e, h⟩ := h
  obtain ⟨h1, h2, h3⟩ := loads_facts e
  refine ⟨fun t ht => ?_, h3⟩
  rw [← h t] at ht
  obtain ⟨b, hb⟩ := Option.ne_none_iff_exists'.mp ht
  exact h2 _ ((BMap.get?_eq_some h1).mp hb)

/-- What is in a saved file. -/
theorem saved_of {v : UInt32} {T : Tag → Option Bytes} {l : List (Tag × Bytes)} {out : Bytes} (hv : VersionOk v)
    (ht : ∀ t, T t ≠ none → t.Valid) (hs : BMap.Sorted l) (hl : ∀ t, BMap.get? l t = T t)
    (h : Font.toBytes v l = .ok out) (hsize : out.length < 2 ^ 32) : Saved v T out := by
  have hasc := sorted_ascending hs
  have hmem : ∀ t b, (t, b) ∈ l → T t = some b := fun t b hm => by rw [← hl]; exact (BMap.get?_eq_some hs).mpr hm
  obtain ⟨l', r', e, hlen, hall⟩ := C19_save_reload v l out hasc (fun t b hm => ht t (by simp [hmem t b hm])) hv h hsize
  have htags : l'.map Prod.fst = l.map Prod.fst := by
    refine List.ext_getElem (by simp [hlen]) ?_
    intro i h1 h2
    simp only [List.length_map] at h1 h2
    simp only [List.getElem_map]
    exact (hall i h2 h1).1
  have hs' : BMap.Sorted l' := sorted_tags htags hs
  have hget : ∀ t b, T t = some b → ∃ b', BMap.get? l' t = some b' ∧ (t ≠ tagHead → b' = b) ∧
      (t = tagHead → sameExceptAdjustment b b') := by
    intro t b hb
    rw [← hl t] at hb
    have hm := (BMap.get?_eq_some hs).mp hb
    obtain ⟨i, hi, e⟩ := List.getElem_of_mem hm
    have hi' : i < l'.length := by omega
    obtain ⟨g1, g2, g3⟩ := hall i hi hi'
    rw [e] at g1 g2 g3
    refine ⟨l'[i].2, (BMap.get?_eq_some hs').mpr ?_, fun hne => g2 (fun hh => hne ((isHead_iff t).mp hh)),
      fun he => g3 ((isHead_iff t).mpr he)⟩
    have := List.getElem_mem hi'
    rw [show l'[i] = (t, l'[i].2) from Prod.ext g1 rfl] at this
    exact this
  have hnone : ∀ t, T t = none → BMap.get? l' t = none := by
    intro t hn
    rw [← hl t] at hn
    exact (get_keys htags t hs).mpr hn
  refine ⟨⟨fun t => BMap.get? l' t, ⟨l', r', e, fun _ => rfl⟩, fun t hne => ?_, ?_⟩, fun hne => ?_⟩
  · cases hT : T t with
    | none => exact hnone t hT
    | some b =>
      obtain ⟨b', e1, e2, _⟩ := hget t b hT
      rw [← e2 hne]
      exact e1
  · cases hT : T tagHead with
    | none => exact .inl ⟨rfl, hnone _ hT⟩
    | some b =>
      obtain ⟨b', e1, _, e3⟩ := hget _ b hT
      exact .inr ⟨b, b', rfl, e1, e3 rfl⟩
  · obtain ⟨b, hb⟩ := Option.ne_none_iff_exists'.mp hne
    rw [← hl] at hb
    exact C18_file_checksum v l out hasc ⟨_, _, (BMap.get?_eq_some hs).mp hb, (isHead_iff _).mpr rfl⟩ h

theorem insert_length_le {κ α : Type} [Key κ] : ∀ (m : List (κ × α)) (k : κ) (v : α), (BMap.insert m k v).length ≤ m.length + 1
  | [], k, v => by simp [BMap.insert]
  | (k', v') :: m, k, v => by
    have := insert_length_le m k v
    unfold BMap.insert
    split
    · simp
    · split <;> simp <;> omega

theorem sorted_build (T : Tag → Option Bytes) : ∀ l : List Tag, ∃ m : List (Tag × Bytes), BMap.Sorted m ∧ m.length ≤ l.length ∧
    (∀ t ∈ l, BMap.get? m t = T t) ∧ ∀ x ∈ m, T x.1 = some x.2
  | [] => ⟨[], by simp [BMap.Sorted], by simp, by simp, by simp⟩
  | t :: l => by
    obtain ⟨m, h1, h2, h3, h4⟩ := sorted_build T l
    cases ht : T t with
    | none =>
      refine ⟨m, h1, by simp; omega, ?_, h4⟩
      intro t' h'
      rcases List.mem_cons.mp h' with rfl | h'
      · rw [ht]
        rw [BMap.get?_eq_none h1]
        intro x hx e
        have := h4 x hx
        rw [e, ht] at this; cases this
      · exact h3 t' h'
    | some b =>
      refine ⟨BMap.insert m t b, BMap.insert_sorted h1 _ _, ?_, ?_, ?_⟩
      · have := insert_length_le m t b
        simp; omega
      · intro t' h'
        by_cases e : t' = t
        · subst e; rw [BMap.get?_insert_self, ht]
        · rw [BMap.get?_insert_ne _ e]
          rcases List.mem_cons.mp h' with h' | h'
          · exact absurd h' e
          · exact h3 t' h'
      · intro x hx
        rcases BMap.mem_insert hx with rfl | hx
        · exact ht
        · exact h4 x hx

theorem bounded_step {α : Type} {p : Reader α} {w : Nat} (hp : BoundedRead p w) {r r' : Rd} {a : α} (h : p r = .ok (a, r')) :
    r.ptr + w ≤ r.inp.length ∧ r' = { r with ptr := r.ptr + w } := by
  rcases Nat.lt_or_ge r.inp.length (r.ptr + w) with hl | hl
  · rw [(hp r).2 hl] at h; cases h
  · obtain ⟨a', e⟩ := (hp r).1 hl
    rw [h] at e
    cases e
    exact ⟨hl, rfl⟩

theorem head_long {h : Head} {b : Bytes} (hh : runAll readHead b = .ok h) : 12 ≤ b.length := by
  unfold runAll at hh
  cases hr : readHead (Rd.new b) with
  | err => rw [hr] at hh; cases hh
  | panic => rw [hr] at hh; cases hh
  | ok x =>
    unfold readHead at hr
    obtain ⟨_, r1, h1, hr⟩ := reader_bind_ok hr
    obtain ⟨_, r2, h2, hr⟩ := reader_bind_ok hr
    obtain ⟨_, r3, h3, hr⟩ := reader_bind_ok hr
    obtain ⟨_, r4, h4, hr⟩ := reader_bind_ok hr
    obtain ⟨_, rfl⟩ := bounded_step C03_u16 h1
    obtain ⟨_, rfl⟩ := bounded_step C03_u16 h2
    unfold F32.readFixed at h3
    obtain ⟨_, r5, h5, h3⟩ := reader_bind_ok h3
    cases h3
    obtain ⟨_, rfl⟩ := bounded_step C03_i32 h5
    obtain ⟨h6, _⟩ := bounded_step C03_u32 h4
    simpa [Rd.new] using h6

theorem toBytes_iff {v : UInt32} {T : Tag → Option Bytes} (hh : ∀ b, T tagHead = some b → 12 ≤ b.length) :
    (∃ l out, BMap.Sorted l ∧ (∀ t, BMap.get? l t = T t) ∧ Font.toBytes v l = .ok out) ↔ FewTables T := by
  constructor
  · rintro ⟨l, out, hs, hl, h⟩
    obtain ⟨hn, _⟩ := (C18_saving_succeeds_iff v l (sorted_ascending hs)).1.mp ⟨out, h⟩
    refine ⟨l.map Prod.fst, by simpa using hn, fun t ht => ?_⟩
    obtain ⟨b, hb⟩ := Option.ne_none_iff_exists'.mp ht
    rw [← hl] at hb
    exact List.mem_map.mpr ⟨_, (BMap.get?_eq_some hs).mp hb, rfl⟩
  · rintro ⟨l, hn, hl⟩
    obtain ⟨m, h1, h2, h3, h4⟩ := sorted_build T l
    have hm : ∀ t, BMap.get? m t = T t := by
      intro t
      by_cases e : T t = none
      · rw [e, BMap.get?_eq_none h1]
        intro x hx e'
        have := h4 x hx
        rw [e', e] at this; cases this
      · exact h3 t (hl t e)
    obtain ⟨out, ho⟩ := (C18_saving_succeeds_iff v m (sorted_ascending h1)).1.mpr ⟨by omega, fun t b hx ht => by
      have := h4 _ hx
      rw [(isHead_iff t).mp ht] at this
      exact hh b this⟩
    exact ⟨m, out, h1, hm, ho⟩

end

end FT.Cli
