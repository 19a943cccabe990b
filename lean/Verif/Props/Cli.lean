import Verif.Lemmas.CliAgain

/-!
C83: the command line tools `ttf-fix-checksum`, `ttf-add-minimal-dsig` and `ttf-fix-non-hinted`, from the bytes of the
input file to the bytes of the output file.

Vocabulary (in Lemmas/CliTool): `IsFont file version T`, the file is a font with these tables; `Openable T`, its `head`
and `loca` can be read; `MaxpIs T m`, its `maxp` can be read; `FewTables T`, fewer than 4096 tables;
`Saved version T file`, the file is a font with these tables, except that the checksum adjustment makes it add up.
-/

namespace FT.Cli
open FT FT.Store FT.Save FT.Tables FT.Props

/-- Changes the tables. -/
abbrev Change := (Tag → Option Bytes) → Tag → Option Bytes

/-- Specification: the tool writes a file exactly for fonts whose tables satisfy `ok`. -/
def Accepts (f : Bytes → Res Bytes) (ok : (Tag → Option Bytes) → Prop) : Prop :=
  ∀ input, (∃ out, f input = .ok out) ↔ ∃ v T, IsFont input v T ∧ ok T

/-- Specification: the file it writes is the input with its tables changed. -/
def Writes (f : Bytes → Res Bytes) (g : Change) : Prop :=
  ∀ input out, f input = .ok out → out.length < 2 ^ 32 → ∃ v T, IsFont input v T ∧ Saved v (g T) out

/-- Specification: running the tool on its output gives the same file. -/
def Idempotent (f : Bytes → Res Bytes) : Prop :=
  ∀ input out, f input = .ok out → out.length < 2 ^ 32 → f out = .ok out

/-- A font that can be saved after its tables became `g T`. -/
def Usable (g : Change) (T : Tag → Option Bytes) : Prop := Openable T ∧ (∃ m, MaxpIs T m) ∧ FewTables (g T)

/-- Specification: all tables stay as they are. -/
def unchanged : Change := fun T t => T t

theorem unchanged_eq (T : Tag → Option Bytes) (t : Tag) : unchanged T t = T t := rfl

/-- Specification: a signature table of version 1 without signatures, unless there is one. -/
def withSignature : Change := fun T t =>
  if t.bytes = ascii "DSIG" ∧ T t = none then some [0, 0, 0, 1, 0, 0, 0, 0] else T t

/-- Specification: the control value program that turns off instructions, and smooth rendering at all sizes unless
the font says otherwise. -/
def unhinted : Change := fun T t =>
  if t.bytes = ascii "prep" then some [0xb8, 0x01, 0xff, 0x85, 0xb0, 0x04, 0x8d]
  else if t.bytes = ascii "gasp" ∧ T t = none then some [0, 1, 0, 1, 0xff, 0xff, 0, 0x0f]
  else T t

theorem bytes_iff {t : Tag} {s : String} {u : Tag} (h : u.bytes = ascii s) : t.bytes = ascii s ↔ t = u := by
  rw [← h]
  obtain ⟨a, b, c, d⟩ := t
  obtain ⟨a', b', c', d'⟩ := u
  simp [Tag.bytes]

theorem withSignature_eq (T : Tag → Option Bytes) (t : Tag) : withSignature T t =
    if t = tagDSIG ∧ T t = none then some [0, 0, 0, 1, 0, 0, 0, 0] else T t := by
  unfold withSignature
  simp only [bytes_iff (show tagDSIG.bytes = ascii "DSIG" by decide)]

theorem unhinted_eq (T : Tag → Option Bytes) (t : Tag) : unhinted T t =
    if t = tagPrep then some [0xb8, 0x01, 0xff, 0x85, 0xb0, 0x04, 0x8d]
    else if t = tagGasp ∧ T t = none then some [0, 1, 0, 1, 0xff, 0xff, 0, 0x0f] else T t := by
  unfold unhinted
  simp only [bytes_iff (show tagPrep.bytes = ascii "prep" by decide), bytes_iff (show tagGasp.bytes = ascii "gasp" by decide)]

section
variable {X : Type} {R : Rest X}

/-- A tool that does `g`. -/
structure ToolDoes (f : Bytes → Res Bytes) (g : Change) : Prop where
  spec : ∀ input out, f input = .ok out ↔ ∃ v T l, IsFont input v T ∧ Openable T ∧ (∃ m, MaxpIs T m) ∧
    BMap.Sorted l ∧ (∀ t, BMap.get? l t = g T t) ∧ Font.toBytes v l = .ok out
  head : ∀ T, g T tagHead = T tagHead
  loca : ∀ T, g T tagLoca = T tagLoca
  maxp : ∀ T, g T tagMaxp = T tagMaxp
  valid : ∀ T t, g T t ≠ none → T t ≠ none ∨ t.Valid
  again : ∀ T T', SameBut (g T) T' → g T' = T'

theorem toolDoes_of {body : Store.St (Val X) → Res (Store.St (Val X))} {bodyA : AStore X → Res (AStore X)}
    (hsim : ∀ s a, Rep s a → RelR Rep (body s) (bodyA a)) {g : Change}
    (h : ∀ T a, Stands (fmt R) T a → ∃ a', bodyA a = .ok a' ∧ Left (fmt R) T (g T) a') (input out : Bytes) :
    tool R body input = .ok out ↔ ∃ v T l, IsFont input v T ∧ Openable T ∧ (∃ m, MaxpIs T m) ∧
      BMap.Sorted l ∧ (∀ t, BMap.get? l t = g T t) ∧ Font.toBytes v l = .ok out := by
  rw [tool_spec hsim (Does := fun T T' => T' = g T)]
  · constructor
    · rintro ⟨v, T, _, l, h1, h2, rfl, h3, h4⟩
      exact ⟨v, T, l, h1, h2, h3, h4⟩
    · rintro ⟨v, T, l, h1, h2, h3, h4⟩
      exact ⟨v, T, _, l, h1, h2, rfl, h3, h4⟩
  · intro T a a' _ _ _ hs hb _ _
    obtain ⟨a'', e, hl⟩ := h T a hs
    rw [hb] at e
    cases e
    exact ⟨_, rfl, hl⟩
  · rintro T _ a hs rfl
    exact h T a hs

variable {f : Bytes → Res Bytes} {g : Change}

theorem ToolDoes.headLong (_ : ToolDoes f g) {T : Tag → Option Bytes} (ho : Openable T) :
    ∀ b, T tagHead = some b → 12 ≤ b.length := by
  intro b hb
  rcases ho.1 with h | ⟨x, b', h1, h2⟩
  · rw [h] at hb; cases hb
  · rw [h1] at hb; cases hb; exact head_long h2

theorem ToolDoes.accepts (h : ToolDoes f g) : Accepts f (Usable g) := by
  intro input
  constructor
  · rintro ⟨out, e⟩
    obtain ⟨v, T, l, h1, h2, h3, h4, h5, h6⟩ := (h.spec _ _).mp e
    exact ⟨v, T, h1, h2, h3, (toBytes_iff (by rw [h.head]; exact h.headLong h2)).mp ⟨l, out, h4, h5, h6⟩⟩
  · rintro ⟨v, T, h1, h2, h3, h4⟩
    obtain ⟨l, out, g1, g2, g3⟩ := (toBytes_iff (v := v) (by rw [h.head]; exact h.headLong h2)).mpr h4
    exact ⟨out, (h.spec _ _).mpr ⟨v, T, l, h1, h2, h3, g1, g2, g3⟩⟩

theorem ToolDoes.saved (h : ToolDoes f g) {input out : Bytes} {v : UInt32} {T : Tag → Option Bytes} {l : List (Tag × Bytes)}
    (h1 : IsFont input v T) (h4 : BMap.Sorted l) (h5 : ∀ t, BMap.get? l t = g T t) (h6 : Font.toBytes v l = .ok out)
    (hl : out.length < 2 ^ 32) : Saved v (g T) out := by
  obtain ⟨hv, hver⟩ := loads_sorted h1
  refine saved_of hver (fun t ht => ?_) h4 h5 h6 hl
  rcases h.valid T t ht with h | h
  · exact hv t h
  · exact h

theorem ToolDoes.writes (h : ToolDoes f g) : Writes f g := by
  intro input out e hl
  obtain ⟨v, T, l, h1, h2, h3, h4, h5, h6⟩ := (h.spec _ _).mp e
  exact ⟨v, T, h1, h.saved h1 h4 h5 h6 hl⟩

theorem ToolDoes.idem (h : ToolDoes f g) : Idempotent f := by
  intro input out e hl
  obtain ⟨v, T, l, h1, h2, ⟨m, h3⟩, h4, h5, h6⟩ := (h.spec _ _).mp e
  obtain ⟨T', i1, i2, i3⟩ := (h.saved h1 h4 h5 h6 hl).font
  have hsame : SameBut (g T) T' := ⟨i2, i3⟩
  obtain ⟨l', j1, j2, j3⟩ := toBytes_sameBut hsame (by rw [h.head]; exact h.headLong h2) h4 h5 h6
  refine (h.spec _ _).mpr ⟨v, T', l', i1, hsame.openable ?_, ⟨m, hsame.maxp ?_⟩, j1, ?_, j3⟩
  · refine ⟨?_, ?_⟩
    · rw [h.head]
      exact h2.1.imp id (fun ⟨x, b, y⟩ => ⟨x, b, by rw [h.head]; exact y⟩)
    · rw [h.loca]
      exact h2.2.imp id (fun ⟨x, b, l, ⟨c, y⟩, z⟩ => ⟨x, b, l, ⟨c, by rw [h.head]; exact y⟩, z⟩)
  · obtain ⟨b, y⟩ := h3
    exact ⟨b, by rw [h.maxp]; exact y⟩
  · intro t
    rw [h.again T T' hsame]
    exact j2 t

theorem checksum_does (R : Rest X) : ToolDoes (fixChecksum R) unchanged where
  spec := toolDoes_of (body := .ok) (bodyA := .ok) (fun _ _ h => h) (fun _ a h => ⟨a, rfl, h.left⟩)
  head := fun _ => rfl
  loca := fun _ => rfl
  maxp := fun _ => rfl
  valid := fun _ _ h => .inl h
  again := fun _ _ _ => rfl

theorem contains_stands {T : Tag → Option Bytes} {a : AStore X} (h : Stands (fmt R) T a) (t : Tag) :
    contains (indepMachine (fmt R)) a t = (T t).isSome := by
  unfold contains
  simp only [indepMachine, isSerializedA]
  rcases h t with ⟨h1, h2⟩ | ⟨b, h1, h2 | ⟨v, h2, _⟩⟩
  · rw [h1, h2]; rfl
  · rw [h1, h2]; rfl
  · rw [h1, h2]; rfl

theorem left_congr {T T' T'' : Tag → Option Bytes} {a : AStore X} (h : Left (fmt R) T T' a) (e : ∀ t, T' t = T'' t) :
    Left (fmt R) T T'' a := (funext e : T' = T'') ▸ h

theorem dsig_does (R : Rest X) : ToolDoes (addMinimalDsig R) withSignature where
  spec := by
    refine toolDoes_of (bodyA := dsigBody (indepMachine (fmt R))) ?_ ?_
    · intro s a h
      unfold dsigBody
      rw [sim_contains (sim_indep (fmt R)) h]
      split
      · exact h
      · exact sim_exec (sim_indep (fmt R)) _ h
    · intro T a h
      unfold dsigBody
      rw [contains_stands h]
      cases hT : T tagDSIG with
      | some b =>
        refine ⟨a, rfl, left_congr h.left fun t => ?_⟩
        rw [withSignature_eq]
        split
        · next e => rw [e.1, hT] at e; cases e.2
        · rfl
      | none =>
        refine ⟨_, rfl, left_congr (h.left.raw_insert (by unfold Compiled; decide) rfl) fun t => ?_⟩
        rw [withSignature_eq]
        by_cases e : t = tagDSIG
        · rw [if_pos e, if_pos ⟨e, by rw [e, hT]⟩]
        · rw [if_neg e, if_neg (fun h => e h.1)]
  head := fun T => by rw [withSignature_eq, if_neg (fun h => absurd h.1 (by decide))]
  loca := fun T => by rw [withSignature_eq, if_neg (fun h => absurd h.1 (by decide))]
  maxp := fun T => by rw [withSignature_eq, if_neg (fun h => absurd h.1 (by decide))]
  valid := fun T t h => by
    rw [withSignature_eq] at h
    split at h
    · next e => rw [e.1]; exact .inr (by decide)
    · exact .inl h
  again := fun T T' h => by
    funext t
    rw [withSignature_eq]
    split
    · next e =>
      have := (h.none t).mp e.2
      rw [withSignature_eq] at this
      split at this
      · cases this
      · next e' => exact absurd ⟨e.1, this⟩ e'
    · rfl

theorem gasp_ser : ser (fmt R) (.other tagGasp (.gasp smoothGasp)) = .ok [0, 1, 0, 1, 0xff, 0xff, 0, 0x0f] := by
  show (if tagGasp = tagGPOS ∨ tagGasp = tagGSUB ∨ tagGasp = tagGvar ∨ tagGasp = tagMATH then Res.panic
    else Res.ok (encGasp smoothGasp)) = _
  rw [if_neg (by decide)]
  rfl

theorem unhinted_does (R : Rest X) : ToolDoes (fixNonHinted R) unhinted where
  spec := by
    refine toolDoes_of (bodyA := nonHintedBody (indepMachine (fmt R))) ?_ ?_
    · intro s a h
      unfold nonHintedBody
      refine RelR.bind ?_ (fun s' a' h' => sim_exec (sim_indep (fmt R)) _ h')
      unfold gaspBody
      rw [sim_contains (sim_indep (fmt R)) h]
      split
      · exact h
      · exact sim_exec (sim_indep (fmt R)) _ h
    · intro T a h
      unfold nonHintedBody gaspBody
      rw [contains_stands h]
      cases hT : T tagGasp with
      | some b =>
        refine ⟨_, rfl, left_congr (h.left.raw_insert (t := tagPrep) (by unfold Compiled; decide) rfl) fun t => ?_⟩
        rw [unhinted_eq]
        split
        · rfl
        · split
          · next e => rw [e.1, hT] at e; cases e.2
          · rfl
      | none =>
        have h1 : Left (fmt R) T _ _ := h.left.value_insert (t := tagGasp) (v := .other tagGasp (.gasp smoothGasp))
          (a' := { a with store := Indep.set a.store tagGasp (some (.loaded ⟨tagGasp, none, .other tagGasp (.gasp smoothGasp)⟩)) })
          (by unfold Compiled; decide) gasp_ser rfl
        refine ⟨_, rfl, left_congr (h1.raw_insert (t := tagPrep) (by unfold Compiled; decide) rfl) fun t => ?_⟩
        rw [unhinted_eq]
        split
        · rfl
        · by_cases e : t = tagGasp
          · rw [if_pos e, if_pos ⟨e, by rw [e, hT]⟩]
          · rw [if_neg e, if_neg (fun h => e h.1)]
  head := fun T => by rw [unhinted_eq, if_neg (by decide), if_neg (fun h => absurd h.1 (by decide))]
  loca := fun T => by rw [unhinted_eq, if_neg (by decide), if_neg (fun h => absurd h.1 (by decide))]
  maxp := fun T => by rw [unhinted_eq, if_neg (by decide), if_neg (fun h => absurd h.1 (by decide))]
  valid := fun T t h => by
    rw [unhinted_eq] at h
    split at h
    · next e => rw [e]; exact .inr (by decide)
    · split at h
      · next e => rw [e.1]; exact .inr (by decide)
      · exact .inl h
  again := fun T T' h => by
    funext t
    rw [unhinted_eq]
    split
    · next e => rw [h.1 t (by rw [e]; decide), unhinted_eq, if_pos e]
    · next e1 =>
      split
      · next e =>
        have := (h.none t).mp e.2
        rw [unhinted_eq, if_neg e1] at this
        split at this
        · cases this
        · next e' => exact absurd ⟨e.1, this⟩ e'
      · rfl

end

end FT.Cli

namespace FT.Props
open FT FT.Cli FT.Tables FT.Save

variable {X : Type}

/-- **C83.** Recomputing the checksum writes a file exactly for fonts that can be opened, have a readable `maxp` and fewer
than 4096 tables. -/
theorem C83_checksum_accepts (R : Rest X) : Accepts (fixChecksum R) (Usable unchanged) := (checksum_does R).accepts

/-- **C83.** The file has the same tables as the input, and adds up to the required sum. -/
theorem C83_checksum_writes (R : Rest X) : Writes (fixChecksum R) unchanged := (checksum_does R).writes

/-- **C83.** A file with the right checksum, written by the tool, is not changed any more. -/
theorem C83_checksum_again (R : Rest X) : Idempotent (fixChecksum R) := (checksum_does R).idem

/-- **C83.** The signature tool writes a file under the same conditions. -/
theorem C83_signature_accepts (R : Rest X) : Accepts (addMinimalDsig R) (Usable withSignature) := (dsig_does R).accepts

/-- **C83.** It adds an empty signature table if there is none and changes nothing else. -/
theorem C83_signature_writes (R : Rest X) : Writes (addMinimalDsig R) withSignature := (dsig_does R).writes

theorem C83_signature_again (R : Rest X) : Idempotent (addMinimalDsig R) := (dsig_does R).idem

/-- **C83.** The tool for unhinted fonts writes a file under the same conditions. -/
theorem C83_unhinted_accepts (R : Rest X) : Accepts (fixNonHinted R) (Usable unhinted) := (unhinted_does R).accepts

/-- **C83.** It always replaces `prep`, adds `gasp` if there is none, and changes nothing else. -/
theorem C83_unhinted_writes (R : Rest X) : Writes (fixNonHinted R) unhinted := (unhinted_does R).writes

theorem C83_unhinted_again (R : Rest X) : Idempotent (fixNonHinted R) := (unhinted_does R).idem

/-- **C83.** The tags in the vocabulary are the ones spelled so. -/
theorem C83_tags : tagHead.bytes = ascii "head" ∧ tagLoca.bytes = ascii "loca" ∧ tagMaxp.bytes = ascii "maxp" := by decide

/-! ### A small font -/

def cliMaxp : Bytes := [0, 0, 0x50, 0, 0, 3]
def cliTables : List (Tag × Bytes) := [(tagHead, toyHead), (tagMaxp, cliMaxp)]
def signedTables : List (Tag × Bytes) := [(tagDSIG, [0, 0, 0, 1, 0, 0, 0, 0]), (tagHead, toyHead), (tagMaxp, cliMaxp)]
def unhintedTables : List (Tag × Bytes) := [(tagGasp, [0, 1, 0, 1, 0xff, 0xff, 0, 0x0f]), (tagHead, toyHead),
  (tagMaxp, cliMaxp), (tagPrep, [0xb8, 0x01, 0xff, 0x85, 0xb0, 0x04, 0x8d])]

theorem sample_get {l : List (Tag × Bytes)} {g : Change} (hs : BMap.Sorted l)
    (h1 : ∀ x ∈ l, g (fun t => BMap.get? cliTables t) x.1 = some x.2)
    (h2 : ∀ t, t ∉ l.map Prod.fst → g (fun t => BMap.get? cliTables t) t = none) (t : Tag) :
    BMap.get? l t = g (fun t => BMap.get? cliTables t) t := by
  cases e : BMap.get? l t with
  | none =>
    refine (h2 t fun hm => ?_).symm
    obtain ⟨x, hx, rfl⟩ := List.mem_map.mp hm
    exact (BMap.get?_eq_none hs).mp e x hx rfl
  | some b => exact (h1 _ ((BMap.get?_eq_some hs).mp e)).symm

theorem sample_sorted : BMap.Sorted cliTables := by unfold BMap.Sorted cliTables; decide

theorem sample_file : ∃ file T, IsFont file 0x00010000 T ∧ SameBut (fun t => BMap.get? cliTables t) T := by
  obtain ⟨file, e, hl⟩ := okLength_some (r := Font.toBytes 0x00010000 cliTables) (n := 108) (by decide +kernel)
  obtain ⟨T, h1, h2, h3⟩ := (saved_of (T := fun t => BMap.get? cliTables t) (.inl rfl) (by
    intro t ht
    obtain ⟨b, hb⟩ := Option.ne_none_iff_exists'.mp ht
    have hm := (BMap.get?_eq_some sample_sorted).mp hb
    simp only [cliTables, List.mem_cons, Prod.mk.injEq, List.not_mem_nil, or_false] at hm
    rcases hm with ⟨rfl, _⟩ | ⟨rfl, _⟩ <;> decide) sample_sorted (fun _ => rfl) e (by omega)).font
  exact ⟨file, T, h1, h2, h3⟩

theorem sample_openable : Openable (fun t => BMap.get? cliTables t) :=
  ⟨.inr ⟨_, toyHead, by decide +kernel, rfl⟩, .inl (by decide +kernel)⟩

theorem sample_maxp : ∃ m, MaxpIs (fun t => BMap.get? cliTables t) m := ⟨_, cliMaxp, by decide +kernel, rfl⟩

theorem sample_runs {f : Bytes → Res Bytes} {g : Change} (h : ToolDoes f g) {l : List (Tag × Bytes)} (hs : BMap.Sorted l)
    (h1 : ∀ x ∈ l, g (fun t => BMap.get? cliTables t) x.1 = some x.2)
    (h2 : ∀ t, t ∉ l.map Prod.fst → g (fun t => BMap.get? cliTables t) t = none)
    (h3 : ∀ T, SameBut (fun t => BMap.get? cliTables t) T → ∀ t, t ≠ tagHead → g T t = g (fun t => BMap.get? cliTables t) t)
    (h4 : (okLength (Font.toBytes 0x00010000 l)).any (fun n => decide (n < 2 ^ 32)) = true) :
    ∃ input out, f input = .ok out ∧ out.length < 2 ^ 32 := by
  obtain ⟨file, T, i1, i2⟩ := sample_file
  have hg : SameBut (g (fun t => BMap.get? cliTables t)) (g T) := by
    refine ⟨h3 T i2, ?_⟩
    rw [h.head, h.head]
    exact i2.2
  obtain ⟨m, hm⟩ := sample_maxp
  cases hn : okLength (Font.toBytes 0x00010000 l) with
  | none => rw [hn] at h4; cases h4
  | some n =>
    rw [hn] at h4
    obtain ⟨out, e, hl⟩ := okLength_some hn
    obtain ⟨l', j1, j2, j3⟩ := toBytes_sameBut hg (by rw [h.head]; exact h.headLong sample_openable) hs (sample_get hs h1 h2) e
    have : n < 2 ^ 32 := by simpa using h4
    exact ⟨file, out, (h.spec _ _).mpr ⟨_, T, l', i1, i2.openable sample_openable, ⟨m, i2.maxp hm⟩, j1, j2, j3⟩, by omega⟩

theorem cli_absent {t : Tag} (h1 : t ≠ tagHead) (h2 : t ≠ tagMaxp) : BMap.get? cliTables t = none := by
  rw [BMap.get?_eq_none sample_sorted]
  intro x hx e
  simp only [cliTables, List.mem_cons, List.not_mem_nil, or_false] at hx
  rcases hx with rfl | rfl
  · exact h1 e.symm
  · exact h2 e.symm

theorem cli_same (T : Tag → Option Bytes) (h : SameBut (fun t => BMap.get? cliTables t) T) (t : Tag) (ht : t ≠ tagHead) :
    unchanged T t = unchanged (fun t => BMap.get? cliTables t) t := by
  rw [unchanged_eq, unchanged_eq]
  exact h.1 t ht

theorem cli_rest (t : Tag) (h : t ∉ cliTables.map Prod.fst) : unchanged (fun t => BMap.get? cliTables t) t = none := by
  simp only [cliTables, List.map_cons, List.map_nil, List.mem_cons, List.not_mem_nil, or_false, not_or] at h
  rw [unchanged_eq]
  exact cli_absent h.1 h.2

theorem cli_all : ∀ x ∈ cliTables, unchanged (fun t => BMap.get? cliTables t) x.1 = some x.2 := by decide +kernel

theorem cli_length : (okLength (Font.toBytes 0x00010000 cliTables)).any (fun n => decide (n < 2 ^ 32)) = true := by
  decide +kernel

/-- The small font has its checksum recomputed. -/
example (R : Rest X) : ∃ input out, fixChecksum R input = .ok out ∧ out.length < 2 ^ 32 :=
  sample_runs (checksum_does R) (l := cliTables) sample_sorted cli_all cli_rest cli_same cli_length

/-- The small font is signed. -/
example (R : Rest X) : ∃ input out, addMinimalDsig R input = .ok out ∧ out.length < 2 ^ 32 := by
  refine sample_runs (dsig_does R) (l := signedTables) (by unfold BMap.Sorted signedTables; decide) (by decide +kernel)
    (fun t h => ?_) (fun T h t ht => by rw [withSignature_eq, withSignature_eq, h.1 t ht]) (by decide +kernel)
  simp only [signedTables, List.map_cons, List.map_nil, List.mem_cons, List.not_mem_nil, or_false, not_or] at h
  rw [withSignature_eq, if_neg (fun e => h.1 e.1)]
  exact cli_absent h.2.1 h.2.2

/-- The small font is marked as unhinted. -/
example (R : Rest X) : ∃ input out, fixNonHinted R input = .ok out ∧ out.length < 2 ^ 32 := by
  refine sample_runs (unhinted_does R) (l := unhintedTables) (by unfold BMap.Sorted unhintedTables; decide) (by decide +kernel)
    (fun t h => ?_) (fun T h t ht => by rw [unhinted_eq, unhinted_eq, h.1 t ht]) (by decide +kernel)
  simp only [unhintedTables, List.map_cons, List.map_nil, List.mem_cons, List.not_mem_nil, or_false, not_or] at h
  rw [unhinted_eq, if_neg h.2.2.2, if_neg (fun e => h.1 e.1)]
  exact cli_absent h.2.1 h.2.2.1

end FT.Props
