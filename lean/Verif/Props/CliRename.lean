import Verif.Lemmas.CliRename
import Verif.Lemmas.CliAgain
import Verif.Props.PostTable
import Verif.Props.Cli

/-!
C84: `ttf-rename-glyphs`, from the bytes of the input file to the bytes of the output file.
-/

namespace FT.Props
open FT FT.Cli FT.Tables FT.Save FT.Store FT.Strings FT.Cmap FT.F32

/-! ### Names -/

/-- Specification: the value of an upper case hexadecimal digit. -/
def digitValue (c : Char) : Option Nat := "0123456789ABCDEF".toList.findIdx? (· == c)

/-- Specification: the number spelled by hexadecimal digits. -/
def hexValue : Nat → List Char → Option Nat
  | n, [] => some n
  | n, c :: l => (digitValue c).bind fun d => hexValue (16 * n + d) l

/-- Specification: `l` spells `n` in hexadecimal with at least four digits, and with more only if they are needed. -/
def Spells (l : List Char) (n : Nat) : Prop := hexValue 0 l = some n ∧ 4 ≤ l.length ∧ (l.length = 4 ∨ l.head? ≠ some '0')

/-- Specification: the production name of a character. -/
def IsProductionName (c : UInt32) (s : String) : Prop :=
  if c = 0x20 then s = "space"
  else ∃ digits, Spells digits c.toNat ∧
    s.toList = (if c.toNat ≤ 0xFFFF then "uni".toList else "u".toList) ++ digits

/-- Specification: glyph `i` is renamed after the smallest character that maps to it, or keeps its name. -/
def IsNewName (sts : List Subtable) (i : Nat) (old new : String) : Prop :=
  (∃ c, UnicodeMaps sts c (UInt16.ofNat i) ∧ (∀ c', UnicodeMaps sts c' (UInt16.ofNat i) → c.toNat ≤ c'.toNat) ∧
    IsProductionName c new) ∨
  ((∀ c, ¬ UnicodeMaps sts c (UInt16.ofNat i)) ∧ new = old)

/-- Specification: the first `n` names are changed; there must be so many. -/
def Renamed (sts : List Subtable) (n : Nat) (names names' : List String) : Prop :=
  n ≤ names.length ∧ names'.length = names.length ∧
  ∀ (i : Nat) (old new : String), names[i]? = some old → names'[i]? = some new →
    (i < n → IsNewName sts i old new) ∧ (n ≤ i → new = old)

theorem hexDigit_value : ∀ d, d < 16 → digitValue (hexDigit d) = some d ∧ (hexDigit d = '0' ↔ d = 0) := by decide

theorem hexValue_append (l : List Char) (c : Char) : ∀ n, hexValue n (l ++ [c]) =
    (hexValue n l).bind fun m => (digitValue c).bind fun d => some (16 * m + d) := by
  induction l with
  | nil => intro n; simp [hexValue]
  | cons x l ih =>
    intro n
    simp only [List.cons_append, hexValue]
    cases digitValue x with
    | none => rfl
    | some d => simp only [Option.bind_some]; exact ih _

theorem hexDigits_spec (n : Nat) : hexValue 0 (hexDigits n) = some n ∧ hexDigits n ≠ [] ∧
    ((hexDigits n).head? = some '0' → n = 0) := by
  induction n using Nat.strongRecOn with
  | ind n ih =>
    unfold hexDigits
    split
    · next h =>
      obtain ⟨h1, h2⟩ := hexDigit_value n h
      refine ⟨?_, by simp, ?_⟩
      · simp [hexValue, h1]
      · simp only [List.head?_cons, Option.some.injEq]
        exact h2.mp
    · next h =>
      obtain ⟨h1, h2, h3⟩ := ih (n / 16) (by omega)
      obtain ⟨g1, _⟩ := hexDigit_value (n % 16) (by omega)
      refine ⟨?_, by simp, ?_⟩
      · rw [hexValue_append, h1, Option.bind_some, g1, Option.bind_some]
        congr 1
        omega
      · rw [List.head?_append_of_ne_nil _ h2]
        intro e
        have := h3 e
        omega

theorem hexValue_zeros (l : List Char) : ∀ k, hexValue 0 (List.replicate k '0' ++ l) = hexValue 0 l
  | 0 => rfl
  | k + 1 => by
    rw [List.replicate_succ, List.cons_append, hexValue]
    have : digitValue '0' = some 0 := by decide
    rw [this]
    simp only [Option.bind_some]
    exact hexValue_zeros l k

theorem hex4_spells (n : Nat) : Spells (hex4 n) n := by
  obtain ⟨h1, h2, h3⟩ := hexDigits_spec n
  unfold hex4
  refine ⟨by rw [hexValue_zeros, h1], by simp; omega, ?_⟩
  by_cases h : (hexDigits n).length ≤ 4
  · exact .inl (by simp; omega)
  · right
    rw [show 4 - (hexDigits n).length = 0 by omega]
    simp only [List.replicate_zero, List.nil_append]
    intro e
    have := h3 e
    subst this
    rw [hexDigits, dif_pos (by omega)] at h
    simp at h

/-- Only one sequence of digits spells a number. -/
theorem hexValue_inj : ∀ {l l' : List Char} {a b n : Nat}, l.length = l'.length → hexValue a l = some n → hexValue b l' = some n →
    l = l' ∧ a = b := by
  intro l
  induction l using List.reverseRecOn with
  | nil =>
    intro l' a b n hl h1 h2
    obtain rfl : l' = [] := by cases l' <;> simp_all
    simp only [hexValue, Option.some.injEq] at h1 h2
    exact ⟨rfl, by omega⟩
  | append_singleton l c ih =>
    intro l' a b n hl h1 h2
    rcases List.eq_nil_or_concat l' with rfl | ⟨l2, c2, rfl⟩
    · simp at hl
    · simp only [List.concat_eq_append] at hl h2 ⊢
      rw [hexValue_append] at h1 h2
      cases e1 : hexValue a l with
      | none => rw [e1] at h1; cases h1
      | some x =>
        cases e2 : hexValue b l2 with
        | none => rw [e2] at h2; cases h2
        | some y =>
          rw [e1] at h1
          rw [e2] at h2
          cases d1 : digitValue c with
          | none => rw [d1] at h1; cases h1
          | some d =>
            cases d2 : digitValue c2 with
            | none => rw [d2] at h2; cases h2
            | some d' =>
              rw [d1] at h1
              rw [d2] at h2
              simp only [Option.bind_some, Option.some.injEq] at h1 h2
              have hb : ∀ c d, digitValue c = some d → d < 16 := by
                intro c d h
                unfold digitValue at h
                have := (List.findIdx?_eq_some_iff_findIdx_eq.mp h).1
                simpa using this
              have b1 := hb _ _ d1
              have b2 := hb _ _ d2
              have hd : d = d' := by omega
              subst hd
              have hx : x = y := by omega
              subst hx
              obtain ⟨e3, e4⟩ := ih (by simpa using hl) e1 e2
              refine ⟨?_, e4⟩
              rw [e3]
              congr 2
              unfold digitValue at d1 d2
              obtain ⟨k1, g1, _⟩ := List.findIdx?_eq_some_iff_getElem.mp d1
              obtain ⟨k2, g2, _⟩ := List.findIdx?_eq_some_iff_getElem.mp d2
              simp only [beq_iff_eq] at g1 g2
              rw [← g1, ← g2]

theorem hexValue_ge : ∀ (l : List Char) (a n : Nat), hexValue a l = some n → a * 16 ^ l.length ≤ n
  | [], a, n, h => by cases h; simp
  | c :: l, a, n, h => by
    rw [hexValue] at h
    cases d : digitValue c with
    | none => rw [d] at h; cases h
    | some x =>
      rw [d] at h
      have := hexValue_ge l _ _ h
      rw [List.length_cons, Nat.pow_succ]
      refine Nat.le_trans ?_ this
      rw [Nat.mul_comm (16 ^ l.length) 16, ← Nat.mul_assoc]
      exact Nat.mul_le_mul_right _ (by omega)

theorem hexValue_lt : ∀ (l : List Char) (a n : Nat), hexValue a l = some n → n < (a + 1) * 16 ^ l.length
  | [], a, n, h => by cases h; simp
  | c :: l, a, n, h => by
    rw [hexValue] at h
    cases d : digitValue c with
    | none => rw [d] at h; cases h
    | some x =>
      rw [d] at h
      have hx : x < 16 := by
        unfold digitValue at d
        have := (List.findIdx?_eq_some_iff_findIdx_eq.mp d).1
        simpa using this
      have := hexValue_lt l _ _ h
      rw [List.length_cons, Nat.pow_succ]
      refine Nat.lt_of_lt_of_le this ?_
      rw [Nat.mul_comm (16 ^ l.length) 16, ← Nat.mul_assoc]
      exact Nat.mul_le_mul_right _ (by omega)

theorem spells_len {l l' : List Char} {n : Nat} (h : Spells l n) (h' : Spells l' n) : l.length ≤ l'.length := by
  obtain ⟨h1, h2, h3⟩ := h
  obtain ⟨g1, g2, g3⟩ := h'
  rcases h3 with h3 | h3
  · omega
  · match l, h1, h2, h3 with
    | c :: l, h1, h2, h3 =>
      rw [hexValue] at h1
      cases d : digitValue c with
      | none => rw [d] at h1; cases h1
      | some x =>
        rw [d] at h1
        simp only [Option.bind_some, Nat.mul_zero, Nat.zero_add] at h1
        have hx : x ≠ 0 := by
          rintro rfl
          unfold digitValue at d
          obtain ⟨_, e, _⟩ := List.findIdx?_eq_some_iff_getElem.mp d
          simp only [beq_iff_eq] at e
          exact h3 (by rw [← e]; rfl)
        have a1 := hexValue_ge l _ _ h1
        have a2 := hexValue_lt l' _ _ g1
        by_contra hlt
        have : l'.length ≤ l.length := by simp at hlt; omega
        have := Nat.pow_le_pow_right (show 0 < 16 by decide) this
        have : 16 ^ l.length ≤ x * 16 ^ l.length := Nat.le_mul_of_pos_left _ (by omega)
        omega

theorem spells_unique {l l' : List Char} {n : Nat} (h : Spells l n) (h' : Spells l' n) : l = l' :=
  (hexValue_inj (Nat.le_antisymm (spells_len h h') (spells_len h' h)) h.1 h'.1).1

/-- A character has one production name. -/
theorem C84_name_unique {c : UInt32} {s s' : String} (h : IsProductionName c s) (h' : IsProductionName c s') : s = s' := by
  unfold IsProductionName at h h'
  split at h
  · next e => rw [if_pos e] at h'; rw [h, h']
  · next e =>
    rw [if_neg e] at h'
    obtain ⟨d, h1, h2⟩ := h
    obtain ⟨d', h3, h4⟩ := h'
    obtain rfl := spells_unique h1 h3
    exact String.toList_inj.mp (by rw [h2, h4])

theorem smallest_ok (l : List UInt32) (h : l ≠ []) : ∃ c ∈ l, smallest l = .ok c ∧ ∀ x ∈ l, c.toNat ≤ x.toNat := by
  match l, h with
  | c :: l, _ =>
    have key : ∀ (l : List UInt32) (c : UInt32), ∃ m, l.foldl (fun m x => if x.toNat < m.toNat then x else m) c = m ∧
        (m = c ∨ m ∈ l) ∧ m.toNat ≤ c.toNat ∧ ∀ x ∈ l, m.toNat ≤ x.toNat := by
      intro l
      induction l with
      | nil => intro c; exact ⟨c, rfl, .inl rfl, Nat.le_refl _, by simp⟩
      | cons y l ih =>
        intro c
        simp only [List.foldl_cons]
        split
        · next hlt =>
          obtain ⟨m, e, h1, h2, h3⟩ := ih y
          refine ⟨m, e, .inr ?_, by omega, ?_⟩
          · rcases h1 with rfl | h1 <;> simp [*]
          · intro x hx
            rcases List.mem_cons.mp hx with rfl | hx
            · exact h2
            · exact h3 x hx
        · next hge =>
          obtain ⟨m, e, h1, h2, h3⟩ := ih c
          refine ⟨m, e, ?_, h2, ?_⟩
          · rcases h1 with rfl | h1 <;> simp [*]
          · intro x hx
            rcases List.mem_cons.mp hx with rfl | hx
            · omega
            · exact h3 x hx
    obtain ⟨m, e, h1, h2, h3⟩ := key l c
    refine ⟨m, by rcases h1 with rfl | h1 <;> simp [*], congrArg Res.ok e, ?_⟩
    intro x hx
    rcases List.mem_cons.mp hx with rfl | hx
    · exact h2
    · exact h3 x hx

theorem productionName_ok (name : String) (sts : List Subtable) (i : Nat) :
    ∃ new, productionName name (BMap.get? (reversed sts) (UInt16.ofNat i)) = .ok new ∧ IsNewName sts i name new := by
  obtain ⟨h1, h2, h3⟩ := C36_reversed sts
  have hs : BMap.Sorted (reversed sts) := by
    unfold BMap.Sorted
    exact h2.imp (fun {a b} h => by simpa [Key.lt, UInt16.lt_iff_toNat_lt] using h)
  cases hg : BMap.get? (reversed sts) (UInt16.ofNat i) with
  | none =>
    refine ⟨name, rfl, .inr ⟨?_, rfl⟩⟩
    intro c hc
    obtain ⟨l, hl, _⟩ := (h1 c _).mpr hc
    exact (BMap.get?_eq_none hs).mp hg _ hl rfl
  | some l =>
    have hm := (BMap.get?_eq_some hs).mp hg
    obtain ⟨c, hc, e, hmin⟩ := smallest_ok l (h3 _ hm)
    have hl : ∀ x, UnicodeMaps sts x (UInt16.ofNat i) → x ∈ l := by
      intro x hx
      obtain ⟨l', hl', hx'⟩ := (h1 x _).mpr hx
      have := (BMap.get?_eq_some hs).mpr hl'
      rw [hg] at this
      cases this
      exact hx'
    have hname : ∃ new, productionName name (some l) = .ok new ∧ IsProductionName c new := by
      unfold productionName IsProductionName
      simp only
      rw [e, Res.ok_bind]
      split
      · next h => exact ⟨_, rfl, rfl⟩
      · next h =>
        split
        · next h' =>
          refine ⟨_, rfl, ?_⟩
          exact ⟨hex4 c.toNat, hex4_spells _, by rw [if_neg (by omega)]; simp⟩
        · next h' =>
          refine ⟨_, rfl, ?_⟩
          exact ⟨hex4 c.toNat, hex4_spells _, by rw [if_pos (by omega)]; simp⟩
    obtain ⟨new, e2, e3⟩ := hname
    exact ⟨new, e2, .inl ⟨c, (h1 c _).mp ⟨l, hm, hc⟩, fun x hx => hmin x (hl x hx), e3⟩⟩

theorem isNewName_unique {sts : List Subtable} {i : Nat} {old s s' : String} (h : IsNewName sts i old s)
    (h' : IsNewName sts i old s') : s = s' := by
  rcases h with ⟨c, h1, h2, h3⟩ | ⟨h1, rfl⟩
  · rcases h' with ⟨c', g1, g2, g3⟩ | ⟨g1, _⟩
    · obtain rfl : c = c' := UInt32.toNat_inj.mp (Nat.le_antisymm (h2 _ g1) (g2 _ h1))
      exact C84_name_unique h3 g3
    · exact absurd h1 (g1 c)
  · rcases h' with ⟨c', g1, g2, g3⟩ | ⟨g1, rfl⟩
    · exact absurd g1 (h1 c')
    · rfl

/-- The loop, from glyph `k` on. -/
theorem renameFrom_ok (sts : List Subtable) : ∀ (n k : Nat) (names : List String), n ≤ names.length →
    ∃ names', renameFrom (reversed sts) k n names = .ok names' ∧ names'.length = names.length ∧
      ∀ (i : Nat) (old new : String), names[i]? = some old → names'[i]? = some new →
        (i < n → IsNewName sts (k + i) old new) ∧ (n ≤ i → new = old)
  | 0, k, names, _ => ⟨names, by cases names <;> rfl, rfl, fun i old new h1 h2 => ⟨by omega, fun _ => by
      rw [h1] at h2; exact (Option.some.inj h2).symm⟩⟩
  | n + 1, k, [], h => by simp at h
  | n + 1, k, x :: names, h => by
    obtain ⟨y, e1, e2⟩ := productionName_ok x sts k
    obtain ⟨names', e3, e4, e5⟩ := renameFrom_ok sts n (k + 1) names (by simpa using h)
    refine ⟨y :: names', ?_, by simp [e4], ?_⟩
    · unfold renameFrom
      rw [e1, Res.ok_bind, e3]
      rfl
    · intro i old new h1 h2
      cases i with
      | zero =>
        simp only [List.getElem?_cons_zero, Option.some.injEq] at h1 h2
        subst h1 h2
        exact ⟨fun _ => e2, fun h => by omega⟩
      | succ i =>
        simp only [List.getElem?_cons_succ] at h1 h2
        obtain ⟨g1, g2⟩ := e5 i old new h1 h2
        refine ⟨fun h => ?_, fun h => g2 (by omega)⟩
        have := g1 (by omega)
        rwa [show k + 1 + i = k + (i + 1) by omega] at this

theorem renameFrom_short (rev : List (UInt16 × List UInt32)) : ∀ (n k : Nat) (names l : List String),
    renameFrom rev k n names = .ok l → n ≤ names.length
  | 0, _, _, _, _ => by omega
  | n + 1, _, [], _, h => by cases h
  | n + 1, k, x :: names, l, h => by
    unfold renameFrom at h
    obtain ⟨y, _, h⟩ := bind_eq_ok h
    obtain ⟨l', h1, _⟩ := bind_eq_ok h
    have := renameFrom_short rev n (k + 1) names l' h1
    simp
    omega

theorem renamed_iff (sts : List Subtable) (n : Nat) (names names' : List String) :
    renameFrom (reversed sts) 0 n names = .ok names' ↔ Renamed sts n names names' := by
  constructor
  · intro h
    have hn := renameFrom_short _ _ _ _ _ h
    obtain ⟨l, e1, e2, e3⟩ := renameFrom_ok sts n 0 names hn
    rw [h] at e1
    cases e1
    simp only [Nat.zero_add] at e3
    exact ⟨hn, e2, e3⟩
  · rintro ⟨hn, hl, h⟩
    obtain ⟨l, e1, e2, e3⟩ := renameFrom_ok sts n 0 names hn
    rw [e1]
    congr 1
    refine List.ext_getElem (by omega) ?_
    intro i h1 h2
    have hi : i < names.length := by omega
    have a1 := e3 i names[i] l[i] (List.getElem?_eq_getElem hi) (List.getElem?_eq_getElem h1)
    have a2 := h i names[i] names'[i] (List.getElem?_eq_getElem hi) (List.getElem?_eq_getElem h2)
    simp only [Nat.zero_add] at a1
    by_cases hin : i < n
    · exact isNewName_unique (a1.1 hin) (a2.1 hin)
    · rw [a1.2 (by omega), a2.2 (by omega)]


/-! ### The tool -/

/-- Specification: what renaming does to the tables of a font. The number of glyphs comes from `maxp`, the characters from
`cmap`; a font without `post` stays as it is; otherwise the names in `post` are replaced, and the table is written. -/
def RenamesGlyphs (T T' : Tag → Option Bytes) : Prop := ∃ m sts, MaxpIs T m ∧ CmapIs T sts ∧
  ((T tagPost = none ∧ T' = T) ∨
    ∃ p names names' b, PostIs T p ∧ p.glyphnames = some names ∧ Renamed sts m.numGlyphs.toNat names names' ∧
      encPost { p with glyphnames := some names' } = .ok b ∧ T' = fun t => if t = tagPost then some b else T t)

section
variable {X : Type} {R : Rest X} {T : Tag → Option Bytes}

theorem post_compiled : ¬ Compiled tagPost := by unfold Compiled; decide

theorem post_ser (p : Post) : ser (fmt R) (.other tagPost (.post p)) = encPost p := by
  show (if tagPost = tagGPOS ∨ tagPost = tagGSUB ∨ tagPost = tagGvar ∨ tagPost = tagMATH then Res.panic else encPost p) = _
  rw [if_neg (by decide)]

/-- If the font could be saved, the changed table could be written. -/
theorem saved_post {a a1 : AStore X} {s : Store.St (Val X)} {v : UInt32} {out : Bytes} {p : Post} (h : Stands (fmt R) T a1)
    (hs : a.store = Indep.set a1.store tagPost (some (.loaded ⟨tagPost, none, .other tagPost (.post p)⟩))) (hr : Rep s a)
    (hsave : save (fmt R) v s = .ok out) : ∃ b, encPost p = .ok b := by
  have h5 : Raw5 a := by
    intro t hc
    have := h.ser t
    unfold isSerializedA at this ⊢
    rw [hs]
    simp only [Indep.set]
    rw [if_neg (fun e : t = tagPost => post_compiled (e ▸ hc))]
    exact this
  obtain ⟨_, l, _, h2, _⟩ := (save_iff hr h5 v out).mp hsave
  have := h2 tagPost
  unfold bytesOf Indep.write at this
  rw [hs] at this
  simp only [Indep.set, if_true, Option.map_some] at this
  cases hl : BMap.get? l tagPost with
  | none => rw [hl] at this; cases this
  | some b =>
    rw [hl] at this
    simp only [Option.map_some, Option.some.injEq] at this
    exact ⟨b, (post_ser (R := R) p).symm.trans this.symm⟩

theorem rename_spec (R : Rest X) (input out : Bytes) : renameGlyphs R false input = .ok out ↔
    ∃ v T T' l, IsFont input v T ∧ Openable T ∧ RenamesGlyphs T T' ∧ (∃ m, MaxpIs T m) ∧
      BMap.Sorted l ∧ (∀ t, BMap.get? l t = T' t) ∧ Font.toBytes v l = .ok out := by
  refine tool_spec (bodyA := renameBody false (indepMachine (fmt R))) (sim_rename false) ?_ ?_ input out
  · intro T a a' s v out hs hb hr hsave
    obtain ⟨m, sts, hm, hc, h⟩ := rename_fwd hs hb
    rcases h with ⟨h1, h2⟩ | ⟨p, hp, h | ⟨_, p', a1, ⟨names, names', e1, e2, rfl⟩, h3, h4⟩⟩
    · exact ⟨T, ⟨m, sts, hm, hc, .inl ⟨h1, rfl⟩⟩, h2.left⟩
    · cases h.1
    · obtain ⟨b, hb⟩ := saved_post h3 h4 hr hsave
      exact ⟨_, ⟨m, sts, hm, hc, .inr ⟨p, names, names', b, hp, e1, (renamed_iff _ _ _ _).mp e2, hb, rfl⟩⟩,
        h3.left.value_insert post_compiled ((post_ser _).trans hb) h4⟩
  · rintro T T' a hs ⟨m, sts, hm, hc, h⟩
    obtain ⟨g1, g2⟩ := rename_bwd (drop := false) hs hm hc
    rcases h with ⟨h1, rfl⟩ | ⟨p, names, names', b, hp, e1, e2, e3, rfl⟩
    · obtain ⟨a', i1, i2⟩ := g1 h1
      exact ⟨a', i1, i2.left⟩
    · obtain ⟨a', a1, i1, i2, i3⟩ := (g2 p hp).2 rfl _ ⟨names, names', e1, (renamed_iff _ _ _ _).mpr e2, rfl⟩
      exact ⟨a', i1, i2.left.value_insert post_compiled ((post_ser _).trans e3) i3⟩

/-- A renamed font keeps all other tables. -/
theorem RenamesGlyphs.other {T T' : Tag → Option Bytes} (h : RenamesGlyphs T T') {t : Tag} (ht : t ≠ tagPost) : T' t = T t := by
  obtain ⟨m, sts, _, _, ⟨_, rfl⟩ | ⟨p, names, names', b, _, _, _, _, rfl⟩⟩ := h
  · rfl
  · simp [ht]

theorem RenamesGlyphs.maxp {T T' : Tag → Option Bytes} (h : RenamesGlyphs T T') : ∃ m, MaxpIs T m := ⟨_, h.choose_spec.choose_spec.1⟩

theorem openable_long {T : Tag → Option Bytes} (ho : Openable T) : ∀ b, T tagHead = some b → 12 ≤ b.length := by
  intro b hb
  rcases ho.1 with h | ⟨x, b', h1, h2⟩
  · rw [h] at hb; cases hb
  · rw [h1] at hb; cases hb; exact head_long h2

/-- **C84.** The tool writes a file exactly for fonts that can be opened, whose `maxp`, `cmap` and `post` can be read, that
have at least as many names as glyphs if there is a `post` table, and fewer than 4096 tables. -/
theorem C84_accepts (R : Rest X) (input : Bytes) : (∃ out, renameGlyphs R false input = .ok out) ↔
    ∃ v T T', IsFont input v T ∧ Openable T ∧ RenamesGlyphs T T' ∧ FewTables T' := by
  constructor
  · rintro ⟨out, e⟩
    obtain ⟨v, T, T', l, h1, h2, h3, _, h4, h5, h6⟩ := (rename_spec R _ _).mp e
    exact ⟨v, T, T', h1, h2, h3, (toBytes_iff (by rw [h3.other (by decide)]; exact openable_long h2)).mp ⟨l, out, h4, h5, h6⟩⟩
  · rintro ⟨v, T, T', h1, h2, h3, h4⟩
    obtain ⟨l, out, g1, g2, g3⟩ := (toBytes_iff (v := v) (by rw [h3.other (by decide)]; exact openable_long h2)).mpr h4
    exact ⟨out, (rename_spec R _ _).mpr ⟨v, T, T', l, h1, h2, h3, h3.maxp, g1, g2, g3⟩⟩

/-- **C84.** The file it writes has the names changed in `post` and all other tables as they were. -/
theorem C84_writes (R : Rest X) {input out : Bytes} (h : renameGlyphs R false input = .ok out) (hl : out.length < 2 ^ 32) :
    ∃ v T T', IsFont input v T ∧ RenamesGlyphs T T' ∧ Saved v T' out := by
  obtain ⟨v, T, T', l, h1, h2, h3, _, h4, h5, h6⟩ := (rename_spec R _ _).mp h
  obtain ⟨hv, hver⟩ := loads_sorted h1
  refine ⟨v, T, T', h1, h3, saved_of hver (fun t ht => ?_) h4 h5 h6 hl⟩
  by_cases e : t = tagPost
  · rw [e]; decide
  · rw [h3.other e] at ht
    exact hv t ht

/-- Fonts whose `maxp`, `cmap` and `post` can be read. -/
def NamesReadable (T : Tag → Option Bytes) : Prop :=
  Usable unchanged T ∧ (∃ sts, CmapIs T sts) ∧ (T tagPost = none ∨ ∃ p, PostIs T p)

theorem drop_spec (R : Rest X) (input out : Bytes) : renameGlyphs R true input = .ok out ↔
    ∃ v T T' l, IsFont input v T ∧ Openable T ∧ (T' = T ∧ (∃ m, MaxpIs T m) ∧ (∃ sts, CmapIs T sts) ∧
        (T tagPost = none ∨ ∃ p, PostIs T p)) ∧ (∃ m, MaxpIs T m) ∧
      BMap.Sorted l ∧ (∀ t, BMap.get? l t = T' t) ∧ Font.toBytes v l = .ok out := by
  refine tool_spec (Does := fun T T' => T' = T ∧ (∃ m, MaxpIs T m) ∧ (∃ sts, CmapIs T sts) ∧ (T tagPost = none ∨ ∃ p, PostIs T p))
    (bodyA := renameBody true (indepMachine (fmt R))) (sim_rename true) ?_ ?_ input out
  · intro T a a' s v out hs hb hr hsave
    obtain ⟨m, sts, hm, hc, h⟩ := rename_fwd hs hb
    rcases h with ⟨h1, h2⟩ | ⟨p, hp, h | h⟩
    · exact ⟨T, ⟨rfl, ⟨m, hm⟩, ⟨sts, hc⟩, .inl h1⟩, h2.left⟩
    · exact ⟨T, ⟨rfl, ⟨m, hm⟩, ⟨sts, hc⟩, .inr ⟨p, hp⟩⟩, h.2.left⟩
    · cases h.1
  · rintro T _ a hs ⟨rfl, ⟨m, hm⟩, ⟨sts, hc⟩, h⟩
    obtain ⟨g1, g2⟩ := rename_bwd (drop := true) hs hm hc
    rcases h with h | ⟨p, hp⟩
    · obtain ⟨a', i1, i2⟩ := g1 h
      exact ⟨a', i1, i2.left⟩
    · obtain ⟨a', i1, i2⟩ := (g2 p hp).1 rfl
      exact ⟨a', i1, i2.left⟩

/-- **C84.** With `-d` the tool runs on the same fonts, whether or not there are enough names. -/
theorem C84_drop_accepts (R : Rest X) : Accepts (renameGlyphs R true) NamesReadable := by
  intro input
  constructor
  · rintro ⟨out, e⟩
    obtain ⟨v, T, _, l, h1, h2, ⟨rfl, hm, hc, hp⟩, _, h4, h5, h6⟩ := (drop_spec R _ _).mp e
    exact ⟨v, _, h1, ⟨h2, hm, (toBytes_iff (openable_long h2)).mp ⟨l, out, h4, h5, h6⟩⟩, hc, hp⟩
  · rintro ⟨v, T, h1, ⟨h2, hm, h4⟩, hc, hp⟩
    obtain ⟨l, out, g1, g2, g3⟩ := (toBytes_iff (v := v) (openable_long h2)).mpr h4
    exact ⟨out, (drop_spec R _ _).mpr ⟨v, T, T, l, h1, h2, ⟨rfl, hm, hc, hp⟩, hm, g1, g2, g3⟩⟩

/-- **C84.** The option `-d` ("drop all names") drops nothing: all tables stay as they were. -/
theorem C84_drop_writes (R : Rest X) : Writes (renameGlyphs R true) unchanged := by
  intro input out e hl
  obtain ⟨v, T, _, l, h1, h2, ⟨rfl, _⟩, _, h4, h5, h6⟩ := (drop_spec R _ _).mp e
  obtain ⟨hv, hver⟩ := loads_sorted h1
  exact ⟨v, _, h1, saved_of hver hv h4 h5 h6 hl⟩

end


/-! ### Reading the new names -/

theorem utf8_length (s : String) : (utf8 s).length ≤ 4 * s.toList.length := by
  have h : ∀ l : List Char, (l.flatMap String.utf8EncodeChar).length ≤ 4 * l.length := by
    intro l
    induction l with
    | nil => simp
    | cons c l ih =>
      rw [List.flatMap_cons, List.length_append, List.length_cons, String.length_utf8EncodeChar]
      have := c.utf8Size_le_four
      omega
  have e : utf8 s = s.toList.flatMap String.utf8EncodeChar := by
    unfold utf8
    rw [show s.toUTF8 = s.toByteArray from rfl, ← String.utf8Encode_toList]
    unfold List.utf8Encode
    simp
  rw [e]
  exact h _

theorem fromUtf8_inv {b : Bytes} {s : String} (h : fromUtf8 b = .ok s) : utf8 s = b := by
  unfold fromUtf8 String.fromUTF8? at h
  split at h
  · cases h
    unfold utf8
    rfl
  · cases h

theorem production_short {c : UInt32} {s : String} (h : IsProductionName c s) : (utf8 s).length ≤ 255 := by
  refine Nat.le_trans (utf8_length s) ?_
  unfold IsProductionName at h
  split at h
  · subst h; decide
  · obtain ⟨d, ⟨h1, h2, h3⟩, h4⟩ := h
    have hd : d.length ≤ 8 := by
      rcases h3 with h3 | h3
      · omega
      · match d, h1, h2, h3 with
        | x :: l, h1, h2, h3 =>
          rw [hexValue] at h1
          cases e : digitValue x with
          | none => rw [e] at h1; cases h1
          | some y =>
            rw [e] at h1
            simp only [Option.bind_some, Nat.mul_zero, Nat.zero_add] at h1
            have hy : y ≠ 0 := by
              rintro rfl
              unfold digitValue at e
              obtain ⟨_, e, _⟩ := List.findIdx?_eq_some_iff_getElem.mp e
              simp only [beq_iff_eq] at e
              exact h3 (by rw [← e]; rfl)
            have := hexValue_ge l _ _ h1
            have hc := c.toNat_lt
            by_contra hlt
            have hl : 8 ≤ l.length := by simp at hlt; omega
            have := Nat.pow_le_pow_right (show 0 < 16 by decide) hl
            have : 16 ^ l.length ≤ y * 16 ^ l.length := Nat.le_mul_of_pos_left _ (by omega)
            omega
    rw [h4, List.length_append]
    have : (if c.toNat ≤ 0xFFFF then "uni".toList else "u".toList).length ≤ 3 := by split <;> decide
    omega

theorem stored_short : ∀ (k : Nat) {r r' : Rd} {l : List String}, readStored k r = .ok (l, r') → ∀ s ∈ l, (utf8 s).length ≤ 255
  | 0, _, _, _, h => by cases h; simp
  | k + 1, r, r', l, h => by
    unfold readStored at h
    cases hu : readU8 r with
    | err => rw [hu] at h; cases h; simp
    | panic => rw [hu] at h; cases h
    | ok x =>
      obtain ⟨n, r1⟩ := x
      rw [hu] at h
      obtain ⟨bs, r2, h1, h⟩ := reader_bind_ok h
      obtain ⟨s, r3, h2, h⟩ := reader_bind_ok h
      obtain ⟨rest, r4, h3, h⟩ := reader_bind_ok h
      cases h
      intro s' hs
      rcases List.mem_cons.mp hs with rfl | hs
      · have hf : fromUtf8 bs = .ok s' := by
          unfold Reader.lift at h2
          cases hb : fromUtf8 bs with
          | ok y => rw [hb] at h2; cases h2; rfl
          | err => rw [hb] at h2; cases h2
          | panic => rw [hb] at h2; cases h2
        rw [fromUtf8_inv hf, deCounted_length h1]
        have := n.toNat_lt
        omega
      · exact stored_short k h3 s' hs

theorem named_by {α β : Type} {P : α → β → Prop} {l : List α} {l' : List β} (h : List.Forall₂ P l l') : ∀ b ∈ l', ∃ a ∈ l, P a b := by
  induction h with
  | nil => simp
  | cons h _ ih =>
    intro b hb
    rcases List.mem_cons.mp hb with rfl | hb
    · exact ⟨_, by simp, h⟩
    · obtain ⟨a, h1, h2⟩ := ih b hb
      exact ⟨a, by simp [h1], h2⟩

/-- What is known about a `post` table that was read. -/
theorem post_facts {b : Bytes} {p : Post} {names : List String} (h : runAll readPost b = .ok p) (hn : p.glyphnames = some names) :
    p.version = 0x20000 ∧ names.length ≤ 65535 ∧ ∀ n ∈ names, Custom n → (utf8 n).length ≤ 255 := by
  unfold runAll at h
  cases hr : readPost (Rd.new b) with
  | err => rw [hr] at h; cases h
  | panic => rw [hr] at h; cases h
  | ok x =>
    rw [hr] at h
    cases h
    obtain ⟨p, r⟩ := x
    unfold readPost at hr
    obtain ⟨core, r1, h1, h2⟩ := reader_bind_ok hr
    split at h2
    · next hv =>
      obtain ⟨ns, r2, h3, h4⟩ := reader_bind_ok h2
      cases h4
      simp only [Option.some.injEq] at hn
      subst hn
      refine ⟨hv, ?_⟩
      unfold readGlyphNames at h3
      obtain ⟨n, r3, _, h3⟩ := reader_bind_ok h3
      obtain ⟨offs, r4, h5, h3⟩ := reader_bind_ok h3
      obtain ⟨inp, r5, _, h3⟩ := reader_bind_ok h3
      obtain ⟨stored, r6, h6, h3⟩ := reader_bind_ok h3
      have hm : Res.mapL (glyphNameAt stored) offs = .ok ns := by
        unfold Reader.lift at h3
        cases hb : Res.mapL (glyphNameAt stored) offs with
        | ok y => rw [hb] at h3; cases h3; rfl
        | err => rw [hb] at h3; cases h3
        | panic => rw [hb] at h3; cases h3
      have hf := mapL_inv _ _ hm
      refine ⟨?_, ?_⟩
      · rw [← hf.length_eq, deCounted_length h5]
        have := n.toNat_lt
        omega
      · intro s hs hc
        obtain ⟨o, _, ho⟩ := named_by hf s hs
        unfold glyphNameAt at ho
        split at ho
        · cases ha : appleNames[o.toNat]? with
          | none => rw [ha] at ho; cases ho
          | some y =>
            rw [ha] at ho
            cases ho
            exact absurd (List.mem_of_getElem? ha) hc
        · cases ha : stored[o.toNat - 258]? with
          | none => rw [ha] at ho; cases ho
          | some y =>
            rw [ha] at ho
            cases ho
            exact stored_short _ h6 _ (List.mem_of_getElem? ha)
    · next hv =>
      have hc : core.glyphnames = none := by
        unfold readPostCore at h1
        iterate 9 (obtain ⟨_, _, _, h1⟩ := reader_bind_ok h1)
        cases h1
        rfl
      cases h2
      rw [hc] at hn
      cases hn

theorem renamed_short {sts : List Subtable} {n : Nat} {names names' : List String} (h : Renamed sts n names names')
    (hs : ∀ n ∈ names, Custom n → (utf8 n).length ≤ 255) : ∀ n ∈ names', Custom n → (utf8 n).length ≤ 255 := by
  obtain ⟨_, hl, h⟩ := h
  intro s hm hc
  obtain ⟨i, hi, rfl⟩ := List.getElem_of_mem hm
  have hi' : i < names.length := by omega
  obtain ⟨g1, g2⟩ := h i names[i] names'[i] (List.getElem?_eq_getElem hi') (List.getElem?_eq_getElem hi)
  by_cases hin : i < n
  · rcases g1 hin with ⟨c, _, _, hp⟩ | ⟨_, e⟩
    · exact production_short hp
    · rw [e] at hc ⊢
      exact hs _ (List.getElem_mem hi') hc
  · rw [g2 (by omega)] at hc ⊢
    exact hs _ (List.getElem_mem hi') hc

/-- A table that was read, with other names, can be written. -/
theorem encPost_named {b : Bytes} {p : Post} {names : List String} (h : runAll readPost b = .ok p) (hn : p.glyphnames = some names)
    (names' : List String) : ∃ b', encPost { p with glyphnames := some names' } = .ok b' := by
  obtain ⟨hv, _⟩ := post_facts h hn
  unfold encPost encPostCore encVersion16Dot16
  simp only [hv]
  exact ⟨_, rfl⟩

/-- **C84.** The exact condition, without mentioning what is written: the tables used can be read, and if there is a `post`
table then it has names, at least as many as there are glyphs. -/
theorem C84_runs {X : Type} (R : Rest X) : Accepts (renameGlyphs R false) (fun T => Openable T ∧ FewTables T ∧
    ∃ m sts, MaxpIs T m ∧ CmapIs T sts ∧ (T tagPost = none ∨
      ∃ p names, PostIs T p ∧ p.glyphnames = some names ∧ m.numGlyphs.toNat ≤ names.length)) := by
  intro input
  rw [C84_accepts]
  constructor
  · rintro ⟨v, T, T', h1, h2, ⟨m, sts, hm, hc, h⟩, h3⟩
    refine ⟨v, T, h1, h2, ?_, m, sts, hm, hc, ?_⟩
    · obtain ⟨l, e1, e2⟩ := h3
      refine ⟨l, e1, fun t ht => e2 t ?_⟩
      rcases h with ⟨_, rfl⟩ | ⟨p, names, names', b, _, _, _, _, rfl⟩
      · exact ht
      · dsimp only
        split
        · simp
        · exact ht
    · rcases h with ⟨h, _⟩ | ⟨p, names, names', b, hp, hn, hr, _⟩
      · exact .inl h
      · exact .inr ⟨p, names, hp, hn, hr.1⟩
  · rintro ⟨v, T, h1, h2, h3, m, sts, hm, hc, h⟩
    rcases h with h | ⟨p, names, ⟨b, hb, hp⟩, hn, hle⟩
    · exact ⟨v, T, T, h1, h2, ⟨m, sts, hm, hc, .inl ⟨h, rfl⟩⟩, h3⟩
    · obtain ⟨names', e1, e2, e3⟩ := renameFrom_ok sts m.numGlyphs.toNat 0 names hle
      simp only [Nat.zero_add] at e3
      obtain ⟨b', hb'⟩ := encPost_named hp hn names'
      refine ⟨v, T, _, h1, h2, ⟨m, sts, hm, hc, .inr ⟨p, names, names', b', ⟨b, hb, hp⟩, hn, ⟨hle, e2, e3⟩, hb', rfl⟩⟩, ?_⟩
      obtain ⟨l, g1, g2⟩ := h3
      refine ⟨l, g1, fun t ht => ?_⟩
      dsimp only at ht
      split at ht
      · next e => exact g2 t (by rw [e, hb]; simp)
      · exact g2 t ht

/-- **C84.** Opening the new file, its `post` table has the new names and is otherwise as it was, if the italic angle can be
stored and there are at most 65278 names outside the standard list. -/
theorem C84_names {X : Type} (R : Rest X) {input out : Bytes} (h : renameGlyphs R false input = .ok out) (hl : out.length < 2 ^ 32) :
    ∃ v T T', IsFont input v T ∧ IsFont out v T' ∧ ((T tagPost = none ∧ T' tagPost = none) ∨
      ∃ m sts p names names', MaxpIs T m ∧ CmapIs T sts ∧ PostIs T p ∧ p.glyphnames = some names ∧
        Renamed sts m.numGlyphs.toNat names names' ∧
        (FixedVal p.italicAngle → (names'.filter (fun n => decide (Custom n))).length ≤ 65278 →
          PostIs T' { p with glyphnames := some names' })) := by
  obtain ⟨v, T, T1, h1, ⟨m, sts, hm, hc, hd⟩, hs⟩ := C84_writes R h hl
  obtain ⟨T', i1, i2, _⟩ := hs.font
  refine ⟨v, T, T', h1, i1, ?_⟩
  rw [i2 tagPost (by decide)]
  rcases hd with ⟨e, rfl⟩ | ⟨p, names, names', b, hp, hn, hr, hb, rfl⟩
  · exact .inl ⟨e, e⟩
  · refine .inr ⟨m, sts, p, names, names', hm, hc, hp, hn, hr, fun ha hcust => ⟨b, ?_, ?_⟩⟩
    · rw [i2 tagPost (by decide)]
      simp
    · obtain ⟨b0, _, hp⟩ := hp
      obtain ⟨hv, hlen, hshort⟩ := post_facts hp hn
      obtain ⟨bs, e1, e2⟩ := C51_names (p := { p with glyphnames := some names' }) (v := names')
        ⟨by rw [show ({ p with glyphnames := some names' } : Post).version = p.version from rfl, hv]; decide, ha⟩ hv rfl
        ⟨by rw [hr.2.1]; exact hlen, hcust, renamed_short hr hshort⟩
      rw [hb] at e1
      cases e1
      unfold runAll
      rw [e2]


/-! ### A font with two glyphs, the second for the letter A -/

def nameCmap : Bytes :=
  [0, 0, 0, 1, 0, 3, 0, 10, 0, 0, 0, 12, 0, 12, 0, 0, 0, 0, 0, 28, 0, 0, 0, 0, 0, 0, 0, 1, 0, 0, 0, 0x41, 0, 0, 0, 0x41, 0, 0, 0, 1]
def nameMaxp : Bytes := [0, 0, 0x50, 0, 0, 2]
def namePost (names : List String) : Post := ⟨0x20000, 0, -100, 50, 0, 0, 0, 0, 0, some names⟩
def postStart : Bytes := [0, 2, 0, 0, 0, 0, 0, 0, 0xff, 0x9c, 0, 50] ++ List.replicate 20 0 ++ [0, 2, 0, 0, 1, 2]
def oldPost : Bytes := postStart ++ [6, 103, 108, 121, 112, 104, 49]
def newPost : Bytes := postStart ++ [7, 117, 110, 105, 48, 48, 52, 49]
def oldTables : List (Tag × Bytes) := [(tagCmap, nameCmap), (tagHead, toyHead), (tagMaxp, nameMaxp), (tagPost, oldPost)]
def newTables : List (Tag × Bytes) := [(tagCmap, nameCmap), (tagHead, toyHead), (tagMaxp, nameMaxp), (tagPost, newPost)]
def letterA : List Subtable := [⟨12, 3, 10, 0, [(0x41, 1)], none⟩]

theorem zero_storable : FixedVal 0 := by simpa using fixedVal_int (n := 0) (by norm_num) (by norm_num)

theorem encFixed_zero : encFixed 0 = [0, 0, 0, 0] := by
  obtain ⟨p, e1, _, e2⟩ := zero_storable.packed
  unfold encFixed
  rw [e1]
  have : p.toInt = 0 := by
    have : (p.toInt : ℚ) = 0 := by linarith
    exact_mod_cast this
  rw [this]
  decide

theorem encPost_old : encPost (namePost [".notdef", "glyph1"]) = .ok oldPost := by
  unfold encPost encPostCore namePost
  simp only
  rw [encFixed_zero]
  exact okIs_eq (by decide +kernel)

theorem encPost_new : encPost (namePost [".notdef", "uni0041"]) = .ok newPost := by
  unfold encPost encPostCore namePost
  simp only
  rw [encFixed_zero]
  exact okIs_eq (by decide +kernel)

theorem namePost_old : runAll readPost oldPost = .ok (namePost [".notdef", "glyph1"]) := by
  obtain ⟨bs, e1, e2⟩ := C51_names (p := namePost [".notdef", "glyph1"]) (v := [".notdef", "glyph1"])
    ⟨by decide, zero_storable⟩ rfl rfl
    ⟨by decide, le_trans (List.length_filter_le _ _) (by decide), fun n hn _ => by
      simp only [List.mem_cons, List.not_mem_nil, or_false] at hn
      rcases hn with rfl | rfl <;> decide⟩
  rw [encPost_old] at e1
  cases e1
  unfold runAll
  rw [e2]

theorem letterA_maps (c : UInt32) (g : UInt16) : UnicodeMaps letterA c g ↔ c = 0x41 ∧ g = 1 := by
  rw [← (C36_reversed letterA).1]
  rw [show reversed letterA = [(1, [0x41])] by decide +kernel]
  constructor
  · rintro ⟨l, h1, h2⟩
    simp only [List.mem_cons, List.not_mem_nil, or_false, Prod.mk.injEq] at h1
    obtain ⟨rfl, rfl⟩ := h1
    exact ⟨by simpa using h2, rfl⟩
  · rintro ⟨rfl, rfl⟩
    exact ⟨[0x41], by simp, by simp⟩

/-- Glyph 1 is named after the letter. -/
theorem letterA_renamed : Renamed letterA 2 [".notdef", "glyph1"] [".notdef", "uni0041"] := by
  refine ⟨by decide, rfl, ?_⟩
  intro i old new h1 h2
  match i with
  | 0 =>
    cases h1
    cases h2
    refine ⟨fun _ => .inr ⟨?_, rfl⟩, fun h => absurd h (by decide)⟩
    intro c hc
    exact absurd ((letterA_maps _ _).mp hc).2 (by decide)
  | 1 =>
    cases h1
    cases h2
    refine ⟨fun _ => .inl ⟨0x41, (letterA_maps _ _).mpr ⟨rfl, by decide⟩, ?_, ?_⟩, fun h => absurd h (by decide)⟩
    · intro c' hc
      rw [((letterA_maps _ _).mp hc).1]
    · unfold IsProductionName
      rw [if_neg (by decide)]
      exact ⟨['0', '0', '4', '1'], ⟨by decide, by decide, by decide⟩, by decide⟩
  | i + 2 => simp at h1

theorem oldTables_sorted : BMap.Sorted oldTables := by unfold BMap.Sorted oldTables; decide
theorem newTables_sorted : BMap.Sorted newTables := by unfold BMap.Sorted newTables; decide

theorem newTables_get (t : Tag) : BMap.get? newTables t = if t = tagPost then some newPost else BMap.get? oldTables t := by
  rw [show newTables = BMap.insert oldTables tagPost newPost by decide +kernel, BMap.get?_insert]

/-- The font is renamed. -/
theorem letterA_runs {X : Type} (R : Rest X) : ∃ input out, renameGlyphs R false input = .ok out ∧ out.length < 2 ^ 32 ∧
    ∃ T, IsFont out 0x00010000 T ∧ PostIs T (namePost [".notdef", "uni0041"]) := by
  obtain ⟨file, e, hl⟩ := okLength_some (r := Font.toBytes 0x00010000 oldTables) (n := 228) (by decide +kernel)
  obtain ⟨T, h1, h2, h3⟩ := (saved_of (T := fun t => BMap.get? oldTables t) (.inl rfl) (by
    intro t ht
    obtain ⟨b, hb⟩ := Option.ne_none_iff_exists'.mp ht
    have hm := (BMap.get?_eq_some oldTables_sorted).mp hb
    simp only [oldTables, List.mem_cons, Prod.mk.injEq, List.not_mem_nil, or_false] at hm
    rcases hm with ⟨rfl, _⟩ | ⟨rfl, _⟩ | ⟨rfl, _⟩ | ⟨rfl, _⟩ <;> decide) oldTables_sorted (fun _ => rfl) e (by omega)).font
  have hsame : SameBut (fun t => BMap.get? oldTables t) T := ⟨h2, h3⟩
  have hsame' : SameBut (fun t => BMap.get? newTables t) (fun t => if t = tagPost then some newPost else T t) := by
    refine ⟨fun t ht => ?_, ?_⟩
    · show _ = BMap.get? newTables t
      rw [newTables_get]
      simp only [h2 t ht]
    · show (BMap.get? newTables tagHead = none ∧ _) ∨ _
      dsimp only
      rw [newTables_get]
      simp only [show ¬ tagHead = tagPost by decide, if_false]
      exact h3
  have hopen : Openable (fun t => BMap.get? oldTables t) := ⟨.inr ⟨_, toyHead, by decide +kernel, rfl⟩, .inl (by decide +kernel)⟩
  have hm : MaxpIs (fun t => BMap.get? oldTables t) ⟨0x8000, .v05 ⟨2⟩⟩ := ⟨nameMaxp, by decide +kernel, rfl⟩
  obtain ⟨out, e', hl'⟩ := okLength_some (r := Font.toBytes 0x00010000 newTables) (n := 228) (by decide +kernel)
  obtain ⟨l', j1, j2, j3⟩ := toBytes_sameBut hsame' (by
    rw [newTables_get, if_neg (by decide)]; exact openable_long hopen) newTables_sorted (fun _ => rfl) e'
  have hp : PostIs T (namePost [".notdef", "glyph1"]) :=
    ⟨oldPost, by rw [h2 _ (by decide)]; decide +kernel, namePost_old⟩
  have hrun : renameGlyphs R false file = .ok out := by
    refine (rename_spec R _ _).mpr ⟨_, T, _, l', h1, hsame.openable hopen, ?_, ⟨_, hsame.maxp hm⟩, j1, j2, j3⟩
    exact ⟨_, letterA, hsame.maxp hm, .inr ⟨nameCmap, by rw [h2 _ (by decide)]; decide +kernel, okIs_eq (by decide +kernel)⟩,
      .inr ⟨_, _, [".notdef", "uni0041"], newPost, hp, rfl, letterA_renamed, encPost_new, rfl⟩⟩
  refine ⟨file, out, hrun, by omega, ?_⟩
  obtain ⟨v, T1, T2, i1, i2, hd⟩ := C84_names R hrun (by omega)
  obtain ⟨rfl, rfl⟩ := i1.unique h1
  refine ⟨T2, i2, ?_⟩
  rcases hd with ⟨hn, _⟩ | ⟨m, sts, p, names, names', g1, g2, g3, g4, g5, g6⟩
  · obtain ⟨b, hb, _⟩ := hp
    rw [hb] at hn
    cases hn
  · have hb : T1 tagPost = some oldPost := by rw [h2 _ (by decide)]; decide +kernel
    obtain ⟨b, hb1, hp1⟩ := g3
    rw [hb] at hb1
    cases hb1
    rw [namePost_old] at hp1
    cases hp1
    cases g4
    have em : m = ⟨0x8000, .v05 ⟨2⟩⟩ := by
      obtain ⟨b, c1, c2⟩ := hsame.maxp hm
      obtain ⟨b', c3, c4⟩ := g1
      rw [c1] at c3
      cases c3
      rw [c2] at c4
      cases c4
      rfl
    have es : sts = letterA := by
      have hb : T1 tagCmap = some nameCmap := by rw [h2 _ (by decide)]; decide +kernel
      rcases g2 with ⟨hn, _⟩ | ⟨b, hb1, hp1⟩
      · rw [hb] at hn; cases hn
      · rw [hb] at hb1
        cases hb1
        rw [show runAll readCmap nameCmap = .ok letterA from okIs_eq (by decide +kernel)] at hp1
        cases hp1
        rfl
    subst em es
    obtain rfl : names' = [".notdef", "uni0041"] := by
      have a1 := (renamed_iff _ _ _ _).mpr g5
      have a2 := (renamed_iff _ _ _ _).mpr letterA_renamed
      have a3 : renameFrom (reversed letterA) 0 2 [".notdef", "glyph1"] = .ok names' := a1
      rw [a2] at a3
      cases a3
      rfl
    exact g6 zero_storable (le_trans (List.length_filter_le _ _) (by decide))

example {X : Type} (R : Rest X) : ∃ input out, renameGlyphs R false input = .ok out ∧ out.length < 2 ^ 32 := by
  obtain ⟨i, o, h1, h2, _⟩ := letterA_runs R
  exact ⟨i, o, h1, h2⟩

end FT.Props
