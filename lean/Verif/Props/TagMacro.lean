import Verif.Model.TagMacro
import Verif.Lemmas.Reads
import Mathlib.Data.List.TakeWhile
import Mathlib.Tactic.Conv
import Mathlib.Tactic.Tauto

/-!
C105: the `tag!` macro and tags as text.

The specification is Rust's: what a string literal and a byte string literal in a source file stand for.
-/

namespace FT.Props
open FT FT.TagMacro

/-! ### Rust's literals -/

/-- `c` is the hexadecimal digit for `v`. -/
def IsHex (c : Char) (v : Fin 16) : Prop :=
  c = ['0', '1', '2', '3', '4', '5', '6', '7', '8', '9', 'a', 'b', 'c', 'd', 'e', 'f'][v] ∨
  c = ['0', '1', '2', '3', '4', '5', '6', '7', '8', '9', 'A', 'B', 'C', 'D', 'E', 'F'][v]

/-- What may follow a backslash in every literal, and the code it stands for. -/
inductive SimpleEscape : List Char → Nat → Prop
  | n : SimpleEscape ['n'] 10
  | r : SimpleEscape ['r'] 13
  | t : SimpleEscape ['t'] 9
  | backslash : SimpleEscape ['\\'] 92
  | zero : SimpleEscape ['0'] 0
  | single : SimpleEscape ['\''] 39
  | double : SimpleEscape ['"'] 34

/-- Hexadecimal digits, each followed by any number of underscores, and their values. -/
inductive HexText : List Char → List (Fin 16) → Prop
  | digit {c : Char} {v : Fin 16} : IsHex c v → HexText [c] [v]
  | under {s : List Char} {l : List (Fin 16)} : HexText s l → HexText (s ++ ['_']) l
  | more {s : List Char} {l : List (Fin 16)} {c : Char} {v : Fin 16} : HexText s l → IsHex c v → HexText (s ++ [c]) (l ++ [v])

/-- The number with these digits. -/
def hexNumber (l : List (Fin 16)) : Nat := l.foldl (fun n d => n * 16 + d.val) 0

/-- What may follow a backslash in a string literal, and the character it stands for. -/
inductive StrEscape : List Char → Char → Prop
  | simple {s : List Char} {c : Char} : SimpleEscape s c.toNat → StrEscape s c
  | hex {a b : Char} {x y : Fin 16} {c : Char} : IsHex a x → IsHex b y → x.val < 8 → c.toNat = x.val * 16 + y.val →
      StrEscape ['x', a, b] c
  | uni {s : List Char} {l : List (Fin 16)} {c : Char} : HexText s l → l.length ≤ 6 → c.toNat = hexNumber l →
      StrEscape ('u' :: '{' :: s ++ ['}']) c

/-- The white space that is skipped after a backslash at the end of a line. -/
def lineSpace : List Char := [' ', '\n', '\t', '\r']

/-- `StrLit src t`: between quotes, `src` is a string literal for the text `t`. -/
inductive StrLit : List Char → List Char → Prop
  | done : StrLit [] []
  | plain {c : Char} {s t : List Char} : c ≠ '"' → c ≠ '\\' → c ≠ '\r' → StrLit s t → StrLit (c :: s) (c :: t)
  | crlf {s t : List Char} : StrLit s t → StrLit ('\r' :: '\n' :: s) ('\n' :: t)
  | escape {e : List Char} {c : Char} {s t : List Char} : StrEscape e c → StrLit s t → StrLit ('\\' :: e ++ s) (c :: t)
  | line {w s t : List Char} : (∀ c ∈ w, c ∈ lineSpace) → (∀ c, s.head? = some c → c ∉ lineSpace) → StrLit s t →
      StrLit ('\\' :: '\n' :: w ++ s) t

/-- `ByteLit src bs`: between `b"` and `"`, `src` is a byte string literal for the bytes `bs`. -/
inductive ByteLit : List Char → Bytes → Prop
  | done : ByteLit [] []
  | plain {c : Char} {s : List Char} {bs : Bytes} : c.toNat < 128 → c ≠ '"' → c ≠ '\\' → c ≠ '\r' → ByteLit s bs →
      ByteLit (c :: s) (UInt8.ofNat c.toNat :: bs)
  | simple {e : List Char} {n : Nat} {s : List Char} {bs : Bytes} : SimpleEscape e n → ByteLit s bs →
      ByteLit ('\\' :: e ++ s) (UInt8.ofNat n :: bs)
  | hex {a b : Char} {x y : Fin 16} {s : List Char} {bs : Bytes} : IsHex a x → IsHex b y → ByteLit s bs →
      ByteLit ('\\' :: 'x' :: a :: b :: s) (UInt8.ofNat (x.val * 16 + y.val) :: bs)
  | line {w s : List Char} {bs : Bytes} : (∀ c ∈ w, c ∈ lineSpace) → (∀ c, s.head? = some c → c ∉ lineSpace) → ByteLit s bs →
      ByteLit ('\\' :: '\n' :: w ++ s) bs

/-- `u` is `t` without the quotes at both ends. -/
def Unquoted (t u : List Char) : Prop :=
  ∃ a b, t = a ++ u ++ b ∧ (∀ c ∈ a, c = '"') ∧ (∀ c ∈ b, c = '"') ∧ u.head? ≠ some '"' ∧ u.getLast? ≠ some '"'

/-- `tag!` of the literal compiles and gives the tag: the macro expands, and what it puts between the quotes of `*b"…"` stands
for four bytes, those of the tag. -/
def MacroGives (lit : List Char) (t : Tag) : Prop := ∃ body, expandTag lit = .ok body ∧ ByteLit body t.bytes

/-- Unicode's other white space (the property `White_Space`). -/
def otherSpace : List Nat :=
  [0x0B, 0x0C, 0x85, 0xA0, 0x1680, 0x2000, 0x2001, 0x2002, 0x2003, 0x2004, 0x2005, 0x2006, 0x2007, 0x2008, 0x2009, 0x200A, 0x2028,
    0x2029, 0x202F, 0x205F, 0x3000]

/-- No other white space than that of ordinary source files. -/
def OrdinarySpace (src : List Char) : Prop := ∀ c ∈ src, c.toNat ∉ otherSpace

/-! ### Proofs -/

theorem hexDigit_of {c : Char} {v : Fin 16} (h : IsHex c v) : hexDigit c = some v.val := by
  have k : ∀ v : Fin 16,
      hexDigit (['0', '1', '2', '3', '4', '5', '6', '7', '8', '9', 'a', 'b', 'c', 'd', 'e', 'f'][v]) = some v.val ∧
      hexDigit (['0', '1', '2', '3', '4', '5', '6', '7', '8', '9', 'A', 'B', 'C', 'D', 'E', 'F'][v]) = some v.val := by decide
  rcases h with rfl | rfl
  · exact (k v).1
  · exact (k v).2

theorem char_eq_of {c : Char} {n : Nat} (h : c.toNat = n) : c = Char.ofNat n := by
  subst h; exact (Char.ofNat_toNat c).symm

theorem isWhite_line : ∀ c ∈ lineSpace, isWhite c = true := by decide

theorem isWhite_split {c : Char} (h : isWhite c = true) : c ∈ lineSpace ∨ c.toNat ∈ otherSpace := by
  unfold isWhite at h
  simp only [Bool.or_eq_true, Bool.and_eq_true, decide_eq_true_eq, beq_iff_eq] at h
  have k : c.toNat = 9 ∨ c.toNat = 10 ∨ c.toNat = 13 ∨ c.toNat = 32 ∨ c.toNat ∈ otherSpace := by
    simp only [otherSpace, List.mem_cons, List.not_mem_nil, or_false]
    omega
  rcases k with k | k | k | k | k
  · rw [char_eq_of k]; left; decide
  · rw [char_eq_of k]; left; decide
  · rw [char_eq_of k]; left; decide
  · rw [char_eq_of k]; left; decide
  · exact Or.inr k

theorem isWhite_other {c : Char} (h : c.toNat ∈ otherSpace) : isWhite c = true := by
  simp only [otherSpace, List.mem_cons, List.not_mem_nil, or_false] at h
  unfold isWhite
  simp only [Bool.or_eq_true, Bool.and_eq_true, decide_eq_true_eq, beq_iff_eq]
  omega

theorem hexDigit_plain {c : Char} {v : Nat} (h : hexDigit c = some v) : c ≠ '_' ∧ c ≠ '}' := by
  constructor <;> rintro rfl <;> revert h <;> decide +revert

/-- The loop over the digits of `\u{…}`, from the right end of what has been read. -/
theorem uLoop_of {s : List Char} {l : List (Fin 16)} (h : HexText s l) : l.length ≤ 6 → ∀ rest,
    0 < l.length ∧ backslashULoop (s ++ rest) 0 0 = backslashULoop rest (hexNumber l) l.length := by
  induction h with
  | @digit c v hc =>
    intro _ rest
    have h1 := hexDigit_of hc
    obtain ⟨n1, n2⟩ := hexDigit_plain h1
    refine ⟨by simp, ?_⟩
    rw [List.singleton_append]
    conv_lhs => unfold backslashULoop
    rw [if_neg (by simp), if_neg n2, h1]
    simp [hexNumber]
  | @under s l _ ih =>
    intro hl rest
    obtain ⟨h0, e⟩ := ih hl ('_' :: rest)
    refine ⟨h0, ?_⟩
    rw [List.append_assoc, List.singleton_append, e]
    conv_lhs => unfold backslashULoop
    rw [if_pos ⟨rfl, h0⟩]
  | @more s l c v _ hc ih =>
    intro hl rest
    have hl' : l.length ≤ 6 := by simp at hl; omega
    obtain ⟨h0, e⟩ := ih hl' (c :: rest)
    have h1 := hexDigit_of hc
    obtain ⟨n1, n2⟩ := hexDigit_plain h1
    refine ⟨by simp, ?_⟩
    rw [List.append_assoc, List.singleton_append, e]
    conv_lhs => unfold backslashULoop
    rw [if_neg (fun h => n1 h.1), if_neg n2, h1]
    simp only
    rw [if_neg (by simp at hl; omega)]
    simp [hexNumber]

theorem backslashU_of {s : List Char} {l : List (Fin 16)} {c : Char} (h : HexText s l) (hl : l.length ≤ 6)
    (hc : c.toNat = hexNumber l) (rest : List Char) : backslashU ('{' :: s ++ '}' :: rest) = .ok (c, rest) := by
  obtain ⟨h0, e⟩ := uLoop_of h hl ('}' :: rest)
  rw [List.cons_append]
  unfold backslashU
  simp only
  rw [e]
  unfold backslashULoop
  rw [if_neg (by simp), if_pos rfl, if_neg (by omega)]
  simp only
  unfold charFrom
  rw [← hc, if_pos (show c.toNat.isValidChar from c.valid), Char.ofNat_toNat]

theorem cooked_plain {c : Char} (h1 : c ≠ '"') (h2 : c ≠ '\\') (h3 : c ≠ '\r') (s : List Char) :
    cookedLoop (c :: s) = (cookedLoop s).bind fun l => .ok (c :: l) := by
  conv_lhs => unfold cookedLoop
  split <;> simp_all

theorem cooked_x {c : Char} {s r : List Char} (h : backslashX s = .ok (c, r)) :
    cookedLoop ('\\' :: 'x' :: s) = (cookedLoop r).bind fun l => .ok (c :: l) := by
  rw [cookedLoop]
  split
  · next h' => rw [h] at h'; cases h'; rfl
  · next h' => rw [h] at h'; cases h'
  · next h' => rw [h] at h'; cases h'

theorem cooked_u {c : Char} {s r : List Char} (h : backslashU s = .ok (c, r)) :
    cookedLoop ('\\' :: 'u' :: s) = (cookedLoop r).bind fun l => .ok (c :: l) := by
  rw [cookedLoop]
  split
  · next h' => rw [h] at h'; cases h'; rfl
  · next h' => rw [h] at h'; cases h'
  · next h' => rw [h] at h'; cases h'

theorem cooked_escape {e : List Char} {c : Char} (h : StrEscape e c) (s : List Char) :
    cookedLoop ('\\' :: e ++ s) = (cookedLoop s).bind fun l => .ok (c :: l) := by
  cases h with
  | simple h =>
    generalize hn : c.toNat = n at h
    have := char_eq_of hn
    subst this
    cases h <;> (simp only [List.cons_append, List.nil_append]; rw [cookedLoop])
  | @hex a b x y _ ha hb hx hc =>
    have := char_eq_of hc
    subst this
    refine cooked_x ?_
    show backslashX (a :: b :: s) = _
    unfold backslashX
    simp only
    rw [hexDigit_of ha, hexDigit_of hb]
    simp only
    rw [if_pos (by have := y.isLt; omega)]
  | @uni t l _ h hl hc =>
    have := backslashU_of h hl hc s
    simp only [List.cons_append, List.append_assoc, List.nil_append] at this ⊢
    exact cooked_u this

theorem cooked_of {src t : List Char} (h : StrLit src t) : OrdinarySpace src → ∀ rest, cookedLoop (src ++ '"' :: rest) = .ok t := by
  induction h with
  | done => intro _ rest; rw [List.nil_append, cookedLoop]
  | plain h1 h2 h3 _ ih =>
    intro ho rest
    rw [List.cons_append, cooked_plain h1 h2 h3, ih (fun c hc => ho c (List.mem_cons_of_mem _ hc)) rest]
    rfl
  | crlf _ ih =>
    intro ho rest
    simp only [List.cons_append]
    rw [cookedLoop, ih (fun c hc => ho c (by simp [hc])) rest]
    rfl
  | @escape e c s t he _ ih =>
    intro ho rest
    rw [List.append_assoc, cooked_escape he, ih (fun c hc => ho c (by simp [hc])) rest]
    rfl
  | @line w s t hw hs _ ih =>
    intro ho rest
    simp only [List.cons_append, List.append_assoc]
    rw [cookedLoop]
    have : (w ++ (s ++ '"' :: rest)).dropWhile isWhite = s ++ '"' :: rest := by
      rw [List.dropWhile_append_of_pos (fun c hc => isWhite_line c (hw c hc))]
      cases s with
      | nil => rw [List.nil_append, List.dropWhile_cons_of_neg (by decide)]
      | cons c s =>
        rw [List.cons_append, List.dropWhile_cons_of_neg]
        intro hc
        exact (isWhite_split hc).elim (hs c rfl) (ho c (by simp))
    rw [this]
    exact ih (fun c hc => ho c (by simp [hc])) rest

/-- **C105** (content). The macro reads a string literal as the text it stands for, in a source without unusual white space. -/
theorem C105_content {src t : List Char} (h : StrLit src t) (ho : OrdinarySpace src) :
    parseCooked ('"' :: src ++ ['"']) = .ok t := cooked_of h ho []

theorem dropWhile_quotes {a u : List Char} (ha : ∀ c ∈ a, c = '"') (hu : u.head? ≠ some '"') :
    (a ++ u).dropWhile (· == '"') = u := by
  rw [List.dropWhile_append_of_pos (fun c hc => by simp [ha c hc])]
  cases u with
  | nil => rfl
  | cons c u =>
    rw [List.dropWhile_cons_of_neg]
    simp at hu ⊢
    exact hu

theorem trimQuotes_of {t u : List Char} (h : Unquoted t u) : trimQuotes t = u := by
  obtain ⟨a, b, rfl, ha, hb, h1, h2⟩ := h
  unfold trimQuotes
  cases u with
  | nil =>
    have : (a ++ [] ++ b).dropWhile (· == '"') = [] := by
      rw [List.dropWhile_eq_nil_iff]
      intro c hc
      simp only [List.append_nil, List.mem_append] at hc
      rcases hc with hc | hc
      · simp [ha c hc]
      · simp [hb c hc]
    rw [this]
    rfl
  | cons x u =>
    rw [List.append_assoc, dropWhile_quotes ha, List.reverse_append, dropWhile_quotes, List.reverse_reverse]
    · intro c hc; exact hb c (List.mem_reverse.mp hc)
    · rw [List.head?_reverse]; exact h2
    · exact h1

/-- A text whose bytes are printable has one byte for each character. -/
theorem utf8_printable : ∀ {u : List Char}, (utf8Of u).all tagByteOk = true →
    utf8Of u = u.map (fun c => UInt8.ofNat c.toNat) ∧ ∀ c ∈ u, c.toNat < 128
  | [], _ => ⟨rfl, by simp⟩
  | c :: u, h => by
    unfold utf8Of at h
    rw [List.flatMap_cons, List.all_append, Bool.and_eq_true] at h
    obtain ⟨h1, h2⟩ := h
    obtain ⟨e, hall⟩ := utf8_printable (u := u) h2
    have key : String.utf8EncodeChar c = [UInt8.ofNat c.toNat] ∧ c.toNat < 128 := by
      have big : ∀ n, 127 ≤ n → n < 256 → tagByteOk (UInt8.ofNat n) = false := by
        intro n h1 h2
        unfold tagByteOk
        rw [Bool.and_eq_false_iff]
        right
        rw [decide_eq_false_iff_not, UInt8.le_iff_toNat_le, UInt8.toNat_ofNat', Nat.mod_eq_of_lt h2]
        show ¬ n ≤ 126
        omega
      unfold String.utf8EncodeChar at h1 ⊢
      simp only at h1 ⊢
      split at h1
      · next hv =>
        rw [if_pos hv]
        exact ⟨rfl, by show c.val.toNat < 128; omega⟩
      · exfalso
        split at h1
        · rw [List.all_cons, big _ (by omega) (by omega)] at h1
          cases h1
        · split at h1
          · rw [List.all_cons, big _ (by omega) (by omega)] at h1
            cases h1
          · rw [List.all_cons, big _ (by omega) (by omega)] at h1
            cases h1
    refine ⟨?_, ?_⟩
    · unfold utf8Of at e ⊢
      rw [List.flatMap_cons, key.1, e]; rfl
    · intro x hx
      rcases List.mem_cons.mp hx with rfl | hx
      · exact key.2
      · exact hall x hx

/-- A byte string literal stands for fewer bytes than it has characters, or is plain. -/
theorem byteLit_plain {s : List Char} {bs : Bytes} (h : ByteLit s bs) :
    bs.length < s.length ∨ ('"' ∉ s ∧ '\\' ∉ s ∧ bs = s.map fun c => UInt8.ofNat c.toNat) := by
  have low : ∀ {s : List Char} {bs : Bytes}, (bs.length < s.length ∨ ('"' ∉ s ∧ '\\' ∉ s ∧ bs = s.map fun c => UInt8.ofNat c.toNat)) →
      bs.length ≤ s.length := by
    rintro s bs (h | ⟨_, _, rfl⟩)
    · omega
    · simp
  induction h with
  | done => exact Or.inr (by simp)
  | plain _ h1 h2 _ _ ih =>
    rcases ih with ih | ⟨i1, i2, i3⟩
    · left; simp; omega
    · right
      refine ⟨?_, ?_, by rw [i3]; rfl⟩
      · simp [i1, Ne.symm h1]
      · simp [i2, Ne.symm h2]
  | simple he _ ih =>
    left
    have := low ih
    cases he <;> simp <;> omega
  | hex _ _ _ ih => left; have := low ih; simp; omega
  | line _ _ _ ih => left; have := low ih; simp; omega

theorem byteLit_of : ∀ {s : List Char}, (∀ c ∈ s, c.toNat < 128 ∧ c ≠ '\r') → '"' ∉ s → '\\' ∉ s →
    ByteLit s (s.map fun c => UInt8.ofNat c.toNat)
  | [], _, _, _ => .done
  | c :: s, h, h1, h2 => by
    rw [List.mem_cons, not_or] at h1 h2
    exact .plain (h c (by simp)).1 (Ne.symm h1.1) (Ne.symm h2.1) (h c (by simp)).2
      (byteLit_of (fun x hx => h x (List.mem_cons_of_mem _ hx)) h1.2 h2.2)

/-- The outcome of the macro, before its expansion is compiled. -/
theorem expandTag_of {src t u : List Char} (h : StrLit src t) (ho : OrdinarySpace src) (hu : Unquoted t u) :
    expandTag ('"' :: src ++ ['"']) = if u = [] ∨ 4 < (utf8Of u).length then .err else
      if (utf8Of u).all tagByteOk then .ok (u ++ List.replicate (4 - (utf8Of u).length) ' ') else .err := by
  unfold expandTag expectTagLiteral
  have hlast : ('"' :: src ++ ['"']).getLast? = some '"' := List.getLast?_concat
  rw [if_neg (by rw [hlast]; simp), C105_content h ho]
  simp only [trimQuotes_of hu]
  by_cases h1 : u = [] ∨ 4 < (utf8Of u).length
  · rw [if_pos h1, if_pos h1]
  · rw [if_neg h1, if_neg h1]
    by_cases h2 : (utf8Of u).all tagByteOk = true
    · rw [if_pos h2, if_pos h2]
    · rw [if_neg h2, if_neg h2]

theorem printable_byte {c : Char} (hc : c.toNat < 128) : tagByteOk (UInt8.ofNat c.toNat) = true ↔ 0x20 ≤ c.toNat ∧ c.toNat ≤ 0x7E := by
  unfold tagByteOk
  rw [Bool.and_eq_true, decide_eq_true_eq, decide_eq_true_eq, UInt8.le_iff_toNat_le, UInt8.le_iff_toNat_le, UInt8.toNat_ofNat',
    Nat.mod_eq_of_lt (by omega)]
  rfl

theorem utf8_ascii : ∀ {u : List Char}, (∀ c ∈ u, c.toNat < 128) → utf8Of u = u.map (fun c => UInt8.ofNat c.toNat)
  | [], _ => rfl
  | c :: u, h => by
    have e := utf8_ascii (u := u) (fun x hx => h x (List.mem_cons_of_mem _ hx))
    have hc := h c List.mem_cons_self
    have e1 : String.utf8EncodeChar c = [UInt8.ofNat c.toNat] := by
      unfold String.utf8EncodeChar
      simp only
      rw [if_pos (by show c.toNat ≤ 0x7f; omega)]
      rfl
    unfold utf8Of at e ⊢
    rw [List.flatMap_cons, e1, e]
    rfl

theorem utf8_all {u : List Char} : (utf8Of u).all tagByteOk = true ↔ ∀ c ∈ u, 0x20 ≤ c.toNat ∧ c.toNat ≤ 0x7E := by
  constructor
  · intro h c hc
    obtain ⟨e, hl⟩ := utf8_printable h
    rw [e, List.all_eq_true] at h
    exact (printable_byte (hl c hc)).mp (h _ (List.mem_map_of_mem hc))
  · intro h
    rw [utf8_ascii (fun c hc => by have := h c hc; omega), List.all_eq_true]
    intro b hb
    obtain ⟨c, hc, rfl⟩ := List.mem_map.mp hb
    exact (printable_byte (by have := h c hc; omega)).mpr (h c hc)

/-- **C105** (`Tag::from_raw`). A text is made a tag exactly if it has one to four characters, all printable ASCII; the tag is the
text with spaces appended up to four characters. -/
theorem C105_from_raw {u : List Char} {t : Tag} : fromText u = .ok t ↔
    1 ≤ u.length ∧ u.length ≤ 4 ∧ (∀ c ∈ u, 0x20 ≤ c.toNat ∧ c.toNat ≤ 0x7E) ∧
      t.bytes = (u ++ List.replicate (4 - u.length) ' ').map (fun c => UInt8.ofNat c.toNat) := by
  unfold fromText Tag.fromRaw
  by_cases h : ∀ c ∈ u, 0x20 ≤ c.toNat ∧ c.toNat ≤ 0x7E
  · rw [if_pos (utf8_all.mpr h), utf8_ascii (fun c hc => by have := h c hc; omega)]
    have : ∀ P Q R : Prop, (P ∧ Q ∧ (∀ c ∈ u, 0x20 ≤ c.toNat ∧ c.toNat ≤ 0x7E) ∧ R) ↔ (P ∧ Q ∧ R) := fun P Q R => by tauto
    rw [this]
    clear h this
    have e32 : UInt8.ofNat ' '.toNat = 32 := by decide
    rcases t with ⟨t1, t2, t3, t4⟩
    rcases u with _ | ⟨a, _ | ⟨b, _ | ⟨c, _ | ⟨d, _ | ⟨e, l⟩⟩⟩⟩⟩
    · simp
    all_goals simp [Tag.bytes, List.replicate, e32]
    all_goals first
      | omega
      | exact ⟨fun ⟨a, b, c, d⟩ => ⟨a.symm, b.symm, c.symm, d.symm⟩, fun ⟨a, b, c, d⟩ => ⟨a.symm, b.symm, c.symm, d.symm⟩⟩
  · rw [if_neg (fun h' => h (utf8_all.mp h'))]
    constructor
    · intro h'; split at h' <;> cases h'
    · rintro ⟨_, _, h', _⟩; exact absurd h' h

/-- **C105** (the macro). For every string literal in a source without unusual white space: `tag!` compiles exactly if the
literal's text, without quotes at its ends, is one that `Tag::from_raw` accepts and has no quotes or backslashes; it then gives
the same tag. -/
theorem C105_macro {src t u : List Char} (h : StrLit src t) (ho : OrdinarySpace src) (hu : Unquoted t u) (tag : Tag) :
    MacroGives ('"' :: src ++ ['"']) tag ↔ fromText u = .ok tag ∧ '"' ∉ u ∧ '\\' ∉ u := by
  unfold MacroGives
  rw [expandTag_of h ho hu, C105_from_raw]
  constructor
  · rintro ⟨body, hb, hl⟩
    split at hb
    · cases hb
    · next h1 =>
      split at hb
      · next h2 =>
        injection hb with hb
        obtain ⟨e, hasc⟩ := utf8_printable h2
        have el : (utf8Of u).length = u.length := by rw [e, List.length_map]
        rw [not_or, el] at h1
        rw [el] at hb
        subst hb
        have hpos : 1 ≤ u.length := List.length_pos_iff.mpr h1.1
        rcases byteLit_plain hl with hlt | ⟨k1, k2, k3⟩
        · exfalso
          simp [Tag.bytes] at hlt
          omega
        · rw [List.mem_append, not_or] at k1 k2
          exact ⟨⟨hpos, by omega, utf8_all.mp h2, k3⟩, k1.1, k2.1⟩
      · cases hb
  · rintro ⟨⟨h1, h2, h3, h4⟩, k1, k2⟩
    have hasc : ∀ c ∈ u, c.toNat < 128 := fun c hc => by have := h3 c hc; omega
    have el : (utf8Of u).length = u.length := by rw [utf8_ascii hasc, List.length_map]
    rw [if_neg (by rw [el, not_or]; exact ⟨by rintro rfl; simp at h1, by omega⟩), if_pos (utf8_all.mpr h3), el]
    refine ⟨_, rfl, ?_⟩
    rw [h4]
    refine byteLit_of ?_ ?_ ?_
    · intro c hc
      rcases List.mem_append.mp hc with hc | hc
      · refine ⟨hasc c hc, ?_⟩
        rintro rfl
        have := (h3 _ hc).1
        revert this
        decide
      · rw [List.eq_of_mem_replicate hc]
        decide
    · rw [List.mem_append, not_or]
      exact ⟨k1, fun h => by have := List.eq_of_mem_replicate h; revert this; decide⟩
    · rw [List.mem_append, not_or]
      exact ⟨k2, fun h => by have := List.eq_of_mem_replicate h; revert this; decide⟩

/-- The literal `"\x77g\u{68}t"` stands for `wght`; the macro gives this tag. -/
example : ∃ src, StrLit src ['w', 'g', 'h', 't'] ∧ OrdinarySpace src ∧ MacroGives ('"' :: src ++ ['"']) ⟨119, 103, 104, 116⟩ := by
  have h : StrLit ['\\', 'x', '7', '7', 'g', '\\', 'u', '{', '6', '8', '}', 't'] ['w', 'g', 'h', 't'] := by
    refine .escape (e := ['x', '7', '7']) (.hex (x := 7) (y := 7) (Or.inl rfl) (Or.inl rfl) (by decide) (by decide)) ?_
    refine .plain (by decide) (by decide) (by decide) ?_
    refine .escape (e := ['u', '{', '6', '8', '}']) (.uni (s := ['6', '8']) (l := [6, 8])
      (.more (s := ['6']) (l := [6]) (.digit (Or.inl rfl)) (Or.inl rfl)) (by decide) (by decide)) ?_
    exact .plain (by decide) (by decide) (by decide) .done
  have ho : OrdinarySpace ['\\', 'x', '7', '7', 'g', '\\', 'u', '{', '6', '8', '}', 't'] := by
    unfold OrdinarySpace; decide
  exact ⟨_, h, ho, (C105_macro (u := ['w', 'g', 'h', 't']) h ho ⟨[], [], rfl, by simp, by simp, by decide, by decide⟩ _).mpr
    ⟨by decide, by decide, by decide⟩⟩

/-- **C105, witness**: quotes at the ends of the text are dropped. `tag!("\"wg")` and `Tag::from_raw("\"wg")` are different tags. -/
theorem C105_quotes_dropped : ∃ src t tag tag', StrLit src t ∧ OrdinarySpace src ∧ MacroGives ('"' :: src ++ ['"']) tag ∧
    fromText t = .ok tag' ∧ tag ≠ tag' := by
  have h : StrLit ['\\', '"', 'w', 'g'] ['"', 'w', 'g'] := by
    refine .escape (e := ['"']) (.simple .double) ?_
    exact .plain (by decide) (by decide) (by decide) (.plain (by decide) (by decide) (by decide) .done)
  have ho : OrdinarySpace ['\\', '"', 'w', 'g'] := by
    unfold OrdinarySpace; decide
  exact ⟨_, _, ⟨119, 103, 32, 32⟩, ⟨34, 119, 103, 32⟩, h, ho,
    (C105_macro (u := ['w', 'g']) h ho ⟨['"'], [], rfl, by simp, by simp, by decide, by decide⟩ _).mpr
      ⟨by decide, by decide, by decide⟩, by decide, by decide⟩

/-- **C105** (other white space). After a backslash at the end of a line the macro skips every character that is white space for
Unicode. -/
theorem C105_skips {c : Char} (h : c.toNat ∈ otherSpace) (s : List Char) :
    parseCooked ('"' :: '\\' :: '\n' :: c :: s) = parseCooked ('"' :: '\\' :: '\n' :: s) := by
  show cookedLoop _ = cookedLoop _
  rw [cookedLoop, cookedLoop, List.dropWhile_cons_of_pos (isWhite_other h)]

/-- **C105** (codes of two digits). `\x` is read as the character with this number up to 128, and aborts above. (The compiler refuses
128 and more in a literal.) -/
theorem C105_two_digits {a b : Char} {x y : Fin 16} (ha : IsHex a x) (hb : IsHex b y) (s : List Char) :
    parseCooked ('"' :: '\\' :: 'x' :: a :: b :: s) =
      if x.val * 16 + y.val ≤ 128 then (parseCooked ('"' :: s)).bind fun l => .ok (Char.ofNat (x.val * 16 + y.val) :: l)
      else .panic := by
  show cookedLoop _ = if _ then (cookedLoop s).bind _ else _
  have k : backslashX (a :: b :: s) =
      if x.val * 16 + y.val ≤ 0x80 then .ok (Char.ofNat (x.val * 16 + y.val), s) else .panic := by
    unfold backslashX
    simp only
    rw [hexDigit_of ha, hexDigit_of hb]
  split
  · next h => rw [if_pos h] at k; exact cooked_x k
  · next h =>
    rw [if_neg h] at k
    rw [cookedLoop]
    split
    · next h' => rw [k] at h'; cases h'
    · next h' => rw [k] at h'; cases h'
    · rfl

/-- **C105, witness**: with other white space the macro differs from the compiler. After a backslash at the end of a line a form feed
belongs to the text, which is no tag; the macro skips it and gives a tag. -/
theorem C105_form_feed : ∃ src t tag, StrLit src t ∧ fromText t = .err ∧ MacroGives ('"' :: src ++ ['"']) tag := by
  refine ⟨['\\', '\n', '\x0C', 'w', 'g', 'h', 't'], ['\x0C', 'w', 'g', 'h', 't'], ⟨119, 103, 104, 116⟩, ?_, by decide, ?_⟩
  · exact .line (w := []) (by simp) (by decide) (.plain (by decide) (by decide) (by decide) (.plain (by decide) (by decide) (by decide)
      (.plain (by decide) (by decide) (by decide) (.plain (by decide) (by decide) (by decide)
        (.plain (by decide) (by decide) (by decide) .done)))))
  · refine ⟨['w', 'g', 'h', 't'], ?_, byteLit_of (by decide) (by decide) (by decide)⟩
    have : parseCooked ['"', '\\', '\n', '\x0C', 'w', 'g', 'h', 't', '"'] = .ok ['w', 'g', 'h', 't'] := by
      unfold parseCooked
      simp only
      rw [cookedLoop]
      rw [show List.dropWhile isWhite ['\x0C', 'w', 'g', 'h', 't', '"'] = ['w', 'g', 'h', 't'] ++ '"' :: [] from by decide]
      exact cooked_of (.plain (by decide) (by decide) (by decide) (.plain (by decide) (by decide) (by decide)
        (.plain (by decide) (by decide) (by decide) (.plain (by decide) (by decide) (by decide) .done))))
        (by unfold OrdinarySpace; decide) []
    unfold expandTag expectTagLiteral
    rw [if_neg (by decide)]
    simp only [List.cons_append, List.nil_append]
    rw [this]
    decide

/-! ### Tags as text -/

theorem back_ascii : ∀ {s : List Char}, (∀ c ∈ s, c.toNat < 128) →
    s.map ((fun b : UInt8 => Char.ofNat b.toNat) ∘ fun c => UInt8.ofNat c.toNat) = s
  | [], _ => rfl
  | c :: s, h => by
    rw [List.map_cons, back_ascii (fun x hx => h x (List.mem_cons_of_mem _ hx))]
    have := h c List.mem_cons_self
    simp only [Function.comp_apply, UInt8.toNat_ofNat']
    rw [Nat.mod_eq_of_lt (by omega), Char.ofNat_toNat]

theorem asStr_valid {t : Tag} (h : t.Valid) : (∀ c ∈ asStr t, 0x20 ≤ c.toNat ∧ c.toNat ≤ 0x7E) ∧
    (asStr t).map (fun c => UInt8.ofNat c.toNat) = t.bytes := by
  have key : ∀ b : UInt8, tagByteOk b = true → (0x20 ≤ (Char.ofNat b.toNat).toNat ∧ (Char.ofNat b.toNat).toNat ≤ 0x7E) ∧
      UInt8.ofNat (Char.ofNat b.toNat).toNat = b := by
    intro b hb
    unfold tagByteOk at hb
    rw [Bool.and_eq_true, decide_eq_true_eq, decide_eq_true_eq, UInt8.le_iff_toNat_le, UInt8.le_iff_toNat_le] at hb
    have hb1 : 32 ≤ b.toNat := hb.1
    have hb2 : b.toNat ≤ 126 := hb.2
    have e : (Char.ofNat b.toNat).toNat = b.toNat := by
      have hv : b.toNat.isValidChar := Or.inl (by omega)
      unfold Char.ofNat
      rw [dif_pos hv]
      rfl
    rw [e]
    exact ⟨⟨hb1, hb2⟩, by simp⟩
  obtain ⟨h1, h2, h3, h4⟩ := h
  constructor
  · intro c hc
    simp only [asStr, Tag.bytes, List.map_cons, List.map_nil, List.mem_cons, List.not_mem_nil, or_false] at hc
    rcases hc with rfl | rfl | rfl | rfl
    · exact (key _ h1).1
    · exact (key _ h2).1
    · exact (key _ h3).1
    · exact (key _ h4).1
  · simp only [asStr, Tag.bytes, List.map_cons, List.map_nil, (key _ h1).2, (key _ h2).2, (key _ h3).2, (key _ h4).2]

theorem spaces_le {u v : List Char} (hu : u.length ≤ 4) (hv : v.length ≤ 4) (hl : u.length ≤ v.length) :
    u ++ List.replicate (4 - u.length) ' ' = v ++ List.replicate (4 - v.length) ' ' ↔ ∃ k, v = u ++ List.replicate k ' ' := by
  constructor
  · intro h
    refine ⟨v.length - u.length, ?_⟩
    have := congrArg (List.take v.length) h
    rw [List.take_left, List.take_append, List.take_of_length_le hl, List.take_replicate] at this
    conv_lhs => rw [← this]
    rw [Nat.min_eq_left (by omega)]
  · rintro ⟨k, rfl⟩
    rw [List.append_assoc, List.replicate_append_replicate]
    congr 2
    simp at hv ⊢
    omega

/-- **C105** (text). A tag is made from its text again; it equals a text exactly if this is its text, of four characters: a tag
made from fewer characters does not equal what it was made from. -/
theorem C105_text (t : Tag) : (t.Valid → fromText (asStr t) = .ok t) ∧ (∀ s, eqStr t s = true ↔ s = asStr t) ∧
    (∀ s, fromText s = .ok t → (eqStr t s = true ↔ s.length = 4)) := by
  refine ⟨?_, ?_, ?_⟩
  · intro h
    rw [C105_from_raw]
    obtain ⟨h1, h2⟩ := asStr_valid h
    exact ⟨by simp [asStr, Tag.bytes], by simp [asStr, Tag.bytes], h1, by rw [show (asStr t).length = 4 from rfl]; simpa using h2.symm⟩
  · intro s
    unfold eqStr
    rw [beq_iff_eq, eq_comm]
  · intro s hs
    unfold eqStr
    rw [beq_iff_eq]
    obtain ⟨h1, h2, h3, h4⟩ := C105_from_raw.mp hs
    constructor
    · intro h; rw [← h]; rfl
    · intro h
      unfold asStr
      rw [h4, h]
      simp only [Nat.sub_self, List.replicate_zero, List.append_nil, List.map_map]
      exact back_ascii (fun c hc => by have := h3 c hc; omega)

/-- **C105** (same tag). Two texts make the same tag exactly if one is the other with spaces appended. -/
theorem C105_same {u v : List Char} {t t' : Tag} (hu : fromText u = .ok t) (hv : fromText v = .ok t') :
    t = t' ↔ (∃ k, u = v ++ List.replicate k ' ') ∨ ∃ k, v = u ++ List.replicate k ' ' := by
  obtain ⟨_, u2, u3, u4⟩ := C105_from_raw.mp hu
  obtain ⟨_, v2, v3, v4⟩ := C105_from_raw.mp hv
  have hpad : ∀ {w : List Char}, (∀ c ∈ w, 0x20 ≤ c.toNat ∧ c.toNat ≤ 0x7E) →
      ∀ c ∈ w ++ List.replicate (4 - w.length) ' ', c.toNat < 128 := by
    intro w hw c hc
    rcases List.mem_append.mp hc with hc | hc
    · have := hw c hc; omega
    · rw [List.eq_of_mem_replicate hc]; decide
  have e : t = t' ↔ u ++ List.replicate (4 - u.length) ' ' = v ++ List.replicate (4 - v.length) ' ' := by
    constructor
    · rintro rfl
      have h := congrArg (List.map fun b : UInt8 => Char.ofNat b.toNat) (u4.symm.trans v4)
      rw [List.map_map, List.map_map, back_ascii (hpad u3), back_ascii (hpad v3)] at h
      exact h
    · intro h
      rw [← h, ← u4] at v4
      rcases t with ⟨_, _, _, _⟩
      rcases t' with ⟨_, _, _, _⟩
      simp only [Tag.bytes, List.cons.injEq, and_true] at v4
      obtain ⟨rfl, rfl, rfl, rfl⟩ := v4
      rfl
  rw [e]
  have back : ∀ {a b : List Char}, (∃ k, a = b ++ List.replicate k ' ') → b.length ≤ a.length := by
    rintro a b ⟨k, rfl⟩; simp
  rcases Nat.le_total u.length v.length with hl | hl
  · rw [spaces_le u2 v2 hl]
    refine ⟨Or.inr, ?_⟩
    rintro (h | h)
    · obtain ⟨k, rfl⟩ := h
      have : k = 0 := by simp at hl; omega
      subst this
      exact ⟨0, by simp⟩
    · exact h
  · rw [eq_comm, spaces_le v2 u2 hl]
    refine ⟨Or.inl, ?_⟩
    rintro (h | h)
    · exact h
    · obtain ⟨k, rfl⟩ := h
      have : k = 0 := by simp at hl; omega
      subst this
      exact ⟨0, by simp⟩

/-- **C105** (order). Tags are ordered like the 32 bit numbers they are stored as. -/
theorem C105_order (t u : Tag) : tagLt t u = true ↔
    t.a.toNat * 2 ^ 24 + t.b.toNat * 2 ^ 16 + t.c.toNat * 2 ^ 8 + t.d.toNat <
      u.a.toNat * 2 ^ 24 + u.b.toNat * 2 ^ 16 + u.c.toNat * 2 ^ 8 + u.d.toNat := by
  have := t.a.toNat_lt; have := t.b.toNat_lt; have := t.c.toNat_lt; have := t.d.toNat_lt
  have := u.a.toNat_lt; have := u.b.toNat_lt; have := u.c.toNat_lt; have := u.d.toNat_lt
  unfold tagLt Tag.bytes
  simp only [List.map_cons, List.map_nil, decide_eq_true_eq, List.cons_lt_cons_iff]
  simp
  omega

/-- **C105** (hashing). A tag and the text it equals are hashed differently, so that a `HashMap` with tags as keys cannot be asked
for a text, although `Tag` implements `Borrow<str>`. -/
theorem C105_hash (t : Tag) (s : List Char) (h : eqStr t s = true) : hashedTag t ≠ hashedStr s := by
  unfold eqStr at h
  rw [beq_iff_eq] at h
  subst h
  intro h
  have := congrArg List.length h
  simp [hashedTag, hashedStr, asStr, Tag.bytes] at this

end FT.Props
