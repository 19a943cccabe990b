import Verif.Model.Basic

/-!
The `tag!` macro: crates/otspec_macros/src/tag.rs, and the rest of crates/otspec/src/tag.rs.

The macro is given the source text of a literal. Text is a list of characters. The code looks at bytes of UTF-8 where it expects
ASCII; a byte of a longer character is never one of those it looks for, so that looking at characters instead makes no
difference (where the code would cut a character in two it panics, and so does the model).
-/

namespace FT.TagMacro
open FT

/-- `char::is_whitespace`: Unicode's `White_Space`. -/
def isWhite (c : Char) : Bool :=
  (9 ≤ c.toNat && c.toNat ≤ 13) || c.toNat == 0x20 || c.toNat == 0x85 || c.toNat == 0xA0 || c.toNat == 0x1680 ||
  (0x2000 ≤ c.toNat && c.toNat ≤ 0x200A) || c.toNat == 0x2028 || c.toNat == 0x2029 || c.toNat == 0x202F ||
  c.toNat == 0x205F || c.toNat == 0x3000

/-- The value of a hexadecimal digit (tag.rs:120-130, 145-148). -/
def hexDigit (c : Char) : Option Nat :=
  if '0' ≤ c ∧ c ≤ '9' then some (c.toNat - '0'.toNat)
  else if 'a' ≤ c ∧ c ≤ 'f' then some (10 + (c.toNat - 'a'.toNat))
  else if 'A' ≤ c ∧ c ≤ 'F' then some (10 + (c.toNat - 'A'.toNat))
  else none

/-- `char::from_u32`. -/
def charFrom (n : Nat) : Option Char := if n.isValidChar then some (Char.ofNat n) else none

/-- `backslash_x` (tag.rs:115-133), and what its caller makes of the byte (tag.rs:186-191). -/
def backslashX : List Char → Res (Char × List Char)
  | a :: b :: s => match hexDigit a, hexDigit b with
    | some x, some y => if x * 16 + y ≤ 0x80 then .ok (Char.ofNat (x * 16 + y), s) else .panic
    | _, _ => .panic
  | _ => .panic

/-- The loop of `backslash_u` (tag.rs:143-166). -/
def backslashULoop : List Char → (ch digits : Nat) → Res (Nat × List Char)
  | [], _, _ => .panic
  | c :: s, ch, digits =>
    if c = '_' ∧ 0 < digits then backslashULoop s ch digits
    else if c = '}' then (if digits = 0 then .panic else .ok (ch, s))
    else match hexDigit c with
      | some d => if digits = 6 then .panic else backslashULoop s (ch * 16 + d) (digits + 1)
      | none => .panic

/-- `backslash_u` (tag.rs:135-173). -/
def backslashU : List Char → Res (Char × List Char)
  | '{' :: s => match backslashULoop s 0 0 with
    | .ok (n, rest) => match charFrom n with
      | some c => .ok (c, rest)
      | none => .panic
    | .err => .err
    | .panic => .panic
  | _ => .panic

theorem backslashULoop_shorter : ∀ (s : List Char) (ch d : Nat) {n : Nat} {r : List Char},
    backslashULoop s ch d = .ok (n, r) → r.length < s.length
  | [], _, _, _, _, h => by simp [backslashULoop] at h
  | c :: s, ch, d, n, r, h => by
    unfold backslashULoop at h
    split at h
    · have := backslashULoop_shorter s _ _ h; simp; omega
    · split at h
      · split at h
        · cases h
        · cases h; simp
      · split at h
        · split at h
          · cases h
          · have := backslashULoop_shorter s _ _ h; simp; omega
        · cases h

theorem backslashU_shorter {s : List Char} {c : Char} {r : List Char} (h : backslashU s = .ok (c, r)) : r.length < s.length := by
  unfold backslashU at h
  split at h
  · next s' =>
    cases hl : backslashULoop s' 0 0 with
    | ok x =>
      obtain ⟨n, rest⟩ := x
      rw [hl] at h
      simp only at h
      have := backslashULoop_shorter _ _ _ hl
      split at h
      · cases h; simp; omega
      · cases h
    | err => rw [hl] at h; cases h
    | panic => rw [hl] at h; cases h
  · cases h

theorem backslashX_shorter {s : List Char} {c : Char} {r : List Char} (h : backslashX s = .ok (c, r)) : r.length < s.length := by
  unfold backslashX at h
  split at h
  · split at h
    · split at h
      · cases h; simp; omega
      · cases h
    · cases h
  · cases h

/-- The loop of `parse_lit_str_cooked` (tag.rs:178-229): the content of a literal whose opening quote has been read, up to the
first quote which is not escaped. What follows this quote is not looked at. -/
def cookedLoop : List Char → Res (List Char)
  | [] => .panic
  | '"' :: _ => .ok []
  | '\\' :: 'x' :: s => match h : backslashX s with
    | .ok (c, r) => (cookedLoop r).bind fun l => .ok (c :: l)
    | .err => .err
    | .panic => .panic
  | '\\' :: 'u' :: s => match h : backslashU s with
    | .ok (c, r) => (cookedLoop r).bind fun l => .ok (c :: l)
    | .err => .err
    | .panic => .panic
  | '\\' :: 'n' :: s => (cookedLoop s).bind fun l => .ok ('\n' :: l)
  | '\\' :: 'r' :: s => (cookedLoop s).bind fun l => .ok ('\r' :: l)
  | '\\' :: 't' :: s => (cookedLoop s).bind fun l => .ok ('\t' :: l)
  | '\\' :: '\\' :: s => (cookedLoop s).bind fun l => .ok ('\\' :: l)
  | '\\' :: '0' :: s => (cookedLoop s).bind fun l => .ok ('\x00' :: l)
  | '\\' :: '\'' :: s => (cookedLoop s).bind fun l => .ok ('\'' :: l)
  | '\\' :: '"' :: s => (cookedLoop s).bind fun l => .ok ('"' :: l)
  | '\\' :: '\r' :: s => cookedLoop (s.dropWhile isWhite)
  | '\\' :: '\n' :: s => cookedLoop (s.dropWhile isWhite)
  | '\\' :: _ => .panic
  | '\r' :: '\n' :: s => (cookedLoop s).bind fun l => .ok ('\n' :: l)
  | '\r' :: _ => .panic
  | c :: s => (cookedLoop s).bind fun l => .ok (c :: l)
termination_by s => s.length
decreasing_by
  all_goals simp only [List.length_cons]
  all_goals first
    | omega
    | (have := backslashX_shorter h; omega)
    | (have := backslashU_shorter h; omega)
    | (have := (List.dropWhile_sublist isWhite (l := s)).length_le; omega)

/-- `parse_lit_str_cooked` (tag.rs:106-231). -/
def parseCooked : List Char → Res (List Char)
  | '"' :: s => cookedLoop s
  | _ => .panic

/-- `str::trim_matches('"')`. -/
def trimQuotes (l : List Char) : List Char := ((l.dropWhile (· == '"')).reverse.dropWhile (· == '"')).reverse

/-- The bytes of a text (`str::as_bytes`). -/
def utf8Of (l : List Char) : Bytes := l.flatMap String.utf8EncodeChar

/-- `expect_tag_literal` (tag.rs:34-60). An error becomes a `compile_error!`. -/
def expectTagLiteral (lit : List Char) : Res (List Char) :=
  if lit.head? ≠ some '"' ∨ lit.getLast? ≠ some '"' then .err
  else match parseCooked lit with
    | .ok cooked =>
      let repr := trimQuotes cooked
      if repr = [] ∨ 4 < (utf8Of repr).length then .err
      else if (utf8Of repr).all tagByteOk then .ok repr
      else .err
    | .err => .err
    | .panic => .panic

/-- `expand_tag_impl` (tag.rs:14-32): what is put between the quotes of the byte string in the expansion
`unsafe { fonttools::types::Tag::from_raw_unchecked(*b"…") }`. Only the first token of the macro's input is looked at. The
subtraction `4 - input.len()` cannot overflow after `expect_tag_literal`. -/
def expandTag (lit : List Char) : Res (List Char) :=
  match expectTagLiteral lit with
  | .ok input => .ok (input ++ List.replicate (4 - (utf8Of input).length) ' ')
  | .err => .err
  | .panic => .panic

/-! ### The other functions of crates/otspec/src/tag.rs
 -/

/-- `Tag::as_str` (crates/otspec/src/tag.rs:68-71), also `as_ref`, `deref`, `borrow` and `fmt` without options (tag.rs:89-113, 153-163):
the bytes as text. -/
def asStr (t : Tag) : List Char := t.bytes.map fun b => Char.ofNat b.toNat

/-- `Tag::from_raw` of a text, and `from_str` (tag.rs:30-46, 84-86). -/
def fromText (s : List Char) : Res Tag := Tag.fromRaw (utf8Of s)

/-- `PartialEq<str>` and `PartialEq<&str> for Tag` (tag.rs:121-131). -/
def eqStr (t : Tag) (s : List Char) : Bool := asStr t == s

/-- The derived `Ord` (tag.rs:14-15): bytes compared one after the other. -/
def tagLt (t u : Tag) : Bool := t.bytes.map UInt8.toNat < u.bytes.map UInt8.toNat

/-- What the derived `Hash` (tag.rs:14-15) feeds to the hasher. In Rust's standard library an array is hashed as a slice: its
length as a `usize` (here of eight bytes, the least first), then its elements. -/
def hashedTag (t : Tag) : Bytes := [4, 0, 0, 0, 0, 0, 0, 0] ++ t.bytes

/-- What `Hash for str` feeds to the hasher in Rust's standard library: the bytes, then `0xff`. For ASCII text. -/
def hashedStr (s : List Char) : Bytes := s.map (fun c => UInt8.ofNat c.toNat) ++ [0xff]

end FT.TagMacro
