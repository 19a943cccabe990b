import Verif.Model.TablesMacro

/-!
What a declaration in `tables!` says, without reference to how the macro works: the words in it, and what is to be made of it.
-/

namespace FT.Macro
open FT FT.Off FT.Der

/-- A word in brackets before a field. -/
inductive Pragma
  | offsetBase | embed
  deriving DecidableEq

/-- A word in brackets after the name of a table. -/
inductive TablePragma
  | embedded | nodebug | noserialize | default | nodeserialize
  deriving DecidableEq

/-- The words that take a type in parentheses. -/
inductive Word
  | maybe | counted | counted32 | offset16 | offset32 | countedOffset16 | countedOffset32
  deriving DecidableEq

/-- The type of a field as written: a name, or a word with a type in parentheses. `ignored` are further tokens in these
parentheses. -/
inductive Written
  | name (t : String)
  | of (w : Word) (t : Tok) (ignored : List Tok)

/-- A field as written. -/
structure FieldSrc where
  pragmas : List Pragma
  written : Written
  name : String

/-- A table as written. `trailing` are pragmas after the last field. -/
structure TableSrc where
  name : String
  pragmas : List TablePragma
  fields : List FieldSrc
  trailing : List Pragma

/-! ### The tokens -/

def Pragma.text : Pragma → String
  | .offsetBase => "offset_base"
  | .embed => "embed"

def TablePragma.text : TablePragma → String
  | .embedded => "embedded"
  | .nodebug => "nodebug"
  | .noserialize => "noserialize"
  | .default => "default"
  | .nodeserialize => "nodeserialize"

def Word.text : Word → String
  | .maybe => "Maybe"
  | .counted => "Counted"
  | .counted32 => "Counted32"
  | .offset16 => "Offset16"
  | .offset32 => "Offset32"
  | .countedOffset16 => "CountedOffset16"
  | .countedOffset32 => "CountedOffset32"

def Word.all : List Word := [.maybe, .counted, .counted32, .offset16, .offset32, .countedOffset16, .countedOffset32]

/-- `[text]`. -/
def bracketed (s : String) : Tok := .group .bracket [.ident s]

def Written.toks : Written → List Tok
  | .name t => [.ident t]
  | .of w t ignored => [.ident w.text, .group .paren (t :: ignored)]

def FieldSrc.toks (f : FieldSrc) : List Tok :=
  f.pragmas.map (fun p => bracketed p.text) ++ f.written.toks ++ [.ident f.name]

def TableSrc.toks (d : TableSrc) : List Tok :=
  .ident d.name :: d.pragmas.map (fun p => bracketed p.text) ++
    [.group .brace (d.fields.flatMap FieldSrc.toks ++ d.trailing.map (fun p => bracketed p.text))]

/-- A type name is not one of the words. -/
def FieldSrc.Proper (f : FieldSrc) : Prop := ∀ t, f.written = .name t → ∀ w ∈ Word.all, t ≠ w.text

/-- A declaration as it should be. -/
def TableSrc.Proper (d : TableSrc) : Prop := ∀ f ∈ d.fields, f.Proper

/-! ### The structures -/

/-- Types which the user sees as another type: the numbers with a fixed point and dates. -/
def seenAs : List (String × String) :=
  [("Fixed", "f32"), ("F2DOT14", "f32"), ("Version16Dot16", "U16F16"), ("LONGDATETIME", "chrono::NaiveDateTime")]

def Pragma.attr : Pragma → Attr
  | .offsetBase => .offsetBase
  | .embed => .embed

/-- The type in the structure. -/
def Written.rust : Written → RTy
  | .name t => .plain ((seenAs.lookup t).getD t)
  | .of .maybe t _ => .option t
  | .of .counted t _ => .vec t
  | .of .counted32 t _ => .vec t
  | .of .offset16 t _ => .offset16 t
  | .of .offset32 t _ => .offset32 t
  | .of .countedOffset16 t _ => .vecOffset16 t
  | .of .countedOffset32 t _ => .vecOffset32 t

/-- The type that reads and writes the field, if it is not the field's own. -/
def Written.via : Written → Option String
  | .name t => if (seenAs.lookup t).isSome then some t else none
  | .of .counted _ _ => some "Counted"
  | .of .counted32 _ _ => some "Counted32"
  | .of .countedOffset16 _ _ => some "Counted"
  | .of .countedOffset32 _ _ => some "Counted"
  | .of _ _ _ => none

def FieldSrc.field (f : FieldSrc) : FieldDecl :=
  ⟨f.pragmas.map Pragma.attr ++ f.written.via.toList.map Attr.withPath, f.name, f.written.rust⟩

def TableSrc.struct (d : TableSrc) : StructDecl :=
  { ser := !d.pragmas.contains .noserialize
    de := !d.pragmas.contains .nodeserialize
    debug := !d.pragmas.contains .nodebug
    default := d.pragmas.contains .default
    embedded := d.pragmas.contains .embedded
    name := d.name
    fields := d.fields.map FieldSrc.field
    loose := d.trailing.map Pragma.attr }

/-- What the compiler accepts, as far as the macros go. -/
def TableSrc.Compiles (d : TableSrc) : Prop :=
  d.trailing = [] ∧
  if .noserialize ∈ d.pragmas ∧ .nodeserialize ∈ d.pragmas then
    .embedded ∉ d.pragmas ∧ ∀ f ∈ d.fields, f.pragmas = [] ∧ f.written.via = none
  else ∀ f ∈ d.fields, f.pragmas.Nodup

/-- The field is an offset, or maybe one. -/
def IsOffset : Written → Bool
  | .of .offset16 _ _ => true
  | .of .offset32 _ _ => true
  | .of .maybe (.ident t) _ => t == "Offset16" || t == "Offset32"
  | _ => false

/-- The field is a list of offsets. -/
def IsOffsets : Written → Bool
  | .of .countedOffset16 _ _ => true
  | .of .countedOffset32 _ _ => true
  | _ => false

/-- No field has a type with the name of one of the generic types that the derived code looks for. -/
def TableSrc.NoGenericNames (d : TableSrc) : Prop :=
  ∀ f ∈ d.fields, ∀ t, f.written = .name t → t ∉ ["Option", "VecOffset16", "VecOffset32"]

/-! ### The declared type -/

/-- What the field is in the model of tables (`Der.Ty`), if names stand for `types`. `Maybe` is not in that model, nor are
types that are not names. -/
def Written.ty (types : String → Ty) : Written → Option Ty
  | .name t => some (types t)
  | .of .counted (.ident t) _ => some (.counted .w16 (types t))
  | .of .counted32 (.ident t) _ => some (.counted .w32 (types t))
  | .of .offset16 (.ident t) _ => some (.off .w16 (types t))
  | .of .offset32 (.ident t) _ => some (.off .w32 (types t))
  | .of .countedOffset16 (.ident t) _ => some (.offs .w16 .w16 (types t))
  | .of .countedOffset32 (.ident t) _ => some (.offs .w16 .w32 (types t))
  | .of _ _ _ => none

/-- The fields of the table in that model. -/
def fieldsOf (types : String → Ty) : List FieldSrc → Option Fields
  | [] => some .nil
  | f :: l => do
    let t ← f.written.ty types
    let r ← fieldsOf types l
    return .cons (f.pragmas.contains .offsetBase) (f.pragmas.contains .embed) t r

/-- A name stands for a type with its own code or a declared structure; a type the user sees as another one has its own code. -/
def Sensible (types : String → Ty) : Prop :=
  ∀ n, (∃ c, types n = .leaf c) ∨ ((∃ e fs, types n = .record e fs) ∧ (seenAs.lookup n).isNone)

end FT.Macro
