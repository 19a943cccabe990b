import Verif.Model.Derive

/-!
The `tables!` macro (crates/otspec_macros/src/tables.rs) on the tokens it is given, and the code that
`#[derive(Serialize, Deserialize)]` (ser.rs, de.rs, internals/attr.rs) makes of the structures it writes.
`Model/Derive` is what that code does.

Simplifications: spans are left out. `expand_tables` writes text that the compiler parses again; here it gives the
structures in that text. `cfg(nightly)` is not set. Names are compared as text. Generic parameters and `Self`
(bound.rs, receiver.rs) are left out: structures written by `tables!` have neither. Whether types exist is the
compiler's affair.
-/

namespace FT.Macro
open FT FT.Off FT.Der Reader

/-- `proc_macro::Delimiter`. -/
inductive Delim
  | paren | brace | bracket
  deriving DecidableEq

/-- `proc_macro::TokenTree`. -/
inductive Tok
  | ident (s : String)
  | punct (c : Char)
  | lit (s : String)
  | group (d : Delim) (ts : List Tok)

/-- The tokens of `compile_error!("..")`. -/
def compileError (msg : String) : List Tok :=
  [.ident "compile_error", .punct '!', .group .paren [.lit msg]]

/-- `expect_group` (tables.rs:30-53): not a panic, but other tokens. -/
def expectGroup (item : Option Tok) (d : Delim) : List Tok :=
  match item with
  | some (.group d' ts) => if d' = d then ts else compileError "expected bool"
  | none => compileError "Expected delimiter, found end of macro"
  | some _ => compileError "expected an ident"

/-- `expect_ident` (tables.rs:71-81). -/
def expectIdent : Option Tok → Res String
  | some (.ident s) => .ok s
  | _ => .panic

/-- `#[otspec(..)]` on a field, as written by tables.rs:170-241. -/
inductive Attr
  | offsetBase
  | embed
  | withPath (p : String)

/-- The type of a field, as written by tables.rs:180-246. -/
inductive RTy
  | plain (t : String)
  | option (t : Tok)
  | vec (t : Tok)
  | offset16 (t : Tok)
  | offset32 (t : Tok)
  | vecOffset16 (t : Tok)
  | vecOffset32 (t : Tok)

/-- `pub name : ty,` with its attributes. -/
structure FieldDecl where
  attrs : List Attr
  name : String
  ty : RTy

/-- `pub struct name { .. }` with its attributes; `loose` are attributes after the last field. -/
structure StructDecl where
  ser : Bool
  de : Bool
  debug : Bool
  default : Bool
  embedded : Bool
  name : String
  fields : List FieldDecl
  loose : List Attr

/-- `special_type` (tables.rs:95-110). -/
def specialType : String → Option String
  | "Fixed" => some "f32"
  | "F2DOT14" => some "f32"
  | "Version16Dot16" => some "U16F16"
  | "LONGDATETIME" => some "chrono::NaiveDateTime"
  | _ => none

/-- The words followed by a type in parentheses (tables.rs:180-239): attributes and type of the field. -/
def wrapper : String → Option (List Attr × (Tok → RTy))
  | "Maybe" => some ([], .option)
  | "Counted" => some ([.withPath "Counted"], .vec)
  | "Counted32" => some ([.withPath "Counted32"], .vec)
  | "Offset16" => some ([], .offset16)
  | "Offset32" => some ([], .offset32)
  | "CountedOffset16" => some ([.withPath "Counted"], .vecOffset16)
  | "CountedOffset32" => some ([.withPath "Counted"], .vecOffset32)
  | _ => none

/-- A pragma before a field (tables.rs:169-178). -/
def fieldPragma : List Tok → Res Attr
  | [.ident "offset_base"] => .ok .offsetBase
  | [.ident "embed"] => .ok .embed
  | _ => .panic

/-- The inner loop (tables.rs:164-248); `pend` are the attributes already written for the next field. -/
def fieldLoop : List Tok → List Attr → Res (List FieldDecl × List Attr)
  | [], pend => .ok ([], pend)
  | .group .bracket ts :: rest, pend => do
    let a ← fieldPragma ts
    fieldLoop rest (pend ++ [a])
  | t :: rest, pend => do
    let w ← expectIdent (some t)
    match wrapper w with
    | some (attrs, ty) =>
      match rest with
      | g :: n :: rest' =>
        match expectGroup (some g) .paren with
        | [] => .panic
        | sub :: _ => do
          let name ← expectIdent (some n)
          let (fs, loose) ← fieldLoop rest' []
          return (⟨pend ++ attrs, name, ty sub⟩ :: fs, loose)
      | _ => .panic
    | none =>
      match rest with
      | n :: rest' => do
        let name ← expectIdent (some n)
        let (fs, loose) ← fieldLoop rest' []
        match specialType w with
        | some rust => return (⟨pend ++ [.withPath w], name, .plain rust⟩ :: fs, loose)
        | none => return (⟨pend, name, .plain w⟩ :: fs, loose)
      | [] => .panic
termination_by structural l => l

/-- The variables of one round of the outer loop (tables.rs:118-122). -/
structure Flags where
  ser : Bool := true
  de : Bool := true
  debug : Bool := true
  default : Bool := false
  embedded : Bool := false

/-- A pragma after the name of a table (tables.rs:131-151). -/
def tablePragma (f : Flags) : List Tok → Res Flags
  | [.ident "embedded"] => .ok { f with embedded := true }
  | [.ident "nodebug"] => .ok { f with debug := false }
  | [.ident "noserialize"] => .ok { f with ser := false }
  | [.ident "default"] => .ok { f with default := true }
  | [.ident "nodeserialize"] => .ok { f with de := false }
  | _ => .panic

mutual
/-- `expand_tables` (tables.rs:112-254): one round of the outer loop. -/
def expandTables : List Tok → Res (List StructDecl)
  | [] => .ok []
  | t :: rest => do
    let name ← expectIdent (some t)
    afterName name {} rest
termination_by structural l => l
/-- The pragmas and the body of the table `name` (tables.rs:131-249). -/
def afterName (name : String) (f : Flags) : List Tok → Res (List StructDecl)
  | .group .bracket ts :: rest => do
    let f' ← tablePragma f ts
    afterName name f' rest
  | t :: rest => do
    let (fields, loose) ← fieldLoop (expectGroup (some t) .brace) []
    let more ← expandTables rest
    return ⟨f.ser, f.de, f.debug, f.default, f.embedded, name, fields, loose⟩ :: more
  | [] => do
    let (fields, loose) ← fieldLoop (expectGroup none .brace) []
    return [⟨f.ser, f.de, f.debug, f.default, f.embedded, name, fields, loose⟩]
termination_by structural l => l
end

/-! ## What is derived -/

/-- `attr::Field` (attr.rs:121-126). `with` sets both `serialize_with` and `deserialize_with` (attr.rs:164-172). -/
structure FieldAttrs where
  offsetBase : Bool := false
  embedded : Bool := false
  withPath : Option String := none

/-- `attr::Field::from_ast` (attr.rs:130-209): an attribute given twice is an error (attr.rs:35-46). -/
def fieldAttrs : List Attr → FieldAttrs → Res FieldAttrs
  | [], f => .ok f
  | .offsetBase :: l, f => if f.offsetBase then .err else fieldAttrs l { f with offsetBase := true }
  | .embed :: l, f => if f.embedded then .err else fieldAttrs l { f with embedded := true }
  | .withPath p :: l, f => if f.withPath.isSome then .err else fieldAttrs l { f with withPath := some p }

/-- How a field is written or measured (ser.rs:81-142). -/
inductive Enc
  | counted
  | counted32
  | wrap (p : String)
  | direct

/-- ser.rs:86-105 (and again 115-139). -/
def encOf (a : FieldAttrs) : Enc :=
  match a.withPath with
  | some "Counted" => .counted
  | some "Counted32" => .counted32
  | some p => .wrap p
  | none => .direct

/-- First name in the type of a field. -/
def RTy.head : RTy → String
  | .plain t => t
  | .option _ => "Option"
  | .vec _ => "Vec"
  | .offset16 _ => "Offset16"
  | .offset32 _ => "Offset32"
  | .vecOffset16 _ => "VecOffset16"
  | .vecOffset32 _ => "VecOffset32"

/-- What stands between its angle brackets. -/
def RTy.arg : RTy → Option Tok
  | .plain _ => none
  | .option t => some t
  | .vec t => some t
  | .offset16 t => some t
  | .offset32 t => some t
  | .vecOffset16 t => some t
  | .vecOffset32 t => some t

/-- `serialize_offset_fields` (ser.rs:144-171): whether `&self.name` is listed. -/
def listsSelf (ty : RTy) : Bool :=
  if ty.head == "Offset16" || ty.head == "Offset32" then true
  else if ty.head == "Option" then
    match ty.arg with
    | some (.ident s) => s == "Offset16" || s == "Offset32"
    | _ => false
  else false

/-- `serialize_embed_fields` (ser.rs:173-195): whether `self.name.offset_fields()` is added. -/
def listsBelow (a : FieldAttrs) (ty : RTy) : Bool :=
  a.embedded || (ty.head == "VecOffset16" || ty.head == "VecOffset32")

/-- The code made for `Serialize`: how each field is written and measured, the two parts of `offset_fields`, and
whether `to_bytes` resolves offsets (ser.rs:22-75). -/
structure SerCode where
  writes : List (String × Enc)
  sizes : List (String × Enc)
  selves : List String
  below : List String
  resolves : Bool

/-- The elements of a counted list (de.rs:62-86, 88-112). -/
inductive Elem
  | plain (t : Tok)
  | offset16 (t : Tok)
  | offset32 (t : Tok)

/-- How a field is read (de.rs:60-126). -/
inductive Dec
  | counted (e : Elem)
  | counted32 (e : Elem)
  | wrap (p : String)
  | direct

/-- de.rs:62-86: a type without angle brackets is a panic (`get_vector_arg`, de.rs:132-145). -/
def elemOf (ty : RTy) : Res Elem :=
  match ty.arg with
  | none => .panic
  | some t =>
    if ty.head == "VecOffset16" then .ok (.offset16 t)
    else if ty.head == "VecOffset32" then .ok (.offset32 t)
    else .ok (.plain t)

/-- de.rs:60-126. -/
def decOf (a : FieldAttrs) (ty : RTy) : Res Dec :=
  match a.withPath with
  | some "Counted" => do let e ← elemOf ty; return .counted e
  | some "Counted32" => do let e ← elemOf ty; return .counted32 e
  | some p => .ok (.wrap p)
  | none => .ok .direct

/-- `let name = ..` (de.rs:49-129); `push` is `c.push();` before it. -/
structure DeStep where
  push : Bool
  name : String
  dec : Dec

/-- The code made for `Deserialize` (de.rs:24-47). -/
structure DeCode where
  steps : List DeStep
  pop : Bool
  build : List String

/-- The fields with their attributes (`Container::from_ast`, ast.rs; `ctxt.check()`, ser.rs:12-17). -/
def withAttrs : List FieldDecl → Res (List (FieldDecl × FieldAttrs))
  | [] => .ok []
  | f :: l => do
    let a ← fieldAttrs f.attrs {}
    let more ← withAttrs l
    return (f, a) :: more

/-- `expand_derive_serialize` (ser.rs:7-79). `offset_fields` there has an entry, maybe empty, for each field, so
`has_offsets` says that there are fields. -/
def deriveSer (s : StructDecl) : Res SerCode := do
  let fs ← withAttrs s.fields
  return { writes := fs.map (fun p => (p.1.name, encOf p.2))
           sizes := fs.map (fun p => (p.1.name, encOf p.2))
           selves := (fs.filter (fun p => listsSelf p.1.ty)).map (fun p => p.1.name)
           below := (fs.filter (fun p => listsBelow p.2 p.1.ty)).map (fun p => p.1.name)
           resolves := !fs.isEmpty && !s.embedded }

/-- Goes with `deriveSer` (ser.rs:7-79). -/
def deSteps : List (FieldDecl × FieldAttrs) → Res (List DeStep)
  | [] => .ok []
  | p :: l => do
    let d ← decOf p.2 p.1.ty
    let more ← deSteps l
    return ⟨p.2.offsetBase, p.1.name, d⟩ :: more

/-- `expand_derive_deserialize` (de.rs:9-47). -/
def deriveDe (s : StructDecl) : Res DeCode := do
  let fs ← withAttrs s.fields
  let steps ← deSteps fs
  return { steps := steps
           pop := fs.any (fun p => p.2.offsetBase)
           build := fs.map (fun p => p.1.name) }

/-- What the compiler makes of one table: attributes with no field after them are an error, and so is the attribute
`otspec` if neither is derived (lib.rs:33, 41); otherwise the derived code, as far as asked for. -/
def compileTable (s : StructDecl) : Res (Option SerCode × Option DeCode) :=
  if !s.loose.isEmpty then .err
  else if !s.ser && !s.de && (s.embedded || s.fields.any (fun f => !f.attrs.isEmpty)) then .err
  else do
    let ser ← (if s.ser then do let c ← deriveSer s; return some c else .ok none)
    let de ← (if s.de then do let c ← deriveDe s; return some c else .ok none)
    return (ser, de)

/-! ## What the derived code does

The value of a structure with the fields `fs` is `fs.den`, its fields in order. -/

/-- `Counted(x.clone().into()).to_bytes(..)` and so on for a field `x` of the given type: `Counted` and `Counted32`
take lists (counted.rs:13-17, 72-76), `Counted` also a `VecOffset` (offsets.rs:291-295), a wrapper takes what it wraps.
`none`: does not compile. -/
def runEnc : Enc → (t : Ty) → t.den → Option (Res Bytes)
  | .counted, .counted _ t, l => some (toBytes (.counted .w16 t) l)
  | .counted32, .counted _ t, l => some (toBytes (.counted .w32 t) l)
  | .counted, .offs _ w t, l => some (toBytes (.offs .w16 w t) l)
  | .wrap _, .leaf c, x => some (c.enc x)
  | .direct, .leaf c, x => some (c.enc x)
  | .direct, .off w t, x => some (toBytes (.off w t) x)
  | .direct, .record e fs, x => some (toBytes (.record e fs) x)
  | .direct, .counted _ t, l => some (encVecR (toBytes t) l)
  | .direct, .offs _ w t, l => some (encVecR (encLink w) (l : List (Link t.den)))
  | _, _, _ => none

/-- The same for `ot_binary_size` (counted.rs:18-20, 77-79). -/
def runSize : Enc → (t : Ty) → t.den → Option Nat
  | .counted, .counted _ t, l => some (size (.counted .w16 t) l)
  | .counted32, .counted _ t, l => some (size (.counted .w32 t) l)
  | .counted, .offs _ w t, l => some (size (.offs .w16 w t) l)
  | .wrap _, .leaf c, x => some (c.size x)
  | .direct, .leaf c, x => some (c.size x)
  | .direct, .off w t, x => some (size (.off w t) x)
  | .direct, .record e fs, x => some (size (.record e fs) x)
  | .direct, .counted _ t, l => some ((l : List t.den).map (size t)).sum
  | .direct, .offs _ w t, l => some ((l : List (Link t.den)).map (fun _ => w.size)).sum
  | _, _, _ => none

/-- `to_bytes_shallow` (ser.rs:59-63). -/
def runWrites : List (String × Enc) → (fs : Fields) → fs.den → Option (Res Bytes)
  | [], .nil, _ => some (.ok [])
  | (_, e) :: l, .cons _ _ t r, (x, y) =>
    match runEnc e t x, runWrites l r y with
    | some a, some b => some (do let u ← a; let v ← b; return u ++ v)
    | _, _ => none
  | _, _, _ => none

/-- `ot_binary_size` (ser.rs:64-66). -/
def runSizes : List (String × Enc) → (fs : Fields) → fs.den → Option Nat
  | [], .nil, _ => some 0
  | (_, e) :: l, .cons _ _ t r, (x, y) =>
    match runSize e t x, runSizes l r y with
    | some a, some b => some (a + b)
    | _, _ => none
  | _, _, _ => none

/-- `let wrapped: Counted<..> = c.de()?` and so on for a field of the given type (counted.rs:30-42, 89-101;
offsets.rs:297-301). `none`: does not compile. -/
def runDec : Dec → (t : Ty) → Option (Reader t.den)
  | .counted (.plain _), .counted _ t => some (read (.counted .w16 t))
  | .counted32 (.plain _), .counted _ t => some (read (.counted .w32 t))
  | .counted (.offset16 _), .offs _ _ t => some (read (.offs .w16 .w16 t))
  | .counted (.offset32 _), .offs _ _ t => some (read (.offs .w16 .w32 t))
  | .wrap _, .leaf c => some c.read
  | .direct, .leaf c => some c.read
  | .direct, .off w t => some (read (.off w t))
  | .direct, .record e fs => some (read (.record e fs))
  | _, _ => none

/-- The statements of `from_bytes` (de.rs:38). -/
def runSteps : List DeStep → (fs : Fields) → Option (Reader fs.den)
  | [], .nil => some (pure ())
  | s :: l, .cons _ _ t r =>
    match runDec s.dec t, runSteps l r with
    | some p, some q => some (do
        if s.push then pushTop
        let x ← p
        let y ← q
        return (x, y))
    | _, _ => none
  | _, _ => none

/-- `from_bytes` (de.rs:37-41). -/
def DeCode.run (c : DeCode) (fs : Fields) : Option (Reader fs.den) :=
  match runSteps c.steps fs with
  | some p => some (do
      let v ← p
      if c.pop then popTop
      return v)
  | none => none

end FT.Macro
