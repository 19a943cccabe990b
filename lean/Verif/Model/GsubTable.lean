import Verif.Model.LayoutTables
import Verif.Model.GsubHigh

/-!
The whole GSUB table: crates/otspec/src/tables/GSUB.rs and src/tables/GSUB.rs.
-/

namespace FT.Gsub
open FT Reader FT.Off FT.Lay

/-- `GSUBSubtable` (otspec GSUB.rs:192-207) with the extension wrapper `ExtensionSubstFormat1` (GSUB.rs:37-42). The
reader never nests extensions (the wrapped type is at most 6). -/
inductive SubX where
  | plain (s : Sub)
  | ext (fmt ty : UInt16) (s : Sub)
  deriving DecidableEq, Repr

/-- `smash_it` (GSUB.rs:206-222); the extension has a 32-bit offset of its own. -/
def SubX.tab : SubX → Res Tab
  | .plain s => s.tab
  | .ext fmt ty s => match s.tab with
    | .ok t => .ok ((Tab.bytes (encU16 fmt)).append ((Tab.bytes (encU16 ty)).append
        (.link .w32 false false none t .nil)))
    | .err => .err
    | .panic => .panic

/-- `ExtensionSubstFormat1::from_bytes` (GSUB.rs:162-187): wrapped types above 6 are an error; the 32-bit offset is
followed as it is. -/
def readExt : Reader SubX := inTable (do
  let fmt ← readU16
  let ty ← readU16
  if ty.toNat > 6 then fail
  else do
    let off ← readU32
    let save ← getPtr
    let top ← topOfTable
    setPtr (top + off.toNat)
    let s ← Sub.read ty.toNat
    setPtr save
    return .ext fmt ty s)

/-- `GSUBSubtable::deserialize` (GSUB.rs:94-126). -/
def SubX.read (ty : Nat) : Reader SubX :=
  if ty = 7 then readExt else (do let s ← Sub.read ty; return .plain s)

/-- `Substitution` (src/tables/GSUB.rs:21-38). -/
inductive Subst where
  | single (l : List SingleSubst)
  | multiple (l : List MultiSubst)
  | alternate (l : List MultiSubst)
  | ligature (l : List LigSubst)
  | contextual (l : List (List CtxRule))
  | chained (l : List (List ChainedRule))
  | reverse (l : List RevSubst)
  deriving DecidableEq, Repr

/-- `lookup_type` (GSUB.rs:57-67). -/
def Subst.type : Subst → UInt16
  | .single _ => 1 | .multiple _ => 2 | .alternate _ => 3 | .ligature _ => 4
  | .contextual _ => 5 | .chained _ => 6 | .reverse _ => 8

/-- Subtables of a rule (GSUB.rs:206-247); each rule of a contextual subtable becomes a subtable of its own. -/
def Subst.subs : Subst → Res (List SubX)
  | .single l => .ok (l.map (fun m => .plain m.toLow))
  | .multiple l => .ok (l.map (fun m => .plain m.toLow2))
  | .alternate l => .ok (l.map (fun m => .plain m.toLow3))
  | .ligature l => match Res.mapL LigSubst.toLow l with
    | .ok ss => .ok (ss.map .plain)
    | .err => .err
    | .panic => .panic
  | .contextual l => .ok (l.flatten.map (fun r => .plain (ctxTo3 r)))
  | .chained l => .ok (l.flatten.map (fun r => .plain (chainTo3 r)))
  | .reverse l => .ok (l.map (fun m => .plain m.toLow))

/-- Conversion of a list of subtables, each with the given function. -/
def convert {α : Type} (f : Sub → Res α) (wrap : List α → Subst) (l : List Sub) : Res Subst :=
  match Res.mapL f l with
  | .ok x => .ok (wrap x)
  | .err => .err
  | .panic => .panic

/-- `subtables_from_lowlevel` (GSUB.rs:120-171) on subtables that are not extensions. -/
def rulePlain (max : UInt16) (ty : Nat) (l : List Sub) : Res Subst :=
  match ty with
  | 1 => convert SingleSubst.fromLow .single l
  | 2 => convert MultiSubst.fromLow2 .multiple l
  | 3 => convert MultiSubst.fromLow3 .alternate l
  | 4 => convert LigSubst.fromLow .ligature l
  | 5 => convert (ctxFromLow max) .contextual l
  | 6 => convert (chainFromLow max) .chained l
  | 8 => convert RevSubst.fromLow .reverse l
  | _ => .panic

/-- The `if let` of `extension_from_lowlevel` (GSUB.rs:93-104). -/
def asExt : SubX → Res (UInt16 × Sub)
  | .plain _ => .panic
  | .ext _ ty s => .ok (ty, s)

/-- What each `from_lowlevel` does when given an extension subtable: panic. -/
def asPlain : SubX → Res Sub
  | .plain s => .ok s
  | .ext .. => .panic

/-- `subtables_from_lowlevel` (GSUB.rs:120-171) and `extension_from_lowlevel` (GSUB.rs:93-118). An extension lookup
whose subtables have different types, or without subtables, panics. -/
def ruleOf (max : UInt16) (ty : Nat) (l : List SubX) : Res Subst :=
  if ty = 7 then (match Res.mapL asExt l with
    | .ok es => match es with
      | [] => .panic
      | e :: rest => if rest.all (fun x => x.1 == e.1) then
          -- an inner type 7 would recurse into a list without extensions, which panics like `rulePlain`
          rulePlain max e.1.toNat (es.map Prod.snd)
        else .panic
    | .err => .err
    | .panic => .panic)
  else match Res.mapL asPlain l with
    | .ok ss => rulePlain max ty ss
    | .err => .err
    | .panic => .panic

/-- `GSUB` (GSUB.rs:72). -/
abbrev GSUB := GposGsub Subst

/-- `to_bytes` (GSUB.rs:274-281). -/
def GSUB.toBytes (g : GSUB) : Res Bytes := GposGsub.toBytes Subst.type Subst.subs SubX.tab g

/-- `from_bytes` (GSUB.rs:74-91). -/
def GSUB.read (max : UInt16) : Reader GSUB := GposGsub.read SubX.read (ruleOf max)

end FT.Gsub
