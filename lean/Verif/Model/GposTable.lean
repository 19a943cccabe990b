import Verif.Model.LayoutTables
import Verif.Model.Gpos
import Verif.Model.GsubHigh

/-!
The whole GPOS table: crates/otspec/src/tables/GPOS.rs and src/tables/GPOS.rs.
-/

namespace FT.Gpos
open FT Reader FT.Off FT.Lay

/-- `GPOSSubtable` (otspec GPOS.rs:187-205) with the extension wrapper `ExtensionPosFormat1` (GPOS.rs:38-43). The
reader never nests extensions (the wrapped type is at most 6). -/
inductive SubX where
  | plain (s : Sub)
  | ext (fmt ty : UInt16) (s : Sub)
  deriving DecidableEq, Repr

/-- `smash_it` (GPOS.rs:212-230); the extension has a 32-bit offset of its own. -/
def SubX.tab : SubX → Res Tab
  | .plain s => s.tab
  | .ext fmt ty s => match s.tab with
    | .ok t => .ok ((Tab.bytes (encU16 fmt)).append ((Tab.bytes (encU16 ty)).append
        (.link .w32 false false none t .nil)))
    | .err => .err
    | .panic => .panic

/-- `ExtensionPosFormat1::from_bytes` (GPOS.rs:165-190): wrapped types above 6 are an error, although GPOS has
subtables of types 7 and 8; the 32-bit offset is followed as it is. -/
def readExt : Reader SubX := inTable (do
  let fmt ← readU16
  let ty ← readU16
  if ty.toNat > 6 then fail
  else do
    let off ← readU32
    let save ← getPtr
    let top ← topOfTable
    setPtr (top + off.toNat)
    let s ← Sub.read ty.toNat
    setPtr save
    return .ext fmt ty s)

/-- `GPOSSubtable::deserialize` (GPOS.rs:93-126). -/
def SubX.read (ty : Nat) : Reader SubX :=
  if ty = 9 then readExt else (do let s ← Sub.read ty; return .plain s)

/-- `Positioning` (src/tables/GPOS.rs:23-40). -/
inductive Positioning where
  | single (l : List SinglePos)
  | pair (l : List PairPos)
  | cursive (l : List CursivePos)
  | markToBase (l : List MarkPos)
  | markToLig (l : List MarkLigPos)
  | markToMark (l : List MarkPos)
  | contextual (l : List (List Gsub.CtxRule))
  | chained (l : List (List Gsub.ChainedRule))
  deriving DecidableEq, Repr

/-- `lookup_type` (GPOS.rs:60-71). -/
def Positioning.type : Positioning → UInt16
  | .single _ => 1 | .pair _ => 2 | .cursive _ => 3 | .markToBase _ => 4 | .markToLig _ => 5 | .markToMark _ => 6
  | .contextual _ => 7 | .chained _ => 8

/-- Subtables made one by one by a conversion that may panic. -/
def subsOf {α : Type} (f : α → Res Sub) (l : List α) : Res (List SubX) := match Res.mapL f l with
  | .ok ss => .ok (ss.map .plain)
  | .err => .err
  | .panic => .panic

/-- Subtables of a rule (GPOS.rs:212-262); each rule of a contextual subtable becomes a subtable of its own. -/
def Positioning.subs : Positioning → Res (List SubX)
  | .single l => subsOf SinglePos.toLow l
  | .pair l => .ok (l.map (fun m => .plain m.toLow))
  | .cursive l => .ok (l.map (fun m => .plain m.toLow))
  | .markToBase l => subsOf (MarkPos.toLow .p4_1) l
  | .markToLig l => subsOf MarkLigPos.toLow l
  | .markToMark l => subsOf (MarkPos.toLow .p6_1) l
  | .contextual l => .ok (l.flatten.map (fun r => .plain (.ctx (Gsub.ctxTo3 r))))
  | .chained l => .ok (l.flatten.map (fun r => .plain (.ctx (Gsub.chainTo3 r))))

/-- Conversion of a list of subtables, each with the given function. -/
def convert {α : Type} (f : Sub → Res α) (wrap : List α → Positioning) (l : List Sub) : Res Positioning :=
  match Res.mapL f l with
  | .ok x => .ok (wrap x)
  | .err => .err
  | .panic => .panic

/-- `SequenceContext::from_lowlevel` for GPOS subtables (contextual.rs:115-129); others panic. -/
def ctxOf (max : UInt16) : Sub → Res (List Gsub.CtxRule)
  | .ctx s => Gsub.ctxFromLow max s
  | _ => .panic
/-- `ChainedSequenceContext::from_lowlevel` for GPOS subtables (contextual.rs:322-336); others panic. -/
def chainOf (max : UInt16) : Sub → Res (List Gsub.ChainedRule)
  | .ctx s => Gsub.chainFromLow max s
  | _ => .panic

/-- `subtables_from_lowlevel` (GPOS.rs:121-176) on subtables that are not extensions: there is no case for type 6. -/
def rulePlain (max : UInt16) (ty : Nat) (l : List Sub) : Res Positioning :=
  match ty with
  | 1 => convert SinglePos.fromLow .single l
  | 2 => convert (PairPos.fromLow max) .pair l
  | 3 => convert CursivePos.fromLow .cursive l
  | 4 => convert MarkPos.fromLow4 .markToBase l
  | 5 => convert MarkLigPos.fromLow .markToLig l
  | 7 => convert (ctxOf max) .contextual l
  | 8 => convert (chainOf max) .chained l
  | _ => .panic

/-- The `if let` of `extension_from_lowlevel` (GPOS.rs:97-106). -/
def asExt : SubX → Res (UInt16 × Sub)
  | .plain _ => .panic
  | .ext _ ty s => .ok (ty, s)

/-- What each `from_lowlevel` does when given an extension subtable: panic. -/
def asPlain : SubX → Res Sub
  | .plain s => .ok s
  | .ext .. => .panic

/-- `subtables_from_lowlevel` (GPOS.rs:124-176) and `extension_from_lowlevel` (GPOS.rs:97-122). An extension lookup
whose subtables have different types, or without subtables, panics. -/
def ruleOf (max : UInt16) (ty : Nat) (l : List SubX) : Res Positioning :=
  if ty = 9 then (match Res.mapL asExt l with
    | .ok es => match es with
      | [] => .panic
      | e :: rest => if rest.all (fun x => x.1 == e.1) then
          -- an inner type 9 would recurse into a list without extensions, which panics like `rulePlain`
          rulePlain max e.1.toNat (es.map Prod.snd)
        else .panic
    | .err => .err
    | .panic => .panic)
  else match Res.mapL asPlain l with
    | .ok ss => rulePlain max ty ss
    | .err => .err
    | .panic => .panic

/-- `GPOS` (GPOS.rs:76). -/
abbrev GPOS := GposGsub Positioning

/-- `to_bytes` (GPOS.rs:290-297). -/
def GPOS.toBytes (g : GPOS) : Res Bytes := GposGsub.toBytes Positioning.type Positioning.subs SubX.tab g

/-- `from_bytes` (GPOS.rs:77-93). -/
def GPOS.read (max : UInt16) : Reader GPOS := GposGsub.read SubX.read (ruleOf max)

end FT.Gpos
