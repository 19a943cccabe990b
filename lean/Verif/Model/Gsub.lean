import Verif.Model.LayoutBase

/-!
GSUB subtables, low level: crates/otspec/src/layout/{gsub1,gsub2,gsub3,gsub4,gsub8,contextual}.rs and
crates/otspec/src/tables/GSUB.rs.
-/

namespace FT.Gsub
open FT Reader FT.Off FT.Lay

/-- `SequenceLookupRecord` (contextual.rs:10-13): (sequenceIndex, lookupIndex). -/
abbrev LookupRec := UInt16 × UInt16
/-- Goes with `LookupRec` (contextual.rs:10-13). -/
def encRec (r : LookupRec) : Bytes := encU16 r.1 ++ encU16 r.2
/-- Goes with `LookupRec` (contextual.rs:10-13). -/
def readRec : Reader LookupRec := do
  let a ← readU16
  let b ← readU16
  return (a, b)

/-- `Ligature` (gsub4.rs:27-30). -/
structure Ligature where
  glyph : UInt16
  components : List UInt16
  deriving DecidableEq, Repr

/-- `Ligature::to_bytes` (gsub4.rs:33-39): `len as uint16 + 1` panics on overflow. -/
def Ligature.tab (l : Ligature) : Res Tab :=
  let n := (UInt16.ofNat l.components.length).toNat + 1
  if n > 65535 then .panic
  else .ok (.bytes (encU16 l.glyph ++ encU16 (UInt16.ofNat n) ++ encVec encU16 l.components))

/-- `Ligature::from_bytes` (gsub4.rs:41-51): a component count of zero underflows. -/
def Ligature.read : Reader Ligature := do
  let g ← readU16
  let n ← readU16
  if n.toNat = 0 then crash
  else do
    let c ← deCounted readU16 (n.toNat - 1)
    return ⟨g, c⟩

/-- `SequenceRule` (contextual.rs:67-72). -/
structure SeqRule where
  glyphCount : UInt16
  seqLookupCount : UInt16
  input : List UInt16
  recs : List LookupRec
  deriving DecidableEq, Repr

/-- Goes with `SeqRule` (contextual.rs:67-72). -/
def SeqRule.tab (r : SeqRule) : Res Tab :=
  .ok (.bytes (encU16 r.glyphCount ++ encU16 r.seqLookupCount ++ encVec encU16 r.input ++ encVec encRec r.recs))

/-- `SequenceRule::from_bytes` (contextual.rs:74-88). -/
def SeqRule.read : Reader SeqRule := do
  let g ← readU16
  let s ← readU16
  if g.toNat = 0 then crash
  else do
    let i ← deCounted readU16 (g.toNat - 1)
    let r ← deCounted readRec s.toNat
    return ⟨g, s, i, r⟩

/-- `ChainedSequenceRule` (contextual.rs:125-134). -/
structure ChainRule where
  backtrack : List UInt16
  inputGlyphCount : UInt16
  input : List UInt16
  lookahead : List UInt16
  recs : List LookupRec
  deriving DecidableEq, Repr

/-- Goes with `ChainRule` (contextual.rs:125-134). -/
def ChainRule.tab (r : ChainRule) : Res Tab :=
  .ok (.bytes (u16s r.backtrack ++ encU16 r.inputGlyphCount ++ encVec encU16 r.input ++ u16s r.lookahead ++
    encCounted encRec r.recs))

/-- `ChainedSequenceRule::from_bytes` (contextual.rs:136-158). -/
def ChainRule.read : Reader ChainRule := do
  let b ← readU16s
  let g ← readU16
  if g.toNat = 0 then crash
  else do
    let i ← deCounted readU16 (g.toNat - 1)
    let l ← readU16s
    let r ← readCounted readRec
    return ⟨b, g, i, l, r⟩

/-- `SequenceRuleSet`, `ChainedSequenceRuleSet`, `LigatureSet`: a counted vector of offsets with its own base.
(contextual.rs:20-23, 41-44; gsub4.rs:16-19.) -/
def setTab {α : Type} (f : α → Res Tab) (l : List (Option α)) : Res Tab := offVec f l
/-- Readers of `SequenceRuleSet`, `ChainedSequenceRuleSet` (contextual.rs:20-23, 41-44) and `LigatureSet`
(gsub4.rs:16-19). -/
def readSet {α : Type} (p : Reader α) : Reader (List (Option α)) := inTable (readOffVec p)

/-- `Sequence` (gsub2.rs:13-15), `AlternateSet` (gsub3.rs:13-15). -/
def seqTab (l : List UInt16) : Res Tab := .ok (.bytes (u16s l))

/-- The map of a `ClassDef` (classdef.rs). -/
abbrev ClassMap := List (UInt16 × UInt16)

/-- `GSUBSubtable` (GSUB.rs:190-204) without the extension wrapper. `substFormat`/`format` fields are kept where
the reader does not fix them. -/
inductive Sub where
  | s1_1 (cov : Cov) (delta : Int16)
  | s1_2 (cov : Cov) (subst : List UInt16)
  | s2_1 (fmt : UInt16) (cov : Cov) (seqs : List (Option (List UInt16)))
  | s3_1 (fmt : UInt16) (cov : Cov) (alts : List (Option (List UInt16)))
  | s4_1 (fmt : UInt16) (cov : Cov) (sets : List (Option (List (Option Ligature))))
  | s5_1 (cov : Cov) (sets : List (Option (List (Option SeqRule))))
  | s5_2 (cov : Cov) (cls : Option ClassMap) (sets : List (Option (List (Option SeqRule))))
  | s5_3 (glyphCount seqLookupCount : UInt16) (covs : List Cov) (recs : List LookupRec)
  | s6_1 (cov : Cov) (sets : List (Option (List (Option ChainRule))))
  | s6_2 (cov : Cov) (back input look : Option ClassMap) (sets : List (Option (List (Option ChainRule))))
  | s6_3 (back input look : List Cov) (recs : List LookupRec)
  | s8_1 (fmt : UInt16) (cov : Cov) (back look : List Cov) (subst : List UInt16)
  deriving DecidableEq, Repr

/-- An element of `coverages: Vec<Offset16<Coverage>>` in `SequenceContextFormat3` (contextual.rs:94-100). The
vector is neither a `VecOffset` nor `embed`, so its offsets are never resolved (ser.rs:173-200): a linked offset
still has no value when it is written, which is an error (offsets.rs:172-180); a null offset is written as 0. -/
def unresolvedOff : Cov → Res Bytes
  | none => .ok (encU16 0)
  | some _ => .err

/-- Serializers of the subtables (generated by `tables!`; `smash_it`, GSUB.rs:183-216). -/
def Sub.tab : Sub → Res Tab
  | .s1_1 cov d => do
    let c ← optOff false covTab cov
    return (Tab.bytes (encU16 1)).append (c.append (.bytes (encI16 d)))
  | .s1_2 cov l => do
    let c ← optOff false covTab cov
    return (Tab.bytes (encU16 2)).append (c.append (.bytes (u16s l)))
  | .s2_1 f cov l => do
    let c ← optOff false covTab cov
    let v ← offVec seqTab l
    return (Tab.bytes (encU16 f)).append (c.append v)
  | .s3_1 f cov l => do
    let c ← optOff false covTab cov
    let v ← offVec seqTab l
    return (Tab.bytes (encU16 f)).append (c.append v)
  | .s4_1 f cov l => do
    let c ← optOff false covTab cov
    let v ← offVec (setTab Ligature.tab) l
    return (Tab.bytes (encU16 f)).append (c.append v)
  | .s5_1 cov l => do
    let c ← optOff false covTab cov
    let v ← offVec (setTab SeqRule.tab) l
    return (Tab.bytes (encU16 1)).append (c.append v)
  | .s5_2 cov cls l => do
    let c ← optOff false covTab cov
    let k ← optOff false classTab cls
    let v ← offVec (setTab SeqRule.tab) l
    return (Tab.bytes (encU16 2)).append (c.append (k.append v))
  | .s5_3 g s covs recs => do
    let cs ← Res.mapL unresolvedOff covs
    return .bytes (encU16 3 ++ encU16 g ++ encU16 s ++ cs.flatten ++ encVec encRec recs)
  | .s6_1 cov l => do
    let c ← optOff false covTab cov
    let v ← offVec (setTab ChainRule.tab) l
    return (Tab.bytes (encU16 1)).append (c.append v)
  | .s6_2 cov b i a l => do
    let c ← optOff false covTab cov
    let kb ← optOff false classTab b
    let ki ← optOff false classTab i
    let ka ← optOff false classTab a
    let v ← offVec (setTab ChainRule.tab) l
    return (Tab.bytes (encU16 2)).append (c.append (kb.append (ki.append (ka.append v))))
  | .s6_3 b i a recs => do
    let vb ← offVec covTab b
    let vi ← offVec covTab i
    let va ← offVec covTab a
    return (Tab.bytes (encU16 3)).append (vb.append (vi.append (va.append (.bytes (encCounted encRec recs)))))
  | .s8_1 f cov b a l => do
    let c ← optOff false covTab cov
    let vb ← offVec covTab b
    let va ← offVec covTab a
    return (Tab.bytes (encU16 f)).append (c.append (vb.append (va.append (.bytes (u16s l)))))

/-- Reader of an `Offset16(Coverage)` field (offsets.rs:190-205, coverage.rs:34-50). -/
def readCov : Reader Cov := readOffset .w16 Coverage.read
/-- Reader of an `Offset16(ClassDef)` field (offsets.rs:190-205). -/
def readCls : Reader (Option ClassMap) := readOffset .w16 ClassDef.read

/-- Format dispatch on the first two bytes (`deserialize_gsub1`, `deserialize_gsub5`, `deserialize_gsub6`).
(lib.rs:61-63.) -/
def peekFormat : Reader Bytes := peek 2

/-- Generated reader of `SingleSubstFormat1` (gsub1.rs:8-13). -/
def read1_1 : Reader Sub := inTable (do
  let _ ← readU16
  let c ← readCov
  let d ← readI16
  return .s1_1 c d)
/-- Generated reader of `SingleSubstFormat2` (gsub1.rs:14-19). -/
def read1_2 : Reader Sub := inTable (do
  let _ ← readU16
  let c ← readCov
  let l ← readU16s
  return .s1_2 c l)
/-- `deserialize_gsub1` (gsub1.rs:22-39). -/
def read1 : Reader Sub := do
  let b ← peekFormat
  if b = [0, 1] then read1_1 else if b = [0, 2] then read1_2 else fail
/-- Generated reader of `MultipleSubstFormat1` (gsub2.rs:7-12). -/
def read2 : Reader Sub := inTable (do
  let f ← readU16
  let c ← readCov
  let l ← readOffVec readU16s
  return .s2_1 f c l)
/-- Generated reader of `AlternateSubstFormat1` (gsub3.rs:7-12). -/
def read3 : Reader Sub := inTable (do
  let f ← readU16
  let c ← readCov
  let l ← readOffVec readU16s
  return .s3_1 f c l)
/-- Generated reader of `LigatureSubstFormat1` (gsub4.rs:10-15). -/
def read4 : Reader Sub := inTable (do
  let f ← readU16
  let c ← readCov
  let l ← readOffVec (readSet Ligature.read)
  return .s4_1 f c l)
/-- Generated reader of `SequenceContextFormat1` (contextual.rs:14-19). -/
def read5_1 : Reader Sub := inTable (do
  let _ ← readU16
  let c ← readCov
  let l ← readOffVec (readSet SeqRule.read)
  return .s5_1 c l)
/-- Generated reader of `SequenceContextFormat2` (contextual.rs:24-34). -/
def read5_2 : Reader Sub := inTable (do
  let _ ← readU16
  let c ← readCov
  let k ← readCls
  let l ← readOffVec (readSet SeqRule.read)
  return .s5_2 c k l)
/-- `SequenceContextFormat3::from_bytes` (contextual.rs:102-120). -/
def read5_3 : Reader Sub := inTable (do
  let _ ← readU16
  let g ← readU16
  let s ← readU16
  let c ← deCounted readCov g.toNat
  let r ← deCounted readRec s.toNat
  return .s5_3 g s c r)
/-- `deserialize_gsub5` (contextual.rs:201-219). -/
def read5 : Reader Sub := do
  let b ← peekFormat
  if b = [0, 1] then read5_1 else if b = [0, 2] then read5_2 else if b = [0, 3] then read5_3 else fail
/-- Generated reader of `ChainedSequenceContextFormat1` (contextual.rs:35-40). -/
def read6_1 : Reader Sub := inTable (do
  let _ ← readU16
  let c ← readCov
  let l ← readOffVec (readSet ChainRule.read)
  return .s6_1 c l)
/-- Generated reader of `ChainedSequenceContextFormat2` (contextual.rs:45-54). -/
def read6_2 : Reader Sub := inTable (do
  let _ ← readU16
  let c ← readCov
  let b ← readCls
  let i ← readCls
  let a ← readCls
  let l ← readOffVec (readSet ChainRule.read)
  return .s6_2 c b i a l)
/-- Generated reader of `ChainedSequenceContextFormat3` (contextual.rs:55-62). -/
def read6_3 : Reader Sub := inTable (do
  let _ ← readU16
  let b ← readOffVec Coverage.read
  let i ← readOffVec Coverage.read
  let a ← readOffVec Coverage.read
  let r ← readCounted readRec
  return .s6_3 b i a r)
/-- `deserialize_gsub6` (contextual.rs:221-239). -/
def read6 : Reader Sub := do
  let b ← peekFormat
  if b = [0, 1] then read6_1 else if b = [0, 2] then read6_2 else if b = [0, 3] then read6_3 else fail
/-- Generated reader of `ReverseChainSingleSubstFormat1` (gsub8.rs:7-14). -/
def read8 : Reader Sub := inTable (do
  let f ← readU16
  let c ← readCov
  let b ← readOffVec Coverage.read
  let a ← readOffVec Coverage.read
  let l ← readU16s
  return .s8_1 f c b a l)

/-- `GSUBSubtable::deserialize` (GSUB.rs:95-125) for types other than 7; other types panic. -/
def Sub.read (ty : Nat) : Reader Sub :=
  match ty with
  | 1 => read1
  | 2 => read2
  | 3 => read3
  | 4 => read4
  | 5 => read5
  | 6 => read6
  | 8 => read8
  | _ => crash

/-- The lookup type under which a subtable is read. -/
def Sub.type : Sub → Nat
  | .s1_1 .. => 1 | .s1_2 .. => 1 | .s2_1 .. => 2 | .s3_1 .. => 3 | .s4_1 .. => 4
  | .s5_1 .. => 5 | .s5_2 .. => 5 | .s5_3 .. => 5
  | .s6_1 .. => 6 | .s6_2 .. => 6 | .s6_3 .. => 6 | .s8_1 .. => 8

end FT.Gsub
