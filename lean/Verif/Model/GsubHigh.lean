import Verif.Model.Gsub
import Verif.Model.BTree

/-!
User-facing GSUB rules and their conversions to and from the binary structures: src/layout/gsub1.rs, gsub2.rs,
gsub3.rs, gsub4.rs, gsub8.rs, contextual.rs, common.rs and src/tables/GSUB.rs.
-/

namespace FT.Gsub
open FT Reader FT.Off FT.Lay

/-! ### Single substitution (src/layout/gsub1.rs) -/

/-- `SingleSubst.mapping` (gsub1.rs:12-16): a map in key order. -/
abbrev SingleSubst := List (UInt16 × UInt16)

/-- `best_format` (gsub1.rs:18-36); `Int16` addition and subtraction wrap. -/
def SingleSubst.bestFormat (m : SingleSubst) : Nat × Int16 :=
  match m with
  | [] => (2, 0)
  | (l, r) :: rest =>
    let d := r.toInt16 - l.toInt16
    (if rest.all (fun x => x.1.toInt16 + d == x.2.toInt16) then 1 else 2, d)

/-- `to_lowlevel` (gsub1.rs:63-85). -/
def SingleSubst.toLow (m : SingleSubst) : Sub :=
  let (format, d) := bestFormat m
  if format = 1 then .s1_1 (some (m.map Prod.fst)) d
  else .s1_2 (some (m.map Prod.fst)) (m.map Prod.snd)

/-- `(glyph as i16 + deltaGlyphID) as u16` (gsub1.rs:47): the addition panics on overflow. -/
def shiftGlyph (d : Int16) (g : UInt16) : Res (UInt16 × UInt16) :=
  let s := g.toInt16.toInt + d.toInt
  if -32768 ≤ s ∧ s ≤ 32767 then .ok (g, (g.toInt16 + d).toUInt16) else .panic

/-- `from_lowlevel` (gsub1.rs:38-60). -/
def SingleSubst.fromLow : Sub → Res SingleSubst
  | .s1_1 cov d => match Res.mapL (shiftGlyph d) (covGlyphs cov) with
    | .ok l => .ok (BMap.collect l)
    | .err => .err
    | .panic => .panic
  | .s1_2 cov l => .ok (BMap.collect ((covGlyphs cov).zip l))
  | _ => .panic

/-! ### Multiple and alternate substitution (src/layout/gsub2.rs, gsub3.rs) -/

/-- `MultipleSubst.mapping` (gsub2.rs:10-13), `AlternateSubst.mapping` (gsub3.rs:10-13). -/
abbrev MultiSubst := List (UInt16 × List UInt16)

/-- `MultipleSubst::to_lowlevel` (gsub2.rs:36-53). -/
def MultiSubst.toLow2 (m : MultiSubst) : Sub :=
  .s2_1 1 (some (m.map Prod.fst)) (m.map (fun x => some x.2))
/-- `AlternateSubst::to_lowlevel` (gsub3.rs:36-53). -/
def MultiSubst.toLow3 (m : MultiSubst) : Sub :=
  .s3_1 1 (some (m.map Prod.fst)) (m.map (fun x => some x.2))
/-- `MultipleSubst::from_lowlevel` (gsub2.rs:15-34). -/
def MultiSubst.fromLow2 : Sub → Res MultiSubst
  | .s2_1 _ cov l => .ok (BMap.collect ((covGlyphs cov).zip (l.map (fun x => x.getD []))))
  | _ => .panic
/-- `AlternateSubst::from_lowlevel` (gsub3.rs:15-34). -/
def MultiSubst.fromLow3 : Sub → Res MultiSubst
  | .s3_1 _ cov l => .ok (BMap.collect ((covGlyphs cov).zip (l.map (fun x => x.getD []))))
  | _ => .panic

/-! ### Ligature substitution (src/layout/gsub4.rs) -/

/-- `LigatureSubst.mapping` (gsub4.rs:9-12). -/
abbrev LigSubst := List (List UInt16 × UInt16)

/-- One step of the loop gsub4.rs:20-26: `entry(first).or_insert_with(Vec::new).push(left)`;
`left.first().unwrap()` panics on an empty sequence. -/
def splitStep (m : List (UInt16 × List (List UInt16))) (left : List UInt16) :
    Res (List (UInt16 × List (List UInt16))) :=
  match left with
  | [] => .panic
  | a :: _ => .ok (BMap.insert m a ((BMap.get? m a).getD [] ++ [left]))

/-- Goes with `splitStep` (gsub4.rs:20-26). -/
def splitMap : List (List UInt16) → List (UInt16 × List (List UInt16)) → Res (List (UInt16 × List (List UInt16)))
  | [], m => .ok m
  | k :: l, m => match splitStep m k with
    | .ok m' => splitMap l m'
    | .err => .err
    | .panic => .panic

/-- `mapping_keys.sort_by_key(|a| -(a.len() as isize))` (gsub4.rs:19): a stable sort, longest first. -/
def sortKeys (keys : List (List UInt16)) : List (List UInt16) :=
  keys.mergeSort (fun a b => decide (b.length ≤ a.length))

/-- The ligature made for key `k` (gsub4.rs:37-41); `k[1..]` of an empty key panics. -/
def ligFor (m : LigSubst) (k : List UInt16) : Res (Option Ligature) :=
  match BMap.get? m k, k with
  | some g, _ :: rest => .ok (some ⟨g, rest⟩)
  | _, _ => .panic

/-- `LigatureSubst::to_lowlevel` (gsub4.rs:14-57). -/
def LigSubst.toLow (m : LigSubst) : Res Sub :=
  match splitMap (sortKeys (m.map Prod.fst)) [] with
  | .ok split => match Res.mapL (fun x => Res.mapL (ligFor m) x.2) split with
    | .ok sets => .ok (.s4_1 1 (some (split.map Prod.fst)) (sets.map some))
    | .err => .err
    | .panic => .panic
  | .err => .err
  | .panic => .panic

/-- Rules of one ligature set (gsub4.rs:71-77): null links panic. -/
def ligEntries (input : UInt16) (set : Option (List (Option Ligature))) : Res (List (List UInt16 × UInt16)) :=
  match set with
  | none => .panic
  | some ls => Res.mapL (fun l => match l with
    | none => .panic
    | some l => .ok (input :: l.components, l.glyph)) ls

/-- `LigatureSubst::from_lowlevel` (gsub4.rs:59-84). -/
def LigSubst.fromLow : Sub → Res LigSubst
  | .s4_1 _ cov sets => match cov with
    | none => .panic
    | some gs => match Res.mapL (fun x => ligEntries x.1 x.2) (gs.zip sets) with
      | .ok es => .ok (BMap.collect es.flatten)
      | .err => .err
      | .panic => .panic
  | _ => .panic

/-! ### Contexts (src/layout/contextual.rs) -/

/-- `Slot = BTreeSet<GlyphID>` (contextual.rs:15), as the ascending list of its elements. -/
abbrev Slot := List UInt16
/-- `SequenceContextRule` (contextual.rs:17). -/
abbrev CtxRule := List (Slot × List UInt16)

/-- Collecting into a `BTreeSet`. -/
def slotOf (l : List UInt16) : Slot := (BMap.collect (l.map (fun g => (g, ())))).map Prod.fst

/-- `coverage_to_slot` (contextual.rs:27-34). -/
def covSlot (c : Cov) : Slot := slotOf (covGlyphs c)

/-- Loop of `collate_lookup_records` (contextual.rs:44-51), at position `i`. -/
def collateFrom (i : Nat) (slots : List Slot) (recs : List LookupRec) : CtxRule :=
  match slots with
  | [] => []
  | g :: l => (g, (recs.filter (fun x => x.1.toNat == i)).map Prod.snd) :: collateFrom (i + 1) l recs

/-- `collate_lookup_records` (contextual.rs:39-53). -/
def collate (slots : List Slot) (recs : List LookupRec) : CtxRule := collateFrom 0 slots recs

/-- Lookup records produced by `to_format3` (contextual.rs:157-167, 383-393); `ix as uint16` truncates. -/
def recordsFrom (i : Nat) : CtxRule → List LookupRec
  | [] => []
  | (_, ids) :: l => ids.map (fun x => (UInt16.ofNat i, x)) ++ recordsFrom (i + 1) l

/-- `SequenceContext::from_lowlevel_format1` (contextual.rs:56-81). -/
def ctxFrom1 (cov : Cov) (sets : List (Option (List (Option SeqRule)))) : List CtxRule :=
  ((covGlyphs cov).zip sets).flatMap (fun x => (x.2.getD []).filterMap (fun r => r.map (fun rule =>
    collate (([x.1] : Slot) :: rule.input.map (fun g => [g])) rule.recs)))

/-- `SequenceContext::from_lowlevel_format2` (contextual.rs:83-104), from class `first` on. The coverage is not
looked at. -/
def ctxFrom2 (cls : ClassMap) (max : UInt16) : (first : Nat) → List (Option (List (Option SeqRule))) → List CtxRule
  | _, [] => []
  | first, set :: l =>
    (set.getD []).filterMap (fun r => r.map (fun rule =>
      collate (ClassDef.getGlyphs cls (UInt16.ofNat first) max :: rule.input.map (fun c => ClassDef.getGlyphs cls c max))
        rule.recs))
    ++ ctxFrom2 cls max (first + 1) l

/-- `SequenceContext::from_lowlevel_format3` (contextual.rs:105-112). -/
def ctxFrom3 (covs : List Cov) (recs : List LookupRec) : List CtxRule := [collate (covs.map covSlot) recs]

/-- `FromLowlevel<GSUBSubtable> for SequenceContext` (contextual.rs:131-146). -/
def ctxFromLow (max : UInt16) : Sub → Res (List CtxRule)
  | .s5_1 cov sets => .ok (ctxFrom1 cov sets)
  | .s5_2 _ cls sets => .ok (ctxFrom2 (cls.getD []) max 0 sets)
  | .s5_3 _ _ covs recs => .ok (ctxFrom3 covs recs)
  | _ => .panic

/-- `SequenceContext::to_format3` (contextual.rs:149-177) for one rule. -/
def ctxTo3 (rule : CtxRule) : Sub :=
  let recs := recordsFrom 0 rule
  .s5_3 (UInt16.ofNat rule.length) (UInt16.ofNat recs.length) (rule.map (fun x => some x.1)) recs

/-- `ChainedSequenceContextRule` (contextual.rs:195-205). -/
structure ChainedRule where
  backtrack : List Slot
  lookahead : List Slot
  input : CtxRule
  deriving DecidableEq, Repr

/-- `ChainedSequenceContext::from_lowlevel_format1` (contextual.rs:216-252). -/
def chainFrom1 (cov : Cov) (sets : List (Option (List (Option ChainRule)))) : List ChainedRule :=
  ((covGlyphs cov).zip sets).flatMap (fun x => (x.2.getD []).filterMap (fun r => r.map (fun rule =>
    ⟨rule.backtrack.map (fun g => [g]), rule.lookahead.map (fun g => [g]),
      collate (([x.1] : Slot) :: rule.input.map (fun g => [g])) rule.recs⟩)))

/-- `ChainedSequenceContext::from_lowlevel_format2` (contextual.rs:253-292). -/
def chainFrom2 (back input look : ClassMap) (max : UInt16) :
    (first : Nat) → List (Option (List (Option ChainRule))) → List ChainedRule
  | _, [] => []
  | first, set :: l =>
    (set.getD []).filterMap (fun r => r.map (fun rule =>
      ⟨rule.backtrack.map (fun c => ClassDef.getGlyphs back c max),
       rule.lookahead.map (fun c => ClassDef.getGlyphs look c max),
       collate (ClassDef.getGlyphs input (UInt16.ofNat first) max ::
        rule.input.map (fun c => ClassDef.getGlyphs input c max)) rule.recs⟩))
    ++ chainFrom2 back input look max (first + 1) l

/-- `ChainedSequenceContext::from_lowlevel_format3` (contextual.rs:293-319). -/
def chainFrom3 (b i a : List Cov) (recs : List LookupRec) : List ChainedRule :=
  [⟨b.map covSlot, a.map covSlot, collate (i.map covSlot) recs⟩]

/-- `FromLowlevel<GSUBSubtable> for ChainedSequenceContext` (contextual.rs:339-354). -/
def chainFromLow (max : UInt16) : Sub → Res (List ChainedRule)
  | .s6_1 cov sets => .ok (chainFrom1 cov sets)
  | .s6_2 _ b i a sets => .ok (chainFrom2 (b.getD []) (i.getD []) (a.getD []) max 0 sets)
  | .s6_3 b i a recs => .ok (chainFrom3 b i a recs)
  | _ => .panic

/-- `ChainedSequenceContext::to_format3` (contextual.rs:357-403) for one rule. -/
def chainTo3 (r : ChainedRule) : Sub :=
  .s6_3 (r.backtrack.map some) (r.input.map (fun x => some x.1)) (r.lookahead.map some) (recordsFrom 0 r.input)

/-! ### Reverse chaining (src/layout/gsub8.rs) -/

/-- `ReverseChainSubst` (gsub8.rs:9-18). -/
structure RevSubst where
  mapping : List (UInt16 × UInt16)
  backtrack : List Slot
  lookahead : List Slot
  deriving DecidableEq, Repr

/-- `ReverseChainSubst::to_lowlevel` (gsub8.rs:20-56). -/
def RevSubst.toLow (r : RevSubst) : Sub :=
  .s8_1 1 (some (r.mapping.map Prod.fst)) (r.backtrack.map some) (r.lookahead.map some) (r.mapping.map Prod.snd)

/-- `ReverseChainSubst::from_lowlevel` (gsub8.rs:56-82). -/
def RevSubst.fromLow : Sub → Res RevSubst
  | .s8_1 _ cov b a l => .ok ⟨BMap.collect ((covGlyphs cov).zip l), b.map covSlot, a.map covSlot⟩
  | _ => .panic

end FT.Gsub
