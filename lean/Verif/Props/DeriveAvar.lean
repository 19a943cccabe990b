import Verif.Props.DeriveStore
import Verif.Model.Fvar

/-! # C109: the avar table and coverage tables are written and read as their declarations say -/

namespace FT.Props
open FT FT.Off FT.Der FT.Lay

/-- The code behind the names in the declarations of avar and coverage tables (Model/Declarations). -/
def avarLeaf (n : String) : Leaf :=
  match n with
  | "F2DOT14" => ownLeaf F32.encF2dot14 F32.readF2dot14
  | _ => ownLeaf (fun x => .ok (encU16 x)) readU16

abbrev axisValueT : Ty := .record false (Declared.fields [Declared.f avarLeaf "F2DOT14", Declared.f avarLeaf "F2DOT14"])
abbrev segmentT : Ty := .record false (Declared.fields [Declared.counted axisValueT])

/-- A segment map: pairs of numbers. -/
def segmentV (m : List (ℚ × ℚ)) : segmentT.den := (m.map (fun x : ℚ × ℚ => (x.1, x.2, ())), ())
/-- Version and reserved field are given. -/
def avarV (major minor reserved : UInt16) (maps : List (List (ℚ × ℚ))) : (Declared.avar avarLeaf).den :=
  (major, minor, reserved, maps.map segmentV, ())

theorem encVecR_map {α β : Type} {f : β → Res Bytes} {g : α → β} {f' : α → Res Bytes} (h : ∀ a, f (g a) = f' a) :
    ∀ l : List α, encVecR f (l.map g) = encVecR f' l
  | [] => rfl
  | a :: l => by simp only [List.map_cons, encVecR, h a, encVecR_map h l]

theorem res_end (x : Res Bytes) : (do let a ← x; let b ← (Res.ok [] : Res Bytes); pure (a ++ b)) = x := by
  cases x with
  | ok bs => show Res.ok (bs ++ []) = _; rw [List.append_nil]
  | err => rfl
  | panic => rfl

theorem axisValue_bytes (x : ℚ × ℚ) : Der.toBytes axisValueT (x.1, x.2, ()) = AxisMaps.encAxisValue x := by
  show (do let a ← F32.encF2dot14 x.1; let b ← (do let a ← F32.encF2dot14 x.2; let b ← (Res.ok [] : Res Bytes); pure (a ++ b)); pure (a ++ b)) = _
  rw [res_end]
  rfl

theorem segment_bytes (m : List (ℚ × ℚ)) : Der.toBytes segmentT (segmentV m) = AxisMaps.encSegment m := by
  show ((encVecR (Der.toBytes axisValueT) (m.map fun x : ℚ × ℚ => (x.1, x.2, ())) >>= fun x =>
    pure (Width.w16.enc (m.map fun x : ℚ × ℚ => (x.1, x.2, ())).length ++ x)) >>= fun a => (Res.ok [] : Res Bytes) >>= fun b => pure (a ++ b)) = _
  rw [res_end, encVecR_map axisValue_bytes, List.length_map]
  rfl

/-- The avar table is written as declared, or fails alike. -/
theorem C109_avar (maps : List (List (ℚ × ℚ))) :
    AxisMaps.encAvar maps = Der.toBytes (.record false (Declared.avar avarLeaf)) (avarV 1 0 0 maps) := by
  symm
  show ((Res.ok (encU16 1) : Res Bytes) >>= fun a => ((Res.ok (encU16 0) : Res Bytes) >>= fun a => ((Res.ok (encU16 0) : Res Bytes) >>= fun a =>
      ((encVecR (Der.toBytes segmentT) (maps.map segmentV) >>= fun x => pure (Width.w16.enc (maps.map segmentV).length ++ x)) >>= fun a =>
        (Res.ok [] : Res Bytes) >>= fun b => pure (a ++ b)) >>= fun b => pure (a ++ b)) >>= fun b => pure (a ++ b)) >>= fun b => pure (a ++ b)) = _
  rw [res_end, encVecR_map segment_bytes, List.length_map]
  unfold AxisMaps.encAvar
  cases encVecR AxisMaps.encSegment maps <;> rfl

theorem asegment : Alike (fun a v => Same segmentT (segmentV a) v) AxisMaps.readSegment (read segmentT) := by
  unfold AxisMaps.readSegment
  rw [← bind_pure_reader (readCounted AxisMaps.readAxisValue)]
  exact alike_record rfl (alike_cons (alike_counted (t := axisValueT) (g := fun x : ℚ × ℚ => (x.1, x.2, ()))
      (alike_record rfl (alike_cons (t := .leaf (avarLeaf "F2DOT14")) (R := fun a v => Same (.leaf (avarLeaf "F2DOT14")) a v) (alike_self _) fun _ _ k1 =>
        alike_cons (t := .leaf (avarLeaf "F2DOT14")) (R := fun a v => Same (.leaf (avarLeaf "F2DOT14")) a v) (alike_self _) fun _ _ k2 =>
        alike_nil ⟨k1, k2, trivial⟩)))
    fun _ _ h1 => alike_nil ⟨h1, trivial⟩)

theorem au16 : Alike (fun a v => Same (.leaf (avarLeaf "uint16")) a v) readU16 (read (.leaf (avarLeaf "uint16"))) := alike_self _

/-- It is read as declared; version and reserved field are not kept. -/
theorem C109_reads_avar :
    Alike (fun a v => ∃ major minor reserved, SameF (Declared.avar avarLeaf) (avarV major minor reserved a) v) AxisMaps.readAvar
      (read (.record false (Declared.avar avarLeaf))) := by
  unfold AxisMaps.readAvar
  rw [← bind_pure_reader (readCounted AxisMaps.readSegment)]
  exact alike_record rfl (alike_cons au16 fun _ _ h1 => alike_cons au16 fun _ _ h2 => alike_cons au16 fun _ _ h3 =>
    alike_cons (alike_counted (t := segmentT) (g := segmentV) asegment) fun _ _ h4 => alike_nil ⟨_, _, _, h1, h2, h3, h4, trivial⟩)

/-! ### Coverage and class definitions -/

def covRangeV (r : Coverage.RangeRecord) : UInt16 × UInt16 × UInt16 × Unit := (r.startG, r.endG, r.index, ())
def classRangeV (r : ClassDef.RangeRecord) : UInt16 × UInt16 × UInt16 × Unit := (r.startG, r.endG, r.cls, ())

abbrev rangeT : Ty := .record false (Declared.fields [Declared.f avarLeaf "uint16", Declared.f avarLeaf "uint16", Declared.f avarLeaf "uint16"])

theorem au16s : Alike (fun l m => Same (.counted .w16 (.leaf (avarLeaf "uint16"))) l m) (readCounted readU16)
    (read (.counted .w16 (.leaf (avarLeaf "uint16")))) := by
  refine alike_imp (alike_counted (g := fun x : UInt16 => x) (t := .leaf (avarLeaf "uint16")) (alike_self _)) (fun l m h => ?_)
  exact (congrArg (fun k : List UInt16 => Same (.counted .w16 (.leaf (avarLeaf "uint16"))) k m) (List.map_id' l)).mp h

theorem acovRange : Alike (fun a v => Same rangeT (covRangeV a) v) Coverage.RangeRecord.read (read rangeT) :=
  alike_record rfl (alike_cons au16 fun _ _ h1 => alike_cons au16 fun _ _ h2 => alike_cons au16 fun _ _ h3 => alike_nil ⟨h1, h2, h3, trivial⟩)
theorem aclassRange : Alike (fun a v => Same rangeT (classRangeV a) v) ClassDef.RangeRecord.read (read rangeT) :=
  alike_record rfl (alike_cons au16 fun _ _ h1 => alike_cons au16 fun _ _ h2 => alike_cons au16 fun _ _ h3 => alike_nil ⟨h1, h2, h3, trivial⟩)

/-- A coverage table is read as the declaration its first number stands for: format 1 as `CoverageFormat1`, whose glyphs
it gives, and every other number as `CoverageFormat2`, whose ranges it expands. -/
theorem C109_reads_coverage : ∃ (one : Reader (List UInt16)) (two : Reader (List Coverage.RangeRecord)),
    Alike (fun a v => SameF (Declared.coverageFormat1 avarLeaf) (a, ()) v) one (read (.record false (Declared.coverageFormat1 avarLeaf))) ∧
    Alike (fun a v => SameF (Declared.coverageFormat2 avarLeaf) (a.map covRangeV, ()) v) two
      (read (.record false (Declared.coverageFormat2 avarLeaf))) ∧
    Coverage.read = readU16 >>= fun format => if format = 1 then one else
      two >>= fun ranges => Reader.lift (Res.mapL Coverage.expand ranges) >>= fun gs => pure gs.flatten := by
  refine ⟨readCounted readU16, readCounted Coverage.RangeRecord.read, ?_, ?_, rfl⟩
  · rw [← bind_pure_reader (readCounted readU16)]
    exact alike_record rfl (alike_cons au16s fun _ _ h1 => alike_nil ⟨h1, trivial⟩)
  · rw [← bind_pure_reader (readCounted Coverage.RangeRecord.read)]
    exact alike_record rfl (alike_cons (alike_counted (t := rangeT) (g := covRangeV) acovRange) fun _ _ h1 => alike_nil ⟨h1, trivial⟩)

/-- So is a class definition. -/
theorem C109_reads_classdef : ∃ (one : Reader (UInt16 × List UInt16)) (two : Reader (List ClassDef.RangeRecord)),
    Alike (fun a v => SameF (Declared.classDefFormat1 avarLeaf) (a.1, a.2, ()) v) one (read (.record false (Declared.classDefFormat1 avarLeaf))) ∧
    Alike (fun a v => SameF (Declared.classDefFormat2 avarLeaf) (a.map classRangeV, ()) v) two
      (read (.record false (Declared.classDefFormat2 avarLeaf))) ∧
    ClassDef.read = readU16 >>= fun format =>
      if format = 1 then one >>= fun x => Reader.lift (ClassDef.insertArray x.1 0 x.2 [])
      else two >>= fun ranges => Reader.lift (ClassDef.insertRanges ranges []) := by
  refine ⟨readU16 >>= fun s => readCounted readU16 >>= fun l => pure (s, l), readCounted ClassDef.RangeRecord.read, ?_, ?_, ?_⟩
  · exact alike_record rfl (alike_cons au16 fun _ _ h1 => alike_cons au16s fun _ _ h2 => alike_nil ⟨h1, h2, trivial⟩)
  · rw [← bind_pure_reader (readCounted ClassDef.RangeRecord.read)]
    exact alike_record rfl (alike_cons (alike_counted (t := rangeT) (g := classRangeV) aclassRange) fun _ _ h1 => alike_nil ⟨h1, trivial⟩)
  · simp only [bind_assoc_reader, pure_bind_reader]
    rfl

theorem au16s_bytes (l : List UInt16) : encVecR (Der.toBytes (.leaf (avarLeaf "uint16"))) l = .ok (encVec encU16 l) := by
  induction l with
  | nil => rfl
  | cons a l ih => simp only [encVecR, ih]; rfl

theorem aranges_bytes {α : Type} {g : α → rangeT.den} {enc : α → Bytes} (hg : ∀ a, Der.toBytes rangeT (g a) = .ok (enc a)) :
    ∀ l : List α, encVecR (Der.toBytes rangeT) (l.map g) = .ok (encVec enc l)
  | [] => rfl
  | a :: l => by
    simp only [List.map_cons, encVecR, hg a, aranges_bytes hg l]
    rfl

theorem arange_bytes (a b c : UInt16) : Der.toBytes rangeT ((a, b, c, ()) : UInt16 × UInt16 × UInt16 × Unit) = .ok (encU16 a ++ encU16 b ++ encU16 c) := by
  show Res.ok (encU16 a ++ (encU16 b ++ (encU16 c ++ []))) = _
  simp

theorem records_count : ∀ (sl : List (List UInt16)) (i : UInt16) (rs : List Coverage.RangeRecord), Coverage.records i sl = .ok rs → rs.length = sl.length
  | [], i, rs, h => by cases h; rfl
  | s :: sl, i, rs, h => by
    obtain ⟨a, _, h⟩ := bind_ok_inv h
    obtain ⟨b, _, h⟩ := bind_ok_inv h
    simp only at h
    split at h
    · cases h
    · obtain ⟨m, h1, h2⟩ := bind_ok_inv h
      cases h2
      simp only [List.length_cons, records_count sl _ m h1]

/-- A coverage table is written as the number of a format and the declared structure: the glyphs themselves, or ranges. -/
theorem C109_coverage (gs : List UInt16) (bs : Bytes) (h : Coverage.toBytes gs = .ok bs) :
    (∃ x, Der.toBytes (.record false (Declared.coverageFormat1 avarLeaf)) (gs, ()) = .ok x ∧ bs = encU16 1 ++ x) ∨
    (∃ (ranges : List Coverage.RangeRecord) (x : Bytes),
      Der.toBytes (.record false (Declared.coverageFormat2 avarLeaf)) (ranges.map covRangeV, ()) = .ok x ∧ bs = encU16 2 ++ x) := by
  obtain ⟨sl, a1, a2⟩ := bind_ok_inv h
  split at a2
  · cases a2
    refine Or.inl ⟨encCounted encU16 gs, ?_, rfl⟩
    show ((encVecR (Der.toBytes (.leaf (avarLeaf "uint16"))) gs >>= fun x => pure (Width.w16.enc (gs : List UInt16).length ++ x)) >>= fun a =>
      (Res.ok [] : Res Bytes) >>= fun b => pure (a ++ b)) = _
    rw [res_end, au16s_bytes]
    rfl
  · obtain ⟨recs, b1, b2⟩ := bind_ok_inv a2
    cases b2
    refine Or.inr ⟨recs, encU16 (UInt16.ofNat sl.length) ++ encVec Coverage.RangeRecord.enc recs, ?_, by rw [List.append_assoc]⟩
    have hr := aranges_bytes (g := covRangeV) (enc := Coverage.RangeRecord.enc) (fun r => arange_bytes _ _ _) recs
    show ((encVecR (Der.toBytes rangeT) (recs.map covRangeV) >>= fun x => pure (Width.w16.enc (recs.map covRangeV).length ++ x)) >>= fun a =>
      (Res.ok [] : Res Bytes) >>= fun b => pure (a ++ b)) = _
    rw [res_end, hr, List.length_map, records_count sl 0 recs b1]
    rfl

theorem mapL_count {α β : Type} {f : α → Res β} : ∀ (l : List α) (r : List β), Res.mapL f l = .ok r → r.length = l.length
  | [], r, h => by cases h; rfl
  | a :: l, r, h => by
    simp only [Res.mapL] at h
    cases e1 : f a with
    | err => simp [e1] at h
    | panic => simp [e1] at h
    | ok x =>
      cases e2 : Res.mapL f l with
      | err => simp [e1, e2] at h
      | panic => simp [e1, e2] at h
      | ok y =>
        simp only [e1, e2] at h
        cases h
        simp only [List.length_cons, mapL_count l y e2]

theorem aclassRanges (recs : List ClassDef.RangeRecord) (n : Nat) (hn : recs.length = n) :
    Der.toBytes (.record false (Declared.classDefFormat2 avarLeaf)) (recs.map classRangeV, ()) =
      .ok (encU16 (UInt16.ofNat n) ++ encVec ClassDef.RangeRecord.enc recs) := by
  have hr := aranges_bytes (g := classRangeV) (enc := ClassDef.RangeRecord.enc) (fun r => arange_bytes _ _ _) recs
  show ((encVecR (Der.toBytes rangeT) (recs.map classRangeV) >>= fun x => pure (Width.w16.enc (recs.map classRangeV).length ++ x)) >>= fun a =>
    (Res.ok [] : Res Bytes) >>= fun b => pure (a ++ b)) = _
  rw [res_end, hr, List.length_map, hn]
  rfl

/-- So is a class definition: a first glyph and the classes from there on, or ranges. -/
theorem C109_classdef (m : List (UInt16 × UInt16)) (bs : Bytes) (h : ClassDef.toBytes m = .ok bs) :
    (∃ (start : UInt16) (classes : List UInt16) (x : Bytes),
      Der.toBytes (.record false (Declared.classDefFormat1 avarLeaf)) (start, classes, ()) = .ok x ∧ bs = encU16 1 ++ x) ∨
    (∃ (ranges : List ClassDef.RangeRecord) (x : Bytes),
      Der.toBytes (.record false (Declared.classDefFormat2 avarLeaf)) (ranges.map classRangeV, ()) = .ok x ∧ bs = encU16 2 ++ x) := by
  obtain ⟨sl, a1, a2⟩ := bind_ok_inv h
  split at a2
  · rename_i f l _ _
    simp only at a2
    split at a2
    · cases a2
    · split at a2
      · cases a2
      · split at a2
        · split at a2
          · cases a2
            refine Or.inl ⟨f.1, (rangeIncl f.1 l.1).map (fun g => (BMap.get? m g).getD 0), encU16 f.1 ++ encCounted encU16 _, ?_,
              by rw [List.append_assoc]⟩
            generalize (rangeIncl f.1 l.1).map (fun g => (BMap.get? m g).getD 0) = cs
            show ((Res.ok (encU16 f.1) : Res Bytes) >>= fun a => ((encVecR (Der.toBytes (.leaf (avarLeaf "uint16"))) cs >>= fun x =>
              pure (Width.w16.enc (cs : List UInt16).length ++ x)) >>= fun a => (Res.ok [] : Res Bytes) >>= fun b => pure (a ++ b)) >>= fun b =>
              pure (a ++ b)) = _
            rw [res_end, au16s_bytes]
            rfl
          · cases a2
          · cases a2
        · obtain ⟨recs, b1, b2⟩ := bind_ok_inv a2
          cases b2
          exact Or.inr ⟨recs, _, aclassRanges recs _ (mapL_count sl recs b1), by rw [List.append_assoc]⟩
  · cases a2
    exact Or.inr ⟨[], _, aclassRanges [] 0 rfl, rfl⟩

/-- Two ranges of a coverage table, and a class definition of format 1. -/
example : (match Coverage.read (Rd.new [0, 2, 0, 2, 0, 3, 0, 5, 0, 0, 0, 9, 0, 9, 0, 3]) with
      | .ok (a, s) => some (a, s.ptr)
      | _ => none) = some ([3, 4, 5, 9], 16) ∧
    (match ClassDef.read (Rd.new [0, 1, 0, 7, 0, 2, 0, 1, 0, 3]) with
      | .ok (a, s) => some (a, s.ptr)
      | _ => none) = some ([(7, 1), (8, 3)], 10) := by
  refine ⟨?_, ?_⟩ <;> decide +kernel

/-- One axis with three pairs. -/
example : AxisMaps.encAvar [[(-1, -1), (0, 0), (1, 1)]] =
    .ok [0, 1, 0, 0, 0, 0, 0, 1, 0, 3, 192, 0, 192, 0, 0, 0, 0, 0, 64, 0, 64, 0] := by
  decide +kernel

end FT.Props
