import Verif.Props.DeriveTab

/-! # C109: subtables with several formats are read as their declarations say

The readers of GSUB lookups of type 1, 5 and 6 look at the format first and then use the code generated for the
declaration of that format. -/

namespace FT.Props
open FT FT.Off FT.Der FT.Lay

/-- The two bytes at the cursor. -/
def Format (s : Rd) (b : Bytes) : Prop := (s.inp.drop s.ptr).take 2 = b

/-- Two readers do the same at `s`: they fail or panic together, or leave the same state, with results related by `R`. -/
def AlikeAt {α β : Type} (R : α → β → Prop) (p : Reader α) (q : Reader β) (s : Rd) : Prop :=
  match p s, q s with
  | .ok (a, s'), .ok (b, s'') => R a b ∧ s' = s''
  | .err, .err => True
  | .panic, .panic => True
  | _, _ => False

namespace DTRead

theorem reader_bind_ok {α β : Type} {p : Reader α} {q : α → Reader β} {r : Rd} {x : β × Rd} (h : (p >>= q) r = .ok x) :
    ∃ a r', p r = .ok (a, r') ∧ q a r' = .ok x := by
  rw [Reader.bind_run] at h
  cases hp : p r with
  | err => rw [hp] at h; cases h
  | panic => rw [hp] at h; cases h
  | ok y => rw [hp] at h; exact ⟨y.1, y.2, rfl, h⟩

theorem alike_i16 : Alike (fun a v => Same (.leaf (layoutLeaf "int16")) a v) readI16 (read (.leaf (layoutLeaf "int16"))) := alike_self _
theorem alike_cls : Alike (fun a v => Same (.leaf (layoutLeaf "ClassDef")) ((fun x => x) a) v) ClassDef.read (read (.leaf (layoutLeaf "ClassDef"))) :=
  alike_self _
theorem alike_seqRule : Alike (fun a v => Same (.leaf (layoutLeaf "SequenceRule")) ((fun x => x) a) v) Gsub.SeqRule.read
    (read (.leaf (layoutLeaf "SequenceRule"))) := alike_self _
theorem alike_chainRule : Alike (fun a v => Same (.leaf (layoutLeaf "ChainedSequenceRule")) ((fun x => x) a) v) Gsub.ChainRule.read
    (read (.leaf (layoutLeaf "ChainedSequenceRule"))) := alike_self _
theorem alike_seqSet : Alike (fun a v => Same (.record false (Declared.sequenceRuleSet layoutLeaf)) (setV (α := Gsub.SeqRule) a) v)
    (Gsub.readSet Gsub.SeqRule.read) (read (.record false (Declared.sequenceRuleSet layoutLeaf))) := by
  have h0 : Gsub.readSet Gsub.SeqRule.read = inTable (readOffVec Gsub.SeqRule.read >>= fun a => pure a) := by
    rw [bind_pure_reader]; rfl
  rw [h0]
  exact alike_table (alike_cons (alike_offVec alike_seqRule) fun _ _ h1 => alike_nil ⟨h1, trivial⟩)
theorem alike_chainSet : Alike (fun a v => Same (.record false (Declared.chainedSequenceRuleSet layoutLeaf)) (setV (α := Gsub.ChainRule) a) v)
    (Gsub.readSet Gsub.ChainRule.read) (read (.record false (Declared.chainedSequenceRuleSet layoutLeaf))) := by
  have h0 : Gsub.readSet Gsub.ChainRule.read = inTable (readOffVec Gsub.ChainRule.read >>= fun a => pure a) := by
    rw [bind_pure_reader]; rfl
  rw [h0]
  exact alike_table (alike_cons (alike_offVec alike_chainRule) fun _ _ h1 => alike_nil ⟨h1, trivial⟩)
theorem alike_recs : Alike (fun l m => Same (.counted .w16 (.record false (Declared.sequenceLookupRecord layoutLeaf)))
      (l.map fun r : Gsub.LookupRec => (r.1, r.2, ())) m)
    (readCounted Gsub.readRec) (read (.counted .w16 (.record false (Declared.sequenceLookupRecord layoutLeaf)))) :=
  alike_counted (t := .record false (Declared.sequenceLookupRecord layoutLeaf)) (g := fun r : Gsub.LookupRec => (r.1, r.2, ()))
    (alike_record rfl (alike_cons alike_u16 fun _ _ k1 => alike_cons alike_u16 fun _ _ k2 => alike_nil ⟨k1, k2, trivial⟩))

/-- The first field of what is read is the number that stands there. -/
theorem first_field {e : Bool} {r : Fields} {n : UInt8} {s s' : Rd}
    {v : (Fields.cons true e (.leaf (layoutLeaf "uint16")) r).den}
    (hp : peek 2 s = .ok ([0, n], s)) (h : read (.record false (.cons true e (.leaf (layoutLeaf "uint16")) r)) s = .ok (v, s')) :
    v.1 = UInt16.ofNat n.toNat := by
  have hc : consume 2 ⟨s.inp, s.ptr, s.ptr :: s.stk⟩ = .ok ([0, n], ⟨s.inp, s.ptr + 2, s.ptr :: s.stk⟩) := by
    unfold peek at hp
    unfold consume
    split at hp
    · cases hp
    · rename_i hl
      rw [if_neg hl]
      simp only [Res.ok.injEq, Prod.mk.injEq, and_true] at hp
      simp [hp]
  have hu : readU16 ⟨s.inp, s.ptr, s.ptr :: s.stk⟩ = .ok (UInt16.ofNat n.toNat, ⟨s.inp, s.ptr + 2, s.ptr :: s.stk⟩) := by
    unfold readU16
    rw [Reader.bind_run, hc]
    simp [Reader.pure_run]
  change ((pushTop >>= fun _ => readU16 >>= fun x => readF r >>= fun y => pure (x, y)) >>=
    fun v => popTop >>= fun _ => pure v) s = _ at h
  obtain ⟨w, s1, h1, h2⟩ := reader_bind_ok h
  obtain ⟨_, s2, h3, h4⟩ := reader_bind_ok h2
  obtain ⟨_, s3, h5, h6⟩ := reader_bind_ok h1
  cases h5
  obtain ⟨x, s4, h7, h8⟩ := reader_bind_ok h6
  rw [hu] at h7
  cases h7
  obtain ⟨y, s5, h9, h10⟩ := reader_bind_ok h8
  cases h4
  cases h10
  rfl

theorem peek_of_format {s : Rd} {a b : UInt8} (h : Format s [a, b]) : peek 2 s = .ok ([a, b], s) := by
  unfold Format at h
  unfold peek
  have hl := congrArg List.length h
  simp only [List.length_take, List.length_drop, List.length_cons, List.length_nil] at hl
  rw [if_neg (by omega), h]

/-- A format whose reader passes over the number of the format. -/
theorem at_format {e : Bool} {r : Fields} {n : UInt8} {s : Rd} {p : Reader Gsub.Sub} {f : Bytes → Reader Gsub.Sub}
    (h : Alike (fun a v => v.1 = UInt16.ofNat n.toNat → SubIs (.cons true e (.leaf (layoutLeaf "uint16")) r) a v) p
      (read (.record false (.cons true e (.leaf (layoutLeaf "uint16")) r))))
    (hp : Format s [0, n]) (hf : f [0, n] = p) :
    AlikeAt (SubIs (.cons true e (.leaf (layoutLeaf "uint16")) r)) (peek 2 >>= f)
      (read (.record false (.cons true e (.leaf (layoutLeaf "uint16")) r))) s := by
  have hp := peek_of_format hp
  have hs := h s
  unfold AlikeAt
  rw [Reader.bind_run, hp]
  simp only [hf]
  cases e2 : read (.record false (.cons true e (.leaf (layoutLeaf "uint16")) r)) s with
  | ok y =>
    have hf := first_field hp (v := y.1) (s' := y.2) e2
    cases e1 : p s with
    | ok x => simp only [e1, e2] at hs; exact ⟨hs.1 hf, hs.2⟩
    | err => simp [e1, e2] at hs
    | panic => simp [e1, e2] at hs
  | err => cases e1 : p s with
    | ok x => simp [e1, e2] at hs
    | err => trivial
    | panic => simp [e1, e2] at hs
  | panic => cases e1 : p s with
    | ok x => simp [e1, e2] at hs
    | err => simp [e1, e2] at hs
    | panic => trivial

theorem no_format {s : Rd} {f : Bytes → Reader Gsub.Sub} (h : ∀ b, Format s b → f b s = .err) : (peek 2 >>= f) s = .err := by
  rw [Reader.bind_run]
  cases e : peek 2 s with
  | err => rfl
  | panic => unfold peek at e; split at e <;> cases e
  | ok x =>
    unfold peek at e
    split at e
    · cases e
    · cases e; exact h _ rfl

theorem f1_1 : Alike (fun a v => v.1 = UInt16.ofNat (1 : UInt8).toNat → SubIs (Declared.singleSubstFormat1 layoutLeaf) a v) Gsub.read1_1
    (read (.record false (Declared.singleSubstFormat1 layoutLeaf))) :=
  alike_table (alike_cons alike_u16 fun _ _ _ => alike_cons (alike_link alike_cov) fun _ _ h2 =>
    alike_cons alike_i16 fun _ _ h3 => alike_nil fun h1 => ⟨_, rfl, h1.symm, h2, h3, trivial⟩)
theorem f1_2 : Alike (fun a v => v.1 = UInt16.ofNat (2 : UInt8).toNat → SubIs (Declared.singleSubstFormat2 layoutLeaf) a v) Gsub.read1_2
    (read (.record false (Declared.singleSubstFormat2 layoutLeaf))) :=
  alike_table (alike_cons alike_u16 fun _ _ _ => alike_cons (alike_link alike_cov) fun _ _ h2 =>
    alike_cons alike_u16s fun _ _ h3 => alike_nil fun h1 => ⟨_, rfl, h1.symm, h2, h3, trivial⟩)
theorem f5_1 : Alike (fun a v => v.1 = UInt16.ofNat (1 : UInt8).toNat → SubIs (Declared.sequenceContextFormat1 layoutLeaf) a v) Gsub.read5_1
    (read (.record false (Declared.sequenceContextFormat1 layoutLeaf))) :=
  alike_table (alike_cons alike_u16 fun _ _ _ => alike_cons (alike_link alike_cov) fun _ _ h2 =>
    alike_cons (alike_offVec alike_seqSet) fun _ _ h3 => alike_nil fun h1 => ⟨_, rfl, h1.symm, h2, h3, trivial⟩)
theorem f5_2 : Alike (fun a v => v.1 = UInt16.ofNat (2 : UInt8).toNat → SubIs (Declared.sequenceContextFormat2 layoutLeaf) a v) Gsub.read5_2
    (read (.record false (Declared.sequenceContextFormat2 layoutLeaf))) :=
  alike_table (alike_cons alike_u16 fun _ _ _ => alike_cons (alike_link alike_cov) fun _ _ h2 => alike_cons (alike_link alike_cls) fun _ _ h4 =>
    alike_cons (alike_offVec alike_seqSet) fun _ _ h3 => alike_nil fun h1 => ⟨_, rfl, h1.symm, h2, h4, h3, trivial⟩)
theorem f6_1 : Alike (fun a v => v.1 = UInt16.ofNat (1 : UInt8).toNat → SubIs (Declared.chainedSequenceContextFormat1 layoutLeaf) a v) Gsub.read6_1
    (read (.record false (Declared.chainedSequenceContextFormat1 layoutLeaf))) :=
  alike_table (alike_cons alike_u16 fun _ _ _ => alike_cons (alike_link alike_cov) fun _ _ h2 =>
    alike_cons (alike_offVec alike_chainSet) fun _ _ h3 => alike_nil fun h1 => ⟨_, rfl, h1.symm, h2, h3, trivial⟩)
theorem f6_2 : Alike (fun a v => v.1 = UInt16.ofNat (2 : UInt8).toNat → SubIs (Declared.chainedSequenceContextFormat2 layoutLeaf) a v) Gsub.read6_2
    (read (.record false (Declared.chainedSequenceContextFormat2 layoutLeaf))) :=
  alike_table (alike_cons alike_u16 fun _ _ _ => alike_cons (alike_link alike_cov) fun _ _ h2 => alike_cons (alike_link alike_cls) fun _ _ h4 =>
    alike_cons (alike_link alike_cls) fun _ _ h5 => alike_cons (alike_link alike_cls) fun _ _ h6 =>
    alike_cons (alike_offVec alike_chainSet) fun _ _ h3 => alike_nil fun h1 => ⟨_, rfl, h1.symm, h2, h4, h5, h6, h3, trivial⟩)
theorem f6_3 : Alike (fun a v => v.1 = UInt16.ofNat (3 : UInt8).toNat → SubIs (Declared.chainedSequenceContextFormat3 layoutLeaf) a v) Gsub.read6_3
    (read (.record false (Declared.chainedSequenceContextFormat3 layoutLeaf))) :=
  alike_table (alike_cons alike_u16 fun _ _ _ => alike_cons (alike_offVec alike_cov) fun _ _ h2 => alike_cons (alike_offVec alike_cov) fun _ _ h4 =>
    alike_cons (alike_offVec alike_cov) fun _ _ h5 => alike_cons alike_recs fun _ _ h3 => alike_nil fun h1 => ⟨_, rfl, h1.symm, h2, h4, h5, h3, trivial⟩)

end DTRead
open DTRead

/-- Single substitutions are read by the code generated for the declaration of the format that the first two bytes
give; the subtable is the value read, its format included. Other formats are refused. -/
theorem C109_reads_single (s : Rd) :
    (Format s [0, 1] → AlikeAt (SubIs (Declared.singleSubstFormat1 layoutLeaf)) Gsub.read1
      (read (.record false (Declared.singleSubstFormat1 layoutLeaf))) s) ∧
    (Format s [0, 2] → AlikeAt (SubIs (Declared.singleSubstFormat2 layoutLeaf)) Gsub.read1
      (read (.record false (Declared.singleSubstFormat2 layoutLeaf))) s) ∧
    (¬ Format s [0, 1] → ¬ Format s [0, 2] → Gsub.read1 s = .err) := by
  refine ⟨fun h => at_format f1_1 h rfl, fun h => at_format f1_2 h rfl, fun h1 h2 => no_format fun b hb => ?_⟩
  rw [if_neg (fun e : b = [0, 1] => h1 (e ▸ hb)), if_neg (fun e : b = [0, 2] => h2 (e ▸ hb))]
  rfl

/-- So are contextual substitutions, except in format 3, whose reader is written by hand. -/
theorem C109_reads_contextual (s : Rd) :
    (Format s [0, 1] → AlikeAt (SubIs (Declared.sequenceContextFormat1 layoutLeaf)) Gsub.read5
      (read (.record false (Declared.sequenceContextFormat1 layoutLeaf))) s) ∧
    (Format s [0, 2] → AlikeAt (SubIs (Declared.sequenceContextFormat2 layoutLeaf)) Gsub.read5
      (read (.record false (Declared.sequenceContextFormat2 layoutLeaf))) s) ∧
    (¬ Format s [0, 1] → ¬ Format s [0, 2] → ¬ Format s [0, 3] → Gsub.read5 s = .err) := by
  refine ⟨fun h => at_format f5_1 h rfl, fun h => at_format f5_2 h rfl, fun h1 h2 h3 => no_format fun b hb => ?_⟩
  rw [if_neg (fun e : b = [0, 1] => h1 (e ▸ hb)), if_neg (fun e : b = [0, 2] => h2 (e ▸ hb)), if_neg (fun e : b = [0, 3] => h3 (e ▸ hb))]
  rfl

/-- So are chaining contextual substitutions. -/
theorem C109_reads_chaining (s : Rd) :
    (Format s [0, 1] → AlikeAt (SubIs (Declared.chainedSequenceContextFormat1 layoutLeaf)) Gsub.read6
      (read (.record false (Declared.chainedSequenceContextFormat1 layoutLeaf))) s) ∧
    (Format s [0, 2] → AlikeAt (SubIs (Declared.chainedSequenceContextFormat2 layoutLeaf)) Gsub.read6
      (read (.record false (Declared.chainedSequenceContextFormat2 layoutLeaf))) s) ∧
    (Format s [0, 3] → AlikeAt (SubIs (Declared.chainedSequenceContextFormat3 layoutLeaf)) Gsub.read6
      (read (.record false (Declared.chainedSequenceContextFormat3 layoutLeaf))) s) ∧
    (¬ Format s [0, 1] → ¬ Format s [0, 2] → ¬ Format s [0, 3] → Gsub.read6 s = .err) := by
  refine ⟨fun h => at_format f6_1 h rfl, fun h => at_format f6_2 h rfl, fun h => at_format f6_3 h rfl, fun h1 h2 h3 => no_format fun b hb => ?_⟩
  rw [if_neg (fun e : b = [0, 1] => h1 (e ▸ hb)), if_neg (fun e : b = [0, 2] => h2 (e ▸ hb)), if_neg (fun e : b = [0, 3] => h3 (e ▸ hb))]
  rfl

/-! ### Examples -/

/-- A single substitution of format 1, and one of no known format. -/
example : Format (Rd.new [0, 1, 0, 6, 0, 3, 0, 1, 0, 1, 0, 5]) [0, 1] ∧
    Gsub.read1 (Rd.new [0, 1, 0, 6, 0, 3, 0, 1, 0, 1, 0, 5]) =
      .ok (.s1_1 (some [5]) 3, ⟨[0, 1, 0, 6, 0, 3, 0, 1, 0, 1, 0, 5], 6, [0]⟩) ∧
    (match read (.record false (Declared.singleSubstFormat1 layoutLeaf)) (Rd.new [0, 1, 0, 6, 0, 3, 0, 1, 0, 1, 0, 5]) with
      | .ok (_, s) => some s.ptr
      | _ => none) = some 6 ∧
    Gsub.read1 (Rd.new [0, 3, 0, 6, 0, 3, 0, 1, 0, 1, 0, 5]) = .err := by
  refine ⟨rfl, ?_, ?_, ?_⟩ <;> decide +kernel

end FT.Props
