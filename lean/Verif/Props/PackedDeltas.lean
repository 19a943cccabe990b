import Verif.Lemmas.PackedDeltas
import Verif.Props.Primitives

/-! # C37: packed variation deltas -/

namespace FT.Props
open FT

/-- Whenever writing succeeds, reading back as many deltas as were written, at any position of any
buffer, gives the same deltas and stops right after the written bytes. -/
theorem C37_roundtrip (deltas : List Int16) (bs : Bytes) (h : PackedDeltas.encode deltas = .ok bs) :
    RoundTripsAt (PackedDeltas.read deltas.length) bs deltas :=
  PackedDeltas.encLoop_dec _ _ _ h _ (Nat.le_refl _)

/-- Writing succeeds exactly for the lists without 256 consecutive zeros. -/
theorem C37_succeeds_iff (deltas : List Int16) :
    (∃ bs, PackedDeltas.encode deltas = .ok bs) ↔ ¬ (List.replicate 256 (0 : Int16) <:+: deltas) := by
  obtain ⟨h1, h2⟩ := PackedDeltas.encLoop_total deltas.length deltas (Nat.le_refl _)
  constructor
  · rintro ⟨bs, e⟩ hz
    unfold PackedDeltas.encode at e
    rw [h1 hz] at e
    cases e
  · exact h2

/-- With 256 consecutive zeros the writer panics (debug build). -/
theorem C37_long_zero_run_panics (deltas : List Int16)
    (h : List.replicate 256 (0 : Int16) <:+: deltas) : PackedDeltas.encode deltas = .panic :=
  (PackedDeltas.encLoop_total deltas.length deltas (Nat.le_refl _)).1 h

/-- The example of the Rust unit test. -/
example : PackedDeltas.encode [10, -105, 0, -58, 0, 0, 0, 0, 0, 0, 0, 0, 4130, -1228] =
    .ok [0x03, 0x0a, 0x97, 0x00, 0xc6, 0x87, 0x41, 0x10, 0x22, 0xfb, 0x34] := by decide
example : List.replicate 256 (0 : Int16) <:+: (5 :: List.replicate 300 0) :=
  ⟨[5], List.replicate 44 0, by simp only [List.cons_append, List.nil_append, List.replicate_append_replicate]⟩
example : ¬ (List.replicate 256 (0 : Int16) <:+: [1, 0, 0, 2]) := by
  intro h; have := h.length_le; rw [List.length_replicate] at this; simp at this

end FT.Props
