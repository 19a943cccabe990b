import Verif.Model.Offsets
import Verif.Lemmas.Reads

namespace FT.Off
open FT Reader

@[simp] theorem enc_length (w : Width) (n : Nat) : (w.enc n).length = w.size := by
  cases w <;> rfl

theorem prefix_drop_append {B a b : Bytes} {pos : Nat} (h : a ++ b <+: B.drop pos) :
    a <+: B.drop pos ∧ b <+: B.drop (pos + a.length) := by
  obtain ⟨t, ht⟩ := h
  refine ⟨⟨b ++ t, by rw [← ht]; simp⟩, ⟨t, ?_⟩⟩
  rw [← List.drop_drop, ← ht, List.append_assoc, List.drop_left]

theorem prefix_drop_length {B a : Bytes} {pos : Nat} (h : a <+: B.drop pos) (hp : 0 < a.length) :
    pos + a.length ≤ B.length := by
  have := h.length_le
  rw [List.length_drop] at this
  omega

theorem prefix_drop_le {B a : Bytes} {pos : Nat} (h : a <+: B.drop pos) (hp : pos ≤ B.length) :
    pos + a.length ≤ B.length := by
  have := h.length_le
  rw [List.length_drop] at this
  omega

/-- Does the table link anywhere? -/
theorem size_shallow : ∀ (t : Tab) (x : Bytes), shallow t = .ok x → x.length = size t
  | .nil, x, h => by simp [shallow] at h; subst h; rfl
  | .raw bs r, x, h => by
    simp only [shallow] at h
    cases e : shallow r with
    | ok y => simp only [e] at h; injection h with h; subst h; simp [size, size_shallow r y e]
    | err => simp [e] at h
    | panic => simp [e] at h
  | .null w r, x, h => by
    simp only [shallow] at h
    cases e : shallow r with
    | ok y => simp only [e] at h; injection h with h; subst h; simp [size, size_shallow r y e]
    | err => simp [e] at h
    | panic => simp [e] at h
  | .link w v o off c r, x, h => by
    simp only [shallow] at h
    cases off with
    | none => simp at h
    | some n =>
      cases e : shallow r with
      | ok y => simp only [e] at h; injection h with h; subst h; simp [size, size_shallow r y e]
      | err => simp [e] at h
      | panic => simp [e] at h

/-- Inversion of `serDesc` on a link. -/
theorem serDesc_link {w : Width} {v o : Bool} {off : Option Nat} {c r : Tab} {s : Bool} {x : Bytes}
    (h : serDesc (.link w v o off c r) s = .ok x) :
    (v = s → ∃ a b e m, shallow c = .ok a ∧ serDesc c false = .ok b ∧ serDesc c true = .ok e ∧
      serDesc r s = .ok m ∧ x = a ++ b ++ e ++ m) ∧
    (v ≠ s → serDesc r s = .ok x) := by
  rw [serDesc] at h
  constructor
  · intro hv
    rw [if_pos hv] at h
    cases e1 : shallow c with
    | err => simp [e1] at h
    | panic => simp [e1] at h
    | ok a =>
      cases e2 : serDesc c false with
      | err => simp [e1, e2] at h
      | panic => simp [e1, e2] at h
      | ok b =>
        cases e3 : serDesc c true with
        | err => simp [e1, e2, e3] at h
        | panic => simp [e1, e2, e3] at h
        | ok e =>
          cases e4 : serDesc r s with
          | err => simp [e1, e2, e3, e4] at h
          | panic => simp [e1, e2, e3, e4] at h
          | ok m =>
            simp only [e1, e2, e3, e4, Res.ok_bind, Res.pure_eq, Res.ok.injEq] at h
            exact ⟨a, b, e, m, rfl, rfl, rfl, rfl, h.symm⟩
  · intro hv
    rw [if_neg hv] at h
    cases e4 : serDesc r s with
    | err => simp [e4] at h
    | panic => simp [e4] at h
    | ok m => simpa [e4] using h

/-- The resolved table has the same shape. -/
theorem resolve_sizes : ∀ (t t' : Tab) (base d v : Nat), resolve t base d v = .ok t' →
    size t' = size t ∧ ∀ s, descSize t' s = descSize t s
  | .nil, t', _, _, _, h => by simp [resolve] at h; subst h; exact ⟨rfl, fun _ => rfl⟩
  | .raw bs r, t', base, d, v, h => by
    simp only [resolve] at h
    cases e : resolve r base d v with
    | err => simp [e] at h
    | panic => simp [e] at h
    | ok r' =>
      simp only [e] at h; injection h with h; subst h
      have := resolve_sizes r r' base d v e
      exact ⟨by simp [size, this.1], fun s => by simp [descSize, this.2 s]⟩
  | .null w r, t', base, d, v, h => by
    simp only [resolve] at h
    cases e : resolve r base d v with
    | err => simp [e] at h
    | panic => simp [e] at h
    | ok r' =>
      simp only [e] at h; injection h with h; subst h
      have := resolve_sizes r r' base d v e
      exact ⟨by simp [size, this.1], fun s => by simp [descSize, this.2 s]⟩
  | .link w vec opt o c r, t', base, d, v, h => by
    simp only [resolve] at h
    cases e0 : setOff w opt ((if vec then v else d) - base) with
    | err => simp [e0] at h
    | panic => simp [e0] at h
    | ok o' =>
      simp only [e0] at h
      cases e1 : resolve c (if vec then v else d) ((if vec then v else d) + size c)
          ((if vec then v else d) + size c + descSize c false) with
      | err => simp [e1] at h
      | panic => simp [e1] at h
      | ok c' =>
        simp only [e1] at h
        cases e2 : resolve r base (if vec then d else d + total c) (if vec then v + total c else v) with
        | err => simp [e2] at h
        | panic => simp [e2] at h
        | ok r' =>
          simp only [e2] at h; injection h with h; subst h
          have h1 := resolve_sizes c c' _ _ _ e1
          have h2 := resolve_sizes r r' _ _ _ e2
          exact ⟨by simp [size, h2.1], fun s => by simp [descSize, h1.1, h1.2, h2.2]⟩

theorem descSize_serDesc : ∀ (t : Tab) (s : Bool) (x : Bytes), serDesc t s = .ok x → x.length = descSize t s
  | .nil, s, x, h => by simp [serDesc] at h; subst h; rfl
  | .raw bs r, s, x, h => by
    rw [serDesc] at h
    rw [descSize, descSize_serDesc r s x h]
  | .null w r, s, x, h => by
    rw [serDesc] at h
    rw [descSize, descSize_serDesc r s x h]
  | .link w v o off c r, s, x, h => by
    have ⟨h1, h2⟩ := serDesc_link h
    rw [descSize]
    by_cases hv : v = s
    · obtain ⟨a, b, e, m, ha, hb, he, hm, rfl⟩ := h1 hv
      rw [if_pos hv]
      simp only [List.length_append]
      rw [size_shallow c a ha, descSize_serDesc c false b hb, descSize_serDesc c true e he,
        descSize_serDesc r s m hm]
    · rw [if_neg hv, descSize_serDesc r s x (h2 hv), Nat.zero_add]

end FT.Off
