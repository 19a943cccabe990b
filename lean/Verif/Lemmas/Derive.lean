import Verif.Lemmas.Tab32
import Verif.Props.DeriveSpec

/-!
# Lemmas about the code generated by `derive(Serialize, Deserialize)`
-/

set_option linter.unusedVariables false

namespace FT.Props
open FT FT.Off FT.Der Reader

/-! ### Types without offsets -/

mutual
theorem noOff : ∀ (t : Ty) (v : t.den), hasOff t = false →
    marks t v = 0 ∧ (∀ b p, place t v b p = (v, p)) ∧ write t v = .ok []
  | .leaf c, v, _ => ⟨rfl, fun _ _ => rfl, rfl⟩
  | .counted w t, l, h => by
    have ih := fun x => noOff t x h
    refine ⟨?_, fun b p => ?_, ?_⟩
    · show ((l : List t.den).map (marks t)).sum = 0
      induction (l : List t.den) with
      | nil => rfl
      | cons x l ihl => simp only [List.map_cons, List.sum_cons, (ih x).1, ihl]
    · show thread (fun x q => place t x b q) (l : List t.den) p = (l, p)
      induction (l : List t.den) with
      | nil => rfl
      | cons x l ihl => simp only [thread, (ih x).2.1, ihl]
    · show encVecR (write t) (l : List t.den) = .ok []
      induction (l : List t.den) with
      | nil => rfl
      | cons x l ihl => simp only [encVecR, (ih x).2.2, ihl, List.append_nil]
  | .off w t, l, h => by simp [hasOff] at h
  | .offs c w t, l, h => by simp [hasOff] at h
  | .record e fs, v, h => by
    obtain ⟨h1, h2, h3, h4, h5⟩ := noOffF fs v h
    refine ⟨h1, fun b p => ?_, ?_⟩
    · simp only [place, h2, h3]
    · simp only [write, h4, h5]; rfl
theorem noOffF : ∀ (fs : Fields) (v : fs.den), hasOffF fs = false →
    marksF fs v = 0 ∧ (∀ b p, placeDirect fs v b p = (v, p)) ∧ (∀ b p, placeRest fs v b p = (v, p)) ∧
      writeDirect fs v = .ok [] ∧ writeRest fs v = .ok []
  | .nil, v, _ => ⟨rfl, fun _ _ => rfl, fun _ _ => rfl, rfl, rfl⟩
  | .cons b e t r, (x, y), h => by
    simp only [hasOffF, Bool.or_eq_false_iff] at h
    obtain ⟨i1, i2, i3⟩ := noOff t x h.1
    obtain ⟨j1, j2, j3, j4, j5⟩ := noOffF r y h.2
    have hoff : t.isOff = false := by
      cases t <;> simp_all [Ty.isOff, hasOff]
    have hh : ∀ b p, placeHere t x b p = (x, p) := by
      intro b p; cases t <;> first | rfl | simp [hasOff] at h
    have hw : writeHere t x = .ok [] := by
      cases t <;> first | rfl | simp [hasOff] at h
    refine ⟨?_, fun b p => ?_, fun b p => ?_, ?_, ?_⟩
    · simp only [marksF, hoff, i1, j1]; simp
    · simp only [placeDirect, hh, j2]
    · simp only [placeRest, i2, j3, ite_self]
    · simp only [writeDirect, hw, j4]; rfl
    · simp only [writeRest, i3, j5, ite_self]; rfl
end

/-! ### Sizes -/

theorem thread_sizes {α : Type} (f : α → Nat → α × Nat) (sz : α → Nat) (h : ∀ x p, sz (f x p).1 = sz x) :
    ∀ (l : List α) (p : Nat), (thread f l p).1.map sz = l.map sz ∧ (thread f l p).1.length = l.length
  | [], _ => ⟨rfl, rfl⟩
  | a :: l, p => by
    obtain ⟨h1, h2⟩ := thread_sizes f sz h l (f a p).2
    simp only [thread, List.map_cons, h, h1, List.length_cons, h2, and_self]

mutual
theorem size_place : ∀ (t : Ty) (v : t.den) (b p : Nat), Der.size t (place t v b p).1 = Der.size t v
  | .leaf c, v, _, _ => rfl
  | .counted w t, l, b, p => by
    show w.size + ((thread (fun x q => place t x b q) (l : List t.den) p).1.map (Der.size t)).sum =
      w.size + ((l : List t.den).map (Der.size t)).sum
    rw [(thread_sizes _ (Der.size t) (fun x q => size_place t x b q) l p).1]
  | .off w t, l, _, _ => rfl
  | .offs c w t, l, b, p => by
    show c.size + ((thread (fun x q => placeLink w (Der.size t) (place t) x b q) (l : List (Link t.den)) p).1.map
      (fun _ => w.size)).sum = c.size + ((l : List (Link t.den)).map (fun _ => w.size)).sum
    rw [(thread_sizes _ (fun _ => w.size) (fun x q => rfl) l p).1]
  | .record e fs, v, b, p => by
    show sizeF fs (placeRest fs (placeDirect fs v b p).1 b (placeDirect fs v b p).2).1 = sizeF fs v
    rw [size_placeRest, size_placeDirect]
theorem size_placeDirect : ∀ (fs : Fields) (v : fs.den) (b p : Nat), sizeF fs (placeDirect fs v b p).1 = sizeF fs v
  | .nil, _, _, _ => rfl
  | .cons b e t r, (x, y), bs, p => by
    simp only [placeDirect, sizeF, size_placeDirect r]
    congr 1
    cases t <;> rfl
theorem size_placeRest : ∀ (fs : Fields) (v : fs.den) (b p : Nat), sizeF fs (placeRest fs v b p).1 = sizeF fs v
  | .nil, _, _, _ => rfl
  | .cons b e t r, (x, y), bs, p => by
    simp only [placeRest, sizeF, size_placeRest r]
    congr 1
    split
    · exact size_place t x bs p
    · rfl
end

mutual
theorem hasOff_pos : ∀ (t : Ty) (v : t.den), hasOff t = true → 0 < Der.size t v
  | .leaf c, v, h => by simp [hasOff] at h
  | .counted w t, l, h => by simp only [Der.size]; cases w <;> simp [Width.size] <;> omega
  | .off w t, l, h => by simp only [Der.size]; cases w <;> simp [Width.size]
  | .offs c w t, l, h => by simp only [Der.size]; cases c <;> simp [Width.size] <;> omega
  | .record e fs, v, h => hasOffF_pos fs v h
theorem hasOffF_pos : ∀ (fs : Fields) (v : fs.den), hasOffF fs = true → 0 < sizeF fs v
  | .nil, v, h => by simp [hasOffF] at h
  | .cons b e t r, (x, y), h => by
    simp only [hasOffF, Bool.or_eq_true] at h
    simp only [sizeF]
    rcases h with h | h
    · have := hasOff_pos t x h; omega
    · have := hasOffF_pos r y h; omega
end

theorem bind_ok_inv {α β : Type} {x : Res α} {f : α → Res β} {b : β} (h : (x >>= f) = .ok b) :
    ∃ a, x = .ok a ∧ f a = .ok b := by
  cases x with
  | ok a => exact ⟨a, rfl, h⟩
  | err => cases h
  | panic => cases h

theorem encVecR_cons {α : Type} {enc : α → Res Bytes} {a : α} {l : List α} {s : Bytes} (h : encVecR enc (a :: l) = .ok s) :
    ∃ x y, enc a = .ok x ∧ encVecR enc l = .ok y ∧ s = x ++ y := by
  simp only [encVecR] at h
  cases e1 : enc a with
  | err => rw [e1] at h; cases h
  | panic => rw [e1] at h; cases h
  | ok x =>
    rw [e1] at h
    cases e2 : encVecR enc l with
    | err => simp only [e2] at h; cases h
    | panic => simp only [e2] at h; cases h
    | ok y =>
      simp only [e2] at h
      injection h with h
      exact ⟨x, y, rfl, rfl, h.symm⟩

theorem encVecR_len {α : Type} {enc : α → Res Bytes} {sz : α → Nat} (h : ∀ a s, enc a = .ok s → s.length = sz a) :
    ∀ (l : List α) (s : Bytes), encVecR enc l = .ok s → s.length = (l.map sz).sum
  | [], s, hs => by cases hs; rfl
  | a :: l, s, hs => by
    obtain ⟨x, y, h1, h2, rfl⟩ := encVecR_cons hs
    rw [List.length_append, h a x h1, encVecR_len h l y h2, List.map_cons, List.sum_cons]

theorem encLink_len {α : Type} {w : Width} {l : Link α} {s : Bytes} (h : encLink w l = .ok s) : s.length = w.size := by
  unfold encLink at h
  split at h
  · injection h with h; rw [← h, enc_length]
  · split at h
    · injection h with h; rw [← h, enc_length]
    · cases h

mutual
theorem part_len {Q : Width → Prop} : ∀ (t : Ty) (e : Bool) (v : t.den) (s : Bytes), TyAll Sized Q t → partOK e t = true →
    toBytes t v = .ok s → s.length = Der.size t v
  | .leaf c, e, v, s, ha, _, h => ha v s h
  | .counted w t, e, l, s, ha, ho, h => by
    obtain ⟨x, h1, h2⟩ := bind_ok_inv h
    injection h2 with h2
    rw [← h2, List.length_append, enc_length, encVecR_len (fun a s hs => part_len t e a s ha ho hs) l x h1]
    rfl
  | .off w t, e, l, s, ha, ho, h => by simp [partOK] at ho
  | .offs c w t, e, l, s, ha, ho, h => by simp [partOK] at ho
  | .record emb fs, e, v, s, ha, ho, h => by
    simp only [partOK, Bool.and_eq_true] at ho
    have hs : shallow fs v = .ok s := by
      simp only [Der.toBytes] at h
      cases hf : hasOffF fs with
      | true =>
        simp only [hf, if_true, Bool.and_eq_true] at ho
        rw [if_pos (by simp [ho.2.1.1])] at h
        exact h
      | false =>
        rw [if_pos (by simp [(noOffF fs v hf).1])] at h
        exact h
    exact shallow_len fs v s ha ho.1 hs
theorem field_len {Q : Width → Prop} : ∀ (t : Ty) (e : Bool) (v : t.den) (s : Bytes), TyAll Sized Q t → fieldOK e t = true →
    toBytes t v = .ok s → s.length = Der.size t v
  | .leaf c, e, v, s, ha, _, h => ha v s h
  | .counted w t, e, l, s, ha, ho, h => by
    obtain ⟨x, h1, h2⟩ := bind_ok_inv h
    injection h2 with h2
    rw [← h2, List.length_append, enc_length, encVecR_len (fun a s hs => part_len t e a s ha ho hs) l x h1]
    rfl
  | .off w t, e, l, s, ha, ho, h => encLink_len h
  | .offs c w t, e, l, s, ha, ho, h => by
    obtain ⟨x, h1, h2⟩ := bind_ok_inv h
    injection h2 with h2
    rw [← h2, List.length_append, enc_length, encVecR_len (sz := fun _ => w.size) (fun a s hs => encLink_len hs) l x h1]
    rfl
  | .record emb fs, e, v, s, ha, ho, h => by
    simp only [fieldOK, Bool.and_eq_true] at ho
    have hs : shallow fs v = .ok s := by
      simp only [Der.toBytes] at h
      cases hf : hasOffF fs with
      | true =>
        simp only [hf, if_true, Bool.and_eq_true] at ho
        rw [if_pos (by simp [ho.2.1.1])] at h
        exact h
      | false =>
        rw [if_pos (by simp [(noOffF fs v hf).1])] at h
        exact h
    exact shallow_len fs v s ha ho.1 hs
theorem shallow_len {Q : Width → Prop} : ∀ (fs : Fields) (v : fs.den) (s : Bytes), FieldsAll Sized Q fs → fieldsOK fs = true →
    shallow fs v = .ok s → s.length = sizeF fs v
  | .nil, v, s, _, _, h => by cases h; rfl
  | .cons b e t r, (x, y), s, ha, ho, h => by
    simp only [fieldsOK, Bool.and_eq_true] at ho
    obtain ⟨a, h1, h2⟩ := bind_ok_inv h
    obtain ⟨c, h3, h4⟩ := bind_ok_inv h2
    injection h4 with h4
    rw [← h4, List.length_append, field_len t e x a ha.1 ho.1 h1, shallow_len r y c ha.2 ho.2 h3]
    rfl
end

theorem own_len {Q : Width → Prop} (t : Ty) (v : t.den) (s : Bytes) (ha : TyAll Sized Q t) (ho : tableOK t = true)
    (h : own t v = .ok s) : s.length = Der.size t v := by
  cases t with
  | leaf c => exact ha v s h
  | counted w t => simp [tableOK] at ho
  | off w t => simp [tableOK] at ho
  | offs c w t => simp [tableOK] at ho
  | record e fs =>
    simp only [tableOK, Bool.and_eq_true] at ho
    exact shallow_len fs v s ha ho.1 h

/-! ### Where everything is put -/

/-- The elements of a list stand one after the other, each `sz` bytes long. -/
def PlacedL {α : Type} (P : α → Nat → Prop) (sz : α → Nat) : List α → Nat → Prop
  | [], _ => True
  | a :: l, pos => P a pos ∧ PlacedL P sz l (pos + sz a)

/-- An offset field at `pos` counted from `base`. -/
def PlacedLink {α : Type} (B : Bytes) (w : Width) (P : α → Nat → Nat → Prop) (l : Link α) (base pos : Nat) : Prop :=
  match l.link with
  | none => w.enc 0 <+: B.drop pos
  | some a => ∃ off, 0 < off ∧ off ≤ w.max ∧ off ≤ 65535 ∧ w.enc off <+: B.drop pos ∧ base + off ≤ B.length ∧
      P a (base + off) (base + off)

mutual
def PlacedAt (B : Bytes) : (t : Ty) → t.den → (base pos : Nat) → Prop
  | .leaf c, a, _, pos => pos ≤ B.length ∧ ∃ bs, c.enc a = .ok bs ∧ bs <+: B.drop pos
  | .counted w t, l, base, pos => w.enc (l : List t.den).length <+: B.drop pos ∧
      PlacedL (fun x q => PlacedAt B t x base q) (Der.size t) l (pos + w.size)
  | .off w t, l, base, pos => PlacedLink B w (PlacedAt B t) l base pos
  | .offs c w t, l, base, pos => c.enc (l : List (Link t.den)).length <+: B.drop pos ∧
      PlacedL (fun x q => PlacedLink B w (PlacedAt B t) x base q) (fun _ => w.size) l (pos + c.size)
  | .record _ fs, v, base, pos => PlacedF B fs v base pos
def PlacedF (B : Bytes) : (fs : Fields) → fs.den → (base pos : Nat) → Prop
  | .nil, _, _, _ => True
  | .cons _ _ t r, (x, y), base, pos => PlacedAt B t x base pos ∧ PlacedF B r y base (pos + Der.size t x)
end

theorem prefix_len_le {B a : Bytes} {p : Nat} (h : a <+: B.drop p) (hp : p ≤ B.length) : p + a.length ≤ B.length := by
  have := h.length_le
  rw [List.length_drop] at this
  omega

theorem thread_end {α : Type} {f : α → Nat → α × Nat} {wr : α → Res Bytes}
    (h : ∀ x p D, wr (f x p).1 = .ok D → (f x p).2 = p + D.length) :
    ∀ (l : List α) (p : Nat) (D : Bytes), encVecR wr (thread f l p).1 = .ok D → (thread f l p).2 = p + D.length
  | [], p, D, hD => by cases hD; rfl
  | a :: l, p, D, hD => by
    obtain ⟨d1, d2, b1, b2, rfl⟩ := encVecR_cons hD
    have e := thread_end h l _ d2 b2
    show (thread f l (f a p).2).2 = _
    rw [e, h a p d1 b1, List.length_append]; omega

theorem link_end {α : Type} {w : Width} {sz : α → Nat} {pl : α → Nat → Nat → α × Nat} {own wr : α → Res Bytes}
    (hc : ∀ a p E, wr (pl a p (p + sz a)).1 = .ok E → (pl a p (p + sz a)).2 = p + sz a + E.length)
    (hlen : ∀ a p s, own (pl a p (p + sz a)).1 = .ok s → s.length = sz a)
    (l : Link α) (base p : Nat) (D : Bytes) (hD : writeLink own wr (placeLink w sz pl l base p).1 = .ok D) :
    (placeLink w sz pl l base p).2 = p + D.length := by
  obtain ⟨off, link⟩ := l
  cases link with
  | none =>
    simp only [placeLink, writeLink] at hD ⊢
    have : D = [] := by
      split at hD
      · injection hD with hD; exact hD.symm
      · rename_i a e; split at e <;> cases e
    subst this; rfl
  | some a =>
    simp only [placeLink] at hD ⊢
    obtain ⟨x, h1, h2⟩ := bind_ok_inv hD
    obtain ⟨y, h3, h4⟩ := bind_ok_inv h2
    injection h4 with h4
    subst h4
    rw [hc a p y h3, List.length_append, hlen a p x h1]; omega

/-- What `placeRest` does to one field. -/
def restOf (e : Bool) (t : Ty) (x : t.den) (base q : Nat) : t.den × Nat := if e || t.isOffs then place t x base q else (x, q)
/-- What `writeRest` writes for one field. -/
def restWrite (e : Bool) (t : Ty) (x : t.den) : Res Bytes := if e || t.isOffs then write t x else .ok []

theorem placeDirect_cons (b e : Bool) (t : Ty) (r : Fields) (x : t.den) (y : r.den) (base p : Nat) :
    placeDirect (.cons b e t r) (x, y) base p =
      (((placeHere t x base p).1, (placeDirect r y base (placeHere t x base p).2).1),
        (placeDirect r y base (placeHere t x base p).2).2) := rfl
theorem placeRest_cons (b e : Bool) (t : Ty) (r : Fields) (x : t.den) (y : r.den) (base p : Nat) :
    placeRest (.cons b e t r) (x, y) base p =
      (((restOf e t x base p).1, (placeRest r y base (restOf e t x base p).2).1),
        (placeRest r y base (restOf e t x base p).2).2) := rfl

theorem here_id {t : Ty} (h : t.isOff = false) (x : t.den) :
    (∀ base p, placeHere t x base p = (x, p)) ∧ writeHere t x = .ok [] := by
  cases t <;> first | exact ⟨fun _ _ => rfl, rfl⟩ | simp [Ty.isOff] at h

theorem rest_id (e : Bool) (w : Width) (t : Ty) (x : Link t.den) (base p : Nat) :
    restOf e (.off w t) x base p = (x, p) ∧ restWrite e (.off w t) x = .ok [] := by
  cases e <;> exact ⟨rfl, rfl⟩

theorem writeDirect_inv {b e : Bool} {t : Ty} {r : Fields} {x : t.den} {y : r.den} {D : Bytes}
    (h : writeDirect (.cons b e t r) (x, y) = .ok D) :
    ∃ d1 d2, writeHere t x = .ok d1 ∧ writeDirect r y = .ok d2 ∧ D = d1 ++ d2 := by
  obtain ⟨a1, g1, g2⟩ := bind_ok_inv (f := fun a => (do let c ← writeDirect r y; return a ++ c)) h
  obtain ⟨a2, g3, g4⟩ := bind_ok_inv g2
  injection g4 with g4
  exact ⟨a1, a2, g1, g3, g4.symm⟩

theorem writeRest_inv {b e : Bool} {t : Ty} {r : Fields} {x : t.den} {y : r.den} {D : Bytes}
    (h : writeRest (.cons b e t r) (x, y) = .ok D) :
    ∃ d1 d2, restWrite e t x = .ok d1 ∧ writeRest r y = .ok d2 ∧ D = d1 ++ d2 := by
  obtain ⟨a1, g1, g2⟩ := bind_ok_inv (f := fun a => (do let c ← writeRest r y; return a ++ c)) h
  obtain ⟨a2, g3, g4⟩ := bind_ok_inv g2
  injection g4 with g4
  exact ⟨a1, a2, g1, g3, g4.symm⟩

theorem shallow_inv {b e : Bool} {t : Ty} {r : Fields} {x : t.den} {y : r.den} {D : Bytes}
    (h : Der.shallow (.cons b e t r) (x, y) = .ok D) :
    ∃ d1 d2, Der.toBytes t x = .ok d1 ∧ Der.shallow r y = .ok d2 ∧ D = d1 ++ d2 := by
  obtain ⟨a1, g1, g2⟩ := bind_ok_inv (f := fun a => (do let c ← Der.shallow r y; return a ++ c)) h
  obtain ⟨a2, g3, g4⟩ := bind_ok_inv g2
  injection g4 with g4
  exact ⟨a1, a2, g1, g3, g4.symm⟩

theorem write_record_inv {e : Bool} {fs : Fields} {v : fs.den} {D : Bytes} (h : write (.record e fs) v = .ok D) :
    ∃ d1 d2, writeDirect fs v = .ok d1 ∧ writeRest fs v = .ok d2 ∧ D = d1 ++ d2 := by
  obtain ⟨a1, g1, g2⟩ := bind_ok_inv h
  obtain ⟨a2, g3, g4⟩ := bind_ok_inv g2
  injection g4 with g4
  exact ⟨a1, a2, g1, g3, g4.symm⟩

/-- What `fieldOK` says of fields that are not offsets. -/
theorem fieldOK_part {e : Bool} {t : Ty} (h : fieldOK e t = true) (h1 : t.isOff = false) (h2 : t.isOffs = false) :
    partOK e t = true := by
  cases t <;> first | exact h | (simp [Ty.isOff] at h1; done) | (simp [Ty.isOffs] at h2; done)

theorem part_unmarked {t : Ty} (h : partOK false t = true) : hasOff t = false := by
  induction t using Ty.rec (motive_2 := fun _ => True) with
  | leaf c => rfl
  | counted w t ih => exact ih h
  | off w t => simp [partOK] at h
  | offs c w t => simp [partOK] at h
  | record emb fs =>
    simp only [partOK, Bool.and_eq_true] at h
    cases hf : hasOffF fs with
    | false => exact hf
    | true => simp [hf] at h
  | nil => trivial
  | cons => trivial

mutual
theorem place_end {Q : Width → Prop} : ∀ (t : Ty) (v : t.den) (base p : Nat) (D : Bytes), TyAll Sized Q t →
    (∀ e, partOK e t = true ∨ fieldOK e t = true ∨ tableOK t = true → write t (place t v base p).1 = .ok D →
      (place t v base p).2 = p + D.length)
  | .leaf c, v, base, p, D, ha, e, ho, hD => by cases hD; rfl
  | .counted w t, l, base, p, D, ha, e, ho, hD => by
    have ho' : partOK e t = true := by
      rcases ho with ho | ho | ho
      · exact ho
      · exact ho
      · simp [tableOK] at ho
    exact thread_end (fun x q E hE => place_end t x base q E ha e (.inl ho') hE) l p D hD
  | .off w t, l, base, p, D, ha, e, ho, hD => by cases hD; rfl
  | .offs c w t, l, base, p, D, ha, e, ho, hD => by
    have ho' : tableOK t = true := by
      rcases ho with ho | ho | ho
      · simp [partOK] at ho
      · exact ho
      · simp [tableOK] at ho
    exact thread_end (fun x q E hE => link_end
      (fun a p E hE => place_end t a p _ E ha.2 false (.inr (.inr ho')) hE)
      (fun a p s hs => by rw [own_len t _ s ha.2 ho' hs, size_place]) x base q E hE) l p D hD
  | .record emb fs, v, base, p, D, ha, e, ho, hD => by
    have ho' : fieldsOK fs = true := by
      simp only [partOK, fieldOK, tableOK, Bool.and_eq_true] at ho
      rcases ho with ho | ho | ho <;> exact ho.1
    obtain ⟨d1, d2, h1, h3, rfl⟩ := write_record_inv hD
    obtain ⟨e1, e2⟩ := fields_end fs v base p (placeDirect fs v base p).2 d1 d2 ha ho' h1 h3
    show (placeRest fs (placeDirect fs v base p).1 base (placeDirect fs v base p).2).2 = _
    rw [e2, e1, List.length_append]; omega
theorem here_end {Q : Width → Prop} : ∀ (t : Ty) (v : t.den) (base p : Nat) (D : Bytes), TyAll Sized Q t →
    ∀ e, fieldOK e t = true → writeHere t (placeHere t v base p).1 = .ok D → (placeHere t v base p).2 = p + D.length
  | .leaf c, v, base, p, D, ha, e, ho, hD => by cases hD; rfl
  | .counted w t, l, base, p, D, ha, e, ho, hD => by cases hD; rfl
  | .offs c w t, l, base, p, D, ha, e, ho, hD => by cases hD; rfl
  | .record emb fs, v, base, p, D, ha, e, ho, hD => by cases hD; rfl
  | .off w t, l, base, p, D, ha, e, ho, hD =>
    link_end (fun a p E hE => place_end t a p _ E ha.2 false (.inr (.inr ho)) hE)
      (fun a p s hs => by rw [own_len t _ s ha.2 ho hs, size_place]) l base p D hD
theorem fields_end {Q : Width → Prop} : ∀ (fs : Fields) (v : fs.den) (base p q : Nat) (D1 D2 : Bytes),
    FieldsAll Sized Q fs → fieldsOK fs = true →
    writeDirect fs (placeRest fs (placeDirect fs v base p).1 base q).1 = .ok D1 →
    writeRest fs (placeRest fs (placeDirect fs v base p).1 base q).1 = .ok D2 →
    (placeDirect fs v base p).2 = p + D1.length ∧ (placeRest fs (placeDirect fs v base p).1 base q).2 = q + D2.length
  | .nil, v, base, p, q, D1, D2, ha, ho, h1, h2 => by cases h1; cases h2; exact ⟨rfl, rfl⟩
  | .cons b e t r, (x, y), base, p, q, D1, D2, ha, ho, h1, h2 => by
    simp only [fieldsOK, Bool.and_eq_true] at ho
    rw [placeDirect_cons, placeRest_cons] at h1 h2 ⊢
    obtain ⟨a1, a2, g1, g2, rfl⟩ := writeDirect_inv h1
    obtain ⟨c1, c2, k1, k2, rfl⟩ := writeRest_inv h2
    obtain ⟨i1, i2⟩ := fields_end r y base _ _ a2 c2 ha.2 ho.2 g2 k2
    have j1 : (placeHere t x base p).2 = p + a1.length := by
      refine here_end t x base p a1 ha.1 e ho.1 ?_
      cases hx : t.isOff with
      | false =>
        have := (here_id hx (restOf e t (placeHere t x base p).1 base q).1).2
        rw [this] at g1
        rw [(here_id hx _).2, ← g1]
      | true =>
        cases t with
        | off w t => rw [(rest_id e w t _ base q).1] at g1; exact g1
        | leaf => simp [Ty.isOff] at hx
        | counted => simp [Ty.isOff] at hx
        | offs => simp [Ty.isOff] at hx
        | record => simp [Ty.isOff] at hx
    have j2 : (restOf e t (placeHere t x base p).1 base q).2 = q + c1.length := by
      cases hx : (e || t.isOffs) with
      | false =>
        simp only [restWrite, hx] at k1
        injection k1 with k1
        subst k1
        simp only [restOf, hx]; rfl
      | true =>
        simp only [restWrite, restOf, hx, if_true] at k1 ⊢
        exact place_end t _ base q c1 ha.1 e (.inr (.inl ho.1)) k1
    rw [i1, i2, j1, j2]
    simp only [List.length_append]
    omega
end

theorem thread_placed {α : Type} {B : Bytes} {f : α → Nat → α × Nat} {enc wr : α → Res Bytes} {sz : α → Nat}
    {P : α → Nat → Prop} {lim base : Nat} {C : Prop}
    (l : List α)
    (hend : ∀ x p D, wr (f x p).1 = .ok D → (f x p).2 = p + D.length)
    (h : ∀ x ∈ l, ∀ p pos s D, enc (f x p).1 = .ok s → wr (f x p).1 = .ok D → s <+: B.drop pos → D <+: B.drop p →
      (C → base < p) → p ≤ B.length → pos ≤ B.length → p + D.length ≤ lim → P x pos ∧ s.length = sz x) :
    ∀ p pos s D, encVecR enc (thread f l p).1 = .ok s → encVecR wr (thread f l p).1 = .ok D →
      s <+: B.drop pos → D <+: B.drop p → (C → base < p) → p ≤ B.length → pos ≤ B.length → p + D.length ≤ lim →
      PlacedL P sz l pos := by
  induction l with
  | nil =>
    intro p pos s D _ hD _ _ _ _ _ _
    trivial
  | cons a l ih =>
    intro p pos s D hs hD ps pD hb hp hpos hlim
    obtain ⟨s1, s2, a1, a2, rfl⟩ := encVecR_cons hs
    obtain ⟨d1, d2, b1, b2, rfl⟩ := encVecR_cons hD
    obtain ⟨q1, q2⟩ := prefix_drop_append ps
    obtain ⟨r1, r2⟩ := prefix_drop_append pD
    rw [List.length_append] at hlim
    obtain ⟨g1, g2⟩ := h a (by simp) p pos s1 d1 a1 b1 q1 r1 hb hp hpos (by omega)
    have g3 := hend a p d1 b1
    have e1 := prefix_len_le r1 hp
    have e2 := prefix_len_le q1 hpos
    rw [← g3] at r2
    have i1 := ih (fun x hx => h x (by simp [hx])) (f a p).2 (pos + s1.length) s2 d2 a2 b2 q2 r2 (fun c => by have := hb c; omega)
      (by omega) e2 (by omega)
    rw [g2] at i1
    exact ⟨g1, i1⟩

theorem link_placed {α : Type} {B : Bytes} {w : Width} {sz : α → Nat} {pl : α → Nat → Nat → α × Nat}
    {own wr : α → Res Bytes} {P : α → Nat → Nat → Prop} {lo M : Nat} (hw : Reach M w) {F : α → Prop}
    (hc : ∀ a p s E, F a → own (pl a p (p + sz a)).1 = .ok s → wr (pl a p (p + sz a)).1 = .ok E → s <+: B.drop p →
      E <+: B.drop (p + sz a) → p ≤ B.length → lo ≤ p → p + sz a + E.length ≤ lo + M → P a p p)
    (hlen : ∀ a p s, own (pl a p (p + sz a)).1 = .ok s → s.length = sz a)
    (l : Link α) (hl : FitsLink F l) (base p pos : Nat) (s D : Bytes)
    (hs : encLink w (placeLink w sz pl l base p).1 = .ok s)
    (hD : writeLink own wr (placeLink w sz pl l base p).1 = .ok D)
    (ps : s <+: B.drop pos) (pD : D <+: B.drop p) (hb : base < p) (hlo : lo ≤ base) (hp : p ≤ B.length)
    (hM : p + D.length ≤ lo + M) :
    PlacedLink B w P l base pos := by
  obtain ⟨off, link⟩ := l
  cases link with
  | none =>
    have h0 : off = some 0 := hl
    subst h0
    have hs : Res.ok (w.enc 0) = Res.ok s := hs
    injection hs with hs
    subst hs
    exact ps
  | some a =>
    simp only [placeLink] at hs hD ⊢
    obtain ⟨x, h1, h2⟩ := bind_ok_inv hD
    obtain ⟨y, h3, h4⟩ := bind_ok_inv h2
    injection h4 with h4
    subst h4
    have e1 := hlen a p x h1
    obtain ⟨r1, r2⟩ := prefix_drop_append pD
    rw [e1] at r2
    rw [List.length_append] at hM
    have g1 := hc a p x y hl h1 h3 r1 r2 hp (by omega) (by omega)
    by_cases hfit : p - base ≤ w.max
    · simp only [encLink, hfit, if_true] at hs
      injection hs with hs
      subst hs
      refine ⟨p - base, by omega, hfit, ?_, ps, by omega, ?_⟩
      · rcases hw with rfl | hw
        · exact hfit
        · omega
      · rw [show base + (p - base) = p by omega]; exact g1
    · simp only [encLink, hfit, if_false] at hs
      cases hs

theorem record_shallow {emb e : Bool} {fs : Fields} {v : fs.den} {s : Bytes} (h : Der.toBytes (.record emb fs) v = .ok s)
    (ho : partOK e (.record emb fs) = true) : Der.shallow fs v = .ok s := by
  simp only [partOK, Bool.and_eq_true] at ho
  simp only [Der.toBytes] at h
  cases hf : hasOffF fs with
  | true =>
    simp only [hf, if_true, Bool.and_eq_true] at ho
    rw [if_pos (by simp [ho.2.1.1])] at h
    exact h
  | false =>
    rw [if_pos (by simp [(noOffF fs v hf).1])] at h
    exact h

theorem restOf_eq {e : Bool} {t : Ty} (h : fieldOK e t = true) (x : t.den) (base q : Nat) :
    restOf e t x base q = place t x base q ∧ restWrite e t x = write t x := by
  cases hx : (e || t.isOffs) with
  | true => simp only [restOf, restWrite, hx, if_true, and_self]
  | false =>
    simp only [restOf, restWrite, hx]
    simp only [Bool.or_eq_false_iff] at hx
    cases ho : t.isOff with
    | true => cases t <;> first | exact ⟨rfl, rfl⟩ | simp [Ty.isOff] at ho
    | false =>
      have hp := fieldOK_part h ho hx.2
      rw [hx.1] at hp
      have := noOff t x (part_unmarked hp)
      rw [this.2.1, this.2.2]
      exact ⟨rfl, rfl⟩

theorem counted_step {B : Bytes} {lo M : Nat} {w : Width} {t : Ty} {base : Nat}
    (hend : ∀ x p D, write t (place t x base p).1 = .ok D → (place t x base p).2 = p + D.length)
    (hlen : ∀ x s, Der.toBytes t x = .ok s → s.length = Der.size t x)
    (ih : ∀ (v : t.den) (p pos : Nat) (s D : Bytes), Fits t v → Der.toBytes t (place t v base p).1 = .ok s →
      write t (place t v base p).1 = .ok D → s <+: B.drop pos → D <+: B.drop p → (hasOff t = true → base < p) →
      p ≤ B.length → pos ≤ B.length → p + D.length ≤ lo + M → PlacedAt B t v base pos)
    (l : List t.den) (p pos : Nat) (s D : Bytes) (hf : Fits (.counted w t) l)
    (hs : Der.toBytes (.counted w t) (place (.counted w t) l base p).1 = .ok s)
    (hD : write (.counted w t) (place (.counted w t) l base p).1 = .ok D) (ps : s <+: B.drop pos) (pD : D <+: B.drop p)
    (hb : hasOff t = true → base < p) (hp : p ≤ B.length) (hpos : pos ≤ B.length) (hM : p + D.length ≤ lo + M) :
    PlacedAt B (.counted w t) l base pos := by
  obtain ⟨x, h1, h2⟩ := bind_ok_inv hs
  injection h2 with h2
  subst h2
  have hl : ((place (.counted w t) l base p).1 : List t.den).length = l.length :=
    (thread_sizes _ (fun _ => 0) (fun _ _ => rfl) l p).2
  rw [hl] at ps
  obtain ⟨q1, q2⟩ := prefix_drop_append ps
  have q3 := prefix_len_le q1 hpos
  rw [enc_length] at q2 q3
  refine ⟨q1, ?_⟩
  exact thread_placed l hend (fun y hy p' pos' s' D' k1 k2 k3 k4 k5 k6 k7 k8 =>
    ⟨ih y p' pos' s' D' (hf.2 y hy) k1 k2 k3 k4 k5 k6 k7 k8, by rw [hlen _ s' k1, size_place]⟩)
    p (pos + w.size) x D h1 hD q2 pD hb hp q3 hM

theorem record_step {B : Bytes} {lo M : Nat} {emb : Bool} {fs : Fields} {base : Nat} (ha : FieldsAll Sized (Reach M) fs)
    (ho : fieldsOK fs = true)
    (ih : ∀ (v : fs.den) (p q pos : Nat) (s D1 D2 : Bytes), FitsF fs v →
      Der.shallow fs (placeRest fs (placeDirect fs v base p).1 base q).1 = .ok s →
      writeDirect fs (placeRest fs (placeDirect fs v base p).1 base q).1 = .ok D1 →
      writeRest fs (placeRest fs (placeDirect fs v base p).1 base q).1 = .ok D2 →
      s <+: B.drop pos → D1 <+: B.drop p → D2 <+: B.drop q → (hasOffF fs = true → base < p) →
      (hasOffF fs = true → base < q) → p ≤ B.length → q ≤ B.length → pos ≤ B.length →
      p + D1.length ≤ lo + M → q + D2.length ≤ lo + M → PlacedF B fs v base pos)
    (v : fs.den) (p pos : Nat) (s D : Bytes) (hf : FitsF fs v)
    (hs : Der.shallow fs (place (.record emb fs) v base p).1 = .ok s)
    (hD : write (.record emb fs) (place (.record emb fs) v base p).1 = .ok D) (ps : s <+: B.drop pos)
    (pD : D <+: B.drop p)
    (hb : hasOffF fs = true → base < p) (hp : p ≤ B.length) (hpos : pos ≤ B.length) (hM : p + D.length ≤ lo + M) :
    PlacedF B fs v base pos := by
  obtain ⟨d1, d2, h1, h3, rfl⟩ := write_record_inv hD
  obtain ⟨e1, e2⟩ := fields_end fs v base p (placeDirect fs v base p).2 d1 d2 ha ho h1 h3
  obtain ⟨r1, r2⟩ := prefix_drop_append pD
  have r3 := prefix_len_le r1 hp
  rw [List.length_append] at hM
  rw [← e1] at r2 r3
  exact ih v p (placeDirect fs v base p).2 pos s d1 d2 hf hs h1 h3 ps r1 r2 hb (fun c => by have := hb c; omega) hp r3
    hpos (by omega) (by omega)

mutual
theorem part_placed {B : Bytes} {lo M : Nat} : ∀ (t : Ty) (e : Bool) (v : t.den) (base p pos : Nat) (s D : Bytes),
    TyAll Sized (Reach M) t → partOK e t = true → Fits t v → Der.toBytes t (place t v base p).1 = .ok s →
    write t (place t v base p).1 = .ok D → s <+: B.drop pos → D <+: B.drop p → (hasOff t = true → base < p) →
    lo ≤ base → p ≤ B.length → pos ≤ B.length → p + D.length ≤ lo + M → PlacedAt B t v base pos
  | .leaf c, e, v, base, p, pos, s, D, ha, ho, hf, hs, hD, ps, pD, hb, hlo, hp, hpos, hM => ⟨hpos, s, hs, ps⟩
  | .counted w t, e, v, base, p, pos, s, D, ha, ho, hf, hs, hD, ps, pD, hb, hlo, hp, hpos, hM =>
    counted_step (lo := lo) (M := M) (fun x p D h => place_end t x base p D ha e (.inl ho) h)
      (fun x s h => part_len t e x s ha ho h)
      (fun v p pos s D g1 g2 g3 g4 g5 g6 g7 g8 g9 =>
        part_placed t e v base p pos s D ha ho g1 g2 g3 g4 g5 g6 hlo g7 g8 g9)
      v p pos s D hf hs hD ps pD hb hp hpos hM
  | .off w t, e, v, base, p, pos, s, D, ha, ho, hf, hs, hD, ps, pD, hb, hlo, hp, hpos, hM => by simp [partOK] at ho
  | .offs c w t, e, v, base, p, pos, s, D, ha, ho, hf, hs, hD, ps, pD, hb, hlo, hp, hpos, hM => by simp [partOK] at ho
  | .record emb fs, e, v, base, p, pos, s, D, ha, ho, hf, hs, hD, ps, pD, hb, hlo, hp, hpos, hM => by
    have hs' := record_shallow hs ho
    have ho' : fieldsOK fs = true := by simp only [partOK, Bool.and_eq_true] at ho; exact ho.1
    exact record_step (emb := emb) ha ho'
      (fun v p q pos s D1 D2 g1 g2 g3 g4 g5 g6 g7 g8 g9 g10 g11 g12 g13 g14 =>
        fields_placed fs v base p q pos s D1 D2 ha ho' g1 g2 g3 g4 g5 g6 g7 g8 g9 hlo g10 g11 g12 g13 g14)
      v p pos s D hf hs' hD ps pD hb hp hpos hM
theorem table_placed {B : Bytes} {lo M : Nat} : ∀ (t : Ty) (v : t.den) (p : Nat) (s D : Bytes),
    TyAll Sized (Reach M) t → tableOK t = true → Fits t v → own t (place t v p (p + Der.size t v)).1 = .ok s →
    write t (place t v p (p + Der.size t v)).1 = .ok D → s <+: B.drop p → D <+: B.drop (p + Der.size t v) →
    lo ≤ p → p ≤ B.length → p + Der.size t v + D.length ≤ lo + M → PlacedAt B t v p p
  | .leaf c, v, p, s, D, ha, ho, hf, hs, hD, ps, pD, hlo, hp, hM => ⟨hp, s, hs, ps⟩
  | .counted w t, v, p, s, D, ha, ho, hf, hs, hD, ps, pD, hlo, hp, hM => by simp [tableOK] at ho
  | .off w t, v, p, s, D, ha, ho, hf, hs, hD, ps, pD, hlo, hp, hM => by simp [tableOK] at ho
  | .offs c w t, v, p, s, D, ha, ho, hf, hs, hD, ps, pD, hlo, hp, hM => by simp [tableOK] at ho
  | .record emb fs, v, p, s, D, ha, ho, hf, hs, hD, ps, pD, hlo, hp, hM => by
    have hlen := own_len _ _ s ha ho hs
    have ho' : fieldsOK fs = true := by simp only [tableOK, Bool.and_eq_true] at ho; exact ho.1
    rw [size_place] at hlen
    have h3 := prefix_len_le ps hp
    rw [hlen] at h3
    exact record_step (emb := emb) ha ho'
      (fun v p' q pos s D1 D2 g1 g2 g3 g4 g5 g6 g7 g8 g9 g10 g11 g12 g13 g14 =>
        fields_placed fs v p p' q pos s D1 D2 ha ho' g1 g2 g3 g4 g5 g6 g7 g8 g9 hlo g10 g11 g12 g13 g14)
      v _ p s D hf hs hD ps pD (fun c => by
        have := hasOffF_pos fs v c
        show p < p + sizeF fs v
        omega) h3 hp hM
theorem field_placed {B : Bytes} {lo M : Nat} : ∀ (t : Ty) (e : Bool) (v : t.den) (base p q pos : Nat) (s D1 D2 : Bytes),
    TyAll Sized (Reach M) t → fieldOK e t = true → Fits t v →
    Der.toBytes t (place t (placeHere t v base p).1 base q).1 = .ok s →
    writeHere t (place t (placeHere t v base p).1 base q).1 = .ok D1 →
    write t (place t (placeHere t v base p).1 base q).1 = .ok D2 →
    s <+: B.drop pos → D1 <+: B.drop p → D2 <+: B.drop q → (hasOff t = true → base < p) → (hasOff t = true → base < q) →
    lo ≤ base → p ≤ B.length → q ≤ B.length → pos ≤ B.length →
    p + D1.length ≤ lo + M → q + D2.length ≤ lo + M → PlacedAt B t v base pos
  | .leaf c, e, v, base, p, q, pos, s, D1, D2, ha, ho, hf, hs, hD1, hD2, ps, p1, p2, hb1, hb2, hlo, hp, hq, hpos, hM1, hM2 =>
    ⟨hpos, s, hs, ps⟩
  | .counted w t, e, v, base, p, q, pos, s, D1, D2, ha, ho, hf, hs, hD1, hD2, ps, p1, p2, hb1, hb2, hlo, hp, hq, hpos, hM1, hM2 =>
    counted_step (lo := lo) (M := M) (fun x p D h => place_end t x base p D ha e (.inl ho) h)
      (fun x s h => part_len t e x s ha ho h)
      (fun v p pos s D g1 g2 g3 g4 g5 g6 g7 g8 g9 =>
        part_placed t e v base p pos s D ha ho g1 g2 g3 g4 g5 g6 hlo g7 g8 g9)
      v q pos s D2 hf hs hD2 ps p2 hb2 hq hpos hM2
  | .off w t, e, v, base, p, q, pos, s, D1, D2, ha, ho, hf, hs, hD1, hD2, ps, p1, p2, hb1, hb2, hlo, hp, hq, hpos, hM1, hM2 =>
    link_placed (own := own t) (wr := write t) (lo := lo) (M := M) ha.1 (F := Fits t)
      (fun a p s E g1 g2 g3 g4 g5 g6 g7 g8 => table_placed t a p s E ha.2 ho g1 g2 g3 g4 g5 g7 g6 g8)
      (fun a p s hs => by rw [own_len t _ s ha.2 ho hs, size_place]) v hf base p pos s D1 hs hD1 ps p1 (hb1 rfl) hlo hp hM1
  | .offs c w t, e, v, base, p, q, pos, s, D1, D2, ha, ho, hf, hs, hD1, hD2, ps, p1, p2, hb1, hb2, hlo, hp, hq, hpos, hM1, hM2 => by
    obtain ⟨x, h1, h2⟩ := bind_ok_inv hs
    injection h2 with h2
    subst h2
    have hl : ((place (.offs c w t) v base q).1 : List (Link t.den)).length = (v : List (Link t.den)).length :=
      (thread_sizes _ (fun _ => 0) (fun _ _ => rfl) (v : List (Link t.den)) q).2
    have hl' : ((place (.offs c w t) (placeHere (.offs c w t) v base p).1 base q).1 : List (Link t.den)).length =
      (v : List (Link t.den)).length := hl
    rw [hl'] at ps
    obtain ⟨q1, q2⟩ := prefix_drop_append ps
    have q3 := prefix_len_le q1 hpos
    rw [enc_length] at q2 q3
    refine ⟨q1, ?_⟩
    exact thread_placed (C := True) (v : List (Link t.den)) (fun x q E hE => link_end
        (fun a p E hE => place_end t a p _ E ha.2 false (.inr (.inr ho)) hE)
        (fun a p s hs => by rw [own_len t _ s ha.2 ho hs, size_place]) x base q E hE)
      (fun y hy p' pos' s' D' k1 k2 k3 k4 k5 k6 k7 k8 =>
        ⟨link_placed (own := own t) (wr := write t) (lo := lo) (M := M) ha.1 (F := Fits t)
          (fun a p s E g1 g2 g3 g4 g5 g6 g7 g8 => table_placed t a p s E ha.2 ho g1 g2 g3 g4 g5 g7 g6 g8)
          (fun a p s hs => by rw [own_len t _ s ha.2 ho hs, size_place]) y (hf.2 y hy) base p' pos' s' D' k1 k2 k3 k4
            (k5 trivial) hlo k6 k8, encLink_len k1⟩)
      q (pos + c.size) x D2 h1 hD2 q2 p2 (fun _ => hb2 rfl) hq q3 hM2
  | .record emb fs, e, v, base, p, q, pos, s, D1, D2, ha, ho, hf, hs, hD1, hD2, ps, p1, p2, hb1, hb2, hlo, hp, hq, hpos, hM1, hM2 => by
    have hs' := record_shallow (e := e) hs ho
    have ho' : fieldsOK fs = true := by simp only [fieldOK, Bool.and_eq_true] at ho; exact ho.1
    exact record_step (emb := emb) ha ho'
      (fun v p q pos s D1 D2 g1 g2 g3 g4 g5 g6 g7 g8 g9 g10 g11 g12 g13 g14 =>
        fields_placed fs v base p q pos s D1 D2 ha ho' g1 g2 g3 g4 g5 g6 g7 g8 g9 hlo g10 g11 g12 g13 g14)
      v q pos s D2 hf hs' hD2 ps p2 hb2 hq hpos hM2
theorem fields_placed {B : Bytes} {lo M : Nat} : ∀ (fs : Fields) (v : fs.den) (base p q pos : Nat) (s D1 D2 : Bytes),
    FieldsAll Sized (Reach M) fs → fieldsOK fs = true → FitsF fs v →
    Der.shallow fs (placeRest fs (placeDirect fs v base p).1 base q).1 = .ok s →
    writeDirect fs (placeRest fs (placeDirect fs v base p).1 base q).1 = .ok D1 →
    writeRest fs (placeRest fs (placeDirect fs v base p).1 base q).1 = .ok D2 →
    s <+: B.drop pos → D1 <+: B.drop p → D2 <+: B.drop q → (hasOffF fs = true → base < p) →
    (hasOffF fs = true → base < q) → lo ≤ base → p ≤ B.length → q ≤ B.length → pos ≤ B.length →
    p + D1.length ≤ lo + M → q + D2.length ≤ lo + M → PlacedF B fs v base pos
  | .nil, v, base, p, q, pos, s, D1, D2, ha, ho, hf, hs, hD1, hD2, ps, p1, p2, hb1, hb2, hlo, hp, hq, hpos, hM1, hM2 => trivial
  | .cons b e t r, (x, y), base, p, q, pos, s, D1, D2, ha, ho, hf, hs, hD1, hD2, ps, p1, p2, hb1, hb2, hlo, hp, hq, hpos, hM1, hM2 => by
    simp only [fieldsOK, Bool.and_eq_true] at ho
    rw [placeDirect_cons, placeRest_cons] at hs hD1 hD2
    obtain ⟨s1, s2, f1, f2, rfl⟩ := shallow_inv hs
    obtain ⟨a1, a2, g1, g2, rfl⟩ := writeDirect_inv hD1
    obtain ⟨c1, c2, k1, k2, rfl⟩ := writeRest_inv hD2
    simp only [(restOf_eq ho.1 _ base q).1, (restOf_eq ho.1 _ base q).2] at f1 f2 g1 g2 k1 k2
    obtain ⟨x1, x2⟩ := prefix_drop_append ps
    obtain ⟨y1, y2⟩ := prefix_drop_append p1
    obtain ⟨z1, z2⟩ := prefix_drop_append p2
    have x3 := prefix_len_le x1 hpos
    have y3 := prefix_len_le y1 hp
    have z3 := prefix_len_le z1 hq
    rw [List.length_append] at hM1 hM2
    have hs1 : s1.length = Der.size t x := by
      rw [field_len t e _ s1 ha.1 ho.1 f1, size_place]
      cases t <;> rfl
    have j1 : (placeHere t x base p).2 = p + a1.length := by
      refine here_end t x base p a1 ha.1 e ho.1 ?_
      cases hx : t.isOff with
      | false =>
        rw [(here_id hx (place t (placeHere t x base p).1 base q).1).2] at g1
        rw [(here_id hx _).2, ← g1]
      | true =>
        cases t with
        | off w t => exact g1
        | leaf => simp [Ty.isOff] at hx
        | counted => simp [Ty.isOff] at hx
        | offs => simp [Ty.isOff] at hx
        | record => simp [Ty.isOff] at hx
    have j2 : (place t (placeHere t x base p).1 base q).2 = q + c1.length :=
      place_end t _ base q c1 ha.1 e (.inr (.inl ho.1)) k1
    have hb1' : hasOff t = true → base < p := fun c => hb1 (by simp [hasOffF, c])
    have hb2' : hasOff t = true → base < q := fun c => hb2 (by simp [hasOffF, c])
    have hc1 : hasOffF r = true → base < p := fun c => hb1 (by simp [hasOffF, c])
    have hc2 : hasOffF r = true → base < q := fun c => hb2 (by simp [hasOffF, c])
    refine ⟨field_placed t e x base p q pos s1 a1 c1 ha.1 ho.1 hf.1 f1 g1 k1 x1 y1 z1 hb1' hb2' hlo hp hq hpos (by omega)
      (by omega), ?_⟩
    rw [j1, j2] at f2 g2 k2
    rw [← hs1]
    exact fields_placed r y base (p + a1.length) (q + c1.length) (pos + s1.length) s2 a2 c2 ha.2 ho.2 hf.2 f2 g2 k2 x2 y2 z2
      (fun c => by have := hc1 c; omega) (fun c => by have := hc2 c; omega) hlo y3 z3 x3 (by omega) (by omega)
end

/-! ### Reading -/

theorem readWidth_at {w : Width} {n : Nat} {B : Bytes} {pos : Nat} (h : w.enc n <+: B.drop pos) (hn : n ≤ w.max)
    (stk : List Nat) : readWidth w ⟨B, pos, stk⟩ = .ok (n, ⟨B, pos + w.size, stk⟩) := by
  cases w with
  | w16 =>
    have e := reads_of_prefix' (readWidth16 (UInt16.ofNat n)) h stk (by simp)
    rw [ofNat16_toNat hn] at e
    exact e
  | w32 =>
    have e := reads_of_prefix' (readWidth32 (UInt32.ofNat n)) h stk (by simp)
    rw [ofNat32_toNat hn] at e
    exact e

theorem readList_at {α : Type} {rd : Reader α} {B : Bytes} {stk : List Nat} {P : α → Nat → Prop} {sz : α → Nat}
    {R : α → α → Prop} :
    ∀ (l : List α) (pos : Nat), (∀ x ∈ l, ∀ pos, P x pos →
      ∃ y, rd ⟨B, pos, stk⟩ = .ok (y, ⟨B, pos + sz x, stk⟩) ∧ R x y) → PlacedL P sz l pos →
    ∃ m, deCounted rd l.length ⟨B, pos, stk⟩ = .ok (m, ⟨B, pos + (l.map sz).sum, stk⟩) ∧ SameL R l m
  | [], pos, _, _ => ⟨[], rfl, trivial⟩
  | a :: l, pos, h, hp => by
    obtain ⟨y, h1, h2⟩ := h a (by simp) pos hp.1
    obtain ⟨m, h3, h4⟩ := readList_at l (pos + sz a) (fun x hx => h x (by simp [hx])) hp.2
    refine ⟨y :: m, ?_, h2, h4⟩
    show (rd >>= fun a => _) _ = _
    rw [bind_run, h1]
    show (deCounted rd l.length >>= fun a => _) _ = _
    rw [bind_run, h3]
    simp only [List.map_cons, List.sum_cons]
    rw [← Nat.add_assoc]; rfl

theorem sameL_split {α : Type} {R : α → α → Prop} {F : α → Prop} : ∀ (l m : List α), SameL (fun x y => R x y ∧ F y) l m →
    SameL R l m ∧ (∀ y ∈ m, F y) ∧ m.length = l.length
  | [], [], _ => ⟨trivial, (fun _ h => absurd h (List.not_mem_nil)), rfl⟩
  | a :: l, b :: m, h => by
    obtain ⟨h1, h2, h3⟩ := sameL_split l m h.2
    refine ⟨⟨h.1.1, h1⟩, fun y hy => ?_, by simp [h3]⟩
    rcases List.mem_cons.1 hy with rfl | hy
    · exact h.1.2
    · exact h2 y hy
  | [], b :: m, h => by cases h
  | a :: l, [], h => by cases h

theorem readLink_at {α : Type} {rd : Reader α} {B : Bytes} {base : Nat} {tl : List Nat} {w : Width}
    {P : α → Nat → Nat → Prop} {R : α → α → Prop} {F : α → Prop}
    (h : ∀ a p, F a → P a p p → p ≤ B.length → ∃ y ptr, rd ⟨B, p, base :: tl⟩ = .ok (y, ⟨B, ptr, base :: tl⟩) ∧ R a y ∧ F y)
    (l : Link α) (hf : FitsLink F l) (pos : Nat) (hp : PlacedLink B w P l base pos) :
    ∃ m, readLink w rd ⟨B, pos, base :: tl⟩ = .ok (m, ⟨B, pos + w.size, base :: tl⟩) ∧ SameLink R l m ∧ FitsLink F m := by
  obtain ⟨off, link⟩ := l
  cases link with
  | none =>
    refine ⟨⟨some 0, none⟩, ?_, trivial, rfl⟩
    unfold readLink
    rw [bind_run, readWidth_at hp (Nat.zero_le _)]
    rfl
  | some a =>
    obtain ⟨n, h1, h2, h3, h4, h5, h6⟩ := hp
    obtain ⟨y, ptr, g1, g2⟩ := h a _ hf h6 h5
    refine ⟨⟨some n, some y⟩, ?_, g2⟩
    unfold readLink
    rw [bind_run, readWidth_at h4 h2]
    show (if n = 0 then _ else _ : Reader _) _ = _
    rw [if_neg (by omega), if_neg (by omega), bind_run]
    show (followOffset (UInt16.ofNat n) >>= _) _ = _
    have e : base + (UInt16.ofNat n).toNat = base + n := by rw [ofNat16_toNat h3]
    rw [bind_run, followOffset_ok (by rw [e]; exact h5), e]
    show (rd >>= _) _ = _
    rw [bind_run, g1]
    rfl

theorem unbased_anyBase : ∀ {fs : Fields}, unbased fs = true → fs.anyBase = false
  | .nil, _ => rfl
  | .cons b e t r, h => by
    simp only [unbased, Bool.and_eq_true, Bool.not_eq_true'] at h
    simp [Fields.anyBase, h.1, unbased_anyBase h.2]

theorem based_anyBase : ∀ {fs : Fields}, based fs = true → fs.anyBase = true
  | .nil, h => by simp [based] at h
  | .cons b e t r, h => by
    simp only [based, Bool.and_eq_true] at h
    simp [Fields.anyBase, h.1]

/-- Where the offsets of a structure at `pos` are counted from when it is read. -/
def BaseOK (fs : Fields) (base pos : Nat) (stk : List Nat) : Prop :=
  (unbased fs = true ∧ (hasOffF fs = true → ∃ tl, stk = base :: tl)) ∨ (based fs = true ∧ (hasOffF fs = true → base = pos))

theorem readRecord {emb : Bool} {fs : Fields} {B : Bytes} {base pos n : Nat} {stk : List Nat} {v : fs.den}
    (h : readF fs ⟨B, pos, stk⟩ = .ok (v, ⟨B, n, if fs.anyBase then pos :: stk else stk⟩)) :
    read (.record emb fs) ⟨B, pos, stk⟩ = .ok (v, ⟨B, n, stk⟩) := by
  show (readF fs >>= _) _ = _
  rw [bind_run, h]
  cases fs.anyBase <;> rfl

theorem baseOK_part {e emb : Bool} {fs : Fields} {base pos : Nat} {stk : List Nat}
    (ho : partOK e (.record emb fs) = true) (hs : hasOffF fs = true → ∃ tl, stk = base :: tl) :
    BaseOK fs base pos stk := by
  simp only [partOK, Bool.and_eq_true] at ho
  cases hf : hasOffF fs with
  | true =>
    simp only [hf, if_true, Bool.and_eq_true] at ho
    exact .inl ⟨ho.2.2, hs⟩
  | false =>
    simp only [hf, Bool.false_eq_true, if_false, Bool.or_eq_true] at ho
    rcases ho.2 with h | h
    · exact .inl ⟨h, hs⟩
    · exact .inr ⟨h, fun c => by rw [hf] at c; cases c⟩

mutual
theorem read_part {B : Bytes} {Q : Width → Prop} : ∀ (t : Ty) (e : Bool) (v : t.den) (base pos : Nat) (stk : List Nat),
    TyAll Sized Q t → partOK e t = true → Fits t v → PlacedAt B t v base pos →
    (hasOff t = true → ∃ tl, stk = base :: tl) →
    ∃ v', read t ⟨B, pos, stk⟩ = .ok (v', ⟨B, pos + Der.size t v, stk⟩) ∧ Same t v v' ∧ Fits t v'
  | .leaf c, e, v, base, pos, stk, ha, ho, hf, hp, hs => by
    obtain ⟨bs, h1, h2⟩ := hf
    obtain ⟨g1, bs', g2, g3⟩ := hp
    obtain rfl : bs = bs' := by rw [h1] at g2; injection g2
    refine ⟨v, ?_, rfl, bs, h1, h2⟩
    rw [show Der.size (.leaf c) v = bs.length from (ha v bs h1).symm]
    exact reads_of_prefix h2 g3 g1 stk
  | .counted w t, e, v, base, pos, stk, ha, ho, hf, hp, hs => by
    obtain ⟨m, h1, h2⟩ := readList_at (sz := Der.size t) (R := fun x y => Same t x y ∧ Fits t y) (v : List t.den) _
      (fun x hx q hq => read_part t e x base q stk ha ho (hf.2 x hx) hq hs) hp.2
    obtain ⟨k1, k2, k3⟩ := sameL_split _ _ h2
    refine ⟨m, ?_, k1, by rw [k3]; exact hf.1, k2⟩
    show (readWidth w >>= _) _ = _
    rw [bind_run, readWidth_at hp.1 hf.1]
    show deCounted _ _ _ = _
    rw [h1]
    simp only [Der.size, Nat.add_assoc]
  | .off w t, e, v, base, pos, stk, ha, ho, hf, hp, hs => by simp [partOK] at ho
  | .offs c w t, e, v, base, pos, stk, ha, ho, hf, hp, hs => by simp [partOK] at ho
  | .record emb fs, e, v, base, pos, stk, ha, ho, hf, hp, hs => by
    have ho' : fieldsOK fs = true := by simp only [partOK, Bool.and_eq_true] at ho; exact ho.1
    obtain ⟨v', h1, h2⟩ := read_fields fs v base pos stk ha ho' hf hp (baseOK_part ho hs)
    exact ⟨v', readRecord (base := base) h1, h2⟩
theorem read_table {B : Bytes} {Q : Width → Prop} : ∀ (t : Ty) (v : t.den) (p : Nat) (stk : List Nat),
    TyAll Sized Q t → tableOK t = true → Fits t v → PlacedAt B t v p p →
    ∃ v' ptr, read t ⟨B, p, stk⟩ = .ok (v', ⟨B, ptr, stk⟩) ∧ Same t v v' ∧ Fits t v'
  | .leaf c, v, p, stk, ha, ho, hf, hp => by
    obtain ⟨bs, h1, h2⟩ := hf
    obtain ⟨g1, bs', g2, g3⟩ := hp
    obtain rfl : bs = bs' := by rw [h1] at g2; injection g2
    exact ⟨v, _, reads_of_prefix h2 g3 g1 stk, rfl, bs, h1, h2⟩
  | .counted w t, v, p, stk, ha, ho, hf, hp => by simp [tableOK] at ho
  | .off w t, v, p, stk, ha, ho, hf, hp => by simp [tableOK] at ho
  | .offs c w t, v, p, stk, ha, ho, hf, hp => by simp [tableOK] at ho
  | .record emb fs, v, p, stk, ha, ho, hf, hp => by
    simp only [tableOK, Bool.and_eq_true, Bool.or_eq_true, Bool.not_eq_true'] at ho
    have hb : BaseOK fs p p stk := by
      rcases ho.2 with h | h
      · exact .inr ⟨h, fun _ => rfl⟩
      · exact .inl ⟨h.1, fun c => by rw [h.2] at c; cases c⟩
    obtain ⟨v', h1, h2⟩ := read_fields fs v p p stk ha ho.1 hf hp hb
    exact ⟨v', _, readRecord (base := p) h1, h2⟩
theorem read_field {B : Bytes} {Q : Width → Prop} : ∀ (t : Ty) (e : Bool) (v : t.den) (base pos : Nat) (stk : List Nat),
    TyAll Sized Q t → fieldOK e t = true → Fits t v → PlacedAt B t v base pos →
    (hasOff t = true → ∃ tl, stk = base :: tl) →
    ∃ v', read t ⟨B, pos, stk⟩ = .ok (v', ⟨B, pos + Der.size t v, stk⟩) ∧ Same t v v' ∧ Fits t v'
  | .leaf c, e, v, base, pos, stk, ha, ho, hf, hp, hs => by
    obtain ⟨bs, h1, h2⟩ := hf
    obtain ⟨g1, bs', g2, g3⟩ := hp
    obtain rfl : bs = bs' := by rw [h1] at g2; injection g2
    refine ⟨v, ?_, rfl, bs, h1, h2⟩
    rw [show Der.size (.leaf c) v = bs.length from (ha v bs h1).symm]
    exact reads_of_prefix h2 g3 g1 stk
  | .counted w t, e, v, base, pos, stk, ha, ho, hf, hp, hs => by
    obtain ⟨m, h1, h2⟩ := readList_at (sz := Der.size t) (R := fun x y => Same t x y ∧ Fits t y) (v : List t.den) _
      (fun x hx q hq => read_part t e x base q stk ha ho (hf.2 x hx) hq hs) hp.2
    obtain ⟨k1, k2, k3⟩ := sameL_split _ _ h2
    refine ⟨m, ?_, k1, by rw [k3]; exact hf.1, k2⟩
    show (readWidth w >>= _) _ = _
    rw [bind_run, readWidth_at hp.1 hf.1]
    show deCounted _ _ _ = _
    rw [h1]
    simp only [Der.size, Nat.add_assoc]
  | .off w t, e, v, base, pos, stk, ha, ho, hf, hp, hs => by
    obtain ⟨tl, rfl⟩ := hs rfl
    obtain ⟨m, h1, h2⟩ := readLink_at (F := Fits t) (R := Same t)
      (fun a p h1 h2 _ => read_table t a p _ ha.2 ho h1 h2) v hf pos hp
    exact ⟨m, h1, h2⟩
  | .offs c w t, e, v, base, pos, stk, ha, ho, hf, hp, hs => by
    obtain ⟨tl, rfl⟩ := hs rfl
    obtain ⟨m, h1, h2⟩ := readList_at (sz := fun _ => w.size)
      (R := fun x y => SameLink (Same t) x y ∧ FitsLink (Fits t) y) (v : List (Link t.den)) _
      (fun x hx q hq => readLink_at (F := Fits t) (R := Same t)
        (fun a p h1 h2 _ => read_table t a p _ ha.2 ho h1 h2) x (hf.2 x hx) q hq)
      hp.2
    obtain ⟨k1, k2, k3⟩ := sameL_split _ _ h2
    refine ⟨m, ?_, k1, by rw [k3]; exact hf.1, k2⟩
    show (readWidth c >>= _) _ = _
    rw [bind_run, readWidth_at hp.1 hf.1]
    show deCounted _ _ _ = _
    rw [h1]
    simp only [Der.size, Nat.add_assoc]
  | .record emb fs, e, v, base, pos, stk, ha, ho, hf, hp, hs => by
    have ho' : fieldsOK fs = true := by simp only [fieldOK, Bool.and_eq_true] at ho; exact ho.1
    obtain ⟨v', h1, h2⟩ := read_fields fs v base pos stk ha ho' hf hp (baseOK_part (e := e) (emb := emb) ho hs)
    exact ⟨v', readRecord (base := base) h1, h2⟩
theorem read_fields {B : Bytes} {Q : Width → Prop} : ∀ (fs : Fields) (v : fs.den) (base pos : Nat) (stk : List Nat),
    FieldsAll Sized Q fs → fieldsOK fs = true → FitsF fs v → PlacedF B fs v base pos → BaseOK fs base pos stk →
    ∃ v', readF fs ⟨B, pos, stk⟩ = .ok (v', ⟨B, pos + sizeF fs v, if fs.anyBase then pos :: stk else stk⟩) ∧ SameF fs v v' ∧ FitsF fs v'
  | .nil, v, base, pos, stk, ha, ho, hf, hp, hb => ⟨(), rfl, trivial, trivial⟩
  | .cons b e t r, (x, y), base, pos, stk, ha, ho, hf, hp, hb => by
    simp only [fieldsOK, Bool.and_eq_true] at ho
    rcases hb with ⟨hu, hs⟩ | ⟨hu, hs⟩
    · have hany := unbased_anyBase hu
      simp only [unbased, Bool.and_eq_true, Bool.not_eq_true'] at hu
      obtain ⟨rfl, hu⟩ := hu
      obtain ⟨x', h1, h2⟩ := read_field t e x base pos stk ha.1 ho.1 hf.1 hp.1 (fun c => hs (by simp [hasOffF, c]))
      obtain ⟨y', h3, h4⟩ := read_fields r y base (pos + Der.size t x) stk ha.2 ho.2 hf.2 hp.2
        (.inl ⟨hu, fun c => hs (by simp [hasOffF, c])⟩)
      refine ⟨(x', y'), ?_, ⟨h2.1, h4.1⟩, h2.2, h4.2⟩
      rw [unbased_anyBase hu] at h3
      rw [hany]
      show (read t >>= _) _ = _
      rw [bind_run, h1]
      show (readF r >>= _) _ = _
      rw [bind_run, h3]
      simp only [sizeF, Nat.add_assoc]; rfl
    · have hany := based_anyBase hu
      simp only [based, Bool.and_eq_true] at hu
      obtain ⟨rfl, hu⟩ := hu
      have hs1 : hasOff t = true → ∃ tl, pos :: stk = base :: tl := fun c =>
        ⟨stk, by rw [hs (by simp [hasOffF, c])]⟩
      have hs2 : hasOffF r = true → ∃ tl, pos :: stk = base :: tl := fun c =>
        ⟨stk, by rw [hs (by simp [hasOffF, c])]⟩
      obtain ⟨x', h1, h2⟩ := read_field t e x base pos (pos :: stk) ha.1 ho.1 hf.1 hp.1 hs1
      obtain ⟨y', h3, h4⟩ := read_fields r y base (pos + Der.size t x) (pos :: stk) ha.2 ho.2 hf.2 hp.2 (.inl ⟨hu, hs2⟩)
      refine ⟨(x', y'), ?_, ⟨h2.1, h4.1⟩, h2.2, h4.2⟩
      rw [unbased_anyBase hu] at h3
      rw [hany]
      show (read t >>= _) _ = _
      rw [bind_run, h1]
      show (readF r >>= _) _ = _
      rw [bind_run, h3]
      simp only [sizeF, Nat.add_assoc]; rfl
end

/-! ### The whole -/

theorem thread_shift {α : Type} {f g : α → Nat → α × Nat} {k : Nat} (h : ∀ x p, g x (p + k) = ((f x p).1, (f x p).2 + k)) :
    ∀ (l : List α) (p : Nat), thread g l (p + k) = ((thread f l p).1, (thread f l p).2 + k)
  | [], p => rfl
  | a :: l, p => by
    simp only [thread, h, thread_shift h l]

theorem link_shift {α : Type} {w : Width} {sz : α → Nat} {pl : α → Nat → Nat → α × Nat} {k : Nat}
    (h : ∀ a b p, pl a (b + k) (p + k) = ((pl a b p).1, (pl a b p).2 + k)) (l : Link α) (b p : Nat) :
    placeLink w sz pl l (b + k) (p + k) = ((placeLink w sz pl l b p).1, (placeLink w sz pl l b p).2 + k) := by
  obtain ⟨off, link⟩ := l
  have e : p + k - (b + k) = p - b := by omega
  cases link with
  | none => simp only [placeLink, e]
  | some a =>
    have e2 : p + k + sz a = p + sz a + k := by omega
    simp only [placeLink, e, e2, h]

mutual
theorem place_shift (k : Nat) : ∀ (t : Ty) (v : t.den) (b p : Nat),
    place t v (b + k) (p + k) = ((place t v b p).1, (place t v b p).2 + k)
  | .leaf c, v, b, p => rfl
  | .counted w t, l, b, p => thread_shift (fun x q => place_shift k t x b q) l p
  | .off w t, l, b, p => rfl
  | .offs c w t, l, b, p => thread_shift (fun x q => link_shift (fun a b p => place_shift k t a b p) x b q) l p
  | .record e fs, v, b, p => by
    simp only [place, placeDirect_shift k fs v b p, placeRest_shift k fs]
theorem placeHere_shift (k : Nat) : ∀ (t : Ty) (v : t.den) (b p : Nat),
    placeHere t v (b + k) (p + k) = ((placeHere t v b p).1, (placeHere t v b p).2 + k)
  | .leaf c, v, b, p => rfl
  | .counted w t, l, b, p => rfl
  | .off w t, l, b, p => link_shift (fun a b p => place_shift k t a b p) l b p
  | .offs c w t, l, b, p => rfl
  | .record e fs, v, b, p => rfl
theorem placeDirect_shift (k : Nat) : ∀ (fs : Fields) (v : fs.den) (b p : Nat),
    placeDirect fs v (b + k) (p + k) = ((placeDirect fs v b p).1, (placeDirect fs v b p).2 + k)
  | .nil, v, b, p => rfl
  | .cons bb e t r, (x, y), b, p => by
    rw [placeDirect_cons, placeDirect_cons, placeHere_shift k t x b p]
    simp only [placeDirect_shift k r y b]
theorem placeRest_shift (k : Nat) : ∀ (fs : Fields) (v : fs.den) (b p : Nat),
    placeRest fs v (b + k) (p + k) = ((placeRest fs v b p).1, (placeRest fs v b p).2 + k)
  | .nil, v, b, p => rfl
  | .cons bb e t r, (x, y), b, p => by
    have h1 : restOf e t x (b + k) (p + k) = ((restOf e t x b p).1, (restOf e t x b p).2 + k) := by
      simp only [restOf]
      split
      · exact place_shift k t x b p
      · rfl
    rw [placeRest_cons, placeRest_cons, h1]
    simp only [placeRest_shift k r y b]
end

theorem sum_zero : ∀ (l : List Nat), l.sum = 0 → ∀ x ∈ l, x = 0
  | [], _, x, hx => by cases hx
  | a :: l, h, x, hx => by
    rw [List.sum_cons] at h
    rcases List.mem_cons.1 hx with rfl | hx
    · omega
    · exact sum_zero l (by omega) x hx

mutual
theorem marks_zero : ∀ (t : Ty) (v : t.den), marks t v = 0 → (∀ b p, place t v b p = (v, p)) ∧ write t v = .ok []
  | .leaf c, v, _ => ⟨fun _ _ => rfl, rfl⟩
  | .counted w t, l, h => by
    have ih : ∀ x ∈ (l : List t.den), (∀ b p, place t x b p = (x, p)) ∧ write t x = .ok [] := fun x hx =>
      marks_zero t x (by
        have h : ((l : List t.den).map (marks t)).sum = 0 := h
        exact sum_zero _ h _ (List.mem_map_of_mem hx))
    clear h
    refine ⟨fun b p => ?_, ?_⟩
    · show thread (fun x q => place t x b q) (l : List t.den) p = (l, p)
      induction (l : List t.den) with
      | nil => rfl
      | cons x l ihl => simp only [thread, (ih x (by simp)).1, ihl (fun y hy => ih y (by simp [hy]))]
    · show encVecR (write t) (l : List t.den) = .ok []
      induction (l : List t.den) with
      | nil => rfl
      | cons x l ihl =>
        simp only [encVecR, (ih x (by simp)).2, ihl (fun y hy => ih y (by simp [hy])), List.append_nil]
  | .off w t, l, h => ⟨fun _ _ => rfl, rfl⟩
  | .offs c w t, l, h => by
    have h : (l : List (Link t.den)).length = 0 := h
    have h : (l : List (Link t.den)) = [] := List.eq_nil_of_length_eq_zero h
    rw [h]
    exact ⟨fun _ _ => rfl, rfl⟩
  | .record e fs, v, h => by
    obtain ⟨h2, h3, h4, h5⟩ := marks_zeroF fs v h
    refine ⟨fun b p => ?_, ?_⟩
    · simp only [place, h2, h3]
    · simp only [write, h4, h5]; rfl
theorem marks_zeroF : ∀ (fs : Fields) (v : fs.den), marksF fs v = 0 →
    (∀ b p, placeDirect fs v b p = (v, p)) ∧ (∀ b p, placeRest fs v b p = (v, p)) ∧
      writeDirect fs v = .ok [] ∧ writeRest fs v = .ok []
  | .nil, v, _ => ⟨fun _ _ => rfl, fun _ _ => rfl, rfl, rfl⟩
  | .cons b e t r, (x, y), h => by
    simp only [marksF] at h
    have hoff : t.isOff = false := by
      cases ho : t.isOff with
      | false => rfl
      | true => rw [ho, if_pos rfl] at h; omega
    obtain ⟨j2, j3, j4, j5⟩ := marks_zeroF r y (by omega)
    obtain ⟨i1, i2⟩ := here_id hoff x
    have k : (∀ b p, restOf e t x b p = (x, p)) ∧ restWrite e t x = .ok [] := by
      simp only [restOf, restWrite]
      split
      · rename_i hc
        exact marks_zero t x (by rw [if_pos hc] at h; omega)
      · exact ⟨fun _ _ => rfl, rfl⟩
    refine ⟨fun b p => ?_, fun b p => ?_, ?_, ?_⟩
    · simp only [placeDirect_cons, i1, j2]
    · simp only [placeRest_cons, k.1, j3]
    · simp only [writeDirect, i2, j4]; rfl
    · show ((restWrite e t x) >>= fun a => _) = _
      rw [k.2]
      simp only [j5]; rfl
end

/-- The bytes of a structure written by itself: its fields, then the tables below it, resolved from position 0. -/
theorem toBytes_root {emb : Bool} {fs : Fields} (hd : hasOffF fs = true → emb = false) (v : fs.den) :
    Der.toBytes (.record emb fs) v =
      (do
        let x ← Der.shallow fs (place (.record emb fs) v 0 (sizeF fs v)).1
        let y ← write (.record emb fs) (place (.record emb fs) v 0 (sizeF fs v)).1
        return x ++ y) := by
  simp only [Der.toBytes]
  cases hc : (emb || marksF fs v == 0) with
  | true =>
    have hm : marksF fs v = 0 := by
      cases hf : hasOffF fs with
      | false => exact (noOffF fs v hf).1
      | true => rw [hd hf] at hc; simpa using hc
    obtain ⟨h1, h2, h3, h4⟩ := marks_zeroF fs v hm
    simp only [if_true, place, h1, h2, write, h3, h4]
    cases Der.shallow fs v with
    | ok s => show Res.ok s = Res.ok (s ++ []); rw [List.append_nil]
    | err => rfl
    | panic => rfl
  | false =>
    simp only [Bool.false_eq_true, if_false, place, write]
    cases Der.shallow fs (placeRest fs (placeDirect fs v 0 (sizeF fs v)).1 0 (placeDirect fs v 0 (sizeF fs v)).2).1 with
    | ok s =>
      cases writeDirect fs (placeRest fs (placeDirect fs v 0 (sizeF fs v)).1 0 (placeDirect fs v 0 (sizeF fs v)).2).1 with
      | ok s1 =>
        cases writeRest fs (placeRest fs (placeDirect fs v 0 (sizeF fs v)).1 0 (placeDirect fs v 0 (sizeF fs v)).2).1 with
        | ok s2 => show Res.ok _ = Res.ok _; rw [List.append_assoc]
        | err => rfl
        | panic => rfl
      | err => rfl
      | panic => rfl
    | err => rfl
    | panic => rfl

/-- Everything that was written is where it belongs. -/
theorem placed_root (emb : Bool) (fs : Fields) (v : fs.den) (bs : Bytes)
    (hd : WellDeclared emb fs) (ha : FieldsAll Sized (Reach bs.length) fs) (hf : FitsF fs v)
    (h : Der.toBytes (.record emb fs) v = .ok bs)
    (before after : Bytes) :
    PlacedF (before ++ bs ++ after) fs v before.length before.length := by
  obtain ⟨hd1, hd2, hd3⟩ := hd
  rw [toBytes_root hd3] at h
  obtain ⟨s, h1, h2⟩ := bind_ok_inv h
  obtain ⟨D, h3, h4⟩ := bind_ok_inv h2
  injection h4 with h4
  subst h4
  have hsh := place_shift before.length (.record emb fs) v 0 (sizeF fs v)
  rw [Nat.zero_add, Nat.add_comm] at hsh
  have hlen := shallow_len fs _ s ha hd1 h1
  have hsz : sizeF fs (place (.record emb fs) v 0 (sizeF fs v)).1 = sizeF fs v := size_place (.record emb fs) v 0 _
  rw [hsz] at hlen
  have hpre : s ++ D <+: (before ++ (s ++ D) ++ after).drop before.length := by
    rw [List.append_assoc, List.drop_left]
    exact ⟨after, rfl⟩
  obtain ⟨p1, p2⟩ := prefix_drop_append hpre
  rw [hlen] at p2
  have hB : before.length + sizeF fs v + D.length ≤ (before ++ (s ++ D) ++ after).length := by
    simp only [List.length_append]; omega
  exact record_step (emb := emb) (lo := before.length) ha hd1
      (fun v p' q pos s D1 D2 g1 g2 g3 g4 g5 g6 g7 g8 g9 g10 g11 g12 g13 g14 =>
        fields_placed fs v before.length p' q pos s D1 D2 ha hd1 g1 g2 g3 g4 g5 g6 g7 g8 g9 (Nat.le_refl _) g10 g11 g12 g13 g14)
      v (before.length + sizeF fs v) before.length s D hf (by rw [hsh]; exact h1) (by rw [hsh]; exact h3) p1 p2
      (fun c => by have := hasOffF_pos fs v c; omega) (by omega) (by omega)
      (by rw [List.length_append, hlen]; omega)

theorem reads_back (emb : Bool) (fs : Fields) (v : fs.den) (bs : Bytes)
    (hd : WellDeclared emb fs) (ha : FieldsAll Sized (Reach bs.length) fs) (hf : FitsF fs v)
    (h : Der.toBytes (.record emb fs) v = .ok bs)
    (before after : Bytes) (stk : List Nat)
    (hb : based fs = true ∨ hasOffF fs = false ∨ ∃ tl, stk = before.length :: tl) :
    ∃ v', read (.record emb fs) ⟨before ++ bs ++ after, before.length, stk⟩ =
        .ok (v', ⟨before ++ bs ++ after, before.length + sizeF fs v, stk⟩) ∧ SameF fs v v' ∧ FitsF fs v' := by
  have hP := placed_root emb fs v bs hd ha hf h before after
  obtain ⟨hd1, hd2, hd3⟩ := hd
  have hbase : BaseOK fs before.length before.length stk := by
    rcases hb with hb | hb | hb
    · exact .inr ⟨hb, fun _ => rfl⟩
    · rcases hd2 with h | h
      · exact .inr ⟨h, fun _ => rfl⟩
      · exact .inl ⟨h, fun c => by rw [hb] at c; cases c⟩
    · rcases hd2 with h | h
      · exact .inr ⟨h, fun _ => rfl⟩
      · exact .inl ⟨h, fun _ => hb⟩
  obtain ⟨v', r1, r2⟩ := read_fields fs v before.length before.length stk ha hd1 hf hP hbase
  exact ⟨v', readRecord (base := before.length) r1, r2⟩

/-! ### Success -/

theorem thread_ok {α : Type} {f : α → Nat → α × Nat} {enc wr : α → Res Bytes} {bel : α → Nat} {base : Nat} :
    ∀ (l : List α) (p : Nat), (∀ x ∈ l, ∀ p, base ≤ p → p + bel x ≤ base + 65535 →
      ∃ s D, enc (f x p).1 = .ok s ∧ wr (f x p).1 = .ok D ∧ D.length = bel x ∧ (f x p).2 = p + bel x) →
    base ≤ p → p + (l.map bel).sum ≤ base + 65535 →
    ∃ s D, encVecR enc (thread f l p).1 = .ok s ∧ encVecR wr (thread f l p).1 = .ok D ∧
      D.length = (l.map bel).sum ∧ (thread f l p).2 = p + (l.map bel).sum
  | [], p, _, _, _ => ⟨[], [], rfl, rfl, rfl, rfl⟩
  | a :: l, p, h, hb, hl => by
    simp only [List.map_cons, List.sum_cons] at hl ⊢
    obtain ⟨s, D, h1, h2, h3, h4⟩ := h a (by simp) p hb (by omega)
    obtain ⟨s', D', g1, g2, g3, g4⟩ := thread_ok l (f a p).2 (fun x hx => h x (by simp [hx])) (by omega) (by omega)
    refine ⟨s ++ s', D ++ D', ?_, ?_, ?_, ?_⟩
    · simp only [thread, encVecR, h1, g1]
    · simp only [thread, encVecR, h2, g2]
    · rw [List.length_append, h3, g3]
    · show (thread f l (f a p).2).2 = _
      rw [g4, h4]; omega

theorem link_ok {α : Type} {w : Width} {sz bel : α → Nat} {pl : α → Nat → Nat → α × Nat} {own wr : α → Res Bytes}
    {F : α → Prop} {base : Nat}
    (hc : ∀ a p, F a → sz a + bel a ≤ 65535 → ∃ s D, own (pl a p (p + sz a)).1 = .ok s ∧ wr (pl a p (p + sz a)).1 = .ok D ∧
      s.length = sz a ∧ D.length = bel a ∧ (pl a p (p + sz a)).2 = p + sz a + bel a)
    (l : Link α) (hf : FitsLink F l) (p : Nat) (hb : base ≤ p) (hl : p + belowLink sz bel l ≤ base + 65535) :
    ∃ s D, encLink w (placeLink w sz pl l base p).1 = .ok s ∧ writeLink own wr (placeLink w sz pl l base p).1 = .ok D ∧
      D.length = belowLink sz bel l ∧ (placeLink w sz pl l base p).2 = p + belowLink sz bel l := by
  obtain ⟨off, link⟩ := l
  cases link with
  | none =>
    have h0 : off = some 0 := hf
    subst h0
    exact ⟨w.enc 0, [], rfl, rfl, rfl, rfl⟩
  | some a =>
    have hl : p + (sz a + bel a) ≤ base + 65535 := hl
    obtain ⟨s, D, h1, h2, h3, h4, h5⟩ := hc a p hf (by omega)
    have hw : p - base ≤ w.max := by cases w <;> simp only [Width.max] <;> omega
    refine ⟨w.enc (p - base), s ++ D, ?_, ?_, ?_, ?_⟩
    · simp only [placeLink, hw, if_true, encLink]
    · simp only [placeLink, writeLink, h1, h2]; rfl
    · rw [List.length_append, h3, h4]; rfl
    · show (pl a p (p + sz a)).2 = p + (sz a + bel a)
      rw [h5]; omega

/-- The part of `below` that is written with the fields of type `Offset`, and the part that is written after them. -/
def belowHere (t : Ty) (x : t.den) : Nat := if t.isOff then below t x else 0
def belowThen (t : Ty) (x : t.den) : Nat := if t.isOff then 0 else below t x
def belowHereF : (fs : Fields) → fs.den → Nat
  | .nil, _ => 0
  | .cons _ _ t r, (x, y) => belowHere t x + belowHereF r y
def belowThenF : (fs : Fields) → fs.den → Nat
  | .nil, _ => 0
  | .cons _ _ t r, (x, y) => belowThen t x + belowThenF r y

theorem belowF_split : ∀ (fs : Fields) (v : fs.den), belowF fs v = belowHereF fs v + belowThenF fs v
  | .nil, _ => rfl
  | .cons b e t r, (x, y) => by
    simp only [belowF, belowHereF, belowThenF, belowF_split r y, belowHere, belowThen]
    split <;> omega

theorem toBytes_part {e emb : Bool} {fs : Fields} {v : fs.den} (ho : partOK e (.record emb fs) = true) :
    Der.toBytes (.record emb fs) v = Der.shallow fs v := by
  simp only [partOK, Bool.and_eq_true] at ho
  simp only [Der.toBytes]
  cases hf : hasOffF fs with
  | true =>
    simp only [hf, if_true, Bool.and_eq_true] at ho
    rw [if_pos (by simp [ho.2.1.1])]
  | false => rw [if_pos (by simp [(noOffF fs v hf).1])]

theorem record_ok {emb : Bool} {fs : Fields} {base : Nat}
    (ih : ∀ (v : fs.den) (p q : Nat), FitsF fs v → base ≤ p → base ≤ q → p + belowHereF fs v ≤ base + 65535 →
      q + belowThenF fs v ≤ base + 65535 → ∃ s D1 D2,
      Der.shallow fs (placeRest fs (placeDirect fs v base p).1 base q).1 = .ok s ∧
      writeDirect fs (placeRest fs (placeDirect fs v base p).1 base q).1 = .ok D1 ∧
      writeRest fs (placeRest fs (placeDirect fs v base p).1 base q).1 = .ok D2 ∧
      D1.length = belowHereF fs v ∧ D2.length = belowThenF fs v ∧ (placeDirect fs v base p).2 = p + belowHereF fs v ∧
      (placeRest fs (placeDirect fs v base p).1 base q).2 = q + belowThenF fs v)
    (v : fs.den) (p : Nat) (hf : FitsF fs v) (hb : base ≤ p) (hl : p + belowF fs v ≤ base + 65535) :
    ∃ s D, Der.shallow fs (place (.record emb fs) v base p).1 = .ok s ∧
      write (.record emb fs) (place (.record emb fs) v base p).1 = .ok D ∧ D.length = belowF fs v ∧
      (place (.record emb fs) v base p).2 = p + belowF fs v := by
  rw [belowF_split] at hl ⊢
  obtain ⟨_, _, _, _, _, _, _, _, e, _⟩ := ih v p p hf hb hb (by omega) (by omega)
  obtain ⟨s, D1, D2, h1, h2, h3, h4, h5, h6, h7⟩ := ih v p (placeDirect fs v base p).2 hf hb (by omega) (by omega) (by omega)
  refine ⟨s, D1 ++ D2, h1, ?_, by rw [List.length_append, h4, h5], ?_⟩
  · simp only [place, write, h2, h3]; rfl
  · show (placeRest fs (placeDirect fs v base p).1 base (placeDirect fs v base p).2).2 = _
    rw [h7, h6]; omega

mutual
theorem part_ok {Q : Width → Prop} : ∀ (t : Ty) (e : Bool) (v : t.den) (base p : Nat), TyAll Sized Q t → partOK e t = true →
    Fits t v → base ≤ p → p + below t v ≤ base + 65535 →
    ∃ s D, Der.toBytes t (place t v base p).1 = .ok s ∧ write t (place t v base p).1 = .ok D ∧ D.length = below t v ∧
      (place t v base p).2 = p + below t v
  | .leaf c, e, v, base, p, ha, ho, hf, hb, hl => ⟨hf.choose, [], hf.choose_spec.1, rfl, rfl, rfl⟩
  | .counted w t, e, v, base, p, ha, ho, hf, hb, hl => by
    obtain ⟨s, D, h1, h2, h3, h4⟩ := thread_ok (enc := Der.toBytes t) (wr := write t) (v : List t.den) p
      (fun x hx p hb hl => part_ok t e x base p ha ho (hf.2 x hx) hb hl) hb hl
    refine ⟨w.enc ((place (.counted w t) v base p).1 : List t.den).length ++ s, D, ?_, h2, h3, h4⟩
    · simp only [Der.toBytes, place, h1]; rfl
  | .off w t, e, v, base, p, ha, ho, hf, hb, hl => by simp [partOK] at ho
  | .offs c w t, e, v, base, p, ha, ho, hf, hb, hl => by simp [partOK] at ho
  | .record emb fs, e, v, base, p, ha, ho, hf, hb, hl => by
    have ho' : fieldsOK fs = true := by simp only [partOK, Bool.and_eq_true] at ho; exact ho.1
    rw [toBytes_part ho]
    exact record_ok (fun v p q h1 h2 h3 h4 h5 => fields_ok fs v base p q ha ho' h1 h2 h3 h4 h5) v p hf hb hl
theorem table_written {Q : Width → Prop} : ∀ (t : Ty) (v : t.den) (p : Nat), TyAll Sized Q t → tableOK t = true →
    Fits t v → Der.size t v + below t v ≤ 65535 →
    ∃ s D, own t (place t v p (p + Der.size t v)).1 = .ok s ∧ write t (place t v p (p + Der.size t v)).1 = .ok D ∧
      s.length = Der.size t v ∧ D.length = below t v ∧ (place t v p (p + Der.size t v)).2 = p + Der.size t v + below t v
  | .leaf c, v, p, ha, ho, hf, hl => ⟨hf.choose, [], hf.choose_spec.1, rfl, ha v _ hf.choose_spec.1, rfl, rfl⟩
  | .counted w t, v, p, ha, ho, hf, hl => by simp [tableOK] at ho
  | .off w t, v, p, ha, ho, hf, hl => by simp [tableOK] at ho
  | .offs c w t, v, p, ha, ho, hf, hl => by simp [tableOK] at ho
  | .record emb fs, v, p, ha, ho, hf, hl => by
    have ho' : fieldsOK fs = true := by simp only [tableOK, Bool.and_eq_true] at ho; exact ho.1
    have hl' : sizeF fs v + belowF fs v ≤ 65535 := hl
    obtain ⟨s, D, h1, h2, h3, h4⟩ := record_ok (emb := emb) (base := p)
      (fun v p' q h1 h2 h3 h4 h5 => fields_ok fs v p p' q ha ho' h1 h2 h3 h4 h5) v (p + sizeF fs v) hf (by omega) (by omega)
    refine ⟨s, D, h1, h2, ?_, h3, h4⟩
    have h5 := own_len _ _ s ha ho h1
    have h6 := size_place (.record emb fs) v p (p + sizeF fs v)
    exact h5.trans h6
theorem field_ok {Q : Width → Prop} : ∀ (t : Ty) (e : Bool) (v : t.den) (base p q : Nat), TyAll Sized Q t → fieldOK e t = true →
    Fits t v → base ≤ p → base ≤ q → p + belowHere t v ≤ base + 65535 → q + belowThen t v ≤ base + 65535 →
    ∃ s D1 D2, Der.toBytes t (place t (placeHere t v base p).1 base q).1 = .ok s ∧
      writeHere t (place t (placeHere t v base p).1 base q).1 = .ok D1 ∧
      write t (place t (placeHere t v base p).1 base q).1 = .ok D2 ∧
      D1.length = belowHere t v ∧ D2.length = belowThen t v ∧ (placeHere t v base p).2 = p + belowHere t v ∧
      (place t (placeHere t v base p).1 base q).2 = q + belowThen t v
  | .leaf c, e, v, base, p, q, ha, ho, hf, hb, hb2, hl, hl2 => ⟨hf.choose, [], [], hf.choose_spec.1, rfl, rfl, rfl, rfl, rfl, rfl⟩
  | .counted w t, e, v, base, p, q, ha, ho, hf, hb, hb2, hl, hl2 => by
    obtain ⟨s, D, h1, h2, h3, h4⟩ := thread_ok (enc := Der.toBytes t) (wr := write t) (v : List t.den) q
      (fun x hx p hb hl => part_ok t e x base p ha ho (hf.2 x hx) hb hl) hb2 hl2
    refine ⟨w.enc ((place (.counted w t) v base q).1 : List t.den).length ++ s, [], D, ?_, rfl, h2, rfl, h3, rfl, h4⟩
    · simp only [Der.toBytes, place, placeHere, h1]; rfl
  | .off w t, e, v, base, p, q, ha, ho, hf, hb, hb2, hl, hl2 => by
    obtain ⟨s, D, h1, h2, h3, h4⟩ := link_ok (w := w) (own := own t) (wr := write t) (base := base) (F := Fits t)
      (fun a p h1 h2 => table_written t a p ha.2 ho h1 h2) v hf p hb hl
    exact ⟨s, D, [], h1, h2, rfl, h3, rfl, h4, rfl⟩
  | .offs c w t, e, v, base, p, q, ha, ho, hf, hb, hb2, hl, hl2 => by
    obtain ⟨s, D, h1, h2, h3, h4⟩ := thread_ok (enc := encLink w) (wr := writeLink (own t) (write t)) (base := base)
      (v : List (Link t.den)) q
      (fun x hx p hb hl => link_ok (w := w) (own := own t) (wr := write t) (base := base) (F := Fits t)
        (fun a p h1 h2 => table_written t a p ha.2 ho h1 h2) x (hf.2 x hx) p hb hl) hb2 hl2
    refine ⟨c.enc ((place (.offs c w t) v base q).1 : List (Link t.den)).length ++ s, [], D, ?_, rfl, h2, rfl, h3, rfl, h4⟩
    · simp only [Der.toBytes, place, placeHere, h1]; rfl
  | .record emb fs, e, v, base, p, q, ha, ho, hf, hb, hb2, hl, hl2 => by
    have ho' : fieldsOK fs = true := by simp only [fieldOK, Bool.and_eq_true] at ho; exact ho.1
    obtain ⟨s, D, h1, h2, h3, h4⟩ := record_ok (emb := emb)
      (fun v p q h1 h2 h3 h4 h5 => fields_ok fs v base p q ha ho' h1 h2 h3 h4 h5) v q hf hb2 hl2
    exact ⟨s, [], D, (toBytes_part (e := e) (emb := emb) ho).trans h1, rfl, h2, rfl, h3, rfl, h4⟩
theorem fields_ok {Q : Width → Prop} : ∀ (fs : Fields) (v : fs.den) (base p q : Nat), FieldsAll Sized Q fs →
    fieldsOK fs = true → FitsF fs v → base ≤ p → base ≤ q → p + belowHereF fs v ≤ base + 65535 →
    q + belowThenF fs v ≤ base + 65535 → ∃ s D1 D2,
      Der.shallow fs (placeRest fs (placeDirect fs v base p).1 base q).1 = .ok s ∧
      writeDirect fs (placeRest fs (placeDirect fs v base p).1 base q).1 = .ok D1 ∧
      writeRest fs (placeRest fs (placeDirect fs v base p).1 base q).1 = .ok D2 ∧
      D1.length = belowHereF fs v ∧ D2.length = belowThenF fs v ∧ (placeDirect fs v base p).2 = p + belowHereF fs v ∧
      (placeRest fs (placeDirect fs v base p).1 base q).2 = q + belowThenF fs v
  | .nil, v, base, p, q, ha, ho, hf, hb, hb2, hl, hl2 => ⟨[], [], [], rfl, rfl, rfl, rfl, rfl, rfl, rfl⟩
  | .cons b e t r, (x, y), base, p, q, ha, ho, hf, hb, hb2, hl, hl2 => by
    simp only [fieldsOK, Bool.and_eq_true] at ho
    simp only [belowHereF, belowThenF] at hl hl2 ⊢
    obtain ⟨s, D1, D2, h1, h2, h3, h4, h5, h6, h7⟩ := field_ok t e x base p q ha.1 ho.1 hf.1 hb hb2 (by omega) (by omega)
    obtain ⟨s', E1, E2, g1, g2, g3, g4, g5, g6, g7⟩ := fields_ok r y base (p + belowHere t x) (q + belowThen t x) ha.2 ho.2 hf.2
      (by omega) (by omega) (by omega) (by omega)
    have hr := restOf_eq ho.1 (placeHere t x base p).1 base q
    have hr2 := (restOf_eq ho.1 (place t (placeHere t x base p).1 base q).1 base q).2
    rw [placeDirect_cons, placeRest_cons, hr.1]
    simp only [h6, h7]
    refine ⟨s ++ s', D1 ++ E1, D2 ++ E2, ?_, ?_, ?_, by rw [List.length_append, h4, g4], by rw [List.length_append, h5, g5],
      by rw [g6]; omega, by rw [g7]; omega⟩
    · simp only [Der.shallow, h1, g1]; rfl
    · simp only [writeDirect, h2, g2]; rfl
    · show (restWrite e t _ >>= fun a => _) = _
      rw [hr2, h3]
      simp only [g3]; rfl
end

theorem writes_root (emb : Bool) (fs : Fields) (v : fs.den) (hd : WellDeclared emb fs)
    (ha : FieldsAll Sized (fun _ => True) fs) (hf : FitsF fs v) (hl : sizeF fs v + belowF fs v ≤ 65535) :
    ∃ bs, Der.toBytes (.record emb fs) v = .ok bs ∧ bs.length = sizeF fs v + belowF fs v := by
  obtain ⟨hd1, hd2, hd3⟩ := hd
  rw [toBytes_root hd3]
  obtain ⟨s, D, h1, h2, h3, _⟩ := record_ok (emb := emb) (base := 0)
    (fun v p q h1 h2 h3 h4 h5 => fields_ok fs v 0 p q ha hd1 h1 h2 h3 h4 h5) v (sizeF fs v) hf (by omega) (by omega)
  have hlen := shallow_len fs _ s ha hd1 h1
  have hsz : sizeF fs (place (.record emb fs) v 0 (sizeF fs v)).1 = sizeF fs v := size_place (.record emb fs) v 0 _
  refine ⟨s ++ D, ?_, by rw [List.length_append, h3, hlen, hsz]⟩
  rw [h1, h2]; rfl

/-! ### Writing again -/

theorem thread_same {α : Type} {f : α → Nat → α × Nat} {R : α → α → Prop} :
    ∀ (l m : List α), SameL R l m → (∀ x ∈ l, ∀ y ∈ m, R x y → ∀ p, f x p = f y p) → ∀ p, thread f l p = thread f m p
  | [], [], _, _, p => rfl
  | a :: l, b :: m, h, hf, p => by
    simp only [thread, hf a (by simp) b (by simp) h.1 p,
      thread_same l m h.2 (fun x hx y hy => hf x (by simp [hx]) y (by simp [hy]))]
  | [], b :: m, h, _, _ => by cases h
  | a :: l, [], h, _, _ => by cases h

theorem link_same {α : Type} {w : Width} {sz : α → Nat} {pl : α → Nat → Nat → α × Nat} {R : α → α → Prop} {F : α → Prop}
    (h : ∀ a b, R a b → F a → F b → sz a = sz b ∧ ∀ base p, pl a base p = pl b base p) (l m : Link α)
    (hs : SameLink R l m) (hl : FitsLink F l) (hm : FitsLink F m) (base p : Nat) :
    placeLink w sz pl l base p = placeLink w sz pl m base p := by
  obtain ⟨o, a⟩ := l
  obtain ⟨o', a'⟩ := m
  cases a with
  | none =>
    cases a' with
    | none =>
      have e1 : o = some 0 := hl
      have e2 : o' = some 0 := hm
      rw [e1, e2]
    | some b => cases hs
  | some a =>
    cases a' with
    | none => cases hs
    | some b =>
      obtain ⟨h1, h2⟩ := h a b hs hl hm
      simp only [placeLink, h1, h2]

mutual
theorem part_same : ∀ (t : Ty) (e : Bool) (v v' : t.den), partOK e t = true → Same t v v' → Fits t v → Fits t v' →
    ∀ base p, place t v base p = place t v' base p
  | .leaf c, e, v, v', ho, hs, hv, hv', base, p => by rw [show v = v' from hs]
  | .counted w t, e, v, v', ho, hs, hv, hv', base, p =>
    thread_same (R := Same t) v v' hs
      (fun x hx y hy h q => part_same t e x y ho h (hv.2 x hx) (hv'.2 y hy) base q) p
  | .off w t, e, v, v', ho, hs, hv, hv', base, p => by simp [partOK] at ho
  | .offs c w t, e, v, v', ho, hs, hv, hv', base, p => by simp [partOK] at ho
  | .record emb fs, e, v, v', ho, hs, hv, hv', base, p => by
    have ho' : fieldsOK fs = true := by simp only [partOK, Bool.and_eq_true] at ho; exact ho.1
    obtain ⟨h1, h2⟩ := fields_same fs v v' ho' hs hv hv' base p
    simp only [place]
    rw [h1, h2]
theorem table_same : ∀ (t : Ty) (v v' : t.den), tableOK t = true → Same t v v' → Fits t v → Fits t v' →
    ∀ base p, place t v base p = place t v' base p
  | .leaf c, v, v', ho, hs, hv, hv', base, p => by rw [show v = v' from hs]
  | .counted w t, v, v', ho, hs, hv, hv', base, p => by simp [tableOK] at ho
  | .off w t, v, v', ho, hs, hv, hv', base, p => by simp [tableOK] at ho
  | .offs c w t, v, v', ho, hs, hv, hv', base, p => by simp [tableOK] at ho
  | .record emb fs, v, v', ho, hs, hv, hv', base, p => by
    have ho' : fieldsOK fs = true := by simp only [tableOK, Bool.and_eq_true] at ho; exact ho.1
    obtain ⟨h1, h2⟩ := fields_same fs v v' ho' hs hv hv' base p
    simp only [place]
    rw [h1, h2]
theorem field_same : ∀ (t : Ty) (e : Bool) (v v' : t.den), fieldOK e t = true → Same t v v' → Fits t v → Fits t v' →
    ∀ base p, (placeHere t v base p).2 = (placeHere t v' base p).2 ∧
      ∀ q, place t (placeHere t v base p).1 base q = place t (placeHere t v' base p).1 base q
  | .leaf c, e, v, v', ho, hs, hv, hv', base, p => by rw [show v = v' from hs]; exact ⟨rfl, fun _ => rfl⟩
  | .counted w t, e, v, v', ho, hs, hv, hv', base, p =>
    ⟨rfl, thread_same (R := Same t) v v' hs
      (fun x hx y hy h q => part_same t e x y ho h (hv.2 x hx) (hv'.2 y hy) base q)⟩
  | .off w t, e, v, v', ho, hs, hv, hv', base, p => by
    have h : placeHere (.off w t) v base p = placeHere (.off w t) v' base p :=
      link_same (R := Same t) (F := Fits t) (fun a b k1 k2 k3 => by
        have k4 := table_same t a b ho k1 k2 k3
        exact ⟨by rw [← size_place t a 0 0, k4, size_place], k4⟩) v v' hs hv hv' base p
    rw [h]; exact ⟨rfl, fun _ => rfl⟩
  | .offs c w t, e, v, v', ho, hs, hv, hv', base, p =>
    ⟨rfl, thread_same (R := SameLink (Same t)) v v' hs (fun x hx y hy h q =>
      link_same (R := Same t) (F := Fits t) (fun a b k1 k2 k3 => by
        have k4 := table_same t a b ho k1 k2 k3
        exact ⟨by rw [← size_place t a 0 0, k4, size_place], k4⟩) x y h (hv.2 x hx) (hv'.2 y hy) base q)⟩
  | .record emb fs, e, v, v', ho, hs, hv, hv', base, p => by
    refine ⟨rfl, fun q => ?_⟩
    have ho' : fieldsOK fs = true := by simp only [fieldOK, Bool.and_eq_true] at ho; exact ho.1
    obtain ⟨h1, h2⟩ := fields_same fs v v' ho' hs hv hv' base q
    simp only [placeHere, place]
    rw [h1, h2]
theorem fields_same : ∀ (fs : Fields) (v v' : fs.den), fieldsOK fs = true → SameF fs v v' → FitsF fs v → FitsF fs v' →
    ∀ base p, (placeDirect fs v base p).2 = (placeDirect fs v' base p).2 ∧
      ∀ q, placeRest fs (placeDirect fs v base p).1 base q = placeRest fs (placeDirect fs v' base p).1 base q
  | .nil, v, v', ho, hs, hv, hv', base, p => ⟨rfl, fun _ => rfl⟩
  | .cons b e t r, (x, y), (x', y'), ho, hs, hv, hv', base, p => by
    simp only [fieldsOK, Bool.and_eq_true] at ho
    obtain ⟨h1, h2⟩ := field_same t e x x' ho.1 hs.1 hv.1 hv'.1 base p
    obtain ⟨h3, h4⟩ := fields_same r y y' ho.2 hs.2 hv.2 hv'.2 base (placeHere t x base p).2
    simp only [placeDirect_cons, placeRest_cons, (restOf_eq ho.1 _ base _).1]
    refine ⟨by rw [h3, h1], fun q => ?_⟩
    rw [h2 q, h4, h1]
end

theorem same_bytes {emb : Bool} {fs : Fields} (hd : WellDeclared emb fs) {v v' : fs.den} (hs : SameF fs v v') (hv : FitsF fs v)
    (hv' : FitsF fs v') : Der.toBytes (.record emb fs) v = Der.toBytes (.record emb fs) v' := by
  have h : ∀ base p, place (.record emb fs) v base p = place (.record emb fs) v' base p := by
    intro base p
    obtain ⟨h1, h2⟩ := fields_same fs v v' hd.1 hs hv hv' base p
    simp only [place]
    rw [h1, h2]
  have hz : sizeF fs v = sizeF fs v' := by
    have e1 : sizeF fs (place (.record emb fs) v 0 0).1 = sizeF fs v := size_place (.record emb fs) v 0 0
    have e2 : sizeF fs (place (.record emb fs) v' 0 0).1 = sizeF fs v' := size_place (.record emb fs) v' 0 0
    rw [← e1, ← e2, h]
  rw [toBytes_root hd.2.2, toBytes_root hd.2.2, hz, h]

/-! ### Other -/

mutual
theorem tyAll_mono {P P' : Leaf → Prop} {Q Q' : Width → Prop} (h1 : ∀ c, P c → P' c) (h2 : ∀ w, Q w → Q' w) :
    ∀ (t : Ty), TyAll P Q t → TyAll P' Q' t
  | .leaf c, h => h1 c h
  | .counted w t, h => tyAll_mono h1 h2 t h
  | .off w t, h => ⟨h2 w h.1, tyAll_mono h1 h2 t h.2⟩
  | .offs c w t, h => ⟨h2 w h.1, tyAll_mono h1 h2 t h.2⟩
  | .record e fs, h => all_mono h1 h2 fs h
theorem all_mono {P P' : Leaf → Prop} {Q Q' : Width → Prop} (h1 : ∀ c, P c → P' c) (h2 : ∀ w, Q w → Q' w) :
    ∀ (fs : Fields), FieldsAll P Q fs → FieldsAll P' Q' fs
  | .nil, h => trivial
  | .cons b e t r, h => ⟨tyAll_mono h1 h2 t h.1, all_mono h1 h2 r h.2⟩
end

theorem bind_np {α β : Type} {x : Res α} {f : α → Res β} (h1 : x ≠ .panic) (h2 : ∀ a, f a ≠ .panic) : (x >>= f) ≠ .panic := by
  cases x with
  | ok a => exact h2 a
  | err => intro h; cases h
  | panic => exact absurd rfl h1

theorem ok_np {α : Type} {a : α} : (pure a : Res α) ≠ .panic := by intro h; cases h

theorem encVecR_np {α : Type} {enc : α → Res Bytes} (h : ∀ a, enc a ≠ .panic) : ∀ (l : List α), encVecR enc l ≠ .panic
  | [] => by intro h; cases h
  | a :: l => by
    have h1 := h a
    have h2 := encVecR_np h l
    simp only [encVecR]
    cases e1 : enc a with
    | panic => exact absurd e1 h1
    | err => intro h; cases h
    | ok x =>
      cases e2 : encVecR enc l with
      | panic => exact absurd e2 h2
      | err => intro h; cases h
      | ok y => intro h; cases h

theorem encLink_np {α : Type} {w : Width} (l : Link α) : encLink w l ≠ .panic := by
  unfold encLink
  split
  · intro h; cases h
  · split <;> intro h <;> cases h

theorem writeLink_np {α : Type} {own wr : α → Res Bytes} (h1 : ∀ a, own a ≠ .panic) (h2 : ∀ a, wr a ≠ .panic) (l : Link α) :
    writeLink own wr l ≠ .panic := by
  unfold writeLink
  split
  · intro h; cases h
  · exact bind_np (h1 _) (fun _ => bind_np (h2 _) (fun _ => ok_np))

/-- Writing the part does not panic. -/
def NoPanic (c : Leaf) : Prop := ∀ a, c.enc a ≠ .panic

mutual
theorem toBytes_np {Q : Width → Prop} : ∀ (t : Ty), TyAll NoPanic Q t →
    (∀ v, Der.toBytes t v ≠ .panic) ∧ (∀ v, own t v ≠ .panic) ∧ (∀ v, write t v ≠ .panic) ∧ ∀ v, writeHere t v ≠ .panic
  | .leaf c, ha => ⟨ha, ha, fun _ => ok_np, fun _ => ok_np⟩
  | .counted w t, ha => by
    obtain ⟨h1, h2, h3, h4⟩ := toBytes_np t ha
    exact ⟨fun v => bind_np (encVecR_np h1 v) (fun _ => ok_np), fun v => bind_np (encVecR_np h1 v) (fun _ => ok_np),
      fun v => encVecR_np h3 v, fun _ => ok_np⟩
  | .off w t, ha => by
    obtain ⟨h1, h2, h3, h4⟩ := toBytes_np t ha.2
    exact ⟨fun v => encLink_np v, fun v => encLink_np v, fun _ => ok_np, fun v => writeLink_np h2 h3 v⟩
  | .offs c w t, ha => by
    obtain ⟨h1, h2, h3, h4⟩ := toBytes_np t ha.2
    exact ⟨fun v => bind_np (encVecR_np encLink_np v) (fun _ => ok_np), fun v => bind_np (encVecR_np encLink_np v) (fun _ => ok_np),
      fun v => encVecR_np (writeLink_np h2 h3) v, fun _ => ok_np⟩
  | .record e fs, ha => by
    obtain ⟨h1, h2, h3⟩ := fields_np fs ha
    refine ⟨fun v => ?_, h1, fun v => bind_np (h2 _) (fun _ => bind_np (h3 _) (fun _ => ok_np)), fun _ => ok_np⟩
    simp only [Der.toBytes]
    split
    · exact h1 v
    · exact bind_np (h1 _) (fun _ => bind_np (h2 _) (fun _ => bind_np (h3 _) (fun _ => ok_np)))
theorem fields_np {Q : Width → Prop} : ∀ (fs : Fields), FieldsAll NoPanic Q fs →
    (∀ v, Der.shallow fs v ≠ .panic) ∧ (∀ v, writeDirect fs v ≠ .panic) ∧ ∀ v, writeRest fs v ≠ .panic
  | .nil, ha => ⟨fun _ => ok_np, fun _ => ok_np, fun _ => ok_np⟩
  | .cons b e t r, ha => by
    obtain ⟨h1, h2, h3, h4⟩ := toBytes_np t ha.1
    obtain ⟨g1, g2, g3⟩ := fields_np r ha.2
    refine ⟨fun (x, y) => bind_np (h1 x) (fun _ => bind_np (g1 y) (fun _ => ok_np)),
      fun (x, y) => bind_np (h4 x) (fun _ => bind_np (g2 y) (fun _ => ok_np)), fun (x, y) => ?_⟩
    have k : restWrite e t x ≠ .panic := by
      unfold restWrite
      split
      · exact h3 x
      · intro h; cases h
    exact bind_np k (fun _ => bind_np (g3 y) (fun _ => ok_np))
end

theorem toBytes_no_panic (t : Ty) (v : t.den) (ha : TyAll (fun c => ∀ a, c.enc a ≠ .panic) (fun _ => True) t) :
    Der.toBytes t v ≠ .panic := (toBytes_np t ha).1 v

end FT.Props
