import Verif.Props.SpecLists

/-!
Readers and the rows of the OpenType specification: what a reader returns when the rows are shown in the buffer,
whatever else the buffer contains and wherever the tables linked by offsets are placed.
-/

namespace FT.Props
open FT Reader FT.Off FT.Lay

/-- Wherever the rows are shown, for a table beginning at the top of the stack, `p` returns `a` and stops after them. -/
def Finds {α : Type} (p : Reader α) (a : α) (rows : List Cell) : Prop :=
  ∀ (B : Bytes) (base pos : Nat) (stk : List Nat), Shows B base pos rows →
    p ⟨B, pos, base :: stk⟩ = .ok (a, ⟨B, pos + widths rows, base :: stk⟩)

/-- The same for readers that do not look at the stack. -/
def Plain {α : Type} (p : Reader α) (a : α) (rows : List Cell) : Prop :=
  ∀ (B : Bytes) (base pos : Nat) (stk : List Nat), Shows B base pos rows →
    p ⟨B, pos, stk⟩ = .ok (a, ⟨B, pos + widths rows, stk⟩)

/-- Wherever `P` is true of a place, `p` returns `a` there. -/
def FindsAt {α : Type} (p : Reader α) (a : α) (P : Bytes → Nat → Prop) : Prop :=
  ∀ (B : Bytes) (start : Nat) (stk : List Nat), P B start →
    start ≤ B.length ∧ ∃ ptr, p ⟨B, start, stk⟩ = .ok (a, ⟨B, ptr, stk⟩)

theorem Plain.finds {α : Type} {p : Reader α} {a : α} {rows : List Cell} (h : Plain p a rows) : Finds p a rows :=
  fun B base pos stk hs => h B base pos (base :: stk) hs

theorem finds_pure {α : Type} (a : α) : Finds (pure a) a [] := fun B base pos stk _ => by simp [pure_run, widths]
theorem plain_pure {α : Type} (a : α) : Plain (pure a) a [] := fun B base pos stk _ => by simp [pure_run, widths]

theorem Finds.bind {α β : Type} {p : Reader α} {f : α → Reader β} {a : α} {b : β} {r s : List Cell}
    (h : Finds p a r) (h' : Finds (f a) b s) : Finds (p >>= f) b (r ++ s) := by
  intro B base pos stk hs
  rw [shows_append] at hs
  rw [bind_run, h B base pos stk hs.1]
  simp only
  rw [h' B base _ stk hs.2, widths_append, Nat.add_assoc]

theorem Plain.bind {α β : Type} {p : Reader α} {f : α → Reader β} {a : α} {b : β} {r s : List Cell}
    (h : Plain p a r) (h' : Plain (f a) b s) : Plain (p >>= f) b (r ++ s) := by
  intro B base pos stk hs
  rw [shows_append] at hs
  rw [bind_run, h B base pos stk hs.1]
  simp only
  rw [h' B base _ stk hs.2, widths_append, Nat.add_assoc]

theorem Finds.cons {α β : Type} {p : Reader α} {f : α → Reader β} {a : α} {b : β} {c : Cell} {s : List Cell}
    (h : Finds p a [c]) (h' : Finds (f a) b s) : Finds (p >>= f) b (c :: s) := h.bind h'
theorem Plain.cons {α β : Type} {p : Reader α} {f : α → Reader β} {a : α} {b : β} {c : Cell} {s : List Cell}
    (h : Plain p a [c]) (h' : Plain (f a) b s) : Plain (p >>= f) b (c :: s) := h.bind h'

/-- The last field of a record. -/
theorem Finds.last {α β : Type} {p : Reader α} {f : α → Reader β} {a : α} {b : β} {r : List Cell}
    (h : Finds p a r) (h' : f a = pure b) : Finds (p >>= f) b r := by
  have := h.bind (f := f) (b := b) (s := []) (by rw [h']; exact finds_pure b)
  rwa [List.append_nil] at this
theorem Plain.last {α β : Type} {p : Reader α} {f : α → Reader β} {a : α} {b : β} {r : List Cell}
    (h : Plain p a r) (h' : f a = pure b) : Plain (p >>= f) b r := by
  have := h.bind (f := f) (b := b) (s := []) (by rw [h']; exact plain_pure b)
  rwa [List.append_nil] at this

theorem Finds.lift {α β : Type} {p : Reader α} {f : α → Res β} {a : α} {b : β} {r : List Cell}
    (h : Finds p a r) (h' : f a = .ok b) : Finds (p >>= fun x => Reader.lift (f x)) b r := by
  refine h.last ?_
  rw [h']
  rfl

/-! ### Numbers -/

theorem plain_num16 {v : ℤ} (x : UInt16) (h : (x.toNat : ℤ) = v % 65536) : Plain readU16 x [.num 2 v] := by
  intro B base pos stk hs
  obtain ⟨⟨h1, h2⟩, _⟩ := hs
  obtain ⟨y, e1, e2⟩ := readU16_ok (r := ⟨B, pos, stk⟩) h1
  rw [e2]
  have : y = x := UInt16.toNat_inj.mp (by
    simp only at e1
    have : ((y.toNat : Nat) : ℤ) = x.toNat := by rw [e1, h2, h]; norm_num
    exact_mod_cast this)
  subst this
  rfl

theorem plain_u16 (x : UInt16) : Plain readU16 x [u16 x] := plain_num16 x (by have := x.toNat_lt; omega)

theorem plain_count {n : Nat} (h : n ≤ 65535) : Plain readU16 (UInt16.ofNat n) [.num 2 n] :=
  plain_num16 _ (by rw [ofNat16_toNat h]; omega)

theorem plain_u32 (x : UInt32) : Plain readU32 x [u32 x] := by
  intro B base pos stk hs
  obtain ⟨⟨h1, h2⟩, _⟩ := hs
  obtain ⟨y, e1, e2⟩ := readU32_ok (r := ⟨B, pos, stk⟩) h1
  rw [e2]
  have : y = x := UInt32.toNat_inj.mp (by
    simp only at e1
    have := x.toNat_lt
    omega)
  subst this
  rfl

theorem i16_ofInt_nat {x : UInt16} {v : Int16} (h : (x.toNat : ℤ) = v.toInt % 65536) : x.toInt16 = v := by
  apply Int16.toInt_inj.mp
  have h1 : x.toInt16.toInt = x.toInt16.toBitVec.toInt := rfl
  have h2 := @BitVec.toInt_eq_toNat_cond 16 x.toInt16.toBitVec
  have h3 : x.toInt16.toBitVec.toNat = x.toNat := rfl
  have h4 := x.toNat_lt
  have h5 := v.le_toInt
  have h6 := v.toInt_lt
  rw [h1, h2, h3]
  split <;> omega

theorem plain_i16 (v : Int16) : Plain readI16 v [i16 v] := by
  intro B base pos stk hs
  obtain ⟨⟨h1, h2⟩, _⟩ := hs
  obtain ⟨y, e1, e2⟩ := readU16_ok (r := ⟨B, pos, stk⟩) h1
  unfold readI16
  rw [bind_run, e2]
  have : y.toInt16 = v := i16_ofInt_nat (by simp only at e1; rw [e1, h2]; norm_num)
  subst this
  rfl

/-! ### Lists -/

theorem finds_list {α : Type} {p : Reader α} {rows : α → List Cell} : ∀ {l : List α}, (∀ a ∈ l, Finds p a (rows a)) →
    Finds (deCounted p l.length) l (l.flatMap rows)
  | [], _ => finds_pure []
  | a :: l, h => by
    rw [List.flatMap_cons, List.length_cons, deCounted]
    exact (h a (by simp)).bind ((finds_list fun b hb => h b (by simp [hb])).last rfl)

theorem finds_list1 {α : Type} {p : Reader α} {row : α → Cell} {l : List α} (h : ∀ a ∈ l, Finds p a [row a]) :
    Finds (deCounted p l.length) l (l.map row) := by
  have := finds_list (rows := fun a => [row a]) h
  rwa [← List.map_eq_flatMap] at this

theorem finds_counted {α : Type} {p : Reader α} {rows : α → List Cell} {l : List α} (hl : l.length ≤ 65535)
    (h : ∀ a ∈ l, Finds p a (rows a)) : Finds (readCounted p) l (.num 2 l.length :: l.flatMap rows) := by
  unfold readCounted
  refine (plain_count hl).finds.cons ?_
  rw [ofNat16_toNat hl]
  exact finds_list h

theorem finds_counted1 {α : Type} {p : Reader α} {row : α → Cell} {l : List α} (hl : l.length ≤ 65535)
    (h : ∀ a ∈ l, Finds p a [row a]) : Finds (readCounted p) l (.num 2 l.length :: l.map row) := by
  have := finds_counted (rows := fun a => [row a]) hl h
  rwa [← List.map_eq_flatMap] at this

theorem plain_list {α : Type} {p : Reader α} {rows : α → List Cell} : ∀ {l : List α}, (∀ a ∈ l, Plain p a (rows a)) →
    Plain (deCounted p l.length) l (l.flatMap rows)
  | [], _ => plain_pure []
  | a :: l, h => by
    rw [List.flatMap_cons, List.length_cons, deCounted]
    exact (h a (by simp)).bind ((plain_list fun b hb => h b (by simp [hb])).last rfl)

theorem plain_list1 {α : Type} {p : Reader α} {row : α → Cell} {l : List α} (h : ∀ a ∈ l, Plain p a [row a]) :
    Plain (deCounted p l.length) l (l.map row) := by
  have := plain_list (rows := fun a => [row a]) h
  rwa [← List.map_eq_flatMap] at this

theorem plain_counted {α : Type} {p : Reader α} {rows : α → List Cell} {l : List α} (hl : l.length ≤ 65535)
    (h : ∀ a ∈ l, Plain p a (rows a)) : Plain (readCounted p) l (.num 2 l.length :: l.flatMap rows) := by
  unfold readCounted
  refine (plain_count hl).cons ?_
  rw [ofNat16_toNat hl]
  exact plain_list h

theorem plain_counted1 {α : Type} {p : Reader α} {row : α → Cell} {l : List α} (hl : l.length ≤ 65535)
    (h : ∀ a ∈ l, Plain p a [row a]) : Plain (readCounted p) l (.num 2 l.length :: l.map row) := by
  have := plain_counted (rows := fun a => [row a]) hl h
  rwa [← List.map_eq_flatMap] at this

theorem plain_words {l : List UInt16} (hl : l.length ≤ 65535) : Plain readU16s l (wordRows l) :=
  plain_counted1 hl fun x _ => plain_u16 x

/-! ### Offsets -/

/-- Rows that are shown fit the buffer, if there are any. -/
theorem shows_fits {B : Bytes} {base : Nat} : ∀ {pos : Nat} {rows : List Cell}, Shows B base pos rows → 0 < widths rows →
    pos + widths rows ≤ B.length
  | pos, [], _, h => by simp [widths] at h
  | pos, c :: l, h, hw => by
    rw [Shows] at h
    rw [widths_cons] at hw ⊢
    rcases Nat.eq_zero_or_pos (widths l) with h0 | h0
    · rw [h0, Nat.add_zero]
      cases c with
      | num w v => exact h.1.1
      | frac w b v => exact h.1.1
      | text bs =>
        have := congrArg List.length h.1
        simp only [List.length_take, List.length_drop] at this
        simp only [Cell.width] at hw ⊢
        omega
      | null w => exact h.1.1
      | off w r => exact h.1.1
      | ref w P => exact h.1.1
    · have := shows_fits h.2 h0
      omega

/-- A structure that keeps its own beginning as base. -/
theorem Finds.table {α : Type} {p : Reader α} {a : α} {rows : List Cell} (h : Finds p a rows) (h0 : 0 < widths rows) :
    FindsAt (inTable p) a (At rows) := by
  intro B start stk hs
  refine ⟨by have := shows_fits hs h0; omega, start + widths rows, ?_⟩
  unfold inTable
  rw [bind_run]
  simp only [pushTop]
  rw [bind_run, h B start start stk hs]
  rfl

/-- A structure without offsets. -/
theorem Plain.table {α : Type} {p : Reader α} {a : α} {rows : List Cell} (h : Plain p a rows) (h0 : 0 < widths rows) :
    FindsAt p a (At rows) := by
  intro B start stk hs
  exact ⟨by have := shows_fits hs h0; omega, start + widths rows, h B start start stk hs⟩

theorem finds_null {α : Type} (p : Reader α) : Finds (readOffset .w16 p) none [.null 2] := by
  intro B base pos stk hs
  obtain ⟨⟨h1, h2⟩, _⟩ := hs
  obtain ⟨y, e1, e2⟩ := readU16_ok (r := ⟨B, pos, base :: stk⟩) h1
  unfold readOffset readWidth
  rw [bind_run]
  simp only [bind_run, e2, pure_run]
  simp only at e1
  rw [e1, h2]
  rfl

theorem finds_ref {α : Type} {p : Reader α} {a : α} {P : Bytes → Nat → Prop} (h : FindsAt p a P) :
    Finds (readOffset .w16 p) (some a) [.ref 2 P] := by
  intro B base pos stk hs
  obtain ⟨⟨h1, h2, h3⟩, _⟩ := hs
  obtain ⟨y, e1, e2⟩ := readU16_ok (r := ⟨B, pos, base :: stk⟩) h1
  obtain ⟨h4, ptr, h5⟩ := h B _ (base :: stk) h3
  simp only at e1
  have hlt := y.toNat_lt
  unfold readOffset readWidth
  rw [bind_run]
  simp only [bind_run, e2, pure_run]
  rw [if_neg (by omega), if_neg (by omega)]
  simp only [bind_run, getPtr, followOffset, UInt16.ofNat_toNat]
  rw [if_neg (by omega), e1]
  simp only [h5, setPtr, pure_run]
  rfl

theorem finds_linked {α : Type} {p : Reader α} {P : α → Bytes → Nat → Prop} {x : Option α}
    (h : ∀ a ∈ x, FindsAt p a (P a)) : Finds (readOffset .w16 p) x [linked P x] := by
  cases x with
  | none => exact finds_null p
  | some a => exact finds_ref (h a rfl)

theorem finds_offVec {α : Type} {p : Reader α} {P : α → Bytes → Nat → Prop} {l : List (Option α)} (hl : l.length ≤ 65535)
    (h : ∀ x ∈ l, ∀ a ∈ x, FindsAt p a (P a)) : Finds (readOffVec p) l (.num 2 l.length :: l.map (linked P)) :=
  finds_counted1 hl fun x hx => finds_linked (h x hx)

/-- An offset that is followed unconditionally (subtables of lookups). -/
theorem finds_subAt {α : Type} {p : Reader α} {a : α} {P : Bytes → Nat → Prop} (h : FindsAt p a P) :
    Finds (readSubAt p) a [.ref 2 P] := by
  intro B base pos stk hs
  obtain ⟨⟨h1, h2, h3⟩, _⟩ := hs
  obtain ⟨y, e1, e2⟩ := readU16_ok (r := ⟨B, pos, base :: stk⟩) h1
  obtain ⟨h4, ptr, h5⟩ := h B _ (base :: stk) h3
  simp only at e1
  unfold readSubAt
  rw [bind_run, e2]
  simp only [bind_run, getPtr, topOfTable, setPtr]
  rw [e1, h5]
  rfl

/-- Dispatch on the first two bytes. -/
theorem FindsAt.peek {α : Type} {f : Bytes → Reader α} {a : α} {P : Bytes → Nat → Prop} {b0 b1 : UInt8}
    (h : FindsAt (f [b0, b1]) a P)
    (hP : ∀ B start, P B start → ∃ rest, At (.num 2 ((b0.toNat * 256 + b1.toNat : Nat) : ℤ) :: rest) B start) :
    FindsAt (FT.peek 2 >>= f) a P := by
  intro B start stk hs
  obtain ⟨h1, ptr, h2⟩ := h B start stk hs
  refine ⟨h1, ptr, ?_⟩
  obtain ⟨rest, h3⟩ := hP B start hs
  obtain ⟨⟨h4, h5⟩, _⟩ := h3
  have e : (B.drop start).take 2 = [b0, b1] := by
    have hl : ((B.drop start).take 2).length = 2 := by simp; omega
    match hm : (B.drop start).take 2, hl with
    | [x, y], _ =>
      unfold field at h5
      rw [hm] at h5
      simp only [beValue, List.foldl_cons, List.foldl_nil] at h5
      have := x.toNat_lt; have := y.toNat_lt; have := b0.toNat_lt; have := b1.toNat_lt
      rw [UInt8.toNat_inj.mp (show x.toNat = b0.toNat by omega), UInt8.toNat_inj.mp (show y.toNat = b1.toNat by omega)]
  rw [bind_run]
  unfold FT.peek
  rw [if_neg (by simp only; omega)]
  simp only [e]
  exact h2

end FT.Props
