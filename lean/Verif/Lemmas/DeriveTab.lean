import Verif.Lemmas.Derive
import Verif.Lemmas.Tab
import Verif.Props.DeriveTabSpec

/-!
# The two models of what is written for structures with offsets agree
-/

set_option linter.unusedVariables false

namespace FT.Props
open FT FT.Off FT.Der

/-! ### Putting bytes together -/

def cat (a b : Res Bytes) : Res Bytes := do
  let x ← a
  let y ← b
  return x ++ y

theorem cat_nil (a : Res Bytes) : cat a (.ok []) = a := by
  cases a with
  | ok x => show Res.ok (x ++ []) = _; rw [List.append_nil]
  | err => rfl
  | panic => rfl
theorem nil_cat (a : Res Bytes) : cat (.ok []) a = a := by cases a <;> rfl
theorem cat_assoc (a b c : Res Bytes) : cat (cat a b) c = cat a (cat b c) := by
  cases a with
  | ok x => cases b with
    | ok y => cases c with
      | ok z => show Res.ok (x ++ y ++ z) = Res.ok (x ++ (y ++ z)); rw [List.append_assoc]
      | err => rfl
      | panic => rfl
    | err => rfl
    | panic => rfl
  | err => rfl
  | panic => rfl
theorem encVecR_cat {α : Type} (f : α → Res Bytes) (a : α) (l : List α) : encVecR f (a :: l) = cat (f a) (encVecR f l) := by
  simp only [encVecR]
  cases f a with
  | ok x => cases encVecR f l <;> rfl
  | err => rfl
  | panic => rfl

theorem shallow_append : ∀ (t u : Tab), Off.shallow (t.append u) = cat (Off.shallow t) (Off.shallow u)
  | .nil, u => by simp only [Tab.append, Off.shallow, nil_cat]
  | .raw bs r, u => by
    simp only [Tab.append, Off.shallow, shallow_append r u]
    cases Off.shallow r with
    | ok x => cases Off.shallow u with
      | ok y => show Res.ok (bs ++ (x ++ y)) = Res.ok (bs ++ x ++ y); rw [List.append_assoc]
      | err => rfl
      | panic => rfl
    | err => rfl
    | panic => rfl
  | .null w r, u => by
    simp only [Tab.append, Off.shallow, shallow_append r u]
    cases Off.shallow r with
    | ok x => cases Off.shallow u with
      | ok y => show Res.ok (w.enc 0 ++ (x ++ y)) = Res.ok (w.enc 0 ++ x ++ y); rw [List.append_assoc]
      | err => rfl
      | panic => rfl
    | err => rfl
    | panic => rfl
  | .link w v o off c r, u => by
    cases off with
    | none => rfl
    | some n =>
      simp only [Tab.append, Off.shallow, shallow_append r u]
      cases Off.shallow r with
      | ok x => cases Off.shallow u with
        | ok y => show Res.ok (w.enc n ++ (x ++ y)) = Res.ok (w.enc n ++ x ++ y); rw [List.append_assoc]
        | err => rfl
        | panic => rfl
      | err => rfl
      | panic => rfl

/-- The tables below a child, as `serDesc` writes them. -/
def childBytes (c : Tab) : Res Bytes := cat (cat (Off.shallow c) (serDesc c false)) (serDesc c true)

theorem serDesc_cons (w : Width) (v o : Bool) (off : Option Nat) (c r : Tab) (s : Bool) :
    serDesc (.link w v o off c r) s = cat (if v = s then childBytes c else .ok []) (serDesc r s) := by
  simp only [serDesc]
  split
  · unfold childBytes
    cases Off.shallow c with
    | ok x => cases serDesc c false with
      | ok y => cases serDesc c true with
        | ok z => rfl
        | err => rfl
        | panic => rfl
      | err => rfl
      | panic => rfl
    | err => rfl
    | panic => rfl
  · rfl

theorem serDesc_append : ∀ (t u : Tab) (s : Bool), serDesc (t.append u) s = cat (serDesc t s) (serDesc u s)
  | .nil, u, s => by simp only [Tab.append, serDesc, nil_cat]
  | .raw bs r, u, s => by simp only [Tab.append, serDesc, serDesc_append r u]
  | .null w r, u, s => by simp only [Tab.append, serDesc, serDesc_append r u]
  | .link w v o off c r, u, s => by
    simp only [Tab.append]
    rw [serDesc_cons, serDesc_cons, serDesc_append r u, cat_assoc]

theorem descSize_append : ∀ (t u : Tab) (s : Bool), descSize (t.append u) s = descSize t s + descSize u s
  | .nil, u, s => by simp only [Tab.append, descSize, Nat.zero_add]
  | .raw bs r, u, s => by simp only [Tab.append, descSize, descSize_append r u]
  | .null w r, u, s => by simp only [Tab.append, descSize, descSize_append r u]
  | .link w v o off c r, u, s => by simp only [Tab.append, descSize, descSize_append r u]; omega

theorem resolve_append : ∀ (t u t' u' : Tab) (base d p : Nat), resolve t base d p = .ok t' →
    resolve u base (d + descSize t false) (p + descSize t true) = .ok u' → resolve (t.append u) base d p = .ok (t'.append u')
  | .nil, u, t', u', base, d, p, h, h' => by
    simp only [resolve] at h; cases h
    simpa [Tab.append, descSize] using h'
  | .raw bs r, u, t', u', base, d, p, h, h' => by
    simp only [resolve] at h
    cases e : resolve r base d p with
    | err => simp [e] at h
    | panic => simp [e] at h
    | ok r' =>
      simp only [e] at h; cases h
      simp only [Tab.append, resolve, resolve_append r u r' u' base d p e (by simpa [descSize] using h')]
  | .null w r, u, t', u', base, d, p, h, h' => by
    simp only [resolve] at h
    cases e : resolve r base d p with
    | err => simp [e] at h
    | panic => simp [e] at h
    | ok r' =>
      simp only [e] at h; cases h
      simp only [Tab.append, resolve, resolve_append r u r' u' base d p e (by simpa [descSize] using h')]
  | .link w v o off c r, u, t', u', base, d, p, h, h' => by
    simp only [resolve] at h
    simp only [Tab.append, resolve]
    cases e1 : setOff w o ((if v then p else d) - base) with
    | err => simp [e1] at h
    | panic => simp [e1] at h
    | ok x =>
      simp only [e1] at h ⊢
      cases e2 : resolve c (if v then p else d) ((if v then p else d) + Off.size c)
          ((if v then p else d) + Off.size c + descSize c false) with
      | err => simp [e2] at h
      | panic => simp [e2] at h
      | ok c' =>
        simp only [e2] at h ⊢
        cases e3 : resolve r base (if v then d else d + total c) (if v then p + total c else p) with
        | err => simp [e3] at h
        | panic => simp [e3] at h
        | ok r' =>
          simp only [e3] at h; cases h
          rw [resolve_append r u r' u' base _ _ e3 (by
            rw [← h']
            cases v
            · simp only [descSize, total, Bool.false_eq_true, if_true, if_false]
              congr 1 <;> omega
            · simp only [descSize, total, Bool.true_eq_false, if_true, if_false]
              congr 1 <;> omega)]
          rfl

/-! ### One kind of child at a time -/

/-- The children of `T` all have the flag `s`; they are written and placed like `a`'s. -/
structure Way {α : Type} (s : Bool) (R : α → Tab → Prop) (pl : α → Nat → Nat → α × Nat) (wr : α → Res Bytes) (a : α) (T : Tab) :
    Prop where
  noOther : descSize T (!s) = 0
  other : serDesc T (!s) = .ok []
  main : serDesc T s = wr a
  res : ∀ base d p, ∃ T', resolve T base d p = .ok T' ∧ R (pl a base (if s then p else d)).1 T' ∧
    (pl a base (if s then p else d)).2 = (if s then p else d) + descSize T s

theorem way_list {α : Type} {R : α → Tab → Prop} {pl : α → Nat → Nat → α × Nat} {wr : α → Res Bytes} :
    ∀ (l : List α) (Ts : List Tab), (∀ a T, a ∈ l → R a T → Way true R pl wr a T) → All2 R l Ts →
      Way true (fun l T => ∃ Ts, All2 R l Ts ∧ T = Tab.concat Ts) (fun l b p => thread (fun x q => pl x b q) l p) (encVecR wr)
        l (Tab.concat Ts)
  | [], [], _, _ => ⟨rfl, rfl, rfl, fun base d p => ⟨.nil, rfl, ⟨[], trivial, rfl⟩, rfl⟩⟩
  | [], _ :: _, _, h => h.elim
  | _ :: _, [], _, h => h.elim
  | a :: l, T :: Ts, hw, ⟨h1, h2⟩ => by
    have w1 := hw a T (by simp) h1
    have w2 := way_list l Ts (fun x U hx hU => hw x U (by simp [hx]) hU) h2
    refine ⟨?_, ?_, ?_, ?_⟩
    · simp only [Tab.concat, descSize_append, w1.noOther, w2.noOther]
    · simp only [Tab.concat, serDesc_append, w1.other, w2.other, nil_cat]
    · simp only [Tab.concat, serDesc_append, w1.main, w2.main, encVecR_cat]
    · intro base d p
      obtain ⟨T', e1, r1, p1⟩ := w1.res base d p
      obtain ⟨U', e2, ⟨Us, r2, hU⟩, p2⟩ := w2.res base (d + descSize T false) (p + descSize T true)
      simp only [if_true] at r1 p1 r2 p2
      refine ⟨T'.append U', by simp only [Tab.concat]; exact resolve_append _ _ _ _ _ _ _ e1 e2, ?_, ?_⟩
      · simp only [if_true, thread]
        refine ⟨T' :: Us, ⟨r1, ?_⟩, by simp only [Tab.concat, hU]⟩
        rw [p1]; exact r2
      · simp only [if_true, thread, Tab.concat, descSize_append, p1, p2]; omega
  termination_by l => l.length

/-- Bytes in front change nothing. -/
theorem way_bytes {α : Type} {s : Bool} {R S : α → Tab → Prop} {pl : α → Nat → Nat → α × Nat} {wr : α → Res Bytes} {a : α} {T : Tab}
    (bs : Bytes) (h : Way s R pl wr a T)
    (hs : ∀ base q T', R (pl a base q).1 T' → S (pl a base q).1 ((Tab.bytes bs).append T')) :
    Way s S pl wr a ((Tab.bytes bs).append T) := by
  refine ⟨?_, ?_, ?_, ?_⟩
  · rw [descSize_append, h.noOther]; cases s <;> rfl
  · rw [serDesc_append, h.other]; cases s <;> rfl
  · rw [serDesc_append, h.main]; cases s <;> exact nil_cat _
  · intro base d p
    obtain ⟨T', e, r, q⟩ := h.res base d p
    refine ⟨(Tab.bytes bs).append T', resolve_append (Tab.bytes bs) T (Tab.bytes bs) T' base d p rfl (by simpa [descSize] using e),
      hs _ _ _ r, ?_⟩
    rw [q, descSize_append]
    cases s <;> simp [descSize]

/-! ### Tables behind offsets -/

/-- What is behind an offset is written and placed in the same way. -/
structure TableWay (t : Ty) (a : t.den) (C : Tab) : Prop where
  size : Off.size C = Der.size t a
  own : Off.shallow C = Der.own t a
  write : cat (serDesc C false) (serDesc C true) = Der.write t a
  res : ∀ pos, ∃ C', resolve C pos (pos + Off.size C) (pos + Off.size C + descSize C false) = .ok C' ∧
    IsTab false t (place t a pos (pos + Der.size t a)).1 C' ∧ (place t a pos (pos + Der.size t a)).2 = pos + total C

theorem way_link {w : Width} {s : Bool} {t : Ty} (h : ∀ a C, IsTab false t a C → TableWay t a C) (l : Link t.den) (T : Tab)
    (hl : IsLink w s (IsTab false t) l T) :
    Way s (IsLink w s (IsTab false t)) (fun x b p => placeLink w (Der.size t) (place t) x b p) (writeLink (Der.own t) (Der.write t)) l T := by
  obtain ⟨off, link⟩ := l
  cases link with
  | none =>
    obtain ⟨h1, rfl⟩ := hl
    simp only at h1
    subst h1
    exact ⟨rfl, rfl, rfl, fun base d p => ⟨Tab.nullOff w, rfl, ⟨rfl, rfl⟩, rfl⟩⟩
  | some a =>
    obtain ⟨C, hC, rfl⟩ := hl
    have tw := h a C hC
    refine ⟨?_, ?_, ?_, ?_⟩
    · cases s <;> rfl
    · rw [serDesc_cons]; cases s <;> rfl
    · rw [serDesc_cons, if_pos rfl]
      show cat (childBytes C) (.ok []) = _
      rw [cat_nil]
      unfold childBytes
      rw [cat_assoc, tw.write, tw.own]
      rfl
    · intro base d p
      obtain ⟨C', e, r, q⟩ := tw.res (if s then p else d)
      refine ⟨.link w s false (if (if s then p else d) - base ≤ w.max then some ((if s then p else d) - base) else none) C' .nil,
        ?_, ?_, ?_⟩
      · have e0 : setOff w false ((if s then p else d) - base) =
            .ok (if (if s then p else d) - base ≤ w.max then some ((if s then p else d) - base) else none) := by
          unfold setOff
          by_cases hc : (if s then p else d) - base ≤ w.max
          · rw [if_pos hc, if_pos hc]
          · rw [if_neg hc, if_neg hc]; rfl
        simp only [resolve, e0, e]
      · exact ⟨C', r, rfl⟩
      · show (place t a (if s then p else d) ((if s then p else d) + Der.size t a)).2 = _
        rw [q]
        simp only [descSize, if_true, total]
        omega

/-! ### Sizes and own bytes -/

theorem size_list {α : Type} {R : α → Tab → Prop} {sz : α → Nat} : ∀ (l : List α) (Ts : List Tab),
    (∀ a T, a ∈ l → R a T → Off.size T = sz a) → All2 R l Ts → Off.size (Tab.concat Ts) = (l.map sz).sum
  | [], [], _, _ => rfl
  | [], _ :: _, _, h => h.elim
  | _ :: _, [], _, h => h.elim
  | a :: l, T :: Ts, hw, ⟨h1, h2⟩ => by
    simp only [Tab.concat, size_append, List.map_cons, List.sum_cons, hw a T (by simp) h1,
      size_list l Ts (fun x U hx hU => hw x U (by simp [hx]) hU) h2]

theorem bytes_list {α : Type} {R : α → Tab → Prop} {f : α → Res Bytes} : ∀ (l : List α) (Ts : List Tab),
    (∀ a T, a ∈ l → R a T → Off.shallow T = f a) → All2 R l Ts → Off.shallow (Tab.concat Ts) = encVecR f l
  | [], [], _, _ => rfl
  | [], _ :: _, _, h => h.elim
  | _ :: _, [], _, h => h.elim
  | a :: l, T :: Ts, hw, ⟨h1, h2⟩ => by
    simp only [Tab.concat, shallow_append, encVecR_cat, hw a T (by simp) h1,
      bytes_list l Ts (fun x U hx hU => hw x U (by simp [hx]) hU) h2]

theorem size_link {α : Type} {w : Width} {s : Bool} {R : α → Tab → Prop} {l : Link α} {T : Tab} (h : IsLink w s R l T) :
    Off.size T = w.size := by
  unfold IsLink at h
  split at h
  · rw [h.2]; rfl
  · obtain ⟨C, _, rfl⟩ := h; rfl

theorem bytes_link {α : Type} {w : Width} {s : Bool} {R : α → Tab → Prop} {l : Link α} {T : Tab} (h : IsLink w s R l T) :
    Off.shallow T = encLink w l := by
  obtain ⟨off, link⟩ := l
  cases link with
  | none =>
    obtain ⟨h1, rfl⟩ := h
    simp only at h1
    subst h1
    show Res.ok (w.enc 0 ++ []) = Res.ok (w.enc 0)
    rw [List.append_nil]
  | some a =>
    obtain ⟨C, _, rfl⟩ := h
    cases off with
    | none => rfl
    | some n => show Res.ok (w.enc n ++ []) = Res.ok (w.enc n); rw [List.append_nil]

mutual
theorem size_tab {Q : Width → Prop} : ∀ (t : Ty) (vec : Bool) (v : t.den) (T : Tab), TyAll Sized Q t → IsTab vec t v T →
    Off.size T = Der.size t v
  | .leaf c, vec, v, T, ha, h => by
    obtain ⟨bs, h1, rfl⟩ := h
    show bs.length + 0 = c.size v
    rw [ha v bs h1]; rfl
  | .counted w t, vec, l, T, ha, h => by
    obtain ⟨Ts, h1, rfl⟩ := h
    rw [size_append, size_list l Ts (fun a T _ hT => size_tab t true a T ha hT) h1]
    simp [Off.size, Der.size]
  | .off w t, vec, l, T, ha, h => size_link h
  | .offs c w t, vec, l, T, ha, h => by
    obtain ⟨Ts, h1, rfl⟩ := h
    rw [size_append, size_list (sz := fun _ => w.size) l Ts (fun a T _ hT => size_link hT) h1]
    simp [Off.size, Der.size]
  | .record e fs, vec, v, T, ha, h => size_tabF fs vec v T ha h
theorem size_tabF {Q : Width → Prop} : ∀ (fs : Fields) (vec : Bool) (v : fs.den) (T : Tab), FieldsAll Sized Q fs →
    IsTabF vec fs v T → Off.size T = sizeF fs v
  | .nil, vec, v, T, ha, h => by have h : T = .nil := h; rw [h]; rfl
  | .cons b e t r, vec, (x, y), T, ha, h => by
    obtain ⟨T1, T2, h1, h2, rfl⟩ := h
    rw [size_append, size_tab t _ x T1 ha.1 h1, size_tabF r vec y T2 ha.2 h2]
    rfl
end

theorem counted_bytes (w : Width) (n : Nat) (x : Res Bytes) : cat (.ok (w.enc n ++ [])) x = (do let y ← x; return w.enc n ++ y) := by
  rw [List.append_nil]; cases x <;> rfl

mutual
theorem bytes_tab : ∀ (t : Ty) (e vec : Bool) (v : t.den) (T : Tab), fieldOK e t = true → IsTab vec t v T →
    Off.shallow T = Der.toBytes t v
  | .leaf c, e, vec, v, T, ho, h => by
    obtain ⟨bs, h1, rfl⟩ := h
    show Res.ok (bs ++ []) = c.enc v
    rw [h1, List.append_nil]
  | .counted w t, e, vec, l, T, ho, h => by
    obtain ⟨Ts, h1, rfl⟩ := h
    rw [shallow_append, bytes_list l Ts (fun a T _ hT => bytes_tab t e true a T (by
      have ho : partOK e t = true := ho
      cases t <;> first | exact ho | (simp [partOK] at ho; done)) hT) h1]
    exact counted_bytes _ _ _
  | .off w t, e, vec, l, T, ho, h => bytes_link h
  | .offs c w t, e, vec, l, T, ho, h => by
    obtain ⟨Ts, h1, rfl⟩ := h
    rw [shallow_append, bytes_list (f := encLink w) l Ts (fun a T _ hT => bytes_link hT) h1]
    exact counted_bytes _ _ _
  | .record emb fs, e, vec, v, T, ho, h => by
    rw [toBytes_part (e := e) ho]
    have ho' := ho
    simp only [fieldOK, Bool.and_eq_true] at ho'
    exact bytes_tabF fs vec v T ho'.1 h
theorem bytes_tabF : ∀ (fs : Fields) (vec : Bool) (v : fs.den) (T : Tab), fieldsOK fs = true → IsTabF vec fs v T →
    Off.shallow T = Der.shallow fs v
  | .nil, vec, v, T, ho, h => by have h : T = .nil := h; rw [h]; rfl
  | .cons b e t r, vec, (x, y), T, ho, h => by
    obtain ⟨T1, T2, h1, h2, rfl⟩ := h
    simp only [fieldsOK, Bool.and_eq_true] at ho
    rw [shallow_append, bytes_tab t e _ x T1 ho.1 h1, bytes_tabF r vec y T2 ho.2 h2]
    rfl
end

/-! ### What is written behind -/

theorem way_id {α : Type} {s : Bool} {R : α → Tab → Prop} {pl pl' : α → Nat → Nat → α × Nat} {wr wr' : α → Res Bytes} {a : α} {T : Tab}
    (h : Way s R pl wr a T) (hp : ∀ b p, pl a b p = pl' a b p) (hw : wr a = wr' a) : Way s R pl' wr' a T :=
  ⟨h.noOther, h.other, by rw [h.main, hw], fun base d p => by rw [← hp]; exact h.res base d p⟩

/-- The rest of a structure within another places and writes nothing. -/
theorem inner_rest : ∀ (fs : Fields) (v : fs.den), fieldsOK fs = true → flatF true fs = true →
    (∀ b p, placeRest fs v b p = (v, p)) ∧ writeRest fs v = .ok []
  | .nil, v, _, _ => ⟨fun _ _ => rfl, rfl⟩
  | .cons b e t r, (x, y), ho, hf => by
    simp only [fieldsOK, Bool.and_eq_true] at ho
    simp only [flatF, Bool.and_eq_true, Bool.or_eq_true, Bool.not_eq_true', Bool.false_or, Bool.not_true] at hf
    obtain ⟨i1, i2⟩ := inner_rest r y ho.2 hf.2
    have h0 : (∀ b p, restOf e t x b p = (x, p)) ∧ restWrite e t x = .ok [] := by
      rcases hf.1.1 with h | h
      · cases t with
        | off w t => exact ⟨fun b p => (rest_id e w t x b p).1, (rest_id e w t x 0 0).2⟩
        | leaf => simp [Ty.isOff] at h
        | counted => simp [Ty.isOff] at h
        | offs => simp [Ty.isOff] at h
        | record => simp [Ty.isOff] at h
      · have := noOff t x h
        exact ⟨fun b p => by rw [(restOf_eq ho.1 x b p).1, this.2.1], by rw [(restOf_eq ho.1 x 0 0).2, this.2.2]⟩
    refine ⟨fun b p => ?_, ?_⟩
    · rw [placeRest_cons, h0.1]
      simp only [i1]
    · show cat (restWrite e t x) (writeRest r y) = _
      rw [h0.2, i2]; rfl

/-- Fields of a table: its `Offset` fields first, then the others. -/
structure FieldsWay (fs : Fields) (v : fs.den) (T : Tab) : Prop where
  direct : serDesc T false = writeDirect fs v
  rest : serDesc T true = writeRest fs v
  res : ∀ base d p, ∃ T', resolve T base d p = .ok T' ∧
    IsTabF false fs (placeRest fs (placeDirect fs v base d).1 base p).1 T' ∧
    (placeDirect fs v base d).2 = d + descSize T false ∧
    (placeRest fs (placeDirect fs v base d).1 base p).2 = p + descSize T true

theorem way_imp {α : Type} {s : Bool} {R S : α → Tab → Prop} {pl : α → Nat → Nat → α × Nat} {wr : α → Res Bytes} {a : α} {T : Tab}
    (h : Way s R pl wr a T) (hs : ∀ a T, R a T → S a T) : Way s S pl wr a T :=
  ⟨h.noOther, h.other, h.main, fun base d p => by
    obtain ⟨T', e, r, q⟩ := h.res base d p
    exact ⟨T', e, hs _ _ r, q⟩⟩

mutual
theorem part_way {Q : Width → Prop} : ∀ (t : Ty) (e : Bool) (v : t.den) (T : Tab), TyAll Sized Q t → fieldOK e t = true → t.isOff = false →
    flat true t = true → IsTab true t v T → Way true (IsTab true t) (place t) (write t) v T
  | .leaf c, e, v, T, ha, ho, hi, hf, h => by
    have h0 := h
    obtain ⟨bs, h1, rfl⟩ := h
    exact ⟨rfl, rfl, rfl, fun base d p => ⟨Tab.bytes bs, rfl, h0, rfl⟩⟩
  | .counted w t, e, l, T, ha, ho, hi, hf, h => by
    obtain ⟨Ts, h1, rfl⟩ := h
    have ho : partOK e t = true := ho
    have hf : flat true t = true := hf
    have ho' : fieldOK e t = true ∧ t.isOff = false := by
      cases t <;> first | exact ⟨ho, rfl⟩ | (simp [partOK] at ho; done)
    refine way_bytes _ (way_list l Ts (fun a T _ hT => part_way t e a T ha ho'.1 ho'.2 hf hT) h1) ?_
    rintro base q T' ⟨Us, h2, rfl⟩
    refine ⟨Us, h2, ?_⟩
    have := (thread_sizes (fun x q => place t x base q) (fun _ => 0) (fun _ _ => rfl) l q).2
    show _ = (Tab.bytes (w.enc (thread (fun x q => place t x base q) l q).1.length)).append _
    rw [this]
  | .off w t, e, l, T, ha, ho, hi, hf, h => by simp [Ty.isOff] at hi
  | .offs c w t, e, l, T, ha, ho, hi, hf, h => by
    obtain ⟨Ts, h1, rfl⟩ := h
    have ho : tableOK t = true := ho
    have hf : flat false t = true := hf
    refine way_bytes _ (way_list l Ts (fun a T _ hT => way_link (fun a C hC => table_way t a C ha.2 ho hf hC) a T hT) h1) ?_
    rintro base q T' ⟨Us, h2, rfl⟩
    refine ⟨Us, h2, ?_⟩
    have := (thread_sizes (fun x q => placeLink w (Der.size t) (place t) x base q) (fun _ => 0) (fun _ _ => rfl) l q).2
    show _ = (Tab.bytes (c.enc (thread (fun x q => placeLink w (Der.size t) (place t) x base q) l q).1.length)).append _
    rw [this]
  | .record emb fs, e, v, T, ha, ho, hi, hf, h => by
    have ho' := ho
    simp only [fieldOK, Bool.and_eq_true] at ho'
    have hf : flatF true fs = true := hf
    have hw := inner_way fs v T ha ho'.1 hf h
    refine way_id (R := IsTab true (.record emb fs)) (pl := placeDirect fs) (wr := writeDirect fs) hw ?_ ?_
    · intro b p
      show _ = placeRest fs (placeDirect fs v b p).1 b (placeDirect fs v b p).2
      rw [(inner_rest fs _ ho'.1 hf).1]
    · show _ = cat (writeDirect fs v) (writeRest fs v)
      rw [(inner_rest fs v ho'.1 hf).2, cat_nil]
theorem inner_way {Q : Width → Prop} : ∀ (fs : Fields) (v : fs.den) (T : Tab), FieldsAll Sized Q fs → fieldsOK fs = true →
    flatF true fs = true → IsTabF true fs v T → Way true (IsTabF true fs) (placeDirect fs) (writeDirect fs) v T
  | .nil, v, T, ha, ho, hf, h => by
    have h : T = .nil := h
    subst h
    exact ⟨rfl, rfl, rfl, fun base d p => ⟨.nil, rfl, rfl, rfl⟩⟩
  | .cons b e t r, (x, y), T, ha, ho, hf, h => by
    obtain ⟨T1, T2, h1, h2, rfl⟩ := h
    simp only [fieldsOK, Bool.and_eq_true] at ho
    simp only [flatF, Bool.and_eq_true, Bool.or_eq_true, Bool.not_eq_true', Bool.false_or, Bool.not_true] at hf
    simp only [Bool.true_or] at h1
    have w2 := inner_way r y T2 ha.2 ho.2 hf.2 h2
    have w1 : Way true (IsTab true t) (placeHere t) (writeHere t) x T1 := by
      cases hi : t.isOff with
      | true =>
        cases t with
        | off w t =>
          exact way_link (fun a C hC => table_way t a C ha.1.2 ho.1 hf.1.2 hC) x T1 h1
        | leaf => simp [Ty.isOff] at hi
        | counted => simp [Ty.isOff] at hi
        | offs => simp [Ty.isOff] at hi
        | record => simp [Ty.isOff] at hi
      | false =>
        rcases hf.1.1 with h | h
        · rw [hi] at h; cases h
        · have hn := noOff t x h
          refine way_id (part_way t e x T1 ha.1 ho.1 hi hf.1.2 h1) (fun b p => ?_) ?_
          · rw [hn.2.1, (here_id hi x).1]
          · rw [hn.2.2, (here_id hi x).2]
    refine ⟨?_, ?_, ?_, ?_⟩
    · rw [descSize_append, w1.noOther, w2.noOther]
    · rw [serDesc_append, w1.other, w2.other]; rfl
    · rw [serDesc_append, w1.main, w2.main]; rfl
    · intro base d p
      obtain ⟨T', e1, r1, p1⟩ := w1.res base d p
      obtain ⟨U', e2, r2, p2⟩ := w2.res base (d + descSize T1 false) (p + descSize T1 true)
      simp only [if_true] at r1 p1 r2 p2
      refine ⟨T'.append U', resolve_append _ _ _ _ _ _ _ e1 e2, ?_, ?_⟩
      · simp only [if_true]
        rw [placeDirect_cons, p1]
        exact ⟨T', U', by simpa using r1, r2, rfl⟩
      · simp only [if_true]
        rw [placeDirect_cons, p1, descSize_append]
        simp only [p2]; omega
theorem table_way {Q : Width → Prop} : ∀ (t : Ty) (a : t.den) (C : Tab), TyAll Sized Q t → tableOK t = true → flat false t = true →
    IsTab false t a C → TableWay t a C
  | .leaf c, v, T, ha, ho, hf, h => by
    have h0 := h
    have hs := size_tab (.leaf c) false v T ha h0
    have hb := bytes_tab (.leaf c) false false v T rfl h0
    obtain ⟨bs, h1, rfl⟩ := h
    refine ⟨hs, hb, rfl, fun pos => ⟨Tab.bytes bs, rfl, h0, ?_⟩⟩
    show pos + Der.size (.leaf c) v = _
    rw [← hs]; rfl
  | .counted w t, v, T, ha, ho, hf, h => by simp [tableOK] at ho
  | .off w t, v, T, ha, ho, hf, h => by simp [tableOK] at ho
  | .offs c w t, v, T, ha, ho, hf, h => by simp [tableOK] at ho
  | .record emb fs, v, T, ha, ho, hf, h => by
    simp only [tableOK, Bool.and_eq_true] at ho
    have hs := size_tabF fs false v T ha h
    have hw := fields_way fs v T ha ho.1 hf h
    refine ⟨hs, bytes_tabF fs false v T ho.1 h, ?_, ?_⟩
    · rw [hw.direct, hw.rest]; rfl
    · intro pos
      obtain ⟨C', e, r, q1, q2⟩ := hw.res pos (pos + Off.size T) (pos + Off.size T + descSize T false)
      have hs' : Der.size (.record emb fs) v = Off.size T := hs.symm
      refine ⟨C', e, ?_, ?_⟩
      · show IsTabF false fs (placeRest fs (placeDirect fs v pos (pos + Der.size (.record emb fs) v)).1 pos
          (placeDirect fs v pos (pos + Der.size (.record emb fs) v)).2).1 C'
        rw [hs', q1]; exact r
      · show (placeRest fs (placeDirect fs v pos (pos + Der.size (.record emb fs) v)).1 pos
          (placeDirect fs v pos (pos + Der.size (.record emb fs) v)).2).2 = _
        rw [hs', q1, q2]; unfold total; omega
theorem fields_way {Q : Width → Prop} : ∀ (fs : Fields) (v : fs.den) (T : Tab), FieldsAll Sized Q fs → fieldsOK fs = true →
    flatF false fs = true → IsTabF false fs v T → FieldsWay fs v T
  | .nil, v, T, ha, ho, hf, h => by
    have h : T = .nil := h
    subst h
    exact ⟨rfl, rfl, fun base d p => ⟨.nil, rfl, rfl, rfl, rfl⟩⟩
  | .cons b e t r, (x, y), T, ha, ho, hf, h => by
    obtain ⟨T1, T2, h1, h2, rfl⟩ := h
    simp only [fieldsOK, Bool.and_eq_true] at ho
    simp only [flatF, Bool.and_eq_true] at hf
    have w2 := fields_way r y T2 ha.2 ho.2 hf.2 h2
    cases hi : t.isOff with
    | true =>
      cases t with
      | off w t =>
        have w1 : Way false (IsTab false (.off w t)) (placeHere (.off w t)) (writeHere (.off w t)) x T1 :=
          way_link (fun a C hC => table_way t a C ha.1.2 ho.1 hf.1.2 hC) x T1 h1
        refine ⟨?_, ?_, ?_⟩
        · rw [serDesc_append, w1.main, w2.direct]; rfl
        · have := w1.other
          simp only [Bool.not_false] at this
          rw [serDesc_append, this, w2.rest]
          show _ = cat (restWrite e (.off w t) x) (writeRest r y)
          rw [(rest_id e w t x 0 0).2]
        · intro base d p
          obtain ⟨T', e1, r1, p1⟩ := w1.res base d p
          obtain ⟨U', e2, r2, p2, p3⟩ := w2.res base (d + descSize T1 false) (p + descSize T1 true)
          have hn := w1.noOther
          simp only [Bool.false_eq_true, if_false, Bool.not_false] at r1 p1 r2 p2 hn
          rw [hn, Nat.add_zero] at r2 p3
          refine ⟨T'.append U', resolve_append _ _ _ _ _ _ _ e1 e2, ?_, ?_, ?_⟩
          · rw [placeDirect_cons, placeRest_cons, p1, (rest_id e w t _ base p).1]
            exact ⟨T', U', r1, r2, rfl⟩
          · rw [placeDirect_cons, p1, descSize_append]
            simp only [p2]; omega
          · rw [placeDirect_cons, placeRest_cons, p1, (rest_id e w t _ base p).1, descSize_append, hn, Nat.zero_add]
            exact p3
      | leaf => simp [Ty.isOff] at hi
      | counted => simp [Ty.isOff] at hi
      | offs => simp [Ty.isOff] at hi
      | record => simp [Ty.isOff] at hi
    | false =>
      rw [hi] at h1
      simp only [Bool.not_false, Bool.or_true] at h1
      have w1 := part_way t e x T1 ha.1 ho.1 hi hf.1.2 h1
      have hn := w1.noOther
      have hot := w1.other
      simp only [Bool.not_true] at hn hot
      refine ⟨?_, ?_, ?_⟩
      · rw [serDesc_append, hot, w2.direct]
        show _ = cat (writeHere t x) (writeDirect r y)
        rw [(here_id hi x).2]
      · rw [serDesc_append, w1.main, w2.rest]
        show _ = cat (restWrite e t x) (writeRest r y)
        rw [(restOf_eq ho.1 x 0 0).2]
      · intro base d p
        obtain ⟨T', e1, r1, p1⟩ := w1.res base d p
        obtain ⟨U', e2, r2, p2, p3⟩ := w2.res base (d + descSize T1 false) (p + descSize T1 true)
        simp only [if_true] at r1 p1
        rw [hn, Nat.add_zero] at r2 p2 p3
        have hd : placeDirect (.cons b e t r) (x, y) base d = ((x, (placeDirect r y base d).1), (placeDirect r y base d).2) := by
          rw [placeDirect_cons, (here_id hi x).1]
        refine ⟨T'.append U', resolve_append _ _ _ _ _ _ _ e1 e2, ?_, ?_, ?_⟩
        · rw [hd, placeRest_cons, (restOf_eq ho.1 x base p).1, p1]
          exact ⟨T', U', by rw [hi]; exact r1, r2, rfl⟩
        · rw [hd, descSize_append, hn, Nat.zero_add]; exact p2
        · rw [hd, placeRest_cons, (restOf_eq ho.1 x base p).1, p1, descSize_append]
          simp only [p3]; omega
end

theorem toBytes_tab {Q : Width → Prop} {emb : Bool} {fs : Fields} {v : fs.den} {T : Tab} (ha : FieldsAll Sized Q fs)
    (hw : WellDeclared emb fs) (hf : flatF false fs = true) (h : IsTabF false fs v T) :
    Der.toBytes (.record emb fs) v = Off.toBytes T := by
  have hs := size_tabF fs false v T ha h
  have w := fields_way fs v T ha hw.1 hf h
  obtain ⟨T', e, r, q1, q2⟩ := w.res 0 (Off.size T) (Off.size T + descSize T false)
  have w' := fields_way fs _ T' ha hw.1 hf r
  rw [toBytes_root hw.2.2]
  have hp : (place (.record emb fs) v 0 (sizeF fs v)).1 =
      (placeRest fs (placeDirect fs v 0 (Off.size T)).1 0 (Off.size T + descSize T false)).1 := by
    show (placeRest fs (placeDirect fs v 0 (sizeF fs v)).1 0 (placeDirect fs v 0 (sizeF fs v)).2).1 = _
    rw [← hs, q1]
  rw [hp]
  have he : Off.toBytes T = cat (cat (Off.shallow T') (serDesc T' false)) (serDesc T' true) := by
    unfold Off.toBytes
    rw [e]
    show (do
      let top ← Off.shallow T'
      let direct ← serDesc T' false
      let others ← serDesc T' true
      pure (top ++ direct ++ others) : Res Bytes) = _
    cases Off.shallow T' with
    | ok x => cases serDesc T' false with
      | ok y => cases serDesc T' true <;> rfl
      | err => rfl
      | panic => rfl
    | err => rfl
    | panic => rfl
  rw [he, w'.direct, w'.rest, bytes_tabF fs false _ T' hw.1 r, cat_assoc]
  rfl

end FT.Props
