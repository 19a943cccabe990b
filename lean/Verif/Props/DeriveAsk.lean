import Verif.Props.Derive
import Verif.Model.DeriveAsk

/-! # C113: what can be asked of offsets -/

namespace FT.Props
open FT FT.Off FT.Der Reader

namespace DAsk

/-! ### Sizes -/

theorem thread_total {α : Type} {f : α → Nat → α × Nat} {g : α → Nat} (h : ∀ x p, (f x p).2 = p + g x) :
    ∀ (l : List α) (p : Nat), (thread f l p).2 = p + (l.map g).sum
  | [], p => rfl
  | a :: l, p => by
    show (thread f l (f a p).2).2 = _
    rw [thread_total h l, h a p, List.map_cons, List.sum_cons]; omega

theorem link_total {α : Type} {w : Width} {sz bel : α → Nat} {pl : α → Nat → Nat → α × Nat} (h : ∀ a b p, (pl a b p).2 = p + bel a)
    (l : Link α) (base p : Nat) : (placeLink w sz pl l base p).2 = p + totalLink sz bel l := by
  obtain ⟨off, link⟩ := l
  cases link with
  | none => rfl
  | some a =>
    show (pl a p (p + sz a)).2 = _
    rw [h]
    show p + sz a + bel a = p + (sz a + bel a)
    omega

theorem rest_direct : ∀ (fs : Fields) (v : fs.den) (b p : Nat), totalsRest fs (placeDirect fs v b p).1 = totalsRest fs v
  | .nil, _, _, _ => rfl
  | .cons b e t r, (x, y), base, p => by
    rw [placeDirect_cons]
    show (if e || t.isOffs then totals t (placeHere t x base p).1 else 0) + totalsRest r (placeDirect r y base (placeHere t x base p).2).1 = _
    rw [rest_direct r y]
    have : totals t (placeHere t x base p).1 = totals t x := by cases t <;> rfl
    rw [this]; rfl

mutual
theorem place_total : ∀ (t : Ty) (v : t.den) (b p : Nat), (place t v b p).2 = p + totals t v
  | .leaf c, v, b, p => rfl
  | .counted w t, l, b, p => thread_total (fun x q => place_total t x b q) l p
  | .off w t, v, b, p => rfl
  | .offs c w t, l, b, p => thread_total (fun x q => link_total (fun a b p => place_total t a b p) x b q) l p
  | .record emb fs, v, b, p => by
    show (placeRest fs (placeDirect fs v b p).1 b (placeDirect fs v b p).2).2 = p + (totalsDirect fs v + totalsRest fs v)
    rw [rest_total fs, rest_direct, direct_total fs v b p]; omega
theorem here_total : ∀ (t : Ty) (v : t.den) (b p : Nat), (placeHere t v b p).2 = p + totalsHere t v
  | .leaf c, v, b, p => rfl
  | .counted w t, l, b, p => rfl
  | .off w t, l, b, p => link_total (fun a b p => place_total t a b p) l b p
  | .offs c w t, l, b, p => rfl
  | .record emb fs, v, b, p => rfl
theorem direct_total : ∀ (fs : Fields) (v : fs.den) (b p : Nat), (placeDirect fs v b p).2 = p + totalsDirect fs v
  | .nil, _, _, _ => rfl
  | .cons b e t r, (x, y), base, p => by
    rw [placeDirect_cons]
    show (placeDirect r y base (placeHere t x base p).2).2 = p + (totalsHere t x + totalsDirect r y)
    rw [direct_total r y, here_total t x base p]; omega
theorem rest_total : ∀ (fs : Fields) (v : fs.den) (b p : Nat), (placeRest fs v b p).2 = p + totalsRest fs v
  | .nil, _, _, _ => rfl
  | .cons b e t r, (x, y), base, p => by
    rw [placeRest_cons]
    show (placeRest r y base (restOf e t x base p).2).2 = p + ((if e || t.isOffs then totals t x else 0) + totalsRest r y)
    rw [rest_total r y]
    have : (restOf e t x base p).2 = p + (if e || t.isOffs then totals t x else 0) := by
      unfold restOf
      split
      · exact place_total t x base p
      · rfl
    rw [this]; omega
end

/-! ### Reading -/

/-- A number is stored in every offset. -/
def StoredLink {α : Type} (P : α → Prop) (l : Link α) : Prop := l.off ≠ none ∧ ∀ a, l.link = some a → P a

mutual
def Stored : (t : Ty) → t.den → Prop
  | .leaf _, _ => True
  | .counted _ t, l => ∀ x ∈ (l : List t.den), Stored t x
  | .off _ t, l => StoredLink (Stored t) l
  | .offs _ _ t, l => ∀ x ∈ (l : List (Link t.den)), StoredLink (Stored t) x
  | .record _ fs, v => StoredF fs v
def StoredF : (fs : Fields) → fs.den → Prop
  | .nil, _ => True
  | .cons _ _ t r, (x, y) => Stored t x ∧ StoredF r y
end

theorem link_stored {α : Type} {P : α → Prop} {g : α → Bool} (h : ∀ a, P a → g a = false) (l : Link α) (hl : StoredLink P l) :
    needsLink g l = false := by
  obtain ⟨off, link⟩ := l
  obtain ⟨h1, h2⟩ := hl
  cases off with
  | none => exact absurd rfl h1
  | some n =>
    cases link with
    | none => rfl
    | some a => exact h a (h2 a rfl)

mutual
theorem needs_stored : ∀ (t : Ty) (v : t.den), Stored t v → needs t v = false
  | .leaf c, v, h => rfl
  | .counted w t, l, h => by
    show (l : List t.den).any (needs t) = false
    rw [List.any_eq_false]
    intro x hx
    rw [needs_stored t x (h x hx)]
    exact Bool.false_ne_true
  | .off w t, v, h => rfl
  | .offs c w t, l, h => by
    show (l : List (Link t.den)).any (needsLink (needs t)) = false
    rw [List.any_eq_false]
    intro x hx
    rw [link_stored (fun a ha => needs_stored t a ha) x (h x hx)]
    exact Bool.false_ne_true
  | .record emb fs, v, h => by
    show (needsDirect fs v || needsRest fs v) = false
    rw [(fields_stored fs v h).1, (fields_stored fs v h).2]; rfl
theorem fields_stored : ∀ (fs : Fields) (v : fs.den), StoredF fs v → needsDirect fs v = false ∧ needsRest fs v = false
  | .nil, _, _ => ⟨rfl, rfl⟩
  | .cons b e t r, (x, y), h => by
    obtain ⟨i1, i2⟩ := fields_stored r y h.2
    refine ⟨?_, ?_⟩
    · show (needsHere t x || needsDirect r y) = false
      rw [i1, Bool.or_false]
      exact field_stored t x h.1
    · show ((if e || t.isOffs then needs t x else false) || needsRest r y) = false
      rw [i2, Bool.or_false]
      split
      · exact needs_stored t x h.1
      · rfl
theorem field_stored : ∀ (t : Ty) (v : t.den), Stored t v → needsHere t v = false
  | .leaf c, v, h => rfl
  | .counted w t, l, h => rfl
  | .off w t, v, h => link_stored (fun a ha => needs_stored t a ha) v h
  | .offs c w t, l, h => rfl
  | .record emb fs, v, h => rfl
end

/-- What a reader gives satisfies `P`. -/
def Gives {α : Type} (P : α → Prop) (p : Reader α) : Prop := ∀ s a s', p s = .ok (a, s') → P a

theorem gives_bind {α β : Type} {P : α → Prop} {Q : β → Prop} {p : Reader α} {f : α → Reader β} (h : Gives P p)
    (hf : ∀ a, P a → Gives Q (f a)) : Gives Q (p >>= f) := by
  intro s b s' e
  rw [Reader.bind_run] at e
  cases e1 : p s with
  | err => simp [e1] at e
  | panic => simp [e1] at e
  | ok r =>
    obtain ⟨a, s1⟩ := r
    simp only [e1] at e
    exact hf a (h s a s1 e1) s1 b s' e

theorem gives_any {α : Type} (p : Reader α) : Gives (fun _ => True) p := fun _ _ _ _ => trivial

theorem gives_pure {α : Type} {P : α → Prop} {a : α} (h : P a) : Gives P (pure a) := by
  intro s b s' e
  cases e
  exact h

theorem gives_list {α : Type} {P : α → Prop} {p : Reader α} (h : Gives P p) : ∀ n, Gives (fun l => ∀ x ∈ l, P x) (deCounted p n)
  | 0 => gives_pure (fun _ hx => by cases hx)
  | n + 1 => gives_bind h fun a ha => gives_bind (gives_list h n) fun l hl => gives_pure fun x hx => by
      cases hx with
      | head => exact ha
      | tail _ hx => exact hl x hx

theorem gives_link {α : Type} {P : α → Prop} {w : Width} {p : Reader α} (h : Gives P p) : Gives (StoredLink P) (readLink w p) := by
  unfold readLink
  refine gives_bind (gives_any _) fun off _ => ?_
  by_cases h0 : off = 0
  · rw [if_pos h0]
    exact gives_pure ⟨by simp, fun a ha => by simp at ha⟩
  · rw [if_neg h0]
    by_cases h1 : off > 65535
    · rw [if_pos h1]; intro s a s' e; cases e
    · rw [if_neg h1]
      refine gives_bind (gives_any _) fun _ _ => gives_bind (gives_any _) fun _ _ => gives_bind h fun a ha =>
        gives_bind (gives_any _) fun _ _ => gives_pure ⟨by simp, fun b hb => ?_⟩
      cases hb
      exact ha

mutual
theorem read_stored : ∀ (t : Ty), Gives (Stored t) (read t)
  | .leaf c => fun _ _ _ _ => trivial
  | .counted w t => gives_bind (gives_any _) fun n _ => gives_list (read_stored t) n
  | .off w t => gives_link (read_stored t)
  | .offs c w t => gives_bind (gives_any _) fun n _ => gives_list (gives_link (read_stored t)) n
  | .record emb fs => by
    intro s v s' h
    unfold Der.read at h
    refine gives_bind (Q := StoredF fs) (readF_stored fs) (fun v hv => ?_) s v s' h
    split
    · exact gives_bind (gives_any _) fun _ _ => gives_pure hv
    · exact gives_pure hv
theorem readF_stored : ∀ (fs : Fields), Gives (StoredF fs) (readF fs)
  | .nil => gives_pure trivial
  | .cons b e t r => by
    have hb : Gives (StoredF (.cons b e t r)) (Der.read t >>= fun x => readF r >>= fun y => pure (x, y)) :=
      gives_bind (read_stored t) fun x hx => gives_bind (readF_stored r) fun y hy => gives_pure ⟨hx, hy⟩
    intro s v s' h
    unfold readF at h
    revert h
    split
    · exact gives_bind (gives_any _) (fun _ _ => hb) s v s'
    · exact hb s v s'
end

/-! ### Resolving -/

/-- Something is written. -/
abbrev Goes (r : Res Bytes) : Prop := ∃ s, r = .ok s

theorem goes_ok (s : Bytes) : Goes (.ok s) := ⟨s, rfl⟩

theorem goes_two {x y : Res Bytes} : Goes (do let a ← x; let b ← y; return a ++ b) ↔ Goes x ∧ Goes y := by
  constructor
  · rintro ⟨s, h⟩
    obtain ⟨a, h1, h2⟩ := bind_ok_inv h
    obtain ⟨b, h3, h4⟩ := bind_ok_inv h2
    exact ⟨⟨a, h1⟩, ⟨b, h3⟩⟩
  · rintro ⟨⟨a, rfl⟩, ⟨b, rfl⟩⟩
    exact ⟨a ++ b, rfl⟩

theorem goes_pre {x : Res Bytes} {c : Bytes} : Goes (do let a ← x; return c ++ a) ↔ Goes x := by
  constructor
  · rintro ⟨s, h⟩
    obtain ⟨a, h1, h2⟩ := bind_ok_inv h
    exact ⟨a, h1⟩
  · rintro ⟨a, rfl⟩
    exact ⟨c ++ a, rfl⟩

theorem goes_vec {α : Type} {enc : α → Res Bytes} : ∀ (l : List α), Goes (encVecR enc l) ↔ ∀ x ∈ l, Goes (enc x)
  | [] => ⟨fun _ x hx => absurd hx List.not_mem_nil, fun _ => goes_ok _⟩
  | a :: l => by
    rw [List.forall_mem_cons, ← goes_vec l]
    show Goes (match enc a with | .ok x => (match encVecR enc l with | .ok y => .ok (x ++ y) | .err => .err | .panic => .panic) | .err => .err | .panic => .panic) ↔ _
    cases enc a with
    | ok x =>
      cases encVecR enc l with
      | ok y => exact ⟨fun _ => ⟨goes_ok _, goes_ok _⟩, fun _ => goes_ok _⟩
      | err => exact ⟨fun ⟨_, h⟩ => by (cases h), fun h => by (obtain ⟨_, _, h⟩ := h; cases h)⟩
      | panic => exact ⟨fun ⟨_, h⟩ => by (cases h), fun h => by (obtain ⟨_, _, h⟩ := h; cases h)⟩
    | err => exact ⟨fun ⟨_, h⟩ => by (cases h), fun h => by (obtain ⟨⟨_, h⟩, _⟩ := h; cases h)⟩
    | panic => exact ⟨fun ⟨_, h⟩ => by (cases h), fun h => by (obtain ⟨⟨_, h⟩, _⟩ := h; cases h)⟩

theorem any_none {α : Type} {f : α → Bool} {l : List α} : l.any f = false ↔ ∀ x ∈ l, f x = false := by
  simp

theorem link_goes {α : Type} {w : Width} {F : α → Prop} {own wr : α → Res Bytes} {g : α → Bool}
    (h : ∀ a, F a → (Goes (own a) ∧ Goes (wr a) ↔ g a = false)) (l : Link α) (hl : FitsLink F l) :
    (Goes (encLink w l) ∧ Goes (writeLink own wr l)) ↔ needsLink g l = false := by
  obtain ⟨off, link⟩ := l
  cases link with
  | none =>
    have : off = some 0 := hl
    subst this
    exact ⟨fun _ => rfl, fun _ => ⟨goes_ok _, goes_ok _⟩⟩
  | some a =>
    have hw : Goes (writeLink own wr ⟨off, some a⟩) ↔ Goes (own a) ∧ Goes (wr a) := goes_two
    rw [hw, h a hl]
    cases off with
    | none => exact ⟨fun h => by (obtain ⟨⟨_, e⟩, _⟩ := h; cases e), fun e => by (simp [needsLink] at e)⟩
    | some n => exact ⟨fun e => by simp [needsLink, e.2], fun e => ⟨goes_ok _, by simpa [needsLink] using e⟩⟩

theorem goes_toPart {e emb : Bool} {fs : Fields} {v : fs.den} (ho : partOK e (.record emb fs) = true) :
    Der.toBytes (.record emb fs) v = shallow fs v := toBytes_part ho

mutual
theorem noOff_needs : ∀ (t : Ty) (v : t.den), hasOff t = false → needs t v = false ∧ needsHere t v = false
  | .leaf c, v, h => ⟨rfl, rfl⟩
  | .counted w t, l, h => by
    refine ⟨?_, rfl⟩
    show (l : List t.den).any (needs t) = false
    rw [any_none]
    exact fun x _ => (noOff_needs t x h).1
  | .off w t, v, h => by simp [hasOff] at h
  | .offs c w t, l, h => by simp [hasOff] at h
  | .record emb fs, v, h => by
    refine ⟨?_, rfl⟩
    show (needsDirect fs v || needsRest fs v) = false
    rw [(noOffF_needs fs v h).1, (noOffF_needs fs v h).2]; rfl
theorem noOffF_needs : ∀ (fs : Fields) (v : fs.den), hasOffF fs = false → needsDirect fs v = false ∧ needsRest fs v = false
  | .nil, _, _ => ⟨rfl, rfl⟩
  | .cons b e t r, (x, y), h => by
    simp only [hasOffF, Bool.or_eq_false_iff] at h
    obtain ⟨i1, i2⟩ := noOffF_needs r y h.2
    obtain ⟨j1, j2⟩ := noOff_needs t x h.1
    refine ⟨?_, ?_⟩
    · show (needsHere t x || needsDirect r y) = false
      rw [i1, j2]; rfl
    · show ((if e || t.isOffs then needs t x else false) || needsRest r y) = false
      rw [i2, j1]; simp
end

mutual
theorem part_goes : ∀ (t : Ty) (e : Bool) (v : t.den), partOK e t = true → Fits t v →
    ((Goes (Der.toBytes t v) ∧ Goes (write t v)) ↔ needs t v = false)
  | .leaf c, e, v, ho, hf => ⟨fun _ => rfl, fun _ => ⟨⟨_, hf.choose_spec.1⟩, goes_ok _⟩⟩
  | .counted w t, e, l, ho, hf => by
    show (Goes (do let x ← encVecR (Der.toBytes t) l; return w.enc (l : List t.den).length ++ x) ∧ Goes (encVecR (write t) l)) ↔
      (l : List t.den).any (needs t) = false
    rw [goes_pre, goes_vec, goes_vec, any_none]
    constructor
    · rintro ⟨h1, h2⟩ x hx
      exact (part_goes t e x ho (hf.2 x hx)).mp ⟨h1 x hx, h2 x hx⟩
    · intro h
      exact ⟨fun x hx => ((part_goes t e x ho (hf.2 x hx)).mpr (h x hx)).1, fun x hx => ((part_goes t e x ho (hf.2 x hx)).mpr (h x hx)).2⟩
  | .off w t, e, v, ho, hf => by simp [partOK] at ho
  | .offs c w t, e, v, ho, hf => by simp [partOK] at ho
  | .record emb fs, e, v, ho, hf => by
    rw [goes_toPart ho]
    have ho' : fieldsOK fs = true := by simp only [partOK, Bool.and_eq_true] at ho; exact ho.1
    exact fields_goes' fs v ho' hf
theorem fields_goes' : ∀ (fs : Fields) (v : fs.den), fieldsOK fs = true → FitsF fs v →
    ((Goes (shallow fs v) ∧ Goes (do let x ← writeDirect fs v; let y ← writeRest fs v; return x ++ y)) ↔
      (needsDirect fs v || needsRest fs v) = false)
  | fs, v, ho, hf => by
    rw [goes_two, Bool.or_eq_false_iff]
    exact fields_goes fs v ho hf
theorem table_goes : ∀ (t : Ty) (v : t.den), tableOK t = true → Fits t v →
    ((Goes (own t v) ∧ Goes (write t v)) ↔ needs t v = false)
  | .leaf c, v, ho, hf => ⟨fun _ => rfl, fun _ => ⟨⟨_, hf.choose_spec.1⟩, goes_ok _⟩⟩
  | .counted w t, v, ho, hf => by simp [tableOK] at ho
  | .off w t, v, ho, hf => by simp [tableOK] at ho
  | .offs c w t, v, ho, hf => by simp [tableOK] at ho
  | .record emb fs, v, ho, hf => by
    have ho' : fieldsOK fs = true := by simp only [tableOK, Bool.and_eq_true] at ho; exact ho.1
    exact fields_goes' fs v ho' hf
theorem field_goes : ∀ (t : Ty) (e : Bool) (v : t.den), fieldOK e t = true → Fits t v →
    ((Goes (Der.toBytes t v) ∧ Goes (writeHere t v) ∧ Goes (restWrite e t v)) ↔
      (needsHere t v = false ∧ (if e || t.isOffs then needs t v else false) = false))
  | .off w t, e, v, ho, hf => by
    have h := link_goes (w := w) (fun a ha => table_goes t a ho ha) v hf
    have hr : Goes (restWrite e (.off w t) v) := by unfold restWrite; split <;> exact goes_ok _
    have hn : (if e || (Ty.off w t).isOffs then needs (.off w t) v else false) = false := by split <;> rfl
    rw [hn]
    constructor
    · rintro ⟨h1, h2, _⟩
      exact ⟨h.mp ⟨h1, h2⟩, rfl⟩
    · rintro ⟨h1, _⟩
      exact ⟨(h.mpr h1).1, (h.mpr h1).2, hr⟩
  | .offs c w t, e, l, ho, hf => by
    have h : ∀ x ∈ (l : List (Link t.den)), (Goes (encLink w x) ∧ Goes (writeLink (own t) (write t) x)) ↔ needsLink (needs t) x = false :=
      fun x hx => link_goes (fun a ha => table_goes t a ho ha) x (hf.2 x hx)
    have hi : (e || (Ty.offs c w t).isOffs) = true := by cases e <;> rfl
    unfold restWrite
    rw [if_pos hi, if_pos hi]
    show (Goes (do let x ← encVecR (encLink w) l; return c.enc (l : List (Link t.den)).length ++ x) ∧ Goes (.ok []) ∧
      Goes (encVecR (writeLink (own t) (write t)) l)) ↔ (false = false ∧ (l : List (Link t.den)).any (needsLink (needs t)) = false)
    rw [goes_pre, goes_vec, goes_vec, any_none]
    constructor
    · rintro ⟨h1, _, h2⟩
      exact ⟨rfl, fun x hx => (h x hx).mp ⟨h1 x hx, h2 x hx⟩⟩
    · rintro ⟨_, h1⟩
      exact ⟨fun x hx => ((h x hx).mpr (h1 x hx)).1, goes_ok _, fun x hx => ((h x hx).mpr (h1 x hx)).2⟩
  | .leaf c, e, v, ho, hf => by
    have hr : Goes (restWrite e (.leaf c) v) := by unfold restWrite; split <;> exact goes_ok _
    refine ⟨fun _ => ⟨rfl, by split <;> rfl⟩, fun _ => ⟨⟨_, hf.choose_spec.1⟩, goes_ok _, hr⟩⟩
  | .counted w t, e, v, ho, hf => by
    have h := part_goes (.counted w t) e v ho hf
    cases e with
    | true =>
      show (_ ∧ Goes (.ok []) ∧ Goes (write (.counted w t) v)) ↔ (false = false ∧ needs (.counted w t) v = false)
      rw [← h]
      exact ⟨fun ⟨a, _, b⟩ => ⟨rfl, a, b⟩, fun ⟨_, a, b⟩ => ⟨a, goes_ok _, b⟩⟩
    | false =>
      have hn := (noOff_needs (.counted w t) v (part_unmarked (t := .counted w t) ho)).1
      exact ⟨fun _ => ⟨rfl, rfl⟩, fun _ => ⟨(h.mpr hn).1, goes_ok _, goes_ok _⟩⟩
  | .record emb fs, e, v, ho, hf => by
    have ho1 : partOK e (.record emb fs) = true := ho
    have ho' : fieldsOK fs = true := by simp only [fieldOK, Bool.and_eq_true] at ho; exact ho.1
    have h : (Goes (Der.toBytes (.record emb fs) v) ∧ Goes (write (.record emb fs) v)) ↔ needs (.record emb fs) v = false := by
      rw [goes_toPart ho1]
      exact fields_goes' fs v ho' hf
    cases e with
    | true =>
      show (_ ∧ Goes (.ok []) ∧ Goes (write (.record emb fs) v)) ↔ (false = false ∧ needs (.record emb fs) v = false)
      rw [← h]
      exact ⟨fun ⟨a, _, b⟩ => ⟨rfl, a, b⟩, fun ⟨_, a, b⟩ => ⟨a, goes_ok _, b⟩⟩
    | false =>
      have hn := (noOff_needs (.record emb fs) v (part_unmarked (t := .record emb fs) ho1)).1
      exact ⟨fun _ => ⟨rfl, rfl⟩, fun _ => ⟨(h.mpr hn).1, goes_ok _, goes_ok _⟩⟩
theorem fields_goes : ∀ (fs : Fields) (v : fs.den), fieldsOK fs = true → FitsF fs v →
    ((Goes (shallow fs v) ∧ Goes (writeDirect fs v) ∧ Goes (writeRest fs v)) ↔ (needsDirect fs v = false ∧ needsRest fs v = false))
  | .nil, _, _, _ => ⟨fun _ => ⟨rfl, rfl⟩, fun _ => ⟨goes_ok _, goes_ok _, goes_ok _⟩⟩
  | .cons b e t r, (x, y), ho, hf => by
    simp only [fieldsOK, Bool.and_eq_true] at ho
    have h1 := field_goes t e x ho.1 hf.1
    have h2 := fields_goes r y ho.2 hf.2
    have e1 : Goes (shallow (.cons b e t r) (x, y)) ↔ Goes (Der.toBytes t x) ∧ Goes (shallow r y) := goes_two
    have e2 : Goes (writeDirect (.cons b e t r) (x, y)) ↔ Goes (writeHere t x) ∧ Goes (writeDirect r y) := goes_two
    have e3 : Goes (writeRest (.cons b e t r) (x, y)) ↔ Goes (restWrite e t x) ∧ Goes (writeRest r y) := goes_two
    rw [e1, e2, e3]
    show _ ↔ ((needsHere t x || needsDirect r y) = false ∧ ((if e || t.isOffs then needs t x else false) || needsRest r y) = false)
    rw [Bool.or_eq_false_iff, Bool.or_eq_false_iff]
    constructor
    · rintro ⟨⟨a1, a2⟩, ⟨b1, b2⟩, ⟨c1, c2⟩⟩
      obtain ⟨d1, d2⟩ := h1.mp ⟨a1, b1, c1⟩
      obtain ⟨d3, d4⟩ := h2.mp ⟨a2, b2, c2⟩
      exact ⟨⟨d1, d3⟩, d2, d4⟩
    · rintro ⟨⟨d1, d3⟩, d2, d4⟩
      obtain ⟨a1, b1, c1⟩ := h1.mpr ⟨d1, d2⟩
      obtain ⟨a2, b2, c2⟩ := h2.mpr ⟨d3, d4⟩
      exact ⟨⟨a1, a2⟩, ⟨b1, b2⟩, c1, c2⟩
end

/-! ### Resolving keeps what is written -/

theorem thread_all {α : Type} {f : α → Nat → α × Nat} {F : α → Prop} (h : ∀ x p, F x → F (f x p).1) :
    ∀ (l : List α) (p : Nat), (∀ x ∈ l, F x) → (thread f l p).1.length = l.length ∧ ∀ x ∈ (thread f l p).1, F x
  | [], p, hl => ⟨rfl, fun x hx => by cases hx⟩
  | a :: l, p, hl => by
    obtain ⟨i1, i2⟩ := thread_all h l (f a p).2 (fun x hx => hl x (List.mem_cons_of_mem _ hx))
    refine ⟨congrArg (· + 1) i1, fun x hx => ?_⟩
    have hx : x ∈ (f a p).1 :: (thread f l (f a p).2).1 := hx
    cases hx with
    | head => exact h a p (hl a (by simp))
    | tail _ hx => exact i2 x hx

theorem link_fits {α : Type} {w : Width} {sz : α → Nat} {pl : α → Nat → Nat → α × Nat} {F : α → Prop} (h : ∀ a b p, F a → F (pl a b p).1)
    (l : Link α) (b p : Nat) (hl : FitsLink F l) : FitsLink F (placeLink w sz pl l b p).1 := by
  obtain ⟨off, link⟩ := l
  cases link with
  | none =>
    have : off = some 0 := hl
    subst this
    rfl
  | some a => exact h a _ _ hl

mutual
theorem place_fits : ∀ (t : Ty) (v : t.den) (b p : Nat), Fits t v → Fits t (place t v b p).1
  | .leaf c, v, b, p, h => h
  | .counted w t, l, b, p, h => by
    obtain ⟨h1, h2⟩ := thread_all (F := Fits t) (fun x q hx => place_fits t x b q hx) l p h.2
    exact ⟨Nat.le_trans (Nat.le_of_eq h1) h.1, h2⟩
  | .off w t, v, b, p, h => h
  | .offs c w t, l, b, p, h => by
    obtain ⟨h1, h2⟩ := thread_all (F := FitsLink (Fits t)) (fun x q hx => link_fits (w := w) (sz := Der.size t)
      (fun a b p ha => place_fits t a b p ha) x b q hx) l p h.2
    exact ⟨Nat.le_trans (Nat.le_of_eq h1) h.1, h2⟩
  | .record emb fs, v, b, p, h => rest_fits fs _ b _ (direct_fits fs v b p h)
theorem here_fits : ∀ (t : Ty) (v : t.den) (b p : Nat), Fits t v → Fits t (placeHere t v b p).1
  | .leaf c, v, b, p, h => h
  | .counted w t, l, b, p, h => h
  | .off w t, v, b, p, h => link_fits (fun a b p ha => place_fits t a b p ha) v b p h
  | .offs c w t, l, b, p, h => h
  | .record emb fs, v, b, p, h => h
theorem direct_fits : ∀ (fs : Fields) (v : fs.den) (b p : Nat), FitsF fs v → FitsF fs (placeDirect fs v b p).1
  | .nil, _, _, _, _ => trivial
  | .cons b e t r, (x, y), base, p, h => by
    rw [placeDirect_cons]
    exact ⟨here_fits t x base p h.1, direct_fits r y base _ h.2⟩
theorem rest_fits : ∀ (fs : Fields) (v : fs.den) (b p : Nat), FitsF fs v → FitsF fs (placeRest fs v b p).1
  | .nil, _, _, _, _ => trivial
  | .cons b e t r, (x, y), base, p, h => by
    rw [placeRest_cons]
    refine ⟨?_, rest_fits r y base _ h.2⟩
    show Fits t (restOf e t x base p).1
    unfold restOf
    split
    · exact place_fits t x base p h.1
    · exact h.1
end

/-! ### Everything below a value -/

theorem map_sum {α : Type} {f g : α → Nat} {l : List α} (h : ∀ x ∈ l, f x = g x) : (l.map f).sum = (l.map g).sum := by
  rw [List.map_congr_left h]

theorem sum_zero {α : Type} {f : α → Nat} (h : ∀ x, f x = 0) : ∀ (l : List α), (l.map f).sum = 0
  | [] => rfl
  | a :: l => by rw [List.map_cons, List.sum_cons, h a, sum_zero h l]

theorem below_link {α : Type} {sz f g : α → Nat} (h : ∀ a, f a = g a) (l : Link α) : belowLink sz f l = totalLink sz g l := by
  obtain ⟨off, link⟩ := l
  cases link with
  | none => rfl
  | some a => exact congrArg (sz a + ·) (h a)

mutual
theorem noOff_totals : ∀ (t : Ty) (v : t.den), hasOff t = false → totals t v = 0 ∧ totalsHere t v = 0
  | .leaf _, _, _ => ⟨rfl, rfl⟩
  | .counted w t, l, h => by
    refine ⟨?_, rfl⟩
    show ((l : List t.den).map (totals t)).sum = 0
    exact sum_zero (fun x => (noOff_totals t x h).1) l
  | .off _ _, _, h => by simp [hasOff] at h
  | .offs _ _ _, _, h => by simp [hasOff] at h
  | .record _ fs, v, h => by
    refine ⟨?_, rfl⟩
    show totalsDirect fs v + totalsRest fs v = 0
    rw [(noOffF_totals fs v h).1, (noOffF_totals fs v h).2]
theorem noOffF_totals : ∀ (fs : Fields) (v : fs.den), hasOffF fs = false → totalsDirect fs v = 0 ∧ totalsRest fs v = 0
  | .nil, _, _ => ⟨rfl, rfl⟩
  | .cons b e t r, (x, y), h => by
    simp only [hasOffF, Bool.or_eq_false_iff] at h
    obtain ⟨i1, i2⟩ := noOffF_totals r y h.2
    obtain ⟨j1, j2⟩ := noOff_totals t x h.1
    refine ⟨?_, ?_⟩
    · show totalsHere t x + totalsDirect r y = 0
      rw [i1, j2]
    · show (if e || t.isOffs then totals t x else 0) + totalsRest r y = 0
      rw [i2, j1]; simp
end

mutual
theorem below_part : ∀ (t : Ty) (e : Bool) (v : t.den), partOK e t = true → below t v = totals t v
  | .leaf _, _, _, _ => rfl
  | .counted _ t, e, l, ho => map_sum (l := (l : List t.den)) fun x _ => below_part t e x ho
  | .off _ _, _, _, ho => by simp [partOK] at ho
  | .offs _ _ _, _, _, ho => by simp [partOK] at ho
  | .record _ fs, e, v, ho => by
    have ho' : fieldsOK fs = true := by simp only [partOK, Bool.and_eq_true] at ho; exact ho.1
    exact below_fields fs v ho'
theorem below_table : ∀ (t : Ty) (v : t.den), tableOK t = true → below t v = totals t v
  | .leaf _, _, _ => rfl
  | .counted _ _, _, ho => by simp [tableOK] at ho
  | .off _ _, _, ho => by simp [tableOK] at ho
  | .offs _ _ _, _, ho => by simp [tableOK] at ho
  | .record _ fs, v, ho => by
    have ho' : fieldsOK fs = true := by simp only [tableOK, Bool.and_eq_true] at ho; exact ho.1
    exact below_fields fs v ho'
theorem below_field : ∀ (t : Ty) (e : Bool) (v : t.den), fieldOK e t = true →
    below t v = totalsHere t v + (if e || t.isOffs then totals t v else 0)
  | .off w t, e, v, ho => by
    have hn : (if e || (Ty.off w t).isOffs then totals (.off w t) v else 0) = 0 := by split <;> rfl
    rw [hn]
    exact below_link (fun a => below_table t a ho) v
  | .offs c w t, e, l, ho => by
    have hi : (e || (Ty.offs c w t).isOffs) = true := by cases e <;> rfl
    rw [if_pos hi]
    have h : below (.offs c w t) l = totals (.offs c w t) l :=
      map_sum (l := (l : List (Link t.den))) fun x _ => below_link (fun a => below_table t a ho) x
    rw [h]
    exact (Nat.zero_add _).symm
  | .leaf c, e, v, _ => by
    have hn : (if e || (Ty.leaf c).isOffs then totals (.leaf c) v else 0) = 0 := by split <;> rfl
    rw [hn]; rfl
  | .counted w t, e, l, ho => by
    have h : below (.counted w t) l = totals (.counted w t) l := map_sum (l := (l : List t.den)) fun x _ => below_part t e x ho
    rw [h]
    cases e with
    | true => exact (Nat.zero_add _).symm
    | false => exact (noOff_totals (.counted w t) l (part_unmarked (t := .counted w t) ho)).1
  | .record emb fs, e, v, ho => by
    have ho1 : partOK e (.record emb fs) = true := ho
    have ho' : fieldsOK fs = true := by simp only [fieldOK, Bool.and_eq_true] at ho; exact ho.1
    have h : below (.record emb fs) v = totals (.record emb fs) v := below_fields fs v ho'
    rw [h]
    cases e with
    | true => exact (Nat.zero_add _).symm
    | false => exact (noOff_totals (.record emb fs) v (part_unmarked (t := .record emb fs) ho1)).1
theorem below_fields : ∀ (fs : Fields) (v : fs.den), fieldsOK fs = true → belowF fs v = totalsDirect fs v + totalsRest fs v
  | .nil, _, _ => rfl
  | .cons b e t r, (x, y), ho => by
    simp only [fieldsOK, Bool.and_eq_true] at ho
    have h1 := below_field t e x ho.1
    have h2 := below_fields r y ho.2
    show below t x + belowF r y = (totalsHere t x + totalsDirect r y) + ((if e || t.isOffs then totals t x else 0) + totalsRest r y)
    omega
end

/-! ### Resolving changes nothing but the numbers -/

theorem list_refl {α : Type} {R : α → α → Prop} (h : ∀ x, R x x) : ∀ (l : List α), SameL R l l
  | [] => trivial
  | a :: l => ⟨h a, list_refl h l⟩

theorem link_refl {α : Type} {R : α → α → Prop} (h : ∀ x, R x x) (l : Link α) : SameLink R l l := by
  obtain ⟨off, link⟩ := l
  cases link with
  | none => trivial
  | some a => exact h a

mutual
theorem ask_refl : ∀ (t : Ty) (v : t.den), Same t v v
  | .leaf _, _ => rfl
  | .counted _ t, l => list_refl (ask_refl t) l
  | .off _ t, l => link_refl (ask_refl t) l
  | .offs _ _ t, l => list_refl (link_refl (ask_refl t)) l
  | .record _ fs, v => askF_refl fs v
theorem askF_refl : ∀ (fs : Fields) (v : fs.den), SameF fs v v
  | .nil, _ => trivial
  | .cons _ _ t r, (x, y) => ⟨ask_refl t x, askF_refl r y⟩
end

theorem thread_keeps {α : Type} {R : α → α → Prop} {f : α → Nat → α × Nat} (h : ∀ x y q, R x y → R x (f y q).1) :
    ∀ (l m : List α) (q : Nat), SameL R l m → SameL R l (thread f m q).1
  | [], [], _, _ => trivial
  | _ :: l, b :: m, q, hs => ⟨h _ b q hs.1, thread_keeps h l m _ hs.2⟩
  | [], _ :: _, _, hs => hs.elim
  | _ :: _, [], _, hs => hs.elim

theorem link_keeps {α : Type} {R : α → α → Prop} {w : Width} {sz : α → Nat} {pl : α → Nat → Nat → α × Nat}
    (h : ∀ x y b q, R x y → R x (pl y b q).1) (l m : Link α) (b q : Nat) (hs : SameLink R l m) :
    SameLink R l (placeLink w sz pl m b q).1 := by
  obtain ⟨o1, l1⟩ := l
  obtain ⟨o2, l2⟩ := m
  cases l1 with
  | none =>
    cases l2 with
    | none =>
      by_cases h0 : (⟨o2, none⟩ : Link α).isZero
      · simp [SameLink, placeLink, h0]
      · simp [SameLink, placeLink, h0]
    | some b => exact hs.elim
  | some a =>
    cases l2 with
    | none => exact hs.elim
    | some c => exact h a c _ _ hs

mutual
theorem place_keeps : ∀ (t : Ty) (v w : t.den) (b p : Nat), Same t v w → Same t v (place t w b p).1
  | .leaf _, _, _, _, _, h => h
  | .counted _ t, l, m, b, p, h => thread_keeps (fun x y q hx => place_keeps t x y b q hx) l m p h
  | .off _ _, _, _, _, _, h => h
  | .offs _ w t, l, m, b, p, h => thread_keeps (fun x y q hx => link_keeps (w := w) (sz := Der.size t)
      (fun x y b q hx => place_keeps t x y b q hx) x y b q hx) l m p h
  | .record _ fs, v, w, b, p, h => rest_keeps fs v _ b _ (direct_keeps fs v w b p h)
theorem here_keeps : ∀ (t : Ty) (v w : t.den) (b p : Nat), Same t v w → Same t v (placeHere t w b p).1
  | .leaf _, _, _, _, _, h => h
  | .counted _ _, _, _, _, _, h => h
  | .off _ t, l, m, b, p, h => link_keeps (fun x y b q hx => place_keeps t x y b q hx) l m b p h
  | .offs _ _ _, _, _, _, _, h => h
  | .record _ _, _, _, _, _, h => h
theorem direct_keeps : ∀ (fs : Fields) (v w : fs.den) (b p : Nat), SameF fs v w → SameF fs v (placeDirect fs w b p).1
  | .nil, _, _, _, _, _ => trivial
  | .cons _ e t r, (x, y), (x', y'), base, p, h => by
    rw [placeDirect_cons]
    exact ⟨here_keeps t x x' base p h.1, direct_keeps r y y' base _ h.2⟩
theorem rest_keeps : ∀ (fs : Fields) (v w : fs.den) (b p : Nat), SameF fs v w → SameF fs v (placeRest fs w b p).1
  | .nil, _, _, _, _, _ => trivial
  | .cons _ e t r, (x, y), (x', y'), base, p, h => by
    rw [placeRest_cons]
    refine ⟨?_, rest_keeps r y y' base _ h.2⟩
    show Same t x (restOf e t x' base p).1
    unfold restOf
    split
    · exact place_keeps t x x' base p h.1
    · exact h.1
end

end DAsk
open DAsk

/-- **C113.** A structure is written as its own bytes and as many more as its offsets say that their tables take with
everything behind them. -/
theorem C113_sizes (embedded : Bool) (fs : Fields) (v : fs.den) (bs : Bytes) (hd : WellDeclared embedded fs)
    (ha : FieldsAll Sized (fun _ => True) fs) (h : Der.toBytes (.record embedded fs) v = .ok bs) :
    bs.length = Der.size (.record embedded fs) v + totals (.record embedded fs) v := by
  obtain ⟨hd1, hd2, hd3⟩ := hd
  rw [toBytes_root hd3] at h
  obtain ⟨s, h1, h2⟩ := bind_ok_inv h
  obtain ⟨D, h3, h4⟩ := bind_ok_inv h2
  injection h4 with h4
  subst h4
  have hlen := shallow_len fs _ s ha hd1 h1
  have hsz : sizeF fs (place (.record embedded fs) v 0 (sizeF fs v)).1 = sizeF fs v := size_place (.record embedded fs) v 0 _
  obtain ⟨d1, d2, g1, g2, rfl⟩ := write_record_inv h3
  obtain ⟨k1, k2⟩ := fields_end fs v 0 (sizeF fs v) (placeDirect fs v 0 (sizeF fs v)).2 d1 d2 ha hd1 g1 g2
  have t := place_total (.record embedded fs) v 0 (sizeF fs v)
  have e : (place (.record embedded fs) v 0 (sizeF fs v)).2 =
    (placeRest fs (placeDirect fs v 0 (sizeF fs v)).1 0 (placeDirect fs v 0 (sizeF fs v)).2).2 := rfl
  show (s ++ (d1 ++ d2)).length = sizeF fs v + totals (.record embedded fs) v
  rw [List.length_append, List.length_append, hlen, hsz]
  omega

example : totals (.record false exampleFields) exampleValue = 16 ∧ Der.size (.record false exampleFields) exampleValue = 18 ∧
    ∀ bs, Der.toBytes (.record false exampleFields) exampleValue = .ok bs → bs.length = 34 :=
  ⟨by decide, by decide, fun bs h => C113_sizes false exampleFields exampleValue bs (by decide) exampleSized h⟩

/-- Nothing that was read needs resolving, however it is declared. -/
theorem C113_read (t : Ty) (s s' : Rd) (v : t.den) (h : read t s = .ok (v, s')) : needs t v = false :=
  needs_stored t v (read_stored t s v s' h)

example : ∃ bs v s', read (.record false exampleFields) (Rd.new bs) = .ok (v, s') ∧ SameF exampleFields exampleValue v ∧
    needs (.record false exampleFields) v = false := by
  obtain ⟨bs, v', _, h, h2, _⟩ := C106_survives false exampleFields exampleValue (by decide) exampleSized exampleFits (by decide)
  exact ⟨bs, v', _, h, h2, C113_read (.record false exampleFields) _ _ v' h⟩

/-- A structure can be written if and only if, after its offsets have been resolved, none needs resolving: an offset that
does not fit its field is left without a number. -/
theorem C113_resolved (embedded : Bool) (fs : Fields) (v : fs.den) (hd : WellDeclared embedded fs) (hf : FitsF fs v) :
    (∃ bs, Der.toBytes (.record embedded fs) v = .ok bs) ↔ needs (.record embedded fs) (resolveOffsets embedded fs v) = false := by
  obtain ⟨hd1, hd2, hd3⟩ := hd
  rw [toBytes_root hd3]
  have h := fields_goes' fs (resolveOffsets embedded fs v) hd1 (place_fits (.record embedded fs) v 0 (sizeF fs v) hf)
  exact goes_two.trans h

example : needs (.record false exampleFields) exampleValue = true ∧
    needs (.record false exampleFields) (resolveOffsets false exampleFields exampleValue) = false :=
  ⟨by decide, (C113_resolved false exampleFields exampleValue (by decide) exampleFits).mp
    (by obtain ⟨bs, _, h, _⟩ := C106_survives false exampleFields exampleValue (by decide) exampleSized exampleFits (by decide)
        exact ⟨bs, h⟩)⟩

/-- In particular nothing needs resolving any more in a structure that takes at most 65535 bytes with everything behind
its offsets. -/
theorem C113_small (embedded : Bool) (fs : Fields) (v : fs.den) (hd : WellDeclared embedded fs)
    (ha : FieldsAll Sized (fun _ => True) fs) (hf : FitsF fs v)
    (hl : Der.size (.record embedded fs) v + totals (.record embedded fs) v ≤ 65535) :
    needs (.record embedded fs) (resolveOffsets embedded fs v) = false := by
  refine (C113_resolved embedded fs v hd hf).mp ?_
  obtain ⟨bs, h1, h2⟩ := writes_root embedded fs v hd ha hf (by rw [below_fields fs v hd.1]; exact hl)
  exact ⟨bs, h1⟩

example : needs (.record false exampleFields) (resolveOffsets false exampleFields exampleValue) = false :=
  C113_small false exampleFields exampleValue (by decide) exampleSized exampleFits (by decide)

/-- Resolving gives a structure equal to the one given, for any declaration. -/
theorem C113_equal (embedded : Bool) (fs : Fields) (v : fs.den) : SameF fs v (resolveOffsets embedded fs v) :=
  place_keeps (.record embedded fs) v v 0 (sizeF fs v) (ask_refl (.record embedded fs) v)

/-- Resolving first and writing then gives the bytes that writing gives. -/
theorem C113_bytes (embedded : Bool) (fs : Fields) (v : fs.den) (hd : WellDeclared embedded fs) (hf : FitsF fs v) :
    Der.toBytes (.record embedded fs) (resolveOffsets embedded fs v) = Der.toBytes (.record embedded fs) v :=
  (same_bytes hd (C113_equal embedded fs v) hf (place_fits (.record embedded fs) v 0 (sizeF fs v) hf)).symm

example : SameF exampleFields exampleValue (resolveOffsets false exampleFields exampleValue) ∧
    (resolveOffsets false exampleFields exampleValue).2.1.off = some 18 ∧ exampleValue.2.1.off = none ∧
    Der.toBytes (.record false exampleFields) (resolveOffsets false exampleFields exampleValue) =
      Der.toBytes (.record false exampleFields) exampleValue :=
  ⟨C113_equal false exampleFields exampleValue, by decide, rfl, C113_bytes false exampleFields exampleValue (by decide) exampleFits⟩

/-- Resolving again changes nothing, not even the numbers. -/
theorem C113_again (embedded : Bool) (fs : Fields) (v : fs.den) (hd : WellDeclared embedded fs) (hf : FitsF fs v) :
    resolveOffsets embedded fs (resolveOffsets embedded fs v) = resolveOffsets embedded fs v := by
  obtain ⟨h1, h2⟩ := fields_same fs v (resolveOffsets embedded fs v) hd.1 (C113_equal embedded fs v) hf
    (place_fits (.record embedded fs) v 0 (sizeF fs v) hf) 0 (sizeF fs v)
  have hz : sizeF fs (resolveOffsets embedded fs v) = sizeF fs v := size_place (.record embedded fs) v 0 (sizeF fs v)
  show (place (.record embedded fs) (resolveOffsets embedded fs v) 0 (sizeF fs (resolveOffsets embedded fs v))).1 =
    (place (.record embedded fs) v 0 (sizeF fs v)).1
  rw [hz]
  simp only [place]
  rw [h1, h2]

example : resolveOffsets false exampleFields (resolveOffsets false exampleFields exampleValue) =
    resolveOffsets false exampleFields exampleValue :=
  C113_again false exampleFields exampleValue (by decide) exampleFits

end FT.Props
