import Verif.Props.Derive
import Verif.Lemmas.Field

/-!
# C107: where the bytes of a structure declared with `tables!` stand

A round trip cannot tell whether writer and reader share a mistake. `Laid` says what a declaration means for the bytes
of a file: fields one after the other, big-endian counts and offsets, offsets counted from the start of the table.
What is written is laid out so; and the generated reader returns a value exactly if the file has it laid out so,
whoever made the file.
-/

namespace FT.Props
open FT FT.Off FT.Der Reader

/-! ### Specification -/

/-- The number `n`, big-endian, in the 2 or 4 bytes from `pos` on. -/
def NumAt (B : Bytes) (w : Width) (n pos : Nat) : Prop := pos + w.size ≤ B.length ∧ field B pos w.size = n

/-- The elements stand one after the other from `pos` to `stop`. -/
def LaidL {α : Type} (P : α → Nat → Nat → Prop) : List α → Nat → Nat → Prop
  | [], pos, stop => stop = pos
  | a :: l, pos, stop => ∃ mid, P a pos mid ∧ LaidL P l mid stop

/-- An offset at `pos`: zero if there is no table, otherwise the distance of the table from `base`, at most 65535. -/
def LaidLink {α : Type} (B : Bytes) (w : Width) (P : α → Nat → Prop) (l : Link α) (base pos stop : Nat) : Prop :=
  stop = pos + w.size ∧
  match l.link with
  | none => NumAt B w 0 pos
  | some a => ∃ off, NumAt B w off pos ∧ 0 < off ∧ off ≤ 65535 ∧ base + off ≤ B.length ∧ P a (base + off)

mutual
/-- The value stands in the file `B` from `pos` to `stop`, in a table that begins at `base`. `P` says the same of the
types with their own code. -/
def Laid (B : Bytes) (P : (c : Leaf) → c.α → Nat → Nat → Prop) : (t : Ty) → t.den → (base pos stop : Nat) → Prop
  | .leaf c, a, _, pos, stop => P c a pos stop
  | .counted w t, l, base, pos, stop => NumAt B w (l : List t.den).length pos ∧
      LaidL (fun x p q => Laid B P t x base p q) l (pos + w.size) stop
  | .off w t, l, base, pos, stop => LaidLink B w (fun a p => ∃ q, Laid B P t a p p q) l base pos stop
  | .offs c w t, l, base, pos, stop => NumAt B c (l : List (Link t.den)).length pos ∧
      LaidL (fun x p q => LaidLink B w (fun a p => ∃ q, Laid B P t a p p q) x base p q) l (pos + c.size) stop
  | .record _ fs, v, base, pos, stop => LaidF B P fs v base pos stop
def LaidF (B : Bytes) (P : (c : Leaf) → c.α → Nat → Nat → Prop) : (fs : Fields) → fs.den → (base pos stop : Nat) → Prop
  | .nil, _, _, pos, stop => stop = pos
  | .cons _ _ t r, (x, y), base, pos, stop => ∃ mid, Laid B P t x base pos mid ∧ LaidF B P r y base mid stop
end

/-- The bytes from `pos` to `stop` are what the type's own code writes. -/
def WrittenAt (B : Bytes) (c : Leaf) (a : c.α) (pos stop : Nat) : Prop :=
  pos ≤ B.length ∧ ∃ bs, c.enc a = .ok bs ∧ bs <+: B.drop pos ∧ stop = pos + bs.length

/-- The type's own code reads `a` from `pos` to `stop`. -/
def ReadAt (B : Bytes) (c : Leaf) (a : c.α) (pos stop : Nat) : Prop :=
  ∀ stk, c.read ⟨B, pos, stk⟩ = .ok (a, ⟨B, stop, stk⟩)

/-- The type's own code reads the same in every table, and leaves the stack as it was. -/
def Local (c : Leaf) : Prop := ∀ B pos stk a r, c.read ⟨B, pos, stk⟩ = .ok (a, r) → ∃ stop, r = ⟨B, stop, stk⟩ ∧ ReadAt B c a pos stop

/-! ### Written -/

theorem numAt_of_prefix {B : Bytes} {w : Width} {n pos : Nat} (hn : n ≤ w.max) (h : w.enc n <+: B.drop pos) :
    NumAt B w n pos := by
  obtain ⟨tl, h⟩ := h
  have hl : (w.enc n).length = w.size := by cases w <;> rfl
  have h0 : (B.drop pos).length = w.size + tl.length := by rw [← h, List.length_append, hl]
  rw [List.length_drop] at h0
  have hs : 0 < w.size := by cases w <;> decide
  refine ⟨by omega, ?_⟩
  have e : field B pos w.size = field (B.drop pos) 0 w.size := by simp [field]
  rw [e, ← h]
  cases w with
  | w16 =>
    show field (encU16 (UInt16.ofNat n) ++ tl) 0 2 = n
    rw [field_u16]
    exact ofNat16_toNat hn
  | w32 =>
    show field (encU32 (UInt32.ofNat n) ++ tl) 0 4 = n
    rw [field_u32]
    exact ofNat32_toNat hn

theorem laidL_of {α : Type} {P : α → Nat → Prop} {Q : α → Nat → Nat → Prop} {sz : α → Nat} :
    ∀ (l : List α) (pos : Nat), (∀ x ∈ l, ∀ p, P x p → Q x p (p + sz x)) → PlacedL P sz l pos →
      LaidL Q l pos (pos + (l.map sz).sum)
  | [], pos, _, _ => rfl
  | a :: l, pos, h, hp => by
    refine ⟨pos + sz a, h a (by simp) pos hp.1, ?_⟩
    have := laidL_of l (pos + sz a) (fun x hx => h x (by simp [hx])) hp.2
    rw [List.map_cons, List.sum_cons, ← Nat.add_assoc]
    exact this

theorem laidLink_of {α : Type} {B : Bytes} {w : Width} {P : α → Nat → Nat → Prop} {Q : α → Nat → Prop} {F : α → Prop}
    (l : Link α) (hf : FitsLink F l) (base pos : Nat) (h : ∀ a p, F a → P a p p → Q a p)
    (hp : PlacedLink B w P l base pos) : LaidLink B w Q l base pos (pos + w.size) := by
  obtain ⟨o, link⟩ := l
  refine ⟨rfl, ?_⟩
  cases link with
  | none => exact numAt_of_prefix (Nat.zero_le _) hp
  | some a =>
    obtain ⟨off, h1, h2, h3, h4, h5, h6⟩ := hp
    exact ⟨off, numAt_of_prefix h2 h4, h1, h3, h5, h a _ hf h6⟩

mutual
theorem laid_of_placed {B : Bytes} {Q : Width → Prop} : ∀ (t : Ty) (v : t.den) (base pos : Nat), TyAll Sized Q t → Fits t v →
    PlacedAt B t v base pos → Laid B (WrittenAt B) t v base pos (pos + Der.size t v)
  | .leaf c, v, base, pos, ha, hf, hp => by
    obtain ⟨h1, bs, h2, h3⟩ := hp
    exact ⟨h1, bs, h2, h3, by rw [ha v bs h2]; rfl⟩
  | .counted w t, l, base, pos, ha, hf, hp => by
    refine ⟨numAt_of_prefix hf.1 hp.1, ?_⟩
    have := laidL_of (Q := fun x p q => Laid B (WrittenAt B) t x base p q) (l : List t.den) _
      (fun x hx p h => laid_of_placed t x base p ha (hf.2 x hx) h) hp.2
    simp only [Der.size, ← Nat.add_assoc]
    exact this
  | .off w t, l, base, pos, ha, hf, hp =>
    laidLink_of (F := Fits t) l hf base pos (fun a p h1 h2 => ⟨_, laid_of_placed t a p p ha.2 h1 h2⟩) hp
  | .offs c w t, l, base, pos, ha, hf, hp => by
    refine ⟨numAt_of_prefix hf.1 hp.1, ?_⟩
    have := laidL_of (Q := fun x p q => LaidLink B w (fun a p => ∃ q, Laid B (WrittenAt B) t a p p q) x base p q)
      (l : List (Link t.den)) _ (fun x hx p h =>
        laidLink_of (F := Fits t) x (hf.2 x hx) base p (fun a p h1 h2 => ⟨_, laid_of_placed t a p p ha.2 h1 h2⟩) h) hp.2
    simp only [Der.size, ← Nat.add_assoc]
    exact this
  | .record e fs, v, base, pos, ha, hf, hp => laidF_of_placed fs v base pos ha hf hp
theorem laidF_of_placed {B : Bytes} {Q : Width → Prop} : ∀ (fs : Fields) (v : fs.den) (base pos : Nat), FieldsAll Sized Q fs →
    FitsF fs v → PlacedF B fs v base pos → LaidF B (WrittenAt B) fs v base pos (pos + sizeF fs v)
  | .nil, v, base, pos, ha, hf, hp => rfl
  | .cons b e t r, (x, y), base, pos, ha, hf, hp => by
    refine ⟨_, laid_of_placed t x base pos ha.1 hf.1 hp.1, ?_⟩
    have := laidF_of_placed r y base (pos + Der.size t x) ha.2 hf.2 hp.2
    simp only [sizeF, ← Nat.add_assoc]
    exact this
end

/-- Whatever is written, anywhere in a file, is laid out as the declaration says, from its start to the end of its own
fields. -/
theorem C107_written (embedded : Bool) (fs : Fields) (v : fs.den) (bs : Bytes)
    (hd : WellDeclared embedded fs) (ha : FieldsAll Sized (Reach bs.length) fs) (hf : FitsF fs v)
    (h : Der.toBytes (.record embedded fs) v = .ok bs) (before after : Bytes) :
    LaidF (before ++ bs ++ after) (WrittenAt (before ++ bs ++ after)) fs v before.length before.length
      (before.length + sizeF fs v) :=
  laidF_of_placed fs v _ _ ha hf (placed_root embedded fs v bs hd ha hf h before after)

/-! ### Read -/

theorem readWidth_numAt {B : Bytes} {w : Width} {n pos : Nat} (h : NumAt B w n pos) (stk : List Nat) :
    readWidth w ⟨B, pos, stk⟩ = .ok (n, ⟨B, pos + w.size, stk⟩) := by
  cases w with
  | w16 =>
    obtain ⟨x, h1, h2⟩ := readU16_ok (r := ⟨B, pos, stk⟩) h.1
    show (readU16 >>= fun x => _) _ = _
    rw [bind_run, h2]
    show Res.ok (x.toNat, _) = _
    rw [h1, show field B pos 2 = n from h.2]
    rfl
  | w32 =>
    obtain ⟨x, h1, h2⟩ := readU32_ok (r := ⟨B, pos, stk⟩) h.1
    show (readU32 >>= fun x => _) _ = _
    rw [bind_run, h2]
    show Res.ok (x.toNat, _) = _
    rw [h1, show field B pos 4 = n from h.2]
    rfl

theorem readList_laid {α : Type} {rd : Reader α} {B : Bytes} {stk : List Nat} {P : α → Nat → Nat → Prop}
    {R : α → α → Prop} (h : ∀ x p q, P x p q → ∃ y, rd ⟨B, p, stk⟩ = .ok (y, ⟨B, q, stk⟩) ∧ R x y) :
    ∀ (l : List α) (pos stop : Nat), LaidL P l pos stop →
    ∃ m, deCounted rd l.length ⟨B, pos, stk⟩ = .ok (m, ⟨B, stop, stk⟩) ∧ SameL R l m
  | [], pos, stop, hp => by cases hp; exact ⟨[], rfl, trivial⟩
  | a :: l, pos, stop, hp => by
    obtain ⟨mid, g1, g2⟩ := hp
    obtain ⟨y, h1, h2⟩ := h a pos mid g1
    obtain ⟨m, h3, h4⟩ := readList_laid h l mid stop g2
    refine ⟨y :: m, ?_, h2, h4⟩
    show (rd >>= fun a => _) _ = _
    rw [bind_run, h1]
    show (deCounted rd l.length >>= fun a => _) _ = _
    rw [bind_run, h3]
    rfl

theorem readLink_laid {α : Type} {rd : Reader α} {B : Bytes} {base : Nat} {tl : List Nat} {w : Width}
    {P : α → Nat → Prop} {R : α → α → Prop}
    (h : ∀ a p, P a p → ∃ y q, rd ⟨B, p, base :: tl⟩ = .ok (y, ⟨B, q, base :: tl⟩) ∧ R a y)
    (l : Link α) (pos stop : Nat) (hp : LaidLink B w P l base pos stop) :
    ∃ m, readLink w rd ⟨B, pos, base :: tl⟩ = .ok (m, ⟨B, stop, base :: tl⟩) ∧ SameLink R l m := by
  obtain ⟨o, link⟩ := l
  obtain ⟨rfl, hp⟩ := hp
  cases link with
  | none =>
    refine ⟨⟨some 0, none⟩, ?_, trivial⟩
    unfold readLink
    rw [bind_run, readWidth_numAt hp]
    rfl
  | some a =>
    obtain ⟨n, h1, h2, h3, h4, h5⟩ := hp
    obtain ⟨y, q, g1, g2⟩ := h a _ h5
    refine ⟨⟨some n, some y⟩, ?_, g2⟩
    unfold readLink
    rw [bind_run, readWidth_numAt h1]
    show (if n = 0 then _ else _ : Reader _) _ = _
    rw [if_neg (by omega), if_neg (by omega), bind_run]
    show (followOffset (UInt16.ofNat n) >>= _) _ = _
    have e : base + (UInt16.ofNat n).toNat = base + n := by rw [ofNat16_toNat h3]
    rw [bind_run, followOffset_ok (by rw [e]; exact h4), e]
    show (rd >>= _) _ = _
    rw [bind_run, g1]
    rfl

mutual
theorem laid_part {B : Bytes} : ∀ (t : Ty) (e : Bool) (v : t.den) (base pos stop : Nat) (stk : List Nat),
    partOK e t = true → Laid B (ReadAt B) t v base pos stop → (hasOff t = true → ∃ tl, stk = base :: tl) →
    ∃ v', read t ⟨B, pos, stk⟩ = .ok (v', ⟨B, stop, stk⟩) ∧ Same t v v'
  | .leaf c, e, v, base, pos, stop, stk, ho, hp, hs => ⟨v, hp stk, rfl⟩
  | .counted w t, e, v, base, pos, stop, stk, ho, hp, hs => by
    obtain ⟨m, h1, h2⟩ := readList_laid (R := Same t) (fun x p q h => laid_part t e x base p q stk ho h hs)
      (v : List t.den) _ _ hp.2
    refine ⟨m, ?_, h2⟩
    show (readWidth w >>= _) _ = _
    rw [bind_run, readWidth_numAt hp.1]
    exact h1
  | .off w t, e, v, base, pos, stop, stk, ho, hp, hs => by simp [partOK] at ho
  | .offs c w t, e, v, base, pos, stop, stk, ho, hp, hs => by simp [partOK] at ho
  | .record emb fs, e, v, base, pos, stop, stk, ho, hp, hs => by
    have ho' : fieldsOK fs = true := by simp only [partOK, Bool.and_eq_true] at ho; exact ho.1
    obtain ⟨v', h1, h2⟩ := laid_fields fs v base pos stop stk ho' hp (baseOK_part ho hs)
    exact ⟨v', readRecord (base := base) h1, h2⟩
theorem laid_table {B : Bytes} : ∀ (t : Ty) (v : t.den) (p stop : Nat) (stk : List Nat),
    tableOK t = true → Laid B (ReadAt B) t v p p stop →
    ∃ v', read t ⟨B, p, stk⟩ = .ok (v', ⟨B, stop, stk⟩) ∧ Same t v v'
  | .leaf c, v, p, stop, stk, ho, hp => ⟨v, hp stk, rfl⟩
  | .counted w t, v, p, stop, stk, ho, hp => by simp [tableOK] at ho
  | .off w t, v, p, stop, stk, ho, hp => by simp [tableOK] at ho
  | .offs c w t, v, p, stop, stk, ho, hp => by simp [tableOK] at ho
  | .record emb fs, v, p, stop, stk, ho, hp => by
    simp only [tableOK, Bool.and_eq_true, Bool.or_eq_true, Bool.not_eq_true'] at ho
    have hb : BaseOK fs p p stk := by
      rcases ho.2 with h | h
      · exact .inr ⟨h, fun _ => rfl⟩
      · exact .inl ⟨h.1, fun c => by rw [h.2] at c; cases c⟩
    obtain ⟨v', h1, h2⟩ := laid_fields fs v p p stop stk ho.1 hp hb
    exact ⟨v', readRecord (base := p) h1, h2⟩
theorem laid_field {B : Bytes} : ∀ (t : Ty) (e : Bool) (v : t.den) (base pos stop : Nat) (stk : List Nat),
    fieldOK e t = true → Laid B (ReadAt B) t v base pos stop → (hasOff t = true → ∃ tl, stk = base :: tl) →
    ∃ v', read t ⟨B, pos, stk⟩ = .ok (v', ⟨B, stop, stk⟩) ∧ Same t v v'
  | .leaf c, e, v, base, pos, stop, stk, ho, hp, hs => ⟨v, hp stk, rfl⟩
  | .counted w t, e, v, base, pos, stop, stk, ho, hp, hs => by
    obtain ⟨m, h1, h2⟩ := readList_laid (R := Same t) (fun x p q h => laid_part t e x base p q stk ho h hs)
      (v : List t.den) _ _ hp.2
    refine ⟨m, ?_, h2⟩
    show (readWidth w >>= _) _ = _
    rw [bind_run, readWidth_numAt hp.1]
    exact h1
  | .off w t, e, v, base, pos, stop, stk, ho, hp, hs => by
    obtain ⟨tl, rfl⟩ := hs rfl
    exact readLink_laid (R := Same t) (fun a p ⟨q, h⟩ => by
      obtain ⟨y, h1, h2⟩ := laid_table t a p q _ ho h
      exact ⟨y, q, h1, h2⟩) v pos stop hp
  | .offs c w t, e, v, base, pos, stop, stk, ho, hp, hs => by
    obtain ⟨tl, rfl⟩ := hs rfl
    obtain ⟨m, h1, h2⟩ := readList_laid (R := SameLink (Same t)) (fun x p q h => readLink_laid (R := Same t)
      (fun a p ⟨q, h⟩ => by
        obtain ⟨y, h1, h2⟩ := laid_table t a p q _ ho h
        exact ⟨y, q, h1, h2⟩) x p q h) (v : List (Link t.den)) _ _ hp.2
    refine ⟨m, ?_, h2⟩
    show (readWidth c >>= _) _ = _
    rw [bind_run, readWidth_numAt hp.1]
    exact h1
  | .record emb fs, e, v, base, pos, stop, stk, ho, hp, hs => by
    have ho' : fieldsOK fs = true := by simp only [fieldOK, Bool.and_eq_true] at ho; exact ho.1
    obtain ⟨v', h1, h2⟩ := laid_fields fs v base pos stop stk ho' hp (baseOK_part (e := e) (emb := emb) ho hs)
    exact ⟨v', readRecord (base := base) h1, h2⟩
theorem laid_fields {B : Bytes} : ∀ (fs : Fields) (v : fs.den) (base pos stop : Nat) (stk : List Nat),
    fieldsOK fs = true → LaidF B (ReadAt B) fs v base pos stop → BaseOK fs base pos stk →
    ∃ v', readF fs ⟨B, pos, stk⟩ = .ok (v', ⟨B, stop, if fs.anyBase then pos :: stk else stk⟩) ∧ SameF fs v v'
  | .nil, v, base, pos, stop, stk, ho, hp, hb => by cases hp; exact ⟨(), rfl, trivial⟩
  | .cons b e t r, (x, y), base, pos, stop, stk, ho, hp, hb => by
    simp only [fieldsOK, Bool.and_eq_true] at ho
    obtain ⟨mid, hp1, hp2⟩ := hp
    rcases hb with ⟨hu, hs⟩ | ⟨hu, hs⟩
    · have hany := unbased_anyBase hu
      simp only [unbased, Bool.and_eq_true, Bool.not_eq_true'] at hu
      obtain ⟨rfl, hu⟩ := hu
      obtain ⟨x', h1, h2⟩ := laid_field t e x base pos mid stk ho.1 hp1 (fun c => hs (by simp [hasOffF, c]))
      obtain ⟨y', h3, h4⟩ := laid_fields r y base mid stop stk ho.2 hp2
        (.inl ⟨hu, fun c => hs (by simp [hasOffF, c])⟩)
      refine ⟨(x', y'), ?_, h2, h4⟩
      rw [unbased_anyBase hu] at h3
      rw [hany]
      show (read t >>= _) _ = _
      rw [bind_run, h1]
      show (readF r >>= _) _ = _
      rw [bind_run, h3]
      rfl
    · have hany := based_anyBase hu
      simp only [based, Bool.and_eq_true] at hu
      obtain ⟨rfl, hu⟩ := hu
      have hs1 : hasOff t = true → ∃ tl, pos :: stk = base :: tl := fun c =>
        ⟨stk, by rw [hs (by simp [hasOffF, c])]⟩
      have hs2 : hasOffF r = true → ∃ tl, pos :: stk = base :: tl := fun c =>
        ⟨stk, by rw [hs (by simp [hasOffF, c])]⟩
      obtain ⟨x', h1, h2⟩ := laid_field t e x base pos mid (pos :: stk) ho.1 hp1 hs1
      obtain ⟨y', h3, h4⟩ := laid_fields r y base mid stop (pos :: stk) ho.2 hp2 (.inl ⟨hu, hs2⟩)
      refine ⟨(x', y'), ?_, h2, h4⟩
      rw [unbased_anyBase hu] at h3
      rw [hany]
      show (read t >>= _) _ = _
      rw [bind_run, h1]
      show (readF r >>= _) _ = _
      rw [bind_run, h3]
      rfl
end

theorem baseOK_root {embedded : Bool} {fs : Fields} (hd : WellDeclared embedded fs) {start : Nat} {stk : List Nat}
    (hb : based fs = true ∨ hasOffF fs = false ∨ ∃ tl, stk = start :: tl) : BaseOK fs start start stk := by
  rcases hb with hb | hb | hb
  · exact .inr ⟨hb, fun _ => rfl⟩
  · rcases hd.2.1 with h | h
    · exact .inr ⟨h, fun _ => rfl⟩
    · exact .inl ⟨h, fun c => by rw [hb] at c; cases c⟩
  · rcases hd.2.1 with h | h
    · exact .inr ⟨h, fun _ => rfl⟩
    · exact .inl ⟨h, fun _ => hb⟩

/-- A value that stands in a file as the declaration says is read, whoever made the file; tables may be shared, in any
order and with gaps between them. -/
theorem C107_read (embedded : Bool) (fs : Fields) (hd : WellDeclared embedded fs) (B : Bytes) (v : fs.den)
    (start stop : Nat) (stk : List Nat) (hb : based fs = true ∨ hasOffF fs = false ∨ ∃ tl, stk = start :: tl)
    (h : LaidF B (ReadAt B) fs v start start stop) :
    ∃ v', read (.record embedded fs) ⟨B, start, stk⟩ = .ok (v', ⟨B, stop, stk⟩) ∧ SameF fs v v' := by
  obtain ⟨v', h1, h2⟩ := laid_fields fs v start start stop stk hd.1 h (baseOK_root hd hb)
  exact ⟨v', readRecord (base := start) h1, h2⟩

/-! ### Only what is there is read -/

theorem bind_read_inv {α β : Type} {x : Reader α} {f : α → Reader β} {r r' : Rd} {b : β} (h : (x >>= f) r = .ok (b, r')) :
    ∃ a r1, x r = .ok (a, r1) ∧ f a r1 = .ok (b, r') := by
  rw [bind_run] at h
  cases hx : x r with
  | ok p => rw [hx] at h; exact ⟨p.1, p.2, rfl, h⟩
  | err => rw [hx] at h; cases h
  | panic => rw [hx] at h; cases h

theorem readWidth_inv {B : Bytes} {w : Width} {n pos : Nat} {stk : List Nat} {r : Rd}
    (h : readWidth w ⟨B, pos, stk⟩ = .ok (n, r)) : NumAt B w n pos ∧ r = ⟨B, pos + w.size, stk⟩ := by
  by_cases hl : pos + w.size ≤ B.length
  · rw [readWidth_numAt ⟨hl, rfl⟩] at h
    injection h with h
    injection h with h1 h2
    exact ⟨⟨hl, h1⟩, h2.symm⟩
  · exfalso
    cases w with
    | w16 =>
      obtain ⟨a, r1, h1, _⟩ := bind_read_inv (x := readU16) h
      rw [readU16_err (by simp only [Width.size] at hl; simp only; omega)] at h1
      cases h1
    | w32 =>
      obtain ⟨a, r1, h1, _⟩ := bind_read_inv (x := readU32) h
      rw [readU32_err (by simp only [Width.size] at hl; simp only; omega)] at h1
      cases h1

theorem list_inv {α : Type} {rd : Reader α} {B : Bytes} {stk : List Nat} {P : α → Nat → Nat → Prop}
    (h : ∀ p x r, rd ⟨B, p, stk⟩ = .ok (x, r) → ∃ q, r = ⟨B, q, stk⟩ ∧ P x p q) :
    ∀ (n pos : Nat) (l : List α) (r : Rd), deCounted rd n ⟨B, pos, stk⟩ = .ok (l, r) →
    l.length = n ∧ ∃ stop, r = ⟨B, stop, stk⟩ ∧ LaidL P l pos stop
  | 0, pos, l, r, hr => by
    injection hr with hr
    injection hr with h1 h2
    subst h1; subst h2
    exact ⟨rfl, pos, rfl, rfl⟩
  | n + 1, pos, l, r, hr => by
    obtain ⟨a, r1, h1, h2⟩ := bind_read_inv (x := rd) hr
    obtain ⟨mid, rfl, h3⟩ := h _ _ _ h1
    obtain ⟨m, r2, h4, h5⟩ := bind_read_inv h2
    obtain ⟨h6, stop, rfl, h7⟩ := list_inv h n mid m r2 h4
    injection h5 with h5
    injection h5 with h8 h9
    subst h8; subst h9
    exact ⟨by simp [h6], stop, rfl, mid, h3, h7⟩

theorem link_inv {α : Type} {rd : Reader α} {B : Bytes} {base : Nat} {tl : List Nat} {w : Width} {P : α → Nat → Prop}
    (h : ∀ p a r, rd ⟨B, p, base :: tl⟩ = .ok (a, r) → P a p ∧ ∃ q, r = ⟨B, q, base :: tl⟩)
    (l : Link α) (pos : Nat) (r : Rd) (hr : readLink w rd ⟨B, pos, base :: tl⟩ = .ok (l, r)) :
    ∃ stop, r = ⟨B, stop, base :: tl⟩ ∧ LaidLink B w P l base pos stop := by
  obtain ⟨n, r1, h1, h2⟩ := bind_read_inv (x := readWidth w) hr
  obtain ⟨hn, rfl⟩ := readWidth_inv h1
  by_cases h0 : n = 0
  · subst h0
    injection h2 with h2
    injection h2 with h3 h4
    subst h3; subst h4
    exact ⟨_, rfl, rfl, hn⟩
  · replace h2 : (if n > 65535 then (crash : Reader (Link α)) else (do
        let old ← getPtr
        followOffset (UInt16.ofNat n)
        let a ← rd
        setPtr old
        return ⟨some n, some a⟩)) ⟨B, pos + w.size, base :: tl⟩ = .ok (l, r) := by
      have e := h2
      rw [if_neg h0] at e
      exact e
    by_cases hg : n > 65535
    · rw [if_pos hg] at h2; cases h2
    · rw [if_neg hg] at h2
      have hle : n ≤ 65535 := by omega
      obtain ⟨old, r2, h3, h4⟩ := bind_read_inv (x := getPtr) h2
      injection h3 with h3
      injection h3 with h5 h6
      subst h5; subst h6
      obtain ⟨u, r3, h7, h8⟩ := bind_read_inv h4
      have hin : base + n ≤ B.length := by
        refine Nat.le_of_not_lt fun hc => ?_
        have : followOffset (UInt16.ofNat n) ⟨B, pos + w.size, base :: tl⟩ = .err := by
          show (if base + (UInt16.ofNat n).toNat > B.length then _ else _) = _
          rw [ofNat16_toNat hle, if_pos (by omega)]
        rw [this] at h7; cases h7
      have e : base + (UInt16.ofNat n).toNat = base + n := by rw [ofNat16_toNat hle]
      rw [followOffset_ok (by rw [e]; exact hin), e] at h7
      injection h7 with h7
      injection h7 with _ h7
      subst h7
      obtain ⟨a, r4, h9, h10⟩ := bind_read_inv h8
      obtain ⟨hP, q, rfl⟩ := h _ _ _ h9
      injection h10 with h10
      injection h10 with h11 h12
      subst h11; subst h12
      exact ⟨_, rfl, rfl, n, hn, by omega, hle, hin, hP⟩

theorem record_inv {emb : Bool} {fs : Fields} {B : Bytes} {pos : Nat} {stk : List Nat} {v : fs.den} {r : Rd}
    (hr : read (.record emb fs) ⟨B, pos, stk⟩ = .ok (v, r)) {P : Nat → Prop}
    (h : ∀ v' r', readF fs ⟨B, pos, stk⟩ = .ok (v', r') → ∃ stop, r' = ⟨B, stop, if fs.anyBase then pos :: stk else stk⟩ ∧
      (v' = v → P stop)) :
    ∃ stop, r = ⟨B, stop, stk⟩ ∧ P stop := by
  obtain ⟨v', r1, h1, h2⟩ := bind_read_inv (x := readF fs) hr
  obtain ⟨stop, rfl, h3⟩ := h v' r1 h1
  refine ⟨stop, ?_⟩
  cases hc : fs.anyBase with
  | false =>
    rw [hc] at h2
    injection h2 with h2
    injection h2 with h4 h5
    exact ⟨h5.symm, h3 h4⟩
  | true =>
    rw [hc] at h2
    injection h2 with h2
    injection h2 with h4 h5
    exact ⟨h5.symm, h3 h4⟩

mutual
theorem inv_part {B : Bytes} : ∀ (t : Ty) (e : Bool) (v : t.den) (base pos : Nat) (stk : List Nat) (r : Rd),
    TyAll Local (fun _ => True) t → partOK e t = true → (hasOff t = true → ∃ tl, stk = base :: tl) →
    read t ⟨B, pos, stk⟩ = .ok (v, r) → ∃ stop, r = ⟨B, stop, stk⟩ ∧ Laid B (ReadAt B) t v base pos stop
  | .leaf c, e, v, base, pos, stk, r, ha, ho, hs, hr => ha B pos stk v r hr
  | .counted w t, e, v, base, pos, stk, r, ha, ho, hs, hr => by
    obtain ⟨n, r1, h1, h2⟩ := bind_read_inv (x := readWidth w) hr
    obtain ⟨hn, rfl⟩ := readWidth_inv h1
    obtain ⟨h3, stop, rfl, h4⟩ := list_inv (P := fun x p q => Laid B (ReadAt B) t x base p q)
      (fun p x r h => inv_part t e x base p stk r ha ho hs h) n _ v r h2
    exact ⟨stop, rfl, by rw [h3]; exact hn, h4⟩
  | .off w t, e, v, base, pos, stk, r, ha, ho, hs, hr => by simp [partOK] at ho
  | .offs c w t, e, v, base, pos, stk, r, ha, ho, hs, hr => by simp [partOK] at ho
  | .record emb fs, e, v, base, pos, stk, r, ha, ho, hs, hr => by
    have ho' : fieldsOK fs = true := by simp only [partOK, Bool.and_eq_true] at ho; exact ho.1
    refine record_inv hr (fun v' r' h => ?_)
    obtain ⟨stop, h1, h2⟩ := inv_fields fs v' base pos stk r' ha ho' (baseOK_part ho hs) h
    exact ⟨stop, h1, fun e => by rw [← e]; exact h2⟩
theorem inv_table {B : Bytes} : ∀ (t : Ty) (v : t.den) (p : Nat) (stk : List Nat) (r : Rd),
    TyAll Local (fun _ => True) t → tableOK t = true →
    read t ⟨B, p, stk⟩ = .ok (v, r) → ∃ stop, r = ⟨B, stop, stk⟩ ∧ Laid B (ReadAt B) t v p p stop
  | .leaf c, v, p, stk, r, ha, ho, hr => ha B p stk v r hr
  | .counted w t, v, p, stk, r, ha, ho, hr => by simp [tableOK] at ho
  | .off w t, v, p, stk, r, ha, ho, hr => by simp [tableOK] at ho
  | .offs c w t, v, p, stk, r, ha, ho, hr => by simp [tableOK] at ho
  | .record emb fs, v, p, stk, r, ha, ho, hr => by
    simp only [tableOK, Bool.and_eq_true, Bool.or_eq_true, Bool.not_eq_true'] at ho
    have hb : BaseOK fs p p stk := by
      rcases ho.2 with h | h
      · exact .inr ⟨h, fun _ => rfl⟩
      · exact .inl ⟨h.1, fun c => by rw [h.2] at c; cases c⟩
    refine record_inv hr (fun v' r' h => ?_)
    obtain ⟨stop, h1, h2⟩ := inv_fields fs v' p p stk r' ha ho.1 hb h
    exact ⟨stop, h1, fun e => by rw [← e]; exact h2⟩
theorem inv_field {B : Bytes} : ∀ (t : Ty) (e : Bool) (v : t.den) (base pos : Nat) (stk : List Nat) (r : Rd),
    TyAll Local (fun _ => True) t → fieldOK e t = true → (hasOff t = true → ∃ tl, stk = base :: tl) →
    read t ⟨B, pos, stk⟩ = .ok (v, r) → ∃ stop, r = ⟨B, stop, stk⟩ ∧ Laid B (ReadAt B) t v base pos stop
  | .leaf c, e, v, base, pos, stk, r, ha, ho, hs, hr => ha B pos stk v r hr
  | .counted w t, e, v, base, pos, stk, r, ha, ho, hs, hr => by
    obtain ⟨n, r1, h1, h2⟩ := bind_read_inv (x := readWidth w) hr
    obtain ⟨hn, rfl⟩ := readWidth_inv h1
    obtain ⟨h3, stop, rfl, h4⟩ := list_inv (P := fun x p q => Laid B (ReadAt B) t x base p q)
      (fun p x r h => inv_part t e x base p stk r ha ho hs h) n _ v r h2
    exact ⟨stop, rfl, by rw [h3]; exact hn, h4⟩
  | .off w t, e, v, base, pos, stk, r, ha, ho, hs, hr => by
    obtain ⟨tl, rfl⟩ := hs rfl
    exact link_inv (fun p a r h => by
      obtain ⟨q, h1, h2⟩ := inv_table t a p _ r ha.2 ho h
      exact ⟨⟨q, h2⟩, q, h1⟩) v pos r hr
  | .offs c w t, e, v, base, pos, stk, r, ha, ho, hs, hr => by
    obtain ⟨tl, rfl⟩ := hs rfl
    obtain ⟨n, r1, h1, h2⟩ := bind_read_inv (x := readWidth c) hr
    obtain ⟨hn, rfl⟩ := readWidth_inv h1
    obtain ⟨h3, stop, rfl, h4⟩ := list_inv
      (P := fun x p q => LaidLink B w (fun a p => ∃ q, Laid B (ReadAt B) t a p p q) x base p q)
      (fun p x r h => link_inv (fun p a r h => by
        obtain ⟨q, h1, h2⟩ := inv_table t a p _ r ha.2 ho h
        exact ⟨⟨q, h2⟩, q, h1⟩) x p r h) n _ v r h2
    exact ⟨stop, rfl, by rw [h3]; exact hn, h4⟩
  | .record emb fs, e, v, base, pos, stk, r, ha, ho, hs, hr => by
    have ho' : fieldsOK fs = true := by simp only [fieldOK, Bool.and_eq_true] at ho; exact ho.1
    refine record_inv hr (fun v' r' h => ?_)
    obtain ⟨stop, h1, h2⟩ := inv_fields fs v' base pos stk r' ha ho' (baseOK_part (e := e) (emb := emb) ho hs) h
    exact ⟨stop, h1, fun e => by rw [← e]; exact h2⟩
theorem inv_fields {B : Bytes} : ∀ (fs : Fields) (v : fs.den) (base pos : Nat) (stk : List Nat) (r : Rd),
    FieldsAll Local (fun _ => True) fs → fieldsOK fs = true → BaseOK fs base pos stk →
    readF fs ⟨B, pos, stk⟩ = .ok (v, r) →
    ∃ stop, r = ⟨B, stop, if fs.anyBase then pos :: stk else stk⟩ ∧ LaidF B (ReadAt B) fs v base pos stop
  | .nil, v, base, pos, stk, r, ha, ho, hb, hr => by
    injection hr with hr
    injection hr with _ hr
    subst hr
    exact ⟨pos, rfl, rfl⟩
  | .cons b e t r, (x, y), base, pos, stk, r', ha, ho, hb, hr => by
    simp only [fieldsOK, Bool.and_eq_true] at ho
    rcases hb with ⟨hu, hs⟩ | ⟨hu, hs⟩
    · have hany := unbased_anyBase hu
      simp only [unbased, Bool.and_eq_true, Bool.not_eq_true'] at hu
      obtain ⟨rfl, hu⟩ := hu
      obtain ⟨x', r1, h1, h2⟩ := bind_read_inv (x := read t) hr
      obtain ⟨y', r2, h3, h4⟩ := bind_read_inv (x := readF r) h2
      injection h4 with h4
      injection h4 with h5 h6
      injection h5 with h7 h8
      subst h6; subst h7; subst h8
      obtain ⟨mid, rfl, g1⟩ := inv_field t e x' base pos stk r1 ha.1 ho.1 (fun c => hs (by simp [hasOffF, c])) h1
      obtain ⟨stop, rfl, g2⟩ := inv_fields r y' base mid stk r2 ha.2 ho.2
        (.inl ⟨hu, fun c => hs (by simp [hasOffF, c])⟩) h3
      rw [hany, unbased_anyBase hu]
      exact ⟨stop, rfl, mid, g1, g2⟩
    · have hany := based_anyBase hu
      simp only [based, Bool.and_eq_true] at hu
      obtain ⟨rfl, hu⟩ := hu
      have hs1 : hasOff t = true → ∃ tl, pos :: stk = base :: tl := fun c =>
        ⟨stk, by rw [hs (by simp [hasOffF, c])]⟩
      have hs2 : hasOffF r = true → ∃ tl, pos :: stk = base :: tl := fun c =>
        ⟨stk, by rw [hs (by simp [hasOffF, c])]⟩
      have hr' : (read t >>= fun x => readF r >>= fun y => pure (x, y)) ⟨B, pos, pos :: stk⟩ = .ok ((x, y), r') := hr
      obtain ⟨x', r1, h1, h2⟩ := bind_read_inv (x := read t) hr'
      obtain ⟨y', r2, h3, h4⟩ := bind_read_inv (x := readF r) h2
      injection h4 with h4
      injection h4 with h5 h6
      injection h5 with h7 h8
      subst h6; subst h7; subst h8
      obtain ⟨mid, rfl, g1⟩ := inv_field t e x' base pos (pos :: stk) r1 ha.1 ho.1 hs1 h1
      obtain ⟨stop, rfl, g2⟩ := inv_fields r y' base mid (pos :: stk) r2 ha.2 ho.2 (.inl ⟨hu, hs2⟩) h3
      rw [hany, unbased_anyBase hu]
      exact ⟨stop, rfl, mid, g1, g2⟩
end

/-- Whatever is read stands in the file as the declaration says. -/
theorem C107_only (embedded : Bool) (fs : Fields) (hd : WellDeclared embedded fs)
    (ha : FieldsAll Local (fun _ => True) fs) (B : Bytes) (v : fs.den)
    (start : Nat) (stk : List Nat) (hb : based fs = true ∨ hasOffF fs = false ∨ ∃ tl, stk = start :: tl) (r : Rd)
    (h : read (.record embedded fs) ⟨B, start, stk⟩ = .ok (v, r)) :
    ∃ stop, r = ⟨B, stop, stk⟩ ∧ LaidF B (ReadAt B) fs v start start stop := by
  refine record_inv h (fun v' r' h => ?_)
  obtain ⟨stop, h1, h2⟩ := inv_fields fs v' start start stk r' ha hd.1 (baseOK_root hd hb) h
  exact ⟨stop, h1, fun e => by rw [← e]; exact h2⟩

/-! ### An example -/

theorem u16_local : Local u16Leaf := fun B pos stk a r h => by
  by_cases hl : pos + 2 ≤ B.length
  · have e : ∀ stk, ∃ x : UInt16, x.toNat = field B pos 2 ∧ readU16 ⟨B, pos, stk⟩ = .ok (x, ⟨B, pos + 2, stk⟩) :=
      fun stk => readU16_ok (r := ⟨B, pos, stk⟩) hl
    obtain ⟨x, h1, h2⟩ := e stk
    have h' : readU16 ⟨B, pos, stk⟩ = .ok (a, r) := h
    rw [h2] at h'
    injection h' with h'
    injection h' with h3 h4
    subst h3; subst h4
    refine ⟨pos + 2, rfl, fun stk' => ?_⟩
    obtain ⟨y, g1, g2⟩ := e stk'
    rw [show y = x from UInt16.toNat_inj.1 (by rw [g1, h1])] at g2
    exact g2
  · have h' : readU16 ⟨B, pos, stk⟩ = .ok (a, r) := h
    rw [readU16_err (by simp only; omega)] at h'
    cases h'

/-- A file made elsewhere: both offsets lead to the same table, and there is a gap before it. -/
abbrev shared : Bytes := [0, 8, 0, 8, 255, 255, 255, 255, 0, 9]
abbrev sharedFields : Fields := .cons true false (.off .w16 (.leaf u16Leaf)) (.cons false false (.off .w16 (.leaf u16Leaf)) .nil)

theorem u16_readAt {B : Bytes} {x : UInt16} {pos : Nat} (h : pos + 2 ≤ B.length) (hx : field B pos 2 = x.toNat) :
    ReadAt B u16Leaf x pos (pos + 2) := fun stk => by
  obtain ⟨y, g1, g2⟩ := readU16_ok (r := ⟨B, pos, stk⟩) h
  rw [show y = x from UInt16.toNat_inj.1 (by rw [g1]; exact hx)] at g2
  exact g2

example : ∃ v', read (.record false sharedFields) ⟨shared, 0, []⟩ = .ok (v', ⟨shared, 4, []⟩) ∧
    SameF sharedFields (Link.to (9 : UInt16), Link.to (9 : UInt16), ()) v' := by
  refine C107_read false sharedFields (by decide) shared _ 0 4 [] (.inl rfl) ?_
  have h : ReadAt shared u16Leaf (9 : UInt16) 8 10 := u16_readAt (by decide) (by decide)
  exact ⟨2, ⟨rfl, 8, ⟨by decide, by decide⟩, by decide, by decide, by decide, 10, h⟩,
    4, ⟨rfl, 8, ⟨by decide, by decide⟩, by decide, by decide, by decide, 10, h⟩, rfl⟩

example (v : sharedFields.den) (r : Rd) (h : read (.record false sharedFields) ⟨shared, 0, []⟩ = .ok (v, r)) :
    ∃ stop, r = ⟨shared, stop, []⟩ ∧ LaidF shared (ReadAt shared) sharedFields v 0 0 stop :=
  C107_only false sharedFields (by decide) ⟨⟨trivial, u16_local⟩, ⟨trivial, u16_local⟩, trivial⟩ shared v 0 [] (.inl rfl) r h

example : ∃ bs, Der.toBytes (.record false exampleFields) exampleValue = .ok bs ∧
    LaidF ([7] ++ bs ++ [8]) (WrittenAt ([7] ++ bs ++ [8])) exampleFields exampleValue 1 1 19 := by
  obtain ⟨bs, h, hl⟩ := C106_writes false exampleFields exampleValue (by decide) exampleSized exampleFits (by decide)
  exact ⟨bs, h, C107_written false exampleFields exampleValue bs (by decide)
    (all_mono (fun _ h => h) (fun w _ => .inr (by rw [hl]; decide)) exampleFields exampleSized) exampleFits h [7] [8]⟩

end FT.Props
