import Verif.Props.Offsets
import Verif.Lemmas.Reads

/-!
Compositional reasoning about readers of tables with offsets, on top of C05 (`Holds`) and C06.
-/

namespace FT
open Reader FT.Off FT.Props

/-- `p` started at the first field of `t` in any buffer that holds `t`, with the base of `t` on top of the
stack, reads `a` and stops after the last field. -/
def ReadsTab {α : Type} (p : Reader α) (t : Tab) (a : α) : Prop :=
  ∀ (B : Bytes) (base pos : Nat) (ext : List (Nat × Nat)) (stk : List Nat), Holds B t base pos ext →
    p ⟨B, pos, base :: stk⟩ = .ok (a, ⟨B, pos + size t, base :: stk⟩)

/-- `q` started at the beginning of table `t` in any buffer that holds it reads `a` (the cursor ends anywhere)
and leaves the stack as it was. -/
def ReadsChild {α : Type} (q : Reader α) (t : Tab) (a : α) : Prop :=
  ∀ (B : Bytes) (base : Nat) (ext : List (Nat × Nat)) (stk : List Nat), base + size t ≤ B.length →
    Holds B t base base ext → ∃ ptr, q ⟨B, base, stk⟩ = .ok (a, ⟨B, ptr, stk⟩)

theorem reads_of_prefix {α : Type} {p : Reader α} {bs : Bytes} {a : α} (h : Reads p bs a) {B : Bytes} {pos : Nat}
    (hp : bs <+: B.drop pos) (hpos : pos ≤ B.length) (stk : List Nat) :
    p ⟨B, pos, stk⟩ = .ok (a, ⟨B, pos + bs.length, stk⟩) := by
  obtain ⟨post, e⟩ := hp
  have h1 := h (B.take pos) post stk
  have e2 : B.take pos ++ bs ++ post = B := by rw [List.append_assoc, e, List.take_append_drop]
  have e3 : (B.take pos).length = pos := by rw [List.length_take]; omega
  rw [e2, e3] at h1
  exact h1

theorem prefix_pos {bs B : Bytes} {pos : Nat} (hp : bs <+: B.drop pos) (hne : 0 < bs.length) : pos ≤ B.length := by
  have := hp.length_le
  rw [List.length_drop] at this
  omega

theorem reads_of_prefix' {α : Type} {p : Reader α} {bs : Bytes} {a : α} (h : Reads p bs a) {B : Bytes} {pos : Nat}
    (hp : bs <+: B.drop pos) (stk : List Nat) (hne : 0 < bs.length) :
    p ⟨B, pos, stk⟩ = .ok (a, ⟨B, pos + bs.length, stk⟩) :=
  reads_of_prefix h hp (prefix_pos hp hne) stk

theorem holds_append (B : Bytes) : ∀ (t u : Tab) (base pos : Nat) (ext : List (Nat × Nat)),
    Holds B (t.append u) base pos ext → ∃ e1 e2, Holds B t base pos e1 ∧ Holds B u base (pos + size t) e2
  | .nil, u, base, pos, ext, h => ⟨[], ext, rfl, h⟩
  | .raw bs r, u, base, pos, ext, h => by
    obtain ⟨h1, h2⟩ := h
    obtain ⟨e1, e2, g1, g2⟩ := holds_append B r u base _ ext h2
    refine ⟨e1, e2, ⟨h1, g1⟩, ?_⟩
    simp only [size]; rw [← Nat.add_assoc]; exact g2
  | .null w r, u, base, pos, ext, h => by
    obtain ⟨h1, h2⟩ := h
    obtain ⟨e1, e2, g1, g2⟩ := holds_append B r u base _ ext h2
    refine ⟨e1, e2, ⟨h1, g1⟩, ?_⟩
    simp only [size]; rw [← Nat.add_assoc]; exact g2
  | .link w v o f c r, u, base, pos, ext, h => by
    obtain ⟨off, e1, e2, h1, h2, h3, h4, h5, h6, _⟩ := h
    obtain ⟨e3, e4, g1, g2⟩ := holds_append B r u base _ e2 h6
    refine ⟨_, e4, ⟨off, e1, e3, h1, h2, h3, h4, h5, g1, rfl⟩, ?_⟩
    simp only [size]; rw [← Nat.add_assoc]; exact g2

theorem size_append : ∀ (t u : Tab), size (t.append u) = size t + size u
  | .nil, u => by simp [Tab.append, size]
  | .raw bs r, u => by simp only [Tab.append, size, size_append r u]; omega
  | .null w r, u => by simp only [Tab.append, size, size_append r u]; omega
  | .link w v o f c r, u => by simp only [Tab.append, size, size_append r u]; omega

theorem append_nil : ∀ (t : Tab), t.append .nil = t
  | .nil => rfl
  | .raw bs r => by simp only [Tab.append, append_nil r]
  | .null w r => by simp only [Tab.append, append_nil r]
  | .link w v o f c r => by simp only [Tab.append, append_nil r]

theorem append_assoc : ∀ (t u v : Tab), (t.append u).append v = t.append (u.append v)
  | .nil, _, _ => rfl
  | .raw bs r, u, v => by simp only [Tab.append, append_assoc r]
  | .null w r, u, v => by simp only [Tab.append, append_assoc r]
  | .link w _ o f c r, u, v => by simp only [Tab.append, append_assoc r]

theorem ReadsTab.bind {α β : Type} {p : Reader α} {f : α → Reader β} {t u : Tab} {a : α} {b : β}
    (h1 : ReadsTab p t a) (h2 : ReadsTab (f a) u b) : ReadsTab (p >>= f) (t.append u) b := by
  intro B base pos ext stk h
  obtain ⟨e1, e2, g1, g2⟩ := holds_append B t u base pos ext h
  rw [Reader.bind_run, h1 B base pos e1 stk g1]
  simp only
  rw [h2 B base _ e2 stk g2, size_append, Nat.add_assoc]

theorem ReadsTab.pure {α : Type} (a : α) : ReadsTab (pure a) .nil a := by
  intro B base pos ext stk _
  rfl

theorem ReadsTab.map {α β : Type} {p : Reader α} {t : Tab} {a : α} (f : α → β) (h : ReadsTab p t a) :
    ReadsTab (p >>= fun x => Pure.pure (f x)) t (f a) := by
  have := h.bind (f := fun x => Pure.pure (f x)) (ReadsTab.pure (f a))
  rwa [append_nil] at this

theorem ReadsTab.bind' {α β : Type} {p : Reader α} {f : α → Reader β} {t u v : Tab} {a : α} {b : β}
    (h1 : ReadsTab p t a) (h2 : ReadsTab (f a) u b) (hv : v = t.append u) : ReadsTab (p >>= f) v b := by
  subst hv; exact h1.bind h2

theorem ReadsTab.congr {α : Type} {p : Reader α} {t u : Tab} {a b : α} (h : ReadsTab p t a) (hu : u = t)
    (hb : b = a) : ReadsTab p u b := by subst hu; subst hb; exact h

theorem ReadsTab.lift {α : Type} {x : Res α} {a : α} (h : x = .ok a) : ReadsTab (Reader.lift x) .nil a := by
  intro B base pos ext stk _
  rw [h]; rfl

/-- Plain bytes of positive length. -/
theorem Reads.tab {α : Type} {p : Reader α} {bs : Bytes} {a : α} (h : Reads p bs a) (hne : 0 < bs.length) :
    ReadsTab p (.bytes bs) a := by
  intro B base pos ext stk hh
  rw [reads_of_prefix' h hh.1 (base :: stk) hne]
  simp [size]

/-- Reading nothing. -/
theorem ReadsTab.empty {α : Type} {p : Reader α} {a : α} (h : ∀ r, p r = .ok (a, r)) : ReadsTab p .nil a := by
  intro B base pos ext stk _
  rw [h]; rfl

theorem readsTab_u16 (x : UInt16) : ReadsTab readU16 (.bytes (encU16 x)) x := (reads_u16 x).tab (by simp)
theorem readsTab_i16 (x : Int16) : ReadsTab readI16 (.bytes (encI16 x)) x := (reads_i16 x).tab (by simp)
theorem readsTab_u32 (x : UInt32) : ReadsTab readU32 (.bytes (encU32 x)) x := (reads_u32 x).tab (by simp)
theorem readsTab_tag (x : Tag) (h : x.Valid) : ReadsTab readTag (.bytes (encTag x)) x := (reads_tag x h).tab (by simp)

theorem readWidth16 (n : UInt16) : Reads (readWidth .w16) (encU16 n) n.toNat :=
  Reads.map UInt16.toNat (reads_u16 n)

theorem readsTab_null16 {α : Type} (p : Reader α) : ReadsTab (readOffset .w16 p) (.nullOff .w16) none := by
  intro B base pos ext stk hh
  have h1 : encU16 (UInt16.ofNat 0) <+: B.drop pos := hh.1
  have e := reads_of_prefix' (readWidth16 (UInt16.ofNat 0)) h1 (base :: stk) (by simp)
  unfold readOffset
  rw [Reader.bind_run, e]
  simp only [ofNat16_toNat (n := 0) (by omega)]
  rfl

theorem followOffset_ok {off : UInt16} {B : Bytes} {pos base : Nat} {stk : List Nat} (h : base + off.toNat ≤ B.length) :
    followOffset off ⟨B, pos, base :: stk⟩ = .ok ((), ⟨B, base + off.toNat, base :: stk⟩) := by
  simp only [followOffset]; rw [if_neg (by omega)]

theorem readsTab_link16 {α : Type} {p : Reader α} {c : Tab} {a : α} (vec opt : Bool) (o : Option Nat)
    (h : ReadsChild p c a) : ReadsTab (readOffset .w16 p) (.link .w16 vec opt o c .nil) (some a) := by
  intro B base pos ext stk hh
  obtain ⟨off, e1, e2, h1, h2, h3, h4, h5, _, _⟩ := hh
  have h2' : off ≤ 65535 := h2
  have hto : (UInt16.ofNat off).toNat = off := ofNat16_toNat h2'
  have h3' : encU16 (UInt16.ofNat off) <+: B.drop pos := h3
  have e := reads_of_prefix' (readWidth16 (UInt16.ofNat off)) h3' (base :: stk) (by simp)
  obtain ⟨ptr, hptr⟩ := h B (base + off) e1 (base :: stk) h4 h5
  unfold readOffset
  rw [Reader.bind_run, e]
  simp only [hto]
  rw [if_neg (by omega), if_neg (by omega), Reader.bind_run]
  simp only [getPtr]
  rw [Reader.bind_run, followOffset_ok (by rw [hto]; omega), hto]
  simp only
  rw [Reader.bind_run, hptr]
  rfl

theorem readsTab_optOff16 {α : Type} {p : Reader α} (vec : Bool) (x : Option Tab) (a : Option α)
    (h : match x, a with
      | none, none => True
      | some c, some a => ReadsChild p c a
      | _, _ => False) : ReadsTab (readOffset .w16 p) (.optOff16 vec x) a := by
  cases x with
  | none =>
    cases a with
    | none => exact readsTab_null16 p
    | some a => exact h.elim
  | some c =>
    cases a with
    | none => exact h.elim
    | some a => exact readsTab_link16 vec false none h

/-- A table without offsets, read without looking at the stack. -/
theorem Reads.child {α : Type} {p : Reader α} {bs : Bytes} {a : α} (h : Reads p bs a) :
    ReadsChild p (.bytes bs) a := by
  intro B base ext stk hlen hh
  exact ⟨_, reads_of_prefix h hh.1 (by simp only [size] at hlen; omega) stk⟩

/-- Pushing the base, reading the fields, popping. -/
theorem ReadsTab.child {α : Type} {p : Reader α} {t : Tab} {a : α} (h : ReadsTab p t a) :
    ReadsChild (do pushTop; let x ← p; popTop; return x) t a := by
  intro B base ext stk _ hh
  refine ⟨base + size t, ?_⟩
  rw [Reader.bind_run]
  simp only [pushTop]
  rw [Reader.bind_run, h B base base ext stk hh]
  rfl

theorem concat_append (l m : List Tab) : Tab.concat (l ++ m) = (Tab.concat l).append (Tab.concat m) := by
  induction l with
  | nil => rfl
  | cons t l ih => simp only [List.cons_append, Tab.concat, ih, append_assoc]

theorem readsTab_deCounted {α : Type} {p : Reader α} : ∀ (l : List α) (f : α → Tab),
    (∀ a ∈ l, ReadsTab p (f a) a) → ReadsTab (deCounted p l.length) (Tab.concat (l.map f)) l
  | [], _, _ => ReadsTab.pure []
  | a :: l, f, h => by
    simp only [List.length_cons, List.map_cons, Tab.concat]
    exact ReadsTab.bind (h a (by simp))
      (ReadsTab.map (fun l => a :: l) (readsTab_deCounted l f (fun x hx => h x (by simp [hx]))))

theorem readsTab_deCounted2 {α β : Type} {p : Reader β} (l : List α) (f : α → Tab) (g : α → β)
    (h : ∀ a ∈ l, ReadsTab p (f a) (g a)) : ReadsTab (deCounted p l.length) (Tab.concat (l.map f)) (l.map g) := by
  induction l with
  | nil => exact ReadsTab.pure []
  | cons a l ih =>
    simp only [List.length_cons, List.map_cons, Tab.concat]
    exact ReadsTab.bind (h a (by simp))
      (ReadsTab.map (fun l => g a :: l) (ih (fun x hx => h x (by simp [hx]))))

/-- A counted sequence of records. -/
theorem readsTab_counted2 {α β : Type} {p : Reader β} (l : List α) (f : α → Tab) (g : α → β)
    (hl : l.length ≤ 65535) (h : ∀ a ∈ l, ReadsTab p (f a) (g a)) :
    ReadsTab (readCounted p) ((Tab.bytes (encU16 (UInt16.ofNat l.length))).append (Tab.concat (l.map f)))
      (l.map g) := by
  refine ReadsTab.bind (readsTab_u16 _) ?_
  rw [ofNat16_toNat hl]
  exact readsTab_deCounted2 l f g h

theorem readsTab_counted {α : Type} {p : Reader α} (l : List α) (f : α → Tab)
    (hl : l.length ≤ 65535) (h : ∀ a ∈ l, ReadsTab p (f a) a) :
    ReadsTab (readCounted p) ((Tab.bytes (encU16 (UInt16.ofNat l.length))).append (Tab.concat (l.map f))) l := by
  have := readsTab_counted2 l f id hl h
  simpa using this

/-- Whatever a table serializes to can be read back, wherever the bytes are put. -/
theorem ReadsChild.run {α : Type} {q : Reader α} {t : Tab} {a : α} (h : ReadsChild q t a) {bs : Bytes}
    (ht : toBytes t = .ok bs) (before after : Bytes) (stk : List Nat) :
    ∃ ptr, q ⟨before ++ bs ++ after, before.length, stk⟩ = .ok (a, ⟨before ++ bs ++ after, ptr, stk⟩) := by
  obtain ⟨ext, h1, _, h3, h4⟩ := C05_offsets_right t bs ht before after
  refine h _ before.length ext stk ?_ h1
  simp only [List.map_cons, List.sum_cons] at h3
  simp only [List.length_append]
  omega

end FT
