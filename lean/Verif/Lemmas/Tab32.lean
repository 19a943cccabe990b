import Verif.Lemmas.Tab

/-!
Like `Lemmas/Tab.lean`, for tables with 32-bit offsets: the reader cannot follow an offset above 65535, so the
tables below must start at most 65535 bytes after the base.
-/

namespace FT
open Reader FT.Off FT.Props

/-- All tables below start at most 65535 bytes after `base`. -/
def Near (base : Nat) (ext : List (Nat × Nat)) : Prop := ∀ x ∈ ext, x.1 ≤ base + 65535

def ReadsTabN {α : Type} (p : Reader α) (t : Tab) (a : α) : Prop :=
  ∀ (B : Bytes) (base pos : Nat) (ext : List (Nat × Nat)) (stk : List Nat), Near base ext → Holds B t base pos ext →
    p ⟨B, pos, base :: stk⟩ = .ok (a, ⟨B, pos + size t, base :: stk⟩)

def ReadsChildN {α : Type} (q : Reader α) (t : Tab) (a : α) : Prop :=
  ∀ (B : Bytes) (base : Nat) (ext : List (Nat × Nat)) (stk : List Nat), Near base ext → base + size t ≤ B.length →
    Holds B t base base ext → ∃ ptr, q ⟨B, base, stk⟩ = .ok (a, ⟨B, ptr, stk⟩)

theorem ReadsTab.near {α : Type} {p : Reader α} {t : Tab} {a : α} (h : ReadsTab p t a) : ReadsTabN p t a :=
  fun B base pos ext stk _ => h B base pos ext stk

theorem ReadsChild.near {α : Type} {p : Reader α} {t : Tab} {a : α} (h : ReadsChild p t a) : ReadsChildN p t a :=
  fun B base ext stk _ => h B base ext stk

theorem holds_append' (B : Bytes) : ∀ (t u : Tab) (base pos : Nat) (ext : List (Nat × Nat)),
    Holds B (t.append u) base pos ext →
    ∃ e1 e2, ext = e1 ++ e2 ∧ Holds B t base pos e1 ∧ Holds B u base (pos + size t) e2
  | .nil, u, base, pos, ext, h => ⟨[], ext, rfl, rfl, h⟩
  | .raw bs r, u, base, pos, ext, h => by
    obtain ⟨h1, h2⟩ := h
    obtain ⟨e1, e2, e, g1, g2⟩ := holds_append' B r u base _ ext h2
    refine ⟨e1, e2, e, ⟨h1, g1⟩, ?_⟩
    simp only [size]; rw [← Nat.add_assoc]; exact g2
  | .null w r, u, base, pos, ext, h => by
    obtain ⟨h1, h2⟩ := h
    obtain ⟨e1, e2, e, g1, g2⟩ := holds_append' B r u base _ ext h2
    refine ⟨e1, e2, e, ⟨h1, g1⟩, ?_⟩
    simp only [size]; rw [← Nat.add_assoc]; exact g2
  | .link w v o f c r, u, base, pos, ext, h => by
    obtain ⟨off, e1, e2, h1, h2, h3, h4, h5, h6, he⟩ := h
    obtain ⟨e3, e4, e, g1, g2⟩ := holds_append' B r u base _ e2 h6
    refine ⟨_, e4, ?_, ⟨off, e1, e3, h1, h2, h3, h4, h5, g1, rfl⟩, ?_⟩
    · rw [he, e]; simp
    · simp only [size]; rw [← Nat.add_assoc]; exact g2

theorem ReadsTabN.bind {α β : Type} {p : Reader α} {f : α → Reader β} {t u : Tab} {a : α} {b : β}
    (h1 : ReadsTabN p t a) (h2 : ReadsTabN (f a) u b) : ReadsTabN (p >>= f) (t.append u) b := by
  intro B base pos ext stk hn h
  obtain ⟨e1, e2, e, g1, g2⟩ := holds_append' B t u base pos ext h
  subst e
  rw [Reader.bind_run, h1 B base pos e1 stk (fun x hx => hn x (by simp [hx])) g1]
  simp only
  rw [h2 B base _ e2 stk (fun x hx => hn x (by simp [hx])) g2, size_append, Nat.add_assoc]

theorem ReadsTabN.bind' {α β : Type} {p : Reader α} {f : α → Reader β} {t u v : Tab} {a : α} {b : β}
    (h1 : ReadsTabN p t a) (h2 : ReadsTabN (f a) u b) (hv : v = t.append u) : ReadsTabN (p >>= f) v b := by
  subst hv; exact h1.bind h2

theorem ReadsTabN.pure {α : Type} (a : α) : ReadsTabN (pure a) .nil a := (ReadsTab.pure a).near

theorem ReadsTabN.map {α β : Type} {p : Reader α} {t : Tab} {a : α} (f : α → β) (h : ReadsTabN p t a) :
    ReadsTabN (p >>= fun x => Pure.pure (f x)) t (f a) := by
  have := h.bind (f := fun x => Pure.pure (f x)) (ReadsTabN.pure (f a))
  rwa [append_nil] at this

theorem ReadsTabN.lift {α : Type} {x : Res α} {a : α} (h : x = .ok a) : ReadsTabN (Reader.lift x) .nil a :=
  (ReadsTab.lift h).near

theorem readWidth32 (n : UInt32) : Reads (readWidth .w32) (encU32 n) n.toNat :=
  Reads.map UInt32.toNat (reads_u32 n)

theorem readsTab_null32 {α : Type} (p : Reader α) : ReadsTab (readOffset .w32 p) (.nullOff .w32) none := by
  intro B base pos ext stk hh
  have h1 : encU32 (UInt32.ofNat 0) <+: B.drop pos := hh.1
  have e := reads_of_prefix' (readWidth32 (UInt32.ofNat 0)) h1 (base :: stk) (by simp)
  unfold readOffset
  rw [Reader.bind_run, e]
  simp only [ofNat32_toNat (n := 0) (by omega)]
  rfl

theorem readsTabN_link {α : Type} {p : Reader α} {c : Tab} {a : α} (w : Width) (vec opt : Bool) (o : Option Nat)
    (h : ReadsChildN p c a) : ReadsTabN (readOffset w p) (.link w vec opt o c .nil) (some a) := by
  intro B base pos ext stk hn hh
  obtain ⟨off, e1, e2, h1, h2, h3, h4, h5, _, he⟩ := hh
  have h2' : off ≤ 65535 := by have := hn (base + off, size c) (by rw [he]; simp); simp only at this; omega
  have hto : (UInt16.ofNat off).toNat = off := ofNat16_toNat h2'
  have hto' : (UInt32.ofNat off).toNat = off := ofNat32_toNat (by omega)
  have e : readWidth w ⟨B, pos, base :: stk⟩ = .ok (off, ⟨B, pos + w.size, base :: stk⟩) := by
    cases w with
    | w16 =>
      have e := reads_of_prefix' (readWidth16 (UInt16.ofNat off)) h3 (base :: stk) (by simp)
      rw [hto] at e; exact e
    | w32 =>
      have e := reads_of_prefix' (readWidth32 (UInt32.ofNat off)) h3 (base :: stk) (by simp)
      rw [hto'] at e; exact e
  obtain ⟨ptr, hptr⟩ := h B (base + off) e1 (base :: stk) (by
    intro x hx
    have := hn x (by rw [he]; simp [hx])
    omega) h4 h5
  unfold readOffset
  rw [Reader.bind_run, e]
  simp only
  rw [if_neg (by omega), if_neg (by omega), Reader.bind_run]
  simp only [getPtr]
  rw [Reader.bind_run, followOffset_ok (by rw [hto]; omega), hto]
  simp only
  rw [Reader.bind_run, hptr]
  rfl

theorem ReadsTabN.child {α : Type} {p : Reader α} {t : Tab} {a : α} (h : ReadsTabN p t a) :
    ReadsChildN (do pushTop; let x ← p; popTop; return x) t a := by
  intro B base ext stk hn _ hh
  refine ⟨base + size t, ?_⟩
  rw [Reader.bind_run]
  simp only [pushTop]
  rw [Reader.bind_run, h B base base ext stk hn hh]
  rfl

theorem readsTabN_deCounted2 {α β : Type} {p : Reader β} (l : List α) (f : α → Tab) (g : α → β)
    (h : ∀ a ∈ l, ReadsTabN p (f a) (g a)) : ReadsTabN (deCounted p l.length) (Tab.concat (l.map f)) (l.map g) := by
  induction l with
  | nil => exact ReadsTabN.pure []
  | cons a l ih =>
    simp only [List.length_cons, List.map_cons, Tab.concat]
    exact ReadsTabN.bind (h a (by simp))
      (ReadsTabN.map (fun l => g a :: l) (ih (fun x hx => h x (by simp [hx]))))

/-- A counted sequence of records. -/
theorem readsTabN_counted2 {α β : Type} {p : Reader β} (l : List α) (f : α → Tab) (g : α → β)
    (hl : l.length ≤ 65535) (h : ∀ a ∈ l, ReadsTabN p (f a) (g a)) :
    ReadsTabN (readCounted p) ((Tab.bytes (encU16 (UInt16.ofNat l.length))).append (Tab.concat (l.map f)))
      (l.map g) := by
  refine ReadsTabN.bind (readsTab_u16 _).near ?_
  rw [ofNat16_toNat hl]
  exact readsTabN_deCounted2 l f g h

/-- Whatever such a table serializes to can be read back wherever the bytes are put, if they number at most 65536
or, more precisely, all tables below start within 65535 bytes. -/
theorem ReadsChildN.run {α : Type} {q : Reader α} {t : Tab} {a : α} (h : ReadsChildN q t a) {bs : Bytes}
    (ht : toBytes t = .ok bs) (before after : Bytes) (stk : List Nat)
    (hn : ∀ ext, (∀ x ∈ ext, before.length ≤ x.1 ∧ x.1 + x.2 ≤ before.length + bs.length) →
      Near before.length ext) :
    ∃ ptr, q ⟨before ++ bs ++ after, before.length, stk⟩ = .ok (a, ⟨before ++ bs ++ after, ptr, stk⟩) := by
  obtain ⟨ext, h1, _, h3, h4⟩ := C05_offsets_right t bs ht before after
  refine h _ before.length ext stk (hn ext h4) ?_ h1
  simp only [List.map_cons, List.sum_cons] at h3
  simp only [List.length_append]
  omega

end FT
