import Verif.Lemmas.DeriveRepr

/-!
# Readers of the layout models and readers of declared structures
-/

set_option linter.unusedVariables false

namespace FT.Props
open FT FT.Off FT.Der FT.Lay Reader

theorem alike_self {α : Type} (p : Reader α) : Alike (fun a b => a = b) p p := by
  intro s
  cases h : p s with
  | ok x => exact ⟨rfl, rfl⟩
  | err => trivial
  | panic => trivial

theorem alike_imp {α β : Type} {R S : α → β → Prop} {p : Reader α} {q : Reader β} (h : Alike R p q) (hs : ∀ a b, R a b → S a b) : Alike S p q := by
  intro s
  have := h s
  cases e1 : p s with
  | ok x => cases e2 : q s with
    | ok y => simp only [e1, e2] at this ⊢; exact ⟨hs _ _ this.1, this.2⟩
    | err => simp [e1, e2] at this
    | panic => simp [e1, e2] at this
  | err => cases e2 : q s with
    | ok y => simp [e1, e2] at this
    | err => trivial
    | panic => simp [e1, e2] at this
  | panic => cases e2 : q s with
    | ok y => simp [e1, e2] at this
    | err => simp [e1, e2] at this
    | panic => trivial

theorem alike_bind {α β γ δ : Type} {R : α → β → Prop} {S : γ → δ → Prop} {p : Reader α} {q : Reader β} {f : α → Reader γ} {g : β → Reader δ}
    (h : Alike R p q) (h' : ∀ a b, R a b → Alike S (f a) (g b)) : Alike S (p >>= f) (q >>= g) := by
  intro s
  have := h s
  rw [bind_run, bind_run]
  cases e1 : p s with
  | ok x => cases e2 : q s with
    | ok y =>
      simp only [e1, e2] at this ⊢
      have h2 := h' x.1 y.1 this.1 x.2
      rw [← this.2]
      exact h2
    | err => simp [e1, e2] at this
    | panic => simp [e1, e2] at this
  | err => cases e2 : q s with
    | ok y => simp [e1, e2] at this
    | err => trivial
    | panic => simp [e1, e2] at this
  | panic => cases e2 : q s with
    | ok y => simp [e1, e2] at this
    | err => simp [e1, e2] at this
    | panic => trivial

theorem alike_pure {α β : Type} {R : α → β → Prop} {a : α} {b : β} (h : R a b) : Alike R (pure a) (pure b) := fun s => ⟨h, rfl⟩
theorem alike_crash {α β : Type} {R : α → β → Prop} : Alike R (crash : Reader α) (crash : Reader β) := fun s => trivial

theorem bind_assoc_reader {α β γ : Type} (p : Reader α) (f : α → Reader β) (g : β → Reader γ) :
    (p >>= f) >>= g = p >>= fun a => f a >>= g := by
  funext s
  simp only [bind_run]
  cases p s <;> rfl
theorem bind_pure_reader {α : Type} (p : Reader α) : (p >>= fun a => pure a) = p := by
  funext s
  simp only [bind_run]
  cases p s <;> rfl
theorem pure_bind_reader {α β : Type} (a : α) (f : α → Reader β) : (pure a >>= f) = f a := rfl

theorem alike_link {α : Type} {w : Width} {t : Ty} {p : Reader α} {g : α → t.den}
    (h : Alike (fun a v => Same t (g a) v) p (read t)) :
    Alike (fun o l => SameLink (Same t) (linkOf g o) l) (readOffset w p) (readLink w (read t)) := by
  unfold readOffset readLink
  refine alike_bind (alike_self _) (fun off off' e => ?_)
  subst e
  by_cases h0 : off = 0
  · simp only [h0, if_true]
    exact alike_pure trivial
  · simp only [if_neg h0]
    by_cases h1 : off > 65535
    · simp only [if_pos h1]
      exact alike_crash
    · simp only [if_neg h1]
      refine alike_bind (alike_self _) (fun old old' e => ?_)
      subst e
      refine alike_bind (alike_self _) (fun _ _ _ => ?_)
      refine alike_bind h (fun a v hv => ?_)
      refine alike_bind (alike_self _) (fun _ _ _ => ?_)
      exact alike_pure hv

theorem alike_deCounted {α β : Type} {R : β → β → Prop} {g : α → β} {p : Reader α} {q : Reader β} (h : Alike (fun a b => R (g a) b) p q) :
    ∀ (n : Nat), Alike (fun l m => SameL R (l.map g) m) (deCounted p n) (deCounted q n)
  | 0 => alike_pure trivial
  | n + 1 => by
    refine alike_bind h (fun a b hab => ?_)
    refine alike_bind (alike_deCounted h n) (fun l m hlm => ?_)
    exact alike_pure ⟨hab, hlm⟩

theorem readWidth16 {α : Type} (f : Nat → Reader α) : (readWidth .w16 >>= f) = readU16 >>= fun n => f n.toNat := by
  show (readU16 >>= fun n => pure n.toNat) >>= f = _
  rw [bind_assoc_reader]; rfl

theorem alike_counted {α : Type} {t : Ty} {g : α → t.den} {p : Reader α} (h : Alike (fun a v => Same t (g a) v) p (read t)) :
    Alike (fun l m => Same (.counted .w16 t) (l.map g) m) (readCounted p) (read (.counted .w16 t)) := by
  unfold readCounted
  show Alike _ _ (readWidth .w16 >>= fun n => deCounted (read t) n)
  rw [readWidth16]
  refine alike_bind (alike_self _) (fun n n' e => ?_)
  subst e
  exact alike_deCounted h _

theorem alike_offVec {α : Type} {t : Ty} {g : α → t.den} {p : Reader α} (h : Alike (fun a v => Same t (g a) v) p (read t)) :
    Alike (fun l m => Same (.offs .w16 .w16 t) (l.map (linkOf g)) m) (readOffVec p) (read (.offs .w16 .w16 t)) := by
  unfold readOffVec readCounted
  show Alike _ _ (readWidth .w16 >>= fun n => deCounted (readLink .w16 (read t)) n)
  rw [readWidth16]
  refine alike_bind (alike_self _) (fun n n' e => ?_)
  subst e
  exact alike_deCounted (alike_link h) _

theorem alike_nil {α : Type} {S : α → Unit → Prop} {a : α} (h : S a ()) : Alike S (pure a) (readF .nil) := alike_pure h

/-- The fields, one after the other. -/
theorem alike_cons {α γ : Type} {e : Bool} {t : Ty} {r : Fields} {R : α → t.den → Prop} {S : γ → t.den × r.den → Prop} {p : Reader α}
    {f : α → Reader γ} (h : Alike R p (read t)) (h' : ∀ a x, R a x → Alike (fun s y => S s (x, y)) (f a) (readF r)) :
    Alike S (p >>= f) (readF (.cons false e t r)) := by
  show Alike S _ ((pure () : Reader Unit) >>= fun _ => read t >>= fun x => readF r >>= fun y => pure (x, y))
  rw [pure_bind_reader]
  refine alike_bind h (fun a x hx => ?_)
  rw [← bind_pure_reader (f a)]
  exact alike_bind (h' a x hx) (fun s y hy => alike_pure hy)

theorem alike_record {γ : Type} {emb : Bool} {fs : Fields} {S : γ → fs.den → Prop} {p : Reader γ} (hu : fs.anyBase = false)
    (h : Alike S p (readF fs)) : Alike S p (read (.record emb fs)) := by
  simp only [Der.read, hu, Bool.false_eq_true, if_false]
  rw [← bind_pure_reader p]
  exact alike_bind h (fun s v hv => alike_pure hv)

theorem alike_table {γ : Type} {emb e : Bool} {t : Ty} {r : Fields} {S : γ → t.den × r.den → Prop} {p : Reader γ}
    (h : Alike S p (readF (.cons false e t r))) : Alike S (inTable p) (read (.record emb (.cons true e t r))) := by
  show Alike S (pushTop >>= fun _ => p >>= fun x => popTop >>= fun _ => pure x)
    ((pushTop >>= fun _ => read t >>= fun x => readF r >>= fun y => pure (x, y)) >>=
      fun v => (if (Fields.cons true e t r).anyBase then popTop else pure ()) >>= fun _ => pure v)
  rw [show (Fields.cons true e t r).anyBase = true from rfl, bind_assoc_reader]
  refine alike_bind (alike_self _) (fun _ _ _ => ?_)
  refine alike_bind (R := S) h (fun a v hv => ?_)
  refine alike_bind (alike_self _) (fun _ _ _ => ?_)
  exact alike_pure hv

end FT.Props
