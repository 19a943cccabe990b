import Verif.Lemmas.DeriveTab
import Verif.Lemmas.TabMerge
import Verif.Model.Gpos
import Verif.Props.Derive

/-!
# Tables of the layout models as declared structures
-/

set_option linter.unusedVariables false

namespace FT.Props
open FT FT.Off FT.Der FT.Lay

/-- `T` is, up to the division into runs of bytes, what the fields of `v` write. -/
def Repr (vec : Bool) (t : Ty) (v : t.den) (T : Tab) : Prop := ∃ U, IsTab vec t v U ∧ mergeRaw U = mergeRaw T
def ReprF (vec : Bool) (fs : Fields) (v : fs.den) (T : Tab) : Prop := ∃ U, IsTabF vec fs v U ∧ mergeRaw U = mergeRaw T

theorem append_nil_tab : ∀ (t : Tab), t.append .nil = t
  | .nil => rfl
  | .raw bs r => by simp only [Tab.append, append_nil_tab r]
  | .null w r => by simp only [Tab.append, append_nil_tab r]
  | .link w v o off c r => by simp only [Tab.append, append_nil_tab r]

theorem repr_nil (vec : Bool) : ReprF vec .nil () .nil := ⟨.nil, rfl, rfl⟩

theorem repr_cons {vec b e : Bool} {t : Ty} {r : Fields} {x : t.den} {y : r.den} {T U : Tab} (h : Repr (vec || !t.isOff) t x T)
    (h' : ReprF vec r y U) : ReprF vec (.cons b e t r) (x, y) (T.append U) := by
  obtain ⟨A, a1, a2⟩ := h
  obtain ⟨B, b1, b2⟩ := h'
  exact ⟨A.append B, ⟨A, B, a1, b1, rfl⟩, by rw [merge_append, merge_append, a2, b2]⟩

/-- The last field. -/
theorem repr_last {vec b e : Bool} {t : Ty} {x : t.den} {T : Tab} (h : Repr (vec || !t.isOff) t x T) :
    ReprF vec (.cons b e t .nil) (x, ()) T := by
  have := repr_cons (b := b) (e := e) h (repr_nil vec)
  rwa [append_nil_tab] at this

theorem repr_record {vec emb : Bool} {fs : Fields} {v : fs.den} {T : Tab} (h : ReprF vec fs v T) : Repr vec (.record emb fs) v T := h

theorem repr_leaf {vec : Bool} {c : Leaf} {a : c.α} {bs : Bytes} (h : c.enc a = .ok bs) : Repr vec (.leaf c) a (.bytes bs) :=
  ⟨.bytes bs, ⟨bs, h, rfl⟩, rfl⟩

theorem repr_merge {vec : Bool} {fs : Fields} {v : fs.den} {T U : Tab} (h : ReprF vec fs v T) (e : mergeRaw T = mergeRaw U) :
    ReprF vec fs v U := by
  obtain ⟨A, a1, a2⟩ := h
  exact ⟨A, a1, a2.trans e⟩

/-- The link an `Option` stands for: null, or not yet resolved. -/
def linkOf {α β : Type} (g : α → β) : Option α → Link β
  | none => Link.nothing
  | some a => Link.to (g a)

theorem repr_off {α : Type} {vec : Bool} {t : Ty} {f : α → Res Tab} {g : α → t.den}
    (hf : ∀ a T, f a = .ok T → Repr false t (g a) T) (o : Option α) (T : Tab) (h : optOff vec f o = .ok T) :
    Repr vec (.off .w16 t) (linkOf g o) T := by
  cases o with
  | none => cases h; exact ⟨Tab.nullOff .w16, ⟨rfl, rfl⟩, rfl⟩
  | some a =>
    simp only [optOff] at h
    cases e : f a with
    | err => simp [e] at h
    | panic => simp [e] at h
    | ok C =>
      simp only [e] at h; cases h
      obtain ⟨D, d1, d2⟩ := hf a C e
      exact ⟨.link .w16 vec false none D .nil, ⟨D, d1, rfl⟩, by simp only [mergeRaw, d2]⟩

theorem repr_list {α β : Type} {R : β → Tab → Prop} {f : α → Res Tab} {g : α → β} :
    ∀ (l : List α) (Ts : List Tab), (∀ a T, a ∈ l → f a = .ok T → ∃ U, R (g a) U ∧ mergeRaw U = mergeRaw T) → Res.mapL f l = .ok Ts →
      ∃ Us, All2 R (l.map g) Us ∧ mergeRaw (Tab.concat Us) = mergeRaw (Tab.concat Ts)
  | [], Ts, hf, h => by cases h; exact ⟨[], trivial, rfl⟩
  | a :: l, Ts, hf, h => by
    simp only [Res.mapL] at h
    cases e1 : f a with
    | err => simp [e1] at h
    | panic => simp [e1] at h
    | ok T =>
      cases e2 : Res.mapL f l with
      | err => simp [e1, e2] at h
      | panic => simp [e1, e2] at h
      | ok Ts' =>
        simp only [e1, e2] at h; cases h
        obtain ⟨U, u1, u2⟩ := hf a T (by simp) e1
        obtain ⟨Us, v1, v2⟩ := repr_list l Ts' (fun x T hx hT => hf x T (by simp [hx]) hT) e2
        exact ⟨U :: Us, ⟨u1, v1⟩, by simp only [Tab.concat, merge_append, u2, v2]⟩

theorem repr_offVec {α : Type} {vec : Bool} {t : Ty} {f : α → Res Tab} {g : α → t.den}
    (hf : ∀ a T, f a = .ok T → Repr false t (g a) T) (l : List (Option α)) (T : Tab) (h : offVec f l = .ok T) :
    Repr vec (.offs .w16 .w16 t) (l.map (linkOf g)) T := by
  simp only [offVec] at h
  cases e : Res.mapL (optOff true f) l with
  | err => simp [e] at h
  | panic => simp [e] at h
  | ok Ts =>
    simp only [e] at h; cases h
    obtain ⟨Us, u1, u2⟩ := repr_list (R := IsLink .w16 true (IsTab false t)) l Ts (fun a T _ hT => repr_off hf a T hT) e
    refine ⟨_, ⟨Us, u1, rfl⟩, ?_⟩
    rw [merge_append, merge_append, u2, List.length_map]
    rfl

theorem repr_counted {α : Type} {vec : Bool} {t : Ty} {f : α → Res Tab} {g : α → t.den}
    (hf : ∀ a T, f a = .ok T → Repr true t (g a) T) (l : List α) (Ts : List Tab) (h : Res.mapL f l = .ok Ts) :
    Repr vec (.counted .w16 t) (l.map g) ((Tab.bytes (encU16 (UInt16.ofNat l.length))).append (Tab.concat Ts)) := by
  obtain ⟨Us, u1, u2⟩ := repr_list (R := IsTab true t) l Ts (fun a T _ hT => hf a T hT) h
  refine ⟨_, ⟨Us, u1, rfl⟩, ?_⟩
  rw [merge_append, merge_append, u2, List.length_map]
  rfl

theorem joinRaw_merge_bytes (a : Bytes) (T : Tab) : mergeRaw ((Tab.bytes a).append T) = joinRaw a (mergeRaw T) := rfl

/-- Counted numbers, and any list whose elements write bytes. -/
theorem repr_encCounted {α : Type} {vec : Bool} {t : Ty} {enc : α → Bytes} {g : α → t.den}
    (hf : ∀ a, Repr true t (g a) (.bytes (enc a))) (l : List α) :
    Repr vec (.counted .w16 t) (l.map g) (.bytes (encCounted enc l)) := by
  have h1 : ∀ (l : List α), Res.mapL (fun a => Res.ok (Tab.bytes (enc a))) l = .ok (l.map fun a => Tab.bytes (enc a)) := by
    intro l
    induction l with
    | nil => rfl
    | cons a l ih => simp only [Res.mapL, ih, List.map_cons]
  obtain ⟨U, u1, u2⟩ := repr_counted (vec := vec) (f := fun a => Res.ok (Tab.bytes (enc a))) (g := g)
    (fun a T hT => by cases hT; exact hf a) l _ (h1 l)
  refine ⟨U, u1, u2.trans ?_⟩
  rw [joinRaw_merge_bytes]
  have h2 : ∀ (l : List α) (b : Bytes), joinRaw b (mergeRaw (Tab.concat (l.map fun a => Tab.bytes (enc a)))) = .raw (b ++ encVec enc l) .nil := by
    intro l
    induction l with
    | nil => intro b; simp [Tab.concat, mergeRaw, joinRaw, encVec]
    | cons a l ih =>
      intro b
      simp only [List.map_cons, Tab.concat, joinRaw_merge_bytes, joinRaw_joinRaw, ih]
      simp [encVec, joinRaw]
  rw [h2]
  rfl

theorem repr_toBytes {Q : Width → Prop} {emb : Bool} {fs : Fields} {v : fs.den} {T : Tab} (ha : FieldsAll Sized Q fs)
    (hw : WellDeclared emb fs) (hf : flatF false fs = true) (h : ReprF false fs v T) :
    Der.toBytes (.record emb fs) v = Off.toBytes T := by
  obtain ⟨U, u1, u2⟩ := h
  rw [toBytes_tab ha hw hf u1, ← toBytes_merge U, u2, toBytes_merge]

end FT.Props
