import Verif.Model.OffsetGraph

/-! C111: the offset manager's graph is written as Model/Offsets says. -/

namespace FT.Props.OffG
open FT FT.Off FT.OffGraph

/-! ### Forests of numbered nodes -/

/-- The objects with the numbers of their nodes. -/
inductive NF where
  | nil
  | cons (id : Nat) (m : Marker) (kids rest : NF)

def NF.roots : NF → List Nat
  | .nil => []
  | .cons id _ _ r => id :: r.roots

def NF.pre : NF → List Nat
  | .nil => []
  | .cons id _ k r => id :: (k.pre ++ r.pre)

/-- All nodes but the roots. -/
def NF.under : NF → List Nat
  | .nil => []
  | .cons _ _ k r => k.pre ++ r.under

def NF.append : NF → NF → NF
  | .nil, u => u
  | .cons id m k r, u => .cons id m k (r.append u)

def NF.sum : NF → Nat
  | .nil => 0
  | .cons _ m k r => m.size + k.sum + r.sum

/-- The edges, newest first. -/
def NF.edges : NF → List (Nat × Nat × Option Nat)
  | .nil => []
  | .cons id _ k r => r.edges ++ ((k.roots.reverse.map (fun c => (id, c, none))) ++ k.edges)

/-- The nodes in the order in which they are added. -/
def NF.post : NF → List Marker
  | .nil => []
  | .cons _ m k r => k.post ++ m :: r.post

def size_objs : Objs → Nat
  | .nil => 0
  | .cons _ k r => size_objs k + 1 + size_objs r

def number : Objs → Nat → NF
  | .nil, _ => .nil
  | .cons m k r, n => .cons (n + size_objs k) m (number k n) (number r (n + size_objs k + 1))

theorem post_length : ∀ (o : Objs) (n : Nat), (number o n).post.length = size_objs o
  | .nil, _ => rfl
  | .cons m k r, n => by
    rw [number, NF.post, List.length_append, List.length_cons, post_length k, post_length r, size_objs]
    omega

theorem foldl_edges (n : Nat) : ∀ (l : List Nat) (es : List (Nat × Nat × Option Nat)),
    l.foldl (fun es c => (n, c, none) :: es) es = l.reverse.map (fun c => (n, c, none)) ++ es
  | [], es => rfl
  | c :: l, es => by
    rw [List.foldl_cons, foldl_edges n l, List.reverse_cons, List.map_append, List.append_assoc]
    rfl

theorem addObjs_eq : ∀ (o : Objs) (g : Graph),
    addObjs o g = (⟨g.nodes ++ (number o g.nodes.length).post, (number o g.nodes.length).edges ++ g.edges⟩,
      (number o g.nodes.length).roots)
  | .nil, g => by simp [addObjs, number, NF.post, NF.edges, NF.roots]
  | .cons m k r, g => by
    rw [addObjs, addObjs_eq k g]
    dsimp only
    rw [addObjs_eq r]
    simp only [List.length_append, post_length, List.length_cons, List.length_nil, foldl_edges]
    rw [number]
    simp only [NF.post, NF.edges, NF.roots, List.append_assoc, List.cons_append, List.nil_append]

/-! ### What the graph knows -/

/-- The graph has these nodes and, below them, exactly these edges. -/
def Rep (g : Graph) : NF → Prop
  | .nil => True
  | .cons id m k r => g.nodes[id]? = some m ∧ g.out id = k.roots.reverse ∧ (∀ c ∈ k.roots, g.inc c = [id]) ∧ Rep g k ∧ Rep g r

theorem roots_below_pre : ∀ (f : NF) (x : Nat), x ∈ f.pre ↔ x ∈ f.roots ∨ x ∈ f.under
  | .nil, x => by simp [NF.pre, NF.roots, NF.under]
  | .cons id m k r, x => by
    simp only [NF.pre, NF.roots, NF.under, List.mem_cons, List.mem_append, roots_below_pre r x]
    constructor
    · rintro (h | h | h | h)
      · exact .inl (.inl h)
      · exact .inr (.inl h)
      · exact .inl (.inr h)
      · exact .inr (.inr h)
    · rintro ((h | h) | h | h)
      · exact .inl h
      · exact .inr (.inr (.inl h))
      · exact .inr (.inl h)
      · exact .inr (.inr (.inr h))

theorem edges_ends : ∀ (f : NF) (e : Nat × Nat × Option Nat), e ∈ f.edges → e.1 ∈ f.pre ∧ e.2.1 ∈ f.under
  | .nil, e, h => by simp [NF.edges] at h
  | .cons id m k r, e, h => by
    simp only [NF.edges, List.mem_append, List.mem_map, List.mem_reverse] at h
    simp only [NF.pre, NF.under, List.mem_cons, List.mem_append]
    rcases h with h | ⟨c, hc, rfl⟩ | h
    · have := edges_ends r e h
      exact ⟨.inr (.inr this.1), .inr this.2⟩
    · exact ⟨.inl rfl, .inl ((roots_below_pre k c).2 (.inl hc))⟩
    · have := edges_ends k e h
      exact ⟨.inr (.inl this.1), .inl ((roots_below_pre k _).2 (.inr this.2))⟩

theorem roots_not_below : ∀ (f : NF), f.pre.Nodup → ∀ x ∈ f.roots, x ∉ f.under
  | .nil, _, x, h => by simp [NF.roots] at h
  | .cons id m k r, h, x, hx => by
    simp only [NF.pre, List.nodup_cons, List.mem_append, List.nodup_append] at h
    simp only [NF.under, List.mem_append]
    simp only [NF.roots, List.mem_cons] at hx
    rcases hx with rfl | hx
    · rintro (hb | hb)
      · exact h.1 (.inl hb)
      · exact h.1 (.inr ((roots_below_pre r _).2 (.inr hb)))
    · rintro (hb | hb)
      · exact h.2.2.2 x hb x ((roots_below_pre r x).2 (.inl hx)) rfl
      · exact roots_not_below r h.2.2.1 x hx hb

theorem roots_nodup : ∀ (f : NF), f.pre.Nodup → f.roots.Nodup
  | .nil, _ => by simp [NF.roots]
  | .cons id m k r, h => by
    simp only [NF.pre, List.nodup_cons, List.mem_append, List.nodup_append] at h
    simp only [NF.roots, List.nodup_cons]
    exact ⟨fun hc => h.1 (.inr ((roots_below_pre r id).2 (.inl hc))), roots_nodup r h.2.2.1⟩

theorem filter_none {α : Type} {p : α → Bool} {l : List α} (h : ∀ a ∈ l, p a = false) : l.filter p = [] := by
  rw [List.filter_eq_nil_iff]
  intro a ha
  rw [h a ha]
  simp

theorem filter_one (id c : Nat) : ∀ (l : List Nat), l.Nodup → c ∈ l →
    ((l.map (fun c => ((id, c, none) : Nat × Nat × Option Nat))).filter (fun e => e.2.1 = c)).map (fun e => e.1) = [id]
  | [], _, h => by simp at h
  | x :: l, hn, h => by
    rw [List.nodup_cons] at hn
    by_cases hx : x = c
    · subst hx
      rw [List.map_cons, List.filter_cons_of_pos (by simp), List.map_cons, filter_none]
      · rfl
      · intro e he
        obtain ⟨y, hy, rfl⟩ := List.mem_map.1 he
        simp only [decide_eq_false_iff_not]
        rintro rfl
        exact hn.1 hy
    · rw [List.map_cons, List.filter_cons_of_neg (by simpa using hx)]
      exact filter_one id c l hn.2 (by simpa [Ne.symm hx] using h)

/-- The nodes are at their places. -/
def Labels (nodes : List Marker) : NF → Prop
  | .nil => True
  | .cons id m k r => nodes[id]? = some m ∧ Labels nodes k ∧ Labels nodes r

theorem rep_of (nodes : List Marker) : ∀ (f : NF) (A B : List (Nat × Nat × Option Nat)), f.pre.Nodup →
    (∀ e ∈ A ++ B, e.1 ∉ f.pre ∧ e.2.1 ∉ f.under) → Labels nodes f → Rep ⟨nodes, A ++ (f.edges ++ B)⟩ f
  | .nil, _, _, _, _, _ => trivial
  | .cons id m k r, A, B, hn, h, hl => by
    have hn' := hn
    simp only [NF.pre, List.nodup_cons, List.mem_append, List.nodup_append] at hn'
    obtain ⟨hid, hk, hr, hkr⟩ := hn'
    simp only [NF.pre, NF.under, List.mem_cons, List.mem_append] at h
    refine ⟨hl.1, ?_, ?_, ?_, ?_⟩
    · unfold Graph.out
      simp only [NF.edges, List.filter_append, List.map_append]
      rw [filter_none (l := A), filter_none (l := r.edges), filter_none (l := k.edges), filter_none (l := B)]
      · simp [List.filter_map, Function.comp_def]
      · intro e he
        simp only [decide_eq_false_iff_not]
        exact fun hc => (h e (.inr he)).1 (.inl hc)
      · intro e he
        simp only [decide_eq_false_iff_not]
        exact fun hc => hid (.inl (hc ▸ (edges_ends k e he).1))
      · intro e he
        simp only [decide_eq_false_iff_not]
        exact fun hc => hid (.inr (hc ▸ (edges_ends r e he).1))
      · intro e he
        simp only [decide_eq_false_iff_not]
        exact fun hc => (h e (.inl he)).1 (.inl hc)
    · intro c hc
      have hcp : c ∈ k.pre := (roots_below_pre k c).2 (.inl hc)
      unfold Graph.inc
      simp only [NF.edges, List.filter_append, List.map_append]
      rw [filter_none (l := A), filter_none (l := r.edges), filter_none (l := k.edges), filter_none (l := B)]
      · simp only [List.map_nil, List.nil_append, List.append_nil]
        exact filter_one id c _ (List.pairwise_reverse.2 ((roots_nodup k hk).imp Ne.symm)) (by simpa using hc)
      · intro e he
        simp only [decide_eq_false_iff_not]
        exact fun hc => (h e (.inr he)).2 (.inl (hc ▸ hcp))
      · intro e he
        simp only [decide_eq_false_iff_not]
        exact fun hc' => roots_not_below k hk c hc (hc' ▸ (edges_ends k e he).2)
      · intro e he
        simp only [decide_eq_false_iff_not]
        exact fun hc' => hkr c hcp c ((roots_below_pre r c).2 (.inr (hc' ▸ (edges_ends r e he).2))) rfl
      · intro e he
        simp only [decide_eq_false_iff_not]
        exact fun hc => (h e (.inl he)).2 (.inl (hc ▸ hcp))
    · have := rep_of nodes k (A ++ r.edges ++ k.roots.reverse.map (fun c => (id, c, none))) B hk ?_ hl.2.1
      · simp only [NF.edges, List.append_assoc] at this ⊢
        exact this
      · intro e he
        simp only [List.mem_append, List.mem_map, List.mem_reverse] at he
        rcases he with ((he | he) | ⟨c, hc, rfl⟩) | he
        · have := h e (.inl he)
          exact ⟨fun x => this.1 (.inr (.inl x)), fun x => this.2 (.inl ((roots_below_pre k _).2 (.inr x)))⟩
        · have := edges_ends r e he
          exact ⟨fun x => hkr _ x _ this.1 rfl,
            fun x => hkr _ ((roots_below_pre k _).2 (.inr x)) _ ((roots_below_pre r _).2 (.inr this.2)) rfl⟩
        · exact ⟨fun x => hid (.inl x), roots_not_below k hk c hc⟩
        · have := h e (.inr he)
          exact ⟨fun x => this.1 (.inr (.inl x)), fun x => this.2 (.inl ((roots_below_pre k _).2 (.inr x)))⟩
    · have := rep_of nodes r A (k.roots.reverse.map (fun c => (id, c, none)) ++ (k.edges ++ B)) hr ?_ hl.2.2
      · simp only [NF.edges, List.append_assoc] at this ⊢
        exact this
      · intro e he
        simp only [List.mem_append, List.mem_map, List.mem_reverse] at he
        rcases he with he | ⟨c, hc, rfl⟩ | he | he
        · have := h e (.inl he)
          exact ⟨fun x => this.1 (.inr (.inr x)), fun x => this.2 (.inr x)⟩
        · exact ⟨fun x => hid (.inr x), fun x => hkr c ((roots_below_pre k c).2 (.inl hc)) c ((roots_below_pre r c).2 (.inr x)) rfl⟩
        · have := edges_ends k e he
          exact ⟨fun x => hkr _ this.1 _ x rfl,
            fun x => hkr _ ((roots_below_pre k _).2 (.inr this.2)) _ ((roots_below_pre r _).2 (.inr x)) rfl⟩
        · have := h e (.inr he)
          exact ⟨fun x => this.1 (.inr (.inr x)), fun x => this.2 (.inr x)⟩

theorem number_ids : ∀ (o : Objs) (n : Nat), (∀ x ∈ (number o n).pre, n ≤ x ∧ x < n + size_objs o) ∧ (number o n).pre.Nodup
  | .nil, n => by simp [number, NF.pre]
  | .cons m k r, n => by
    have h1 := number_ids k n
    have h2 := number_ids r (n + size_objs k + 1)
    rw [number]
    simp only [NF.pre, size_objs, List.mem_cons, List.mem_append, List.nodup_cons, List.nodup_append]
    refine ⟨?_, ?_, h1.2, h2.2, ?_⟩
    · rintro x (rfl | h | h)
      · omega
      · have := h1.1 x h; omega
      · have := h2.1 x h; omega
    · rintro (h | h)
      · have := h1.1 _ h; omega
      · have := h2.1 _ h; omega
    · intro a ha b hb
      have := h1.1 a ha
      have := h2.1 b hb
      omega

theorem number_labels : ∀ (o : Objs) (before after : List Marker),
    Labels (before ++ ((number o before.length).post ++ after)) (number o before.length)
  | .nil, _, _ => trivial
  | .cons m k r, before, after => by
    have h1 := number_labels k before (m :: (number r (before.length + size_objs k + 1)).post ++ after)
    have h2 := number_labels r (before ++ ((number k before.length).post ++ [m])) after
    have el : (before ++ ((number k before.length).post ++ [m])).length = before.length + size_objs k + 1 := by
      simp only [List.length_append, post_length, List.length_cons, List.length_nil]
      omega
    rw [el] at h2
    rw [number]
    simp only [NF.post, List.append_assoc, List.cons_append, List.nil_append] at h1 h2 ⊢
    refine ⟨?_, h1, h2⟩
    rw [List.getElem?_append_right (by omega), List.getElem?_append_right (by rw [post_length]; omega)]
    rw [post_length, show before.length + size_objs k - before.length - size_objs k = 0 from by omega]
    rfl

/-! ### The order of the nodes -/

theorem foldl_push : ∀ (l s : List Nat), l.foldl (fun s c => c :: s) s = l.reverse ++ s
  | [], s => rfl
  | c :: l, s => by rw [List.foldl_cons, foldl_push l, List.reverse_cons, List.append_assoc]; rfl

theorem topo_forest (g : Graph) : ∀ (f : NF) (k : Nat) (stack seen : List Nat), Rep g f → f.pre.Nodup →
    (∀ x ∈ f.pre, x ∉ seen) →
    ∃ seen', (∀ x, x ∈ seen' ↔ x ∈ seen ∨ x ∈ f.pre) ∧
      topoFrom g (k + f.pre.length) (f.roots ++ stack) seen = f.pre ++ topoFrom g k stack seen'
  | .nil, k, stack, seen, _, _, _ => ⟨seen, by simp [NF.pre], rfl⟩
  | .cons id m kids rest, k, stack, seen, hr, hn, hs => by
    simp only [NF.pre, List.nodup_cons, List.mem_append, List.nodup_append] at hn
    obtain ⟨hid, hk, hrn, hkr⟩ := hn
    simp only [NF.pre, List.mem_cons, List.mem_append] at hs
    obtain ⟨_, hout, hinc, rk, rr⟩ := hr
    obtain ⟨s1, e1, t1⟩ := topo_forest g kids (k + rest.pre.length) (rest.roots ++ stack) (id :: seen) rk hk (by
      intro x hx
      rw [List.mem_cons]
      rintro (rfl | h)
      · exact hid (.inl hx)
      · exact hs x (.inr (.inl hx)) h)
    obtain ⟨s2, e2, t2⟩ := topo_forest g rest k stack s1 rr hrn (by
      intro x hx
      rw [e1, List.mem_cons]
      rintro ((rfl | h) | h)
      · exact hid (.inr hx)
      · exact hs x (.inr (.inr hx)) h
      · exact hkr x h x hx rfl)
    refine ⟨s2, ?_, ?_⟩
    · intro x
      rw [e2, e1]
      simp only [NF.pre, List.mem_cons, List.mem_append]
      constructor
      · rintro (((h | h) | h) | h)
        · exact .inr (.inl h)
        · exact .inl h
        · exact .inr (.inr (.inl h))
        · exact .inr (.inr (.inr h))
      · rintro (h | h | h | h)
        · exact .inl (.inl (.inr h))
        · exact .inl (.inl (.inl h))
        · exact .inl (.inr h)
        · exact .inr h
    · simp only [NF.pre, NF.roots, List.length_cons, List.length_append, List.cons_append, List.append_assoc]
      rw [show k + (kids.pre.length + rest.pre.length + 1) = (k + rest.pre.length + kids.pre.length) + 1 from by omega, topoFrom,
        if_neg (hs id (.inl rfl)), foldl_push, hout]
      have : kids.roots.reverse.filter (fun c => (g.inc c).all (· ∈ id :: seen)) = kids.roots.reverse := by
        rw [List.filter_eq_self]
        intro c hc
        rw [hinc c (by simpa using hc)]
        simp
      rw [this, List.reverse_reverse, t1, t2]

/-! ### The first pass -/

/-- The same nodes, and the same edges but for their weights. -/
def SameShape (g g' : Graph) : Prop :=
  g'.nodes = g.nodes ∧ g'.edges.map (fun e => (e.1, e.2.1)) = g.edges.map (fun e => (e.1, e.2.1))

theorem SameShape.refl (g : Graph) : SameShape g g := ⟨rfl, rfl⟩

theorem SameShape.trans {a b c : Graph} (h : SameShape a b) (h' : SameShape b c) : SameShape a c :=
  ⟨h'.1.trans h.1, h'.2.trans h.2⟩

theorem out_ends (g : Graph) (n : Nat) :
    g.out n = ((g.edges.map (fun e => (e.1, e.2.1))).filter (fun e => e.1 = n)).map (fun e => e.2) := by
  unfold Graph.out
  rw [List.filter_map, List.map_map]
  rfl

theorem inc_ends (g : Graph) (n : Nat) :
    g.inc n = ((g.edges.map (fun e => (e.1, e.2.1))).filter (fun e => e.2 = n)).map (fun e => e.1) := by
  unfold Graph.inc
  rw [List.filter_map, List.map_map]
  rfl

theorem SameShape.out {g g' : Graph} (h : SameShape g g') (n : Nat) : g'.out n = g.out n := by rw [out_ends, out_ends, h.2]
theorem SameShape.inc {g g' : Graph} (h : SameShape g g') (n : Nat) : g'.inc n = g.inc n := by rw [inc_ends, inc_ends, h.2]

theorem SameShape.rep {g g' : Graph} (h : SameShape g g') : ∀ f, Rep g f → Rep g' f
  | .nil, _ => trivial
  | .cons id m k r, ⟨h1, h2, h3, h4, h5⟩ =>
    ⟨by rw [h.1]; exact h1, by rw [h.out]; exact h2, fun c hc => by rw [h.inc]; exact h3 c hc, h.rep k h4, h.rep r h5⟩

theorem setWeight_ends (a b w : Nat) : ∀ es : List (Nat × Nat × Option Nat),
    (setWeight a b w es).map (fun e => (e.1, e.2.1)) = es.map (fun e => (e.1, e.2.1))
  | [] => rfl
  | e :: es => by
    rw [setWeight]
    split
    · rename_i h
      rw [List.map_cons, List.map_cons, h.1, h.2]
    · rw [List.map_cons, List.map_cons, setWeight_ends a b w es]

theorem setWeight_weight (a b w a' b' : Nat) : ∀ es : List (Nat × Nat × Option Nat),
    weightOf a' b' (setWeight a b w es) =
      if a' = a ∧ b' = b then (weightOf a b es).map (fun _ => some w) else weightOf a' b' es
  | [] => by simp [setWeight, weightOf]
  | e :: es => by
    rw [setWeight]
    by_cases h : e.1 = a ∧ e.2.1 = b
    · rw [if_pos h]
      by_cases h' : a' = a ∧ b' = b
      · rw [if_pos h', weightOf, if_pos ⟨h'.1.symm, h'.2.symm⟩, weightOf, if_pos h]
        rfl
      · rw [if_neg h', weightOf, if_neg (fun x => h' ⟨x.1.symm, x.2.symm⟩), weightOf,
          if_neg (fun x => h' ⟨x.1.symm.trans h.1, x.2.symm.trans h.2⟩)]
    · rw [if_neg h, weightOf, setWeight_weight a b w a' b' es]
      by_cases h' : a' = a ∧ b' = b
      · rw [if_pos h', if_pos h', if_neg (by rw [h'.1, h'.2]; exact h)]
        conv => rhs; rw [weightOf, if_neg h]
      · rw [if_neg h', if_neg h']
        conv => rhs; rw [weightOf]

theorem weight_isSome {g : Graph} {p n : Nat} (h : g.inc n = [p]) : (weightOf p n g.edges).isSome = true := by
  unfold Graph.inc at h
  obtain ⟨ns, es⟩ := g
  dsimp only at h ⊢
  induction es with
  | nil => simp at h
  | cons e es ih =>
    rw [weightOf]
    split
    · rfl
    · rename_i hn
      by_cases he : e.2.1 = n
      · rw [List.filter_cons_of_pos (by simpa using he), List.map_cons] at h
        injection h with h1 h2
        exact absurd ⟨h1, he⟩ hn
      · rw [List.filter_cons_of_neg (by simpa using he)] at h
        exact ih h

/-- The weights of the edges are the positions of the nodes. -/
def Placed (g : Graph) (p : Nat) : NF → Nat → Prop
  | .nil, _ => True
  | .cons id m k r, c => weightOf p id g.edges = some (some c) ∧ Placed g id k (c + m.size) ∧ Placed g p r (c + m.size + k.sum)

theorem placed_congr {g g' : Graph} : ∀ (f : NF) (p c : Nat), (∀ a, ∀ b ∈ f.pre, weightOf a b g'.edges = weightOf a b g.edges) →
    Placed g p f c → Placed g' p f c
  | .nil, _, _, _, _ => trivial
  | .cons id m k r, p, c, h, ⟨h1, h2, h3⟩ => by
    simp only [NF.pre, List.mem_cons, List.mem_append] at h
    exact ⟨by rw [h p id (.inl rfl)]; exact h1, placed_congr k id _ (fun a b hb => h a b (.inr (.inl hb))) h2,
      placed_congr r p _ (fun a b hb => h a b (.inr (.inr hb))) h3⟩

theorem first_forest : ∀ (f : NF) (g : Graph) (p c : Nat) (more : List Nat), Rep g f → f.pre.Nodup → 0 < c →
    (∀ x ∈ f.roots, g.inc x = [p]) →
    ∃ g', SameShape g g' ∧ firstPass g c (f.pre ++ more) = firstPass g' (c + f.sum) more ∧ Placed g' p f c ∧
      ∀ a b, b ∉ f.pre → weightOf a b g'.edges = weightOf a b g.edges
  | .nil, g, p, c, more, _, _, _, _ => ⟨g, .refl g, rfl, trivial, fun _ _ _ => rfl⟩
  | .cons id m k r, g, p, c, more, hr, hn, hc, hi => by
    simp only [NF.pre, List.nodup_cons, List.mem_append, List.nodup_append] at hn
    obtain ⟨hid, hk, hrn, hkr⟩ := hn
    obtain ⟨hnode, _, hinc, rk, rr⟩ := hr
    have hpi := hi id (by simp [NF.roots])
    have hsome := weight_isSome hpi
    let g1 : Graph := g.update p id c
    have e1 : g1.edges = setWeight p id c g.edges := by
      show (if _ then _ else _) = _
      rw [if_pos hsome]
    have s1 : SameShape g g1 := ⟨rfl, by rw [e1, setWeight_ends]⟩
    obtain ⟨g2, s2, f2, p2, w2⟩ := first_forest k g1 id (c + m.size) (r.pre ++ more) (s1.rep k rk) hk (by omega)
      (fun x hx => by rw [s1.inc]; exact hinc x hx)
    have s12 := s1.trans s2
    obtain ⟨g3, s3, f3, p3, w3⟩ := first_forest r g2 p (c + m.size + k.sum) more (s12.rep r rr) hrn (by omega)
      (fun x hx => by rw [s12.inc]; exact hi x (by simp [NF.roots, hx]))
    refine ⟨g3, s12.trans s3, ?_, ⟨?_, ?_, p3⟩, ?_⟩
    · rw [NF.pre, List.cons_append, firstPass, hnode]
      simp only [Res.unwrap_some, Res.ok_bind]
      rw [if_pos hc, hpi]
      simp only [Res.ok_bind]
      show firstPass g1 (c + m.size) _ = _
      rw [List.append_assoc, f2, f3, NF.sum]
      congr 1
      omega
    · rw [w3 p id (fun h => hid (.inr h)), w2 p id (fun h => hid (.inl h)), e1, setWeight_weight, if_pos ⟨rfl, rfl⟩]
      cases h : weightOf p id g.edges with
      | none => rw [h] at hsome; cases hsome
      | some x => rfl
    · exact placed_congr k id _ (fun a b hb => w3 a b (fun h => hkr b hb b h rfl)) p2
    · intro a b hb
      simp only [NF.pre, List.mem_cons, List.mem_append, not_or] at hb
      rw [w3 a b hb.2.2, w2 a b hb.2.1, e1, setWeight_weight, if_neg (fun h => hb.1 h.2)]

/-! ### The second pass -/

/-- All offsets in the forest can be set. -/
def Fit : NF → Nat → Nat → Prop
  | .nil, _, _ => True
  | .cons _ m k r, base, c => (m.target.isSome → setOff m.w m.opt (c - base) ≠ .panic) ∧ Fit k c (c + m.size) ∧
      Fit r base (c + m.size + k.sum)

def RootsFit : NF → Nat → Nat → Prop
  | .nil, _, _ => True
  | .cons _ m k r, base, c => (m.target.isSome → setOff m.w m.opt (c - base) ≠ .panic) ∧ RootsFit r base (c + m.size + k.sum)

def KidsFit : NF → Nat → Prop
  | .nil, _ => True
  | .cons _ m k r, c => RootsFit k c (c + m.size) ∧ KidsFit k (c + m.size) ∧ KidsFit r (c + m.size + k.sum)

theorem fit_iff : ∀ (f : NF) (base c : Nat), Fit f base c ↔ RootsFit f base c ∧ KidsFit f c
  | .nil, _, _ => by simp [Fit, RootsFit, KidsFit]
  | .cons id m k r, base, c => by
    simp only [Fit, RootsFit, KidsFit, fit_iff k, fit_iff r]
    constructor
    · rintro ⟨a, ⟨b, d⟩, e, f⟩; exact ⟨⟨a, e⟩, b, d, f⟩
    · rintro ⟨⟨a, e⟩, b, d, f⟩; exact ⟨a, ⟨b, d⟩, e, f⟩

/-- The offsets are set: distance of each node from its owner. -/
def Good (cells : Cells) : NF → Nat → Nat → Prop
  | .nil, _, _ => True
  | .cons id m k r, base, c => (m.target.isSome → setOff m.w m.opt (c - base) = .ok (cells id)) ∧ Good cells k c (c + m.size) ∧
      Good cells r base (c + m.size + k.sum)

def RootsGood (cells : Cells) : NF → Nat → Nat → Prop
  | .nil, _, _ => True
  | .cons id m k r, base, c => (m.target.isSome → setOff m.w m.opt (c - base) = .ok (cells id)) ∧
      RootsGood cells r base (c + m.size + k.sum)

def KidsGood (cells : Cells) : NF → Nat → Prop
  | .nil, _ => True
  | .cons _ m k r, c => RootsGood cells k c (c + m.size) ∧ KidsGood cells k (c + m.size) ∧ KidsGood cells r (c + m.size + k.sum)

theorem good_iff (cells : Cells) : ∀ (f : NF) (base c : Nat), Good cells f base c ↔ RootsGood cells f base c ∧ KidsGood cells f c
  | .nil, _, _ => by simp [Good, RootsGood, KidsGood]
  | .cons id m k r, base, c => by
    simp only [Good, RootsGood, KidsGood, good_iff cells k, good_iff cells r]
    constructor
    · rintro ⟨a, ⟨b, d⟩, e, f⟩; exact ⟨⟨a, e⟩, b, d, f⟩
    · rintro ⟨⟨a, e⟩, b, d, f⟩; exact ⟨a, ⟨b, d⟩, e, f⟩

theorem rootsGood_congr {cells cells' : Cells} : ∀ (f : NF) (base c : Nat), (∀ x ∈ f.roots, cells' x = cells x) →
    RootsGood cells f base c → RootsGood cells' f base c
  | .nil, _, _, _, _ => trivial
  | .cons id m k r, base, c, h, ⟨h1, h2⟩ => by
    simp only [NF.roots, List.mem_cons] at h
    exact ⟨by rw [h id (.inl rfl)]; exact h1, rootsGood_congr r base _ (fun x hx => h x (.inr hx)) h2⟩

theorem kidsGood_congr {cells cells' : Cells} : ∀ (f : NF) (c : Nat), (∀ x ∈ f.under, cells' x = cells x) →
    KidsGood cells f c → KidsGood cells' f c
  | .nil, _, _, _ => trivial
  | .cons id m k r, c, h, ⟨h1, h2, h3⟩ => by
    simp only [NF.under, List.mem_append] at h
    exact ⟨rootsGood_congr k _ _ (fun x hx => h x (.inl ((roots_below_pre k x).2 (.inl hx)))) h1,
      kidsGood_congr k _ (fun x hx => h x (.inl ((roots_below_pre k x).2 (.inr hx)))) h2,
      kidsGood_congr r _ (fun x hx => h x (.inr hx)) h3⟩

theorem setKids_append (g : Graph) (base : Nat) : ∀ (a b : List (Nat × Nat × Option Nat)) (cells : Cells),
    setKids g base (a ++ b) cells = (setKids g base a cells >>= fun cells => setKids g base b cells)
  | [], b, cells => rfl
  | e :: a, b, cells => by
    rw [List.cons_append, setKids, setKids]
    cases e.2.2 with
    | none => rfl
    | some w =>
      simp only [Res.unwrap_some, Res.ok_bind]
      split
      · rfl
      · cases g.nodes[e.2.1]? with
        | none => rfl
        | some m =>
          simp only [Res.unwrap_some, Res.pure_eq, Res.ok_bind]
          split
          · simp only [Res.ok_bind, setKids_append g base a b]
          · cases setOff m.w m.opt ((w - base) % 2 ^ 32) with
            | ok o => simp only [Res.ok_bind, setKids_append g base a b]
            | err => rfl
            | panic => rfl

theorem setOff_not_err (w : Width) (o : Bool) (n : Nat) : setOff w o n ≠ .err := by
  unfold setOff
  split
  · simp
  · split <;> simp

/-- Setting the offsets of one table. -/
theorem setKids_forest (g : Graph) (id base : Nat) : ∀ (f : NF) (c : Nat) (es : List (Nat × Nat × Option Nat)) (cells : Cells),
    Rep g f → f.roots.Nodup → Placed g id f c → base ≤ c → c + f.sum < 2 ^ 32 →
    es.map (fun e => e.2.1) = f.roots.reverse → (∀ e ∈ es, weightOf id e.2.1 g.edges = some e.2.2) →
    (RootsFit f base c → ∃ cells', setKids g base es cells = .ok cells' ∧ RootsGood cells' f base c ∧
      ∀ x, x ∉ f.roots → cells' x = cells x) ∧
    (¬ RootsFit f base c → setKids g base es cells = .panic)
  | .nil, c, es, cells, _, _, _, _, _, he, _ => by
    have : es = [] := by simpa [NF.roots] using he
    subst this
    exact ⟨fun _ => ⟨cells, rfl, trivial, fun _ _ => rfl⟩, fun h => absurd trivial h⟩
  | .cons n m k r, c, es, cells, hr, hn, hp, hb, hs, he, hw => by
    obtain ⟨hnode, _, _, rk, rr⟩ := hr
    obtain ⟨hp1, hp2, hp3⟩ := hp
    simp only [NF.roots, List.nodup_cons] at hn
    simp only [NF.sum] at hs
    rw [NF.roots, List.reverse_cons] at he
    obtain ⟨es1, es2, rfl, he1, he2⟩ := List.map_eq_append_iff.1 he
    obtain ⟨e, es3, rfl, he3, he4⟩ := List.map_eq_cons_iff.1 he2
    have : es3 = [] := by simpa using he4
    subst this
    rw [setKids_append]
    have ih := setKids_forest g id base r (c + m.size + k.sum) es1 cells rr hn.2 hp3 (by omega) (by omega) he1
      (fun e he => hw e (List.mem_append_left _ he))
    have hwe : e.2.2 = some c := by
      have := hw e (by simp)
      rw [he3, hp1] at this
      injection this with this
      exact this.symm
    have step : ∀ cells1 : Cells, setKids g base [e] cells1 =
        (if m.target.isNone then .ok cells1 else match setOff m.w m.opt (c - base) with
          | .ok o => .ok (fun x => if x = n then o else cells1 x)
          | .err => .err
          | .panic => .panic) := by
      intro cells1
      rw [setKids, hwe, he3, hnode]
      simp only [Res.unwrap_some, Res.ok_bind]
      rw [if_neg (by omega), Nat.mod_eq_of_lt (by omega)]
      simp only [Res.pure_eq, Res.ok_bind, setKids]
      split
      · rfl
      · cases setOff m.w m.opt (c - base) <;> rfl
    constructor
    · rintro ⟨hf1, hf2⟩
      obtain ⟨c1, e1, g1, o1⟩ := ih.1 hf2
      rw [e1]
      simp only [Res.ok_bind]
      rw [step]
      cases ht : m.target with
      | none =>
        refine ⟨c1, rfl, ⟨by rw [ht]; simp, g1⟩, ?_⟩
        intro x hx
        exact o1 x (fun h => hx (by simp [NF.roots, h]))
      | some t =>
        cases hso : setOff m.w m.opt (c - base) with
        | err => exact absurd hso (setOff_not_err _ _ _)
        | panic => exact absurd hso (hf1 (by rw [ht]; rfl))
        | ok o =>
          refine ⟨fun x => if x = n then o else c1 x, rfl, ⟨fun _ => by show _ = Res.ok (if n = n then o else c1 n); rw [if_pos rfl]; exact hso, ?_⟩, ?_⟩
          · refine rootsGood_congr r _ _ (fun x hx => ?_) g1
            show (if x = n then o else c1 x) = _
            rw [if_neg]
            rintro rfl
            exact hn.1 hx
          · intro x hx
            simp only [NF.roots, List.mem_cons, not_or] at hx
            show (if x = n then o else c1 x) = _
            rw [if_neg hx.1]
            exact o1 x hx.2
    · intro hnf
      by_cases h2 : RootsFit r base (c + m.size + k.sum)
      · obtain ⟨c1, e1, _, _⟩ := ih.1 h2
        rw [e1]
        simp only [Res.ok_bind]
        rw [step]
        have : m.target.isSome ∧ setOff m.w m.opt (c - base) = .panic := by
          rcases Classical.em (m.target.isSome ∧ setOff m.w m.opt (c - base) = .panic) with h | h
          · exact h
          · exact absurd ⟨fun ht hp => h ⟨ht, hp⟩, h2⟩ hnf
        cases ht : m.target with
        | none => rw [ht] at this; simp at this
        | some t => rw [this.2]; rfl
      · rw [ih.2 h2]
        rfl

/-- The only edge to a node. -/
theorem inc_edge {g : Graph} {p n : Nat} (h : g.inc n = [p]) :
    ∃ w, weightOf p n g.edges = some w ∧ g.edges.filter (fun e => e.2.1 = n) = [(p, n, w)] := by
  unfold Graph.inc at h
  obtain ⟨ns, es⟩ := g
  dsimp only at h ⊢
  induction es with
  | nil => simp at h
  | cons e es ih =>
    by_cases he : e.2.1 = n
    · rw [List.filter_cons_of_pos (by simpa using he), List.map_cons] at h
      injection h with h1 h2
      refine ⟨e.2.2, by rw [weightOf, if_pos ⟨h1, he⟩], ?_⟩
      rw [List.filter_cons_of_pos (by simpa using he), List.map_eq_nil_iff.1 h2, ← h1, ← he]
    · rw [List.filter_cons_of_neg (by simpa using he)] at h
      obtain ⟨w, h1, h2⟩ := ih h
      refine ⟨w, by rw [weightOf, if_neg (fun x => he x.2)]; exact h1, ?_⟩
      rw [List.filter_cons_of_neg (by simpa using he)]
      exact h2

/-- The edges from a node, with their weights. -/
theorem out_edges {g : Graph} {id : Nat} {k : NF} (hout : g.out id = k.roots.reverse) (hinc : ∀ c ∈ k.roots, g.inc c = [id]) :
    (g.edges.filter (fun e => e.1 = id)).map (fun e => e.2.1) = k.roots.reverse ∧
    ∀ e ∈ g.edges.filter (fun e => e.1 = id), weightOf id e.2.1 g.edges = some e.2.2 := by
  refine ⟨hout, fun e he => ?_⟩
  have hm : e.2.1 ∈ k.roots := by
    rw [← List.mem_reverse, ← hout]
    exact List.mem_map_of_mem he
  obtain ⟨w, h1, h2⟩ := inc_edge (hinc _ hm)
  have : e ∈ g.edges.filter (fun x => x.2.1 = e.2.1) := by
    rw [List.mem_filter] at he ⊢
    exact ⟨he.1, by simp⟩
  rw [h2, List.mem_singleton] at this
  rw [h1]
  congr 1
  rw [this]

theorem second_forest (g : Graph) : ∀ (f : NF) (p b c : Nat) (cells : Cells) (more : List Nat), Rep g f → f.pre.Nodup →
    Placed g p f c → (∀ x ∈ f.roots, g.inc x = [p]) → c + f.sum < 2 ^ 32 →
    (KidsFit f c → ∃ cells' b', secondPass g b (f.pre ++ more) cells = secondPass g b' more cells' ∧ KidsGood cells' f c ∧
      ∀ x, x ∉ f.under → cells' x = cells x) ∧
    (¬ KidsFit f c → secondPass g b (f.pre ++ more) cells = .panic)
  | .nil, p, b, c, cells, more, _, _, _, _, _ => ⟨fun _ => ⟨cells, b, rfl, trivial, fun _ _ => rfl⟩, fun h => absurd trivial h⟩
  | .cons id m k r, p, b, c, cells, more, hr, hn, hp, hi, hs => by
    simp only [NF.pre, List.nodup_cons, List.mem_append, List.nodup_append] at hn
    obtain ⟨hid, hk, hrn, hkr⟩ := hn
    obtain ⟨hnode, hout, hinc, rk, rr⟩ := hr
    obtain ⟨hp1, hp2, hp3⟩ := hp
    simp only [NF.sum] at hs
    obtain ⟨w, hw1, hw2⟩ := inc_edge (hi id (by simp [NF.roots]))
    have hwc : w = some c := by rw [hp1] at hw1; injection hw1 with h; exact h.symm
    subst hwc
    have step : secondPass g b (NF.pre (.cons id m k r) ++ more) cells =
        (setKids g c (g.edges.filter (fun e => e.1 = id)) cells >>= fun cells => secondPass g c (k.pre ++ (r.pre ++ more)) cells) := by
      rw [NF.pre, List.cons_append, secondPass, hw2, List.append_assoc]
      rfl
    rw [step]
    obtain ⟨ho1, ho2⟩ := out_edges hout hinc
    have hset := setKids_forest g id c k (c + m.size) _ cells rk (roots_nodup k hk) hp2 (by omega) (by omega) ho1 ho2
    have hkn : ∀ x, x ∈ k.roots → x ∉ k.under := roots_not_below k hk
    constructor
    · rintro ⟨f1, f2, f3⟩
      obtain ⟨c1, e1, g1, o1⟩ := hset.1 f1
      obtain ⟨c2, b2, e2, g2, o2⟩ := (second_forest g k id c (c + m.size) c1 (r.pre ++ more) rk hk hp2 hinc (by omega)).1 f2
      obtain ⟨c3, b3, e3, g3, o3⟩ := (second_forest g r p b2 (c + m.size + k.sum) c2 more rr hrn hp3
        (fun x hx => hi x (by simp [NF.roots, hx])) (by omega)).1 f3
      refine ⟨c3, b3, by rw [e1, Res.ok_bind, e2, e3], ⟨?_, ?_, g3⟩, ?_⟩
      · refine rootsGood_congr k _ _ (fun x hx => ?_) g1
        rw [o3 x (fun h => hkr x ((roots_below_pre k x).2 (.inl hx)) x ((roots_below_pre r x).2 (.inr h)) rfl), o2 x (hkn x hx)]
      · exact kidsGood_congr k _ (fun x hx =>
          o3 x (fun h => hkr x ((roots_below_pre k x).2 (.inr hx)) x ((roots_below_pre r x).2 (.inr h)) rfl)) g2
      · intro x hx
        simp only [NF.under, List.mem_append, not_or] at hx
        rw [o3 x hx.2, o2 x (fun h => hx.1 ((roots_below_pre k x).2 (.inr h))), o1 x (fun h => hx.1 ((roots_below_pre k x).2 (.inl h)))]
    · intro hnf
      by_cases f1 : RootsFit k c (c + m.size)
      · obtain ⟨c1, e1, g1, o1⟩ := hset.1 f1
        rw [e1, Res.ok_bind]
        by_cases f2 : KidsFit k (c + m.size)
        · obtain ⟨c2, b2, e2, g2, o2⟩ := (second_forest g k id c (c + m.size) c1 (r.pre ++ more) rk hk hp2 hinc (by omega)).1 f2
          rw [e2]
          exact (second_forest g r p b2 (c + m.size + k.sum) c2 more rr hrn hp3
            (fun x hx => hi x (by simp [NF.roots, hx])) (by omega)).2 (fun f3 => hnf ⟨f1, f2, f3⟩)
        · exact (second_forest g k id c (c + m.size) c1 (r.pre ++ more) rk hk hp2 hinc (by omega)).2 f2
      · rw [hset.2 f1]
        rfl

/-! ### What is written -/

def NF.strip : NF → Objs
  | .nil => .nil
  | .cons _ m k r => .cons m k.strip r.strip

theorem strip_number : ∀ (o : Objs) (n : Nat), (number o n).strip = o
  | .nil, _ => rfl
  | .cons m k r, n => by rw [number, NF.strip, strip_number k, strip_number r]

theorem strip_append : ∀ (a b : Objs) (f : NF), f.strip = a.append b → ∃ x y : NF, f = x.append y ∧ x.strip = a ∧ y.strip = b
  | .nil, b, f, h => ⟨.nil, f, rfl, rfl, h⟩
  | .cons m k r, b, .nil, h => by cases h
  | .cons m k r, b, .cons id m' k' r', h => by
    rw [NF.strip, Objs.append] at h
    injection h with h1 h2 h3
    obtain ⟨x, y, e, ex, ey⟩ := strip_append r b r' h3
    exact ⟨.cons id m' k' x, y, by rw [e]; rfl, by rw [NF.strip, h1, h2, ex], ey⟩

theorem append_roots : ∀ (x y : NF), (x.append y).roots = x.roots ++ y.roots
  | .nil, _ => rfl
  | .cons id m k r, y => by rw [NF.append, NF.roots, append_roots r y]; rfl

theorem append_pre : ∀ (x y : NF), (x.append y).pre = x.pre ++ y.pre
  | .nil, _ => rfl
  | .cons id m k r, y => by rw [NF.append, NF.pre, append_pre r y, NF.pre, List.cons_append, List.append_assoc]

theorem append_sum : ∀ (x y : NF), (x.append y).sum = x.sum + y.sum
  | .nil, y => by simp [NF.append, NF.sum]
  | .cons id m k r, y => by rw [NF.append, NF.sum, append_sum r y, NF.sum]; omega

theorem append_rep (g : Graph) : ∀ (x y : NF), Rep g (x.append y) ↔ Rep g x ∧ Rep g y
  | .nil, y => by simp [NF.append, Rep]
  | .cons id m k r, y => by
    rw [NF.append, Rep, append_rep g r y, Rep]
    constructor
    · rintro ⟨a, b, c, d, e, f⟩; exact ⟨⟨a, b, c, d, e⟩, f⟩
    · rintro ⟨⟨a, b, c, d, e⟩, f⟩; exact ⟨a, b, c, d, e, f⟩

theorem append_fit : ∀ (x y : NF) (base c : Nat), Fit (x.append y) base c ↔ Fit x base c ∧ Fit y base (c + x.sum)
  | .nil, y, base, c => by simp [NF.append, Fit, NF.sum]
  | .cons id m k r, y, base, c => by
    rw [NF.append, Fit, append_fit r y, Fit, NF.sum, show c + m.size + k.sum + r.sum = c + (m.size + k.sum + r.sum) from by omega]
    constructor
    · rintro ⟨a, b, d, e⟩; exact ⟨⟨a, b, d⟩, e⟩
    · rintro ⟨⟨a, b, d⟩, e⟩; exact ⟨a, b, d, e⟩

theorem append_good (cells : Cells) : ∀ (x y : NF) (base c : Nat),
    Good cells (x.append y) base c ↔ Good cells x base c ∧ Good cells y base (c + x.sum)
  | .nil, y, base, c => by simp [NF.append, Good, NF.sum]
  | .cons id m k r, y, base, c => by
    rw [NF.append, Good, append_good cells r y, Good, NF.sum,
      show c + m.size + k.sum + r.sum = c + (m.size + k.sum + r.sum) from by omega]
    constructor
    · rintro ⟨a, b, d, e⟩; exact ⟨⟨a, b, d⟩, e⟩
    · rintro ⟨⟨a, b, d⟩, e⟩; exact ⟨a, b, d, e⟩

theorem size_tab : ∀ f : Fields, f.size = Off.size f.tab
  | .nil => rfl
  | .raw bs r => by rw [Fields.size, Fields.tab, Off.size, size_tab r]
  | .null w v r => by rw [Fields.size, Fields.tab, Off.size, size_tab r]
  | .absent v r => by rw [Fields.size, Fields.tab, size_tab r]
  | .link w v o c r => by rw [Fields.size, Fields.tab, Off.size, size_tab r]

theorem sum_tab : ∀ (f : Fields) (s : Bool) (n : NF), n.strip = f.objs s → n.sum = descSize f.tab s
  | .nil, s, .nil, _ => rfl
  | .nil, s, .cons .., h => by cases h
  | .raw bs r, s, n, h => sum_tab r s n h
  | .null w v r, s, n, h => by
    rw [Fields.objs] at h
    split at h
    · cases n with
      | nil => cases h
      | cons id m k r' =>
        rw [NF.strip] at h
        injection h with h1 h2 h3
        cases k with
        | cons => cases h2
        | nil => rw [NF.sum, h1, sum_tab r s r' h3]; simp [Marker.size, NF.sum, Fields.tab, descSize]
    · exact sum_tab r s n h
  | .absent v r, s, n, h => by
    rw [Fields.objs] at h
    split at h
    · cases n with
      | nil => cases h
      | cons id m k r' =>
        rw [NF.strip] at h
        injection h with h1 h2 h3
        cases k with
        | cons => cases h2
        | nil => rw [NF.sum, h1, sum_tab r s r' h3]; simp [Marker.size, NF.sum, Fields.tab]
    · exact sum_tab r s n h
  | .link w v o c r, s, n, h => by
    rw [Fields.objs] at h
    rw [Fields.tab, descSize]
    split at h
    · rename_i hv
      rw [if_pos hv]
      cases n with
      | nil => cases h
      | cons id m k r' =>
        rw [NF.strip] at h
        injection h with h1 h2 h3
        obtain ⟨x, y, e, ex, ey⟩ := strip_append _ _ _ h2
        rw [NF.sum, h1, sum_tab r s r' h3, e, append_sum, sum_tab c false x ex, sum_tab c true y ey]
        show c.size + _ + _ = _
        rw [size_tab c]
        omega
    · rename_i hv
      rw [if_neg hv, Nat.zero_add]
      exact sum_tab r s n h

theorem count_roots : ∀ (n : NF), n.strip.count = n.roots.length
  | .nil => rfl
  | .cons id m k r => by rw [NF.strip, Objs.count, count_roots r]; rfl

theorem serialize_append (g : Graph) (cells : Cells) : ∀ (a b : List Nat),
    serialize g cells (a ++ b) = (do let x ← serialize g cells a; let y ← serialize g cells b; return x ++ y)
  | [], b => by
    show _ = (serialize g cells b >>= fun y => Res.ok ([] ++ y))
    cases h : serialize g cells b <;> simp [h] <;> rfl
  | n :: a, b => by
    rw [List.cons_append, serialize, serialize, serialize_append g cells a b]
    cases contents g cells n <;> cases serialize g cells a <;> cases serialize g cells b <;>
      simp [Res.ok_bind, Res.pure_eq] <;> rfl

theorem contents_link {g : Graph} {cells : Cells} {id : Nat} {w : Width} {o : Bool} {c : Fields} {x y : NF}
    (hn : g.nodes[id]? = some ⟨w, o, some c⟩) (ho : g.out id = (x.append y).roots.reverse) (hx : x.strip = c.objs false) :
    contents g cells id = written cells c x.roots y.roots := by
  unfold contents
  rw [hn]
  show written cells c ((g.out id).reverse.take _) ((g.out id).reverse.drop _) = _
  rw [ho, List.reverse_reverse, append_roots, ← hx, count_roots, List.take_left, List.drop_left]

theorem serialize_link {g : Graph} {cells : Cells} {id : Nat} {w : Width} {v o : Bool} {c : Fields} {x y r : NF} {off : Option Nat}
    {c' r' : Tab}
    (hn : g.nodes[id]? = some ⟨w, o, some c⟩) (ho : g.out id = (x.append y).roots.reverse) (hx : x.strip = c.objs false)
    (h1 : written cells c x.roots y.roots = shallow c') (h2 : serialize g cells x.pre = serDesc c' false)
    (h3 : serialize g cells y.pre = serDesc c' true) (h4 : serialize g cells r.pre = serDesc r' v) :
    serialize g cells (NF.pre (.cons id ⟨w, o, some c⟩ (x.append y) r)) = serDesc (.link w v o off c' r') v := by
  rw [NF.pre, serialize, contents_link hn ho hx, serialize_append, append_pre, serialize_append, h1, h2, h3, h4, serDesc, if_pos rfl]
  cases shallow c' <;> cases serDesc c' false <;> cases serDesc c' true <;> cases serDesc r' v <;>
    simp [Res.ok_bind, Res.pure_eq] <;> rfl

theorem serialize_none {g : Graph} {cells : Cells} {id : Nat} {m : Marker} {r : List Nat}
    (hn : g.nodes[id]? = some m) (hm : m.target = none) : serialize g cells (id :: r) = serialize g cells r := by
  rw [serialize, contents, hn]
  simp only [Res.unwrap_some, Res.ok_bind, hm, Res.pure_eq]
  cases serialize g cells r <;> rfl

/-- The node of a missing table. -/
theorem strip_none {m : Marker} {r : Objs} {n : NF} (h : n.strip = .cons m .nil r) :
    ∃ id n', n = .cons id m .nil n' ∧ n'.strip = r := by
  cases n with
  | nil => cases h
  | cons id m' k r' =>
    rw [NF.strip] at h
    injection h with h1 h2 h3
    cases k with
    | cons => cases h2
    | nil => exact ⟨id, r', by rw [h1], h3⟩

theorem strip_link {m : Marker} {a b r : Objs} {n : NF} (h : n.strip = .cons m (a.append b) r) :
    ∃ (id : Nat) (x y n' : NF), n = .cons id m (x.append y) n' ∧ x.strip = a ∧ y.strip = b ∧ n'.strip = r := by
  cases n with
  | nil => cases h
  | cons id m' k r' =>
    rw [NF.strip] at h
    injection h with h1 h2 h3
    obtain ⟨x, y, e, ex, ey⟩ := strip_append _ _ _ h2
    exact ⟨id, x, y, r', by rw [h1, e], ex, ey, h3⟩

/-- What is claimed of a table at a place. -/
def Agrees (f : Fields) (nD nV : NF) (base d v : Nat) : Prop :=
  (Fit nD base d ∧ Fit nV base v → ∃ t', resolve f.tab base d v = .ok t' ∧ ∀ g cells, Rep g nD → Rep g nV →
    Good cells nD base d → Good cells nV base v →
    written cells f nD.roots nV.roots = shallow t' ∧ serialize g cells nD.pre = serDesc t' false ∧
      serialize g cells nV.pre = serDesc t' true) ∧
  (¬ (Fit nD base d ∧ Fit nV base v) → resolve f.tab base d v = .panic)

theorem none_fit {id : Nat} {m : Marker} {n : NF} {base c : Nat} (hm : m.target = none) :
    Fit (.cons id m .nil n) base c ↔ Fit n base c := by
  simp [Fit, hm, NF.sum, Marker.size]

theorem none_good {cells : Cells} {id : Nat} {m : Marker} {n : NF} {base c : Nat} (hm : m.target = none) :
    Good cells (.cons id m .nil n) base c ↔ Good cells n base c := by
  simp [Good, hm, NF.sum, Marker.size]

theorem agrees_noneD {f r : Fields} {id : Nat} {m : Marker} {nD nV : NF} {base d v : Nat} (hm : m.target = none)
    (k : Tab → Tab) (hres : ∀ t', resolve r.tab base d v = .ok t' → resolve f.tab base d v = .ok (k t'))
    (hpan : resolve r.tab base d v = .panic → resolve f.tab base d v = .panic)
    (hser : ∀ t' s, serDesc (k t') s = serDesc t' s)
    (hw : ∀ cells t', written cells r nD.roots nV.roots = shallow t' →
      written cells f (id :: nD.roots) nV.roots = shallow (k t'))
    (ih : Agrees r nD nV base d v) : Agrees f (.cons id m .nil nD) nV base d v := by
  unfold Agrees at ih ⊢
  rw [none_fit hm]
  refine ⟨fun h => ?_, fun h => hpan (ih.2 h)⟩
  obtain ⟨t', e, h'⟩ := ih.1 h
  refine ⟨k t', hres _ e, fun g cells r1 r2 g1 g2 => ?_⟩
  obtain ⟨a, b, c⟩ := h' g cells r1.2.2.2.2 r2 ((none_good hm).1 g1) g2
  refine ⟨hw cells t' a, ?_, by rw [hser]; exact c⟩
  rw [hser, ← b]
  exact serialize_none r1.1 hm

theorem agrees_noneV {f r : Fields} {id : Nat} {m : Marker} {nD nV : NF} {base d v : Nat} (hm : m.target = none)
    (k : Tab → Tab) (hres : ∀ t', resolve r.tab base d v = .ok t' → resolve f.tab base d v = .ok (k t'))
    (hpan : resolve r.tab base d v = .panic → resolve f.tab base d v = .panic)
    (hser : ∀ t' s, serDesc (k t') s = serDesc t' s)
    (hw : ∀ cells t', written cells r nD.roots nV.roots = shallow t' →
      written cells f nD.roots (id :: nV.roots) = shallow (k t'))
    (ih : Agrees r nD nV base d v) : Agrees f nD (.cons id m .nil nV) base d v := by
  unfold Agrees at ih ⊢
  rw [none_fit hm]
  refine ⟨fun h => ?_, fun h => hpan (ih.2 h)⟩
  obtain ⟨t', e, h'⟩ := ih.1 h
  refine ⟨k t', hres _ e, fun g cells r1 r2 g1 g2 => ?_⟩
  obtain ⟨a, b, c⟩ := h' g cells r1 r2.2.2.2.2 g1 ((none_good hm).1 g2)
  refine ⟨hw cells t' a, by rw [hser]; exact b, ?_⟩
  rw [hser, ← c]
  exact serialize_none r2.1 hm

theorem setOff_cases (w : Width) (o : Bool) (n : Nat) : (∃ x, setOff w o n = .ok x) ∨ setOff w o n = .panic := by
  cases h : setOff w o n with
  | ok x => exact .inl ⟨x, rfl⟩
  | err => exact absurd h (setOff_not_err _ _ _)
  | panic => exact .inr rfl

theorem agrees : ∀ (f : Fields) (nD nV : NF) (base d v : Nat), nD.strip = f.objs false → nV.strip = f.objs true →
    Agrees f nD nV base d v
  | .nil, nD, nV, base, d, v, hD, hV => by
    cases nD with
    | cons => cases hD
    | nil =>
    cases nV with
    | cons => cases hV
    | nil => exact ⟨fun _ => ⟨.nil, rfl, fun _ _ _ _ _ _ => ⟨rfl, rfl, rfl⟩⟩, fun h => absurd ⟨trivial, trivial⟩ h⟩
  | .raw bs r, nD, nV, base, d, v, hD, hV => by
    have ih := agrees r nD nV base d v hD hV
    refine ⟨fun h => ?_, fun h => ?_⟩
    · obtain ⟨t', e, h'⟩ := ih.1 h
      refine ⟨.raw bs t', by rw [Fields.tab, resolve, e], fun g cells r1 r2 g1 g2 => ?_⟩
      obtain ⟨a, b, c⟩ := h' g cells r1 r2 g1 g2
      refine ⟨?_, b, c⟩
      rw [written, a, shallow]
      cases shallow t' <;> rfl
    · rw [Fields.tab, resolve, ih.2 h]
  | .null w b r, nD, nV, base, d, v, hD, hV => by
    have e1 : ∀ t', resolve r.tab base d v = .ok t' → resolve (Fields.null w b r).tab base d v = .ok (.null w t') :=
      fun t' e => by rw [Fields.tab, resolve, e]
    have e2 : resolve r.tab base d v = .panic → resolve (Fields.null w b r).tab base d v = .panic :=
      fun e => by rw [Fields.tab, resolve, e]
    cases b with
    | false =>
      obtain ⟨id, n', rfl, hs⟩ := strip_none (m := ⟨w, false, none⟩) (r := r.objs false) hD
      refine agrees_noneD rfl (.null w) e1 e2 (fun _ _ => rfl) (fun cells t' h => ?_) (agrees r n' nV base d v hs hV)
      rw [written, shallow, ← h]
      show (written cells r n'.roots nV.roots >>= _) = _
      cases written cells r n'.roots nV.roots <;> rfl
    | true =>
      obtain ⟨id, n', rfl, hs⟩ := strip_none (m := ⟨w, false, none⟩) (r := r.objs true) hV
      refine agrees_noneV rfl (.null w) e1 e2 (fun _ _ => rfl) (fun cells t' h => ?_) (agrees r nD n' base d v hD hs)
      rw [written, shallow, ← h]
      show (written cells r nD.roots n'.roots >>= _) = _
      cases written cells r nD.roots n'.roots <;> rfl
  | .absent b r, nD, nV, base, d, v, hD, hV => by
    cases b with
    | false =>
      obtain ⟨id, n', rfl, hs⟩ := strip_none (m := ⟨.w16, true, none⟩) (r := r.objs false) hD
      exact agrees_noneD (f := .absent false r) (r := r) rfl (fun t => t) (fun _ e => e) (fun e => e) (fun _ _ => rfl) (fun cells t' h => by rw [written]; exact h)
        (agrees r n' nV base d v hs hV)
    | true =>
      obtain ⟨id, n', rfl, hs⟩ := strip_none (m := ⟨.w16, true, none⟩) (r := r.objs true) hV
      exact agrees_noneV (f := .absent true r) (r := r) rfl (fun t => t) (fun _ e => e) (fun e => e) (fun _ _ => rfl) (fun cells t' h => by rw [written]; exact h)
        (agrees r nD n' base d v hD hs)
  | .link w b o c r, nD, nV, base, d, v, hD, hV => by
    cases b with
    | false =>
      obtain ⟨id, x, y, n', rfl, hx, hy, hs⟩ := strip_link (m := ⟨w, o, some c⟩) (r := r.objs false) hD
      have hsz : (⟨w, o, some c⟩ : Marker).size = Off.size c.tab := size_tab c
      have hsum : (x.append y).sum = descSize c.tab false + descSize c.tab true := by
        rw [append_sum, sum_tab c false x hx, sum_tab c true y hy]
      have ihc := agrees c x y d (d + Off.size c.tab) (d + Off.size c.tab + descSize c.tab false) hx hy
      have ihr := agrees r n' nV base (d + total c.tab) v hs hV
      have hpos : d + Off.size c.tab + (descSize c.tab false + descSize c.tab true) = d + total c.tab := by unfold total; omega
      unfold Agrees
      simp only [Fit, Good, append_fit, append_good, hsz, hsum, hpos, sum_tab c false x hx, Option.isSome_some, forall_const]
      rw [Fields.tab, resolve]
      simp only [Bool.false_eq_true, if_false]
      constructor
      · rintro ⟨⟨f1, f2, f3⟩, f4⟩
        obtain ⟨c', ec, hc⟩ := ihc.1 f2
        obtain ⟨r', er, hr⟩ := ihr.1 ⟨f3, f4⟩
        rcases setOff_cases w o (d - base) with ⟨off, hoff⟩ | hoff
        · rw [hoff, ec, er]
          refine ⟨_, rfl, fun g cells r1 r2 g1 g2 => ?_⟩
          obtain ⟨hn, hout, _, hk, hrn⟩ := r1
          obtain ⟨q1, ⟨q2, q3⟩, q4⟩ := g1
          obtain ⟨rx, ry⟩ := (append_rep g x y).1 hk
          obtain ⟨a1, a2, a3⟩ := hc g cells rx ry q2 q3
          obtain ⟨b1, b2, b3⟩ := hr g cells hrn r2 q4 g2
          have hcell : cells id = off := by injection q1; exact Eq.symm (by assumption)
          refine ⟨?_, serialize_link hn hout hx a1 a2 a3 b2, ?_⟩
          · rw [written]
            show (match cells id with
              | none => Res.err
              | some o => (written cells r n'.roots nV.roots >>= fun x => Res.ok (w.enc o ++ x))) = _
            rw [hcell, b1]
            cases off with
            | none => rfl
            | some o' =>
              rw [shallow]
              cases shallow r' <;> rfl
          · rw [serDesc, if_neg (by simp), b3]
            cases serDesc r' true <;> simp [Res.ok_bind, Res.pure_eq] <;> rfl
        · exact absurd hoff f1
      · intro hnf
        rcases setOff_cases w o (d - base) with ⟨off, hoff⟩ | hoff
        · rw [hoff]
          by_cases f2 : Fit x d (d + Off.size c.tab) ∧ Fit y d (d + Off.size c.tab + descSize c.tab false)
          · obtain ⟨c', ec, _⟩ := ihc.1 f2
            rw [ec]
            have := ihr.2 (fun h => hnf ⟨⟨by rw [hoff]; simp, f2, h.1⟩, h.2⟩)
            rw [this]
          · rw [ihc.2 f2]
        · rw [hoff]
    | true =>
      obtain ⟨id, x, y, n', rfl, hx, hy, hs⟩ := strip_link (m := ⟨w, o, some c⟩) (r := r.objs true) hV
      have hsz : (⟨w, o, some c⟩ : Marker).size = Off.size c.tab := size_tab c
      have hsum : (x.append y).sum = descSize c.tab false + descSize c.tab true := by
        rw [append_sum, sum_tab c false x hx, sum_tab c true y hy]
      have ihc := agrees c x y v (v + Off.size c.tab) (v + Off.size c.tab + descSize c.tab false) hx hy
      have ihr := agrees r nD n' base d (v + total c.tab) hD hs
      have hpos : v + Off.size c.tab + (descSize c.tab false + descSize c.tab true) = v + total c.tab := by unfold total; omega
      unfold Agrees
      simp only [Fit, Good, append_fit, append_good, hsz, hsum, hpos, sum_tab c false x hx, Option.isSome_some, forall_const]
      rw [Fields.tab, resolve]
      simp only [if_true]
      constructor
      · rintro ⟨f4, f1, f2, f3⟩
        obtain ⟨c', ec, hc⟩ := ihc.1 f2
        obtain ⟨r', er, hr⟩ := ihr.1 ⟨f4, f3⟩
        rcases setOff_cases w o (v - base) with ⟨off, hoff⟩ | hoff
        · rw [hoff, ec, er]
          refine ⟨_, rfl, fun g cells r1 r2 g1 g2 => ?_⟩
          obtain ⟨hn, hout, _, hk, hrn⟩ := r2
          obtain ⟨q1, ⟨q2, q3⟩, q4⟩ := g2
          obtain ⟨rx, ry⟩ := (append_rep g x y).1 hk
          obtain ⟨a1, a2, a3⟩ := hc g cells rx ry q2 q3
          obtain ⟨b1, b2, b3⟩ := hr g cells r1 hrn g1 q4
          have hcell : cells id = off := by injection q1; exact Eq.symm (by assumption)
          refine ⟨?_, ?_, serialize_link hn hout hx a1 a2 a3 b3⟩
          · rw [written]
            show (match cells id with
              | none => Res.err
              | some o => (written cells r nD.roots n'.roots >>= fun x => Res.ok (w.enc o ++ x))) = _
            rw [hcell, b1]
            cases off with
            | none => rfl
            | some o' =>
              rw [shallow]
              cases shallow r' <;> rfl
          · rw [serDesc, if_neg (by simp), b2]
            cases serDesc r' false <;> simp [Res.ok_bind, Res.pure_eq] <;> rfl
        · exact absurd hoff f1
      · intro hnf
        rcases setOff_cases w o (v - base) with ⟨off, hoff⟩ | hoff
        · rw [hoff]
          by_cases f2 : Fit x v (v + Off.size c.tab) ∧ Fit y v (v + Off.size c.tab + descSize c.tab false)
          · obtain ⟨c', ec, _⟩ := ihc.1 f2
            rw [ec]
            have := ihr.2 (fun h => hnf ⟨h.1, by rw [hoff]; simp, f2, h.2⟩)
            rw [this]
          · rw [ihc.2 f2]
        · rw [hoff]

/-! ### The whole graph -/

theorem pre_length : ∀ (o : Objs) (n : Nat), (number o n).pre.length = size_objs o
  | .nil, _ => rfl
  | .cons m k r, n => by
    rw [number, NF.pre, List.length_cons, List.length_append, pre_length k, pre_length r, size_objs]
    omega

theorem all_numbered : ∀ (o : Objs) (n x : Nat), n ≤ x → x < n + size_objs o → x ∈ (number o n).pre
  | .nil, n, x, h1, h2 => by rw [size_objs] at h2; omega
  | .cons m k r, n, x, h1, h2 => by
    rw [size_objs] at h2
    rw [number, NF.pre, List.mem_cons, List.mem_append]
    by_cases a : x < n + size_objs k
    · exact .inr (.inl (all_numbered k n x h1 a))
    · by_cases b : x = n + size_objs k
      · exact .inl b
      · exact .inr (.inr (all_numbered r _ x (by omega) (by omega)))

theorem rep_inc (g : Graph) : ∀ (f : NF), Rep g f → ∀ x ∈ f.under, ∃ p, g.inc x = [p]
  | .nil, _, x, h => by simp [NF.under] at h
  | .cons id m k r, ⟨_, _, hi, hk, hr⟩, x, h => by
    rw [NF.under, List.mem_append, roots_below_pre] at h
    rcases h with (h | h) | h
    · exact ⟨id, hi x h⟩
    · exact rep_inc g k hk x h
    · exact rep_inc g r hr x h

theorem topo_all {g : Graph} {m : Marker} {k : Objs} (hr : Rep g (number (.cons m k .nil) 0))
    (hl : g.nodes.length = size_objs k + 1) (h0 : g.inc (size_objs k) = [])
    (hi : ∀ x < size_objs k, g.inc x ≠ []) : topo g = (number (.cons m k .nil) 0).pre := by
  have hids := number_ids (.cons m k .nil) 0
  unfold topo
  have hf : (List.range g.nodes.length).filter (fun n => (g.inc n).isEmpty) = [size_objs k] := by
    rw [hl, List.range_succ, List.filter_append, filter_none, List.nil_append, List.filter_cons_of_pos, List.filter_nil]
    · rw [h0]; rfl
    · intro a ha
      have := hi a (List.mem_range.1 ha)
      cases h : g.inc a with
      | nil => exact absurd h this
      | cons => rfl
  rw [hf]
  obtain ⟨seen', _, e⟩ := topo_forest g (number (.cons m k .nil) 0) (g.edges.length + 1) [] [] hr hids.2 (by simp)
  have hroots : (number (.cons m k .nil) 0).roots = [size_objs k] := by simp [number, NF.roots]
  have hlen : (number (.cons m k .nil) 0).pre.length = g.nodes.length := by
    rw [pre_length, hl]; simp [size_objs]
  rw [hroots, hlen] at e
  rw [show g.nodes.length + g.edges.length + 1 = g.edges.length + 1 + g.nodes.length from by omega]
  refine e.trans ?_
  rw [topoFrom, List.append_nil]

/-- The table has no offsets, not even missing ones. -/
def Plain : Fields → Prop
  | .nil => True
  | .raw _ r => Plain r
  | .null .. => False
  | .absent .. => False
  | .link .. => False

theorem plain_objs : ∀ (f : Fields), Plain f → ∀ s, f.objs s = .nil
  | .nil, _, _ => rfl
  | .raw _ r, h, s => plain_objs r h s

/-- The graph of a table before anything is placed. -/
theorem graph_of (t : Fields) : ∃ (o : Objs) (m : Marker) (g : Graph),
    o = (t.objs false).append (t.objs true) ∧ m = ⟨.w16, false, some t⟩ ∧
    g = (addObjs (.cons m o .nil) ⟨[], []⟩).1 ∧ g.edges = (number (.cons m o .nil) 0).edges ∧
    Rep g (number (.cons m o .nil) 0) ∧ g.inc (size_objs o) = [] ∧ topo g = size_objs o :: (number o 0).pre := by
  let o : Objs := (t.objs false).append (t.objs true)
  let m : Marker := ⟨.w16, false, some t⟩
  let all : Objs := .cons m o .nil
  let f := number all 0
  let g := (addObjs all ⟨[], []⟩).1
  have hg : g = ⟨f.post, f.edges⟩ := by
    show (addObjs all ⟨[], []⟩).1 = _
    rw [addObjs_eq]
    simp [f]
  let k := number o 0
  have hf : f = .cons (size_objs o) m k .nil := by simp [f, all, number, k]
  have hids := number_ids all 0
  have hrep : Rep g f := by
    have hl := number_labels all [] []
    simp only [List.nil_append, List.append_nil, List.length_nil] at hl
    have := rep_of f.post f [] [] hids.2 (by simp) hl
    rw [hg]
    simpa using this
  have hlen : g.nodes.length = size_objs o + 1 := by
    rw [hg]
    show f.post.length = _
    rw [post_length]
    simp [all, size_objs]
  have hunder : f.under = k.pre := by rw [hf]; simp [NF.under]
  have h0 : g.inc (size_objs o) = [] := by
    unfold Graph.inc
    rw [hg, filter_none, List.map_nil]
    intro e he
    have h1 := (edges_ends f e he).2
    have h2 := roots_not_below f hids.2 (size_objs o) (by rw [hf]; simp [NF.roots])
    simp only [decide_eq_false_iff_not]
    intro h
    exact h2 (h ▸ h1)
  have hi : ∀ x < size_objs o, g.inc x ≠ [] := by
    intro x hx
    obtain ⟨p, hp⟩ := rep_inc g f hrep x (by rw [hunder]; exact all_numbered o 0 x (by omega) (by omega))
    rw [hp]
    simp
  have htopo : topo g = f.pre := topo_all hrep hlen h0 hi
  have hpre : f.pre = size_objs o :: k.pre := by rw [hf]; simp [NF.pre]
  exact ⟨o, m, g, rfl, rfl, rfl, by rw [hg], hrep, h0, htopo.trans hpre⟩

/-- Only missing tables. -/
def AllNone : NF → Prop
  | .nil => True
  | .cons _ m k r => m.target = none ∧ k = .nil ∧ AllNone r

theorem allNone_append : ∀ (x y : NF), AllNone x → AllNone y → AllNone (x.append y)
  | .nil, _, _, h => h
  | .cons _ _ _ r, y, ⟨a, b, c⟩, h => ⟨a, b, allNone_append r y c h⟩

theorem allNone_of_empty : ∀ (f : Fields), Off.size f.tab = 0 → ∀ (s : Bool) (n : NF), n.strip = f.objs s → AllNone n
  | .nil, _, s, .nil, _ => trivial
  | .nil, _, s, .cons .., h => by cases h
  | .raw bs r, h0, s, n, h => by
    rw [Fields.tab, Off.size] at h0
    exact allNone_of_empty r (by omega) s n h
  | .null w v r, h0, s, n, h => by
    rw [Fields.tab, Off.size] at h0
    cases w <;> simp [Width.size] at h0 <;> omega
  | .link w v o c r, h0, s, n, h => by
    rw [Fields.tab, Off.size] at h0
    cases w <;> simp [Width.size] at h0 <;> omega
  | .absent v r, h0, s, n, h => by
    rw [Fields.objs] at h
    split at h
    · obtain ⟨id, n', rfl, h'⟩ := strip_none h
      exact ⟨rfl, rfl, allNone_of_empty r h0 s n' h'⟩
    · exact allNone_of_empty r h0 s n h

theorem first_none (g : Graph) : ∀ (f : NF), AllNone f → Rep g f → firstPass g 0 f.pre = .ok g
  | .nil, _, _ => rfl
  | .cons id m k r, ⟨h1, h2, h3⟩, ⟨hn, _, _, _, hr⟩ => by
    rw [NF.pre, h2, firstPass, hn]
    simp only [Res.unwrap_some, Res.ok_bind]
    rw [if_neg (by omega), Res.ok_bind, show m.size = 0 from by simp [Marker.size, h1]]
    exact first_none g r h3 hr

theorem edges_fresh : ∀ (f : NF), ∀ e ∈ f.edges, e.2.2 = none
  | .nil, e, h => by simp [NF.edges] at h
  | .cons id m k r, e, h => by
    simp only [NF.edges, List.mem_append, List.mem_map] at h
    rcases h with h | ⟨c, _, rfl⟩ | h
    · exact edges_fresh r e h
    · rfl
    · exact edges_fresh k e h

theorem not_plain_objs : ∀ (f : Fields), ¬ Plain f → f.objs false ≠ .nil ∨ f.objs true ≠ .nil
  | .nil, h => absurd trivial h
  | .raw _ r, h => not_plain_objs r h
  | .null w v r, _ => by cases v <;> simp [Fields.objs]
  | .absent v r, _ => by cases v <;> simp [Fields.objs]
  | .link w v o c r, _ => by cases v <;> simp [Fields.objs]

end FT.Props.OffG

namespace FT.Props
open FT FT.Off FT.OffGraph OffG

/-- **C111.** The offset manager builds a graph of the table's offsets, orders its nodes, gives each a place, stores in every
offset the distance from its owner and writes all tables. What comes out is what Model/Offsets says, whatever the
offsets held before. -/
theorem C111_graph (before : Cells) (t : Fields) (hpos : 0 < Off.size t.tab ∨ Plain t) (hsize : total t.tab < 2 ^ 32) :
    OffGraph.toBytes before t = Off.toBytes t.tab := by
  let o : Objs := (t.objs false).append (t.objs true)
  let m : Marker := ⟨.w16, false, some t⟩
  let all : Objs := .cons m o .nil
  let f := number all 0
  let g := (addObjs all ⟨[], []⟩).1
  have hg : g = ⟨f.post, f.edges⟩ := by
    show (addObjs all ⟨[], []⟩).1 = _
    rw [addObjs_eq]
    simp [f]
  let k := number o 0
  have hf : f = .cons (size_objs o) m k .nil := by simp [f, all, number, k]
  have hids := number_ids all 0
  have hrep : Rep g f := by
    have hl := number_labels all [] []
    simp only [List.nil_append, List.append_nil, List.length_nil] at hl
    have := rep_of f.post f [] [] hids.2 (by simp) hl
    rw [hg]
    simpa using this
  have hlen : g.nodes.length = size_objs o + 1 := by
    rw [hg]
    show f.post.length = _
    rw [post_length]
    simp [all, size_objs]
  have hunder : f.under = k.pre := by rw [hf]; simp [NF.under]
  have h0 : g.inc (size_objs o) = [] := by
    unfold Graph.inc
    rw [hg, filter_none, List.map_nil]
    intro e he
    have h1 := (edges_ends f e he).2
    have h2 := roots_not_below f hids.2 (size_objs o) (by rw [hf]; simp [NF.roots])
    simp only [decide_eq_false_iff_not]
    intro h
    exact h2 (h ▸ h1)
  have hi : ∀ x < size_objs o, g.inc x ≠ [] := by
    intro x hx
    obtain ⟨p, hp⟩ := rep_inc g f hrep x (by rw [hunder]; exact all_numbered o 0 x (by omega) (by omega))
    rw [hp]
    simp
  have htopo : topo g = f.pre := topo_all hrep hlen h0 hi
  have hpre : f.pre = size_objs o :: k.pre := by rw [hf]; simp [NF.pre]
  have hrep' := hrep
  rw [hf] at hrep'
  obtain ⟨hnode, hout, hinc, hk, _⟩ := hrep'
  have hkn := (number_ids o 0).2
  have hmsize : m.size = Off.size t.tab := size_tab t
  -- the first pass
  obtain ⟨g', hsame, hfirst, hplaced⟩ : ∃ g', SameShape g g' ∧ firstPass g m.size (k.pre ++ []) = firstPass g' (m.size + k.sum) [] ∧
      Placed g' (size_objs o) k m.size := by
    rcases hpos with hpos | hplain
    · obtain ⟨g', a, b, c, _⟩ := first_forest k g (size_objs o) m.size [] hk hkn (by omega) hinc
      exact ⟨g', a, b, c⟩
    · have : k = .nil := by
        show number ((t.objs false).append (t.objs true)) 0 = _
        rw [plain_objs t hplain, plain_objs t hplain]
        rfl
      rw [this]
      exact ⟨g, .refl g, rfl, trivial⟩
  have hpass1 : firstPass g 0 (topo g) = .ok g' := by
    rw [htopo, hpre, firstPass, hnode]
    simp only [Res.unwrap_some, Res.ok_bind]
    rw [if_neg (by omega), Res.ok_bind, Nat.zero_add, ← List.append_nil k.pre, hfirst]
    rfl
  have hrep2 := hsame.rep f hrep
  have htopo2 : topo g' = f.pre := topo_all hrep2 (by rw [hsame.1]; exact hlen) (by rw [hsame.inc]; exact h0)
    (fun x hx => by rw [hsame.inc]; exact hi x hx)
  rw [hf] at hrep2
  obtain ⟨hnode2, hout2, hinc2, hk2, _⟩ := hrep2
  -- the parts of the graph
  obtain ⟨x, y, exy, hx, hy⟩ := strip_append (t.objs false) (t.objs true) k (strip_number o 0)
  have sx := sum_tab t false x hx
  have sy := sum_tab t true y hy
  have hsum : k.sum = descSize t.tab false + descSize t.tab true := by rw [exy, append_sum, sx, sy]
  have htot : m.size + k.sum < 2 ^ 32 := by
    unfold total at hsize
    omega
  have hagree := agrees t x y 0 m.size (m.size + x.sum) hx hy
  have hfit : Fit k 0 m.size ↔ Fit x 0 m.size ∧ Fit y 0 (m.size + x.sum) := by rw [exy, append_fit]
  -- the second pass
  obtain ⟨ho1, ho2⟩ := out_edges hout2 hinc2
  have hset := fun c0 : Cells =>
    setKids_forest g' (size_objs o) 0 k m.size _ c0 hk2 (roots_nodup k hkn) hplaced (by omega) htot ho1 ho2
  have hsec : ∀ c0 : Cells, secondPass g' 0 (topo g') c0 =
      (setKids g' 0 (g'.edges.filter (fun e => e.1 = size_objs o)) c0 >>= fun cells =>
        secondPass g' 0 (k.pre ++ []) cells) := by
    intro c0
    have hnone : g'.edges.filter (fun e => e.2.1 = size_objs o) = [] := by
      have := hsame.inc (size_objs o)
      rw [h0] at this
      exact List.map_eq_nil_iff.1 this
    rw [htopo2, hpre, secondPass, hnone, List.append_nil]
    rfl
  have hres : ∀ c0 : Cells, OffGraph.resolveAll g c0 = secondPass g' 0 (topo g') c0 >>= fun c => pure (g', c) := by
    intro c0
    unfold OffGraph.resolveAll
    rw [hpass1]
    rfl
  have hoff : Off.toBytes t.tab = (do
      let t' ← resolve t.tab 0 m.size (m.size + x.sum)
      let top ← shallow t'
      let direct ← serDesc t' false
      let others ← serDesc t' true
      return top ++ direct ++ others) := by
    rw [Off.toBytes, hmsize, sx]
  have hfi := fit_iff k 0 m.size
  -- resolving succeeds exactly if everything fits
  have hpass : Fit k 0 m.size → ∀ c0 : Cells, ∃ c, OffGraph.resolveAll g c0 = .ok (g', c) ∧ Good c k 0 m.size := by
    intro hF c0
    obtain ⟨c1, e1, g1, o1⟩ := (hset c0).1 (hfi.1 hF).1
    obtain ⟨c2, b2, e2, g2, o2⟩ := (second_forest g' k (size_objs o) 0 m.size c1 [] hk2 hkn hplaced hinc2 htot).1 (hfi.1 hF).2
    refine ⟨c2, ?_, ?_⟩
    · rw [hres, hsec, e1, Res.ok_bind, e2]
      rfl
    · rw [good_iff]
      exact ⟨rootsGood_congr k _ _ (fun z hz => o2 z (roots_not_below k hkn z hz)) g1, g2⟩
  have hfail : ¬ Fit k 0 m.size → ∀ c0 : Cells, OffGraph.resolveAll g c0 = .panic := by
    intro hF c0
    rw [hres, hsec]
    by_cases hR : RootsFit k 0 m.size
    · obtain ⟨c1, e1, _, _⟩ := (hset c0).1 hR
      rw [e1, Res.ok_bind, (second_forest g' k (size_objs o) 0 m.size c1 [] hk2 hkn hplaced hinc2 htot).2
        (fun h => hF (hfi.2 ⟨hR, h⟩))]
      rfl
    · rw [(hset c0).2 hR]
      rfl
  have hk3 := hk2
  rw [exy, append_rep] at hk3
  have hout3 := hout2
  rw [exy] at hout3
  rw [hoff]
  cases ho : o with
  | nil =>
    have hkn : k = .nil := by show number o 0 = _; rw [ho]; rfl
    have hto : OffGraph.toBytes before t = written before t [] [] := by
      unfold OffGraph.toBytes
      rw [show (t.objs false).append (t.objs true) = .nil from ho]
    have hF : Fit k 0 m.size := by rw [hkn]; trivial
    obtain ⟨t', er, hall⟩ := hagree.1 (hfit.1 hF)
    obtain ⟨hx0, hy0⟩ : x = .nil ∧ y = .nil := by
      rw [hkn] at exy
      cases x with
      | nil => exact ⟨rfl, exy.symm⟩
      | cons => cases exy
    obtain ⟨w1, w2, w3⟩ := hall g' before hk3.1 hk3.2 (by rw [hx0]; trivial) (by rw [hy0]; trivial)
    simp only [hx0, hy0] at w1 w2 w3
    simp only [NF.roots, NF.pre, serialize] at w1 w2 w3
    rw [hto, er, w1, Res.ok_bind, ← w2, ← w3]
    cases shallow t' <;> simp [Res.ok_bind, Res.pure_eq]
    all_goals rfl
  | cons m1 k1 r1 =>
    have hman : manager t (.cons m1 k1 r1) = g := by rw [← ho]; rfl
    have hto : OffGraph.toBytes before t = (OffGraph.resolveAll g before >>= fun p => do
        let top ← Res.unwrap (topo p.1).head?
        let a ← contents p.1 p.2 top
        let q ← OffGraph.resolveAll g p.2
        let b ← serialize q.1 q.2 (topo q.1).tail
        return a ++ b) := by
      unfold OffGraph.toBytes
      rw [show (t.objs false).append (t.objs true) = .cons m1 k1 r1 from ho]
      simp only [hman]
    rw [hto]
    by_cases hF : Fit k 0 m.size
    · obtain ⟨t', er, hall⟩ := hagree.1 (hfit.1 hF)
      obtain ⟨c1, e1, g1⟩ := hpass hF before
      obtain ⟨c2, e2, g2⟩ := hpass hF c1
      rw [exy, append_good] at g1 g2
      obtain ⟨w1, _, _⟩ := hall g' c1 hk3.1 hk3.2 g1.1 g1.2
      obtain ⟨_, w2, w3⟩ := hall g' c2 hk3.1 hk3.2 g2.1 g2.2
      rw [e1, er]
      simp only [Res.ok_bind, htopo2, hpre, List.head?_cons, Res.unwrap_some, List.tail_cons]
      rw [contents_link hnode2 hout3 hx, w1, e2]
      simp only [Res.ok_bind, htopo2, hpre, List.tail_cons]
      have : serialize g' c2 k.pre = (do let a ← serDesc t' false; let b ← serDesc t' true; return a ++ b) := by
        rw [exy, append_pre, serialize_append, w2, w3]
      rw [this]
      cases shallow t' <;> cases serDesc t' false <;> cases serDesc t' true <;> simp [Res.ok_bind, Res.pure_eq] <;> rfl
    · rw [hagree.2 (fun h => hF (hfit.2 h)), hfail hF]
      rfl

/-- A table that takes no bytes but has offsets, all of them missing, cannot be written: no place is given to them. -/
theorem C111_empty_panics (before : Cells) (t : Fields) (h0 : Off.size t.tab = 0) (hp : ¬ Plain t) :
    OffGraph.toBytes before t = .panic := by
  obtain ⟨o, m, g, ho, hm, hg, hedges, hrep, hinc, htopo⟩ := graph_of t
  have hnum : number (.cons m o .nil) 0 = .cons (size_objs o) m (number o 0) .nil := by simp [number]
  rw [hnum] at hrep hedges
  obtain ⟨hnode, hout, hi, hk, _⟩ := hrep
  have hall : AllNone (number o 0) := by
    obtain ⟨x, y, e, hx, hy⟩ := strip_append (t.objs false) (t.objs true) (number o 0) ((strip_number o 0).trans ho)
    rw [e]
    exact allNone_append x y (allNone_of_empty t h0 _ x hx) (allNone_of_empty t h0 _ y hy)
  have hfirst : firstPass g 0 (topo g) = .ok g := by
    rw [htopo, firstPass, hnode]
    simp only [Res.unwrap_some, Res.ok_bind]
    rw [if_neg (by omega), Res.ok_bind, show m.size = 0 from by rw [hm]; exact (size_tab t).trans h0]
    exact first_none g _ hall hk
  have hne : (number o 0).roots ≠ [] := by
    intro h
    have h1 : o = .nil := by
      cases hn : number o 0 with
      | nil => have := strip_number o 0; rw [hn] at this; exact this.symm
      | cons => rw [hn] at h; simp [NF.roots] at h
    rw [ho] at h1
    rcases not_plain_objs t hp with h2 | h2
    · cases h3 : t.objs false with
      | nil => exact h2 h3
      | cons => rw [h3] at h1; cases h1
    · cases h3 : t.objs false with
      | nil => rw [h3] at h1; exact h2 h1
      | cons => rw [h3] at h1; cases h1
  have hes : ∃ e es, g.edges.filter (fun e => e.1 = size_objs o) = e :: es := by
    cases h : g.edges.filter (fun e => e.1 = size_objs o) with
    | nil =>
      unfold Graph.out at hout
      rw [h] at hout
      exact absurd (List.reverse_eq_nil_iff.1 hout.symm) hne
    | cons e es => exact ⟨e, es, rfl⟩
  obtain ⟨e, es, hes⟩ := hes
  have hfresh : e.2.2 = none := by
    have : e ∈ g.edges := (List.mem_filter.1 (by rw [hes]; exact List.mem_cons_self : e ∈ g.edges.filter _)).1
    rw [hedges] at this
    exact edges_fresh _ e this
  have hnone : g.edges.filter (fun e => e.2.1 = size_objs o) = [] := List.map_eq_nil_iff.1 hinc
  have hres : OffGraph.resolveAll g before = .panic := by
    unfold OffGraph.resolveAll
    rw [hfirst, Res.ok_bind, htopo, secondPass, hnone, hes]
    simp only [Res.ok_bind, setKids, hfresh]
    rfl
  unfold OffGraph.toBytes
  cases hobj : (t.objs false).append (t.objs true) with
  | nil =>
    rw [← ho] at hobj
    rw [hobj] at hne
    exact absurd rfl hne
  | cons m1 k1 r1 =>
    have hman : manager t (.cons m1 k1 r1) = g := by rw [hg, hm, ← hobj, ho]; rfl
    simp only [hman, hres]
    rfl

/-- A table with a vector of two offsets, a direct offset after it, a null and a missing one; the first of the vector links to
a table with an offset of its own. -/
def sampleFields : Fields :=
  .raw [0, 2] (.link .w16 true false (.raw [9] (.link .w16 false false (.raw [7, 7, 7] .nil) .nil))
    (.link .w16 true false (.raw [8, 8] .nil)
      (.link .w32 false false (.raw [5] .nil) (.null .w16 false (.absent false .nil)))))

example : (0 < Off.size sampleFields.tab ∨ Plain sampleFields) ∧ total sampleFields.tab < 2 ^ 32 := by
  refine ⟨.inl ?_, ?_⟩ <;> decide

/-- The direct offset's table comes first, though its field is last; each table is followed by its own. -/
example : OffGraph.toBytes (fun n => some n) sampleFields =
    .ok [0, 2, 0, 13, 0, 19, 0, 0, 0, 12, 0, 0, 5, 9, 0, 3, 7, 7, 7, 8, 8] := by decide +kernel

example : OffGraph.toBytes (fun n => some n) sampleFields = Off.toBytes sampleFields.tab :=
  C111_graph _ _ (.inl (by decide)) (by decide)

example : Off.size (Fields.absent false .nil).tab = 0 ∧ ¬ Plain (.absent false .nil) := ⟨rfl, fun h => h⟩

end FT.Props
