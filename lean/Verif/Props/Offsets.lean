import Verif.Lemmas.Offsets
import Verif.Lemmas.ReadsAt

/-!
# C05, C06: offset-linked tables
-/

namespace FT.Props
open FT FT.Off

/-- Specification: the buffer `B` contains, from position `pos` on, the fields of the table `t` that starts at
`base`. Plain bytes are there literally; a null offset is zero; a linked table is found at `base` plus the
(non-zero) number in the offset field, lies inside the buffer, and is itself held there.
`ext` lists start and size of the tables below `t`. -/
def Holds (B : Bytes) : Tab → (base pos : Nat) → List (Nat × Nat) → Prop
  | .nil, _, _, ext => ext = []
  | .raw bs r, base, pos, ext => bs <+: B.drop pos ∧ Holds B r base (pos + bs.length) ext
  | .null w r, base, pos, ext => w.enc 0 <+: B.drop pos ∧ Holds B r base (pos + w.size) ext
  | .link w _ _ _ c r, base, pos, ext => ∃ off e1 e2, 0 < off ∧ off ≤ w.max ∧ w.enc off <+: B.drop pos ∧
      base + off + size c ≤ B.length ∧ Holds B c (base + off) (base + off) e1 ∧
      Holds B r base (pos + w.size) e2 ∧ ext = (base + off, size c) :: (e1 ++ e2)

/-- Specification: two extents (start, length) do not overlap. -/
def Apart (x y : Nat × Nat) : Prop := x.1 + x.2 ≤ y.1 ∨ y.1 + y.2 ≤ x.1

theorem holds_of_ser (B : Bytes) : ∀ (t t' : Tab) (base pos d v : Nat) (hd D V : Bytes),
    resolve t base d v = .ok t' → shallow t' = .ok hd → serDesc t' false = .ok D → serDesc t' true = .ok V →
    base + size t ≤ d → d + descSize t false ≤ v →
    v + descSize t true ≤ B.length →
    hd <+: B.drop pos → D <+: B.drop d → V <+: B.drop v →
    ∃ ext, Holds B t base pos ext ∧ ext.Pairwise Apart ∧
      (ext.map Prod.snd).sum = descSize t false + descSize t true ∧
      ∀ x ∈ ext, (d ≤ x.1 ∧ x.1 + x.2 ≤ d + descSize t false) ∨ (v ≤ x.1 ∧ x.1 + x.2 ≤ v + descSize t true)
  | .nil, t', base, pos, d, v, hd, D, V, _, _, _, _, _, _, _, _, _, _ =>
    ⟨[], rfl, List.Pairwise.nil, rfl, by simp⟩
  | .raw bs r, t', base, pos, d, v, hd, D, V, hres, hsh, hD, hV, hb, hdv, hlen, p1, p2, p3 => by
    simp only [resolve] at hres
    cases e : resolve r base d v with
    | err => simp [e] at hres
    | panic => simp [e] at hres
    | ok r' =>
      simp only [e] at hres; injection hres with hres; subst hres
      simp only [shallow] at hsh
      cases e1 : shallow r' with
      | err => simp [e1] at hsh
      | panic => simp [e1] at hsh
      | ok hd' =>
        simp only [e1] at hsh; injection hsh with hsh; subst hsh
        have ⟨q1, q2⟩ := prefix_drop_append p1
        simp only [size] at hb
        obtain ⟨ext, h1, h2⟩ := holds_of_ser B r r' base (pos + bs.length) d v hd' D V e e1 hD hV (by omega) hdv
          hlen q2 p2 p3
        exact ⟨ext, ⟨q1, h1⟩, h2⟩
  | .null w r, t', base, pos, d, v, hd, D, V, hres, hsh, hD, hV, hb, hdv, hlen, p1, p2, p3 => by
    simp only [resolve] at hres
    cases e : resolve r base d v with
    | err => simp [e] at hres
    | panic => simp [e] at hres
    | ok r' =>
      simp only [e] at hres; injection hres with hres; subst hres
      simp only [shallow] at hsh
      cases e1 : shallow r' with
      | err => simp [e1] at hsh
      | panic => simp [e1] at hsh
      | ok hd' =>
        simp only [e1] at hsh; injection hsh with hsh; subst hsh
        have ⟨q1, q2⟩ := prefix_drop_append p1
        simp only [size] at hb
        rw [enc_length] at q2
        obtain ⟨ext, h1, h2⟩ := holds_of_ser B r r' base (pos + w.size) d v hd' D V e e1 hD hV (by omega) hdv
          hlen q2 p2 p3
        exact ⟨ext, ⟨q1, h1⟩, h2⟩
  | .link w vec opt o c r, t', base, pos, d, v, hd, D, V, hres, hsh, hD, hV, hb, hdv, hlen, p1, p2, p3 => by
    simp only [resolve] at hres
    cases e0 : setOff w opt ((if vec then v else d) - base) with
    | err => simp [e0] at hres
    | panic => simp [e0] at hres
    | ok o' =>
      simp only [e0] at hres
      cases e1 : resolve c (if vec then v else d) ((if vec then v else d) + size c)
          ((if vec then v else d) + size c + descSize c false) with
      | err => simp [e1] at hres
      | panic => simp [e1] at hres
      | ok c' =>
        simp only [e1] at hres
        cases e2 : resolve r base (if vec then d else d + total c) (if vec then v + total c else v) with
        | err => simp [e2] at hres
        | panic => simp [e2] at hres
        | ok r' =>
          simp only [e2] at hres; injection hres with hres; subst hres
          cases o' with
          | none => simp [shallow] at hsh
          | some n =>
            simp only [shallow] at hsh
            cases e3 : shallow r' with
            | err => simp [e3] at hsh
            | panic => simp [e3] at hsh
            | ok hd' =>
              simp only [e3] at hsh; injection hsh with hsh; subst hsh
              have ⟨q1, q2⟩ := prefix_drop_append p1
              rw [enc_length] at q2
              have hn : n = (if vec then v else d) - base ∧ n ≤ w.max := by
                unfold setOff at e0
                generalize (if vec then v else d) - base = q at e0 ⊢
                split at e0
                · rename_i hle
                  injection e0 with e0; injection e0 with e0
                  subst e0; exact ⟨rfl, hle⟩
                · split at e0 <;> cases e0
              have hs : w.size + size r = size (.link w vec opt o c r) := rfl
              have hw : 2 ≤ w.size := by cases w <;> decide
              have hsz := resolve_sizes c c' _ _ _ e1
              have ⟨hDf, hDf'⟩ := serDesc_link hD
              have ⟨hVt, hVt'⟩ := serDesc_link hV
              cases vec with
              | false =>
                simp only [descSize, if_true, Bool.false_eq_true, if_false, Nat.zero_add] at *
                obtain ⟨a, b, e, m, ha, hb', he, hm, rfl⟩ := hDf trivial
                have hV' := hVt' (by decide)
                have la := size_shallow c' a ha
                have lb := descSize_serDesc c' false b hb'
                have le := descSize_serDesc c' true e he
                rw [hsz.1] at la
                rw [hsz.2] at lb le
                obtain ⟨s1, s2⟩ := prefix_drop_append p2
                obtain ⟨s3, s4⟩ := prefix_drop_append s1
                obtain ⟨s5, s6⟩ := prefix_drop_append s3
                simp only [List.length_append, la, lb, le] at s2 s4 s6
                obtain ⟨ex1, i1, i2, i3, i4⟩ := holds_of_ser B c c' d d (d + size c) (d + size c + descSize c false)
                  a b e e1 ha hb' he (by omega) (by omega) (by omega) s5 s6 (by rwa [Nat.add_assoc])
                obtain ⟨ex2, j1, j2, j3, j4⟩ := holds_of_ser B r r' base (pos + w.size) (d + total c) v hd' m V e2 e3 hm hV'
                  (by unfold total; omega) (by unfold total; omega) hlen q2 (by unfold total; rwa [Nat.add_assoc d, Nat.add_assoc] at *) p3
                have hbn : base + n = d := by omega
                refine ⟨(d, size c) :: (ex1 ++ ex2), ⟨n, ex1, ex2, by omega, hn.2, q1, by omega, by rw [hbn]; exact i1, j1,
                  by rw [hbn]⟩, ?_, ?_, ?_⟩
                · unfold total at j4
                  rw [List.pairwise_cons, List.pairwise_append]
                  refine ⟨?_, i2, j2, ?_⟩
                  · intro x hx
                    rcases List.mem_append.mp hx with hx | hx
                    · have := i4 x hx; simp only [Apart]; omega
                    · have := j4 x hx; simp only [Apart]; omega
                  · intro x hx y hy
                    have := i4 x hx; have := j4 y hy; simp only [Apart]; omega
                · simp only [List.map_cons, List.map_append, List.sum_cons, List.sum_append, i3, j3]; omega
                · unfold total at j4
                  intro x hx
                  rcases List.mem_cons.mp hx with rfl | hx
                  · left; simp only; omega
                  · rcases List.mem_append.mp hx with hx | hx
                    · have := i4 x hx; omega
                    · have := j4 x hx; omega
              | true =>
                simp only [descSize, if_true, Bool.true_eq_false, if_false, Nat.zero_add] at *
                obtain ⟨a, b, e, m, ha, hb', he, hm, rfl⟩ := hVt trivial
                have hD' := hDf' (by decide)
                have la := size_shallow c' a ha
                have lb := descSize_serDesc c' false b hb'
                have le := descSize_serDesc c' true e he
                rw [hsz.1] at la
                rw [hsz.2] at lb le
                obtain ⟨s1, s2⟩ := prefix_drop_append p3
                obtain ⟨s3, s4⟩ := prefix_drop_append s1
                obtain ⟨s5, s6⟩ := prefix_drop_append s3
                simp only [List.length_append, la, lb, le] at s2 s4 s6
                obtain ⟨ex1, i1, i2, i3, i4⟩ := holds_of_ser B c c' v v (v + size c) (v + size c + descSize c false)
                  a b e e1 ha hb' he (by omega) (by omega) (by omega) s5 s6 (by rwa [Nat.add_assoc])
                obtain ⟨ex2, j1, j2, j3, j4⟩ := holds_of_ser B r r' base (pos + w.size) d (v + total c) hd' D m e2 e3 hD' hm
                  (by omega) (by unfold total; omega) (by unfold total; omega) q2 p2
                  (by unfold total; rwa [Nat.add_assoc v, Nat.add_assoc] at *)
                have hbn : base + n = v := by omega
                refine ⟨(v, size c) :: (ex1 ++ ex2), ⟨n, ex1, ex2, by omega, hn.2, q1, by omega, by rw [hbn]; exact i1, j1,
                  by rw [hbn]⟩, ?_, ?_, ?_⟩
                · unfold total at j4
                  rw [List.pairwise_cons, List.pairwise_append]
                  refine ⟨?_, i2, j2, ?_⟩
                  · intro x hx
                    rcases List.mem_append.mp hx with hx | hx
                    · have := i4 x hx; simp only [Apart]; omega
                    · have := j4 x hx; simp only [Apart]; omega
                  · intro x hx y hy
                    have := i4 x hx; have := j4 y hy; simp only [Apart]; omega
                · simp only [List.map_cons, List.map_append, List.sum_cons, List.sum_append, i3, j3]; omega
                · unfold total at j4
                  intro x hx
                  rcases List.mem_cons.mp hx with rfl | hx
                  · right; simp only; omega
                  · rcases List.mem_append.mp hx with hx | hx
                    · have := i4 x hx; omega
                    · have := j4 x hx; omega

theorem resolve_shift (k : Nat) : ∀ (t : Tab) (base d v : Nat),
    resolve t (base + k) (d + k) (v + k) = resolve t base d v
  | .nil, _, _, _ => rfl
  | .raw bs r, base, d, v => by rw [resolve, resolve, resolve_shift k r]
  | .null w r, base, d, v => by rw [resolve, resolve, resolve_shift k r]
  | .link w vec opt o c r, base, d, v => by
    have h1 := resolve_shift k c (if vec then v else d) ((if vec then v else d) + size c)
      ((if vec then v else d) + size c + descSize c false)
    have h2 := resolve_shift k r base (if vec then d else d + total c) (if vec then v + total c else v)
    have e1 : (if vec then v + k else d + k) = (if vec then v else d) + k := by cases vec <;> rfl
    have e2 : (if vec then d + k else d + k + total c) = (if vec then d else d + total c) + k := by
      cases vec <;> simp <;> omega
    have e3 : (if vec then v + k + total c else v + k) = (if vec then v + total c else v) + k := by
      cases vec <;> simp <;> omega
    have e4 : (if vec then v else d) + k - (base + k) = (if vec then v else d) - base := by omega
    rw [resolve, resolve]
    have e5 : ∀ p : Nat, p + k + size c = p + size c + k := fun p => by omega
    have e6 : ∀ p : Nat, p + size c + k + descSize c false = p + size c + descSize c false + k := fun p => by omega
    simp only [e1, e2, e3, e4, e5, e6]
    rw [h2, h1]

theorem toBytes_parts {t : Tab} {bs : Bytes} (h : toBytes t = .ok bs) :
    ∃ t' hd D V, resolve t 0 (size t) (size t + descSize t false) = .ok t' ∧ shallow t' = .ok hd ∧
      serDesc t' false = .ok D ∧ serDesc t' true = .ok V ∧ bs = hd ++ D ++ V := by
  unfold toBytes at h
  cases e0 : resolve t 0 (size t) (size t + descSize t false) with
  | err => simp [e0] at h
  | panic => simp [e0] at h
  | ok t' =>
    cases e1 : shallow t' with
    | err => simp [e0, e1] at h
    | panic => simp [e0, e1] at h
    | ok hd =>
      cases e2 : serDesc t' false with
      | err => simp [e0, e1, e2] at h
      | panic => simp [e0, e1, e2] at h
      | ok D =>
        cases e3 : serDesc t' true with
        | err => simp [e0, e1, e2, e3] at h
        | panic => simp [e0, e1, e2, e3] at h
        | ok V =>
          simp only [e0, e1, e2, e3, Res.ok_bind, Res.pure_eq, Res.ok.injEq] at h
          exact ⟨t', hd, D, V, rfl, e1, e2, e3, h.symm⟩

/-- Whenever a table with (nested) offsets is written, the bytes, placed anywhere in a buffer, hold the table:
every linked table is where its offset field says, relative to the start of its owner, every null link is zero,
and the table and all tables below it are disjoint and together make up exactly the written bytes. -/
theorem C05_offsets_right (t : Tab) (bs : Bytes) (h : toBytes t = .ok bs) (before after : Bytes) :
    ∃ ext, Holds (before ++ bs ++ after) t before.length before.length ext ∧
      ((before.length, size t) :: ext).Pairwise Apart ∧
      (((before.length, size t) :: ext).map Prod.snd).sum = bs.length ∧
      ∀ x ∈ ext, before.length ≤ x.1 ∧ x.1 + x.2 ≤ before.length + bs.length := by
  obtain ⟨t', hd, D, V, h0, h1, h2, h3, rfl⟩ := toBytes_parts h
  have hsz := resolve_sizes _ _ _ _ _ h0
  have l1 := size_shallow _ _ h1
  have l2 := descSize_serDesc _ _ _ h2
  have l3 := descSize_serDesc _ _ _ h3
  rw [hsz.1] at l1
  rw [hsz.2] at l2 l3
  have hsh := resolve_shift before.length t 0 (size t) (size t + descSize t false)
  rw [h0, Nat.zero_add] at hsh
  have hp1 : hd <+: (before ++ (hd ++ D ++ V) ++ after).drop before.length :=
    ⟨D ++ V ++ after, by simp [List.append_assoc]⟩
  have hp2 : D <+: (before ++ (hd ++ D ++ V) ++ after).drop (size t + before.length) := by
    refine ⟨V ++ after, ?_⟩
    rw [← l1, Nat.add_comm, ← List.drop_drop]
    simp [List.append_assoc]
  have hp3 : V <+: (before ++ (hd ++ D ++ V) ++ after).drop (size t + descSize t false + before.length) := by
    refine ⟨after, ?_⟩
    rw [← l1, ← l2, Nat.add_comm, ← List.drop_drop, ← List.drop_drop]
    simp [List.append_assoc]
  obtain ⟨ext, g1, g2, g3, g4⟩ := holds_of_ser _ t t' before.length before.length _ _ hd D V hsh h1 h2 h3
    (by omega) (by omega) (by simp only [List.length_append]; omega) hp1 hp2 hp3
  refine ⟨ext, g1, ?_, ?_, ?_⟩
  · rw [List.pairwise_cons]
    refine ⟨?_, g2⟩
    intro x hx
    have := g4 x hx
    simp only [Apart]; omega
  · simp only [List.map_cons, List.sum_cons, List.length_append, g3]; omega
  · intro x hx
    have := g4 x hx
    simp only [List.length_append]
    omega

/-- Specification: the distances (with field width, and whether the field is an optional one) between each table
and the tables it links to, when tables are laid out one after the other: a table that starts at `base`, then its
direct children with everything below them (from `d` on), then its other children (from `v` on). -/
def distances : Tab → (base d v : Nat) → List (Width × Bool × Nat)
  | .nil, _, _, _ => []
  | .raw _ r, base, d, v => distances r base d v
  | .null _ r, base, d, v => distances r base d v
  | .link w false opt _ c r, base, d, v =>
    (w, opt, d - base) :: distances c d (d + size c) (d + size c + descSize c false) ++
      distances r base (d + total c) v
  | .link w true opt _ c r, base, d, v =>
    (w, opt, v - base) :: distances c v (v + size c) (v + size c + descSize c false) ++
      distances r base d (v + total c)

/-- All distances of a table on its own. -/
def allDistances (t : Tab) : List (Width × Bool × Nat) :=
  distances t 0 (size t) (size t + descSize t false)

theorem resolve_outcome : ∀ (t : Tab) (base d v : Nat),
    (resolve t base d v = .panic ∧ ∃ x ∈ distances t base d v, x.2.1 = true ∧ x.1.max < x.2.2) ∨
    ((∀ x ∈ distances t base d v, x.2.1 = true → x.2.2 ≤ x.1.max) ∧ ∃ t', resolve t base d v = .ok t' ∧
      ((∀ x ∈ distances t base d v, x.2.2 ≤ x.1.max) →
        ∃ hd D V, shallow t' = .ok hd ∧ serDesc t' false = .ok D ∧ serDesc t' true = .ok V) ∧
      ((∃ x ∈ distances t base d v, x.1.max < x.2.2) →
        (shallow t' = .err ∨ (∃ hd, shallow t' = .ok hd)) ∧
        (serDesc t' false = .err ∨ ∃ hd, serDesc t' false = .ok hd) ∧
        (serDesc t' true = .err ∨ ∃ hd, serDesc t' true = .ok hd) ∧
        (shallow t' = .err ∨ serDesc t' false = .err ∨ serDesc t' true = .err)))
  | .nil, base, d, v => .inr ⟨by simp [distances], .nil, rfl, fun _ => ⟨[], [], [], rfl, rfl, rfl⟩, by simp [distances]⟩
  | .raw bs r, base, d, v => by
    rcases resolve_outcome r base d v with ⟨h1, h2⟩ | ⟨h1, r', h2, h3, h4⟩
    · exact .inl ⟨by rw [resolve, h1], h2⟩
    · refine .inr ⟨h1, .raw bs r', by rw [resolve, h2], ?_, ?_⟩
      · intro hall
        obtain ⟨hd, D, V, g1, g2, g3⟩ := h3 hall
        exact ⟨bs ++ hd, D, V, by simp [shallow, g1], g2, g3⟩
      · intro hex
        obtain ⟨g1, g2, g3, g4⟩ := h4 hex
        refine ⟨?_, g2, g3, ?_⟩
        · rcases g1 with g1 | ⟨hd, g1⟩
          · left; simp [shallow, g1]
          · right; exact ⟨bs ++ hd, by simp [shallow, g1]⟩
        · rcases g4 with g4 | g4
          · left; simp [shallow, g4]
          · right; exact g4
  | .null w r, base, d, v => by
    rcases resolve_outcome r base d v with ⟨h1, h2⟩ | ⟨h1, r', h2, h3, h4⟩
    · exact .inl ⟨by rw [resolve, h1], h2⟩
    · refine .inr ⟨h1, .null w r', by rw [resolve, h2], ?_, ?_⟩
      · intro hall
        obtain ⟨hd, D, V, g1, g2, g3⟩ := h3 hall
        exact ⟨w.enc 0 ++ hd, D, V, by simp [shallow, g1], g2, g3⟩
      · intro hex
        obtain ⟨g1, g2, g3, g4⟩ := h4 hex
        refine ⟨?_, g2, g3, ?_⟩
        · rcases g1 with g1 | ⟨hd, g1⟩
          · left; simp [shallow, g1]
          · right; exact ⟨w.enc 0 ++ hd, by simp [shallow, g1]⟩
        · rcases g4 with g4 | g4
          · left; simp [shallow, g4]
          · right; exact g4
  | .link w vec opt o c r, base, d, v => by
    have hdist : distances (.link w vec opt o c r) base d v =
        (w, opt, (if vec then v else d) - base) ::
          distances c (if vec then v else d) ((if vec then v else d) + size c)
            ((if vec then v else d) + size c + descSize c false) ++
          distances r base (if vec then d else d + total c) (if vec then v + total c else v) := by
      cases vec <;> rfl
    rw [hdist]
    simp only [resolve]
    generalize (if vec then v else d) = pos
    generalize (if vec then d else d + total c) = d'
    generalize (if vec then v + total c else v) = v'
    by_cases hfit : pos - base ≤ w.max
    · have e0 : setOff w opt (pos - base) = .ok (some (pos - base)) := if_pos hfit
      rw [e0]
      simp only
      rcases resolve_outcome c pos (pos + size c) (pos + size c + descSize c false) with
        ⟨h1, x, hx, hx'⟩ | ⟨h1, c', h2, h3, h4⟩
      · left
        rw [h1]
        exact ⟨rfl, x, by simp [hx], hx'⟩
      · rw [h2]
        simp only
        rcases resolve_outcome r base d' v' with ⟨k1, x, hx, hx'⟩ | ⟨k1, r', k2, k3, k4⟩
        · left
          rw [k1]
          exact ⟨rfl, x, by simp [hx], hx'⟩
        · right
          rw [k2]
          simp only
          refine ⟨?_, _, rfl, ?_, ?_⟩
          · intro x hx
            simp only [List.cons_append, List.mem_cons, List.mem_append] at hx
            rcases hx with rfl | hx | hx
            · intro _; exact hfit
            · exact h1 x hx
            · exact k1 x hx
          · intro hall
            obtain ⟨a, b, e, g1, g2, g3⟩ := h3 (fun x hx => hall x (by simp [hx]))
            obtain ⟨hd, D, V, q1, q2, q3⟩ := k3 (fun x hx => hall x (by simp [hx]))
            cases vec
            · exact ⟨w.enc (pos - base) ++ hd, a ++ b ++ e ++ D, V, by simp [shallow, q1],
                by simp [serDesc, g1, g2, g3, q2], by simp [serDesc, q3]⟩
            · exact ⟨w.enc (pos - base) ++ hd, D, a ++ b ++ e ++ V, by simp [shallow, q1],
                by simp [serDesc, q2], by simp [serDesc, g1, g2, g3, q3]⟩
          · intro hex
            -- outcomes of the child: all three fine, or some error
            have hc : (shallow c' = .err ∨ ∃ x, shallow c' = .ok x) ∧
                (serDesc c' false = .err ∨ ∃ x, serDesc c' false = .ok x) ∧
                (serDesc c' true = .err ∨ ∃ x, serDesc c' true = .ok x) := by
              by_cases hce : ∃ x ∈ distances c pos (pos + size c) (pos + size c + descSize c false), x.1.max < x.2.2
              · obtain ⟨g1, g2, g3, _⟩ := h4 hce
                exact ⟨g1, g2, g3⟩
              · obtain ⟨a, b, e, g1, g2, g3⟩ := h3 (fun x hx => Nat.le_of_not_lt fun hlt => hce ⟨x, hx, hlt⟩)
                exact ⟨.inr ⟨a, g1⟩, .inr ⟨b, g2⟩, .inr ⟨e, g3⟩⟩
            have hr : (shallow r' = .err ∨ ∃ x, shallow r' = .ok x) ∧
                (serDesc r' false = .err ∨ ∃ x, serDesc r' false = .ok x) ∧
                (serDesc r' true = .err ∨ ∃ x, serDesc r' true = .ok x) := by
              by_cases hce : ∃ x ∈ distances r base d' v', x.1.max < x.2.2
              · obtain ⟨g1, g2, g3, _⟩ := k4 hce
                exact ⟨g1, g2, g3⟩
              · obtain ⟨a, b, e, g1, g2, g3⟩ := k3 (fun x hx => Nat.le_of_not_lt fun hlt => hce ⟨x, hx, hlt⟩)
                exact ⟨.inr ⟨a, g1⟩, .inr ⟨b, g2⟩, .inr ⟨e, g3⟩⟩
            obtain ⟨hc1, hc2, hc3⟩ := hc
            obtain ⟨hr1, hr2, hr3⟩ := hr
            have hbad : (shallow c' = .err ∨ serDesc c' false = .err ∨ serDesc c' true = .err) ∨
                (shallow r' = .err ∨ serDesc r' false = .err ∨ serDesc r' true = .err) := by
              obtain ⟨x, hx, hlt⟩ := hex
              simp only [List.cons_append, List.mem_cons, List.mem_append] at hx
              rcases hx with rfl | hx | hx
              · simp only at hlt; omega
              · left; exact (h4 ⟨x, hx, hlt⟩).2.2.2
              · right; exact (k4 ⟨x, hx, hlt⟩).2.2.2
            cases vec
            · simp only [shallow, serDesc, Bool.false_eq_true, if_true, if_false, Res.ok_bind, List.nil_append]
              rcases hc1 with hc1 | ⟨a, hc1⟩ <;> rcases hc2 with hc2 | ⟨b, hc2⟩ <;> rcases hc3 with hc3 | ⟨e, hc3⟩ <;>
                rcases hr1 with hr1 | ⟨x, hr1⟩ <;> rcases hr2 with hr2 | ⟨y, hr2⟩ <;> rcases hr3 with hr3 | ⟨z, hr3⟩ <;>
                simp [hc1, hc2, hc3, hr1, hr2, hr3] at hbad ⊢
            · simp only [shallow, serDesc, Bool.true_eq_false, if_true, if_false, Res.ok_bind, List.nil_append]
              rcases hc1 with hc1 | ⟨a, hc1⟩ <;> rcases hc2 with hc2 | ⟨b, hc2⟩ <;> rcases hc3 with hc3 | ⟨e, hc3⟩ <;>
                rcases hr1 with hr1 | ⟨x, hr1⟩ <;> rcases hr2 with hr2 | ⟨y, hr2⟩ <;> rcases hr3 with hr3 | ⟨z, hr3⟩ <;>
                simp [hc1, hc2, hc3, hr1, hr2, hr3] at hbad ⊢
    · cases opt with
      | true =>
        left
        have e0 : setOff w true (pos - base) = .panic := by unfold setOff; rw [if_neg hfit, if_pos rfl]
        rw [e0]
        exact ⟨rfl, (w, true, pos - base), by simp, rfl, by simp only; omega⟩
      | false =>
        have e0 : setOff w false (pos - base) = .ok none := by
          unfold setOff; rw [if_neg hfit, if_neg (by simp)]
        rw [e0]
        simp only
        rcases resolve_outcome c pos (pos + size c) (pos + size c + descSize c false) with
          ⟨h1, x, hx, hx'⟩ | ⟨h1, c', h2, h3, h4⟩
        · left
          rw [h1]
          exact ⟨rfl, x, by simp [hx], hx'⟩
        · rw [h2]
          simp only
          rcases resolve_outcome r base d' v' with ⟨k1, x, hx, hx'⟩ | ⟨k1, r', k2, k3, k4⟩
          · left
            rw [k1]
            exact ⟨rfl, x, by simp [hx], hx'⟩
          · right
            rw [k2]
            simp only
            refine ⟨?_, _, rfl, ?_, ?_⟩
            · intro x hx
              simp only [List.cons_append, List.mem_cons, List.mem_append] at hx
              rcases hx with rfl | hx | hx
              · intro hcon; cases hcon
              · exact h1 x hx
              · exact k1 x hx
            · intro hall
              exact absurd (hall (w, false, pos - base) (by simp)) hfit
            · intro _
              have hc : (shallow c' = .err ∨ ∃ x, shallow c' = .ok x) ∧
                  (serDesc c' false = .err ∨ ∃ x, serDesc c' false = .ok x) ∧
                  (serDesc c' true = .err ∨ ∃ x, serDesc c' true = .ok x) := by
                by_cases hce : ∃ x ∈ distances c pos (pos + size c) (pos + size c + descSize c false), x.1.max < x.2.2
                · obtain ⟨g1, g2, g3, _⟩ := h4 hce
                  exact ⟨g1, g2, g3⟩
                · obtain ⟨a, b, e, g1, g2, g3⟩ := h3 (fun x hx => Nat.le_of_not_lt fun hlt => hce ⟨x, hx, hlt⟩)
                  exact ⟨.inr ⟨a, g1⟩, .inr ⟨b, g2⟩, .inr ⟨e, g3⟩⟩
              have hr : (serDesc r' false = .err ∨ ∃ x, serDesc r' false = .ok x) ∧
                  (serDesc r' true = .err ∨ ∃ x, serDesc r' true = .ok x) := by
                by_cases hce : ∃ x ∈ distances r base d' v', x.1.max < x.2.2
                · obtain ⟨g1, g2, g3, _⟩ := k4 hce
                  exact ⟨g2, g3⟩
                · obtain ⟨a, b, e, g1, g2, g3⟩ := k3 (fun x hx => Nat.le_of_not_lt fun hlt => hce ⟨x, hx, hlt⟩)
                  exact ⟨.inr ⟨b, g2⟩, .inr ⟨e, g3⟩⟩
              obtain ⟨hc1, hc2, hc3⟩ := hc
              obtain ⟨hr2, hr3⟩ := hr
              cases vec
              · simp only [shallow, serDesc, Bool.false_eq_true, if_true, if_false, Res.ok_bind, List.nil_append]
                rcases hc1 with hc1 | ⟨a, hc1⟩ <;> rcases hc2 with hc2 | ⟨b, hc2⟩ <;> rcases hc3 with hc3 | ⟨e, hc3⟩ <;>
                  rcases hr2 with hr2 | ⟨y, hr2⟩ <;> rcases hr3 with hr3 | ⟨z, hr3⟩ <;>
                  simp [hc1, hc2, hc3, hr2, hr3]
              · simp only [shallow, serDesc, Bool.true_eq_false, if_true, if_false, Res.ok_bind, List.nil_append]
                rcases hc1 with hc1 | ⟨a, hc1⟩ <;> rcases hc2 with hc2 | ⟨b, hc2⟩ <;> rcases hc3 with hc3 | ⟨e, hc3⟩ <;>
                  rcases hr2 with hr2 | ⟨y, hr2⟩ <;> rcases hr3 with hr3 | ⟨z, hr3⟩ <;>
                  simp [hc1, hc2, hc3, hr2, hr3]

/-- Serialization succeeds exactly when every distance fits its field. If one does not, the result is an error
(a panic if it belongs to an optional offset field), never bytes with a wrong offset. -/
theorem C05_outcome (t : Tab) :
    ((∀ x ∈ allDistances t, x.2.2 ≤ x.1.max) → ∃ bs, toBytes t = .ok bs) ∧
    ((∃ x ∈ allDistances t, x.2.1 = true ∧ x.1.max < x.2.2) → toBytes t = .panic) ∧
    ((∃ x ∈ allDistances t, x.1.max < x.2.2) → (∀ x ∈ allDistances t, x.2.1 = true → x.2.2 ≤ x.1.max) →
      toBytes t = .err) := by
  unfold allDistances
  rcases resolve_outcome t 0 (size t) (size t + descSize t false) with ⟨h1, x, hx, ho, hlt⟩ | ⟨h1, t', h2, h3, h4⟩
  · refine ⟨fun hall => ?_, fun _ => ?_, fun _ hopt => ?_⟩
    · have := hall x hx; omega
    · simp [toBytes, h1]
    · have := hopt x hx ho; omega
  · refine ⟨fun hall => ?_, fun ⟨x, hx, ho, hlt⟩ => ?_, fun hex _ => ?_⟩
    · obtain ⟨hd, D, V, g1, g2, g3⟩ := h3 hall
      exact ⟨hd ++ D ++ V, by simp [toBytes, h2, g1, g2, g3]⟩
    · have := h1 x hx ho; omega
    · obtain ⟨g1, g2, g3, g4⟩ := h4 hex
      unfold toBytes
      rw [h2]
      rcases g1 with g1 | ⟨a, g1⟩ <;> rcases g2 with g2 | ⟨b, g2⟩ <;> rcases g3 with g3 | ⟨e, g3⟩ <;>
        simp [g1, g2, g3] at g4 ⊢

theorem distances_le : ∀ (t : Tab) (base d v m : Nat), d + descSize t false ≤ m → v + descSize t true ≤ m →
    ∀ x ∈ distances t base d v, x.2.2 ≤ m
  | .nil, _, _, _, _, _, _, x, hx => by simp [distances] at hx
  | .raw _ r, base, d, v, m, h1, h2, x, hx => distances_le r base d v m h1 h2 x hx
  | .null _ r, base, d, v, m, h1, h2, x, hx => distances_le r base d v m h1 h2 x hx
  | .link w false opt _ c r, base, d, v, m, h1, h2, x, hx => by
    simp only [descSize, if_true, Bool.false_eq_true, if_false, Nat.zero_add] at h1 h2
    simp only [distances, List.cons_append, List.mem_cons, List.mem_append] at hx
    rcases hx with rfl | hx | hx
    · simp only; omega
    · exact distances_le c _ _ _ m (by omega) (by omega) x hx
    · exact distances_le r _ _ _ m (by unfold total; omega) (by omega) x hx
  | .link w true opt _ c r, base, d, v, m, h1, h2, x, hx => by
    simp only [descSize, if_true, Bool.true_eq_false, if_false, Nat.zero_add] at h1 h2
    simp only [distances, List.cons_append, List.mem_cons, List.mem_append] at hx
    rcases hx with rfl | hx | hx
    · simp only; omega
    · exact distances_le c _ _ _ m (by omega) (by omega) x hx
    · exact distances_le r _ _ _ m (by omega) (by unfold total; omega) x hx

/-- In particular every table of at most 65535 bytes in total is written. -/
theorem C05_small_succeeds (t : Tab) (h : total t ≤ 65535) : ∃ bs, toBytes t = .ok bs := by
  apply (C05_outcome t).1
  intro x hx
  have := distances_le t 0 (size t) (size t + descSize t false) (total t) (by unfold total; omega)
    (by unfold total; omega) x hx
  have hm : 65535 ≤ x.1.max := by cases x.1 <;> decide
  omega

/-! ## C06 -/

/-- Reading an offset field, on any buffer and any position: `off` is the number in the field. A null field
gives no table. Otherwise the table is read at `base + off` (an error if that is past the end of the buffer)
and the cursor then stands right after the field; a 32-bit offset above 65535 panics. -/
theorem C06_offset16 {α : Type} (p : Reader α) (B : Bytes) (pos base : Nat) (stk : List Nat)
    (hpos : pos + 2 ≤ B.length) :
    let off := field B pos 2
    let res := readOffset .w16 p ⟨B, pos, base :: stk⟩
    (off = 0 → res = .ok (none, ⟨B, pos + 2, base :: stk⟩)) ∧
    (0 < off → B.length < base + off → res = .err) ∧
    (0 < off → base + off ≤ B.length →
      (∀ a r', p ⟨B, base + off, base :: stk⟩ = .ok (a, r') → res = .ok (some a, ⟨r'.inp, pos + 2, r'.stk⟩)) ∧
      (p ⟨B, base + off, base :: stk⟩ = .err → res = .err) ∧
      (p ⟨B, base + off, base :: stk⟩ = .panic → res = .panic)) := by
  obtain ⟨n, hn, e⟩ := readU16_ok (r := ⟨B, pos, base :: stk⟩) hpos
  have hlt := n.toNat_lt
  simp only at hn e
  intro off res
  have hoff : off = n.toNat := hn.symm
  have hw : readWidth .w16 ⟨B, pos, base :: stk⟩ = .ok (off, ⟨B, pos + 2, base :: stk⟩) := by
    show (readU16 >>= fun n => pure n.toNat) _ = _
    rw [Reader.bind_run, e, hoff]
    rfl
  have hres : res = (if off = 0 then pure none else if off > 65535 then Reader.crash else (do
      let old ← getPtr
      followOffset (UInt16.ofNat off)
      let a ← p
      setPtr old
      return some a) : Reader (Option α)) ⟨B, pos + 2, base :: stk⟩ := by
    show readOffset .w16 p _ = _
    unfold readOffset
    rw [Reader.bind_run, hw]
  have hto : (UInt16.ofNat off).toNat = off := ofNat16_toNat (by omega)
  refine ⟨?_, ?_, ?_⟩
  · intro h0
    rw [hres, if_pos h0]; rfl
  · intro h0 hlen
    rw [hres, if_neg (by omega), if_neg (by omega), Reader.bind_run]
    simp only [getPtr]
    rw [Reader.bind_run]
    simp only [followOffset, hto]
    rw [if_pos hlen]
  · intro h0 hlen
    have hf : followOffset (UInt16.ofNat off) ⟨B, pos + 2, base :: stk⟩ = .ok ((), ⟨B, base + off, base :: stk⟩) := by
      simp only [followOffset, hto]
      rw [if_neg (by omega)]
    rw [hres, if_neg (by omega), if_neg (by omega), Reader.bind_run]
    simp only [getPtr]
    rw [Reader.bind_run, hf]
    simp only
    rw [Reader.bind_run]
    refine ⟨fun a r' h => ?_, fun h => ?_, fun h => ?_⟩
    · rw [h]; rfl
    · rw [h]
    · rw [h]

theorem C06_offset32 {α : Type} (p : Reader α) (B : Bytes) (pos base : Nat) (stk : List Nat)
    (hpos : pos + 4 ≤ B.length) :
    let off := field B pos 4
    let res := readOffset .w32 p ⟨B, pos, base :: stk⟩
    (off = 0 → res = .ok (none, ⟨B, pos + 4, base :: stk⟩)) ∧
    (65535 < off → res = .panic) ∧
    (0 < off → off ≤ 65535 → B.length < base + off → res = .err) ∧
    (0 < off → off ≤ 65535 → base + off ≤ B.length →
      (∀ a r', p ⟨B, base + off, base :: stk⟩ = .ok (a, r') → res = .ok (some a, ⟨r'.inp, pos + 4, r'.stk⟩)) ∧
      (p ⟨B, base + off, base :: stk⟩ = .err → res = .err) ∧
      (p ⟨B, base + off, base :: stk⟩ = .panic → res = .panic)) := by
  obtain ⟨n, hn, e⟩ := readU32_ok (r := ⟨B, pos, base :: stk⟩) hpos
  simp only at hn e
  intro off res
  have hoff : off = n.toNat := hn.symm
  have hw : readWidth .w32 ⟨B, pos, base :: stk⟩ = .ok (off, ⟨B, pos + 4, base :: stk⟩) := by
    show (readU32 >>= fun n => pure n.toNat) _ = _
    rw [Reader.bind_run, e, hoff]
    rfl
  have hres : res = (if off = 0 then pure none else if off > 65535 then Reader.crash else (do
      let old ← getPtr
      followOffset (UInt16.ofNat off)
      let a ← p
      setPtr old
      return some a) : Reader (Option α)) ⟨B, pos + 4, base :: stk⟩ := by
    show readOffset .w32 p _ = _
    unfold readOffset
    rw [Reader.bind_run, hw]
  refine ⟨?_, ?_, ?_, ?_⟩
  · intro h0
    rw [hres, if_pos h0]; rfl
  · intro hbig
    rw [hres, if_neg (by omega), if_pos (by omega)]; rfl
  · intro h0 h1 hlen
    have hto : (UInt16.ofNat off).toNat = off := ofNat16_toNat (by omega)
    rw [hres, if_neg (by omega), if_neg (by omega), Reader.bind_run]
    simp only [getPtr]
    rw [Reader.bind_run]
    simp only [followOffset, hto]
    rw [if_pos hlen]
  · intro h0 h1 hlen
    have hto : (UInt16.ofNat off).toNat = off := ofNat16_toNat (by omega)
    have hf : followOffset (UInt16.ofNat off) ⟨B, pos + 4, base :: stk⟩ = .ok ((), ⟨B, base + off, base :: stk⟩) := by
      simp only [followOffset, hto]
      rw [if_neg (by omega)]
    rw [hres, if_neg (by omega), if_neg (by omega), Reader.bind_run]
    simp only [getPtr]
    rw [Reader.bind_run, hf]
    simp only
    rw [Reader.bind_run]
    refine ⟨fun a r' h => ?_, fun h => ?_, fun h => ?_⟩
    · rw [h]; rfl
    · rw [h]
    · rw [h]

/-! A table with a direct child (which has a child of its own), a null link and two children in an offset
array: the array children come last although the array is written first. -/
def sampleTab : Tab :=
  .raw [0, 1] (.link .w16 true false none (.raw [9, 9, 9] .nil) (.link .w16 true false none (.raw [8] .nil)
    (.null .w16 (.link .w16 false false none
      (.raw [7, 7] (.link .w16 false false none (.raw [6, 6, 6] .nil) .nil)) .nil))))

example : toBytes sampleTab =
    .ok [0, 1, 0, 17, 0, 20, 0, 0, 0, 10, 7, 7, 0, 4, 6, 6, 6, 9, 9, 9, 8] := by decide
example : total sampleTab ≤ 65535 := by decide
/-- A child after 70000 bytes: an error, or a panic in an optional field. -/
example (o : Bool) (c : Tab) (big : Bytes) (hbig : big.length = 70000) : ∃ x ∈ allDistances
    (.link .w16 false o none (.raw big .nil) (.link .w16 false o none c .nil)),
    x.1.max < x.2.2 := by
  refine ⟨(.w16, o, 70004), ?_, by show 65535 < 70004; decide⟩
  simp [allDistances, distances, size, total, descSize, Width.size, hbig]
example : field [0, 0, 0, 5] 2 2 = 5 := by decide

end FT.Props
