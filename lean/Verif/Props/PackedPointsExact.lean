import Verif.Props.PackedPoints
import Verif.Props.Fvar

/-!
# C38: exactly which point lists survive

The writer gives a run of words a control byte which announces twice as many words as follow. Here it is shown that this is
always noticed: a list with a step above 255 never reads back as itself, whatever follows it in the buffer.
-/

namespace FT.PackedPoints
open FT Reader

/-- Not decreasing. -/
def Up (a b : UInt16) : Prop := a.toNat ≤ b.toNat

/-- The bytes of a run without its control byte. -/
def body (b : Bool) (ds : List UInt16) : Bytes :=
  if b then ds.map (fun v => UInt8.ofNat v.toNat) else encVec encU16 ds

theorem up_sub {a b : UInt16} (h : Up a b) : (b - a).toNat = b.toNat - a.toNat := by
  rw [UInt16.toNat_sub_of_le]
  exact UInt16.le_iff_toNat_le.mpr h

theorem body_length (b : Bool) (ds : List UInt16) : (body b ds).length = if b then ds.length else 2 * ds.length := by
  unfold body
  cases b
  · simp [encVec_length (k := 2) (fun a => encU16_length a), Nat.mul_comm]
  · simp

theorem body_cons (b : Bool) (d : UInt16) (ds : List UInt16) : body b (d :: ds) = body b [d] ++ body b ds := by
  unfold body
  cases b <;> simp

theorem body_word (d : UInt16) : body false [d] = [UInt8.ofNat (d.toNat / 256), UInt8.ofNat (d.toNat % 256)] := by
  simp [body, encU16]

theorem body_byte (d : UInt16) : body true [d] = [UInt8.ofNat d.toNat] := by simp [body]

theorem runLoop_out (b : Bool) : ∀ (l : List UInt16) (run : Bytes) (last : UInt16),
    (runLoop (some b) run last l = .panic ∧ ¬ List.IsChain Up (last :: l)) ∨
    ∃ l1 l2 last', l = l1 ++ l2 ∧
      runLoop (some b) run last l = .ok (some b, run ++ body b (diffs last l1), last', l2) ∧
      (List.IsChain Up (last :: l) ↔ List.IsChain Up (last' :: l2)) ∧ diffs last l = diffs last l1 ++ diffs last' l2 ∧
      (b = true → ∀ v ∈ diffs last l1, v.toNat ≤ 255) ∧
      (b = true → run.length ≤ 127 → run.length + (body b (diffs last l1)).length ≤ 127) ∧
      (b = false → run.length % 2 = 1 → run.length ≤ 127 → run.length + (body b (diffs last l1)).length ≤ 127) ∧
      (l2 = [] ∨ 127 ≤ run.length + (body b (diffs last l1)).length ∨
        (b = true ∧ ∃ c t, l2 = c :: t ∧ Up last' c ∧ 255 < c.toNat - last'.toNat))
  | [], run, last => by
    refine Or.inr ⟨[], [], last, rfl, ?_, Iff.rfl, rfl, ?_, ?_, ?_, Or.inl rfl⟩
    · cases b <;> simp [runLoop, diffs, body]
    · simp [diffs]
    · intro h; subst h; simp [diffs, body]
    · intro h; subst h; simp [diffs, body]
  | c :: t, run, last => by
    unfold runLoop
    by_cases hr : run.length < 127
    · rw [if_pos hr]
      by_cases hlt : c.toNat < last.toNat
      · rw [if_pos hlt]
        refine Or.inl ⟨rfl, ?_⟩
        rw [List.isChain_cons_cons]
        intro h
        have := h.1
        unfold Up at this
        omega
      · rw [if_neg hlt]
        have hup : Up last c := Nat.not_lt.mp hlt
        have hd := up_sub hup
        simp only
        by_cases hbig : b = true ∧ c.toNat - last.toNat > 0xff
        · rw [if_pos hbig]
          refine Or.inr ⟨[], c :: t, last, rfl, ?_, Iff.rfl, rfl, ?_, ?_, ?_, Or.inr (Or.inr ⟨hbig.1, c, t, rfl, hup, hbig.2⟩)⟩
          · cases b <;> simp [diffs, body]
          · simp [diffs]
          · intro h; subst h; simp [diffs, body]
          · intro h; rw [hbig.1] at h; cases h
        · rw [if_neg hbig]
          have step : ∀ run', run' = run ++ body b [c - last] →
              (runLoop (some b) run' c t = .panic ∧ ¬ List.IsChain Up (last :: c :: t)) ∨
              ∃ l1 l2 last', c :: t = l1 ++ l2 ∧
                runLoop (some b) run' c t = .ok (some b, run ++ body b (diffs last l1), last', l2) ∧
                (List.IsChain Up (last :: c :: t) ↔ List.IsChain Up (last' :: l2)) ∧
                diffs last (c :: t) = diffs last l1 ++ diffs last' l2 ∧
                (b = true → ∀ v ∈ diffs last l1, v.toNat ≤ 255) ∧
                (b = true → run.length ≤ 127 → run.length + (body b (diffs last l1)).length ≤ 127) ∧
                (b = false → run.length % 2 = 1 → run.length ≤ 127 → run.length + (body b (diffs last l1)).length ≤ 127) ∧
                (l2 = [] ∨ 127 ≤ run.length + (body b (diffs last l1)).length ∨
                  (b = true ∧ ∃ c t, l2 = c :: t ∧ Up last' c ∧ 255 < c.toNat - last'.toNat)) := by
            rintro run' rfl
            have hch : List.IsChain Up (last :: c :: t) ↔ List.IsChain Up (c :: t) := by
              rw [List.isChain_cons_cons]; exact ⟨And.right, fun h => ⟨hup, h⟩⟩
            have hlen : (run ++ body b [c - last]).length = run.length + (body b [c - last]).length := List.length_append
            rcases runLoop_out b t (run ++ body b [c - last]) c with ⟨e, hn⟩ | ⟨l1, l2, last', e1, e2, e3, e4, e5, e6, e7, e8⟩
            · exact Or.inl ⟨e, fun h => hn (hch.mp h)⟩
            · have hb : body b (diffs last (c :: l1)) = body b [c - last] ++ body b (diffs c l1) := by
                rw [diffs, body_cons]
              refine Or.inr ⟨c :: l1, l2, last', by rw [e1]; rfl, ?_, hch.trans e3, by simp only [diffs, e4, List.cons_append],
                ?_, ?_, ?_, ?_⟩
              · rw [e2, hb, List.append_assoc]
              · intro h v hv
                simp only [diffs, List.mem_cons] at hv
                rcases hv with rfl | hv
                · rw [hd]
                  by_contra hc
                  exact hbig ⟨h, by omega⟩
                · exact e5 h v hv
              · intro h h127
                rw [hb, List.length_append]
                have h1 : (body b [c - last]).length = 1 := by rw [body_length, h]; rfl
                have := e6 h (by rw [hlen, h1]; omega)
                rw [hlen] at this
                omega
              · intro h ho h127
                rw [hb, List.length_append]
                have h1 : (body b [c - last]).length = 2 := by rw [body_length, h]; rfl
                have := e7 h (by rw [hlen, h1]; omega) (by rw [hlen, h1]; omega)
                rw [hlen] at this
                omega
              · rw [hb, List.length_append]
                rw [hlen] at e8
                rcases e8 with h | h | h
                · exact Or.inl h
                · exact Or.inr (Or.inl (by omega))
                · exact Or.inr (Or.inr h)
          by_cases hbt : b = true
          · rw [if_pos hbt]
            exact step _ (by rw [hbt, body_byte, hd])
          · rw [if_neg hbt]
            have hbf : b = false := by simpa using hbt
            exact step _ (by rw [hbf, body_word, hd])
    · rw [if_neg hr]
      refine Or.inr ⟨[], c :: t, last, rfl, ?_, Iff.rfl, rfl, ?_, ?_, ?_, Or.inr (Or.inl ?_)⟩
      · cases b <;> simp [diffs, body]
      · simp [diffs]
      · intro h; subst h; simp [diffs, body]
      · intro h; subst h; simp [diffs, body]
      · omega

theorem runLoop_none (c : UInt16) (t : List UInt16) (last : UInt16) :
    runLoop none [0] last (c :: t) = runLoop (some (decide (c.toNat - last.toNat ≤ 0xff))) [0] last (c :: t) := by
  conv_lhs => unfold runLoop
  conv_rhs => unfold runLoop
  have h : [(0 : UInt8)].length < 127 := by decide
  rw [if_pos h, if_pos h]

/-- The control byte of a run of `k` points. -/
def ctrl (b : Bool) (ds : List UInt16) : UInt8 :=
  if b then UInt8.ofNat ((body b ds).length + 1 - 2) else UInt8.ofNat ((body b ds).length + 1 - 2) ||| 0x80

/-- One round of the writer. -/
theorem encLoop_round (k : Nat) (last c : UInt16) (t : List UInt16) :
    (encLoop (k + 1) last (c :: t) = .panic ∧ ¬ List.IsChain Up (last :: c :: t)) ∨
    ∃ (b : Bool) (l1 l2 : List UInt16) (last' : UInt16), c :: t = l1 ++ l2 ∧ l1 ≠ [] ∧ b = decide (c.toNat - last.toNat ≤ 255) ∧
      encLoop (k + 1) last (c :: t) = (match encLoop k last' l2 with
        | .ok more => .ok (ctrl b (diffs last l1) :: (body b (diffs last l1) ++ more))
        | .err => .err
        | .panic => .panic) ∧
      (List.IsChain Up (last :: c :: t) ↔ List.IsChain Up (last' :: l2)) ∧
      diffs last (c :: t) = diffs last l1 ++ diffs last' l2 ∧
      (b = true → ∀ v ∈ diffs last l1, v.toNat ≤ 255) ∧ 1 + (body b (diffs last l1)).length ≤ 127 ∧
      (l2 = [] ∨ 127 ≤ 1 + (body b (diffs last l1)).length ∨
        (b = true ∧ ∃ c t, l2 = c :: t ∧ Up last' c ∧ 255 < c.toNat - last'.toNat)) := by
  have hun : encLoop (k + 1) last (c :: t) = (match runLoop none [0] last (c :: t) with
      | .ok (some ub, run, last', rest) =>
        match encLoop k last' rest with
        | .ok more => .ok (run.set 0 (if ub then UInt8.ofNat (run.length - 2) else UInt8.ofNat (run.length - 2) ||| 0x80) ++ more)
        | .err => .err
        | .panic => .panic
      | .ok (none, _, _, _) => .panic
      | .err => .err
      | .panic => .panic) := by
    conv_lhs => unfold encLoop
    rfl
  rw [hun, runLoop_none]
  rcases runLoop_out (decide (c.toNat - last.toNat ≤ 0xff)) (c :: t) [0] last with ⟨e, hn⟩ | ⟨l1, l2, last', e1, e2, e3, e4, e5, e6, e7, e8⟩
  · rw [e]; exact Or.inl ⟨rfl, hn⟩
  · rw [e2]
    refine Or.inr ⟨_, l1, l2, last', e1, ?_, rfl, ?_, e3, e4, e5, ?_, ?_⟩
    · intro h
      subst h
      simp only [List.nil_append] at e1
      subst e1
      simp only [diffs] at e4
      have h0 : ∀ b, (body b []).length = 0 := by intro b; cases b <;> rfl
      rcases e8 with h | h | ⟨hb, c', t', h, _, hc⟩
      · cases h
      · rw [diffs, h0] at h
        simp at h
      · cases h
        have h9 := (List.cons.inj e4).1
        rcases Nat.lt_or_ge c.toNat last.toNat with hlt | hge
        · have := e3
          simp only [decide_eq_true_eq] at hb
          -- the values agree, so the steps do
          have e10 : last = last' := by
            have := congrArg (fun z => c - z) h9
            simpa using this
          subst e10
          omega
        · have e10 : last = last' := by
            have := congrArg (fun z => c - z) h9
            simpa using this
          subst e10
          simp only [decide_eq_true_eq] at hb
          omega
    · unfold ctrl
      simp only [List.length_cons, List.cons_append, List.nil_append, List.set_cons_zero]
    · cases hb : decide (c.toNat - last.toNat ≤ 0xff) with
      | true => rw [hb] at e6; simpa using e6 rfl (by simp)
      | false => rw [hb] at e7; simpa using e7 rfl (by simp) (by simp)
    · simpa using e8

theorem encLoop_outcome : ∀ (k : Nat) (last : UInt16) (l : List UInt16), l.length ≤ k →
    (¬ List.IsChain Up (last :: l) → encLoop k last l = .panic) ∧
    (List.IsChain Up (last :: l) → ∃ bs, encLoop k last l = .ok bs)
  | 0, last, l, h => by
    have : l = [] := List.eq_nil_of_length_eq_zero (by omega)
    subst this
    exact ⟨fun h => absurd (List.IsChain.singleton _) h, fun _ => ⟨[], rfl⟩⟩
  | k + 1, last, [], _ => ⟨fun h => absurd (List.IsChain.singleton _) h, fun _ => ⟨[], rfl⟩⟩
  | k + 1, last, c :: t, h => by
    rcases encLoop_round k last c t with ⟨e, hn⟩ | ⟨b, l1, l2, last', e1, hne, _, e2, e3, _⟩
    · exact ⟨fun _ => e, fun hc => absurd hc hn⟩
    · have hlen := congrArg List.length e1
      rw [List.length_append] at hlen
      have := List.length_pos_of_ne_nil hne
      obtain ⟨i1, i2⟩ := encLoop_outcome k last' l2 (by simp at h hlen; omega)
      rw [e2]
      constructor
      · intro hc
        rw [i1 (fun h => hc (e3.mpr h))]
      · intro hc
        obtain ⟨bs, e⟩ := i2 (e3.mp hc)
        rw [e]
        exact ⟨_, rfl⟩

theorem cumsum_inj : ∀ (l : List UInt16) (acc : UInt16) (p : List UInt16), cumsum acc l = .ok p → l = diffs acc p
  | [], acc, p, h => by cases h; rfl
  | x :: t, acc, p, h => by
    unfold cumsum at h
    split at h
    · cases h
    · obtain ⟨rest, e, h⟩ := Res.bind_inv h
      cases h
      rw [diffs, ← cumsum_inj t (acc + x) rest e]
      congr 1
      rw [UInt16.add_comm, UInt16.add_sub_cancel]

theorem deCounted_words {l : List UInt16} {n : Nat} (hl : l.length ≤ n) {pre rest : Bytes} {stk : List Nat} {W : List UInt16}
    {r' : Rd} (h : deCounted readU16 n ⟨pre ++ (encVec encU16 l ++ rest), pre.length, stk⟩ = .ok (W, r')) :
    ∃ W2, W = l ++ W2 := by
  induction l generalizing n pre W r' with
  | nil => exact ⟨W, rfl⟩
  | cons x l ih =>
    cases n with
    | zero => simp at hl
    | succ n =>
      unfold deCounted at h
      have hx := reads_u16 x pre (encVec encU16 l ++ rest) stk
      simp only [encVec_cons, List.append_assoc] at h
      simp only [List.append_assoc] at hx
      rw [bind_run, hx] at h
      simp only at h
      rw [bind_run] at h
      have e : pre ++ (encU16 x ++ (encVec encU16 l ++ rest)) = (pre ++ encU16 x) ++ (encVec encU16 l ++ rest) := by simp
      have e2 : pre.length + (encU16 x).length = (pre ++ encU16 x).length := by simp
      rw [e, e2] at h
      split at h
      · rename_i W1 r1 h1
        obtain ⟨W2, hw⟩ := ih (by simpa using hl) h1
        rw [pure_run] at h
        cases h
        exact ⟨W2, by rw [hw]; rfl⟩
      · cases h
      · cases h

theorem pair_word (a b : UInt8) : ∃ w : UInt16, encU16 w = [a, b] ∧ w.toNat = a.toNat * 256 + b.toNat := by
  have h1 := a.toNat_lt
  have h2 := b.toNat_lt
  have e : (UInt16.ofNat (a.toNat * 256 + b.toNat)).toNat = a.toNat * 256 + b.toNat := ofNat16_toNat (by omega)
  refine ⟨UInt16.ofNat (a.toNat * 256 + b.toNat), ?_, e⟩
  unfold encU16
  simp only [e]
  have ea : (a.toNat * 256 + b.toNat) / 256 = a.toNat := by omega
  have eb : UInt8.ofNat ((a.toNat * 256 + b.toNat) % 256) = b := by
    apply UInt8.toNat_inj.mp
    simp
  rw [ea, eb]; simp

theorem high_bit (x : UInt8) : 128 ≤ (x ||| 0x80).toNat := by
  rw [UInt8.toNat_or]
  exact Nat.right_le_or

/-- A run of words at the start, with at least two points. -/
theorem word_start {k : Nat} {last c c2 : UInt16} {t : List UInt16} {bs : Bytes}
    (h : encLoop (k + 1) last (c :: c2 :: t) = .ok bs) (hbig : 255 < c.toNat - last.toNat) :
    ∃ (a : UInt8) (more : Bytes), 128 ≤ a.toNat ∧ bs = a :: (encU16 (c - last) ++ (encU16 (c2 - c) ++ more)) := by
  rcases encLoop_round k last c (c2 :: t) with ⟨e, _⟩ | ⟨b, l1, l2, last', e1, hne, hb, e2, _, e4, _, _, e8⟩
  · rw [e] at h; cases h
  · have hb : b = false := by rw [hb]; simp; omega
    subst hb
    rw [e2] at h
    split at h
    · rename_i more hm
      cases h
      match l1, hne with
      | [x], _ =>
        have h8 : (body false (diffs last [x])).length = 2 := by rw [body_length]; rfl
        rw [h8] at e8
        simp only [List.cons_append, List.nil_append] at e1
        have : l2 = c2 :: t := (List.cons.inj e1).2.symm
        rcases e8 with h | h | h
        · rw [this] at h; cases h
        · omega
        · cases h.1
      | x :: y :: l1, _ =>
        have h1 := (List.cons.inj e1).1
        have h2 := (List.cons.inj (List.cons.inj e1).2).1
        subst h1 h2
        refine ⟨UInt8.ofNat ((body false (diffs last (c :: c2 :: l1))).length + 1 - 2) ||| 0x80, encVec encU16 (diffs c2 l1) ++ more,
          high_bit _, ?_⟩
        simp only [ctrl, body, diffs, Bool.false_eq_true, if_false, encVec_cons, List.append_assoc]
    · cases h
    · cases h

theorem ctrl_word : ∀ n : Fin 128, (((UInt8.ofNat n : UInt8) ||| 0x80) &&& 0x7f).toNat = n ∧
    (((UInt8.ofNat n : UInt8) ||| 0x80) &&& 0x80) > 0 := by
  decide

/-- Reading goes on in this way after a run. -/
theorem readLoop_inv {fuel need : Nat} (hn : need ≠ 0) {r r' : Rd} {res : List UInt16} (h : readLoop fuel need r = .ok (res, r')) :
    ∃ f run r1 rest, readRun r = .ok (run, r1) ∧ readLoop f (need - run.length) r1 = .ok (rest, r') ∧ res = run ++ rest := by
  cases fuel with
  | zero => unfold readLoop at h; rw [if_neg hn] at h; cases h
  | succ f =>
    unfold readLoop at h
    rw [if_neg hn, bind_run] at h
    split at h
    · rename_i run r1 h1
      rw [bind_run] at h
      split at h
      · rename_i rest r2 h2
        rw [pure_run] at h
        cases h
        exact ⟨f, run, r1, rest, h1, h2, rfl⟩
      · cases h
      · cases h
    · cases h
    · cases h

/-- A run of words is read as twice as many words as were written. -/
theorem readRun_words {ds : List UInt16} (h0 : ds ≠ []) (h63 : ds.length ≤ 63) {pre rest : Bytes} {stk : List Nat} {W : List UInt16}
    {r' : Rd} (h : readRun ⟨pre ++ (ctrl false ds :: (body false ds ++ rest)), pre.length, stk⟩ = .ok (W, r')) :
    deCounted readU16 (2 * ds.length) ⟨(pre ++ [ctrl false ds]) ++ (encVec encU16 ds ++ rest), (pre ++ [ctrl false ds]).length, stk⟩ =
      .ok (W, r') := by
  have hp := List.length_pos_of_ne_nil h0
  have hc : ctrl false ds = UInt8.ofNat (2 * ds.length - 1) ||| 0x80 := by
    unfold ctrl
    rw [body_length]
    simp only [Bool.false_eq_true, if_false]
    rfl
  obtain ⟨e1, e2⟩ := ctrl_word ⟨2 * ds.length - 1, by omega⟩
  simp only at e1 e2
  rw [← hc] at e1 e2
  have hx := reads_u8 (ctrl false ds) pre (body false ds ++ rest) stk
  simp only [encU8, List.append_assoc, List.cons_append, List.nil_append] at hx
  unfold readRun at h
  rw [bind_run, hx] at h
  simp only at h
  rw [if_pos e2, e1] at h
  have e3 : 2 * ds.length - 1 + 1 = 2 * ds.length := by omega
  rw [e3] at h
  rw [← h]
  simp [body]

theorem up_total {last c c2 : UInt16} (h1 : Up last c) (h2 : Up c c2) : (c - last).toNat + (c2 - c).toNat < 65536 := by
  rw [up_sub h1, up_sub h2]
  have := c2.toNat_lt
  unfold Up at h1 h2
  omega

theorem no_second {a : UInt8} (ha : 128 ≤ a.toNat) {d1 d2 w1 w2 : UInt16} (hs : d1.toNat + d2.toNat < 65536)
    (e1 : w1.toNat = a.toNat * 256 + d1.toNat / 256) (e2 : w2.toNat = d1.toNat % 256 * 256 + d2.toNat / 256)
    (h1 : w1 = d1) (h2 : w2 = d2) : False := by
  rw [h1] at e1
  rw [h2] at e2
  have := a.toNat_lt
  have := d1.toNat_lt
  have := d2.toNat_lt
  have hq : d1.toNat / 256 = a.toNat := by omega
  have hr : d1.toNat % 256 = a.toNat := by omega
  rw [hr] at e2
  omega

/-- If what was written is read as the points, no step is above 255. -/
theorem read_exact : ∀ (k : Nat) (l : List UInt16) (last : UInt16) (bs : Bytes), l.length ≤ k → List.IsChain Up (last :: l) →
    encLoop k last l = .ok bs → ∀ (fuel : Nat) (pre rest : Bytes) (stk : List Nat) (r' : Rd),
    readLoop fuel l.length ⟨pre ++ (bs ++ rest), pre.length, stk⟩ = .ok (diffs last l, r') → ∀ v ∈ diffs last l, v.toNat ≤ 255
  | _, [], last, bs, _, _, _, _, _, _, _, _, _ => by simp [diffs]
  | 0, c :: t, last, bs, h, _, _, _, _, _, _, _, _ => by simp at h
  | k + 1, c :: t, last, bs, hl, hch, he, fuel, pre, rest, stk, r', hr => by
    rcases encLoop_round k last c t with ⟨e, _⟩ | ⟨b, l1, l2, last', e1, hne, hb, e2, e3, e4, e5, e6, e8⟩
    · rw [e] at he; cases he
    have hlen := congrArg List.length e1
    rw [List.length_append] at hlen
    have hp := List.length_pos_of_ne_nil hne
    have hdl := diffs_length last l1
    rw [e2] at he
    cases hm : encLoop k last' l2 with
    | err => rw [hm] at he; cases he
    | panic => rw [hm] at he; cases he
    | ok more =>
    rw [hm] at he
    cases he
    obtain ⟨f, run, r1, rst, hrun, hrest, hres⟩ := readLoop_inv (by simp) hr
    cases b with
    | true =>
      rw [body_length, if_pos rfl, hdl] at e6
      have hrd := reads_runBytes (diffs last l1) (by omega) (by omega) (e5 rfl) pre (more ++ rest) stk
      have hc : ctrl true (diffs last l1) :: (body true (diffs last l1) ++ more) ++ rest =
          (UInt8.ofNat ((diffs last l1).length - 1) :: (diffs last l1).map (fun v => UInt8.ofNat v.toNat)) ++ (more ++ rest) := by
        simp only [ctrl, body, if_true, List.length_map, List.cons_append, List.append_assoc]
        rfl
      rw [hc, ← List.append_assoc, hrd] at hrun
      cases hrun
      have hr2 : rst = diffs last' l2 := by
        rw [e4] at hres
        exact (List.append_cancel_left hres).symm
      subst hr2
      have hn : (c :: t).length - (diffs last l1).length = l2.length := by rw [hlen, hdl]; omega
      have hassoc : pre ++ (UInt8.ofNat ((diffs last l1).length - 1) :: (diffs last l1).map (fun v => UInt8.ofNat v.toNat)) ++ (more ++ rest) =
          (pre ++ (UInt8.ofNat ((diffs last l1).length - 1) :: (diffs last l1).map (fun v => UInt8.ofNat v.toNat))) ++ (more ++ rest) := by
        simp
      rw [hn, hassoc, ← List.length_append] at hrest
      have := read_exact k l2 last' more (by simp at hl hlen; omega) (e3.mp hch) hm f _ rest stk r' hrest
      rw [e4]
      intro v hv
      rcases List.mem_append.mp hv with hv | hv
      · exact e5 rfl v hv
      · exact this v hv
    | false =>
      exfalso
      rw [body_length] at e6 e8
      simp only [Bool.false_eq_true, if_false, hdl, false_and, or_false] at e6 e8
      have hdne : diffs last l1 ≠ [] := by
        intro h; rw [h] at hdl; simp at hdl; omega
      simp only [List.cons_append, List.append_assoc] at hrun
      have hdc := readRun_words hdne (by omega) hrun
      have hW := FT.Props.deCounted_length hdc
      rw [hdl] at hW
      have htot := congrArg List.length hres
      rw [diffs_length, List.length_append, hW] at htot
      have hl2 : l1.length ≤ l2.length := by omega
      rcases e8 with h | h
      · rw [h] at hl2; simp at hl2; exact hne hl2
      have h63 : l1.length = 63 := by omega
      match l2, hl2, e3, e4, hm with
      | c1 :: c2 :: c3 :: t2, hl2, e3, e4, hm =>
        have hch2 := e3.mp hch
        obtain ⟨u1, hch3⟩ := List.isChain_cons_cons.mp hch2
        obtain ⟨u2, hch4⟩ := List.isChain_cons_cons.mp hch3
        obtain ⟨u3, _⟩ := List.isChain_cons_cons.mp hch4
        -- what the words after the written ones have to be
        have key : ∀ ws : List UInt16, ws.length ≤ 3 → (∃ tl, more ++ rest = encVec encU16 ws ++ tl) →
            ∃ tl, diffs last' (c1 :: c2 :: c3 :: t2) = ws ++ tl := by
          rintro ws hws ⟨tl, ht⟩
          rw [ht, ← List.append_assoc (encVec encU16 _), ← encVec_append] at hdc
          obtain ⟨W2, hW2⟩ := deCounted_words (by rw [List.length_append, hdl]; omega) hdc
          rw [hW2, e4] at hres
          simp only [List.append_assoc] at hres
          exact ⟨W2 ++ rst, List.append_cancel_left hres⟩
        cases k with
        | zero => rw [hlen, h63] at hl; omega
        | succ k =>
        by_cases hbig : 255 < c1.toNat - last'.toNat
        · obtain ⟨a, more2, ha, hmore⟩ := word_start hm hbig
          obtain ⟨w1, ew1, n1⟩ := pair_word a (UInt8.ofNat ((c1 - last').toNat / 256))
          obtain ⟨w2, ew2, n2⟩ := pair_word (UInt8.ofNat ((c1 - last').toNat % 256)) (UInt8.ofNat ((c2 - c1).toNat / 256))
          obtain ⟨tl, htl⟩ := key [w1, w2] (by simp) ⟨UInt8.ofNat ((c2 - c1).toNat % 256) :: (more2 ++ rest), by
            rw [hmore]; simp only [encVec_cons, encVec_nil, ew1, ew2]; simp [encU16]⟩
          simp only [diffs, List.cons_append, List.nil_append, List.cons.injEq] at htl
          have b1 : (UInt8.ofNat ((c1 - last').toNat / 256)).toNat = (c1 - last').toNat / 256 := by
            have := (c1 - last').toNat_lt
            simp only [UInt8.toNat_ofNat']; omega
          have b2 : (UInt8.ofNat ((c1 - last').toNat % 256)).toNat = (c1 - last').toNat % 256 := by
            simp only [UInt8.toNat_ofNat']; omega
          have b3 : (UInt8.ofNat ((c2 - c1).toNat / 256)).toNat = (c2 - c1).toNat / 256 := by
            have := (c2 - c1).toNat_lt
            simp only [UInt8.toNat_ofNat']; omega
          rw [b1] at n1
          rw [b2, b3] at n2
          exact no_second ha (up_total u1 u2) n1 n2 htl.1.symm htl.2.1.symm
        · rcases encLoop_round k last' c1 (c2 :: c3 :: t2) with ⟨e, _⟩ | ⟨b, m1, m2, last2, f1, fne, fb, f2, f3, f4, f5, f6, f8⟩
          · rw [e] at hm; cases hm
          have hbt : b = true := by rw [fb]; simp; omega
          subst hbt
          rw [f2] at hm
          cases hm2 : encLoop k last2 m2 with
          | err => rw [hm2] at hm; cases hm
          | panic => rw [hm2] at hm; cases hm
          | ok more2 =>
          rw [hm2] at hm
          cases hm
          rw [body_length, if_pos rfl, diffs_length] at f6 f8
          match m1, fne with
          | x :: m1, _ =>
          have hx := (List.cons.inj f1).1
          subst hx
          have hd1 : (c1 - last').toNat ≤ 255 := f5 rfl _ (by simp [diffs])
          obtain ⟨w1, ew1, n1⟩ := pair_word (ctrl true (diffs last' (c1 :: m1))) (UInt8.ofNat (c1 - last').toNat)
          obtain ⟨tl, htl⟩ := key [w1] (by simp) ⟨body true (diffs c1 m1) ++ more2 ++ rest, by
            simp only [diffs]
            rw [body_cons true (c1 - last'), body_byte]
            simp [ew1, diffs]⟩
          simp only [diffs, List.cons_append, List.nil_append, List.cons.injEq] at htl
          have b1 : (UInt8.ofNat (c1 - last').toNat).toNat = (c1 - last').toNat := by
            simp only [UInt8.toNat_ofNat']; omega
          rw [b1, ← htl.1] at n1
          have hc0 : (ctrl true (diffs last' (c1 :: m1))).toNat = 0 := by omega
          have hm1 : m1 = [] := by
            have e : ctrl true (diffs last' (c1 :: m1)) = UInt8.ofNat m1.length := by
              unfold ctrl
              rw [if_pos rfl, body_length, if_pos rfl, diffs_length]
              rfl
            rw [e] at hc0
            simp only [UInt8.toNat_ofNat'] at hc0
            simp only [List.length_cons] at f6
            exact List.eq_nil_of_length_eq_zero (by omega)
          subst hm1
          simp only [List.cons_append, List.nil_append, List.cons.injEq, true_and] at f1
          subst f1
          rcases f8 with h | h | ⟨_, c', t', h, hup, hbig2⟩
          · cases h
          · simp at h
          · cases h
            have hl2eq : last2 = c1 := by
              simp only [diffs, List.cons_append, List.nil_append, List.cons.injEq, true_and] at f4
              have := congrArg (fun z => c2 - z) f4.1
              simpa using this.symm
            subst hl2eq
            cases k with
            | zero => simp [encLoop] at hm2
            | succ k =>
            obtain ⟨a, more3, ha, hmore⟩ := word_start hm2 hbig2
            obtain ⟨v1, ev1, p1⟩ := pair_word (ctrl true (diffs last' [last2])) (UInt8.ofNat (last2 - last').toNat)
            obtain ⟨v2, ev2, p2⟩ := pair_word a (UInt8.ofNat ((c2 - last2).toNat / 256))
            obtain ⟨v3, ev3, p3⟩ := pair_word (UInt8.ofNat ((c2 - last2).toNat % 256)) (UInt8.ofNat ((c3 - c2).toNat / 256))
            obtain ⟨tl, htl⟩ := key [v1, v2, v3] (by simp) ⟨UInt8.ofNat ((c3 - c2).toNat % 256) :: (more3 ++ rest), by
              rw [hmore]
              simp only [diffs, body_byte]
              simp only [encVec_cons, encVec_nil, ev1, ev2, ev3]
              simp [encU16, diffs]⟩
            simp only [diffs, List.cons_append, List.nil_append, List.cons.injEq] at htl
            have b1 : (UInt8.ofNat ((c2 - last2).toNat / 256)).toNat = (c2 - last2).toNat / 256 := by
              have := (c2 - last2).toNat_lt
              simp only [UInt8.toNat_ofNat']; omega
            have b2 : (UInt8.ofNat ((c2 - last2).toNat % 256)).toNat = (c2 - last2).toNat % 256 := by
              simp only [UInt8.toNat_ofNat']; omega
            have b3 : (UInt8.ofNat ((c3 - c2).toNat / 256)).toNat = (c3 - c2).toNat / 256 := by
              have := (c3 - c2).toNat_lt
              simp only [UInt8.toNat_ofNat']; omega
            rw [b1] at p2
            rw [b2, b3] at p3
            exact no_second ha (up_total u2 u3) p2 p3 htl.2.1.symm htl.2.2.1.symm
      | [], hl2, _, _, _ => rw [h63] at hl2; simp at hl2
      | [_], hl2, _, _, _ => rw [h63] at hl2; simp at hl2
      | [_, _], hl2, _, _, _ => rw [h63] at hl2; simp at hl2

/-- Reading gives at most 127 points more than announced. -/
theorem readLoop_most : ∀ (f need : Nat) (r r' : Rd) (res : List UInt16), readLoop f need r = .ok (res, r') → res.length ≤ need + 127
  | f, 0, r, r', res, h => by
    cases f <;> (unfold readLoop at h; rw [if_pos rfl] at h; cases h; simp)
  | 0, need + 1, r, r', res, h => by unfold readLoop at h; rw [if_neg (by omega)] at h; cases h
  | f + 1, need + 1, r, r', res, h => by
    unfold readLoop at h
    rw [if_neg (by omega), bind_run] at h
    split at h
    · rename_i run r1 h1
      rw [bind_run] at h
      split at h
      · rename_i rest r2 h2
        rw [pure_run] at h
        cases h
        have ih := readLoop_most f _ _ _ _ h2
        have h128 : run.length ≤ 128 := by
          unfold readRun at h1
          rw [bind_run] at h1
          split at h1
          · rename_i c rc hc
            have hc7 : (c &&& 0x7f).toNat ≤ 127 := by
              rw [UInt8.toNat_and]
              exact Nat.and_le_right
            split at h1
            · have := FT.Props.deCounted_length h1
              omega
            · rw [bind_run] at h1
              split at h1
              · rename_i bs rb hb
                have := FT.Props.deCounted_length hb
                rw [pure_run] at h1
                cases h1
                simp only [List.length_map]
                omega
              · cases h1
              · cases h1
          · cases h1
          · cases h1
        rw [List.length_append]
        by_cases hle : run.length ≤ need + 1
        · omega
        · have e0 : need + 1 - run.length = 0 := by omega
          rw [e0] at h2
          have := readLoop_length _ _ _ _ _ h2
          have hr0 : rest.length = 0 := by
            cases f <;> (unfold readLoop at h2; rw [if_pos rfl] at h2; cases h2; rfl)
          omega
      · cases h
      · cases h
    · cases h
    · cases h

end FT.PackedPoints

namespace FT.Props
open FT Reader

/-- **C38** (which lists can be written). A list which never decreases is written; any other makes the writer panic. -/
theorem C38_writes_iff (points : List UInt16) :
    (points.Pairwise (fun a b => a.toNat ≤ b.toNat) → ∃ bs, PackedPoints.encode (some points) = .ok bs) ∧
    (¬ points.Pairwise (fun a b => a.toNat ≤ b.toNat) → PackedPoints.encode (some points) = .panic) := by
  have hiff : List.IsChain PackedPoints.Up (0 :: points) ↔ points.Pairwise (fun a b => a.toNat ≤ b.toNat) := by
    have : Trans PackedPoints.Up PackedPoints.Up PackedPoints.Up := ⟨fun h1 h2 => Nat.le_trans h1 h2⟩
    rw [List.isChain_iff_pairwise, List.pairwise_cons]
    constructor
    · exact And.right
    · intro h
      exact ⟨fun a _ => Nat.zero_le _, h⟩
  obtain ⟨h1, h2⟩ := PackedPoints.encLoop_outcome points.length 0 points (Nat.le_refl _)
  constructor
  · intro h
    obtain ⟨bs, e⟩ := h2 (hiff.mpr h)
    unfold PackedPoints.encode
    simp only [e]
    exact ⟨_, rfl⟩
  · intro h
    unfold PackedPoints.encode
    simp only [h1 (fun hc => h (hiff.mp hc))]

/-- **C38** (exactly which lists survive). If what was written for a list of points is read, anywhere and whatever follows, as
that list, then it has 1 to 127 or 32768 to 65535 points and no step above 255. -/
theorem C38_exact (points : List UInt16) (bs : Bytes) (h : PackedPoints.encode (some points) = .ok bs)
    (before after : Bytes) (bases : List Nat) (r' : Rd)
    (hr : PackedPoints.read ⟨before ++ bs ++ after, before.length, bases⟩ = .ok (some points, r')) :
    SmallSteps points ∧ GoodCount points.length := by
  obtain ⟨h1, h2⟩ := PackedPoints.encLoop_outcome points.length 0 points (Nat.le_refl _)
  have hup : List.IsChain PackedPoints.Up (0 :: points) := by
    by_contra hn
    unfold PackedPoints.encode at h
    simp only [h1 hn] at h
    cases h
  obtain ⟨more, hm⟩ := h2 hup
  unfold PackedPoints.encode at h
  simp only [hm, Res.ok.injEq] at h
  -- what is read after the count
  have tail : ∀ (count : UInt16) (pre rest : Bytes) (b : Bytes), bs = b ++ rest → pre = before ++ b →
      (if count = 0 then (pure none : Reader (Option (List UInt16))) else do
        let res ← PackedPoints.readLoop count.toNat count.toNat
        let pts ← Reader.lift (PackedPoints.cumsum 0 res)
        return some pts) ⟨before ++ bs ++ after, pre.length, bases⟩ = .ok (some points, r') →
      count ≠ 0 ∧ points.length ≤ count.toNat + 127 ∧ count.toNat ≤ points.length ∧
      ∃ r1, PackedPoints.readLoop count.toNat count.toNat ⟨pre ++ (rest ++ after), pre.length, bases⟩ =
        .ok (PackedPoints.diffs 0 points, r1) := by
    rintro count pre rest b rfl rfl hx
    by_cases hc : count = 0
    · rw [if_pos hc] at hx; cases hx
    · rw [if_neg hc, bind_run] at hx
      split at hx
      · rename_i res r1 hl
        rw [bind_run] at hx
        unfold Reader.lift at hx
        cases hcs : PackedPoints.cumsum 0 res with
        | ok q =>
          rw [hcs] at hx
          simp only [pure_run, Res.ok.injEq, Prod.mk.injEq, Option.some.injEq] at hx
          obtain ⟨rfl, rfl⟩ := hx
          have e := PackedPoints.cumsum_inj _ _ _ hcs
          have hlen := PackedPoints.readLoop_length _ _ _ _ _ hl
          have hmost := PackedPoints.readLoop_most _ _ _ _ _ hl
          rw [PackedPoints.cumsum_length _ _ _ hcs]
          refine ⟨hc, hmost, hlen, r1, ?_⟩
          rw [← e, ← hl]
          simp only [List.append_assoc]
        | err => rw [hcs] at hx; cases hx
        | panic => rw [hcs] at hx; cases hx
      · cases hx
      · cases hx
  have finish : ∀ (count : UInt16) (b : Bytes), bs = b ++ more → count.toNat = points.length →
      (∃ r1, PackedPoints.readLoop count.toNat count.toNat ⟨(before ++ b) ++ (more ++ after), (before ++ b).length, bases⟩ =
        .ok (PackedPoints.diffs 0 points, r1)) → SmallSteps points := by
    rintro count b hb hc ⟨r1, hl⟩
    rw [hc] at hl
    have hv := PackedPoints.read_exact _ _ _ _ (Nat.le_refl _) hup hm _ _ _ _ _ hl
    clear hl hm tail h1 h2 hr h hc
    have : ∀ (l : List UInt16) (last : UInt16), List.IsChain PackedPoints.Up (last :: l) →
        (∀ v ∈ PackedPoints.diffs last l, v.toNat ≤ 255) →
        List.IsChain (fun a b => a.toNat ≤ b.toNat ∧ b.toNat - a.toNat ≤ 255) (last :: l) := by
      intro l
      induction l with
      | nil => intro last _ _; exact List.IsChain.singleton _
      | cons c t ih =>
        intro last hu hv
        obtain ⟨u1, u2⟩ := List.isChain_cons_cons.mp hu
        refine List.isChain_cons_cons.mpr ⟨⟨u1, ?_⟩, ih c u2 (fun v hv' => hv v (by simp [PackedPoints.diffs, hv']))⟩
        have := hv (c - last) (by simp [PackedPoints.diffs])
        rwa [PackedPoints.up_sub u1] at this
    exact this points 0 hup hv
  have hmod : (UInt16.ofNat points.length).toNat = points.length % 65536 := by simp
  unfold PackedPoints.read at hr
  by_cases hsmall : points.length % 65536 ≤ 0x80
  · rw [hmod, if_pos hsmall] at h
    have hb8 : (UInt8.ofNat (points.length % 65536)).toNat = points.length % 65536 := by simp; omega
    have hx := reads_u8 (UInt8.ofNat (points.length % 65536)) before (more ++ after) bases
    have hbs : before ++ bs ++ after = before ++ encU8 (UInt8.ofNat (points.length % 65536)) ++ (more ++ after) := by
      rw [← h]; simp
    rw [hbs, bind_run, hx] at hr
    simp only at hr
    by_cases h127 : points.length % 65536 ≤ 127
    · rw [if_neg (by omega), bind_run, pure_run] at hr
      simp only at hr
      rw [← hbs] at hr
      have hc : ((UInt8.ofNat (points.length % 65536)).toUInt16).toNat = points.length % 65536 := by
        rw [UInt8.toNat_toUInt16, hb8]
      have ht := tail ((UInt8.ofNat (points.length % 65536)).toUInt16) _ more _ h.symm rfl
        (by simpa only [List.length_append] using hr)
      obtain ⟨t1, t2, t3, t4⟩ := ht
      rw [hc] at t2 t3
      have hn0 : points.length % 65536 ≠ 0 := by
        intro e0
        apply t1
        apply UInt16.toNat_inj.mp
        rw [hc, e0]; rfl
      have hlt : points.length % 65536 = points.length := by omega
      refine ⟨finish _ _ h.symm (by rw [hc, hlt]) t4, Or.inl (by omega)⟩
    · rw [if_pos (by omega), bind_run, bind_run] at hr
      split at hr
      · rename_i count r1 hcount
        split at hcount
        · rename_i c2 r2 hc2
          rw [pure_run] at hcount
          cases hcount
          exfalso
          have hlim : (((UInt8.ofNat (points.length % 65536)).toUInt16 <<< 8) ||| c2.toUInt16).toNat = 128 * 256 + c2.toNat := by
            rw [PackedPoints.or_shift, hb8]; omega
          have h256 := c2.toNat_lt
          split at hr
          · cases hr
          · rw [bind_run] at hr
            split at hr
            · rename_i res r3 hl
              rw [bind_run] at hr
              unfold Reader.lift at hr
              cases hcs : PackedPoints.cumsum 0 res with
              | ok q =>
                rw [hcs] at hr
                simp only [pure_run, Res.ok.injEq, Prod.mk.injEq, Option.some.injEq] at hr
                have := PackedPoints.cumsum_length _ _ _ hcs
                have hlen := PackedPoints.readLoop_length _ _ _ _ _ hl
                have hmost := PackedPoints.readLoop_most _ _ _ _ _ hl
                rw [hlim] at hlen hmost
                rw [hr.1] at this
                omega
              | err => rw [hcs] at hr; cases hr
              | panic => rw [hcs] at hr; cases hr
            · cases hr
            · cases hr
        · cases hcount
        · cases hcount
      · cases hr
      · cases hr
  · rw [hmod, if_neg hsmall] at h
    have hor : (UInt16.ofNat points.length ||| 0x8000).toNat ≥ 32768 := PackedPoints.or_high_ge _
    have hort := (UInt16.ofNat points.length ||| 0x8000).toNat_lt
    generalize hC : (UInt16.ofNat points.length ||| 0x8000) = C at *
    have e : encU16 C = encU8 (UInt8.ofNat (C.toNat / 256)) ++ encU8 (UInt8.ofNat (C.toNat % 256)) := rfl
    have b1 : (UInt8.ofNat (C.toNat / 256)).toNat = C.toNat / 256 := by simp; omega
    have b2 : (UInt8.ofNat (C.toNat % 256)).toNat = C.toNat % 256 := by simp
    have hx := reads_u8 (UInt8.ofNat (C.toNat / 256)) before (encU8 (UInt8.ofNat (C.toNat % 256)) ++ more ++ after) bases
    have hy := reads_u8 (UInt8.ofNat (C.toNat % 256)) (before ++ encU8 (UInt8.ofNat (C.toNat / 256))) (more ++ after) bases
    have hbs : before ++ bs ++ after = before ++ encU8 (UInt8.ofNat (C.toNat / 256)) ++
        (encU8 (UInt8.ofNat (C.toNat % 256)) ++ more ++ after) := by
      rw [← h, e]; simp
    have hbs2 : before ++ encU8 (UInt8.ofNat (C.toNat / 256)) ++ (encU8 (UInt8.ofNat (C.toNat % 256)) ++ more ++ after) =
        before ++ encU8 (UInt8.ofNat (C.toNat / 256)) ++ encU8 (UInt8.ofNat (C.toNat % 256)) ++ (more ++ after) := by simp
    rw [hbs, bind_run, hx] at hr
    simp only at hr
    rw [if_pos (by omega), bind_run, bind_run, hbs2, ← List.length_append, hy] at hr
    simp only [pure_run] at hr
    rw [← hbs2, ← hbs] at hr
    have hc : (((UInt8.ofNat (C.toNat / 256)).toUInt16 <<< 8) ||| (UInt8.ofNat (C.toNat % 256)).toUInt16) = C := by
      apply UInt16.toNat_inj.mp
      rw [PackedPoints.or_shift, b1, b2]; omega
    rw [hc] at hr
    obtain ⟨t1, t2, t3, t4⟩ := tail C _ more (encU16 C) h.symm rfl (by
      rw [← hr]; simp only [List.length_append, encU16_length, encU8_length, Nat.add_assoc])
    have hlt : points.length < 65536 := by
      by_contra hge
      omega
    have hC2 : C.toNat = points.length := by
      rw [← hC, PackedPoints.or_high_of_ge _ (by rw [hmod]; omega), hmod]; omega
    exact ⟨finish _ _ h.symm hC2 t4, Or.inr (by omega)⟩

example : PackedPoints.encode (some [300, 301]) = .ok [2, 0x83, 0x01, 0x2c, 0, 1] := by decide
/-- Whatever follows these bytes, they are not read as the list. -/
example (after : Bytes) (r' : Rd) : PackedPoints.read ⟨[2, 0x83, 0x01, 0x2c, 0, 1] ++ after, 0, [0]⟩ ≠ .ok (some [300, 301], r') := by
  intro h
  have := (C38_exact [300, 301] [2, 0x83, 0x01, 0x2c, 0, 1] (by decide) [] after [0] r' h).1
  unfold SmallSteps at this
  simp at this

end FT.Props
