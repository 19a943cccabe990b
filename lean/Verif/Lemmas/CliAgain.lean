import Verif.Lemmas.CliTool

/-! Running a tool on its own output. -/

namespace FT.Cli
open FT FT.Store FT.Save FT.Tables FT.Props

/-! ### Readers that only look forward -/

/-- The result depends only on the bytes from the current position on. -/
def Forward {α : Type} (p : Reader α) : Prop := ∀ (inp inp' : Bytes) (ptr : Nat) (fr : List Nat) (a : α) (r : Rd),
  inp.length = inp'.length → inp.drop ptr = inp'.drop ptr → p ⟨inp, ptr, fr⟩ = .ok (a, r) →
  ∃ q, ptr ≤ q ∧ r = ⟨inp, q, fr⟩ ∧ p ⟨inp', ptr, fr⟩ = .ok (a, ⟨inp', q, fr⟩)

theorem Forward.pure {α : Type} (a : α) : Forward (pure a : Reader α) := by
  intro inp inp' ptr fr a' r _ _ h
  cases h
  exact ⟨ptr, Nat.le_refl _, rfl, rfl⟩

theorem Forward.bind {α β : Type} {p : Reader α} {f : α → Reader β} (hp : Forward p) (hf : ∀ a, Forward (f a)) :
    Forward (p >>= f) := by
  intro inp inp' ptr fr b r hl hd h
  obtain ⟨a, r1, h1, h2⟩ := reader_bind_ok h
  obtain ⟨q, hq, rfl, e1⟩ := hp inp inp' ptr fr a r1 hl hd h1
  have hd' : inp.drop q = inp'.drop q := by
    have := congrArg (List.drop (q - ptr)) hd
    simpa [List.drop_drop, Nat.add_sub_cancel' hq] using this
  obtain ⟨q', hq', rfl, e2⟩ := hf a inp inp' q fr b r hl hd' h2
  refine ⟨q', by omega, rfl, ?_⟩
  rw [Reader.bind_run, e1]
  exact e2

theorem Forward.consume (n : Nat) : Forward (consume n) := by
  intro inp inp' ptr fr a r hl hd h
  unfold FT.consume at h ⊢
  simp only at h ⊢
  split at h
  · cases h
  · next hn =>
    cases h
    refine ⟨ptr + n, by omega, rfl, ?_⟩
    rw [if_neg (by rw [← hl]; exact hn), hd]

theorem Forward.fail {α : Type} : Forward (Reader.fail : Reader α) := by
  intro inp inp' ptr fr a r _ _ h
  cases h

theorem Forward.lift {α : Type} (x : Res α) : Forward (Reader.lift x) := by
  intro inp inp' ptr fr a r _ _ h
  cases x with
  | ok b => cases h; exact ⟨ptr, Nat.le_refl _, rfl, rfl⟩
  | err => cases h
  | panic => cases h

theorem Forward.u16 : Forward readU16 := by
  unfold readU16
  refine (Forward.consume 2).bind fun bs => ?_
  split
  · exact Forward.pure _
  · exact Forward.fail

theorem Forward.u32 : Forward readU32 := by
  unfold readU32
  refine (Forward.consume 4).bind fun bs => ?_
  split
  · exact Forward.pure _
  · exact Forward.fail

theorem Forward.i16 : Forward readI16 := Forward.u16.bind fun _ => Forward.pure _
theorem Forward.i32 : Forward readI32 := Forward.u32.bind fun _ => Forward.pure _
theorem Forward.i64 : Forward readI64 := by
  unfold readI64
  refine (Forward.consume 8).bind fun bs => ?_
  split
  · exact Forward.pure _
  · exact Forward.fail

theorem Forward.fixed : Forward F32.readFixed := Forward.i32.bind fun _ => Forward.pure _

/-- A read of `w` bytes that always succeeds if they are there, and depends on nothing else. -/
def Window {α : Type} (p : Reader α) (w : Nat) : Prop := ∀ (inp inp' : Bytes) (ptr : Nat) (fr : List Nat),
  (inp.drop ptr).take w = (inp'.drop ptr).take w → ptr + w ≤ inp.length → ptr + w ≤ inp'.length →
  ∃ a, p ⟨inp, ptr, fr⟩ = .ok (a, ⟨inp, ptr + w, fr⟩) ∧ p ⟨inp', ptr, fr⟩ = .ok (a, ⟨inp', ptr + w, fr⟩)

theorem Window.map {α β : Type} {p : Reader α} {w : Nat} (h : Window p w) (f : α → β) : Window (p >>= fun a => Pure.pure (f a)) w := by
  intro inp inp' ptr fr e h1 h2
  obtain ⟨a, e1, e2⟩ := h inp inp' ptr fr e h1 h2
  exact ⟨f a, by rw [Reader.bind_run, e1]; rfl, by rw [Reader.bind_run, e2]; rfl⟩

theorem window_consume {inp : Bytes} {ptr n : Nat} {fr : List Nat} (h : ptr + n ≤ inp.length) :
    consume n ⟨inp, ptr, fr⟩ = .ok ((inp.drop ptr).take n, ⟨inp, ptr + n, fr⟩) ∧ ((inp.drop ptr).take n).length = n := by
  unfold consume
  simp only
  rw [if_neg (by omega)]
  exact ⟨rfl, by simp; omega⟩

theorem Window.u16 : Window readU16 2 := by
  intro inp inp' ptr fr e h1 h2
  obtain ⟨e1, l1⟩ := window_consume (fr := fr) h1
  obtain ⟨e2, l2⟩ := window_consume (fr := fr) h2
  rw [← e] at e2
  generalize (inp.drop ptr).take 2 = bs at e1 e2 l1
  match bs, l1 with
  | [a, b], _ => exact ⟨_, by unfold readU16; rw [Reader.bind_run, e1]; rfl, by unfold readU16; rw [Reader.bind_run, e2]; rfl⟩

theorem Window.u32 : Window readU32 4 := by
  intro inp inp' ptr fr e h1 h2
  obtain ⟨e1, l1⟩ := window_consume (fr := fr) h1
  obtain ⟨e2, l2⟩ := window_consume (fr := fr) h2
  rw [← e] at e2
  generalize (inp.drop ptr).take 4 = bs at e1 e2 l1
  match bs, l1 with
  | [a, b, c, d], _ => exact ⟨_, by unfold readU32; rw [Reader.bind_run, e1]; rfl, by unfold readU32; rw [Reader.bind_run, e2]; rfl⟩

theorem Window.fixed : Window F32.readFixed 4 := (Window.u32.map _).map _

theorem take_adjusted {b adj : Bytes} (hl : adj.length = 4) (hb : 12 ≤ b.length) :
    (b.take 8 ++ adj ++ b.drop 12).take 8 = b.take 8 := by
  rw [List.append_assoc, List.take_append_of_le_length (by simp; omega), List.take_take]
  simp

theorem drop_adjusted {b adj : Bytes} (hl : adj.length = 4) (hb : 12 ≤ b.length) :
    (b.take 8 ++ adj ++ b.drop 12).drop 12 = b.drop 12 := by
  have : (b.take 8 ++ adj).length = 12 := by simp [hl]; omega
  rw [← this, List.drop_left, this]

/-- The end of `readHead`, from the magic number on. -/
def headRest (majorVersion minorVersion : UInt16) (fontRevision : ℚ) (checksumAdjustment : UInt32) : Reader Head := do
  let magicNumber ← readU32
  let flags ← readU16
  let unitsPerEm ← readU16
  let created ← readDate
  let modified ← readDate
  let xMin ← readI16
  let yMin ← readI16
  let xMax ← readI16
  let yMax ← readI16
  let macStyle ← readU16
  let lowestRecPPEM ← readU16
  let fontDirectionHint ← readI16
  let indexToLocFormat ← readI16
  let glyphDataFormat ← readI16
  return { majorVersion, minorVersion, fontRevision, checksumAdjustment, magicNumber, flags, unitsPerEm,
           created, modified, xMin, yMin, xMax, yMax, macStyle, lowestRecPPEM, fontDirectionHint,
           indexToLocFormat, glyphDataFormat }

theorem Forward.date : Forward readDate := by
  unfold readDate
  refine Forward.i64.bind fun _ => ?_
  split
  · exact Forward.pure _
  · intro inp inp' ptr fr a r _ _ h
    cases h

theorem Forward.headRest (a b : UInt16) (c : ℚ) (d : UInt32) : Forward (headRest a b c d) := by
  unfold Cli.headRest
  refine Forward.u32.bind fun _ => Forward.u16.bind fun _ => Forward.u16.bind fun _ => Forward.date.bind fun _ =>
    Forward.date.bind fun _ => Forward.i16.bind fun _ => Forward.i16.bind fun _ => Forward.i16.bind fun _ =>
    Forward.i16.bind fun _ => Forward.u16.bind fun _ => Forward.u16.bind fun _ => Forward.i16.bind fun _ =>
    Forward.i16.bind fun _ => Forward.i16.bind fun _ => Forward.pure _

theorem headRest_adjust {a b : UInt16} {c : ℚ} {d : UInt32} {r r' : Rd} {h : Head} (e : headRest a b c d r = .ok (h, r'))
    (d' : UInt32) : headRest a b c d' r = .ok ({ h with checksumAdjustment := d' }, r') := by
  unfold headRest at e ⊢
  iterate 14
    obtain ⟨_, _, e', e⟩ := reader_bind_ok e
    rw [Reader.bind_run, e']
    clear e'
    simp only
  cases e
  rfl

/-- Changing the checksum adjustment changes nothing else. -/
theorem head_adjusted {b b' : Bytes} {h : Head} (hb : sameExceptAdjustment b b') (hh : runAll readHead b = .ok h) :
    ∃ x, runAll readHead b' = .ok { h with checksumAdjustment := x } := by
  have hlong := head_long hh
  obtain ⟨adj, hl, rfl⟩ := hb
  have hlen : (b.take 8 ++ adj ++ b.drop 12).length = b.length := by simp [hl]; omega
  generalize hb' : b.take 8 ++ adj ++ b.drop 12 = b' at hlen
  have htake : b.take 8 = b'.take 8 := by rw [← hb', take_adjusted hl hlong]
  have hdrop : b.drop 12 = b'.drop 12 := by rw [← hb', drop_adjusted hl hlong]
  have hwin : ∀ p w, p + w ≤ 8 → (b.drop p).take w = (b'.drop p).take w := by
    intro p w hpw
    have := congrArg (fun l => (l.drop p).take w) htake
    simpa only [List.drop_take, List.take_take, Nat.min_eq_left (show w ≤ 8 - p by omega)] using this
  obtain ⟨x1, e1, f1⟩ := Window.u16 b b' 0 [0] (hwin 0 2 (by omega)) (by omega) (by omega)
  obtain ⟨x2, e2, f2⟩ := Window.u16 b b' 2 [0] (hwin 2 2 (by omega)) (by omega) (by omega)
  obtain ⟨x3, e3, f3⟩ := Window.fixed b b' 4 [0] (hwin 4 4 (by omega)) (by omega) (by omega)
  obtain ⟨x4, e4, _⟩ := Window.u32 b b 8 [0] rfl (by omega) (by omega)
  obtain ⟨y4, f4, _⟩ := Window.u32 b' b' 8 [0] rfl (by omega) (by omega)
  have hread : ∀ r : Rd, readHead r = (do
      let a ← readU16
      let b ← readU16
      let c ← F32.readFixed
      let d ← readU32
      headRest a b c d : Reader Head) r := fun _ => rfl
  have g : readHead (Rd.new b) = headRest x1 x2 x3 x4 ⟨b, 12, [0]⟩ := by
    rw [hread]
    unfold Rd.new
    rw [Reader.bind_run, e1]; simp only
    rw [Reader.bind_run, e2]; simp only
    rw [Reader.bind_run, e3]; simp only
    rw [Reader.bind_run, e4]
  have g' : readHead (Rd.new b') = headRest x1 x2 x3 y4 ⟨b', 12, [0]⟩ := by
    rw [hread]
    unfold Rd.new
    rw [Reader.bind_run, f1]; simp only
    rw [Reader.bind_run, f2]; simp only
    rw [Reader.bind_run, f3]; simp only
    rw [Reader.bind_run, f4]
  unfold runAll at hh ⊢
  rw [g] at hh
  cases hr : headRest x1 x2 x3 x4 ⟨b, 12, [0]⟩ with
  | err => rw [hr] at hh; cases hh
  | panic => rw [hr] at hh; cases hh
  | ok x =>
    obtain ⟨h0, r0⟩ := x
    rw [hr] at hh
    cases hh
    obtain ⟨q, _, _, e5⟩ := Forward.headRest x1 x2 x3 x4 b b' 12 [0] h r0 hlen.symm hdrop hr
    rw [g', headRest_adjust e5 y4]
    exact ⟨y4, rfl⟩

/-! ### Saving ignores the old checksum adjustment -/

theorem zeroAdjustment_same {b b' : Bytes} (h : sameExceptAdjustment b b') (hl : 12 ≤ b.length) :
    Font.zeroAdjustment b' = Font.zeroAdjustment b := by
  obtain ⟨adj, ha, rfl⟩ := h
  unfold Font.zeroAdjustment
  rw [if_neg (by simp [ha]; omega), if_neg (by omega)]
  rw [take_adjusted ha hl, drop_adjusted ha hl]

theorem build_same : ∀ (l l' : List (Tag × Bytes)) (pos : Nat),
    List.Forall₂ (fun x y => x.1 = y.1 ∧ Font.prepare x.1 x.2 = Font.prepare y.1 y.2) l l' → Font.build pos l' = Font.build pos l
  | [], _, _, .nil => rfl
  | (t, b) :: l, _, pos, .cons (b := (t', b')) ⟨h1, h2⟩ h => by
    simp only at h1 h2
    subst h1
    unfold Font.build
    rw [← h2]
    cases Font.prepare t b with
    | err => rfl
    | panic => rfl
    | ok x =>
      simp only [Res.ok_bind]
      rw [build_same l _ _ h]

theorem toBytes_same {v : UInt32} {l l' : List (Tag × Bytes)}
    (h : List.Forall₂ (fun x y => x.1 = y.1 ∧ Font.prepare x.1 x.2 = Font.prepare y.1 y.2) l l') :
    Font.toBytes v l' = Font.toBytes v l := by
  unfold Font.toBytes
  rw [← h.length_eq]
  simp only [build_same l l' _ h]

/-- The same tables, except for the checksum adjustment. -/
def SameBut (T T' : Tag → Option Bytes) : Prop := (∀ t, t ≠ tagHead → T' t = T t) ∧
  ((T tagHead = none ∧ T' tagHead = none) ∨ ∃ b b', T tagHead = some b ∧ T' tagHead = some b' ∧ sameExceptAdjustment b b')

theorem SameBut.head {T T' : Tag → Option Bytes} (h : SameBut T T') {x : Head} (hx : HeadIs T x) :
    ∃ c, HeadIs T' { x with checksumAdjustment := c } := by
  obtain ⟨b, e, hx⟩ := hx
  rcases h.2 with ⟨h1, _⟩ | ⟨b0, b', h1, h2, h3⟩
  · rw [h1] at e; cases e
  · rw [h1] at e
    cases e
    obtain ⟨c, hc⟩ := head_adjusted h3 hx
    exact ⟨c, b', h2, hc⟩

theorem SameBut.openable {T T' : Tag → Option Bytes} (h : SameBut T T') (ho : Openable T) : Openable T' := by
  refine ⟨?_, ?_⟩
  · rcases ho.1 with h1 | ⟨x, h1⟩
    · rcases h.2 with ⟨_, h2⟩ | ⟨b, b', h2, _⟩
      · exact .inl h2
      · rw [h1] at h2; cases h2
    · obtain ⟨c, hc⟩ := h.head h1
      exact .inr ⟨_, hc⟩
  · rcases ho.2 with h1 | ⟨x, b, l, h1, h2, h3⟩
    · exact .inl (by rw [h.1 _ (by decide)]; exact h1)
    · obtain ⟨c, hc⟩ := h.head h1
      exact .inr ⟨_, b, l, hc, by rw [h.1 _ (by decide)]; exact h2, h3⟩

theorem SameBut.maxp {T T' : Tag → Option Bytes} (h : SameBut T T') {m : Maxp} (hm : MaxpIs T m) : MaxpIs T' m := by
  obtain ⟨b, h1, h2⟩ := hm
  exact ⟨b, by rw [h.1 _ (by decide)]; exact h1, h2⟩

theorem SameBut.none {T T' : Tag → Option Bytes} (h : SameBut T T') (t : Tag) : T' t = none ↔ T t = none := by
  by_cases e : t = tagHead
  · subst e
    rcases h.2 with ⟨h1, h2⟩ | ⟨b, b', h1, h2, _⟩
    · simp [h1, h2]
    · simp [h1, h2]
  · rw [h.1 t e]

/-- The same file again. -/
theorem toBytes_sameBut {v : UInt32} {T T' : Tag → Option Bytes} (h : SameBut T T') (hh : ∀ b, T tagHead = some b → 12 ≤ b.length)
    {l : List (Tag × Bytes)} (hs : BMap.Sorted l) (hl : ∀ t, BMap.get? l t = T t) {out : Bytes} (ho : Font.toBytes v l = .ok out) :
    ∃ l', BMap.Sorted l' ∧ (∀ t, BMap.get? l' t = T' t) ∧ Font.toBytes v l' = .ok out := by
  refine ⟨l.map (fun x => (x.1, (T' x.1).getD [])), ?_, ?_, ?_⟩
  · exact sorted_tags (by simp [List.map_map, Function.comp_def]) hs
  · intro t
    have hs' : BMap.Sorted (l.map (fun x => (x.1, (T' x.1).getD []))) :=
      sorted_tags (by simp [List.map_map, Function.comp_def]) hs
    cases ht : T' t with
    | none =>
      have := (h.none t).mp ht
      rw [← hl t] at this
      exact (get_keys (by simp [List.map_map, Function.comp_def]) t hs).mpr this
    | some b =>
      have hne : T t ≠ Option.none := fun e => by rw [(h.none t).mpr e] at ht; cases ht
      obtain ⟨b0, hb0⟩ := Option.ne_none_iff_exists'.mp hne
      rw [← hl t] at hb0
      refine (BMap.get?_eq_some hs').mpr (List.mem_map.mpr ⟨_, (BMap.get?_eq_some hs).mp hb0, ?_⟩)
      simp [ht]
  · rw [toBytes_same (l := l), ho]
    rw [List.forall₂_map_right_iff, List.forall₂_same]
    rintro ⟨t, b⟩ hx
    have ht : T t = some b := by rw [← hl]; exact (BMap.get?_eq_some hs).mpr hx
    refine ⟨rfl, ?_⟩
    simp only
    by_cases e : t = tagHead
    · subst e
      rcases h.2 with ⟨h1, _⟩ | ⟨b0, b', h1, h2, h3⟩
      · rw [h1] at ht; cases ht
      · rw [h1] at ht
        cases ht
        rw [h2]
        unfold Font.prepare
        rw [if_pos (show tagHead = Font.headTag from rfl), if_pos (show tagHead = Font.headTag from rfl)]
        exact (zeroAdjustment_same h3 (hh _ h1)).symm
    · rw [h.1 t e, ht]
      rfl

end FT.Cli
