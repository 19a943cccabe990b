import Verif.Model.HmtxLoca
import Verif.Lemmas.Reads

namespace FT.Loca
open FT Reader

variable {G : Type}

/-- What one glyph contributes to the glyf table. -/
def chunk (isEmpty : G → Bool) (bytesOf : G → Bytes) (g : G) : Bytes :=
  if isEmpty g then [] else pad4 (bytesOf g)

/-- Start offsets of consecutive chunks. -/
def starts : Nat → List Bytes → List Nat
  | _, [] => []
  | o, c :: cs => o :: starts (o + c.length) cs

theorem pad4_length (bs : Bytes) : (pad4 bs).length % 4 = 0 := by
  simp only [pad4, List.length_append, List.length_replicate]; omega

theorem pad4_length_eq (bs : Bytes) : (pad4 bs).length = (bs.length + 3) / 4 * 4 := by
  simp only [pad4, List.length_append, List.length_replicate]; omega

theorem pad4_append {out bs : Bytes} (h : out.length % 4 = 0) : pad4 (out ++ bs) = out ++ pad4 bs := by
  simp only [pad4, List.length_append, List.append_assoc]
  congr 3
  omega

theorem chunk_length (isEmpty : G → Bool) (bytesOf : G → Bytes) (g : G) :
    (chunk isEmpty bytesOf g).length % 4 = 0 := by
  unfold chunk; split
  · rfl
  · exact pad4_length _

theorem compileLoop_spec (isEmpty : G → Bool) (ser : G → Res Bytes) (bytesOf : G → Bytes) :
    ∀ (gs : List G) (out : Bytes), out.length % 4 = 0 →
    (∀ g ∈ gs, isEmpty g = false → ser g = .ok (bytesOf g)) →
    (compileLoop isEmpty ser gs out = .panic ∧
      4294967295 < (out ++ (gs.map (chunk isEmpty bytesOf)).flatten).length) ∨
    compileLoop isEmpty ser gs out =
      .ok ((starts out.length (gs.map (chunk isEmpty bytesOf))).map UInt32.ofNat,
        out ++ (gs.map (chunk isEmpty bytesOf)).flatten) := by
  intro gs
  induction gs with
  | nil => intro out _ _; right; simp [compileLoop, starts]
  | cons g gs ih =>
    intro out h4 hser
    unfold compileLoop
    by_cases hbig : out.length > 4294967295
    · left
      rw [if_pos hbig]
      exact ⟨rfl, by rw [List.length_append]; omega⟩
    · rw [if_neg hbig]
      have hser' : ∀ g ∈ gs, isEmpty g = false → ser g = .ok (bytesOf g) := fun x hx => hser x (by simp [hx])
      by_cases he : isEmpty g
      · have hc : chunk isEmpty bytesOf g = [] := by simp [chunk, he]
        rw [if_pos he]
        rcases ih out h4 hser' with ⟨h1, h2⟩ | h1
        · left; rw [h1]; simpa [hc] using h2
        · right; rw [h1]; simp [hc, starts]
      · have hc : chunk isEmpty bytesOf g = pad4 (bytesOf g) := by simp [chunk, he]
        rw [if_neg he, hser g (by simp) (by simpa using he)]
        simp only
        rw [pad4_append h4]
        have h4' : (out ++ pad4 (bytesOf g)).length % 4 = 0 := by
          have := pad4_length (bytesOf g)
          rw [List.length_append]; omega
        rcases ih _ h4' hser' with ⟨h1, h2⟩ | h1
        · left; rw [h1]; simpa [hc] using h2
        · right; rw [h1]; simp [hc, starts]

theorem starts_length : ∀ (cs : List Bytes) (o : Nat), (starts o cs).length = cs.length
  | [], _ => rfl
  | c :: cs, o => by simp [starts, starts_length cs]

theorem starts_mod (cs : List Bytes) : ∀ (o : Nat), o % 4 = 0 → (∀ c ∈ cs, c.length % 4 = 0) →
    ∀ x ∈ starts o cs, x % 4 = 0 ∧ o ≤ x ∧ x ≤ o + cs.flatten.length := by
  induction cs with
  | nil => intro o _ _ x hx; simp [starts] at hx
  | cons c cs ih =>
    intro o ho hc x hx
    have h1 := hc c (by simp)
    simp only [starts, List.mem_cons] at hx
    rcases hx with rfl | hx
    · exact ⟨ho, Nat.le_refl _, by omega⟩
    · have := ih (o + c.length) (by omega) (fun y hy => hc y (by simp [hy])) x hx
      simp only [List.flatten_cons, List.length_append]
      omega

/-- The end of the data seen as one more start. -/
def ends (o : Nat) (cs : List Bytes) : List Nat := starts o cs ++ [o + cs.flatten.length]

theorem ends_cons (o : Nat) (c : Bytes) (cs : List Bytes) : ends o (c :: cs) = o :: ends (o + c.length) cs := by
  simp [ends, starts, Nat.add_assoc]

theorem ends_nil (o : Nat) : ends o [] = [o] := by simp [ends, starts]

theorem ends_ne_nil (o : Nat) (cs : List Bytes) : ∃ t, ends o cs = o :: t := by
  cases cs with
  | nil => exact ⟨[], ends_nil o⟩
  | cons c cs => exact ⟨_, ends_cons o c cs⟩

theorem ends_slice : ∀ (cs : List Bytes) (pre : Bytes) (i : Nat) (hi : i < cs.length),
    ∃ a b, (ends pre.length cs)[i]? = some a ∧ (ends pre.length cs)[i + 1]? = some b ∧
      ((pre ++ cs.flatten).drop a).take (b - a) = cs[i]
  | c :: cs, pre, 0, _ => by
    obtain ⟨t, ht⟩ := ends_ne_nil (pre.length + c.length) cs
    refine ⟨pre.length, pre.length + c.length, ?_, ?_, ?_⟩
    · simp [ends_cons]
    · rw [ends_cons, ht]; rfl
    · simp
  | c :: cs, pre, i + 1, hi => by
    obtain ⟨a, b, h1, h2, h3⟩ := ends_slice cs (pre ++ c) i (by simpa using hi)
    rw [List.length_append] at h1 h2
    refine ⟨a, b, ?_, ?_, ?_⟩
    · rw [ends_cons]; simpa using h1
    · rw [ends_cons]; simpa using h2
    · simpa using h3

/-- Reading the raw offsets of a 32-bit loca. -/
theorem readRaw_long (L : List UInt32) : ReadsEnd (readRaw true) (encVec encU32 L) L := by
  unfold readRaw
  exact readsEnd_vec L readU32_failsAtEnd (fun a _ => by simp) (fun a _ => reads_u32 a)

theorem readRaw_short (L : List UInt16) :
    ReadsEnd (readRaw false) (encVec encU16 L) (L.map (fun v => UInt32.ofNat (v.toNat * 2))) := by
  unfold readRaw
  exact ReadsEnd.bindPure (readsEnd_vec L readU16_failsAtEnd (fun a _ => by simp) (fun a _ => reads_u16 a)) rfl

theorem pairs_ends : ∀ (cs : List Bytes) (o : Nat), o + cs.flatten.length ≤ 4294967295 →
    pairs ((ends o cs).map UInt32.ofNat) =
      (starts o cs).zipWith (fun s c => if List.isEmpty c then none else some (UInt32.ofNat s)) cs
  | [], o, _ => by simp [ends_nil, pairs, starts]
  | c :: cs, o, h => by
    simp only [List.flatten_cons, List.length_append] at h
    obtain ⟨t, ht⟩ := ends_ne_nil (o + c.length) cs
    have ih := pairs_ends cs (o + c.length) (by omega)
    rw [ends_cons, ht] at *
    simp only [List.map_cons, pairs, starts, List.zipWith_cons_cons] at ih ⊢
    rw [ih]
    congr 1
    have : (UInt32.ofNat o = UInt32.ofNat (o + c.length)) ↔ c.isEmpty = true := by
      rw [← UInt32.toNat_inj, ofNat32_toNat (by omega), ofNat32_toNat (by omega), List.isEmpty_iff]
      constructor
      · intro h; exact List.length_eq_zero_iff.mp (by omega)
      · rintro rfl; rfl
    by_cases hc : c.isEmpty
    · rw [if_pos (this.mpr hc), if_pos hc]
    · rw [if_neg (fun h => hc (this.mp h)), if_neg hc]

theorem compile_spec (isEmpty : G → Bool) (ser : G → Res Bytes) (bytesOf : G → Bytes) (gs : List G)
    (hser : ∀ g ∈ gs, isEmpty g = false → ser g = .ok (bytesOf g))
    (hfit : (gs.map (chunk isEmpty bytesOf)).flatten.length ≤ 4294967295) :
    let body := (gs.map (chunk isEmpty bytesOf)).flatten
    let out := if body.isEmpty then [0] else body
    ∃ loca, compile isEmpty ser gs = .ok (out, loca, decide (65535 < out.length)) ∧
      loca.length = (gs.length + 1) * (if 65535 < out.length then 4 else 2) ∧
      ReadsEnd (readRaw (decide (65535 < out.length))) loca
        ((ends 0 (gs.map (chunk isEmpty bytesOf))).map UInt32.ofNat) := by
  intro body out
  have hbody4 : ∀ c ∈ gs.map (chunk isEmpty bytesOf), c.length % 4 = 0 := by
    intro c hc
    obtain ⟨g, _, rfl⟩ := List.mem_map.mp hc
    exact chunk_length _ _ _
  have hloop : compileLoop isEmpty ser gs [] =
      .ok ((starts 0 (gs.map (chunk isEmpty bytesOf))).map UInt32.ofNat, body) := by
    rcases compileLoop_spec isEmpty ser bytesOf gs [] rfl hser with ⟨_, h2⟩ | h
    · simp only [List.nil_append] at h2
      omega
    · simpa using h
  have hst := starts_mod (gs.map (chunk isEmpty bytesOf)) 0 rfl hbody4
  have hblen : body.length % 4 = 0 := by
    have : ∀ cs : List Bytes, (∀ c ∈ cs, c.length % 4 = 0) → cs.flatten.length % 4 = 0 := by
      intro cs
      induction cs with
      | nil => intro _; rfl
      | cons c cs ih =>
        intro h
        have h1 := h c (by simp)
        have h2 := ih (fun x hx => h x (by simp [hx]))
        simp only [List.flatten_cons, List.length_append]
        omega
    exact this _ hbody4
  unfold compile
  rw [hloop]
  simp only
  have hol : out.length = body.length ∨ (out.length = 1 ∧ body.length = 0) := by
    by_cases hb : body.isEmpty
    · right
      have : out = [0] := if_pos hb
      rw [this]
      rw [List.isEmpty_iff] at hb
      simp [hb]
    · left
      have : out = body := if_neg hb
      rw [this]
  have hbl : body.length ≤ 4294967295 := hfit
  rw [if_neg (by show ¬ out.length > _; omega)]
  have hfin : (if body.isEmpty then [0] else body) = out := rfl
  rw [hfin]
  by_cases h32 : 65535 < out.length
  · have h32' : decide (out.length > 65535) = true := decide_eq_true h32
    have h32'' : decide (65535 < out.length) = true := decide_eq_true h32
    have hb : out.length = body.length := by omega
    rw [h32', if_pos rfl]
    refine ⟨_, rfl, ?_, ?_⟩
    · rw [encVec_length (k := 4) (fun a => by simp), if_pos h32]
      simp [starts_length]
      omega
    · have := readRaw_long ((starts 0 (gs.map (chunk isEmpty bytesOf))).map UInt32.ofNat ++ [UInt32.ofNat out.length])
      simp only [ends, List.map_append, List.map_cons, List.map_nil, Nat.zero_add]
      have hb' : out.length = (gs.map (chunk isEmpty bytesOf)).flatten.length := hb
      rw [← hb']
      exact this
  · have h32' : decide (out.length > 65535) = false := decide_eq_false h32
    have h32'' : decide (65535 < out.length) = false := decide_eq_false h32
    rw [h32']
    simp only [Bool.false_eq_true, if_false]
    refine ⟨_, rfl, ?_, ?_⟩
    · rw [encVec_length (k := 2) (fun a => by simp), if_neg h32]
      simp [starts_length]
      omega
    · have := readRaw_short ((((starts 0 (gs.map (chunk isEmpty bytesOf))).map UInt32.ofNat ++ [UInt32.ofNat out.length])).map
        (fun x => UInt16.ofNat (x.toNat / 2)))
      have e : List.map (fun v : UInt16 => UInt32.ofNat (v.toNat * 2)) ((((starts 0 (gs.map (chunk isEmpty bytesOf))).map UInt32.ofNat ++ [UInt32.ofNat out.length])).map
        (fun x => UInt16.ofNat (x.toNat / 2))) = (ends 0 (gs.map (chunk isEmpty bytesOf))).map UInt32.ofNat := by
        simp only [ends, List.map_append, List.map_cons, List.map_nil, Nat.zero_add, List.map_map]
        congr 1
        · apply List.map_congr_left
          intro x hx
          have h1 := hst x hx
          have h2 : x ≤ 65535 := by
            have : (gs.map (chunk isEmpty bytesOf)).flatten.length = body.length := rfl
            omega
          simp only [Function.comp_apply]
          rw [ofNat32_toNat (by omega), ofNat16_toNat (by omega)]
          congr 1
          omega
        · congr 1
          rw [ofNat32_toNat (by omega), ofNat16_toNat (by omega)]
          congr 1
          show out.length / 2 * 2 = body.length
          omega
      rw [e] at this
      exact this

theorem readGlyphs_spec (isEmpty : G → Bool) (bytesOf : G → Bytes) (back : G → G) (empty : G) (p : Reader G) :
    ∀ (gs : List G) (pre : Bytes) (ptr : Nat) (stk : List Nat),
    (∀ g ∈ gs, isEmpty g = false → Reads p (bytesOf g) (back g) ∧ bytesOf g ≠ []) →
    (pre ++ (gs.map (chunk isEmpty bytesOf)).flatten).length ≤ 4294967295 →
    ∀ (post : Bytes) (inp : Bytes), inp = pre ++ ((gs.map (chunk isEmpty bytesOf)).flatten ++ post) →
    readGlyphs empty p ((starts pre.length (gs.map (chunk isEmpty bytesOf))).zipWith
        (fun s c => if List.isEmpty c then none else some (UInt32.ofNat s)) (gs.map (chunk isEmpty bytesOf)))
      ⟨inp, ptr, stk⟩ =
      .ok (gs.map (fun g => if isEmpty g then empty else back g), ⟨inp, ptr, stk⟩) := by
  intro gs
  induction gs with
  | nil => intro pre ptr stk _ _ post inp _; rfl
  | cons g gs ih =>
    intro pre ptr stk hr hfit post inp hinp
    have hr' : ∀ g ∈ gs, isEmpty g = false → Reads p (bytesOf g) (back g) ∧ bytesOf g ≠ [] :=
      fun x hx => hr x (by simp [hx])
    simp only [List.map_cons, starts, List.zipWith_cons_cons, List.flatten_cons, List.length_append] at hfit ⊢
    have hih := ih (pre ++ chunk isEmpty bytesOf g) ptr stk hr' (by
      simp only [List.length_append]; omega) post inp (by rw [hinp]; simp)
    rw [List.length_append] at hih
    by_cases he : isEmpty g
    · have hc : chunk isEmpty bytesOf g = [] := by simp [chunk, he]
      rw [hc] at hih
      rw [hc]
      simp only [List.isEmpty_nil, if_true, he]
      unfold readGlyphs
      rw [Reader.bind_run, hih]
      rfl
    · have hc : chunk isEmpty bytesOf g = pad4 (bytesOf g) := by simp [chunk, he]
      obtain ⟨hreads, hne⟩ := hr g (by simp) (by simpa using he)
      have hcne : (chunk isEmpty bytesOf g).isEmpty = false := by
        rw [hc, pad4]
        cases hb : bytesOf g with
        | nil => exact absurd hb hne
        | cons => rfl
      have hinp2 : inp = pre ++ bytesOf g ++ (List.replicate ((4 - (bytesOf g).length % 4) % 4) 0 ++
          ((gs.map (chunk isEmpty bytesOf)).flatten ++ post)) := by
        rw [hinp]
        simp [hc, pad4, List.append_assoc]
      rw [hcne]
      simp only [Bool.false_eq_true, if_false, he]
      unfold readGlyphs
      rw [Reader.bind_run]
      simp only [getPtr]
      rw [Reader.bind_run]
      have hset : ∀ n, setPtr n ⟨inp, ptr, stk⟩ = .ok ((), ⟨inp, n, stk⟩) := fun _ => rfl
      rw [hset]
      simp only
      rw [Reader.bind_run, ofNat32_toNat (by omega)]
      have hrd := hreads pre (List.replicate ((4 - (bytesOf g).length % 4) % 4) 0 ++
          ((gs.map (chunk isEmpty bytesOf)).flatten ++ post)) stk
      rw [← hinp2] at hrd
      rw [hrd]
      simp only
      rw [Reader.bind_run]
      simp only [setPtr]
      rw [Reader.bind_run, hih]
      rfl

end FT.Loca
