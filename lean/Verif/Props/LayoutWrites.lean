import Verif.Props.GposTable

/-!
C56, C69: which GSUB and GPOS tables are written.
-/

namespace FT.Props
open FT FT.Lay FT.Off

/-- What the offset machinery makes of a graph of tables, in one statement: bytes exactly if every distance fits its field. -/
theorem offsets_iff (t : Tab) : (∃ bs, Off.toBytes t = .ok bs) ↔ ∀ x ∈ allDistances t, x.2.2 ≤ x.1.max := by
  obtain ⟨h1, h2, h3⟩ := C05_outcome t
  constructor
  · rintro ⟨bs, e⟩ x hx
    by_contra hn
    by_cases hp : ∃ x ∈ allDistances t, x.2.1 = true ∧ x.1.max < x.2.2
    · rw [h2 hp] at e; cases e
    · rw [h3 ⟨x, hx, by omega⟩ (fun y hy hy1 => by
        by_contra hlt
        exact hp ⟨y, hy, hy1, by omega⟩)] at e
      cases e
  · exact h1

/-- **C56** (writing). A GSUB table whose contents fit the format has a low-level form, a graph of tables; it is written exactly if
every table in this graph is near enough to its owner for the offset field, in particular if it has at most 65535 bytes
altogether. -/
theorem C56_writes (g : Gsub.GSUB) (h : GsubOk g) :
    ∃ low tab, g.toLow Gsub.Subst.type Gsub.Subst.subs = .ok low ∧ TableLow.tab Gsub.SubX.tab low = .ok tab ∧
      ((∃ bs, Gsub.GSUB.toBytes g = .ok bs) ↔ ∀ x ∈ allDistances tab, x.2.2 ≤ x.1.max) ∧
      (total tab ≤ 65535 → ∃ bs, Gsub.GSUB.toBytes g = .ok bs) := by
  obtain ⟨low, e, hf, hmaj, hmin, _⟩ := table_ok g h 0
  obtain ⟨tab, e2, _⟩ := read_table (Gsub.ruleOf 0) low hf hmaj hmin
  have e3 : Gsub.GSUB.toBytes g = Off.toBytes tab := by
    unfold Gsub.GSUB.toBytes GposGsub.toBytes
    rw [e]
    simp only [Res.ok_bind]
    rw [e2]
    rfl
  refine ⟨low, tab, e, e2, ?_, ?_⟩
  · rw [e3]; exact offsets_iff tab
  · intro ht
    rw [e3]
    exact C05_small_succeeds tab ht

/-- **C69** (writing). The same for GPOS tables. -/
theorem C69_writes (g : Gpos.GPOS) (h : GposOk g) :
    ∃ low tab, g.toLow Gpos.Positioning.type Gpos.Positioning.subs = .ok low ∧ TableLow.tab Gpos.SubX.tab low = .ok tab ∧
      ((∃ bs, Gpos.GPOS.toBytes g = .ok bs) ↔ ∀ x ∈ allDistances tab, x.2.2 ≤ x.1.max) ∧
      (total tab ≤ 65535 → ∃ bs, Gpos.GPOS.toBytes g = .ok bs) := by
  obtain ⟨lows, hall, e, hf⟩ := posTable_ok g h 0
  obtain ⟨tab, e2, _⟩ := read_tableAs (Gpos.ruleOf 0) _ hf rfl rfl
  have e3 : Gpos.GPOS.toBytes g = Off.toBytes tab := by
    unfold Gpos.GPOS.toBytes GposGsub.toBytes
    rw [e]
    simp only [Res.ok_bind]
    rw [e2]
    rfl
  refine ⟨_, tab, e, e2, ?_, ?_⟩
  · rw [e3]; exact offsets_iff tab
  · intro ht
    rw [e3]
    exact C05_small_succeeds tab ht

end FT.Props
