import Verif.Props.ObstHeuristic

/-!
# C172: the obstacle heuristic as a distance
-/

namespace PathPlanning
open Spec ObstHeuristic

namespace ObstHeuristic

private theorem move_mono {m m' : GridMap} (hr : m.rows = m'.rows) (hc : m.columns = m'.columns)
    (hocc : ∀ c, m.occ c = true → m'.occ c = true) {u v : Cell} (h : Move m' u v) : Move m u v := by
  obtain ⟨⟨h1, h2⟩, h3, h4⟩ := h
  refine ⟨⟨?_, ?_⟩, h3, fun e1 e2 ⟨b1, b2⟩ => h4 e1 e2 ⟨hocc _ b1, hocc _ b2⟩⟩
  · unfold Inside at h1 ⊢; rw [hr, hc]; exact h1
  · cases h : m.occ v
    · rfl
    · rw [hocc v h] at h2; cases h2

private theorem walk_mono {m m' : GridMap} (hr : m.rows = m'.rows) (hc : m.columns = m'.columns)
    (hocc : ∀ c, m.occ c = true → m'.occ c = true) {a b : Cell} {l : List Cell} (h : Walk m' a l b) : Walk m a l b := by
  induction h with
  | stop a => exact .stop a
  | move hm _ ih => exact .move (move_mono hr hc hocc hm) ih

section
variable {K : Type} [Field K] [LinearOrder K] [IsStrictOrderedRing K]

/-- C172, partial. Of two maps of the same size, the second with at least the obstacles of the first: every cell with a value
in the second table has a value in the first one, which is at most `diag` (√2) times as large. Missing: that it is no
larger (`C172_more_obstacles_lower`). -/
theorem C172_more_obstacles_partial (m m' : GridMap) (hr : m.rows = m'.rows) (hc : m.columns = m'.columns)
    (hocc : ∀ c, m.occ c = true → m'.occ c = true) (diag : K) (h1d : 1 ≤ diag) (goal : Cell) (hg : Inside m goal) :
    ∃ t t', update m diag goal = some t ∧ update m' diag goal = some t' ∧ ∀ c, t'.explored c = true →
      t.explored c = true ∧ ∃ x x' : K, t.cost c = x ∧ t'.cost c = x' ∧ x ≤ diag * x' := by
  have hg' : Inside m' goal := by unfold Inside at hg ⊢; rw [← hr, ← hc]; exact hg
  obtain ⟨t, h1, h2, -⟩ := C54_update m diag zero_le_one h1d goal hg
  obtain ⟨u, h1', h3⟩ := C55_at_most_diag_times_the_shortest_partial m diag h1d goal hg
  obtain ⟨t', g1, g2⟩ := C55_at_most_diag_times_the_shortest_partial m' diag h1d goal hg'
  rw [h1] at h1'
  cases h1'
  refine ⟨t, t', h1, g1, fun c hc' => ?_⟩
  obtain ⟨x', e', ⟨l, hl, hx'⟩, -⟩ := g2 c hc'
  have hw := walk_mono hr hc hocc hl
  have he := (h2 c).2 ⟨_, hw⟩
  obtain ⟨x, e, -, hopt⟩ := h3 c he
  exact ⟨he, x, x', e, e', by rw [← hx']; exact hopt _ hw⟩

/-- C172, partial. Between two free cells there is a value in one direction exactly if there is one in the other, and neither
exceeds `diag` (√2) times the other. Missing: that they are equal (`C172_not_symmetric`). -/
theorem C172_symmetric_partial (m : GridMap) (diag : K) (h1d : 1 ≤ diag) (a b : Cell) (ha : Free m a) (hb : Free m b) :
    ∃ t t', update m diag a = some t ∧ update m diag b = some t' ∧ (t.explored b = t'.explored a) ∧
      (t.explored b = true → ∃ x x' : K, t.cost b = x ∧ t'.cost a = x' ∧ x ≤ diag * x' ∧ x' ≤ diag * x) := by
  have hsym : ∀ a b, moveLength diag a b = moveLength diag b a := by
    intro a b; unfold moveLength; simp only [ne_comm]
  obtain ⟨t, h1, h2, -⟩ := C54_update m diag zero_le_one h1d a ha.1
  obtain ⟨u, h1', h3⟩ := C55_at_most_diag_times_the_shortest_partial m diag h1d a ha.1
  obtain ⟨t', g1, g2, -⟩ := C54_update m diag zero_le_one h1d b hb.1
  obtain ⟨u', g1', g3⟩ := C55_at_most_diag_times_the_shortest_partial m diag h1d b hb.1
  rw [h1] at h1'
  cases h1'
  rw [g1] at g1'
  cases g1'
  have he : t.explored b = true ↔ t'.explored a = true := by
    rw [h2, g2]
    exact ⟨fun ⟨l, hl⟩ => ⟨_, (hl.reverse (moveLength diag) hsym ha).1⟩,
      fun ⟨l, hl⟩ => ⟨_, (hl.reverse (moveLength diag) hsym hb).1⟩⟩
  refine ⟨t, t', h1, g1, Bool.eq_iff_iff.2 he, fun h => ?_⟩
  obtain ⟨x, e, ⟨l, hl, hx⟩, hopt⟩ := h3 b h
  obtain ⟨x', e', ⟨l', hl', hx'⟩, hopt'⟩ := g3 a (he.1 h)
  obtain ⟨r1, r2⟩ := hl.reverse (moveLength diag) hsym ha
  obtain ⟨r1', r2'⟩ := hl'.reverse (moveLength diag) hsym hb
  refine ⟨x, x', e, e', ?_, ?_⟩
  · have := hopt _ r1'
    rwa [r2', hx'] at this
  · have := hopt' _ r1
    rwa [r2, hx] at this

end

/-! ## Violations -/

/-- The value of `sqrt(2.0f)`. -/
private def exDiag : ℚ := 11863283 / 8388608

private theorem value {m : GridMap} {diag : ℚ} {n : Nat} {goal c : Cell} {x : ℚ} (hv : goal.isValid = true)
    (h : (fuelLoop m diag n (start goal)).map (fun s => s.tables.cost c) = some ((x : ℚ) : WithTop ℚ)) :
    ∃ t, update m diag goal = some t ∧ t.cost c = ((x : ℚ) : WithTop ℚ) := by
  cases hf : fuelLoop m diag n (start goal) with
  | none => rw [hf] at h; cases h
  | some s =>
    rw [hf] at h
    refine ⟨s.tables, ?_, Option.some.inj h⟩
    unfold update
    rw [loop_of_fuel hf, hv]
    rfl

/-- C172, violated: with one more obstacle the value of a cell is lower, 4 + √2 instead of 4 √2. -/
theorem C172_more_obstacles_lower : ∃ (m m' : GridMap) (diag : ℚ) (goal c : Cell) (t t' : HeurTables ℚ),
    m.rows = m'.rows ∧ m.columns = m'.columns ∧ (∀ c, m.occ c = true → m'.occ c = true) ∧ Free m' goal ∧
    diag = 11863283 / 8388608 ∧ update m diag goal = some t ∧ update m' diag goal = some t' ∧
    t.cost c = ((4 * diag : ℚ) : WithTop ℚ) ∧ t'.cost c = ((4 + diag : ℚ) : WithTop ℚ) ∧ 4 + diag < 4 * diag := by
  let m : GridMap := ⟨4, 5, fun c => decide (c = ⟨1, 1⟩) || decide (c = ⟨2, 1⟩)⟩
  let m' : GridMap := ⟨4, 5, fun c => decide (c = ⟨1, 1⟩) || decide (c = ⟨2, 1⟩) || decide (c = ⟨3, 1⟩)⟩
  obtain ⟨t, h1, h2⟩ := value (m := m) (diag := exDiag) (n := 21)
    (goal := ⟨0, 4⟩) (c := ⟨2, 0⟩) (x := 4 * exDiag) rfl (by decide +kernel)
  obtain ⟨t', h1', h2'⟩ := value (m := m')
    (diag := exDiag) (n := 21) (goal := ⟨0, 4⟩) (c := ⟨2, 0⟩) (x := 4 + exDiag) rfl (by decide +kernel)
  refine ⟨m, m', exDiag, _, _, t, t', rfl, rfl, fun c h => ?_, ?_, rfl, h1, h1', h2, h2', by norm_num [exDiag]⟩
  · exact (Bool.or_eq_true _ _).mpr (Or.inl h)
  · unfold Free Inside; decide

/-- C172, violated: the value from one cell to another differs from the value back. -/
theorem C172_not_symmetric : ∃ (m : GridMap) (diag : ℚ) (a b : Cell) (t t' : HeurTables ℚ) (x x' : ℚ),
    Free m a ∧ Free m b ∧ diag = 11863283 / 8388608 ∧ update m diag a = some t ∧ update m diag b = some t' ∧
    t.cost b = (x : WithTop ℚ) ∧ t'.cost a = (x' : WithTop ℚ) ∧ x < x' := by
  let m : GridMap := ⟨5, 5, fun c => decide (c = ⟨3, 1⟩) || decide (c = ⟨2, 3⟩) || decide (c = ⟨3, 3⟩) || decide (c = ⟨1, 3⟩)⟩
  obtain ⟨t, h1, h2⟩ := value (m := m) (diag := exDiag) (n := 26) (goal := ⟨1, 4⟩) (c := ⟨4, 0⟩) (x := 5 + exDiag) rfl
    (by decide +kernel)
  obtain ⟨t', h1', h2'⟩ := value (m := m) (diag := exDiag) (n := 26) (goal := ⟨4, 0⟩) (c := ⟨1, 4⟩) (x := 1 + 4 * exDiag) rfl
    (by decide +kernel)
  refine ⟨m, exDiag, _, _, t, t', _, _, ?_, ?_, rfl, h1, h1', h2, h2', by norm_num [exDiag]⟩
  · unfold Free Inside; decide
  · unfold Free Inside; decide

/-- Non-vacuity of the partial theorems: a map with an obstacle, one with two, and two free cells. -/
example : let m : GridMap := ⟨4, 5, fun c => decide (c = ⟨1, 1⟩)⟩
    let m' : GridMap := ⟨4, 5, fun c => decide (c = ⟨1, 1⟩) || decide (c = ⟨2, 1⟩)⟩
    (∀ c, m.occ c = true → m'.occ c = true) ∧ 1 ≤ exDiag ∧ Free m' ⟨0, 4⟩ ∧ Free m' ⟨2, 0⟩ := by
  refine ⟨fun c h => ?_, (by norm_num [exDiag]), ?_, ?_⟩
  · dsimp only at h ⊢; rw [h]; rfl
  · unfold Free Inside; decide
  · unfold Free Inside; decide

end ObstHeuristic
end PathPlanning
