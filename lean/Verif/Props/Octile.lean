import Verif.Props.Grid
import Verif.Props.BiGrid
import Verif.Props.ObstHeuristic
import Mathlib.Tactic.Linarith
import Mathlib.Tactic.Ring

/-!
# C182: the octile distance

With steps of length 1 and diagonal steps of length `diag`, between 1 and 2, the shortest way between two cells with no
obstacle between them has the octile distance as its length: as many diagonal steps as possible, then straight ones.
-/

namespace PathPlanning
open Spec AStar ObstHeuristic

namespace Spec

/-- The octile distance of two cells: diagonal steps for the smaller of the differences of rows and columns, straight
steps for the rest. -/
def octile {K : Type} [Ring K] (diag : K) (a b : Cell) : K :=
  diag * (min |a.row - b.row| |a.col - b.col| : Int) +
    (max |a.row - b.row| |a.col - b.col| - min |a.row - b.row| |a.col - b.col| : Int)

/-- The cells of the rectangle spanned by `a` and `b` are free. -/
def ClearBetween (m : GridMap) (a b : Cell) : Prop :=
  ∀ c : Cell, min a.row b.row ≤ c.row → c.row ≤ max a.row b.row → min a.col b.col ≤ c.col → c.col ≤ max a.col b.col → Free m c

end Spec

variable {K : Type} [Field K] [LinearOrder K] [IsStrictOrderedRing K]

private theorem octile_eq {diag : K} (h2 : diag ≤ 2) (a b : Cell) :
    octile diag a b = max (|(a.row : K) - b.row| + (diag - 1) * |(a.col : K) - b.col|)
      (|(a.col : K) - b.col| + (diag - 1) * |(a.row : K) - b.row|) := by
  unfold octile
  obtain ⟨x, hx⟩ : ∃ x, x = |a.row - b.row| := ⟨_, rfl⟩
  obtain ⟨y, hy⟩ : ∃ y, y = |a.col - b.col| := ⟨_, rfl⟩
  have hx' : |(a.row : K) - b.row| = (x : K) := by rw [hx]; push_cast; rfl
  have hy' : |(a.col : K) - b.col| = (y : K) := by rw [hy]; push_cast; rfl
  rw [hx', hy', ← hx, ← hy]
  rcases le_total x y with h | h
  · have hk : (x : K) ≤ y := by exact_mod_cast h
    rw [min_eq_left h, max_eq_right h, max_eq_right]
    · push_cast; ring
    · nlinarith
  · have hk : (y : K) ≤ x := by exact_mod_cast h
    rw [min_eq_right h, max_eq_left h, max_eq_left]
    · push_cast; ring
    · nlinarith

private theorem octile_triangle {diag : K} (h1 : 1 ≤ diag) (h2 : diag ≤ 2) (a b c : Cell) :
    octile diag a c ≤ octile diag a b + octile diag b c := by
  rw [octile_eq h2, octile_eq h2, octile_eq h2]
  have r := abs_sub_le (a.row : K) b.row c.row
  have k := abs_sub_le (a.col : K) b.col c.col
  have r' := mul_le_mul_of_nonneg_left r (sub_nonneg.2 h1)
  have k' := mul_le_mul_of_nonneg_left k (sub_nonneg.2 h1)
  refine max_le ?_ ?_
  · refine le_trans ?_ (add_le_add (le_max_left _ _) (le_max_left _ _))
    linarith
  · refine le_trans ?_ (add_le_add (le_max_right _ _) (le_max_right _ _))
    linarith

omit [LinearOrder K] [IsStrictOrderedRing K] in
private theorem octile_step {diag : K} {a b : Cell} (h : chebyshev a b = 1) :
    octile diag a b = moveLength diag a b := by
  unfold octile moveLength
  rw [chebyshev_eq_one] at h
  split
  · rename_i hd
    have e1 : |a.row - b.row| = 1 := by
      rcases abs_cases (a.row - b.row) with ⟨e, _⟩ | ⟨e, _⟩ <;> omega
    have e2 : |a.col - b.col| = 1 := by
      rcases abs_cases (a.col - b.col) with ⟨e, _⟩ | ⟨e, _⟩ <;> omega
    simp [e1, e2]
  · rename_i hd
    have : (|a.row - b.row| = 1 ∧ |a.col - b.col| = 0) ∨ (|a.row - b.row| = 0 ∧ |a.col - b.col| = 1) := by
      rcases abs_cases (a.row - b.row) with ⟨e, _⟩ | ⟨e, _⟩ <;>
      rcases abs_cases (a.col - b.col) with ⟨e', _⟩ | ⟨e', _⟩ <;> omega
    rcases this with ⟨e1, e2⟩ | ⟨e1, e2⟩ <;> simp [e1, e2]

/-- C182. No walk of legal moves is shorter than the octile distance. -/
theorem C182_walk_at_least_octile (m : GridMap) (diag : K) (h1 : 1 ≤ diag) (h2 : diag ≤ 2) {a b : Cell} {l : List Cell}
    (h : Walk m a l b) : octile diag a b ≤ walkCost (moveLength diag) l := by
  induction h with
  | stop a => simp [octile, walkCost]
  | @move x y z l hm hw ih =>
    have e : walkCost (moveLength diag) (x :: l) = moveLength diag x y + walkCost (moveLength diag) l := by
      cases hw <;> rfl
    rw [e, ← octile_step hm.2.1]
    have := octile_triangle h1 h2 x y z
    linarith

private theorem towards {a b r : Int} (h : (a < b ∧ r = a + 1) ∨ (a = b ∧ r = a) ∨ (b < a ∧ r = a - 1)) :
    (1 ≤ |a - b| ∧ |r - b| = |a - b| - 1 ∧ a ≠ r) ∨ (|a - b| = 0 ∧ |r - b| = 0 ∧ a = r) := by
  rcases abs_cases (a - b) with ⟨e, _⟩ | ⟨e, _⟩ <;> rcases abs_cases (r - b) with ⟨e', _⟩ | ⟨e', _⟩ <;> omega

private theorem walk_between (m : GridMap) (diag : K) : ∀ (n : Nat) (a b : Cell), chebyshev a b = n → ClearBetween m a b →
    ∃ l, Walk m a l b ∧ walkCost (moveLength diag) l = octile diag a b := by
  intro n
  induction n with
  | zero =>
    intro a b hn _
    have : a = b := by
      unfold chebyshev at hn
      have h1 : |a.row - b.row| ≤ 0 := by rw [← Nat.cast_zero (R := Int), ← hn]; exact le_max_left _ _
      have h2 : |a.col - b.col| ≤ 0 := by rw [← Nat.cast_zero (R := Int), ← hn]; exact le_max_right _ _
      have e1 := abs_nonpos_iff.1 h1
      have e2 := abs_nonpos_iff.1 h2
      cases a; cases b
      simp only [Cell.mk.injEq]
      simp only at e1 e2
      omega
    subst this
    exact ⟨[a], .stop a, by simp [walkCost, octile]⟩
  | succ n ih =>
    intro a b hn hc
    obtain ⟨r, hr⟩ : ∃ r : Int, (a.row < b.row ∧ r = a.row + 1) ∨ (a.row = b.row ∧ r = a.row) ∨ (b.row < a.row ∧ r = a.row - 1) := by
      rcases lt_trichotomy a.row b.row with h | h | h
      · exact ⟨_, .inl ⟨h, rfl⟩⟩
      · exact ⟨_, .inr (.inl ⟨h, rfl⟩)⟩
      · exact ⟨_, .inr (.inr ⟨h, rfl⟩)⟩
    obtain ⟨k, hk⟩ : ∃ r : Int, (a.col < b.col ∧ r = a.col + 1) ∨ (a.col = b.col ∧ r = a.col) ∨ (b.col < a.col ∧ r = a.col - 1) := by
      rcases lt_trichotomy a.col b.col with h | h | h
      · exact ⟨_, .inl ⟨h, rfl⟩⟩
      · exact ⟨_, .inr (.inl ⟨h, rfl⟩)⟩
      · exact ⟨_, .inr (.inr ⟨h, rfl⟩)⟩
    unfold chebyshev at hn
    have hx := towards hr
    have hy := towards hk
    obtain ⟨x, ex⟩ : ∃ x, x = |a.row - b.row| := ⟨_, rfl⟩
    obtain ⟨y, ey⟩ : ∃ y, y = |a.col - b.col| := ⟨_, rfl⟩
    obtain ⟨x', ex'⟩ : ∃ x, x = |r - b.row| := ⟨_, rfl⟩
    obtain ⟨y', ey'⟩ : ∃ y, y = |k - b.col| := ⟨_, rfl⟩
    rw [← ex, ← ey] at hn
    rw [← ex, ← ex'] at hx
    rw [← ey, ← ey'] at hy
    have hcell : ∀ c : Cell, (c.row = a.row ∨ c.row = r) → (c.col = a.col ∨ c.col = k) → Free m c := by
      intro c h1 h2
      refine hc c ?_ ?_ ?_ ?_ <;> omega
    have hmove : Move m a ⟨r, k⟩ := by
      refine ⟨hcell _ (.inr rfl) (.inr rfl), ?_, ?_⟩
      · rw [chebyshev_eq_one]
        dsimp only
        omega
      · intro _ _ h
        rw [(hcell ⟨r, a.col⟩ (.inr rfl) (.inl rfl)).2] at h
        cases h.1
    have hrec : chebyshev ⟨r, k⟩ b = n := by
      unfold chebyshev
      dsimp only
      rw [← ex', ← ey']
      clear hr hk hcell hmove
      omega
    obtain ⟨l, hw, hl⟩ := ih ⟨r, k⟩ b hrec (by
      intro c h1 h2 h3 h4
      dsimp only at h1 h2 h3 h4
      refine hc c ?_ ?_ ?_ ?_ <;> omega)
    refine ⟨a :: l, .move hmove hw, ?_⟩
    have e : walkCost (moveLength diag) (a :: l) = moveLength diag a ⟨r, k⟩ + walkCost (moveLength diag) l := by
      cases hw <;> rfl
    rw [e, hl]
    unfold moveLength octile
    dsimp only
    rw [← ex, ← ey, ← ex', ← ey']
    clear hr hk hcell hmove hrec
    split
    · have e1 : (min x' y' : Int) = min x y - 1 := by omega
      have e2 : (max x' y' : Int) = max x y - 1 := by omega
      rw [e1, e2]
      push_cast
      ring
    · have e1 : (min x' y' : Int) = 0 := by omega
      have e3 : (min x y : Int) = 0 := by omega
      have e2 : (max x' y' : Int) = max x y - 1 := by omega
      rw [e1, e2, e3]
      push_cast
      ring

/-- C182. If the rectangle between two cells is free, there is a walk whose length is the octile distance. -/
theorem C182_walk_of_octile_length (m : GridMap) (diag : K) (a b : Cell) (h : ClearBetween m a b) :
    ∃ l, Walk m a l b ∧ walkCost (moveLength diag) l = octile diag a b := by
  refine walk_between m diag (chebyshev a b).toNat a b ?_ h
  have : 0 ≤ chebyshev a b := le_trans (abs_nonneg _) (le_max_left _ _)
  omega

/-- C182. The cost that the grid planner reports is at least the octile distance, for any heuristic. -/
theorem C182_planner_at_least_octile (m : GridMap) (diag : K) (h1 : 1 ≤ diag) (h2 : diag ≤ 2) (heur : Cell → Cell → K)
    (init goal : Cell) (hi : Inside m init) {fuel : Nat} {s : Search Cell Unit K}
    (h : AStar.searchPath (N2.problem m (moveLength diag) heur goal) true fuel init = some (.success, s)) :
    ∃ c, AStar.getOptimalCost s = some c ∧ octile diag init goal ≤ c := by
  obtain ⟨⟨cells, -, hw, hc⟩, -⟩ := C20_grid_success_is_free_path m (moveLength diag) heur init goal hi h
  exact ⟨_, hc, C182_walk_at_least_octile m diag h1 h2 hw⟩

/-- C182. If the rectangle between the start and the goal is free, the grid planner succeeds after at most one iteration
per cell of the map plus one and, with a consistent heuristic, reports the octile distance. -/
theorem C182_planner (m : GridMap) (diag : K) (h1 : 1 ≤ diag) (h2 : diag ≤ 2) (heur : Cell → Cell → K) (init goal : Cell)
    (hcon : ∀ u v, Inside m u → Move m u v → heur u goal ≤ moveLength diag u v + heur v goal)
    (hc : ClearBetween m init goal) :
    ∃ s, AStar.searchPath (N2.problem m (moveLength diag) heur goal) true (m.rows.toNat * m.columns.toNat + 1) init =
        some (.success, s) ∧ AStar.getOptimalCost s = some (octile diag init goal) := by
  have hi : Free m init := hc init (min_le_left _ _) (le_max_left _ _) (min_le_left _ _) (le_max_left _ _)
  obtain ⟨l, hw, hl⟩ := C182_walk_of_octile_length m diag init goal hc
  obtain ⟨⟨st, s⟩, hs⟩ := Option.isSome_iff_exists.1 (C20_grid_search_terminates m (moveLength diag) heur init goal hi.1)
  cases st with
  | failure => exact absurd ⟨l, hw⟩ (C20_grid_failure_no_path m _ heur init goal hi.1 hs).1
  | success =>
    refine ⟨s, hs, ?_⟩
    obtain ⟨⟨cells, g1, g2, g3⟩, -⟩ := C20_grid_success_is_free_path m _ heur init goal hi.1 hs
    obtain ⟨cells', k1, -, k3⟩ := C20_grid_optimal m _ heur init goal hi.1 hcon hs
    rw [g1] at k1
    cases k1
    rw [g3, ← hl]
    refine congrArg some (le_antisymm (k3 l hw) ?_)
    rw [hl]
    exact C182_walk_at_least_octile m diag h1 h2 g2

/-- C182. The octile distance itself is a consistent heuristic, so it can be used as the heuristic above. -/
theorem C182_octile_is_consistent (m : GridMap) (diag : K) (h1 : 1 ≤ diag) (h2 : diag ≤ 2) (goal u v : Cell)
    (h : Move m u v) : octile diag u goal ≤ moveLength diag u v + octile diag v goal := by
  rw [← octile_step h.2.1]
  exact octile_triangle h1 h2 u v goal

omit [LinearOrder K] [IsStrictOrderedRing K] in
private theorem octile_comm (diag : K) (a b : Cell) : octile diag a b = octile diag b a := by
  unfold octile
  rw [abs_sub_comm a.row, abs_sub_comm a.col]

omit [LinearOrder K] [IsStrictOrderedRing K] in
private theorem moveLength_comm (diag : K) (a b : Cell) : moveLength diag b a = moveLength diag a b := by
  unfold moveLength
  by_cases h1 : a.row = b.row <;> by_cases h2 : a.col = b.col <;> simp [h1, h2, eq_comm]

private theorem octile_nonneg {diag : K} (h1 : 1 ≤ diag) (a b : Cell) : 0 ≤ octile diag a b := by
  unfold octile
  have hx := abs_nonneg (a.row - b.row)
  have hy := abs_nonneg (a.col - b.col)
  have e1 : (0 : Int) ≤ min |a.row - b.row| |a.col - b.col| := le_min hx hy
  have e2 : (0 : Int) ≤ max |a.row - b.row| |a.col - b.col| - min |a.row - b.row| |a.col - b.col| :=
    sub_nonneg.2 min_le_max
  exact add_nonneg (mul_nonneg (zero_le_one.trans h1) (by exact_mod_cast e1)) (by exact_mod_cast e2)

/-- C182. If the rectangle between the start and the goal is free, the bidirectional grid planner succeeds too, for
non-negative consistent heuristics. The cost it reports is at least the octile distance, and with the heuristic of the
goal in the reverse search at most twice the octile distance. -/
theorem C182_bidirectional (m : GridMap) (diag : K) (h1 : 1 ≤ diag) (h2 : diag ≤ 2) (hf hr : Cell → K) (init goal : Cell)
    (h0f : ∀ c, 0 ≤ hf c) (h0r : ∀ c, 0 ≤ hr c) (hz : hr init = 0)
    (hcf : ∀ u v, Inside m u → Move m u v → hf u ≤ moveLength diag u v + hf v)
    (hcr : ∀ u v, Inside m u → Move m u v → hr u ≤ moveLength diag u v + hr v)
    (hc : ClearBetween m init goal) :
    ∃ s c, Bi.searchPath (N2.biProblem m (moveLength diag) (moveLength diag) hf hr) true
        (m.rows.toNat * m.columns.toNat + 1) init goal = some (.success, s) ∧ Bi.getOptimalCost s = some c ∧
      octile diag init goal ≤ c ∧ c + hr goal ≤ 2 * octile diag init goal := by
  have hi : Free m init := hc init (min_le_left _ _) (le_max_left _ _) (min_le_left _ _) (le_max_left _ _)
  have hg : Free m goal := hc goal (min_le_right _ _) (le_max_right _ _) (min_le_right _ _) (le_max_right _ _)
  obtain ⟨l, hw, hl⟩ := C182_walk_of_octile_length m diag init goal hc
  obtain ⟨⟨st, s⟩, hs⟩ := Option.isSome_iff_exists.1
    (C101_terminates m (moveLength diag) (moveLength diag) hf hr init goal hi.1)
  cases st with
  | failure =>
    exact absurd ⟨l, hw⟩ (C101_failure_no_path_partial m _ _ hf hr (moveLength_comm diag) init goal hi hg hs)
  | success =>
    obtain ⟨pre, x, post, -, g2, g3⟩ :=
      C101_success_is_free_path_partial m _ _ hf hr (moveLength_comm diag) init goal hi hg hs
    obtain ⟨c, k1, k2⟩ :=
      C101_cost_bound_partial m _ _ hf hr (moveLength_comm diag) init goal hi hg h0f h0r hz hcf hcr hs
    refine ⟨s, c, hs, k1, ?_, ?_⟩
    · rw [k1] at g3
      rw [Option.some.inj g3]
      exact C182_walk_at_least_octile m diag h1 h2 g2
    · have := k2 l hw
      rw [hl] at this
      linarith

/-- C182. With the octile distances to the goal and to the start as heuristics, the bidirectional grid planner reports the
octile distance as well: there it is optimal, although it is not in general (`C16_bidirectional_not_optimal`). -/
theorem C182_bidirectional_octile (m : GridMap) (diag : K) (h1 : 1 ≤ diag) (h2 : diag ≤ 2) (init goal : Cell)
    (hc : ClearBetween m init goal) :
    ∃ s, Bi.searchPath (N2.biProblem m (moveLength diag) (moveLength diag) (fun c => octile diag c goal)
        (fun c => octile diag c init)) true (m.rows.toNat * m.columns.toNat + 1) init goal = some (.success, s) ∧
      Bi.getOptimalCost s = some (octile diag init goal) := by
  obtain ⟨s, c, k1, k2, k3, k4⟩ := C182_bidirectional m diag h1 h2 (fun c => octile diag c goal)
    (fun c => octile diag c init) init goal (fun c => octile_nonneg h1 c goal) (fun c => octile_nonneg h1 c init)
    (by simp [octile]) (fun u v _ h => C182_octile_is_consistent m diag h1 h2 goal u v h)
    (fun u v _ h => C182_octile_is_consistent m diag h1 h2 init u v h) hc
  refine ⟨s, k1, ?_⟩
  rw [k2]
  rw [octile_comm diag goal init] at k4
  exact congrArg some (le_antisymm (by linarith) k3)

/-- C182. The table of the obstacle heuristic: every known cost, in cells, is at least the octile distance to the goal;
if the rectangle in between is free, the cost is known and at most `diag` times the octile distance. -/
theorem C182_obstacle_heuristic (m : GridMap) (diag : K) (h1 : 1 ≤ diag) (h2 : diag ≤ 2) (goal : Cell) (hg : Inside m goal) :
    ∃ t, ObstHeuristic.update m diag goal = some t ∧
      (∀ (c : Cell) (x : K), t.cost c = x → octile diag goal c ≤ x) ∧
      ∀ c, ClearBetween m goal c → ∃ x : K, t.cost c = x ∧ x ≤ diag * octile diag goal c := by
  obtain ⟨t, k1, k2, k3, k4, -⟩ := C54_update m diag zero_le_one h1 goal hg
  obtain ⟨t', j1, j2⟩ := C55_at_most_diag_times_the_shortest_partial m diag h1 goal hg
  rw [k1] at j1
  cases j1
  refine ⟨t, k1, ?_, ?_⟩
  · intro c x hx
    cases he : t.explored c with
    | false => rw [k4 c he] at hx; cases hx
    | true =>
      obtain ⟨y, l, hy, hw, hl⟩ := k3 c he
      rw [hx] at hy
      cases hy
      rw [← hl]
      exact C182_walk_at_least_octile m diag h1 h2 hw
  · intro c hc
    obtain ⟨l, hw, hl⟩ := C182_walk_of_octile_length m diag goal c hc
    obtain ⟨x, hx, -, hle⟩ := j2 c ((k2 c).2 ⟨l, hw⟩)
    refine ⟨x, hx, ?_⟩
    rw [← hl]
    exact hle l hw

/-- A case: from the corner of a 4 × 5 map, two diagonal steps and two straight ones; a cell outside the rectangle is
blocked. -/
private theorem ex_clear : ClearBetween ⟨4, 5, fun c => decide (c = ⟨3, 0⟩)⟩ ⟨0, 0⟩ ⟨2, 4⟩ ∧
    octile (7 / 5 : ℚ) ⟨0, 0⟩ ⟨2, 4⟩ = 2 * (7 / 5) + 2 := by
  constructor
  · intro c h1 h2 h3 h4
    dsimp only at h1 h2 h3 h4
    simp only [Free, Inside, decide_eq_false_iff_not]
    refine ⟨by omega, ?_⟩
    rintro rfl
    norm_num at h2
  · norm_num [octile]

example : ∃ s, AStar.searchPath (N2.problem ⟨4, 5, fun c => decide (c = ⟨3, 0⟩)⟩ (moveLength (7 / 5 : ℚ)) (octile (7 / 5))
    ⟨2, 4⟩) true 21 ⟨0, 0⟩ = some (.success, s) ∧ AStar.getOptimalCost s = some (24 / 5) := by
  obtain ⟨s, h1, h2⟩ := C182_planner ⟨4, 5, fun c => decide (c = ⟨3, 0⟩)⟩ (7 / 5 : ℚ) (by norm_num) (by norm_num)
    (octile (7 / 5)) ⟨0, 0⟩ ⟨2, 4⟩ (fun u v _ h => C182_octile_is_consistent _ _ (by norm_num) (by norm_num) _ u v h)
    ex_clear.1
  refine ⟨s, h1, ?_⟩
  rw [h2, ex_clear.2]
  norm_num

end PathPlanning
