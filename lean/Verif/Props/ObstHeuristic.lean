import Verif.Lemmas.ObstHeuristic
import Verif.Spec.ObstHeuristic
import Verif.Spec.Validator
import Verif.Props.OccMap
import Mathlib.Algebra.Order.Field.Basic
import Mathlib.Tactic.Linarith
import Mathlib.Data.Rat.Cast.Order

/-! # C54, C55, C71: the obstacle heuristic -/

namespace PathPlanning
open Spec ObstHeuristic

namespace Spec

theorem Move.symm {m : GridMap} {u v : Cell} (h : Move m u v) (hu : Free m u) : Move m v u := by
  obtain ⟨h1, h2, h3⟩ := h
  refine ⟨hu, ?_, ?_⟩
  · rw [chebyshev_eq_one] at h2 ⊢; omega
  · intro h4 h5 ⟨h6, h7⟩; exact h3 (Ne.symm h4) (Ne.symm h5) ⟨h7, h6⟩

theorem Walk.end_free {m : GridMap} {a b : Cell} {l : List Cell} (h : Walk m a l b) (ha : Free m a) : Free m b := by
  induction h with
  | stop => exact ha
  | move h1 _ ih => exact ih h1.1

variable {K : Type} [AddCommMonoid K]

/-- A walk between free cells can be walked backwards, at the same cost. -/
theorem Walk.reverse {m : GridMap} {a b : Cell} {l : List Cell} (f : Cell → Cell → K)
    (hf : ∀ a b, f a b = f b a) (h : Walk m a l b) (ha : Free m a) :
    Walk m b l.reverse a ∧ walkCost f l.reverse = walkCost f l := by
  induction h with
  | stop => exact ⟨.stop _, rfl⟩
  | @move x y z l h1 h2 ih =>
    obtain ⟨h3, h4⟩ := ih h1.1
    have key : ∀ {p q r : Cell} {k : List Cell}, Walk m p k q → Move m q r →
        Walk m p (k ++ [r]) r ∧ walkCost f (k ++ [r]) = walkCost f k + f q r := by
      intro p q r k hw hm
      induction hw with
      | stop a => exact ⟨.move hm (.stop _), by simp [walkCost]⟩
      | @move x y z l h1 h2 ih =>
        obtain ⟨h3, h4⟩ := ih hm
        refine ⟨.move h1 h3, ?_⟩
        cases h2 with
        | stop => simp only [List.cons_append, List.nil_append, walkCost] at h4 ⊢; rw [h4]; abel
        | move h5 h6 => simp only [List.cons_append, walkCost] at h4 ⊢; rw [h4]; abel
    obtain ⟨h5, h6⟩ := key h3 (h1.symm ha)
    rw [List.reverse_cons]
    refine ⟨h5, ?_⟩
    rw [h6, h4]
    cases h2 with
    | stop => simp [walkCost, hf]
    | move h7 h8 => simp only [walkCost]; rw [hf y x]; abel

end Spec

namespace ObstHeuristic

section Ordered
variable {K : Type} [LinearOrder K] [AddCommMonoid K] [IsOrderedAddMonoid K] [One K]

/-- If sums are exact, the order of the moves does not matter. -/
theorem accumulated_eq (f : Cell → Cell → K) : ∀ (l : List Cell) (x : K), accumulated f x l = x + walkCost f l := by
  intro l
  induction l with
  | nil => intro x; simp [accumulated, walkCost]
  | cons a l ih =>
    intro x
    cases l with
    | nil => simp [accumulated, walkCost]
    | cons b l => rw [accumulated, ih, walkCost]; abel

private theorem walkCost_const (d : K) : ∀ l : List Cell, walkCost (fun _ _ => d) l = (l.length - 1) • d := by
  intro l
  induction l with
  | nil => simp [walkCost]
  | cons a l ih =>
    cases l with
    | nil => simp [walkCost]
    | cons b l => rw [walkCost, ih]; simp [succ_nsmul, add_comm]

private theorem transition_eq (diag : K) : transitionCost diag = moveLength diag := by
  funext a b
  unfold transitionCost moveLength
  by_cases h1 : a.row = b.row <;> by_cases h2 : a.col = b.col <;> simp [h1, h2]

/-- C54. For a goal cell in the map `Update` terminates without accessing anything outside the
matrices. The explored cells are exactly those that a collision-free walk connects with the goal
cell; the value of an explored cell is finite and is the length of such a walk; other values are
infinite. (Walks start from the goal cell, which may itself be occupied.) -/
theorem C54_update (m : GridMap) (diag : K) (h01 : (0 : K) ≤ 1) (h1d : 1 ≤ diag) (goal : Cell)
    (hg : Inside m goal) :
    ∃ t, update m diag goal = some t ∧
      (∀ c, t.explored c = true ↔ ∃ l, Walk m goal l c) ∧
      (∀ c, t.explored c = true →
        ∃ (x : K) (l : List Cell), t.cost c = x ∧ Walk m goal l c ∧ walkCost (moveLength diag) l = x) ∧
      (∀ c, t.explored c = false → t.cost c = ⊤) ∧ t.cost goal = 0 := by
  obtain ⟨s, h1, h2⟩ := update_good (diag := diag) .of_ordered h01 h1d hg
  have hk : ∀ c, s.tables.cost c ≠ ⊤ ↔ s.tables.explored c = true := by
    intro c
    rw [h2.known]
    unfold Known
    simp
  have hfin : ∀ c, s.tables.explored c = true →
        ∃ (x : K) (l : List Cell), s.tables.cost c = x ∧ Walk m goal l c ∧ walkCost (moveLength diag) l = x := by
    intro c hc
    obtain ⟨x, hx⟩ := WithTop.ne_top_iff_exists.mp ((hk c).mpr hc)
    obtain ⟨l, hl, hlx⟩ := h2.path c x hx.symm
    exact ⟨x, l, hx.symm, hl, by rw [← transition_eq, ← hlx, accumulated_eq, zero_add]⟩
  refine ⟨_, h1, fun c => ⟨fun hc => ?_, fun ⟨l, hl⟩ => ?_⟩, hfin, fun c hc => ?_, h2.cost_start⟩
  · obtain ⟨x, l, -, hl, -⟩ := hfin c hc
    exact ⟨l, hl⟩
  · refine (explored_of_walk .of_ordered h2 hl ?_).1
    rw [← hk, h2.cost_start]
    exact WithTop.zero_ne_top
  · by_contra hne
    rw [(hk c).mp hne] at hc
    cases hc

/-- C54, in the other direction: for a free goal cell, the explored cells are those from which a
collision-free walk leads to the goal, and the value is the length of such a walk. -/
theorem C54_update_to_goal (m : GridMap) (diag : K) (h01 : (0 : K) ≤ 1) (h1d : 1 ≤ diag) (goal : Cell)
    (hg : Free m goal) :
    ∃ t, update m diag goal = some t ∧
      (∀ c, t.explored c = true ↔ Free m c ∧ ∃ l, Walk m c l goal) ∧
      (∀ c, t.explored c = true →
        ∃ (x : K) (l : List Cell), t.cost c = x ∧ Walk m c l goal ∧ walkCost (moveLength diag) l = x) := by
  have hsym : ∀ a b, moveLength diag a b = moveLength diag b a := by
    intro a b; unfold moveLength; simp only [ne_comm]
  obtain ⟨t, h1, h2, h3, -⟩ := C54_update m diag h01 h1d goal hg.1
  refine ⟨t, h1, fun c => ⟨fun hc => ?_, fun ⟨hf, l, hl⟩ => ?_⟩, fun c hc => ?_⟩
  · obtain ⟨l, hl⟩ := (h2 c).mp hc
    exact ⟨hl.end_free hg, _, (hl.reverse (moveLength diag) hsym hg).1⟩
  · exact (h2 c).mpr ⟨_, (hl.reverse (moveLength diag) hsym hf).1⟩
  · obtain ⟨x, l, hx, hl, hlx⟩ := h3 c hc
    obtain ⟨h4, h5⟩ := hl.reverse (moveLength diag) hsym hg
    exact ⟨x, _, hx, h4, h5.trans hlx⟩

/-- C54: without a goal cell nothing is explored. -/
theorem C54_no_goal_cell (m : GridMap) (diag : K) (goal : Cell) (hg : goal.isValid = false) :
    ∃ t, update m diag goal = some t ∧ ∀ c, t.explored c = false ∧ t.cost c = ⊤ :=
  ⟨cleared, by unfold update; rw [hg]; rfl, fun _ => ⟨rfl, rfl⟩⟩

end Ordered

/-! ## C55 -/

/-- The main loop with a bound on the number of turns, to evaluate it. -/
def fuelLoop {K : Type} [LinearOrder K] [Add K] [Zero K] [One K] (m : GridMap) (diag : K) :
    Nat → State K → Option (State K)
  | 0, _ => none
  | n + 1, s => if s.frontier.isEmpty then some s else do fuelLoop m diag n (← turn m diag s)

theorem loop_of_fuel {K : Type} [LinearOrder K] [Add K] [Zero K] [One K] {m : GridMap} {diag : K} :
    ∀ {n : Nat} {s s' : State K}, fuelLoop m diag n s = some s' → loop m diag s = some s' := by
  intro n
  induction n with
  | zero => intro s s' h; cases h
  | succ n ih =>
    intro s s' h
    unfold fuelLoop at h
    rw [loop]
    split at h
    · rename_i he; rw [if_pos he]; exact h
    · rename_i he
      rw [if_neg he]
      cases ht : turn m diag s with
      | none => rw [ht] at h; cases h
      | some s1 => rw [ht] at h; exact ih h

/-- A 4 × 5 map with two occupied cells. -/
private def exMap : GridMap := ⟨4, 5, fun c => decide (c = ⟨1, 1⟩) || decide (c = ⟨2, 1⟩)⟩

/-- The value of `sqrt(2.0f)`. -/
private def exDiag : ℚ := 11863283 / 8388608

example : (0 : ℚ) ≤ 1 ∧ 1 ≤ exDiag ∧ Free exMap ⟨0, 4⟩ := by
  refine ⟨by norm_num, by norm_num [exDiag], ?_⟩
  unfold Free Inside
  decide

/-- C55, violated: a cell of this map keeps the value of the first walk found (four diagonal moves)
although a shorter one exists (four straight moves and a diagonal one), because the test for a better
walk compares the stored value with itself. -/
theorem C55_not_the_shortest :
    ∃ (m : GridMap) (diag : ℚ) (goal c : Cell) (t : HeurTables ℚ) (l : List Cell),
      diag = 11863283 / 8388608 ∧ update m diag goal = some t ∧ t.cost c = ((4 * diag : ℚ) : WithTop ℚ) ∧
      Walk m goal l c ∧ walkCost (moveLength diag) l = 4 + diag ∧ 4 + diag < 4 * diag := by
  have hres : (fuelLoop exMap exDiag 21 (start ⟨0, 4⟩)).map (fun s => s.tables.cost ⟨2, 0⟩) =
      some ((4 * exDiag : ℚ) : WithTop ℚ) := by
    decide +kernel
  cases hf : fuelLoop exMap exDiag 21 (start ⟨0, 4⟩) with
  | none => rw [hf] at hres; cases hres
  | some s =>
    rw [hf] at hres
    refine ⟨exMap, exDiag, ⟨0, 4⟩, ⟨2, 0⟩, s.tables,
      [⟨0, 4⟩, ⟨0, 3⟩, ⟨0, 2⟩, ⟨0, 1⟩, ⟨1, 0⟩, ⟨2, 0⟩], rfl, ?_, ?_, ?_, ?_, ?_⟩
    · have := loop_of_fuel hf
      unfold update
      rw [this]; rfl
    · injection hres
    · have hm : ∀ a b, (Free exMap b ∧ chebyshev a b = 1 ∧ (a.row ≠ b.row → a.col ≠ b.col →
          ¬ (exMap.occ ⟨b.row, a.col⟩ = true ∧ exMap.occ ⟨a.row, b.col⟩ = true))) → Move exMap a b := fun _ _ h => h
      refine .move (hm _ _ ?_) (.move (hm _ _ ?_) (.move (hm _ _ ?_) (.move (hm _ _ ?_) (.move (hm _ _ ?_) (.stop _))))) <;>
      · unfold Free Inside chebyshev; decide
    · simp only [walkCost, moveLength]; norm_num [exDiag]
    · norm_num [exDiag]

/-- C55, what holds: the value of an explored cell is the length of a collision-free walk, and at most
`diag` (√2) times the length of any walk between the goal cell and the cell. Missing: that it is the
minimum (`C55_not_the_shortest`). -/
theorem C55_at_most_diag_times_the_shortest_partial {K : Type} [Field K] [LinearOrder K] [IsStrictOrderedRing K]
    (m : GridMap) (diag : K) (h1d : 1 ≤ diag) (goal : Cell) (hg : Inside m goal) :
    ∃ t, update m diag goal = some t ∧ ∀ c, t.explored c = true → ∃ x : K, t.cost c = x ∧
      (∃ l, Walk m goal l c ∧ walkCost (moveLength diag) l = x) ∧
      ∀ l, Walk m goal l c → x ≤ diag * walkCost (moveLength diag) l := by
  have hlen : ∀ {a c : Cell} {l : List Cell}, Walk m a l c → ((l.length - 1 : Nat) : K) ≤ walkCost (moveLength diag) l := by
    intro a c l hw
    induction hw with
    | stop => simp [walkCost]
    | @move x y z l h7 h8 ih =>
      cases h8 with
      | stop =>
        simp only [List.length_cons, List.length_nil, walkCost]
        unfold moveLength
        split <;> simp [h1d]
      | @move _ b _ l' h9 h10 =>
        simp only [List.length_cons, walkCost, Nat.add_sub_cancel] at ih ⊢
        push_cast at ih ⊢
        have : 1 ≤ moveLength diag x y := by unfold moveLength; split <;> simp [h1d]
        linarith
  obtain ⟨s, h1, h2⟩ := update_good (diag := diag) .of_ordered zero_le_one h1d hg
  obtain ⟨t, h3, h4, h5, -⟩ := C54_update m diag zero_le_one h1d goal hg
  rw [h1] at h3
  injection h3 with h3
  subst h3
  refine ⟨_, h1, fun c hc => ?_⟩
  obtain ⟨x, l, hx, hl, hlx⟩ := h5 c hc
  refine ⟨x, hx, ⟨l, hl, hlx⟩, fun l' hl' => ?_⟩
  have h6 := (explored_of_walk .of_ordered h2 hl' ((h4 goal).mpr ⟨_, .stop _⟩)).2 0 h2.cost_start.le
  rw [hx, accumulated_eq, zero_add, walkCost_const] at h6
  refine (WithTop.coe_le_coe.mp h6).trans ?_
  rw [nsmul_eq_mul, mul_comm]
  exact mul_le_mul_of_nonneg_left (hlen hl') (by linarith)

/-! ## C71 -/

/-- The grid of a map as the heuristic sees it. -/
private abbrev gridOf (frame : OccMap) (occ : Cell → Bool) : GridMap := ⟨frame.rows, frame.columns, occ⟩

private theorem inside_frame {frame : OccMap} {occ : Cell → Bool} {c : Cell} :
    frame.isInsideCell c = true ↔ Inside (gridOf frame occ) c := by
  simp [OccMap.isInsideCell, Inside, and_assoc]

private theorem valid_iff {frame : OccMap} (p : Pt) :
    (frame.worldPositionToGridCell p true).isValid = frame.isInsidePos p := by
  unfold OccMap.isInsidePos OccMap.worldPositionToGridCell OccMap.gridPositionToGridCell
  dsimp only
  rw [if_neg (by simp)]
  split
  · rename_i h
    rw [h]
    simp only [OccMap.isInsideCell, Bool.and_eq_true, decide_eq_true_eq] at h
    simp only [Cell.isValid, Bool.and_eq_true, decide_eq_true_eq]
    omega
  · simp [Cell.isValid, OccMap.isInsideCell]

private theorem one_le_sqrt_two : (1 : ℝ) ≤ √2 := Real.one_le_sqrt.mpr (by norm_num)

/-- C71, what holds: after `Update` the value is always defined and never below the straight-line
distance; it is that distance outside the map and in cells not connected with the goal; and it is
bounded by √2 times the length of any collision-free walk between the goal cell and the cell of the
state. Missing: that it never exceeds the cost of a drive (`C71_overestimates`). -/
theorem C71_bounds_partial (frame : OccMap) (occ : Cell → Bool) (reverseCost forwardCost : ℝ)
    (hr : 0 ≤ reverseCost) (hf : 0 ≤ forwardCost) (hres : 0 ≤ frame.resolution) (goal state : PoseR) :
    ∃ t v, updatePose frame occ √2 goal = some t ∧
      getHeuristicValue frame reverseCost forwardCost t goal state = some v ∧
      euclid goal.position state.position ≤ v ∧
      (frame.isInsidePos state.position = false → v = euclid goal.position state.position) ∧
      (∀ l, frame.isInsidePos goal.position = true → frame.isInsidePos state.position = true →
        Walk (gridOf frame occ) (frame.worldPositionToGridCell goal.position true) l
          (frame.worldPositionToGridCell state.position true) →
        v ≤ max (√2 * walkCost (moveLength √2) l * (min reverseCost forwardCost * frame.resolution)
          - √2 * frame.resolution) (euclid goal.position state.position)) ∧
      ((frame.isInsidePos goal.position = true →
        ¬ ∃ l, Walk (gridOf frame occ) (frame.worldPositionToGridCell goal.position true) l
          (frame.worldPositionToGridCell state.position true)) →
        v = euclid goal.position state.position) := by
  -- the tables
  obtain ⟨t, ht, hexp, hfin⟩ : ∃ t, updatePose frame occ √2 goal = some t ∧
      (∀ c, t.explored c = true ↔ frame.isInsidePos goal.position = true ∧
        ∃ l, Walk (gridOf frame occ) (frame.worldPositionToGridCell goal.position true) l c) ∧
      (∀ c, t.explored c = true → ∃ x : ℝ, t.cost c = x ∧
        ∀ l, Walk (gridOf frame occ) (frame.worldPositionToGridCell goal.position true) l c →
          x ≤ √2 * walkCost (moveLength √2) l) := by
    cases hg : frame.isInsidePos goal.position with
    | false =>
      obtain ⟨t, h1, h2⟩ := C54_no_goal_cell (gridOf frame occ) √2 _ ((valid_iff goal.position).trans hg)
      refine ⟨t, h1, fun c => ?_, fun c hc => ?_⟩
      · rw [(h2 c).1]; simp
      · rw [(h2 c).1] at hc; cases hc
    | true =>
      have hin := (inside_frame (occ := occ)).mp hg
      obtain ⟨t, h1, h2, -⟩ := C54_update (gridOf frame occ) √2 zero_le_one one_le_sqrt_two _ hin
      obtain ⟨t', h1', h3⟩ := C55_at_most_diag_times_the_shortest_partial (gridOf frame occ) √2 one_le_sqrt_two _ hin
      rw [h1] at h1'
      injection h1' with h1'
      subst h1'
      refine ⟨t, h1, fun c => by simpa using h2 c, fun c hc => ?_⟩
      obtain ⟨x, hx, -, hle⟩ := h3 c hc
      exact ⟨x, hx, hle⟩
  have heu : √((goal.position - state.position).x ^ 2 + (goal.position - state.position).y ^ 2) =
    euclid goal.position state.position := rfl
  refine ⟨t, ?_⟩
  unfold getHeuristicValue
  dsimp only
  rw [heu, valid_iff]
  cases hs : frame.isInsidePos state.position with
  | false =>
    refine ⟨euclid goal.position state.position, ht, rfl, le_rfl, fun _ => rfl, ?_, fun _ => rfl⟩
    intro l _ hc; cases hc
  | true =>
    have hs' : frame.isInsideCell (frame.worldPositionToGridCell state.position true) = true := hs
    rw [hs']
    cases hx : t.explored (frame.worldPositionToGridCell state.position true) with
    | false =>
      refine ⟨euclid goal.position state.position, ht, rfl, le_rfl, (by simp), fun l _ _ _ => le_max_right _ _, fun _ => rfl⟩
    | true =>
      obtain ⟨x, hxc, hle⟩ := hfin _ hx
      rw [hxc]
      refine ⟨max (x * (min reverseCost forwardCost * frame.resolution) - √2 * frame.resolution)
        (euclid goal.position state.position), ht, rfl, le_max_right _ _, (by simp), ?_, ?_⟩
      · intro l _ _ hl
        refine max_le_max_right _ ?_
        have := hle l hl
        have h2 : 0 ≤ min reverseCost forwardCost * frame.resolution := mul_nonneg (le_min hr hf) hres
        nlinarith [mul_le_mul_of_nonneg_right this h2]
      · intro h
        obtain ⟨h1, h2⟩ := (hexp _).mp hx
        exact absurd h2 (h h1)

/-- A walk on the grid is at least as long as the octile distance. -/
private theorem octile_le_walk {m : GridMap} {a c : Cell} {l : List Cell} (hw : Walk m a l c) :
    ∀ d : ℝ, 1 ≤ d → d ≤ 2 → ((c.row - a.row : Int) : ℝ) + (d - 1) * ((c.col - a.col : Int) : ℝ) ≤
      walkCost (moveLength d) l := by
  intro d h1 h2
  induction hw with
  | stop => simp [walkCost]
  | @move x y z l h3 h4 ih =>
    have hstep : ((y.row - x.row : Int) : ℝ) + (d - 1) * ((y.col - x.col : Int) : ℝ) ≤ moveLength d x y := by
      have hc := (chebyshev_eq_one x y).mp h3.2.1
      have e1 : y.row - x.row ≤ 1 := by omega
      have e2 : y.col - x.col ≤ 1 := by omega
      have e1' : ((y.row - x.row : Int) : ℝ) ≤ 1 := by exact_mod_cast e1
      have e2' : ((y.col - x.col : Int) : ℝ) ≤ 1 := by exact_mod_cast e2
      unfold moveLength
      split
      · nlinarith
      · rename_i hne
        rw [not_and_or, not_not, not_not] at hne
        rcases hne with hne | hne
        · rw [hne, sub_self, Int.cast_zero]; nlinarith
        · rw [hne, sub_self, Int.cast_zero]; linarith
    have hadd : walkCost (moveLength d) (x :: l) = moveLength d x y + walkCost (moveLength d) l := by
      cases h4 with
      | stop => simp [walkCost]
      | move _ _ => rfl
    rw [hadd]
    push_cast at ih hstep ⊢
    linarith

/-- C71, violated: on an empty map of 21 × 11 cells of side 1 and with both cost multipliers 1, the
value of a state at (20, 10) from the goal exceeds the straight-line distance, which is the cost of
driving straight to the goal. -/
theorem C71_overestimates :
    ∃ (frame : OccMap) (goal state : PoseR) (t : HeurTables ℝ) (v : ℝ),
      frame.rows = 21 ∧ frame.columns = 11 ∧ frame.resolution = 1 ∧
      updatePose frame (fun _ => false) √2 goal = some t ∧
      getHeuristicValue frame 1 1 t goal state = some v ∧
      frame.isInsidePos goal.position = true ∧ frame.isInsidePos state.position = true ∧
      euclid goal.position state.position < v := by
  obtain ⟨frame, hframe⟩ : ∃ f : OccMap, f = ⟨1, 21, 11, ⟨0, 0⟩, ⟨0, 0⟩, ⟨0, 0⟩⟩ := ⟨_, rfl⟩
  have hcell : ∀ c : Cell, Inside (gridOf frame (fun _ => false)) c → ∀ p : Pt, p.x = c.row → p.y = c.col →
      frame.worldPositionToGridCell p true = c := by
    intro c hc p hx hy
    have hcin := (inside_frame (occ := fun _ => false)).mpr hc
    have h1 : (frame.gridCellToWorldPosition c).x = c.row := by
      rw [hframe]; simp [OccMap.gridCellToWorldPosition, OccMap.gridCellToGridPosition]
    have h2 : (frame.gridCellToWorldPosition c).y = c.col := by
      rw [hframe]; simp [OccMap.gridCellToWorldPosition, OccMap.gridCellToGridPosition]
    have hr : frame.resolution = 1 := by rw [hframe]
    refine (C28_position_in_cell frame (by rw [hr]; norm_num) c hcin p ?_ ?_).1
    · rw [h1, hx, hr]; constructor <;> linarith
    · rw [h2, hy, hr]; constructor <;> linarith
  have i0 : Inside (gridOf frame (fun _ => false)) ⟨0, 0⟩ := by
    rw [hframe]; unfold Inside; decide
  have i1 : Inside (gridOf frame (fun _ => false)) ⟨20, 10⟩ := by
    rw [hframe]; unfold Inside; decide
  have c0 := hcell ⟨0, 0⟩ i0 ⟨0, 0⟩ (by simp) (by simp)
  have c1 := hcell ⟨20, 10⟩ i1 ⟨20, 10⟩ (by simp) (by simp)
  have hin0 : frame.isInsidePos ⟨0, 0⟩ = true := by
    unfold OccMap.isInsidePos; rw [c0]; exact (inside_frame (occ := fun _ => false)).mpr i0
  have hin1 : frame.isInsidePos ⟨20, 10⟩ = true := by
    unfold OccMap.isInsidePos; rw [c1]; exact (inside_frame (occ := fun _ => false)).mpr i1
  obtain ⟨t, h1, h2, h3, -⟩ := C54_update (gridOf frame (fun _ => false)) √2 zero_le_one one_le_sqrt_two ⟨0, 0⟩ i0
  -- the cell is connected: two straight and diagonal pieces
  have hwalk : ∃ l, Walk (gridOf frame (fun _ => false)) ⟨0, 0⟩ l ⟨20, 10⟩ := by
    have hmove : ∀ a b : Cell, Inside (gridOf frame (fun _ => false)) b → chebyshev a b = 1 →
        Move (gridOf frame (fun _ => false)) a b := by
      intro a b hb hc
      exact ⟨⟨hb, rfl⟩, hc, fun _ _ h => by cases h.1⟩
    have hpath : ∀ n : Nat, n ≤ 10 → ∃ l, Walk (gridOf frame (fun _ => false)) ⟨0, 0⟩ l ⟨2 * n, n⟩ := by
      intro n
      induction n with
      | zero => intro _; exact ⟨_, .stop _⟩
      | succ n ih =>
        intro hn
        obtain ⟨l, hl⟩ := ih (by omega)
        have m1 : Move (gridOf frame (fun _ => false)) ⟨2 * n, n⟩ ⟨2 * n + 1, n⟩ := by
          refine hmove _ _ ?_ ?_
          · rw [hframe]; unfold Inside; dsimp only; omega
          · rw [chebyshev_eq_one]; dsimp only; omega
        have m2 : Move (gridOf frame (fun _ => false)) ⟨2 * n + 1, n⟩ ⟨2 * ((n + 1 : Nat) : Int), ((n + 1 : Nat) : Int)⟩ := by
          refine hmove _ _ ?_ ?_
          · rw [hframe]; unfold Inside; dsimp only; omega
          · rw [chebyshev_eq_one]; dsimp only; omega
        exact ⟨_, (walk_snoc (moveLength (1 : ℝ)) (walk_snoc (moveLength (1 : ℝ)) hl m1).1 m2).1⟩
    simpa using hpath 10 le_rfl
  have hex := (h2 ⟨20, 10⟩).mpr hwalk
  obtain ⟨x, l, hx, hl, hlx⟩ := h3 _ hex
  have hlow := octile_le_walk hl √2 one_le_sqrt_two (by rw [Real.sqrt_le_left (by norm_num)]; norm_num)
  rw [hlx] at hlow
  have hs2 : (1.414 : ℝ) < √2 := by
    rw [Real.lt_sqrt (by norm_num)]; norm_num
  have heu : euclid ⟨0, 0⟩ ⟨20, 10⟩ < 22.5 := by
    unfold euclid
    rw [Real.sqrt_lt' (by norm_num)]; norm_num
  have hres : frame.resolution = 1 := by rw [hframe]
  refine ⟨frame, ⟨⟨0, 0⟩, 0⟩, ⟨⟨20, 10⟩, 0⟩, t, max (x * (min 1 1 * frame.resolution) - √2 * frame.resolution)
    (euclid ⟨0, 0⟩ ⟨20, 10⟩), by rw [hframe], by rw [hframe], hres, ?_, ?_, hin0, hin1, ?_⟩
  · show update _ _ (frame.worldPositionToGridCell ⟨0, 0⟩ true) = _
    rw [c0]; exact h1
  · unfold getHeuristicValue
    dsimp only
    have hin1' : frame.isInsideCell ⟨20, 10⟩ = true := (inside_frame (occ := fun _ => false)).mpr i1
    rw [c1, hin1', hex, hx]
    rfl
  · refine lt_max_of_lt_left ?_
    rw [hres, min_self]
    push_cast at hlow
    linarith

end ObstHeuristic
end PathPlanning
