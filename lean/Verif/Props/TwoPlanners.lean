import Verif.Props.BiGrid

/-!
# C179: the two grid planners agree

`AStarN2` and `BidirectionalAStarN2` are offered for the same problem.
-/

namespace PathPlanning
open Spec AStar

section
variable {C : Type} [AddCommMonoid C] [LinearOrder C] [IsOrderedCancelAddMonoid C]

/-- C179, partial: between free cells, with costs that are the same in both directions, one planner succeeds exactly if
the other does, whatever the heuristics. -/
theorem C179_same_status_partial (m : GridMap) (pathCost pathCostR heur : Cell → Cell → C) (hf hr : Cell → C)
    (hsym : ∀ a b, pathCostR b a = pathCost a b) (init goal : Cell) (hi : Free m init) (hg : Free m goal)
    {fuel fuel' : Nat} {graph : Bool} {st st' : Status} {s : Search Cell Unit C} {s' : BiSearch Cell Unit C}
    (h : AStar.searchPath (N2.problem m pathCost heur goal) true fuel init = some (st, s))
    (h' : Bi.searchPath (N2.biProblem m pathCost pathCostR hf hr) graph fuel' init goal = some (st', s')) :
    st = st' := by
  cases st with
  | failure =>
    cases st' with
    | failure => rfl
    | success =>
      obtain ⟨pre, x, post, -, hw, -⟩ := C101_success_is_free_path_partial m pathCost pathCostR hf hr hsym init goal hi hg h'
      exact absurd ⟨_, hw⟩ (C20_grid_failure_no_path m pathCost heur init goal hi.1 h).1
  | success =>
    cases st' with
    | success => rfl
    | failure =>
      obtain ⟨⟨cells, -, hw, -⟩, -⟩ := C20_grid_success_is_free_path m pathCost heur init goal hi.1 h
      exact absurd ⟨_, hw⟩ (C101_failure_no_path_partial m pathCost pathCostR hf hr hsym init goal hi hg h')

/-- C179, partial: with heuristics that no legal move undercuts, the bidirectional planner reports at least the cost of
the other one, and at most twice this cost. -/
theorem C179_costs_partial (m : GridMap) (pathCost pathCostR heur : Cell → Cell → C) (hf hr : Cell → C)
    (hsym : ∀ a b, pathCostR b a = pathCost a b) (init goal : Cell) (hi : Free m init) (hg : Free m goal)
    (hcon : ∀ u v, Inside m u → Move m u v → heur u goal ≤ pathCost u v + heur v goal)
    (h0f : ∀ c, 0 ≤ hf c) (h0r : ∀ c, 0 ≤ hr c) (hz : hr init = 0)
    (hcf : ∀ u v, Inside m u → Move m u v → hf u ≤ pathCost u v + hf v)
    (hcr : ∀ u v, Inside m u → Move m u v → hr u ≤ pathCostR u v + hr v)
    {fuel fuel' : Nat} {s : Search Cell Unit C} {s' : BiSearch Cell Unit C}
    (h : AStar.searchPath (N2.problem m pathCost heur goal) true fuel init = some (.success, s))
    (h' : Bi.searchPath (N2.biProblem m pathCost pathCostR hf hr) true fuel' init goal = some (.success, s')) :
    ∃ c c', AStar.getOptimalCost s = some c ∧ Bi.getOptimalCost s' = some c' ∧ c ≤ c' ∧ c' ≤ c + c := by
  obtain ⟨⟨cells, h1, h2, h3⟩, -⟩ := C20_grid_success_is_free_path m pathCost heur init goal hi.1 h
  obtain ⟨cells', k1, -, hopt⟩ := C20_grid_optimal m pathCost heur init goal hi.1 hcon h
  rw [h1] at k1
  cases k1
  obtain ⟨pre, x, post, -, hw, hc⟩ := C101_success_is_free_path_partial m pathCost pathCostR hf hr hsym init goal hi hg h'
  obtain ⟨c', hc', hb⟩ := C101_cost_bound_partial m pathCost pathCostR hf hr hsym init goal hi hg h0f h0r hz hcf hcr h'
  refine ⟨_, c', h3, hc', ?_, ?_⟩
  · rw [hc] at hc'
    cases hc'
    exact hopt _ hw
  · exact (le_add_of_nonneg_right (h0r goal)).trans (hb cells h2)

end

/-! ### Witnesses -/

private def steps : Cell → Cell → Nat := fun a b => if a.isDiagonalTo b then 14 else 10

private def cost (r : Option (Status × Search Cell Unit Nat)) : Option (Status × Option Nat) :=
  r.map fun r => (r.1, AStar.getOptimalCost r.2)

private def costB (r : Option (Status × BiSearch Cell Unit Nat)) : Option (Status × Option Nat) :=
  r.map fun r => (r.1, Bi.getOptimalCost r.2)

private theorem cost_some {r : Option (Status × Search Cell Unit Nat)} {st : Status} {v : Option Nat}
    (h : cost r = some (st, v)) : ∃ s, r = some (st, s) ∧ AStar.getOptimalCost s = v := by
  cases r with
  | none => cases h
  | some r =>
    simp only [cost, Option.map_some, Option.some.injEq, Prod.mk.injEq] at h
    obtain ⟨rfl, rfl⟩ := h
    exact ⟨r.2, rfl, rfl⟩

private theorem costB_some {r : Option (Status × BiSearch Cell Unit Nat)} {st : Status} {v : Option Nat}
    (h : costB r = some (st, v)) : ∃ s, r = some (st, s) ∧ Bi.getOptimalCost s = v := by
  cases r with
  | none => cases h
  | some r =>
    simp only [costB, Option.map_some, Option.some.injEq, Prod.mk.injEq] at h
    obtain ⟨rfl, rfl⟩ := h
    exact ⟨r.2, rfl, rfl⟩

/-- The hypotheses of `C179_same_status_partial` and `C179_costs_partial` are met here.
C179 is violated: on a 3 × 3 map with a blocked centre (steps cost 10, diagonal steps 14; zero heuristics) one
planner reports the cost 34 and the other one 40. -/
theorem C179_costs_differ :
    ∃ (m : GridMap) (pathCost : Cell → Cell → Nat) (s : Search Cell Unit Nat) (s' : BiSearch Cell Unit Nat),
      Free m ⟨0, 0⟩ ∧ Free m ⟨2, 2⟩ ∧ (∀ a b, pathCost b a = pathCost a b) ∧
      AStar.searchPath (N2.problem m pathCost (fun _ _ => 0) ⟨2, 2⟩) true 10 ⟨0, 0⟩ = some (.success, s) ∧
      Bi.searchPath (N2.biProblem m pathCost pathCost (fun _ => 0) (fun _ => 0)) true 10 ⟨0, 0⟩ ⟨2, 2⟩ =
        some (.success, s') ∧
      AStar.getOptimalCost s = some 34 ∧ Bi.getOptimalCost s' = some 40 := by
  obtain ⟨s, h1, h2⟩ := cost_some (r := AStar.searchPath (N2.problem ⟨3, 3, fun c => decide (c = ⟨1, 1⟩)⟩ steps
    (fun _ _ => 0) ⟨2, 2⟩) true 10 ⟨0, 0⟩) (show _ = some (Status.success, some 34) by decide +kernel)
  obtain ⟨s', h3, h4⟩ := costB_some (r := Bi.searchPath (N2.biProblem ⟨3, 3, fun c => decide (c = ⟨1, 1⟩)⟩ steps steps
    (fun _ => 0) (fun _ => 0)) true 10 ⟨0, 0⟩ ⟨2, 2⟩) (show _ = some (Status.success, some 40) by decide +kernel)
  refine ⟨_, _, s, s', ⟨by unfold Inside; decide, by decide⟩, ⟨by unfold Inside; decide, by decide⟩, ?_, h1, h3, h2, h4⟩
  intro a b
  unfold steps Cell.isDiagonalTo
  simp only [ne_comm]

/-- C179 is violated when the goal is occupied: A* fails and the bidirectional planner succeeds. -/
theorem C179_occupied_goal :
    ∃ (m : GridMap) (pathCost : Cell → Cell → Nat) (s : Search Cell Unit Nat) (s' : BiSearch Cell Unit Nat),
      Free m ⟨0, 0⟩ ∧ m.occ ⟨0, 2⟩ = true ∧
      AStar.searchPath (N2.problem m pathCost (fun _ _ => 0) ⟨0, 2⟩) true 10 ⟨0, 0⟩ = some (.failure, s) ∧
      Bi.searchPath (N2.biProblem m pathCost pathCost (fun _ => 0) (fun _ => 0)) true 10 ⟨0, 0⟩ ⟨0, 2⟩ =
        some (.success, s') := by
  obtain ⟨s, h1, -⟩ := cost_some (r := AStar.searchPath (N2.problem ⟨1, 3, fun c => decide (c = ⟨0, 2⟩)⟩ steps
    (fun _ _ => 0) ⟨0, 2⟩) true 10 ⟨0, 0⟩) (show _ = some (Status.failure, none) by decide +kernel)
  obtain ⟨s', h3, -⟩ := costB_some (r := Bi.searchPath (N2.biProblem ⟨1, 3, fun c => decide (c = ⟨0, 2⟩)⟩ steps steps
    (fun _ => 0) (fun _ => 0)) true 10 ⟨0, 0⟩ ⟨0, 2⟩) (show _ = some (Status.success, some 20) by decide +kernel)
  exact ⟨_, _, s, s', ⟨by unfold Inside; decide, by decide⟩, by decide, h1, h3⟩

/-- C179 is violated when the start is occupied: A* succeeds and the bidirectional planner fails. -/
theorem C179_occupied_start :
    ∃ (m : GridMap) (pathCost : Cell → Cell → Nat) (s : Search Cell Unit Nat) (s' : BiSearch Cell Unit Nat),
      m.occ ⟨0, 0⟩ = true ∧ Free m ⟨0, 1⟩ ∧
      AStar.searchPath (N2.problem m pathCost (fun _ _ => 0) ⟨0, 1⟩) true 10 ⟨0, 0⟩ = some (.success, s) ∧
      Bi.searchPath (N2.biProblem m pathCost pathCost (fun _ => 0) (fun _ => 0)) true 10 ⟨0, 0⟩ ⟨0, 1⟩ =
        some (.failure, s') := by
  obtain ⟨s, h1, -⟩ := cost_some (r := AStar.searchPath (N2.problem ⟨1, 2, fun c => decide (c = ⟨0, 0⟩)⟩ steps
    (fun _ _ => 0) ⟨0, 1⟩) true 10 ⟨0, 0⟩) (show _ = some (Status.success, some 10) by decide +kernel)
  obtain ⟨s', h3, -⟩ := costB_some (r := Bi.searchPath (N2.biProblem ⟨1, 2, fun c => decide (c = ⟨0, 0⟩)⟩ steps steps
    (fun _ => 0) (fun _ => 0)) true 10 ⟨0, 0⟩ ⟨0, 1⟩) (show _ = some (Status.failure, none) by decide +kernel)
  exact ⟨_, _, s, s', by decide, ⟨by unfold Inside; decide, by decide⟩, h1, h3⟩

end PathPlanning
