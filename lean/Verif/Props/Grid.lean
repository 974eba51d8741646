import Verif.Lemmas.Grid
import Verif.Lemmas.Path
import Verif.Props.AStar
import Mathlib.Algebra.Order.Monoid.Unbundled.Basic

/-!
# C18-C21: grid cells, the grid propagator and the grid planner
-/

namespace PathPlanning
open Spec

/-- C18. For a cell of a `rows` × `columns` grid, `GetNeighbors` lists exactly the cells of the grid
at Chebyshev distance 1, each once. -/
theorem C18_neighbors_exact (m : GridMap) (c : Cell) (hc : Inside m c) :
    (∀ n, n ∈ c.getNeighbors m.rows m.columns ↔ Inside m n ∧ chebyshev c n = 1) ∧
      (c.getNeighbors m.rows m.columns).Nodup := by
  refine ⟨fun n => ?_, c.nodup_getNeighbors _ _⟩
  rw [Cell.mem_getNeighbors]
  constructor
  · intro h
    refine ⟨?_, h.2.1⟩
    rw [chebyshev_eq_one] at h
    unfold Inside at hc ⊢
    omega
  · rintro ⟨h1, h2⟩
    refine ⟨?_, h2, ?_⟩
    · simp only [Cell.isValid, Bool.and_eq_true, decide_eq_true_eq]
      unfold Inside at hc; omega
    · unfold Inside at hc h1; omega

/-- C18. Being a neighbour is symmetric inside a grid. -/
theorem C18_neighbors_symmetric (m : GridMap) (c n : Cell) (hc : Inside m c)
    (h : n ∈ c.getNeighbors m.rows m.columns) : c ∈ n.getNeighbors m.rows m.columns := by
  obtain ⟨h1, h2⟩ := ((C18_neighbors_exact m c hc).1 n).mp h
  refine ((C18_neighbors_exact m n h1).1 c).mpr ⟨hc, ?_⟩
  rw [chebyshev_eq_one] at h2 ⊢; omega

/-- C18. `IsAdjacentTo` is Chebyshev distance 1 and agrees with `GetNeighbors`. -/
theorem C18_adjacent_iff (m : GridMap) (c n : Cell) :
    (c.isAdjacentTo n = true ↔ chebyshev c n = 1) ∧
    (Inside m c → Inside m n →
      (c.isAdjacentTo n = true ↔ n ∈ c.getNeighbors m.rows m.columns)) := by
  have h1 : c.isAdjacentTo n = true ↔ chebyshev c n = 1 := by
    rw [chebyshev_eq_one]
    unfold Cell.isAdjacentTo
    split
    · rename_i h; subst h; simp
    · rename_i h
      rw [Cell.ext_iff] at h
      simp only [Bool.and_eq_true, decide_eq_true_eq]
      omega
  refine ⟨h1, fun hc hn => ?_⟩
  rw [h1, (C18_neighbors_exact m c hc).1 n]
  exact ⟨fun h => ⟨hn, h⟩, fun h => h.2⟩

/-- C18. A cell with a negative coordinate has no neighbours. -/
theorem C18_invalid_no_neighbors (c : Cell) (rows columns : Int) (h : c.row < 0 ∨ c.col < 0) :
    c.getNeighbors rows columns = [] := by
  have : c.isValid = false := by
    simp only [Cell.isValid, Bool.and_eq_false_iff, decide_eq_false_iff_not]; omega
  simp [Cell.getNeighbors, this]

/-- A corner cell of a 3 × 2 grid. -/
example : (⟨0, 0⟩ : Cell).getNeighbors 3 2 = [⟨0, 1⟩, ⟨1, 1⟩, ⟨1, 0⟩] := by decide
example : Inside ⟨3, 2, fun _ => false⟩ ⟨0, 0⟩ := by unfold Inside; decide

section
variable {C : Type}

/-- C19. From a cell of the map the propagator accesses no cell outside it and proposes exactly the
legal moves, each with the cost given by the cost function. -/
theorem C19_propagator_exact (m : GridMap) (pathCost : Cell → Cell → C) (c : Cell)
    (hc : Inside m c) :
    ∃ l, N2.getNeighborStates m pathCost c = some l ∧
      ∀ n u x, (n, u, x) ∈ l ↔ Move m c n ∧ x = pathCost c n := by
  obtain ⟨l, hl, hm⟩ := N2.getNeighborStates_inside pathCost hc
  exact ⟨l, hl, fun n u x => hm (n, u, x)⟩

/-- C19. Between free cells, legal moves can be taken backwards: the propagator with a symmetric
cost function is its own reverse. -/
theorem C19_propagator_reversible (m : GridMap) (pathCost : Cell → Cell → C)
    (hsym : ∀ a b, pathCost a b = pathCost b a) (c n : Cell) (hc : Free m c) (hn : Free m n)
    (x : C) :
    (∃ l, N2.getNeighborStates m pathCost c = some l ∧ (n, (), x) ∈ l) →
      ∃ l, N2.getNeighborStates m pathCost n = some l ∧ (c, (), x) ∈ l := by
  rintro ⟨l, hl, hx⟩
  obtain ⟨l', hl', hm⟩ := C19_propagator_exact m pathCost c hc.1
  rw [hl] at hl'; cases hl'
  obtain ⟨⟨h1, h2, h3⟩, hx2⟩ := (hm n () x).mp hx
  obtain ⟨l2, hl2, hm2⟩ := C19_propagator_exact m pathCost n hn.1
  refine ⟨l2, hl2, (hm2 c () x).mpr ⟨⟨hc, ?_, ?_⟩, by rw [hx2, hsym]⟩⟩
  · rw [chebyshev_eq_one] at h2 ⊢; omega
  · rintro hr hk ⟨a, b⟩
    exact h3 (Ne.symm hr) (Ne.symm hk) ⟨b, a⟩

/-- A blocked corner: from (0,0) with (0,1) and (1,0) blocked there is no move to (1,1), with only
(0,1) blocked there is. -/
example : N2.getNeighborStates ⟨2, 2, fun c => decide (c = ⟨0, 1⟩ ∨ c = ⟨1, 0⟩)⟩
    (fun _ _ => (1 : Nat)) ⟨0, 0⟩ = some [] := by decide
example : N2.getNeighborStates ⟨2, 2, fun c => decide (c = ⟨0, 1⟩)⟩
    (fun _ _ => (1 : Nat)) ⟨0, 0⟩ = some [(⟨1, 1⟩, (), 1), (⟨1, 0⟩, (), 1)] := by decide

end

/-! ## C20 -/

section
variable {C : Type} [LinearOrder C] [Add C] [Zero C] {m : GridMap}
  {pathCost heur : Cell → Cell → C} {goal : Cell}

theorem N2.tr_iff (u v : Cell) (a : Unit) (x : C) :
    (N2.problem m pathCost heur goal).tr u a x v ↔
      Inside m u ∧ Move m u v ∧ x = pathCost u v := by
  simp only [Problem.tr, N2.problem]
  constructor
  · rintro ⟨_, h⟩
    split at h
    · rename_i hi
      have hi := (inside_iff m u).mp hi
      obtain ⟨l, hl, hm⟩ := C19_propagator_exact m pathCost u hi
      rw [hl] at h
      exact ⟨hi, (hm v a x).mp h⟩
    · simp at h
  · rintro ⟨hi, h⟩
    refine ⟨0, ?_⟩
    obtain ⟨l, hl, hm⟩ := C19_propagator_exact m pathCost u hi
    rw [if_pos ((inside_iff m u).mpr hi), hl]
    exact (hm v a x).mpr h

theorem N2.eqv : KeyEquiv (N2.problem m pathCost heur goal).eqS :=
  ⟨by simp [N2.problem], by simp [N2.problem], by simp [N2.problem]⟩

theorem N2.det : (N2.problem m pathCost heur goal).Deterministic := fun _ _ => rfl

theorem N2.resp : (N2.problem m pathCost heur goal).Respects := by
  refine ⟨?_, ?_, ?_⟩
  · intro u u' h; simp only [N2.problem, decide_eq_true_eq] at h; subst h; rfl
  · intro u u' h; simp only [N2.problem, decide_eq_true_eq] at h; subst h; rfl
  · intro u u' h v a c hv
    simp only [N2.problem, decide_eq_true_eq] at h; subst h
    exact ⟨v, a, hv, by simp [N2.problem]⟩

theorem N2.walk_snoc {a b c : Cell} {l : List Cell} (h : Walk m a l b) (hb : Move m b c) :
    Walk m a (l ++ [c]) c := by
  induction h with
  | stop a => exact .move hb (.stop c)
  | move h1 _ ih => exact .move h1 (ih hb)

theorem N2.walk_shape {a b : Cell} {l : List Cell} (h : Walk m a l b) :
    ∃ tl pre, l = a :: tl ∧ l = pre ++ [b] := by
  induction h with
  | stop a => exact ⟨[], [], rfl, rfl⟩
  | move h1 _ ih =>
    obtain ⟨_, pre, _, h⟩ := ih
    exact ⟨_, _ :: pre, rfl, by rw [h]; rfl⟩

/-- Routes of the search problem are walks, whatever the arithmetic. -/
theorem N2.walk_of_route_any {init t : Cell} (hi : Inside m init)
    {steps : List (Unit × C × Cell)}
    (hr : Route (N2.problem m pathCost heur goal).tr init steps t) :
    Walk m init (routeStates init steps) t ∧ Inside m t := by
  induction hr with
  | nil => exact ⟨.stop _, hi⟩
  | @snoc l u a c v h1 h2 ih =>
    obtain ⟨h3, h4⟩ := ih
    obtain ⟨h6, h7, h8⟩ := (N2.tr_iff _ _ _ _).mp h2
    have he : routeStates init (l ++ [(a, c, v)]) = routeStates init l ++ [v] := by
      simp [routeStates]
    exact ⟨by rw [he]; exact N2.walk_snoc h3 h7, h7.1.1⟩

/-- Walks are routes of the search problem, whatever the arithmetic. -/
theorem N2.route_of_walk_any {init t : Cell} (hi : Inside m init) {l : List Cell}
    (hw : Walk m init l t) : ∃ steps,
      Route (N2.problem m pathCost heur goal).tr init steps t ∧ routeStates init steps = l := by
  induction hw with
  | stop a => exact ⟨[], .nil, rfl⟩
  | @move a b c l h1 h2 ih =>
    obtain ⟨steps, h3, h4⟩ := ih h1.1.1
    exact ⟨((), pathCost a b, b) :: steps, Route.cons ((N2.tr_iff _ _ _ _).mpr ⟨hi, h1, rfl⟩) h3, by
      rw [← h4]; rfl⟩

/-- C20. The grid planner terminates, with any cost arithmetic, within one iteration per cell of the map plus one. -/
theorem C20_grid_search_terminates (m : GridMap) (pathCost heur : Cell → Cell → C)
    (init goal : Cell) (hi : Inside m init) :
    (AStar.searchPath (N2.problem m pathCost heur goal) true
      (m.rows.toNat * m.columns.toNat + 1) init).isSome = true := by
  rw [← length_allCells m.rows m.columns]
  refine C08_astar_graph_search_terminates N2.eqv ?_
  rintro x ⟨steps, hr⟩
  exact ⟨x, (mem_allCells _ _ x).mpr (N2.walk_of_route_any hi hr).2, by simp [N2.problem]⟩

/-- C20. On Failure, with any cost arithmetic, there is no walk of legal moves from start to goal. -/
theorem C20_grid_failure_no_path (m : GridMap) (pathCost heur : Cell → Cell → C)
    (init goal : Cell) (hi : Inside m init) {fuel : Nat} {s : Search Cell Unit C}
    (h : AStar.searchPath (N2.problem m pathCost heur goal) true fuel init = some (.failure, s)) :
    (¬ ∃ cells, Walk m init cells goal) ∧ ∀ c ∈ s.calls, Inside m c := by
  constructor
  · rintro ⟨cells, hw⟩
    obtain ⟨steps, h1, _⟩ := N2.route_of_walk_any (pathCost := pathCost) (heur := heur) (goal := goal) hi hw
    exact C07_astar_failure_unreachable N2.eqv N2.det N2.resp h ⟨goal, ⟨steps, h1⟩, by simp [N2.problem]⟩
  · intro c hc
    obtain ⟨_, hr⟩ := (C08_astar_no_state_expanded_twice N2.eqv h).2 c hc
    exact (N2.walk_of_route_any hi hr).2

end

section
variable {C : Type} [AddCommMonoid C] [LinearOrder C] {m : GridMap}
  {pathCost heur : Cell → Cell → C} {goal : Cell}

theorem N2.walkCost_snoc (f : Cell → Cell → C) (l : List Cell) (b c : Cell) :
    walkCost f (l ++ [b] ++ [c]) = walkCost f (l ++ [b]) + f b c := by
  induction l with
  | nil => simp [walkCost]
  | cons x l ih =>
    cases l with
    | nil => simp [walkCost]
    | cons y l =>
      simp only [List.cons_append, walkCost] at ih ⊢
      rw [ih, add_assoc]

/-- Routes of the search problem are walks. -/
theorem N2.walk_of_route {init t : Cell} (hi : Inside m init)
    {steps : List (Unit × C × Cell)}
    (hr : Route (N2.problem m pathCost heur goal).tr init steps t) :
    Walk m init (routeStates init steps) t ∧ Inside m t ∧
      routeCost steps = walkCost pathCost (routeStates init steps) := by
  induction hr with
  | nil => exact ⟨.stop _, hi, rfl⟩
  | @snoc l u a c v h1 h2 ih =>
    obtain ⟨h3, h4, h5⟩ := ih
    obtain ⟨h6, h7, h8⟩ := (N2.tr_iff _ _ _ _).mp h2
    have he : routeStates init (l ++ [(a, c, v)]) = routeStates init l ++ [v] := by
      simp [routeStates]
    refine ⟨by rw [he]; exact N2.walk_snoc h3 h7, h7.1.1, ?_⟩
    obtain ⟨_, pre, _, hp⟩ := N2.walk_shape h3
    rw [he, routeCost_append, h5, hp, N2.walkCost_snoc, h8]
    simp [routeCost]

/-- Walks are routes of the search problem. -/
theorem N2.route_of_walk {init t : Cell} (hi : Inside m init) {l : List Cell}
    (hw : Walk m init l t) : ∃ steps,
      Route (N2.problem m pathCost heur goal).tr init steps t ∧
      routeCost steps = walkCost pathCost l := by
  induction hw with
  | stop a => exact ⟨[], .nil, rfl⟩
  | @move a b c l h1 h2 ih =>
    obtain ⟨steps, h3, h4⟩ := ih h1.1.1
    refine ⟨((), pathCost a b, b) :: steps, Route.cons ((N2.tr_iff _ _ _ _).mpr ⟨hi, h1, rfl⟩) h3, ?_⟩
    obtain ⟨tl, _, htl, _⟩ := N2.walk_shape h2
    rw [routeCost_cons, h4, htl]
    rfl

/-- C20. On Success the planner returns a walk of legal moves from start to goal together with its
cost; the search only asks for the neighbours of cells inside the map. -/
theorem C20_grid_success_is_free_path (m : GridMap) (pathCost heur : Cell → Cell → C)
    (init goal : Cell) (hi : Inside m init) {fuel : Nat} {s : Search Cell Unit C}
    (h : AStar.searchPath (N2.problem m pathCost heur goal) true fuel init = some (.success, s)) :
    (∃ cells, AStar.getPath s = some cells ∧ Walk m init cells goal ∧
      AStar.getOptimalCost s = some (walkCost pathCost cells)) ∧
    ∀ c ∈ s.calls, Inside m c := by
  constructor
  · obtain ⟨steps, t, h1, h2, h3, _, h5⟩ := C05_astar_cost_and_actions_match_path N2.eqv h
    have ht : t = goal := by simpa [N2.problem] using h2
    subst ht
    obtain ⟨h6, _, h8⟩ := N2.walk_of_route hi h1
    exact ⟨_, h3, h6, by rw [h5, h8]⟩
  · intro c hc
    obtain ⟨_, hr⟩ := (C08_astar_no_state_expanded_twice N2.eqv h).2 c hc
    exact (N2.walk_of_route hi hr).2.1

/-- C20. If the heuristic is consistent for legal moves, the returned path is a cheapest one. -/
theorem C20_grid_optimal [IsOrderedCancelAddMonoid C] (m : GridMap)
    (pathCost heur : Cell → Cell → C) (init goal : Cell) (hi : Inside m init)
    (hcon : ∀ u v, Inside m u → Move m u v → heur u goal ≤ pathCost u v + heur v goal)
    {fuel : Nat} {s : Search Cell Unit C}
    (h : AStar.searchPath (N2.problem m pathCost heur goal) true fuel init = some (.success, s)) :
    ∃ cells, AStar.getPath s = some cells ∧ Walk m init cells goal ∧
      ∀ other, Walk m init other goal → walkCost pathCost cells ≤ walkCost pathCost other := by
  obtain ⟨⟨cells, h1, h2, h3⟩, _⟩ := C20_grid_success_is_free_path m pathCost heur init goal hi h
  refine ⟨cells, h1, h2, ?_⟩
  intro other hw
  obtain ⟨c, hc, hopt⟩ := C06_astar_consistent_optimal N2.eqv N2.det N2.resp (fun _ _ => rfl)
    (by
      intro u a c v htr
      obtain ⟨h4, h5, rfl⟩ := (N2.tr_iff _ _ _ _).mp htr
      exact hcon u v h4 h5)
    (by
      intro t t' ht ht'
      have e1 : t = goal := by simpa [N2.problem] using ht
      have e2 : t' = goal := by simpa [N2.problem] using ht'
      rw [e1, e2]) h
  rw [h3] at hc
  cases hc
  obtain ⟨steps, h4, h5⟩ := N2.route_of_walk (pathCost := pathCost) (heur := heur) (goal := goal) hi hw
  rw [← h5]
  exact hopt steps goal h4 (by simp [N2.problem])

end

/-- A 3 × 3 map with a blocked centre and a consistent (zero) heuristic. -/
private def exM : GridMap := ⟨3, 3, fun c => decide (c = ⟨1, 1⟩)⟩

private structure CellView where
  path : Option (List Cell)
  cost : Option Nat
  deriving DecidableEq

example : (AStar.searchPath (N2.problem exM
      (fun a b => if a.isDiagonalTo b then 14 else 10) (fun _ _ => 0) ⟨2, 2⟩) true 10 ⟨0, 0⟩).map
      (fun r => (r.1, (⟨AStar.getPath r.2, AStar.getOptimalCost r.2⟩ : CellView))) =
    some (.success, ⟨some [⟨0, 0⟩, ⟨0, 1⟩, ⟨1, 2⟩, ⟨2, 2⟩], some 34⟩) := by decide +kernel

end PathPlanning
