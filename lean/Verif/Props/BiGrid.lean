import Verif.Model.BiGrid
import Verif.Props.Grid
import Verif.Props.Bidirectional

/-!
# C101: the bidirectional grid planner
-/

namespace PathPlanning
open Spec AStar

section
variable {C : Type} [AddCommMonoid C] [LinearOrder C] {m : GridMap} {pathCost pathCostR : Cell → Cell → C}
  {hf hr : Cell → C}

private theorem wf : Bi.Wf (N2.biProblem m pathCost pathCostR hf hr) :=
  ⟨⟨by simp [N2.biProblem], by simp [N2.biProblem], by simp [N2.biProblem]⟩, rfl, fun _ => rfl, fun _ => rfl⟩

private theorem ftr : (N2.biProblem m pathCost pathCostR hf hr).fwd.tr =
    (N2.problem m pathCost (fun c _ => hf c) ⟨0, 0⟩).tr := rfl

private theorem rtr : (N2.biProblem m pathCost pathCostR hf hr).rev.tr =
    (N2.problem m pathCostR (fun c _ => hr c) ⟨0, 0⟩).tr := rfl

private theorem respF : (N2.biProblem m pathCost pathCostR hf hr).fwd.Respects := by
  refine ⟨?_, ?_, ?_⟩
  · intro u u' h; simp only [N2.biProblem, decide_eq_true_eq] at h; subst h; rfl
  · intro u u' h; simp only [N2.biProblem, decide_eq_true_eq] at h; subst h; rfl
  · intro u u' h v a c hv
    simp only [N2.biProblem, decide_eq_true_eq] at h; subst h
    exact ⟨v, a, hv, by simp [N2.biProblem]⟩

private theorem respR : (N2.biProblem m pathCost pathCostR hf hr).rev.Respects :=
  respF (m := m) (pathCost := pathCostR) (pathCostR := pathCost) (hf := hr) (hr := hf)

private theorem route_free {heur : Cell → Cell → C} {g a b : Cell} (ha : Free m a) {l : List (Unit × C × Cell)}
    (h : Route (N2.problem m pathCost heur g).tr a l b) : Free m b := by
  cases h with
  | nil => exact ha
  | snoc _ h2 => exact ((N2.tr_iff _ _ _ _).mp h2).2.1.1

/-- Moves between free cells can be taken backwards. -/
private theorem exact_one {c c' : Cell → Cell → C} {h h' : Cell → Cell → C} {g g' s : Cell} (hs : Free m s)
    (hsym : ∀ a b, c' b a = c a b) (u : Cell) (a : Unit) (x : C) (v : Cell)
    (hu : Reachable (N2.problem m c h g).tr s u) (ht : (N2.problem m c h g).tr u a x v) :
    ∃ a', (N2.problem m c' h' g').tr v a' x u := by
  obtain ⟨l, hl⟩ := hu
  have hfu := route_free hs hl
  obtain ⟨_, ⟨h1, h2, h3⟩, rfl⟩ := (N2.tr_iff _ _ _ _).mp ht
  refine ⟨(), (N2.tr_iff _ _ _ _).mpr ⟨h1.1, ⟨hfu, ?_, ?_⟩, (hsym u v).symm⟩⟩
  · rw [chebyshev_eq_one] at h2 ⊢; omega
  · rintro hr hk ⟨a, b⟩
    exact h3 (Ne.symm hr) (Ne.symm hk) ⟨b, a⟩

private theorem exact {init goal : Cell} (hi : Free m init) (hg : Free m goal)
    (hsym : ∀ a b, pathCostR b a = pathCost a b) :
    (N2.biProblem m pathCost pathCostR hf hr).ExactReverseFrom init goal :=
  ⟨fun u a x v hu ht => exact_one (c' := pathCostR) (h := fun c _ => hf c) (h' := fun c _ => hr c) (g := ⟨0, 0⟩) (g' := ⟨0, 0⟩) hi hsym u a x v hu ht,
   fun u a x v hu ht => exact_one (c' := pathCost) (h := fun c _ => hr c) (h' := fun c _ => hf c) (g := ⟨0, 0⟩) (g' := ⟨0, 0⟩) hg
    (fun a b => (hsym b a).symm) u a x v hu ht⟩

/-- C101. The search terminates within one iteration per cell of the map, plus one, and asks only for neighbours of cells
inside the map (so the propagator accesses no cell outside it, C19). -/
theorem C101_terminates (m : GridMap) (pathCost pathCostR : Cell → Cell → C) (hf hr : Cell → C) (init goal : Cell)
    (hi : Inside m init) :
    (Bi.searchPath (N2.biProblem m pathCost pathCostR hf hr) true (m.rows.toNat * m.columns.toNat + 1) init goal).isSome
      = true := by
  rw [← length_allCells m.rows m.columns]
  refine C14_bidirectional_terminates wf ?_
  rintro x ⟨steps, h⟩
  exact ⟨x, (mem_allCells _ _ x).mpr (N2.walk_of_route (pathCost := pathCost) (heur := fun c _ => hf c)
    (goal := ⟨0, 0⟩) hi h).2.1, by simp [N2.biProblem]⟩

/-- C101. `Failure` between free cells means that there is no walk of legal moves. -/
theorem C101_failure_no_path_partial (m : GridMap) (pathCost pathCostR : Cell → Cell → C) (hf hr : Cell → C)
    (hsym : ∀ a b, pathCostR b a = pathCost a b) (init goal : Cell) (hi : Free m init) (hg : Free m goal) {graph : Bool}
    {fuel : Nat} {s : BiSearch Cell Unit C}
    (h : Bi.searchPath (N2.biProblem m pathCost pathCostR hf hr) graph fuel init goal = some (.failure, s)) :
    ¬ ∃ cells, Walk m init cells goal := by
  rintro ⟨cells, hw⟩
  obtain ⟨steps, h1, _⟩ := N2.route_of_walk (pathCost := pathCost) (heur := fun c _ => hf c) (goal := ⟨0, 0⟩) hi.1 hw
  exact C14_bidirectional_failure_unreachable wf (exact hi hg hsym) (fun _ _ => rfl) (fun _ _ => rfl) respF respR h
    ⟨steps, h1⟩

section
variable [IsOrderedCancelAddMonoid C]

/-- C101, partial: `Success` between free cells returns a walk of legal moves from start to goal, in which the meeting cell
is listed twice (C13), and its cost. -/
theorem C101_success_is_free_path_partial (m : GridMap) (pathCost pathCostR : Cell → Cell → C) (hf hr : Cell → C)
    (hsym : ∀ a b, pathCostR b a = pathCost a b) (init goal : Cell) (hi : Free m init) (hg : Free m goal) {graph : Bool}
    {fuel : Nat} {s : BiSearch Cell Unit C}
    (h : Bi.searchPath (N2.biProblem m pathCost pathCostR hf hr) graph fuel init goal = some (.success, s)) :
    ∃ pre meet post, Bi.getPath s = some (pre ++ meet :: meet :: post) ∧ Walk m init (pre ++ meet :: post) goal ∧
      Bi.getOptimalCost s = some (walkCost pathCost (pre ++ meet :: post)) := by
  obtain ⟨steps, pre, x, post, h1, h2, h3, h4⟩ := C13_bidirectional_path_real_partial wf (exact hi hg hsym)
    (by intro a b h; simpa [N2.biProblem] using h) h
  obtain ⟨w1, _, w2⟩ := N2.walk_of_route (pathCost := pathCost) (heur := fun c _ => hf c) (goal := ⟨0, 0⟩) hi.1 h1
  rw [h2] at w1 w2
  exact ⟨pre, x, post, h3, w1, by rw [h4, w2]⟩

/-- C101, partial (see `C16_bidirectional_not_optimal`): with non-negative heuristics that no legal move undercuts, the
reverse one 0 at the start, the cost plus the reverse estimate at the goal is at most twice the cost of any walk. -/
theorem C101_cost_bound_partial (m : GridMap) (pathCost pathCostR : Cell → Cell → C) (hf hr : Cell → C)
    (hsym : ∀ a b, pathCostR b a = pathCost a b) (init goal : Cell) (hi : Free m init) (hg : Free m goal)
    (h0f : ∀ c, 0 ≤ hf c) (h0r : ∀ c, 0 ≤ hr c) (hz : hr init = 0)
    (hcf : ∀ u v, Inside m u → Move m u v → hf u ≤ pathCost u v + hf v)
    (hcr : ∀ u v, Inside m u → Move m u v → hr u ≤ pathCostR u v + hr v) {fuel : Nat} {s : BiSearch Cell Unit C}
    (h : Bi.searchPath (N2.biProblem m pathCost pathCostR hf hr) true fuel init goal = some (.success, s)) :
    ∃ c, Bi.getOptimalCost s = some c ∧ ∀ other, Walk m init other goal →
      c + hr goal ≤ walkCost pathCost other + walkCost pathCost other := by
  obtain ⟨c, h1, h2⟩ := C16_bidirectional_bound_partial wf (exact hi hg hsym) (fun _ _ => rfl) (fun _ _ => rfl) respF respR
    (fun _ _ => rfl) (fun _ _ => rfl)
    (fun u a x v ht => by
      obtain ⟨k1, k2, rfl⟩ := (N2.tr_iff (heur := fun c _ => hf c) (goal := ⟨0, 0⟩) _ _ _ _).mp ht
      exact hcf u v k1 k2)
    (fun u a x v ht => by
      obtain ⟨k1, k2, rfl⟩ := (N2.tr_iff (heur := fun c _ => hr c) (goal := ⟨0, 0⟩) _ _ _ _).mp ht
      exact hcr u v k1 k2)
    0 0 (by rw [add_zero]) h0f h0r h
  refine ⟨c, h1, fun other hw => ?_⟩
  obtain ⟨steps, k1, k2⟩ := N2.route_of_walk (pathCost := pathCost) (heur := fun c _ => hf c) (goal := ⟨0, 0⟩) hi.1 hw
  have := h2 steps k1
  rw [k2] at this
  have e : (N2.biProblem m pathCost pathCostR hf hr).rev.h init = 0 := hz
  rw [e, add_zero, add_zero, add_zero] at this
  exact this

end
end

/-! ### Witnesses -/

private def king : Cell → Cell → Nat := fun a b => if a.isDiagonalTo b then 14 else 10

private structure CellsView where
  path : Option (List Cell)
  cost : Option Nat
  deriving DecidableEq

private def cview (r : Option (Status × BiSearch Cell Unit Nat)) : Option (Status × CellsView) :=
  r.map fun r => (r.1, ⟨Bi.getPath r.2, Bi.getOptimalCost r.2⟩)

private theorem cview_some {r : Option (Status × BiSearch Cell Unit Nat)} {st : Status} {v : CellsView}
    (h : cview r = some (st, v)) : ∃ s, r = some (st, s) ∧ Bi.getPath s = v.path ∧ Bi.getOptimalCost s = v.cost := by
  cases r with
  | none => cases h
  | some r =>
    obtain ⟨st', s⟩ := r
    simp only [cview, Option.map_some, Option.some.injEq, Prod.mk.injEq] at h
    obtain ⟨rfl, rfl⟩ := h
    exact ⟨s, rfl, rfl, rfl⟩

/-- C101 is violated when the goal is occupied: on a 1 × 3 map whose last cell is blocked the planner succeeds with a path
into the blocked cell, to which no legal move leads. -/
theorem C101_occupied_goal : ∃ (m : GridMap) (s : BiSearch Cell Unit Nat), m.occ ⟨0, 2⟩ = true ∧
    Bi.searchPath (N2.biProblem m king king (fun _ => 0) (fun _ => 0)) true 10 ⟨0, 0⟩ ⟨0, 2⟩ = some (.success, s) ∧
    Bi.getPath s = some [⟨0, 0⟩, ⟨0, 1⟩, ⟨0, 1⟩, ⟨0, 2⟩] ∧ ¬ ∃ cells, Walk m ⟨0, 0⟩ cells ⟨0, 2⟩ := by
  obtain ⟨s, h1, h2, _⟩ := cview_some (r := Bi.searchPath (N2.biProblem ⟨1, 3, fun c => decide (c = ⟨0, 2⟩)⟩ king king
    (fun _ => 0) (fun _ => 0)) true 10 ⟨0, 0⟩ ⟨0, 2⟩)
    (show _ = some (Status.success, (⟨some [⟨0, 0⟩, ⟨0, 1⟩, ⟨0, 1⟩, ⟨0, 2⟩], some 20⟩ : CellsView)) by decide +kernel)
  refine ⟨⟨1, 3, fun c => decide (c = ⟨0, 2⟩)⟩, s, by decide, h1, h2, ?_⟩
  rintro ⟨cells, hw⟩
  have key : ∀ a l b, Walk ⟨1, 3, fun c => decide (c = ⟨0, 2⟩)⟩ a l b → a ≠ ⟨0, 2⟩ → b ≠ ⟨0, 2⟩ := by
    intro a l b hw
    induction hw with
    | stop a => exact id
    | move h1 _ ih =>
      intro _
      refine ih ?_
      rintro rfl
      have := h1.1.2
      simp at this
  exact key _ _ _ hw (by decide) rfl

/-- C101 is violated when the start is occupied: on a 1 × 2 map whose first cell is blocked there is a legal move from the
start to the goal (and A* finds it), but the planner fails. -/
theorem C101_occupied_start : ∃ (m : GridMap) (s : BiSearch Cell Unit Nat), m.occ ⟨0, 0⟩ = true ∧
    Bi.searchPath (N2.biProblem m king king (fun _ => 0) (fun _ => 0)) true 10 ⟨0, 0⟩ ⟨0, 1⟩ = some (.failure, s) ∧
    Walk m ⟨0, 0⟩ [⟨0, 0⟩, ⟨0, 1⟩] ⟨0, 1⟩ := by
  obtain ⟨s, h1, _⟩ := cview_some (r := Bi.searchPath (N2.biProblem ⟨1, 2, fun c => decide (c = ⟨0, 0⟩)⟩ king king
    (fun _ => 0) (fun _ => 0)) true 10 ⟨0, 0⟩ ⟨0, 1⟩)
    (show _ = some (Status.failure, (⟨some [], none⟩ : CellsView)) by decide +kernel)
  refine ⟨⟨1, 2, fun c => decide (c = ⟨0, 0⟩)⟩, s, by decide, h1, .move ⟨⟨?_, by decide⟩, by decide, by decide⟩ (.stop _)⟩
  unfold Inside; decide

/-- C101 is violated: the path need not be a shortest one. On a 3 × 3 map with a blocked centre (steps cost 10, diagonal
steps 14; zero heuristics) the planner reports the cost 40; a walk of cost 34 exists. -/
theorem C101_not_shortest : ∃ (m : GridMap) (s : BiSearch Cell Unit Nat) (cells : List Cell),
    Bi.searchPath (N2.biProblem m king king (fun _ => 0) (fun _ => 0)) true 10 ⟨0, 0⟩ ⟨2, 2⟩ = some (.success, s) ∧
    Bi.getOptimalCost s = some 40 ∧ Walk m ⟨0, 0⟩ cells ⟨2, 2⟩ ∧ walkCost king cells = 34 := by
  obtain ⟨s, h1, _, h2⟩ := cview_some (r := Bi.searchPath (N2.biProblem ⟨3, 3, fun c => decide (c = ⟨1, 1⟩)⟩ king king
    (fun _ => 0) (fun _ => 0)) true 10 ⟨0, 0⟩ ⟨2, 2⟩)
    (show _ = some (Status.success, (⟨some [⟨0, 0⟩, ⟨1, 0⟩, ⟨2, 0⟩, ⟨2, 0⟩, ⟨2, 1⟩, ⟨2, 2⟩], some 40⟩ : CellsView)) by
      decide +kernel)
  refine ⟨⟨3, 3, fun c => decide (c = ⟨1, 1⟩)⟩, s, [⟨0, 0⟩, ⟨0, 1⟩, ⟨1, 2⟩, ⟨2, 2⟩], h1, h2, ?_, by decide⟩
  refine .move ⟨⟨?_, by decide⟩, by decide, by decide⟩ (.move ⟨⟨?_, by decide⟩, by decide, by decide⟩
    (.move ⟨⟨?_, by decide⟩, by decide, by decide⟩ (.stop _))) <;> unfold Inside <;> decide

/-- A 3 × 3 map with a blocked centre: the hypotheses are met, the search succeeds, and so does it not when a wall separates
start and goal. -/
example : let m : GridMap := ⟨3, 3, fun c => decide (c = ⟨1, 1⟩)⟩
    Free m ⟨0, 0⟩ ∧ Free m ⟨2, 2⟩ ∧ (∀ a b, king b a = king a b) ∧
    (cview (Bi.searchPath (N2.biProblem m king king (fun _ => 0) (fun _ => 0)) true 10 ⟨0, 0⟩ ⟨2, 2⟩)).map
      (fun v => (v.1, v.2.cost)) = some (.success, some 40) ∧
    cview (Bi.searchPath (N2.biProblem ⟨3, 3, fun c => decide (c.row = 1)⟩ king king (fun _ => 0) (fun _ => 0)) true 10
      ⟨0, 0⟩ ⟨2, 2⟩) = some (.failure, ⟨some [], none⟩) := by
  refine ⟨⟨by unfold Inside; decide, by decide⟩, ⟨by unfold Inside; decide, by decide⟩, ?_, by decide +kernel,
    by decide +kernel⟩
  intro a b
  unfold king Cell.isDiagonalTo
  simp only [ne_comm]

end PathPlanning
