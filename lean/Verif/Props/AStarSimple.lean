import Verif.Props.AStar
import Verif.Props.Grid
import Verif.Props.HybridSearch

/-!
# C142: the path of a graph search visits no state twice
-/

namespace PathPlanning
open Spec AStar

section
variable {S A C : Type}

/-- The states from the root to a node. -/
private def chain : ANode S A C → List S
  | .root s _ _ => [s]
  | .child p s _ _ _ => chain p ++ [s]

/-- The same without the node itself. -/
private def before : ANode S A C → List S
  | .root _ _ _ => []
  | .child p _ _ _ _ => chain p

private theorem chain_eq : ∀ n : ANode S A C, chain n = before n ++ [n.state]
  | .root _ _ _ => rfl
  | .child _ _ _ _ _ => rfl

variable [LinearOrder C] [Add C] [Zero C] {P : Problem S A C}

omit [LinearOrder C] [Add C] [Zero C] in
private theorem fill_chain : ∀ (n : ANode S A C) (acc : List S),
    fillStates (n.depth + 1) (some n) acc = some (chain n ++ acc)
  | .root _ _ _, _ => rfl
  | .child p s _ _ _, acc => by
    simp only [ANode.depth, fillStates, ANode.parent, ANode.state, chain]
    exact (fill_chain p (s :: acc)).trans (by simp)

private def Simple (P : Problem S A C) (s : Search S A C) : Prop :=
  ∀ y ∈ s.frontier.vec, (chain y).Pairwise (fun a b => P.eqS a b = false) ∧ ∀ x ∈ before y, x ∈ s.calls

private theorem simple_init (he : KeyEquiv P.eqS) (init : S) : Simple P (initSearch P init) := by
  have h : (initSearch P init).frontier.vec = [rootNode init] := by
    simp [initSearch, Frontier.push, Frontier.empty, Frontier.find,
      Frontier.findFirstCompareIsFalse, Frontier.ffLoop]
  intro y hy
  rw [h, List.mem_singleton] at hy
  subst hy
  exact ⟨List.pairwise_singleton _ _, fun x hx => by cases hx⟩

private theorem simple_expand (he : KeyEquiv P.eqS) {init : S} {s : Search S A C} (inv : Inv P true init s)
    (hS : Simple P s) {f' : Frontier (ANode S A C)} {n : ANode S A C}
    (hp : s.frontier.pop (eqNode P) = some (f', n)) (hns : P.isSol n.state = false) :
    Simple P (expand P true { s with frontier := f' } n) := by
  have inv' := inv_expand he inv hp hns
  obtain ⟨ok', hn, _, hmem⟩ := inv.ok.pop (cmpNode_swo (S := S) (A := A) (C := C)) (eqNode_equiv he) hp
  intro y hy
  rcases mem_expandAll he true n _ _ ok' hy with h | ⟨t, _, rfl⟩
  · obtain ⟨h1, h2⟩ := hS y ((hmem y).1 h).1
    exact ⟨h1, fun x hx => List.mem_cons_of_mem _ (h2 x hx)⟩
  · obtain ⟨h1, h2⟩ := hS n hn
    have hc : ∀ x ∈ chain n, x ∈ (expand P true { s with frontier := f' } n).calls := by
      intro x hx
      rw [chain_eq, List.mem_append, List.mem_singleton] at hx
      rcases hx with hx | rfl
      · exact List.mem_cons_of_mem _ (h2 x hx)
      · exact List.mem_cons_self
    refine ⟨?_, hc⟩
    show (chain n ++ [t.1]).Pairwise _
    rw [List.pairwise_append]
    refine ⟨h1, List.pairwise_singleton _ _, fun x hx z hz => ?_⟩
    rw [List.mem_singleton] at hz
    subst hz
    cases hq : P.eqS x t.1 with
    | false => rfl
    | true => exact absurd ⟨childNode P n t, hy, he.refl _⟩ (inv'.disj rfl t.1 ⟨x, hc x hx, hq⟩)

/-- C142. On Success of a graph search, with any propagator (even randomised), any heuristic and any cost arithmetic: the
states of the returned path are pairwise different, and every one but the last has been expanded; so the path has at most
as many transitions as the propagator was called. -/
theorem C142_path_visits_no_state_twice (he : KeyEquiv P.eqS) {fuel : Nat} {init : S} {s : Search S A C}
    (h : searchPath P true fuel init = some (.success, s)) :
    ∃ states last, getPath s = some (states ++ [last]) ∧
      (states ++ [last]).Pairwise (fun a b => P.eqS a b = false) ∧
      (∀ x ∈ states, x ∈ s.calls) ∧ states.length ≤ s.calls.length := by
  rcases loop_spec he (Simple P) (fun s f' n inv hS hp hs => simple_expand he inv hS hp hs)
    fuel _ _ _ (inv_init he true init) (simple_init he init) h with h | ⟨_, s₀, f', n, inv, hS, hp, hs, rfl⟩
  · cases h.1
  · obtain ⟨_, hn, _, _⟩ := inv.ok.pop (cmpNode_swo (S := S) (A := A) (C := C)) (eqNode_equiv he) hp
    obtain ⟨h1, h2⟩ := hS n hn
    refine ⟨before n, n.state, ?_, by rw [← chain_eq]; exact h1, h2, ?_⟩
    · rw [← chain_eq]
      exact (fill_chain n []).trans (by simp)
    · have hpw : (before n).Pairwise (fun a b => P.eqS a b = false) := by
        rw [chain_eq] at h1
        exact (List.pairwise_append.1 h1).1
      exact length_le_of_covers he (before n) s₀.calls hpw (fun x hx => ⟨x, h2 x hx, he.refl _⟩)

end

/-- C142 for the grid planner: the returned walk visits no cell twice, so it has at most as many cells as the map. -/
theorem C142_grid {C : Type} [LinearOrder C] [Add C] [Zero C] (m : GridMap) (pathCost heur : Cell → Cell → C)
    (init goal : Cell) (hi : Inside m init) {fuel : Nat} {s : Search Cell Unit C}
    (h : searchPath (N2.problem m pathCost heur goal) true fuel init = some (.success, s)) :
    ∃ cells, getPath s = some cells ∧ Walk m init cells goal ∧ cells.Nodup ∧
      cells.length ≤ m.rows.toNat * m.columns.toNat := by
  obtain ⟨states, last, h1, h2, _, _⟩ := C142_path_visits_no_state_twice N2.eqv h
  obtain ⟨steps, t, h3, h4, h5⟩ := C04_astar_success_path_is_route N2.eqv h
  have ht : t = goal := by simpa [N2.problem] using h4
  subst ht
  have hw := N2.walk_of_route_any hi h3
  have e : states ++ [last] = routeStates init steps := Option.some.inj (h1.symm.trans h5)
  have hmem : ∀ {a b : Cell} {l : List Cell}, Inside m a → Walk m a l b → ∀ x ∈ l, Inside m x := by
    intro a b l ha hw
    induction hw with
    | stop a => intro x hx; rw [List.mem_singleton] at hx; rw [hx]; exact ha
    | move h1 _ ih =>
      intro x hx
      rcases List.mem_cons.1 hx with rfl | hx
      · exact ha
      · exact ih h1.1.1 x hx
  refine ⟨_, h5, hw.1, ?_, ?_⟩
  · rw [← e]
    refine h2.imp fun {a b} hab => ?_
    simpa [N2.problem] using hab
  · rw [← length_allCells m.rows m.columns]
    rw [e] at h2
    exact length_le_of_covers N2.eqv _ _ h2 (fun x hx =>
      ⟨x, (mem_allCells _ _ x).mpr (hmem hi hw.1 x hx), by simp [N2.problem]⟩)

/-- C142 for hybrid A*: no two poses of the graph search path lie in the same cell of the configuration space. -/
theorem C142_hybrid (e : HybridAStar.Propagator)
    (nbrs : Nat → HybridAStar.State → List (HybridAStar.State × HybridAStar.Action × WithTop ℝ)) (init : PoseR) (fuel : Nat)
    (s : Search HybridAStar.State HybridAStar.Action (WithTop ℝ))
    (hs : searchPath (e.problem nbrs) true fuel (HybridAStar.stateFromPose e.param init) = some (.success, s)) :
    ∃ states, getPath s = some states ∧ states.Pairwise (fun a b => a.discretePose ≠ b.discretePose) ∧
      states.length ≤ s.calls.length + 1 := by
  obtain ⟨states, last, h1, h2, _, h4⟩ := C142_path_visits_no_state_twice (P := e.problem nbrs) equal_equiv hs
  refine ⟨_, h1, h2.imp fun {a b} hab => ?_, by simpa using h4⟩
  exact of_decide_eq_false hab

/-- A 3 × 3 map with a blocked centre: the search succeeds. -/
example : (searchPath (N2.problem ⟨3, 3, fun c => decide (c = ⟨1, 1⟩)⟩
      (fun a b => if a.isDiagonalTo b then 14 else 10) (fun _ _ => 0) ⟨2, 2⟩) true 10 ⟨0, 0⟩).map
      (fun r => (r.1, getPath r.2)) =
    some (.success, some [⟨0, 0⟩, ⟨0, 1⟩, ⟨1, 2⟩, ⟨2, 2⟩]) := by decide +kernel

end PathPlanning
