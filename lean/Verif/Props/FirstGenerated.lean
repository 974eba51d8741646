import Verif.Props.HybridGoalExample
import Mathlib.Logic.Relation

/-!
# C88: which state represents a cell
-/

namespace PathPlanning

namespace Spec
/-- The states a search has generated, in the order in which they were generated: the start, then the states
that each call of `GetNeighborStates` returned. `calls` are the arguments of the calls, the last one first. -/
def generated {S A C : Type} (nbrs : Nat → S → List (S × A × C)) (init : S) : List S → List S
  | [] => [init]
  | u :: rest => generated nbrs init rest ++ (nbrs rest.length u).map (·.1)
end Spec

open Spec

namespace AStar
variable {S A C : Type} [LinearOrder C] [Add C] [Zero C] {P : Problem S A C}

/-- `y` comes from the first state of `l` equal to it by replacements. -/
private def First (P : Problem S A C) (l : List S) (y : S) : Prop :=
  ∃ x, l.find? (fun g => P.eqS g y) = some x ∧ Relation.ReflTransGen (fun a b => P.mayReplace a b = true) x y

private theorem First.append {l : List S} {y : S} (h : First P l y) (l' : List S) : First P (l ++ l') y := by
  obtain ⟨x, h1, h2⟩ := h
  exact ⟨x, by rw [List.find?_append, h1]; rfl, h2⟩

private theorem first_expandOne (he : KeyEquiv P.eqS) (n : ANode S A C) (ex : List (ANode S A C))
    {f : Frontier (ANode S A C)} (ok : FOk P f) {G : List S} (t : S × A × C)
    (hA : ∀ y ∈ f.vec, First P G y.state)
    (hB : ∀ g ∈ G, exploredContains P ex g = true ∨ InF P f g) :
    (∀ y ∈ (expandOne P true n ex f t).vec, First P (G ++ [t.1]) y.state) ∧
    (∀ g ∈ G ++ [t.1], exploredContains P ex g = true ∨ InF P (expandOne P true n ex f t) g) := by
  have he' := eqNode_equiv he
  have hc := cmpNode_swo (S := S) (A := A) (C := C)
  constructor
  · intro y hy
    unfold expandOne at hy
    simp only [if_true] at hy
    cases hf : f.find (eqNode P) (childNode P n t) with
    | none =>
      rw [hf] at hy
      dsimp only at hy
      split at hy
      · exact (hA y hy).append _
      · rename_i hex
        rcases (ok.mem_push_new hc he' hf y).1 hy with rfl | hy
        · refine ⟨t.1, ?_, .refl⟩
          have hno : G.find? (fun g => P.eqS g t.1) = none := by
            rw [List.find?_eq_none]
            intro g hg hgt
            rcases hB g hg with h | ⟨z, hz, hzg⟩
            · rw [exploredContains_iff] at h
              obtain ⟨m, hm, hmg⟩ := h
              exact hex (exploredContains_iff.2 ⟨m, hm, he.trans _ _ _ hmg hgt⟩)
            · have := (ok.find_none_iff he' _).1 hf z hz
              have h2 : eqNode P z (childNode P n t) = true := he.trans _ _ _ hzg hgt
              rw [h2] at this
              cases this
          show (G ++ [t.1]).find? (fun g => P.eqS g t.1) = some t.1
          rw [List.find?_append, hno]
          simp [he.refl]
        · exact (hA y hy).append _
    | some fn =>
      rw [hf] at hy
      dsimp only at hy
      unfold processShortcut at hy
      split at hy
      · rename_i hr
        rcases (mem_shortcut he ok hf y).1 hy with rfl | hy
        · obtain ⟨h1, h2⟩ := (ok.find_iff he' _ fn).1 hf
          have h2 : P.eqS fn.state t.1 = true := h2
          obtain ⟨x, hx1, hx2⟩ := hA fn h1
          refine First.append (y := t.1) ⟨x, ?_, hx2.tail (Bool.and_eq_true_iff.mp hr).1⟩ _
          rw [← hx1]
          congr 1
          funext g
          rw [Bool.eq_iff_iff]
          exact ⟨fun h => he.trans _ _ _ h (he.symm _ _ h2), fun h => he.trans _ _ _ h h2⟩
        · exact (hA y hy.1).append _
      · exact (hA y hy).append _
  · intro g hg
    rcases List.mem_append.mp hg with hg | hg
    · exact (hB g hg).imp id fun h => (inF_expandOne he true n ex ok t g).2 (.inl h)
    · rw [List.mem_singleton] at hg
      subst hg
      cases hex : exploredContains P ex t.1 with
      | true => exact .inl rfl
      | false => exact .inr ((inF_expandOne he true n ex ok t t.1).2 (.inr ⟨he.refl _, fun _ => .inl hex⟩))

private theorem first_expandAll (he : KeyEquiv P.eqS) (n : ANode S A C) (ex : List (ANode S A C)) :
    ∀ (ts : List (S × A × C)) {f : Frontier (ANode S A C)}, FOk P f → ∀ {G : List S},
    (∀ y ∈ f.vec, First P G y.state) → (∀ g ∈ G, exploredContains P ex g = true ∨ InF P f g) →
    (∀ y ∈ (ts.foldl (expandOne P true n ex) f).vec, First P (G ++ ts.map (·.1)) y.state) ∧
    (∀ g ∈ G ++ ts.map (·.1), exploredContains P ex g = true ∨ InF P (ts.foldl (expandOne P true n ex) f) g)
  | [], f, _, G, hA, hB => by simpa using ⟨hA, hB⟩
  | t :: ts, f, ok, G, hA, hB => by
    obtain ⟨h1, h2⟩ := first_expandOne he n ex ok t hA hB
    have := first_expandAll he n ex ts (ok_expandOne he true n ex ok t) h1 h2
    simpa using this

/-- In a graph search every expanded state, and the solution, comes from the first generated state equal to
it by the replacements that the search allows. -/
theorem first_generated (he : KeyEquiv P.eqS) {init : S} {fuel : Nat} {st : Status} {s : Search S A C}
    (h : searchPath P true fuel init = some (st, s)) (y : S)
    (hy : y ∈ s.calls ∨ ∃ n, s.solution = some n ∧ n.state = y) :
    ∃ x, (generated P.nbrs init s.calls).find? (fun g => P.eqS g y) = some x ∧
      Relation.ReflTransGen (fun a b => P.mayReplace a b = true) x y := by
  have he' := eqNode_equiv he
  have hc := cmpNode_swo (S := S) (A := A) (C := C)
  have h0 : (∀ y ∈ (initSearch P init).frontier.vec, First P (generated P.nbrs init []) y.state) ∧
      (∀ y ∈ ([] : List S), First P (generated P.nbrs init []) y) ∧
      (∀ g ∈ generated P.nbrs init [], Expanded P [] g ∨ InF P (initSearch P init).frontier g) := by
    have hv : (initSearch P init).frontier.vec = [rootNode init] := by
      simp [initSearch, Frontier.push, Frontier.empty]
    refine ⟨?_, ?_, ?_⟩
    · intro y hy
      rw [hv, List.mem_singleton] at hy
      subst hy
      refine ⟨init, ?_, .refl⟩
      show [init].find? (fun g => P.eqS g init) = some init
      simp [he.refl]
    · intro y hy
      cases hy
    · intro g hg
      right
      have hg : g ∈ [init] := hg
      rw [List.mem_singleton] at hg
      subst hg
      exact ⟨rootNode g, by rw [hv]; exact List.mem_singleton.mpr rfl, he.refl _⟩
  rcases loop_spec he (graph := true) (init := init)
    (fun s => (∀ y ∈ s.frontier.vec, First P (generated P.nbrs init s.calls) y.state) ∧
      (∀ y ∈ s.calls, First P (generated P.nbrs init s.calls) y) ∧
      (∀ g ∈ generated P.nbrs init s.calls, Expanded P s.calls g ∨ InF P s.frontier g))
    (by
      intro s f' n inv ⟨hA, hA', hB⟩ hp hns
      have inv' := inv_expand he inv hp hns
      obtain ⟨ok', hn, hmin, hmem⟩ := inv.ok.pop hc he' hp
      obtain ⟨h1, h2⟩ := first_expandAll he n (exploredInsert P s.explored n) (P.nbrs s.calls.length n.state) ok'
        (G := generated P.nbrs init s.calls) (fun y hy => hA y ((hmem y).1 hy).1) (by
          intro g hg
          rcases hB g hg with hx | ⟨z, hz, hzg⟩
          · exact .inl ((exploredContains_insert he).2 (.inl ((inv.explored_iff g).2 (.inl hx))))
          · cases hq : eqNode P z n with
            | false => exact .inr ⟨z, (hmem z).2 ⟨hz, hq⟩, hzg⟩
            | true =>
              exact .inl ((exploredContains_insert he).2 (.inr (he.trans _ _ _ (he.symm _ _ hq) hzg))))
      refine ⟨h1, ?_, ?_⟩
      · intro y hy
        rw [calls_expand] at hy
        rcases List.mem_cons.mp hy with rfl | hy
        · exact (hA n hn).append _
        · exact (hA' y hy).append _
      · intro g hg
        rcases h2 g hg with hx | hx
        · have := (inv'.explored_iff g).1 hx
          rcases this with h | h
          · exact .inl h
          · rcases inv'.initIn with ⟨w, hw, hwi⟩ | hF
            · exact .inl ⟨w, hw, he.trans _ _ _ hwi h⟩
            · exact .inr (inF_congr he h hF)
        · exact .inr hx)
    fuel _ _ _ (inv_init he true init) h0 h with ⟨-, inv, ⟨-, hA', -⟩, -⟩ | ⟨-, s₀, f', n, inv, ⟨hA, hA', -⟩, hp, -, hs⟩
  · rcases hy with hy | ⟨n, hn, -⟩
    · exact hA' y hy
    · rw [inv.sol] at hn; cases hn
  · rw [hs] at hy ⊢
    rcases hy with hy | ⟨m, hm, rfl⟩
    · exact hA' y hy
    · simp only [Option.some.injEq] at hm
      subst hm
      exact hA _ (inv.ok.pop hc he' hp).2.1

end AStar

open HybridAStar HybridAStar.Propagator

/-- C88 (partial: the first, not the cheapest). Every state that hybrid A* expands, and the final state it
returns, is the first state the search generated in its cell, or is linked to it by states of which each is
within 1 mm and 0.001° of the one before. -/
theorem C88_first_generated_partial (e : Propagator) (nbrs : Nat → State → List (State × Action × WithTop ℝ))
    (init : State) (fuel : Nat) (st : Status) (s : Search State Action (WithTop ℝ))
    (h : AStar.searchPath (e.problem nbrs) true fuel init = some (st, s)) (y : State)
    (hy : y ∈ s.calls ∨ ∃ n, s.solution = some n ∧ n.state = y) :
    ∃ x, (generated nbrs init s.calls).find? (fun g => decide (g.discretePose = y.discretePose)) = some x ∧
      Relation.ReflTransGen (fun a b : State => (a.continuousPose.position - b.continuousPose.position).norm < 1e-3 ∧
        |a.continuousPose.theta - b.continuousPose.theta| < 1e-3 * Real.pi / 180) x y := by
  obtain ⟨x, h1, h2⟩ := AStar.first_generated (P := e.problem nbrs) equal_equiv h y hy
  refine ⟨x, h1, ?_⟩
  refine Relation.ReflTransGen.mono ?_ _ _ h2
  intro a b hab
  exact (identicalPoses_iff _ _).mp hab

/-- C88 is violated: a state of a cell that is waiting for its expansion is not replaced by one that is reached
at a lower cost, however much lower, if the two are 1 mm or more apart. -/
theorem C88_cheaper_ignored (e : Propagator) (nbrs : Nat → State → List (State × Action × WithTop ℝ))
    (n : ANode State Action (WithTop ℝ)) (explored : List (ANode State Action (WithTop ℝ)))
    (f : Frontier (ANode State Action (WithTop ℝ))) (waiting : ANode State Action (WithTop ℝ))
    (t : State × Action × WithTop ℝ)
    (hw : f.find (AStar.eqNode (e.problem nbrs)) (AStar.childNode (e.problem nbrs) n t) = some waiting)
    (hfar : 1e-3 ≤ (waiting.state.continuousPose.position - t.1.continuousPose.position).norm) :
    AStar.expandOne (e.problem nbrs) true n explored f t = f := by
  unfold AStar.expandOne
  simp only [if_true]
  rw [hw]
  dsimp only
  unfold AStar.processShortcut
  rw [if_neg]
  intro hr
  have hr := (Bool.and_eq_true_iff.mp hr).1
  have hr : identicalPoses waiting.state.continuousPose t.1.continuousPose = true := hr
  have := ((identicalPoses_iff _ _).mp hr).1
  linarith

/-- Non-vacuity of `C88_first_generated_partial`. -/
example : ∃ nbrs fuel s, AStar.searchPath (nearPlanner.problem nbrs) true fuel
      (stateFromPose nearPlanner.param nearStart) = some (.failure, s) ∧
    stateFromPose nearPlanner.param nearStart ∈ s.calls := by
  obtain ⟨fuel, s, h⟩ := C82_goal_ahead_not_found (fun _ => 0) (fun k s => (nearPlanner.neighborStates 0 s).getD [])
    (fun _ _ => rfl)
  exact ⟨_, fuel, s, h⟩

/-- Non-vacuity of `C88_cheaper_ignored`: two states of one cell, 0.4 m apart; the cost of the waiting one is
100, that of the other 1. -/
example (a : Action) (nbrs : Nat → State → List (State × Action × WithTop ℝ)) :
    ∃ (waiting : ANode State Action (WithTop ℝ)) (n : ANode State Action (WithTop ℝ))
      (t : State × Action × WithTop ℝ) (f : Frontier (ANode State Action (WithTop ℝ))),
      f.find (AStar.eqNode (nearPlanner.problem nbrs)) (AStar.childNode (nearPlanner.problem nbrs) n t)
        = some waiting ∧
      1e-3 ≤ (waiting.state.continuousPose.position - t.1.continuousPose.position).norm ∧
      (AStar.childNode (nearPlanner.problem nbrs) n t).pathCost < waiting.pathCost := by
  obtain ⟨w, hw⟩ : ∃ w : ANode State Action (WithTop ℝ),
      w = .root (stateFromPose nearPlanner.param ⟨⟨0.2, 0.5⟩, 0.04⟩) 100 100 := ⟨_, rfl⟩
  refine ⟨w, .root (stateFromPose nearPlanner.param ⟨⟨2, 2⟩, 0⟩) 0 0,
    (stateFromPose nearPlanner.param ⟨⟨0.6, 0.5⟩, 0.04⟩, a, 1), ⟨[w], [w]⟩, ?_, ?_, ?_⟩
  · have : AStar.eqNode (nearPlanner.problem nbrs) w (AStar.childNode (nearPlanner.problem nbrs)
        (.root (stateFromPose nearPlanner.param ⟨⟨2, 2⟩, 0⟩) 0 0)
        (stateFromPose nearPlanner.param ⟨⟨0.6, 0.5⟩, 0.04⟩, a, 1)) = true := by
      rw [hw]
      refine decide_eq_true ?_
      show discretizePose _ _ = discretizePose _ _
      rw [ex_cell _ rfl rfl _ (by norm_num) (by norm_num) (by norm_num),
        ex_cell _ rfl rfl _ (by norm_num) (by norm_num) (by norm_num)]
    unfold Frontier.find
    simp [this]
  · rw [hw]
    show 1e-3 ≤ ((⟨0.2, 0.5⟩ : Pt) - ⟨0.6, 0.5⟩).norm
    unfold Pt.norm
    rw [Pt.sub_x, Pt.sub_y]
    refine Real.le_sqrt_of_sq_le ?_
    norm_num
  · rw [hw]
    show (0 : WithTop ℝ) + 1 < 100
    rw [zero_add]
    exact_mod_cast (by norm_num : (1 : ℝ) < 100)

end PathPlanning
