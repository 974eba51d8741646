import Verif.Lemmas.AStarOpt
import Verif.Model.AStarPlanner

/-!
# C04-C11: A* search
-/

namespace PathPlanning
open Spec AStar

section
variable {S A C : Type} [LinearOrder C] [Add C] [Zero C] {P : Problem S A C}

/-- C04. Graph or tree search, any propagator (even randomised), any heuristic, any cost
arithmetic: on Success `GetPath` is the list of states of a chain of propagator transitions from
the initial state to a solution. -/
theorem C04_astar_success_path_is_route (he : KeyEquiv P.eqS) {graph : Bool} {fuel : Nat}
    {init : S} {s : Search S A C} (h : searchPath P graph fuel init = some (.success, s)) :
    ∃ steps t, Route P.tr init steps t ∧ P.isSol t = true ∧
      getPath s = some (routeStates init steps) := by
  rcases searchPath_spec he h with h | ⟨_, s₀, f', n, inv, hp, hs, rfl⟩
  · cases h.1
  · obtain ⟨_, hn, _, _⟩ := inv.ok.pop cmpNode_swo (eqNode_equiv he) hp
    obtain ⟨l, h1, _, h3, _⟩ := (inv.wf n hn).route
    exact ⟨l, n.state, h1, hs, (h3 []).trans (by simp)⟩

/-- C05. On Success the path, the actions and the cost all describe one and the same route. -/
theorem C05_astar_cost_and_actions_match_path (he : KeyEquiv P.eqS) {graph : Bool} {fuel : Nat}
    {init : S} {s : Search S A C} (h : searchPath P graph fuel init = some (.success, s)) :
    ∃ steps t, Route P.tr init steps t ∧ P.isSol t = true ∧
      getPath s = some (routeStates init steps) ∧
      getActions s = some ((routeActions steps).map some) ∧
      getOptimalCost s = some (routeCost steps) := by
  rcases searchPath_spec he h with h | ⟨_, s₀, f', n, inv, hp, hs, rfl⟩
  · cases h.1
  · obtain ⟨_, hn, _, _⟩ := inv.ok.pop cmpNode_swo (eqNode_equiv he) hp
    obtain ⟨l, h1, h2, h3, h4⟩ := (inv.wf n hn).route
    exact ⟨l, n.state, h1, hs, (h3 []).trans (by simp), (h4 []).trans (by simp),
      by simp [getOptimalCost, h2]⟩

/-- C07. Failure means that no chain of transitions leads to a solution. -/
theorem C07_astar_failure_unreachable (he : KeyEquiv P.eqS) (hd : P.Deterministic)
    (hr : P.Respects) {graph : Bool} {fuel : Nat} {init : S} {s : Search S A C}
    (h : searchPath P graph fuel init = some (.failure, s)) :
    ¬ ∃ t, Reachable P.tr init t ∧ P.isSol t = true := by
  rintro ⟨t, ⟨l, hl⟩, ht⟩
  rcases searchPath_spec he h with ⟨_, inv, hf⟩ | ⟨h, _⟩
  · obtain ⟨u, hu, hut⟩ := expanded_of_reachable he hd hr inv hf hl
    have := inv.notSol u hu
    rw [hr.isSol _ _ hut, ht] at this
    cases this
  · cases h

/-- C07, converse: a terminating search finds a solution exactly when one is reachable. -/
theorem C07_astar_success_iff_reachable (he : KeyEquiv P.eqS) (hd : P.Deterministic)
    (hr : P.Respects) {graph : Bool} {fuel : Nat} {init : S} {st : Status} {s : Search S A C}
    (h : searchPath P graph fuel init = some (st, s)) :
    st = .success ↔ ∃ t, Reachable P.tr init t ∧ P.isSol t = true := by
  cases st with
  | failure => simpa using C07_astar_failure_unreachable he hd hr h
  | success =>
    obtain ⟨steps, t, h1, h2, _⟩ := C04_astar_success_path_is_route he h
    simp only [true_iff]
    exact ⟨t, ⟨steps, h1⟩, h2⟩

/-- C08. If `R` covers the reachable states, graph search stops within `|R| + 1` iterations (the
propagator may be randomised). -/
theorem C08_astar_graph_search_terminates (he : KeyEquiv P.eqS) {init : S} {R : List S}
    (hR : P.Covers init R) : (searchPath P true (R.length + 1) init).isSome = true := by
  cases hs : searchPath P true (R.length + 1) init with
  | some r => rfl
  | none =>
    exfalso
    obtain ⟨s', inv, hl⟩ := loop_none he _ _ (inv_init he true init) hs
    have := length_le_of_covers he s'.calls R (inv.nodup rfl)
      (fun x hx => hR x (inv.reach x hx))
    have h0 : (initSearch P init).calls.length = 0 := rfl
    omega

/-- C08. A finished graph search has asked the propagator at most once per state, and only about
reachable states. -/
theorem C08_astar_no_state_expanded_twice (he : KeyEquiv P.eqS) {fuel : Nat} {init : S}
    {st : Status} {s : Search S A C} (h : searchPath P true fuel init = some (st, s)) :
    s.calls.Pairwise (fun a b => P.eqS a b = false) ∧ ∀ u ∈ s.calls, Reachable P.tr init u := by
  rcases searchPath_spec he h with ⟨_, inv, _⟩ | ⟨_, s₀, f', n, inv, _, _, rfl⟩
  · exact ⟨inv.nodup rfl, inv.reach⟩
  · exact ⟨inv.nodup rfl, inv.reach⟩

/-- The outcome does not depend on the iteration allowance once the search has finished. -/
theorem C08_astar_fuel_irrelevant {graph : Bool} {init : S} {fuel k : Nat}
    {r : Status × Search S A C} (h : searchPath P graph fuel init = some r) :
    searchPath P graph (fuel + k) init = some r :=
  loop_mono fuel k _ r h

end

/-- C06. Graph search with a consistent heuristic (costs in any linearly ordered cancellative
commutative monoid, e.g. the reals; negative costs allowed): the reported cost is minimal among all
chains of transitions from the initial state to a solution. -/
theorem C06_astar_consistent_optimal {S A C : Type} [AddCommMonoid C] [LinearOrder C]
    [IsOrderedCancelAddMonoid C] {P : Problem S A C}
    (he : KeyEquiv P.eqS) (hd : P.Deterministic) (hr : P.Respects)
    (hm : ∀ a b, P.mayReplace a b = true) (hcon : P.Consistent)
    (hgoal : ∀ t t', P.isSol t = true → P.isSol t' = true → P.h t = P.h t')
    {fuel : Nat} {init : S} {s : Search S A C}
    (h : searchPath P true fuel init = some (.success, s)) :
    ∃ c, getOptimalCost s = some c ∧
      ∀ steps t, Route P.tr init steps t → P.isSol t = true → c ≤ routeCost steps := by
  rcases loop_spec he (Opt P init)
    (fun s f' n inv opt hp hs => opt_expand he hd hr hm hcon inv opt hp hs)
    fuel _ _ _ (inv_init he true init) (opt_init init) h with h | ⟨_, s₀, f', n, inv, opt, hp, hs, rfl⟩
  · cases h.1
  · refine ⟨n.pathCost, rfl, ?_⟩
    intro steps t hrt ht
    refine popped_optimal he hd hr hcon inv opt hp hrt ?_ (hgoal _ _ ht hs)
    rintro ⟨u, hu, hut⟩
    have := inv.notSol u hu
    rw [hr.isSol _ _ hut, ht] at this
    cases this

/-- C11, partial: tree search is optimal when all transitions cost the same (non-negative) amount and
the heuristic is constant (breadth-first search). Missing: arbitrary costs and admissible
heuristics, for which the claim is false (`C11_tree_search_not_optimal`). -/
theorem C11_tree_search_uniform_cost_optimal_partial {S A C : Type} [AddCommMonoid C]
    [LinearOrder C] [IsOrderedCancelAddMonoid C] {P : Problem S A C}
    (he : KeyEquiv P.eqS) (hd : P.Deterministic) (hr : P.Respects)
    (hh : ∀ u v, P.h u = P.h v) {c₀ : C} (hc0 : 0 ≤ c₀)
    (hu : ∀ u a c v, P.tr u a c v → c = c₀)
    {fuel : Nat} {init : S} {s : Search S A C}
    (h : searchPath P false fuel init = some (.success, s)) :
    ∃ c, getOptimalCost s = some c ∧
      ∀ steps t, Route P.tr init steps t → P.isSol t = true → c ≤ routeCost steps := by
  have hcon : P.Consistent := by
    intro u a c v htr
    rw [hu u a c v htr, hh u v]
    exact le_add_of_nonneg_left hc0
  have hl0 : Layered c₀ (initSearch P init).frontier := by
    intro y hy y' hy'
    have hv : (initSearch P init).frontier.vec = [rootNode init] := by
      rcases (opt_init (P := P) init).start with h | h
      · exact h.2
      · obtain ⟨⟨u, hu, _⟩, _⟩ := h; simp [initSearch] at hu
    rw [hv] at hy hy'
    simp only [List.mem_singleton] at hy hy'
    rw [hy, hy']
    exact le_add_of_nonneg_right hc0
  rcases loop_spec he (fun s => Opt P init s ∧ Layered c₀ s.frontier)
    (fun s f' n inv opt hp hs => opt_expand_tree he hd hr hcon hh hc0 hu inv opt hp)
    fuel _ _ _ (inv_init he false init) ⟨opt_init init, hl0⟩ h with
    h | ⟨_, s₀, f', n, inv, opt, hp, hs, rfl⟩
  · cases h.1
  · refine ⟨n.pathCost, rfl, ?_⟩
    intro steps t hrt ht
    refine popped_optimal he hd hr hcon inv opt.1 hp hrt ?_ (hh _ _)
    rintro ⟨u, hu, hut⟩
    have := inv.notSol u hu
    rw [hr.isSol _ _ hut, ht] at this
    cases this

/-! ### The planner object: C09, C10 -/

section
variable {S A C : Type} [LinearOrder C] [Add C] [Zero C]

/-- The inputs currently in force after a history of calls, computed from the history alone: the
last accepted propagator/heuristic pair, whether the last `Initialize` was accepted, and the last
initial and goal state. -/
structure Inputs (S A C : Type) where
  model : Option ((S → List (S × A × C)) × (S → S → C))
  ready : Bool
  init : S
  goal : S

/-- Effect of one call on the inputs. -/
def Inputs.call (i : Inputs S A C) : APlanner.Op S A C → Inputs S A C
  | .configure (some N) (some H) => { i with model := some (N, H), ready := true }
  | .configure _ _ => { i with ready := false }
  | .setInit s => { i with init := s }
  | .setGoal s => { i with goal := s }
  | .search _ => i

/-- Inputs after a history on a planner whose default states are `s₀`. -/
def Inputs.after (s₀ : S) (ops : List (APlanner.Op S A C)) : Inputs S A C :=
  ops.foldl Inputs.call ⟨none, false, s₀, s₀⟩

/-- What `GetPath`, `GetActions` and `GetOptimalCost` return (`cost = none` is infinity). -/
structure View (S A C : Type) where
  path : Option (List S)
  actions : Option (List (Option A))
  cost : Option C
  deriving DecidableEq

/-- Reading the results of a search. -/
def viewOf (s : Search S A C) : View S A C := ⟨getPath s, getActions s, getOptimalCost s⟩

/-- What the user can read from a planner. -/
def APlanner.view (p : APlanner S A C) : View S A C := viewOf p.search

private def Tracks (i : Inputs S A C) (p : APlanner S A C) : Prop :=
  p.isInitialized = i.ready ∧ p.init = i.init ∧ p.goal = i.goal ∧
    (i.model = none → p.propagator = none ∧ p.heuristic = none ∧ i.ready = false) ∧
    (∀ N H, i.model = some (N, H) → p.propagator = some N ∧ p.heuristic = some H)

private theorem tracks_call {eqS : S → S → Bool} {graph : Bool} {i : Inputs S A C}
    {p p' : APlanner S A C} (ht : Tracks i p) (o : APlanner.Op S A C)
    (h : p.call eqS graph o = some p') : Tracks (i.call o) p' := by
  obtain ⟨h1, h2, h3, h4, h5⟩ := ht
  cases o with
  | configure N H =>
    cases N with
    | none => cases H <;> (cases h; refine ⟨rfl, h2, h3, fun hm => ?_, h5⟩; exact ⟨(h4 hm).1, (h4 hm).2.1, rfl⟩)
    | some N =>
      cases H with
      | none => cases h; exact ⟨rfl, h2, h3, fun hm => ⟨(h4 hm).1, (h4 hm).2.1, rfl⟩, h5⟩
      | some H =>
        cases h
        refine ⟨rfl, h2, h3, by simp [Inputs.call], ?_⟩
        intro N' H' he
        simp only [Inputs.call, Option.some.injEq, Prod.mk.injEq] at he
        exact ⟨congrArg some he.1, congrArg some he.2⟩
  | setInit s => cases h; exact ⟨h1, rfl, h3, h4, h5⟩
  | setGoal s => cases h; exact ⟨h1, h2, rfl, h4, h5⟩
  | search fuel =>
    simp only [APlanner.call, APlanner.searchPath] at h
    split at h
    · split at h
      · split at h
        · cases h; exact ⟨h1, h2, h3, h4, h5⟩
        · cases h
      · cases h
    · cases h; exact ⟨h1, h2, h3, h4, h5⟩

private theorem tracks_run {eqS : S → S → Bool} {graph : Bool} (ops : List (APlanner.Op S A C)) :
    ∀ {i : Inputs S A C} {p p' : APlanner S A C}, Tracks i p →
    APlanner.run eqS graph p ops = some p' → Tracks (ops.foldl Inputs.call i) p' := by
  induction ops with
  | nil => intro i p p' ht h; cases h; exact ht
  | cons o os ih =>
    intro i p p' ht h
    simp only [APlanner.run] at h
    split at h
    · rename_i q hq; exact ih (tracks_call ht o hq) h
    · cases h

private theorem tracks_new (s₀ : S) :
    Tracks (⟨none, false, s₀, s₀⟩ : Inputs S A C) (APlanner.new s₀) :=
  ⟨rfl, rfl, rfl, fun _ => ⟨rfl, rfl, rfl⟩, by intro N H h; cases h⟩

/-- C10. After any history of calls (including searches), if the last `Initialize` was accepted,
`SearchPath` returns the status, path, actions and cost of a search on a newly built planner with
the inputs in force. -/
theorem C10_astar_reusable (eqS : S → S → Bool) (graph : Bool) (s₀ : S)
    (ops : List (APlanner.Op S A C)) (p : APlanner S A C)
    (hrun : APlanner.run eqS graph (APlanner.new s₀) ops = some p)
    (hready : (Inputs.after s₀ ops).ready = true) (fuel : Nat) :
    ∃ N H, (Inputs.after s₀ ops).model = some (N, H) ∧
      ∀ fresh : APlanner S A C,
        fresh = ((((APlanner.new s₀).configure (some N) (some H)).1.setInit
          (Inputs.after s₀ ops).init).setGoal (Inputs.after s₀ ops).goal) →
        (p.searchPath eqS graph fuel).map (fun r => (r.1, r.2.view)) =
          (fresh.searchPath eqS graph fuel).map (fun r => (r.1, r.2.view)) := by
  have ht : Tracks (Inputs.after s₀ ops) p := tracks_run ops (tracks_new s₀) hrun
  obtain ⟨h1, h2, h3, h4, h5⟩ := ht
  cases hm : (Inputs.after s₀ ops).model with
  | none => rw [(h4 hm).2.2] at hready; cases hready
  | some NH =>
    obtain ⟨N, H⟩ := NH
    refine ⟨N, H, rfl, ?_⟩
    rintro fresh rfl
    obtain ⟨h6, h7⟩ := h5 N H hm
    simp only [APlanner.searchPath, h1, hready, h6, h7, h2, h3, if_true, APlanner.configure,
      Option.isNone_some, Bool.or_self, Bool.false_eq_true, if_false, APlanner.setInit,
      APlanner.setGoal]

/-- C09, partial: after any history in which the last `Initialize` was accepted, a failed search
leaves an empty path, no actions and an infinite cost (`none`). Missing: planners whose last
`Initialize` was rejected (see the counterexample below). -/
theorem C09_astar_failure_reports_nothing_partial (eqS : S → S → Bool) (he : KeyEquiv eqS)
    (graph : Bool) (s₀ : S)
    (ops : List (APlanner.Op S A C)) (p p' : APlanner S A C)
    (hrun : APlanner.run eqS graph (APlanner.new s₀) ops = some p)
    (hready : (Inputs.after s₀ ops).ready = true) (fuel : Nat)
    (hs : p.searchPath eqS graph fuel = some (.failure, p')) :
    p'.view = ⟨some [], some [], none⟩ := by
  have ht : Tracks (Inputs.after s₀ ops) p := tracks_run ops (tracks_new s₀) hrun
  obtain ⟨h1, h2, h3, h4, h5⟩ := ht
  simp only [APlanner.searchPath, h1, hready, if_true] at hs
  split at hs
  · split at hs
    · rename_i heq
      cases hs
      rcases searchPath_spec (P := APlanner.problem _ _ _ _ _) he heq with ⟨_, inv, _⟩ | ⟨h, _⟩
      · simp [APlanner.view, viewOf, getPath, getActions, getOptimalCost, inv.sol]
      · cases h
    · cases hs
  · cases hs

end

/-- C06, the planner object: after any history of calls, a graph search whose heuristic is consistent for the goal in force
finds a cheapest chain of transitions from the start in force to that goal; `GetPath`, `GetActions` and `GetOptimalCost`
describe one chain. The heuristic is a function of the state and of the goal. -/
theorem C06_planner_optimal {S A C : Type} [AddCommMonoid C] [LinearOrder C] [IsOrderedCancelAddMonoid C]
    (eqS : S → S → Bool) (he : KeyEquiv eqS) (s₀ : S) (ops : List (APlanner.Op S A C)) (p p' : APlanner S A C)
    (hrun : APlanner.run eqS true (APlanner.new s₀) ops = some p)
    (N : S → List (S × A × C)) (H : S → S → C) (init goal : S)
    (hin : Inputs.after s₀ ops = ⟨some (N, H), true, init, goal⟩)
    (hN : ∀ u u', eqS u u' = true → ∀ v a c, (v, a, c) ∈ N u → ∃ v' a', (v', a', c) ∈ N u' ∧ eqS v v' = true)
    (hH : ∀ u u', eqS u u' = true → H u goal = H u' goal)
    (hcon : ∀ u v a c, (v, a, c) ∈ N u → H u goal ≤ c + H v goal) (fuel : Nat)
    (hs : p.searchPath eqS true fuel = some (.success, p')) :
    ∃ steps t, Route (fun u a c v => (v, a, c) ∈ N u) init steps t ∧ eqS t goal = true ∧
      p'.view = ⟨some (routeStates init steps), some ((routeActions steps).map some), some (routeCost steps)⟩ ∧
      ∀ steps' t', Route (fun u a c v => (v, a, c) ∈ N u) init steps' t' → eqS t' goal = true →
        routeCost steps ≤ routeCost steps' := by
  have ht : Tracks (Inputs.after s₀ ops) p := tracks_run ops (tracks_new s₀) hrun
  obtain ⟨h1, h2, h3, h4, h5⟩ := ht
  rw [hin] at h1 h2 h3 h4 h5
  obtain ⟨h6, h7⟩ := h5 N H rfl
  simp only at h1 h2 h3
  simp only [APlanner.searchPath, h1, h6, h7, h2, h3, if_true] at hs
  obtain ⟨P, hP⟩ : ∃ P : Problem S A C, P = ⟨eqS, fun _ => N, fun s => H s goal, fun s => eqS s goal, fun _ _ => true⟩ :=
    ⟨_, rfl⟩
  have hPe : APlanner.problem eqS N H goal goal = P := by rw [hP]; rfl
  rw [hPe] at hs
  split at hs
  · rename_i st s heq
    cases hs
    have htr : P.tr = fun u a c v => (v, a, c) ∈ N u := by
      funext u a c v
      rw [hP]
      simp [Problem.tr]
    have hr : P.Respects := by
      rw [hP]
      refine ⟨fun u u' h => ?_, hH, hN⟩
      rw [Bool.eq_iff_iff]
      exact ⟨fun k => he.trans _ _ _ (he.symm _ _ h) k, fun k => he.trans _ _ _ h k⟩
    have hsol : ∀ t, P.isSol t = eqS t goal := by rw [hP]; exact fun _ => rfl
    have hh : ∀ t, P.h t = H t goal := by rw [hP]; exact fun _ => rfl
    have heP : KeyEquiv P.eqS := by rw [hP]; exact he
    obtain ⟨steps, t, k1, k2, k3, k4, k5⟩ := C05_astar_cost_and_actions_match_path heP heq
    obtain ⟨c, k6, k7⟩ := C06_astar_consistent_optimal heP (by rw [hP]; exact fun _ _ => rfl) hr
      (by rw [hP]; exact fun _ _ => rfl)
      (by rw [Problem.Consistent, htr]; intro u a c v hv; rw [hh, hh]; exact hcon u v a c hv)
      (by
        intro t t' ha hb
        rw [hsol] at ha hb
        rw [hh, hh]
        exact hH _ _ (he.trans _ _ _ ha (he.symm _ _ hb))) heq
    rw [k5] at k6
    cases k6
    rw [htr] at k1 k7
    refine ⟨steps, t, k1, (hsol t).symm.trans k2, ?_, fun steps' t' hr' ht' => k7 steps' t' hr' ((hsol t').trans ht')⟩
    simp only [APlanner.view, viewOf, k3, k4, k5]
  · cases hs

/-! ### Counterexamples and non-vacuity -/

section Example

private def eqN (a b : Nat) : Bool := decide (a = b)

private theorem eqN_equiv : KeyEquiv eqN :=
  ⟨by intro a; simp [eqN], by intro a b; simp [eqN]; omega, by intro a b c; simp [eqN]; omega⟩

/-- S=0 → X=1 (10), S → B=2 (1), B → X (1); X → G=3 (1). -/
private def exN : Nat → List (Nat × Nat × Nat)
  | 0 => [(1, 0, 10), (2, 1, 1)]
  | 2 => [(1, 2, 1)]
  | 1 => [(3, 3, 1)]
  | _ => []

private def exP : Problem Nat Nat Nat := APlanner.problem eqN exN (fun _ _ => 0) 3 3

private def exView (r : Option (Status × Search Nat Nat Nat)) :
    Option (Status × View Nat Nat Nat) :=
  r.map (fun r => (r.1, viewOf r.2))

/-- Graph search on the example: the hypotheses of C04-C08 are met by a search with a genuine
shortcut (node 1 is first reached at cost 10, then at cost 2). -/
example : exView (searchPath exP true 10 0) =
    some (.success, ⟨some [0, 2, 1, 3], some [some 1, some 2, some 3], some 3⟩) := by decide +kernel

private theorem exP_respects : exP.Respects := by
  refine ⟨?_, ?_, ?_⟩
  · intro u u' h; simp [exP, APlanner.problem, eqN] at h ⊢; rw [h]
  · intro u u' _; rfl
  · intro u u' h v a c hv
    have : u = u' := by simpa [exP, APlanner.problem, eqN] using h
    subst this
    exact ⟨v, a, hv, by simp [exP, APlanner.problem, eqN]⟩

example : exP.Deterministic ∧ exP.Consistent := by
  refine ⟨fun _ _ => rfl, ?_⟩
  intro u a c v _
  simp [exP, APlanner.problem]

/-- A cover of the reachable states of the example: the search needs at most 5 iterations. -/
example : exP.Covers 0 [0, 1, 2, 3] := by
  rintro x ⟨l, hl⟩
  suffices h : x = 0 ∨ x = 1 ∨ x = 2 ∨ x = 3 by
    rcases h with rfl | rfl | rfl | rfl
    · exact ⟨0, by simp, rfl⟩
    · exact ⟨1, by simp, rfl⟩
    · exact ⟨2, by simp, rfl⟩
    · exact ⟨3, by simp, rfl⟩
  induction hl with
  | nil => simp
  | snoc _ htr ih =>
    obtain ⟨k, hk⟩ := htr
    rcases ih with rfl | rfl | rfl | rfl <;>
      simp [exP, APlanner.problem, exN] at hk <;> omega

/-- A failing search: goal 7 is not reachable. -/
example : exView (searchPath (APlanner.problem eqN exN (fun _ _ => 0) 7 7) true 10 0) =
    some (.failure, ⟨some [], some [], none⟩) := by decide +kernel

/-- Unit costs with a cycle and two routes: meets the hypotheses of the partial C11. -/
example :
    let N : Nat → List (Nat × Nat × Nat) := fun
      | 0 => [(1, 0, 1), (2, 1, 1)]
      | 1 => [(0, 2, 1), (2, 3, 1)]
      | 2 => [(3, 4, 1)]
      | _ => []
    let P : Problem Nat Nat Nat := APlanner.problem eqN N (fun _ _ => 0) 3 3
    (∀ u a c v, P.tr u a c v → c = 1) ∧
    exView (searchPath P false 20 0) =
      some (.success, ⟨some [0, 2, 3], some [some 1, some 4], some 2⟩) := by
  refine ⟨?_, by decide +kernel⟩
  rintro u a c v ⟨k, hk⟩
  simp only [APlanner.problem] at hk
  split at hk <;> simp at hk <;> omega

/-- C11 fails: tree search with an admissible (even consistent) heuristic returns a path of cost 11
although a path of cost 3 exists, because the frontier silently refuses the cheaper duplicate of
the node for state 1. -/
theorem C11_tree_search_not_optimal :
    ∃ (P : Problem Nat Nat Nat) (s : Search Nat Nat Nat) (steps : List (Nat × Nat × Nat)),
      P.Deterministic ∧ P.Consistent ∧ KeyEquiv P.eqS ∧ P.Respects ∧
      (∀ u, P.h u = 0) ∧
      searchPath P false 10 0 = some (.success, s) ∧
      Route P.tr 0 steps 3 ∧ P.isSol 3 = true ∧
      ∃ c, getOptimalCost s = some c ∧ routeCost steps < c := by
  have hrun : exView (searchPath exP false 10 0) =
      some (.success, ⟨some [0, 1, 3], some [some 0, some 3], some 11⟩) := by decide +kernel
  cases hs : searchPath exP false 10 0 with
  | none => rw [hs] at hrun; cases hrun
  | some r =>
    obtain ⟨st, s⟩ := r
    rw [hs] at hrun
    simp only [exView, Option.map_some, Option.some.injEq, Prod.mk.injEq] at hrun
    obtain ⟨rfl, hv⟩ := hrun
    have hc : getOptimalCost s = some 11 := congrArg View.cost hv
    refine ⟨exP, s, [(1, 1, 2), (2, 1, 1), (3, 1, 3)], fun _ _ => rfl, ?_, eqN_equiv,
      exP_respects, fun _ => rfl, hs, ?_, rfl, 11, hc, by decide⟩
    · intro u a c v _; simp [exP, APlanner.problem]
    · have h1 : Route exP.tr 0 ([] ++ [(1, 1, 2)]) 2 := .snoc .nil ⟨0, by simp [exP, APlanner.problem, exN]⟩
      have h2 : Route exP.tr 0 ([] ++ [(1, 1, 2)] ++ [(2, 1, 1)]) 1 :=
        .snoc h1 ⟨0, by simp [exP, APlanner.problem, exN]⟩
      exact .snoc h2 ⟨0, by simp [exP, APlanner.problem, exN]⟩

/-- C09 fails: search, then `Initialize` with a null propagator, then search again. The second
search fails, yet the path, actions and cost of the first one are still reported. -/
theorem C09_stale_path_after_rejected_initialize :
    ∃ (ops : List (APlanner.Op Nat Nat Nat)) (p p' : APlanner Nat Nat Nat),
      APlanner.run eqN true (APlanner.new 0) ops = some p ∧
      p.searchPath eqN true 10 = some (.failure, p') ∧
      p'.view = ⟨some [0, 2, 1, 3], some [some 1, some 2, some 3], some 3⟩ := by
  have hrun : (APlanner.run eqN true (APlanner.new 0)
      [.configure (some exN) (some fun _ _ => 0), .setGoal 3, .search 10,
       .configure none (some fun _ _ => 0)]).map (fun p => (p.isInitialized, p.view)) =
      some (false, ⟨some [0, 2, 1, 3], some [some 1, some 2, some 3], some 3⟩) := by
    decide +kernel
  cases hr : APlanner.run eqN true (APlanner.new 0)
      [.configure (some exN) (some fun _ _ => 0), .setGoal 3, .search 10,
       .configure none (some fun _ _ => 0)] with
  | none => rw [hr] at hrun; cases hrun
  | some p =>
    rw [hr] at hrun
    simp only [Option.map_some, Option.some.injEq, Prod.mk.injEq] at hrun
    refine ⟨_, p, p, hr, ?_, hrun.2⟩
    simp [APlanner.searchPath, hrun.1]

/-- The hypotheses of `C06_planner_optimal` are met by a heuristic that depends on the goal: distances on a directed
line with a detour, searched twice. -/
example : ∃ (N : Nat → List (Nat × Nat × Nat)) (H : Nat → Nat → Nat) (p p' : APlanner Nat Nat Nat)
      (ops : List (APlanner.Op Nat Nat Nat)),
    APlanner.run eqN true (APlanner.new 0) ops = some p ∧ Inputs.after 0 ops = ⟨some (N, H), true, 1, 5⟩ ∧
    (∀ u v a c, (v, a, c) ∈ N u → H u 5 ≤ c + H v 5) ∧ H 1 5 = 4 ∧ H 5 1 = 0 ∧
    p.searchPath eqN true 10 = some (.success, p') ∧ p'.view.cost = some 4 := by
  let N : Nat → List (Nat × Nat × Nat) := fun u => [(u + 1, 0, 1), (u + 2, 1, 3)]
  let H : Nat → Nat → Nat := fun u g => g - u
  have hrun : (APlanner.run eqN true (APlanner.new 0)
      [.configure (some N) (some H), .setGoal 2, .search 10, .setInit 1, .setGoal 5]).bind
      (fun p => (p.searchPath eqN true 10).map (fun r => (r.1, r.2.view.cost))) = some (.success, some 4) := by
    decide +kernel
  cases hr : APlanner.run eqN true (APlanner.new 0)
      [.configure (some N) (some H), .setGoal 2, .search 10, .setInit 1, .setGoal 5] with
  | none => rw [hr] at hrun; cases hrun
  | some p =>
    rw [hr] at hrun
    cases hq : p.searchPath eqN true 10 with
    | none => simp [hq] at hrun
    | some q =>
      obtain ⟨st, p'⟩ := q
      simp only [Option.bind_some, hq, Option.map_some, Option.some.injEq, Prod.mk.injEq] at hrun
      obtain ⟨rfl, hv⟩ := hrun
      refine ⟨N, H, p, p', _, hr, rfl, ?_, rfl, rfl, hq, hv⟩
      intro u v a c hm
      simp only [N, List.mem_cons, Prod.mk.injEq, List.not_mem_nil, or_false] at hm
      simp only [H]
      omega

/-- A history with two different searches, meeting the hypotheses of C10 and C09. -/
example : ∃ p : APlanner Nat Nat Nat, APlanner.run eqN true (APlanner.new 0)
      [.configure (some exN) (some fun _ _ => 0), .setGoal 3, .search 10, .setGoal 7] = some p ∧
    (Inputs.after 0 [.configure (some exN) (some fun _ _ => 0), .setGoal 3, .search 10,
      .setGoal 7]).ready = true ∧
    (p.searchPath eqN true 10).map (fun r => r.1) = some .failure := by
  have hrun : (APlanner.run eqN true (APlanner.new 0)
      [.configure (some exN) (some fun _ _ => 0), .setGoal 3, .search 10, .setGoal 7]).map
      (fun p => (p.searchPath eqN true 10).map (fun r => r.1)) = some (some .failure) := by
    decide +kernel
  cases hr : APlanner.run eqN true (APlanner.new 0)
      [.configure (some exN) (some fun _ _ => 0), .setGoal 3, .search 10, .setGoal 7] with
  | none => rw [hr] at hrun; cases hrun
  | some p =>
    rw [hr] at hrun
    exact ⟨p, rfl, rfl, by simpa using hrun⟩

end Example

end PathPlanning
