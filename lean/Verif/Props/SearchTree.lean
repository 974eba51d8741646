import Verif.Model.SearchTree
import Verif.Props.HybridExample

/-!
# C107: the explored paths reported by hybrid A*
-/

namespace PathPlanning
open Real Spec

namespace AStar
variable {S A C : Type} [LinearOrder C] [Add C] [Zero C] {P : Problem S A C}

/-! ## The tree does not influence the search -/

theorem treeOne_frontier (graph : Bool) (n : ANode S A C) (ex : List (ANode S A C))
    (s : Frontier (ANode S A C) × List (ANode S A C)) (t : S × A × C) :
    (treeOne P graph n ex s t).1 = expandOne P graph n ex s.1 t := by
  unfold treeOne expandOne processShortcut
  dsimp only
  cases graph with
  | false => rfl
  | true =>
    cases s.1.find (eqNode P) (childNode P n t) with
    | none => simp only [if_true]; split <;> rfl
    | some fn => simp only [if_true]; split <;> rfl

theorem treeAll_frontier (graph : Bool) (n : ANode S A C) (ex : List (ANode S A C)) :
    ∀ (ts : List (S × A × C)) (s : Frontier (ANode S A C) × List (ANode S A C)),
    (ts.foldl (treeOne P graph n ex) s).1 = ts.foldl (expandOne P graph n ex) s.1
  | [], _ => rfl
  | t :: ts, s => by
    rw [List.foldl_cons, List.foldl_cons, treeAll_frontier graph n ex ts, treeOne_frontier]

theorem treeExpand_search (graph : Bool) (s : Search S A C) (tree : List (ANode S A C)) (n : ANode S A C) :
    (treeExpand P graph s tree n).1 = expand P graph s n := by
  unfold treeExpand expand
  dsimp only
  rw [treeAll_frontier]

theorem treeLoop_search (graph : Bool) : ∀ (fuel : Nat) (s : Search S A C) (tree : List (ANode S A C)),
    (treeLoop P graph fuel s tree).map (fun r => (r.1, r.2.1)) = loop P graph fuel s
  | 0, _, _ => rfl
  | fuel + 1, s, tree => by
    unfold treeLoop loop
    cases s.frontier.pop (eqNode P) with
    | none => rfl
    | some r =>
      dsimp only
      split
      · rfl
      · rw [treeLoop_search graph fuel, treeExpand_search]

/-! ## What is in the tree -/

theorem treeOne_mono (graph : Bool) (n : ANode S A C) (ex : List (ANode S A C))
    (s : Frontier (ANode S A C) × List (ANode S A C)) (t : S × A × C) : ∀ x ∈ s.2, x ∈ (treeOne P graph n ex s t).2 := by
  intro x hx
  unfold treeOne
  dsimp only
  split
  · split
    · split
      · exact hx
      · exact List.mem_append_left _ hx
    · split
      · exact List.mem_append_left _ hx
      · exact hx
  · exact List.mem_append_left _ hx

theorem treeOne_mem (graph : Bool) (n : ANode S A C) (ex : List (ANode S A C))
    (s : Frontier (ANode S A C) × List (ANode S A C)) (t : S × A × C) :
    ∀ x ∈ (treeOne P graph n ex s t).2, x ∈ s.2 ∨ x = childNode P n t := by
  intro x
  have h : x ∈ s.2 ++ [childNode P n t] → x ∈ s.2 ∨ x = childNode P n t := by simp
  unfold treeOne
  dsimp only
  split
  · split
    · split
      · exact .inl
      · exact h
    · split
      · exact h
      · exact .inl
  · exact h

/-- A node of the frontier is in the tree, or was in the frontier before. -/
theorem treeOne_new (he : KeyEquiv P.eqS) (graph : Bool) (n : ANode S A C) (ex : List (ANode S A C))
    (s : Frontier (ANode S A C) × List (ANode S A C)) (ok : FOk P s.1) (t : S × A × C) :
    ∀ y ∈ (treeOne P graph n ex s t).1.vec, y ∈ s.1.vec ∨ y ∈ (treeOne P graph n ex s t).2 := by
  intro y hy
  have hm := mem_expandOne he graph n ex ok t (y := y) (by rw [← treeOne_frontier]; exact hy)
  revert hy
  unfold treeOne
  dsimp only
  have h : y ∈ s.1.vec ∨ y ∈ s.2 ++ [childNode P n t] := by
    rcases hm with h | h
    · exact .inl h
    · right; rw [h]; simp
  split
  · split
    · split
      · exact .inl
      · exact fun _ => h
    · split
      · exact fun _ => h
      · exact .inl
  · exact fun _ => h

theorem treeAll_mono (graph : Bool) (n : ANode S A C) (ex : List (ANode S A C)) :
    ∀ (ts : List (S × A × C)) (s : Frontier (ANode S A C) × List (ANode S A C)),
    ∀ x ∈ s.2, x ∈ (ts.foldl (treeOne P graph n ex) s).2
  | [], _, _, h => h
  | t :: ts, s, x, h => treeAll_mono graph n ex ts _ x (treeOne_mono graph n ex s t x h)

theorem treeAll_mem (graph : Bool) (n : ANode S A C) (ex : List (ANode S A C)) :
    ∀ (ts : List (S × A × C)) (s : Frontier (ANode S A C) × List (ANode S A C)),
    ∀ x ∈ (ts.foldl (treeOne P graph n ex) s).2, x ∈ s.2 ∨ ∃ t ∈ ts, x = childNode P n t
  | [], _, _, h => .inl h
  | t :: ts, s, x, h => by
    rcases treeAll_mem graph n ex ts _ x h with h | ⟨t', ht', h⟩
    · rcases treeOne_mem graph n ex s t x h with h | h
      · exact .inl h
      · exact .inr ⟨t, by simp, h⟩
    · exact .inr ⟨t', by simp [ht'], h⟩

theorem treeAll_new (he : KeyEquiv P.eqS) (graph : Bool) (n : ANode S A C) (ex : List (ANode S A C)) :
    ∀ (ts : List (S × A × C)) (s : Frontier (ANode S A C) × List (ANode S A C)), FOk P s.1 →
    ∀ y ∈ (ts.foldl (treeOne P graph n ex) s).1.vec, y ∈ s.1.vec ∨ y ∈ (ts.foldl (treeOne P graph n ex) s).2
  | [], _, _, _, h => .inl h
  | t :: ts, s, ok, y, h => by
    have ok' : FOk P (treeOne P graph n ex s t).1 := by
      rw [treeOne_frontier]; exact ok_expandOne he graph n ex ok t
    rcases treeAll_new he graph n ex ts _ ok' y h with h | h
    · rcases treeOne_new he graph n ex s ok t y h with h | h
      · exact .inl h
      · exact .inr (treeAll_mono graph n ex ts _ y h)
    · exact .inr h

/-- Invariant of the tree. -/
structure TInv (P : Problem S A C) (init : S) (s : Search S A C) (tree : List (ANode S A C)) : Prop where
  front : ∀ n ∈ s.frontier.vec, n = rootNode init ∨ n ∈ tree
  nodes : ∀ n ∈ tree, ∃ p st a g f c, n = ANode.child p st a g f ∧ (p = rootNode init ∨ p ∈ tree) ∧
    P.tr p.state a c st ∧ p.state ∈ s.calls
  calls : ∀ u ∈ s.calls, u = init ∨ ∃ n ∈ tree, n.state = u
  wf : ∀ n ∈ tree, WF P init n

theorem tinv_init (he : KeyEquiv P.eqS) (init : S) : TInv P init (initSearch P init) ([] : List (ANode S A C)) := by
  refine ⟨fun n hn => .inl ?_, (by simp), (by simp [initSearch]), (by simp)⟩
  have hc := cmpNode_swo (S := S) (A := A) (C := C)
  have hnone : (Frontier.empty : Frontier (ANode S A C)).find (eqNode P) (rootNode init) = none := rfl
  have hn : n ∈ (Frontier.push _ _ _ _).1.vec := hn
  rw [Frontier.ok_empty.mem_push_new hc (eqNode_equiv he) hnone] at hn
  simpa [Frontier.empty] using hn

theorem tinv_expand (he : KeyEquiv P.eqS) {graph : Bool} {init : S} {s : Search S A C} {tree : List (ANode S A C)}
    (inv : Inv P graph init s) (hT : TInv P init s tree) {f' : Frontier (ANode S A C)} {n : ANode S A C}
    (hp : s.frontier.pop (eqNode P) = some (f', n)) :
    TInv P init (treeExpand P graph { s with frontier := f' } tree n).1
      (treeExpand P graph { s with frontier := f' } tree n).2 := by
  obtain ⟨ok', hn, -, hmem⟩ := inv.ok.pop cmpNode_swo (eqNode_equiv he) hp
  have hmono := treeAll_mono (P := P) graph n (exploredInsert P s.explored n) (P.nbrs s.calls.length n.state) (f', tree)
  have hsub := treeAll_mem (P := P) graph n (exploredInsert P s.explored n) (P.nbrs s.calls.length n.state) (f', tree)
  have hnew := treeAll_new he graph n (exploredInsert P s.explored n) (P.nbrs s.calls.length n.state) (f', tree) ok'
  have hcalls : ∀ u, u ∈ (treeExpand P graph { s with frontier := f' } tree n).1.calls ↔ u = n.state ∨ u ∈ s.calls := by
    intro u; simp [treeExpand]
  refine ⟨fun y hy => ?_, fun x hx => ?_, fun u hu => ?_, fun x hx => ?_⟩
  · rcases hnew y hy with h | h
    · rcases hT.front y ((hmem y).1 h).1 with h | h
      · exact .inl h
      · exact .inr (hmono y h)
    · exact .inr h
  · rcases hsub x hx with h | ⟨t, ht, rfl⟩
    · obtain ⟨p, st, a, g, f, c, h1, h2, h3, h4⟩ := hT.nodes x h
      exact ⟨p, st, a, g, f, c, h1, h2.imp id (hmono p), h3, (hcalls _).2 (.inr h4)⟩
    · exact ⟨n, t.1, t.2.1, _, _, t.2.2, rfl, (hT.front n hn).imp id (hmono n), ⟨_, ht⟩, (hcalls _).2 (.inl rfl)⟩
  · rcases (hcalls u).1 hu with rfl | hu
    · rcases hT.front n hn with h | h
      · left; rw [h]; rfl
      · exact .inr ⟨n, hmono n h, rfl⟩
    · rcases hT.calls u hu with h | ⟨m, hm, h⟩
      · exact .inl h
      · exact .inr ⟨m, hmono m hm, h⟩
  · rcases hsub x hx with h | ⟨t, ht, rfl⟩
    · exact hT.wf x h
    · exact (inv.wf n hn).child ht

theorem treeLoop_spec (he : KeyEquiv P.eqS) {graph : Bool} {init : S} :
    ∀ (fuel : Nat) (s : Search S A C) (tree : List (ANode S A C)) (st : Status) (s' : Search S A C)
      (tree' : List (ANode S A C)), Inv P graph init s → TInv P init s tree →
      treeLoop P graph fuel s tree = some (st, s', tree') →
      ∃ s₀, Inv P graph init s₀ ∧ TInv P init s₀ tree' ∧ s'.calls = s₀.calls ∧
        ((s'.frontier = s₀.frontier ∧ s'.solution = none) ∨
          ∃ n ∈ s₀.frontier.vec, s₀.frontier.pop (eqNode P) = some (s'.frontier, n) ∧ s'.solution = some n)
  | 0, _, _, _, _, _, _, _, h => by cases h
  | fuel + 1, s, tree, st, s', tree', inv, hT, h => by
    unfold treeLoop at h
    cases hp : s.frontier.pop (eqNode P) with
    | none =>
      rw [hp] at h
      cases h
      exact ⟨s, inv, hT, rfl, .inl ⟨rfl, inv.sol⟩⟩
    | some r =>
      obtain ⟨f', n⟩ := r
      rw [hp] at h
      dsimp only at h
      cases hs : P.isSol n.state with
      | true =>
        rw [hs] at h
        cases h
        obtain ⟨-, hn, -, -⟩ := inv.ok.pop cmpNode_swo (eqNode_equiv he) hp
        exact ⟨s, inv, hT, rfl, .inr ⟨n, hn, hp, rfl⟩⟩
      | false =>
        rw [hs] at h
        simp only [Bool.false_eq_true, if_false] at h
        refine treeLoop_spec he fuel _ _ st s' tree' ?_ (tinv_expand he inv hT hp) h
        rw [treeExpand_search]
        exact inv_expand he inv hp hs

/-- The actions on the way to a node of the tree belong to nodes of the tree. -/
theorem tree_route {init : S} {s : Search S A C} {tree : List (ANode S A C)} (hT : TInv P init s tree) :
    ∀ n : ANode S A C, (n = rootNode init ∨ n ∈ tree) → ∃ l, Route P.tr init l n.state ∧
      (∀ acc, fillActions n.depth (some n) acc = some ((routeActions l).map some ++ acc)) ∧
      ∀ a ∈ routeActions l, ∃ m ∈ tree, m.action = some a
  | .root st g f, h => by
    rcases h with h | h
    · cases h; exact ⟨[], .nil, fun acc => rfl, by simp [routeActions]⟩
    · obtain ⟨p, _, _, _, _, _, h1, -⟩ := hT.nodes _ h
      cases h1
  | .child p st a g f, h => by
    rcases h with h | h
    · cases h
    · obtain ⟨p', st', a', g', f', c, h1, h2, h3, -⟩ := hT.nodes _ h
      cases h1
      obtain ⟨l, hl, hf, ha⟩ := tree_route hT p h2
      refine ⟨l ++ [(a, c, st)], hl.snoc h3, fun acc => ?_, fun b hb => ?_⟩
      · simp only [ANode.depth, fillActions, ANode.parent, ANode.action]
        rw [hf]
        simp [routeActions]
      · have : routeActions (l ++ [(a, c, st)]) = routeActions l ++ [a] := by simp [routeActions]
        rw [this] at hb
        rcases List.mem_append.mp hb with hb | hb
        · exact ha b hb
        · rw [List.mem_singleton.mp hb]; exact ⟨_, h, rfl⟩

end AStar

open HybridAStar HybridAStar.Propagator

/-- C107: recording the tree changes nothing of the search. -/
theorem C107_same_search (e : Propagator) (nbrs : Nat → State → List (State × Action × WithTop ℝ)) (fuel : Nat)
    (init : State) : (AStar.treeSearch (e.problem nbrs) true fuel init).map (fun r => (r.1, r.2.1)) =
      AStar.searchPath (e.problem nbrs) true fuel init :=
  AStar.treeLoop_search true fuel _ _

/-- C107: nothing is reported before the first search. -/
theorem C107_empty_before_search : exploredPathSet none = ∅ := rfl

/-- C107: for every map, vehicle, heuristic and random choice: after a search, successful or not, every reported path is
a motion of the vehicle that passed the collision checks and starts at an expanded state, to which reported paths lead
from the start; the motions of the solution are among them; every expanded state is the start or the end of a reported
path; and every cell that an expanded state leads to is that of the start or is reached by a reported path. -/
theorem C107_explored_paths (e : Propagator) (hc : Configured e) (random : Nat → ℝ)
    (nbrs : Nat → State → List (State × Action × WithTop ℝ)) (h : e.Answers random nbrs)
    (init : PoseR) (fuel : Nat) (st : Status) (s : Search State Action (WithTop ℝ)) (tree)
    (hs : AStar.treeSearch (e.problem nbrs) true fuel (stateFromPose e.param init) = some (st, s, tree)) :
    (∀ a ∈ exploredPathSet (some tree), Motion e.param e.goal a ∧ 0 ≤ a.length ∧ Checked e.validator a ∧
      (∃ u ∈ s.calls, a.init = u.continuousPose) ∧
      ∃ l, (∀ b ∈ l, b ∈ exploredPathSet (some tree)) ∧ Joined init l a.init) ∧
    (∀ acts, AStar.getActions s = some acts → ∀ a, some a ∈ acts → a ∈ exploredPathSet (some tree)) ∧
    (∀ u ∈ s.calls, u.continuousPose = init ∨ ∃ a ∈ exploredPathSet (some tree), a.final = u.continuousPose) ∧
    ∀ u ∈ s.calls, ∃ k, ∀ v a c, (v, a, c) ∈ nbrs k u → v.discretePose = discretizePose e.param init ∨
      ∃ b ∈ exploredPathSet (some tree), discretizePose e.param b.final = v.discretePose := by
  obtain ⟨s₀, inv, hT, hcalls, hsol⟩ := AStar.treeLoop_spec (P := e.problem nbrs) equal_equiv fuel _ _ st s tree
    (AStar.inv_init equal_equiv true _) (AStar.tinv_init equal_equiv _) hs
  have hnode : ∀ n ∈ tree, ∃ a ∈ exploredPathSet (some tree), a.final = n.state.continuousPose ∧
      discretizePose e.param a.final = n.state.discretePose := by
    intro n hn
    obtain ⟨p, q, a, g, f, c, rfl, -, h3, -⟩ := hT.nodes n hn
    have hch := child_of hc h h3
    refine ⟨a, ⟨_, hn, rfl⟩, hch.final.symm, ?_⟩
    have := hch.cell
    rw [hch.final] at this
    exact this.symm
  have hcell : ∀ v : State, AStar.Expanded (e.problem nbrs) s₀.calls v ∨ AStar.InF (e.problem nbrs) s₀.frontier v →
      v.discretePose = discretizePose e.param init ∨
      ∃ b ∈ exploredPathSet (some tree), discretizePose e.param b.final = v.discretePose := by
    have heq : ∀ x v : State, (e.problem nbrs).eqS x v = true → x.discretePose = v.discretePose :=
      fun x v hx => of_decide_eq_true hx
    rintro v (⟨u, hu, hux⟩ | ⟨n, hn, hnx⟩)
    · rcases hT.calls u hu with rfl | ⟨n, hn, rfl⟩
      · exact .inl (heq _ _ hux).symm
      · obtain ⟨a, ha, -, h2⟩ := hnode n hn
        exact .inr ⟨a, ha, h2.trans (heq _ _ hux)⟩
    · rcases hT.front n hn with rfl | hn
      · exact .inl (heq _ _ hnx).symm
      · obtain ⟨a, ha, -, h2⟩ := hnode n hn
        exact .inr ⟨a, ha, h2.trans (heq _ _ hnx)⟩
  refine ⟨?_, ?_, ?_, ?_⟩
  · rintro a ⟨n, hn, ha⟩
    obtain ⟨p, q, b, g, f, c, rfl, h2, h3, h4⟩ := hT.nodes n hn
    cases ha
    have hch := child_of hc h h3
    obtain ⟨l, hl, -, hla⟩ := AStar.tree_route hT p h2
    refine ⟨hch.motion, hch.length, hch.checked, ⟨p.state, by rw [hcalls]; exact h4, hch.init⟩, routeActions l, hla, ?_⟩
    rw [show a.init = p.state.continuousPose from hch.init]
    exact (route_joined hc h hl).1
  · intro acts hacts a ha
    rcases hsol with ⟨-, hsol⟩ | ⟨n, hn, -, hsol⟩
    · unfold AStar.getActions at hacts
      rw [hsol] at hacts
      cases hacts
      cases ha
    · obtain ⟨l, -, hf, hla⟩ := AStar.tree_route hT n (hT.front n hn)
      unfold AStar.getActions at hacts
      rw [hsol] at hacts
      have hacts : AStar.fillActions n.depth (some n) [] = some acts := hacts
      rw [hf] at hacts
      cases hacts
      simp only [List.append_nil, List.mem_map, Option.some.injEq, exists_eq_right] at ha
      exact hla a ha
  · intro u hu
    rw [hcalls] at hu
    rcases hT.calls u hu with rfl | ⟨n, hn, rfl⟩
    · exact .inl rfl
    · obtain ⟨a, ha, h1, -⟩ := hnode n hn
      exact .inr ⟨a, ha, h1⟩
  · intro u hu
    rw [hcalls] at hu
    obtain ⟨k, hk⟩ := inv.closed u hu
    exact ⟨k, fun v a c hv => hcell v (hk _ hv)⟩

/-- Non-vacuity: after the search of `exPlanner` the motion of its solution is reported. -/
example (random : Nat → ℝ) (hr : ∀ k, 0.001 ≤ random k) : ∃ nbrs, exPlanner.Answers random nbrs ∧
    ∃ s tree, AStar.treeSearch (exPlanner.problem nbrs) true 2 (stateFromPose exPlanner.param exStart) =
        some (.success, s, tree) ∧
      exPlanner.steerPath (stateFromPose exPlanner.param exStart) 0 .forward ∈ exploredPathSet (some tree) := by
  obtain ⟨nbrs, hn, s, hs, ha⟩ := ex_search random hr
  have h := C107_same_search exPlanner nbrs 2 (stateFromPose exPlanner.param exStart)
  rw [hs] at h
  obtain ⟨⟨st, s', tree⟩, ht, hst⟩ := Option.map_eq_some_iff.mp h
  cases hst
  exact ⟨nbrs, hn, s', tree, ht, (C107_explored_paths exPlanner exPlanner_configured random nbrs hn exStart 2 _ s' tree
    ht).2.1 _ ha _ (by simp)⟩

end PathPlanning
