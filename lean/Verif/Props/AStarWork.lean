import Verif.Props.AStar
import Verif.Spec.Work

/-!
# C158: A* expands only what it has to
-/

namespace PathPlanning
open Spec AStar

variable {S A C : Type} [AddCommMonoid C] [LinearOrder C] [IsOrderedCancelAddMonoid C] {P : Problem S A C}

/-- Expanded states: their costs are least, and cost plus heuristic is at most that of what is expanded later. -/
private structure Work (P : Problem S A C) (init : S) (s : Search S A C) : Prop where
  opt : Opt P init s
  exp : ∀ u ∈ s.calls, ∃ g, P.LeastCost init u g ∧ ∀ y ∈ s.frontier.vec, g + P.h u ≤ y.pathCost + P.h y.state
  order : s.calls.Pairwise fun v u => ∃ g g', P.LeastCost init u g ∧ P.LeastCost init v g' ∧ g + P.h u ≤ g' + P.h v

omit [IsOrderedCancelAddMonoid C] in
private theorem pop_key (he : KeyEquiv P.eqS) {graph : Bool} {init : S} {s : Search S A C} (inv : Inv P graph init s)
    (opt : Opt P init s) {f' : Frontier (ANode S A C)} {n : ANode S A C}
    (hp : s.frontier.pop (eqNode P) = some (f', n)) {y : ANode S A C} (hy : y ∈ s.frontier.vec) :
    n.pathCost + P.h n.state ≤ y.pathCost + P.h y.state := by
  obtain ⟨_, hn, hmin, _⟩ := inv.ok.pop cmpNode_swo (eqNode_equiv he) hp
  rcases opt.start with ⟨_, h⟩ | ⟨_, h⟩
  · rw [h] at hn hy
    simp only [List.mem_singleton] at hn hy
    rw [hn, hy]
  · rw [← h n hn, ← h y hy]
    have := hmin y hy
    simpa [cmpNode] using this

private theorem pop_least (he : KeyEquiv P.eqS) (hd : P.Deterministic) (hr : P.Respects) (hcon : P.Consistent)
    {init : S} {s : Search S A C} (inv : Inv P true init s)
    (opt : Opt P init s) {f' : Frontier (ANode S A C)} {n : ANode S A C}
    (hp : s.frontier.pop (eqNode P) = some (f', n)) : P.LeastCost init n.state n.pathCost := by
  obtain ⟨_, hn, _, _⟩ := inv.ok.pop cmpNode_swo (eqNode_equiv he) hp
  obtain ⟨l, h1, h2, _⟩ := (inv.wf n hn).route
  refine ⟨⟨l, h1, h2⟩, ?_⟩
  intro l' x hx hq
  refine popped_optimal he hd hr hcon inv opt hp hx ?_ (hr.h _ _ (he.symm _ _ hq))
  intro hexp
  exact inv.disj rfl x hexp ⟨n, hn, hq⟩

private theorem work_init (init : S) : Work P init (initSearch P init) := by
  refine ⟨opt_init init, ?_, List.Pairwise.nil⟩
  intro u hu
  simp [initSearch] at hu

private theorem work_expand (he : KeyEquiv P.eqS) (hd : P.Deterministic) (hr : P.Respects)
    (hm : ∀ a b, P.mayReplace a b = true) (hcon : P.Consistent) {init : S} {s : Search S A C}
    (inv : Inv P true init s) (w : Work P init s) {f' : Frontier (ANode S A C)}
    {n : ANode S A C} (hp : s.frontier.pop (eqNode P) = some (f', n))
    (hns : P.isSol n.state = false) : Work P init (expand P true { s with frontier := f' } n) := by
  obtain ⟨ok', hn, _, hmem⟩ := inv.ok.pop cmpNode_swo (eqNode_equiv he) hp
  have hleast := pop_least he hd hr hcon inv w.opt hp
  have hnew : ∀ y ∈ (expand P true { s with frontier := f' } n).frontier.vec,
      n.pathCost + P.h n.state ≤ y.pathCost + P.h y.state := by
    intro y hy
    rcases mem_expandAll he true n _ _ ok' hy with h | ⟨t, ht, rfl⟩
    · exact pop_key he inv w.opt hp ((hmem y).1 h).1
    · show _ ≤ n.pathCost + t.2.2 + P.h t.1
      rw [add_assoc]
      exact add_le_add_right (hcon n.state t.2.1 t.2.2 t.1 ⟨_, ht⟩) _
  have hold : ∀ u ∈ s.calls, ∃ g, P.LeastCost init u g ∧ g + P.h u ≤ n.pathCost + P.h n.state := by
    intro u hu
    obtain ⟨g, h1, h2⟩ := w.exp u hu
    exact ⟨g, h1, h2 n hn⟩
  refine ⟨opt_expand he hd hr hm hcon inv w.opt hp hns, ?_, ?_⟩
  · intro u hu
    rw [calls_expand] at hu
    rcases List.mem_cons.1 hu with rfl | hu
    · exact ⟨n.pathCost, hleast, hnew⟩
    · obtain ⟨g, h1, h2⟩ := hold u hu
      exact ⟨g, h1, fun y hy => le_trans h2 (hnew y hy)⟩
  · rw [calls_expand]
    refine List.pairwise_cons.2 ⟨?_, w.order⟩
    intro u hu
    obtain ⟨g, h1, h2⟩ := hold u hu
    exact ⟨g, n.pathCost, h1, hleast, h2⟩

/-- C158. A successful graph search with a consistent heuristic has expanded only states whose least cost plus heuristic is at
most the optimal cost, and all states that a chain of transitions reaches with less. (`hG` is the heuristic of the goal, usually
0; costs may be negative.) -/
theorem C158_expanded (he : KeyEquiv P.eqS) (hd : P.Deterministic) (hr : P.Respects)
    (hm : ∀ a b, P.mayReplace a b = true) (hcon : P.Consistent) {hG : C} (hgoal : ∀ t, P.isSol t = true → P.h t = hG)
    {fuel : Nat} {init : S} {s : Search S A C} (h : searchPath P true fuel init = some (.success, s)) :
    ∃ c, getOptimalCost s = some c ∧
      (∀ u ∈ s.calls, ∃ g, P.LeastCost init u g ∧ g + P.h u ≤ c + hG) ∧
      ∀ l x, Route P.tr init l x → routeCost l + P.h x < c + hG → ∃ u ∈ s.calls, P.eqS u x = true := by
  rcases loop_spec he (Work P init)
    (fun s f' n inv w hp hs => work_expand he hd hr hm hcon inv w hp hs)
    fuel _ _ _ (inv_init he true init) (work_init init) h with h | ⟨_, s₀, f', n, inv, w, hp, hs, rfl⟩
  · cases h.1
  · obtain ⟨_, hn, _, _⟩ := inv.ok.pop cmpNode_swo (eqNode_equiv he) hp
    refine ⟨n.pathCost, rfl, ?_, ?_⟩
    · intro u hu
      obtain ⟨g, h1, h2⟩ := w.exp u hu
      exact ⟨g, h1, by rw [← hgoal _ hs]; exact h2 n hn⟩
    · intro l x hx hlt
      rcases frontier_bound he hd hr hcon w.opt hx with h | ⟨y, hy, hyl⟩
      · exact h
      · have := pop_key he inv w.opt hp hy
        rw [hgoal _ hs] at this
        exact absurd hlt (not_lt.2 (le_trans this hyl))

omit [IsOrderedCancelAddMonoid C] in
/-- C158. The states that `GetExploredStates` contains are those expanded, and the start. -/
theorem C158_explored_states (he : KeyEquiv P.eqS) {fuel : Nat} {init : S} {st : Status} {s : Search S A C}
    (h : searchPath P true fuel init = some (st, s)) (x : S) :
    (∃ n ∈ s.explored, P.eqS n.state x = true) ↔ (∃ u ∈ s.calls, P.eqS u x = true) ∨ P.eqS init x = true := by
  rw [← exploredContains_iff]
  rcases searchPath_spec he h with ⟨_, inv, _⟩ | ⟨_, s₀, f', n, inv, _, _, rfl⟩
  · exact inv.explored_iff x
  · exact inv.explored_iff x

/-- C158. States are expanded in the order of their least cost plus heuristic, and no state is expanded twice, whether the search
succeeds or fails. (The most recent call comes first in `calls`.) -/
theorem C158_order (he : KeyEquiv P.eqS) (hd : P.Deterministic) (hr : P.Respects)
    (hm : ∀ a b, P.mayReplace a b = true) (hcon : P.Consistent) {fuel : Nat} {init : S} {st : Status} {s : Search S A C}
    (h : searchPath P true fuel init = some (st, s)) :
    s.calls.Pairwise fun later earlier => P.eqS later earlier = false ∧
      ∃ g g', P.LeastCost init earlier g ∧ P.LeastCost init later g' ∧ g + P.h earlier ≤ g' + P.h later := by
  rcases loop_spec he (Work P init)
    (fun s f' n inv w hp hs => work_expand he hd hr hm hcon inv w hp hs)
    fuel _ _ _ (inv_init he true init) (work_init init) h with ⟨_, inv, w, _⟩ | ⟨_, s₀, f', n, inv, w, hp, hs, rfl⟩
  · exact (inv.nodup rfl).and w.order
  · exact (inv.nodup rfl).and w.order

omit [IsOrderedCancelAddMonoid C] in
/-- C158. A failed search has expanded exactly the states that can be reached; no consistency is needed. -/
theorem C158_failure (he : KeyEquiv P.eqS) (hd : P.Deterministic) (hr : P.Respects) {fuel : Nat} {init : S}
    {s : Search S A C} (h : searchPath P true fuel init = some (.failure, s)) :
    (∀ u ∈ s.calls, Reachable P.tr init u) ∧
      ∀ x, Reachable P.tr init x → ∃ u ∈ s.calls, P.eqS u x = true := by
  rcases searchPath_spec he h with ⟨_, inv, hf⟩ | ⟨h1, _⟩
  · exact ⟨inv.reach, fun x ⟨l, hx⟩ => expanded_of_reachable he hd hr inv hf hx⟩
  · cases h1

/-- C158. A better informed heuristic saves work: with two consistent heuristics that agree at the goal, of which the second is
nowhere less, every state that the second search expands is also expanded by the first one, unless its least cost plus the
second heuristic is exactly the optimal cost. -/
theorem C158_better_heuristic {P' : Problem S A C} (he : KeyEquiv P.eqS) (hd : P.Deterministic) (hr : P.Respects)
    (hm : ∀ a b, P.mayReplace a b = true) (hcon : P.Consistent) (hr' : P'.Respects)
    (hm' : ∀ a b, P'.mayReplace a b = true) (hcon' : P'.Consistent)
    (h1 : P'.eqS = P.eqS) (h2 : P'.nbrs = P.nbrs) (h3 : P'.isSol = P.isSol) (hle : ∀ x, P.h x ≤ P'.h x)
    {hG : C} (hgoal : ∀ t, P.isSol t = true → P.h t = hG) (hgoal' : ∀ t, P.isSol t = true → P'.h t = hG)
    {fuel fuel' : Nat} {init : S} {s s' : Search S A C} (h : searchPath P true fuel init = some (.success, s))
    (h' : searchPath P' true fuel' init = some (.success, s')) :
    ∃ c, getOptimalCost s = some c ∧ getOptimalCost s' = some c ∧
      ∀ u ∈ s'.calls, (∃ v ∈ s.calls, P.eqS v u = true) ∨ ∃ g, P.LeastCost init u g ∧ g + P'.h u = c + hG := by
  have he' : KeyEquiv P'.eqS := by rw [h1]; exact he
  have hd' : P'.Deterministic := by unfold Problem.Deterministic; rw [h2]; exact hd
  have htr : P'.tr = P.tr := by unfold Problem.tr; rw [h2]
  have hg' : ∀ t, P'.isSol t = true → P'.h t = hG := by rw [h3]; exact hgoal'
  obtain ⟨c, k1, _, k3⟩ := C158_expanded he hd hr hm hcon hgoal h
  obtain ⟨c', k1', k2', _⟩ := C158_expanded he' hd' hr' hm' hcon' hg' h'
  obtain ⟨o, o1, o2⟩ := C06_astar_consistent_optimal he hd hr hm hcon
    (fun t t' ht ht' => (hgoal t ht).trans (hgoal t' ht').symm) h
  obtain ⟨o', o1', o2'⟩ := C06_astar_consistent_optimal he' hd' hr' hm' hcon'
    (fun t t' ht ht' => (hg' t ht).trans (hg' t' ht').symm) h'
  obtain ⟨l, t, r1, r2, _, _, r3⟩ := C05_astar_cost_and_actions_match_path he h
  obtain ⟨l', t', r1', r2', _, _, r3'⟩ := C05_astar_cost_and_actions_match_path he' h'
  rw [k1] at o1 r3
  rw [k1'] at o1' r3'
  obtain rfl := Option.some.inj o1
  obtain rfl := Option.some.inj o1'
  have hcc : c = c' := by
    apply le_antisymm
    · rw [Option.some.inj r3']
      exact o2 l' t' (by rw [← htr]; exact r1') (by rw [← h3]; exact r2')
    · rw [Option.some.inj r3]
      exact o2' l t (by rw [htr]; exact r1) (by rw [h3]; exact r2)
  subst hcc
  refine ⟨c, k1, k1', ?_⟩
  intro u hu
  obtain ⟨g, ⟨⟨l, hl, hlg⟩, hmin⟩, hg⟩ := k2' u hu
  rw [htr] at hl hmin
  rw [h1] at hmin
  rcases lt_or_eq_of_le hg with hlt | heq
  · left
    refine k3 l u hl (lt_of_le_of_lt ?_ hlt)
    rw [hlg]
    exact add_le_add_right (hle u) g
  · exact Or.inr ⟨g, ⟨⟨l, hl, hlg⟩, hmin⟩, heq⟩

/-! ### Non-vacuity: a line without ends, from 3 to 5 -/

section Example

private def lineP (h : Nat → Nat) : Problem Nat Nat Nat :=
  { eqS := fun a b => decide (a = b), nbrs := fun _ u => [(u - 1, 0, 1), (u + 1, 1, 1)], h := h, isSol := fun x => decide (x = 5) }

private def dist5 (x : Nat) : Nat := (x - 5) + (5 - x)

private theorem line_equiv (h : Nat → Nat) : KeyEquiv (lineP h).eqS :=
  ⟨by intro a; simp [lineP], by intro a b; simp [lineP]; omega, by intro a b c; simp [lineP]; omega⟩

private theorem line_respects (h : Nat → Nat) : (lineP h).Respects := by
  refine ⟨?_, ?_, ?_⟩
  · intro u u' hu; simp [lineP] at hu ⊢; rw [hu]
  · intro u u' hu
    have : u = u' := by simpa [lineP] using hu
    rw [this]
  · intro u u' hu v a c hv
    have : u = u' := by simpa [lineP] using hu
    subst this
    exact ⟨v, a, hv, by simp [lineP]⟩

/-- The hypotheses of `C158_better_heuristic` hold for the heuristic 0 and the distance to the goal. The first search expands 3,
4, 2 and 1, the second one 3 and 4. -/
example : (lineP fun _ => 0).Deterministic ∧ (lineP fun _ => 0).Respects ∧ (lineP fun _ => 0).Consistent ∧
    (lineP dist5).Respects ∧ (lineP dist5).Consistent ∧ (∀ x, (lineP fun _ => 0).h x ≤ (lineP dist5).h x) ∧
    (∀ t, (lineP dist5).isSol t = true → (lineP dist5).h t = 0) ∧
    KeyEquiv (lineP dist5).eqS ∧
    (searchPath (lineP fun _ => 0) true 20 3).map (fun r => (r.1, r.2.calls)) = some (.success, [1, 2, 4, 3]) ∧
    (searchPath (lineP dist5) true 20 3).map (fun r => (r.1, r.2.calls)) = some (.success, [4, 3]) := by
  refine ⟨fun _ _ => rfl, line_respects _, ?_, line_respects _, ?_, fun x => Nat.zero_le _, ?_, line_equiv _,
    by decide +kernel, by decide +kernel⟩
  · intro u a c v _
    exact Nat.zero_le _
  · rintro u a c v ⟨k, hk⟩
    simp only [lineP, List.mem_cons, Prod.mk.injEq, List.not_mem_nil, or_false] at hk
    show dist5 u ≤ c + dist5 v
    unfold dist5
    rcases hk with ⟨rfl, _, rfl⟩ | ⟨rfl, _, rfl⟩ <;> omega
  · intro t ht
    have : t = 5 := by simpa [lineP] using ht
    subst this
    rfl

end Example

end PathPlanning
