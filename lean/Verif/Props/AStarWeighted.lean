import Verif.Props.Grid
import Mathlib.Analysis.SpecialFunctions.Pow.Real
import Mathlib.Algebra.Order.Ring.Defs
import Mathlib.Algebra.Order.Ring.Int
import Mathlib.Tactic.Linarith

/-!
# C159: A* with a heuristic that overestimates
-/

namespace PathPlanning
open Spec AStar

variable {S A C : Type} [CommRing C] [LinearOrder C] [IsStrictOrderedRing C] {P : Problem S A C}

/-- Along a transition, the heuristic falls by at most `w` times the cost of the transition. -/
def Problem.FallsAtMost (P : Problem S A C) (w : C) : Prop := ∀ u a c v, P.tr u a c v → P.h u ≤ w * c + P.h v

/-- The invariant of C06 with costs up to the factor `w`. -/
private structure WOpt (P : Problem S A C) (w : C) (init : S) (s : Search S A C) : Prop where
  start : (s.calls = [] ∧ s.frontier.vec = [rootNode init]) ∨ (Expanded P s.calls init ∧ Tot P s.frontier)
  exp : ∀ u ∈ s.calls, ∃ g, (∀ l x, Route P.tr init l x → P.eqS u x = true → g ≤ w * routeCost l) ∧
    ∀ t ∈ P.nbrs 0 u, Expanded P s.calls t.1 ∨ Dom P s.frontier t.1 (g + t.2.2)

private theorem w_bound {w : C} (hw : 1 ≤ w) (he : KeyEquiv P.eqS) (hd : P.Deterministic) (hr : P.Respects)
    (hcost : ∀ u a c v, P.tr u a c v → 0 ≤ c) (hf : P.FallsAtMost w) {init : S} {s : Search S A C} (opt : WOpt P w init s)
    {l x} (hx : Route P.tr init l x) :
    Expanded P s.calls x ∨ ∃ y ∈ s.frontier.vec, y.pathCost + P.h y.state ≤ w * routeCost l + P.h x := by
  induction hx with
  | nil =>
    rcases opt.start with ⟨_, h⟩ | ⟨h, _⟩
    · right
      refine ⟨rootNode init, by rw [h]; simp, ?_⟩
      simp [routeCost, rootNode, ANode.pathCost, ANode.state]
    · exact Or.inl h
  | @snoc l u a c v hrt htr ih =>
    have hc := hcost u a c v htr
    have hfall := hf u a c v htr
    rcases ih with ⟨u', hu', hq⟩ | ⟨y, hy, hyl⟩
    · obtain ⟨g, hg1, hg2⟩ := opt.exp u' hu'
      have hgl := hg1 l u hrt hq
      obtain ⟨k, hk⟩ := htr
      rw [hd] at hk
      obtain ⟨v', a', hv', hvv⟩ := hr.nbrs u u' (he.symm _ _ hq) v a c hk
      rcases hg2 _ hv' with ⟨z, hz, hzq⟩ | ⟨y, hy, hyv, hyc⟩
      · exact Or.inl ⟨z, hz, he.trans _ _ _ hzq (he.symm _ _ hvv)⟩
      · right
        refine ⟨y, hy, ?_⟩
        have hyv2 : P.h y.state = P.h v := hr.h _ _ (he.trans _ _ _ hyv (he.symm _ _ hvv))
        rw [routeCost_snoc, hyv2]
        have hwc : c ≤ w * c := by nlinarith
        have hyc' : y.pathCost ≤ g + c := hyc
        linarith [mul_add w (routeCost l) c]
    · right
      refine ⟨y, hy, le_trans hyl ?_⟩
      rw [routeCost_snoc]
      linarith [mul_add w (routeCost l) c]

omit [IsStrictOrderedRing C] in
private theorem w_key (he : KeyEquiv P.eqS) {w : C} {init : S} {s : Search S A C} (inv : Inv P true init s)
    (opt : WOpt P w init s) {f' : Frontier (ANode S A C)} {n : ANode S A C}
    (hp : s.frontier.pop (eqNode P) = some (f', n)) {y : ANode S A C} (hy : y ∈ s.frontier.vec) :
    n.pathCost + P.h n.state ≤ y.pathCost + P.h y.state := by
  obtain ⟨_, hn, hmin, _⟩ := inv.ok.pop cmpNode_swo (eqNode_equiv he) hp
  rcases opt.start with ⟨_, h⟩ | ⟨_, h⟩
  · rw [h] at hn hy
    simp only [List.mem_singleton] at hn hy
    rw [hn, hy]
  · rw [← h n hn, ← h y hy]
    have := hmin y hy
    simpa [cmpNode] using this

private theorem w_popped {w : C} (hw : 1 ≤ w) (he : KeyEquiv P.eqS) (hd : P.Deterministic) (hr : P.Respects)
    (hcost : ∀ u a c v, P.tr u a c v → 0 ≤ c) (hf : P.FallsAtMost w) {init : S} {s : Search S A C}
    (inv : Inv P true init s) (opt : WOpt P w init s) {f' : Frontier (ANode S A C)} {n : ANode S A C}
    (hp : s.frontier.pop (eqNode P) = some (f', n)) {l x} (hx : Route P.tr init l x)
    (hne : ¬ Expanded P s.calls x) (hh : P.h x ≤ P.h n.state) : n.pathCost ≤ w * routeCost l := by
  rcases w_bound hw he hd hr hcost hf opt hx with h | ⟨y, hy, hyl⟩
  · exact absurd h hne
  · have := w_key he inv opt hp hy
    linarith

private theorem w_init (w : C) (init : S) : WOpt P w init (initSearch P init) := by
  refine ⟨(opt_init init).start, ?_⟩
  intro u hu
  simp [initSearch] at hu

private theorem w_expand {w : C} (hw : 1 ≤ w) (he : KeyEquiv P.eqS) (hd : P.Deterministic) (hr : P.Respects)
    (hm : ∀ a b, P.mayReplace a b = true) (hcost : ∀ u a c v, P.tr u a c v → 0 ≤ c) (hf : P.FallsAtMost w)
    {init : S} {s : Search S A C}
    (inv : Inv P true init s) (opt : WOpt P w init s) {f' : Frontier (ANode S A C)}
    {n : ANode S A C} (hp : s.frontier.pop (eqNode P) = some (f', n))
    (hns : P.isSol n.state = false) : WOpt P w init (expand P true { s with frontier := f' } n) := by
  have he' := eqNode_equiv he
  have inv' := inv_expand he inv hp hns
  obtain ⟨ok', hn, hmin, hmem⟩ := inv.ok.pop cmpNode_swo he' hp
  have htot' : Tot P f' := by
    intro y hy
    obtain ⟨hy1, hy2⟩ := (hmem y).1 hy
    rcases opt.start with ⟨_, h⟩ | ⟨_, h⟩
    · rw [h] at hn hy1
      simp only [List.mem_singleton] at hn hy1
      rw [hn, hy1, he'.refl] at hy2
      cases hy2
    · exact h y hy1
  have hinit : Expanded P (n.state :: s.calls) init := by
    rcases opt.start with ⟨_, h⟩ | ⟨⟨u, hu, hui⟩, _⟩
    · rw [h] at hn
      simp only [List.mem_singleton] at hn
      exact ⟨n.state, by simp, by rw [hn]; exact he.refl _⟩
    · exact ⟨u, by simp [hu], hui⟩
  obtain ⟨ex, hexd⟩ : ∃ ex, ex = exploredInsert P s.explored n := ⟨_, rfl⟩
  have hE : expand P true { s with frontier := f' } n =
      { s with explored := ex
               frontier := (P.nbrs 0 n.state).foldl (expandOne P true n ex) f'
               calls := n.state :: s.calls } := by
    simp only [expand, hexd]
    rw [hd]
  rw [hE] at inv' ⊢
  refine ⟨Or.inr ⟨hinit, tot_expandAll he n ex _ ok' htot'⟩, ?_⟩
  intro u hu
  rcases List.mem_cons.1 hu with rfl | hu
  · refine ⟨n.pathCost, ?_, ?_⟩
    · intro l x hx hq
      refine w_popped hw he hd hr hcost hf inv opt hp hx ?_ (le_of_eq (hr.h _ _ (he.symm _ _ hq)))
      intro hexp
      exact inv.disj rfl x hexp ⟨n, hn, hq⟩
    · intro t ht
      cases hce : exploredContains P ex t.1 with
      | true =>
        left
        rcases (inv'.explored_iff t.1).1 hce with h | h
        · exact h
        · obtain ⟨z, hz, hzi⟩ := hinit
          exact ⟨z, hz, he.trans _ _ _ hzi h⟩
      | false => exact Or.inr (dom_expandAll_self he hr hm n ex _ ok' htot' t ht hce)
  · obtain ⟨g, hg1, hg2⟩ := opt.exp u hu
    refine ⟨g, hg1, ?_⟩
    intro t ht
    rcases hg2 t ht with ⟨z, hz, hzq⟩ | ⟨y, hy, hyt, hyg⟩
    · exact Or.inl ⟨z, by simp [hz], hzq⟩
    · cases hq : eqNode P y n with
      | true => exact Or.inl ⟨n.state, by simp, he.trans _ _ _ (he.symm _ _ hq) hyt⟩
      | false =>
        exact Or.inr (dom_expandAll he hr n ex _ ok' htot' ⟨y, (hmem y).2 ⟨hy, hq⟩, hyt, hyg⟩)

/-- C159. If the heuristic falls by at most `w ≥ 1` times the cost of each transition, is the same at all solutions, and costs
are not negative, then the cost of the returned path is at most `w` times that of any other path, although states that have
been expanded are never expanded again. -/
theorem C159_within_factor (he : KeyEquiv P.eqS) (hd : P.Deterministic) (hr : P.Respects)
    (hm : ∀ a b, P.mayReplace a b = true) (hcost : ∀ u a c v, P.tr u a c v → 0 ≤ c) {w : C} (hw : 1 ≤ w)
    (hf : P.FallsAtMost w) (hgoal : ∀ t t', P.isSol t = true → P.isSol t' = true → P.h t = P.h t')
    {fuel : Nat} {init : S} {s : Search S A C} (h : searchPath P true fuel init = some (.success, s)) :
    ∃ c, getOptimalCost s = some c ∧
      ∀ steps t, Route P.tr init steps t → P.isSol t = true → c ≤ w * routeCost steps := by
  rcases loop_spec he (WOpt P w init)
    (fun s f' n inv opt hp hs => w_expand hw he hd hr hm hcost hf inv opt hp hs)
    fuel _ _ _ (inv_init he true init) (w_init w init) h with h | ⟨_, s₀, f', n, inv, opt, hp, hs, rfl⟩
  · cases h.1
  · refine ⟨n.pathCost, rfl, ?_⟩
    intro steps t hrt ht
    refine w_popped hw he hd hr hcost hf inv opt hp hrt ?_ (le_of_eq (hgoal _ _ ht hs))
    rintro ⟨u, hu, hut⟩
    have := inv.notSol u hu
    rw [hr.isSol _ _ hut, ht] at this
    cases this

/-- C159, in the usual form: the heuristic is `w` times a consistent one. -/
theorem C159_weighted (he : KeyEquiv P.eqS) (hd : P.Deterministic) (hr : P.Respects)
    (hm : ∀ a b, P.mayReplace a b = true) (hcost : ∀ u a c v, P.tr u a c v → 0 ≤ c) {w : C} (hw : 1 ≤ w)
    (h0 : S → C) (hh : ∀ x, P.h x = w * h0 x) (hcon : ∀ u a c v, P.tr u a c v → h0 u ≤ c + h0 v)
    (hgoal : ∀ t, P.isSol t = true → h0 t = 0)
    {fuel : Nat} {init : S} {s : Search S A C} (h : searchPath P true fuel init = some (.success, s)) :
    ∃ c, getOptimalCost s = some c ∧
      ∀ steps t, Route P.tr init steps t → P.isSol t = true → c ≤ w * routeCost steps := by
  refine C159_within_factor he hd hr hm hcost hw ?_ ?_ h
  · intro u a c v htr
    rw [hh, hh, ← mul_add]
    exact mul_le_mul_of_nonneg_left (hcon u a c v htr) (le_trans zero_le_one hw)
  · intro t t' ht ht'
    rw [hh, hh, hgoal t ht, hgoal t' ht']

/-- C159 for the grid planner: if the heuristic falls by at most `w` times the cost of each legal move, the returned walk costs at
most `w` times as much as any other. -/
theorem C159_grid (m : GridMap) (pathCost heur : Cell → Cell → C) (init goal : Cell) (hi : Inside m init) {w : C} (hw : 1 ≤ w)
    (hcost : ∀ u v, Inside m u → Move m u v → 0 ≤ pathCost u v)
    (hf : ∀ u v, Inside m u → Move m u v → heur u goal ≤ w * pathCost u v + heur v goal)
    {fuel : Nat} {s : Search Cell Unit C}
    (h : AStar.searchPath (N2.problem m pathCost heur goal) true fuel init = some (.success, s)) :
    ∃ cells, AStar.getPath s = some cells ∧ Walk m init cells goal ∧ AStar.getOptimalCost s = some (walkCost pathCost cells) ∧
      ∀ other, Walk m init other goal → walkCost pathCost cells ≤ w * walkCost pathCost other := by
  obtain ⟨⟨cells, h1, h2, h3⟩, _⟩ := C20_grid_success_is_free_path m pathCost heur init goal hi h
  refine ⟨cells, h1, h2, h3, ?_⟩
  intro other hwk
  obtain ⟨c, hc, hopt⟩ := C159_within_factor N2.eqv N2.det N2.resp (fun _ _ => rfl)
    (by
      intro u a c v htr
      obtain ⟨h4, h5, rfl⟩ := (N2.tr_iff _ _ _ _).mp htr
      exact hcost u v h4 h5) hw
    (by
      intro u a c v htr
      obtain ⟨h4, h5, rfl⟩ := (N2.tr_iff _ _ _ _).mp htr
      exact hf u v h4 h5)
    (by
      intro t t' ht ht'
      have e1 : t = goal := by simpa [N2.problem] using ht
      have e2 : t' = goal := by simpa [N2.problem] using ht'
      rw [e1, e2]) h
  rw [h3] at hc
  cases hc
  obtain ⟨steps, h4, h5⟩ := N2.route_of_walk (pathCost := pathCost) (heur := heur) (goal := goal) hi hwk
  rw [← h5]
  exact hopt steps goal h4 (by simp [N2.problem])

/-- C159, a common choice: the length of the moves as cost and the sum of the differences of rows and columns as heuristic. It
overestimates diagonal moves, and the returned walk is at most √2 times as long as the shortest one. -/
theorem C159_manhattan (m : GridMap) (init goal : Cell) (hi : Inside m init) {fuel : Nat} {s : Search Cell Unit ℝ}
    (h : AStar.searchPath (N2.problem m (fun a b => √(((a.row - b.row : ℤ) : ℝ) ^ 2 + ((a.col - b.col : ℤ) : ℝ) ^ 2))
      (fun a b => |((a.row - b.row : ℤ) : ℝ)| + |((a.col - b.col : ℤ) : ℝ)|) goal) true fuel init = some (.success, s)) :
    ∃ cells, AStar.getPath s = some cells ∧ Walk m init cells goal ∧ ∀ other, Walk m init other goal →
      walkCost (fun a b => √(((a.row - b.row : ℤ) : ℝ) ^ 2 + ((a.col - b.col : ℤ) : ℝ) ^ 2)) cells ≤
        √2 * walkCost (fun a b => √(((a.row - b.row : ℤ) : ℝ) ^ 2 + ((a.col - b.col : ℤ) : ℝ) ^ 2)) other := by
  obtain ⟨cells, h1, h2, _, h4⟩ := C159_grid m _ _ init goal hi (w := √2) (by rw [Real.one_le_sqrt]; norm_num)
    (fun _ _ _ _ => Real.sqrt_nonneg _) (by
      intro u v _ _
      have hab : ∀ a b : ℝ, |a| + |b| ≤ √2 * √(a ^ 2 + b ^ 2) := by
        intro a b
        rw [← Real.sqrt_mul (by norm_num)]
        apply Real.le_sqrt_of_sq_le
        nlinarith [sq_abs a, sq_abs b, sq_nonneg (|a| - |b|)]
      have h1 := hab ((u.row - v.row : ℤ) : ℝ) ((u.col - v.col : ℤ) : ℝ)
      have h2 : |((u.row - goal.row : ℤ) : ℝ)| ≤ |((u.row - v.row : ℤ) : ℝ)| + |((v.row - goal.row : ℤ) : ℝ)| := by
        refine le_trans (le_of_eq ?_) (abs_add_le _ _)
        congr 1; push_cast; ring
      have h3 : |((u.col - goal.col : ℤ) : ℝ)| ≤ |((u.col - v.col : ℤ) : ℝ)| + |((v.col - goal.col : ℤ) : ℝ)| := by
        refine le_trans (le_of_eq ?_) (abs_add_le _ _)
        congr 1; push_cast; ring
      linarith) h
  exact ⟨cells, h1, h2, h4⟩

/-! ### Non-vacuity: a search that does return a path longer than needed -/

section Example

private def wN : Nat → List (Nat × Nat × ℤ)
  | 0 => [(1, 0, 2), (2, 1, 5)]
  | 1 => [(2, 2, 2)]
  | _ => []

private def wH : Nat → ℤ
  | 0 => 4
  | 1 => 2
  | _ => 0

private def wP : Problem Nat Nat ℤ :=
  { eqS := fun a b => decide (a = b), nbrs := fun _ u => wN u, h := fun x => 2 * wH x, isSol := fun x => decide (x = 2) }

/-- The hypotheses of `C159_weighted` hold with factor 2; the search returns the direct move of cost 5 although a path of cost 4
exists: the optimality of C06 needs a consistent heuristic. -/
example : KeyEquiv wP.eqS ∧ wP.Deterministic ∧ wP.Respects ∧ (∀ u a c v, wP.tr u a c v → 0 ≤ c) ∧
    (∀ u a c v, wP.tr u a c v → wH u ≤ c + wH v) ∧ (∀ t, wP.isSol t = true → wH t = 0) ∧
    (searchPath wP true 10 0).map (fun r => (r.1, getOptimalCost r.2)) = some (.success, some 5) ∧
    ∃ l, Route wP.tr 0 l 2 ∧ routeCost l = 4 := by
  have htr : ∀ u a c v, wP.tr u a c v → 0 ≤ c ∧ wH u ≤ c + wH v := by
    rintro u a c v ⟨k, hk⟩
    have hk' : (v, a, c) ∈ wN u := hk
    unfold wN at hk'
    split at hk' <;> simp at hk'
    · rcases hk' with ⟨rfl, _, rfl⟩ | ⟨rfl, _, rfl⟩ <;> decide
    · obtain ⟨rfl, _, rfl⟩ := hk'; decide
  refine ⟨⟨by intro a; simp [wP], by intro a b; simp [wP]; omega, by intro a b c; simp [wP]; omega⟩, fun _ _ => rfl, ?_,
    fun u a c v h => (htr u a c v h).1, fun u a c v h => (htr u a c v h).2, ?_, by decide +kernel, ?_⟩
  · refine ⟨?_, ?_, ?_⟩
    · intro u u' hu; simp [wP] at hu ⊢; rw [hu]
    · intro u u' hu
      have : u = u' := by simpa [wP] using hu
      rw [this]
    · intro u u' hu v a c hv
      have : u = u' := by simpa [wP] using hu
      subst this
      exact ⟨v, a, hv, by simp [wP]⟩
  · intro t ht
    have : t = 2 := by simpa [wP] using ht
    subst this
    rfl
  · exact ⟨[(0, 2, 1), (2, 2, 2)], .snoc (l := [(0, 2, 1)]) (.snoc .nil ⟨0, by simp [wP, wN]⟩) ⟨0, by simp [wP, wN]⟩, by decide⟩

end Example

end PathPlanning
