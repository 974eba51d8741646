import Verif.Props.GridFloat

/-!
# C163: the costs of the grid planner are a distance, and grow with the obstacles
-/

namespace PathPlanning
open Spec AStar

section
variable {m m' : GridMap}

private theorem move_mono (hr : m.rows = m'.rows) (hc : m.columns = m'.columns)
    (hocc : ∀ c, m.occ c = true → m'.occ c = true) {u v : Cell} (h : Move m' u v) : Move m u v := by
  obtain ⟨⟨h1, h2⟩, h3, h4⟩ := h
  refine ⟨⟨?_, ?_⟩, h3, fun e1 e2 ⟨b1, b2⟩ => h4 e1 e2 ⟨hocc _ b1, hocc _ b2⟩⟩
  · unfold Inside at h1 ⊢; rw [hr, hc]; exact h1
  · cases h : m.occ v
    · rfl
    · rw [hocc v h] at h2; cases h2

private theorem walk_mono (hr : m.rows = m'.rows) (hc : m.columns = m'.columns)
    (hocc : ∀ c, m.occ c = true → m'.occ c = true) {a b : Cell} {l : List Cell} (h : Walk m' a l b) : Walk m a l b := by
  induction h with
  | stop a => exact .stop a
  | move hm _ ih => exact .move (move_mono hr hc hocc hm) ih

private theorem move_symm {u v : Cell} (hu : Free m u) (h : Move m u v) : Move m v u := by
  obtain ⟨-, h3, h4⟩ := h
  refine ⟨hu, ?_, fun e1 e2 ⟨b1, b2⟩ => h4 (Ne.symm e1) (Ne.symm e2) ⟨b2, b1⟩⟩
  unfold chebyshev at h3 ⊢
  rw [abs_sub_comm v.row, abs_sub_comm v.col]
  exact h3

private theorem walk_reverse {a b : Cell} {l : List Cell} (ha : Free m a) (h : Walk m a l b) : Walk m b l.reverse a := by
  induction h with
  | stop a => exact .stop a
  | @move a b c l hm hw ih =>
    rw [List.reverse_cons]
    exact N2.walk_snoc (ih hm.1) (move_symm ha hm)

private theorem walk_append {a b c : Cell} {l k : List Cell} (h : Walk m a l b) (h' : Walk m b k c) :
    Walk m a (l ++ k.tail) c := by
  induction h with
  | stop a =>
    cases h' with
    | stop => exact .stop _
    | move hm hw => exact .move hm hw
  | move hm _ ih => exact .move hm (ih h')

variable {C : Type} [AddCommMonoid C]

private theorem cost_append (f : Cell → Cell → C) {a b c : Cell} {l k : List Cell} (h : Walk m a l b) (h' : Walk m b k c) :
    walkCost f (l ++ k.tail) = walkCost f l + walkCost f k := by
  induction h with
  | stop a =>
    cases h' with
    | stop => simp [walkCost]
    | move hm hw => simp [walkCost]
  | @move a b d l hm hw ih =>
    have e := ih h'
    cases hw with
    | stop => simp only [List.cons_append, walkCost] at e ⊢; rw [e]; simp
    | move hm' hw' => simp only [List.cons_append, walkCost] at e ⊢; rw [e, add_assoc]

private theorem cost_reverse [LinearOrder C] (f : Cell → Cell → C) (hf : ∀ a b, f a b = f b a) {a b : Cell} {l : List Cell}
    (h : Walk m a l b) : walkCost f l.reverse = walkCost f l := by
  induction h with
  | stop a => rfl
  | @move a b c l hm hw ih =>
    cases hw with
    | stop => simp [walkCost, hf a]
    | @move b d c l hm' hw' =>
      rw [List.reverse_cons, List.reverse_cons, N2.walkCost_snoc, ← List.reverse_cons, ih]
      simp only [walkCost]
      rw [hf b a, add_comm]

end

section
variable {C : Type} [AddCommMonoid C] [LinearOrder C] [IsOrderedCancelAddMonoid C]

/-- The heuristic is consistent for the legal moves of the map. -/
def Spec.ConsistentOn (m : GridMap) (pathCost heur : Cell → Cell → C) (goal : Cell) : Prop :=
  ∀ u v, Inside m u → Move m u v → heur u goal ≤ pathCost u v + heur v goal

theorem grid_answer {m : GridMap} {pathCost heur : Cell → Cell → C} {init goal : Cell} (hi : Inside m init)
    (hcon : ConsistentOn m pathCost heur goal) {fuel : Nat} {st : Status} {s : Search Cell Unit C}
    (h : searchPath (N2.problem m pathCost heur goal) true fuel init = some (st, s)) :
    (st = .failure ∧ ¬ ∃ cells, Walk m init cells goal) ∨
    (st = .success ∧ ∃ cells, Walk m init cells goal ∧ getOptimalCost s = some (walkCost pathCost cells) ∧
      ∀ other, Walk m init other goal → walkCost pathCost cells ≤ walkCost pathCost other) := by
  cases st with
  | failure => exact Or.inl ⟨rfl, (C20_grid_failure_no_path m pathCost heur init goal hi h).1⟩
  | success =>
    obtain ⟨⟨cells, hp, hw, hc⟩, -⟩ := C20_grid_success_is_free_path m pathCost heur init goal hi h
    obtain ⟨cells', hp', -, hopt⟩ := C20_grid_optimal m pathCost heur init goal hi hcon h
    rw [hp] at hp'
    cases hp'
    exact Or.inr ⟨rfl, cells, hw, hc, hopt⟩

/-- C163. Of two maps of the same size, the second with at least the obstacles of the first: if the planner succeeds on the
second, it succeeds on the first, at no greater cost. -/
theorem C163_more_obstacles (m m' : GridMap) (hr : m.rows = m'.rows) (hc : m.columns = m'.columns)
    (hocc : ∀ c, m.occ c = true → m'.occ c = true) (pathCost heur heur' : Cell → Cell → C) (init goal : Cell)
    (hi : Inside m init) (hcon : ConsistentOn m pathCost heur goal) {fuel fuel' : Nat} {st : Status}
    {s s' : Search Cell Unit C}
    (h : searchPath (N2.problem m pathCost heur goal) true fuel init = some (st, s))
    (h' : searchPath (N2.problem m' pathCost heur' goal) true fuel' init = some (.success, s')) :
    st = .success ∧ ∃ c c', getOptimalCost s = some c ∧ getOptimalCost s' = some c' ∧ c ≤ c' := by
  have hi' : Inside m' init := by unfold Inside at hi ⊢; rw [← hr, ← hc]; exact hi
  obtain ⟨⟨cells, -, hw, hcost⟩, -⟩ := C20_grid_success_is_free_path m' pathCost heur' init goal hi' h'
  have hw := walk_mono hr hc hocc hw
  rcases grid_answer hi hcon h with ⟨-, hno⟩ | ⟨rfl, cells', -, hcost', hopt⟩
  · exact absurd ⟨_, hw⟩ hno
  · exact ⟨rfl, _, _, hcost', hcost, hopt _ hw⟩

/-- C163. Between two free cells, with costs that are the same in both directions, the planner succeeds in one direction
exactly if it does in the other, and reports the same cost. -/
theorem C163_symmetric (m : GridMap) (pathCost heur : Cell → Cell → C) (hsym : ∀ a b, pathCost a b = pathCost b a)
    (a b : Cell) (ha : Free m a) (hb : Free m b) (hab : ConsistentOn m pathCost heur b)
    (hba : ConsistentOn m pathCost heur a) {fuel fuel' : Nat} {st st' : Status} {s s' : Search Cell Unit C}
    (h : searchPath (N2.problem m pathCost heur b) true fuel a = some (st, s))
    (h' : searchPath (N2.problem m pathCost heur a) true fuel' b = some (st', s')) :
    st = st' ∧ (st = .success → ∃ c, getOptimalCost s = some c ∧ getOptimalCost s' = some c) := by
  rcases grid_answer ha.1 hab h with ⟨rfl, hno⟩ | ⟨rfl, l, hw, hc, hopt⟩ <;>
    rcases grid_answer hb.1 hba h' with ⟨rfl, hno'⟩ | ⟨rfl, l', hw', hc', hopt'⟩
  · exact ⟨rfl, fun h => nomatch h⟩
  · exact absurd ⟨_, walk_reverse hb hw'⟩ hno
  · exact absurd ⟨_, walk_reverse ha hw⟩ hno'
  · refine ⟨rfl, fun _ => ⟨_, hc, ?_⟩⟩
    have h1 := hopt _ (walk_reverse hb hw')
    have h2 := hopt' _ (walk_reverse ha hw)
    rw [cost_reverse _ hsym hw'] at h1
    rw [cost_reverse _ hsym hw] at h2
    rw [hc', le_antisymm h1 h2]

/-- C163. If the planner succeeds from `a` to `b` and from `b` to `c`, it succeeds from `a` to `c`, at no more than the sum of
the costs. -/
theorem C163_triangle (m : GridMap) (pathCost heur : Cell → Cell → C) (a b c : Cell) (ha : Inside m a) (hb : Inside m b)
    (hc : ConsistentOn m pathCost heur c) {f1 f2 f3 : Nat} {st : Status} {s1 s2 s3 : Search Cell Unit C}
    (h1 : searchPath (N2.problem m pathCost heur b) true f1 a = some (.success, s1))
    (h2 : searchPath (N2.problem m pathCost heur c) true f2 b = some (.success, s2))
    (h3 : searchPath (N2.problem m pathCost heur c) true f3 a = some (st, s3)) :
    st = .success ∧ ∃ x y z, getOptimalCost s1 = some x ∧ getOptimalCost s2 = some y ∧ getOptimalCost s3 = some z ∧
      z ≤ x + y := by
  obtain ⟨⟨l, -, hw, hx⟩, -⟩ := C20_grid_success_is_free_path m pathCost heur a b ha h1
  obtain ⟨⟨k, -, hw', hy⟩, -⟩ := C20_grid_success_is_free_path m pathCost heur b c hb h2
  have h := walk_append hw hw'
  rcases grid_answer ha hc h3 with ⟨-, hno⟩ | ⟨rfl, j, -, hz, hopt⟩
  · exact absurd ⟨_, h⟩ hno
  · refine ⟨rfl, _, _, _, hx, hy, hz, ?_⟩
    have := hopt _ h
    rwa [cost_append _ hw hw'] at this

end

/-! ## With doubles -/

section
variable {m : GridMap}

theorem grid_answerF (hm : m.rows.toNat * m.columns.toNat ≤ 2 ^ 16) {init goal : Cell} (hi : Inside m init)
    {fuel : Nat} {st : Status} {s : Search Cell Unit Double}
    (h : searchPath (N2.problem m N2.distanceF N2.distanceF goal) true fuel init = some (st, s)) :
    (st = .failure ∧ ¬ ∃ cells, Walk m init cells goal) ∨
    (st = .success ∧ ∃ cells, getPath s = some cells ∧ Walk m init cells goal ∧
      ∀ other, Walk m init other goal → walkLength cells ≤ walkLength other) := by
  cases st with
  | failure => exact Or.inl ⟨rfl, (C20_grid_failure_no_path m _ _ init goal hi h).1⟩
  | success => exact Or.inr ⟨rfl, C143_shortest_small_maps m hm init goal hi h⟩

private theorem distance_symm (a b : Cell) : cellDistance a b = cellDistance b a := by
  unfold cellDistance
  congr 1
  push_cast
  ring

/-- C163 with doubles, on maps of at most 65536 cells: more obstacles never make the returned path shorter. -/
theorem C163_more_obstacles_double (m m' : GridMap) (hm : m.rows.toNat * m.columns.toNat ≤ 2 ^ 16)
    (hr : m.rows = m'.rows) (hc : m.columns = m'.columns) (hocc : ∀ c, m.occ c = true → m'.occ c = true)
    (init goal : Cell) (hi : Inside m init) {fuel fuel' : Nat} {st : Status} {s s' : Search Cell Unit Double}
    (h : searchPath (N2.problem m N2.distanceF N2.distanceF goal) true fuel init = some (st, s))
    (h' : searchPath (N2.problem m' N2.distanceF N2.distanceF goal) true fuel' init = some (.success, s')) :
    st = .success ∧ ∃ l l', getPath s = some l ∧ getPath s' = some l' ∧ walkLength l ≤ walkLength l' := by
  have hi' : Inside m' init := by unfold Inside at hi ⊢; rw [← hr, ← hc]; exact hi
  obtain ⟨l', hp', hw', -⟩ := C142_grid m' _ _ init goal hi' h'
  rcases grid_answerF hm hi h with ⟨-, hno⟩ | ⟨rfl, l, hp, -, hopt⟩
  · exact absurd ⟨_, walk_mono hr hc hocc hw'⟩ hno
  · exact ⟨rfl, l, l', hp, hp', hopt _ (walk_mono hr hc hocc hw')⟩

/-- C163 with doubles, on maps of at most 65536 cells: the paths returned in the two directions between free cells have
exactly the same length. -/
theorem C163_symmetric_double (m : GridMap) (hm : m.rows.toNat * m.columns.toNat ≤ 2 ^ 16) (a b : Cell) (ha : Free m a)
    (hb : Free m b) {fuel fuel' : Nat} {st st' : Status} {s s' : Search Cell Unit Double}
    (h : searchPath (N2.problem m N2.distanceF N2.distanceF b) true fuel a = some (st, s))
    (h' : searchPath (N2.problem m N2.distanceF N2.distanceF a) true fuel' b = some (st', s')) :
    st = st' ∧ (st = .success → ∃ l l', getPath s = some l ∧ getPath s' = some l' ∧ walkLength l = walkLength l') := by
  rcases grid_answerF hm ha.1 h with ⟨rfl, hno⟩ | ⟨rfl, l, hp, hw, hopt⟩ <;>
    rcases grid_answerF hm hb.1 h' with ⟨rfl, hno'⟩ | ⟨rfl, l', hp', hw', hopt'⟩
  · exact ⟨rfl, fun h => nomatch h⟩
  · exact absurd ⟨_, walk_reverse hb hw'⟩ hno
  · exact absurd ⟨_, walk_reverse ha hw⟩ hno'
  · refine ⟨rfl, fun _ => ⟨l, l', hp, hp', ?_⟩⟩
    have h1 := hopt _ (walk_reverse hb hw')
    have h2 := hopt' _ (walk_reverse ha hw)
    unfold walkLength at h1 h2 ⊢
    rw [cost_reverse _ distance_symm hw'] at h1
    rw [cost_reverse _ distance_symm hw] at h2
    exact le_antisymm h1 h2

/-- C163 with doubles, on maps of at most 65536 cells: the triangle inequality. -/
theorem C163_triangle_double (m : GridMap) (hm : m.rows.toNat * m.columns.toNat ≤ 2 ^ 16) (a b c : Cell)
    (ha : Inside m a) (hb : Inside m b) {f1 f2 f3 : Nat} {st : Status} {s1 s2 s3 : Search Cell Unit Double}
    (h1 : searchPath (N2.problem m N2.distanceF N2.distanceF b) true f1 a = some (.success, s1))
    (h2 : searchPath (N2.problem m N2.distanceF N2.distanceF c) true f2 b = some (.success, s2))
    (h3 : searchPath (N2.problem m N2.distanceF N2.distanceF c) true f3 a = some (st, s3)) :
    st = .success ∧ ∃ l k j, getPath s1 = some l ∧ getPath s2 = some k ∧ getPath s3 = some j ∧
      walkLength j ≤ walkLength l + walkLength k := by
  obtain ⟨l, hl, hw, -⟩ := C142_grid m _ _ a b ha h1
  obtain ⟨k, hk, hw', -⟩ := C142_grid m _ _ b c hb h2
  have h := walk_append hw hw'
  rcases grid_answerF hm ha h3 with ⟨-, hno⟩ | ⟨rfl, j, hj, -, hopt⟩
  · exact absurd ⟨_, h⟩ hno
  · refine ⟨rfl, l, k, j, hl, hk, hj, ?_⟩
    have := hopt _ h
    unfold walkLength at this ⊢
    rwa [cost_append _ hw hw'] at this

end

/-- A 3 × 3 map, free or with a blocked centre, and costs of 10 and 14 (with a zero heuristic) meet the hypotheses: the cost
from corner to corner is 28 without the obstacle, 34 with it in both directions, and 10 + 24 by way of a side. -/
example : let f : GridMap := ⟨3, 3, fun _ => false⟩
    let m : GridMap := ⟨3, 3, fun c => decide (c = ⟨1, 1⟩)⟩
    let k : Cell → Cell → Nat := fun a b => if a.isDiagonalTo b then 14 else 10
    let cost := fun (m : GridMap) (a b : Cell) =>
      (searchPath (N2.problem m k (fun _ _ => 0) b) true 10 a).map (fun r => (r.1, getOptimalCost r.2))
    (∀ c, f.occ c = true → m.occ c = true) ∧ (∀ a b, k a b = k b a) ∧ (∀ g, ConsistentOn m k (fun _ _ => 0) g) ∧
    Free m ⟨0, 0⟩ ∧ Free m ⟨2, 2⟩ ∧
    cost f ⟨0, 0⟩ ⟨2, 2⟩ = some (.success, some 28) ∧
    cost m ⟨0, 0⟩ ⟨2, 2⟩ = some (.success, some 34) ∧
    cost m ⟨2, 2⟩ ⟨0, 0⟩ = some (.success, some 34) ∧
    cost m ⟨0, 0⟩ ⟨0, 1⟩ = some (.success, some 10) ∧
    cost m ⟨0, 1⟩ ⟨2, 2⟩ = some (.success, some 24) := by
  refine ⟨fun c h => (by cases h), ?_, fun g u v _ _ => Nat.zero_le _, ?_, ?_, (by decide +kernel), (by decide +kernel),
    (by decide +kernel), (by decide +kernel), (by decide +kernel)⟩
  · intro a b
    have e : a.isDiagonalTo b = b.isDiagonalTo a := by
      unfold Cell.isDiagonalTo
      rw [Bool.eq_iff_iff]
      simp only [Bool.and_eq_true, decide_eq_true_eq]
      exact ⟨fun h => ⟨h.1.symm, h.2.symm⟩, fun h => ⟨h.1.symm, h.2.symm⟩⟩
    dsimp only
    rw [e]
  · unfold Free Inside; decide
  · unfold Free Inside; decide

end PathPlanning
