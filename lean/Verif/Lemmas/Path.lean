import Verif.Spec.Path
import Mathlib.Algebra.Group.Basic

namespace PathPlanning.Spec
variable {S A C : Type}

theorem Route.cons {tr : S → A → C → S → Prop} {s a c v l t} (h : tr s a c v)
    (hr : Route tr v l t) : Route tr s ((a, c, v) :: l) t := by
  induction hr with
  | nil => exact Route.snoc (l := []) .nil h
  | snoc _ h2 ih => exact Route.snoc (l := _ :: _) ih h2

theorem Route.append {tr : S → A → C → S → Prop} {s l1 u l2 t} (h1 : Route tr s l1 u)
    (h2 : Route tr u l2 t) : Route tr s (l1 ++ l2) t := by
  induction h2 with
  | nil => simpa using h1
  | snoc _ h3 ih => rw [← List.append_assoc]; exact .snoc ih h3

theorem Route.mono {tr tr' : S → A → C → S → Prop} (h : ∀ u a c v, tr u a c v → tr' u a c v)
    {s l t} (hr : Route tr s l t) : Route tr' s l t := by
  induction hr with
  | nil => exact .nil
  | snoc _ h2 ih => exact .snoc ih (h _ _ _ _ h2)

theorem foldl_add [AddCommMonoid C] (l : List (A × C × S)) (x : C) :
    l.foldl (fun x e => x + e.2.1) x = x + routeCost l := by
  unfold routeCost
  induction l generalizing x with
  | nil => simp
  | cons e l ih => simp only [List.foldl_cons]; rw [ih, ih (0 + e.2.1)]; simp [add_assoc]

theorem routeCost_cons [AddCommMonoid C] (e : A × C × S) (l : List (A × C × S)) :
    routeCost (e :: l) = e.2.1 + routeCost l := by
  show List.foldl _ _ _ = _
  rw [List.foldl_cons, foldl_add]; simp

theorem routeCost_append [AddCommMonoid C] (l1 l2 : List (A × C × S)) :
    routeCost (l1 ++ l2) = routeCost l1 + routeCost l2 := by
  show List.foldl _ _ _ = _
  rw [List.foldl_append, foldl_add]; rfl

/-- Turning a route around along reversed transitions. -/
theorem Route.reverse [AddCommMonoid C] {tr tr' : S → A → C → S → Prop}
    {s : S} (h : ∀ u a c v, Reachable tr s u → tr u a c v → ∃ a', tr' v a' c u) {l t} (hr : Route tr s l t) :
    ∃ l', Route tr' t l' s ∧ routeStates t l' = (routeStates s l).reverse ∧
      routeCost l' = routeCost l := by
  induction hr with
  | nil => exact ⟨[], .nil, rfl, rfl⟩
  | @snoc l u a c v h1 h2 ih =>
    obtain ⟨l', h3, h4, h5⟩ := ih
    obtain ⟨a', h6⟩ := h u a c v ⟨l, h1⟩ h2
    refine ⟨(a', c, u) :: l', h3.cons h6, ?_, ?_⟩
    · simp only [routeStates, List.map_cons, List.map_append, List.map_nil] at h4 ⊢
      rw [h4]
      simp
    · rw [routeCost_cons, routeCost_append, h5, add_comm]
      simp [routeCost_cons, routeCost]

theorem Route.turn {tr tr' : S → A → C → S → Prop}
    {s : S} (h : ∀ u a c v, Reachable tr s u → tr u a c v → ∃ a', tr' v a' c u) {l t} (hr : Route tr s l t) :
    ∃ l', Route tr' t l' s := by
  induction hr with
  | nil => exact ⟨[], .nil⟩
  | @snoc l u a c v h1 h2 ih =>
    obtain ⟨l', h3⟩ := ih
    obtain ⟨a', h6⟩ := h u a c v ⟨l, h1⟩ h2
    exact ⟨_, h3.cons h6⟩

theorem Route.states_end {tr : S → A → C → S → Prop} {s l t} (hr : Route tr s l t) :
    ∃ pre, routeStates s l = pre ++ [t] := by
  cases hr with
  | nil => exact ⟨[], rfl⟩
  | @snoc l u a c v h1 h2 => exact ⟨routeStates s l, by simp [routeStates]⟩

end PathPlanning.Spec
