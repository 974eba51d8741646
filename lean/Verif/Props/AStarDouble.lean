import Verif.Props.AStarRound
import Verif.Props.AStar
import Verif.Lemmas.Float
import Verif.Model.FloatAStar

/-!
# C119 for `double`
-/

namespace PathPlanning
open Spec AStar Flt

/-- Addition of `double`s is rounded with a relative error of at most 2⁻⁵³. -/
theorem double_rounded : Rounded (C := Double) Subtype.val (2 ^ 53)⁻¹ := by
  refine ⟨fun a b h => h, rfl, fun a b ha hb => ?_⟩
  have h := fl_rel 53 (a.1 + b.1)
  have ha' : (0 : ℝ) ≤ a.1 := ha
  have hb' : (0 : ℝ) ≤ b.1 := hb
  rw [abs_of_nonneg (by linarith : 0 ≤ a.1 + b.1)] at h
  exact h

private theorem double_add_zero (a : Double) : a + 0 = a := by
  refine Subtype.ext ?_
  show fl 53 (a.1 + 0) = a.1
  rw [add_zero]; exact a.2

private theorem double_add_mono {a b : Double} (c : Double) (h : a ≤ b) : a + c ≤ b + c := by
  show fl 53 (a.1 + c.1) ≤ fl 53 (b.1 + c.1)
  have h' : a.1 ≤ b.1 := h
  exact fl_mono 53 (by norm_num) (by linarith)

private theorem double_le_add (a : Double) {c : Double} (h : 0 ≤ c) : a ≤ a + c := by
  show a.1 ≤ fl 53 (a.1 + c.1)
  have h' : (0 : ℝ) ≤ c.1 := h
  have h1 : fl 53 a.1 = a.1 := a.2
  conv_lhs => rw [← h1]
  exact fl_mono 53 (by norm_num) (by linarith)

section
variable {S A : Type} {P : Problem S A Double}

/-- C119 for `double`. Graph search with costs that are non-negative `double`s and a heuristic that is non-negative,
consistent as exact numbers and zero at solutions: on Success after `k` calls of the propagator, the cost reported for the
returned path is at most `((1 + 2⁻⁵³)²/(1 - 2⁻⁵³))^(k + 1)` times the exact cost of any route to a solution. -/
theorem C119_double_near_optimal (he : KeyEquiv P.eqS) (hd : P.Deterministic) (hr : P.Respects)
    (hm : ∀ a b, P.mayReplace a b = true) (hc : ∀ u a c v, P.tr u a c v → 0 ≤ c) (hh : ∀ u, 0 ≤ P.h u)
    (hcon : ∀ u a c v, P.tr u a c v → (P.h u).1 ≤ c.1 + (P.h v).1) (hgoal : ∀ t, P.isSol t = true → P.h t = 0)
    {fuel : Nat} {init : S} {s : Search S A Double} (h : searchPath P true fuel init = some (.success, s)) :
    ∃ best t, Route P.tr init best t ∧ P.isSol t = true ∧ getPath s = some (routeStates init best) ∧
      getOptimalCost s = some (routeCost best) ∧
      ∀ steps t', Route P.tr init steps t' → P.isSol t' = true →
        (routeCost best).1 ≤
          ((1 + ((2 : ℝ) ^ 53)⁻¹) ^ 2 / (1 - (2 ^ 53)⁻¹)) ^ (s.calls.length + 1) * exactCost Subtype.val steps := by
  obtain ⟨best, t, h1, h2, h3, h4, h5⟩ := C119_rounded_near_optimal (η := 0) he hd hr hm double_rounded (by positivity)
    (by norm_num) le_rfl hc hh (fun u a c v htr => by
      rw [add_zero, one_mul]; exact hcon u a c v htr) hgoal h
  refine ⟨best, t, h1, h2, h3, h4, fun steps t' hs ht => ?_⟩
  have := (h5 steps t' hs ht).1
  rw [add_zero, one_pow, mul_one] at this
  exact this

/-- C119 for `double`, without heuristic: graph search with non-negative costs reports the minimum, over all routes to a
solution, of the cost summed from the start in `double`. -/
theorem C119_double_dijkstra_exact (he : KeyEquiv P.eqS) (hd : P.Deterministic) (hr : P.Respects)
    (hm : ∀ a b, P.mayReplace a b = true) (hh : ∀ u, P.h u = 0) (hc : ∀ u a c v, P.tr u a c v → 0 ≤ c)
    {fuel : Nat} {init : S} {s : Search S A Double} (h : searchPath P true fuel init = some (.success, s)) :
    ∃ best t, Route P.tr init best t ∧ P.isSol t = true ∧ getPath s = some (routeStates init best) ∧
      getOptimalCost s = some (routeCost best) ∧
      ∀ steps t', Route P.tr init steps t' → P.isSol t' = true → routeCost best ≤ routeCost steps :=
  C119_dijkstra_exact he hd hr hm hh double_add_zero (fun _ _ _ c _ _ _ hab => double_add_mono c hab)
    (fun u v x c htr a => double_le_add a (hc u x c v htr)) h

end

/-- A chain of `double` costs 0.1 from 0 to 3, and a direct hop of cost 1. -/
noncomputable def dblN : Nat → List (Nat × Nat × Double)
  | 0 => [(1, 0, ⟨fl64 (1 / 10), isFlt_fl 53 (by norm_num) _⟩), (3, 1, ⟨fl64 1, isFlt_fl 53 (by norm_num) _⟩)]
  | 1 => [(2, 2, ⟨fl64 (1 / 10), isFlt_fl 53 (by norm_num) _⟩)]
  | 2 => [(3, 3, ⟨fl64 (1 / 10), isFlt_fl 53 (by norm_num) _⟩)]
  | _ => []

/-- The search problem on `dblN` with goal 3 and no heuristic. -/
noncomputable def dblP : Problem Nat Nat Double :=
  ⟨fun a b => decide (a = b), fun _ => dblN, fun _ => 0, fun s => decide (s = 3), fun _ _ => true⟩

/-- The hypotheses of both theorems hold of the example, and the search succeeds. -/
example : KeyEquiv dblP.eqS ∧ dblP.Deterministic ∧ dblP.Respects ∧ (∀ u a c v, dblP.tr u a c v → 0 ≤ c) ∧
    (∀ u a c v, dblP.tr u a c v → (dblP.h u).1 ≤ c.1 + (dblP.h v).1) ∧
    ∃ s, searchPath dblP true 5 0 = some (.success, s) := by
  have he : KeyEquiv dblP.eqS :=
    ⟨fun a => by simp [dblP], fun a b h => by simpa [dblP, eq_comm] using h, fun a b c h h' => by
      simp only [dblP, decide_eq_true_eq] at h h' ⊢; exact h.trans h'⟩
  have hd : dblP.Deterministic := fun _ _ => rfl
  have hr : dblP.Respects := ⟨fun u u' h => by simp only [dblP, decide_eq_true_eq] at h ⊢; rw [h], fun _ _ _ => rfl,
    fun u u' h v a c hv => by
      simp only [dblP, decide_eq_true_eq] at h
      subst h
      exact ⟨v, a, hv, by simp [dblP]⟩⟩
  have hn1 : (0 : ℝ) ≤ fl64 (1 / 10) := fl_nonneg 53 (by norm_num)
  have hn2 : (0 : ℝ) ≤ fl64 1 := fl_nonneg 53 (by norm_num)
  have tr : ∀ u a v, ∀ c : Double, dblP.tr u a c v ↔ (v, a, c) ∈ dblN u := fun u a v c =>
    ⟨fun ⟨_, h⟩ => h, fun h => ⟨0, h⟩⟩
  have hv : ∀ u a v, ∀ c : Double, dblP.tr u a c v → (0 : ℝ) ≤ c.1 ∧ v ≤ 3 := by
    intro u a v c h
    rw [tr] at h
    match u, h with
    | 0, h =>
      simp only [dblN, List.mem_cons, Prod.mk.injEq, List.not_mem_nil, or_false] at h
      rcases h with ⟨rfl, _, rfl⟩ | ⟨rfl, _, rfl⟩
      · exact ⟨hn1, by omega⟩
      · exact ⟨hn2, by omega⟩
    | 1, h =>
      simp only [dblN, List.mem_cons, Prod.mk.injEq, List.not_mem_nil, or_false] at h
      obtain ⟨rfl, _, rfl⟩ := h
      exact ⟨hn1, by omega⟩
    | 2, h =>
      simp only [dblN, List.mem_cons, Prod.mk.injEq, List.not_mem_nil, or_false] at h
      obtain ⟨rfl, _, rfl⟩ := h
      exact ⟨hn1, by omega⟩
    | n + 3, h => simp [dblN] at h
  refine ⟨he, hd, hr, fun u a c v h => (hv u a v c h).1, fun u a c v h => ?_, ?_⟩
  · have := (hv u a v c h).1
    show (0 : ℝ) ≤ c.1 + 0
    linarith
  have hcov : dblP.Covers 0 [0, 1, 2, 3] := by
    rintro x ⟨l, hl⟩
    have : x ≤ 3 := by
      cases hl with
      | nil => omega
      | snoc _ h => exact (hv _ _ _ _ h).2
    refine ⟨x, ?_, by simp [dblP]⟩
    simp only [List.mem_cons, List.not_mem_nil, or_false]
    omega
  have hs := C08_astar_graph_search_terminates he hcov
  cases h : searchPath dblP true 5 0 with
  | none =>
    have h' : (searchPath dblP true 5 0).isSome = true := hs
    rw [h] at h'; cases h'
  | some r =>
    obtain ⟨st, s⟩ := r
    have hsol : st = .success := by
      rw [C07_astar_success_iff_reachable he hd hr h]
      exact ⟨3, ⟨_, .snoc .nil ((tr 0 1 3 ⟨fl64 1, isFlt_fl 53 (by norm_num) _⟩).2 (by simp [dblN]))⟩, by simp [dblP]⟩
    exact ⟨s, by rw [hsol]⟩

end PathPlanning
