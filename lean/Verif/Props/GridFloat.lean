import Verif.Props.AStarDouble
import Verif.Model.FloatAStar
import Verif.Props.AStarSimple
import Verif.Spec.GridFloat
import Mathlib.NumberTheory.Real.Irrational

/-!
# C143: the grid planner with `double` costs finds exactly shortest paths
-/

namespace PathPlanning
open Spec AStar Flt

/-! ## Lengths of walks -/

section
variable {m : GridMap}

private theorem distance_move {a b : Cell} (h : Move m a b) : cellDistance a b = 1 ∨ cellDistance a b = √2 := by
  have hc := h.2.1
  unfold chebyshev at hc
  obtain ⟨x, hx⟩ : ∃ x, x = a.row - b.row := ⟨_, rfl⟩
  obtain ⟨y, hy⟩ : ∃ y, y = a.col - b.col := ⟨_, rfl⟩
  unfold cellDistance
  rw [← hx, ← hy] at hc ⊢
  have h1 : |x| ≤ 1 := by rw [← hc]; exact le_max_left _ _
  have h2 : |y| ≤ 1 := by rw [← hc]; exact le_max_right _ _
  rw [abs_le] at h1 h2
  have hx' : x = -1 ∨ x = 0 ∨ x = 1 := by omega
  have hy' : y = -1 ∨ y = 0 ∨ y = 1 := by omega
  rcases hx' with rfl | rfl | rfl <;> rcases hy' with rfl | rfl | rfl <;>
    first
    | exact absurd hc (by decide)
    | norm_num

private theorem length_form {a b : Cell} {l : List Cell} (h : Walk m a l b) :
    ∃ p q : ℕ, walkLength l = p + q * √2 ∧ p + q + 1 = l.length := by
  induction h with
  | stop a => exact ⟨0, 0, by simp [walkLength, walkCost], by simp⟩
  | @move a b c l h1 h2 ih =>
    obtain ⟨p, q, h3, h4⟩ := ih
    obtain ⟨tl, _, htl, _⟩ := N2.walk_shape h2
    have e : walkLength (a :: l) = cellDistance a b + walkLength l := by rw [htl]; rfl
    rcases distance_move h1 with h5 | h5
    · exact ⟨p + 1, q, by rw [e, h3, h5]; push_cast; ring, by simp; omega⟩
    · exact ⟨p, q + 1, by rw [e, h3, h5]; push_cast; ring, by simp; omega⟩

/-- Two different lengths of walks differ: their squares differ by at least 1. -/
private theorem length_gap {a b a' b' : Cell} {l l' : List Cell} (h : Walk m a l b) (h' : Walk m a' l' b')
    (hlt : walkLength l < walkLength l') : walkLength l ^ 2 + 1 ≤ walkLength l' ^ 2 := by
  obtain ⟨p, q, h1, _⟩ := length_form h
  obtain ⟨p', q', h2, _⟩ := length_form h'
  have hs : √2 ^ 2 = (2 : ℝ) := Real.sq_sqrt (by norm_num)
  have hs0 : 0 ≤ √2 := Real.sqrt_nonneg _
  obtain ⟨r, hr⟩ : ∃ r : ℤ, r = p' - p := ⟨_, rfl⟩
  obtain ⟨t, ht⟩ : ∃ t : ℤ, t = q' - q := ⟨_, rfl⟩
  have hr' : (r : ℝ) = p' - p := by rw [hr]; push_cast; ring
  have ht' : (t : ℝ) = q' - q := by rw [ht]; push_cast; ring
  obtain ⟨d, hd⟩ : ∃ d, d = walkLength l' - walkLength l := ⟨_, rfl⟩
  have hd0 : 0 < d := by rw [hd]; linarith
  have hd1 : d = r + t * √2 := by rw [hd, h1, h2, hr', ht']; ring
  obtain ⟨c, hc⟩ : ∃ c, c = (r : ℝ) - t * √2 := ⟨_, rfl⟩
  have hprod : d * c = ((r ^ 2 - 2 * t ^ 2 : ℤ) : ℝ) := by
    rw [hd1, hc]; push_cast
    have : ((r : ℝ) + t * √2) * (r - t * √2) = r ^ 2 - t ^ 2 * √2 ^ 2 := by ring
    rw [this, hs]; ring
  have hz : (r ^ 2 - 2 * t ^ 2 : ℤ) ≠ 0 := by
    intro h0
    have hirr := irrational_sqrt_two
    by_cases ht0 : t = 0
    · subst ht0
      have hr0 : r = 0 := by
        have : r ^ 2 = 0 := by linarith
        exact pow_eq_zero_iff (by norm_num) |>.1 this
      rw [hd1, hr0] at hd0
      simp at hd0
    · rw [h0] at hprod
      have hc0 : c = 0 := by
        rcases mul_eq_zero.1 (hprod.trans (by norm_num)) with h | h
        · exact absurd h hd0.ne'
        · exact h
      apply hirr
      refine ⟨(r : ℚ) / t, ?_⟩
      have ht0' : (t : ℝ) ≠ 0 := by exact_mod_cast ht0
      push_cast
      rw [div_eq_iff ht0']
      rw [hc] at hc0
      linarith
  have h1' : (1 : ℝ) ≤ |((r ^ 2 - 2 * t ^ 2 : ℤ) : ℝ)| := by
    rw [← Int.cast_abs]
    exact_mod_cast Int.one_le_abs hz
  rw [← hprod, abs_mul, abs_of_pos hd0] at h1'
  have hcb : |c| ≤ walkLength l' + walkLength l := by
    rw [hc, h1, h2, hr', ht', abs_le]
    have n1 : (0 : ℝ) ≤ p := Nat.cast_nonneg _
    have n2 : (0 : ℝ) ≤ p' := Nat.cast_nonneg _
    have n3 : (0 : ℝ) ≤ q * √2 := mul_nonneg (Nat.cast_nonneg _) hs0
    have n4 : (0 : ℝ) ≤ q' * √2 := mul_nonneg (Nat.cast_nonneg _) hs0
    constructor <;> nlinarith
  have : 1 ≤ d * (walkLength l' + walkLength l) := le_trans h1' (mul_le_mul_of_nonneg_left hcb hd0.le)
  rw [hd] at this
  nlinarith

theorem gridF_cost_nonneg {f : Cell → Cell → ℝ} (hf : ∀ a b, 0 ≤ f a b) : ∀ l, 0 ≤ walkCost f l
  | [] => le_rfl
  | [_] => le_rfl
  | a :: b :: l => add_nonneg (hf a b) (gridF_cost_nonneg hf (b :: l))

theorem gridF_distance_nonneg (a b : Cell) : 0 ≤ cellDistance a b := Real.sqrt_nonneg _

private theorem walk_suffix {a b c : Cell} {l : List Cell} (h : Walk m b l c) (ha : a ∈ l) :
    ∃ l', Walk m a l' c ∧ l' <:+ l ∧ walkLength l' ≤ walkLength l := by
  induction h with
  | stop b =>
    rw [List.mem_singleton] at ha
    subst ha
    exact ⟨_, .stop _, List.suffix_rfl, le_rfl⟩
  | @move b d c l h1 h2 ih =>
    rcases List.mem_cons.1 ha with rfl | ha
    · exact ⟨_, .move h1 h2, List.suffix_rfl, le_rfl⟩
    · obtain ⟨l', h3, h4, h5⟩ := ih ha
      refine ⟨l', h3, h4.trans (List.suffix_cons _ _), le_trans h5 ?_⟩
      obtain ⟨tl, _, htl, _⟩ := N2.walk_shape h2
      have e : walkLength (b :: l) = cellDistance b d + walkLength l := by rw [htl]; rfl
      rw [e]
      linarith [gridF_distance_nonneg b d]

/-- Loops can be cut out of a walk. -/
theorem gridF_walk_simple {a b : Cell} {l : List Cell} (h : Walk m a l b) :
    ∃ l', Walk m a l' b ∧ l'.Nodup ∧ walkLength l' ≤ walkLength l := by
  induction h with
  | stop a => exact ⟨_, .stop a, by simp, le_rfl⟩
  | @move a b c l h1 h2 ih =>
    obtain ⟨l', h3, h4, h5⟩ := ih
    obtain ⟨tl, _, htl, _⟩ := N2.walk_shape h2
    obtain ⟨tl', _, htl', _⟩ := N2.walk_shape h3
    have e : walkLength (a :: l) = cellDistance a b + walkLength l := by rw [htl]; rfl
    have e' : walkLength (a :: l') = cellDistance a b + walkLength l' := by rw [htl']; rfl
    by_cases ha : a ∈ l'
    · obtain ⟨l'', h6, h7, h8⟩ := walk_suffix h3 ha
      exact ⟨l'', h6, h4.sublist h7.sublist, by rw [e]; linarith [gridF_distance_nonneg a b]⟩
    · exact ⟨a :: l', .move h1 h3, List.nodup_cons.2 ⟨ha, h4⟩, by rw [e, e']; linarith⟩

theorem gridF_walk_inside {a b : Cell} {l : List Cell} (ha : Inside m a) (hw : Walk m a l b) : ∀ x ∈ l, Inside m x := by
  induction hw with
  | stop a => intro x hx; rw [List.mem_singleton] at hx; rw [hx]; exact ha
  | move h1 _ ih =>
    intro x hx
    rcases List.mem_cons.1 hx with rfl | hx
    · exact ha
    · exact ih h1.1.1 x hx

theorem gridF_nodup_length {l : List Cell} (hn : l.Nodup) (hl : ∀ x ∈ l, Inside m x) :
    l.length ≤ m.rows.toNat * m.columns.toNat := by
  rw [← length_allCells m.rows m.columns]
  exact (List.subperm_of_subset hn (fun x hx => (mem_allCells _ _ x).mpr (hl x hx))).length_le

/-- The exact cost of a route of a grid search is between the lengths of its walk, up to the error of the cost function. -/
theorem gridF_route_length {pathCost heur : Cell → Cell → Double} {goal init t : Cell} {ε : ℝ} (hi : Inside m init)
    (hacc : ∀ a b, Inside m a → Inside m b → |(pathCost a b).1 - cellDistance a b| ≤ ε * cellDistance a b)
    {steps : List (Unit × Double × Cell)} (hr : Route (N2.problem m pathCost heur goal).tr init steps t) :
    |exactCost Subtype.val steps - walkLength (routeStates init steps)| ≤ ε * walkLength (routeStates init steps) := by
  induction hr with
  | nil => simp [exactCost, walkLength, walkCost, routeStates]
  | @snoc l u a c v h1 h2 ih =>
    obtain ⟨h3, h4⟩ := N2.walk_of_route_any hi h1
    obtain ⟨h6, h7, h8⟩ := (N2.tr_iff _ _ _ _).mp h2
    have he : routeStates init (l ++ [(a, c, v)]) = routeStates init l ++ [v] := by
      simp [routeStates]
    obtain ⟨_, pre, _, hp⟩ := N2.walk_shape h3
    have e1 : walkLength (routeStates init l ++ [v]) = walkLength (routeStates init l) + cellDistance u v := by
      unfold walkLength
      rw [hp, N2.walkCost_snoc]
    have e2 : exactCost Subtype.val (l ++ [(a, c, v)]) = exactCost Subtype.val l + c.1 := by simp [exactCost]
    rw [he, e1, e2]
    have k := hacc u v h4 h7.1.1
    rw [← h8] at k
    rw [abs_le] at k ih ⊢
    constructor <;> nlinarith

end

theorem gridF_distance_acc {m : GridMap} (hm : m.rows ≤ 2 ^ 26) (hm' : m.columns ≤ 2 ^ 26) {a b : Cell}
    (ha : Inside m a) (hb : Inside m b) :
    |(N2.distanceF a b).1 - cellDistance a b| ≤ (2 ^ 53)⁻¹ * cellDistance a b := by
  obtain ⟨x, hx⟩ : ∃ x, x = a.row - b.row := ⟨_, rfl⟩
  obtain ⟨y, hy⟩ : ∃ y, y = a.col - b.col := ⟨_, rfl⟩
  obtain ⟨a1, a2, a3, a4⟩ := ha
  obtain ⟨b1, b2, b3, b4⟩ := hb
  have hx2 : x ^ 2 ≤ 2 ^ 52 := by
    have : |x| ≤ 2 ^ 26 := by rw [abs_le]; constructor <;> omega
    calc x ^ 2 = |x| ^ 2 := (sq_abs x).symm
      _ ≤ (2 ^ 26) ^ 2 := pow_le_pow_left₀ (abs_nonneg _) this 2
      _ = 2 ^ 52 := by norm_num
  have hy2 : y ^ 2 ≤ 2 ^ 52 := by
    have : |y| ≤ 2 ^ 26 := by rw [abs_le]; constructor <;> omega
    calc y ^ 2 = |y| ^ 2 := (sq_abs y).symm
      _ ≤ (2 ^ 26) ^ 2 := pow_le_pow_left₀ (abs_nonneg _) this 2
      _ = 2 ^ 52 := by norm_num
  have hint : fl64 ((x ^ 2 + y ^ 2 : ℤ) : ℝ) = ((x ^ 2 + y ^ 2 : ℤ) : ℝ) := by
    refine fl_int (p := 53) (by norm_num) ?_
    rw [abs_of_nonneg (by positivity)]
    omega
  have hd : (N2.distanceF a b).1 = fl64 (cellDistance a b) := by
    show fl64 (√(fl64 (((a.row - b.row) ^ 2 + (a.col - b.col) ^ 2 : ℤ) : ℝ))) = _
    unfold cellDistance
    rw [← hx, ← hy, hint]
    push_cast
    rfl
  rw [hd]
  have := fl_rel 53 (cellDistance a b)
  rwa [abs_of_nonneg (gridF_distance_nonneg a b)] at this

theorem gridF_distance_tri (a b c : Cell) : cellDistance a c ≤ cellDistance a b + cellDistance b c := by
  unfold cellDistance
  obtain ⟨x, hx⟩ : ∃ x : ℝ, x = ((a.row - b.row : ℤ) : ℝ) := ⟨_, rfl⟩
  obtain ⟨y, hy⟩ : ∃ y : ℝ, y = ((a.col - b.col : ℤ) : ℝ) := ⟨_, rfl⟩
  obtain ⟨z, hz⟩ : ∃ z : ℝ, z = ((b.row - c.row : ℤ) : ℝ) := ⟨_, rfl⟩
  obtain ⟨w, hw⟩ : ∃ w : ℝ, w = ((b.col - c.col : ℤ) : ℝ) := ⟨_, rfl⟩
  have e1 : ((a.row - c.row : ℤ) : ℝ) = x + z := by rw [hx, hz]; push_cast; ring
  have e2 : ((a.col - c.col : ℤ) : ℝ) = y + w := by rw [hy, hw]; push_cast; ring
  rw [e1, e2, ← hx, ← hy, ← hz, ← hw]
  refine Real.sqrt_le_iff.2 ⟨by positivity, ?_⟩
  have s1 : √(x ^ 2 + y ^ 2) ^ 2 = x ^ 2 + y ^ 2 := Real.sq_sqrt (by positivity)
  have s2 : √(z ^ 2 + w ^ 2) ^ 2 = z ^ 2 + w ^ 2 := Real.sq_sqrt (by positivity)
  have s3 : x * z + y * w ≤ √(x ^ 2 + y ^ 2) * √(z ^ 2 + w ^ 2) := by
    rw [← Real.sqrt_mul (by positivity)]
    refine Real.le_sqrt_of_sq_le ?_
    nlinarith [sq_nonneg (x * w - y * z)]
  nlinarith

/-- C143. `AStarN2` with the straight-line distance, computed in `double`, as cost and heuristic, on a map of `n` cells:
for every walk of legal moves from the start to the goal, the returned walk is at most `1 / (1 - (6 n + 2) 2⁻⁵³)` times as
long, and so is the reported cost; and the reported cost is at least `1 - n 2⁻⁵³` times the length of the returned walk. -/
theorem C143_near_shortest (m : GridMap) (hm : m.rows ≤ 2 ^ 26) (hm' : m.columns ≤ 2 ^ 26) (init goal : Cell)
    (hi : Inside m init) {fuel : Nat} {s : Search Cell Unit Double}
    (h : searchPath (N2.problem m N2.distanceF N2.distanceF goal) true fuel init = some (.success, s)) :
    ∃ cells c, getPath s = some cells ∧ Walk m init cells goal ∧ getOptimalCost s = some c ∧
      (1 - (m.rows.toNat * m.columns.toNat : ℕ) * (2 ^ 53)⁻¹) * walkLength cells ≤ c.1 ∧
      ∀ other, Walk m init other goal →
        (1 - (6 * (m.rows.toNat * m.columns.toNat : ℕ) + 2) * (2 ^ 53)⁻¹) * walkLength cells ≤ walkLength other ∧
        (1 - (6 * (m.rows.toNat * m.columns.toNat : ℕ) + 2) * (2 ^ 53)⁻¹) * c.1 ≤ walkLength other := by
  obtain ⟨n, hn⟩ : ∃ n, n = m.rows.toNat * m.columns.toNat := ⟨_, rfl⟩
  obtain ⟨ε, hε⟩ : ∃ ε : ℝ, ε = (2 ^ 53)⁻¹ := ⟨_, rfl⟩
  have ε0 : 0 ≤ ε := by rw [hε]; positivity
  have ε1 : ε < 1 := by rw [hε]; norm_num
  have hy0 : (0 : ℝ) < 1 - ε := by linarith
  have hrd : Rounded (C := Double) Subtype.val ε := by rw [hε]; exact double_rounded
  obtain ⟨η, hη⟩ : ∃ η : ℝ, 1 + η = (1 + ε) / (1 - ε) := ⟨(1 + ε) / (1 - ε) - 1, by ring⟩
  have hη0 : 0 ≤ η := by
    have : 1 ≤ (1 + ε) / (1 - ε) := by rw [le_div_iff₀ hy0]; linarith
    linarith
  have hacc : ∀ a b, Inside m a → Inside m b → |(N2.distanceF a b).1 - cellDistance a b| ≤ ε * cellDistance a b := by
    intro a b ha hb
    rw [hε]; exact gridF_distance_acc hm hm' ha hb
  have hpos : ∀ a b, 0 ≤ N2.distanceF a b := fun a b => fl_nonneg 53 (Real.sqrt_nonneg _)
  have hgz : N2.distanceF goal goal = 0 := by
    refine Subtype.ext ?_
    show fl64 (√(fl64 (((goal.row - goal.row) ^ 2 + (goal.col - goal.col) ^ 2 : ℤ) : ℝ))) = 0
    have z : fl64 (0 : ℝ) = 0 := fl_zero 53
    simp [z]
  have hg : Inside m goal := by
    obtain ⟨steps, t, h1, h2, _⟩ := C04_astar_success_path_is_route N2.eqv h
    have ht : t = goal := by simpa [N2.problem] using h2
    rw [← ht]
    exact (N2.walk_of_route_any hi h1).2
  have hcost : ∀ u a c v, (N2.problem m N2.distanceF N2.distanceF goal).tr u a c v → 0 ≤ c := by
    intro u a c v htr
    obtain ⟨_, _, rfl⟩ := (N2.tr_iff _ _ _ _).mp htr
    exact hpos _ _
  obtain ⟨best, t, k1, k2, k3, k4, k5⟩ := C119_rounded_near_optimal (P := N2.problem m N2.distanceF N2.distanceF goal)
    (η := η) N2.eqv N2.det N2.resp (fun _ _ => rfl) hrd ε0 ε1 hη0
    hcost (fun u => hpos _ _)
    (fun u a c v htr => by
      obtain ⟨hu, hmv, rfl⟩ := (N2.tr_iff _ _ _ _).mp htr
      show (N2.distanceF u goal).1 ≤ (1 + η) * ((N2.distanceF u v).1 + (N2.distanceF v goal).1)
      have hv := hmv.1.1
      have d1 := (abs_le.1 (hacc u goal hu hg)).2
      have d2 := (abs_le.1 (hacc u v hu hv)).1
      have d3 := (abs_le.1 (hacc v goal hv hg)).1
      have d4 := gridF_distance_tri u v goal
      rw [hη, div_mul_eq_mul_div, le_div_iff₀ hy0]
      have d5 : (1 - ε) * cellDistance u goal ≤ (N2.distanceF u v).1 + (N2.distanceF v goal).1 := by nlinarith
      have d6 : (N2.distanceF u goal).1 ≤ (1 + ε) * cellDistance u goal := by linarith
      have d7 := mul_le_mul_of_nonneg_right d6 hy0.le
      have d8 := mul_le_mul_of_nonneg_left d5 (by linarith : 0 ≤ 1 + ε)
      nlinarith)
    (fun t ht => by
      have : t = goal := by simpa [N2.problem] using ht
      rw [this]; exact hgz) h
  have ht : t = goal := by simpa [N2.problem] using k2
  subst ht
  obtain ⟨hw, _⟩ := N2.walk_of_route_any hi k1
  -- the numbers of calls and transitions
  obtain ⟨cells', c1, _, c3, c4⟩ := C142_grid m _ _ init t hi h
  have hcells : routeStates init best = cells' := Option.some.inj (k3.symm.trans c1)
  have hm1 : best.length + 1 ≤ n := by
    rw [hn]
    refine le_trans (le_of_eq ?_) c4
    rw [← hcells]; simp [routeStates]
  have hk : s.calls.length ≤ n := by
    rw [hn, ← length_allCells m.rows m.columns]
    obtain ⟨p1, p2⟩ := C08_astar_no_state_expanded_twice N2.eqv h
    refine length_le_of_covers N2.eqv _ _ p1 (fun x hx => ⟨x, (mem_allCells _ _ x).mpr ?_, by simp [N2.problem]⟩)
    obtain ⟨_, hl⟩ := p2 x hx
    exact (N2.walk_of_route_any hi hl).2
  have pow_ge : ∀ N : ℕ, 1 - N * ε ≤ (1 - ε) ^ N := by
    intro N
    have := one_add_mul_le_pow (a := -ε) (by linarith) N
    calc 1 - N * ε = 1 + N * -ε := by ring
      _ ≤ (1 + -ε) ^ N := this
      _ = (1 - ε) ^ N := by ring
  have y1 : 1 - ε ≤ 1 := by linarith
  have hE1 := abs_le.1 (gridF_route_length hi hacc k1)
  have hD1 : 0 ≤ walkLength (routeStates init best) := gridF_cost_nonneg gridF_distance_nonneg _
  have hE1' : (1 - ε) * walkLength (routeStates init best) ≤ exactCost Subtype.val best := by linarith [hE1.1]
  rw [← hn, ← hε]
  refine ⟨_, _, k3, hw, k4, ?_, ?_⟩
  · have l1 := rounded_route_lower hrd ε0 ε1 hcost k1
    have l2 : (1 - ε) ^ best.length * ((1 - ε) * walkLength (routeStates init best)) ≤ (routeCost best).1 :=
      le_trans (mul_le_mul_of_nonneg_left hE1' (by positivity)) l1
    have l3 : (1 - ε) ^ n ≤ (1 - ε) ^ (best.length + 1) := pow_le_pow_of_le_one hy0.le y1 hm1
    have l4 := mul_le_mul_of_nonneg_right (le_trans (pow_ge n) l3) hD1
    rw [pow_succ] at l4
    linarith
  intro other hother
  obtain ⟨o', o1, o2, o3⟩ := gridF_walk_simple hother
  have hm2 : o'.length ≤ n := by rw [hn]; exact gridF_nodup_length o2 (gridF_walk_inside hi o1)
  obtain ⟨steps, r1, r2⟩ := N2.route_of_walk_any (pathCost := N2.distanceF) (heur := N2.distanceF) (goal := t) hi o1
  have hsl : steps.length + 1 ≤ n := by
    refine le_trans (le_of_eq ?_) hm2
    rw [← r2]; simp [routeStates]
  obtain ⟨q1, q2⟩ := k5 steps t r1 (by simp [N2.problem])
  have hE2 := abs_le.1 (gridF_route_length hi hacc r1)
  rw [r2] at hE2
  have hD2 : 0 ≤ walkLength o' := gridF_cost_nonneg gridF_distance_nonneg _
  have hE2' : (1 - ε) * exactCost Subtype.val steps ≤ walkLength o' := by
    have : exactCost Subtype.val steps ≤ (1 + ε) * walkLength o' := by linarith [hE2.2]
    nlinarith
  -- the factor of C119
  obtain ⟨ρ, hρ⟩ : ∃ ρ : ℝ, ρ = (1 + ε) ^ 2 / (1 - ε) := ⟨_, rfl⟩
  rw [← hρ] at q1 q2
  have hρ0 : 0 ≤ ρ := by rw [hρ]; positivity
  have hsq : (1 + ε) * (1 - ε) ≤ 1 := by nlinarith
  have hsq0 : 0 ≤ (1 + ε) * (1 - ε) := by positivity
  have hρ3 : ρ * (1 - ε) ^ 3 ≤ 1 := by
    have : ρ * (1 - ε) ^ 3 = ((1 + ε) * (1 - ε)) ^ 2 := by rw [hρ]; field_simp
    rw [this]; exact pow_le_one₀ hsq0 hsq
  have hη2 : (1 + η) * (1 - ε) ^ 2 ≤ 1 := by
    have : (1 + η) * (1 - ε) ^ 2 = (1 + ε) * (1 - ε) := by rw [hη]; field_simp
    rw [this]; exact hsq
  obtain ⟨k, hkd⟩ : ∃ k, k = s.calls.length := ⟨_, rfl⟩
  rw [← hkd] at q1 q2 hk
  have hE2n : 0 ≤ exactCost Subtype.val steps := (rounded_route_nonneg hrd ε1 hcost r1).2
  have key : ∀ X : ℝ, 0 ≤ X → ∀ j, j + 1 ≤ n →
      (1 - ε) ^ j * X ≤ ρ ^ (k + 1) * (1 + η) ^ steps.length * exactCost Subtype.val steps →
      (1 - (6 * n + 1) * ε) * X ≤ (1 - ε) * exactCost Subtype.val steps := by
    intro X hX j hj hq
    have e1 : (1 - ε) ^ (6 * n + 1) ≤ (1 - ε) ^ (j + 3 * (k + 1) + 2 * steps.length + 1) :=
      pow_le_pow_of_le_one hy0.le y1 (by omega)
    have e2 := pow_ge (6 * n + 1)
    push_cast at e2
    refine le_trans (mul_le_mul_of_nonneg_right (le_trans e2 e1) hX) ?_
    have e3 : (1 - ε) ^ (j + 3 * (k + 1) + 2 * steps.length + 1) * X =
        ((1 - ε) ^ 3) ^ (k + 1) * ((1 - ε) ^ 2) ^ steps.length * (1 - ε) * ((1 - ε) ^ j * X) := by
      rw [pow_add, pow_add, pow_add, pow_mul, pow_mul, pow_one]; ring
    rw [e3]
    refine le_trans (mul_le_mul_of_nonneg_left hq (by positivity)) ?_
    have e4 : ((1 - ε) ^ 3) ^ (k + 1) * ((1 - ε) ^ 2) ^ steps.length * (1 - ε) *
        (ρ ^ (k + 1) * (1 + η) ^ steps.length * exactCost Subtype.val steps) =
        (ρ * (1 - ε) ^ 3) ^ (k + 1) * ((1 + η) * (1 - ε) ^ 2) ^ steps.length *
          ((1 - ε) * exactCost Subtype.val steps) := by
      rw [mul_pow, mul_pow]; ring
    rw [e4]
    have e5 : (ρ * (1 - ε) ^ 3) ^ (k + 1) ≤ 1 := pow_le_one₀ (by positivity) hρ3
    have e6 : ((1 + η) * (1 - ε) ^ 2) ^ steps.length ≤ 1 := pow_le_one₀ (by positivity) hη2
    have e7 : (ρ * (1 - ε) ^ 3) ^ (k + 1) * ((1 + η) * (1 - ε) ^ 2) ^ steps.length ≤ 1 :=
      mul_le_one₀ e5 (by positivity) e6
    have e8 : 0 ≤ (1 - ε) * exactCost Subtype.val steps := by positivity
    nlinarith
  have hE1n : 0 ≤ exactCost Subtype.val best := (rounded_route_nonneg hrd ε1 hcost k1).2
  have hc0 : 0 ≤ (routeCost best).1 := (rounded_route_nonneg hrd ε1 hcost k1).1
  refine ⟨?_, ?_⟩
  · have z1 := key _ hE1n best.length hm1 q2
    by_cases hs : 0 ≤ 1 - (6 * (n : ℝ) + 1) * ε
    · have z2 : (1 - (6 * (n : ℝ) + 1) * ε) * ((1 - ε) * walkLength (routeStates init best)) ≤ walkLength o' :=
        le_trans (mul_le_mul_of_nonneg_left hE1' hs) (le_trans z1 hE2')
      have z3 : (1 - (6 * (n : ℝ) + 2) * ε) ≤ (1 - (6 * (n : ℝ) + 1) * ε) * (1 - ε) := by
        have : 0 ≤ (6 * (n : ℝ) + 1) * ε * ε := by positivity
        nlinarith
      have z4 := mul_le_mul_of_nonneg_right z3 hD1
      linarith
    · have z5 : (1 - (6 * (n : ℝ) + 2) * ε) ≤ 0 := by nlinarith
      have z6 := mul_nonpos_of_nonpos_of_nonneg z5 hD1
      linarith
  · have z1 := key _ hc0 0 (by omega) (by rw [pow_zero, one_mul]; exact q1)
    have z2 : 0 ≤ ε * (routeCost best).1 := mul_nonneg ε0 hc0
    nlinarith

/-- C143. If moreover some walk of length `L` leads from the start to the goal of a map of `n` cells, with
`(12 n + 4) (L² + 1) < 2⁵³`, then the returned walk is exactly a shortest one. -/
theorem C143_shortest (m : GridMap) (hm : m.rows ≤ 2 ^ 26) (hm' : m.columns ≤ 2 ^ 26) (init goal : Cell)
    (hi : Inside m init) {known : List Cell} (hk : Walk m init known goal)
    (hsmall : (12 * (m.rows.toNat * m.columns.toNat : ℕ) + 4) * (walkLength known ^ 2 + 1) < 2 ^ 53)
    {fuel : Nat} {s : Search Cell Unit Double}
    (h : searchPath (N2.problem m N2.distanceF N2.distanceF goal) true fuel init = some (.success, s)) :
    ∃ cells, getPath s = some cells ∧ Walk m init cells goal ∧
      ∀ other, Walk m init other goal → walkLength cells ≤ walkLength other := by
  obtain ⟨cells, c, h1, h2, _, _, h3⟩ := C143_near_shortest m hm hm' init goal hi h
  refine ⟨cells, h1, h2, ?_⟩
  have main : ∀ other, Walk m init other goal → walkLength other ≤ walkLength known →
      walkLength cells ≤ walkLength other := by
    intro other ho hle
    by_contra hlt
    push Not at hlt
    have gap := length_gap ho h2 hlt
    have k := (h3 other ho).1
    have D0 : 0 ≤ walkLength cells := gridF_cost_nonneg gridF_distance_nonneg _
    have D1 : 0 ≤ walkLength other := gridF_cost_nonneg gridF_distance_nonneg _
    obtain ⟨n, hn⟩ : ∃ n : ℝ, n = ((m.rows.toNat * m.columns.toNat : ℕ) : ℝ) := ⟨_, rfl⟩
    have n0 : 0 ≤ n := by rw [hn]; exact Nat.cast_nonneg _
    rw [← hn] at k hsmall
    obtain ⟨δ, hδ⟩ : ∃ δ : ℝ, δ = (6 * n + 2) * (2 ^ 53)⁻¹ := ⟨_, rfl⟩
    rw [← hδ] at k
    have δ0 : 0 ≤ δ := by rw [hδ]; positivity
    have hs : 2 * δ * (walkLength known ^ 2 + 1) < 1 := by
      rw [hδ]
      have : 2 * ((6 * n + 2) * (2 ^ 53)⁻¹) * (walkLength known ^ 2 + 1) =
          ((12 * n + 4) * (walkLength known ^ 2 + 1)) * ((2 : ℝ) ^ 53)⁻¹ := by ring
      rw [this, ← div_eq_mul_inv, div_lt_one (by positivity)]
      exact hsmall
    have hsq : walkLength other ^ 2 ≤ walkLength known ^ 2 := pow_le_pow_left₀ D1 hle 2
    have hs' : 2 * δ * (walkLength other ^ 2 + 1) < 1 := by
      refine lt_of_le_of_lt (mul_le_mul_of_nonneg_left ?_ (by positivity)) hs
      linarith
    have hδ1 : δ < 1 := by nlinarith [sq_nonneg (walkLength other)]
    have k2 : ((1 - δ) * walkLength cells) ^ 2 ≤ walkLength other ^ 2 :=
      pow_le_pow_left₀ (mul_nonneg (by linarith) D0) k 2
    have k3 : (1 - 2 * δ) * walkLength cells ^ 2 ≤ walkLength other ^ 2 := by
      have : 0 ≤ δ ^ 2 * walkLength cells ^ 2 := by positivity
      nlinarith
    have k4 : 0 ≤ 1 - 2 * δ := by nlinarith [sq_nonneg (walkLength other)]
    have k5 : (1 - 2 * δ) * (walkLength other ^ 2 + 1) ≤ (1 - 2 * δ) * walkLength cells ^ 2 :=
      mul_le_mul_of_nonneg_left gap k4
    nlinarith
  intro other ho
  rcases le_total (walkLength other) (walkLength known) with hle | hle
  · exact main other ho hle
  · exact le_trans (main known hk le_rfl) hle

/-- C143. On maps of at most 65536 cells (256 × 256) the returned walk is exactly a shortest one, although all costs and
estimates are rounded. -/
theorem C143_shortest_small_maps (m : GridMap) (hm : m.rows.toNat * m.columns.toNat ≤ 2 ^ 16) (init goal : Cell)
    (hi : Inside m init) {fuel : Nat} {s : Search Cell Unit Double}
    (h : searchPath (N2.problem m N2.distanceF N2.distanceF goal) true fuel init = some (.success, s)) :
    ∃ cells, getPath s = some cells ∧ Walk m init cells goal ∧
      ∀ other, Walk m init other goal → walkLength cells ≤ walkLength other := by
  obtain ⟨i1, i2, i3, i4⟩ := hi
  have hr : 1 ≤ m.rows.toNat := by omega
  have hc : 1 ≤ m.columns.toNat := by omega
  have hrb : m.rows.toNat ≤ 2 ^ 16 := le_trans (Nat.le_mul_of_pos_right _ (by omega)) hm
  have hcb : m.columns.toNat ≤ 2 ^ 16 := le_trans (Nat.le_mul_of_pos_left _ (by omega)) hm
  obtain ⟨known, _, hw, hnd, hlen⟩ := C142_grid m _ _ init goal ⟨i1, i2, i3, i4⟩ h
  refine C143_shortest m (by omega) (by omega) init goal ⟨i1, i2, i3, i4⟩ hw ?_ h
  obtain ⟨p, q, h1, h2⟩ := length_form hw
  obtain ⟨n, hn⟩ : ∃ n, n = m.rows.toNat * m.columns.toNat := ⟨_, rfl⟩
  rw [← hn] at hm hlen ⊢
  have hs : √2 ^ 2 = (2 : ℝ) := Real.sq_sqrt (by norm_num)
  have hs1 : 1 ≤ √2 := Real.one_le_sqrt.2 (by norm_num)
  have hL : walkLength known ^ 2 ≤ 2 * (n : ℝ) ^ 2 := by
    have e1 : walkLength known ≤ √2 * n := by
      rw [h1]
      have : ((p + q + 1 : ℕ) : ℝ) ≤ n := by rw [h2]; exact_mod_cast hlen
      push_cast at this
      have p0 : (0 : ℝ) ≤ p := Nat.cast_nonneg _
      nlinarith
    have e0 : 0 ≤ walkLength known := gridF_cost_nonneg gridF_distance_nonneg _
    calc walkLength known ^ 2 ≤ (√2 * n) ^ 2 := pow_le_pow_left₀ e0 e1 2
      _ = 2 * (n : ℝ) ^ 2 := by rw [mul_pow, hs]
  have hn16 : (n : ℝ) ≤ 2 ^ 16 := by exact_mod_cast hm
  have hn0 : (0 : ℝ) ≤ n := Nat.cast_nonneg _
  calc (12 * (n : ℝ) + 4) * (walkLength known ^ 2 + 1) ≤ (12 * 2 ^ 16 + 4) * (2 * (2 ^ 16) ^ 2 + 1) := by
        refine mul_le_mul (by linarith) ?_ (by positivity) (by positivity)
        have := pow_le_pow_left₀ hn0 hn16 2
        linarith
    _ < 2 ^ 53 := by norm_num

/-- C143. With `double` costs the grid planner terminates, and fails only if no walk leads to the goal. -/
theorem C143_complete (m : GridMap) (init goal : Cell) (hi : Inside m init) :
    ∃ st s, searchPath (N2.problem m N2.distanceF N2.distanceF goal) true (m.rows.toNat * m.columns.toNat + 1) init =
        some (st, s) ∧ (st = .success ↔ ∃ cells, Walk m init cells goal) := by
  have ht := C20_grid_search_terminates m N2.distanceF N2.distanceF init goal hi
  cases hq : searchPath (N2.problem m N2.distanceF N2.distanceF goal) true (m.rows.toNat * m.columns.toNat + 1) init with
  | none => rw [hq] at ht; cases ht
  | some r =>
    obtain ⟨st, s⟩ := r
    refine ⟨st, s, rfl, ?_⟩
    cases st with
    | success =>
      obtain ⟨cells, _, hw, _⟩ := C142_grid m _ _ init goal hi hq
      exact ⟨fun _ => ⟨cells, hw⟩, fun _ => rfl⟩
    | failure =>
      have := (C20_grid_failure_no_path m _ _ init goal hi hq).1
      exact ⟨fun h => (by cases h), fun h => absurd h this⟩

/-- A 3 × 3 map with a blocked centre meets the hypotheses: the search from corner to corner succeeds, and the way round is
found. -/
example : let m : GridMap := ⟨3, 3, fun c => decide (c = ⟨1, 1⟩)⟩
    m.rows.toNat * m.columns.toNat ≤ 2 ^ 16 ∧ Inside m ⟨0, 0⟩ ∧
    ∃ s, searchPath (N2.problem m N2.distanceF N2.distanceF ⟨2, 2⟩) true 10 ⟨0, 0⟩ = some (.success, s) := by
  intro m
  have hi : Inside m ⟨0, 0⟩ := ⟨by decide, by decide, by decide, by decide⟩
  obtain ⟨st, s, h1, h2⟩ := C143_complete m ⟨0, 0⟩ ⟨2, 2⟩ hi
  have hs : st = .success := by
    rw [h2]
    refine ⟨[⟨0, 0⟩, ⟨0, 1⟩, ⟨1, 2⟩, ⟨2, 2⟩], .move ?_ (.move ?_ (.move ?_ (.stop _)))⟩ <;>
      (unfold Move Free Inside chebyshev; decide)
  subst hs
  exact ⟨by decide, hi, s, h1⟩

end PathPlanning
