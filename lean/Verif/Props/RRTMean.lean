import Verif.Props.RRTLimits

/-!
# C162: the mean number of iterations of RRT and RRT*
-/

namespace PathPlanning
open Spec Real Validator MeasureTheory ProbabilityTheory RRTPlanner

/-- Events whose probabilities decrease exponentially: the number of those that happen has a finite mean. -/
private theorem mean_of_tail {Ω : Type} [MeasurableSpace Ω] {μ : Measure Ω} (F : Nat → Set Ω) {q : ENNReal} (hq : q < 1)
    (l : Nat) (h : ∀ m, μ (F m) ≤ q ^ m) :
    ∃ T : Ω → ENNReal, Measurable T ∧ ∫⁻ ω, T ω ∂μ < ⊤ ∧ ∀ ω, T ω = ⊤ ∨ ∃ m, ω ∉ F m ∧ ((m * l : Nat) : ENNReal) ≤ T ω := by
  have hm : ∀ m, Measurable ((toMeasurable μ (F m)).indicator fun _ : Ω => ((l + 1 : Nat) : ENNReal)) := fun m =>
    measurable_const.indicator (measurableSet_toMeasurable μ (F m))
  refine ⟨fun ω => ∑' m, (toMeasurable μ (F m)).indicator (fun _ => ((l + 1 : Nat) : ENNReal)) ω, Measurable.tsum hm, ?_,
    fun ω => ?_⟩
  · rw [lintegral_tsum fun m => (hm m).aemeasurable]
    have h1 : ∀ m, ∫⁻ ω, (toMeasurable μ (F m)).indicator (fun _ => ((l + 1 : Nat) : ENNReal)) ω ∂μ ≤
        ((l + 1 : Nat) : ENNReal) * q ^ m := by
      intro m
      rw [lintegral_indicator_const (measurableSet_toMeasurable μ (F m)), measure_toMeasurable]
      gcongr
      exact h m
    refine lt_of_le_of_lt (ENNReal.tsum_le_tsum h1) ?_
    rw [ENNReal.tsum_mul_left, ENNReal.tsum_geometric]
    refine ENNReal.mul_lt_top (ENNReal.natCast_lt_top _) (ENNReal.inv_lt_top.mpr ?_)
    exact tsub_pos_of_lt hq
  · have hone : ∀ m, ω ∈ F m →
        (toMeasurable μ (F m)).indicator (fun _ => ((l + 1 : Nat) : ENNReal)) ω = ((l + 1 : Nat) : ENNReal) := fun m hω =>
      Set.indicator_of_mem (subset_toMeasurable μ (F m) hω) _
    by_cases hall : ∀ m, ω ∈ F m
    · left
      dsimp only
      rw [tsum_congr fun m => hone m (hall m)]
      exact ENNReal.tsum_const_eq_top_of_ne_zero (by simp)
    · right
      rw [not_forall] at hall
      classical
      refine ⟨Nat.find hall, Nat.find_spec hall, ?_⟩
      have hlt : ∀ m ∈ Finset.range (Nat.find hall), ω ∈ F m := fun m hm => not_not.mp (Nat.find_min hall (Finset.mem_range.mp hm))
      refine le_trans ?_ (ENNReal.sum_le_tsum (Finset.range (Nat.find hall)))
      rw [Finset.sum_congr rfl fun m hm => hone m (hlt m hm), Finset.sum_const, Finset.card_range, nsmul_eq_mul]
      exact_mod_cast Nat.mul_le_mul_left _ (Nat.le_succ l)

section
variable [DecidableEq Pt] [Inhabited Pt] {Ω : Type} [MeasurableSpace Ω] {μ : Measure Ω} {U : Nat → Ω → ℝ}

/-- C162 for RRT: if a curve leads from the start to the goal with some clearance, there is a random number with a finite mean,
the same for all limits, that the number of iterations of a search exceeds by at most one; the search succeeds if it is allowed
this many iterations (and as many nodes). -/
theorem C162_rrt (hU : UniformStream μ U) (w : RRTWorld Pt PathR2 ℝ) (hw : w.steering = r2Steering)
    (hreached : ∀ g, w.reached g g = true)
    (L : NearestLaws w.knn (fun v p : Pt => (v.x - p.x) ^ 2 + (v.y - p.y) ^ 2)) (space : SpaceR2)
    (hx : space.lb.x < space.ub.x) (hy : space.lb.y < space.ub.y) (s : RRTPlanner Pt ℝ) (ht : TreeReachable w.knn s.tree)
    (hd : 0 < s.params.maxConnectionDistance) (h0 : 0 < s.params.goalBias) (h1 : s.params.goalBias < 1)
    (c : ℝ) (hc : 0 < c) (γ : ℝ → Pt) (hγ : ClearCurve space w.valid c s.init s.goal γ) :
    ∃ T : Ω → ENNReal, Measurable T ∧ ∫⁻ ω, T ω ∂μ < ⊤ ∧ ∀ ω iterations nodes, iterations ≤ nodes →
      ∃ r, rrtSearchPath ((withLimits s iterations nodes).setup w (streamCoin s.params.goalBias fun n => U n ω)
          (streamUniform space s.params.goalBias fun n => U n ω)) s.tree s.init = some r ∧
        (r.samples : ENNReal) ≤ T ω + 1 ∧ (T ω ≤ iterations → r.success = true) := by
  obtain ⟨q, l, hq, h⟩ := C113_rrt hU w hw hreached L space hx hy s ht hd h0 h1 c hc γ hγ
  obtain ⟨T, hT, hT1, hT2⟩ := mean_of_tail _ hq l (fun m => h m (m * l) (m * l) le_rfl le_rfl)
  refine ⟨T, hT, hT1, fun ω i n hin => ?_⟩
  obtain ⟨r, hr, hs, -⟩ := C26_rrt_bounded ((withLimits s i n).setup w (streamCoin s.params.goalBias fun n => U n ω)
          (streamUniform space s.params.goalBias fun n => U n ω)) L s.tree ht s.init
  replace hs : r.samples ≤ i + 1 := hs
  refine ⟨r, hr, ?_⟩
  rcases hT2 ω with htop | ⟨m, hm, hle⟩
  · rw [htop]
    exact ⟨by simp, fun h => by simp at h⟩
  · rw [Set.mem_setOf_eq, not_not] at hm
    obtain ⟨s', hm⟩ := hm
    obtain ⟨r', hr', he⟩ := Option.map_eq_some_iff.mp hm
    have hsucc : r'.success = true := (Prod.mk.inj he).1
    obtain ⟨r2, hr2, hs2, -⟩ := C26_rrt_bounded ((withLimits s (m * l) (m * l)).setup w
      (streamCoin s.params.goalBias fun n => U n ω) (streamUniform space s.params.goalBias fun n => U n ω)) L s.tree ht s.init
    have e2 : r2 = r' := Option.some.inj (hr2.symm.trans hr')
    subst e2
    replace hs2 : r2.samples ≤ m * l + 1 := hs2
    rcases Nat.lt_or_ge i (m * l) with hi | hi
    · constructor
      · refine le_trans (by exact_mod_cast hs.trans (Nat.succ_le_succ hi.le)) (add_le_add_left hle 1)
      · intro h3
        exact absurd (by exact_mod_cast hle.trans h3) (not_le.mpr hi)
    · have e : r = r2 := Option.some.inj (hr.symm.trans (rrtLoop_limits ((withLimits s (m * l) (m * l)).setup w
        (streamCoin s.params.goalBias fun n => U n ω) (streamUniform space s.params.goalBias fun n => U n ω))
        ((withLimits s i n).setup w (streamCoin s.params.goalBias fun n => U n ω)
          (streamUniform space s.params.goalBias fun n => U n ω)) rfl rfl rfl rfl rfl rfl hi (hi.trans hin) _ _ _ hr2 hsucc))
      subst e
      exact ⟨le_trans (by exact_mod_cast hs2) (add_le_add_left hle 1), fun _ => hsucc⟩

/-- C162 for RRT*. -/
theorem C162_rrtStar (hU : UniformStream μ U) (w : RRTWorld Pt PathR2 ℝ) (hw : w.steering = r2Steering)
    (hreached : ∀ g, w.reached g g = true)
    (L : NearestLaws w.knn (fun v p : Pt => (v.x - p.x) ^ 2 + (v.y - p.y) ^ 2)) (nn : Nat → Nat) (space : SpaceR2)
    (hx : space.lb.x < space.ub.x) (hy : space.lb.y < space.ub.y) (s : RRTPlanner Pt ℝ) (ht : TreeReachable w.knn s.tree)
    (hd : 0 < s.params.maxConnectionDistance) (h0 : 0 < s.params.goalBias) (h1 : s.params.goalBias < 1)
    (c : ℝ) (hc : 0 < c) (γ : ℝ → Pt) (hγ : ClearCurve space w.valid c s.init s.goal γ) :
    ∃ T : Ω → ENNReal, Measurable T ∧ ∫⁻ ω, T ω ∂μ < ⊤ ∧ ∀ ω iterations nodes, iterations ≤ nodes →
      ∃ r, rrtStarSearchPath ((withLimits s iterations nodes).setup w (streamCoin s.params.goalBias fun n => U n ω)
          (streamUniform space s.params.goalBias fun n => U n ω)) nn s.tree s.init = some r ∧
        (r.samples : ENNReal) ≤ T ω + 1 ∧ (T ω ≤ iterations → r.success = true) := by
  obtain ⟨q, l, hq, h⟩ := C113_rrtStar hU w hw hreached L nn space hx hy s ht hd h0 h1 c hc γ hγ
  obtain ⟨T, hT, hT1, hT2⟩ := mean_of_tail _ hq l (fun m => h m (m * l) (m * l) le_rfl le_rfl)
  refine ⟨T, hT, hT1, fun ω i n hin => ?_⟩
  obtain ⟨r, hr, hs, -⟩ := C26_rrtStar_bounded ((withLimits s i n).setup w (streamCoin s.params.goalBias fun n => U n ω)
          (streamUniform space s.params.goalBias fun n => U n ω)) L nn s.tree ht s.init
  replace hs : r.samples ≤ i + 1 := hs
  refine ⟨r, hr, ?_⟩
  rcases hT2 ω with htop | ⟨m, hm, hle⟩
  · rw [htop]
    exact ⟨by simp, fun h => by simp at h⟩
  · rw [Set.mem_setOf_eq, not_not] at hm
    obtain ⟨s', hm⟩ := hm
    obtain ⟨r', hr', he⟩ := Option.map_eq_some_iff.mp hm
    have hsucc : r'.success = true := (Prod.mk.inj he).1
    obtain ⟨r2, hr2, hs2, -⟩ := C26_rrtStar_bounded ((withLimits s (m * l) (m * l)).setup w
      (streamCoin s.params.goalBias fun n => U n ω) (streamUniform space s.params.goalBias fun n => U n ω)) L nn s.tree ht s.init
    have e2 : r2 = r' := Option.some.inj (hr2.symm.trans hr')
    subst e2
    replace hs2 : r2.samples ≤ m * l + 1 := hs2
    rcases Nat.lt_or_ge i (m * l) with hi | hi
    · constructor
      · refine le_trans (by exact_mod_cast hs.trans (Nat.succ_le_succ hi.le)) (add_le_add_left hle 1)
      · intro h3
        exact absurd (by exact_mod_cast hle.trans h3) (not_le.mpr hi)
    · have e : r = r2 := Option.some.inj (hr.symm.trans (starLoop_limits ((withLimits s (m * l) (m * l)).setup w
        (streamCoin s.params.goalBias fun n => U n ω) (streamUniform space s.params.goalBias fun n => U n ω))
        ((withLimits s i n).setup w (streamCoin s.params.goalBias fun n => U n ω)
          (streamUniform space s.params.goalBias fun n => U n ω)) nn rfl rfl rfl rfl rfl rfl hi (hi.trans hin) _ _ _ hr2 hsucc))
      subst e
      exact ⟨le_trans (by exact_mod_cast hs2) (add_le_add_left hle 1), fun _ => hsucc⟩

end

/-! ## Example -/

/-- The planner that finds its way along the wall needs a finite number of iterations in the mean. -/
example [DecidableEq Pt] [Inhabited Pt] :
    ∃ T : (Nat → ℝ) → ENNReal, Measurable T ∧
      ∫⁻ u, T u ∂(Measure.infinitePi fun _ : Nat => (volume.restrict (Set.Icc (0 : ℝ) 1) : Measure ℝ)) < ⊤ ∧
      ∀ u n, ∃ r, rrtSearchPath ((withLimits exWallPlanner n n).setup exWallWorld (streamCoin exWallPlanner.params.goalBias u)
        (streamUniform ⟨⟨-3, -3⟩, ⟨3, 3⟩⟩ exWallPlanner.params.goalBias u)) Tree.new ⟨-2, 1⟩ = some r ∧
        (r.samples : ENNReal) ≤ T u + 1 ∧ (T u ≤ n → r.success = true) := by
  obtain ⟨T, h1, h2, h3⟩ := C162_rrt uniformStream_infinitePi exWallWorld rfl
    (fun g => @decide_eq_true _ (Classical.propDecidable _) rfl) r2KNN_laws ⟨⟨-3, -3⟩, ⟨3, 3⟩⟩ (by norm_num) (by norm_num)
    exWallPlanner .start (by norm_num [exWallPlanner, RRTParams.default]) (by norm_num [exWallPlanner, RRTParams.default])
    (by norm_num [exWallPlanner, RRTParams.default]) 1 one_pos _ exWall_curve
  exact ⟨T, h1, h2, fun u n => h3 u n n le_rfl⟩

end PathPlanning
