import Verif.Model.FloatNonHolo
import Verif.Props.FloatDrive
import Verif.Props.FloatHeuristic
import Verif.Props.NonHolonomic
import Verif.Props.FloatObstacle

/-!
# C149: the non-holonomic heuristic with double arithmetic
-/

namespace PathPlanning
open Flt Spec

namespace NonHolo

/-- Where the goal is, seen from the state: ahead of it and to its left, without rounding. -/
noncomputable def ahead (goal state : PoseR) : ℝ :=
  Real.cos state.theta * (goal.position.x - state.position.x) + Real.sin state.theta * (goal.position.y - state.position.y)

/-- Where the goal is, seen from the state: to its left, without rounding. -/
noncomputable def aside (goal state : PoseR) : ℝ :=
  -Real.sin state.theta * (goal.position.x - state.position.x) + Real.cos state.theta * (goal.position.y - state.position.y)

/-- The straight-line distance. -/
noncomputable def far (goal state : PoseR) : ℝ :=
  √((goal.position.x - state.position.x) ^ 2 + (goal.position.y - state.position.y) ^ 2)

/-- The sizes for which the numbers of the look-up fit in an `int`: at most 2^30 cells along each axis, an angular
resolution of at least 2^-28, a goal that is at most 2^29 cells away. -/
structure Fits (h : NonHolo) (goal state : PoseR) : Prop where
  resolution : 0 < h.spatialResolution
  angular : (2 ^ 28)⁻¹ ≤ h.angularResolution
  x : h.numSpatialX ≤ 2 ^ 30
  y : h.numSpatialY ≤ 2 ^ 30
  far : far goal state ≤ 2 ^ 29 * h.spatialResolution
  goal : Wrapped goal.theta
  state : Wrapped state.theta

/-- The look-up falls outside the tabulated area. -/
def OutsideF (h : NonHolo) (delta : PoseR) : Prop :=
  (h.indicesF delta).1 < 0 ∨ (h.indicesF delta).1 ≥ h.numSpatialX ∨
    (h.indicesF delta).2.1 < 0 ∨ (h.indicesF delta).2.1 ≥ h.numSpatialY

private theorem h53 : 1 ≤ 53 := by norm_num

private theorem floor_half (n : Nat) : ⌊(n : ℝ) / 2⌋ = ((n / 2 : Nat) : ℤ) := by
  rw [Int.floor_eq_iff]
  have h2 : ((2 * (n / 2) : Nat) : ℝ) ≤ n := by exact_mod_cast Nat.mul_div_le n 2
  have h3 : (n : ℝ) < ((2 * (n / 2) + 2 : Nat) : ℝ) := by
    have : n < 2 * (n / 2) + 2 := by omega
    exact_mod_cast this
  rw [Nat.cast_mul] at h2
  rw [Nat.cast_add, Nat.cast_mul] at h3
  rw [Int.cast_natCast]
  norm_num at h2 h3
  constructor <;> linarith

private theorem index_err {res X x N D W : ℝ} (hr : 0 < res) (hN : 0 ≤ N) (hx : |x - X| ≤ W / 2 ^ 49) (hX : |X| ≤ D)
    (hW : W ≤ D) : |fl64 (fl64 (x + fl64 (N * res)) / res) - (X / res + N)| ≤ (D / res + N) / 2 ^ 47 := by
  have hA : 0 ≤ N * res := mul_nonneg hN hr.le
  have hD : 0 ≤ D := (abs_nonneg _).trans hX
  have h1 : |x - X| ≤ D / 2 ^ 49 := hx.trans (div_le_div_of_nonneg_right hW (by positivity))
  have h2 : |fl64 (N * res) - N * res| ≤ (2 ^ 53)⁻¹ * (N * res) := by
    have := fl_rel 53 (N * res); rwa [abs_of_nonneg hA] at this
  have h3 := fl64_sum_err hX (abs_of_nonneg hA).le h1 h2
  obtain ⟨A, hAA⟩ : ∃ A, A = N * res := ⟨_, rfl⟩
  obtain ⟨s, hs⟩ : ∃ s, s = fl64 (x + fl64 (N * res)) := ⟨_, rfl⟩
  rw [← hs] at h3 ⊢
  rw [← hAA] at h3 hA
  have h4 : |s - (X + A)| ≤ (D + A) / 2 ^ 48 := by
    refine h3.trans ?_
    norm_num
    linarith
  have h5 : |s| ≤ 2 * (D + A) := by
    have e1 : |s| ≤ |s - (X + A)| + |X + A| := by
      calc |s| = |(s - (X + A)) + (X + A)| := by ring_nf
        _ ≤ _ := abs_add_le _ _
    have e2 : |X + A| ≤ D + A := (abs_add_le _ _).trans (by rw [abs_of_nonneg hA]; linarith)
    have e3 : (D + A) / 2 ^ 48 ≤ D + A := by
      rw [div_le_iff₀ (by positivity)]; nlinarith
    linarith
  have h6 : |fl64 (s / res) - s / res| ≤ (2 ^ 53)⁻¹ * (2 * (D + A) / res) := by
    refine (fl_rel 53 (s / res)).trans (mul_le_mul_of_nonneg_left ?_ (by positivity))
    rw [abs_div, abs_of_pos hr]
    exact div_le_div_of_nonneg_right h5 hr.le
  have h7 : |s / res - (X / res + N)| ≤ (D + A) / 2 ^ 48 / res := by
    have : s / res - (X / res + N) = (s - (X + A)) / res := by rw [hAA]; field_simp
    rw [this, abs_div, abs_of_pos hr]
    exact div_le_div_of_nonneg_right h4 hr.le
  have h8 : (D + A) / res = D / res + N := by rw [hAA]; field_simp
  have h9 : 0 ≤ D / res + N := by positivity
  rw [show (2 * (D + A) / res) = 2 * ((D + A) / res) by ring, h8] at h6
  rw [show (D + A) / 2 ^ 48 / res = (D + A) / res / 2 ^ 48 by ring, h8] at h7
  calc |fl64 (s / res) - (X / res + N)| = |(fl64 (s / res) - s / res) + (s / res - (X / res + N))| := by ring_nf
    _ ≤ _ := abs_add_le _ _
    _ ≤ (2 ^ 53)⁻¹ * (2 * (D / res + N)) + (D / res + N) / 2 ^ 48 := add_le_add h6 h7
    _ ≤ _ := by norm_num; linarith

private theorem entry_err {res X N D q : ℝ} (hr : 0 < res) (hN : 0 ≤ N) (hX : |X| ≤ D)
    (hq : |q - (X / res + N)| ≤ (D / res + N) / 2 ^ 47) :
    |fl64 (fl64 (roundR q * res) - fl64 (N * res)) - X| ≤ res / 2 + (D + N * res + res) / 2 ^ 46 := by
  have hA : 0 ≤ N * res := mul_nonneg hN hr.le
  have hD : 0 ≤ D := (abs_nonneg _).trans hX
  have h2 : |-fl64 (N * res) - -(N * res)| ≤ (2 ^ 53)⁻¹ * (N * res) := by
    have := fl_rel 53 (N * res); rw [abs_of_nonneg hA] at this
    rw [← neg_add', abs_neg, ← sub_eq_add_neg]; exact this
  have h3 : |roundR q * res - (X + N * res)| ≤ res / 2 + (D + N * res) / 2 ^ 47 := by
    have e : roundR q * res - (X + N * res) = (roundR q - q) * res + (q - (X / res + N)) * res := by field_simp; ring
    rw [e]
    refine (abs_add_le _ _).trans (add_le_add ?_ ?_)
    · rw [abs_mul, abs_of_pos hr]
      have := mul_le_mul_of_nonneg_right (roundR_near q) hr.le
      linarith
    · rw [abs_mul, abs_of_pos hr]
      refine (mul_le_mul_of_nonneg_right hq hr.le).trans (le_of_eq ?_)
      field_simp
  obtain ⟨A, hAA⟩ : ∃ A, A = N * res := ⟨_, rfl⟩
  rw [← hAA] at h3 h2 hA ⊢
  obtain ⟨p, hp⟩ : ∃ p, p = (roundR q : ℝ) * res := ⟨_, rfl⟩
  rw [← hp] at h3 ⊢
  have h4 : |p| ≤ 2 * (D + A + res) := by
    have e1 : |p| ≤ |p - (X + A)| + |X + A| := by
      calc |p| = |(p - (X + A)) + (X + A)| := by ring_nf
        _ ≤ _ := abs_add_le _ _
    have e2 : |X + A| ≤ D + A := (abs_add_le _ _).trans (by rw [abs_of_nonneg hA]; linarith)
    have e3 : (D + A) / 2 ^ 47 ≤ D + A := by
      rw [div_le_iff₀ (by positivity)]; nlinarith
    linarith
  have h5 : |fl64 p - p| ≤ (2 ^ 53)⁻¹ * (2 * (D + A + res)) :=
    (fl_rel 53 p).trans (mul_le_mul_of_nonneg_left h4 (by positivity))
  have h6 := fl64_sum_err h4 (by rw [abs_neg, abs_of_nonneg hA] : |-A| ≤ A) h5 h2
  rw [← sub_eq_add_neg] at h6
  calc |fl64 (fl64 p - fl64 A) - X| = |(fl64 (fl64 p - fl64 A) - (p + -A)) + (p - (X + A))| := by ring_nf
    _ ≤ _ := abs_add_le _ _
    _ ≤ _ := add_le_add h6 h3
    _ ≤ _ := by norm_num; linarith

private theorem far_sq (goal state : PoseR) : (ahead goal state) ^ 2 + (aside goal state) ^ 2 =
    (goal.position.x - state.position.x) ^ 2 + (goal.position.y - state.position.y) ^ 2 := by
  unfold ahead aside
  linear_combination ((goal.position.x - state.position.x) ^ 2 + (goal.position.y - state.position.y) ^ 2) *
    Real.sin_sq_add_cos_sq state.theta

private theorem le_far (goal state : PoseR) : |ahead goal state| ≤ far goal state ∧ |aside goal state| ≤ far goal state ∧
    max |goal.position.x - state.position.x| |goal.position.y - state.position.y| ≤ far goal state := by
  unfold far
  refine ⟨?_, ?_, max_le (Real.abs_le_sqrt ?_) (Real.abs_le_sqrt ?_)⟩
  · rw [← far_sq]; exact Real.abs_le_sqrt (by nlinarith [sq_nonneg (aside goal state)])
  · rw [← far_sq]; exact Real.abs_le_sqrt (by nlinarith [sq_nonneg (ahead goal state)])
  · nlinarith [sq_nonneg (goal.position.y - state.position.y)]
  · nlinarith [sq_nonneg (goal.position.x - state.position.x)]

/-- The pose of the goal seen from the state, as computed. -/
private theorem delta_ok {lm : Libm} (hlm : lm.Accurate) {goal state : PoseR} (hg : Wrapped goal.theta)
    (hs : Wrapped state.theta) :
    ∃ r, goal.subF lm state = some r ∧ Wrapped r.theta ∧ IsFlt 53 r.position.x ∧ IsFlt 53 r.position.y ∧
      |r.position.x - ahead goal state| ≤
        max |goal.position.x - state.position.x| |goal.position.y - state.position.y| / 2 ^ 49 ∧
      |r.position.y - aside goal state| ≤
        max |goal.position.x - state.position.x| |goal.position.y - state.position.y| / 2 ^ 49 ∧
      ∃ k : ℤ, |r.theta - (goal.theta - state.theta + k * (2 * Real.pi))| ≤ 1 / 2 ^ 49 := by
  obtain ⟨r, r1, r2, r3, r4, k, r5⟩ := C136_difference lm hlm goal state hg hs
  refine ⟨r, r1, r2, ?_, ?_, r3, r4, k, r5⟩
  all_goals
    unfold PoseR.subF PoseR.mkF at r1
    simp only [Option.bind_eq_bind, Option.pure_def, Option.bind_eq_some_iff, Option.some.injEq] at r1
    obtain ⟨o, ⟨t, -, rfl⟩, t', -, rfl⟩ := r1
    exact isFlt_fl 53 (by norm_num) _

private theorem toInt32_ok {n : ℤ} (h : |(n : ℝ)| ≤ 2 ^ 30 + 2) : toInt32 n = some n := by
  obtain ⟨h1, h2⟩ := abs_le.1 h
  have e1 : (-(2 ^ 30 + 2) : ℤ) ≤ n := by exact_mod_cast h1
  have e2 : n ≤ (2 ^ 30 + 2 : ℤ) := by exact_mod_cast h2
  exact if_pos ⟨by norm_num at e1 ⊢; omega, by norm_num at e2 ⊢; omega⟩

private theorem round_abs {q Q : ℝ} (h : |q| ≤ Q) : |(roundR q : ℝ)| ≤ Q + 1 / 2 := by
  calc |(roundR q : ℝ)| = |(roundR q - q) + q| := by ring_nf
    _ ≤ _ := abs_add_le _ _
    _ ≤ _ := by have := roundR_near q; linarith

private theorem half_le {n : Nat} (h : n ≤ 2 ^ 30) : ((n / 2 : Nat) : ℝ) ≤ 2 ^ 29 := by
  have : n / 2 ≤ 2 ^ 29 := by omega
  exact_mod_cast this

private theorem offX (h : NonHolo) : h.offsetXF = fl64 (((h.numSpatialX / 2 : Nat) : ℝ) * h.spatialResolution) := by
  unfold offsetXF; rw [floor_half, Int.cast_natCast]

private theorem offY (h : NonHolo) : h.offsetYF = fl64 (((h.numSpatialY / 2 : Nat) : ℝ) * h.spatialResolution) := by
  unfold offsetYF; rw [floor_half, Int.cast_natCast]

/-- All that is needed about the look-up. -/
private theorem lookup_facts {lm : Libm} (hlm : lm.Accurate) {h : NonHolo} {goal state : PoseR} (hf : Fits h goal state) :
    ∃ r, goal.subF lm state = some r ∧ Wrapped r.theta ∧ IsFlt 53 r.position.x ∧ IsFlt 53 r.position.y ∧
      |r.position.x - ahead goal state| ≤ far goal state / 2 ^ 49 ∧ |r.position.y - aside goal state| ≤ far goal state / 2 ^ 49 ∧
      (∃ k : ℤ, |r.theta - (goal.theta - state.theta + k * (2 * Real.pi))| ≤ 1 / 2 ^ 49) ∧
      |fl64 (fl64 (r.position.x + h.offsetXF) / h.spatialResolution) -
        (ahead goal state / h.spatialResolution + (h.numSpatialX / 2 : Nat))| ≤
        (far goal state / h.spatialResolution + (h.numSpatialX / 2 : Nat)) / 2 ^ 47 ∧
      |fl64 (fl64 (r.position.y + h.offsetYF) / h.spatialResolution) -
        (aside goal state / h.spatialResolution + (h.numSpatialY / 2 : Nat))| ≤
        (far goal state / h.spatialResolution + (h.numSpatialY / 2 : Nat)) / 2 ^ 47 ∧
      toInt32 (h.indicesF r).1 = some (h.indicesF r).1 ∧ toInt32 (h.indicesF r).2.1 = some (h.indicesF r).2.1 ∧
      toInt32 (h.indicesF r).2.2 = some (h.indicesF r).2.2 := by
  obtain ⟨r, r1, r2, rx, ry, r3, r4, r5⟩ := delta_ok hlm hf.goal hf.state
  obtain ⟨f1, f2, f3⟩ := le_far goal state
  have hr := hf.resolution
  have e1 := index_err (N := (h.numSpatialX / 2 : Nat)) hr (Nat.cast_nonneg _) r3 f1 f3
  have e2 := index_err (N := (h.numSpatialY / 2 : Nat)) hr (Nat.cast_nonneg _) r4 f2 f3
  rw [← offX] at e1
  rw [← offY] at e2
  have hdiv : far goal state / h.spatialResolution ≤ 2 ^ 29 := by
    rw [div_le_iff₀ hr]; exact hf.far
  have fit : ∀ {q X : ℝ} {n : Nat}, n ≤ 2 ^ 30 → |X| ≤ far goal state →
      |q - (X / h.spatialResolution + (n / 2 : Nat))| ≤ (far goal state / h.spatialResolution + (n / 2 : Nat)) / 2 ^ 47 →
      toInt32 (roundR q) = some (roundR q) := by
    intro q X n hn hX hq
    have hh := half_le hn
    have h0 : (0 : ℝ) ≤ (n / 2 : Nat) := Nat.cast_nonneg _
    have hX' : |X / h.spatialResolution| ≤ far goal state / h.spatialResolution := by
      rw [abs_div, abs_of_pos hr]; exact div_le_div_of_nonneg_right hX hr.le
    have : |q| ≤ 2 ^ 30 + 1 := by
      calc |q| = |(q - (X / h.spatialResolution + (n / 2 : Nat))) + (X / h.spatialResolution + (n / 2 : Nat))| := by ring_nf
        _ ≤ |q - (X / h.spatialResolution + (n / 2 : Nat))| + (|X / h.spatialResolution| + |((n / 2 : Nat) : ℝ)|) :=
          (abs_add_le _ _).trans (add_le_add_right (abs_add_le _ _) _)
        _ ≤ _ := by
          rw [abs_of_nonneg h0]
          obtain ⟨m, hm⟩ : ∃ m : ℝ, m = ((n / 2 : Nat) : ℝ) := ⟨_, rfl⟩
          rw [← hm] at hq hh h0 ⊢
          norm_num at hq hh ⊢
          norm_num at hdiv
          linarith
    have := round_abs this
    exact toInt32_ok (this.trans (by norm_num))
  refine ⟨r, r1, r2, rx, ry, r3.trans (div_le_div_of_nonneg_right f3 (by positivity)),
    r4.trans (div_le_div_of_nonneg_right f3 (by positivity)), r5, e1, e2, fit hf.x f1 e1, fit hf.y f2 e2, ?_⟩
  have ha : 0 < h.angularResolution := lt_of_lt_of_le (by positivity) hf.angular
  have h1 : |r.theta / h.angularResolution| ≤ 2 ^ 30 := by
    rw [abs_div, abs_of_pos ha, div_le_iff₀ ha]
    have h2 := r2.2.trans mPi_bounds.2.le
    have h3 := mul_le_mul_of_nonneg_left hf.angular (show (0 : ℝ) ≤ 2 ^ 30 by positivity)
    norm_num at h3 ⊢
    linarith
  have h2 : |fl64 (r.theta / h.angularResolution)| ≤ 2 ^ 30 + 1 := by
    have h3 := fl_rel 53 (r.theta / h.angularResolution)
    calc |fl64 (r.theta / h.angularResolution)| =
        |(fl64 (r.theta / h.angularResolution) - r.theta / h.angularResolution) + r.theta / h.angularResolution| := by ring_nf
      _ ≤ _ := abs_add_le _ _
      _ ≤ (2 ^ 53)⁻¹ * |r.theta / h.angularResolution| + |r.theta / h.angularResolution| := add_le_add_left h3 _
      _ ≤ _ := by norm_num at h1 ⊢; linarith
  exact toInt32_ok ((round_abs h2).trans (by norm_num))

private theorem value_eq {lm : Libm} {h : NonHolo} {goal state r : PoseR} {table : ℤ → ℤ → ℤ → ℝ}
    (h0 : goal.subF lm state = some r) (h1 : toInt32 (h.indicesF r).1 = some (h.indicesF r).1)
    (h2 : toInt32 (h.indicesF r).2.1 = some (h.indicesF r).2.1)
    (h3 : toInt32 (h.indicesF r).2.2 = some (h.indicesF r).2.2) :
    (OutsideF h r → h.getHeuristicValueF lm table goal state = some (fl64 (min h.rev h.fwd * normF r.position))) ∧
    (¬ OutsideF h r → h.getHeuristicValueF lm table goal state =
      h.readF table (h.indicesF r).1 (h.indicesF r).2.1
        (if (h.indicesF r).2.2 = h.numAngularF then 0 else (h.indicesF r).2.2)) := by
  unfold getHeuristicValueF OutsideF
  simp only [h0, h1, h2, h3, Option.bind_eq_bind, Option.bind_some, Option.pure_def]
  exact ⟨fun h => if_pos h, fun h => if_neg h⟩

private theorem two_mPi : fl64 (2 * mPi) = 2 * mPi := isFlt_two_mul (by norm_num) (isFlt_fl 53 (by norm_num) _)

private theorem fl_double (x : ℝ) : fl64 (2 * x) = 2 * fl64 x := by
  show fl 53 (2 * x) = 2 * fl 53 x
  by_cases hx : x = 0
  · rw [hx, mul_zero, fl_zero, mul_zero]
  have hb := bounds 53 hx
  have e : lastBit 53 (2 * x) = lastBit 53 x + 1 := by
    refine lastBit_eq ?_ ?_
    · rw [show lastBit 53 x + 1 + (((53 : ℕ) : ℤ) - 1) = lastBit 53 x + (((53 : ℕ) : ℤ) - 1) + 1 by ring, zpow_add₀ (by norm_num),
        zpow_one, abs_mul, abs_of_pos (by norm_num : (0 : ℝ) < 2)]
      linarith [hb.1]
    · rw [show lastBit 53 x + 1 + ((53 : ℕ) : ℤ) = lastBit 53 x + ((53 : ℕ) : ℤ) + 1 by ring, zpow_add₀ (by norm_num),
        zpow_one, abs_mul, abs_of_pos (by norm_num : (0 : ℝ) < 2)]
      linarith [hb.2]
  unfold fl
  rw [e, zpow_add₀ (by norm_num), zpow_one]
  have h2 : (2 : ℝ) ^ lastBit 53 x ≠ 0 := (by positivity : (0 : ℝ) < 2 ^ lastBit 53 x).ne'
  rw [show 2 * x / (2 ^ lastBit 53 x * 2) = x / 2 ^ lastBit 53 x by field_simp]
  ring

/-- The index of the heading. -/
private theorem angular_facts {h : NonHolo} (ha : 0 < h.angularResolution) {t : ℝ} (ht : |t| ≤ mPi) :
    0 < h.numAngularF ∧ roundR (fl64 (t / h.angularResolution)) ≤ h.numAngularF ∧
      (roundR (fl64 (t / h.angularResolution)) = h.numAngularF → 2 * mPi ≤ (1 + (2 ^ 52)⁻¹) * h.angularResolution) := by
  have hp := mPi_bounds.1
  have hx : 0 < 2 * mPi / h.angularResolution := by positivity
  have herr := fl_rel 53 (2 * mPi / h.angularResolution)
  rw [abs_of_pos hx] at herr
  have herr' := abs_le.1 herr
  have hN : fl64 (2 * mPi / h.angularResolution) ≤ h.numAngularF := by
    unfold numAngularF; rw [two_mPi]; exact Nat.le_ceil _
  have hpos : 0 < fl64 (2 * mPi / h.angularResolution) := by
    change 0 < fl 53 (2 * mPi / h.angularResolution)
    have : (2 ^ 53 : ℝ)⁻¹ * (2 * mPi / h.angularResolution) < 1 * (2 * mPi / h.angularResolution) :=
      mul_lt_mul_of_pos_right (by norm_num) hx
    linarith [herr'.1]
  have h0 : 0 < h.numAngularF := by
    have : (0 : ℝ) < h.numAngularF := hpos.trans_le hN
    exact_mod_cast this
  have h1 : (1 : ℝ) ≤ h.numAngularF := by exact_mod_cast h0
  have hq : 2 * fl64 (t / h.angularResolution) ≤ h.numAngularF := by
    have e : fl64 (2 * mPi / h.angularResolution) = 2 * fl64 (mPi / h.angularResolution) := by
      rw [mul_div_assoc]; exact fl_double _
    have : fl64 (t / h.angularResolution) ≤ fl64 (mPi / h.angularResolution) :=
      fl_mono 53 h53 (div_le_div_of_nonneg_right (abs_le.1 ht).2 ha.le)
    linarith
  have hr := (abs_le.1 (roundR_near (fl64 (t / h.angularResolution)))).2
  refine ⟨h0, ?_, fun hk => ?_⟩
  · have : (roundR (fl64 (t / h.angularResolution)) : ℝ) ≤ (h.numAngularF : ℤ) := by push_cast; linarith
    exact_mod_cast this
  · rw [hk] at hr
    push_cast at hr
    have h2 : 2 * mPi / h.angularResolution * (1 - (2 ^ 53)⁻¹) ≤ 1 := by
      change _ ≤ _ at hN
      have e1 : fl 53 (2 * mPi / h.angularResolution) ≤ 1 := by
        change fl64 _ ≤ 1
        linarith
      linarith [herr'.1]
    rw [div_mul_eq_mul_div, div_le_iff₀ ha, one_mul] at h2
    have h3 := mul_le_mul_of_nonneg_left h2 (show (0 : ℝ) ≤ 1 + (2 ^ 52)⁻¹ by positivity)
    refine le_trans ?_ h3
    have : (1 : ℝ) ≤ (1 + (2 ^ 52)⁻¹) * (1 - (2 ^ 53)⁻¹) := by norm_num
    nlinarith

/-- C149. The look-up is defined exactly when the goal is outside the tabulated area around the state, or its computed
heading, in steps of the angular resolution, is above -1/2. -/
theorem C149_defined_iff (lm : Libm) (hlm : lm.Accurate) (h : NonHolo) (goal state : PoseR) (hf : Fits h goal state)
    (table : ℤ → ℤ → ℤ → ℝ) : ∃ delta, goal.subF lm state = some delta ∧
      ((h.getHeuristicValueF lm table goal state).isSome ↔
        OutsideF h delta ∨ -(1 / 2) < fl64 (delta.theta / h.angularResolution)) := by
  obtain ⟨r, r1, r2, rx, ry, -, -, -, -, -, i1, i2, i3⟩ := lookup_facts hlm hf
  refine ⟨r, r1, ?_⟩
  have ha : 0 < h.angularResolution := lt_of_lt_of_le (by positivity) hf.angular
  obtain ⟨v1, v2⟩ := value_eq (table := table) r1 i1 i2 i3
  obtain ⟨a1, a2, -⟩ := angular_facts ha r2.2
  by_cases ho : OutsideF h r
  · rw [v1 ho]; simp [ho]
  · rw [v2 ho]
    simp only [ho, false_or]
    rw [← not_le, ← roundR_neg_iff]
    change (readF h table _ _ (if roundR _ = _ then _ else roundR _)).isSome ↔ _
    unfold OutsideF at ho
    unfold readF
    generalize roundR (fl64 (r.theta / h.angularResolution)) = k at *
    by_cases hk : k < 0
    · rw [if_neg (by split <;> omega)]; simp [hk]
    · rw [if_pos (by split <;> omega)]; simp [hk]

/-- C149, partial: for a goal whose computed heading is not behind the one of the state the look-up is defined. Missing: the
other half of the headings (`C149_negative_index`). -/
theorem C149_lookup_partial (lm : Libm) (hlm : lm.Accurate) (h : NonHolo) (goal state : PoseR) (hf : Fits h goal state)
    (table : ℤ → ℤ → ℤ → ℝ) (delta : PoseR) (hd : goal.subF lm state = some delta) (ht : 0 ≤ delta.theta) :
    (h.getHeuristicValueF lm table goal state).isSome := by
  obtain ⟨r, r1, r2⟩ := C149_defined_iff lm hlm h goal state hf table
  rw [hd] at r1
  cases r1
  rw [r2]
  right
  have ha : 0 < h.angularResolution := lt_of_lt_of_le (by positivity) hf.angular
  have := fl_nonneg 53 (div_nonneg ht ha.le)
  change 0 ≤ fl64 _ at this
  linarith

private theorem norm_le {a b A B e f : ℝ} (ha : |a - A| ≤ e) (hb : |b - B| ≤ f) :
    √(a ^ 2 + b ^ 2) ≤ √(A ^ 2 + B ^ 2) + (e + f) := by
  have e0 := (abs_nonneg _).trans ha
  have f0 := (abs_nonneg _).trans hb
  obtain ⟨S, hS⟩ : ∃ S, S = √(A ^ 2 + B ^ 2) := ⟨_, rfl⟩
  have s0 : 0 ≤ S := by rw [hS]; exact Real.sqrt_nonneg _
  have s1 : S ^ 2 = A ^ 2 + B ^ 2 := by rw [hS]; exact Real.sq_sqrt (by positivity)
  have hA : |A| ≤ S := by rw [hS]; exact Real.abs_le_sqrt (by nlinarith [sq_nonneg B])
  have hB : |B| ≤ S := by rw [hS]; exact Real.abs_le_sqrt (by nlinarith [sq_nonneg A])
  rw [← hS]
  refine Real.sqrt_le_iff.2 ⟨by positivity, ?_⟩
  have h1 : ∀ {x X d : ℝ}, |x - X| ≤ d → |X| ≤ S → x ^ 2 ≤ X ^ 2 + 2 * S * d + d ^ 2 := by
    intro x X d hd hX
    have d0 := (abs_nonneg _).trans hd
    have e1 : x ^ 2 = X ^ 2 + 2 * (X * (x - X)) + (x - X) ^ 2 := by ring
    have e2 : X * (x - X) ≤ S * d :=
      (le_abs_self _).trans (by rw [abs_mul]; exact mul_le_mul hX hd (abs_nonneg _) s0)
    have e3 : (x - X) ^ 2 ≤ d ^ 2 := sq_le_sq' (abs_le.1 hd).1 (abs_le.1 hd).2
    rw [e1]; linarith
  nlinarith [h1 ha hA, h1 hb hB, mul_nonneg e0 f0]

private theorem normF_eq {p : Pt} (hx : IsFlt 53 p.x) (hy : IsFlt 53 p.y) : normF p = ObstHeuristic.euclideanF p ⟨0, 0⟩ := by
  unfold normF ObstHeuristic.euclideanF
  simp only [sub_zero]
  rw [show fl64 p.x = p.x from hx, show fl64 p.y = p.y from hy]

/-- C149. Outside the tabulated area the value is the cheaper multiplier times the distance, up to a relative error of
2^-46; so it exceeds the cost of the path that the (exact) Reeds-Shepp solver finds from the state to the goal by no more
than that. -/
theorem C149_outside (lm : Libm) (hlm : lm.Accurate) (h : NonHolo) (goal state : PoseR) (hf : Fits h goal state)
    (hm : 0 ≤ min h.rev h.fwd) (table : ℤ → ℤ → ℤ → ℝ) (delta : PoseR) (hd : goal.subF lm state = some delta)
    (ho : OutsideF h delta) :
    ∃ v, h.getHeuristicValueF lm table goal state = some v ∧
      |v - min h.rev h.fwd * √((goal.position.x - state.position.x) ^ 2 + (goal.position.y - state.position.y) ^ 2)| ≤
        min h.rev h.fwd * √((goal.position.x - state.position.x) ^ 2 + (goal.position.y - state.position.y) ^ 2) / 2 ^ 46 ∧
      (0 < h.minTurningRadius → 0 ≤ h.sw →
        ∃ c, (RS.optimalPath state goal h.minTurningRadius h.rev h.fwd h.sw).computeCost
          h.minTurningRadius h.rev h.fwd h.sw = some c ∧ v ≤ (1 + (2 ^ 46)⁻¹) * c) := by
  obtain ⟨r, r1, r2, rx, ry, r3, r4, -, -, -, i1, i2, i3⟩ := lookup_facts hlm hf
  rw [hd] at r1
  cases r1
  have hv := (value_eq (table := table) hd i1 i2 i3).1 ho
  have hD : √(ahead goal state ^ 2 + aside goal state ^ 2) = far goal state := by
    rw [far_sq]; rfl
  have n1 := norm_le r3 r4
  have n2 := norm_le ((abs_sub_comm _ _).trans_le r3) ((abs_sub_comm _ _).trans_le r4)
  rw [hD] at n1 n2
  have n3 := ObstHeuristic.C128_straight_line delta.position ⟨0, 0⟩
  rw [← normF_eq rx ry] at n3
  simp only [sub_zero] at n3
  obtain ⟨D, hDD⟩ : ∃ D, D = far goal state := ⟨_, rfl⟩
  obtain ⟨L, hL⟩ : ∃ L, L = √(delta.position.x ^ 2 + delta.position.y ^ 2) := ⟨_, rfl⟩
  obtain ⟨m, hmm⟩ : ∃ m, m = min h.rev h.fwd := ⟨_, rfl⟩
  obtain ⟨w, hw⟩ : ∃ w, w = normF delta.position := ⟨_, rfl⟩
  have hD0 : 0 ≤ D := by rw [hDD]; exact Real.sqrt_nonneg _
  rw [← hDD, ← hL] at n1 n2
  rw [← hL, ← hw] at n3
  rw [← hw, ← hmm] at hv
  rw [← hmm] at hm
  have n4 : |w - D| ≤ D / 2 ^ 47 := by
    have := abs_le.1 n3
    norm_num at this n1 n2 ⊢
    rw [abs_le]
    constructor <;> linarith
  have n5 : |w| ≤ 2 * D := by
    have := abs_le.1 n4
    norm_num at this
    rw [abs_le]; constructor <;> linarith
  have n6 := fl_rel 53 (m * w)
  rw [abs_mul, abs_of_nonneg hm] at n6
  have n7 : |fl64 (m * w) - m * D| ≤ m * D / 2 ^ 46 := by
    have hmD := mul_nonneg hm hD0
    have e1 := mul_le_mul_of_nonneg_left n5 hm
    have e2 := mul_le_mul_of_nonneg_left n4 hm
    calc |fl64 (m * w) - m * D| = |(fl64 (m * w) - m * w) + m * (w - D)| := by ring_nf
      _ ≤ _ := abs_add_le _ _
      _ ≤ (2 ^ 53)⁻¹ * (m * (2 * D)) + m * (D / 2 ^ 47) := by
        refine add_le_add (n6.trans (mul_le_mul_of_nonneg_left e1 (by positivity))) ?_
        rw [abs_mul, abs_of_nonneg hm]; exact e2
      _ ≤ _ := by norm_num; linarith
  refine ⟨_, hv, ?_, fun hR hsw => ?_⟩
  · rw [← hmm]
    change |_ - m * far goal state| ≤ m * far goal state / 2 ^ 46
    rw [← hDD]; exact n7
  · obtain ⟨c, c1, c2⟩ := optimal_cost_ge state goal (R := h.minTurningRadius) (rev := h.rev) (fwd := h.fwd) hR hsw
      (hmm ▸ hm)
    refine ⟨c, c1, ?_⟩
    rw [← hmm] at c2
    change m * far goal state ≤ c at c2
    rw [← hDD] at c2
    have := (abs_le.1 n7).2
    norm_num at this ⊢
    linarith

private theorem index_range {q z : ℝ} {n : Nat} (hn : n ≤ 2 ^ 30) (h1 : -((n / 2 : Nat) : ℝ) ≤ z)
    (h2 : z ≤ ((n / 2 : Nat) : ℝ)) (hodd : n % 2 = 1) {D : ℝ} (hD : D ≤ 2 ^ 29)
    (hq : |q - (z + (n / 2 : Nat))| ≤ (D + (n / 2 : Nat)) / 2 ^ 47) : 0 ≤ roundR q ∧ roundR q < n := by
  have hh := half_le hn
  have h3 := abs_le.1 (roundR_near q)
  have h4 := abs_le.1 hq
  have hn2 : ((n : ℤ) : ℝ) = 2 * ((n / 2 : Nat) : ℝ) + 1 := by
    have : n = 2 * (n / 2) + 1 := by omega
    have e : (n : ℝ) = ((2 * (n / 2) + 1 : Nat) : ℝ) := by rw [← this]
    rw [Int.cast_natCast, e]; push_cast; ring
  obtain ⟨m, hm⟩ : ∃ m : ℝ, m = ((n / 2 : Nat) : ℝ) := ⟨_, rfl⟩
  rw [← hm] at h1 h2 h4 hh hn2
  norm_num at h3 h4 hh hD
  constructor
  · have : (-1 : ℝ) < roundR q := by linarith
    have : (-1 : ℤ) < roundR q := by exact_mod_cast this
    omega
  · have : (roundR q : ℝ) < ((n : ℤ) : ℝ) := by rw [hn2]; linarith
    exact_mod_cast this

private theorem index_out {q z : ℝ} {n : Nat} (hn : n ≤ 2 ^ 30) (hz : ((n / 2 : Nat) : ℝ) + 1 ≤ |z|) (hodd : n % 2 = 1)
    {D : ℝ} (hD : D ≤ 2 ^ 29) (hq : |q - (z + (n / 2 : Nat))| ≤ (D + (n / 2 : Nat)) / 2 ^ 47) :
    roundR q < 0 ∨ (n : ℤ) ≤ roundR q := by
  have hh := half_le hn
  have h3 := abs_le.1 (roundR_near q)
  have h4 := abs_le.1 hq
  have hn2 : ((n : ℤ) : ℝ) = 2 * ((n / 2 : Nat) : ℝ) + 1 := by
    have : n = 2 * (n / 2) + 1 := by omega
    have e : (n : ℝ) = ((2 * (n / 2) + 1 : Nat) : ℝ) := by rw [← this]
    rw [Int.cast_natCast, e]; push_cast; ring
  obtain ⟨m, hm⟩ : ∃ m : ℝ, m = ((n / 2 : Nat) : ℝ) := ⟨_, rfl⟩
  rw [← hm] at hz h4 hh hn2
  norm_num at h3 h4 hh hD
  rcases abs_cases z with ⟨e, -⟩ | ⟨e, -⟩
  · right
    rw [e] at hz
    have : ((n : ℤ) : ℝ) < roundR q + 1 := by rw [hn2]; linarith
    have : (n : ℤ) < roundR q + 1 := by exact_mod_cast this
    omega
  · left
    rw [e] at hz
    have : (roundR q : ℝ) < 0 := by linarith
    exact_mod_cast this

/-- C149. With odd numbers of cells (as `Build` makes them), the tabulated area is, up to one cell, the rectangle of the
size of the table around the state: a goal ahead or behind, and to the side, by at most half the cells (rounded down) is in
it, and one that is further by a cell or more is not. -/
theorem C149_area (lm : Libm) (hlm : lm.Accurate) (h : NonHolo) (goal state : PoseR) (hf : Fits h goal state)
    (hx : h.numSpatialX % 2 = 1) (hy : h.numSpatialY % 2 = 1) :
    ∃ delta, goal.subF lm state = some delta ∧
      (|ahead goal state| ≤ (h.numSpatialX / 2 : Nat) * h.spatialResolution →
        |aside goal state| ≤ (h.numSpatialY / 2 : Nat) * h.spatialResolution → ¬ OutsideF h delta) ∧
      (((h.numSpatialX / 2 : Nat) + 1) * h.spatialResolution ≤ |ahead goal state| ∨
        ((h.numSpatialY / 2 : Nat) + 1) * h.spatialResolution ≤ |aside goal state| → OutsideF h delta) := by
  obtain ⟨r, r1, -, -, -, -, -, -, e1, e2, -⟩ := lookup_facts hlm hf
  have hr := hf.resolution
  have hD : far goal state / h.spatialResolution ≤ 2 ^ 29 := by rw [div_le_iff₀ hr]; exact hf.far
  refine ⟨r, r1, fun h1 h2 => ?_, fun h1 => ?_⟩
  · rw [abs_le] at h1 h2
    have q1 := index_range hf.x (by rw [le_div_iff₀ hr]; linarith [h1.1]) (by rw [div_le_iff₀ hr]; exact h1.2) hx hD e1
    have q2 := index_range hf.y (by rw [le_div_iff₀ hr]; linarith [h2.1]) (by rw [div_le_iff₀ hr]; exact h2.2) hy hD e2
    unfold OutsideF indicesF
    dsimp only
    omega
  · unfold OutsideF indicesF
    dsimp only
    rcases h1 with h1 | h1
    · rcases index_out hf.x (by rw [abs_div, abs_of_pos hr, le_div_iff₀ hr]; exact h1) hx hD e1 with q | q
      · exact .inl q
      · exact .inr (.inl q)
    · rcases index_out hf.y (by rw [abs_div, abs_of_pos hr, le_div_iff₀ hr]; exact h1) hy hD e2 with q | q
      · exact .inr (.inr (.inl q))
      · exact .inr (.inr (.inr q))

/-- C149. The number of cells that `Build` computes is odd, and the cells cover the size of the space up to a relative error
of 2^-51, with at most two more than needed. -/
theorem C149_build_size (lower upper res : ℝ) (hr : 0 < res) (hb : lower ≤ upper) :
    numSpatialF lower upper res % 2 = 1 ∧
      (1 - (2 ^ 51)⁻¹) * (upper - lower) ≤ numSpatialF lower upper res * res ∧
      (numSpatialF lower upper res : ℝ) * res < (1 + (2 ^ 51)⁻¹) * (upper - lower) + 2 * res := by
  obtain ⟨S, hS⟩ : ∃ S, S = upper - lower := ⟨_, rfl⟩
  have hS0 : 0 ≤ S := by rw [hS]; linarith
  obtain ⟨g, hg⟩ : ∃ g, g = fl64 (fl64 S / res) := ⟨_, rfl⟩
  have h1 := fl_rel 53 S
  have h2 := fl_rel 53 (fl64 S / res)
  change |fl64 S - S| ≤ _ at h1
  change |fl64 (fl64 S / res) - _| ≤ _ at h2
  have h3 : 0 ≤ fl64 S := fl_nonneg 53 hS0
  rw [abs_of_nonneg hS0] at h1
  rw [abs_of_nonneg (div_nonneg h3 hr.le), ← hg] at h2
  obtain ⟨T, hT⟩ : ∃ T, T = fl64 S := ⟨_, rfl⟩
  rw [← hT] at h1 h2 h3
  have h4 : |g * res - T| ≤ (2 ^ 53)⁻¹ * T := by
    have e : g * res - T = (g - T / res) * res := by field_simp
    rw [e, abs_mul, abs_of_pos hr]
    refine (mul_le_mul_of_nonneg_right h2 hr.le).trans (le_of_eq ?_)
    field_simp
  have h5 : g * res ≤ (1 + (2 ^ 51)⁻¹) * S := by
    have := (abs_le.1 h4).2; have := (abs_le.1 h1).2
    norm_num at *; linarith
  have h6 : (1 - (2 ^ 51)⁻¹) * S ≤ g * res := by
    have := (abs_le.1 h4).1; have := (abs_le.1 h1).1
    norm_num at *; linarith
  have g0 : 0 ≤ g := by rw [hg]; exact fl_nonneg 53 (div_nonneg (by rw [← hT]; exact h3) hr.le)
  have c1 : g ≤ ⌈g⌉₊ := Nat.le_ceil g
  have c2 : (⌈g⌉₊ : ℝ) < g + 1 := Nat.ceil_lt_add_one g0
  unfold numSpatialF
  rw [← hS, ← hg]
  dsimp only
  split
  · rename_i he
    refine ⟨by omega, ?_, ?_⟩
    · refine h6.trans (mul_le_mul_of_nonneg_right ?_ hr.le)
      push_cast; linarith
    · have := mul_lt_mul_of_pos_right c2 hr
      push_cast
      linarith
  · rename_i he
    refine ⟨by omega, h6.trans (mul_le_mul_of_nonneg_right c1 hr.le), ?_⟩
    have := mul_lt_mul_of_pos_right c2 hr
    linarith

/-- C149. `Build` keeps the parameters, and its table covers the space along both axes (see `C149_build_size`). -/
theorem C149_build (lb ub : PoseR) (res ang R rev fwd sw : ℝ) (hr : 0 < res) (hx : lb.position.x ≤ ub.position.x)
    (hy : lb.position.y ≤ ub.position.y) :
    ∃ h, buildF lb ub res ang R rev fwd sw = h ∧ h.spatialResolution = res ∧ h.angularResolution = ang ∧
      h.minTurningRadius = R ∧ h.rev = rev ∧ h.fwd = fwd ∧ h.sw = sw ∧ h.numSpatialX % 2 = 1 ∧ h.numSpatialY % 2 = 1 ∧
      (1 - (2 ^ 51)⁻¹) * (ub.position.x - lb.position.x) ≤ h.numSpatialX * res ∧
      (h.numSpatialX : ℝ) * res < (1 + (2 ^ 51)⁻¹) * (ub.position.x - lb.position.x) + 2 * res ∧
      (1 - (2 ^ 51)⁻¹) * (ub.position.y - lb.position.y) ≤ h.numSpatialY * res ∧
      (h.numSpatialY : ℝ) * res < (1 + (2 ^ 51)⁻¹) * (ub.position.y - lb.position.y) + 2 * res := by
  obtain ⟨x1, x2, x3⟩ := C149_build_size _ _ res hr hx
  obtain ⟨y1, y2, y3⟩ := C149_build_size _ _ res hr hy
  exact ⟨_, rfl, rfl, rfl, rfl, rfl, rfl, rfl, x1, y1, x2, x3, y2, y3⟩

/-- The heading of the entry that is read. -/
private theorem entry_heading {h : NonHolo} (ha : 0 < h.angularResolution) {t : ℝ} (ht : Wrapped t)
    (hk : 0 ≤ roundR (fl64 (t / h.angularResolution))) :
    ∃ θ, wrapThetaF (fl64 (((if roundR (fl64 (t / h.angularResolution)) = h.numAngularF then 0 else
        roundR (fl64 (t / h.angularResolution)) : ℤ) : ℝ) * h.angularResolution)) = some θ ∧
      ∃ n : ℤ, |θ - (t + n * (2 * Real.pi))| ≤ h.angularResolution / 2 + 1 / 2 ^ 47 := by
  have hb := mPi_bounds
  have hpi := abs_le.1 mPi_err_pi
  obtain ⟨a1, a2, a3⟩ := angular_facts ha ht.2
  have htm := abs_le.1 ht.2
  split
  · rename_i he
    refine ⟨0, ?_, 0, ?_⟩
    · rw [Int.cast_zero, zero_mul, show fl64 0 = 0 from fl_zero 53]
      unfold wrapThetaF
      rw [wrapDownF_le (by linarith), Option.bind_some, wrapUpF_ge (by linarith)]
    · have h2 := a3 he
      rw [Int.cast_zero, zero_mul, add_zero, zero_sub, abs_neg]
      refine ht.2.trans ?_
      by_cases h7 : h.angularResolution ≤ 7
      · norm_num at h2 ⊢
        linarith
      · push Not at h7
        have : (0 : ℝ) ≤ 1 / 2 ^ 47 := by positivity
        linarith
  · rename_i he
    obtain ⟨k, hkk⟩ : ∃ k, k = roundR (fl64 (t / h.angularResolution)) := ⟨_, rfl⟩
    rw [← hkk] at he a2 hk ⊢
    have k0 : (0 : ℝ) ≤ k := by exact_mod_cast hk
    have kn : (k : ℝ) + 1 ≤ h.numAngularF := by
      have : k + 1 ≤ (h.numAngularF : ℤ) := by omega
      exact_mod_cast this
    have hx : 0 < 2 * mPi / h.angularResolution := by
      have := hb.1; positivity
    have hN : (h.numAngularF : ℝ) < fl64 (2 * mPi / h.angularResolution) + 1 := by
      unfold numAngularF; rw [two_mPi]; exact Nat.ceil_lt_add_one (fl_nonneg 53 hx.le)
    have h7 : (k : ℝ) * h.angularResolution ≤ 7 := by
      have e := (abs_le.1 (fl_rel 53 (2 * mPi / h.angularResolution))).2
      rw [abs_of_pos hx] at e
      change fl64 _ - _ ≤ _ at e
      have e2 : (k : ℝ) ≤ (1 + (2 ^ 53)⁻¹) * (2 * mPi / h.angularResolution) := by linarith
      have e3 := mul_le_mul_of_nonneg_right e2 ha.le
      have e4 : (1 + (2 ^ 53)⁻¹) * (2 * mPi / h.angularResolution) * h.angularResolution = (1 + (2 ^ 53)⁻¹) * (2 * mPi) := by
        field_simp
      rw [e4] at e3
      norm_num at e3
      linarith
    have hka : 0 ≤ (k : ℝ) * h.angularResolution := mul_nonneg k0 ha.le
    have h8 := fl_rel 53 ((k : ℝ) * h.angularResolution)
    change |fl64 _ - _| ≤ _ at h8
    rw [abs_of_nonneg hka] at h8
    have h9 : |(k : ℝ) * h.angularResolution - t| ≤ h.angularResolution / 2 + 4 * (2 ^ 53)⁻¹ := by
      have e1 := roundR_near (fl64 (t / h.angularResolution))
      rw [← hkk] at e1
      have e2 := fl_rel 53 (t / h.angularResolution)
      change |fl64 _ - _| ≤ _ at e2
      obtain ⟨q, hq⟩ : ∃ q, q = fl64 (t / h.angularResolution) := ⟨_, rfl⟩
      rw [← hq] at e1 e2
      have e3 : (k : ℝ) * h.angularResolution - t = (k - q) * h.angularResolution +
          (q - t / h.angularResolution) * h.angularResolution := by field_simp; ring
      rw [e3]
      refine (abs_add_le _ _).trans (add_le_add ?_ ?_)
      · rw [abs_mul, abs_of_pos ha]
        have := mul_le_mul_of_nonneg_right e1 ha.le
        linarith
      · rw [abs_mul, abs_of_pos ha]
        refine (mul_le_mul_of_nonneg_right e2 ha.le).trans ?_
        rw [abs_div, abs_of_pos ha, mul_assoc, div_mul_cancel₀ _ ha.ne', mul_comm]
        refine mul_le_mul_of_nonneg_right ?_ (by positivity)
        linarith [ht.2]
    obtain ⟨x, hx'⟩ : ∃ x, x = fl64 ((k : ℝ) * h.angularResolution) := ⟨_, rfl⟩
    have hxf : IsFlt 53 x := by rw [hx']; exact isFlt_fl 53 h53 _
    rw [← hx'] at h8 ⊢
    have h8' := abs_le.1 h8
    have x8 : |x| ≤ 8 := by
      norm_num at h8'
      rw [abs_le]; constructor <;> linarith
    obtain ⟨n, w1, w2, w3⟩ := C121_wrap_exact_near hxf (x8.trans (by linarith))
    refine ⟨_, w1, n, ?_⟩
    have x8' := abs_le.1 x8
    have hn : |(n : ℝ)| ≤ 1 := by
      have n1 : (-2 : ℝ) < n := by nlinarith
      have n2 : (n : ℝ) < 2 := by nlinarith
      have n1' : (-2 : ℤ) < n := by exact_mod_cast n1
      have n2' : n < (2 : ℤ) := by exact_mod_cast n2
      have : |n| ≤ 1 := by rw [abs_le]; omega
      exact_mod_cast this
    have e1 : |2 * (n : ℝ) * (mPi - Real.pi)| ≤ 8 * (2 ^ 53)⁻¹ := by
      rw [abs_mul, abs_mul, abs_two]
      have := mul_le_mul hn mPi_err_pi (abs_nonneg _) zero_le_one
      linarith
    have e2 : x + 2 * n * mPi - (t + n * (2 * Real.pi)) =
        (x - k * h.angularResolution) + (k * h.angularResolution - t) + 2 * n * (mPi - Real.pi) := by ring
    rw [e2]
    refine (abs_add_le _ _).trans ?_
    have e3 := abs_add_le (x - k * h.angularResolution) (k * h.angularResolution - t)
    have e4 : (2 ^ 53 : ℝ)⁻¹ * (k * h.angularResolution) ≤ (2 ^ 53)⁻¹ * 7 := mul_le_mul_of_nonneg_left h7 (by positivity)
    norm_num at *
    linarith

/-- C149. In the tabulated area the value, if any, is an entry of the table, whose pose (as computed by `Build`) is near the
goal seen from the state: half a cell in each direction and half an angular step in heading, up to rounding errors. -/
theorem C149_table_entry (lm : Libm) (hlm : lm.Accurate) (h : NonHolo) (goal state : PoseR) (hf : Fits h goal state)
    (table : ℤ → ℤ → ℤ → ℝ) (delta : PoseR) (hd : goal.subF lm state = some delta) (hin : ¬ OutsideF h delta) (v : ℝ)
    (hv : h.getHeuristicValueF lm table goal state = some v) :
    ∃ i j k, v = table i j k ∧ 0 ≤ i ∧ i < h.numSpatialX ∧ 0 ≤ j ∧ j < h.numSpatialY ∧ 0 ≤ k ∧ k < h.numAngularF ∧
      ∃ p, h.entryPoseF i j k = some p ∧
        |p.position.x - ahead goal state| ≤ h.spatialResolution / 2 +
          (far goal state + (h.numSpatialX / 2 + 1 : Nat) * h.spatialResolution) / 2 ^ 46 ∧
        |p.position.y - aside goal state| ≤ h.spatialResolution / 2 +
          (far goal state + (h.numSpatialY / 2 + 1 : Nat) * h.spatialResolution) / 2 ^ 46 ∧
        ∃ n : ℤ, |p.theta - (goal.theta - state.theta + n * (2 * Real.pi))| ≤ h.angularResolution / 2 + 1 / 2 ^ 46 := by
  obtain ⟨r, r1, r2, rx, ry, r3, r4, ⟨n1, r5⟩, e1, e2, i1, i2, i3⟩ := lookup_facts hlm hf
  rw [hd] at r1
  cases r1
  have ha : 0 < h.angularResolution := lt_of_lt_of_le (by positivity) hf.angular
  have hr := hf.resolution
  rw [(value_eq (table := table) hd i1 i2 i3).2 hin] at hv
  unfold readF at hv
  rw [Option.ite_none_right_eq_some] at hv
  obtain ⟨hc, hv⟩ := hv
  have hk0 : 0 ≤ roundR (fl64 (delta.theta / h.angularResolution)) := by
    have h1 := hc.2.2.2.2.1
    change 0 ≤ (if roundR _ = _ then (0 : ℤ) else roundR _) at h1
    split at h1
    · rename_i he; rw [he]; omega
    · exact h1
  obtain ⟨θ, t1, n2, t2⟩ := entry_heading ha r2 hk0
  obtain ⟨f1, f2, -⟩ := le_far goal state
  refine ⟨_, _, _, (Option.some.inj hv).symm, hc.1, hc.2.1, hc.2.2.1, hc.2.2.2.1, hc.2.2.2.2.1, hc.2.2.2.2.2,
    ⟨⟨fl64 (fl64 ((h.indicesF delta).1 * h.spatialResolution) - h.offsetXF),
      fl64 (fl64 ((h.indicesF delta).2.1 * h.spatialResolution) - h.offsetYF)⟩, θ⟩, ?_, ?_, ?_, n1 + n2, ?_⟩
  · unfold entryPoseF PoseR.mkF
    change (wrapThetaF (fl64 (((if roundR _ = _ then 0 else roundR _ : ℤ) : ℝ) * _))).bind _ = _
    rw [t1]; rfl
  · have := entry_err hr (Nat.cast_nonneg _) f1 e1
    rw [← offX] at this
    refine this.trans (le_of_eq ?_)
    push_cast; ring
  · have := entry_err hr (Nat.cast_nonneg _) f2 e2
    rw [← offY] at this
    refine this.trans (le_of_eq ?_)
    push_cast; ring
  · have : θ - (goal.theta - state.theta + ((n1 + n2 : ℤ) : ℝ) * (2 * Real.pi)) =
        (θ - (delta.theta + n2 * (2 * Real.pi))) + (delta.theta - (goal.theta - state.theta + n1 * (2 * Real.pi))) := by
      push_cast; ring
    dsimp only
    rw [this]
    refine (abs_add_le _ _).trans ((add_le_add t2 r5).trans ?_)
    norm_num
    linarith

/-- C149 is violated: with an angular resolution of at most 2 radians, in the goal position but with a heading that is 1
radian to the left of the goal heading, the table is accessed with a negative index. -/
theorem C149_negative_index (lm : Libm) (h : NonHolo) (hr : 0 < h.spatialResolution)
    (ha : (2 ^ 28)⁻¹ ≤ h.angularResolution) (ha2 : h.angularResolution ≤ 2) (hx : h.numSpatialX % 2 = 1)
    (hy : h.numSpatialY % 2 = 1) (hxi : h.numSpatialX ≤ 2 ^ 30) (hyi : h.numSpatialY ≤ 2 ^ 30) (hlm : lm.Accurate)
    (table : ℤ → ℤ → ℤ → ℝ) (p : Pt) : h.getHeuristicValueF lm table ⟨p, 0⟩ ⟨p, 1⟩ = none := by
  have hb := mPi_bounds
  have w0 : Wrapped 0 := ⟨fl_zero 53, by rw [abs_zero]; linarith⟩
  have f1 : IsFlt 53 (1 : ℝ) := by have := fl_int (p := 53) h53 (n := 1) (by norm_num); simpa [IsFlt] using this
  have w1 : Wrapped 1 := ⟨f1, by rw [abs_one]; linarith⟩
  have hfar : far ⟨p, 0⟩ ⟨p, 1⟩ = 0 := by unfold far; simp
  have hf : Fits h ⟨p, 0⟩ ⟨p, 1⟩ := ⟨hr, ha, hxi, hyi, by rw [hfar]; positivity, w0, w1⟩
  have hpos : 0 < h.angularResolution := lt_of_lt_of_le (by positivity) ha
  obtain ⟨d, d1, d2, -⟩ := C149_area lm hlm h _ _ hf hx hy
  obtain ⟨d', d1', d3⟩ := C149_defined_iff lm hlm h _ _ hf table
  rw [d1] at d1'
  cases d1'
  have hah : ahead ⟨p, 0⟩ ⟨p, 1⟩ = 0 := by unfold ahead; simp
  have has : aside ⟨p, 0⟩ ⟨p, 1⟩ = 0 := by unfold aside; simp
  have hin := d2 (by rw [hah, abs_zero]; positivity) (by rw [has, abs_zero]; positivity)
  rw [← Option.not_isSome_iff_eq_none, d3]
  rintro (h1 | h1)
  · exact hin h1
  have ht : d.theta = -1 := by
    unfold PoseR.subF PoseR.mkF at d1
    simp only [Option.bind_eq_bind, Option.pure_def, Option.bind_eq_some_iff, Option.some.injEq] at d1
    obtain ⟨o, ⟨t, ht, rfl⟩, t', ht', rfl⟩ := d1
    have e : fl64 (0 - 1) = -1 := by rw [zero_sub]; exact isFlt_neg f1
    rw [e] at ht
    have e2 : wrapThetaF (-1) = some (-1) := by
      unfold wrapThetaF
      rw [wrapDownF_le (by linarith), Option.bind_some, wrapUpF_ge (by linarith)]
    rw [e2] at ht
    cases ht
    rw [e2] at ht'
    exact (Option.some.inj ht').symm
  rw [ht] at h1
  have e : fl64 (-(1 / 2)) = -(1 / 2) := by
    show fl 53 (-(1 / 2)) = _
    exact fl_repr (p := 53) (n := -1) (e := -1) h53 (by rw [zpow_neg_one]; push_cast; ring) (by norm_num)
  have : fl64 (-1 / h.angularResolution) ≤ fl64 (-(1 / 2)) := by
    refine fl_mono 53 h53 ?_
    rw [div_le_iff₀ hpos]; linarith
  rw [e] at this
  linarith

/-! ## An example: a table of 11 by 11 cells of 1 m with angular steps of 1/8 -/

private noncomputable def exHolo : NonHolo := ⟨1, 1 / 8, 2, 2, 1, 1, 11, 11⟩

private theorem wrapped_half {x : ℝ} (n : ℤ) (hx : x = n / 2) (hn : |n| ≤ 6) : Wrapped x := by
  refine ⟨fl64_half n hx (hn.trans (by norm_num)), ?_⟩
  have h1 : |(n : ℝ)| ≤ 6 := by exact_mod_cast hn
  have h2 := mPi_bounds.1
  rw [hx, abs_div, abs_two]
  linarith

private theorem exHolo_fits (x y : ℝ) (hx : |x| ≤ 100) (hy : |y| ≤ 100) :
    Fits exHolo ⟨⟨x, y⟩, 1 / 2⟩ ⟨⟨0, 0⟩, 0⟩ := by
  refine ⟨by norm_num [exHolo], by norm_num [exHolo], by norm_num [exHolo], by norm_num [exHolo], ?_,
    wrapped_half 1 (by norm_num) (by norm_num), wrapped_half 0 (by norm_num) (by norm_num)⟩
  unfold far
  refine Real.sqrt_le_iff.2 ⟨by norm_num [exHolo], ?_⟩
  have h1 := sq_le_sq' (abs_le.1 hx).1 (abs_le.1 hx).2
  have h2 := sq_le_sq' (abs_le.1 hy).1 (abs_le.1 hy).2
  norm_num [exHolo] at h1 h2 ⊢
  linarith

/-- A goal 3 m ahead and 1 m to the left is in the table and its look-up is defined; one 100 m ahead is not in the table. -/
example (table : ℤ → ℤ → ℤ → ℝ) :
    (∃ delta, PoseR.subF bestLibm ⟨⟨3, 1⟩, 1 / 2⟩ ⟨⟨0, 0⟩, 0⟩ = some delta ∧ ¬ OutsideF exHolo delta ∧
      (exHolo.getHeuristicValueF bestLibm table ⟨⟨3, 1⟩, 1 / 2⟩ ⟨⟨0, 0⟩, 0⟩).isSome) ∧
    ∃ delta, PoseR.subF bestLibm ⟨⟨100, 0⟩, 1 / 2⟩ ⟨⟨0, 0⟩, 0⟩ = some delta ∧ OutsideF exHolo delta := by
  constructor
  · have hf := exHolo_fits 3 1 (by norm_num) (by norm_num)
    obtain ⟨d, d1, d2, -⟩ := C149_area bestLibm bestLibm_accurate exHolo _ _ hf rfl rfl
    refine ⟨d, d1, d2 (by norm_num [ahead, exHolo]) (by norm_num [aside, exHolo]), ?_⟩
    refine C149_lookup_partial bestLibm bestLibm_accurate exHolo _ _ hf table d d1 ?_
    unfold PoseR.subF PoseR.mkF at d1
    simp only [Option.bind_eq_bind, Option.pure_def, Option.bind_eq_some_iff, Option.some.injEq] at d1
    obtain ⟨o, ⟨t, ht, rfl⟩, t', ht', rfl⟩ := d1
    have hb := mPi_bounds
    have e : fl64 (1 / 2 - 0) = 1 / 2 := by rw [sub_zero]; exact fl64_half 1 (by norm_num) (by norm_num)
    have e2 : wrapThetaF (1 / 2) = some (1 / 2) := by
      unfold wrapThetaF
      rw [wrapDownF_le (by linarith), Option.bind_some, wrapUpF_ge (by linarith)]
    rw [e, e2] at ht
    cases ht
    rw [e2] at ht'
    cases ht'
    norm_num
  · have hf := exHolo_fits 100 0 (by norm_num) (by norm_num)
    obtain ⟨d, d1, -, d3⟩ := C149_area bestLibm bestLibm_accurate exHolo _ _ hf rfl rfl
    exact ⟨d, d1, d3 (.inl (by norm_num [ahead, exHolo]))⟩

end NonHolo
end PathPlanning
