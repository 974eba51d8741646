import Verif.Model.Path
import Verif.Lemmas.Pose
import Mathlib.Tactic.FieldSimp
import Mathlib.Tactic.Ring
import Mathlib.Tactic.NormNum
import Mathlib.Tactic.LinearCombination
import Mathlib.Tactic.Positivity
import Mathlib.Analysis.SpecialFunctions.Trigonometric.Deriv

/-!
# C45, C46 (straight and constant-steer paths), C52 (bicycle model)
-/

namespace PathPlanning
open Real Spec

/-! ## Straight paths -/

theorem lerp_zero (a b : Pt) : Pt.lerp a b 0 = a := by ext <;> simp [Pt.lerp]
theorem lerp_one (a b : Pt) : Pt.lerp a b 1 = b := by ext <;> simp [Pt.lerp]

/-- C45 for R2. -/
theorem C45_r2 (p : PathR2) : p.interpolate 0 = p.init ∧ p.interpolate 1 = p.final :=
  ⟨lerp_zero _ _, lerp_one _ _⟩

/-- C45 for R2: a connection joins the two points and its length is their distance; each of its
states lies on the segment at the proportional distance from the start. -/
theorem C45_r2_connect (a b : Pt) (r : ℝ) (hr : 0 ≤ r) :
    (PathR2.connect a b).init = a ∧ (PathR2.connect a b).final = b ∧
    (PathR2.connect a b).length = √((b.x - a.x) ^ 2 + (b.y - a.y) ^ 2) ∧
    ((PathR2.connect a b).interpolate r - a).norm = r * (PathR2.connect a b).length := by
  refine ⟨rfl, rfl, rfl, ?_⟩
  simp only [PathR2.connect, PathR2.interpolate, Pt.lerp, Pt.norm, Pt.sub_x, Pt.sub_y]
  rw [show ((1 - r) * a.x + r * b.x - a.x) ^ 2 + ((1 - r) * a.y + r * b.y - a.y) ^ 2 =
    r ^ 2 * ((b.x - a.x) ^ 2 + (b.y - a.y) ^ 2) by ring, Real.sqrt_mul (sq_nonneg r), Real.sqrt_sq hr]

/-- C46 for R2: truncation keeps the prefix of the path. -/
theorem C46_r2 (p : PathR2) (r s : ℝ) :
    (p.truncate r).init = p.init ∧ (p.truncate r).length = r * p.length ∧
    (p.truncate r).interpolate s = p.interpolate (r * s) ∧
    (p.truncate r).final = (p.truncate r).interpolate 1 := by
  refine ⟨rfl, mul_comm _ _, ?_, (C45_r2 (p.truncate r)).2.symm⟩
  ext <;> simp [PathR2.truncate, PathR2.interpolate, Pt.lerp] <;> ring

/-- C45 for SE2. -/
theorem C45_se2 (p : PathSE2) : p.interpolate 0 = p.init ∧ p.interpolate 1 = p.final := by
  constructor <;> simp [PathSE2.interpolate, lerp_zero, lerp_one]

/-- C46 for SE2. -/
theorem C46_se2 (p : PathSE2) (r s : ℝ) :
    (p.truncate r).init = p.init ∧ (p.truncate r).length = r * p.length ∧
    (p.truncate r).interpolate s = p.interpolate (r * s) ∧
    (p.truncate r).final = (p.truncate r).interpolate 1 := by
  refine ⟨rfl, mul_comm _ _, ?_, (C45_se2 (p.truncate r)).2.symm⟩
  simp only [PathSE2.truncate, PathSE2.interpolate, Pt.lerp, PoseR.mk.injEq, Pt.mk.injEq]
  refine ⟨⟨by ring, by ring⟩, by ring⟩

/-- The straight interpolation of headings is not the short way round: between the headings 3 and -3
(0.28 rad apart) the middle heading is 0. -/
theorem C45_se2_long_way_round :
    ((PathSE2.connect ⟨⟨0, 0⟩, 3⟩ ⟨⟨1, 0⟩, -3⟩).interpolate (1 / 2)).theta = 0 := by
  simp [PathSE2.connect, PathSE2.interpolate]; norm_num

example : ((PathR2.connect ⟨0, 0⟩ ⟨6, 8⟩).truncate (1 / 2)).final = ⟨3, 4⟩ := by
  ext <;> simp [PathR2.connect, PathR2.truncate, PathR2.interpolate, Pt.lerp] <;> norm_num

/-! ## Constant-steer motions -/

theorem cos_beta_pos (m : Bicycle) (s : ℝ) : 0 < cos (m.beta s) := cos_arctan_pos _

private theorem constantSteer_zero (m : Bicycle) (p : PoseR) (s : ℝ) (dir : Direction) :
    m.constantSteer p s 0 dir = p := by
  unfold Bicycle.constantSteer
  simp

/-- C45 for constant-steer paths. -/
theorem C45_constant_steer (m : Bicycle) (p : PoseR) (s l : ℝ) (dir : Direction) :
    (PathSteer.new m p s l dir).interpolate 0 = p ∧ (PathSteer.new m p s l dir).init = p ∧
    (PathSteer.new m p s l dir).interpolate 1 = (PathSteer.new m p s l dir).final := by
  refine ⟨?_, rfl, rfl⟩
  show m.constantSteer p s (l * 0) dir = p
  rw [mul_zero, constantSteer_zero]

/-- C46 for constant-steer paths. -/
theorem C46_constant_steer (p : PathSteer) (r s : ℝ) :
    (p.truncate r).init = p.init ∧ (p.truncate r).length = r * p.length ∧
    (p.truncate r).interpolate s = p.interpolate (r * s) ∧
    (p.truncate r).final = (p.truncate r).interpolate 1 := by
  refine ⟨rfl, mul_comm _ _, ?_, ?_⟩
  · simp only [PathSteer.truncate, PathSteer.interpolate, mul_assoc]
  · simp only [PathSteer.truncate, PathSteer.interpolate, mul_one]

/-- C52. Driving `d₁` and then `d₂` with the same steering is driving `d₁ + d₂`. -/
theorem C52_flow (m : Bicycle) (p : PoseR) (s d₁ d₂ : ℝ) (dir : Direction) :
    m.constantSteer (m.constantSteer p s d₁ dir) s d₂ dir = m.constantSteer p s (d₁ + d₂) dir := by
  have hc := cos_beta_pos m s
  have hd : ∀ a b : ℝ, (if dir = .backward then -(a + b) else a + b) / cos (m.beta s) =
      (if dir = .backward then -a else a) / cos (m.beta s) +
      (if dir = .backward then -b else b) / cos (m.beta s) := by
    intro a b; split <;> ring
  unfold Bicycle.constantSteer
  dsimp only
  rw [hd]
  by_cases h : |m.dThetaDdist s| > 1e-9
  · simp only [h, if_true]
    rw [PoseR.mk.injEq, Pt.mk.injEq, add_mul, ← add_assoc p.theta]
    refine ⟨⟨by ring, by ring⟩, rfl⟩
  · simp only [h, if_false]
    rw [PoseR.mk.injEq, Pt.mk.injEq]
    exact ⟨⟨by ring, by ring⟩, rfl⟩

/-- C52. Driving backward `d` is driving forward `-d`; driving forward `d` and then backward `d`
returns to the start. -/
theorem C52_reverse (m : Bicycle) (p : PoseR) (s d : ℝ) :
    m.constantSteer p s d .backward = m.constantSteer p s (-d) .forward ∧
    m.constantSteer (m.constantSteer p s d .forward) s d .backward = p := by
  have h : ∀ q, m.constantSteer q s d .backward = m.constantSteer q s (-d) .forward := by
    intro q; unfold Bicycle.constantSteer; simp
  refine ⟨h p, ?_⟩
  rw [h, C52_flow, add_neg_cancel, constantSteer_zero]

/-- The middle of the rear axle. -/
noncomputable def rearAxle (m : Bicycle) (p : PoseR) : Pt :=
  ⟨p.position.x - m.rearToCenter * cos p.theta, p.position.y - m.rearToCenter * sin p.theta⟩

private theorem tan_beta (m : Bicycle) (s : ℝ) :
    sin (m.beta s) = m.rearToCenter * tan s / m.wheelbase * cos (m.beta s) := by
  have := tan_arctan (m.rearToCenter * tan s / m.wheelbase)
  rw [tan_eq_sin_div_cos, div_eq_iff (cos_arctan_pos _).ne'] at this
  exact this

private theorem turning {m : Bicycle} {s : ℝ} (h : |m.dThetaDdist s| > 1e-9) :
    m.wheelbase ≠ 0 ∧ tan s ≠ 0 := by
  constructor
  · intro h0; unfold Bicycle.dThetaDdist at h; rw [h0] at h; norm_num at h
  · intro h0; unfold Bicycle.dThetaDdist at h; rw [h0] at h; norm_num at h

/-- The pose in the turning case, seen from the rear axle: the rear axle moves on the circle of
radius `wheelbase / tan steering`. -/
private theorem turning_pose {m : Bicycle} {s : ℝ} (h : |m.dThetaDdist s| > 1e-9) (p : PoseR) (d : ℝ) :
    let q := m.constantSteer p s d .forward
    let R := m.wheelbase / tan s
    q.theta = p.theta + d / R ∧
    (rearAxle m q).x = (rearAxle m p).x + R * (sin q.theta - sin p.theta) ∧
    (rearAxle m q).y = (rearAxle m p).y - R * (cos q.theta - cos p.theta) := by
  intro q R
  obtain ⟨hL, ht⟩ := turning h
  have hc := (cos_beta_pos m s).ne'
  have hq : q.theta = p.theta + d / R := by
    show (m.constantSteer p s d .forward).theta = _
    unfold Bicycle.constantSteer
    simp only [h, if_true, reduceCtorEq, if_false]
    unfold Bicycle.dThetaDdist
    show _ = p.theta + d / (m.wheelbase / tan s)
    field_simp
  have hqx : q.position.x = p.position.x +
      1 / m.dThetaDdist s * (sin (m.beta s + q.theta) - sin (m.beta s + p.theta)) := by
    show (m.constantSteer p s d .forward).position.x = _ + _ * (sin (_ + (m.constantSteer p s d .forward).theta) - _)
    unfold Bicycle.constantSteer
    simp only [h, if_true, reduceCtorEq, if_false]
  have hqy : q.position.y = p.position.y +
      1 / m.dThetaDdist s * (-cos (m.beta s + q.theta) + cos (m.beta s + p.theta)) := by
    show (m.constantSteer p s d .forward).position.y = _ + _ * (-cos (_ + (m.constantSteer p s d .forward).theta) + _)
    unfold Bicycle.constantSteer
    simp only [h, if_true, reduceCtorEq, if_false]
  have key : ∀ u : ℝ, 1 / m.dThetaDdist s * sin (m.beta s + u) =
      m.rearToCenter * cos u + R * sin u := by
    intro u
    rw [sin_add, tan_beta]
    unfold Bicycle.dThetaDdist
    show _ = _ + m.wheelbase / tan s * _
    field_simp
  have key' : ∀ u : ℝ, 1 / m.dThetaDdist s * cos (m.beta s + u) =
      R * cos u - m.rearToCenter * sin u := by
    intro u
    rw [cos_add, tan_beta]
    unfold Bicycle.dThetaDdist
    show _ = m.wheelbase / tan s * _ - _
    field_simp
  refine ⟨hq, ?_, ?_⟩
  · simp only [rearAxle]
    rw [hqx, mul_sub, key, key]; ring
  · simp only [rearAxle]
    rw [hqy, mul_add, mul_neg, key', key']; ring

/-- C52. The rear axle follows the kinematic bicycle equations exactly: driven forward with constant
steering `s`, it moves at unit speed in the direction of the heading (so that `dist` is its arc
length and it does not slip sideways), and the heading changes at rate `tan s / wheelbase`. This is
for steering angles that the code treats as turning, or exactly straight. -/
theorem C52_rear_axle (m : Bicycle) (p : PoseR) (s d : ℝ)
    (hs : |m.dThetaDdist s| > 1e-9 ∨ tan s = 0) :
    HasDerivAt (fun t => (rearAxle m (m.constantSteer p s t .forward)).x)
      (cos (m.constantSteer p s d .forward).theta) d ∧
    HasDerivAt (fun t => (rearAxle m (m.constantSteer p s t .forward)).y)
      (sin (m.constantSteer p s d .forward).theta) d ∧
    HasDerivAt (fun t => (m.constantSteer p s t .forward).theta) (tan s / m.wheelbase) d := by
  rcases hs with h | h
  · obtain ⟨hL, ht⟩ := turning h
    have hR : m.wheelbase / tan s ≠ 0 := div_ne_zero hL ht
    have hth : ∀ t, (m.constantSteer p s t .forward).theta = p.theta + t / (m.wheelbase / tan s) :=
      fun t => (turning_pose h p t).1
    have hD : HasDerivAt (fun t => (m.constantSteer p s t .forward).theta) (tan s / m.wheelbase) d := by
      rw [show (fun t => (m.constantSteer p s t .forward).theta) =
        fun t => p.theta + t / (m.wheelbase / tan s) from funext hth]
      have h1 := ((hasDerivAt_id d).div_const (m.wheelbase / tan s)).const_add p.theta
      rw [show tan s / m.wheelbase = 1 / (m.wheelbase / tan s) by field_simp]
      exact h1
    refine ⟨?_, ?_, hD⟩
    · rw [show (fun t => (rearAxle m (m.constantSteer p s t .forward)).x) = fun t =>
        (rearAxle m p).x + m.wheelbase / tan s * (sin (m.constantSteer p s t .forward).theta - sin p.theta)
        from funext fun t => (turning_pose h p t).2.1]
      have h1 := ((hD.sin.sub_const (sin p.theta)).const_mul (m.wheelbase / tan s)).const_add (rearAxle m p).x
      refine h1.congr_deriv ?_
      rw [mul_left_comm, show m.wheelbase / tan s * (tan s / m.wheelbase) = 1 by field_simp, mul_one]
    · rw [show (fun t => (rearAxle m (m.constantSteer p s t .forward)).y) = fun t =>
        (rearAxle m p).y - m.wheelbase / tan s * (cos (m.constantSteer p s t .forward).theta - cos p.theta)
        from funext fun t => (turning_pose h p t).2.2]
      have h1 := ((hD.cos.sub_const (cos p.theta)).const_mul (m.wheelbase / tan s)).const_sub (rearAxle m p).y
      refine h1.congr_deriv ?_
      rw [neg_mul, mul_neg, neg_neg, mul_left_comm,
        show m.wheelbase / tan s * (tan s / m.wheelbase) = 1 by field_simp, mul_one]
  · have hq : ∀ t, m.constantSteer p s t .forward =
        ⟨⟨p.position.x + t * cos p.theta, p.position.y + t * sin p.theta⟩, p.theta⟩ := by
      intro t
      unfold Bicycle.constantSteer Bicycle.dThetaDdist Bicycle.beta
      rw [h, if_neg (by norm_num)]
      simp [show Direction.forward ≠ Direction.backward by decide]
    simp only [hq, rearAxle, h, zero_div]
    refine ⟨?_, ?_, hasDerivAt_const _ _⟩
    · have h1 := (((hasDerivAt_id d).mul_const (cos p.theta)).const_add p.position.x).sub_const
        (m.rearToCenter * cos p.theta)
      simpa using h1
    · have h1 := (((hasDerivAt_id d).mul_const (sin p.theta)).const_add p.position.y).sub_const
        (m.rearToCenter * sin p.theta)
      simpa using h1

/-- C52. The reference point moves on a circle: its distance to the centre of rotation is constant,
and equal to `1 / |DthetaDdist|`. -/
theorem C52_circle (m : Bicycle) (p : PoseR) (s d : ℝ) (h : |m.dThetaDdist s| > 1e-9) :
    ∃ c : Pt, ∀ t : ℝ, (m.constantSteer p s t .forward |>.position.x) - c.x =
        1 / m.dThetaDdist s * sin (m.beta s + (m.constantSteer p s t .forward).theta) ∧
      (m.constantSteer p s t .forward |>.position.y) - c.y =
        -(1 / m.dThetaDdist s * cos (m.beta s + (m.constantSteer p s t .forward).theta)) ∧
      ((m.constantSteer p s t .forward).position - c).norm = 1 / |m.dThetaDdist s| := by
  refine ⟨⟨p.position.x - 1 / m.dThetaDdist s * sin (m.beta s + p.theta),
    p.position.y + 1 / m.dThetaDdist s * cos (m.beta s + p.theta)⟩, fun t => ?_⟩
  have h1 : (m.constantSteer p s t .forward |>.position.x) -
      (p.position.x - 1 / m.dThetaDdist s * sin (m.beta s + p.theta)) =
        1 / m.dThetaDdist s * sin (m.beta s + (m.constantSteer p s t .forward).theta) := by
    unfold Bicycle.constantSteer
    simp only [h, if_true, reduceCtorEq, if_false]
    ring
  have h2 : (m.constantSteer p s t .forward |>.position.y) -
      (p.position.y + 1 / m.dThetaDdist s * cos (m.beta s + p.theta)) =
        -(1 / m.dThetaDdist s * cos (m.beta s + (m.constantSteer p s t .forward).theta)) := by
    unfold Bicycle.constantSteer
    simp only [h, if_true, reduceCtorEq, if_false]
    ring
  refine ⟨h1, h2, ?_⟩
  simp only [Pt.norm, Pt.sub_x, Pt.sub_y]
  rw [h1, h2]
  have h3 := Real.sin_sq_add_cos_sq (m.beta s + (m.constantSteer p s t .forward).theta)
  rw [show ∀ a b c : ℝ, (a * b) ^ 2 + (-(a * c)) ^ 2 = a ^ 2 * (b ^ 2 + c ^ 2) from fun a b c => by ring,
    h3, mul_one, Real.sqrt_sq_eq_abs, abs_div, abs_one]

/-- C52. The steering angle returned for a turning radius larger than the distance between the rear
axle and the reference point makes the reference point turn with exactly that radius. -/
theorem C52_radius (m : Bicycle) (r : ℝ) (hL : 0 < m.wheelbase) (h0 : 0 ≤ m.rearToCenter)
    (hr : m.rearToCenter < r) :
    1 / m.dThetaDdist (m.steeringFromRadius r) = r ∧
    0 < m.steeringFromRadius r ∧ m.steeringFromRadius r < π / 2 := by
  have hpos : 0 < r ^ 2 - m.rearToCenter ^ 2 := by nlinarith
  have hs : 0 < √(r ^ 2 - m.rearToCenter ^ 2) := Real.sqrt_pos.mpr hpos
  have hrr : 0 < r := lt_of_le_of_lt h0 hr
  have hst : m.steeringFromRadius r = arctan (m.wheelbase / √(r ^ 2 - m.rearToCenter ^ 2)) := by
    unfold Bicycle.steeringFromRadius
    rw [if_neg (not_lt.mpr hr.le)]
    dsimp only
    rw [if_neg hs.ne']
  refine ⟨?_, ?_, ?_⟩
  · unfold Bicycle.dThetaDdist Bicycle.beta
    rw [hst, tan_arctan, cos_arctan]
    have hsq : √(r ^ 2 - m.rearToCenter ^ 2) ^ 2 = r ^ 2 - m.rearToCenter ^ 2 := Real.sq_sqrt hpos.le
    obtain ⟨w, hw⟩ : ∃ w, w = √(r ^ 2 - m.rearToCenter ^ 2) := ⟨_, rfl⟩
    rw [← hw] at hs hsq ⊢
    have h1 : m.rearToCenter * (m.wheelbase / w) / m.wheelbase = m.rearToCenter / w := by
      field_simp
    rw [h1]
    have h2 : 1 + (m.rearToCenter / w) ^ 2 = (r / w) ^ 2 := by
      rw [div_pow, div_pow, hsq]
      field_simp
      ring
    rw [h2, Real.sqrt_sq (div_pos hrr hs).le]
    field_simp
  · rw [hst]; exact arctan_pos.mpr (div_pos hL hs)
  · rw [hst]; exact arctan_lt_pi_div_two _

/-- C52. Below that distance the steering angle saturates at π/2. -/
theorem C52_radius_too_small (m : Bicycle) (r : ℝ) (h0 : 0 ≤ m.rearToCenter) (hr : r ≤ m.rearToCenter)
    (h : 0 ≤ r) : m.steeringFromRadius r = π / 2 := by
  unfold Bicycle.steeringFromRadius
  rcases hr.lt_or_eq with h1 | h1
  · rw [if_pos h1]
  · rw [if_neg (by rw [h1]; exact lt_irrefl _)]
    dsimp only
    rw [h1, sub_self, Real.sqrt_zero, if_pos rfl]

/-- The hypotheses can be met: a wheelbase of 2, steering with tangent 1. -/
example : |(⟨2, 0⟩ : Bicycle).dThetaDdist (π / 4)| > 1e-9 := by
  unfold Bicycle.dThetaDdist Bicycle.beta
  simp [tan_pi_div_four]; norm_num

end PathPlanning
