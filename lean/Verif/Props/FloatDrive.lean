import Verif.Model.FloatDrive
import Verif.Lemmas.ReedsSheppPath
import Verif.Props.FloatReedsShepp
import Verif.Props.FloatPose
import Verif.Props.UnitSpeed
import Verif.Props.FloatValidator

/-!
# C136: poses and Reeds-Shepp paths with `double` and a mathematical library of limited accuracy
-/

namespace PathPlanning
open Flt RS Spec

/-- The library is accurate: for every `double`, `sin` and `cos` are right up to one unit in the last place. -/
def Libm.Accurate (lm : Libm) : Prop :=
  ∀ x, IsFlt 53 x → |lm.sin x - Real.sin x| ≤ (2 ^ 52)⁻¹ * |Real.sin x| ∧
    |lm.cos x - Real.cos x| ≤ (2 ^ 52)⁻¹ * |Real.cos x|

/-- The heading of a `Pose2d`: a `double` in [-M_PI, M_PI] (see C121). -/
def Wrapped (t : ℝ) : Prop := IsFlt 53 t ∧ |t| ≤ mPi

/-- Two poses are close: positions up to `E` in each coordinate, headings up to `δ` and whole turns. -/
def Close (δ E : ℝ) (p q : PoseR) : Prop :=
  |p.position.x - q.position.x| ≤ E ∧ |p.position.y - q.position.y| ≤ E ∧
    ∃ k : ℤ, |p.theta - (q.theta + k * (2 * Real.pi))| ≤ δ

/-- No motion turns by more than 7 radians (more than a full turn; the words turn by at most 2π). -/
def ShortTurns (ms : List Motion) : Prop := ∀ m ∈ ms, m.steer ≠ .straight → m.length.getD 0 ≤ 7

private theorem h53 : 1 ≤ 53 := by norm_num

/-- The product of two perturbed numbers, rounded. -/
theorem fl64_prod_err {x y x' y' X Y i j : ℝ} (hx : |x| ≤ X) (hy : |y| ≤ Y) (i0 : 0 ≤ i) (i1 : i ≤ 16) (j0 : 0 ≤ j)
    (j1 : j ≤ 16) (hx' : |x' - x| ≤ i * (2 ^ 53)⁻¹ * X) (hy' : |y' - y| ≤ j * (2 ^ 53)⁻¹ * Y) :
    |fl64 (x' * y') - x * y| ≤ (i + j + 1 + (2 ^ 40)⁻¹) * (2 ^ 53)⁻¹ * (X * Y) := by
  have hX : 0 ≤ X := (abs_nonneg _).trans hx
  have hY : 0 ≤ Y := (abs_nonneg _).trans hy
  have hXY := mul_nonneg hX hY
  obtain ⟨u, hu⟩ : ∃ u : ℝ, u = (2 ^ 53)⁻¹ := ⟨_, rfl⟩
  have hu0 : 0 ≤ u := by rw [hu]; positivity
  have hu1 : u * 1000 ≤ (2 ^ 40)⁻¹ := by rw [hu]; norm_num
  rw [← hu] at hx' hy' ⊢
  have h1 : |y'| ≤ (1 + j * u) * Y := by
    calc |y'| = |(y' - y) + y| := by ring_nf
      _ ≤ |y' - y| + |y| := abs_add_le _ _
      _ ≤ _ := by linarith
  have h2 : |x' * y' - x * y| ≤ (i * u * X) * ((1 + j * u) * Y) + X * (j * u * Y) := by
    rw [show x' * y' - x * y = (x' - x) * y' + x * (y' - y) by ring]
    refine (abs_add_le _ _).trans (add_le_add ?_ ?_)
    · rw [abs_mul]; exact mul_le_mul hx' h1 (abs_nonneg _) (by positivity)
    · rw [abs_mul]; exact mul_le_mul hx hy' (abs_nonneg _) hX
  have h3 : |x'| ≤ (1 + i * u) * X := by
    calc |x'| = |(x' - x) + x| := by ring_nf
      _ ≤ |x' - x| + |x| := abs_add_le _ _
      _ ≤ _ := by linarith
  have h4 : |fl64 (x' * y') - x' * y'| ≤ u * (((1 + i * u) * X) * ((1 + j * u) * Y)) := by
    have := fl_rel 53 (x' * y')
    rw [← hu] at this
    refine this.trans (mul_le_mul_of_nonneg_left ?_ hu0)
    rw [abs_mul]
    exact mul_le_mul h3 h1 (abs_nonneg _) (by positivity)
  calc |fl64 (x' * y') - x * y| = |(fl64 (x' * y') - x' * y') + (x' * y' - x * y)| := by ring_nf
    _ ≤ _ := abs_add_le _ _
    _ ≤ u * (((1 + i * u) * X) * ((1 + j * u) * Y)) + ((i * u * X) * ((1 + j * u) * Y) + X * (j * u * Y)) :=
      add_le_add h4 h2
    _ = (i + j + 1 + (u * (i + j + i * j + u * (i * j)))) * u * (X * Y) := by ring
    _ ≤ _ := by
      refine mul_le_mul_of_nonneg_right (mul_le_mul_of_nonneg_right ?_ hu0) hXY
      have hij : i * j ≤ 16 * 16 := mul_le_mul i1 j1 j0 (by norm_num)
      have hij0 := mul_nonneg i0 j0
      have hu2 : u ≤ 1 := by rw [hu]; norm_num
      have : u * (i * j) ≤ 1 * (i * j) := mul_le_mul_of_nonneg_right hu2 hij0
      have : u * (i + j + i * j + u * (i * j)) ≤ u * 1000 := mul_le_mul_of_nonneg_left (by linarith) hu0
      linarith

/-- The sum of two perturbed numbers, rounded. -/
theorem fl64_sum_err {x y x' y' X Y a b : ℝ} (hx : |x| ≤ X) (hy : |y| ≤ Y) (hx' : |x' - x| ≤ a)
    (hy' : |y' - y| ≤ b) : |fl64 (x' + y') - (x + y)| ≤ a + b + (2 ^ 53)⁻¹ * (X + Y + a + b) := by
  have h1 : |x' + y' - (x + y)| ≤ a + b := by
    rw [show x' + y' - (x + y) = (x' - x) + (y' - y) by ring]
    exact (abs_add_le _ _).trans (add_le_add hx' hy')
  have h2 : |x' + y'| ≤ X + Y + a + b := by
    calc |x' + y'| = |(x' + y' - (x + y)) + (x + y)| := by ring_nf
      _ ≤ |x' + y' - (x + y)| + |x + y| := abs_add_le _ _
      _ ≤ (a + b) + (|x| + |y|) := add_le_add h1 (abs_add_le _ _)
      _ ≤ _ := by linarith
  have h3 := fl_rel 53 (x' + y')
  have h4 : (2 ^ 53)⁻¹ * |x' + y'| ≤ (2 ^ 53)⁻¹ * (X + Y + a + b) := mul_le_mul_of_nonneg_left h2 (by positivity)
  calc |fl64 (x' + y') - (x + y)| = |(fl64 (x' + y') - (x' + y')) + (x' + y' - (x + y))| := by ring_nf
    _ ≤ |fl64 (x' + y') - (x' + y')| + |x' + y' - (x + y)| := abs_add_le _ _
    _ ≤ (2 ^ 53)⁻¹ * (X + Y + a + b) + (a + b) := add_le_add (h3.trans h4) h1
    _ = _ := by ring

private theorem trig_err {lm : Libm} (h : lm.Accurate) {t : ℝ} (ht : IsFlt 53 t) :
    |lm.sin t - Real.sin t| ≤ 2 * (2 ^ 53)⁻¹ * |Real.sin t| ∧ |lm.cos t - Real.cos t| ≤ 2 * (2 ^ 53)⁻¹ * |Real.cos t| := by
  rw [show (2 : ℝ) * (2 ^ 53)⁻¹ = (2 ^ 52)⁻¹ by norm_num]
  exact h t ht

/-- The rotation of a perturbed vector. -/
theorem rotateF_err {lm : Libm} (h : lm.Accurate) {t : ℝ} (ht : IsFlt 53 t) {v v' : Pt} {W i : ℝ} (i0 : 0 ≤ i) (i1 : i ≤ 8)
    (hx : |v.x| ≤ W) (hy : |v.y| ≤ W) (hx' : |v'.x - v.x| ≤ i * (2 ^ 53)⁻¹ * W) (hy' : |v'.y - v.y| ≤ i * (2 ^ 53)⁻¹ * W) :
    |(PoseR.rotateF lm t v').x - (PoseR.rotate t v).x| ≤ (2 * i + 9) * (2 ^ 53)⁻¹ * W ∧
    |(PoseR.rotateF lm t v').y - (PoseR.rotate t v).y| ≤ (2 * i + 9) * (2 ^ 53)⁻¹ * W := by
  have hW : 0 ≤ W := (abs_nonneg _).trans hx
  obtain ⟨hs, hc⟩ := trig_err h ht
  have hs1 : |Real.sin t| ≤ 1 := Real.abs_sin_le_one t
  have hc1 : |Real.cos t| ≤ 1 := Real.abs_cos_le_one t
  have hs2 : |lm.sin t - Real.sin t| ≤ 2 * (2 ^ 53)⁻¹ * 1 :=
    hs.trans (mul_le_mul_of_nonneg_left hs1 (by positivity))
  have hc2 : |lm.cos t - Real.cos t| ≤ 2 * (2 ^ 53)⁻¹ * 1 :=
    hc.trans (mul_le_mul_of_nonneg_left hc1 (by positivity))
  have hn1 : |-Real.sin t| ≤ 1 := by rwa [abs_neg]
  have hn2 : |-lm.sin t - -Real.sin t| ≤ 2 * (2 ^ 53)⁻¹ * 1 := by
    rw [show -lm.sin t - -Real.sin t = -(lm.sin t - Real.sin t) by ring, abs_neg]; exact hs2
  have two : (0 : ℝ) ≤ 2 := by norm_num
  have two' : (2 : ℝ) ≤ 16 := by norm_num
  have i2 : i ≤ 16 := by linarith
  have mul_le : ∀ {a b : ℝ}, |a| ≤ 1 → |b| ≤ W → |a * b| ≤ W := by
    intro a b ha hb
    rw [abs_mul]
    calc |a| * |b| ≤ 1 * W := mul_le_mul ha hb (abs_nonneg _) (by norm_num)
      _ = W := one_mul W
  have fin : ∀ z : ℝ, z ≤ (2 + i + 1 + (2 ^ 40)⁻¹) * (2 ^ 53)⁻¹ * (1 * W) + (2 + i + 1 + (2 ^ 40)⁻¹) * (2 ^ 53)⁻¹ * (1 * W) +
      (2 ^ 53)⁻¹ * (W + W + (2 + i + 1 + (2 ^ 40)⁻¹) * (2 ^ 53)⁻¹ * (1 * W) + (2 + i + 1 + (2 ^ 40)⁻¹) * (2 ^ 53)⁻¹ * (1 * W)) →
      z ≤ (2 * i + 9) * (2 ^ 53)⁻¹ * W := by
    intro z hz
    refine hz.trans ?_
    have : i * W ≤ 8 * W := mul_le_mul_of_nonneg_right i1 hW
    ring_nf
    norm_num
    linarith
  have p1 := fl64_prod_err hc1 hx two two' i0 i2 hc2 hx'
  have p2 := fl64_prod_err hn1 hy two two' i0 i2 hn2 hy'
  have p3 := fl64_prod_err hs1 hx two two' i0 i2 hs2 hx'
  have p4 := fl64_prod_err hc1 hy two two' i0 i2 hc2 hy'
  constructor
  · have := fl64_sum_err (mul_le hc1 hx) (mul_le hn1 hy) p1 p2
    unfold PoseR.rotateF PoseR.rotate
    dsimp only
    rw [show Real.cos t * v.x - Real.sin t * v.y = Real.cos t * v.x + -Real.sin t * v.y by ring]
    exact fin _ this
  · exact fin _ (fl64_sum_err (mul_le hs1 hx) (mul_le hc1 hy) p3 p4)

/-- `M_PI` and π. -/
theorem mPi_err_pi : |mPi - Real.pi| ≤ 4 * (2 ^ 53)⁻¹ := by
  have := fl_rel 53 Real.pi
  rw [abs_of_pos Real.pi_pos] at this
  have h4 := Real.pi_le_four
  change |mPi - Real.pi| ≤ _ at this
  refine this.trans ?_
  rw [mul_comm]
  exact mul_le_mul_of_nonneg_right h4 (by positivity)

/-- Wrapping an angle of at most 7 radians. -/
private theorem wrap_small {t : ℝ} (ht : IsFlt 53 t) (hb : |t| ≤ 7) :
    ∃ r, ∃ k : ℤ, wrapThetaF t = some r ∧ Wrapped r ∧ |r - (t + k * (2 * Real.pi))| ≤ 8 * (2 ^ 53)⁻¹ := by
  obtain ⟨h3, h4⟩ := mPi_bounds
  obtain ⟨k, hk, k1, k2⟩ := C121_wrap_exact_near ht (by linarith)
  obtain ⟨r, -, hr, hrf, -⟩ := C121_wrap_returns_partial ht (hb.trans (by norm_num))
  have hre : r = t + 2 * k * mPi := by rw [hk] at hr; exact (Option.some.inj hr).symm
  obtain ⟨b1, b2⟩ := abs_le.1 hb
  refine ⟨_, k, hk, ⟨by rw [← hre]; exact hrf, abs_le.2 ⟨k1, k2⟩⟩, ?_⟩
  have hk1 : |(k : ℝ)| ≤ 1 := by
    have h1 : (k : ℝ) < 2 := by
      by_contra h
      have : (2 : ℝ) * mPi ≤ k * mPi := mul_le_mul_of_nonneg_right (not_lt.1 h) (by linarith)
      linarith
    have h2 : (-2 : ℝ) < k := by
      by_contra h
      have : (k : ℝ) * mPi ≤ -2 * mPi := mul_le_mul_of_nonneg_right (not_lt.1 h) (by linarith)
      linarith
    have h1' : k < 2 := by exact_mod_cast h1
    have h2' : -2 < k := by exact_mod_cast h2
    rw [← Int.cast_abs]
    have : |k| ≤ 1 := abs_le.2 ⟨by omega, by omega⟩
    exact_mod_cast this
  rw [show t + 2 * k * mPi - (t + k * (2 * Real.pi)) = 2 * (k * (mPi - Real.pi)) by ring, abs_mul, abs_mul, abs_two]
  have := mul_le_mul hk1 mPi_err_pi (abs_nonneg _) zero_le_one
  linarith

private theorem wrap_self {t : ℝ} (h : Wrapped t) : wrapThetaF t = some t := by
  obtain ⟨h1, h2⟩ := abs_le.1 h.2
  unfold wrapThetaF
  rw [wrapDownF_le h2, Option.bind_some, wrapUpF_ge h1]

/-- The heading of the sum of two headings. -/
private theorem heading_sum {s t : ℝ} (hs : Wrapped s) (ht : Wrapped t) :
    ∃ r, ∃ k : ℤ, wrapThetaF (fl64 (s + t)) = some r ∧ Wrapped r ∧ |r - (s + t + k * (2 * Real.pi))| ≤ 15 * (2 ^ 53)⁻¹ := by
  obtain ⟨h3, h4⟩ := mPi_bounds
  have hb : |s + t| ≤ 13 / 2 := (abs_add_le _ _).trans (by linarith [hs.2, ht.2])
  have hr : |fl64 (s + t) - (s + t)| ≤ (2 ^ 53)⁻¹ * (13 / 2) :=
    (fl_rel 53 _).trans (mul_le_mul_of_nonneg_left hb (by positivity))
  have hr' : (2 ^ 53)⁻¹ * (13 / 2) ≤ (1 / 2 : ℝ) := by norm_num
  have hb' : |fl64 (s + t)| ≤ 7 := by
    calc |fl64 (s + t)| = |(fl64 (s + t) - (s + t)) + (s + t)| := by ring_nf
      _ ≤ _ := abs_add_le _ _
      _ ≤ 7 := by linarith
  obtain ⟨r, k, h1, h2, h5⟩ := wrap_small (isFlt_fl 53 h53 (s + t)) hb'
  refine ⟨r, k, h1, h2, ?_⟩
  change |r - (fl64 (s + t) + _)| ≤ _ at h5
  calc |r - (s + t + k * (2 * Real.pi))|
      = |(r - (fl64 (s + t) + k * (2 * Real.pi))) + (fl64 (s + t) - (s + t))| := by ring_nf
    _ ≤ _ := abs_add_le _ _
    _ ≤ _ := by linarith

/-- The sum of a pose and a perturbed pose. -/
private theorem add_err {lm : Libm} (h : lm.Accurate) {p q : PoseR} (hp : Wrapped p.theta) (hq : Wrapped q.theta) {v : Pt} {W i : ℝ}
    (i0 : 0 ≤ i) (i1 : i ≤ 8) (hx : |v.x| ≤ W) (hy : |v.y| ≤ W) (hx' : |q.position.x - v.x| ≤ i * (2 ^ 53)⁻¹ * W)
    (hy' : |q.position.y - v.y| ≤ i * (2 ^ 53)⁻¹ * W) :
    ∃ r, p.addF lm q = some r ∧ Wrapped r.theta ∧
      |r.position.x - (PoseR.rotate p.theta v + p.position).x| ≤ (2 * i + 12) * (2 ^ 53)⁻¹ * W + (2 ^ 53)⁻¹ * |p.position.x| ∧
      |r.position.y - (PoseR.rotate p.theta v + p.position).y| ≤ (2 * i + 12) * (2 ^ 53)⁻¹ * W + (2 ^ 53)⁻¹ * |p.position.y| ∧
      ∃ k : ℤ, |r.theta - (p.theta + q.theta + k * (2 * Real.pi))| ≤ 15 * (2 ^ 53)⁻¹ := by
  have hW : 0 ≤ W := (abs_nonneg _).trans hx
  obtain ⟨t, k, w1, w2, w3⟩ := heading_sum hp hq
  obtain ⟨r1, r2⟩ := rotateF_err h hp.1 i0 i1 hx hy hx' hy'
  have hs1 : |Real.sin p.theta| ≤ 1 := Real.abs_sin_le_one _
  have hc1 : |Real.cos p.theta| ≤ 1 := Real.abs_cos_le_one _
  have mul_le : ∀ {a b : ℝ}, |a| ≤ 1 → |b| ≤ W → |a * b| ≤ W := by
    intro a b ha hb
    rw [abs_mul]
    calc |a| * |b| ≤ 1 * W := mul_le_mul ha hb (abs_nonneg _) (by norm_num)
      _ = W := one_mul W
  have m1 : |(PoseR.rotate p.theta v).x| ≤ 2 * W := by
    show |Real.cos p.theta * v.x - Real.sin p.theta * v.y| ≤ _
    refine (abs_sub _ _).trans ?_
    linarith [mul_le hc1 hx, mul_le hs1 hy]
  have m2 : |(PoseR.rotate p.theta v).y| ≤ 2 * W := by
    show |Real.sin p.theta * v.x + Real.cos p.theta * v.y| ≤ _
    refine (abs_add_le _ _).trans ?_
    linarith [mul_le hs1 hx, mul_le hc1 hy]
  have z : ∀ a : ℝ, |a - a| ≤ 0 := fun a => by simp
  have fin : ∀ w P : ℝ, w ≤ (2 * i + 9) * (2 ^ 53)⁻¹ * W + 0 + (2 ^ 53)⁻¹ * (2 * W + P + (2 * i + 9) * (2 ^ 53)⁻¹ * W + 0) →
      w ≤ (2 * i + 12) * (2 ^ 53)⁻¹ * W + (2 ^ 53)⁻¹ * P := by
    intro w P hw
    refine hw.trans ?_
    have : i * W ≤ 8 * W := mul_le_mul_of_nonneg_right i1 hW
    ring_nf
    norm_num
    linarith
  refine ⟨⟨⟨fl64 ((PoseR.rotateF lm p.theta q.position).x + p.position.x),
    fl64 ((PoseR.rotateF lm p.theta q.position).y + p.position.y)⟩, t⟩, ?_, w2, ?_, ?_, k, w3⟩
  · unfold PoseR.addF PoseR.mkF
    rw [w1]
    simp only [Option.bind_eq_bind, Option.bind_some, Option.pure_def, wrap_self w2]
  · exact fin _ _ (fl64_sum_err m1 le_rfl r1 (z p.position.x))
  · exact fin _ _ (fl64_sum_err m2 le_rfl r2 (z p.position.y))

/-- The exact turn, seen from its start. -/
private theorem turn_place {R : ℝ} (hR : 0 < R) (p : PoseR) (phi c : ℝ) (hc : c = 1 ∨ c = -1) :
    arc (c / R) (2 * phi * R) p =
      place p ⟨⟨2 * Real.sin phi * R * Real.cos phi, c * (2 * Real.sin phi * R * Real.sin phi)⟩, c * (2 * phi)⟩ := by
  have hk : c / R ≠ 0 := div_ne_zero (by rcases hc with rfl | rfl <;> norm_num) hR.ne'
  have e : c / R * (2 * phi * R) = c * (2 * phi) := by field_simp
  have hs := Real.sin_sq_add_cos_sq phi
  unfold arc place PoseR.rotate
  rw [if_neg hk, e]
  rcases hc with rfl | rfl
  · simp only [one_mul, one_div, div_inv_eq_mul, PoseR.mk.injEq, and_true]
    ext
    · simp only [Pt.add_x, Real.sin_add, Real.sin_two_mul, Real.cos_two_mul']
      rw [show Real.cos phi ^ 2 = 1 - Real.sin phi ^ 2 by linarith]; ring
    · simp only [Pt.add_y, Real.cos_add, Real.sin_two_mul, Real.cos_two_mul']
      rw [show Real.cos phi ^ 2 = 1 - Real.sin phi ^ 2 by linarith]; ring
  · simp only [PoseR.mk.injEq, and_true, div_div_eq_mul_div, div_neg, div_one, neg_mul, one_mul]
    ext
    · simp only [Pt.add_x, ← sub_eq_add_neg, Real.sin_sub, Real.sin_two_mul, Real.cos_two_mul']
      rw [show Real.cos phi ^ 2 = 1 - Real.sin phi ^ 2 by linarith]; ring
    · simp only [Pt.add_y, ← sub_eq_add_neg, Real.cos_sub, Real.sin_two_mul, Real.cos_two_mul']
      rw [show Real.cos phi ^ 2 = 1 - Real.sin phi ^ 2 by linarith]; ring

private theorem half_flt {a : ℝ} (ha : IsFlt 53 a) : fl64 (a / 2) = a / 2 := by
  obtain ⟨n, h1, h2⟩ := fl_form 53 h53 a
  have h3 : a = n * 2 ^ lastBit 53 a := by rw [← h1]; exact ha.symm
  refine fl_repr h53 (n := n) (e := lastBit 53 a - 1) ?_ h2
  rw [zpow_sub_one₀ (by norm_num)]
  nth_rw 1 [h3]
  ring

private theorem straight_err {lm : Libm} (h : lm.Accurate) {R : ℝ} (hR : 0 < R) {p : PoseR} (hp : Wrapped p.theta)
    (dir : Direction) {a : ℝ} (a0 : 0 ≤ a) :
    ∃ q, PathRS.straightF lm R p dir a = some q ∧ q.theta = p.theta ∧
      |q.position.x - (arc 0 ((if dir = .backward then -1 else 1) * (a * R)) p).position.x| ≤
        27 * (2 ^ 53)⁻¹ * (a * R) + (2 ^ 53)⁻¹ * |p.position.x| ∧
      |q.position.y - (arc 0 ((if dir = .backward then -1 else 1) * (a * R)) p).position.y| ≤
        27 * (2 ^ 53)⁻¹ * (a * R) + (2 ^ 53)⁻¹ * |p.position.y| := by
  obtain ⟨hs, hc⟩ := trig_err h hp.1
  have hs1 : |Real.sin p.theta| ≤ 1 := Real.abs_sin_le_one _
  have hc1 : |Real.cos p.theta| ≤ 1 := Real.abs_cos_le_one _
  have hs2 : |lm.sin p.theta - Real.sin p.theta| ≤ 2 * (2 ^ 53)⁻¹ * 1 :=
    hs.trans (mul_le_mul_of_nonneg_left hs1 (by positivity))
  have hc2 : |lm.cos p.theta - Real.cos p.theta| ≤ 2 * (2 ^ 53)⁻¹ * 1 :=
    hc.trans (mul_le_mul_of_nonneg_left hc1 (by positivity))
  obtain ⟨b, hb⟩ : ∃ b, b = if dir = Direction.backward then -a else a := ⟨_, rfl⟩
  have he : (if dir = Direction.backward then -1 else 1) * (a * R) = b * R := by
    rw [hb]; split <;> ring
  have hD : 0 ≤ a * R := mul_nonneg a0 hR.le
  have hbD : |b * R| ≤ a * R := by
    rw [hb]; split
    · rw [neg_mul, abs_neg, abs_of_nonneg hD]
    · rw [abs_of_nonneg hD]
  rw [he]
  have l1 : |fl64 (b * R) - b * R| ≤ 1 * (2 ^ 53)⁻¹ * (a * R) := by
    rw [one_mul]
    exact (fl_rel 53 _).trans (mul_le_mul_of_nonneg_left hbD (by positivity))
  have p1 := fl64_prod_err hbD hc1 (by norm_num) (by norm_num) (by norm_num) (by norm_num) l1 hc2
  have p2 := fl64_prod_err hbD hs1 (by norm_num) (by norm_num) (by norm_num) (by norm_num) l1 hs2
  have mul_le : ∀ {c : ℝ}, |c| ≤ 1 → |b * R * c| ≤ a * R := by
    intro c hc
    rw [abs_mul]
    calc |b * R| * |c| ≤ (a * R) * 1 := mul_le_mul hbD hc (abs_nonneg _) hD
      _ = _ := mul_one _
  have z : ∀ a : ℝ, |a - a| ≤ 0 := fun a => by simp
  have fin : ∀ w P : ℝ, w ≤ 0 + (1 + 2 + 1 + (2 ^ 40)⁻¹) * (2 ^ 53)⁻¹ * (a * R * 1) +
      (2 ^ 53)⁻¹ * (P + a * R + 0 + (1 + 2 + 1 + (2 ^ 40)⁻¹) * (2 ^ 53)⁻¹ * (a * R * 1)) →
      w ≤ 27 * (2 ^ 53)⁻¹ * (a * R) + (2 ^ 53)⁻¹ * P := by
    intro w P hw
    refine hw.trans ?_
    obtain ⟨D, hDD⟩ : ∃ D, D = a * R := ⟨_, rfl⟩
    rw [← hDD] at hD ⊢
    norm_num
    linarith
  refine ⟨⟨⟨fl64 (p.position.x + fl64 (fl64 (b * R) * lm.cos p.theta)),
    fl64 (p.position.y + fl64 (fl64 (b * R) * lm.sin p.theta))⟩, p.theta⟩, ?_, rfl, ?_, ?_⟩
  · unfold PathRS.straightF PoseR.mkF
    dsimp only
    rw [wrap_self hp, ← hb]
    rfl
  · have := fl64_sum_err (le_refl |p.position.x|) (mul_le hc1) (z p.position.x) p1
    simp only [arc, if_true]
    exact fin _ _ this
  · have := fl64_sum_err (le_refl |p.position.y|) (mul_le hs1) (z p.position.y) p2
    simp only [arc, if_true]
    exact fin _ _ this

private theorem turn_err {lm : Libm} (h : lm.Accurate) {R : ℝ} (hR : 0 < R) {p : PoseR} (hp : Wrapped p.theta)
    (dir : Direction) (steer : Steer) {a : ℝ} (af : IsFlt 53 a) (a0 : 0 ≤ a) (a7 : a ≤ 7) :
    ∃ q, PathRS.turnF lm R p dir steer a = some q ∧ Wrapped q.theta ∧
      |q.position.x - (arc ((if steer = .right then -1 else 1) / R) ((if dir = .backward then -1 else 1) * (a * R)) p).position.x| ≤
        27 * (2 ^ 53)⁻¹ * (a * R) + (2 ^ 53)⁻¹ * |p.position.x| ∧
      |q.position.y - (arc ((if steer = .right then -1 else 1) / R) ((if dir = .backward then -1 else 1) * (a * R)) p).position.y| ≤
        27 * (2 ^ 53)⁻¹ * (a * R) + (2 ^ 53)⁻¹ * |p.position.y| ∧
      ∃ k : ℤ, |q.theta - ((arc ((if steer = .right then -1 else 1) / R)
        ((if dir = .backward then -1 else 1) * (a * R)) p).theta + k * (2 * Real.pi))| ≤ 23 * (2 ^ 53)⁻¹ := by
  obtain ⟨b, hb⟩ : ∃ b, b = if dir = Direction.backward then -a else a := ⟨_, rfl⟩
  have hba : |b| = a := by
    rw [hb]; split
    · rw [abs_neg, abs_of_nonneg a0]
    · rw [abs_of_nonneg a0]
  have hbf : IsFlt 53 b := by
    rw [hb]; split
    · exact isFlt_neg af
    · exact af
  obtain ⟨c, hc⟩ : ∃ c : ℝ, c = if steer = Steer.right then -1 else 1 := ⟨_, rfl⟩
  have hc1 : c = 1 ∨ c = -1 := by rw [hc]; split <;> simp
  have he : (if dir = Direction.backward then -1 else 1) * (a * R) = 2 * (b / 2) * R := by
    rw [hb]; split <;> ring
  rw [← hc, he, turn_place hR p (b / 2) c hc1]
  have hphi : fl64 (b / 2) = b / 2 := half_flt hbf
  obtain ⟨phi, hp2⟩ : ∃ phi, phi = b / 2 := ⟨_, rfl⟩
  rw [← hp2] at hphi ⊢
  obtain ⟨hs, hcs⟩ := trig_err h hphi
  have hs1 : |Real.sin phi| ≤ 1 := Real.abs_sin_le_one _
  have hcos1 : |Real.cos phi| ≤ 1 := Real.abs_cos_le_one _
  have hs2 : |lm.sin phi - Real.sin phi| ≤ 2 * (2 ^ 53)⁻¹ * 1 :=
    hs.trans (mul_le_mul_of_nonneg_left hs1 (by positivity))
  have hc2 : |lm.cos phi - Real.cos phi| ≤ 2 * (2 ^ 53)⁻¹ * 1 :=
    hcs.trans (mul_le_mul_of_nonneg_left hcos1 (by positivity))
  have l1 := fl64_prod_err (x := 2) (x' := 2) (X := 2) (i := 0) (by norm_num) (le_refl |Real.sin phi|) le_rfl (by norm_num)
    (by norm_num) (by norm_num) (by norm_num) hs
  have m1 : |2 * Real.sin phi| ≤ 2 * |Real.sin phi| := by rw [abs_mul, abs_two]
  have l2 := fl64_prod_err (y := R) (y' := R) (Y := R) (j := 0) m1 (by rw [abs_of_pos hR]) (by norm_num) (by norm_num) le_rfl
    (by norm_num) l1 (by simp)
  obtain ⟨W, hW⟩ : ∃ W, W = 2 * |Real.sin phi| * R := ⟨_, rfl⟩
  have hW0 : 0 ≤ W := by rw [hW]; positivity
  have hWD : W ≤ a * R := by
    rw [hW]
    refine mul_le_mul_of_nonneg_right ?_ hR.le
    have := Real.abs_sin_le_abs (x := phi)
    have h2 : |phi| = a / 2 := by rw [hp2, abs_div, abs_two, hba]
    linarith
  have m2 : |2 * Real.sin phi * R| ≤ W := by rw [hW, abs_mul, abs_mul, abs_two, abs_of_pos hR]
  rw [← hW] at l2
  have l3 := fl64_prod_err m2 hcos1 (by norm_num) (by norm_num) (by norm_num) (by norm_num) l2 hc2
  have l4 := fl64_prod_err m2 hs1 (by norm_num) (by norm_num) (by norm_num) (by norm_num) l2 hs2
  have r75 : (0 + 2 + 1 + (2 ^ 40)⁻¹ + 0 + 1 + (2 ^ 40)⁻¹ + 2 + 1 + (2 ^ 40)⁻¹) * (2 ^ 53)⁻¹ * (W * 1) ≤
      15 / 2 * (2 ^ 53)⁻¹ * W := by
    norm_num
    linarith
  have l3 := l3.trans r75
  have l4 := l4.trans r75
  obtain ⟨x', hx'⟩ : ∃ x', x' = fl64 (fl64 (fl64 (2 * lm.sin phi) * R) * lm.cos phi) := ⟨_, rfl⟩
  obtain ⟨y', hy'⟩ : ∃ y', y' = fl64 (fl64 (fl64 (2 * lm.sin phi) * R) * lm.sin phi) := ⟨_, rfl⟩
  have hyf : fl64 y' = y' := by rw [hy']; exact fl_fl 53 h53 _
  have neg_fl : ∀ {y : ℝ}, fl64 y = y → fl64 (y * -1) = -y := by
    intro y hy
    rw [mul_neg_one]
    exact (fl_neg 53 y).trans (congrArg Neg.neg hy)
  have hb7 : |c * b| ≤ 7 := by
    rw [abs_mul, hba]
    rcases hc1 with h | h <;> rw [h] <;> simpa using a7
  have hcbf : IsFlt 53 (c * b) := by
    rcases hc1 with h | h <;> rw [h]
    · rwa [one_mul]
    · rw [neg_one_mul]; exact isFlt_neg hbf
  obtain ⟨t, k1, w1, w2, w3⟩ := wrap_small hcbf hb7
  have mx : |2 * Real.sin phi * R * Real.cos phi| ≤ W := by
    rw [abs_mul]
    calc _ ≤ W * 1 := mul_le_mul m2 hcos1 (abs_nonneg _) hW0
      _ = W := mul_one W
  have my : |c * (2 * Real.sin phi * R * Real.sin phi)| ≤ W := by
    have : |2 * Real.sin phi * R * Real.sin phi| ≤ W := by
      rw [abs_mul]
      calc _ ≤ W * 1 := mul_le_mul m2 hs1 (abs_nonneg _) hW0
        _ = W := mul_one W
    rw [abs_mul]
    rcases hc1 with h | h <;> rw [h] <;> simpa using this
  have ly : |c * y' - c * (2 * Real.sin phi * R * Real.sin phi)| ≤ 15 / 2 * (2 ^ 53)⁻¹ * W := by
    rw [← mul_sub, abs_mul, hy']
    rcases hc1 with h | h <;> rw [h] <;> simpa using l4
  rw [← hx'] at l3
  obtain ⟨q, q1, q2, q3, q4, k2, q5⟩ := add_err h hp (q := ⟨⟨x', c * y'⟩, t⟩) w2
    (v := ⟨2 * Real.sin phi * R * Real.cos phi, c * (2 * Real.sin phi * R * Real.sin phi)⟩) (W := W) (i := 15 / 2)
    (by norm_num) (by norm_num) mx my l3 ly
  have fin : ∀ w P : ℝ, w ≤ (2 * (15 / 2) + 12) * (2 ^ 53)⁻¹ * W + P → w ≤ 27 * (2 ^ 53)⁻¹ * (a * R) + P := by
    intro w P hw
    have : (27 : ℝ) * (2 ^ 53)⁻¹ * W ≤ 27 * (2 ^ 53)⁻¹ * (a * R) := mul_le_mul_of_nonneg_left hWD (by positivity)
    norm_num at hw this ⊢
    linarith
  refine ⟨q, ?_, q2, fin _ _ q3, fin _ _ q4, k1 + k2, ?_⟩
  · have e1 : (if steer = .right then fl64 (y' * -1) else y') = c * y' := by
      rw [hc]
      split
      · rw [neg_fl hyf]; ring
      · ring
    have e2 : (if steer = .right then fl64 (b * -1) else b) = c * b := by
      rw [hc]
      split
      · rw [neg_fl hbf]; ring
      · ring
    unfold PathRS.turnF PoseR.mkF
    dsimp only
    rw [← hb, ← hp2, hphi, ← hx', ← hy', e1, e2, w1]
    simp only [Option.bind_eq_bind, Option.bind_some, Option.pure_def]
    exact q1
  · have e : c * (2 * phi) = c * b := by rw [hp2]; ring
    show |q.theta - (p.theta + c * (2 * phi) + _)| ≤ _
    rw [e]
    dsimp only at q5
    push_cast
    calc |q.theta - (p.theta + c * b + (k1 + k2) * (2 * Real.pi))|
        = |(q.theta - (p.theta + t + k2 * (2 * Real.pi))) + (t - (c * b + k1 * (2 * Real.pi)))| := by ring_nf
      _ ≤ _ := abs_add_le _ _
      _ ≤ _ := by linarith

/-- One motion. -/
private theorem move_err {lm : Libm} (h : lm.Accurate) {R : ℝ} (hR : 0 < R) {p : PoseR} (hp : Wrapped p.theta)
    (m : Motion) {a : ℝ} (af : IsFlt 53 a) (a0 : 0 ≤ a) (a7 : m.steer ≠ .straight → a ≤ 7) :
    ∃ q, PathRS.moveF lm R (some p) m a = some q ∧ Wrapped q.theta ∧
      |q.position.x - (arc (stretch R m).curvature ((stretch R m).sense * (a * R)) p).position.x| ≤
        27 * (2 ^ 53)⁻¹ * (a * R) + (2 ^ 53)⁻¹ * |p.position.x| ∧
      |q.position.y - (arc (stretch R m).curvature ((stretch R m).sense * (a * R)) p).position.y| ≤
        27 * (2 ^ 53)⁻¹ * (a * R) + (2 ^ 53)⁻¹ * |p.position.y| ∧
      ∃ k : ℤ, |q.theta - ((arc (stretch R m).curvature ((stretch R m).sense * (a * R)) p).theta + k * (2 * Real.pi))| ≤
        23 * (2 ^ 53)⁻¹ := by
  unfold PathRS.moveF stretch
  rw [Option.bind_eq_bind, Option.bind_some]
  cases hst : m.steer with
  | straight =>
    obtain ⟨q, h1, h2, h3, h4⟩ := straight_err h hR hp m.direction a0
    refine ⟨q, h1, by rw [h2]; exact hp, h3, h4, 0, ?_⟩
    rw [h2]
    simp [arc]
  | left =>
    have := turn_err h hR hp m.direction .left af a0 (a7 (by rw [hst]; decide))
    rw [if_neg (by decide)] at this
    exact this
  | right =>
    have := turn_err h hR hp m.direction .right af a0 (a7 (by rw [hst]; decide))
    rw [if_pos rfl] at this
    exact this

/-! ## Several motions -/

private theorem arc_frame (k s : ℝ) (p : PoseR) : arc k s p = place p (arc k s ⟨⟨0, 0⟩, 0⟩) := by
  rw [← arc_place, place_origin]

private theorem abs_le_chord (x y : ℝ) : |x| ≤ √(x ^ 2 + y ^ 2) ∧ |y| ≤ √(x ^ 2 + y ^ 2) := by
  constructor <;> rw [← Real.sqrt_sq_eq_abs] <;> apply Real.sqrt_le_sqrt <;> nlinarith [sq_nonneg x, sq_nonneg y]

private theorem arc_coords (k s : ℝ) (p : PoseR) : |(arc k s p).position.x - p.position.x| ≤ |s| ∧
    |(arc k s p).position.y - p.position.y| ≤ |s| := by
  have h := abs_le_chord ((arc k s p).position.x - p.position.x) ((arc k s p).position.y - p.position.y)
  have hc := arc_chord k s p
  exact ⟨h.1.trans hc, h.2.trans hc⟩

private theorem trig_near {s t δ : ℝ} {k : ℤ} (h : |s - (t + k * (2 * Real.pi))| ≤ δ) :
    |Real.cos s - Real.cos t| ≤ δ ∧ |Real.sin s - Real.sin t| ≤ δ := by
  rw [← Real.cos_add_int_mul_two_pi t k, ← Real.sin_add_int_mul_two_pi t k]
  have h1 := Real.lipschitzWith_cos.dist_le_mul s (t + k * (2 * Real.pi))
  have h2 := Real.lipschitzWith_sin.dist_le_mul s (t + k * (2 * Real.pi))
  simp only [Real.dist_eq, NNReal.coe_one, one_mul] at h1 h2
  exact ⟨h1.trans h, h2.trans h⟩

/-- Driving the same stretch from close poses. -/
private theorem arc_close {δ E : ℝ} {p q : PoseR} (h : Close δ E p q) (k s : ℝ) :
    Close δ (E + 2 * δ * |s|) (arc k s p) (arc k s q) := by
  obtain ⟨h1, h2, n, h3⟩ := h
  obtain ⟨c1, c2⟩ := trig_near h3
  obtain ⟨m1, m2⟩ := arc_coords k s ⟨⟨0, 0⟩, 0⟩
  simp only [sub_zero] at m1 m2
  rw [arc_frame k s p, arc_frame k s q]
  obtain ⟨v, hv⟩ : ∃ v, v = arc k s ⟨⟨0, 0⟩, 0⟩ := ⟨_, rfl⟩
  rw [← hv] at m1 m2 ⊢
  have hδ : 0 ≤ δ := (abs_nonneg _).trans h3
  have prod : ∀ {a b c d : ℝ}, |a| ≤ c → |b| ≤ d → |a * b| ≤ c * d := by
    intro a b c d ha hb
    rw [abs_mul]
    exact mul_le_mul ha hb (abs_nonneg _) ((abs_nonneg _).trans ha)
  refine ⟨?_, ?_, n, ?_⟩
  · show |(Real.cos p.theta * v.position.x - Real.sin p.theta * v.position.y + p.position.x) -
      (Real.cos q.theta * v.position.x - Real.sin q.theta * v.position.y + q.position.x)| ≤ _
    have a1 := abs_le.1 (prod c1 m1)
    have a2 := abs_le.1 (prod c2 m2)
    have a3 := abs_le.1 h1
    rw [abs_le]
    constructor <;> nlinarith
  · show |(Real.sin p.theta * v.position.x + Real.cos p.theta * v.position.y + p.position.y) -
      (Real.sin q.theta * v.position.x + Real.cos q.theta * v.position.y + q.position.y)| ≤ _
    have a1 := abs_le.1 (prod c2 m1)
    have a2 := abs_le.1 (prod c1 m2)
    have a3 := abs_le.1 h2
    rw [abs_le]
    constructor <;> nlinarith
  · show |(p.theta + v.theta) - ((q.theta + v.theta) + n * (2 * Real.pi))| ≤ δ
    rwa [show p.theta + v.theta - (q.theta + v.theta + n * (2 * Real.pi)) = p.theta - (q.theta + n * (2 * Real.pi)) by ring]

private theorem Close.trans {δ ε E F : ℝ} {p q r : PoseR} (h1 : Close δ E p q) (h2 : Close ε F q r) :
    Close (δ + ε) (E + F) p r := by
  obtain ⟨a1, a2, k, a3⟩ := h1
  obtain ⟨b1, b2, n, b3⟩ := h2
  refine ⟨(abs_sub_le _ _ _).trans (add_le_add a1 b1), (abs_sub_le _ _ _).trans (add_le_add a2 b2), k + n, ?_⟩
  push_cast
  calc _ = |(p.theta - (q.theta + k * (2 * Real.pi))) + (q.theta - (r.theta + n * (2 * Real.pi)))| := by ring_nf
    _ ≤ _ := abs_add_le _ _
    _ ≤ _ := add_le_add a3 b3

private theorem Close.mono {δ ε E F : ℝ} {p q : PoseR} (h : Close δ E p q) (h1 : δ ≤ ε) (h2 : E ≤ F) : Close ε F p q := by
  obtain ⟨a1, a2, k, a3⟩ := h
  exact ⟨a1.trans h2, a2.trans h2, k, a3.trans h1⟩

private theorem stretch_sense (R : ℝ) (m : Motion) : |(stretch R m).sense| = 1 := by
  unfold stretch
  dsimp only
  split <;> simp

private theorem step_err {lm : Libm} (h : lm.Accurate) {R : ℝ} (hR : 0 < R) {p q : PoseR} (hq : Wrapped q.theta) {δ E M : ℝ}
    (hc : Close δ E q p) (hδ : δ ≤ 92 * (2 ^ 53)⁻¹) (hx : |p.position.x| ≤ M) (hy : |p.position.y| ≤ M) (hE : E ≤ M)
    (m : Motion) {a : ℝ} (af : IsFlt 53 a) (a0 : 0 ≤ a) (a7 : m.steer ≠ .straight → a ≤ 7) :
    ∃ r, PathRS.moveF lm R (some q) m a = some r ∧ Wrapped r.theta ∧
      Close (δ + 23 * (2 ^ 53)⁻¹) (E + 211 * (2 ^ 53)⁻¹ * (a * R) + 2 * (2 ^ 53)⁻¹ * M) r
        (arc (stretch R m).curvature ((stretch R m).sense * (a * R)) p) := by
  obtain ⟨r, r1, r2, r3, r4, r5⟩ := move_err h hR hq m af a0 a7
  refine ⟨r, r1, r2, ?_⟩
  have hD : 0 ≤ a * R := mul_nonneg a0 hR.le
  have qx : |q.position.x| ≤ 2 * M := by
    calc |q.position.x| = |(q.position.x - p.position.x) + p.position.x| := by ring_nf
      _ ≤ _ := abs_add_le _ _
      _ ≤ 2 * M := by linarith [hc.1]
  have qy : |q.position.y| ≤ 2 * M := by
    calc |q.position.y| = |(q.position.y - p.position.y) + p.position.y| := by ring_nf
      _ ≤ _ := abs_add_le _ _
      _ ≤ 2 * M := by linarith [hc.2.1]
  have c1 : Close (23 * (2 ^ 53)⁻¹) (27 * (2 ^ 53)⁻¹ * (a * R) + (2 ^ 53)⁻¹ * (2 * M)) r
      (arc (stretch R m).curvature ((stretch R m).sense * (a * R)) q) := by
    have g1 : (2 ^ 53)⁻¹ * |q.position.x| ≤ (2 ^ 53)⁻¹ * (2 * M) := mul_le_mul_of_nonneg_left qx (by positivity)
    have g2 : (2 ^ 53)⁻¹ * |q.position.y| ≤ (2 ^ 53)⁻¹ * (2 * M) := mul_le_mul_of_nonneg_left qy (by positivity)
    exact ⟨r3.trans (by linarith), r4.trans (by linarith), r5⟩
  have c2 := arc_close hc (stretch R m).curvature ((stretch R m).sense * (a * R))
  rw [abs_mul, stretch_sense, one_mul, abs_of_nonneg hD] at c2
  refine (c1.trans c2).mono (by linarith) ?_
  have : δ * (a * R) ≤ 92 * (2 ^ 53)⁻¹ * (a * R) := mul_le_mul_of_nonneg_right hδ hD
  linarith

private theorem driveAll_snoc (p : PoseR) (l : List Stretch) (a : Stretch) :
    driveAll p (l ++ [a]) = arc a.curvature (a.sense * a.length) (driveAll p l) := by
  induction l generalizing p with
  | nil => rfl
  | cons b l ih => exact ih _

private theorem driven_snoc (R : ℝ) (ms : List Motion) (m : Motion) :
    driven R (ms ++ [m]) = driven R ms + m.length.getD 0 * R := by
  unfold driven; simp [add_mul]

private def Lens (ms : List Motion) : Prop := ∀ m ∈ ms, 0 ≤ m.length.getD 0 ∧ IsFlt 53 (m.length.getD 0)

private theorem driven_nonneg {R : ℝ} (hR : 0 ≤ R) {ms : List Motion} (h : Lens ms) : 0 ≤ driven R ms := by
  unfold driven
  refine mul_nonneg (List.sum_nonneg ?_) hR
  intro x hx
  obtain ⟨m, hm, rfl⟩ := List.mem_map.1 hx
  exact (h m hm).1

private theorem whole_err {lm : Libm} (h : lm.Accurate) {R : ℝ} (hR : 0 < R) {init : PoseR} (hi : Wrapped init.theta)
    {M0 T : ℝ} (hx : |init.position.x| ≤ M0) (hy : |init.position.y| ≤ M0) (ms : List Motion) (hl : Lens ms)
    (h7 : ShortTurns ms) (hn : ms.length ≤ 5) (hT : driven R ms ≤ T) :
    ∃ q, driveWhole (PathRS.moveF lm R) (some init) ms = some q ∧ Wrapped q.theta ∧
      Close (ms.length * (23 * (2 ^ 53)⁻¹)) (211 * (2 ^ 53)⁻¹ * driven R ms + ms.length * (2 * (2 ^ 53)⁻¹ * (M0 + T))) q
        (driveAll init (ms.map (stretch R))) ∧
      |(driveAll init (ms.map (stretch R))).position.x - init.position.x| ≤ driven R ms ∧
      |(driveAll init (ms.map (stretch R))).position.y - init.position.y| ≤ driven R ms := by
  induction ms using List.reverseRecOn with
  | nil =>
    refine ⟨init, rfl, hi, ⟨?_, ?_, 0, ?_⟩, ?_, ?_⟩ <;> simp [driveAll, driven]
  | append_singleton ms m ih =>
    have hl' : Lens ms := fun x hx => hl x (by simp [hx])
    obtain ⟨m0, mf⟩ := hl m (by simp)
    have hD : 0 ≤ m.length.getD 0 * R := mul_nonneg m0 hR.le
    rw [driven_snoc] at hT ⊢
    have hlen : (ms ++ [m]).length = ms.length + 1 := by simp
    rw [hlen] at hn ⊢
    obtain ⟨q, q1, q2, q3, q4, q5⟩ := ih hl' (fun x hx => h7 x (by simp [hx])) (by omega) (by linarith)
    rw [List.map_append, List.map_singleton, driveAll_snoc, driveWhole_snoc, q1]
    obtain ⟨p, hp⟩ : ∃ p, p = driveAll init (ms.map (stretch R)) := ⟨_, rfl⟩
    rw [← hp] at q3 q4 q5 ⊢
    have hd0 := driven_nonneg hR.le hl'
    have hM0 : 0 ≤ M0 := (abs_nonneg _).trans hx
    have hn4 : (ms.length : ℝ) ≤ 4 := by exact_mod_cast (by omega : ms.length ≤ 4)
    have hn0 : (0 : ℝ) ≤ ms.length := Nat.cast_nonneg _
    obtain ⟨n, hnn⟩ : ∃ n : ℝ, n = ms.length := ⟨_, rfl⟩
    push_cast
    rw [← hnn] at q3 hn4 hn0 ⊢
    have hcoords := arc_coords (stretch R m).curvature ((stretch R m).sense * (stretch R m).length) p
    rw [abs_mul, stretch_sense, one_mul, show (stretch R m).length = m.length.getD 0 * R from rfl, abs_of_nonneg hD] at hcoords
    have hgrow : |(arc (stretch R m).curvature ((stretch R m).sense * (m.length.getD 0 * R)) p).position.x - init.position.x| ≤
          driven R ms + m.length.getD 0 * R ∧
        |(arc (stretch R m).curvature ((stretch R m).sense * (m.length.getD 0 * R)) p).position.y - init.position.y| ≤
          driven R ms + m.length.getD 0 * R :=
      ⟨(abs_sub_le _ p.position.x _).trans (by linarith [hcoords.1]), (abs_sub_le _ p.position.y _).trans (by linarith [hcoords.2])⟩
    have hMn : n * (2 * (2 ^ 53)⁻¹ * (M0 + T)) ≤ 4 * (2 * (2 ^ 53)⁻¹ * (M0 + T)) :=
      mul_le_mul_of_nonneg_right hn4 (mul_nonneg (by positivity) (by linarith))
    have hMn0 : 0 ≤ 2 * (2 ^ 53)⁻¹ * (M0 + T) := mul_nonneg (by positivity) (by linarith)
    by_cases h0 : m.length.getD 0 = 0
    · rw [if_pos h0]
      refine ⟨q, rfl, q2, ?_, hgrow⟩
      rw [show (stretch R m).length = m.length.getD 0 * R from rfl, h0, zero_mul, mul_zero, arc_zero]
      exact q3.mono (by rw [add_one_mul]; linarith [show (0 : ℝ) ≤ 23 * (2 ^ 53)⁻¹ by positivity])
        (by rw [add_one_mul, add_zero]; linarith)
    · rw [if_neg h0]
      have px : |p.position.x| ≤ M0 + T := by
        calc |p.position.x| = |(p.position.x - init.position.x) + init.position.x| := by ring_nf
          _ ≤ _ := abs_add_le _ _
          _ ≤ _ := by linarith
      have py : |p.position.y| ≤ M0 + T := by
        calc |p.position.y| = |(p.position.y - init.position.y) + init.position.y| := by ring_nf
          _ ≤ _ := abs_add_le _ _
          _ ≤ _ := by linarith
      have hE : 211 * (2 ^ 53)⁻¹ * driven R ms + n * (2 * (2 ^ 53)⁻¹ * (M0 + T)) ≤ M0 + T := by
        norm_num at hMn ⊢
        linarith
      have hdel : n * (23 * (2 ^ 53)⁻¹) ≤ 92 * (2 ^ 53)⁻¹ := by
        calc n * (23 * (2 ^ 53)⁻¹) ≤ 4 * (23 * (2 ^ 53)⁻¹) := mul_le_mul_of_nonneg_right hn4 (by positivity)
          _ = _ := by ring
      obtain ⟨r, r1, r2, r3⟩ := step_err h hR q2 q3 hdel px py hE m mf m0 (fun hs => h7 m (by simp) hs)
      refine ⟨r, r1, r2, r3.mono (le_of_eq (by ring)) (le_of_eq (by ring)), hgrow⟩

/-! ## The exact drive -/

/-- Along the exact drive the heading changes by at most the curvature times the distance. -/
private theorem driveDist_heading {l : List Stretch} {K : ℝ}
    (h : ∀ a ∈ l, 0 ≤ a.length ∧ (a.sense = 1 ∨ a.sense = -1) ∧ |a.curvature| ≤ K) (p : PoseR) {d e : ℝ} (h0 : 0 ≤ d)
    (h1 : d ≤ e) : |(driveDist p d l).theta - (driveDist p e l).theta| ≤ K * (e - d) ∨ l = [] := by
  induction l generalizing p d e with
  | nil => right; rfl
  | cons a l ih =>
    left
    have hl : ∀ b ∈ l, 0 ≤ b.length ∧ (b.sense = 1 ∨ b.sense = -1) ∧ |b.curvature| ≤ K :=
      fun b hb => h b (List.mem_cons_of_mem _ hb)
    obtain ⟨ha, hs, hk⟩ := h a (by simp)
    have hK : 0 ≤ K := (abs_nonneg _).trans hk
    have th : ∀ s, (arc a.curvature s p).theta = p.theta + a.curvature * s := by
      intro s
      unfold arc
      split
      · rename_i h0; simp [h0]
      · rfl
    have seg : ∀ d e, d ≤ e → |(arc a.curvature (a.sense * d) p).theta - (arc a.curvature (a.sense * e) p).theta| ≤
        K * (e - d) := by
      intro d e hde
      rw [th, th, show p.theta + a.curvature * (a.sense * d) - (p.theta + a.curvature * (a.sense * e)) =
        a.curvature * (a.sense * (d - e)) by ring, abs_mul, abs_mul]
      have : |a.sense| = 1 := by rcases hs with hs | hs <;> rw [hs] <;> simp
      rw [this, one_mul, abs_sub_comm, abs_of_nonneg (by linarith : 0 ≤ e - d)]
      exact mul_le_mul_of_nonneg_right hk (by linarith)
    have rest : ∀ (p : PoseR) {d e : ℝ}, 0 ≤ d → d ≤ e →
        |(driveDist p d l).theta - (driveDist p e l).theta| ≤ K * (e - d) := by
      intro p d e h0 h1
      rcases ih hl p h0 h1 with h | h
      · exact h
      · subst h
        simp only [driveDist, sub_self, abs_zero]
        exact mul_nonneg hK (by linarith)
    simp only [driveDist]
    by_cases he : e ≤ a.length
    · rw [if_pos he, if_pos (h1.trans he)]
      exact seg d e h1
    · rw [if_neg he]
      push Not at he
      by_cases hd : d ≤ a.length
      · rw [if_pos hd]
        have t2 := seg d a.length hd
        have t3 := rest (arc a.curvature (a.sense * a.length) p) le_rfl (sub_nonneg.mpr he.le)
        rw [driveDist_zero (fun b hb => (hl b hb).1)] at t3
        refine (abs_sub_le _ (arc a.curvature (a.sense * a.length) p).theta _).trans ?_
        linarith
      · rw [if_neg hd]
        push Not at hd
        have := rest (arc a.curvature (a.sense * a.length) p) (d := d - a.length) (e := e - a.length)
          (by linarith) (by linarith)
        linarith

/-- The exact drive ends on the stretch it has to end on. -/
private theorem driveDist_at {l : List Stretch} (hl : ∀ b ∈ l, 0 ≤ b.length) (a : Stretch) (post : List Stretch)
    (hp : ∀ b ∈ post, 0 ≤ b.length) (p : PoseR) {d : ℝ} (h0 : 0 ≤ d) (h1 : d ≤ a.length) :
    driveDist p (totalLength l + d) (l ++ a :: post) = arc a.curvature (a.sense * d) (driveAll p l) := by
  induction l generalizing p with
  | nil =>
    rw [List.nil_append, driveDist, if_pos (by simpa [totalLength] using h1)]
    simp [totalLength, driveAll]
  | cons b l ih =>
    have hl' : ∀ b ∈ l, 0 ≤ b.length := fun x hx => hl x (List.mem_cons_of_mem _ hx)
    have ih := ih hl' (arc b.curvature (b.sense * b.length) p)
    have ht := totalLength_nonneg hl'
    rw [List.cons_append, driveDist, totalLength_cons, driveAll]
    split
    · rename_i hle
      have e : totalLength l + d = 0 := by linarith
      rw [e, driveDist_zero] at ih
      · rw [show b.length + totalLength l + d = b.length by linarith]
        exact ih
      · intro x hx
        rcases List.mem_append.1 hx with hx | hx
        · exact hl' x hx
        · rcases List.mem_cons.1 hx with rfl | hx
          · linarith
          · exact hp x hx
    · rw [show b.length + totalLength l + d - b.length = totalLength l + d by ring]
      exact ih

private theorem total_driven (R : ℝ) (ms : List Motion) : totalLength (ms.map (stretch R)) = driven R ms := by
  unfold totalLength driven
  rw [List.map_map]
  induction ms with
  | nil => simp
  | cons m ms ih => 
    simp only [List.map_cons, List.sum_cons, add_mul]
    rw [ih]
    rfl

private theorem driveDist_near {R : ℝ} (hR : 0 < R) {ms : List Motion} (hl : Lens ms) (p : PoseR) {d e : ℝ} (h0 : 0 ≤ d) (h1 : 0 ≤ e)
    {ε : ℝ} (h : |d - e| ≤ ε) :
    Close (ε / R) ε (driveDist p d (ms.map (stretch R))) (driveDist p e (ms.map (stretch R))) := by
  have hε : 0 ≤ ε := (abs_nonneg _).trans h
  have hs : ∀ a ∈ ms.map (stretch R), 0 ≤ a.length ∧ (a.sense = 1 ∨ a.sense = -1) ∧ |a.curvature| ≤ 1 / R := by
    intro a ha
    obtain ⟨m, hm, rfl⟩ := List.mem_map.1 ha
    refine ⟨mul_nonneg (hl m hm).1 hR.le, ?_, ?_⟩
    · unfold stretch; dsimp only; split <;> simp
    · unfold stretch; dsimp only
      have : |1 / R| = 1 / R := abs_of_pos (by positivity)
      split
      · rw [this]
      · rw [abs_zero]; positivity
      · rw [neg_div, abs_neg, this]
  have key : ∀ {d e : ℝ}, 0 ≤ d → d ≤ e → e - d ≤ ε →
      |(driveDist p d (ms.map (stretch R))).position.x - (driveDist p e (ms.map (stretch R))).position.x| ≤ ε ∧
      |(driveDist p d (ms.map (stretch R))).position.y - (driveDist p e (ms.map (stretch R))).position.y| ≤ ε ∧
      |(driveDist p d (ms.map (stretch R))).theta - (driveDist p e (ms.map (stretch R))).theta| ≤ ε / R := by
    intro d e h0 h1 h2
    have g1 := (driveDist_speed (fun a ha => ⟨(hs a ha).1, (hs a ha).2.1⟩) p h0 h1).trans h2
    have g2 := abs_le_chord ((driveDist p d (ms.map (stretch R))).position.x - (driveDist p e (ms.map (stretch R))).position.x)
      ((driveDist p d (ms.map (stretch R))).position.y - (driveDist p e (ms.map (stretch R))).position.y)
    refine ⟨g2.1.trans g1, g2.2.trans g1, ?_⟩
    rcases driveDist_heading hs p h0 h1 with g | g
    · refine g.trans ?_
      rw [div_mul_eq_mul_div, one_mul]
      gcongr
    · rw [g]
      simp only [driveDist, sub_self, abs_zero]
      positivity
  rcases le_total d e with hde | hde
  · obtain ⟨g1, g2, g3⟩ := key h0 hde (by rw [abs_sub_comm] at h; exact (le_abs_self _).trans h)
    exact ⟨g1, g2, 0, by simpa using g3⟩
  · obtain ⟨g1, g2, g3⟩ := key h1 hde ((le_abs_self _).trans h)
    rw [abs_sub_comm] at g1 g2 g3
    exact ⟨g1, g2, 0, by simpa using g3⟩

/-! ## The theorems -/

/-- C136: the sum of two poses is the second one placed after the first one, up to a few roundings, and its heading is in
range. -/
theorem C136_sum (lm : Libm) (hlm : lm.Accurate) (p q : PoseR) (hp : Wrapped p.theta) (hq : Wrapped q.theta) :
    ∃ r, p.addF lm q = some r ∧ Wrapped r.theta ∧
      |r.position.x - (p.position.x + (Real.cos p.theta * q.position.x - Real.sin p.theta * q.position.y))| ≤
        max |q.position.x| |q.position.y| / 2 ^ 49 + |p.position.x| / 2 ^ 53 ∧
      |r.position.y - (p.position.y + (Real.sin p.theta * q.position.x + Real.cos p.theta * q.position.y))| ≤
        max |q.position.x| |q.position.y| / 2 ^ 49 + |p.position.y| / 2 ^ 53 ∧
      ∃ k : ℤ, |r.theta - (p.theta + q.theta + k * (2 * Real.pi))| ≤ 1 / 2 ^ 49 := by
  obtain ⟨r, r1, r2, r3, r4, k, r5⟩ := add_err hlm hp hq (v := q.position) (W := max |q.position.x| |q.position.y|) (i := 0)
    le_rfl (by norm_num) (le_max_left _ _) (le_max_right _ _) (by simp) (by simp)
  have hW : 0 ≤ max |q.position.x| |q.position.y| := (abs_nonneg _).trans (le_max_left _ _)
  obtain ⟨W, hWW⟩ : ∃ W, W = max |q.position.x| |q.position.y| := ⟨_, rfl⟩
  rw [← hWW] at r3 r4 hW ⊢
  refine ⟨r, r1, r2, ?_, ?_, k, r5.trans (by norm_num)⟩
  · rw [add_comm p.position.x]
    refine le_trans r3 ?_
    norm_num
    linarith
  · rw [add_comm p.position.y]
    refine le_trans r4 ?_
    norm_num
    linarith

/-- C136: the difference of two poses is the first one seen from the second one, up to a few roundings. -/
theorem C136_difference (lm : Libm) (hlm : lm.Accurate) (p q : PoseR) (hp : Wrapped p.theta) (hq : Wrapped q.theta) :
    let dx := p.position.x - q.position.x
    let dy := p.position.y - q.position.y
    ∃ r, p.subF lm q = some r ∧ Wrapped r.theta ∧
      |r.position.x - (Real.cos q.theta * dx + Real.sin q.theta * dy)| ≤ max |dx| |dy| / 2 ^ 49 ∧
      |r.position.y - (-Real.sin q.theta * dx + Real.cos q.theta * dy)| ≤ max |dx| |dy| / 2 ^ 49 ∧
      ∃ k : ℤ, |r.theta - (p.theta - q.theta + k * (2 * Real.pi))| ≤ 1 / 2 ^ 49 := by
  intro dx dy
  have hn : Wrapped (-q.theta) := ⟨isFlt_neg hq.1, by rw [abs_neg]; exact hq.2⟩
  obtain ⟨t, k, w1, w2, w3⟩ := heading_sum hp hn
  rw [← sub_eq_add_neg] at w1 w3
  have hW : 0 ≤ max |dx| |dy| := (abs_nonneg _).trans (le_max_left _ _)
  have e1 : |fl64 dx - dx| ≤ 1 * (2 ^ 53)⁻¹ * max |dx| |dy| := by
    rw [one_mul]
    exact (fl_rel 53 _).trans (mul_le_mul_of_nonneg_left (le_max_left _ _) (by positivity))
  have e2 : |fl64 dy - dy| ≤ 1 * (2 ^ 53)⁻¹ * max |dx| |dy| := by
    rw [one_mul]
    exact (fl_rel 53 _).trans (mul_le_mul_of_nonneg_left (le_max_right _ _) (by positivity))
  obtain ⟨r1, r2⟩ := rotateF_err hlm hn.1 (v := ⟨dx, dy⟩) (v' := ⟨fl64 dx, fl64 dy⟩) (i := 1) zero_le_one (by norm_num)
    (le_max_left _ _) (le_max_right _ _) e1 e2
  refine ⟨⟨PoseR.rotateF lm (-q.theta) ⟨fl64 dx, fl64 dy⟩, t⟩, ?_, w2, ?_, ?_, k, w3.trans (by norm_num)⟩
  · unfold PoseR.subF PoseR.mkF
    rw [w1]
    simp only [Option.bind_eq_bind, Option.bind_some, Option.pure_def, wrap_self w2]
    rfl
  · obtain ⟨W, hWW⟩ : ∃ W, W = max |dx| |dy| := ⟨_, rfl⟩
    rw [← hWW] at r1 hW ⊢
    rw [show Real.cos q.theta * dx + Real.sin q.theta * dy = (PoseR.rotate (-q.theta) ⟨dx, dy⟩).x by
      simp [PoseR.rotate]]
    refine r1.trans ?_
    norm_num
    linarith
  · obtain ⟨W, hWW⟩ : ∃ W, W = max |dx| |dy| := ⟨_, rfl⟩
    rw [← hWW] at r2 hW ⊢
    rw [show -Real.sin q.theta * dx + Real.cos q.theta * dy = (PoseR.rotate (-q.theta) ⟨dx, dy⟩).y by
      simp [PoseR.rotate]]
    refine r2.trans ?_
    norm_num
    linarith

/-- C136: `Interpolate` of a Reeds-Shepp path returns, for every ratio in [0, 1], the pose that the exact drive along the
motions reaches after that ratio of the exact distance `T`: each coordinate up to `T / 2^45` and 2^-49 of the coordinates of
the start, the heading up to 2^-46 and 2^-48 of the normalised length. The heading is in range. -/
theorem C136_reeds_shepp_pose (lm : Libm) (hlm : lm.Accurate) (init : PoseR) (hi : Wrapped init.theta) (s : Segment)
    (hs : DoubleSegment s) (h7 : ShortTurns s.valid) (R : ℝ) (hR : 0 < R) (r : ℝ) (h0 : 0 ≤ r) (h1 : r ≤ 1) :
    ∃ p, PathRS.poseF lm init s R r = some p ∧ Wrapped p.theta ∧
      Close (1 / 2 ^ 46 + driven 1 s.valid / 2 ^ 48)
        (driven R s.valid / 2 ^ 45 + max |init.position.x| |init.position.y| / 2 ^ 49) p
        (driveDist init (r * driven R s.valid) (stretches R s.motions)) := by
  have hl : Lens s.valid := hs.1
  have hst : stretches R s.motions = s.valid.map (stretch R) := rfl
  have h5 : s.valid.length ≤ 5 := (List.takeWhile_prefix _).length_le.trans hs.2.1
  have hT0 := driven_nonneg hR.le hl
  have hd1 := driven_nonneg zero_le_one hl
  have hdR : driven R s.valid = driven 1 s.valid * R := by unfold driven; ring
  have hM0 : 0 ≤ max |init.position.x| |init.position.y| := (abs_nonneg _).trans (le_max_left _ _)
  have hnn : ∀ ms, Lens ms → ∀ b ∈ ms.map (stretch R), 0 ≤ b.length := by
    intro ms h b hb
    obtain ⟨m, hm, rfl⟩ := List.mem_map.1 hb
    exact mul_nonneg (h m hm).1 hR.le
  rw [hst]
  rcases hT0.eq_or_lt with hz | hT
  · have hlen := C132_length s hs R hR.le
    rw [← hz] at hlen ⊢
    have hg : s.getLengthF R = 0 := by
      rw [sub_zero, zero_div, mul_zero] at hlen
      exact abs_nonpos_iff.1 hlen
    refine ⟨init, ?_, hi, ?_⟩
    · unfold PathRS.poseF PathRS.interpolateF
      rw [if_pos hg]
    · rw [mul_zero, driveDist_zero (hnn _ hl)]
      refine ⟨?_, ?_, 0, ?_⟩
      · rw [sub_self, abs_zero]; positivity
      · rw [sub_self, abs_zero]; positivity
      · simp only [Int.cast_zero, zero_mul, add_zero, sub_self, abs_zero]; positivity
  obtain ⟨M0, hM⟩ : ∃ M0, M0 = max |init.position.x| |init.position.y| := ⟨_, rfl⟩
  have hx : |init.position.x| ≤ M0 := by rw [hM]; exact le_max_left _ _
  have hy : |init.position.y| ≤ M0 := by rw [hM]; exact le_max_right _ _
  rw [← hM] at hM0 ⊢
  have hrT : 0 ≤ r * driven R s.valid := mul_nonneg h0 hT.le
  have hdiv : driven R s.valid / 2 ^ 48 / R = driven 1 s.valid / 2 ^ 48 := by rw [hdR]; field_simp
  rcases C132_interpolate (PathRS.moveF lm R) (some init) s hs R hR hT r h0 h1 with ⟨k1, k2⟩ | ⟨pre, m, post, a, k0, k1, k2, kf, k3, k4⟩
  · obtain ⟨q, q1, q2, q3, -, -⟩ := whole_err hlm hR hi hx hy s.valid hl h7 h5 le_rfl
    refine ⟨q, ?_, q2, ?_⟩
    · unfold PathRS.poseF
      rw [k1, q1]
    · have e : driveAll init (s.valid.map (stretch R)) = driveDist init (driven R s.valid) (s.valid.map (stretch R)) :=
        (driveDist_total (hnn _ hl) init (total_driven R s.valid).le (total_driven R s.valid).symm).symm
      rw [e] at q3
      have c := q3.trans (driveDist_near hR hl init hT.le hrT k2)
      rw [hdiv] at c
      have hn5 : (s.valid.length : ℝ) ≤ 5 := by exact_mod_cast h5
      have g1 : (s.valid.length : ℝ) * (23 * (2 ^ 53)⁻¹) ≤ 5 * (23 * (2 ^ 53)⁻¹) :=
        mul_le_mul_of_nonneg_right hn5 (by positivity)
      have g2 : (s.valid.length : ℝ) * (2 * (2 ^ 53)⁻¹ * (M0 + driven R s.valid)) ≤ 5 * (2 * (2 ^ 53)⁻¹ * (M0 + driven R s.valid)) :=
        mul_le_mul_of_nonneg_right hn5 (mul_nonneg (by positivity) (by linarith))
      obtain ⟨n, hn⟩ : ∃ n : ℝ, n = s.valid.length := ⟨_, rfl⟩
      obtain ⟨T, hTT⟩ : ∃ T, T = driven R s.valid := ⟨_, rfl⟩
      rw [← hn] at c g1 g2
      rw [← hTT] at c g2 hT ⊢
      obtain ⟨A, hA⟩ : ∃ A, A = n * (23 * (2 ^ 53)⁻¹) := ⟨_, rfl⟩
      obtain ⟨B, hB⟩ : ∃ B, B = n * (2 * (2 ^ 53)⁻¹ * (M0 + T)) := ⟨_, rfl⟩
      rw [← hA] at c g1
      rw [← hB] at c g2
      norm_num at g1 g2
      refine c.mono ?_ ?_
      · norm_num
        linarith
      · norm_num
        linarith
  · have hlv := hl
    rw [k0] at hlv
    have h7v := h7
    rw [k0] at h7v
    have hpre : Lens pre := fun x hx => hlv x (by simp [hx])
    have hpost : Lens post := fun x hx => hlv x (by simp [hx])
    have hpl : pre.length ≤ 4 := by rw [k0] at h5; simp at h5; omega
    have hsum : driven R s.valid = driven R pre + (m.length.getD 0 * R + driven R post) := by
      rw [k0]; unfold driven; simp; ring
    have hm0 := (hlv m (by simp)).1
    have hp0 := driven_nonneg hR.le hpre
    have hq0 := driven_nonneg hR.le hpost
    have haR : 0 ≤ a * R := mul_nonneg k1 hR.le
    have haR' : a * R ≤ m.length.getD 0 * R := mul_le_mul_of_nonneg_right k2 hR.le
    have hpT : driven R pre ≤ driven R s.valid := by linarith
    obtain ⟨q, q1, q2, q3, q4, q5⟩ := whole_err hlm hR hi hx hy pre hpre (fun x hx => h7v x (by simp [hx])) (by omega) hpT
    obtain ⟨p, hp⟩ : ∃ p, p = driveAll init (pre.map (stretch R)) := ⟨_, rfl⟩
    have hn4 : (pre.length : ℝ) ≤ 4 := by exact_mod_cast hpl
    have g1 : (pre.length : ℝ) * (23 * (2 ^ 53)⁻¹) ≤ 4 * (23 * (2 ^ 53)⁻¹) :=
      mul_le_mul_of_nonneg_right hn4 (by positivity)
    have g2 : (pre.length : ℝ) * (2 * (2 ^ 53)⁻¹ * (M0 + driven R s.valid)) ≤ 4 * (2 * (2 ^ 53)⁻¹ * (M0 + driven R s.valid)) :=
      mul_le_mul_of_nonneg_right hn4 (mul_nonneg (by positivity) (by linarith))
    rw [← hp] at q3 q4 q5
    have px : |p.position.x| ≤ M0 + driven R s.valid := by
      calc |p.position.x| = |(p.position.x - init.position.x) + init.position.x| := by ring_nf
        _ ≤ _ := abs_add_le _ _
        _ ≤ _ := by linarith
    have py : |p.position.y| ≤ M0 + driven R s.valid := by
      calc |p.position.y| = |(p.position.y - init.position.y) + init.position.y| := by ring_nf
        _ ≤ _ := abs_add_le _ _
        _ ≤ _ := by linarith
    have hE : 211 * (2 ^ 53)⁻¹ * driven R pre + pre.length * (2 * (2 ^ 53)⁻¹ * (M0 + driven R s.valid)) ≤ M0 + driven R s.valid := by
      norm_num at g2 ⊢
      linarith
    obtain ⟨w, w1, w2, w3⟩ := step_err hlm hR q2 q3 (g1.trans (le_of_eq (by ring))) px py hE m kf k1
      (fun hst => k2.trans (h7v m (by simp) hst))
    refine ⟨w, ?_, w2, ?_⟩
    · unfold PathRS.poseF
      rw [k3, q1, w1]
    · have e : arc (stretch R m).curvature ((stretch R m).sense * (a * R)) p =
          driveDist init (driven R pre + a * R) (s.valid.map (stretch R)) := by
        rw [k0, List.map_append, List.map_cons, hp, ← total_driven]
        exact (driveDist_at (hnn _ hpre) (stretch R m) _ (hnn _ hpost) init haR haR').symm
      rw [e] at w3
      have c := w3.trans (driveDist_near hR hl init (add_nonneg hp0 haR) hrT k4)
      rw [hdiv] at c
      obtain ⟨n, hn⟩ : ∃ n : ℝ, n = pre.length := ⟨_, rfl⟩
      obtain ⟨T, hTT⟩ : ∃ T, T = driven R s.valid := ⟨_, rfl⟩
      obtain ⟨P, hP⟩ : ∃ P, P = driven R pre := ⟨_, rfl⟩
      obtain ⟨D, hD⟩ : ∃ D, D = a * R := ⟨_, rfl⟩
      rw [← hn] at c g1 g2
      rw [← hTT] at c g2 hT hsum ⊢
      rw [← hP] at c hp0 hsum
      rw [← hD] at c haR haR'
      obtain ⟨A, hA⟩ : ∃ A, A = n * (23 * (2 ^ 53)⁻¹) := ⟨_, rfl⟩
      obtain ⟨B, hB⟩ : ∃ B, B = n * (2 * (2 ^ 53)⁻¹ * (M0 + T)) := ⟨_, rfl⟩
      rw [← hA] at c g1
      rw [← hB] at c g2
      norm_num at g1 g2
      refine c.mono ?_ ?_
      · norm_num
        linarith
      · norm_num
        linarith

/-- C136: the final state of a Reeds-Shepp path is the pose that the exact drive along all its motions reaches, up to the
same errors. -/
theorem C136_reeds_shepp_final (lm : Libm) (hlm : lm.Accurate) (init : PoseR) (hi : Wrapped init.theta) (s : Segment)
    (hs : DoubleSegment s) (h7 : ShortTurns s.valid) (R : ℝ) (hR : 0 < R) :
    ∃ p, PathRS.poseF lm init s R 1 = some p ∧ Wrapped p.theta ∧
      Close (1 / 2 ^ 46 + driven 1 s.valid / 2 ^ 48)
        (driven R s.valid / 2 ^ 45 + max |init.position.x| |init.position.y| / 2 ^ 49) p
        (driveAll init (stretches R s.motions)) := by
  obtain ⟨p, p1, p2, p3⟩ := C136_reeds_shepp_pose lm hlm init hi s hs h7 R hR 1 zero_le_one le_rfl
  refine ⟨p, p1, p2, ?_⟩
  have hnn : ∀ b ∈ stretches R s.motions, 0 ≤ b.length := by
    intro b hb
    obtain ⟨m, hm, rfl⟩ := List.mem_map.1 hb
    exact mul_nonneg (hs.1 m hm).1 hR.le
  have ht : totalLength (stretches R s.motions) = driven R s.valid := total_driven R s.valid
  rwa [one_mul, driveDist_total hnn init ht.le ht.symm] at p3

private theorem acc_zero {lm : Libm} (h : lm.Accurate) : lm.sin 0 = 0 := by
  have := (h 0 (fl_zero 53)).1
  simpa using this

private theorem move_zero {lm : Libm} (h : lm.Accurate) (R : ℝ) {p : PoseR} (hp : Wrapped p.theta)
    (hx : IsFlt 53 p.position.x) (hy : IsFlt 53 p.position.y) (m : Motion) : PathRS.moveF lm R (some p) m 0 = some p := by
  have z : fl64 0 = 0 := fl_zero 53
  have fx : fl64 p.position.x = p.position.x := hx
  have fy : fl64 p.position.y = p.position.y := hy
  have ft : fl64 p.theta = p.theta := hp.1
  have w0 : wrapThetaF 0 = some 0 := by
    refine wrap_self ⟨fl_zero 53, ?_⟩
    have := mPi_bounds.1
    rw [abs_zero]; linarith
  have hs : lm.sin 0 = 0 := acc_zero h
  have turn : ∀ st : Steer, PathRS.turnF lm R p m.direction st 0 = some p := by
    intro st
    unfold PathRS.turnF PoseR.mkF PoseR.addF PoseR.rotateF PoseR.mkF
    simp only [neg_zero, ite_self, zero_div, z, hs, mul_zero, zero_mul, w0, Option.bind_eq_bind, Option.bind_some,
      Option.pure_def, add_zero, zero_add, ft, wrap_self hp, fx, fy]
  unfold PathRS.moveF
  rw [Option.bind_eq_bind, Option.bind_some]
  cases m.steer with
  | straight =>
    simp only [PathRS.straightF, PoseR.mkF, neg_zero, ite_self, zero_mul, z, add_zero, fx, fy, wrap_self hp,
      Option.bind_eq_bind, Option.bind_some, Option.pure_def]
  | left => exact turn .left
  | right => exact turn .right

/-- C136: `Interpolate(0)` returns the initial pose exactly, if its coordinates are `double`s. -/
theorem C136_reeds_shepp_start (lm : Libm) (hlm : lm.Accurate) (init : PoseR) (hi : Wrapped init.theta)
    (hx : IsFlt 53 init.position.x) (hy : IsFlt 53 init.position.y) (s : Segment) (hs : DoubleSegment s) (R : ℝ)
    (hR : 0 < R) : PathRS.poseF lm init s R 0 = some init := by
  have z : fl64 0 = 0 := fl_zero 53
  unfold PathRS.poseF PathRS.interpolateF
  split
  · rfl
  rw [zero_mul, z]
  have key : ∀ ms : List Motion, (∀ m ∈ ms.takeWhile Motion.isValid, 0 ≤ m.length.getD 0) →
      PathRS.interpLoopF (PathRS.moveF lm R) R 0 ms (some init) 0 = some init := by
    intro ms
    induction ms with
    | nil => intro _; rfl
    | cons m ms ih =>
      intro h
      rw [PathRS.interpLoopF]
      by_cases hv : m.isValid
      · rw [List.takeWhile_cons, if_pos hv] at h
        rw [if_pos hv]
        dsimp only
        split
        · exact ih fun x hx => h x (by simp [hx])
        · rw [sub_zero, z, zero_div, z, min_eq_left zero_le_one, mul_zero, z, move_zero hlm R hi hx hy, if_pos]
          exact fl_nonneg 53 (add_nonneg le_rfl (fl_nonneg 53 (mul_nonneg (h m (by simp)) hR.le)))
      · rw [if_neg hv]
  exact key s.motions fun m hm => (hs.1 m hm).1

/-- A Reeds-Shepp path of the program. -/
noncomputable def pathOfF (lm : Libm) (init : PoseR) (s : Segment) (R : ℝ) : AnyPath :=
  ⟨init, s.getLengthF R, fun r => (PathRS.poseF lm init s R r).getD init⟩

/-- C136: the headings that a Reeds-Shepp path returns are what C127 asks for. -/
theorem C136_headings (lm : Libm) (hlm : lm.Accurate) (init : PoseR) (hi : Wrapped init.theta) (s : Segment)
    (hs : DoubleSegment s) (h7 : ShortTurns s.valid) (R : ℝ) (hR : 0 < R) : Headings (pathOfF lm init s R) := by
  have big : ∀ t : ℝ, Wrapped t → IsFlt 53 t ∧ |t| ≤ 2 ^ 56 := by
    intro t ht
    have := mPi_bounds.2
    exact ⟨ht.1, ht.2.trans (by norm_num; linarith)⟩
  refine ⟨big _ hi, ?_⟩
  intro t h0 h1
  obtain ⟨p, p1, p2, -⟩ := C136_reeds_shepp_pose lm hlm init hi s hs h7 R hR t h0 h1
  show IsFlt 53 ((PathRS.poseF lm init s R t).getD init).theta ∧ _
  rw [show (pathOfF lm init s R).interpolate t = p by unfold pathOfF; dsimp only; rw [p1]; rfl, p1]
  exact big _ p2

private theorem euclid_close {δ E : ℝ} {p q : PoseR} (h : Close δ E p q) : euclid p.position q.position ≤ 3 / 2 * E := by
  obtain ⟨h1, h2, -⟩ := h
  have hE : 0 ≤ E := (abs_nonneg _).trans h1
  unfold euclid
  rw [Real.sqrt_le_iff]
  refine ⟨by positivity, ?_⟩
  have a1 := sq_le_sq' (by linarith [(abs_le.1 h1).1]) (abs_le.1 h1).2
  have a2 := sq_le_sq' (by linarith [(abs_le.1 h2).1]) (abs_le.1 h2).2
  nlinarith [sq_nonneg E]

/-- C136: what C127 asks of a path holds of the Reeds-Shepp paths of the program: they move no faster than their length, up
to `T / 2^43` and 2^-47 of the coordinates of the start. -/
theorem C136_unit_speed (lm : Libm) (hlm : lm.Accurate) (init : PoseR) (hi : Wrapped init.theta) (s : Segment)
    (hs : DoubleSegment s) (h7 : ShortTurns s.valid) (R : ℝ) (hR : 0 < R) :
    Validator.UnitSpeedUpTo (driven R s.valid / 2 ^ 43 + max |init.position.x| |init.position.y| / 2 ^ 47)
      (pathOfF lm init s R) := by
  intro a b a0 a1 b0 b1
  obtain ⟨p, p1, -, p3⟩ := C136_reeds_shepp_pose lm hlm init hi s hs h7 R hR a a0 a1
  obtain ⟨q, q1, -, q3⟩ := C136_reeds_shepp_pose lm hlm init hi s hs h7 R hR b b0 b1
  have e1 : (pathOfF lm init s R).interpolate a = p := by unfold pathOfF; dsimp only; rw [p1]; rfl
  have e2 : (pathOfF lm init s R).interpolate b = q := by unfold pathOfF; dsimp only; rw [q1]; rfl
  rw [e1, e2, show (pathOfF lm init s R).length = s.getLengthF R from rfl]
  have hT := driven_nonneg hR.le hs.1
  have hM : 0 ≤ max |init.position.x| |init.position.y| := (abs_nonneg _).trans (le_max_left _ _)
  have hlen := abs_le.1 (C132_length s hs R hR.le)
  have hsp : ∀ x y : ℝ, 0 ≤ x → x ≤ y →
      euclid (driveDist init (x * driven R s.valid) (stretches R s.motions)).position
        (driveDist init (y * driven R s.valid) (stretches R s.motions)).position ≤ (y - x) * driven R s.valid := by
    intro x y hx hxy
    rw [sub_mul]
    refine driveDist_speed (fun c hc => ⟨?_, stretches_sense R _ c hc⟩) init (mul_nonneg hx hT)
      (mul_le_mul_of_nonneg_right hxy hT)
    obtain ⟨m, hm, rfl⟩ := List.mem_map.1 hc
    exact mul_nonneg (hs.1 m hm).1 hR.le
  have symm : ∀ x y : Pt, euclid x y = euclid y x := fun x y => by rw [euclid_swap]; rfl
  have hmid : euclid (driveDist init (a * driven R s.valid) (stretches R s.motions)).position
      (driveDist init (b * driven R s.valid) (stretches R s.motions)).position ≤ |b - a| * driven R s.valid := by
    rcases le_total a b with h | h
    · rw [abs_of_nonneg (by linarith)]; exact hsp a b a0 h
    · rw [abs_of_nonpos (by linarith), neg_sub, symm]; exact hsp b a b0 h
  have c1 := euclid_close p3
  have c2 := euclid_close q3
  rw [symm] at c2
  have t1 := euclid_tri p.position (driveDist init (a * driven R s.valid) (stretches R s.motions)).position q.position
  have t2 := euclid_tri (driveDist init (a * driven R s.valid) (stretches R s.motions)).position
    (driveDist init (b * driven R s.valid) (stretches R s.motions)).position q.position
  have hab : |b - a| ≤ 1 := abs_le.2 ⟨by linarith, by linarith⟩
  have g : |b - a| * driven R s.valid ≤ |b - a| * s.getLengthF R + 12 * (driven R s.valid / 2 ^ 53) := by
    have : |b - a| * (driven R s.valid - s.getLengthF R) ≤ 1 * (12 * (driven R s.valid / 2 ^ 53)) := by
      refine (mul_le_mul_of_nonneg_left (by linarith [hlen.1]) (abs_nonneg _)).trans
        (mul_le_mul_of_nonneg_right hab (by positivity))
    linarith
  obtain ⟨T, hTT⟩ : ∃ T, T = driven R s.valid := ⟨_, rfl⟩
  obtain ⟨M, hMM⟩ : ∃ M, M = max |init.position.x| |init.position.y| := ⟨_, rfl⟩
  obtain ⟨y, hyy⟩ : ∃ y, y = |b - a| * s.getLengthF R := ⟨_, rfl⟩
  rw [← hTT] at hT g c1 c2 t1 t2 hmid ⊢
  rw [← hMM] at hM c1 c2 ⊢
  rw [← hyy] at g ⊢
  norm_num at g c1 c2 ⊢
  linarith

/-- C127: an accepted Reeds-Shepp path of the program keeps, with a single obstacle, the safe radius, less the interpolation
step and the diagonal of a cell, from it, up to the rounding errors of C127 and of the poses. Missing: several obstacles, the
final state (C53, C70). -/
theorem C127_reeds_shepp_clearance_partial (lm : Libm) (hlm : lm.Accurate) (init : PoseR) (hi : Wrapped init.theta)
    (s : Segment) (hs : DoubleSegment s) (h7 : ShortTurns s.valid) (R : ℝ) (hR : 0 < R) (hT : 0 < driven R s.valid)
    (v : Validator) (ops : List DistMap.Op)
    (hrun : DistMap.Run (.new v.map.rows v.map.columns) (ops ++ [.update]) v.dist)
    (hres : 0 < v.map.resolution) (hrows : v.map.rows ≤ 2 ^ 31) (hcols : v.map.columns ≤ 2 ^ 31)
    (hstep : 0 < v.minStep) (hsafe : 0 ≤ v.minSafe) (hl : s.getLengthF R ≤ 2 ^ 52 * v.minStep)
    (r : ℝ) (ha : v.isPathValidF (pathOfF lm init s R) = some (true, r))
    (o : Cell) (ho : ∀ o', o' ∈ obstacles ops ↔ o' = o) (hn : NoUnset ops) (hoin : InRect v.map.rows v.map.columns o)
    (t : ℝ) (ht : 0 ≤ t) (ht1 : t < 1) :
    ∃ p, PathRS.poseF lm init s R t = some p ∧
    v.minSafe - v.minStep - √2 * v.map.resolution
      - ((2 ^ 18)⁻¹ * v.map.resolution
        + (2 ^ 21)⁻¹ * (√((v.map.rows : ℝ) ^ 2 + (v.map.columns : ℝ) ^ 2) * v.map.resolution)
        + (2 ^ 53)⁻¹ * v.minStep + (2 ^ 52)⁻¹ * s.getLengthF R
        + (driven R s.valid / 2 ^ 43 + max |init.position.x| |init.position.y| / 2 ^ 47))
      ≤ euclid p.position (v.map.gridCellToWorldPosition o) := by
  obtain ⟨p, p1, -, -⟩ := C136_reeds_shepp_pose lm hlm init hi s hs h7 R hR t ht ht1.le
  refine ⟨p, p1, ?_⟩
  have hq : 0 < (pathOfF lm init s R).length := by
    show 0 < s.getLengthF R
    have := abs_le.1 (C132_length s hs R hR.le)
    norm_num at this
    linarith
  have := Validator.C127_constant_clearance_partial v ops hrun hres hrows hcols hstep hsafe (pathOfF lm init s R) hq hl
    (C136_headings lm hlm init hi s hs h7 R hR) _ (C136_unit_speed lm hlm init hi s hs h7 R hR) r ha o ho hn hoin t ht ht1
  rw [show (pathOfF lm init s R).interpolate t = p by unfold pathOfF; dsimp only; rw [p1]; rfl] at this
  exact this

/-! ## Examples -/

/-- A library that rounds correctly. -/
private noncomputable def bestLibm : Libm := ⟨fun x => fl64 (Real.sin x), fun x => fl64 (Real.cos x)⟩

private theorem bestLibm_accurate : bestLibm.Accurate := by
  intro x _
  have half : ((2 : ℝ) ^ 53)⁻¹ ≤ (2 ^ 52)⁻¹ := by norm_num
  exact ⟨(fl_rel 53 (Real.sin x)).trans (mul_le_mul_of_nonneg_right half (abs_nonneg _)),
    (fl_rel 53 (Real.cos x)).trans (mul_le_mul_of_nonneg_right half (abs_nonneg _))⟩

private theorem int_flt {n : ℤ} (hn : |n| ≤ 2 ^ 53) : IsFlt 53 (n : ℝ) := fl_int h53 hn

private theorem wrapped_one : Wrapped 1 := by
  refine ⟨by simpa using int_flt (n := 1) (by norm_num), ?_⟩
  have := mPi_bounds.1
  rw [abs_one]; linarith

/-- Left forward by 1, backward to the right by 2, straight forward by 3. -/
private noncomputable def threeMotions : Segment :=
  ⟨[⟨.left, .forward, some 1⟩, ⟨.right, .backward, some 2⟩, ⟨.straight, .forward, some 3⟩, {}, {}], 6⟩

private theorem threeMotions_valid : threeMotions.valid =
    [⟨.left, .forward, some 1⟩, ⟨.right, .backward, some 2⟩, ⟨.straight, .forward, some 3⟩] := by
  simp [Segment.valid, threeMotions, List.takeWhile_cons, Motion.isValid]

private theorem threeMotions_double : DoubleSegment threeMotions := by
  have f : ∀ n : ℤ, |n| ≤ 2 ^ 53 → fl64 (n : ℝ) = n := fun n hn => fl_int h53 hn
  refine ⟨?_, by simp [threeMotions], ?_⟩
  · rw [threeMotions_valid]
    intro m hm
    simp only [List.mem_cons, List.not_mem_nil, or_false] at hm
    rcases hm with rfl | rfl | rfl
    · exact ⟨by norm_num, by simpa using int_flt (n := 1) (by norm_num)⟩
    · exact ⟨by norm_num, by simpa using int_flt (n := 2) (by norm_num)⟩
    · exact ⟨by norm_num, by simpa using int_flt (n := 3) (by norm_num)⟩
  · rw [threeMotions_valid]
    have f1 := f 1 (by norm_num)
    have f3 := f 3 (by norm_num)
    have f6 := f 6 (by norm_num)
    push_cast at f1 f3 f6
    simp only [List.map_cons, List.map_nil, List.foldl_cons, List.foldl_nil, Option.getD_some, zero_add, f1]
    norm_num [threeMotions, f3, f6]

private theorem threeMotions_short : ShortTurns threeMotions.valid := by
  rw [threeMotions_valid]
  intro m hm _
  simp only [List.mem_cons, List.not_mem_nil, or_false] at hm
  rcases hm with rfl | rfl | rfl <;> norm_num

/-- Non-vacuity of `C136_reeds_shepp_pose`, `C136_reeds_shepp_final`, `C136_reeds_shepp_start`, `C136_headings` and
`C136_unit_speed`. -/
example : bestLibm.Accurate ∧ Wrapped (⟨⟨10, 20⟩, 1⟩ : PoseR).theta ∧ IsFlt 53 10 ∧ IsFlt 53 20 ∧ DoubleSegment threeMotions ∧
    ShortTurns threeMotions.valid ∧ threeMotions.valid.length = 3 ∧ driven 5 threeMotions.valid = 30 :=
  ⟨bestLibm_accurate, wrapped_one, by simpa using int_flt (n := 10) (by norm_num),
    by simpa using int_flt (n := 20) (by norm_num), threeMotions_double, threeMotions_short,
    by rw [threeMotions_valid]; rfl, by rw [threeMotions_valid]; norm_num [driven]⟩

/-- Non-vacuity of `C136_sum` and `C136_difference`: two poses with the heading 1; the heading of the sum is 2. -/
example : ∃ r, (⟨⟨10, 20⟩, 1⟩ : PoseR).addF bestLibm ⟨⟨3, 4⟩, 1⟩ = some r ∧ |r.theta - 2| ≤ 1 / 2 ^ 40 := by
  obtain ⟨r, h1, h2, -, -, k, h3⟩ := C136_sum bestLibm bestLibm_accurate ⟨⟨10, 20⟩, 1⟩ ⟨⟨3, 4⟩, 1⟩ wrapped_one wrapped_one
  refine ⟨r, h1, ?_⟩
  have hp := Real.pi_gt_three
  have hm := mPi_bounds
  have hr := abs_le.1 h2.2
  have h3' := abs_le.1 h3
  have hk : k = 0 := by
    have k1 : (k : ℝ) < 1 := by
      by_contra h
      have : 1 * (2 * Real.pi) ≤ k * (2 * Real.pi) := mul_le_mul_of_nonneg_right (not_lt.1 h) (by linarith)
      norm_num at h3'
      linarith
    have k2 : (-1 : ℝ) < k := by
      by_contra h
      have : k * (2 * Real.pi) ≤ -1 * (2 * Real.pi) := mul_le_mul_of_nonneg_right (not_lt.1 h) (by linarith)
      norm_num at h3'
      linarith
    have k1' : k < 1 := by exact_mod_cast k1
    have k2' : -1 < k := by exact_mod_cast k2
    omega
  rw [hk] at h3
  norm_num at h3 ⊢
  linarith

/-- Straight forward by 1. -/
private noncomputable def oneStraight : Segment := ⟨[⟨.straight, .forward, some 1⟩, {}, {}, {}, {}], 1⟩

/-- Non-vacuity of `C127_reeds_shepp_clearance_partial`: an obstacle in the corner cell of the 10 × 10 map, and an accepted path
of length 1. -/
example : ∃ (v : Validator) (o : Cell), Wrapped (⟨⟨5 / 2, 3⟩, 0⟩ : PoseR).theta ∧ DoubleSegment oneStraight ∧
    ShortTurns oneStraight.valid ∧ 0 < driven 1 oneStraight.valid ∧
    DistMap.Run (.new v.map.rows v.map.columns) ([.set o] ++ [.update]) v.dist ∧
    0 < v.map.resolution ∧ v.map.rows ≤ 2 ^ 31 ∧ v.map.columns ≤ 2 ^ 31 ∧ 0 < v.minStep ∧ 0 ≤ v.minSafe ∧
    oneStraight.getLengthF 1 ≤ 2 ^ 52 * v.minStep ∧
    v.isPathValidF (pathOfF bestLibm ⟨⟨5 / 2, 3⟩, 0⟩ oneStraight 1) = some (true, 1) ∧
    (∀ o', o' ∈ obstacles [.set o] ↔ o' = o) ∧ NoUnset [.set o] ∧ InRect v.map.rows v.map.columns o := by
  have f1 : fl64 1 = 1 := by
    have := fl_int (p := 53) h53 (n := 1) (by norm_num)
    simpa [fl64] using this
  have w0 : Wrapped 0 := by
    refine ⟨fl_zero 53, ?_⟩
    have := mPi_bounds.1
    rw [abs_zero]; linarith
  have hval : oneStraight.valid = [⟨.straight, .forward, some 1⟩] := by
    simp [Segment.valid, oneStraight, List.takeWhile_cons, Motion.isValid]
  have hds : DoubleSegment oneStraight := by
    refine ⟨?_, by simp [oneStraight], ?_⟩
    · rw [hval]
      intro m hm
      rw [List.mem_singleton.1 hm]
      exact ⟨by norm_num, f1⟩
    · rw [hval]
      simp [oneStraight, f1]
  have hsh : ShortTurns oneStraight.valid := by
    rw [hval]
    intro m hm
    rw [List.mem_singleton.1 hm]
    simp
  have hlen : oneStraight.getLengthF 1 = 1 := by simp [Segment.getLengthF, oneStraight, f1]
  have hdr : driven 1 oneStraight.valid = 1 := by rw [hval]; simp [driven]
  obtain ⟨d, hd⟩ := DistMap.exists_run (rows := 10) (columns := 10) ([.set ⟨0, 0⟩] ++ [.update]) (by
    intro o ho
    simp only [List.cons_append, List.nil_append, List.mem_cons, List.not_mem_nil, or_false] at ho
    rcases ho with rfl | rfl <;> simp [OpIn, InRect])
  have hst : (Validator.exValidator d).minStep = 1 / 10 := rfl
  refine ⟨Validator.exValidator d, ⟨0, 0⟩, w0, hds, hsh, by rw [hdr]; norm_num, hd, by norm_num [Validator.exValidator, Validator.exMap],
    by norm_num [Validator.exValidator, Validator.exMap], by norm_num [Validator.exValidator, Validator.exMap],
    by norm_num [Validator.exValidator], by norm_num [Validator.exValidator], by rw [hlen, hst]; norm_num, ?_, ?_, ?_,
    by simp [InRect, Validator.exValidator, Validator.exMap]⟩
  · refine Validator.not_rejectedF (DistMap.run_size hd) (by norm_num [Validator.exValidator]) ?_ ?_
      (C136_headings _ bestLibm_accurate _ w0 _ hds hsh 1 one_pos) ?_
    · show 0 < oneStraight.getLengthF 1
      rw [hlen]; norm_num
    · show oneStraight.getLengthF 1 ≤ _
      rw [hlen, hst]; norm_num
    intro r h0 h1
    obtain ⟨p, p1, -, p2, p3, -⟩ := C136_reeds_shepp_pose bestLibm bestLibm_accurate ⟨⟨5 / 2, 3⟩, 0⟩ w0 oneStraight hds hsh 1
      one_pos r h0 h1
    rw [show (pathOfF bestLibm ⟨⟨5 / 2, 3⟩, 0⟩ oneStraight 1).interpolate r = p by
      unfold pathOfF; dsimp only; rw [p1]; rfl]
    have hth : p.theta = 0 := by
      unfold PathRS.poseF PathRS.interpolateF at p1
      rw [if_neg (by rw [hlen]; norm_num)] at p1
      simp only [oneStraight, PathRS.interpLoopF, Motion.isValid, Option.isSome_some, Option.getD_some, mul_one, f1,
        Option.isSome_none, PathRS.moveF, PathRS.straightF, PoseR.mkF, wrap_self w0, Option.bind_eq_bind, Option.bind_some,
        Option.pure_def, one_ne_zero, if_false] at p1
      norm_num at p1
      rw [if_neg (by decide)] at p1
      rw [← Option.some.inj p1]
    have he : driveDist (⟨⟨5 / 2, 3⟩, 0⟩ : PoseR) (r * driven 1 oneStraight.valid) (stretches 1 oneStraight.motions) =
        ⟨⟨5 / 2 + r, 3⟩, 0⟩ := by
      have : stretches 1 oneStraight.motions = [⟨0, 1, 1⟩] := by
        show oneStraight.valid.map (stretch 1) = _
        rw [hval]
        simp [stretch]
      rw [this, hdr, mul_one, driveDist, if_pos h1]
      simp [arc]
    rw [he, hdr] at p2 p3
    norm_num at p2 p3
    have p2 := abs_le.1 p2
    have p3 := abs_le.1 p3
    exact Validator.ex_corner_acceptableF hd (by linarith) (by linarith) (by linarith) (by linarith) hth
  · intro o'
    show (False ∨ o' = ⟨0, 0⟩) ↔ _
    simp
  · intro s hs
    simp at hs

end PathPlanning
