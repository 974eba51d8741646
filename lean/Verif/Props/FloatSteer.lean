import Verif.Model.FloatSteer
import Verif.Props.FloatDrive
import Verif.Props.Path
import Verif.Props.HybridSteer
import Verif.Lemmas.FloatRel
import Mathlib.Analysis.SpecialFunctions.Trigonometric.ArctanDeriv
import Mathlib.Analysis.Calculus.MeanValue

/-!
# C137: constant-steer motions with `double` and a mathematical library of limited accuracy
-/

namespace PathPlanning
open Flt Spec

/-- The library is accurate: for every `double`, the functions are right up to one unit in the last place. -/
def LibmSteer.Accurate (lm : LibmSteer) : Prop :=
  lm.toLibm.Accurate ∧ ∀ x, IsFlt 53 x →
    |lm.tan x - Real.tan x| ≤ (2 ^ 52)⁻¹ * |Real.tan x| ∧
    (IsFlt 53 (lm.atan x) ∧ |lm.atan x - Real.arctan x| ≤ (2 ^ 52)⁻¹ * |Real.arctan x|) ∧
    |lm.sq x - x ^ 2| ≤ (2 ^ 52)⁻¹ * x ^ 2

/-- Where the vehicle is after its rear axle has been driven the signed distance `d` with the steering angle `s`: the rear
axle follows the arc of curvature `tan s / wheelbase`, and the reference point is `rearToCenter` ahead of it. -/
noncomputable def steered (m : Bicycle) (p : PoseR) (s d : ℝ) : PoseR :=
  let q := arc (Real.tan s / m.wheelbase) d ⟨rearAxle m p, p.theta⟩
  ⟨⟨q.position.x + m.rearToCenter * Real.cos q.theta, q.position.y + m.rearToCenter * Real.sin q.theta⟩, q.theta⟩

/-- The signed distance: negative backward. -/
def signed (dir : Direction) (d : ℝ) : ℝ := if dir = .backward then -d else d

local notation "𝓊" => ((2 : ℝ) ^ 53)⁻¹

private theorem h53 : 1 ≤ 53 := by norm_num
private theorem u0 : (0 : ℝ) ≤ 𝓊 := by positivity
private theorem u1 : 𝓊 ≤ 1 / 10 ^ 15 := by norm_num

/-! ## Relative errors -/

private theorem factor {x x' e : ℝ} (h : |x' - x| ≤ e * |x|) (e0 : 0 ≤ e) : ∃ a, |a| ≤ e ∧ x' = x * (1 + a) := by
  by_cases hx : x = 0
  · subst hx
    rw [abs_zero, mul_zero, sub_zero] at h
    exact ⟨0, by simpa using e0, by rw [zero_mul]; exact abs_eq_zero.1 (le_antisymm h (abs_nonneg _))⟩
  · refine ⟨(x' - x) / x, ?_, by field_simp; ring⟩
    rw [abs_div, div_le_iff₀ (abs_pos.2 hx)]
    exact h

private theorem unfactor {x x' e a : ℝ} (ha : |a| ≤ e) (h : x' = x * (1 + a)) : |x' - x| ≤ e * |x| := by
  rw [h, show x * (1 + a) - x = a * x by ring, abs_mul]
  exact mul_le_mul_of_nonneg_right ha (abs_nonneg _)

private theorem fl_factor (x : ℝ) : ∃ c, |c| ≤ 𝓊 ∧ fl64 x = x * (1 + c) := factor (fl_rel 53 x) u0

private theorem two_fac {a b A B : ℝ} (ha : |a| ≤ A) (hb : |b| ≤ B) :
    ∃ c, |c| ≤ A + B + A * B ∧ (1 + a) * (1 + b) = 1 + c := by
  refine ⟨a + b + a * b, ?_, by ring⟩
  have h0 := (abs_nonneg a).trans ha
  calc |a + b + a * b| ≤ |a + b| + |a * b| := abs_add_le _ _
    _ ≤ |a| + |b| + |a * b| := add_le_add (abs_add_le _ _) le_rfl
    _ ≤ _ := by
      rw [abs_mul]
      exact add_le_add (add_le_add ha hb) (mul_le_mul ha hb (abs_nonneg _) h0)

private theorem inv_fac {b B : ℝ} (hb : |b| ≤ B) (h : B ≤ 1 / 2) :
    ∃ c, |c| ≤ B + 2 * B ^ 2 ∧ (1 + b)⁻¹ = 1 + c := by
  obtain ⟨b1, b2⟩ := abs_le.1 hb
  have hp : 0 < 1 + b := by linarith
  refine ⟨(1 + b)⁻¹ - 1, ?_, by ring⟩
  rw [show (1 + b)⁻¹ - 1 = -b / (1 + b) by field_simp; ring, abs_div, abs_neg, abs_of_pos hp, div_le_iff₀ hp]
  have h0 := (abs_nonneg b).trans hb
  nlinarith

private theorem re_mul {x y x' y' i j : ℝ} (i0 : 0 ≤ i) (i1 : i ≤ 64) (j0 : 0 ≤ j) (j1 : j ≤ 64)
    (hx : |x' - x| ≤ i * 𝓊 * |x|) (hy : |y' - y| ≤ j * 𝓊 * |y|) :
    |fl64 (x' * y') - x * y| ≤ (i + j + 5 / 4) * 𝓊 * |x * y| := by
  obtain ⟨a, ha, hx⟩ := factor hx (mul_nonneg i0 u0)
  obtain ⟨b, hb, hy⟩ := factor hy (mul_nonneg j0 u0)
  obtain ⟨c, hc, he⟩ := fl_factor (x' * y')
  obtain ⟨d, hd, h1⟩ := two_fac ha hb
  obtain ⟨e, he', h2⟩ := two_fac hd hc
  refine unfactor (a := e) (he'.trans ?_) ?_
  · have hu := u0
    have hu1 := u1
    have hij : i * j ≤ 64 * 64 := mul_le_mul i1 j1 j0 (by norm_num)
    have hij0 := mul_nonneg i0 j0
    have : i * 𝓊 * (j * 𝓊) = (i * j) * 𝓊 * 𝓊 := by ring
    rw [this]
    have q1 : (i * j) * 𝓊 * 𝓊 ≤ 4096 * 𝓊 * 𝓊 :=
      mul_le_mul_of_nonneg_right (mul_le_mul_of_nonneg_right (by linarith) hu) hu
    have q2 : 4096 * 𝓊 * 𝓊 ≤ 1 / 100 * 𝓊 := by norm_num
    have q3 : (i * 𝓊 + j * 𝓊 + i * j * 𝓊 * 𝓊) * 𝓊 ≤ 1 / 100 * 𝓊 := by
      refine mul_le_mul_of_nonneg_right ?_ hu
      have : i * 𝓊 ≤ 64 * 𝓊 := mul_le_mul_of_nonneg_right i1 hu
      have : j * 𝓊 ≤ 64 * 𝓊 := mul_le_mul_of_nonneg_right j1 hu
      linarith
    linarith
  · rw [he, hx, hy, ← h2, ← h1]; ring

private theorem re_div {x y x' y' i j : ℝ} (i0 : 0 ≤ i) (i1 : i ≤ 64) (j0 : 0 ≤ j) (j1 : j ≤ 64)
    (hx : |x' - x| ≤ i * 𝓊 * |x|) (hy : |y' - y| ≤ j * 𝓊 * |y|) :
    |fl64 (x' / y') - x / y| ≤ (i + j + 5 / 4) * 𝓊 * |x / y| := by
  obtain ⟨a, ha, hx⟩ := factor hx (mul_nonneg i0 u0)
  obtain ⟨b, hb, hy⟩ := factor hy (mul_nonneg j0 u0)
  have hu := u0
  have hu1 := u1
  have jj : j * 𝓊 ≤ 64 * 𝓊 := mul_le_mul_of_nonneg_right j1 hu
  have ii : i * 𝓊 ≤ 64 * 𝓊 := mul_le_mul_of_nonneg_right i1 hu
  obtain ⟨b', hb', h0⟩ := inv_fac hb (by linarith)
  obtain ⟨c, hc, he⟩ := fl_factor (x' / y')
  obtain ⟨d, hd, h1⟩ := two_fac ha hb'
  obtain ⟨e, he', h2⟩ := two_fac hd hc
  refine unfactor (a := e) (he'.trans ?_) ?_
  · have hj0 := mul_nonneg j0 hu
    have hi0 := mul_nonneg i0 hu
    obtain ⟨w, hw⟩ : ∃ w, w = j * 𝓊 := ⟨_, rfl⟩
    obtain ⟨v, hv⟩ : ∃ v, v = i * 𝓊 := ⟨_, rfl⟩
    rw [← hw] at jj hj0 ⊢
    rw [← hv] at ii hi0 ⊢
    have q1 : w ^ 2 ≤ 64 * 𝓊 * (64 * 𝓊) := by rw [sq]; exact mul_le_mul jj jj hj0 (by positivity)
    have q4 : 64 * 𝓊 * (64 * 𝓊) ≤ 1 / 10000 * 𝓊 := by norm_num
    have q5 : v * (w + 2 * w ^ 2) ≤ 1 / 10000 * 𝓊 := by
      refine (mul_le_mul ii (show w + 2 * w ^ 2 ≤ 65 * 𝓊 by linarith) (by positivity) (by positivity)).trans ?_
      norm_num
    have q6 : (v + (w + 2 * w ^ 2) + v * (w + 2 * w ^ 2)) * 𝓊 ≤ 1 / 100 * 𝓊 :=
      mul_le_mul_of_nonneg_right (by linarith) hu
    rw [show (i + j + 5 / 4) * 𝓊 = v + w + 5 / 4 * 𝓊 by rw [hv, hw]; ring]
    linarith
  · rw [he, hx, hy, ← h2, ← h1, ← h0, div_eq_mul_inv, mul_inv]; ring

private theorem re_self (x : ℝ) : |x - x| ≤ 0 * 𝓊 * |x| := by simp

private theorem re_mono {x x' i j : ℝ} (h : |x' - x| ≤ i * 𝓊 * |x|) (hij : i ≤ j) : |x' - x| ≤ j * 𝓊 * |x| :=
  h.trans (mul_le_mul_of_nonneg_right (mul_le_mul_of_nonneg_right hij u0) (abs_nonneg _))

/-- The sum of two perturbed numbers, rounded. -/
private theorem ae_add {x y x' y' X Y a b : ℝ} (hx : |x| ≤ X) (hy : |y| ≤ Y) (hx' : |x' - x| ≤ a)
    (hy' : |y' - y| ≤ b) : |fl64 (x' + y') - (x + y)| ≤ a + b + 𝓊 * (X + Y + a + b) := by
  have h1 : |x' + y' - (x + y)| ≤ a + b := by
    rw [show x' + y' - (x + y) = (x' - x) + (y' - y) by ring]
    exact (abs_add_le _ _).trans (add_le_add hx' hy')
  have h2 : |x' + y'| ≤ X + Y + a + b := by
    calc |x' + y'| = |(x' + y' - (x + y)) + (x + y)| := by ring_nf
      _ ≤ |x' + y' - (x + y)| + |x + y| := abs_add_le _ _
      _ ≤ (a + b) + (|x| + |y|) := add_le_add h1 (abs_add_le _ _)
      _ ≤ _ := by linarith
  calc |fl64 (x' + y') - (x + y)| = |(fl64 (x' + y') - (x' + y')) + (x' + y' - (x + y))| := by ring_nf
    _ ≤ |fl64 (x' + y') - (x' + y')| + |x' + y' - (x + y)| := abs_add_le _ _
    _ ≤ 𝓊 * (X + Y + a + b) + (a + b) :=
      add_le_add ((fl_rel 53 (x' + y')).trans (mul_le_mul_of_nonneg_left h2 u0)) h1
    _ = _ := by ring

private theorem ulp_eq : ((2 : ℝ) ^ 52)⁻¹ = 2 * 𝓊 := by norm_num

private theorem lip_cos (a b : ℝ) : |Real.cos a - Real.cos b| ≤ |a - b| := by
  have := Real.lipschitzWith_cos.dist_le_mul a b
  simpa [Real.dist_eq] using this

private theorem lip_sin (a b : ℝ) : |Real.sin a - Real.sin b| ≤ |a - b| := by
  have := Real.lipschitzWith_sin.dist_le_mul a b
  simpa [Real.dist_eq] using this

private theorem lip_arctan (a b : ℝ) : |Real.arctan a - Real.arctan b| ≤ |a - b| := by
  have := convex_univ.norm_image_sub_le_of_norm_hasDerivWithin_le (f := Real.arctan) (f' := fun x => 1 / (1 + x ^ 2))
    (C := 1) (s := Set.univ) (x := b) (y := a) (fun x _ => (Real.hasDerivAt_arctan x).hasDerivWithinAt) (fun x _ => ?_)
    (Set.mem_univ _) (Set.mem_univ _)
  · simpa [Real.norm_eq_abs] using this
  · rw [Real.norm_eq_abs, abs_of_nonneg (by positivity), div_le_one (by positivity)]
    nlinarith [sq_nonneg x]

private theorem arctan_le (a : ℝ) : |Real.arctan a| ≤ |a| := by
  have := lip_arctan a 0
  simpa using this

/-- `sin` and `cos` of a perturbed angle. -/
private theorem trig_arg {lm : Libm} (h : lm.Accurate) {t t' e : ℝ} (ht : IsFlt 53 t') (he : |t' - t| ≤ e) :
    |lm.sin t' - Real.sin t| ≤ 2 * 𝓊 + e ∧ |lm.cos t' - Real.cos t| ≤ 2 * 𝓊 + e := by
  obtain ⟨h1, h2⟩ := h t' ht
  rw [ulp_eq] at h1 h2
  have s1 := Real.abs_sin_le_one t'
  have c1 := Real.abs_cos_le_one t'
  have hu := u0
  constructor
  · calc |lm.sin t' - Real.sin t| = |(lm.sin t' - Real.sin t') + (Real.sin t' - Real.sin t)| := by ring_nf
      _ ≤ _ := abs_add_le _ _
      _ ≤ 2 * 𝓊 * 1 + |t' - t| :=
        add_le_add (h1.trans (mul_le_mul_of_nonneg_left s1 (by positivity))) (lip_sin _ _)
      _ ≤ _ := by linarith
  · calc |lm.cos t' - Real.cos t| = |(lm.cos t' - Real.cos t') + (Real.cos t' - Real.cos t)| := by ring_nf
      _ ≤ _ := abs_add_le _ _
      _ ≤ 2 * 𝓊 * 1 + |t' - t| :=
        add_le_add (h2.trans (mul_le_mul_of_nonneg_left c1 (by positivity))) (lip_cos _ _)
      _ ≤ _ := by linarith

/-- The curvature, the slip angle and its cosine. -/
private theorem geometry_err {lm : LibmSteer} (h : lm.Accurate) {m : Bicycle} {s : ℝ}
    (hs : IsFlt 53 s) (ha : |m.rearToCenter * Real.tan s| ≤ |m.wheelbase|) :
    (IsFlt 53 (m.betaF lm s) ∧ |m.betaF lm s - m.beta s| ≤ 7 * 𝓊 ∧ |m.beta s| ≤ 1) ∧
    (|lm.cos (m.betaF lm s) - Real.cos (m.beta s)| ≤ 13 * 𝓊 * |Real.cos (m.beta s)| ∧ 7 / 10 ≤ Real.cos (m.beta s)) ∧
    |m.dThetaDdistF lm s - m.dThetaDdist s| ≤ 35 / 2 * 𝓊 * |m.dThetaDdist s| := by
  have hu := u0
  have hu1 := u1
  obtain ⟨htan, -, -⟩ := h.2 s hs
  rw [ulp_eq] at htan
  have h1 := re_div (i := 0 + 2 + 5 / 4) (j := 0) (by norm_num) (by norm_num) (by norm_num) (by norm_num)
    (re_mul (i := 0) (j := 2) (by norm_num) (by norm_num) (by norm_num) (by norm_num) (re_self m.rearToCenter) htan)
    (re_self m.wheelbase)
  obtain ⟨a, hadef⟩ : ∃ a, a = m.rearToCenter * Real.tan s / m.wheelbase := ⟨_, rfl⟩
  obtain ⟨a', hadef'⟩ : ∃ a', a' = fl64 (fl64 (m.rearToCenter * lm.tan s) / m.wheelbase) := ⟨_, rfl⟩
  have hb : m.beta s = Real.arctan a := by rw [hadef]; rfl
  have hb' : m.betaF lm s = lm.atan a' := by rw [hadef']; rfl
  rw [← hadef, ← hadef'] at h1
  have haf : IsFlt 53 a' := by rw [hadef']; exact isFlt_fl 53 h53 _
  have ha1 : |a| ≤ 1 := by
    rw [hadef, abs_div]
    exact div_le_one_of_le₀ ha (abs_nonneg _)
  obtain ⟨-, ⟨hbf, hat⟩, -⟩ := h.2 a' haf
  rw [ulp_eq] at hat
  have ha2 : |a' - a| ≤ 9 / 2 * 𝓊 := by
    refine h1.trans ?_
    have : (0 + 2 + 5 / 4 + 0 + 5 / 4) * 𝓊 * |a| ≤ (0 + 2 + 5 / 4 + 0 + 5 / 4) * 𝓊 * 1 :=
      mul_le_mul_of_nonneg_left ha1 (by positivity)
    linarith
  have ha3 : |a'| ≤ 101 / 100 := by
    calc |a'| = |(a' - a) + a| := by ring_nf
      _ ≤ _ := abs_add_le _ _
      _ ≤ _ := by linarith
  have hbe : |m.betaF lm s - m.beta s| ≤ 7 * 𝓊 := by
    rw [hb, hb']
    calc |lm.atan a' - Real.arctan a| = |(lm.atan a' - Real.arctan a') + (Real.arctan a' - Real.arctan a)| := by ring_nf
      _ ≤ _ := abs_add_le _ _
      _ ≤ 2 * 𝓊 * (101 / 100) + 9 / 2 * 𝓊 :=
        add_le_add (hat.trans (mul_le_mul_of_nonneg_left ((arctan_le _).trans ha3) (by positivity)))
          ((lip_arctan _ _).trans ha2)
      _ ≤ _ := by linarith
  have hc0 : 7 / 10 ≤ Real.cos (m.beta s) := by
    rw [hb, Real.cos_arctan, le_div_iff₀ (by positivity)]
    have : √(1 + a ^ 2) ≤ 10 / 7 := by
      rw [Real.sqrt_le_iff]
      refine ⟨by norm_num, ?_⟩
      have : a ^ 2 ≤ 1 := by rw [← sq_abs]; exact pow_le_one₀ (abs_nonneg _) ha1
      linarith
    linarith
  have hbF : IsFlt 53 (m.betaF lm s) := by rw [hb']; exact hbf
  have hce : |lm.cos (m.betaF lm s) - Real.cos (m.beta s)| ≤ 13 * 𝓊 * |Real.cos (m.beta s)| := by
    refine (trig_arg h.1 hbF hbe).2.trans ?_
    rw [abs_of_nonneg (by linarith)]
    have : 13 * 𝓊 * (7 / 10) ≤ 13 * 𝓊 * Real.cos (m.beta s) := mul_le_mul_of_nonneg_left hc0 (by positivity)
    linarith
  refine ⟨⟨hbF, hbe, ?_⟩, ⟨hce, hc0⟩, ?_⟩
  · rw [hb]; exact (arctan_le _).trans ha1
  · have := re_div (i := 13 + 2 + 5 / 4) (j := 0) (by norm_num) (by norm_num) (by norm_num) (by norm_num)
      (re_mul (i := 13) (j := 2) (by norm_num) (by norm_num) (by norm_num) (by norm_num) hce htan)
      (re_self m.wheelbase)
    exact re_mono this (by norm_num)

/-! ## The exact motion -/

private theorem cosb (m : Bicycle) (s : ℝ) : 0 < Real.cos (m.beta s) := Real.cos_arctan_pos _

private theorem sinb (m : Bicycle) (s : ℝ) :
    Real.sin (m.beta s) = m.rearToCenter * Real.tan s / m.wheelbase * Real.cos (m.beta s) := by
  have := Real.tan_arctan (m.rearToCenter * Real.tan s / m.wheelbase)
  rw [Real.tan_eq_sin_div_cos, div_eq_iff (Real.cos_arctan_pos _).ne'] at this
  exact this

/-- The exact motion on the circle of the reference point. -/
private theorem steered_turn {m : Bicycle} {s : ℝ} (hL : m.wheelbase ≠ 0) (ht : Real.tan s ≠ 0) (p : PoseR) (d : ℝ) :
    steered m p s d = ⟨⟨p.position.x + 1 / m.dThetaDdist s *
        (Real.sin (m.beta s + (p.theta + d * (Real.tan s / m.wheelbase))) - Real.sin (m.beta s + p.theta)),
      p.position.y + 1 / m.dThetaDdist s *
        (-Real.cos (m.beta s + (p.theta + d * (Real.tan s / m.wheelbase))) + Real.cos (m.beta s + p.theta))⟩,
      p.theta + d * (Real.tan s / m.wheelbase)⟩ := by
  have hk : Real.tan s / m.wheelbase ≠ 0 := div_ne_zero ht hL
  have hc := (cosb m s).ne'
  have key : ∀ u : ℝ, 1 / m.dThetaDdist s * Real.sin (m.beta s + u) =
      m.rearToCenter * Real.cos u + Real.sin u / (Real.tan s / m.wheelbase) := by
    intro u
    rw [Real.sin_add, sinb]
    unfold Bicycle.dThetaDdist
    field_simp
  have key' : ∀ u : ℝ, 1 / m.dThetaDdist s * Real.cos (m.beta s + u) =
      Real.cos u / (Real.tan s / m.wheelbase) - m.rearToCenter * Real.sin u := by
    intro u
    rw [Real.cos_add, sinb]
    unfold Bicycle.dThetaDdist
    field_simp
  unfold steered arc
  simp only [if_neg hk, rearAxle]
  rw [PoseR.mk.injEq, Pt.mk.injEq, mul_comm d]
  refine ⟨⟨?_, ?_⟩, rfl⟩
  · rw [mul_sub, key, key]; ring
  · rw [mul_add, mul_neg, key', key']; ring

private theorem steered_straight {m : Bicycle} {s : ℝ} (ht : Real.tan s = 0) (p : PoseR) (d : ℝ) :
    steered m p s d = ⟨⟨p.position.x + d * Real.cos p.theta, p.position.y + d * Real.sin p.theta⟩, p.theta⟩ := by
  unfold steered arc
  simp only [ht, zero_div, if_true, rearAxle]
  rw [PoseR.mk.injEq, Pt.mk.injEq]
  exact ⟨⟨by ring, by ring⟩, rfl⟩

/-- A small turn is nearly straight. -/
private theorem sin_line (φ ψ Δ : ℝ) : |Real.sin (φ + Δ) - Real.sin φ - Δ * Real.cos ψ| ≤ |Δ| * (|Δ| + |φ - ψ|) := by
  have := (convex_uIcc φ (φ + Δ)).norm_image_sub_le_of_norm_hasDerivWithin_le (f := fun x => Real.sin x - x * Real.cos ψ)
    (f' := fun x => Real.cos x - Real.cos ψ) (C := |Δ| + |φ - ψ|) (x := φ) (y := φ + Δ)
    (fun x _ => by
      have := (Real.hasDerivAt_sin x).sub ((hasDerivAt_id x).mul_const (Real.cos ψ))
      simp only [one_mul] at this
      exact this.hasDerivWithinAt)
    (fun x hx => by
      rw [Real.norm_eq_abs]
      refine (lip_cos _ _).trans ?_
      have : |x - φ| ≤ |Δ| := by
        have := Set.abs_sub_left_of_mem_uIcc hx
        rwa [show φ + Δ - φ = Δ by ring] at this
      calc |x - ψ| = |(x - φ) + (φ - ψ)| := by ring_nf
        _ ≤ _ := abs_add_le _ _
        _ ≤ _ := by linarith)
    Set.left_mem_uIcc Set.right_mem_uIcc
  rw [Real.norm_eq_abs, Real.norm_eq_abs, show φ + Δ - φ = Δ by ring] at this
  rw [mul_comm |Δ|]
  refine le_trans (le_of_eq ?_) this
  congr 1
  ring

private theorem cos_line (φ ψ Δ : ℝ) :
    |-Real.cos (φ + Δ) + Real.cos φ - Δ * Real.sin ψ| ≤ |Δ| * (|Δ| + |φ - ψ|) := by
  have := sin_line (φ - Real.pi / 2) (ψ - Real.pi / 2) Δ
  rw [show φ - Real.pi / 2 + Δ = (φ + Δ) - Real.pi / 2 by ring, Real.sin_sub_pi_div_two, Real.sin_sub_pi_div_two,
    Real.cos_sub_pi_div_two, show φ - Real.pi / 2 - (ψ - Real.pi / 2) = φ - ψ by ring] at this
  rwa [show -Real.cos (φ + Δ) + Real.cos φ = -Real.cos (φ + Δ) - -Real.cos φ by ring]

/-! ## The turning branch -/

/-- One coordinate, from the difference of the sines or cosines. -/
private theorem coord_err {D D' N N' x T B : ℝ} (hD : |D' - D| ≤ 35 / 2 * 𝓊 * |D|) (hT : 0 ≤ T) (hB : |N| ≤ B)
    (hN : |N' - N| ≤ 𝓊 * (23 + 37 * B + 4 * T)) :
    |fl64 (x + fl64 (fl64 (1 / D') * N')) - (x + 1 / D * N)| ≤ 𝓊 * (25 + 60 * B + 6 * T) / |D| + 𝓊 * |x| := by
  have hu := u0
  have hu1 := u1
  have hB0 : 0 ≤ B := (abs_nonneg _).trans hB
  have h1 := re_div (i := 0) (j := 35 / 2) (by norm_num) (by norm_num) (by norm_num) (by norm_num) (re_self (1 : ℝ)) hD
  obtain ⟨a, ha, h1⟩ := factor h1 (by positivity)
  obtain ⟨c, hc, h2⟩ := fl_factor (fl64 (1 / D') * N')
  obtain ⟨d, hd, h3⟩ := two_fac ha hc
  have hd' : |d| ≤ 20 * 𝓊 := by
    refine hd.trans ?_
    norm_num
  have e1 : fl64 (fl64 (1 / D') * N') = 1 / D * (N' * (1 + d)) := by
    rw [h2, h1, ← h3]; ring
  have hP : |fl64 (fl64 (1 / D') * N') - 1 / D * N| ≤ 𝓊 * (24 + 58 * B + 5 * T) / |D| := by
    rw [e1, ← mul_sub, abs_mul, abs_div, abs_one, mul_comm, mul_one_div]
    refine div_le_div_of_nonneg_right ?_ (abs_nonneg _)
    have q1 : |N'| ≤ B + 𝓊 * (23 + 37 * B + 4 * T) := by
      calc |N'| = |(N' - N) + N| := by ring_nf
        _ ≤ _ := abs_add_le _ _
        _ ≤ _ := by linarith
    calc |N' * (1 + d) - N| = |(N' - N) + d * N'| := by ring_nf
      _ ≤ |N' - N| + |d * N'| := abs_add_le _ _
      _ ≤ 𝓊 * (23 + 37 * B + 4 * T) + 20 * 𝓊 * (B + 𝓊 * (23 + 37 * B + 4 * T)) := by
        rw [abs_mul]
        exact add_le_add hN (mul_le_mul hd' q1 (abs_nonneg _) (by positivity))
      _ = 𝓊 * (23 + 37 * B + 4 * T + 20 * (B + 𝓊 * (23 + 37 * B + 4 * T))) := by ring
      _ ≤ 𝓊 * (24 + 58 * B + 5 * T) := by
        refine mul_le_mul_of_nonneg_left ?_ hu
        have : 𝓊 * (23 + 37 * B + 4 * T) ≤ 1 / 10 ^ 15 * (23 + 37 * B + 4 * T) :=
          mul_le_mul_of_nonneg_right hu1 (by positivity)
        linarith
  have hN0 : |1 / D * N| ≤ B / |D| := by
    rw [abs_mul, abs_div, abs_one, mul_comm, mul_one_div]
    exact div_le_div_of_nonneg_right hB (abs_nonneg _)
  have := ae_add (x := x) (x' := x) (a := 0) le_rfl hN0 (by simp) hP
  refine this.trans ?_
  have k0 : 0 ≤ |D|⁻¹ := by positivity
  simp only [div_eq_mul_inv]
  have e2 : 𝓊 * (25 + 60 * B + 6 * T) * |D|⁻¹ - 𝓊 * (24 + 58 * B + 5 * T) * |D|⁻¹ - 𝓊 * (B * |D|⁻¹ +
      𝓊 * (24 + 58 * B + 5 * T) * |D|⁻¹) = 𝓊 * |D|⁻¹ * (1 + B + T - 𝓊 * (24 + 58 * B + 5 * T)) := by ring
  have e3 : 0 ≤ 1 + B + T - 𝓊 * (24 + 58 * B + 5 * T) := by
    have : 𝓊 * (24 + 58 * B + 5 * T) ≤ 1 / 10 ^ 15 * (24 + 58 * B + 5 * T) :=
      mul_le_mul_of_nonneg_right hu1 (by positivity)
    linarith
  have e4 := mul_nonneg (mul_nonneg hu k0) e3
  linarith

/-- The change of heading, and the heading. -/
private theorem heading_err {lm : LibmSteer} (h : lm.Accurate) {m : Bicycle} {s : ℝ}
    (hs : IsFlt 53 s) (ha : |m.rearToCenter * Real.tan s| ≤ |m.wheelbase|) (d θ : ℝ) :
    |fl64 (θ + fl64 (fl64 (d / lm.cos (m.betaF lm s)) * m.dThetaDdistF lm s)) - (θ + d * (Real.tan s / m.wheelbase))| ≤
      𝓊 * (35 * |d * (Real.tan s / m.wheelbase)| + |θ|) := by
  obtain ⟨-, ⟨hc, hc0⟩, hD⟩ := geometry_err h hs ha
  have hcp : Real.cos (m.beta s) ≠ 0 := by linarith [cosb m s] |> ne_of_gt
  have h1 := re_mul (i := 0 + 13 + 5 / 4) (j := 35 / 2) (by norm_num) (by norm_num) (by norm_num) (by norm_num)
    (re_div (i := 0) (j := 13) (by norm_num) (by norm_num) (by norm_num) (by norm_num) (re_self d) hc) hD
  have e : d / Real.cos (m.beta s) * m.dThetaDdist s = d * (Real.tan s / m.wheelbase) := by
    unfold Bicycle.dThetaDdist; field_simp
  rw [e] at h1
  refine (ae_add (x := θ) (x' := θ) (a := 0) le_rfl le_rfl (by simp) h1).trans ?_
  obtain ⟨B, hB⟩ : ∃ B, B = |d * (Real.tan s / m.wheelbase)| := ⟨_, rfl⟩
  rw [← hB]
  have hB0 : 0 ≤ B := by rw [hB]; exact abs_nonneg _
  have : 𝓊 * B * 𝓊 ≤ 𝓊 * B * (1 / 10 ^ 15) := mul_le_mul_of_nonneg_left u1 (by have := u0; positivity)
  have hu : 0 ≤ 𝓊 * B := mul_nonneg u0 hB0
  ring_nf at this hu ⊢
  linarith

/-- The difference of the sines and of the cosines. -/
private theorem diff_err {lm : LibmSteer} (h : lm.Accurate) {β β' θ φ φ' B : ℝ} (hB : 0 ≤ B) (hφ : |φ - θ| ≤ B)
    (hβ : |β' - β| ≤ 7 * 𝓊) (hβ1 : |β| ≤ 1) (hφ' : |φ' - φ| ≤ 𝓊 * (35 * B + |θ|)) :
    |fl64 (lm.sin (fl64 (β' + φ')) - lm.sin (fl64 (β' + θ))) - (Real.sin (β + φ) - Real.sin (β + θ))| ≤
      𝓊 * (23 + 37 * B + 4 * |θ|) ∧
    |fl64 (-lm.cos (fl64 (β' + φ')) + lm.cos (fl64 (β' + θ))) - (-Real.cos (β + φ) + Real.cos (β + θ))| ≤
      𝓊 * (23 + 37 * B + 4 * |θ|) := by
  have hu := u0
  have hu1 := u1
  have hT := abs_nonneg θ
  have hφ1 : |φ| ≤ |θ| + B := by
    calc |φ| = |θ + (φ - θ)| := by ring_nf
      _ ≤ _ := abs_add_le _ _
      _ ≤ _ := by linarith
  have g1 := ae_add hβ1 hφ1 hβ hφ'
  have g0 := ae_add (x := β) (y := θ) (y' := θ) (b := 0) hβ1 le_rfl hβ (by simp)
  obtain ⟨s1, c1⟩ := trig_arg h.1 (isFlt_fl 53 h53 _) g1
  obtain ⟨s0, c0⟩ := trig_arg h.1 (isFlt_fl 53 h53 _) g0
  obtain ⟨T, hT'⟩ : ∃ T, T = |θ| := ⟨_, rfl⟩
  rw [← hT'] at hT g1 g0 s1 c1 s0 c0 ⊢
  have fin : ∀ z, z ≤ (2 * 𝓊 + (7 * 𝓊 + 𝓊 * (35 * B + T) + 𝓊 * (1 + (T + B) + 7 * 𝓊 + 𝓊 * (35 * B + T)))) +
      (2 * 𝓊 + (7 * 𝓊 + 0 + 𝓊 * (1 + T + 7 * 𝓊 + 0))) + 𝓊 * (1 + 1 +
      (2 * 𝓊 + (7 * 𝓊 + 𝓊 * (35 * B + T) + 𝓊 * (1 + (T + B) + 7 * 𝓊 + 𝓊 * (35 * B + T)))) +
      (2 * 𝓊 + (7 * 𝓊 + 0 + 𝓊 * (1 + T + 7 * 𝓊 + 0)))) → z ≤ 𝓊 * (23 + 37 * B + 4 * T) := by
    intro z hz
    refine hz.trans ?_
    obtain ⟨w, hw⟩ : ∃ w, w = 𝓊 := ⟨_, rfl⟩
    rw [← hw] at hu hu1 ⊢
    have w2 : w * w ≤ 1 / 10 ^ 15 * w := mul_le_mul_of_nonneg_right hu1 hu
    have w3 : w * w * w ≤ 1 / 10 ^ 15 * w := by nlinarith
    have b2 : w * w * B ≤ 1 / 10 ^ 15 * w * B := mul_le_mul_of_nonneg_right w2 hB
    have b3 : w * w * w * B ≤ 1 / 10 ^ 15 * w * B := mul_le_mul_of_nonneg_right w3 hB
    have t2 : w * w * T ≤ 1 / 10 ^ 15 * w * T := mul_le_mul_of_nonneg_right w2 hT
    have t3 : w * w * w * T ≤ 1 / 10 ^ 15 * w * T := mul_le_mul_of_nonneg_right w3 hT
    have wb := mul_nonneg hu hB
    have wt := mul_nonneg hu hT
    nlinarith
  constructor
  · have s0' : |-lm.sin (fl64 (β' + θ)) - -Real.sin (β + θ)| ≤ 2 * 𝓊 + (7 * 𝓊 + 0 + 𝓊 * (1 + T + 7 * 𝓊 + 0)) := by
      rw [show -lm.sin (fl64 (β' + θ)) - -Real.sin (β + θ) = -(lm.sin (fl64 (β' + θ)) - Real.sin (β + θ)) by ring, abs_neg]
      exact s0
    have := ae_add (Real.abs_sin_le_one _) ((abs_neg _).le.trans (Real.abs_sin_le_one (β + θ))) s1 s0'
    rw [← sub_eq_add_neg, ← sub_eq_add_neg] at this
    exact fin _ this
  · have c1' : |-lm.cos (fl64 (β' + φ')) - -Real.cos (β + φ)| ≤
        2 * 𝓊 + (7 * 𝓊 + 𝓊 * (35 * B + T) + 𝓊 * (1 + (T + B) + 7 * 𝓊 + 𝓊 * (35 * B + T))) := by
      rw [show -lm.cos (fl64 (β' + φ')) - -Real.cos (β + φ) = -(lm.cos (fl64 (β' + φ')) - Real.cos (β + φ)) by ring, abs_neg]
      exact c1
    have := ae_add ((abs_neg _).le.trans (Real.abs_cos_le_one (β + φ))) (Real.abs_cos_le_one _) c1' c0
    exact fin _ this

/-! ## The theorems -/

/-- C137. Driving with a constant steering angle, with `double` and an accurate library. Let `κ` be the curvature of the path
of the reference point, `Δ` the change of heading of the exact motion and `q` its end. If the program treats the motion as a
turn, then κ is at least 0.999e-9 and the computed pose is `q` up to a few units in the last place of the turning radius
`1 / κ`, times one plus the angles. If it treats the motion as straight, then κ is at most 1.001e-9, and the computed pose is
`q` up to about 2 κ times the distance driven times the distances driven and to the rear axle, and a few units in the last
place. -/
theorem C137_constant_steer (lm : LibmSteer) (hlm : lm.Accurate) (m : Bicycle) (hL : m.wheelbase ≠ 0) (p : PoseR)
    (hp : IsFlt 53 p.theta) (s : ℝ) (hs : IsFlt 53 s) (ha : |m.rearToCenter * Real.tan s| ≤ |m.wheelbase|) (d : ℝ)
    (dir : Direction) :
    let r := m.constantSteerF lm p s d dir
    let q := steered m p s (signed dir d)
    let κ := |m.dThetaDdist s|
    let Δ := |d * (Real.tan s / m.wheelbase)|
    (κ > 0.999e-9 ∧
      |r.position.x - q.position.x| ≤ (2 ^ 53)⁻¹ * (25 + 60 * Δ + 6 * |p.theta|) / κ + (2 ^ 53)⁻¹ * |p.position.x| ∧
      |r.position.y - q.position.y| ≤ (2 ^ 53)⁻¹ * (25 + 60 * Δ + 6 * |p.theta|) / κ + (2 ^ 53)⁻¹ * |p.position.y| ∧
      |r.theta - q.theta| ≤ (2 ^ 53)⁻¹ * (35 * Δ + |p.theta|)) ∨
    (κ < 1.001e-9 ∧
      |r.position.x - q.position.x| ≤ 2.1 * κ * (|d| * (|d| + |m.rearToCenter|)) + (2 ^ 53)⁻¹ * (28 * |d| + |p.position.x|) ∧
      |r.position.y - q.position.y| ≤ 2.1 * κ * (|d| * (|d| + |m.rearToCenter|)) + (2 ^ 53)⁻¹ * (28 * |d| + |p.position.y|) ∧
      r.theta = p.theta ∧ |r.theta - q.theta| ≤ 1.5 * κ * |d|) := by
  intro r q κ Δ
  have hu := u0
  have hu1 := u1
  obtain ⟨⟨hbF, hbe, hb1⟩, ⟨hc, hc0⟩, hD⟩ := geometry_err hlm hs ha
  obtain ⟨e, he⟩ : ∃ e, e = signed dir d := ⟨_, rfl⟩
  have hed : |e| = |d| := by rw [he]; unfold signed; split <;> simp
  have heΔ : |e * (Real.tan s / m.wheelbase)| = Δ := by
    show _ = |d * _|
    rw [abs_mul, abs_mul, hed]
  have hκ : κ = |m.dThetaDdist s| := rfl
  have hD' : |(|m.dThetaDdistF lm s|) - κ| ≤ 35 / 2 * 𝓊 * κ := (abs_abs_sub_abs_le _ _).trans hD
  obtain ⟨D1, D2⟩ := abs_le.1 hD'
  have hκ0 : 0 ≤ κ := abs_nonneg _
  have h9 := abs_le.1 (fl_rel 53 (1e-9 : ℝ))
  change -(𝓊 * |1e-9|) ≤ fl64 1e-9 - 1e-9 ∧ fl64 1e-9 - 1e-9 ≤ 𝓊 * |1e-9| at h9
  rw [abs_of_pos (by norm_num)] at h9
  have hr : r = m.constantSteerF lm p s d dir := rfl
  unfold Bicycle.constantSteerF at hr
  rw [show (if dir = Direction.backward then -d else d) = e from he.symm] at hr
  by_cases hbr : |m.dThetaDdistF lm s| > fl64 1e-9
  · left
    simp only [if_pos hbr] at hr
    have hκ9 : κ > 0.999e-9 := by
      have : 35 / 2 * 𝓊 * κ ≤ 35 / 2 * (1 / 10 ^ 15) * κ :=
        mul_le_mul_of_nonneg_right (mul_le_mul_of_nonneg_left hu1 (by norm_num)) hκ0
      norm_num at h9 ⊢
      norm_num at this
      linarith [h9.1]
    have ht : Real.tan s ≠ 0 := by
      intro h0
      rw [hκ] at hκ9
      unfold Bicycle.dThetaDdist at hκ9
      rw [h0] at hκ9
      norm_num at hκ9
    have hq : q = _ := (congrArg (steered m p s) he.symm).trans (steered_turn hL ht p e)
    have hθ := heading_err hlm hs ha e p.theta
    rw [heΔ] at hθ
    have hΔ0 : 0 ≤ Δ := abs_nonneg _
    obtain ⟨n1, n2⟩ := diff_err hlm (β := m.beta s) (β' := m.betaF lm s) (θ := p.theta)
      (φ := p.theta + e * (Real.tan s / m.wheelbase)) hΔ0 (by rw [add_sub_cancel_left, heΔ]) hbe hb1 hθ
    have m1 : |Real.sin (m.beta s + (p.theta + e * (Real.tan s / m.wheelbase))) - Real.sin (m.beta s + p.theta)| ≤ Δ := by
      refine (lip_sin _ _).trans (le_of_eq ?_)
      rw [← heΔ]; congr 1; ring
    have m2 : |-Real.cos (m.beta s + (p.theta + e * (Real.tan s / m.wheelbase))) + Real.cos (m.beta s + p.theta)| ≤ Δ := by
      rw [neg_add_eq_sub, abs_sub_comm]
      refine (lip_cos _ _).trans (le_of_eq ?_)
      rw [← heΔ]; congr 1; ring
    refine ⟨hκ9, ?_, ?_, ?_⟩
    · rw [hr, hq]
      exact coord_err hD (abs_nonneg _) m1 n1
    · rw [hr, hq]
      exact coord_err hD (abs_nonneg _) m2 n2
    · rw [hr, hq]
      exact hθ
  · right
    simp only [if_neg hbr] at hr
    push Not at hbr
    have hκ9 : κ < 1.001e-9 := by
      have : 35 / 2 * 𝓊 * κ ≤ 35 / 2 * (1 / 10 ^ 15) * κ :=
        mul_le_mul_of_nonneg_right (mul_le_mul_of_nonneg_left hu1 (by norm_num)) hκ0
      norm_num at h9 ⊢
      norm_num at this
      linarith [h9.2]
    have hcp := cosb m s
    obtain ⟨S, hS⟩ : ∃ S, S = e / Real.cos (m.beta s) := ⟨_, rfl⟩
    have hSd : |S| ≤ 10 / 7 * |d| := by
      rw [hS, abs_div, abs_of_pos hcp, hed, div_le_iff₀ hcp]
      nlinarith [abs_nonneg d]
    have hSe : |fl64 (e / lm.cos (m.betaF lm s)) - S| ≤ (0 + 13 + 5 / 4) * 𝓊 * |S| := by
      rw [hS]
      exact re_div (i := 0) (j := 13) (by norm_num) (by norm_num) (by norm_num) (by norm_num) (re_self e) hc
    have hSΔ : e * (Real.tan s / m.wheelbase) = S * m.dThetaDdist s := by
      rw [hS]; unfold Bicycle.dThetaDdist; field_simp
    have hΔ : |S * m.dThetaDdist s| ≤ 10 / 7 * κ * |d| := by
      rw [abs_mul, ← hκ]
      calc |S| * κ ≤ 10 / 7 * |d| * κ := mul_le_mul_of_nonneg_right hSd hκ0
        _ = _ := by ring
    have hβ : |m.beta s| ≤ 10 / 7 * κ * |m.rearToCenter| := by
      refine (arctan_le _).trans ?_
      rw [show m.rearToCenter * Real.tan s / m.wheelbase = m.rearToCenter * (m.dThetaDdist s / Real.cos (m.beta s)) by
        unfold Bicycle.dThetaDdist; field_simp, abs_mul, mul_comm, abs_div, abs_of_pos hcp, ← hκ]
      refine mul_le_mul_of_nonneg_right ?_ (abs_nonneg _)
      rw [div_le_iff₀ hcp]
      nlinarith
    -- one coordinate
    have coord : ∀ {x g g' w : ℝ}, |g| ≤ 1 → |g' - g| ≤ 2 * 𝓊 * |g| →
        |w - S * g| ≤ |S| * (10 / 7 * κ * (|d| + |m.rearToCenter|)) →
        |fl64 (x + fl64 (fl64 (e / lm.cos (m.betaF lm s)) * g')) - (x + w)| ≤
          2.1 * κ * (|d| * (|d| + |m.rearToCenter|)) + 𝓊 * (28 * |d| + |x|) := by
      intro x g g' w hg hg' hw
      have p1 := re_mul (i := 0 + 13 + 5 / 4) (j := 2) (by norm_num) (by norm_num) (by norm_num) (by norm_num) hSe hg'
      have p2 : |S * g| ≤ |S| := by
        rw [abs_mul]; exact mul_le_of_le_one_right (abs_nonneg _) hg
      have p3 : |fl64 (fl64 (e / lm.cos (m.betaF lm s)) * g') - S * g| ≤ 35 / 2 * 𝓊 * |S| := by
        refine p1.trans ?_
        calc _ ≤ (0 + 13 + 5 / 4 + 2 + 5 / 4) * 𝓊 * |S| := mul_le_mul_of_nonneg_left p2 (by positivity)
          _ = _ := by norm_num
      have p4 := ae_add (x := x) (x' := x) (a := 0) le_rfl p2 (by simp) p3
      have hdr : 0 ≤ |d| + |m.rearToCenter| := by positivity
      calc _ = |(fl64 (x + fl64 (fl64 (e / lm.cos (m.betaF lm s)) * g')) - (x + S * g)) + (S * g - w)| := by ring_nf
        _ ≤ _ := abs_add_le _ _
        _ ≤ (0 + 35 / 2 * 𝓊 * |S| + 𝓊 * (|x| + |S| + 0 + 35 / 2 * 𝓊 * |S|)) +
            |S| * (10 / 7 * κ * (|d| + |m.rearToCenter|)) := add_le_add p4 (by rw [abs_sub_comm]; exact hw)
        _ ≤ _ := by
          have w1 : |S| * (10 / 7 * κ * (|d| + |m.rearToCenter|)) ≤ 10 / 7 * |d| * (10 / 7 * κ * (|d| + |m.rearToCenter|)) :=
            mul_le_mul_of_nonneg_right hSd (by positivity)
          have w2 : 𝓊 * |S| ≤ 𝓊 * (10 / 7 * |d|) := mul_le_mul_of_nonneg_left hSd hu
          have w3 : 𝓊 * (𝓊 * |S|) ≤ 1 / 10 ^ 15 * (𝓊 * |S|) := mul_le_mul_of_nonneg_right hu1 (by positivity)
          have w4 : 0 ≤ κ * (|d| * (|d| + |m.rearToCenter|)) := by positivity
          have w5 : 0 ≤ 𝓊 * |d| := by positivity
          have w6 : 10 / 7 * |d| * (10 / 7 * κ * (|d| + |m.rearToCenter|)) =
            100 / 49 * (κ * (|d| * (|d| + |m.rearToCenter|))) := by ring
          rw [w6] at w1
          rw [show 2.1 * κ * (|d| * (|d| + |m.rearToCenter|)) = 2.1 * (κ * (|d| * (|d| + |m.rearToCenter|))) by ring]
          norm_num at w1 w2 w3 w4 w5 ⊢
          linarith
    have acc := hlm.1 p.theta hp
    rw [ulp_eq] at acc
    have near : ∀ {N g : ℝ}, |m.dThetaDdist s| ≠ 0 → |N - S * m.dThetaDdist s * g| ≤
        |S * m.dThetaDdist s| * (|S * m.dThetaDdist s| + |m.beta s + p.theta - p.theta|) →
        |1 / m.dThetaDdist s * N - S * g| ≤ |S| * (10 / 7 * κ * (|d| + |m.rearToCenter|)) := by
      intro N g h0 hN
      have h0' : m.dThetaDdist s ≠ 0 := abs_ne_zero.1 h0
      rw [show 1 / m.dThetaDdist s * N - S * g = (N - S * m.dThetaDdist s * g) / m.dThetaDdist s by field_simp,
        abs_div, div_le_iff₀ (abs_pos.2 h0')]
      refine hN.trans ?_
      rw [add_sub_cancel_right, abs_mul S, mul_assoc |S|, mul_assoc |S|, mul_comm (10 / 7 * κ * _), ← abs_mul S]
      refine mul_le_mul_of_nonneg_left (mul_le_mul_of_nonneg_left ?_ (abs_nonneg _)) (abs_nonneg _)
      linarith
    by_cases ht : Real.tan s = 0
    · have hq : q = _ := (congrArg (steered m p s) he.symm).trans (steered_straight ht p e)
      have hb0 : m.beta s = 0 := by unfold Bicycle.beta; rw [ht]; simp
      have hS' : S = e := by rw [hS, hb0]; simp
      refine ⟨hκ9, ?_, ?_, by rw [hr], ?_⟩
      · rw [hr, hq]
        refine coord (Real.abs_cos_le_one p.theta) acc.2 ?_
        rw [hS', sub_self, abs_zero]; positivity
      · rw [hr, hq]
        refine coord (Real.abs_sin_le_one p.theta) acc.1 ?_
        rw [hS', sub_self, abs_zero]; positivity
      · rw [hr, hq, sub_self, abs_zero]; positivity
    · have hq : q = _ := (congrArg (steered m p s) he.symm).trans (steered_turn hL ht p e)
      have h0 : |m.dThetaDdist s| ≠ 0 := by
        rw [abs_ne_zero]
        unfold Bicycle.dThetaDdist
        exact div_ne_zero (mul_ne_zero hcp.ne' ht) hL
      refine ⟨hκ9, ?_, ?_, by rw [hr], ?_⟩
      · rw [hr, hq]
        refine coord (Real.abs_cos_le_one p.theta) acc.2 (near h0 ?_)
        rw [hSΔ, ← add_assoc]
        exact sin_line _ _ _
      · rw [hr, hq]
        refine coord (Real.abs_sin_le_one p.theta) acc.1 (near h0 ?_)
        rw [hSΔ, ← add_assoc]
        exact cos_line _ _ _
      · rw [hr, hq]
        show |p.theta - (p.theta + _)| ≤ _
        rw [sub_add_cancel_left, abs_neg, hSΔ]
        refine hΔ.trans ?_
        have : 0 ≤ κ * |d| := by positivity
        norm_num
        linarith

/-! ## Paths -/

/-- C137. The computed poses are `double`s. -/
theorem C137_doubles (lm : LibmSteer) (m : Bicycle) (p : PoseR) (hp : IsFlt 53 p.theta) (s d : ℝ) (dir : Direction) :
    let r := m.constantSteerF lm p s d dir
    IsFlt 53 r.position.x ∧ IsFlt 53 r.position.y ∧ IsFlt 53 r.theta := by
  intro r
  have hr : r = m.constantSteerF lm p s d dir := rfl
  unfold Bicycle.constantSteerF at hr
  dsimp only at hr
  split at hr <;> rw [hr]
  · exact ⟨isFlt_fl 53 h53 _, isFlt_fl 53 h53 _, isFlt_fl 53 h53 _⟩
  · exact ⟨isFlt_fl 53 h53 _, isFlt_fl 53 h53 _, hp⟩

/-- C137. Whatever the library: a motion starts exactly at its initial pose, ends exactly at its final state, and a
truncated motion has the requested part of the length and ends exactly where the motion was at that ratio. -/
theorem C137_ends (lm : LibmSteer) (m : Bicycle) (p : PoseR) (hx : IsFlt 53 p.position.x) (hy : IsFlt 53 p.position.y)
    (hp : IsFlt 53 p.theta) (s l ρ : ℝ) (dir : Direction) :
    let a := PathSteer.newF lm m p s l dir
    a.interpolateF lm 0 = p ∧ a.interpolateF lm 1 = a.final ∧ a.length = l ∧
      (a.truncateF lm ρ).length = fl64 (l * ρ) ∧ (a.truncateF lm ρ).final = a.interpolateF lm ρ ∧
      (a.truncateF lm ρ).interpolateF lm 0 = p ∧ (a.truncateF lm ρ).interpolateF lm 1 = (a.truncateF lm ρ).final := by
  have fz : fl64 0 = 0 := fl_zero 53
  have h0 : m.constantSteerF lm p s 0 dir = p := by
    unfold Bicycle.constantSteerF
    simp only [neg_zero, ite_self, zero_div, zero_mul, mul_zero, fz, add_zero, hp, show fl64 p.theta = p.theta from hp,
      show fl64 p.position.x = p.position.x from hx, show fl64 p.position.y = p.position.y from hy, sub_self,
      neg_add_cancel]
  intro a
  refine ⟨?_, rfl, rfl, rfl, rfl, ?_, ?_⟩
  · show m.constantSteerF lm p s (fl64 (l * 0)) dir = p
    rw [mul_zero, fz, h0]
  · show m.constantSteerF lm p s (fl64 (fl64 (l * ρ) * 0)) dir = p
    rw [mul_zero, fz, h0]
  · show m.constantSteerF lm p s (fl64 (fl64 (l * ρ) * 1)) dir = m.constantSteerF lm p s (fl64 (l * ρ)) dir
    rw [mul_one, show fl64 (fl64 (l * ρ)) = fl64 (l * ρ) from fl_fl 53 h53 _]

/-- The exact motion moves at the speed `1 / cos β`. -/
private theorem steered_speed {m : Bicycle} {s : ℝ} (hL : m.wheelbase ≠ 0) (hc : 7 / 10 ≤ Real.cos (m.beta s)) (p : PoseR)
    (d e : ℝ) :
    |(steered m p s d).position.x - (steered m p s e).position.x| ≤ 10 / 7 * |d - e| ∧
    |(steered m p s d).position.y - (steered m p s e).position.y| ≤ 10 / 7 * |d - e| ∧
    |(steered m p s d).theta - (steered m p s e).theta| = |d - e| * |Real.tan s / m.wheelbase| := by
  have hcp := cosb m s
  by_cases ht : Real.tan s = 0
  · rw [steered_straight ht, steered_straight ht]
    have h0 := abs_nonneg (d - e)
    refine ⟨?_, ?_, by simp [ht]⟩
    · show |p.position.x + d * Real.cos p.theta - (p.position.x + e * Real.cos p.theta)| ≤ _
      rw [show p.position.x + d * Real.cos p.theta - (p.position.x + e * Real.cos p.theta) =
        (d - e) * Real.cos p.theta by ring, abs_mul]
      nlinarith [Real.abs_cos_le_one p.theta]
    · show |p.position.y + d * Real.sin p.theta - (p.position.y + e * Real.sin p.theta)| ≤ _
      rw [show p.position.y + d * Real.sin p.theta - (p.position.y + e * Real.sin p.theta) =
        (d - e) * Real.sin p.theta by ring, abs_mul]
      nlinarith [Real.abs_sin_le_one p.theta]
  · rw [steered_turn hL ht, steered_turn hL ht]
    have hD : m.dThetaDdist s ≠ 0 := div_ne_zero (mul_ne_zero hcp.ne' ht) hL
    have key : ∀ N : ℝ, |N| ≤ |(d - e) * (Real.tan s / m.wheelbase)| → |1 / m.dThetaDdist s * N| ≤ 10 / 7 * |d - e| := by
      intro N hN
      rw [show (d - e) * (Real.tan s / m.wheelbase) = (d - e) / Real.cos (m.beta s) * m.dThetaDdist s by
        unfold Bicycle.dThetaDdist; field_simp, abs_mul] at hN
      rw [one_div_mul_eq_div, abs_div, div_le_iff₀ (abs_pos.2 hD)]
      refine hN.trans (mul_le_mul_of_nonneg_right ?_ (abs_nonneg _))
      rw [abs_div, abs_of_pos hcp, div_le_iff₀ hcp]
      nlinarith [abs_nonneg (d - e)]
    refine ⟨?_, ?_, ?_⟩
    · dsimp only
      rw [add_sub_add_left_eq_sub, ← mul_sub]
      refine key _ ?_
      rw [sub_sub_sub_cancel_right]
      refine (lip_sin _ _).trans (le_of_eq ?_)
      congr 1; ring
    · dsimp only
      rw [add_sub_add_left_eq_sub, ← mul_sub]
      refine key _ ?_
      rw [add_sub_add_right_eq_sub, neg_sub_neg, abs_sub_comm]
      refine (lip_cos _ _).trans (le_of_eq ?_)
      congr 1; ring
    · dsimp only
      rw [add_sub_add_left_eq_sub, ← sub_mul, abs_mul]

/-! ## The motions of hybrid A* -/

private theorem half_flt {a : ℝ} (ha : IsFlt 53 a) : fl64 (a / 2) = a / 2 := by
  obtain ⟨n, h1, h2⟩ := fl_form 53 h53 a
  have h3 : a = n * 2 ^ lastBit 53 a := by rw [← h1]; exact ha.symm
  refine fl_repr h53 (n := n) (e := lastBit 53 a - 1) ?_ h2
  rw [zpow_sub_one₀ (by norm_num)]
  nth_rw 1 [h3]
  ring

/-- Small angles: `h ≤ arctan (2 h)`. -/
private theorem le_arctan_two {h : ℝ} (h0 : 0 ≤ h) (h1 : h ≤ 1) : h ≤ Real.arctan (2 * h) := by
  have hpi := Real.pi_gt_three
  have hc : 1 / 2 ≤ Real.cos h := by
    have := Real.one_sub_sq_div_two_le_cos (x := h)
    nlinarith
  have hs : Real.sin h ≤ h := Real.sin_le h0
  have ht : Real.tan h ≤ 2 * h := by
    rw [Real.tan_eq_sin_div_cos, div_le_iff₀ (by linarith)]
    nlinarith
  calc h = Real.arctan (Real.tan h) := (Real.arctan_tan (by linarith) (by linarith)).symm
    _ ≤ _ := Real.arctan_mono ht

/-- An angle close to an arc tangent of at most 4.01. -/
private theorem tan_near_arctan {y a : ℝ} (y0 : 0 < y) (y1 : y ≤ 4.01)
    (ha : |a - Real.arctan y| ≤ 2 * 𝓊 * |Real.arctan y|) :
    a < Real.pi / 2 ∧ -(Real.pi / 2) < a ∧ Real.tan a ≤ (1 + 70 * 𝓊) * y ∧ (1 - 70 * 𝓊) * y ≤ Real.tan a ∧
      y / 4.2 ≤ a := by
  have hu := u0
  have hu1 := u1
  have at0 : 0 < Real.arctan y := Real.arctan_pos.2 y0
  rw [abs_of_pos at0] at ha
  obtain ⟨l, r⟩ := abs_le.1 ha
  have aty : Real.arctan y ≤ y := by have := arctan_le y; rwa [abs_of_pos at0, abs_of_pos y0] at this
  obtain ⟨h, hh⟩ : ∃ h, h = 2 * 𝓊 * Real.arctan y := ⟨_, rfl⟩
  rw [← hh] at l r
  have h0 : 0 ≤ h := by rw [hh]; positivity
  have hy : h ≤ 2 * 𝓊 * y := by rw [hh]; exact mul_le_mul_of_nonneg_left aty (by positivity)
  have uy : 𝓊 * y ≤ 1 / 10 ^ 15 * y := mul_le_mul_of_nonneg_right hu1 y0.le
  have h1 : h ≤ 1 := by norm_num at y1; linarith
  have hw := le_arctan_two h0 h1
  obtain ⟨w, hwd⟩ : ∃ w, w = 2 * h := ⟨_, rfl⟩
  rw [← hwd] at hw
  have w0 : 0 ≤ w := by rw [hwd]; linarith
  have w1 : w ≤ 4 * 𝓊 * y := by rw [hwd]; linarith
  have wy : y * w ≤ 65 * 𝓊 := by
    calc y * w ≤ y * (4 * 𝓊 * y) := mul_le_mul_of_nonneg_left w1 y0.le
      _ = 4 * (y * y) * 𝓊 := by ring
      _ ≤ 4 * (4.01 * 4.01) * 𝓊 :=
        mul_le_mul_of_nonneg_right (mul_le_mul_of_nonneg_left (mul_le_mul y1 y1 y0.le (by norm_num)) (by norm_num)) hu
      _ ≤ _ := by norm_num
  have wy0 : 0 ≤ y * w := mul_nonneg y0.le w0
  have up : a ≤ Real.arctan ((y + w) / (1 - y * w)) := by
    rw [← Real.arctan_add (by linarith)]; linarith
  have lo : Real.arctan ((y - w) / (1 + y * w)) ≤ a := by
    have := Real.arctan_add (x := y) (y := -w) (by linarith)
    rw [Real.arctan_neg, show y * -w = -(y * w) by ring, sub_neg_eq_add, ← sub_eq_add_neg, ← sub_eq_add_neg] at this
    rw [← this]; linarith
  have hlt : a < Real.pi / 2 := lt_of_le_of_lt up (Real.arctan_lt_pi_div_two _)
  have hgt : -(Real.pi / 2) < a := lt_of_lt_of_le (Real.neg_pi_div_two_lt_arctan _) lo
  refine ⟨hlt, hgt, ?_, ?_, ?_⟩
  · have : Real.tan a ≤ (y + w) / (1 - y * w) := by
      rw [← Real.tan_arctan ((y + w) / (1 - y * w))]
      exact Real.strictMonoOn_tan.monotoneOn ⟨hgt, hlt⟩ ⟨Real.neg_pi_div_two_lt_arctan _, Real.arctan_lt_pi_div_two _⟩ up
    refine this.trans ?_
    rw [div_le_iff₀ (by linarith)]
    have e1 : y + w ≤ (1 + 4 * 𝓊) * y := by linarith
    have e2 : (1 + 70 * 𝓊) * y * (1 - 65 * 𝓊) ≤ (1 + 70 * 𝓊) * y * (1 - y * w) :=
      mul_le_mul_of_nonneg_left (by linarith) (by positivity)
    have e3 : (1 + 4 * 𝓊) * y ≤ (1 + 70 * 𝓊) * (1 - 65 * 𝓊) * y :=
      mul_le_mul_of_nonneg_right (by norm_num) y0.le
    linarith
  · have : (y - w) / (1 + y * w) ≤ Real.tan a := by
      rw [← Real.tan_arctan ((y - w) / (1 + y * w))]
      exact Real.strictMonoOn_tan.monotoneOn ⟨Real.neg_pi_div_two_lt_arctan _, Real.arctan_lt_pi_div_two _⟩ ⟨hgt, hlt⟩ lo
    refine le_trans ?_ this
    rw [le_div_iff₀ (by linarith)]
    have e1 : (1 - 4 * 𝓊) * y ≤ y - w := by linarith
    have e2 : (1 - 70 * 𝓊) * y * (1 + y * w) ≤ (1 - 70 * 𝓊) * y * (1 + 65 * 𝓊) :=
      mul_le_mul_of_nonneg_left (by linarith) (mul_nonneg (by linarith) y0.le)
    have e3 : (1 - 70 * 𝓊) * (1 + 65 * 𝓊) * y ≤ (1 - 4 * 𝓊) * y := mul_le_mul_of_nonneg_right (by norm_num) y0.le
    linarith
  · have s1 : Real.sin (Real.arctan y) ≤ Real.arctan y := Real.sin_le at0.le
    rw [Real.sin_arctan] at s1
    have s2 : √(1 + y ^ 2) ≤ 4.15 := by
      rw [Real.sqrt_le_iff]
      refine ⟨by norm_num, ?_⟩
      have : y ^ 2 ≤ 4.01 ^ 2 := pow_le_pow_left₀ y0.le y1 2
      norm_num at this ⊢
      linarith
    have s3 : y / 4.15 ≤ y / √(1 + y ^ 2) := div_le_div_of_nonneg_left y0.le (by positivity) s2
    norm_num at s3 ⊢
    linarith

private theorem deltaMax_err {lm : LibmSteer} (h : lm.Accurate) {p : HybridParam} (hL : 0 < p.wheelbase)
    (hR : 0 < p.minTurningRadius) (hRf : IsFlt 53 p.minTurningRadius) (h4 : p.wheelbase ≤ 4 * p.minTurningRadius) :
    ∃ dm, HybridAStar.deltaMaxF lm p = some dm ∧ IsFlt 53 dm ∧ dm < Real.pi / 2 ∧
      p.wheelbase / p.minTurningRadius / 4.3 ≤ dm ∧
      |Real.tan dm - p.wheelbase / p.minTurningRadius| ≤ (2 ^ 46)⁻¹ * (p.wheelbase / p.minTurningRadius) := by
  have hu := u0
  have hu1 := u1
  obtain ⟨R, hRd⟩ : ∃ R, R = p.minTurningRadius := ⟨_, rfl⟩
  rw [← hRd] at hR hRf h4 ⊢
  have hsq := (h.2 R hRf).2.2
  have hsq0 : lm.sq 0 = 0 := by
    have := (h.2 0 (fl_zero 53)).2.2
    simpa using this
  rw [ulp_eq] at hsq
  have R2 : 0 < R ^ 2 := by positivity
  have r1 : Flt.Rel (2 * 𝓊) (R ^ 2) (lm.sq R) := by
    obtain ⟨a, b⟩ := abs_le.1 hsq
    constructor <;> linarith
  have sq0 : 0 ≤ lm.sq R := r1.nonneg R2.le (by linarith)
  have r2 := r1.trans R2.le (Flt.Rel.fl 53 sq0) (by positivity) (by linarith) hu (by linarith)
  have r3 := r2.sqrt R2.le (by positivity) (by norm_num)
  rw [Real.sqrt_sq hR.le] at r3
  have r4 := (r3.trans hR.le (Flt.Rel.fl 53 (Real.sqrt_nonneg _)) (by positivity) (by norm_num) hu (by linarith)).mono hR.le
    (ε := 17 / 4 * 𝓊) (by norm_num)
  obtain ⟨x, hx⟩ : ∃ x, x = Flt.fl 53 (lm.sq R) := ⟨_, rfl⟩
  have hx0 : 0 ≤ x := by rw [hx]; exact r2.nonneg R2.le (by norm_num)
  rw [← hx] at r4
  have s0 : 0 < Flt.fl 53 √x := by
    refine lt_of_lt_of_le (mul_pos ?_ hR) r4.1
    linarith
  have s1 : |Flt.fl 53 √x - R| ≤ 17 / 4 * 𝓊 * |R| := by
    rw [abs_of_pos hR, abs_le]
    constructor <;> linarith [r4.1, r4.2]
  have hy := re_div (i := 0) (j := 17 / 4) (by norm_num) (by norm_num) (by norm_num) (by norm_num)
    (re_self p.wheelbase) s1
  obtain ⟨y, hyd⟩ : ∃ y, y = p.wheelbase / R := ⟨_, rfl⟩
  obtain ⟨y', hyd'⟩ : ∃ y', y' = fl64 (p.wheelbase / Flt.fl 53 √x) := ⟨_, rfl⟩
  have y0 : 0 < y := by rw [hyd]; positivity
  have y4 : y ≤ 4 := by rw [hyd, div_le_iff₀ hR]; exact h4
  rw [← hyd, ← hyd', abs_of_pos y0] at hy
  have uy : 𝓊 * y ≤ 1 / 10 ^ 15 * y := mul_le_mul_of_nonneg_right hu1 y0.le
  obtain ⟨ya, yb⟩ := abs_le.1 hy
  have yf : IsFlt 53 y' := by rw [hyd']; exact isFlt_fl 53 h53 _
  have y'0 : 0 < y' := by linarith
  obtain ⟨-, ⟨af, ae⟩, -⟩ := h.2 y' yf
  rw [ulp_eq] at ae
  obtain ⟨n1, n2, n3, n4, n5⟩ := tan_near_arctan y'0 (by norm_num; linarith) ae
  refine ⟨lm.atan y', ?_, af, n1, ?_, ?_⟩
  · unfold HybridAStar.deltaMaxF Bicycle.steeringFromRadiusF HybridAStar.model
    rw [← hRd]
    simp only [if_neg (not_lt.2 hR.le), hsq0, sub_zero]
    rw [show fl64 (lm.sq R) = x from hx.symm, if_neg (not_lt.2 hx0), show fl64 √x = Flt.fl 53 √x from rfl,
      if_neg s0.ne', hyd']
  · rw [← hyd]
    norm_num at n5 ⊢
    linarith
  · rw [← hyd, abs_le]
    have e1 : (1 + 70 * 𝓊) * y' ≤ (1 + 70 * 𝓊) * ((1 + 11 / 2 * 𝓊) * y) :=
      mul_le_mul_of_nonneg_left (by linarith) (by positivity)
    have e2 : (1 - 70 * 𝓊) * ((1 - 11 / 2 * 𝓊) * y) ≤ (1 - 70 * 𝓊) * y' :=
      mul_le_mul_of_nonneg_left (by linarith) (by linarith)
    have e3 : (1 + 70 * 𝓊) * (1 + 11 / 2 * 𝓊) * y ≤ (1 + (2 ^ 46)⁻¹) * y :=
      mul_le_mul_of_nonneg_right (by norm_num) y0.le
    have e4 : (1 - (2 ^ 46)⁻¹) * y ≤ (1 - 70 * 𝓊) * (1 - 11 / 2 * 𝓊) * y :=
      mul_le_mul_of_nonneg_right (by norm_num) y0.le
    constructor <;> linarith

/-- C137. The steering angles of hybrid A*, with `double` and up to five motions (more: see C58). They are `double`s, with
each its opposite is one, the curvature `tan s / wheelbase` of each is at most the one of the minimum turning radius up to
2⁻⁴⁶, those that are not 0 are well away from 0, and from four motions on one is the sharpest turn up to 2⁻⁴⁶. -/
theorem C137_steering_angles (lm : LibmSteer) (hlm : lm.Accurate) (p : HybridParam) (hL : 0 < p.wheelbase)
    (hR : 0 < p.minTurningRadius) (hRf : IsFlt 53 p.minTurningRadius) (h4 : p.wheelbase ≤ 4 * p.minTurningRadius)
    (hn : p.numGeneratedMotion ≤ 5) :
    ∃ l, HybridAStar.deltasF lm p = some l ∧ 0 ∈ l ∧ l.length = 2 * (p.numGeneratedMotion / 2) + 1 ∧
      (∀ s ∈ l, IsFlt 53 s ∧ -s ∈ l ∧ |Real.tan s / p.wheelbase| ≤ (1 + (2 ^ 46)⁻¹) / p.minTurningRadius ∧
        (s = 0 ∨ 1 / (9 * p.minTurningRadius) ≤ |Real.tan s / p.wheelbase|)) ∧
      (4 ≤ p.numGeneratedMotion →
        ∃ s ∈ l, |Real.tan s / p.wheelbase - 1 / p.minTurningRadius| ≤ (2 ^ 46)⁻¹ / p.minTurningRadius) := by
  obtain ⟨dm, hdm, hf, hlt, hlo, htan⟩ := deltaMax_err hlm hL hR hRf h4
  obtain ⟨y, hy⟩ : ∃ y, y = p.wheelbase / p.minTurningRadius := ⟨_, rfl⟩
  rw [← hy] at hlo htan
  have y0 : 0 < y := by rw [hy]; positivity
  have hyL : y / p.wheelbase = 1 / p.minTurningRadius := by rw [hy]; field_simp
  have hdm0 : 0 < dm := lt_of_lt_of_le (by positivity) hlo
  have hpi := Real.pi_pos
  have hdF : HybridAStar.deltasF lm p = some (0 :: (List.range (p.numGeneratedMotion / 2)).flatMap fun i =>
      [fl64 (fl64 (((i + 1 : Nat) : ℝ) / 2) * dm), -fl64 (fl64 (((i + 1 : Nat) : ℝ) / 2) * dm)]) := by
    unfold HybridAStar.deltasF
    rw [hdm]; rfl
  obtain ⟨l, hl⟩ : ∃ l, l = (0 :: (List.range (p.numGeneratedMotion / 2)).flatMap fun i =>
      [fl64 (fl64 (((i + 1 : Nat) : ℝ) / 2) * dm), -fl64 (fl64 (((i + 1 : Nat) : ℝ) / 2) * dm)]) := ⟨_, rfl⟩
  rw [← hl] at hdF
  have v0 : fl64 (fl64 (((0 + 1 : Nat) : ℝ) / 2) * dm) = dm / 2 := by
    have : IsFlt 53 (1 : ℝ) := by
      have := fl_int (p := 53) h53 (n := 1) (by norm_num)
      rwa [Int.cast_one] at this
    rw [show ((0 + 1 : Nat) : ℝ) = 1 by norm_num, half_flt this, one_div_mul_eq_div, half_flt hf]
  have v1 : fl64 (fl64 (((1 + 1 : Nat) : ℝ) / 2) * dm) = dm := by
    have : IsFlt 53 (1 : ℝ) := by
      have := fl_int (p := 53) h53 (n := 1) (by norm_num)
      rwa [Int.cast_one] at this
    rw [show ((1 + 1 : Nat) : ℝ) / 2 = 1 by norm_num, show fl64 1 = 1 from this, one_mul]
    exact hf
  have mem : ∀ s, s ∈ l ↔ s = 0 ∨ (2 ≤ p.numGeneratedMotion ∧ (s = dm / 2 ∨ s = -(dm / 2))) ∨
      (4 ≤ p.numGeneratedMotion ∧ (s = dm ∨ s = -dm)) := by
    intro s
    rw [hl]
    simp only [List.mem_cons, List.mem_flatMap, List.mem_range, List.not_mem_nil, or_false]
    constructor
    · rintro (h | ⟨i, hi, h⟩)
      · exact .inl h
      · have : i = 0 ∨ i = 1 := by omega
        rcases this with rfl | rfl
        · rw [v0] at h; exact .inr (.inl ⟨by omega, h⟩)
        · rw [v1] at h; exact .inr (.inr ⟨by omega, h⟩)
    · rintro (h | ⟨h, h'⟩ | ⟨h, h'⟩)
      · exact .inl h
      · exact .inr ⟨0, by omega, by rw [v0]; exact h'⟩
      · exact .inr ⟨1, by omega, by rw [v1]; exact h'⟩
  obtain ⟨ta, tb⟩ := abs_le.1 htan
  have ht0 : 0 ≤ Real.tan (dm / 2) := Real.tan_nonneg_of_nonneg_of_le_pi_div_two (by linarith) (by linarith)
  have half_le : Real.tan (dm / 2) ≤ Real.tan dm :=
    Real.strictMonoOn_tan.monotoneOn ⟨by linarith, by linarith⟩ ⟨by linarith, by linarith⟩ (by linarith)
  have half_ge : y / 8.6 ≤ Real.tan (dm / 2) := by
    have := Real.le_tan (x := dm / 2) (by linarith) (by linarith)
    norm_num at hlo ⊢
    linarith
  have up : ∀ t : ℝ, 0 ≤ t → t ≤ Real.tan dm → |t / p.wheelbase| ≤ (1 + (2 ^ 46)⁻¹) / p.minTurningRadius := by
    intro t t0 t1
    rw [abs_of_nonneg (by positivity)]
    calc t / p.wheelbase ≤ ((1 + (2 ^ 46)⁻¹) * y) / p.wheelbase :=
          div_le_div_of_nonneg_right (by linarith) hL.le
      _ = (1 + (2 ^ 46)⁻¹) * (y / p.wheelbase) := by ring
      _ = _ := by rw [hyL]; ring
  have low : ∀ t : ℝ, y / 8.6 ≤ t → 1 / (9 * p.minTurningRadius) ≤ |t / p.wheelbase| := by
    intro t ht
    have t0 : 0 ≤ t := le_trans (by positivity) ht
    rw [abs_of_nonneg (by positivity)]
    calc 1 / (9 * p.minTurningRadius) = y / p.wheelbase / 9 := by rw [hyL, div_div, mul_comm]
      _ = y / 9 / p.wheelbase := by ring
      _ ≤ t / p.wheelbase := div_le_div_of_nonneg_right (by norm_num at ht ⊢; linarith) hL.le
  have tdm : 0 ≤ Real.tan dm := ht0.trans half_le
  refine ⟨l, hdF, (mem 0).2 (.inl rfl), ?_, ?_, ?_⟩
  · rw [hl]
    simp [List.length_flatMap, mul_comm]
  · intro s hs
    rcases (mem s).1 hs with rfl | ⟨h2, rfl | rfl⟩ | ⟨h2, rfl | rfl⟩
    · refine ⟨fl_zero 53, by rw [neg_zero]; exact hs, ?_, .inl rfl⟩
      rw [Real.tan_zero, zero_div, abs_zero]; positivity
    · refine ⟨half_flt hf, (mem _).2 (.inr (.inl ⟨h2, .inr rfl⟩)), up _ ht0 half_le, .inr (low _ half_ge)⟩
    · refine ⟨isFlt_neg (half_flt hf), (mem _).2 (.inr (.inl ⟨h2, .inl (neg_neg _)⟩)), ?_, .inr ?_⟩
      · rw [Real.tan_neg, neg_div, abs_neg]; exact up _ ht0 half_le
      · rw [Real.tan_neg, neg_div, abs_neg]; exact low _ half_ge
    · refine ⟨hf, (mem _).2 (.inr (.inr ⟨h2, .inr rfl⟩)), up _ tdm le_rfl, .inr (low _ (half_ge.trans half_le))⟩
    · refine ⟨isFlt_neg hf, (mem _).2 (.inr (.inr ⟨h2, .inl (neg_neg _)⟩)), ?_, .inr ?_⟩
      · rw [Real.tan_neg, neg_div, abs_neg]; exact up _ tdm le_rfl
      · rw [Real.tan_neg, neg_div, abs_neg]; exact low _ (half_ge.trans half_le)
  · intro h
    refine ⟨dm, (mem _).2 (.inr (.inr ⟨h, .inl rfl⟩)), ?_⟩
    rw [← hyL, ← sub_div, abs_div, abs_of_pos hL, div_le_iff₀ hL]
    refine htan.trans (le_of_eq ?_)
    rw [hy]; field_simp

/-- With the reference point on the rear axle, the exact motion is an arc. -/
private theorem steered_model (p : HybridParam) (q : PoseR) (s d : ℝ) :
    steered (HybridAStar.model p) q s d = arc (Real.tan s / p.wheelbase) d q := by
  unfold steered HybridAStar.model rearAxle
  simp

/-- C137. The motions of hybrid A*, with `double`, up to five motions and a minimum turning radius R of at most 10⁸. The
pose at any ratio of a motion with the steering angle `s` is, up to rounding (the bounds are a few hundred units in the last
place of R and of the distance driven), the pose of a car that is driven this part of the length along an arc of the curvature
`tan s / wheelbase`, which is at most 1 / R up to 2⁻⁴⁶. -/
theorem C137_hybrid_motion (lm : LibmSteer) (hlm : lm.Accurate) (p : HybridParam) (hL : 0 < p.wheelbase)
    (hR : 0 < p.minTurningRadius) (hRf : IsFlt 53 p.minTurningRadius) (hR8 : p.minTurningRadius ≤ 10 ^ 8)
    (h4 : p.wheelbase ≤ 4 * p.minTurningRadius) (hn : p.numGeneratedMotion ≤ 5) (l : List ℝ)
    (hl : HybridAStar.deltasF lm p = some l) (s : ℝ) (hs : s ∈ l) (from_ : PoseR) (hf : IsFlt 53 from_.theta)
    (dir : Direction) (ratio : ℝ) :
    let a := HybridAStar.steerMotionF lm p from_ s dir
    let r := a.interpolateF lm ratio
    let q := arc (Real.tan s / p.wheelbase) (signed dir (a.length * ratio)) from_
    let E := 225 * p.minTurningRadius + 545 * |a.length * ratio| + 54 * p.minTurningRadius * |from_.theta|
    |Real.tan s / p.wheelbase| ≤ (1 + (2 ^ 46)⁻¹) / p.minTurningRadius ∧
    |r.position.x - q.position.x| ≤ (2 ^ 53)⁻¹ * (E + |from_.position.x|) ∧
    |r.position.y - q.position.y| ≤ (2 ^ 53)⁻¹ * (E + |from_.position.y|) ∧
    |r.theta - q.theta| ≤ (2 ^ 53)⁻¹ * (37 * |a.length * ratio| / p.minTurningRadius + |from_.theta|) := by
  intro a r q E
  have hu := u0
  have hu1 := u1
  obtain ⟨l', hl', -, -, hall, -⟩ := C137_steering_angles lm hlm p hL hR hRf h4 hn
  obtain rfl : l' = l := Option.some.inj (hl'.symm.trans hl)
  obtain ⟨sf, -, kup, klow⟩ := hall s hs
  refine ⟨kup, ?_⟩
  obtain ⟨R, hRd⟩ : ∃ R, R = p.minTurningRadius := ⟨_, rfl⟩
  obtain ⟨m, hm⟩ : ∃ m, m = HybridAStar.model p := ⟨_, rfl⟩
  have hmL : m.wheelbase = p.wheelbase := by rw [hm]; rfl
  have hmr : m.rearToCenter = 0 := by rw [hm]; rfl
  have hκ : m.dThetaDdist s = Real.tan s / p.wheelbase := by rw [hm]; exact (dThetaDdist_model p s).1
  obtain ⟨k, hk⟩ : ∃ k, k = Real.tan s / p.wheelbase := ⟨_, rfl⟩
  obtain ⟨G, hG⟩ : ∃ G, G = a.length * ratio := ⟨_, rfl⟩
  obtain ⟨d, hd⟩ : ∃ d, d = fl64 G := ⟨_, rfl⟩
  have hr : r = m.constantSteerF lm from_ s d dir := by rw [hd, hG, hm]; rfl
  have ha0 : |m.rearToCenter * Real.tan s| ≤ |m.wheelbase| := by rw [hmr]; simp
  have main := C137_constant_steer lm hlm m (by rw [hmL]; exact hL.ne') from_ hf s sf ha0 d dir
  dsimp only at main
  rw [← hr, hκ, hmL, hmr, ← hk] at main
  obtain ⟨-, ⟨-, hc0⟩, -⟩ := geometry_err hlm sf ha0
  have spd := steered_speed (m := m) (s := s) (by rw [hmL]; exact hL.ne') hc0 from_ (signed dir d) (signed dir G)
  rw [hmL, ← hk] at spd
  have hdG : |signed dir d - signed dir G| ≤ 𝓊 * |G| := by
    have : |signed dir d - signed dir G| = |d - G| := by
      unfold signed
      split
      · rw [neg_sub_neg, abs_sub_comm]
      · rfl
    rw [this, hd]
    exact fl_rel 53 G
  have hdG' : |d| ≤ (1 + 1 / 10 ^ 15) * |G| := by
    have : |d - G| ≤ 𝓊 * |G| := by rw [hd]; exact fl_rel 53 G
    have h2 : 𝓊 * |G| ≤ 1 / 10 ^ 15 * |G| := mul_le_mul_of_nonneg_right hu1 (abs_nonneg _)
    calc |d| = |(d - G) + G| := by ring_nf
      _ ≤ _ := abs_add_le _ _
      _ ≤ _ := by linarith
  have hq : q = steered m from_ s (signed dir G) := by rw [hm, steered_model, hG]
  rw [← hq] at spd
  obtain ⟨z, hz⟩ : ∃ z, z = steered m from_ s (signed dir d) := ⟨_, rfl⟩
  rw [← hz] at main spd
  rw [← hRd, ← hk] at kup klow
  rw [← hRd] at hR hR8
  have hE : E = 225 * R + 545 * |G| + 54 * R * |from_.theta| := by rw [hRd, hG]
  rw [hE, ← hRd, ← hG]
  have G0 := abs_nonneg G
  have T0 := abs_nonneg from_.theta
  have kG : |k| * |G| ≤ (1 + (2 ^ 46)⁻¹) * (|G| / R) := by
    calc |k| * |G| ≤ (1 + (2 ^ 46)⁻¹) / R * |G| := mul_le_mul_of_nonneg_right kup G0
      _ = _ := by ring
  have GR : 0 ≤ |G| / R := by positivity
  have hΔ : |d * k| ≤ (1 + 1 / 10 ^ 13) * (|G| / R) := by
    rw [abs_mul]
    calc |d| * |k| ≤ (1 + 1 / 10 ^ 15) * |G| * |k| := mul_le_mul_of_nonneg_right hdG' (abs_nonneg _)
      _ = (1 + 1 / 10 ^ 15) * (|k| * |G|) := by ring
      _ ≤ (1 + 1 / 10 ^ 15) * ((1 + (2 ^ 46)⁻¹) * (|G| / R)) := mul_le_mul_of_nonneg_left kG (by norm_num)
      _ = ((1 + 1 / 10 ^ 15) * (1 + (2 ^ 46)⁻¹)) * (|G| / R) := by ring
      _ ≤ _ := mul_le_mul_of_nonneg_right (by norm_num) GR
  have hD1 : 10 / 7 * |signed dir d - signed dir G| ≤ 𝓊 * (10 / 7 * |G|) := by linarith
  have th3 : |z.theta - q.theta| ≤ 𝓊 * ((1 + (2 ^ 46)⁻¹) * (|G| / R)) := by
    rw [spd.2.2]
    calc |signed dir d - signed dir G| * |k| ≤ 𝓊 * |G| * |k| := mul_le_mul_of_nonneg_right hdG (abs_nonneg _)
      _ = 𝓊 * (|k| * |G|) := by ring
      _ ≤ _ := mul_le_mul_of_nonneg_left kG hu
  have tri : ∀ a b c A B : ℝ, |a - b| ≤ A → |b - c| ≤ B → |a - c| ≤ A + B := fun a b c A B h1 h2 =>
    (abs_sub_le a b c).trans (add_le_add h1 h2)
  rcases main with ⟨k9, x1, y1, t1⟩ | ⟨k9, x1, y1, -, t1⟩
  · have s0 : s ≠ 0 := by
      intro h0
      rw [hk, h0, Real.tan_zero, zero_div, abs_zero] at k9
      norm_num at k9
    have klow := klow.resolve_left s0
    have kpos : 0 < |k| := lt_of_lt_of_le (by positivity) klow
    have inv : 1 / |k| ≤ 9 * R := by
      rw [div_le_iff₀ kpos]
      rw [div_le_iff₀ (by positivity)] at klow
      linarith
    have big : 𝓊 * (25 + 60 * |d * k| + 6 * |from_.theta|) / |k| ≤
        𝓊 * (225 * R + 541 * |G| + 54 * R * |from_.theta|) := by
      rw [div_eq_mul_one_div]
      calc _ ≤ 𝓊 * (25 + 60 * |d * k| + 6 * |from_.theta|) * (9 * R) :=
            mul_le_mul_of_nonneg_left inv (by positivity)
        _ ≤ 𝓊 * (25 + 60 * ((1 + 1 / 10 ^ 13) * (|G| / R)) + 6 * |from_.theta|) * (9 * R) := by
            refine mul_le_mul_of_nonneg_right (mul_le_mul_of_nonneg_left ?_ hu) (by positivity)
            linarith
        _ = 𝓊 * (225 * R + 540 * (1 + 1 / 10 ^ 13) * (|G| / R * R) + 54 * R * |from_.theta|) := by ring
        _ ≤ _ := by
            refine mul_le_mul_of_nonneg_left ?_ hu
            rw [div_mul_cancel₀ _ hR.ne']
            norm_num
            linarith
    have fin : ∀ x : ℝ, 𝓊 * (25 + 60 * |d * k| + 6 * |from_.theta|) / |k| + 𝓊 * |x| +
        10 / 7 * |signed dir d - signed dir G| ≤
        𝓊 * (225 * R + 545 * |G| + 54 * R * |from_.theta| + |x|) := by
      intro x
      have : 0 ≤ 𝓊 * |G| := by positivity
      linarith
    refine ⟨(tri _ _ _ _ _ x1 spd.1).trans (fin _), (tri _ _ _ _ _ y1 spd.2.1).trans (fin _),
      (tri _ _ _ _ _ t1 th3).trans ?_⟩
    have w1 : 𝓊 * (35 * |d * k| + |from_.theta|) ≤ 𝓊 * (35 * ((1 + 1 / 10 ^ 13) * (|G| / R)) + |from_.theta|) :=
      mul_le_mul_of_nonneg_left (by linarith) hu
    refine (add_le_add w1 le_rfl).trans ?_
    rw [← mul_add, mul_div_assoc]
    refine mul_le_mul_of_nonneg_left ?_ hu
    norm_num
    linarith
  · have s0 : s = 0 := by
      rcases klow with h | h
      · exact h
      · exfalso
        have : 1 / (9 * 10 ^ 8) ≤ 1 / (9 * R) := one_div_le_one_div_of_le (by positivity) (by linarith)
        exact absurd (lt_of_le_of_lt (this.trans h) k9) (by norm_num)
    have k0 : k = 0 := by rw [hk, s0, Real.tan_zero, zero_div]
    rw [k0, abs_zero, mul_zero, zero_mul, zero_add] at x1 y1
    rw [k0, abs_zero, mul_zero, zero_mul] at t1
    have fin : ∀ x : ℝ, 𝓊 * (28 * |d| + |x|) + 10 / 7 * |signed dir d - signed dir G| ≤
        𝓊 * (225 * R + 545 * |G| + 54 * R * |from_.theta| + |x|) := by
      intro x
      have w1 : 𝓊 * (28 * |d| + |x|) ≤ 𝓊 * (29 * |G| + |x|) := by
        refine mul_le_mul_of_nonneg_left ?_ hu
        linarith
      have w2 : 0 ≤ 𝓊 * (225 * R + 500 * |G| + 54 * R * |from_.theta|) := by positivity
      have w3 : 0 ≤ 𝓊 * |G| := by positivity
      linarith
    refine ⟨(tri _ _ _ _ _ x1 spd.1).trans (fin _), (tri _ _ _ _ _ y1 spd.2.1).trans (fin _),
      (tri _ _ _ _ _ t1 th3).trans ?_⟩
    rw [zero_add, mul_div_assoc]
    refine mul_le_mul_of_nonneg_left ?_ hu
    norm_num
    linarith

/-! ## The hypotheses can be met -/

/-- A library that rounds the exact values. -/
private noncomputable def bestSteer : LibmSteer :=
  { sin := fun x => fl64 (Real.sin x), cos := fun x => fl64 (Real.cos x), tan := fun x => fl64 (Real.tan x),
    atan := fun x => fl64 (Real.arctan x), sq := fun x => fl64 (x ^ 2) }

private theorem bestSteer_accurate : bestSteer.Accurate := by
  have key : ∀ x : ℝ, |fl64 x - x| ≤ (2 ^ 52)⁻¹ * |x| := fun x =>
    (fl_rel 53 x).trans (mul_le_mul_of_nonneg_right (by norm_num) (abs_nonneg _))
  refine ⟨fun x _ => ⟨key _, key _⟩, fun x _ => ⟨key _, ⟨isFlt_fl 53 h53 _, key _⟩, ?_⟩⟩
  have := key (x ^ 2)
  rwa [abs_of_nonneg (sq_nonneg x)] at this

private theorem half_double : IsFlt 53 (1 / 2 : ℝ) := by
  have h1 : IsFlt 53 (1 : ℝ) := by
    have := fl_int (p := 53) h53 (n := 1) (by norm_num)
    rwa [Int.cast_one] at this
  exact half_flt h1

private theorem tan_half : 1 / 2 ≤ Real.tan (1 / 2) ∧ Real.tan (1 / 2) ≤ 1 := by
  have hpi := Real.pi_gt_three
  refine ⟨Real.le_tan (by norm_num) (by linarith), ?_⟩
  refine le_trans ?_ Real.tan_pi_div_four.le
  exact Real.strictMonoOn_tan.monotoneOn ⟨by linarith, by linarith⟩ ⟨by linarith, by linarith⟩ (by linarith)

/-- A vehicle whose reference point is one metre ahead of the rear axle, driven ten metres backward in a turn: the first
alternative of the theorem. -/
example : let m : Bicycle := ⟨2, 1⟩
    let r := m.constantSteerF bestSteer ⟨⟨3, 4⟩, 1 / 2⟩ (1 / 2) 10 .backward
    let q := steered m ⟨⟨3, 4⟩, 1 / 2⟩ (1 / 2) (-10)
    |r.position.x - q.position.x| ≤ 1 / 10 ^ 12 ∧ |r.position.y - q.position.y| ≤ 1 / 10 ^ 12 ∧
      |r.theta - q.theta| ≤ 1 / 10 ^ 13 := by
  intro m r q
  obtain ⟨t1, t2⟩ := tan_half
  have hab : |m.rearToCenter * Real.tan (1 / 2)| ≤ |m.wheelbase| := by
    show |1 * Real.tan (1 / 2)| ≤ |(2 : ℝ)|
    rw [one_mul, abs_of_nonneg (by linarith), abs_of_nonneg (by norm_num)]
    linarith
  have main := C137_constant_steer bestSteer bestSteer_accurate m (by show (2 : ℝ) ≠ 0; norm_num) ⟨⟨3, 4⟩, 1 / 2⟩ half_double
    (1 / 2) half_double hab 10 .backward
  obtain ⟨-, ⟨-, hc0⟩, -⟩ := geometry_err bestSteer_accurate half_double hab
  have hκ : 7 / 40 ≤ |m.dThetaDdist (1 / 2)| := by
    have e : m.dThetaDdist (1 / 2) = Real.cos (m.beta (1 / 2)) * Real.tan (1 / 2) / 2 := rfl
    have : 7 / 10 * (1 / 2) ≤ Real.cos (m.beta (1 / 2)) * Real.tan (1 / 2) :=
      mul_le_mul hc0 t1 (by norm_num) (by linarith)
    rw [e, abs_of_nonneg (by linarith)]
    linarith
  have hΔ : |10 * (Real.tan (1 / 2) / m.wheelbase)| ≤ 5 := by
    show |10 * (Real.tan (1 / 2) / 2)| ≤ 5
    rw [abs_of_nonneg (by linarith)]
    linarith
  have hp : |(1 / 2 : ℝ)| = 1 / 2 := abs_of_pos (by norm_num)
  have inv : ∀ z, 0 ≤ z → z / |m.dThetaDdist (1 / 2)| ≤ z * 6 := by
    intro z hz
    rw [div_le_iff₀ (by linarith)]
    nlinarith
  have big : (2 ^ 53 : ℝ)⁻¹ * (25 + 60 * |10 * (Real.tan (1 / 2) / m.wheelbase)| + 6 * |(1 / 2 : ℝ)|) /
      |m.dThetaDdist (1 / 2)| ≤ (2 ^ 53)⁻¹ * 2000 := by
    refine (inv _ (by positivity)).trans ?_
    rw [mul_assoc]
    refine mul_le_mul_of_nonneg_left ?_ u0
    rw [hp]
    linarith
  rcases main with ⟨-, x1, y1, t1⟩ | ⟨k, -⟩
  · refine ⟨x1.trans ?_, y1.trans ?_, t1.trans ?_⟩
    · refine (add_le_add big le_rfl).trans ?_
      norm_num
    · refine (add_le_add big le_rfl).trans ?_
      norm_num
    · rw [hp]
      refine (mul_le_mul_of_nonneg_left (show _ ≤ (176 : ℝ) by linarith) u0).trans ?_
      norm_num
  · exact absurd (lt_of_le_of_lt hκ k) (by norm_num)

/-- The default parameters of hybrid A* meet the hypotheses, and the sharpest turn is among the motions. -/
example : ∃ l, HybridAStar.deltasF bestSteer {} = some l ∧ l.length = 5 ∧
    ∃ s ∈ l, |Real.tan s / 2.6 - 1 / 2| ≤ (2 ^ 46)⁻¹ / 2 ∧
      let a := HybridAStar.steerMotionF bestSteer {} ⟨⟨3, 4⟩, 1 / 2⟩ s .forward
      |(a.interpolateF bestSteer (1 / 2)).position.x -
        (arc (Real.tan s / 2.6) (a.length * (1 / 2)) ⟨⟨3, 4⟩, 1 / 2⟩).position.x| ≤
          (2 ^ 53)⁻¹ * (225 * 2 + 545 * |a.length * (1 / 2)| + 54 * 2 * |1 / 2| + |3|) := by
  have h2 : IsFlt 53 (2 : ℝ) := by
    have := fl_int (p := 53) h53 (n := 2) (by norm_num)
    rwa [show ((2 : ℤ) : ℝ) = 2 by norm_num] at this
  obtain ⟨l, l1, l2, l3, l4, l5⟩ := C137_steering_angles bestSteer bestSteer_accurate {} (by norm_num) (by norm_num) h2
    (by norm_num) (by norm_num)
  obtain ⟨s, s1, s2⟩ := l5 (by norm_num)
  refine ⟨l, l1, l3, s, s1, s2, ?_⟩
  exact (C137_hybrid_motion bestSteer bestSteer_accurate {} (by norm_num) (by norm_num) h2 (by norm_num) (by norm_num)
    (by norm_num) l l1 s s1 ⟨⟨3, 4⟩, 1 / 2⟩ half_double .forward (1 / 2)).2.1

end PathPlanning
