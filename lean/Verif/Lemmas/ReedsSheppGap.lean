import Verif.Lemmas.ReedsSheppComplete
import Mathlib.Topology.Order.IntermediateValue

/-!
# `R_u L_u R_v` after a left turn, with u between π/3 and π/2, is not shorter than some `L R L`
-/

namespace PathPlanning
open Real Spec

private theorem gap_lt {u v : ℝ} (hu : π / 3 ≤ u) (hu' : u < π / 2) (hv : 0 ≤ v) :
    ∃ a p q : ℝ, 0 ≤ a ∧ 0 ≤ p ∧ p ≤ π ∧ 0 ≤ q ∧ a + p + q ≤ u + u + v ∧ SameAngle (a - p - q) (v - 2 * u) ∧
      cos a - cos (a - p) = 1 - cos u + cos (2 * u) - cos (v - 2 * u) ∧
      sin a - sin (a - p) = sin u - sin (2 * u) - sin (v - 2 * u) := by
  have hp := pi_pos
  obtain ⟨C, hC⟩ : ∃ C, C = cos u := ⟨_, rfl⟩
  have hC0 : 0 < C := hC ▸ cos_pos_of_mem_Ioo ⟨by linarith, hu'⟩
  have hC1 : C ≤ 1 / 2 := by
    rw [hC, ← cos_pi_div_three]
    exact cos_le_cos_of_nonneg_of_le_pi (by linarith) (by linarith) hu
  obtain ⟨k, hk⟩ : ∃ k, k = 1 - 2 * C := ⟨_, rfl⟩
  have hc2 : cos (2 * u) = 2 * C ^ 2 - 1 := by rw [hC]; exact cos_two_mul u
  -- the condition for the angle of the first turn
  obtain ⟨f, hf⟩ : ∃ f : ℝ → ℝ, f = fun a => 1 + k ^ 2 + 2 * k * cos (v - u) + 2 * cos (a - (v - 2 * u)) +
    2 * k * cos (a + u) := ⟨_, rfl⟩
  have hcont : Continuous f := by rw [hf]; fun_prop
  have hfv : f v ≤ 0 := by
    have e : cos (v - u) + cos (v + u) = 2 * (cos v * C) := by rw [cos_sub, cos_add, hC]; ring
    have e' : f v = 4 * k * C * (cos v - 1) := by
      rw [hf]
      simp only
      rw [show v - (v - 2 * u) = 2 * u by ring, hc2]
      linear_combination 2 * k * e + (k + 2 * C + 1) * hk
    rw [e']
    exact mul_nonpos_of_nonneg_of_nonpos (mul_nonneg (by linarith) hC0.le) (by linarith [cos_le_one v])
  have hfm : 0 ≤ f (max 0 (v - 2 * u)) := by
    rcases le_total (v - 2 * u) 0 with h | h
    · rw [max_eq_left h]
      have e1 : cos (v - 2 * u) = 2 * C * cos (v - u) - cos v := by
        rw [show v - 2 * u = (v - u) - u by ring, show cos v = cos ((v - u) + u) by ring_nf, cos_sub _ u,
          cos_add _ u, hC]; ring
      have e2 : f 0 = 2 * (1 - cos v) + 2 * (cos (v - u) - C) := by
        rw [hf]
        simp only
        rw [zero_sub, cos_neg, zero_add, e1, ← hC, hk]; ring
      have e3 : C ≤ cos (v - u) := by
        rw [hC, ← cos_abs (v - u)]
        exact cos_le_cos_of_nonneg_of_le_pi (abs_nonneg _) (by linarith) (abs_le.mpr ⟨by linarith, by linarith⟩)
      rw [e2]
      linarith [cos_le_one v]
    · rw [max_eq_right h, hf]
      simp only
      rw [sub_self, cos_zero, show v - 2 * u + u = v - u by ring]
      nlinarith [neg_one_le_cos (v - u), sq_nonneg (k - 1)]
  have hmv : max 0 (v - 2 * u) ≤ v := max_le hv (by linarith)
  obtain ⟨a, ⟨ha1, ha2⟩, ha⟩ := intermediate_value_Icc' hmv hcont.continuousOn ⟨hfv, hfm⟩
  have ha0 : 0 ≤ a := (le_max_left _ _).trans ha1
  have haw : v - 2 * u ≤ a := (le_max_right _ _).trans ha1
  obtain ⟨w, hw⟩ : ∃ w, w = v - 2 * u := ⟨_, rfl⟩
  obtain ⟨d, hd⟩ : ∃ d, d = (a - w) / 2 := ⟨_, rfl⟩
  obtain ⟨m, hm⟩ : ∃ m, m = (a + w) / 2 := ⟨_, rfl⟩
  have ham : a = m + d := by rw [hm, hd]; ring
  have hwm : w = m - d := by rw [hm, hd]; ring
  have hd0 : 0 ≤ d := by rw [hd, hw]; linarith
  have hdu : d ≤ u := by rw [hd, hw]; linarith
  have hc : 0 < cos d := cos_pos_of_mem_Ioo ⟨by linarith, by linarith⟩
  obtain ⟨X, hX⟩ : ∃ X, X = 2 * cos d + k * cos (u + m) := ⟨_, rfl⟩
  obtain ⟨Y, hY⟩ : ∃ Y, Y = -(k * sin (u + m)) := ⟨_, rfl⟩
  have hf0 : 4 * cos d ^ 2 + 4 * cos d * (k * cos (u + m)) + k ^ 2 = 1 := by
    have e1 : f a = 0 := ha
    rw [hf] at e1
    simp only at e1
    rw [← hw, show a - w = 2 * d by rw [hd]; ring, cos_two_mul,
      show v - u = (u + m) - d by rw [show v = w + 2 * u by rw [hw]; ring, hwm]; ring,
      show a + u = (u + m) + d by rw [ham]; ring, cos_sub _ d, cos_add _ d] at e1
    linear_combination e1
  have hXY : X ^ 2 + Y ^ 2 = 1 := by
    rw [hX, hY]
    linear_combination hf0 + k ^ 2 * sin_sq_add_cos_sq (u + m)
  have hXc : cos d ≤ X := by
    have : cos d * cos d ≤ cos d * X := by
      rw [hX]
      nlinarith [hf0]
    exact le_of_mul_le_mul_left this hc
  have hs0 : 0 ≤ sin d := sin_nonneg_of_nonneg_of_le_pi hd0 (by linarith)
  have hYs : |Y| ≤ sin d := by
    refine abs_le_of_sq_le_sq ?_ hs0
    nlinarith [sin_sq_add_cos_sq d]
  obtain ⟨hY1, hY2⟩ := abs_le.mp hYs
  obtain ⟨θ, hθ⟩ : ∃ θ, θ = arcsin Y := ⟨_, rfl⟩
  have hd2 : arcsin (sin d) = d := arcsin_sin (by linarith) (by linarith)
  have hθ1 : θ ≤ d := by rw [hθ, ← hd2]; exact arcsin_le_arcsin hY2
  have hθ2 : -d ≤ θ := by rw [hθ, ← hd2, ← arcsin_neg]; exact arcsin_le_arcsin hY1
  have hsθ : sin θ = Y := by
    rw [hθ]; exact sin_arcsin (by linarith [sin_le_one d]) (by linarith [sin_le_one d])
  have hcθ : cos θ = X := by
    rw [hθ, cos_arcsin, show 1 - Y ^ 2 = X ^ 2 by linarith, sqrt_sq (by linarith)]
  have hap : a - (d - θ) = m + θ := by rw [ham]; ring
  have hbx : cos (m + θ) = cos a + cos w + k * C := by
    have e : C = cos (u + m) * cos m + sin (u + m) * sin m := by rw [← cos_sub, hC]; ring_nf
    rw [cos_add, hcθ, hsθ, hX, hY, ham, hwm, cos_add m d, cos_sub m d, e]
    ring
  have hby : sin (m + θ) = sin a + sin w - k * sin u := by
    have e : sin u = sin (u + m) * cos m - cos (u + m) * sin m := by rw [← sin_sub]; ring_nf
    rw [sin_add, hcθ, hsθ, hX, hY, ham, hwm, sin_add m d, sin_sub m d, e]
    ring
  refine ⟨a, d - θ, d + θ, ha0, by linarith, by linarith, by linarith, by linarith, ?_, ?_, ?_⟩
  · rw [show a - (d - θ) - (d + θ) = v - 2 * u by rw [← hw, ham, hwm]; ring]
    exact .refl _
  · rw [hap, hbx, ← hw, hc2, ← hC, hk]; ring
  · rw [hap, hby, ← hw, sin_two_mul, ← hC, hk]; ring

private theorem gap_quarter {v : ℝ} (hv : 0 ≤ v) (hv' : v < 2 * π) :
    ∃ a p q : ℝ, 0 ≤ a ∧ 0 ≤ p ∧ p ≤ π ∧ 0 ≤ q ∧ a + p + q ≤ π + v ∧ a - p - q = v - π ∧
      cos a - cos (a - p) = - cos (v - π) ∧ sin a - sin (a - p) = 1 - sin (v - π) := by
  have hp := pi_pos
  rw [cos_sub_pi, sin_sub_pi]
  rcases le_or_gt v (π / 2) with h1 | h1
  · refine ⟨v, v + π / 2, π / 2 - v, hv, by linarith, by linarith, by linarith, by linarith, by ring, ?_, ?_⟩
    · rw [show v - (v + π / 2) = -(π / 2) by ring, cos_neg, cos_pi_div_two]; ring
    · rw [show v - (v + π / 2) = -(π / 2) by ring, sin_neg, sin_pi_div_two]; ring
  rcases le_or_gt v (3 * π / 2) with h2 | h2
  · refine ⟨π / 2, 3 * π / 2 - v, 0, by linarith, by linarith, by linarith, le_rfl, by linarith, by ring, ?_, ?_⟩
    · rw [show π / 2 - (3 * π / 2 - v) = v - π by ring, cos_sub_pi, cos_pi_div_two]; ring
    · rw [show π / 2 - (3 * π / 2 - v) = v - π by ring, sin_sub_pi, sin_pi_div_two]
  · refine ⟨v, v - 3 * π / 2, 5 * π / 2 - v, hv, by linarith, by linarith, by linarith, by linarith, by ring, ?_, ?_⟩
    · rw [show v - (v - 3 * π / 2) = π / 2 + π by ring, cos_add_pi, cos_pi_div_two]; ring
    · rw [show v - (v - 3 * π / 2) = π / 2 + π by ring, sin_add_pi, sin_pi_div_two]; ring

/-- The way `R_u L_u R_v` (forward, backward, backward) can be replaced by `L R L` (forward, forward,
backward). -/
private theorem gap {u v : ℝ} (hu : π / 3 ≤ u) (hu' : u ≤ π / 2) (hv : 0 ≤ v) :
    ∃ a p q : ℝ, 0 ≤ a ∧ 0 ≤ p ∧ p ≤ π ∧ 0 ≤ q ∧ a + p + q ≤ u + u + v ∧ SameAngle (a - p - q) (v - 2 * u) ∧
      cos a - cos (a - p) = 1 - cos u + cos (2 * u) - cos (v - 2 * u) ∧
      sin a - sin (a - p) = sin u - sin (2 * u) - sin (v - 2 * u) := by
  have hp := pi_pos
  rcases hu'.lt_or_eq with h | rfl
  · exact gap_lt hu h hv
  have hm0 : 0 ≤ modulo v (2 * π) := modulo_nonneg _
  have hm1 : modulo v (2 * π) < 2 * π := (modulo_spec v (by positivity)).2.1
  have hm2 : modulo v (2 * π) ≤ v := modulo_le (.refl _) hv
  have hms := modulo_same v
  obtain ⟨a, p, q, h1, h2, h3, h4, h5, h6, h7, h8⟩ := gap_quarter hm0 hm1
  refine ⟨a, p, q, h1, h2, h3, h4, by linarith, ?_, ?_, ?_⟩
  · rw [h6, show 2 * (π / 2) = π by ring]; exact hms.sub (.refl _)
  · rw [h7, show 2 * (π / 2) = π by ring, (hms.sub (.refl π)).cos, cos_pi_div_two, cos_pi]; ring
  · rw [h8, show 2 * (π / 2) = π by ring, (hms.sub (.refl π)).sin, sin_pi_div_two, sin_pi]; ring

/-- For a path `L_t R_u L_u R_v` with `u` between π/3 and π/2 the formula for `L R L` finds a path that is
not longer. -/
theorem LfRufLubRb_gap {g : PoseR} {t u v : ℝ} (h : Ends g (baseStretches 5 t u v))
    (ht : 0 ≤ t) (hu : π / 3 ≤ u) (hu' : u ≤ π / 2) (hv : 0 ≤ v) :
    ∃ t' p q, 0 ≤ t' ∧ 0 ≤ p ∧ p ≤ π ∧ 0 ≤ q ∧ t' + p + q ≤ t + u + u + v ∧
      Ends g (baseStretches 4 t' p q) := by
  obtain ⟨a, p, q, h1, h2, h3, h4, h5, h6, h7, h8⟩ := gap hu hu' hv
  refine ⟨t + a, p, q, by linarith, h2, h3, h4, by linarith, ?_⟩
  obtain ⟨hx, hy, hc, hs, ha⟩ := h.coords
  simp [baseStretches, driveAll, arc] at hx hy hc hs ha
  have hth : SameAngle (t + a + -p + -q) g.theta := by
    refine SameAngle.trans ?_ ha
    have := (SameAngle.refl t).add h6
    refine SameAngle.trans ?_ (this.trans ?_)
    · ring_nf; exact .refl _
    · ring_nf; exact .refl _
  have e1 : sin t - sin (t + -u) + sin (t + -u + -u) - sin (t + -u + -u + v) = sin (t + a) - sin (t + a + -p) := by
    rw [show t + -u = t + -u by ring, show t + -u + -u + v = t + (v - 2 * u) by ring,
      show t + -u + -u = t - 2 * u by ring, show t + a + -p = t + (a - p) by ring, ← sub_eq_add_neg]
    rw [sin_sub t u, sin_sub t (2 * u), sin_add t (v - 2 * u), sin_add t a, sin_add t (a - p)]
    linear_combination -cos t * h8 - sin t * h7
  have e2 : cos t - cos (t + -u) + cos (t + -u + -u) - cos (t + -u + -u + v) = cos (t + a) - cos (t + a + -p) := by
    rw [show t + -u + -u + v = t + (v - 2 * u) by ring,
      show t + -u + -u = t - 2 * u by ring, show t + a + -p = t + (a - p) by ring, ← sub_eq_add_neg]
    rw [cos_sub t u, cos_sub t (2 * u), cos_add t (v - 2 * u), cos_add t a, cos_add t (a - p)]
    linear_combination -cos t * h7 + sin t * h8
  have hc' := hth.cos
  have hs' := hth.sin
  unfold Ends
  refine ⟨?_, ?_⟩
  · ext
    · simp [baseStretches, driveAll, arc]
      linear_combination hx - 2 * e1 + hs' - hs
    · simp [baseStretches, driveAll, arc]
      linear_combination hy + 2 * e2 - hc' + hc
  · simpa [baseStretches, driveAll, arc] using hth

end PathPlanning
