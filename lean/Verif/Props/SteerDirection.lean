import Mathlib.Analysis.SpecialFunctions.Trigonometric.Deriv
import Verif.Props.Path

/-!
# C66: the direction that a constant-steer path reports is that of its motion
-/

namespace PathPlanning
open Real Spec

/-- How fast the vehicle moves along its own heading, per unit of the ratio, where its position moves with velocity
`(vx, vy)`. -/
noncomputable def Spec.alongHeading (p : PoseR) (vx vy : ℝ) : ℝ := vx * cos p.theta + vy * sin p.theta

/-- C66 for constant-steer paths: at every ratio the position has a velocity, its component along the heading is not
zero, and it points backwards exactly when the reported direction is backward. -/
theorem C66_constant_steer (m : Bicycle) (p : PoseR) (s l : ℝ) (dir : Direction) (hl : 0 < l) (r : ℝ) :
    ∃ vx vy, HasDerivAt (fun t => ((PathSteer.new m p s l dir).interpolate t).position.x) vx r ∧
      HasDerivAt (fun t => ((PathSteer.new m p s l dir).interpolate t).position.y) vy r ∧
      alongHeading ((PathSteer.new m p s l dir).interpolate r) vx vy ≠ 0 ∧
      (alongHeading ((PathSteer.new m p s l dir).interpolate r) vx vy < 0 ↔
        (PathSteer.new m p s l dir).getDirection r = .backward) ∧
      (PathSteer.new m p s l dir).getDirection r = dir := by
  have hc : 0 < cos (m.beta s) := by unfold Bicycle.beta; exact cos_arctan_pos _
  obtain ⟨k, hk⟩ : ∃ k : ℝ, k = if dir = .backward then -l else l := ⟨_, rfl⟩
  have hk' : ∀ t, (if dir = .backward then -(l * t) else l * t) = k * t := by
    intro t; rw [hk]; split <;> ring
  have key : ∀ c : ℝ, 0 < c → k * c ≠ 0 ∧ (k * c < 0 ↔ dir = .backward) := by
    intro c hc
    rw [hk]
    have := mul_pos hl hc
    split
    · rename_i h
      exact ⟨by nlinarith, by simp only [h, iff_true]; nlinarith⟩
    · rename_i h
      exact ⟨this.ne', by simp only [h, iff_false]; linarith⟩
  by_cases hd : |m.dThetaDdist s| > 1e-9
  · have hd0 : m.dThetaDdist s ≠ 0 := by
      intro h; rw [h] at hd; norm_num at hd
    have e : ∀ t, (PathSteer.new m p s l dir).interpolate t =
        ⟨⟨p.position.x + 1 / m.dThetaDdist s * (sin (m.beta s + (p.theta + k * t / cos (m.beta s) * m.dThetaDdist s)) -
            sin (m.beta s + p.theta)),
          p.position.y + 1 / m.dThetaDdist s * (-cos (m.beta s + (p.theta + k * t / cos (m.beta s) * m.dThetaDdist s)) +
            cos (m.beta s + p.theta))⟩, p.theta + k * t / cos (m.beta s) * m.dThetaDdist s⟩ := by
      intro t
      simp only [PathSteer.new, PathSteer.interpolate, Bicycle.constantSteer, hk', if_pos hd]
    simp only [e]
    generalize m.dThetaDdist s = d at *
    generalize m.beta s = b at *
    have hlin : HasDerivAt (fun t => b + (p.theta + k * t / cos b * d)) (k / cos b * d) r := by
      have := (((((hasDerivAt_id r).const_mul k).div_const (cos b)).mul_const d).const_add p.theta).const_add b
      simpa using this
    refine ⟨_, _, (((hlin.sin.sub_const _).const_mul (1 / d)).const_add _),
      (((hlin.cos.neg.add_const _).const_mul (1 / d)).const_add _), ?_⟩
    generalize p.theta + k * r / cos b * d = th
    have hv : alongHeading ⟨⟨p.position.x + 1 / d * (sin (b + th) - sin (b + p.theta)),
        p.position.y + 1 / d * (-cos (b + th) + cos (b + p.theta))⟩, th⟩
        (1 / d * (cos (b + th) * (k / cos b * d))) (1 / d * -(-sin (b + th) * (k / cos b * d))) = k * 1 := by
      unfold alongHeading
      have h1 : cos (b + th) * cos th + sin (b + th) * sin th = cos b := by
        rw [← cos_sub]; congr 1; ring
      have h2 : 1 / d * (cos (b + th) * (k / cos b * d)) * cos th +
          1 / d * -(-sin (b + th) * (k / cos b * d)) * sin th =
          (cos (b + th) * cos th + sin (b + th) * sin th) * (k / cos b) := by
        field_simp
      rw [h2, h1]
      field_simp
    rw [hv]
    exact ⟨(key 1 one_pos).1, (key 1 one_pos).2, rfl⟩
  · have e : ∀ t, (PathSteer.new m p s l dir).interpolate t =
        ⟨⟨p.position.x + k * t / cos (m.beta s) * cos p.theta,
          p.position.y + k * t / cos (m.beta s) * sin p.theta⟩, p.theta⟩ := by
      intro t
      simp only [PathSteer.new, PathSteer.interpolate, Bicycle.constantSteer, hk', if_neg hd]
    simp only [e]
    generalize m.beta s = b at *
    have hlin : HasDerivAt (fun t => k * t / cos b) (k / cos b) r := by
      simpa using ((hasDerivAt_id r).const_mul k).div_const (cos b)
    refine ⟨_, _, ((hlin.mul_const _).const_add _), ((hlin.mul_const _).const_add _), ?_⟩
    have hv : alongHeading ⟨⟨p.position.x + k * r / cos b * cos p.theta,
        p.position.y + k * r / cos b * sin p.theta⟩, p.theta⟩ (k / cos b * cos p.theta) (k / cos b * sin p.theta) =
        k * (1 / cos b) := by
      unfold alongHeading
      have h1 := cos_sq_add_sin_sq p.theta
      calc _ = k / cos b * (cos p.theta ^ 2 + sin p.theta ^ 2) := by ring
        _ = _ := by rw [h1]; ring
    rw [hv]
    have := key (1 / cos b) (by positivity)
    exact ⟨this.1, this.2, rfl⟩

/-- Reversing two metres in a turn, the vehicle moves against its heading all along. -/
example (r : ℝ) : ∃ vx vy,
    HasDerivAt (fun t => ((PathSteer.new ⟨2, 1⟩ ⟨⟨0, 0⟩, 0⟩ (1 / 2) 2 .backward).interpolate t).position.x) vx r ∧
    HasDerivAt (fun t => ((PathSteer.new ⟨2, 1⟩ ⟨⟨0, 0⟩, 0⟩ (1 / 2) 2 .backward).interpolate t).position.y) vy r ∧
    alongHeading ((PathSteer.new ⟨2, 1⟩ ⟨⟨0, 0⟩, 0⟩ (1 / 2) 2 .backward).interpolate r) vx vy < 0 := by
  obtain ⟨vx, vy, hx, hy, -, h, hd⟩ :=
    C66_constant_steer ⟨2, 1⟩ ⟨⟨0, 0⟩, 0⟩ (1 / 2) 2 .backward (by norm_num) r
  exact ⟨vx, vy, hx, hy, h.2 hd⟩

end PathPlanning
