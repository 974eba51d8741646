import Verif.Model.ReedsShepp
import Verif.Spec.ReedsShepp
import Verif.Lemmas.Pose
import Mathlib.Tactic.FieldSimp
import Mathlib.Tactic.Ring
import Mathlib.Tactic.NormNum
import Mathlib.Tactic.LinearCombination
import Mathlib.Tactic.Positivity

/-!
# The twelve base formulas of the Reeds-Shepp solver
-/

namespace PathPlanning
open Real Spec

theorem fmodR_spec (a : ℝ) {m : ℝ} (hm : 0 < m) :
    -m < fmodR a m ∧ fmodR a m < m ∧ ∃ k : ℤ, fmodR a m = a + k * m := by
  have h : a = a / m * m := by field_simp
  refine ⟨?_, ?_, -truncInt (a / m), by unfold fmodR; push_cast; ring⟩ <;>
  · unfold fmodR truncInt
    split
    · have h1 := Int.floor_le (a / m)
      have h2 := Int.lt_floor_add_one (a / m)
      nlinarith
    · have h1 := Int.le_ceil (a / m)
      have h2 := Int.ceil_lt_add_one (a / m)
      nlinarith

theorem modulo_spec (a : ℝ) {m : ℝ} (hm : 0 < m) :
    0 ≤ modulo a m ∧ modulo a m < m ∧ ∃ k : ℤ, modulo a m = a + k * m := by
  obtain ⟨h1, h2, k, hk⟩ := fmodR_spec a hm
  unfold modulo
  split
  · rename_i h
    exact ⟨by linarith, by linarith, k + 1, by rw [hk]; push_cast; ring⟩
  · rename_i h
    exact ⟨not_lt.mp h, h2, k, hk⟩

theorem modulo_nonneg (a : ℝ) : 0 ≤ modulo a (2 * π) := (modulo_spec a (by positivity)).1
theorem modulo_same (a : ℝ) : SameAngle (modulo a (2 * π)) a := (modulo_spec a (by positivity)).2.2

theorem wrapAngle_same (a : ℝ) : SameAngle (RS.wrapAngle a) a := by
  obtain ⟨k, hk⟩ := modulo_same (a + π)
  exact ⟨k, by unfold RS.wrapAngle; rw [hk]; ring⟩

theorem atan2_cos (y x : ℝ) : √(x * x + y * y) * cos (atan2 y x) = x := by
  have := Complex.norm_mul_cos_arg ⟨x, y⟩
  rw [Complex.norm_def, Complex.normSq_mk] at this
  exact this

theorem atan2_sin (y x : ℝ) : √(x * x + y * y) * sin (atan2 y x) = y := by
  have := Complex.norm_mul_sin_arg ⟨x, y⟩
  rw [Complex.norm_def, Complex.normSq_mk] at this
  exact this

/-- Driving the stretches from the origin ends in the pose `g`. -/
def Ends (g : PoseR) (l : List Stretch) : Prop :=
  (driveAll ⟨⟨0, 0⟩, 0⟩ l).position = g.position ∧ SameAngle (driveAll ⟨⟨0, 0⟩, 0⟩ l).theta g.theta

private theorem ends_of {g : PoseR} {l : List Stretch}
    (hθ : SameAngle (driveAll ⟨⟨0, 0⟩, 0⟩ l).theta g.theta)
    (h : cos (driveAll ⟨⟨0, 0⟩, 0⟩ l).theta = cos g.theta →
      sin (driveAll ⟨⟨0, 0⟩, 0⟩ l).theta = sin g.theta →
      (driveAll ⟨⟨0, 0⟩, 0⟩ l).position.x = g.position.x ∧
      (driveAll ⟨⟨0, 0⟩, 0⟩ l).position.y = g.position.y) : Ends g l :=
  ⟨by ext; exacts [(h hθ.cos hθ.sin).1, (h hθ.cos hθ.sin).2], hθ⟩


theorem LfSfLf_ends {g : PoseR} {t u v len : ℝ} (h : RS.LfSfLf g = .finite t u v len) :
    Ends g [⟨1, 1, t⟩, ⟨0, 1, u⟩, ⟨1, 1, v⟩] ∧ 0 ≤ t ∧ 0 ≤ u ∧ 0 ≤ v ∧ len = t + u + v := by
  simp only [RS.LfSfLf] at h
  split at h
  · cases h
  rename_i hn
  simp only [RS.angleInvalid, not_or, not_lt] at hn
  injection h with ht hu hv hl
  rw [ht] at hn hv hl
  rw [hv] at hn hl
  rw [hu] at hl
  refine ⟨?_, hn.1.1, hu ▸ sqrt_nonneg _, hn.2.1, hl.symm⟩
  have hv' : SameAngle v (g.theta - t) := hv ▸ wrapAngle_same _
  have hx := atan2_cos (g.position.y - 1 + cos g.theta) (g.position.x - sin g.theta)
  have hy := atan2_sin (g.position.y - 1 + cos g.theta) (g.position.x - sin g.theta)
  rw [ht, hu] at hx hy
  apply ends_of
  · simp [driveAll, arc]
    have := (SameAngle.refl t).add hv'
    rwa [add_sub_cancel] at this
  · simp [driveAll, arc]
    intro hc hs
    rw [hc, hs]
    exact ⟨by linarith, by linarith⟩

/-- `√(s - 4)` and 2 as the legs of the right triangle with the hypotenuse `√s`. -/
private theorem leg {s : ℝ} (hs : 4 ≤ s) : √(√(s - 4) * √(s - 4) + 2 * 2) = √s := by
  rw [mul_self_sqrt (by linarith)]; congr 1; ring

theorem LfSfRf_ends {g : PoseR} {t u v len : ℝ} (h : RS.LfSfRf g = .finite t u v len) :
    Ends g [⟨1, 1, t⟩, ⟨0, 1, u⟩, ⟨-1, 1, v⟩] ∧ 0 ≤ t ∧ 0 ≤ u ∧ 0 ≤ v ∧ len = t + u + v := by
  simp only [RS.LfSfRf] at h
  split at h
  · cases h
  rename_i h4
  rw [not_lt] at h4
  split at h
  · cases h
  rename_i hn
  simp only [RS.angleInvalid, not_or, not_lt] at hn
  injection h with ht hu hv hl
  have hx := atan2_cos (g.position.y - 1 - cos g.theta) (g.position.x + sin g.theta)
  have hy := atan2_sin (g.position.y - 1 - cos g.theta) (g.position.x + sin g.theta)
  have hL := leg h4
  rw [ht] at hn hv hl
  rw [hv] at hn hl
  rw [hu] at hl ht hL
  obtain ⟨φ, hφ⟩ : ∃ φ, φ = atan2 (g.position.y - 1 - cos g.theta) (g.position.x + sin g.theta) := ⟨_, rfl⟩
  rw [← hφ] at hx hy ht
  rw [← hL] at hx hy
  have hx2 := atan2_cos 2 u
  have hy2 := atan2_sin 2 u
  obtain ⟨r, hr⟩ : ∃ r, r = √(u * u + 2 * 2) := ⟨_, rfl⟩
  obtain ⟨α, hα⟩ : ∃ α, α = atan2 2 u := ⟨_, rfl⟩
  rw [← hr] at hx hy
  rw [← hr, ← hα] at hx2 hy2
  rw [← hα] at ht
  refine ⟨?_, hn.1.1, hu ▸ sqrt_nonneg _, hn.2.1, hl.symm⟩
  have hv' : SameAngle v (t - g.theta) := hv ▸ wrapAngle_same _
  have ht' : SameAngle t (φ + α) := ht ▸ wrapAngle_same _
  have hc := ht'.cos
  have hs := ht'.sin
  rw [cos_add] at hc
  rw [sin_add] at hs
  apply ends_of
  · simp [driveAll, arc]
    have := (SameAngle.refl t).sub hv'
    rwa [sub_sub_cancel, sub_eq_add_neg] at this
  · simp [driveAll, arc]
    intro hc' hs'
    rw [hc', hs']
    have e := sin_sq_add_cos_sq α
    constructor
    · rw [hc, hs]
      linear_combination hx - (cos φ * cos α - sin φ * sin α) * hx2 - (sin φ * cos α + cos φ * sin α) * hy2 + r * cos φ * e
    · rw [hc, hs]
      linear_combination hy - (sin φ * cos α + cos φ * sin α) * hx2 + (cos φ * cos α - sin φ * sin α) * hy2 + r * sin φ * e


private theorem ccc {u1 φ α t u : ℝ} (ha : 4 * cos α = u1) (ht : SameAngle t (π / 2 + α + φ))
    (hu : SameAngle u (π - 2 * α)) :
    2 * sin t - 2 * sin (t + u) = u1 * cos φ ∧ -2 * cos t + 2 * cos (t + u) = u1 * sin φ := by
  have h := ht.add hu
  rw [ht.sin, ht.cos, h.sin, h.cos, show π / 2 + α + φ = φ + α + π / 2 by ring,
    show φ + α + π / 2 + (π - 2 * α) = φ - α + π / 2 + π by ring, sin_add_pi, cos_add_pi,
    sin_add_pi_div_two, cos_add_pi_div_two, sin_add_pi_div_two, cos_add_pi_div_two, cos_add, cos_sub,
    sin_add, sin_sub]
  constructor
  · linear_combination cos φ * ha
  · linear_combination sin φ * ha

private theorem arccos_quarter {u1 : ℝ} (h0 : 0 ≤ u1) (h4 : u1 ≤ 4) : 4 * cos (arccos (u1 / 4)) = u1 := by
  rw [cos_arccos (by linarith) (by linarith)]; ring

theorem LfRbLf_ends {g : PoseR} {t u v len : ℝ} (h : RS.LfRbLf g = .finite t u v len) :
    Ends g [⟨1, 1, t⟩, ⟨-1, -1, u⟩, ⟨1, 1, v⟩] ∧ 0 ≤ t ∧ 0 ≤ u ∧ 0 ≤ v ∧ len = t + u + v := by
  simp only [RS.LfRbLf] at h
  have hx := atan2_cos (g.position.y - 1 + cos g.theta) (g.position.x - sin g.theta)
  have hy := atan2_sin (g.position.y - 1 + cos g.theta) (g.position.x - sin g.theta)
  obtain ⟨φ, hφ⟩ : ∃ φ, φ = atan2 (g.position.y - 1 + cos g.theta) (g.position.x - sin g.theta) := ⟨_, rfl⟩
  rw [← hφ] at hx hy h
  have hu1 := sqrt_nonneg ((g.position.x - sin g.theta) * (g.position.x - sin g.theta) +
    (g.position.y - 1 + cos g.theta) * (g.position.y - 1 + cos g.theta))
  obtain ⟨u1, hu1'⟩ : ∃ u1, u1 = √((g.position.x - sin g.theta) * (g.position.x - sin g.theta) +
    (g.position.y - 1 + cos g.theta) * (g.position.y - 1 + cos g.theta)) := ⟨_, rfl⟩
  rw [← hu1'] at hx hy hu1 h
  split at h
  · cases h
  rename_i h4
  rw [not_lt] at h4
  split at h
  · cases h
  injection h with ht hu hv hl
  rw [ht] at hv hl
  rw [hu] at hv hl
  rw [hv] at hl
  have ht' : SameAngle t (π / 2 + arccos (u1 / 4) + φ) := ht ▸ modulo_same _
  have hu' : SameAngle u (π - 2 * arccos (u1 / 4)) := hu ▸ modulo_same _
  have hv' : SameAngle v (g.theta - t - u) := hv ▸ modulo_same _
  refine ⟨?_, ht ▸ modulo_nonneg _, hu ▸ modulo_nonneg _, hv ▸ modulo_nonneg _, hl.symm⟩
  have hc := ccc (arccos_quarter hu1 h4) ht' hu'
  apply ends_of
  · simp [driveAll, arc]
    have := (SameAngle.refl (t + u)).add hv'
    rwa [show t + u + (g.theta - t - u) = g.theta by ring] at this
  · simp [driveAll, arc]
    intro hc' hs'
    rw [hc', hs']
    exact ⟨by linarith [hc.1], by linarith [hc.2]⟩

theorem LfRbLb_ends {g : PoseR} {t u v len : ℝ} (h : RS.LfRbLb g = .finite t u v len) :
    Ends g [⟨1, 1, t⟩, ⟨-1, -1, u⟩, ⟨1, -1, v⟩] ∧ 0 ≤ t ∧ 0 ≤ u ∧ 0 ≤ v ∧ len = t + u + v := by
  simp only [RS.LfRbLb] at h
  have hx := atan2_cos (g.position.y - 1 + cos g.theta) (g.position.x - sin g.theta)
  have hy := atan2_sin (g.position.y - 1 + cos g.theta) (g.position.x - sin g.theta)
  obtain ⟨φ, hφ⟩ : ∃ φ, φ = atan2 (g.position.y - 1 + cos g.theta) (g.position.x - sin g.theta) := ⟨_, rfl⟩
  rw [← hφ] at hx hy h
  have hu1 := sqrt_nonneg ((g.position.x - sin g.theta) * (g.position.x - sin g.theta) +
    (g.position.y - 1 + cos g.theta) * (g.position.y - 1 + cos g.theta))
  obtain ⟨u1, hu1'⟩ : ∃ u1, u1 = √((g.position.x - sin g.theta) * (g.position.x - sin g.theta) +
    (g.position.y - 1 + cos g.theta) * (g.position.y - 1 + cos g.theta)) := ⟨_, rfl⟩
  rw [← hu1'] at hx hy hu1 h
  split at h
  · cases h
  rename_i h4
  rw [not_lt] at h4
  injection h with ht hu hv hl
  rw [ht] at hv hl
  rw [hu] at hv hl
  rw [hv] at hl
  have ht' : SameAngle t (π / 2 + arccos (u1 / 4) + φ) := ht ▸ modulo_same _
  have hu' : SameAngle u (π - 2 * arccos (u1 / 4)) := hu ▸ modulo_same _
  have hv' : SameAngle v (t + u - g.theta) := hv ▸ modulo_same _
  refine ⟨?_, ht ▸ modulo_nonneg _, hu ▸ modulo_nonneg _, hv ▸ modulo_nonneg _, hl.symm⟩
  have hc := ccc (arccos_quarter hu1 h4) ht' hu'
  apply ends_of
  · simp [driveAll, arc]
    have := (SameAngle.refl (t + u)).sub hv'
    rwa [sub_sub_cancel, sub_eq_add_neg] at this
  · simp [driveAll, arc]
    intro hc' hs'
    rw [hc', hs']
    exact ⟨by linarith [hc.1], by linarith [hc.2]⟩

theorem LfRfLb_ends {g : PoseR} {t u v len : ℝ} (h : RS.LfRfLb g = .finite t u v len) :
    Ends g [⟨1, 1, t⟩, ⟨-1, 1, u⟩, ⟨1, -1, v⟩] ∧ 0 ≤ t ∧ 0 ≤ u ∧ 0 ≤ v ∧ len = t + u + v := by
  simp only [RS.LfRfLb] at h
  have hx := atan2_cos (g.position.y - 1 + cos g.theta) (g.position.x - sin g.theta)
  have hy := atan2_sin (g.position.y - 1 + cos g.theta) (g.position.x - sin g.theta)
  obtain ⟨φ, hφ⟩ : ∃ φ, φ = atan2 (g.position.y - 1 + cos g.theta) (g.position.x - sin g.theta) := ⟨_, rfl⟩
  rw [← hφ] at hx hy h
  have hu1 := sqrt_nonneg ((g.position.x - sin g.theta) * (g.position.x - sin g.theta) +
    (g.position.y - 1 + cos g.theta) * (g.position.y - 1 + cos g.theta))
  obtain ⟨u1, hu1'⟩ : ∃ u1, u1 = √((g.position.x - sin g.theta) * (g.position.x - sin g.theta) +
    (g.position.y - 1 + cos g.theta) * (g.position.y - 1 + cos g.theta)) := ⟨_, rfl⟩
  rw [← hu1'] at hx hy hu1 h
  split at h
  · cases h
  rename_i h4
  rw [not_lt] at h4
  split at h
  · cases h
  rename_i h0
  have hpos : 0 < u1 := lt_of_le_of_ne hu1 (Ne.symm h0)
  injection h with ht hu hv hl
  have hu0 : 0 ≤ u := hu ▸ arccos_nonneg _
  have hup : u ≤ π := hu ▸ arccos_le_pi _
  have hcu : cos u = (8 - u1 * u1) / 8 := by
    rw [← hu]; exact cos_arccos (by nlinarith) (by nlinarith)
  have hsu : 0 ≤ sin u := sin_nonneg_of_nonneg_of_le_pi hu0 hup
  rw [hu] at ht hv hl
  rw [ht] at hv hl
  rw [hv] at hl
  have hsq : 4 * sin u ^ 2 = u1 ^ 2 - u1 ^ 4 / 16 := by
    have := sin_sq_add_cos_sq u
    rw [hcu] at this
    linear_combination 4 * this
  have hsin : u1 * sin (arcsin (2 * sin u / u1)) = 2 * sin u := by
    have h1 : 0 ≤ 2 * sin u / u1 := by positivity
    have h2 : 2 * sin u / u1 ≤ 1 := by
      rw [div_le_one hpos]
      refine abs_le_of_sq_le_sq' ?_ hu1 |>.2
      nlinarith [pow_nonneg hu1 4]
    rw [sin_arcsin (by linarith) h2]
    field_simp
  have hcos : 4 * cos (arcsin (2 * sin u / u1)) = u1 := by
    rw [cos_arcsin, show 1 - (2 * sin u / u1) ^ 2 = (u1 / 4) ^ 2 by
      field_simp; linear_combination (-16) * hsq, sqrt_sq (by linarith)]
    ring
  obtain ⟨α, hα⟩ : ∃ α, α = arcsin (2 * sin u / u1) := ⟨_, rfl⟩
  rw [← hα] at hsin hcos ht
  have ht' : SameAngle t (π / 2 - α + φ) := ht ▸ modulo_same _
  have hv' : SameAngle v (t - u - g.theta) := hv ▸ modulo_same _
  refine ⟨?_, ht ▸ modulo_nonneg _, hu0, hv ▸ modulo_nonneg _, hl.symm⟩
  have hs := ht'.sin
  have hc := ht'.cos
  rw [show π / 2 - α + φ = φ - α + π / 2 by ring] at hs hc
  rw [sin_add_pi_div_two, cos_sub] at hs
  rw [cos_add_pi_div_two, sin_sub] at hc
  have e := sin_sq_add_cos_sq α
  apply ends_of
  · simp [driveAll, arc]
    have := (SameAngle.refl (t - u)).sub hv'
    rwa [sub_sub_cancel, sub_eq_add_neg, sub_eq_add_neg] at this
  · simp [driveAll, arc]
    intro hc' hs'
    rw [hc', hs', ← sub_eq_add_neg, cos_sub, sin_sub, hs, hc, hcu]
    have k1 : sin u = u1 * sin α / 2 := by linarith
    rw [k1]
    have k2 : (8 - u1 * u1) / 8 = 1 - u1 * cos α / 2 := by rw [← hcos]; ring
    rw [k2]
    constructor
    · linear_combination hx + u1 * cos φ * e
    · linear_combination hy + u1 * sin φ * e


private theorem ccucuc {c φ t u : ℝ} (h : 2 * sin (t - u) * (2 * cos u - 1) = c * cos φ)
    (h' : -(2 * cos (t - u) * (2 * cos u - 1)) = c * sin φ) :
    2 * sin t - 2 * sin (t - u) + 2 * sin (t - 2 * u) = c * cos φ ∧
    -(2 * cos t) + 2 * cos (t - u) - 2 * cos (t - 2 * u) = c * sin φ := by
  have h1 : t = (t - u) + u := by ring
  have h2 : t - 2 * u = (t - u) - u := by ring
  obtain ⟨w, hw⟩ : ∃ w, w = t - u := ⟨_, rfl⟩
  rw [← hw] at h1 h2 h h' ⊢
  rw [h2, h1, sin_add, sin_sub, cos_add, cos_sub]
  constructor
  · linear_combination h
  · linear_combination h'

theorem LfRufLubRb_ends {g : PoseR} {t u v len : ℝ} (h : RS.LfRufLubRb g = .finite t u v len) :
    Ends g [⟨1, 1, t⟩, ⟨-1, 1, u⟩, ⟨1, -1, u⟩, ⟨-1, -1, v⟩] ∧ 0 ≤ t ∧ 0 ≤ u ∧ 0 ≤ v ∧
    len = t + u + u + v := by
  simp only [RS.LfRufLubRb] at h
  have hx := atan2_cos (g.position.y - 1 - cos g.theta) (g.position.x + sin g.theta)
  have hy := atan2_sin (g.position.y - 1 - cos g.theta) (g.position.x + sin g.theta)
  obtain ⟨φ, hφ⟩ : ∃ φ, φ = atan2 (g.position.y - 1 - cos g.theta) (g.position.x + sin g.theta) := ⟨_, rfl⟩
  rw [← hφ] at hx hy h
  have hu1 := sqrt_nonneg ((g.position.x + sin g.theta) * (g.position.x + sin g.theta) +
    (g.position.y - 1 - cos g.theta) * (g.position.y - 1 - cos g.theta))
  obtain ⟨u1, hu1'⟩ : ∃ u1, u1 = √((g.position.x + sin g.theta) * (g.position.x + sin g.theta) +
    (g.position.y - 1 - cos g.theta) * (g.position.y - 1 - cos g.theta)) := ⟨_, rfl⟩
  rw [← hu1'] at hx hy hu1 h
  split at h
  · cases h
  rename_i h4
  rw [not_lt] at h4
  have key : SameAngle v (g.theta - t + 2 * u) → 2 * sin (t - u) * (2 * cos u - 1) = u1 * cos φ →
      -(2 * cos (t - u) * (2 * cos u - 1)) = u1 * sin φ →
      Ends g [⟨1, 1, t⟩, ⟨-1, 1, u⟩, ⟨1, -1, u⟩, ⟨-1, -1, v⟩] := by
    intro hv' h1 h2
    have hc := ccucuc h1 h2
    apply ends_of
    · simp [driveAll, arc]
      have := (SameAngle.refl (t - 2 * u)).add hv'
      rw [show t - 2 * u + (g.theta - t + 2 * u) = g.theta by ring] at this
      rwa [show t + -u + -u + v = t - 2 * u + v by ring]
    · simp [driveAll, arc]
      intro hc' hs'
      rw [hc', hs', show t + -u + -u = t - 2 * u by ring, ← sub_eq_add_neg t u]
      exact ⟨by linarith [hc.1], by linarith [hc.2]⟩
  split at h
  · rename_i h2
    injection h with ht hu hv hl
    rw [ht] at hv hl
    rw [hu] at hv hl
    rw [hv] at hl
    obtain ⟨α, hα⟩ : ∃ α, α = arccos (u1 / 4 - 1 / 2) := ⟨_, rfl⟩
    have ha : cos α = u1 / 4 - 1 / 2 := by rw [hα, cos_arccos (by linarith) (by linarith)]
    rw [← hα] at ht hu
    have ht' : SameAngle t (π / 2 + φ - α) := ht ▸ modulo_same _
    have hu' : SameAngle u (π - α) := hu ▸ modulo_same _
    have hv' : SameAngle v (g.theta - t + 2 * u) := hv ▸ modulo_same _
    refine ⟨key hv' ?_ ?_, ht ▸ modulo_nonneg _, hu ▸ modulo_nonneg _, hv ▸ modulo_nonneg _, hl.symm⟩
    · rw [(ht'.sub hu').sin, hu'.cos, cos_pi_sub, ha,
        show π / 2 + φ - α - (π - α) = φ - π / 2 by ring, sin_sub_pi_div_two]
      ring
    · rw [(ht'.sub hu').cos, hu'.cos, cos_pi_sub, ha,
        show π / 2 + φ - α - (π - α) = φ - π / 2 by ring, cos_sub_pi_div_two]
      ring
  · rename_i h2
    rw [gt_iff_lt, not_lt] at h2
    injection h with ht hu hv hl
    rw [ht] at hv hl
    rw [hu] at hv hl
    rw [hv] at hl
    obtain ⟨α, hα⟩ : ∃ α, α = arccos (u1 / 4 + 1 / 2) := ⟨_, rfl⟩
    have ha : cos α = u1 / 4 + 1 / 2 := by rw [hα, cos_arccos (by linarith) (by linarith)]
    rw [← hα] at ht hu
    have ht' : SameAngle t (π / 2 + φ + α) := ht ▸ modulo_same _
    have hu' : SameAngle u α := hu ▸ modulo_same _
    have hv' : SameAngle v (g.theta - t + 2 * u) := hv ▸ modulo_same _
    refine ⟨key hv' ?_ ?_, ht ▸ modulo_nonneg _, hu ▸ modulo_nonneg _, hv ▸ modulo_nonneg _, hl.symm⟩
    · rw [(ht'.sub hu').sin, hu'.cos, ha,
        show π / 2 + φ + α - α = φ + π / 2 by ring, sin_add_pi_div_two]
      ring
    · rw [(ht'.sub hu').cos, hu'.cos, ha,
        show π / 2 + φ + α - α = φ + π / 2 by ring, cos_add_pi_div_two]
      ring

theorem LfRubLubRf_ends {g : PoseR} {t u v len : ℝ} (h : RS.LfRubLubRf g = .finite t u v len) :
    Ends g [⟨1, 1, t⟩, ⟨-1, -1, u⟩, ⟨1, -1, u⟩, ⟨-1, 1, v⟩] ∧ 0 ≤ t ∧ 0 ≤ u ∧ 0 ≤ v ∧
    len = t + u + u + v := by
  simp only [RS.LfRubLubRf] at h
  have hx := atan2_cos (g.position.y - 1 - cos g.theta) (g.position.x + sin g.theta)
  have hy := atan2_sin (g.position.y - 1 - cos g.theta) (g.position.x + sin g.theta)
  obtain ⟨φ, hφ⟩ : ∃ φ, φ = atan2 (g.position.y - 1 - cos g.theta) (g.position.x + sin g.theta) := ⟨_, rfl⟩
  rw [← hφ] at hx hy h
  have hu1 := sqrt_nonneg ((g.position.x + sin g.theta) * (g.position.x + sin g.theta) +
    (g.position.y - 1 - cos g.theta) * (g.position.y - 1 - cos g.theta))
  obtain ⟨u1, hu1'⟩ : ∃ u1, u1 = √((g.position.x + sin g.theta) * (g.position.x + sin g.theta) +
    (g.position.y - 1 - cos g.theta) * (g.position.y - 1 - cos g.theta)) := ⟨_, rfl⟩
  rw [← hu1'] at hx hy hu1 h
  split at h
  · cases h
  split at h
  · cases h
  rename_i hva
  rw [not_or, not_lt, not_lt] at hva
  injection h with ht hu hv hl
  have hu0 : 0 ≤ u := hu ▸ arccos_nonneg _
  have hup : u ≤ π := hu ▸ arccos_le_pi _
  have hcu : cos u = 5 / 4 - u1 * u1 / 16 := by
    rw [← hu]; exact cos_arccos (by linarith) (by linarith)
  have hsu : 0 ≤ sin u := sin_nonneg_of_nonneg_of_le_pi hu0 hup
  rw [hu] at ht hv hl
  rw [ht] at hv hl
  rw [hv] at hl
  have hpos : 0 < u1 := by
    refine lt_of_le_of_ne hu1 ?_
    rintro rfl
    have := hva.2
    norm_num at this
  have hsq : sin u ^ 2 = 1 - cos u ^ 2 := by linear_combination sin_sq_add_cos_sq u
  have hsin : u1 * sin (arcsin (2 * sin u / u1)) = 2 * sin u := by
    have h1 : 0 ≤ 2 * sin u / u1 := by positivity
    have h2 : 2 * sin u / u1 ≤ 1 := by
      rw [div_le_one hpos]
      refine abs_le_of_sq_le_sq' ?_ hu1 |>.2
      rw [mul_pow, hsq]
      nlinarith [sq_nonneg (2 - cos u)]
    rw [sin_arcsin (by linarith) h2]
    field_simp
  have hcos : u1 * cos (arcsin (2 * sin u / u1)) = 2 * (2 - cos u) := by
    rw [cos_arcsin, show 1 - (2 * sin u / u1) ^ 2 = (2 * (2 - cos u) / u1) ^ 2 by
      field_simp; linear_combination (-4) * hsq + 16 * hcu,
      sqrt_sq (div_nonneg (by linarith [cos_le_one u]) hu1)]
    field_simp
  obtain ⟨α, hα⟩ : ∃ α, α = arcsin (2 * sin u / u1) := ⟨_, rfl⟩
  rw [← hα] at hsin hcos ht
  have ht' : SameAngle t (π / 2 + φ + α) := ht ▸ modulo_same _
  have hv' : SameAngle v (t - g.theta) := hv ▸ modulo_same _
  refine ⟨?_, ht ▸ modulo_nonneg _, hu0, hv ▸ modulo_nonneg _, hl.symm⟩
  have hs := ht'.sin
  have hc := ht'.cos
  rw [show π / 2 + φ + α = φ + α + π / 2 by ring] at hs hc
  rw [sin_add_pi_div_two, cos_add] at hs
  rw [cos_add_pi_div_two, sin_add] at hc
  have e := sin_sq_add_cos_sq α
  apply ends_of
  · simp [driveAll, arc]
    have := (SameAngle.refl t).sub hv'
    rwa [sub_sub_cancel, sub_eq_add_neg] at this
  · simp [driveAll, arc]
    intro hc' hs'
    rw [hc', hs', cos_add, sin_add, hs, hc]
    constructor
    · linear_combination hx - (cos φ * cos α - sin φ * sin α) * hcos - (sin φ * cos α + cos φ * sin α) * hsin + u1 * cos φ * e
    · linear_combination hy - (sin φ * cos α + cos φ * sin α) * hcos + (cos φ * cos α - sin φ * sin α) * hsin + u1 * sin φ * e

theorem LfRbpi2SbLb_ends {g : PoseR} {t u v len : ℝ} (h : RS.LfRbpi2SbLb g = .finite t u v len) :
    Ends g [⟨1, 1, t⟩, ⟨-1, -1, π / 2⟩, ⟨0, -1, u⟩, ⟨1, -1, v⟩] ∧ 0 ≤ t ∧ 0 ≤ u ∧ 0 ≤ v ∧
    len = t + π / 2 + u + v := by
  simp only [RS.LfRbpi2SbLb] at h
  have hx := atan2_cos (g.position.y - 1 + cos g.theta) (g.position.x - sin g.theta)
  have hy := atan2_sin (g.position.y - 1 + cos g.theta) (g.position.x - sin g.theta)
  obtain ⟨φ, hφ⟩ : ∃ φ, φ = atan2 (g.position.y - 1 + cos g.theta) (g.position.x - sin g.theta) := ⟨_, rfl⟩
  rw [← hφ] at hx hy h
  obtain ⟨s, hs'⟩ : ∃ s, s = (g.position.x - sin g.theta) * (g.position.x - sin g.theta) +
    (g.position.y - 1 + cos g.theta) * (g.position.y - 1 + cos g.theta) := ⟨_, rfl⟩
  rw [← hs'] at hx hy h
  split at h
  · cases h
  rename_i h4
  rw [not_lt] at h4
  split at h
  · cases h
  rename_i hu0
  rw [not_lt] at hu0
  injection h with ht hu hv hl
  have hL := leg (s := s) (by linarith)
  have hu' : √(s - 4) = u + 2 := by rw [← hu]; ring
  rw [hu] at hu0 ht hv hl
  rw [hu'] at hL
  rw [← hL] at hx hy
  have hx2 := atan2_cos 2 (u + 2)
  have hy2 := atan2_sin 2 (u + 2)
  rw [ht] at hv hl
  rw [hv] at hl
  obtain ⟨r, hr⟩ : ∃ r, r = √((u + 2) * (u + 2) + 2 * 2) := ⟨_, rfl⟩
  obtain ⟨α, hα⟩ : ∃ α, α = atan2 2 (u + 2) := ⟨_, rfl⟩
  rw [← hr] at hx hy
  rw [← hr, ← hα] at hx2 hy2
  rw [← hα] at ht
  have ht' : SameAngle t (π / 2 + φ + α) := ht ▸ modulo_same _
  have hv' : SameAngle v (t + π / 2 - g.theta) := hv ▸ modulo_same _
  refine ⟨?_, ht ▸ modulo_nonneg _, hu0, hv ▸ modulo_nonneg _, hl.symm.trans (by ring)⟩
  have hs := ht'.sin
  have hc := ht'.cos
  rw [show π / 2 + φ + α = φ + α + π / 2 by ring] at hs hc
  rw [sin_add_pi_div_two, cos_add] at hs
  rw [cos_add_pi_div_two, sin_add] at hc
  have e := sin_sq_add_cos_sq α
  apply ends_of
  · simp [driveAll, arc]
    have := (SameAngle.refl (t + π / 2)).sub hv'
    rwa [sub_sub_cancel, sub_eq_add_neg] at this
  · simp [driveAll, arc]
    intro hc' hs'
    rw [hc', hs', sin_add_pi_div_two, cos_add_pi_div_two, hs, hc]
    constructor
    · linear_combination hx - (cos φ * cos α - sin φ * sin α) * hx2 - (sin φ * cos α + cos φ * sin α) * hy2 + r * cos φ * e
    · linear_combination hy - (sin φ * cos α + cos φ * sin α) * hx2 + (cos φ * cos α - sin φ * sin α) * hy2 + r * sin φ * e

theorem LfRbpi2SbRb_ends {g : PoseR} {t u v len : ℝ} (h : RS.LfRbpi2SbRb g = .finite t u v len) :
    Ends g [⟨1, 1, t⟩, ⟨-1, -1, π / 2⟩, ⟨0, -1, u⟩, ⟨-1, -1, v⟩] ∧ 0 ≤ t ∧ 0 ≤ u ∧ 0 ≤ v ∧
    len = t + π / 2 + u + v := by
  simp only [RS.LfRbpi2SbRb] at h
  have hx := atan2_cos (g.position.y - 1 - cos g.theta) (g.position.x + sin g.theta)
  have hy := atan2_sin (g.position.y - 1 - cos g.theta) (g.position.x + sin g.theta)
  obtain ⟨φ, hφ⟩ : ∃ φ, φ = atan2 (g.position.y - 1 - cos g.theta) (g.position.x + sin g.theta) := ⟨_, rfl⟩
  rw [← hφ] at hx hy h
  have hu1 := sqrt_nonneg ((g.position.x + sin g.theta) * (g.position.x + sin g.theta) +
    (g.position.y - 1 - cos g.theta) * (g.position.y - 1 - cos g.theta))
  obtain ⟨u1, hu1'⟩ : ∃ u1, u1 = √((g.position.x + sin g.theta) * (g.position.x + sin g.theta) +
    (g.position.y - 1 - cos g.theta) * (g.position.y - 1 - cos g.theta)) := ⟨_, rfl⟩
  rw [← hu1'] at hx hy hu1 h
  split at h
  · cases h
  rename_i h2
  rw [not_lt] at h2
  injection h with ht hu hv hl
  rw [ht] at hv hl
  rw [hv, hu] at hl
  have ht' : SameAngle t (π / 2 + φ) := ht ▸ modulo_same _
  have hv' : SameAngle v (g.theta - t - π / 2) := hv ▸ modulo_same _
  refine ⟨?_, ht ▸ modulo_nonneg _, hu ▸ (by linarith), hv ▸ modulo_nonneg _, hl.symm⟩
  have hs := ht'.sin
  have hc := ht'.cos
  rw [add_comm (π / 2) φ] at hs hc
  rw [sin_add_pi_div_two] at hs
  rw [cos_add_pi_div_two] at hc
  apply ends_of
  · simp [driveAll, arc]
    have := (SameAngle.refl (t + π / 2)).add hv'
    rwa [show t + π / 2 + (g.theta - t - π / 2) = g.theta by ring] at this
  · simp [driveAll, arc]
    intro hc' hs'
    rw [hc', hs', sin_add_pi_div_two, cos_add_pi_div_two, hs, hc, ← hu]
    constructor
    · linear_combination hx
    · linear_combination hy

theorem LfSfRfpi2Lb_ends {g : PoseR} {t u v len : ℝ} (h : RS.LfSfRfpi2Lb g = .finite t u v len) :
    Ends g [⟨1, 1, t⟩, ⟨0, 1, u⟩, ⟨-1, 1, π / 2⟩, ⟨1, -1, v⟩] ∧ 0 ≤ t ∧ 0 ≤ u ∧ 0 ≤ v ∧
    len = t + u + π / 2 + v := by
  simp only [RS.LfSfRfpi2Lb] at h
  have hx := atan2_cos (g.position.y - 1 + cos g.theta) (g.position.x - sin g.theta)
  have hy := atan2_sin (g.position.y - 1 + cos g.theta) (g.position.x - sin g.theta)
  obtain ⟨φ, hφ⟩ : ∃ φ, φ = atan2 (g.position.y - 1 + cos g.theta) (g.position.x - sin g.theta) := ⟨_, rfl⟩
  rw [← hφ] at hx hy h
  obtain ⟨s, hs'⟩ : ∃ s, s = (g.position.x - sin g.theta) * (g.position.x - sin g.theta) +
    (g.position.y - 1 + cos g.theta) * (g.position.y - 1 + cos g.theta) := ⟨_, rfl⟩
  rw [← hs'] at hx hy h
  split at h
  · cases h
  rename_i h4
  rw [not_lt] at h4
  split at h
  · cases h
  rename_i hu0
  rw [not_lt] at hu0
  injection h with ht hu hv hl
  have hL := leg (s := s) (by linarith)
  have hu' : √(s - 4) = u + 2 := by rw [← hu]; ring
  rw [hu] at hu0 ht hv hl
  rw [hu'] at hL
  rw [← hL] at hx hy
  have hx2 := atan2_cos (u + 2) 2
  have hy2 := atan2_sin (u + 2) 2
  rw [add_comm (2 * 2 : ℝ)] at hx2 hy2
  rw [ht] at hv hl
  rw [hv] at hl
  obtain ⟨r, hr⟩ : ∃ r, r = √((u + 2) * (u + 2) + 2 * 2) := ⟨_, rfl⟩
  obtain ⟨α, hα⟩ : ∃ α, α = atan2 (u + 2) 2 := ⟨_, rfl⟩
  rw [← hr] at hx hy
  rw [← hr, ← hα] at hx2 hy2
  rw [← hα] at ht
  have ht' : SameAngle t (π / 2 + φ - α) := ht ▸ modulo_same _
  have hv' : SameAngle v (t - π / 2 - g.theta) := hv ▸ modulo_same _
  refine ⟨?_, ht ▸ modulo_nonneg _, hu0, hv ▸ modulo_nonneg _, hl.symm⟩
  have hs := ht'.sin
  have hc := ht'.cos
  rw [show π / 2 + φ - α = φ - α + π / 2 by ring] at hs hc
  rw [sin_add_pi_div_two, cos_sub] at hs
  rw [cos_add_pi_div_two, sin_sub] at hc
  have e := sin_sq_add_cos_sq α
  apply ends_of
  · simp [driveAll, arc]
    have := (SameAngle.refl (t - π / 2)).sub hv'
    rwa [sub_sub_cancel, sub_eq_add_neg, sub_eq_add_neg] at this
  · simp [driveAll, arc]
    intro hc' hs'
    rw [hc', hs', ← sub_eq_add_neg, sin_sub_pi_div_two, cos_sub_pi_div_two, hs, hc]
    constructor
    · linear_combination hx - (cos φ * cos α + sin φ * sin α) * hx2 + (sin φ * cos α - cos φ * sin α) * hy2 + r * cos φ * e
    · linear_combination hy - (sin φ * cos α - cos φ * sin α) * hx2 - (cos φ * cos α + sin φ * sin α) * hy2 + r * sin φ * e

theorem LfSfLfpi2Rb_ends {g : PoseR} {t u v len : ℝ} (h : RS.LfSfLfpi2Rb g = .finite t u v len) :
    Ends g [⟨1, 1, t⟩, ⟨0, 1, u⟩, ⟨1, 1, π / 2⟩, ⟨-1, -1, v⟩] ∧ 0 ≤ t ∧ 0 ≤ u ∧ 0 ≤ v ∧
    len = t + u + π / 2 + v := by
  simp only [RS.LfSfLfpi2Rb] at h
  have hx := atan2_cos (g.position.y - 1 - cos g.theta) (g.position.x + sin g.theta)
  have hy := atan2_sin (g.position.y - 1 - cos g.theta) (g.position.x + sin g.theta)
  obtain ⟨φ, hφ⟩ : ∃ φ, φ = atan2 (g.position.y - 1 - cos g.theta) (g.position.x + sin g.theta) := ⟨_, rfl⟩
  rw [← hφ] at hx hy h
  have hu1 := sqrt_nonneg ((g.position.x + sin g.theta) * (g.position.x + sin g.theta) +
    (g.position.y - 1 - cos g.theta) * (g.position.y - 1 - cos g.theta))
  obtain ⟨u1, hu1'⟩ : ∃ u1, u1 = √((g.position.x + sin g.theta) * (g.position.x + sin g.theta) +
    (g.position.y - 1 - cos g.theta) * (g.position.y - 1 - cos g.theta)) := ⟨_, rfl⟩
  rw [← hu1'] at hx hy hu1 h
  split at h
  · cases h
  rename_i h2
  rw [not_lt] at h2
  injection h with ht hu hv hl
  rw [ht] at hv hl
  rw [hv, hu] at hl
  have ht' : SameAngle t φ := ht ▸ modulo_same _
  have hv' : SameAngle v (-t - π / 2 + g.theta) := hv ▸ modulo_same _
  refine ⟨?_, ht ▸ modulo_nonneg _, hu ▸ (by linarith), hv ▸ modulo_nonneg _, hl.symm⟩
  have hs := ht'.sin
  have hc := ht'.cos
  apply ends_of
  · simp [driveAll, arc]
    have := (SameAngle.refl (t + π / 2)).add hv'
    rwa [show t + π / 2 + (-t - π / 2 + g.theta) = g.theta by ring] at this
  · simp [driveAll, arc]
    intro hc' hs'
    rw [hc', hs', sin_add_pi_div_two, cos_add_pi_div_two, hs, hc, ← hu]
    constructor
    · linear_combination hx
    · linear_combination hy

theorem LfRbpi2SbLbpi2Rf_ends {g : PoseR} {t u v len : ℝ} (h : RS.LfRbpi2SbLbpi2Rf g = .finite t u v len) :
    Ends g [⟨1, 1, t⟩, ⟨-1, -1, π / 2⟩, ⟨0, -1, u⟩, ⟨1, -1, π / 2⟩, ⟨-1, 1, v⟩] ∧ 0 ≤ t ∧ 0 ≤ u ∧ 0 ≤ v ∧
    len = t + π / 2 + u + π / 2 + v := by
  simp only [RS.LfRbpi2SbLbpi2Rf] at h
  have hx := atan2_cos (g.position.y - 1 - cos g.theta) (g.position.x + sin g.theta)
  have hy := atan2_sin (g.position.y - 1 - cos g.theta) (g.position.x + sin g.theta)
  obtain ⟨φ, hφ⟩ : ∃ φ, φ = atan2 (g.position.y - 1 - cos g.theta) (g.position.x + sin g.theta) := ⟨_, rfl⟩
  rw [← hφ] at hx hy h
  obtain ⟨s, hs'⟩ : ∃ s, s = (g.position.x + sin g.theta) * (g.position.x + sin g.theta) +
    (g.position.y - 1 - cos g.theta) * (g.position.y - 1 - cos g.theta) := ⟨_, rfl⟩
  rw [← hs'] at hx hy h
  split at h
  · cases h
  rename_i h4
  rw [not_lt] at h4
  split at h
  · cases h
  rename_i hu0
  rw [not_lt] at hu0
  injection h with ht hu hv hl
  have hL := leg (s := s) (by linarith)
  have hu' : √(s - 4) = u + 4 := by rw [← hu]; ring
  rw [hu] at hu0 ht hv hl
  rw [hu'] at hL
  rw [← hL] at hx hy
  have hx2 := atan2_cos 2 (u + 4)
  have hy2 := atan2_sin 2 (u + 4)
  rw [ht] at hv hl
  rw [hv] at hl
  obtain ⟨r, hr⟩ : ∃ r, r = √((u + 4) * (u + 4) + 2 * 2) := ⟨_, rfl⟩
  obtain ⟨α, hα⟩ : ∃ α, α = atan2 2 (u + 4) := ⟨_, rfl⟩
  rw [← hr] at hx hy
  rw [← hr, ← hα] at hx2 hy2
  rw [← hα] at ht
  have ht' : SameAngle t (π / 2 + φ + α) := ht ▸ modulo_same _
  have hv' : SameAngle v (t - g.theta) := hv ▸ modulo_same _
  refine ⟨?_, ht ▸ modulo_nonneg _, hu0, hv ▸ modulo_nonneg _, hl.symm.trans (by ring)⟩
  have hs := ht'.sin
  have hc := ht'.cos
  rw [show π / 2 + φ + α = φ + α + π / 2 by ring] at hs hc
  rw [sin_add_pi_div_two, cos_add] at hs
  rw [cos_add_pi_div_two, sin_add] at hc
  have e := sin_sq_add_cos_sq α
  apply ends_of
  · simp [driveAll, arc]
    have := (SameAngle.refl t).sub hv'
    rwa [sub_sub_cancel, sub_eq_add_neg] at this
  · simp [driveAll, arc]
    intro hc' hs'
    rw [hc', hs', sin_add_pi_div_two, cos_add_pi_div_two, hs, hc]
    constructor
    · linear_combination hx - (cos φ * cos α - sin φ * sin α) * hx2 - (sin φ * cos α + cos φ * sin α) * hy2 + r * cos φ * e
    · linear_combination hy - (sin φ * cos α + cos φ * sin α) * hx2 + (cos φ * cos α - sin φ * sin α) * hy2 + r * sin φ * e

end PathPlanning
