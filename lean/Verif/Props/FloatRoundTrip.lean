import Verif.Props.FloatObstacle

/-!
# C171: sums and differences of poses undo each other with double arithmetic
-/

namespace PathPlanning
open Flt Spec

private theorem mix_le {c s a b D : ℝ} (hc : |c| ≤ 1) (hs : |s| ≤ 1) (ha : |a| ≤ D) (hb : |b| ≤ D) : |c * a + s * b| ≤ 2 * D := by
  have hD := (abs_nonneg a).trans ha
  refine (abs_add_le _ _).trans ?_
  rw [abs_mul, abs_mul]
  have h1 := mul_le_mul hc ha (abs_nonneg a) zero_le_one
  have h2 := mul_le_mul hs hb (abs_nonneg b) zero_le_one
  linarith

private theorem near {x y e B : ℝ} (h : |x - y| ≤ e) (hy : |y| ≤ B) : |x| ≤ B + e := by
  have := abs_add_le (x - y) y
  rw [sub_add_cancel] at this
  linarith

/-- C171. `rhs + (lhs - rhs)` is `lhs`, up to rounding errors that are small compared with the distance of the two poses and
the coordinates of `rhs`. -/
theorem C171_add_difference (lm : Libm) (hlm : lm.Accurate) (lhs rhs : PoseR) (hl : Wrapped lhs.theta)
    (hr : Wrapped rhs.theta) :
    let D := max |lhs.position.x - rhs.position.x| |lhs.position.y - rhs.position.y|
    ∃ d r, lhs.subF lm rhs = some d ∧ rhs.addF lm d = some r ∧ Wrapped r.theta ∧
      |r.position.x - lhs.position.x| ≤ D / 2 ^ 46 + |rhs.position.x| / 2 ^ 53 ∧
      |r.position.y - lhs.position.y| ≤ D / 2 ^ 46 + |rhs.position.y| / 2 ^ 53 ∧
      ∃ k : ℤ, |r.theta - (lhs.theta + k * (2 * Real.pi))| ≤ 1 / 2 ^ 48 := by
  intro D
  obtain ⟨d, d1, d2, d3, d4, k, d5⟩ := C136_difference lm hlm lhs rhs hl hr
  obtain ⟨r, r1, r2, r3, r4, j, r5⟩ := C136_sum lm hlm rhs d hr d2
  obtain ⟨u, hu⟩ : ∃ u, u = lhs.position.x - rhs.position.x := ⟨_, rfl⟩
  obtain ⟨v, hv⟩ : ∃ v, v = lhs.position.y - rhs.position.y := ⟨_, rfl⟩
  obtain ⟨c, hc⟩ : ∃ c, c = Real.cos rhs.theta := ⟨_, rfl⟩
  obtain ⟨s, hs⟩ : ∃ s, s = Real.sin rhs.theta := ⟨_, rfl⟩
  have hD : D = max |u| |v| := by rw [hu, hv]
  have c1 : |c| ≤ 1 := by rw [hc]; exact Real.abs_cos_le_one _
  have s1 : |s| ≤ 1 := by rw [hs]; exact Real.abs_sin_le_one _
  have s1' : |-s| ≤ 1 := by rw [abs_neg]; exact s1
  have one : s ^ 2 + c ^ 2 = 1 := by rw [hs, hc]; exact Real.sin_sq_add_cos_sq _
  rw [← hu, ← hv, ← hc, ← hs, ← hD] at d3 d4
  rw [← hc, ← hs] at r3 r4
  have uD : |u| ≤ D := by rw [hD]; exact le_max_left _ _
  have vD : |v| ≤ D := by rw [hD]; exact le_max_right _ _
  have D0 : 0 ≤ D := (abs_nonneg u).trans uD
  have hdx : |d.position.x| ≤ 3 * D := (near d3 (mix_le c1 s1 uD vD)).trans (by norm_num; linarith)
  have hdy : |d.position.y| ≤ 3 * D := (near d4 (mix_le s1' c1 uD vD)).trans (by norm_num; linarith)
  have hm : max |d.position.x| |d.position.y| ≤ 3 * D := max_le hdx hdy
  refine ⟨d, r, d1, r1, r2, ?_, ?_, k + j, ?_⟩
  · have e : r.position.x - lhs.position.x =
        (r.position.x - (rhs.position.x + (c * d.position.x - s * d.position.y))) +
        (c * (d.position.x - (c * u + s * v)) + -s * (d.position.y - (-s * u + c * v))) := by
      have : lhs.position.x = rhs.position.x + u := by rw [hu]; ring
      rw [this]
      linear_combination u * one
    rw [e]
    have h2 := mix_le c1 s1' d3 d4
    refine (abs_add_le _ _).trans ((add_le_add r3 h2).trans ?_)
    norm_num
    linarith
  · have e : r.position.y - lhs.position.y =
        (r.position.y - (rhs.position.y + (s * d.position.x + c * d.position.y))) +
        (s * (d.position.x - (c * u + s * v)) + c * (d.position.y - (-s * u + c * v))) := by
      have : lhs.position.y = rhs.position.y + v := by rw [hv]; ring
      rw [this]
      linear_combination v * one
    rw [e]
    have h2 := mix_le s1 c1 d3 d4
    refine (abs_add_le _ _).trans ((add_le_add r4 h2).trans ?_)
    norm_num
    linarith
  · have e : r.theta - (lhs.theta + ((k + j : ℤ) : ℝ) * (2 * Real.pi)) =
        (r.theta - (rhs.theta + d.theta + j * (2 * Real.pi))) + (d.theta - (lhs.theta - rhs.theta + k * (2 * Real.pi))) := by
      push_cast
      ring
    rw [e]
    refine (abs_add_le _ _).trans ((add_le_add r5 d5).trans ?_)
    norm_num

/-- C171. `(a + b) - a` is `b`, up to rounding errors that are small compared with the coordinates of the two poses. -/
theorem C171_subtract_sum (lm : Libm) (hlm : lm.Accurate) (a b : PoseR) (ha : Wrapped a.theta) (hb : Wrapped b.theta) :
    let E := max |b.position.x| |b.position.y| / 2 ^ 46 + max |a.position.x| |a.position.y| / 2 ^ 51
    ∃ s r, a.addF lm b = some s ∧ s.subF lm a = some r ∧ Wrapped r.theta ∧
      |r.position.x - b.position.x| ≤ E ∧ |r.position.y - b.position.y| ≤ E ∧
      ∃ k : ℤ, |r.theta - (b.theta + k * (2 * Real.pi))| ≤ 1 / 2 ^ 48 := by
  intro E
  obtain ⟨p, p1, p2, p3, p4, k, p5⟩ := C136_sum lm hlm a b ha hb
  obtain ⟨r, r1, r2, r3, r4, j, r5⟩ := C136_difference lm hlm p a p2 ha
  obtain ⟨A, hA⟩ : ∃ A, A = max |a.position.x| |a.position.y| := ⟨_, rfl⟩
  obtain ⟨B, hB⟩ : ∃ B, B = max |b.position.x| |b.position.y| := ⟨_, rfl⟩
  obtain ⟨u, hu⟩ : ∃ u, u = p.position.x - a.position.x := ⟨_, rfl⟩
  obtain ⟨v, hv⟩ : ∃ v, v = p.position.y - a.position.y := ⟨_, rfl⟩
  obtain ⟨c, hc⟩ : ∃ c, c = Real.cos a.theta := ⟨_, rfl⟩
  obtain ⟨s, hs⟩ : ∃ s, s = Real.sin a.theta := ⟨_, rfl⟩
  have hE : E = B / 2 ^ 46 + A / 2 ^ 51 := by rw [hA, hB]
  have c1 : |c| ≤ 1 := by rw [hc]; exact Real.abs_cos_le_one _
  have s1 : |s| ≤ 1 := by rw [hs]; exact Real.abs_sin_le_one _
  have s1' : |-s| ≤ 1 := by rw [abs_neg]; exact s1
  have one : s ^ 2 + c ^ 2 = 1 := by rw [hs, hc]; exact Real.sin_sq_add_cos_sq _
  rw [← hu, ← hv, ← hc, ← hs] at r3 r4
  rw [← hc, ← hs, ← hB] at p3 p4
  have ax : |a.position.x| ≤ A := by rw [hA]; exact le_max_left _ _
  have ay : |a.position.y| ≤ A := by rw [hA]; exact le_max_right _ _
  have bx : |b.position.x| ≤ B := by rw [hB]; exact le_max_left _ _
  have by' : |b.position.y| ≤ B := by rw [hB]; exact le_max_right _ _
  have A0 : 0 ≤ A := (abs_nonneg _).trans ax
  have B0 : 0 ≤ B := (abs_nonneg _).trans bx
  -- the sum, seen from `a`
  have q3 : |u - (c * b.position.x + -s * b.position.y)| ≤ B / 2 ^ 49 + A / 2 ^ 53 := by
    rw [show u - (c * b.position.x + -s * b.position.y) =
      p.position.x - (a.position.x + (c * b.position.x - s * b.position.y)) by rw [hu]; ring]
    refine p3.trans ?_
    norm_num at ax ⊢
    linarith
  have q4 : |v - (s * b.position.x + c * b.position.y)| ≤ B / 2 ^ 49 + A / 2 ^ 53 := by
    rw [show v - (s * b.position.x + c * b.position.y) =
      p.position.y - (a.position.y + (s * b.position.x + c * b.position.y)) by rw [hv]; ring]
    refine p4.trans ?_
    norm_num at ay ⊢
    linarith
  have hu' : |u| ≤ 3 * B + A / 2 ^ 53 := (near q3 (mix_le c1 s1' bx by')).trans (by norm_num; linarith)
  have hv' : |v| ≤ 3 * B + A / 2 ^ 53 := (near q4 (mix_le s1 c1 bx by')).trans (by norm_num; linarith)
  have hm : max |u| |v| ≤ 3 * B + A / 2 ^ 53 := max_le hu' hv'
  obtain ⟨M, hM⟩ : ∃ M, M = max |u| |v| := ⟨_, rfl⟩
  rw [← hM] at r3 r4 hm
  refine ⟨p, r, p1, r1, r2, ?_, ?_, k + j, ?_⟩
  · have e : r.position.x - b.position.x = (r.position.x - (c * u + s * v)) +
        (c * (u - (c * b.position.x + -s * b.position.y)) + s * (v - (s * b.position.x + c * b.position.y))) := by
      linear_combination b.position.x * one
    rw [e, hE]
    have h2 := mix_le c1 s1 q3 q4
    refine (abs_add_le _ _).trans ((add_le_add r3 h2).trans ?_)
    norm_num at hm ⊢
    linarith
  · have e : r.position.y - b.position.y = (r.position.y - (-s * u + c * v)) +
        (-s * (u - (c * b.position.x + -s * b.position.y)) + c * (v - (s * b.position.x + c * b.position.y))) := by
      linear_combination b.position.y * one
    rw [e, hE]
    have h2 := mix_le s1' c1 q3 q4
    refine (abs_add_le _ _).trans ((add_le_add r4 h2).trans ?_)
    norm_num at hm ⊢
    linarith
  · have e : r.theta - (b.theta + ((k + j : ℤ) : ℝ) * (2 * Real.pi)) =
        (r.theta - (p.theta - a.theta + j * (2 * Real.pi))) + (p.theta - (a.theta + b.theta + k * (2 * Real.pi))) := by
      push_cast
      ring
    rw [e]
    refine (abs_add_le _ _).trans ((add_le_add r5 p5).trans ?_)
    norm_num

private theorem wrapped_one : Wrapped 1 := by
  refine ⟨by simpa using (show IsFlt 53 ((1 : ℤ) : ℝ) from fl_int (by norm_num) (by norm_num)), ?_⟩
  have := mPi_bounds.1
  rw [abs_one]; linarith

/-- A correctly rounding library and two poses meet the hypotheses: the pose (13, 24, 1) is recovered from its position
relative to (10, 20, 1), and so is the relative pose (3, 4, 1), up to errors below 2^-40. -/
example : (∃ d r, (⟨⟨13, 24⟩, 1⟩ : PoseR).subF bestLibm ⟨⟨10, 20⟩, 1⟩ = some d ∧
      (⟨⟨10, 20⟩, 1⟩ : PoseR).addF bestLibm d = some r ∧ |r.position.x - 13| ≤ 1 / 2 ^ 40 ∧ |r.position.y - 24| ≤ 1 / 2 ^ 40) ∧
    ∃ s r, (⟨⟨10, 20⟩, 1⟩ : PoseR).addF bestLibm ⟨⟨3, 4⟩, 1⟩ = some s ∧ s.subF bestLibm ⟨⟨10, 20⟩, 1⟩ = some r ∧
      |r.position.x - 3| ≤ 1 / 2 ^ 40 ∧ |r.position.y - 4| ≤ 1 / 2 ^ 40 := by
  constructor
  · obtain ⟨d, r, h1, h2, -, h3, h4, -⟩ := C171_add_difference bestLibm bestLibm_accurate ⟨⟨13, 24⟩, 1⟩ ⟨⟨10, 20⟩, 1⟩
      wrapped_one wrapped_one
    refine ⟨d, r, h1, h2, h3.trans ?_, h4.trans ?_⟩ <;>
    · rw [show max |(13 : ℝ) - 10| |(24 : ℝ) - 20| = 4 by norm_num]
      norm_num
  · obtain ⟨s, r, h1, h2, -, h3, h4, -⟩ := C171_subtract_sum bestLibm bestLibm_accurate ⟨⟨10, 20⟩, 1⟩ ⟨⟨3, 4⟩, 1⟩
      wrapped_one wrapped_one
    refine ⟨s, r, h1, h2, h3.trans ?_, h4.trans ?_⟩ <;>
    · rw [show max |(3 : ℝ)| |(4 : ℝ)| = 4 by norm_num, show max |(10 : ℝ)| |(20 : ℝ)| = 20 by norm_num]
      norm_num

end PathPlanning
