import Verif.Model.FloatPath
import Verif.Props.FloatRRT
import Verif.Props.Path
import Verif.Spec.Smoother

/-!
# C145: straight paths with double arithmetic
-/

namespace PathPlanning
open Spec Flt ObstHeuristic

/-- The coordinates of a point are doubles. -/
def Spec.PtDouble (p : Pt) : Prop := IsFlt 53 p.x ∧ IsFlt 53 p.y

/-- The coordinates and the heading of a pose are doubles. -/
def Spec.PoseDouble (p : PoseR) : Prop := PtDouble p.position ∧ IsFlt 53 p.theta

/-- The coordinates of two points differ by at most `e`. -/
def Spec.PtNear (e : ℝ) (p q : Pt) : Prop := |p.x - q.x| ≤ e ∧ |p.y - q.y| ≤ e

/-- Two poses differ by at most `e` in each coordinate and `f` in the heading. -/
def Spec.PoseNear (e f : ℝ) (p q : PoseR) : Prop := PtNear e p.position q.position ∧ |p.theta - q.theta| ≤ f

private theorem lerpF_zero (a b : ℝ) (ha : IsFlt 53 a) : fl64 (fl64 (fl64 (1 - 0) * a) + fl64 (0 * b)) = a := by
  have h0 : fl64 0 = 0 := fl_zero 53
  have h1 : fl64 1 = 1 := by
    have := fl_int (p := 53) (by norm_num) (n := 1) (by norm_num)
    rw [Int.cast_one] at this
    exact this
  have e : fl64 a = a := ha
  simp only [sub_zero, h1, one_mul, zero_mul, h0, add_zero, e]

private theorem lerpF_one (a b : ℝ) (hb : IsFlt 53 b) : fl64 (fl64 (fl64 (1 - 1) * a) + fl64 (1 * b)) = b := by
  have h0 : fl64 0 = 0 := fl_zero 53
  have e : fl64 b = b := hb
  simp only [sub_self, h0, one_mul, zero_mul, zero_add, e]

private theorem lerp_double (r a b : ℝ) : IsFlt 53 (fl64 (fl64 (fl64 (1 - r) * a) + fl64 (r * b))) :=
  isFlt_fl 53 (by norm_num) _

/-- Interpolating towards an interpolated end. -/
private theorem lerpF_trunc {M a b r s : ℝ} (ha : |a| ≤ M) (hb : |b| ≤ M) (h0 : 0 ≤ r) (h1 : r ≤ 1) (s0 : 0 ≤ s) (s1 : s ≤ 1) :
    |fl64 (fl64 (fl64 (1 - s) * a) + fl64 (s * fl64 (fl64 (fl64 (1 - r) * a) + fl64 (r * b)))) -
      ((1 - r * s) * a + r * s * b)| ≤ M / 2 ^ 49 := by
  have hM : 0 ≤ M := le_trans (abs_nonneg a) ha
  obtain ⟨c, hc⟩ : ∃ c, c = fl64 (fl64 (fl64 (1 - r) * a) + fl64 (r * b)) := ⟨_, rfl⟩
  have e1 := lerpF_err ha hb h0 h1
  rw [← hc] at e1 ⊢
  have hl : |(1 - r) * a + r * b| ≤ M := by
    have t := abs_add_le ((1 - r) * a) (r * b)
    rw [abs_mul, abs_mul, abs_of_nonneg h0, abs_of_nonneg (by linarith : 0 ≤ 1 - r)] at t
    nlinarith
  have hcM : |c| ≤ 2 * M := by
    have t := abs_sub_abs_le_abs_sub c ((1 - r) * a + r * b)
    have : M / 2 ^ 51 ≤ M := div_le_self hM (by norm_num)
    linarith
  have e2 := lerpF_err (M := 2 * M) (a := a) (b := c) (by linarith) hcM s0 s1
  have e3 : (1 - s) * a + s * c - ((1 - r * s) * a + r * s * b) = s * (c - ((1 - r) * a + r * b)) := by ring
  have e4 : |(1 - s) * a + s * c - ((1 - r * s) * a + r * s * b)| ≤ M / 2 ^ 51 := by
    rw [e3, abs_mul, abs_of_nonneg s0]
    have := mul_le_mul s1 e1 (abs_nonneg _) (by norm_num : (0 : ℝ) ≤ 1)
    linarith
  have e5 := abs_sub_le (fl64 (fl64 (fl64 (1 - s) * a) + fl64 (s * c))) ((1 - s) * a + s * c) ((1 - r * s) * a + r * s * b)
  have e6 : 2 * M / 2 ^ 51 + M / 2 ^ 51 ≤ M / 2 ^ 49 := by linarith
  linarith

/-! ## Points -/

/-- C145: a path starts exactly at its first point and ends exactly at its last one; in between it is within `M` / 2^51 of the
segment, if no coordinate is greater than `M`. The length is the distance up to a relative error of 2^-50. -/
theorem C145_r2 (a b : Pt) (ha : PtDouble a) (hb : PtDouble b) :
    (PathR2.connectF a b).interpolateF 0 = a ∧ (PathR2.connectF a b).interpolateF 1 = b ∧
    |(PathR2.connectF a b).length - dist2 a b| ≤ (2 ^ 50)⁻¹ * dist2 a b ∧
    ∀ M ratio, PtNear M a ⟨0, 0⟩ → PtNear M b ⟨0, 0⟩ → 0 ≤ ratio → ratio ≤ 1 →
      PtNear (M / 2 ^ 51) ((PathR2.connectF a b).interpolateF ratio)
        ⟨(1 - ratio) * a.x + ratio * b.x, (1 - ratio) * a.y + ratio * b.y⟩ := by
  refine ⟨Pt.ext (lerpF_zero _ _ ha.1) (lerpF_zero _ _ ha.2), Pt.ext (lerpF_one _ _ hb.1) (lerpF_one _ _ hb.2), ?_, ?_⟩
  · have h := C128_straight_line b a
    have e : dist2 a b = √((b.x - a.x) ^ 2 + (b.y - a.y) ^ 2) := by unfold dist2; congr 1; ring
    rw [e]
    exact h
  · intro M ratio hA hB h0 h1
    simp only [PtNear, sub_zero] at hA hB
    exact ⟨lerpF_err hA.1 hB.1 h0 h1, lerpF_err hA.2 hB.2 h0 h1⟩

/-- C145: truncating a path keeps its first point, ends exactly at the interpolated point, scales the length (one rounding), and
the states of the truncated path are within `M` / 2^49 of those of the exact part of the segment. -/
theorem C145_r2_truncate (a b : Pt) (r s M : ℝ) (hA : PtNear M a ⟨0, 0⟩) (hB : PtNear M b ⟨0, 0⟩) (h0 : 0 ≤ r) (h1 : r ≤ 1)
    (s0 : 0 ≤ s) (s1 : s ≤ 1) :
    ((PathR2.connectF a b).truncateF r).init = a ∧
    ((PathR2.connectF a b).truncateF r).interpolateF 1 = (PathR2.connectF a b).interpolateF r ∧
    ((PathR2.connectF a b).truncateF r).final = (PathR2.connectF a b).interpolateF r ∧
    |((PathR2.connectF a b).truncateF r).length - r * dist2 a b| ≤ (2 ^ 49)⁻¹ * (r * dist2 a b) ∧
    PtNear (M / 2 ^ 49) (((PathR2.connectF a b).truncateF r).interpolateF s)
      ⟨(1 - r * s) * a.x + r * s * b.x, (1 - r * s) * a.y + r * s * b.y⟩ := by
  simp only [PtNear, sub_zero] at hA hB
  refine ⟨rfl, Pt.ext (lerpF_one _ _ (lerp_double _ _ _)) (lerpF_one _ _ (lerp_double _ _ _)), rfl, ?_,
    lerpF_trunc hA.1 hB.1 h0 h1 s0 s1, lerpF_trunc hA.2 hB.2 h0 h1 s0 s1⟩
  have h := C128_straight_line b a
  have e : dist2 a b = √((b.x - a.x) ^ 2 + (b.y - a.y) ^ 2) := by unfold dist2; congr 1; ring
  rw [← e] at h
  have d0 : 0 ≤ dist2 a b := Real.sqrt_nonneg _
  have hl := fl_rel 53 (euclideanF b a * r)
  show |fl64 (euclideanF b a * r) - r * dist2 a b| ≤ _
  have h' := abs_le.1 h
  have e1 : |euclideanF b a * r - r * dist2 a b| ≤ (2 ^ 50)⁻¹ * (r * dist2 a b) := by
    rw [mul_comm (euclideanF b a), ← mul_sub, abs_mul, abs_of_nonneg h0]
    calc r * |euclideanF b a - dist2 a b| ≤ r * ((2 ^ 50)⁻¹ * dist2 a b) := mul_le_mul_of_nonneg_left h h0
      _ = (2 ^ 50)⁻¹ * (r * dist2 a b) := by ring
  obtain ⟨D, hD⟩ : ∃ D, D = r * dist2 a b := ⟨_, rfl⟩
  have D0 : 0 ≤ D := by rw [hD]; positivity
  rw [← hD] at e1 ⊢
  have e2 : |euclideanF b a * r| ≤ 2 * D := by
    have := abs_le.1 e1
    rw [abs_le]; constructor <;> nlinarith
  have e3 := abs_sub_le (fl64 (euclideanF b a * r)) (euclideanF b a * r) D
  have e4 : |fl64 (euclideanF b a * r) - euclideanF b a * r| ≤ (2 ^ 53)⁻¹ * (2 * D) :=
    le_trans hl (mul_le_mul_of_nonneg_left e2 (by positivity))
  have : ((2 : ℝ) ^ 53)⁻¹ * (2 * D) + (2 ^ 50)⁻¹ * D ≤ (2 ^ 49)⁻¹ * D := by
    have : ((2 : ℝ) ^ 53)⁻¹ * 2 + (2 ^ 50)⁻¹ ≤ (2 ^ 49)⁻¹ := by norm_num
    nlinarith
  linarith

/-! ## Poses -/

/-- C145 for poses: exact ends, and within `M` / 2^51 in the coordinates and `T` / 2^51 in the heading in between. -/
theorem C145_se2 (a b : PoseR) (ha : PoseDouble a) (hb : PoseDouble b) :
    (PathSE2.connectF a b).interpolateF 0 = a ∧ (PathSE2.connectF a b).interpolateF 1 = b ∧
    |(PathSE2.connectF a b).length - dist2 a.position b.position| ≤ (2 ^ 50)⁻¹ * dist2 a.position b.position ∧
    ∀ M T ratio, PoseNear M T a ⟨⟨0, 0⟩, 0⟩ → PoseNear M T b ⟨⟨0, 0⟩, 0⟩ → 0 ≤ ratio → ratio ≤ 1 →
      PoseNear (M / 2 ^ 51) (T / 2 ^ 51) ((PathSE2.connectF a b).interpolateF ratio)
        ⟨⟨(1 - ratio) * a.position.x + ratio * b.position.x, (1 - ratio) * a.position.y + ratio * b.position.y⟩,
          (1 - ratio) * a.theta + ratio * b.theta⟩ := by
  obtain ⟨r1, r2, r3, r4⟩ := C145_r2 a.position b.position ha.1 hb.1
  refine ⟨?_, ?_, r3, fun M T ratio hA hB h0 h1 => ⟨r4 M ratio hA.1 hB.1 h0 h1, ?_⟩⟩
  · have e : (PathSE2.connectF a b).interpolateF 0 = ⟨(PathR2.connectF a.position b.position).interpolateF 0,
        fl64 (fl64 (fl64 (1 - 0) * a.theta) + fl64 (0 * b.theta))⟩ := rfl
    rw [e, r1, lerpF_zero _ _ ha.2]
  · have e : (PathSE2.connectF a b).interpolateF 1 = ⟨(PathR2.connectF a.position b.position).interpolateF 1,
        fl64 (fl64 (fl64 (1 - 1) * a.theta) + fl64 (1 * b.theta))⟩ := rfl
    rw [e, r2, lerpF_one _ _ hb.2]
  · have hA2 := hA.2; have hB2 := hB.2
    simp only [sub_zero] at hA2 hB2
    exact lerpF_err hA2 hB2 h0 h1

/-- C145 for poses: truncation. -/
theorem C145_se2_truncate (a b : PoseR) (r s M T : ℝ) (hA : PoseNear M T a ⟨⟨0, 0⟩, 0⟩) (hB : PoseNear M T b ⟨⟨0, 0⟩, 0⟩)
    (h0 : 0 ≤ r) (h1 : r ≤ 1) (s0 : 0 ≤ s) (s1 : s ≤ 1) :
    ((PathSE2.connectF a b).truncateF r).init = a ∧
    ((PathSE2.connectF a b).truncateF r).interpolateF 1 = (PathSE2.connectF a b).interpolateF r ∧
    ((PathSE2.connectF a b).truncateF r).final = (PathSE2.connectF a b).interpolateF r ∧
    |((PathSE2.connectF a b).truncateF r).length - r * dist2 a.position b.position| ≤
      (2 ^ 49)⁻¹ * (r * dist2 a.position b.position) ∧
    PoseNear (M / 2 ^ 49) (T / 2 ^ 49) (((PathSE2.connectF a b).truncateF r).interpolateF s)
      ⟨⟨(1 - r * s) * a.position.x + r * s * b.position.x, (1 - r * s) * a.position.y + r * s * b.position.y⟩,
        (1 - r * s) * a.theta + r * s * b.theta⟩ := by
  obtain ⟨_, r2, _, r4, r5⟩ := C145_r2_truncate a.position b.position r s M hA.1 hB.1 h0 h1 s0 s1
  have hA2 := hA.2; have hB2 := hB.2
  simp only [sub_zero] at hA2 hB2
  refine ⟨rfl, ?_, rfl, r4, r5, lerpF_trunc hA2 hB2 h0 h1 s0 s1⟩
  have e : ((PathSE2.connectF a b).truncateF r).interpolateF 1 =
      ⟨((PathR2.connectF a.position b.position).truncateF r).interpolateF 1,
        fl64 (fl64 (fl64 (1 - 1) * a.theta) + fl64 (1 * fl64 (fl64 (fl64 (1 - r) * a.theta) + fl64 (r * b.theta))))⟩ := rfl
  rw [e, r2, lerpF_one _ _ (lerp_double _ _ _)]
  rfl

/-- Two poses with heading, half way: the hypotheses hold. -/
example : PoseDouble ⟨⟨3, 4⟩, 1⟩ ∧ PoseNear 4 1 ⟨⟨3, 4⟩, 1⟩ ⟨⟨0, 0⟩, 0⟩ ∧
    PoseNear (4 / 2 ^ 51) (1 / 2 ^ 51) ((PathSE2.connectF ⟨⟨3, 4⟩, 1⟩ ⟨⟨0, 0⟩, 0⟩).interpolateF (1 / 2)) ⟨⟨3 / 2, 2⟩, 1 / 2⟩ := by
  have hi : ∀ n : ℤ, |n| ≤ 2 ^ 53 → IsFlt 53 (n : ℝ) := fun n hn => fl_int (by norm_num) hn
  have hd : PoseDouble ⟨⟨3, 4⟩, 1⟩ := ⟨⟨by exact_mod_cast hi 3 (by norm_num), by exact_mod_cast hi 4 (by norm_num)⟩,
    by exact_mod_cast hi 1 (by norm_num)⟩
  have hz : PoseDouble ⟨⟨0, 0⟩, 0⟩ := ⟨⟨fl_zero 53, fl_zero 53⟩, fl_zero 53⟩
  have hn : PoseNear 4 1 ⟨⟨3, 4⟩, 1⟩ ⟨⟨0, 0⟩, 0⟩ := by refine ⟨⟨?_, ?_⟩, ?_⟩ <;> norm_num
  have hn0 : PoseNear 4 1 ⟨⟨0, 0⟩, 0⟩ ⟨⟨0, 0⟩, 0⟩ := by refine ⟨⟨?_, ?_⟩, ?_⟩ <;> norm_num
  refine ⟨hd, hn, ?_⟩
  have := (C145_se2 _ _ hd hz).2.2.2 4 1 (1 / 2) hn hn0 (by norm_num) (by norm_num)
  norm_num at this ⊢
  exact this

end PathPlanning
