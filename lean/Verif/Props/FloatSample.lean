import Verif.Model.FloatSample
import Verif.Lemmas.Float
import Mathlib.Tactic.Linarith
import Mathlib.Tactic.NormNum

/-!
# C126: samples lie within the bounds, with doubles

The lower bounds are kept. The upper bounds are kept if the differences of the bounds are doubles (e.g. for bounds that are
symmetric about 0, or start at 0), and missed by at most a few roundings otherwise.
-/

namespace PathPlanning
open Flt

private theorem hp : 1 ≤ 53 := by norm_num

/-- C126: the number that the distribution returns lies in [0, 1]; both ends occur. -/
theorem C126_unit_interval :
    (∀ c, IsFlt 53 c → 0 ≤ c → c < 1 → 0 ≤ uniformF c ∧ uniformF c ≤ 1) ∧
    uniformF 0 = 0 ∧ IsFlt 53 (1 - 2 ^ (-53 : ℤ)) ∧ uniformF (1 - 2 ^ (-53 : ℤ)) = 1 := by
  have hb : fl64 (fl64 (1 + 2 ^ (-52 : ℤ)) - 0) = 1 + 2 ^ (-52 : ℤ) := by
    have : fl64 (1 + 2 ^ (-52 : ℤ)) = 1 + 2 ^ (-52 : ℤ) :=
      fl_repr hp (n := 2 ^ 52 + 1) (e := -52) (by norm_num) (by norm_num)
    rw [this, sub_zero, this]
  have h1 : fl64 1 = 1 := fl_repr hp (n := 1) (e := 0) (by norm_num) (by norm_num)
  have h0 : fl64 0 = 0 := fl_zero 53
  have hlast : IsFlt 53 (1 - 2 ^ (-53 : ℤ)) := fl_repr hp (n := 2 ^ 53 - 1) (e := -53) (by norm_num) (by norm_num)
  have hone : fl64 ((1 - 2 ^ (-53 : ℤ)) * (1 + 2 ^ (-52 : ℤ))) = 1 := by
    have : fl64 ((1 - 2 ^ (-53 : ℤ)) * (1 + 2 ^ (-52 : ℤ))) = ((2 ^ 52 : ℤ) : ℝ) * 2 ^ (-52 : ℤ) := by
      refine fl_eq ?_ ?_ ?_
      · rw [abs_of_pos (by norm_num)]; norm_num
      · rw [abs_of_pos (by norm_num)]; norm_num
      · rw [abs_of_pos (by norm_num)]; norm_num
    rw [this]; norm_num
  refine ⟨fun c hc h2 h3 => ?_, ?_, hlast, ?_⟩
  · have h4 : c ≤ 1 - 2 ^ (-53 : ℤ) := by
      by_contra h
      push Not at h
      have hl : lastBit 53 c = -53 := by
        refine lastBit_eq ?_ ?_
        · rw [abs_of_nonneg h2]; refine le_trans ?_ h.le; norm_num
        · rw [abs_of_nonneg h2]; refine lt_of_lt_of_le h3 ?_; norm_num
      obtain ⟨n, hn⟩ := isFlt_form hp hc
      rw [hl] at hn
      rw [hn] at h h3
      have h5 : (n : ℝ) < ((2 ^ 53 : ℤ) : ℝ) := by
        norm_num at h3 ⊢
        linarith
      have h6 : ((2 ^ 53 - 1 : ℤ) : ℝ) < (n : ℝ) := by
        norm_num at h ⊢
        linarith
      have h5 := Int.cast_lt.1 h5
      have h6 := Int.cast_lt.1 h6
      omega
    unfold uniformF
    rw [hb, add_zero]
    have h5 : 0 ≤ fl64 (c * (1 + 2 ^ (-52 : ℤ))) := fl_nonneg _ (by positivity)
    have h6 : fl64 (c * (1 + 2 ^ (-52 : ℤ))) ≤ 1 :=
      le_trans (fl_mono 53 hp (mul_le_mul_of_nonneg_right h4 (by norm_num))) hone.le
    refine ⟨fl_nonneg _ h5, ?_⟩
    have := fl_mono 53 hp h6
    rwa [show fl 53 1 = 1 from h1] at this
  · unfold uniformF
    rw [zero_mul, h0, add_zero, h0]
  · unfold uniformF
    rw [hb, hone, add_zero, h1]

/-- C126: no sample is below the lower bound. -/
theorem C126_lower_bound (lb ub u : ℝ) (hlb : IsFlt 53 lb) (h : lb ≤ ub) (hu : 0 ≤ u) : lb ≤ sampleUniformF lb ub u := by
  have h1 : 0 ≤ fl64 (ub - lb) := fl_nonneg _ (by linarith)
  have h2 : 0 ≤ fl64 (fl64 (ub - lb) * u) := fl_nonneg _ (mul_nonneg h1 hu)
  have h3 := fl_mono 53 hp (show lb ≤ lb + fl64 (fl64 (ub - lb) * u) by linarith)
  rw [show fl 53 lb = lb from hlb] at h3
  exact h3

theorem product_le (d u : ℝ) (h : 0 ≤ d) (hu1 : u ≤ 1) : fl64 (fl64 d * u) ≤ fl64 d := by
  have h1 : 0 ≤ fl64 d := fl_nonneg _ h
  have h2 := fl_mono 53 hp (show fl64 d * u ≤ fl64 d by nlinarith)
  rwa [show fl 53 (fl64 d) = fl64 d from fl_fl 53 hp d] at h2

/-- C126, for bounds whose difference is a double: all samples lie within the bounds. -/
theorem C126_exact_range_partial (lb ub u : ℝ) (hlb : IsFlt 53 lb) (hub : IsFlt 53 ub) (hd : IsFlt 53 (ub - lb))
    (h : lb ≤ ub) (hu : 0 ≤ u) (hu1 : u ≤ 1) : lb ≤ sampleUniformF lb ub u ∧ sampleUniformF lb ub u ≤ ub := by
  refine ⟨C126_lower_bound lb ub u hlb h hu, ?_⟩
  have h1 := product_le (ub - lb) u (by linarith) hu1
  have h2 := fl_mono 53 hp (show lb + fl64 (fl64 (ub - lb) * u) ≤ ub by
    rw [show fl64 (ub - lb) = ub - lb from hd] at h1 ⊢; linarith)
  rwa [show fl 53 ub = ub from hub] at h2

/-- The bounds of an interval that is symmetric about 0 or starts at 0. -/
def ExactRange (lb ub : ℝ) : Prop := IsFlt 53 ub ∧ 0 ≤ ub ∧ (lb = -ub ∨ lb = 0)

theorem sample_within {lb ub u : ℝ} (h : ExactRange lb ub) (hu : 0 ≤ u) (hu1 : u ≤ 1) :
    lb ≤ sampleUniformF lb ub u ∧ sampleUniformF lb ub u ≤ ub := by
  obtain ⟨h1, h2, rfl | rfl⟩ := h
  · refine C126_exact_range_partial _ _ u (isFlt_neg h1) h1 ?_ (by linarith) hu hu1
    rw [show ub - -ub = 2 * ub by ring]
    exact isFlt_two_mul hp h1
  · exact C126_exact_range_partial _ _ u (fl_zero 53) h1 (by rwa [sub_zero]) h2 hu hu1

/-- C126, for a state space in the plane whose bounds are symmetric about 0 or start at 0: all samples are accepted by
`ValidateBounds`. -/
theorem C126_r2_partial (s : SpaceR2) (hx : ExactRange s.lb.x s.ub.x) (hy : ExactRange s.lb.y s.ub.y) (ux uy : ℝ)
    (hux : 0 ≤ ux) (hux1 : ux ≤ 1) (huy : 0 ≤ uy) (huy1 : uy ≤ 1) :
    s.validateBounds (s.sampleUniformF ux uy) = true := by
  obtain ⟨h1, h2⟩ := sample_within hx hux hux1
  obtain ⟨h3, h4⟩ := sample_within hy huy huy1
  unfold SpaceR2.validateBounds SpaceR2.sampleUniformF
  rw [if_neg (by push Not; exact ⟨h1, h2⟩), if_neg (by push Not; exact ⟨h3, h4⟩)]

/-- C126, for a space of poses whose bounds are symmetric about 0 or start at 0: all samples are accepted by
`ValidateBounds`. -/
theorem C126_se2_partial (s : SpaceSE2) (hx : ExactRange s.lb.position.x s.ub.position.x)
    (hy : ExactRange s.lb.position.y s.ub.position.y) (ht : ExactRange s.lb.theta s.ub.theta) (ux uy ut : ℝ)
    (hux : 0 ≤ ux) (hux1 : ux ≤ 1) (huy : 0 ≤ uy) (huy1 : uy ≤ 1) (hut : 0 ≤ ut) (hut1 : ut ≤ 1) :
    s.validateBounds (s.sampleUniformF ux uy ut) = true := by
  obtain ⟨h1, h2⟩ := sample_within hx hux hux1
  obtain ⟨h3, h4⟩ := sample_within hy huy huy1
  obtain ⟨h5, h6⟩ := sample_within ht hut hut1
  unfold SpaceSE2.validateBounds SpaceSE2.sampleUniformF
  rw [if_neg (by push Not; exact ⟨h1, h2⟩), if_neg (by push Not; exact ⟨h3, h4⟩), if_neg (by push Not; exact ⟨h5, h6⟩)]

theorem clamp_within {lo hi : ℝ} (h : lo ≤ hi) (v : ℝ) : lo ≤ clampR v lo hi ∧ clampR v lo hi ≤ hi := by
  unfold clampR
  split
  · exact ⟨le_rfl, h⟩
  · split
    · exact ⟨h, le_rfl⟩
    · constructor <;> linarith

/-- C126: Gaussian samples lie within the bounds, whatever is drawn. -/
theorem C126_gaussian (s : SpaceR2) (hx : s.lb.x ≤ s.ub.x) (hy : s.lb.y ≤ s.ub.y) (mean stdDev : Pt) (gx gy : ℝ) :
    s.validateBounds (s.sampleGaussianF mean stdDev gx gy) = true := by
  obtain ⟨h1, h2⟩ := clamp_within hx (sampleGaussianF mean.x stdDev.x gx)
  obtain ⟨h3, h4⟩ := clamp_within hy (sampleGaussianF mean.y stdDev.y gy)
  unfold SpaceR2.validateBounds SpaceR2.sampleGaussianF SpaceR2.enforceBounds
  rw [if_neg (by push Not; exact ⟨h1, h2⟩), if_neg (by push Not; exact ⟨h3, h4⟩)]

/-- C126: Gaussian samples of poses lie within the bounds, whatever is drawn. -/
theorem C126_gaussian_se2 (s : SpaceSE2) (hx : s.lb.position.x ≤ s.ub.position.x) (hy : s.lb.position.y ≤ s.ub.position.y)
    (ht : s.lb.theta ≤ s.ub.theta) (mean stdDev : PoseR) (gx gy gt : ℝ) :
    s.validateBounds (s.sampleGaussianF mean stdDev gx gy gt) = true := by
  obtain ⟨h1, h2⟩ := clamp_within hx (sampleGaussianF mean.position.x stdDev.position.x gx)
  obtain ⟨h3, h4⟩ := clamp_within hy (sampleGaussianF mean.position.y stdDev.position.y gy)
  obtain ⟨h5, h6⟩ := clamp_within ht (sampleGaussianF mean.theta stdDev.theta gt)
  unfold SpaceSE2.validateBounds SpaceSE2.sampleGaussianF SpaceSE2.enforceBounds
  rw [if_neg (by push Not; exact ⟨h1, h2⟩), if_neg (by push Not; exact ⟨h3, h4⟩), if_neg (by push Not; exact ⟨h5, h6⟩)]

private theorem clamp_max {lo hi : ℝ} (h : lo ≤ hi) (v : ℝ) : clampR v lo hi = max lo (min hi v) := by
  unfold clampR
  split
  · rw [min_eq_right (by linarith), max_eq_left (by linarith)]
  · split
    · rw [min_eq_left (by linarith), max_eq_right h]
    · rw [min_eq_right (by linarith), max_eq_right (by linarith)]

/-- One coordinate of a Gaussian sample, up to the roundings of a product and of a sum. -/
private theorem gaussian_near (m d g : ℝ) :
    |sampleGaussianF m d g - (m + d * g)| ≤ 2 ^ (-52 : ℤ) * (|m| + 2 * |d * g|) := by
  have e1 := fl_rel 53 (d * g)
  obtain ⟨q, hq⟩ : ∃ q, q = fl64 (d * g) := ⟨_, rfl⟩
  rw [show fl 53 (d * g) = q from hq.symm] at e1
  have e2 := fl_rel 53 (m + q)
  have h1 : |m + q| ≤ |m| + |d * g| + |q - d * g| := by
    have h1 := abs_add_le m q
    have h2 := abs_add_le (d * g) (q - d * g)
    rw [show d * g + (q - d * g) = q by ring] at h2
    linarith
  have h2 := abs_add_le (fl 53 (m + q) - (m + q)) (q - d * g)
  have h3 : sampleGaussianF m d g - (m + d * g) = fl 53 (m + q) - (m + q) + (q - d * g) := by
    unfold sampleGaussianF
    rw [← hq]
    show fl 53 (m + q) - _ = _
    ring
  rw [h3]
  have h4 := abs_nonneg m
  have h5 := abs_nonneg (d * g)
  rw [abs_mul d g] at h1 h5
  norm_num at e1 e2 ⊢
  linarith

private theorem clamp_near {lo hi : ℝ} (h : lo ≤ hi) (v w : ℝ) : |clampR v lo hi - clampR w lo hi| ≤ |v - w| := by
  have h1 := le_abs_self (v - w)
  have h2 := neg_abs_le (v - w)
  have h3 := abs_nonneg (v - w)
  rw [abs_le]
  unfold clampR
  constructor <;> split <;> split <;> (try split) <;> (try split) <;> linarith

/-- C126: a Gaussian sample is the mean plus the deviation times the number drawn, moved to the bounds, up to the roundings
of a product and of a sum. -/
theorem C126_gaussian_accuracy (s : SpaceR2) (hx : s.lb.x ≤ s.ub.x) (hy : s.lb.y ≤ s.ub.y) (mean stdDev : Pt) (gx gy : ℝ) :
    |(s.sampleGaussianF mean stdDev gx gy).x - max s.lb.x (min s.ub.x (mean.x + stdDev.x * gx))| ≤
      2 ^ (-52 : ℤ) * (|mean.x| + 2 * |stdDev.x * gx|) ∧
    |(s.sampleGaussianF mean stdDev gx gy).y - max s.lb.y (min s.ub.y (mean.y + stdDev.y * gy))| ≤
      2 ^ (-52 : ℤ) * (|mean.y| + 2 * |stdDev.y * gy|) := by
  rw [← clamp_max hx, ← clamp_max hy]
  exact ⟨(clamp_near hx _ _).trans (gaussian_near _ _ _), (clamp_near hy _ _).trans (gaussian_near _ _ _)⟩

/-- C126: the same for poses. -/
theorem C126_gaussian_accuracy_se2 (s : SpaceSE2) (hx : s.lb.position.x ≤ s.ub.position.x)
    (hy : s.lb.position.y ≤ s.ub.position.y) (ht : s.lb.theta ≤ s.ub.theta) (mean stdDev : PoseR) (gx gy gt : ℝ) :
    let p := s.sampleGaussianF mean stdDev gx gy gt
    |p.position.x - max s.lb.position.x (min s.ub.position.x (mean.position.x + stdDev.position.x * gx))| ≤
      2 ^ (-52 : ℤ) * (|mean.position.x| + 2 * |stdDev.position.x * gx|) ∧
    |p.position.y - max s.lb.position.y (min s.ub.position.y (mean.position.y + stdDev.position.y * gy))| ≤
      2 ^ (-52 : ℤ) * (|mean.position.y| + 2 * |stdDev.position.y * gy|) ∧
    |p.theta - max s.lb.theta (min s.ub.theta (mean.theta + stdDev.theta * gt))| ≤
      2 ^ (-52 : ℤ) * (|mean.theta| + 2 * |stdDev.theta * gt|) := by
  intro p
  rw [← clamp_max hx, ← clamp_max hy, ← clamp_max ht]
  exact ⟨(clamp_near hx _ _).trans (gaussian_near _ _ _), (clamp_near hy _ _).trans (gaussian_near _ _ _),
    (clamp_near ht _ _).trans (gaussian_near _ _ _)⟩

/-- With bounds of ±10, the mean 3, the deviation 1/2 and the number 2, the sample is 4. -/
example : (SpaceR2.sampleGaussianF ⟨⟨-10, -10⟩, ⟨10, 10⟩⟩ ⟨3, 3⟩ ⟨1 / 2, 1 / 2⟩ 2 20).x = 4 ∧
    (SpaceR2.sampleGaussianF ⟨⟨-10, -10⟩, ⟨10, 10⟩⟩ ⟨3, 3⟩ ⟨1 / 2, 1 / 2⟩ 2 20).y = 10 := by
  have h1 : fl64 1 = 1 := fl_repr hp (n := 1) (e := 0) (by norm_num) (by norm_num)
  have h4 : fl64 4 = 4 := fl_repr hp (n := 1) (e := 2) (by norm_num) (by norm_num)
  have h10 : fl64 10 = 10 := fl_repr hp (n := 5) (e := 1) (by norm_num) (by norm_num)
  have h13 : fl64 13 = 13 := fl_repr hp (n := 13) (e := 0) (by norm_num) (by norm_num)
  constructor
  · show clampR (fl64 (3 + fl64 (1 / 2 * 2))) (-10) 10 = 4
    norm_num [h1, h4, clampR]
  · show clampR (fl64 (3 + fl64 (1 / 2 * 20))) (-10) 10 = 10
    norm_num [h10, h13, clampR]

/-- **C126 is violated** for other bounds: with bounds of -1 and slightly more than 1, a sample exceeds the upper bound. -/
theorem C126_above_upper_bound :
    let ub : ℝ := 1 + 3 * 2 ^ (-52 : ℤ)
    IsFlt 53 (-1) ∧ IsFlt 53 ub ∧ sampleUniformF (-1) ub 1 = 1 + 4 * 2 ^ (-52 : ℤ) ∧ ub < sampleUniformF (-1) ub 1 := by
  have hub : IsFlt 53 (1 + 3 * 2 ^ (-52 : ℤ) : ℝ) := fl_repr hp (n := 2 ^ 52 + 3) (e := -52) (by norm_num) (by norm_num)
  have h1 : fl64 (1 + 3 * 2 ^ (-52 : ℤ) - -1) = 2 + 4 * 2 ^ (-52 : ℤ) := by
    unfold fl64 fl
    have hl : lastBit 53 (1 + 3 * 2 ^ (-52 : ℤ) - -1) = -51 := by
      refine lastBit_eq ?_ ?_ <;> rw [abs_of_pos (by norm_num)] <;> norm_num
    have hr : rne ((1 + 3 * 2 ^ (-52 : ℤ) - -1) / 2 ^ (-51 : ℤ)) = 2 ^ 52 + 2 := by
      have hf : ⌊((1 + 3 * 2 ^ (-52 : ℤ) - -1) / 2 ^ (-51 : ℤ) : ℝ)⌋ = 2 ^ 52 + 1 := by
        rw [Int.floor_eq_iff]; norm_num
      unfold rne
      rw [hf, if_neg (by norm_num), if_neg (by norm_num), if_neg (by decide)]
      norm_num
    rw [hl, hr]
    norm_num
  have h2 : fl64 (2 + 4 * 2 ^ (-52 : ℤ)) = 2 + 4 * 2 ^ (-52 : ℤ) :=
    fl_repr hp (n := 2 ^ 52 + 2) (e := -51) (by norm_num) (by norm_num)
  have h3 : fl64 (1 + 4 * 2 ^ (-52 : ℤ)) = 1 + 4 * 2 ^ (-52 : ℤ) :=
    fl_repr hp (n := 2 ^ 52 + 4) (e := -52) (by norm_num) (by norm_num)
  have h4 : sampleUniformF (-1) (1 + 3 * 2 ^ (-52 : ℤ)) 1 = 1 + 4 * 2 ^ (-52 : ℤ) := by
    unfold sampleUniformF
    rw [h1, mul_one, h2, show (-1 + (2 + 4 * 2 ^ (-52 : ℤ)) : ℝ) = 1 + 4 * 2 ^ (-52 : ℤ) by ring, h3]
  refine ⟨isFlt_neg (fl_repr hp (n := 1) (e := 0) (by norm_num) (by norm_num)), hub, h4, ?_⟩
  show _ < sampleUniformF _ _ _
  rw [h4]
  norm_num

/-- C126: samples are those of exact arithmetic up to eight roundings. -/
theorem C126_accuracy (lb ub u M : ℝ) (hl : |lb| ≤ M) (hu : |ub| ≤ M) (h : lb ≤ ub) (hu0 : 0 ≤ u) (hu1 : u ≤ 1) :
    |sampleUniformF lb ub u - sampleUniform lb ub u| ≤ 2 ^ (-50 : ℤ) * M := by
  have hM : 0 ≤ M := le_trans (abs_nonneg _) hl
  have hl' := abs_le.1 hl
  have hu' := abs_le.1 hu
  obtain ⟨d, hd⟩ : ∃ d, d = ub - lb := ⟨_, rfl⟩
  have hd0 : 0 ≤ d := by linarith
  have hd2 : d ≤ 2 * M := by linarith
  have e1 := fl_rel 53 d
  rw [abs_of_nonneg hd0] at e1
  obtain ⟨r, hr⟩ : ∃ r, r = fl64 d := ⟨_, rfl⟩
  have hr0 : 0 ≤ r := by rw [hr]; exact fl_nonneg _ hd0
  rw [show fl 53 d = r from hr.symm] at e1
  have e1' := abs_le.1 e1
  have e2 := fl_rel 53 (r * u)
  rw [abs_of_nonneg (mul_nonneg hr0 hu0)] at e2
  obtain ⟨q, hq⟩ : ∃ q, q = fl64 (r * u) := ⟨_, rfl⟩
  rw [show fl 53 (r * u) = q from hq.symm] at e2
  have e2' := abs_le.1 e2
  have hru : r * u ≤ r := by nlinarith
  have e3 := fl_rel 53 (lb + q)
  have hs : sampleUniformF lb ub u = fl 53 (lb + q) := by rw [hq, hr, hd]; rfl
  rw [hs]
  have hε : ((2 : ℝ) ^ 53)⁻¹ = 2 ^ (-53 : ℤ) := by norm_num
  rw [hε] at e1 e1' e2 e2' e3
  obtain ⟨ε, hεd⟩ : ∃ ε : ℝ, ε = 2 ^ (-53 : ℤ) := ⟨_, rfl⟩
  have hε0 : 0 ≤ ε := by rw [hεd]; positivity
  have hε1 : ε ≤ 1 / 64 := by rw [hεd]; norm_num
  have h50 : (2 : ℝ) ^ (-50 : ℤ) = 8 * ε := by rw [hεd]; norm_num
  rw [← hεd] at e1 e1' e2 e2' e3
  rw [h50]
  have hεM : 0 ≤ ε * M := mul_nonneg hε0 hM
  have a1 : ε * d ≤ 2 * (ε * M) := by nlinarith
  have a2 : ε * r ≤ ε * d + ε * (ε * d) := by nlinarith
  have a3 : ε * (ε * d) ≤ (1 / 32) * (ε * M) := by nlinarith
  have a4 : ε * (r * u) ≤ ε * r := mul_le_mul_of_nonneg_left hru hε0
  have hq0 : 0 ≤ q := by rw [hq]; exact fl_nonneg _ (mul_nonneg hr0 hu0)
  have hqd : |q - d * u| ≤ 2 * (ε * M) + 33 / 16 * (ε * M) := by
    have b1 : |r * u - d * u| ≤ ε * d := by
      rw [← sub_mul, abs_mul, abs_of_nonneg hu0]
      nlinarith [abs_nonneg (r - d)]
    have b2 := abs_le.1 b1
    rw [abs_le]
    constructor <;> linarith
  have hqd' := abs_le.1 hqd
  have hduM : d * u ≤ d := by nlinarith
  have hdu0 : 0 ≤ d * u := mul_nonneg hd0 hu0
  have hsum : |lb + q| ≤ M + 5 * (ε * M) := by
    have c1 : lb + d * u ≤ ub := by linarith
    rw [abs_le]
    constructor <;> linarith
  have e3' : |fl 53 (lb + q) - (lb + q)| ≤ 2 * (ε * M) := by
    refine le_trans e3 ?_
    have h7 := mul_le_mul_of_nonneg_left hsum hε0
    have h8 : ε * (ε * M) ≤ 1 / 64 * (ε * M) := mul_le_mul_of_nonneg_right hε1 hεM
    linarith
  have e3'' := abs_le.1 e3'
  unfold sampleUniform
  rw [← hd, abs_le]
  constructor <;> linarith

/-- C126, for all bounds: samples exceed the upper bound by at most eight roundings. -/
theorem C126_upper_bound_partial (lb ub u M : ℝ) (hl : |lb| ≤ M) (hu : |ub| ≤ M) (h : lb ≤ ub) (hu0 : 0 ≤ u) (hu1 : u ≤ 1) :
    sampleUniformF lb ub u ≤ ub + 2 ^ (-50 : ℤ) * M := by
  have h1 := (abs_le.1 (C126_accuracy lb ub u M hl hu h hu0 hu1)).2
  have h2 : sampleUniform lb ub u ≤ ub := by unfold sampleUniform; nlinarith
  linarith

/-- The hypotheses of `C126_se2_partial` and `C126_exact_range_partial`: the bounds of the examples of the library, with
a sample strictly inside. -/
example : ExactRange (-10) 10 ∧ ExactRange (-fl64 3) (fl64 3) ∧ sampleUniformF (-10) 10 (1 / 4) = -5 := by
  have h (n : ℤ) (hn : |n| ≤ 2 ^ 53) : fl64 (n : ℝ) = n := fl_int hp hn
  have h10 : fl64 10 = 10 := by exact_mod_cast h 10 (by norm_num)
  have h20 : fl64 20 = 20 := by exact_mod_cast h 20 (by norm_num)
  have h5 : fl64 5 = 5 := by exact_mod_cast h 5 (by norm_num)
  refine ⟨⟨h10, by norm_num, .inl rfl⟩, ⟨fl_fl 53 hp 3, fl_nonneg _ (by norm_num), .inl rfl⟩, ?_⟩
  unfold sampleUniformF
  rw [show (10 : ℝ) - -10 = 20 by norm_num, h20, show (20 : ℝ) * (1 / 4) = 5 by norm_num, h5,
    show (-10 : ℝ) + 5 = -5 by norm_num]
  exact isFlt_neg h5

end PathPlanning
