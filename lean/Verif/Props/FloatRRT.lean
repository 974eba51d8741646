import Verif.Model.FloatRRT
import Verif.Model.FloatSample
import Verif.Lemmas.FloatRel
import Verif.Lemmas.ReedsSheppPath
import Verif.Props.FloatHeuristic
import Verif.Props.RRTOpen
import Verif.Props.RRTBounds

/-!
# C138: RRT and RRT* in the plane with the arithmetic of the program
-/

namespace PathPlanning
open Spec Tree Real Flt ObstHeuristic

/-! ## Steering -/

private theorem one64 : fl64 1 = 1 := by
  have := fl_int (p := 53) (by norm_num) (n := 1) (by norm_num)
  rw [Int.cast_one] at this
  exact this

/-- Rounding and clamping to [0, 1] commute. -/
private theorem clamp_fl (x : ℝ) : clampK (fl64 x) 0 1 = fl64 (clampK x 0 1) := by
  have h0 : fl64 0 = 0 := fl_zero 53
  have h1 : fl64 1 = 1 := one64
  unfold clampK
  by_cases hx : x < 0
  · rw [if_pos hx, h0]
    have : fl64 x ≤ 0 := by rw [← h0]; exact fl_mono 53 (by norm_num) hx.le
    rcases this.lt_or_eq with h | h
    · rw [if_pos h]
    · rw [h]; norm_num
  · rw [if_neg hx]
    have hx0 : 0 ≤ fl64 x := fl_nonneg 53 (not_lt.1 hx)
    rw [if_neg (not_lt.2 hx0)]
    by_cases h : 1 < x
    · rw [if_pos h, h1]
      have : 1 ≤ fl64 x := by rw [← h1]; exact fl_mono 53 (by norm_num) h.le
      rcases this.lt_or_eq with h | h
      · rw [if_pos h]
      · rw [← h]; norm_num
    · rw [if_neg h]
      have : fl64 x ≤ 1 := by rw [← h1]; exact fl_mono 53 (by norm_num) (not_lt.1 h)
      rw [if_neg (not_lt.2 this)]

/-- The steering of the planners is the rounded one. -/
theorem steerTowards_r2F (a b : Pt) (d : ℝ) : r2SteeringF.steerTowards a b d = PathR2.steerTowardsF a b d := by
  unfold Steering.steerTowards PathR2.steerTowardsF
  dsimp only [r2SteeringF]
  rw [clamp_fl]
  congr 1

private theorem clamp_range (x : ℝ) : 0 ≤ clampK x 0 1 ∧ clampK x 0 1 ≤ 1 := by
  unfold clampK
  split
  · norm_num
  · split
    · norm_num
    · exact ⟨by linarith, by linarith⟩

private theorem clamp_min {x : ℝ} (hx : 0 ≤ x) : clampK x 0 1 = min x 1 := by
  unfold clampK
  rw [if_neg (not_lt.2 hx)]
  split
  · rw [min_eq_right]; linarith
  · rw [min_eq_left]; linarith

private theorem rel_min {δ x y : ℝ} (h : Flt.Rel δ x y) (h0 : 0 ≤ δ) (hd : δ ≤ 1) (hx0 : 0 ≤ x) :
    Flt.Rel δ (min x 1) (min y 1) := by
  obtain ⟨a, b⟩ := h
  rcases le_total x 1 with hx | hx <;> rcases le_total y 1 with hy | hy
  · rw [min_eq_left hx, min_eq_left hy]; exact ⟨a, b⟩
  · rw [min_eq_left hx, min_eq_right hy]
    exact ⟨by nlinarith, by linarith⟩
  · rw [min_eq_right hx, min_eq_left hy]
    exact ⟨by nlinarith [mul_le_mul_of_nonneg_left hx (show 0 ≤ 1 - δ by linarith)], by linarith⟩
  · rw [min_eq_right hx, min_eq_right hy]; constructor <;> linarith

private theorem euclid_rel (a b : Pt) : Flt.Rel (2 ^ 50)⁻¹ (a - b).norm (euclideanF a b) := by
  have h := abs_le.1 (C128_straight_line a b)
  have e : (a - b).norm = √((a.x - b.x) ^ 2 + (a.y - b.y) ^ 2) := rfl
  rw [e]
  constructor <;> linarith [h.1, h.2]

private theorem norm_nonneg' (a : Pt) : 0 ≤ a.norm := Real.sqrt_nonneg _

/-- The ratio by which a connection is truncated. -/
theorem steer_ratioF (a b : Pt) (d : ℝ) (hd : 0 ≤ d) :
    (b - a).norm = 0 ∧ PathR2.steerTowardsF a b d = PathR2.connectF a b ∨
    0 < (b - a).norm ∧ ∃ ρ, 0 ≤ ρ ∧ ρ ≤ 1 ∧ Flt.Rel (2 ^ 49)⁻¹ (min (d / (b - a).norm) 1) ρ ∧
      PathR2.steerTowardsF a b d = (PathR2.connectF a b).truncateF ρ ∧ (euclideanF b a ≤ d → ρ = 1) := by
  have hr := euclid_rel b a
  have hN := norm_nonneg' (b - a)
  have hlen : (PathR2.connectF a b).length = euclideanF b a := rfl
  unfold PathR2.steerTowardsF
  dsimp only
  rw [hlen]
  rcases hN.lt_or_eq with hN | hN
  · right
    have hl : 0 < euclideanF b a := lt_of_lt_of_le (mul_pos (by norm_num) hN) hr.1
    rw [if_pos hl]
    obtain ⟨ρ, hρ⟩ : ∃ ρ, ρ = clampK (fl64 (d / euclideanF b a)) 0 1 := ⟨_, rfl⟩
    rw [← hρ]
    have hq : 0 ≤ d / (b - a).norm := div_nonneg hd hN.le
    have r1 := Rel.div hd hN hr (by positivity) (by norm_num)
    have hq' : 0 ≤ d / euclideanF b a := div_nonneg hd hl.le
    have r2 := r1.trans hq (Rel.fl 53 hq') (by positivity) (by norm_num) (by positivity) (by norm_num)
    have r3 : Flt.Rel (2 ^ 49)⁻¹ (d / (b - a).norm) (fl64 (d / euclideanF b a)) := r2.mono hq (by norm_num)
    have r4 := rel_min r3 (by positivity) (by norm_num) hq
    have hq2 : 0 ≤ fl64 (d / euclideanF b a) := fl_nonneg 53 hq'
    rw [clamp_min hq2] at hρ
    refine ⟨hN, ρ, ?_, ?_, by rw [hρ]; exact r4, rfl, fun hle => ?_⟩
    · rw [hρ]; exact le_min hq2 zero_le_one
    · rw [hρ]; exact min_le_right _ _
    · rw [hρ, min_eq_right]
      have h1 : fl64 1 = 1 := one64
      rw [← h1]
      exact fl_mono 53 (by norm_num) ((one_le_div hl).2 hle)
  · left
    have hl : euclideanF b a = 0 := by
      have h1 := hr.1
      have h2 := hr.2
      rw [← hN] at h1 h2
      linarith
    rw [hl, if_neg (lt_irrefl _)]
    exact ⟨hN.symm, rfl⟩

/-- The error of an interpolated coordinate. -/
theorem lerpF_err {M a b ρ : ℝ} (ha : |a| ≤ M) (hb : |b| ≤ M) (h0 : 0 ≤ ρ) (h1 : ρ ≤ 1) :
    |fl64 (fl64 (fl64 (1 - ρ) * a) + fl64 (ρ * b)) - ((1 - ρ) * a + ρ * b)| ≤ M / 2 ^ 51 := by
  have hM : 0 ≤ M := le_trans (abs_nonneg a) ha
  obtain ⟨u, hu⟩ : ∃ u : ℝ, u = (2 ^ 53)⁻¹ := ⟨_, rfl⟩
  have hu0 : 0 < u := by rw [hu]; positivity
  have hu1 : u ≤ 1 / 100 := by rw [hu]; norm_num
  obtain ⟨w, hw⟩ : ∃ w, w = fl64 (1 - ρ) := ⟨_, rfl⟩
  have ew : |w - (1 - ρ)| ≤ u * (1 - ρ) := by
    have := fl_rel 53 (1 - ρ)
    rw [abs_of_nonneg (show 0 ≤ 1 - ρ by linarith)] at this
    rw [hw, hu]; exact this
  obtain ⟨P, hP⟩ : ∃ P, P = fl64 (w * a) := ⟨_, rfl⟩
  have eP : |P - w * a| ≤ u * |w * a| := by rw [hP, hu]; exact fl_rel 53 _
  obtain ⟨Q, hQ⟩ : ∃ Q, Q = fl64 (ρ * b) := ⟨_, rfl⟩
  have eQ : |Q - ρ * b| ≤ u * |ρ * b| := by rw [hQ, hu]; exact fl_rel 53 _
  obtain ⟨R, hR⟩ : ∃ R, R = fl64 (P + Q) := ⟨_, rfl⟩
  have eR : |R - (P + Q)| ≤ u * |P + Q| := by rw [hR, hu]; exact fl_rel 53 _
  rw [← hw, ← hP, ← hQ, ← hR]
  have hwabs : |w| ≤ (1 + u) * (1 - ρ) := by
    have := abs_sub_abs_le_abs_sub w (1 - ρ)
    rw [abs_of_nonneg (show 0 ≤ 1 - ρ by linarith)] at this
    linarith
  have hwa : |w * a| ≤ (1 + u) * (1 - ρ) * M := by
    rw [abs_mul]
    exact mul_le_mul hwabs ha (abs_nonneg _) (mul_nonneg (by linarith) (by linarith))
  have hρb : |ρ * b| ≤ ρ * M := by
    rw [abs_mul, abs_of_nonneg h0]
    exact mul_le_mul_of_nonneg_left hb h0
  have e1 : |w * a - (1 - ρ) * a| ≤ u * (1 - ρ) * M := by
    rw [← sub_mul, abs_mul]
    exact mul_le_mul ew ha (abs_nonneg _) (mul_nonneg hu0.le (by linarith))
  have e2 : |P - (1 - ρ) * a| ≤ (2 * u + u ^ 2) * ((1 - ρ) * M) := by
    have : P - (1 - ρ) * a = (P - w * a) + (w * a - (1 - ρ) * a) := by ring
    rw [this]
    refine (abs_add_le _ _).trans ?_
    have := mul_le_mul_of_nonneg_left hwa hu0.le
    nlinarith
  have e3 : |Q - ρ * b| ≤ (2 * u + u ^ 2) * (ρ * M) := by
    refine eQ.trans ((mul_le_mul_of_nonneg_left hρb hu0.le).trans ?_)
    have := mul_nonneg h0 hM
    nlinarith [mul_nonneg (sq_nonneg u) this, mul_nonneg hu0.le this]
  have e4 : |P + Q - ((1 - ρ) * a + ρ * b)| ≤ (2 * u + u ^ 2) * M := by
    have : P + Q - ((1 - ρ) * a + ρ * b) = (P - (1 - ρ) * a) + (Q - ρ * b) := by ring
    rw [this]
    refine (abs_add_le _ _).trans ?_
    nlinarith
  have e5 : |(1 - ρ) * a + ρ * b| ≤ M := by
    refine (abs_add_le _ _).trans ?_
    rw [abs_mul (1 - ρ), abs_of_nonneg (show 0 ≤ 1 - ρ by linarith)]
    have := mul_le_mul_of_nonneg_left ha (show 0 ≤ 1 - ρ by linarith)
    linarith
  have e6 : |P + Q| ≤ (1 + 2 * u + u ^ 2) * M := by
    have := abs_sub_abs_le_abs_sub (P + Q) ((1 - ρ) * a + ρ * b)
    linarith
  have : R - ((1 - ρ) * a + ρ * b) = (R - (P + Q)) + (P + Q - ((1 - ρ) * a + ρ * b)) := by ring
  rw [this]
  refine (abs_add_le _ _).trans ?_
  have e7 := mul_le_mul_of_nonneg_left e6 hu0.le
  have e8 : (3 * u + 3 * u ^ 2 + u ^ 3) * M ≤ 4 * u * M := by
    refine mul_le_mul_of_nonneg_right ?_ hM
    nlinarith [mul_pos hu0 hu0]
  have e9 : 4 * u * M = M / 2 ^ 51 := by rw [hu]; ring
  nlinarith

/-- Truncating with ratio 1 changes nothing. -/
private theorem interpolateF_one (a b : Pt) (hx : IsFlt 53 b.x) (hy : IsFlt 53 b.y) :
    (PathR2.connectF a b).interpolateF 1 = b := by
  have h0 : fl64 0 = 0 := fl_zero 53
  have ex : fl64 b.x = b.x := hx
  have ey : fl64 b.y = b.y := hy
  unfold PathR2.interpolateF
  dsimp only [PathR2.connectF]
  simp only [sub_self, h0, zero_mul, one_mul, zero_add, ex, ey]

/-- C138: steering arrives at the point itself if its computed distance is at most the connection distance. -/
theorem C138_arrives (a b : Pt) (d : ℝ) (hd : 0 ≤ d) (hx : IsFlt 53 b.x) (hy : IsFlt 53 b.y) (h : euclideanF b a ≤ d) :
    (r2SteeringF.steerTowards a b d).final = b := by
  rw [steerTowards_r2F]
  rcases steer_ratioF a b d hd with ⟨-, e⟩ | ⟨-, ρ, -, -, -, e, h1⟩
  · rw [e]; rfl
  · rw [e, h1 h]
    exact interpolateF_one a b hx hy

/-- The exact steering in terms of a ratio. -/
private theorem steer_exact (a b : Pt) (d : ℝ) (hd : 0 ≤ d) (hN : 0 < (b - a).norm) :
    (r2Steering.steerTowards a b d).final = Pt.lerp a b (min (d / (b - a).norm) 1) := by
  have hl : r2Steering.length (r2Steering.connect a b) = (b - a).norm := rfl
  unfold Steering.steerTowards
  dsimp only
  rw [hl, if_pos hN, clamp_min (div_nonneg hd hN.le)]
  rfl

/-- C138: if no coordinate is greater than `M`, the point that steering arrives at is, in each coordinate, within `M` / 2^47 of
the exact one, and the length of the motion is the exact one up to a relative error of 2^-48. -/
theorem C138_steering (a b : Pt) (d M : ℝ) (hd : 0 ≤ d) (hax : |a.x| ≤ M) (hay : |a.y| ≤ M) (hbx : |b.x| ≤ M)
    (hby : |b.y| ≤ M) :
    |(r2SteeringF.steerTowards a b d).final.x - (r2Steering.steerTowards a b d).final.x| ≤ M / 2 ^ 47 ∧
    |(r2SteeringF.steerTowards a b d).final.y - (r2Steering.steerTowards a b d).final.y| ≤ M / 2 ^ 47 ∧
    |(r2SteeringF.steerTowards a b d).length - min d (b - a).norm| ≤ (2 ^ 48)⁻¹ * min d (b - a).norm := by
  have hM : 0 ≤ M := le_trans (abs_nonneg _) hax
  rw [steerTowards_r2F]
  rcases steer_ratioF a b d hd with ⟨hN, e⟩ | ⟨hN, ρ, h0, h1, hr, e, -⟩
  · have hex : (r2Steering.steerTowards a b d).final = b := by
      have hl : r2Steering.length (r2Steering.connect a b) = (b - a).norm := rfl
      unfold Steering.steerTowards
      dsimp only
      rw [hl, hN, if_neg (lt_irrefl _)]
      rfl
    have hl : euclideanF b a = 0 := by
      have h := euclid_rel b a
      rw [hN] at h
      linarith [h.1, h.2]
    rw [e, hex]
    refine ⟨?_, ?_, ?_⟩
    · show |b.x - b.x| ≤ _
      rw [sub_self, abs_zero]; positivity
    · show |b.y - b.y| ≤ _
      rw [sub_self, abs_zero]; positivity
    · show |euclideanF b a - _| ≤ _
      rw [hl, hN, min_eq_right hd]; norm_num
  · rw [e, steer_exact a b d hd hN]
    obtain ⟨r, hrr⟩ : ∃ r, r = min (d / (b - a).norm) 1 := ⟨_, rfl⟩
    rw [← hrr] at hr ⊢
    have hr0 : 0 ≤ r := by rw [hrr]; exact le_min (div_nonneg hd hN.le) zero_le_one
    have hr1 : r ≤ 1 := by rw [hrr]; exact min_le_right _ _
    have hdr : |ρ - r| ≤ (2 ^ 49)⁻¹ := by
      rw [abs_le]
      have : (2 ^ 49 : ℝ)⁻¹ * r ≤ (2 ^ 49)⁻¹ := mul_le_of_le_one_right (by positivity) hr1
      constructor <;> linarith [hr.1, hr.2]
    have key : ∀ x y : ℝ, |x| ≤ M → |y| ≤ M →
        |fl64 (fl64 (fl64 (1 - ρ) * x) + fl64 (ρ * y)) - ((1 - r) * x + r * y)| ≤ M / 2 ^ 47 := by
      intro x y hx hy
      have e1 := lerpF_err hx hy h0 h1
      have e2 : |(ρ - r) * (y - x)| ≤ (2 ^ 49)⁻¹ * (2 * M) := by
        rw [abs_mul]
        refine mul_le_mul hdr ?_ (abs_nonneg _) (by positivity)
        have := abs_sub y x
        linarith
      have : fl64 (fl64 (fl64 (1 - ρ) * x) + fl64 (ρ * y)) - ((1 - r) * x + r * y) =
          (fl64 (fl64 (fl64 (1 - ρ) * x) + fl64 (ρ * y)) - ((1 - ρ) * x + ρ * y)) + (ρ - r) * (y - x) := by ring
      rw [this]
      refine (abs_add_le _ _).trans ((add_le_add e1 e2).trans ?_)
      linarith
    refine ⟨key _ _ hax hbx, key _ _ hay hby, ?_⟩
    show |fl64 (euclideanF b a * ρ) - _| ≤ _
    have hm : min d (b - a).norm = (b - a).norm * r := by
      rw [hrr, mul_min_of_nonneg _ _ hN.le, mul_one, mul_div_cancel₀ _ hN.ne']
    rw [hm]
    have hx := mul_nonneg hN.le hr0
    have r1 := Rel.mul hN.le hr0 (euclid_rel b a) hr (by positivity) (by norm_num) (by positivity) (by norm_num)
    have r2 := r1.trans hx (Rel.fl 53 (r1.nonneg hx (by norm_num))) (by positivity) (by norm_num) (by positivity) (by norm_num)
    have r3 : Flt.Rel (2 ^ 48)⁻¹ ((b - a).norm * r) (fl64 (euclideanF b a * ρ)) := r2.mono hx (by norm_num)
    rw [abs_le]
    constructor <;> linarith [r3.1, r3.2]

/-! ## Progress -/

private theorem norm_le_sum (v : Pt) {e : ℝ} (hx : |v.x| ≤ e) (hy : |v.y| ≤ e) : v.norm ≤ 2 * e := by
  have he : 0 ≤ e := le_trans (abs_nonneg _) hx
  refine Real.sqrt_le_iff.2 ⟨by linarith, ?_⟩
  have h1 := sq_le_sq' (abs_le.1 hx).1 (abs_le.1 hx).2
  have h2 := sq_le_sq' (abs_le.1 hy).1 (abs_le.1 hy).2
  nlinarith [sq_nonneg e]

/-- Points with coordinates of at most `M` are within 3 `M` of each other. -/
private theorem norm_diff_le {M : ℝ} {a b : Pt} (hax : |a.x| ≤ M) (hay : |a.y| ≤ M) (hbx : |b.x| ≤ M)
    (hby : |b.y| ≤ M) : (b - a).norm ≤ 3 * M := by
  have hM : 0 ≤ M := le_trans (abs_nonneg _) hax
  refine Real.sqrt_le_iff.2 ⟨by linarith, ?_⟩
  show (b.x - a.x) ^ 2 + (b.y - a.y) ^ 2 ≤ _
  have h1 : |b.x - a.x| ≤ 2 * M := by have := abs_sub b.x a.x; linarith
  have h2 : |b.y - a.y| ≤ 2 * M := by have := abs_sub b.y a.y; linarith
  have h3 := sq_le_sq' (abs_le.1 h1).1 (abs_le.1 h1).2
  have h4 := sq_le_sq' (abs_le.1 h2).1 (abs_le.1 h2).2
  nlinarith [sq_nonneg M]

private theorem sqDist_euclid {v p q : Pt} (h : sqDistF v p ≤ sqDistF v q) : euclideanF v p ≤ euclideanF v q :=
  fl_mono 53 (by norm_num) (Real.sqrt_le_sqrt h)

/-- Steering from a nearest point arrives at the goal or comes nearer to it than any point by almost the connection distance. -/
private theorem progressF {M d : ℝ} {a q goal : Pt} (hd : 0 < d)
    (ha : |a.x| ≤ M ∧ |a.y| ≤ M) (hq : |q.x| ≤ M ∧ |q.y| ≤ M) (hg : |goal.x| ≤ M ∧ |goal.y| ≤ M)
    (hgx : IsFlt 53 goal.x) (hgy : IsFlt 53 goal.y) (hnear : sqDistF goal a ≤ sqDistF goal q) :
    (r2SteeringF.steerTowards a goal d).final = goal ∨ d - M / 2 ^ 45 < (goal - q).norm ∧
      (goal - (r2SteeringF.steerTowards a goal d).final).norm ≤ (goal - q).norm - (d - M / 2 ^ 45) := by
  have hM : 0 ≤ M := le_trans (abs_nonneg _) ha.1
  by_cases hle : euclideanF goal a ≤ d
  · exact Or.inl (C138_arrives a goal d hd.le hgx hgy hle)
  right
  have hlt := not_le.1 hle
  have ra := euclid_rel goal a
  have rq := euclid_rel goal q
  have hn := sqDist_euclid hnear
  have hNa : (goal - a).norm ≤ 3 * M := norm_diff_le ha.1 ha.2 hg.1 hg.2
  have hNq : (goal - q).norm ≤ 3 * M := norm_diff_le hq.1 hq.2 hg.1 hg.2
  have hNa0 := norm_nonneg' (goal - a)
  have hNq0 := norm_nonneg' (goal - q)
  rw [steerTowards_r2F]
  obtain ⟨Na, eNa⟩ : ∃ x, x = (goal - a).norm := ⟨_, rfl⟩
  obtain ⟨Nq, eNq⟩ : ∃ x, x = (goal - q).norm := ⟨_, rfl⟩
  rw [← eNa] at hNa hNa0 ra
  rw [← eNq] at hNq hNq0 rq ⊢
  have c1 : Na ≤ Nq + 3 * M / 2 ^ 48 := by
    have h1 : (1 - (2 ^ 50 : ℝ)⁻¹) * Na ≤ (1 + (2 ^ 50)⁻¹) * Nq := ra.1.trans (hn.trans rq.2)
    have h2 : (1 + (2 ^ 50 : ℝ)⁻¹) ≤ (1 - (2 ^ 50)⁻¹) * (1 + (2 ^ 48)⁻¹) := by norm_num
    have h3 : (1 - (2 ^ 50 : ℝ)⁻¹) * Na ≤ (1 - (2 ^ 50)⁻¹) * ((1 + (2 ^ 48)⁻¹) * Nq) := by
      rw [← mul_assoc]; exact h1.trans (mul_le_mul_of_nonneg_right h2 hNq0)
    have h4 := le_of_mul_le_mul_left h3 (by norm_num)
    linarith
  have c2 : d < Na + M / 2 ^ 48 := by
    have := ra.2
    linarith
  refine ⟨by linarith, ?_⟩
  rcases steer_ratioF a goal d hd.le with ⟨hN, -⟩ | ⟨hN, ρ, h0, h1, hr, e, -⟩
  · rw [← eNa] at hN
    have := ra.2
    rw [hN] at this
    linarith
  · rw [← eNa] at hN hr
    rw [e]
    have p1 : ((1 - ρ) * Na) = (goal - Pt.lerp a goal ρ).norm := by
      rw [eNa]
      unfold Pt.norm Pt.lerp
      show (1 - ρ) * √((goal.x - a.x) ^ 2 + (goal.y - a.y) ^ 2) =
        √((goal.x - ((1 - ρ) * a.x + ρ * goal.x)) ^ 2 + (goal.y - ((1 - ρ) * a.y + ρ * goal.y)) ^ 2)
      rw [show (goal.x - ((1 - ρ) * a.x + ρ * goal.x)) ^ 2 + (goal.y - ((1 - ρ) * a.y + ρ * goal.y)) ^ 2 =
        (1 - ρ) ^ 2 * ((goal.x - a.x) ^ 2 + (goal.y - a.y) ^ 2) by ring, Real.sqrt_mul (sq_nonneg _),
        Real.sqrt_sq (by linarith)]
    have p2 : (Pt.lerp a goal ρ - (PathR2.connectF a goal).interpolateF ρ).norm ≤ 2 * (M / 2 ^ 51) := by
      refine norm_le_sum _ ?_ ?_
      · rw [show (Pt.lerp a goal ρ - (PathR2.connectF a goal).interpolateF ρ).x =
          (Pt.lerp a goal ρ).x - ((PathR2.connectF a goal).interpolateF ρ).x from rfl, abs_sub_comm]
        exact lerpF_err ha.1 hg.1 h0 h1
      · rw [show (Pt.lerp a goal ρ - (PathR2.connectF a goal).interpolateF ρ).y =
          (Pt.lerp a goal ρ).y - ((PathR2.connectF a goal).interpolateF ρ).y from rfl, abs_sub_comm]
        exact lerpF_err ha.2 hg.2 h0 h1
    have p3 := norm_triangle ((PathR2.connectF a goal).interpolateF ρ) (Pt.lerp a goal ρ) goal
    have p4 : (goal - (PathR2.connectF a goal).interpolateF ρ).norm ≤ 2 * (M / 2 ^ 51) + (1 - ρ) * Na := by
      rw [p1]
      exact p3.trans (add_le_add p2 le_rfl)
    have p5 : Na - ρ * Na ≤ Na - d + 4 * M / 2 ^ 48 := by
      have h2 : (1 - (2 ^ 49 : ℝ)⁻¹) * min d Na ≤ ρ * Na := by
        have h := mul_le_mul_of_nonneg_right hr.1 hN.le
        rw [mul_assoc, min_mul_of_nonneg _ _ hN.le, one_mul, div_mul_cancel₀ _ hN.ne'] at h
        exact h
      have h3 : d - M / 2 ^ 48 ≤ min d Na := by
        apply le_min
        · have : 0 ≤ M / 2 ^ 48 := by positivity
          linarith
        · linarith
      have h4 : min d Na ≤ 3 * M := (min_le_right _ _).trans hNa
      linarith
    show (goal - (PathR2.connectF a goal).interpolateF ρ).norm ≤ _
    linarith

/-! ## The searches -/

private theorem goalDraws_succ [DecidableEq Pt] (sample : Nat → Pt) (goal : Pt) (m : Nat) :
    goalDraws sample goal (m + 1) = goalDraws sample goal m + if sample m = goal then 1 else 0 := by
  unfold goalDraws
  rw [List.range_succ, List.countP_append]
  by_cases h : sample m = goal <;> simp [h]

/-- What a draw of the goal does: the new point is the goal, or it is nearer to it than the points of `F` by `step`. -/
private def Progress {P D : Type} [LE D] (s : RRTSetup Pt P ℝ) (dist : Pt → Pt → D) (F : Pt → Prop) (goal : Pt) (step : ℝ) :
    Prop :=
  ∀ a q, F a → F q → dist goal a ≤ dist goal q →
    s.steering.final (s.steering.steerTowards a goal s.maxConnectionDistance) = goal ∨
    step < (goal - q).norm ∧
      (goal - s.steering.final (s.steering.steerTowards a goal s.maxConnectionDistance)).norm ≤ (goal - q).norm - step

/-- What both loops use: the node nearest to the sample, and where the next point lies. -/
private theorem open_stepF [DecidableEq Pt] {P D : Type} [LE D] {dist : Pt → Pt → D} (s : RRTSetup Pt P ℝ)
    (L : NearestLaws s.knn dist) {F : Pt → Prop} {goal init : Pt} {step : ℝ} (hp : Progress s dist F goal step)
    (hvis : ∀ a, F a → s.valid (s.steering.steerTowards a goal s.maxConnectionDistance) = true)
    {count m : Nat} {D0 : ℝ} (hdraws : D0 ≤ goalDraws s.sample goal m * step) {t : Tree Pt}
    (I : OInv F init goal (D0 - goalDraws s.sample goal count * step) t)
    (hlt : goalDraws s.sample goal count < goalDraws s.sample goal m) :
    ∃ n, t.getNearestNode s.knn (s.sample count) = some n ∧ t.heap.alive n ∧
      (s.valid (s.steering.steerTowards (t.state n) (s.sample count) s.maxConnectionDistance) = false →
        goalDraws s.sample goal (count + 1) = goalDraws s.sample goal count) ∧
      ∀ v, v = s.steering.final (s.steering.steerTowards (t.state n) (s.sample count) s.maxConnectionDistance) →
        v = goal ∨ goalDraws s.sample goal (count + 1) < goalDraws s.sample goal m ∧
      (D0 - goalDraws s.sample goal count * step ≤ D0 - goalDraws s.sample goal (count + 1) * step ∨
      (goal - v).norm ≤ D0 - goalDraws s.sample goal (count + 1) * step) := by
  obtain ⟨r, hr, -⟩ := I.r.root
  obtain ⟨n, hn⟩ := (nearestNode_spec L I.r.inv (s.sample count)).1 (by rw [hr]; simp)
  obtain ⟨ha, -, hmin⟩ := (nearestNode_spec L I.r.inv (s.sample count)).2 n hn
  refine ⟨n, hn, ha, fun hv => ?_, fun v hv => ?_⟩
  · rw [goalDraws_succ, if_neg, Nat.add_zero]
    intro hg
    rw [hg, hvis _ (I.free n ha)] at hv
    cases hv
  · rw [goalDraws_succ]
    by_cases hg : s.sample count = goal
    · rw [if_pos hg]
      obtain ⟨x, hx, hxB⟩ := I.near
      have hm := hmin x hx
      rw [hg] at hm hv
      rcases hp _ _ (I.free n ha) (I.free x hx) hm with h | ⟨h1, h2⟩
      · left; rw [hv, h]
      · right
        rw [← hv] at h2
        refine ⟨?_, Or.inr ?_⟩
        · by_contra hc
          have he : goalDraws s.sample goal m = goalDraws s.sample goal count + 1 := by omega
          rw [he] at hdraws
          push_cast at hdraws
          linarith
        · push_cast
          linarith
    · rw [if_neg hg]
      right; exact ⟨by omega, Or.inl (by simp)⟩

private theorem rrt_open_auxF [DecidableEq Pt] {P D : Type} [LE D] {dist : Pt → Pt → D} (s : RRTSetup Pt P ℝ)
    (L : NearestLaws s.knn dist) (F : Pt → Prop) (goal init : Pt) (step : ℝ) (hp : Progress s dist F goal step)
    (hF : ∀ a target, F a → s.valid (s.steering.steerTowards a target s.maxConnectionDistance) = true →
      F (s.steering.final (s.steering.steerTowards a target s.maxConnectionDistance)))
    (hvis : ∀ a, F a → s.valid (s.steering.steerTowards a goal s.maxConnectionDistance) = true)
    (hgoal : s.isSolution goal = true) (m : Nat) (hm1 : m ≤ s.maxIteration + 1) (hm2 : m ≤ s.maxNumberTreeNode) (D0 : ℝ)
    (hdraws : D0 ≤ goalDraws s.sample goal m * step) :
    ∀ (k count : Nat) (t : Tree Pt), count + k = m → t.size ≤ count + 1 →
      OInv F init goal (D0 - goalDraws s.sample goal count * step) t →
      goalDraws s.sample goal count < goalDraws s.sample goal m →
      ∃ r, rrtLoop s count t = some r ∧ r.success = true ∧ r.samples ≤ m := by
  intro k
  induction k with
  | zero =>
    intro count t hk _ _ hlt
    rw [show count = m by omega] at hlt
    exact absurd hlt (lt_irrefl _)
  | succ k ih =>
    intro count t hk hsz I hlt
    obtain ⟨n, hn, ha, hbad, hgood⟩ := open_stepF s L hp hvis hdraws I hlt
    rw [rrtLoop, if_neg (by omega), if_neg (by omega), hn]
    dsimp only
    cases hv : s.valid (s.steering.steerTowards (t.state n) (s.sample count) s.maxConnectionDistance) with
    | false =>
      simp only [Bool.not_false, if_true]
      have he := hbad hv
      exact ih (count + 1) t (by omega) (by omega) (by rw [he]; exact I) (by rw [he]; exact hlt)
    | true =>
      simp only [Bool.not_true, Bool.false_eq_true, if_false]
      obtain ⟨v, hvv⟩ : ∃ v, v = s.steering.final (s.steering.steerTowards (t.state n) (s.sample count)
        s.maxConnectionDistance) := ⟨_, rfl⟩
      rw [← hvv]
      have hFv : F v := by rw [hvv]; exact hF _ _ (I.free n ha) hv
      rcases hgood v hvv with hvg | ⟨hlt', hB⟩
      · obtain ⟨t', n', he, -, -⟩ := oinv_extend L I (v := v) (src := some n) (fun x hx => by cases hx; exact ha) hFv
          (Or.inl (le_refl _))
        rw [he]
        dsimp only
        rw [hvg, if_pos hgoal]
        exact ⟨_, rfl, rfl, by dsimp only; omega⟩
      · obtain ⟨t', n', he, I', hsz'⟩ := oinv_extend L I (v := v) (src := some n) (fun x hx => by cases hx; exact ha) hFv hB
        rw [he]
        dsimp only
        split
        · exact ⟨_, rfl, rfl, by dsimp only; omega⟩
        · exact ih (count + 1) t' (by omega) (by omega) I' hlt'

theorem bestParentF_mem {V P : Type} (s : RRTSetup V P ℝ) (st : RRTStarState V ℝ) (v : V) (near : List Nat) (n : Nat)
    (h : (bestParentF s st v near).1 = some n) : n ∈ near := by
  have key : ∀ (near : List Nat) (acc : Option Nat × Option ℝ),
      (near.foldl (fun best node =>
        let path := s.steering.connect (st.tree.state node) v
        let cost := addInfF (st.cost node) (s.steering.length path)
        if ltInf cost best.2 && s.valid path then (some node, cost) else best) acc).1 = some n →
      n ∈ near ∨ acc.1 = some n := by
    intro near
    induction near with
    | nil => intro acc h; exact Or.inr h
    | cons a near ih =>
      intro acc h
      rw [List.foldl_cons] at h
      rcases ih _ h with h | h
      · exact Or.inl (List.mem_cons_of_mem _ h)
      · dsimp only at h
        split at h
        · cases h; exact Or.inl List.mem_cons_self
        · exact Or.inr h
  rcases key near _ h with h | h
  · exact h
  · cases h

private theorem star_open_auxF [DecidableEq Pt] {P D : Type} [LE D] {dist : Pt → Pt → D} (s : RRTSetup Pt P ℝ)
    (nn : Nat → Nat) (L : NearestLaws s.knn dist) (F : Pt → Prop) (goal init : Pt) (step : ℝ)
    (hp : Progress s dist F goal step)
    (hF : ∀ a target, F a → s.valid (s.steering.steerTowards a target s.maxConnectionDistance) = true →
      F (s.steering.final (s.steering.steerTowards a target s.maxConnectionDistance)))
    (hvis : ∀ a, F a → s.valid (s.steering.steerTowards a goal s.maxConnectionDistance) = true)
    (hgoal : s.isSolution goal = true) (m : Nat) (hm1 : m ≤ s.maxIteration + 1) (hm2 : m ≤ s.maxNumberTreeNode) (D0 : ℝ)
    (hdraws : D0 ≤ goalDraws s.sample goal m * step) :
    ∀ (k count : Nat) (st : RRTStarState Pt ℝ), count + k = m → st.tree.size ≤ count + 1 →
      OInv F init goal (D0 - goalDraws s.sample goal count * step) st.tree →
      goalDraws s.sample goal count < goalDraws s.sample goal m →
      ∃ r, rrtStarLoopF s nn count st = some r ∧ r.success = true ∧ r.samples ≤ m := by
  intro k
  induction k with
  | zero =>
    intro count t hk _ _ hlt
    rw [show count = m by omega] at hlt
    exact absurd hlt (lt_irrefl _)
  | succ k ih =>
    intro count st hk hsz I hlt
    obtain ⟨n, hn, ha, hbad, hgood⟩ := open_stepF s L hp hvis hdraws I hlt
    rw [rrtStarLoopF, if_neg (by omega), if_neg (by omega)]
    unfold rrtStarStepF
    rw [hn]
    dsimp only
    cases hv : s.valid (s.steering.steerTowards (st.tree.state n) (s.sample count) s.maxConnectionDistance) with
    | false =>
      simp only [Bool.not_false, if_true]
      have he := hbad hv
      exact ih (count + 1) st (by omega) (by omega) (by rw [he]; exact I) (by rw [he]; exact hlt)
    | true =>
      simp only [Bool.not_true, Bool.false_eq_true, if_false]
      obtain ⟨v, hvv⟩ : ∃ v, v = s.steering.final (s.steering.steerTowards (st.tree.state n) (s.sample count)
        s.maxConnectionDistance) := ⟨_, rfl⟩
      rw [← hvv]
      obtain ⟨best, hb⟩ : ∃ b, b = bestParentF s st v (st.tree.getNearestNodes s.knn v (nn st.tree.size)) := ⟨_, rfl⟩
      rw [← hb]
      have hsrc : ∀ x, best.1 = some x → st.tree.heap.alive x := by
        intro x hx
        rw [hb] at hx
        obtain ⟨u, -, hu⟩ := List.mem_filterMap.mp (bestParentF_mem s st v _ x hx)
        exact (I.r.inv.find_some.mp hu).1
      have hFv : F v := by rw [hvv]; exact hF _ _ (I.free n ha) hv
      rcases hgood v hvv with hvg | ⟨hlt', hB⟩
      · obtain ⟨t', n', he, -, -⟩ := oinv_extend L I (v := v) (src := best.1) hsrc hFv (Or.inl (le_refl _))
        rw [he]
        dsimp only
        rw [hvg, if_pos hgoal]
        exact ⟨_, rfl, rfl, by dsimp only; omega⟩
      · obtain ⟨t', n', he, I', hsz'⟩ := oinv_extend L I (v := v) (src := best.1) hsrc hFv hB
        rw [he]
        dsimp only
        split
        · exact ⟨_, rfl, rfl, by dsimp only; omega⟩
        · exact ih (count + 1) _ (by omega) (by dsimp only; omega) I' hlt'

/-- C138 for RRT: let `F` be a set of points, of coordinates of at most `M`, that contains the start, from all of which the goal
(two `double`s, at most `M`) can be seen and that no accepted motion leaves. If the goal is drawn, within `m` iterations that the
parameters allow, so often that as many motions, each shorter than the connection distance by `M` / 2^45, reach from the start to
the goal, the search succeeds within `m` iterations, whatever the other samples are. -/
theorem C138_rrt [DecidableEq Pt] [Inhabited Pt] (s : RRTSetup Pt PathR2 ℝ) (hst : s.steering = r2SteeringF)
    (hd : 0 < s.maxConnectionDistance) (L : NearestLaws s.knn sqDistF)
    (t : Tree Pt) (ht : TreeReachable s.knn t) (F : Pt → Prop) (init goal : Pt) (hi : F init) (M : ℝ)
    (hM : ∀ a, F a → |a.x| ≤ M ∧ |a.y| ≤ M) (hg : |goal.x| ≤ M ∧ |goal.y| ≤ M) (hgx : IsFlt 53 goal.x) (hgy : IsFlt 53 goal.y)
    (hF : ∀ a target, F a → s.valid (PathR2.steerTowardsF a target s.maxConnectionDistance) = true →
      F (PathR2.steerTowardsF a target s.maxConnectionDistance).final)
    (hvis : ∀ a, F a → s.valid (PathR2.steerTowardsF a goal s.maxConnectionDistance) = true)
    (hgoal : s.isSolution goal = true) (m : Nat) (hm1 : m ≤ s.maxIteration + 1) (hm2 : m ≤ s.maxNumberTreeNode)
    (hpos : 0 < goalDraws s.sample goal m)
    (hdraws : √((goal.x - init.x) ^ 2 + (goal.y - init.y) ^ 2) ≤
      goalDraws s.sample goal m * (s.maxConnectionDistance - M / 2 ^ 45)) :
    ∃ r, rrtSearchPath s t init = some r ∧ r.success = true ∧ r.samples ≤ m := by
  have I := treeInv_reachable L ht
  have hp : Progress s sqDistF F goal (s.maxConnectionDistance - M / 2 ^ 45) := by
    intro a q ha hq hn
    rw [hst]
    exact progressF hd (hM a ha) (hM q hq) hg hgx hgy hn
  refine rrt_open_auxF s L F goal init _ hp (fun a x ha hv => ?_) (fun a ha => ?_) hgoal m hm1 hm2 _ hdraws m 0 _ (by omega)
    ?_ ?_ ?_
  · rw [hst, steerTowards_r2F] at hv ⊢
    exact hF a x ha hv
  · rw [hst, steerTowards_r2F]
    exact hvis a ha
  · rw [(rinv_start I (fun _ _ => True) init).2.1]
  · have := oinv_start I F init goal hi
    simpa [goalDraws, Pt.norm] using this
  · simpa [goalDraws] using hpos

/-- C138 for RRT*. -/
theorem C138_rrtStar [DecidableEq Pt] [Inhabited Pt] (s : RRTSetup Pt PathR2 ℝ) (hst : s.steering = r2SteeringF)
    (hd : 0 < s.maxConnectionDistance) (L : NearestLaws s.knn sqDistF) (nn : Nat → Nat)
    (t : Tree Pt) (ht : TreeReachable s.knn t) (F : Pt → Prop) (init goal : Pt) (hi : F init) (M : ℝ)
    (hM : ∀ a, F a → |a.x| ≤ M ∧ |a.y| ≤ M) (hg : |goal.x| ≤ M ∧ |goal.y| ≤ M) (hgx : IsFlt 53 goal.x) (hgy : IsFlt 53 goal.y)
    (hF : ∀ a target, F a → s.valid (PathR2.steerTowardsF a target s.maxConnectionDistance) = true →
      F (PathR2.steerTowardsF a target s.maxConnectionDistance).final)
    (hvis : ∀ a, F a → s.valid (PathR2.steerTowardsF a goal s.maxConnectionDistance) = true)
    (hgoal : s.isSolution goal = true) (m : Nat) (hm1 : m ≤ s.maxIteration + 1) (hm2 : m ≤ s.maxNumberTreeNode)
    (hpos : 0 < goalDraws s.sample goal m)
    (hdraws : √((goal.x - init.x) ^ 2 + (goal.y - init.y) ^ 2) ≤
      goalDraws s.sample goal m * (s.maxConnectionDistance - M / 2 ^ 45)) :
    ∃ r, rrtStarSearchPathF s nn t init = some r ∧ r.success = true ∧ r.samples ≤ m := by
  have I := treeInv_reachable L ht
  have hp : Progress s sqDistF F goal (s.maxConnectionDistance - M / 2 ^ 45) := by
    intro a q ha hq hn
    rw [hst]
    exact progressF hd (hM a ha) (hM q hq) hg hgx hgy hn
  refine star_open_auxF s nn L F goal init _ hp (fun a x ha hv => ?_) (fun a ha => ?_) hgoal m hm1 hm2 _ hdraws m 0 _
    (by omega) ?_ ?_ ?_
  · rw [hst, steerTowards_r2F] at hv ⊢
    exact hF a x ha hv
  · rw [hst, steerTowards_r2F]
    exact hvis a ha
  · dsimp only
    rw [(rinv_start I (fun _ _ => True) init).2.1]
  · have := oinv_start I F init goal hi
    simpa [goalDraws, Pt.norm] using this
  · simpa [goalDraws] using hpos

/-! ## A connection distance that is lost in rounding -/

private theorem int64 {n : ℤ} (hn : |n| ≤ 2 ^ 53) : fl64 (n : ℝ) = n := fl_int (p := 53) (by norm_num) hn

private theorem stuck_norm : euclideanF ⟨2 ^ 53 + 4, 0⟩ ⟨2 ^ 53, 0⟩ = 4 := by
  unfold euclideanF
  dsimp only
  have h4 : fl64 4 = 4 := by have := int64 (n := 4) (by norm_num); push_cast at this; exact this
  have h16 : fl64 16 = 16 := by have := int64 (n := 16) (by norm_num); push_cast at this; exact this
  have h0 : fl64 0 = 0 := fl_zero 53
  rw [show (2 ^ 53 + 4 - 2 ^ 53 : ℝ) = 4 by ring, h4, sub_self, h0, mul_zero, h0, add_zero,
    show (4 * 4 : ℝ) = 16 by norm_num, h16, h16, show (16 : ℝ) = 4 ^ 2 by norm_num, Real.sqrt_sq (by norm_num), h4]

private theorem stuck_steer : (r2SteeringF.steerTowards ⟨2 ^ 53, 0⟩ ⟨2 ^ 53 + 4, 0⟩ (1 / 8)).final = ⟨2 ^ 53, 0⟩ := by
  rw [steerTowards_r2F]
  unfold PathR2.steerTowardsF
  have hl : (PathR2.connectF ⟨2 ^ 53, 0⟩ ⟨2 ^ 53 + 4, 0⟩).length = 4 := stuck_norm
  dsimp only
  have h0 : fl64 0 = 0 := fl_zero 53
  have hr : fl64 (1 / 8 / 4) = 1 / 32 := by
    rw [show (1 / 8 / 4 : ℝ) = 1 / 32 by norm_num]
    exact fl_repr (p := 53) (by norm_num) (n := 1) (e := -5) (by norm_num) (by norm_num)
  have hc : clampK (1 / 32 : ℝ) 0 1 = 1 / 32 := by
    unfold clampK
    rw [if_neg (by norm_num), if_neg (by norm_num)]
  rw [hl, if_pos (by norm_num), hr, hc]
  show (⟨fl64 (fl64 (fl64 (1 - 1 / 32) * 2 ^ 53) + fl64 (1 / 32 * (2 ^ 53 + 4))),
    fl64 (fl64 (fl64 (1 - 1 / 32) * 0) + fl64 (1 / 32 * 0))⟩ : Pt) = _
  have h1 : fl64 (1 - 1 / 32) = 31 / 32 :=
    (congrArg fl64 (by norm_num)).trans
      (fl_repr (p := 53) (x := 31 / 32) (by norm_num) (n := 31) (e := -5) (by norm_num) (by norm_num))
  have h2 : fl64 (31 / 32 * 2 ^ 53) = 31 * 2 ^ 48 :=
    (congrArg fl64 (by norm_num)).trans
      (fl_repr (p := 53) (x := 31 * 2 ^ 48) (by norm_num) (n := 31) (e := 48) (by norm_num) (by norm_num))
  have h3 : fl64 (1 / 32 * (2 ^ 53 + 4)) = 2 ^ 48 + 1 / 8 :=
    (congrArg fl64 (by norm_num)).trans
      (fl_repr (p := 53) (x := 2 ^ 48 + 1 / 8) (by norm_num) (n := 2 ^ 51 + 1) (e := -3) (by norm_num) (by norm_num))
  have h4 : fl64 (31 * 2 ^ 48 + (2 ^ 48 + 1 / 8)) = 2 ^ 53 := by
    have := fl_eq (p := 53) (x := 31 * 2 ^ 48 + (2 ^ 48 + 1 / 8)) (n := 2 ^ 52) (e := 1) (by norm_num [abs_of_pos])
      (by norm_num [abs_of_pos]) (by norm_num [abs_of_pos])
    exact this.trans (by norm_num)
  rw [h1, h2, h3, h4, mul_zero, mul_zero, h0, add_zero, h0]

/-- The planner of `C138_stuck`: connection distance 1/8, only the goal is drawn, no motion is rejected. -/
noncomputable def stuckSetup (knn : KNN Pt) (isSolution : Pt → Bool) (maxIteration maxNumberTreeNode : Nat) :
    RRTSetup Pt PathR2 ℝ where
  steering := r2SteeringF
  valid _ := true
  knn := knn
  isSolution := isSolution
  sample _ := ⟨2 ^ 53 + 4, 0⟩
  maxIteration := maxIteration
  maxNumberTreeNode := maxNumberTreeNode
  maxConnectionDistance := 1 / 8

private theorem stuck_loop [DecidableEq Pt] {D : Type} [LE D] {dist : Pt → Pt → D} (knn : KNN Pt) (L : NearestLaws knn dist)
    (isSolution : Pt → Bool) (hs : isSolution ⟨2 ^ 53, 0⟩ = false) (maxIteration maxNumberTreeNode : Nat) (t : Tree Pt)
    (R : RInv (fun _ _ => False) ⟨2 ^ 53, 0⟩ t) :
    ∀ k count, count + k = maxIteration + 1 →
      ∃ r, rrtLoop (stuckSetup knn isSolution maxIteration maxNumberTreeNode) count t = some r ∧ r.success = false := by
  obtain ⟨r, hr, hri⟩ := R.root
  have hra := ((R.inv.root_iff r).mp hr).1
  have hst : ∀ x, t.heap.alive x → t.state x = ⟨2 ^ 53, 0⟩ := by
    intro x hx
    cases hp : t.heap.parent x with
    | some p => exact (R.edge x p hx hp).elim
    | none =>
      have := (R.inv.root_iff x).mpr ⟨hx, hp⟩
      rw [hr] at this; cases this
      exact hri
  intro k
  induction k with
  | zero =>
    intro count hc
    rw [rrtLoop, if_pos (show count > (stuckSetup knn isSolution maxIteration maxNumberTreeNode).maxIteration by
      show count > maxIteration; omega)]
    exact ⟨_, rfl, rfl⟩
  | succ k ih =>
    intro count hc
    rw [rrtLoop]
    split
    · exact ⟨_, rfl, rfl⟩
    · split
      · exact ⟨_, rfl, rfl⟩
      · obtain ⟨n, hn⟩ := (nearestNode_spec L R.inv ⟨2 ^ 53 + 4, 0⟩).1 (by rw [hr]; simp)
        obtain ⟨ha, -, -⟩ := (nearestNode_spec L R.inv ⟨2 ^ 53 + 4, 0⟩).2 n hn
        have hn' : t.getNearestNode (stuckSetup knn isSolution maxIteration maxNumberTreeNode).knn
            ((stuckSetup knn isSolution maxIteration maxNumberTreeNode).sample count) = some n := hn
        rw [hn']
        dsimp only
        simp only [hst n ha, show ∀ p, (stuckSetup knn isSolution maxIteration maxNumberTreeNode).valid p = true from
          fun _ => rfl, Bool.not_true, Bool.false_eq_true, if_false]
        have hv : (stuckSetup knn isSolution maxIteration maxNumberTreeNode).steering.final
            ((stuckSetup knn isSolution maxIteration maxNumberTreeNode).steering.steerTowards ⟨2 ^ 53, 0⟩
              ((stuckSetup knn isSolution maxIteration maxNumberTreeNode).sample count)
              (stuckSetup knn isSolution maxIteration maxNumberTreeNode).maxConnectionDistance) = ⟨2 ^ 53, 0⟩ := stuck_steer
        have hf : t.find ⟨2 ^ 53, 0⟩ = some r := R.inv.find_some.mpr ⟨hra, hri⟩
        rw [hv, Tree.extend, hf]
        dsimp only
        rw [show (stuckSetup knn isSolution maxIteration maxNumberTreeNode).isSolution ⟨2 ^ 53, 0⟩ = false from hs,
          if_neg (by simp)]
        exact ih (count + 1) (by omega)

/-- C138: the connection distance must not be lost in rounding. From (2^53, 0) the goal (2^53 + 4, 0) is never reached with the
connection distance 1/8, however often it is drawn, although no motion is rejected. (With exact numbers 32 motions suffice:
`C105_rrt`.) -/
theorem C138_stuck [DecidableEq Pt] [Inhabited Pt] {D : Type} [LE D] {dist : Pt → Pt → D} (knn : KNN Pt)
    (L : NearestLaws knn dist) (isSolution : Pt → Bool) (hs : isSolution ⟨2 ^ 53, 0⟩ = false)
    (maxIteration maxNumberTreeNode : Nat) (t : Tree Pt) (ht : TreeReachable knn t) :
    ∃ r, rrtSearchPath (stuckSetup knn isSolution maxIteration maxNumberTreeNode) t ⟨2 ^ 53, 0⟩ = some r ∧
      r.success = false :=
  stuck_loop knn L isSolution hs maxIteration maxNumberTreeNode _
    (rinv_start (treeInv_reachable L ht) (fun _ _ => False) ⟨2 ^ 53, 0⟩).1 (maxIteration + 1) 0 (by omega)

/-! ## Bounds that are left by rounding -/

private theorem edge_norm : euclideanF ⟨11, 3 / 4⟩ ⟨11, 0⟩ = 3 / 4 := by
  unfold euclideanF
  dsimp only
  have h1 : fl64 (3 / 4) = 3 / 4 := fl_repr (p := 53) (by norm_num) (n := 3) (e := -2) (by norm_num) (by norm_num)
  have h2 : fl64 (9 / 16) = 9 / 16 := fl_repr (p := 53) (by norm_num) (n := 9) (e := -4) (by norm_num) (by norm_num)
  have h0 : fl64 0 = 0 := fl_zero 53
  rw [sub_zero, h1, sub_self, h0, mul_zero, h0, zero_add, show (3 / 4 * (3 / 4) : ℝ) = 9 / 16 by norm_num, h2, h2,
    show (9 / 16 : ℝ) = (3 / 4) ^ 2 by norm_num, Real.sqrt_sq (by norm_num), h1]

private theorem edge_steer : (r2SteeringF.steerTowards ⟨11, 0⟩ ⟨11, 3 / 4⟩ (1 / 8)).final.x = 11 + (2 ^ 49)⁻¹ ∧
    0 ≤ (r2SteeringF.steerTowards ⟨11, 0⟩ ⟨11, 3 / 4⟩ (1 / 8)).final.y ∧
    (r2SteeringF.steerTowards ⟨11, 0⟩ ⟨11, 3 / 4⟩ (1 / 8)).final.y ≤ 3 / 4 := by
  rw [steerTowards_r2F]
  unfold PathR2.steerTowardsF
  have hl : (PathR2.connectF ⟨11, 0⟩ ⟨11, 3 / 4⟩).length = 3 / 4 := edge_norm
  dsimp only
  have h0 : fl64 0 = 0 := fl_zero 53
  have hr : fl64 (1 / 8 / (3 / 4)) = 6004799503160661 * (2 ^ 55)⁻¹ := by
    have := fl_eq (p := 53) (x := 1 / 8 / (3 / 4)) (n := 6004799503160661) (e := -55) (by norm_num [abs_of_pos])
      (by norm_num [abs_of_pos]) (by norm_num [abs_of_pos])
    exact this.trans (by norm_num)
  obtain ⟨r, hrr⟩ : ∃ r : ℝ, r = 6004799503160661 * (2 ^ 55)⁻¹ := ⟨_, rfl⟩
  have hr0 : 0 ≤ r := by rw [hrr]; norm_num
  have hr1 : r ≤ 1 := by rw [hrr]; norm_num
  rw [hl, if_pos (by norm_num), hr, ← hrr, clamp_min hr0, min_eq_left hr1]
  show fl64 (fl64 (fl64 (1 - r) * 11) + fl64 (r * 11)) = _ ∧ 0 ≤ fl64 (fl64 (fl64 (1 - r) * 0) + fl64 (r * (3 / 4))) ∧
    fl64 (fl64 (fl64 (1 - r) * 0) + fl64 (r * (3 / 4))) ≤ 3 / 4
  constructor
  · have h1 : fl64 (1 - r) = 7505999378950827 * (2 ^ 53)⁻¹ := by
      have := fl_eq (p := 53) (x := 1 - r) (n := 7505999378950827) (e := -53) (by rw [hrr]; norm_num [abs_of_pos])
        (by rw [hrr]; norm_num [abs_of_pos]) (by rw [hrr]; norm_num [abs_of_pos])
      exact this.trans (by norm_num)
    have h2 : fl64 (7505999378950827 * (2 ^ 53)⁻¹ * 11) = 5160374573028694 * (2 ^ 49)⁻¹ := by
      have := fl_eq (p := 53) (x := 7505999378950827 * (2 ^ 53)⁻¹ * 11) (n := 5160374573028694) (e := -49)
        (by norm_num [abs_of_pos]) (by norm_num [abs_of_pos]) (by norm_num [abs_of_neg])
      exact this.trans (by norm_num)
    have h3 : fl64 (r * 11) = 8256599316845909 * (2 ^ 52)⁻¹ := by
      have := fl_eq (p := 53) (x := r * 11) (n := 8256599316845909) (e := -52) (by rw [hrr]; norm_num [abs_of_pos])
        (by rw [hrr]; norm_num [abs_of_pos]) (by rw [hrr]; norm_num [abs_of_neg])
      exact this.trans (by norm_num)
    have h4 : fl64 (5160374573028694 * (2 ^ 49)⁻¹ + 8256599316845909 * (2 ^ 52)⁻¹) = 6192449487634433 * (2 ^ 49)⁻¹ := by
      have := fl_eq (p := 53) (x := 5160374573028694 * (2 ^ 49)⁻¹ + 8256599316845909 * (2 ^ 52)⁻¹) (n := 6192449487634433)
        (e := -49) (by norm_num [abs_of_pos]) (by norm_num [abs_of_pos]) (by norm_num [abs_of_neg])
      exact this.trans (by norm_num)
    rw [h1, h2, h3, h4]
    norm_num
  · rw [mul_zero, h0, zero_add]
    have hle : fl64 (r * (3 / 4)) ≤ 3 / 4 := by
      have h1 : fl64 (3 / 4) = 3 / 4 := fl_repr (p := 53) (by norm_num) (n := 3) (e := -2) (by norm_num) (by norm_num)
      refine (fl_mono 53 (by norm_num) (show r * (3 / 4) ≤ 3 / 4 by linarith)).trans h1.le
    rw [show fl64 (fl64 (r * (3 / 4))) = fl64 (r * (3 / 4)) from fl_fl 53 (by norm_num) _]
    exact ⟨fl_nonneg 53 (by positivity), hle⟩

/-- The planner of `C138_leaves_bounds`: the free validator, connection distance 1/8, and the test `IsSolution` of RRT
(rrt.h:125-128) for the goal (11, 3/4), which is the only point drawn. -/
noncomputable def edgeSetup (knn : KNN Pt) : RRTSetup Pt PathR2 ℝ where
  steering := r2SteeringF
  valid p := (freeIsPathValid p).1
  knn := knn
  isSolution v := open Classical in decide (euclideanF v ⟨11, 3 / 4⟩ < 1)
  sample _ := ⟨11, 3 / 4⟩
  maxIteration := 100
  maxNumberTreeNode := 10000
  maxConnectionDistance := 1 / 8

/-- C138: rounding takes a path out of the bounds of the state space. Start (11, 0) and goal (11, 3/4) lie on the boundary of
[0, 11] × [0, 1]; the path that RRT returns for them with the free validator ends in a point that this validator rejects. -/
theorem C138_leaves_bounds [DecidableEq Pt] [Inhabited Pt] {D : Type} [LE D] {dist : Pt → Pt → D} (knn : KNN Pt)
    (L : NearestLaws knn dist) :
    ∃ (space : SpaceR2) (r : RRTResult Pt) (path : List Pt) (p : Pt), space.Ordered ∧
      freeIsStateValid space.validateBounds ⟨11, 0⟩ = true ∧ freeIsStateValid space.validateBounds ⟨11, 3 / 4⟩ = true ∧
      rrtSearchPath (edgeSetup knn) Tree.new ⟨11, 0⟩ = some r ∧ r.success = true ∧
      treeGetPath r.tree r.solution = some path ∧ p ∈ path ∧ freeIsStateValid space.validateBounds p = false := by
  have I := treeInv_reachable L (t := Tree.new) .start
  obtain ⟨R, hsz, -⟩ := rinv_start I (fun _ _ => True) ⟨11, 0⟩
  obtain ⟨R', -⟩ := rinv_start I (fun _ _ => False) ⟨11, 0⟩
  obtain ⟨t, ht⟩ : ∃ t, t = ((Tree.new : Tree Pt).clear.createRootNode ⟨11, 0⟩).1 := ⟨_, rfl⟩
  rw [← ht] at R R' hsz
  obtain ⟨r, hr, hri⟩ := R.root
  have hst : ∀ x, t.heap.alive x → t.state x = ⟨11, 0⟩ := by
    intro x hx
    cases hp : t.heap.parent x with
    | some p => exact (R'.edge x p hx hp).elim
    | none =>
      have := (R.inv.root_iff x).mpr ⟨hx, hp⟩
      rw [hr] at this; cases this
      exact hri
  obtain ⟨n, hn⟩ := (nearestNode_spec L R.inv ⟨11, 3 / 4⟩).1 (by rw [hr]; simp)
  obtain ⟨ha, -, -⟩ := (nearestNode_spec L R.inv ⟨11, 3 / 4⟩).2 n hn
  obtain ⟨v, hv⟩ : ∃ v, v = (r2SteeringF.steerTowards ⟨11, 0⟩ ⟨11, 3 / 4⟩ (1 / 8)).final := ⟨_, rfl⟩
  obtain ⟨hx, hy0, hy1⟩ := edge_steer
  rw [← hv] at hx hy0 hy1
  obtain ⟨t', n', he, R'', ha', hs', -⟩ := rinv_extend L R (v := v) (src := some n) (fun x hx => by cases hx; exact ha)
    (fun _ _ _ _ => trivial)
  have hsol : (edgeSetup knn).isSolution v = true := by
    refine @decide_eq_true _ (Classical.propDecidable _) ?_
    have h1 := (euclid_rel v ⟨11, 3 / 4⟩).2
    have h2 : (v - ⟨11, 3 / 4⟩).norm ≤ 7 / 8 := by
      refine Real.sqrt_le_iff.2 ⟨by norm_num, ?_⟩
      show (v.x - 11) ^ 2 + (v.y - 3 / 4) ^ 2 ≤ _
      rw [hx]
      have : (v.y - 3 / 4) ^ 2 ≤ (3 / 4) ^ 2 := sq_le_sq' (by linarith) (by linarith)
      refine le_trans (add_le_add le_rfl this) (by norm_num)
    refine lt_of_le_of_lt (h1.trans (mul_le_mul_of_nonneg_left h2 (by norm_num))) (by norm_num)
  have hrun : rrtSearchPath (edgeSetup knn) Tree.new ⟨11, 0⟩ = some ⟨true, t', some n', 1⟩ := by
    show rrtLoop (edgeSetup knn) 0 ((Tree.new : Tree Pt).clear.createRootNode ⟨11, 0⟩).1 = _
    rw [← ht, rrtLoop, if_neg (by simp), if_neg (by rw [hsz]; show ¬ (1 : Nat) > 10000; omega)]
    have hn' : t.getNearestNode (edgeSetup knn).knn ((edgeSetup knn).sample 0) = some n := hn
    rw [hn']
    dsimp only
    simp only [hst n ha, show ∀ p, (edgeSetup knn).valid p = true from fun _ => rfl, Bool.not_true, Bool.false_eq_true,
      if_false]
    have hv' : (edgeSetup knn).steering.final ((edgeSetup knn).steering.steerTowards ⟨11, 0⟩ ((edgeSetup knn).sample 0)
        (edgeSetup knn).maxConnectionDistance) = v := hv.symm
    have he' : t.extend (edgeSetup knn).knn v (some n) = (t', some n') := he
    rw [hv', he']
    dsimp only
    rw [if_pos hsol]
  obtain ⟨path, hp1, -, hp2, -⟩ := getPath_spec R'' ha'
  refine ⟨⟨⟨0, 0⟩, ⟨11, 1⟩⟩, _, path, v, ?_, ?_, ?_, hrun, rfl, hp1, ?_, ?_⟩
  · constructor <;> norm_num
  · rw [C106_state_valid_iff]; norm_num
  · rw [C106_state_valid_iff]; norm_num
  · rw [hs'] at hp2
    exact List.mem_of_getLast? hp2
  · rw [← Bool.not_eq_true, C106_state_valid_iff]
    rintro ⟨⟨-, h⟩, -⟩
    rw [hx] at h
    norm_num at h

/-! ## Example -/

/-- Nearest neighbours as the k-d tree finds them. -/
noncomputable def r2KNNF : KNN Pt where
  nearest pts v := pts.argmin fun p => sqDistF v p
  knn pts v _ := (pts.argmin fun p => sqDistF v p).toList

theorem r2KNNF_laws : NearestLaws r2KNNF sqDistF where
  some_of_ne pts v h := by
    apply Option.ne_none_iff_exists'.mp
    show List.argmin _ _ ≠ none
    rw [Ne, List.argmin_eq_none]; exact h
  mem pts v p h := List.argmin_mem h
  min pts v p h q hq := List.le_of_mem_argmin hq h
  knn_mem pts v k p h := List.argmin_mem (Option.mem_toList.mp h)

/-- Motions must stay within 10 of the origin; only the goal (4, 3) is drawn. -/
noncomputable def exOpen : RRTSetup Pt PathR2 ℝ where
  steering := r2SteeringF
  valid p := open Classical in decide (|p.final.x| ≤ 10 ∧ |p.final.y| ≤ 10)
  knn := r2KNNF
  isSolution v := open Classical in decide (v = ⟨4, 3⟩)
  sample _ := ⟨4, 3⟩
  maxIteration := 20
  maxNumberTreeNode := 20
  maxConnectionDistance := 1

private theorem exOpen_sees (a : Pt) (ha : |a.x| ≤ 10 ∧ |a.y| ≤ 10) :
    exOpen.valid (PathR2.steerTowardsF a ⟨4, 3⟩ exOpen.maxConnectionDistance) = true := by
  refine decide_eq_true ?_
  show |(PathR2.steerTowardsF a ⟨4, 3⟩ 1).final.x| ≤ 10 ∧ |(PathR2.steerTowardsF a ⟨4, 3⟩ 1).final.y| ≤ 10
  have h4 : |(4 : ℝ)| ≤ 10 := by norm_num
  have h3 : |(3 : ℝ)| ≤ 10 := by norm_num
  rcases steer_ratioF a ⟨4, 3⟩ 1 (by norm_num) with ⟨-, e⟩ | ⟨hN, ρ, h0, h1, hr, e, -⟩
  · rw [e]; exact ⟨h4, h3⟩
  · rw [e]
    have hN' : ((⟨4, 3⟩ : Pt) - a).norm ≤ 3 * 10 := norm_diff_le ha.1 ha.2 h4 h3
    have hρ : 1 / 31 ≤ ρ := by
      have : 1 / 30 ≤ min (1 / ((⟨4, 3⟩ : Pt) - a).norm) 1 := by
        refine le_min ?_ (by norm_num)
        rw [div_le_div_iff₀ (by norm_num) hN]
        linarith
      have h := mul_le_mul_of_nonneg_left this (show (0 : ℝ) ≤ 1 - (2 ^ 49)⁻¹ by norm_num)
      exact le_trans (by norm_num) (h.trans hr.1)
    have key : ∀ x y : ℝ, |x| ≤ 10 → |y| ≤ 4 → |fl64 (fl64 (fl64 (1 - ρ) * x) + fl64 (ρ * y))| ≤ 10 := by
      intro x y hx hy
      have h := lerpF_err hx (hy.trans (by norm_num)) h0 h1
      have h2 : |(1 - ρ) * x + ρ * y| ≤ (1 - ρ) * 10 + ρ * 4 := by
        refine (abs_add_le _ _).trans ?_
        rw [abs_mul, abs_mul, abs_of_nonneg h0, abs_of_nonneg (show 0 ≤ 1 - ρ by linarith)]
        exact add_le_add (mul_le_mul_of_nonneg_left hx (by linarith)) (mul_le_mul_of_nonneg_left hy h0)
      have h5 := abs_sub_abs_le_abs_sub (fl64 (fl64 (fl64 (1 - ρ) * x) + fl64 (ρ * y))) ((1 - ρ) * x + ρ * y)
      have : (10 : ℝ) / 2 ^ 51 ≤ 1 / 100 := by norm_num
      linarith
    exact ⟨key _ 4 ha.1 (by norm_num), key _ 3 ha.2 (by norm_num)⟩

private theorem exOpen_draws [DecidableEq Pt] : goalDraws exOpen.sample ⟨4, 3⟩ 6 = 6 := by
  unfold goalDraws
  rw [List.countP_eq_length.mpr, List.length_range]
  intro i _
  exact decide_eq_true rfl

private theorem exOpen_dist [DecidableEq Pt] : √(((4 : ℝ) - 0) ^ 2 + (3 - 0) ^ 2) ≤
    goalDraws exOpen.sample ⟨4, 3⟩ 6 * (exOpen.maxConnectionDistance - 10 / 2 ^ 45) := by
  rw [exOpen_draws, show exOpen.maxConnectionDistance = 1 from rfl]
  refine (Real.sqrt_le_sqrt (show ((4 : ℝ) - 0) ^ 2 + (3 - 0) ^ 2 ≤ 5 ^ 2 by norm_num)).trans ?_
  rw [Real.sqrt_sq (by norm_num)]
  norm_num

/-- RRT finds the goal in six iterations. -/
theorem exOpen_rrt [DecidableEq Pt] [Inhabited Pt] :
    ∃ r, rrtSearchPath exOpen Tree.new ⟨0, 0⟩ = some r ∧ r.success = true ∧ r.samples ≤ 6 :=
  C138_rrt exOpen rfl (by norm_num [exOpen]) r2KNNF_laws Tree.new .start (fun p => |p.x| ≤ 10 ∧ |p.y| ≤ 10) ⟨0, 0⟩ ⟨4, 3⟩
    (by norm_num) 10 (fun _ h => h) (by norm_num)
    (by have := int64 (n := 4) (by norm_num); push_cast at this; exact this)
    (by have := int64 (n := 3) (by norm_num); push_cast at this; exact this)
    (fun _ _ _ h => of_decide_eq_true h) exOpen_sees
    (@decide_eq_true _ (Classical.propDecidable _) rfl) 6 (by decide) (by decide) (by rw [exOpen_draws]; norm_num) exOpen_dist

/-- So does RRT*, whose test is equality with the goal. -/
theorem exOpen_rrtStar [DecidableEq Pt] [Inhabited Pt] :
    ∃ r, rrtStarSearchPathF exOpen (fun _ => 1) Tree.new ⟨0, 0⟩ = some r ∧ r.success = true ∧ r.samples ≤ 6 :=
  C138_rrtStar exOpen rfl (by norm_num [exOpen]) r2KNNF_laws _ Tree.new .start (fun p => |p.x| ≤ 10 ∧ |p.y| ≤ 10) ⟨0, 0⟩ ⟨4, 3⟩
    (by norm_num) 10 (fun _ h => h) (by norm_num)
    (by have := int64 (n := 4) (by norm_num); push_cast at this; exact this)
    (by have := int64 (n := 3) (by norm_num); push_cast at this; exact this)
    (fun _ _ _ h => of_decide_eq_true h) exOpen_sees
    (@decide_eq_true _ (Classical.propDecidable _) rfl) 6 (by decide) (by decide) (by rw [exOpen_draws]; norm_num) exOpen_dist

/-- The hypotheses of `C138_stuck` are met. -/
example [DecidableEq Pt] [Inhabited Pt] : ∃ r,
    rrtSearchPath (stuckSetup r2KNNF (open Classical in fun v => decide (euclideanF v ⟨2 ^ 53 + 4, 0⟩ < 1)) 1000 1000)
      Tree.new ⟨2 ^ 53, 0⟩ = some r ∧ r.success = false := by
  refine C138_stuck r2KNNF r2KNNF_laws _ ?_ 1000 1000 Tree.new .start
  refine @decide_eq_false _ (Classical.propDecidable _) ?_
  have h := (euclid_rel ⟨2 ^ 53, 0⟩ ⟨2 ^ 53 + 4, 0⟩).1
  have e : ((⟨2 ^ 53, 0⟩ : Pt) - ⟨2 ^ 53 + 4, 0⟩).norm = 4 := by
    show √(((2 : ℝ) ^ 53 - (2 ^ 53 + 4)) ^ 2 + (0 - 0) ^ 2) = 4
    rw [show ((2 : ℝ) ^ 53 - (2 ^ 53 + 4)) ^ 2 + (0 - 0) ^ 2 = 4 ^ 2 by ring, Real.sqrt_sq (by norm_num)]
  rw [e] at h
  exact not_lt.2 (le_trans (by norm_num) h)

/-- A motion of length 1 from the origin towards (4, 3). -/
example : |(r2SteeringF.steerTowards ⟨0, 0⟩ ⟨4, 3⟩ 1).final.x - (r2Steering.steerTowards ⟨0, 0⟩ ⟨4, 3⟩ 1).final.x| ≤
    4 / 2 ^ 47 :=
  (C138_steering ⟨0, 0⟩ ⟨4, 3⟩ 1 4 (by norm_num) (by norm_num) (by norm_num) (by norm_num) (by norm_num)).1

end PathPlanning
