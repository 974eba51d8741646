import Verif.Props.ValidatorMore
import Verif.Props.ReedsShepp
import Verif.Props.Path

/-!
# C70: which paths do not move faster than their length
-/

namespace PathPlanning
open Real Spec Validator

theorem euclid_swap (p q : Pt) : euclid p q = √((q.x - p.x) ^ 2 + (q.y - p.y) ^ 2) := by
  unfold euclid
  congr 1; ring

theorem euclid_tri (p q r : Pt) : euclid p r ≤ euclid p q + euclid q r := by
  rw [euclid_swap, euclid_swap, euclid_swap]
  exact norm_triangle p q r

/-! ## Constant steering -/

theorem constantSteer_chord (m : Bicycle) (p : PoseR) (s d : ℝ) (dir : Direction) :
    euclid p.position (m.constantSteer p s d dir).position ≤ |d| / cos (m.beta s) := by
  have hc := cos_beta_pos m s
  obtain ⟨e, he⟩ : ∃ e, e = (if dir = .backward then -d else d) / cos (m.beta s) := ⟨_, rfl⟩
  have hea : |e| = |d| / cos (m.beta s) := by
    rw [he, abs_div, abs_of_pos hc]
    split
    · rw [abs_neg]
    · rfl
  rw [euclid_swap, ← hea, ← sqrt_sq_eq_abs]
  refine sqrt_le_sqrt ?_
  unfold Bicycle.constantSteer
  dsimp only
  rw [← he]
  split
  · rename_i h
    have hk : m.dThetaDdist s ≠ 0 := by
      intro h0; rw [h0, abs_zero] at h; norm_num at h
    have := arc_chord (m.dThetaDdist s) e ⟨p.position, m.beta s + p.theta⟩
    rw [← sqrt_sq_eq_abs, sqrt_le_sqrt_iff (sq_nonneg _)] at this
    unfold arc at this
    rw [if_neg hk] at this
    dsimp only at this ⊢
    refine le_trans (le_of_eq ?_) this
    rw [show m.beta s + (p.theta + e * m.dThetaDdist s) = m.beta s + p.theta + m.dThetaDdist s * e by ring]
    field_simp
    ring
  · dsimp only
    have := sin_sq_add_cos_sq p.theta
    nlinarith [this]

/-- C70: a path of constant steering of the rear axle does not move faster than its length. -/
theorem C70_unit_speed_constant_steer (wheelbase : ℝ) (init : PoseR) (steering length : ℝ) (hl : 0 ≤ length)
    (direction : Direction) :
    let q := PathSteer.new ⟨wheelbase, 0⟩ init steering length direction
    UnitSpeed ⟨q.init, q.length, q.interpolate⟩ := by
  intro q a b h0 h1 h2
  obtain ⟨m, hm⟩ : ∃ m : Bicycle, m = ⟨wheelbase, 0⟩ := ⟨_, rfl⟩
  have hb : m.beta steering = 0 := by rw [hm]; simp [Bicycle.beta]
  have e : ∀ r, q.interpolate r = m.constantSteer init steering (length * r) direction := by
    intro r; rw [hm]; rfl
  show euclid (q.interpolate a).position (q.interpolate b).position ≤ (b - a) * length
  rw [e, e, show length * b = length * a + length * (b - a) by ring, ← C52_flow]
  refine (constantSteer_chord _ _ _ _ _).trans ?_
  rw [hb, cos_zero, div_one, abs_of_nonneg (mul_nonneg hl (by linarith)), mul_comm]

/-! ## Reeds-Shepp paths -/

theorem arc_add (k s t : ℝ) (p : PoseR) : arc k t (arc k s p) = arc k (s + t) p := by
  unfold arc
  by_cases hk : k = 0
  · simp only [if_pos hk]
    congr 2 <;> ring
  · simp only [if_neg hk]
    rw [show p.theta + k * s + k * t = p.theta + k * (s + t) by ring]
    congr 2 <;> ring

theorem driveDist_speed {l : List Stretch} (h : ∀ a ∈ l, 0 ≤ a.length ∧ (a.sense = 1 ∨ a.sense = -1))
    (p : PoseR) {d e : ℝ} (h0 : 0 ≤ d) (h1 : d ≤ e) :
    euclid (driveDist p d l).position (driveDist p e l).position ≤ e - d := by
  induction l generalizing p d e with
  | nil =>
    simp only [driveDist]
    unfold euclid
    simp
    exact h1
  | cons a l ih =>
    have hl : ∀ b ∈ l, 0 ≤ b.length ∧ (b.sense = 1 ∨ b.sense = -1) := fun b hb => h b (List.mem_cons_of_mem _ hb)
    obtain ⟨ha, hs⟩ := h a (by simp)
    have seg : ∀ d e, d ≤ e → euclid (arc a.curvature (a.sense * d) p).position
        (arc a.curvature (a.sense * e) p).position ≤ e - d := by
      intro d e hde
      rw [show a.sense * e = a.sense * d + a.sense * (e - d) by ring, ← arc_add, euclid_swap]
      refine (arc_chord _ _ _).trans (le_of_eq ?_)
      rcases hs with hs | hs <;> simp only [hs, one_mul, neg_one_mul, abs_neg] <;>
        rw [abs_of_nonneg (by linarith)]
    simp only [driveDist]
    by_cases he : e ≤ a.length
    · rw [if_pos he, if_pos (h1.trans he)]
      exact seg d e h1
    · rw [if_neg he]
      push Not at he
      by_cases hd : d ≤ a.length
      · rw [if_pos hd]
        have t1 := euclid_tri (arc a.curvature (a.sense * d) p).position
          (arc a.curvature (a.sense * a.length) p).position
          (driveDist (arc a.curvature (a.sense * a.length) p) (e - a.length) l).position
        have t2 := seg d a.length hd
        have t3 := ih hl (arc a.curvature (a.sense * a.length) p) le_rfl (sub_nonneg.mpr he.le)
        rw [driveDist_zero (fun b hb => (hl b hb).1)] at t3
        linarith
      · rw [if_neg hd]
        push Not at hd
        have := ih hl (arc a.curvature (a.sense * a.length) p) (d := d - a.length) (e := e - a.length)
          (by linarith) (by linarith)
        linarith

/-- C70: a Reeds-Shepp path does not move faster than its length. -/
theorem C70_unit_speed_reeds_shepp (init : PoseR) (s : RS.Segment) (hs : WellFormed s) (R : ℝ) (hR : 0 < R) :
    let q := PathRS.new init s R
    UnitSpeed ⟨q.init, q.length, q.interpolate⟩ := by
  intro q a b h0 h1 h2
  obtain ⟨-, hlen, -, -, -, hint⟩ := C45_reeds_shepp init s hs R hR
  have hn := stretches_length_nonneg hs hR.le
  have hl : 0 ≤ q.length := by
    show 0 ≤ (PathRS.new init s R).length
    rw [hlen]; exact totalLength_nonneg hn
  show euclid (q.interpolate a).position (q.interpolate b).position ≤ (b - a) * q.length
  rw [(hint a h0).1, (hint b (h0.trans h1)).1, sub_mul]
  exact driveDist_speed (fun x hx => ⟨hn x hx, stretches_sense R _ x hx⟩) init (mul_nonneg h0 hl)
    (mul_le_mul_of_nonneg_right h1 hl)

/-- C70: the Reeds-Shepp path that connects two poses does not move faster than its length. -/
theorem C70_unit_speed_connect (start goal : PoseR) (R rev fwd sw : ℝ) (hR : 0 < R) :
    let q := PathRS.connect start goal R rev fwd sw
    UnitSpeed ⟨q.init, q.length, q.interpolate⟩ := by
  obtain ⟨w, hw, t, u, v, len, c, hm, hp, -, -⟩ := C50_optimal start goal R rev fwd sw
  obtain ⟨hb, ht, hu, hv, _, _⟩ := word_ends hR hm
  unfold PathRS.connect
  rw [hp]
  exact C70_unit_speed_reeds_shepp start _ (getPath_wellFormed hb ht hu hv) R hR

/-- C70: a straight path does not move faster than its length. -/
theorem C70_unit_speed_straight (start goal : PoseR) :
    UnitSpeed (PathSE2.connect start goal).toAny := by
  intro a b h0 h1 h2
  show euclid (Pt.lerp start.position goal.position a) (Pt.lerp start.position goal.position b) ≤
    (b - a) * (goal.position - start.position).norm
  unfold Pt.norm euclid
  rw [show (Pt.lerp start.position goal.position a).x - (Pt.lerp start.position goal.position b).x =
      (b - a) * -(goal.position - start.position).x by simp [Pt.lerp]; ring,
    show (Pt.lerp start.position goal.position a).y - (Pt.lerp start.position goal.position b).y =
      (b - a) * -(goal.position - start.position).y by simp [Pt.lerp]; ring,
    mul_pow, mul_pow, ← mul_add, neg_sq, neg_sq, sqrt_mul (sq_nonneg _), sqrt_sq (by linarith)]

end PathPlanning
