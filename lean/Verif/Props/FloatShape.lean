import Verif.Props.FloatObstacle
import Verif.Props.ShapeGeom

/-!
# C147: the corners of the shapes with the arithmetic of the program
-/

namespace PathPlanning
open Flt Spec

private theorem h53 : 1 ≤ 53 := by norm_num

/-- C147: halving a double is exact: the corners of a rectangle are those of the exact computation. -/
theorem C147_rectangle (dx dy : ℝ) (hx : IsFlt 53 dx) (hy : IsFlt 53 dy) : Shape.rectangleF dx dy = Shape.rectangle dx dy := by
  have half : ∀ x : ℝ, IsFlt 53 x → fl64 (x / 2) = x / 2 := by
    intro x hx
    obtain ⟨n, h1, h2⟩ := fl_form 53 h53 x
    rw [hx] at h1
    refine fl_repr (n := n) (e := lastBit 53 x - 1) h53 ?_ h2
    rw [zpow_sub₀ (by norm_num), zpow_one, ← mul_div_assoc, ← h1]
  unfold Shape.rectangleF Shape.rectangle
  rw [half dx hx, half dy hy]

/-- `sin` and `cos` of an angle that is known up to a few roundings. -/
private theorem trig_near {lm : Libm} (hlm : lm.Accurate) {t t' : ℝ} (ht : IsFlt 53 t') {k : ℝ} (h : |t' - t| ≤ k * (2 ^ 53)⁻¹) :
    |lm.cos t' - Real.cos t| ≤ (k + 2) * (2 ^ 53)⁻¹ ∧ |lm.sin t' - Real.sin t| ≤ (k + 2) * (2 ^ 53)⁻¹ := by
  obtain ⟨h1, h2⟩ := hlm t' ht
  have s1 := Real.abs_sin_le_one t'
  have c1 := Real.abs_cos_le_one t'
  have lip : |Real.cos t' - Real.cos t| ≤ |t' - t| ∧ |Real.sin t' - Real.sin t| ≤ |t' - t| :=
    ⟨Real.abs_cos_sub_cos_le t' t, Real.abs_sin_sub_sin_le t' t⟩
  have e1 : (2 ^ 52 : ℝ)⁻¹ * |Real.sin t'| ≤ 2 * (2 ^ 53)⁻¹ := by norm_num at *; linarith
  have e2 : (2 ^ 52 : ℝ)⁻¹ * |Real.cos t'| ≤ 2 * (2 ^ 53)⁻¹ := by norm_num at *; linarith
  constructor
  · have := abs_sub_le (lm.cos t') (Real.cos t') (Real.cos t)
    linarith [lip.1]
  · have := abs_sub_le (lm.sin t') (Real.sin t') (Real.sin t)
    linarith [lip.2]

/-- The angle of a corner. -/
private theorem angle_near {count i : Nat} (hi : i < count) (hc : count ≤ 2 ^ 24) :
    |Shape.cornerAngleF count i - 2 * Real.pi * (i : ℝ) / (count : ℝ)| ≤ 23 * (2 ^ 53)⁻¹ := by
  obtain ⟨u, hu⟩ : ∃ u : ℝ, u = (2 ^ 53)⁻¹ := ⟨_, rfl⟩
  have hu0 : 0 ≤ u := by rw [hu]; positivity
  have hu1 : u * 1000 ≤ 1 := by rw [hu]; norm_num
  have e32 : fl32 (count : ℝ) = count := by
    have := fl_int (p := 24) (by norm_num) (n := (count : ℤ)) (by
      rw [abs_of_nonneg (by positivity)]; exact_mod_cast hc)
    exact_mod_cast this
  have e2 : fl64 (2 * mPi) = 2 * mPi := isFlt_two_mul h53 (isFlt_fl 53 h53 _)
  unfold Shape.cornerAngleF
  rw [e32, e2, ← hu]
  have hpi := mPi_err_pi
  rw [← hu] at hpi
  have hn : (0 : ℝ) < count := by exact_mod_cast (Nat.zero_lt_of_lt hi)
  have hi0 : (0 : ℝ) ≤ i := Nat.cast_nonneg i
  have hin : (i : ℝ) / count ≤ 1 := by
    rw [div_le_one hn]; exact_mod_cast hi.le
  have hr0 : (0 : ℝ) ≤ (i : ℝ) / count := by positivity
  obtain ⟨p1, p2⟩ := abs_le.1 hpi
  have pi1 : Real.pi ≤ 3.15 := Real.pi_lt_d2.le
  have pi0 := Real.pi_pos
  have hm0 : 0 ≤ mPi := fl_nonneg 53 Real.pi_pos.le
  have hm7 : 2 * mPi ≤ 7 := by linarith
  obtain ⟨T, hT⟩ : ∃ T, T = fl64 (2 * mPi * (i : ℝ)) := ⟨_, rfl⟩
  rw [← hT]
  have h1 : |T - 2 * mPi * i| ≤ u * (7 * i) := by
    have := fl_rel 53 (2 * mPi * (i : ℝ))
    rw [← hu] at this
    rw [hT]
    refine this.trans (mul_le_mul_of_nonneg_left ?_ hu0)
    rw [abs_of_nonneg (by positivity)]
    exact mul_le_mul_of_nonneg_right hm7 hi0
  have h2 : |T - 2 * Real.pi * i| ≤ 15 * u * i := by
    have : |2 * mPi * i - 2 * Real.pi * i| ≤ 8 * u * i := by
      rw [show 2 * mPi * (i : ℝ) - 2 * Real.pi * i = (mPi - Real.pi) * (2 * i) by ring, abs_mul,
        abs_of_nonneg (show (0 : ℝ) ≤ 2 * i by positivity)]
      have := mul_le_mul_of_nonneg_right hpi (show (0 : ℝ) ≤ 2 * i by positivity)
      linarith
    have := abs_sub_le T (2 * mPi * i) (2 * Real.pi * i)
    linarith
  have h3 : |T / count - 2 * Real.pi * i / count| ≤ 15 * u := by
    rw [← sub_div, abs_div, abs_of_pos hn, div_le_iff₀ hn]
    refine h2.trans ?_
    have : (i : ℝ) ≤ count := by exact_mod_cast hi.le
    have := mul_le_mul_of_nonneg_left this (show 0 ≤ 15 * u by positivity)
    linarith
  have h4 : |T / count| ≤ 8 := by
    have e : |2 * Real.pi * i / count| ≤ 7 := by
      rw [abs_of_nonneg (by positivity), mul_div_assoc]
      nlinarith
    have := abs_sub_abs_le_abs_sub (T / count) (2 * Real.pi * i / count)
    linarith
  have h5 := fl_rel 53 (T / count)
  rw [← hu] at h5
  change |fl64 (T / count) - T / count| ≤ _ at h5
  have h6 := mul_le_mul_of_nonneg_left h4 hu0
  have := abs_sub_le (fl64 (T / count)) (T / count) (2 * Real.pi * i / count)
  linarith

/-- A radius times a number that is known up to a few roundings. -/
private theorem mul_near {r c c' : ℝ} {k : ℝ} (hk0 : 0 ≤ k) (hk : k ≤ 1000) (hc : |c| ≤ 1) (h : |c' - c| ≤ k * (2 ^ 53)⁻¹) :
    |fl64 (r * c') - r * c| ≤ (k + 2) * (2 ^ 53)⁻¹ * |r| := by
  obtain ⟨u, hu⟩ : ∃ u : ℝ, u = (2 ^ 53)⁻¹ := ⟨_, rfl⟩
  have hu0 : 0 ≤ u := by rw [hu]; positivity
  have hu1 : u * 1000 ≤ 1 := by rw [hu]; norm_num
  rw [← hu] at h ⊢
  have hc' : |c'| ≤ 2 := by
    have := abs_sub_abs_le_abs_sub c' c
    nlinarith
  have h1 := fl_rel 53 (r * c')
  rw [← hu, abs_mul] at h1
  change |fl64 (r * c') - r * c'| ≤ _ at h1
  have h2 : u * (|r| * |c'|) ≤ 2 * u * |r| := by
    have := mul_le_mul_of_nonneg_left hc' (mul_nonneg hu0 (abs_nonneg r))
    linarith
  have h3 : |r * c' - r * c| ≤ k * u * |r| := by
    rw [← mul_sub, abs_mul]
    have := mul_le_mul_of_nonneg_left h (abs_nonneg r)
    linarith
  have := abs_sub_le (fl64 (r * c')) (r * c') (r * c)
  linarith

private theorem polygon_near {lm : Libm} (hlm : lm.Accurate) (r : ℝ) {count i : Nat} (hi : i < count) (hc : count ≤ 2 ^ 24) :
    Within ((2 ^ 48)⁻¹ * |r|)
      ⟨fl64 (r * lm.cos (Shape.cornerAngleF count i)), fl64 (r * lm.sin (Shape.cornerAngleF count i))⟩
      ⟨r * Real.cos (2 * Real.pi * (i : ℝ) / (count : ℝ)), r * Real.sin (2 * Real.pi * (i : ℝ) / (count : ℝ))⟩ := by
  obtain ⟨h1, h2⟩ := trig_near hlm (isFlt_fl 53 h53 _) (angle_near hi hc)
  have k1 := mul_near (r := r) (by norm_num) (by norm_num) (Real.abs_cos_le_one _) h1
  have k2 := mul_near (r := r) (by norm_num) (by norm_num) (Real.abs_sin_le_one _) h2
  have hr := abs_nonneg r
  have fin : ∀ x : ℝ, x ≤ (23 + 2 + 2) * (2 ^ 53)⁻¹ * |r| → x ≤ (2 ^ 48)⁻¹ * |r| := by
    intro x hx
    norm_num at hx ⊢
    linarith
  exact ⟨fin _ k1, fin _ k2⟩

/-- C147: the corners of a regular polygon of at most 2^24 corners are those of the exact computation, up to 2^-48 of the
radius. -/
theorem C147_regular_polygon (lm : Libm) (hlm : lm.Accurate) (radius : ℝ) (count : Nat) (hc : count ≤ 2 ^ 24) :
    ∃ vs vs', Shape.regularPolygonF lm radius count = .polygon vs ∧ Shape.regularPolygon radius count = .polygon vs' ∧
      List.Forall₂ (Within ((2 ^ 48)⁻¹ * |radius|)) vs vs' := by
  refine ⟨_, _, rfl, rfl, ?_⟩
  rw [List.forall₂_map_left_iff, List.forall₂_map_right_iff]
  exact List.forall₂_same.2 fun i hi => polygon_near hlm radius (List.mem_range.1 hi) hc

/-- The radius of the polygon of a circle. -/
private theorem outer_near {lm : Libm} (hlm : lm.Accurate) (r : ℝ) {count : Nat} (hn : 3 ≤ count) :
    |fl64 (r * fl64 (1 / lm.cos (fl64 (mPi / count)))) - r * (1 / Real.cos (Real.pi / count))| ≤ 34 * (2 ^ 53)⁻¹ * |r| ∧
    |r * (1 / Real.cos (Real.pi / count))| ≤ 2 * |r| := by
  obtain ⟨u, hu⟩ : ∃ u : ℝ, u = (2 ^ 53)⁻¹ := ⟨_, rfl⟩
  have hu0 : 0 ≤ u := by rw [hu]; positivity
  have hu1 : u * 10000 ≤ 1 := by rw [hu]; norm_num
  have h3 : (3 : ℝ) ≤ count := by exact_mod_cast hn
  have hp := Real.pi_pos
  have pi1 : Real.pi ≤ 3.15 := Real.pi_lt_d2.le
  have hpi := mPi_err_pi
  rw [← hu] at hpi
  obtain ⟨p1, p2⟩ := abs_le.1 hpi
  -- the angle
  have a1 : |mPi / count - Real.pi / count| ≤ 2 * u := by
    rw [← sub_div, abs_div, abs_of_pos (by linarith : (0 : ℝ) < count), div_le_iff₀ (by linarith)]
    nlinarith
  have a2 : |mPi / count| ≤ 2 := by
    have hm0 : 0 ≤ mPi := fl_nonneg 53 Real.pi_pos.le
    rw [abs_of_nonneg (by positivity), div_le_iff₀ (by linarith)]
    nlinarith
  have a3 := fl_rel 53 (mPi / count)
  rw [← hu] at a3
  change |fl64 (mPi / count) - mPi / count| ≤ _ at a3
  have a4 : |fl64 (mPi / count) - Real.pi / count| ≤ 4 * (2 ^ 53)⁻¹ := by
    rw [← hu]
    have := abs_sub_le (fl64 (mPi / count)) (mPi / count) (Real.pi / count)
    nlinarith
  obtain ⟨c1, -⟩ := trig_near hlm (isFlt_fl 53 h53 _) a4
  change |lm.cos (fl64 (mPi / count)) - _| ≤ _ at c1
  rw [← hu] at c1 ⊢
  obtain ⟨c', hc'⟩ : ∃ c', c' = lm.cos (fl64 (mPi / count)) := ⟨_, rfl⟩
  obtain ⟨c, hc⟩ : ∃ c, c = Real.cos (Real.pi / count) := ⟨_, rfl⟩
  rw [← hc', ← hc] at c1
  rw [← hc', ← hc]
  have hc2 : 1 / 2 ≤ c := by
    rw [hc, ← Real.cos_pi_div_three]
    refine Real.cos_le_cos_of_nonneg_of_le_pi (by positivity) (by linarith) ?_
    gcongr
  obtain ⟨c2, c3⟩ := abs_le.1 c1
  have hc3 : 0.49 ≤ c' := by linarith
  -- the quotient
  have q1 : |1 / c' - 1 / c| ≤ 25 * u := by
    have e : 1 / c' - 1 / c = (c - c') / (c' * c) := by field_simp
    have hpos : 0.245 ≤ c' * c := by nlinarith
    rw [e, abs_div, abs_of_pos (by linarith : 0 < c' * c), div_le_iff₀ (by linarith), abs_sub_comm]
    nlinarith
  have q2 : |1 / c'| ≤ 3 := by
    rw [abs_of_pos (by positivity), div_le_iff₀ (by linarith)]; linarith
  have q0 : 1 / c ≤ 2 := by rw [div_le_iff₀ (by linarith)]; linarith
  have q3 := fl_rel 53 (1 / c')
  rw [← hu] at q3
  change |fl64 (1 / c') - 1 / c'| ≤ _ at q3
  have q4 : |fl64 (1 / c') - 1 / c| ≤ 28 * u := by
    have := abs_sub_le (fl64 (1 / c')) (1 / c') (1 / c)
    nlinarith
  obtain ⟨q, hq⟩ : ∃ q, q = fl64 (1 / c') := ⟨_, rfl⟩
  rw [← hq] at q4 ⊢
  have q5 : |q| ≤ 3 := by
    have := abs_sub_abs_le_abs_sub q (1 / c)
    rw [abs_of_pos (show 0 < 1 / c by positivity)] at this
    linarith
  have r1 := fl_rel 53 (r * q)
  rw [← hu, abs_mul] at r1
  change |fl64 (r * q) - r * q| ≤ _ at r1
  have hr := abs_nonneg r
  have r2 : u * (|r| * |q|) ≤ 3 * u * |r| := by
    have := mul_le_mul_of_nonneg_left q5 (mul_nonneg hu0 hr)
    linarith
  have r3 : |r * q - r * (1 / c)| ≤ 28 * u * |r| := by
    rw [← mul_sub, abs_mul]
    have := mul_le_mul_of_nonneg_left q4 hr
    linarith
  constructor
  · have := abs_sub_le (fl64 (r * q)) (r * q) (r * (1 / c))
    have := mul_nonneg hu0 hr
    linarith
  · rw [abs_mul, abs_of_pos (show 0 < 1 / c by positivity)]
    have := mul_le_mul_of_nonneg_left q0 hr
    linarith

private theorem circle_near {lm : Libm} (hlm : lm.Accurate) (r : ℝ) {count i : Nat} (hn : 3 ≤ count) (hi : i < count)
    (hc : count ≤ 2 ^ 24) :
    Within ((2 ^ 46)⁻¹ * |r|)
      ⟨fl64 (fl64 (r * fl64 (1 / lm.cos (fl64 (mPi / count)))) * lm.cos (Shape.cornerAngleF count i)),
        fl64 (fl64 (r * fl64 (1 / lm.cos (fl64 (mPi / count)))) * lm.sin (Shape.cornerAngleF count i))⟩
      ⟨r * (1 / Real.cos (Real.pi / count)) * Real.cos (2 * Real.pi * (i : ℝ) / (count : ℝ)),
        r * (1 / Real.cos (Real.pi / count)) * Real.sin (2 * Real.pi * (i : ℝ) / (count : ℝ))⟩ := by
  obtain ⟨o1, o2⟩ := outer_near hlm r hn
  obtain ⟨R', hR'⟩ : ∃ R', R' = fl64 (r * fl64 (1 / lm.cos (fl64 (mPi / count)))) := ⟨_, rfl⟩
  obtain ⟨R, hR⟩ : ∃ R, R = r * (1 / Real.cos (Real.pi / count)) := ⟨_, rfl⟩
  rw [← hR'] at o1 ⊢
  rw [← hR] at o1 o2 ⊢
  obtain ⟨h1, h2⟩ := polygon_near hlm R' hi hc
  have hr := abs_nonneg r
  have hb : |R'| ≤ 5 / 2 * |r| := by
    have := abs_sub_abs_le_abs_sub R' R
    norm_num at o1
    linarith
  have key : ∀ {x y : ℝ}, |x - R' * y| ≤ (2 ^ 48)⁻¹ * |R'| → |y| ≤ 1 → |x - R * y| ≤ (2 ^ 46)⁻¹ * |r| := by
    intro x y hx hy
    have e1 : |R' * y - R * y| ≤ 34 * (2 ^ 53)⁻¹ * |r| := by
      rw [← sub_mul, abs_mul]
      exact (mul_le_mul o1 hy (abs_nonneg _) (by positivity)).trans_eq (mul_one _)
    have e2 := abs_sub_le x (R' * y) (R * y)
    norm_num at e1 hx ⊢
    linarith
  exact ⟨key h1 (Real.abs_cos_le_one _), key h2 (Real.abs_sin_le_one _)⟩

/-- C147: the corners of the polygon of a circle (at least 3, at most 2^24) are those of the exact computation, up to 2^-46
of the radius. -/
theorem C147_circle (lm : Libm) (hlm : lm.Accurate) (radius : ℝ) (count : Nat) (hn : 3 ≤ count) (hc : count ≤ 2 ^ 24) :
    ∃ vs vs', Shape.circleF lm radius count = .polygon vs ∧ Shape.circle radius count = .polygon vs' ∧
      List.Forall₂ (Within ((2 ^ 46)⁻¹ * |radius|)) vs vs' := by
  refine ⟨_, _, rfl, rfl, ?_⟩
  rw [List.forall₂_map_left_iff, List.forall₂_map_right_iff]
  exact List.forall₂_same.2 fun i hi => circle_near hlm radius hn (List.mem_range.1 hi) hc

/-! ## The disc -/

/-- An edge of a list of perturbed points. -/
private theorem edge_forall₂ {E : ℝ} {vs vs' : List Pt} (h : List.Forall₂ (Within E) vs vs') {a b : Pt} (he : IsEdge vs a b) :
    ∃ a' b', IsEdge vs' a' b' ∧ Within E a a' ∧ Within E b b' := by
  have get : ∀ {i : Nat} {a : Pt}, vs[i]? = some a → ∃ a', vs'[i]? = some a' ∧ Within E a a' := by
    intro i a ha
    obtain ⟨hi, rfl⟩ := List.getElem?_eq_some_iff.1 ha
    have hi' : i < vs'.length := by rw [← h.length_eq]; exact hi
    exact ⟨vs'[i], List.getElem?_eq_getElem hi', h.get hi hi'⟩
  obtain ⟨i, ha, hb⟩ := he
  obtain ⟨a', ha', wa⟩ := get ha
  obtain ⟨b', hb', wb⟩ := get hb
  exact ⟨a', b', ⟨i, ha', by rw [← h.length_eq]; exact hb'⟩, wa, wb⟩

/-- The placed corners of a circle. -/
private theorem circle_placed {lm : Libm} (hlm : lm.Accurate) {radius : ℝ} (hr : 0 < radius) {count : Nat} (hn : 3 ≤ count)
    (hc : count ≤ 2 ^ 24) {pose : PoseR} (hp : IsFlt 53 pose.theta) :
    List.Forall₂ (Within (circleError radius pose)) ((Shape.circleF lm radius count).verticesPositionF lm pose)
      (placedCorners pose (Shape.circle radius count)) := by
  obtain ⟨vs, vs', h1, h2, h⟩ := C147_circle lm hlm radius count hn hc
  have hb' : ∀ u ∈ vs', |u.x| ≤ 2 * radius ∧ |u.y| ≤ 2 * radius := by
    intro u hu
    have e : Shape.circle radius count = Shape.regularPolygon (radius * (1 / Real.cos (Real.pi / count))) count := rfl
    rw [e] at h2
    simp only [Shape.regularPolygon, Shape.polygon.injEq] at h2
    subst h2
    obtain ⟨i, -, rfl⟩ := List.mem_map.1 hu
    have o2 := (outer_near hlm radius hn).2
    rw [abs_of_pos hr] at o2
    constructor
    · dsimp only
      rw [abs_mul]
      exact (mul_le_mul o2 (Real.abs_cos_le_one _) (abs_nonneg _) (by positivity)).trans_eq (mul_one _)
    · dsimp only
      rw [abs_mul]
      exact (mul_le_mul o2 (Real.abs_sin_le_one _) (abs_nonneg _) (by positivity)).trans_eq (mul_one _)
  rw [h1, h2, Shape.verticesPositionF, placedCorners, List.forall₂_map_left_iff, List.forall₂_map_right_iff]
  rw [abs_of_pos hr] at h
  clear h1 h2
  induction h with
  | nil => exact .nil
  | @cons u w l l' hw _ ih =>
    refine .cons ?_ (ih fun v hv => hb' v (by simp [hv]))
    obtain ⟨w1, w2⟩ := hb' w (by simp)
    obtain ⟨e1, e2⟩ := hw
    have b1 : |u.x| ≤ 3 * radius := by
      have := abs_sub_abs_le_abs_sub u.x w.x
      norm_num at e1
      linarith
    have b2 : |u.y| ≤ 3 * radius := by
      have := abs_sub_abs_le_abs_sub u.y w.y
      norm_num at e2
      linarith
    obtain ⟨p1, p2⟩ := placeF_err hlm hp b1 b2
    have s1 := Real.abs_sin_le_one pose.theta
    have c1 := Real.abs_cos_le_one pose.theta
    have lin : ∀ {a b x y : ℝ}, |a| ≤ 1 → |b| ≤ 1 → |x| ≤ (2 ^ 46)⁻¹ * radius → |y| ≤ (2 ^ 46)⁻¹ * radius →
        |a * x + b * y| ≤ (2 ^ 45)⁻¹ * radius := by
      intro a b x y ha hb hx hy
      refine (abs_add_le _ _).trans ?_
      rw [abs_mul, abs_mul]
      have := mul_le_mul ha hx (abs_nonneg _) zero_le_one
      have := mul_le_mul hb hy (abs_nonneg _) zero_le_one
      norm_num at *
      linarith
    have d1 : |(Shape.place pose u).x - (Shape.place pose w).x| ≤ (2 ^ 45)⁻¹ * radius := by
      rw [show (Shape.place pose u).x - (Shape.place pose w).x =
        Real.cos pose.theta * (u.x - w.x) + -Real.sin pose.theta * (u.y - w.y) by simp only [Shape.place]; ring]
      exact lin c1 (by rwa [abs_neg]) e1 e2
    have d2 : |(Shape.place pose u).y - (Shape.place pose w).y| ≤ (2 ^ 45)⁻¹ * radius := by
      rw [show (Shape.place pose u).y - (Shape.place pose w).y =
        Real.sin pose.theta * (u.x - w.x) + Real.cos pose.theta * (u.y - w.y) by simp only [Shape.place]; ring]
      exact lin s1 c1 e1 e2
    have t1 := abs_sub_le (Shape.placeF lm pose u).x (Shape.place pose u).x (Shape.place pose w).x
    have t2 := abs_sub_le (Shape.placeF lm pose u).y (Shape.place pose u).y (Shape.place pose w).y
    have fin : cornerError (3 * radius) pose + (2 ^ 45)⁻¹ * radius ≤ circleError radius pose := by
      unfold cornerError circleError
      norm_num
      linarith
    exact ⟨by linarith, by linarith⟩

/-- An edge of the exact polygon keeps its distance from a point of a smaller disc. -/
private theorem circle_margin {radius : ℝ} (hr : 0 < radius) {count : Nat} (hn : 3 ≤ count) {pose : PoseR} {p : Pt} {ρ : ℝ}
    (hp : ptDist p pose.position ≤ ρ) (hρ : ρ ≤ radius) {a b : Pt}
    (h : IsEdge (placedCorners pose (Shape.circle radius count)) a b) :
    4 * radius / count * (radius - ρ) ≤ leftOf a b p := by
  obtain ⟨q, rfl⟩ := place_surj pose p
  have h0 : pose.position = Shape.place pose ⟨0, 0⟩ := (C72_place_frame pose).2.1.symm
  rw [h0, C72_place_isometry] at hp
  obtain ⟨hs, hc⟩ := half_angle hn
  obtain ⟨vs, hvs⟩ : ∃ vs, Shape.circle radius count = .polygon vs := ⟨_, rfl⟩
  rw [hvs] at h
  obtain ⟨a', b', h1, rfl, rfl⟩ := isEdge_map h
  rw [leftOf_place]
  obtain ⟨m, rfl, rfl⟩ := regular_edge hvs h1
  rw [leftOf_edge]
  have hn0 : (0 : ℝ) < count := by exact_mod_cast (by omega : 0 < count)
  have h3 : (3 : ℝ) ≤ count := by exact_mod_cast hn
  have e : radius * (1 / Real.cos (Real.pi / count)) * Real.cos (Real.pi / count) = radius := by field_simp
  rw [e]
  have hd : q.x * Real.cos m + q.y * Real.sin m ≤ ρ := by
    refine le_trans ?_ hp
    simp only [ptDist, sub_zero]
    apply Real.le_sqrt_of_sq_le
    nlinarith [sq_nonneg (q.x * Real.sin m - q.y * Real.cos m), Real.sin_sq_add_cos_sq m, sq_nonneg q.x, sq_nonneg q.y]
  have hpi := Real.pi_pos
  have jordan : 2 / count ≤ Real.sin (Real.pi / count) := by
    have := Real.mul_le_sin (x := Real.pi / count) (by positivity) (by
      rw [div_le_div_iff₀ hn0 (by norm_num)]; nlinarith)
    refine le_trans (le_of_eq ?_) this
    field_simp
  have hR : radius ≤ radius * (1 / Real.cos (Real.pi / count)) := by
    rw [mul_one_div, le_div_iff₀ hc]
    have := Real.cos_le_one (Real.pi / count)
    nlinarith
  have h4 : 4 * radius / count ≤ 2 * (radius * (1 / Real.cos (Real.pi / count))) * Real.sin (Real.pi / count) := by
    have := mul_le_mul hR jordan (by positivity) (by linarith)
    rw [show 4 * radius / count = 2 * (radius * (2 / count)) by ring]
    linarith
  exact mul_le_mul h4 (by linarith) (by linarith) (by positivity)

/-- A perturbed edge. -/
private theorem leftOf_near {a b a' b' p : Pt} {E D : ℝ} (ha : Within E a' a) (hb : Within E b' b)
    (hd : |b.x - a.x| ≤ 4 * D ∧ |b.y - a.y| ≤ 4 * D) (hp : |p.x - a.x| ≤ 3 * D ∧ |p.y - a.y| ≤ 3 * D) (hE : E ≤ D) :
    leftOf a b p - 24 * (D * E) ≤ leftOf a' b' p := by
  have hE0 : 0 ≤ E := (abs_nonneg _).trans ha.1
  have hD0 : 0 ≤ D := hE0.trans hE
  have e : leftOf a' b' p = leftOf a b p - ((b.x - a.x) * (a'.y - a.y) - (b.y - a.y) * (a'.x - a.x))
      + (((b'.x - b.x) - (a'.x - a.x)) * (p.y - a.y) - ((b'.y - b.y) - (a'.y - a.y)) * (p.x - a.x))
      - (((b'.x - b.x) - (a'.x - a.x)) * (a'.y - a.y) - ((b'.y - b.y) - (a'.y - a.y)) * (a'.x - a.x)) := by
    unfold leftOf; ring
  obtain ⟨α1, h1⟩ : ∃ α1, α1 = a'.x - a.x := ⟨_, rfl⟩
  obtain ⟨α2, h2⟩ : ∃ α2, α2 = a'.y - a.y := ⟨_, rfl⟩
  obtain ⟨β1, h3⟩ : ∃ β1, β1 = b'.x - b.x := ⟨_, rfl⟩
  obtain ⟨β2, h4⟩ : ∃ β2, β2 = b'.y - b.y := ⟨_, rfl⟩
  rw [← h1, ← h2, ← h3, ← h4] at e
  obtain ⟨a1, a2⟩ := ha
  obtain ⟨b1, b2⟩ := hb
  rw [← h1] at a1
  rw [← h2] at a2
  rw [← h3] at b1
  rw [← h4] at b2
  have cross : ∀ {x y z w X Z : ℝ}, |x| ≤ X → |y| ≤ Z → |z| ≤ X → |w| ≤ Z → |x * y - z * w| ≤ 2 * (X * Z) := by
    intro x y z w X Z hx hy hz hw
    have := abs_sub (x * y) (z * w)
    rw [abs_mul, abs_mul] at this
    have hX := (abs_nonneg _).trans hx
    have := mul_le_mul hx hy (abs_nonneg _) hX
    have := mul_le_mul hz hw (abs_nonneg _) hX
    linarith
  have g1 : |β1 - α1| ≤ 2 * E := (abs_sub _ _).trans (by linarith)
  have g2 : |β2 - α2| ≤ 2 * E := (abs_sub _ _).trans (by linarith)
  have f1 := (abs_le.1 (cross hd.1 a2 hd.2 a1)).2
  have f2 := (abs_le.1 (cross g1 hp.2 g2 hp.1)).1
  have f3 := (abs_le.1 (cross g1 a2 g2 a1)).2
  have f4 : E * E ≤ D * E := mul_le_mul_of_nonneg_right hE hE0
  rw [e]
  linarith

/-- C147: the polygon of a circle obstacle, with the corners that the program computes and places, contains the disc, but
for a rim whose width is the rounding error of the corners times six times their number. -/
theorem C147_circle_contains_disc (lm : Libm) (hlm : lm.Accurate) (radius : ℝ) (hr : 0 < radius) (count : Nat)
    (hn : 3 ≤ count) (hc : count ≤ 2 ^ 24) (pose : PoseR) (hpose : IsFlt 53 pose.theta) (p : Pt)
    (hp : ptDist p pose.position ≤ radius - 6 * count * circleError radius pose) :
    InsideConvex ((Shape.circleF lm radius count).verticesPositionF lm pose) p := by
  intro a' b' he
  obtain ⟨a, b, he', wa, wb⟩ := edge_forall₂ (circle_placed hlm hr hn hc hpose) he
  obtain ⟨E, hE⟩ : ∃ E, E = circleError radius pose := ⟨_, rfl⟩
  rw [← hE] at hp wa wb
  have hn0 : (0 : ℝ) < count := by exact_mod_cast (by omega : 0 < count)
  have h3 : (3 : ℝ) ≤ count := by exact_mod_cast hn
  have hE0 : 0 ≤ E := (abs_nonneg _).trans wa.1
  have hd0 : 0 ≤ ptDist p pose.position := Real.sqrt_nonneg _
  have hcE : 3 * E ≤ count * E := mul_le_mul_of_nonneg_right h3 hE0
  have hEr : E ≤ radius := by linarith
  have hm := circle_margin hr hn hp (by linarith) he'
  have e1 : 4 * radius / count * (radius - (radius - 6 * count * E)) = 24 * (radius * E) := by
    field_simp; ring
  rw [e1] at hm
  -- the exact corners are at most twice the radius away
  have corner : ∀ w, w ∈ placedCorners pose (Shape.circle radius count) → ptDist w pose.position ≤ 2 * radius := by
    intro w hw
    have o2 := (outer_near hlm radius hn).2
    rw [abs_of_pos hr] at o2
    obtain ⟨-, hc'⟩ := half_angle hn
    have hR0 : 0 ≤ radius * (1 / Real.cos (Real.pi / count)) := by positivity
    rw [(C72_regular_polygon _ count pose hR0).2 w hw]
    exact (le_abs_self _).trans o2
  have coords : ∀ {w : Pt} {d : ℝ}, ptDist w pose.position ≤ d → |w.x - pose.position.x| ≤ d ∧ |w.y - pose.position.y| ≤ d := by
    intro w d hw
    unfold ptDist at hw
    constructor
    · exact (Real.abs_le_sqrt (by nlinarith [sq_nonneg (w.y - pose.position.y)])).trans hw
    · exact (Real.abs_le_sqrt (by nlinarith [sq_nonneg (w.x - pose.position.x)])).trans hw
  have ma : a ∈ placedCorners pose (Shape.circle radius count) := let ⟨i, h, _⟩ := he'; List.mem_of_getElem? h
  have mb : b ∈ placedCorners pose (Shape.circle radius count) := let ⟨i, _, h⟩ := he'; List.mem_of_getElem? h
  obtain ⟨x1, y1⟩ := coords (corner a ma)
  obtain ⟨x2, y2⟩ := coords (corner b mb)
  obtain ⟨x3, y3⟩ := coords (hp.trans (by linarith [mul_nonneg hn0.le hE0] : _ ≤ radius))
  have sub : ∀ {x y z d d' : ℝ}, |x - z| ≤ d → |y - z| ≤ d' → |x - y| ≤ d + d' := by
    intro x y z d d' h1 h2
    have := abs_sub_le x z y
    rw [abs_sub_comm z y] at this
    linarith
  have hl := leftOf_near (p := p) wa wb (D := radius) ⟨(sub x2 x1).trans (by linarith), (sub y2 y1).trans (by linarith)⟩
    ⟨(sub x3 x1).trans (by linarith), (sub y3 y1).trans (by linarith)⟩ hEr
  linarith

/-! ## The hypotheses can be met -/

private theorem three_flt : IsFlt 53 (3 : ℝ) := by
  have := fl_int (p := 53) h53 (n := 3) (by norm_num)
  exact_mod_cast this

/-- Non-vacuity: a rectangle of 3 × 3. -/
example : Shape.rectangleF 3 3 = .polygon [⟨3 / 2, 3 / 2⟩, ⟨-(3 / 2), 3 / 2⟩, ⟨-(3 / 2), -(3 / 2)⟩, ⟨3 / 2, -(3 / 2)⟩] :=
  C147_rectangle 3 3 three_flt three_flt

/-- Non-vacuity: a disc of radius 10 with 8 corners and a point 9 m away from its centre. -/
example : InsideConvex ((Shape.circleF bestLibm 10 8).verticesPositionF bestLibm ⟨⟨3, 4⟩, 3⟩) ⟨12, 4⟩ := by
  refine C147_circle_contains_disc bestLibm bestLibm_accurate 10 (by norm_num) 8 (by norm_num) (by norm_num) _ three_flt _ ?_
  have e : ptDist ⟨12, 4⟩ ⟨3, 4⟩ = 9 := by
    unfold ptDist
    rw [show ((12 : ℝ) - 3) ^ 2 + (4 - 4) ^ 2 = 9 ^ 2 by norm_num, Real.sqrt_sq (by norm_num)]
  show ptDist ⟨12, 4⟩ ⟨3, 4⟩ ≤ _
  rw [e]
  unfold circleError
  norm_num

end PathPlanning
