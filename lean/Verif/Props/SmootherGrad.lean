import Verif.Lemmas.Smoother
import Verif.Spec.Smoother
import Verif.Model.GVD
import Mathlib.Analysis.SpecialFunctions.Trigonometric.InverseDeriv
import Mathlib.Analysis.SpecialFunctions.Sqrt
import Mathlib.Analysis.Calculus.Deriv.Inv
import Mathlib.Tactic.FieldSimp
import Mathlib.Tactic.LinearCombination

/-!
# C75: each term of the smoother is the gradient of the cost it stands for
-/

namespace PathPlanning
open Real Spec

/-! ## Derivatives along a line -/

private theorem line_x (a v c : ℝ) : HasDerivAt (fun t : ℝ => a + t * v - c) v 0 := by
  simpa using (((hasDerivAt_id (0 : ℝ)).mul_const v).const_add a).sub_const c

private theorem line_x' (a v c : ℝ) : HasDerivAt (fun t : ℝ => c - (a + t * v)) (-v) 0 := by
  simpa using (((hasDerivAt_id (0 : ℝ)).mul_const v).const_add a).const_sub c

theorem dist2_pos {p q : Pt} (h : p ≠ q) : 0 < dist2 p q := by
  refine Real.sqrt_pos.mpr ?_
  rcases eq_or_ne (p.x - q.x) 0 with hx | hx
  · rcases eq_or_ne (p.y - q.y) 0 with hy | hy
    · exact absurd (Pt.ext (by linarith) (by linarith)) h
    · positivity
  · positivity

theorem dist2_comm (p q : Pt) : dist2 p q = dist2 q p := by
  unfold dist2; congr 1; ring

theorem dist2_sq (p q : Pt) : dist2 p q ^ 2 = (p.x - q.x) ^ 2 + (p.y - q.y) ^ 2 :=
  Real.sq_sqrt (by positivity)

/-- The derivative of the distance to a point. -/
theorem dist2_line (p q : Pt) (h : p ≠ q) (vx vy : ℝ) :
    HasDerivAt (fun t : ℝ => dist2 ⟨p.x + t * vx, p.y + t * vy⟩ q)
      (((p.x - q.x) * vx + (p.y - q.y) * vy) / dist2 p q) 0 := by
  have h1 := ((line_x p.x vx q.x).pow 2).add ((line_x p.y vy q.y).pow 2)
  have hp := dist2_pos h
  have hne : (p.x - q.x) ^ 2 + (p.y - q.y) ^ 2 ≠ 0 := by
    intro h0
    unfold dist2 at hp
    rw [h0] at hp
    simp at hp
  have h2 := h1.sqrt (by simpa using hne)
  refine h2.congr_deriv ?_
  simp only [dist2, Pi.add_apply, Pi.pow_apply]
  simp
  field_simp

theorem norm_eq_dist2 (p q : Pt) : (p - q).norm = dist2 p q := rfl

/-- The square of the positive part is differentiable. -/
theorem posPart_sq_deriv (u : ℝ) : HasDerivAt (fun u : ℝ => (max 0 u) ^ 2) (2 * max 0 u) u := by
  rcases lt_trichotomy u 0 with hu | hu | hu
  · have hev : (fun u : ℝ => (max 0 u) ^ 2) =ᶠ[nhds u] fun _ => 0 := by
      filter_upwards [gt_mem_nhds hu] with x hx
      rw [max_eq_left hx.le]; norm_num
    rw [max_eq_left hu.le, mul_zero]
    exact (hasDerivAt_const u (0 : ℝ)).congr_of_eventuallyEq hev
  · subst hu
    rw [max_self, mul_zero]
    rw [hasDerivAt_iff_isLittleO]
    simp only [max_self, sub_zero, smul_zero]
    refine Asymptotics.IsBigO.trans_isLittleO (g := fun x : ℝ => x ^ 2) ?_ ?_
    · refine Asymptotics.isBigO_of_le _ (fun x => ?_)
      rw [Real.norm_eq_abs, Real.norm_eq_abs]
      rcases le_total 0 x with hx | hx
      · rw [max_eq_right hx]; norm_num
      · rw [max_eq_left hx]; norm_num; positivity
    · simpa using Asymptotics.isLittleO_pow_pow (𝕜 := ℝ) (m := 1) (n := 2) (by norm_num)
  · have hev : (fun u : ℝ => (max 0 u) ^ 2) =ᶠ[nhds u] fun u => u ^ 2 := by
      filter_upwards [lt_mem_nhds hu] with x hx
      rw [max_eq_right hx.le]
    rw [max_eq_right hu.le]
    have := (hasDerivAt_pow 2 u).congr_of_eventuallyEq hev
    simpa using this

/-! ## The terms -/

/-- C75: the smoothing term is the gradient of half the weighted sum of the squared second differences
of the path; only three of them contain the point. -/
theorem C75_smooth_term (q : SmoothParam) (m2 m1 curr p1 p2 : Pt) :
    IsGradient (fun p => q.smoothWeight / 2 * (bend m2 m1 p + bend m1 p p1 + bend p p1 p2)) curr
      (q.smoothTerm m2 m1 curr p1 p2) := by
  intro vx vy
  have e1 : ∀ a v c : ℝ, HasDerivAt (fun t : ℝ => c + (a + t * v)) v 0 := fun a v c => by
    simpa using (((hasDerivAt_id (0 : ℝ)).mul_const v).const_add a).const_add c
  have e2 : ∀ a v c d : ℝ, HasDerivAt (fun t : ℝ => c - 2 * (a + t * v) + d) (-(2 * v)) 0 := fun a v c d => by
    simpa using (((((hasDerivAt_id (0 : ℝ)).mul_const v).const_add a).const_mul 2).const_sub c).add_const d
  have e3 : ∀ a v c d : ℝ, HasDerivAt (fun t : ℝ => a + t * v - c + d) v 0 := fun a v c d => by
    simpa using ((((hasDerivAt_id (0 : ℝ)).mul_const v).const_add a).sub_const c).add_const d
  have h := (((((e1 curr.x vx (m2.x - 2 * m1.x)).pow 2).add ((e1 curr.y vy (m2.y - 2 * m1.y)).pow 2)).add
    (((e2 curr.x vx m1.x p1.x).pow 2).add ((e2 curr.y vy m1.y p1.y).pow 2))).add
    (((e3 curr.x vx (2 * p1.x) p2.x).pow 2).add ((e3 curr.y vy (2 * p1.y) p2.y).pow 2))).const_mul
      (q.smoothWeight / 2)
  refine h.congr_deriv ?_
  simp [SmoothParam.smoothTerm, Pt.scale]
  ring

/-- C75: the collision term is the gradient of half the weighted square of the missing clearance. -/
theorem C75_collision_term (q : SmoothParam) (p o : Pt) (h : p ≠ o) :
    IsGradient (fun p => q.collisionWeight / 2 * (max 0 (q.unsafeRadius - dist2 p o)) ^ 2) p
      (q.collisionTerm (p - o)) := by
  intro vx vy
  have hd := dist2_line p o h vx vy
  have hp := dist2_pos h
  have e0 : dist2 ⟨p.x + 0 * vx, p.y + 0 * vy⟩ o = dist2 p o := by simp
  have h2 := HasDerivAt.comp (0 : ℝ) (h := fun t : ℝ => q.unsafeRadius - dist2 ⟨p.x + t * vx, p.y + t * vy⟩ o)
    (h₂ := fun u : ℝ => (max 0 u) ^ 2) (by simpa using posPart_sq_deriv _) (hd.const_sub q.unsafeRadius)
  have h3 := h2.const_mul (q.collisionWeight / 2)
  refine h3.congr_deriv ?_
  by_cases hlt : dist2 p o < q.unsafeRadius
  · have hc : q.collisionTerm (p - o) = ((p - o).scale (q.collisionWeight *
        (dist2 p o - q.unsafeRadius))).scale (1 / dist2 p o) := by
      unfold SmoothParam.collisionTerm
      rw [if_pos (by exact hlt)]
      rfl
    rw [hc]
    simp only [Pt.scale, Pt.sub_x, Pt.sub_y]
    rw [max_eq_right (by show 0 ≤ q.unsafeRadius - dist2 p o; linarith)]
    show q.collisionWeight / 2 * (2 * (q.unsafeRadius - dist2 p o) *
        -(((p.x - o.x) * vx + (p.y - o.y) * vy) / dist2 p o)) = _
    field_simp
    ring
  · have hc : q.collisionTerm (p - o) = ⟨0, 0⟩ := by
      unfold SmoothParam.collisionTerm
      rw [if_neg (by exact hlt)]
    rw [hc, max_eq_left (by show q.unsafeRadius - dist2 p o ≤ 0; linarith)]
    simp

/-- C75: a point too close to its nearest obstacle is moved straight away from it: with only the collision
term, one step adds `learningRate * collisionWeight` times the missing clearance to the distance. -/
theorem C75_collision_moves_away (q : SmoothParam) (p o : Pt) (h : p ≠ o)
    (hlt : dist2 p o < q.unsafeRadius) (hr : 0 < q.learningRate) (hw : 0 < q.collisionWeight) :
    dist2 (p - (q.collisionTerm (p - o)).scale q.learningRate) o =
      dist2 p o + q.learningRate * q.collisionWeight * (q.unsafeRadius - dist2 p o) := by
  have hp := dist2_pos h
  have hs := dist2_sq p o
  have hpos : 0 ≤ dist2 p o + q.learningRate * q.collisionWeight * (q.unsafeRadius - dist2 p o) := by
    have : 0 ≤ q.unsafeRadius - dist2 p o := by linarith
    positivity
  rw [← Real.sqrt_sq hpos]
  unfold SmoothParam.collisionTerm
  rw [if_pos (by exact hlt), norm_eq_dist2]
  conv_lhs => rw [dist2]
  congr 1
  simp only [Pt.scale, Pt.sub_x, Pt.sub_y]
  have e : ∀ u v : ℝ, u - q.learningRate * (1 / dist2 p o * (q.collisionWeight *
      (dist2 p o - q.unsafeRadius) * (u - v))) - v =
      (u - v) * ((dist2 p o + q.learningRate * q.collisionWeight * (q.unsafeRadius - dist2 p o)) / dist2 p o) := by
    intro u v; field_simp; ring
  rw [e, e, mul_pow, mul_pow, ← add_mul, ← hs, div_pow]
  field_simp

/-- C75: the coefficients of the Voronoi term are the partial derivatives of the potential of the Voronoi
map (`voronoiCost`, C40), below the cut-off distance. -/
theorem C75_voronoi_coefficients (alpha dMax o v : ℝ) (ha : 0 < alpha) (hd : 0 < dMax) (ho : 0 < o)
    (hv : 0 < v) (hlt : o < dMax) :
    HasDerivAt (fun o => voronoiCost alpha dMax o v) (SmoothParam.pvdo alpha dMax o v) o ∧
      HasDerivAt (fun v => voronoiCost alpha dMax o v) (SmoothParam.pvdv alpha dMax o v) v := by
  have n1 : alpha + o ≠ 0 := by positivity
  have n2 : o + v ≠ 0 := by positivity
  constructor
  · have hev : (fun o => voronoiCost alpha dMax o v) =ᶠ[nhds o]
        fun o => (alpha / (alpha + o)) * (v / (o + v)) * ((o - dMax) ^ 2 / dMax ^ 2) := by
      filter_upwards [gt_mem_nhds hlt] with x hx
      unfold voronoiCost
      rw [if_neg (by linarith)]
    refine HasDerivAt.congr_of_eventuallyEq ?_ hev
    have a1 := (hasDerivAt_const o alpha).div ((hasDerivAt_id o).const_add alpha) n1
    have a2 := (hasDerivAt_const o v).div ((hasDerivAt_id o).add_const v) n2
    have a3 := (((hasDerivAt_id o).sub_const dMax).pow 2).div_const (dMax ^ 2)
    refine ((a1.mul a2).mul a3).congr_deriv ?_
    simp [SmoothParam.pvdo]
    field_simp
    ring
  · have hev : (fun v => voronoiCost alpha dMax o v) =
        fun v => (alpha / (alpha + o)) * ((o - dMax) ^ 2 / dMax ^ 2) * (v / (o + v)) := by
      funext x
      unfold voronoiCost
      rw [if_neg (by linarith)]
      ring
    rw [hev]
    have a2 := (hasDerivAt_id v).div ((hasDerivAt_id v).const_add o) n2
    refine (a2.const_mul _).congr_deriv ?_
    simp [SmoothParam.pvdv]
    field_simp

/-- C75: the Voronoi term is the gradient of the weighted potential, the nearest obstacle `o` and the nearest
Voronoi edge `e` being held fixed. -/
theorem C75_voronoi_term (q : SmoothParam) (ha : 0 < q.alpha) (hd : 0 < q.dMax) (hw : 0 < q.voronoiWeight)
    (p o e : Pt) (ho : p ≠ o) (he : p ≠ e) (hlt : dist2 p o < q.dMax) :
    IsGradient (fun p => q.voronoiWeight * voronoiCost q.alpha q.dMax (dist2 p o) (dist2 p e)) p
      (q.voronoiTerm (p - o) (p - e)) := by
  intro vx vy
  have hpo := dist2_pos ho
  have hpe := dist2_pos he
  have h1 := dist2_line p o ho vx vy
  have h2 := dist2_line p e he vx vy
  have e0 : dist2 ⟨p.x + 0 * vx, p.y + 0 * vy⟩ o = dist2 p o := by simp
  have e1 : dist2 ⟨p.x + 0 * vx, p.y + 0 * vy⟩ e = dist2 p e := by simp
  have n1 : q.alpha + dist2 p o ≠ 0 := by positivity
  have n2 : dist2 p o + dist2 p e ≠ 0 := by positivity
  have hev : (fun t : ℝ => q.voronoiWeight * voronoiCost q.alpha q.dMax
        (dist2 ⟨p.x + t * vx, p.y + t * vy⟩ o) (dist2 ⟨p.x + t * vx, p.y + t * vy⟩ e)) =ᶠ[nhds 0]
      fun t => q.voronoiWeight * ((q.alpha / (q.alpha + dist2 ⟨p.x + t * vx, p.y + t * vy⟩ o)) *
        (dist2 ⟨p.x + t * vx, p.y + t * vy⟩ e /
          (dist2 ⟨p.x + t * vx, p.y + t * vy⟩ o + dist2 ⟨p.x + t * vx, p.y + t * vy⟩ e)) *
        ((dist2 ⟨p.x + t * vx, p.y + t * vy⟩ o - q.dMax) ^ 2 / q.dMax ^ 2)) := by
    have hc := h1.continuousAt.eventually (gt_mem_nhds (show dist2 ⟨p.x + 0 * vx, p.y + 0 * vy⟩ o < q.dMax by
      rw [e0]; exact hlt))
    filter_upwards [hc] with t ht
    unfold voronoiCost
    rw [if_neg (by linarith)]
  refine HasDerivAt.congr_of_eventuallyEq ?_ hev
  have a1 := (hasDerivAt_const (0 : ℝ) q.alpha).div (h1.const_add q.alpha) (by rw [e0]; exact n1)
  have a2 := h2.div (h1.add h2) (by simp only [Pi.add_apply]; rw [e0, e1]; exact n2)
  have a3 := ((h1.sub_const q.dMax).pow 2).div_const (q.dMax ^ 2)
  refine (((a1.mul a2).mul a3).const_mul q.voronoiWeight).congr_deriv ?_
  simp only [Pi.mul_apply, Pi.div_apply, Pi.add_apply, Pi.pow_apply, e0, e1]
  unfold SmoothParam.voronoiTerm
  rw [if_pos (by exact ⟨hlt, hw⟩), if_pos (by exact hpe), norm_eq_dist2, norm_eq_dist2]
  simp only [SmoothParam.pvdo, SmoothParam.pvdv, Pt.scale, Pt.add_x, Pt.add_y, Pt.sub_x, Pt.sub_y]
  simp
  field_simp
  ring

/-- The derivative of turning angle per length when the two steps `d`, `e` change at the rates `u`, `w`. -/
theorem kappa_line (d e u w : Pt) (hx : d.x * e.y - d.y * e.x ≠ 0) :
    HasDerivAt (fun t : ℝ => arccos (((d.x + t * u.x) * (e.x + t * w.x) + (d.y + t * u.y) * (e.y + t * w.y)) /
        (√((d.x + t * u.x) ^ 2 + (d.y + t * u.y) ^ 2) * √((e.x + t * w.x) ^ 2 + (e.y + t * w.y) ^ 2))) /
        √((d.x + t * u.x) ^ 2 + (d.y + t * u.y) ^ 2))
      (-(SmoothParam.dKappa d e).1.x * u.x + -(SmoothParam.dKappa d e).1.y * u.y +
        (SmoothParam.dKappa d e).2.2.x * w.x + (SmoothParam.dKappa d e).2.2.y * w.y) 0 ∧
    SmoothParam.kappa d e = arccos ((d.x * e.x + d.y * e.y) / (d.norm * e.norm)) / d.norm := by
  have hd0 : d.x ^ 2 + d.y ^ 2 ≠ 0 := by
    intro h
    have h1 : d.x = 0 := by nlinarith [sq_nonneg d.x, sq_nonneg d.y]
    have h2 : d.y = 0 := by nlinarith [sq_nonneg d.x, sq_nonneg d.y]
    rw [h1, h2] at hx; simp at hx
  have he0 : e.x ^ 2 + e.y ^ 2 ≠ 0 := by
    intro h
    have h1 : e.x = 0 := by nlinarith [sq_nonneg e.x, sq_nonneg e.y]
    have h2 : e.y = 0 := by nlinarith [sq_nonneg e.x, sq_nonneg e.y]
    rw [h1, h2] at hx; simp at hx
  have hN : d.norm ^ 2 = d.x ^ 2 + d.y ^ 2 := Real.sq_sqrt (by positivity)
  have hM : e.norm ^ 2 = e.x ^ 2 + e.y ^ 2 := Real.sq_sqrt (by positivity)
  have hNp : 0 < d.norm := Real.sqrt_pos.mpr (lt_of_le_of_ne (by positivity) (Ne.symm hd0))
  have hMp : 0 < e.norm := Real.sqrt_pos.mpr (lt_of_le_of_ne (by positivity) (Ne.symm he0))
  obtain ⟨c, hc⟩ : ∃ c, c = (d.x * e.x + d.y * e.y) / (d.norm * e.norm) := ⟨_, rfl⟩
  have hc2 : c ^ 2 < 1 := by
    rw [hc, div_pow, mul_pow, hN, hM, div_lt_one (by positivity)]
    have : 0 < (d.x * e.y - d.y * e.x) ^ 2 := by positivity
    nlinarith
  have hcl : -1 < c := by nlinarith
  have hcu : c < 1 := by nlinarith
  have hphi : SmoothParam.deltaPhi d e = arccos c := by
    unfold SmoothParam.deltaPhi
    have : d.normalized.dot e.normalized = c := by
      rw [hc]
      simp only [Pt.normalized, Pt.dot, Pt.scale]
      field_simp
    rw [this, min_eq_left hcu.le, max_eq_right hcl.le]
  have hcos : cos (arccos c) = c := Real.cos_arccos hcl.le hcu.le
  refine ⟨?_, by rw [SmoothParam.kappa, hphi, hc]⟩
  have l : ∀ a v : ℝ, HasDerivAt (fun t : ℝ => a + t * v) v 0 := fun a v => by
    simpa using ((hasDerivAt_id (0 : ℝ)).mul_const v).const_add a
  have dN : HasDerivAt (fun t : ℝ => √((d.x + t * u.x) ^ 2 + (d.y + t * u.y) ^ 2))
      ((d.x * u.x + d.y * u.y) / d.norm) 0 := by
    refine ((((l d.x u.x).pow 2).add ((l d.y u.y).pow 2)).sqrt (by simpa using hd0)).congr_deriv ?_
    simp only [Pi.add_apply, Pi.pow_apply]
    simp
    show _ / (2 * d.norm) = _
    field_simp
  have dM : HasDerivAt (fun t : ℝ => √((e.x + t * w.x) ^ 2 + (e.y + t * w.y) ^ 2))
      ((e.x * w.x + e.y * w.y) / e.norm) 0 := by
    refine ((((l e.x w.x).pow 2).add ((l e.y w.y).pow 2)).sqrt (by simpa using he0)).congr_deriv ?_
    simp only [Pi.add_apply, Pi.pow_apply]
    simp
    show _ / (2 * e.norm) = _
    field_simp
  have dD : HasDerivAt (fun t : ℝ => (d.x + t * u.x) * (e.x + t * w.x) + (d.y + t * u.y) * (e.y + t * w.y))
      (u.x * e.x + d.x * w.x + (u.y * e.y + d.y * w.y)) 0 := by
    refine (((l d.x u.x).mul (l e.x w.x)).add ((l d.y u.y).mul (l e.y w.y))).congr_deriv ?_
    simp
  have hN0 : √((d.x + 0 * u.x) ^ 2 + (d.y + 0 * u.y) ^ 2) = d.norm := by simp [Pt.norm]
  have hM0 : √((e.x + 0 * w.x) ^ 2 + (e.y + 0 * w.y) ^ 2) = e.norm := by simp [Pt.norm]
  have dC := dD.div (dN.mul dM) (by simp only [Pi.mul_apply]; rw [hN0, hM0]; positivity)
  have hc0 : ((d.x + 0 * u.x) * (e.x + 0 * w.x) + (d.y + 0 * u.y) * (e.y + 0 * w.y)) /
      (√((d.x + 0 * u.x) ^ 2 + (d.y + 0 * u.y) ^ 2) * √((e.x + 0 * w.x) ^ 2 + (e.y + 0 * w.y) ^ 2)) = c := by
    rw [hN0, hM0, hc]; simp
  have dA := HasDerivAt.comp (0 : ℝ) (h₂ := arccos)
    (h₂' := -(1 / √(1 - c ^ 2)))
    (by
      have := Real.hasDerivAt_arccos hcl.ne' hcu.ne
      simp only [Pi.div_apply, Pi.mul_apply]
      rw [hc0]
      exact this) dC
  have dK := dA.div dN (by rw [hN0]; exact hNp.ne')
  refine dK.congr_deriv ?_
  simp only [Function.comp, Pi.div_apply, Pi.mul_apply]
  rw [hc0, hN0, hM0]
  simp only [SmoothParam.dKappa, hphi, hcos, SmoothParam.orthogonalComplement, Pt.scale, Pt.dot,
    Pt.normalized, Pt.add_x, Pt.add_y, Pt.sub_x, Pt.sub_y, zero_mul, add_zero]
  have e1 : d.x * d.x + d.y * d.y = d.norm ^ 2 := by rw [hN]; ring
  have e2 : e.x * e.x + e.y * e.y = e.norm ^ 2 := by rw [hM]; ring
  rw [e1, e2]
  have hS : 0 < √(1 - c ^ 2) := Real.sqrt_pos.mpr (by linarith)
  generalize √(1 - c ^ 2) = S at *
  generalize arccos c = A at *
  generalize d.norm = N at *
  generalize e.norm = M at *
  field_simp
  ring

/-- C75: the curvature term adds to the gradients of the three points the gradients of half the weighted
square of the excess of the discrete curvature, for points that are not on a line. -/
theorem C75_curvature_term (q : SmoothParam) (a b c ga gb gc : Pt)
    (hx : (b.x - a.x) * (c.y - b.y) - (b.y - a.y) * (c.x - b.x) ≠ 0) :
    ∃ ka kb kc, q.curvatureTerm a b c ga gb gc = (ga + ka, gb + kb, gc + kc) ∧
      IsGradient (fun p => q.curvatureWeight / 2 * (max 0 (curvature p b c - q.maxCurvature)) ^ 2) a ka ∧
      IsGradient (fun p => q.curvatureWeight / 2 * (max 0 (curvature a p c - q.maxCurvature)) ^ 2) b kb ∧
      IsGradient (fun p => q.curvatureWeight / 2 * (max 0 (curvature a b p - q.maxCurvature)) ^ 2) c kc := by
  have hkap := (kappa_line (b - a) (c - b) ⟨0, 0⟩ ⟨0, 0⟩ hx).2
  have hcur : SmoothParam.kappa (b - a) (c - b) = curvature a b c := by
    rw [hkap, curvature, turn]
    rw [show (b - a).norm = dist2 b a from rfl, show (c - b).norm = dist2 c b from rfl, dist2_comm b a,
      dist2_comm c b]
    rfl
  -- the gradients, from the derivative of the curvature
  have hgrad : ∀ (f : ℝ → ℝ) (k m : ℝ), f 0 = curvature a b c → HasDerivAt f k 0 →
      m = q.curvatureWeight * max 0 (curvature a b c - q.maxCurvature) * k →
      HasDerivAt (fun t => q.curvatureWeight / 2 * (max 0 (f t - q.maxCurvature)) ^ 2) m 0 := by
    intro f k m hf hd hm
    have h2 := HasDerivAt.comp (0 : ℝ) (h := fun t : ℝ => f t - q.maxCurvature)
      (h₂ := fun u : ℝ => (max 0 u) ^ 2) (posPart_sq_deriv _) (hd.sub_const q.maxCurvature)
    refine (h2.const_mul (q.curvatureWeight / 2)).congr_deriv ?_
    rw [hm, hf]; ring
  have hcv : ∀ p r s : Pt, curvature p r s = arccos (((r.x - p.x) * (s.x - r.x) + (r.y - p.y) * (s.y - r.y)) /
      (√((r.x - p.x) ^ 2 + (r.y - p.y) ^ 2) * √((s.x - r.x) ^ 2 + (s.y - r.y) ^ 2))) /
      √((r.x - p.x) ^ 2 + (r.y - p.y) ^ 2) := by
    intro p r s
    rw [curvature, turn, dist2_comm p r, dist2_comm r s]
    rfl
  obtain ⟨W, hW⟩ : ∃ W, W = q.curvatureWeight * max 0 (curvature a b c - q.maxCurvature) := ⟨_, rfl⟩
  obtain ⟨K, hK⟩ : ∃ K, K = SmoothParam.dKappa (b - a) (c - b) := ⟨_, rfl⟩
  have hsum : K.2.1 = ⟨-K.1.x - K.2.2.x, -K.1.y - K.2.2.y⟩ := by
    rw [hK]
    simp only [SmoothParam.dKappa]
    ext
    · simp only [Pt.scale, Pt.add_x, Pt.sub_x]; ring
    · simp only [Pt.scale, Pt.add_y, Pt.sub_y]; ring
  refine ⟨K.1.scale W, K.2.1.scale W, K.2.2.scale W, ?_, ?_, ?_, ?_⟩
  · unfold SmoothParam.curvatureTerm
    dsimp only
    rw [hcur, ← hK]
    by_cases hle : curvature a b c ≤ q.maxCurvature
    · rw [if_pos hle, hW, max_eq_left (by linarith), mul_zero]
      have hz : ∀ z g : Pt, g + z.scale 0 = g := fun z g => by ext <;> simp [Pt.scale]
      rw [hz, hz, hz]
    · rw [if_neg hle, hW, max_eq_right (by linarith)]
  · intro vx vy
    have h := (kappa_line (b - a) (c - b) ⟨-vx, -vy⟩ ⟨0, 0⟩ hx).1
    refine hgrad (fun t => curvature ⟨a.x + t * vx, a.y + t * vy⟩ b c)
      (K.1.x * vx + K.1.y * vy) _ (by simp) ?_ (by rw [← hW]; simp only [Pt.scale]; ring)
    have hf : (fun t : ℝ => curvature ⟨a.x + t * vx, a.y + t * vy⟩ b c) = _ := funext fun t => hcv _ _ _
    rw [hf]
    convert h using 1
    · funext t
      simp only [Pt.sub_x, Pt.sub_y]
      have e1 : b.x - (a.x + t * vx) = b.x - a.x + t * -vx := by ring
      have e2 : b.y - (a.y + t * vy) = b.y - a.y + t * -vy := by ring
      rw [e1, e2]
      simp
    · rw [← hK]; ring
  · intro vx vy
    have h := (kappa_line (b - a) (c - b) ⟨vx, vy⟩ ⟨-vx, -vy⟩ hx).1
    refine hgrad (fun t => curvature a ⟨b.x + t * vx, b.y + t * vy⟩ c)
      (K.2.1.x * vx + K.2.1.y * vy) _ (by simp) ?_ (by rw [← hW]; simp only [Pt.scale]; ring)
    have hf : (fun t : ℝ => curvature a ⟨b.x + t * vx, b.y + t * vy⟩ c) = _ := funext fun t => hcv _ _ _
    rw [hf]
    convert h using 1
    · funext t
      simp only [Pt.sub_x, Pt.sub_y]
      have e1 : c.x - (b.x + t * vx) = c.x - b.x + t * -vx := by ring
      have e2 : c.y - (b.y + t * vy) = c.y - b.y + t * -vy := by ring
      have e3 : b.x + t * vx - a.x = b.x - a.x + t * vx := by ring
      have e4 : b.y + t * vy - a.y = b.y - a.y + t * vy := by ring
      rw [e1, e2, e3, e4]
    · rw [← hK, hsum]; ring
  · intro vx vy
    have h := (kappa_line (b - a) (c - b) ⟨0, 0⟩ ⟨vx, vy⟩ hx).1
    refine hgrad (fun t => curvature a b ⟨c.x + t * vx, c.y + t * vy⟩)
      (K.2.2.x * vx + K.2.2.y * vy) _ (by simp) ?_ (by rw [← hW]; simp only [Pt.scale]; ring)
    have hf : (fun t : ℝ => curvature a b ⟨c.x + t * vx, c.y + t * vy⟩) = _ := funext fun t => hcv _ _ _
    rw [hf]
    convert h using 1
    · funext t
      simp only [Pt.sub_x, Pt.sub_y]
      have e1 : c.x + t * vx - b.x = c.x - b.x + t * vx := by ring
      have e2 : c.y + t * vy - b.y = c.y - b.y + t * vy := by ring
      rw [e1, e2]
      simp
    · rw [← hK]; ring

end PathPlanning
