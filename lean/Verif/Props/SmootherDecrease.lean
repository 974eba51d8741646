import Mathlib.Tactic.IntervalCases
import Verif.Props.SmootherDescent
import Mathlib.Analysis.Calculus.FDeriv.Pi
import Mathlib.Analysis.Calculus.FDeriv.Prod
import Mathlib.Analysis.Calculus.Deriv.Comp
import Mathlib.Analysis.SpecialFunctions.Sqrt
import Mathlib.Analysis.SpecialFunctions.Trigonometric.InverseDeriv

/-!
# C112: with a small learning rate the iterations of the smoother reduce the cost
-/

namespace PathPlanning
open Real Spec

/-! ## Differentiability of the terms, all points moving at once -/

section
variable {E : Type} [NormedAddCommGroup E] [NormedSpace ℝ E]

/-- A point whose coordinates are differentiable. -/
def DiffPt (a : E → Pt) (x : E) : Prop :=
  DifferentiableAt ℝ (fun y => (a y).x) x ∧ DifferentiableAt ℝ (fun y => (a y).y) x

theorem DiffPt.const (p : Pt) (x : E) : DiffPt (fun _ : E => p) x :=
  ⟨differentiableAt_const _, differentiableAt_const _⟩

theorem quot_diff {f g : E → ℝ} {x : E} (hf : DifferentiableAt ℝ f x) (hg : DifferentiableAt ℝ g x) (h : g x ≠ 0) :
    DifferentiableAt ℝ (fun y => f y / g y) x := by
  simp only [div_eq_mul_inv]
  exact hf.mul (hg.fun_inv h)

theorem bend_diff {a b c : E → Pt} {x : E} (ha : DiffPt a x) (hb : DiffPt b x) (hc : DiffPt c x) :
    DifferentiableAt ℝ (fun y => bend (a y) (b y) (c y)) x := by
  obtain ⟨a1, a2⟩ := ha
  obtain ⟨b1, b2⟩ := hb
  obtain ⟨c1, c2⟩ := hc
  unfold bend
  exact ((((a1.sub (b1.const_mul 2)).add c1).pow 2)).add (((a2.sub (b2.const_mul 2)).add c2).pow 2)

theorem dist2_diff {a b : E → Pt} {x : E} (ha : DiffPt a x) (hb : DiffPt b x) (hne : dist2 (a x) (b x) ≠ 0) :
    DifferentiableAt ℝ (fun y => dist2 (a y) (b y)) x := by
  obtain ⟨a1, a2⟩ := ha
  obtain ⟨b1, b2⟩ := hb
  unfold dist2
  exact (((a1.sub b1).pow 2).add ((a2.sub b2).pow 2)).sqrt (dist2_ne hne)

theorem dist2_sq_diff {a b : E → Pt} {x : E} (ha : DiffPt a x) (hb : DiffPt b x) :
    DifferentiableAt ℝ (fun y => dist2 (a y) (b y) ^ 2) x := by
  obtain ⟨a1, a2⟩ := ha
  obtain ⟨b1, b2⟩ := hb
  have : (fun y => dist2 (a y) (b y) ^ 2) = fun y => ((a y).x - (b y).x) ^ 2 + ((a y).y - (b y).y) ^ 2 :=
    funext fun y => dist2_sq _ _
  rw [this]
  exact ((a1.sub b1).pow 2).add ((a2.sub b2).pow 2)

theorem posPart_sq_diff {f : E → ℝ} {x : E} (hf : DifferentiableAt ℝ f x) :
    DifferentiableAt ℝ (fun y => (max 0 (f y)) ^ 2) x :=
  (posPart_sq_deriv (f x)).differentiableAt.comp x hf

theorem turn_argument {a b c : Pt} (hx : (b.x - a.x) * (c.y - b.y) - (b.y - a.y) * (c.x - b.x) ≠ 0) :
    dist2 a b ≠ 0 ∧ dist2 b c ≠ 0 ∧
    ((b.x - a.x) * (c.x - b.x) + (b.y - a.y) * (c.y - b.y)) / (dist2 a b * dist2 b c) ≠ -1 ∧
    ((b.x - a.x) * (c.x - b.x) + (b.y - a.y) * (c.y - b.y)) / (dist2 a b * dist2 b c) ≠ 1 := by
  have s1 := dist2_sq a b
  have s2 := dist2_sq b c
  have n1 : dist2 a b ≠ 0 := by
    intro h
    rw [h] at s1
    have e1 : a.x - b.x = 0 := by nlinarith [sq_nonneg (a.x - b.x), sq_nonneg (a.y - b.y)]
    have e2 : a.y - b.y = 0 := by nlinarith [sq_nonneg (a.x - b.x), sq_nonneg (a.y - b.y)]
    apply hx
    linear_combination (-(c.y - b.y)) * e1 + (c.x - b.x) * e2
  have n2 : dist2 b c ≠ 0 := by
    intro h
    rw [h] at s2
    have e1 : b.x - c.x = 0 := by nlinarith [sq_nonneg (b.x - c.x), sq_nonneg (b.y - c.y)]
    have e2 : b.y - c.y = 0 := by nlinarith [sq_nonneg (b.x - c.x), sq_nonneg (b.y - c.y)]
    apply hx
    linear_combination (-(b.x - a.x)) * e2 + (b.y - a.y) * e1
  have key : ∀ s : ℝ, s ^ 2 = 1 →
      ((b.x - a.x) * (c.x - b.x) + (b.y - a.y) * (c.y - b.y)) / (dist2 a b * dist2 b c) ≠ s := by
    intro s hs h
    rw [div_eq_iff (mul_ne_zero n1 n2)] at h
    have h2 : ((b.x - a.x) * (c.x - b.x) + (b.y - a.y) * (c.y - b.y)) ^ 2 =
        ((a.x - b.x) ^ 2 + (a.y - b.y) ^ 2) * ((b.x - c.x) ^ 2 + (b.y - c.y) ^ 2) := by
      rw [h, mul_pow, hs, mul_pow, s1, s2, one_mul]
    apply hx
    have : ((b.x - a.x) * (c.y - b.y) - (b.y - a.y) * (c.x - b.x)) ^ 2 = 0 := by linear_combination -h2
    exact pow_eq_zero_iff (two_ne_zero) |>.mp this
  exact ⟨n1, n2, key (-1) (by norm_num), key 1 (by norm_num)⟩

theorem excess_diff {a b c : E → Pt} {x : E} (ha : DiffPt a x) (hb : DiffPt b x) (hc : DiffPt c x) {K : ℝ} (hK : 0 < K)
    (hg : GoesOn (a x) (b x) (c x)) :
    DifferentiableAt ℝ (fun y => (max 0 (curvature (a y) (b y) (c y) - K)) ^ 2) x := by
  have hnum : DifferentiableAt ℝ (fun y => ((b y).x - (a y).x) * ((c y).x - (b y).x) +
      ((b y).y - (a y).y) * ((c y).y - (b y).y)) x :=
    ((hb.1.sub ha.1).mul (hc.1.sub hb.1)).add ((hb.2.sub ha.2).mul (hc.2.sub hb.2))
  by_cases hx : ((b x).x - (a x).x) * ((c x).y - (b x).y) - ((b x).y - (a x).y) * ((c x).x - (b x).x) = 0
  · have hd := hg.resolve_left (fun h => h hx)
    obtain ⟨h0, n1, n2, _⟩ := straight_curvature hx hd
    have hcont : ContinuousAt (fun y => curvature (a y) (b y) (c y)) x := by
      unfold curvature turn
      have d1 := (dist2_diff ha hb n1).continuousAt
      have d2 := (dist2_diff hb hc n2).continuousAt
      exact ContinuousAt.div (Real.continuous_arccos.continuousAt.comp
        (hnum.continuousAt.div (d1.mul d2) (mul_ne_zero n1 n2))) d1 n1
    have hev : (fun y => (max 0 (curvature (a y) (b y) (c y) - K)) ^ 2) =ᶠ[nhds x] fun _ => 0 := by
      filter_upwards [hcont.eventually_lt_const (show curvature (a x) (b x) (c x) < K by rw [h0]; exact hK)] with y hy
      rw [max_eq_left (by linarith)]; norm_num
    exact (differentiableAt_const (0 : ℝ)).congr_of_eventuallyEq hev
  · obtain ⟨n1, n2, m1, m2⟩ := turn_argument hx
    apply posPart_sq_diff
    unfold curvature turn
    have d1 := dist2_diff ha hb n1
    have d2 := dist2_diff hb hc n2
    have harg := quot_diff hnum (d1.fun_mul d2) (mul_ne_zero n1 n2)
    have hac : DifferentiableAt ℝ arccos _ := Real.differentiableAt_arccos.mpr ⟨m1, m2⟩
    exact (quot_diff (hac.comp x harg) d1 n1).sub_const K

theorem place_diff {a : E → Pt} {x : E} (ha : DiffPt a x) (q : SmoothParam) (hal : 0 < q.alpha) (requested : Pt)
    (near : Option (Pt × Pt)) (h : Ordinary q near (a x)) :
    DifferentiableAt ℝ (fun y => placeCost q requested near (a y)) x := by
  unfold placeCost
  refine DifferentiableAt.add (((dist2_sq_diff ha (DiffPt.const _ x)).const_mul _).neg) ?_
  cases near with
  | none => exact differentiableAt_const _
  | some oe =>
    obtain ⟨o, e⟩ := oe
    obtain ⟨ho, he, hne⟩ := h o e rfl
    have po := dist2_pos ho
    have pe := dist2_pos he
    have d1 := dist2_diff ha (DiffPt.const o x) po.ne'
    have d2 := dist2_diff ha (DiffPt.const e x) pe.ne'
    refine DifferentiableAt.add ((posPart_sq_diff (d1.const_sub _)).const_mul _) (DifferentiableAt.const_mul ?_ _)
    rcases lt_or_gt_of_ne hne with hlt | hgt
    · have hev : (fun y => voronoiCost q.alpha q.dMax (dist2 (a y) o) (dist2 (a y) e)) =ᶠ[nhds x] fun y =>
          (q.alpha / (q.alpha + dist2 (a y) o)) * (dist2 (a y) e / (dist2 (a y) o + dist2 (a y) e)) *
            ((dist2 (a y) o - q.dMax) ^ 2 / q.dMax ^ 2) := by
        filter_upwards [d1.continuousAt.eventually_lt_const hlt] with y hy
        unfold voronoiCost
        rw [if_neg (not_le.mpr hy)]
      refine DifferentiableAt.congr_of_eventuallyEq ?_ hev
      have q1 := quot_diff (differentiableAt_const q.alpha) (d1.const_add q.alpha) (by positivity)
      have q2 := quot_diff d2 (d1.fun_add d2) (by positivity)
      exact (q1.fun_mul q2).fun_mul (by simpa only [div_eq_mul_inv] using ((d1.sub_const q.dMax).fun_pow 2).mul_const _)
    · have hev : (fun y => voronoiCost q.alpha q.dMax (dist2 (a y) o) (dist2 (a y) e)) =ᶠ[nhds x] fun _ => 0 := by
        filter_upwards [d1.continuousAt.eventually_const_lt hgt] with y hy
        unfold voronoiCost
        rw [if_pos hy.le]
      exact (differentiableAt_const (0 : ℝ)).congr_of_eventuallyEq hev

end

/-! ## Paths as vectors -/

/-- The path with the given coordinates. -/
noncomputable def toPath {n : Nat} (x : Fin n → ℝ × ℝ) : List Pt := List.ofFn fun i => ⟨(x i).1, (x i).2⟩

theorem toPath_length {n : Nat} (x : Fin n → ℝ × ℝ) : (toPath x).length = n := by simp [toPath]

theorem pointOf_toPath {n : Nat} (x : Fin n → ℝ × ℝ) (k : Nat) :
    pointOf (toPath x) k = if h : k < n then ⟨(x ⟨k, h⟩).1, (x ⟨k, h⟩).2⟩ else ⟨0, 0⟩ := by
  unfold pointOf toPath
  rw [List.getD_eq_getElem?_getD, List.getElem?_ofFn]
  split <;> rfl

theorem pointOf_diff {n : Nat} (x : Fin n → ℝ × ℝ) (k : Nat) : DiffPt (fun y : Fin n → ℝ × ℝ => pointOf (toPath y) k) x := by
  simp only [DiffPt, pointOf_toPath]
  by_cases h : k < n
  · simp only [dif_pos h]
    constructor
    · exact (differentiableAt_apply (⟨k, h⟩ : Fin n) x).fst
    · exact (differentiableAt_apply (⟨k, h⟩ : Fin n) x).snd
  · simp only [dif_neg h]
    exact ⟨differentiableAt_const _, differentiableAt_const _⟩

/-- The coordinates of a path. -/
noncomputable def coords (l : List Pt) (i : Fin l.length) : ℝ × ℝ := ((pointOf l i).x, (pointOf l i).y)

theorem toPath_coords (l : List Pt) : toPath (coords l) = l := by
  unfold toPath coords
  apply List.ext_getElem
  · simp
  · intro i h1 h2
    simp only [List.getElem_ofFn]
    exact pointOf_get (List.getElem?_eq_getElem h2)

theorem pathCost_diff (ws wc K : ℝ) (hK : 0 < K) (I : Finset Nat) (place : Nat → Pt → ℝ) {n : Nat} (x : Fin n → ℝ × ℝ)
    (hg : ∀ i ∈ I, GoesOn (pointOf (toPath x) (i - 1)) (pointOf (toPath x) i) (pointOf (toPath x) (i + 1)))
    (hp : ∀ i ∈ I, DifferentiableAt ℝ (fun y : Fin n → ℝ × ℝ => place i (pointOf (toPath y) i)) x) :
    DifferentiableAt ℝ (fun y => pathCost ws wc K I place (toPath y)) x := by
  unfold pathCost
  simp only [toPath_length]
  refine DifferentiableAt.add (DifferentiableAt.add (DifferentiableAt.const_mul ?_ _)
    (DifferentiableAt.const_mul ?_ _)) ?_
  · refine DifferentiableAt.fun_sum fun k _ => ?_
    split
    · exact bend_diff (pointOf_diff x _) (pointOf_diff x _) (pointOf_diff x _)
    · exact differentiableAt_const _
  · exact DifferentiableAt.fun_sum fun i hi =>
      excess_diff (pointOf_diff x _) (pointOf_diff x _) (pointOf_diff x _) hK (hg i hi)
  · exact DifferentiableAt.fun_sum hp

/-- The path whose points have moved `t` times the vectors `v`. -/
noncomputable def moved (l : List Pt) (v : Nat → Pt) (t : ℝ) : List Pt :=
  toPath (coords l + t • fun i : Fin l.length => ((v i).x, (v i).y))

theorem moved_zero (l : List Pt) (v : Nat → Pt) : moved l v 0 = l := by
  unfold moved
  rw [zero_smul, add_zero, toPath_coords]

theorem moved_length (l : List Pt) (v : Nat → Pt) (t : ℝ) : (moved l v t).length = l.length := toPath_length _

theorem pointOf_moved (l : List Pt) (v : Nat → Pt) (t : ℝ) (k : Nat) (hk : k < l.length) :
    pointOf (moved l v t) k = ⟨(pointOf l k).x + t * (v k).x, (pointOf l k).y + t * (v k).y⟩ := by
  unfold moved
  rw [pointOf_toPath, dif_pos hk]
  rfl

theorem path_ext {l l' : List Pt} (h : l.length = l'.length) (hp : ∀ k < l.length, pointOf l k = pointOf l' k) : l = l' := by
  apply List.ext_getElem h
  intro i h1 h2
  have := hp i h1
  rwa [pointOf_get (List.getElem?_eq_getElem h1), pointOf_get (List.getElem?_eq_getElem h2)] at this

/-- The derivative of a cost of paths along a motion of all the points is the sum over the points. -/
theorem total_derivative (f : List Pt → ℝ) (l : List Pt)
    (hF : DifferentiableAt ℝ (fun x : Fin l.length → ℝ × ℝ => f (toPath x)) (coords l)) (v g : Nat → Pt)
    (hg : ∀ j < l.length, v j = 0 ∨ IsGradient (fun p => f (l.set j p)) (pointOf l j) (g j)) :
    HasDerivAt (fun t => f (moved l v t))
      (∑ j : Fin l.length, ((g j).x * (v j).x + (g j).y * (v j).y)) 0 := by
  have line : ∀ w : Fin l.length → ℝ × ℝ, HasDerivAt (fun t : ℝ => f (toPath (coords l + t • w)))
      (fderiv ℝ (fun x : Fin l.length → ℝ × ℝ => f (toPath x)) (coords l) w) 0 := by
    intro w
    have hl : HasDerivAt (fun t : ℝ => coords l + t • w) w 0 := by
      simpa using ((hasDerivAt_id (0 : ℝ)).smul_const w).const_add (coords l)
    have h0 : coords l + (0 : ℝ) • w = coords l := by simp
    have := hF.hasFDerivAt
    rw [← h0] at this
    have h2 := this.comp_hasDerivAt (0 : ℝ) hl
    rw [h0] at h2
    exact h2
  have hv := line fun i => ((v i).x, (v i).y)
  refine hv.congr_deriv ?_
  conv_lhs => rw [← Finset.univ_sum_single (fun i : Fin l.length => ((v i).x, (v i).y)), map_sum]
  refine Finset.sum_congr rfl fun j _ => ?_
  rcases hg j j.2 with h0 | hgr
  · rw [h0]
    have : (((0 : Pt).x, (0 : Pt).y) : ℝ × ℝ) = 0 := rfl
    rw [this, Pi.single_zero, map_zero]
    simp
  · have h1 := line (Pi.single j ((v j).x, (v j).y))
    have h2 := hgr (v j).x (v j).y
    refine h1.unique (h2.congr_of_eventuallyEq (Filter.Eventually.of_forall fun t => ?_))
    show f _ = f _
    congr 1
    apply path_ext
    · rw [toPath_length, List.length_set]
    · intro k hk
      rw [toPath_length] at hk
      rw [pointOf_toPath, dif_pos hk, pointOf_set l j k _ j.2]
      by_cases h : k = j
      · subst h
        simp [coords]
      · rw [if_neg h]
        have : (⟨k, hk⟩ : Fin l.length) ≠ j := fun hh => h (congrArg Fin.val hh)
        simp [coords, Pi.single_eq_of_ne this]

/-! ## The cost on the map -/

/-- The cost of a path: the bends, the curvatures, and the places of the optimised points, each with the obstacle and the
edge of the cell that the point is in. -/
noncomputable def Spec.smoothCost (q : SmoothParam) (map : OccMap) (ob ed : Cell → Cell) (requested : List Pt)
    (I : Finset Nat) : List Pt → ℝ :=
  pathCost q.smoothWeight q.curvatureWeight q.maxCurvature I
    (fun i p => placeCost q (pointOf requested i) (nearOf map ob ed p) p)

/-- The point is not on the border of cells. -/
def Spec.OffBorders (map : OccMap) (p : Pt) : Prop :=
  (∀ z : ℤ, (p.x - map.worldGridOrigin.x) / map.resolution ≠ z) ∧
  (∀ z : ℤ, (p.y - map.worldGridOrigin.y) / map.resolution ≠ z)

/-- Next to points that are not optimised the curvature is at most the maximum. -/
def Spec.BordersRound (q : SmoothParam) (I : Finset Nat) (l : List Pt) : Prop :=
  ∀ i ∈ I, (i - 1 ∉ I ∨ i + 1 ∉ I) → curvature (pointOf l (i - 1)) (pointOf l i) (pointOf l (i + 1)) ≤ q.maxCurvature

theorem truncInt_locally_constant {x : ℝ} (h : ∀ z : ℤ, x ≠ z) : ∀ᶠ y in nhds x, truncInt y = truncInt x := by
  have h0 : x ≠ 0 := by simpa using h 0
  rcases lt_or_gt_of_ne h0 with hneg | hpos
  · have h1 : x < ⌈x⌉ := lt_of_le_of_ne (Int.le_ceil x) (h _)
    have h2 : ((⌈x⌉ - 1 : ℤ) : ℝ) < x := by have := Int.ceil_lt_add_one x; push_cast; linarith
    filter_upwards [eventually_lt_nhds hneg, eventually_lt_nhds h1, eventually_gt_nhds h2] with y y0 y1 y2
    unfold truncInt
    rw [if_neg (not_le.mpr y0), if_neg (not_le.mpr hneg), Int.ceil_eq_iff]
    refine ⟨by push_cast at y2; exact y2, y1.le⟩
  · have h1 : (⌊x⌋ : ℝ) < x := lt_of_le_of_ne (Int.floor_le x) (fun hh => h _ hh.symm)
    filter_upwards [eventually_gt_nhds hpos, eventually_gt_nhds h1, eventually_lt_nhds (Int.lt_floor_add_one x)]
      with y y0 y1 y2
    unfold truncInt
    rw [if_pos y0.le, if_pos hpos.le, Int.floor_eq_iff]
    exact ⟨y1.le, y2⟩

theorem nearOf_locally_constant (map : OccMap) (ob ed : Cell → Cell) (p : ℝ → Pt) (hx : ContinuousAt (fun t => (p t).x) 0)
    (hy : ContinuousAt (fun t => (p t).y) 0) (h : OffBorders map (p 0)) :
    ∀ᶠ t in nhds 0, nearOf map ob ed (p t) = nearOf map ob ed (p 0) := by
  have cx : ContinuousAt (fun t => ((p t).x - map.worldGridOrigin.x) / map.resolution) 0 :=
    (hx.sub continuousAt_const).div_const _
  have cy : ContinuousAt (fun t => ((p t).y - map.worldGridOrigin.y) / map.resolution) 0 :=
    (hy.sub continuousAt_const).div_const _
  filter_upwards [cx.eventually (truncInt_locally_constant h.1), cy.eventually (truncInt_locally_constant h.2)]
    with t h1 h2
  unfold nearOf OccMap.isInsidePos OccMap.worldPositionToGridCell OccMap.gridPositionToGridCell
  dsimp only
  rw [h1, h2]

theorem decrease_of_negative {f : ℝ → ℝ} {D : ℝ} (h : HasDerivAt f D 0) (hD : D < 0) :
    ∃ δ > 0, ∀ t, 0 < t → t < δ → f t < f 0 := by
  have hs := hasDerivAt_iff_tendsto_slope_zero.mp h
  have hev := hs.eventually (eventually_lt_nhds hD)
  rw [eventually_nhdsWithin_iff, Metric.eventually_nhds_iff] at hev
  obtain ⟨δ, hδ, hh⟩ := hev
  refine ⟨δ, hδ, fun t ht htd => ?_⟩
  have := hh (y := t) (by rw [Real.dist_eq, sub_zero, abs_of_pos ht]; exact htd) ht.ne'
  rw [zero_add, smul_eq_mul] at this
  by_contra hc
  have : 0 ≤ t⁻¹ * (f t - f 0) := mul_nonneg (inv_nonneg.mpr ht.le) (by linarith)
  linarith

theorem curvParts_round (q : SmoothParam) (hK : 0 < q.maxCurvature) {a b c : Pt} (h : GoesOn a b c)
    (hc : curvature a b c ≤ q.maxCurvature) : curvParts q a b c = (0, 0, 0) := by
  have hk : SmoothParam.kappa (b - a) (c - b) ≤ q.maxCurvature := by
    by_cases hx : (b.x - a.x) * (c.y - b.y) - (b.y - a.y) * (c.x - b.x) = 0
    · rw [(straight_curvature hx (h.resolve_left (fun hh => hh hx))).2.2.2]
      exact hK.le
    · have hkap := (kappa_line (b - a) (c - b) ⟨0, 0⟩ ⟨0, 0⟩ hx).2
      have hcur : SmoothParam.kappa (b - a) (c - b) = curvature a b c := by
        rw [hkap, curvature, turn]
        rw [show (b - a).norm = dist2 b a from rfl, show (c - b).norm = dist2 c b from rfl, dist2_comm b a,
          dist2_comm c b]
        rfl
      rw [hcur]; exact hc
  unfold curvParts SmoothParam.curvatureTerm
  dsimp only
  rw [if_pos hk]

theorem border_still (q : SmoothParam) (hK : 0 < q.maxCurvature) (map : OccMap) (ob ed : Cell → Cell)
    (requested l : List Pt) (I : Finset Nat)
    (hg : ∀ i ∈ I, GoesOn (pointOf l (i - 1)) (pointOf l i) (pointOf l (i + 1))) (hr : BordersRound q I l) (j : Nat)
    (hj : j ∉ I) : stepGradient q map ob ed requested l I j = 0 := by
  unfold stepGradient
  rw [if_neg hj, zero_add]
  refine Finset.sum_eq_zero fun i hi => ?_
  unfold curvAt
  by_cases h1 : j + 1 = i
  · rw [if_pos h1, curvParts_round q hK (hg i hi) (hr i hi (Or.inl (by rw [← h1]; exact hj)))]
  · rw [if_neg h1]
    by_cases h2 : j = i
    · exact absurd (h2 ▸ hi) hj
    · rw [if_neg h2]
      by_cases h3 : j = i + 1
      · rw [if_pos h3, curvParts_round q hK (hg i hi) (hr i hi (Or.inr (by rw [← h3]; exact hj)))]
      · rw [if_neg h3]

/-- For the path `l` there is a rate below which the step of the code reduces the cost. -/
theorem step_decreases (q : SmoothParam) (hK : 0 < q.maxCurvature) (ha : 0 < q.alpha) (hd : 0 < q.dMax)
    (hw : 0 ≤ q.voronoiWeight) (map : OccMap) (ob ed : Cell → Cell) (requested l : List Pt) (I : Finset Nat)
    (hI : ∀ i ∈ I, 2 ≤ i ∧ i + 2 < l.length) (hreg : Regular q map ob ed I l) (hb : BordersRound q I l)
    (hoff : ∀ i ∈ I, OffBorders map (pointOf l i)) :
    ∃ δ > 0, ∀ η, 0 < η → η < δ → ∀ l' : List Pt, l'.length = l.length →
      (∀ j < l.length, pointOf l' j = ⟨(pointOf l j).x - η * (stepGradient q map ob ed requested l I j).x,
        (pointOf l j).y - η * (stepGradient q map ob ed requested l I j).y⟩) →
      l' = l ∨ smoothCost q map ob ed requested I l' < smoothCost q map ob ed requested I l := by
  obtain ⟨g, hgdef⟩ : ∃ g, g = stepGradient q map ob ed requested l I := ⟨_, rfl⟩
  obtain ⟨v, hvdef⟩ : ∃ v : Nat → Pt, v = fun j => ⟨-(g j).x, -(g j).y⟩ := ⟨_, rfl⟩
  rw [← hgdef]
  by_cases hz : ∀ j < l.length, g j = 0
  · refine ⟨1, one_pos, fun η _ _ l' hl hp => Or.inl (path_ext hl fun k hk => ?_)⟩
    rw [hp k (by omega), hz k (by omega)]
    ext <;> simp
  · push Not at hz
    obtain ⟨j0, hj0, hne⟩ := hz
    have hder := total_derivative (iterationCost q map ob ed requested l q.smoothWeight I) l
      (by
        unfold iterationCost
        refine pathCost_diff _ _ _ hK I _ _ (fun i hi => ?_) fun i hi => ?_
        · rw [toPath_coords]; exact (hreg i hi).1
        · refine place_diff (pointOf_diff _ _) q ha _ _ ?_
          rw [toPath_coords]; exact (hreg i hi).2) v g
      (fun j hj => by
        by_cases hjI : j ∈ I
        · right
          have := iteration_gradient q hK ha hd hw map ob ed requested l I hI hreg j hj
          rw [if_pos hjI] at this
          rw [hgdef]
          unfold stepGradient
          exact this
        · left
          rw [hvdef]
          dsimp only
          rw [hgdef, border_still q hK map ob ed requested l I (fun i hi => (hreg i hi).1) hb j hjI]
          ext <;> simp)
    have hneg : ∑ j : Fin l.length, ((g j).x * (v j).x + (g j).y * (v j).y) < 0 := by
      have e : ∀ j : Nat, (g j).x * (v j).x + (g j).y * (v j).y = -((g j).x ^ 2 + (g j).y ^ 2) := by
        intro j; rw [hvdef]; dsimp only; ring
      simp only [e]
      rw [Finset.sum_neg_distrib, neg_lt_zero]
      refine Finset.sum_pos' (fun i _ => by positivity) ⟨⟨j0, hj0⟩, Finset.mem_univ _, ?_⟩
      by_contra hc
      have h1 : (g j0).x = 0 := by nlinarith [sq_nonneg (g j0).x, sq_nonneg (g j0).y]
      have h2 : (g j0).y = 0 := by nlinarith [sq_nonneg (g j0).x, sq_nonneg (g j0).y]
      exact hne (by ext <;> simp [h1, h2])
    obtain ⟨δ, hδ, hdec⟩ := decrease_of_negative hder hneg
    have hnear : ∀ᶠ t in nhds (0 : ℝ), ∀ i ∈ I, nearOf map ob ed (pointOf (moved l v t) i) =
        nearOf map ob ed (pointOf l i) := by
      rw [Filter.eventually_all_finset]
      intro i hi
      have hil : i < l.length := by have := hI i hi; omega
      have := nearOf_locally_constant map ob ed (fun t => pointOf (moved l v t) i)
        (by simp only [pointOf_moved l v _ i hil]; fun_prop) (by simp only [pointOf_moved l v _ i hil]; fun_prop)
        (by rw [moved_zero]; exact hoff i hi)
      simpa only [moved_zero] using this
    rw [Metric.eventually_nhds_iff] at hnear
    obtain ⟨δ', hδ', hnear⟩ := hnear
    refine ⟨min δ δ', lt_min hδ hδ', fun η h0 hη l' hl hp => Or.inr ?_⟩
    have hl' : l' = moved l v η := by
      refine path_ext (by rw [hl, moved_length]) fun k hk => ?_
      rw [hp k (by omega), pointOf_moved l v η k (by omega), hvdef]
      ext <;> simp only <;> ring
    have hdec := hdec η h0 (lt_of_lt_of_le hη (min_le_left _ _))
    have hnear := hnear (y := η) (by rw [Real.dist_eq, sub_zero, abs_of_pos h0]; exact lt_of_lt_of_le hη (min_le_right _ _))
    rw [moved_zero] at hdec
    have eq : ∀ m : List Pt, (∀ i ∈ I, nearOf map ob ed (pointOf m i) = nearOf map ob ed (pointOf l i)) →
        smoothCost q map ob ed requested I m = iterationCost q map ob ed requested l q.smoothWeight I m := by
      intro m hm
      unfold smoothCost iterationCost pathCost
      congr 1
      exact Finset.sum_congr rfl fun i hi => by dsimp only; rw [hm i hi]
    rw [hl', eq _ hnear, eq _ (fun _ _ => rfl)]
    exact hdec

/-- C112 (partial, see `C112_cost_can_increase`): for every requested path there is a positive bound for each path such
that every iteration with a learning rate below the bound for the path that it starts from strictly reduces the cost, or
changes nothing. The path must be regular (C109), its optimised points not exactly on the borders of cells, and its
curvature within the maximum next to the points that are not optimised (so that these do not move). -/
theorem C112_cost_decreases_partial (q : SmoothParam) (hK : 0 < q.maxCurvature) (ha : 0 < q.alpha) (hd : 0 < q.dMax)
    (hw : 0 ≤ q.voronoiWeight) (map : OccMap) (ob ed : Cell → Cell) (requested : List Pt) (h5 : 5 ≤ requested.length)
    (cusp : Nat → Bool) (I : Finset Nat)
    (hI : ∀ j, j ∈ I ↔ 2 ≤ j ∧ j + 2 < requested.length ∧ ∀ d, cusp d = true → j + 2 < d ∨ d + 2 < j) :
    ∃ bound : List Pt → ℝ, (∀ l, 0 < bound l) ∧
      ∀ (rate : ℝ) (H : Type) (maxIterations : Int) (valid : Pt × H → Option Bool) (path : List (Pt × H))
        (s : SmoothStatus) (r : List (Pt × H)) (n : Nat), 0 < rate → path.map Prod.fst = requested →
        Smoother.smooth (SmoothParam.terms { q with learningRate := rate } map ob ed) maxIterations valid cusp path
          = some (s, r, n) →
        ∃ it : Nat → List Pt, it 0 = requested ∧ it n = r.map Prod.fst ∧
          ∀ k < n, Regular q map ob ed I (it k) → BordersRound q I (it k) →
            (∀ i ∈ I, OffBorders map (pointOf (it k) i)) → rate < bound (it k) →
            it (k + 1) = it k ∨
              smoothCost q map ob ed requested I (it (k + 1)) < smoothCost q map ob ed requested I (it k) := by
  classical
  have key : ∀ l : List Pt, ∃ δ > 0, l.length = requested.length → Regular q map ob ed I l → BordersRound q I l →
      (∀ i ∈ I, OffBorders map (pointOf l i)) → ∀ η, 0 < η → η < δ → ∀ l' : List Pt, l'.length = l.length →
      (∀ j < l.length, pointOf l' j = ⟨(pointOf l j).x - η * (stepGradient q map ob ed requested l I j).x,
        (pointOf l j).y - η * (stepGradient q map ob ed requested l I j).y⟩) →
      l' = l ∨ smoothCost q map ob ed requested I l' < smoothCost q map ob ed requested I l := by
    intro l
    by_cases h : l.length = requested.length ∧ Regular q map ob ed I l ∧ BordersRound q I l ∧
      ∀ i ∈ I, OffBorders map (pointOf l i)
    · obtain ⟨δ, hδ, hh⟩ := step_decreases q hK ha hd hw map ob ed requested l I (fun i hi => by
        have := (hI i).mp hi; rw [h.1]; exact ⟨this.1, this.2.1⟩) h.2.1 h.2.2.1 h.2.2.2
      exact ⟨δ, hδ, fun _ _ _ _ => hh⟩
    · exact ⟨1, one_pos, fun h1 h2 h3 h4 => absurd ⟨h1, h2, h3, h4⟩ h⟩
  choose bound hpos hbound using key
  refine ⟨bound, hpos, ?_⟩
  · intro rate H maxIterations valid path s r n hrate hpath hs
    have hlen : path.length = requested.length := by rw [← hpath, List.length_map]
    obtain ⟨it, h0, hn, hstep⟩ := iterations_value { q with learningRate := rate } map ob ed maxIterations valid cusp path
      s r n (by omega) hs I (by rw [hlen]; exact hI)
    refine ⟨it, by rw [h0, hpath], hn, fun k hk hreg hb hoff hlt => ?_⟩
    obtain ⟨hl, hl', hv⟩ := hstep k hk
    refine hbound (it k) (by rw [hl, hlen]) hreg hb hoff rate hrate hlt _ (by rw [hl, hl']) fun j hj => ?_
    rw [hv j (by omega), hpath]
    rfl

/-! ## The cost can increase -/

/-- A path with a right angle at its only optimised point. -/
noncomputable def hookPath : List Pt := [⟨8, 0⟩, ⟨-1, 0⟩, ⟨0, 0⟩, ⟨0, 1⟩, ⟨-10, 2⟩]

theorem hook_kappa : SmoothParam.kappa ⟨1, 0⟩ ⟨0, 1⟩ = π / 2 ∧
    SmoothParam.dKappa ⟨1, 0⟩ ⟨0, 1⟩ = (⟨π / 2, 1⟩, ⟨1 - π / 2, -1⟩, ⟨-1, 0⟩) := by
  have n1 : (⟨1, 0⟩ : Pt).norm = 1 := by simp [Pt.norm]
  have n2 : (⟨0, 1⟩ : Pt).norm = 1 := by simp [Pt.norm]
  have hphi : SmoothParam.deltaPhi ⟨1, 0⟩ ⟨0, 1⟩ = π / 2 := by
    unfold SmoothParam.deltaPhi Pt.normalized
    rw [n1, n2]
    simp [Pt.dot, Pt.scale]
  constructor
  · unfold SmoothParam.kappa
    rw [hphi, n1, div_one]
  · unfold SmoothParam.dKappa SmoothParam.orthogonalComplement Pt.normalized
    rw [n1, n2, hphi]
    simp only [Pt.scale, Pt.dot, Real.cos_pi_div_two]
    refine Prod.ext ?_ (Prod.ext ?_ ?_) <;> ext <;> simp <;> ring

theorem hook_curvParts : curvParts (SmoothParam.default 1 0) ⟨-1, 0⟩ ⟨0, 0⟩ ⟨0, 1⟩ =
    (⟨4 / 10 * (π / 2 - 1) * (π / 2), 4 / 10 * (π / 2 - 1)⟩,
      ⟨4 / 10 * (π / 2 - 1) * (1 - π / 2), -(4 / 10 * (π / 2 - 1))⟩, ⟨-(4 / 10 * (π / 2 - 1)), 0⟩) := by
  have hd : (⟨0, 0⟩ : Pt) - ⟨-1, 0⟩ = ⟨1, 0⟩ := by ext <;> simp
  have he : (⟨0, 1⟩ : Pt) - ⟨0, 0⟩ = ⟨0, 1⟩ := by ext <;> simp
  have hpi := Real.pi_gt_three
  unfold curvParts SmoothParam.curvatureTerm
  dsimp only
  rw [hd, he, hook_kappa.1, if_neg (by simp only [SmoothParam.default]; linarith), hook_kappa.2]
  simp only [SmoothParam.default, Pt.scale]
  refine Prod.ext ?_ (Prod.ext ?_ ?_) <;> ext <;> simp <;> ring

theorem bend_line (a b c va vb vc : Pt) :
    HasDerivAt (fun t : ℝ => bend ⟨a.x + t * va.x, a.y + t * va.y⟩ ⟨b.x + t * vb.x, b.y + t * vb.y⟩
        ⟨c.x + t * vc.x, c.y + t * vc.y⟩)
      (2 * ((a.x - 2 * b.x + c.x) * (va.x - 2 * vb.x + vc.x) + (a.y - 2 * b.y + c.y) * (va.y - 2 * vb.y + vc.y))) 0 := by
  have l : ∀ a v : ℝ, HasDerivAt (fun t : ℝ => a + t * v) v 0 := fun a v => by
    simpa using ((hasDerivAt_id (0 : ℝ)).mul_const v).const_add a
  have hx := (((l a.x va.x).sub ((l b.x vb.x).const_mul 2)).add (l c.x vc.x)).pow 2
  have hy := (((l a.y va.y).sub ((l b.y vb.y).const_mul 2)).add (l c.y vc.y)).pow 2
  refine (hx.add hy).congr_deriv ?_
  simp
  ring

theorem curvature_line (a b c va vb vc : Pt) (hx : (b.x - a.x) * (c.y - b.y) - (b.y - a.y) * (c.x - b.x) ≠ 0) :
    HasDerivAt (fun t : ℝ => curvature ⟨a.x + t * va.x, a.y + t * va.y⟩ ⟨b.x + t * vb.x, b.y + t * vb.y⟩
        ⟨c.x + t * vc.x, c.y + t * vc.y⟩)
      (-(SmoothParam.dKappa (b - a) (c - b)).1.x * (vb.x - va.x) + -(SmoothParam.dKappa (b - a) (c - b)).1.y * (vb.y - va.y) +
        (SmoothParam.dKappa (b - a) (c - b)).2.2.x * (vc.x - vb.x) +
        (SmoothParam.dKappa (b - a) (c - b)).2.2.y * (vc.y - vb.y)) 0 := by
  have h := (kappa_line (b - a) (c - b) (vb - va) (vc - vb) hx).1
  refine h.congr_of_eventuallyEq (Filter.Eventually.of_forall fun t => ?_)
  show curvature _ _ _ = _
  rw [curvature, turn]
  unfold dist2
  simp only [Pt.sub_x, Pt.sub_y]
  have e1 : b.x + t * vb.x - (a.x + t * va.x) = b.x - a.x + t * (vb.x - va.x) := by ring
  have e2 : b.y + t * vb.y - (a.y + t * va.y) = b.y - a.y + t * (vb.y - va.y) := by ring
  have e3 : c.x + t * vc.x - (b.x + t * vb.x) = c.x - b.x + t * (vc.x - vb.x) := by ring
  have e4 : c.y + t * vc.y - (b.y + t * vb.y) = c.y - b.y + t * (vc.y - vb.y) := by ring
  have q1 : (a.x + t * va.x - (b.x + t * vb.x)) ^ 2 = (b.x - a.x + t * (vb.x - va.x)) ^ 2 := by ring
  have q2 : (a.y + t * va.y - (b.y + t * vb.y)) ^ 2 = (b.y - a.y + t * (vb.y - va.y)) ^ 2 := by ring
  have q3 : (b.x + t * vb.x - (c.x + t * vc.x)) ^ 2 = (c.x - b.x + t * (vc.x - vb.x)) ^ 2 := by ring
  have q4 : (b.y + t * vb.y - (c.y + t * vc.y)) ^ 2 = (c.y - b.y + t * (vc.y - vb.y)) ^ 2 := by ring
  rw [e1, e2, e3, e4, q1, q2, q3, q4]

/-- The motion of the points of the hook. -/
noncomputable def hookMove (j : Nat) : Pt :=
  if j = 1 then ⟨-(4 / 10 * (π / 2 - 1) * (π / 2)), -(4 / 10 * (π / 2 - 1))⟩
  else if j = 2 then ⟨-(8 / 10) - 4 / 10 * (π / 2 - 1) * (1 - π / 2), 8 / 10 + 4 / 10 * (π / 2 - 1)⟩
  else if j = 3 then ⟨4 / 10 * (π / 2 - 1), 0⟩ else 0

theorem far_placeCost (near : Option (Pt × Pt)) (requested p : Pt) (h : ∀ o e, near = some (o, e) → 30 < dist2 p o) :
    placeCost (SmoothParam.default 1 0) requested near p = 0 := by
  unfold placeCost
  cases near with
  | none => simp [SmoothParam.default]
  | some oe =>
    obtain ⟨o, e⟩ := oe
    have h := h o e rfl
    unfold voronoiCost
    have h30 : (SmoothParam.default 1 0).dMax = 30 := rfl
    dsimp only
    rw [h30, if_pos (by exact h.le)]
    simp only [SmoothParam.default]
    rw [max_eq_left (by linarith)]
    norm_num

theorem hook_step (map : OccMap) (ob ed : Cell → Cell)
    (hfar : ∀ o e, nearOf map ob ed ⟨0, 0⟩ = some (o, e) → 30 < dist2 ⟨0, 0⟩ o) (j : Nat) (hj : j < 5) :
    stepGradient (SmoothParam.default 1 0) map ob ed hookPath hookPath {2} j =
      ⟨-(hookMove j).x, -(hookMove j).y⟩ := by
  have e1 : pointOf hookPath (2 - 1) = ⟨-1, 0⟩ := rfl
  have e2 : pointOf hookPath 2 = ⟨0, 0⟩ := rfl
  have e3 : pointOf hookPath (2 + 1) = ⟨0, 1⟩ := rfl
  have hpl : placeTerm (SmoothParam.default 1 0) ⟨0, 0⟩ (nearOf map ob ed ⟨0, 0⟩) ⟨0, 0⟩ = 0 := by
    unfold placeTerm
    have h0 : (SmoothParam.default 1 0).pathTerm ⟨0, 0⟩ ⟨0, 0⟩ = 0 := by
      unfold SmoothParam.pathTerm
      ext <;> simp [Pt.scale]
    rw [h0, zero_add]
    cases hn : nearOf map ob ed ⟨0, 0⟩ with
    | none => rfl
    | some oe =>
      obtain ⟨o, e⟩ := oe
      have hd := hfar o e hn
      dsimp only
      have h1 : (SmoothParam.default 1 0).collisionTerm (⟨0, 0⟩ - o) = 0 := by
        unfold SmoothParam.collisionTerm
        rw [if_neg (by rw [norm_eq_dist2]; simp only [SmoothParam.unsafeRadius, SmoothParam.default]; linarith)]
        rfl
      have h2 : (SmoothParam.default 1 0).voronoiTerm (⟨0, 0⟩ - o) (⟨0, 0⟩ - e) = 0 := by
        unfold SmoothParam.voronoiTerm
        rw [if_neg (by rw [norm_eq_dist2]; simp only [SmoothParam.default]; intro h; linarith [h.1])]
        rfl
      rw [h1, h2, zero_add]
  unfold stepGradient
  rw [Finset.sum_singleton]
  unfold curvAt
  rw [e1, e2, e3, hook_curvParts]
  interval_cases j
  · simp [hookMove]
    ext <;> simp
  · simp [hookMove]
  · rw [if_pos (by simp)]
    unfold pointAt
    rw [e2, hpl]
    simp only [hookMove, SmoothParam.smoothTerm, SmoothParam.default, Pt.scale, pointOf, hookPath]
    ext
    · simp; ring
    · simp; ring
  · simp [hookMove]
  · simp [hookMove]
    ext <;> simp

/-- C112 is violated: with the default weights, away from all obstacles, there is a path whose cost is increased by an
iteration for every small learning rate. (The points next to the only optimised point follow its curvature although that
makes the bends worse.) -/
theorem C112_cost_can_increase (map : OccMap) (ob ed : Cell → Cell) (hoff : OffBorders map ⟨0, 0⟩)
    (hfar : ∀ o e, nearOf map ob ed ⟨0, 0⟩ = some (o, e) → 30 < dist2 ⟨0, 0⟩ o) :
    ∃ δ > 0, ∀ (rate : ℝ) (H : Type) (valid : Pt × H → Option Bool) (path : List (Pt × H)) (s : SmoothStatus)
      (r : List (Pt × H)), 0 < rate → rate < δ → path.map Prod.fst = hookPath →
      Smoother.smooth (SmoothParam.terms { SmoothParam.default 1 0 with learningRate := rate } map ob ed) 1 valid
        (fun _ => false) path = some (s, r, 1) →
      smoothCost (SmoothParam.default 1 0) map ob ed hookPath {2} hookPath <
        smoothCost (SmoothParam.default 1 0) map ob ed hookPath {2} (r.map Prod.fst) := by
  obtain ⟨c, hc⟩ : ∃ c : ℝ → ℝ, c = fun t => smoothCost (SmoothParam.default 1 0) map ob ed hookPath {2}
      (moved hookPath hookMove t) := ⟨_, rfl⟩
  have hlen : hookPath.length = 5 := rfl
  have pt : ∀ (t : ℝ) (k : Nat), k < 5 → pointOf (moved hookPath hookMove t) k =
      ⟨(pointOf hookPath k).x + t * (hookMove k).x, (pointOf hookPath k).y + t * (hookMove k).y⟩ := fun t k hk =>
    pointOf_moved _ _ _ _ hk
  -- the places cost nothing
  have hplace : ∀ᶠ t in nhds (0 : ℝ), placeCost (SmoothParam.default 1 0) (pointOf hookPath 2)
      (nearOf map ob ed (pointOf (moved hookPath hookMove t) 2)) (pointOf (moved hookPath hookMove t) 2) = 0 := by
    have hn := nearOf_locally_constant map ob ed (fun t => pointOf (moved hookPath hookMove t) 2)
      (by simp only [pt _ 2 (by norm_num)]; fun_prop) (by simp only [pt _ 2 (by norm_num)]; fun_prop)
      (by rw [moved_zero]; exact hoff)
    rw [moved_zero] at hn
    cases hnear : nearOf map ob ed (pointOf hookPath 2) with
    | none =>
      filter_upwards [hn] with t ht
      rw [ht, hnear]
      exact far_placeCost _ _ _ (fun o e h => by cases h)
    | some oe =>
      obtain ⟨o, e⟩ := oe
      have hd := hfar o e hnear
      have hcont : ContinuousAt (fun t => dist2 (pointOf (moved hookPath hookMove t) 2) o) 0 := by
        simp only [pt _ 2 (by norm_num)]
        unfold dist2
        fun_prop
      filter_upwards [hn, hcont.eventually_const_lt (show (30 : ℝ) < _ by dsimp only; rw [moved_zero]; exact hd)] with t ht ht'
      rw [ht, hnear]
      refine far_placeCost _ _ _ (fun o' e' h => ?_)
      cases h
      exact ht'
  -- the derivative of the rest
  have b1 := bend_line (pointOf hookPath 0) (pointOf hookPath 1) (pointOf hookPath 2) (hookMove 0) (hookMove 1) (hookMove 2)
  have b2 := bend_line (pointOf hookPath 1) (pointOf hookPath 2) (pointOf hookPath 3) (hookMove 1) (hookMove 2) (hookMove 3)
  have b3 := bend_line (pointOf hookPath 2) (pointOf hookPath 3) (pointOf hookPath 4) (hookMove 2) (hookMove 3) (hookMove 4)
  have k1 := curvature_line (pointOf hookPath 1) (pointOf hookPath 2) (pointOf hookPath 3) (hookMove 1) (hookMove 2)
    (hookMove 3) (by simp [pointOf, hookPath])
  have hd := (((b1.add b2).add b3).const_mul (4 / 10 / 2)).add
    (((posPart_sq_deriv _).comp (0 : ℝ) (k1.sub_const 1)).const_mul (4 / 10 / 2))
  have hd := hd.congr_of_eventuallyEq (f₁ := c) (hplace.mono fun t ht => by
    rw [hc]
    dsimp only
    unfold smoothCost pathCost
    rw [Finset.sum_singleton, Finset.sum_singleton]
    dsimp only
    rw [ht, moved_length, hlen, add_zero]
    simp only [Finset.sum_range_succ, Finset.sum_range_zero]
    norm_num
    rw [pt t 0 (by norm_num), pt t 1 (by norm_num), pt t 2 (by norm_num), pt t 3 (by norm_num), pt t 4 (by norm_num)]
    simp only [SmoothParam.default]
    norm_num)
  have hk0 : curvature ⟨-1, 0⟩ ⟨0, 0⟩ ⟨0, 1⟩ = π / 2 := by
    rw [curvature, turn]
    simp [dist2]
  have hs1 : (⟨0, 0⟩ : Pt) - ⟨-1, 0⟩ = ⟨1, 0⟩ := by ext <;> simp
  have hs2 : (⟨0, 1⟩ : Pt) - ⟨0, 0⟩ = ⟨0, 1⟩ := by ext <;> simp
  have p0 : pointOf hookPath 0 = ⟨8, 0⟩ := rfl
  have p1 : pointOf hookPath 1 = ⟨-1, 0⟩ := rfl
  have p2 : pointOf hookPath 2 = ⟨0, 0⟩ := rfl
  have p3 : pointOf hookPath 3 = ⟨0, 1⟩ := rfl
  have p4 : pointOf hookPath 4 = ⟨-10, 2⟩ := rfl
  have m0 : hookMove 0 = 0 := by simp [hookMove]
  have m4 : hookMove 4 = 0 := by simp [hookMove]
  have m1 : hookMove 1 = ⟨-(4 / 10 * (π / 2 - 1) * (π / 2)), -(4 / 10 * (π / 2 - 1))⟩ := by simp [hookMove]
  have m2 : hookMove 2 = ⟨-(8 / 10) - 4 / 10 * (π / 2 - 1) * (1 - π / 2), 8 / 10 + 4 / 10 * (π / 2 - 1)⟩ := by
    simp [hookMove]
  have m3 : hookMove 3 = ⟨4 / 10 * (π / 2 - 1), 0⟩ := by simp [hookMove]
  rw [p0, p1, p2, p3, p4, m0, m1, m2, m3, m4, hs1, hs2, hook_kappa.2] at hd
  simp only [zero_mul, add_zero, hk0] at hd
  have hpi := Real.pi_gt_d2
  have hpi' := Real.pi_lt_d2
  rw [max_eq_right (by linarith)] at hd
  obtain ⟨δ, hδ, hinc⟩ := decrease_of_negative hd.neg (by
    simp only [Pt.zero_x, Pt.zero_y]
    obtain ⟨E, hE⟩ : ∃ E, E = π / 2 - 1 := ⟨_, rfl⟩
    have hE' : π / 2 = 1 + E := by linarith
    rw [hE']
    have h1 : 57 / 100 ≤ E := by linarith
    have h2 : E ≤ 576 / 1000 := by linarith
    have h3 : E ^ 2 ≤ 576 / 1000 * E := by nlinarith
    have h4 : E ^ 3 ≤ 576 / 1000 * E ^ 2 := by nlinarith
    have h5 : E ^ 4 ≤ 576 / 1000 * E ^ 3 := by nlinarith [pow_nonneg (show 0 ≤ E by linarith) 3]
    have h6 : 0 ≤ E ^ 3 := by positivity
    have h7 : 0 ≤ E ^ 4 := by positivity
    ring_nf
    nlinarith)
  refine ⟨δ, hδ, fun rate H valid path s r hr hrδ hp hs => ?_⟩
  have hpl : path.length = 5 := by rw [← hlen, ← hp, List.length_map]
  obtain ⟨it, h0, h1, hstep⟩ := iterations_value { SmoothParam.default 1 0 with learningRate := rate } map ob ed 1 valid
    (fun _ => false) path s r 1 (by omega) hs {2} (fun j => by rw [hpl]; simp; omega)
  obtain ⟨hl0, hl1, hv⟩ := hstep 0 (by norm_num)
  have hend : r.map Prod.fst = moved hookPath hookMove rate := by
    rw [← h1]
    refine path_ext (by rw [moved_length, hl1, hpl, hlen]) fun k hk => ?_
    rw [show (it 1).length = path.length from hl1, hpl] at hk
    rw [pt _ k (by omega), hv k (by omega), h0, hp]
    have := hook_step map ob ed hfar k (by omega)
    change stepGradient { SmoothParam.default 1 0 with learningRate := rate } map ob ed hookPath hookPath {2} k = _ at this
    rw [this]
    ext <;> simp
  have := hinc rate hr hrδ
  rw [hend]
  simp only [Pi.neg_apply, hc, moved_zero] at this
  linarith

theorem one_iteration (q : SmoothParam) (map : OccMap) (ob ed : Cell → Cell) (path : List (Pt × Unit))
    (h5 : 5 ≤ path.length) :
    ∃ s r, Smoother.smooth (q.terms map ob ed) 1 (fun _ => some true) (fun _ => false) path = some (s, r, 1) := by
  obtain ⟨s, r, n, h⟩ := C59_defined (H := Unit) (q.terms map ob ed) 1 (fun _ => some true) (fun _ => false) path
    (fun _ => rfl)
  obtain ⟨_, hst⟩ := C60_status _ _ _ _ _ _ _ _ h
  obtain ⟨it, gs, _, _, _, h1, h2, h3⟩ := C60_iterations _ _ _ _ _ _ _ _ h5 h
  have h4 := hst.mpr (fun _ _ => rfl)
  cases s with
  | maxIteration => obtain rfl : n = 1 := h1 rfl; exact ⟨_, r, h⟩
  | stepTolerance =>
    have := h2 rfl
    have e : (1 : Int).toNat = 1 := rfl
    omega
  | pathSize => exact absurd rfl h3
  | failure => exact absurd h4 (by decide)
  | collision => exact absurd h4 (by decide)

/-- The hypotheses of `C112_cost_can_increase` hold for the middle of a map of hundred by hundred cells with an obstacle
in a corner, and the run it speaks of exists. -/
example : ∃ (map : OccMap) (rate : ℝ) (s : SmoothStatus) (r : List (Pt × Unit)), 0 < rate ∧
    Smoother.smooth (SmoothParam.terms { SmoothParam.default 1 0 with learningRate := rate } map (fun _ => ⟨0, 0⟩)
      (fun _ => ⟨0, 99⟩)) 1 (fun _ => some true) (fun _ => false) (hookPath.map fun p => (p, ())) = some (s, r, 1) ∧
    smoothCost (SmoothParam.default 1 0) map (fun _ => ⟨0, 0⟩) (fun _ => ⟨0, 99⟩) hookPath {2} hookPath <
      smoothCost (SmoothParam.default 1 0) map (fun _ => ⟨0, 0⟩) (fun _ => ⟨0, 99⟩) hookPath {2} (r.map Prod.fst) := by
  have hz : ∀ z : ℤ, (101 / 2 : ℝ) ≠ z := by
    intro z h
    have : (101 : ℝ) = ((2 * z : ℤ) : ℝ) := by push_cast; linarith
    have : (101 : ℤ) = 2 * z := by exact_mod_cast this
    omega
  obtain ⟨δ, hδ, h⟩ := C112_cost_can_increase
    ⟨1, 100, 100, ⟨0, 0⟩, ⟨-(101 / 2), -(101 / 2)⟩, ⟨-(101 / 2), -(101 / 2)⟩⟩ (fun _ => ⟨0, 0⟩) (fun _ => ⟨0, 99⟩)
    ⟨by simpa using hz, by simpa using hz⟩ (by
      intro o e h
      unfold nearOf at h
      split at h
      · simp only [Option.some.injEq, Prod.mk.injEq] at h
        obtain ⟨rfl, rfl⟩ := h
        unfold dist2
        refine Real.lt_sqrt_of_sq_lt ?_
        norm_num [OccMap.gridCellToWorldPosition, OccMap.gridCellToGridPosition]
      · cases h)
  obtain ⟨s, r, hs⟩ := one_iteration { SmoothParam.default 1 0 with learningRate := δ / 2 }
    ⟨1, 100, 100, ⟨0, 0⟩, ⟨-(101 / 2), -(101 / 2)⟩, ⟨-(101 / 2), -(101 / 2)⟩⟩ (fun _ => ⟨0, 0⟩) (fun _ => ⟨0, 99⟩)
    (hookPath.map fun p => (p, ())) (by simp [hookPath])
  exact ⟨_, δ / 2, s, r, by positivity, hs, h _ _ _ _ _ _ (by positivity) (by linarith) (by simp [hookPath]) hs⟩

/-- The hypotheses of `C112_cost_decreases_partial` about an iterate hold for a path with a right angle that the vehicle
can follow. -/
example : ∃ (map : OccMap) (l : List Pt), Regular (SmoothParam.default 2 1) map (fun _ => ⟨0, 0⟩) (fun _ => ⟨0, 9⟩) {2} l ∧
    BordersRound (SmoothParam.default 2 1) {2} l ∧ (∀ i ∈ ({2} : Finset Nat), OffBorders map (pointOf l i)) ∧
    0 < curvature (pointOf l 1) (pointOf l 2) (pointOf l 3) := by
  have hz : ∀ z : ℤ, (15 / 2 : ℝ) ≠ z := by
    intro z h
    have : (15 : ℝ) = ((2 * z : ℤ) : ℝ) := by push_cast; linarith
    have : (15 : ℤ) = 2 * z := by exact_mod_cast this
    omega
  have hz' : ∀ z : ℤ, (11 / 2 : ℝ) ≠ z := by
    intro z h
    have : (11 : ℝ) = ((2 * z : ℤ) : ℝ) := by push_cast; linarith
    have : (11 : ℤ) = 2 * z := by exact_mod_cast this
    omega
  have hc : curvature ⟨1, 0⟩ ⟨2, 0⟩ ⟨2, 1⟩ = π / 2 := by
    rw [curvature, turn]
    norm_num [dist2]
  have hpi := Real.pi_pos
  have hpi' := Real.pi_lt_d2
  refine ⟨⟨1, 10, 10, ⟨0, 0⟩, ⟨-(11 / 2), -(11 / 2)⟩, ⟨-(11 / 2), -(11 / 2)⟩⟩,
    [⟨0, 0⟩, ⟨1, 0⟩, ⟨2, 0⟩, ⟨2, 1⟩, ⟨2, 2⟩], ?_, ?_, ?_, ?_⟩
  · intro i hi
    rw [Finset.mem_singleton] at hi
    subst hi
    refine ⟨Or.inl (by norm_num [pointOf]), ?_⟩
    intro o e h
    unfold nearOf at h
    split at h
    · simp only [Option.some.injEq, Prod.mk.injEq] at h
      obtain ⟨rfl, rfl⟩ := h
      refine ⟨fun hh => ?_, fun hh => ?_, fun hh => ?_⟩
      · have := congrArg Pt.x hh
        norm_num [pointOf, OccMap.gridCellToWorldPosition, OccMap.gridCellToGridPosition] at this
      · have := congrArg Pt.x hh
        norm_num [pointOf, OccMap.gridCellToWorldPosition, OccMap.gridCellToGridPosition] at this
      · have h2 := dist2_sq (pointOf [⟨0, 0⟩, ⟨1, 0⟩, ⟨2, 0⟩, ⟨2, 1⟩, ⟨2, 2⟩] 2) (OccMap.gridCellToWorldPosition
          ⟨1, 10, 10, ⟨0, 0⟩, ⟨-(11 / 2), -(11 / 2)⟩, ⟨-(11 / 2), -(11 / 2)⟩⟩ ⟨0, 0⟩)
        rw [hh] at h2
        norm_num [pointOf, OccMap.gridCellToWorldPosition, OccMap.gridCellToGridPosition, SmoothParam.default] at h2
    · cases h
  · intro i hi _
    rw [Finset.mem_singleton] at hi
    subst hi
    show curvature ⟨1, 0⟩ ⟨2, 0⟩ ⟨2, 1⟩ ≤ 2
    rw [hc]
    linarith
  · intro i hi
    rw [Finset.mem_singleton] at hi
    subst hi
    refine ⟨fun z hh => hz z ?_, fun z hh => hz' z ?_⟩
    · rw [← hh]; norm_num [pointOf]
    · rw [← hh]; norm_num [pointOf]
  · show 0 < curvature ⟨1, 0⟩ ⟨2, 0⟩ ⟨2, 1⟩
    rw [hc]
    positivity

end PathPlanning
