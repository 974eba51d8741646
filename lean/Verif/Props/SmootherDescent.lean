import Verif.Props.SmootherStraight
import Verif.Props.Smoother
import Verif.Spec.Smoother
import Mathlib.Analysis.Calculus.Deriv.Add

/-!
# C109: every iteration of the smoother is a step of gradient descent
-/

namespace PathPlanning
open Real Spec

/-! ## Sums of gradients -/

noncomputable instance : Zero Pt := ⟨⟨0, 0⟩⟩
@[simp] theorem Pt.zero_x : (0 : Pt).x = 0 := rfl
@[simp] theorem Pt.zero_y : (0 : Pt).y = 0 := rfl

noncomputable instance : AddCommMonoid Pt where
  add_assoc a b c := by ext <;> simp [add_assoc]
  zero_add a := by ext <;> simp
  add_zero a := by ext <;> simp
  add_comm a b := by ext <;> simp [add_comm]
  nsmul := nsmulRec

theorem Spec.IsGradient.const (c : ℝ) (p : Pt) : IsGradient (fun _ => c) p 0 := by
  intro vx vy
  simpa using hasDerivAt_const (0 : ℝ) c

theorem Spec.IsGradient.add {f g : Pt → ℝ} {p a b : Pt} (hf : IsGradient f p a) (hg : IsGradient g p b) :
    IsGradient (fun x => f x + g x) p (a + b) := by
  intro vx vy
  refine ((hf vx vy).add (hg vx vy)).congr_deriv ?_
  simp only [Pt.add_x, Pt.add_y]; ring

theorem Spec.IsGradient.scale {f : Pt → ℝ} {p a : Pt} (c : ℝ) (hf : IsGradient f p a) :
    IsGradient (fun x => c * f x) p (a.scale c) := by
  intro vx vy
  refine ((hf vx vy).const_mul c).congr_deriv ?_
  simp only [Pt.scale]; ring

theorem Spec.IsGradient.sum {ι : Type} [DecidableEq ι] (s : Finset ι) {f : ι → Pt → ℝ} {p : Pt} {g : ι → Pt}
    (h : ∀ i ∈ s, IsGradient (f i) p (g i)) : IsGradient (fun x => ∑ i ∈ s, f i x) p (∑ i ∈ s, g i) := by
  induction s using Finset.induction_on with
  | empty => simpa using IsGradient.const 0 p
  | insert i s hi ih =>
    have := (h i (by simp)).add (ih fun k hk => h k (Finset.mem_insert_of_mem hk))
    rw [Finset.sum_insert hi]
    simpa [Finset.sum_insert hi] using this

theorem Spec.IsGradient.congr {f g : Pt → ℝ} {p a b : Pt} (hf : IsGradient f p a) (h : ∀ x, f x = g x) (hab : a = b) :
    IsGradient g p b := by
  rw [← funext h, ← hab]; exact hf

/-- A function that is zero near the point. -/
theorem Spec.IsGradient.of_small {f : Pt → ℝ} {p : Pt} {K : ℝ} (hK : f p < K)
    (hc : ∀ vx vy : ℝ, ContinuousAt (fun t : ℝ => f ⟨p.x + t * vx, p.y + t * vy⟩) 0) :
    IsGradient (fun x => (max 0 (f x - K)) ^ 2) p 0 := by
  intro vx vy
  have hev : (fun t : ℝ => (max 0 (f ⟨p.x + t * vx, p.y + t * vy⟩ - K)) ^ 2) =ᶠ[nhds 0] fun _ => 0 := by
    have h0 : f ⟨p.x + 0 * vx, p.y + 0 * vy⟩ < K := by simpa using hK
    filter_upwards [(hc vx vy).eventually_lt_const h0] with t ht
    rw [max_eq_left (by linarith)]; norm_num
  simpa using (hasDerivAt_const (0 : ℝ) (0 : ℝ)).congr_of_eventuallyEq hev

/-! ## The curvature term, also for straight triples -/

/-- The three points go on: they do not turn back on themselves, and neighbours are different. -/
def Spec.GoesOn (a b c : Pt) : Prop :=
  (b.x - a.x) * (c.y - b.y) - (b.y - a.y) * (c.x - b.x) ≠ 0 ∨
    0 < (b.x - a.x) * (c.x - b.x) + (b.y - a.y) * (c.y - b.y)

/-- What the curvature term adds to the three gradients. -/
noncomputable def curvParts (q : SmoothParam) (a b c : Pt) : Pt × Pt × Pt := q.curvatureTerm a b c 0 0 0

theorem curvatureTerm_add (q : SmoothParam) (a b c ga gb gc : Pt) : q.curvatureTerm a b c ga gb gc =
    (ga + (curvParts q a b c).1, gb + (curvParts q a b c).2.1, gc + (curvParts q a b c).2.2) := by
  unfold curvParts SmoothParam.curvatureTerm
  dsimp only
  split
  · simp
  · simp

theorem dist2_ne {a b : Pt} (h : dist2 a b ≠ 0) : (a.x - b.x) ^ 2 + (a.y - b.y) ^ 2 ≠ 0 := by
  intro h0
  apply h
  unfold dist2
  rw [h0, Real.sqrt_zero]

theorem curvature_continuous (a b c : ℝ → Pt) (hax : Continuous fun t => (a t).x) (hay : Continuous fun t => (a t).y)
    (hbx : Continuous fun t => (b t).x) (hby : Continuous fun t => (b t).y) (hcx : Continuous fun t => (c t).x)
    (hcy : Continuous fun t => (c t).y) (h1 : dist2 (a 0) (b 0) ≠ 0) (h2 : dist2 (b 0) (c 0) ≠ 0) :
    ContinuousAt (fun t => curvature (a t) (b t) (c t)) 0 := by
  unfold curvature turn
  have d1 : Continuous fun t => dist2 (a t) (b t) := by unfold dist2; fun_prop
  have d2 : Continuous fun t => dist2 (b t) (c t) := by unfold dist2; fun_prop
  refine ContinuousAt.div (Real.continuous_arccos.continuousAt.comp ?_) d1.continuousAt h1
  refine ContinuousAt.div (by fun_prop) (d1.mul d2).continuousAt (mul_ne_zero h1 h2)

theorem straight_curvature {a b c : Pt} (hx : (b.x - a.x) * (c.y - b.y) - (b.y - a.y) * (c.x - b.x) = 0)
    (hd : 0 < (b.x - a.x) * (c.x - b.x) + (b.y - a.y) * (c.y - b.y)) :
    curvature a b c = 0 ∧ dist2 a b ≠ 0 ∧ dist2 b c ≠ 0 ∧ SmoothParam.kappa (b - a) (c - b) = 0 := by
  have s1 := dist2_sq a b
  have s2 := dist2_sq b c
  have p1 : 0 ≤ dist2 a b := Real.sqrt_nonneg _
  have p2 : 0 ≤ dist2 b c := Real.sqrt_nonneg _
  have hprod : (dist2 a b * dist2 b c) ^ 2 = ((b.x - a.x) * (c.x - b.x) + (b.y - a.y) * (c.y - b.y)) ^ 2 := by
    rw [mul_pow, s1, s2]
    linear_combination ((b.x - a.x) * (c.y - b.y) - (b.y - a.y) * (c.x - b.x)) * hx
  have hprod' : dist2 a b * dist2 b c = (b.x - a.x) * (c.x - b.x) + (b.y - a.y) * (c.y - b.y) := by
    rcases sq_eq_sq_iff_eq_or_eq_neg.mp hprod with h | h
    · exact h
    · have := mul_nonneg p1 p2; linarith
  have n1 : dist2 a b ≠ 0 := by intro h; rw [h] at hprod'; linarith
  have n2 : dist2 b c ≠ 0 := by intro h; rw [h] at hprod'; linarith
  have hone : ((b.x - a.x) * (c.x - b.x) + (b.y - a.y) * (c.y - b.y)) / (dist2 a b * dist2 b c) = 1 := by
    rw [← hprod', div_self (mul_ne_zero n1 n2)]
  refine ⟨by unfold curvature turn; rw [hone]; simp, n1, n2, ?_⟩
  unfold SmoothParam.kappa SmoothParam.deltaPhi
  have hnorm : (b - a).normalized.dot (c - b).normalized = 1 := by
    unfold Pt.normalized Pt.dot Pt.scale
    rw [norm_eq_dist2, norm_eq_dist2, dist2_comm b a, dist2_comm c b]
    simp only [Pt.sub_x, Pt.sub_y]
    have : 1 / dist2 a b * (b.x - a.x) * (1 / dist2 b c * (c.x - b.x)) + 1 / dist2 a b * (b.y - a.y) *
        (1 / dist2 b c * (c.y - b.y)) =
        ((b.x - a.x) * (c.x - b.x) + (b.y - a.y) * (c.y - b.y)) / (dist2 a b * dist2 b c) := by field_simp
    rw [this, hone]
  rw [hnorm]
  simp

/-- The parts of the curvature term are the gradients of the squared excess. -/
theorem curvParts_gradient (q : SmoothParam) (hK : 0 < q.maxCurvature) (a b c : Pt) (h : GoesOn a b c) :
    IsGradient (fun p => q.curvatureWeight / 2 * (max 0 (curvature p b c - q.maxCurvature)) ^ 2) a (curvParts q a b c).1 ∧
    IsGradient (fun p => q.curvatureWeight / 2 * (max 0 (curvature a p c - q.maxCurvature)) ^ 2) b
      (curvParts q a b c).2.1 ∧
    IsGradient (fun p => q.curvatureWeight / 2 * (max 0 (curvature a b p - q.maxCurvature)) ^ 2) c
      (curvParts q a b c).2.2 := by
  by_cases hx : (b.x - a.x) * (c.y - b.y) - (b.y - a.y) * (c.x - b.x) = 0
  · rcases h with h | h
    · exact absurd hx h
    · obtain ⟨h0, n1, n2, hk⟩ := straight_curvature hx h
      have hp : curvParts q a b c = (0, 0, 0) := by
        unfold curvParts SmoothParam.curvatureTerm
        dsimp only
        rw [if_pos (by rw [hk]; exact hK.le)]
      have hlt : curvature a b c < q.maxCurvature := by rw [h0]; exact hK
      have hz : (0 : Pt) = (0 : Pt).scale (q.curvatureWeight / 2) := by ext <;> simp [Pt.scale]
      rw [hp]
      refine ⟨?_, ?_, ?_⟩
      · show IsGradient _ _ (0 : Pt)
        rw [hz]
        refine (IsGradient.of_small (f := fun p => curvature p b c) hlt fun vx vy => ?_).scale _
        exact curvature_continuous (fun t => ⟨a.x + t * vx, a.y + t * vy⟩) (fun _ => b) (fun _ => c)
          (by fun_prop) (by fun_prop) (by fun_prop) (by fun_prop) (by fun_prop) (by fun_prop) (by simpa using n1) n2
      · show IsGradient _ _ (0 : Pt)
        rw [hz]
        refine (IsGradient.of_small (f := fun p => curvature a p c) hlt fun vx vy => ?_).scale _
        exact curvature_continuous (fun _ => a) (fun t => ⟨b.x + t * vx, b.y + t * vy⟩) (fun _ => c)
          (by fun_prop) (by fun_prop) (by fun_prop) (by fun_prop) (by fun_prop) (by fun_prop) (by simpa using n1)
          (by simpa using n2)
      · show IsGradient _ _ (0 : Pt)
        rw [hz]
        refine (IsGradient.of_small (f := fun p => curvature a b p) hlt fun vx vy => ?_).scale _
        exact curvature_continuous (fun _ => a) (fun _ => b) (fun t => ⟨c.x + t * vx, c.y + t * vy⟩)
          (by fun_prop) (by fun_prop) (by fun_prop) (by fun_prop) (by fun_prop) (by fun_prop) n1 (by simpa using n2)
  · obtain ⟨ka, kb, kc, he, h1, h2, h3⟩ := C75_curvature_term q a b c 0 0 0 hx
    have hp : curvParts q a b c = (ka, kb, kc) := by
      unfold curvParts
      rw [he, zero_add, zero_add, zero_add]
    rw [hp]
    exact ⟨h1, h2, h3⟩

/-! ## The place of a point -/

/-- The cost of the place of a point: minus the squared distance to the requested place (C77), the missing clearance to
the obstacle `o`, and the Voronoi potential for the obstacle `o` and the edge `e`. -/
noncomputable def Spec.placeCost (q : SmoothParam) (requested : Pt) (near : Option (Pt × Pt)) (p : Pt) : ℝ :=
  -(q.pathWeight / 2 * dist2 p requested ^ 2) + match near with
    | none => 0
    | some (o, e) => q.collisionWeight / 2 * (max 0 (q.minSafeRadius * (1 + q.collisionRatio) - dist2 p o)) ^ 2 +
        q.voronoiWeight * voronoiCost q.alpha q.dMax (dist2 p o) (dist2 p e)

/-- The place is not exceptional: it is neither the obstacle nor the edge, nor exactly at the distance at which the
Voronoi potential begins. -/
def Spec.Ordinary (q : SmoothParam) (near : Option (Pt × Pt)) (p : Pt) : Prop :=
  ∀ o e, near = some (o, e) → p ≠ o ∧ p ≠ e ∧ dist2 p o ≠ q.dMax

/-- What the code adds for the place of a point. -/
noncomputable def placeTerm (q : SmoothParam) (requested : Pt) (near : Option (Pt × Pt)) (p : Pt) : Pt :=
  q.pathTerm requested p + match near with
    | none => 0
    | some (o, e) => q.collisionTerm (p - o) + q.voronoiTerm (p - o) (p - e)

theorem voronoi_gradient (q : SmoothParam) (ha : 0 < q.alpha) (hd : 0 < q.dMax) (hw : 0 ≤ q.voronoiWeight)
    (p o e : Pt) (ho : p ≠ o) (he : p ≠ e) (hne : dist2 p o ≠ q.dMax) :
    IsGradient (fun p => q.voronoiWeight * voronoiCost q.alpha q.dMax (dist2 p o) (dist2 p e)) p
      (q.voronoiTerm (p - o) (p - e)) := by
  rcases hw.eq_or_lt with hw | hw
  · have : q.voronoiTerm (p - o) (p - e) = 0 := by
      unfold SmoothParam.voronoiTerm
      rw [if_neg (by rw [← hw]; simp)]
      rfl
    rw [this, ← hw]
    simpa using IsGradient.const 0 p
  · rcases lt_or_gt_of_ne hne with hlt | hgt
    · exact C75_voronoi_term q ha hd hw p o e ho he hlt
    · have : q.voronoiTerm (p - o) (p - e) = 0 := by
        unfold SmoothParam.voronoiTerm
        rw [if_neg (by rw [norm_eq_dist2]; intro h; linarith [h.1])]
        rfl
      rw [this]
      intro vx vy
      have hc : Continuous fun t : ℝ => dist2 ⟨p.x + t * vx, p.y + t * vy⟩ o := by unfold dist2; fun_prop
      have h0 : q.dMax < dist2 ⟨p.x + 0 * vx, p.y + 0 * vy⟩ o := by simpa using hgt
      have hev : (fun t : ℝ => q.voronoiWeight * voronoiCost q.alpha q.dMax (dist2 ⟨p.x + t * vx, p.y + t * vy⟩ o)
          (dist2 ⟨p.x + t * vx, p.y + t * vy⟩ e)) =ᶠ[nhds 0] fun _ => 0 := by
        filter_upwards [hc.continuousAt.eventually_const_lt h0] with t ht
        unfold voronoiCost
        rw [if_pos ht.le, mul_zero]
      simpa using (hasDerivAt_const (0 : ℝ) (0 : ℝ)).congr_of_eventuallyEq hev

theorem place_gradient (q : SmoothParam) (ha : 0 < q.alpha) (hd : 0 < q.dMax) (hw : 0 ≤ q.voronoiWeight)
    (requested : Pt) (near : Option (Pt × Pt)) (p : Pt) (h : Ordinary q near p) :
    IsGradient (placeCost q requested near) p (placeTerm q requested near p) := by
  have h1 := C77_path_term_negated q requested p
  unfold placeCost placeTerm
  cases near with
  | none => exact h1.add (IsGradient.const 0 p)
  | some oe =>
    obtain ⟨o, e⟩ := oe
    obtain ⟨ho, he, hne⟩ := h o e rfl
    exact h1.add ((C75_collision_term q p o ho).add (voronoi_gradient q ha hd hw p o e ho he hne))

/-! ## The bends -/

theorem bend_first (a b c : Pt) :
    IsGradient (fun p => bend p b c) a ⟨2 * (a.x - 2 * b.x + c.x), 2 * (a.y - 2 * b.y + c.y)⟩ := by
  intro vx vy
  have e3 : ∀ a v c d : ℝ, HasDerivAt (fun t : ℝ => a + t * v - c + d) v 0 := fun a v c d => by
    simpa using ((((hasDerivAt_id (0 : ℝ)).mul_const v).const_add a).sub_const c).add_const d
  have h := ((e3 a.x vx (2 * b.x) c.x).pow 2).add ((e3 a.y vy (2 * b.y) c.y).pow 2)
  refine h.congr_deriv ?_
  push_cast
  ring

theorem bend_middle (a b c : Pt) :
    IsGradient (fun p => bend a p c) b ⟨-4 * (a.x - 2 * b.x + c.x), -4 * (a.y - 2 * b.y + c.y)⟩ := by
  intro vx vy
  have e2 : ∀ a v c d : ℝ, HasDerivAt (fun t : ℝ => c - 2 * (a + t * v) + d) (-(2 * v)) 0 := fun a v c d => by
    simpa using (((((hasDerivAt_id (0 : ℝ)).mul_const v).const_add a).const_mul 2).const_sub c).add_const d
  have h := ((e2 b.x vx a.x c.x).pow 2).add ((e2 b.y vy a.y c.y).pow 2)
  refine h.congr_deriv ?_
  push_cast
  ring

theorem bend_last (a b c : Pt) :
    IsGradient (fun p => bend a b p) c ⟨2 * (a.x - 2 * b.x + c.x), 2 * (a.y - 2 * b.y + c.y)⟩ := by
  intro vx vy
  have e1 : ∀ a v c : ℝ, HasDerivAt (fun t : ℝ => c + (a + t * v)) v 0 := fun a v c => by
    simpa using (((hasDerivAt_id (0 : ℝ)).mul_const v).const_add a).const_add c
  have h := ((e1 c.x vx (a.x - 2 * b.x)).pow 2).add ((e1 c.y vy (a.y - 2 * b.y)).pow 2)
  refine h.congr_deriv ?_
  push_cast
  ring

theorem pointOf_set (l : List Pt) (j k : Nat) (p : Pt) (hj : j < l.length) :
    pointOf (l.set j p) k = if k = j then p else pointOf l k := by
  unfold pointOf
  rw [List.getD_eq_getElem?_getD, List.getD_eq_getElem?_getD]
  by_cases h : k = j
  · subst h
    rw [if_pos rfl, List.getElem?_set_self hj]; rfl
  · rw [if_neg h, List.getElem?_set_ne (Ne.symm h)]

theorem bends_gradient (q : SmoothParam) (l : List Pt) (j : Nat) (h2 : 2 ≤ j) (hj : j + 2 < l.length) :
    IsGradient (fun p => q.smoothWeight / 2 * ∑ k ∈ Finset.range l.length,
      (if 0 < k ∧ k + 1 < l.length then bend (pointOf (l.set j p) (k - 1)) (pointOf (l.set j p) k)
        (pointOf (l.set j p) (k + 1)) else 0)) (pointOf l j)
      (q.smoothTerm (pointOf l (j - 2)) (pointOf l (j - 1)) (pointOf l j) (pointOf l (j + 1)) (pointOf l (j + 2))) := by
  have hjl : j < l.length := by omega
  have key := IsGradient.sum (Finset.range l.length) (p := pointOf l j)
    (f := fun k p => if 0 < k ∧ k + 1 < l.length then bend (pointOf (l.set j p) (k - 1)) (pointOf (l.set j p) k)
        (pointOf (l.set j p) (k + 1)) else 0)
    (g := fun k => (if k = j - 1 then (⟨2 * ((pointOf l (j - 2)).x - 2 * (pointOf l (j - 1)).x + (pointOf l j).x),
          2 * ((pointOf l (j - 2)).y - 2 * (pointOf l (j - 1)).y + (pointOf l j).y)⟩ : Pt) else 0) +
        (if k = j then (⟨-4 * ((pointOf l (j - 1)).x - 2 * (pointOf l j).x + (pointOf l (j + 1)).x),
          -4 * ((pointOf l (j - 1)).y - 2 * (pointOf l j).y + (pointOf l (j + 1)).y)⟩ : Pt) else 0) +
        (if k = j + 1 then (⟨2 * ((pointOf l j).x - 2 * (pointOf l (j + 1)).x + (pointOf l (j + 2)).x),
          2 * ((pointOf l j).y - 2 * (pointOf l (j + 1)).y + (pointOf l (j + 2)).y)⟩ : Pt) else 0))
    (fun k hk => ?_)
  · refine (key.scale (q.smoothWeight / 2)).congr (fun x => rfl) ?_
    rw [Finset.sum_add_distrib, Finset.sum_add_distrib, Finset.sum_ite_eq', Finset.sum_ite_eq', Finset.sum_ite_eq',
      if_pos (Finset.mem_range.mpr (by omega)), if_pos (Finset.mem_range.mpr (by omega)),
      if_pos (Finset.mem_range.mpr (by omega))]
    unfold SmoothParam.smoothTerm Pt.scale
    ext <;> simp only [Pt.add_x, Pt.sub_x, Pt.add_y, Pt.sub_y] <;> ring
  · simp only [pointOf_set l j _ _ hjl]
    by_cases h1 : k = j - 1
    · subst h1
      have n1 : ¬ j - 1 = j := by omega
      have n2 : ¬ j - 1 = j + 1 := by omega
      have n3 : ¬ j - 1 - 1 = j := by omega
      have n4 : j - 1 + 1 = j := by omega
      have n5 : j - 1 - 1 = j - 2 := by omega
      have n6 : 0 < j - 1 ∧ j - 1 + 1 < l.length := by omega
      have n7 : ¬ j - 2 = j := by omega
      simp only [if_neg n1, if_neg n2, if_pos rfl, n4, n5, if_neg n7, add_zero, if_pos (show 0 < j - 1 ∧ j < l.length by omega)]
      exact bend_last _ _ _
    · by_cases h2' : k = j
      · subst h2'
        have n1 : ¬ k - 1 = k := by omega
        have n2 : ¬ k = k + 1 := by omega
        have n3 : ¬ k = k - 1 := by omega
        have n4 : ¬ k + 1 = k := by omega
        simp only [if_neg n1, if_neg n2, if_neg n3, if_neg n4, if_pos rfl, add_zero, zero_add,
          if_pos (show 0 < k ∧ k + 1 < l.length by omega)]
        exact bend_middle _ _ _
      · by_cases h3 : k = j + 1
        · subst h3
          have n1 : ¬ j + 1 = j - 1 := by omega
          have n2 : ¬ j + 1 = j := by omega
          have n4 : ¬ j + 1 + 1 = j := by omega
          have n5 : j + 1 - 1 = j := by omega
          simp only [if_neg n1, if_neg n2, if_neg n4, n5, if_pos rfl, zero_add,
            if_pos (show 0 < j + 1 ∧ j + 1 + 1 < l.length by omega)]
          exact bend_first _ _ _
        · have n1 : 0 < k → ¬ k - 1 = j := by omega
          have n4 : ¬ k + 1 = j := by omega
          simp only [if_neg h1, if_neg h2', if_neg h3, if_neg n4, add_zero]
          by_cases hk0 : 0 < k ∧ k + 1 < l.length
          · simp only [if_pos hk0, if_neg (n1 hk0.1)]
            exact IsGradient.const _ _
          · simp only [if_neg hk0]
            exact IsGradient.const _ _

/-! ## The curvatures -/

/-- What the curvature at point `i` adds to the gradient of point `j`. -/
noncomputable def curvAt (q : SmoothParam) (l : List Pt) (i j : Nat) : Pt :=
  if j + 1 = i then (curvParts q (pointOf l (i - 1)) (pointOf l i) (pointOf l (i + 1))).1
  else if j = i then (curvParts q (pointOf l (i - 1)) (pointOf l i) (pointOf l (i + 1))).2.1
  else if j = i + 1 then (curvParts q (pointOf l (i - 1)) (pointOf l i) (pointOf l (i + 1))).2.2
  else 0

theorem curvatures_gradient (q : SmoothParam) (hK : 0 < q.maxCurvature) (l : List Pt) (I : Finset Nat)
    (hI : ∀ i ∈ I, 2 ≤ i ∧ i + 2 < l.length)
    (hg : ∀ i ∈ I, GoesOn (pointOf l (i - 1)) (pointOf l i) (pointOf l (i + 1))) (j : Nat) (hj : j < l.length) :
    IsGradient (fun p => q.curvatureWeight / 2 * ∑ i ∈ I, (max 0 (curvature (pointOf (l.set j p) (i - 1))
        (pointOf (l.set j p) i) (pointOf (l.set j p) (i + 1)) - q.maxCurvature)) ^ 2) (pointOf l j)
      (∑ i ∈ I, curvAt q l i j) := by
  have key := IsGradient.sum I (p := pointOf l j)
    (f := fun i p => q.curvatureWeight / 2 * (max 0 (curvature (pointOf (l.set j p) (i - 1))
        (pointOf (l.set j p) i) (pointOf (l.set j p) (i + 1)) - q.maxCurvature)) ^ 2)
    (g := fun i => curvAt q l i j) (fun i hi => ?_)
  · exact key.congr (fun x => by rw [Finset.mul_sum]) rfl
  · obtain ⟨h2, h3⟩ := hI i hi
    obtain ⟨g1, g2, g3⟩ := curvParts_gradient q hK _ _ _ (hg i hi)
    simp only [pointOf_set l j _ _ hj, curvAt]
    by_cases h1 : j + 1 = i
    · subst h1
      have n1 : ¬ j + 1 = j := by omega
      have n2 : ¬ j + 1 + 1 = j := by omega
      have n3 : j + 1 - 1 = j := by omega
      rw [n3] at g1
      simp only [if_neg n1, if_neg n2, n3, if_true]
      exact g1
    · by_cases h4 : j = i
      · subst h4
        have n1 : ¬ j - 1 = j := by omega
        have n2 : ¬ j + 1 = j := by omega
        simp only [if_neg n1, if_neg n2, if_true, if_false]
        exact g2
      · by_cases h5 : j = i + 1
        · subst h5
          have n1 : ¬ i - 1 = i + 1 := by omega
          have n2 : ¬ i = i + 1 := by omega
          have n3 : ¬ i + 1 + 1 = i := by omega
          have n4 : ¬ i + 1 = i := by omega
          simp only [if_neg n1, if_neg n2, if_neg n3, if_neg n4, if_true]
          exact g3
        · have n1 : ¬ i - 1 = j := by omega
          have n2 : ¬ i = j := by omega
          have n3 : ¬ i + 1 = j := by omega
          simp only [if_neg h1, if_neg h4, if_neg h5, if_neg n1, if_neg n2, if_neg n3]
          exact IsGradient.const _ _

/-! ## An iteration -/

/-- The obstacle and the edge that count at a place: those that the map `obstacle`, `edge` of the Voronoi diagram gives
for the cell of the place; outside of the map there are none. -/
noncomputable def Spec.nearOf (map : OccMap) (obstacle edge : Cell → Cell) (p : Pt) : Option (Pt × Pt) :=
  if map.isInsidePos p = true then
    some (map.gridCellToWorldPosition (obstacle (map.worldPositionToGridCell p true)),
      map.gridCellToWorldPosition (edge (map.worldPositionToGridCell p true)))
  else none

/-- What the code adds to the gradient of point `i` alone. -/
noncomputable def pointAt (q : SmoothParam) (map : OccMap) (ob ed : Cell → Cell) (requested l : List Pt) (i : Nat) : Pt :=
  placeTerm q (pointOf requested i) (nearOf map ob ed (pointOf l i)) (pointOf l i) +
    q.smoothTerm (pointOf l (i - 2)) (pointOf l (i - 1)) (pointOf l i) (pointOf l (i + 1)) (pointOf l (i + 2))

theorem pointOf_get {l : List Pt} {k : Nat} {p : Pt} (h : l[k]? = some p) : pointOf l k = p := by
  unfold pointOf
  rw [List.getD_eq_getElem?_getD, h]; rfl

theorem get_pointOf {l : List Pt} {k : Nat} (h : k < l.length) : l[k]? = some (pointOf l k) := by
  rw [List.getElem?_eq_getElem h, pointOf_get (List.getElem?_eq_getElem h)]

theorem terms_point (q : SmoothParam) (map : OccMap) (ob ed : Cell → Cell) (r m2 m1 c p1 p2 g : Pt) :
    (q.terms map ob ed).point r m2 m1 c p1 p2 g =
      g + (placeTerm q r (nearOf map ob ed c) c + q.smoothTerm m2 m1 c p1 p2) := by
  unfold SmoothParam.terms placeTerm nearOf
  dsimp only
  by_cases h : map.isInsidePos c = true
  · rw [if_pos h, if_pos h]
    simp only [add_assoc]
  · rw [if_neg h, if_neg h]
    simp only [add_assoc, add_zero]

theorem gradientAt_value (q : SmoothParam) (map : OccMap) (ob ed : Cell → Cell) (requested l g : List Pt) (i : Nat)
    (h2 : 2 ≤ i) (hr : i < requested.length) (hc : i + 2 < l.length) (hg : g.length = l.length) :
    ∃ g', Smoother.gradientAt (q.terms map ob ed) requested l g i = some g' ∧ g'.length = l.length ∧
      ∀ j < l.length, pointOf g' j =
        pointOf g j + ((if i = j then pointAt q map ob ed requested l j else 0) + curvAt q l i j) := by
  have e2 := get_pointOf (l := l) (k := i - 2) (by omega)
  have e1 := get_pointOf (l := l) (k := i - 1) (by omega)
  have e0 := get_pointOf (l := l) (k := i) (by omega)
  have f1 := get_pointOf (l := l) (k := i + 1) (by omega)
  have f2 := get_pointOf (l := l) (k := i + 2) (by omega)
  have er := get_pointOf (l := requested) (k := i) (by omega)
  have eg := get_pointOf (l := g) (k := i) (by omega)
  unfold Smoother.gradientAt
  rw [if_neg (by omega), e2, e1, e0, f1, f2, er, eg]
  simp only [Option.bind_eq_bind, Option.pure_def, Option.bind_some]
  rw [terms_point]
  obtain ⟨v, hv⟩ : ∃ v, v = pointOf g i + pointAt q map ob ed requested l i := ⟨_, rfl⟩
  have hv' : pointOf g i + (placeTerm q (pointOf requested i) (nearOf map ob ed (pointOf l i)) (pointOf l i) +
      q.smoothTerm (pointOf l (i - 2)) (pointOf l (i - 1)) (pointOf l i) (pointOf l (i + 1)) (pointOf l (i + 2))) = v :=
    hv.symm
  rw [hv']
  have hl : (g.set i v).length = l.length := by simp [hg]
  rw [get_pointOf (l := g.set i v) (k := i - 1) (by omega), get_pointOf (l := g.set i v) (k := i) (by omega),
    get_pointOf (l := g.set i v) (k := i + 1) (by omega)]
  simp only [Option.bind_some]
  simp only [SmoothParam.terms, curvatureTerm_add]
  refine ⟨_, rfl, by simp [hg], fun j hj => ?_⟩
  rw [pointOf_set _ (i + 1) j _ (by simp; omega), pointOf_set _ i j _ (by simp; omega),
    pointOf_set _ (i - 1) j _ (by simp; omega), pointOf_set g i j _ (by omega)]
  rw [pointOf_set g i (i - 1) _ (by omega), pointOf_set g i i _ (by omega), pointOf_set g i (i + 1) _ (by omega)]
  unfold curvAt
  by_cases h1 : j = i + 1
  · subst h1
    have n1 : ¬ i = i + 1 := by omega
    have n2 : ¬ i + 1 + 1 = i := by omega
    have n3 : ¬ i + 1 = i := by omega
    simp only [if_true, if_neg n1, if_neg n2, if_neg n3]
    rw [zero_add]
  · by_cases h3 : j = i
    · subst h3
      have n1 : ¬ j + 1 = j := by omega
      have n2 : ¬ j = j - 1 := by omega
      simp only [if_true, if_neg n1, if_neg h1]
      rw [hv, add_assoc]
    · by_cases h4 : j = i - 1
      · have h4' : j + 1 = i := by omega
        subst h4'
        have n1 : j + 1 - 1 = j := by omega
        have n2 : ¬ j + 1 = j := by omega
        simp only [if_neg h1, if_neg h3, n1, if_true, if_neg n2]
        rw [zero_add]
      · have n1 : ¬ j + 1 = i := by omega
        have n2 : ¬ i = j := fun h => h3 h.symm
        simp only [if_neg h1, if_neg h3, if_neg h4, if_neg n1, if_neg n2]
        rw [add_zero, add_zero]

theorem fold_value (q : SmoothParam) (map : OccMap) (ob ed : Cell → Cell) (requested l : List Pt)
    (hl : l.length = requested.length) : ∀ (is : List Nat) (g : List Pt), is.Nodup →
      (∀ i ∈ is, 2 ≤ i ∧ i + 2 < l.length) → g.length = l.length →
      ∃ g', is.foldlM (Smoother.gradientAt (q.terms map ob ed) requested l) g = some g' ∧ g'.length = l.length ∧
        ∀ j < l.length, pointOf g' j = pointOf g j +
          ((if j ∈ is then pointAt q map ob ed requested l j else 0) + ∑ i ∈ is.toFinset, curvAt q l i j) := by
  intro is
  induction is with
  | nil => intro g _ _ hg; exact ⟨g, rfl, hg, fun j _ => by simp⟩
  | cons i is ih =>
    intro g hn hi hg
    obtain ⟨hni, hn⟩ := List.nodup_cons.mp hn
    obtain ⟨a1, a2⟩ := hi i (by simp)
    obtain ⟨g1, h1, hl1, hv1⟩ := gradientAt_value q map ob ed requested l g i a1 (by omega) a2 hg
    obtain ⟨g2, h2, hl2, hv2⟩ := ih g1 hn (fun k hk => hi k (List.mem_cons_of_mem _ hk)) hl1
    refine ⟨g2, by rw [List.foldlM_cons, h1]; exact h2, hl2, fun j hj => ?_⟩
    rw [hv2 j hj, hv1 j hj, List.toFinset_cons, Finset.sum_insert (by simpa using hni)]
    by_cases hij : i = j
    · subst hij
      rw [if_pos rfl, if_neg hni, if_pos (by simp), zero_add]
      simp only [add_assoc]
    · have e : (j ∈ i :: is) = (j ∈ is) := by
        rw [List.mem_cons]; exact propext ⟨fun h => h.resolve_left (fun h => hij h.symm), Or.inr⟩
      simp only [e, if_neg hij]
      rw [zero_add, add_assoc]
      congr 1
      rw [← add_assoc, ← add_assoc, add_comm (curvAt q l i j)]

/-- A path is regular for the descent: at every optimised point the path does not stop or turn back on the spot, and
the place of the point is not exceptional. -/
def Spec.Regular (q : SmoothParam) (map : OccMap) (ob ed : Cell → Cell) (I : Finset Nat) (l : List Pt) : Prop :=
  ∀ i ∈ I, GoesOn (pointOf l (i - 1)) (pointOf l i) (pointOf l (i + 1)) ∧
    Ordinary q (nearOf map ob ed (pointOf l i)) (pointOf l i)

/-- The cost that an iteration from the path `l` descends: the bends, the curvatures, and the places of the optimised
points, for the obstacles and edges that are nearest to the cells of the points of `l`. -/
noncomputable def Spec.iterationCost (q : SmoothParam) (map : OccMap) (ob ed : Cell → Cell) (requested l : List Pt)
    (smoothWeight : ℝ) (I : Finset Nat) : List Pt → ℝ :=
  pathCost smoothWeight q.curvatureWeight q.maxCurvature I
    (fun i => placeCost q (pointOf requested i) (nearOf map ob ed (pointOf l i)))

theorem places_gradient (q : SmoothParam) (ha : 0 < q.alpha) (hd : 0 < q.dMax) (hw : 0 ≤ q.voronoiWeight)
    (map : OccMap) (ob ed : Cell → Cell) (requested l : List Pt) (I : Finset Nat)
    (hreg : ∀ i ∈ I, Ordinary q (nearOf map ob ed (pointOf l i)) (pointOf l i)) (j : Nat) (hj : j < l.length) :
    IsGradient (fun p => ∑ i ∈ I, placeCost q (pointOf requested i) (nearOf map ob ed (pointOf l i))
        (pointOf (l.set j p) i)) (pointOf l j)
      (if j ∈ I then placeTerm q (pointOf requested j) (nearOf map ob ed (pointOf l j)) (pointOf l j) else 0) := by
  have key := IsGradient.sum I (p := pointOf l j)
    (f := fun i p => placeCost q (pointOf requested i) (nearOf map ob ed (pointOf l i)) (pointOf (l.set j p) i))
    (g := fun i => if i = j then placeTerm q (pointOf requested j) (nearOf map ob ed (pointOf l j)) (pointOf l j) else 0)
    (fun i hi => ?_)
  · rw [Finset.sum_ite_eq'] at key
    exact key
  · simp only [pointOf_set l j _ _ hj]
    by_cases h : i = j
    · subst h
      simp only [if_true]
      exact place_gradient q ha hd hw _ _ _ (hreg _ hi)
    · simp only [if_neg h]
      exact IsGradient.const _ _

theorem iteration_gradient (q : SmoothParam) (hK : 0 < q.maxCurvature) (ha : 0 < q.alpha) (hd : 0 < q.dMax)
    (hw : 0 ≤ q.voronoiWeight) (map : OccMap) (ob ed : Cell → Cell) (requested l : List Pt) (I : Finset Nat)
    (hI : ∀ i ∈ I, 2 ≤ i ∧ i + 2 < l.length) (hreg : Regular q map ob ed I l) (j : Nat) (hj : j < l.length) :
    IsGradient (fun p => iterationCost q map ob ed requested l (if j ∈ I then q.smoothWeight else 0) I (l.set j p))
      (pointOf l j) ((if j ∈ I then pointAt q map ob ed requested l j else 0) + ∑ i ∈ I, curvAt q l i j) := by
  have h1 := curvatures_gradient q hK l I hI (fun i hi => (hreg i hi).1) j hj
  have h2 := places_gradient q ha hd hw map ob ed requested l I (fun i hi => (hreg i hi).2) j hj
  unfold iterationCost pathCost
  simp only [List.length_set]
  by_cases h : j ∈ I
  · rw [if_pos h] at h2
    simp only [if_pos h]
    refine (((bends_gradient q l j (hI j h).1 (hI j h).2).add h1).add h2).congr (fun _ => rfl) ?_
    unfold pointAt
    ext <;> simp only [Pt.add_x, Pt.add_y] <;> ring
  · rw [if_neg h] at h2
    simp only [if_neg h]
    refine (((IsGradient.const 0 (pointOf l j)).add h1).add h2).congr (fun _ => by simp) ?_
    rw [add_zero]

/-- What the code computes as the gradient of point `j`. -/
noncomputable def stepGradient (q : SmoothParam) (map : OccMap) (ob ed : Cell → Cell) (requested l : List Pt)
    (I : Finset Nat) (j : Nat) : Pt :=
  (if j ∈ I then pointAt q map ob ed requested l j else 0) + ∑ i ∈ I, curvAt q l i j

theorem iterations_value (q : SmoothParam) (map : OccMap) (ob ed : Cell → Cell) {H : Type} (maxIterations : Int)
    (valid : Pt × H → Option Bool) (cusp : Nat → Bool) (path : List (Pt × H)) (s : SmoothStatus) (r : List (Pt × H))
    (n : Nat) (h5 : 5 ≤ path.length)
    (h : Smoother.smooth (q.terms map ob ed) maxIterations valid cusp path = some (s, r, n))
    (I : Finset Nat)
    (hI : ∀ j, j ∈ I ↔ 2 ≤ j ∧ j + 2 < path.length ∧ ∀ d, cusp d = true → j + 2 < d ∨ d + 2 < j) :
    ∃ it : Nat → List Pt, it 0 = path.map Prod.fst ∧ it n = r.map Prod.fst ∧
      ∀ k < n, (it k).length = path.length ∧ (it (k + 1)).length = path.length ∧
        ∀ j < path.length, pointOf (it (k + 1)) j =
          ⟨(pointOf (it k) j).x - q.learningRate * (stepGradient q map ob ed (path.map Prod.fst) (it k) I j).x,
            (pointOf (it k) j).y - q.learningRate * (stepGradient q map ob ed (path.map Prod.fst) (it k) I j).y⟩ := by
  have hIl : (Smoother.indexLoop cusp path.length 0).toFinset = I := by
    ext j
    rw [List.mem_toFinset, C59_optimised_points, hI]
  have hnd : (Smoother.indexLoop cusp path.length 0).Nodup :=
    (Smoother.indexLoop_sorted cusp path.length 0).imp (fun h => Nat.ne_of_lt h)
  obtain ⟨it, gs, h0, hn, hstep, _⟩ := C60_iterations _ maxIterations valid cusp path s r n h5 h
  have hlen : ∀ k, k ≤ n → (it k).length = path.length := by
    intro k
    induction k with
    | zero => intro _; rw [h0]
    | succ k ih =>
      intro hk
      obtain ⟨hg, hi, _⟩ := hstep k (by omega)
      obtain ⟨g', hg', hl', _⟩ := fold_value q map ob ed (path.map Prod.fst) ((it k).map Prod.fst)
        (by simp [ih (by omega)]) (Smoother.indexLoop cusp path.length 0)
        (List.replicate (path.map Prod.fst).length (q.terms map ob ed).zero) hnd
        (fun i hi => by
          have := (C59_optimised_points cusp path.length i).mp hi
          rw [List.length_map, ih (by omega)]
          exact ⟨this.1, this.2.1⟩) (by simp [ih (by omega)])
      have : gs k = g' := by
        have e : some (gs k) = some g' := by rw [← hg, ← hg']; rfl
        exact Option.some.inj e
      rw [hi, List.length_zipWith, this, hl', List.length_map, Nat.min_self]
      exact ih (by omega)
  refine ⟨fun k => (it k).map Prod.fst, by simp only [h0], by simp only [hn], fun k hk => ⟨?_, ?_, fun j hj => ?_⟩⟩
  · rw [List.length_map, hlen k (by omega)]
  · rw [List.length_map, hlen (k + 1) (by omega)]
  · obtain ⟨hg, hi, _⟩ := hstep k hk
    have hlk : ((it k).map Prod.fst).length = path.length := by rw [List.length_map, hlen k (by omega)]
    have hin : ∀ i ∈ Smoother.indexLoop cusp path.length 0, 2 ≤ i ∧ i + 2 < ((it k).map Prod.fst).length := fun i hi => by
      have := (C59_optimised_points cusp path.length i).mp hi
      rw [hlk]
      exact ⟨this.1, this.2.1⟩
    obtain ⟨g', hg', hl', hv⟩ := fold_value q map ob ed (path.map Prod.fst) ((it k).map Prod.fst)
      (by rw [hlk, List.length_map]) (Smoother.indexLoop cusp path.length 0)
      (List.replicate (path.map Prod.fst).length (q.terms map ob ed).zero) hnd hin
      (by rw [hlk]; simp)
    have hgg : gs k = g' := by
      have e : some (gs k) = some g' := by rw [← hg, ← hg']; rfl
      exact Option.some.inj e
    rw [hIl] at hv
    have hz : pointOf (List.replicate (path.map Prod.fst).length (q.terms map ob ed).zero) j = 0 := by
      refine pointOf_get ?_
      rw [List.getElem?_replicate, if_pos (by simpa using hj)]
      rfl
    have hsg : pointOf g' j = stepGradient q map ob ed (path.map Prod.fst) ((it k).map Prod.fst) I j := by
      rw [hv j (by omega), hz, zero_add]
      unfold stepGradient
      have e : (j ∈ Smoother.indexLoop cusp path.length 0) = (j ∈ I) := by rw [← hIl, List.mem_toFinset]
      simp only [e]
    rw [← hsg]
    · refine pointOf_get ?_
      have e1 : (it k)[j]? = some ((it k)[j]'(by rw [hlen k (by omega)]; exact hj)) := List.getElem?_eq_getElem _
      have e2 : pointOf ((it k).map Prod.fst) j = ((it k)[j]'(by rw [hlen k (by omega)]; exact hj)).1 := by
        refine pointOf_get ?_
        rw [List.getElem?_map, e1]; rfl
      have e3 := get_pointOf (l := g') (k := j) (by omega)
      rw [List.getElem?_map, hi, hgg, List.getElem?_zipWith, e1, e3, e2]
      simp only [Option.map_some, Option.some.injEq]
      unfold SmoothParam.terms
      ext <;> simp [Pt.scale]

/-- C109: every iteration of the smoother is a step of gradient descent. The result of `Smooth` on a path of at least
five states is reached in exactly the reported number of iterations, and in each of them that starts from a regular path
every point `j` moves by the learning rate times the gradient, with respect to this point, of the cost of the path
*before* the iteration (all the points at once). The cost is that of the bends, the curvature above the maximum and the
places of the optimised points; a point that is not optimised itself follows the curvature of its optimised neighbours
only, which for most of these points is nothing. -/
theorem C109_gradient_descent (q : SmoothParam) (hK : 0 < q.maxCurvature) (ha : 0 < q.alpha) (hd : 0 < q.dMax)
    (hw : 0 ≤ q.voronoiWeight) (map : OccMap) (ob ed : Cell → Cell) {H : Type} (maxIterations : Int)
    (valid : Pt × H → Option Bool) (cusp : Nat → Bool) (path : List (Pt × H)) (s : SmoothStatus) (r : List (Pt × H))
    (n : Nat) (h5 : 5 ≤ path.length)
    (h : Smoother.smooth (q.terms map ob ed) maxIterations valid cusp path = some (s, r, n))
    (I : Finset Nat)
    (hI : ∀ j, j ∈ I ↔ 2 ≤ j ∧ j + 2 < path.length ∧ ∀ d, cusp d = true → j + 2 < d ∨ d + 2 < j) :
    ∃ it : Nat → List Pt, it 0 = path.map Prod.fst ∧ it n = r.map Prod.fst ∧
      ∀ k < n, (it k).length = path.length ∧ (it (k + 1)).length = path.length ∧
        (Regular q map ob ed I (it k) → ∀ j < path.length, ∃ g,
          pointOf (it (k + 1)) j = ⟨(pointOf (it k) j).x - q.learningRate * g.x,
            (pointOf (it k) j).y - q.learningRate * g.y⟩ ∧
          IsGradient (fun p => iterationCost q map ob ed (path.map Prod.fst) (it k)
            (if j ∈ I then q.smoothWeight else 0) I ((it k).set j p)) (pointOf (it k) j) g) := by
  obtain ⟨it, h0, hn, hstep⟩ := iterations_value q map ob ed maxIterations valid cusp path s r n h5 h I hI
  refine ⟨it, h0, hn, fun k hk => ⟨(hstep k hk).1, (hstep k hk).2.1, fun hreg j hj => ?_⟩⟩
  have hl := (hstep k hk).1
  refine ⟨_, (hstep k hk).2.2 j hj, iteration_gradient q hK ha hd hw map ob ed (path.map Prod.fst) (it k) I
    (fun i hi => ?_) hreg j (by omega)⟩
  have := (hI i).mp hi
  rw [hl]
  exact ⟨this.1, this.2.1⟩

/-- A path with a right angle at its only optimised point, on a map of ten by ten cells with an obstacle and an edge, is
regular for the default parameters. -/
example : Regular (SmoothParam.default 1 1) ⟨1, 10, 10, ⟨0, 0⟩, ⟨-5, -5⟩, ⟨-5, -5⟩⟩ (fun _ => ⟨0, 0⟩) (fun _ => ⟨0, 9⟩) {2}
    [⟨0, 0⟩, ⟨1, 0⟩, ⟨2, 0⟩, ⟨2, 1⟩, ⟨2, 2⟩] := by
  intro i hi
  rw [Finset.mem_singleton] at hi
  subst hi
  refine ⟨Or.inl (by norm_num [pointOf]), ?_⟩
  intro o e h
  unfold nearOf at h
  split at h
  · simp only [Option.some.injEq, Prod.mk.injEq] at h
    obtain ⟨rfl, rfl⟩ := h
    refine ⟨fun hh => ?_, fun hh => ?_, fun hh => ?_⟩
    · have := congrArg Pt.x hh
      norm_num [pointOf, OccMap.gridCellToWorldPosition, OccMap.gridCellToGridPosition] at this
    · have := congrArg Pt.x hh
      norm_num [pointOf, OccMap.gridCellToWorldPosition, OccMap.gridCellToGridPosition] at this
    · have h2 := dist2_sq (pointOf [⟨0, 0⟩, ⟨1, 0⟩, ⟨2, 0⟩, ⟨2, 1⟩, ⟨2, 2⟩] 2) (OccMap.gridCellToWorldPosition
        ⟨1, 10, 10, ⟨0, 0⟩, ⟨-5, -5⟩, ⟨-5, -5⟩⟩ ⟨0, 0⟩)
      rw [hh] at h2
      norm_num [pointOf, OccMap.gridCellToWorldPosition, OccMap.gridCellToGridPosition, SmoothParam.default] at h2
  · cases h

example : ∃ r n, Smoother.smooth (H := Unit) ((SmoothParam.default 1 1).terms
      ⟨1, 10, 10, ⟨0, 0⟩, ⟨-5, -5⟩, ⟨-5, -5⟩⟩ (fun _ => ⟨0, 0⟩) (fun _ => ⟨0, 9⟩)) 1 (fun _ => some true) (fun _ => false)
    [(⟨0, 0⟩, ()), (⟨1, 0⟩, ()), (⟨2, 0⟩, ()), (⟨2, 1⟩, ()), (⟨2, 2⟩, ())] = some (.maxIteration, r, n) ∧ n = 1 := by
  obtain ⟨s, r, n, h⟩ := C59_defined (H := Unit) ((SmoothParam.default 1 1).terms
      ⟨1, 10, 10, ⟨0, 0⟩, ⟨-5, -5⟩, ⟨-5, -5⟩⟩ (fun _ => ⟨0, 0⟩) (fun _ => ⟨0, 9⟩)) 1 (fun _ => some true) (fun _ => false)
    [(⟨0, 0⟩, ()), (⟨1, 0⟩, ()), (⟨2, 0⟩, ()), (⟨2, 1⟩, ()), (⟨2, 2⟩, ())] (fun _ => rfl)
  obtain ⟨_, hst⟩ := C60_status _ _ _ _ _ _ _ _ h
  obtain ⟨it, gs, _, _, _, h1, h2, h3⟩ := C60_iterations _ _ _ _ _ _ _ _ (by simp) h
  have h4 := hst.mpr (fun _ _ => rfl)
  cases s with
  | maxIteration => exact ⟨r, n, h, h1 rfl⟩
  | stepTolerance =>
    have := h2 rfl
    have e : (1 : Int).toNat = 1 := rfl
    omega
  | pathSize => exact absurd rfl h3
  | failure => exact absurd h4 (by decide)
  | collision => exact absurd h4 (by decide)

end PathPlanning
