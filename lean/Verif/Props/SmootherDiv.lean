import Verif.Model.SmootherDiv
import Verif.Spec.SmootherDiv
import Verif.Props.Smoother
import Verif.Props.SmootherGrad

/-!
# C144: where the smoother divides by zero
-/

namespace PathPlanning
open Real Spec

private theorem div?_ne {a b : ℝ} (h : b ≠ 0) : div? a b = some (a / b) := if_neg h
private theorem div?_zero {a b : ℝ} (h : b = 0) : div? a b = none := if_pos h
private theorem pdiv_ne {p : Pt} {b : ℝ} (h : b ≠ 0) : p.div? b = some (p.scale (1 / b)) := if_neg h
private theorem pdiv_zero {p : Pt} {b : ℝ} (h : b = 0) : p.div? b = none := if_pos h

private theorem norm_nonneg' (p : Pt) : 0 ≤ p.norm := Real.sqrt_nonneg _

private theorem norm_eq_zero' (p : Pt) : p.norm = 0 ↔ p.x = 0 ∧ p.y = 0 := by
  unfold Pt.norm
  rw [Real.sqrt_eq_zero (by positivity)]
  constructor
  · intro h
    exact ⟨by nlinarith [sq_nonneg p.x, sq_nonneg p.y], by nlinarith [sq_nonneg p.x, sq_nonneg p.y]⟩
  · rintro ⟨h1, h2⟩; rw [h1, h2]; norm_num

private theorem dot_self (p : Pt) : p.dot p = p.norm ^ 2 := by
  unfold Pt.norm Pt.dot
  rw [Real.sq_sqrt (by positivity)]; ring

private theorem sub_norm_zero (a b : Pt) : (b - a).norm = 0 ↔ a = b := by
  rw [norm_eq_zero']
  constructor
  · rintro ⟨h1, h2⟩
    simp only [Pt.sub_x, Pt.sub_y] at h1 h2
    exact Pt.ext (by linarith) (by linarith)
  · rintro rfl; simp

private theorem collision_div (q : SmoothParam) (dir : Pt) :
    q.collisionTerm? dir =
      if dir.norm < q.unsafeRadius ∧ dir.norm = 0 then none else some (q.collisionTerm dir) := by
  unfold SmoothParam.collisionTerm? SmoothParam.collisionTerm
  by_cases h : dir.norm < q.unsafeRadius
  · rw [if_pos h, if_pos h]
    by_cases h0 : dir.norm = 0
    · rw [pdiv_zero h0, if_pos ⟨h, h0⟩]
    · rw [pdiv_ne h0, if_neg (fun c => h0 c.2)]
  · rw [if_neg h, if_neg h, if_neg (fun c => h c.1)]

private theorem voronoi_div (q : SmoothParam) (ha : 0 < q.alpha) (dir edge : Pt) :
    q.voronoiTerm? dir edge =
      if (dir.norm < q.dMax ∧ 0 < q.voronoiWeight ∧ 0 < edge.norm) ∧ dir.norm = 0 then none
      else some (q.voronoiTerm dir edge) := by
  unfold SmoothParam.voronoiTerm? SmoothParam.voronoiTerm
  by_cases h : dir.norm < q.dMax ∧ q.voronoiWeight > 0
  · rw [if_pos h, if_pos h]
    by_cases he : edge.norm > 0
    · rw [if_pos he, if_pos he]
      have n0 := norm_nonneg' dir
      have hd : 0 < q.dMax := lt_of_le_of_lt n0 h.1
      have e1 : q.alpha + dir.norm ≠ 0 := by positivity
      have e2 : q.dMax * q.dMax ≠ 0 := by positivity
      have e3 : dir.norm + edge.norm ≠ 0 := by positivity
      have e4 : (dir.norm + edge.norm) * (dir.norm + edge.norm) ≠ 0 := mul_ne_zero e3 e3
      have f1 : SmoothParam.pvdv? q.alpha q.dMax dir.norm edge.norm =
          some (SmoothParam.pvdv q.alpha q.dMax dir.norm edge.norm) := by
        unfold SmoothParam.pvdv? SmoothParam.pvdv
        rw [div?_ne e1, div?_ne e2, div?_ne e4]; rfl
      have f2 : SmoothParam.pvdo? q.alpha q.dMax dir.norm edge.norm =
          some (SmoothParam.pvdo q.alpha q.dMax dir.norm edge.norm) := by
        unfold SmoothParam.pvdo? SmoothParam.pvdo
        rw [div?_ne e1, div?_ne e3, div?_ne e2, div?_ne e1, div?_ne e3]; rfl
      rw [f1, f2]
      by_cases h0 : dir.norm = 0
      · rw [if_pos ⟨⟨h.1, h.2, he⟩, h0⟩]
        simp only [Option.bind_eq_bind, Option.bind_some, pdiv_zero h0, Option.bind_none]
      · rw [if_neg (fun c => h0 c.2)]
        simp only [Option.bind_eq_bind, Option.bind_some, pdiv_ne h0, pdiv_ne (ne_of_gt he)]
        rfl
    · rw [if_neg he, if_neg he, if_neg (fun c => he c.1.2.2)]
  · rw [if_neg h, if_neg h, if_neg (fun c => h ⟨c.1.1, c.1.2.1⟩)]

/-- The angle as computed by the code is the angle between the steps. -/
private theorem deltaPhi_eq (a b c : Pt) : SmoothParam.deltaPhi (b - a) (c - b) = turn a b c := by
  unfold SmoothParam.deltaPhi turn
  have e : (b - a).normalized.dot (c - b).normalized =
      ((b.x - a.x) * (c.x - b.x) + (b.y - a.y) * (c.y - b.y)) / (dist2 a b * dist2 b c) := by
    rw [dist2_comm a b, dist2_comm b c, ← norm_eq_dist2, ← norm_eq_dist2]
    simp only [Pt.normalized, Pt.dot, Pt.scale, Pt.sub_x, Pt.sub_y]
    simp only [div_eq_mul_inv, mul_inv]
    ring
  rw [e]
  have cs : ((b.x - a.x) * (c.x - b.x) + (b.y - a.y) * (c.y - b.y)) ^ 2 ≤ (dist2 a b * dist2 b c) ^ 2 := by
    rw [mul_pow, dist2_sq, dist2_sq]
    nlinarith [sq_nonneg ((b.x - a.x) * (c.y - b.y) - (b.y - a.y) * (c.x - b.x))]
  have d0 : 0 ≤ dist2 a b * dist2 b c := mul_nonneg (Real.sqrt_nonneg _) (Real.sqrt_nonneg _)
  have cs' := abs_le_of_sq_le_sq' cs d0
  congr 1
  rcases d0.eq_or_lt with h | h
  · rw [← h, div_zero]; norm_num
  · rw [min_eq_left ((div_le_one h).2 cs'.2), max_eq_right ((le_div_iff₀ h).2 (by linarith [cs'.1]))]

private theorem kappa_eq (a b c : Pt) : SmoothParam.kappa (b - a) (c - b) = curvature a b c := by
  unfold SmoothParam.kappa curvature
  rw [deltaPhi_eq, dist2_comm a b, ← norm_eq_dist2]

/-- The sine of the angle is zero exactly if the steps are parallel. -/
private theorem root_zero (a b c : Pt) (h1 : a ≠ b) (h2 : b ≠ c) :
    √(1 - cos (SmoothParam.deltaPhi (b - a) (c - b)) ^ 2) = 0 ↔
      (b.x - a.x) * (c.y - b.y) - (b.y - a.y) * (c.x - b.x) = 0 := by
  have p1 := dist2_pos h1
  have p2 := dist2_pos h2
  have p3 : 0 < dist2 a b * dist2 b c := mul_pos p1 p2
  obtain ⟨u, hu⟩ : ∃ u, u = (b.x - a.x) * (c.x - b.x) + (b.y - a.y) * (c.y - b.y) := ⟨_, rfl⟩
  obtain ⟨w, hw⟩ : ∃ w, w = (b.x - a.x) * (c.y - b.y) - (b.y - a.y) * (c.x - b.x) := ⟨_, rfl⟩
  have hsum : u ^ 2 + w ^ 2 = (dist2 a b * dist2 b c) ^ 2 := by
    rw [mul_pow, dist2_sq, dist2_sq, hu, hw]; ring
  have cs' := abs_le_of_sq_le_sq' (show u ^ 2 ≤ (dist2 a b * dist2 b c) ^ 2 by nlinarith [sq_nonneg w]) p3.le
  rw [deltaPhi_eq, turn, ← hu, ← hw,
    Real.cos_arccos ((le_div_iff₀ p3).2 (by linarith [cs'.1])) ((div_le_one p3).2 cs'.2)]
  have e : 1 - (u / (dist2 a b * dist2 b c)) ^ 2 = (w / (dist2 a b * dist2 b c)) ^ 2 := by
    rw [div_pow, div_pow, eq_div_iff (by positivity), sub_mul, div_mul_cancel₀ _ (by positivity)]
    linarith
  rw [e, Real.sqrt_sq_eq_abs, abs_eq_zero, div_eq_zero_iff]
  exact ⟨fun h => h.resolve_right p3.ne', Or.inl⟩

open Classical in
private theorem curvature_div (q : SmoothParam) (a b c ga gb gc : Pt) :
    q.curvatureTerm? a b c ga gb gc =
      if BendDefined q.maxCurvature a b c then some (q.curvatureTerm a b c ga gb gc) else none := by
  unfold SmoothParam.curvatureTerm? BendDefined
  dsimp only
  by_cases hab : a = b
  · rw [if_neg (fun h => h.1 hab), div?_zero ((sub_norm_zero a b).mpr hab)]; rfl
  have hd : (b - a).norm ≠ 0 := fun h => hab ((sub_norm_zero a b).mp h)
  rw [div?_ne hd]
  simp only [Option.bind_eq_bind, Option.bind_some]
  have hk : SmoothParam.deltaPhi (b - a) (c - b) / (b - a).norm = curvature a b c := kappa_eq a b c
  by_cases hc : curvature a b c ≤ q.maxCurvature
  · rw [if_pos (by rw [hk]; exact hc), if_pos ⟨hab, Or.inl hc⟩]
    unfold SmoothParam.curvatureTerm
    rw [if_pos (by rw [kappa_eq]; exact hc)]; rfl
  · rw [if_neg (by rw [hk]; exact hc)]
    have hdd : (b - a).dot (b - a) ≠ 0 := by rw [dot_self]; positivity
    unfold SmoothParam.orthogonalComplement?
    rw [pdiv_ne hdd]
    simp only [Option.bind_eq_bind, Option.bind_some, Option.pure_def]
    by_cases hbc : b = c
    · have he : (c - b).norm = 0 := (sub_norm_zero b c).mpr hbc
      rw [pdiv_zero (by rw [he, mul_zero])]
      rw [if_neg]
      · rfl
      · rintro ⟨_, h | h⟩
        · exact hc h
        · apply h; subst hbc; ring
    have he : (c - b).norm ≠ 0 := fun h => hbc ((sub_norm_zero b c).mp h)
    have hee : (c - b).dot (c - b) ≠ 0 := by rw [dot_self]; positivity
    rw [pdiv_ne (mul_ne_zero hd he), pdiv_ne hee]
    simp only [Option.bind_some]
    rw [pdiv_ne (mul_ne_zero hd he)]
    simp only [Option.bind_some]
    by_cases hx : (b.x - a.x) * (c.y - b.y) - (b.y - a.y) * (c.x - b.x) = 0
    · rw [div?_zero ((root_zero a b c hab hbc).mpr hx), if_neg (fun h => h.2.elim hc (fun h => h hx))]; rfl
    · rw [div?_ne (fun h => hx ((root_zero a b c hab hbc).mp h)), div?_ne hd, div?_ne hdd, if_pos ⟨hab, Or.inr hx⟩]
      unfold SmoothParam.curvatureTerm
      rw [if_neg (by rw [kappa_eq]; exact hc)]
      rfl

open Classical in
private theorem point_div (q : SmoothParam) (ha : 0 < q.alpha) (map : OccMap) (ob ed : Cell → Cell)
    (r m2 m1 c p1 p2 g : Pt) :
    q.pointTerm? map ob ed r m2 m1 c p1 p2 g =
      if PlaceDefined q map ob ed c then some ((q.terms map ob ed).point r m2 m1 c p1 p2 g) else none := by
  unfold SmoothParam.pointTerm?
  dsimp only [SmoothParam.terms]
  by_cases hin : map.isInsidePos c = true
  · obtain ⟨dir, hdir⟩ : ∃ d, d = c - map.gridCellToWorldPosition (ob (map.worldPositionToGridCell c true)) := ⟨_, rfl⟩
    obtain ⟨e, he⟩ : ∃ d, d = c - map.gridCellToWorldPosition (ed (map.worldPositionToGridCell c true)) := ⟨_, rfl⟩
    have hP : PlaceDefined q map ob ed c ↔
        (dir.norm < q.unsafeRadius ∨ (dir.norm < q.dMax ∧ 0 < q.voronoiWeight ∧ 0 < e.norm) → 0 < dir.norm) := by
      rw [hdir, he]
      exact ⟨fun h => h hin, fun h _ => h⟩
    rw [if_pos hin, ← hdir, ← he, collision_div, voronoi_div q ha]
    have n0 := norm_nonneg' dir
    by_cases h0 : dir.norm = 0
    · by_cases h1 : dir.norm < q.unsafeRadius
      · rw [if_pos ⟨h1, h0⟩, if_neg (fun h => absurd (hP.mp h (Or.inl h1)) (by rw [h0]; exact lt_irrefl _))]; rfl
      · by_cases h2 : dir.norm < q.dMax ∧ 0 < q.voronoiWeight ∧ 0 < e.norm
        · rw [if_neg (fun h => h1 h.1), if_pos ⟨h2, h0⟩,
            if_neg (fun h => absurd (hP.mp h (Or.inr h2)) (by rw [h0]; exact lt_irrefl _))]; rfl
        · rw [if_neg (fun h => h1 h.1), if_neg (fun h => h2 h.1), if_pos (hP.mpr fun h => (h.elim h1 h2).elim)]
          simp only [hin, if_true]
          rfl
    · rw [if_neg (fun h => h0 h.2), if_neg (fun h => h0 h.2), if_pos (hP.mpr fun _ => lt_of_le_of_ne n0 (Ne.symm h0))]
      simp only [hin, if_true]
      rfl
  · have hP : PlaceDefined q map ob ed c := fun h => absurd h hin
    rw [if_neg hin, if_pos hP]
    simp only [hin]
    rfl

open Classical in
private theorem gradientAt_div (q : SmoothParam) (ha : 0 < q.alpha) (map : OccMap) (ob ed : Cell → Cell)
    (requested l g : List Pt) (i : Nat) :
    q.gradientAt? map ob ed requested l g i =
      if StepDefined q map ob ed l i then Smoother.gradientAt (q.terms map ob ed) requested l g i else none := by
  unfold SmoothParam.gradientAt? Smoother.gradientAt
  have hS : StepDefined q map ob ed l i ↔ BendDefined q.maxCurvature (l.getD (i - 1) ⟨0, 0⟩) (l.getD i ⟨0, 0⟩)
      (l.getD (i + 1) ⟨0, 0⟩) ∧ PlaceDefined q map ob ed (l.getD i ⟨0, 0⟩) := Iff.rfl
  obtain ⟨T, hT⟩ : ∃ T, T = q.terms map ob ed := ⟨_, rfl⟩
  have hcurv : T.curvature = q.curvatureTerm := by rw [hT]; rfl
  rw [← hT]
  by_cases h2 : i < 2
  · rw [if_pos h2, if_pos h2, ite_self]
  rw [if_neg h2, if_neg h2]
  simp only [List.getD_eq_getElem?_getD] at hS
  cases h : requested[i]? with
  | none => simp only [Option.bind_eq_bind, Option.bind_none, ite_self]
  | some r =>
  cases hm2 : l[i - 2]? with
  | none => simp only [Option.bind_eq_bind, Option.bind_some, Option.bind_none, ite_self]
  | some m2 =>
  cases hm1 : l[i - 1]? with
  | none => simp only [Option.bind_eq_bind, Option.bind_some, Option.bind_none, ite_self]
  | some m1 =>
  cases hc : l[i]? with
  | none => simp only [Option.bind_eq_bind, Option.bind_some, Option.bind_none, ite_self]
  | some c =>
  cases hp1 : l[i + 1]? with
  | none => simp only [Option.bind_eq_bind, Option.bind_some, Option.bind_none, ite_self]
  | some p1 =>
  cases hp2 : l[i + 2]? with
  | none => simp only [Option.bind_eq_bind, Option.bind_some, Option.bind_none, ite_self]
  | some p2 =>
  cases hg : g[i]? with
  | none => simp only [Option.bind_eq_bind, Option.bind_some, Option.bind_none, ite_self]
  | some gi =>
  simp only [hm1, hc, hp1, Option.getD_some] at hS
  simp only [Option.bind_eq_bind, Option.bind_some]
  rw [point_div q ha, ← hT]
  by_cases hP : PlaceDefined q map ob ed c
  · rw [if_pos hP]
    simp only [Option.bind_some]
    obtain ⟨G, hG⟩ : ∃ G, G = g.set i (T.point r m2 m1 c p1 p2 gi) := ⟨_, rfl⟩
    rw [← hG]
    cases ha1 : G[i - 1]? with
    | none => simp only [Option.bind_none, ite_self]
    | some gm1 =>
    cases ha2 : G[i]? with
    | none => simp only [Option.bind_some, Option.bind_none, ite_self]
    | some g0 =>
    cases ha3 : G[i + 1]? with
    | none => simp only [Option.bind_some, Option.bind_none, ite_self]
    | some gp1 =>
    simp only [Option.bind_some]
    rw [curvature_div, show q.curvatureTerm = T.curvature from hcurv.symm]
    by_cases hB : BendDefined q.maxCurvature m1 c p1
    · rw [if_pos hB, if_pos (hS.mpr ⟨hB, hP⟩)]; rfl
    · rw [if_neg hB, if_neg (fun h => hB (hS.mp h).1)]; rfl
  · rw [if_neg hP, if_neg (fun h => hP (hS.mp h).2)]
    rfl

open Classical in
private theorem fold_div (q : SmoothParam) (ha : 0 < q.alpha) (map : OccMap) (ob ed : Cell → Cell)
    (requested l : List Pt) : ∀ (is : List Nat) (g : List Pt),
    is.foldlM (q.gradientAt? map ob ed requested l) g =
      if ∀ i ∈ is, StepDefined q map ob ed l i then
        is.foldlM (Smoother.gradientAt (q.terms map ob ed) requested l) g else none
  | [], g => by simp
  | i :: is, g => by
    rw [List.foldlM_cons, List.foldlM_cons, gradientAt_div q ha]
    by_cases hi : StepDefined q map ob ed l i
    · rw [if_pos hi]
      cases hg : Smoother.gradientAt (q.terms map ob ed) requested l g i with
      | none => simp
      | some g' =>
        simp only [Option.bind_eq_bind, Option.bind_some]
        rw [fold_div q ha map ob ed requested l is g']
        simp [hi]
    · rw [if_neg hi, if_neg (fun h => hi (h i (List.mem_cons_self ..)))]
      rfl

open Classical in
/-- C144. In a run of `Smooth`, the next path is computed without a division by zero exactly if at every optimised point the
path has a defined bend and place; the path is then the one of the real arithmetic. -/
theorem C144_iteration_defined_iff (q : SmoothParam) (ha : 0 < q.alpha) (map : OccMap) (ob ed : Cell → Cell) {H : Type}
    (maxIterations : Int) (valid : Pt × H → Option Bool) (cusp : Nat → Bool) (path : List (Pt × H)) (s : SmoothStatus)
    (r : List (Pt × H)) (n : Nat) (h5 : 5 ≤ path.length)
    (h : Smoother.smooth (q.terms map ob ed) maxIterations valid cusp path = some (s, r, n)) :
    ∃ it : Nat → List Pt, it 0 = path.map Prod.fst ∧ it n = r.map Prod.fst ∧
      ∀ k < n, q.iterate? map ob ed (path.map Prod.fst) (it k) (Smoother.indexLoop cusp path.length 0) =
        if ∀ j, 2 ≤ j → j + 2 < path.length → (∀ d, cusp d = true → j + 2 < d ∨ d + 2 < j) →
            StepDefined q map ob ed (it k) j
        then some (it (k + 1)) else none := by
  obtain ⟨it, gs, h0, hn, hstep, _⟩ := C60_iterations _ maxIterations valid cusp path s r n h5 h
  refine ⟨fun k => (it k).map Prod.fst, by simp only [h0], by simp only [hn], fun k hk => ?_⟩
  obtain ⟨hg, hi, _⟩ := hstep k hk
  unfold SmoothParam.iterate?
  rw [fold_div q ha]
  have e : (∀ i ∈ Smoother.indexLoop cusp path.length 0, StepDefined q map ob ed ((it k).map Prod.fst) i) ↔
      ∀ j, 2 ≤ j → j + 2 < path.length → (∀ d, cusp d = true → j + 2 < d ∨ d + 2 < j) →
            StepDefined q map ob ed ((it k).map Prod.fst) j := by
    constructor
    · exact fun h j h1 h2 h3 => h j ((C59_optimised_points _ _ _).mpr ⟨h1, h2, h3⟩)
    · intro h j hj
      obtain ⟨h1, h2, h3⟩ := (C59_optimised_points _ _ _).mp hj
      exact h j h1 h2 h3
  by_cases hall : ∀ i ∈ Smoother.indexLoop cusp path.length 0, StepDefined q map ob ed ((it k).map Prod.fst) i
  · rw [if_pos hall, if_pos (e.mp hall)]
    have hg' : (Smoother.indexLoop cusp path.length 0).foldlM
        (Smoother.gradientAt (q.terms map ob ed) (path.map Prod.fst) ((it k).map Prod.fst))
        (List.replicate (path.map Prod.fst).length ⟨0, 0⟩) = some (gs k) := hg
    rw [hg']
    simp only [Option.bind_eq_bind, Option.bind_some, Option.pure_def, Option.some.injEq]
    rw [hi, List.map_zipWith, List.zipWith_map_left]
    rfl
  · rw [if_neg hall, if_neg (fun c => hall (e.mpr c))]
    rfl

/-- C144. A path that stops (two equal consecutive points, the second of them optimised) or turns back on the spot makes the
first iteration divide by zero. -/
theorem C144_undefined (q : SmoothParam) (ha : 0 < q.alpha) (map : OccMap) (ob ed : Cell → Cell) {H : Type}
    (cusp : Nat → Bool) (path : List (Pt × H))
    (j : Nat) (h2 : 2 ≤ j) (hj : j + 2 < path.length) (hc : ∀ d, cusp d = true → j + 2 < d ∨ d + 2 < j)
    (hp : pointOf (path.map Prod.fst) (j - 1) = pointOf (path.map Prod.fst) j ∨
      (pointOf (path.map Prod.fst) (j + 1) = pointOf (path.map Prod.fst) (j - 1) ∧
        q.maxCurvature * dist2 (pointOf (path.map Prod.fst) (j - 1)) (pointOf (path.map Prod.fst) j) < π)) :
    q.iterate? map ob ed (path.map Prod.fst) (path.map Prod.fst) (Smoother.indexLoop cusp path.length 0) = none := by
  obtain ⟨a, hA⟩ : ∃ a, a = pointOf (path.map Prod.fst) (j - 1) := ⟨_, rfl⟩
  obtain ⟨b, hB⟩ : ∃ a, a = pointOf (path.map Prod.fst) j := ⟨_, rfl⟩
  obtain ⟨c, hC⟩ : ∃ a, a = pointOf (path.map Prod.fst) (j + 1) := ⟨_, rfl⟩
  rw [← hA, ← hB, ← hC] at hp
  unfold SmoothParam.iterate?
  classical
  rw [fold_div q ha, if_neg]
  · rfl
  · intro hall
    obtain ⟨⟨d1, d2⟩, _⟩ := hall j ((C59_optimised_points _ _ _).mpr ⟨h2, hj, hc⟩)
    rw [← hA, ← hB] at d1
    rw [← hA, ← hB, ← hC] at d2
    rcases hp with hp | ⟨hp, hk⟩
    · exact d1 hp
    · rcases d2 with d2 | d2
      · have p1 := dist2_pos d1
        have : curvature a b c = π / dist2 a b := by
          rw [curvature, turn, hp]
          congr 1
          rw [dist2_comm b a, ← sq, dist2_sq]
          have e : (b.x - a.x) * (a.x - b.x) + (b.y - a.y) * (a.y - b.y) = -((a.x - b.x) ^ 2 + (a.y - b.y) ^ 2) := by ring
          have : (a.x - b.x) ^ 2 + (a.y - b.y) ^ 2 ≠ 0 := by rw [← dist2_sq]; positivity
          rw [e, neg_div, div_self this, Real.arccos_neg_one]
        rw [this, div_le_iff₀ p1] at d2
        linarith
      · apply d2; rw [hp]; ring

/-- The five points of `SmootherDescent`, with a right angle, have a defined step. -/
example : StepDefined (SmoothParam.default 1 1) ⟨1, 10, 10, ⟨0, 0⟩, ⟨-5, -5⟩, ⟨-5, -5⟩⟩ (fun _ => ⟨0, 0⟩) (fun _ => ⟨0, 9⟩)
    [⟨0, 0⟩, ⟨1, 0⟩, ⟨2, 0⟩, ⟨2, 1⟩, ⟨2, 2⟩] 2 := by
  refine ⟨⟨fun hh => ?_, Or.inr ?_⟩, fun _ _ => dist2_pos fun hh => ?_⟩
  · have := congrArg Pt.x hh
    norm_num [pointOf] at this
  · norm_num [pointOf]
  · have := congrArg Pt.x hh
    norm_num [pointOf, OccMap.gridCellToWorldPosition, OccMap.gridCellToGridPosition] at this

/-- A path that waits at (1, 0). -/
example : SmoothParam.iterate? (SmoothParam.default 1 1) ⟨1, 10, 10, ⟨0, 0⟩, ⟨-5, -5⟩, ⟨-5, -5⟩⟩ (fun _ => ⟨0, 0⟩)
    (fun _ => ⟨0, 9⟩) [⟨0, 0⟩, ⟨1, 0⟩, ⟨1, 0⟩, ⟨2, 0⟩, ⟨3, 0⟩] [⟨0, 0⟩, ⟨1, 0⟩, ⟨1, 0⟩, ⟨2, 0⟩, ⟨3, 0⟩]
    (Smoother.indexLoop (fun _ => false) 5 0) = none :=
  C144_undefined (H := Unit) (SmoothParam.default 1 1) (by norm_num [SmoothParam.default]) _ _ _ (fun _ => false)
    [(⟨0, 0⟩, ()), (⟨1, 0⟩, ()), (⟨1, 0⟩, ()), (⟨2, 0⟩, ()), (⟨3, 0⟩, ())] 2 (by norm_num) (by norm_num) (by simp)
    (Or.inl rfl)

end PathPlanning
