import Verif.Lemmas.ReedsSheppLimits
import Verif.Props.ReedsShepp
import Mathlib.Order.Bounds.Basic

/-!
# C122, C123: the shortest Reeds-Shepp path among all paths of the families
-/

namespace PathPlanning
open Real Spec

/-- The lengths of the paths of the families from `start` to `goal`. -/
def familyLengths (R : ℝ) (start goal : PoseR) : Set ℝ :=
  {x | ∃ l, InFamily R l ∧ SamePose (driveAll start l) goal ∧ x = totalLength l}

/-! ## C122: no path of the families is shorter -/

/-- C122. The returned path is of the families, it leads to the goal, and no path of the families that
leads there is shorter. -/
theorem C122_is_least (start goal : PoseR) (R : ℝ) (hR : 0 < R) :
    InFamily R (stretches R (RS.shortestPath start goal R).motions) ∧
    SamePose (driveAll start (stretches R (RS.shortestPath start goal R).motions)) goal ∧
    totalLength (stretches R (RS.shortestPath start goal R).motions) =
      (RS.shortestPath start goal R).getLength R ∧
    ∀ l, InFamily R l → SamePose (driveAll start l) goal →
      (RS.shortestPath start goal R).getLength R ≤ totalLength l := by
  obtain ⟨w, hw, t, u, v, len, hm, hp, hd, hl, hmin⟩ := C50_shortest_partial start goal R hR
  obtain ⟨-, h1, -, -, h4, -⟩ := C48_word start goal R hR w t u v len hm
  rw [hl, hp]
  refine ⟨word_family hm, h1, h4, ?_⟩
  intro l hf hs
  obtain ⟨len', ⟨w', hw', t', u', v', l', he, hle⟩, hlen⟩ := family_word hR hf hs
  rw [← hlen]
  exact mul_le_mul_of_nonneg_right ((hmin w' hw' t' u' v' l' he).trans hle) hR.le

/-- C122, for the returned distance, which is normalised by the turning radius. -/
theorem C122_distance (start goal : PoseR) (R : ℝ) (hR : 0 < R) :
    ∃ d, RS.shortestDistance start goal R = some d ∧ IsLeast (familyLengths R start goal) (d * R) := by
  obtain ⟨w, hw, t, u, v, len, hm, hp, hd, hl, hmin⟩ := C50_shortest_partial start goal R hR
  obtain ⟨h1, h2, h3, h4⟩ := C122_is_least start goal R hR
  refine ⟨len, hd, ?_, ?_⟩
  · exact ⟨_, h1, h2, by rw [h3, hl]⟩
  · rintro x ⟨l, hf, hs, rfl⟩
    rw [← hl]
    exact h4 l hf hs

/-- A path of the families, with a turning radius of 2: a quarter turn to the right driven backward, a
line of length 6 driven backward and a left turn of π/4 driven backward. -/
example : InFamily 2 [⟨-1 / 2, -1, π⟩, ⟨0, -1, 6⟩, ⟨1 / 2, -1, π / 2⟩] := by
  refine ⟨-1, -1, Or.inr rfl, Or.inr rfl, [turnLeft 1 (π / 2), straight 1 3, turnRight 1 (π / 4)], ?_, ?_⟩
  · have := pi_pos
    exact .csc_other _ _ _ ⟨by linarith, by linarith⟩ (by norm_num) ⟨by linarith, by linarith⟩
  · simp [variant, turnLeft, turnRight, straight]
    exact ⟨by norm_num, by ring⟩

/-- A goal straight ahead: the path of length `d` is of the families, so that the returned path is not
longer, and by C50 it is not shorter. -/
example (d : ℝ) (hd : 0 ≤ d) : (RS.shortestPath ⟨⟨0, 0⟩, 0⟩ ⟨⟨d, 0⟩, 0⟩ 1).getLength 1 = d := by
  refine le_antisymm ?_ ?_
  · have h := (C122_is_least ⟨⟨0, 0⟩, 0⟩ ⟨⟨d, 0⟩, 0⟩ 1 one_pos).2.2.2 [⟨1, 1, 0⟩, ⟨0, 1, d⟩, ⟨1, 1, 0⟩] ?_ ?_
    · simpa [totalLength] using h
    · refine ⟨1, 1, Or.inl rfl, Or.inl rfl, [turnLeft 1 0, straight 1 d, turnLeft 1 0], ?_, ?_⟩
      · exact .csc_same _ _ _ ⟨le_rfl, pi_pos.le⟩ hd ⟨le_rfl, pi_pos.le⟩
      · simp [variant, turnLeft, straight]
    · refine ⟨?_, ?_⟩
      · ext <;> simp [driveAll, arc]
      · simpa [driveAll, arc] using SameAngle.refl 0
  · have h := C50_shortest_at_least_euclidean ⟨⟨0, 0⟩, 0⟩ ⟨⟨d, 0⟩, 0⟩ 1 one_pos
    simpa [sqrt_sq hd] using h

/-! ## C123: symmetry and invariance -/

private theorem driveAll_append (p : PoseR) (l l' : List Stretch) :
    driveAll p (l ++ l') = driveAll (driveAll p l) l' := by
  induction l generalizing p with
  | nil => rfl
  | cons a l ih => exact ih _

private theorem arc_back (k s : ℝ) (p : PoseR) : arc k (-s) (arc k s p) = p := by
  unfold arc
  by_cases hk : k = 0
  · simp only [hk, if_true]
    rcases p with ⟨⟨x, y⟩, θ⟩
    simp
  · simp only [hk, if_false]
    rcases p with ⟨⟨x, y⟩, θ⟩
    simp only [PoseR.mk.injEq, Pt.mk.injEq]
    rw [show θ + k * s + k * -s = θ by ring]
    refine ⟨⟨by ring, by ring⟩, rfl⟩

/-- The same way back. -/
noncomputable def backward (l : List Stretch) : List Stretch := (l.map flipStretch).reverse

private theorem driveAll_backward (p : PoseR) (l : List Stretch) :
    driveAll (driveAll p l) (backward l) = p := by
  induction l generalizing p with
  | nil => rfl
  | cons a l ih =>
    unfold backward at ih ⊢
    rw [List.map_cons, List.reverse_cons, driveAll_append, show driveAll p (a :: l) =
      driveAll (arc a.curvature (a.sense * a.length) p) l from rfl, ih, driveAll, driveAll]
    simp only [flipStretch, neg_mul]
    exact arc_back _ _ _

private theorem driveAll_congr {p q : PoseR} (h : SamePose p q) (l : List Stretch) :
    SamePose (driveAll p l) (driveAll q l) := by
  rw [driveAll_frame l p, driveAll_frame l q]
  refine ⟨?_, h.2.add (.refl _)⟩
  simp only [place, PoseR.rotate, h.2.cos, h.2.sin, h.1]

private theorem totalLength_backward (l : List Stretch) : totalLength (backward l) = totalLength l := by
  unfold backward
  rw [← totalLength_flip l]
  unfold totalLength
  rw [List.map_reverse, List.sum_reverse]

private theorem backward_shape {b : List Stretch} (hb : BaseShape b) :
    ∃ k d : ℝ, (k = 1 ∨ k = -1) ∧ (d = 1 ∨ d = -1) ∧ ∃ b', BaseShape b' ∧ backward b = b'.map (variant 1 k d) := by
  cases hb with
  | csc_same t u v ht hu hv =>
    exact ⟨1, -1, Or.inl rfl, Or.inr rfl, _, .csc_same v u t hv hu ht, by
      simp [backward, variant, flipStretch, turnLeft, straight]⟩
  | csc_other t u v ht hu hv =>
    exact ⟨-1, -1, Or.inr rfl, Or.inr rfl, _, .csc_other v u t hv hu ht, by
      simp [backward, variant, flipStretch, turnLeft, turnRight, straight]⟩
  | c_c_c t u v ht hu hv =>
    exact ⟨1, -1, Or.inl rfl, Or.inr rfl, _, .c_c_c v u t hv hu ht, by
      simp [backward, variant, flipStretch, turnLeft, turnRight]⟩
  | c_cc t u v ht hu hv =>
    exact ⟨1, 1, Or.inl rfl, Or.inl rfl, _, .cc_c v u t hv hu ht, by
      simp [backward, variant, flipStretch, turnLeft, turnRight]⟩
  | cc_c t u v ht hu hv =>
    exact ⟨1, 1, Or.inl rfl, Or.inl rfl, _, .c_cc v u t hv hu ht, by
      simp [backward, variant, flipStretch, turnLeft, turnRight]⟩
  | ccu_cuc t u v ht hu hv =>
    exact ⟨-1, 1, Or.inr rfl, Or.inl rfl, _, .ccu_cuc v u t hv hu ht, by
      simp [backward, variant, flipStretch, turnLeft, turnRight]⟩
  | c_cucu_c t u v ht hu hv =>
    exact ⟨-1, -1, Or.inr rfl, Or.inr rfl, _, .c_cucu_c v u t hv hu ht, by
      simp [backward, variant, flipStretch, turnLeft, turnRight]⟩
  | c_csc_same t u v ht hu hv =>
    exact ⟨1, 1, Or.inl rfl, Or.inl rfl, _, .csc_c_same v u t hv hu ht, by
      simp [backward, variant, flipStretch, turnLeft, turnRight, straight]⟩
  | c_csc_other t u v ht hu hv =>
    exact ⟨-1, 1, Or.inr rfl, Or.inl rfl, _, .csc_c_other v u t hv hu ht, by
      simp [backward, variant, flipStretch, turnLeft, turnRight, straight]⟩
  | csc_c_same t u v ht hu hv =>
    exact ⟨1, 1, Or.inl rfl, Or.inl rfl, _, .c_csc_same v u t hv hu ht, by
      simp [backward, variant, flipStretch, turnLeft, turnRight, straight]⟩
  | csc_c_other t u v ht hu hv =>
    exact ⟨-1, 1, Or.inr rfl, Or.inl rfl, _, .c_csc_other v u t hv hu ht, by
      simp [backward, variant, flipStretch, turnLeft, turnRight, straight]⟩
  | c_csc_c t u v ht hu hv =>
    exact ⟨-1, -1, Or.inr rfl, Or.inr rfl, _, .c_csc_c v u t hv hu ht, by
      simp [backward, variant, flipStretch, turnLeft, turnRight, straight]⟩

private theorem sign_mul {a b : ℝ} (ha : a = 1 ∨ a = -1) (hb : b = 1 ∨ b = -1) : a * b = 1 ∨ a * b = -1 := by
  rcases ha with rfl | rfl <;> rcases hb with rfl | rfl <;> simp

private theorem backward_family {R : ℝ} {l : List Stretch} (h : InFamily R l) : InFamily R (backward l) := by
  obtain ⟨k, d, hk, hd, b, hb, rfl⟩ := h
  obtain ⟨k', d', hk', hd', b', hb', he⟩ := backward_shape hb
  refine ⟨k * k', d * d', sign_mul hk hk', sign_mul hd hd', b', hb', ?_⟩
  have e1 : backward (b.map (variant R k d)) = (backward b).map (variant R k d) := by
    unfold backward
    rw [List.map_reverse, List.map_map, List.map_map]
    congr 1
    refine List.map_congr_left fun a _ => ?_
    simp [flipStretch, variant]
  rw [e1, he, List.map_map]
  refine List.map_congr_left fun a _ => ?_
  simp only [Function.comp, variant, Stretch.mk.injEq]
  exact ⟨by ring, by ring, by ring⟩

private theorem lengths_backward {R : ℝ} {a b : PoseR} {x : ℝ} (h : x ∈ familyLengths R a b) :
    x ∈ familyLengths R b a := by
  obtain ⟨l, hf, hs, rfl⟩ := h
  refine ⟨backward l, backward_family hf, ?_, (totalLength_backward l).symm⟩
  have := driveAll_congr hs.symm (backward l)
  rwa [driveAll_backward] at this

/-- Equal sets of lengths give equal results. -/
private theorem distance_eq {R R' : ℝ} (hR : 0 < R) (hR' : 0 < R') {a b a' b' : PoseR}
    (h : ∀ x, x * R ∈ familyLengths R a b ↔ x * R' ∈ familyLengths R' a' b') :
    RS.shortestDistance a b R = RS.shortestDistance a' b' R' := by
  obtain ⟨d, h1, h2⟩ := C122_distance a b R hR
  obtain ⟨d', h1', h2'⟩ := C122_distance a' b' R' hR'
  rw [h1, h1']
  congr 1
  refine le_antisymm ?_ ?_
  · exact le_of_mul_le_mul_right (h2.2 ((h d').mpr h2'.1)) hR
  · exact le_of_mul_le_mul_right (h2'.2 ((h d).mp h2.1)) hR'

/-- C123. The way back is as long as the way there. -/
theorem C123_symmetric (a b : PoseR) (R : ℝ) (hR : 0 < R) :
    RS.shortestDistance a b R = RS.shortestDistance b a R ∧
    (RS.shortestPath a b R).getLength R = (RS.shortestPath b a R).getLength R := by
  have h : RS.shortestDistance a b R = RS.shortestDistance b a R :=
    distance_eq hR hR fun x => ⟨lengths_backward, lengths_backward⟩
  refine ⟨h, ?_⟩
  obtain ⟨-, -, -, -, -, len, -, -, hd, hl, -⟩ := C50_shortest_partial a b R hR
  obtain ⟨-, -, -, -, -, len', -, -, hd', hl', -⟩ := C50_shortest_partial b a R hR
  rw [hd, hd'] at h
  rw [hl, hl', Option.some.inj h]

/-- C123. The distance depends only on the positions and on the headings modulo 2π. -/
theorem C123_same_pose (a b a' b' : PoseR) (R : ℝ) (hR : 0 < R) (ha : SamePose a a') (hb : SamePose b b') :
    RS.shortestDistance a b R = RS.shortestDistance a' b' R := by
  refine distance_eq hR hR fun x => ⟨?_, ?_⟩
  · rintro ⟨l, hf, hs, hx⟩
    exact ⟨l, hf, (driveAll_congr ha.symm l).trans (hs.trans hb), hx⟩
  · rintro ⟨l, hf, hs, hx⟩
    exact ⟨l, hf, (driveAll_congr ha l).trans (hs.trans hb.symm), hx⟩

private theorem add_place (p q : PoseR) : SamePose (p.add q) (place p q) :=
  ⟨rfl, (C41_same_angle _).trans (C41_same_angle _)⟩

private theorem place_cancel {p a b : PoseR} (h : SamePose (place p a) (place p b)) : SamePose a b := by
  obtain ⟨h1, h2⟩ := h
  have hx := congrArg Pt.x h1
  have hy := congrArg Pt.y h1
  have hc := sin_sq_add_cos_sq p.theta
  simp only [place, PoseR.rotate, Pt.add_x, Pt.add_y] at hx hy h2
  refine ⟨?_, ?_⟩
  · ext
    · linear_combination cos p.theta * hx + sin p.theta * hy - (a.position.x - b.position.x) * hc
    · linear_combination cos p.theta * hy - sin p.theta * hx - (a.position.y - b.position.y) * hc
  · have := h2.sub (.refl p.theta)
    rwa [add_sub_cancel_left, add_sub_cancel_left] at this

private theorem place_congr (p : PoseR) {a b : PoseR} (h : SamePose a b) : SamePose (place p a) (place p b) :=
  ⟨by simp only [place, h.1], (SameAngle.refl _).add h.2⟩

/-- C123. Moving and turning the plane does not change the distance. -/
theorem C123_frame (p a b : PoseR) (R : ℝ) (hR : 0 < R) :
    RS.shortestDistance (p.add a) (p.add b) R = RS.shortestDistance a b R := by
  rw [C123_same_pose _ _ _ _ R hR (add_place p a) (add_place p b)]
  refine distance_eq hR hR fun x => ⟨?_, ?_⟩
  · rintro ⟨l, hf, hs, hx⟩
    rw [driveAll_place] at hs
    exact ⟨l, hf, place_cancel hs, hx⟩
  · rintro ⟨l, hf, hs, hx⟩
    refine ⟨l, hf, ?_, hx⟩
    rw [driveAll_place]
    exact place_congr p hs

private theorem family_map {R k d : ℝ} (hk : k = 1 ∨ k = -1) (hd : d = 1 ∨ d = -1) {l : List Stretch}
    (h : InFamily R l) : InFamily R (l.map (variant 1 k d)) := by
  obtain ⟨k', d', hk', hd', b, hb, rfl⟩ := h
  refine ⟨k * k', d * d', sign_mul hk hk', sign_mul hd hd', b, hb, ?_⟩
  rw [List.map_map]
  refine List.map_congr_left fun a _ => ?_
  simp only [Function.comp, variant, Stretch.mk.injEq]
  exact ⟨by ring, by ring, by ring⟩

private theorem map_mirror (l : List Stretch) : l.map (variant 1 (-1) 1) = l.map mirrorStretch :=
  List.map_congr_left fun a _ => by simp [variant, mirrorStretch]

private theorem map_flip (l : List Stretch) : l.map (variant 1 1 (-1)) = l.map flipStretch :=
  List.map_congr_left fun a _ => by simp [variant, flipStretch]

private theorem lengths_mirror {R : ℝ} {a b : PoseR} {x : ℝ} (h : x ∈ familyLengths R a b) :
    x ∈ familyLengths R (mirrorPose a) (mirrorPose b) := by
  obtain ⟨l, hf, hs, rfl⟩ := h
  refine ⟨l.map mirrorStretch, ?_, ?_, (totalLength_mirror l).symm⟩
  · rw [← map_mirror]; exact family_map (Or.inr rfl) (Or.inl rfl) hf
  · rw [driveAll_mirror]
    exact ⟨by simp only [mirrorPose, hs.1], hs.2.neg⟩

private theorem lengths_flip {R : ℝ} {a b : PoseR} {x : ℝ} (h : x ∈ familyLengths R a b) :
    x ∈ familyLengths R (flipPose a) (flipPose b) := by
  obtain ⟨l, hf, hs, rfl⟩ := h
  refine ⟨l.map flipStretch, ?_, ?_, (totalLength_flip l).symm⟩
  · rw [← map_flip]; exact family_map (Or.inl rfl) (Or.inr rfl) hf
  · rw [driveAll_flip]
    exact ⟨by simp only [flipPose, hs.1], hs.2.neg⟩

/-- C123. Neither does reflecting the plane in the x-axis. -/
theorem C123_mirror (a b : PoseR) (R : ℝ) (hR : 0 < R) :
    RS.shortestDistance ⟨⟨a.position.x, -a.position.y⟩, -a.theta⟩ ⟨⟨b.position.x, -b.position.y⟩, -b.theta⟩ R =
    RS.shortestDistance a b R := by
  refine distance_eq hR hR fun x => ⟨fun h => ?_, fun h => lengths_mirror h⟩
  have := lengths_mirror h
  simpa [mirrorPose] using this

/-- C123. Neither does exchanging forward and backward: the poses are reflected in the y-axis, the cars
point the other way. -/
theorem C123_reverse (a b : PoseR) (R : ℝ) (hR : 0 < R) :
    RS.shortestDistance ⟨⟨-a.position.x, a.position.y⟩, -a.theta⟩ ⟨⟨-b.position.x, b.position.y⟩, -b.theta⟩ R =
    RS.shortestDistance a b R := by
  refine distance_eq hR hR fun x => ⟨fun h => ?_, fun h => lengths_flip h⟩
  have := lengths_flip h
  simpa [flipPose] using this

private theorem lengths_scale {s R : ℝ} (hs0 : 0 < s) {a b : PoseR} {x : ℝ} (h : x ∈ familyLengths R a b) :
    x * s ∈ familyLengths (s * R) (scalePose s a) (scalePose s b) := by
  obtain ⟨l, ⟨k, d, hk, hd, c, hc, rfl⟩, hs, rfl⟩ := h
  refine ⟨(c.map (variant R k d)).map (scaleStretch s), ⟨k, d, hk, hd, c, hc, ?_⟩, ?_, (totalLength_scale s _).symm⟩
  · rw [List.map_map]
    refine List.map_congr_left fun a _ => ?_
    simp only [Function.comp, variant, scaleStretch, Stretch.mk.injEq]
    exact ⟨by rw [div_div, mul_comm R s], trivial, by ring⟩
  · rw [driveAll_scale hs0.ne']
    exact ⟨by simp only [scalePose, hs.1], hs.2⟩

/-- C123. Scaling the positions and the turning radius by `s` does not change the distance, which is
normalised by the turning radius. -/
theorem C123_scale (a b : PoseR) (R s : ℝ) (hR : 0 < R) (hs : 0 < s) :
    RS.shortestDistance ⟨⟨s * a.position.x, s * a.position.y⟩, a.theta⟩
      ⟨⟨s * b.position.x, s * b.position.y⟩, b.theta⟩ (s * R) = RS.shortestDistance a b R := by
  refine distance_eq (by positivity) hR fun x => ⟨fun h => ?_, fun h => ?_⟩
  · have := lengths_scale (inv_pos.mpr hs) h
    simp only [scalePose, inv_mul_cancel_left₀ hs.ne'] at this
    rwa [show x * (s * R) * s⁻¹ = x * R by field_simp] at this
  · have := lengths_scale hs h
    rwa [show x * R * s = x * (s * R) by ring] at this

private theorem shape_nonneg {b : List Stretch} (hb : BaseShape b) : ∀ s ∈ b, 0 ≤ s.length := by
  have hp := pi_pos
  have hq : 0 ≤ π / 2 := by linarith
  intro s hs
  cases hb with
  | _ =>
    simp [turnLeft, turnRight, straight] at hs
    rcases hs with rfl | rfl | rfl | rfl | rfl <;> first | assumption | exact And.left ‹_›

/-- C123. The distance is 0 exactly between equal poses. -/
theorem C123_zero (a b : PoseR) (R : ℝ) (hR : 0 < R) :
    RS.shortestDistance a b R = some 0 ↔ SamePose a b := by
  obtain ⟨d, h1, h2⟩ := C122_distance a b R hR
  have hp := pi_pos
  rw [h1]
  constructor
  · intro h
    have hd : d = 0 := Option.some.inj h
    obtain ⟨l, hf, hs, hx⟩ := h2.1
    rw [hd, zero_mul] at hx
    refine SamePose.trans ?_ hs
    have hnn : ∀ s ∈ l, 0 ≤ s.length := by
      obtain ⟨k, d, hk, hd, b, hb, rfl⟩ := hf
      intro s hs
      obtain ⟨s', hs', rfl⟩ := List.mem_map.mp hs
      refine mul_nonneg ?_ hR.le
      exact shape_nonneg hb s' hs'
    have hz : ∀ s ∈ l, s.length = 0 := by
      intro s hs
      have h := List.single_le_sum (l := l.map (·.length))
        (by intro x hx; obtain ⟨y, hy, rfl⟩ := List.mem_map.mp hx; exact hnn y hy) s.length
        (List.mem_map_of_mem hs)
      rw [show (l.map (·.length)).sum = 0 from hx.symm] at h
      exact le_antisymm h (hnn s hs)
    have : ∀ l' : List Stretch, (∀ s ∈ l', s.length = 0) → driveAll a l' = a := by
      intro l' hl'
      induction l' with
      | nil => rfl
      | cons s l' ih =>
        rw [driveAll, hl' s (by simp), mul_zero, arc_zero]
        exact ih fun x hx => hl' x (by simp [hx])
    rw [this l hz]; exact .refl _
  · intro h
    have hm : 0 ∈ familyLengths R a b := by
      refine ⟨[turnLeft 1 0, straight 1 0, turnLeft 1 0].map (variant R 1 1),
        ⟨1, 1, Or.inl rfl, Or.inl rfl, _, .csc_same 0 0 0 ⟨le_rfl, hp.le⟩ le_rfl ⟨le_rfl, hp.le⟩, rfl⟩, ?_, ?_⟩
      · simpa [driveAll, variant, turnLeft, straight, arc_zero] using h
      · simp [totalLength, variant, turnLeft, straight]
    have h0 : d * R ≤ 0 := h2.2 hm
    have h3 := C50_shortest_at_least_euclidean a b R hR
    obtain ⟨-, -, -, -, -, len, -, -, hd, hl, -⟩ := C50_shortest_partial a b R hR
    rw [h1] at hd
    rw [hl, ← Option.some.inj hd] at h3
    have h4 : d * R = 0 := le_antisymm h0 ((sqrt_nonneg _).trans h3)
    rw [(mul_eq_zero.mp h4).resolve_right hR.ne']

example : RS.shortestDistance ⟨⟨1, 2⟩, 1⟩ ⟨⟨1, 2⟩, 1 + 2 * π⟩ 3 = some 0 :=
  (C123_zero _ _ 3 (by norm_num)).mpr ⟨rfl, -1, by push_cast; ring⟩

end PathPlanning
