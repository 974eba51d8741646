import Verif.Props.Smoother
import Verif.Props.SmootherGrad

/-!
# C76, C77: what the smoother does to a path that needs no smoothing
-/

namespace PathPlanning
open Real Spec Smoother

/-- C77, false of the code: the term on the error to the requested path has the wrong sign. It is the
gradient of *minus* half the weighted squared distance to the requested point. -/
theorem C77_path_term_negated (q : SmoothParam) (requested p : Pt) :
    IsGradient (fun p => -(q.pathWeight / 2 * dist2 p requested ^ 2)) p (q.pathTerm requested p) := by
  intro vx vy
  have l : ∀ a v c : ℝ, HasDerivAt (fun t : ℝ => a + t * v - c) v 0 := fun a v c => by
    simpa using (((hasDerivAt_id (0 : ℝ)).mul_const v).const_add a).sub_const c
  have h := ((((l p.x vx requested.x).pow 2).add ((l p.y vy requested.y).pow 2)).const_mul
    (q.pathWeight / 2)).neg
  have hf : (fun t : ℝ => -(q.pathWeight / 2 * dist2 ⟨p.x + t * vx, p.y + t * vy⟩ requested ^ 2)) = _ :=
    funext fun t => by rw [dist2_sq]
  rw [hf]
  refine h.congr_deriv ?_
  simp [SmoothParam.pathTerm, Pt.scale]
  ring

/-- C77, false of the code: a step with this term takes the point away from the requested one, by the
factor `1 + learningRate * pathWeight`. (The default weight is 0.) -/
theorem C77_path_term_moves_away (q : SmoothParam) (requested p : Pt) (hr : 0 ≤ q.learningRate)
    (hw : 0 ≤ q.pathWeight) :
    dist2 (p - (q.pathTerm requested p).scale q.learningRate) requested =
      (1 + q.learningRate * q.pathWeight) * dist2 p requested := by
  have h0 : 0 ≤ 1 + q.learningRate * q.pathWeight := by positivity
  unfold dist2
  rw [← Real.sqrt_sq h0, ← Real.sqrt_mul (by positivity)]
  congr 1
  simp only [SmoothParam.pathTerm, Pt.scale, Pt.sub_x, Pt.sub_y]
  ring

/-- C77: with the default weight 0 the term has no effect, so that the requested point is not left because of
it. (For a positive weight the claim is false, `C77_path_term_moves_away`.) -/
theorem C77_path_term_default_partial (q : SmoothParam) (hw : q.pathWeight = 0) (requested p : Pt) :
    dist2 (p - (q.pathTerm requested p).scale q.learningRate) requested = dist2 p requested := by
  simp [SmoothParam.pathTerm, Pt.scale, hw, dist2]

/-- With weight 1 and rate 1/100, a deviation of 1 becomes 1.01. -/
example : dist2 ((⟨1, 0⟩ : Pt) - (SmoothParam.pathTerm { SmoothParam.default 1 1 with pathWeight := 1 }
    ⟨0, 0⟩ ⟨1, 0⟩).scale (1 / 100)) ⟨0, 0⟩ = 1.01 := by
  have h := C77_path_term_moves_away { SmoothParam.default 1 1 with pathWeight := 1 } ⟨0, 0⟩ ⟨1, 0⟩
    (by norm_num [SmoothParam.default]) (by norm_num)
  have h1 : dist2 ⟨1, 0⟩ ⟨0, 0⟩ = 1 := by
    unfold dist2
    norm_num
  rw [h1] at h
  refine h.trans ?_
  norm_num [SmoothParam.default]

/-- The whole gradient of a point on an evenly spaced straight line. -/
theorem terms_point_straight (q : SmoothParam) (map : OccMap) (ob ed : Cell → Cell) (c v g : Pt) :
    (q.terms map ob ed).point c ⟨c.x - 2 * v.x, c.y - 2 * v.y⟩ ⟨c.x - v.x, c.y - v.y⟩ c
        ⟨c.x + v.x, c.y + v.y⟩ ⟨c.x + 2 * v.x, c.y + 2 * v.y⟩ g =
      if map.isInsidePos c then
        g + q.collisionTerm (c - map.gridCellToWorldPosition (ob (map.worldPositionToGridCell c true))) +
          q.voronoiTerm (c - map.gridCellToWorldPosition (ob (map.worldPositionToGridCell c true)))
            (c - map.gridCellToWorldPosition (ed (map.worldPositionToGridCell c true)))
      else g := by
  have h1 : q.pathTerm c c = ⟨0, 0⟩ := by ext <;> simp [SmoothParam.pathTerm, Pt.scale]
  have h2 : q.smoothTerm ⟨c.x - 2 * v.x, c.y - 2 * v.y⟩ ⟨c.x - v.x, c.y - v.y⟩ c
      ⟨c.x + v.x, c.y + v.y⟩ ⟨c.x + 2 * v.x, c.y + 2 * v.y⟩ = ⟨0, 0⟩ := by
    ext
    · simp only [SmoothParam.smoothTerm, Pt.scale, Pt.add_x, Pt.sub_x]; ring
    · simp only [SmoothParam.smoothTerm, Pt.scale, Pt.add_y, Pt.sub_y]; ring
  have hz : ∀ z : Pt, z + ⟨0, 0⟩ = z := fun z => by ext <;> simp
  simp only [SmoothParam.terms]
  rw [h1, h2, hz, hz]

/-- On a straight line there is no curvature term. -/
theorem curvatureTerm_straight (q : SmoothParam) (hk : 0 ≤ q.maxCurvature) (c v a b d : Pt)
    (hv : v ≠ ⟨0, 0⟩) :
    q.curvatureTerm ⟨c.x - v.x, c.y - v.y⟩ c ⟨c.x + v.x, c.y + v.y⟩ a b d = (a, b, d) := by
  have h1 : c - ⟨c.x - v.x, c.y - v.y⟩ = v := by ext <;> simp
  have h2 : (⟨c.x + v.x, c.y + v.y⟩ : Pt) - c = v := by ext <;> simp
  have hn : v.norm ^ 2 = v.x ^ 2 + v.y ^ 2 := Real.sq_sqrt (by positivity)
  have hp : 0 < v.norm := by
    refine Real.sqrt_pos.mpr ?_
    rcases eq_or_ne v.x 0 with hx | hx
    · rcases eq_or_ne v.y 0 with hy | hy
      · exact absurd (Pt.ext hx hy) hv
      · positivity
    · positivity
  have hdot : v.normalized.dot v.normalized = 1 := by
    simp only [Pt.normalized, Pt.dot, Pt.scale]
    field_simp
    linarith
  unfold SmoothParam.curvatureTerm
  dsimp only
  rw [h1, h2]
  have hk0 : SmoothParam.kappa v v = 0 := by
    rw [SmoothParam.kappa, SmoothParam.deltaPhi, hdot]
    simp
  rw [hk0, if_pos hk]

variable {H : Type}

/-- C76: an evenly spaced straight path, all of whose points inside the map keep the clearance
`unsafeRadius` (and the cut-off distance of the Voronoi potential, if it has a weight) to what is reported as
the nearest obstacle, is returned unchanged after one iteration. The theorem does not cover a map without
obstacles: there the reported cell is bogus, and the claim is false (`C76_empty_map_moves_points`). -/
theorem C76_straight_unchanged_partial (q : SmoothParam) (map : OccMap) (ob ed : Cell → Cell)
    (hk : 0 ≤ q.maxCurvature) (htol : 0 < q.stepTolerance) (a v : Pt) (hv : v ≠ ⟨0, 0⟩)
    (maxIterations : Int) (hmax : 2 ≤ maxIterations) (valid : Pt × H → Option Bool) (cusp : Nat → Bool)
    (path : List (Pt × H)) (h5 : 5 ≤ path.length)
    (hline : ∀ (i : Nat) (p : Pt × H), path[i]? = some p → p.1 = ⟨a.x + i * v.x, a.y + i * v.y⟩)
    (hclear : ∀ p ∈ path, map.isInsidePos p.1 = true →
      q.unsafeRadius ≤ dist2 p.1 (map.gridCellToWorldPosition (ob (map.worldPositionToGridCell p.1 true))) ∧
      (0 < q.voronoiWeight →
        q.dMax ≤ dist2 p.1 (map.gridCellToWorldPosition (ob (map.worldPositionToGridCell p.1 true)))))
    (hvalid : ∀ p ∈ path, valid p = some true) :
    smooth (q.terms map ob ed) maxIterations valid cusp path = some (.stepTolerance, path, 1) := by
  obtain ⟨T, hT⟩ : ∃ T, T = q.terms map ob ed := ⟨_, rfl⟩
  have hpt : ∀ i, i < path.length →
      (path.map Prod.fst)[i]? = some (⟨a.x + i * v.x, a.y + i * v.y⟩ : Pt) := by
    intro i hi
    rw [List.getElem?_map, List.getElem?_eq_getElem hi, Option.map_some]
    rw [hline i _ (List.getElem?_eq_getElem hi)]
  -- one point
  have hstep : ∀ i, 2 ≤ i → i + 2 < path.length →
      gradientAt T (path.map Prod.fst) (path.map Prod.fst) (List.replicate path.length T.zero) i =
        some (List.replicate path.length T.zero) := by
    intro i h2 hi
    have r : ∀ j, j < path.length → (List.replicate path.length T.zero)[j]? = some T.zero := by
      intro j hj
      simp [hj]
    have rs : ∀ j, (List.replicate path.length T.zero).set j T.zero = List.replicate path.length T.zero := by
      intro j; simp
    unfold gradientAt
    rw [if_neg (by omega), hpt i (by omega), hpt (i - 2) (by omega), hpt (i - 1) (by omega),
      hpt (i + 1) (by omega), hpt (i + 2) (by omega), r i (by omega)]
    simp only [Option.bind_eq_bind, Option.pure_def, Option.bind_some]
    obtain ⟨c, hc⟩ : ∃ c : Pt, c = ⟨a.x + i * v.x, a.y + i * v.y⟩ := ⟨_, rfl⟩
    have em2 : (⟨a.x + (i - 2 : ℕ) * v.x, a.y + (i - 2 : ℕ) * v.y⟩ : Pt) =
        ⟨c.x - 2 * v.x, c.y - 2 * v.y⟩ := by
      rw [hc, Nat.cast_sub h2]; ext <;> push_cast <;> ring
    have em1 : (⟨a.x + (i - 1 : ℕ) * v.x, a.y + (i - 1 : ℕ) * v.y⟩ : Pt) =
        ⟨c.x - v.x, c.y - v.y⟩ := by
      rw [hc, Nat.cast_sub (by omega)]; ext <;> push_cast <;> ring
    have ep1 : (⟨a.x + (i + 1 : ℕ) * v.x, a.y + (i + 1 : ℕ) * v.y⟩ : Pt) =
        ⟨c.x + v.x, c.y + v.y⟩ := by
      rw [hc]; ext <;> push_cast <;> ring
    have ep2 : (⟨a.x + (i + 2 : ℕ) * v.x, a.y + (i + 2 : ℕ) * v.y⟩ : Pt) =
        ⟨c.x + 2 * v.x, c.y + 2 * v.y⟩ := by
      rw [hc]; ext <;> push_cast <;> ring
    rw [em2, em1, ep1, ep2, ← hc]
    have hpoint : T.point c ⟨c.x - 2 * v.x, c.y - 2 * v.y⟩ ⟨c.x - v.x, c.y - v.y⟩ c
        ⟨c.x + v.x, c.y + v.y⟩ ⟨c.x + 2 * v.x, c.y + 2 * v.y⟩ T.zero = T.zero := by
      rw [hT, terms_point_straight]
      by_cases hin : map.isInsidePos c = true
      · rw [if_pos hin]
        have hmem : path[i]'(by omega) ∈ path := List.getElem_mem _
        have hci : (path[i]'(by omega)).1 = c := by
          rw [hline i _ (List.getElem?_eq_getElem (by omega)), hc]
        obtain ⟨c1, c2⟩ := hclear _ hmem (by rw [hci]; exact hin)
        rw [hci] at c1 c2
        have t1 : q.collisionTerm (c - map.gridCellToWorldPosition
            (ob (map.worldPositionToGridCell c true))) = ⟨0, 0⟩ := by
          unfold SmoothParam.collisionTerm
          rw [if_neg (by exact not_lt.mpr c1)]
        have t2 : q.voronoiTerm (c - map.gridCellToWorldPosition (ob (map.worldPositionToGridCell c true)))
            (c - map.gridCellToWorldPosition (ed (map.worldPositionToGridCell c true))) = ⟨0, 0⟩ := by
          unfold SmoothParam.voronoiTerm
          rw [if_neg]
          rintro ⟨k1, k2⟩
          exact absurd k1 (not_lt.mpr (c2 k2))
        rw [t1, t2]
        ext <;> simp [SmoothParam.terms]
      · rw [if_neg hin]
    rw [hpoint, rs, r _ (by omega), r _ (by omega), r _ (by omega)]
    simp only [Option.bind_some]
    have hcv : T.curvature ⟨c.x - v.x, c.y - v.y⟩ c ⟨c.x + v.x, c.y + v.y⟩ T.zero T.zero T.zero =
        (T.zero, T.zero, T.zero) := by
      rw [hT]
      exact curvatureTerm_straight q hk c v _ _ _ hv
    obtain ⟨k, hk1⟩ : ∃ k, k = T.curvature ⟨c.x - v.x, c.y - v.y⟩ c ⟨c.x + v.x, c.y + v.y⟩ T.zero T.zero
      T.zero := ⟨_, rfl⟩
    show some ((((List.replicate path.length T.zero).set (i - 1) (T.curvature ⟨c.x - v.x, c.y - v.y⟩ c
      ⟨c.x + v.x, c.y + v.y⟩ T.zero T.zero T.zero).1).set i (T.curvature ⟨c.x - v.x, c.y - v.y⟩ c
      ⟨c.x + v.x, c.y + v.y⟩ T.zero T.zero T.zero).2.1).set (i + 1) (T.curvature ⟨c.x - v.x, c.y - v.y⟩ c
      ⟨c.x + v.x, c.y + v.y⟩ T.zero T.zero T.zero).2.2) = _
    rw [← hk1, hk1.trans hcv]
    simp only [rs]
  have hgr : gradients T (path.map Prod.fst) (path.map Prod.fst) (indexLoop cusp path.length 0) =
      some (List.replicate path.length T.zero) := by
    unfold gradients
    rw [List.length_map]
    have : ∀ l : List Nat, (∀ i ∈ l, 2 ≤ i ∧ i + 2 < path.length) →
        l.foldlM (gradientAt T (path.map Prod.fst) (path.map Prod.fst))
          (List.replicate path.length T.zero) = some (List.replicate path.length T.zero) := by
      intro l
      induction l with
      | nil => intro _; rfl
      | cons i l ih =>
        intro hl
        rw [List.foldlM_cons, hstep i (hl i (by simp)).1 (hl i (by simp)).2]
        exact ih (fun j hj => hl j (List.mem_cons_of_mem _ hj))
    exact this _ (fun i hi => ⟨((C59_optimised_points _ _ _).mp hi).1, ((C59_optimised_points _ _ _).mp hi).2.1⟩)
  have happ : applyGradients T path (List.replicate path.length T.zero) = path := by
    refine List.ext_getElem? (fun j => ?_)
    refine applyGradients_get T (by rw [hT]; exact terms_move_zero q map ob ed) path _ (by simp) j (fun hj => ?_)
    simp [hj]
  have hsmall : T.small (List.replicate path.length T.zero) = true := by
    rw [hT]
    have h0 : (Pt.mk 0 0).norm = 0 := by simp [Pt.norm]
    have : ∀ n : Nat, List.foldl max 0 (List.replicate n (0 : ℝ)) = 0 := by
      intro n
      induction n with
      | zero => rfl
      | succ n ih => rw [List.replicate_succ, List.foldl_cons, max_self, ih]
    simp [SmoothParam.terms, h0, this, htol]
  have hsafe := (isPathSafe_true valid path).mpr hvalid
  unfold smooth
  rw [if_neg (by omega), ← hT]
  obtain ⟨k, hk2⟩ : ∃ k, maxIterations.toNat = k + 2 := ⟨maxIterations.toNat - 2, by omega⟩
  rw [hk2]
  have hl : loop T (path.map Prod.fst) (indexLoop cusp path.length 0) (k + 2) false path 0 =
      some (.stepTolerance, path, 1) := by
    unfold loop
    rw [if_neg (by simp), hgr]
    simp only [Option.bind_eq_bind, Option.bind_some]
    rw [happ, hsmall]
    unfold loop
    rw [if_pos rfl]
  rw [hl]
  simp only [Option.bind_eq_bind, Option.bind_some]
  rw [hsafe]
  rfl

/-- Where both distances are equal, the sum of the coefficients of the Voronoi term is negative. -/
theorem coefficients_negative (alpha dMax o : ℝ) (ha : 0 < alpha) (ho : 0 < o) (hlt : o < dMax) :
    SmoothParam.pvdo alpha dMax o o + SmoothParam.pvdv alpha dMax o o < 0 := by
  have hd : 0 < dMax := by linarith
  have e : SmoothParam.pvdo alpha dMax o o + SmoothParam.pvdv alpha dMax o o =
      -((alpha / (alpha + o)) * ((dMax - o) / dMax ^ 2) * (1 + (dMax - o) / (2 * (alpha + o)))) := by
    unfold SmoothParam.pvdo SmoothParam.pvdv
    field_simp
    ring
  rw [e]
  have h1 : 0 < dMax - o := by linarith
  have : 0 < (alpha / (alpha + o)) * ((dMax - o) / dMax ^ 2) * (1 + (dMax - o) / (2 * (alpha + o))) := by
    positivity
  linarith

/-- C76, the false part. On a map without obstacles (both distance maps as constructed) the nearest obstacle
and the nearest Voronoi edge are reported in the cell (-1, -1), outside the map. Every evenly spaced straight
path of five points whose middle point is inside the map, less than the cut-off distance `dMax` (30) and at
least `unsafeRadius` from there, is bent by the first iteration. -/
theorem C76_empty_map_moves_points (q : SmoothParam) (map : OccMap) (rows columns : Int)
    (hr : 0 < q.learningRate) (hw : 0 < q.voronoiWeight) (ha : 0 < q.alpha) (hk : 0 ≤ q.maxCurvature)
    (c v : Pt) (hv : v ≠ ⟨0, 0⟩) (hin : map.isInsidePos c = true)
    (h0 : 0 < dist2 c (map.gridCellToWorldPosition ⟨-1, -1⟩))
    (hclear : q.unsafeRadius ≤ dist2 c (map.gridCellToWorldPosition ⟨-1, -1⟩))
    (hlt : dist2 c (map.gridCellToWorldPosition ⟨-1, -1⟩) < q.dMax) :
    ∃ s r n c', smooth (H := Unit)
        (q.terms map (DistMap.new rows columns).obst (DistMap.new rows columns).obst) 1
        (fun _ => some true) (fun _ => false)
        [(⟨c.x - 2 * v.x, c.y - 2 * v.y⟩, ()), (⟨c.x - v.x, c.y - v.y⟩, ()), (c, ()),
          (⟨c.x + v.x, c.y + v.y⟩, ()), (⟨c.x + 2 * v.x, c.y + 2 * v.y⟩, ())] = some (s, r, n) ∧
      r[2]? = some (c', ()) ∧ c' ≠ c := by
  obtain ⟨T, hT⟩ : ∃ T, T = q.terms map (DistMap.new rows columns).obst (DistMap.new rows columns).obst :=
    ⟨_, rfl⟩
  have hob : ∀ x, (DistMap.new rows columns).obst x = ⟨-1, -1⟩ := fun _ => rfl
  obtain ⟨w, hwd⟩ : ∃ w, w = c - map.gridCellToWorldPosition ⟨-1, -1⟩ := ⟨_, rfl⟩
  have hwn : w.norm = dist2 c (map.gridCellToWorldPosition ⟨-1, -1⟩) := by rw [hwd]; rfl
  obtain ⟨o, ho⟩ : ∃ o, o = dist2 c (map.gridCellToWorldPosition ⟨-1, -1⟩) := ⟨_, rfl⟩
  have hpoint : T.point c ⟨c.x - 2 * v.x, c.y - 2 * v.y⟩ ⟨c.x - v.x, c.y - v.y⟩ c
        ⟨c.x + v.x, c.y + v.y⟩ ⟨c.x + 2 * v.x, c.y + 2 * v.y⟩ T.zero =
      w.scale (q.voronoiWeight * ((SmoothParam.pvdo q.alpha q.dMax o o +
        SmoothParam.pvdv q.alpha q.dMax o o) / o)) := by
    rw [hT, terms_point_straight, if_pos hin]
    simp only [hob]
    rw [← hwd]
    have t1 : q.collisionTerm w = ⟨0, 0⟩ := by
      unfold SmoothParam.collisionTerm
      rw [if_neg (by rw [hwn]; exact not_lt.mpr hclear)]
    rw [t1]
    unfold SmoothParam.voronoiTerm
    rw [if_pos ⟨by rw [hwn]; exact hlt, hw⟩, if_pos (by rw [hwn]; exact h0), hwn, ← ho]
    ext
    · simp [SmoothParam.terms, Pt.scale]; ring
    · simp [SmoothParam.terms, Pt.scale]; ring
  have hcv : ∀ x y z, T.curvature ⟨c.x - v.x, c.y - v.y⟩ c ⟨c.x + v.x, c.y + v.y⟩ x y z = (x, y, z) := by
    intro x y z
    rw [hT]
    exact curvatureTerm_straight q hk c v _ _ _ hv
  have hidx : indexLoop (fun _ => false) 5 0 = [2] := by decide +kernel
  obtain ⟨g, hg⟩ : ∃ g, g = w.scale (q.voronoiWeight * ((SmoothParam.pvdo q.alpha q.dMax o o +
        SmoothParam.pvdv q.alpha q.dMax o o) / o)) := ⟨_, rfl⟩
  rw [← hg] at hpoint
  rw [← hT]
  refine ⟨.maxIteration, [(T.move ⟨c.x - 2 * v.x, c.y - 2 * v.y⟩ T.zero, ()),
    (T.move ⟨c.x - v.x, c.y - v.y⟩ T.zero, ()), (T.move c g, ()), (T.move ⟨c.x + v.x, c.y + v.y⟩ T.zero, ()),
    (T.move ⟨c.x + 2 * v.x, c.y + 2 * v.y⟩ T.zero, ())], 1, T.move c g, ?_, rfl, ?_⟩
  · unfold smooth
    rw [if_neg (by simp)]
    simp only [List.length_cons, List.length_nil, List.map_cons, List.map_nil]
    rw [hidx]
    simp only [loop, gradients, gradientAt, List.foldlM_cons, List.foldlM_nil, List.map_cons, List.map_nil,
      List.length_cons, List.length_nil, Int.toNat_one]
    simp [List.replicate, hpoint, hcv, applyGradients, isPathSafe]
  · intro hc
    have hneg := coefficients_negative q.alpha q.dMax o ha (by rw [ho]; exact h0) (by rw [ho]; exact hlt)
    have hop : 0 < o := by rw [ho]; exact h0
    have hs : (q.voronoiWeight * ((SmoothParam.pvdo q.alpha q.dMax o o +
        SmoothParam.pvdv q.alpha q.dMax o o) / o)) ≠ 0 := by
      have : (SmoothParam.pvdo q.alpha q.dMax o o + SmoothParam.pvdv q.alpha q.dMax o o) / o < 0 :=
        div_neg_of_neg_of_pos hneg hop
      exact mul_ne_zero hw.ne' this.ne
    have hmv : T.move c g = c - g.scale q.learningRate := by rw [hT]; rfl
    rw [hmv, hg] at hc
    have hx := congrArg Pt.x hc
    have hy := congrArg Pt.y hc
    simp [Pt.scale, hr.ne', hw.ne'] at hx hy
    have k1 : w.x = 0 := by
      rcases hx with (h | h) | h
      · exact absurd h hneg.ne
      · exact absurd h hop.ne'
      · exact h
    have k2 : w.y = 0 := by
      rcases hy with (h | h) | h
      · exact absurd h hneg.ne
      · exact absurd h hop.ne'
      · exact h
    have : w.norm = 0 := by simp [Pt.norm, k1, k2]
    rw [hwn] at this
    exact h0.ne' this

/-! ## Concrete cases -/

/-- A map of ten by ten cells of one metre, its corner at the origin. -/
private noncomputable def map10 : OccMap := ⟨1, 10, 10, ⟨5, 5⟩, ⟨-5, -5⟩, ⟨0, 0⟩⟩

private theorem map10_inside : map10.isInsidePos ⟨3, 3⟩ = true := by
  have h3 : truncInt 3 = 3 := by
    unfold truncInt
    rw [if_pos (by norm_num)]
    norm_num
  simp [OccMap.isInsidePos, OccMap.worldPositionToGridCell, OccMap.gridPositionToGridCell, map10, h3,
    OccMap.isInsideCell]

private theorem map10_corner : map10.gridCellToWorldPosition ⟨-1, -1⟩ = ⟨-1, -1⟩ := by
  ext <;> simp [OccMap.gridCellToWorldPosition, OccMap.gridCellToGridPosition, map10]

private theorem corner_dist : dist2 ⟨3, 3⟩ ⟨-1, -1⟩ ^ 2 = 32 := by
  rw [dist2_sq]; norm_num

/-- The default parameters on this map meet the hypotheses of `C76_empty_map_moves_points`. -/
example : ∃ s r n c', smooth (H := Unit) ((SmoothParam.default 1 1).terms map10 (DistMap.new 10 10).obst
      (DistMap.new 10 10).obst) 1 (fun _ => some true) (fun _ => false)
      [(⟨3 - 2 * 1, 3 - 2 * 0⟩, ()), (⟨3 - 1, 3 - 0⟩, ()), (⟨3, 3⟩, ()), (⟨3 + 1, 3 + 0⟩, ()),
        (⟨3 + 2 * 1, 3 + 2 * 0⟩, ())] = some (s, r, n) ∧ r[2]? = some (c', ()) ∧ c' ≠ ⟨3, 3⟩ := by
  have hd := corner_dist
  have hnn : 0 ≤ dist2 ⟨3, 3⟩ ⟨-1, -1⟩ := Real.sqrt_nonneg _
  refine C76_empty_map_moves_points (SmoothParam.default 1 1) map10 10 10 ?_ ?_ ?_ ?_ ⟨3, 3⟩ ⟨1, 0⟩ ?_
    map10_inside ?_ ?_ ?_
  · norm_num [SmoothParam.default]
  · norm_num [SmoothParam.default]
  · norm_num [SmoothParam.default]
  · norm_num [SmoothParam.default]
  · intro h
    have := congrArg Pt.x h
    norm_num at this
  · rw [map10_corner]; nlinarith
  · rw [map10_corner]
    have : (SmoothParam.default 1 1).unsafeRadius = 6 / 5 := by
      norm_num [SmoothParam.default, SmoothParam.unsafeRadius]
    rw [this]; nlinarith
  · rw [map10_corner]
    show dist2 ⟨3, 3⟩ ⟨-1, -1⟩ < 30
    nlinarith

/-- Far from the obstacles a straight path is returned as it is. -/
example : smooth (H := Unit) ((SmoothParam.default 1 1).terms map10 (fun _ => ⟨100, 0⟩) (fun _ => ⟨50, 0⟩)) 2000
    (fun _ => some true) (fun _ => false)
    [(⟨0, 0⟩, ()), (⟨1, 0⟩, ()), (⟨2, 0⟩, ()), (⟨3, 0⟩, ()), (⟨4, 0⟩, ())] =
      some (.stepTolerance, [(⟨0, 0⟩, ()), (⟨1, 0⟩, ()), (⟨2, 0⟩, ()), (⟨3, 0⟩, ()), (⟨4, 0⟩, ())], 1) := by
  refine C76_straight_unchanged_partial (SmoothParam.default 1 1) map10 _ _ (by norm_num [SmoothParam.default])
    (by norm_num [SmoothParam.default]) ⟨0, 0⟩ ⟨1, 0⟩ ?_ 2000 (by norm_num) _ _ _ (by simp) ?_ ?_ (by simp)
  · intro h
    have := congrArg Pt.x h
    norm_num at this
  · intro i p hp
    rcases i with _ | _ | _ | _ | _ | i <;> simp at hp <;> subst hp <;> norm_num
  · have hob : map10.gridCellToWorldPosition ⟨100, 0⟩ = ⟨100, 0⟩ := by
      ext <;> simp [OccMap.gridCellToWorldPosition, OccMap.gridCellToGridPosition, map10]
    have hu : (SmoothParam.default 1 1).unsafeRadius = 6 / 5 := by
      norm_num [SmoothParam.default, SmoothParam.unsafeRadius]
    have far : ∀ x : ℝ, x ≤ 4 → 30 ≤ dist2 ⟨x, 0⟩ ⟨100, 0⟩ := by
      intro x hx
      have h1 := dist2_sq ⟨x, 0⟩ ⟨100, 0⟩
      have h2 : 0 ≤ dist2 ⟨x, 0⟩ ⟨100, 0⟩ := Real.sqrt_nonneg _
      by_contra hlt
      push Not at hlt
      simp only at h1
      nlinarith
    intro p hp _
    rw [hob, hu]
    have : ∃ x : ℝ, x ≤ 4 ∧ p.1 = ⟨x, 0⟩ := by
      simp only [List.mem_cons, List.not_mem_nil, or_false] at hp
      rcases hp with rfl | rfl | rfl | rfl | rfl
      · exact ⟨0, by norm_num, rfl⟩
      · exact ⟨1, by norm_num, rfl⟩
      · exact ⟨2, by norm_num, rfl⟩
      · exact ⟨3, by norm_num, rfl⟩
      · exact ⟨4, by norm_num, rfl⟩
    obtain ⟨x, hx, hpx⟩ := this
    have := far x hx
    rw [hpx]
    exact ⟨by linarith, fun _ => this⟩

/-- The default weights and a point of the map meet the hypotheses of the gradient theorems. -/
example : IsGradient (fun p => (2 / 100 : ℝ) * voronoiCost 20 30 (dist2 p ⟨0, 0⟩) (dist2 p ⟨5, 0⟩)) ⟨3, 0⟩
    ((SmoothParam.default 1 1).voronoiTerm ((⟨3, 0⟩ : Pt) - ⟨0, 0⟩) ((⟨3, 0⟩ : Pt) - ⟨5, 0⟩)) := by
  refine C75_voronoi_term (SmoothParam.default 1 1) (by norm_num [SmoothParam.default])
    (by norm_num [SmoothParam.default]) (by norm_num [SmoothParam.default]) _ _ _ ?_ ?_ ?_
  · intro h; have := congrArg Pt.x h; norm_num at this
  · intro h; have := congrArg Pt.x h; norm_num at this
  · have h1 := dist2_sq ⟨3, 0⟩ ⟨0, 0⟩
    have h2 : 0 ≤ dist2 ⟨3, 0⟩ ⟨0, 0⟩ := Real.sqrt_nonneg _
    show dist2 ⟨3, 0⟩ ⟨0, 0⟩ < 30
    simp only at h1
    nlinarith

example : dist2 ((⟨1, 0⟩ : Pt) - ((SmoothParam.default 1 1).collisionTerm ((⟨1, 0⟩ : Pt) - ⟨0, 0⟩)).scale
    (SmoothParam.default 1 1).learningRate) ⟨0, 0⟩ = 1 + 1 / 100 * (2 / 10) * (6 / 5 - 1) := by
  have h1 : dist2 ⟨1, 0⟩ ⟨0, 0⟩ = 1 := by
    unfold dist2
    norm_num
  have hu : (SmoothParam.default 1 1).unsafeRadius = 6 / 5 := by
    norm_num [SmoothParam.default, SmoothParam.unsafeRadius]
  rw [C75_collision_moves_away _ _ _ ?_ ?_ ?_ ?_, h1, hu]
  · rfl
  · intro h; have := congrArg Pt.x h; norm_num at this
  · rw [h1, hu]; norm_num
  · norm_num [SmoothParam.default]
  · norm_num [SmoothParam.default]

/-- A right angle is not on a line. -/
example : ∃ ka kb kc, (SmoothParam.default 1 1).curvatureTerm ⟨2, 0⟩ ⟨3, 0⟩ ⟨3, 1⟩ ⟨0, 0⟩ ⟨0, 0⟩ ⟨0, 0⟩ =
      ((⟨0, 0⟩ : Pt) + ka, (⟨0, 0⟩ : Pt) + kb, (⟨0, 0⟩ : Pt) + kc) := by
  obtain ⟨ka, kb, kc, h, _⟩ := C75_curvature_term (SmoothParam.default 1 1) ⟨2, 0⟩ ⟨3, 0⟩ ⟨3, 1⟩ ⟨0, 0⟩
    ⟨0, 0⟩ ⟨0, 0⟩ (by norm_num)
  exact ⟨ka, kb, kc, h⟩

end PathPlanning
