import Verif.Props.PlanOutsideExample

/-!
# C94: the inside of an obstacle
-/

namespace PathPlanning
open Real Spec Validator

theorem sees_sameSize {v : Validator} {ops : List MapState.Op} (hv : SeesMap v ops) : SameSize v := by
  obtain ⟨st, r, hd⟩ := hv
  obtain ⟨dops, inv⟩ := MapState.inv_run r
  have hrun := (C34_linked_maps inv.dist).1
  unfold SameSize
  rw [hd]
  exact DistMap.run_size hrun

/-- C94: only the outlines of the obstacles count: after Update, as long as no obstacle has been removed, a state within
the bounds that is the safe radius (plus less than four cells) away from all outlines is accepted, whether it is outside
or inside an obstacle. -/
theorem C94_deep_inside_accepted (v : Validator) (ops : List MapState.Op) (hv : SeesMap v (ops ++ [.update]))
    (ht : Tidy ops) (hk : ∀ o, MapState.Op.obstacle (.remove o) ∉ ops) (hne : ∃ c, Covered ops c)
    (hres : 0 < v.map.resolution) (pose : Nat → PoseR) (shape : Nat → Shape)
    (hcells : ∀ o, registered (obstacleOps ops) o = true →
      Shape.gridCells v.map (pose o) (shape o) = some (covers (obstacleOps ops) o))
    (s : PoseR) (hin : WithinBounds v s)
    (hfar : ∀ o p, registered (obstacleOps ops) o = true → OnOutline (pose o) (shape o) p →
      v.minSafe + (√2 + √13 / 2) * v.map.resolution ≤ euclid s.position p) :
    v.isStateValid s = some true := by
  obtain ⟨b, hb, -⟩ := C53_state_valid_iff v (sees_sameSize hv) s
  cases b with
  | true => exact hb
  | false =>
    obtain ⟨o, p, h1, h2, h3⟩ := C92_rejected_state_is_near v ops hv ht hk hne hres pose shape hcells s hin hb
    exact absurd (hfar o p h1 h2) (not_le.mpr h3)

/-- The points of a placed rectangle are at most half its smaller side away from its outline. -/
theorem rectangle_near_outline (dx dy : ℝ) (pose : PoseR) (hx : 0 < dx) (hy : 0 < dy) (p : Pt)
    (hp : InsideConvex (placedCorners pose (Shape.rectangle dx dy)) p) :
    ∃ q, OnOutline pose (Shape.rectangle dx dy) q ∧ euclid p q ≤ min dx dy / 2 := by
  obtain ⟨p, rfl⟩ := place_surj pose p
  obtain ⟨h1, h2⟩ := (C72_rectangle dx dy pose hx hy p).mp hp
  rw [abs_le] at h1 h2
  have hdist : ∀ a b : Pt, euclid (Shape.place pose a) (Shape.place pose b) = euclid a b := fun a b =>
    C72_place_isometry pose a b
  have side : ∀ (a b : Pt) (t : ℝ) (hab : IsEdge [(⟨dx / 2, dy / 2⟩ : Pt), ⟨-(dx / 2), dy / 2⟩,
      ⟨-(dx / 2), -(dy / 2)⟩, ⟨dx / 2, -(dy / 2)⟩] a b), 0 ≤ t → t ≤ 1 →
      OnOutline pose (Shape.rectangle dx dy) (Shape.place pose ⟨a.x + t * (b.x - a.x), a.y + t * (b.y - a.y)⟩) := by
    intro a b t hab t0 t1
    have e : Shape.place pose ⟨a.x + t * (b.x - a.x), a.y + t * (b.y - a.y)⟩ =
        ⟨(Shape.place pose a).x + t * ((Shape.place pose b).x - (Shape.place pose a).x),
          (Shape.place pose a).y + t * ((Shape.place pose b).y - (Shape.place pose a).y)⟩ := by
      ext <;> simp only [Shape.place] <;> ring
    rw [e]
    exact .side (isEdge_map' hab) t0 t1
  have nearY : ∀ (a b : Pt) (c : ℝ), a.x = b.x → |a.y - b.y| ≤ c → euclid a b ≤ c := by
    intro a b c hx hy
    rw [euclid, hx, sub_self, ← Real.sqrt_sq_eq_abs] at *
    simpa using hy
  have nearX : ∀ (a b : Pt) (c : ℝ), a.y = b.y → |a.x - b.x| ≤ c → euclid a b ≤ c := by
    intro a b c hx hy
    rw [euclid, hx, sub_self, ← Real.sqrt_sq_eq_abs] at *
    simpa using hy
  rcases le_total dx dy with hxy | hxy
  · rw [min_eq_left hxy]
    rcases le_total 0 p.x with hs | hs
    · refine ⟨_, side ⟨dx / 2, -(dy / 2)⟩ ⟨dx / 2, dy / 2⟩ ((p.y + dy / 2) / dy) ⟨3, rfl, by simp⟩
        (by apply div_nonneg <;> linarith) (by rw [div_le_one hy]; linarith), ?_⟩
      rw [hdist]
      refine nearX _ _ _ ?_ (abs_le.mpr ⟨?_, ?_⟩) <;> dsimp only <;> first | linarith | (field_simp; ring)
    · refine ⟨_, side ⟨-(dx / 2), dy / 2⟩ ⟨-(dx / 2), -(dy / 2)⟩ ((dy / 2 - p.y) / dy) ⟨1, rfl, rfl⟩
        (by apply div_nonneg <;> linarith) (by rw [div_le_one hy]; linarith), ?_⟩
      rw [hdist]
      refine nearX _ _ _ ?_ (abs_le.mpr ⟨?_, ?_⟩) <;> dsimp only <;> first | linarith | (field_simp; ring)
  · rw [min_eq_right hxy]
    rcases le_total 0 p.y with hs | hs
    · refine ⟨_, side ⟨dx / 2, dy / 2⟩ ⟨-(dx / 2), dy / 2⟩ ((dx / 2 - p.x) / dx) ⟨0, rfl, rfl⟩
        (by apply div_nonneg <;> linarith) (by rw [div_le_one hx]; linarith), ?_⟩
      rw [hdist]
      refine nearY _ _ _ ?_ (abs_le.mpr ⟨?_, ?_⟩) <;> dsimp only <;> first | linarith | (field_simp; ring)
    · refine ⟨_, side ⟨-(dx / 2), -(dy / 2)⟩ ⟨dx / 2, -(dy / 2)⟩ ((p.x + dx / 2) / dx) ⟨2, rfl, rfl⟩
        (by apply div_nonneg <;> linarith) (by rw [div_le_one hx]; linarith), ?_⟩
      rw [hdist]
      refine nearY _ _ _ ?_ (abs_le.mpr ⟨?_, ?_⟩) <;> dsimp only <;> first | linarith | (field_simp; ring)

/-- C94, for thin rectangles: after Update, every state inside a registered rectangle is rejected, provided half the
smaller side is less than the safe radius less 7.7 % and less than four cells. -/
theorem C94_thin_rectangle_partial (v : Validator) (ops : List MapState.Op) (hv : SeesMap v (ops ++ [.update]))
    (ht : Tidy ops) (hres : 0 < v.map.resolution) (o : Nat) (ho : registered (obstacleOps ops) o = true)
    (pose : PoseR) (dx dy : ℝ) (hx : 0 < dx) (hy : 0 < dy)
    (hcells : Shape.gridCells v.map pose (Shape.rectangle dx dy) = some (covers (obstacleOps ops) o))
    (hin : ∀ u, IsCorner pose (Shape.rectangle dx dy) u → Inside v.map.size (v.map.worldPositionToGridCell u false))
    (hthin : min dx dy / 2 < v.minSafe / √(4 - 2 * √2) - (√2 + 5 / 2) * v.map.resolution)
    (s : PoseR) (hs : InsideConvex (placedCorners pose (Shape.rectangle dx dy)) s.position) :
    v.isStateValid s = some false := by
  obtain ⟨b, hb, -⟩ := C53_state_valid_iff v (sees_sameSize hv) s
  cases b with
  | false => exact hb
  | true =>
    obtain ⟨q, hq, hd⟩ := rectangle_near_outline dx dy pose hx hy s.position hs
    have := C92_accepted_state_keeps_clear v ops hv ht hres s hb o ho pose _ hcells hin q hq
    linarith

/-- Non-vacuity of `C94_thin_rectangle_partial`: the box of one metre, with a safe radius of six metres. -/
example : ∃ (v : Validator) (ops : List MapState.Op), SeesMap v (ops ++ [.update]) ∧ Tidy ops ∧
    registered (obstacleOps ops) 0 = true ∧ v.map.resolution = 1 ∧
    Shape.gridCells v.map exBoxPose (Shape.rectangle 1 1) = some (covers (obstacleOps ops) 0) ∧
    (∀ u, IsCorner exBoxPose (Shape.rectangle 1 1) u → Inside v.map.size (v.map.worldPositionToGridCell u false)) ∧
    (min 1 1 : ℝ) / 2 < v.minSafe / √(4 - 2 * √2) - (√2 + 5 / 2) * v.map.resolution := by
  obtain ⟨cells, hcells, hne, hin, -⟩ := exBox_cells
  obtain ⟨st, r⟩ := C90_histories_execute (rows := 10) (columns := 10) (exOneObstacle cells ++ [.update]) (by
    intro o cells' hm c hc
    simp [exOneObstacle] at hm
    obtain ⟨-, rfl⟩ := hm
    exact hin c hc) (by simp [exOneObstacle])
  refine ⟨{ exValidator st.dist.core with minSafe := 6 }, exOneObstacle cells, ⟨st, r, rfl⟩, exOne_tidy _, rfl, rfl,
    by rw [exOne_covers]; exact hcells, exBox_inside, ?_⟩
  show (min 1 1 : ℝ) / 2 < 6 / √(4 - 2 * √2) - (√2 + 5 / 2) * 1
  have s2 : √2 < 1.4143 := by rw [Real.sqrt_lt' (by norm_num)]; norm_num
  have s2' : 1.414 < √2 := by rw [Real.lt_sqrt (by norm_num)]; norm_num
  have hk : √(4 - 2 * √2) < 1.1 := by rw [Real.sqrt_lt' (by norm_num)]; norm_num; linarith
  have hk0 : 0 < √(4 - 2 * √2) := Real.sqrt_pos.mpr (by linarith)
  have : 5 < 6 / √(4 - 2 * √2) := by rw [lt_div_iff₀ hk0]; nlinarith
  rw [min_self]
  linarith

/-- A box of nine metres around the origin. -/
theorem exBig_corners (u : Pt) (h : IsCorner ⟨⟨0, 0⟩, 0⟩ (Shape.rectangle 9 9) u) :
    (-4.5 ≤ u.x ∧ u.x ≤ 4.5) ∧ (-4.5 ≤ u.y ∧ u.y ≤ 4.5) := by
  unfold Shape.rectangle at h
  cases h with
  | corner h =>
    simp only [List.mem_cons, List.not_mem_nil, or_false] at h
    rcases h with rfl | rfl | rfl | rfl <;> norm_num [Shape.place]

theorem exBig_inside (u : Pt) (h : IsCorner ⟨⟨0, 0⟩, 0⟩ (Shape.rectangle 9 9) u) :
    Inside exMap.size (exMap.worldPositionToGridCell u false) := by
  obtain ⟨hx, hy⟩ := exBig_corners u h
  have key : ∀ x : ℝ, -4.5 ≤ x → x ≤ 4.5 → 0 ≤ truncInt ((x - -5) / 1) ∧ truncInt ((x - -5) / 1) < 10 := by
    intro x h1 h2
    unfold truncInt
    rw [if_pos (by norm_num; linarith)]
    constructor
    · exact Int.floor_nonneg.mpr (by norm_num; linarith)
    · rw [Int.floor_lt]; push_cast; norm_num; linarith
  obtain ⟨a1, a2⟩ := key u.x hx.1 hx.2
  obtain ⟨b1, b2⟩ := key u.y hy.1 hy.2
  exact ⟨a1, a2, b1, b2⟩

/-- C94 is violated: after Update, the validator accepts a state in the middle of a registered obstacle. -/
theorem C94_inside_accepted : ∃ (v : Validator) (ops : List MapState.Op) (pose : PoseR) (shape : Shape) (s : PoseR),
    SeesMap v (ops ++ [.update]) ∧ Tidy ops ∧ registered (obstacleOps ops) 0 = true ∧ 0 < v.map.resolution ∧
    0 < v.minSafe ∧ Shape.gridCells v.map pose shape = some (covers (obstacleOps ops) 0) ∧
    (∀ u, IsCorner pose shape u → Inside v.map.size (v.map.worldPositionToGridCell u false)) ∧
    TurnsLeft (placedCorners pose shape) ∧ InsideConvex (placedCorners pose shape) s.position ∧
    v.isStateValid s = some true := by
  obtain ⟨cells, hcells, hcorner, hin, -⟩ := C33_polygon_boundary_closed exMap ⟨⟨0, 0⟩, 0⟩ ⟨9 / 2, 9 / 2⟩
    [⟨-(9 / 2), 9 / 2⟩, ⟨-(9 / 2), -(9 / 2)⟩, ⟨9 / 2, -(9 / 2)⟩] (fun u hu => exBig_inside _ (.corner hu))
  obtain ⟨st, r⟩ := C90_histories_execute (rows := 10) (columns := 10) (exOneObstacle cells ++ [.update]) (by
    intro o cells' hm c hc
    simp [exOneObstacle] at hm
    obtain ⟨-, rfl⟩ := hm
    exact hin c hc) (by simp [exOneObstacle])
  obtain ⟨v, hve⟩ : ∃ v, v = exValidator st.dist.core := ⟨_, rfl⟩
  have hmap : v.map = exMap := by rw [hve]; rfl
  have sees : SeesMap v (exOneObstacle cells ++ [.update]) := ⟨st, by rw [hmap]; exact r, by rw [hve]; rfl⟩
  refine ⟨v, exOneObstacle cells, ⟨⟨0, 0⟩, 0⟩, Shape.rectangle 9 9, ⟨⟨0, 0⟩, 0⟩, sees, exOne_tidy _, rfl,
    by rw [hmap]; norm_num [exMap], by rw [hve]; norm_num [exValidator], by rw [exOne_covers, hmap]; exact hcells,
    by rw [hmap]; exact exBig_inside, (C93_library_shapes _).1 9 9 (by norm_num) (by norm_num), ?_, ?_⟩
  · have h := (C72_rectangle 9 9 ⟨⟨0, 0⟩, 0⟩ (by norm_num) (by norm_num) ⟨0, 0⟩).mpr (by norm_num)
    have e : Shape.place ⟨⟨0, 0⟩, 0⟩ ⟨0, 0⟩ = ⟨0, 0⟩ := by ext <;> simp [Shape.place]
    rw [e] at h
    exact h
  · refine C94_deep_inside_accepted v _ sees (exOne_tidy _) (by simp [exOneObstacle])
      ⟨_, (exOne_covered cells _).mpr (hcorner _ (List.mem_cons_self ..))⟩ (by rw [hmap]; norm_num [exMap])
      (fun _ => ⟨⟨0, 0⟩, 0⟩) (fun _ => Shape.rectangle 9 9) ?_ _ ?_ ?_
    · intro o ho
      have : o = 0 := by
        by_contra hne
        simp [registered, obstacleOps, exOneObstacle] at ho
        omega
      subst this
      rw [exOne_covers, hmap]
      exact hcells
    · have hb := ex_acceptable (DistMap.new 10 10) ⟨⟨0, 0⟩, 0⟩ (by norm_num) (by norm_num) (ex_reported _)
      rw [hve]
      exact ⟨hb.x_ge, hb.x_le, hb.y_ge, hb.y_le, hb.theta_ge, hb.theta_le, hb.inside⟩
    · intro o p _ hp
      have hout : 4.5 ≤ |p.x| ∨ 4.5 ≤ |p.y| := by
        unfold Shape.rectangle at hp
        cases hp with
        | @side _ a b t he h0 h1 =>
          obtain ⟨a', b', ⟨i, ha, hb⟩, rfl, rfl⟩ := isEdge_map he
          match i, ha, hb with
          | 0, ha, hb =>
            simp at ha hb; subst ha; subst hb; right; rw [le_abs]; left; norm_num [Shape.place]
          | 1, ha, hb =>
            simp at ha hb; subst ha; subst hb; left; rw [le_abs]; right; norm_num [Shape.place]
          | 2, ha, hb =>
            simp at ha hb; subst ha; subst hb; right; rw [le_abs]; right; norm_num [Shape.place]
          | 3, ha, hb =>
            simp at ha hb; subst ha; subst hb; left; rw [le_abs]; left; norm_num [Shape.place]
          | i + 4, ha, _ => simp at ha
      have h2 : √2 < 1.42 := by rw [Real.sqrt_lt' (by norm_num)]; norm_num
      have h13 : √13 < 3.61 := by rw [Real.sqrt_lt' (by norm_num)]; norm_num
      rw [hmap, show v.minSafe = 1 by rw [hve]; rfl, show exMap.resolution = 1 from rfl]
      obtain ⟨k1, k2⟩ := abs_le_euclid ⟨0, 0⟩ p
      simp only [sub_zero] at k1 k2
      norm_num at hout h2 h13
      rcases hout with h | h <;> (dsimp only; linarith)

end PathPlanning
