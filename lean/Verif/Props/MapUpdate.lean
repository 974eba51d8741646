import Verif.Model.MapUpdate
import Verif.Props.ObstacleMap
import Verif.Props.ValidatorMore
import Verif.Props.VoronoiLate

/-!
# C90: from the registered obstacles to the distance map and the state validator
-/

namespace PathPlanning
open Spec Validator

/-- The calls of a history that concern the obstacles. -/
def Spec.obstacleOps (ops : List MapState.Op) : List ObsMap.Op :=
  ops.filterMap fun | .obstacle o => some o | _ => none

/-- The cell is covered by a registered obstacle. -/
def Spec.Covered (ops : List MapState.Op) (c : Cell) : Prop :=
  ∃ o, registered (obstacleOps ops) o = true ∧ c ∈ covers (obstacleOps ops) o

/-- Registered obstacles are neither moved nor overlap. -/
structure Spec.Tidy (ops : List MapState.Op) : Prop where
  still : NoMoveWhileRegistered (obstacleOps ops)
  apart : NoOverlap (obstacleOps ops)

namespace MapState

theorem obstacleOps_snoc (ops : List Op) (o : Op) :
    obstacleOps (ops ++ [o]) = obstacleOps ops ++ (match o with | .obstacle o => [o] | _ => []) := by
  unfold obstacleOps
  rw [List.filterMap_append]
  cases o <;> rfl

theorem run_snoc {ops : List ObsMap.Op} {m0 m m' : ObsMap} {o : ObsMap.Op} (h : m0.run ops = some m)
    (hc : m.call o = some m') : m0.run (ops ++ [o]) = some m' := by
  induction ops generalizing m0 with
  | nil => cases h; simp [ObsMap.run, hc]
  | cons x xs ih =>
    simp only [List.cons_append, ObsMap.run, Option.bind_eq_some_iff] at h ⊢
    obtain ⟨m1, h1, h2⟩ := h
    exact ⟨m1, h1, ih h2⟩

theorem obstacles_snoc (ops : List DistMap.Op) (o : DistMap.Op) (c : Cell) :
    c ∈ obstacles (ops ++ [o]) ↔ match o with
      | .set s => c ∈ obstacles ops ∨ c = s
      | .unset s => c ∈ obstacles ops ∧ c ≠ s
      | .update => c ∈ obstacles ops := by
  rw [ObstDistMap.obstacles_append]
  cases o <;> exact Iff.rfl

theorem obstacles_sets (ops : List DistMap.Op) (l : List Cell) (c : Cell) :
    c ∈ obstacles (ops ++ l.map .set) ↔ c ∈ obstacles ops ∨ c ∈ l := by
  induction l generalizing ops with
  | nil => simp
  | cons a l ih =>
    rw [List.map_cons, show ops ++ DistMap.Op.set a :: l.map .set = (ops ++ [.set a]) ++ l.map .set by simp, ih,
      obstacles_snoc, List.mem_cons]
    tauto

theorem obstacles_unsets (ops : List DistMap.Op) (l : List Cell) (c : Cell) :
    c ∈ obstacles (ops ++ l.map .unset) ↔ c ∈ obstacles ops ∧ c ∉ l := by
  induction l generalizing ops with
  | nil => simp
  | cons a l ih =>
    rw [List.map_cons, show ops ++ DistMap.Op.unset a :: l.map .unset = (ops ++ [.unset a]) ++ l.map .unset by simp,
      ih, obstacles_snoc, List.mem_cons]
    tauto

theorem foldl_write (l : List Cell) (v : Int) (f : Cell → Int) (c : Cell) :
    l.foldl (fun f c => ObsMap.write f c v) f c = if c ∈ l then v else f c := by
  induction l generalizing f with
  | nil => simp
  | cons a l ih =>
    rw [List.foldl_cons, ih]
    by_cases h : c ∈ l
    · simp [h]
    · by_cases h2 : c = a <;> simp [h, h2, ObsMap.write]

theorem calls_sets (l : List Cell) : obstacleCalls ((l.map DistCall.set).map distOp) = l.map .set := by
  induction l with
  | nil => rfl
  | cons a l ih =>
    unfold obstacleCalls at ih ⊢
    simp only [List.map_cons, distOp, List.filterMap_cons, obstacleCall]
    rw [ih]

theorem calls_unsets (l : List Cell) : obstacleCalls ((l.map DistCall.unset).map distOp) = l.map .unset := by
  induction l with
  | nil => rfl
  | cons a l ih =>
    unfold obstacleCalls at ih ⊢
    simp only [List.map_cons, distOp, List.filterMap_cons, obstacleCall]
    rw [ih]

/-- What is known of the map after a history: the history of its distance map, whose obstacles are the occupied
cells of the matrix. -/
structure Inv (rows columns : Int) (ops : List Op) (s : MapState) (dops : List ObstDistMap.Op) : Prop where
  obs : ObsMap.new.initializeSize.run (obstacleOps ops) = some s.obs
  dist : ObstDistMap.Run (.new rows columns) dops s.dist
  agree : ∃ f, s.obs.matrix = some f ∧ ∀ c, c ∈ obstacles (obstacleCalls dops) ↔ f c ≥ 0
  last : ∀ pre, ops = pre ++ [.update] → ∃ d f, dops = d ++ [.update f]
  kept : (∀ o, Op.obstacle (.remove o) ∉ ops) → NoUnset (obstacleCalls dops)

theorem inv_run {rows columns : Int} {ops : List Op} {s : MapState} (r : Run (.new rows columns) ops s) :
    ∃ dops, Inv rows columns ops s dops := by
  obtain ⟨s0, hs0⟩ : ∃ s0, s0 = MapState.new rows columns := ⟨_, rfl⟩
  rw [← hs0] at r
  revert hs0
  induction r with
  | nil =>
    intro hs0
    subst hs0
    refine ⟨[], ⟨rfl, .nil, ⟨_, rfl, fun c => ?_⟩, ?_, ?_⟩⟩
    · constructor
      · intro h; exact h.elim
      · intro h; simp at h
    · intro pre h; simp at h
    · intro _ c hc; cases hc
  | @snoc s1 s2 os o r c ih =>
    intro hs0
    obtain ⟨dops, hobs, hdist, ⟨f, hf, hagree⟩, -, hkept⟩ := ih hs0
    cases c with
    | @obstacle o m d calls hcall hcalls hrun =>
      refine ⟨dops ++ calls.map distOp, ⟨?_, hdist.append hrun, ?_, ?_, ?_⟩⟩
      · rw [obstacleOps_snoc]; exact run_snoc hobs hcall
      · have happ : obstacleCalls (dops ++ calls.map distOp) =
            obstacleCalls dops ++ obstacleCalls (calls.map distOp) := by
          unfold obstacleCalls; rw [List.filterMap_append]
        rw [happ]
        have same : m.matrix = s1.obs.matrix → m.distCalls = s1.obs.distCalls →
            ∃ f, m.matrix = some f ∧ ∀ c, c ∈ obstacles (obstacleCalls dops ++ obstacleCalls (calls.map distOp)) ↔
              f c ≥ 0 := by
          intro h1 h2
          have : calls = [] := by
            rw [h2] at hcalls
            simpa using hcalls
          subst this
          refine ⟨f, by rw [h1, hf], fun c => ?_⟩
          rw [← hagree]
          simp [obstacleCalls]
        cases o with
        | move o cells => cases hcall; exact same rfl rfl
        | add o =>
          simp only [ObsMap.call, Option.map_eq_some_iff, Prod.exists, exists_and_right, exists_eq_right] at hcall
          obtain ⟨b, hcall⟩ := hcall
          unfold ObsMap.addObstacle at hcall
          rw [hf] at hcall
          dsimp only at hcall
          split at hcall
          · cases hcall; exact same rfl rfl
          · cases hcall
            have hc : calls = (s1.obs.boundary o).map .set := by simpa using hcalls.symm
            subst hc
            refine ⟨_, rfl, fun c => ?_⟩
            rw [calls_sets, obstacles_sets, hagree, foldl_write]
            split
            · rename_i h
              constructor
              · intro _; omega
              · intro _; exact Or.inr h
            · rename_i h
              constructor
              · rintro (h' | h')
                · exact h'
                · exact absurd h' h
              · exact Or.inl
        | remove o =>
          simp only [ObsMap.call, Option.map_eq_some_iff, Prod.exists, exists_and_right, exists_eq_right] at hcall
          obtain ⟨b, hcall⟩ := hcall
          unfold ObsMap.removeObstacle at hcall
          rw [hf] at hcall
          dsimp only at hcall
          split at hcall
          · cases hcall; exact same rfl rfl
          · cases hcall
            have hc : calls = (s1.obs.boundary o).map .unset := by simpa using hcalls.symm
            subst hc
            refine ⟨_, rfl, fun c => ?_⟩
            rw [calls_unsets, obstacles_unsets, hagree, foldl_write]
            split
            · rename_i h
              constructor
              · rintro ⟨_, h'⟩; exact absurd h h'
              · intro h'; omega
            · rename_i h
              exact ⟨fun h' => h'.1, fun h' => ⟨h', h⟩⟩
      · intro pre h
        have := (List.append_inj' h rfl).2
        simp at this
      · intro hk
        rw [show obstacleCalls (dops ++ calls.map distOp) = obstacleCalls dops ++ obstacleCalls (calls.map distOp) by
          unfold obstacleCalls; rw [List.filterMap_append]]
        intro c hc
        rcases List.mem_append.mp hc with h | h
        · exact hkept (fun o ho => hk o (List.mem_append_left _ ho)) c h
        · have same : m.distCalls = s1.obs.distCalls → False := by
            intro h2
            have : calls = [] := by
              rw [h2] at hcalls
              simpa using hcalls
            subst this
            simp [obstacleCalls] at h
          cases o with
          | move o cells => cases hcall; exact same rfl
          | remove o => exact hk o (List.mem_append_right _ (List.mem_singleton.mpr rfl))
          | add o =>
            simp only [ObsMap.call, Option.map_eq_some_iff, Prod.exists, exists_and_right, exists_eq_right] at hcall
            obtain ⟨b, hcall⟩ := hcall
            unfold ObsMap.addObstacle at hcall
            rw [hf] at hcall
            dsimp only at hcall
            split at hcall
            · cases hcall; exact same rfl
            · cases hcall
              have hc : calls = (s1.obs.boundary o).map .set := by simpa using hcalls.symm
              subst hc
              rw [calls_sets] at h
              simp at h
    | link hd =>
      refine ⟨dops ++ [.link], ⟨by rw [obstacleOps_snoc]; simpa using hobs, hdist.append (.cons hd .nil), ⟨f, hf, ?_⟩, ?_, ?_⟩⟩
      · intro c
        rw [← hagree, show obstacleCalls (dops ++ [_]) = obstacleCalls dops by
          unfold obstacleCalls; rw [List.filterMap_append]; exact List.append_nil _]
      · intro pre h
        have := (List.append_inj' h rfl).2
        simp at this
      · intro hk
        rw [show obstacleCalls (dops ++ [_]) = obstacleCalls dops by
          unfold obstacleCalls; rw [List.filterMap_append]; exact List.append_nil _]
        exact hkept fun o ho => hk o (List.mem_append_left _ ho)
    | @update d f' hf' hd =>
      refine ⟨dops ++ [.update f'], ⟨by rw [obstacleOps_snoc]; simpa using hobs, hdist.append (.cons hd .nil), ⟨f, hf, ?_⟩, ?_, ?_⟩⟩
      · intro c
        rw [← hagree, show obstacleCalls (dops ++ [.update f']) = obstacleCalls dops ++ [.update] by
          unfold obstacleCalls; rw [List.filterMap_append]; rfl, obstacles_snoc]
      · intro pre h; exact ⟨_, _, rfl⟩
      · intro hk c hc
        rw [show obstacleCalls (dops ++ [.update f']) = obstacleCalls dops ++ [.update] by
          unfold obstacleCalls; rw [List.filterMap_append]; rfl] at hc
        rcases List.mem_append.mp hc with h | h
        · exact hkept (fun o ho => hk o (List.mem_append_left _ ho)) c h
        · simp at h
    | updateEdges hd =>
      refine ⟨dops ++ [.updateEdges], ⟨by rw [obstacleOps_snoc]; simpa using hobs, hdist.append (.cons hd .nil), ⟨f, hf, ?_⟩, ?_, ?_⟩⟩
      · intro c
        rw [← hagree, show obstacleCalls (dops ++ [_]) = obstacleCalls dops by
          unfold obstacleCalls; rw [List.filterMap_append]; exact List.append_nil _]
      · intro pre h
        have := (List.append_inj' h rfl).2
        simp at this
      · intro hk
        rw [show obstacleCalls (dops ++ [_]) = obstacleCalls dops by
          unfold obstacleCalls; rw [List.filterMap_append]; exact List.append_nil _]
        exact hkept fun o ho => hk o (List.mem_append_left _ ho)

end MapState

/-- C90, all histories (overlapping and moved obstacles included), also before an update: the distance map and
`IsOccupied` agree on the obstacle cells. -/
theorem C90_occupied_iff_distance_zero {rows columns : Int} {ops : List MapState.Op} {s : MapState}
    (r : MapState.Run (.new rows columns) ops s) (c : Cell) (hc : InRect rows columns c) :
    s.obs.isOccupied c = some true ↔ s.dist.core.dist c = 0 := by
  obtain ⟨dops, inv⟩ := MapState.inv_run r
  obtain ⟨f, hf, hagree⟩ := inv.agree
  obtain ⟨hr, -⟩ := C34_linked_maps inv.dist
  rw [(C34_obstacles_report_themselves hr c hc).2, hagree]
  simp [ObsMap.isOccupied, hf]

/-- The history of the distance map, when registered obstacles are neither moved nor overlap. -/
theorem MapState.tidy {rows columns : Int} {ops : List MapState.Op} {s : MapState}
    (r : MapState.Run (.new rows columns) ops s) (ht : Tidy ops) :
    ∃ dops, DistMap.Run (.new rows columns) dops s.dist.core ∧ (∀ c, c ∈ obstacles dops ↔ Covered ops c) ∧
      (∀ pre, ops = pre ++ [.update] → ∃ d, dops = d ++ [.update]) ∧
      ((∀ o, MapState.Op.obstacle (.remove o) ∉ ops) → NoUnset dops) := by
  obtain ⟨dops, inv⟩ := MapState.inv_run r
  obtain ⟨f, hf, hagree⟩ := inv.agree
  refine ⟨_, (C34_linked_maps inv.dist).1, fun c => ?_, ?_, inv.kept⟩
  · rw [hagree, Covered, ← C30_occupied_iff_covered_partial _ _ inv.obs ht.still ht.apart c]
    simp [ObsMap.isOccupied, hf]
  · intro pre h
    obtain ⟨d, f, hd⟩ := inv.last pre h
    refine ⟨obstacleCalls d, ?_⟩
    rw [hd]
    unfold obstacleCalls
    rw [List.filterMap_append]
    rfl

/-- C90: the cells at distance 0 are exactly those of the registered obstacles. -/
theorem C90_distance_zero_iff_covered {rows columns : Int} {ops : List MapState.Op} {s : MapState}
    (r : MapState.Run (.new rows columns) ops s) (ht : Tidy ops) (c : Cell) (hc : InRect rows columns c) :
    s.dist.core.dist c = 0 ↔ Covered ops c := by
  obtain ⟨dops, hr, hob, -⟩ := MapState.tidy r ht
  rw [(C34_obstacles_report_themselves hr c hc).2, hob]

/-- C90: after Update, the distance of a cell exceeds the distance to a cell of a registered obstacle by at most
8.3 %. -/
theorem C90_distance_to_registered {rows columns : Int} {ops : List MapState.Op} {s : MapState}
    (r : MapState.Run (.new rows columns) (ops ++ [.update]) s) (ht : Tidy ops) (c : Cell)
    (hc : InRect rows columns c) (o : Cell) (ho : Covered ops o) :
    ∃ d : Nat, s.dist.core.dist c = d ∧ (d : ℝ) ≤ (4 - 2 * √2) * ((sqDist o c : Int) : ℝ) := by
  have hops : obstacleOps (ops ++ [.update]) = obstacleOps ops := by
    rw [MapState.obstacleOps_snoc]; simp
  obtain ⟨dops, hr, hob, hl, -⟩ := MapState.tidy r ⟨by rw [hops]; exact ht.still, by rw [hops]; exact ht.apart⟩
  obtain ⟨d, rfl⟩ := hl ops rfl
  refine C38_at_most_eight_percent_partial hr c hc o ?_
  have : o ∈ obstacles (d ++ [.update]) := by
    rw [hob]; unfold Covered; rw [hops]; exact ho
  rwa [MapState.obstacles_snoc] at this

/-- The distance map of the validator is that of the map after the history. -/
def Spec.SeesMap (v : Validator) (ops : List MapState.Op) : Prop :=
  ∃ s, MapState.Run (.new v.map.rows v.map.columns) ops s ∧ v.dist = s.dist.core

/-- C90: after Update, a state that the validator accepts is at least the safe radius (less 7.7 % and a diagonal of
a cell) away from every cell of every registered obstacle. -/
theorem C90_accepted_state_is_clear (v : Validator) (ops : List MapState.Op) (hv : SeesMap v (ops ++ [.update]))
    (ht : Tidy ops) (hres : 0 < v.map.resolution) (s : PoseR) (ha : v.isStateValid s = some true)
    (o : Cell) (ho : Covered ops o) :
    v.minSafe / √(4 - 2 * √2) - √2 * v.map.resolution ≤ euclid s.position (v.map.gridCellToWorldPosition o) := by
  obtain ⟨st, hr, hd⟩ := hv
  have hops : obstacleOps (ops ++ [.update]) = obstacleOps ops := by
    rw [MapState.obstacleOps_snoc]; simp
  obtain ⟨dops, hrun, hob, hl, -⟩ := MapState.tidy hr ⟨by rw [hops]; exact ht.still, by rw [hops]; exact ht.apart⟩
  obtain ⟨d, rfl⟩ := hl ops rfl
  rw [← hd] at hrun
  have hoo : o ∈ obstacles d := by
    have : o ∈ obstacles (d ++ [.update]) := by
      rw [hob]; unfold Covered; rw [hops]; exact ho
    rwa [MapState.obstacles_snoc] at this
  obtain ⟨b, hb, hacc⟩ := C53_state_valid_iff v (DistMap.run_size hrun) s
  rw [ha] at hb
  injection hb with hb
  have hacc := hacc.mp hb.symm
  have h1 := hacc.clear
  have h2 := reported_le hres hrun o hoo s.position hacc.inside
  have h3 := near_corner hres s.position hacc.inside
  have h4 := euclid_corners v.map hres o (v.map.worldPositionToGridCell s.position true)
  rw [← h4] at h2
  have h5 : √2 < 2 := by
    rw [Real.sqrt_lt' (by norm_num)]; norm_num
  have hk : 0 < √(4 - 2 * √2) := Real.sqrt_pos.mpr (by linarith)
  have h6 : v.minSafe / √(4 - 2 * √2) ≤ euclid (v.map.gridCellToWorldPosition
      (v.map.worldPositionToGridCell s.position true)) (v.map.gridCellToWorldPosition o) := by
    rw [div_le_iff₀ hk, mul_comm]; linarith
  have h7 := euclid_triangle (v.map.gridCellToWorldPosition (v.map.worldPositionToGridCell s.position true))
    s.position (v.map.gridCellToWorldPosition o)
  have h8 : euclid (v.map.gridCellToWorldPosition (v.map.worldPositionToGridCell s.position true)) s.position =
      euclid s.position (v.map.gridCellToWorldPosition (v.map.worldPositionToGridCell s.position true)) := by
    rw [euclid_dist, euclid_dist, dist_comm]
  linarith

/-- C90: as long as no obstacle has been removed, the distance of a cell after Update is the exact distance to some
cell of a registered obstacle, so it is never too small. -/
theorem C90_exact_without_removal {rows columns : Int} {ops : List MapState.Op} {s : MapState}
    (r : MapState.Run (.new rows columns) (ops ++ [.update]) s) (ht : Tidy ops)
    (hk : ∀ o, MapState.Op.obstacle (.remove o) ∉ ops) (hne : ∃ o, Covered ops o) (c : Cell)
    (hc : InRect rows columns c) :
    ∃ o, Covered ops o ∧ ∃ d : Nat, s.dist.core.dist c = d ∧ (d : Int) = sqDist o c := by
  have hops : obstacleOps (ops ++ [.update]) = obstacleOps ops := by
    rw [MapState.obstacleOps_snoc]; simp
  obtain ⟨dops, hr, hob, hl, hkept⟩ :=
    MapState.tidy r ⟨by rw [hops]; exact ht.still, by rw [hops]; exact ht.apart⟩
  obtain ⟨d, rfl⟩ := hl ops rfl
  have hno : NoUnset d := fun c hc => hkept (by
    intro o ho
    rcases List.mem_append.mp ho with h | h
    · exact hk o h
    · simp at h) c (List.mem_append_left _ hc)
  have hiff : ∀ c, c ∈ obstacles d ↔ Covered ops c := by
    intro c
    have := hob c
    rw [MapState.obstacles_snoc] at this
    unfold Covered at this ⊢
    rw [hops] at this
    exact this
  obtain ⟨o, ho, e, he, hle⟩ := C38_never_below_partial hr hno c hc (hne.imp fun o h => (hiff o).mpr h)
  exact ⟨o, (hiff o).mp ho, e, he, hle⟩

/-- The state is inside the bounds of the state space and on the map. -/
structure Spec.WithinBounds (v : Validator) (s : PoseR) : Prop where
  x_ge : v.space.lb.position.x ≤ s.position.x - v.map.localOrigin.x
  x_le : s.position.x - v.map.localOrigin.x ≤ v.space.ub.position.x
  y_ge : v.space.lb.position.y ≤ s.position.y - v.map.localOrigin.y
  y_le : s.position.y - v.map.localOrigin.y ≤ v.space.ub.position.y
  theta_ge : v.space.lb.theta ≤ wrapTheta s.theta
  theta_le : wrapTheta s.theta ≤ v.space.ub.theta
  inside : v.map.isInsidePos s.position = true

/-- C90: as long as no obstacle has been removed, a state within the bounds that is rejected after Update is closer
than the safe radius (plus a diagonal of a cell) to a cell of a registered obstacle. -/
theorem C90_rejected_state_is_near (v : Validator) (ops : List MapState.Op) (hv : SeesMap v (ops ++ [.update]))
    (ht : Tidy ops) (hk : ∀ o, MapState.Op.obstacle (.remove o) ∉ ops) (hne : ∃ o, Covered ops o)
    (hres : 0 < v.map.resolution) (s : PoseR) (hin : WithinBounds v s) (ha : v.isStateValid s = some false) :
    ∃ o, Covered ops o ∧ euclid s.position (v.map.gridCellToWorldPosition o) < v.minSafe + √2 * v.map.resolution := by
  obtain ⟨st, hr, hd⟩ := hv
  have hc := inRect_of_inside hin.inside
  obtain ⟨o, ho, e, he, hle⟩ := C90_exact_without_removal hr ht hk hne _ hc
  refine ⟨o, ho, ?_⟩
  obtain ⟨b, hb, hacc⟩ := C53_state_valid_iff v (by
    obtain ⟨dops, inv⟩ := MapState.inv_run hr
    have := (C34_linked_maps inv.dist).1
    rw [← hd] at this
    exact DistMap.run_size this) s
  rw [ha] at hb
  injection hb with hb
  subst hb
  have hlt : reportedDistance v s.position < v.minSafe := by
    by_contra hge
    push Not at hge
    have := hacc.mpr ⟨hin.x_ge, hin.x_le, hin.y_ge, hin.y_le, hin.theta_ge, hin.theta_le, hin.inside, hge⟩
    cases this
  have hn := near_corner hres _ hin.inside
  have h2 := euclid_triangle s.position (v.map.gridCellToWorldPosition (v.map.worldPositionToGridCell s.position true))
    (v.map.gridCellToWorldPosition o)
  have h3 : reportedDistance v s.position = √((sqDist o (v.map.worldPositionToGridCell s.position true) : Int) : ℝ) *
      v.map.resolution := by
    unfold reportedDistance worldDistance
    rw [hd, he, ← hle]
    rfl
  rw [euclid_corners v.map hres] at h2
  linarith

/-- C90: a position in a cell of a registered obstacle is rejected at once, even before Update. -/
theorem C90_state_on_obstacle_is_rejected (v : Validator) (ops : List MapState.Op) (hv : SeesMap v ops)
    (ht : Tidy ops) (hs : 0 < v.minSafe) (s : PoseR)
    (ho : Covered ops (v.map.worldPositionToGridCell s.position true)) : v.isStateValid s = some false := by
  obtain ⟨st, hr, hd⟩ := hv
  obtain ⟨dops, hrun, hob, -⟩ := MapState.tidy hr ht
  rw [← hd] at hrun
  obtain ⟨b, hb, hacc⟩ := C53_state_valid_iff v (DistMap.run_size hrun) s
  cases b with
  | false => exact hb
  | true =>
    have hacc := hacc.mp rfl
    have h1 := hacc.clear
    have hc := inRect_of_inside hacc.inside
    have h0 := (C34_obstacles_report_themselves hrun _ hc).2.mpr ((hob _).mpr ho)
    unfold reportedDistance worldDistance at h1
    rw [h0] at h1
    have : ObstDistMap.toInt 0 = 0 := rfl
    rw [this] at h1
    simp at h1
    linarith

/-- Calls that place and remove obstacles change the distances of the cells they name only. -/
theorem MapState.unspread {d d' : ObstDistMap} {calls : List DistCall}
    (r : ObstDistMap.Run d (calls.map MapState.distOp) d') (c : Cell)
    (hc : ∀ x ∈ calls, x ≠ .set c ∧ x ≠ .unset c) :
    d'.core.dist c = d.core.dist c ∧ d'.core.rows = d.core.rows ∧ d'.core.columns = d.core.columns := by
  induction calls generalizing d with
  | nil => cases r; exact ⟨rfl, rfl, rfl⟩
  | cons x xs ih =>
    rw [List.map_cons] at r
    cases r with
    | cons k r =>
      obtain ⟨h1, h2, h3⟩ := ih r (fun x hx => hc x (List.mem_cons_of_mem _ hx))
      obtain ⟨n1, n2⟩ := hc x (List.mem_cons_self ..)
      rw [h1, h2, h3]
      cases x with
      | set s =>
        cases k with
        | set hs =>
          unfold DistMap.set at hs
          split at hs
          · cases hs
            refine ⟨?_, rfl, rfl⟩
            show setAt _ s _ c = _
            unfold setAt
            rw [if_neg]
            rintro rfl; exact n1 rfl
          · cases hs
      | unset s =>
        cases k with
        | unset hs =>
          unfold DistMap.unset at hs
          split at hs
          · cases hs
            refine ⟨?_, rfl, rfl⟩
            show setAt _ s _ c = _
            unfold setAt
            rw [if_neg]
            rintro rfl; exact n2 rfl
          · cases hs

/-- C90: an obstacle that is added or removed has no effect on the validity of the states outside its cells until
the map is updated. -/
theorem C90_unseen_before_update {v v' : Validator} {ops : List MapState.Op} {o : Nat} {op : ObsMap.Op}
    (hop : op = .add o ∨ op = .remove o) {s s' : MapState}
    (r : MapState.Run (.new v.map.rows v.map.columns) ops s) (hv : v.dist = s.dist.core)
    (c : MapState.Call s (.obstacle op) s') (hv' : v' = { v with dist := s'.dist.core }) (p : PoseR)
    (hp : v.map.worldPositionToGridCell p.position true ∉ covers (obstacleOps ops) o) :
    v'.isStateValid p = v.isStateValid p := by
  obtain ⟨dops, inv⟩ := MapState.inv_run r
  obtain ⟨f, hf, -⟩ := inv.agree
  have hb : s.obs.boundary o = covers (obstacleOps ops) o := ObsMap.boundary_eq_covers _ _ inv.obs o
  rw [← hb] at hp
  cases c with
  | @obstacle _ m d calls hcall hcalls hrun =>
    have key : ∀ x ∈ calls, x ≠ .set (v.map.worldPositionToGridCell p.position true) ∧
        x ≠ .unset (v.map.worldPositionToGridCell p.position true) := by
      have same : m.distCalls = s.obs.distCalls → calls = [] := by
        intro h2; rw [h2] at hcalls; simpa using hcalls
      rcases hop with rfl | rfl
      · simp only [ObsMap.call, Option.map_eq_some_iff, Prod.exists, exists_and_right, exists_eq_right] at hcall
        obtain ⟨b, hcall⟩ := hcall
        unfold ObsMap.addObstacle at hcall
        rw [hf] at hcall
        dsimp only at hcall
        split at hcall
        · cases hcall; rw [same rfl]; intro x hx; cases hx
        · cases hcall
          have hc : calls = (s.obs.boundary o).map .set := by simpa using hcalls.symm
          subst hc
          intro x hx
          obtain ⟨y, hy, rfl⟩ := List.mem_map.mp hx
          refine ⟨?_, by simp⟩
          intro h; injection h with h; exact hp (h ▸ hy)
      · simp only [ObsMap.call, Option.map_eq_some_iff, Prod.exists, exists_and_right, exists_eq_right] at hcall
        obtain ⟨b, hcall⟩ := hcall
        unfold ObsMap.removeObstacle at hcall
        rw [hf] at hcall
        dsimp only at hcall
        split at hcall
        · cases hcall; rw [same rfl]; intro x hx; cases hx
        · cases hcall
          have hc : calls = (s.obs.boundary o).map .unset := by simpa using hcalls.symm
          subst hc
          intro x hx
          obtain ⟨y, hy, rfl⟩ := List.mem_map.mp hx
          refine ⟨by simp, ?_⟩
          intro h; injection h with h; exact hp (h ▸ hy)
    obtain ⟨h1, h2, h3⟩ := MapState.unspread hrun _ key
    rw [← hv] at h1 h2 h3
    subst hv'
    unfold Validator.isStateValid Validator.obstacleDistance DistMap.read DistMap.inside
    dsimp only
    rw [h1, h2, h3]

/-! ## Executions exist -/

theorem covers_in {rows columns : Int} (ops : List ObsMap.Op)
    (h : ∀ o cells, ObsMap.Op.move o cells ∈ ops → ∀ c ∈ cells, InRect rows columns c) (o : Nat) :
    ∀ c ∈ covers ops o, InRect rows columns c := by
  induction ops using List.reverseRecOn with
  | nil => intro c hc; cases hc
  | append_singleton ops op ih =>
    have ih := ih (fun o cells hm => h o cells (List.mem_append_left _ hm))
    intro c hc
    simp only [covers, List.foldl_append, List.foldl_cons, List.foldl_nil] at hc
    cases op with
    | add _ => exact ih c hc
    | remove _ => exact ih c hc
    | move o' cells =>
      dsimp only at hc
      split at hc
      · exact h o' cells (List.mem_append_right _ (List.mem_singleton.mpr rfl)) c hc
      · exact ih c hc

theorem exists_calls {rows columns : Int} (calls : List DistCall)
    (h : ∀ x ∈ calls, ∀ c, x = .set c ∨ x = .unset c → InRect rows columns c) (d : ObstDistMap)
    (hz : d.core.rows = rows ∧ d.core.columns = columns) :
    ∃ d', ObstDistMap.Run d (calls.map MapState.distOp) d' := by
  induction calls generalizing d with
  | nil => exact ⟨d, .nil⟩
  | cons x xs ih =>
    have ih := ih (fun x hx => h x (List.mem_cons_of_mem _ hx))
    have hx := h x (List.mem_cons_self ..)
    cases x with
    | set c =>
      have hc : d.core.inside c = true := by rw [DistMap.inside_iff, hz.1, hz.2]; exact hx c (Or.inl rfl)
      obtain ⟨m, hm⟩ : ∃ m, d.core.set c = some m ∧ m.rows = d.core.rows ∧ m.columns = d.core.columns := by
        unfold DistMap.set
        rw [if_pos hc]
        exact ⟨_, rfl, rfl, rfl⟩
      obtain ⟨d', hr⟩ := ih { d with core := m } ⟨hm.2.1.trans hz.1, hm.2.2.trans hz.2⟩
      exact ⟨d', .cons (.set hm.1) hr⟩
    | unset c =>
      have hc : d.core.inside c = true := by rw [DistMap.inside_iff, hz.1, hz.2]; exact hx c (Or.inr rfl)
      obtain ⟨m, hm⟩ : ∃ m, d.core.unset c = some m ∧ m.rows = d.core.rows ∧ m.columns = d.core.columns := by
        unfold DistMap.unset
        rw [if_pos hc]
        exact ⟨_, rfl, rfl, rfl⟩
      obtain ⟨d', hr⟩ := ih { d with core := m } ⟨hm.2.1.trans hz.1, hm.2.2.trans hz.2⟩
      exact ⟨d', .cons (.unset hm.1) hr⟩

/-- C90: every history of obstacles with cells in the map, and of updates, has an execution. -/
theorem C90_histories_execute {rows columns : Int} (ops : List MapState.Op)
    (h : ∀ o cells, MapState.Op.obstacle (.move o cells) ∈ ops → ∀ c ∈ cells, InRect rows columns c)
    (hu : MapState.Op.updateEdges ∉ ops) : ∃ s, MapState.Run (.new rows columns) ops s := by
  induction ops using List.reverseRecOn with
  | nil => exact ⟨_, .nil⟩
  | append_singleton ops op ih =>
    obtain ⟨s, r⟩ := ih (fun o cells hm => h o cells (List.mem_append_left _ hm))
      (fun hm => hu (List.mem_append_left _ hm))
    obtain ⟨dops, inv⟩ := MapState.inv_run r
    obtain ⟨f, hf, -⟩ := inv.agree
    cases op with
    | link => exact ⟨_, .snoc r (.link .link)⟩
    | updateEdges => exact absurd (List.mem_append_right _ (List.mem_singleton.mpr rfl)) hu
    | update =>
      obtain ⟨d, u⟩ := (ObstDistMap.run_ginv inv.dist).1.exists_update f
      exact ⟨_, .snoc r (.update hf (.update u))⟩
    | obstacle o =>
      have hz := DistMap.run_size (ObstDistMap.run_ginv inv.dist).2
      have hcov : ∀ o, ∀ c ∈ s.obs.boundary o, InRect rows columns c := by
        intro o
        rw [ObsMap.boundary_eq_covers _ _ inv.obs o]
        refine covers_in _ (fun o cells hm => h o cells (List.mem_append_left _ ?_)) o
        unfold obstacleOps at hm
        obtain ⟨y, hy, hyo⟩ := List.mem_filterMap.mp hm
        cases y <;> simp at hyo
        subst hyo; exact hy
      have go : ∀ (m : ObsMap) (calls : List DistCall), s.obs.call o = some m →
          m.distCalls = s.obs.distCalls ++ calls →
          (∀ x ∈ calls, ∀ c, x = .set c ∨ x = .unset c → InRect rows columns c) →
          ∃ s', MapState.Run (.new rows columns) (ops ++ [.obstacle o]) s' := by
        intro m calls h1 h2 h3
        obtain ⟨d, hd⟩ := exists_calls calls h3 s.dist hz
        exact ⟨_, .snoc r (.obstacle h1 h2 hd)⟩
      cases o with
      | move o cells => exact go _ [] rfl (by simp [ObsMap.moveObstacle]) (by intro x hx; cases hx)
      | add o =>
        by_cases hreg : s.obs.obstacles.any (fun e => e.1 == o) = true
        · refine go s.obs [] ?_ (by simp) (by intro x hx; cases hx)
          simp [ObsMap.call, ObsMap.addObstacle, hf, hreg]
        · refine go { s.obs with
            obstacles := (o, ObsMap.findSmallestIDAvailable s.obs.ids) :: s.obs.obstacles
            ids := ObsMap.setInsert (ObsMap.findSmallestIDAvailable s.obs.ids) s.obs.ids
            matrix := some ((s.obs.boundary o).foldl
              (fun f c => ObsMap.write f c (ObsMap.findSmallestIDAvailable s.obs.ids)) f)
            distCalls := s.obs.distCalls ++ (s.obs.boundary o).map .set } ((s.obs.boundary o).map .set) ?_ rfl ?_
          · simp only [ObsMap.call, ObsMap.addObstacle, hf]
            rw [if_neg hreg]
            rfl
          · intro x hx c hc
            obtain ⟨y, hy, rfl⟩ := List.mem_map.mp hx
            rcases hc with hc | hc
            · injection hc with hc; exact hc ▸ hcov o y hy
            · cases hc
      | remove o =>
        cases hreg : s.obs.obstacles.find? (fun e => e.1 == o) with
        | none =>
          refine go s.obs [] ?_ (by simp) (by intro x hx; cases hx)
          simp [ObsMap.call, ObsMap.removeObstacle, hf, hreg]
        | some e =>
          refine go { s.obs with
            ids := s.obs.ids.erase e.2
            obstacles := s.obs.obstacles.filter (fun e => e.1 != o)
            matrix := some ((s.obs.boundary o).foldl (fun f c => ObsMap.write f c (-1)) f)
            distCalls := s.obs.distCalls ++ (s.obs.boundary o).map .unset } ((s.obs.boundary o).map .unset) ?_ rfl ?_
          · simp only [ObsMap.call, ObsMap.removeObstacle, hf, hreg]
            rfl
          · intro x hx c hc
            obtain ⟨y, hy, rfl⟩ := List.mem_map.mp hx
            rcases hc with hc | hc
            · cases hc
            · injection hc with hc; exact hc ▸ hcov o y hy

/-- An obstacle with these cells is added. -/
def exOneObstacle (cells : List Cell) : List MapState.Op := [.obstacle (.move 0 cells), .obstacle (.add 0)]

theorem exOne_tidy (l : List Cell) : Tidy (exOneObstacle l) := by
  have h : obstacleOps (exOneObstacle l) = [.move 0 l, .add 0] := rfl
  constructor
  · rw [h]
    intro pre o cells post he
    rcases pre with _ | ⟨a, _ | ⟨b, pre⟩⟩ <;> simp at he
    simp [registered]
  · rw [h]
    intro pre o post he
    rcases pre with _ | ⟨a, _ | ⟨b, pre⟩⟩ <;> simp at he
    obtain ⟨rfl, rfl, _⟩ := he
    intro o' _ hreg
    simp [registered] at hreg

theorem exOne_covers (l : List Cell) : covers (obstacleOps (exOneObstacle l)) 0 = l := by
  simp [exOneObstacle, obstacleOps, covers]

theorem exOne_covered (l : List Cell) (c : Cell) : Covered (exOneObstacle l) c ↔ c ∈ l := by
  constructor
  · rintro ⟨o, -, h2⟩
    simp only [exOneObstacle, obstacleOps, covers, List.filterMap_cons, List.filterMap_nil, List.foldl_cons,
      List.foldl_nil] at h2
    split at h2
    · exact h2
    · cases h2
  · intro h
    exact ⟨0, rfl, by rw [exOne_covers]; exact h⟩

/-- On the 10 × 10 map with one obstacle, a state is accepted after the update, if the safe radius is at most the
distance of the cell of the state to the cells of the obstacle. -/
theorem exOne_accepted (l : List Cell) (hl : ∀ c ∈ l, InRect 10 10 c) (hne : l ≠ []) (safe : ℝ)
    (hfar : ∀ c ∈ l, safe ^ 2 ≤ ((sqDist c ⟨8, 8⟩ : Int) : ℝ)) :
    ∃ v : Validator, SeesMap v (exOneObstacle l ++ [.update]) ∧ v.map = exMap ∧ v.minSafe = safe ∧
      v.isStateValid ⟨⟨3, 3⟩, 0⟩ = some true := by
  obtain ⟨st, r⟩ := C90_histories_execute (rows := 10) (columns := 10) (exOneObstacle l ++ [.update]) (by
    intro o cells hm c hc
    simp [exOneObstacle] at hm
    obtain ⟨-, rfl⟩ := hm
    exact hl c hc) (by simp [exOneObstacle])
  obtain ⟨v, hv⟩ : ∃ v : Validator, v = { exValidator st.dist.core with minSafe := safe } := ⟨_, rfl⟩
  have hmap : v.map = exMap := by rw [hv]; rfl
  have hd : v.dist = st.dist.core := by rw [hv]; rfl
  have hcell : v.map.worldPositionToGridCell ⟨3, 3⟩ true = ⟨8, 8⟩ := by
    rw [hmap]
    refine (C28_position_in_cell exMap (by norm_num [exMap]) ⟨8, 8⟩ (by simp [OccMap.isInsideCell, exMap]) ⟨3, 3⟩
      ?_ ?_).1 <;> norm_num [exMap, OccMap.gridCellToWorldPosition, OccMap.gridCellToGridPosition]
  obtain ⟨o, ho, e, he, hle⟩ := C90_exact_without_removal r (exOne_tidy l) (by simp [exOneObstacle])
    (by
      obtain ⟨c, hc⟩ := List.exists_mem_of_ne_nil l hne
      exact ⟨c, (exOne_covered l c).mpr hc⟩) ⟨8, 8⟩ (by simp [InRect])
  have hrep : safe ≤ reportedDistance v ⟨3, 3⟩ := by
    unfold reportedDistance worldDistance
    rw [hcell, hd, he, hmap]
    have : ((ObstDistMap.toInt ((e : Nat) : WithTop Nat) : Int) : ℝ) = ((sqDist o ⟨8, 8⟩ : Int) : ℝ) := by
      rw [← hle]; rfl
    rw [this, show exMap.resolution = 1 from rfl, mul_one]
    exact Real.le_sqrt_of_sq_le (hfar o ((exOne_covered l o).mp ho))
  have sees : SeesMap v (exOneObstacle l ++ [.update]) := ⟨st, by rw [hmap]; exact r, hd⟩
  refine ⟨v, sees, hmap, by rw [hv], ?_⟩
  have hb := ex_acceptable (DistMap.new 10 10) ⟨⟨3, 3⟩, 0⟩ (by norm_num) (by norm_num) (by
    unfold reportedDistance worldDistance
    rw [show (exValidator (DistMap.new 10 10)).map = v.map by rw [hmap]; rfl, hcell, hmap]
    show 1 ≤ √((2147483647 : Int) : ℝ) * 1
    rw [mul_one, Real.one_le_sqrt]
    norm_num)
  have hacc : Acceptable v ⟨⟨3, 3⟩, 0⟩ := by
    refine ⟨?_, ?_, ?_, ?_, ?_, ?_, ?_, by rw [show v.minSafe = safe by rw [hv]]; exact hrep⟩
    · rw [hv]; exact hb.x_ge
    · rw [hv]; exact hb.x_le
    · rw [hv]; exact hb.y_ge
    · rw [hv]; exact hb.y_le
    · rw [hv]; exact hb.theta_ge
    · rw [hv]; exact hb.theta_le
    · rw [hmap]; exact hb.inside
  obtain ⟨dops, inv⟩ := MapState.inv_run r
  have hrun := (C34_linked_maps inv.dist).1
  obtain ⟨b, hb, hb'⟩ := C53_state_valid_iff v (by rw [hv]; exact DistMap.run_size hrun) ⟨⟨3, 3⟩, 0⟩
  rw [hb, hb'.mpr hacc]

/-- Non-vacuity: an obstacle of one cell and a state that is accepted with a safe radius of five metres. -/
example : ∃ v : Validator, SeesMap v (exOneObstacle [⟨2, 2⟩] ++ [.update]) ∧ v.map = exMap ∧ v.minSafe = 5 ∧
    v.isStateValid ⟨⟨3, 3⟩, 0⟩ = some true ∧ Covered (exOneObstacle [⟨2, 2⟩]) ⟨2, 2⟩ := by
  obtain ⟨v, h1, h2, h3, h4⟩ := exOne_accepted [⟨2, 2⟩] (by simp [InRect]) (by simp) 5
    (by simp [sqDist]; norm_num)
  exact ⟨v, h1, h2, h3, h4, (exOne_covered _ _).mpr (by simp)⟩

/-- Non-vacuity: the same validator rejects a state within the bounds, on the obstacle. -/
example : ∃ v : Validator, SeesMap v (exOneObstacle [⟨2, 2⟩] ++ [.update]) ∧ WithinBounds v ⟨⟨-3, -3⟩, 0⟩ ∧
    v.isStateValid ⟨⟨-3, -3⟩, 0⟩ = some false := by
  obtain ⟨st, r⟩ := C90_histories_execute (rows := 10) (columns := 10) (exOneObstacle [⟨2, 2⟩] ++ [.update]) (by
    intro o cells hm c hc
    simp [exOneObstacle] at hm
    obtain ⟨-, rfl⟩ := hm
    simp at hc
    subst hc
    simp [InRect]) (by simp [exOneObstacle])
  have sees : SeesMap (exValidator st.dist.core) (exOneObstacle [⟨2, 2⟩] ++ [.update]) := ⟨st, r, rfl⟩
  have hcell : exMap.worldPositionToGridCell ⟨-3, -3⟩ true = ⟨2, 2⟩ := by
    refine (C28_position_in_cell exMap (by norm_num [exMap]) ⟨2, 2⟩ (by simp [OccMap.isInsideCell, exMap]) ⟨-3, -3⟩
      ?_ ?_).1 <;> norm_num [exMap, OccMap.gridCellToWorldPosition, OccMap.gridCellToGridPosition]
  have hb := ex_acceptable (DistMap.new 10 10) ⟨⟨-3, -3⟩, 0⟩ (by norm_num) (by norm_num) (by
    unfold reportedDistance worldDistance
    show 1 ≤ √((2147483647 : Int) : ℝ) * 1
    rw [mul_one, Real.one_le_sqrt]
    norm_num)
  refine ⟨_, sees, ⟨hb.x_ge, hb.x_le, hb.y_ge, hb.y_le, hb.theta_ge, hb.theta_le, hb.inside⟩, ?_⟩
  have hops : obstacleOps (exOneObstacle [⟨2, 2⟩] ++ [.update]) = obstacleOps (exOneObstacle [⟨2, 2⟩]) := rfl
  refine C90_state_on_obstacle_is_rejected _ _ sees ⟨by rw [hops]; exact (exOne_tidy _).still,
    by rw [hops]; exact (exOne_tidy _).apart⟩ (by norm_num [exValidator]) _ ?_
  show Covered _ (exMap.worldPositionToGridCell ⟨-3, -3⟩ true)
  rw [hcell]
  unfold Covered
  rw [hops]
  exact (exOne_covered _ _).mpr (by simp)

end PathPlanning
