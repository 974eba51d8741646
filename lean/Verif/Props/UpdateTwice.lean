import Verif.Props.VoronoiLate
import Verif.Props.MapUpdate
import Verif.Props.HybridPlanner

/-!
# C176: updating again changes nothing

An application updates the map at every cycle, whether or not obstacles have changed.
-/

namespace PathPlanning
open Spec

/-- The calls `Update` of the occupancy map and of its Voronoi map. -/
def Spec.MapOnlyUpdates (ops : List MapState.Op) : Prop := ∀ o ∈ ops, o = .update ∨ o = .updateEdges

private theorem mapRun_idle {s t : MapState} {os : List MapState.Op} (r : MapState.Run s os t) (ho : MapOnlyUpdates os)
    (hq : s.dist.core.queue = []) (he : ∀ e, s.dist.edges = some e → e.queue = []) : t = s := by
  induction r with
  | nil => rfl
  | @snoc s' s'' os o r c ih =>
    have h := ih (fun o h => ho o (List.mem_append_left _ h))
    rw [h] at c
    rcases ho o (List.mem_append_right _ (List.mem_singleton_self _)) with rfl | rfl
    · cases c with
      | update hf hu => cases hu with | update u => rw [u.idle hq]
    · cases c with
      | updateEdges hu =>
        cases hu with
        | updateEdges h1 u =>
          rw [u.idle (he _ h1), ← h1]

/-- C176: once the map has been updated, updating it again, however often, changes nothing: the obstacles, the
occupancy matrix, the distances, the nearest obstacles and the Voronoi edges all stay what they are. -/
theorem C176_map {s s' t : MapState} {n : Nat} (u : MapState.Call s .update s')
    (r : MapState.Run s' (List.replicate n .update) t) : t = s' := by
  have hq : s'.dist.core.queue = [] := by
    cases u with
    | update hf hu => cases hu with | update u => exact u.2
  clear u
  induction n generalizing t with
  | zero =>
    generalize hos : List.replicate 0 MapState.Op.update = os at r
    cases r with
    | nil => rfl
    | snoc _ _ => simp at hos
  | succ n ih =>
    rw [List.replicate_succ'] at r
    generalize hos : List.replicate n MapState.Op.update ++ [MapState.Op.update] = os at r
    cases r with
    | nil => simp at hos
    | snoc r c =>
      obtain ⟨h1, h2⟩ := List.append_inj' hos rfl
      injection h2 with h2
      subst h1 h2
      have h := ih r
      subst h
      cases c with
      | update hf hu => cases hu with | update u => rw [u.idle hq]

/-- C176: the same after an update of the map and of its Voronoi map, for any further updates of either. -/
theorem C176_map_and_diagram {s s1 s2 t : MapState} {ops : List MapState.Op} (u : MapState.Call s .update s1)
    (v : MapState.Call s1 .updateEdges s2) (ho : MapOnlyUpdates ops) (r : MapState.Run s2 ops t) : t = s2 := by
  have hq : s1.dist.core.queue = [] := by
    cases u with
    | update hf hu => cases hu with | update u => exact u.2
  refine mapRun_idle r ho ?_ ?_
  · cases v with
    | updateEdges hu => cases hu with | updateEdges _ _ => exact hq
  · intro e he
    cases v with
    | updateEdges hu =>
      cases hu with
      | updateEdges _ u =>
        injection he with he
        rw [← he]; exact u.2

/-- C176: the update of a diagram, with its potential, does nothing the second time, whatever has been written into
the occupancy matrix without telling the distance map. -/
theorem C176_diagram {g g' g'' : GVD} {occ occ' : Cell → Int} (u : GVD.Update occ g g') (v : GVD.Update occ' g' g'') :
    g'' = g' := by
  obtain ⟨m1, e1, e2, u1, h1, u2, rfl⟩ := u
  obtain ⟨n1, f1, f2, v1, k1, v2, rfl⟩ := v
  have hn := v1.idle u1.2
  subst hn
  injection k1 with k1
  subst k1
  have hf := v2.idle u2.2
  subst hf
  simp only [GVD.mk.injEq, true_and]
  funext c
  unfold GVD.updateCost
  dsimp only
  split <;> rfl

/-- C176: the second update ends at once: it can always be made. -/
theorem C176_second_update_exists {s s' : MapState} (u : MapState.Call s .update s') : MapState.Call s' .update s' := by
  cases u with
  | update hf hu =>
    cases hu with
    | update u => exact .update hf (.update ⟨.refl, u.2⟩)

/-- Non-vacuity: an obstacle is added to a map, its diagram is made, both are updated, and again. -/
example : ∃ s s1 s2 : MapState, MapState.Run (.new 10 10) (exOneObstacle [⟨2, 2⟩] ++ [.link]) s ∧
    MapState.Call s .update s1 ∧ MapState.Call s1 .updateEdges s2 ∧ MapState.Run s2 [.update] s2 ∧
    s2.dist.core.dist ⟨2, 2⟩ = 0 := by
  obtain ⟨t, r⟩ := C90_histories_execute (rows := 10) (columns := 10) (exOneObstacle [⟨2, 2⟩]) (by
    intro o cells hm c hc
    simp [exOneObstacle] at hm
    obtain ⟨-, rfl⟩ := hm
    simp at hc
    subst hc
    simp [InRect]) (by simp [exOneObstacle])
  have c1 : MapState.Call t .link { t with dist := t.dist.linkVoronoi } := .link .link
  have r1 := r.snoc c1
  obtain ⟨dops, inv⟩ := MapState.inv_run r1
  obtain ⟨f, hf, -⟩ := inv.agree
  obtain ⟨d, u⟩ := (ObstDistMap.run_ginv inv.dist).1.exists_update f
  obtain ⟨t1, ht1⟩ : ∃ t1, t1 = ({ obs := t.obs, dist := d } : MapState) := ⟨_, rfl⟩
  have c2 : MapState.Call _ .update t1 := ht1 ▸ MapState.Call.update hf (.update u)
  have hl : d.edges.isSome = true := update_linked (ObstDistMap.run_ginv inv.dist).1 u (by
    show (ObstDistMap.linkVoronoi _).edges.isSome = true
    unfold ObstDistMap.linkVoronoi
    split
    · rename_i h; rw [h]; rfl
    · rfl)
  obtain ⟨e, he⟩ := Option.isSome_iff_exists.mp hl
  obtain ⟨eops, re⟩ := (C34_linked_maps (inv.dist.append (.cons (.update u) .nil))).2 e he
  obtain ⟨e', ue⟩ := (DistMap.run_inv re).1.exists_update
  have c3 : MapState.Call t1 .updateEdges _ :=
    .updateEdges (.updateEdges (show t1.dist.edges = some e by rw [ht1]; exact he) ue)
  refine ⟨_, _, _, r1, c2, c3, .snoc (os := []) .nil ?_, ?_⟩
  · subst ht1; exact .update hf (.update ⟨.refl, u.2⟩)
  have he' : obstacleOps ((exOneObstacle [⟨2, 2⟩] ++ [.link]) ++ [.update] ++ [.updateEdges]) =
      obstacleOps (exOneObstacle [⟨2, 2⟩]) := rfl
  refine (C90_distance_zero_iff_covered ((r1.snoc c2).snoc c3) ⟨?_, ?_⟩ ⟨2, 2⟩ (by simp [InRect])).mpr ?_
  · rw [he']; exact (exOne_tidy _).still
  · rw [he']; exact (exOne_tidy _).apart
  · unfold Covered
    rw [he']
    exact (exOne_covered _ _).mpr (by simp)

end PathPlanning
