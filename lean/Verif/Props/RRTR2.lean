import Verif.Props.RRT
import Verif.Props.Path
import Mathlib.Data.List.MinMax

/-!
# C25, C27 for the plane: RRT and RRT* with straight connections (`PathConnectionR2`)
-/

namespace PathPlanning
open Spec Real

/-- paths/path_r2.h:17-23 and path_r2.cpp: what the planners see of `PathR2`. -/
noncomputable def r2Steering : Steering Pt PathR2 ℝ where
  connect := PathR2.connect
  length p := p.length
  truncate := PathR2.truncate
  final p := p.final

theorem steer_ratio (a t : Pt) (d : ℝ) (hd : 0 ≤ d) : ∃ r, 0 ≤ r ∧ r ≤ 1 ∧
    (r2Steering.steerTowards a t d).final = Pt.lerp a t r ∧
    (r2Steering.steerTowards a t d) = PathR2.connect a (r2Steering.steerTowards a t d).final := by
  unfold Steering.steerTowards
  dsimp only
  split
  · rename_i hl
    have hdiv : 0 ≤ d / r2Steering.length (r2Steering.connect a t) := div_nonneg hd (le_of_lt hl)
    have hr : ∃ r, 0 ≤ r ∧ r ≤ 1 ∧ clampK (d / r2Steering.length (r2Steering.connect a t)) 0 1 = r := by
      unfold clampK
      rw [if_neg (not_lt.mpr hdiv)]
      split
      · exact ⟨1, by norm_num, le_refl _, rfl⟩
      · rename_i h1; exact ⟨_, hdiv, not_lt.mp h1, rfl⟩
    obtain ⟨r, h0, h1, hr⟩ := hr
    rw [hr]
    refine ⟨r, h0, h1, rfl, ?_⟩
    have h2 := (C45_r2_connect a t r h0).2.2.2
    show (⟨a, Pt.lerp a t r, (t - a).norm * r⟩ : PathR2) = ⟨a, Pt.lerp a t r, (Pt.lerp a t r - a).norm⟩
    rw [PathR2.mk.injEq]
    refine ⟨rfl, rfl, ?_⟩
    have h3 : (Pt.lerp a t r - a).norm = r * (t - a).norm := h2
    rw [h3, mul_comm]
  · exact ⟨1, by norm_num, le_refl _, (lerp_one a t).symm, rfl⟩

/-- C25 in the plane: on success `GetPath` goes from the initial point to a point that passes the
goal test through segments no longer than the maximal connection distance, each accepted by the
validator. -/
theorem C25_rrt_r2 [DecidableEq Pt] [Inhabited Pt] {D : Type} [LE D] {dist : Pt → Pt → D}
    (s : RRTSetup Pt PathR2 ℝ) (hst : s.steering = r2Steering) (hd : 0 ≤ s.maxConnectionDistance)
    (L : NearestLaws s.knn dist) (t : Tree Pt) (ht : TreeReachable s.knn t) (init : Pt)
    (r : RRTResult Pt) (h : rrtSearchPath s t init = some r) (hs : r.success = true) :
    ∃ path : List Pt, treeGetPath r.tree r.solution = some path ∧ path.head? = some init ∧
      path.IsChain (fun a b => s.valid (PathR2.connect a b) = true ∧
        √((b.x - a.x) ^ 2 + (b.y - a.y) ^ 2) ≤ s.maxConnectionDistance) ∧
      ∃ g, path.getLast? = some g ∧ s.isSolution g = true := by
  obtain ⟨path, h1, h2, h3, h4⟩ := C25_rrt_path s L t ht init r h hs
  refine ⟨path, h1, h2, h3.imp ?_, h4⟩
  rintro a b ⟨target, h5, h6⟩
  rw [hst] at h5 h6
  obtain ⟨_, _, _, _, h7⟩ := steer_ratio a target _ hd
  have h8 : (r2Steering.steerTowards a target s.maxConnectionDistance).final = b := h6
  rw [h8] at h7
  refine ⟨by rw [← h7]; exact h5, ?_⟩
  have h9 := C25_motion_length r2Steering (fun p r _ _ => (C46_r2 p r 0).2.1) a target
    s.maxConnectionDistance hd
  rw [h7] at h9
  exact h9

/-- In the plane the nearest node of the sample is the nearest node of the new state. -/
theorem r2_nearest_of_final (s : RRTSetup Pt PathR2 ℝ)
    (hst : s.steering = r2Steering) (hd : 0 ≤ s.maxConnectionDistance)
    (L : NearestLaws s.knn (fun v p : Pt => (v.x - p.x) ^ 2 + (v.y - p.y) ^ 2)) (nn : Nat → Nat)
    (hnn : ∀ pts v k p, s.knn.nearest pts v = some p → p ∈ s.knn.knn pts v (nn k)) :
    ∀ pts target a k, s.knn.nearest pts target = some a →
      s.valid (s.steering.steerTowards a target s.maxConnectionDistance) = true →
      a ∈ s.knn.knn pts (s.steering.final (s.steering.steerTowards a target s.maxConnectionDistance)) (nn k) := by
  intro pts target a k hn _
  apply hnn
  rw [hst]
  show s.knn.nearest pts (r2Steering.steerTowards a target s.maxConnectionDistance).final = some a
  obtain ⟨ρ, h0, h1, h2, _⟩ := steer_ratio a target _ hd
  rw [h2]
  rcases h1.lt_or_eq with h1 | h1
  · have hmem := L.mem _ _ _ hn
    obtain ⟨a', ha'⟩ := L.some_of_ne pts (Pt.lerp a target ρ) (List.ne_nil_of_mem hmem)
    have h3 := L.min _ _ _ ha' a hmem
    have h4 := L.min _ _ _ hn a' (L.mem _ _ _ ha')
    rw [ha']
    simp only [Pt.lerp] at h3
    have hux : ∃ ux, ux = target.x - a.x := ⟨_, rfl⟩
    obtain ⟨ux, hux⟩ := hux
    obtain ⟨uy, huy⟩ : ∃ uy, uy = target.y - a.y := ⟨_, rfl⟩
    obtain ⟨wx, hwx⟩ : ∃ wx, wx = a'.x - a.x := ⟨_, rfl⟩
    obtain ⟨wy, hwy⟩ : ∃ wy, wy = a'.y - a.y := ⟨_, rfl⟩
    have e1 : wx ^ 2 + wy ^ 2 ≤ 2 * ρ * (ux * wx + uy * wy) := by
      rw [show target.x = ux + a.x by linarith, show target.y = uy + a.y by linarith,
        show a'.x = wx + a.x by linarith, show a'.y = wy + a.y by linarith] at h3
      nlinarith [h3]
    have e2 : 2 * (ux * wx + uy * wy) ≤ wx ^ 2 + wy ^ 2 := by
      rw [show target.x = ux + a.x by linarith, show target.y = uy + a.y by linarith,
        show a'.x = wx + a.x by linarith, show a'.y = wy + a.y by linarith] at h4
      nlinarith [h4]
    have e3 : ux * wx + uy * wy ≤ 0 := by
      by_contra hc
      have : 0 < (1 - ρ) * (ux * wx + uy * wy) := mul_pos (by linarith) (not_le.mp hc)
      nlinarith
    have e4 : wx ^ 2 + wy ^ 2 ≤ 0 := by
      have := mul_nonneg h0 (neg_nonneg.mpr e3)
      nlinarith
    have e5 : wx = 0 := by nlinarith [sq_nonneg wx, sq_nonneg wy]
    have e6 : wy = 0 := by nlinarith [sq_nonneg wx, sq_nonneg wy]
    congr 1
    ext
    · linarith
    · linarith
  · rw [h1, lerp_one]; exact hn

/-- In the plane the direct connection to the new state is the path steered to it. -/
theorem r2_direct_connection (s : RRTSetup Pt PathR2 ℝ) (hst : s.steering = r2Steering) (hd : 0 ≤ s.maxConnectionDistance) :
    ∀ a target, s.valid (s.steering.steerTowards a target s.maxConnectionDistance) = true →
      AcceptedConnection s a (s.steering.final (s.steering.steerTowards a target s.maxConnectionDistance)) := by
  intro a target hv
  rw [hst] at hv ⊢
  obtain ⟨_, _, _, _, h7⟩ := steer_ratio a target _ hd
  show s.valid (s.steering.connect _ _) = true
  rw [hst]
  show s.valid (PathR2.connect a (r2Steering.steerTowards a target s.maxConnectionDistance).final) = true
  rw [← h7]; exact hv

/-- C27 in the plane: with straight connections, Euclidean nearest neighbours, and neighbour queries
that return the nearest point, every connection of the path of RRT* was accepted by the validator. -/
theorem C27_rrtStar_r2 [DecidableEq Pt] [Inhabited Pt] (s : RRTSetup Pt PathR2 ℝ)
    (hst : s.steering = r2Steering) (hd : 0 ≤ s.maxConnectionDistance)
    (L : NearestLaws s.knn (fun v p : Pt => (v.x - p.x) ^ 2 + (v.y - p.y) ^ 2)) (nn : Nat → Nat)
    (hnn : ∀ pts v k p, s.knn.nearest pts v = some p → p ∈ s.knn.knn pts v (nn k))
    (t : Tree Pt) (ht : TreeReachable s.knn t) (init : Pt)
    (r : RRTStarResult Pt ℝ) (h : rrtStarSearchPath s nn t init = some r) (hs : r.success = true) :
    ∃ path : List Pt, treeGetPath r.state.tree r.solution = some path ∧ path.head? = some init ∧
      path.IsChain (fun a b => s.valid (PathR2.connect a b) = true) ∧
      ∃ g, path.getLast? = some g ∧ s.isSolution g = true := by
  obtain ⟨path, h1, h2, h3, h4⟩ := C27_rrtStar_path_partial s L nn t ht init
    (r2_nearest_of_final s hst hd L nn hnn) (r2_direct_connection s hst hd) r h hs
  refine ⟨path, h1, h2, h3.imp ?_, h4⟩
  intro a b hab
  have hab' : s.valid (s.steering.connect a b) = true := hab
  rw [hst] at hab'
  exact hab'


/-! The hypotheses can be met: exhaustive nearest-neighbour search, everything valid, and every
state a solution. -/

noncomputable def r2KNN : KNN Pt where
  nearest pts v := pts.argmin fun p => (v.x - p.x) ^ 2 + (v.y - p.y) ^ 2
  knn pts v _ := (pts.argmin fun p => (v.x - p.x) ^ 2 + (v.y - p.y) ^ 2).toList

theorem r2KNN_laws : NearestLaws r2KNN (fun v p : Pt => (v.x - p.x) ^ 2 + (v.y - p.y) ^ 2) where
  some_of_ne pts v h := by
    apply Option.ne_none_iff_exists'.mp
    show List.argmin _ _ ≠ none
    rw [Ne, List.argmin_eq_none]; exact h
  mem pts v p h := List.argmin_mem h
  min pts v p h q hq := List.le_of_mem_argmin hq h
  knn_mem pts v k p h := by
    have h' := Option.mem_toList.mp h
    exact List.argmin_mem h'

noncomputable def r2Setup : RRTSetup Pt PathR2 ℝ where
  steering := r2Steering
  valid _ := true
  knn := r2KNN
  isSolution _ := true
  sample _ := ⟨10, 0⟩
  maxIteration := 5
  maxNumberTreeNode := 5
  maxConnectionDistance := 1

example [DecidableEq Pt] [Inhabited Pt] :
    ∃ r, rrtSearchPath r2Setup Tree.new ⟨0, 0⟩ = some r ∧ r.success = true := by
  obtain ⟨r, h, _⟩ := C26_rrt_bounded r2Setup r2KNN_laws Tree.new .start ⟨0, 0⟩
  refine ⟨r, h, ?_⟩
  have hf : Tree.find ((Tree.new : Tree Pt).clear.createRootNode ⟨0, 0⟩).1 ⟨0, 0⟩ = some 0 := by
    simp [Tree.find, Tree.createRootNode, Tree.new, Tree.clear, Tree.dropRoot, Heap.empty, Tree.insertMap]
  have hn : Tree.getNearestNode r2Setup.knn ((Tree.new : Tree Pt).clear.createRootNode ⟨0, 0⟩).1 ⟨10, 0⟩
      = some 0 := by
    show (List.argmin (fun p : Pt => ((10 : ℝ) - p.x) ^ 2 + ((0 : ℝ) - p.y) ^ 2) [⟨0, 0⟩]).bind _ = _
    rw [List.argmin_singleton]
    exact hf
  have h' : rrtLoop r2Setup 0 ((Tree.new : Tree Pt).clear.createRootNode ⟨0, 0⟩).1 = some r := h
  rw [rrtLoop, if_neg (by simp), if_neg (by
    simp [Tree.size, Tree.createRootNode, Tree.new, Tree.clear, Tree.insertMap, r2Setup])] at h'
  rw [show r2Setup.sample 0 = ⟨10, 0⟩ from rfl, hn] at h'
  simp only [show r2Setup.valid _ = true from rfl, show r2Setup.isSolution _ = true from rfl,
    Bool.not_true, Bool.false_eq_true, if_false, if_true] at h'
  split at h'
  · cases h'
  · cases h'; rfl

end PathPlanning
