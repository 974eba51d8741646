import Verif.Spec.RRT
import Verif.Props.RRTPlanner

/-!
# C105: RRT and RRT* reach a goal that can be seen from everywhere
-/

namespace PathPlanning
open Spec Tree Real

/-- Steering towards a point in the plane arrives there or comes nearer by the connection distance. -/
theorem steer_progress [DecidableEq Pt] (a goal : Pt) (d : ℝ) (hd : 0 < d) :
    ((goal - a).norm ≤ d → (r2Steering.steerTowards a goal d).final = goal) ∧
    (d < (goal - a).norm → (goal - (r2Steering.steerTowards a goal d).final).norm = (goal - a).norm - d) := by
  have hl : r2Steering.length (r2Steering.connect a goal) = (goal - a).norm := rfl
  have hnn : 0 ≤ (goal - a).norm := Real.sqrt_nonneg _
  unfold Steering.steerTowards
  dsimp only
  rw [hl]
  rcases hnn.lt_or_eq with hpos | h0
  · rw [if_pos hpos]
    constructor
    · intro hle
      have h1 : 1 ≤ d / (goal - a).norm := by rw [le_div_iff₀ hpos]; linarith
      have hc : clampK (d / (goal - a).norm) 0 1 = 1 := by
        unfold clampK
        rw [if_neg (by linarith)]
        split
        · rfl
        · linarith
      rw [hc]
      show Pt.lerp a goal 1 = goal
      exact lerp_one a goal
    · intro hlt
      obtain ⟨r, hr⟩ : ∃ r, r = d / (goal - a).norm := ⟨_, rfl⟩
      have hr0 : 0 < r := by rw [hr]; positivity
      have hr1 : r < 1 := by rw [hr, div_lt_one hpos]; exact hlt
      have hrd : r * (goal - a).norm = d := by rw [hr]; field_simp
      have hc : clampK (d / (goal - a).norm) 0 1 = r := by
        rw [← hr]; unfold clampK
        rw [if_neg (by linarith), if_neg (by linarith)]
      rw [hc]
      show (goal - Pt.lerp a goal r).norm = _
      have hx : (goal - Pt.lerp a goal r).norm = (1 - r) * (goal - a).norm := by
        unfold Pt.norm Pt.lerp
        show √((goal.x - ((1 - r) * a.x + r * goal.x)) ^ 2 + (goal.y - ((1 - r) * a.y + r * goal.y)) ^ 2) =
          (1 - r) * √((goal.x - a.x) ^ 2 + (goal.y - a.y) ^ 2)
        rw [show (goal.x - ((1 - r) * a.x + r * goal.x)) ^ 2 + (goal.y - ((1 - r) * a.y + r * goal.y)) ^ 2 =
          (1 - r) ^ 2 * ((goal.x - a.x) ^ 2 + (goal.y - a.y) ^ 2) by ring, Real.sqrt_mul (sq_nonneg _),
          Real.sqrt_sq (by linarith)]
      rw [hx]; linarith
  · rw [← h0, if_neg (lt_irrefl _)]
    exact ⟨fun _ => rfl, fun h => by linarith⟩

/-- The points of the tree lie in `F` and one of them is within `B` of the goal. -/
structure OInv [DecidableEq Pt] (F : Pt → Prop) (init goal : Pt) (B : ℝ) (t : Tree Pt) : Prop where
  r : RInv (fun _ _ => True) init t
  free : ∀ x, t.heap.alive x → F (t.state x)
  near : ∃ x, t.heap.alive x ∧ (goal - t.state x).norm ≤ B

theorem oinv_extend [DecidableEq Pt] {D : Type} [LE D] {o : KNN Pt} {dist : Pt → Pt → D} (L : NearestLaws o dist)
    {F : Pt → Prop} {init goal : Pt} {B : ℝ} {t : Tree Pt} (I : OInv F init goal B t) {v : Pt} {src : Option Nat}
    (hsrc : ∀ n, src = some n → t.heap.alive n) (hv : F v) {B' : ℝ} (hB : B ≤ B' ∨ (goal - v).norm ≤ B') :
    ∃ t' n, t.extend o v src = (t', some n) ∧ OInv F init goal B' t' ∧ t'.size ≤ t.size + 1 := by
  obtain ⟨r, hr, hri⟩ := I.r.root
  obtain ⟨t1, n1, e1, R1, a1, s1, z1, _⟩ := rinv_extend L I.r (v := v) (src := src) hsrc (fun _ _ _ _ => trivial)
  refine ⟨t1, n1, e1, ?_, z1⟩
  have hold : ∀ x, t.heap.alive x → t1.heap.alive x ∧ t1.state x = t.state x := by
    intro x hx
    rcases extend_cases L I.r.inv v src hsrc with ⟨n, -, -, he⟩ | ⟨-, h2, -⟩ | ⟨s, t', -, -, -, he, -, ht⟩
    · rw [e1] at he; cases he; exact ⟨hx, rfl⟩
    · rw [hr] at h2; cases h2
    · rw [e1] at he; cases he
      have hne : x ≠ t.heap.next := Nat.ne_of_lt (I.r.inv.forest.fresh x hx)
      rw [ht]
      exact ⟨Or.inl hx, by simp [hne]⟩
  refine ⟨R1, fun x hx => ?_, ?_⟩
  · rcases ‹∀ x, t1.heap.alive x → t.heap.alive x ∨ x = n1› x hx with h | h
    · rw [(hold x h).2]; exact I.free x h
    · rw [h, s1]; exact hv
  · rcases hB with hB | hB
    · obtain ⟨x, hx, hxB⟩ := I.near
      exact ⟨x, (hold x hx).1, by rw [(hold x hx).2]; linarith⟩
    · exact ⟨n1, a1, by rw [s1]; exact hB⟩

theorem oinv_start [DecidableEq Pt] {t : Tree Pt} (I : TreeInv t) (F : Pt → Prop) (init goal : Pt) (hi : F init) :
    OInv F init goal (goal - init).norm (t.clear.createRootNode init).1 := by
  obtain ⟨R, -⟩ := rinv_start I (fun _ _ => True) init
  obtain ⟨R', -⟩ := rinv_start I (fun _ _ => False) init
  obtain ⟨r, hr, hri⟩ := R.root
  have hra := ((R.inv.root_iff r).mp hr).1
  refine ⟨R, fun x hx => ?_, r, hra, by rw [hri]⟩
  cases hp : (t.clear.createRootNode init).1.heap.parent x with
  | some p => exact (R'.edge x p hx hp).elim
  | none =>
    have := (R.inv.root_iff x).mpr ⟨hx, hp⟩
    rw [hr] at this; cases this
    rw [hri]; exact hi

private theorem goalDraws_succ [DecidableEq Pt] (sample : Nat → Pt) (goal : Pt) (m : Nat) :
    goalDraws sample goal (m + 1) = goalDraws sample goal m + if sample m = goal then 1 else 0 := by
  unfold goalDraws
  rw [List.range_succ, List.countP_append]
  by_cases h : sample m = goal <;> simp [h]

/-- What a draw does to the distance of the tree to the goal: either the new point is the goal, or the bound holds on. -/
private theorem draw_progress [DecidableEq Pt] (s : RRTSetup Pt PathR2 ℝ) (hst : s.steering = r2Steering)
    (hd : 0 < s.maxConnectionDistance) {D0 : ℝ} {goal a : Pt} {count m : Nat}
    (hdraws : D0 ≤ goalDraws s.sample goal m * s.maxConnectionDistance)
    (hB : s.sample count = goal → (goal - a).norm ≤ D0 - goalDraws s.sample goal count * s.maxConnectionDistance)
    (hlt : goalDraws s.sample goal count < goalDraws s.sample goal m)
    {v : Pt} (hv : v = s.steering.final (s.steering.steerTowards a (s.sample count) s.maxConnectionDistance)) :
    v = goal ∨ goalDraws s.sample goal (count + 1) < goalDraws s.sample goal m ∧
      (D0 - goalDraws s.sample goal count * s.maxConnectionDistance ≤
        D0 - goalDraws s.sample goal (count + 1) * s.maxConnectionDistance ∨
      (goal - v).norm ≤ D0 - goalDraws s.sample goal (count + 1) * s.maxConnectionDistance) := by
  rw [goalDraws_succ]
  by_cases hg : s.sample count = goal
  · rw [if_pos hg]
    rw [hst, hg] at hv
    have hv' : v = (r2Steering.steerTowards a goal s.maxConnectionDistance).final := hv
    obtain ⟨h1, h2⟩ := steer_progress a goal s.maxConnectionDistance hd
    by_cases hle : (goal - a).norm ≤ s.maxConnectionDistance
    · left; rw [hv', h1 hle]
    · right
      have := hB hg
      have hle' := not_le.mp hle
      refine ⟨?_, Or.inr ?_⟩
      · by_contra hc
        have he : goalDraws s.sample goal m = goalDraws s.sample goal count + 1 := by omega
        rw [he] at hdraws
        push_cast at hdraws
        linarith
      · rw [hv', h2 hle']
        push_cast
        linarith
  · rw [if_neg hg]
    right; exact ⟨by omega, Or.inl (by simp)⟩

private theorem nearest_norm {pts : List Pt} {o : KNN Pt}
    (L : NearestLaws o (fun v p : Pt => (v.x - p.x) ^ 2 + (v.y - p.y) ^ 2)) {v p q : Pt} (h : o.nearest pts v = some p)
    (hq : q ∈ pts) : (v - p).norm ≤ (v - q).norm := Real.sqrt_le_sqrt (L.min _ _ _ h q hq)

/-- What both loops use: the node nearest to the sample, and where the next point lies. -/
private theorem open_step [DecidableEq Pt] (s : RRTSetup Pt PathR2 ℝ) (hst : s.steering = r2Steering)
    (hd : 0 < s.maxConnectionDistance)
    (L : NearestLaws s.knn (fun v p : Pt => (v.x - p.x) ^ 2 + (v.y - p.y) ^ 2))
    {F : Pt → Prop} {goal init : Pt}
    (hvis : ∀ a, F a → s.valid (r2Steering.steerTowards a goal s.maxConnectionDistance) = true)
    {count m : Nat} {D0 : ℝ} (hdraws : D0 ≤ goalDraws s.sample goal m * s.maxConnectionDistance) {t : Tree Pt}
    (I : OInv F init goal (D0 - goalDraws s.sample goal count * s.maxConnectionDistance) t)
    (hlt : goalDraws s.sample goal count < goalDraws s.sample goal m) :
    ∃ n, t.getNearestNode s.knn (s.sample count) = some n ∧ t.heap.alive n ∧
      (s.valid (s.steering.steerTowards (t.state n) (s.sample count) s.maxConnectionDistance) = false →
        goalDraws s.sample goal (count + 1) = goalDraws s.sample goal count) ∧
      ∀ v, v = s.steering.final (s.steering.steerTowards (t.state n) (s.sample count) s.maxConnectionDistance) →
        v = goal ∨ goalDraws s.sample goal (count + 1) < goalDraws s.sample goal m ∧
      (D0 - goalDraws s.sample goal count * s.maxConnectionDistance ≤
        D0 - goalDraws s.sample goal (count + 1) * s.maxConnectionDistance ∨
      (goal - v).norm ≤ D0 - goalDraws s.sample goal (count + 1) * s.maxConnectionDistance) := by
  obtain ⟨r, hr, -⟩ := I.r.root
  obtain ⟨n, hn⟩ := (nearestNode_spec L I.r.inv (s.sample count)).1 (by rw [hr]; simp)
  obtain ⟨ha, -, hmin⟩ := (nearestNode_spec L I.r.inv (s.sample count)).2 n hn
  refine ⟨n, hn, ha, fun hv => ?_, fun v hv => draw_progress s hst hd hdraws (fun hg => ?_) hlt hv⟩
  · rw [goalDraws_succ, if_neg, Nat.add_zero]
    intro hg
    rw [hst, hg, hvis _ (I.free n ha)] at hv
    cases hv
  · obtain ⟨x, hx, hxB⟩ := I.near
    have := hmin x hx
    rw [hg] at this
    exact le_trans (Real.sqrt_le_sqrt this) hxB

private theorem rrt_open_aux [DecidableEq Pt] (s : RRTSetup Pt PathR2 ℝ) (hst : s.steering = r2Steering)
    (hd : 0 < s.maxConnectionDistance)
    (L : NearestLaws s.knn (fun v p : Pt => (v.x - p.x) ^ 2 + (v.y - p.y) ^ 2))
    (F : Pt → Prop) (goal init : Pt)
    (hF : ∀ a target, F a → s.valid (r2Steering.steerTowards a target s.maxConnectionDistance) = true →
      F (r2Steering.steerTowards a target s.maxConnectionDistance).final)
    (hvis : ∀ a, F a → s.valid (r2Steering.steerTowards a goal s.maxConnectionDistance) = true)
    (hgoal : s.isSolution goal = true) (m : Nat) (hm1 : m ≤ s.maxIteration + 1) (hm2 : m ≤ s.maxNumberTreeNode) (D0 : ℝ)
    (hdraws : D0 ≤ goalDraws s.sample goal m * s.maxConnectionDistance) :
    ∀ (k count : Nat) (t : Tree Pt), count + k = m → t.size ≤ count + 1 →
      OInv F init goal (D0 - goalDraws s.sample goal count * s.maxConnectionDistance) t →
      goalDraws s.sample goal count < goalDraws s.sample goal m →
      ∃ r, rrtLoop s count t = some r ∧ r.success = true ∧ r.samples ≤ m := by
  intro k
  induction k with
  | zero =>
    intro count t hk _ _ hlt
    rw [show count = m by omega] at hlt
    exact absurd hlt (lt_irrefl _)
  | succ k ih =>
    intro count t hk hsz I hlt
    obtain ⟨n, hn, ha, hbad, hgood⟩ := open_step s hst hd L hvis hdraws I hlt
    rw [rrtLoop, if_neg (by omega), if_neg (by omega), hn]
    dsimp only
    cases hv : s.valid (s.steering.steerTowards (t.state n) (s.sample count) s.maxConnectionDistance) with
    | false =>
      simp only [Bool.not_false, if_true]
      have he := hbad hv
      exact ih (count + 1) t (by omega) (by omega) (by rw [he]; exact I) (by rw [he]; exact hlt)
    | true =>
      simp only [Bool.not_true, Bool.false_eq_true, if_false]
      obtain ⟨v, hvv⟩ : ∃ v, v = s.steering.final (s.steering.steerTowards (t.state n) (s.sample count)
        s.maxConnectionDistance) := ⟨_, rfl⟩
      rw [← hvv]
      have hFv : F v := by
        rw [hvv]; rw [hst] at hv ⊢
        exact hF _ _ (I.free n ha) hv
      rcases hgood v hvv with hvg | ⟨hlt', hB⟩
      · obtain ⟨t', n', he, -, -⟩ := oinv_extend L I (v := v) (src := some n) (fun x hx => by cases hx; exact ha) hFv
          (Or.inl (le_refl _))
        rw [he]
        dsimp only
        rw [hvg, if_pos hgoal]
        exact ⟨_, rfl, rfl, by dsimp only; omega⟩
      · obtain ⟨t', n', he, I', hsz'⟩ := oinv_extend L I (v := v) (src := some n) (fun x hx => by cases hx; exact ha) hFv hB
        rw [he]
        dsimp only
        split
        · exact ⟨_, rfl, rfl, by dsimp only; omega⟩
        · exact ih (count + 1) t' (by omega) (by omega) I' hlt'

private theorem star_open_aux [DecidableEq Pt] (s : RRTSetup Pt PathR2 ℝ) (nn : Nat → Nat) (hst : s.steering = r2Steering)
    (hd : 0 < s.maxConnectionDistance)
    (L : NearestLaws s.knn (fun v p : Pt => (v.x - p.x) ^ 2 + (v.y - p.y) ^ 2))
    (F : Pt → Prop) (goal init : Pt)
    (hF : ∀ a target, F a → s.valid (r2Steering.steerTowards a target s.maxConnectionDistance) = true →
      F (r2Steering.steerTowards a target s.maxConnectionDistance).final)
    (hvis : ∀ a, F a → s.valid (r2Steering.steerTowards a goal s.maxConnectionDistance) = true)
    (hgoal : s.isSolution goal = true) (m : Nat) (hm1 : m ≤ s.maxIteration + 1) (hm2 : m ≤ s.maxNumberTreeNode) (D0 : ℝ)
    (hdraws : D0 ≤ goalDraws s.sample goal m * s.maxConnectionDistance) :
    ∀ (k count : Nat) (st : RRTStarState Pt ℝ), count + k = m → st.tree.size ≤ count + 1 →
      OInv F init goal (D0 - goalDraws s.sample goal count * s.maxConnectionDistance) st.tree →
      goalDraws s.sample goal count < goalDraws s.sample goal m →
      ∃ r, rrtStarLoop s nn count st = some r ∧ r.success = true ∧ r.samples ≤ m := by
  intro k
  induction k with
  | zero =>
    intro count t hk _ _ hlt
    rw [show count = m by omega] at hlt
    exact absurd hlt (lt_irrefl _)
  | succ k ih =>
    intro count st hk hsz I hlt
    obtain ⟨n, hn, ha, hbad, hgood⟩ := open_step s hst hd L hvis hdraws I hlt
    rw [rrtStarLoop, if_neg (by omega), if_neg (by omega)]
    unfold rrtStarStep
    rw [hn]
    dsimp only
    cases hv : s.valid (s.steering.steerTowards (st.tree.state n) (s.sample count) s.maxConnectionDistance) with
    | false =>
      simp only [Bool.not_false, if_true]
      have he := hbad hv
      exact ih (count + 1) st (by omega) (by omega) (by rw [he]; exact I) (by rw [he]; exact hlt)
    | true =>
      simp only [Bool.not_true, Bool.false_eq_true, if_false]
      obtain ⟨v, hvv⟩ : ∃ v, v = s.steering.final (s.steering.steerTowards (st.tree.state n) (s.sample count)
        s.maxConnectionDistance) := ⟨_, rfl⟩
      rw [← hvv]
      obtain ⟨best, hb⟩ : ∃ b, b = bestParent s st v (st.tree.getNearestNodes s.knn v (nn st.tree.size)) := ⟨_, rfl⟩
      rw [← hb]
      have hsrc : ∀ x, best.1 = some x → st.tree.heap.alive x := by
        intro x hx
        rw [hb] at hx
        obtain ⟨u, -, hu⟩ := List.mem_filterMap.mp (bestParent_mem s st v _ x hx)
        exact (I.r.inv.find_some.mp hu).1
      have hFv : F v := by
        rw [hvv]; rw [hst] at hv ⊢
        exact hF _ _ (I.free n ha) hv
      rcases hgood v hvv with hvg | ⟨hlt', hB⟩
      · obtain ⟨t', n', he, -, -⟩ := oinv_extend L I (v := v) (src := best.1) hsrc hFv (Or.inl (le_refl _))
        rw [he]
        dsimp only
        rw [hvg, if_pos hgoal]
        exact ⟨_, rfl, rfl, by dsimp only; omega⟩
      · obtain ⟨t', n', he, I', hsz'⟩ := oinv_extend L I (v := v) (src := best.1) hsrc hFv hB
        rw [he]
        dsimp only
        split
        · exact ⟨_, rfl, rfl, by dsimp only; omega⟩
        · exact ih (count + 1) _ (by omega) (by dsimp only; omega) I' hlt'

/-- C105 for RRT in the plane: let `F` be a set of points that contains the start, from all of which the goal can be seen (the
validator accepts the motion towards it) and that no accepted motion leaves. If the goal is drawn, within `m` iterations that the
parameters allow, so often that as many motions reach from the start to the goal, the search succeeds within `m` iterations,
whatever the other samples are. -/
theorem C105_rrt [DecidableEq Pt] [Inhabited Pt] (s : RRTSetup Pt PathR2 ℝ) (hst : s.steering = r2Steering)
    (hd : 0 < s.maxConnectionDistance)
    (L : NearestLaws s.knn (fun v p : Pt => (v.x - p.x) ^ 2 + (v.y - p.y) ^ 2))
    (t : Tree Pt) (ht : TreeReachable s.knn t) (F : Pt → Prop) (init goal : Pt) (hi : F init)
    (hF : ∀ a target, F a → s.valid (r2Steering.steerTowards a target s.maxConnectionDistance) = true →
      F (r2Steering.steerTowards a target s.maxConnectionDistance).final)
    (hvis : ∀ a, F a → s.valid (r2Steering.steerTowards a goal s.maxConnectionDistance) = true)
    (hgoal : s.isSolution goal = true) (m : Nat) (hm1 : m ≤ s.maxIteration + 1) (hm2 : m ≤ s.maxNumberTreeNode)
    (hpos : 0 < goalDraws s.sample goal m)
    (hdraws : √((goal.x - init.x) ^ 2 + (goal.y - init.y) ^ 2) ≤ goalDraws s.sample goal m * s.maxConnectionDistance) :
    ∃ r, rrtSearchPath s t init = some r ∧ r.success = true ∧ r.samples ≤ m := by
  have I := treeInv_reachable L ht
  refine rrt_open_aux s hst hd L F goal init hF hvis hgoal m hm1 hm2 _ hdraws m 0 _ (by omega) ?_ ?_ ?_
  · rw [(rinv_start I (fun _ _ => True) init).2.1]
  · have := oinv_start I F init goal hi
    simpa [goalDraws, Pt.norm] using this
  · simpa [goalDraws] using hpos

/-- C105 for RRT*. -/
theorem C105_rrtStar [DecidableEq Pt] [Inhabited Pt] (s : RRTSetup Pt PathR2 ℝ) (hst : s.steering = r2Steering)
    (hd : 0 < s.maxConnectionDistance)
    (L : NearestLaws s.knn (fun v p : Pt => (v.x - p.x) ^ 2 + (v.y - p.y) ^ 2)) (nn : Nat → Nat)
    (t : Tree Pt) (ht : TreeReachable s.knn t) (F : Pt → Prop) (init goal : Pt) (hi : F init)
    (hF : ∀ a target, F a → s.valid (r2Steering.steerTowards a target s.maxConnectionDistance) = true →
      F (r2Steering.steerTowards a target s.maxConnectionDistance).final)
    (hvis : ∀ a, F a → s.valid (r2Steering.steerTowards a goal s.maxConnectionDistance) = true)
    (hgoal : s.isSolution goal = true) (m : Nat) (hm1 : m ≤ s.maxIteration + 1) (hm2 : m ≤ s.maxNumberTreeNode)
    (hpos : 0 < goalDraws s.sample goal m)
    (hdraws : √((goal.x - init.x) ^ 2 + (goal.y - init.y) ^ 2) ≤ goalDraws s.sample goal m * s.maxConnectionDistance) :
    ∃ r, rrtStarSearchPath s nn t init = some r ∧ r.success = true ∧ r.samples ≤ m := by
  have I := treeInv_reachable L ht
  refine star_open_aux s nn hst hd L F goal init hF hvis hgoal m hm1 hm2 _ hdraws m 0 _ (by omega) ?_ ?_ ?_
  · dsimp only
    rw [(rinv_start I (fun _ _ => True) init).2.1]
  · have := oinv_start I F init goal hi
    simpa [goalDraws, Pt.norm] using this
  · simpa [goalDraws] using hpos

/-- C105 for a planner object: whatever was called before, on an open map a search succeeds if its random numbers draw the goal
often enough. -/
theorem C105_planner [DecidableEq Pt] [Inhabited Pt] (w : RRTWorld Pt PathR2 ℝ) (hw : w.steering = r2Steering)
    (hfree : ∀ p, w.valid p = true) (hreached : ∀ g, w.reached g g = true)
    (L : NearestLaws w.knn (fun v p : Pt => (v.x - p.x) ^ 2 + (v.y - p.y) ^ 2))
    (s : RRTPlanner Pt ℝ) (ht : TreeReachable w.knn s.tree) (hd : 0 < s.params.maxConnectionDistance)
    (coin : Nat → ℝ) (uniform : Nat → Pt) (m : Nat) (hm1 : m ≤ s.params.maxIteration + 1) (hm2 : m ≤ s.params.maxNumberTreeNode)
    (hpos : 0 < (List.range m).countP fun i => coin i < s.params.goalBias)
    (hdraws : √((s.goal.x - s.init.x) ^ 2 + (s.goal.y - s.init.y) ^ 2) ≤
      ((List.range m).countP fun i => coin i < s.params.goalBias) * s.params.maxConnectionDistance) :
    ∃ s', s.search w coin uniform = some (true, s') := by
  have hle : ((List.range m).countP fun i => coin i < s.params.goalBias) ≤
      goalDraws (s.setup w coin uniform).sample s.goal m := by
    unfold goalDraws
    refine List.countP_mono_left fun i _ hi => ?_
    have hi' : coin i < s.params.goalBias := of_decide_eq_true hi
    refine decide_eq_true ?_
    show s.draw coin uniform i = s.goal
    rw [RRTPlanner.draw, if_pos hi']
  obtain ⟨r, h1, h2, -⟩ := C105_rrt (s.setup w coin uniform) hw hd L s.tree ht (fun _ => True) s.init s.goal trivial
    (fun _ _ _ _ => trivial) (fun _ _ => hfree _) (hreached _) m hm1 hm2 (lt_of_lt_of_le hpos hle)
    (le_trans hdraws (by
      have : (((List.range m).countP fun i => coin i < s.params.goalBias : Nat) : ℝ) ≤
        (goalDraws (s.setup w coin uniform).sample s.goal m : ℝ) := by exact_mod_cast hle
      exact mul_le_mul_of_nonneg_right this (le_of_lt hd)))
  exact ⟨{ s with tree := r.tree, solution := r.solution }, by rw [RRTPlanner.search, h1, Option.map_some, h2]⟩

/-! ## Example -/

/-- A wall at `x < 0`; every other sample is the goal. -/
noncomputable def exWall : RRTSetup Pt PathR2 ℝ where
  steering := r2Steering
  valid p := open Classical in decide (0 ≤ p.final.x)
  knn := r2KNN
  isSolution v := open Classical in decide (v = ⟨4, 3⟩)
  sample i := if i % 2 = 0 then ⟨4, 3⟩ else ⟨-1, 5⟩
  maxIteration := 20
  maxNumberTreeNode := 20
  maxConnectionDistance := 1

/-- The search finds the goal in ten iterations. -/
example [DecidableEq Pt] [Inhabited Pt] : ∃ r, rrtSearchPath exWall Tree.new ⟨0, 0⟩ = some r ∧ r.success = true ∧ r.samples ≤ 10 := by
  have hg : goalDraws exWall.sample ⟨4, 3⟩ 10 = 5 := by
    have h : ∀ i, exWall.sample i = ⟨4, 3⟩ ↔ i % 2 = 0 := by
      intro i
      show (if i % 2 = 0 then (⟨4, 3⟩ : Pt) else ⟨-1, 5⟩) = _ ↔ _
      split
      · simp [*]
      · rename_i h
        simp only [h, iff_false]
        intro h'
        have := congrArg Pt.x h'
        norm_num at this
    unfold goalDraws
    simp only [h]
    decide
  refine C105_rrt exWall rfl (by norm_num [exWall]) r2KNN_laws Tree.new .start (fun p => 0 ≤ p.x) ⟨0, 0⟩ ⟨4, 3⟩ (le_refl _)
    (fun a target _ h => of_decide_eq_true h) (fun a ha => ?_) (@decide_eq_true _ (Classical.propDecidable _) rfl) 10 (by decide) (by decide)
    (by rw [hg]; norm_num) ?_
  · refine decide_eq_true ?_
    show 0 ≤ (r2Steering.steerTowards a ⟨4, 3⟩ 1).final.x
    unfold Steering.steerTowards
    dsimp only
    split
    · have hc : 0 ≤ clampK (1 / r2Steering.length (r2Steering.connect a ⟨4, 3⟩)) 0 1 ∧
          clampK (1 / r2Steering.length (r2Steering.connect a ⟨4, 3⟩)) 0 1 ≤ 1 := by
        unfold clampK
        split
        · norm_num
        · split
          · norm_num
          · exact ⟨by linarith, by linarith⟩
      obtain ⟨r, hr⟩ : ∃ r, r = clampK (1 / r2Steering.length (r2Steering.connect a ⟨4, 3⟩)) 0 1 := ⟨_, rfl⟩
      rw [← hr] at hc ⊢
      show 0 ≤ (1 - r) * a.x + r * 4
      have := mul_nonneg (show 0 ≤ 1 - r by linarith [hc.2]) ha
      linarith [hc.1]
    · show (0 : ℝ) ≤ 4
      norm_num
  · rw [hg, show exWall.maxConnectionDistance = 1 from rfl]
    apply Real.sqrt_le_iff.mpr
    norm_num

end PathPlanning
