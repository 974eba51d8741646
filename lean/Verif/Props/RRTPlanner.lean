import Verif.Spec.RRTPlanner
import Verif.Props.RRTR2

/-!
# C103: RRT and RRT* planners over any history of calls
-/

namespace PathPlanning
open Spec Tree
variable {V P K : Type} [DecidableEq V] [LinearOrder K] [Field K]

/-! ## The trees left by searches -/

theorem reachable_start [Inhabited V] {o : KNN V} {t : Tree V} (h : TreeReachable o t) (init : V) :
    TreeReachable o (t.clear.createRootNode init).1 :=
  .call (op := .createRoot init) (.call (op := .clear) h trivial rfl) rfl rfl

theorem rrtLoop_reachable [Inhabited V] {D : Type} [LE D] {dist : V → V → D} (s : RRTSetup V P K)
    (L : NearestLaws s.knn dist) : ∀ (k count : Nat) (t : Tree V) (r : RRTResult V), s.maxIteration + 1 - count = k →
    TreeReachable s.knn t → rrtLoop s count t = some r → TreeReachable s.knn r.tree := by
  intro k
  induction k with
  | zero =>
    intro count t r hk ht h
    rw [rrtLoop, if_pos (by omega)] at h
    cases h; exact ht
  | succ k ih =>
    intro count t r hk ht h
    rw [rrtLoop, if_neg (by omega)] at h
    split at h
    · cases h; exact ht
    · cases hn : t.getNearestNode s.knn (s.sample count) with
      | none => rw [hn] at h; exact ih _ _ _ (by omega) ht h
      | some n =>
        rw [hn] at h
        dsimp only at h
        split at h
        · exact ih _ _ _ (by omega) ht h
        · obtain ⟨v, hv⟩ : ∃ v, v = s.steering.final (s.steering.steerTowards (t.state n) (s.sample count)
            s.maxConnectionDistance) := ⟨_, rfl⟩
          rw [← hv] at h
          have ha := ((nearestNode_spec L (treeInv_reachable L ht) _).2 n hn).1
          have ht' : TreeReachable s.knn (t.extend s.knn v (some n)).1 :=
            .call (op := .extend v (some n)) ht (fun m hm => by cases hm; exact ha) rfl
          rcases he : t.extend s.knn v (some n) with ⟨t', _ | m⟩
          · rw [he] at h; cases h
          · rw [he] at h ht'
            dsimp only at h ht'
            split at h
            · cases h; exact ht'
            · exact ih _ _ _ (by omega) ht' h

theorem bestParent_mem (s : RRTSetup V P K) (st : RRTStarState V K) (v : V) (near : List Nat) (n : Nat)
    (h : (bestParent s st v near).1 = some n) : n ∈ near := by
  have key : ∀ (near : List Nat) (acc : Option Nat × Option K),
      (near.foldl (fun best node =>
        let path := s.steering.connect (st.tree.state node) v
        let cost := addInf (st.cost node) (s.steering.length path)
        if ltInf cost best.2 && s.valid path then (some node, cost) else best) acc).1 = some n →
      n ∈ near ∨ acc.1 = some n := by
    intro near
    induction near with
    | nil => intro acc h; exact Or.inr h
    | cons a near ih =>
      intro acc h
      rw [List.foldl_cons] at h
      rcases ih _ h with h | h
      · exact Or.inl (List.mem_cons_of_mem _ h)
      · dsimp only at h
        split at h
        · cases h; exact Or.inl (List.mem_cons_self ..)
        · exact Or.inr h
  rcases key near (none, none) h with h | h
  · exact h
  · cases h

theorem rrtStarLoop_reachable [Inhabited V] {D : Type} [LE D] {dist : V → V → D} (s : RRTSetup V P K)
    (L : NearestLaws s.knn dist) (nn : Nat → Nat) : ∀ (k count : Nat) (st : RRTStarState V K) (r : RRTStarResult V K),
    s.maxIteration + 1 - count = k → TreeReachable s.knn st.tree → rrtStarLoop s nn count st = some r →
    TreeReachable s.knn r.state.tree := by
  intro k
  induction k with
  | zero =>
    intro count st r hk ht h
    rw [rrtStarLoop, if_pos (by omega)] at h
    cases h; exact ht
  | succ k ih =>
    intro count st r hk ht h
    rw [rrtStarLoop, if_neg (by omega)] at h
    split at h
    · cases h; exact ht
    · have hstep : ∀ st' new, rrtStarStep s nn (s.sample count) st = some (st', new) → TreeReachable s.knn st'.tree := by
        intro st' new hst
        unfold rrtStarStep at hst
        cases hn : st.tree.getNearestNode s.knn (s.sample count) with
        | none => rw [hn] at hst; cases hst; exact ht
        | some n =>
          rw [hn] at hst
          dsimp only at hst
          split at hst
          · cases hst; exact ht
          · obtain ⟨v, hv⟩ : ∃ v, v = s.steering.final (s.steering.steerTowards (st.tree.state n) (s.sample count)
              s.maxConnectionDistance) := ⟨_, rfl⟩
            rw [← hv] at hst
            obtain ⟨best, hb⟩ : ∃ b, b = bestParent s st v (st.tree.getNearestNodes s.knn v (nn st.tree.size)) := ⟨_, rfl⟩
            rw [← hb] at hst
            have ht' : TreeReachable s.knn (st.tree.extend s.knn v best.1).1 := by
              refine .call (op := .extend v best.1) ht (fun m hm => ?_) rfl
              rw [hb] at hm
              obtain ⟨u, -, hu⟩ := List.mem_filterMap.mp (bestParent_mem s st v _ m hm)
              exact ((treeInv_reachable L ht).find_some.mp hu).1
            rcases he : st.tree.extend s.knn v best.1 with ⟨t', _ | m⟩
            · rw [he] at hst; cases hst
            · rw [he] at hst ht'
              cases hst
              exact ht'
      rcases hs : rrtStarStep s nn (s.sample count) st with _ | ⟨st', _ | ⟨m, v⟩⟩
      · rw [hs] at h; cases h
      · rw [hs] at h
        exact ih _ _ _ (by omega) (hstep _ _ hs) h
      · rw [hs] at h
        dsimp only at h
        split at h
        · cases h; exact hstep _ _ hs
        · exact ih _ _ _ (by omega) (hstep _ _ hs) h

theorem rrtStarLoop_failure (s : RRTSetup V P K) (nn : Nat → Nat) : ∀ (k count : Nat) (st : RRTStarState V K)
    (r : RRTStarResult V K), s.maxIteration + 1 - count = k → rrtStarLoop s nn count st = some r → r.success = false →
    r.solution = none := by
  intro k
  induction k with
  | zero =>
    intro count st r hk h hf
    rw [rrtStarLoop, if_pos (by omega)] at h
    cases h; rfl
  | succ k ih =>
    intro count st r hk h hf
    rw [rrtStarLoop, if_neg (by omega)] at h
    split at h
    · cases h; rfl
    · rcases hs : rrtStarStep s nn (s.sample count) st with _ | ⟨st', _ | ⟨m, v⟩⟩
      · rw [hs] at h; cases h
      · rw [hs] at h
        exact ih _ _ _ (by omega) h hf
      · rw [hs] at h
        dsimp only at h
        split at h
        · cases h; cases hf
        · exact ih _ _ _ (by omega) h hf

/-! ## Histories -/

namespace RRTPlanner

/-- What one needs of a `SearchPath`: it never fails to return, it leaves the inputs alone, and the tree stays usable. -/
private structure GoodSearch [Inhabited V] (o : KNN V)
    (search : RRTPlanner V K → (Nat → K) → (Nat → V) → Option (Bool × RRTPlanner V K)) : Prop where
  total : ∀ s c u, TreeReachable o s.tree → ∃ r, search s c u = some r
  keep : ∀ s c u b s', TreeReachable o s.tree → search s c u = some (b, s') → TreeReachable o s'.tree ∧
    s'.init = s.init ∧ s'.goal = s.goal ∧ s'.params = s.params

private theorem goodSearch_rrt [Inhabited V] {D : Type} [LE D] {dist : V → V → D} (w : RRTWorld V P K)
    (L : NearestLaws w.knn dist) : GoodSearch (K := K) w.knn (search w) where
  total s c u ht := by
    obtain ⟨r, h, -⟩ := C26_rrt_bounded (s.setup w c u) L s.tree ht s.init
    exact ⟨_, by rw [search, h]; rfl⟩
  keep s c u b s' ht h := by
    obtain ⟨r, h1, h2⟩ := Option.map_eq_some_iff.mp h
    cases h2
    exact ⟨rrtLoop_reachable (s.setup w c u) L _ _ _ _ rfl (reachable_start ht _) h1, rfl, rfl, rfl⟩

private theorem goodSearch_star [Inhabited V] {D : Type} [LE D] {dist : V → V → D} (w : RRTWorld V P K)
    (L : NearestLaws w.knn dist) (nn : Nat → Nat) : GoodSearch (K := K) w.knn (searchStar w nn) where
  total s c u ht := by
    obtain ⟨r, h, -⟩ := C26_rrtStar_bounded (s.setup w c u) L nn s.tree ht s.init
    exact ⟨_, by rw [searchStar, h]; rfl⟩
  keep s c u b s' ht h := by
    obtain ⟨r, h1, h2⟩ := Option.map_eq_some_iff.mp h
    cases h2
    refine ⟨rrtStarLoop_reachable (s.setup w c u) L nn _ _ _ _ rfl ?_ h1, rfl, rfl, rfl⟩
    exact reachable_start ht _

private theorem calls_append (search : RRTPlanner V K → (Nat → K) → (Nat → V) → Option (Bool × RRTPlanner V K))
    (l l' : List (Call V K)) (s : RRTPlanner V K) :
    calls search s (l ++ l') = (calls search s l).bind fun s' => calls search s' l' := by
  induction l generalizing s with
  | nil => rfl
  | cons c l ih =>
    rw [List.cons_append, calls, calls, Option.bind_assoc]
    congr 1
    funext s'
    exact ih s'

private theorem calls_good [Inhabited V] {o : KNN V}
    {search : RRTPlanner V K → (Nat → K) → (Nat → V) → Option (Bool × RRTPlanner V K)} (G : GoodSearch o search)
    (s0 : RRTPlanner V K) (h0 : s0.tree = Tree.new)
    (l : List (Call V K)) : ∃ s, calls search s0 l = some s ∧ TreeReachable o s.tree ∧
      (∀ v, lastInit l = some v → s.init = v) ∧ (∀ v, lastGoal l = some v → s.goal = v) ∧
      s.params = (lastParams l).getD s0.params := by
  induction l using List.reverseRecOn with
  | nil => exact ⟨s0, rfl, h0 ▸ .start, by simp [lastInit], by simp [lastGoal], rfl⟩
  | append_singleton l c ih =>
    obtain ⟨s, h1, h2, h3, h4, h5⟩ := ih
    have hl : ∀ s', call search s c = some s' → calls search s0 (l ++ [c]) = some s' := by
      intro s' hs'
      rw [calls_append, h1, Option.bind_some, calls, hs']; rfl
    cases c with
    | setInitState v =>
      refine ⟨_, hl _ rfl, h2, ?_, ?_, ?_⟩
      · intro v' hv'
        simpa [lastInit] using hv'
      · intro v' hv'
        exact h4 v' (by simpa [lastGoal] using hv')
      · rw [show lastParams (l ++ [Call.setInitState v]) = lastParams l by simp [lastParams]]; exact h5
    | setGoalState v =>
      refine ⟨_, hl _ rfl, h2, ?_, ?_, ?_⟩
      · intro v' hv'
        exact h3 v' (by simpa [lastInit] using hv')
      · intro v' hv'
        simpa [lastGoal] using hv'
      · rw [show lastParams (l ++ [Call.setGoalState v]) = lastParams l by simp [lastParams]]; exact h5
    | setParameters p =>
      refine ⟨_, hl _ rfl, h2, ?_, ?_, ?_⟩
      · intro v' hv'
        exact h3 v' (by simpa [lastInit] using hv')
      · intro v' hv'
        exact h4 v' (by simpa [lastGoal] using hv')
      · simp [lastParams]
    | searchPath c u =>
      obtain ⟨⟨b, s'⟩, hs'⟩ := G.total s c u h2
      obtain ⟨k1, k2, k3, k4⟩ := G.keep s c u b s' h2 hs'
      refine ⟨s', hl s' (by rw [call, hs']; rfl), k1, ?_, ?_, ?_⟩
      · intro v' hv'
        rw [k2]; exact h3 v' (by simpa [lastInit] using hv')
      · intro v' hv'
        rw [k3]; exact h4 v' (by simpa [lastGoal] using hv')
      · rw [show lastParams (l ++ [Call.searchPath c u]) = lastParams l by simp [lastParams], k4]; exact h5

private theorem calls_keep_path
    {search : RRTPlanner V K → (Nat → K) → (Nat → V) → Option (Bool × RRTPlanner V K)}
    (l : List (Call V K)) (hl : NoSearch l) (s s' : RRTPlanner V K) (h : calls search s l = some s') :
    s'.getPath = s.getPath := by
  induction l generalizing s with
  | nil => cases h; rfl
  | cons c l ih =>
    obtain ⟨s1, h1, h2⟩ := Option.bind_eq_some_iff.mp h
    have := ih (fun a b hab => hl a b (List.mem_cons_of_mem _ hab)) s1 h2
    rw [this]
    cases c with
    | setInitState v => cases h1; rfl
    | setGoalState v => cases h1; rfl
    | setParameters p => cases h1; rfl
    | searchPath c u => exact absurd (List.mem_cons_self ..) (hl c u)

/-- C103 for RRT: after any calls `before` that set both states, `SearchPath` returns; on `Success` the path that `GetPath`
returns then, and after any setters `after`, starts at the last initial state, goes through motions accepted by the validator for
the parameters in force and ends in a state that reaches the last goal; otherwise it is empty. -/
theorem C103_rrt [Inhabited V] {D : Type} [LE D] {dist : V → V → D} (w : RRTWorld V P K) (L : NearestLaws w.knn dist)
    (before after : List (Call V K)) (init goal : V) (hi : lastInit before = some init) (hg : lastGoal before = some goal)
    (ha : NoSearch after) (coin : Nat → K) (uniform : Nat → V) :
    ∃ s ok s' s'', calls (search w) new before = some s ∧ search w s coin uniform = some (ok, s') ∧
      calls (search w) new (before ++ .searchPath coin uniform :: after) = some s'' ∧
      ∃ path, s''.getPath = some path ∧
        (ok = false → path = []) ∧
        (ok = true → path.head? = some init ∧ (∃ g, path.getLast? = some g ∧ w.reached g goal = true) ∧
          path.IsChain fun a b => ∃ target,
            w.valid (w.steering.steerTowards a target ((lastParams before).getD .default).maxConnectionDistance) = true ∧
            w.steering.final (w.steering.steerTowards a target
              ((lastParams before).getD .default).maxConnectionDistance) = b) := by
  have G := goodSearch_rrt (K := K) w L
  obtain ⟨s, h1, h2, h3, h4, h5⟩ := calls_good G new rfl before
  obtain ⟨s'', h6, -⟩ := calls_good G new rfl (before ++ .searchPath coin uniform :: after)
  obtain ⟨r, hr, hsz⟩ := C26_rrt_bounded (s.setup w coin uniform) L s.tree h2 s.init
  have hs' : search w s coin uniform = some (r.success, { s with tree := r.tree, solution := r.solution }) := by
    rw [search, hr]; rfl
  refine ⟨s, _, _, s'', h1, hs', h6, ?_⟩
  have hp : s''.getPath = treeGetPath r.tree r.solution := by
    rw [calls_append, h1, Option.bind_some, calls, call, hs'] at h6
    exact calls_keep_path after ha _ _ h6
  rw [hp]
  cases hok : r.success with
  | false =>
    refine ⟨[], ?_, fun _ => rfl, fun h => by cases h⟩
    exact C25_failure_empty (s.setup w coin uniform) L s.tree h2 s.init r hr hok
  | true =>
    obtain ⟨path, k1, k2, k3, g, k4, k5⟩ := C25_rrt_path (s.setup w coin uniform) L s.tree h2 s.init r hr hok
    refine ⟨path, k1, fun h => (by cases h), fun _ => ⟨by rw [k2, h3 init hi], ⟨g, k4, ?_⟩, ?_⟩⟩
    · have : w.reached g s.goal = true := k5
      rwa [h4 goal hg] at this
    · have h5' : s.params = (lastParams before).getD .default := h5
      rw [← h5']; exact k3

private theorem star_history [Inhabited V] {D : Type} [LE D] {dist : V → V → D} (w : RRTWorld V P K) (L : NearestLaws w.knn dist)
    (nn : Nat → Nat)
    (before after : List (Call V K)) (init goal : V) (hi : lastInit before = some init) (hg : lastGoal before = some goal)
    (ha : NoSearch after) (coin : Nat → K) (uniform : Nat → V) (Q : V → V → Prop)
    (hQ : ∀ (s : RRTPlanner V K) r, s.params = (lastParams before).getD .defaultStar → s.goal = goal → TreeReachable w.knn s.tree →
      rrtStarSearchPath (s.setup w coin uniform) nn s.tree s.init = some r → r.success = true →
      ∃ path : List V, treeGetPath r.state.tree r.solution = some path ∧ path.head? = some s.init ∧
        path.IsChain Q ∧ ∃ g, path.getLast? = some g ∧ w.reached g s.goal = true) :
    ∃ s ok s' s'', calls (searchStar w nn) newStar before = some s ∧ searchStar w nn s coin uniform = some (ok, s') ∧
      calls (searchStar w nn) newStar (before ++ .searchPath coin uniform :: after) = some s'' ∧
      ∃ path, s''.getPath = some path ∧
        (ok = false → path = []) ∧
        (ok = true → path.head? = some init ∧ (∃ g, path.getLast? = some g ∧ w.reached g goal = true) ∧
          path.IsChain Q) := by
  have G := goodSearch_star (K := K) w L nn
  obtain ⟨s, h1, h2, h3, h4, h5⟩ := calls_good G newStar rfl before
  obtain ⟨s'', h6, -⟩ := calls_good G newStar rfl (before ++ .searchPath coin uniform :: after)
  obtain ⟨r, hr, hsz⟩ := C26_rrtStar_bounded (s.setup w coin uniform) L nn s.tree h2 s.init
  have hs' : searchStar w nn s coin uniform = some (r.success, { s with tree := r.state.tree, solution := r.solution }) := by
    rw [searchStar, hr]; rfl
  refine ⟨s, _, _, s'', h1, hs', h6, ?_⟩
  have hp : s''.getPath = treeGetPath r.state.tree r.solution := by
    rw [calls_append, h1, Option.bind_some, calls, call, hs'] at h6
    exact calls_keep_path after ha _ _ h6
  rw [hp]
  cases hok : r.success with
  | false =>
    refine ⟨[], ?_, fun _ => rfl, fun h => by cases h⟩
    rw [rrtStarLoop_failure (s.setup w coin uniform) nn _ _ _ _ rfl hr hok]
    rfl
  | true =>
    obtain ⟨path, k1, k2, k3, g, k4, k5⟩ := hQ s r h5 (h4 goal hg) h2 hr hok
    refine ⟨path, k1, fun h => (by cases h), fun _ => ⟨by rw [k2, h3 init hi], ⟨g, k4, ?_⟩, k3⟩⟩
    rwa [h4 goal hg] at k5

/-- C103 for RRT*, partial: as for RRT, except that each pair of consecutive states is a connection accepted by the validator
or the first state was the nearest one of the tree. Missing: that the validator accepted the connection in the second case
(`C27_unvalidated_edge`); in the plane it does, `C103_rrtStar_r2`. -/
theorem C103_rrtStar_partial [Inhabited V] {D : Type} [LE D] {dist : V → V → D} (w : RRTWorld V P K)
    (L : NearestLaws w.knn dist) (nn : Nat → Nat)
    (before after : List (Call V K)) (init goal : V) (hi : lastInit before = some init) (hg : lastGoal before = some goal)
    (ha : NoSearch after) (coin : Nat → K) (uniform : Nat → V) :
    ∃ s ok s' s'', calls (searchStar w nn) newStar before = some s ∧ searchStar w nn s coin uniform = some (ok, s') ∧
      calls (searchStar w nn) newStar (before ++ .searchPath coin uniform :: after) = some s'' ∧
      ∃ path, s''.getPath = some path ∧
        (ok = false → path = []) ∧
        (ok = true → path.head? = some init ∧ (∃ g, path.getLast? = some g ∧ w.reached g goal = true) ∧
          path.IsChain fun a b => w.valid (w.steering.connect a b) = true ∨ ∃ pts, w.knn.nearest pts b = some a) :=
  star_history w L nn before after init goal hi hg ha coin uniform _ fun s r _ _ ht hr hok =>
    C27_edges_partial (s.setup w coin uniform) L nn s.tree ht s.init r hr hok

/-- C103 for RRT* in the plane, with straight connections and neighbour queries that return the nearest point: on `Success` the
path goes from the last initial state exactly to the last goal through segments that the validator accepted. -/
theorem C103_rrtStar_r2 [DecidableEq Pt] [Inhabited Pt] (w : RRTWorld Pt PathR2 ℝ) (hw : w.steering = r2Steering)
    (hgoal : w.reached = fun v g => decide (v = g))
    (L : NearestLaws w.knn (fun v p : Pt => (v.x - p.x) ^ 2 + (v.y - p.y) ^ 2)) (nn : Nat → Nat)
    (hnn : ∀ pts v k p, w.knn.nearest pts v = some p → p ∈ w.knn.knn pts v (nn k))
    (before after : List (Call Pt ℝ)) (init goal : Pt) (hi : lastInit before = some init) (hg : lastGoal before = some goal)
    (hd : ∀ p, lastParams before = some p → 0 ≤ p.maxConnectionDistance)
    (ha : NoSearch after) (coin : Nat → ℝ) (uniform : Nat → Pt) :
    ∃ s ok s' s'', calls (searchStar w nn) newStar before = some s ∧ searchStar w nn s coin uniform = some (ok, s') ∧
      calls (searchStar w nn) newStar (before ++ .searchPath coin uniform :: after) = some s'' ∧
      ∃ path, s''.getPath = some path ∧
        (ok = false → path = []) ∧
        (ok = true → path.head? = some init ∧ path.getLast? = some goal ∧
          path.IsChain fun a b => w.valid (PathR2.connect a b) = true) := by
  obtain ⟨s, ok, s', s'', h1, h2, h3, path, h4, h5, h6⟩ := star_history w L nn before after init goal hi hg ha coin uniform
    (fun a b => w.valid (PathR2.connect a b) = true) (fun s r hp _ ht hr hok => by
      refine C27_rrtStar_r2 (s.setup w coin uniform) hw ?_ L nn hnn s.tree ht s.init r hr hok
      show 0 ≤ s.params.maxConnectionDistance
      rw [hp]
      cases hl : lastParams before with
      | none => show (0 : ℝ) ≤ 1 / 10; norm_num
      | some p => exact hd p hl)
  refine ⟨s, ok, s', s'', h1, h2, h3, path, h4, h5, fun hok => ?_⟩
  obtain ⟨k1, ⟨g, k2, k3⟩, k4⟩ := h6 hok
  rw [hgoal] at k3
  rw [← of_decide_eq_true k3]
  exact ⟨k1, k2, k4⟩

/-- C103: before the first search `GetPath` returns the empty path. -/
theorem C103_no_search_empty [Inhabited V]
    (search : RRTPlanner V K → (Nat → K) → (Nat → V) → Option (Bool × RRTPlanner V K))
    (l : List (Call V K)) (hl : NoSearch l) : ∀ start ∈ [new, newStar],
      ∃ s, calls search start l = some s ∧ s.getPath = some [] := by
  intro start hstart
  have key : ∀ (l : List (Call V K)) (s : RRTPlanner V K), NoSearch l → ∃ s', calls search s l = some s' := by
    intro l
    induction l with
    | nil => intro s _; exact ⟨s, rfl⟩
    | cons c l ih =>
      intro s hl
      have hl' : NoSearch l := fun a b hab => hl a b (List.mem_cons_of_mem _ hab)
      cases c with
      | setInitState v => exact ih _ hl'
      | setGoalState v => exact ih _ hl'
      | setParameters p => exact ih _ hl'
      | searchPath c u => exact absurd (List.mem_cons_self ..) (hl c u)
  obtain ⟨s, h⟩ := key l start hl
  refine ⟨s, h, (calls_keep_path l hl _ _ h).trans ?_⟩
  simp only [List.mem_cons, List.not_mem_nil, or_false] at hstart
  rcases hstart with rfl | rfl <;> rfl

/-- C103: a planner whose parameters were never set makes at most 101 draws (RRT) or 10001 draws (RRT*), and its tree has at most
10001 nodes. -/
theorem C103_default_limits [Inhabited V] {D : Type} [LE D] {dist : V → V → D} (w : RRTWorld V P K) (L : NearestLaws w.knn dist)
    (nn : Nat → Nat) (before : List (Call V K)) (hp : lastParams before = none) (coin : Nat → K) (uniform : Nat → V) :
    (∃ s r, calls (search w) new before = some s ∧ rrtSearchPath (s.setup w coin uniform) s.tree s.init = some r ∧
      r.samples ≤ 101 ∧ r.tree.size ≤ 10001) ∧
    (∃ s r, calls (searchStar w nn) newStar before = some s ∧
      rrtStarSearchPath (s.setup w coin uniform) nn s.tree s.init = some r ∧ r.samples ≤ 10001 ∧ r.state.tree.size ≤ 10001) := by
  constructor
  · obtain ⟨s, h1, h2, -, -, h5⟩ := calls_good (goodSearch_rrt (K := K) w L) new rfl before
    obtain ⟨r, hr, hb⟩ := C26_rrt_bounded (s.setup w coin uniform) L s.tree h2 s.init
    rw [hp] at h5
    have hb' : r.samples ≤ s.params.maxIteration + 1 ∧ r.tree.size ≤ s.params.maxNumberTreeNode + 1 := hb
    rw [h5] at hb'
    exact ⟨s, r, h1, hr, hb'⟩
  · obtain ⟨s, h1, h2, -, -, h5⟩ := calls_good (goodSearch_star (K := K) w L nn) newStar rfl before
    obtain ⟨r, hr, hb⟩ := C26_rrtStar_bounded (s.setup w coin uniform) L nn s.tree h2 s.init
    rw [hp] at h5
    have hb' : r.samples ≤ s.params.maxIteration + 1 ∧ r.state.tree.size ≤ s.params.maxNumberTreeNode + 1 := hb
    rw [h5] at hb'
    exact ⟨s, r, h1, hr, hb'⟩

/-! ## Examples -/

/-- The line of `exRRT`. -/
def exWorld : RRTWorld Int (Int × Int × Bool) ℚ where
  steering := exSteering
  valid _ := true
  knn := exKNN
  reached v g := decide (|v - g| < 1)

/-- A history with two searches: the second one starts at 5, is heading for -4 and uses the new parameters. -/
example : let l : List (Call Int ℚ) := [.setInitState 0, .setGoalState 10, .setParameters ⟨20, 20, 3, 1⟩,
      .searchPath (fun _ => 0) (fun _ => 0), .setInitState 5, .setGoalState (-4), .setParameters ⟨20, 20, 4, 1⟩]
    lastInit l = some 5 ∧ lastGoal l = some (-4) ∧ NoSearch [Call.setInitState (V := Int) (K := ℚ) 7] ∧
    (calls (search exWorld) new (l ++ .searchPath (fun _ => 0) (fun _ => 0) :: [.setInitState 7])).bind getPath =
      some [5, 1, -3, -4] := by
  refine ⟨rfl, rfl, ?_, by decide +kernel⟩
  intro c u h
  cases List.mem_singleton.mp h

/-- The same for RRT*. -/
example : (calls (searchStar exWorld fun _ => 1) newStar
    [.setInitState 0, .setGoalState 10, .setParameters ⟨20, 20, 3, 1⟩, .searchPath (fun _ => 0) (fun _ => 0)]).bind getPath =
      some [0, 3, 6, 9, 10] := by decide +kernel

/-- A world in the plane that meets the hypotheses of `C103_rrtStar_r2`. -/
example [DecidableEq Pt] : ∃ w : RRTWorld Pt PathR2 ℝ, w.steering = r2Steering ∧ w.reached = (fun v g => decide (v = g)) ∧
    NearestLaws w.knn (fun v p : Pt => (v.x - p.x) ^ 2 + (v.y - p.y) ^ 2) ∧
    ∀ pts v (k : Nat) p, w.knn.nearest pts v = some p → p ∈ w.knn.knn pts v ((fun _ => 1 : Nat → Nat) k) :=
  ⟨⟨r2Steering, fun _ => true, r2KNN, fun v g => decide (v = g)⟩, rfl, rfl, r2KNN_laws, fun _ _ _ _ h => Option.mem_toList.mpr h⟩

end RRTPlanner
end PathPlanning
