import Verif.Model.Validator
import Verif.Props.RRTOpen
import Verif.Props.StateSpace

/-!
# C106: planning in the plane with the validator that only knows the bounds
-/

namespace PathPlanning
open Spec Tree

section
variable {V P K : Type} [DecidableEq V] [LinearOrder K] [Field K]

private theorem free_of_rinv {F : V → Prop} {init : V} (hi : F init) {t : Tree V} (R : RInv (fun _ b => F b) init t) (x : Nat)
    (hx : t.heap.alive x) : F (t.state x) := by
  cases hp : t.heap.parent x with
  | some p => exact R.edge x p hx hp
  | none =>
    obtain ⟨r, hr, hri⟩ := R.root
    have := (R.inv.root_iff x).mpr ⟨hx, hp⟩
    rw [hr] at this; cases this
    rw [hri]; exact hi

private theorem rrtLoop_free {D : Type} [LE D] {dist : V → V → D} (s : RRTSetup V P K) (L : NearestLaws s.knn dist)
    (F : V → Prop) (init : V) (hi : F init)
    (hF : ∀ a i, F a → F (s.steering.final (s.steering.steerTowards a (s.sample i) s.maxConnectionDistance))) :
    ∀ (k count : Nat) (t : Tree V) (r : RRTResult V), s.maxIteration + 1 - count = k →
    RInv (fun _ b => F b) init t → rrtLoop s count t = some r →
    RInv (fun _ b => F b) init r.tree ∧ (r.success = true → ∃ n, r.solution = some n ∧ r.tree.heap.alive n) := by
  intro k
  induction k with
  | zero =>
    intro count t r hk R h
    rw [rrtLoop, if_pos (by omega)] at h
    cases h; exact ⟨R, by simp⟩
  | succ k ih =>
    intro count t r hk R h
    rw [rrtLoop, if_neg (by omega)] at h
    split at h
    · cases h; exact ⟨R, by simp⟩
    · cases hn : t.getNearestNode s.knn (s.sample count) with
      | none => rw [hn] at h; exact ih _ _ _ (by omega) R h
      | some n =>
        rw [hn] at h
        dsimp only at h
        split at h
        · exact ih _ _ _ (by omega) R h
        · have ha := ((nearestNode_spec L R.inv _).2 n hn).1
          obtain ⟨t', m, he, R', hm, -⟩ := rinv_extend L R
            (v := s.steering.final (s.steering.steerTowards (t.state n) (s.sample count) s.maxConnectionDistance))
            (src := some n) (fun x hx => by cases hx; exact ha)
            (fun _ _ _ _ => hF _ _ (free_of_rinv hi R n ha))
          rw [he] at h
          dsimp only at h
          split at h
          · cases h; exact ⟨R', fun _ => ⟨m, rfl, hm⟩⟩
          · exact ih _ _ _ (by omega) R' h

private theorem starLoop_free {D : Type} [LE D] {dist : V → V → D} (s : RRTSetup V P K) (L : NearestLaws s.knn dist)
    (nn : Nat → Nat) (F : V → Prop) (init : V) (hi : F init)
    (hF : ∀ a i, F a → F (s.steering.final (s.steering.steerTowards a (s.sample i) s.maxConnectionDistance))) :
    ∀ (k count : Nat) (st : RRTStarState V K) (r : RRTStarResult V K), s.maxIteration + 1 - count = k →
    RInv (fun _ b => F b) init st.tree → rrtStarLoop s nn count st = some r →
    RInv (fun _ b => F b) init r.state.tree ∧
      (r.success = true → ∃ n, r.solution = some n ∧ r.state.tree.heap.alive n) := by
  intro k
  induction k with
  | zero =>
    intro count t r hk R h
    rw [rrtStarLoop, if_pos (by omega)] at h
    cases h; exact ⟨R, by simp⟩
  | succ k ih =>
    intro count st r hk R h
    rw [rrtStarLoop, if_neg (by omega)] at h
    split at h
    · cases h; exact ⟨R, by simp⟩
    · unfold rrtStarStep at h
      cases hn : st.tree.getNearestNode s.knn (s.sample count) with
      | none => rw [hn] at h; exact ih _ _ _ (by omega) R h
      | some n =>
        rw [hn] at h
        dsimp only at h
        cases hv : s.valid (s.steering.steerTowards (st.tree.state n) (s.sample count) s.maxConnectionDistance) with
        | false =>
          simp only [hv, Bool.not_false, if_true] at h
          exact ih _ _ _ (by omega) R h
        | true =>
          simp only [hv, Bool.not_true, Bool.false_eq_true, if_false] at h
          have ha := ((nearestNode_spec L R.inv _).2 n hn).1
          obtain ⟨v, hvv⟩ : ∃ v, v = s.steering.final (s.steering.steerTowards (st.tree.state n) (s.sample count)
            s.maxConnectionDistance) := ⟨_, rfl⟩
          rw [← hvv] at h
          obtain ⟨best, hb⟩ : ∃ b, b = bestParent s st v (st.tree.getNearestNodes s.knn v (nn st.tree.size)) := ⟨_, rfl⟩
          rw [← hb] at h
          obtain ⟨t', m, he, R', hm, -⟩ := rinv_extend L R (v := v) (src := best.1) (fun x hx => by
              rw [hb] at hx
              obtain ⟨u, -, hu⟩ := List.mem_filterMap.mp (bestParent_mem s st v _ x hx)
              exact (R.inv.find_some.mp hu).1)
            (fun _ _ _ _ => by rw [hvv]; exact hF _ _ (free_of_rinv hi R n ha))
          rw [he] at h
          dsimp only at h
          split at h
          · cases h; exact ⟨R', fun _ => ⟨m, rfl, hm⟩⟩
          · exact ih _ _ _ (by omega) R' h

private theorem chain_free {F : V → Prop} {l : List V} {init : V} (hi : F init) (hh : l.head? = some init)
    (hc : l.IsChain fun _ b => F b) : ∀ v ∈ l, F v := by
  induction l generalizing init with
  | nil => simp
  | cons a l ih =>
    intro v hv
    have ha : a = init := by simpa using hh
    rcases List.mem_cons.mp hv with rfl | hv
    · rw [ha]; exact hi
    · cases l with
      | nil => cases hv
      | cons b l =>
        obtain ⟨h1, h2⟩ := List.isChain_cons_cons.mp hc
        exact ih h1 rfl h2 v hv

private theorem rrt_path_free [Inhabited V] {D : Type} [LE D] {dist : V → V → D} (s : RRTSetup V P K) (L : NearestLaws s.knn dist)
    (t : Tree V) (ht : TreeReachable s.knn t) (F : V → Prop) (init : V) (hi : F init)
    (hF : ∀ a i, F a → F (s.steering.final (s.steering.steerTowards a (s.sample i) s.maxConnectionDistance)))
    (r : RRTResult V) (h : rrtSearchPath s t init = some r) (hs : r.success = true) :
    ∃ path, treeGetPath r.tree r.solution = some path ∧ ∀ v ∈ path, F v := by
  obtain ⟨R, -⟩ := rinv_start (treeInv_reachable L ht) (fun _ b => F b) init
  obtain ⟨R', hsol⟩ := rrtLoop_free s L F init hi hF _ 0 _ r rfl R h
  obtain ⟨n, hn, ha⟩ := hsol hs
  obtain ⟨path, h1, h2, -, h3⟩ := getPath_spec R' ha
  exact ⟨path, by rw [hn]; exact h1, chain_free hi h2 h3⟩

private theorem star_path_free [Inhabited V] {D : Type} [LE D] {dist : V → V → D} (s : RRTSetup V P K) (L : NearestLaws s.knn dist)
    (nn : Nat → Nat) (t : Tree V) (ht : TreeReachable s.knn t) (F : V → Prop) (init : V) (hi : F init)
    (hF : ∀ a i, F a → F (s.steering.final (s.steering.steerTowards a (s.sample i) s.maxConnectionDistance)))
    (r : RRTStarResult V K) (h : rrtStarSearchPath s nn t init = some r) (hs : r.success = true) :
    ∃ path, treeGetPath r.state.tree r.solution = some path ∧ ∀ v ∈ path, F v := by
  obtain ⟨R, -⟩ := rinv_start (treeInv_reachable L ht) (fun _ b => F b) init
  obtain ⟨R', hsol⟩ := starLoop_free s L nn F init hi hF _ 0 ⟨_, _⟩ r rfl R h
  obtain ⟨n, hn, ha⟩ := hsol hs
  obtain ⟨path, h1, h2, -, h3⟩ := getPath_spec R' ha
  exact ⟨path, by rw [hn]; exact h1, chain_free hi h2 h3⟩

end

/-- C106: the validator accepts a point exactly if it is within the bounds. -/
theorem C106_state_valid_iff (space : SpaceR2) (p : Pt) :
    freeIsStateValid space.validateBounds p = true ↔
      (space.lb.x ≤ p.x ∧ p.x ≤ space.ub.x) ∧ space.lb.y ≤ p.y ∧ p.y ≤ space.ub.y := by
  rw [← C43_r2_validate]
  unfold freeIsStateValid
  cases space.validateBounds p <;> simp

private theorem lerp_in (space : SpaceR2) {a b : Pt} (ha : freeIsStateValid space.validateBounds a = true)
    (hb : freeIsStateValid space.validateBounds b = true) {r : ℝ} (h0 : 0 ≤ r) (h1 : r ≤ 1) :
    freeIsStateValid space.validateBounds (Pt.lerp a b r) = true := by
  rw [C106_state_valid_iff] at *
  obtain ⟨⟨a1, a2⟩, a3, a4⟩ := ha
  obtain ⟨⟨b1, b2⟩, b3, b4⟩ := hb
  have h1' : 0 ≤ 1 - r := by linarith
  have e1 := mul_le_mul_of_nonneg_left a1 h1'
  have e2 := mul_le_mul_of_nonneg_left a2 h1'
  have e3 := mul_le_mul_of_nonneg_left a3 h1'
  have e4 := mul_le_mul_of_nonneg_left a4 h1'
  have f1 := mul_le_mul_of_nonneg_left b1 h0
  have f2 := mul_le_mul_of_nonneg_left b2 h0
  have f3 := mul_le_mul_of_nonneg_left b3 h0
  have f4 := mul_le_mul_of_nonneg_left b4 h0
  show (space.lb.x ≤ (1 - r) * a.x + r * b.x ∧ (1 - r) * a.x + r * b.x ≤ space.ub.x) ∧
    space.lb.y ≤ (1 - r) * a.y + r * b.y ∧ (1 - r) * a.y + r * b.y ≤ space.ub.y
  refine ⟨⟨?_, ?_⟩, ?_, ?_⟩ <;> linarith

private theorem steer_in (space : SpaceR2) {a b : Pt} (ha : freeIsStateValid space.validateBounds a = true)
    (hb : freeIsStateValid space.validateBounds b = true) (d : ℝ) :
    freeIsStateValid space.validateBounds (r2Steering.final (r2Steering.steerTowards a b d)) = true := by
  unfold Steering.steerTowards
  dsimp only
  split
  · obtain ⟨r, hr⟩ : ∃ r, r = clampK (d / r2Steering.length (r2Steering.connect a b)) 0 1 := ⟨_, rfl⟩
    have hc : 0 ≤ r ∧ r ≤ 1 := by
      rw [hr]; unfold clampK
      split
      · norm_num
      · split
        · norm_num
        · exact ⟨by linarith, by linarith⟩
    rw [← hr]
    exact lerp_in space ha hb hc.1 hc.2
  · exact hb

/-- What the planners are constructed with: straight connections, the validator that only knows the bounds, and the goal test. -/
noncomputable def freeWorld (knn : KNN Pt) (reached : Pt → Pt → Bool) : RRTWorld Pt PathR2 ℝ where
  steering := r2Steering
  valid p := (freeIsPathValid p).1
  knn := knn
  reached := reached

private theorem draws_in (space : SpaceR2) (ho : space.Ordered) (knn : KNN Pt) (reached : Pt → Pt → Bool) (s : RRTPlanner Pt ℝ)
    (hg : freeIsStateValid space.validateBounds s.goal = true) (coin ux uy : Nat → ℝ)
    (hux : ∀ i, 0 ≤ ux i ∧ ux i ≤ 1) (huy : ∀ i, 0 ≤ uy i ∧ uy i ≤ 1) (a : Pt) (i : Nat)
    (ha : freeIsStateValid space.validateBounds a = true) :
    freeIsStateValid space.validateBounds (r2Steering.final (r2Steering.steerTowards a
      ((s.setup (freeWorld knn reached) coin fun i => space.sampleUniform (ux i) (uy i)).sample i)
      s.params.maxConnectionDistance)) = true := by
  refine steer_in space ha ?_ _
  show freeIsStateValid space.validateBounds (s.draw coin (fun i => space.sampleUniform (ux i) (uy i)) i) = true
  unfold RRTPlanner.draw
  split
  · exact hg
  · have := (C44_r2 space ho).1 (ux i) (uy i) (hux i).1 (hux i).2 (huy i).1 (huy i).2
    unfold freeIsStateValid
    rw [this]; rfl

/-- C106 for RRT, partial: with the uniform samples of the state space, a start and a goal within the bounds, the path returned
and all points between its points are accepted by the validator. Missing: a goal out of bounds (`C106_leaves_bounds`). -/
theorem C106_rrt_partial [DecidableEq Pt] [Inhabited Pt] (space : SpaceR2) (ho : space.Ordered) {D : Type} [LE D] {dist : Pt → Pt → D}
    (knn : KNN Pt) (L : NearestLaws knn dist) (reached : Pt → Pt → Bool) (s s' : RRTPlanner Pt ℝ) (ht : TreeReachable knn s.tree)
    (hi : freeIsStateValid space.validateBounds s.init = true) (hg : freeIsStateValid space.validateBounds s.goal = true)
    (coin ux uy : Nat → ℝ) (hux : ∀ i, 0 ≤ ux i ∧ ux i ≤ 1) (huy : ∀ i, 0 ≤ uy i ∧ uy i ≤ 1)
    (h : s.search (freeWorld knn reached) coin (fun i => space.sampleUniform (ux i) (uy i)) = some (true, s')) :
    ∃ path, s'.getPath = some path ∧ (∀ p ∈ path, freeIsStateValid space.validateBounds p = true) ∧
      path.IsChain fun a b => ∀ r, 0 ≤ r → r ≤ 1 →
        freeIsStateValid space.validateBounds ((PathR2.connect a b).interpolate r) = true := by
  obtain ⟨r, h1, h2⟩ := Option.map_eq_some_iff.mp h
  obtain ⟨h3, h4⟩ := Prod.mk.inj h2
  obtain ⟨path, h5, h6⟩ := rrt_path_free _ L s.tree ht _ s.init hi
    (draws_in space ho knn reached s hg coin ux uy hux huy) r h1 h3
  refine ⟨path, by rw [← h4]; exact h5, h6, ?_⟩
  rw [List.isChain_iff_getElem]
  intro i hi r hr0 hr1
  exact lerp_in space (h6 _ (List.getElem_mem _)) (h6 _ (List.getElem_mem _)) hr0 hr1

/-- C106 for RRT*, partial: as `C106_rrt_partial`. -/
theorem C106_rrtStar_partial [DecidableEq Pt] [Inhabited Pt] (space : SpaceR2) (ho : space.Ordered) {D : Type} [LE D] {dist : Pt → Pt → D}
    (knn : KNN Pt) (L : NearestLaws knn dist) (nn : Nat → Nat) (reached : Pt → Pt → Bool) (s s' : RRTPlanner Pt ℝ)
    (ht : TreeReachable knn s.tree)
    (hi : freeIsStateValid space.validateBounds s.init = true) (hg : freeIsStateValid space.validateBounds s.goal = true)
    (coin ux uy : Nat → ℝ) (hux : ∀ i, 0 ≤ ux i ∧ ux i ≤ 1) (huy : ∀ i, 0 ≤ uy i ∧ uy i ≤ 1)
    (h : s.searchStar (freeWorld knn reached) nn coin (fun i => space.sampleUniform (ux i) (uy i)) = some (true, s')) :
    ∃ path, s'.getPath = some path ∧ (∀ p ∈ path, freeIsStateValid space.validateBounds p = true) ∧
      path.IsChain fun a b => ∀ r, 0 ≤ r → r ≤ 1 →
        freeIsStateValid space.validateBounds ((PathR2.connect a b).interpolate r) = true := by
  obtain ⟨r, h1, h2⟩ := Option.map_eq_some_iff.mp h
  obtain ⟨h3, h4⟩ := Prod.mk.inj h2
  obtain ⟨path, h5, h6⟩ := star_path_free _ L nn s.tree ht _ s.init hi
    (draws_in space ho knn reached s hg coin ux uy hux huy) r h1 h3
  refine ⟨path, by rw [← h4]; exact h5, h6, ?_⟩
  rw [List.isChain_iff_getElem]
  intro i hi r hr0 hr1
  exact lerp_in space (h6 _ (List.getElem_mem _)) (h6 _ (List.getElem_mem _)) hr0 hr1

/-- The planner of tests/test_rrt.cpp (with a goal that may differ), with straight connections of length one. -/
noncomputable def testPlanner [DecidableEq Pt] [Inhabited Pt] (goal : Pt) : RRTPlanner Pt ℝ :=
  { (RRTPlanner.new : RRTPlanner Pt ℝ) with params := ⟨10000, 10000, 1, 1 / 20⟩, init := ⟨0, 0⟩, goal := goal }

/-- The goal test of RRT (rrt.h:125-128). -/
noncomputable def near1 (v g : Pt) : Bool := open Classical in decide ((v - g).norm < 1)

private theorem test_success [DecidableEq Pt] [Inhabited Pt] (goal : Pt)
    (hgoal : √((goal.x - 0) ^ 2 + (goal.y - 0) ^ 2) ≤ 5) (uniform : Nat → Pt) :
    ∃ s', (testPlanner goal).search (freeWorld r2KNN near1) (fun _ => 0) uniform = some (true, s') := by
  have hc : ((List.range 5).countP fun _ => (0 : ℝ) < (testPlanner goal).params.goalBias) = 5 := by
    rw [List.countP_eq_length.mpr, List.length_range]
    intro i _
    exact decide_eq_true (show (0 : ℝ) < 1 / 20 by norm_num)
  refine C105_planner (freeWorld r2KNN near1) rfl (fun _ => rfl) (fun g => ?_) r2KNN_laws (testPlanner goal) .start
    (show (0 : ℝ) < 1 by norm_num) _ uniform 5 (show 5 ≤ 10000 + 1 by norm_num) (show 5 ≤ 10000 by norm_num) ?_ ?_
  · refine @decide_eq_true _ (Classical.propDecidable _) ?_
    show √((g.x - g.x) ^ 2 + (g.y - g.y) ^ 2) < 1
    simp
  · rw [hc]; norm_num
  · rw [hc]
    show √((goal.x - 0) ^ 2 + (goal.y - 0) ^ 2) ≤ ((5 : Nat) : ℝ) * 1
    push_cast; linarith

/-- The hypotheses of `C106_rrt_partial` can be met: the planner of tests/test_rrt.cpp with its goal (2, 2). -/
example [DecidableEq Pt] [Inhabited Pt] : let space : SpaceR2 := ⟨⟨0, 0⟩, ⟨5, 5⟩⟩
    space.Ordered ∧ freeIsStateValid space.validateBounds (testPlanner ⟨2, 2⟩).init = true ∧
    freeIsStateValid space.validateBounds (testPlanner ⟨2, 2⟩).goal = true ∧
    ∃ s', (testPlanner ⟨2, 2⟩).search (freeWorld r2KNN near1) (fun _ => 0)
      (fun i => space.sampleUniform ((fun _ => 1 / 2 : Nat → ℝ) i) ((fun _ => 1 / 2 : Nat → ℝ) i)) = some (true, s') := by
  intro space
  refine ⟨⟨show (0 : ℝ) ≤ 5 by norm_num, show (0 : ℝ) ≤ 5 by norm_num⟩, (C106_state_valid_iff _ _).mpr ?_,
    (C106_state_valid_iff _ _).mpr ?_, test_success _ ?_ _⟩
  · show ((0 : ℝ) ≤ 0 ∧ (0 : ℝ) ≤ 5) ∧ (0 : ℝ) ≤ 0 ∧ (0 : ℝ) ≤ 5
    norm_num
  · show ((0 : ℝ) ≤ 2 ∧ (2 : ℝ) ≤ 5) ∧ (0 : ℝ) ≤ 2 ∧ (2 : ℝ) ≤ 5
    norm_num
  · apply Real.sqrt_le_iff.mpr; norm_num

/-- C106 fails in general: a goal out of bounds is planned for, and the path ends outside. -/
theorem C106_leaves_bounds [DecidableEq Pt] [Inhabited Pt] :
    ∃ (space : SpaceR2) (s' : RRTPlanner Pt ℝ) (path : List Pt), space.Ordered ∧
      freeIsStateValid space.validateBounds (testPlanner ⟨-3, 0⟩).init = true ∧
      (testPlanner ⟨-3, 0⟩).search (freeWorld r2KNN near1) (fun _ => 0) (fun _ => space.sampleUniform 0 0) = some (true, s') ∧
      s'.getPath = some path ∧ ∃ p ∈ path, freeIsStateValid space.validateBounds p = false := by
  obtain ⟨s', hs⟩ := test_success ⟨-3, 0⟩ (by apply Real.sqrt_le_iff.mpr; norm_num)
    (fun _ => SpaceR2.sampleUniform ⟨⟨0, 0⟩, ⟨5, 5⟩⟩ 0 0)
  obtain ⟨r, h1, h2⟩ := Option.map_eq_some_iff.mp hs
  obtain ⟨h3, h4⟩ := Prod.mk.inj h2
  obtain ⟨path, h5, -, -, g, h6, h7⟩ := C25_rrt_path _ r2KNN_laws _ .start _ r h1 h3
  refine ⟨⟨⟨0, 0⟩, ⟨5, 5⟩⟩, s', path, ⟨show (0 : ℝ) ≤ 5 by norm_num, show (0 : ℝ) ≤ 5 by norm_num⟩,
    (C106_state_valid_iff _ _).mpr ?_, hs, by rw [← h4]; exact h5, g, List.mem_of_getLast? h6, ?_⟩
  · show ((0 : ℝ) ≤ 0 ∧ (0 : ℝ) ≤ 5) ∧ (0 : ℝ) ≤ 0 ∧ (0 : ℝ) ≤ 5
    norm_num
  · rw [← Bool.not_eq_true, C106_state_valid_iff]
    rintro ⟨⟨hx, -⟩, -⟩
    have h8 : √((g.x - -3) ^ 2 + (g.y - 0) ^ 2) < 1 := @of_decide_eq_true _ (Classical.propDecidable _) h7
    have h9 : (g.x - -3) ^ 2 + (g.y - 0) ^ 2 < 1 := by
      by_contra hc
      have := Real.sqrt_le_sqrt (not_lt.mp hc)
      rw [Real.sqrt_one] at this
      linarith
    have hx' : (0 : ℝ) ≤ g.x := hx
    nlinarith [sq_nonneg (g.y - 0)]

end PathPlanning
