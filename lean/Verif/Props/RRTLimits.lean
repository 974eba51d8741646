import Verif.Props.RRTRandom
import Verif.Props.Sampling

/-!
# C160, C161: what higher limits change for RRT and RRT*
-/

namespace PathPlanning
open Spec Real Validator MeasureTheory ProbabilityTheory RRTPlanner

section Limits
variable {V P K : Type} [DecidableEq V] [LinearOrder K] [Field K]

theorem rrtLoop_limits (s s' : RRTSetup V P K) (h1 : s'.steering = s.steering) (h2 : s'.valid = s.valid)
    (h3 : s'.knn = s.knn) (h4 : s'.isSolution = s.isSolution) (h5 : s'.sample = s.sample)
    (h6 : s'.maxConnectionDistance = s.maxConnectionDistance) (hi : s.maxIteration ≤ s'.maxIteration)
    (hn : s.maxNumberTreeNode ≤ s'.maxNumberTreeNode) (count : Nat) (t : Tree V) (r : RRTResult V)
    (h : rrtLoop s count t = some r) (hr : r.success = true) : rrtLoop s' count t = some r := by
  induction hg : s.maxIteration + 1 - count generalizing count t with
  | zero =>
    rw [rrtLoop, if_pos (by omega)] at h
    cases h; cases hr
  | succ g ih =>
    rw [rrtLoop] at h ⊢
    rw [if_neg (by omega)] at h ⊢
    split at h
    · cases h; cases hr
    · rename_i hsz
      rw [if_neg (by omega), h1, h2, h3, h4, h5, h6]
      cases hnn : t.getNearestNode s.knn (s.sample count) with
      | none => rw [hnn] at h; exact ih _ _ h (by omega)
      | some near =>
        rw [hnn] at h
        dsimp only at h ⊢
        split at h
        · rename_i hv
          rw [if_pos hv]
          exact ih _ _ h (by omega)
        · rename_i hv
          rw [if_neg hv]
          split at h
          · cases h
          · rename_i t' n he
            split at h
            · rename_i hs; rw [if_pos hs]; exact h
            · rename_i hs; rw [if_neg hs]; exact ih _ _ h (by omega)

private theorem step_limits (s s' : RRTSetup V P K) (h1 : s'.steering = s.steering) (h2 : s'.valid = s.valid)
    (h3 : s'.knn = s.knn) (h6 : s'.maxConnectionDistance = s.maxConnectionDistance) (nn : Nat → Nat) (v : V)
    (st : RRTStarState V K) : rrtStarStep s' nn v st = rrtStarStep s nn v st := by
  unfold rrtStarStep bestParent
  rw [h1, h2, h3, h6]

theorem starLoop_limits (s s' : RRTSetup V P K) (nn : Nat → Nat) (h1 : s'.steering = s.steering)
    (h2 : s'.valid = s.valid) (h3 : s'.knn = s.knn) (h4 : s'.isSolution = s.isSolution) (h5 : s'.sample = s.sample)
    (h6 : s'.maxConnectionDistance = s.maxConnectionDistance) (hi : s.maxIteration ≤ s'.maxIteration)
    (hn : s.maxNumberTreeNode ≤ s'.maxNumberTreeNode) (count : Nat) (st : RRTStarState V K) (r : RRTStarResult V K)
    (h : rrtStarLoop s nn count st = some r) (hr : r.success = true) : rrtStarLoop s' nn count st = some r := by
  induction hg : s.maxIteration + 1 - count generalizing count st with
  | zero =>
    rw [rrtStarLoop, if_pos (by omega)] at h
    cases h; cases hr
  | succ g ih =>
    rw [rrtStarLoop] at h ⊢
    rw [if_neg (by omega)] at h ⊢
    split at h
    · cases h; cases hr
    · rename_i hsz
      rw [if_neg (by omega), h4, h5, step_limits s s' h1 h2 h3 h6]
      split at h
      · cases h
      · exact ih _ _ h (by omega)
      · rename_i st' n v he
        split at h
        · rename_i hs; rw [if_pos hs]; exact h
        · rename_i hs; rw [if_neg hs]; exact ih _ _ h (by omega)

/-- C160 for RRT: a search that succeeds also succeeds, with the same draws, when it is allowed more iterations and nodes, and
leaves the same planner but for the limits. -/
theorem C160_rrt (w : RRTWorld V P K) (s s' : RRTPlanner V K) (coin : Nat → K) (uniform : Nat → V)
    (h : s.search w coin uniform = some (true, s')) (iterations nodes : Nat) (hi : s.params.maxIteration ≤ iterations)
    (hn : s.params.maxNumberTreeNode ≤ nodes) :
    (withLimits s iterations nodes).search w coin uniform = some (true, withLimits s' iterations nodes) := by
  obtain ⟨r, hr, he⟩ := Option.map_eq_some_iff.mp h
  have hrs : r.success = true := (Prod.mk.inj he).1
  unfold RRTPlanner.search
  rw [show rrtSearchPath ((withLimits s iterations nodes).setup w coin uniform) (withLimits s iterations nodes).tree
      (withLimits s iterations nodes).init = some r from rrtLoop_limits (s.setup w coin uniform)
        ((withLimits s iterations nodes).setup w coin uniform) rfl rfl rfl rfl rfl rfl hi hn _ _ _ hr hrs,
    Option.map_some, hrs, ← (Prod.mk.inj he).2]
  rfl

/-- C160 for RRT*. -/
theorem C160_rrtStar (w : RRTWorld V P K) (nn : Nat → Nat) (s s' : RRTPlanner V K) (coin : Nat → K) (uniform : Nat → V)
    (h : s.searchStar w nn coin uniform = some (true, s')) (iterations nodes : Nat) (hi : s.params.maxIteration ≤ iterations)
    (hn : s.params.maxNumberTreeNode ≤ nodes) :
    (withLimits s iterations nodes).searchStar w nn coin uniform = some (true, withLimits s' iterations nodes) := by
  obtain ⟨r, hr, he⟩ := Option.map_eq_some_iff.mp h
  have hrs : r.success = true := (Prod.mk.inj he).1
  unfold RRTPlanner.searchStar
  rw [show rrtStarSearchPath ((withLimits s iterations nodes).setup w coin uniform) nn (withLimits s iterations nodes).tree
      (withLimits s iterations nodes).init = some r from
        starLoop_limits (s.setup w coin uniform)
        ((withLimits s iterations nodes).setup w coin uniform) nn rfl rfl rfl rfl rfl rfl hi hn _ _ _ hr hrs,
    Option.map_some, hrs, ← (Prod.mk.inj he).2]
  rfl

/-- C160: whatever the limits, two searches of RRT that succeed with the same draws give the same path. -/
theorem C160_rrt_same_path (w : RRTWorld V P K) (s s₁ s₂ : RRTPlanner V K) (coin : Nat → K) (uniform : Nat → V)
    (i₁ n₁ i₂ n₂ : Nat) (h₁ : (withLimits s i₁ n₁).search w coin uniform = some (true, s₁))
    (h₂ : (withLimits s i₂ n₂).search w coin uniform = some (true, s₂)) : s₁.getPath = s₂.getPath := by
  have a := C160_rrt w _ _ coin uniform h₁ (max i₁ i₂) (max n₁ n₂) (le_max_left _ _) (le_max_left _ _)
  have b := C160_rrt w _ _ coin uniform h₂ (max i₁ i₂) (max n₁ n₂) (le_max_right _ _) (le_max_right _ _)
  have c : some (true, withLimits s₁ (max i₁ i₂) (max n₁ n₂)) = some (true, withLimits s₂ (max i₁ i₂) (max n₁ n₂)) := a.symm.trans b
  have e := (Prod.mk.inj (Option.some.inj c)).2
  have e1 := congrArg RRTPlanner.tree e
  have e2 := congrArg RRTPlanner.solution e
  unfold getPath
  exact congrArg₂ treeGetPath e1 e2

/-- C160 for RRT*: as for RRT; more iterations do not make the path shorter. -/
theorem C160_rrtStar_same_path (w : RRTWorld V P K) (nn : Nat → Nat) (s s₁ s₂ : RRTPlanner V K) (coin : Nat → K)
    (uniform : Nat → V) (i₁ n₁ i₂ n₂ : Nat) (h₁ : (withLimits s i₁ n₁).searchStar w nn coin uniform = some (true, s₁))
    (h₂ : (withLimits s i₂ n₂).searchStar w nn coin uniform = some (true, s₂)) : s₁.getPath = s₂.getPath := by
  have a := C160_rrtStar w nn _ _ coin uniform h₁ (max i₁ i₂) (max n₁ n₂) (le_max_left _ _) (le_max_left _ _)
  have b := C160_rrtStar w nn _ _ coin uniform h₂ (max i₁ i₂) (max n₁ n₂) (le_max_right _ _) (le_max_right _ _)
  have c : some (true, withLimits s₁ (max i₁ i₂) (max n₁ n₂)) = some (true, withLimits s₂ (max i₁ i₂) (max n₁ n₂)) := a.symm.trans b
  have e := (Prod.mk.inj (Option.some.inj c)).2
  have e1 := congrArg RRTPlanner.tree e
  have e2 := congrArg RRTPlanner.solution e
  unfold getPath
  exact congrArg₂ treeGetPath e1 e2

end Limits

/-! ## RRT* does not approach the shortest path -/

section Plane
variable [DecidableEq Pt]

omit [DecidableEq Pt] in
private theorem best_mem (s : RRTSetup Pt PathR2 ℝ) (st : RRTStarState Pt ℝ) (v : Pt) (near : List Nat) (n : Nat)
    (h : (bestParent s st v near).1 = some n) : n ∈ near := by
  induction near using List.reverseRecOn with
  | nil => cases h
  | append_singleton l a ih =>
    unfold bestParent at h ih
    rw [List.foldl_append, List.foldl_cons, List.foldl_nil] at h
    dsimp only at h
    split at h
    · cases h; simp
    · exact List.mem_append_left _ (ih h)

/-- The first two draws decide the path: a point `x` that is nearer to the goal than the start is, then the goal. -/
private theorem detour [Inhabited Pt] (s : RRTSetup Pt PathR2 ℝ) (hst : s.steering = r2Steering)
    (L : NearestLaws s.knn (fun v p : Pt => (v.x - p.x) ^ 2 + (v.y - p.y) ^ 2)) (nn : Nat → Nat)
    (hone : ∀ k ≤ 2, ∀ pts v p, p ∈ s.knn.knn pts v (nn k) → s.knn.nearest pts v = some p)
    (hfree : ∀ a b, s.valid (PathR2.connect a b) = true) (start goal x : Pt)
    (hsol : ∀ v, s.isSolution v = true ↔ v = goal) (t : Tree Pt) (ht : TreeReachable s.knn t)
    (h0 : s.sample 0 = x) (h1 : s.sample 1 = goal) (hd : 0 < s.maxConnectionDistance)
    (hx : euclid start x ≤ s.maxConnectionDistance) (hg : euclid x goal < euclid start goal)
    (hgd : euclid x goal ≤ s.maxConnectionDistance)
    (hxs : x ≠ start) (hxg : x ≠ goal) (hi : 1 ≤ s.maxIteration) (hn : 2 ≤ s.maxNumberTreeNode) :
    ∃ r, rrtStarSearchPath s nn t start = some r ∧ r.success = true ∧
      treeGetPath r.state.tree r.solution = some [start, x, goal] := by
  have hsg : start ≠ goal := by
    rintro rfl
    have : 0 ≤ euclid x start := Real.sqrt_nonneg _
    have e : euclid start start = 0 := by simp [euclid]
    linarith
  obtain ⟨E, hE⟩ : ∃ E : Pt → Pt → Prop, E = fun a b => (a = start ∧ b = x) ∨ (a = x ∧ b = goal) := ⟨_, rfl⟩
  obtain ⟨R0, hsz0, -⟩ := rinv_start (treeInv_reachable L ht) (fun a b => a = start ∧ b = x) start
  obtain ⟨R0', -, -⟩ := rinv_start (treeInv_reachable L ht) (fun _ _ => False) start
  unfold rrtStarSearchPath
  dsimp only
  obtain ⟨t0, ht0⟩ : ∃ t0, t0 = (t.clear.createRootNode start).1 := ⟨_, rfl⟩
  rw [← ht0] at R0 R0' hsz0 ⊢
  -- all nodes of the first tree are the start
  have hall : ∀ n, t0.heap.alive n → t0.state n = start := by
    intro n hn
    obtain ⟨r, hr, hri⟩ := R0.root
    have hp : t0.heap.parent n = none := by
      cases hp : t0.heap.parent n with
      | none => rfl
      | some p => exact (R0'.edge n p hn hp).elim
    have := (R0.inv.root_iff n).mpr ⟨hn, hp⟩
    rw [hr] at this; cases this; exact hri
  have hsteer : ∀ a b, euclid a b ≤ s.maxConnectionDistance →
      s.valid (s.steering.steerTowards a b s.maxConnectionDistance) = true ∧
      s.steering.final (s.steering.steerTowards a b s.maxConnectionDistance) = b := by
    intro a b hab
    have h3 := (steer_progress a b s.maxConnectionDistance hd).1 (by rw [norm_sub_euclid]; exact hab)
    obtain ⟨-, -, -, -, h4⟩ := steer_ratio a b s.maxConnectionDistance hd.le
    rw [hst]
    refine ⟨?_, h3⟩
    rw [h4]
    exact hfree _ _
  have halive : ∀ (u : Tree Pt), TreeInv u → ∀ v k n, n ∈ u.getNearestNodes s.knn v k → u.heap.alive n := by
    intro u I v k n h
    obtain ⟨p, -, hp⟩ := List.mem_filterMap.mp h
    exact (I.find_some.mp hp).1
  -- first iteration
  rw [rrtStarLoop, if_neg (by omega), if_neg (by rw [show (⟨t0, fun _ => some 0⟩ : RRTStarState Pt ℝ).tree = t0 from rfl]; omega)]
  obtain ⟨r, hr, -⟩ := R0.root
  obtain ⟨n0, hn0⟩ := (nearestNode_spec L R0.inv x).1 (by rw [hr]; simp)
  obtain ⟨ha0, -, -⟩ := (nearestNode_spec L R0.inv x).2 n0 hn0
  obtain ⟨hv0, hf0⟩ := hsteer (t0.state n0) x (by rw [hall n0 ha0]; exact hx)
  obtain ⟨b0, hb0⟩ : ∃ b, b = bestParent s ⟨t0, fun _ => some 0⟩ x (t0.getNearestNodes s.knn x (nn t0.size)) := ⟨_, rfl⟩
  obtain ⟨t1, n1, he1, R1, ha1, hs1, hsz1, hal1⟩ := rinv_extend L R0 (v := x) (src := b0.1)
    (fun n hn => halive t0 R0.inv _ _ n (best_mem s _ x _ n (by rw [← hb0]; exact hn)))
    (fun p hp _ _ => ⟨hall p hp, rfl⟩)
  have hstep0 : rrtStarStep s nn (s.sample 0) ⟨t0, fun _ => some 0⟩ = some (⟨t1, upd (fun _ => some 0) n1 b0.2⟩, some (n1, x)) := by
    unfold rrtStarStep
    rw [h0]
    dsimp only
    rw [hn0]
    dsimp only
    rw [hv0, hf0, ← hb0, he1]
    simp
  rw [hstep0]
  dsimp only
  rw [if_neg (by rw [hsol]; exact hxg)]
  -- second iteration
  rw [rrtStarLoop, if_neg (by omega), if_neg (by dsimp only; omega)]
  obtain ⟨r1, hr1, -⟩ := R1.root
  have RE : RInv E start t1 := ⟨R1.inv, R1.root, fun n p a b => by rw [hE]; exact Or.inl (R1.edge n p a b)⟩
  -- the nearest node of the goal is `x`
  have hnear : ∀ m, t1.heap.alive m → s.knn.nearest t1.points goal = some (t1.state m) → t1.state m = x := by
    intro m hm hnm
    have h2 : euclid (t1.state m) goal ≤ euclid x goal := by
      have h3 : x ∈ t1.points := by
        rw [← hs1]; exact (R1.inv.points _).mpr ⟨n1, (R1.inv.entries _ _).mpr ⟨ha1, rfl⟩⟩
      have h4 := Real.sqrt_le_sqrt (L.min _ _ _ hnm x h3)
      have e : ∀ p : Pt, euclid p goal = √((goal.x - p.x) ^ 2 + (goal.y - p.y) ^ 2) := by
        intro p; unfold euclid; congr 1; ring
      rw [e, e]; exact h4
    cases hp : t1.heap.parent m with
    | none =>
      exfalso
      have h3 := (R1.inv.root_iff m).mpr ⟨hm, hp⟩
      obtain ⟨r2, hr2, hri⟩ := R1.root
      rw [h3] at hr2; cases hr2
      rw [hri] at h2; linarith
    | some p => exact (R1.edge m p hm hp).2
  obtain ⟨n2, hn2⟩ := (nearestNode_spec L R1.inv goal).1 (by rw [hr1]; simp)
  obtain ⟨ha2, hnp2, -⟩ := (nearestNode_spec L R1.inv goal).2 n2 hn2
  obtain ⟨hv2, hf2⟩ := hsteer (t1.state n2) goal (by rw [hnear n2 ha2 hnp2]; exact hgd)
  obtain ⟨st1, hst1⟩ : ∃ st : RRTStarState Pt ℝ, st = ⟨t1, upd (fun _ => some 0) n1 b0.2⟩ := ⟨_, rfl⟩
  have htree : st1.tree = t1 := by rw [hst1]
  obtain ⟨b1, hb1⟩ : ∃ b, b = bestParent s st1 goal (t1.getNearestNodes s.knn goal (nn t1.size)) := ⟨_, rfl⟩
  have hb1mem : ∀ n, b1.1 = some n → n ∈ t1.getNearestNodes s.knn goal (nn t1.size) := fun n hn =>
    best_mem s _ goal _ n (by rw [← hb1]; exact hn)
  obtain ⟨t2, n3, he2, R2, ha3, hs3, -, -⟩ := rinv_extend L RE (v := goal) (src := b1.1)
    (fun n hn => halive t1 R1.inv _ _ n (hb1mem n hn))
    (fun p hp hsrc _ => by
      rw [hE]
      refine Or.inr ⟨?_, rfl⟩
      rcases hsrc with hsrc | ⟨-, hsrc⟩
      · obtain ⟨v, hv, hf⟩ := List.mem_filterMap.mp (hb1mem p hsrc)
        have h3 := hone _ (by omega) _ _ _ hv
        obtain ⟨-, h4⟩ := R1.inv.find_some.mp hf
        exact hnear p hp (by rw [h4]; exact h3)
      · exact hnear p hp ((nearestNode_spec L R1.inv goal).2 p hsrc).2.1)
  have hstep1 : rrtStarStep s nn (s.sample 1) st1 = some (⟨t2, upd st1.cost n3 b1.2⟩, some (n3, goal)) := by
    unfold rrtStarStep
    rw [h1, htree, hn2]
    dsimp only
    rw [hv2, hf2, ← hb1, he2]
    simp
  rw [← hst1, hstep1]
  dsimp only
  rw [if_pos ((hsol goal).mpr rfl)]
  refine ⟨_, rfl, rfl, ?_⟩
  obtain ⟨l, hl, hhead, hlast, hchain⟩ := getPath_spec R2 ha3
  show treeGetPath t2 (some n3) = _
  rw [hl, hs3] at *
  rw [hE] at hchain
  congr 1
  -- the only such path
  match l, hhead, hlast, hchain with
  | [a], h, h', _ => simp at h h'; exact absurd (h.symm.trans h') hsg
  | a :: b :: [], h, h', hc =>
    simp at h h' hc
    subst h h'
    rcases hc with h | h
    · exact absurd h.2.symm hxg
    · exact absurd h.1.symm hxs
  | a :: b :: c :: [], h, h', hc =>
    simp at h h' hc
    subst h h'
    rcases hc.1 with h | h
    · rw [h.2]
    · exact absurd h.1.symm hxs
  | a :: b :: c :: d :: l', h, h', hc =>
    exfalso
    simp only [List.isChain_cons_cons] at hc
    obtain ⟨c1, c2, c3, -⟩ := hc
    simp at h
    subst h
    rcases c1 with c1 | c1
    · rcases c2 with c2 | c2
      · exact hxs (c1.2.symm.trans c2.1)
      · rcases c3 with c3 | c3
        · exact hsg (c3.1.symm.trans c2.2)
        · exact hxg (c3.1.symm.trans c2.2)
    · exact hxs c1.1.symm

/-- The number of neighbours that RRT* looks at (rrt_star.h:84). -/
noncomputable def Spec.logNeighbours (k : Nat) : Nat := max 1 ⌊Real.log k⌋₊

omit [DecidableEq Pt] in
private theorem logNeighbours_small {k : Nat} (hk : k ≤ 2) : logNeighbours k = 1 := by
  have : ⌊Real.log k⌋₊ = 0 := by
    rw [Nat.floor_eq_zero]
    interval_cases k
    · simp
    · simp
    · have := Real.log_lt_sub_one_of_pos (x := 2) two_pos (by norm_num)
      push_cast
      linarith
  rw [logNeighbours, this]; rfl

omit [DecidableEq Pt] in
private theorem euclid_continuous (a : Pt) : Continuous fun q : ℝ × ℝ => euclid a ⟨q.1, q.2⟩ := by
  unfold euclid
  fun_prop

omit [DecidableEq Pt] in
private theorem euclid_continuous' (a : Pt) : Continuous fun q : ℝ × ℝ => euclid ⟨q.1, q.2⟩ a := by
  unfold euclid
  fun_prop

omit [DecidableEq Pt] in
private theorem uniform_pos {space : SpaceR2} {A : Set (ℝ × ℝ)} (hA : IsOpen A) {m : Pt} (hm : (m.x, m.y) ∈ A)
    (hx : space.lb.x < m.x ∧ m.x < space.ub.x) (hy : space.lb.y < m.y ∧ m.y < space.ub.y) :
    0 < ((volume[|Set.Icc space.lb.x space.ub.x]).prod (volume[|Set.Icc space.lb.y space.ub.y])) A := by
  obtain ⟨u, hu, v, hv, huv⟩ := mem_nhds_prod_iff.mp (hA.mem_nhds hm)
  have key : ∀ {lb ub c : ℝ} {u : Set ℝ}, u ∈ nhds c → lb < c → c < ub → 0 < (volume[|Set.Icc lb ub]) u := by
    intro lb ub c u hu h1 h2
    rw [ProbabilityTheory.cond_apply measurableSet_Icc]
    refine ENNReal.mul_pos (ENNReal.inv_ne_zero.mpr (by rw [Real.volume_Icc]; exact ENNReal.ofReal_ne_top)) ?_
    exact (Measure.measure_pos_of_mem_nhds volume (Filter.inter_mem (Icc_mem_nhds h1 h2) hu)).ne'
  refine lt_of_lt_of_le ?_ (measure_mono huv)
  rw [Measure.prod_prod]
  exact ENNReal.mul_pos (key hu hx.1 hx.2).ne' (key hv hy.1 hy.2).ne'

/-- C161 fails: in an empty plane, where the straight motion from the start to the goal is possible in one step, there is a
length greater than the distance of start and goal such that the path of RRT* is at least that long with a probability that
does not decrease when more iterations and nodes are allowed. `m` is any point beside the line from the start to the goal that
is nearer to the goal than the start is. -/
theorem C161_stays_longer [Inhabited Pt] {Ω : Type} [MeasurableSpace Ω] {μ : Measure Ω} {U : Nat → Ω → ℝ}
    (hU : UniformStream μ U) (w : RRTWorld Pt PathR2 ℝ) (hw : w.steering = r2Steering)
    (hreached : ∀ v g, w.reached v g = true ↔ v = g) (hfree : ∀ a b, w.valid (PathR2.connect a b) = true)
    (L : NearestLaws w.knn (fun v p : Pt => (v.x - p.x) ^ 2 + (v.y - p.y) ^ 2))
    (hone : ∀ pts v p, p ∈ w.knn.knn pts v 1 → w.knn.nearest pts v = some p) (space : SpaceR2)
    (s : RRTPlanner Pt ℝ) (ht : TreeReachable w.knn s.tree)
    (h0 : 0 < s.params.goalBias) (h1 : s.params.goalBias < 1)
    (hd : euclid s.init s.goal ≤ s.params.maxConnectionDistance) (m : Pt)
    (hmx : space.lb.x < m.x ∧ m.x < space.ub.x) (hmy : space.lb.y < m.y ∧ m.y < space.ub.y)
    (hm1 : euclid s.init m < s.params.maxConnectionDistance) (hm2 : euclid m s.goal < euclid s.init s.goal)
    (hm3 : euclid s.init s.goal < euclid s.init m + euclid m s.goal) :
    ∃ (p : ENNReal) (longer : ℝ), 0 < p ∧ euclid s.init s.goal < longer ∧ ∀ iterations nodes, 1 ≤ iterations → 2 ≤ nodes →
      p ≤ μ {ω | ∃ s' path, (withLimits s iterations nodes).searchStarR2 w logNeighbours space (fun n => U n ω) = some (true, s') ∧
        s'.getPath = some path ∧ longer ≤ routeLength r2Steering path} := by
  obtain ⟨D, hD⟩ : ∃ D, D = euclid s.init s.goal := ⟨_, rfl⟩
  obtain ⟨l, hl⟩ : ∃ l, l = (D + (euclid s.init m + euclid m s.goal)) / 2 := ⟨_, rfl⟩
  rw [← hD] at hd hm2 hm3 ⊢
  obtain ⟨A, hA⟩ : ∃ A : Set (ℝ × ℝ), A = {q | euclid s.init ⟨q.1, q.2⟩ < s.params.maxConnectionDistance ∧
    euclid ⟨q.1, q.2⟩ s.goal < D ∧ l < euclid s.init ⟨q.1, q.2⟩ + euclid ⟨q.1, q.2⟩ s.goal} := ⟨_, rfl⟩
  have hAo : IsOpen A := by
    rw [hA]
    exact (isOpen_lt (euclid_continuous _) continuous_const).inter ((isOpen_lt (euclid_continuous' _) continuous_const).inter
      (isOpen_lt continuous_const ((euclid_continuous _).add (euclid_continuous' _))))
  have hmA : (m.x, m.y) ∈ A := by
    rw [hA]
    exact ⟨hm1, hm2, show l < euclid s.init m + euclid m s.goal by linarith⟩
  obtain ⟨hind, hlaw⟩ := C114_draws hU s space (hmx.1.trans hmx.2) (hmy.1.trans hmy.2) h0.le h1.le
  have hmeas : ∀ i, AEMeasurable (fun ω => drawn s space (fun n => U n ω) i) μ := by
    intro i
    by_contra hcon
    have h2 := hlaw i
    rw [Measure.map_of_not_aemeasurable hcon] at h2
    have h3 := congrArg (fun ν : Measure (ℝ × ℝ) => ν {(s.goal.x, s.goal.y)}) h2
    simp only [drawLaw, Measure.coe_zero, Pi.zero_apply, Measure.add_apply, Measure.smul_apply] at h3
    have h4 := (add_eq_zero.mp h3.symm).1
    simp at h4
    linarith
  have hA0 : 0 < μ.map (fun ω => drawn s space (fun n => U n ω) 0) A := by
    rw [hlaw, drawLaw, Measure.add_apply, Measure.smul_apply, Measure.smul_apply]
    refine lt_of_lt_of_le ?_ le_add_self
    exact ENNReal.mul_pos (by simpa using h1) (uniform_pos hAo hmA hmx hmy).ne'
  have hG : 0 < μ.map (fun ω => drawn s space (fun n => U n ω) 1) {(s.goal.x, s.goal.y)} := by
    rw [hlaw, drawLaw, Measure.add_apply, Measure.smul_apply]
    refine lt_of_lt_of_le ?_ le_self_add
    simpa using h0
  refine ⟨μ.map (fun ω => drawn s space (fun n => U n ω) 0) A * μ.map (fun ω => drawn s space (fun n => U n ω) 1)
    {(s.goal.x, s.goal.y)}, l, ENNReal.mul_pos hA0.ne' hG.ne', by linarith, fun i n hi hn => ?_⟩
  have hboth := (hind.indepFun (show (0 : Nat) ≠ 1 by decide)).measure_inter_preimage_eq_mul A {(s.goal.x, s.goal.y)}
    hAo.measurableSet (measurableSet_singleton _)
  rw [Measure.map_apply_of_aemeasurable (hmeas 0) hAo.measurableSet,
    Measure.map_apply_of_aemeasurable (hmeas 1) (measurableSet_singleton _), ← hboth]
  refine measure_mono fun ω hω => ?_
  obtain ⟨hω0, hω1⟩ := hω
  rw [Set.mem_preimage, hA] at hω0
  obtain ⟨a1, a2, a3⟩ := hω0
  have hω1' : drawn s space (fun n => U n ω) 1 = (s.goal.x, s.goal.y) := hω1
  obtain ⟨x, hx⟩ : ∃ x : Pt, x = s.draw (streamCoin s.params.goalBias (fun n => U n ω))
    (streamUniform space s.params.goalBias (fun n => U n ω)) 0 := ⟨_, rfl⟩
  have hxd : (⟨(drawn s space (fun n => U n ω) 0).1, (drawn s space (fun n => U n ω) 0).2⟩ : Pt) = x := by rw [hx]; rfl
  rw [hxd] at a1 a2 a3
  have hg : s.draw (streamCoin s.params.goalBias (fun n => U n ω))
      (streamUniform space s.params.goalBias (fun n => U n ω)) 1 = s.goal := by
    have e1 := (Prod.mk.inj hω1').1
    have e2 := (Prod.mk.inj hω1').2
    exact Pt.ext e1 e2
  have hself : ∀ p : Pt, euclid p p = 0 := fun p => by simp [euclid]
  have hpos : 0 ≤ euclid s.init x := Real.sqrt_nonneg _
  have hpos2 : 0 ≤ euclid x s.goal := Real.sqrt_nonneg _
  obtain ⟨r, hr, hrs, hrp⟩ := detour ((withLimits s i n).setup w (streamCoin s.params.goalBias (fun n => U n ω))
      (streamUniform space s.params.goalBias (fun n => U n ω))) hw L logNeighbours
    (fun k hk pts v p hp => hone pts v p (by rw [logNeighbours_small hk] at hp; exact hp)) hfree s.init s.goal x
    (fun v => hreached v s.goal) s.tree ht hx.symm hg (by show 0 < s.params.maxConnectionDistance; linarith) a1.le
    (by rw [← hD]; exact a2) (by show _ ≤ s.params.maxConnectionDistance; linarith)
    (by rintro rfl; rw [hself] at a3; linarith)
    (by rintro e; rw [e, hself, ← hD] at a3; linarith) hi hn
  refine ⟨{ withLimits s i n with tree := r.state.tree, solution := r.solution }, [s.init, x, s.goal], ?_, hrp, ?_⟩
  · have hr' : rrtStarSearchPath ((withLimits s i n).setup w (streamCoin s.params.goalBias (fun n => U n ω))
      (streamUniform space s.params.goalBias (fun n => U n ω))) logNeighbours s.tree s.init = some r := hr
    show (rrtStarSearchPath ((withLimits s i n).setup w (streamCoin s.params.goalBias (fun n => U n ω))
      (streamUniform space s.params.goalBias (fun n => U n ω))) logNeighbours s.tree s.init).map _ = _
    rw [hr', Option.map_some, hrs]
  · show l ≤ (x - s.init).norm + ((s.goal - x).norm + 0)
    rw [norm_sub_euclid, norm_sub_euclid]
    linarith

/-- C161, partial: with probability one the numbers of a stream determine a path that every search returns whose limits are
large enough. Missing: that it is the shortest, for which it would have to change as the limits grow; it is false
(`C161_stays_longer`). -/
theorem C161_settles_partial [Inhabited Pt] {Ω : Type} [MeasurableSpace Ω] {μ : Measure Ω} {U : Nat → Ω → ℝ}
    (hU : UniformStream μ U) (w : RRTWorld Pt PathR2 ℝ) (hw : w.steering = r2Steering) (hreached : ∀ g, w.reached g g = true)
    (L : NearestLaws w.knn (fun v p : Pt => (v.x - p.x) ^ 2 + (v.y - p.y) ^ 2)) (nn : Nat → Nat) (space : SpaceR2)
    (hx : space.lb.x < space.ub.x) (hy : space.lb.y < space.ub.y) (s : RRTPlanner Pt ℝ) (ht : TreeReachable w.knn s.tree)
    (hd : 0 < s.params.maxConnectionDistance) (h0 : 0 < s.params.goalBias) (h1 : s.params.goalBias < 1)
    (c : ℝ) (hc : 0 < c) (γ : ℝ → Pt) (hγ : ClearCurve space w.valid c s.init s.goal γ) :
    ∀ᵐ ω ∂μ, ∃ limit path, ∀ iterations nodes, limit ≤ iterations → limit ≤ nodes →
      ∃ s', (withLimits s iterations nodes).searchStarR2 w nn space (fun n => U n ω) = some (true, s') ∧ s'.getPath = path := by
  filter_upwards [C113_almost_surely hU w hw hreached L nn space hx hy s ht hd h0 h1 c hc γ hγ] with ω ⟨limit, h⟩
  obtain ⟨-, s₁, h₁⟩ := h limit limit (le_refl _) (le_refl _)
  refine ⟨limit, s₁.getPath, fun i n hi hn => ?_⟩
  obtain ⟨-, s₂, h₂⟩ := h i n hi hn
  exact ⟨s₂, h₂, C160_rrtStar_same_path w nn s s₂ s₁ _ _ i n limit limit h₂ h₁⟩

/-! ## Example -/

/-- An empty plane with a planner that may go from the start to the goal at once. -/
noncomputable def exEmptyWorld : RRTWorld Pt PathR2 ℝ where
  steering := r2Steering
  valid _ := true
  knn := r2KNN
  reached a b := open Classical in decide (a = b)

noncomputable def exEmptyPlanner [Inhabited Pt] : RRTPlanner Pt ℝ := ⟨⟨100, 100, 5, 1 / 20⟩, ⟨0, 0⟩, ⟨4, 0⟩, Tree.new, none⟩

omit [DecidableEq Pt] in
private theorem e1 : euclid ⟨0, 0⟩ ⟨4, 0⟩ = 4 := by
  unfold euclid
  rw [show ((0 : ℝ) - 4) ^ 2 + (0 - 0) ^ 2 = 4 ^ 2 by norm_num]
  exact Real.sqrt_sq (by norm_num)

omit [DecidableEq Pt] in
private theorem e2 : euclid ⟨0, 0⟩ ⟨2, 3 / 2⟩ = 5 / 2 := by
  unfold euclid
  rw [show ((0 : ℝ) - 2) ^ 2 + (0 - 3 / 2) ^ 2 = (5 / 2) ^ 2 by norm_num]
  exact Real.sqrt_sq (by norm_num)

omit [DecidableEq Pt] in
private theorem e3 : euclid ⟨2, 3 / 2⟩ ⟨4, 0⟩ = 5 / 2 := by
  unfold euclid
  rw [show ((2 : ℝ) - 4) ^ 2 + (3 / 2 - 0) ^ 2 = (5 / 2) ^ 2 by norm_num]
  exact Real.sqrt_sq (by norm_num)

/-- When RRT* draws (2, 3/2) and then the goal, it returns the detour through this point, whatever its limits. -/
example [Inhabited Pt] (n : Nat) (hn : 100 ≤ n) : ∃ s', (withLimits exEmptyPlanner n n).searchStar exEmptyWorld logNeighbours
    (fun i => if i = 0 then 1 else 0) (fun _ => ⟨2, 3 / 2⟩) = some (true, s') ∧
    s'.getPath = some [⟨0, 0⟩, ⟨2, 3 / 2⟩, ⟨4, 0⟩] := by
  obtain ⟨r, hr, hrs, hrp⟩ := detour (exEmptyPlanner.setup exEmptyWorld (fun i => if i = 0 then 1 else 0)
      (fun _ => ⟨2, 3 / 2⟩)) rfl r2KNN_laws logNeighbours (fun k hk pts v p h => Option.mem_toList.mp h) (fun _ _ => rfl)
    ⟨0, 0⟩ ⟨4, 0⟩ ⟨2, 3 / 2⟩ (fun v => by simp [exEmptyWorld, exEmptyPlanner, setup]) Tree.new .start
    (by norm_num [setup, draw, exEmptyPlanner]) (by norm_num [setup, draw, exEmptyPlanner])
    (by norm_num [setup, exEmptyPlanner]) (by show _ ≤ (5 : ℝ); rw [e2]; norm_num) (by rw [e1, e3]; norm_num)
    (by show _ ≤ (5 : ℝ); rw [e3]; norm_num) (by simp) (by simp) (by norm_num [setup, exEmptyPlanner])
    (by norm_num [setup, exEmptyPlanner])
  have h : exEmptyPlanner.searchStar exEmptyWorld logNeighbours (fun i => if i = 0 then 1 else 0) (fun _ => ⟨2, 3 / 2⟩) =
      some (true, { exEmptyPlanner with tree := r.state.tree, solution := r.solution }) := by
    show (rrtStarSearchPath (exEmptyPlanner.setup exEmptyWorld (fun i => if i = 0 then 1 else 0)
      (fun _ => ⟨2, 3 / 2⟩)) logNeighbours Tree.new ⟨0, 0⟩).map _ = _
    rw [hr, Option.map_some, hrs]
  exact ⟨_, C160_rrtStar exEmptyWorld logNeighbours _ _ _ _ h n n hn hn, hrp⟩

/-- From (0, 0) to (4, 0), where the straight path has length 4, RRT* returns a longer path with positive probability, whatever
its limits: it may pass beside the line, near (2, 3/2). -/
example [Inhabited Pt] : ∃ (p : ENNReal) (longer : ℝ), 0 < p ∧ 4 < longer ∧ ∀ n, 2 ≤ n →
    p ≤ (Measure.infinitePi fun _ : Nat => (volume.restrict (Set.Icc (0 : ℝ) 1) : Measure ℝ))
      {u | ∃ s' path, (withLimits exEmptyPlanner n n).searchStarR2 exEmptyWorld logNeighbours ⟨⟨-3, -3⟩, ⟨5, 3⟩⟩ u = some (true, s') ∧
        s'.getPath = some path ∧ longer ≤ routeLength r2Steering path} := by
  obtain ⟨p, l, hp, hl, h⟩ := C161_stays_longer uniformStream_infinitePi exEmptyWorld rfl
    (fun v g => by simp [exEmptyWorld]) (fun _ _ => rfl) r2KNN_laws
    (fun pts v p h => Option.mem_toList.mp h) ⟨⟨-3, -3⟩, ⟨5, 3⟩⟩ exEmptyPlanner .start
    (by norm_num [exEmptyPlanner]) (by norm_num [exEmptyPlanner])
    (by show euclid ⟨0, 0⟩ ⟨4, 0⟩ ≤ 5; rw [e1]; norm_num) ⟨2, 3 / 2⟩ (by norm_num) (by norm_num)
    (by show euclid ⟨0, 0⟩ ⟨2, 3 / 2⟩ < 5; rw [e2]; norm_num)
    (by show euclid ⟨2, 3 / 2⟩ ⟨4, 0⟩ < euclid ⟨0, 0⟩ ⟨4, 0⟩; rw [e1, e3]; norm_num)
    (by show euclid ⟨0, 0⟩ ⟨4, 0⟩ < euclid ⟨0, 0⟩ ⟨2, 3 / 2⟩ + euclid ⟨2, 3 / 2⟩ ⟨4, 0⟩; rw [e1, e2, e3]; norm_num)
  refine ⟨p, l, hp, ?_, fun n hn => h n n (by omega) hn⟩
  have : euclid ⟨0, 0⟩ ⟨4, 0⟩ < l := hl
  rwa [e1] at this

end Plane
end PathPlanning
