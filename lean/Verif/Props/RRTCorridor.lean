import Verif.Props.RRTOpen
import Verif.Props.ValidatorMore

/-!
# C113: RRT and RRT* follow a corridor whose places are drawn in order
-/

namespace PathPlanning
open Spec Tree Real Validator

/-- A sequence of places `w 0, …, w k` that the planner can follow: `e` is how near a place must be reached, `d` the
longest motion. From one place to the next it is not too far, and the validator accepts all straight motions around the
next place. -/
structure Spec.Corridor (valid : PathR2 → Bool) (d e : ℝ) (w : Nat → Pt) (k : Nat) : Prop where
  near : ∀ i < k, euclid (w i) (w (i + 1)) + 2 * e ≤ d
  free : ∀ i < k, ∀ a b, euclid a (w (i + 1)) ≤ euclid (w i) (w (i + 1)) + 3 * e →
    euclid b (w (i + 1)) ≤ euclid (w i) (w (i + 1)) + 3 * e → valid (PathR2.connect a b) = true

/-- The samples visit the places `w 1, …, w k` in this order, in the iterations `visit 0 < … < visit (k - 1)`. -/
structure Spec.Visits (sample : Nat → Pt) (e : ℝ) (w : Nat → Pt) (k : Nat) (visit : Nat → Nat) : Prop where
  order : ∀ i, i + 1 < k → visit i < visit (i + 1)
  hit : ∀ i < k, euclid (sample (visit i)) (w (i + 1)) ≤ e

private theorem euc_comm (p q : Pt) : euclid p q = euclid q p := by
  unfold euclid; congr 1; ring

private theorem euc_nonneg (p q : Pt) : 0 ≤ euclid p q := Real.sqrt_nonneg _

theorem norm_sub_euclid (p q : Pt) : (p - q).norm = euclid q p := by
  unfold euclid Pt.norm
  congr 1
  simp only [Pt.sub_x, Pt.sub_y]
  ring

/-- When a place is drawn next, the motion arrives there and is accepted. -/
theorem corridor_step [DecidableEq Pt] (s : RRTSetup Pt PathR2 ℝ) (hst : s.steering = r2Steering)
    (L : NearestLaws s.knn (fun v p : Pt => (v.x - p.x) ^ 2 + (v.y - p.y) ^ 2))
    {e : ℝ} (he : 0 ≤ e) (hd : 0 < s.maxConnectionDistance) {w : Nat → Pt} {k : Nat}
    (C : Corridor s.valid s.maxConnectionDistance e w k) {j : Nat} (hj : j < k) {x : Pt} (hx : euclid x (w (j + 1)) ≤ e)
    {init : Pt} {t : Tree Pt} (I : OInv (fun _ => True) init (w j) e t) {n : Nat} (hn : t.getNearestNode s.knn x = some n) :
    s.valid (s.steering.steerTowards (t.state n) x s.maxConnectionDistance) = true ∧
    s.steering.final (s.steering.steerTowards (t.state n) x s.maxConnectionDistance) = x := by
  obtain ⟨-, -, hmin⟩ := (nearestNode_spec L I.r.inv x).2 n hn
  obtain ⟨q, hq, hqe⟩ := I.near
  have h1 : (x - t.state n).norm ≤ (x - t.state q).norm := Real.sqrt_le_sqrt (hmin q hq)
  rw [norm_sub_euclid] at hqe
  rw [norm_sub_euclid, norm_sub_euclid] at h1
  have h2 : euclid (t.state q) x ≤ euclid (w j) (w (j + 1)) + 2 * e := by
    have a1 := euclid_triangle (t.state q) (w j) x
    have a2 := euclid_triangle (w j) (w (j + 1)) x
    rw [euc_comm x] at hx
    linarith
  have h3 := (steer_progress (t.state n) x s.maxConnectionDistance hd).1 (by
    rw [norm_sub_euclid]; have := C.near j hj; linarith)
  obtain ⟨-, -, -, -, h4⟩ := steer_ratio (t.state n) x s.maxConnectionDistance hd.le
  rw [hst]
  refine ⟨?_, h3⟩
  rw [h4, h3]
  refine C.free j hj _ _ ?_ ?_
  · have := euclid_triangle (t.state n) x (w (j + 1))
    linarith
  · have := euc_nonneg (w j) (w (j + 1))
    linarith

private theorem corridor_keep [DecidableEq Pt] {init p q : Pt} {B : ℝ} {t : Tree Pt} (I : OInv (fun _ => True) init p B t) :
    ∃ B', OInv (fun _ => True) init q B' t := by
  obtain ⟨x, hx, -⟩ := I.near
  exact ⟨_, I.r, I.free, x, hx, le_refl _⟩

theorem Spec.Visits.le_last {sample : Nat → Pt} {e : ℝ} {w : Nat → Pt} {k : Nat} {visit : Nat → Nat}
    (V : Visits sample e w k visit) : ∀ (m j : Nat), j + m + 1 = k → visit j ≤ visit (k - 1) := by
  intro m
  induction m with
  | zero => intro j h; rw [show k - 1 = j by omega]
  | succ m ih =>
    intro j h
    have h1 := V.order j (by omega)
    have h2 := ih (j + 1) (by omega)
    omega

private theorem rrt_corridor_aux [DecidableEq Pt] (s : RRTSetup Pt PathR2 ℝ) (hst : s.steering = r2Steering)
    (hd : 0 < s.maxConnectionDistance)
    (L : NearestLaws s.knn (fun v p : Pt => (v.x - p.x) ^ 2 + (v.y - p.y) ^ 2))
    {e : ℝ} (he : 0 ≤ e) {w : Nat → Pt} {k : Nat} (C : Corridor s.valid s.maxConnectionDistance e w k)
    {visit : Nat → Nat} (V : Visits s.sample e w k visit) (init : Pt)
    (hsol : s.isSolution (s.sample (visit (k - 1))) = true)
    (hm1 : visit (k - 1) ≤ s.maxIteration) (hm2 : visit (k - 1) < s.maxNumberTreeNode) :
    ∀ (g count j : Nat) (t : Tree Pt), g = s.maxIteration + 1 - count → count ≤ visit j → j < k → t.size ≤ count + 1 →
      OInv (fun _ => True) init (w j) e t →
      ∃ r, rrtLoop s count t = some r ∧ r.success = true ∧ r.samples ≤ visit (k - 1) + 1 := by
  intro g
  induction g with
  | zero => intro count j t hg hc hj _ _; have := V.le_last (k - 1 - j) j (by omega); omega
  | succ g ih =>
    intro count j t hg hc hj hsz I
    have hvk := V.le_last (k - 1 - j) j (by omega)
    obtain ⟨r, hr, -⟩ := I.r.root
    obtain ⟨n, hn⟩ := (nearestNode_spec L I.r.inv (s.sample count)).1 (by rw [hr]; simp)
    obtain ⟨ha, -, -⟩ := (nearestNode_spec L I.r.inv (s.sample count)).2 n hn
    rw [rrtLoop, if_neg (by omega), if_neg (by omega), hn]
    dsimp only
    rcases Nat.lt_or_eq_of_le hc with hlt | heq
    · cases hv : s.valid (s.steering.steerTowards (t.state n) (s.sample count) s.maxConnectionDistance) with
      | false =>
        simp only [Bool.not_false, if_true]
        exact ih (count + 1) j t (by omega) (by omega) hj (by omega) I
      | true =>
        simp only [Bool.not_true, Bool.false_eq_true, if_false]
        obtain ⟨t', n', ht, I', hsz'⟩ := oinv_extend L I
          (v := s.steering.final (s.steering.steerTowards (t.state n) (s.sample count) s.maxConnectionDistance))
          (src := some n) (fun x hx => by cases hx; exact ha) trivial (Or.inl (le_refl _))
        rw [ht]
        dsimp only
        split
        · exact ⟨_, rfl, rfl, by dsimp only; omega⟩
        · exact ih (count + 1) j t' (by omega) (by omega) hj (by omega) I'
    · obtain ⟨h1, h2⟩ := corridor_step s hst L he hd C hj (x := s.sample count) (by rw [heq]; exact V.hit j hj) I hn
      rw [h1, h2]
      simp only [Bool.not_true, Bool.false_eq_true, if_false]
      obtain ⟨B, I2⟩ := corridor_keep (q := w (j + 1)) I
      obtain ⟨t', n', ht, I', hsz'⟩ := oinv_extend L I2 (v := s.sample count) (src := some n)
        (fun x hx => by cases hx; exact ha) trivial (B' := e) (Or.inr (by
          rw [norm_sub_euclid, heq]; exact V.hit j hj))
      rw [ht]
      dsimp only
      split
      · exact ⟨_, rfl, rfl, by dsimp only; omega⟩
      · rename_i hns
        have hj1 : j + 1 < k := by
          by_contra hcon
          rw [show k - 1 = j by omega, ← heq] at hsol
          exact hns hsol
        have ho := V.order j hj1
        exact ih (count + 1) (j + 1) t' (by omega) (by omega) hj1 (by omega) I'

private theorem star_corridor_aux [DecidableEq Pt] (s : RRTSetup Pt PathR2 ℝ) (nn : Nat → Nat)
    (hst : s.steering = r2Steering) (hd : 0 < s.maxConnectionDistance)
    (L : NearestLaws s.knn (fun v p : Pt => (v.x - p.x) ^ 2 + (v.y - p.y) ^ 2))
    {e : ℝ} (he : 0 ≤ e) {w : Nat → Pt} {k : Nat} (C : Corridor s.valid s.maxConnectionDistance e w k)
    {visit : Nat → Nat} (V : Visits s.sample e w k visit) (init : Pt)
    (hsol : s.isSolution (s.sample (visit (k - 1))) = true)
    (hm1 : visit (k - 1) ≤ s.maxIteration) (hm2 : visit (k - 1) < s.maxNumberTreeNode) :
    ∀ (g count j : Nat) (st : RRTStarState Pt ℝ), g = s.maxIteration + 1 - count → count ≤ visit j → j < k →
      st.tree.size ≤ count + 1 → OInv (fun _ => True) init (w j) e st.tree →
      ∃ r, rrtStarLoop s nn count st = some r ∧ r.success = true ∧ r.samples ≤ visit (k - 1) + 1 := by
  intro g
  induction g with
  | zero => intro count j t hg hc hj _ _; have := V.le_last (k - 1 - j) j (by omega); omega
  | succ g ih =>
    intro count j st hg hc hj hsz I
    have hvk := V.le_last (k - 1 - j) j (by omega)
    obtain ⟨r, hr, -⟩ := I.r.root
    obtain ⟨n, hn⟩ := (nearestNode_spec L I.r.inv (s.sample count)).1 (by rw [hr]; simp)
    obtain ⟨ha, -, -⟩ := (nearestNode_spec L I.r.inv (s.sample count)).2 n hn
    rw [rrtStarLoop, if_neg (by omega), if_neg (by omega)]
    unfold rrtStarStep
    rw [hn]
    dsimp only
    have hsrc : ∀ v x, (bestParent s st v (st.tree.getNearestNodes s.knn v (nn st.tree.size))).1 = some x →
        st.tree.heap.alive x := by
      intro v x hx
      obtain ⟨u, -, hu⟩ := List.mem_filterMap.mp (bestParent_mem s st v _ x hx)
      exact (I.r.inv.find_some.mp hu).1
    rcases Nat.lt_or_eq_of_le hc with hlt | heq
    · cases hv : s.valid (s.steering.steerTowards (st.tree.state n) (s.sample count) s.maxConnectionDistance) with
      | false =>
        simp only [Bool.not_false, if_true]
        exact ih (count + 1) j st (by omega) (by omega) hj (by omega) I
      | true =>
        simp only [Bool.not_true, Bool.false_eq_true, if_false]
        obtain ⟨v, hvv⟩ : ∃ v, v = s.steering.final (s.steering.steerTowards (st.tree.state n) (s.sample count)
          s.maxConnectionDistance) := ⟨_, rfl⟩
        rw [← hvv]
        obtain ⟨t', n', ht, I', hsz'⟩ := oinv_extend L I (v := v)
          (src := (bestParent s st v (st.tree.getNearestNodes s.knn v (nn st.tree.size))).1) (hsrc v) trivial
          (Or.inl (le_refl _))
        rw [ht]
        dsimp only
        split
        · exact ⟨_, rfl, rfl, by dsimp only; omega⟩
        · exact ih (count + 1) j _ (by omega) (by omega) hj (by dsimp only; omega) I'
    · obtain ⟨h1, h2⟩ := corridor_step s hst L he hd C hj (x := s.sample count) (by rw [heq]; exact V.hit j hj) I hn
      rw [h1, h2]
      simp only [Bool.not_true, Bool.false_eq_true, if_false]
      obtain ⟨B, I2⟩ := corridor_keep (q := w (j + 1)) I
      obtain ⟨t', n', ht, I', hsz'⟩ := oinv_extend L I2 (v := s.sample count)
        (src := (bestParent s st (s.sample count) (st.tree.getNearestNodes s.knn (s.sample count) (nn st.tree.size))).1)
        (hsrc _) trivial (B' := e) (Or.inr (by rw [norm_sub_euclid, heq]; exact V.hit j hj))
      rw [ht]
      dsimp only
      split
      · exact ⟨_, rfl, rfl, by dsimp only; omega⟩
      · rename_i hns
        have hj1 : j + 1 < k := by
          by_contra hcon
          rw [show k - 1 = j by omega, ← heq] at hsol
          exact hns hsol
        have ho := V.order j hj1
        exact ih (count + 1) (j + 1) _ (by omega) (by omega) hj1 (by dsimp only; omega) I'

/-- C113 for RRT: if the samples visit the places of a corridor that begins at the start, in their order and within the
limits of the parameters, and the last of these samples is a solution, the search succeeds, whatever the other samples are
and whatever tree they have grown. -/
theorem C113_corridor_rrt [DecidableEq Pt] [Inhabited Pt] (s : RRTSetup Pt PathR2 ℝ) (hst : s.steering = r2Steering)
    (hd : 0 < s.maxConnectionDistance)
    (L : NearestLaws s.knn (fun v p : Pt => (v.x - p.x) ^ 2 + (v.y - p.y) ^ 2))
    (t : Tree Pt) (ht : TreeReachable s.knn t) (e : ℝ) (he : 0 ≤ e) (w : Nat → Pt) (k : Nat) (hk : 0 < k)
    (C : Corridor s.valid s.maxConnectionDistance e w k) (visit : Nat → Nat) (V : Visits s.sample e w k visit)
    (hsol : s.isSolution (s.sample (visit (k - 1))) = true)
    (hm1 : visit (k - 1) ≤ s.maxIteration) (hm2 : visit (k - 1) < s.maxNumberTreeNode) :
    ∃ r, rrtSearchPath s t (w 0) = some r ∧ r.success = true ∧ r.samples ≤ visit (k - 1) + 1 := by
  have I := treeInv_reachable L ht
  refine rrt_corridor_aux s hst hd L he C V (w 0) hsol hm1 hm2 _ 0 0 _ rfl (Nat.zero_le _) hk ?_ ?_
  · rw [(rinv_start I (fun _ _ => True) (w 0)).2.1]
  · have h := oinv_start I (fun _ => True) (w 0) (w 0) trivial
    refine ⟨h.r, h.free, ?_⟩
    obtain ⟨x, hx, hle⟩ := h.near
    refine ⟨x, hx, le_trans hle ?_⟩
    simpa [Pt.norm] using he

/-- C113 for RRT*. -/
theorem C113_corridor_rrtStar [DecidableEq Pt] [Inhabited Pt] (s : RRTSetup Pt PathR2 ℝ) (hst : s.steering = r2Steering)
    (hd : 0 < s.maxConnectionDistance)
    (L : NearestLaws s.knn (fun v p : Pt => (v.x - p.x) ^ 2 + (v.y - p.y) ^ 2)) (nn : Nat → Nat)
    (t : Tree Pt) (ht : TreeReachable s.knn t) (e : ℝ) (he : 0 ≤ e) (w : Nat → Pt) (k : Nat) (hk : 0 < k)
    (C : Corridor s.valid s.maxConnectionDistance e w k) (visit : Nat → Nat) (V : Visits s.sample e w k visit)
    (hsol : s.isSolution (s.sample (visit (k - 1))) = true)
    (hm1 : visit (k - 1) ≤ s.maxIteration) (hm2 : visit (k - 1) < s.maxNumberTreeNode) :
    ∃ r, rrtStarSearchPath s nn t (w 0) = some r ∧ r.success = true ∧ r.samples ≤ visit (k - 1) + 1 := by
  have I := treeInv_reachable L ht
  refine star_corridor_aux s nn hst hd L he C V (w 0) hsol hm1 hm2 _ 0 0 _ rfl (Nat.zero_le _) hk ?_ ?_
  · dsimp only
    rw [(rinv_start I (fun _ _ => True) (w 0)).2.1]
  · have h := oinv_start I (fun _ => True) (w 0) (w 0) trivial
    refine ⟨h.r, h.free, ?_⟩
    obtain ⟨x, hx, hle⟩ := h.near
    refine ⟨x, hx, le_trans hle ?_⟩
    simpa [Pt.norm] using he

end PathPlanning
