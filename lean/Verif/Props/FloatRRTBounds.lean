import Verif.Props.FloatRRT

/-!
# C140: how far RRT and RRT* leave the bounds of the state space with the arithmetic of the program
-/

namespace PathPlanning
open Spec Tree Flt ObstHeuristic
variable {V P : Type} [DecidableEq V]

private theorem rinv_mono {E E' : V → V → Prop} {init : V} {t : Tree V} (R : RInv E init t) (h : ∀ a b, E a b → E' a b) :
    RInv E' init t := ⟨R.inv, R.root, fun n p hn hp => h _ _ (R.edge n p hn hp)⟩

private theorem free_of_rinv {F : V → Prop} {init : V} (hi : F init) {t : Tree V} (R : RInv (fun _ b => F b) init t) (x : Nat)
    (hx : t.heap.alive x) : F (t.state x) := by
  cases hp : t.heap.parent x with
  | some p => exact R.edge x p hx hp
  | none =>
    obtain ⟨r, hr, hri⟩ := R.root
    have := (R.inv.root_iff x).mpr ⟨hx, hp⟩
    rw [hr] at this; cases this
    rw [hri]; exact hi

private theorem rrtLoop_free {D : Type} [LE D] {dist : V → V → D} (s : RRTSetup V P ℝ) (L : NearestLaws s.knn dist)
    (F : Nat → V → Prop) (hm : ∀ i a, F i a → F (i + 1) a) (init : V) (hi : ∀ i, F i init)
    (hF : ∀ a i, i ≤ s.maxIteration → F i a → F (i + 1) (s.steering.final (s.steering.steerTowards a (s.sample i) s.maxConnectionDistance))) :
    ∀ (k count : Nat) (t : Tree V) (r : RRTResult V), s.maxIteration + 1 - count = k →
    count ≤ s.maxIteration + 1 → RInv (fun _ b => F count b) init t → rrtLoop s count t = some r →
    r.samples ≤ s.maxIteration + 1 ∧ RInv (fun _ b => F r.samples b) init r.tree ∧ (r.success = true → ∃ n, r.solution = some n ∧ r.tree.heap.alive n) := by
  intro k
  induction k with
  | zero =>
    intro count t r hk hc R h
    rw [rrtLoop, if_pos (by omega)] at h
    cases h; exact ⟨hc, R, by simp⟩
  | succ k ih =>
    intro count t r hk hc R h
    rw [rrtLoop, if_neg (by omega)] at h
    split at h
    · cases h; exact ⟨hc, R, by simp⟩
    · cases hn : t.getNearestNode s.knn (s.sample count) with
      | none => rw [hn] at h; exact ih _ _ _ (by omega) (by omega) (rinv_mono R fun _ b => hm _ b) h
      | some n =>
        rw [hn] at h
        dsimp only at h
        split at h
        · exact ih _ _ _ (by omega) (by omega) (rinv_mono R fun _ b => hm _ b) h
        · have ha := ((nearestNode_spec L R.inv _).2 n hn).1
          obtain ⟨t', m, he, R', hma, -⟩ := rinv_extend L (rinv_mono R fun _ b => hm _ b)
            (v := s.steering.final (s.steering.steerTowards (t.state n) (s.sample count) s.maxConnectionDistance))
            (src := some n) (fun x hx => by cases hx; exact ha)
            (fun _ _ _ _ => hF _ _ (by omega) (free_of_rinv (hi _) R n ha))
          rw [he] at h
          dsimp only at h
          split at h
          · cases h; exact ⟨by dsimp only; omega, R', fun _ => ⟨m, rfl, hma⟩⟩
          · exact ih _ _ _ (by omega) (by omega) R' h

private theorem starLoop_free {D : Type} [LE D] {dist : V → V → D} (s : RRTSetup V P ℝ) (L : NearestLaws s.knn dist)
    (nn : Nat → Nat) (F : Nat → V → Prop) (hm : ∀ i a, F i a → F (i + 1) a) (init : V) (hi : ∀ i, F i init)
    (hF : ∀ a i, i ≤ s.maxIteration → F i a → F (i + 1) (s.steering.final (s.steering.steerTowards a (s.sample i) s.maxConnectionDistance))) :
    ∀ (k count : Nat) (st : RRTStarState V ℝ) (r : RRTStarResult V ℝ), s.maxIteration + 1 - count = k →
    count ≤ s.maxIteration + 1 → RInv (fun _ b => F count b) init st.tree → rrtStarLoopF s nn count st = some r →
    r.samples ≤ s.maxIteration + 1 ∧ RInv (fun _ b => F r.samples b) init r.state.tree ∧
      (r.success = true → ∃ n, r.solution = some n ∧ r.state.tree.heap.alive n) := by
  intro k
  induction k with
  | zero =>
    intro count t r hk hc R h
    rw [rrtStarLoopF, if_pos (by omega)] at h
    cases h; exact ⟨hc, R, by simp⟩
  | succ k ih =>
    intro count st r hk hc R h
    rw [rrtStarLoopF, if_neg (by omega)] at h
    split at h
    · cases h; exact ⟨hc, R, by simp⟩
    · unfold rrtStarStepF at h
      cases hn : st.tree.getNearestNode s.knn (s.sample count) with
      | none => rw [hn] at h; exact ih _ _ _ (by omega) (by omega) (rinv_mono R fun _ b => hm _ b) h
      | some n =>
        rw [hn] at h
        dsimp only at h
        cases hv : s.valid (s.steering.steerTowards (st.tree.state n) (s.sample count) s.maxConnectionDistance) with
        | false =>
          simp only [hv, Bool.not_false, if_true] at h
          exact ih _ _ _ (by omega) (by omega) (rinv_mono R fun _ b => hm _ b) h
        | true =>
          simp only [hv, Bool.not_true, Bool.false_eq_true, if_false] at h
          have ha := ((nearestNode_spec L R.inv _).2 n hn).1
          obtain ⟨v, hvv⟩ : ∃ v, v = s.steering.final (s.steering.steerTowards (st.tree.state n) (s.sample count)
            s.maxConnectionDistance) := ⟨_, rfl⟩
          rw [← hvv] at h
          obtain ⟨best, hb⟩ : ∃ b, b = bestParentF s st v (st.tree.getNearestNodes s.knn v (nn st.tree.size)) := ⟨_, rfl⟩
          rw [← hb] at h
          obtain ⟨t', m, he, R', hma, -⟩ := rinv_extend L (rinv_mono R fun _ b => hm _ b) (v := v) (src := best.1) (fun x hx => by
              rw [hb] at hx
              obtain ⟨u, -, hu⟩ := List.mem_filterMap.mp (bestParentF_mem s st v _ x hx)
              exact (R.inv.find_some.mp hu).1)
            (fun _ _ _ _ => by rw [hvv]; exact hF _ _ (by omega) (free_of_rinv (hi _) R n ha))
          rw [he] at h
          dsimp only at h
          split at h
          · cases h; exact ⟨by dsimp only; omega, R', fun _ => ⟨m, rfl, hma⟩⟩
          · exact ih _ _ _ (by omega) (by omega) R' h

private theorem chain_free {F : V → Prop} {l : List V} {init : V} (hi : F init) (hh : l.head? = some init)
    (hc : l.IsChain fun _ b => F b) : ∀ v ∈ l, F v := by
  induction l generalizing init with
  | nil => simp
  | cons a l ih =>
    intro v hv
    have ha : a = init := by simpa using hh
    rcases List.mem_cons.mp hv with rfl | hv
    · rw [ha]; exact hi
    · cases l with
      | nil => cases hv
      | cons b l =>
        obtain ⟨h1, h2⟩ := List.isChain_cons_cons.mp hc
        exact ih h1 rfl h2 v hv

/-! ## Bounds -/

/-- `p` leaves the bounds by at most `e`. -/
def SpaceR2.Within (space : SpaceR2) (e : ℝ) (p : Pt) : Prop :=
  (space.lb.x - e ≤ p.x ∧ p.x ≤ space.ub.x + e) ∧ space.lb.y - e ≤ p.y ∧ p.y ≤ space.ub.y + e

private theorem lerp_within {lo hi M a b ρ k : ℝ} (hlo : |lo| ≤ M) (hhi : |hi| ≤ M) (hk0 : 0 ≤ k) (hk : k ≤ 2 ^ 50)
    (ha : lo - k * (M / 2 ^ 50) ≤ a ∧ a ≤ hi + k * (M / 2 ^ 50)) (hb : lo ≤ b ∧ b ≤ hi) (h0 : 0 ≤ ρ) (h1 : ρ ≤ 1) :
    lo - (k + 1) * (M / 2 ^ 50) ≤ fl64 (fl64 (fl64 (1 - ρ) * a) + fl64 (ρ * b)) ∧
      fl64 (fl64 (fl64 (1 - ρ) * a) + fl64 (ρ * b)) ≤ hi + (k + 1) * (M / 2 ^ 50) := by
  have hM : 0 ≤ M := (abs_nonneg _).trans hlo
  have hlo' := abs_le.1 hlo
  have hhi' := abs_le.1 hhi
  have he : k * (M / 2 ^ 50) ≤ M := by
    have : k * (M / 2 ^ 50) ≤ 2 ^ 50 * (M / 2 ^ 50) := mul_le_mul_of_nonneg_right hk (by positivity)
    rwa [mul_div_cancel₀ _ (by positivity)] at this
  have he0 : 0 ≤ k * (M / 2 ^ 50) := by positivity
  have h := abs_le.1 (lerpF_err (M := 2 * M) (a := a) (b := b) (by rw [abs_le]; constructor <;> linarith [ha.1, ha.2])
    (by rw [abs_le]; constructor <;> linarith [hb.1, hb.2]) h0 h1)
  have e : 2 * M / 2 ^ 51 = M / 2 ^ 50 := by ring
  rw [e] at h
  obtain ⟨ε, hε⟩ : ∃ ε, ε = k * (M / 2 ^ 50) := ⟨_, rfl⟩
  rw [← hε] at ha he0
  have hr : 0 ≤ 1 - ρ := by linarith
  have m1 := mul_le_mul_of_nonneg_left ha.1 hr
  have m2 := mul_le_mul_of_nonneg_left ha.2 hr
  have m3 := mul_le_mul_of_nonneg_left hb.1 h0
  have m4 := mul_le_mul_of_nonneg_left hb.2 h0
  have m5 := mul_nonneg h0 he0
  constructor <;> rw [add_mul, one_mul, ← hε] <;> nlinarith [h.1, h.2]

private theorem steer_within (space : SpaceR2) {M d k : ℝ} (hd : 0 ≤ d) (hM : |space.lb.x| ≤ M ∧ |space.lb.y| ≤ M ∧
    |space.ub.x| ≤ M ∧ |space.ub.y| ≤ M) (hk0 : 0 ≤ k) (hk : k ≤ 2 ^ 50) {a b : Pt}
    (ha : space.Within (k * (M / 2 ^ 50)) a) (hb : freeIsStateValid space.validateBounds b = true) :
    space.Within ((k + 1) * (M / 2 ^ 50)) (r2SteeringF.final (r2SteeringF.steerTowards a b d)) := by
  rw [C106_state_valid_iff] at hb
  obtain ⟨m1, m2, m3, m4⟩ := hM
  have hM0 : 0 ≤ M := (abs_nonneg _).trans m1
  rw [steerTowards_r2F]
  rcases steer_ratioF a b d hd with ⟨-, e⟩ | ⟨-, ρ, h0, h1, -, e, -⟩
  · rw [e]
    show space.Within _ b
    have : 0 ≤ (k + 1) * (M / 2 ^ 50) := by positivity
    exact ⟨⟨by linarith [hb.1.1], by linarith [hb.1.2]⟩, by linarith [hb.2.1], by linarith [hb.2.2]⟩
  · rw [e]
    exact ⟨lerp_within m1 m3 hk0 hk ha.1 hb.1 h0 h1, lerp_within m2 m4 hk0 hk ha.2 hb.2 h0 h1⟩

private theorem within_init (space : SpaceR2) {p : Pt} (h : freeIsStateValid space.validateBounds p = true) {e : ℝ} (he : 0 ≤ e) :
    space.Within e p := by
  rw [C106_state_valid_iff] at h
  exact ⟨⟨by linarith [h.1.1], by linarith [h.1.2]⟩, by linarith [h.2.1], by linarith [h.2.2]⟩

/-- C140 for RRT: after k iterations no state is further beyond the bounds than k 2⁻⁵⁰ of the largest bound, whatever the
validator. -/
theorem C140_rrt [DecidableEq Pt] [Inhabited Pt] (space : SpaceR2) (M : ℝ) (hM : |space.lb.x| ≤ M ∧ |space.lb.y| ≤ M ∧
    |space.ub.x| ≤ M ∧ |space.ub.y| ≤ M) {D : Type} [LE D] {dist : Pt → Pt → D} (s : RRTSetup Pt PathR2 ℝ)
    (hst : s.steering = r2SteeringF) (hd : 0 ≤ s.maxConnectionDistance) (L : NearestLaws s.knn dist)
    (t : Tree Pt) (ht : TreeReachable s.knn t) (init : Pt) (hi : freeIsStateValid space.validateBounds init = true)
    (hsample : ∀ i, freeIsStateValid space.validateBounds (s.sample i) = true) (hk : s.maxIteration ≤ 2 ^ 50)
    (r : RRTResult Pt) (h : rrtSearchPath s t init = some r) :
    (∀ n, r.tree.heap.alive n → space.Within (r.samples * (M / 2 ^ 50)) (r.tree.state n)) ∧
    (r.success = true → ∃ path, treeGetPath r.tree r.solution = some path ∧
      ∀ p ∈ path, space.Within (r.samples * (M / 2 ^ 50)) p) := by
  have hM0 : 0 ≤ M := (abs_nonneg _).trans hM.1
  have hinit : ∀ i : Nat, space.Within (i * (M / 2 ^ 50)) init := fun i => within_init space hi (by positivity)
  obtain ⟨R, -⟩ := rinv_start (treeInv_reachable L ht) (fun _ b => space.Within ((0 : ℕ) * (M / 2 ^ 50)) b) init
  obtain ⟨-, R', hsol⟩ := rrtLoop_free s L (fun i b => space.Within (i * (M / 2 ^ 50)) b)
    (fun i a ha => by
      have : (i : ℝ) * (M / 2 ^ 50) ≤ ((i + 1 : ℕ) : ℝ) * (M / 2 ^ 50) := by push_cast; gcongr; linarith
      exact ⟨⟨by linarith [ha.1.1], by linarith [ha.1.2]⟩, by linarith [ha.2.1], by linarith [ha.2.2]⟩)
    init hinit
    (fun a i hle ha => by
      rw [hst]
      have := steer_within space hd hM (Nat.cast_nonneg i)
        (show (i : ℝ) ≤ 2 ^ 50 by exact_mod_cast hle.trans hk) ha (hsample i)
      push_cast
      exact this)
    _ 0 _ r rfl (by omega) R h
  refine ⟨fun n hn => free_of_rinv (F := fun b => space.Within (r.samples * (M / 2 ^ 50)) b) (hinit _) R' n hn, fun hs => ?_⟩
  obtain ⟨n, hn, ha⟩ := hsol hs
  obtain ⟨path, h1, h2, -, h3⟩ := getPath_spec R' ha
  exact ⟨path, by rw [hn]; exact h1, chain_free (F := fun b => space.Within (r.samples * (M / 2 ^ 50)) b) (hinit _) h2 h3⟩

/-- C140 for RRT*. -/
theorem C140_rrtStar [DecidableEq Pt] [Inhabited Pt] (space : SpaceR2) (M : ℝ) (hM : |space.lb.x| ≤ M ∧ |space.lb.y| ≤ M ∧
    |space.ub.x| ≤ M ∧ |space.ub.y| ≤ M) {D : Type} [LE D] {dist : Pt → Pt → D} (s : RRTSetup Pt PathR2 ℝ)
    (hst : s.steering = r2SteeringF) (hd : 0 ≤ s.maxConnectionDistance) (L : NearestLaws s.knn dist) (nn : Nat → Nat)
    (t : Tree Pt) (ht : TreeReachable s.knn t) (init : Pt) (hi : freeIsStateValid space.validateBounds init = true)
    (hsample : ∀ i, freeIsStateValid space.validateBounds (s.sample i) = true) (hk : s.maxIteration ≤ 2 ^ 50)
    (r : RRTStarResult Pt ℝ) (h : rrtStarSearchPathF s nn t init = some r) :
    (∀ n, r.state.tree.heap.alive n → space.Within (r.samples * (M / 2 ^ 50)) (r.state.tree.state n)) ∧
    (r.success = true → ∃ path, treeGetPath r.state.tree r.solution = some path ∧
      ∀ p ∈ path, space.Within (r.samples * (M / 2 ^ 50)) p) := by
  have hM0 : 0 ≤ M := (abs_nonneg _).trans hM.1
  have hinit : ∀ i : Nat, space.Within (i * (M / 2 ^ 50)) init := fun i => within_init space hi (by positivity)
  obtain ⟨R, -⟩ := rinv_start (treeInv_reachable L ht) (fun _ b => space.Within ((0 : ℕ) * (M / 2 ^ 50)) b) init
  obtain ⟨-, R', hsol⟩ := starLoop_free s L nn (fun i b => space.Within (i * (M / 2 ^ 50)) b)
    (fun i a ha => by
      have : (i : ℝ) * (M / 2 ^ 50) ≤ ((i + 1 : ℕ) : ℝ) * (M / 2 ^ 50) := by push_cast; gcongr; linarith
      exact ⟨⟨by linarith [ha.1.1], by linarith [ha.1.2]⟩, by linarith [ha.2.1], by linarith [ha.2.2]⟩)
    init hinit
    (fun a i hle ha => by
      rw [hst]
      have := steer_within space hd hM (Nat.cast_nonneg i)
        (show (i : ℝ) ≤ 2 ^ 50 by exact_mod_cast hle.trans hk) ha (hsample i)
      push_cast
      exact this)
    _ 0 ⟨_, _⟩ r rfl (by omega) R h
  refine ⟨fun n hn => free_of_rinv (F := fun b => space.Within (r.samples * (M / 2 ^ 50)) b) (hinit _) R' n hn, fun hs => ?_⟩
  obtain ⟨n, hn, ha⟩ := hsol hs
  obtain ⟨path, h1, h2, -, h3⟩ := getPath_spec R' ha
  exact ⟨path, by rw [hn]; exact h1, chain_free (F := fun b => space.Within (r.samples * (M / 2 ^ 50)) b) (hinit _) h2 h3⟩

/-! ## Example -/

private def exBox : SpaceR2 := ⟨⟨0, 0⟩, ⟨4, 3⟩⟩

private theorem exBox_valid (p : Pt) (h : (0 ≤ p.x ∧ p.x ≤ 4) ∧ 0 ≤ p.y ∧ p.y ≤ 3) :
    freeIsStateValid exBox.validateBounds p = true := by rw [C106_state_valid_iff]; exact h

/-- A path from (0, 0) to (4, 3), both on the boundary, leaves the rectangle between them by at most 6 2⁻⁴⁸. -/
example [DecidableEq Pt] [Inhabited Pt] : ∃ r path, rrtSearchPath exOpen Tree.new ⟨0, 0⟩ = some r ∧
    treeGetPath r.tree r.solution = some path ∧ ∀ p ∈ path, exBox.Within (6 * (4 / 2 ^ 50)) p := by
  obtain ⟨r, h1, h2, h3⟩ := exOpen_rrt
  obtain ⟨-, hp⟩ := C140_rrt exBox 4 (by norm_num [exBox]) exOpen rfl (by norm_num [exOpen]) r2KNNF_laws Tree.new .start ⟨0, 0⟩
    (exBox_valid _ (by norm_num)) (fun _ => exBox_valid ⟨4, 3⟩ (by norm_num)) (by norm_num [exOpen]) r h1
  obtain ⟨path, h4, h5⟩ := hp h2
  refine ⟨r, path, h1, h4, fun p hp => ?_⟩
  obtain ⟨⟨a, b⟩, c, d⟩ := h5 p hp
  have : (r.samples : ℝ) * (4 / 2 ^ 50) ≤ 6 * (4 / 2 ^ 50) := by gcongr; exact_mod_cast h3
  exact ⟨⟨by linarith, by linarith⟩, by linarith, by linarith⟩

/-- The same for RRT*. -/
example [DecidableEq Pt] [Inhabited Pt] : ∃ r path, rrtStarSearchPathF exOpen (fun _ => 1) Tree.new ⟨0, 0⟩ = some r ∧
    treeGetPath r.state.tree r.solution = some path ∧ ∀ p ∈ path, exBox.Within (r.samples * (4 / 2 ^ 50)) p := by
  obtain ⟨r, h1, h2, -⟩ := exOpen_rrtStar
  obtain ⟨-, hp⟩ := C140_rrtStar exBox 4 (by norm_num [exBox]) exOpen rfl (by norm_num [exOpen]) r2KNNF_laws _ Tree.new .start
    ⟨0, 0⟩ (exBox_valid _ (by norm_num)) (fun _ => exBox_valid ⟨4, 3⟩ (by norm_num)) (by norm_num [exOpen]) r h1
  obtain ⟨path, h4, h5⟩ := hp h2
  exact ⟨r, path, h1, h4, h5⟩

end PathPlanning
