import Verif.Model.RRT
import Verif.Props.Tree
import Mathlib.Data.List.Chain
import Mathlib.Data.Rat.Floor
import Mathlib.Tactic.Linarith
import Mathlib.Tactic.FieldSimp
import Mathlib.Algebra.Field.Rat
import Mathlib.Algebra.Order.Ring.Rat

/-!
# C25, C26, C27: RRT and RRT*
-/

namespace PathPlanning
open Spec Tree
variable {V P K : Type} [DecidableEq V] [LinearOrder K] [Field K]

/-- A tree rooted at `init` whose edges all satisfy `E`. -/
structure RInv (E : V → V → Prop) (init : V) (t : Tree V) : Prop where
  inv : TreeInv t
  root : ∃ r, t.root = some r ∧ t.state r = init
  edge : ∀ n p, t.heap.alive n → t.heap.parent n = some p → E (t.state p) (t.state n)

theorem rinv_start {t : Tree V} (I : TreeInv t) (E : V → V → Prop) (init : V) :
    RInv E init (t.clear.createRootNode init).1 ∧ (t.clear.createRootNode init).1.size = 1 ∧
    (∀ n, (t.clear.createRootNode init).1.heap.alive n → True) := by
  have I1 := treeInv_clear I
  have I2 := treeInv_createRoot I1 rfl init
  refine ⟨⟨I2, ?_, ?_⟩, ?_, fun _ _ => trivial⟩
  · exact ⟨_, rfl, by simp [Tree.createRootNode]⟩
  · intro n p hn hp
    exfalso
    obtain ⟨r, hr, ht⟩ := I2.in_tree hn
    have hno : ∀ x, ¬ t.clear.heap.alive x := by
      intro x hx
      obtain ⟨r, h1, _⟩ := I1.in_tree hx
      cases h1
    have hd : t.clear.dropRoot = t.clear.heap := rfl
    have ha : ∀ x, (t.clear.createRootNode init).1.heap.alive x → x = t.clear.heap.next := by
      rintro x (hx | hx)
      · exact absurd hx (by rw [hd]; exact hno x)
      · exact hx
    have h1 := ha n hn
    have h2 := ha p (I2.forest.parent_alive _ _ hn hp)
    obtain ⟨d, hdn⟩ := I2.forest.acyclic n hn
    rw [h2, ← h1] at hp
    exact not_desc_self hdn (.base hp)
  · simp [Tree.size, Tree.createRootNode, insertMap, Tree.clear]

theorem rinv_extend {D : Type} [LE D] {o : KNN V} {dist : V → V → D}
    (L : NearestLaws o dist) {E : V → V → Prop} {init : V} {t : Tree V} (R : RInv E init t) {v : V}
    {src : Option Nat} (hsrc : ∀ n, src = some n → t.heap.alive n)
    (hE : ∀ s, t.heap.alive s →
      (src = some s ∨ src = none ∧ t.getNearestNode o v = some s) → (∀ n, t.heap.alive n → t.state n ≠ v) →
      E (t.state s) v) :
    ∃ t' n, t.extend o v src = (t', some n) ∧ RInv E init t' ∧ t'.heap.alive n ∧ t'.state n = v ∧
      t'.size ≤ t.size + 1 ∧ (∀ x, t'.heap.alive x → t.heap.alive x ∨ x = n) := by
  obtain ⟨r, hr, hri⟩ := R.root
  rcases extend_cases L R.inv v src hsrc with ⟨n, h1, h2, he⟩ | ⟨_, h2, _⟩ | ⟨s, t', hf, hs, hss, he, I', ht⟩
  · exact ⟨t, n, he, R, h1, h2, by omega, fun x hx => Or.inl hx⟩
  · rw [hr] at h2; cases h2
  · have hne : ∀ x, t.heap.alive x → x ≠ t.heap.next := fun x hx =>
      Nat.ne_of_lt (R.inv.forest.fresh x hx)
    have hst : ∀ x, t.heap.alive x → t'.state x = t.state x := by
      intro x hx; rw [ht]; simp [hne x hx]
    have hstn : t'.state t.heap.next = v := by rw [ht]; simp
    have hpar : ∀ x, t.heap.alive x → t'.heap.parent x = t.heap.parent x := by
      intro x hx; rw [ht]
      show upd _ _ _ _ = _
      rw [upd_ne _ _ (hne x hx)]
      exact upd_ne _ _ (hne x hx)
    have hparn : t'.heap.parent t.heap.next = some s := by rw [ht]; exact upd_same ..
    have hal : ∀ x, t'.heap.alive x ↔ t.heap.alive x ∨ x = t.heap.next := by
      intro x; rw [ht]; exact Iff.rfl
    refine ⟨t', t.heap.next, he, ⟨I', ⟨r, by rw [ht]; exact hr, ?_⟩, ?_⟩,
      (hal _).mpr (Or.inr rfl), hstn, by rw [ht]; exact Nat.le_refl _, fun x hx => (hal x).mp hx⟩
    · rw [hst r ((R.inv.root_iff r).mp hr).1]; exact hri
    · intro n p hn hp
      rcases (hal n).mp hn with hn | rfl
      · rw [hpar n hn] at hp
        rw [hst n hn, hst p (R.inv.forest.parent_alive _ _ hn hp)]
        exact R.edge n p hn hp
      · rw [hparn] at hp; cases hp
        rw [hst s hs, hstn]
        exact hE s hs hss (R.inv.find_none.mp hf)

theorem pathUp_spec {E : V → V → Prop} {init : V} {t : Tree V} (R : RInv E init t)
    {x d : Nat} (hd : Depth t.heap x d) (hx : t.heap.alive x) :
    ∃ L : List V, (∀ acc, pathUp t (d + 1) (some x) acc = some (L ++ acc)) ∧ L.head? = some init ∧
      L.getLast? = some (t.state x) ∧ L.IsChain E := by
  induction hd with
  | @root x hp =>
    have hr := (R.inv.root_iff x).mpr ⟨hx, hp⟩
    obtain ⟨r, hr', hri⟩ := R.root
    rw [hr] at hr'; cases hr'
    refine ⟨[t.state x], fun acc => rfl, by simp [hri], by simp, List.isChain_singleton _⟩
  | @child x a d hp _ ih =>
    obtain ⟨L, h1, h2, h3, h4⟩ := ih (R.inv.forest.parent_alive _ _ hx hp)
    refine ⟨L ++ [t.state x], fun acc => ?_, ?_, by simp, ?_⟩
    · rw [pathUp, hp, h1]; simp
    · rw [List.head?_append, h2]; rfl
    · rw [List.isChain_append]
      refine ⟨h4, List.isChain_singleton _, ?_⟩
      intro u hu w hw
      rw [h3] at hu; cases hu
      cases hw
      exact R.edge x a hx hp

theorem getPath_spec {E : V → V → Prop} {init : V} {t : Tree V} (R : RInv E init t) {n : Nat}
    (hn : t.heap.alive n) : ∃ L : List V, treeGetPath t (some n) = some L ∧ L.head? = some init ∧
      L.getLast? = some (t.state n) ∧ L.IsChain E := by
  obtain ⟨d, hd, hdep⟩ := C22_depth R.inv.forest n hn
  obtain ⟨L, h1, h2, h3, h4⟩ := pathUp_spec R hdep hn
  refine ⟨L, ?_, h2, h3, h4⟩
  show (t.heap.getDepth n).bind _ = _
  rw [hd]
  simpa using h1 []

/-- A motion of RRT: the validator accepted a path steered from `a` towards some sample and cut at
the maximal connection distance, and `b` is its final state. -/
def AcceptedMotion (s : RRTSetup V P K) (a b : V) : Prop :=
  ∃ target, s.valid (s.steering.steerTowards a target s.maxConnectionDistance) = true ∧
    s.steering.final (s.steering.steerTowards a target s.maxConnectionDistance) = b

private theorem rrtLoop_spec {D : Type} [LE D] {dist : V → V → D} (s : RRTSetup V P K)
    (L : NearestLaws s.knn dist) (init : V) : ∀ (k count : Nat) (t : Tree V),
    s.maxIteration + 1 - count = k → count ≤ s.maxIteration + 1 →
    RInv (AcceptedMotion s) init t → t.size ≤ s.maxNumberTreeNode + 1 →
    ∃ r, rrtLoop s count t = some r ∧ RInv (AcceptedMotion s) init r.tree ∧
      r.samples ≤ s.maxIteration + 1 ∧ r.tree.size ≤ s.maxNumberTreeNode + 1 ∧
      (r.success = false → r.solution = none) ∧
      (r.success = true → ∃ n, r.solution = some n ∧ r.tree.heap.alive n ∧
        s.isSolution (r.tree.state n) = true) := by
  intro k
  induction k with
  | zero =>
    intro count t hk hc R hsz
    rw [rrtLoop, if_pos (by omega)]
    exact ⟨_, rfl, R, by dsimp only; omega, hsz, fun _ => rfl, by simp⟩
  | succ k ih =>
    intro count t hk hc R hsz
    rw [rrtLoop, if_neg (by omega)]
    by_cases hn : t.size > s.maxNumberTreeNode
    · rw [if_pos hn]
      exact ⟨_, rfl, R, hc, hsz, fun _ => rfl, by simp⟩
    · rw [if_neg hn]
      cases hnear : t.getNearestNode s.knn (s.sample count) with
      | none => exact ih (count + 1) t (by omega) (by omega) R hsz
      | some nearest =>
        dsimp only
        have hna := ((nearestNode_spec L R.inv _).2 nearest hnear).1
        cases hv : s.valid (s.steering.steerTowards (t.state nearest) (s.sample count)
            s.maxConnectionDistance) with
        | false =>
          simp only [Bool.not_false, if_true]
          exact ih (count + 1) t (by omega) (by omega) R hsz
        | true =>
          simp only [Bool.not_true, Bool.false_eq_true, if_false]
          obtain ⟨t', n, he, R', hna', hsn, hsz', _⟩ := rinv_extend L R
            (v := s.steering.final (s.steering.steerTowards (t.state nearest) (s.sample count)
              s.maxConnectionDistance)) (src := some nearest)
            (fun m hm => by cases hm; exact hna)
            (fun m _ hm _ => by
              rcases hm with hm | ⟨hm, _⟩
              · cases hm; exact ⟨_, hv, rfl⟩
              · cases hm)
          rw [he]
          dsimp only
          split
          · rename_i hsol
            refine ⟨_, rfl, R', by dsimp only; omega, by dsimp only; omega, by simp, fun _ =>
              ⟨n, rfl, hna', ?_⟩⟩
            dsimp only
            rw [hsn]; exact hsol
          · exact ih (count + 1) t' (by omega) (by omega) R' (by omega)

/-- C26 for RRT. Whatever tree earlier calls left, `SearchPath` ends without null pointer access,
after at most `maxIteration + 1` samples and with at most `maxNumberTreeNode + 1` nodes. -/
theorem C26_rrt_bounded [Inhabited V] {D : Type} [LE D] {dist : V → V → D} (s : RRTSetup V P K)
    (L : NearestLaws s.knn dist) (t : Tree V) (ht : TreeReachable s.knn t) (init : V) :
    ∃ r, rrtSearchPath s t init = some r ∧ r.samples ≤ s.maxIteration + 1 ∧
      r.tree.size ≤ s.maxNumberTreeNode + 1 := by
  obtain ⟨R, hs, _⟩ := rinv_start (treeInv_reachable L ht) (AcceptedMotion s) init
  obtain ⟨r, h1, _, h2, h3, _⟩ := rrtLoop_spec s L init _ 0 _ rfl (by omega) R (by omega)
  exact ⟨r, h1, h2, h3⟩

/-- C25. When RRT returns `Success`, `GetPath` starts at the initial state, each consecutive pair is
a motion accepted by the validator, and the last state passes the goal test. -/
theorem C25_rrt_path [Inhabited V] {D : Type} [LE D] {dist : V → V → D} (s : RRTSetup V P K)
    (L : NearestLaws s.knn dist) (t : Tree V) (ht : TreeReachable s.knn t) (init : V)
    (r : RRTResult V) (h : rrtSearchPath s t init = some r) (hs : r.success = true) :
    ∃ path : List V, treeGetPath r.tree r.solution = some path ∧ path.head? = some init ∧
      path.IsChain (AcceptedMotion s) ∧ ∃ g, path.getLast? = some g ∧ s.isSolution g = true := by
  obtain ⟨R, hsz, _⟩ := rinv_start (treeInv_reachable L ht) (AcceptedMotion s) init
  obtain ⟨r', h1, R', _, _, _, h2⟩ := rrtLoop_spec s L init _ 0 _ rfl (by omega) R (by omega)
  have hrr : r' = r := by
    have h' : rrtLoop s 0 (t.clear.createRootNode init).1 = some r := h
    rw [h1] at h'; cases h'; rfl
  subst hrr
  obtain ⟨n, hn, hna, hsol⟩ := h2 hs
  obtain ⟨path, h3, h4, h5, h6⟩ := getPath_spec R' hna
  exact ⟨path, by rw [hn]; exact h3, h4, h6, _, h5, hsol⟩

/-- C25. When RRT returns `Failure`, `GetPath` is empty. -/
theorem C25_failure_empty [Inhabited V] {D : Type} [LE D] {dist : V → V → D} (s : RRTSetup V P K)
    (L : NearestLaws s.knn dist) (t : Tree V) (ht : TreeReachable s.knn t) (init : V)
    (r : RRTResult V) (h : rrtSearchPath s t init = some r) (hs : r.success = false) :
    treeGetPath r.tree r.solution = some [] := by
  obtain ⟨R, hsz, _⟩ := rinv_start (treeInv_reachable L ht) (AcceptedMotion s) init
  obtain ⟨r', h1, R', _, _, h3, _⟩ := rrtLoop_spec s L init _ 0 _ rfl (by omega) R (by omega)
  have hrr : r' = r := by
    have h' : rrtLoop s 0 (t.clear.createRootNode init).1 = some r := h
    rw [h1] at h'; cases h'; rfl
  subst hrr
  rw [h3 hs]; rfl

/-- C25. A steered motion is no longer than the maximal connection distance, if truncation scales
the length (C46). -/
theorem C25_motion_length [IsStrictOrderedRing K] (S : Steering V P K)
    (htr : ∀ p r, 0 ≤ r → r ≤ 1 → S.length (S.truncate p r) = r * S.length p) (a b : V) (d : K)
    (hd : 0 ≤ d) : S.length (S.steerTowards a b d) ≤ d := by
  unfold Steering.steerTowards
  dsimp only
  split
  · rename_i hl
    unfold clampK
    have hdiv : 0 ≤ d / S.length (S.connect a b) := div_nonneg hd hl.le
    rw [if_neg (not_lt.mpr hdiv)]
    split
    · rename_i h1
      rw [htr _ _ zero_le_one le_rfl, one_mul]
      exact ((one_lt_div hl).mp h1).le
    · rename_i h1
      rw [htr _ _ hdiv (not_lt.mp h1), div_mul_cancel₀ _ (ne_of_gt hl)]
  · rename_i hl
    exact (not_lt.mp hl).trans hd

/-! ## RRT* -/

private structure SInv (Q : Option K → Prop) (E : V → V → Prop) (init : V) (st : RRTStarState V K) : Prop where
  r : RInv E init st.tree
  cost : ∀ n, st.tree.heap.alive n → Q (st.cost n)

/-- The connection that the validator accepted between two states. -/
def AcceptedConnection (s : RRTSetup V P K) (a b : V) : Prop :=
  s.valid (s.steering.connect a b) = true

private theorem bestParent_spec (s : RRTSetup V P K) (st : RRTStarState V K) (v : V) :
    ∀ (near : List Nat) (acc : Option Nat × Option K),
    let res := near.foldl (fun best node =>
      let path := s.steering.connect (st.tree.state node) v
      let cost := addInf (st.cost node) (s.steering.length path)
      if ltInf cost best.2 && s.valid path then (some node, cost) else best) acc
    (∀ p, acc.1 = some p → acc.2 ≠ none) →
    (∀ p, res.1 = some p → (p ∈ near ∧ AcceptedConnection s (st.tree.state p) v) ∨ acc.1 = some p) ∧
    (∀ p, res.1 = some p → res.2 ≠ none) ∧
    (acc.2 ≠ none → res.2 ≠ none) ∧
    (acc.1 ≠ none → res.1 ≠ none) ∧
    ((∃ p ∈ near, st.cost p ≠ none ∧ AcceptedConnection s (st.tree.state p) v) →
      (acc.1 = none → acc.2 = none) → res.1 ≠ none) := by
  intro near
  induction near with
  | nil =>
    intro acc res hacc
    refine ⟨fun p hp => Or.inr hp, hacc, id, id, ?_⟩
    rintro ⟨p, hp, _⟩; cases hp
  | cons a near ih =>
    intro acc res hacc
    dsimp only at ih
    have hres : res = near.foldl _ _ := List.foldl_cons ..
    dsimp only at hres
    by_cases hc : (ltInf (addInf (st.cost a) (s.steering.length (s.steering.connect (st.tree.state a) v)))
        acc.2 && s.valid (s.steering.connect (st.tree.state a) v)) = true
    · rw [if_pos hc] at hres
      have hv : s.valid (s.steering.connect (st.tree.state a) v) = true := by
        rw [Bool.and_eq_true] at hc; exact hc.2
      have hcost : addInf (st.cost a) (s.steering.length (s.steering.connect (st.tree.state a) v)) ≠ none := by
        intro h0
        rw [h0] at hc
        simp [ltInf] at hc
      obtain ⟨h1, h2, h3, h4, h5⟩ := ih (some a, addInf (st.cost a)
        (s.steering.length (s.steering.connect (st.tree.state a) v))) (fun _ _ => hcost)
      rw [← hres] at h1 h2 h3 h4 h5
      refine ⟨?_, h2, fun _ => h3 hcost, fun _ => h4 (by simp), fun _ _ => h4 (by simp)⟩
      intro p hp
      rcases h1 p hp with ⟨h6, h7⟩ | h6
      · exact Or.inl ⟨List.mem_cons_of_mem _ h6, h7⟩
      · cases h6; exact Or.inl ⟨List.mem_cons_self .., hv⟩
    · rw [if_neg hc] at hres
      obtain ⟨h1, h2, h3, h4, h5⟩ := ih acc hacc
      rw [← hres] at h1 h2 h3 h4 h5
      refine ⟨?_, h2, h3, h4, ?_⟩
      · intro p hp
        rcases h1 p hp with ⟨h6, h7⟩ | h6
        · exact Or.inl ⟨List.mem_cons_of_mem _ h6, h7⟩
        · exact Or.inr h6
      · rintro ⟨p, hp, hpc, hpv⟩ h6
        by_cases h7 : acc.1 = none
        · rcases List.mem_cons.mp hp with rfl | hp
          · exfalso
            apply hc
            obtain ⟨c, hcc⟩ := Option.ne_none_iff_exists'.mp hpc
            rw [h6 h7, hcc]
            have hpv' : s.valid (s.steering.connect (st.tree.state p) v) = true := hpv
            simp [addInf, ltInf, hpv']
          · exact h5 ⟨p, hp, hpc, hpv⟩ h6
        · exact h4 h7

private theorem rrtStarLoop_spec {D : Type} [LE D] {dist : V → V → D} (s : RRTSetup V P K)
    (L : NearestLaws s.knn dist) (nn : Nat → Nat) (Q : Option K → Prop)
    (E : V → V → Prop) (init : V)
    (hE : ∀ (st : RRTStarState V K), SInv Q E init st → ∀ nearest target,
      st.tree.heap.alive nearest → s.knn.nearest st.tree.points target = some (st.tree.state nearest) →
      s.valid (s.steering.steerTowards (st.tree.state nearest) target s.maxConnectionDistance) = true →
      let v := s.steering.final
        (s.steering.steerTowards (st.tree.state nearest) target s.maxConnectionDistance)
      let best := bestParent s st v (st.tree.getNearestNodes s.knn v (nn st.tree.size))
      (∀ p, (best.1 = some p ∨ best.1 = none ∧ st.tree.getNearestNode s.knn v = some p) →
        E (st.tree.state p) v) ∧ Q best.2) :
    ∀ (k count : Nat) (st : RRTStarState V K),
    s.maxIteration + 1 - count = k → count ≤ s.maxIteration + 1 →
    SInv Q E init st → st.tree.size ≤ s.maxNumberTreeNode + 1 →
    ∃ r, rrtStarLoop s nn count st = some r ∧ SInv Q E init r.state ∧
      r.samples ≤ s.maxIteration + 1 ∧ r.state.tree.size ≤ s.maxNumberTreeNode + 1 ∧
      (r.success = true → ∃ n, r.solution = some n ∧ r.state.tree.heap.alive n ∧
        s.isSolution (r.state.tree.state n) = true) := by
  intro k
  induction k with
  | zero =>
    intro count t hk hc R hsz
    rw [rrtStarLoop, if_pos (by omega)]
    exact ⟨_, rfl, R, by dsimp only; omega, hsz, by simp⟩
  | succ k ih =>
    intro count st hk hc R hsz
    rw [rrtStarLoop, if_neg (by omega)]
    by_cases hn : st.tree.size > s.maxNumberTreeNode
    · rw [if_pos hn]
      exact ⟨_, rfl, R, hc, hsz, by simp⟩
    · rw [if_neg hn]
      unfold rrtStarStep
      cases hnear : st.tree.getNearestNode s.knn (s.sample count) with
      | none => exact ih (count + 1) st (by omega) (by omega) R hsz
      | some nearest =>
        dsimp only
        obtain ⟨hna, hnp, _⟩ := (nearestNode_spec L R.r.inv _).2 nearest hnear
        cases hv : s.valid (s.steering.steerTowards (st.tree.state nearest) (s.sample count)
            s.maxConnectionDistance) with
        | false =>
          simp only [Bool.not_false, if_true]
          exact ih (count + 1) st (by omega) (by omega) R hsz
        | true =>
          simp only [Bool.not_true, Bool.false_eq_true, if_false]
          obtain ⟨hE1, hE2⟩ := hE st R nearest (s.sample count) hna hnp hv
          obtain ⟨v, hvv⟩ : ∃ v, v = s.steering.final (s.steering.steerTowards (st.tree.state nearest)
            (s.sample count) s.maxConnectionDistance) := ⟨_, rfl⟩
          rw [← hvv] at hE1 hE2 ⊢
          obtain ⟨best, hb⟩ : ∃ b, b = bestParent s st v (st.tree.getNearestNodes s.knn v
            (nn st.tree.size)) := ⟨_, rfl⟩
          rw [← hb] at hE1 hE2 ⊢
          have hsrc : ∀ m, best.1 = some m → st.tree.heap.alive m := by
            intro m hm
            have hbs := (bestParent_spec s st v (st.tree.getNearestNodes s.knn v (nn st.tree.size))
              (none, none) (by simp)).1 m
            have : (bestParent s st v (st.tree.getNearestNodes s.knn v (nn st.tree.size))).1 = some m := by
              rw [← hb]; exact hm
            rcases hbs this with ⟨h1, _⟩ | h1
            · obtain ⟨p, _, hp⟩ := List.mem_filterMap.mp h1
              exact (R.r.inv.find_some.mp hp).1
            · cases h1
          obtain ⟨t', n, he, R', hna', hsn, hsz', hal⟩ := rinv_extend L R.r (v := v) (src := best.1)
            hsrc (fun m _ hm _ => hE1 m hm)
          rw [he]
          dsimp only
          have S' : SInv Q E init (⟨t', upd st.cost n best.2⟩ : RRTStarState V K) := by
            refine ⟨R', fun x hx => ?_⟩
            by_cases hxn : x = n
            · subst hxn
              dsimp only
              rw [upd_same]; exact hE2
            · dsimp only
              rw [upd_ne _ _ hxn]
              rcases hal x hx with h1 | h1
              · exact R.cost x h1
              · exact absurd h1 hxn
          split
          · rename_i hsol
            refine ⟨_, rfl, S', by dsimp only; omega, by dsimp only; omega, fun _ =>
              ⟨n, rfl, hna', ?_⟩⟩
            dsimp only
            rw [hsn]; exact hsol
          · exact ih (count + 1) _ (by omega) (by omega) S' (by dsimp only; omega)


private theorem sinv_start {t : Tree V} (I : TreeInv t) (Q : Option K → Prop) (hQ : Q (some 0))
    (E : V → V → Prop) (init : V) :
    SInv Q E init (⟨(t.clear.createRootNode init).1, fun _ => some 0⟩ : RRTStarState V K) :=
  ⟨(rinv_start I E init).1, fun _ _ => hQ⟩

/-- C26 for RRT*. -/
theorem C26_rrtStar_bounded [Inhabited V] {D : Type} [LE D] {dist : V → V → D} (s : RRTSetup V P K)
    (L : NearestLaws s.knn dist) (nn : Nat → Nat) (t : Tree V) (ht : TreeReachable s.knn t)
    (init : V) :
    ∃ r, rrtStarSearchPath s nn t init = some r ∧ r.samples ≤ s.maxIteration + 1 ∧
      r.state.tree.size ≤ s.maxNumberTreeNode + 1 := by
  have I := treeInv_reachable L ht
  obtain ⟨r, h1, _, h2, h3, _⟩ := rrtStarLoop_spec s L nn (fun _ => True) (fun _ _ => True) init
    (fun _ _ _ _ _ _ _ => ⟨fun _ _ => trivial, trivial⟩) _ 0 _ rfl (by omega)
    (sinv_start I _ trivial _ init) (by
      have := (rinv_start I (fun _ _ => True) init).2.1
      dsimp only; omega)
  exact ⟨r, h1, h2, h3⟩

/-- C27 (partial). When RRT* returns `Success`, `GetPath` goes from the initial state to a state
that passes the goal test, through connections that the validator accepted, provided that (a) a
nearest node of the sample is among the neighbours of the new state that are looked up and (b) the
direct connection to the new state is accepted whenever the path steered to it was. Without them a
connection that the validator rejected may be used: `C27_unvalidated_edge`. -/
theorem C27_rrtStar_path_partial [Inhabited V] {D : Type} [LE D] {dist : V → V → D}
    (s : RRTSetup V P K) (L : NearestLaws s.knn dist) (nn : Nat → Nat) (t : Tree V)
    (ht : TreeReachable s.knn t) (init : V)
    (ha : ∀ pts target a k, s.knn.nearest pts target = some a →
      s.valid (s.steering.steerTowards a target s.maxConnectionDistance) = true →
      a ∈ s.knn.knn pts (s.steering.final (s.steering.steerTowards a target s.maxConnectionDistance))
        (nn k))
    (hb : ∀ a target, s.valid (s.steering.steerTowards a target s.maxConnectionDistance) = true →
      AcceptedConnection s a
        (s.steering.final (s.steering.steerTowards a target s.maxConnectionDistance)))
    (r : RRTStarResult V K) (h : rrtStarSearchPath s nn t init = some r) (hs : r.success = true) :
    ∃ path : List V, treeGetPath r.state.tree r.solution = some path ∧ path.head? = some init ∧
      path.IsChain (AcceptedConnection s) ∧ ∃ g, path.getLast? = some g ∧ s.isSolution g = true := by
  have I := treeInv_reachable L ht
  obtain ⟨r', h1, S', _, _, h2⟩ := rrtStarLoop_spec s L nn (fun c => c ≠ none) (AcceptedConnection s) init
    (by
      intro st S nearest target hna hnp hv v best
      have hsp := bestParent_spec s st v (st.tree.getNearestNodes s.knn v (nn st.tree.size))
        (none, none) (by simp)
      obtain ⟨h1, h2, _, _, h5⟩ := hsp
      have hne : best.1 ≠ none := by
        refine h5 ⟨nearest, ?_, S.cost nearest hna, hb _ _ hv⟩ (fun _ => rfl)
        refine List.mem_filterMap.mpr ⟨_, ha _ _ _ st.tree.size hnp hv, ?_⟩
        exact S.r.inv.find_some.mpr ⟨hna, rfl⟩
      obtain ⟨p, hp⟩ := Option.ne_none_iff_exists'.mp hne
      refine ⟨?_, h2 p hp⟩
      rintro q (hq | ⟨hq, _⟩)
      · rcases h1 q hq with ⟨_, h6⟩ | h6
        · exact h6
        · cases h6
      · exact absurd hq hne) _ 0 _ rfl (by omega)
    (sinv_start I _ (by simp) _ init) (by
      have := (rinv_start I (fun _ _ => True) init).2.1
      dsimp only; omega)
  have hrr : r' = r := by
    have h' : rrtStarLoop s nn 0 ⟨(t.clear.createRootNode init).1, fun _ => some 0⟩ = some r := h
    rw [h1] at h'; cases h'; rfl
  subst hrr
  obtain ⟨n, hn, hna, hsol⟩ := h2 hs
  obtain ⟨path, h3, h4, h5, h6⟩ := getPath_spec S'.r hna
  exact ⟨path, by rw [hn]; exact h3, h4, h6, _, h5, hsol⟩

/-- C27. On success every consecutive pair of the path is a connection that the validator accepted,
or one from the node nearest to the new state (which is used, unvalidated, when no neighbour has an
accepted connection). -/
theorem C27_edges_partial [Inhabited V] {D : Type} [LE D] {dist : V → V → D}
    (s : RRTSetup V P K) (L : NearestLaws s.knn dist) (nn : Nat → Nat) (t : Tree V)
    (ht : TreeReachable s.knn t) (init : V)
    (r : RRTStarResult V K) (h : rrtStarSearchPath s nn t init = some r) (hs : r.success = true) :
    ∃ path : List V, treeGetPath r.state.tree r.solution = some path ∧ path.head? = some init ∧
      path.IsChain (fun a b => AcceptedConnection s a b ∨ ∃ pts, s.knn.nearest pts b = some a) ∧
      ∃ g, path.getLast? = some g ∧ s.isSolution g = true := by
  have I := treeInv_reachable L ht
  obtain ⟨r', h1, S', _, _, h2⟩ := rrtStarLoop_spec s L nn (fun _ => True)
    (fun a b => AcceptedConnection s a b ∨ ∃ pts, s.knn.nearest pts b = some a) init
    (by
      intro st S nearest target hna hnp hv v best
      have hsp := bestParent_spec s st v (st.tree.getNearestNodes s.knn v (nn st.tree.size))
        (none, none) (by simp)
      obtain ⟨h1, _⟩ := hsp
      refine ⟨?_, trivial⟩
      rintro q (hq | ⟨_, hq⟩)
      · rcases h1 q hq with ⟨_, h6⟩ | h6
        · exact Or.inl h6
        · cases h6
      · exact Or.inr ⟨_, ((nearestNode_spec L S.r.inv _).2 q hq).2.1⟩) _ 0 _ rfl (by omega)
    (sinv_start I _ trivial _ init) (by
      have := (rinv_start I (fun _ _ => True) init).2.1
      dsimp only; omega)
  have hrr : r' = r := by
    have h' : rrtStarLoop s nn 0 ⟨(t.clear.createRootNode init).1, fun _ => some 0⟩ = some r := h
    rw [h1] at h'; cases h'; rfl
  subst hrr
  obtain ⟨n, hn, hna, hsol⟩ := h2 hs
  obtain ⟨path, h3, h4, h5, h6⟩ := getPath_spec S'.r hna
  exact ⟨path, by rw [hn]; exact h3, h4, h6, _, h5, hsol⟩


/-! ## Examples -/

/-- A vehicle on the integers; a path is its two ends and whether it was cut. -/
def exSteering : Steering Int (Int × Int × Bool) ℚ where
  connect a b := (a, b, false)
  length p := |(p.2.1 - p.1 : Int)|
  truncate p r := (p.1, p.1 + ⌊r * (p.2.1 - p.1 : Int)⌋, true)
  final p := p.2.1

def exRRT (valid : Int × Int × Bool → Bool) : RRTSetup Int (Int × Int × Bool) ℚ where
  steering := exSteering
  valid := valid
  knn := exKNN
  isSolution v := decide (|v - 10| < 1)
  sample i := if i = 1 then -4 else 10
  maxIteration := 20
  maxNumberTreeNode := 20
  maxConnectionDistance := 3

/-- RRT reaches the goal 10 from 0 in steps of at most 3. -/
example : (rrtSearchPath (exRRT fun _ => true) Tree.new 0).bind
    (fun r => (treeGetPath r.tree r.solution).map fun p => (r.success, p, r.samples))
    = some (true, [0, 3, 6, 9, 10], 5) := by decide +kernel

/-- So does RRT*. -/
example : (rrtStarSearchPath (exRRT fun _ => true) (fun _ => 1) Tree.new 0).bind
    (fun r => (treeGetPath r.state.tree r.solution).map fun p => (r.success, p))
    = some (true, [0, 3, 6, 9, 10]) := by decide +kernel

/-- With everything forbidden the search fails after `maxIteration + 1` samples. -/
example : (rrtSearchPath (exRRT fun _ => false) Tree.new 0).bind
    (fun r => (treeGetPath r.tree r.solution).map fun p => (r.success, p, r.samples))
    = some (false, [], 21) := by decide +kernel

/-- The hypotheses of `C27_rrtStar_path_partial` can be met. -/
example : ∃ r, rrtStarSearchPath (exRRT fun _ => true) (fun _ => 1) Tree.new 0 = some r ∧
    r.success = true ∧ ∀ a target, (exRRT fun _ => true).valid
      (exSteering.steerTowards a target 3) = true →
      AcceptedConnection (exRRT fun _ => true) a (exSteering.final (exSteering.steerTowards a target 3)) := by
  obtain ⟨r, h, _⟩ := C26_rrtStar_bounded (exRRT fun _ => true) exKNN_laws (fun _ => 1) Tree.new .start 0
  refine ⟨r, h, ?_, fun _ _ _ => rfl⟩
  have h1 : (rrtStarSearchPath (exRRT fun _ => true) (fun _ => 1) Tree.new 0).map
    (fun r => r.success) = some true := by decide +kernel
  rw [h] at h1; simpa using h1

/-- C27 fails in general: with a validator that accepts the path steered to the new state but no
direct connection to it, RRT* succeeds with a path through connections that were all rejected. -/
theorem C27_unvalidated_edge :
    ∃ (s : RRTSetup Int (Int × Int × Bool) ℚ) (r : RRTStarResult Int ℚ) (path : List Int),
      NearestLaws s.knn (fun v p : Int => (p - v).natAbs) ∧
      rrtStarSearchPath s (fun _ => 1) Tree.new 0 = some r ∧ r.success = true ∧
      treeGetPath r.state.tree r.solution = some path ∧
      ∃ a b l, path = a :: b :: l ∧ ¬ AcceptedConnection s a b := by
  obtain ⟨r, h, _⟩ := C26_rrtStar_bounded (exRRT fun p => p.2.2) exKNN_laws (fun _ => 1) Tree.new .start 0
  have h1 : (rrtStarSearchPath (exRRT fun p => p.2.2) (fun _ => 1) Tree.new 0).bind
    (fun r => (treeGetPath r.state.tree r.solution).map fun p => (r.success, p))
    = some (true, [0, 3, 6, 9, 10]) := by decide +kernel
  rw [h] at h1
  obtain ⟨p, h2, h3⟩ := Option.map_eq_some_iff.mp (show (treeGetPath _ _).map _ = _ from h1)
  obtain ⟨h4, h5⟩ := Prod.mk.inj h3
  subst h5
  exact ⟨_, r, _, exKNN_laws, h, h4, h2, 0, 3, _, rfl, by unfold AcceptedConnection; decide⟩

end PathPlanning
