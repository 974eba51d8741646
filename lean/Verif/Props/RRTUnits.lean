import Verif.Props.RRTPlanner
import Verif.Model.RRTStream

/-!
# C174: RRT and RRT* do not depend on the unit of lengths, on the origin and on the names of states
-/

set_option linter.unusedSectionVars false

namespace PathPlanning

/-- Specification: `s'` is the search `s` in other words. The states and the paths of `s` are written as those of `s'` by `σ`
and `π`, where different states remain different, and all lengths are multiplied by `r`. Connecting, truncating and
validating paths, searching for neighbours, the test of the goal and the sampled states are otherwise the same. -/
structure Spec.SameRRT {V P V' P' K : Type} [LinearOrder K] [Field K] (σ : V → V') (π : P → P') (r : K)
    (s : RRTSetup V P K) (s' : RRTSetup V' P' K) : Prop where
  injective : ∀ a b, σ a = σ b → a = b
  connect : ∀ a b, s'.steering.connect (σ a) (σ b) = π (s.steering.connect a b)
  length : ∀ p, s'.steering.length (π p) = r * s.steering.length p
  truncate : ∀ p ratio, s'.steering.truncate (π p) ratio = π (s.steering.truncate p ratio)
  final : ∀ p, s'.steering.final (π p) = σ (s.steering.final p)
  valid : ∀ p, s'.valid (π p) = s.valid p
  nearest : ∀ l v, s'.knn.nearest (l.map σ) (σ v) = (s.knn.nearest l v).map σ
  knn : ∀ l v k, s'.knn.knn (l.map σ) (σ v) k = (s.knn.knn l v k).map σ
  isSolution : ∀ v, s'.isSolution (σ v) = s.isSolution v
  sample : ∀ i, s'.sample i = σ (s.sample i)
  maxIteration : s'.maxIteration = s.maxIteration
  maxNumberTreeNode : s'.maxNumberTreeNode = s.maxNumberTreeNode
  maxConnectionDistance : s'.maxConnectionDistance = r * s.maxConnectionDistance

open Spec

namespace RRTUnits
variable {V P V' P' K : Type} [DecidableEq V] [DecidableEq V'] [LinearOrder K] [Field K] [IsStrictOrderedRing K]
  {σ : V → V'} {π : P → P'} {r : K}

/-- The trees are the same but for the names; the nodes from `k` on are those of this search. -/
private structure Same (σ : V → V') (k : Nat) (t : Tree V) (t' : Tree V') : Prop where
  heap : t'.heap = t.heap
  root : t'.root = t.root
  map : t'.map = t.map.map fun e => (σ e.1, e.2)
  points : t'.points = t.points.map σ
  state : ∀ n, k ≤ n → n < t.heap.next → t'.state n = σ (t.state n)
  range : ∀ e ∈ t.map, k ≤ e.2 ∧ e.2 < t.heap.next
  parent : ∀ n p, k ≤ n → n < t.heap.next → t.heap.parent n = some p → k ≤ p ∧ p < t.heap.next
  first : k ≤ t.heap.next

variable {k : Nat} {t : Tree V} {t' : Tree V'}

private theorem any_map (hσ : ∀ a b, σ a = σ b → a = b) (m : List (V × Nat)) (v : V) :
    (m.map fun e => (σ e.1, e.2)).any (fun e => e.1 == σ v) = m.any fun e => e.1 == v := by
  rw [List.any_map]
  congr 1
  funext e
  rw [Function.comp, Bool.eq_iff_iff, beq_iff_eq, beq_iff_eq]
  exact ⟨hσ _ _, fun h => congrArg σ h⟩

private theorem insert_map (hσ : ∀ a b, σ a = σ b → a = b) (m : List (V × Nat)) (v : V) (n : Nat) :
    Tree.insertMap (m.map fun e => (σ e.1, e.2)) (σ v) n = (Tree.insertMap m v n).map fun e => (σ e.1, e.2) := by
  unfold Tree.insertMap
  rw [any_map hσ]
  split <;> rfl

private theorem find_eq (hσ : ∀ a b, σ a = σ b → a = b) (T : Same σ k t t') (v : V) : t'.find (σ v) = t.find v := by
  unfold Tree.find
  rw [T.map, List.find?_map, Option.map_map]
  have : ((fun e : V' × Nat => e.1 == σ v) ∘ fun e : V × Nat => (σ e.1, e.2)) = fun e => e.1 == v := by
    funext e
    rw [Function.comp, Bool.eq_iff_iff, beq_iff_eq, beq_iff_eq]
    exact ⟨hσ _ _, fun h => congrArg σ h⟩
  rw [this]
  rfl

private theorem find_range (T : Same σ k t t') {v : V} {n : Nat} (h : t.find v = some n) : k ≤ n ∧ n < t.heap.next := by
  obtain ⟨e, he, rfl⟩ := Option.map_eq_some_iff.1 h
  exact T.range e (List.mem_of_find?_eq_some he)

variable {s : RRTSetup V P K} {s' : RRTSetup V' P' K}

private theorem nearest_eq (H : SameRRT σ π r s s') (T : Same σ k t t') (v : V) :
    t'.getNearestNode s'.knn (σ v) = t.getNearestNode s.knn v := by
  unfold Tree.getNearestNode
  rw [T.points, H.nearest]
  rcases s.knn.nearest t.points v with _ | p
  · rfl
  · exact find_eq H.injective T p

private theorem nearest_range (T : Same σ k t t') {v : V} {n : Nat} (h : t.getNearestNode s.knn v = some n) :
    k ≤ n ∧ n < t.heap.next := by
  obtain ⟨p, _, hp⟩ := Option.bind_eq_some_iff.1 h
  exact find_range T hp

private theorem nodes_eq (H : SameRRT σ π r s s') (T : Same σ k t t') (v : V) (nn : Nat) :
    t'.getNearestNodes s'.knn (σ v) nn = t.getNearestNodes s.knn v nn := by
  unfold Tree.getNearestNodes
  rw [T.points, H.knn, List.filterMap_map]
  congr 1
  funext p
  exact find_eq H.injective T p

private theorem insert_range {m : List (V × Nat)} {v : V} {n : Nat} {Q : Nat → Prop} (hm : ∀ e ∈ m, Q e.2) (hn : Q n) :
    ∀ e ∈ Tree.insertMap m v n, Q e.2 := by
  unfold Tree.insertMap
  split
  · exact hm
  · intro e he
    rcases List.mem_cons.1 he with rfl | he
    · exact hn
    · exact hm e he

private theorem extend_eq (H : SameRRT σ π r s s') (T : Same σ k t t') (v : V) (src : Option Nat)
    (hs : ∀ n, src = some n → k ≤ n ∧ n < t.heap.next) :
    (t'.extend s'.knn (σ v) src).2 = (t.extend s.knn v src).2 ∧
      Same σ k (t.extend s.knn v src).1 (t'.extend s'.knn (σ v) src).1 ∧
      ∀ n, (t.extend s.knn v src).2 = some n → k ≤ n ∧ n < (t.extend s.knn v src).1.heap.next := by
  unfold Tree.extend
  rw [find_eq H.injective T, nearest_eq H T]
  rcases hf : t.find v with _ | n
  · have key : ∀ q, k ≤ q ∧ q < t.heap.next →
        Same σ k
          { t with
            heap := t.heap.new.addChild q t.heap.next
            state := fun x => if x = t.heap.next then v else t.state x
            points := t.points ++ [v]
            map := Tree.insertMap t.map v t.heap.next }
          { t' with
            heap := t'.heap.new.addChild q t'.heap.next
            state := fun x => if x = t'.heap.next then σ v else t'.state x
            points := t'.points ++ [σ v]
            map := Tree.insertMap t'.map (σ v) t'.heap.next } := by
      intro q hq
      rw [T.heap]
      refine ⟨rfl, T.root, ?_, ?_, ?_, ?_, ?_, ?_⟩
      · dsimp only
        rw [T.map, insert_map H.injective]
      · simp [T.points]
      · intro n hn hlt
        dsimp only
        split
        · rfl
        · next hne =>
          have hlt' : n < t.heap.next + 1 := hlt
          exact T.state n hn (by omega)
      · refine insert_range (Q := fun n => k ≤ n ∧ n < t.heap.next + 1) (fun e he => ?_) ⟨T.first, Nat.lt_succ_self _⟩
        have := T.range e he
        exact ⟨this.1, by omega⟩
      · intro n p hn hlt hp
        have hlt' : n < t.heap.next + 1 := hlt
        show k ≤ p ∧ p < t.heap.next + 1
        have hp' : upd (upd t.heap.parent t.heap.next none) t.heap.next (some q) n = some p := hp
        unfold upd at hp'
        split at hp'
        · cases hp'
          exact ⟨hq.1, by omega⟩
        · next hne =>
          have := T.parent n p hn (by omega) hp'
          exact ⟨this.1, by omega⟩
      · exact le_trans T.first (Nat.le_succ _)
    have hnew : ∀ n, some t.heap.next = some n → k ≤ n ∧ n < t.heap.next + 1 := by
      intro n hn
      cases hn
      exact ⟨T.first, Nat.lt_succ_self _⟩
    have hnext : some t'.heap.next = some t.heap.next := by rw [T.heap]
    rcases src with _ | q
    · rcases hq : t.getNearestNode s.knn v with _ | q
      · exact ⟨rfl, T, fun n hn => by cases hn⟩
      · exact ⟨hnext, key q (nearest_range T hq), hnew⟩
    · exact ⟨hnext, key q (hs q rfl), hnew⟩
  · exact ⟨rfl, T, fun m hm => by cases hm; exact find_range T hf⟩

private theorem start_eq (hσ : ∀ a b, σ a = σ b → a = b) (hh : t'.heap = t.heap) (hr : t'.root = t.root) (init : V) :
    Same σ t.heap.next (t.clear.createRootNode init).1 (t'.clear.createRootNode (σ init)).1 := by
  have hd : t'.clear.dropRoot = t.clear.dropRoot := by
    show t'.dropRoot = t.dropRoot
    unfold Tree.dropRoot
    rw [hh, hr]
  have hn : t.clear.dropRoot.next = t.heap.next := by
    show t.dropRoot.next = _
    unfold Tree.dropRoot
    rcases t.root with _ | q <;> rfl
  unfold Tree.createRootNode
  dsimp only
  rw [hd]
  refine ⟨rfl, rfl, ?_, rfl, ?_, ?_, ?_, ?_⟩
  · rw [show t'.clear.map = (t.clear.map.map fun e => (σ e.1, e.2)) from rfl, insert_map hσ]
  · intro n h1 h2
    have h2' : n < t.clear.dropRoot.next + 1 := h2
    rw [hn] at h2'
    have : n = t.clear.dropRoot.next := by omega
    simp [this]
  · refine insert_range (m := t.clear.map) (v := init)
      (Q := fun n => t.heap.next ≤ n ∧ n < t.clear.dropRoot.next + 1) (fun e he => ?_) ?_
    · cases he
    · omega
  · intro n p h1 h2 hp
    have h2' : n < t.clear.dropRoot.next + 1 := h2
    have hp' : upd t.clear.dropRoot.parent t.clear.dropRoot.next none n = some p := hp
    rw [show n = t.clear.dropRoot.next by omega] at hp'
    simp [upd] at hp'
  · show t.heap.next ≤ t.clear.dropRoot.next + 1
    omega

private theorem steer_eq (hr : 0 < r) (H : SameRRT σ π r s s') (a b : V) :
    s'.steering.steerTowards (σ a) (σ b) s'.maxConnectionDistance =
      π (s.steering.steerTowards a b s.maxConnectionDistance) := by
  unfold Steering.steerTowards
  simp only [H.connect, H.length, H.maxConnectionDistance, mul_pos_iff_of_pos_left hr, mul_div_mul_left _ _ hr.ne',
    H.truncate]
  split <;> rfl

private theorem loop_eq (hr : 0 < r) (H : SameRRT σ π r s s') : ∀ (d count : Nat), s.maxIteration + 1 - count = d →
    ∀ (t : Tree V) (t' : Tree V'), Same σ k t t' →
    (rrtLoop s count t = none → rrtLoop s' count t' = none) ∧
    ∀ q, rrtLoop s count t = some q → ∃ q', rrtLoop s' count t' = some q' ∧ q'.success = q.success ∧
      q'.solution = q.solution ∧ q'.samples = q.samples ∧ Same σ k q.tree q'.tree ∧
      ∀ n, q.solution = some n → k ≤ n ∧ n < q.tree.heap.next := by
  intro d
  induction d using Nat.strong_induction_on with
  | _ d ih =>
    intro count hd t t' T
    have hsz : t'.size = t.size := by simp [Tree.size, T.map]
    rw [rrtLoop.eq_1 s, rrtLoop.eq_1 s', hsz, H.maxIteration, H.maxNumberTreeNode, H.sample]
    split
    · refine ⟨fun h => (by cases h), fun q hq => ?_⟩
      cases hq
      exact ⟨_, rfl, rfl, rfl, rfl, T, fun n hn => by cases hn⟩
    · next hc =>
      split
      · refine ⟨fun h => (by cases h), fun q hq => ?_⟩
        cases hq
        exact ⟨_, rfl, rfl, rfl, rfl, T, fun n hn => by cases hn⟩
      · have hi := ih (s.maxIteration + 1 - (count + 1)) (by omega) (count + 1) rfl
        rw [nearest_eq H T]
        rcases hn : t.getNearestNode s.knn (s.sample count) with _ | n
        · exact hi t t' T
        · have hnr := nearest_range T hn
          simp only [T.state n hnr.1 hnr.2, steer_eq hr H, H.valid, H.final, H.isSolution]
          split
          · exact hi t t' T
          · obtain ⟨h1, h2, h3⟩ := extend_eq H T
              (s.steering.final (s.steering.steerTowards (t.state n) (s.sample count) s.maxConnectionDistance)) (some n)
              (fun m hm => by cases hm; exact hnr)
            revert h1 h2 h3
            generalize t.extend s.knn _ (some n) = e
            generalize t'.extend s'.knn _ (some n) = e'
            rcases e with ⟨e1, _ | e2⟩ <;> rcases e' with ⟨e1', e2'⟩
            · rintro rfl h2 h3
              exact ⟨fun _ => rfl, fun q hq => by cases hq⟩
            · rintro rfl h2 h3
              dsimp only
              split
              · refine ⟨fun h => (by cases h), fun q hq => ?_⟩
                cases hq
                exact ⟨_, rfl, rfl, rfl, rfl, h2, h3⟩
              · exact hi e1 e1' h2

private theorem pathUp_eq (T : Same σ k t t') : ∀ (j : Nat) (n : Option Nat) (acc : List V),
    (∀ m, n = some m → k ≤ m ∧ m < t.heap.next) →
    pathUp t' j n (acc.map σ) = (pathUp t j n acc).map (List.map σ) := by
  intro j
  induction j with
  | zero => intro n acc _; cases n <;> rfl
  | succ j ih =>
    intro n acc hn
    rcases n with _ | n
    · rfl
    · have h := hn n rfl
      simp only [pathUp]
      rw [T.state n h.1 h.2, ← List.map_cons, T.heap]
      exact ih _ _ fun m hm => T.parent n m h.1 h.2 hm

private theorem getPath_eq (T : Same σ k t t') (n : Option Nat) (hn : ∀ m, n = some m → k ≤ m ∧ m < t.heap.next) :
    treeGetPath t' n = (treeGetPath t n).map (List.map σ) := by
  rcases n with _ | n
  · rfl
  · unfold treeGetPath
    dsimp only
    rw [T.heap]
    rcases t.heap.getDepth n with _ | d
    · rfl
    · exact pathUp_eq T (d + 1) (some n) [] hn

/-- C174 for RRT. Write a search in other words, with all lengths multiplied by a positive factor, on a tree with the same
history of nodes. The search is then defined exactly if it was before, it has the same status after as many samples, and
`GetPath` returns the same path in the new words. -/
theorem C174_rrt (hr : 0 < r) (H : SameRRT σ π r s s') (hh : t'.heap = t.heap) (hroot : t'.root = t.root) (init : V) :
    (rrtSearchPath s t init = none → rrtSearchPath s' t' (σ init) = none) ∧
    ∀ q, rrtSearchPath s t init = some q → ∃ q', rrtSearchPath s' t' (σ init) = some q' ∧ q'.success = q.success ∧
      q'.samples = q.samples ∧ q'.tree.heap = q.tree.heap ∧ q'.tree.root = q.tree.root ∧
      treeGetPath q'.tree q'.solution = (treeGetPath q.tree q.solution).map (List.map σ) := by
  have h := loop_eq hr H _ 0 rfl _ _ (start_eq H.injective hh hroot init)
  refine ⟨h.1, fun q hq => ?_⟩
  obtain ⟨q', h1, h2, h3, h4, h5, h6⟩ := h.2 q hq
  refine ⟨q', h1, h2, h4, h5.heap, h5.root, ?_⟩
  rw [h3]
  exact getPath_eq h5 _ h6

/-! ### RRT* -/

private theorem ltInf_map (hr : 0 < r) (a b : Option K) : ltInf (a.map (r * ·)) (b.map (r * ·)) = ltInf a b := by
  rcases a with _ | a <;> rcases b with _ | b <;> simp [ltInf, mul_lt_mul_iff_right₀ hr]

private theorem best_eq (hr : 0 < r) (H : SameRRT σ π r s s') {st : RRTStarState V K} {st' : RRTStarState V' K}
    (T : Same σ k st.tree st'.tree) (hc : ∀ n, st'.cost n = (st.cost n).map (r * ·)) (v : V) (near : List Nat)
    (hn : ∀ n ∈ near, k ≤ n ∧ n < st.tree.heap.next) :
    bestParent s' st' (σ v) near = ((bestParent s st v near).1, (bestParent s st v near).2.map (r * ·)) := by
  unfold bestParent
  suffices h : ∀ (near : List Nat) (a : Option Nat × Option K), (∀ n ∈ near, k ≤ n ∧ n < st.tree.heap.next) →
      near.foldl (fun best node =>
        let path := s'.steering.connect (st'.tree.state node) (σ v)
        let cost := addInf (st'.cost node) (s'.steering.length path)
        if ltInf cost best.2 && s'.valid path then (some node, cost) else best) (a.1, a.2.map (r * ·)) =
      ((near.foldl (fun best node =>
        let path := s.steering.connect (st.tree.state node) v
        let cost := addInf (st.cost node) (s.steering.length path)
        if ltInf cost best.2 && s.valid path then (some node, cost) else best) a).1,
       (near.foldl (fun best node =>
        let path := s.steering.connect (st.tree.state node) v
        let cost := addInf (st.cost node) (s.steering.length path)
        if ltInf cost best.2 && s.valid path then (some node, cost) else best) a).2.map (r * ·)) from
    h near (none, none) hn
  intro near
  induction near with
  | nil => intro a _; rfl
  | cons n near ih =>
    intro a hm
    have hmn := hm n (List.mem_cons_self ..)
    have hcost : addInf ((st.cost n).map (r * ·)) (r * s.steering.length (s.steering.connect (st.tree.state n) v)) =
        (addInf (st.cost n) (s.steering.length (s.steering.connect (st.tree.state n) v))).map (r * ·) := by
      rcases st.cost n with _ | c
      · rfl
      · simp [addInf, mul_add]
    rw [List.foldl_cons, List.foldl_cons]
    dsimp only
    rw [T.state n hmn.1 hmn.2, H.connect, H.length, H.valid, hc, hcost, ltInf_map hr]
    split
    · exact ih (some n, _) fun m hm' => hm m (List.mem_cons_of_mem _ hm')
    · exact ih a fun m hm' => hm m (List.mem_cons_of_mem _ hm')

private structure SameStar (σ : V → V') (r : K) (k : Nat) (st : RRTStarState V K) (st' : RRTStarState V' K) : Prop where
  tree : Same σ k st.tree st'.tree
  cost : ∀ n, st'.cost n = (st.cost n).map (r * ·)

private theorem step_eq (hr : 0 < r) (H : SameRRT σ π r s s') (nn : Nat → Nat) {st : RRTStarState V K}
    {st' : RRTStarState V' K} (T : SameStar σ r k st st') (target : V) :
    (rrtStarStep s nn target st = none → rrtStarStep s' nn (σ target) st' = none) ∧
    ∀ q o, rrtStarStep s nn target st = some (q, o) →
      ∃ q', rrtStarStep s' nn (σ target) st' = some (q', o.map fun x => (x.1, σ x.2)) ∧ SameStar σ r k q q' ∧
        ∀ x, o = some x → k ≤ x.1 ∧ x.1 < q.tree.heap.next := by
  have hsz : st'.tree.size = st.tree.size := by simp [Tree.size, T.tree.map]
  unfold rrtStarStep
  rw [nearest_eq H T.tree]
  rcases hn : st.tree.getNearestNode s.knn target with _ | n
  · refine ⟨fun h => (by cases h), fun q o hq => ?_⟩
    cases hq
    exact ⟨_, rfl, T, fun x hx => by cases hx⟩
  · have hnr := nearest_range T.tree hn
    simp only [T.tree.state n hnr.1 hnr.2, steer_eq hr H, H.valid, H.final, hsz]
    split
    · refine ⟨fun h => (by cases h), fun q o hq => ?_⟩
      cases hq
      exact ⟨_, rfl, T, fun x hx => by cases hx⟩
    · obtain ⟨v, hv⟩ : ∃ v, v = s.steering.final (s.steering.steerTowards (st.tree.state n) target s.maxConnectionDistance) :=
        ⟨_, rfl⟩
      rw [← hv, nodes_eq H T.tree]
      obtain ⟨near, hnear⟩ : ∃ l, l = st.tree.getNearestNodes s.knn v (nn st.tree.size) := ⟨_, rfl⟩
      have hrange : ∀ m ∈ near, k ≤ m ∧ m < st.tree.heap.next := by
        intro m hm
        rw [hnear] at hm
        obtain ⟨p, _, hp⟩ := List.mem_filterMap.1 hm
        exact find_range T.tree hp
      rw [← hnear, best_eq hr H T.tree T.cost v near hrange]
      obtain ⟨h1, h2, h3⟩ := extend_eq H T.tree v (bestParent s st v near).1
        (fun m hm => hrange m (bestParent_mem s st v near m hm))
      revert h1 h2 h3
      dsimp only
      generalize st.tree.extend s.knn _ _ = e
      generalize st'.tree.extend s'.knn _ _ = e'
      rcases e with ⟨e1, _ | e2⟩ <;> rcases e' with ⟨e1', e2'⟩
      · rintro rfl h2 h3
        exact ⟨fun _ => rfl, fun q o hq => by cases hq⟩
      · rintro rfl h2 h3
        refine ⟨fun h => (by cases h), fun q o hq => ?_⟩
        cases hq
        refine ⟨_, rfl, ⟨h2, fun m => ?_⟩, fun x hx => by cases hx; exact h3 e2 rfl⟩
        show upd st'.cost e2 _ m = (upd st.cost e2 _ m).map _
        unfold upd
        split
        · rfl
        · exact T.cost m

private theorem starLoop_eq (hr : 0 < r) (H : SameRRT σ π r s s') (nn : Nat → Nat) : ∀ (d count : Nat),
    s.maxIteration + 1 - count = d → ∀ (st : RRTStarState V K) (st' : RRTStarState V' K), SameStar σ r k st st' →
    (rrtStarLoop s nn count st = none → rrtStarLoop s' nn count st' = none) ∧
    ∀ q, rrtStarLoop s nn count st = some q → ∃ q', rrtStarLoop s' nn count st' = some q' ∧ q'.success = q.success ∧
      q'.solution = q.solution ∧ q'.samples = q.samples ∧ SameStar σ r k q.state q'.state ∧
      ∀ n, q.solution = some n → k ≤ n ∧ n < q.state.tree.heap.next := by
  intro d
  induction d using Nat.strong_induction_on with
  | _ d ih =>
    intro count hd st st' T
    have hsz : st'.tree.size = st.tree.size := by simp [Tree.size, T.tree.map]
    rw [rrtStarLoop.eq_1 s, rrtStarLoop.eq_1 s', hsz, H.maxIteration, H.maxNumberTreeNode, H.sample]
    split
    · refine ⟨fun h => (by cases h), fun q hq => ?_⟩
      cases hq
      exact ⟨_, rfl, rfl, rfl, rfl, T, fun n hn => by cases hn⟩
    · next hc =>
      split
      · refine ⟨fun h => (by cases h), fun q hq => ?_⟩
        cases hq
        exact ⟨_, rfl, rfl, rfl, rfl, T, fun n hn => by cases hn⟩
      · have hi := ih (s.maxIteration + 1 - (count + 1)) (by omega) (count + 1) rfl
        obtain ⟨h1, h2⟩ := step_eq hr H nn T (s.sample count)
        rcases hst : rrtStarStep s nn (s.sample count) st with _ | ⟨q, _ | ⟨n, v⟩⟩
        · rw [h1 hst]
          exact ⟨fun _ => rfl, fun q hq => by cases hq⟩
        · obtain ⟨q', h3, h4, _⟩ := h2 q none hst
          rw [h3]
          exact hi q q' h4
        · obtain ⟨q', h3, h4, h5⟩ := h2 q _ hst
          rw [h3]
          dsimp only [Option.map_some]
          rw [H.isSolution]
          split
          · refine ⟨fun h => (by cases h), fun p hp => ?_⟩
            cases hp
            exact ⟨_, rfl, rfl, rfl, rfl, h4, fun m hm => by cases hm; exact h5 _ rfl⟩
          · exact hi q q' h4

/-- C174 for RRT*: as `C174_rrt`, and the costs of all nodes are multiplied by the factor (`none` is infinity). -/
theorem C174_rrt_star (hr : 0 < r) (H : SameRRT σ π r s s') (nn : Nat → Nat) (hh : t'.heap = t.heap)
    (hroot : t'.root = t.root) (init : V) :
    (rrtStarSearchPath s nn t init = none → rrtStarSearchPath s' nn t' (σ init) = none) ∧
    ∀ q, rrtStarSearchPath s nn t init = some q → ∃ q', rrtStarSearchPath s' nn t' (σ init) = some q' ∧
      q'.success = q.success ∧ q'.samples = q.samples ∧ q'.state.tree.heap = q.state.tree.heap ∧
      q'.state.tree.root = q.state.tree.root ∧
      (∀ n, q'.state.cost n = (q.state.cost n).map (r * ·)) ∧
      treeGetPath q'.state.tree q'.solution = (treeGetPath q.state.tree q.solution).map (List.map σ) := by
  have h := starLoop_eq hr H nn _ 0 rfl ⟨_, fun _ => some 0⟩ ⟨_, fun _ => some 0⟩
    ⟨start_eq H.injective hh hroot init, fun n => by simp⟩
  refine ⟨h.1, fun q hq => ?_⟩
  obtain ⟨q', h1, h2, h3, h4, h5, h6⟩ := h.2 q hq
  refine ⟨q', h1, h2, h4, h5.tree.heap, h5.tree.root, h5.cost, ?_⟩
  rw [h3]
  exact getPath_eq h5.tree _ h6

end RRTUnits
/-! ### The plane -/

/-- Specification: the point in a plane whose unit is `1 / r` and whose origin is at `-c`. -/
noncomputable def Spec.replace (r : ℝ) (c p : Pt) : Pt := ⟨r * p.x + c.x, r * p.y + c.y⟩

/-- Specification: the straight path in that plane. -/
noncomputable def Spec.replacePath (r : ℝ) (c : Pt) (p : PathR2) : PathR2 :=
  ⟨replace r c p.init, replace r c p.final, r * p.length⟩

/-- Specification: the planners are made alike for planes with other units and origins. The validators, the searches for
neighbours and the tests of the goal give the same answers for the same points. -/
structure Spec.SameWorldR2 (r : ℝ) (c : Pt) (w w' : RRTWorld Pt PathR2 ℝ) : Prop where
  steering : w.steering = r2Steering ∧ w'.steering = r2Steering
  valid : ∀ p, w'.valid (replacePath r c p) = w.valid p
  nearest : ∀ l v, w'.knn.nearest (l.map (replace r c)) (replace r c v) = (w.knn.nearest l v).map (replace r c)
  knn : ∀ l v k, w'.knn.knn (l.map (replace r c)) (replace r c v) k = (w.knn.knn l v k).map (replace r c)
  reached : ∀ a b, w'.reached (replace r c a) (replace r c b) = w.reached a b

/-- Specification: the planner is the other one with its states and its maximal connection distance in the other unit; both
have the same history of nodes. -/
structure Spec.SamePlannerR2 (r : ℝ) (c : Pt) (s s' : RRTPlanner Pt ℝ) : Prop where
  params : s'.params = { s.params with maxConnectionDistance := r * s.params.maxConnectionDistance }
  init : s'.init = replace r c s.init
  goal : s'.goal = replace r c s.goal
  heap : s'.tree.heap = s.tree.heap
  root : s'.tree.root = s.tree.root

namespace RRTUnits
variable [DecidableEq Pt] {r : ℝ} {c : Pt} {w w' : RRTWorld Pt PathR2 ℝ} {s s' : RRTPlanner Pt ℝ}

private theorem replace_sub (hr : 0 < r) (a b : Pt) : (replace r c b - replace r c a).norm = r * (b - a).norm := by
  unfold Pt.norm Spec.replace
  rw [show ((⟨r * b.x + c.x, r * b.y + c.y⟩ : Pt) - ⟨r * a.x + c.x, r * a.y + c.y⟩) =
    ⟨r * (b - a).x, r * (b - a).y⟩ by ext <;> simp <;> ring]
  rw [← Real.sqrt_sq hr.le, ← Real.sqrt_mul (sq_nonneg r), Real.sqrt_sq hr.le]
  congr 1
  ring

private theorem same_setup (hr : 0 < r) (W : SameWorldR2 r c w w') (S : SamePlannerR2 r c s s') {space space' : SpaceR2}
    (hlb : space'.lb = replace r c space.lb) (hub : space'.ub = replace r c space.ub) (u : Nat → ℝ) :
    SameRRT (replace r c) (replacePath r c) r
      (s.setup w (RRTPlanner.streamCoin s.params.goalBias u) (RRTPlanner.streamUniform space s.params.goalBias u))
      (s'.setup w' (RRTPlanner.streamCoin s'.params.goalBias u)
        (RRTPlanner.streamUniform space' s'.params.goalBias u)) := by
  have hgb : s'.params.goalBias = s.params.goalBias := by rw [S.params]
  refine ⟨?_, ?_, ?_, ?_, ?_, W.valid, W.nearest, W.knn, ?_, ?_, ?_, ?_, ?_⟩
  · intro a b h
    have hx := congrArg Pt.x h
    have hy := congrArg Pt.y h
    simp only [Spec.replace, add_left_inj, mul_eq_mul_left_iff, hr.ne', or_false] at hx hy
    ext
    · exact hx
    · exact hy
  · intro a b
    simp only [RRTPlanner.setup, W.steering.1, W.steering.2, r2Steering, PathR2.connect, replacePath, replace_sub hr]
  · intro p
    simp only [RRTPlanner.setup, W.steering.1, W.steering.2, r2Steering, replacePath]
  · intro p ratio
    simp only [RRTPlanner.setup, W.steering.1, W.steering.2, r2Steering, replacePath, PathR2.truncate,
      PathR2.interpolate, Pt.lerp, Spec.replace, PathR2.mk.injEq, Pt.mk.injEq]
    refine ⟨trivial, ⟨?_, ?_⟩, ?_⟩ <;> ring
  · intro p
    simp only [RRTPlanner.setup, W.steering.1, W.steering.2, r2Steering, replacePath]
  · intro v
    show w'.reached _ s'.goal = w.reached v s.goal
    rw [S.goal, W.reached]
  · intro i
    show s'.draw _ _ i = replace r c (s.draw _ _ i)
    unfold RRTPlanner.draw
    rw [hgb, S.goal]
    split
    · rfl
    · unfold RRTPlanner.streamUniform SpaceR2.sampleUniform PathPlanning.sampleUniform
      rw [hlb, hub]
      simp only [Spec.replace, Pt.mk.injEq]
      constructor <;> ring
  · simp [RRTPlanner.setup, S.params]
  · simp [RRTPlanner.setup, S.params]
  · simp [RRTPlanner.setup, S.params]

/-- C174 for RRT in the plane, with the random numbers of the program. If the map of a planner, its states, its bounds and
its maximal connection distance are written in another unit and from another origin, then with the same random numbers
`SearchPath` has the same status, and `GetPath` then returns the same path in the new unit and from the new origin. -/
theorem C174_rrt_plane (hr : 0 < r) (W : SameWorldR2 r c w w') (S : SamePlannerR2 r c s s') {space space' : SpaceR2}
    (hlb : space'.lb = replace r c space.lb) (hub : space'.ub = replace r c space.ub) (u : Nat → ℝ) {ok : Bool}
    {q : RRTPlanner Pt ℝ} (h : s.searchR2 w space u = some (ok, q)) :
    ∃ q', s'.searchR2 w' space' u = some (ok, q') ∧ SamePlannerR2 r c q q' ∧
      q'.getPath = q.getPath.map (List.map (replace r c)) := by
  obtain ⟨a, ha, hq⟩ := Option.map_eq_some_iff.1 h
  obtain ⟨b, h1, h2, _, h4, h6, h5⟩ := (C174_rrt hr (same_setup hr W S hlb hub u) S.heap S.root s.init).2 a ha
  cases hq
  refine ⟨{ s' with tree := b.tree, solution := b.solution }, ?_, ⟨S.params, S.init, S.goal, h4, h6⟩, h5⟩
  unfold RRTPlanner.searchR2 RRTPlanner.search
  rw [S.init, h1, Option.map_some, h2]

/-- C174 for RRT* in the plane. -/
theorem C174_rrt_star_plane (hr : 0 < r) (W : SameWorldR2 r c w w') (S : SamePlannerR2 r c s s') {space space' : SpaceR2}
    (hlb : space'.lb = replace r c space.lb) (hub : space'.ub = replace r c space.ub) (nn : Nat → Nat) (u : Nat → ℝ)
    {ok : Bool} {q : RRTPlanner Pt ℝ} (h : s.searchStarR2 w nn space u = some (ok, q)) :
    ∃ q', s'.searchStarR2 w' nn space' u = some (ok, q') ∧ SamePlannerR2 r c q q' ∧
      q'.getPath = q.getPath.map (List.map (replace r c)) := by
  obtain ⟨a, ha, hq⟩ := Option.map_eq_some_iff.1 h
  obtain ⟨b, h1, h2, _, h4, h6, _, h5⟩ := (C174_rrt_star hr (same_setup hr W S hlb hub u) nn S.heap S.root s.init).2 a ha
  cases hq
  refine ⟨{ s' with tree := b.state.tree, solution := b.solution }, ?_, ⟨S.params, S.init, S.goal, h4, h6⟩, h5⟩
  unfold RRTPlanner.searchStarR2 RRTPlanner.searchStar
  rw [S.init, h1, Option.map_some, h2]

/-! ### Cases -/

private theorem argmin_replace {f f' : Pt → ℝ} (hf : ∀ a b, f' (replace r c a) < f' (replace r c b) ↔ f a < f b)
    (l : List Pt) : (l.map (replace r c)).argmin f' = (l.argmin f).map (replace r c) := by
  induction l using List.reverseRecOn with
  | nil => rfl
  | append_singleton l a ih =>
    rw [List.map_append, List.map_singleton, List.argmin_concat, List.argmin_concat, ih]
    rcases l.argmin f with _ | b
    · rfl
    · simp only [Option.map_some, hf]
      split <;> rfl

/-- Exhaustive search for neighbours gives the same answers in all units. -/
private theorem knn_replace (hr : 0 < r) (l : List Pt) (v : Pt) :
    r2KNN.nearest (l.map (replace r c)) (replace r c v) = (r2KNN.nearest l v).map (replace r c) := by
  refine argmin_replace (fun a b => ?_) l
  have e : ∀ a : Pt, ((replace r c v).x - (replace r c a).x) ^ 2 + ((replace r c v).y - (replace r c a).y) ^ 2 =
      r ^ 2 * ((v.x - a.x) ^ 2 + (v.y - a.y) ^ 2) := by
    intro a
    simp only [Spec.replace]
    ring
  rw [e, e]
  exact mul_lt_mul_iff_right₀ (by positivity)

open Classical in
/-- The hypotheses of C174 can be met: a wall at `x = 5` in metres is at `x = 600` in centimetres from an origin that is one
metre further back, and the goal is reached within a distance of half a metre. -/
example : SameWorldR2 100 ⟨100, 0⟩
    { steering := r2Steering, valid := fun p => decide (p.init.x < 5 ∧ p.final.x < 5), knn := r2KNN,
      reached := fun a b => decide ((b - a).norm ≤ 1 / 2) }
    { steering := r2Steering, valid := fun p => decide (p.init.x < 600 ∧ p.final.x < 600), knn := r2KNN,
      reached := fun a b => decide ((b - a).norm ≤ 50) } := by
  refine ⟨⟨rfl, rfl⟩, fun p => ?_, knn_replace (by norm_num), fun l v k => ?_, fun a b => ?_⟩
  · rw [decide_eq_decide]
    simp only [Spec.replacePath, Spec.replace]
    constructor <;> rintro ⟨h1, h2⟩ <;> constructor <;> linarith
  · show (r2KNN.nearest _ _).toList = ((r2KNN.nearest l v).toList).map _
    rw [knn_replace (by norm_num)]
    rcases r2KNN.nearest l v with _ | q <;> rfl
  · rw [decide_eq_decide, replace_sub (by norm_num)]
    constructor <;> intro h <;> linarith

/-- New planners with the parameters, states and bounds in both units meet the hypotheses. -/
example [Inhabited Pt] (init goal : Pt) : SamePlannerR2 100 ⟨100, 0⟩
    { (RRTPlanner.new : RRTPlanner Pt ℝ) with init := init, goal := goal }
    { (RRTPlanner.new : RRTPlanner Pt ℝ) with
      params := { (RRTParams.default : RRTParams ℝ) with maxConnectionDistance := 10 },
      init := replace 100 ⟨100, 0⟩ init, goal := replace 100 ⟨100, 0⟩ goal } :=
  ⟨by simp only [RRTPlanner.new, RRTParams.default, RRTParams.mk.injEq]; norm_num, rfl, rfl, rfl, rfl⟩

end RRTUnits
end PathPlanning
