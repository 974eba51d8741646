import Verif.Spec.RRT
import Verif.Props.RRTR2

/-!
# C104: RRT* attaches new states to the neighbour with the shortest way
-/

namespace PathPlanning
open Spec Tree
variable {V P K : Type} [DecidableEq V] [LinearOrder K] [Field K]

/-- The state in which `SearchPath` starts its loop. -/
def starInit (t : Tree V) (init : V) : RRTStarState V K := ⟨(t.clear.createRootNode init).1, fun _ => some 0⟩

private theorem routeLength_snoc (S : Steering V P K) {L : List V} {a : V} (h : L.getLast? = some a) (v : V) :
    routeLength S (L ++ [v]) = routeLength S L + S.length (S.connect a v) := by
  induction L with
  | nil => cases h
  | cons b L ih =>
    cases L with
    | nil =>
      have : b = a := by simpa using h
      subst this
      simp [routeLength]
    | cons c L =>
      have := ih (by simpa using h)
      simp only [List.cons_append, routeLength] at this ⊢
      rw [this, add_assoc]

private theorem bestParent_cases (s : RRTSetup V P K) (st : RRTStarState V K) (v : V) (near : List Nat) :
    (bestParent s st v near = (none, none) ∧
      ∀ q ∈ near, AcceptedConnection s (st.tree.state q) v → st.cost q = none) ∨
    ∃ p cp, bestParent s st v near = (some p, some (cp + s.steering.length (s.steering.connect (st.tree.state p) v))) ∧
      p ∈ near ∧ st.cost p = some cp ∧
      ∀ q ∈ near, AcceptedConnection s (st.tree.state q) v → ∀ cq, st.cost q = some cq →
        cp + s.steering.length (s.steering.connect (st.tree.state p) v) ≤
          cq + s.steering.length (s.steering.connect (st.tree.state q) v) := by
  induction near using List.reverseRecOn with
  | nil => exact Or.inl ⟨rfl, fun q hq => absurd hq (by simp)⟩
  | append_singleton l a ih =>
    have hb : bestParent s st v (l ++ [a]) =
        if ltInf (addInf (st.cost a) (s.steering.length (s.steering.connect (st.tree.state a) v)))
            (bestParent s st v l).2 && s.valid (s.steering.connect (st.tree.state a) v) then
          (some a, addInf (st.cost a) (s.steering.length (s.steering.connect (st.tree.state a) v)))
        else bestParent s st v l := by
      unfold bestParent
      rw [List.foldl_append, List.foldl_cons, List.foldl_nil]
    rw [hb]
    cases hv : s.valid (s.steering.connect (st.tree.state a) v) with
    | false =>
      rw [Bool.and_false, if_neg (by simp)]
      have hna : ∀ q, q ∈ l ++ [a] → AcceptedConnection s (st.tree.state q) v → q ∈ l := by
        intro q hq hqv
        rcases List.mem_append.mp hq with h | h
        · exact h
        · rw [List.mem_singleton.mp h] at hqv
          have hqv' : s.valid (s.steering.connect (st.tree.state a) v) = true := hqv
          rw [hv] at hqv'; cases hqv'
      rcases ih with ⟨h1, h2⟩ | ⟨p, cp, h1, h2, h3, h4⟩
      · exact Or.inl ⟨h1, fun q hq hqv => h2 q (hna q hq hqv) hqv⟩
      · exact Or.inr ⟨p, cp, h1, List.mem_append_left _ h2, h3, fun q hq hqv => h4 q (hna q hq hqv) hqv⟩
    | true =>
      rw [Bool.and_true]
      cases hca : st.cost a with
      | none =>
        rw [if_neg (by simp [addInf, ltInf])]
        rcases ih with ⟨h1, h2⟩ | ⟨p, cp, h1, h2, h3, h4⟩
        · refine Or.inl ⟨h1, fun q hq hqv => ?_⟩
          rcases List.mem_append.mp hq with h | h
          · exact h2 q h hqv
          · rw [List.mem_singleton.mp h, hca]
        · refine Or.inr ⟨p, cp, h1, List.mem_append_left _ h2, h3, fun q hq hqv cq hcq => ?_⟩
          rcases List.mem_append.mp hq with h | h
          · exact h4 q h hqv cq hcq
          · rw [List.mem_singleton.mp h, hca] at hcq; cases hcq
      | some ca =>
        rcases ih with ⟨h1, h2⟩ | ⟨p, cp, h1, h2, h3, h4⟩
        · rw [h1, if_pos (by simp [addInf, ltInf])]
          refine Or.inr ⟨a, ca, rfl, by simp, hca, fun q hq hqv cq hcq => ?_⟩
          rcases List.mem_append.mp hq with h | h
          · rw [h2 q h hqv] at hcq; cases hcq
          · rw [List.mem_singleton.mp h] at hcq ⊢
            rw [hca] at hcq; cases hcq; exact le_refl _
        · rw [h1]
          by_cases hlt : ca + s.steering.length (s.steering.connect (st.tree.state a) v) <
              cp + s.steering.length (s.steering.connect (st.tree.state p) v)
          · rw [if_pos (by simpa [addInf, ltInf] using hlt)]
            refine Or.inr ⟨a, ca, rfl, by simp, hca, fun q hq hqv cq hcq => ?_⟩
            rcases List.mem_append.mp hq with h | h
            · exact le_trans (le_of_lt hlt) (h4 q h hqv cq hcq)
            · rw [List.mem_singleton.mp h] at hcq ⊢
              rw [hca] at hcq; cases hcq; exact le_refl _
          · rw [if_neg (by simpa [addInf, ltInf] using hlt)]
            refine Or.inr ⟨p, cp, rfl, List.mem_append_left _ h2, h3, fun q hq hqv cq hcq => ?_⟩
            rcases List.mem_append.mp hq with h | h
            · exact h4 q h hqv cq hcq
            · rw [List.mem_singleton.mp h] at hcq ⊢
              rw [hca] at hcq; cases hcq; exact not_lt.mp hlt

/-- The costs of the nodes are the lengths of their paths. -/
private structure CInv (s : RRTSetup V P K) (init : V) (st : RRTStarState V K) : Prop where
  r : RInv (fun _ _ => True) init st.tree
  root : ∀ r, st.tree.root = some r → st.cost r = some 0
  edge : ∀ n p, st.tree.heap.alive n → st.tree.heap.parent n = some p → ∀ c, st.cost n = some c →
    ∃ cp, st.cost p = some cp ∧ c = cp + s.steering.length (s.steering.connect (st.tree.state p) (st.tree.state n))

private theorem CInv.up {s : RRTSetup V P K} {init : V} {st : RRTStarState V K} (I : CInv s init st) {x d : Nat}
    (hd : Depth st.tree.heap x d) (hx : st.tree.heap.alive x) (c : K) (hc : st.cost x = some c) :
    ∃ L : List V, (∀ acc, pathUp st.tree (d + 1) (some x) acc = some (L ++ acc)) ∧ L.head? = some init ∧
      L.getLast? = some (st.tree.state x) ∧ routeLength s.steering L = c := by
  induction hd generalizing c with
  | @root x hp =>
    have hr := (I.r.inv.root_iff x).mpr ⟨hx, hp⟩
    obtain ⟨r, hr', hri⟩ := I.r.root
    have h0 := I.root x hr
    rw [hc] at h0
    rw [hr] at hr'; cases hr'
    cases h0
    exact ⟨[st.tree.state x], fun acc => rfl, by simp [hri], by simp, rfl⟩
  | @child x a d hp _ ih =>
    obtain ⟨cp, h5, h6⟩ := I.edge x a hx hp c hc
    obtain ⟨L, h1, h2, h3, h4⟩ := ih (I.r.inv.forest.parent_alive _ _ hx hp) cp h5
    refine ⟨L ++ [st.tree.state x], fun acc => ?_, ?_, by simp, ?_⟩
    · rw [pathUp, hp, h1]; simp
    · rw [List.head?_append, h2]; rfl
    · rw [routeLength_snoc s.steering h3, h4, h6]

private theorem CInv.path {s : RRTSetup V P K} {init : V} {st : RRTStarState V K} (I : CInv s init st) {n : Nat}
    (hn : st.tree.heap.alive n) {c : K} (hc : st.cost n = some c) :
    ∃ L : List V, treeGetPath st.tree (some n) = some L ∧ L.head? = some init ∧
      L.getLast? = some (st.tree.state n) ∧ routeLength s.steering L = c := by
  obtain ⟨d, hd, hdep⟩ := C22_depth I.r.inv.forest n hn
  obtain ⟨L, h1, h2, h3, h4⟩ := I.up hdep hn c hc
  refine ⟨L, ?_, h2, h3, h4⟩
  show (st.tree.heap.getDepth n).bind _ = _
  rw [hd]
  simpa using h1 []

private theorem cinv_start {t : Tree V} (I : TreeInv t) (s : RRTSetup V P K) (init : V) :
    CInv s init (starInit t init) := by
  have R := (rinv_start I (fun _ _ => True) init).1
  refine ⟨R, fun _ _ => rfl, fun n p hn hp => ?_⟩
  -- the only node is the root
  obtain ⟨R', -⟩ := rinv_start I (fun _ _ => False) init
  exact (R'.edge n p hn hp).elim

/-- What an iteration does to a tree it does not repeat a state of. -/
private theorem cinv_step {D : Type} [LE D] {dist : V → V → D} {s : RRTSetup V P K} (L : NearestLaws s.knn dist)
    {nn : Nat → Nat} {init target : V} {st st' : RRTStarState V K} {new : Option (Nat × V)} (I : CInv s init st)
    (h : rrtStarStep s nn target st = some (st', new)) (hfresh : ∀ n v, new = some (n, v) → st.tree.find v = none) :
    CInv s init st' ∧ (new = none → st' = st) ∧ ∀ n v, new = some (n, v) →
      st'.tree.heap.alive n ∧ st'.tree.state n = v ∧ st'.cost n = (bestParent s st v
        (st.tree.getNearestNodes s.knn v (nn st.tree.size))).2 ∧
      (∀ x, st'.tree.heap.alive x ↔ st.tree.heap.alive x ∨ x = n) ∧
      (∀ x, st.tree.heap.alive x → x ≠ n ∧ st'.cost x = st.cost x ∧ st'.tree.state x = st.tree.state x ∧
        st'.tree.heap.parent x = st.tree.heap.parent x) ∧
      ∃ nearest, st.tree.heap.alive nearest ∧ s.knn.nearest st.tree.points target = some (st.tree.state nearest) ∧
        s.valid (s.steering.steerTowards (st.tree.state nearest) target s.maxConnectionDistance) = true ∧
        v = s.steering.final (s.steering.steerTowards (st.tree.state nearest) target s.maxConnectionDistance) := by
  unfold rrtStarStep at h
  cases hnear : st.tree.getNearestNode s.knn target with
  | none =>
    rw [hnear] at h
    cases h
    exact ⟨I, fun _ => rfl, by simp⟩
  | some nearest =>
    rw [hnear] at h
    dsimp only at h
    obtain ⟨hna, hnp, _⟩ := (nearestNode_spec L I.r.inv _).2 nearest hnear
    cases hv : s.valid (s.steering.steerTowards (st.tree.state nearest) target s.maxConnectionDistance) with
    | false =>
      simp only [hv, Bool.not_false, if_true] at h
      cases h
      exact ⟨I, fun _ => rfl, by simp⟩
    | true =>
      simp only [hv, Bool.not_true, Bool.false_eq_true, if_false] at h
      obtain ⟨v, hvv⟩ : ∃ v, v = s.steering.final (s.steering.steerTowards (st.tree.state nearest) target
        s.maxConnectionDistance) := ⟨_, rfl⟩
      rw [← hvv] at h
      obtain ⟨best, hb⟩ : ∃ b, b = bestParent s st v (st.tree.getNearestNodes s.knn v (nn st.tree.size)) := ⟨_, rfl⟩
      rw [← hb] at h
      have hcases := bestParent_cases s st v (st.tree.getNearestNodes s.knn v (nn st.tree.size))
      rw [← hb] at hcases
      have hsrc : ∀ m, best.1 = some m → st.tree.heap.alive m := by
        intro m hm
        rcases hcases with ⟨h1, -⟩ | ⟨p, cp, h1, h2, -⟩
        · rw [h1] at hm; cases hm
        · rw [h1] at hm
          cases hm
          obtain ⟨u, _, hu⟩ := List.mem_filterMap.mp h2
          exact (I.r.inv.find_some.mp hu).1
      obtain ⟨r, hr, hri⟩ := I.r.root
      rcases extend_cases L I.r.inv v best.1 hsrc with ⟨n, h1, h2, he⟩ | ⟨_, h2, _⟩ | ⟨p, t', hf, hs, hss, he, I', ht⟩
      · rw [he] at h
        cases h
        have := hfresh n v rfl
        rw [I.r.inv.find_some.mpr ⟨h1, h2⟩] at this
        cases this
      · rw [hr] at h2; cases h2
      · obtain ⟨t'', n', he', R', -⟩ := rinv_extend L I.r (v := v) (src := best.1) hsrc (fun _ _ _ _ => trivial)
        rw [he] at he' h
        cases he'
        dsimp only at h
        cases h
        have hne : ∀ x, st.tree.heap.alive x → x ≠ st.tree.heap.next := fun x hx =>
          Nat.ne_of_lt (I.r.inv.forest.fresh x hx)
        have hst : ∀ x, st.tree.heap.alive x → t'.state x = st.tree.state x := by
          intro x hx; rw [ht]; simp [hne x hx]
        have hstn : t'.state st.tree.heap.next = v := by rw [ht]; simp
        have hpar : ∀ x, st.tree.heap.alive x → t'.heap.parent x = st.tree.heap.parent x := by
          intro x hx; rw [ht]
          show upd _ _ _ _ = _
          rw [upd_ne _ _ (hne x hx)]
          exact upd_ne _ _ (hne x hx)
        have hparn : t'.heap.parent st.tree.heap.next = some p := by rw [ht]; exact upd_same ..
        have hal : ∀ x, t'.heap.alive x ↔ st.tree.heap.alive x ∨ x = st.tree.heap.next := by
          intro x; rw [ht]; exact Iff.rfl
        have hroot : t'.root = st.tree.root := by rw [ht]
        refine ⟨⟨R', ?_, ?_⟩, by simp, ?_⟩
        · intro r0 hr0
          dsimp only at hr0 ⊢
          rw [hroot] at hr0
          rw [upd_ne _ _ (hne r0 ((I.r.inv.root_iff r0).mp hr0).1)]
          exact I.root r0 hr0
        · intro n q hn hq c hc
          dsimp only at hn hq hc ⊢
          rcases (hal n).mp hn with hn | rfl
          · rw [hpar n hn] at hq
            have hqa := I.r.inv.forest.parent_alive _ _ hn hq
            rw [upd_ne _ _ (hne n hn)] at hc
            rw [upd_ne _ _ (hne q hqa), hst n hn, hst q hqa]
            exact I.edge n q hn hq c hc
          · rw [hparn] at hq; cases hq
            rw [upd_same] at hc
            rw [upd_ne _ _ (hne p hs), hst p hs, hstn]
            rcases hcases with ⟨h1, -⟩ | ⟨p', cp, h1, h2, h3, -⟩
            · rw [h1] at hc; cases hc
            · rw [h1] at hc hss
              rcases hss with hss | ⟨hss, -⟩
              · cases hss; cases hc
                exact ⟨cp, h3, rfl⟩
              · cases hss
        · intro n v' hnv
          cases hnv
          refine ⟨(hal _).mpr (Or.inr rfl), hstn, by dsimp only; rw [upd_same, hb], hal, fun x hx => ⟨hne x hx, ?_, hst x hx, hpar x hx⟩,
            nearest, hna, hnp, hv, hvv⟩
          exact upd_ne _ _ (hne x hx)

private theorem starState_inv {D : Type} [LE D] {dist : V → V → D} {s : RRTSetup V P K} (L : NearestLaws s.knn dist)
    {nn : Nat → Nat} {init : V} {t : Tree V} (I : TreeInv t) {N : Nat} (hnr : NoRepeats s nn (starInit t init) N)
    {k : Nat} (hk : k ≤ N) {st : RRTStarState V K} (h : starState s nn (starInit t init) k = some st) :
    CInv s init st := by
  induction k generalizing st with
  | zero => cases h; exact cinv_start I s init
  | succ k ih =>
    obtain ⟨st0, h0, h1⟩ := Option.bind_eq_some_iff.mp h
    obtain ⟨⟨st1, new⟩, h2, h3⟩ := Option.map_eq_some_iff.mp h1
    cases h3
    exact (cinv_step L (ih (by omega) h0) h2 fun n v e => hnr k (by omega) st0 _ n v h0 (by rw [h2, e])).1

/-- C104, partial: as long as no iteration ends in a state that is in the tree already, RRT* attaches each new state `v` to
the neighbour through which the path from the start is shortest, among the neighbours with an accepted connection to `v` and a
path of accepted connections (finite cost). Missing: repeated states, for which it is false (`C104_longer_than_needed`). -/
theorem C104_shortest_through_neighbours_partial [Inhabited V] {D : Type} [LE D] {dist : V → V → D}
    (s : RRTSetup V P K) (L : NearestLaws s.knn dist) (nn : Nat → Nat) (t : Tree V) (ht : TreeReachable s.knn t) (init : V)
    (N : Nat) (hnr : NoRepeats s nn (starInit t init) N) {k : Nat} (hk : k < N) {st st' : RRTStarState V K} {n : Nat} {v : V}
    (hst : starState s nn (starInit t init) k = some st)
    (hstep : rrtStarStep s nn (s.sample k) st = some (st', some (n, v)))
    {q : Nat} (hq : q ∈ st.tree.getNearestNodes s.knn v (nn st.tree.size))
    (hqv : AcceptedConnection s (st.tree.state q) v) (hqc : st.cost q ≠ none) :
    ∃ path pathq, treeGetPath st'.tree (some n) = some path ∧ path.head? = some init ∧ path.getLast? = some v ∧
      treeGetPath st.tree (some q) = some pathq ∧ pathq.head? = some init ∧ pathq.getLast? = some (st.tree.state q) ∧
      routeLength s.steering path ≤ routeLength s.steering (pathq ++ [v]) := by
  have I := starState_inv L (treeInv_reachable L ht) hnr (le_of_lt hk) hst
  obtain ⟨I', -, h⟩ := cinv_step L I hstep fun n v e => by cases e; exact hnr k hk st st' n v hst hstep
  obtain ⟨hn, hsn, hcn, -⟩ := h n v rfl
  obtain ⟨cq, hcq⟩ := Option.ne_none_iff_exists'.mp hqc
  obtain ⟨u, -, hu⟩ := List.mem_filterMap.mp hq
  have hqa := (I.r.inv.find_some.mp hu).1
  rcases bestParent_cases s st v (st.tree.getNearestNodes s.knn v (nn st.tree.size)) with
    ⟨-, h2⟩ | ⟨p, cp, h1, -, -, h4⟩
  · exact absurd (h2 q hq hqv) hqc
  · rw [h1] at hcn
    obtain ⟨path, h5, h6, h7, h8⟩ := I'.path hn hcn
    obtain ⟨pathq, h9, h10, h11, h12⟩ := I.path hqa hcq
    refine ⟨path, pathq, h5, h6, by rw [h7, hsn], h9, h10, h11, ?_⟩
    rw [routeLength_snoc s.steering h11, h8, h12]
    exact h4 q hq hqv cq hcq

/-- Every node has a path of accepted connections, as in `C27_rrtStar_path_partial`. -/
private theorem starState_finite [Inhabited V] {D : Type} [LE D] {dist : V → V → D}
    (s : RRTSetup V P K) (L : NearestLaws s.knn dist) (nn : Nat → Nat) (t : Tree V) (ht : TreeReachable s.knn t) (init : V)
    (ha : ∀ pts target a k, s.knn.nearest pts target = some a →
      s.valid (s.steering.steerTowards a target s.maxConnectionDistance) = true →
      a ∈ s.knn.knn pts (s.steering.final (s.steering.steerTowards a target s.maxConnectionDistance)) (nn k))
    (hb : ∀ a target, s.valid (s.steering.steerTowards a target s.maxConnectionDistance) = true →
      AcceptedConnection s a (s.steering.final (s.steering.steerTowards a target s.maxConnectionDistance)))
    (N : Nat) (hnr : NoRepeats s nn (starInit t init) N) {k : Nat} (hk : k ≤ N) {st : RRTStarState V K}
    (h : starState s nn (starInit t init) k = some st) : ∀ x, st.tree.heap.alive x → st.cost x ≠ none := by
  induction k generalizing st with
  | zero =>
    cases h
    intro x _ hx
    cases hx
  | succ k ih =>
    obtain ⟨st0, h0, h1⟩ := Option.bind_eq_some_iff.mp h
    obtain ⟨⟨st1, new⟩, h2, h3⟩ := Option.map_eq_some_iff.mp h1
    cases h3
    have I0 := starState_inv L (treeInv_reachable L ht) hnr (show k ≤ N by omega) h0
    obtain ⟨-, hnone, hnew⟩ := cinv_step L I0 h2 fun n v e => hnr k (by omega) st0 _ n v h0 (by rw [h2, e])
    cases new with
    | none => rw [hnone rfl]; exact ih (by omega) h0
    | some nv =>
      obtain ⟨n, v⟩ := nv
      obtain ⟨-, -, hc, hal, hold, nearest, hna, hnp, hv, hvv⟩ := hnew n v rfl
      intro x hx
      rcases (hal x).mp hx with hx | rfl
      · show st1.cost x ≠ none
        rw [(hold x hx).2.1]; exact ih (by omega) h0 x hx
      · show st1.cost x ≠ none
        rw [hc]
        have hmem : nearest ∈ st0.tree.getNearestNodes s.knn v (nn st0.tree.size) := by
          refine List.mem_filterMap.mpr ⟨_, by rw [hvv]; exact ha _ _ _ st0.tree.size hnp hv, ?_⟩
          exact I0.r.inv.find_some.mpr ⟨hna, rfl⟩
        rcases bestParent_cases s st0 v (st0.tree.getNearestNodes s.knn v (nn st0.tree.size)) with
          ⟨-, h5⟩ | ⟨p, cp, h5, -⟩
        · exact absurd (h5 nearest hmem (by rw [hvv]; exact hb _ _ hv)) (ih (by omega) h0 nearest hna)
        · rw [h5]; simp

/-- C104 in the plane, partial: for straight connections, Euclidean nearest neighbours and neighbour queries that return the
nearest point, the path to the new point is at most as long as the path to any neighbour followed by the segment from it, if
the validator accepts this segment. Missing: as in `C104_shortest_through_neighbours_partial`. -/
theorem C104_r2_partial [DecidableEq Pt] [Inhabited Pt] (s : RRTSetup Pt PathR2 ℝ)
    (hsteer : s.steering = r2Steering) (hd : 0 ≤ s.maxConnectionDistance)
    (L : NearestLaws s.knn (fun v p : Pt => (v.x - p.x) ^ 2 + (v.y - p.y) ^ 2)) (nn : Nat → Nat)
    (hnn : ∀ pts v k p, s.knn.nearest pts v = some p → p ∈ s.knn.knn pts v (nn k))
    (t : Tree Pt) (ht : TreeReachable s.knn t) (init : Pt)
    (N : Nat) (hnr : NoRepeats s nn (starInit t init) N) {k : Nat} (hk : k < N) {st st' : RRTStarState Pt ℝ} {n : Nat} {v : Pt}
    (hst : starState s nn (starInit t init) k = some st)
    (hstep : rrtStarStep s nn (s.sample k) st = some (st', some (n, v)))
    {q : Nat} (hq : q ∈ st.tree.getNearestNodes s.knn v (nn st.tree.size))
    (hqv : s.valid (PathR2.connect (st.tree.state q) v) = true) :
    ∃ path pathq, treeGetPath st'.tree (some n) = some path ∧ path.head? = some init ∧ path.getLast? = some v ∧
      treeGetPath st.tree (some q) = some pathq ∧ pathq.head? = some init ∧ pathq.getLast? = some (st.tree.state q) ∧
      routeLength r2Steering path ≤ routeLength r2Steering (pathq ++ [v]) := by
  have hqv' : AcceptedConnection s (st.tree.state q) v := by
    show s.valid (s.steering.connect _ _) = true
    rw [hsteer]; exact hqv
  have I := starState_inv L (treeInv_reachable L ht) hnr (le_of_lt hk) hst
  obtain ⟨u, -, hu⟩ := List.mem_filterMap.mp hq
  have hqc := starState_finite s L nn t ht init (r2_nearest_of_final s hsteer hd L nn hnn)
    (r2_direct_connection s hsteer hd) N hnr (le_of_lt hk) hst q (I.r.inv.find_some.mp hu).1
  rw [← hsteer]
  exact C104_shortest_through_neighbours_partial s L nn t ht init N hnr hk hst hstep hq hqv' hqc

/-- C104: later iterations do not change the path of a node. -/
theorem C104_paths_are_kept [Inhabited V] {D : Type} [LE D] {dist : V → V → D}
    (s : RRTSetup V P K) (L : NearestLaws s.knn dist) (nn : Nat → Nat) (t : Tree V) (ht : TreeReachable s.knn t) (init : V)
    (N : Nat) (hnr : NoRepeats s nn (starInit t init) N) {k : Nat} (hk : k < N) {st st' : RRTStarState V K}
    {new : Option (Nat × V)} (hst : starState s nn (starInit t init) k = some st)
    (hstep : rrtStarStep s nn (s.sample k) st = some (st', new)) (q : Nat) (hq : st.tree.heap.alive q) :
    treeGetPath st'.tree (some q) = treeGetPath st.tree (some q) := by
  have I := starState_inv L (treeInv_reachable L ht) hnr (le_of_lt hk) hst
  obtain ⟨I', hnone, h⟩ := cinv_step L I hstep fun n v e => by subst e; exact hnr k hk st st' n v hst hstep
  cases new with
  | none => rw [hnone rfl]
  | some nv =>
    obtain ⟨n, v⟩ := nv
    obtain ⟨-, -, -, hal, hold, -⟩ := h n v rfl
    have key : ∀ {x d : Nat}, Depth st.tree.heap x d → st.tree.heap.alive x →
        Depth st'.tree.heap x d ∧ ∀ j acc, pathUp st'.tree j (some x) acc = pathUp st.tree j (some x) acc := by
      intro x d hd
      induction hd with
      | @root x hp =>
        intro hx
        obtain ⟨-, -, hs, hpar⟩ := hold x hx
        refine ⟨.root (by rw [hpar, hp]), fun j acc => ?_⟩
        cases j with
        | zero => rfl
        | succ j =>
          rw [pathUp, pathUp, hpar, hp, hs]
          cases j <;> rfl
      | @child x a d hp _ ih =>
        intro hx
        obtain ⟨-, -, hs, hpar⟩ := hold x hx
        obtain ⟨h1, h2⟩ := ih (I.r.inv.forest.parent_alive _ _ hx hp)
        refine ⟨.child (by rw [hpar, hp]) h1, fun j acc => ?_⟩
        cases j with
        | zero => rfl
        | succ j => rw [pathUp, pathUp, hpar, hp, hs, h2]
    obtain ⟨d, hd, hdep⟩ := C22_depth I.r.inv.forest q hq
    obtain ⟨h1, h2⟩ := key hdep hq
    obtain ⟨d', hd', hdep'⟩ := C22_depth I'.r.inv.forest q ((hal q).mpr (Or.inl hq))
    have hdd : ∀ {x d e : Nat}, Depth st'.tree.heap x d → Depth st'.tree.heap x e → d = e := by
      intro x d e h1
      induction h1 generalizing e with
      | root hp =>
        intro h2
        cases h2 with
        | root => rfl
        | child hp' => rw [hp] at hp'; cases hp'
      | child hp _ ih =>
        intro h2
        cases h2 with
        | root hp' => rw [hp] at hp'; cases hp'
        | child hp' h2 =>
          rw [hp] at hp'; cases hp'
          rw [ih h2]
    have : d' = d := hdd hdep' h1
    subst this
    show (st'.tree.heap.getDepth q).bind _ = (st.tree.heap.getDepth q).bind _
    rw [hd, hd']
    exact h2 _ _

/-- The search goes through these states. -/
theorem C104_search_runs (s : RRTSetup V P K) (nn : Nat → Nat) (t : Tree V) (init : V) (r : RRTStarResult V K)
    (h : rrtStarSearchPath s nn t init = some r) :
    starState s nn (starInit t init) r.samples = some r.state := by
  have key : ∀ (k count : Nat) (st : RRTStarState V K), s.maxIteration + 1 - count = k →
      starState s nn (starInit t init) count = some st → rrtStarLoop s nn count st = some r →
      starState s nn (starInit t init) r.samples = some r.state := by
    intro k
    induction k with
    | zero =>
      intro count st hk hst h
      rw [rrtStarLoop, if_pos (by omega)] at h
      cases h; exact hst
    | succ k ih =>
      intro count st hk hst h
      rw [rrtStarLoop, if_neg (by omega)] at h
      split at h
      · cases h; exact hst
      · cases hs : rrtStarStep s nn (s.sample count) st with
        | none => rw [hs] at h; cases h
        | some x =>
          obtain ⟨st1, new⟩ := x
          have hst1 : starState s nn (starInit t init) (count + 1) = some st1 := by
            rw [starState, hst, Option.bind_some, hs]; rfl
          rw [hs] at h
          cases new with
          | none => exact ih (count + 1) st1 (by omega) hst1 h
          | some nv =>
            obtain ⟨n, v⟩ := nv
            dsimp only at h
            split at h
            · cases h; exact hst1
            · exact ih (count + 1) st1 (by omega) hst1 h
  exact key _ 0 _ rfl rfl h

/-! ## Examples -/

private def insertNear (v p : Int) : List Int → List Int
  | [] => [p]
  | q :: l => if (p - v).natAbs < (q - v).natAbs then p :: q :: l else q :: insertNear v p l

private theorem mem_insertNear (v p x : Int) (l : List Int) : x ∈ insertNear v p l ↔ x = p ∨ x ∈ l := by
  induction l with
  | nil => simp [insertNear]
  | cons q l ih =>
    rw [insertNear]
    split
    · simp
    · simp only [List.mem_cons, ih]; tauto

/-- The `k` nearest points, nearest first. -/
def exKNN2 : KNN Int where
  nearest := exKNN.nearest
  knn pts v k := (pts.foldl (fun l p => insertNear v p l) []).take k

theorem exKNN2_laws : NearestLaws exKNN2 (fun v p : Int => (p - v).natAbs) where
  some_of_ne := exKNN_laws.some_of_ne
  mem := exKNN_laws.mem
  min := exKNN_laws.min
  knn_mem pts v k p h := by
    have key : ∀ (pts l : List Int), p ∈ pts.foldl (fun l p => insertNear v p l) l → p ∈ pts ∨ p ∈ l := by
      intro pts
      induction pts with
      | nil => intro l h; exact Or.inr h
      | cons a pts ih =>
        intro l h
        rcases ih _ h with h | h
        · exact Or.inl (List.mem_cons_of_mem _ h)
        · rcases (mem_insertNear v a p l).mp h with h | h
          · exact Or.inl (by rw [h]; exact List.mem_cons_self ..)
          · exact Or.inr h
    rcases key _ _ (List.mem_of_mem_take h) with h | h
    · exact h
    · cases h

/-- A line on which the direct way from 0 to 5 is blocked; `samples` are the random states. -/
def exStar (samples : List Int) (goal : Int) : RRTSetup Int (Int × Int × Bool) ℚ where
  steering := exSteering
  valid p := p.2.2 || !(p.1 == 0 && p.2.1 == 5)
  knn := exKNN2
  isSolution v := v == goal
  sample i := samples.getD i goal
  maxIteration := 20
  maxNumberTreeNode := 20
  maxConnectionDistance := 10

private theorem noRepeats_of_check (s : RRTSetup V P K) (nn : Nat → Nat) (i : RRTStarState V K) (N : Nat)
    (h : ∀ k < N, ((starState s nn i k).bind fun st => (rrtStarStep s nn (s.sample k) st).map fun x =>
      match x.2 with
      | none => true
      | some (_, v) => (st.tree.find v).isNone) ≠ some false) : NoRepeats s nn i N := by
  intro k hk st st' n v h1 h2
  have := h k hk
  rw [h1, Option.bind_some, h2] at this
  cases hf : st.tree.find v with
  | none => rfl
  | some m => simp [hf] at this

/-- A search in which no state is repeated; the goal 8 is attached to 3, the farther of the two neighbours 3 and 5, since 5
was only reached by a detour. -/
example : NoRepeats (exStar [-2, 5, 3] 8) (fun _ => 2) (starInit Tree.new 0) 4 ∧
    (rrtStarSearchPath (exStar [-2, 5, 3] 8) (fun _ => 2) Tree.new 0).bind
      (fun r => (treeGetPath r.state.tree r.solution).map fun p => (r.success, p, r.samples)) =
        some (true, [0, 3, 8], 4) := by
  refine ⟨noRepeats_of_check _ _ _ _ ?_, by decide +kernel⟩
  decide +kernel

/-- The hypothesis on repeated states can be met in the plane. -/
example [DecidableEq Pt] [Inhabited Pt] : NoRepeats r2Setup (fun _ => 1) (starInit Tree.new ⟨0, 0⟩) 1 := by
  intro k hk st st' n v h1 h2
  obtain rfl : k = 0 := by omega
  cases h1
  have hf : ∀ v : Pt, Tree.find (starInit (K := ℝ) (Tree.new : Tree Pt) ⟨0, 0⟩).tree v = if (⟨0, 0⟩ : Pt) = v then some 0 else none := by
    intro v
    by_cases hv : (⟨0, 0⟩ : Pt) = v
    · simp [starInit, Tree.find, Tree.createRootNode, Tree.new, Tree.clear, Tree.dropRoot, Heap.empty, Tree.insertMap, hv]
    · simp [starInit, Tree.find, Tree.createRootNode, Tree.new, Tree.clear, Tree.dropRoot, Heap.empty, Tree.insertMap, hv]
  have hn : Tree.getNearestNode r2Setup.knn (starInit (K := ℝ) (Tree.new : Tree Pt) ⟨0, 0⟩).tree ⟨10, 0⟩ = some 0 := by
    show (List.argmin (fun p : Pt => ((10 : ℝ) - p.x) ^ 2 + ((0 : ℝ) - p.y) ^ 2) [⟨0, 0⟩]).bind _ = _
    rw [List.argmin_singleton]
    exact (hf _).trans (if_pos rfl)
  unfold rrtStarStep at h2
  rw [show r2Setup.sample 0 = ⟨10, 0⟩ from rfl, hn] at h2
  simp only [show r2Setup.valid _ = true from rfl, Bool.not_true, Bool.false_eq_true, if_false] at h2
  split at h2
  · cases h2
  · cases h2
    rw [hf, if_neg]
    intro h
    have h3 : (0 : ℝ) = (r2Steering.steerTowards ⟨0, 0⟩ ⟨10, 0⟩ 1).final.x := congrArg Pt.x h
    have hl : r2Steering.length (r2Steering.connect ⟨0, 0⟩ ⟨10, 0⟩) = 10 := by
      show √(_ + _) = (10 : ℝ)
      rw [show ∀ x : ℝ, √x = 10 ↔ x = 100 from fun x => by
        rw [Real.sqrt_eq_iff_mul_self_eq_of_pos (by norm_num)]; constructor <;> intro h <;> linarith]
      norm_num
    unfold Steering.steerTowards at h3
    dsimp only at h3
    rw [hl, if_pos (by norm_num)] at h3
    have h4 : (0 : ℝ) = (1 - clampK (1 / 10 : ℝ) 0 1) * 0 + clampK (1 / 10 : ℝ) 0 1 * 10 := h3
    rw [clampK, if_neg (by norm_num), if_neg (by norm_num)] at h4
    norm_num at h4

/-- C104 fails in general: when an iteration ends in a state that is in the tree already, the cost of its node is overwritten
although its parent stays. Here the path returned has length 12, and the neighbour 3 of the goal gives one of length 8. -/
theorem C104_longer_than_needed :
    ∃ (s : RRTSetup Int (Int × Int × Bool) ℚ) (k : Nat) (st : RRTStarState Int ℚ) (st' : RRTStarState Int ℚ) (n q : Nat)
      (path pathq : List Int),
      NearestLaws s.knn (fun v p : Int => (p - v).natAbs) ∧
      starState s (fun _ => 2) (starInit Tree.new 0) k = some st ∧
      rrtStarStep s (fun _ => 2) (s.sample k) st = some (st', some (n, 8)) ∧ s.isSolution 8 = true ∧
      q ∈ st.tree.getNearestNodes s.knn 8 2 ∧ AcceptedConnection s (st.tree.state q) 8 ∧
      treeGetPath st.tree (some q) = some pathq ∧ treeGetPath st'.tree (some n) = some path ∧
      routeLength s.steering path = 12 ∧ routeLength s.steering (pathq ++ [8]) = 8 := by
  have h0 : ((starState (exStar [-2, 5, 3, 5] 8) (fun _ => 2) (starInit Tree.new 0) 4).bind fun st =>
      (rrtStarStep (exStar [-2, 5, 3, 5] 8) (fun _ => 2) 8 st).bind fun x => some
        (x.2 = some (4, 8) ∧ 3 ∈ st.tree.getNearestNodes exKNN2 8 2 ∧ st.tree.state 3 = 3 ∧
          treeGetPath st.tree (some 3) = some [0, 3] ∧
          treeGetPath x.1.tree (some 4) = some [0, -2, 5, 8] : Bool)) = some true := by
    decide +kernel
  obtain ⟨st, h1, h2⟩ := Option.bind_eq_some_iff.mp h0
  obtain ⟨⟨st', new⟩, h3, h4⟩ := Option.bind_eq_some_iff.mp h2
  obtain ⟨h5, h6, h7, h8, h9⟩ := of_decide_eq_true (Option.some.inj h4)
  dsimp only at h5
  subst h5
  refine ⟨exStar [-2, 5, 3, 5] 8, 4, st, st', 4, 3, _, _, exKNN2_laws, h1, h3, rfl, h6, ?_, h8, h9, ?_, ?_⟩
  · rw [h7]; rfl
  · decide +kernel
  · decide +kernel

end PathPlanning
