import Verif.Spec.FloatRRT
import Verif.Props.RRTStar
import Verif.Props.FloatRRT

/-!
# C139: the lengths of paths of RRT* in the plane with the arithmetic of the program
-/

namespace PathPlanning
open Spec Tree Flt ObstHeuristic
variable {V P : Type} [DecidableEq V]

private theorem segmentsLength_snoc {L : List Pt} {a : Pt} (h : L.getLast? = some a) (v : Pt) :
    segmentsLength (L ++ [v]) = segmentsLength L + √((v.x - a.x) ^ 2 + (v.y - a.y) ^ 2) := by
  induction L with
  | nil => cases h
  | cons b L ih =>
    cases L with
    | nil =>
      have : b = a := by simpa using h
      subst this
      simp [segmentsLength]
    | cons c L =>
      have := ih (by simpa using h)
      simp only [List.cons_append, segmentsLength] at this ⊢
      rw [this, add_assoc]

private theorem segmentsLength_nonneg : ∀ L : List Pt, 0 ≤ segmentsLength L
  | [] => le_refl 0
  | [_] => le_refl 0
  | _ :: b :: l => add_nonneg (Real.sqrt_nonneg _) (segmentsLength_nonneg (b :: l))

private theorem connect_rel (a v : Pt) :
    Flt.Rel (4 / 2 ^ 52) √((v.x - a.x) ^ 2 + (v.y - a.y) ^ 2) (r2SteeringF.length (r2SteeringF.connect a v)) := by
  have h := abs_le.1 (C128_straight_line v a)
  have e : r2SteeringF.length (r2SteeringF.connect a v) = euclideanF v a := rfl
  rw [e]
  constructor
  · have := h.1
    norm_num at this ⊢
    linarith
  · have := h.2
    norm_num at this ⊢
    linarith

/-- One more segment. -/
private theorem cost_rel {d E c D l : ℝ} (hd : 0 ≤ d) (hd' : d + 5 ≤ 2 ^ 52) (hE : 0 ≤ E) (hD : 0 ≤ D)
    (h : Flt.Rel ((d + 4) / 2 ^ 52) E c) (hl : Flt.Rel (4 / 2 ^ 52) D l) :
    Flt.Rel ((d + 1 + 4) / 2 ^ 52) (E + D) (fl64 (c + l)) := by
  have h4 : (4 : ℝ) / 2 ^ 52 ≤ (d + 4) / 2 ^ 52 := by gcongr; linarith
  have r := h.add (hl.mono hD h4)
  have hle : (d + 4) / 2 ^ 52 ≤ (1 : ℝ) := by rw [div_le_one (by positivity)]; linarith
  have h0 : 0 ≤ (d + 4) / 2 ^ 52 := by positivity
  have hnn := r.nonneg (add_nonneg hE hD) hle
  refine (r.trans (add_nonneg hE hD) (Rel.fl 53 hnn) h0 hle (by positivity) (by norm_num)).mono (add_nonneg hE hD) ?_
  have : (d + 1 + 4) / 2 ^ 52 = (d + 4) / 2 ^ 52 + 2 * (2 ^ 53 : ℝ)⁻¹ := by ring_nf
  rw [this]
  have hu : (0 : ℝ) < (2 ^ 53)⁻¹ := by positivity
  nlinarith

private theorem bestParentF_cases (s : RRTSetup V P ℝ) (st : RRTStarState V ℝ) (v : V) (near : List Nat) :
    (bestParentF s st v near = (none, none) ∧
      ∀ q ∈ near, AcceptedConnection s (st.tree.state q) v → st.cost q = none) ∨
    ∃ p cp, bestParentF s st v near = (some p, some (fl64 (cp + s.steering.length (s.steering.connect (st.tree.state p) v)))) ∧
      p ∈ near ∧ st.cost p = some cp ∧
      ∀ q ∈ near, AcceptedConnection s (st.tree.state q) v → ∀ cq, st.cost q = some cq →
        fl64 (cp + s.steering.length (s.steering.connect (st.tree.state p) v)) ≤
          fl64 (cq + s.steering.length (s.steering.connect (st.tree.state q) v)) := by
  induction near using List.reverseRecOn with
  | nil => exact Or.inl ⟨rfl, fun q hq => absurd hq (by simp)⟩
  | append_singleton l a ih =>
    have hb : bestParentF s st v (l ++ [a]) =
        if ltInf (addInfF (st.cost a) (s.steering.length (s.steering.connect (st.tree.state a) v)))
            (bestParentF s st v l).2 && s.valid (s.steering.connect (st.tree.state a) v) then
          (some a, addInfF (st.cost a) (s.steering.length (s.steering.connect (st.tree.state a) v)))
        else bestParentF s st v l := by
      unfold bestParentF
      rw [List.foldl_append, List.foldl_cons, List.foldl_nil]
    rw [hb]
    cases hv : s.valid (s.steering.connect (st.tree.state a) v) with
    | false =>
      rw [Bool.and_false, if_neg (by simp)]
      have hna : ∀ q, q ∈ l ++ [a] → AcceptedConnection s (st.tree.state q) v → q ∈ l := by
        intro q hq hqv
        rcases List.mem_append.mp hq with h | h
        · exact h
        · rw [List.mem_singleton.mp h] at hqv
          have hqv' : s.valid (s.steering.connect (st.tree.state a) v) = true := hqv
          rw [hv] at hqv'; cases hqv'
      rcases ih with ⟨h1, h2⟩ | ⟨p, cp, h1, h2, h3, h4⟩
      · exact Or.inl ⟨h1, fun q hq hqv => h2 q (hna q hq hqv) hqv⟩
      · exact Or.inr ⟨p, cp, h1, List.mem_append_left _ h2, h3, fun q hq hqv => h4 q (hna q hq hqv) hqv⟩
    | true =>
      rw [Bool.and_true]
      cases hca : st.cost a with
      | none =>
        rw [if_neg (by simp [addInfF, ltInf])]
        rcases ih with ⟨h1, h2⟩ | ⟨p, cp, h1, h2, h3, h4⟩
        · refine Or.inl ⟨h1, fun q hq hqv => ?_⟩
          rcases List.mem_append.mp hq with h | h
          · exact h2 q h hqv
          · rw [List.mem_singleton.mp h, hca]
        · refine Or.inr ⟨p, cp, h1, List.mem_append_left _ h2, h3, fun q hq hqv cq hcq => ?_⟩
          rcases List.mem_append.mp hq with h | h
          · exact h4 q h hqv cq hcq
          · rw [List.mem_singleton.mp h, hca] at hcq; cases hcq
      | some ca =>
        rcases ih with ⟨h1, h2⟩ | ⟨p, cp, h1, h2, h3, h4⟩
        · rw [h1, if_pos (by simp [addInfF, ltInf])]
          refine Or.inr ⟨a, ca, rfl, by simp, hca, fun q hq hqv cq hcq => ?_⟩
          rcases List.mem_append.mp hq with h | h
          · rw [h2 q h hqv] at hcq; cases hcq
          · rw [List.mem_singleton.mp h] at hcq ⊢
            rw [hca] at hcq; cases hcq; exact le_refl _
        · rw [h1]
          by_cases hlt : fl64 (ca + s.steering.length (s.steering.connect (st.tree.state a) v)) <
              fl64 (cp + s.steering.length (s.steering.connect (st.tree.state p) v))
          · rw [if_pos (by simpa [addInfF, ltInf] using hlt)]
            refine Or.inr ⟨a, ca, rfl, by simp, hca, fun q hq hqv cq hcq => ?_⟩
            rcases List.mem_append.mp hq with h | h
            · exact le_trans (le_of_lt hlt) (h4 q h hqv cq hcq)
            · rw [List.mem_singleton.mp h] at hcq ⊢
              rw [hca] at hcq; cases hcq; exact le_refl _
          · rw [if_neg (by simpa [addInfF, ltInf] using hlt)]
            refine Or.inr ⟨p, cp, rfl, List.mem_append_left _ h2, h3, fun q hq hqv cq hcq => ?_⟩
            rcases List.mem_append.mp hq with h | h
            · exact h4 q h hqv cq hcq
            · rw [List.mem_singleton.mp h] at hcq ⊢
              rw [hca] at hcq; cases hcq; exact not_lt.mp hlt

/-- The costs of the nodes are the lengths of their paths. -/
private structure CInv (s : RRTSetup V P ℝ) (init : V) (st : RRTStarState V ℝ) : Prop where
  r : RInv (fun _ _ => True) init st.tree
  root : ∀ r, st.tree.root = some r → st.cost r = some 0
  edge : ∀ n p, st.tree.heap.alive n → st.tree.heap.parent n = some p → ∀ c, st.cost n = some c →
    ∃ cp, st.cost p = some cp ∧ c = fl64 (cp + s.steering.length (s.steering.connect (st.tree.state p) (st.tree.state n)))

private theorem CInv.up {s : RRTSetup Pt PathR2 ℝ} [DecidableEq Pt] (hS : s.steering = r2SteeringF) {init : Pt}
    {st : RRTStarState Pt ℝ} (I : CInv s init st) {x d : Nat}
    (hd : Depth st.tree.heap x d) (hx : st.tree.heap.alive x) (hdN : (d : ℝ) + 4 ≤ 2 ^ 52) (c : ℝ) (hc : st.cost x = some c) :
    ∃ L : List Pt, (∀ acc, pathUp st.tree (d + 1) (some x) acc = some (L ++ acc)) ∧ L.head? = some init ∧
      L.getLast? = some (st.tree.state x) ∧ Flt.Rel ((d + 4) / 2 ^ 52) (segmentsLength L) c := by
  induction hd generalizing c with
  | @root x hp =>
    have hr := (I.r.inv.root_iff x).mpr ⟨hx, hp⟩
    obtain ⟨r, hr', hri⟩ := I.r.root
    have h0 := I.root x hr
    rw [hc] at h0
    rw [hr] at hr'; cases hr'
    cases h0
    refine ⟨[st.tree.state x], fun acc => rfl, by simp [hri], by simp, ?_⟩
    constructor <;> simp [segmentsLength]
  | @child x a d hp _ ih =>
    obtain ⟨cp, h5, h6⟩ := I.edge x a hx hp c hc
    push_cast at hdN
    obtain ⟨L, h1, h2, h3, h4⟩ := ih (I.r.inv.forest.parent_alive _ _ hx hp) (by linarith) cp h5
    refine ⟨L ++ [st.tree.state x], fun acc => ?_, ?_, by simp, ?_⟩
    · rw [pathUp, hp, h1]; simp
    · rw [List.head?_append, h2]; rfl
    · rw [segmentsLength_snoc h3, h6, hS]
      push_cast
      exact cost_rel (Nat.cast_nonneg d) (by linarith) (segmentsLength_nonneg L) (Real.sqrt_nonneg _) h4 (connect_rel _ _)

private theorem CInv.path {s : RRTSetup Pt PathR2 ℝ} [DecidableEq Pt] (hS : s.steering = r2SteeringF) {init : Pt}
    {st : RRTStarState Pt ℝ} (I : CInv s init st) {n k : Nat} (hdk : ∀ x d, st.tree.heap.alive x → Depth st.tree.heap x d → d ≤ k)
    (hk : (k : ℝ) + 4 ≤ 2 ^ 52) (hn : st.tree.heap.alive n) {c : ℝ} (hc : st.cost n = some c) :
    ∃ L : List Pt, treeGetPath st.tree (some n) = some L ∧ L.head? = some init ∧
      L.getLast? = some (st.tree.state n) ∧ Flt.Rel ((k + 4) / 2 ^ 52) (segmentsLength L) c := by
  obtain ⟨d, hd, hdep⟩ := C22_depth I.r.inv.forest n hn
  have hle : (d : ℝ) ≤ k := by exact_mod_cast hdk n d hn hdep
  obtain ⟨L, h1, h2, h3, h4⟩ := I.up hS hdep hn (by linarith) c hc
  refine ⟨L, ?_, h2, h3, h4.mono (segmentsLength_nonneg L) (by gcongr)⟩
  show (st.tree.heap.getDepth n).bind _ = _
  rw [hd]
  simpa using h1 []

private theorem cinv_start {t : Tree V} (I : TreeInv t) (s : RRTSetup V P ℝ) (init : V) :
    CInv s init (starInit t init) := by
  have R := (rinv_start I (fun _ _ => True) init).1
  refine ⟨R, fun _ _ => rfl, fun n p hn hp => ?_⟩
  -- the only node is the root
  obtain ⟨R', -⟩ := rinv_start I (fun _ _ => False) init
  exact (R'.edge n p hn hp).elim

/-- What an iteration does to a tree it does not repeat a state of. -/
private theorem cinv_step {D : Type} [LE D] {dist : V → V → D} {s : RRTSetup V P ℝ} (L : NearestLaws s.knn dist)
    {nn : Nat → Nat} {init target : V} {st st' : RRTStarState V ℝ} {new : Option (Nat × V)} (I : CInv s init st)
    (h : rrtStarStepF s nn target st = some (st', new)) (hfresh : ∀ n v, new = some (n, v) → st.tree.find v = none) :
    CInv s init st' ∧ (new = none → st' = st) ∧ ∀ n v, new = some (n, v) →
      st'.tree.heap.alive n ∧ st'.tree.state n = v ∧ st'.cost n = (bestParentF s st v
        (st.tree.getNearestNodes s.knn v (nn st.tree.size))).2 ∧
      (∀ x, st'.tree.heap.alive x ↔ st.tree.heap.alive x ∨ x = n) ∧
      (∀ x, st.tree.heap.alive x → x ≠ n ∧ st'.cost x = st.cost x ∧ st'.tree.state x = st.tree.state x ∧
        st'.tree.heap.parent x = st.tree.heap.parent x) ∧
      (∃ p, st.tree.heap.alive p ∧ st'.tree.heap.parent n = some p) ∧
      ∃ nearest, st.tree.heap.alive nearest ∧ s.knn.nearest st.tree.points target = some (st.tree.state nearest) ∧
        s.valid (s.steering.steerTowards (st.tree.state nearest) target s.maxConnectionDistance) = true ∧
        v = s.steering.final (s.steering.steerTowards (st.tree.state nearest) target s.maxConnectionDistance) := by
  unfold rrtStarStepF at h
  cases hnear : st.tree.getNearestNode s.knn target with
  | none =>
    rw [hnear] at h
    cases h
    exact ⟨I, fun _ => rfl, by simp⟩
  | some nearest =>
    rw [hnear] at h
    dsimp only at h
    obtain ⟨hna, hnp, _⟩ := (nearestNode_spec L I.r.inv _).2 nearest hnear
    cases hv : s.valid (s.steering.steerTowards (st.tree.state nearest) target s.maxConnectionDistance) with
    | false =>
      simp only [hv, Bool.not_false, if_true] at h
      cases h
      exact ⟨I, fun _ => rfl, by simp⟩
    | true =>
      simp only [hv, Bool.not_true, Bool.false_eq_true, if_false] at h
      obtain ⟨v, hvv⟩ : ∃ v, v = s.steering.final (s.steering.steerTowards (st.tree.state nearest) target
        s.maxConnectionDistance) := ⟨_, rfl⟩
      rw [← hvv] at h
      obtain ⟨best, hb⟩ : ∃ b, b = bestParentF s st v (st.tree.getNearestNodes s.knn v (nn st.tree.size)) := ⟨_, rfl⟩
      rw [← hb] at h
      have hcases := bestParentF_cases s st v (st.tree.getNearestNodes s.knn v (nn st.tree.size))
      rw [← hb] at hcases
      have hsrc : ∀ m, best.1 = some m → st.tree.heap.alive m := by
        intro m hm
        rcases hcases with ⟨h1, -⟩ | ⟨p, cp, h1, h2, -⟩
        · rw [h1] at hm; cases hm
        · rw [h1] at hm
          cases hm
          obtain ⟨u, _, hu⟩ := List.mem_filterMap.mp h2
          exact (I.r.inv.find_some.mp hu).1
      obtain ⟨r, hr, hri⟩ := I.r.root
      rcases extend_cases L I.r.inv v best.1 hsrc with ⟨n, h1, h2, he⟩ | ⟨_, h2, _⟩ | ⟨p, t', hf, hs, hss, he, I', ht⟩
      · rw [he] at h
        cases h
        have := hfresh n v rfl
        rw [I.r.inv.find_some.mpr ⟨h1, h2⟩] at this
        cases this
      · rw [hr] at h2; cases h2
      · obtain ⟨t'', n', he', R', -⟩ := rinv_extend L I.r (v := v) (src := best.1) hsrc (fun _ _ _ _ => trivial)
        rw [he] at he' h
        cases he'
        dsimp only at h
        cases h
        have hne : ∀ x, st.tree.heap.alive x → x ≠ st.tree.heap.next := fun x hx =>
          Nat.ne_of_lt (I.r.inv.forest.fresh x hx)
        have hst : ∀ x, st.tree.heap.alive x → t'.state x = st.tree.state x := by
          intro x hx; rw [ht]; simp [hne x hx]
        have hstn : t'.state st.tree.heap.next = v := by rw [ht]; simp
        have hpar : ∀ x, st.tree.heap.alive x → t'.heap.parent x = st.tree.heap.parent x := by
          intro x hx; rw [ht]
          show upd _ _ _ _ = _
          rw [upd_ne _ _ (hne x hx)]
          exact upd_ne _ _ (hne x hx)
        have hparn : t'.heap.parent st.tree.heap.next = some p := by rw [ht]; exact upd_same ..
        have hal : ∀ x, t'.heap.alive x ↔ st.tree.heap.alive x ∨ x = st.tree.heap.next := by
          intro x; rw [ht]; exact Iff.rfl
        have hroot : t'.root = st.tree.root := by rw [ht]
        refine ⟨⟨R', ?_, ?_⟩, by simp, ?_⟩
        · intro r0 hr0
          dsimp only at hr0 ⊢
          rw [hroot] at hr0
          rw [upd_ne _ _ (hne r0 ((I.r.inv.root_iff r0).mp hr0).1)]
          exact I.root r0 hr0
        · intro n q hn hq c hc
          dsimp only at hn hq hc ⊢
          rcases (hal n).mp hn with hn | rfl
          · rw [hpar n hn] at hq
            have hqa := I.r.inv.forest.parent_alive _ _ hn hq
            rw [upd_ne _ _ (hne n hn)] at hc
            rw [upd_ne _ _ (hne q hqa), hst n hn, hst q hqa]
            exact I.edge n q hn hq c hc
          · rw [hparn] at hq; cases hq
            rw [upd_same] at hc
            rw [upd_ne _ _ (hne p hs), hst p hs, hstn]
            rcases hcases with ⟨h1, -⟩ | ⟨p', cp, h1, h2, h3, -⟩
            · rw [h1] at hc; cases hc
            · rw [h1] at hc hss
              rcases hss with hss | ⟨hss, -⟩
              · cases hss; cases hc
                exact ⟨cp, h3, rfl⟩
              · cases hss
        · intro n v' hnv
          cases hnv
          refine ⟨(hal _).mpr (Or.inr rfl), hstn, by dsimp only; rw [upd_same, hb], hal, fun x hx => ⟨hne x hx, ?_, hst x hx, hpar x hx⟩,
            ⟨p, hs, hparn⟩, nearest, hna, hnp, hv, hvv⟩
          exact upd_ne _ _ (hne x hx)

private theorem starState_inv {D : Type} [LE D] {dist : V → V → D} {s : RRTSetup V P ℝ} (L : NearestLaws s.knn dist)
    {nn : Nat → Nat} {init : V} {t : Tree V} (I : TreeInv t) {N : Nat} (hnr : NoRepeatsF s nn (starInit t init) N)
    {k : Nat} (hk : k ≤ N) {st : RRTStarState V ℝ} (h : starStateF s nn (starInit t init) k = some st) :
    CInv s init st := by
  induction k generalizing st with
  | zero => cases h; exact cinv_start I s init
  | succ k ih =>
    obtain ⟨st0, h0, h1⟩ := Option.bind_eq_some_iff.mp h
    obtain ⟨⟨st1, new⟩, h2, h3⟩ := Option.map_eq_some_iff.mp h1
    cases h3
    exact (cinv_step L (ih (by omega) h0) h2 fun n v e => hnr k (by omega) st0 _ n v h0 (by rw [h2, e])).1

/-- A path has at most as many connections as there were iterations. -/
private theorem starState_depth {D : Type} [LE D] {dist : V → V → D} {s : RRTSetup V P ℝ} (L : NearestLaws s.knn dist)
    {nn : Nat → Nat} {init : V} {t : Tree V} (I : TreeInv t) {N : Nat} (hnr : NoRepeatsF s nn (starInit t init) N)
    {k : Nat} (hk : k ≤ N) {st : RRTStarState V ℝ} (h : starStateF s nn (starInit t init) k = some st) :
    ∀ x d, st.tree.heap.alive x → Depth st.tree.heap x d → d ≤ k := by
  induction k generalizing st with
  | zero =>
    cases h
    intro x d hx hd
    obtain ⟨R', -⟩ := rinv_start I (fun _ _ => False) init
    cases hd with
    | root => exact le_refl 0
    | child hp => exact (R'.edge _ _ hx hp).elim
  | succ k ih =>
    obtain ⟨st0, h0, h1⟩ := Option.bind_eq_some_iff.mp h
    obtain ⟨⟨st1, new⟩, h2, h3⟩ := Option.map_eq_some_iff.mp h1
    cases h3
    have I0 := starState_inv L I hnr (show k ≤ N by omega) h0
    obtain ⟨-, hnone, hnew⟩ := cinv_step L I0 h2 fun n v e => hnr k (by omega) st0 _ n v h0 (by rw [h2, e])
    cases new with
    | none =>
      intro x d hx hd
      have e := hnone rfl
      dsimp only at hx hd
      rw [e] at hx hd
      have := ih (by omega) h0 x d hx hd
      omega
    | some nv =>
      obtain ⟨n, v⟩ := nv
      obtain ⟨-, -, -, hal, hold, ⟨p, hpa, hpn⟩, -⟩ := hnew n v rfl
      have key : ∀ {x d : Nat}, Depth st1.tree.heap x d → st0.tree.heap.alive x → Depth st0.tree.heap x d := by
        intro x d hd
        induction hd with
        | root hp => intro hx; exact .root (by rw [← (hold _ hx).2.2.2]; exact hp)
        | child hp _ ih =>
          intro hx
          rw [(hold _ hx).2.2.2] at hp
          exact .child hp (ih (I0.r.inv.forest.parent_alive _ _ hx hp))
      intro x d hx hd
      dsimp only at hx hd
      rcases (hal x).mp hx with hx | rfl
      · have := ih (by omega) h0 x d hx (key hd hx)
        omega
      · cases hd with
        | root hp => omega
        | child hp hd =>
          rw [hpn] at hp; cases hp
          have := ih (by omega) h0 p _ hpa (key hd hpa)
          omega

/-- C139: as long as no iteration ends in a state that is in the tree already, the cost that RRT* keeps of a node, when it is
finite, is the length of the path to the node but for rounding: the relative error is at most (k + 4) 2⁻⁵² after k iterations. -/
theorem C139_costs_partial [DecidableEq Pt] [Inhabited Pt] {D : Type} [LE D] {dist : Pt → Pt → D}
    (s : RRTSetup Pt PathR2 ℝ) (hS : s.steering = r2SteeringF) (L : NearestLaws s.knn dist) (nn : Nat → Nat) (t : Tree Pt)
    (ht : TreeReachable s.knn t) (init : Pt) (N : Nat) (hnr : NoRepeatsF s nn (starInit t init) N) {k : Nat} (hk : k ≤ N)
    (hk' : k + 4 ≤ 2 ^ 52) {st : RRTStarState Pt ℝ} (hst : starStateF s nn (starInit t init) k = some st) {n : Nat}
    (hn : st.tree.heap.alive n) {c : ℝ} (hc : st.cost n = some c) :
    ∃ path, treeGetPath st.tree (some n) = some path ∧ path.head? = some init ∧ path.getLast? = some (st.tree.state n) ∧
      |c - segmentsLength path| ≤ (k + 4) / 2 ^ 52 * segmentsLength path := by
  have I := starState_inv L (treeInv_reachable L ht) hnr hk hst
  obtain ⟨path, h1, h2, h3, h4⟩ := I.path hS (starState_depth L (treeInv_reachable L ht) hnr hk hst)
    (by exact_mod_cast hk') hn hc
  refine ⟨path, h1, h2, h3, abs_le.2 ⟨?_, ?_⟩⟩ <;> linarith [h4.1, h4.2]

/-- C139: as long as no iteration ends in a state that is in the tree already, the path to the new state `v` is no longer,
but for rounding, than the path to any neighbour looked up followed by the segment from it, if the validator accepts this
segment. Missing: repeated states, as in C104. -/
theorem C139_shortest_through_neighbours_partial [DecidableEq Pt] [Inhabited Pt] {D : Type} [LE D] {dist : Pt → Pt → D}
    (s : RRTSetup Pt PathR2 ℝ) (hS : s.steering = r2SteeringF) (L : NearestLaws s.knn dist) (nn : Nat → Nat) (t : Tree Pt)
    (ht : TreeReachable s.knn t) (init : Pt) (N : Nat) (hnr : NoRepeatsF s nn (starInit t init) N) {k : Nat} (hk : k < N)
    (hk' : k + 5 ≤ 2 ^ 50) {st st' : RRTStarState Pt ℝ} {n : Nat} {v : Pt}
    (hst : starStateF s nn (starInit t init) k = some st)
    (hstep : rrtStarStepF s nn (s.sample k) st = some (st', some (n, v)))
    {q : Nat} (hq : q ∈ st.tree.getNearestNodes s.knn v (nn st.tree.size))
    (hqv : AcceptedConnection s (st.tree.state q) v) (hqc : st.cost q ≠ none) :
    ∃ path pathq, treeGetPath st'.tree (some n) = some path ∧ path.head? = some init ∧ path.getLast? = some v ∧
      treeGetPath st.tree (some q) = some pathq ∧ pathq.head? = some init ∧ pathq.getLast? = some (st.tree.state q) ∧
      segmentsLength path ≤ (1 + (k + 5) / 2 ^ 50) * segmentsLength (pathq ++ [v]) := by
  have I := starState_inv L (treeInv_reachable L ht) hnr (le_of_lt hk) hst
  have hdk := starState_depth L (treeInv_reachable L ht) hnr (le_of_lt hk) hst
  have hst' : starStateF s nn (starInit t init) (k + 1) = some st' := by
    rw [starStateF, hst, Option.bind_some, hstep]; rfl
  have hdk' := starState_depth L (treeInv_reachable L ht) hnr hk hst'
  obtain ⟨I', -, h⟩ := cinv_step L I hstep fun n v e => by cases e; exact hnr k hk st st' n v hst hstep
  obtain ⟨hn, hsn, hcn, -⟩ := h n v rfl
  obtain ⟨cq, hcq⟩ := Option.ne_none_iff_exists'.mp hqc
  obtain ⟨u, -, hu⟩ := List.mem_filterMap.mp hq
  have hqa := (I.r.inv.find_some.mp hu).1
  have hkr : (k : ℝ) + 5 ≤ 2 ^ 50 := by exact_mod_cast hk'
  rcases bestParentF_cases s st v (st.tree.getNearestNodes s.knn v (nn st.tree.size)) with
    ⟨-, h2⟩ | ⟨p, cp, h1, -, -, h4⟩
  · exact absurd (h2 q hq hqv) hqc
  · rw [h1] at hcn
    obtain ⟨path, h5, h6, h7, h8⟩ := I'.path hS hdk' (by push_cast; linarith) hn hcn
    obtain ⟨pathq, h9, h10, h11, h12⟩ := I.path hS hdk (by linarith) hqa hcq
    refine ⟨path, pathq, h5, h6, by rw [h7, hsn], h9, h10, h11, ?_⟩
    rw [segmentsLength_snoc h11]
    have h13 := h4 q hq hqv cq hcq
    rw [hS] at h13 h8
    have h14 := cost_rel (Nat.cast_nonneg k) (by linarith) (segmentsLength_nonneg pathq) (Real.sqrt_nonneg _) h12
      (connect_rel (st.tree.state q) v)
    push_cast at h8
    obtain ⟨E, hE⟩ : ∃ E, E = segmentsLength path := ⟨_, rfl⟩
    obtain ⟨F, hF⟩ : ∃ F, F = segmentsLength pathq + √((v.x - (st.tree.state q).x) ^ 2 + (v.y - (st.tree.state q).y) ^ 2) :=
      ⟨_, rfl⟩
    have hF0 : 0 ≤ F := by rw [hF]; exact add_nonneg (segmentsLength_nonneg _) (Real.sqrt_nonneg _)
    rw [← hE] at h8 ⊢
    rw [← hF] at h14 ⊢
    obtain ⟨δ, hδ⟩ : ∃ δ : ℝ, δ = (k + 1 + 4) / 2 ^ 52 := ⟨_, rfl⟩
    have hδ0 : 0 ≤ δ := by rw [hδ]; positivity
    have hδ1 : δ ≤ 1 / 4 := by
      rw [hδ, div_le_iff₀ (by positivity)]
      norm_num at hkr ⊢
      linarith
    have h15 : (1 - δ) * E ≤ (1 + δ) * F := by
      rw [hδ]; exact le_trans h8.1 (le_trans h13 h14.2)
    have h16 : ((k : ℝ) + 5) / 2 ^ 50 = 4 * δ := by rw [hδ]; norm_num; ring
    rw [h16]
    have h17 : (1 + δ) ≤ (1 - δ) * (1 + 4 * δ) := by nlinarith
    have h18 : (1 - δ) * E ≤ (1 - δ) * ((1 + 4 * δ) * F) := by
      calc (1 - δ) * E ≤ (1 + δ) * F := h15
        _ ≤ (1 - δ) * (1 + 4 * δ) * F := mul_le_mul_of_nonneg_right h17 hF0
        _ = _ := by ring
    exact le_of_mul_le_mul_left h18 (by linarith)

/-- Every node has a path of accepted connections, as in `C27_rrtStar_path_partial`. -/
private theorem starState_finite [Inhabited V] {D : Type} [LE D] {dist : V → V → D}
    (s : RRTSetup V P ℝ) (L : NearestLaws s.knn dist) (nn : Nat → Nat) (t : Tree V) (ht : TreeReachable s.knn t) (init : V)
    (ha : ∀ pts target a k, s.knn.nearest pts target = some a →
      s.valid (s.steering.steerTowards a target s.maxConnectionDistance) = true →
      a ∈ s.knn.knn pts (s.steering.final (s.steering.steerTowards a target s.maxConnectionDistance)) (nn k))
    (hb : ∀ a target, s.valid (s.steering.steerTowards a target s.maxConnectionDistance) = true →
      AcceptedConnection s a (s.steering.final (s.steering.steerTowards a target s.maxConnectionDistance)))
    (N : Nat) (hnr : NoRepeatsF s nn (starInit t init) N) {k : Nat} (hk : k ≤ N) {st : RRTStarState V ℝ}
    (h : starStateF s nn (starInit t init) k = some st) : ∀ x, st.tree.heap.alive x → st.cost x ≠ none := by
  induction k generalizing st with
  | zero =>
    cases h
    intro x _ hx
    cases hx
  | succ k ih =>
    obtain ⟨st0, h0, h1⟩ := Option.bind_eq_some_iff.mp h
    obtain ⟨⟨st1, new⟩, h2, h3⟩ := Option.map_eq_some_iff.mp h1
    cases h3
    have I0 := starState_inv L (treeInv_reachable L ht) hnr (show k ≤ N by omega) h0
    obtain ⟨-, hnone, hnew⟩ := cinv_step L I0 h2 fun n v e => hnr k (by omega) st0 _ n v h0 (by rw [h2, e])
    cases new with
    | none => rw [hnone rfl]; exact ih (by omega) h0
    | some nv =>
      obtain ⟨n, v⟩ := nv
      obtain ⟨-, -, hc, hal, hold, -, nearest, hna, hnp, hv, hvv⟩ := hnew n v rfl
      intro x hx
      rcases (hal x).mp hx with hx | rfl
      · show st1.cost x ≠ none
        rw [(hold x hx).2.1]; exact ih (by omega) h0 x hx
      · show st1.cost x ≠ none
        rw [hc]
        have hmem : nearest ∈ st0.tree.getNearestNodes s.knn v (nn st0.tree.size) := by
          refine List.mem_filterMap.mpr ⟨_, by rw [hvv]; exact ha _ _ _ st0.tree.size hnp hv, ?_⟩
          exact I0.r.inv.find_some.mpr ⟨hna, rfl⟩
        rcases bestParentF_cases s st0 v (st0.tree.getNearestNodes s.knn v (nn st0.tree.size)) with
          ⟨-, h5⟩ | ⟨p, cp, h5, -⟩
        · exact absurd (h5 nearest hmem (by rw [hvv]; exact hb _ _ hv)) (ih (by omega) h0 nearest hna)
        · rw [h5]; simp

/-- C139 where every node has a finite cost, partial: if the validator only looks at the ends of motions and the neighbours
that are looked up include the node steered from, the new path is no longer, but for rounding, than through any neighbour with
an accepted segment. Missing: as above. -/
theorem C139_r2_partial [DecidableEq Pt] [Inhabited Pt] {D : Type} [LE D] {dist : Pt → Pt → D}
    (s : RRTSetup Pt PathR2 ℝ) (hS : s.steering = r2SteeringF) (L : NearestLaws s.knn dist) (nn : Nat → Nat) (t : Tree Pt)
    (ht : TreeReachable s.knn t) (init : Pt)
    (hends : ∀ p p' : PathR2, p.init = p'.init → p.final = p'.final → s.valid p = s.valid p')
    (hnn : ∀ pts target a k, s.knn.nearest pts target = some a →
      a ∈ s.knn.knn pts (r2SteeringF.steerTowards a target s.maxConnectionDistance).final (nn k))
    (N : Nat) (hnr : NoRepeatsF s nn (starInit t init) N) {k : Nat} (hk : k < N)
    (hk' : k + 5 ≤ 2 ^ 50) {st st' : RRTStarState Pt ℝ} {n : Nat} {v : Pt}
    (hst : starStateF s nn (starInit t init) k = some st)
    (hstep : rrtStarStepF s nn (s.sample k) st = some (st', some (n, v)))
    {q : Nat} (hq : q ∈ st.tree.getNearestNodes s.knn v (nn st.tree.size))
    (hqv : s.valid (PathR2.connectF (st.tree.state q) v) = true) :
    ∃ path pathq, treeGetPath st'.tree (some n) = some path ∧ path.head? = some init ∧ path.getLast? = some v ∧
      treeGetPath st.tree (some q) = some pathq ∧ pathq.head? = some init ∧ pathq.getLast? = some (st.tree.state q) ∧
      segmentsLength path ≤ (1 + (k + 5) / 2 ^ 50) * segmentsLength (pathq ++ [v]) := by
  have I := starState_inv L (treeInv_reachable L ht) hnr (le_of_lt hk) hst
  obtain ⟨u, -, hu⟩ := List.mem_filterMap.mp hq
  have hinit : ∀ a target : Pt, ∀ d, (r2SteeringF.steerTowards a target d).init = a := by
    intro a target d
    rw [steerTowards_r2F]
    unfold PathR2.steerTowardsF
    dsimp only
    split <;> rfl
  have hqc := starState_finite s L nn t ht init
    (fun pts target a k h _ => by rw [hS]; exact hnn pts target a k h)
    (fun a target h => by
      unfold AcceptedConnection
      rw [hS] at h ⊢
      rw [← h]
      exact hends _ _ (hinit a target _).symm rfl)
    N hnr (le_of_lt hk) hst q (I.r.inv.find_some.mp hu).1
  refine C139_shortest_through_neighbours_partial s hS L nn t ht init N hnr hk hk' hst hstep hq ?_ hqc
  unfold AcceptedConnection
  rw [hS]; exact hqv

/-- C139: later iterations do not change the path of a node. -/
theorem C139_paths_are_kept [Inhabited V] {D : Type} [LE D] {dist : V → V → D}
    (s : RRTSetup V P ℝ) (L : NearestLaws s.knn dist) (nn : Nat → Nat) (t : Tree V) (ht : TreeReachable s.knn t) (init : V)
    (N : Nat) (hnr : NoRepeatsF s nn (starInit t init) N) {k : Nat} (hk : k < N) {st st' : RRTStarState V ℝ}
    {new : Option (Nat × V)} (hst : starStateF s nn (starInit t init) k = some st)
    (hstep : rrtStarStepF s nn (s.sample k) st = some (st', new)) (q : Nat) (hq : st.tree.heap.alive q) :
    treeGetPath st'.tree (some q) = treeGetPath st.tree (some q) := by
  have I := starState_inv L (treeInv_reachable L ht) hnr (le_of_lt hk) hst
  obtain ⟨I', hnone, h⟩ := cinv_step L I hstep fun n v e => by subst e; exact hnr k hk st st' n v hst hstep
  cases new with
  | none => rw [hnone rfl]
  | some nv =>
    obtain ⟨n, v⟩ := nv
    obtain ⟨-, -, -, hal, hold, -⟩ := h n v rfl
    have key : ∀ {x d : Nat}, Depth st.tree.heap x d → st.tree.heap.alive x →
        Depth st'.tree.heap x d ∧ ∀ j acc, pathUp st'.tree j (some x) acc = pathUp st.tree j (some x) acc := by
      intro x d hd
      induction hd with
      | @root x hp =>
        intro hx
        obtain ⟨-, -, hs, hpar⟩ := hold x hx
        refine ⟨.root (by rw [hpar, hp]), fun j acc => ?_⟩
        cases j with
        | zero => rfl
        | succ j =>
          rw [pathUp, pathUp, hpar, hp, hs]
          cases j <;> rfl
      | @child x a d hp _ ih =>
        intro hx
        obtain ⟨-, -, hs, hpar⟩ := hold x hx
        obtain ⟨h1, h2⟩ := ih (I.r.inv.forest.parent_alive _ _ hx hp)
        refine ⟨.child (by rw [hpar, hp]) h1, fun j acc => ?_⟩
        cases j with
        | zero => rfl
        | succ j => rw [pathUp, pathUp, hpar, hp, hs, h2]
    obtain ⟨d, hd, hdep⟩ := C22_depth I.r.inv.forest q hq
    obtain ⟨h1, h2⟩ := key hdep hq
    obtain ⟨d', hd', hdep'⟩ := C22_depth I'.r.inv.forest q ((hal q).mpr (Or.inl hq))
    have hdd : ∀ {x d e : Nat}, Depth st'.tree.heap x d → Depth st'.tree.heap x e → d = e := by
      intro x d e h1
      induction h1 generalizing e with
      | root hp =>
        intro h2
        cases h2 with
        | root => rfl
        | child hp' => rw [hp] at hp'; cases hp'
      | child hp _ ih =>
        intro h2
        cases h2 with
        | root hp' => rw [hp] at hp'; cases hp'
        | child hp' h2 =>
          rw [hp] at hp'; cases hp'
          rw [ih h2]
    have : d' = d := hdd hdep' h1
    subst this
    show (st'.tree.heap.getDepth q).bind _ = (st.tree.heap.getDepth q).bind _
    rw [hd, hd']
    exact h2 _ _

/-- The search goes through these states. -/
theorem C139_search_runs (s : RRTSetup V P ℝ) (nn : Nat → Nat) (t : Tree V) (init : V) (r : RRTStarResult V ℝ)
    (h : rrtStarSearchPathF s nn t init = some r) :
    starStateF s nn (starInit t init) r.samples = some r.state := by
  have key : ∀ (k count : Nat) (st : RRTStarState V ℝ), s.maxIteration + 1 - count = k →
      starStateF s nn (starInit t init) count = some st → rrtStarLoopF s nn count st = some r →
      starStateF s nn (starInit t init) r.samples = some r.state := by
    intro k
    induction k with
    | zero =>
      intro count st hk hst h
      rw [rrtStarLoopF, if_pos (by omega)] at h
      cases h; exact hst
    | succ k ih =>
      intro count st hk hst h
      rw [rrtStarLoopF, if_neg (by omega)] at h
      split at h
      · cases h; exact hst
      · cases hs : rrtStarStepF s nn (s.sample count) st with
        | none => rw [hs] at h; cases h
        | some x =>
          obtain ⟨st1, new⟩ := x
          have hst1 : starStateF s nn (starInit t init) (count + 1) = some st1 := by
            rw [starStateF, hst, Option.bind_some, hs]; rfl
          rw [hs] at h
          cases new with
          | none => exact ih (count + 1) st1 (by omega) hst1 h
          | some nv =>
            obtain ⟨n, v⟩ := nv
            dsimp only at h
            split at h
            · cases h; exact hst1
            · exact ih (count + 1) st1 (by omega) hst1 h
  exact key _ 0 _ rfl rfl h

/-! ## Example -/

/-- As `exOpen`, where all points are looked up. -/
noncomputable def exOpenAll : RRTSetup Pt PathR2 ℝ :=
  { exOpen with
    valid := fun p => open Classical in decide (|p.final.x| ≤ 10 ∧ |p.final.y| ≤ 10)
    knn := ⟨r2KNNF.nearest, fun pts _ _ => pts⟩ }

private theorem exAll_laws : NearestLaws exOpenAll.knn sqDistF where
  some_of_ne := r2KNNF_laws.some_of_ne
  mem := r2KNNF_laws.mem
  min := r2KNNF_laws.min
  knn_mem _ _ _ _ h := h

private theorem exAll_steer : |(r2SteeringF.steerTowards ⟨0, 0⟩ ⟨4, 3⟩ 1).final.x - 4 / 5| ≤ 1 / 100 ∧
    |(r2SteeringF.steerTowards ⟨0, 0⟩ ⟨4, 3⟩ 1).final.y - 3 / 5| ≤ 1 / 100 := by
  obtain ⟨h1, h2, -⟩ := C138_steering ⟨0, 0⟩ ⟨4, 3⟩ 1 4 (by norm_num) (by norm_num) (by norm_num) (by norm_num) (by norm_num)
  have hn : ((⟨4, 3⟩ : Pt) - ⟨0, 0⟩).norm = 5 := by
    show √(((4 : ℝ) - 0) ^ 2 + (3 - 0) ^ 2) = 5
    rw [show ((4 : ℝ) - 0) ^ 2 + (3 - 0) ^ 2 = 5 ^ 2 by norm_num, Real.sqrt_sq (by norm_num)]
  have e : (r2Steering.steerTowards ⟨0, 0⟩ ⟨4, 3⟩ 1).final = ⟨4 / 5, 3 / 5⟩ := by
    have hl : r2Steering.length (r2Steering.connect ⟨0, 0⟩ ⟨4, 3⟩) = 5 := hn
    unfold Steering.steerTowards
    dsimp only
    rw [if_pos (by rw [hl]; norm_num), hl]
    dsimp only [r2Steering, PathR2.connect]
    unfold PathR2.truncate PathR2.interpolate clampK Pt.lerp
    norm_num
  rw [e] at h1 h2
  exact ⟨h1.trans (by norm_num), h2.trans (by norm_num)⟩

/-- The first iteration goes towards (4, 3), and the path through the only neighbour is looked at. -/
example [DecidableEq Pt] [Inhabited Pt] : ∃ st st' n v q path pathq,
    starStateF exOpenAll (fun k => k) (starInit Tree.new ⟨0, 0⟩) 0 = some st ∧
    rrtStarStepF exOpenAll (fun k => k) (exOpenAll.sample 0) st = some (st', some (n, v)) ∧
    q ∈ st.tree.getNearestNodes exOpenAll.knn v st.tree.size ∧ v ≠ ⟨0, 0⟩ ∧
    treeGetPath st'.tree (some n) = some path ∧ treeGetPath st.tree (some q) = some pathq ∧
    segmentsLength path ≤ (1 + 5 / 2 ^ 50) * segmentsLength (pathq ++ [v]) := by
  obtain ⟨st, hst⟩ : ∃ st : RRTStarState Pt ℝ, st = starInit Tree.new ⟨0, 0⟩ := ⟨_, rfl⟩
  have I := treeInv_reachable exAll_laws (t := Tree.new) .start
  have C : CInv exOpenAll ⟨0, 0⟩ st := by rw [hst]; exact cinv_start I _ _
  obtain ⟨R', -⟩ := rinv_start I (fun _ _ => False) ⟨0, 0⟩
  obtain ⟨r, hr, hri⟩ := C.r.root
  have hall : ∀ x, st.tree.heap.alive x → st.tree.state x = ⟨0, 0⟩ := by
    intro x hx
    cases hp : st.tree.heap.parent x with
    | some p => rw [hst] at hx hp; exact (R'.edge x p hx hp).elim
    | none =>
      have := (C.r.inv.root_iff x).mpr ⟨hx, hp⟩
      rw [hr] at this; cases this
      exact hri
  obtain ⟨q, hq⟩ := (nearestNode_spec exAll_laws C.r.inv ⟨4, 3⟩).1 (by rw [hr]; simp)
  obtain ⟨hqa, hqp, -⟩ := (nearestNode_spec exAll_laws C.r.inv ⟨4, 3⟩).2 q hq
  obtain ⟨v, hv⟩ : ∃ v, v = (r2SteeringF.steerTowards ⟨0, 0⟩ ⟨4, 3⟩ 1).final := ⟨_, rfl⟩
  obtain ⟨hx, hy⟩ := exAll_steer
  rw [← hv] at hx hy
  have hne : v ≠ ⟨0, 0⟩ := by
    intro e
    rw [e] at hx
    norm_num at hx
  have hval : exOpenAll.valid (r2SteeringF.steerTowards ⟨0, 0⟩ ⟨4, 3⟩ 1) = true := by
    refine decide_eq_true ?_
    rw [← hv]
    rw [abs_le] at hx hy
    constructor <;> rw [abs_le] <;> constructor <;> linarith [hx.1, hx.2, hy.1, hy.2]
  have hmem : q ∈ st.tree.getNearestNodes exOpenAll.knn v st.tree.size :=
    List.mem_filterMap.mpr ⟨_, exAll_laws.mem _ _ _ hqp, C.r.inv.find_some.mpr ⟨hqa, rfl⟩⟩
  have hsrc : ∀ m, (bestParentF exOpenAll st v (st.tree.getNearestNodes exOpenAll.knn v st.tree.size)).1 = some m →
      st.tree.heap.alive m := by
    intro m hm
    rcases bestParentF_cases exOpenAll st v (st.tree.getNearestNodes exOpenAll.knn v st.tree.size) with
      ⟨h1, -⟩ | ⟨p, cp, h1, h2, -⟩
    · rw [h1] at hm; cases hm
    · rw [h1] at hm
      cases hm
      obtain ⟨u, _, hu⟩ := List.mem_filterMap.mp h2
      exact (C.r.inv.find_some.mp hu).1
  obtain ⟨t', n, he, -⟩ := rinv_extend exAll_laws C.r (v := v) hsrc (fun _ _ _ _ => trivial)
  have hstep : ∃ st', rrtStarStepF exOpenAll (fun k => k) (exOpenAll.sample 0) st = some (st', some (n, v)) := by
    unfold rrtStarStepF
    have hq' : st.tree.getNearestNode exOpenAll.knn (exOpenAll.sample 0) = some q := hq
    rw [hq']
    dsimp only
    have hval' : exOpenAll.valid (exOpenAll.steering.steerTowards ⟨0, 0⟩ (exOpenAll.sample 0)
        exOpenAll.maxConnectionDistance) = true := hval
    have hv' : exOpenAll.steering.final (exOpenAll.steering.steerTowards ⟨0, 0⟩ (exOpenAll.sample 0)
        exOpenAll.maxConnectionDistance) = v := hv.symm
    rw [hall q hqa, hval', hv', he]
    exact ⟨_, rfl⟩
  obtain ⟨st', hstep⟩ := hstep
  have hnr : NoRepeatsF exOpenAll (fun k => k) (starInit Tree.new ⟨0, 0⟩) 1 := by
    intro k hk st1 st1' n1 v1 h1 h2
    obtain rfl : k = 0 := by omega
    have e1 : st1 = st := by
      rw [hst]
      exact (Option.some.inj h1).symm
    subst e1
    rw [hstep] at h2
    obtain ⟨-, rfl⟩ : n = n1 ∧ v = v1 := by simpa using congrArg (fun o => o.bind Prod.snd) h2
    cases hf : st1.tree.find v with
    | none => rfl
    | some m =>
      obtain ⟨hm, hm'⟩ := C.r.inv.find_some.mp hf
      exact absurd (hm'.symm.trans (hall m hm)) hne
  have hst0 : starStateF exOpenAll (fun k => k) (starInit Tree.new ⟨0, 0⟩) 0 = some st := by rw [hst]; rfl
  obtain ⟨path, pathq, h1, -, -, h2, -, -, h3⟩ := C139_r2_partial exOpenAll rfl exAll_laws (fun k => k) Tree.new .start ⟨0, 0⟩
    (fun p p' _ h => by
      show decide _ = decide _
      rw [h])
    (fun pts target a k h => exAll_laws.mem pts target a h) 1 hnr one_pos (by norm_num) hst0 hstep hmem (by
      refine decide_eq_true ?_
      show |v.x| ≤ 10 ∧ |v.y| ≤ 10
      rw [abs_le] at hx hy
      constructor <;> rw [abs_le] <;> constructor <;> linarith [hx.1, hx.2, hy.1, hy.2])
  refine ⟨st, st', n, v, q, path, pathq, hst0, hstep, hmem, hne, h1, h2, ?_⟩
  simpa using h3

end PathPlanning
