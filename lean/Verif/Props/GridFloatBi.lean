import Verif.Props.GridFloat
import Verif.Props.BiSimple

/-!
# C156: the bidirectional grid planner with `double` costs
-/

namespace PathPlanning
open Spec AStar Flt

section
variable {C : Type} [LinearOrder C] [Add C] [Zero C] {m : GridMap} {pathCost pathCostR : Cell → Cell → C}
  {hf hr : Cell → C}

private theorem wf : Bi.Wf (N2.biProblem m pathCost pathCostR hf hr) :=
  ⟨⟨by simp [N2.biProblem], by simp [N2.biProblem], by simp [N2.biProblem]⟩, rfl, fun _ => rfl, fun _ => rfl⟩

private theorem respF : (N2.biProblem m pathCost pathCostR hf hr).fwd.Respects := by
  refine ⟨?_, ?_, ?_⟩
  · intro u u' h; simp only [N2.biProblem, decide_eq_true_eq] at h; subst h; rfl
  · intro u u' h; simp only [N2.biProblem, decide_eq_true_eq] at h; subst h; rfl
  · intro u u' h v a c hv
    simp only [N2.biProblem, decide_eq_true_eq] at h; subst h
    exact ⟨v, a, hv, by simp [N2.biProblem]⟩

private theorem respR : (N2.biProblem m pathCost pathCostR hf hr).rev.Respects :=
  respF (m := m) (pathCost := pathCostR) (pathCostR := pathCost) (hf := hr) (hr := hf)

private theorem route_free {heur : Cell → Cell → C} {g a b : Cell} (ha : Free m a) {l : List (Unit × C × Cell)}
    (h : Route (N2.problem m pathCost heur g).tr a l b) : Free m b := by
  cases h with
  | nil => exact ha
  | snoc _ h2 => exact ((N2.tr_iff _ _ _ _).mp h2).2.1.1

/-- Moves between free cells can be taken backwards. -/
private theorem exact_one {c c' : Cell → Cell → C} {h h' : Cell → Cell → C} {g g' s : Cell} (hs : Free m s)
    (hsym : ∀ a b, c' b a = c a b) (u : Cell) (a : Unit) (x : C) (v : Cell)
    (hu : Reachable (N2.problem m c h g).tr s u) (ht : (N2.problem m c h g).tr u a x v) :
    ∃ a', (N2.problem m c' h' g').tr v a' x u := by
  obtain ⟨l, hl⟩ := hu
  have hfu := route_free hs hl
  obtain ⟨_, ⟨h1, h2, h3⟩, rfl⟩ := (N2.tr_iff _ _ _ _).mp ht
  refine ⟨(), (N2.tr_iff _ _ _ _).mpr ⟨h1.1, ⟨hfu, ?_, ?_⟩, (hsym u v).symm⟩⟩
  · rw [chebyshev_eq_one] at h2 ⊢; omega
  · rintro hr hk ⟨a, b⟩
    exact h3 (Ne.symm hr) (Ne.symm hk) ⟨b, a⟩

private theorem exact {init goal : Cell} (hi : Free m init) (hg : Free m goal)
    (hsym : ∀ a b, pathCostR b a = pathCost a b) :
    (N2.biProblem m pathCost pathCostR hf hr).ExactReverseFrom init goal :=
  ⟨fun u a x v hu ht => exact_one (c' := pathCostR) (h := fun c _ => hf c) (h' := fun c _ => hr c) (g := ⟨0, 0⟩) (g' := ⟨0, 0⟩) hi hsym u a x v hu ht,
   fun u a x v hu ht => exact_one (c' := pathCost) (h := fun c _ => hr c) (h' := fun c _ => hf c) (g := ⟨0, 0⟩) (g' := ⟨0, 0⟩) hg
    (fun a b => (hsym b a).symm) u a x v hu ht⟩

omit [LinearOrder C] [Add C] [Zero C] in
private theorem turn_states {tr tr' : Cell → Unit → C → Cell → Prop} {s : Cell}
    (h : ∀ u a c v, Reachable tr s u → tr u a c v → ∃ a', tr' v a' c u) {l t} (hr : Route tr s l t) :
    ∃ l', Route tr' t l' s ∧ routeStates t l' = (routeStates s l).reverse := by
  induction hr with
  | nil => exact ⟨[], .nil, rfl⟩
  | @snoc l u a c v h1 h2 ih =>
    obtain ⟨l', h3, h4⟩ := ih
    obtain ⟨a', h6⟩ := h u a c v ⟨l, h1⟩ h2
    refine ⟨(a', c, u) :: l', h3.cons h6, ?_⟩
    simp only [routeStates, List.map_cons, List.map_append, List.map_nil] at h4 ⊢
    rw [h4]
    simp

/-- The numbers of expansions are bounded by the number of cells. -/
private theorem calls_le {init goal : Cell} (hi : Inside m init) (hg : Inside m goal) {fuel : Nat} {st : Status}
    {s : BiSearch Cell Unit C}
    (h : Bi.searchPath (N2.biProblem m pathCost pathCostR hf hr) true fuel init goal = some (st, s)) :
    s.f.calls.length ≤ m.rows.toNat * m.columns.toNat ∧ s.r.calls.length ≤ m.rows.toNat * m.columns.toNat := by
  obtain ⟨inv, -⟩ := Bi.loop_spec wf (fun _ => True) (by intros; trivial) (by intros; trivial) _ fuel _ _ _
    (Bi.binv_init wf true init goal) trivial (by intro h; exact absurd rfl h) h
  rw [← length_allCells m.rows m.columns]
  refine ⟨length_le_of_covers wf.eqv _ _ (inv.f.nodup rfl) (fun x hx =>
      ⟨x, (mem_allCells _ _ x).mpr ?_, by simp [N2.biProblem]⟩),
    length_le_of_covers wf.reqv _ _ (inv.r.nodup rfl) (fun x hx =>
      ⟨x, (mem_allCells _ _ x).mpr ?_, by simp [N2.biProblem]⟩)⟩
  · obtain ⟨l, hl⟩ := inv.f.reach x hx
    exact (N2.walk_of_route_any (pathCost := pathCost) (heur := fun c _ => hf c) (goal := ⟨0, 0⟩) hi hl).2
  · obtain ⟨l, hl⟩ := inv.r.reach x hx
    exact (N2.walk_of_route_any (pathCost := pathCostR) (heur := fun c _ => hr c) (goal := ⟨0, 0⟩) hg hl).2

/-- C156. With costs of any type that has an order and an addition (such as `double` with its rounding), and any costs and
heuristics, the bidirectional grid planner ends within one iteration per cell of the map, plus one. -/
theorem C156_terminates (m : GridMap) (pathCost pathCostR : Cell → Cell → C) (hf hr : Cell → C) (init goal : Cell)
    (hi : Inside m init) :
    (Bi.searchPath (N2.biProblem m pathCost pathCostR hf hr) true (m.rows.toNat * m.columns.toNat + 1) init goal).isSome
      = true := by
  rw [← length_allCells m.rows m.columns]
  refine C14_bidirectional_terminates wf ?_
  rintro x ⟨steps, h⟩
  exact ⟨x, (mem_allCells _ _ x).mpr (N2.walk_of_route_any (pathCost := pathCost) (heur := fun c _ => hf c)
    (goal := ⟨0, 0⟩) hi h).2, by simp [N2.biProblem]⟩

/-- C156. With such costs, the same in both directions, and free ends, it fails exactly if there is no walk of legal moves
from the start to the goal. -/
theorem C156_fails_iff_no_walk (m : GridMap) (pathCost pathCostR : Cell → Cell → C) (hf hr : Cell → C)
    (hsym : ∀ a b, pathCostR b a = pathCost a b) (init goal : Cell) (hi : Free m init) (hg : Free m goal)
    {fuel : Nat} {st : Status} {s : BiSearch Cell Unit C}
    (h : Bi.searchPath (N2.biProblem m pathCost pathCostR hf hr) true fuel init goal = some (st, s)) :
    st = .failure ↔ ¬ ∃ cells, Walk m init cells goal := by
  constructor
  · rintro rfl ⟨cells, hw⟩
    obtain ⟨steps, h1, _⟩ := N2.route_of_walk_any (pathCost := pathCost) (heur := fun c _ => hf c) (goal := ⟨0, 0⟩) hi.1 hw
    exact C14_bidirectional_failure_unreachable wf (exact hi hg hsym) (fun _ _ => rfl) (fun _ _ => rfl) respF respR h
      ⟨steps, h1⟩
  · intro hno
    cases st with
    | failure => rfl
    | success =>
      exfalso
      obtain ⟨fs, x, rs, y, h1, h2, h3, -⟩ := C15_bidirectional_cost_matches_path wf h
      have e : x = y := by simpa [N2.biProblem] using h3
      subst e
      obtain ⟨rs', h4, -⟩ := turn_states (exact (hf := hf) (hr := hr) hi hg hsym).2 h2
      exact hno ⟨_, (N2.walk_of_route_any (pathCost := pathCost) (heur := fun c _ => hf c) (goal := ⟨0, 0⟩) hi.1
        (h1.append h4)).1⟩

end

private theorem walkCost_split (f : Cell → Cell → ℝ) (x : Cell) (b : List Cell) : ∀ a : List Cell,
    walkCost f (a ++ x :: b) = walkCost f (a ++ [x]) + walkCost f (x :: b)
  | [] => by simp [walkCost]
  | [y] => by simp [walkCost]
  | y :: z :: a => by
    have := walkCost_split f x b (z :: a)
    simp only [List.cons_append, walkCost] at this ⊢
    rw [this, add_assoc]

private theorem walkCost_reverse (f : Cell → Cell → ℝ) (hs : ∀ a b, f a b = f b a) : ∀ l : List Cell,
    walkCost f l.reverse = walkCost f l
  | [] => rfl
  | [_] => rfl
  | y :: z :: a => by
    have := walkCost_reverse f hs (z :: a)
    rw [List.reverse_cons, List.reverse_cons, List.append_assoc, List.singleton_append, walkCost_split,
      ← List.reverse_cons, this]
    simp only [walkCost]
    rw [hs z y]; ring

private theorem distance_symm (a b : Cell) : cellDistance a b = cellDistance b a := by
  unfold cellDistance
  congr 1
  push_cast
  ring

theorem distanceF_symm (a b : Cell) : N2.distanceF b a = N2.distanceF a b := by
  unfold N2.distanceF
  have : (b.row - a.row) ^ 2 + (b.col - a.col) ^ 2 = (a.row - b.row) ^ 2 + (a.col - b.col) ^ 2 := by ring
  simp only [this]

/-- There is only one place where an element is listed twice in a row. -/
private theorem nodup_of_double {a b a' b' : List Cell} {x x' : Cell} (e : a' ++ x' :: x' :: b' = a ++ x :: x :: b)
    (h : (a' ++ x' :: b').Nodup) : (a ++ x :: b).Nodup := by
  have p1 : (x' :: (a' ++ x' :: b')).Perm (x :: (a ++ x :: b)) :=
    (List.perm_middle.symm.trans (List.Perm.of_eq e)).trans List.perm_middle
  have hx : x' = x := by
    have h1 := p1.count_eq x
    have h2 := List.nodup_iff_count_le_one.mp h x
    have h3 : 0 < (a ++ x :: b).count x := List.count_pos_iff.mpr (by simp)
    by_contra hne
    rw [List.count_cons_of_ne hne, List.count_cons_self] at h1
    omega
  rw [hx] at p1
  exact (p1.cons_inv.nodup_iff).mp (hx ▸ h)

/-- C156. `BidirectionalAStarN2` with the straight-line distance, computed in `double`, as cost and as heuristics towards the
goal and towards the start, on a map of `n` cells with free ends: the returned path is, apart from the second copy of the
meeting cell, a walk of legal moves from the start to the goal that visits no cell twice; the reported cost is at least
`1 - (n + 1) 2⁻⁵³` times its length; and for every walk of legal moves from the start to the goal, of length `L`, the
reported cost is at most `2 L / (1 - (5 n + 5) 2⁻⁵³)` and the returned walk at most `2 L / (1 - (6 n + 6) 2⁻⁵³)` long. -/
theorem C156_within_factor_two (m : GridMap) (hm : m.rows ≤ 2 ^ 26) (hm' : m.columns ≤ 2 ^ 26) (init goal : Cell)
    (hi : Free m init) (hg : Free m goal) {fuel : Nat} {s : BiSearch Cell Unit Double}
    (h : Bi.searchPath (N2.biProblem m N2.distanceF N2.distanceF (fun c => N2.distanceF c goal)
      (fun c => N2.distanceF c init)) true fuel init goal = some (.success, s)) :
    ∃ pre meet post c, Bi.getPath s = some (pre ++ meet :: meet :: post) ∧ Walk m init (pre ++ meet :: post) goal ∧
      (pre ++ meet :: post).Nodup ∧ Bi.getOptimalCost s = some c ∧
      (1 - ((m.rows.toNat * m.columns.toNat : ℕ) + 1) * (2 ^ 53)⁻¹) * walkLength (pre ++ meet :: post) ≤ c.1 ∧
      ∀ other, Walk m init other goal →
        (1 - (5 * (m.rows.toNat * m.columns.toNat : ℕ) + 5) * (2 ^ 53)⁻¹) * c.1 ≤ 2 * walkLength other ∧
        (1 - (6 * (m.rows.toNat * m.columns.toNat : ℕ) + 6) * (2 ^ 53)⁻¹) * walkLength (pre ++ meet :: post) ≤
          2 * walkLength other := by
  obtain ⟨n, hn⟩ : ∃ n, n = m.rows.toNat * m.columns.toNat := ⟨_, rfl⟩
  obtain ⟨ε, hε⟩ : ∃ ε : ℝ, ε = (2 ^ 53)⁻¹ := ⟨_, rfl⟩
  have ε0 : 0 ≤ ε := by rw [hε]; positivity
  have ε1 : ε < 1 := by rw [hε]; norm_num
  have hy0 : (0 : ℝ) < 1 - ε := by linarith
  have y1 : 1 - ε ≤ 1 := by linarith
  have hrd : Rounded (C := Double) Subtype.val ε := by rw [hε]; exact double_rounded
  obtain ⟨η, hη⟩ : ∃ η : ℝ, 1 + η = (1 + ε) / (1 - ε) := ⟨(1 + ε) / (1 - ε) - 1, by ring⟩
  have hη0 : 0 ≤ η := by
    have : 1 ≤ (1 + ε) / (1 - ε) := by rw [le_div_iff₀ hy0]; linarith
    linarith
  have hacc : ∀ a b, Inside m a → Inside m b → |(N2.distanceF a b).1 - cellDistance a b| ≤ ε * cellDistance a b := by
    intro a b ha hb
    rw [hε]; exact gridF_distance_acc hm hm' ha hb
  have hpos : ∀ a b, 0 ≤ N2.distanceF a b := fun a b => fl_nonneg 53 (Real.sqrt_nonneg _)
  have hz : ∀ c, N2.distanceF c c = 0 := by
    intro c
    refine Subtype.ext ?_
    show fl64 (√(fl64 (((c.row - c.row) ^ 2 + (c.col - c.col) ^ 2 : ℤ) : ℝ))) = 0
    have z : fl64 (0 : ℝ) = 0 := fl_zero 53
    simp [z]
  have hcon : ∀ g, Inside m g → ∀ u v, Inside m u → Inside m v →
      (N2.distanceF u g).1 ≤ (1 + η) * ((N2.distanceF u v).1 + (N2.distanceF v g).1) := by
    intro g hg u v hu hv
    have d1 := (abs_le.1 (hacc u g hu hg)).2
    have d2 := (abs_le.1 (hacc u v hu hv)).1
    have d3 := (abs_le.1 (hacc v g hv hg)).1
    have d4 := gridF_distance_tri u v g
    rw [hη, div_mul_eq_mul_div, le_div_iff₀ hy0]
    have d5 : (1 - ε) * cellDistance u g ≤ (N2.distanceF u v).1 + (N2.distanceF v g).1 := by nlinarith
    have d6 : (N2.distanceF u g).1 ≤ (1 + ε) * cellDistance u g := by linarith
    have d7 := mul_le_mul_of_nonneg_right d6 hy0.le
    have d8 := mul_le_mul_of_nonneg_left d5 (by linarith : 0 ≤ 1 + ε)
    nlinarith
  obtain ⟨B, hB⟩ : ∃ B, B = N2.biProblem m N2.distanceF N2.distanceF (fun c => N2.distanceF c goal)
      (fun c => N2.distanceF c init) := ⟨_, rfl⟩
  have ftr : B.fwd.tr = (N2.problem m N2.distanceF (fun c _ => N2.distanceF c goal) ⟨0, 0⟩).tr := by rw [hB]; rfl
  have rtr : B.rev.tr = (N2.problem m N2.distanceF (fun c _ => N2.distanceF c init) ⟨0, 0⟩).tr := by rw [hB]; rfl
  have hw : Bi.Wf B := by rw [hB]; exact wf
  have hcost : ∀ u a c v, B.fwd.tr u a c v → 0 ≤ c := by
    intro u a c v htr
    rw [ftr] at htr
    obtain ⟨_, _, rfl⟩ := (N2.tr_iff _ _ _ _).mp htr
    exact hpos _ _
  have hcostR : ∀ u a c v, B.rev.tr u a c v → 0 ≤ c := by
    intro u a c v htr
    rw [rtr] at htr
    obtain ⟨_, _, rfl⟩ := (N2.tr_iff _ _ _ _).mp htr
    exact hpos _ _
  have hex : B.ExactReverseFrom init goal := by rw [hB]; exact exact hi hg (fun a b => distanceF_symm a b)
  obtain ⟨kf, kr⟩ := calls_le hi.1 hg.1 h
  rw [← hB] at h
  obtain ⟨fs, x, rs, y, c, k1, k2, k3, k4, k5, k6, k7⟩ := C141_rounded_within_factor_two (η := η) hw hex
    (by rw [hB]; exact fun _ _ => rfl) (by rw [hB]; exact fun _ _ => rfl) (by rw [hB]; exact respF) (by rw [hB]; exact respR)
    (by rw [hB]; exact fun _ _ => rfl) (by rw [hB]; exact fun _ _ => rfl) hrd
    (fun a b => Subtype.ext (by
      show fl64 (a.1 + b.1) = fl64 (b.1 + a.1)
      rw [add_comm])) ε0 ε1 hη0 hcost hcostR (by rw [hB]; exact fun u => hpos _ _) (by rw [hB]; exact fun u => hpos _ _)
    (fun u a c v htr => by
      rw [ftr] at htr
      obtain ⟨hu, hmv, rfl⟩ := (N2.tr_iff _ _ _ _).mp htr
      rw [hB]
      exact hcon goal hg.1 u v hu hmv.1.1)
    (fun u a c v htr => by
      rw [rtr] at htr
      obtain ⟨hu, hmv, rfl⟩ := (N2.tr_iff _ _ _ _).mp htr
      rw [hB]
      exact hcon init hi.1 u v hu hmv.1.1)
    (by rw [hB]; exact hz goal) (by rw [hB]; exact hz init) h
  have exy : x = y := by rw [hB] at k3; simpa [N2.biProblem] using k3
  subst exy
  -- the walk
  obtain ⟨rs', t1, t2⟩ := turn_states hex.2 k2
  obtain ⟨pre, hpre⟩ : ∃ pre, routeStates init fs = pre ++ [x] := k1.states_end
  have hpost : routeStates x rs' = x :: rs'.map (fun e => e.2.2) := rfl
  obtain ⟨post, hpd⟩ : ∃ post, post = rs'.map (fun e => e.2.2) := ⟨_, rfl⟩
  rw [← hpd] at hpost
  have hpath : Bi.getPath s = some (pre ++ x :: x :: post) := by
    rw [k4, ← t2, hpre, hpost]; simp
  have hst : routeStates init (fs ++ rs') = pre ++ x :: post := by
    have : routeStates init (fs ++ rs') = routeStates init fs ++ post := by rw [hpd]; simp [routeStates]
    rw [this, hpre]; simp
  have k1' := k1
  have k2' := k2
  have hroute := k1.append t1
  rw [ftr] at hroute k1'
  rw [rtr] at k2'
  have hwalk := (N2.walk_of_route_any hi.1 hroute).1
  rw [hst] at hwalk
  obtain ⟨pre', x1, x2, post', u1, u2, u3⟩ := C155_double hw hcost hcostR h
  have hnd : (pre ++ x :: post).Nodup := by
    have hfu : (pre' ++ x1 :: post').Nodup := u3.imp fun {a b} hab => by
      rw [hB] at hab; simpa [N2.biProblem] using hab
    have e12 : x1 = x2 := by rw [hB] at u2; simpa [N2.biProblem] using u2
    subst e12
    have e := Option.some.inj (hpath.symm.trans u1)
    exact nodup_of_double e.symm hfu
  have hE1 := abs_le.1 (gridF_route_length hi.1 hacc k1')
  have hE2 := abs_le.1 (gridF_route_length hg.1 hacc k2')
  have hW : walkLength (pre ++ x :: post) = walkLength (routeStates init fs) + walkLength (routeStates goal rs) := by
    unfold walkLength
    rw [walkCost_split, ← hpre, ← hpost, t2, walkCost_reverse _ distance_symm]
  have hW0 : 0 ≤ walkLength (pre ++ x :: post) := gridF_cost_nonneg gridF_distance_nonneg _
  have pow_ge : ∀ N : ℕ, 1 - N * ε ≤ (1 - ε) ^ N := by
    intro N
    have := one_add_mul_le_pow (a := -ε) (by linarith) N
    calc 1 - N * ε = 1 + N * -ε := by ring
      _ ≤ (1 + -ε) ^ N := this
      _ = (1 - ε) ^ N := by ring
  have hlen : fs.length + rs.length + 1 ≤ n := by
    have := gridF_nodup_length hnd (gridF_walk_inside hi.1 hwalk)
    rw [← hn, ← hst] at this
    have e : rs'.length = rs.length := by
      have := congrArg List.length t2
      simpa [routeStates] using this
    simpa [routeStates, e, Nat.add_assoc] using this
  have hlow : (1 - ((n : ℕ) + 1) * ε) * walkLength (pre ++ x :: post) ≤ c.1 := by
    have l1 : (1 - ε) * walkLength (pre ++ x :: post) ≤ exactCost Subtype.val fs + exactCost Subtype.val rs := by
      rw [hW]; linarith [hE1.1, hE2.1]
    have l2 := le_trans (mul_le_mul_of_nonneg_left l1 (by positivity : 0 ≤ (1 - ε) ^ (fs.length + rs.length + 1))) k6
    have l3 : (1 - ε) ^ (n + 1) ≤ (1 - ε) ^ (fs.length + rs.length + 1 + 1) :=
      pow_le_pow_of_le_one hy0.le y1 (by omega)
    have l4 := pow_ge (n + 1)
    push_cast at l4
    have l5 := mul_le_mul_of_nonneg_right (le_trans l4 l3) hW0
    rw [pow_succ] at l5
    linarith
  rw [← hn] at kf kr
  rw [← hn, ← hε]
  refine ⟨pre, x, post, c, hpath, hwalk, hnd, k5, hlow, fun other hother => ?_⟩
  obtain ⟨o', o1, o2, o3⟩ := gridF_walk_simple hother
  have hm2 : o'.length ≤ n := by rw [hn]; exact gridF_nodup_length o2 (gridF_walk_inside hi.1 o1)
  obtain ⟨steps, r1, r2⟩ := N2.route_of_walk_any (pathCost := N2.distanceF) (heur := fun c _ => N2.distanceF c goal)
    (goal := ⟨0, 0⟩) hi.1 o1
  have hsl : steps.length + 1 ≤ n := by
    refine le_trans (le_of_eq ?_) hm2
    rw [← r2]; simp [routeStates]
  have q := k7 n kf kr steps (by rw [ftr]; exact r1)
  have hE3 := abs_le.1 (gridF_route_length hi.1 hacc r1)
  rw [r2] at hE3
  have hD2 : 0 ≤ walkLength o' := gridF_cost_nonneg gridF_distance_nonneg _
  have hE3' : (1 - ε) * exactCost Subtype.val steps ≤ walkLength o' := by
    have : exactCost Subtype.val steps ≤ (1 + ε) * walkLength o' := by linarith [hE3.2]
    nlinarith
  obtain ⟨ρ, hρ⟩ : ∃ ρ : ℝ, ρ = (1 + ε) ^ 2 / (1 - ε) := ⟨_, rfl⟩
  rw [← hρ] at q
  have hρ0 : 0 ≤ ρ := by rw [hρ]; positivity
  have hsq : (1 + ε) * (1 - ε) ≤ 1 := by nlinarith
  have hsq0 : 0 ≤ (1 + ε) * (1 - ε) := by positivity
  have hρ3 : ρ * (1 - ε) ^ 3 ≤ 1 := by
    have : ρ * (1 - ε) ^ 3 = ((1 + ε) * (1 - ε)) ^ 2 := by rw [hρ]; field_simp
    rw [this]; exact pow_le_one₀ hsq0 hsq
  have hη2 : (1 + η) * (1 - ε) ^ 2 ≤ 1 := by
    have : (1 + η) * (1 - ε) ^ 2 = (1 + ε) * (1 - ε) := by rw [hη]; field_simp
    rw [this]; exact hsq
  have hE3n : 0 ≤ exactCost Subtype.val steps := (rounded_route_nonneg hrd ε1 hcost (by rw [ftr]; exact r1)).2
  have hc0 : 0 ≤ c.1 := by
    have a1 := (rounded_route_nonneg hrd ε1 hcost k1).2
    have a2 := (rounded_route_nonneg hrd ε1 hcostR k2).2
    exact le_trans (by positivity) k6
  have key : (1 - ε) ^ (5 * n + 5) * c.1 ≤ 2 * walkLength other := by
    have e1 : (1 - ε) ^ (5 * n + 5) ≤ (1 - ε) ^ (3 * (n + 2) + 2 * steps.length + 1) :=
      pow_le_pow_of_le_one hy0.le y1 (by omega)
    refine le_trans (mul_le_mul_of_nonneg_right e1 hc0) ?_
    have e3 : (1 - ε) ^ (3 * (n + 2) + 2 * steps.length + 1) * c.1 =
        ((1 - ε) ^ 3) ^ (n + 2) * ((1 - ε) ^ 2) ^ steps.length * (1 - ε) * c.1 := by
      rw [pow_add, pow_add, pow_mul, pow_mul, pow_one]
    rw [e3]
    refine le_trans (mul_le_mul_of_nonneg_left q (by positivity)) ?_
    have e4 : ((1 - ε) ^ 3) ^ (n + 2) * ((1 - ε) ^ 2) ^ steps.length * (1 - ε) *
        (2 * ρ ^ (n + 2) * (1 + η) ^ steps.length * exactCost Subtype.val steps) =
        (ρ * (1 - ε) ^ 3) ^ (n + 2) * ((1 + η) * (1 - ε) ^ 2) ^ steps.length *
          (2 * ((1 - ε) * exactCost Subtype.val steps)) := by
      rw [mul_pow, mul_pow]; ring
    rw [e4]
    have e5 : (ρ * (1 - ε) ^ 3) ^ (n + 2) ≤ 1 := pow_le_one₀ (by positivity) hρ3
    have e6 : ((1 + η) * (1 - ε) ^ 2) ^ steps.length ≤ 1 := pow_le_one₀ (by positivity) hη2
    have e7 : (ρ * (1 - ε) ^ 3) ^ (n + 2) * ((1 + η) * (1 - ε) ^ 2) ^ steps.length ≤ 1 :=
      mul_le_one₀ e5 (by positivity) e6
    have e8 : 0 ≤ 2 * ((1 - ε) * exactCost Subtype.val steps) := by positivity
    have e9 := mul_le_mul_of_nonneg_right e7 e8
    linarith
  refine ⟨?_, ?_⟩
  · have := pow_ge (5 * n + 5)
    push_cast at this
    exact le_trans (mul_le_mul_of_nonneg_right this hc0) key
  · have l1 : (1 - ε) ^ (n + 1) * walkLength (pre ++ x :: post) ≤ c.1 := by
      have l1 : (1 - ε) * walkLength (pre ++ x :: post) ≤ exactCost Subtype.val fs + exactCost Subtype.val rs := by
        rw [hW]; linarith [hE1.1, hE2.1]
      have l2 := le_trans (mul_le_mul_of_nonneg_left l1 (by positivity : 0 ≤ (1 - ε) ^ (fs.length + rs.length + 1))) k6
      have l3 : (1 - ε) ^ (n + 1) ≤ (1 - ε) ^ (fs.length + rs.length + 1 + 1) :=
        pow_le_pow_of_le_one hy0.le y1 (by omega)
      have l5 := mul_le_mul_of_nonneg_right l3 hW0
      rw [pow_succ (1 - ε) (fs.length + rs.length + 1)] at l5
      linarith
    have l2 := mul_le_mul_of_nonneg_left l1 (by positivity : 0 ≤ (1 - ε) ^ (5 * n + 5))
    rw [← mul_assoc, ← pow_add] at l2
    have l3 := pow_ge (5 * n + 5 + (n + 1))
    push_cast at l3
    have l4 := mul_le_mul_of_nonneg_right l3 hW0
    have e : (1 - (6 * (n : ℝ) + 6) * ε) = 1 - (5 * (n : ℝ) + 5 + (n + 1)) * ε := by ring
    rw [e]
    linarith

/-- A 3 × 3 map with a blocked centre meets the hypotheses: the ends are free, and the search succeeds. -/
example : let m : GridMap := ⟨3, 3, fun c => decide (c = ⟨1, 1⟩)⟩
    Free m ⟨0, 0⟩ ∧ Free m ⟨2, 2⟩ ∧
    ∃ s, Bi.searchPath (N2.biProblem m N2.distanceF N2.distanceF (fun c => N2.distanceF c ⟨2, 2⟩)
      (fun c => N2.distanceF c ⟨0, 0⟩)) true (m.rows.toNat * m.columns.toNat + 1) ⟨0, 0⟩ ⟨2, 2⟩ = some (.success, s) := by
  intro m
  have hi : Free m ⟨0, 0⟩ := ⟨by unfold Inside; decide, by decide⟩
  have hg : Free m ⟨2, 2⟩ := ⟨by unfold Inside; decide, by decide⟩
  refine ⟨hi, hg, ?_⟩
  obtain ⟨⟨st, s⟩, h⟩ := Option.isSome_iff_exists.mp (C156_terminates m N2.distanceF N2.distanceF
    (fun c => N2.distanceF c ⟨2, 2⟩) (fun c => N2.distanceF c ⟨0, 0⟩) ⟨0, 0⟩ ⟨2, 2⟩ hi.1)
  cases st with
  | success => exact ⟨s, h⟩
  | failure =>
    refine absurd ⟨[⟨0, 0⟩, ⟨0, 1⟩, ⟨1, 2⟩, ⟨2, 2⟩], ?_⟩
      ((C156_fails_iff_no_walk m _ _ _ _ (fun a b => distanceF_symm a b) _ _ hi hg h).mp rfl)
    refine .move ⟨⟨?_, by decide⟩, by decide, by decide⟩ (.move ⟨⟨?_, by decide⟩, by decide, by decide⟩
      (.move ⟨⟨?_, by decide⟩, by decide, by decide⟩ (.stop _))) <;> unfold Inside <;> decide

end PathPlanning
