import Verif.Lemmas.Bidirectional
import Verif.Lemmas.Path
import Mathlib.Algebra.Order.Field.Basic
import Mathlib.Algebra.Order.Archimedean.Basic
import Mathlib.Tactic.Linarith
import Mathlib.Tactic.Ring
import Mathlib.Tactic.Abel
import Mathlib.Tactic.NormNum

/-!
# C13-C17: bidirectional A*
-/

namespace PathPlanning
open Spec AStar

/-- The reverse propagator is the exact reverse of the forward one, with the same costs. -/
def BiProblem.ExactReverse {S A C : Type} (B : BiProblem S A C) : Prop :=
  (∀ u a c v, B.fwd.tr u a c v → ∃ a', B.rev.tr v a' c u) ∧
  (∀ u a c v, B.rev.tr u a c v → ∃ a', B.fwd.tr v a' c u)

/-- The same for the transitions that matter: those from states that can be reached from the start, or in reverse from the
goal. -/
def BiProblem.ExactReverseFrom {S A C : Type} (B : BiProblem S A C) (init goal : S) : Prop :=
  (∀ u a c v, Reachable B.fwd.tr init u → B.fwd.tr u a c v → ∃ a', B.rev.tr v a' c u) ∧
  (∀ u a c v, Reachable B.rev.tr goal u → B.rev.tr u a c v → ∃ a', B.fwd.tr v a' c u)

theorem BiProblem.ExactReverse.from {S A C : Type} {B : BiProblem S A C} (h : B.ExactReverse) (init goal : S) :
    B.ExactReverseFrom init goal := ⟨fun u a c v _ => h.1 u a c v, fun u a c v _ => h.2 u a c v⟩

section
variable {S A C : Type} [LinearOrder C] [Add C] [Zero C] {B : BiProblem S A C}

private theorem solved (w : Bi.Wf B) {graph : Bool} {fuel : Nat} {init goal : S}
    {s : BiSearch S A C} (h : Bi.searchPath B graph fuel init goal = some (.success, s)) :
    ∃ x y, s.f.solution = some x ∧ s.r.solution = some y ∧ WF B.fwd init x ∧ WF B.rev goal y ∧
      B.fwd.eqS x.state y.state = true := by
  obtain ⟨inv, _, h | h⟩ := Bi.loop_spec w (fun _ => True) (by intros; trivial)
    (by intros; trivial) _ fuel _ _ _ (Bi.binv_init w graph init goal) trivial
    (by intro h; exact absurd rfl h) h
  · cases h.1
  · rcases inv.meet with ⟨h1, h2, _⟩ | ⟨x, y, h1, h2, h3, h4, h5, _⟩
    · have := h.2; simp [Bi.finished, h2] at this
    · exact ⟨x, y, h1, h2, h3, h4, h5⟩

/-- C15. On Success the reported cost is the sum of the forward costs along the forward half and of
the reverse costs along the reverse half of the reported path; the halves meet in equal states.
Graph or tree search, any propagators, any heuristics, any arithmetic. -/
theorem C15_bidirectional_cost_matches_path (w : Bi.Wf B) {graph : Bool} {fuel : Nat}
    {init goal : S} {s : BiSearch S A C}
    (h : Bi.searchPath B graph fuel init goal = some (.success, s)) :
    ∃ fsteps m rsteps m', Route B.fwd.tr init fsteps m ∧ Route B.rev.tr goal rsteps m' ∧
      B.fwd.eqS m m' = true ∧
      Bi.getPath s = some (routeStates init fsteps ++ (routeStates goal rsteps).reverse) ∧
      Bi.getOptimalCost s = some (routeCost fsteps + routeCost rsteps) := by
  obtain ⟨x, y, h1, h2, h3, h4, h5⟩ := solved w h
  obtain ⟨lx, hx1, hx2, hx3, _⟩ := h3.route
  obtain ⟨ly, hy1, hy2, hy3, _⟩ := h4.route
  refine ⟨lx, _, ly, _, hx1, hy1, h5, ?_, ?_⟩
  · have e1 : AStar.getPath s.f = some (routeStates init lx) := by
      simp only [AStar.getPath, h1]; rw [hx3]; simp
    have e2 : AStar.getPath s.r = some (routeStates goal ly) := by
      simp only [AStar.getPath, h2]; rw [hy3]; simp
    simp only [Bi.getPath, e1, e2]
  · simp only [Bi.getOptimalCost, AStar.getOptimalCost, h1, h2, Option.map_some, hx2, hy2]

/-- C14. Failure means that the goal cannot be reached. -/
theorem C14_bidirectional_failure_unreachable (w : Bi.Wf B) {init goal : S} (hx : B.ExactReverseFrom init goal)
    (hdf : B.fwd.Deterministic) (hdr : B.rev.Deterministic) (hrf : B.fwd.Respects)
    (hrr : B.rev.Respects) {graph : Bool} {fuel : Nat}
    {s : BiSearch S A C} (h : Bi.searchPath B graph fuel init goal = some (.failure, s)) :
    ¬ Reachable B.fwd.tr init goal := by
  rintro ⟨l, hl⟩
  obtain ⟨inv, _, h | h⟩ := Bi.loop_spec w (fun _ => True) (by intros; trivial)
    (by intros; trivial) _ fuel _ _ _ (Bi.binv_init w graph init goal) trivial
    (by intro h; exact absurd rfl h) h
  · obtain ⟨_, hb, hf | hr⟩ := h
    · exact inv.metF hb (expanded_of_reachable w.eqv hdf hrf inv.f hf hl)
    · obtain ⟨l', hl'⟩ := hl.turn hx.1
      exact inv.metR hb (expanded_of_reachable w.reqv hdr hrr inv.r hr hl')
  · cases h.1

/-- C14. On finite graphs graph search terminates. -/
theorem C14_bidirectional_terminates (w : Bi.Wf B) {init goal : S} {R : List S}
    (hR : B.fwd.Covers init R) :
    (Bi.searchPath B true (R.length + 1) init goal).isSome = true := by
  cases hs : Bi.searchPath B true (R.length + 1) init goal with
  | some r => rfl
  | none =>
    exfalso
    obtain ⟨s', inv, hl⟩ := Bi.loop_none w _ _ _ (Bi.binv_init w true init goal) hs
    have := length_le_of_covers w.eqv s'.f.calls R (inv.f.nodup rfl)
      (fun x hx => hR x (inv.f.reach x hx))
    have h0 : (Bi.initSearch B init goal).f.calls.length = 0 := rfl
    omega

end

section
variable {S A C : Type} [AddCommMonoid C] [LinearOrder C] [IsOrderedCancelAddMonoid C]
  {B : BiProblem S A C}

/-- C13, partial: when equal states are identical and the reverse propagator is exact, removing the
second copy of the meeting state `m` from the reported path gives the states of a forward route
from the initial state to the goal, whose cost is the reported one. Missing: the reported list
itself is not a route, because the meeting state is always listed twice
(`C13_meeting_state_listed_twice`). -/
theorem C13_bidirectional_path_real_partial (w : Bi.Wf B) {init goal : S} (hx : B.ExactReverseFrom init goal)
    (heq : ∀ a b, B.fwd.eqS a b = true → a = b) {graph : Bool} {fuel : Nat}
    {s : BiSearch S A C}
    (h : Bi.searchPath B graph fuel init goal = some (.success, s)) :
    ∃ steps pre m post, Route B.fwd.tr init steps goal ∧
      routeStates init steps = pre ++ m :: post ∧
      Bi.getPath s = some (pre ++ m :: m :: post) ∧
      Bi.getOptimalCost s = some (routeCost steps) := by
  obtain ⟨fs, m, rs, m', h1, h2, h3, h4, h5⟩ := C15_bidirectional_cost_matches_path w h
  obtain rfl := heq _ _ h3
  obtain ⟨rs', h6, h7, h8⟩ := h2.reverse hx.2
  obtain ⟨pre, hpre⟩ : ∃ pre, routeStates init fs = pre ++ [m] := h1.states_end
  refine ⟨fs ++ rs', pre, m, rs'.map (fun e => e.2.2), h1.append h6, ?_, ?_, ?_⟩
  · have : routeStates init (fs ++ rs') = routeStates init fs ++ rs'.map (fun e => e.2.2) := by
      simp [routeStates]
    rw [this, hpre]; simp
  · rw [h4, ← h7, hpre]; simp [routeStates]
  · rw [h5, routeCost_append, h8]

end

section
variable {S A C : Type} [AddCommMonoid C] [LinearOrder C] [IsOrderedCancelAddMonoid C]
  {B : BiProblem S A C}

/-- Forward optimality part of the invariant used for C16. -/
private def HalfOpt (P : Problem S A C) (init goal : S) (s : Search S A C) (best : Option C) : Prop :=
  Opt P init (Bi.core s) ∧
  (Expanded P s.calls goal → ∃ b, best = some b ∧
    ∀ l x, Route P.tr init l x → P.eqS goal x = true → b ≤ routeCost l)

private theorem best_mono (PB : Problem S A C) (n : ANode S A C) (a b : Search S A C)
    {best : Option C} {x : C} (h : best = some x) :
    ∃ y, (Bi.findIntersection PB n a b best).2.2 = some y ∧ y ≤ x := by
  subst h
  unfold Bi.findIntersection
  split
  · exact ⟨x, rfl, le_refl _⟩
  · dsimp only
    split
    · rename_i hi
      exact ⟨_, rfl, le_of_lt (by simpa [Bi.improves] using hi)⟩
    · exact ⟨x, rfl, le_refl _⟩

private theorem half_forward (w : Bi.Wf B) (hd : B.fwd.Deterministic) (hr : B.fwd.Respects)
    (hm : ∀ a b, B.fwd.mayReplace a b = true) (hcon : B.fwd.Consistent) {init goal : S}
    {s : BiSearch S A C} (inv : Bi.BInv B true init goal s)
    (opt : HalfOpt B.fwd init goal s.f s.best) {f' : Frontier (ANode S A C)}
    {n : ANode S A C} (hp : s.f.frontier.pop (eqNode B.fwd) = some (f', n)) :
    HalfOpt B.fwd init goal (Bi.forward B true s f' n).f (Bi.forward B true s f' n).best := by
  obtain ⟨hq1, _, _⟩ := Bi.findIntersection_core B.rev n
    (AStar.expand B.fwd true { s.f with frontier := f' } n) s.r s.best
  refine ⟨?_, ?_⟩
  · show Opt _ _ (Bi.core (Bi.findIntersection _ _ _ _ _).1)
    rw [hq1]
    exact opt_expand w.eqv hd hr hm hcon inv.f opt.1 hp (w.fsol _)
  · show Expanded _ (Bi.forward B true s f' n).f.calls _ → _
    rw [Bi.forward_f_calls]
    rintro ⟨u, hu, hug⟩
    rcases List.mem_cons.1 hu with rfl | hu
    · -- the goal itself is expanded now: the candidate through it is examined
      have hmin : ∀ l x, Route B.fwd.tr init l x → B.fwd.eqS goal x = true →
          n.pathCost ≤ routeCost l := by
        intro l x hx hgx
        have hnx := w.eqv.trans _ _ _ hug hgx
        obtain ⟨_, hn, _, _⟩ := inv.f.ok.pop cmpNode_swo (eqNode_equiv w.eqv) hp
        exact popped_optimal w.eqv hd hr hcon inv.f opt.1 hp hx
          (fun he => inv.f.disj rfl x he ⟨n, hn, hnx⟩) (hr.h _ _ (w.eqv.symm _ _ hnx))
      obtain ⟨m, hmf⟩ := Bi.exploredFind_isSome (P := B.rev) (x := n.state) inv.rootR.1
        (by rw [w.same]; exact w.eqv.symm _ _ hug)
      obtain ⟨hm1, hm2⟩ := Bi.exploredFind_some hmf
      have hmroot : m = rootNode goal := inv.rootR.2 m hm1 (by
        rw [w.same] at hm2 ⊢; exact w.eqv.trans _ _ _ hm2 hug)
      have hcost : n.pathCost + m.pathCost = n.pathCost := by
        rw [hmroot]; exact add_zero _
      show ∃ b, (Bi.findIntersection _ _ _ _ _).2.2 = some b ∧ _
      unfold Bi.findIntersection
      rw [hmf]
      dsimp only
      split
      · exact ⟨_, rfl, by rw [hcost]; exact hmin⟩
      · rename_i hi
        cases hb : s.best with
        | none => simp [Bi.improves, hb] at hi
        | some b =>
          rw [hb, hcost] at hi
          refine ⟨b, rfl, fun l x hx hgx => le_trans ?_ (hmin l x hx hgx)⟩
          simpa [Bi.improves] using hi
    · obtain ⟨b, hb, hbl⟩ := opt.2 ⟨u, hu, hug⟩
      obtain ⟨y, hy1, hy2⟩ := best_mono B.rev n
        (AStar.expand B.fwd true { s.f with frontier := f' } n) s.r hb
      exact ⟨y, hy1, fun l x hx hgx => le_trans hy2 (hbl l x hx hgx)⟩

/-- The half that is not expanded keeps its part. -/
private theorem half_other (w : Bi.Wf B) {init goal : S}
    {s : BiSearch S A C} (opt : HalfOpt B.rev goal init s.r s.best)
    {f' : Frontier (ANode S A C)} {n : ANode S A C} :
    HalfOpt B.rev goal init (Bi.forward B true s f' n).r (Bi.forward B true s f' n).best := by
  obtain ⟨_, hq2, _⟩ := Bi.findIntersection_core B.rev n
    (AStar.expand B.fwd true { s.f with frontier := f' } n) s.r s.best
  refine ⟨?_, ?_⟩
  · show Opt _ _ (Bi.core (Bi.findIntersection _ _ _ _ _).2.1)
    rw [hq2]; exact opt.1
  · show Expanded _ (Bi.findIntersection _ _ _ _ _).2.1.calls _ → _
    rw [(Bi.core_eq hq2).2.2]
    intro hexp
    obtain ⟨b, hb, hbl⟩ := opt.2 hexp
    obtain ⟨y, hy1, hy2⟩ := best_mono B.rev n
      (AStar.expand B.fwd true { s.f with frontier := f' } n) s.r hb
    exact ⟨y, hy1, fun l x hx hgx => le_trans hy2 (hbl l x hx hgx)⟩

/-- The total cost of a frontier top is at most that of any route to an unexpanded state. -/
private theorem top_le {P : Problem S A C} (he : KeyEquiv P.eqS) (hd : P.Deterministic)
    (hr : P.Respects) (hcon : P.Consistent) {init : S} {s : Search S A C}
    (inv : Inv P true init (Bi.core s)) (opt : Opt P init (Bi.core s)) {t : ANode S A C}
    (ht : s.frontier.top = some t) {l x} (hx : Route P.tr init l x)
    (hne : ¬ Expanded P s.calls x) : t.pathCost + P.h t.state ≤ routeCost l + P.h x := by
  cases hp : s.frontier.pop (eqNode P) with
  | none =>
    have := Frontier.pop_eq_none_iff.1 hp
    simp [Frontier.top, this] at ht
  | some q =>
    obtain ⟨f', n⟩ := q
    have hnt : n = t := by
      unfold Frontier.pop at hp
      unfold Frontier.top at ht
      rw [ht] at hp
      simp only [Option.some.injEq, Prod.mk.injEq] at hp
      exact hp.2.symm
    subst hnt
    obtain ⟨_, hn, hmin, _⟩ := inv.ok.pop cmpNode_swo (eqNode_equiv he) hp
    rcases frontier_bound he hd hr hcon opt hx with h | ⟨y, hy, hyl⟩
    · exact absurd h hne
    · refine le_trans ?_ hyl
      rcases opt.start with ⟨_, h⟩ | ⟨_, h⟩
      · rw [h] at hn hy
        simp only [List.mem_singleton] at hn hy
        rw [hn, hy]
      · rw [← h n hn, ← h y hy]
        have := hmin y hy
        simpa [cmpNode] using this

/-- C16, partial: with consistent heuristics that are at least `lf` and `lr`, graph search returns a cost `c` such that
`c + h_r(goal) + lf + lr` is at most twice the optimum plus `h_r(init)`. Missing: the optimum itself, which is not reached
in general (`C16_bidirectional_not_optimal`). -/
theorem C16_bidirectional_bound_partial (w : Bi.Wf B) {init goal : S} (hx : B.ExactReverseFrom init goal)
    (hdf : B.fwd.Deterministic) (hdr : B.rev.Deterministic) (hrf : B.fwd.Respects)
    (hrr : B.rev.Respects) (hmf : ∀ a b, B.fwd.mayReplace a b = true)
    (hmr : ∀ a b, B.rev.mayReplace a b = true)
    (hcf : B.fwd.Consistent) (hcr : B.rev.Consistent) (lf lr : C) (hl : lf + lr ≤ 0)
    (hlf : ∀ u, lf ≤ B.fwd.h u) (hlr : ∀ u, lr ≤ B.rev.h u) {fuel : Nat}
    {s : BiSearch S A C} (h : Bi.searchPath B true fuel init goal = some (.success, s)) :
    ∃ c, Bi.getOptimalCost s = some c ∧
      ∀ steps, Route B.fwd.tr init steps goal →
        c + B.rev.h goal + (lf + lr) ≤ routeCost steps + routeCost steps + B.rev.h init := by
  have hI0 : HalfOpt B.fwd init goal (Bi.initSearch B init goal).f none ∧
      HalfOpt B.rev goal init (Bi.initSearch B init goal).r none := by
    refine ⟨⟨opt_init init, ?_⟩, ⟨opt_init goal, ?_⟩⟩ <;>
      (rintro ⟨u, hu, _⟩; simp [Bi.initSearch, AStar.initSearch] at hu)
  obtain ⟨inv, ⟨hof, hor⟩, h | h⟩ := Bi.loop_spec w
    (fun s => HalfOpt B.fwd init goal s.f s.best ∧ HalfOpt B.rev goal init s.r s.best)
    (fun s f' n inv opt hp =>
      ⟨half_forward w hdf hrf hmf hcf inv opt.1 hp, half_other w opt.2⟩)
    (fun s r' n inv opt hp =>
      ⟨half_other (B := Bi.swapP B) w.swap (s := Bi.swapS s) opt.1,
       half_forward (B := Bi.swapP B) w.swap hdr hrr hmr hcr (inv.swap w) (s := Bi.swapS s)
        opt.2 hp⟩)
    _ fuel _ _ _ (Bi.binv_init w true init goal) hI0
    (by intro h; exact absurd rfl h) h
  · cases h.1
  · have hfin := h.2
    rcases inv.meet with ⟨h1, h2, _⟩ | ⟨x, y, h1, h2, _, _, _, h3⟩
    · simp [Bi.finished, h2] at hfin
    · have hbest : s.best = some (x.pathCost + y.pathCost) := by
        rcases h3 with h3 | h3
        · exact h3
        · rw [h3, add_comm]
      refine ⟨x.pathCost + y.pathCost, by
        simp [Bi.getOptimalCost, AStar.getOptimalCost, h1, h2], ?_⟩
      intro steps hst
      obtain ⟨rsteps, hr1, _, hr3⟩ := hst.reverse hx.1
      have hrg : B.rev.h goal ≤ routeCost steps + B.rev.h init := by
        have key : ∀ {l t}, Route B.rev.tr goal l t → B.rev.h goal ≤ routeCost l + B.rev.h t := by
          intro l t hl
          induction hl with
          | nil => exact (zero_add _).ge
          | @snoc l u a c v _ htr ih =>
            rw [routeCost_snoc, add_assoc]
            exact le_trans ih (add_le_add_right (hcr u a c v htr) _)
        rw [← hr3]
        exact key hr1
      have hle : ∀ b : C, b ≤ routeCost steps →
          b + B.rev.h goal + (lf + lr) ≤ routeCost steps + routeCost steps + B.rev.h init := by
        intro b hb
        calc b + B.rev.h goal + (lf + lr) ≤ b + B.rev.h goal + 0 := add_le_add_right hl _
          _ = b + B.rev.h goal := add_zero _
          _ ≤ routeCost steps + (routeCost steps + B.rev.h init) := add_le_add hb hrg
          _ = _ := (add_assoc _ _ _).symm
      by_cases hef : Expanded B.fwd s.f.calls goal
      · obtain ⟨b, hb, hbl⟩ := hof.2 hef
        rw [hbest] at hb
        cases hb
        exact hle _ (hbl steps goal hst (w.eqv.refl _))
      by_cases her : Expanded B.rev s.r.calls init
      · obtain ⟨b, hb, hbl⟩ := hor.2 her
        rw [hbest] at hb
        cases hb
        exact hle _ (hr3 ▸ hbl rsteps init hr1 (w.reqv.refl _))
      -- neither root of the other side has been expanded: both frontiers are non-empty
      cases hft : s.f.frontier.top with
      | none =>
        exfalso
        have : s.f.frontier.vec = [] := by simpa [Frontier.top] using hft
        exact hef (expanded_of_reachable w.eqv hdf hrf inv.f this hst)
      | some ft =>
        cases hrt : s.r.frontier.top with
        | none =>
          exfalso
          have : s.r.frontier.vec = [] := by simpa [Frontier.top] using hrt
          exact her (expanded_of_reachable w.reqv hdr hrr inv.r this hr1)
        | some rt =>
          simp only [Bi.finished, h1, h2, hbest, hft, hrt, decide_eq_true_eq, Bi.costOffset,
            ge_iff_le] at hfin
          have k1 := top_le w.eqv hdf hrf hcf inv.f hof.1 hft hst hef
          have k2 := top_le w.reqv hdr hrr hcr inv.r hor.1 hrt hr1 her
          rw [hr3] at k2
          refine le_of_add_le_add_right (a := B.fwd.h goal) ?_
          calc x.pathCost + y.pathCost + B.rev.h goal + (lf + lr) + B.fwd.h goal
              = x.pathCost + y.pathCost + (B.fwd.h goal + B.rev.h goal) + (lf + lr) := by abel
            _ ≤ ft.pathCost + rt.pathCost + (B.fwd.h ft.state + B.rev.h rt.state) :=
                add_le_add hfin (add_le_add (hlf _) (hlr _))
            _ = (ft.pathCost + B.fwd.h ft.state) + (rt.pathCost + B.rev.h rt.state) := by abel
            _ ≤ _ := add_le_add k1 k2
            _ = _ := by abel

/-- C16, partial: with zero heuristics and non-negative costs, graph search returns a cost at most
twice the optimum. Missing: the optimum itself, which is not reached in general
(`C16_bidirectional_not_optimal`). -/
theorem C16_bidirectional_within_factor_two_partial (w : Bi.Wf B) (hx : B.ExactReverse)
    (hdf : B.fwd.Deterministic) (hdr : B.rev.Deterministic) (hrf : B.fwd.Respects)
    (hrr : B.rev.Respects) (hmf : ∀ a b, B.fwd.mayReplace a b = true)
    (hmr : ∀ a b, B.rev.mayReplace a b = true)
    (h0f : ∀ u, B.fwd.h u = 0) (h0r : ∀ u, B.rev.h u = 0)
    (hpos : ∀ u a c v, B.fwd.tr u a c v → 0 ≤ c) {fuel : Nat} {init goal : S}
    {s : BiSearch S A C} (h : Bi.searchPath B true fuel init goal = some (.success, s)) :
    ∃ c, Bi.getOptimalCost s = some c ∧
      ∀ steps, Route B.fwd.tr init steps goal → c ≤ routeCost steps + routeCost steps := by
  have hcf : B.fwd.Consistent := by
    intro u a c v htr; rw [h0f, h0f, add_zero]; exact hpos u a c v htr
  have hcr : B.rev.Consistent := by
    intro u a c v htr
    obtain ⟨a', ha'⟩ := hx.2 u a c v htr
    rw [h0r, h0r, add_zero]; exact hpos v a' c u ha'
  obtain ⟨c, h1, h2⟩ := C16_bidirectional_bound_partial w (hx.from _ _) hdf hdr hrf hrr hmf hmr hcf hcr 0 0
    (by rw [add_zero]) (fun u => (h0f u).ge) (fun u => (h0r u).ge) h
  refine ⟨c, h1, fun steps hst => ?_⟩
  have := h2 steps hst
  simpa only [h0r, add_zero] using this

end

/-! ### C17: the average heuristic pair -/

section
variable {S A K : Type} [Field K] [LinearOrder K] [IsStrictOrderedRing K]

/-- C17, partial: after the preparation done by `SearchPath`, the two averaged heuristics add up to the same value at every
state, the mean of the estimates between the start and the goal; each is consistent in its direction when both parts are,
and 0 where the part that leads there is 0. Missing: the parts are evaluated for their own stored goals, not for the start
and goal of the current search (`C17_parts_keep_stale_goals`). -/
theorem C17_average_pair_consistent_partial (hf hr : HPart S K) (s₀ : S) (c₀ : K) (init goal : S)
    (tr : S → A → K → S → Prop)
    (hcf : ∀ u a c v, tr u a c v → hf.value u ≤ c + hf.value v)
    (hcr : ∀ u a c v, tr u a c v → hr.value v ≤ c + hr.value u) :
    let p := AvgHeur.prepare (AvgHeur.pair hf hr s₀ c₀) init goal
    (∀ x, p.1.value x + p.2.value x = (hf.value init + hr.value goal) / 2) ∧
    (∀ u a c v, tr u a c v → p.1.value u ≤ c + p.1.value v) ∧
    (∀ u a c v, tr u a c v → p.2.value v ≤ c + p.2.value u) ∧
    (hf.value goal = 0 → p.1.value goal = 0) ∧ (hr.value init = 0 → p.2.value init = 0) := by
  refine ⟨?_, ?_, ?_, ?_, ?_⟩
  · intro x
    simp only [AvgHeur.prepare, AvgHeur.pair, AvgHeur.update, AvgHeur.setGoal, AvgHeur.value]
    ring
  · intro u a c v h
    have h1 := hcf u a c v h
    have h2 := hcr u a c v h
    simp only [AvgHeur.prepare, AvgHeur.pair, AvgHeur.update, AvgHeur.setGoal, AvgHeur.value]
    linarith
  · intro u a c v h
    have h1 := hcf u a c v h
    have h2 := hcr u a c v h
    simp only [AvgHeur.prepare, AvgHeur.pair, AvgHeur.update, AvgHeur.setGoal, AvgHeur.value]
    linarith
  · intro h
    simp only [AvgHeur.prepare, AvgHeur.pair, AvgHeur.update, AvgHeur.setGoal, AvgHeur.value, h]
    ring
  · intro h
    simp only [AvgHeur.prepare, AvgHeur.pair, AvgHeur.update, AvgHeur.setGoal, AvgHeur.value, h]
    ring

/-- C16 for an averaged pair, partial: if the parts are a metric `D` that no transition undercuts (for example the straight
line distance), with the goals of the current search, then the cost is at most twice the optimum less the distance of start
and goal. -/
theorem C16_average_metric_partial {B : BiProblem S A K} (w : Bi.Wf B) (hx : B.ExactReverse)
    (hdf : B.fwd.Deterministic) (hdr : B.rev.Deterministic) (hrf : B.fwd.Respects)
    (hrr : B.rev.Respects) (hmf : ∀ a b, B.fwd.mayReplace a b = true)
    (hmr : ∀ a b, B.rev.mayReplace a b = true)
    (D : S → S → K) (hD0 : ∀ x, D x x = 0) (hsymm : ∀ x y, D x y = D y x) (htri : ∀ x y z, D x z ≤ D x y + D y z)
    (hlow : ∀ u a c v, B.fwd.tr u a c v → D u v ≤ c) (s₀ : S) (c₀ : K) {init goal : S}
    (hpf : B.fwd.h = (AvgHeur.prepare (AvgHeur.pair ⟨D, goal⟩ ⟨D, init⟩ s₀ c₀) init goal).1.value)
    (hpr : B.rev.h = (AvgHeur.prepare (AvgHeur.pair ⟨D, goal⟩ ⟨D, init⟩ s₀ c₀) init goal).2.value) {fuel : Nat}
    {s : BiSearch S A K} (h : Bi.searchPath B true fuel init goal = some (.success, s)) :
    ∃ c, Bi.getOptimalCost s = some c ∧
      ∀ steps, Route B.fwd.tr init steps goal → c ≤ 2 * routeCost steps - D init goal := by
  have k := C17_average_pair_consistent_partial (A := A) ⟨D, goal⟩ ⟨D, init⟩ s₀ c₀ init goal B.fwd.tr (by
      intro u a c v htr
      show D u goal ≤ c + D v goal
      linarith [htri u v goal, hlow u a c v htr]) (by
      intro u a c v htr
      show D v init ≤ c + D u init
      linarith [htri v u init, hlow u a c v htr, hsymm u v])
  dsimp only at k
  rw [← hpf, ← hpr] at k
  obtain ⟨ksum, kf, kr, kg, ki⟩ := k
  have hcr : B.rev.Consistent := by
    intro u a c v htr
    obtain ⟨a', ha'⟩ := hx.2 u a c v htr
    exact kr v a' c u ha'
  have hlf : ∀ u, 0 ≤ B.fwd.h u := by
    intro u
    rw [hpf]
    show 0 ≤ D goal init / 2 + (D u goal - D u init) / 2
    linarith [htri u goal init]
  have hlr : ∀ u, 0 ≤ B.rev.h u := by
    intro u
    rw [hpr]
    show 0 ≤ D init goal / 2 + (D u init - D u goal) / 2
    linarith [htri u init goal]
  obtain ⟨c, h1, h2⟩ := C16_bidirectional_bound_partial w (hx.from _ _) hdf hdr hrf hrr hmf hmr kf hcr 0 0
    (by rw [add_zero]) hlf hlr h
  refine ⟨c, h1, fun steps hst => ?_⟩
  have h3 := h2 steps hst
  have h4 : B.rev.h goal = D init goal := by
    have h5 := ksum goal
    rw [kg (hD0 goal)] at h5
    have h6 : ((⟨D, goal⟩ : HPart S K).value init + (⟨D, init⟩ : HPart S K).value goal) = D init goal + D goal init := rfl
    rw [h6, ← hsymm init goal] at h5
    linarith
  rw [ki (hD0 init), h4] at h3
  linarith

end

/-! ### Counterexamples and non-vacuity -/

section Example

/-- Undirected graph 0-1 (10), 1-2 (100), 2-3 (10), 0-4 (64), 4-3 (64). -/
private def g : Nat → List (Nat × Nat × Nat)
  | 0 => [(1, 0, 10), (4, 0, 64)]
  | 1 => [(0, 0, 10), (2, 0, 100)]
  | 2 => [(1, 0, 100), (3, 0, 10)]
  | 3 => [(2, 0, 10), (4, 0, 64)]
  | 4 => [(0, 0, 64), (3, 0, 64)]
  | _ => []

private def gP : Problem Nat Nat Nat :=
  { eqS := fun a b => decide (a = b), nbrs := fun _ => g, h := fun _ => 0, isSol := fun _ => false }

private def gB : BiProblem Nat Nat Nat := ⟨gP, gP⟩

private theorem gB_wf : Bi.Wf gB := by
  refine ⟨⟨?_, ?_, ?_⟩, rfl, fun _ => rfl, fun _ => rfl⟩
  · intro a; simp [gB, gP]
  · intro a b; simp [gB, gP]; omega
  · intro a b c; simp [gB, gP]; omega

private theorem g_symm : ∀ u a c v, gP.tr u a c v → ∃ a', gP.tr v a' c u := by
  rintro u a c v ⟨k, hk⟩
  simp only [gP] at hk
  refine ⟨0, 0, ?_⟩
  match u, hk with
  | 0, hk => simp [g] at hk; rcases hk with ⟨rfl, rfl, rfl⟩ | ⟨rfl, rfl, rfl⟩ <;> simp [gP, g]
  | 1, hk => simp [g] at hk; rcases hk with ⟨rfl, rfl, rfl⟩ | ⟨rfl, rfl, rfl⟩ <;> simp [gP, g]
  | 2, hk => simp [g] at hk; rcases hk with ⟨rfl, rfl, rfl⟩ | ⟨rfl, rfl, rfl⟩ <;> simp [gP, g]
  | 3, hk => simp [g] at hk; rcases hk with ⟨rfl, rfl, rfl⟩ | ⟨rfl, rfl, rfl⟩ <;> simp [gP, g]
  | 4, hk => simp [g] at hk; rcases hk with ⟨rfl, rfl, rfl⟩ | ⟨rfl, rfl, rfl⟩ <;> simp [gP, g]
  | n + 5, hk => simp [g] at hk

private theorem gB_exact : gB.ExactReverse := ⟨g_symm, g_symm⟩

private theorem gP_respects : gP.Respects := by
  refine ⟨fun _ _ _ => rfl, fun _ _ _ => rfl, ?_⟩
  intro u u' h v a c hv
  have : u = u' := by simpa [gP] using h
  subst this
  exact ⟨v, a, hv, by simp [gP]⟩

private structure BView where
  status : Status
  path : Option (List Nat)
  cost : Option Nat
  deriving DecidableEq

private def bview (r : Option (Status × BiSearch Nat Nat Nat)) : Option BView :=
  r.map (fun r => ⟨r.1, Bi.getPath r.2, Bi.getOptimalCost r.2⟩)

private theorem g_run : bview (Bi.searchPath gB true 10 0 3) =
    some ⟨.success, some [0, 4, 4, 3], some 128⟩ := by decide +kernel

private theorem g_result : ∃ s, Bi.searchPath gB true 10 0 3 = some (.success, s) ∧
    Bi.getPath s = some [0, 4, 4, 3] ∧ Bi.getOptimalCost s = some 128 := by
  have hrun := g_run
  cases hs : Bi.searchPath gB true 10 0 3 with
  | none => rw [hs] at hrun; cases hrun
  | some r =>
    obtain ⟨st, s⟩ := r
    rw [hs] at hrun
    simp only [bview, Option.map_some, Option.some.injEq, BView.mk.injEq] at hrun
    obtain ⟨rfl, h1, h2⟩ := hrun
    exact ⟨s, rfl, h1, h2⟩

/-- C13 fails: on a five-state undirected graph the reported path lists the meeting state twice in a
row, and there is no transition from that state to itself. -/
theorem C13_meeting_state_listed_twice :
    ∃ (B : BiProblem Nat Nat Nat) (s : BiSearch Nat Nat Nat) (m : Nat) (pre post : List Nat),
      Bi.Wf B ∧ B.ExactReverse ∧ Bi.searchPath B true 10 0 3 = some (.success, s) ∧
      Bi.getPath s = some (pre ++ m :: m :: post) ∧ ¬ ∃ a c, B.fwd.tr m a c m := by
  obtain ⟨s, h1, h2, _⟩ := g_result
  refine ⟨gB, s, 4, [0], [3], gB_wf, gB_exact, h1, h2, ?_⟩
  rintro ⟨a, c, k, hk⟩
  simp [gB, gP, g] at hk

/-- C16 fails: zero heuristics (a consistent pair), non-negative costs, exact reverse; a path of cost
120 exists but the search reports 128. -/
theorem C16_bidirectional_not_optimal :
    ∃ (B : BiProblem Nat Nat Nat) (s : BiSearch Nat Nat Nat) (steps : List (Nat × Nat × Nat)),
      Bi.Wf B ∧ B.ExactReverse ∧ B.fwd.Consistent ∧ B.rev.Consistent ∧
      (∀ x y, B.fwd.h x + B.rev.h x = B.fwd.h y + B.rev.h y) ∧
      Bi.searchPath B true 10 0 3 = some (.success, s) ∧
      Route B.fwd.tr 0 steps 3 ∧ ∃ c, Bi.getOptimalCost s = some c ∧ routeCost steps < c := by
  obtain ⟨s, h1, _, h3⟩ := g_result
  refine ⟨gB, s, [(0, 10, 1), (0, 100, 2), (0, 10, 3)], gB_wf, gB_exact, ?_, ?_, fun _ _ => rfl, h1,
    ?_, 128, h3, by decide⟩
  · intro u a c v _; simp [gB, gP]
  · intro u a c v _; simp [gB, gP]
  · have e1 : Route gB.fwd.tr 0 ([] ++ [(0, 10, 1)]) 1 := .snoc .nil ⟨0, by simp [gB, gP, g]⟩
    have e2 : Route gB.fwd.tr 0 ([] ++ [(0, 10, 1)] ++ [(0, 100, 2)]) 2 :=
      .snoc e1 ⟨0, by simp [gB, gP, g]⟩
    exact .snoc e2 ⟨0, by simp [gB, gP, g]⟩

/-- The same graph meets all hypotheses of C14, C15 and of the partial theorems. -/
example : gB.fwd.Deterministic ∧ gB.fwd.Respects ∧ (∀ a b, gB.fwd.mayReplace a b = true) ∧
    (∀ a b, gB.fwd.eqS a b = true → a = b) :=
  ⟨fun _ _ => rfl, gP_respects, fun _ _ => rfl, fun a b h => by simpa [gB, gP] using h⟩

/-- An unreachable goal: both frontiers run and the search fails. -/
example : bview (Bi.searchPath gB true 10 0 7) = some ⟨.failure, some [], none⟩ := by
  decide +kernel

/-- A triangle whose direct edge `0`-`2` is hardly longer than each of the two other edges. -/
private def tri (n : Nat) : Nat → List (Nat × Nat × Nat)
  | 0 => [(1, 0, n + 1), (2, 0, n + 2)]
  | 1 => [(0, 0, n + 1), (2, 0, n + 1)]
  | 2 => [(1, 0, n + 1), (0, 0, n + 2)]
  | _ => []

private def triP (n : Nat) : Problem Nat Nat Nat :=
  { eqS := fun a b => a == b, nbrs := fun _ s => tri n s, h := fun _ => 0, isSol := fun _ => false }

private def triB (n : Nat) : BiProblem Nat Nat Nat := ⟨triP n, triP n⟩

private theorem tri_symm (n : Nat) : ∀ u a c v, (triP n).tr u a c v → ∃ a', (triP n).tr v a' c u := by
  rintro u a c v ⟨k, hk⟩
  simp only [triP] at hk
  refine ⟨0, 0, ?_⟩
  match u, hk with
  | 0, hk => simp [tri] at hk; rcases hk with ⟨rfl, rfl, rfl⟩ | ⟨rfl, rfl, rfl⟩ <;> simp [triP, tri]
  | 1, hk => simp [tri] at hk; rcases hk with ⟨rfl, rfl, rfl⟩ | ⟨rfl, rfl, rfl⟩ <;> simp [triP, tri]
  | 2, hk => simp [tri] at hk; rcases hk with ⟨rfl, rfl, rfl⟩ | ⟨rfl, rfl, rfl⟩ <;> simp [triP, tri]
  | n + 3, hk => simp [tri] at hk

private theorem triB_wf (n : Nat) : Bi.Wf (triB n) := by
  refine ⟨⟨?_, ?_, ?_⟩, rfl, fun _ => rfl, fun _ => rfl⟩
  · intro a; simp [triB, triP]
  · intro a b; simp [triB, triP]; omega
  · intro a b c; simp [triB, triP]; omega

private theorem ff_nil {T : Type} (cmp : T → T → Bool) (x : T) :
    Frontier.findFirstCompareIsFalse cmp [] x = 0 := by
  simp [Frontier.findFirstCompareIsFalse, Frontier.ffLoop]

private theorem ff_one {T : Type} (cmp : T → T → Bool) (x y : T) :
    Frontier.findFirstCompareIsFalse cmp [y] x = if cmp x y then 0 else 1 := by
  rw [Frontier.findFirstCompareIsFalse, Frontier.ffLoop]
  by_cases h : cmp x y
  · simp [h]
    rw [Frontier.ffLoop]; simp
  · simp [h]

private theorem tri_run (n : Nat) : ∃ s, Bi.searchPath (triB n) true 2 0 2 = some (.success, s) ∧
    Bi.getOptimalCost s = some (n + 1 + (n + 1)) := by
  have hlt : ¬ n + 1 + (n + 1) < n + 2 := by omega
  simp [hlt, Bi.searchPath, Bi.loop, Bi.initSearch, AStar.initSearch, Frontier.push, Frontier.empty, ff_nil, ff_one,
    rootNode, Frontier.pop, Bi.forward, Bi.reverse, AStar.expand, triB, triP, tri, exploredInsert, exploredContains,
    eqNode, ANode.state, expandOne, Frontier.find, childNode, Bi.findIntersection, Bi.exploredFind, cmpNode,
    ANode.totalCost, ANode.pathCost, processShortcut, Bi.improves, Bi.finished, Frontier.top, Bi.costOffset,
    Bi.getOptimalCost, AStar.getOptimalCost]
  omega

/-- C16 fails as badly as `C16_bidirectional_within_factor_two_partial` allows: for every factor below 2 there are a graph,
with zero heuristics, positive costs and exact reverse, and a path such that the search reports more than that factor times
the cost of the path. -/
theorem C16_factor_two_is_tight (q : ℚ) (hq : q < 2) :
    ∃ (B : BiProblem Nat Nat Nat) (s : BiSearch Nat Nat Nat) (steps : List (Nat × Nat × Nat)) (c : Nat),
      Bi.Wf B ∧ B.ExactReverse ∧ (∀ u, B.fwd.h u = 0) ∧ (∀ u, B.rev.h u = 0) ∧
      (∀ u a c v, B.fwd.tr u a c v → 0 < c) ∧
      Bi.searchPath B true 2 0 2 = some (.success, s) ∧ Bi.getOptimalCost s = some c ∧
      Route B.fwd.tr 0 steps 2 ∧ q * (routeCost steps : Nat) < c := by
  obtain ⟨n, hn⟩ := exists_nat_gt ((2 * q - 2) / (2 - q))
  obtain ⟨s, h1, h2⟩ := tri_run n
  refine ⟨triB n, s, [] ++ [(0, n + 2, 2)], _, triB_wf n, ⟨tri_symm n, tri_symm n⟩, fun _ => rfl, fun _ => rfl, ?_, h1, h2,
    .snoc .nil ⟨0, by simp [triB, triP, tri]⟩, ?_⟩
  · rintro u a c v ⟨k, hk⟩
    simp only [triB, triP] at hk
    match u, hk with
    | 0, hk => simp [tri] at hk; omega
    | 1, hk => simp [tri] at hk; omega
    | 2, hk => simp [tri] at hk; omega
    | n + 3, hk => simp [tri] at hk
  · rw [div_lt_iff₀ (by linarith)] at hn
    simp [routeCost]
    linarith

/-- C17 fails: distance heuristics on the integers whose stored goals are 0. For a search from 0 to
10 the parts still measure distances to 0, and the averaged forward heuristic at the start differs
from the one whose parts know the start and goal of the search. -/
theorem C17_parts_keep_stale_goals :
    ∃ (hf hr : HPart Int Rat) (init goal : Int),
      let p := AvgHeur.prepare (AvgHeur.pair hf hr 0 0) init goal
      p.1.mGoal = goal ∧ p.1.toGoal.goal ≠ goal ∧ p.2.toInit.goal ≠ goal ∧
      p.1.toGoal.value goal ≠ (hf.setGoal goal).value goal ∧
      p.1.value init ≠
        (AvgHeur.prepare (AvgHeur.pair (hf.setGoal goal) (hr.setGoal init) 0 0) init goal).1.value
          init := by
  refine ⟨⟨fun s g => |((s - g : Int) : Rat)|, 0⟩, ⟨fun s g => |((s - g : Int) : Rat)|, 0⟩, 0, 10,
    rfl, ?_, ?_, ?_, ?_⟩
  · simp [AvgHeur.prepare, AvgHeur.pair, AvgHeur.update, AvgHeur.setGoal]
  · simp [AvgHeur.prepare, AvgHeur.pair, AvgHeur.update, AvgHeur.setGoal]
  · simp [AvgHeur.prepare, AvgHeur.pair, AvgHeur.update, AvgHeur.setGoal, HPart.value,
      HPart.setGoal]
  · simp [AvgHeur.prepare, AvgHeur.pair, AvgHeur.update, AvgHeur.setGoal, HPart.value,
      HPart.setGoal, AvgHeur.value]
    norm_num

/-- Unit steps on the integers meet the hypotheses of the partial C17 (distance heuristics). -/
example : ∀ u (_ : Unit) (c : Rat) v, (c = 1 ∧ (v = u + 1 ∨ v = u - 1)) →
    (HPart.value ⟨fun s g => |((s - g : Int) : Rat)|, 7⟩ u : Rat) ≤
      c + HPart.value ⟨fun s g => |((s - g : Int) : Rat)|, 7⟩ v := by
  rintro u _ c v ⟨rfl, rfl | rfl⟩
  · simp only [HPart.value]
    have := abs_sub_abs_le_abs_sub ((u - 7 : Int) : Rat) ((u + 1 - 7 : Int) : Rat)
    have e : ((u - 7 : Int) : Rat) - ((u + 1 - 7 : Int) : Rat) = -1 := by push_cast; ring
    rw [e] at this
    simp only [abs_neg, abs_one] at this
    linarith
  · simp only [HPart.value]
    have := abs_sub_abs_le_abs_sub ((u - 7 : Int) : Rat) ((u - 1 - 7 : Int) : Rat)
    have e : ((u - 7 : Int) : Rat) - ((u - 1 - 7 : Int) : Rat) = 1 := by push_cast; ring
    rw [e] at this
    simp only [abs_one] at this
    linarith

private def lineB : BiProblem Int Unit Rat :=
  let D : Int → Int → Rat := fun a b => |((a - b : Int) : Rat)|
  let p := AvgHeur.prepare (AvgHeur.pair ⟨D, 3⟩ ⟨D, 0⟩ 0 0) 0 3
  let N : Nat → Int → List (Int × Unit × Rat) := fun _ u => [(u + 1, (), 1), (u - 1, (), 1)]
  { fwd := { eqS := fun a b => decide (a = b), nbrs := N, h := p.1.value, isSol := fun _ => false }
    rev := { eqS := fun a b => decide (a = b), nbrs := N, h := p.2.value, isSol := fun _ => false } }

/-- Unit steps on the integers meet the hypotheses of `C16_average_metric_partial`; the search succeeds. -/
example : ∃ s, Bi.searchPath lineB true 10 0 3 = some (.success, s) ∧ Bi.getOptimalCost s = some 3 ∧ Bi.Wf lineB ∧
    lineB.ExactReverse ∧ lineB.fwd.Respects ∧ lineB.rev.Respects ∧
    ∀ u a c v, lineB.fwd.tr u a c v → |((u - v : Int) : Rat)| ≤ c := by
  have hrun : (Bi.searchPath lineB true 10 0 3).map (fun r => (r.1, Bi.getOptimalCost r.2)) =
      some (.success, some 3) := by decide +kernel
  have htr : ∀ u (a : Unit) (c : Rat) v, (∃ k : Nat, (v, a, c) ∈ lineB.fwd.nbrs k u) ↔ c = 1 ∧ (v = u + 1 ∨ v = u - 1) := by
    intro u a c v
    simp only [lineB, List.mem_cons, Prod.mk.injEq, List.not_mem_nil, or_false]
    constructor
    · rintro ⟨_, ⟨h1, -, h2⟩ | ⟨h1, -, h2⟩⟩
      · exact ⟨h2, .inl h1⟩
      · exact ⟨h2, .inr h1⟩
    · rintro ⟨h2, h1 | h1⟩
      · exact ⟨0, .inl ⟨h1, trivial, h2⟩⟩
      · exact ⟨0, .inr ⟨h1, trivial, h2⟩⟩
  have hresp : ∀ P : Problem Int Unit Rat, (∀ a b, P.eqS a b = true → a = b) → (∀ a, P.eqS a a = true) → P.Respects := by
    intro P h1 h2
    refine ⟨fun u u' h => by rw [h1 _ _ h], fun u u' h => by rw [h1 _ _ h], fun u u' h v a c hv => ?_⟩
    rw [← h1 _ _ h]
    exact ⟨v, a, hv, h2 v⟩
  cases hs : Bi.searchPath lineB true 10 0 3 with
  | none => rw [hs] at hrun; cases hrun
  | some r =>
    obtain ⟨st, s⟩ := r
    rw [hs] at hrun
    simp only [Option.map_some, Option.some.injEq, Prod.mk.injEq] at hrun
    obtain ⟨rfl, hc⟩ := hrun
    refine ⟨s, rfl, hc, ⟨⟨?_, ?_, ?_⟩, rfl, fun _ => rfl, fun _ => rfl⟩, ⟨?_, ?_⟩, hresp _ ?_ ?_, hresp _ ?_ ?_, ?_⟩
    · intro a; simp [lineB]
    · intro a b; simp [lineB]; omega
    · intro a b c; simp [lineB]; omega
    · intro u a c v h
      obtain ⟨h1, h2⟩ := (htr u a c v).mp h
      exact ⟨(), (htr v () c u).mpr ⟨h1, by omega⟩⟩
    · intro u a c v h
      obtain ⟨h1, h2⟩ := (htr u a c v).mp h
      exact ⟨(), (htr v () c u).mpr ⟨h1, by omega⟩⟩
    · intro a b; simp [lineB]
    · intro a; simp [lineB]
    · intro a b; simp [lineB]
    · intro a; simp [lineB]
    · intro u a c v h
      obtain ⟨rfl, rfl | rfl⟩ := (htr u a c v).mp h <;> norm_num

end Example

end PathPlanning
