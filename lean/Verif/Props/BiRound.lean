import Verif.Props.AStarRound
import Verif.Props.AStarDouble
import Verif.Props.Bidirectional

/-!
# C141: bidirectional A* with rounded arithmetic
-/

namespace PathPlanning
open Spec AStar

section
variable {S A C : Type} [LinearOrder C] [Add C] [Zero C] {B : BiProblem S A C} {val : C → ℝ} {ε η : ℝ}

omit [LinearOrder C] [Add C] [Zero C] in
/-- A route turned round has as many transitions and the same exact cost. -/
private theorem turn_exact {tr tr' : S → A → C → S → Prop}
    {s : S} (h : ∀ u a c v, Reachable tr s u → tr u a c v → ∃ a', tr' v a' c u) {l t} (hr : Route tr s l t) :
    ∃ l', Route tr' t l' s ∧ l'.length = l.length ∧ exactCost val l' = exactCost val l := by
  induction hr with
  | nil => exact ⟨[], .nil, rfl, rfl⟩
  | @snoc l u a c v h1 h2 ih =>
    obtain ⟨l', h3, h4, h5⟩ := ih
    obtain ⟨a', h6⟩ := h u a c v ⟨l, h1⟩ h2
    refine ⟨(a', c, u) :: l', h3.cons h6, by simp [h4], ?_⟩
    simp only [exactCost, List.map_cons, List.sum_cons, List.map_append, List.sum_append, List.map_nil,
      List.sum_nil] at h5 ⊢
    rw [h5]; ring

private theorem best_down (PB : Problem S A C) (n : ANode S A C) (a b : Search S A C)
    {best : Option C} {x : C} (h : best = some x) :
    ∃ y, (Bi.findIntersection PB n a b best).2.2 = some y ∧ y ≤ x := by
  subst h
  unfold Bi.findIntersection
  split
  · exact ⟨x, rfl, le_refl _⟩
  · dsimp only
    split
    · rename_i hi
      exact ⟨_, rfl, le_of_lt (by simpa [Bi.improves] using hi)⟩
    · exact ⟨x, rfl, le_refl _⟩

/-- What is known of one direction: expanded states were expanded at nearly the least cost, and so was the other root, if it
was expanded. -/
private def HalfNear (P : Problem S A C) (val : C → ℝ) (ε η : ℝ) (init goal : S) (s : Search S A C)
    (best : Option C) : Prop :=
  OptQ P (NearOpt P val ε η init s.calls.length) init (Bi.core s) ∧
  (Expanded P s.calls goal → ∃ b, best = some b ∧ ∀ l x, Route P.tr init l x → P.eqS goal x = true →
    val b ≤ (1 + ε) * (((1 + ε) ^ 2 / (1 - ε)) ^ s.calls.length * (1 + η) ^ l.length * (exactCost val l + val (P.h goal))))

private theorem near_forward (w : Bi.Wf B) (hd : B.fwd.Deterministic) (hr : B.fwd.Respects)
    (hm : ∀ a b, B.fwd.mayReplace a b = true) (hv : Rounded val ε)
    (h0 : 0 ≤ ε) (h1 : ε < 1) (hη : 0 ≤ η) (hc : ∀ u a c v, B.fwd.tr u a c v → 0 ≤ c) (hh : ∀ u, 0 ≤ B.fwd.h u)
    (hcon : ∀ u a c v, B.fwd.tr u a c v → val (B.fwd.h u) ≤ (1 + η) * (val c + val (B.fwd.h v))) {init goal : S}
    {s : BiSearch S A C} (inv : Bi.BInv B true init goal s)
    (opt : HalfNear B.fwd val ε η init goal s.f s.best) {f' : Frontier (ANode S A C)}
    {n : ANode S A C} (hp : s.f.frontier.pop (eqNode B.fwd) = some (f', n)) :
    HalfNear B.fwd val ε η init goal (Bi.forward B true s f' n).f (Bi.forward B true s f' n).best := by
  obtain ⟨hq1, _, _⟩ := Bi.findIntersection_core B.rev n
    (AStar.expand B.fwd true { s.f with frontier := f' } n) s.r s.best
  obtain ⟨hQ, hO⟩ := rounded_near_expand (s := Bi.core s.f) w.eqv hd hr hm hv h0 h1 hη hc hh hcon inv.f opt.1 hp (w.fsol _)
  have hl : (Bi.forward B true s f' n).f.calls.length = s.f.calls.length + 1 := by
    rw [Bi.forward_f_calls]; rfl
  refine ⟨?_, ?_⟩
  · rw [hl]
    show OptQ _ _ _ (Bi.core (Bi.findIntersection _ _ _ _ _).1)
    rw [hq1]
    exact hO
  · rw [hl]
    show Expanded _ (Bi.forward B true s f' n).f.calls _ → _
    rw [Bi.forward_f_calls]
    rintro ⟨u, hu, hug⟩
    rcases List.mem_cons.1 hu with rfl | hu
    · have hmin : ∀ l x, Route B.fwd.tr init l x → B.fwd.eqS goal x = true →
          val n.pathCost ≤ ((1 + ε) ^ 2 / (1 - ε)) ^ (s.f.calls.length + 1) * (1 + η) ^ l.length *
            (exactCost val l + val (B.fwd.h goal)) := by
        intro l x hx hgx
        have k1 := hQ.2 l x hx (w.eqv.trans _ _ _ hug hgx)
        rw [hr.h _ _ hug] at k1
        have k2 := rounded_val_nonneg hv (hh goal)
        have k3 : (Bi.core s.f).calls.length = s.f.calls.length := rfl
        rw [k3] at k1
        linarith
      obtain ⟨m, hmf⟩ := Bi.exploredFind_isSome (P := B.rev) (x := n.state) inv.rootR.1
        (by rw [w.same]; exact w.eqv.symm _ _ hug)
      obtain ⟨hm1, hm2⟩ := Bi.exploredFind_some hmf
      have hmroot : m = rootNode goal := inv.rootR.2 m hm1 (by
        rw [w.same] at hm2 ⊢; exact w.eqv.trans _ _ _ hm2 hug)
      have hcost : val (n.pathCost + m.pathCost) ≤ (1 + ε) * val n.pathCost := by
        have e : m.pathCost = 0 := by rw [hmroot]; rfl
        rw [e]
        have := (abs_le.1 (hv.add n.pathCost 0 hQ.1 le_rfl)).2
        rw [hv.zero] at this
        linarith
      show ∃ b, (Bi.findIntersection _ _ _ _ _).2.2 = some b ∧ _
      unfold Bi.findIntersection
      rw [hmf]
      dsimp only
      split
      · exact ⟨_, rfl, fun l x hx hgx =>
          le_trans hcost (mul_le_mul_of_nonneg_left (hmin l x hx hgx) (by linarith))⟩
      · rename_i hi
        cases hb : s.best with
        | none => simp [Bi.improves, hb] at hi
        | some b =>
          rw [hb] at hi
          have hi' : b ≤ n.pathCost + m.pathCost := by simpa [Bi.improves] using hi
          exact ⟨b, rfl, fun l x hx hgx => le_trans (hv.mono.monotone hi')
            (le_trans hcost (mul_le_mul_of_nonneg_left (hmin l x hx hgx) (by linarith)))⟩
    · obtain ⟨b, hb, hbl⟩ := opt.2 ⟨u, hu, hug⟩
      obtain ⟨y, hy1, hy2⟩ := best_down B.rev n
        (AStar.expand B.fwd true { s.f with frontier := f' } n) s.r hb
      refine ⟨y, hy1, fun l x hx hgx => le_trans (hv.mono.monotone hy2) (le_trans (hbl l x hx hgx) ?_)⟩
      have a1 := rounded_rho_ge h0 h1
      have a2 := (rounded_route_nonneg hv h1 hc hx).2
      have a3 := rounded_val_nonneg hv (hh goal)
      refine mul_le_mul_of_nonneg_left ?_ (by linarith)
      rw [pow_succ]
      refine mul_le_mul_of_nonneg_right ?_ (by positivity)
      refine mul_le_mul_of_nonneg_right ?_ (by positivity)
      exact le_mul_of_one_le_right (by positivity) a1

private theorem near_other (hv : Rounded val ε) {init goal : S}
    {s : BiSearch S A C} (opt : HalfNear B.rev val ε η goal init s.r s.best)
    {f' : Frontier (ANode S A C)} {n : ANode S A C} :
    HalfNear B.rev val ε η goal init (Bi.forward B true s f' n).r (Bi.forward B true s f' n).best := by
  obtain ⟨_, hq2, _⟩ := Bi.findIntersection_core B.rev n
    (AStar.expand B.fwd true { s.f with frontier := f' } n) s.r s.best
  have hcl : (Bi.forward B true s f' n).r.calls = s.r.calls := (Bi.core_eq hq2).2.2
  refine ⟨?_, ?_⟩
  · rw [hcl]
    show OptQ _ _ _ (Bi.core (Bi.findIntersection _ _ _ _ _).2.1)
    rw [hq2]; exact opt.1
  · rw [hcl]
    intro hexp
    obtain ⟨b, hb, hbl⟩ := opt.2 hexp
    obtain ⟨y, hy1, hy2⟩ := best_down B.rev n
      (AStar.expand B.fwd true { s.f with frontier := f' } n) s.r hb
    exact ⟨y, hy1, fun l x hx hgx => le_trans (hv.mono.monotone hy2) (hbl l x hx hgx)⟩

/-- The path cost of a frontier top is nearly at most the cost of any route to an unexpanded state without estimate. -/
private theorem top_near {P : Problem S A C} (he : KeyEquiv P.eqS) (hd : P.Deterministic)
    (hr : P.Respects) (hv : Rounded val ε)
    (h0 : 0 ≤ ε) (h1 : ε < 1) (hη : 0 ≤ η) (hc : ∀ u a c v, P.tr u a c v → 0 ≤ c) (hh : ∀ u, 0 ≤ P.h u)
    (hcon : ∀ u a c v, P.tr u a c v → val (P.h u) ≤ (1 + η) * (val c + val (P.h v))) {init : S} {s : Search S A C}
    (inv : Inv P true init (Bi.core s)) (opt : OptQ P (NearOpt P val ε η init s.calls.length) init (Bi.core s))
    {t : ANode S A C} (ht : s.frontier.top = some t) {l x} (hx : Route P.tr init l x)
    (hne : ¬ Expanded P s.calls x) (hz : P.h x = 0) {k : Nat} (hk : s.calls.length ≤ k) :
    0 ≤ t.pathCost ∧
      val t.pathCost ≤ ((1 + ε) ^ 2 / (1 - ε)) ^ (k + 1) * (1 + η) ^ l.length * exactCost val l := by
  cases hp : s.frontier.pop (eqNode P) with
  | none =>
    have := Frontier.pop_eq_none_iff.1 hp
    simp [Frontier.top, this] at ht
  | some q =>
    obtain ⟨f', n⟩ := q
    have hnt : n = t := by
      unfold Frontier.pop at hp
      unfold Frontier.top at ht
      rw [ht] at hp
      simp only [Option.some.injEq, Prod.mk.injEq] at hp
      exact hp.2.symm
    subst hnt
    obtain ⟨k1, k2⟩ := rounded_popped_near (s := Bi.core s) he hd hr hv h0 h1 hη hc hh hcon inv opt hp hx hne
    have a1 := rounded_rho_ge h0 h1
    have a2 := (rounded_route_nonneg hv h1 hc hx).2
    refine ⟨k1, ?_⟩
    rcases k2 with hroot | hb
    · have a5 : val n.pathCost = 0 := by rw [hroot]; exact hv.zero
      rw [a5]; positivity
    · rw [hz, hv.zero, add_zero] at hb
      have a3 := rounded_val_nonneg hv (hh n.state)
      have a4 : ((1 + ε) ^ 2 / (1 - ε)) ^ (s.calls.length + 1) ≤ ((1 + ε) ^ 2 / (1 - ε)) ^ (k + 1) :=
        pow_le_pow_right₀ a1 (by omega)
      refine le_trans (by linarith) (le_trans hb ?_)
      refine mul_le_mul_of_nonneg_right ?_ a2
      exact mul_le_mul_of_nonneg_right a4 (by positivity)

/-- C141. Graph search with rounded additions (relative error at most `ε` each, commutative, no other law), non-negative
costs, heuristics that are non-negative, consistent up to a relative tolerance `η` and zero at the end they lead to, and a
reverse propagator that exactly reverses the forward one: on Success, after at most `k` calls of each propagator, the
reported cost is at most `2 ((1 + ε)²/(1 - ε))^(k + 2) (1 + η)^m` times the exact cost of any route of `m` transitions from
the start to the goal, and the reported cost is that of the reported path up to `(1 - ε)` per transition. -/
theorem C141_rounded_within_factor_two (w : Bi.Wf B) {init goal : S} (hx : B.ExactReverseFrom init goal)
    (hdf : B.fwd.Deterministic) (hdr : B.rev.Deterministic) (hrf : B.fwd.Respects) (hrr : B.rev.Respects)
    (hmf : ∀ a b, B.fwd.mayReplace a b = true) (hmr : ∀ a b, B.rev.mayReplace a b = true)
    (hv : Rounded val ε) (hcomm : ∀ a b : C, a + b = b + a) (h0 : 0 ≤ ε) (h1 : ε < 1) (hη : 0 ≤ η)
    (hcf : ∀ u a c v, B.fwd.tr u a c v → 0 ≤ c) (hcr : ∀ u a c v, B.rev.tr u a c v → 0 ≤ c)
    (hhf : ∀ u, 0 ≤ B.fwd.h u) (hhr : ∀ u, 0 ≤ B.rev.h u)
    (hconf : ∀ u a c v, B.fwd.tr u a c v → val (B.fwd.h u) ≤ (1 + η) * (val c + val (B.fwd.h v)))
    (hconr : ∀ u a c v, B.rev.tr u a c v → val (B.rev.h u) ≤ (1 + η) * (val c + val (B.rev.h v)))
    (hzf : B.fwd.h goal = 0) (hzr : B.rev.h init = 0) {fuel : Nat}
    {s : BiSearch S A C} (h : Bi.searchPath B true fuel init goal = some (.success, s)) :
    ∃ fsteps m rsteps m' c, Route B.fwd.tr init fsteps m ∧ Route B.rev.tr goal rsteps m' ∧ B.fwd.eqS m m' = true ∧
      Bi.getPath s = some (routeStates init fsteps ++ (routeStates goal rsteps).reverse) ∧
      Bi.getOptimalCost s = some c ∧
      (1 - ε) ^ (fsteps.length + rsteps.length + 1) * (exactCost val fsteps + exactCost val rsteps) ≤ val c ∧
      ∀ k, s.f.calls.length ≤ k → s.r.calls.length ≤ k → ∀ steps, Route B.fwd.tr init steps goal →
        val c ≤ 2 * ((1 + ε) ^ 2 / (1 - ε)) ^ (k + 2) * (1 + η) ^ steps.length * exactCost val steps := by
  obtain ⟨fs, m, rs, m', p1, p2, p3, p4, p5⟩ := C15_bidirectional_cost_matches_path w h
  refine ⟨fs, m, rs, m', _, p1, p2, p3, p4, p5, ?_, ?_⟩
  · have a1 := rounded_route_lower hv h0 h1 hcf p1
    have a2 := rounded_route_lower hv h0 h1 hcr p2
    obtain ⟨b1, c1⟩ := rounded_route_nonneg hv h1 hcf p1
    obtain ⟨b2, c2⟩ := rounded_route_nonneg hv h1 hcr p2
    have d := (abs_le.1 (hv.add _ _ b1 b2)).1
    have e0 : (0 : ℝ) ≤ 1 - ε := by linarith
    have e1 : (1 - ε) ^ (fs.length + rs.length) ≤ (1 - ε) ^ fs.length :=
      pow_le_pow_of_le_one e0 (by linarith) (by omega)
    have e2 : (1 - ε) ^ (fs.length + rs.length) ≤ (1 - ε) ^ rs.length :=
      pow_le_pow_of_le_one e0 (by linarith) (by omega)
    have e3 := mul_le_mul_of_nonneg_right e1 c1
    have e4 := mul_le_mul_of_nonneg_right e2 c2
    rw [pow_succ]
    have e5 : (1 - ε) * ((1 - ε) ^ (fs.length + rs.length) * (exactCost val fs + exactCost val rs)) ≤
        (1 - ε) * (val (routeCost fs) + val (routeCost rs)) := mul_le_mul_of_nonneg_left (by linarith) e0
    linarith
  intro k hkf hkr steps hst
  have hI0 : HalfNear B.fwd val ε η init goal (Bi.initSearch B init goal).f none ∧
      HalfNear B.rev val ε η goal init (Bi.initSearch B init goal).r none := by
    refine ⟨⟨optQ_init _ init, ?_⟩, ⟨optQ_init _ goal, ?_⟩⟩ <;>
      (rintro ⟨u, hu, _⟩; simp [Bi.initSearch, AStar.initSearch] at hu)
  obtain ⟨inv, ⟨hof, hor⟩, h | h⟩ := Bi.loop_spec w
    (fun s => HalfNear B.fwd val ε η init goal s.f s.best ∧ HalfNear B.rev val ε η goal init s.r s.best)
    (fun s f' n inv opt hp =>
      ⟨near_forward w hdf hrf hmf hv h0 h1 hη hcf hhf hconf inv opt.1 hp, near_other hv opt.2⟩)
    (fun s r' n inv opt hp =>
      ⟨near_other (B := Bi.swapP B) hv (s := Bi.swapS s) opt.1,
       near_forward (B := Bi.swapP B) w.swap hdr hrr hmr hv h0 h1 hη hcr hhr hconr (inv.swap w) (s := Bi.swapS s)
        opt.2 hp⟩)
    _ fuel _ _ _ (Bi.binv_init w true init goal) hI0
    (by intro h; exact absurd rfl h) h
  · cases h.1
  have hfin := h.2
  rcases inv.meet with ⟨h1', h2, _⟩ | ⟨x, y, h1', h2, _, _, _, h3⟩
  · simp [Bi.finished, h2] at hfin
  have hbest : s.best = some (x.pathCost + y.pathCost) := by
    rcases h3 with h3 | h3
    · exact h3
    · rw [h3, hcomm]
  have hco : routeCost fs + routeCost rs = x.pathCost + y.pathCost := by
    have : Bi.getOptimalCost s = some (x.pathCost + y.pathCost) := by
      simp [Bi.getOptimalCost, AStar.getOptimalCost, h1', h2]
    rw [p5] at this
    exact Option.some.inj this
  rw [hco]
  obtain ⟨rsteps, hr1, hr2, hr3⟩ := turn_exact (val := val) hx.1 hst
  obtain ⟨ρ, hρ⟩ : ∃ ρ, ρ = (1 + ε) ^ 2 / (1 - ε) := ⟨_, rfl⟩
  have hρ1 : 1 ≤ ρ := by rw [hρ]; exact rounded_rho_ge h0 h1
  have hlt : (0 : ℝ) < 1 - ε := by linarith
  have hρ2 : ρ * (1 - ε) = (1 + ε) ^ 2 := by rw [hρ]; field_simp
  have hE := (rounded_route_nonneg hv h1 hcf hst).2
  have hρε : 1 + ε ≤ ρ := by
    refine le_of_mul_le_mul_right (?_ : (1 + ε) * (1 - ε) ≤ ρ * (1 - ε)) hlt
    rw [hρ2]; nlinarith
  have hone : ∀ j, j ≤ k → ∀ b : C,
      val b ≤ (1 + ε) * (ρ ^ j * (1 + η) ^ steps.length * exactCost val steps) →
      val b ≤ 2 * ρ ^ (k + 2) * (1 + η) ^ steps.length * exactCost val steps := by
    intro j hj b hb
    refine le_trans hb ?_
    have a1 : ρ ^ j ≤ ρ ^ (k + 1) := pow_le_pow_right₀ hρ1 (by omega)
    have a2 : 0 ≤ (1 + η) ^ steps.length * exactCost val steps := by positivity
    have a3 : (1 + ε) * ρ ^ j ≤ ρ * ρ ^ (k + 1) := mul_le_mul hρε a1 (by positivity) (by linarith)
    have a4 := mul_le_mul_of_nonneg_right a3 a2
    have a5 : 0 ≤ ρ * ρ ^ (k + 1) * ((1 + η) ^ steps.length * exactCost val steps) := by positivity
    have a6 : 2 * ρ ^ (k + 2) * (1 + η) ^ steps.length * exactCost val steps =
        2 * (ρ * ρ ^ (k + 1) * ((1 + η) ^ steps.length * exactCost val steps)) := by ring
    rw [a6]
    nlinarith
  by_cases hef : Expanded B.fwd s.f.calls goal
  · obtain ⟨b, hb, hbl⟩ := hof.2 hef
    rw [hbest] at hb
    cases hb
    have := hbl steps goal hst (w.eqv.refl _)
    rw [hzf, hv.zero, add_zero, ← hρ] at this
    rw [← hρ]
    exact hone _ hkf _ this
  by_cases her : Expanded B.rev s.r.calls init
  · obtain ⟨b, hb, hbl⟩ := hor.2 her
    rw [hbest] at hb
    cases hb
    have := hbl rsteps init hr1 (w.reqv.refl _)
    rw [hzr, hv.zero, add_zero, ← hρ, hr2, hr3] at this
    rw [← hρ]
    exact hone _ hkr _ this
  cases hft : s.f.frontier.top with
  | none =>
    exfalso
    have : s.f.frontier.vec = [] := by simpa [Frontier.top] using hft
    exact hef (expanded_of_reachable w.eqv hdf hrf inv.f this hst)
  | some ft =>
    cases hrt : s.r.frontier.top with
    | none =>
      exfalso
      have : s.r.frontier.vec = [] := by simpa [Frontier.top] using hrt
      exact her (expanded_of_reachable w.reqv hdr hrr inv.r this hr1)
    | some rt =>
      simp only [Bi.finished, h1', h2, hbest, hft, hrt, decide_eq_true_eq, Bi.costOffset, ge_iff_le] at hfin
      obtain ⟨f1, f2⟩ := top_near w.eqv hdf hrf hv h0 h1 hη hcf hhf hconf inv.f hof.1 hft hst hef hzf hkf
      obtain ⟨g1, g2⟩ := top_near w.reqv hdr hrr hv h0 h1 hη hcr hhr hconr inv.r hor.1 hrt hr1 her hzr hkr
      rw [hr2, hr3] at g2
      rw [← hρ] at f2 g2
      have hxy : 0 ≤ x.pathCost + y.pathCost := by
        rw [← hco]
        exact rounded_add_nonneg hv h1 (rounded_route_nonneg hv h1 hcf p1).1 (rounded_route_nonneg hv h1 hcr p2).1
      have hoff : 0 ≤ B.fwd.h goal + B.rev.h goal := rounded_add_nonneg hv h1 (hhf _) (hhr _)
      have t1 := (abs_le.1 (hv.add _ _ hxy hoff)).1
      have t2 := (abs_le.1 (hv.add _ _ f1 g1)).2
      have t3 := hv.mono.monotone hfin
      have t4 := rounded_val_nonneg hv hoff
      have t5 : (1 - ε) * val (x.pathCost + y.pathCost) ≤
          (1 + ε) * (2 * (ρ ^ (k + 1) * (1 + η) ^ steps.length * exactCost val steps)) := by
        have t6 : (1 + ε) * (val ft.pathCost + val rt.pathCost) ≤
            (1 + ε) * (2 * (ρ ^ (k + 1) * (1 + η) ^ steps.length * exactCost val steps)) :=
          mul_le_mul_of_nonneg_left (by linarith) (by linarith)
        nlinarith
      rw [← hρ]
      refine le_of_mul_le_mul_left (le_trans t5 ?_) hlt
      have t7 : (1 - ε) * (2 * ρ ^ (k + 2) * (1 + η) ^ steps.length * exactCost val steps) =
          (1 + ε) ^ 2 * (2 * (ρ ^ (k + 1) * (1 + η) ^ steps.length * exactCost val steps)) := by
        rw [← hρ2]; ring
      rw [t7]
      refine mul_le_mul_of_nonneg_right ?_ (by positivity)
      nlinarith

end

/-- C141 for `double`. Graph search with costs and heuristics that are non-negative `double`s, heuristics consistent as exact
numbers and zero at the end they lead to: on Success, after at most `k` calls of each propagator, the reported cost is at
most `2 ((1 + 2⁻⁵³)²/(1 - 2⁻⁵³))^(k + 2)` times the exact cost of any route from the start to the goal. -/
theorem C141_double_within_factor_two {S A : Type} {B : BiProblem S A Double} (w : Bi.Wf B) {init goal : S}
    (hx : B.ExactReverseFrom init goal)
    (hdf : B.fwd.Deterministic) (hdr : B.rev.Deterministic) (hrf : B.fwd.Respects) (hrr : B.rev.Respects)
    (hmf : ∀ a b, B.fwd.mayReplace a b = true) (hmr : ∀ a b, B.rev.mayReplace a b = true)
    (hcf : ∀ u a c v, B.fwd.tr u a c v → 0 ≤ c) (hcr : ∀ u a c v, B.rev.tr u a c v → 0 ≤ c)
    (hhf : ∀ u, 0 ≤ B.fwd.h u) (hhr : ∀ u, 0 ≤ B.rev.h u)
    (hconf : ∀ u a c v, B.fwd.tr u a c v → (B.fwd.h u).1 ≤ c.1 + (B.fwd.h v).1)
    (hconr : ∀ u a c v, B.rev.tr u a c v → (B.rev.h u).1 ≤ c.1 + (B.rev.h v).1)
    (hzf : B.fwd.h goal = 0) (hzr : B.rev.h init = 0) {fuel : Nat}
    {s : BiSearch S A Double} (h : Bi.searchPath B true fuel init goal = some (.success, s)) :
    ∃ c, Bi.getOptimalCost s = some c ∧
      ∀ k, s.f.calls.length ≤ k → s.r.calls.length ≤ k → ∀ steps, Route B.fwd.tr init steps goal →
        c.1 ≤ 2 * ((1 + ((2 : ℝ) ^ 53)⁻¹) ^ 2 / (1 - (2 ^ 53)⁻¹)) ^ (k + 2) * exactCost Subtype.val steps := by
  obtain ⟨_, _, _, _, c, _, _, _, _, h5, _, h6⟩ := C141_rounded_within_factor_two (η := 0) w hx hdf hdr hrf hrr hmf hmr
    double_rounded (fun a b => Subtype.ext (by
      show Flt.fl64 (a.1 + b.1) = Flt.fl64 (b.1 + a.1)
      rw [add_comm])) (by positivity) (by norm_num) le_rfl hcf hcr hhf hhr
    (fun u a c v htr => by rw [add_zero, one_mul]; exact hconf u a c v htr)
    (fun u a c v htr => by rw [add_zero, one_mul]; exact hconr u a c v htr) hzf hzr h
  refine ⟨c, h5, fun k k1 k2 steps hs => ?_⟩
  have := h6 k k1 k2 steps hs
  rw [add_zero, one_pow, mul_one] at this
  exact this

/-- The `double` nearest to 1/10. -/
private noncomputable def tenth : Double := ⟨Flt.fl64 (1 / 10), Flt.isFlt_fl 53 (by norm_num) _⟩

/-- The `double` nearest to 1/3. -/
private noncomputable def third : Double := ⟨Flt.fl64 (1 / 3), Flt.isFlt_fl 53 (by norm_num) _⟩

/-- The undirected triangle with edges of about 1/10, 1/10 and 1/3. -/
private noncomputable def triD : Nat → List (Nat × Nat × Double)
  | 0 => [(1, 0, tenth), (2, 1, third)]
  | 1 => [(0, 2, tenth), (2, 3, tenth)]
  | 2 => [(1, 4, tenth), (0, 5, third)]
  | _ => []

private noncomputable def triDP : Problem Nat Nat Double :=
  ⟨fun a b => decide (a = b), fun _ => triD, fun _ => 0, fun _ => false, fun _ _ => true⟩

private noncomputable def triDB : BiProblem Nat Nat Double := ⟨triDP, triDP⟩

/-- The hypotheses of both theorems hold of the triangle, and the search from 0 to 2 succeeds. -/
example : Bi.Wf triDB ∧ triDB.ExactReverseFrom 0 2 ∧ triDB.fwd.Deterministic ∧ triDB.fwd.Respects ∧
    (∀ u a c v, triDB.fwd.tr u a c v → 0 ≤ c) ∧
    (∀ u a c v, triDB.fwd.tr u a c v → (triDB.fwd.h u).1 ≤ c.1 + (triDB.fwd.h v).1) ∧
    ∃ s, Bi.searchPath triDB true 4 0 2 = some (.success, s) := by
  have he : KeyEquiv triDP.eqS :=
    ⟨fun a => by simp [triDP], fun a b h => by simpa [triDP, eq_comm] using h, fun a b c h h' => by
      simp only [triDP, decide_eq_true_eq] at h h' ⊢; exact h.trans h'⟩
  have w : Bi.Wf triDB := ⟨he, rfl, fun _ => rfl, fun _ => rfl⟩
  have hd : triDP.Deterministic := fun _ _ => rfl
  have hr : triDP.Respects := ⟨fun u u' h => by simp only [triDP, decide_eq_true_eq] at h ⊢, fun _ _ _ => rfl,
    fun u u' h v a c hv => by
      simp only [triDP, decide_eq_true_eq] at h
      subst h
      exact ⟨v, a, hv, by simp [triDP]⟩⟩
  have hn1 : (0 : ℝ) ≤ tenth.1 := Flt.fl_nonneg 53 (by norm_num)
  have hn2 : (0 : ℝ) ≤ third.1 := Flt.fl_nonneg 53 (by norm_num)
  have hv : ∀ u a v, ∀ c : Double, triDP.tr u a c v → (0 : ℝ) ≤ c.1 ∧ v ≤ 2 ∧ ∃ a', triDP.tr v a' c u := by
    rintro u a v c ⟨j, h⟩
    replace h : (v, a, c) ∈ triD u := h
    have key : ∀ x : Nat, (∃ a', (u, a', c) ∈ triD x) → ∃ a', triDP.tr x a' c u := fun x ⟨a', h⟩ => ⟨a', 0, h⟩
    match u, h with
    | 0, h =>
      simp only [triD, List.mem_cons, Prod.mk.injEq, List.not_mem_nil, or_false] at h
      rcases h with ⟨rfl, _, rfl⟩ | ⟨rfl, _, rfl⟩
      · exact ⟨hn1, by omega, key _ ⟨2, by simp [triD]⟩⟩
      · exact ⟨hn2, by omega, key _ ⟨5, by simp [triD]⟩⟩
    | 1, h =>
      simp only [triD, List.mem_cons, Prod.mk.injEq, List.not_mem_nil, or_false] at h
      rcases h with ⟨rfl, _, rfl⟩ | ⟨rfl, _, rfl⟩
      · exact ⟨hn1, by omega, key _ ⟨0, by simp [triD]⟩⟩
      · exact ⟨hn1, by omega, key _ ⟨4, by simp [triD]⟩⟩
    | 2, h =>
      simp only [triD, List.mem_cons, Prod.mk.injEq, List.not_mem_nil, or_false] at h
      rcases h with ⟨rfl, _, rfl⟩ | ⟨rfl, _, rfl⟩
      · exact ⟨hn1, by omega, key _ ⟨3, by simp [triD]⟩⟩
      · exact ⟨hn2, by omega, key _ ⟨1, by simp [triD]⟩⟩
    | n + 3, h => simp [triD] at h
  have hx : triDB.ExactReverseFrom 0 2 :=
    ⟨fun u a c v _ h => (hv u a v c h).2.2, fun u a c v _ h => (hv u a v c h).2.2⟩
  refine ⟨w, hx, hd, hr, fun u a c v h => (hv u a v c h).1, fun u a c v h => ?_, ?_⟩
  · have := (hv u a v c h).1
    show (0 : ℝ) ≤ c.1 + 0
    linarith
  have hcov : triDB.fwd.Covers 0 [0, 1, 2] := by
    rintro x ⟨l, hl⟩
    have : x ≤ 2 := by
      cases hl with
      | nil => omega
      | snoc _ h => exact (hv _ _ _ _ h).2.1
    refine ⟨x, ?_, by simp [triDB, triDP]⟩
    simp only [List.mem_cons, List.not_mem_nil, or_false]
    omega
  have hs := C14_bidirectional_terminates w (goal := 2) hcov
  have h4 : ([0, 1, 2] : List Nat).length + 1 = 4 := rfl
  rw [h4] at hs
  cases hq : Bi.searchPath triDB true 4 0 2 with
  | none => rw [hq] at hs; cases hs
  | some r =>
    obtain ⟨st, s⟩ := r
    cases st with
    | success => exact ⟨s, rfl⟩
    | failure =>
      exfalso
      refine C14_bidirectional_failure_unreachable w hx hd hd hr hr hq ⟨_, .snoc (l := []) .nil (a := 1) (c := third) ⟨0, ?_⟩⟩
      show (2, 1, third) ∈ triD 0
      simp [triD]

end PathPlanning
