import Verif.Lemmas.AStarRound
import Verif.Spec.Rounding
import Mathlib.Tactic.Linarith
import Mathlib.Tactic.Positivity
import Mathlib.Tactic.Ring
import Mathlib.Tactic.NormNum
import Mathlib.Tactic.FieldSimp
import Mathlib.Algebra.Order.Field.Basic

/-!
# C119: A* with rounded arithmetic
-/

namespace PathPlanning
open Spec AStar

section
variable {S A C : Type} [LinearOrder C] [Add C] [Zero C] {P : Problem S A C} {val : C → ℝ} {ε η : ℝ}

theorem rounded_val_nonneg (hv : Rounded val ε) {a : C} (ha : 0 ≤ a) : 0 ≤ val a := by
  rw [← hv.zero]; exact hv.mono.monotone ha

theorem rounded_add_nonneg (hv : Rounded val ε) (h1 : ε < 1) {a b : C} (ha : 0 ≤ a) (hb : 0 ≤ b) : 0 ≤ a + b := by
  have h := abs_le.1 (hv.add a b ha hb)
  have := rounded_val_nonneg hv ha
  have := rounded_val_nonneg hv hb
  refine hv.mono.le_iff_le.1 ?_
  rw [hv.zero]
  nlinarith

theorem rounded_route_nonneg (hv : Rounded val ε) (h1 : ε < 1) (hc : ∀ u a c v, P.tr u a c v → 0 ≤ c)
    {init x : S} {l : List (A × C × S)} (hl : Route P.tr init l x) : 0 ≤ routeCost l ∧ 0 ≤ exactCost val l := by
  induction hl with
  | nil => exact ⟨le_refl _, by simp [exactCost]⟩
  | @snoc l u a c v _ htr ih =>
    have h2 := hc _ _ _ _ htr
    refine ⟨?_, ?_⟩
    · have := rounded_add_nonneg hv h1 ih.1 h2
      simpa [routeCost] using this
    · have := rounded_val_nonneg hv h2
      have h3 := ih.2
      simp only [exactCost, List.map_append, List.sum_append, List.map_cons, List.map_nil, List.sum_cons,
        List.sum_nil] at h3 ⊢
      linarith

private theorem exactCost_snoc (l : List (A × C × S)) (a : A) (c : C) (v : S) :
    exactCost val (l ++ [(a, c, v)]) = exactCost val l + val c := by
  simp [exactCost]

private theorem routeCost_snoc (l : List (A × C × S)) (a : A) (c : C) (v : S) :
    routeCost (l ++ [(a, c, v)]) = routeCost l + c := by
  simp [routeCost]

theorem rounded_route_lower (hv : Rounded val ε) (h0 : 0 ≤ ε) (h1 : ε < 1) (hc : ∀ u a c v, P.tr u a c v → 0 ≤ c)
    {init x : S} {l : List (A × C × S)} (hl : Route P.tr init l x) :
    (1 - ε) ^ l.length * exactCost val l ≤ val (routeCost l) := by
  induction hl with
  | nil => simp [exactCost, routeCost, hv.zero]
  | @snoc l u a c v hrt htr ih =>
    have h2 := hc _ _ _ _ htr
    obtain ⟨h3, h4⟩ := rounded_route_nonneg hv h1 hc hrt
    have h5 := abs_le.1 (hv.add _ _ h3 h2)
    have h6 := rounded_val_nonneg hv h2
    rw [exactCost_snoc, routeCost_snoc, List.length_append, List.length_singleton, pow_succ]
    have h7 : (1 - ε) ^ l.length ≤ 1 := pow_le_one₀ (by linarith) (by linarith)
    have h8 : (1 - ε) ^ l.length * (exactCost val l + val c) ≤ val (routeCost l) + val c := by nlinarith
    have h9 : (0 : ℝ) ≤ 1 - ε := by linarith
    calc (1 - ε) ^ l.length * (1 - ε) * (exactCost val l + val c)
        = (1 - ε) * ((1 - ε) ^ l.length * (exactCost val l + val c)) := by ring
      _ ≤ (1 - ε) * (val (routeCost l) + val c) := mul_le_mul_of_nonneg_left h8 h9
      _ ≤ val (routeCost l + c) := by linarith [h5.1]

/-- What is known of the path cost `g` with which `u` was expanded, after `k` expansions. -/
def NearOpt (P : Problem S A C) (val : C → ℝ) (ε η : ℝ) (init : S) (k : Nat) (u : S) (g : C) : Prop :=
  0 ≤ g ∧ ∀ l x, Route P.tr init l x → P.eqS u x = true →
    val g + val (P.h u) ≤ ((1 + ε) ^ 2 / (1 - ε)) ^ k * (1 + η) ^ l.length * (exactCost val l + val (P.h u))

theorem rounded_rho_ge (h0 : 0 ≤ ε) (h1 : ε < 1) : 1 ≤ (1 + ε) ^ 2 / (1 - ε) := by
  rw [le_div_iff₀ (by linarith)]
  nlinarith

theorem rounded_popped_near (he : KeyEquiv P.eqS) (hd : P.Deterministic) (hr : P.Respects) (hv : Rounded val ε)
    (h0 : 0 ≤ ε) (h1 : ε < 1) (hη : 0 ≤ η) (hc : ∀ u a c v, P.tr u a c v → 0 ≤ c) (hh : ∀ u, 0 ≤ P.h u)
    (hcon : ∀ u a c v, P.tr u a c v → val (P.h u) ≤ (1 + η) * (val c + val (P.h v)))
    {init : S} {s : Search S A C} {k : Nat} (inv : Inv P true init s)
    (opt : OptQ P (NearOpt P val ε η init k) init s) {f' : Frontier (ANode S A C)} {n : ANode S A C}
    (hp : s.frontier.pop (eqNode P) = some (f', n)) {l : List (A × C × S)} {x : S} (hx : Route P.tr init l x)
    (hne : ¬ Expanded P s.calls x) :
    0 ≤ n.pathCost ∧ (n = rootNode init ∨ val n.pathCost + val (P.h n.state) ≤
      ((1 + ε) ^ 2 / (1 - ε)) ^ (k + 1) * (1 + η) ^ l.length * (exactCost val l + val (P.h x))) := by
  obtain ⟨hn, hmin⟩ := popped_le he inv hp
  have hg0 : 0 ≤ n.pathCost := by
    obtain ⟨l', h2, h3, _⟩ := (inv.wf n hn).route
    rw [← h3]; exact (rounded_route_nonneg hv h1 hc h2).1
  refine ⟨hg0, ?_⟩
  obtain ⟨ρ, hρ⟩ : ∃ ρ, ρ = (1 + ε) ^ 2 / (1 - ε) := ⟨_, rfl⟩
  have hρ1 : 1 ≤ ρ := by rw [hρ]; exact rounded_rho_ge h0 h1
  have hF : ∀ m : Nat, 1 ≤ ρ ^ k * (1 + η) ^ m := by
    intro m
    have a1 : 1 ≤ ρ ^ k := one_le_pow₀ hρ1
    have a2 : 1 ≤ (1 + η) ^ m := one_le_pow₀ (by linarith)
    nlinarith
  rcases opt.start with ⟨_, h⟩ | ⟨_, htot⟩
  · left
    rw [h] at hn
    simpa using hn
  right
  rcases frontier_boundQ he hd hr opt
      (fun l x τ => val τ ≤ (1 + ε) ^ 2 * (ρ ^ k * (1 + η) ^ l.length * (exactCost val l + val (P.h x))))
      (by
        intro τ hτ
        rw [hτ, hv.zero]
        have := rounded_val_nonneg hv (hh init)
        have a1 := hF 0
        simp only [exactCost, List.length_nil, List.map_nil, List.sum_nil] at a1 ⊢
        positivity)
      (by
        intro l u a c v u' g τ hrt htr hq hQ hτ
        have b1 := rounded_val_nonneg hv (hc _ _ _ _ htr)
        have b2 := rounded_val_nonneg hv (hh v)
        have b3 := rounded_val_nonneg hv hQ.1
        have b4 := hcon _ _ _ _ htr
        have b5 := hQ.2 l u hrt hq
        have b6 := (rounded_route_nonneg hv h1 hc hrt).2
        rw [hr.h _ _ hq] at b5
        rw [← hρ] at b5
        have b7 := rounded_val_nonneg hv (hh u)
        have c1 := (abs_le.1 (hv.add g c hQ.1 (hc _ _ _ _ htr))).2
        have c2 := (abs_le.1 (hv.add (g + c) (P.h v) (rounded_add_nonneg hv h1 hQ.1 (hc _ _ _ _ htr)) (hh v))).2
        have c3 := hv.mono.monotone hτ
        have c4 : val τ ≤ (1 + ε) ^ 2 * (val g + val c + val (P.h v)) := by
          have d1 : val (g + c) ≤ (1 + ε) * (val g + val c) := by linarith
          have d2 : val (g + c + P.h v) ≤ (1 + ε) * (val (g + c) + val (P.h v)) := by linarith
          have d3 : (1 + ε) * (val (g + c) + val (P.h v)) ≤ (1 + ε) * ((1 + ε) * (val g + val c) + val (P.h v)) :=
            mul_le_mul_of_nonneg_left (by linarith) (by linarith)
          have d4 : 0 ≤ (1 + ε) * (ε * val (P.h v)) := by positivity
          nlinarith
        refine le_trans c4 (mul_le_mul_of_nonneg_left ?_ (by positivity))
        rw [exactCost_snoc, List.length_append, List.length_singleton, pow_succ]
        obtain ⟨F, hFd⟩ : ∃ F, F = ρ ^ k * (1 + η) ^ l.length := ⟨_, rfl⟩
        have hF1 := hF l.length
        rw [← hFd] at b5 hF1
        have hre : ρ ^ k * ((1 + η) ^ l.length * (1 + η)) = F * (1 + η) := by rw [hFd]; ring
        rw [hre]
        have e1 : (F - 1) * val (P.h u) ≤ (F - 1) * ((1 + η) * (val c + val (P.h v))) :=
          mul_le_mul_of_nonneg_left b4 (by linarith)
        have e2 : 0 ≤ η * (val c + val (P.h v)) := by positivity
        have e3 : 0 ≤ F * η * exactCost val l := by
          have : 0 ≤ F := by linarith
          positivity
        nlinarith)
      (by
        intro l u a c v τ hrt htr hB
        have b1 := rounded_val_nonneg hv (hc _ _ _ _ htr)
        have b2 := rounded_val_nonneg hv (hh v)
        have b4 := hcon _ _ _ _ htr
        have b6 := (rounded_route_nonneg hv h1 hc hrt).2
        refine le_trans hB (mul_le_mul_of_nonneg_left ?_ (by positivity))
        rw [exactCost_snoc, List.length_append, List.length_singleton, pow_succ]
        obtain ⟨F, hFd⟩ : ∃ F, F = ρ ^ k * (1 + η) ^ l.length := ⟨_, rfl⟩
        have hF1 := hF l.length
        rw [← hFd] at hF1
        have hre : ρ ^ k * ((1 + η) ^ l.length * (1 + η)) = F * (1 + η) := by rw [hFd]; ring
        rw [← hFd, hre, mul_assoc]
        refine mul_le_mul_of_nonneg_left ?_ (by linarith)
        nlinarith [mul_nonneg hη b6])
      hx with h | ⟨y, hy, hB⟩
  · exact absurd h hne
  · have h2 := hv.mono.monotone (hmin y hy)
    have h3 := htot n hn
    rw [h3] at h2
    have h4 := (abs_le.1 (hv.add _ _ hg0 (hh n.state))).1
    have h5 : (1 - ε) * (val n.pathCost + val (P.h n.state)) ≤
        (1 + ε) ^ 2 * (ρ ^ k * (1 + η) ^ l.length * (exactCost val l + val (P.h x))) := by linarith
    rw [← hρ, pow_succ]
    have h6 : (0 : ℝ) < 1 - ε := by linarith
    have h7 : ρ * (1 - ε) = (1 + ε) ^ 2 := by rw [hρ]; field_simp
    rw [← h7] at h5
    have h8 : (1 - ε) * (val n.pathCost + val (P.h n.state)) ≤
        (1 - ε) * (ρ ^ k * ρ * (1 + η) ^ l.length * (exactCost val l + val (P.h x))) := by linarith
    exact le_of_mul_le_mul_left h8 h6

theorem rounded_near_expand (he : KeyEquiv P.eqS) (hd : P.Deterministic) (hr : P.Respects)
    (hm : ∀ a b, P.mayReplace a b = true) (hv : Rounded val ε)
    (h0 : 0 ≤ ε) (h1 : ε < 1) (hη : 0 ≤ η) (hc : ∀ u a c v, P.tr u a c v → 0 ≤ c) (hh : ∀ u, 0 ≤ P.h u)
    (hcon : ∀ u a c v, P.tr u a c v → val (P.h u) ≤ (1 + η) * (val c + val (P.h v)))
    {init : S} {s : Search S A C} (inv : Inv P true init s)
    (opt : OptQ P (NearOpt P val ε η init s.calls.length) init s) {f' : Frontier (ANode S A C)} {n : ANode S A C}
    (hp : s.frontier.pop (eqNode P) = some (f', n)) (hs : P.isSol n.state = false) :
    NearOpt P val ε η init (s.calls.length + 1) n.state n.pathCost ∧
    OptQ P (NearOpt P val ε η init (expand P true { s with frontier := f' } n).calls.length) init
      (expand P true { s with frontier := f' } n) := by
  have hQ : NearOpt P val ε η init (s.calls.length + 1) n.state n.pathCost := by
    obtain ⟨hn, _⟩ := popped_le he inv hp
    have hne : ∀ x, P.eqS n.state x = true → ¬ Expanded P s.calls x := by
      intro x hx hex
      exact inv.disj rfl x hex ⟨n, hn, hx⟩
    refine ⟨?_, ?_⟩
    · exact (rounded_popped_near he hd hr hv h0 h1 hη hc hh hcon inv opt hp (inv.wf n hn).route.choose_spec.1
        (hne _ (he.refl _))).1
    · intro l x hl hx
      have a2 := (rounded_route_nonneg hv h1 hc hl).2
      have a3 := rounded_val_nonneg hv (hh n.state)
      rcases (rounded_popped_near he hd hr hv h0 h1 hη hc hh hcon inv opt hp hl (hne x hx)).2 with hroot | hb
      · have a4 : 1 ≤ ((1 + ε) ^ 2 / (1 - ε)) ^ (s.calls.length + 1) * (1 + η) ^ l.length :=
          one_le_mul_of_one_le_of_one_le (one_le_pow₀ (rounded_rho_ge h0 h1)) (one_le_pow₀ (by linarith))
        have a5 : val n.pathCost = 0 := by rw [hroot]; exact hv.zero
        rw [a5]
        nlinarith
      · rw [hr.h _ _ hx]; rw [hr.h _ _ hx] at hb; exact hb
  have hcalls : (expand P true { s with frontier := f' } n).calls.length = s.calls.length + 1 := by
    simp [expand]
  refine ⟨hQ, ?_⟩
  rw [hcalls]
  refine optQ_expand he hd hm inv (opt.mono ?_) hp hs hQ
  · rintro u g ⟨hg, hb⟩
    refine ⟨hg, fun l x hl hx => le_trans (hb l x hl hx) ?_⟩
    have a1 := rounded_rho_ge h0 h1
    have a2 := (rounded_route_nonneg hv h1 hc hl).2
    have a3 := rounded_val_nonneg hv (hh u)
    rw [pow_succ]
    refine mul_le_mul_of_nonneg_right ?_ (by positivity)
    refine mul_le_mul_of_nonneg_right ?_ (by positivity)
    exact le_mul_of_one_le_right (by positivity) a1

/-- C119. Graph search with rounded additions (relative error at most `ε` each, no other law), non-negative costs and a
heuristic that is non-negative, consistent up to a relative tolerance `η` and zero at solutions: on Success after `k` calls
of the propagator, the reported cost and the exact cost of the returned path exceed the exact cost of any route of `m`
transitions to a solution by at most the factor `((1 + ε)²/(1 - ε))^(k + 1) (1 + η)^m`, and for the returned path of `m'`
transitions the factor `1/(1 - ε)^m'` more. -/
theorem C119_rounded_near_optimal (he : KeyEquiv P.eqS) (hd : P.Deterministic) (hr : P.Respects)
    (hm : ∀ a b, P.mayReplace a b = true) (hv : Rounded val ε)
    (h0 : 0 ≤ ε) (h1 : ε < 1) (hη : 0 ≤ η) (hc : ∀ u a c v, P.tr u a c v → 0 ≤ c) (hh : ∀ u, 0 ≤ P.h u)
    (hcon : ∀ u a c v, P.tr u a c v → val (P.h u) ≤ (1 + η) * (val c + val (P.h v)))
    (hgoal : ∀ t, P.isSol t = true → P.h t = 0)
    {fuel : Nat} {init : S} {s : Search S A C}
    (h : searchPath P true fuel init = some (.success, s)) :
    ∃ best t, Route P.tr init best t ∧ P.isSol t = true ∧ getPath s = some (routeStates init best) ∧
      getOptimalCost s = some (routeCost best) ∧
      ∀ steps t', Route P.tr init steps t' → P.isSol t' = true →
        val (routeCost best) ≤
          ((1 + ε) ^ 2 / (1 - ε)) ^ (s.calls.length + 1) * (1 + η) ^ steps.length * exactCost val steps ∧
        (1 - ε) ^ best.length * exactCost val best ≤
          ((1 + ε) ^ 2 / (1 - ε)) ^ (s.calls.length + 1) * (1 + η) ^ steps.length * exactCost val steps := by
  rcases loop_spec he (fun s => OptQ P (NearOpt P val ε η init s.calls.length) init s)
    (fun s f' n inv opt hp hs =>
      (rounded_near_expand he hd hr hm hv h0 h1 hη hc hh hcon inv opt hp hs).2)
    fuel _ _ _ (inv_init he true init) (optQ_init _ init) h with h | ⟨_, s₀, f', n, inv, opt, hp, hs, rfl⟩
  · cases h.1
  · obtain ⟨hn, _⟩ := popped_le he inv hp
    obtain ⟨l, k1, k2, k3, _⟩ := (inv.wf n hn).route
    refine ⟨l, n.state, k1, hs, (k3 []).trans (by simp), ?_, ?_⟩
    · rw [k2]; rfl
    intro steps t hrt ht
    have hne : ¬ Expanded P s₀.calls t := by
      rintro ⟨u, hu, hut⟩
      have := inv.notSol u hu
      rw [hr.isSol _ _ hut, ht] at this
      cases this
    have key : val (routeCost l) ≤ ((1 + ε) ^ 2 / (1 - ε)) ^ (s₀.calls.length + 1) * (1 + η) ^ steps.length *
        exactCost val steps := by
      rw [k2]
      rcases (rounded_popped_near he hd hr hv h0 h1 hη hc hh hcon inv opt hp hrt hne).2 with hroot | hb
      · have a5 : val n.pathCost = 0 := by rw [hroot]; exact hv.zero
        rw [a5]
        have a1 := rounded_rho_ge h0 h1
        have a2 := (rounded_route_nonneg hv h1 hc hrt).2
        positivity
      · rw [hgoal _ ht, hgoal _ hs, hv.zero] at hb
        simpa using hb
    exact ⟨key, le_trans (rounded_route_lower hv h0 h1 hc k1) key⟩

/-- C119, without heuristic. Rounded addition that is monotone in its left argument, does not decrease when a transition cost
is added and keeps numbers to which 0 is added (all true of `double`): graph search with the zero heuristic reports the
minimum, over all routes to a solution, of the cost summed from the start with the same rounded additions. -/
theorem C119_dijkstra_exact (he : KeyEquiv P.eqS) (hd : P.Deterministic) (hr : P.Respects)
    (hm : ∀ a b, P.mayReplace a b = true) (hh : ∀ u, P.h u = 0)
    (hz : ∀ a : C, a + 0 = a) (hmono : ∀ u v x, ∀ c : C, P.tr u x c v → ∀ a b : C, a ≤ b → a + c ≤ b + c)
    (hpos : ∀ u v x, ∀ c : C, P.tr u x c v → ∀ a : C, a ≤ a + c)
    {fuel : Nat} {init : S} {s : Search S A C}
    (h : searchPath P true fuel init = some (.success, s)) :
    ∃ best t, Route P.tr init best t ∧ P.isSol t = true ∧ getPath s = some (routeStates init best) ∧
      getOptimalCost s = some (routeCost best) ∧
      ∀ steps t', Route P.tr init steps t' → P.isSol t' = true → routeCost best ≤ routeCost steps := by
  have key : ∀ {s : Search S A C} (_ : Inv P true init s)
      (_ : OptQ P (fun u g => ∀ l x, Route P.tr init l x → P.eqS u x = true → g ≤ routeCost l) init s)
      {f' : Frontier (ANode S A C)} {n : ANode S A C} (_ : s.frontier.pop (eqNode P) = some (f', n))
      {l : List (A × C × S)} {x : S} (_ : Route P.tr init l x) (_ : ¬ Expanded P s.calls x),
      n.pathCost ≤ routeCost l := by
    intro s inv opt f' n hp l x hx hne
    obtain ⟨hn, hmin⟩ := popped_le he inv hp
    have htot : n.totalCost = n.pathCost := by
      rcases opt.start with ⟨_, h⟩ | ⟨_, htot⟩
      · rw [h] at hn
        simp only [List.mem_singleton] at hn
        rw [hn]; rfl
      · rw [htot n hn, hh, hz]
    rcases frontier_boundQ he hd hr opt (fun l _ τ => τ ≤ routeCost l) (fun τ h => le_of_eq h)
        (by
          intro l u a c v u' g τ hrt htr hq hQ hτ
          rw [hh, hz] at hτ
          rw [routeCost_snoc]
          exact le_trans hτ (hmono _ _ _ _ htr _ _ (hQ l u hrt hq)))
        (by
          intro l u a c v τ hrt htr hB
          rw [routeCost_snoc]
          exact le_trans hB (hpos _ _ _ _ htr _)) hx with h | ⟨y, hy, hB⟩
    · exact absurd h hne
    · rw [← htot]; exact le_trans (hmin y hy) hB
  rcases loop_spec he
    (fun s => OptQ P (fun u g => ∀ l x, Route P.tr init l x → P.eqS u x = true → g ≤ routeCost l) init s)
    (fun s f' n inv opt hp hs => optQ_expand he hd hm inv opt hp hs (fun l x hl hx =>
      key inv opt hp hl (fun hex => inv.disj rfl x hex ⟨n, (popped_le he inv hp).1, hx⟩)))
    fuel _ _ _ (inv_init he true init) (optQ_init _ init) h with h | ⟨_, s₀, f', n, inv, opt, hp, hs, rfl⟩
  · cases h.1
  · obtain ⟨hn, _⟩ := popped_le he inv hp
    obtain ⟨l, k1, k2, k3, _⟩ := (inv.wf n hn).route
    refine ⟨l, n.state, k1, hs, (k3 []).trans (by simp), ?_, ?_⟩
    · rw [k2]; rfl
    intro steps t hrt ht
    rw [k2]
    refine key inv opt hp hrt ?_
    rintro ⟨u, hu, hut⟩
    have := inv.notSol u hu
    rw [hr.isSol _ _ hut, ht] at this
    cases this

end

/-! ## A concrete case: numbers with two significant decimal digits -/

/-- Keep the two leading decimal digits. -/
def trunc2 (x : Nat) : Nat := if x < 100 then x else 10 * trunc2 (x / 10)
termination_by x

private theorem trunc2_le (x : Nat) : trunc2 x ≤ x ∧ (100 ≤ x → 10 * x + 10 ≤ x + 10 * trunc2 x) := by
  induction x using Nat.strong_induction_on with
  | _ x ih =>
    rw [trunc2]
    split
    · omega
    · obtain ⟨h1, h2⟩ := ih (x / 10) (by omega)
      by_cases hq : 100 ≤ x / 10
      · have := h2 hq
        omega
      · have h3 : trunc2 (x / 10) = x / 10 := by rw [trunc2, if_pos (by omega)]
        omega

private theorem trunc2_small {x : Nat} (h : x < 100) : trunc2 x = x := by rw [trunc2, if_pos h]

private theorem trunc2_ten (x : Nat) : 10 ≤ x → 10 ≤ trunc2 x := by
  intro hx
  by_cases h : x < 100
  · rw [trunc2_small h]; exact hx
  · have := (trunc2_le x).2 (by omega)
    omega

private theorem trunc2_mono (y : Nat) : ∀ x, x ≤ y → trunc2 x ≤ trunc2 y := by
  induction y using Nat.strong_induction_on with
  | _ y ih =>
    intro x hx
    by_cases hy : y < 100
    · rw [trunc2_small hy, trunc2_small (by omega)]; exact hx
    · by_cases hx' : x < 100
      · rw [trunc2_small hx', trunc2, if_neg hy]
        have := trunc2_ten (y / 10) (by omega)
        omega
      · have e1 : trunc2 x = 10 * trunc2 (x / 10) := by rw [trunc2, if_neg hx']
        have e2 : trunc2 y = 10 * trunc2 (y / 10) := by rw [trunc2, if_neg hy]
        rw [e1, e2]
        have := ih (y / 10) (by omega) (x / 10) (by omega)
        omega

private theorem trunc2_idem (x : Nat) : trunc2 (trunc2 x) = trunc2 x := by
  induction x using Nat.strong_induction_on with
  | _ x ih =>
    by_cases hx : x < 100
    · rw [trunc2_small hx, trunc2_small hx]
    · have h1 := ih (x / 10) (by omega)
      have h2 := trunc2_ten (x / 10) (by omega)
      have h3 : trunc2 x = 10 * trunc2 (x / 10) := by rw [trunc2, if_neg hx]
      rw [h3, trunc2, if_neg (by omega), show 10 * trunc2 (x / 10) / 10 = trunc2 (x / 10) by omega, h1]

/-- Natural numbers of at most two significant decimal digits. -/
abbrev Dec2 : Type := { x : Nat // trunc2 x = x }

/-- The sum is rounded down to two digits. -/
instance : Add Dec2 := ⟨fun a b => ⟨trunc2 (a.1 + b.1), trunc2_idem _⟩⟩

instance : Zero Dec2 := ⟨⟨0, by decide +kernel⟩⟩

/-- The real a number stands for. -/
noncomputable def Dec2.val (x : Dec2) : ℝ := (x.1 : ℝ)

private theorem dec2_rounded : Rounded Dec2.val (1 / 10) := by
  refine ⟨fun a b h => Nat.cast_lt.2 h, Nat.cast_zero, ?_⟩
  intro a b _ _
  obtain ⟨h1, h2⟩ := trunc2_le (a.1 + b.1)
  have h3 : 10 * (a.1 + b.1) ≤ (a.1 + b.1) + 10 * trunc2 (a.1 + b.1) := by
    by_cases h : 100 ≤ a.1 + b.1
    · have := h2 h; omega
    · rw [trunc2_small (by omega)]; omega
  show |((trunc2 (a.1 + b.1) : Nat) : ℝ) - ((a.1 : ℝ) + (b.1 : ℝ))| ≤ 1 / 10 * ((a.1 : ℝ) + (b.1 : ℝ))
  rw [← Nat.cast_add, abs_le]
  have c1 : ((trunc2 (a.1 + b.1) : Nat) : ℝ) ≤ ((a.1 + b.1 : Nat) : ℝ) := Nat.cast_le.2 h1
  have c2 : (10 : ℝ) * ((a.1 + b.1 : Nat) : ℝ) ≤ ((a.1 + b.1 : Nat) : ℝ) + 10 * ((trunc2 (a.1 + b.1) : Nat) : ℝ) := by
    exact_mod_cast h3
  have c3 : (0 : ℝ) ≤ ((a.1 + b.1 : Nat) : ℝ) := Nat.cast_nonneg _
  constructor <;> linarith

/-- Two-digit constants. -/
private def d (x : Nat) (h : x < 100) : Dec2 := ⟨x, trunc2_small h⟩

/-- Four hops of costs 99, 6, 6, 6 or two of costs 60 and 50 from 0 to 9. -/
def decN : Nat → List (Nat × Nat × Dec2)
  | 0 => [(1, 0, d 99 (by decide)), (4, 1, d 60 (by decide))]
  | 1 => [(2, 2, d 6 (by decide))]
  | 2 => [(3, 3, d 6 (by decide))]
  | 3 => [(9, 4, d 6 (by decide))]
  | 4 => [(9, 5, d 50 (by decide))]
  | _ => []

/-- The search problem on `decN` with goal 9 and no heuristic. -/
def decP : Problem Nat Nat Dec2 :=
  ⟨fun a b => decide (a = b), fun _ => decN, fun _ => 0, fun s => decide (s = 9), fun _ _ => true⟩

private theorem dec2_nonneg (a : Dec2) : 0 ≤ a := Nat.zero_le a.1

/-- The hypotheses of `C119_rounded_near_optimal` and of `C119_dijkstra_exact` hold of the example, and the search
succeeds. -/
example : KeyEquiv decP.eqS ∧ decP.Deterministic ∧ decP.Respects ∧ Rounded Dec2.val (1 / 10) ∧
    (∀ u a c v, decP.tr u a c v → 0 ≤ c) ∧
    (∀ u a c v, decP.tr u a c v → Dec2.val (decP.h u) ≤ (1 + 0) * (Dec2.val c + Dec2.val (decP.h v))) ∧
    (∀ a : Dec2, a + 0 = a) ∧ (∀ a b c : Dec2, a ≤ b → a + c ≤ b + c) ∧ (∀ a c : Dec2, a ≤ a + c) ∧
    (searchPath decP true 10 0).map (fun r => (r.1, getPath r.2, r.2.calls.length, (getOptimalCost r.2).map (·.1))) =
      some (.success, some [0, 1, 2, 3, 9], 5, some 100) := by
  refine ⟨⟨fun a => by simp [decP], fun a b h => by simpa [decP, eq_comm] using h, fun a b c h h' => ?_⟩, fun _ _ => rfl,
    ⟨fun u u' h => ?_, fun _ _ _ => rfl, fun u u' h v a c hv => ?_⟩, dec2_rounded, fun _ _ c _ _ => dec2_nonneg c,
    fun u a c v _ => ?_, fun a => ?_, fun a b c h => ?_, fun a c => ?_, by decide +kernel⟩
  · simp only [decP, decide_eq_true_eq] at h h' ⊢; exact h.trans h'
  · simp only [decP, decide_eq_true_eq] at h ⊢; rw [h]
  · simp only [decP, decide_eq_true_eq] at h
    subst h
    exact ⟨v, a, hv, by simp [decP]⟩
  · have : (0 : ℝ) ≤ Dec2.val c := Nat.cast_nonneg _
    have h0 : Dec2.val (decP.h u) = 0 := Nat.cast_zero
    have h1 : Dec2.val (decP.h v) = 0 := Nat.cast_zero
    rw [h0, h1]; linarith
  · exact Subtype.ext ((congrArg trunc2 (Nat.add_zero a.1)).trans a.2)
  · exact trunc2_mono _ _ (Nat.add_le_add_right h c.1)
  · show a.1 ≤ trunc2 (a.1 + c.1)
    calc a.1 = trunc2 a.1 := a.2.symm
      _ ≤ _ := trunc2_mono _ _ (Nat.le_add_right _ _)

/-- C119, why a factor is needed: with an addition whose relative error is at most 1/10 and the zero heuristic, graph search
returns a path of exact cost 117 although there is a route of exact cost 110. -/
theorem C119_rounding_costs :
    ∃ (P : Problem Nat Nat Dec2) (s : Search Nat Nat Dec2) (best other : List (Nat × Dec2 × Nat)),
      Rounded Dec2.val (1 / 10) ∧ (∀ u, P.h u = 0) ∧
      searchPath P true 10 0 = some (.success, s) ∧ getPath s = some (routeStates 0 best) ∧
      Route P.tr 0 best 9 ∧ Route P.tr 0 other 9 ∧ P.isSol 9 = true ∧
      exactCost Dec2.val best = 117 ∧ exactCost Dec2.val other = 110 := by
  have hs : (searchPath decP true 10 0).map (fun r => (r.1, getPath r.2)) = some (.success, some [0, 1, 2, 3, 9]) := by
    decide +kernel
  cases h : searchPath decP true 10 0 with
  | none => rw [h] at hs; cases hs
  | some r =>
    obtain ⟨st, s⟩ := r
    rw [h] at hs
    simp only [Option.map_some, Option.some.injEq, Prod.mk.injEq] at hs
    obtain ⟨rfl, hp⟩ := hs
    have tr : ∀ u a v, ∀ c : Dec2, (v, a, c) ∈ decN u → decP.tr u a c v := fun u a v c hm => ⟨0, hm⟩
    refine ⟨decP, s, [(0, d 99 (by decide), 1), (2, d 6 (by decide), 2), (3, d 6 (by decide), 3), (4, d 6 (by decide), 9)],
      [(1, d 60 (by decide), 4), (5, d 50 (by decide), 9)], dec2_rounded, fun _ => rfl, h, hp, ?_, ?_, rfl, ?_, ?_⟩
    · exact .snoc (.snoc (.snoc (.snoc .nil (tr 0 0 1 _ (by simp [decN]))) (tr 1 2 2 _ (by simp [decN])))
        (tr 2 3 3 _ (by simp [decN]))) (tr 3 4 9 _ (by simp [decN]))
    · exact .snoc (.snoc .nil (tr 0 1 4 _ (by simp [decN]))) (tr 4 5 9 _ (by simp [decN]))
    · show (((99 : Nat) : ℝ) + (((6 : Nat) : ℝ) + (((6 : Nat) : ℝ) + (((6 : Nat) : ℝ) + 0)))) = 117
      norm_num
    · show (((60 : Nat) : ℝ) + (((50 : Nat) : ℝ) + 0)) = 110
      norm_num

end PathPlanning
