import Verif.Model.SharedHeuristic
import Verif.Props.AStar

/-!
# C153: planners that share a heuristic
-/

namespace PathPlanning.Shared
open Spec AStar

section
variable {S A C : Type} [LinearOrder C] [Add C] [Zero C]

/-- A transition of the propagator of planner `i`. -/
abbrev tr (cfg : Config S A C) (i : Nat) (u : S) (a : A) (c : C) (v : S) : Prop := (v, a, c) ∈ cfg.nbrs i u

/-! ## Searches whose heuristic keeps its goal -/

/-- The search of planner `i` is the search from `a` to `g` with its own heuristic, `m` iterations of which are done. -/
private def Alone (cfg : Config S A C) (i : Nat) (a g : S) (p : Thread S A C) : Prop :=
  p.goal = g ∧
  match p.pc with
  | .idle => False
  | .atLoop => ∃ m, ∀ fuel, searchPath (problem cfg i g g) cfg.graph (m + fuel) a = loop (problem cfg i g g) cfg.graph fuel p.search
  | .expanding n ts => ∃ m, ∀ fuel, searchPath (problem cfg i g g) cfg.graph (m + fuel) a =
      loop (problem cfg i g g) cfg.graph fuel { p.search with
        frontier := ts.foldl (expandOne (problem cfg i g g) cfg.graph n p.search.explored) p.search.frontier }
  | .done st => ∃ fuel, searchPath (problem cfg i g g) cfg.graph fuel a = some (st, p.search)

private theorem alone_next {cfg : Config S A C} {i : Nat} {a g : S} {p : Thread S A C} (h : Alone cfg i a g p) :
    Alone cfg i a g (p.next cfg i g) := by
  obtain ⟨pc, pi, pg, ps⟩ := p
  obtain ⟨rfl, h⟩ := h
  dsimp only at h
  cases pc with
  | idle => exact absurd h id
  | done st => exact ⟨rfl, h⟩
  | atLoop =>
    obtain ⟨m, h⟩ := h
    simp only [Thread.next]
    cases hp : ps.frontier.pop (eqNode (problem cfg i pg pg)) with
    | none =>
      refine ⟨rfl, m + 1, ?_⟩
      rw [h 1, loop, hp]
    | some r =>
      obtain ⟨f, n⟩ := r
      dsimp only
      split
      · rename_i hs
        refine ⟨rfl, m + 1, ?_⟩
        rw [h 1, loop, hp]
        simp only [hs, if_true]
      · rename_i hs
        refine ⟨rfl, m + 1, fun fuel => ?_⟩
        rw [show m + 1 + fuel = m + (fuel + 1) by omega, h (fuel + 1), loop, hp]
        simp only [if_neg hs]
        rfl
  | expanding n ts =>
    cases ts with
    | nil => exact ⟨rfl, h⟩
    | cons t ts => exact ⟨rfl, h⟩

private theorem alone_exec {cfg : Config S A C} {i : Nat} {a g : S} : ∀ (l : List (Event S)) (σ : Sys S A C),
    Alone cfg i a g (σ.thread i) → σ.heurGoal (cfg.ref i) = g →
    (∀ b g', .start i b g' ∉ l) → (∀ j b g', .start j b g' ∈ l → cfg.ref j = cfg.ref i → g' = g) →
    Alone cfg i a g ((σ.exec cfg l).thread i) := by
  intro l
  induction l with
  | nil => intro σ h _ _ _; exact h
  | cons e l ih =>
    intro σ h hg h1 h2
    refine ih (σ.event cfg e) ?_ ?_ (fun b g' hb => h1 b g' (List.mem_cons_of_mem _ hb))
      (fun j b g' hb => h2 j b g' (List.mem_cons_of_mem _ hb))
    · cases e with
      | start j b g' =>
        simp only [Sys.event]
        split
        · exact h
        · have hj : i ≠ j := by rintro rfl; exact h1 b g' (List.mem_cons_self ..)
          simpa only [if_neg hj] using h
      | step j =>
        simp only [Sys.event]
        split
        · rename_i hj
          subst hj
          rw [hg]
          exact alone_next h
        · exact h
    · cases e with
      | start j b g' =>
        simp only [Sys.event]
        split
        · exact hg
        · dsimp only
          split
          · rename_i hr
            exact h2 j b g' (List.mem_cons_self ..) hr.symm
          · exact hg
      | step j => exact hg

/-- C153, partial. Whatever happened before and whatever the other planners do meanwhile, the search of planner `i` from `a`
to `g` ends with the status, the path, the actions and the cost of a search made alone, if no other planner whose search
starts meanwhile with the same heuristic object has another goal. Missing: goals that differ
(`C153_any_schedule_partial`, `C153_disturbed`). -/
theorem C153_undisturbed_partial (cfg : Config S A C) (s₀ : S) (before during : List (Event S)) (i : Nat) (a g : S)
    (hidle : (((Sys.new s₀).exec cfg before).thread i).pc.running = false)
    (hi : ∀ b g', .start i b g' ∉ during)
    (hg : ∀ j b g', .start j b g' ∈ during → cfg.ref j = cfg.ref i → g' = g) (st : Status)
    (hdone : (((Sys.new s₀).exec cfg (before ++ .start i a g :: during)).thread i).pc = .done st) :
    ∃ fuel, searchPath (APlanner.problem cfg.eqS (cfg.nbrs i) (cfg.heur (cfg.ref i)) g g) cfg.graph fuel a =
      some (st, (((Sys.new s₀).exec cfg (before ++ .start i a g :: during)).thread i).search) := by
  obtain ⟨σ, hσ⟩ : ∃ σ, σ = (Sys.new s₀).exec cfg before := ⟨_, rfl⟩
  rw [← hσ] at hidle
  have he : (Sys.new s₀).exec cfg (before ++ .start i a g :: during) = (σ.event cfg (.start i a g)).exec cfg during := by
    rw [hσ, Sys.exec, List.foldl_append]; rfl
  rw [he] at hdone ⊢
  have h := alone_exec (cfg := cfg) (i := i) (a := a) (g := g) during (σ.event cfg (.start i a g)) (by
    simp only [Sys.event, hidle, Bool.false_eq_true, if_false, if_true]
    exact ⟨rfl, 0, fun fuel => by rw [Nat.zero_add]; rfl⟩) (by
    simp only [Sys.event, hidle, Bool.false_eq_true, if_false, if_true]) hi hg
  obtain ⟨-, h⟩ := h
  rw [hdone] at h
  exact h

/-! ## Any schedule -/

/-- A node whose chain of ancestors is a path from `a`, whatever its total cost. -/
private def Chain (cfg : Config S A C) (i : Nat) (a : S) : ANode S A C → Prop
  | .root s p _ => s = a ∧ p = 0
  | .child par s x p _ => Chain cfg i a par ∧ ∃ c, tr cfg i par.state x c s ∧ p = par.pathCost + c

omit [LinearOrder C] in
private theorem Chain.route {cfg : Config S A C} {i : Nat} {a : S} : ∀ {n : ANode S A C}, Chain cfg i a n →
    ∃ l, Route (tr cfg i) a l n.state ∧ routeCost l = n.pathCost ∧
      (∀ acc, fillStates (n.depth + 1) (some n) acc = some (routeStates a l ++ acc)) ∧
      (∀ acc, fillActions n.depth (some n) acc = some ((routeActions l).map some ++ acc))
  | .root s p t, h => by
    obtain ⟨rfl, rfl⟩ := h
    exact ⟨[], .nil, rfl, fun acc => rfl, fun acc => rfl⟩
  | .child par s x p t, h => by
    obtain ⟨hp, c, htr, hpc⟩ := h
    obtain ⟨l, h1, h2, h3, h4⟩ := Chain.route hp
    refine ⟨l ++ [(x, c, s)], .snoc h1 htr, ?_, ?_, ?_⟩
    · simp only [routeCost, List.foldl_append, List.foldl_cons, List.foldl_nil]
      unfold routeCost at h2
      rw [h2]; exact hpc.symm
    · intro acc
      simp only [ANode.depth, fillStates, ANode.parent, ANode.state]
      exact (h3 (s :: acc)).trans (by simp [routeStates])
    · intro acc
      simp only [ANode.depth, fillActions, ANode.parent, ANode.action]
      exact (h4 (some x :: acc)).trans (by simp [routeActions])

private abbrev InFr (cfg : Config S A C) (f : Frontier (ANode S A C)) (x : S) : Prop :=
  ∃ y ∈ f.vec, cfg.eqS y.state x = true

private abbrev Ex (cfg : Config S A C) (calls : List S) (x : S) : Prop := ∃ u ∈ calls, cfg.eqS u x = true

/-- Invariant of a search with a heuristic that may change at any time; `left` are the neighbours still to be handled. -/
private structure Free (cfg : Config S A C) (i : Nat) (a g : S) (s : Search S A C) (left : List (S × A × C)) : Prop where
  ok : Frontier.Ok cmpNode (fun x y : ANode S A C => cfg.eqS x.state y.state) s.frontier
  chain : ∀ n ∈ s.frontier.vec, Chain cfg i a n
  explored_iff : ∀ x, s.explored.any (fun n => cfg.eqS n.state x) = true ↔ (Ex cfg s.calls x ∨ cfg.eqS a x = true)
  disj : cfg.graph = true → ∀ x, Ex cfg s.calls x → ¬ InFr cfg s.frontier x
  initIn : Ex cfg s.calls a ∨ InFr cfg s.frontier a
  closed : ∀ u ∈ s.calls, ∀ t ∈ cfg.nbrs i u, Ex cfg s.calls t.1 ∨ InFr cfg s.frontier t.1 ∨ t ∈ left
  nodup : cfg.graph = true → s.calls.Pairwise (fun u v => cfg.eqS u v = false)
  notSol : ∀ u ∈ s.calls, cfg.eqS u g = false
  reach : ∀ u ∈ s.calls, Reachable (tr cfg i) a u
  sol : s.solution = none

private def FreeThread (cfg : Config S A C) (i : Nat) (a g : S) (p : Thread S A C) : Prop :=
  p.goal = g ∧
  match p.pc with
  | .idle => False
  | .atLoop => Free cfg i a g p.search []
  | .expanding n ts => Free cfg i a g p.search ts ∧ Chain cfg i a n ∧ ∀ t ∈ ts, t ∈ cfg.nbrs i n.state
  | .done .failure => Free cfg i a g p.search [] ∧ p.search.frontier.vec = []
  | .done .success => ∃ s f n, Free cfg i a g s [] ∧ Chain cfg i a n ∧ cfg.eqS n.state g = true ∧
      p.search = { s with frontier := f, solution := some n }

private theorem free_init (cfg : Config S A C) (he : KeyEquiv cfg.eqS) (i : Nat) (a g hg : S) :
    Free cfg i a g (initSearch (problem cfg i hg g) a) [] := by
  have I := inv_init (P := problem cfg i hg g) he cfg.graph a
  refine ⟨I.ok, ?_, I.explored_iff, I.disj, I.initIn, ?_, I.nodup, ?_, ?_, I.sol⟩
  · intro n hn
    have := I.wf n hn
    have hmem : n = rootNode a := by
      have ok0 : FOk (problem cfg i hg g) (Frontier.empty : Frontier (ANode S A C)) := Frontier.ok_empty
      exact ((ok0.mem_push_new cmpNode_swo (eqNode_equiv he) rfl n).1 hn).resolve_right (by simp [Frontier.empty])
    rw [hmem]
    exact ⟨rfl, rfl⟩
  · intro u hu; cases hu
  · intro u hu; cases hu
  · intro u hu; cases hu

private theorem free_pop {cfg : Config S A C} (he : KeyEquiv cfg.eqS) {i : Nat} {a g hg : S} {s : Search S A C}
    (I : Free cfg i a g s []) {f : Frontier (ANode S A C)} {n : ANode S A C}
    (hp : s.frontier.pop (eqNode (problem cfg i hg g)) = some (f, n)) (hns : cfg.eqS n.state g = false) :
    Free cfg i a g { s with
      frontier := f
      explored := exploredInsert (problem cfg i hg g) s.explored n
      calls := n.state :: s.calls } (cfg.nbrs i n.state) ∧ Chain cfg i a n := by
  obtain ⟨ok', hn, hmin, hmem⟩ := Frontier.Ok.pop (eqv := eqNode (problem cfg i hg g)) cmpNode_swo (eqNode_equiv he) I.ok hp
  have hch := I.chain n hn
  have hSplit : ∀ x, InFr cfg s.frontier x → cfg.eqS n.state x = true ∨ InFr cfg f x := by
    rintro x ⟨y, hy, hyx⟩
    cases hq : eqNode (problem cfg i hg g) y n with
    | false => exact Or.inr ⟨y, (hmem y).2 ⟨hy, hq⟩, hyx⟩
    | true => exact Or.inl (he.trans _ _ _ (he.symm _ _ hq) hyx)
  have hKeep : ∀ x, Ex cfg s.calls x ∨ InFr cfg s.frontier x → Ex cfg (n.state :: s.calls) x ∨ InFr cfg f x := by
    rintro x (⟨u, hu, hux⟩ | h)
    · exact Or.inl ⟨u, List.mem_cons_of_mem _ hu, hux⟩
    · rcases hSplit x h with h | h
      · exact Or.inl ⟨n.state, List.mem_cons_self .., h⟩
      · exact Or.inr h
  refine ⟨⟨ok', fun y hy => I.chain y ((hmem y).1 hy).1, ?_, ?_, hKeep a I.initIn, ?_, ?_, ?_, ?_, I.sol⟩, hch⟩
  · intro x
    refine (exploredContains_insert (P := problem cfg i hg g) he (e := s.explored) (n := n) (x := x)).trans ?_
    rw [show exploredContains (problem cfg i hg g) s.explored x = s.explored.any (fun n => cfg.eqS n.state x) from rfl,
      I.explored_iff]
    constructor
    · rintro ((⟨u, hu, hux⟩ | h) | h)
      · exact Or.inl ⟨u, List.mem_cons_of_mem _ hu, hux⟩
      · exact Or.inr h
      · exact Or.inl ⟨n.state, List.mem_cons_self .., h⟩
    · rintro (⟨u, hu, hux⟩ | h)
      · rcases List.mem_cons.1 hu with rfl | hu
        · exact Or.inr hux
        · exact Or.inl (Or.inl ⟨u, hu, hux⟩)
      · exact Or.inl (Or.inr h)
  · rintro hgr x ⟨u, hu, hux⟩ ⟨y, hy, hyx⟩
    rcases List.mem_cons.1 hu with rfl | hu
    · have := ((hmem y).1 hy).2
      exact absurd (he.trans _ _ _ hyx (he.symm _ _ hux)) (by simpa [eqNode, problem, APlanner.problem] using this)
    · exact I.disj hgr x ⟨u, hu, hux⟩ ⟨y, ((hmem y).1 hy).1, hyx⟩
  · intro u hu t ht
    rcases List.mem_cons.1 hu with rfl | hu
    · exact Or.inr (Or.inr ht)
    · rcases I.closed u hu t ht with h | h | h
      · exact (hKeep _ (Or.inl h)).imp_right Or.inl
      · exact (hKeep _ (Or.inr h)).imp_right Or.inl
      · cases h
  · intro hgr
    refine List.pairwise_cons.2 ⟨?_, I.nodup hgr⟩
    intro u hu
    cases hq : cfg.eqS n.state u with
    | false => rfl
    | true => exact absurd ⟨n, hn, he.refl _⟩ (I.disj hgr n.state ⟨u, hu, he.symm _ _ hq⟩)
  · intro u hu
    rcases List.mem_cons.1 hu with rfl | hu
    · exact hns
    · exact I.notSol u hu
  · intro u hu
    rcases List.mem_cons.1 hu with rfl | hu
    · obtain ⟨l, hl, -⟩ := hch.route
      exact ⟨l, hl⟩
    · exact I.reach u hu

private theorem free_one {cfg : Config S A C} (he : KeyEquiv cfg.eqS) {i : Nat} {a g hg : S} {s : Search S A C}
    {t : S × A × C} {ts : List (S × A × C)} (I : Free cfg i a g s (t :: ts)) {n : ANode S A C} (hn : Chain cfg i a n)
    (ht : t ∈ cfg.nbrs i n.state) :
    Free cfg i a g { s with frontier := expandOne (problem cfg i hg g) cfg.graph n s.explored s.frontier t } ts := by
  have hF := inF_expandOne (P := problem cfg i hg g) he cfg.graph n s.explored I.ok t
  have hKeep : ∀ x, InFr cfg s.frontier x →
      InFr cfg (expandOne (problem cfg i hg g) cfg.graph n s.explored s.frontier t) x := fun x h => (hF x).2 (Or.inl h)
  refine ⟨ok_expandOne (P := problem cfg i hg g) he cfg.graph n s.explored I.ok t, ?_, I.explored_iff, ?_,
    I.initIn.imp_right (hKeep a), ?_, I.nodup, I.notSol, I.reach, I.sol⟩
  · intro y hy
    rcases mem_expandOne (P := problem cfg i hg g) he cfg.graph n s.explored I.ok t hy with h | rfl
    · exact I.chain y h
    · exact ⟨hn, t.2.2, ht, rfl⟩
  · intro hgr x hx hIn
    rcases (hF x).1 hIn with h | ⟨h1, h2⟩
    · exact I.disj hgr x hx h
    · rcases h2 hgr with h2 | h2
      · obtain ⟨u, hu, hux⟩ := hx
        have := (I.explored_iff t.1).2 (Or.inl ⟨u, hu, he.trans _ _ _ hux (he.symm _ _ h1)⟩)
        rw [show exploredContains (problem cfg i hg g) s.explored t.1 =
          s.explored.any (fun n => cfg.eqS n.state t.1) from rfl, this] at h2
        cases h2
      · obtain ⟨y, hy, hyt⟩ := h2
        exact I.disj hgr x hx ⟨y, hy, he.trans _ _ _ hyt h1⟩
  · intro u hu t' ht'
    rcases I.closed u hu t' ht' with h | h | h
    · exact Or.inl h
    · exact Or.inr (Or.inl (hKeep _ h))
    · rcases List.mem_cons.1 h with rfl | h
      · cases hce : s.explored.any (fun n => cfg.eqS n.state t'.1) with
        | true =>
          rcases (I.explored_iff t'.1).1 hce with h | h
          · exact Or.inl h
          · rcases I.initIn with ⟨w, hw, hwi⟩ | ⟨y, hy, hyi⟩
            · exact Or.inl ⟨w, hw, he.trans _ _ _ hwi h⟩
            · exact Or.inr (Or.inl (hKeep _ ⟨y, hy, he.trans _ _ _ hyi h⟩))
        | false => exact Or.inr (Or.inl ((hF t'.1).2 (Or.inr ⟨he.refl _, fun _ => Or.inl hce⟩)))
      · exact Or.inr (Or.inr h)

private theorem free_next {cfg : Config S A C} (he : KeyEquiv cfg.eqS) {i : Nat} {a g hg : S} {p : Thread S A C}
    (h : FreeThread cfg i a g p) : FreeThread cfg i a g (p.next cfg i hg) := by
  obtain ⟨pc, pi, pg, ps⟩ := p
  obtain ⟨rfl, h⟩ := h
  dsimp only at h
  cases pc with
  | idle => exact absurd h id
  | done st => exact ⟨rfl, h⟩
  | atLoop =>
    simp only [Thread.next]
    cases hp : ps.frontier.pop (eqNode (problem cfg i hg pg)) with
    | none => exact ⟨rfl, h, Frontier.pop_eq_none_iff.1 hp⟩
    | some r =>
      obtain ⟨f, n⟩ := r
      dsimp only
      cases hs : (problem cfg i hg pg).isSol n.state with
      | true =>
        simp only [if_true]
        refine ⟨rfl, ps, f, n, h, ?_, hs, rfl⟩
        obtain ⟨-, hn, -⟩ := Frontier.Ok.pop (eqv := eqNode (problem cfg i hg pg)) cmpNode_swo (eqNode_equiv he) h.ok hp
        exact h.chain n hn
      | false =>
        simp only [Bool.false_eq_true, if_false]
        obtain ⟨h1, h2⟩ := free_pop he h hp hs
        exact ⟨rfl, h1, h2, fun t ht => ht⟩
  | expanding n ts =>
    obtain ⟨h1, h2, h3⟩ := h
    cases ts with
    | nil => exact ⟨rfl, h1⟩
    | cons t ts =>
      exact ⟨rfl, free_one he h1 h2 (h3 t (List.mem_cons_self ..)), h2, fun t' ht' => h3 t' (List.mem_cons_of_mem _ ht')⟩

private theorem free_exec {cfg : Config S A C} (he : KeyEquiv cfg.eqS) {i : Nat} {a g : S} :
    ∀ (l : List (Event S)) (σ : Sys S A C), FreeThread cfg i a g (σ.thread i) → (∀ b g', .start i b g' ∉ l) →
    FreeThread cfg i a g ((σ.exec cfg l).thread i) := by
  intro l
  induction l with
  | nil => intro σ h _; exact h
  | cons e l ih =>
    intro σ h h1
    refine ih (σ.event cfg e) ?_ (fun b g' hb => h1 b g' (List.mem_cons_of_mem _ hb))
    cases e with
    | start j b g' =>
      simp only [Sys.event]
      split
      · exact h
      · have hj : i ≠ j := by rintro rfl; exact h1 b g' (List.mem_cons_self ..)
        simpa only [if_neg hj] using h
    | step j =>
      simp only [Sys.event]
      split
      · rename_i hj
        subst hj
        exact free_next he h
      · exact h

private theorem free_run (cfg : Config S A C) (he : KeyEquiv cfg.eqS) (s₀ : S) (before during : List (Event S)) (i : Nat)
    (a g : S) (hidle : (((Sys.new s₀).exec cfg before).thread i).pc.running = false)
    (hi : ∀ b g', .start i b g' ∉ during) :
    FreeThread cfg i a g (((Sys.new s₀).exec cfg (before ++ .start i a g :: during)).thread i) := by
  obtain ⟨σ, hσ⟩ : ∃ σ, σ = (Sys.new s₀).exec cfg before := ⟨_, rfl⟩
  rw [← hσ] at hidle
  have he' : (Sys.new s₀).exec cfg (before ++ .start i a g :: during) = (σ.event cfg (.start i a g)).exec cfg during := by
    rw [hσ, Sys.exec, List.foldl_append]; rfl
  rw [he']
  refine free_exec he during _ ?_ hi
  simp only [Sys.event, hidle, Bool.false_eq_true, if_false, if_true]
  exact ⟨rfl, free_init cfg he i a g g⟩

/-- C153, partial. For every schedule, whatever the other planners do to the heuristic: if the search of planner `i` from `a`
to `g` returns `Success`, its path, its actions and its cost are those of a chain of transitions from `a` to `g`, and if it
returns `Failure` there is none. Missing: that the path is the one found alone, which is the cheapest one
(`C153_disturbed`). -/
theorem C153_any_schedule_partial (cfg : Config S A C) (he : KeyEquiv cfg.eqS)
    (s₀ : S) (before during : List (Event S)) (i : Nat) (a g : S)
    (hr : ∀ u u', cfg.eqS u u' = true → ∀ v x c, (v, x, c) ∈ cfg.nbrs i u →
      ∃ v' x', (v', x', c) ∈ cfg.nbrs i u' ∧ cfg.eqS v v' = true)
    (hidle : (((Sys.new s₀).exec cfg before).thread i).pc.running = false)
    (hi : ∀ b g', .start i b g' ∉ during) :
    let p := ((Sys.new s₀).exec cfg (before ++ .start i a g :: during)).thread i
    (p.pc = .done .success → ∃ steps t, Route (tr cfg i) a steps t ∧ cfg.eqS t g = true ∧
      getPath p.search = some (routeStates a steps) ∧ getActions p.search = some ((routeActions steps).map some) ∧
      getOptimalCost p.search = some (routeCost steps)) ∧
    (p.pc = .done .failure → ¬ ∃ steps t, Route (tr cfg i) a steps t ∧ cfg.eqS t g = true) := by
  intro p
  obtain ⟨-, h⟩ : FreeThread cfg i a g p := free_run cfg he s₀ before during i a g hidle hi
  constructor
  · intro hp
    rw [hp] at h
    obtain ⟨s, f, n, -, h1, h2, h3⟩ := h
    obtain ⟨l, k1, k2, k3, k4⟩ := h1.route
    refine ⟨l, n.state, k1, h2, ?_, ?_, ?_⟩
    · rw [h3]; exact (k3 []).trans (by simp)
    · rw [h3]; exact (k4 []).trans (by simp)
    · rw [h3]; simp [getOptimalCost, k2]
  · intro hp
    rw [hp] at h
    obtain ⟨I, hf⟩ := h
    rintro ⟨steps, t, hs, ht⟩
    have hno : ∀ x, ¬ InFr cfg p.search.frontier x := by
      rintro x ⟨y, hy, -⟩; rw [hf] at hy; cases hy
    have key : ∀ l x, Route (tr cfg i) a l x → Ex cfg p.search.calls x := by
      intro l x hx
      induction hx with
      | nil => exact I.initIn.resolve_right (hno _)
      | @snoc l u b c v _ htr ih =>
        obtain ⟨u', hu', hq⟩ := ih
        obtain ⟨v', b', hv', hvv⟩ := hr u u' (he.symm _ _ hq) v b c htr
        rcases I.closed u' hu' _ hv' with ⟨w, hw, hwq⟩ | h | h
        · exact ⟨w, hw, he.trans _ _ _ hwq (he.symm _ _ hvv)⟩
        · exact absurd h (hno _)
        · cases h
    obtain ⟨u, hu, hut⟩ := key _ _ hs
    have := I.notSol u hu
    rw [he.trans _ _ _ hut ht] at this
    cases this

/-- C153, partial: for every schedule graph search asks the propagator about each state at most once, so if the list `R`
covers the states that can be reached, at most as often as `R` is long. -/
theorem C153_calls_partial (cfg : Config S A C) (he : KeyEquiv cfg.eqS) (hgr : cfg.graph = true)
    (s₀ : S) (before during : List (Event S)) (i : Nat) (a g : S) (R : List S)
    (hR : ∀ x, Reachable (tr cfg i) a x → ∃ r ∈ R, cfg.eqS r x = true)
    (hidle : (((Sys.new s₀).exec cfg before).thread i).pc.running = false)
    (hi : ∀ b g', .start i b g' ∉ during) :
    let p := ((Sys.new s₀).exec cfg (before ++ .start i a g :: during)).thread i
    p.search.calls.Pairwise (fun u v => cfg.eqS u v = false) ∧ p.search.calls.length ≤ R.length := by
  intro p
  obtain ⟨-, h⟩ : FreeThread cfg i a g p := free_run cfg he s₀ before during i a g hidle hi
  have key : ∃ s left, Free cfg i a g s left ∧ p.search.calls = s.calls := by
    cases hpc : p.pc with
    | idle => rw [hpc] at h; exact absurd h id
    | atLoop => rw [hpc] at h; exact ⟨_, _, h, rfl⟩
    | expanding n ts => rw [hpc] at h; exact ⟨_, _, h.1, rfl⟩
    | done st =>
      rw [hpc] at h
      cases st with
      | failure => exact ⟨_, _, h.1, rfl⟩
      | success =>
        obtain ⟨s, f, n, h1, -, -, h3⟩ := h
        exact ⟨s, _, h1, by rw [h3]⟩
  obtain ⟨s, left, I, hc⟩ := key
  rw [hc]
  exact ⟨I.nodup hgr, length_le_of_covers he s.calls R (I.nodup hgr) fun x hx => hR x (I.reach x hx)⟩

/-- The event is a step of planner `i`. -/
def Event.isStep (i : Nat) : Event S → Bool
  | .step j => decide (j = i)
  | .start _ _ _ => false

/-- What `k` steps have been spent on, with at most `B` neighbours per state. -/
private def Work (B k : Nat) (p : Thread S A C) : Prop :=
  match p.pc with
  | .atLoop => k ≤ p.search.calls.length * (B + 2)
  | .expanding _ ts => k + ts.length + 1 ≤ p.search.calls.length * (B + 2)
  | _ => True

private theorem work_next {cfg : Config S A C} (he : KeyEquiv cfg.eqS) {i : Nat} {a g hg : S} {p : Thread S A C} {B k : Nat}
    (hB : ∀ x, Reachable (tr cfg i) a x → (cfg.nbrs i x).length ≤ B) (h : FreeThread cfg i a g p) (hw : Work B k p) :
    Work B (k + 1) (p.next cfg i hg) := by
  obtain ⟨pc, pi, pg, ps⟩ := p
  obtain ⟨rfl, h⟩ := h
  dsimp only at h
  cases pc with
  | idle => exact absurd h id
  | done st => trivial
  | atLoop =>
    have hw : k ≤ ps.calls.length * (B + 2) := hw
    simp only [Thread.next]
    cases hp : ps.frontier.pop (eqNode (problem cfg i hg pg)) with
    | none => trivial
    | some r =>
      obtain ⟨f, n⟩ := r
      dsimp only
      split
      · trivial
      · obtain ⟨-, hn, -⟩ := Frontier.Ok.pop (eqv := eqNode (problem cfg i hg pg)) cmpNode_swo (eqNode_equiv he) h.ok hp
        obtain ⟨l, hl, -⟩ := (h.chain n hn).route
        have := hB n.state ⟨l, hl⟩
        show k + 1 + (cfg.nbrs i n.state).length + 1 ≤ (n.state :: ps.calls).length * (B + 2)
        rw [List.length_cons, Nat.succ_mul]
        omega
  | expanding n ts =>
    have hw : k + ts.length + 1 ≤ ps.calls.length * (B + 2) := hw
    cases ts with
    | nil => exact hw
    | cons t ts =>
      show k + 1 + ts.length + 1 ≤ ps.calls.length * (B + 2)
      rw [List.length_cons] at hw
      omega

private theorem work_exec {cfg : Config S A C} (he : KeyEquiv cfg.eqS) {i : Nat} {a g : S} {B : Nat}
    (hB : ∀ x, Reachable (tr cfg i) a x → (cfg.nbrs i x).length ≤ B) :
    ∀ (l : List (Event S)) (σ : Sys S A C) (k : Nat), FreeThread cfg i a g (σ.thread i) → Work B k (σ.thread i) →
    (∀ b g', .start i b g' ∉ l) → Work B (k + l.countP (Event.isStep i)) ((σ.exec cfg l).thread i) := by
  intro l
  induction l with
  | nil => intro σ k _ h _; exact h
  | cons e l ih =>
    intro σ k h hw h1
    have h1' : ∀ b g', .start i b g' ∉ l := fun b g' hb => h1 b g' (List.mem_cons_of_mem _ hb)
    cases e with
    | start j b g' =>
      have hj : i ≠ j := by rintro rfl; exact h1 b g' (List.mem_cons_self ..)
      have e1 : (σ.event cfg (.start j b g')).thread i = σ.thread i := by
        simp only [Sys.event]
        split
        · rfl
        · simp only [if_neg hj]
      have := ih (σ.event cfg (.start j b g')) k (by rw [e1]; exact h) (by rw [e1]; exact hw) h1'
      rwa [List.countP_cons_of_neg (by simp [Event.isStep])]
    | step j =>
      by_cases hj : i = j
      · subst hj
        have e1 : (σ.event cfg (.step i)).thread i = (σ.thread i).next cfg i (σ.heurGoal (cfg.ref i)) := by
          simp only [Sys.event, if_true]
        have := ih (σ.event cfg (.step i)) (k + 1) (by rw [e1]; exact free_next he h)
          (by rw [e1]; exact work_next he hB h hw) h1'
        rw [List.countP_cons_of_pos (by simp [Event.isStep])]
        rwa [show k + (List.countP (Event.isStep i) l + 1) = k + 1 + List.countP (Event.isStep i) l by omega]
      · have e1 : (σ.event cfg (.step j)).thread i = σ.thread i := by
          simp only [Sys.event, if_neg hj]
        have := ih (σ.event cfg (.step j)) k (by rw [e1]; exact h) (by rw [e1]; exact hw) h1'
        rwa [List.countP_cons_of_neg (by simp [Event.isStep]; exact fun h => hj h.symm)]

/-- C153: whatever the other planners do, a graph search that gets its turns ends: if the list `R` covers the states that
can be reached and each of these has at most `B` neighbours, after `|R| (B + 2) + 1` steps at the latest. -/
theorem C153_ends (cfg : Config S A C) (he : KeyEquiv cfg.eqS) (hgr : cfg.graph = true)
    (s₀ : S) (before during : List (Event S)) (i : Nat) (a g : S) (R : List S) (B : Nat)
    (hR : ∀ x, Reachable (tr cfg i) a x → ∃ r ∈ R, cfg.eqS r x = true)
    (hB : ∀ x, Reachable (tr cfg i) a x → (cfg.nbrs i x).length ≤ B)
    (hidle : (((Sys.new s₀).exec cfg before).thread i).pc.running = false)
    (hi : ∀ b g', .start i b g' ∉ during) (hn : R.length * (B + 2) < during.countP (Event.isStep i)) :
    ∃ st, (((Sys.new s₀).exec cfg (before ++ .start i a g :: during)).thread i).pc = .done st := by
  have hc := (C153_calls_partial cfg he hgr s₀ before during i a g R hR hidle hi).2
  obtain ⟨-, hf⟩ := free_run cfg he s₀ before during i a g hidle hi
  obtain ⟨σ, hσ⟩ : ∃ σ, σ = (Sys.new s₀).exec cfg before := ⟨_, rfl⟩
  have he' : (Sys.new s₀).exec cfg (before ++ .start i a g :: during) = (σ.event cfg (.start i a g)).exec cfg during := by
    rw [hσ, Sys.exec, List.foldl_append]; rfl
  rw [← hσ] at hidle
  rw [he'] at hc hf ⊢
  have hstart : (σ.event cfg (.start i a g)).thread i = ⟨.atLoop, a, g, initSearch (problem cfg i g g) a⟩ := by
    simp only [Sys.event, hidle, Bool.false_eq_true, if_false, if_true]
  have hw := work_exec (cfg := cfg) he (i := i) (a := a) (g := g) hB during (σ.event cfg (.start i a g)) 0
    (by rw [hstart]; exact ⟨rfl, free_init cfg he i a g g⟩) (by rw [hstart]; exact Nat.zero_le _) hi
  obtain ⟨p, hp⟩ : ∃ p, p = ((σ.event cfg (.start i a g)).exec cfg during).thread i := ⟨_, rfl⟩
  rw [← hp] at hc hf hw ⊢
  have hle := Nat.mul_le_mul_right (B + 2) hc
  cases hpc : p.pc with
  | idle => rw [hpc] at hf; exact absurd hf id
  | done st => exact ⟨st, rfl⟩
  | atLoop => simp only [Work, hpc] at hw; omega
  | expanding n ts => simp only [Work, hpc] at hw; omega

end

/-! ## Examples -/

/-- 0 → 1 (10), 0 → 2 (1), 2 → 1 (1), 1 → 3 (1), 3 → 9 (98). -/
private def exNbrs : Nat → List (Nat × Nat × Nat)
  | 0 => [(1, 0, 10), (2, 1, 1)]
  | 2 => [(1, 2, 1)]
  | 1 => [(3, 3, 1)]
  | 3 => [(9, 4, 98)]
  | _ => []

/-- The distance to the goals 3 and 9. -/
private def exDist (s g : Nat) : Nat :=
  match g, s with
  | 3, 0 => 3
  | 3, 1 => 1
  | 3, 2 => 2
  | 9, 0 => 101
  | 9, 1 => 99
  | 9, 2 => 100
  | 9, 3 => 98
  | _, _ => 0

/-- All planners use one heuristic object. -/
private def exCfg : Config Nat Nat Nat where
  eqS a b := decide (a = b)
  graph := true
  nbrs _ := exNbrs
  ref _ := 0
  heur _ := exDist

private theorem exCfg_equiv : KeyEquiv exCfg.eqS :=
  ⟨by intro a; simp [exCfg], by intro a b; simp [exCfg]; omega, by intro a b c; simp [exCfg]; omega⟩

private theorem exDist_consistent (g u x c v : Nat) (h : (v, x, c) ∈ exNbrs u) : exDist u g ≤ c + exDist v g := by
  unfold exNbrs at h
  split at h
  · simp only [List.mem_cons, Prod.mk.injEq, List.not_mem_nil, or_false] at h
    rcases h with ⟨rfl, rfl, rfl⟩ | ⟨rfl, rfl, rfl⟩ <;> (unfold exDist; split <;> simp_all)
  all_goals
    simp only [List.mem_cons, Prod.mk.injEq, List.not_mem_nil, or_false] at h
    try (obtain ⟨rfl, rfl, rfl⟩ := h; unfold exDist; split <;> simp_all)

/-- The search of planner 0 from 0 to 3, during which planner 1 starts a search to `g`: after the first neighbour of 0. -/
private def exSched (g : Nat) : List (Event Nat) :=
  [.start 0 0 3, .step 0, .step 0, .start 1 3 g] ++ List.replicate 20 (.step 0) ++ List.replicate 10 (.step 1)

private def exCost (l : List (Event Nat)) (i : Nat) : Option Nat :=
  getOptimalCost (((Sys.new 0).exec exCfg l).thread i).search

private def exSuccess (l : List (Event Nat)) (i : Nat) : Bool :=
  match (((Sys.new 0).exec exCfg l).thread i).pc with
  | .done .success => true
  | _ => false

private theorem exSuccess_iff {l : List (Event Nat)} {i : Nat} (h : exSuccess l i = true) :
    (((Sys.new 0).exec exCfg l).thread i).pc = .done .success := by
  unfold exSuccess at h
  split at h
  · assumption
  · cases h

/-- The hypotheses of `C153_undisturbed_partial` and `C153_any_schedule_partial` are met by overlapping searches of two
planners with one heuristic: with the same goal both find the cheapest paths. -/
example : (((Sys.new 0).exec exCfg []).thread 0).pc.running = false ∧
    (∀ j b g', (.start j b g' : Event Nat) ∈ (exSched 3).tail → g' = 3) ∧
    exSuccess (exSched 3) 0 = true ∧ exCost (exSched 3) 0 = some 3 ∧
    exSuccess (exSched 3) 1 = true ∧ exCost (exSched 3) 1 = some 0 := by
  refine ⟨rfl, ?_, by decide +kernel, by decide +kernel, by decide +kernel, by decide +kernel⟩
  intro j b g' h
  simp [exSched] at h
  exact h.2.2

private theorem exReach {x : Nat} (h : Reachable (tr exCfg 0) 0 x) : x ∈ [0, 1, 2, 3, 9] := by
  obtain ⟨l, h⟩ := h
  induction h with
  | nil => simp
  | snoc _ h ih =>
    simp only [List.mem_cons, List.not_mem_nil, or_false] at ih
    rcases ih with rfl | rfl | rfl | rfl | rfl <;> simp [tr, exCfg, exNbrs] at h <;> simp <;> omega

/-- The hypotheses of `C153_calls_partial` and `C153_ends` are met. -/
example : (∀ x, Reachable (tr exCfg 0) 0 x → ∃ r ∈ [0, 1, 2, 3, 9], exCfg.eqS r x = true) ∧
    (∀ x, Reachable (tr exCfg 0) 0 x → (exCfg.nbrs 0 x).length ≤ 2) ∧
    [0, 1, 2, 3, 9].length * (2 + 2) < (exSched 9).tail.countP (Event.isStep 0) := by
  refine ⟨fun x h => ⟨x, exReach h, by simp [exCfg]⟩, fun x h => ?_, by decide +kernel⟩
  have := exReach h
  simp only [List.mem_cons, List.not_mem_nil, or_false] at this
  rcases this with rfl | rfl | rfl | rfl | rfl <;> simp [exCfg, exNbrs]

/-- C153, violation: two planners share one heuristic, which for every goal is consistent and zero at the goal. While
planner 0 searches a path from 0 to 3, planner 1 starts a search to 9. Planner 0 then returns a path of cost 11; alone it
returns one of cost 3. -/
theorem C153_disturbed :
    ∃ (cfg : Config Nat Nat Nat) (during : List (Event Nat)) (fuel : Nat) (s : Search Nat Nat Nat),
      KeyEquiv cfg.eqS ∧ cfg.graph = true ∧ (∀ g, cfg.heur (cfg.ref 0) g g = 0) ∧
      (∀ g u x c v, (v, x, c) ∈ cfg.nbrs 0 u → cfg.heur (cfg.ref 0) u g ≤ c + cfg.heur (cfg.ref 0) v g) ∧
      (∀ b g', .start 0 b g' ∉ during) ∧
      (((Sys.new 0).exec cfg (.start 0 0 3 :: during)).thread 0).pc = .done .success ∧
      getOptimalCost (((Sys.new 0).exec cfg (.start 0 0 3 :: during)).thread 0).search = some 11 ∧
      searchPath (APlanner.problem cfg.eqS (cfg.nbrs 0) (cfg.heur (cfg.ref 0)) 3 3) cfg.graph fuel 0 = some (.success, s) ∧
      getOptimalCost s = some 3 := by
  have h1 : ((searchPath (APlanner.problem exCfg.eqS exNbrs exDist 3 3) true 10 0).map fun r =>
      (r.1, getOptimalCost r.2)) = some (.success, some 3) := by decide +kernel
  obtain ⟨⟨st, s⟩, h2, h3⟩ := Option.map_eq_some_iff.mp h1
  simp only [Prod.mk.injEq] at h3
  obtain ⟨rfl, h3⟩ := h3
  refine ⟨exCfg, (exSched 9).tail, 10, s, exCfg_equiv, rfl, ?_, exDist_consistent, ?_,
    exSuccess_iff (l := exSched 9) (by decide +kernel), ?_, h2, h3⟩
  · intro g
    show exDist g g = 0
    unfold exDist
    split
    all_goals simp_all
  · intro b g' h
    simp [exSched] at h
  · show exCost (exSched 9) 0 = some 11
    decide +kernel

end PathPlanning.Shared
