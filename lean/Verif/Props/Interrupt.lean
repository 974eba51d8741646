import Verif.Model.Interrupt
import Verif.Props.AStar
import Verif.Props.SearchTree
import Verif.Props.BiPlanner

/-!
# C151: searches left by an exception of a propagator or a heuristic
-/

namespace PathPlanning
open Spec AStar

namespace AStar
variable {S A C : Type} [LinearOrder C] [Add C] [Zero C] {P : Problem S A C}

/-! ## An interrupted expansion is a complete one with fewer neighbours -/

/-- The expansion of `n` with the neighbours `ts`. -/
private def expandWith (P : Problem S A C) (graph : Bool) (s : Search S A C) (tree : List (ANode S A C)) (n : ANode S A C)
    (ts : List (S × A × C)) : Search S A C × List (ANode S A C) :=
  let explored := exploredInsert P s.explored n
  let r := ts.foldl (treeOne P graph n explored) (s.frontier, tree)
  ({ s with explored := explored, frontier := r.1, calls := n.state :: s.calls }, r.2)

private theorem childrenX_eq (graph : Bool) (n : ANode S A C) (ex : List (ANode S A C)) :
    ∀ (ts : List (S × A × C)) (k : Nat) (r : Frontier (ANode S A C) × List (ANode S A C)),
    childrenX P graph n ex k ts r = if ts.length ≤ k then (some (k - ts.length), ts.foldl (treeOne P graph n ex) r)
      else (none, (ts.take k).foldl (treeOne P graph n ex) r)
  | [], k, r => by simp [childrenX]
  | t :: ts, 0, r => by simp [childrenX]
  | t :: ts, k + 1, r => by
    rw [childrenX, childrenX_eq graph n ex ts k]
    simp

private theorem expandX_eq (graph : Bool) (k : Nat) (s : Search S A C) (tree : List (ANode S A C)) (n : ANode S A C) :
    expandX P graph k s tree n =
      if (P.nbrs s.calls.length n.state).length + 1 ≤ k then
        (some (k - ((P.nbrs s.calls.length n.state).length + 1)), treeExpand P graph s tree n)
      else (none, expandWith P graph s tree n ((P.nbrs s.calls.length n.state).take (k - 1))) := by
  cases k with
  | zero => simp [expandX, expandWith]
  | succ k =>
    simp only [expandX, childrenX_eq, Nat.add_sub_cancel, Nat.add_le_add_iff_right]
    split
    · rw [Nat.add_sub_add_right]; rfl
    · rfl

private theorem expandX_cut {graph : Bool} {k : Nat} {s s' : Search S A C} {tree tree' : List (ANode S A C)}
    {n : ANode S A C} (h : expandX P graph k s tree n = (none, s', tree')) :
    ∃ ts, (∀ t ∈ ts, t ∈ P.nbrs s.calls.length n.state) ∧ (s', tree') = expandWith P graph s tree n ts := by
  rw [expandX_eq] at h
  split at h
  · cases h
  · exact ⟨_, fun t ht => List.mem_of_mem_take ht, (congrArg Prod.snd h).symm⟩

private theorem expandX_all {graph : Bool} {k k' : Nat} {s s' : Search S A C} {tree tree' : List (ANode S A C)}
    {n : ANode S A C} (h : expandX P graph k s tree n = (some k', s', tree')) :
    (s', tree') = treeExpand P graph s tree n := by
  rw [expandX_eq] at h
  split at h
  · exact (congrArg Prod.snd h).symm
  · cases h

/-! ## What the search owns -/

/-- Every node that the search refers to is in memory: it is the root, or it has been attached below a node in memory. -/
structure InMemory (init : S) (s : Search S A C) (tree : List (ANode S A C)) : Prop where
  heap : ∀ n ∈ s.frontier.vec, n = rootNode init ∨ n ∈ tree
  index : ∀ n ∈ s.frontier.set, n = rootNode init ∨ n ∈ tree
  explored : ∀ n ∈ s.explored, n = rootNode init ∨ n ∈ tree
  solution : ∀ n, s.solution = some n → n = rootNode init ∨ n ∈ tree
  parents : ∀ n ∈ tree, ∃ p, n.parent = some p ∧ (p = rootNode init ∨ p ∈ tree)

private structure MInv (P : Problem S A C) (init : S) (s : Search S A C) (tree : List (ANode S A C)) : Prop where
  ok : FOk P s.frontier
  sol : s.solution = none
  heap : ∀ n ∈ s.frontier.vec, n = rootNode init ∨ n ∈ tree
  explored : ∀ n ∈ s.explored, n = rootNode init ∨ n ∈ tree
  parents : ∀ n ∈ tree, ∃ p, n.parent = some p ∧ (p = rootNode init ∨ p ∈ tree)

private theorem ok_set {f : Frontier (ANode S A C)} (ok : FOk P f) : ∀ n ∈ f.set, n ∈ f.vec := by
  obtain ⟨live, r⟩ := ok
  intro n hn
  exact r.vec_perm.mem_iff.2 (r.set_perm.mem_iff.1 hn)

private theorem MInv.inMemory {init : S} {s : Search S A C} {tree : List (ANode S A C)} (h : MInv P init s tree) :
    InMemory init s tree :=
  ⟨h.heap, fun n hn => h.heap n (ok_set h.ok n hn), h.explored, fun n hn => by (rw [h.sol] at hn; cases hn), h.parents⟩

private theorem minv_init (he : KeyEquiv P.eqS) (init : S) : MInv P init (initSearch P init) ([] : List (ANode S A C)) := by
  have hex : (initSearch P init).explored = [rootNode init] := by
    simp [initSearch, exploredInsert, exploredContains]
  refine ⟨(inv_init he true init).ok, rfl, (tinv_init he init).front, fun n hn => ?_, by simp⟩
  rw [hex] at hn
  exact .inl (List.mem_singleton.1 hn)

private theorem minv_expandWith (he : KeyEquiv P.eqS) {graph : Bool} {init : S} {s : Search S A C}
    {tree : List (ANode S A C)} (inv : MInv P init s tree) {f' : Frontier (ANode S A C)} {n : ANode S A C}
    (hp : s.frontier.pop (eqNode P) = some (f', n)) (ts : List (S × A × C)) :
    MInv P init (expandWith P graph { s with frontier := f' } tree n ts).1
      (expandWith P graph { s with frontier := f' } tree n ts).2 := by
  obtain ⟨ok', hn, -, hmem⟩ := inv.ok.pop cmpNode_swo (eqNode_equiv he) hp
  obtain ⟨ex, hex⟩ : ∃ ex, ex = exploredInsert P s.explored n := ⟨_, rfl⟩
  have hmono := treeAll_mono (P := P) graph n ex ts (f', tree)
  have hsub := treeAll_mem (P := P) graph n ex ts (f', tree)
  have hnew := treeAll_new he graph n ex ts (f', tree) ok'
  have hok : FOk P (ts.foldl (treeOne P graph n ex) (f', tree)).1 := by
    rw [treeAll_frontier]; exact ok_expandAll he graph n ex ts ok'
  unfold expandWith
  dsimp only
  rw [← hex]
  refine ⟨hok, inv.sol, fun y hy => ?_, fun y hy => ?_, fun x hx => ?_⟩
  · rcases hnew y hy with h | h
    · exact (inv.heap y ((hmem y).1 h).1).imp id (hmono y)
    · exact .inr h
  · have hy : y ∈ ex := hy
    rw [hex] at hy
    rcases mem_exploredInsert hy with rfl | hy
    · exact (inv.heap _ hn).imp id (hmono _)
    · exact (inv.explored y hy).imp id (hmono y)
  · rcases hsub x hx with h | ⟨t, ht, rfl⟩
    · obtain ⟨p, h1, h2⟩ := inv.parents x h
      exact ⟨p, h1, h2.imp id (hmono p)⟩
    · exact ⟨n, rfl, (inv.heap n hn).imp id (hmono n)⟩

private theorem minv_expand (he : KeyEquiv P.eqS) {graph : Bool} {init : S} {s : Search S A C}
    {tree : List (ANode S A C)} (inv : MInv P init s tree) {f' : Frontier (ANode S A C)} {n : ANode S A C}
    (hp : s.frontier.pop (eqNode P) = some (f', n)) :
    MInv P init (treeExpand P graph { s with frontier := f' } tree n).1
      (treeExpand P graph { s with frontier := f' } tree n).2 :=
  minv_expandWith he inv hp (P.nbrs s.calls.length n.state)

private theorem loopX_spec (he : KeyEquiv P.eqS) {graph : Bool} {init : S} :
    ∀ (fuel k : Nat) (s : Search S A C) (tree : List (ANode S A C)) (e : Ended) (s' : Search S A C)
      (tree' : List (ANode S A C)), MInv P init s tree → loopX P graph fuel k s tree = some (e, s', tree') →
      InMemory init s' tree' ∧ (e = .thrown → s'.solution = none)
  | 0, _, _, _, _, _, _, _, h => by cases h
  | fuel + 1, k, s, tree, e, s', tree', inv, h => by
    unfold loopX at h
    cases hp : s.frontier.pop (eqNode P) with
    | none =>
      rw [hp] at h
      cases h
      exact ⟨inv.inMemory, fun h => by cases h⟩
    | some r =>
      obtain ⟨f', n⟩ := r
      obtain ⟨ok', hn, -, hmem⟩ := inv.ok.pop cmpNode_swo (eqNode_equiv he) hp
      rw [hp] at h
      dsimp only at h
      cases hs : P.isSol n.state with
      | true =>
        rw [hs] at h
        cases h
        have h1 : ∀ y ∈ f'.vec, y = rootNode init ∨ y ∈ tree := fun y hy => inv.heap y ((hmem y).1 hy).1
        refine ⟨⟨h1, fun y hy => h1 y (ok_set ok' y hy), inv.explored, fun m hm => ?_, inv.parents⟩, fun h => by cases h⟩
        cases hm
        exact inv.heap n hn
      | false =>
        rw [hs] at h
        simp only [Bool.false_eq_true, if_false] at h
        rcases hx : expandX P graph k { s with frontier := f' } tree n with ⟨o, s1, t1⟩
        rw [hx] at h
        cases o with
        | none =>
          cases h
          obtain ⟨ts, -, hq⟩ := expandX_cut hx
          have := minv_expandWith (graph := graph) he inv hp ts
          rw [← hq] at this
          exact ⟨this.inMemory, fun _ => this.sol⟩
        | some k' =>
          have hq := expandX_all hx
          have := minv_expand (graph := graph) he inv hp
          rw [← hq] at this
          exact loopX_spec he fuel k' s1 t1 e s' tree' this h

private theorem loopX_returned {graph : Bool} : ∀ (fuel k : Nat) (s : Search S A C) (tree : List (ANode S A C))
    (st : Status) (s' : Search S A C) (tree' : List (ANode S A C)),
    loopX P graph fuel k s tree = some (.returned st, s', tree') → treeLoop P graph fuel s tree = some (st, s', tree')
  | 0, _, _, _, _, _, _, h => by cases h
  | fuel + 1, k, s, tree, st, s', tree', h => by
    unfold loopX at h
    unfold treeLoop
    cases hp : s.frontier.pop (eqNode P) with
    | none => rw [hp] at h; cases h; rfl
    | some r =>
      obtain ⟨f', n⟩ := r
      rw [hp] at h
      dsimp only at h ⊢
      split at h
      · rename_i hs; rw [if_pos hs]; cases h; rfl
      · rename_i hs
        rw [if_neg hs]
        rcases hx : expandX P graph k { s with frontier := f' } tree n with ⟨o, s1, t1⟩
        rw [hx] at h
        cases o with
        | none => cases h
        | some k' =>
          rw [← expandX_all hx]
          exact loopX_returned fuel k' s1 t1 st s' tree' h

private theorem loopX_enough {graph : Bool} : ∀ (fuel : Nat) (s : Search S A C) (tree : List (ANode S A C))
    (st : Status) (s' : Search S A C) (tree' : List (ANode S A C)),
    treeLoop P graph fuel s tree = some (st, s', tree') →
    ∃ K, ∀ k, (K ≤ k → loopX P graph fuel k s tree = some (.returned st, s', tree')) ∧
      (k < K → ∃ s1 t1, loopX P graph fuel k s tree = some (.thrown, s1, t1))
  | 0, _, _, _, _, _, h => by cases h
  | fuel + 1, s, tree, st, s', tree', h => by
    unfold treeLoop at h
    cases hp : s.frontier.pop (eqNode P) with
    | none =>
      rw [hp] at h
      cases h
      exact ⟨0, fun k => ⟨fun _ => by simp [loopX, hp], fun h => absurd h (Nat.not_lt_zero k)⟩⟩
    | some r =>
      obtain ⟨f', n⟩ := r
      rw [hp] at h
      dsimp only at h
      split at h
      · rename_i hs
        cases h
        exact ⟨0, fun k => ⟨fun _ => by simp [loopX, hp, hs], fun h => absurd h (Nat.not_lt_zero k)⟩⟩
      · rename_i hs
        obtain ⟨K, hK⟩ := loopX_enough fuel _ _ st s' tree' h
        obtain ⟨m, hm⟩ : ∃ m, m = (P.nbrs s.calls.length n.state).length + 1 := ⟨_, rfl⟩
        refine ⟨m + K, fun k => ?_⟩
        have hx := expandX_eq (P := P) graph k { s with frontier := f' } tree n
        rw [← hm] at hx
        by_cases hk : m ≤ k
        · rw [if_pos hk] at hx
          have hl : loopX P graph (fuel + 1) k s tree =
              loopX P graph fuel (k - m) (treeExpand P graph { s with frontier := f' } tree n).1
                (treeExpand P graph { s with frontier := f' } tree n).2 := by
            rw [loopX, hp]
            dsimp only
            rw [if_neg hs, hx]
          rw [hl]
          exact ⟨fun h => (hK (k - m)).1 (by omega), fun h => (hK (k - m)).2 (by omega)⟩
        · rw [if_neg hk] at hx
          have hl : loopX P graph (fuel + 1) k s tree =
              some (.thrown, expandWith P graph { s with frontier := f' } tree n
                ((P.nbrs s.calls.length n.state).take (k - 1))) := by
            rw [loopX, hp]
            dsimp only
            rw [if_neg hs, hx]
          exact ⟨fun h => by omega, fun _ => ⟨_, _, hl⟩⟩

end AStar

/-! ## A* -/

section
variable {S A C : Type} [LinearOrder C] [Add C] [Zero C] {P : Problem S A C}

/-- C151: of a search that would return after some number of calls of the propagator and of the heuristic, a run in which
all these calls return ends in the same way, and a run in which one of them throws ends with the exception. -/
theorem C151_thrown_iff_a_call_throws {graph : Bool} {fuel : Nat} {init : S} {st : Status} {s : Search S A C}
    (h : searchPath P graph fuel init = some (st, s)) :
    ∃ calls tree, ∀ k, (calls ≤ k → searchX P graph fuel k init = some (.returned st, s, tree)) ∧
      (k < calls → ∃ s' tree', searchX P graph fuel k init = some (.thrown, s', tree')) := by
  have ht := treeLoop_search (P := P) graph fuel (initSearch P init) []
  rw [show loop P graph fuel (initSearch P init) = _ from h] at ht
  obtain ⟨⟨st', s', tree⟩, h1, h2⟩ := Option.map_eq_some_iff.1 ht
  cases h2
  obtain ⟨K, hK⟩ := loopX_enough fuel _ _ _ _ _ h1
  refine ⟨K + 1, tree, fun k => ?_⟩
  cases k with
  | zero => exact ⟨fun h => by omega, fun _ => ⟨_, _, rfl⟩⟩
  | succ k => exact ⟨fun h => (hK k).1 (by omega), fun h => (hK k).2 (by omega)⟩

/-- C151: a search that returns although exceptions were possible has the result of one without exceptions. -/
theorem C151_returned {graph : Bool} {fuel k : Nat} {init : S} {st : Status} {s : Search S A C}
    {tree : List (ANode S A C)} (h : searchX P graph fuel k init = some (.returned st, s, tree)) :
    searchPath P graph fuel init = some (st, s) := by
  cases k with
  | zero => cases h
  | succ k =>
    have h1 := loopX_returned fuel k _ _ _ _ _ h
    have := treeLoop_search (P := P) graph fuel (initSearch P init) []
    rw [h1] at this
    exact this.symm

/-- C151: wherever the exception is raised, the getters report nothing: an empty path, no actions, an infinite cost. -/
theorem C151_thrown_reports_nothing (he : KeyEquiv P.eqS) {graph : Bool} {fuel k : Nat} {init : S} {s : Search S A C}
    {tree : List (ANode S A C)} (h : searchX P graph fuel k init = some (.thrown, s, tree)) :
    viewOf s = ⟨some [], some [], none⟩ := by
  have hsol : s.solution = none := by
    cases k with
    | zero => cases h; rfl
    | succ k => exact (loopX_spec he fuel k _ _ _ _ _ (minv_init he init) h).2 rfl
  simp [viewOf, getPath, getActions, getOptimalCost, hsol]

/-- C151: wherever the exception is raised, and if there is none, no node that the planner refers to has been freed. -/
theorem C151_nothing_dangling (he : KeyEquiv P.eqS) {graph : Bool} {fuel k : Nat} {init : S} {e : Ended}
    {s : Search S A C} {tree : List (ANode S A C)} (h : searchX P graph fuel k init = some (e, s, tree)) :
    InMemory init s tree := by
  cases k with
  | zero => cases h; exact (minv_init he init).inMemory
  | succ k => exact (loopX_spec he fuel k _ _ _ _ _ (minv_init he init) h).1

/-- The calls of a history other than the searches cut short. -/
def plainOps : List (APlanner.OpX S A C) → List (APlanner.Op S A C)
  | [] => []
  | .op o :: os => o :: plainOps os
  | .cut _ _ _ :: os => plainOps os

private theorem searchX_shape {eqS : S → S → Bool} {graph : Bool} {fuel k : Nat} {g : S} {p p' : APlanner S A C}
    {e : Ended} (h : p.searchPathX eqS graph fuel k g = some (e, p')) :
    (p.isInitialized = false ∧ e = .returned .failure ∧ p' = p) ∨
    (p.isInitialized = true ∧ ∃ N H hg s tree, p.propagator = some N ∧ p.heuristic = some H ∧
      AStar.searchX (APlanner.problem eqS N H p.goal p.goal) graph fuel k p.init = some (e, s, tree) ∧
      p' = { p with heurGoal := hg, search := s }) := by
  unfold APlanner.searchPathX at h
  split at h
  · rename_i hi
    split at h
    · rename_i N H h1 h2
      split at h
      · rename_i heq
        cases h
        exact .inr ⟨hi, N, H, _, _, _, h1, h2, heq, rfl⟩
      · cases h
    · cases h
  · rename_i hi
    cases h
    exact .inl ⟨by simpa using hi, rfl, rfl⟩

/-- Equal but for what a search writes. -/
private def SameInputs (p q : APlanner S A C) : Prop :=
  p.propagator = q.propagator ∧ p.heuristic = q.heuristic ∧ p.init = q.init ∧ p.goal = q.goal ∧
    p.isInitialized = q.isInitialized

/-- The inputs in force, as members of the planner. -/
private def XTracks (i : Inputs S A C) (p : APlanner S A C) : Prop :=
  p.isInitialized = i.ready ∧ p.init = i.init ∧ p.goal = i.goal ∧
    (i.model = none → p.propagator = none ∧ p.heuristic = none ∧ i.ready = false) ∧
    (∀ N H, i.model = some (N, H) → p.propagator = some N ∧ p.heuristic = some H)

private theorem XTracks.same {i : Inputs S A C} {p q : APlanner S A C} (t : XTracks i p) (h : SameInputs q p) :
    XTracks i q := by
  obtain ⟨h1, h2, h3, h4, h5⟩ := h
  unfold XTracks
  rw [h1, h2, h3, h4, h5]
  exact t

private theorem xtracks_call {eqS : S → S → Bool} {graph : Bool} {i : Inputs S A C}
    {p p' : APlanner S A C} (ht : XTracks i p) (o : APlanner.Op S A C)
    (h : p.call eqS graph o = some p') : XTracks (i.call o) p' := by
  obtain ⟨h1, h2, h3, h4, h5⟩ := ht
  cases o with
  | configure N H =>
    cases N with
    | none => cases H <;> (cases h; refine ⟨rfl, h2, h3, fun hm => ?_, h5⟩; exact ⟨(h4 hm).1, (h4 hm).2.1, rfl⟩)
    | some N =>
      cases H with
      | none => cases h; exact ⟨rfl, h2, h3, fun hm => ⟨(h4 hm).1, (h4 hm).2.1, rfl⟩, h5⟩
      | some H =>
        cases h
        refine ⟨rfl, h2, h3, by simp [Inputs.call], ?_⟩
        intro N' H' he
        simp only [Inputs.call, Option.some.injEq, Prod.mk.injEq] at he
        exact ⟨congrArg some he.1, congrArg some he.2⟩
  | setInit s => cases h; exact ⟨h1, rfl, h3, h4, h5⟩
  | setGoal s => cases h; exact ⟨h1, h2, rfl, h4, h5⟩
  | search fuel =>
    simp only [APlanner.call, APlanner.searchPath] at h
    split at h
    · split at h
      · split at h
        · cases h; exact ⟨h1, h2, h3, h4, h5⟩
        · cases h
      · cases h
    · cases h; exact ⟨h1, h2, h3, h4, h5⟩

private theorem xtracks_run {eqS : S → S → Bool} {graph : Bool} (ops : List (APlanner.OpX S A C)) :
    ∀ {i : Inputs S A C} {p p' : APlanner S A C}, XTracks i p →
    APlanner.runX eqS graph p ops = some p' → XTracks ((plainOps ops).foldl Inputs.call i) p' := by
  induction ops with
  | nil => intro i p p' ht h; cases h; exact ht
  | cons o os ih =>
    intro i p p' ht h
    cases o with
    | op o =>
      simp only [APlanner.runX] at h
      split at h
      · rename_i q hq; exact ih (xtracks_call ht o hq) h
      · cases h
    | cut fuel k g =>
      simp only [APlanner.runX] at h
      split at h
      · rename_i e q hq
        refine ih (XTracks.same ht ?_) h
        rcases searchX_shape hq with ⟨-, -, rfl⟩ | ⟨-, _, _, _, _, _, -, -, -, rfl⟩ <;> exact ⟨rfl, rfl, rfl, rfl, rfl⟩
      · cases h

/-- C151: a planner can be used again after an exception. After any history of calls, in which any number of searches were
left by an exception raised anywhere, `SearchPath` returns the status, path, actions and cost of a search on a newly built
planner with the inputs in force. -/
theorem C151_reusable (eqS : S → S → Bool) (graph : Bool) (s₀ : S)
    (ops : List (APlanner.OpX S A C)) (p : APlanner S A C)
    (hrun : APlanner.runX eqS graph (APlanner.new s₀) ops = some p)
    (hready : (Inputs.after s₀ (plainOps ops)).ready = true) (fuel : Nat) :
    ∃ N H, (Inputs.after s₀ (plainOps ops)).model = some (N, H) ∧
      ∀ fresh : APlanner S A C,
        fresh = ((((APlanner.new s₀).configure (some N) (some H)).1.setInit
          (Inputs.after s₀ (plainOps ops)).init).setGoal (Inputs.after s₀ (plainOps ops)).goal) →
        (p.searchPath eqS graph fuel).map (fun r => (r.1, r.2.view)) =
          (fresh.searchPath eqS graph fuel).map (fun r => (r.1, r.2.view)) := by
  have ht : XTracks (Inputs.after s₀ (plainOps ops)) p := xtracks_run ops
    ⟨rfl, rfl, rfl, fun _ => ⟨rfl, rfl, rfl⟩, by intro N H h; cases h⟩ hrun
  obtain ⟨h1, h2, h3, h4, h5⟩ := ht
  cases hm : (Inputs.after s₀ (plainOps ops)).model with
  | none => rw [(h4 hm).2.2] at hready; cases hready
  | some NH =>
    obtain ⟨N, H⟩ := NH
    refine ⟨N, H, rfl, ?_⟩
    rintro fresh rfl
    obtain ⟨h6, h7⟩ := h5 N H hm
    simp only [APlanner.searchPath, h1, hready, h6, h7, h2, h3, if_true, APlanner.configure,
      Option.isNone_some, Bool.or_self, Bool.false_eq_true, if_false, APlanner.setInit,
      APlanner.setGoal]

/-- C151: after a search of the planner that was left by an exception, the getters report nothing, and the inputs are
what they were. -/
theorem C151_planner_thrown (eqS : S → S → Bool) (he : KeyEquiv eqS) (graph : Bool) (fuel k : Nat) (g : S)
    (p p' : APlanner S A C) (h : p.searchPathX eqS graph fuel k g = some (.thrown, p')) :
    p'.view = ⟨some [], some [], none⟩ ∧ p'.propagator = p.propagator ∧ p'.heuristic = p.heuristic ∧
      p'.init = p.init ∧ p'.goal = p.goal ∧ p'.isInitialized = p.isInitialized := by
  rcases searchX_shape h with ⟨-, h, -⟩ | ⟨-, N, H, hg, s, tree, -, -, hs, rfl⟩
  · cases h
  · exact ⟨C151_thrown_reports_nothing (P := APlanner.problem _ _ _ _ _) he hs, rfl, rfl, rfl, rfl, rfl⟩

end

/-! ## Bidirectional A* -/

namespace Bi
variable {S A C : Type} [LinearOrder C] [Add C] [Zero C] {B : BiProblem S A C}

private theorem forwardX_some {graph : Bool} {k k' : Nat} {s s' : BiSearch S A C} {f' : Frontier (ANode S A C)}
    {n : ANode S A C} (h : forwardX B graph k s f' n = (some k', s')) : s' = forward B graph s f' n := by
  unfold forwardX at h
  split at h
  · cases h
  · rename_i e t hx
    have := congrArg Prod.fst (expandX_all hx)
    rw [treeExpand_search] at this
    have this : e = _ := this
    cases h
    unfold forward
    rw [← this]

private theorem forwardX_none {graph : Bool} {k : Nat} {s s' : BiSearch S A C} {f' : Frontier (ANode S A C)}
    {n : ANode S A C} (h : forwardX B graph k s f' n = (none, s')) :
    s'.f.solution = s.f.solution ∧ s'.r = s.r := by
  unfold forwardX at h
  split at h
  · rename_i e t hx
    obtain ⟨ts, -, hq⟩ := expandX_cut hx
    have : e = _ := congrArg Prod.fst hq
    cases h
    exact ⟨by rw [this]; rfl, rfl⟩
  · cases h

private theorem reverseX_eq (graph : Bool) (k : Nat) (s : BiSearch S A C) (r' : Frontier (ANode S A C))
    (n : ANode S A C) : reverseX B graph k s r' n =
      ((forwardX (swapP B) graph k (swapS s) r' n).1, swapS (forwardX (swapP B) graph k (swapS s) r' n).2) := by
  unfold reverseX forwardX
  rw [show (swapP B).fwd = B.rev from rfl, show (swapS s).f = s.r from rfl]
  rcases expandX B.rev graph k { s.r with frontier := r' } [] n with ⟨o, e, t⟩
  cases o <;> rfl

private theorem reverseX_some {graph : Bool} {k k' : Nat} {s s' : BiSearch S A C} {r' : Frontier (ANode S A C)}
    {n : ANode S A C} (h : reverseX B graph k s r' n = (some k', s')) : s' = reverse B graph s r' n := by
  rw [reverseX_eq] at h
  rcases hf : forwardX (swapP B) graph k (swapS s) r' n with ⟨o, s1⟩
  rw [hf] at h
  cases h
  rw [reverse_eq, ← forwardX_some hf]

private theorem reverseX_none {graph : Bool} {k : Nat} {s s' : BiSearch S A C} {r' : Frontier (ANode S A C)}
    {n : ANode S A C} (h : reverseX B graph k s r' n = (none, s')) :
    s'.r.solution = s.r.solution ∧ s'.f = s.f := by
  rw [reverseX_eq] at h
  rcases hf : forwardX (swapP B) graph k (swapS s) r' n with ⟨o, s1⟩
  rw [hf] at h
  cases h
  exact forwardX_none hf

/-- The two solution nodes. -/
private def Sols (s : BiSearch S A C) : Option (ANode S A C) × Option (ANode S A C) := (s.f.solution, s.r.solution)

private theorem loopX_spec {graph : Bool} (w : Wf B) {init goal : S} (off : C) :
    ∀ (fuel k : Nat) (s : BiSearch S A C) (e : Ended) (s' : BiSearch S A C), BInv B graph init goal s →
      loopX B graph off fuel k s = some (e, s') →
      (∃ s₀, BInv B graph init goal s₀ ∧ Sols s' = Sols s₀) ∧
      ∀ st, e = .returned st → loop B graph off fuel s = some (st, s')
  | 0, _, _, _, _, _, h => by cases h
  | fuel + 1, k, s, e, s', inv, h => by
    unfold loopX at h
    unfold loop
    cases hpf : s.f.frontier.pop (eqNode B.fwd) with
    | none =>
      rw [hpf] at h
      cases h
      exact ⟨⟨s, inv, rfl⟩, fun st h => by cases h; rfl⟩
    | some x =>
      obtain ⟨f', n⟩ := x
      rw [hpf] at h
      cases hpr : s.r.frontier.pop (eqNode B.rev) with
      | none =>
        rw [hpr] at h
        cases h
        exact ⟨⟨s, inv, rfl⟩, fun st h => by cases h; rfl⟩
      | some y =>
        obtain ⟨r', m⟩ := y
        rw [hpr] at h
        dsimp only at h ⊢
        rcases h1 : forwardX B graph k s f' n with ⟨o1, s1⟩
        rw [h1] at h
        cases o1 with
        | none =>
          cases h
          obtain ⟨i1, i2⟩ := forwardX_none h1
          exact ⟨⟨s, inv, by rw [Sols, Sols, i1, i2]⟩, fun st h => by cases h⟩
        | some k1 =>
          have e1 := forwardX_some h1
          have inv1 := binv_forward w inv hpf
          rw [← e1] at inv1
          have hpr' : s1.r.frontier.pop (eqNode B.rev) = some (r', m) := by
            rw [e1, forward_r_frontier]; exact hpr
          dsimp only at h
          rcases h2 : reverseX B graph k1 s1 r' m with ⟨o2, s2⟩
          rw [h2] at h
          cases o2 with
          | none =>
            cases h
            obtain ⟨i1, i2⟩ := reverseX_none h2
            exact ⟨⟨s1, inv1, by rw [Sols, Sols, i1, i2]⟩, fun st h => by cases h⟩
          | some k2 =>
            have e2 := reverseX_some h2
            have inv2 := binv_reverse w inv1 hpr'
            rw [← e2] at inv2
            rw [← e1, ← e2]
            dsimp only at h
            split at h
            · rename_i hf
              rw [if_pos hf]
              cases h
              exact ⟨⟨_, inv2, rfl⟩, fun st h => by cases h; rfl⟩
            · rename_i hf
              rw [if_neg hf]
              exact loopX_spec w off fuel k2 s2 e s' inv2 h

private theorem forwardX_calls (graph : Bool) (s : BiSearch S A C) (f' : Frontier (ANode S A C)) (n : ANode S A C) :
    ∃ m, ∀ k, (m ≤ k → forwardX B graph k s f' n = (some (k - m), forward B graph s f' n)) ∧
      (k < m → ∃ s', forwardX B graph k s f' n = (none, s')) := by
  refine ⟨(B.fwd.nbrs s.f.calls.length n.state).length + 1, fun k => ?_⟩
  have hx := expandX_eq (P := B.fwd) graph k { s.f with frontier := f' } [] n
  by_cases hk : (B.fwd.nbrs s.f.calls.length n.state).length + 1 ≤ k
  · refine ⟨fun _ => ?_, fun h => absurd hk (Nat.not_le.2 h)⟩
    rw [if_pos hk] at hx
    unfold forwardX forward
    rw [hx, ← treeExpand_search (P := B.fwd) graph _ []]
  · refine ⟨fun h => absurd h hk, fun _ => ?_⟩
    rw [if_neg hk] at hx
    unfold forwardX
    rw [hx]
    exact ⟨_, rfl⟩

private theorem reverseX_calls (graph : Bool) (s : BiSearch S A C) (r' : Frontier (ANode S A C)) (n : ANode S A C) :
    ∃ m, ∀ k, (m ≤ k → reverseX B graph k s r' n = (some (k - m), reverse B graph s r' n)) ∧
      (k < m → ∃ s', reverseX B graph k s r' n = (none, s')) := by
  obtain ⟨m, hm⟩ := forwardX_calls (B := swapP B) graph (swapS s) r' n
  refine ⟨m, fun k => ⟨fun h => ?_, fun h => ?_⟩⟩
  · rw [reverseX_eq, (hm k).1 h, reverse_eq]
  · obtain ⟨s', hs⟩ := (hm k).2 h
    rw [reverseX_eq, hs]
    exact ⟨_, rfl⟩

private theorem loopX_calls {graph : Bool} (off : C) : ∀ (fuel : Nat) (s : BiSearch S A C) (st : Status)
    (s' : BiSearch S A C), loop B graph off fuel s = some (st, s') →
    ∃ m, ∀ k, (m ≤ k → loopX B graph off fuel k s = some (.returned st, s')) ∧
      (k < m → ∃ s1, loopX B graph off fuel k s = some (.thrown, s1))
  | 0, _, _, _, h => by cases h
  | fuel + 1, s, st, s', h => by
    unfold loop at h
    cases hpf : s.f.frontier.pop (eqNode B.fwd) with
    | none =>
      rw [hpf] at h
      cases h
      exact ⟨0, fun k => ⟨fun _ => by rw [loopX, hpf], fun h => absurd h (Nat.not_lt_zero k)⟩⟩
    | some x =>
      obtain ⟨f', n⟩ := x
      rw [hpf] at h
      cases hpr : s.r.frontier.pop (eqNode B.rev) with
      | none =>
        rw [hpr] at h
        cases h
        exact ⟨0, fun k => ⟨fun _ => by rw [loopX, hpf, hpr], fun h => absurd h (Nat.not_lt_zero k)⟩⟩
      | some y =>
        obtain ⟨r', m⟩ := y
        rw [hpr] at h
        dsimp only at h
        obtain ⟨m1, h1⟩ := forwardX_calls (B := B) graph s f' n
        obtain ⟨m2, h2⟩ := reverseX_calls (B := B) graph (forward B graph s f' n) r' m
        have hlt : ∀ k, k < m1 + m2 → ∃ s1, loopX B graph off (fuel + 1) k s = some (.thrown, s1) := by
          intro k hk
          rw [loopX, hpf, hpr]
          dsimp only
          by_cases hk1 : m1 ≤ k
          · rw [(h1 k).1 hk1]
            obtain ⟨s1, hs1⟩ := (h2 (k - m1)).2 (by omega)
            dsimp only
            rw [hs1]
            exact ⟨_, rfl⟩
          · obtain ⟨s1, hs1⟩ := (h1 k).2 (by omega)
            rw [hs1]
            exact ⟨_, rfl⟩
        have hge : ∀ k, m1 + m2 ≤ k → loopX B graph off (fuel + 1) k s =
            if finished off (reverse B graph (forward B graph s f' n) r' m) then
              some (.returned .success, reverse B graph (forward B graph s f' n) r' m)
            else loopX B graph off fuel (k - m1 - m2) (reverse B graph (forward B graph s f' n) r' m) := by
          intro k hk
          rw [loopX, hpf, hpr]
          dsimp only
          rw [(h1 k).1 (by omega)]
          dsimp only
          rw [(h2 (k - m1)).1 (by omega)]
        split at h
        · rename_i hf
          cases h
          exact ⟨m1 + m2, fun k => ⟨fun hk => by rw [hge k hk, if_pos hf], hlt k⟩⟩
        · rename_i hf
          obtain ⟨m3, h3⟩ := loopX_calls off fuel _ st s' h
          refine ⟨m1 + m2 + m3, fun k => ⟨fun hk => ?_, fun hk => ?_⟩⟩
          · rw [hge k (by omega), if_neg hf]
            exact (h3 _).1 (by omega)
          · by_cases hk1 : m1 + m2 ≤ k
            · rw [hge k hk1, if_neg hf]
              exact (h3 _).2 (by omega)
            · exact hlt k (by omega)

end Bi

section
variable {S A K : Type} [LinearOrder K] [Add K] [Zero K] [Sub K] [Div K] [OfNat K 2]

/-- The calls of the heuristics before the loop: two to update averaged heuristics, two to set the goals, two for the
values at the goal. -/
def callsBefore (p : BiPlanner S A K) : Nat := if p.fAvg.isSome && p.rAvg.isSome then 6 else 4

private theorem before_length (eqS : S → S → Bool) (st : HeurStore S K) (p : BiPlanner S A K)
    (N Nr : S → List (S × A × K)) (H Hr : HRef) : (p.beforeLoop eqS st N Nr H Hr).length = callsBefore p := by
  unfold BiPlanner.beforeLoop callsBefore
  cases p.fAvg <;> cases p.rAvg <;> rfl

private theorem bi_shape {eqS : S → S → Bool} {graph : Bool} {fuel k : Nat} {st st' : HeurStore S K}
    {p p' : BiPlanner S A K} {e : Ended} (h : p.searchPathX eqS graph fuel k st = some (e, st', p')) :
    (p.isInitialized = false ∧ e = .returned .failure ∧ st' = st ∧ p' = p) ∨
    (p.isInitialized = true ∧ ∃ (N Nr : S → List (S × A × K)) (H Hr : HRef), p.fProp = some N ∧ p.rProp = some Nr ∧
      p.fHeur = some H ∧ p.rHeur = some Hr ∧
      ((e = .thrown ∧ (p.beforeLoop eqS st N Nr H Hr)[k]? = some (st', p')) ∨
       (callsBefore p ≤ k ∧ st' = ((p.updateAverages st).setGoal H p.goal).setGoal Hr p.init ∧
        p' = { p with search := p'.search } ∧
        Bi.loopX (BiPlanner.problem eqS st' N Nr H Hr) graph (Bi.costOffset (BiPlanner.problem eqS st' N Nr H Hr) p.goal) fuel
          (k - callsBefore p) (Bi.initSearch (BiPlanner.problem eqS st' N Nr H Hr) p.init p.goal) =
          some (e, p'.search)))) := by
  unfold BiPlanner.searchPathX at h
  split at h
  · rename_i hi
    split at h
    · rename_i N Nr H Hr h1 h2 h3 h4
      refine .inr ⟨hi, N, Nr, H, Hr, h1, h2, h3, h4, ?_⟩
      split at h
      · rename_i left hl
        cases h
        exact .inl ⟨rfl, hl⟩
      · rename_i hl
        dsimp only at h
        rw [before_length] at h
        split at h
        · rename_i heq
          cases h
          refine .inr ⟨?_, rfl, rfl, heq⟩
          rw [List.getElem?_eq_none_iff, before_length] at hl
          exact hl
        · cases h
    · cases h
  · rename_i hi
    cases h
    exact .inl ⟨by simpa using hi, rfl, rfl, rfl⟩

/-- C151: of a bidirectional search that would return after some number of calls of the propagators and of the heuristics,
a run in which all these calls return ends in the same way, and a run in which one of them throws ends with the exception. -/
theorem C151_bidirectional_thrown_iff_a_call_throws (eqS : S → S → Bool) (graph : Bool) (fuel : Nat)
    (st st' : HeurStore S K) (p p' : BiPlanner S A K) (status : Status) (hi : p.isInitialized = true)
    (h : p.searchPath eqS graph fuel st = some (status, st', p')) :
    ∃ calls, ∀ k, (calls ≤ k → p.searchPathX eqS graph fuel k st = some (.returned status, st', p')) ∧
      (k < calls → ∃ st1 p1, p.searchPathX eqS graph fuel k st = some (.thrown, st1, p1)) := by
  unfold BiPlanner.searchPath at h
  rw [if_pos hi] at h
  split at h
  · rename_i N Nr H Hr h1 h2 h3 h4
    dsimp only at h
    obtain ⟨st3, hst3⟩ : ∃ st3, st3 = ((p.updateAverages st).setGoal H p.goal).setGoal Hr p.init := ⟨_, rfl⟩
    rw [← hst3] at h
    have h : (match Bi.searchPath (BiPlanner.problem eqS st3 N Nr H Hr) graph fuel p.init p.goal with
      | some (status, s) => some (status, st3, { p with search := s })
      | none => none) = some (status, st', p') := h
    split at h
    · rename_i heq
      cases h
      obtain ⟨m, hm⟩ := Bi.loopX_calls _ fuel _ _ _ heq
      refine ⟨callsBefore p + m, fun k => ?_⟩
      unfold BiPlanner.searchPathX
      rw [if_pos hi, h1, h2, h3, h4]
      dsimp only
      rw [← hst3]
      by_cases hk : k < callsBefore p
      · have hk' := hk
        rw [← before_length eqS st p N Nr H Hr] at hk'
        rw [List.getElem?_eq_getElem hk']
        exact ⟨fun h => by omega, fun _ => ⟨_, _, rfl⟩⟩
      · have hk' := hk
        rw [← before_length eqS st p N Nr H Hr, Nat.not_lt] at hk'
        rw [List.getElem?_eq_none hk', before_length]
        dsimp only
        refine ⟨fun h => ?_, fun h => ?_⟩
        · rw [(hm _).1 (by omega), ← h1, ← h2, ← h3, ← h4]
        · obtain ⟨s1, hs1⟩ := (hm (k - callsBefore p)).2 (by omega)
          rw [hs1]
          exact ⟨_, _, rfl⟩
    · cases h
  · cases h

/-- C151: a bidirectional search that returns although exceptions were possible has the result of one without. -/
theorem C151_bidirectional_returned (eqS : S → S → Bool) (he : KeyEquiv eqS) (graph : Bool) (fuel k : Nat)
    (st st' : HeurStore S K) (p p' : BiPlanner S A K) (status : Status)
    (h : p.searchPathX eqS graph fuel k st = some (.returned status, st', p')) :
    p.searchPath eqS graph fuel st = some (status, st', p') := by
  unfold BiPlanner.searchPath
  rcases bi_shape h with ⟨hi, h1, h2, h3⟩ | ⟨hi, N, Nr, H, Hr, h1, h2, h3, h4, ⟨h5, -⟩ | ⟨-, hst, hp, hl⟩⟩
  · cases h1; rw [h2, h3, hi]; rfl
  · cases h5
  · have w : Bi.Wf (BiPlanner.problem eqS st' N Nr H Hr : BiProblem S A K) := ⟨he, rfl, fun _ => rfl, fun _ => rfl⟩
    have := (Bi.loopX_spec w _ fuel _ _ _ _ (Bi.binv_init w graph p.init p.goal) hl).2 status rfl
    rw [if_pos hi, h1, h2, h3, h4]
    dsimp only
    rw [← hst]
    unfold BiPlanner.problem at this
    unfold Bi.searchPath
    rw [this]
    dsimp only
    rw [hp, h1, h2, h3, h4]

/-- C151, partial: what the getters of a bidirectional planner report after an exception, by the call that raised it. In
the update of an averaged heuristic: what they reported before. In the first `SetGoal`: the reverse half of the former
path, and an infinite cost. In the second `SetGoal` or in the values at the goal: nothing. In the loop: nothing, or a
complete path of the new search with its cost, not necessarily the best one. Missing: the reverse half of the former path
is not a path of any search (`C151_half_a_path_left`). -/
theorem C151_bidirectional_thrown_partial (eqS : S → S → Bool) (he : KeyEquiv eqS) (graph : Bool) (fuel k : Nat)
    (st st' : HeurStore S K) (p p' : BiPlanner S A K)
    (h : p.searchPathX eqS graph fuel k st = some (.thrown, st', p')) :
    (k + 4 < callsBefore p ∧ biView p'.search = biView p.search) ∨
    (k + 4 = callsBefore p ∧ biView p'.search = ⟨(AStar.getPath p.search.r).map List.reverse, none⟩) ∨
    (callsBefore p < k + 4 ∧ (biView p'.search = ⟨some [], none⟩ ∨
      (callsBefore p ≤ k ∧ ∃ N Nr fsteps m rsteps m', p.fProp = some N ∧ p.rProp = some Nr ∧
        Route (Offers N) p.init fsteps m ∧ Route (Offers Nr) p.goal rsteps m' ∧ eqS m m' = true ∧
        biView p'.search = ⟨some (routeStates p.init fsteps ++ (routeStates p.goal rsteps).reverse),
          some (routeCost fsteps + routeCost rsteps)⟩))) := by
  have hnew : ∀ B : BiProblem S A K, biView (Bi.initSearch B p.init p.goal) = ⟨some [], none⟩ := fun B => rfl
  have hhalf : ∀ B : BiProblem S A K, biView ({ p.search with f := AStar.initSearch B.fwd p.init } : BiSearch S A K) =
      ⟨(AStar.getPath p.search.r).map List.reverse, none⟩ := by
    intro B
    unfold biView Bi.getPath Bi.getOptimalCost
    rw [show AStar.getPath (AStar.initSearch B.fwd p.init) = some [] from rfl,
      show AStar.getOptimalCost (AStar.initSearch B.fwd p.init) = none from rfl]
    dsimp only
    cases AStar.getPath p.search.r <;> rfl
  rcases bi_shape h with ⟨hi, h1, h2, h3⟩ | ⟨hi, N, Nr, H, Hr, h1, h2, h3, h4, ⟨-, hl⟩ | ⟨hk, hst, hp, hl⟩⟩
  · cases h1
  · have hlen : k < callsBefore p := by
      rw [← before_length eqS st p N Nr H Hr]
      exact (List.getElem?_eq_some_iff.1 hl).1
    unfold BiPlanner.beforeLoop at hl
    unfold callsBefore at hlen ⊢
    cases hf : p.fAvg with
    | none =>
      rw [hf] at hl hlen
      match k, hlen, hl with
      | 0, _, hl => cases hl; exact .inr (.inl ⟨rfl, hhalf _⟩)
      | 1, _, hl => cases hl; exact .inr (.inr ⟨by simp, .inl (hnew _)⟩)
      | 2, _, hl => cases hl; exact .inr (.inr ⟨by simp, .inl (hnew _)⟩)
      | 3, _, hl => cases hl; exact .inr (.inr ⟨by simp, .inl (hnew _)⟩)
    | some i =>
      rw [hf] at hl hlen
      cases hr : p.rAvg with
      | none =>
        rw [hr] at hl hlen
        match k, hlen, hl with
        | 0, _, hl => cases hl; exact .inr (.inl ⟨rfl, hhalf _⟩)
        | 1, _, hl => cases hl; exact .inr (.inr ⟨by simp, .inl (hnew _)⟩)
        | 2, _, hl => cases hl; exact .inr (.inr ⟨by simp, .inl (hnew _)⟩)
        | 3, _, hl => cases hl; exact .inr (.inr ⟨by simp, .inl (hnew _)⟩)
      | some j =>
        rw [hr] at hl hlen
        match k, hlen, hl with
        | 0, _, hl => cases hl; exact .inl ⟨by simp, rfl⟩
        | 1, _, hl => cases hl; exact .inl ⟨by simp, rfl⟩
        | 2, _, hl => cases hl; exact .inr (.inl ⟨rfl, hhalf _⟩)
        | 3, _, hl => cases hl; exact .inr (.inr ⟨by simp, .inl (hnew _)⟩)
        | 4, _, hl => cases hl; exact .inr (.inr ⟨by simp, .inl (hnew _)⟩)
        | 5, _, hl => cases hl; exact .inr (.inr ⟨by simp, .inl (hnew _)⟩)
  · refine .inr (.inr ⟨by omega, ?_⟩)
    have w : Bi.Wf (BiPlanner.problem eqS st' N Nr H Hr : BiProblem S A K) := ⟨he, rfl, fun _ => rfl, fun _ => rfl⟩
    obtain ⟨s₀, inv, hs⟩ := (Bi.loopX_spec w _ fuel _ _ _ _ (Bi.binv_init w graph p.init p.goal) hl).1
    have hs1 : p'.search.f.solution = s₀.f.solution := congrArg Prod.fst hs
    have hs2 : p'.search.r.solution = s₀.r.solution := congrArg Prod.snd hs
    rcases inv.meet with ⟨-, i1, i2⟩ | ⟨x, y, i1, i2, i3, i4, i5, -⟩
    · left
      rw [i1] at hs1; rw [i2] at hs2
      simp [biView, Bi.getPath, Bi.getOptimalCost, AStar.getPath, AStar.getOptimalCost, hs1, hs2]
    · right
      rw [i1] at hs1; rw [i2] at hs2
      obtain ⟨lx, hx1, hx2, hx3, _⟩ := i3.route
      obtain ⟨ly, hy1, hy2, hy3, _⟩ := i4.route
      have hoff : ∀ {P : Problem S A K} {M : S → List (S × A × K)}, P.nbrs = (fun _ => M) → ∀ {u v : S}
          {l : List (A × K × S)}, Route P.tr u l v → Route (Offers M) u l v := by
        intro P M hP u v l h
        induction h with
        | nil => exact .nil
        | snoc _ hs ih =>
          obtain ⟨k, hk⟩ := hs
          rw [hP] at hk
          exact .snoc ih hk
      refine ⟨hk, N, Nr, lx, _, ly, _, h1, h2, hoff rfl hx1, hoff rfl hy1, i5, ?_⟩
      have e1 : AStar.getPath p'.search.f = some (routeStates p.init lx) := by
        simp only [AStar.getPath, hs1]; rw [hx3]; simp
      have e2 : AStar.getPath p'.search.r = some (routeStates p.goal ly) := by
        simp only [AStar.getPath, hs2]; rw [hy3]; simp
      simp only [biView, Bi.getPath, e1, e2, Bi.getOptimalCost, AStar.getOptimalCost, hs1, hs2, Option.map_some, hx2, hy2]

/-- The references to averaged heuristics are those of the heuristics in use. -/
private def AvgOk (p : BiPlanner S A K) : Prop :=
  p.isInitialized = true → ∀ H Hr, p.fHeur = some H → p.rHeur = some Hr →
    p.fAvg = BiPlanner.averaged H ∧ p.rAvg = BiPlanner.averaged Hr

private theorem avgOk_call {eqS : S → S → Bool} {graph : Bool} {s s' : HeurStore S K × BiPlanner S A K}
    (t : AvgOk s.2) (o : BiPlanner.Op S A K) (h : BiPlanner.call eqS graph s o = some s') : AvgOk s'.2 := by
  cases o with
  | configure N Nr H Hr =>
    cases N <;> cases Nr <;> cases H <;> cases Hr <;> cases h <;>
      first
      | exact fun hi => absurd (show false = true from hi) (by decide)
      | (intro _ H Hr h1 h2
         cases h1; cases h2
         exact ⟨rfl, rfl⟩)
  | setInit x => cases h; exact t
  | setGoal x => cases h; exact t
  | search fuel =>
    simp only [BiPlanner.call, BiPlanner.searchPath, Option.map_eq_some_iff] at h
    obtain ⟨⟨status, st, p⟩, h, rfl⟩ := h
    split at h
    · split at h
      · split at h
        · cases h; exact t
        · cases h
      · cases h
    · cases h; exact t

private theorem avgOk_run {eqS : S → S → Bool} {graph : Bool} (ops : List (BiPlanner.Op S A K)) :
    ∀ {s s' : HeurStore S K × BiPlanner S A K}, AvgOk s.2 → BiPlanner.run eqS graph s ops = some s' → AvgOk s'.2 := by
  induction ops with
  | nil => intro s s' ht h; cases h; exact ht
  | cons o os ih =>
    intro s s' ht h
    simp only [BiPlanner.run] at h
    split at h
    · rename_i q hq; exact ih (avgOk_call ht o hq) h
    · cases h

omit [LinearOrder K] [Add K] [Zero K] [Sub K] in
private theorem update_update (st : HeurStore S K) (i j : Nat) (g h : S) :
    (((st.update i g).update j h).update i g).update j h = (st.update i g).update j h := by
  unfold HeurStore.update
  congr 1
  funext k
  by_cases hj : k = j
  · subst hj; by_cases hi : k = i <;> simp [hi]
  · by_cases hi : k = i
    · subst hi; simp [hj, Ne.symm hj]
    · simp [hj, hi]

omit [LinearOrder K] [Add K] [Zero K] [Sub K] in
private theorem update_again (st : HeurStore S K) (i : Nat) (g : S) : (st.update i g).update i g = st.update i g := by
  unfold HeurStore.update
  congr 1
  funext k
  by_cases hi : k = i
  · subst hi; simp
  · simp [hi]

omit [LinearOrder K] [Add K] [Zero K] [Sub K] [Div K] [OfNat K 2] in
private theorem setGoal_again (st : HeurStore S K) (H Hr : HRef) (g h : S) :
    (((st.setGoal H g).setGoal Hr h).setGoal H g).setGoal Hr h = (st.setGoal H g).setGoal Hr h := by
  cases H with
  | avg i => cases Hr with
    | avg j => rfl
    | plain j =>
      simp only [HeurStore.setGoal]
      congr 1
      funext k
      by_cases hj : k = j
      · subst hj; simp [HPart.setGoal]
      · simp [hj]
  | plain i => cases Hr with
    | avg j =>
      simp only [HeurStore.setGoal]
      congr 1
      funext k
      by_cases hj : k = i
      · subst hj; simp [HPart.setGoal]
      · simp [hj]
    | plain j =>
      simp only [HeurStore.setGoal]
      congr 1
      funext k
      by_cases hj : k = j
      · subst hj; by_cases hi : k = i <;> simp [hi, HPart.setGoal]
      · by_cases hi : k = i
        · subst hi; simp [hj, Ne.symm hj, HPart.setGoal]
        · simp [hj, hi]

omit [LinearOrder K] [Add K] [Zero K] [Sub K] [Div K] [OfNat K 2] in
private theorem setGoal_first (st : HeurStore S K) (H Hr : HRef) (g h : S) :
    ((st.setGoal H g).setGoal H g).setGoal Hr h = (st.setGoal H g).setGoal Hr h := by
  have : (st.setGoal H g).setGoal H g = st.setGoal H g := by
    cases H with
    | avg i => rfl
    | plain i =>
      simp only [HeurStore.setGoal]
      congr 1
      funext k
      by_cases hj : k = i
      · subst hj; simp [HPart.setGoal]
      · simp [hj]
  rw [this]

private theorem retry_one {eqS : S → S → Bool} {graph : Bool} {fuel k : Nat} {st st' : HeurStore S K}
    {p p' : BiPlanner S A K} {e : Ended} (ha : AvgOk p) (h : p.searchPathX eqS graph fuel k st = some (e, st', p')) :
    AvgOk p' ∧ ∀ fuel', p'.searchPath eqS graph fuel' st' = p.searchPath eqS graph fuel' st := by
  rcases bi_shape h with ⟨hi, h1, rfl, rfl⟩ | ⟨hi, N, Nr, H, Hr, h1, h2, h3, h4, hcase⟩
  · exact ⟨ha, fun _ => rfl⟩
  obtain ⟨ha1, ha2⟩ := ha hi H Hr h3 h4
  have hp : p' = { p with search := p'.search } := by
    rcases hcase with ⟨-, hl⟩ | ⟨-, -, hp, -⟩
    · have hm := List.mem_of_getElem? hl
      unfold BiPlanner.beforeLoop at hm
      rcases List.mem_append.1 hm with hm | hm
      · split at hm
        · simp only [List.mem_cons, Prod.mk.injEq, List.not_mem_nil, or_false] at hm
          rcases hm with ⟨-, rfl⟩ | ⟨-, rfl⟩ <;> rfl
        · cases hm
      · simp only [List.mem_cons, Prod.mk.injEq, List.not_mem_nil, or_false] at hm
        rcases hm with ⟨-, rfl⟩ | ⟨-, rfl⟩ | ⟨-, rfl⟩ | ⟨-, rfl⟩ <;> rfl
    · exact hp
  have hst : ((p.updateAverages st').setGoal H p.goal).setGoal Hr p.init =
      ((p.updateAverages st).setGoal H p.goal).setGoal Hr p.init := by
    have hu : (∃ i j, H = .avg i ∧ Hr = .avg j ∧ ∀ q : HeurStore S K, p.updateAverages q = (q.update i p.goal).update j p.init) ∨
        ((p.fAvg = none ∨ p.rAvg = none) ∧ ∀ q : HeurStore S K, p.updateAverages q = q) := by
      cases H with
      | plain i => exact .inr ⟨.inl ha1, fun q => by simp [BiPlanner.updateAverages, ha1, BiPlanner.averaged]⟩
      | avg i => cases Hr with
        | plain j => exact .inr ⟨.inr ha2, fun q => by simp [BiPlanner.updateAverages, ha1, ha2, BiPlanner.averaged]⟩
        | avg j => exact .inl ⟨i, j, rfl, rfl, fun q => by simp [BiPlanner.updateAverages, ha1, ha2, BiPlanner.averaged]⟩
    have hst' : st' = st ∨ (∃ i j, p.fAvg = some i ∧ p.rAvg = some j ∧ st' = st.update i p.goal) ∨ st' = p.updateAverages st ∨
        st' = (p.updateAverages st).setGoal H p.goal ∨
        st' = ((p.updateAverages st).setGoal H p.goal).setGoal Hr p.init := by
      rcases hcase with ⟨-, hl⟩ | ⟨-, hs, -, -⟩
      · have hm := List.mem_of_getElem? hl
        unfold BiPlanner.beforeLoop at hm
        rcases List.mem_append.1 hm with hm | hm
        · split at hm
          · rename_i i j hf hr
            simp only [List.mem_cons, Prod.mk.injEq, List.not_mem_nil, or_false] at hm
            rcases hm with ⟨h, -⟩ | ⟨h, -⟩
            · exact .inl h
            · exact .inr (.inl ⟨i, j, hf, hr, h⟩)
          · cases hm
        · simp only [List.mem_cons, Prod.mk.injEq, List.not_mem_nil, or_false] at hm
          rcases hm with ⟨h, -⟩ | ⟨h, -⟩ | ⟨h, -⟩ | ⟨h, -⟩
          · exact .inr (.inr (.inl h))
          · exact .inr (.inr (.inr (.inl h)))
          · exact .inr (.inr (.inr (.inr h)))
          · exact .inr (.inr (.inr (.inr h)))
      · exact .inr (.inr (.inr (.inr hs)))
    rcases hu with ⟨i, j, rfl, rfl, hu⟩ | ⟨hn, hu⟩
    · simp only [hu] at hst' ⊢
      simp only [HeurStore.setGoal] at hst' ⊢
      rcases hst' with h | ⟨i', j', hf, hr, h⟩ | h | h | h
      · rw [h]
      · rw [ha1] at hf
        cases hf
        rw [h, update_again]
      · rw [h, update_update]
      · rw [h, update_update]
      · rw [h, update_update]
    · simp only [hu] at hst' ⊢
      rcases hst' with h | ⟨i', j', hf, hr, h⟩ | h | h | h
      · rw [h]
      · rcases hn with hn | hn
        · rw [hn] at hf; cases hf
        · rw [hn] at hr; cases hr
      · rw [h]
      · rw [h, setGoal_first]
      · rw [h, setGoal_again]
  refine ⟨?_, fun fuel' => ?_⟩
  · rw [hp]; exact ha
  · have key : ∀ (q : BiPlanner S A K) (r : HeurStore S K), q.isInitialized = true → q.fProp = some N → q.rProp = some Nr →
        q.fHeur = some H → q.rHeur = some Hr → ∀ r', r' = ((q.updateAverages r).setGoal H q.goal).setGoal Hr q.init →
        q.searchPath eqS graph fuel' r =
          (Bi.searchPath (BiPlanner.problem eqS r' N Nr H Hr) graph fuel' q.init q.goal).map
            fun x => (x.1, r', { q with search := x.2 }) := by
      intro q r e1 e2 e3 e4 e5 r' hr'
      unfold BiPlanner.searchPath
      rw [if_pos e1, e2, e3, e4, e5]
      dsimp only
      rw [← hr']
      unfold BiPlanner.problem
      split
      · rename_i heq; rw [heq]; rfl
      · rename_i heq; rw [heq]; rfl
    rw [key p st hi h1 h2 h3 h4 _ rfl, hp, key { p with search := p'.search } st' hi h1 h2 h3 h4 _ hst.symm]

/-- C151: a bidirectional planner can be used again after exceptions. After any history of calls, searches left by an
exception raised anywhere, in any number, do not influence the next search: `SearchPath` returns the same status and
leaves the planner and the heuristics in the same state as if they had not been started. -/
theorem C151_bidirectional_retry (eqS : S → S → Bool) (graph : Bool) (st0 : HeurStore S K) (s₀ : S)
    (ops : List (BiPlanner.Op S A K)) (st st' : HeurStore S K) (p p' : BiPlanner S A K)
    (hrun : BiPlanner.run eqS graph (st0, .new s₀) ops = some (st, p)) (l : List (Nat × Nat))
    (hcuts : BiPlanner.cuts eqS graph (st, p) l = some (st', p')) (fuel : Nat) :
    p'.searchPath eqS graph fuel st' = p.searchPath eqS graph fuel st := by
  have ha : AvgOk p := avgOk_run ops (s := (st0, .new s₀)) (fun h => absurd (show false = true from h) (by decide)) hrun
  clear hrun
  induction l generalizing st p with
  | nil => cases hcuts; rfl
  | cons c l ih =>
    obtain ⟨fuel', k⟩ := c
    simp only [BiPlanner.cuts] at hcuts
    split at hcuts
    · rename_i e s1 hs
      obtain ⟨h1, h2⟩ := retry_one ha hs
      rw [ih _ _ hcuts h1, h2]
    · cases hcuts

end

/-! ## A path of no search -/

section Example

private def xN : Int → List (Int × Unit × Rat) := fun u => [(u + 1, (), 1), (u - 1, (), 1)]
private def xD : Int → Int → Rat := fun a b => |((a - b : Int) : Rat)|
private def xEq : Int → Int → Bool := fun a b => decide (a = b)
private def xSt : HeurStore Int Rat :=
  { plain := fun _ => ⟨xD, 0⟩, avg := fun k => if k = 0 then ⟨0, 1, 0⟩ else ⟨1, 0, 0⟩ }

/-- A search from 0 to 2, and then another one from 1 to 5 in which only `k` calls return. -/
private def xOps (H Hr : HRef) : List (BiPlanner.Op Int Unit Rat) :=
  [.configure (some xN) (some xN) (some H) (some Hr), .setGoal 2, .search 10, .setInit 1, .setGoal 5]

private def xGo (H Hr : HRef) (k : Nat) : Option (Ended × BiView Int Rat) :=
  (BiPlanner.run xEq true (xSt, .new 0) (xOps H Hr)).bind fun s =>
    (s.2.searchPathX xEq true 10 k s.1).map fun r => (r.1, biView r.2.2.search)

/-- C151, violation: an exception in the `SetGoal` of the forward heuristic leaves the reverse half of the former path as the
path of the planner: it starts neither at the former start nor at the new one. -/
theorem C151_half_a_path_left :
    xGo (.plain 0) (.plain 1) 0 = some (.thrown, ⟨some [1, 2], none⟩) := by
  decide +kernel

/-- The other cases of `C151_bidirectional_thrown_partial` occur: nothing, a complete path, the former path; with enough
calls the search returns. -/
example : xGo (.plain 0) (.plain 1) 1 = some (.thrown, ⟨some [], none⟩) ∧
    xGo (.plain 0) (.plain 1) 7 = some (.thrown, ⟨some [], none⟩) ∧
    xGo (.plain 0) (.plain 1) 22 = some (.thrown, ⟨some [1, 2, 3, 3, 4, 5], some 4⟩) ∧
    xGo (.plain 0) (.plain 1) 28 = some (.returned .success, ⟨some [1, 2, 3, 3, 4, 5], some 4⟩) ∧
    xGo (.avg 0) (.avg 1) 1 = some (.thrown, ⟨some [0, 1, 1, 2], some 2⟩) ∧
    xGo (.avg 0) (.avg 1) 2 = some (.thrown, ⟨some [1, 2], none⟩) := by
  decide +kernel

/-- The hypotheses of `C151_bidirectional_retry` are met by a history with three searches cut short in different places. -/
example : ((BiPlanner.run xEq true (xSt, .new 0) (xOps (.plain 0) (.plain 1))).bind fun s =>
      BiPlanner.cuts xEq true s [(10, 0), (10, 22), (10, 2)]).isSome = true ∧
    (∀ a b c, xEq a a = true ∧ (xEq a b = true → xEq b a = true) ∧ (xEq a b = true → xEq b c = true → xEq a c = true)) := by
  refine ⟨by decide +kernel, fun a b c => ?_⟩
  simp only [xEq, decide_eq_true_eq]
  exact ⟨trivial, fun h => h.symm, fun h1 h2 => h1.trans h2⟩

private def xP : Problem Int Unit Rat := APlanner.problem xEq xN xD 2 2

/-- A search of A* in which the seventh call and the later ones throw is left by the exception, with one expanded state, one
state half expanded, and two nodes in the frontier; with seven calls it succeeds. -/
example : ((searchX xP true 10 6 0).map fun r => (r.1, r.2.1.frontier.vec.map ANode.state, r.2.1.calls, r.2.2.map ANode.state)) =
      some (.thrown, [-1, 2], [1, 0], [1, -1, 2]) ∧
    ((searchX xP true 10 7 0).map fun r => (r.1, getPath r.2.1)) = some (.returned .success, some [0, 1, 2]) ∧
    ((searchPath xP true 10 0).map fun r => (r.1, getPath r.2)) = some (.success, some [0, 1, 2]) := by
  decide +kernel

/-- A history for `C151_reusable`: a search, a search cut short in an expansion, another goal, a search cut short by the
heuristic that does not take the goal. -/
private def xHist : List (APlanner.OpX Int Unit Rat) :=
  [.op (.configure (some xN) (some xD)), .op (.setGoal 2), .op (.search 10), .cut 10 3 0, .op (.setGoal 3), .cut 10 0 7]

example : (APlanner.runX xEq true (APlanner.new 0) xHist).map (fun p => (p.view, p.heurGoal)) =
      some (⟨some [], some [], none⟩, 7) ∧
    (Inputs.after 0 (plainOps xHist)).ready = true ∧
    ((APlanner.runX xEq true (APlanner.new 0) xHist).bind fun p =>
      (p.searchPath xEq true 10).map fun r => (r.1, r.2.view.path)) = some (.success, some [0, 1, 2, 3]) := by
  decide +kernel

end Example
end PathPlanning
