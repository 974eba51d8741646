import Verif.Model.AStar
import Verif.Model.Bidirectional
import Verif.Model.FloatAStar
import Mathlib.Algebra.Order.Field.Basic

/-!
# C173: neither the unit of the costs nor the names of states and actions matter to the searches
-/

set_option linter.unusedSectionVars false

namespace PathPlanning

/-- Specification: `P'` is the problem `P` in other words. The states, the actions and the costs of `P` are written as the
states, the actions and the costs of `P'` by `σ`, `α` and `φ`. Two states are equal in one problem exactly if they are in the
other one, and the propagator, the heuristic, the test of the goal and the guard of the replacements give the same answers. -/
structure Spec.SameProblem {S A C S' A' D : Type} (σ : S → S') (α : A → A') (φ : C → D) (P : Problem S A C)
    (P' : Problem S' A' D) : Prop where
  eqS : ∀ s t, P'.eqS (σ s) (σ t) = P.eqS s t
  nbrs : ∀ k s, P'.nbrs k (σ s) = (P.nbrs k s).map fun t => (σ t.1, α t.2.1, φ t.2.2)
  h : ∀ s, P'.h (σ s) = φ (P.h s)
  isSol : ∀ s, P'.isSol (σ s) = P.isSol s
  mayReplace : ∀ s t, P'.mayReplace (σ s) (σ t) = P.mayReplace s t

/-- Specification: `φ` is a change of the unit of costs: it respects the order, the sums and zero. -/
structure Spec.ChangeOfUnit {C D : Type} [LinearOrder C] [Add C] [Zero C] [LinearOrder D] [Add D] [Zero D] (φ : C → D) :
    Prop where
  lt : ∀ a b, φ a < φ b ↔ a < b
  add : ∀ a b, φ (a + b) = φ a + φ b
  zero : φ 0 = 0

open Spec

namespace Frontier
variable {T U : Type}

private def mapF (f : T → U) (q : Frontier T) : Frontier U := ⟨q.vec.map f, q.set.map f⟩

variable {f : T → U} {cmp eqv : T → T → Bool} {cmp' eqv' : U → U → Bool}

private theorem ffLoop_map (hc : ∀ a b, cmp' (f a) (f b) = cmp a b) (v : List T) (x : T) (b e mid : Nat) :
    ffLoop cmp' (v.map f) (f x) b e mid = ffLoop cmp v x b e mid := by
  induction hn : e - b using Nat.strong_induction_on generalizing b e mid with
  | _ n ih =>
    unfold ffLoop
    simp only [List.getElem?_map]
    split
    · next hbe =>
      rcases hv : v[b + (e - b) / 2]? with _ | y
      · simp
      · simp only [Option.map_some, hc]
        split
        · exact ih _ (by omega) _ _ _ rfl
        · rcases hv : v[b + (e - b) / 2 + 1]? with _ | z
          · simp
          · simp only [Option.map_some, hc]
            split
            · exact ih _ (by omega) _ _ _ rfl
            · rfl
    · rfl

private theorem flLoop_map (hc : ∀ a b, cmp' (f a) (f b) = cmp a b) (v : List T) (x : T) (b e mid : Nat) :
    flLoop cmp' (v.map f) (f x) b e mid = flLoop cmp v x b e mid := by
  induction hn : e - b using Nat.strong_induction_on generalizing b e mid with
  | _ n ih =>
    unfold flLoop
    simp only [List.getElem?_map]
    split
    · next hbe =>
      rcases hv : v[b + (e - b) / 2]? with _ | y
      · simp
      · simp only [Option.map_some, hc]
        split
        · exact ih _ (by omega) _ _ _ rfl
        · rcases hv : v[b + (e - b) / 2 + 1]? with _ | z
          · simp
          · simp only [Option.map_some, hc]
            split
            · exact ih _ (by omega) _ _ _ rfl
            · rfl
    · rfl

private theorem find?_mapF (he : ∀ a b, eqv' (f a) (f b) = eqv a b) (l : List T) (x : T) :
    (l.map f).find? (fun y => eqv' y (f x)) = (l.find? (fun y => eqv y x)).map f := by
  rw [List.find?_map]
  congr 2
  funext y
  exact he y x

private theorem eraseP_mapF (he : ∀ a b, eqv' (f a) (f b) = eqv a b) (l : List T) (x : T) :
    (l.map f).eraseP (fun y => eqv' y (f x)) = (l.eraseP (fun y => eqv y x)).map f := by
  rw [List.eraseP_map]
  congr 2
  funext y
  exact he y x

private theorem find_map (he : ∀ a b, eqv' (f a) (f b) = eqv a b) (q : Frontier T) (x : T) :
    (mapF f q).find eqv' (f x) = (q.find eqv x).map f := find?_mapF he _ _

private theorem push_map (hc : ∀ a b, cmp' (f a) (f b) = cmp a b) (he : ∀ a b, eqv' (f a) (f b) = eqv a b)
    (q : Frontier T) (x : T) :
    ((mapF f q).push cmp' eqv' (f x)).1 = mapF f (q.push cmp eqv x).1 := by
  unfold push
  rw [show (mapF f q).set = q.set.map f from rfl, find?_mapF he]
  rcases q.set.find? (fun y => eqv y x) with _ | y
  · simp only [Option.map_none]
    unfold findFirstCompareIsFalse
    rw [show (mapF f q).vec = q.vec.map f from rfl, ffLoop_map hc, List.length_map]
    simp [mapF]
  · rfl

private theorem remove_map (hc : ∀ a b, cmp' (f a) (f b) = cmp a b) (he : ∀ a b, eqv' (f a) (f b) = eqv a b)
    (q : Frontier T) (x : T) :
    ((mapF f q).remove cmp' eqv' (f x)).1 = mapF f (q.remove cmp eqv x).1 := by
  unfold remove
  rw [show (mapF f q).set = q.set.map f from rfl, find?_mapF he]
  rcases q.set.find? (fun y => eqv y x) with _ | y
  · rfl
  · simp only [Option.map_some]
    unfold findLastCompareIsTrue eraseFrom
    rw [show (mapF f q).vec = q.vec.map f from rfl, flLoop_map hc, List.length_map, ← List.map_drop, eraseP_mapF he,
      eraseP_mapF he]
    simp [mapF]

private theorem pop_map (he : ∀ a b, eqv' (f a) (f b) = eqv a b) (q : Frontier T) :
    (mapF f q).pop eqv' = (q.pop eqv).map fun r => (mapF f r.1, f r.2) := by
  unfold pop
  rw [show (mapF f q).vec = q.vec.map f from rfl, List.getLast?_map]
  rcases q.vec.getLast? with _ | x
  · rfl
  · simp only [Option.map_some]
    rw [show (mapF f q).set = q.set.map f from rfl, eraseP_mapF he, ← List.map_dropLast]
    rfl

end Frontier

section
variable {S A C S' A' D : Type} (σ : S → S') (α : A → A') (φ : C → D)

private def ANode.mapN : ANode S A C → ANode S' A' D
  | .root s p t => .root (σ s) (φ p) (φ t)
  | .child q s a p t => .child (ANode.mapN q) (σ s) (α a) (φ p) (φ t)

private def Search.mapS (s : Search S A C) : Search S' A' D where
  frontier := Frontier.mapF (ANode.mapN σ α φ) s.frontier
  explored := s.explored.map (ANode.mapN σ α φ)
  solution := s.solution.map (ANode.mapN σ α φ)
  calls := s.calls.map σ

end

section
variable {S A C S' A' D : Type} {σ : S → S'} {α : A → A'} {φ : C → D}

@[simp] private theorem mapN_state (n : ANode S A C) : (n.mapN σ α φ).state = σ n.state := by cases n <;> rfl
@[simp] private theorem mapN_pathCost (n : ANode S A C) : (n.mapN σ α φ).pathCost = φ n.pathCost := by cases n <;> rfl
@[simp] private theorem mapN_totalCost (n : ANode S A C) : (n.mapN σ α φ).totalCost = φ n.totalCost := by cases n <;> rfl
@[simp] private theorem mapN_parent (n : ANode S A C) : (n.mapN σ α φ).parent = n.parent.map (ANode.mapN σ α φ) := by
  cases n <;> rfl
@[simp] private theorem mapN_action (n : ANode S A C) : (n.mapN σ α φ).action = n.action.map α := by cases n <;> rfl
@[simp] private theorem mapN_depth (n : ANode S A C) : (n.mapN σ α φ).depth = n.depth := by
  induction n with
  | root => rfl
  | child p s a c t ih => simp only [ANode.mapN, ANode.depth, ih]

end

namespace AStar
variable {S A C S' A' D : Type} [LinearOrder C] [Add C] [Zero C] [LinearOrder D] [Add D] [Zero D] {σ : S → S'} {α : A → A'}
  {φ : C → D} {P : Problem S A C} {P' : Problem S' A' D}

private theorem cmpNode_map (hφ : ChangeOfUnit φ) (a b : ANode S A C) :
    cmpNode (a.mapN σ α φ) (b.mapN σ α φ) = cmpNode a b := by
  simp [cmpNode, hφ.lt]

private theorem eqNode_map (hP : SameProblem σ α φ P P') (a b : ANode S A C) :
    eqNode P' (a.mapN σ α φ) (b.mapN σ α φ) = eqNode P a b := by
  simp [eqNode, hP.eqS]

private theorem contains_map (hP : SameProblem σ α φ P P') (e : List (ANode S A C)) (s : S) :
    exploredContains P' (e.map (ANode.mapN σ α φ)) (σ s) = exploredContains P e s := by
  simp [exploredContains, List.any_map, Function.comp_def, hP.eqS]

private theorem insert_map (hP : SameProblem σ α φ P P') (e : List (ANode S A C)) (n : ANode S A C) :
    exploredInsert P' (e.map (ANode.mapN σ α φ)) (n.mapN σ α φ) = (exploredInsert P e n).map (ANode.mapN σ α φ) := by
  unfold exploredInsert
  rw [mapN_state, contains_map hP]
  split <;> rfl

private theorem push_map' (hφ : ChangeOfUnit φ) (hP : SameProblem σ α φ P P') (q : Frontier (ANode S A C))
    (n : ANode S A C) :
    ((Frontier.mapF (ANode.mapN σ α φ) q).push cmpNode (eqNode P') (n.mapN σ α φ)).1 =
      Frontier.mapF (ANode.mapN σ α φ) (q.push cmpNode (eqNode P) n).1 :=
  Frontier.push_map (cmpNode_map hφ) (eqNode_map hP) q n

private theorem child_map (hφ : ChangeOfUnit φ) (hP : SameProblem σ α φ P P') (n : ANode S A C) (t : S × A × C) :
    childNode P' (n.mapN σ α φ) (σ t.1, α t.2.1, φ t.2.2) = (childNode P n t).mapN σ α φ := by
  simp [childNode, ANode.mapN, hφ.add, hP.h]

private theorem one_map (hφ : ChangeOfUnit φ) (hP : SameProblem σ α φ P P') (graph : Bool) (n : ANode S A C)
    (e : List (ANode S A C)) (q : Frontier (ANode S A C)) (t : S × A × C) :
    expandOne P' graph (n.mapN σ α φ) (e.map (ANode.mapN σ α φ)) (Frontier.mapF (ANode.mapN σ α φ) q)
        (σ t.1, α t.2.1, φ t.2.2) =
      Frontier.mapF (ANode.mapN σ α φ) (expandOne P graph n e q t) := by
  unfold expandOne
  simp only [child_map hφ hP]
  split
  · rw [Frontier.find_map (eqNode_map hP)]
    rcases q.find (eqNode P) (childNode P n t) with _ | fn
    · simp only [Option.map_none, mapN_state, contains_map hP, push_map' hφ hP]
      split <;> rfl
    · simp only [Option.map_some]
      unfold processShortcut
      simp only [mapN_state, mapN_totalCost, hP.mayReplace, gt_iff_lt, hφ.lt]
      split
      · rw [Frontier.remove_map (cmpNode_map hφ) (eqNode_map hP), push_map' hφ hP]
      · rfl
  · rw [push_map' hφ hP]

private theorem expand_map (hφ : ChangeOfUnit φ) (hP : SameProblem σ α φ P P') (graph : Bool) (s : Search S A C)
    (n : ANode S A C) : expand P' graph (s.mapS σ α φ) (n.mapN σ α φ) = (expand P graph s n).mapS σ α φ := by
  have hf : ∀ (e : List (ANode S A C)) (l : List (S × A × C)) (q : Frontier (ANode S A C)),
      (l.map fun t => (σ t.1, α t.2.1, φ t.2.2)).foldl
        (expandOne P' graph (n.mapN σ α φ) (e.map (ANode.mapN σ α φ))) (Frontier.mapF (ANode.mapN σ α φ) q) =
      Frontier.mapF (ANode.mapN σ α φ) (l.foldl (expandOne P graph n e) q) := by
    intro e l
    induction l with
    | nil => exact fun q => rfl
    | cons t l ih =>
      intro q
      rw [List.map_cons, List.foldl_cons, one_map hφ hP, ih, List.foldl_cons]
  unfold expand
  simp only [Search.mapS, mapN_state, insert_map hP, List.length_map, hP.nbrs, hf, List.map_cons]

private theorem init_map (hφ : ChangeOfUnit φ) (hP : SameProblem σ α φ P P') (init : S) :
    initSearch P' (σ init) = (initSearch P init).mapS σ α φ := by
  have hr : (rootNode (σ init) : ANode S' A' D) = (rootNode init : ANode S A C).mapN σ α φ := by
    simp [rootNode, ANode.mapN, hφ.zero]
  unfold initSearch
  rw [hr, show (Frontier.empty : Frontier (ANode S' A' D)) = Frontier.mapF (ANode.mapN σ α φ) Frontier.empty from rfl,
    push_map' hφ hP, show ([] : List (ANode S' A' D)) = ([] : List (ANode S A C)).map (ANode.mapN σ α φ) from rfl,
    insert_map hP]
  rfl

private theorem loop_map (hφ : ChangeOfUnit φ) (hP : SameProblem σ α φ P P') (graph : Bool) (fuel : Nat)
    (s : Search S A C) :
    loop P' graph fuel (s.mapS σ α φ) = (loop P graph fuel s).map fun r => (r.1, r.2.mapS σ α φ) := by
  induction fuel generalizing s with
  | zero => rfl
  | succ fuel ih =>
    unfold loop
    rw [show (s.mapS σ α φ).frontier = Frontier.mapF (ANode.mapN σ α φ) s.frontier from rfl,
      Frontier.pop_map (eqNode_map hP)]
    rcases s.frontier.pop (eqNode P) with _ | ⟨f', n⟩
    · rfl
    · simp only [Option.map_some, mapN_state, hP.isSol]
      split
      · rfl
      · rw [← ih, ← expand_map hφ hP]
        rfl

private theorem fillStates_map (k : Nat) (n : Option (ANode S A C)) (acc : List S) :
    fillStates k (n.map (ANode.mapN σ α φ)) (acc.map σ) = (fillStates k n acc).map (List.map σ) := by
  induction k generalizing n acc with
  | zero => cases n <;> rfl
  | succ k ih =>
    rcases n with _ | n
    · rfl
    · simp only [Option.map_some, fillStates, mapN_parent, mapN_state]
      rw [← ih]; rfl

private theorem fillActions_map (k : Nat) (n : Option (ANode S A C)) (acc : List (Option A)) :
    fillActions k (n.map (ANode.mapN σ α φ)) (acc.map (Option.map α)) =
      (fillActions k n acc).map (List.map (Option.map α)) := by
  induction k generalizing n acc with
  | zero => cases n <;> rfl
  | succ k ih =>
    rcases n with _ | n
    · rfl
    · simp only [Option.map_some, fillActions, mapN_parent, mapN_action]
      rw [← ih]; rfl

private theorem getPath_map (s : Search S A C) : getPath (s.mapS σ α φ) = (getPath s).map (List.map σ) := by
  unfold getPath
  rw [show (s.mapS σ α φ).solution = s.solution.map (ANode.mapN σ α φ) from rfl]
  rcases s.solution with _ | n
  · rfl
  · simp only [Option.map_some, mapN_depth]
    exact fillStates_map (n.depth + 1) (some n) []

private theorem getActions_map (s : Search S A C) :
    getActions (s.mapS σ α φ) = (getActions s).map (List.map (Option.map α)) := by
  unfold getActions
  rw [show (s.mapS σ α φ).solution = s.solution.map (ANode.mapN σ α φ) from rfl]
  rcases s.solution with _ | n
  · rfl
  · simp only [Option.map_some, mapN_depth]
    exact fillActions_map n.depth (some n) []

private theorem getOptimalCost_map (s : Search S A C) : getOptimalCost (s.mapS σ α φ) = (getOptimalCost s).map φ := by
  unfold getOptimalCost
  rw [show (s.mapS σ α φ).solution = s.solution.map (ANode.mapN σ α φ) from rfl]
  rcases s.solution with _ | n <;> simp

/-- C173, A*. Write a problem in other words: other names of the states and of the actions, and another unit of the costs.
The search then stops if and only if it did before, after as many iterations. It returns the same status, the same path, the
same actions and the same cost in the new words, and the propagator is asked for the same states in the same order. This holds
for the tree search and the graph search, and for propagators that are randomised. -/
theorem C173_a_star (hφ : ChangeOfUnit φ) (hP : SameProblem σ α φ P P') (graph : Bool) (fuel : Nat) (init : S) :
    (searchPath P graph fuel init = none → searchPath P' graph fuel (σ init) = none) ∧
    ∀ st s, searchPath P graph fuel init = some (st, s) →
      ∃ s', searchPath P' graph fuel (σ init) = some (st, s') ∧ getPath s' = (getPath s).map (List.map σ) ∧
        getActions s' = (getActions s).map (List.map (Option.map α)) ∧
        getOptimalCost s' = (getOptimalCost s).map φ ∧ s'.calls = s.calls.map σ := by
  have h : searchPath P' graph fuel (σ init) = (searchPath P graph fuel init).map fun r => (r.1, r.2.mapS σ α φ) := by
    unfold searchPath
    rw [init_map hφ hP, loop_map hφ hP]
  refine ⟨fun h0 => by rw [h, h0]; rfl, fun st s h1 => ⟨s.mapS σ α φ, by rw [h, h1]; rfl, getPath_map s, getActions_map s,
    getOptimalCost_map s, rfl⟩⟩

end AStar

namespace Bi
open AStar
variable {S A C S' A' D : Type} [LinearOrder C] [Add C] [Zero C] [LinearOrder D] [Add D] [Zero D] {σ : S → S'} {α : A → A'}
  {φ : C → D}

private def mapB (σ : S → S') (α : A → A') (φ : C → D) (s : BiSearch S A C) : BiSearch S' A' D where
  f := s.f.mapS σ α φ
  r := s.r.mapS σ α φ
  best := s.best.map φ

private theorem find_map {P : Problem S A C} {P' : Problem S' A' D} (hP : SameProblem σ α φ P P') (e : List (ANode S A C))
    (s : S) : exploredFind P' (e.map (ANode.mapN σ α φ)) (σ s) = (exploredFind P e s).map (ANode.mapN σ α φ) := by
  unfold exploredFind
  rw [List.find?_map]
  congr 2
  funext n
  simp [hP.eqS]

private theorem meet_map (hφ : ChangeOfUnit φ) {P : Problem S A C} {P' : Problem S' A' D} (hP : SameProblem σ α φ P P')
    (n : ANode S A C) (a b : Search S A C) (best : Option C) :
    findIntersection P' (n.mapN σ α φ) (a.mapS σ α φ) (b.mapS σ α φ) (best.map φ) =
      ((findIntersection P n a b best).1.mapS σ α φ, (findIntersection P n a b best).2.1.mapS σ α φ,
        (findIntersection P n a b best).2.2.map φ) := by
  unfold findIntersection
  rw [mapN_state, show (b.mapS σ α φ).explored = b.explored.map (ANode.mapN σ α φ) from rfl, find_map hP]
  rcases exploredFind P b.explored n.state with _ | m
  · rfl
  · simp only [Option.map_some, mapN_pathCost, ← hφ.add]
    have hi : improves (φ (n.pathCost + m.pathCost)) (best.map φ) = improves (n.pathCost + m.pathCost) best := by
      rcases best with _ | b
      · rfl
      · simp [improves, hφ.lt]
    rw [hi]
    split <;> rfl

private theorem finished_map (hφ : ChangeOfUnit φ) (off : C) (s : BiSearch S A C) :
    finished (φ off) (mapB σ α φ s) = finished off s := by
  have hle : ∀ a b : C, φ a ≤ φ b ↔ a ≤ b := fun a b => by rw [← not_lt, ← not_lt, hφ.lt]
  have htop : ∀ q : Frontier (ANode S A C),
      (Frontier.mapF (ANode.mapN σ α φ) q).top = q.top.map (ANode.mapN σ α φ) := fun q => List.getLast?_map ..
  unfold finished
  simp only [mapB, Search.mapS, htop]
  rcases s.f.solution with _ | a
  · rfl
  rcases s.r.solution with _ | b
  · rfl
  rcases s.best with _ | c
  · rfl
  rcases s.f.frontier.top with _ | d
  · rfl
  rcases s.r.frontier.top with _ | e
  · rfl
  simp [← hφ.add, hle]

variable {B : BiProblem S A C} {B' : BiProblem S' A' D}

private theorem forward_map (hφ : ChangeOfUnit φ) (hf : SameProblem σ α φ B.fwd B'.fwd)
    (hr : SameProblem σ α φ B.rev B'.rev) (graph : Bool) (s : BiSearch S A C) (f' : Frontier (ANode S A C))
    (n : ANode S A C) :
    forward B' graph (mapB σ α φ s) (Frontier.mapF (ANode.mapN σ α φ) f') (n.mapN σ α φ) =
      mapB σ α φ (forward B graph s f' n) := by
  have he := expand_map hφ hf graph { s.f with frontier := f' } n
  have hm := meet_map hφ hr n (AStar.expand B.fwd graph { s.f with frontier := f' } n) s.r s.best
  rw [← he] at hm
  unfold forward
  exact (congrArg (fun q : Search S' A' D × Search S' A' D × Option D =>
    ({ f := q.1, r := q.2.1, best := q.2.2 } : BiSearch S' A' D)) hm :)

private theorem reverse_map (hφ : ChangeOfUnit φ) (hf : SameProblem σ α φ B.fwd B'.fwd)
    (hr : SameProblem σ α φ B.rev B'.rev) (graph : Bool) (s : BiSearch S A C) (f' : Frontier (ANode S A C))
    (n : ANode S A C) :
    reverse B' graph (mapB σ α φ s) (Frontier.mapF (ANode.mapN σ α φ) f') (n.mapN σ α φ) =
      mapB σ α φ (reverse B graph s f' n) := by
  have he := expand_map hφ hr graph { s.r with frontier := f' } n
  have hm := meet_map hφ hf n (AStar.expand B.rev graph { s.r with frontier := f' } n) s.f s.best
  rw [← he] at hm
  unfold reverse
  exact (congrArg (fun q : Search S' A' D × Search S' A' D × Option D =>
    ({ f := q.2.1, r := q.1, best := q.2.2 } : BiSearch S' A' D)) hm :)

private theorem loopB_map (hφ : ChangeOfUnit φ) (hf : SameProblem σ α φ B.fwd B'.fwd)
    (hr : SameProblem σ α φ B.rev B'.rev) (graph : Bool) (off : C) (fuel : Nat) (s : BiSearch S A C) :
    loop B' graph (φ off) fuel (mapB σ α φ s) = (loop B graph off fuel s).map fun r => (r.1, mapB σ α φ r.2) := by
  induction fuel generalizing s with
  | zero => rfl
  | succ fuel ih =>
    unfold loop
    rw [show (mapB σ α φ s).f.frontier = Frontier.mapF (ANode.mapN σ α φ) s.f.frontier from rfl,
      show (mapB σ α φ s).r.frontier = Frontier.mapF (ANode.mapN σ α φ) s.r.frontier from rfl,
      Frontier.pop_map (eqNode_map hf), Frontier.pop_map (eqNode_map hr)]
    rcases s.f.frontier.pop (eqNode B.fwd) with _ | ⟨f', n⟩
    · rfl
    rcases s.r.frontier.pop (eqNode B.rev) with _ | ⟨r', m⟩
    · rfl
    simp only [Option.map_some, forward_map hφ hf hr, reverse_map hφ hf hr, finished_map hφ]
    split
    · rfl
    · exact ih _

/-- C173, bidirectional A*. When both directions are written in the same other words, the search stops if and only if it did
before, after as many iterations. It returns the same status, the same path and the same cost in the new words, and both
propagators are asked for the same states in the same order. -/
theorem C173_bidirectional (hφ : ChangeOfUnit φ) (hf : SameProblem σ α φ B.fwd B'.fwd)
    (hr : SameProblem σ α φ B.rev B'.rev) (graph : Bool) (fuel : Nat) (init goal : S) :
    (searchPath B graph fuel init goal = none → searchPath B' graph fuel (σ init) (σ goal) = none) ∧
    ∀ st s, searchPath B graph fuel init goal = some (st, s) →
      ∃ s', searchPath B' graph fuel (σ init) (σ goal) = some (st, s') ∧ getPath s' = (getPath s).map (List.map σ) ∧
        getOptimalCost s' = (getOptimalCost s).map φ ∧ s'.f.calls = s.f.calls.map σ ∧ s'.r.calls = s.r.calls.map σ := by
  have h : searchPath B' graph fuel (σ init) (σ goal) =
      (searchPath B graph fuel init goal).map fun r => (r.1, mapB σ α φ r.2) := by
    have h0 : initSearch B' (σ init) (σ goal) = mapB σ α φ (initSearch B init goal) := by
      unfold initSearch
      rw [init_map hφ hf, init_map hφ hr]
      rfl
    have h1 : costOffset B' (σ goal) = φ (costOffset B goal) := by
      unfold costOffset
      rw [hf.h, hr.h, hφ.add]
    unfold searchPath
    rw [h0, h1, loopB_map hφ hf hr]
  refine ⟨fun h0 => by rw [h, h0]; rfl, fun st s h1 => ⟨mapB σ α φ s, by rw [h, h1]; rfl, ?_, ?_, rfl, rfl⟩⟩
  · unfold getPath
    rw [show (mapB σ α φ s).f = s.f.mapS σ α φ from rfl, show (mapB σ α φ s).r = s.r.mapS σ α φ from rfl, getPath_map,
      getPath_map]
    rcases AStar.getPath s.f with _ | a
    · rfl
    rcases AStar.getPath s.r with _ | b
    · rfl
    simp
  · unfold getOptimalCost
    rw [show (mapB σ α φ s).f = s.f.mapS σ α φ from rfl, show (mapB σ α φ s).r = s.r.mapS σ α φ from rfl,
      getOptimalCost_map, getOptimalCost_map]
    rcases AStar.getOptimalCost s.f with _ | a
    · rfl
    rcases AStar.getOptimalCost s.r with _ | b
    · rfl
    simp [hφ.add]

end Bi

open Flt

/-! ### Factors -/

/-- Multiplication by a positive factor is a change of the unit of exact costs. -/
theorem changeOfUnit_factor {K : Type} [Field K] [LinearOrder K] [IsStrictOrderedRing K] {r : K} (hr : 0 < r) :
    ChangeOfUnit (fun x : K => r * x) :=
  ⟨fun _ _ => mul_lt_mul_iff_right₀ hr, mul_add r, mul_zero r⟩

/-- Rounding commutes with the multiplication by a power of two. -/
theorem Flt.fl_scale (p : ℕ) (k : ℤ) (x : ℝ) : fl p (2 ^ k * x) = 2 ^ k * fl p x := by
  by_cases hx : x = 0
  · rw [hx, mul_zero, fl_zero, mul_zero]
  have hk : (0 : ℝ) < 2 ^ k := by positivity
  have h2 : (2 : ℝ) ≠ 0 := by norm_num
  obtain ⟨h3, h4⟩ := bounds p hx
  have hl : lastBit p (2 ^ k * x) = lastBit p x + k := by
    refine lastBit_eq ?_ ?_
    · rw [abs_mul, abs_of_pos hk, add_right_comm, zpow_add₀ h2, mul_comm]
      exact mul_le_mul_of_nonneg_left h3 hk.le
    · rw [abs_mul, abs_of_pos hk, add_right_comm, zpow_add₀ h2, mul_comm (2 ^ _) (2 ^ k)]
      exact mul_lt_mul_of_pos_left h4 hk
  unfold fl
  rw [hl, zpow_add₀ h2, show (2 : ℝ) ^ k * x / (2 ^ lastBit p x * 2 ^ k) = x / 2 ^ lastBit p x by field_simp]
  ring

/-- A `double` times a power of two. -/
noncomputable def scaleDouble (k : ℤ) (x : Double) : Double :=
  ⟨2 ^ k * x.1, by
    show fl 53 _ = _
    rw [fl_scale, show fl 53 x.1 = x.1 from x.2]⟩

/-- Multiplication by a power of two is a change of the unit of costs that are `double`s, in spite of the roundings. -/
theorem changeOfUnit_double (k : ℤ) : ChangeOfUnit (scaleDouble k) := by
  have hk : (0 : ℝ) < 2 ^ k := by positivity
  refine ⟨fun a b => ?_, fun a b => Subtype.ext ?_, Subtype.ext (mul_zero _)⟩
  · show 2 ^ k * a.1 < 2 ^ k * b.1 ↔ a.1 < b.1
    exact mul_lt_mul_iff_right₀ hk
  · show 2 ^ k * fl 53 (a.1 + b.1) = fl 53 (2 ^ k * a.1 + 2 ^ k * b.1)
    rw [← fl_scale, mul_add]

/-- C173 for exact costs in another unit: if every cost and every value of the heuristic is multiplied by the same positive
factor, then A* gives the same answer and the cost it reports is multiplied by the factor. -/
theorem C173_factor {S A K : Type} [Field K] [LinearOrder K] [IsStrictOrderedRing K] {P P' : Problem S A K} {r : K}
    (hr : 0 < r) (hP : SameProblem id id (fun x => r * x) P P') (graph : Bool) (fuel : Nat) (init : S) {st : Status}
    {s : Search S A K} (h : AStar.searchPath P graph fuel init = some (st, s)) :
    ∃ s', AStar.searchPath P' graph fuel init = some (st, s') ∧ AStar.getPath s' = AStar.getPath s ∧
      AStar.getActions s' = AStar.getActions s ∧
      AStar.getOptimalCost s' = (AStar.getOptimalCost s).map (fun x => r * x) ∧ s'.calls = s.calls := by
  obtain ⟨s', h1, h2, h3, h4, h5⟩ := (AStar.C173_a_star (changeOfUnit_factor hr) hP graph fuel init).2 st s h
  refine ⟨s', h1, ?_, ?_, h4, ?_⟩
  · rw [h2, List.map_id_fun, Option.map_id_fun, id]
  · rw [h3, Option.map_id_fun, List.map_id_fun, Option.map_id_fun, id]
  · rw [h5, List.map_id_fun, id]

/-- C173 with the arithmetic of the program: if every cost and every value of the heuristic is a `double` multiplied by the
same power of two, then A* gives the same answer and the cost it reports is multiplied by that power. -/
theorem C173_double {S A : Type} {P P' : Problem S A Double} (k : ℤ) (hP : SameProblem id id (scaleDouble k) P P')
    (graph : Bool) (fuel : Nat) (init : S) {st : Status} {s : Search S A Double}
    (h : AStar.searchPath P graph fuel init = some (st, s)) :
    ∃ s', AStar.searchPath P' graph fuel init = some (st, s') ∧ AStar.getPath s' = AStar.getPath s ∧
      AStar.getActions s' = AStar.getActions s ∧
      AStar.getOptimalCost s' = (AStar.getOptimalCost s).map (scaleDouble k) ∧ s'.calls = s.calls := by
  obtain ⟨s', h1, h2, h3, h4, h5⟩ := (AStar.C173_a_star (changeOfUnit_double k) hP graph fuel init).2 st s h
  refine ⟨s', h1, ?_, ?_, h4, ?_⟩
  · rw [h2, List.map_id_fun, Option.map_id_fun, id]
  · rw [h3, Option.map_id_fun, List.map_id_fun, Option.map_id_fun, id]
  · rw [h5, List.map_id_fun, id]

/-! ### Cases -/

/-- A line of towns: one may walk to the next one for 3 or drive two towns further for 4. -/
private def walk : Problem Nat Bool ℚ where
  eqS := fun a b => a == b
  nbrs := fun _ n => if n < 5 then [(n + 1, false, 3), (n + 2, true, 4)] else []
  h := fun n => if n < 5 then 2 * (5 - n) else 0
  isSol := fun n => n == 5

/-- The same towns with other names, other words for the actions and costs in cents. -/
private def walkCents : Problem Int String ℚ where
  eqS := fun a b => a == b
  nbrs := fun _ n => if n < 50 then [(n + 10, "walk", 300), (n + 20, "drive", 400)] else []
  h := fun n => if n < 50 then 20 * (50 - n) else 0
  isSol := fun n => n == 50

private def word (b : Bool) : String := if b then "drive" else "walk"

private theorem walk_same : SameProblem (fun n : Nat => 10 * (n : Int)) word (fun x : ℚ => 100 * x) walk walkCents := by
  have h5 : ∀ n : Nat, 10 * (n : Int) < 50 ↔ n < 5 := fun n => by omega
  refine ⟨fun s t => ?_, fun k s => ?_, fun s => ?_, fun s => ?_, fun _ _ => rfl⟩
  · simp only [walk, walkCents]
    rw [Bool.eq_iff_iff, beq_iff_eq, beq_iff_eq]
    omega
  · simp only [walk, walkCents, h5]
    split
    · simp [word]
      constructor <;> (ring_nf; simp)
    · rfl
  · simp only [walk, walkCents, h5]
    split
    · push_cast; ring
    · simp
  · simp only [walk, walkCents]
    rw [Bool.eq_iff_iff, beq_iff_eq, beq_iff_eq]
    omega

/-- The hypotheses of C173 hold for a search that finds a path with several actions. -/
example : ∃ s, AStar.searchPath walk true 20 0 = some (.success, s) ∧
    ∃ s', AStar.searchPath walkCents true 20 0 = some (.success, s') ∧
      AStar.getPath s' = (AStar.getPath s).map (List.map fun n : Nat => 10 * (n : Int)) := by
  have h : ((AStar.searchPath walk true 20 0).map Prod.fst) = some .success := by decide +kernel
  obtain ⟨⟨st, s⟩, h1, h2⟩ := Option.map_eq_some_iff.1 h
  obtain rfl : st = .success := h2
  obtain ⟨s', h3, h4, _⟩ := (AStar.C173_a_star (changeOfUnit_factor (by norm_num)) walk_same true 20 0).2 _ _ h1
  exact ⟨s, h1, s', h3, h4⟩

/-- That path and its cost. -/
example : ((AStar.searchPath walk true 20 0).map fun r => (AStar.getPath r.2, AStar.getOptimalCost r.2)) =
    some (some [0, 2, 4, 5], some 11) := by decide +kernel

/-- The hypotheses of `C173_factor`, `C173_double` and `C173_bidirectional` hold whenever every cost is multiplied. -/
example (k : ℤ) (P : Problem Nat Bool Double) : SameProblem id id (scaleDouble k) P
    { P with nbrs := fun i s => (P.nbrs i s).map fun t => (t.1, t.2.1, scaleDouble k t.2.2),
             h := fun s => scaleDouble k (P.h s) } :=
  ⟨fun _ _ => rfl, fun _ _ => rfl, fun _ => rfl, fun _ => rfl, fun _ _ => rfl⟩

end PathPlanning
