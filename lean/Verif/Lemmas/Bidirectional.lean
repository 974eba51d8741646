import Verif.Model.Bidirectional
import Verif.Lemmas.AStarOpt

namespace PathPlanning
open Spec

namespace Bi
open AStar
variable {S A C : Type}

/-- Standing assumptions on a bidirectional problem: both directions use the same state equality
(they share the template argument `EqualState`), and `isSol` plays no role. -/
structure Wf (B : BiProblem S A C) : Prop where
  eqv : KeyEquiv B.fwd.eqS
  same : B.rev.eqS = B.fwd.eqS
  fsol : ∀ u, B.fwd.isSol u = false
  rsol : ∀ u, B.rev.isSol u = false

theorem Wf.reqv {B : BiProblem S A C} (w : Wf B) : KeyEquiv B.rev.eqS := w.same ▸ w.eqv

section
variable [LinearOrder C] [Add C] [Zero C]

/-- Everything but the solution pointer. -/
def core (s : Search S A C) : Search S A C := { s with solution := none }

theorem expand_core (P : Problem S A C) (graph : Bool) (s : Search S A C) (n : ANode S A C) :
    core (expand P graph s n) = expand P graph (core s) n := rfl

/-- The root is stored for its state in the explored container. -/
def RootOnly (P : Problem S A C) (init : S) (e : List (ANode S A C)) : Prop :=
  rootNode init ∈ e ∧ ∀ m ∈ e, P.eqS m.state init = true → m = rootNode init

theorem rootOnly_insert {P : Problem S A C} {init : S} {e : List (ANode S A C)} (h : RootOnly P init e)
    (he : KeyEquiv P.eqS) (n : ANode S A C) : RootOnly P init (exploredInsert P e n) := by
  unfold exploredInsert
  split
  · exact h
  · rename_i hc
    refine ⟨List.mem_cons_of_mem _ h.1, ?_⟩
    intro m hm hq
    rcases List.mem_cons.1 hm with rfl | hm
    · exfalso
      apply hc
      rw [exploredContains_iff]
      exact ⟨_, h.1, he.symm _ _ hq⟩
    · exact h.2 m hm hq

/-- The pair of solution nodes: both well formed, meeting in equal states, at total cost `best`. -/
def Meet (B : BiProblem S A C) (init goal : S) (s : BiSearch S A C) : Prop :=
  (s.best = none ∧ s.f.solution = none ∧ s.r.solution = none) ∨
  ∃ x y, s.f.solution = some x ∧ s.r.solution = some y ∧ WF B.fwd init x ∧ WF B.rev goal y ∧
    B.fwd.eqS x.state y.state = true ∧
    (s.best = some (x.pathCost + y.pathCost) ∨ s.best = some (y.pathCost + x.pathCost))

structure BInv (B : BiProblem S A C) (graph : Bool) (init goal : S) (s : BiSearch S A C) : Prop where
  f : Inv B.fwd graph init (core s.f)
  r : Inv B.rev graph goal (core s.r)
  rootF : RootOnly B.fwd init s.f.explored
  rootR : RootOnly B.rev goal s.r.explored
  meet : Meet B init goal s
  metF : s.best = none → ¬ Expanded B.fwd s.f.calls goal
  metR : s.best = none → ¬ Expanded B.rev s.r.calls init

theorem binv_init {B : BiProblem S A C} (w : Wf B) (graph : Bool) (init goal : S) :
    BInv B graph init goal (initSearch B init goal) := by
  refine ⟨inv_init w.eqv graph init, inv_init w.reqv graph goal, ?_, ?_, Or.inl ⟨rfl, rfl, rfl⟩,
    ?_, ?_⟩
  · refine ⟨?_, ?_⟩ <;> simp [initSearch, AStar.initSearch, exploredInsert, exploredContains]
  · refine ⟨?_, ?_⟩ <;> simp [initSearch, AStar.initSearch, exploredInsert, exploredContains]
  · rintro _ ⟨u, hu, _⟩; simp [initSearch, AStar.initSearch] at hu
  · rintro _ ⟨u, hu, _⟩; simp [initSearch, AStar.initSearch] at hu

theorem exploredFind_some {P : Problem S A C} {e : List (ANode S A C)} {x : S} {m : ANode S A C}
    (h : exploredFind P e x = some m) : m ∈ e ∧ P.eqS m.state x = true :=
  ⟨List.mem_of_find?_eq_some h, by simpa using List.find?_some h⟩

theorem exploredFind_isSome {P : Problem S A C} {e : List (ANode S A C)} {x : S} {m : ANode S A C}
    (hm : m ∈ e) (hq : P.eqS m.state x = true) : ∃ m', exploredFind P e x = some m' := by
  cases h : exploredFind P e x with
  | some m' => exact ⟨m', rfl⟩
  | none =>
    unfold exploredFind at h
    rw [List.find?_eq_none] at h
    exact absurd hq (h m hm)

/-- `FindIntersection` changes only solution pointers and the best cost. -/
theorem findIntersection_core (PB : Problem S A C) (n : ANode S A C) (a b : Search S A C)
    (best : Option C) :
    core (findIntersection PB n a b best).1 = core a ∧
    core (findIntersection PB n a b best).2.1 = core b ∧
    ((findIntersection PB n a b best).2.2 = none ↔
      best = none ∧ exploredFind PB b.explored n.state = none) := by
  unfold findIntersection
  cases h : exploredFind PB b.explored n.state with
  | none => exact ⟨rfl, rfl, by simp⟩
  | some m =>
    dsimp only
    split
    · exact ⟨rfl, rfl, by simp⟩
    · rename_i hi
      refine ⟨rfl, rfl, ?_⟩
      cases best with
      | none => simp [improves] at hi
      | some b => simp

theorem core_eq {a b : Search S A C} (h : core a = core b) :
    a.frontier = b.frontier ∧ a.explored = b.explored ∧ a.calls = b.calls := by
  cases a; cases b; simp only [core, Search.mk.injEq] at h; exact ⟨h.1, h.2.1, h.2.2.2⟩

theorem binv_forward {B : BiProblem S A C} (w : Wf B) {graph : Bool} {init goal : S}
    {s : BiSearch S A C} (inv : BInv B graph init goal s) {f' : Frontier (ANode S A C)}
    {n : ANode S A C} (hp : s.f.frontier.pop (eqNode B.fwd) = some (f', n)) :
    BInv B graph init goal (forward B graph s f' n) := by
  have hfi := inv_expand w.eqv inv.f hp (w.fsol _)
  obtain ⟨e, hed⟩ : ∃ e, e = AStar.expand B.fwd graph { s.f with frontier := f' } n := ⟨_, rfl⟩
  have hce : core e = AStar.expand B.fwd graph { core s.f with frontier := f' } n := by
    rw [hed]; rfl
  rw [← hce] at hfi
  obtain ⟨hq1, hq2, hq3⟩ := findIntersection_core B.rev n e s.r s.best
  obtain ⟨q, hqd⟩ : ∃ q, q = findIntersection B.rev n e s.r s.best := ⟨_, rfl⟩
  have hF : forward B graph s f' n = { f := q.1, r := q.2.1, best := q.2.2 } := by
    simp only [forward, ← hed, hqd]
  rw [← hqd] at hq1 hq2 hq3
  obtain ⟨hf1, hf2, hf3⟩ := core_eq hq1
  obtain ⟨hr1, hr2, hr3⟩ := core_eq hq2
  have hcalls : e.calls = n.state :: s.f.calls := by rw [hed]; rfl
  have hexp : e.explored = exploredInsert B.fwd s.f.explored n := by rw [hed]; rfl
  obtain ⟨_, hn, _, _⟩ := inv.f.ok.pop cmpNode_swo (eqNode_equiv w.eqv) hp
  rw [hF]
  refine ⟨?_, ?_, ?_, ?_, ?_, ?_, ?_⟩
  · show Inv _ _ _ (core q.1); rw [hq1]; exact hfi
  · show Inv _ _ _ (core q.2.1); rw [hq2]; exact inv.r
  · show RootOnly _ _ q.1.explored; rw [hf2, hexp]; exact rootOnly_insert inv.rootF w.eqv n
  · show RootOnly _ _ q.2.1.explored; rw [hr2]; exact inv.rootR
  · -- meeting nodes
    have hes : e.solution = s.f.solution := by rw [hed]; rfl
    rw [hqd]
    unfold findIntersection
    cases h : exploredFind B.rev s.r.explored n.state with
    | none =>
      rcases inv.meet with ⟨h1, h2, h3⟩ | ⟨x, y, h1, h2, h3⟩
      · exact Or.inl ⟨h1, hes.trans h2, h3⟩
      · exact Or.inr ⟨x, y, hes.trans h1, h2, h3⟩
    | some m =>
      dsimp only
      split
      · obtain ⟨hm1, hm2⟩ := exploredFind_some h
        refine Or.inr ⟨n, m, rfl, rfl, inv.f.wf n hn, inv.r.wfe m hm1, ?_, Or.inl rfl⟩
        rw [w.same] at hm2
        exact w.eqv.symm _ _ hm2
      · rcases inv.meet with ⟨h1, h2, h3⟩ | ⟨x, y, h1, h2, h3⟩
        · exact Or.inl ⟨h1, hes.trans h2, h3⟩
        · exact Or.inr ⟨x, y, hes.trans h1, h2, h3⟩
  · show q.2.2 = none → ¬ Expanded _ q.1.calls _
    intro hb
    rw [hf3, hcalls]
    obtain ⟨hb1, hb2⟩ := hq3.1 hb
    rintro ⟨u, hu, hug⟩
    rcases List.mem_cons.1 hu with rfl | hu
    · obtain ⟨m', hm'⟩ := exploredFind_isSome (P := B.rev) (x := n.state) inv.rootR.1
        (by rw [w.same]; exact w.eqv.symm _ _ hug)
      rw [hm'] at hb2; cases hb2
    · exact inv.metF hb1 ⟨u, hu, hug⟩
  · show q.2.2 = none → ¬ Expanded _ q.2.1.calls _
    intro hb
    rw [hr3]
    exact inv.metR (hq3.1 hb).1

/-- Mirror image of a bidirectional problem. -/
def swapP (B : BiProblem S A C) : BiProblem S A C := ⟨B.rev, B.fwd⟩

/-- Mirror image of a search state. -/
def swapS (s : BiSearch S A C) : BiSearch S A C := ⟨s.r, s.f, s.best⟩

omit [LinearOrder C] [Add C] [Zero C] in
theorem Wf.swap {B : BiProblem S A C} (w : Wf B) : Wf (swapP B) :=
  ⟨w.reqv, w.same.symm, w.rsol, w.fsol⟩

theorem reverse_eq (B : BiProblem S A C) (graph : Bool) (s : BiSearch S A C)
    (r' : Frontier (ANode S A C)) (n : ANode S A C) :
    reverse B graph s r' n = swapS (forward (swapP B) graph (swapS s) r' n) := rfl

theorem BInv.swap {B : BiProblem S A C} (w : Wf B) {graph : Bool} {init goal : S}
    {s : BiSearch S A C} (inv : BInv B graph init goal s) :
    BInv (swapP B) graph goal init (swapS s) := by
  refine ⟨inv.r, inv.f, inv.rootR, inv.rootF, ?_, inv.metR, inv.metF⟩
  rcases inv.meet with ⟨h1, h2, h3⟩ | ⟨x, y, h1, h2, h3, h4, h5, h6⟩
  · exact Or.inl ⟨h1, h3, h2⟩
  · refine Or.inr ⟨y, x, h2, h1, h4, h3, ?_, h6.symm⟩
    show B.rev.eqS _ _ = true
    rw [w.same]
    exact w.eqv.symm _ _ h5

theorem binv_reverse {B : BiProblem S A C} (w : Wf B) {graph : Bool} {init goal : S}
    {s : BiSearch S A C} (inv : BInv B graph init goal s) {r' : Frontier (ANode S A C)}
    {n : ANode S A C} (hp : s.r.frontier.pop (eqNode B.rev) = some (r', n)) :
    BInv B graph init goal (reverse B graph s r' n) := by
  have := binv_forward w.swap (inv.swap w) (s := swapS s) (f' := r') (n := n) hp
  exact this.swap w.swap

theorem forward_r_frontier (B : BiProblem S A C) (graph : Bool) (s : BiSearch S A C)
    (f' : Frontier (ANode S A C)) (n : ANode S A C) :
    (forward B graph s f' n).r.frontier = s.r.frontier :=
  (core_eq (findIntersection_core B.rev n _ s.r s.best).2.1).1

theorem forward_f_calls (B : BiProblem S A C) (graph : Bool) (s : BiSearch S A C)
    (f' : Frontier (ANode S A C)) (n : ANode S A C) :
    (forward B graph s f' n).f.calls = n.state :: s.f.calls :=
  (core_eq (findIntersection_core B.rev n _ s.r s.best).1).2.2

theorem reverse_f_calls (B : BiProblem S A C) (graph : Bool) (s : BiSearch S A C)
    (f' : Frontier (ANode S A C)) (n : ANode S A C) :
    (reverse B graph s f' n).f.calls = s.f.calls :=
  (core_eq (findIntersection_core B.fwd n _ s.f s.best).2.1).2.2

/-- What holds when the loop stops, for an invariant `I` kept by both half iterations. -/
theorem loop_spec {B : BiProblem S A C} (w : Wf B) {graph : Bool} {init goal : S}
    (I : BiSearch S A C → Prop)
    (hF : ∀ s f' n, BInv B graph init goal s → I s →
      s.f.frontier.pop (eqNode B.fwd) = some (f', n) → I (forward B graph s f' n))
    (hR : ∀ s r' n, BInv B graph init goal s → I s →
      s.r.frontier.pop (eqNode B.rev) = some (r', n) → I (reverse B graph s r' n)) (off : C) :
    ∀ (fuel : Nat) (s : BiSearch S A C) (st : Status) (s' : BiSearch S A C),
      BInv B graph init goal s → I s →
      (s.best ≠ none → s.f.frontier.vec ≠ [] ∧ s.r.frontier.vec ≠ []) →
      loop B graph off fuel s = some (st, s') →
      BInv B graph init goal s' ∧ I s' ∧
      ((st = .failure ∧ s'.best = none ∧ (s'.f.frontier.vec = [] ∨ s'.r.frontier.vec = [])) ∨
       (st = .success ∧ finished off s' = true)) := by
  intro fuel
  induction fuel with
  | zero => intro s st s' _ _ _ h; cases h
  | succ fuel ih =>
    intro s st s' inv hi hne h
    unfold loop at h
    cases hpf : s.f.frontier.pop (eqNode B.fwd) with
    | none =>
      rw [hpf] at h
      cases h
      have := Frontier.pop_eq_none_iff.1 hpf
      refine ⟨inv, hi, Or.inl ⟨rfl, ?_, Or.inl this⟩⟩
      cases hb : s.best with
      | none => rfl
      | some b => exact absurd this (hne (by simp [hb])).1
    | some x =>
      obtain ⟨f', n⟩ := x
      rw [hpf] at h
      cases hpr : s.r.frontier.pop (eqNode B.rev) with
      | none =>
        rw [hpr] at h
        cases h
        have := Frontier.pop_eq_none_iff.1 hpr
        refine ⟨inv, hi, Or.inl ⟨rfl, ?_, Or.inr this⟩⟩
        cases hb : s.best with
        | none => rfl
        | some b => exact absurd this (hne (by simp [hb])).2
      | some y =>
        obtain ⟨r', m⟩ := y
        rw [hpr] at h
        dsimp only at h
        have inv1 := binv_forward w inv hpf
        have hpr' : (forward B graph s f' n).r.frontier.pop (eqNode B.rev) = some (r', m) := by
          rw [forward_r_frontier]; exact hpr
        have inv2 := binv_reverse w inv1 hpr'
        have hi2 := hR _ r' m inv1 (hF s f' n inv hi hpf) hpr'
        split at h
        · rename_i hfin
          cases h
          exact ⟨inv2, hi2, Or.inr ⟨rfl, hfin⟩⟩
        · rename_i hfin
          refine ih _ st s' inv2 hi2 ?_ h
          intro hb
          rcases inv2.meet with ⟨h1, _⟩ | ⟨x, y, h1, h2, _, _, _, h3⟩
          · exact absurd h1 hb
          · have : ∃ b, (reverse B graph (forward B graph s f' n) r' m).best = some b := by
              rcases h3 with h3 | h3 <;> exact ⟨_, h3⟩
            obtain ⟨b, hb⟩ := this
            constructor
            · intro hv
              apply hfin
              simp [finished, h1, h2, hb, Frontier.top, hv]
            · intro hv
              apply hfin
              simp only [finished, h1, h2, hb, Frontier.top, hv]
              split <;> simp_all

theorem loop_none {B : BiProblem S A C} (w : Wf B) {graph : Bool} {init goal : S} (off : C) :
    ∀ (fuel : Nat) (s : BiSearch S A C), BInv B graph init goal s → loop B graph off fuel s = none →
      ∃ s', BInv B graph init goal s' ∧ s'.f.calls.length = s.f.calls.length + fuel := by
  intro fuel
  induction fuel with
  | zero => intro s inv _; exact ⟨s, inv, rfl⟩
  | succ fuel ih =>
    intro s inv h
    unfold loop at h
    cases hpf : s.f.frontier.pop (eqNode B.fwd) with
    | none => rw [hpf] at h; cases h
    | some x =>
      obtain ⟨f', n⟩ := x
      rw [hpf] at h
      cases hpr : s.r.frontier.pop (eqNode B.rev) with
      | none => rw [hpr] at h; cases h
      | some y =>
        obtain ⟨r', m⟩ := y
        rw [hpr] at h
        dsimp only at h
        have inv1 := binv_forward w inv hpf
        have hpr' : (forward B graph s f' n).r.frontier.pop (eqNode B.rev) = some (r', m) := by
          rw [forward_r_frontier]; exact hpr
        have inv2 := binv_reverse w inv1 hpr'
        split at h
        · cases h
        · obtain ⟨s', h1, h2⟩ := ih _ inv2 h
          refine ⟨s', h1, ?_⟩
          rw [h2, reverse_f_calls, forward_f_calls]
          simp; omega

end
end Bi
end PathPlanning
