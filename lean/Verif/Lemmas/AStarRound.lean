import Verif.Lemmas.AStarOpt

/-! # Graph search with an addition of which no law is assumed -/

namespace PathPlanning
open Spec

namespace AStar

variable {S A C : Type} [LinearOrder C] [Add C] [Zero C] {P : Problem S A C}

/-- The frontier holds a node for `x` of total cost at most `τ`. -/
def DomT (P : Problem S A C) (f : Frontier (ANode S A C)) (x : S) (τ : C) : Prop :=
  ∃ y ∈ f.vec, P.eqS y.state x = true ∧ y.totalCost ≤ τ

/-- Total cost = path cost + heuristic for all frontier nodes. -/
def TotR (P : Problem S A C) (f : Frontier (ANode S A C)) : Prop :=
  ∀ y ∈ f.vec, y.totalCost = y.pathCost + P.h y.state

theorem totR_expandAll (he : KeyEquiv P.eqS) (n : ANode S A C) (ex : List (ANode S A C))
    (ts : List (S × A × C)) : ∀ {f : Frontier (ANode S A C)}, FOk P f → TotR P f →
    TotR P (ts.foldl (expandOne P true n ex) f) := by
  induction ts with
  | nil => intro f _ h; exact h
  | cons t ts ih =>
    intro f ok h
    refine ih (ok_expandOne he true n ex ok t) ?_
    intro y hy
    rcases mem_expandOne he true n ex ok t hy with h' | rfl
    · exact h y h'
    · rfl

theorem domT_expandOne (he : KeyEquiv P.eqS) (n : ANode S A C)
    (ex : List (ANode S A C)) {f : Frontier (ANode S A C)} (ok : FOk P f)
    (t : S × A × C) {x : S} {τ : C} (hd : DomT P f x τ) :
    DomT P (expandOne P true n ex f t) x τ := by
  have he' := eqNode_equiv he
  have hc := cmpNode_swo (S := S) (A := A) (C := C)
  obtain ⟨y, hy, hyx, hyg⟩ := hd
  unfold expandOne
  simp only [if_true]
  cases hf : f.find (eqNode P) (childNode P n t) with
  | none =>
    dsimp only
    split
    · exact ⟨y, hy, hyx, hyg⟩
    · exact ⟨y, (ok.mem_push_new hc he' hf y).2 (Or.inr hy), hyx, hyg⟩
  | some fn =>
    dsimp only
    unfold processShortcut
    split
    · rename_i hlt
      cases hq : eqNode P y fn with
      | false => exact ⟨y, (mem_shortcut he ok hf y).2 (Or.inr ⟨hy, hq⟩), hyx, hyg⟩
      | true =>
        refine ⟨_, (mem_shortcut he ok hf _).2 (Or.inl rfl), ?_⟩
        obtain ⟨h1, h2⟩ := (ok.find_iff he' _ fn).1 hf
        have h2' : P.eqS fn.state t.1 = true := h2
        have hyfn : y = fn := (ok.distinct he').eq_of_mem he' hy h1 hq
        subst hyfn
        refine ⟨he.trans _ _ _ (he.symm _ _ h2') hyx, ?_⟩
        simp only [Bool.and_eq_true, decide_eq_true_eq] at hlt
        exact le_trans (le_of_lt hlt.2) hyg
    · exact ⟨y, hy, hyx, hyg⟩

theorem domT_expandOne_self (he : KeyEquiv P.eqS)
    (hm : ∀ a b, P.mayReplace a b = true) (n : ANode S A C)
    (ex : List (ANode S A C)) {f : Frontier (ANode S A C)} (ok : FOk P f)
    (t : S × A × C) (hx : exploredContains P ex t.1 = false) :
    DomT P (expandOne P true n ex f t) t.1 (n.pathCost + t.2.2 + P.h t.1) := by
  have he' := eqNode_equiv he
  have hc := cmpNode_swo (S := S) (A := A) (C := C)
  unfold expandOne
  simp only [if_true]
  cases hf : f.find (eqNode P) (childNode P n t) with
  | none =>
    dsimp only
    have : exploredContains P ex (childNode P n t).state = false := hx
    rw [this]
    simp only [Bool.false_eq_true, if_false]
    exact ⟨_, (ok.mem_push_new hc he' hf _).2 (Or.inl rfl), he.refl _, le_refl _⟩
  | some fn =>
    dsimp only
    unfold processShortcut
    obtain ⟨h1, h2⟩ := (ok.find_iff he' _ fn).1 hf
    have h2' : P.eqS fn.state t.1 = true := h2
    split
    · exact ⟨_, (mem_shortcut he ok hf _).2 (Or.inl rfl), he.refl _, le_refl _⟩
    · rename_i hlt
      simp only [hm, Bool.true_and, decide_eq_true_eq, gt_iff_lt, not_lt] at hlt
      exact ⟨fn, h1, h2', hlt⟩

theorem domT_expandAll (he : KeyEquiv P.eqS) (n : ANode S A C)
    (ex : List (ANode S A C)) (ts : List (S × A × C)) {x : S} {τ : C} :
    ∀ {f : Frontier (ANode S A C)}, FOk P f → DomT P f x τ →
    DomT P (ts.foldl (expandOne P true n ex) f) x τ := by
  induction ts with
  | nil => intro f _ h; exact h
  | cons t ts ih =>
    intro f ok h
    exact ih (ok_expandOne he true n ex ok t) (domT_expandOne he n ex ok t h)

theorem domT_expandAll_self (he : KeyEquiv P.eqS)
    (hm : ∀ a b, P.mayReplace a b = true) (n : ANode S A C)
    (ex : List (ANode S A C)) (ts : List (S × A × C)) :
    ∀ {f : Frontier (ANode S A C)}, FOk P f → ∀ t ∈ ts,
    exploredContains P ex t.1 = false →
    DomT P (ts.foldl (expandOne P true n ex) f) t.1 (n.pathCost + t.2.2 + P.h t.1) := by
  induction ts with
  | nil => intro f _ t ht; cases ht
  | cons t ts ih =>
    intro f ok t' ht' hx
    rcases List.mem_cons.1 ht' with rfl | ht'
    · exact domT_expandAll he n ex ts (ok_expandOne he true n ex ok _) (domT_expandOne_self he hm n ex ok _ hx)
    · exact ih (ok_expandOne he true n ex ok t) t' ht' hx

/-- Invariant of graph search: every expanded state was expanded with a path cost of which `Q` holds, and its neighbours
are expanded or in the frontier with at most the total cost that it gave them. -/
structure OptQ (P : Problem S A C) (Q : S → C → Prop) (init : S) (s : Search S A C) : Prop where
  start : (s.calls = [] ∧ s.frontier.vec = [rootNode init]) ∨
    (Expanded P s.calls init ∧ TotR P s.frontier)
  exp : ∀ u ∈ s.calls, ∃ g, Q u g ∧
    ∀ t ∈ P.nbrs 0 u, Expanded P s.calls t.1 ∨ DomT P s.frontier t.1 (g + t.2.2 + P.h t.1)

theorem OptQ.mono {Q Q' : S → C → Prop} {init : S} {s : Search S A C} (h : OptQ P Q init s)
    (hQ : ∀ u g, Q u g → Q' u g) : OptQ P Q' init s :=
  ⟨h.start, fun u hu => by obtain ⟨g, h1, h2⟩ := h.exp u hu; exact ⟨g, hQ u g h1, h2⟩⟩

theorem optQ_init (Q : S → C → Prop) (init : S) : OptQ P Q init (initSearch P init) := by
  refine ⟨Or.inl ⟨rfl, ?_⟩, ?_⟩
  · simp [initSearch, Frontier.push, Frontier.empty, Frontier.find,
      Frontier.findFirstCompareIsFalse, Frontier.ffLoop]
  intro u hu; simp [initSearch] at hu

theorem optQ_expand (he : KeyEquiv P.eqS) (hd : P.Deterministic)
    (hm : ∀ a b, P.mayReplace a b = true) {Q : S → C → Prop} {init : S} {s : Search S A C}
    (inv : Inv P true init s) (opt : OptQ P Q init s) {f' : Frontier (ANode S A C)}
    {n : ANode S A C} (hp : s.frontier.pop (eqNode P) = some (f', n))
    (hns : P.isSol n.state = false) (hQ : Q n.state n.pathCost) :
    OptQ P Q init (expand P true { s with frontier := f' } n) := by
  have he' := eqNode_equiv he
  have hc := cmpNode_swo (S := S) (A := A) (C := C)
  have inv' := inv_expand he inv hp hns
  obtain ⟨ok', hn, hmin, hmem⟩ := inv.ok.pop hc he' hp
  have htot' : TotR P f' := by
    intro y hy
    obtain ⟨hy1, hy2⟩ := (hmem y).1 hy
    rcases opt.start with ⟨_, h⟩ | ⟨_, h⟩
    · rw [h] at hn hy1
      simp only [List.mem_singleton] at hn hy1
      rw [hn, hy1, he'.refl] at hy2
      cases hy2
    · exact h y hy1
  have hinit : Expanded P (n.state :: s.calls) init := by
    rcases opt.start with ⟨_, h⟩ | ⟨⟨u, hu, hui⟩, _⟩
    · rw [h] at hn
      simp only [List.mem_singleton] at hn
      exact ⟨n.state, by simp, by rw [hn]; exact he.refl _⟩
    · exact ⟨u, by simp [hu], hui⟩
  obtain ⟨ex, hexd⟩ : ∃ ex, ex = exploredInsert P s.explored n := ⟨_, rfl⟩
  have hE : expand P true { s with frontier := f' } n =
      { s with explored := ex
               frontier := (P.nbrs 0 n.state).foldl (expandOne P true n ex) f'
               calls := n.state :: s.calls } := by
    simp only [expand, hexd]
    rw [hd]
  rw [hE] at inv' ⊢
  refine ⟨Or.inr ⟨hinit, totR_expandAll he n ex _ ok' htot'⟩, ?_⟩
  intro u hu
  rcases List.mem_cons.1 hu with rfl | hu
  · refine ⟨n.pathCost, hQ, ?_⟩
    intro t ht
    cases hce : exploredContains P ex t.1 with
    | true =>
      left
      rcases (inv'.explored_iff t.1).1 hce with h | h
      · exact h
      · obtain ⟨w, hw, hwi⟩ := hinit
        exact ⟨w, hw, he.trans _ _ _ hwi h⟩
    | false => exact Or.inr (domT_expandAll_self he hm n ex _ ok' t ht hce)
  · obtain ⟨g, hg1, hg2⟩ := opt.exp u hu
    refine ⟨g, hg1, ?_⟩
    intro t ht
    rcases hg2 t ht with ⟨w, hw, hwq⟩ | ⟨y, hy, hyt, hyg⟩
    · exact Or.inl ⟨w, by simp [hw], hwq⟩
    · cases hq : eqNode P y n with
      | true => exact Or.inl ⟨n.state, by simp, he.trans _ _ _ (he.symm _ _ hq) hyt⟩
      | false =>
        exact Or.inr (domT_expandAll he n ex _ ok' ⟨y, (hmem y).2 ⟨hy, hq⟩, hyt, hyg⟩)

/-- The nodes of the frontier along a route: the route's end is expanded, or some node of the frontier meets any bound `B`
on the total cost that holds for the start, holds for what expanded states offered, and is kept by transitions. -/
theorem frontier_boundQ (he : KeyEquiv P.eqS) (hd : P.Deterministic) (hr : P.Respects) {Q : S → C → Prop}
    {init : S} {s : Search S A C} (opt : OptQ P Q init s) (B : List (A × C × S) → S → C → Prop)
    (hB0 : ∀ τ, τ = (0 : C) → B [] init τ)
    (hB1 : ∀ l u a c v u' g τ, Route P.tr init l u → P.tr u a c v → P.eqS u' u = true → Q u' g →
      τ ≤ g + c + P.h v → B (l ++ [(a, c, v)]) v τ)
    (hB2 : ∀ l u a c v τ, Route P.tr init l u → P.tr u a c v → B l u τ → B (l ++ [(a, c, v)]) v τ)
    {l x} (hx : Route P.tr init l x) :
    Expanded P s.calls x ∨ ∃ y ∈ s.frontier.vec, B l x y.totalCost := by
  induction hx with
  | nil =>
    rcases opt.start with ⟨_, h⟩ | ⟨h, _⟩
    · right
      exact ⟨rootNode init, by rw [h]; simp, hB0 _ rfl⟩
    · exact Or.inl h
  | @snoc l u a c v hrt htr ih =>
    rcases ih with ⟨u', hu', hq⟩ | ⟨y, hy, hyl⟩
    · obtain ⟨g, hg1, hg2⟩ := opt.exp u' hu'
      have htr' := htr
      obtain ⟨k, hk⟩ := htr'
      rw [hd] at hk
      obtain ⟨v', a', hv', hvv⟩ := hr.nbrs u u' (he.symm _ _ hq) v a c hk
      rcases hg2 _ hv' with ⟨w, hw, hwq⟩ | ⟨y, hy, hyv, hyc⟩
      · exact Or.inl ⟨w, hw, he.trans _ _ _ hwq (he.symm _ _ hvv)⟩
      · right
        refine ⟨y, hy, hB1 l u a c v u' g _ hrt htr hq hg1 ?_⟩
        rw [hr.h _ _ hvv]; exact hyc
    · exact Or.inr ⟨y, hy, hB2 l u a c v _ hrt htr hyl⟩

/-- A popped node has least total cost. -/
theorem popped_le (he : KeyEquiv P.eqS) {graph : Bool} {init : S} {s : Search S A C} (inv : Inv P graph init s)
    {f' : Frontier (ANode S A C)} {n : ANode S A C} (hp : s.frontier.pop (eqNode P) = some (f', n)) :
    n ∈ s.frontier.vec ∧ ∀ y ∈ s.frontier.vec, n.totalCost ≤ y.totalCost := by
  obtain ⟨_, hn, hmin, _⟩ := inv.ok.pop (cmpNode_swo (S := S) (A := A) (C := C)) (eqNode_equiv he) hp
  refine ⟨hn, fun y hy => ?_⟩
  have := hmin y hy
  simpa [cmpNode] using this

end AStar
end PathPlanning
