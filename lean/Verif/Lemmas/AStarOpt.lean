import Verif.Lemmas.AStar
import Verif.Spec.Search
import Mathlib.Algebra.Order.Monoid.Defs
import Mathlib.Algebra.Order.Monoid.Unbundled.Basic

namespace PathPlanning
open Spec

namespace AStar

section
variable {S A C : Type} [LinearOrder C] [Add C] [Zero C] {P : Problem S A C}

/-- Failure: every reachable state has been expanded. -/
theorem expanded_of_reachable (he : KeyEquiv P.eqS) (hd : P.Deterministic) (hr : P.Respects)
    {graph : Bool} {init : S} {s : Search S A C} (inv : Inv P graph init s)
    (hf : s.frontier.vec = []) {l x} (hx : Route P.tr init l x) : Expanded P s.calls x := by
  have hno : ∀ x, ¬ InF P s.frontier x := by
    rintro x ⟨y, hy, _⟩; rw [hf] at hy; cases hy
  induction hx with
  | nil => exact inv.initIn.resolve_right (hno _)
  | @snoc l u a c v _ htr ih =>
    obtain ⟨u', hu', hq⟩ := ih
    obtain ⟨k, hk⟩ := htr
    rw [hd] at hk
    obtain ⟨v', a', hv', hvv⟩ := hr.nbrs u u' (he.symm _ _ hq) v a c hk
    obtain ⟨k', hk'⟩ := inv.closed u' hu'
    rw [hd] at hk'
    obtain ⟨w, hw, hwq⟩ := (hk' _ hv').resolve_right (hno _)
    exact ⟨w, hw, he.trans _ _ _ hwq (he.symm _ _ hvv)⟩

/-- Pigeonhole up to an equivalence. -/
theorem length_le_of_covers {eq : S → S → Bool} (he : KeyEquiv eq) :
    ∀ (L R : List S), L.Pairwise (fun a b => eq a b = false) →
      (∀ x ∈ L, ∃ r ∈ R, eq r x = true) → L.length ≤ R.length := by
  intro L
  induction L with
  | nil => intro R _ _; simp
  | cons a L ih =>
    intro R hp hc
    obtain ⟨r, hr, hra⟩ := hc a (by simp)
    obtain ⟨R1, R2, rfl⟩ := List.append_of_mem hr
    rw [List.pairwise_cons] at hp
    have := ih (R1 ++ R2) hp.2 (by
      intro x hx
      obtain ⟨q, hq, hqx⟩ := hc x (by simp [hx])
      rcases List.mem_append.1 hq with hq | hq
      · exact ⟨q, by simp [hq], hqx⟩
      · rcases List.mem_cons.1 hq with rfl | hq
        · have h1 := hp.1 x hx
          rw [he.trans _ _ _ (he.symm _ _ hra) hqx] at h1
          cases h1
        · exact ⟨q, by simp [hq], hqx⟩)
    simp only [List.length_append, List.length_cons] at this ⊢
    omega

end

variable {S A C : Type} [AddCommMonoid C] [LinearOrder C] [IsOrderedCancelAddMonoid C]
variable {P : Problem S A C}

/-- The frontier holds a node for `x` of path cost at most `g`. -/
def Dom (P : Problem S A C) (f : Frontier (ANode S A C)) (x : S) (g : C) : Prop :=
  ∃ y ∈ f.vec, P.eqS y.state x = true ∧ y.pathCost ≤ g

/-- Total cost = path cost + heuristic for all frontier nodes. -/
def Tot (P : Problem S A C) (f : Frontier (ANode S A C)) : Prop :=
  ∀ y ∈ f.vec, y.totalCost = y.pathCost + P.h y.state

theorem tot_expandOne (he : KeyEquiv P.eqS) (n : ANode S A C) (ex : List (ANode S A C))
    {f : Frontier (ANode S A C)} (ok : FOk P f) (ht : Tot P f) (t : S × A × C) :
    Tot P (expandOne P true n ex f t) := by
  intro y hy
  rcases mem_expandOne he true n ex ok t hy with h | rfl
  · exact ht y h
  · rfl

theorem dom_expandOne (he : KeyEquiv P.eqS) (hr : P.Respects) (n : ANode S A C)
    (ex : List (ANode S A C)) {f : Frontier (ANode S A C)} (ok : FOk P f) (ht : Tot P f)
    (t : S × A × C) {x : S} {g : C} (hd : Dom P f x g) :
    Dom P (expandOne P true n ex f t) x g := by
  have he' := eqNode_equiv he
  have hc := cmpNode_swo (S := S) (A := A) (C := C)
  obtain ⟨y, hy, hyx, hyg⟩ := hd
  unfold expandOne
  simp only [if_true]
  cases hf : f.find (eqNode P) (childNode P n t) with
  | none =>
    dsimp only
    split
    · exact ⟨y, hy, hyx, hyg⟩
    · exact ⟨y, (ok.mem_push_new hc he' hf y).2 (Or.inr hy), hyx, hyg⟩
  | some fn =>
    dsimp only
    unfold processShortcut
    split
    · rename_i hlt
      cases hq : eqNode P y fn with
      | false => exact ⟨y, (mem_shortcut he ok hf y).2 (Or.inr ⟨hy, hq⟩), hyx, hyg⟩
      | true =>
        refine ⟨_, (mem_shortcut he ok hf _).2 (Or.inl rfl), ?_⟩
        obtain ⟨h1, h2⟩ := (ok.find_iff he' _ fn).1 hf
        have h2' : P.eqS fn.state t.1 = true := h2
        have hyfn : y = fn := (ok.distinct he').eq_of_mem he' hy h1 hq
        subst hyfn
        refine ⟨he.trans _ _ _ (he.symm _ _ h2') hyx, ?_⟩
        simp only [Bool.and_eq_true, decide_eq_true_eq] at hlt
        have hlt2 := hlt.2
        rw [ht y hy] at hlt2
        have hh : P.h y.state = P.h t.1 := hr.h _ _ h2'
        have : (childNode P n t).pathCost + P.h t.1 < y.pathCost + P.h t.1 := by
          rw [hh] at hlt2
          exact hlt2
        exact le_trans (le_of_lt (lt_of_add_lt_add_right this)) hyg
    · exact ⟨y, hy, hyx, hyg⟩

theorem dom_expandOne_self (he : KeyEquiv P.eqS) (hr : P.Respects)
    (hm : ∀ a b, P.mayReplace a b = true) (n : ANode S A C)
    (ex : List (ANode S A C)) {f : Frontier (ANode S A C)} (ok : FOk P f) (ht : Tot P f)
    (t : S × A × C) (hx : exploredContains P ex t.1 = false) :
    Dom P (expandOne P true n ex f t) t.1 (n.pathCost + t.2.2) := by
  have he' := eqNode_equiv he
  have hc := cmpNode_swo (S := S) (A := A) (C := C)
  unfold expandOne
  simp only [if_true]
  cases hf : f.find (eqNode P) (childNode P n t) with
  | none =>
    dsimp only
    have : exploredContains P ex (childNode P n t).state = false := hx
    rw [this]
    simp only [Bool.false_eq_true, if_false]
    exact ⟨_, (ok.mem_push_new hc he' hf _).2 (Or.inl rfl), he.refl _, le_refl _⟩
  | some fn =>
    dsimp only
    unfold processShortcut
    obtain ⟨h1, h2⟩ := (ok.find_iff he' _ fn).1 hf
    have h2' : P.eqS fn.state t.1 = true := h2
    split
    · exact ⟨_, (mem_shortcut he ok hf _).2 (Or.inl rfl), he.refl _, le_refl _⟩
    · rename_i hlt
      simp only [hm, Bool.true_and, decide_eq_true_eq, gt_iff_lt, not_lt] at hlt
      refine ⟨fn, h1, h2', ?_⟩
      rw [ht fn h1, hr.h _ _ h2'] at hlt
      have : fn.pathCost + P.h t.1 ≤ (n.pathCost + t.2.2) + P.h t.1 := hlt
      exact le_of_add_le_add_right this

theorem tot_expandAll (he : KeyEquiv P.eqS) (n : ANode S A C) (ex : List (ANode S A C))
    (ts : List (S × A × C)) : ∀ {f : Frontier (ANode S A C)}, FOk P f → Tot P f →
    Tot P (ts.foldl (expandOne P true n ex) f) := by
  induction ts with
  | nil => intro f _ h; exact h
  | cons t ts ih =>
    intro f ok h
    exact ih (ok_expandOne he true n ex ok t) (tot_expandOne he n ex ok h t)

theorem dom_expandAll (he : KeyEquiv P.eqS) (hr : P.Respects) (n : ANode S A C)
    (ex : List (ANode S A C)) (ts : List (S × A × C)) {x : S} {g : C} :
    ∀ {f : Frontier (ANode S A C)}, FOk P f → Tot P f → Dom P f x g →
    Dom P (ts.foldl (expandOne P true n ex) f) x g := by
  induction ts with
  | nil => intro f _ _ h; exact h
  | cons t ts ih =>
    intro f ok ht h
    exact ih (ok_expandOne he true n ex ok t) (tot_expandOne he n ex ok ht t)
      (dom_expandOne he hr n ex ok ht t h)

theorem dom_expandAll_self (he : KeyEquiv P.eqS) (hr : P.Respects)
    (hm : ∀ a b, P.mayReplace a b = true) (n : ANode S A C)
    (ex : List (ANode S A C)) (ts : List (S × A × C)) :
    ∀ {f : Frontier (ANode S A C)}, FOk P f → Tot P f → ∀ t ∈ ts,
    exploredContains P ex t.1 = false →
    Dom P (ts.foldl (expandOne P true n ex) f) t.1 (n.pathCost + t.2.2) := by
  induction ts with
  | nil => intro f _ _ t ht; cases ht
  | cons t ts ih =>
    intro f ok htot t' ht' hx
    rcases List.mem_cons.1 ht' with rfl | ht'
    · exact dom_expandAll he hr n ex ts (ok_expandOne he true n ex ok _)
        (tot_expandOne he n ex ok htot _) (dom_expandOne_self he hr hm n ex ok htot _ hx)
    · exact ih (ok_expandOne he true n ex ok t) (tot_expandOne he n ex ok htot t) t' ht' hx

/-- Optimality invariant of graph search. -/
structure Opt (P : Problem S A C) (init : S) (s : Search S A C) : Prop where
  start : (s.calls = [] ∧ s.frontier.vec = [rootNode init]) ∨
    (Expanded P s.calls init ∧ Tot P s.frontier)
  exp : ∀ u ∈ s.calls, ∃ g, (∀ l x, Route P.tr init l x → P.eqS u x = true → g ≤ routeCost l) ∧
    ∀ t ∈ P.nbrs 0 u, Expanded P s.calls t.1 ∨ Dom P s.frontier t.1 (g + t.2.2)

theorem routeCost_snoc (l : List (A × C × S)) (a : A) (c : C) (v : S) :
    routeCost (l ++ [(a, c, v)]) = routeCost l + c := by
  simp [routeCost]

theorem frontier_bound (he : KeyEquiv P.eqS) (hd : P.Deterministic) (hr : P.Respects)
    (hcon : P.Consistent) {init : S} {s : Search S A C} (opt : Opt P init s)
    {l x} (hx : Route P.tr init l x) :
    Expanded P s.calls x ∨ ∃ y ∈ s.frontier.vec, y.pathCost + P.h y.state ≤ routeCost l + P.h x := by
  induction hx with
  | nil =>
    rcases opt.start with ⟨_, h⟩ | ⟨h, _⟩
    · right
      refine ⟨rootNode init, by rw [h]; simp, ?_⟩
      exact le_refl _
    · exact Or.inl h
  | @snoc l u a c v hrt htr ih =>
    rcases ih with ⟨u', hu', hq⟩ | ⟨y, hy, hyl⟩
    · obtain ⟨g, hg1, hg2⟩ := opt.exp u' hu'
      have hgl := hg1 l u hrt hq
      obtain ⟨k, hk⟩ := htr
      rw [hd] at hk
      obtain ⟨v', a', hv', hvv⟩ := hr.nbrs u u' (he.symm _ _ hq) v a c hk
      rcases hg2 _ hv' with ⟨w, hw, hwq⟩ | ⟨y, hy, hyv, hyc⟩
      · exact Or.inl ⟨w, hw, he.trans _ _ _ hwq (he.symm _ _ hvv)⟩
      · right
        refine ⟨y, hy, ?_⟩
        have hyv2 : P.h y.state = P.h v := hr.h _ _ (he.trans _ _ _ hyv (he.symm _ _ hvv))
        rw [routeCost_snoc, hyv2]
        exact add_le_add_left (le_trans hyc (add_le_add_left hgl c)) _
    · right
      refine ⟨y, hy, le_trans hyl ?_⟩
      rw [routeCost_snoc, add_assoc]
      exact add_le_add_right (hcon u a c v htr) _

/-- A popped node is reached at minimal cost among all routes to states with the same heuristic
value that have not been expanded. -/
theorem popped_optimal (he : KeyEquiv P.eqS) (hd : P.Deterministic) (hr : P.Respects)
    (hcon : P.Consistent) {graph : Bool} {init : S} {s : Search S A C} (inv : Inv P graph init s)
    (opt : Opt P init s) {f' : Frontier (ANode S A C)} {n : ANode S A C}
    (hp : s.frontier.pop (eqNode P) = some (f', n)) {l x} (hx : Route P.tr init l x)
    (hne : ¬ Expanded P s.calls x) (hh : P.h x = P.h n.state) : n.pathCost ≤ routeCost l := by
  have he' := eqNode_equiv he
  have hc := cmpNode_swo (S := S) (A := A) (C := C)
  obtain ⟨_, hn, hmin, _⟩ := inv.ok.pop hc he' hp
  rcases frontier_bound he hd hr hcon opt hx with h | ⟨y, hy, hyl⟩
  · exact absurd h hne
  · have key : n.pathCost + P.h n.state ≤ y.pathCost + P.h y.state := by
      rcases opt.start with ⟨_, h⟩ | ⟨_, h⟩
      · rw [h] at hn hy
        simp only [List.mem_singleton] at hn hy
        rw [hn, hy]
      · rw [← h n hn, ← h y hy]
        have := hmin y hy
        simpa [cmpNode] using this
    rw [← hh] at key
    exact le_of_add_le_add_right (le_trans key hyl)

theorem opt_init (init : S) : Opt P init (initSearch P init) := by
  refine ⟨Or.inl ⟨rfl, ?_⟩, ?_⟩
  · simp [initSearch, Frontier.push, Frontier.empty, Frontier.find,
      Frontier.findFirstCompareIsFalse, Frontier.ffLoop]
  intro u hu; simp [initSearch] at hu

theorem opt_expand (he : KeyEquiv P.eqS) (hd : P.Deterministic) (hr : P.Respects)
    (hm : ∀ a b, P.mayReplace a b = true) (hcon : P.Consistent) {init : S} {s : Search S A C}
    (inv : Inv P true init s) (opt : Opt P init s) {f' : Frontier (ANode S A C)}
    {n : ANode S A C} (hp : s.frontier.pop (eqNode P) = some (f', n))
    (hns : P.isSol n.state = false) : Opt P init (expand P true { s with frontier := f' } n) := by
  have he' := eqNode_equiv he
  have hc := cmpNode_swo (S := S) (A := A) (C := C)
  have inv' := inv_expand he inv hp hns
  obtain ⟨ok', hn, hmin, hmem⟩ := inv.ok.pop hc he' hp
  have htot' : Tot P f' := by
    intro y hy
    obtain ⟨hy1, hy2⟩ := (hmem y).1 hy
    rcases opt.start with ⟨_, h⟩ | ⟨_, h⟩
    · rw [h] at hn hy1
      simp only [List.mem_singleton] at hn hy1
      rw [hn, hy1, he'.refl] at hy2
      cases hy2
    · exact h y hy1
  have hinit : Expanded P (n.state :: s.calls) init := by
    rcases opt.start with ⟨_, h⟩ | ⟨⟨u, hu, hui⟩, _⟩
    · rw [h] at hn
      simp only [List.mem_singleton] at hn
      exact ⟨n.state, by simp, by rw [hn]; exact he.refl _⟩
    · exact ⟨u, by simp [hu], hui⟩
  obtain ⟨ex, hexd⟩ : ∃ ex, ex = exploredInsert P s.explored n := ⟨_, rfl⟩
  have hE : expand P true { s with frontier := f' } n =
      { s with explored := ex
               frontier := (P.nbrs 0 n.state).foldl (expandOne P true n ex) f'
               calls := n.state :: s.calls } := by
    simp only [expand, hexd]
    rw [hd]
  rw [hE] at inv' ⊢
  refine ⟨Or.inr ⟨hinit, tot_expandAll he n ex _ ok' htot'⟩, ?_⟩
  intro u hu
  rcases List.mem_cons.1 hu with rfl | hu
  · refine ⟨n.pathCost, ?_, ?_⟩
    · intro l x hx hq
      refine popped_optimal he hd hr hcon inv opt hp hx ?_ (hr.h _ _ (he.symm _ _ hq))
      intro hexp
      exact inv.disj rfl x hexp ⟨n, hn, hq⟩
    · intro t ht
      cases hce : exploredContains P ex t.1 with
      | true =>
        left
        rcases (inv'.explored_iff t.1).1 hce with h | h
        · exact h
        · obtain ⟨w, hw, hwi⟩ := hinit
          exact ⟨w, hw, he.trans _ _ _ hwi h⟩
      | false => exact Or.inr (dom_expandAll_self he hr hm n ex _ ok' htot' t ht hce)
  · obtain ⟨g, hg1, hg2⟩ := opt.exp u hu
    refine ⟨g, hg1, ?_⟩
    intro t ht
    rcases hg2 t ht with ⟨w, hw, hwq⟩ | ⟨y, hy, hyt, hyg⟩
    · exact Or.inl ⟨w, by simp [hw], hwq⟩
    · cases hq : eqNode P y n with
      | true => exact Or.inl ⟨n.state, by simp, he.trans _ _ _ (he.symm _ _ hq) hyt⟩
      | false =>
        exact Or.inr (dom_expandAll he hr n ex _ ok' htot' ⟨y, (hmem y).2 ⟨hy, hq⟩, hyt, hyg⟩)

/-! ### Tree search with uniform costs and a constant heuristic -/

/-- The path costs in the frontier differ by at most one transition cost. -/
def Layered (c₀ : C) (f : Frontier (ANode S A C)) : Prop :=
  ∀ y ∈ f.vec, ∀ y' ∈ f.vec, y.pathCost ≤ y'.pathCost + c₀

theorem tree_fold (he : KeyEquiv P.eqS) (n : ANode S A C) (ex : List (ANode S A C))
    {b : C} (ts : List (S × A × C)) (hts : ∀ t ∈ ts, n.pathCost + t.2.2 = b) :
    ∀ {f : Frontier (ANode S A C)}, FOk P f → (∀ y ∈ f.vec, y.pathCost ≤ b) →
    (∀ x g, Dom P f x g → Dom P (ts.foldl (expandOne P false n ex) f) x g) ∧
    (∀ t ∈ ts, Dom P (ts.foldl (expandOne P false n ex) f) t.1 b) := by
  have he' := eqNode_equiv he
  have hc := cmpNode_swo (S := S) (A := A) (C := C)
  induction ts with
  | nil => intro f ok hb; exact ⟨fun x g h => h, by simp⟩
  | cons t ts ih =>
    intro f ok hb
    have ok' := ok_expandOne he false n ex ok t
    have htb : (childNode P n t).pathCost = b := hts t (by simp)
    have hb' : ∀ y ∈ (expandOne P false n ex f t).vec, y.pathCost ≤ b := by
      intro y hy
      rcases mem_expandOne he false n ex ok t hy with h | rfl
      · exact hb y h
      · exact le_of_eq htb
    obtain ⟨h1, h2⟩ := ih (fun t' ht' => hts t' (by simp [ht'])) ok' hb'
    have hpush : (∀ y ∈ f.vec, y ∈ (expandOne P false n ex f t).vec) ∧
        Dom P (expandOne P false n ex f t) t.1 b := by
      have hE : expandOne P false n ex f t = (f.push cmpNode (eqNode P) (childNode P n t)).1 := by
        simp [expandOne]
      rw [hE]
      cases hf : f.find (eqNode P) (childNode P n t) with
      | none =>
        exact ⟨fun y hy => (ok.mem_push_new hc he' hf y).2 (Or.inr hy),
          ⟨_, (ok.mem_push_new hc he' hf _).2 (Or.inl rfl), he.refl _, le_of_eq htb⟩⟩
      | some z =>
        rw [ok.push_old he' hf]
        obtain ⟨hz1, hz2⟩ := (ok.find_iff he' _ z).1 hf
        exact ⟨fun y hy => hy, z, hz1, hz2, hb z hz1⟩
    refine ⟨?_, ?_⟩
    · rintro x g ⟨y, hy, hyx, hyg⟩
      exact h1 x g ⟨y, hpush.1 y hy, hyx, hyg⟩
    · intro t' ht'
      rcases List.mem_cons.1 ht' with rfl | ht'
      · exact h1 _ _ hpush.2
      · exact h2 t' ht'

theorem opt_expand_tree (he : KeyEquiv P.eqS) (hd : P.Deterministic) (hr : P.Respects)
    (hcon : P.Consistent) (hh : ∀ u v, P.h u = P.h v) {c₀ : C} (hc0 : 0 ≤ c₀)
    (hu : ∀ u a c v, P.tr u a c v → c = c₀) {init : S} {s : Search S A C}
    (inv : Inv P false init s) (opt : Opt P init s ∧ Layered c₀ s.frontier)
    {f' : Frontier (ANode S A C)} {n : ANode S A C}
    (hp : s.frontier.pop (eqNode P) = some (f', n)) :
    Opt P init (expand P false { s with frontier := f' } n) ∧
      Layered c₀ (expand P false { s with frontier := f' } n).frontier := by
  have he' := eqNode_equiv he
  have hc := cmpNode_swo (S := S) (A := A) (C := C)
  obtain ⟨opt, hlay⟩ := opt
  obtain ⟨ok', hn, hmin, hmem⟩ := inv.ok.pop hc he' hp
  have htot' : Tot P f' := by
    intro y hy
    obtain ⟨hy1, hy2⟩ := (hmem y).1 hy
    rcases opt.start with ⟨_, h⟩ | ⟨_, h⟩
    · rw [h] at hn hy1
      simp only [List.mem_singleton] at hn hy1
      rw [hn, hy1, he'.refl] at hy2
      cases hy2
    · exact h y hy1
  have hmin' : ∀ y ∈ f'.vec, n.pathCost ≤ y.pathCost := by
    intro y hy
    rcases opt.start with ⟨_, h⟩ | ⟨_, h⟩
    · obtain ⟨hy1, hy2⟩ := (hmem y).1 hy
      rw [h] at hn hy1
      simp only [List.mem_singleton] at hn hy1
      rw [hn, hy1]
    · have hm := hmin y ((hmem y).1 hy).1
      have hm' : n.totalCost ≤ y.totalCost := by simpa [cmpNode] using hm
      rw [h n hn, htot' y hy, hh n.state y.state] at hm'
      exact le_of_add_le_add_right hm'
  have hinit : Expanded P (n.state :: s.calls) init := by
    rcases opt.start with ⟨_, h⟩ | ⟨⟨u, hu, hui⟩, _⟩
    · rw [h] at hn
      simp only [List.mem_singleton] at hn
      exact ⟨n.state, by simp, by rw [hn]; exact he.refl _⟩
    · exact ⟨u, by simp [hu], hui⟩
  obtain ⟨ex, hexd⟩ : ∃ ex, ex = exploredInsert P s.explored n := ⟨_, rfl⟩
  have hE : expand P false { s with frontier := f' } n =
      { s with explored := ex
               frontier := (P.nbrs 0 n.state).foldl (expandOne P false n ex) f'
               calls := n.state :: s.calls } := by
    simp only [expand, hexd]
    rw [hd]
  rw [hE]
  have hts : ∀ t ∈ P.nbrs 0 n.state, n.pathCost + t.2.2 = n.pathCost + c₀ := by
    intro t ht
    rw [hu n.state t.2.1 t.2.2 t.1 ⟨0, ht⟩]
  have hb : ∀ y ∈ f'.vec, y.pathCost ≤ n.pathCost + c₀ :=
    fun y hy => hlay y ((hmem y).1 hy).1 n hn
  obtain ⟨hkeep, hself⟩ := tree_fold he n ex _ hts ok' hb
  have hbounds : ∀ y ∈ ((P.nbrs 0 n.state).foldl (expandOne P false n ex) f').vec,
      n.pathCost ≤ y.pathCost ∧ y.pathCost ≤ n.pathCost + c₀ ∧
      y.totalCost = y.pathCost + P.h y.state := by
    intro y hy
    rcases mem_expandAll he false n ex _ ok' hy with h | ⟨t, ht, rfl⟩
    · exact ⟨hmin' y h, hb y h, htot' y h⟩
    · have : (childNode P n t).pathCost = n.pathCost + c₀ := hts t ht
      exact ⟨by rw [this]; exact le_add_of_nonneg_right hc0, le_of_eq this, rfl⟩
  refine ⟨⟨Or.inr ⟨hinit, fun y hy => (hbounds y hy).2.2⟩, ?_⟩, ?_⟩
  · -- old entries survive
    have hold : ∀ u ∈ s.calls, ∃ g,
        (∀ l x, Route P.tr init l x → P.eqS u x = true → g ≤ routeCost l) ∧
        ∀ t ∈ P.nbrs 0 u, Expanded P (n.state :: s.calls) t.1 ∨
          Dom P ((P.nbrs 0 n.state).foldl (expandOne P false n ex) f') t.1 (g + t.2.2) := by
      intro u hu
      obtain ⟨g, hg1, hg2⟩ := opt.exp u hu
      refine ⟨g, hg1, ?_⟩
      intro t ht
      rcases hg2 t ht with ⟨w, hw, hwq⟩ | ⟨y, hy, hyt, hyg⟩
      · exact Or.inl ⟨w, by simp [hw], hwq⟩
      · cases hq : eqNode P y n with
        | true => exact Or.inl ⟨n.state, by simp, he.trans _ _ _ (he.symm _ _ hq) hyt⟩
        | false => exact Or.inr (hkeep _ _ ⟨y, (hmem y).2 ⟨hy, hq⟩, hyt, hyg⟩)
    intro u hu
    rcases List.mem_cons.1 hu with rfl | hu
    · by_cases hexp : Expanded P s.calls n.state
      · obtain ⟨u', hu', hq⟩ := hexp
        obtain ⟨g, hg1, hg2⟩ := hold u' hu'
        refine ⟨g, fun l x hx hnx => hg1 l x hx (he.trans _ _ _ hq hnx), ?_⟩
        rintro ⟨v, a, c⟩ ht
        obtain ⟨v', a', hv', hvv⟩ := hr.nbrs _ _ (he.symm _ _ hq) v a c ht
        rcases hg2 _ hv' with ⟨w, hw, hwq⟩ | ⟨y, hy, hyt, hyg⟩
        · exact Or.inl ⟨w, hw, he.trans _ _ _ hwq (he.symm _ _ hvv)⟩
        · exact Or.inr ⟨y, hy, he.trans _ _ _ hyt (he.symm _ _ hvv), hyg⟩
      · refine ⟨n.pathCost, ?_, fun t ht => Or.inr ?_⟩
        · intro l x hx hq
          refine popped_optimal he hd hr hcon inv opt hp hx ?_ (hh _ _)
          rintro ⟨w, hw, hwx⟩
          exact hexp ⟨w, hw, he.trans _ _ _ hwx (he.symm _ _ hq)⟩
        · rw [hts t ht]; exact hself t ht
    · exact hold u hu
  · intro y hy y' hy'
    exact le_trans (hbounds y hy).2.1 (add_le_add_left (hbounds y' hy').1 c₀)

end AStar
end PathPlanning
