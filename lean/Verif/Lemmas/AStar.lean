import Verif.Model.AStar
import Verif.Spec.Path
import Verif.Lemmas.Frontier

namespace PathPlanning
open Spec

namespace AStar
variable {S A C : Type} [LinearOrder C] [Add C] [Zero C]

theorem cmpNode_swo : StrictWeakOrder (cmpNode : ANode S A C → ANode S A C → Bool) where
  irrefl a := by simp [cmpNode]
  trans a b c := by
    simp only [cmpNode, decide_eq_true_eq]
    exact fun h1 h2 => lt_trans h2 h1
  incomp_trans a b c := by
    simp only [cmpNode, decide_eq_false_iff_not, not_lt]
    rintro ⟨h1, h2⟩ ⟨h3, h4⟩
    exact ⟨le_trans h1 h3, le_trans h4 h2⟩

theorem eqNode_equiv {P : Problem S A C} (he : KeyEquiv P.eqS) : KeyEquiv (eqNode P) where
  refl a := he.refl _
  symm a b := he.symm _ _
  trans a b c := he.trans _ _ _

abbrev FOk (P : Problem S A C) (f : Frontier (ANode S A C)) : Prop :=
  Frontier.Ok cmpNode (eqNode P) f

/-- A state equal to `x` is in the frontier. -/
def InF (P : Problem S A C) (f : Frontier (ANode S A C)) (x : S) : Prop :=
  ∃ y ∈ f.vec, P.eqS y.state x = true

/-- A state equal to `x` has been expanded. -/
def Expanded (P : Problem S A C) (calls : List S) (x : S) : Prop :=
  ∃ u ∈ calls, P.eqS u x = true

/-- A node whose chain of ancestors is a genuine path from `init`. -/
def WF (P : Problem S A C) (init : S) : ANode S A C → Prop
  | .root s p _ => s = init ∧ p = 0
  | .child par s a p t =>
    WF P init par ∧ ∃ c, P.tr par.state a c s ∧ p = par.pathCost + c ∧ t = p + P.h s

theorem WF.route {P : Problem S A C} {init : S} : ∀ {n : ANode S A C}, WF P init n →
    ∃ l, Route P.tr init l n.state ∧ routeCost l = n.pathCost ∧
      (∀ acc, fillStates (n.depth + 1) (some n) acc = some (routeStates init l ++ acc)) ∧
      (∀ acc, fillActions n.depth (some n) acc = some ((routeActions l).map some ++ acc))
  | .root s p t, h => by
    obtain ⟨rfl, rfl⟩ := h
    exact ⟨[], .nil, rfl, fun acc => rfl, fun acc => rfl⟩
  | .child par s a p t, h => by
    obtain ⟨hp, c, htr, hpc, _⟩ := h
    obtain ⟨l, h1, h2, h3, h4⟩ := WF.route hp
    refine ⟨l ++ [(a, c, s)], .snoc h1 htr, ?_, ?_, ?_⟩
    · simp only [routeCost, List.foldl_append, List.foldl_cons, List.foldl_nil]
      unfold routeCost at h2
      rw [h2]; exact hpc.symm
    · intro acc
      simp only [ANode.depth, fillStates, ANode.parent, ANode.state]
      exact (h3 (s :: acc)).trans (by simp [routeStates])
    · intro acc
      simp only [ANode.depth, fillActions, ANode.parent, ANode.action]
      exact (h4 (some a :: acc)).trans (by simp [routeActions])

theorem WF.child {P : Problem S A C} {init : S} {n : ANode S A C} (h : WF P init n) {k : Nat}
    {t : S × A × C} (ht : t ∈ P.nbrs k n.state) : WF P init (childNode P n t) :=
  ⟨h, t.2.2, ⟨k, ht⟩, rfl, rfl⟩

theorem exploredContains_iff {P : Problem S A C} {e : List (ANode S A C)} {x : S} :
    exploredContains P e x = true ↔ ∃ n ∈ e, P.eqS n.state x = true := by
  simp [exploredContains]

theorem mem_exploredInsert {P : Problem S A C} {e : List (ANode S A C)} {n y : ANode S A C}
    (hy : y ∈ exploredInsert P e n) : y = n ∨ y ∈ e := by
  unfold exploredInsert at hy
  split at hy
  · exact Or.inr hy
  · simpa using hy

theorem exploredContains_insert {P : Problem S A C} (he : KeyEquiv P.eqS)
    {e : List (ANode S A C)} {n : ANode S A C} {x : S} :
    exploredContains P (exploredInsert P e n) x = true ↔
      (exploredContains P e x = true ∨ P.eqS n.state x = true) := by
  unfold exploredInsert
  split
  · rename_i h
    constructor
    · exact Or.inl
    · rintro (h1 | h1)
      · exact h1
      · rw [exploredContains_iff] at h ⊢
        obtain ⟨m, hm, hmn⟩ := h
        exact ⟨m, hm, he.trans _ _ _ hmn h1⟩
  · simp [exploredContains, or_comm]

section
variable {P : Problem S A C}

theorem inF_congr (he : KeyEquiv P.eqS) {f : Frontier (ANode S A C)} {x y : S}
    (hxy : P.eqS x y = true) (h : InF P f x) : InF P f y := by
  obtain ⟨z, hz, hzx⟩ := h
  exact ⟨z, hz, he.trans _ _ _ hzx hxy⟩

theorem ok_expandOne (he : KeyEquiv P.eqS) (graph : Bool) (n : ANode S A C)
    (explored : List (ANode S A C)) {f : Frontier (ANode S A C)} (ok : FOk P f) (t : S × A × C) :
    FOk P (expandOne P graph n explored f t) := by
  have he' := eqNode_equiv he
  have hc := cmpNode_swo (S := S) (A := A) (C := C)
  unfold expandOne
  split
  · dsimp only
    split
    · split
      · exact ok
      · exact ok.push hc he' _
    · unfold processShortcut
      split
      · exact (ok.remove hc he' _).push hc he' _
      · exact ok
  · exact ok.push hc he' _

/-- Removing a found node frees its key. -/
theorem find_after_remove (he : KeyEquiv P.eqS) {f : Frontier (ANode S A C)} (ok : FOk P f)
    {c fn : ANode S A C} (hf : f.find (eqNode P) c = some fn) :
    (f.remove cmpNode (eqNode P) fn).1.find (eqNode P) c = none := by
  have he' := eqNode_equiv he
  have hc := cmpNode_swo (S := S) (A := A) (C := C)
  rw [(ok.remove hc he' fn).find_none_iff he']
  intro y hy
  obtain ⟨h1, h2⟩ := (ok.mem_remove hc he' fn y).1 hy
  obtain ⟨h3, h4⟩ := (ok.find_iff he' c fn).1 hf
  cases hyc : eqNode P y c with
  | false => rfl
  | true => rw [he'.trans _ _ _ hyc (he'.symm _ _ h4)] at h2; cases h2

theorem mem_shortcut (he : KeyEquiv P.eqS) {f : Frontier (ANode S A C)} (ok : FOk P f)
    {c fn : ANode S A C} (hf : f.find (eqNode P) c = some fn) (y : ANode S A C) :
    y ∈ ((f.remove cmpNode (eqNode P) fn).1.push cmpNode (eqNode P) c).1.vec ↔
      (y = c ∨ (y ∈ f.vec ∧ eqNode P y fn = false)) := by
  have he' := eqNode_equiv he
  have hc := cmpNode_swo (S := S) (A := A) (C := C)
  rw [(ok.remove hc he' fn).mem_push_new hc he' (find_after_remove he ok hf),
    ok.mem_remove hc he']

theorem mem_expandOne (he : KeyEquiv P.eqS) (graph : Bool) (n : ANode S A C)
    (explored : List (ANode S A C)) {f : Frontier (ANode S A C)} (ok : FOk P f) (t : S × A × C)
    {y : ANode S A C} (hy : y ∈ (expandOne P graph n explored f t).vec) :
    y ∈ f.vec ∨ y = childNode P n t := by
  have he' := eqNode_equiv he
  have hc := cmpNode_swo (S := S) (A := A) (C := C)
  have hpush : y ∈ (f.push cmpNode (eqNode P) (childNode P n t)).1.vec →
      y ∈ f.vec ∨ y = childNode P n t := by
    intro hy
    cases hf : f.find (eqNode P) (childNode P n t) with
    | none => exact ((ok.mem_push_new hc he' hf y).1 hy).symm
    | some z => rw [ok.push_old he' hf] at hy; exact Or.inl hy
  unfold expandOne at hy
  split at hy
  · dsimp only at hy
    split at hy
    · split at hy
      · exact Or.inl hy
      · exact hpush hy
    · rename_i fn hf
      unfold processShortcut at hy
      split at hy
      · rcases (mem_shortcut he ok hf y).1 hy with h | h
        · exact Or.inr h
        · exact Or.inl h.1
      · exact Or.inl hy
  · exact hpush hy

/-- Which states are in the frontier after one neighbour has been handled. -/
theorem inF_expandOne (he : KeyEquiv P.eqS) (graph : Bool) (n : ANode S A C)
    (explored : List (ANode S A C)) {f : Frontier (ANode S A C)} (ok : FOk P f) (t : S × A × C)
    (x : S) :
    InF P (expandOne P graph n explored f t) x ↔
      (InF P f x ∨ (P.eqS t.1 x = true ∧
        (graph = true → exploredContains P explored t.1 = false ∨ InF P f t.1))) := by
  have he' := eqNode_equiv he
  have hc := cmpNode_swo (S := S) (A := A) (C := C)
  have hcs : (childNode P n t).state = t.1 := rfl
  have hfound : ∀ z, f.find (eqNode P) (childNode P n t) = some z →
      z ∈ f.vec ∧ P.eqS z.state t.1 = true := fun z hz => (ok.find_iff he' _ z).1 hz
  have hpush : InF P (f.push cmpNode (eqNode P) (childNode P n t)).1 x ↔
      (InF P f x ∨ P.eqS t.1 x = true) := by
    cases hf : f.find (eqNode P) (childNode P n t) with
    | none =>
      constructor
      · rintro ⟨y, hy, hyx⟩
        rcases (ok.mem_push_new hc he' hf y).1 hy with rfl | hy
        · exact Or.inr hyx
        · exact Or.inl ⟨y, hy, hyx⟩
      · rintro (⟨y, hy, hyx⟩ | htx)
        · exact ⟨y, (ok.mem_push_new hc he' hf y).2 (Or.inr hy), hyx⟩
        · exact ⟨_, (ok.mem_push_new hc he' hf _).2 (Or.inl rfl), htx⟩
    | some z =>
      rw [ok.push_old he' hf]
      constructor
      · exact Or.inl
      · rintro (h | h)
        · exact h
        · obtain ⟨h1, h2⟩ := hfound z hf
          exact ⟨z, h1, he.trans _ _ _ h2 h⟩
  unfold expandOne
  cases graph with
  | false => simp only [Bool.false_eq_true, if_false, hpush, false_implies, and_true]
  | true =>
    simp only [if_true, true_implies]
    cases hf : f.find (eqNode P) (childNode P n t) with
    | none =>
      simp only [hcs]
      have hnf : ¬ InF P f t.1 := by
        rintro ⟨y, hy, hyx⟩
        have := (ok.find_none_iff he' _).1 hf y hy
        exact absurd hyx (by simpa [eqNode, hcs] using this)
      cases hex : exploredContains P explored t.1 with
      | true => simp [hnf]
      | false => simp [hpush]
    | some fn =>
      obtain ⟨h1, h2⟩ := hfound fn hf
      have hinf : InF P f t.1 := ⟨fn, h1, h2⟩
      have hR : (InF P f x ∨ P.eqS t.1 x = true ∧
          (exploredContains P explored t.1 = false ∨ InF P f t.1)) ↔ InF P f x := by
        constructor
        · rintro (h | ⟨h, _⟩)
          · exact h
          · exact inF_congr he h hinf
        · exact Or.inl
      rw [hR]
      dsimp only
      unfold processShortcut
      split
      · constructor
        · rintro ⟨y, hy, hyx⟩
          rcases (mem_shortcut he ok hf y).1 hy with rfl | hy
          · exact inF_congr he hyx hinf
          · exact ⟨y, hy.1, hyx⟩
        · rintro ⟨y, hy, hyx⟩
          cases hq : eqNode P y fn with
          | false => exact ⟨y, (mem_shortcut he ok hf y).2 (Or.inr ⟨hy, hq⟩), hyx⟩
          | true =>
            refine ⟨_, (mem_shortcut he ok hf _).2 (Or.inl rfl), ?_⟩
            rw [hcs]
            exact he.trans _ _ _ (he.symm _ _ h2) (he.trans _ _ _ (he.symm _ _ hq) hyx)
      · exact Iff.rfl

theorem ok_expandAll (he : KeyEquiv P.eqS) (graph : Bool) (n : ANode S A C)
    (explored : List (ANode S A C)) (ts : List (S × A × C)) :
    ∀ {f : Frontier (ANode S A C)}, FOk P f → FOk P (ts.foldl (expandOne P graph n explored) f) := by
  induction ts with
  | nil => intro f ok; exact ok
  | cons t ts ih => intro f ok; exact ih (ok_expandOne he graph n explored ok t)

theorem mem_expandAll (he : KeyEquiv P.eqS) (graph : Bool) (n : ANode S A C)
    (explored : List (ANode S A C)) (ts : List (S × A × C)) :
    ∀ {f : Frontier (ANode S A C)}, FOk P f → ∀ {y},
      y ∈ (ts.foldl (expandOne P graph n explored) f).vec →
      y ∈ f.vec ∨ ∃ t ∈ ts, y = childNode P n t := by
  induction ts with
  | nil => intro f ok y hy; exact Or.inl hy
  | cons t ts ih =>
    intro f ok y hy
    rcases ih (ok_expandOne he graph n explored ok t) hy with h | ⟨t', ht', h⟩
    · rcases mem_expandOne he graph n explored ok t h with h | h
      · exact Or.inl h
      · exact Or.inr ⟨t, by simp, h⟩
    · exact Or.inr ⟨t', by simp [ht'], h⟩

theorem inF_expandAll (he : KeyEquiv P.eqS) (graph : Bool) (n : ANode S A C)
    (explored : List (ANode S A C)) (ts : List (S × A × C)) (x : S) :
    ∀ {f : Frontier (ANode S A C)}, FOk P f →
      (InF P (ts.foldl (expandOne P graph n explored) f) x ↔
        (InF P f x ∨ ∃ t ∈ ts, P.eqS t.1 x = true ∧
          (graph = true → exploredContains P explored t.1 = false ∨ InF P f t.1))) := by
  induction ts with
  | nil => intro f ok; simp
  | cons t ts ih =>
    intro f ok
    rw [List.foldl_cons, ih (ok_expandOne he graph n explored ok t)]
    have h1 := inF_expandOne he graph n explored ok t
    constructor
    · rintro (h | ⟨t', ht', hx, hg⟩)
      · rcases (h1 x).1 h with h | h
        · exact Or.inl h
        · exact Or.inr ⟨t, by simp, h⟩
      · cases hgr : graph with
        | false => exact Or.inr ⟨t', by simp [ht'], hx, by simp⟩
        | true =>
          rcases hg hgr with hg | hg
          · exact Or.inr ⟨t', by simp [ht'], hx, fun _ => Or.inl hg⟩
          · rcases (h1 t'.1).1 hg with hg | ⟨hg1, hg2⟩
            · exact Or.inr ⟨t', by simp [ht'], hx, fun _ => Or.inr hg⟩
            · exact Or.inr ⟨t, by simp, he.trans _ _ _ hg1 hx, fun _ => hg2 hgr⟩
    · rintro (h | ⟨t', ht', hx, hg⟩)
      · exact Or.inl ((h1 x).2 (Or.inl h))
      · rcases List.mem_cons.1 ht' with rfl | ht'
        · exact Or.inl ((h1 x).2 (Or.inr ⟨hx, hg⟩))
        · refine Or.inr ⟨t', ht', hx, fun hgr => ?_⟩
          rcases hg hgr with hg | hg
          · exact Or.inl hg
          · exact Or.inr ((h1 _).2 (Or.inl hg))

/-- Invariant of the main loop (graph search and tree search). -/
structure Inv (P : Problem S A C) (graph : Bool) (init : S) (s : Search S A C) : Prop where
  ok : FOk P s.frontier
  wf : ∀ n ∈ s.frontier.vec, WF P init n
  wfe : ∀ n ∈ s.explored, WF P init n
  explored_iff : ∀ x, exploredContains P s.explored x = true ↔
    (Expanded P s.calls x ∨ P.eqS init x = true)
  disj : graph = true → ∀ x, Expanded P s.calls x → ¬ InF P s.frontier x
  initIn : Expanded P s.calls init ∨ InF P s.frontier init
  closed : ∀ u ∈ s.calls, ∃ k, ∀ t ∈ P.nbrs k u, Expanded P s.calls t.1 ∨ InF P s.frontier t.1
  nodup : graph = true → s.calls.Pairwise (fun a b => P.eqS a b = false)
  notSol : ∀ u ∈ s.calls, P.isSol u = false
  reach : ∀ u ∈ s.calls, Reachable P.tr init u
  sol : s.solution = none

theorem inv_init (he : KeyEquiv P.eqS) (graph : Bool) (init : S) :
    Inv P graph init (initSearch P init) := by
  have he' := eqNode_equiv he
  have hc := cmpNode_swo (S := S) (A := A) (C := C)
  have ok0 : FOk P (Frontier.empty : Frontier (ANode S A C)) := Frontier.ok_empty
  have hnone : (Frontier.empty : Frontier (ANode S A C)).find (eqNode P) (rootNode init) = none :=
    rfl
  have hmem : ∀ y, y ∈ (initSearch P init).frontier.vec ↔ y = rootNode init := by
    intro y
    show y ∈ (Frontier.push _ _ _ _).1.vec ↔ _
    rw [ok0.mem_push_new hc he' hnone]
    simp [Frontier.empty]
  have hex : (initSearch P init).explored = [rootNode init] := by
    simp [initSearch, exploredInsert, exploredContains]
  refine ⟨ok0.push hc he' _, ?_, ?_, ?_, ?_, ?_, ?_, ?_, ?_, ?_, rfl⟩
  · intro n hn; rw [(hmem n).1 hn]; exact ⟨rfl, rfl⟩
  · intro n hn; rw [hex] at hn; simp at hn; subst hn; exact ⟨rfl, rfl⟩
  · intro x
    rw [hex]
    simp [exploredContains, Expanded, initSearch, rootNode, ANode.state]
  · intro _ x hx; obtain ⟨u, hu, _⟩ := hx; simp [initSearch] at hu
  · right; exact ⟨rootNode init, (hmem _).2 rfl, he.refl _⟩
  · intro u hu; simp [initSearch] at hu
  · intro _; exact List.Pairwise.nil
  · intro u hu; simp [initSearch] at hu
  · intro u hu; simp [initSearch] at hu

theorem inv_expand (he : KeyEquiv P.eqS) {graph : Bool} {init : S} {s : Search S A C}
    (inv : Inv P graph init s) {f' : Frontier (ANode S A C)} {n : ANode S A C}
    (hp : s.frontier.pop (eqNode P) = some (f', n)) (hns : P.isSol n.state = false) :
    Inv P graph init (expand P graph { s with frontier := f' } n) := by
  have he' := eqNode_equiv he
  have hc := cmpNode_swo (S := S) (A := A) (C := C)
  obtain ⟨ok', hn, hmin, hmem⟩ := inv.ok.pop hc he' hp
  have hwfn := inv.wf n hn
  obtain ⟨ex, hexd⟩ : ∃ ex, ex = exploredInsert P s.explored n := ⟨_, rfl⟩
  have hexi : ∀ x, exploredContains P ex x = true ↔
      (Expanded P (n.state :: s.calls) x ∨ P.eqS init x = true) := by
    intro x
    rw [hexd, exploredContains_insert he, inv.explored_iff]
    constructor
    · rintro ((⟨u, hu, hux⟩ | h) | h)
      · exact Or.inl ⟨u, by simp [hu], hux⟩
      · exact Or.inr h
      · exact Or.inl ⟨n.state, by simp, h⟩
    · rintro (⟨u, hu, hux⟩ | h)
      · rcases List.mem_cons.1 hu with rfl | hu
        · exact Or.inr hux
        · exact Or.inl (Or.inl ⟨u, hu, hux⟩)
      · exact Or.inl (Or.inr h)
  obtain ⟨ts, htsd⟩ : ∃ ts, ts = P.nbrs s.calls.length n.state := ⟨_, rfl⟩
  have hInF' : ∀ x, InF P f' x → InF P s.frontier x := by
    rintro x ⟨y, hy, hyx⟩
    exact ⟨y, ((hmem y).1 hy).1, hyx⟩
  have hSplit : ∀ x, InF P s.frontier x → P.eqS n.state x = true ∨ InF P f' x := by
    rintro x ⟨y, hy, hyx⟩
    cases hq : eqNode P y n with
    | false => exact Or.inr ⟨y, (hmem y).2 ⟨hy, hq⟩, hyx⟩
    | true => exact Or.inl (he.trans _ _ _ (he.symm _ _ hq) hyx)
  have hnF' : ¬ InF P f' n.state := by
    rintro ⟨y, hy, hyx⟩
    have := ((hmem y).1 hy).2
    exact absurd hyx (by simpa [eqNode] using this)
  have hF := fun x => inF_expandAll he graph n ex ts x ok'
  have hE : expand P graph { s with frontier := f' } n =
      { s with explored := ex
               frontier := ts.foldl (expandOne P graph n ex) f'
               calls := n.state :: s.calls } := by
    simp only [expand, hexd, htsd]
  rw [hE]
  have hcalls : ∀ x, Expanded P s.calls x → Expanded P (n.state :: s.calls) x := by
    rintro x ⟨u, hu, hux⟩; exact ⟨u, by simp [hu], hux⟩
  -- every state that was expanded or in the frontier still is
  have hKeep : ∀ x, (Expanded P s.calls x ∨ InF P s.frontier x) →
      (Expanded P (n.state :: s.calls) x ∨ InF P (ts.foldl (expandOne P graph n ex) f') x) := by
    rintro x (h | h)
    · exact Or.inl (hcalls x h)
    · rcases hSplit x h with h | h
      · exact Or.inl ⟨n.state, by simp, h⟩
      · exact Or.inr ((hF x).2 (Or.inl h))
  refine ⟨ok_expandAll he graph n ex ts ok', ?_, ?_, hexi, ?_, ?_, ?_, ?_, ?_, ?_, inv.sol⟩
  · intro y hy
    rcases mem_expandAll he graph n ex ts ok' hy with h | ⟨t, ht, rfl⟩
    · exact inv.wf y ((hmem y).1 h).1
    · rw [htsd] at ht; exact hwfn.child ht
  · intro y hy
    rw [hexd] at hy
    rcases mem_exploredInsert hy with rfl | hy
    · exact hwfn
    · exact inv.wfe y hy
  · intro hg x hx hIn
    have hx' : exploredContains P ex x = true := (hexi x).2 (Or.inl hx)
    have hnot : ¬ InF P f' x := by
      intro h
      obtain ⟨u, hu, hux⟩ := hx
      rcases List.mem_cons.1 hu with rfl | hu
      · exact hnF' (inF_congr he (he.symm _ _ hux) h)
      · exact inv.disj hg x ⟨u, hu, hux⟩ (hInF' x h)
    rcases (hF x).1 hIn with h | ⟨t, ht, htx, h⟩
    · exact hnot h
    · rcases h hg with h | h
      · rw [exploredContains_iff] at hx'
        obtain ⟨m, hm, hmx⟩ := hx'
        have : exploredContains P ex t.1 = true :=
          exploredContains_iff.2 ⟨m, hm, he.trans _ _ _ hmx (he.symm _ _ htx)⟩
        rw [this] at h; cases h
      · exact hnot (inF_congr he htx h)
  · exact hKeep init inv.initIn
  · intro u hu
    rcases List.mem_cons.1 hu with rfl | hu
    · refine ⟨s.calls.length, ?_⟩
      rw [← htsd]
      intro t ht
      by_cases hgr : graph = true ∧ exploredContains P ex t.1 = true
      · rcases (hexi t.1).1 hgr.2 with h | h
        · exact Or.inl h
        · rcases hKeep init inv.initIn with h' | h'
          · obtain ⟨w, hw, hwi⟩ := h'
            exact Or.inl ⟨w, hw, he.trans _ _ _ hwi h⟩
          · exact Or.inr (inF_congr he h h')
      · refine Or.inr ((hF t.1).2 (Or.inr ⟨t, ht, he.refl _, fun hg => Or.inl ?_⟩))
        cases hce : exploredContains P ex t.1 with
        | false => rfl
        | true => exact absurd ⟨hg, hce⟩ hgr
    · obtain ⟨k, hk⟩ := inv.closed u hu
      exact ⟨k, fun t ht => hKeep t.1 (hk t ht)⟩
  · intro hg
    refine List.pairwise_cons.2 ⟨?_, inv.nodup hg⟩
    intro u hu
    cases hq : P.eqS n.state u with
    | false => rfl
    | true =>
      exfalso
      exact inv.disj hg n.state ⟨u, hu, he.symm _ _ hq⟩ ⟨n, hn, he.refl _⟩
  · intro u hu
    rcases List.mem_cons.1 hu with rfl | hu
    · exact hns
    · exact inv.notSol u hu
  · intro u hu
    rcases List.mem_cons.1 hu with rfl | hu
    · obtain ⟨l, hl, _⟩ := hwfn.route
      exact ⟨l, hl⟩
    · exact inv.reach u hu

/-- What holds when the loop stops. -/
theorem loop_spec (he : KeyEquiv P.eqS) {graph : Bool} {init : S} (I : Search S A C → Prop)
    (hI : ∀ s f' n, Inv P graph init s → I s → s.frontier.pop (eqNode P) = some (f', n) →
      P.isSol n.state = false → I (expand P graph { s with frontier := f' } n)) :
    ∀ (fuel : Nat) (s : Search S A C) (st : Status) (s' : Search S A C),
      Inv P graph init s → I s → loop P graph fuel s = some (st, s') →
      (st = .failure ∧ Inv P graph init s' ∧ I s' ∧ s'.frontier.vec = []) ∨
      (st = .success ∧ ∃ s₀ f' n, Inv P graph init s₀ ∧ I s₀ ∧
        s₀.frontier.pop (eqNode P) = some (f', n) ∧ P.isSol n.state = true ∧
        s' = { s₀ with frontier := f', solution := some n }) := by
  intro fuel
  induction fuel with
  | zero => intro s st s' _ _ h; cases h
  | succ fuel ih =>
    intro s st s' inv hi h
    unfold loop at h
    cases hp : s.frontier.pop (eqNode P) with
    | none =>
      rw [hp] at h
      cases h
      exact Or.inl ⟨rfl, inv, hi, Frontier.pop_eq_none_iff.1 hp⟩
    | some r =>
      obtain ⟨f', n⟩ := r
      rw [hp] at h
      simp only at h
      cases hs : P.isSol n.state with
      | true =>
        rw [hs] at h
        simp only [if_true] at h
        cases h
        exact Or.inr ⟨rfl, s, f', n, inv, hi, hp, hs, rfl⟩
      | false =>
        rw [hs] at h
        simp only [Bool.false_eq_true, if_false] at h
        exact ih _ st s' (inv_expand he inv hp hs) (hI s f' n inv hi hp hs) h

theorem searchPath_spec (he : KeyEquiv P.eqS) {graph : Bool} {init : S} {fuel : Nat}
    {st : Status} {s' : Search S A C} (h : searchPath P graph fuel init = some (st, s')) :
    (st = .failure ∧ Inv P graph init s' ∧ s'.frontier.vec = []) ∨
    (st = .success ∧ ∃ s₀ f' n, Inv P graph init s₀ ∧
        s₀.frontier.pop (eqNode P) = some (f', n) ∧ P.isSol n.state = true ∧
        s' = { s₀ with frontier := f', solution := some n }) := by
  rcases loop_spec he (fun _ => True) (by intros; trivial) fuel _ st s' (inv_init he graph init)
    trivial h with h | h
  · exact Or.inl ⟨h.1, h.2.1, h.2.2.2⟩
  · obtain ⟨h1, s₀, f', n, h2, _, h3⟩ := h
    exact Or.inr ⟨h1, s₀, f', n, h2, h3⟩

theorem calls_expand (graph : Bool) (s : Search S A C) (n : ANode S A C) :
    (expand P graph s n).calls = n.state :: s.calls := rfl

/-- Each iteration makes one call; if the search is not over after `fuel` iterations, it has made
`fuel` further calls. -/
theorem loop_none (he : KeyEquiv P.eqS) {graph : Bool} {init : S} :
    ∀ (fuel : Nat) (s : Search S A C), Inv P graph init s → loop P graph fuel s = none →
      ∃ s', Inv P graph init s' ∧ s'.calls.length = s.calls.length + fuel := by
  intro fuel
  induction fuel with
  | zero => intro s inv _; exact ⟨s, inv, rfl⟩
  | succ fuel ih =>
    intro s inv h
    unfold loop at h
    cases hp : s.frontier.pop (eqNode P) with
    | none => rw [hp] at h; cases h
    | some r =>
      obtain ⟨f', n⟩ := r
      rw [hp] at h
      simp only at h
      cases hs : P.isSol n.state with
      | true => rw [hs] at h; cases h
      | false =>
        rw [hs] at h
        simp only [Bool.false_eq_true, if_false] at h
        obtain ⟨s', h1, h2⟩ := ih _ (inv_expand he inv hp hs) h
        exact ⟨s', h1, by rw [h2, calls_expand]; simp; omega⟩

/-- More fuel does not change a finished search. -/
theorem loop_mono {graph : Bool} : ∀ (fuel k : Nat) (s : Search S A C) r,
    loop P graph fuel s = some r → loop P graph (fuel + k) s = some r := by
  intro fuel
  induction fuel with
  | zero => intro k s r h; cases h
  | succ fuel ih =>
    intro k s r h
    rw [Nat.add_right_comm]
    unfold loop at h ⊢
    cases hp : s.frontier.pop (eqNode P) with
    | none => rw [hp] at h; exact h
    | some q =>
      rw [hp] at h
      simp only at h ⊢
      split at h
      · rename_i hs; rw [if_pos hs]; exact h
      · rename_i hs; rw [if_neg hs]; exact ih k _ r h

end
end AStar
end PathPlanning
