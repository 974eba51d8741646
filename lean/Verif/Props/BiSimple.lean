import Verif.Props.BiGrid
import Verif.Props.BiRound

/-!
# C155: the path of a bidirectional graph search visits no state twice
-/

namespace PathPlanning
open Spec AStar

section
variable {S A C : Type}

/-- A node and its ancestors. -/
private def anc : ANode S A C → List (ANode S A C)
  | .root s p t => [.root s p t]
  | .child q s a p t => .child q s a p t :: anc q

private theorem self_anc : ∀ n : ANode S A C, n ∈ anc n
  | .root _ _ _ => List.mem_cons_self ..
  | .child _ _ _ _ _ => List.mem_cons_self ..

private theorem depth_anc : ∀ {n a : ANode S A C}, a ∈ anc n → a.depth ≤ n.depth
  | .root _ _ _, a, h => by rw [List.mem_singleton.mp h]
  | .child q s x p t, a, h => by
    rcases List.mem_cons.mp h with rfl | h
    · exact le_refl _
    · exact le_trans (depth_anc h) (Nat.le_succ _)

private theorem anc_trans : ∀ {n a b : ANode S A C}, a ∈ anc n → b ∈ anc a → b ∈ anc n
  | .root _ _ _, a, b, h, hb => by rw [List.mem_singleton.mp h] at hb; exact hb
  | .child q s x p t, a, b, h, hb => by
    rcases List.mem_cons.mp h with rfl | h
    · exact hb
    · exact List.mem_cons_of_mem _ (anc_trans h hb)

private theorem anc_depths (n : ANode S A C) : (anc n).Pairwise (fun a b => b.depth < a.depth) := by
  induction n with
  | root _ _ _ => exact List.pairwise_singleton _ _
  | child q s x p t ih =>
    exact List.pairwise_cons.mpr ⟨fun b hb => Nat.lt_succ_of_le (depth_anc hb), ih⟩

private theorem fill_anc : ∀ (n : ANode S A C) (acc : List S),
    fillStates (n.depth + 1) (some n) acc = some (((anc n).map ANode.state).reverse ++ acc)
  | .root _ _ _, _ => rfl
  | .child p s _ _ _, acc => by
    simp only [ANode.depth, fillStates, ANode.parent, ANode.state, anc, List.map_cons, List.reverse_cons, List.append_assoc,
      List.singleton_append]
    exact fill_anc p (s :: acc)

variable [LinearOrder C] [Add C] [Zero C]

private theorem cost_anc {P : Problem S A C} {init : S} (hc : ∀ u a c v, P.tr u a c v → ∀ x : C, x ≤ x + c) :
    ∀ {n a : ANode S A C}, WF P init n → a ∈ anc n → a.pathCost ≤ n.pathCost
  | .root _ _ _, a, _, h => by rw [List.mem_singleton.mp h]
  | .child q s x p t, a, hw, h => by
    rcases List.mem_cons.mp h with rfl | h
    · exact le_refl _
    · obtain ⟨hq, c, ht, hp, -⟩ := hw
      refine le_trans (cost_anc hc hq h) ?_
      show q.pathCost ≤ p
      rw [hp]
      exact hc _ _ _ _ ht _

/-- One direction: the ancestors of all nodes are stored, one node for each state. -/
private structure Half (P : Problem S A C) (init : S) (s : Search S A C) : Prop where
  fresh : (s.frontier.vec = [rootNode init] ∧ s.explored = [rootNode init]) ∨ Expanded P s.calls init
  ancF : ∀ y ∈ s.frontier.vec, ∀ a ∈ anc y, a = y ∨ a ∈ s.explored
  ancE : ∀ y ∈ s.explored, ∀ a ∈ anc y, a ∈ s.explored
  uniq : ∀ a ∈ s.explored, ∀ b ∈ s.explored, P.eqS a.state b.state = true → a = b

private theorem Half.congr {P : Problem S A C} {init : S} {s t : Search S A C} (h : Half P init s) (e : Bi.core t = Bi.core s) :
    Half P init t := by
  obtain ⟨e1, e2, e3⟩ := Bi.core_eq e
  exact ⟨by rw [e1, e2, e3]; exact h.fresh, by rw [e1, e2]; exact h.ancF, by rw [e2]; exact h.ancE, by rw [e2]; exact h.uniq⟩

omit [Add C] in
private theorem half_init (P : Problem S A C) (init : S) : Half P init (initSearch P init) := by
  have h : (initSearch P init).frontier.vec = [rootNode init] := by
    simp [initSearch, Frontier.push, Frontier.empty,
      Frontier.findFirstCompareIsFalse, Frontier.ffLoop]
  have hex : (initSearch P init).explored = [rootNode init] := by
    simp [initSearch, exploredInsert, exploredContains]
  refine ⟨.inl ⟨h, hex⟩, ?_, ?_, ?_⟩
  · intro y hy a ha
    rw [h, List.mem_singleton] at hy
    subst hy
    exact .inl (List.mem_singleton.mp ha)
  · intro y hy a ha
    rw [hex, List.mem_singleton] at hy
    subst hy
    rw [hex]
    exact ha
  · intro a ha b hb _
    rw [hex, List.mem_singleton] at ha hb
    rw [ha, hb]

private theorem half_expand {P : Problem S A C} (he : KeyEquiv P.eqS) {init : S} {s : Search S A C}
    (inv : Inv P true init (Bi.core s)) (h : Half P init s) {f' : Frontier (ANode S A C)} {n : ANode S A C}
    (hp : s.frontier.pop (eqNode P) = some (f', n)) :
    Half P init (expand P true { s with frontier := f' } n) ∧
      (∀ a ∈ anc n, a ∈ (expand P true { s with frontier := f' } n).explored) ∧
      (∀ a ∈ s.explored, a ∈ (expand P true { s with frontier := f' } n).explored) ∧
      (∀ a ∈ (expand P true { s with frontier := f' } n).explored, a = n ∨ a ∈ s.explored) ∧
      (s.frontier.vec = [rootNode init] → n = rootNode init) := by
  obtain ⟨ok', hn, -, hmem⟩ := inv.ok.pop (cmpNode_swo (S := S) (A := A) (C := C)) (eqNode_equiv he) hp
  have hroot : s.frontier.vec = [rootNode init] → n = rootNode init := by
    intro hv
    have : n ∈ s.frontier.vec := hn
    rw [hv, List.mem_singleton] at this
    exact this
  have hsub : ∀ a ∈ s.explored, a ∈ exploredInsert P s.explored n := by
    intro a ha
    unfold exploredInsert
    split
    · exact ha
    · exact List.mem_cons_of_mem _ ha
  have hsup : ∀ a ∈ exploredInsert P s.explored n, a = n ∨ a ∈ s.explored := fun a ha => mem_exploredInsert ha
  have hself : n ∈ exploredInsert P s.explored n := by
    unfold exploredInsert
    split
    · rename_i hc
      rcases h.fresh with ⟨h1, h2⟩ | h1
      · rw [hroot h1, h2]; exact List.mem_singleton.mpr rfl
      · exfalso
        rcases (inv.explored_iff n.state).mp hc with h3 | h3
        · exact inv.disj rfl _ h3 ⟨n, hn, he.refl _⟩
        · exact inv.disj rfl _ h1 ⟨n, hn, he.symm _ _ h3⟩
    · exact List.mem_cons_self ..
  have hanc : ∀ a ∈ anc n, a ∈ exploredInsert P s.explored n := by
    intro a ha
    rcases h.ancF n hn a ha with rfl | h3
    · exact hself
    · exact hsub a h3
  refine ⟨⟨?_, ?_, ?_, ?_⟩, hanc, hsub, hsup, hroot⟩
  · right
    rcases h.fresh with ⟨h1, -⟩ | ⟨u, hu, hui⟩
    · exact ⟨n.state, List.mem_cons_self .., by rw [hroot h1]; exact he.refl _⟩
    · exact ⟨u, List.mem_cons_of_mem _ hu, hui⟩
  · intro y hy a ha
    rcases mem_expandAll he true n _ _ ok' hy with h3 | ⟨t, _, rfl⟩
    · exact (h.ancF y ((hmem y).1 h3).1 a ha).imp id (hsub a)
    · rcases List.mem_cons.mp ha with h3 | h3
      · exact .inl h3
      · exact .inr (hanc a h3)
  · intro y hy a ha
    rcases hsup y hy with rfl | h3
    · exact hanc a ha
    · exact hsub a (h.ancE y h3 a ha)
  · have key : ∀ b ∈ s.explored, P.eqS n.state b.state = true → n = b := by
      intro b hb hq
      have hc : exploredContains P s.explored n.state = true := exploredContains_iff.mpr ⟨b, hb, he.symm _ _ hq⟩
      have : n ∈ s.explored := by
        have := hself
        unfold exploredInsert at this
        rwa [if_pos hc] at this
      exact h.uniq n this b hb hq
    intro a ha b hb hq
    rcases hsup a ha with rfl | ha'
    · rcases hsup b hb with rfl | hb'
      · rfl
      · exact key b hb' hq
    · rcases hsup b hb with rfl | hb'
      · exact (key a ha' (he.symm _ _ hq)).symm
      · exact h.uniq a ha' b hb' hq

/-- Both directions: no pair of stored nodes with equal states is better than the best pair so far, and the paths of the best
pair have only their ends in common. -/
private structure SimpleB (B : BiProblem S A C) (init goal : S) (s : BiSearch S A C) : Prop where
  f : Half B.fwd init s.f
  r : Half B.rev goal s.r
  cand : (s.f.frontier.vec = [rootNode init] ∧ s.f.explored = [rootNode init] ∧
      s.r.frontier.vec = [rootNode goal] ∧ s.r.explored = [rootNode goal]) ∨
    ∀ a ∈ s.f.explored, ∀ b ∈ s.r.explored, B.fwd.eqS a.state b.state = true →
      ∃ x, s.best = some x ∧ x ≤ a.pathCost + b.pathCost
  sol : ∀ x y, s.f.solution = some x → s.r.solution = some y → x ∈ s.f.explored ∧ y ∈ s.r.explored ∧
    ∀ a ∈ anc x, ∀ b ∈ anc y, B.fwd.eqS a.state b.state = true → a = x ∧ b = y

private theorem SimpleB.swap {B : BiProblem S A C} (w : Bi.Wf B) (hcomm : ∀ a b : C, a + b = b + a) {init goal : S}
    {s : BiSearch S A C} (h : SimpleB B init goal s) : SimpleB (Bi.swapP B) goal init (Bi.swapS s) := by
  refine ⟨h.r, h.f, ?_, ?_⟩
  · rcases h.cand with ⟨a, b, c, d⟩ | h
    · exact .inl ⟨c, d, a, b⟩
    · refine .inr fun a ha b hb hq => ?_
      obtain ⟨x, h1, h2⟩ := h b hb a ha (w.eqv.symm _ _ (by rw [← w.same]; exact hq))
      exact ⟨x, h1, by rw [hcomm]; exact h2⟩
  · intro x y hx hy
    obtain ⟨h1, h2, h3⟩ := h.sol y x hy hx
    refine ⟨h2, h1, fun a ha b hb hq => ?_⟩
    exact (h3 b hb a ha (w.eqv.symm _ _ (by rw [← w.same]; exact hq))).symm

private theorem simple_forward {B : BiProblem S A C} (w : Bi.Wf B) {init goal : S}
    (hadd : ∀ a b c d : C, a ≤ b → c ≤ d → a + c ≤ b + d)
    (hcf : ∀ u a c v, B.fwd.tr u a c v → ∀ x : C, x ≤ x + c) (hcr : ∀ u a c v, B.rev.tr u a c v → ∀ x : C, x ≤ x + c)
    {s : BiSearch S A C} (inv : Bi.BInv B true init goal s) (h : SimpleB B init goal s)
    {f' : Frontier (ANode S A C)} {n : ANode S A C} (hp : s.f.frontier.pop (eqNode B.fwd) = some (f', n)) :
    SimpleB B init goal (Bi.forward B true s f' n) := by
  obtain ⟨e, hed⟩ : ∃ e, e = AStar.expand B.fwd true { s.f with frontier := f' } n := ⟨_, rfl⟩
  obtain ⟨hH, hanc, hsub, hsup, hroot⟩ := half_expand w.eqv inv.f h.f hp
  rw [← hed] at hH hanc hsub hsup
  have hes : e.solution = s.f.solution := by rw [hed]; rfl
  obtain ⟨hq1, hq2, -⟩ := Bi.findIntersection_core B.rev n e s.r s.best
  obtain ⟨q, hqd⟩ : ∃ q, q = Bi.findIntersection B.rev n e s.r s.best := ⟨_, rfl⟩
  have hF : Bi.forward B true s f' n = { f := q.1, r := q.2.1, best := q.2.2 } := by
    simp only [Bi.forward, ← hed, hqd]
  rw [← hqd] at hq1 hq2
  obtain ⟨-, hf2, -⟩ := Bi.core_eq hq1
  obtain ⟨-, hr2, -⟩ := Bi.core_eq hq2
  obtain ⟨-, hn, -, -⟩ := inv.f.ok.pop cmpNode_swo (eqNode_equiv w.eqv) hp
  have hwn : WF B.fwd init n := inv.f.wf n hn
  -- stored before this step
  have hold : ∀ a ∈ e.explored, ∀ b ∈ s.r.explored, B.fwd.eqS a.state b.state = true → a ≠ n →
      ∃ x, s.best = some x ∧ x ≤ a.pathCost + b.pathCost := by
    intro a ha b hb hq hne
    rcases hsup a ha with rfl | ha'
    · exact absurd rfl hne
    · rcases h.cand with ⟨h1, h2, -⟩ | h1
      · rw [h2, List.mem_singleton] at ha'
        exact absurd (ha'.trans (hroot h1).symm) hne
      · exact h1 a ha' b hb hq
  have hkeep : ∀ x y, e.solution = some x → s.r.solution = some y → x ∈ e.explored ∧ y ∈ s.r.explored ∧
      ∀ a ∈ anc x, ∀ b ∈ anc y, B.fwd.eqS a.state b.state = true → a = x ∧ b = y := by
    intro x y hx hy
    obtain ⟨h1, h2, h3⟩ := h.sol x y (by rw [← hes]; exact hx) hy
    exact ⟨hsub x h1, h2, h3⟩
  rw [hF]
  refine ⟨hH.congr hq1, h.r.congr hq2, .inr ?_, ?_⟩
  · show ∀ a ∈ q.1.explored, ∀ b ∈ q.2.1.explored, _
    rw [hf2, hr2]
    intro a ha b hb hq
    show ∃ x, q.2.2 = some x ∧ _
    rw [hqd]
    unfold Bi.findIntersection
    cases hfi : Bi.exploredFind B.rev s.r.explored n.state with
    | none =>
      refine hold a ha b hb hq ?_
      rintro rfl
      obtain ⟨m', hm'⟩ := Bi.exploredFind_isSome (P := B.rev) hb (by rw [w.same]; exact w.eqv.symm _ _ hq)
      rw [hm'] at hfi; cases hfi
    | some m =>
      obtain ⟨hm1, hm2⟩ := Bi.exploredFind_some hfi
      dsimp only
      by_cases ha' : a = n
      · subst ha'
        have hbm : b = m := h.r.uniq b hb m hm1 (by
          rw [w.same] at hm2 ⊢
          exact w.eqv.trans _ _ _ (w.eqv.symm _ _ hq) (w.eqv.symm _ _ hm2))
        subst hbm
        split
        · exact ⟨_, rfl, le_refl _⟩
        · rename_i hi
          cases hb' : s.best with
          | none => simp [Bi.improves, hb'] at hi
          | some x => exact ⟨x, rfl, by simpa [Bi.improves, hb'] using hi⟩
      · obtain ⟨x, hx, hle⟩ := hold a ha b hb hq ha'
        split
        · rename_i hi
          refine ⟨_, rfl, le_trans (le_of_lt ?_) hle⟩
          simpa [Bi.improves, hx] using hi
        · exact ⟨x, hx, hle⟩
  · show ∀ x y, q.1.solution = some x → q.2.1.solution = some y → x ∈ q.1.explored ∧ y ∈ q.2.1.explored ∧ _
    rw [hf2, hr2, hqd]
    unfold Bi.findIntersection
    cases hfi : Bi.exploredFind B.rev s.r.explored n.state with
    | none => exact hkeep
    | some m =>
      obtain ⟨hm1, hm2⟩ := Bi.exploredFind_some hfi
      dsimp only
      split
      · rename_i hi
        intro x y hx hy
        obtain rfl := Option.some.inj hx
        obtain rfl := Option.some.inj hy
        refine ⟨hanc _ (self_anc _), hm1, fun a ha b hb hq => ?_⟩
        have hb' := h.r.ancE _ hm1 b hb
        by_cases ha' : a = n
        · refine ⟨ha', h.r.uniq b hb' _ hm1 ?_⟩
          rw [w.same] at hm2 ⊢
          rw [ha'] at hq
          exact w.eqv.trans _ _ _ (w.eqv.symm _ _ hq) (w.eqv.symm _ _ hm2)
        · exfalso
          obtain ⟨x, hx, hle⟩ := hold a (hanc a ha) b hb' hq ha'
          have h1 : n.pathCost + m.pathCost < x := by simpa [Bi.improves, hx] using hi
          exact absurd (lt_of_lt_of_le h1 hle) (not_lt.mpr (hadd _ _ _ _ (cost_anc hcf hwn ha)
            (cost_anc hcr (inv.r.wfe m hm1) hb)))
      · exact hkeep

omit [LinearOrder C] [Add C] in
/-- The states of a node and its ancestors are pairwise different. -/
private theorem pairwise_anc {P : Problem S A C} {init : S} {s : Search S A C} (h : Half P init s) {x : ANode S A C}
    (hx : x ∈ s.explored) : ((anc x).map ANode.state).Pairwise (fun a b => P.eqS a b = false) := by
  rw [List.pairwise_map]
  refine List.Pairwise.imp_of_mem ?_ (anc_depths x)
  intro a b ha hb hlt
  cases hq : P.eqS a.state b.state with
  | false => rfl
  | true =>
    have := h.uniq a (h.ancE x hx a ha) b (h.ancE x hx b hb) hq
    rw [this] at hlt
    exact absurd hlt (lt_irrefl _)

/-- C155. On Success of a bidirectional graph search with non-negative costs, added exactly or with rounding (`hadd` and
`hcf`, `hcr` are all that is needed of the addition), any propagators (even randomised) and any heuristics: apart from the
second copy of the meeting state, the states of the returned path are pairwise different. -/
theorem C155_path_visits_no_state_twice {B : BiProblem S A C} (w : Bi.Wf B) {init goal : S}
    (hcomm : ∀ a b : C, a + b = b + a) (hadd : ∀ a b c d : C, a ≤ b → c ≤ d → a + c ≤ b + d)
    (hcf : ∀ u a c v, B.fwd.tr u a c v → ∀ x : C, x ≤ x + c) (hcr : ∀ u a c v, B.rev.tr u a c v → ∀ x : C, x ≤ x + c)
    {fuel : Nat} {s : BiSearch S A C} (h : Bi.searchPath B true fuel init goal = some (.success, s)) :
    ∃ pre m m' post, Bi.getPath s = some (pre ++ m :: m' :: post) ∧ B.fwd.eqS m m' = true ∧
      (pre ++ m :: post).Pairwise (fun a b => B.fwd.eqS a b = false) := by
  obtain ⟨inv, hS, h | h⟩ := Bi.loop_spec w (SimpleB B init goal)
    (fun s f' n inv hS hp => simple_forward w hadd hcf hcr inv hS hp)
    (fun s r' n inv hS hp =>
      (simple_forward w.swap hadd hcr hcf (inv.swap w) (hS.swap w hcomm) (f' := r') (n := n) hp).swap w.swap hcomm)
    _ fuel _ _ _ (Bi.binv_init w true init goal)
    ⟨half_init _ _, half_init _ _, .inl ⟨by
        simp [Bi.initSearch, initSearch, Frontier.push, Frontier.empty,
          Frontier.findFirstCompareIsFalse, Frontier.ffLoop], by
        simp [Bi.initSearch, initSearch, exploredInsert, exploredContains], by
        simp [Bi.initSearch, initSearch, Frontier.push, Frontier.empty,
          Frontier.findFirstCompareIsFalse, Frontier.ffLoop], by
        simp [Bi.initSearch, initSearch, exploredInsert, exploredContains]⟩,
      by intro x y hx; cases hx⟩
    (by intro h; exact absurd rfl h) h
  · cases h.1
  · rcases inv.meet with ⟨h1, h2, _⟩ | ⟨x, y, h1, h2, h3, h4, h5, _⟩
    · have := h.2; simp [Bi.finished, h2] at this
    · obtain ⟨hx, hy, hd⟩ := hS.sol x y h1 h2
      have e1 : AStar.getPath s.f = some ((anc x).map ANode.state).reverse := by
        unfold AStar.getPath; rw [h1]; exact (fill_anc x []).trans (by simp)
      have e2 : AStar.getPath s.r = some ((anc y).map ANode.state).reverse := by
        unfold AStar.getPath; rw [h2]; exact (fill_anc y []).trans (by simp)
      have split : ∀ n : ANode S A C, anc n = n :: (anc n).tail := by intro n; cases n <;> rfl
      have px := pairwise_anc hS.f hx
      have py := pairwise_anc hS.r hy
      rw [w.same] at py
      refine ⟨((anc x).tail.map ANode.state).reverse, x.state, y.state, (anc y).tail.map ANode.state, ?_, h5, ?_⟩
      · unfold Bi.getPath
        rw [e1, e2]
        dsimp only
        rw [List.reverse_reverse]
        rw [split x, split y]
        simp
      · have hmem : ∀ a ∈ (anc x).map ANode.state, ∀ b ∈ (anc y).tail.map ANode.state, B.fwd.eqS a b = false := by
          intro a ha b hb
          obtain ⟨na, hna, rfl⟩ := List.mem_map.mp ha
          obtain ⟨nb, hnb, rfl⟩ := List.mem_map.mp hb
          cases hq : B.fwd.eqS na.state nb.state with
          | false => rfl
          | true =>
            have h6 := (hd na hna nb (by rw [split y]; exact List.mem_cons_of_mem _ hnb) hq).2
            have h7 := anc_depths y
            rw [split y, List.pairwise_cons] at h7
            have h8 := h7.1 nb hnb
            rw [h6] at h8
            exact absurd h8 (lt_irrefl _)
        have e3 : ((anc x).tail.map ANode.state).reverse ++ x.state :: (anc y).tail.map ANode.state =
            ((anc x).map ANode.state).reverse ++ (anc y).tail.map ANode.state := by
          rw [split x]; simp
        rw [e3, List.pairwise_append]
        refine ⟨?_, ?_, ?_⟩
        · rw [List.pairwise_reverse]
          exact px.imp fun {a b} hab => by
            cases hq : B.fwd.eqS b a with
            | false => rfl
            | true => rw [w.eqv.symm _ _ hq] at hab; cases hab
        · rw [split y, List.map_cons, List.pairwise_cons] at py
          exact py.2
        · intro a ha b hb
          exact hmem a (List.mem_reverse.mp ha) b hb

end

/-- C155 for `double`: costs that are non-negative `double`s, added with rounding. -/
theorem C155_double {S A : Type} {B : BiProblem S A Double} (w : Bi.Wf B) {init goal : S}
    (hcf : ∀ u a c v, B.fwd.tr u a c v → 0 ≤ c) (hcr : ∀ u a c v, B.rev.tr u a c v → 0 ≤ c)
    {fuel : Nat} {s : BiSearch S A Double} (h : Bi.searchPath B true fuel init goal = some (.success, s)) :
    ∃ pre m m' post, Bi.getPath s = some (pre ++ m :: m' :: post) ∧ B.fwd.eqS m m' = true ∧
      (pre ++ m :: post).Pairwise (fun a b => B.fwd.eqS a b = false) := by
  have grow : ∀ c : Double, 0 ≤ c → ∀ x : Double, x ≤ x + c := by
    intro c hc x
    have hc' : (0 : ℝ) ≤ c.1 := hc
    show x.1 ≤ Flt.fl64 (x.1 + c.1)
    calc x.1 = Flt.fl64 x.1 := x.2.symm
      _ ≤ Flt.fl64 (x.1 + c.1) := Flt.fl_mono 53 (by norm_num) (by linarith)
  refine C155_path_visits_no_state_twice w (fun a b => Subtype.ext (by
      show Flt.fl64 (a.1 + b.1) = Flt.fl64 (b.1 + a.1)
      rw [add_comm])) (fun a b c d hab hcd => ?_) (fun u a c v ht => grow c (hcf u a c v ht))
    (fun u a c v ht => grow c (hcr u a c v ht)) h
  have h1 : a.1 ≤ b.1 := hab
  have h2 : c.1 ≤ d.1 := hcd
  show Flt.fl64 (a.1 + c.1) ≤ Flt.fl64 (b.1 + d.1)
  exact Flt.fl_mono 53 (by norm_num) (by linarith)

private theorem grid_wf {C : Type} [LinearOrder C] [Add C] [Zero C] {m : GridMap} {pathCost pathCostR : Cell → Cell → C}
    {hf hr : Cell → C} : Bi.Wf (N2.biProblem m pathCost pathCostR hf hr) :=
  ⟨⟨by simp [N2.biProblem], by simp [N2.biProblem], by simp [N2.biProblem]⟩, rfl, fun _ => rfl, fun _ => rfl⟩

private theorem walk_cells_inside {m : GridMap} {a b : Cell} {l : List Cell} (ha : Inside m a) (hw : Walk m a l b) :
    ∀ x ∈ l, Inside m x := by
  induction hw with
  | stop a => intro x hx; rw [List.mem_singleton] at hx; rw [hx]; exact ha
  | move h1 _ ih =>
    intro x hx
    rcases List.mem_cons.1 hx with rfl | hx
    · exact ha
    · exact ih h1.1.1 x hx

/-- C155 for the bidirectional grid planner with non-negative costs: apart from the second copy of the meeting cell, the
returned path visits no cell twice, so it has at most one cell more than the map. -/
theorem C155_grid {C : Type} [AddCommMonoid C] [LinearOrder C] [IsOrderedAddMonoid C] (m : GridMap)
    (pathCost pathCostR : Cell → Cell → C) (hf hr : Cell → C) (hc : ∀ a b, 0 ≤ pathCost a b) (hcr : ∀ a b, 0 ≤ pathCostR a b)
    (init goal : Cell) (hi : Inside m init) (hg : Inside m goal) {fuel : Nat} {s : BiSearch Cell Unit C}
    (h : Bi.searchPath (N2.biProblem m pathCost pathCostR hf hr) true fuel init goal = some (.success, s)) :
    ∃ pre meet post, Bi.getPath s = some (pre ++ meet :: meet :: post) ∧ (pre ++ meet :: post).Nodup ∧
      (pre ++ meet :: post).length ≤ m.rows.toNat * m.columns.toNat := by
  obtain ⟨pre, x, y, post, h1, h2, h3⟩ := C155_path_visits_no_state_twice grid_wf add_comm
    (fun a b c d hab hcd => add_le_add hab hcd)
    (fun u a c v ht x => by
      obtain ⟨_, _, rfl⟩ := (N2.tr_iff (heur := fun c _ => hf c) (goal := ⟨0, 0⟩) _ _ _ _).mp ht
      exact le_add_of_nonneg_right (hc _ _))
    (fun u a c v ht x => by
      obtain ⟨_, _, rfl⟩ := (N2.tr_iff (heur := fun c _ => hr c) (goal := ⟨0, 0⟩) _ _ _ _).mp ht
      exact le_add_of_nonneg_right (hcr _ _)) h
  have e : x = y := by simpa [N2.biProblem] using h2
  subst e
  have hn : (pre ++ x :: post).Nodup := h3.imp fun {a b} hab => by simpa [N2.biProblem] using hab
  refine ⟨pre, x, post, h1, hn, ?_⟩
  obtain ⟨fs, m1, rs, m2, p1, p2, _, p4, _⟩ := C15_bidirectional_cost_matches_path grid_wf h
  have hw1 := (N2.walk_of_route_any (pathCost := pathCost) (heur := fun c _ => hf c) (goal := ⟨0, 0⟩) hi p1).1
  have hw2 := (N2.walk_of_route_any (pathCost := pathCostR) (heur := fun c _ => hr c) (goal := ⟨0, 0⟩) hg p2).1
  have e := Option.some.inj (h1.symm.trans p4)
  rw [← length_allCells m.rows m.columns]
  refine (List.subperm_of_subset hn (fun c hc' => (mem_allCells _ _ c).mpr ?_)).length_le
  have : c ∈ routeStates init fs ++ (routeStates goal rs).reverse := by
    rw [← e]
    simp only [List.mem_append, List.mem_cons] at hc' ⊢
    tauto
  rcases List.mem_append.mp this with h5 | h5
  · exact walk_cells_inside hi hw1 c h5
  · exact walk_cells_inside hg hw2 c (List.mem_reverse.mp h5)

/-- A 3 × 3 map with a blocked centre (steps cost 10, diagonal steps 14; zero heuristics): the hypotheses are met, the search
succeeds, and its path lists the meeting cell twice and no other. -/
example : let m : GridMap := ⟨3, 3, fun c => decide (c = ⟨1, 1⟩)⟩
    let cost : Cell → Cell → Nat := fun a b => if a.isDiagonalTo b then 14 else 10
    Inside m ⟨0, 0⟩ ∧ Inside m ⟨2, 2⟩ ∧
    (Bi.searchPath (N2.biProblem m cost cost (fun _ => 0) (fun _ => 0)) true 10 ⟨0, 0⟩ ⟨2, 2⟩).map
      (fun r => (r.1, Bi.getPath r.2)) =
      some (.success, some [⟨0, 0⟩, ⟨1, 0⟩, ⟨2, 0⟩, ⟨2, 0⟩, ⟨2, 1⟩, ⟨2, 2⟩]) := by
  refine ⟨by unfold Inside; decide, by unfold Inside; decide, by decide +kernel⟩

end PathPlanning
