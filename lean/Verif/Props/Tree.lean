import Verif.Lemmas.Tree

/-!
# C24: the search tree
-/

namespace PathPlanning
open Spec Tree
variable {V : Type} [DecidableEq V]

private theorem treeInv_reparent {t t' : Tree V} (I : TreeInv t) {c n : Nat} (hc : t.heap.alive c)
    (hn : t.heap.alive n) (hne : n ≠ c) (h : t.reparent c n = some t') : TreeInv t' := by
  obtain ⟨r, hr, hct⟩ := I.in_tree hc
  obtain ⟨r2, hr2, hnt⟩ := I.in_tree hn
  rw [hr] at hr2; cases hr2
  obtain ⟨h', r', he, F', hal, hrp, htree, hpc, _, _⟩ := C23_reparent I.forest r c n
    ((I.root_iff r).mp hr) ⟨hc, hct⟩ ⟨hn, hnt⟩ hne
  have ht : t' = { t with heap := h', root := some r' } := by
    simp only [Tree.reparent, hr, he, Option.map_some, Option.some.injEq] at h
    exact h.symm
  subst ht
  refine ⟨F', ?_, ?_, I.keys, I.points⟩
  · -- the only scope is the new root
    have hmem : ∀ x, x ∈ h'.scopes ↔ x = r' := by
      intro x
      rw [F'.roots, hal]
      constructor
      · rintro ⟨hx, hp⟩
        obtain ⟨s, hs, hxs⟩ := I.in_tree hx
        rw [hr] at hs; cases hs
        have := (htree x hx).mpr hxs
        exact root_unique hp hrp (Or.inl rfl) this
      · rintro rfl
        refine ⟨?_, hrp⟩
        have hin : InTree h' x c := (htree c hc).mpr hct
        have hca : h'.alive c := by rw [hal]; exact hc
        rw [← hal]
        rcases hin with rfl | hd
        · exact hca
        · exact Desc_alive F' hca hd
    have hnd := F'.roots_once
    show h'.scopes = [r']
    rcases hsc : h'.scopes with _ | ⟨a, l⟩
    · have := (hmem r').mpr rfl; rw [hsc] at this; cases this
    · rw [hsc] at hmem hnd
      have ha : a = r' := (hmem a).mp (List.mem_cons_self ..)
      subst ha
      rcases l with _ | ⟨b, l⟩
      · rfl
      · have hb : b = a := (hmem b).mp (by simp)
        subst hb
        simp at hnd
  · intro v n
    show (v, n) ∈ t.map ↔ h'.alive n ∧ _
    rw [hal]; exact I.entries v n

/-- The invariant holds for every tree a caller can produce. -/
theorem treeInv_reachable [Inhabited V] {K : Type} [LE K] {o : KNN V} {dist : V → V → K}
    (L : NearestLaws o dist) {t : Tree V} (h : TreeReachable o t) : TreeInv t := by
  induction h with
  | start => exact treeInv_new
  | @call t t' op _ ha hc ih =>
    cases op with
    | createRoot v => cases hc; exact treeInv_createRoot ih ha v
    | clear => cases hc; exact treeInv_clear ih
    | reparent c n => exact treeInv_reparent ih ha.1 ha.2.1 ha.2.2 hc
    | extend v s =>
      cases hc
      rcases extend_cases L ih v s ha with ⟨n, _, _, he⟩ | ⟨_, _, _, he⟩ | ⟨s', t', _, _, _, he, I', _⟩
      · rw [he]; exact ih
      · rw [he]; exact ih
      · rw [he]; exact I'

/-- C24, partial. After any history in which `CreateRootNode` is only called on an empty tree, the
nodes form one tree, there is at most one node per state and `Size()` is the number of nodes.
Missing: `CreateRootNode` on a non-empty tree, for which it is false
(`C24_create_root_twice_dangles`). -/
theorem C24_one_node_per_state_partial [Inhabited V] {K : Type} [LE K] {o : KNN V}
    {dist : V → V → K} (L : NearestLaws o dist) {t : Tree V} (h : TreeReachable o t) :
    Forest t.heap ∧
    (∀ x, t.heap.alive x → ∃ r, t.root = some r ∧ InTree t.heap r x) ∧
    (∀ x y, t.heap.alive x → t.heap.alive y → t.state x = t.state y → x = y) ∧
    (∃ nodes : List Nat, nodes.Nodup ∧ (∀ x, x ∈ nodes ↔ t.heap.alive x) ∧
      t.size = nodes.length) := by
  have I := treeInv_reachable L h
  refine ⟨I.forest, fun x hx => I.in_tree hx, ?_, t.map.map Prod.snd, ?_, ?_, by simp [Tree.size]⟩
  · intro x y hx hy hxy
    have h1 := I.find_some.mpr ⟨hx, rfl⟩
    have h2 := I.find_some.mpr ⟨hy, rfl⟩
    rw [hxy, h2] at h1; cases h1; rfl
  · have hk := I.keys
    refine List.Nodup.map_on ?_ (List.Nodup.of_map _ hk)
    rintro ⟨a, b⟩ hx ⟨c, d⟩ hy hbd
    have hbd' : b = d := hbd
    subst hbd'
    have h1 := ((I.entries _ _).mp hx).2
    have h2 := ((I.entries _ _).mp hy).2
    rw [← h1, ← h2]
  · intro x
    rw [List.mem_map]
    constructor
    · rintro ⟨⟨a, b⟩, h1, rfl⟩; exact ((I.entries _ _).mp h1).1
    · intro hx; exact ⟨(t.state x, x), (I.entries _ _).mpr ⟨hx, rfl⟩, rfl⟩

/-- C24. `GetNearestNode` of a non-empty tree returns a node of minimal distance. -/
theorem C24_nearest_is_minimal [Inhabited V] {K : Type} [LE K] {o : KNN V}
    {dist : V → V → K} (L : NearestLaws o dist) {t : Tree V} (h : TreeReachable o t)
    (hr : t.root ≠ none) (v : V) : ∃ n, t.getNearestNode o v = some n ∧ t.heap.alive n ∧
      ∀ m, t.heap.alive m → dist v (t.state n) ≤ dist v (t.state m) := by
  have I := treeInv_reachable L h
  obtain ⟨n, hn⟩ := (nearestNode_spec L I v).1 hr
  obtain ⟨h1, _, h2⟩ := (nearestNode_spec L I v).2 n hn
  exact ⟨n, hn, h1, h2⟩

/-- C24. `BelongToTree` tells the nodes below the root, and the root, from others. -/
theorem C24_belongs_iff {t : Tree V} (F : Forest t.heap) {r : Nat} (hr : t.root = some r) (n : Nat) (hn : t.heap.alive n) :
    ∃ b, t.belongToTree n = some b ∧ (b = true ↔ InTree t.heap r n) := by
  obtain ⟨b, hb, hbi⟩ := C22_isDescendantOf F n r hn
  refine ⟨b || n == r, ?_, ?_⟩
  · simp only [belongToTree, hr, hb, Option.map_some]
  · rw [Bool.or_eq_true, hbi, beq_iff_eq]
    exact or_comm

/-- C24. All nodes of a tree belong to it. -/
theorem C24_nodes_belong [Inhabited V] {K : Type} [LE K] {o : KNN V}
    {dist : V → V → K} (L : NearestLaws o dist) {t : Tree V} (h : TreeReachable o t) (n : Nat) (hn : t.heap.alive n) :
    t.belongToTree n = some true := by
  have I := treeInv_reachable L h
  obtain ⟨r, hr, hin⟩ := I.in_tree hn
  obtain ⟨b, hb, hbi⟩ := C24_belongs_iff I.forest hr n hn
  rw [hb, hbi.mpr hin]

/-- C24. `Extend` to a state that a node has returns this node and changes nothing. -/
theorem C24_extend_existing [Inhabited V] {K : Type} [LE K] {o : KNN V}
    {dist : V → V → K} (L : NearestLaws o dist) {t : Tree V} (h : TreeReachable o t) (v : V)
    (src : Option Nat) (n : Nat) (hn : t.heap.alive n) (hv : t.state n = v) :
    t.extend o v src = (t, some n) := by
  have I := treeInv_reachable L h
  simp only [Tree.extend, I.find_some.mpr ⟨hn, hv⟩]

/-- C24. `Extend` of a non-empty tree to a new state adds exactly one node: it has that state, no
children, and the given source, or else a nearest node, as its parent; the other nodes keep their
states and parents. -/
theorem C24_extend_adds_leaf [Inhabited V] {K : Type} [LE K] {o : KNN V}
    {dist : V → V → K} (L : NearestLaws o dist) {t : Tree V} (h : TreeReachable o t) (v : V)
    (src : Option Nat) (hsrc : ∀ s, src = some s → t.heap.alive s) (hr : t.root ≠ none)
    (hnew : ∀ n, t.heap.alive n → t.state n ≠ v) :
    ∃ t' n s, t.extend o v src = (t', some n) ∧ ¬ t.heap.alive n ∧
      (∀ x, t'.heap.alive x ↔ t.heap.alive x ∨ x = n) ∧ t'.size = t.size + 1 ∧
      t'.state n = v ∧ t'.heap.children n = [] ∧ t'.heap.parent n = some s ∧ t.heap.alive s ∧
      (src = some s ∨ src = none ∧ ∀ m, t.heap.alive m → dist v (t.state s) ≤ dist v (t.state m)) ∧
      (∀ x, t.heap.alive x → t'.state x = t.state x ∧ t'.heap.parent x = t.heap.parent x) := by
  have I := treeInv_reachable L h
  have hne : ∀ x, t.heap.alive x → x ≠ t.heap.next := fun x hx => Nat.ne_of_lt (I.forest.fresh x hx)
  rcases extend_cases L I v src hsrc with ⟨n, h1, h2, _⟩ | ⟨_, h2, _⟩ | ⟨s, t', _, hs, hss, he, I', ht⟩
  · exact absurd h2 (hnew n h1)
  · exact absurd h2 hr
  · refine ⟨t', t.heap.next, s, he, fun h1 => hne _ h1 rfl, ?_, ?_, ?_, ?_, ?_, hs, ?_, ?_⟩
    · intro x; rw [ht]; exact Iff.rfl
    · rw [ht]; rfl
    · rw [ht]; simp
    · rw [ht]
      show upd _ _ _ _ = _
      rw [upd_ne _ _ (Ne.symm (hne s hs))]; exact upd_same ..
    · rw [ht]; exact upd_same ..
    · rcases hss with h1 | ⟨h1, h2⟩
      · exact Or.inl h1
      · exact Or.inr ⟨h1, ((nearestNode_spec L I v).2 s h2).2.2⟩
    · intro x hx
      rw [ht]
      refine ⟨by simp [hne x hx], ?_⟩
      show upd _ _ _ _ = _
      rw [upd_ne _ _ (hne x hx)]
      exact upd_ne _ _ (hne x hx)

/-- C24. After `Clear` the tree is empty. -/
theorem C24_clear_empty [Inhabited V] {K : Type} [LE K] {o : KNN V} {dist : V → V → K}
    (L : NearestLaws o dist) {t : Tree V} (h : TreeReachable o t) :
    t.clear.size = 0 ∧ ∀ x, ¬ t.clear.heap.alive x := by
  have I := treeInv_clear (treeInv_reachable L h)
  refine ⟨rfl, fun x hx => ?_⟩
  obtain ⟨r, h1, _⟩ := I.in_tree hx
  cases h1

/-- C24 is violated if `CreateRootNode` is called on a non-empty tree: the map keeps a pointer to the
destroyed root, `Size()` counts it and `Extend` to its state returns it. -/
theorem C24_create_root_twice_dangles (o : KNN Int) : ∃ t : Tree Int,
    t = (((Tree.new : Tree Int).createRootNode 0).1.createRootNode 1).1 ∧ t.size = 2 ∧
    (∀ x, t.heap.alive x ↔ x = 1) ∧ (t.extend o 0 none).2 = some 0 := by
  refine ⟨_, rfl, rfl, ?_, rfl⟩
  intro x
  show ((((False ∨ x = 0) ∧ _) ∨ x = 1)) ↔ _
  constructor
  · rintro (⟨h1 | rfl, h2⟩ | h1)
    · exact absurd h1 id
    · exact absurd (Heap.Owns.self _) h2
    · exact h1
  · exact Or.inr

/-- A nearest-neighbour oracle on the integers. -/
def exKNN : KNN Int where
  nearest pts v := pts.foldl (fun best p => match best with
    | none => some p
    | some b => if (p - v).natAbs < (b - v).natAbs then some p else some b) none
  knn pts v _ := (pts.foldl (fun best p => match best with
    | none => some p
    | some b => if (p - v).natAbs < (b - v).natAbs then some p else some b) none).toList

private theorem exKNN_fold (v : Int) : ∀ (pts : List Int) (b : Option Int),
    (∀ p, pts.foldl (fun best p => match best with
      | none => some p
      | some b => if (p - v).natAbs < (b - v).natAbs then some p else some b) b = some p →
      (p ∈ pts ∨ b = some p) ∧ (∀ q ∈ pts, (p - v).natAbs ≤ (q - v).natAbs) ∧
        ∀ q, b = some q → (p - v).natAbs ≤ (q - v).natAbs) ∧
    (pts ≠ [] ∨ b ≠ none → ∃ p, pts.foldl (fun best p => match best with
      | none => some p
      | some b => if (p - v).natAbs < (b - v).natAbs then some p else some b) b = some p) := by
  intro pts
  induction pts with
  | nil =>
    intro b
    refine ⟨fun p hp => ?_, fun h => ?_⟩
    · have hb : b = some p := hp
      subst hb
      exact ⟨Or.inr rfl, by simp, fun q hq => by cases hq; exact Nat.le_refl _⟩
    · rcases h with h | h
      · exact absurd rfl h
      · exact Option.ne_none_iff_exists'.mp h
  | cons a pts ih =>
    intro b
    rw [List.foldl_cons]
    cases b with
    | none =>
      obtain ⟨h1, h2⟩ := ih (some a)
      refine ⟨fun p hp => ?_, fun _ => h2 (Or.inr (by simp))⟩
      obtain ⟨h3, h4, h5⟩ := h1 p hp
      refine ⟨Or.inl ?_, ?_, by simp⟩
      · rcases h3 with h3 | h3
        · exact List.mem_cons_of_mem _ h3
        · cases h3; exact List.mem_cons_self ..
      · intro q hq
        rcases List.mem_cons.mp hq with rfl | hq
        · exact h5 q rfl
        · exact h4 q hq
    | some c =>
      dsimp only
      split
      · rename_i hlt
        obtain ⟨h1, h2⟩ := ih (some a)
        refine ⟨fun p hp => ?_, fun _ => h2 (Or.inr (by simp))⟩
        obtain ⟨h3, h4, h5⟩ := h1 p hp
        have ha := h5 a rfl
        refine ⟨Or.inl ?_, ?_, ?_⟩
        · rcases h3 with h3 | h3
          · exact List.mem_cons_of_mem _ h3
          · cases h3; exact List.mem_cons_self ..
        · intro q hq
          rcases List.mem_cons.mp hq with rfl | hq
          · exact ha
          · exact h4 q hq
        · intro q hq; cases hq; omega
      · rename_i hlt
        obtain ⟨h1, h2⟩ := ih (some c)
        refine ⟨fun p hp => ?_, fun _ => h2 (Or.inr (by simp))⟩
        obtain ⟨h3, h4, h5⟩ := h1 p hp
        have hc := h5 c rfl
        refine ⟨?_, ?_, ?_⟩
        · rcases h3 with h3 | h3
          · exact Or.inl (List.mem_cons_of_mem _ h3)
          · exact Or.inr h3
        · intro q hq
          rcases List.mem_cons.mp hq with rfl | hq
          · omega
          · exact h4 q hq
        · intro q hq; cases hq; exact hc

/-- The hypotheses on the k-d tree can be met. -/
theorem exKNN_laws : NearestLaws exKNN (fun v p : Int => (p - v).natAbs) where
  some_of_ne pts v h := ((exKNN_fold v pts none).2 (Or.inl h))
  mem pts v p h := by
    rcases ((exKNN_fold v pts none).1 p h).1 with h | h
    · exact h
    · cases h
  min pts v p h := ((exKNN_fold v pts none).1 p h).2.1
  knn_mem pts v k p h := by
    have h' : exKNN.nearest pts v = some p := by
      simpa [exKNN, eq_comm] using h
    rcases ((exKNN_fold v pts none).1 p h').1 with h | h
    · exact h
    · cases h

/-- A tree on the integers: root 0, then 5, then 7 (below its nearest node 5). -/
example : ((((Tree.new : Tree Int).createRootNode 0).1.extend exKNN 5 none).1.extend exKNN 7 none).1.map
    = [(7, 2), (5, 1), (0, 0)] ∧
    ((((Tree.new : Tree Int).createRootNode 0).1.extend exKNN 5 none).1.extend exKNN 7 none).1.heap.parent 2
    = some 1 ∧
    ((((Tree.new : Tree Int).createRootNode 0).1.extend exKNN 5 none).1.extend exKNN 7 none).1.belongToTree 2
    = some true := by decide

end PathPlanning
