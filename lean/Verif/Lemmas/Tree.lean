import Verif.Spec.Tree
import Verif.Props.Node

/-!
# Invariant of the search tree
-/

namespace PathPlanning
open Spec Tree
variable {V : Type} [DecidableEq V]

structure TreeInv (t : Tree V) : Prop where
  forest : Forest t.heap
  scopes : t.heap.scopes = t.root.toList
  entries : ∀ v n, (v, n) ∈ t.map ↔ t.heap.alive n ∧ t.state n = v
  keys : (t.map.map Prod.fst).Nodup
  points : ∀ v, v ∈ t.points ↔ ∃ n, (v, n) ∈ t.map

namespace TreeInv

theorem find_some {t : Tree V} (I : TreeInv t) {v : V} {n : Nat} :
    t.find v = some n ↔ t.heap.alive n ∧ t.state n = v := by
  rw [← I.entries]
  constructor
  · intro h
    obtain ⟨⟨a, b⟩, h1, h2⟩ := Option.map_eq_some_iff.mp h
    have h3 := List.find?_some h1
    have h4 := List.mem_of_find?_eq_some h1
    simp only [beq_iff_eq] at h3 h2
    subst h3; subst h2; exact h4
  · intro h
    unfold Tree.find
    cases hf : t.map.find? (fun e => e.1 == v) with
    | none => have := List.find?_eq_none.mp hf _ h; simp at this
    | some e =>
      obtain ⟨a, b⟩ := e
      have h3 := List.find?_some hf
      have h4 := List.mem_of_find?_eq_some hf
      have : a = v := by simpa using h3
      subst this
      have := List.inj_on_of_nodup_map I.keys h4 h rfl
      rw [this]; rfl

theorem find_none {t : Tree V} (I : TreeInv t) {v : V} :
    t.find v = none ↔ ∀ n, t.heap.alive n → t.state n ≠ v := by
  constructor
  · intro h n hn hs
    have := I.find_some.mpr ⟨hn, hs⟩
    rw [h] at this; cases this
  · intro h
    cases hf : t.find v with
    | none => rfl
    | some n => exact absurd (I.find_some.mp hf).2 (h n (I.find_some.mp hf).1)

theorem root_iff {t : Tree V} (I : TreeInv t) (x : Nat) :
    t.root = some x ↔ t.heap.alive x ∧ t.heap.parent x = none := by
  rw [← I.forest.roots, I.scopes]
  simp [eq_comm]

/-- All nodes are in the tree of the root. -/
theorem in_tree {t : Tree V} (I : TreeInv t) {x : Nat} (hx : t.heap.alive x) :
    ∃ r, t.root = some r ∧ InTree t.heap r x := by
  obtain ⟨d, hd⟩ := I.forest.acyclic x hx
  obtain ⟨s, hs, h1⟩ := exists_root hd
  refine ⟨s, (I.root_iff s).mpr ⟨?_, hs⟩, h1⟩
  rcases h1 with rfl | h1
  · exact hx
  · exact Desc_alive I.forest hx h1

end TreeInv

theorem treeInv_new [Inhabited V] : TreeInv (Tree.new : Tree V) := by
  refine ⟨forest_empty, rfl, ?_, ?_, ?_⟩ <;> simp [Tree.new, Heap.empty]

theorem treeInv_clear {t : Tree V} (I : TreeInv t) : TreeInv t.clear := by
  cases hr : t.root with
  | none =>
    have he : t.clear.heap = t.heap := by simp [Tree.clear, Tree.dropRoot, hr]
    have hno : ∀ x, ¬ t.heap.alive x := by
      intro x hx
      obtain ⟨r, h1, _⟩ := I.in_tree hx
      rw [hr] at h1; cases h1
    refine ⟨by rw [he]; exact I.forest, by rw [he, I.scopes, hr]; rfl, ?_, by simp [Tree.clear],
      by simp [Tree.clear]⟩
    intro v n
    rw [he]
    simp [Tree.clear, hno]
  | some r =>
    have he : t.clear.heap = t.heap.drop r := by simp [Tree.clear, Tree.dropRoot, hr]
    have hrs : r ∈ t.heap.scopes := by rw [I.scopes, hr]; simp
    have hno : ∀ x, ¬ (t.heap.drop r).alive x := by
      rintro x ⟨hx, h2⟩
      obtain ⟨s, h1, h3⟩ := I.in_tree hx
      rw [hr] at h1; cases h1
      exact h2 ((Owns_iff I.forest hx).mpr h3).2
    refine ⟨by rw [he]; exact forest_drop I.forest hrs, ?_, ?_, by simp [Tree.clear],
      by simp [Tree.clear]⟩
    · rw [he]; show t.heap.scopes.erase r = _
      rw [I.scopes, hr]; simp [Tree.clear]
    · intro v n
      rw [he]
      simp [Tree.clear, hno]

theorem treeInv_createRoot {t : Tree V} (I : TreeInv t) (hr : t.root = none) (v : V) :
    TreeInv (t.createRootNode v).1 := by
  have hd : t.dropRoot = t.heap := by simp [Tree.dropRoot, hr]
  have hno : ∀ x, ¬ t.heap.alive x := by
    intro x hx
    obtain ⟨r, h1, _⟩ := I.in_tree hx
    rw [hr] at h1; cases h1
  have hmap : t.map = [] := by
    rcases hm : t.map with _ | ⟨⟨a, b⟩, l⟩
    · rfl
    · exact absurd ((I.entries a b).mp (by rw [hm]; exact List.mem_cons_self ..)).1 (hno b)
  have hsc : t.heap.scopes = [] := by rw [I.scopes, hr]; rfl
  refine ⟨?_, ?_, ?_, ?_, ?_⟩
  · simp only [Tree.createRootNode, hd]; exact forest_new I.forest
  · simp [Tree.createRootNode, hd, Heap.new, hsc]
  · intro w n
    simp only [Tree.createRootNode, hd, insertMap, hmap, List.any_nil, Bool.false_eq_true, if_false,
      List.mem_singleton, Prod.mk.injEq, Heap.new, hno, false_or]
    constructor
    · rintro ⟨rfl, rfl⟩; simp
    · rintro ⟨rfl, h2⟩; simp at h2; exact ⟨h2.symm, rfl⟩
  · simp [Tree.createRootNode, insertMap, hmap]
  · intro w
    simp [Tree.createRootNode, insertMap, hmap]

/-- The tree after `Extend` with a new state below node `s`. -/
theorem treeInv_extend_new {t : Tree V} (I : TreeInv t) {target : V} (hf : t.find target = none)
    {s : Nat} (hs : t.heap.alive s) :
    TreeInv ({ t with
         heap := t.heap.new.addChild s t.heap.next
         state := fun x => if x = t.heap.next then target else t.state x
         points := t.points ++ [target]
         map := insertMap t.map target t.heap.next } : Tree V) ∧
      insertMap t.map target t.heap.next = (target, t.heap.next) :: t.map := by
  have hne : ∀ x, t.heap.alive x → x ≠ t.heap.next := fun x hx => Nat.ne_of_lt (I.forest.fresh x hx)
  have hnomap : ∀ n, (target, n) ∉ t.map := by
    intro n hm
    obtain ⟨h1, h2⟩ := (I.entries _ _).mp hm
    exact I.find_none.mp hf n h1 h2
  have hany : t.map.any (fun e => e.1 == target) = false := by
    rw [← Bool.not_eq_true, List.any_eq_true]
    rintro ⟨⟨a, b⟩, h1, h2⟩
    have : a = target := by simpa using h2
    subst this; exact hnomap b h1
  have hins : insertMap t.map target t.heap.next = (target, t.heap.next) :: t.map := by
    simp [insertMap, hany]
  have F1 := forest_new I.forest
  have F2 := forest_add F1 (p := s) (n := t.heap.next) (Or.inl hs)
    (List.mem_cons_self ..) (hne s hs) (by
      intro hd
      have hpn : t.heap.new.parent t.heap.next = none := upd_same ..
      -- the new node has no children
      have : ∀ x, t.heap.new.alive x → t.heap.new.parent x ≠ some t.heap.next := by
        rintro x hx hp
        have := (F1.agree t.heap.next (Or.inr rfl) x).mpr ⟨hx, hp⟩
        have hch : t.heap.new.children t.heap.next = [] := upd_same ..
        rw [hch] at this; cases this
      have key : ∀ x z, Desc t.heap.new x z → t.heap.new.alive x → z ≠ t.heap.next := by
        intro x z h1
        induction h1 with
        | base hp => rintro hx rfl; exact this _ hx hp
        | step hp _ ih => intro hx; exact ih (F1.parent_alive _ _ hx hp)
      exact key _ _ hd (Or.inl hs) rfl)
  refine ⟨⟨F2, ?_, ?_, ?_, ?_⟩, hins⟩
  · show (t.heap.next :: t.heap.scopes).erase t.heap.next = _
    rw [List.erase_cons_head]; exact I.scopes
  · intro v n
    show (v, n) ∈ insertMap t.map target t.heap.next ↔ (t.heap.alive n ∨ n = t.heap.next) ∧
      (if n = t.heap.next then target else t.state n) = v
    rw [hins, List.mem_cons, Prod.mk.injEq, I.entries]
    constructor
    · rintro (⟨rfl, rfl⟩ | ⟨h1, h2⟩)
      · exact ⟨Or.inr rfl, by simp⟩
      · exact ⟨Or.inl h1, by rw [if_neg (hne n h1)]; exact h2⟩
    · rintro ⟨h1 | rfl, h2⟩
      · rw [if_neg (hne n h1)] at h2; exact Or.inr ⟨h1, h2⟩
      · rw [if_pos rfl] at h2; exact Or.inl ⟨h2.symm, rfl⟩
  · show ((insertMap t.map target t.heap.next).map Prod.fst).Nodup
    rw [hins, List.map_cons, List.nodup_cons]
    refine ⟨?_, I.keys⟩
    intro hm
    obtain ⟨⟨a, b⟩, h1, h2⟩ := List.mem_map.mp hm
    have : a = target := h2
    subst this; exact hnomap b h1
  · intro v
    show v ∈ t.points ++ [target] ↔ ∃ n, (v, n) ∈ insertMap t.map target t.heap.next
    rw [hins, List.mem_append, I.points, List.mem_singleton]
    simp only [List.mem_cons, Prod.mk.injEq]
    constructor
    · rintro (⟨n, hn⟩ | rfl)
      · exact ⟨n, Or.inr hn⟩
      · exact ⟨_, Or.inl ⟨rfl, rfl⟩⟩
    · rintro ⟨n, ⟨h1, _⟩ | h1⟩
      · exact Or.inr h1
      · exact Or.inl ⟨n, h1⟩

/-- The nearest node exists in a non-empty tree and is a live node of minimal distance. -/
theorem nearestNode_spec {K : Type} [LE K] {o : KNN V} {dist : V → V → K} (L : NearestLaws o dist)
    {t : Tree V} (I : TreeInv t) (v : V) :
    (t.root ≠ none → ∃ n, t.getNearestNode o v = some n) ∧
    ∀ n, t.getNearestNode o v = some n → t.heap.alive n ∧
      o.nearest t.points v = some (t.state n) ∧
      ∀ m, t.heap.alive m → dist v (t.state n) ≤ dist v (t.state m) := by
  constructor
  · intro hr
    obtain ⟨r, hr⟩ := Option.ne_none_iff_exists'.mp hr
    have hra := ((I.root_iff r).mp hr).1
    have hp : t.state r ∈ t.points := (I.points _).mpr ⟨r, (I.entries _ _).mpr ⟨hra, rfl⟩⟩
    obtain ⟨p, hp2⟩ := L.some_of_ne t.points v (List.ne_nil_of_mem hp)
    obtain ⟨n, hn⟩ := (I.points p).mp (L.mem _ _ _ hp2)
    exact ⟨n, by rw [Tree.getNearestNode, hp2]; exact I.find_some.mpr ((I.entries _ _).mp hn)⟩
  · intro n hn
    obtain ⟨p, hp, hf⟩ := Option.bind_eq_some_iff.mp hn
    obtain ⟨h1, h2⟩ := I.find_some.mp hf
    refine ⟨h1, by rw [h2]; exact hp, fun m hm => ?_⟩
    rw [h2]
    exact L.min _ _ _ hp _ ((I.points _).mpr ⟨m, (I.entries _ _).mpr ⟨hm, rfl⟩⟩)

/-- The outcomes of `Extend`. -/
theorem extend_cases {K : Type} [LE K] {o : KNN V} {dist : V → V → K} (L : NearestLaws o dist)
    {t : Tree V} (I : TreeInv t) (v : V) (src : Option Nat)
    (hsrc : ∀ n, src = some n → t.heap.alive n) :
    (∃ n, t.heap.alive n ∧ t.state n = v ∧ t.extend o v src = (t, some n)) ∨
    (t.find v = none ∧ t.root = none ∧ src = none ∧ t.extend o v src = (t, none)) ∨
    (∃ s t', t.find v = none ∧ t.heap.alive s ∧ (src = some s ∨ src = none ∧ t.getNearestNode o v = some s) ∧
      t.extend o v src = (t', some t.heap.next) ∧ TreeInv t' ∧
      t' = { t with
         heap := t.heap.new.addChild s t.heap.next
         state := fun x => if x = t.heap.next then v else t.state x
         points := t.points ++ [v]
         map := (v, t.heap.next) :: t.map }) := by
  cases hf : t.find v with
  | some n =>
    left
    obtain ⟨h1, h2⟩ := I.find_some.mp hf
    exact ⟨n, h1, h2, by simp only [Tree.extend, hf]⟩
  | none =>
    right
    cases hs : src with
    | some s =>
      right
      have ha := hsrc s hs
      obtain ⟨h1, h2⟩ := treeInv_extend_new I hf ha
      refine ⟨s, _, rfl, ha, Or.inl rfl, ?_, h1, by rw [h2]⟩
      simp only [Tree.extend, hf]
    | none =>
      cases hn : t.getNearestNode o v with
      | none =>
        left
        refine ⟨rfl, ?_, rfl, by simp only [Tree.extend, hf, hn]⟩
        by_contra hr
        obtain ⟨n, h1⟩ := (nearestNode_spec L I v).1 hr
        rw [hn] at h1; cases h1
      | some s =>
        right
        have ha := ((nearestNode_spec L I v).2 s hn).1
        obtain ⟨h1, h2⟩ := treeInv_extend_new I hf ha
        refine ⟨s, _, rfl, ha, Or.inr ⟨rfl, rfl⟩, ?_, h1, by rw [h2]⟩
        simp only [Tree.extend, hf, hn]

end PathPlanning
