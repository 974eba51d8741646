import Verif.Props.GridMetric
import Verif.Props.GridFloatBi

/-!
# C170: on a turned or mirrored map the grid planners give equally good answers
-/

namespace PathPlanning
open Spec AStar

/-- `m'` is the map `m` turned by a multiple of a quarter turn or mirrored, `f` takes the cells of `m` to those of `m'`. All of
these are made of reflections that exchange left and right, or rows and columns. -/
inductive Spec.Turned (m : GridMap) : (Cell → Cell) → GridMap → Prop
  | same : Turned m (fun c => c) m
  | mirrored {f : Cell → Cell} {m' : GridMap} : Turned m f m' →
      Turned m (fun c => ⟨(f c).row, m'.columns - 1 - (f c).col⟩)
        ⟨m'.rows, m'.columns, fun c => m'.occ ⟨c.row, m'.columns - 1 - c.col⟩⟩
  | transposed {f : Cell → Cell} {m' : GridMap} : Turned m f m' →
      Turned m (fun c => ⟨(f c).col, (f c).row⟩) ⟨m'.columns, m'.rows, fun c => m'.occ ⟨c.col, c.row⟩⟩

/-- The cells of the two maps correspond to each other. -/
private structure Corr (m : GridMap) (f g : Cell → Cell) (m' : GridMap) : Prop where
  gf : ∀ c, g (f c) = c
  fg : ∀ c, f (g c) = c
  inside : ∀ c, Inside m c → Inside m' (f c)
  inside' : ∀ c, Inside m' c → Inside m (g c)
  occ : ∀ c, m'.occ (f c) = m.occ c
  move : ∀ u v, Move m u v → Move m' (f u) (f v)
  move' : ∀ u v, Move m' u v → Move m (g u) (g v)
  dist : ∀ u v, cellDistance (f u) (f v) = cellDistance u v
  cells : m'.rows.toNat * m'.columns.toNat = m.rows.toNat * m.columns.toNat

private theorem mirror_move {m : GridMap} {k : Int} (hk : k = m.columns) {u v : Cell} (h : Move m u v) :
    Move ⟨m.rows, k, fun c => m.occ ⟨c.row, k - 1 - c.col⟩⟩ ⟨u.row, k - 1 - u.col⟩ ⟨v.row, k - 1 - v.col⟩ := by
  subst hk
  obtain ⟨⟨⟨i1, i2, i3, i4⟩, h2⟩, h3, h4⟩ := h
  refine ⟨⟨⟨i1, i2, ?_, ?_⟩, ?_⟩, ?_, ?_⟩
  · show 0 ≤ m.columns - 1 - v.col; omega
  · show m.columns - 1 - v.col < m.columns; omega
  · show m.occ ⟨v.row, m.columns - 1 - (m.columns - 1 - v.col)⟩ = false
    rw [sub_sub_cancel]; exact h2
  · unfold chebyshev at h3 ⊢
    dsimp only
    rw [sub_sub_sub_cancel_left, abs_sub_comm v.col]
    exact h3
  · dsimp only
    rw [sub_sub_cancel, sub_sub_cancel]
    exact fun e1 e2 => h4 e1 (fun e => e2 (by rw [e]))

private theorem transpose_move {m : GridMap} {u v : Cell} (h : Move m u v) :
    Move ⟨m.columns, m.rows, fun c => m.occ ⟨c.col, c.row⟩⟩ ⟨u.col, u.row⟩ ⟨v.col, v.row⟩ := by
  obtain ⟨⟨⟨i1, i2, i3, i4⟩, h2⟩, h3, h4⟩ := h
  refine ⟨⟨⟨i3, i4, i1, i2⟩, h2⟩, ?_, fun e1 e2 ⟨b1, b2⟩ => h4 e2 e1 ⟨b2, b1⟩⟩
  unfold chebyshev at h3 ⊢
  rw [max_comm]
  exact h3

private theorem turned_corr {m m' : GridMap} {f : Cell → Cell} (h : Turned m f m') : ∃ g, Corr m f g m' := by
  induction h with
  | same => exact ⟨fun c => c, fun _ => rfl, fun _ => rfl, fun _ h => h, fun _ h => h, fun _ => rfl, fun _ _ h => h,
      fun _ _ h => h, fun _ _ => rfl, rfl⟩
  | @mirrored f m' _ ih =>
    obtain ⟨g, c⟩ := ih
    refine ⟨fun c => g ⟨c.row, m'.columns - 1 - c.col⟩, ?_, ?_, ?_, ?_, ?_, ?_, ?_, ?_, c.cells⟩
    · intro x; dsimp only; rw [sub_sub_cancel]; exact c.gf x
    · intro x; rw [c.fg, sub_sub_cancel]
    · intro x hx
      obtain ⟨i1, i2, i3, i4⟩ := c.inside x hx
      refine ⟨i1, i2, ?_, ?_⟩ <;> dsimp only <;> omega
    · intro x hx
      obtain ⟨i1, i2, i3, i4⟩ := hx
      refine c.inside' _ ⟨i1, i2, ?_, ?_⟩ <;> dsimp only at i3 i4 ⊢ <;> omega
    · intro x; dsimp only; rw [sub_sub_cancel]; exact c.occ x
    · exact fun u v h => mirror_move rfl (c.move u v h)
    · intro u v h
      have h := mirror_move (m := ⟨m'.rows, m'.columns, fun c => m'.occ ⟨c.row, m'.columns - 1 - c.col⟩⟩) rfl h
      dsimp only at h
      simp only [sub_sub_cancel] at h
      exact c.move' _ _ h
    · intro u v
      refine Eq.trans ?_ (c.dist u v)
      unfold cellDistance
      rw [sub_sub_sub_cancel_left]
      congr 1
      push_cast
      ring
  | @transposed f m' _ ih =>
    obtain ⟨g, c⟩ := ih
    refine ⟨fun c => g ⟨c.col, c.row⟩, fun x => c.gf x, ?_, ?_, ?_, fun x => c.occ x, ?_, ?_, ?_, ?_⟩
    · intro x; rw [c.fg]
    · intro x hx
      obtain ⟨i1, i2, i3, i4⟩ := c.inside x hx
      exact ⟨i3, i4, i1, i2⟩
    · rintro x ⟨i1, i2, i3, i4⟩
      exact c.inside' _ ⟨i3, i4, i1, i2⟩
    · exact fun u v h => transpose_move (c.move u v h)
    · exact fun u v h => c.move' _ _ (transpose_move h)
    · intro u v
      refine Eq.trans ?_ (c.dist u v)
      unfold cellDistance
      rw [add_comm]
    · rw [← c.cells, mul_comm]

private theorem walk_map {m m' : GridMap} {f : Cell → Cell} (hf : ∀ u v, Move m u v → Move m' (f u) (f v)) {a b : Cell}
    {l : List Cell} (h : Walk m a l b) : Walk m' (f a) (l.map f) (f b) := by
  induction h with
  | stop a => exact .stop _
  | move hm _ ih => exact .move (hf _ _ hm) ih

private theorem cost_map {C : Type} [Add C] [Zero C] {f : Cell → Cell} {k k' : Cell → Cell → C}
    (hk : ∀ a b, k' (f a) (f b) = k a b) : ∀ l : List Cell, walkCost k' (l.map f) = walkCost k l
  | [] => rfl
  | [_] => rfl
  | a :: b :: l => by
    have := cost_map hk (b :: l)
    rw [List.map_cons, List.map_cons, walkCost, walkCost, hk, ← List.map_cons, this]

/-- C170. With costs of moves that are turned with the map, the planner succeeds on the turned map exactly if it does on the
map, and then reports the same cost. -/
theorem C170_same_cost {C : Type} [AddCommMonoid C] [LinearOrder C] [IsOrderedCancelAddMonoid C] (m m' : GridMap)
    (f : Cell → Cell) (hT : Turned m f m') (pathCost pathCost' heur heur' : Cell → Cell → C)
    (hk : ∀ a b, pathCost' (f a) (f b) = pathCost a b) (init goal : Cell) (hi : Inside m init)
    (hcon : ConsistentOn m pathCost heur goal) (hcon' : ConsistentOn m' pathCost' heur' (f goal)) {fuel fuel' : Nat}
    {st st' : Status} {s s' : Search Cell Unit C}
    (h : searchPath (N2.problem m pathCost heur goal) true fuel init = some (st, s))
    (h' : searchPath (N2.problem m' pathCost' heur' (f goal)) true fuel' (f init) = some (st', s')) :
    st = st' ∧ (st = .success → ∃ c, getOptimalCost s = some c ∧ getOptimalCost s' = some c) := by
  obtain ⟨g, c⟩ := turned_corr hT
  have back : ∀ {l}, Walk m' (f init) l (f goal) → Walk m init (l.map g) goal := fun hw => by
    have := walk_map c.move' hw
    rwa [c.gf, c.gf] at this
  have hk' : ∀ a b, pathCost (g a) (g b) = pathCost' a b := fun a b => by rw [← hk, c.fg, c.fg]
  rcases grid_answer hi hcon h with ⟨rfl, hno⟩ | ⟨rfl, l, hw, hc, hopt⟩ <;>
    rcases grid_answer (c.inside _ hi) hcon' h' with ⟨rfl, hno'⟩ | ⟨rfl, l', hw', hc', hopt'⟩
  · exact ⟨rfl, fun h => nomatch h⟩
  · exact absurd ⟨_, back hw'⟩ hno
  · exact absurd ⟨_, walk_map c.move hw⟩ hno'
  · refine ⟨rfl, fun _ => ⟨_, hc, ?_⟩⟩
    have h1 := hopt _ (back hw')
    have h2 := hopt' _ (walk_map c.move hw)
    rw [cost_map hk'] at h1
    rw [cost_map hk] at h2
    rw [hc', le_antisymm h1 h2]

/-- C170 with doubles, on maps of at most 65536 cells: the planner succeeds on the turned map exactly if it does on the map,
the two paths have exactly the same length, and each of them, turned, is a shortest path of the other map. -/
theorem C170_same_length_double (m m' : GridMap) (hm : m.rows.toNat * m.columns.toNat ≤ 2 ^ 16) (f : Cell → Cell)
    (hT : Turned m f m') (init goal : Cell) (hi : Inside m init) {fuel fuel' : Nat} {st st' : Status}
    {s s' : Search Cell Unit Double}
    (h : searchPath (N2.problem m N2.distanceF N2.distanceF goal) true fuel init = some (st, s))
    (h' : searchPath (N2.problem m' N2.distanceF N2.distanceF (f goal)) true fuel' (f init) = some (st', s')) :
    st = st' ∧ (st = .success → ∃ l l', getPath s = some l ∧ getPath s' = some l' ∧ walkLength l = walkLength l' ∧
      Walk m' (f init) (l.map f) (f goal) ∧
      ∀ other, Walk m' (f init) other (f goal) → walkLength (l.map f) ≤ walkLength other) := by
  obtain ⟨g, c⟩ := turned_corr hT
  have back : ∀ {l}, Walk m' (f init) l (f goal) → Walk m init (l.map g) goal := fun hw => by
    have := walk_map c.move' hw
    rwa [c.gf, c.gf] at this
  have hk' : ∀ a b, cellDistance (g a) (g b) = cellDistance a b := fun a b => by rw [← c.dist, c.fg, c.fg]
  rcases grid_answerF hm hi h with ⟨rfl, hno⟩ | ⟨rfl, l, hp, hw, hopt⟩ <;>
    rcases grid_answerF (by rw [c.cells]; exact hm) (c.inside _ hi) h' with ⟨rfl, hno'⟩ | ⟨rfl, l', hp', hw', hopt'⟩
  · exact ⟨rfl, fun h => nomatch h⟩
  · exact absurd ⟨_, back hw'⟩ hno
  · exact absurd ⟨_, walk_map c.move hw⟩ hno'
  · have e : walkLength l = walkLength l' := by
      have h1 := hopt _ (back hw')
      have h2 := hopt' _ (walk_map c.move hw)
      unfold walkLength at h1 h2 ⊢
      rw [cost_map hk'] at h1
      rw [cost_map c.dist] at h2
      exact le_antisymm h1 h2
    refine ⟨rfl, fun _ => ⟨l, l', hp, hp', e, walk_map c.move hw, fun other ho => ?_⟩⟩
    have := hopt' _ ho
    unfold walkLength at this e ⊢
    rwa [cost_map c.dist, e]

/-- C170 for the bidirectional planner with doubles: between free cells it succeeds on the turned map exactly if it does on
the map. -/
theorem C170_bidirectional (m m' : GridMap) (f : Cell → Cell) (hT : Turned m f m') (hf hr hf' hr' : Cell → Double)
    (init goal : Cell) (hi : Free m init) (hg : Free m goal) {fuel fuel' : Nat} {st st' : Status}
    {s s' : BiSearch Cell Unit Double}
    (h : Bi.searchPath (N2.biProblem m N2.distanceF N2.distanceF hf hr) true fuel init goal = some (st, s))
    (h' : Bi.searchPath (N2.biProblem m' N2.distanceF N2.distanceF hf' hr') true fuel' (f init) (f goal) = some (st', s')) :
    st = st' := by
  obtain ⟨g, c⟩ := turned_corr hT
  have e := C156_fails_iff_no_walk m _ _ hf hr distanceF_symm init goal hi hg h
  have e' := C156_fails_iff_no_walk m' _ _ hf' hr' distanceF_symm (f init) (f goal)
    ⟨c.inside _ hi.1, by rw [c.occ]; exact hi.2⟩ ⟨c.inside _ hg.1, by rw [c.occ]; exact hg.2⟩ h'
  have hw : (∃ l, Walk m init l goal) ↔ ∃ l, Walk m' (f init) l (f goal) := by
    refine ⟨fun ⟨l, h⟩ => ⟨_, walk_map c.move h⟩, fun ⟨l, h⟩ => ⟨l.map g, ?_⟩⟩
    have := walk_map c.move' h
    rwa [c.gf, c.gf] at this
  rw [hw] at e
  cases st <;> cases st' <;> first | rfl | (exfalso; simp at e e'; tauto)

/-- A 3 × 2 map with an obstacle, turned by a quarter turn: the obstacle turns with the map, and the cost of going round it is
found on both. -/
example : let m : GridMap := ⟨3, 2, fun c => decide (c = ⟨1, 0⟩)⟩
    let m' : GridMap := ⟨2, 3, fun c => decide (c = ⟨0, 1⟩)⟩
    let k : Cell → Cell → Nat := fun a b => if a.isDiagonalTo b then 14 else 10
    let cost := fun (m : GridMap) (a b : Cell) =>
      (searchPath (N2.problem m k (fun _ _ => 0) b) true 10 a).map (fun r => (r.1, getOptimalCost r.2))
    (∃ f, Turned m f ⟨2, 3, fun c => m.occ ⟨3 - 1 - c.col, c.row⟩⟩ ∧ f ⟨0, 0⟩ = ⟨0, 2⟩ ∧ f ⟨2, 0⟩ = ⟨0, 0⟩ ∧
      ∀ a b, k (f a) (f b) = k a b) ∧
    (∀ c, m'.occ c = m.occ ⟨3 - 1 - c.col, c.row⟩) ∧
    cost m ⟨0, 0⟩ ⟨2, 0⟩ = some (.success, some 28) ∧ cost m' ⟨0, 2⟩ ⟨0, 0⟩ = some (.success, some 28) := by
  refine ⟨⟨_, .mirrored (.transposed .same), rfl, rfl, ?_⟩, ?_, (by decide +kernel), (by decide +kernel)⟩
  · intro a b
    have e : Cell.isDiagonalTo ⟨a.col, 3 - 1 - a.row⟩ ⟨b.col, 3 - 1 - b.row⟩ = a.isDiagonalTo b := by
      unfold Cell.isDiagonalTo
      rw [Bool.eq_iff_iff]
      simp only [Bool.and_eq_true, decide_eq_true_eq]
      omega
    dsimp only
    rw [e]
  · rintro ⟨r, c⟩
    simp only [Cell.mk.injEq, decide_eq_decide]
    omega

end PathPlanning
