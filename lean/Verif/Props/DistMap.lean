import Verif.Lemmas.DistMapWitness

/-!
# Distance maps of the generalised Voronoi diagram: C34 – C39, C67

`DistMap.Run (.new rows columns) ops m`: starting with an empty `rows` × `columns` map, the calls `ops`
can leave the map `m`, for some order of the entries of equal value in the priority queue. All theorems
are for every such `m`, hence for every order. The theorems about `DistMap` hold of the obstacle map and
of the map of Voronoi edges (`C34_linked_maps`).
-/

namespace PathPlanning
open Spec

/-- A history used as an example: two obstacles, an update, a removal, an update. -/
def exampleOps : List DistMap.Op :=
  [.set ⟨0, 0⟩, .set ⟨2, 3⟩, .update, .unset ⟨0, 0⟩, .update]

/-- The same on linked maps, with two obstacles of distinct labels. -/
def exampleLinked : List ObstDistMap.Op :=
  [.link, .set ⟨0, 0⟩, .set ⟨2, 3⟩, .update (fun c => c.row), .updateEdges, .unset ⟨0, 0⟩,
    .update (fun c => c.row), .updateEdges]

/-! ## C34 -/

/-- C34: the reported distance is the distance to the reported obstacle cell; a cell without an obstacle
has the greatest distance. -/
theorem C34_distance_of_reported_obstacle {rows columns : Int} {ops : List DistMap.Op} {m : DistMap}
    (r : DistMap.Run (.new rows columns) ops m) (c : Cell) (hc : InRect rows columns c) :
    (m.obst c = Cell.invalid ∧ m.dist c = ⊤) ∨
    (InRect rows columns (m.obst c) ∧ ∃ d : Nat, m.dist c = d ∧ (d : Int) = sqDist (m.obst c) c) := by
  obtain ⟨h1, h2⟩ := DistMap.run_size r
  have h := (DistMap.run_inv r).1
  have hc' : m.inside c = true := by rw [DistMap.inside_iff, h1, h2]; exact hc
  rcases h.exact c hc' with h | ⟨h3, h4⟩
  · exact Or.inl h
  · right
    rw [DistMap.inside_iff, h1, h2] at h3
    exact ⟨h3, _, h4, sq_cast _ _⟩

/-- C34: obstacle cells report themselves and distance 0, and no other cell does. -/
theorem C34_obstacles_report_themselves {rows columns : Int} {ops : List DistMap.Op} {m : DistMap}
    (r : DistMap.Run (.new rows columns) ops m) (c : Cell) (hc : InRect rows columns c) :
    (m.obst c = c ↔ c ∈ obstacles ops) ∧ (m.dist c = 0 ↔ c ∈ obstacles ops) := by
  obtain ⟨h1, h2⟩ := DistMap.run_size r
  have h := (DistMap.run_inv r).1
  have hc' : m.inside c = true := by rw [DistMap.inside_iff, h1, h2]; exact hc
  have hs := h.self c hc'
  refine ⟨hs, ?_, fun ho => h.dist_self hc' (hs.mpr ho)⟩
  intro hd
  rw [← hs]
  rcases h.exact c hc' with ⟨_, h4⟩ | ⟨_, h4⟩
  · rw [hd] at h4; exact absurd h4 (WithTop.coe_ne_top (a := 0))
  · rw [hd] at h4
    have h4 : (0 : Nat) = squaredDistance (m.obst c) c := WithTop.coe_injective h4
    exact sq_eq_zero.mp h4.symm

/-- C34: the obstacle map of two linked maps is a distance map with the same history of obstacles, and the
map of Voronoi edges is a distance map of the same size. -/
theorem C34_linked_maps {rows columns : Int} {ops : List ObstDistMap.Op} {g : ObstDistMap}
    (r : ObstDistMap.Run (.new rows columns) ops g) :
    DistMap.Run (.new rows columns) (obstacleCalls ops) g.core ∧
    ∀ e, g.edges = some e → ∃ eops, DistMap.Run (.new rows columns) eops e := by
  obtain ⟨h, hr⟩ := ObstDistMap.run_ginv r
  obtain ⟨h1, h2⟩ := DistMap.run_size hr
  refine ⟨hr, ?_⟩
  intro e he
  rw [← h1, ← h2]
  exact h.edges e he

/-- The example history has executions, with an obstacle left. -/
example : (∃ m, DistMap.Run (.new 4 5) exampleOps m) ∧ InRect 4 5 ⟨3, 3⟩ ∧
    (⟨2, 3⟩ : Cell) ∈ obstacles exampleOps ∧ (⟨0, 0⟩ : Cell) ∉ obstacles exampleOps := by
  refine ⟨DistMap.exists_run _ ?_, ?_, ?_, ?_⟩
  · intro o ho
    simp only [exampleOps, List.mem_cons, List.not_mem_nil, or_false] at ho
    rcases ho with rfl | rfl | rfl | rfl | rfl <;> simp [OpIn, InRect]
  · simp [InRect]
  · exact ⟨Or.inr rfl, by decide⟩
  · exact fun h => h.2 rfl

/-! ## C35 -/

/-- C35, violated: after this history, with every order of the queue, the cell (13, 7) of a 14 × 9 map
reports the obstacle (1, 2) that has been removed, at squared distance 169, although the nearest obstacle is
at squared distance 170. -/
theorem C35_removed_obstacle_still_reported :
    ∃ ops : List DistMap.Op, (∃ m, DistMap.Run (.new 14 9) (ops ++ [.update]) m) ∧
      ∀ m, DistMap.Run (.new 14 9) (ops ++ [.update]) m →
        m.obst ⟨13, 7⟩ = ⟨1, 2⟩ ∧ (⟨1, 2⟩ : Cell) ∉ obstacles ops ∧ m.dist ⟨13, 7⟩ = (169 : Nat) ∧
        ∀ o ∈ obstacles ops, 170 ≤ sqDist o ⟨13, 7⟩ := by
  refine ⟨[.set ⟨1, 2⟩, .update, .set ⟨0, 8⟩, .set ⟨2, 0⟩, .update, .unset ⟨1, 2⟩], DistMap.exists_run _ ?_, ?_⟩
  · intro o ho
    simp only [List.cons_append, List.nil_append, List.mem_cons, List.not_mem_nil, or_false] at ho
    rcases ho with rfl | rfl | rfl | rfl | rfl | rfl | rfl <;> simp [OpIn, InRect]
  · intro m r
    obtain ⟨h1, h2⟩ := DistMap.Witness.wrong35 r
    refine ⟨h1, fun h => h.2 rfl, h2, ?_⟩
    rintro o ⟨((h | h) | h) | h, hne⟩
    · exact h.elim
    · exact absurd h hne
    · rw [show o = ⟨0, 8⟩ from h]; decide
    · rw [show o = ⟨2, 0⟩ from h]; decide

/-- C35 without removals: every reported obstacle is one. Missing: histories with removals, for which it is
false. -/
theorem C35_no_removal_partial {rows columns : Int} {ops : List DistMap.Op} {m : DistMap}
    (r : DistMap.Run (.new rows columns) ops m) (hn : NoUnset ops) (c : Cell) (hc : InRect rows columns c) :
    m.obst c = Cell.invalid ∨ m.obst c ∈ obstacles ops := by
  obtain ⟨h1, h2⟩ := DistMap.run_size r
  have hc' : m.inside c = true := by rw [DistMap.inside_iff, h1, h2]; exact hc
  rcases (DistMap.run_inv r).1.exact c hc' with h | h
  · exact Or.inl h.1
  · exact Or.inr ((DistMap.fresh_run r hn).real c hc' (DistMap.inside_valid h.1))

/-- C35 for close obstacles, with any history of removals: after Update a cell that reports an obstacle on
itself or one of its eight neighbours reports a current obstacle. Missing: obstacles further away. -/
theorem C35_adjacent_partial {rows columns : Int} {ops : List DistMap.Op} {m : DistMap}
    (r : DistMap.Run (.new rows columns) (ops ++ [.update]) m) (c : Cell) (hc : InRect rows columns c)
    (d : Nat) (hd : m.dist c = d) (hnear : d ≤ 2) : m.obst c ∈ obstacles ops := by
  obtain ⟨h1, h2⟩ := DistMap.run_size r
  have hc' : m.inside c = true := by rw [DistMap.inside_iff, h1, h2]; exact hc
  have hs := r.settled
  have hn : m.NearOk (obstacles ops) := by
    have := DistMap.nearOk_run r
    rw [ObstDistMap.obstacles_append] at this
    exact this
  rcases hs.exact c hc' with ⟨_, h⟩ | ⟨h3, h4⟩
  · rw [h] at hd; exact absurd hd.symm WithTop.coe_ne_top
  · by_contra hS
    rw [h4] at hd
    have hd : squaredDistance (m.obst c) c = d := WithTop.coe_injective hd
    have hne : m.obst c ≠ c := fun h => hS (by rw [h]; exact (hs.self c hc').mp h)
    have hadj : chebyshev (m.obst c) c = 1 := by
      rw [chebyshev_eq_one]
      have e := sq_cast (m.obst c) c
      unfold sqDist at e
      have hne' : ¬ ((m.obst c).row = c.row ∧ (m.obst c).col = c.col) := fun h => hne (Cell.ext_iff.mpr h)
      have g1 := sq_nonneg ((m.obst c).row - c.row)
      have g2 := sq_nonneg ((m.obst c).col - c.col)
      have b1 : |(m.obst c).row - c.row| < 2 := by
        rw [← abs_two (α := Int)]; apply sq_lt_sq.mp; omega
      have b2 : |(m.obst c).col - c.col| < 2 := by
        rw [← abs_two (α := Int)]; apply sq_lt_sq.mp; omega
      rw [abs_lt] at b1 b2
      refine ⟨by omega, by omega, by omega, by omega, by omega⟩
    have hr := hn.near c hc' h3 hS hadj
    have hp := (hs.raise _ h3 hr).2
    rw [hs.empty] at hp
    simp [DistMap.cnt] at hp

/-- Non-vacuity: a history without removal and one with a removal, both with executions; in the second a
neighbour of the remaining obstacle is at distance at most 2. -/
example : (∃ m, DistMap.Run (.new 4 5) [.set ⟨0, 0⟩, .update, .set ⟨2, 3⟩, .update] m) ∧
    NoUnset [.set ⟨0, 0⟩, .update, .set ⟨2, 3⟩, .update] ∧
    ∃ m, DistMap.Run (.new 4 5) ([.set ⟨0, 0⟩, .set ⟨2, 3⟩, .update, .unset ⟨0, 0⟩] ++ [.update]) m ∧
      ∃ d : Nat, m.dist ⟨3, 3⟩ = d ∧ d ≤ 2 := by
  refine ⟨DistMap.exists_run _ ?_, by intro s hs; simp at hs, ?_⟩
  · intro o ho
    simp only [List.mem_cons, List.not_mem_nil, or_false] at ho
    rcases ho with rfl | rfl | rfl | rfl <;> simp [OpIn, InRect]
  · obtain ⟨m, r⟩ := DistMap.exists_run (rows := 4) (columns := 5)
      ([.set ⟨0, 0⟩, .set ⟨2, 3⟩, .update, .unset ⟨0, 0⟩] ++ [.update]) (by
      intro o ho
      simp only [List.cons_append, List.nil_append, List.mem_cons, List.not_mem_nil, or_false] at ho
      rcases ho with rfl | rfl | rfl | rfl | rfl <;> simp [OpIn, InRect])
    refine ⟨m, r, ?_⟩
    have hz := DistMap.run_size r
    have hin : ∀ c, InRect 4 5 c → m.inside c = true := by
      intro c hc; rw [DistMap.inside_iff, hz.1, hz.2]; exact hc
    have ho : (⟨2, 3⟩ : Cell) ∈ obstacles [.set ⟨0, 0⟩, .set ⟨2, 3⟩, .update, .unset ⟨0, 0⟩] := ⟨Or.inr rfl, by decide⟩
    have hs := r.settled
    have h23 := hin ⟨2, 3⟩ (by simp [InRect])
    have hself := (hs.self _ h23).mpr ho
    have := hs.local h23 (hin ⟨3, 3⟩ (by simp [InRect])) (by decide) (by rw [hself]; rfl)
    rw [hself] at this
    obtain ⟨d, hd, hle⟩ := WithTop.le_coe_iff.mp this
    exact ⟨d, hd, hle.trans (by decide)⟩

/-! ## C36 -/

/-- C36: after Update, if there is an obstacle every cell reports an obstacle cell at a finite distance. -/
theorem C36_every_cell_sees_an_obstacle {rows columns : Int} {ops : List DistMap.Op} {m : DistMap}
    (r : DistMap.Run (.new rows columns) (ops ++ [.update]) m) (ho : ∃ o, o ∈ obstacles ops) (c : Cell)
    (hc : InRect rows columns c) : ∃ d : Nat, m.dist c = d ∧ InRect rows columns (m.obst c) := by
  obtain ⟨h1, h2⟩ := DistMap.run_size r
  have hc' : m.inside c = true := by rw [DistMap.inside_iff, h1, h2]; exact hc
  obtain ⟨o, ho⟩ := ho
  have hf := r.settled.finite ho hc'
  rcases r.settled.exact c hc' with ⟨_, h⟩ | ⟨h3, h4⟩
  · exact absurd h hf
  · rw [DistMap.inside_iff, h1, h2] at h3
    exact ⟨_, h4, h3⟩

/-- C36: after Update no cell would be nearer to the obstacle of one of its neighbours. -/
theorem C36_locally_exact {rows columns : Int} {ops : List DistMap.Op} {m : DistMap}
    (r : DistMap.Run (.new rows columns) (ops ++ [.update]) m) (c n : Cell)
    (hc : InRect rows columns c) (hn : InRect rows columns n) (hadj : chebyshev n c = 1)
    (ho : m.obst n ≠ Cell.invalid) : ∃ d : Nat, m.dist c = d ∧ (d : Int) ≤ sqDist (m.obst n) c := by
  obtain ⟨h1, h2⟩ := DistMap.run_size r
  have hin : ∀ c, InRect rows columns c → m.inside c = true := fun c hc => by
    rw [DistMap.inside_iff, h1, h2]; exact hc
  have hs := r.settled
  have hv : (m.obst n).isValid = true := by
    rcases hs.exact n (hin n hn) with ⟨h, _⟩ | ⟨h, _⟩
    · exact absurd h ho
    · exact DistMap.inside_valid h
  obtain ⟨d, hd, hle⟩ := WithTop.le_coe_iff.mp (hs.local (hin n hn) (hin c hc) hadj hv)
  refine ⟨d, hd, ?_⟩
  rw [← sq_cast]
  exact_mod_cast hle

/-- Non-vacuity. -/
example : (∃ m, DistMap.Run (.new 4 5) ([.set ⟨0, 0⟩, .set ⟨2, 3⟩, .update, .unset ⟨0, 0⟩] ++ [.update]) m) ∧
    (∃ o, o ∈ obstacles [.set ⟨0, 0⟩, .set ⟨2, 3⟩, .update, .unset ⟨0, 0⟩]) ∧ chebyshev ⟨2, 2⟩ ⟨1, 1⟩ = 1 := by
  refine ⟨DistMap.exists_run _ ?_, ⟨⟨2, 3⟩, Or.inr rfl, by decide⟩, by decide⟩
  intro o ho
  simp only [List.cons_append, List.nil_append, List.mem_cons, List.not_mem_nil, or_false] at ho
  rcases ho with rfl | rfl | rfl | rfl | rfl <;> simp [OpIn, InRect]

/-! ## C37 -/

/-- C37: no run of Update goes on forever, whatever the order of the queue. -/
theorem C37_update_terminates {rows columns : Int} {ops : List DistMap.Op} {m : DistMap}
    (r : DistMap.Run (.new rows columns) ops m) :
    ¬ ∃ f : ℕ → DistMap, f 0 = m ∧ ∀ i, DistMap.Step (f i) (f (i + 1)) := by
  rintro ⟨f, h0, hf⟩
  exact (DistMap.run_inv r).1.no_infinite f h0 hf

/-- C37 for the obstacle map linked to the map of Voronoi edges. -/
theorem C37_linked_update_terminates {rows columns : Int} {ops : List ObstDistMap.Op} {g : ObstDistMap}
    (r : ObstDistMap.Run (.new rows columns) ops g) (occ : Cell → Int) :
    ¬ ∃ f : ℕ → ObstDistMap, f 0 = g ∧ ∀ i, ObstDistMap.Step occ (f i) (f (i + 1)) := by
  rintro ⟨f, h0, hf⟩
  exact (ObstDistMap.run_ginv r).1.no_infinite f h0 hf

/-! ## C38 -/

/-- C38, violated without any removal: two obstacles, an update, a third obstacle and an update. With every
order of the queue the cell (13, 7) of a 14 × 9 map reports the squared distance 170, although the obstacle
(1, 2) is at squared distance 169. -/
theorem C38_not_the_nearest :
    ∃ ops : List DistMap.Op, NoUnset ops ∧ (∃ m, DistMap.Run (.new 14 9) (ops ++ [.update]) m) ∧
      ∀ m, DistMap.Run (.new 14 9) (ops ++ [.update]) m →
        m.dist ⟨13, 7⟩ = (170 : Nat) ∧ (⟨1, 2⟩ : Cell) ∈ obstacles ops ∧ sqDist ⟨1, 2⟩ ⟨13, 7⟩ = 169 := by
  refine ⟨[.set ⟨0, 8⟩, .set ⟨2, 0⟩, .update, .set ⟨1, 2⟩], by intro s hs; simp at hs, DistMap.exists_run _ ?_, ?_⟩
  · intro o ho
    simp only [List.cons_append, List.nil_append, List.mem_cons, List.not_mem_nil, or_false] at ho
    rcases ho with rfl | rfl | rfl | rfl | rfl <;> simp [OpIn, InRect]
  · intro m r
    exact ⟨DistMap.Witness.wrong38 r, Or.inr rfl, by decide⟩

/-- C38, the reported distance never exceeds the exact one by more than the factor `√(4 - 2√2)` (8.3 %), for
every history with removals. Missing: it is not the exact distance. -/
theorem C38_at_most_eight_percent_partial {rows columns : Int} {ops : List DistMap.Op} {m : DistMap}
    (r : DistMap.Run (.new rows columns) (ops ++ [.update]) m) (c : Cell) (hc : InRect rows columns c)
    (o : Cell) (ho : o ∈ obstacles ops) :
    ∃ d : Nat, m.dist c = d ∧ (d : ℝ) ≤ (4 - 2 * √2) * ((sqDist o c : Int) : ℝ) := by
  obtain ⟨h1, h2⟩ := DistMap.run_size r
  have hc' : m.inside c = true := by rw [DistMap.inside_iff, h1, h2]; exact hc
  obtain ⟨d, hd, hle⟩ := r.settled.octile ho hc'
  refine ⟨d, hd, ?_⟩
  have h3 : (d : ℝ) = √(d : ℝ) ^ 2 := (Real.sq_sqrt (Nat.cast_nonneg d)).symm
  rw [h3]
  exact le_trans (pow_le_pow_left₀ (Real.sqrt_nonneg _) hle 2) (DistMap.octile_sq_le o c)

/-- C38 along rows, columns and diagonals: the reported distance is at most the exact distance to any obstacle
in one of the eight compass directions. Missing: other directions. -/
theorem C38_compass_directions_partial {rows columns : Int} {ops : List DistMap.Op} {m : DistMap}
    (r : DistMap.Run (.new rows columns) (ops ++ [.update]) m) (c : Cell) (hc : InRect rows columns c)
    (o : Cell) (ho : o ∈ obstacles ops)
    (hdir : o.row = c.row ∨ o.col = c.col ∨ |o.row - c.row| = |o.col - c.col|) :
    ∃ d : Nat, m.dist c = d ∧ (d : Int) ≤ sqDist o c := by
  obtain ⟨h1, h2⟩ := DistMap.run_size r
  have hc' : m.inside c = true := by rw [DistMap.inside_iff, h1, h2]; exact hc
  obtain ⟨d, hd, hle⟩ := r.settled.octile ho hc'
  refine ⟨d, hd, ?_⟩
  have hoct : DistMap.octile o c ^ 2 = ((sqDist o c : Int) : ℝ) := by
    unfold DistMap.octile sqDist
    rcases hdir with h | h | h
    · rw [h]
      simp
    · rw [h]
      simp
    · rw [h, min_self, max_self, ← sq_abs (o.row - c.row), h]
      push_cast
      have hs : √2 ^ 2 = (2 : ℝ) := Real.sq_sqrt (by norm_num)
      have : ((√2 - 1) * |(o.col : ℝ) - c.col| + |(o.col : ℝ) - c.col|) ^ 2 = √2 ^ 2 * |(o.col : ℝ) - c.col| ^ 2 := by
        ring
      rw [this, hs, sq_abs]
      ring
  have h3 : (d : ℝ) = √(d : ℝ) ^ 2 := (Real.sq_sqrt (Nat.cast_nonneg d)).symm
  have h4 : (d : ℝ) ≤ ((sqDist o c : Int) : ℝ) := by
    rw [h3, ← hoct]
    exact pow_le_pow_left₀ (Real.sqrt_nonneg _) hle 2
  exact_mod_cast h4

/-- C38 without removals: the reported distance is that of some obstacle, so it is never below the exact one.
Missing: it may be above it. -/
theorem C38_never_below_partial {rows columns : Int} {ops : List DistMap.Op} {m : DistMap}
    (r : DistMap.Run (.new rows columns) (ops ++ [.update]) m) (hn : NoUnset ops) (c : Cell)
    (hc : InRect rows columns c) (ho : ∃ o, o ∈ obstacles ops) :
    ∃ o ∈ obstacles ops, ∃ d : Nat, m.dist c = d ∧ (d : Int) = sqDist o c := by
  obtain ⟨d, hd, hin⟩ := C36_every_cell_sees_an_obstacle r ho c hc
  have hn' : NoUnset (ops ++ [.update]) := by
    intro s hs
    rcases List.mem_append.mp hs with h | h
    · exact hn s h
    · simp at h
  have hreal : m.obst c = Cell.invalid ∨ m.obst c ∈ obstacles ops := by
    have := C35_no_removal_partial r hn' c hc
    rw [ObstDistMap.obstacles_append] at this
    exact this
  rcases C34_distance_of_reported_obstacle r c hc with ⟨_, h⟩ | ⟨_, d', h1, h2⟩
  · rw [hd] at h; exact absurd h WithTop.coe_ne_top
  · rcases hreal with h | h
    · rw [h] at hin; exact absurd hin.1 (by decide)
    · exact ⟨m.obst c, h, d', h1, h2⟩

/-- Non-vacuity: an obstacle in a compass direction of a cell, no removal. -/
example : (∃ m, DistMap.Run (.new 4 5) ([.set ⟨0, 0⟩, .update, .set ⟨2, 3⟩] ++ [.update]) m) ∧
    NoUnset [.set ⟨0, 0⟩, .update, .set ⟨2, 3⟩] ∧ (⟨2, 3⟩ : Cell) ∈ obstacles [.set ⟨0, 0⟩, .update, .set ⟨2, 3⟩] ∧
    |(2 : Int) - 0| = |(3 : Int) - 1| := by
  refine ⟨DistMap.exists_run _ ?_, by intro s hs; simp at hs, Or.inr rfl, by decide⟩
  intro o ho
  simp only [List.cons_append, List.nil_append, List.mem_cons, List.not_mem_nil, or_false] at ho
  rcases ho with rfl | rfl | rfl | rfl <;> simp [OpIn, InRect]

/-! ## C39 -/

/-- C39: whatever the history, no iteration of Update reads outside the grid. -/
theorem C39_update_reads_inside {rows columns : Int} {ops : List DistMap.Op} {m : DistMap}
    (r : DistMap.Run (.new rows columns) ops m) (m' : DistMap)
    (st : Relation.ReflTransGen DistMap.Step m m') (e : Cell × WithTop Nat) (he : DistMap.IsTop m'.queue e) :
    (m'.pop e).process e.1 ≠ none := by
  have h := (DistMap.run_inv r).1.steps st
  obtain ⟨m1, h1, -⟩ := DistMap.process_effect (m := m'.pop e) (s := e.1) h.bd (h.qin e he.1)
  rw [h1]; simp

/-- C39 for the obstacle map linked to the map of Voronoi edges, including the edge test and the edits of the
other map. -/
theorem C39_linked_update_reads_inside {rows columns : Int} {ops : List ObstDistMap.Op} {g : ObstDistMap}
    (r : ObstDistMap.Run (.new rows columns) ops g) (occ : Cell → Int) (g' : ObstDistMap)
    (st : Relation.ReflTransGen (ObstDistMap.Step occ) g g') (e : Cell × WithTop Nat)
    (he : DistMap.IsTop g'.core.queue e) :
    ObstDistMap.process occ { g' with core := g'.core.pop e } e.1 ≠ none := by
  obtain ⟨g1, h1⟩ := ((ObstDistMap.run_ginv r).1.steps st).1.progress occ he.1
  rw [h1]; simp

/-- C39: every history of calls on cells of the grid has an execution. -/
theorem C39_histories_execute {rows columns : Int} (ops : List DistMap.Op) (h : ∀ o ∈ ops, OpIn rows columns o) :
    ∃ m, DistMap.Run (.new rows columns) ops m := DistMap.exists_run ops h

/-- C39: so does every history on linked maps, once the map of Voronoi edges has been asked for. -/
theorem C39_linked_histories_execute {rows columns : Int} (ops : List ObstDistMap.Op)
    (h : ∀ o ∈ ops, ∀ o', obstacleCall o = some o' → OpIn rows columns o') :
    ∃ g, ObstDistMap.Run (.new rows columns) (.link :: ops) g := by
  suffices ∃ g, ObstDistMap.Run (.new rows columns) (.link :: ops) g ∧ ∃ e, g.edges = some e by
    obtain ⟨g, hg, -⟩ := this; exact ⟨g, hg⟩
  induction ops using List.reverseRecOn with
  | nil => exact ⟨_, .cons .link .nil, _, rfl⟩
  | append_singleton ops o ih =>
    obtain ⟨g, r, e, he⟩ := ih (fun o ho => h o (List.mem_append_left _ ho))
    have hg := (ObstDistMap.run_ginv r).1
    have hz := DistMap.run_size (ObstDistMap.run_ginv r).2
    have ho := h o (List.mem_append_right _ (List.mem_singleton.mpr rfl))
    have snoc : ∀ {g0 g g' : ObstDistMap} {os : List ObstDistMap.Op} {o : ObstDistMap.Op}, ObstDistMap.Run g0 os g →
        ObstDistMap.Call g o g' → ObstDistMap.Run g0 (os ++ [o]) g' := by
      intro g0 g g' os o r c
      induction r with
      | nil => exact .cons c .nil
      | cons c' _ ih => exact .cons c' (ih c)
    cases o with
    | set s =>
      obtain ⟨m', h', -⟩ := DistMap.set_in (m := g.core) (s := s)
        (by rw [DistMap.inside_iff, hz.1, hz.2]; exact ho _ rfl)
      exact ⟨_, snoc r (.set h'), e, he⟩
    | unset s =>
      obtain ⟨m', h', -⟩ := DistMap.unset_in (m := g.core) (s := s)
        (by rw [DistMap.inside_iff, hz.1, hz.2]; exact ho _ rfl)
      exact ⟨_, snoc r (.unset h'), e, he⟩
    | link =>
      refine ⟨_, snoc r .link, e, ?_⟩
      unfold ObstDistMap.linkVoronoi
      rw [he]; exact he
    | update occ =>
      obtain ⟨g', u⟩ := hg.exists_update occ
      refine ⟨g', snoc r (.update u), ?_⟩
      have : ∀ g', Relation.ReflTransGen (ObstDistMap.Step occ) g g' → ∃ e, g'.edges = some e := by
        intro g' st
        induction st with
        | refl => exact ⟨e, he⟩
        | tail st1 st ih =>
          obtain ⟨e1, he1⟩ := ih
          exact (hg.steps st1).1.step_edges st he1
      exact this g' u.1
    | updateEdges =>
      obtain ⟨eo, re⟩ := hg.edges e he
      obtain ⟨e', u⟩ := (DistMap.run_inv re).1.exists_update
      exact ⟨_, snoc r (.updateEdges he u), e', rfl⟩

/-- Non-vacuity: the example of linked maps. -/
example : ∃ g, ObstDistMap.Run (.new 4 5) exampleLinked g := by
  refine C39_linked_histories_execute _ ?_
  intro o ho o' ho'
  simp only [List.mem_cons, List.not_mem_nil, or_false] at ho
  rcases ho with rfl | rfl | rfl | rfl | rfl | rfl | rfl <;> simp [obstacleCall] at ho' <;> subst ho' <;>
    simp [OpIn, InRect]

/-! ## C67 -/

/-- C67: after an update of the obstacle map, no obstacle cell is a Voronoi edge, so no cell is at distance 0 from
both. -/
theorem C67_no_obstacle_is_an_edge {rows columns : Int} {ops : List ObstDistMap.Op} {occ : Cell → Int}
    {g : ObstDistMap} (r : ObstDistMap.Run (.new rows columns) (ops ++ [.update occ]) g) (e : DistMap)
    (he : g.edges = some e) (c : Cell) (hc : InRect rows columns c) : ¬ (g.core.dist c = 0 ∧ e.dist c = 0) := by
  obtain ⟨h, hr⟩ := ObstDistMap.run_ginv r
  obtain ⟨eops, re⟩ := (C34_linked_maps r).2 e he
  rintro ⟨h1, h2⟩
  have hS := (C34_obstacles_report_themselves hr c hc).2.mp h1
  have hE := (C34_obstacles_report_themselves re c hc).1.mpr ((C34_obstacles_report_themselves re c hc).2.mp h2)
  rcases h.apart e he c hS with hx | hx
  · exact hx hE
  · have hq : g.core.queue = [] := by
      have : ∀ {g0 g : ObstDistMap}, ObstDistMap.Run g0 (ops ++ [.update occ]) g → g.core.queue = [] := by
        clear * -
        intro g0 g r
        induction ops generalizing g0 with
        | nil =>
          cases r with
          | cons c r =>
            cases r
            cases c with
            | update u => exact u.2
        | cons o os ih =>
          cases r with
          | cons c r => exact ih r
      exact this r
    have := hx.2
    rw [hq] at this
    simp [DistMap.cnt] at this

end PathPlanning
