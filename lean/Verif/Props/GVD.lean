import Verif.Model.GVD
import Verif.Props.DistMap
import Verif.Props.OccMap
import Mathlib.Tactic.Positivity
import Mathlib.Tactic.FieldSimp

/-!
# The Voronoi potential: C40, C68
-/

namespace PathPlanning
open Spec

/-! ## C40: the potential as a function of the two distances -/

section Cost
variable {alpha dMax : ℝ} (ha : 0 < alpha) (hd : 0 < dMax)
include ha hd

/-- C40: the potential lies in [0, 1]. -/
theorem C40_between_zero_and_one {o v : ℝ} (ho : 0 ≤ o) (hv : 0 ≤ v) :
    0 ≤ voronoiCost alpha dMax o v ∧ voronoiCost alpha dMax o v ≤ 1 := by
  unfold voronoiCost
  split
  · exact ⟨le_refl _, zero_le_one⟩
  · rename_i h
    have h1 : 0 ≤ alpha / (alpha + o) := by positivity
    have h2 : 0 ≤ v / (o + v) := by positivity
    have h3 : 0 ≤ (o - dMax) ^ 2 / dMax ^ 2 := by positivity
    refine ⟨mul_nonneg (mul_nonneg h1 h2) h3, ?_⟩
    have g1 : alpha / (alpha + o) ≤ 1 := div_le_one_of_le₀ (by linarith) (by linarith)
    have g2 : v / (o + v) ≤ 1 := div_le_one_of_le₀ (by linarith) (by linarith)
    have g3 : (o - dMax) ^ 2 / dMax ^ 2 ≤ 1 := by
      apply div_le_one_of_le₀ _ (by positivity)
      nlinarith [not_le.mp h]
    exact mul_le_one₀ (mul_le_one₀ g1 h2 g2) h3 g3

/-- C40: the potential is 1 exactly at obstacles (that are no edges). -/
theorem C40_one_iff_obstacle {o v : ℝ} (ho : 0 ≤ o) (hv : 0 ≤ v) (hne : ¬ (o = 0 ∧ v = 0)) :
    voronoiCost alpha dMax o v = 1 ↔ o = 0 := by
  constructor
  · intro h
    by_contra h0
    have hpos : 0 < o := lt_of_le_of_ne ho (Ne.symm h0)
    unfold voronoiCost at h
    split at h
    · exact zero_ne_one h
    · rename_i hlt
      have g1 : alpha / (alpha + o) < 1 := by rw [div_lt_one (by linarith)]; linarith
      have h2 : 0 ≤ v / (o + v) := by positivity
      have h3 : 0 ≤ (o - dMax) ^ 2 / dMax ^ 2 := by positivity
      have g2 : v / (o + v) ≤ 1 := div_le_one_of_le₀ (by linarith) (by linarith)
      have g3 : (o - dMax) ^ 2 / dMax ^ 2 ≤ 1 := by
        apply div_le_one_of_le₀ _ (by positivity)
        nlinarith [not_le.mp hlt]
      have h1 : 0 ≤ alpha / (alpha + o) := by positivity
      have k1 : alpha / (alpha + o) * (v / (o + v)) ≤ alpha / (alpha + o) := mul_le_of_le_one_right h1 g2
      have k2 : alpha / (alpha + o) * (v / (o + v)) * ((o - dMax) ^ 2 / dMax ^ 2) ≤
          alpha / (alpha + o) * (v / (o + v)) := mul_le_of_le_one_right (mul_nonneg h1 h2) g3
      linarith
  · rintro rfl
    have hv' : v ≠ 0 := fun h => hne ⟨rfl, h⟩
    unfold voronoiCost
    rw [if_neg (by linarith : ¬ (0 : ℝ) ≥ dMax)]
    rw [add_zero, zero_add, div_self (ne_of_gt ha), div_self hv', zero_sub, neg_sq, div_self (by positivity)]
    norm_num

/-- C40: the potential is 0 exactly on Voronoi edges and from the cut-off distance on. -/
theorem C40_zero_iff_edge_or_far {o v : ℝ} (ho : 0 ≤ o) (hv : 0 ≤ v) (hne : ¬ (o = 0 ∧ v = 0)) :
    voronoiCost alpha dMax o v = 0 ↔ v = 0 ∨ dMax ≤ o := by
  unfold voronoiCost
  split
  · rename_i h; exact ⟨fun _ => Or.inr h, fun _ => rfl⟩
  · rename_i h
    have h := not_le.mp h
    have hsum : 0 < o + v := by
      rcases eq_or_lt_of_le ho with h0 | h0
      · rcases eq_or_lt_of_le hv with h1 | h1
        · exact absurd ⟨h0.symm, h1.symm⟩ hne
        · linarith
      · linarith
    have n1 : alpha / (alpha + o) ≠ 0 := by positivity
    have n3 : (o - dMax) ^ 2 / dMax ^ 2 ≠ 0 := by
      have : o - dMax ≠ 0 := by linarith
      positivity
    constructor
    · intro he
      rcases mul_eq_zero.mp he with he | he
      · rcases mul_eq_zero.mp he with he | he
        · exact absurd he n1
        · rcases div_eq_zero_iff.mp he with he | he
          · exact Or.inl he
          · linarith
      · exact absurd he n3
    · rintro (he | he)
      · rw [he]; simp
      · linarith

/-- C40: the potential does not increase with the distance to the obstacle. -/
theorem C40_decreases_with_obstacle_distance {o o' v : ℝ} (ho : 0 ≤ o) (hoo : o ≤ o') (hv : 0 ≤ v)
    (hne : ¬ (o = 0 ∧ v = 0)) : voronoiCost alpha dMax o' v ≤ voronoiCost alpha dMax o v := by
  by_cases h' : dMax ≤ o'
  · have := (C40_between_zero_and_one ha hd ho hv).1
    unfold voronoiCost at this ⊢
    rw [if_pos (show o' ≥ dMax from h')]
    exact this
  · have h' := not_le.mp h'
    have h : ¬ o ≥ dMax := by intro h; linarith
    have hsum : 0 < o + v := by
      rcases eq_or_lt_of_le ho with h0 | h0
      · rcases eq_or_lt_of_le hv with h1 | h1
        · exact absurd ⟨h0.symm, h1.symm⟩ hne
        · linarith
      · linarith
    unfold voronoiCost
    rw [if_neg (show ¬ o' ≥ dMax by linarith), if_neg h]
    have k1 : alpha / (alpha + o') ≤ alpha / (alpha + o) :=
      div_le_div_of_nonneg_left ha.le (by linarith) (by linarith)
    have k2 : v / (o' + v) ≤ v / (o + v) := div_le_div_of_nonneg_left hv hsum (by linarith)
    have k3 : (o' - dMax) ^ 2 / dMax ^ 2 ≤ (o - dMax) ^ 2 / dMax ^ 2 := by
      apply div_le_div_of_nonneg_right _ (by positivity)
      nlinarith
    have p1 : 0 ≤ alpha / (alpha + o) := by positivity
    have p2 : 0 ≤ v / (o' + v) := div_nonneg hv (by linarith)
    have p2' : 0 ≤ v / (o + v) := div_nonneg hv hsum.le
    have p3 : 0 ≤ (o' - dMax) ^ 2 / dMax ^ 2 := by positivity
    exact mul_le_mul (mul_le_mul k1 k2 p2 p1) k3 p3 (mul_nonneg p1 p2')

/-- C40: the potential does not decrease with the distance to the Voronoi edge. -/
theorem C40_increases_with_edge_distance {o v v' : ℝ} (ho : 0 ≤ o) (hv : 0 ≤ v) (hvv : v ≤ v')
    (hne : ¬ (o = 0 ∧ v = 0)) : voronoiCost alpha dMax o v ≤ voronoiCost alpha dMax o v' := by
  unfold voronoiCost
  split
  · exact le_refl _
  · have hsum : 0 < o + v := by
      rcases eq_or_lt_of_le ho with h0 | h0
      · rcases eq_or_lt_of_le hv with h1 | h1
        · exact absurd ⟨h0.symm, h1.symm⟩ hne
        · linarith
      · linarith
    have k2 : v / (o + v) ≤ v' / (o + v') := by
      rw [div_le_div_iff₀ hsum (by linarith)]
      nlinarith
    have p1 : 0 ≤ alpha / (alpha + o) := by positivity
    have p3 : 0 ≤ (o - dMax) ^ 2 / dMax ^ 2 := by positivity
    exact mul_le_mul_of_nonneg_right (mul_le_mul_of_nonneg_left k2 p1) p3

end Cost

/-- Non-vacuity: the constants of the code, an obstacle at 10 and an edge at 5: the potential is neither 0 nor 1. -/
example : (0 : ℝ) < GVD.alpha ∧ (0 : ℝ) < GVD.dMax ∧ ¬ ((10 : ℝ) = 0 ∧ (5 : ℝ) = 0) ∧
    voronoiCost GVD.alpha GVD.dMax 10 5 = 8 / 81 := by
  unfold voronoiCost GVD.alpha GVD.dMax
  norm_num

/-! ## C40: the map of potentials -/

theorem worldDistance_nonneg {res : ℝ} (h : 0 < res) (d : WithTop Nat) : 0 ≤ worldDistance res d :=
  mul_nonneg (Real.sqrt_nonneg _) h.le

theorem worldDistance_eq_zero {res : ℝ} (h : 0 < res) (d : WithTop Nat) : worldDistance res d = 0 ↔ d = 0 := by
  unfold worldDistance
  rw [mul_eq_zero, or_iff_left (ne_of_gt h), Real.sqrt_eq_zero (by exact_mod_cast ObstDistMap.toInt_nonneg d)]
  cases d with
  | top =>
    constructor
    · intro h; exact absurd h (by show ((2147483647 : Int) : ℝ) ≠ 0; norm_num)
    · intro h; cases h
  | coe n =>
    show (((n : Int)) : ℝ) = 0 ↔ ((n : Nat) : WithTop Nat) = ((0 : Nat) : WithTop Nat)
    constructor
    · intro h; rw [show n = 0 by exact_mod_cast h]
    · intro h; rw [show n = 0 from WithTop.coe_injective h]; norm_num

/-- The maps after an update of the diagram are linked maps with that history. -/
theorem GVD.Update.run {rows columns : Int} {ops : List ObstDistMap.Op} {occ : Cell → Int} {g g' : GVD}
    (r : ObstDistMap.Run (.new rows columns) ops g.maps) (u : GVD.Update occ g g') :
    ∃ m1, ObstDistMap.Run (.new rows columns) (ops ++ [.update occ]) m1 ∧ g'.maps.core = m1.core ∧
      ∃ e1 e2, m1.edges = some e1 ∧ g'.maps.edges = some e2 ∧ DistMap.Update e1 e2 ∧ g'.map = g.map ∧
        ∀ c, InRect rows columns c → g'.cost c = voronoiCost GVD.alpha GVD.dMax
          (worldDistance g.map.resolution (m1.core.dist c)) (worldDistance g.map.resolution (e2.dist c)) := by
  obtain ⟨m1, e1, e2, u1, he, u2, hg⟩ := u
  have snoc : ∀ {g0 g g' : ObstDistMap} {os : List ObstDistMap.Op} {o : ObstDistMap.Op}, ObstDistMap.Run g0 os g →
      ObstDistMap.Call g o g' → ObstDistMap.Run g0 (os ++ [o]) g' := by
    intro g0 g g' os o r c
    induction r with
    | nil => exact .cons c .nil
    | cons c' _ ih => exact .cons c' (ih c)
  have r1 := snoc r (.update u1)
  have hz := DistMap.run_size (ObstDistMap.run_ginv r1).2
  refine ⟨m1, r1, by rw [hg], e1, e2, he, by rw [hg], u2, by rw [hg], ?_⟩
  intro c hc
  rw [hg]
  show GVD.updateCost { g with maps := m1 } e2 c = _
  unfold GVD.updateCost
  rw [if_pos (by show m1.core.inside c = true; rw [DistMap.inside_iff, hz.1, hz.2]; exact hc)]

/-- C40: after Update, with every order of the queues, the potential of each cell of the map lies in [0, 1], is 1
exactly at the obstacle cells and 0 exactly at the edge cells and where the obstacle is at least `dMax` away. -/
theorem C40_potential_map {rows columns : Int} {ops : List ObstDistMap.Op} {occ : Cell → Int} {g g' : GVD}
    (r : ObstDistMap.Run (.new rows columns) ops g.maps) (u : GVD.Update occ g g')
    (hres : 0 < g.map.resolution) (c : Cell) (hc : InRect rows columns c) :
    0 ≤ g'.cost c ∧ g'.cost c ≤ 1 ∧ (g'.cost c = 1 ↔ c ∈ obstacles (obstacleCalls ops)) ∧
    ∃ e, g'.maps.edges = some e ∧ (g'.cost c = 0 ↔
      e.obst c = c ∨ GVD.dMax ≤ worldDistance g.map.resolution (g'.maps.core.dist c)) := by
  obtain ⟨m1, r1, hcore, e1, e2, he1, he2, u2, -, hcost⟩ := u.run r
  obtain ⟨hr, hedge⟩ := C34_linked_maps r1
  obtain ⟨eops, re⟩ := hedge e1 he1
  have re2 : DistMap.Run (.new rows columns) (eops ++ [.update]) e2 := re.append (.cons (.update u2) .nil)
  rw [hcost c hc, hcore]
  have ha : (0 : ℝ) < GVD.alpha := by unfold GVD.alpha; norm_num
  have hd : (0 : ℝ) < GVD.dMax := by unfold GVD.dMax; norm_num
  have ho := worldDistance_nonneg hres (m1.core.dist c)
  have hv := worldDistance_nonneg hres (e2.dist c)
  have hedge2 : e2.dist c = 0 ↔ e1.dist c = 0 := by
    rw [(C34_obstacles_report_themselves re2 c hc).2, (C34_obstacles_report_themselves re c hc).2,
      ObstDistMap.obstacles_append]
    exact Iff.rfl
  have hne : ¬ (worldDistance g.map.resolution (m1.core.dist c) = 0 ∧
      worldDistance g.map.resolution (e2.dist c) = 0) := by
    rw [worldDistance_eq_zero hres, worldDistance_eq_zero hres, hedge2]
    exact C67_no_obstacle_is_an_edge r1 e1 he1 c hc
  have h01 := C40_between_zero_and_one ha hd ho hv
  refine ⟨h01.1, h01.2, ?_, e2, he2, ?_⟩
  · rw [C40_one_iff_obstacle ha hd ho hv hne, worldDistance_eq_zero hres,
      (C34_obstacles_report_themselves hr c hc).2]
    have : obstacleCalls (ops ++ [.update occ]) = obstacleCalls ops ++ [.update] := by
      unfold obstacleCalls; rw [List.filterMap_append]; rfl
    rw [this, ObstDistMap.obstacles_append]
    exact Iff.rfl
  · rw [C40_zero_iff_edge_or_far ha hd ho hv hne, worldDistance_eq_zero hres,
      (C34_obstacles_report_themselves re2 c hc).2, (C34_obstacles_report_themselves re2 c hc).1]

/-- Non-vacuity: a diagram on linked maps with two obstacles can be updated. -/
theorem GVD.update_example : ∃ (g g' : GVD) (ops : List ObstDistMap.Op), ops = [.link, .set ⟨0, 0⟩, .set ⟨2, 3⟩] ∧
    ObstDistMap.Run (.new 4 5) ops g.maps ∧
    GVD.Update (fun c => c.row) g g' ∧ 0 < g.map.resolution ∧ ∃ c, c ∈ obstacles (obstacleCalls ops) := by
  have hops : ∀ o ∈ ([.set ⟨0, 0⟩, .set ⟨2, 3⟩] : List ObstDistMap.Op), ∀ o', obstacleCall o = some o' → OpIn 4 5 o' := by
    intro o ho o' ho'
    simp only [List.mem_cons, List.not_mem_nil, or_false] at ho
    rcases ho with rfl | rfl <;> simp [obstacleCall] at ho' <;> subst ho' <;> simp [OpIn, InRect]
  obtain ⟨m, r⟩ := C39_linked_histories_execute _ hops
  have r' : ∃ m1, ObstDistMap.Update (fun c => c.row) m m1 ∧ ∃ e, m1.edges = some e := by
    obtain ⟨m1, u⟩ := (ObstDistMap.run_ginv r).1.exists_update (fun c => c.row)
    refine ⟨m1, u, ?_⟩
    have hme : ∃ e, m.edges = some e := by
      have key : ∀ {g0 g : ObstDistMap} {os : List ObstDistMap.Op}, ObstDistMap.Run g0 os g →
          (∀ o ∈ os, o = .set ⟨0, 0⟩ ∨ o = .set ⟨2, 3⟩) → (∃ e, g0.edges = some e) → ∃ e, g.edges = some e := by
        intro g0 g os r
        induction r with
        | nil => exact fun _ h => h
        | cons c _ ih =>
          intro ho he
          refine ih (fun o h => ho o (List.mem_cons_of_mem _ h)) ?_
          rcases ho _ (List.mem_cons_self ..) with rfl | rfl <;> (cases c; exact he)
      cases r with
      | cons c r =>
        cases c
        exact key r (by intro o ho; simpa using ho) ⟨_, rfl⟩
    have : ∀ g', Relation.ReflTransGen (ObstDistMap.Step fun c => c.row) m g' → ∃ e, g'.edges = some e := by
      intro g' st
      induction st with
      | refl => exact hme
      | tail st1 st ih =>
        obtain ⟨e1, he1⟩ := ih
        exact ((ObstDistMap.run_ginv r).1.steps st1).1.step_edges st he1
    exact this m1 u.1
  obtain ⟨m1, u, e1, he1⟩ := r'
  have r1 : ∃ eops, DistMap.Run (.new m1.core.rows m1.core.columns) eops e1 :=
    ((ObstDistMap.run_ginv r).1.steps u.1).1.edges e1 he1
  obtain ⟨eops, re⟩ := r1
  obtain ⟨e2, u2⟩ := (DistMap.run_inv re).1.exists_update
  refine ⟨⟨⟨1, 4, 5, ⟨0, 0⟩, ⟨0, 0⟩, ⟨0, 0⟩⟩, m, fun _ => 0⟩, _, _, rfl, r, ⟨m1, e1, e2, u, he1, u2, rfl⟩, ?_, ⟨2, 3⟩, Or.inr rfl⟩
  show (0 : ℝ) < 1
  norm_num

/-! ## C68: queries by world position -/

/-- C68: a query returns true exactly for the positions the map accepts, with the value of the cell of the
position; otherwise it leaves the output argument as it was. -/
theorem C68_query_result {α : Type} (g : GVD) (f : Cell → α) (p : Pt) (out : α) :
    (g.query f p out).1 = g.map.isInsidePos p ∧
    (g.map.isInsidePos p = true → (g.query f p out).2 = f (g.map.worldPositionToGridCell p true)) ∧
    (g.map.isInsidePos p = false → (g.query f p out).2 = out) := by
  have key : ∀ c : Cell, c = g.map.worldPositionToGridCell p false →
      g.map.worldPositionToGridCell p true = if g.map.isInsideCell c then c else ⟨-1, -1⟩ := by
    rintro c rfl
    unfold OccMap.worldPositionToGridCell OccMap.gridPositionToGridCell
    simp
  obtain ⟨c, hc⟩ : ∃ c, c = g.map.worldPositionToGridCell p false := ⟨_, rfl⟩
  have hk := key c hc
  unfold GVD.query OccMap.isInsidePos
  rw [hk, ← hc]
  cases hin : g.map.isInsideCell c with
  | true => simp [hin]
  | false =>
    have : g.map.isInsideCell ⟨-1, -1⟩ = false := by simp [OccMap.isInsideCell]
    simp [this, hin]

/-- C68: the position reported as that of the nearest obstacle is at the reported distance from the cell of the
queried position, if the map has an obstacle. Missing: without an obstacle the query returns true all the same. -/
theorem C68_nearest_obstacle_at_reported_distance_partial {rows columns : Int} {ops : List ObstDistMap.Op}
    {occ : Cell → Int} {g g' : GVD}
    (r : ObstDistMap.Run (.new rows columns) ops g.maps) (u : GVD.Update occ g g')
    (hrows : g.map.rows = rows) (hcols : g.map.columns = columns)
    (hobst : ∃ o, o ∈ obstacles (obstacleCalls ops)) (p out : Pt) (d d0 : ℝ) (q : Pt)
    (hq : g'.nearestObstaclePosition p out = (true, q)) (hdq : g'.distanceToObstacle p d0 = (true, d))
    (hres : 0 ≤ g.map.resolution) :
    let c := g'.map.gridCellToWorldPosition (g'.map.worldPositionToGridCell p true)
    d = √((q.x - c.x) ^ 2 + (q.y - c.y) ^ 2) ∧
      ∃ o, InRect rows columns o ∧ q = g'.map.gridCellToWorldPosition o := by
  obtain ⟨m1, r1, hcore, e1, e2, he1, he2, u2, hmap, -⟩ := u.run r
  have hr := (C34_linked_maps r1).1
  have hcalls : obstacleCalls (ops ++ [.update occ]) = obstacleCalls ops ++ [.update] := by
    unfold obstacleCalls; rw [List.filterMap_append]; rfl
  rw [hcalls] at hr
  obtain ⟨k1, k2, -⟩ := C68_query_result g' (fun c => g'.map.gridCellToWorldPosition (g'.maps.core.obst c)) p out
  obtain ⟨l1, l2, -⟩ := C68_query_result g' (fun c => worldDistance g'.map.resolution (g'.maps.core.dist c)) p d0
  unfold GVD.nearestObstaclePosition at hq
  unfold GVD.distanceToObstacle at hdq
  rw [hq] at k1 k2
  rw [hdq] at l1 l2
  have hin : g'.map.isInsidePos p = true := k1.symm
  have k2 : q = _ := k2 hin
  have l2 : d = _ := l2 hin
  intro c
  obtain ⟨cell, hcell⟩ : ∃ cell, cell = g'.map.worldPositionToGridCell p true := ⟨_, rfl⟩
  rw [← hcell] at k2 l2
  have hrect : InRect rows columns cell := by
    unfold OccMap.isInsidePos at hin
    rw [← hcell, hmap] at hin
    unfold OccMap.isInsideCell at hin
    rw [hrows, hcols] at hin
    simpa [InRect, and_assoc] using hin
  obtain ⟨d', hd', hoin⟩ := C36_every_cell_sees_an_obstacle hr hobst cell hrect
  have hdd : (d' : Int) = sqDist (m1.core.obst cell) cell := by
    rcases C34_distance_of_reported_obstacle hr cell hrect with ⟨_, h⟩ | ⟨_, d2, h1, h2⟩
    · rw [hd'] at h; exact absurd h WithTop.coe_ne_top
    · rw [hd'] at h1
      have h1 : d' = d2 := WithTop.coe_injective h1
      rw [h1]; exact h2
  rw [hcore] at k2 l2
  refine ⟨?_, m1.core.obst cell, hoin, k2⟩
  have hc : c = g'.map.gridCellToWorldPosition cell := by rw [hcell]
  have hc : c = g'.map.gridCellToWorldPosition cell := hc
  rw [l2, k2, hc, hd']
  show √(((d' : Int) : Int) : ℝ) * g'.map.resolution = _
  have hres' : 0 ≤ g'.map.resolution := by rw [hmap]; exact hres
  rw [hdd, ← Real.sqrt_sq hres', ← Real.sqrt_mul' _ (sq_nonneg _)]
  congr 1
  unfold sqDist OccMap.gridCellToWorldPosition OccMap.gridCellToGridPosition
  simp only [Pt.add_x, Pt.add_y]
  push_cast
  ring

/-- C68, violated without obstacles: every query inside the map returns true with the position of the cell
(-1, -1), which lies outside the map. -/
theorem C68_bogus_position_without_obstacles {rows columns : Int} (g : GVD)
    (hm : g.maps.core = DistMap.new rows columns) (p out : Pt) (hp : g.map.isInsidePos p = true) :
    g.nearestObstaclePosition p out = (true, g.map.gridCellToWorldPosition ⟨-1, -1⟩) ∧
    ¬ g.map.isInsideCell ⟨-1, -1⟩ = true := by
  obtain ⟨k1, k2, -⟩ := C68_query_result g (fun c => g.map.gridCellToWorldPosition (g.maps.core.obst c)) p out
  refine ⟨?_, by simp [OccMap.isInsideCell]⟩
  unfold GVD.nearestObstaclePosition
  rw [Prod.ext_iff]
  refine ⟨k1.trans hp, ?_⟩
  rw [k2 hp, hm]
  rfl

/-- Non-vacuity: a position inside a 4 × 5 map. -/
example : ∃ g : GVD, g.maps.core = DistMap.new 4 5 ∧ g.map.isInsidePos ⟨1, 2⟩ = true := by
  refine ⟨⟨⟨1, 4, 5, ⟨0, 0⟩, ⟨0, 0⟩, ⟨0, 0⟩⟩, .new 4 5, fun _ => 0⟩, rfl, ?_⟩
  rw [C29_inside_exact _ (by norm_num) (by norm_num) (by norm_num)]
  norm_num

end PathPlanning
