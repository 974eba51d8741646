import Verif.Lemmas.Raster

/-!
# C32 and C21: rasterised lines and walls
-/

namespace PathPlanning
open Spec Raster

/-- C32. The cells of a rasterised line are those of a digital straight line between the two end
cells (in one of the two directions), in order, restricted to the map. -/
theorem C32_rasterised_line (m : GridMap) (p0 p1 : Cell) :
    ∃ L, (DigitalLine p0 p1 L ∨ DigitalLine p1 p0 L) ∧
      (rasterCells m.rows m.columns p0 p1).Sublist L ∧
      ∀ c, c ∈ rasterCells m.rows m.columns p0 p1 ↔ c ∈ L ∧ Inside m c := by
  obtain ⟨steep, x0, y0, x1, y1, hx, hy, he, hends, _⟩ := rasterCells_eq m.rows m.columns p0 p1
  have hd := full_digital steep hx hy
  refine ⟨full steep x0 y0 x1 y1, ?_, ?_, ?_⟩
  · rcases hends with ⟨rfl, rfl⟩ | ⟨rfl, rfl⟩
    · exact Or.inl hd
    · exact Or.inr hd
  · rw [he]; exact List.filter_sublist
  · intro c
    rw [he, List.mem_filter]
    simp [inB, Inside, and_assoc]

/-- C32. If both end cells are inside the map, the rasterised line is the whole digital line; it
contains both end cells. -/
theorem C32_line_inside_map (m : GridMap) (p0 p1 : Cell) (h0 : Inside m p0) (h1 : Inside m p1) :
    DigitalLine p0 p1 (rasterCells m.rows m.columns p0 p1) ∨
      DigitalLine p1 p0 (rasterCells m.rows m.columns p0 p1) := by
  obtain ⟨steep, x0, y0, x1, y1, hx, hy, he, hends, _⟩ := rasterCells_eq m.rows m.columns p0 p1
  have hd := full_digital steep hx hy
  have hall : (full steep x0 y0 x1 y1).filter (inB m.rows m.columns) = full steep x0 y0 x1 y1 := by
    rw [List.filter_eq_self]
    intro c hc
    have := hd.between c hc
    simp only [inB, Bool.and_eq_true, decide_eq_true_eq]
    unfold Inside at h0 h1
    rcases hends with ⟨e0, e1⟩ | ⟨e0, e1⟩ <;> rw [← e0, ← e1] at this <;> omega
  rw [he, hall]
  rcases hends with ⟨rfl, rfl⟩ | ⟨rfl, rfl⟩
  · exact Or.inl hd
  · exact Or.inr hd

/-- C32. Every rasterised cell is inside the map, and the cell of an end point inside the map is
rasterised. -/
theorem C32_line_cells_inside (m : GridMap) (p0 p1 : Cell) :
    (∀ c ∈ rasterCells m.rows m.columns p0 p1, Inside m c) ∧
    (Inside m p0 → p0 ∈ rasterCells m.rows m.columns p0 p1) ∧
    (Inside m p1 → p1 ∈ rasterCells m.rows m.columns p0 p1) := by
  obtain ⟨L, hd, _, hm⟩ := C32_rasterised_line m p0 p1
  refine ⟨fun c hc => ((hm c).mp hc).2, fun h => (hm p0).mpr ⟨?_, h⟩, fun h => (hm p1).mpr ⟨?_, h⟩⟩
  · rcases hd with hd | hd
    · exact List.mem_of_mem_head? hd.first
    · exact List.mem_of_getLast? hd.last
  · rcases hd with hd | hd
    · exact List.mem_of_getLast? hd.last
    · exact List.mem_of_mem_head? hd.first

/-- A line through a 4 × 6 map. -/
example : rasterCells 4 6 ⟨0, 0⟩ ⟨2, 5⟩ = [⟨0, 0⟩, ⟨0, 1⟩, ⟨1, 2⟩, ⟨1, 3⟩, ⟨2, 4⟩, ⟨2, 5⟩] := by
  decide

/-! ## Walls -/

private def px (steep : Bool) (c : Cell) : Int := if steep then c.col else c.row
private def py (steep : Bool) (c : Cell) : Int := if steep then c.row else c.col

private theorem mk_p (steep : Bool) (c : Cell) : mk steep (px steep c) (py steep c) = c := by
  cases steep <;> rfl

/-- A wall, given by one occupied cell per line of the dominant direction, is not crossed by a
single move. -/
private theorem wall_step {m : GridMap} {steep : Bool} {Y : Int → Int}
    (hY : ∀ x, 0 ≤ x → x + 1 < (if steep then m.columns else m.rows) →
      -1 ≤ Y (x + 1) - Y x ∧ Y (x + 1) - Y x ≤ 1)
    (hocc : ∀ x, 0 ≤ x → x < (if steep then m.columns else m.rows) →
      Inside m (mk steep x (Y x)) → m.occ (mk steep x (Y x)) = true)
    {u v : Cell} (hu : Inside m u) (hmv : Move m u v) :
    (py steep u < Y (px steep u) → py steep v < Y (px steep v)) ∧
    (Y (px steep u) < py steep u → Y (px steep v) < py steep v) := by
  obtain ⟨⟨hv, hf⟩, hc, hd⟩ := hmv
  rw [chebyshev_eq_one] at hc
  have hne : py steep v ≠ Y (px steep v) := by
    intro he
    have : mk steep (px steep v) (Y (px steep v)) = v := by rw [← he]; exact mk_p _ _
    have h1 := hocc (px steep v) (by unfold Inside at hv; cases steep <;> simp [px] <;> omega)
      (by unfold Inside at hv; cases steep <;> simp [px] <;> omega) (by rw [this]; exact hv)
    rw [this, hf] at h1
    cases h1
  have hnear : ∀ a b, 0 ≤ a → a < (if steep then m.columns else m.rows) → 0 ≤ b →
      b < (if steep then m.columns else m.rows) → -1 ≤ a - b → a - b ≤ 1 →
      -1 ≤ Y a - Y b ∧ Y a - Y b ≤ 1 := by
    intro a b h1 h2 h3 h4 h5 h6
    rcases (by omega : a = b ∨ a = b + 1 ∨ b = a + 1) with h | h | h
    · subst h; omega
    · subst h; have := hY b h3 h2; omega
    · subst h; have := hY a h1 h4; omega
  have hN := hnear (px steep v) (px steep u)
    (by unfold Inside at hv; cases steep <;> simp [px] <;> omega)
    (by unfold Inside at hv; cases steep <;> simp [px] <;> omega)
    (by unfold Inside at hu; cases steep <;> simp [px] <;> omega)
    (by unfold Inside at hu; cases steep <;> simp [px] <;> omega)
    (by cases steep <;> simp [px] <;> omega) (by cases steep <;> simp [px] <;> omega)
  -- if the wall is crossed, both corner cells belong to it
  have hcorner : ∀ c : Cell, Inside m c → py steep c = Y (px steep c) → m.occ c = true := by
    intro c hi he
    have h1 := hocc (px steep c) (by unfold Inside at hi; cases steep <;> simp [px] <;> omega)
      (by unfold Inside at hi; cases steep <;> simp [px] <;> omega)
      (by rw [← he, mk_p]; exact hi)
    rwa [← he, mk_p] at h1
  have hcross : px steep u ≠ px steep v → py steep v = Y (px steep u) →
      py steep u = Y (px steep v) → py steep u ≠ py steep v → False := by
    intro h1 h2 h3 h4
    have hr : u.row ≠ v.row := by cases steep <;> simp [px, py] at h1 h4 <;> assumption
    have hk : u.col ≠ v.col := by cases steep <;> simp [px, py] at h1 h4 <;> assumption
    refine hd hr hk ⟨hcorner _ ?_ ?_, hcorner _ ?_ ?_⟩
    · unfold Inside at hu hv ⊢; dsimp only; omega
    · cases steep <;> simp [px, py] at h2 h3 ⊢ <;> assumption
    · unfold Inside at hu hv ⊢; dsimp only; omega
    · cases steep <;> simp [px, py] at h2 h3 ⊢ <;> assumption
  have hy : -1 ≤ py steep v - py steep u ∧ py steep v - py steep u ≤ 1 := by
    cases steep <;> simp [py] <;> omega
  by_cases hx : px steep u = px steep v
  · rw [← hx] at hne ⊢; omega
  · have := hcross hx
    constructor
    · intro h
      by_contra hcon
      exact this (by omega) (by omega) (by omega)
    · intro h
      by_contra hcon
      exact this (by omega) (by omega) (by omega)

private theorem wall_walk {m : GridMap} {steep : Bool} {Y : Int → Int}
    (hY : ∀ x, 0 ≤ x → x + 1 < (if steep then m.columns else m.rows) →
      -1 ≤ Y (x + 1) - Y x ∧ Y (x + 1) - Y x ≤ 1)
    (hocc : ∀ x, 0 ≤ x → x < (if steep then m.columns else m.rows) →
      Inside m (mk steep x (Y x)) → m.occ (mk steep x (Y x)) = true)
    {a b : Cell} {l : List Cell} (hw : Walk m a l b) : Inside m a →
    (py steep a < Y (px steep a) → py steep b < Y (px steep b)) ∧
    (Y (px steep a) < py steep a → Y (px steep b) < py steep b) := by
  induction hw with
  | stop a => exact fun _ => ⟨id, id⟩
  | move h1 _ ih =>
    intro ha
    have h2 := wall_step hY hocc ha h1
    have h3 := ih h1.1.1
    exact ⟨fun h => h3.1 (h2.1 h), fun h => h3.2 (h2.2 h)⟩

/-- A dominant line `x` of a digital line meets it in one cell, on the near side of any cell that is
more than half a cell away from the ideal line. -/
private theorem side_of {steep : Bool} {x0 y0 x1 y1 : Int} (hy : |y1 - y0| ≤ x1 - x0)
    {Y : Int → Int} (hYd : ∀ x, Y x = (iter (x1 - x0) |y1 - y0| (if y0 < y1 then 1 else -1)
      (x - x0).toNat (y0, (x1 - x0) / 2)).1) {c : Cell}
    (h0 : x0 ≤ px steep c) (h1 : px steep c ≤ x1) :
    ((x1 - x0) < 2 * ((x1 - x0) * (py steep c - y0) - (y1 - y0) * (px steep c - x0)) →
      Y (px steep c) < py steep c) ∧
    (2 * ((x1 - x0) * (py steep c - y0) - (y1 - y0) * (px steep c - x0)) < -(x1 - x0) →
      py steep c < Y (px steep c)) := by
  obtain ⟨y, he, hn, _⟩ := iter_near (dx := x1 - x0) (y0 := y0) (y1 := y1) hy
    (px steep c - x0).toNat (by omega)
  rw [← hYd] at he
  subst he
  have hc : (((px steep c - x0).toNat : Nat) : Int) = px steep c - x0 := by omega
  rw [hc] at hn
  have hdx : 0 ≤ x1 - x0 := by omega
  obtain ⟨dx, hdxe⟩ : ∃ dx, dx = x1 - x0 := ⟨_, rfl⟩
  rw [← hdxe] at hn hdx ⊢
  have hb := abs_le.mp (show |dx * (Y (px steep c) - y0) - (y1 - y0) * (px steep c - x0)| ≤ dx / 2 by omega)
  constructor
  · intro h
    by_contra hcon
    have : dx * (py steep c - y0) ≤ dx * (Y (px steep c) - y0) :=
      Int.mul_le_mul_of_nonneg_left (by omega) hdx
    omega
  · intro h
    by_contra hcon
    have : dx * (Y (px steep c) - y0) ≤ dx * (py steep c - y0) :=
      Int.mul_le_mul_of_nonneg_left (by omega) hdx
    omega

/-- C21. A wall whose rasterised cells are all occupied and that spans the map along its dominant
axis separates the map: no walk of the grid planner leads from a cell clearly on one side of the
ideal line (more than half a cell away) to a cell clearly on the other side. -/
theorem C21_wall_not_crossed (m : GridMap) (p0 p1 : Cell)
    (hocc : ∀ c ∈ rasterCells m.rows m.columns p0 p1, m.occ c = true)
    (hspan : if |p1.row - p0.row| < |p1.col - p0.col|
      then min p0.col p1.col ≤ 0 ∧ m.columns - 1 ≤ max p0.col p1.col
      else min p0.row p1.row ≤ 0 ∧ m.rows - 1 ≤ max p0.row p1.row)
    (a b : Cell) (ha : Inside m a) (hb : Inside m b)
    (hside : (chebyshev p0 p1 < 2 * cross p0 p1 a ∧ 2 * cross p0 p1 b < - chebyshev p0 p1) ∨
      (2 * cross p0 p1 a < - chebyshev p0 p1 ∧ chebyshev p0 p1 < 2 * cross p0 p1 b)) :
    ¬ ∃ cells, Walk m a cells b := by
  rintro ⟨cells, hw⟩
  obtain ⟨steep, x0, y0, x1, y1, hx, hy, he, hends, hst⟩ := rasterCells_eq m.rows m.columns p0 p1
  obtain ⟨Y, hYd⟩ : ∃ Y : Int → Int, ∀ x, Y x = (iter (x1 - x0) |y1 - y0|
      (if y0 < y1 then 1 else -1) (x - x0).toNat (y0, (x1 - x0) / 2)).1 := ⟨_, fun _ => rfl⟩
  have hsp : x0 ≤ 0 ∧ (if steep then m.columns else m.rows) - 1 ≤ x1 := by
    cases hs : steep
    · rw [hs] at hst hends
      have : ¬ |p1.row - p0.row| < |p1.col - p0.col| := of_decide_eq_false hst.symm
      rw [if_neg this] at hspan
      simp only [mk, Bool.false_eq_true, if_false] at hends ⊢
      rcases hends with ⟨rfl, rfl⟩ | ⟨rfl, rfl⟩ <;> simp only at hspan <;> omega
    · rw [hs] at hst hends
      have : |p1.row - p0.row| < |p1.col - p0.col| := of_decide_eq_true hst.symm
      rw [if_pos this] at hspan
      simp only [mk, if_true] at hends ⊢
      rcases hends with ⟨rfl, rfl⟩ | ⟨rfl, rfl⟩ <;> simp only at hspan <;> omega
  have hcheb : chebyshev p0 p1 = x1 - x0 := by
    have h1 := abs_eq_max_neg (a := y1 - y0)
    have h2 := abs_eq_max_neg (a := y0 - y1)
    have h3 := abs_eq_max_neg (a := x0 - x1)
    have h4 := abs_eq_max_neg (a := x1 - x0)
    rcases hends with ⟨rfl, rfl⟩ | ⟨rfl, rfl⟩ <;> cases steep <;>
      simp only [mk, chebyshev, if_true, Bool.false_eq_true, if_false] <;> omega
  have hYstep : ∀ x, 0 ≤ x → x + 1 < (if steep then m.columns else m.rows) →
      -1 ≤ Y (x + 1) - Y x ∧ Y (x + 1) - Y x ≤ 1 := by
    intro x h0 h1
    have e : (x + 1 - x0).toNat = (x - x0).toNat + 1 := by omega
    rw [hYd, hYd, e]
    exact iter_step _ _ _ (by split <;> simp) _ _
  have hYocc : ∀ x, 0 ≤ x → x < (if steep then m.columns else m.rows) →
      Inside m (mk steep x (Y x)) → m.occ (mk steep x (Y x)) = true := by
    intro x h0 h1 hi
    refine hocc _ ?_
    rw [he, List.mem_filter]
    refine ⟨?_, by simpa [inB, Inside, and_assoc] using hi⟩
    unfold full
    rw [List.mem_map]
    refine ⟨(x - x0).toNat, by rw [List.mem_range]; omega, ?_⟩
    rw [← hYd]
    congr 1; omega
  have hpx : ∀ c, Inside m c → x0 ≤ px steep c ∧ px steep c ≤ x1 := by
    intro c hc
    unfold Inside at hc
    cases steep <;> simp [px] at hsp ⊢ <;> omega
  have hsa := side_of hy hYd (hpx a ha).1 (hpx a ha).2
  have hsb := side_of hy hYd (hpx b hb).1 (hpx b hb).2
  have hww := wall_walk hYstep hYocc hw ha
  -- relate the cross products with the abstract coordinates
  have hcr : (∀ c, cross p0 p1 c =
        (x1 - x0) * (py steep c - y0) - (y1 - y0) * (px steep c - x0)) ∨
      (∀ c, cross p0 p1 c =
        -((x1 - x0) * (py steep c - y0) - (y1 - y0) * (px steep c - x0))) := by
    rcases hends with ⟨rfl, rfl⟩ | ⟨rfl, rfl⟩ <;> cases steep
    · left; intro c; simp only [cross, mk, px, py, Bool.false_eq_true, if_false]
    · right; intro c; simp only [cross, mk, px, py, if_true]; ring
    · right; intro c; simp only [cross, mk, px, py, Bool.false_eq_true, if_false]; ring
    · left; intro c; simp only [cross, mk, px, py, if_true]; ring
  rw [hcheb] at hside
  rcases hcr with hcr | hcr <;> rw [hcr a, hcr b] at hside <;> omega

/-- A slanted wall through a 5 × 5 map. -/
private def wallMap : GridMap := ⟨5, 5, fun c => decide (c ∈ rasterCells 5 5 ⟨0, 1⟩ ⟨4, 3⟩)⟩

example : ¬ ∃ cells, Walk wallMap ⟨2, 0⟩ cells ⟨2, 4⟩ :=
  C21_wall_not_crossed wallMap ⟨0, 1⟩ ⟨4, 3⟩ (by simp [wallMap]) (by decide) _ _
    (by unfold Inside; decide) (by unfold Inside; decide) (by decide)

end PathPlanning
