import Verif.Props.Shape
import Verif.Props.ShapeGeom
import Verif.Props.Raster
import Verif.Props.MapUpdate

/-!
# C91: the outline of an obstacle and its cells
-/

namespace PathPlanning
open Spec Raster

theorem chain_dist {L : List Cell} (h : L.IsChain (fun u v => chebyshev u v = 1)) :
    ∀ (i d : Nat) (a b : Cell), L[i]? = some a → L[i + d]? = some b →
      |b.row - a.row| ≤ d ∧ |b.col - a.col| ≤ d := by
  intro i d
  induction d with
  | zero =>
    intro a b ha hb
    rw [Nat.add_zero, ha] at hb
    injection hb with hb
    subst hb
    simp
  | succ d ih =>
    intro a b ha hb
    have hlt : i + d + 1 < L.length := by
      by_contra hc
      rw [List.getElem?_eq_none (by omega)] at hb
      cases hb
    obtain ⟨c, hc⟩ : ∃ c, L[i + d]? = some c := ⟨_, List.getElem?_eq_getElem (by omega)⟩
    obtain ⟨h1, h2⟩ := ih a c ha hc
    have hs := List.isChain_iff_getElem.mp h (i + d) hlt
    have e1 : L[i + d] = c := by
      rw [List.getElem?_eq_getElem (by omega)] at hc; injection hc
    have e2 : L[i + d + 1] = b := by
      rw [show i + (d + 1) = i + d + 1 by omega, List.getElem?_eq_getElem hlt] at hb; injection hb
    rw [e1, e2] at hs
    unfold chebyshev at hs
    have h3 : |c.row - b.row| ≤ 1 := by omega
    have h4 : |c.col - b.col| ≤ 1 := by omega
    rw [abs_le] at h1 h2 h3 h4 ⊢
    rw [abs_le]
    push_cast
    omega

/-- Every point of the segment between the ends of a digital line is close to one of its cells. -/
theorem digital_near {a b : Cell} {L : List Cell} (h : DigitalLine a b L) (t : ℝ) (h0 : 0 ≤ t) (h1 : t ≤ 1) :
    ∃ c ∈ L, (|(a.row : ℝ) + t * (b.row - a.row) - c.row| ≤ 1 / 2 ∧
        |(a.col : ℝ) + t * (b.col - a.col) - c.col| ≤ 1) ∨
      (|(a.row : ℝ) + t * (b.row - a.row) - c.row| ≤ 1 ∧
        |(a.col : ℝ) + t * (b.col - a.col) - c.col| ≤ 1 / 2) := by
  obtain ⟨n, hn⟩ : ∃ n : Nat, (n : Int) = chebyshev a b := by
    refine ⟨(chebyshev a b).toNat, Int.toNat_of_nonneg ?_⟩
    unfold chebyshev
    exact le_trans (abs_nonneg _) (le_max_left _ _)
  have hlen : L.length = n + 1 := by have := h.length; omega
  rcases Nat.eq_zero_or_pos n with rfl | hpos
  · refine ⟨a, List.mem_of_mem_head? h.first, Or.inl ?_⟩
    have hr : b.row = a.row := by unfold chebyshev at hn; have := abs_nonneg (a.row - b.row); have := abs_nonneg (a.col - b.col); have : |a.row - b.row| = 0 := by omega
                                  rw [abs_eq_zero] at this; omega
    have hc : b.col = a.col := by unfold chebyshev at hn; have := abs_nonneg (a.row - b.row); have := abs_nonneg (a.col - b.col); have : |a.col - b.col| = 0 := by omega
                                  rw [abs_eq_zero] at this; omega
    rw [hr, hc]
    simp
  · -- the index along the dominant axis
    obtain ⟨k, hk⟩ : ∃ k : Nat, |t * n - k| ≤ 1 / 2 ∧ k ≤ n := by
      refine ⟨(round (t * n)).toNat, ?_, ?_⟩
      · have hr0 : 0 ≤ round (t * (n : ℝ)) := by
          rw [round_eq]
          apply Int.floor_nonneg.mpr
          positivity
        have : ((round (t * (n : ℝ))).toNat : ℝ) = ((round (t * (n : ℝ)) : Int) : ℝ) := by
          exact_mod_cast congrArg (fun z : Int => (z : ℝ)) (Int.toNat_of_nonneg hr0)
        rw [this]
        exact abs_sub_round _
      · have : round (t * (n : ℝ)) ≤ n := by
          rw [round_eq]
          have : ⌊t * (n : ℝ) + 1 / 2⌋ < (n : Int) + 1 := by
            rw [Int.floor_lt]
            push_cast
            nlinarith [show (0 : ℝ) < n by exact_mod_cast hpos]
          omega
        omega
    obtain ⟨hk1, hk2⟩ := hk
    obtain ⟨c, hc⟩ : ∃ c, L[k]? = some c := ⟨_, List.getElem?_eq_getElem (by omega)⟩
    have hcm : c ∈ L := List.mem_of_getElem? hc
    have hfirst : L[0]? = some a := by
      have := h.first; rwa [List.head?_eq_getElem?] at this
    have hlast : L[k + (n - k)]? = some b := by
      have := h.last
      rw [List.getLast?_eq_getElem?, hlen] at this
      rw [show k + (n - k) = n + 1 - 1 by omega]
      exact this
    obtain ⟨p1, p2⟩ := chain_dist h.step 0 k a c hfirst (by rw [Nat.zero_add]; exact hc)
    obtain ⟨q1, q2⟩ := chain_dist h.step k (n - k) c b hc hlast
    have hnear := h.near c hcm
    rw [← hn] at hnear
    refine ⟨c, hcm, ?_⟩
    have hnR : (0 : ℝ) < n := by exact_mod_cast hpos
    -- the estimate, for a dominant coordinate `x` and a minor one `y`
    have est : ∀ (ax ay bx by' cx cy s : Int), (s = 1 ∨ s = -1) → bx - ax = s * n → |by' - ay| ≤ n →
        cx - ax = s * k → 2 * |(bx - ax) * (cy - ay) - (by' - ay) * (cx - ax)| ≤ n →
        |(ax : ℝ) + t * (bx - ax) - cx| ≤ 1 / 2 ∧ |(ay : ℝ) + t * (by' - ay) - cy| ≤ 1 := by
      intro ax ay bx by' cx cy s hs hb hby hcx hcr
      rw [hb, hcx] at hcr
      have hbR : ((bx : ℝ) - ax) = s * n := by exact_mod_cast hb
      have hcR : (cx : ℝ) = ax + s * k := by
        have : ((cx : ℝ) - ax) = s * k := by exact_mod_cast hcx
        linarith
      have hsR : |(s : ℝ)| = 1 := by rcases hs with rfl | rfl <;> norm_num
      constructor
      · rw [hbR, hcR, show (ax : ℝ) + t * (s * n) - (ax + s * k) = s * (t * n - k) by ring, abs_mul, hsR, one_mul]
        exact hk1
      · have hcr' : |s * ((n : Int) * (cy - ay) - (by' - ay) * k)| ≤ |(n : Int) * (cy - ay) - (by' - ay) * k| := by
          rw [abs_mul]; rcases hs with rfl | rfl <;> simp
        have hcr2 : 2 * |(n : Int) * (cy - ay) - (by' - ay) * k| ≤ n := by
          have e : s * n * (cy - ay) - (by' - ay) * (s * k) = s * (n * (cy - ay) - (by' - ay) * k) := by ring
          rw [e, abs_mul, show |s| = 1 by rcases hs with rfl | rfl <;> simp, one_mul] at hcr
          exact hcr
        have hcr3 : 2 * |(n : ℝ) * (cy - ay) - (by' - ay) * k| ≤ n := by exact_mod_cast hcr2
        have hby3 : |(by' : ℝ) - ay| ≤ n := by exact_mod_cast hby
        have e : (n : ℝ) * ((ay : ℝ) + t * (by' - ay) - cy) =
            (by' - ay) * (t * n - k) - ((n : ℝ) * (cy - ay) - (by' - ay) * k) := by ring
        have h5 : |(n : ℝ) * ((ay : ℝ) + t * (by' - ay) - cy)| ≤ n * 1 := by
          rw [e]
          refine le_trans (abs_sub _ _) ?_
          rw [abs_mul]
          have := mul_le_mul hby3 hk1 (abs_nonneg _) hnR.le
          linarith
        rw [abs_mul, abs_of_pos hnR] at h5
        exact le_of_mul_le_mul_left h5 hnR
    unfold cross at hnear
    have hmax : |a.row - b.row| = n ∨ |a.col - b.col| = n := by
      unfold chebyshev at hn
      rcases max_choice |a.row - b.row| |a.col - b.col| with h | h <;> rw [h] at hn
      · exact Or.inl hn.symm
      · exact Or.inr hn.symm
    have hler : |a.row - b.row| ≤ n := by rw [hn]; exact le_max_left _ _
    have hlec : |a.col - b.col| ≤ n := by rw [hn]; exact le_max_right _ _
    rw [abs_le] at p1 p2 q1 q2
    have hcast : ((n - k : Nat) : Int) = n - k := by omega
    rw [hcast] at q1 q2
    rcases hmax with hm | hm
    · left
      rcases abs_choice (a.row - b.row) with hx | hx
      · exact est a.row a.col b.row b.col c.row c.col (-1) (Or.inr rfl) (by omega) (by rw [abs_sub_comm]; exact hlec)
          (by omega) hnear
      · exact est a.row a.col b.row b.col c.row c.col 1 (Or.inl rfl) (by omega) (by rw [abs_sub_comm]; exact hlec)
          (by omega) hnear
    · right
      have hnear' : 2 * |(b.col - a.col) * (c.row - a.row) - (b.row - a.row) * (c.col - a.col)| ≤ n := by
        rw [abs_sub_comm]; exact hnear
      rcases abs_choice (a.col - b.col) with hx | hx
      · exact (est a.col a.row b.col b.row c.col c.row (-1) (Or.inr rfl) (by omega) (by rw [abs_sub_comm]; exact hler)
          (by omega) hnear').symm
      · exact (est a.col a.row b.col b.row c.col c.row 1 (Or.inl rfl) (by omega) (by rw [abs_sub_comm]; exact hler)
          (by omega) hnear').symm

/-- Every cell of a digital line is within half a cell of a point of the segment between its ends. -/
theorem digital_cell_near {a b : Cell} {L : List Cell} (h : DigitalLine a b L) (c : Cell) (hc : c ∈ L) :
    ∃ t : ℝ, 0 ≤ t ∧ t ≤ 1 ∧ ((|(a.row : ℝ) + t * (b.row - a.row) - c.row| ≤ 0 ∧
        |(a.col : ℝ) + t * (b.col - a.col) - c.col| ≤ 1 / 2) ∨
      (|(a.row : ℝ) + t * (b.row - a.row) - c.row| ≤ 1 / 2 ∧
        |(a.col : ℝ) + t * (b.col - a.col) - c.col| ≤ 0)) := by
  have hnear := h.near c hc
  obtain ⟨b1, b2, b3, b4⟩ := h.between c hc
  obtain ⟨n, hn⟩ : ∃ n, n = chebyshev a b := ⟨_, rfl⟩
  rw [← hn] at hnear
  have hn0 : 0 ≤ n := by rw [hn]; exact le_trans (abs_nonneg _) (le_max_left _ _)
  rcases hn0.eq_or_lt with h0 | hpos
  · have h1 : |a.row - b.row| ≤ 0 := by rw [h0, hn]; exact le_max_left _ _
    have h2 : |a.col - b.col| ≤ 0 := by rw [h0, hn]; exact le_max_right _ _
    rw [abs_le] at h1 h2
    have e1 : c.row = a.row := by omega
    have e2 : c.col = a.col := by omega
    refine ⟨0, le_refl _, zero_le_one, Or.inl ?_⟩
    rw [e1, e2]; simp
  · have hnR : (0 : ℝ) < n := by exact_mod_cast hpos
    have est : ∀ (ax ay bx by' cx cy s : Int), (s = 1 ∨ s = -1) → bx - ax = s * n →
        min ax bx ≤ cx → cx ≤ max ax bx → 2 * |(bx - ax) * (cy - ay) - (by' - ay) * (cx - ax)| ≤ n →
        ∃ t : ℝ, 0 ≤ t ∧ t ≤ 1 ∧ |(ax : ℝ) + t * (bx - ax) - cx| ≤ 0 ∧ |(ay : ℝ) + t * (by' - ay) - cy| ≤ 1 / 2 := by
      intro ax ay bx by' cx cy s hs hb h1 h2 hcr
      have hbR : ((bx : ℝ) - ax) = s * n := by exact_mod_cast hb
      have hk : ∃ k : Int, 0 ≤ k ∧ k ≤ n ∧ cx - ax = s * k := by
        rcases hs with rfl | rfl
        · exact ⟨cx - ax, by omega, by omega, by omega⟩
        · exact ⟨ax - cx, by omega, by omega, by omega⟩
      obtain ⟨k, k0, k1, hk⟩ := hk
      have hkR : (cx : ℝ) = ax + s * k := by
        have : ((cx : ℝ) - ax) = s * k := by exact_mod_cast hk
        linarith
      have k0R : (0 : ℝ) ≤ k := by exact_mod_cast k0
      have k1R : (k : ℝ) ≤ n := by exact_mod_cast k1
      refine ⟨k / n, by positivity, by rw [div_le_one hnR]; exact k1R, ?_, ?_⟩
      · rw [hbR, hkR, show (ax : ℝ) + k / n * (s * n) - (ax + s * k) = 0 by field_simp; ring]
        simp
      · rw [hb, hk, show s * n * (cy - ay) - (by' - ay) * (s * k) = s * (n * (cy - ay) - (by' - ay) * k) by ring, abs_mul,
          show |s| = 1 by rcases hs with rfl | rfl <;> simp, one_mul] at hcr
        have hcr3 : 2 * |(n : ℝ) * (cy - ay) - (by' - ay) * k| ≤ n := by exact_mod_cast hcr
        have e : (n : ℝ) * ((ay : ℝ) + k / n * (by' - ay) - cy) = -((n : ℝ) * (cy - ay) - (by' - ay) * k) := by
          field_simp; ring
        have h5 : |(n : ℝ) * ((ay : ℝ) + k / n * (by' - ay) - cy)| ≤ n * (1 / 2) := by
          rw [e, abs_neg]; linarith
        rw [abs_mul, abs_of_pos hnR] at h5
        exact le_of_mul_le_mul_left h5 hnR
    unfold cross at hnear
    have hmax : |a.row - b.row| = n ∨ |a.col - b.col| = n := by
      unfold chebyshev at hn
      rcases max_choice |a.row - b.row| |a.col - b.col| with h | h <;> rw [h] at hn
      · exact Or.inl hn.symm
      · exact Or.inr hn.symm
    rcases hmax with hm | hm
    · rcases abs_choice (a.row - b.row) with hx | hx
      · obtain ⟨t, t0, t1, d1, d2⟩ :=
          est a.row a.col b.row b.col c.row c.col (-1) (Or.inr rfl) (by omega) b1 b2 hnear
        exact ⟨t, t0, t1, Or.inl ⟨d1, d2⟩⟩
      · obtain ⟨t, t0, t1, d1, d2⟩ :=
          est a.row a.col b.row b.col c.row c.col 1 (Or.inl rfl) (by omega) b1 b2 hnear
        exact ⟨t, t0, t1, Or.inl ⟨d1, d2⟩⟩
    · have hnear' : 2 * |(b.col - a.col) * (c.row - a.row) - (b.row - a.row) * (c.col - a.col)| ≤ n := by
        rw [abs_sub_comm]; exact hnear
      rcases abs_choice (a.col - b.col) with hx | hx
      · obtain ⟨t, t0, t1, d1, d2⟩ :=
          est a.col a.row b.col b.row c.col c.row (-1) (Or.inr rfl) (by omega) b3 b4 hnear'
        exact ⟨t, t0, t1, Or.inr ⟨d2, d1⟩⟩
      · obtain ⟨t, t0, t1, d1, d2⟩ :=
          est a.col a.row b.col b.row c.col c.row 1 (Or.inl rfl) (by omega) b3 b4 hnear'
        exact ⟨t, t0, t1, Or.inr ⟨d2, d1⟩⟩

/-- A point of the outline of a placed shape: on a side of a polygon, or of a part of a composite. -/
inductive Spec.OnOutline (pose : PoseR) : Shape → Pt → Prop
  | side {vs : List Pt} {a b : Pt} {t : ℝ} : IsEdge (vs.map (Shape.place pose)) a b → 0 ≤ t → t ≤ 1 →
      OnOutline pose (.polygon vs) ⟨a.x + t * (b.x - a.x), a.y + t * (b.y - a.y)⟩
  | part {children : List Shape} {s : Shape} {p : Pt} : s ∈ children → OnOutline pose s p →
      OnOutline pose (.composite children) p

/-- A corner of a placed shape. -/
inductive Spec.IsCorner (pose : PoseR) : Shape → Pt → Prop
  | corner {vs : List Pt} {u : Pt} : u ∈ vs → IsCorner pose (.polygon vs) (Shape.place pose u)
  | part {children : List Shape} {s : Shape} {p : Pt} : s ∈ children → IsCorner pose s p →
      IsCorner pose (.composite children) p

theorem isEdge_closedEdges {vs : List Pt} {a b : Pt} (h : IsEdge vs a b) : (a, b) ∈ closedEdges vs := by
  obtain ⟨i, ha, hb⟩ := h
  cases vs with
  | nil => simp at ha
  | cons v vs =>
    have hi : i < (v :: vs).length := by
      by_contra hc
      rw [List.getElem?_eq_none (by omega)] at ha
      cases ha
    unfold closedEdges
    apply List.mem_of_getElem? (i := i)
    rw [List.getElem?_zip_eq_some]
    refine ⟨ha, ?_⟩
    simp only [List.length_cons] at hi hb
    by_cases hl : i + 1 < vs.length + 1
    · rw [Nat.mod_eq_of_lt hl, List.getElem?_cons_succ] at hb
      rw [List.getElem?_append_left (by omega)]
      exact hb
    · have : i = vs.length := by omega
      subst this
      rw [Nat.mod_self] at hb
      simpa using hb

theorem abs_trunc_lt (x : ℝ) : |x - truncInt x| < 1 := by
  unfold truncInt
  split
  · rw [abs_lt]; constructor <;> linarith [Int.floor_le x, Int.lt_floor_add_one x]
  · rw [abs_lt]; constructor <;> linarith [Int.le_ceil x, Int.ceil_lt_add_one x]

/-- One coordinate: the offset of a point of a segment, given those of the ends and that of the point of the digital
segment. -/
theorem blend {x0 x1 r0 r1 t c d : ℝ} (h0 : 0 ≤ t) (h1 : t ≤ 1) (e0 : |x0 - r0| ≤ 1) (e1 : |x1 - r1| ≤ 1)
    (hd : |r0 + t * (r1 - r0) - c| ≤ d) : |x0 + t * (x1 - x0) - c| ≤ 1 + d := by
  rw [abs_le] at *
  constructor <;> nlinarith

/-- The distance of a point of a segment to a cell, from the offsets of the cell to the segment between the cells of
the ends. -/
theorem offset_euclid (m : OccMap) (hres : 0 < m.resolution) (a b : Pt) (c : Cell) (t d1 d2 B : ℝ) (h0 : 0 ≤ t)
    (h1 : t ≤ 1) (hB : 0 ≤ B) (hd : (1 + d1) ^ 2 + (1 + d2) ^ 2 ≤ B ^ 2)
    (hr : |((m.worldPositionToGridCell a false).row : ℝ) + t * ((m.worldPositionToGridCell b false).row -
      (m.worldPositionToGridCell a false).row) - c.row| ≤ d1)
    (hc : |((m.worldPositionToGridCell a false).col : ℝ) + t * ((m.worldPositionToGridCell b false).col -
      (m.worldPositionToGridCell a false).col) - c.col| ≤ d2) :
    euclid ⟨a.x + t * (b.x - a.x), a.y + t * (b.y - a.y)⟩ (m.gridCellToWorldPosition c) ≤ B * m.resolution := by
  obtain ⟨ca, hca⟩ : ∃ ca, ca = m.worldPositionToGridCell a false := ⟨_, rfl⟩
  obtain ⟨cb, hcb⟩ : ∃ cb, cb = m.worldPositionToGridCell b false := ⟨_, rfl⟩
  rw [← hca, ← hcb] at hr hc
  obtain ⟨w, hw⟩ : ∃ w, w = m.worldGridOrigin := ⟨_, rfl⟩
  have ear : |(a.x - w.x) / m.resolution - ca.row| ≤ 1 := by rw [hca, hw]; exact (abs_trunc_lt _).le
  have eac : |(a.y - w.y) / m.resolution - ca.col| ≤ 1 := by rw [hca, hw]; exact (abs_trunc_lt _).le
  have ebr : |(b.x - w.x) / m.resolution - cb.row| ≤ 1 := by rw [hcb, hw]; exact (abs_trunc_lt _).le
  have ebc : |(b.y - w.y) / m.resolution - cb.col| ≤ 1 := by rw [hcb, hw]; exact (abs_trunc_lt _).le
  have hx : a.x + t * (b.x - a.x) - (w.x + m.resolution * c.row) = m.resolution *
      ((a.x - w.x) / m.resolution + t * ((b.x - w.x) / m.resolution - (a.x - w.x) / m.resolution) - c.row) := by
    field_simp; ring
  have hy : a.y + t * (b.y - a.y) - (w.y + m.resolution * c.col) = m.resolution *
      ((a.y - w.y) / m.resolution + t * ((b.y - w.y) / m.resolution - (a.y - w.y) / m.resolution) - c.col) := by
    field_simp; ring
  obtain ⟨X, hX⟩ : ∃ X, X = (a.x - w.x) / m.resolution + t * ((b.x - w.x) / m.resolution - (a.x - w.x) / m.resolution)
    - c.row := ⟨_, rfl⟩
  obtain ⟨Y, hY⟩ : ∃ Y, Y = (a.y - w.y) / m.resolution + t * ((b.y - w.y) / m.resolution - (a.y - w.y) / m.resolution)
    - c.col := ⟨_, rfl⟩
  rw [← hX] at hx
  rw [← hY] at hy
  have hsq : X ^ 2 + Y ^ 2 ≤ B ^ 2 := by
    have f1 := blend h0 h1 ear ebr hr
    have f2 := blend h0 h1 eac ebc hc
    rw [← hX] at f1
    rw [← hY] at f2
    have := sq_le_sq' (by linarith [(abs_le.mp f1).1]) (abs_le.mp f1).2
    have := sq_le_sq' (by linarith [(abs_le.mp f2).1]) (abs_le.mp f2).2
    linarith
  unfold euclid
  apply Real.sqrt_le_iff.mpr
  refine ⟨by positivity, ?_⟩
  have e1 : (m.gridCellToWorldPosition c).x = w.x + m.resolution * c.row := by
    rw [hw]; simp [OccMap.gridCellToWorldPosition, OccMap.gridCellToGridPosition]; try ring
  have e2 : (m.gridCellToWorldPosition c).y = w.y + m.resolution * c.col := by
    rw [hw]; simp [OccMap.gridCellToWorldPosition, OccMap.gridCellToGridPosition]; try ring
  rw [e1, e2]
  dsimp only
  rw [hx, hy]
  nlinarith [sq_nonneg m.resolution]

/-- Every point of a side whose end cells are in the map is at most two and a half cells away from a cell of the
rasterised side. -/
theorem side_near (m : OccMap) (hres : 0 < m.resolution) (a b : Pt)
    (ha : Inside m.size (m.worldPositionToGridCell a false)) (hb : Inside m.size (m.worldPositionToGridCell b false))
    (t : ℝ) (h0 : 0 ≤ t) (h1 : t ≤ 1) :
    ∃ c ∈ Shape.rasterizeLine m a b,
      euclid ⟨a.x + t * (b.x - a.x), a.y + t * (b.y - a.y)⟩ (m.gridCellToWorldPosition c) ≤ 5 / 2 * m.resolution := by
  obtain ⟨ca, hca⟩ : ∃ ca, ca = m.worldPositionToGridCell a false := ⟨_, rfl⟩
  obtain ⟨cb, hcb⟩ : ∃ cb, cb = m.worldPositionToGridCell b false := ⟨_, rfl⟩
  have key : ∃ c ∈ Shape.rasterizeLine m a b, (|(ca.row : ℝ) + t * (cb.row - ca.row) - c.row| ≤ 1 / 2 ∧
        |(ca.col : ℝ) + t * (cb.col - ca.col) - c.col| ≤ 1) ∨
      (|(ca.row : ℝ) + t * (cb.row - ca.row) - c.row| ≤ 1 ∧
        |(ca.col : ℝ) + t * (cb.col - ca.col) - c.col| ≤ 1 / 2) := by
    unfold Shape.rasterizeLine
    rw [← hca, ← hcb]
    rw [← hca] at ha
    rw [← hcb] at hb
    rcases C32_line_inside_map m.size _ _ ha hb with h | h
    · exact digital_near h t h0 h1
    · obtain ⟨c, hc, hd⟩ := digital_near h (1 - t) (by linarith) (by linarith)
      refine ⟨c, hc, ?_⟩
      have flip : ∀ x y : ℝ, x + (1 - t) * (y - x) = y + t * (x - y) := fun x y => by ring
      rw [flip, flip] at hd
      exact hd
  rw [hca, hcb] at key
  obtain ⟨c, hc, ⟨d1, d2⟩ | ⟨d1, d2⟩⟩ := key
  · exact ⟨c, hc, offset_euclid m hres a b c t _ _ (5 / 2) h0 h1 (by norm_num) (by norm_num) d1 d2⟩
  · exact ⟨c, hc, offset_euclid m hres a b c t _ _ (5 / 2) h0 h1 (by norm_num) (by norm_num) d1 d2⟩

/-- Every cell of a rasterised side, wherever its ends are, is within `√13 / 2` cells of a point of the side. -/
theorem cell_near_side (m : OccMap) (hres : 0 < m.resolution) (a b : Pt) (c : Cell)
    (hc : c ∈ Shape.rasterizeLine m a b) :
    ∃ t : ℝ, 0 ≤ t ∧ t ≤ 1 ∧
      euclid ⟨a.x + t * (b.x - a.x), a.y + t * (b.y - a.y)⟩ (m.gridCellToWorldPosition c) ≤ √13 / 2 * m.resolution := by
  obtain ⟨ca, hca⟩ : ∃ ca, ca = m.worldPositionToGridCell a false := ⟨_, rfl⟩
  obtain ⟨cb, hcb⟩ : ∃ cb, cb = m.worldPositionToGridCell b false := ⟨_, rfl⟩
  have key : ∃ t : ℝ, 0 ≤ t ∧ t ≤ 1 ∧ ((|(ca.row : ℝ) + t * (cb.row - ca.row) - c.row| ≤ 0 ∧
        |(ca.col : ℝ) + t * (cb.col - ca.col) - c.col| ≤ 1 / 2) ∨
      (|(ca.row : ℝ) + t * (cb.row - ca.row) - c.row| ≤ 1 / 2 ∧
        |(ca.col : ℝ) + t * (cb.col - ca.col) - c.col| ≤ 0)) := by
    unfold Shape.rasterizeLine at hc
    rw [← hca, ← hcb] at hc
    obtain ⟨L, hL, -, hiff⟩ := C32_rasterised_line m.size ca cb
    have hcL := ((hiff c).mp hc).1
    rcases hL with h | h
    · exact digital_cell_near h c hcL
    · obtain ⟨t, t0, t1, hd⟩ := digital_cell_near h c hcL
      refine ⟨1 - t, by linarith, by linarith, ?_⟩
      have flip : ∀ x y : ℝ, y + (1 - t) * (x - y) = x + t * (y - x) := fun x y => by ring
      rw [flip, flip]
      exact hd
  rw [hca, hcb] at key
  have hsq : (√13 / 2) ^ 2 = 13 / 4 := by rw [div_pow, Real.sq_sqrt (by norm_num)]; norm_num
  obtain ⟨t, t0, t1, ⟨d1, d2⟩ | ⟨d1, d2⟩⟩ := key
  · exact ⟨t, t0, t1, offset_euclid m hres a b c t _ _ _ t0 t1 (by positivity) (by rw [hsq]; norm_num) d1 d2⟩
  · exact ⟨t, t0, t1, offset_euclid m hres a b c t _ _ _ t0 t1 (by positivity) (by rw [hsq]; norm_num) d1 d2⟩

theorem gridCells_polygon (m : OccMap) (pose : PoseR) (vs : List Pt) : Shape.gridCells m pose (.polygon vs) =
    some ((closedEdges (vs.map (Shape.place pose))).flatMap fun e => Shape.rasterizeLine m e.1 e.2) := by
  rw [Shape.gridCells]
  have := edgeLoop_eq m (vs.map (Shape.place pose))
  rw [List.length_map] at this
  exact this

theorem closedEdges_isEdge {vs : List Pt} {a b : Pt} (h : (a, b) ∈ closedEdges vs) : IsEdge vs a b := by
  cases vs with
  | nil => simp [closedEdges] at h
  | cons v vs =>
    unfold closedEdges at h
    obtain ⟨i, hi⟩ := List.getElem?_of_mem h
    rw [List.getElem?_zip_eq_some] at hi
    obtain ⟨ha, hb⟩ := hi
    refine ⟨i, ha, ?_⟩
    have hi : i < vs.length + 1 := by
      by_contra hc
      rw [List.getElem?_eq_none (by simp; omega)] at ha
      cases ha
    rw [List.length_cons]
    by_cases hl : i + 1 < vs.length + 1
    · rw [Nat.mod_eq_of_lt hl, List.getElem?_cons_succ]
      rwa [List.getElem?_append_left (by omega)] at hb
    · have : i = vs.length := by omega
      subst this
      rw [Nat.mod_self]
      simpa using hb

/-- C91: every point of the outline of an obstacle whose corners are in the map is at most two and a half cells away
from one of the cells that the map receives for the obstacle. -/
theorem C91_outline_near_cells (m : OccMap) (hres : 0 < m.resolution) (pose : PoseR) (shape : Shape)
    (hin : ∀ u, IsCorner pose shape u → Inside m.size (m.worldPositionToGridCell u false)) (cells : List Cell)
    (hcells : Shape.gridCells m pose shape = some cells) (p : Pt) (hp : OnOutline pose shape p) :
    ∃ c ∈ cells, euclid p (m.gridCellToWorldPosition c) ≤ 5 / 2 * m.resolution := by
  induction hp generalizing cells with
  | @side vs a b t he h0 h1 =>
    have hmem : ∀ q, (∃ i : Nat, (vs.map (Shape.place pose))[i]? = some q) →
        Inside m.size (m.worldPositionToGridCell q false) := by
      rintro q ⟨i, hi⟩
      obtain ⟨u, hu, rfl⟩ := List.mem_map.mp (List.mem_of_getElem? hi)
      exact hin _ (.corner hu)
    have ha := hmem a (he.imp fun i h => h.1)
    have hb := hmem b (let ⟨i, h⟩ := he; ⟨_, h.2⟩)
    obtain ⟨c, hc, hd⟩ := side_near m hres a b ha hb t h0 h1
    refine ⟨c, ?_, hd⟩
    rw [gridCells_polygon] at hcells
    injection hcells with hcells
    rw [← hcells]
    exact List.mem_flatMap.mpr ⟨(a, b), isEdge_closedEdges he, hc⟩
  | @part children s p hs _ ih =>
    obtain ⟨cells', h1, h2⟩ := C33_composite_is_union m pose children
    rw [hcells] at h1
    injection h1 with h1
    subst h1
    obtain ⟨l, hl⟩ : ∃ l, Shape.gridCells m pose s = some l :=
      Option.isSome_iff_exists.mp (gridCells_total m pose s)
    obtain ⟨c, hc, hd⟩ := ih (fun u hu => hin u (.part hs hu)) l hl
    exact ⟨c, (h2 c).mpr ⟨s, hs, l, hl, hc⟩, hd⟩

/-- C91: every cell that the map receives for an obstacle is within `√13 / 2` cells of a point of its outline. -/
theorem C91_cells_near_outline (m : OccMap) (hres : 0 < m.resolution) (pose : PoseR) :
    ∀ (shape : Shape) (cells : List Cell), Shape.gridCells m pose shape = some cells → ∀ c ∈ cells,
      ∃ p, OnOutline pose shape p ∧ euclid p (m.gridCellToWorldPosition c) ≤ √13 / 2 * m.resolution := by
  intro shape
  induction shape using Shape.rec (motive_2 := fun children => ∀ s ∈ children, ∀ (cells : List Cell),
    Shape.gridCells m pose s = some cells → ∀ c ∈ cells,
      ∃ p, OnOutline pose s p ∧ euclid p (m.gridCellToWorldPosition c) ≤ √13 / 2 * m.resolution) with
  | polygon vs =>
    intro cells hcells c hc
    rw [gridCells_polygon] at hcells
    injection hcells with hcells
    rw [← hcells] at hc
    obtain ⟨⟨a, b⟩, he, hc⟩ := List.mem_flatMap.mp hc
    obtain ⟨t, t0, t1, hd⟩ := cell_near_side m hres a b c hc
    exact ⟨_, .side (closedEdges_isEdge he) t0 t1, hd⟩
  | composite children ih =>
    intro cells hcells c hc
    obtain ⟨cells', h1, h2⟩ := C33_composite_is_union m pose children
    rw [hcells] at h1
    injection h1 with h1
    subst h1
    obtain ⟨s, hs, l, hl, hcl⟩ := (h2 c).mp hc
    obtain ⟨p, hp, hd⟩ := ih s hs l hl c hcl
    exact ⟨p, .part hs hp, hd⟩
  | nil => rename_i h _ _ _ _; cases h
  | cons s ss ih1 ih2 =>
    rename_i s' hs' cells hcells c hc
    rcases List.mem_cons.mp hs' with rfl | h
    · exact ih1 cells hcells c hc
    · exact ih2 s' h cells hcells c hc

/-- C92: after Update, a state that the validator accepts keeps the safe radius (less 7.7 % and less than four cells)
from every point of the outline of every registered obstacle whose corners are in the map. -/
theorem C92_accepted_state_keeps_clear (v : Validator) (ops : List MapState.Op) (hv : SeesMap v (ops ++ [.update]))
    (ht : Tidy ops) (hres : 0 < v.map.resolution) (s : PoseR) (ha : v.isStateValid s = some true)
    (o : Nat) (ho : registered (obstacleOps ops) o = true) (pose : PoseR) (shape : Shape)
    (hcells : Shape.gridCells v.map pose shape = some (covers (obstacleOps ops) o))
    (hin : ∀ u, IsCorner pose shape u → Inside v.map.size (v.map.worldPositionToGridCell u false))
    (p : Pt) (hp : OnOutline pose shape p) :
    v.minSafe / √(4 - 2 * √2) - (√2 + 5 / 2) * v.map.resolution ≤ euclid s.position p := by
  obtain ⟨c, hc, hd⟩ := C91_outline_near_cells v.map hres pose shape hin _ hcells p hp
  have h1 := C90_accepted_state_is_clear v ops hv ht hres s ha c ⟨o, ho, hc⟩
  have h2 := Validator.euclid_triangle s.position p (v.map.gridCellToWorldPosition c)
  linarith

/-- C92: as long as no obstacle has been removed, a state within the bounds that is rejected after Update is closer
than the safe radius (plus less than four cells) to the outline of a registered obstacle. `pose` and `shape` give the
placement of each registered obstacle. -/
theorem C92_rejected_state_is_near (v : Validator) (ops : List MapState.Op) (hv : SeesMap v (ops ++ [.update]))
    (ht : Tidy ops) (hk : ∀ o, MapState.Op.obstacle (.remove o) ∉ ops) (hne : ∃ c, Covered ops c)
    (hres : 0 < v.map.resolution) (pose : Nat → PoseR) (shape : Nat → Shape)
    (hcells : ∀ o, registered (obstacleOps ops) o = true →
      Shape.gridCells v.map (pose o) (shape o) = some (covers (obstacleOps ops) o))
    (s : PoseR) (hin : WithinBounds v s) (ha : v.isStateValid s = some false) :
    ∃ o p, registered (obstacleOps ops) o = true ∧ OnOutline (pose o) (shape o) p ∧
      euclid s.position p < v.minSafe + (√2 + √13 / 2) * v.map.resolution := by
  obtain ⟨c, ⟨o, ho, hc⟩, hd⟩ := C90_rejected_state_is_near v ops hv ht hk hne hres s hin ha
  obtain ⟨p, hp, hpd⟩ := C91_cells_near_outline v.map hres (pose o) (shape o) _ (hcells o ho) c hc
  have h2 := Validator.euclid_triangle s.position (v.map.gridCellToWorldPosition c) p
  have h3 : euclid (v.map.gridCellToWorldPosition c) p = euclid p (v.map.gridCellToWorldPosition c) := by
    unfold euclid
    congr 1
    ring
  exact ⟨o, p, ho, hp, by rw [h3] at h2; linarith⟩

/-- A triangle in the lower left corner of the 10 × 10 map. -/
noncomputable def exTriangle : Shape := .polygon [⟨-4.5, -4.5⟩, ⟨-2.5, -4.5⟩, ⟨-4.5, -2.5⟩]

theorem exTriangle_corners (u : Pt) (h : IsCorner ⟨⟨0, 0⟩, 0⟩ exTriangle u) :
    (-4.5 ≤ u.x ∧ u.x ≤ -2.5) ∧ (-4.5 ≤ u.y ∧ u.y ≤ -2.5) := by
  unfold exTriangle at h
  cases h with
  | corner h =>
    simp only [List.mem_cons, List.not_mem_nil, or_false] at h
    rcases h with rfl | rfl | rfl <;> norm_num [Shape.place]

theorem exTriangle_inside (u : Pt) (h : IsCorner ⟨⟨0, 0⟩, 0⟩ exTriangle u) :
    Inside Validator.exMap.size (Validator.exMap.worldPositionToGridCell u false) := by
  obtain ⟨hx, hy⟩ := exTriangle_corners u h
  have key : ∀ x : ℝ, -4.5 ≤ x → x ≤ -2.5 → 0 ≤ truncInt ((x - -5) / 1) ∧ truncInt ((x - -5) / 1) < 10 := by
    intro x h1 h2
    unfold truncInt
    rw [if_pos (by norm_num; linarith)]
    constructor
    · exact Int.floor_nonneg.mpr (by norm_num; linarith)
    · rw [Int.floor_lt]; push_cast; norm_num; linarith
  obtain ⟨a1, a2⟩ := key u.x hx.1 hx.2
  obtain ⟨b1, b2⟩ := key u.y hy.1 hy.2
  exact ⟨a1, a2, b1, b2⟩

/-- The cells of the triangle. -/
theorem exTriangle_cells : ∃ cells, Shape.gridCells Validator.exMap ⟨⟨0, 0⟩, 0⟩ exTriangle = some cells ∧ cells ≠ [] ∧
    (∀ c ∈ cells, InRect 10 10 c) ∧ ∀ c ∈ cells, c.row ≤ 4 ∧ c.col ≤ 4 := by
  obtain ⟨cells, hcells, hcorner, hin, -⟩ := C33_polygon_boundary_closed Validator.exMap ⟨⟨0, 0⟩, 0⟩ ⟨-4.5, -4.5⟩
    [⟨-2.5, -4.5⟩, ⟨-4.5, -2.5⟩] (fun u hu => exTriangle_inside _ (.corner hu))
  have hout : ∀ p, OnOutline ⟨⟨0, 0⟩, 0⟩ exTriangle p → p.x ≤ -2.5 ∧ p.y ≤ -2.5 := by
    intro p hp
    unfold exTriangle at hp
    cases hp with
    | @side _ a b t he h0 h1 =>
      obtain ⟨i, ha, hb⟩ := he
      obtain ⟨u, hu, rfl⟩ := List.mem_map.mp (List.mem_of_getElem? ha)
      obtain ⟨w, hw, rfl⟩ := List.mem_map.mp (List.mem_of_getElem? hb)
      obtain ⟨⟨-, x1⟩, -, y1⟩ := exTriangle_corners _ (.corner hu)
      obtain ⟨⟨-, x2⟩, -, y2⟩ := exTriangle_corners _ (.corner hw)
      constructor <;> dsimp only <;> nlinarith
  have hs13 : √13 < 4 := by rw [Real.sqrt_lt' (by norm_num)]; norm_num
  have hfar : ∀ c ∈ cells, c.row ≤ 4 ∧ c.col ≤ 4 := by
    intro c hc
    obtain ⟨p, hp, hd⟩ := C91_cells_near_outline Validator.exMap (by norm_num [Validator.exMap]) ⟨⟨0, 0⟩, 0⟩ exTriangle cells hcells c hc
    obtain ⟨px, py⟩ := hout p hp
    unfold euclid at hd
    rw [show Validator.exMap.resolution = 1 from rfl] at hd
    have hd2 : (p.x - (Validator.exMap.gridCellToWorldPosition c).x) ^ 2 + (p.y - (Validator.exMap.gridCellToWorldPosition c).y) ^ 2 < 2 ^ 2 := by
      rw [← Real.sqrt_lt' (by norm_num)]; linarith
    simp only [OccMap.gridCellToWorldPosition, OccMap.gridCellToGridPosition, Pt.add_x, Pt.add_y, Validator.exMap] at hd2
    have kx : (c.row : ℝ) < 5 := by nlinarith [sq_nonneg (p.y - (-5 + (c.col : ℝ) * 1))]
    have ky : (c.col : ℝ) < 5 := by nlinarith [sq_nonneg (p.x - (-5 + (c.row : ℝ) * 1))]
    have kx' : c.row < 5 := by exact_mod_cast kx
    have ky' : c.col < 5 := by exact_mod_cast ky
    omega
  exact ⟨cells, hcells, List.ne_nil_of_mem (hcorner _ (List.mem_cons_self ..)), fun c hc => hin c hc, hfar⟩

/-- Non-vacuity: with the triangle registered, a state is accepted with a safe radius of five metres; the theorem then
keeps it clear of the outline. -/
example : ∃ (v : Validator) (cells : List Cell), SeesMap v (exOneObstacle cells ++ [.update]) ∧
    Tidy (exOneObstacle cells) ∧ v.map = Validator.exMap ∧ v.isStateValid ⟨⟨3, 3⟩, 0⟩ = some true ∧
    Shape.gridCells v.map ⟨⟨0, 0⟩, 0⟩ exTriangle = some (covers (obstacleOps (exOneObstacle cells)) 0) ∧
    0 < v.minSafe / √(4 - 2 * √2) - (√2 + 5 / 2) * v.map.resolution := by
  obtain ⟨cells, hcells, hne, hin, hfar⟩ := exTriangle_cells
  obtain ⟨v, h1, h2, h3, h4⟩ := exOne_accepted cells hin hne 5 (by
      intro c hc
      obtain ⟨r1, r2⟩ := hfar c hc
      unfold sqDist
      have : (25 : Int) ≤ (c.row - 8) ^ 2 + (c.col - 8) ^ 2 := by nlinarith
      have : ((25 : Int) : ℝ) ≤ (((c.row - 8) ^ 2 + (c.col - 8) ^ 2 : Int) : ℝ) := by exact_mod_cast this
      norm_num at this ⊢
      exact this)
  refine ⟨v, cells, h1, exOne_tidy _, h2, h4, by rw [exOne_covers, h2]; exact hcells, ?_⟩
  rw [h3, h2, show Validator.exMap.resolution = 1 from rfl]
  have s2 : √2 < 1.4143 := by rw [Real.sqrt_lt' (by norm_num)]; norm_num
  have s2' : 1.414 < √2 := by rw [Real.lt_sqrt (by norm_num)]; norm_num
  have hk : √(4 - 2 * √2) < 1.1 := by rw [Real.sqrt_lt' (by norm_num)]; norm_num; linarith
  have hk0 : 0 < √(4 - 2 * √2) := Real.sqrt_pos.mpr (by linarith)
  have : 4.5 < 5 / √(4 - 2 * √2) := by rw [lt_div_iff₀ hk0]; nlinarith
  linarith

end PathPlanning
