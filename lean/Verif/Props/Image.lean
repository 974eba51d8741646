import Verif.Model.Image
import Verif.Spec.Image
import Verif.Props.GVD
import Verif.Props.ObstHeuristic
import Mathlib.Algebra.Order.Floor.Semiring

/-!
# Images of the Voronoi diagram and of the obstacle heuristic: C102
-/

namespace PathPlanning
open Spec

/-! ## Order and number of pixels -/

private theorem length_flatMap_const {α β : Type} {k : Nat} {f : α → List β} {l : List α} (h : ∀ a ∈ l, (f a).length = k) :
    (l.flatMap f).length = k * l.length := by
  induction l with
  | nil => simp
  | cons a l ih =>
    rw [List.flatMap_cons, List.length_append, h a (List.mem_cons_self ..), ih fun b hb => h b (List.mem_cons_of_mem _ hb),
      List.length_cons, Nat.mul_succ, Nat.add_comm]

private theorem block {α β : Type} {k : Nat} {f : α → List β} {l : List α} (h : ∀ a ∈ l, (f a).length = k) {i : Nat} {a : α}
    (hi : l[i]? = some a) : ((l.flatMap f).drop (k * i)).take k = f a := by
  induction l generalizing i with
  | nil => cases hi
  | cons b l ih =>
    have hb := h b (List.mem_cons_self ..)
    rw [List.flatMap_cons]
    cases i with
    | zero =>
      cases hi
      rw [Nat.mul_zero, List.drop_zero, ← hb, List.take_left]
    | succ i =>
      rw [Nat.mul_succ, Nat.add_comm, ← List.drop_drop, ← hb, List.drop_left, hb]
      exact ih (fun c hc => h c (List.mem_cons_of_mem _ hc)) hi

private theorem length_imageCells (w h : Nat) : (imageCells w h).length = w * h := by
  unfold imageCells
  rw [length_flatMap_const (k := w) (fun y _ => by simp)]
  simp

private theorem getElem_imageCells {w h x j : Nat} (hx : x < w) (hj : j < h) :
    (imageCells w h)[j * w + x]? = some ⟨(x : Int), ((h - 1 - j : Nat) : Int)⟩ := by
  have hrow : (List.range h).reverse[j]? = some (h - 1 - j) := by
    rw [List.getElem?_reverse (by simpa using hj)]
    rw [List.length_range, List.getElem?_range (by omega)]
  have := block (k := w) (f := fun (y : Nat) => (List.range w).map fun (x : Nat) => (⟨(x : Int), (y : Int)⟩ : Cell))
    (l := (List.range h).reverse) (fun y _ => by simp) hrow
  have h2 := congrArg (fun l : List Cell => l[x]?) this
  simp only [List.getElem?_take, hx, if_true, List.getElem?_drop, List.getElem?_map, List.getElem?_range hx] at h2
  rw [Nat.mul_comm j w]
  exact h2

private theorem length_rgb (c : Int × Int × Int) : (rgb c).length = 3 := rfl

private theorem toByte_lt (v : Int) : toByte v < 256 := by unfold toByte; omega

private theorem rgb_lt {c : Int × Int × Int} {b : Nat} (h : b ∈ rgb c) : b < 256 := by
  simp only [rgb, List.mem_cons, List.not_mem_nil, or_false] at h
  rcases h with rfl | rfl | rfl <;> exact toByte_lt _

private theorem GVD.pixel_rgb (g : GVD) (occ : Cell → Int) (n : Int) (c : Cell) : ∃ v, g.pixel occ n c = rgb v := by
  unfold GVD.pixel
  split
  · exact ⟨_, rfl⟩
  · split
    · exact ⟨_, rfl⟩
    · exact ⟨_, rfl⟩

private theorem HeurTables.pixel_rgb (t : HeurTables ℝ) (n : ℝ) (c : Cell) : ∃ v, t.pixel n c = rgb v := by
  unfold HeurTables.pixel
  split
  · exact ⟨_, rfl⟩
  · exact ⟨_, rfl⟩

/-- C102. The file is a binary PPM image with one pixel per cell, `rows` wide and `columns` high: the header announces the
size, and exactly three bytes per pixel follow. -/
theorem C102_gvd_file (g : GVD) (occ : Cell → Int) :
    (g.visualize occ).header =
      "P6\n#\n" ++ (toString g.maps.core.rows.toNat ++ " " ++ toString g.maps.core.columns.toNat ++ "\n255\n") ∧
    (g.visualize occ).data.length = 3 * (g.maps.core.rows.toNat * g.maps.core.columns.toNat) ∧
    ∀ b ∈ (g.visualize occ).data, b < 256 := by
  refine ⟨rfl, ?_, ?_⟩
  · show List.length (List.flatMap _ _) = _
    rw [length_flatMap_const (k := 3), length_imageCells]
    intro c _
    obtain ⟨v, hv⟩ := g.pixel_rgb occ (GVD.maxOccupancy occ g.maps.core.rows.toNat g.maps.core.columns.toNat) c
    rw [hv, length_rgb]
  · intro b hb
    obtain ⟨c, -, hc⟩ := List.mem_flatMap.mp hb
    obtain ⟨v, hv⟩ := g.pixel_rgb occ (GVD.maxOccupancy occ g.maps.core.rows.toNat g.maps.core.columns.toNat) c
    rw [hv] at hc
    exact rgb_lt hc

/-- C102. The same for the image of the obstacle heuristic. -/
theorem C102_heuristic_file (t : HeurTables ℝ) (rows columns : Nat) :
    (t.visualize rows columns).header =
      "P6\n#\n" ++ (toString rows ++ " " ++ toString columns ++ "\n255\n") ∧
    (t.visualize rows columns).data.length = 3 * (rows * columns) ∧
    ∀ b ∈ (t.visualize rows columns).data, b < 256 := by
  refine ⟨rfl, ?_, ?_⟩
  · show List.length (List.flatMap _ _) = _
    rw [length_flatMap_const (k := 3), length_imageCells]
    intro c _
    obtain ⟨v, hv⟩ := t.pixel_rgb ((t.maxCost rows columns).unbotD 0) c
    rw [hv, length_rgb]
  · intro b hb
    obtain ⟨c, -, hc⟩ := List.mem_flatMap.mp hb
    obtain ⟨v, hv⟩ := t.pixel_rgb ((t.maxCost rows columns).unbotD 0) c
    rw [hv] at hc
    exact rgb_lt hc

private theorem gvd_pixelAt (g : GVD) (occ : Cell → Int) {x j : Nat} (hx : x < g.maps.core.rows.toNat)
    (hj : j < g.maps.core.columns.toNat) :
    pixelAt (g.visualize occ).data g.maps.core.rows.toNat x j =
      g.pixel occ (GVD.maxOccupancy occ g.maps.core.rows.toNat g.maps.core.columns.toNat)
        ⟨(x : Int), ((g.maps.core.columns.toNat - 1 - j : Nat) : Int)⟩ := by
  unfold pixelAt
  refine block (fun c _ => ?_) (getElem_imageCells hx hj)
  obtain ⟨v, hv⟩ := g.pixel_rgb occ (GVD.maxOccupancy occ g.maps.core.rows.toNat g.maps.core.columns.toNat) c
  rw [hv, length_rgb]

private theorem heur_pixelAt (t : HeurTables ℝ) {w h x j : Nat} (hx : x < w) (hj : j < h) :
    pixelAt (t.visualize w h).data w x j =
      t.pixel ((t.maxCost w h).unbotD 0) ⟨(x : Int), ((h - 1 - j : Nat) : Int)⟩ := by
  unfold pixelAt
  refine block (fun c _ => ?_) (getElem_imageCells hx hj)
  obtain ⟨v, hv⟩ := t.pixel_rgb ((t.maxCost w h).unbotD 0) c
  rw [hv, length_rgb]

/-! ## Largest values -/

private theorem foldl_le {α β : Type} [LE β] {f : β → α → β} {P : α → Prop} {u : β}
    (h : ∀ m x, f m x ≤ u ↔ m ≤ u ∧ P x) (l : List α) (b : β) : l.foldl f b ≤ u ↔ b ≤ u ∧ ∀ x ∈ l, P x := by
  induction l generalizing b with
  | nil => simp
  | cons x l ih => rw [List.foldl_cons, ih, h, List.forall_mem_cons, and_assoc]

private theorem maxOccupancy_le {occ : Cell → Int} {w h : Nat} {u : Int} :
    GVD.maxOccupancy occ w h ≤ u ↔ 0 ≤ u ∧ ∀ x ∈ List.range w, ∀ y ∈ List.range h, occ ⟨(x : Int), (y : Int)⟩ ≤ u := by
  unfold GVD.maxOccupancy
  refine foldl_le (fun m x => ?_) _ _
  exact foldl_le (P := fun (y : Nat) => occ ⟨(x : Int), (y : Int)⟩ ≤ u) (fun (m : Int) (y : Nat) => max_le_iff) _ _

private theorem maxCost_le {t : HeurTables ℝ} {w h : Nat} {u : WithBot ℝ} :
    t.maxCost w h ≤ u ↔ ∀ x ∈ List.range w, ∀ y ∈ List.range h, ∀ c : ℝ, t.cost ⟨(x : Int), (y : Int)⟩ = c → (c : WithBot ℝ) ≤ u := by
  unfold HeurTables.maxCost
  rw [foldl_le (P := fun (x : Nat) => ∀ y ∈ List.range h, ∀ c : ℝ, t.cost ⟨(x : Int), (y : Int)⟩ = c → (c : WithBot ℝ) ≤ u)]
  · simp
  · intro m x
    refine foldl_le (fun m y => ?_) _ _
    cases hc : t.cost ⟨(x : Int), (y : Int)⟩ with
    | top => simp
    | coe c => simp only [max_le_iff, WithTop.coe_inj]; exact ⟨fun h => ⟨h.1, fun c' e => e ▸ h.2⟩, fun h => ⟨h.1, h.2 c rfl⟩⟩

/-! ## Numbers as bytes -/

private theorem truncInt_of_nonneg {x : ℝ} (h : 0 ≤ x) : truncInt x = ⌊x⌋ := by rw [truncInt, if_pos h]

private theorem toByte_trunc {x : ℝ} (h0 : 0 ≤ x) (h1 : x ≤ 255) : toByte (truncInt x) = ⌊x⌋₊ := by
  rw [truncInt_of_nonneg h0, toByte]
  have h2 : 0 ≤ ⌊x⌋ := Int.floor_nonneg.mpr h0
  have h3 : ⌊x⌋ < 256 := Int.floor_lt.mpr (by push_cast; linarith)
  rw [Int.emod_eq_of_lt h2 h3, Int.floor_toNat]

/-! ## The obstacle heuristic -/

/-- C102. The image of the obstacle heuristic for a goal inside the map: the pixel in column `x`, line `j` from the top,
shows the cell `(x, columns - 1 - j)` (so that y points upwards) as a shade of gray: black if the cell cannot be reached,
otherwise `255 (1 - cost / largest cost)` rounded down. -/
theorem C102_heuristic_image (m : GridMap) (diag : ℝ) (h1d : 1 ≤ diag) (goal : Cell) (hg : Inside m goal) :
    ∃ t, ObstHeuristic.update m diag goal = some t ∧ ∃ M : ℝ, 0 ≤ M ∧ (∃ c, Inside m c ∧ t.cost c = M) ∧
      (∀ c, Inside m c → ∀ x : ℝ, t.cost c = x → x ≤ M) ∧
      ∀ x < m.rows.toNat, ∀ j < m.columns.toNat, ∃ b,
        pixelAt (t.visualize m.rows.toNat m.columns.toNat).data m.rows.toNat x j = [b, b, b] ∧
        ((¬ ∃ l, Walk m goal l ⟨(x : Int), m.columns - 1 - j⟩) → b = 0) ∧
        ∀ y : ℝ, t.cost ⟨(x : Int), m.columns - 1 - j⟩ = y → b = ⌊(M - y) / M * 255⌋₊ := by
  obtain ⟨t, h1, h2, h3, h4, h5⟩ := ObstHeuristic.C54_update m diag (by norm_num) h1d goal hg
  have hnn : ∀ c, ∀ x : ℝ, t.cost c = x → 0 ≤ x := by
    intro c x hx
    have he : t.explored c = true := by
      by_contra hne
      rw [h4 c (by simpa using hne)] at hx
      exact absurd hx (by simp)
    obtain ⟨y, l, hy, -, hl⟩ := h3 c he
    have : x = y := WithTop.coe_injective (hx.symm.trans hy)
    rw [this, ← hl]
    clear hl
    induction l with
    | nil => exact le_refl _
    | cons a l ih =>
      cases l with
      | nil => exact le_refl _
      | cons b l =>
        refine add_nonneg ?_ ih
        unfold moveLength
        split <;> linarith
  obtain ⟨W, hW⟩ : ∃ W, m.rows.toNat = W := ⟨_, rfl⟩
  obtain ⟨H, hH⟩ : ∃ H, m.columns.toNat = H := ⟨_, rfl⟩
  have hin : ∀ c, Inside m c ↔ ∃ x < W, ∃ y < H, c = ⟨(x : Int), (y : Int)⟩ := by
    intro c
    unfold Inside
    constructor
    · intro ⟨a, b, c1, d⟩
      refine ⟨c.row.toNat, by omega, c.col.toNat, by omega, ?_⟩
      cases c
      simp_all
    · rintro ⟨x, hx, y, hy, rfl⟩
      refine ⟨?_, ?_, ?_, ?_⟩ <;> simp <;> omega
  have hle := (maxCost_le (t := t) (w := W) (h := H) (u := t.maxCost W H)).mp (le_refl _)
  have hle' : ∀ c, Inside m c → ∀ x : ℝ, t.cost c = x → (x : WithBot ℝ) ≤ t.maxCost W H := by
    intro c hc x hx
    obtain ⟨a, ha, b, hb, rfl⟩ := (hin c).mp hc
    exact hle a (List.mem_range.mpr ha) b (List.mem_range.mpr hb) x hx
  have h0 : ((0 : ℝ) : WithBot ℝ) ≤ t.maxCost W H := hle' goal hg 0 (by rw [h5]; rfl)
  obtain ⟨M, hM⟩ : ∃ M : ℝ, t.maxCost W H = M := by
    cases hb : t.maxCost W H with
    | bot => rw [hb] at h0; exact absurd h0 (by simp)
    | coe M => exact ⟨M, rfl⟩
  have hub : ∀ c, Inside m c → ∀ x : ℝ, t.cost c = x → x ≤ M := by
    intro c hc x hx
    have := hle' c hc x hx
    rw [hM] at this
    exact WithBot.coe_le_coe.mp this
  have hM0 : 0 ≤ M := by rw [hM] at h0; exact WithBot.coe_le_coe.mp h0
  refine ⟨t, h1, M, hM0, ?_, hub, ?_⟩
  · by_contra hno
    -- otherwise a smaller bound exists
    have hlt : ∀ c, Inside m c → ∀ x : ℝ, t.cost c = x → x < M := fun c hc x hx =>
      lt_of_le_of_ne (hub c hc x hx) fun e => hno ⟨c, hc, by rw [hx, e]⟩
    have hlt' : ∀ x ∈ List.range W, ∀ y ∈ List.range H, ∀ c : ℝ, t.cost ⟨(x : Int), (y : Int)⟩ = c → c < M :=
      fun x hx y hy c hc => hlt _ ((hin _).mpr ⟨x, List.mem_range.mp hx, y, List.mem_range.mp hy, rfl⟩) c hc
    obtain ⟨u, hu, hul⟩ : ∃ u < M, ∀ x ∈ List.range W, ∀ y ∈ List.range H, ∀ c : ℝ,
        t.cost ⟨(x : Int), (y : Int)⟩ = c → c ≤ u := by
      have fin : ∀ (l : List (Nat × Nat)), (∀ p ∈ l, ∀ c : ℝ, t.cost ⟨(p.1 : Int), (p.2 : Int)⟩ = c → c < M) →
          ∃ u < M, ∀ p ∈ l, ∀ c : ℝ, t.cost ⟨(p.1 : Int), (p.2 : Int)⟩ = c → c ≤ u := by
        intro l
        induction l with
        | nil => intro _; exact ⟨M - 1, by linarith, fun p hp => absurd hp (by simp)⟩
        | cons p l ih =>
          intro hl
          obtain ⟨u, hu, hul⟩ := ih fun q hq => hl q (List.mem_cons_of_mem _ hq)
          cases hp : t.cost ⟨(p.1 : Int), (p.2 : Int)⟩ with
          | top =>
            refine ⟨u, hu, fun q hq c hc => ?_⟩
            rcases List.mem_cons.mp hq with rfl | hq
            · rw [hp] at hc; exact absurd hc (by simp)
            · exact hul q hq c hc
          | coe v =>
            refine ⟨max u v, max_lt hu (hl p (List.mem_cons_self ..) v hp), fun q hq c hc => ?_⟩
            rcases List.mem_cons.mp hq with rfl | hq
            · rw [hp] at hc; rw [WithTop.coe_injective hc]; exact le_max_right _ _
            · exact le_trans (hul q hq c hc) (le_max_left _ _)
      obtain ⟨u, hu, hul⟩ := fin (List.range W ×ˢ List.range H) fun p hp c hc =>
        hlt' p.1 (List.mem_product.mp hp).1 p.2 (List.mem_product.mp hp).2 c hc
      exact ⟨u, hu, fun x hx y hy => hul (x, y) (List.mem_product.mpr ⟨hx, hy⟩)⟩
    have := (maxCost_le (t := t) (w := W) (h := H) (u := (u : WithBot ℝ))).mpr
      fun x hx y hy c hc => WithBot.coe_le_coe.mpr (hul x hx y hy c hc)
    rw [hM] at this
    exact absurd (WithBot.coe_le_coe.mp this) (not_le.mpr hu)
  · intro x hx j hj
    rw [hH] at hj ⊢
    rw [hW] at hx ⊢
    have hcell : (⟨(x : Int), ((H - 1 - j : Nat) : Int)⟩ : Cell) = ⟨(x : Int), m.columns - 1 - j⟩ := by
      congr 1; omega
    rw [heur_pixelAt t hx hj, hM, WithBot.unbotD_coe, hcell]
    obtain ⟨c, hc⟩ : ∃ c : Cell, c = ⟨(x : Int), m.columns - 1 - j⟩ := ⟨_, rfl⟩
    have hci : Inside m c := (hin c).mpr ⟨x, hx, H - 1 - j, by omega, by rw [hc, hcell]⟩
    rw [← hc]
    unfold HeurTables.pixel
    cases he : t.explored c with
    | false =>
      refine ⟨0, rfl, fun _ => rfl, fun y hy => ?_⟩
      rw [h4 c he] at hy
      exact absurd hy (by simp)
    | true =>
      obtain ⟨y, l, hy, hl, -⟩ := h3 c he
      simp only [Bool.not_true, Bool.false_eq_true, if_false, hy, WithTop.untopD_coe]
      have hyM := hub c hci y hy
      have hy0 := hnn c y hy
      have hf0 : 0 ≤ (M - y) / M * 255 := mul_nonneg (div_nonneg (by linarith) hM0) (by norm_num)
      have hf1 : (M - y) / M * 255 ≤ 255 := by
        have : (M - y) / M ≤ 1 := div_le_one_of_le₀ (by linarith) hM0
        linarith
      rw [min_eq_left hf1, max_eq_right hf0]
      refine ⟨⌊(M - y) / M * 255⌋₊, ?_, fun hno => absurd ⟨l, hl⟩ hno, fun y' hy' => ?_⟩
      · simp only [rgb, toByte_trunc hf0 hf1]
      · rw [WithTop.coe_injective hy']

/-- C102. The goal is white unless it is the only cell reached, the cells of the largest cost are black, and a cell that
costs more is not brighter. -/
theorem C102_heuristic_shades (M : ℝ) (hM : 0 < M) :
    ⌊(M - 0) / M * 255⌋₊ = 255 ∧ ⌊(M - M) / M * 255⌋₊ = 0 ∧
    ∀ y y' : ℝ, y ≤ y' → ⌊(M - y') / M * 255⌋₊ ≤ ⌊(M - y) / M * 255⌋₊ := by
  refine ⟨?_, by simp, fun y y' h => Nat.floor_le_floor ?_⟩
  · rw [sub_zero, div_self (ne_of_gt hM), one_mul]
    exact_mod_cast Nat.floor_natCast (R := ℝ) 255
  · gcongr

/-! ## The Voronoi diagram -/

/-- C102. The colours of `HSVToRGB` at full saturation. -/
theorem C102_hue (h v : ℝ) (h0 : 0 ≤ h) (h1 : h < 1) (hv0 : 0 ≤ v) :
    hsvToRgb h 1 v = (⌊v * hueRed h * 255⌋, ⌊v * hueGreen h * 255⌋, ⌊v * hueBlue h * 255⌋) := by
  have key : ∀ a b c : ℝ, 0 ≤ a → 0 ≤ b → 0 ≤ c →
      (truncInt ((v * a + 0) * 255), truncInt ((v * b + 0) * 255), truncInt ((v * c + 0) * 255)) =
        (⌊v * a * 255⌋, ⌊v * b * 255⌋, ⌊v * c * 255⌋) := by
    intro a b c ha hb hc
    simp only [add_zero]
    rw [truncInt_of_nonneg (by positivity), truncInt_of_nonneg (by positivity), truncInt_of_nonneg (by positivity)]
  have c0 : ∀ t, 0 ≤ clip t := fun t => le_max_left _ _
  have c1 : ∀ t : ℝ, 1 ≤ t → clip t = 1 := fun t ht => by rw [clip, min_eq_right ht, max_eq_right zero_le_one]
  have c2 : ∀ t : ℝ, t ≤ 0 → clip t = 0 := fun t ht => by
    rw [clip, min_eq_left (le_trans ht zero_le_one), max_eq_left ht]
  have c3 : ∀ t : ℝ, 0 ≤ t → t ≤ 1 → clip t = t := fun t h h' => by rw [clip, min_eq_left h', max_eq_right h]
  have tr : ∀ k : ℤ, 0 ≤ k → (k : ℝ) ≤ 3 * h → 3 * h < k + 1 → fmodR (h * 360 / 60) 2 = 6 * h - 2 * k := by
    intro k hk ha hb
    unfold fmodR
    have : h * 360 / 60 / 2 = 3 * h := by ring
    rw [this, truncInt_of_nonneg (by linarith), Int.floor_eq_iff.mpr ⟨ha, hb⟩]
    ring
  rw [← key (hueRed h) (hueGreen h) (hueBlue h) (c0 _) (c0 _) (c0 _)]
  have hs : (1 : ℝ) * 100 / 100 = 1 := by norm_num
  have hv : v * 100 / 100 = v := by ring
  unfold hsvToRgb
  simp only [hs, hv, one_mul, sub_self]
  -- one sector after the other
  by_cases s1 : h < 1 / 6
  · rw [if_pos ⟨by linarith, by linarith⟩, tr 0 (le_refl _) (by push_cast; linarith) (by push_cast; linarith)]
    rw [abs_of_nonpos (by push_cast; linarith)]
    rw [show hueRed h = 1 from c1 _ (by rw [abs_of_nonpos (by linarith)]; linarith),
      show hueGreen h = 6 * h from by
        unfold hueGreen; rw [abs_of_nonpos (by linarith), c3 _ (by linarith) (by linarith)]; ring,
      show hueBlue h = 0 from c2 _ (by rw [abs_of_nonpos (by linarith)]; linarith)]
    push_cast; ring_nf
  by_cases s2 : h < 2 / 6
  · rw [if_neg (by intro hh; linarith [hh.2]), if_pos ⟨by linarith, by linarith⟩,
      tr 0 (le_refl _) (by push_cast; linarith) (by push_cast; linarith)]
    rw [abs_of_nonneg (by push_cast; linarith)]
    rw [show hueRed h = 2 - 6 * h from by
        unfold hueRed; rw [abs_of_nonpos (by linarith), c3 _ (by linarith) (by linarith)]; ring,
      show hueGreen h = 1 from c1 _ (by rw [abs_of_nonpos (by linarith)]; linarith),
      show hueBlue h = 0 from c2 _ (by rw [abs_of_nonpos (by linarith)]; linarith)]
    push_cast; ring_nf
  by_cases s3 : h < 3 / 6
  · rw [if_neg (by intro hh; linarith [hh.2]), if_neg (by intro hh; linarith [hh.2]), if_pos ⟨by linarith, by linarith⟩,
      tr 1 (by norm_num) (by push_cast; linarith) (by push_cast; linarith)]
    rw [abs_of_nonpos (by push_cast; linarith)]
    rw [show hueRed h = 0 from c2 _ (by rw [abs_of_nonpos (by linarith)]; linarith),
      show hueGreen h = 1 from c1 _ (by rw [abs_of_nonneg (by linarith)]; linarith),
      show hueBlue h = 6 * h - 2 from by
        unfold hueBlue; rw [abs_of_nonpos (by linarith), c3 _ (by linarith) (by linarith)]; ring]
    push_cast; ring_nf
  by_cases s4 : h < 4 / 6
  · rw [if_neg (by intro hh; linarith [hh.2]), if_neg (by intro hh; linarith [hh.2]),
      if_neg (by intro hh; linarith [hh.2]), if_pos ⟨by linarith, by linarith⟩,
      tr 1 (by norm_num) (by push_cast; linarith) (by push_cast; linarith)]
    rw [abs_of_nonneg (by push_cast; linarith)]
    rw [show hueRed h = 0 from c2 _ (by rw [abs_of_nonneg (by linarith)]; linarith),
      show hueGreen h = 4 - 6 * h from by
        unfold hueGreen; rw [abs_of_nonneg (by linarith), c3 _ (by linarith) (by linarith)]; ring,
      show hueBlue h = 1 from c1 _ (by rw [abs_of_nonpos (by linarith)]; linarith)]
    push_cast; ring_nf
  by_cases s5 : h < 5 / 6
  · rw [if_neg (by intro hh; linarith [hh.2]), if_neg (by intro hh; linarith [hh.2]),
      if_neg (by intro hh; linarith [hh.2]), if_neg (by intro hh; linarith [hh.2]), if_pos ⟨by linarith, by linarith⟩,
      tr 2 (by norm_num) (by push_cast; linarith) (by push_cast; linarith)]
    rw [abs_of_nonpos (by push_cast; linarith)]
    rw [show hueRed h = 6 * h - 4 from by
        unfold hueRed; rw [abs_of_nonneg (by linarith), c3 _ (by linarith) (by linarith)]; ring,
      show hueGreen h = 0 from c2 _ (by rw [abs_of_nonneg (by linarith)]; linarith),
      show hueBlue h = 1 from c1 _ (by rw [abs_of_nonneg (by linarith)]; linarith)]
    push_cast; ring_nf
  · rw [if_neg (by intro hh; linarith [hh.2]), if_neg (by intro hh; linarith [hh.2]),
      if_neg (by intro hh; linarith [hh.2]), if_neg (by intro hh; linarith [hh.2]), if_neg (by intro hh; linarith [hh.2]),
      tr 2 (by norm_num) (by push_cast; linarith) (by push_cast; linarith)]
    rw [abs_of_nonneg (by push_cast; linarith)]
    rw [show hueRed h = 1 from c1 _ (by rw [abs_of_nonneg (by linarith)]; linarith),
      show hueGreen h = 0 from c2 _ (by rw [abs_of_nonneg (by linarith)]; linarith),
      show hueBlue h = 6 - 6 * h from by
        unfold hueBlue; rw [abs_of_nonneg (by linarith), c3 _ (by linarith) (by linarith)]; ring]
    push_cast; ring_nf

/-- C102. The image of the Voronoi diagram, after Update of a diagram with any history: the pixel in column `x`, line `j`
from the top, shows the cell `(x, columns - 1 - j)`. It is black where the map is occupied and where no obstacle is known;
elsewhere, if the nearest obstacle reported for the cell is still on the map, its hue tells the value of this obstacle (and
differs from the one of obstacles of other values) and its brightness is one minus the potential. -/
theorem C102_gvd_image {rows columns : Int} {ops : List ObstDistMap.Op} {occ occ' : Cell → Int} {g g' : GVD}
    (r : ObstDistMap.Run (.new rows columns) ops g.maps) (u : GVD.Update occ' g g') (hres : 0 < g.map.resolution) :
    ∃ n : Int, (∀ c, InRect rows columns c → occ c < n) ∧
    ∀ (x j : Nat), (x : Int) < rows → (j : Int) < columns →
      let c : Cell := ⟨(x : Int), columns - 1 - j⟩
      let o := g'.maps.core.obst c
      let pix := pixelAt (g'.visualize occ).data rows.toNat x j
      (0 ≤ occ c → pix = [0, 0, 0]) ∧ (o = Cell.invalid → pix = [0, 0, 0]) ∧
      (occ c < 0 → o ≠ Cell.invalid → 0 ≤ occ o →
        let h : ℝ := occ o / n
        let v := 1 - g'.cost c
        0 ≤ h ∧ h < 1 ∧ 0 ≤ v ∧ v ≤ 1 ∧
        pix = [⌊v * hueRed h * 255⌋₊, ⌊v * hueGreen h * 255⌋₊, ⌊v * hueBlue h * 255⌋₊]) := by
  obtain ⟨m1, r1, hcore, -⟩ := u.run r
  have rr : DistMap.Run (.new rows columns) (obstacleCalls (ops ++ [.update occ'])) g'.maps.core := by
    rw [hcore]; exact (C34_linked_maps r1).1
  obtain ⟨hsr, hsc⟩ := DistMap.run_size rr
  obtain ⟨N, hN⟩ : ∃ N, GVD.maxOccupancy occ rows.toNat columns.toNat = N := ⟨_, rfl⟩
  have hmax := (maxOccupancy_le (occ := occ) (w := rows.toNat) (h := columns.toNat) (u := N)).mp (le_of_eq hN)
  have hub : ∀ c, InRect rows columns c → occ c ≤ N := by
    rintro ⟨a, b⟩ ⟨h1, h2, h3, h4⟩
    have := hmax.2 a.toNat (List.mem_range.mpr (by simp_all)) b.toNat (List.mem_range.mpr (by simp_all))
    simp only at h1 h3
    rwa [Int.toNat_of_nonneg h1, Int.toNat_of_nonneg h3] at this
  refine ⟨N + 1, fun c hc => by have := hub c hc; omega, ?_⟩
  intro x j hx hj c o pix
  have hxr : x < g'.maps.core.rows.toNat := by rw [hsr]; omega
  have hjc : j < g'.maps.core.columns.toNat := by rw [hsc]; omega
  have hc : InRect rows columns c := ⟨by simp [c], hx, by simp [c]; omega, by simp [c]; omega⟩
  have hcell : (⟨(x : Int), ((columns.toNat - 1 - j : Nat) : Int)⟩ : Cell) = c := by
    simp only [c]; congr 1; omega
  have hpix : pix = g'.pixel occ N c := by
    have := gvd_pixelAt g' occ hxr hjc
    rw [hsr, hsc, hN, hcell] at this
    exact this
  rw [hpix]
  unfold GVD.pixel
  refine ⟨fun h => by rw [if_pos h]; rfl, fun h => ?_, fun hfree hne hocc => ?_⟩
  · have : (g'.maps.core.obst c).isValid = false := by show o.isValid = false; rw [h]; rfl
    rw [this]
    split <;> rfl
  · rw [if_neg (by omega)]
    have ho : InRect rows columns o := by
      rcases C34_distance_of_reported_obstacle rr c hc with h | h
      · exact absurd h.1 hne
      · exact h.1
    have hval : (g'.maps.core.obst c).isValid = true := by
      show o.isValid = true
      unfold Cell.isValid
      simpa using ⟨ho.1, ho.2.2.1⟩
    have hN0 := hmax.1
    have hoN := hub o ho
    have hpos : (0 : ℝ) < ((N + 1 : Int) : ℝ) := by exact_mod_cast (by omega : (0 : Int) < N + 1)
    obtain ⟨hc0, hc1, -⟩ := C40_potential_map r u hres c hc
    have hh0 : (0 : ℝ) ≤ (occ o : ℝ) / ((N + 1 : Int) : ℝ) := div_nonneg (by exact_mod_cast hocc) (le_of_lt hpos)
    have hh1 : (occ o : ℝ) / ((N + 1 : Int) : ℝ) < 1 := by
      rw [div_lt_one hpos]; exact_mod_cast (by omega : occ o < N + 1)
    refine ⟨hh0, hh1, by linarith, by linarith, ?_⟩
    simp only [hval, Bool.not_true, Bool.false_eq_true, if_false]
    rw [min_eq_left (by linarith), max_eq_right (by linarith)]
    show rgb (hsvToRgb ((occ o : ℝ) / ((N + 1 : Int) : ℝ)) 1 (1 - g'.cost c)) = _
    rw [C102_hue _ _ hh0 hh1 (by linarith)]
    have cl : ∀ t : ℝ, 0 ≤ clip t ∧ clip t ≤ 1 := fun t =>
      ⟨le_max_left _ _, max_le zero_le_one (min_le_right _ _)⟩
    have key : ∀ t : ℝ, toByte ⌊(1 - g'.cost c) * clip t * 255⌋ = ⌊(1 - g'.cost c) * clip t * 255⌋₊ := by
      intro t
      obtain ⟨ht0, ht1⟩ := cl t
      have hp : 0 ≤ (1 - g'.cost c) * clip t := mul_nonneg (by linarith) ht0
      have hq : (1 - g'.cost c) * clip t ≤ 1 := by nlinarith
      rw [← truncInt_of_nonneg (by linarith), toByte_trunc (by linarith) (by linarith)]
    unfold rgb hueRed hueGreen hueBlue
    simp only [key]

/-- C102: a cell whose reported obstacle has been removed from the map (C35) gets no hue: the value -1 of the free map gives
a negative hue, here between the values 0 and -1 of two obstacles, and a channel below 0 that wraps around in the file. -/
theorem C102_no_hue_for_removed_obstacles : rgb (hsvToRgb (-1 / 2) 1 1) = [255, 0, 1] := by
  have hf : fmodR ((-1 / 2 : ℝ) * 360 / 60) 2 = -1 := by
    unfold fmodR truncInt
    rw [show ((-1 / 2 : ℝ) * 360 / 60 / 2) = -3 / 2 by norm_num, if_neg (by norm_num),
      show ⌈(-3 / 2 : ℝ)⌉ = -1 by rw [Int.ceil_eq_iff]; norm_num]
    norm_num
  unfold hsvToRgb
  simp only [hf]
  norm_num
  unfold rgb truncInt
  norm_num
  decide

/-- A 3 × 3 map with a blocked centre meets the hypotheses on the heuristic. -/
example : (1 : ℝ) ≤ √2 ∧ Inside ⟨3, 3, fun c => decide (c = ⟨1, 1⟩)⟩ ⟨0, 2⟩ :=
  ⟨Real.one_le_sqrt.mpr (by norm_num), by unfold Inside; decide⟩

/-- A diagram with two obstacles of the values 0 and 1 meets the hypotheses: there are a cell with a hue and a black one. -/
example : ∃ (g g' : GVD) (ops : List ObstDistMap.Op) (occ : Cell → Int), ObstDistMap.Run (.new 4 5) ops g.maps ∧
    GVD.Update (fun c => c.row) g g' ∧ 0 < g.map.resolution ∧ 0 ≤ occ ⟨0, 0⟩ ∧
    occ ⟨0, 1⟩ < 0 ∧ g'.maps.core.obst ⟨0, 1⟩ ≠ Cell.invalid ∧ 0 ≤ occ (g'.maps.core.obst ⟨0, 1⟩) := by
  obtain ⟨g, g', ops, rfl, r, u, hres, hex⟩ := GVD.update_example
  obtain ⟨m1, r1, hcore, -⟩ := u.run r
  have rr := (C34_linked_maps r1).1
  rw [← hcore] at rr
  have hcalls : obstacleCalls ([.link, .set ⟨0, 0⟩, .set ⟨2, 3⟩] ++ [.update fun c => c.row]) =
      ([.set ⟨0, 0⟩, .set ⟨2, 3⟩] : List DistMap.Op) ++ [.update] := rfl
  rw [hcalls] at rr
  have hc : InRect 4 5 ⟨0, 1⟩ := by unfold InRect; decide
  obtain ⟨d, -, hin⟩ := C36_every_cell_sees_an_obstacle rr ⟨⟨0, 0⟩, Or.inl (Or.inr rfl)⟩ ⟨0, 1⟩ hc
  have hne : g'.maps.core.obst ⟨0, 1⟩ ≠ Cell.invalid := by
    intro h
    rw [h] at hin
    exact absurd hin.1 (by decide)
  refine ⟨g, g', _, fun c => if c = ⟨0, 0⟩ then 0 else if c = ⟨2, 3⟩ then 1 else -1, r, u, hres, by decide, by decide, hne, ?_⟩
  rcases C35_no_removal_partial rr (by intro s; simp) ⟨0, 1⟩ hc with h | h
  · exact absurd h hne
  · rcases h with (h | h) | h
    · exact h.elim
    · rw [h]; decide
    · rw [h]; decide

end PathPlanning
