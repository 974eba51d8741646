import Verif.Model.FloatHeuristic
import Verif.Lemmas.ObstHeuristic
import Verif.Lemmas.FloatRel
import Verif.Spec.ObstHeuristic
import Mathlib.Tactic.Linarith
import Mathlib.Tactic.Positivity
import Mathlib.Tactic.NormNum

/-! # C128: the obstacle heuristic with the arithmetic of the program -/

namespace PathPlanning.ObstHeuristic
open Flt Spec

theorem costLaws_F32 : CostLaws F32 := by
  refine ⟨fun a b c d h1 h2 => ?_, fun t x h => ?_⟩
  · exact fl_mono 24 (by norm_num) (add_le_add h1 h2)
  · have h : (0 : ℝ) ≤ t.val := h
    have h1 : fl 24 x.val ≤ fl 24 (t.val + x.val) := fl_mono 24 (by norm_num) (by linarith)
    have h2 : fl 24 x.val = x.val := x.2
    show x.val ≤ fl 24 (t.val + x.val)
    rw [h2] at h1; exact h1

private theorem sqrt_two_bounds : (1.414 : ℝ) ≤ √2 ∧ √2 ≤ 1.415 := by
  constructor
  · exact Real.le_sqrt_of_sq_le (by norm_num)
  · exact Real.sqrt_le_iff.mpr ⟨by norm_num, by norm_num⟩

theorem F32.sqrtTwo_bounds : 1 ≤ F32.sqrtTwo.val ∧ F32.sqrtTwo.val ≤ 3 / 2 := by
  obtain ⟨h1, h2⟩ := sqrt_two_bounds
  have h := abs_le.1 (fl_rel 24 √2)
  rw [abs_of_nonneg (by positivity)] at h
  show 1 ≤ fl 24 √2 ∧ fl 24 √2 ≤ 3 / 2
  constructor
  · have : ((2 : ℝ) ^ 24)⁻¹ * √2 ≤ 1 / 100 := by norm_num; linarith
    linarith
  · have : ((2 : ℝ) ^ 24)⁻¹ * √2 ≤ 1 / 100 := by norm_num; linarith
    linarith

private theorem one_le_sqrtTwo : (1 : F32) ≤ F32.sqrtTwo := F32.sqrtTwo_bounds.1

private theorem zero_le_one_F32 : (0 : F32) ≤ 1 := by
  show (0 : ℝ) ≤ 1
  norm_num

private theorem transition_eq (diag : F32) : transitionCost diag = moveLength diag := by
  funext a b
  unfold transitionCost moveLength
  by_cases h1 : a.row = b.row <;> by_cases h2 : a.col = b.col <;> simp [h1, h2]

/-- C128: `Update` with `float`s explores the cells that a collision-free walk connects with the goal cell; the value of an
explored cell is the sum of the lengths of the moves of such a walk, added in their order and rounded after each addition;
the other values are infinite. -/
theorem C128_update (m : GridMap) (goal : Cell) (hg : Inside m goal) :
    ∃ t, updateF m goal = some t ∧
      (∀ c, t.explored c = true ↔ ∃ l, Walk m goal l c) ∧
      (∀ c, t.explored c = true → ∃ (x : F32) (l : List Cell), t.cost c = x ∧ Walk m goal l c ∧
        accumulated (moveLength F32.sqrtTwo) 0 l = x) ∧
      (∀ c, t.explored c = false → t.cost c = ⊤) ∧ t.cost goal = 0 := by
  obtain ⟨s, h1, h2⟩ := update_good costLaws_F32 zero_le_one_F32 one_le_sqrtTwo hg
  have hk : ∀ c, s.tables.cost c ≠ ⊤ ↔ s.tables.explored c = true := by
    intro c
    rw [h2.known]
    unfold Known
    simp
  have hfin : ∀ c, s.tables.explored c = true → ∃ (x : F32) (l : List Cell), s.tables.cost c = x ∧ Walk m goal l c ∧
        accumulated (moveLength F32.sqrtTwo) 0 l = x := by
    intro c hc
    obtain ⟨x, hx⟩ := WithTop.ne_top_iff_exists.mp ((hk c).mpr hc)
    obtain ⟨l, hl, hlx⟩ := h2.path c x hx.symm
    exact ⟨x, l, hx.symm, hl, by rw [← transition_eq]; exact hlx⟩
  refine ⟨_, h1, fun c => ⟨fun hc => ?_, fun ⟨l, hl⟩ => ?_⟩, hfin, fun c hc => ?_, h2.cost_start⟩
  · obtain ⟨x, l, -, hl, -⟩ := hfin c hc
    exact ⟨l, hl⟩
  · refine (explored_of_walk costLaws_F32 h2 hl ?_).1
    rw [← hk, h2.cost_start]
    exact WithTop.zero_ne_top
  · by_contra hne
    rw [(hk c).mp hne] at hc
    cases hc

/-- The value of a cell is at most what any walk to it costs if all its moves cost a diagonal. -/
private theorem cost_le {m : GridMap} {goal : Cell} (hg : Inside m goal) {t : HeurTables F32} (ht : updateF m goal = some t)
    {c : Cell} {x : F32} (hx : t.cost c = x) {l : List Cell} (hl : Walk m goal l c) :
    x ≤ accumulated (fun _ _ => F32.sqrtTwo) 0 l := by
  obtain ⟨s, h1, h2⟩ := update_good costLaws_F32 zero_le_one_F32 one_le_sqrtTwo hg
  have ht' : update m F32.sqrtTwo goal = some t := ht
  rw [h1] at ht'
  injection ht' with ht'
  subst ht'
  have hge : s.tables.explored goal = true := by
    have := (h2.known goal).mp (by rw [h2.cost_start]; exact WithTop.zero_ne_top)
    rcases this with h | ⟨v, hv⟩
    · exact h
    · cases hv
  have h6 := (explored_of_walk costLaws_F32 h2 hl hge).2 0 h2.cost_start.le
  rw [hx] at h6
  exact WithTop.coe_le_coe.mp h6

/-- `2⁻²⁴`, the relative error of an operation on `float`s. -/
noncomputable abbrev u24 : ℝ := (2 ^ 24)⁻¹

private theorem u24_pos : (0 : ℝ) < u24 ∧ u24 < 1 := by unfold u24; norm_num

/-- The error of a sum accumulated along a walk, of moves whose lengths have a relative error of `2⁻²⁴`. -/
private theorem accumulated_error {f : Cell → Cell → F32} {g : Cell → Cell → ℝ} (hg : ∀ a b, 0 ≤ g a b)
    (hf : ∀ a b, |(f a b).val - g a b| ≤ u24 * g a b) :
    ∀ (l : List Cell) (x : F32) (r : ℝ) (k : ℕ), 1 ≤ k → 0 ≤ r → (1 - u24) ^ k * r ≤ x.val → x.val ≤ (1 + u24) ^ k * r →
      (1 - u24) ^ (k + (l.length - 1)) * (r + walkCost g l) ≤ (accumulated f x l).val ∧
      (accumulated f x l).val ≤ (1 + u24) ^ (k + (l.length - 1)) * (r + walkCost g l) := by
  obtain ⟨hu, hu1⟩ := u24_pos
  obtain ⟨u, hU⟩ : ∃ u, u = u24 := ⟨_, rfl⟩
  rw [← hU] at hu hu1 hf ⊢
  intro l
  induction l with
  | nil => intro x r k _ _ h1 h2; simpa [accumulated, walkCost] using ⟨h1, h2⟩
  | cons a l ih =>
    intro x r k hk hr h1 h2
    cases l with
    | nil => simpa [accumulated, walkCost] using ⟨h1, h2⟩
    | cons b l =>
      have hab := abs_le.1 (hf a b)
      have hg0 := hg a b
      have hup : 0 ≤ (1 - u) := by linarith
      have hlow : (1 - u) ^ k * g a b ≤ (f a b).val := by
        have : (1 - u) ^ k ≤ (1 - u) ^ 1 := pow_le_pow_of_le_one hup (by linarith) hk
        have := mul_le_mul_of_nonneg_right this hg0
        linarith
      have hhigh : (f a b).val ≤ (1 + u) ^ k * g a b := by
        have : (1 + u) ^ 1 ≤ (1 + u) ^ k := pow_le_pow_right₀ (by linarith) hk
        have := mul_le_mul_of_nonneg_right this hg0
        linarith
      have hpk : 0 ≤ (1 - u) ^ k := pow_nonneg hup k
      have hs0 : 0 ≤ (f a b).val + x.val := by
        have := mul_nonneg hpk hg0
        have := mul_nonneg hpk hr
        linarith
      have hrel := abs_le.1 (fl_rel 24 ((f a b).val + x.val))
      rw [abs_of_nonneg hs0] at hrel
      have hval : (f a b + x).val = fl 24 ((f a b).val + x.val) := rfl
      change -(u24 * _) ≤ _ ∧ _ ≤ u24 * _ at hrel
      rw [← hU, ← hval] at hrel
      have key := ih (f a b + x) (r + g a b) (k + 1) (by omega) (by linarith) ?_ ?_
      · rw [accumulated, walkCost]
        have e1 : k + ((a :: b :: l).length - 1) = k + 1 + ((b :: l).length - 1) := by simp; omega
        have e2 : r + (g a b + walkCost g (b :: l)) = r + g a b + walkCost g (b :: l) := by ring
        rw [e1, e2]
        exact key
      · rw [pow_succ]
        have : (1 - u) * ((1 - u) ^ k * (r + g a b)) ≤ (1 - u) * ((f a b).val + x.val) := by
          apply mul_le_mul_of_nonneg_left _ hup
          linarith
        linarith
      · rw [pow_succ]
        have : (1 + u) * ((f a b).val + x.val) ≤ (1 + u) * ((1 + u) ^ k * (r + g a b)) := by
          apply mul_le_mul_of_nonneg_left _ (by linarith)
          linarith
        linarith

private theorem move_error (a b : Cell) :
    |(moveLength F32.sqrtTwo a b).val - moveLength √2 a b| ≤ u24 * moveLength √2 a b := by
  unfold moveLength
  split
  · have := fl_rel 24 √2
    rw [abs_of_nonneg (Real.sqrt_nonneg 2)] at this
    exact this
  · show |(1 : ℝ) - 1| ≤ _
    have := u24_pos.1
    rw [sub_self, abs_zero]
    linarith

private theorem move_bounds (a b : Cell) : 1 ≤ moveLength √2 a b ∧ moveLength √2 a b ≤ √2 := by
  obtain ⟨h1, h2⟩ := sqrt_two_bounds
  unfold moveLength
  split
  · exact ⟨by linarith, le_rfl⟩
  · exact ⟨le_rfl, by linarith⟩

private theorem walkCost_mono {f g : Cell → Cell → ℝ} (h : ∀ a b, f a b ≤ g a b) : ∀ l, walkCost f l ≤ walkCost g l := by
  intro l
  induction l with
  | nil => exact le_rfl
  | cons a l ih =>
    cases l with
    | nil => exact le_rfl
    | cons b l => exact add_le_add (h a b) ih

private theorem walkCost_scale (d : ℝ) {f : Cell → Cell → ℝ} : ∀ l, walkCost (fun a b => d * f a b) l = d * walkCost f l := by
  intro l
  induction l with
  | nil => simp [walkCost]
  | cons a l ih =>
    cases l with
    | nil => simp [walkCost]
    | cons b l => rw [walkCost, walkCost, ih]; ring

/-- C128: the value of an explored cell differs from the exact length of a collision-free walk of `n` moves between the
goal cell and the cell by a factor between `(1 - 2⁻²⁴)ⁿ⁺¹` and `(1 + 2⁻²⁴)ⁿ⁺¹`. -/
theorem C128_error (m : GridMap) (goal : Cell) (hg : Inside m goal) :
    ∃ t, updateF m goal = some t ∧ ∀ c, t.explored c = true → ∃ (x : F32) (l : List Cell) (n : ℕ), t.cost c = x ∧
      Walk m goal l c ∧ l.length = n + 1 ∧
      (1 - (2 ^ 24)⁻¹) ^ (n + 1) * walkCost (moveLength √2) l ≤ x.val ∧
      x.val ≤ (1 + (2 ^ 24)⁻¹) ^ (n + 1) * walkCost (moveLength √2) l := by
  obtain ⟨t, h1, -, h3, -⟩ := C128_update m goal hg
  refine ⟨t, h1, fun c hc => ?_⟩
  obtain ⟨x, l, hx, hl, hlx⟩ := h3 c hc
  obtain ⟨n, hn⟩ : ∃ n, l.length = n + 1 := by cases hl <;> exact ⟨_, rfl⟩
  have key := accumulated_error (fun a b => (by linarith [(move_bounds a b).1] : 0 ≤ moveLength √2 a b)) move_error l 0 0 1
    le_rfl le_rfl (by rw [mul_zero]; exact le_rfl) (by rw [mul_zero]; exact le_rfl)
  rw [hlx, hn, zero_add, Nat.add_sub_cancel, add_comm 1 n] at key
  exact ⟨x, l, n, hx, hl, hn, key.1, key.2⟩

/-- C128: the value of a cell is at most `√2 (1 + 2⁻²⁴)ⁿ⁺¹` times the exact length of any collision-free walk of `n` moves
between the goal cell and the cell. -/
theorem C128_at_most_diag_times_the_shortest (m : GridMap) (goal : Cell) (hg : Inside m goal) :
    ∃ t, updateF m goal = some t ∧ ∀ c l n, Walk m goal l c → l.length = n + 1 → ∃ x : F32, t.cost c = x ∧
      x.val ≤ √2 * (1 + (2 ^ 24)⁻¹) ^ (n + 1) * walkCost (moveLength √2) l := by
  obtain ⟨t, h1, h2, h3, -⟩ := C128_update m goal hg
  refine ⟨t, h1, fun c l n hl hn => ?_⟩
  obtain ⟨x, -, hx, -⟩ := h3 c ((h2 c).mpr ⟨l, hl⟩)
  refine ⟨x, hx, ?_⟩
  have hle : x.val ≤ (accumulated (fun _ _ => F32.sqrtTwo) 0 l).val := cost_le hg h1 hx hl
  have key := (accumulated_error (f := fun _ _ => F32.sqrtTwo) (g := fun _ _ => √2) (fun _ _ => Real.sqrt_nonneg 2)
    (fun _ _ => by
      have := fl_rel 24 √2
      rw [abs_of_nonneg (Real.sqrt_nonneg 2)] at this
      exact this) l 0 0 1
    le_rfl le_rfl (by rw [mul_zero]; exact le_rfl) (by rw [mul_zero]; exact le_rfl)).2
  rw [hn, zero_add, Nat.add_sub_cancel, add_comm 1 n] at key
  have h5 : walkCost (fun _ _ => √2) l ≤ √2 * walkCost (moveLength √2) l := by
    rw [← walkCost_scale]
    apply walkCost_mono
    intro a b
    have := mul_le_mul_of_nonneg_left (move_bounds a b).1 (Real.sqrt_nonneg 2)
    linarith
  have hp : (0 : ℝ) ≤ (1 + u24) ^ (n + 1) := pow_nonneg (by linarith [u24_pos.1]) _
  have := mul_le_mul_of_nonneg_left h5 hp
  have h6 := hle.trans (key.trans this)
  calc x.val ≤ _ := h6
    _ = √2 * (1 + (2 ^ 24)⁻¹) ^ (n + 1) * walkCost (moveLength √2) l := by unfold u24; ring

/-! ## Saturation -/

private theorem two_pow_fix {d : ℝ} (h0 : 0 ≤ d) (h1 : d < 2) : fl 24 (d + 2 ^ 25) = 2 ^ 25 := by
  have := fl_eq (p := 24) (x := d + 2 ^ 25) (n := 2 ^ 23) (e := 2) (by
    rw [abs_of_nonneg (by positivity)]; norm_num; linarith) (by
    rw [abs_of_nonneg (by positivity)]; norm_num; linarith) (by
    norm_num
    rw [abs_of_nonneg h0]; exact h1)
  rw [this]; norm_num

/-- C128: values do not grow beyond 33554432, however long the walks are; in particular they never overflow. -/
theorem C128_saturates (m : GridMap) (goal : Cell) (hg : Inside m goal) :
    ∃ t, updateF m goal = some t ∧ ∀ (c : Cell) (x : F32), t.cost c = x → 0 ≤ x.val ∧ x.val ≤ 33554432 := by
  obtain ⟨t, h1, h2, h3, h4, -⟩ := C128_update m goal hg
  refine ⟨t, h1, fun c x hx => ?_⟩
  have hex : t.explored c = true := by
    cases h : t.explored c with
    | true => rfl
    | false => rw [h4 c h] at hx; exact absurd hx WithTop.top_ne_coe
  obtain ⟨x', l, hx', hl, hlx⟩ := h3 c hex
  rw [hx] at hx'
  have hx' := WithTop.coe_injective hx'
  subst hx'
  rw [← hlx]
  obtain ⟨hd1, hd2⟩ := F32.sqrtTwo_bounds
  have hm : ∀ a b, 0 ≤ (moveLength F32.sqrtTwo a b).val ∧ (moveLength F32.sqrtTwo a b).val < 2 := by
    intro a b
    unfold moveLength
    split
    · exact ⟨by linarith, by linarith⟩
    · show (0 : ℝ) ≤ 1 ∧ (1 : ℝ) < 2
      norm_num
  have key : ∀ (l : List Cell) (y : F32), 0 ≤ y.val → y.val ≤ 33554432 →
      0 ≤ (accumulated (moveLength F32.sqrtTwo) y l).val ∧ (accumulated (moveLength F32.sqrtTwo) y l).val ≤ 33554432 := by
    intro l
    induction l with
    | nil => intro y h0 h1; exact ⟨h0, h1⟩
    | cons a l ih =>
      intro y h0 h1
      cases l with
      | nil => exact ⟨h0, h1⟩
      | cons b l =>
        obtain ⟨h5, h6⟩ := hm a b
        refine ih _ (fl_nonneg 24 (by linarith)) ?_
        have h7 : fl 24 ((moveLength F32.sqrtTwo a b).val + y.val) ≤ fl 24 ((moveLength F32.sqrtTwo a b).val + 2 ^ 25) :=
          fl_mono 24 (by norm_num) (by norm_num; exact h1)
        rw [two_pow_fix h5 h6] at h7
        refine le_trans h7 (by norm_num)
  exact key l 0 le_rfl (show (0 : ℝ) ≤ 33554432 by norm_num)

private theorem add_one_small {n : ℕ} (h : n < 2 ^ 24) : fl 24 (1 + (n : ℝ)) = n + 1 := by
  have := fl_int (p := 24) (by norm_num) (n := (n : ℤ) + 1) (by
    rw [abs_of_nonneg (by positivity)]; exact_mod_cast h)
  push_cast at this
  rw [add_comm]; exact this

private theorem add_one_large : fl 24 (1 + (2 : ℝ) ^ 24) = 2 ^ 24 := by
  have h1 : lastBit 24 (1 + 2 ^ 24) = 1 := lastBit_eq (by
    rw [abs_of_nonneg (by positivity)]; norm_num) (by rw [abs_of_nonneg (by positivity)]; norm_num)
  unfold fl
  rw [h1]
  have hfl : ⌊((1 : ℝ) + 2 ^ 24) / 2 ^ (1 : ℤ)⌋ = 8388608 := by
    rw [Int.floor_eq_iff]; norm_num
  have : rne ((1 + 2 ^ 24) / 2 ^ (1 : ℤ)) = 8388608 := by
    unfold rne
    rw [hfl, if_neg (by norm_num), if_neg (by norm_num), if_pos (by decide)]
  rw [this]; norm_num

/-- The value after `n` straight moves. -/
private theorem accumulated_straight {f : Cell → Cell → F32} : ∀ (l : List Cell) (k : ℕ) (x : F32),
    (∀ a ∈ l, ∀ b ∈ l, f a b = 1) → x.val = (min k (2 ^ 24) : ℕ) →
    (accumulated f x l).val = (min (k + (l.length - 1)) (2 ^ 24) : ℕ) := by
  intro l
  induction l with
  | nil => intro k x _ hx; exact hx
  | cons a l ih =>
    intro k x hf hx
    cases l with
    | nil => exact hx
    | cons b l =>
      rw [accumulated, hf a (by simp) b (by simp)]
      have e1 : k + ((a :: b :: l).length - 1) = k + 1 + ((b :: l).length - 1) := by simp; omega
      rw [e1]
      refine ih (k + 1) _ (fun c hc d hd => hf c (List.mem_cons_of_mem _ hc) d (List.mem_cons_of_mem _ hd)) ?_
      show fl 24 (1 + x.val) = _
      rw [hx]
      rcases lt_or_ge k (2 ^ 24) with h | h
      · rw [min_eq_left h.le, min_eq_left (by omega), add_one_small h]; push_cast; ring
      · rw [min_eq_right h, min_eq_right (by omega)]
        have h24 := add_one_large
        rw [show (2 : ℝ) ^ 24 = 16777216 by norm_num] at h24
        push_cast
        exact h24

/-- C128: in a corridor (a map of one row without obstacles), all cells at least 16777216 cells away from the goal have the
value 16777216: adding 1 to it does not change a `float`. The values do not guide the search there. -/
theorem C128_corridor_saturates (columns : Int) (hc : 0 < columns) :
    ∃ t, updateF ⟨1, columns, fun _ => false⟩ ⟨0, 0⟩ = some t ∧
      ∀ k : Int, 16777216 ≤ k → k < columns → ∃ x : F32, t.cost ⟨0, k⟩ = x ∧ x.val = 16777216 := by
  obtain ⟨m, hm⟩ : ∃ m : GridMap, m = ⟨1, columns, fun _ => false⟩ := ⟨_, rfl⟩
  rw [← hm]
  have hin : ∀ c, Inside m c ↔ c.row = 0 ∧ 0 ≤ c.col ∧ c.col < columns := by
    intro c; rw [hm]; unfold Inside; dsimp only; omega
  have hg : Inside m ⟨0, 0⟩ := (hin _).mpr ⟨rfl, le_rfl, hc⟩
  obtain ⟨t, h1, h2, h3, -⟩ := C128_update m ⟨0, 0⟩ hg
  refine ⟨t, h1, fun k hk hkc => ?_⟩
  -- the corridor itself is a walk
  have hwalk : ∀ n : ℕ, (n : Int) < columns → ∃ l, Walk m ⟨0, 0⟩ l ⟨0, n⟩ := by
    intro n
    induction n with
    | zero => intro _; exact ⟨_, .stop _⟩
    | succ n ih =>
      intro hn
      push_cast at hn
      obtain ⟨l, hl⟩ := ih (by omega)
      refine ⟨_, (walk_snoc (K := F32) (fun _ _ => 1) hl ?_).1⟩
      refine ⟨⟨(hin _).mpr ⟨rfl, by positivity, by push_cast; exact hn⟩, by rw [hm]⟩, ?_, fun h => absurd rfl h⟩
      unfold chebyshev
      push_cast
      simp
  -- walks stay in the row, and a move changes the column by at most 1
  have hrow : ∀ {a b : Cell} {l : List Cell}, Walk m a l b → a.row = 0 →
      (∀ c ∈ l, c.row = 0) ∧ b.col - a.col ≤ (l.length - 1 : ℕ) := by
    intro a b l hw
    induction hw with
    | stop a => intro ha; exact ⟨by simp [ha], by simp⟩
    | @move x y z l hmv hw ih =>
      intro hx
      have hy := ((hin y).mp hmv.1.1).1
      obtain ⟨h5, h6⟩ := ih hy
      refine ⟨?_, ?_⟩
      · intro c hcm
        rcases List.mem_cons.mp hcm with rfl | hcm
        · exact hx
        · exact h5 c hcm
      · have hch := hmv.2.1
        unfold chebyshev at hch
        have h7 : |x.col - y.col| ≤ 1 := by rw [← hch]; exact le_max_right _ _
        have h8 := abs_le.1 h7
        obtain ⟨n, hn⟩ : ∃ n, l.length = n + 1 := by cases hw <;> exact ⟨_, rfl⟩
        rw [List.length_cons, hn]
        rw [hn] at h6
        omega
  have hkn : ((k.toNat : ℕ) : Int) = k := Int.toNat_of_nonneg (by omega)
  obtain ⟨l0, hl0⟩ := hwalk k.toNat (by omega)
  rw [hkn] at hl0
  obtain ⟨x, l, hx, hl, hlx⟩ := h3 ⟨0, k⟩ ((h2 _).mpr ⟨l0, hl0⟩)
  refine ⟨x, hx, ?_⟩
  obtain ⟨h5, h6⟩ := hrow hl rfl
  have key := accumulated_straight (f := moveLength F32.sqrtTwo) l 0 0 (fun a ha b hb => by
    unfold moveLength
    rw [if_neg]
    rintro ⟨h7, -⟩
    exact h7 ((h5 a ha).trans (h5 b hb).symm)) (by show (0 : ℝ) = _; simp)
  rw [hlx, zero_add, min_eq_right (by dsimp only at h6; omega)] at key
  rw [key]; norm_num

/-! ## The value -/

theorem euclideanF_nonneg (a b : Pt) : 0 ≤ euclideanF a b := by
  unfold euclideanF
  exact fl_nonneg 53 (Real.sqrt_nonneg _)

/-- C128: the straight-line distance is the exact one up to a relative error of 2^-50. -/
theorem C128_straight_line (a b : Pt) :
    |euclideanF a b - √((a.x - b.x) ^ 2 + (a.y - b.y) ^ 2)| ≤ (2 ^ 50)⁻¹ * √((a.x - b.x) ^ 2 + (a.y - b.y) ^ 2) := by
  suffices h : Rel (2 ^ 50)⁻¹ √((a.x - b.x) ^ 2 + (a.y - b.y) ^ 2) (euclideanF a b) by
    rw [abs_le]; constructor <;> linarith [h.1, h.2]
  have sq : ∀ x : ℝ, Rel (2 ^ 51)⁻¹ (x ^ 2) (fl64 (fl64 x * fl64 x)) := by
    intro x
    have e : fl64 x * fl64 x = fl64 |x| * fl64 |x| := by
      rcases abs_choice x with h | h
      · rw [h]
      · rw [h, show fl64 (-x) = -fl64 x from fl_neg 53 x]; ring
    have e2 : x ^ 2 = |x| * |x| := by rw [← sq_abs]; ring
    rw [e, e2]
    have h0 := abs_nonneg x
    have h1 := mul_nonneg h0 h0
    have r1 := Rel.fl 53 h0
    have r2 := Rel.mul h0 h0 r1 r1 (by positivity) (by norm_num) (by positivity) (by norm_num)
    have n2 := r2.nonneg h1 (by norm_num)
    have r3 := r2.trans h1 (Rel.fl 53 n2) (by positivity) (by norm_num) (by positivity) (by norm_num)
    exact r3.mono h1 (by norm_num)
  have r1 := (sq (a.x - b.x)).add (sq (a.y - b.y))
  have h0 : 0 ≤ (a.x - b.x) ^ 2 + (a.y - b.y) ^ 2 := by positivity
  have n1 := r1.nonneg h0 (by norm_num)
  have r2 := r1.trans h0 (Rel.fl 53 n1) (by positivity) (by norm_num) (by positivity) (by norm_num)
  have r3 := r2.sqrt h0 (by positivity) (by norm_num)
  have r4 := r3.trans (Real.sqrt_nonneg _) (Rel.fl 53 (Real.sqrt_nonneg _)) (by positivity) (by norm_num) (by positivity)
    (by norm_num)
  exact r4.mono (Real.sqrt_nonneg _) (by norm_num)

private theorem validF {frame : OccMap} (p : Pt) (h : (frame.worldPositionToGridCellF p true).isValid = true) :
    frame.isInsideCell (frame.worldPositionToGridCellF p true) = true := by
  unfold OccMap.worldPositionToGridCellF OccMap.gridPositionToGridCellF at h ⊢
  dsimp only at h ⊢
  rw [if_neg (by simp)] at h ⊢
  split
  · rename_i h1; exact h1
  · rename_i h1
    rw [if_neg h1] at h
    simp [Cell.isValid] at h

/-- C128: after `Update` the value is defined for every state: it is the rounded straight-line distance outside the map and
in cells not connected with the goal cell, it is never less than that distance, and elsewhere it is the greater of that
distance and of `cost · costMultiplier - diagonalResolution`, up to two roundings. -/
theorem C128_value (frame : OccMap) (occ : Cell → Bool) (reverseCost forwardCost : ℝ) (hr : 0 ≤ reverseCost)
    (hf : 0 ≤ forwardCost) (hres : 0 ≤ frame.resolution) (goal state : PoseR) :
    ∃ t v, updatePoseF frame occ goal = some t ∧
      getHeuristicValueF frame reverseCost forwardCost t goal state = some v ∧
      euclideanF goal.position state.position ≤ v ∧
      (v = euclideanF goal.position state.position ∨ ∃ x : F32,
        t.cost (frame.worldPositionToGridCellF state.position true) = x ∧ 0 ≤ x.val ∧ x.val ≤ 33554432 ∧
        v ≤ (1 + (2 ^ 24)⁻¹) * ((1 + (2 ^ 24)⁻¹) * (x.val * costMultiplierF reverseCost forwardCost frame.resolution) -
          diagonalResolutionF frame.resolution)) ∧
      ((¬ ∃ l, Walk ⟨frame.rows, frame.columns, occ⟩ (frame.worldPositionToGridCellF goal.position true) l
          (frame.worldPositionToGridCellF state.position true)) →
        v = euclideanF goal.position state.position) ∧
      (frame.isInsideCell (frame.worldPositionToGridCellF goal.position true) = true →
        (∃ l, Walk ⟨frame.rows, frame.columns, occ⟩ (frame.worldPositionToGridCellF goal.position true) l
          (frame.worldPositionToGridCellF state.position true)) →
        ∃ x : F32, t.cost (frame.worldPositionToGridCellF state.position true) = x ∧
          (1 - (2 ^ 24)⁻¹) * ((1 - (2 ^ 24)⁻¹) * (x.val * costMultiplierF reverseCost forwardCost frame.resolution) -
            diagonalResolutionF frame.resolution) ≤ v) := by
  obtain ⟨m, hm⟩ : ∃ m : GridMap, m = ⟨frame.rows, frame.columns, occ⟩ := ⟨_, rfl⟩
  obtain ⟨E, hE⟩ : ∃ E, E = euclideanF goal.position state.position := ⟨_, rfl⟩
  have hE0 : 0 ≤ E := by rw [hE]; exact euclideanF_nonneg _ _
  obtain ⟨cs, hcs⟩ : ∃ cs, cs = frame.worldPositionToGridCellF state.position true := ⟨_, rfl⟩
  obtain ⟨cg, hcg⟩ : ∃ cg, cg = frame.worldPositionToGridCellF goal.position true := ⟨_, rfl⟩
  have hin : ∀ c, frame.isInsideCell c = true → Inside m c := by
    intro c h
    rw [hm]
    simpa [OccMap.isInsideCell, Inside, and_assoc] using h
  have hvs : cs.isValid = true → frame.isInsideCell cs = true := by rw [hcs]; exact validF _
  have hvg : cg.isValid = true → frame.isInsideCell cg = true := by rw [hcg]; exact validF _
  unfold updatePoseF getHeuristicValueF
  rw [← hm, ← hE, ← hcs, ← hcg]
  dsimp only
  -- the tables
  have htab : ∃ t, updateF m cg = some t ∧ (frame.isInsideCell cg = true → ∀ c l, Walk m cg l c → t.explored c = true ∧
      Inside m c) ∧ (∀ c, t.explored c = true → ∃ l, Walk m cg l c) ∧
      ∀ c, t.explored c = true → ∃ x : F32, t.cost c = x ∧ 0 ≤ x.val ∧ x.val ≤ 33554432 := by
    cases hv : cg.isValid with
    | false =>
      refine ⟨cleared, by unfold updateF update; rw [hv]; rfl, fun h => ?_, fun c h => (by cases h), fun c h => (by cases h)⟩
      exfalso
      simp only [OccMap.isInsideCell, Bool.and_eq_true, decide_eq_true_eq] at h
      simp only [Cell.isValid, Bool.and_eq_false_iff, decide_eq_false_iff_not] at hv
      omega
    | true =>
      obtain ⟨t, h1, h2, h3, -⟩ := C128_update m cg (hin _ (hvg hv))
      obtain ⟨t', h1', h4⟩ := C128_saturates m cg (hin _ (hvg hv))
      rw [h1] at h1'
      injection h1' with h1'
      subst h1'
      refine ⟨t, h1, fun _ c l h => ⟨(h2 c).mpr ⟨l, h⟩, ?_⟩, fun c h => (h2 c).mp h, fun c h => ?_⟩
      · cases h with
        | stop => exact hin _ (hvg hv)
        | move h5 h6 =>
          have hend : ∀ {a b : Cell} {k : List Cell}, Walk m a k b → Inside m a → Inside m b := by
            intro a b k hk
            induction hk with
            | stop => exact fun h => h
            | move h7 _ ih => exact fun _ => ih h7.1.1
          exact hend h6 h5.1.1
      obtain ⟨x, -, hx, -⟩ := h3 c h
      exact ⟨x, hx, h4 c x hx⟩
  obtain ⟨t, ht, hwalk, hw, hx⟩ := htab
  refine ⟨t, ?_⟩
  cases hv : cs.isValid with
  | false =>
    refine ⟨E, ht, by simp, le_rfl, Or.inl rfl, fun _ => rfl, fun hi ⟨l, hl⟩ => ?_⟩
    exfalso
    have h := (hwalk hi cs l hl).2
    unfold Inside at h
    simp only [Cell.isValid, Bool.and_eq_false_iff, decide_eq_false_iff_not] at hv
    omega
  | true =>
    rw [hvs hv]
    cases he : t.explored cs with
    | false =>
      refine ⟨E, ht, by simp, le_rfl, Or.inl rfl, fun _ => rfl, fun hi ⟨l, hl⟩ => ?_⟩
      rw [(hwalk hi cs l hl).1] at he
      cases he
    | true =>
      obtain ⟨x, hxc, hx0, hx1⟩ := hx cs he
      rw [hxc]
      obtain ⟨C, hC⟩ : ∃ C, C = costMultiplierF reverseCost forwardCost frame.resolution := ⟨_, rfl⟩
      obtain ⟨D, hD⟩ : ∃ D, D = diagonalResolutionF frame.resolution := ⟨_, rfl⟩
      have hC0 : 0 ≤ C := by
        rw [hC]; unfold costMultiplierF
        exact fl_nonneg 24 (fl_nonneg 53 (mul_nonneg (le_min hr hf) hres))
      rw [← hC, ← hD]
      refine ⟨max (fl32 (fl32 (x.val * C) - D)) E, ht, by simp, le_max_right _ _, ?_, fun h => absurd (hw cs he) h, ?_⟩
      swap
      · intro _ _
        refine ⟨x, rfl, ?_⟩
        have h1 := (abs_le.1 (fl_rel 24 (x.val * C))).1
        rw [abs_of_nonneg (mul_nonneg hx0 hC0)] at h1
        change _ ≤ fl32 (x.val * C) - x.val * C at h1
        obtain ⟨P, hP⟩ : ∃ P, P = fl32 (x.val * C) := ⟨_, rfl⟩
        rw [← hP] at h1 ⊢
        have h2 := (abs_le.1 (fl_rel 24 (P - D))).1
        change _ ≤ fl32 (P - D) - (P - D) at h2
        obtain ⟨u, hu⟩ : ∃ u : ℝ, u = (2 ^ 24)⁻¹ := ⟨_, rfl⟩
        have hu0 : 0 < u := by rw [hu]; norm_num
        have hu1 : u < 1 := by rw [hu]; norm_num
        rw [← hu] at h1 h2 ⊢
        rcases le_total ((1 - u) * (x.val * C) - D) 0 with hn | hn
        · refine le_trans ?_ (le_max_of_le_right hE0)
          exact mul_nonpos_of_nonneg_of_nonpos (by linarith) hn
        · have hpos : 0 ≤ P - D := by linarith
          rw [abs_of_nonneg hpos] at h2
          refine le_trans ?_ (le_max_left _ _)
          have : (1 - u) * ((1 - u) * (x.val * C) - D) ≤ (1 - u) * (P - D) :=
            mul_le_mul_of_nonneg_left (by linarith) (by linarith)
          linarith
      rcases le_total (fl32 (fl32 (x.val * C) - D)) E with hle | hle
      · exact Or.inl (max_eq_right hle)
      · rcases eq_or_lt_of_le hle with heq | hlt
        · exact Or.inl (by rw [← heq, max_self])
        rw [max_eq_left hle]
        refine Or.inr ⟨x, rfl, hx0, hx1, ?_⟩
        have h1 := (abs_le.1 (fl_rel 24 (x.val * C))).2
        rw [abs_of_nonneg (mul_nonneg hx0 hC0)] at h1
        change fl32 (x.val * C) - x.val * C ≤ _ at h1
        obtain ⟨P, hP⟩ : ∃ P, P = fl32 (x.val * C) := ⟨_, rfl⟩
        rw [← hP] at h1 hlt ⊢
        have hpos : 0 < P - D := by
          by_contra hneg
          have := fl_mono 24 (by norm_num) (not_lt.1 hneg)
          rw [fl_zero] at this
          have h9 : fl32 (P - D) ≤ 0 := this
          linarith
        have h2 := (abs_le.1 (fl_rel 24 (P - D))).2
        rw [abs_of_pos hpos] at h2
        change fl32 (P - D) - (P - D) ≤ _ at h2
        obtain ⟨u, hu⟩ : ∃ u : ℝ, u = (2 ^ 24)⁻¹ := ⟨_, rfl⟩
        have hu0 : 0 < u := by rw [hu]; norm_num
        rw [← hu] at h1 h2 ⊢
        have h3 : (1 + u) * P ≤ (1 + u) * ((1 + u) * (x.val * C)) :=
          mul_le_mul_of_nonneg_left (by linarith) (by linarith)
        linarith

private theorem two_roundings {x : ℝ} (h0 : 0 ≤ x) : |fl32 (fl64 x) - x| ≤ (2 ^ 23)⁻¹ * x := by
  have h1 := abs_le.1 (fl_rel 53 x)
  rw [abs_of_nonneg h0] at h1
  have h2 := abs_le.1 (fl_rel 24 (fl64 x))
  rw [abs_of_nonneg (show 0 ≤ fl64 x from fl_nonneg 53 h0)] at h2
  change _ ≤ fl64 x - x ∧ fl64 x - x ≤ _ at h1
  change _ ≤ fl32 (fl64 x) - fl64 x ∧ fl32 (fl64 x) - fl64 x ≤ _ at h2
  obtain ⟨y, hy⟩ : ∃ y, y = fl64 x := ⟨_, rfl⟩
  obtain ⟨z, hz⟩ : ∃ z, z = fl32 y := ⟨_, rfl⟩
  rw [← hy] at h1 h2 ⊢
  rw [← hz] at h2 ⊢
  norm_num at h1 h2 ⊢
  rw [abs_le]
  constructor <;> linarith [h1.1, h1.2, h2.1, h2.2]

/-- C128: the constants of the heuristic differ from their exact values by a relative error of at most `2⁻²³` (`2⁻²²` for
the length of a diagonal). -/
theorem C128_constants (reverseCost forwardCost resolution : ℝ) (hr : 0 ≤ reverseCost) (hf : 0 ≤ forwardCost)
    (hres : 0 ≤ resolution) :
    |costMultiplierF reverseCost forwardCost resolution - min reverseCost forwardCost * resolution| ≤
      (2 ^ 23)⁻¹ * (min reverseCost forwardCost * resolution) ∧
    |diagonalResolutionF resolution - √2 * resolution| ≤ (2 ^ 22)⁻¹ * (√2 * resolution) := by
  refine ⟨two_roundings (mul_nonneg (le_min hr hf) hres), ?_⟩
  have h1 := abs_le.1 (fl_rel 53 √2)
  rw [abs_of_nonneg (Real.sqrt_nonneg 2)] at h1
  have hs0 : 0 ≤ fl64 √2 := fl_nonneg 53 (Real.sqrt_nonneg 2)
  have h2 := abs_le.1 (two_roundings (mul_nonneg hs0 hres))
  unfold diagonalResolutionF
  obtain ⟨z, hz⟩ : ∃ z, z = fl32 (fl64 (fl64 √2 * resolution)) := ⟨_, rfl⟩
  rw [← hz] at h2 ⊢
  change _ ≤ fl64 √2 - √2 ∧ fl64 √2 - √2 ≤ _ at h1
  obtain ⟨y, hy⟩ : ∃ y, y = fl64 √2 := ⟨_, rfl⟩
  rw [← hy] at h1 h2 hs0
  have h3 : (y - √2) * resolution ≤ ((2 ^ 53)⁻¹ * √2) * resolution := mul_le_mul_of_nonneg_right h1.2 hres
  have h4 : (-((2 ^ 53)⁻¹ * √2)) * resolution ≤ (y - √2) * resolution := mul_le_mul_of_nonneg_right h1.1 hres
  have h5 : 0 ≤ √2 * resolution := mul_nonneg (Real.sqrt_nonneg 2) hres
  obtain ⟨w, hw⟩ : ∃ w, w = √2 * resolution := ⟨_, rfl⟩
  obtain ⟨v, hv⟩ : ∃ v, v = y * resolution := ⟨_, rfl⟩
  have h3' : v - w ≤ (2 ^ 53)⁻¹ * w := by rw [hv, hw]; linarith
  have h4' : -((2 ^ 53)⁻¹ * w) ≤ v - w := by rw [hv, hw]; linarith
  rw [← hw] at h5 ⊢
  rw [← hv] at h2
  norm_num at h2 h3' h4' ⊢
  rw [abs_le]
  constructor <;> linarith [h2.1, h2.2]

/-! ## Examples -/

/-- A 3 × 3 map with an occupied cell: the cell two straight moves away is explored, and its value is bounded. -/
example : ∃ t x, updateF ⟨3, 3, fun c => decide (c = ⟨1, 1⟩)⟩ ⟨0, 0⟩ = some t ∧ t.cost ⟨0, 2⟩ = (x : F32) ∧
    x.val ≤ √2 * (1 + (2 ^ 24)⁻¹) ^ 3 * 2 := by
  obtain ⟨t, h1, h2⟩ := C128_at_most_diag_times_the_shortest ⟨3, 3, fun c => decide (c = ⟨1, 1⟩)⟩ ⟨0, 0⟩
    (by unfold Inside; decide)
  have hm : ∀ a b, (Free ⟨3, 3, fun c => decide (c = ⟨1, 1⟩)⟩ b ∧ chebyshev a b = 1 ∧ (a.row ≠ b.row → a.col ≠ b.col →
      ¬ (decide ((⟨b.row, a.col⟩ : Cell) = ⟨1, 1⟩) = true ∧ decide ((⟨a.row, b.col⟩ : Cell) = ⟨1, 1⟩) = true))) →
      Move ⟨3, 3, fun c => decide (c = ⟨1, 1⟩)⟩ a b := fun _ _ h => h
  obtain ⟨x, h3, h4⟩ := h2 ⟨0, 2⟩ [⟨0, 0⟩, ⟨0, 1⟩, ⟨0, 2⟩] 2
    (.move (hm _ _ (by unfold Free Inside chebyshev; decide)) (.move (hm _ _ (by unfold Free Inside chebyshev; decide))
      (.stop _))) rfl
  refine ⟨t, x, h1, h3, h4.trans (le_of_eq ?_)⟩
  simp [walkCost, moveLength]
  norm_num

/-- A corridor with two cells that have the same value. -/
example : ∃ t x, updateF ⟨1, 16777300, fun _ => false⟩ ⟨0, 0⟩ = some t ∧ t.cost ⟨0, 16777217⟩ = (x : F32) ∧
    t.cost ⟨0, 16777299⟩ = x := by
  obtain ⟨t, h1, h2⟩ := C128_corridor_saturates 16777300 (by norm_num)
  obtain ⟨x, h3, h4⟩ := h2 16777217 (by norm_num) (by norm_num)
  obtain ⟨y, h5, h6⟩ := h2 16777299 (by norm_num) (by norm_num)
  refine ⟨t, x, h1, h3, h5.trans ?_⟩
  rw [show y = x from Subtype.ext (h6.trans h4.symm)]

/-- The hypotheses of `C128_value`, for a map of cells of a tenth. -/
example (frame : OccMap) (h : frame.resolution = 1 / 10) : (0 : ℝ) ≤ 1 ∧ 0 ≤ frame.resolution := by
  rw [h]; norm_num

end PathPlanning.ObstHeuristic
