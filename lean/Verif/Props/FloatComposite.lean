import Verif.Model.FloatComposite
import Verif.Lemmas.Float
import Verif.Props.Composite

/-!
# C131: composite paths with the arithmetic of the program
-/

namespace PathPlanning
open Composite Flt
variable {S P : Type}

/-- The composite path made of the parts `ps`, with `double`s. -/
noncomputable def Composite.ofPartsF (o : PartOps S P ℝ) (dflt : S) (ps : List P) : Composite S P ℝ :=
  ps.foldl (pushBackF o) (new dflt)

/-- The accumulated length of the first `i` parts. -/
private noncomputable def accF (o : PartOps S P ℝ) (ps : List P) (i : Nat) : ℝ :=
  (ps.take i).foldl (fun a p => fl64 (a + o.length p)) 0

private theorem h53 : 1 ≤ 53 := by norm_num

private theorem fl_one : fl64 1 = 1 := by have := fl_int (p := 53) h53 (n := 1) (by norm_num); unfold fl64; simpa using this

private theorem accF_succ (o : PartOps S P ℝ) {ps : List P} {i : Nat} {p : P} (h : ps[i]? = some p) :
    accF o ps (i + 1) = fl64 (accF o ps i + o.length p) := by
  unfold accF
  obtain ⟨hi, hp⟩ := List.getElem?_eq_some_iff.mp h
  rw [List.take_succ_eq_append_getElem hi, List.foldl_append, hp]
  rfl

private theorem ofPartsF_paths (o : PartOps S P ℝ) (dflt : S) (ps : List P) :
    (ofPartsF o dflt ps).length = accF o ps ps.length ∧
    (ofPartsF o dflt ps).paths.length = ps.length ∧
    (∀ i p, ps[i]? = some p → (ofPartsF o dflt ps).paths[i]? = some (accF o ps i, accF o ps (i + 1), p)) ∧
    (∀ p, ps.getLast? = some p → (ofPartsF o dflt ps).final = o.final p) := by
  induction ps using List.reverseRecOn with
  | nil => exact ⟨rfl, rfl, by simp, by simp⟩
  | append_singleton ps q ih =>
    obtain ⟨h1, h3, h4, h5⟩ := ih
    have he : ofPartsF o dflt (ps ++ [q]) = (ofPartsF o dflt ps).pushBackF o q := by
      simp [ofPartsF]
    have hlb : ∀ i, i ≤ ps.length → accF o (ps ++ [q]) i = accF o ps i := by
      intro i hi
      unfold accF
      rw [List.take_append_of_le_length hi]
    have hlast : accF o (ps ++ [q]) (ps.length + 1) = fl64 (accF o ps ps.length + o.length q) := by
      rw [accF_succ o (p := q) (by simp), hlb _ le_rfl]
    refine ⟨?_, ?_, ?_, ?_⟩
    · rw [he]
      simp only [pushBackF, List.length_append, List.length_singleton]
      rw [hlast, h1]
    · rw [he]; simp [pushBackF, h3]
    · intro i p hp
      rw [he]
      have hi : i < (ps ++ [q]).length := (List.getElem?_eq_some_iff.mp hp).1
      simp only [List.length_append, List.length_singleton] at hi
      simp only [pushBackF]
      by_cases hlt : i < ps.length
      · rw [List.getElem?_append_left hlt] at hp
        rw [List.getElem?_append_left (by omega), h4 i p hp, hlb i (by omega), hlb (i + 1) (by omega)]
      · have hi' : i = ps.length := by omega
        subst hi'
        rw [List.getElem?_append_right (by omega)] at hp ⊢
        rw [h3]
        simp only [Nat.sub_self, List.getElem?_cons_zero, Option.some.injEq] at hp ⊢
        subst hp
        rw [hlast, hlb _ le_rfl, h1]
    · intro p hp
      rw [he]
      simp only [List.getLast?_append, List.getLast?_singleton, Option.some_or, Option.some.injEq] at hp
      subst hp; rfl

private theorem ofPartsF_parts (o : PartOps S P ℝ) (dflt : S) (ps : List P) :
    (ofPartsF o dflt ps).paths.map (fun e => e.2.2) = ps := by
  obtain ⟨_, e3, e4, _⟩ := ofPartsF_paths o dflt ps
  apply List.ext_getElem?
  intro i
  rw [List.getElem?_map]
  by_cases hi : i < ps.length
  · rw [e4 i _ (List.getElem?_eq_getElem hi), List.getElem?_eq_getElem hi]; rfl
  · rw [List.getElem?_eq_none (by omega), List.getElem?_eq_none (by omega)]; rfl

/-- Lengths are non-negative `double`s. -/
def DoubleLengths (o : PartOps S P ℝ) (ps : List P) : Prop := ∀ p ∈ ps, 0 ≤ o.length p ∧ IsFlt 53 (o.length p)

private theorem accF_flt (o : PartOps S P ℝ) (ps : List P) (i : Nat) : fl64 (accF o ps i) = accF o ps i := by
  unfold accF
  generalize ps.take i = l
  induction l using List.reverseRecOn with
  | nil => exact fl_zero 53
  | append_singleton l q => rw [List.foldl_append]; exact fl_fl 53 h53 _

private theorem accF_nonneg (o : PartOps S P ℝ) {ps : List P} (hd : DoubleLengths o ps) (i : Nat) : 0 ≤ accF o ps i := by
  induction i with
  | zero => exact le_rfl
  | succ i ih =>
    by_cases hi : i < ps.length
    · rw [accF_succ o (List.getElem?_eq_getElem hi)]
      exact fl_nonneg 53 (add_nonneg ih (hd _ (List.getElem_mem hi)).1)
    · unfold accF at ih ⊢
      rw [List.take_of_length_le (by omega)] at ih ⊢
      exact ih

private theorem accF_le_succ (o : PartOps S P ℝ) {ps : List P} (hd : DoubleLengths o ps) (i : Nat) :
    accF o ps i ≤ accF o ps (i + 1) := by
  by_cases hi : i < ps.length
  · rw [accF_succ o (List.getElem?_eq_getElem hi)]
    conv_lhs => rw [← accF_flt]
    exact fl_mono 53 h53 (by linarith [(hd _ (List.getElem_mem hi)).1])
  · unfold accF
    rw [List.take_of_length_le (by omega), List.take_of_length_le (by omega)]

private theorem accF_mono (o : PartOps S P ℝ) {ps : List P} (hd : DoubleLengths o ps) {i j : Nat} (h : i ≤ j) :
    accF o ps i ≤ accF o ps j := by
  induction h with
  | refl => exact le_rfl
  | @step m _ ih => exact ih.trans (accF_le_succ o hd m)

private theorem lengthBefore_nonneg (o : PartOps S P ℝ) {ps : List P} (hd : DoubleLengths o ps) (i : Nat) :
    0 ≤ lengthBefore o ps i := by
  have := lengthBefore_mono o (ps := ps) (fun p hp => (hd p hp).1) (Nat.zero_le i)
  simpa [lengthBefore] using this

private theorem accF_err (o : PartOps S P ℝ) {ps : List P} (hd : DoubleLengths o ps) (i : Nat) (hi : i ≤ ps.length)
    (hn : i ≤ 2 ^ 50) : |accF o ps i - lengthBefore o ps i| ≤ i * (lengthBefore o ps i / 2 ^ 52) := by
  induction i with
  | zero => simp [accF, lengthBefore]
  | succ i ih =>
    have hg := List.getElem?_eq_getElem (show i < ps.length by omega)
    obtain ⟨p, hp⟩ : ∃ p, p = ps[i]'(by omega) := ⟨_, rfl⟩
    rw [← hp] at hg
    have hl := (hd p (List.mem_of_getElem? hg)).1
    rw [accF_succ o hg, lengthBefore_succ o hg]
    have ih := abs_le.1 (ih (by omega) (by omega))
    have ha := accF_nonneg o hd i
    have hE := lengthBefore_nonneg o hd i
    obtain ⟨a, haa⟩ : ∃ a, a = accF o ps i := ⟨_, rfl⟩
    obtain ⟨E, hEE⟩ : ∃ E, E = lengthBefore o ps i := ⟨_, rfl⟩
    obtain ⟨x, hx⟩ : ∃ x, x = o.length p := ⟨_, rfl⟩
    rw [← haa, ← hEE] at ih
    rw [← haa] at ha
    rw [← hEE] at hE
    rw [← hx] at hl
    rw [← haa, ← hEE, ← hx]
    have h1 := abs_le.1 (fl_rel 53 (a + x))
    rw [abs_of_nonneg (by linarith)] at h1
    obtain ⟨y, hy⟩ : ∃ y, y = fl 53 (a + x) := ⟨_, rfl⟩
    change |fl 53 (a + x) - _| ≤ _
    rw [← hy] at h1 ⊢
    have h2 : (i : ℝ) ≤ 2 ^ 50 := by
      have : i ≤ 2 ^ 50 := by omega
      exact_mod_cast this
    have h3 : (i : ℝ) * (E / 2 ^ 52) ≤ E / 4 := by
      have : (i : ℝ) * (E / 2 ^ 52) ≤ 2 ^ 50 * (E / 2 ^ 52) := mul_le_mul_of_nonneg_right h2 (by positivity)
      refine this.trans ?_
      norm_num
      linarith
    have h4 : (i : ℝ) * ((E + x) / 2 ^ 52) = i * (E / 2 ^ 52) + i * (x / 2 ^ 52) := by ring
    have h5 : 0 ≤ (i : ℝ) * (x / 2 ^ 52) := by positivity
    push_cast
    rw [add_mul, one_mul, h4]
    obtain ⟨z, hz⟩ : ∃ z, z = (i : ℝ) * (E / 2 ^ 52) := ⟨_, rfl⟩
    rw [← hz] at ih h3 ⊢
    norm_num at h1 ⊢
    rw [abs_le]
    constructor <;> linarith

private theorem ofPartsF_mono (o : PartOps S P ℝ) (dflt : S) {ps : List P} (hd : DoubleLengths o ps) :
    ∀ (i j : Nat) (a b : ℝ × ℝ × P), i ≤ j → (ofPartsF o dflt ps).paths[i]? = some a →
      (ofPartsF o dflt ps).paths[j]? = some b → a.2.1 ≤ b.2.1 := by
  intro i j a b hij ha hb
  obtain ⟨_, h3, h4, _⟩ := ofPartsF_paths o dflt ps
  have hi := (List.getElem?_eq_some_iff.mp ha).1
  have hj := (List.getElem?_eq_some_iff.mp hb).1
  rw [h3] at hi hj
  rw [h4 i _ (List.getElem?_eq_getElem hi)] at ha
  rw [h4 j _ (List.getElem?_eq_getElem hj)] at hb
  cases ha; cases hb
  exact accF_mono o hd (by omega)

/-- What `findSegmentF` returns: the part after whose start the position is, or the end. -/
private theorem findF_spec (o : PartOps S P ℝ) (c : Composite S P ℝ)
    (hm : ∀ (i j : Nat) (a b : ℝ × ℝ × P), i ≤ j → c.paths[i]? = some a → c.paths[j]? = some b → a.2.1 ≤ b.2.1) (r : ℝ) :
    ((∀ (i : Nat) (a : ℝ × ℝ × P), c.paths[i]? = some a → a.2.1 ≤ fl64 (r * c.length)) ∧
      c.findSegmentF o r = (c.paths.length, 1)) ∨
    ∃ (k : Nat) (e : ℝ × ℝ × P), c.paths[k]? = some e ∧ fl64 (r * c.length) < e.2.1 ∧
      (∀ (i : Nat) (a : ℝ × ℝ × P), i < k → c.paths[i]? = some a → a.2.1 ≤ fl64 (r * c.length)) ∧
      c.findSegmentF o r = if o.length e.2.2 = 0 then (k, 0)
        else (k, fl64 (fl64 (fl64 (r * c.length) - e.1) / o.length e.2.2)) := by
  unfold findSegmentF
  dsimp only
  obtain ⟨x, hx⟩ : ∃ x, x = fl64 (r * c.length) := ⟨_, rfl⟩
  rw [← hx]
  obtain ⟨h1, h2, h3, h4⟩ := upperBound_spec (c.lessThanAt x) c.paths.length 0 (by
      intro i j _ hij hj ha
      have hi' : i < c.paths.length := by omega
      have hj' : j < c.paths.length := by omega
      simp only [lessThanAt, List.getElem?_eq_getElem hi', decide_eq_true_eq] at ha
      simp only [lessThanAt, List.getElem?_eq_getElem hj', decide_eq_true_eq]
      exact lt_of_lt_of_le ha (hm i j _ _ hij (List.getElem?_eq_getElem hi') (List.getElem?_eq_getElem hj')))
  obtain ⟨u, hu⟩ : ∃ u, u = upperBound (c.lessThanAt x) 0 c.paths.length := ⟨_, rfl⟩
  rw [← hu] at h1 h2 h3 h4 ⊢
  have hbefore : ∀ (i : Nat) (a : ℝ × ℝ × P), i < u → c.paths[i]? = some a → a.2.1 ≤ x := by
    intro i a hi ha
    have := h3 i (by omega) hi
    simp only [lessThanAt, ha, decide_eq_false_iff_not, not_lt] at this
    exact this
  by_cases hul : u < c.paths.length
  · right
    refine ⟨u, c.paths[u], List.getElem?_eq_getElem hul, ?_, hbefore, ?_⟩
    · have := h4 u le_rfl (by omega)
      simpa only [lessThanAt, List.getElem?_eq_getElem hul, decide_eq_true_eq] using this
    · rw [List.getElem?_eq_getElem hul]
  · left
    have hue : u = c.paths.length := by omega
    refine ⟨fun i a ha => hbefore i a (by have := (List.getElem?_eq_some_iff.mp ha).1; omega) ha, ?_⟩
    rw [hue, List.getElem?_eq_none le_rfl]

/-- C131: the length of a composite path is the sum of the lengths of its parts up to one rounding per part, and its final
state is that of the last part. -/
theorem C131_length_and_final (o : PartOps S P ℝ) (dflt : S) (ps : List P) (hd : DoubleLengths o ps)
    (hn : ps.length ≤ 2 ^ 50) :
    |(ofPartsF o dflt ps).length - (ps.map o.length).sum| ≤ ps.length * ((ps.map o.length).sum / 2 ^ 52) ∧
    ∀ p, ps.getLast? = some p → (ofPartsF o dflt ps).final = o.final p := by
  obtain ⟨h1, _, _, h4⟩ := ofPartsF_paths o dflt ps
  refine ⟨?_, h4⟩
  rw [h1]
  have := accF_err o hd ps.length le_rfl hn
  unfold lengthBefore at this
  rwa [List.take_length] at this

/-- C131: `Interpolate` with a ratio in [0, 1] is that of a part, at a ratio in [0, 1], and the position on the path is the
one asked for, up to four roundings of the total length per part. -/
theorem C131_interpolate_partial (o : PartOps S P ℝ) (dflt : S) (ps : List P) (hne : ps ≠ []) (hd : DoubleLengths o ps)
    (hn : ps.length ≤ 2 ^ 50) (r : ℝ) (h0 : 0 ≤ r) (h1 : r ≤ 1) :
    ∃ (i : Nat) (p : P) (q : ℝ), ps[i]? = some p ∧ 0 ≤ q ∧ q ≤ 1 ∧
      (ofPartsF o dflt ps).interpolateF o r = some (o.interpolate p q) ∧
      |lengthBefore o ps i + q * o.length p - r * (ps.map o.length).sum| ≤
        (ps.length + 1) * ((ps.map o.length).sum / 2 ^ 51) := by
  obtain ⟨e1, e3, e4, _⟩ := ofPartsF_paths o dflt ps
  have hlen := List.length_pos_iff.mpr hne
  have hT : lengthBefore o ps ps.length = (ps.map o.length).sum := by unfold lengthBefore; rw [List.take_length]
  have herr := abs_le.1 (accF_err o hd ps.length le_rfl hn)
  have hT0 := lengthBefore_nonneg o hd ps.length
  have hS0 := accF_nonneg o hd ps.length
  rw [← hT]
  obtain ⟨T, hTT⟩ : ∃ T, T = lengthBefore o ps ps.length := ⟨_, rfl⟩
  obtain ⟨A, hA⟩ : ∃ A, A = accF o ps ps.length := ⟨_, rfl⟩
  rw [← hTT] at herr hT0 ⊢
  rw [← hA] at herr hS0 e1
  -- the position
  obtain ⟨x, hx⟩ : ∃ x, x = fl64 (r * (ofPartsF o dflt ps).length) := ⟨_, rfl⟩
  have hxe := abs_le.1 (fl_rel 53 (r * A))
  have hrA : 0 ≤ r * A := mul_nonneg h0 hS0
  have hrA' : r * A ≤ A := mul_le_of_le_one_left hS0 h1
  have hx' : fl 53 (r * A) = x := by rw [hx, e1]; rfl
  rw [abs_of_nonneg hrA, hx'] at hxe
  have hx0 : 0 ≤ x := by rw [← hx']; exact fl_nonneg 53 hrA
  have hxflt : fl64 x = x := by rw [hx]; exact fl_fl 53 h53 _
  have hn' : (ps.length : ℝ) ≤ 2 ^ 50 := by exact_mod_cast hn
  obtain ⟨N, hN⟩ : ∃ N : ℝ, N = ps.length := ⟨_, rfl⟩
  rw [← hN] at hn' herr ⊢
  have hN1 : 1 ≤ N := by rw [hN]; exact_mod_cast hlen
  have hNT : N * (T / 2 ^ 52) ≤ T / 4 := by
    have : N * (T / 2 ^ 52) ≤ 2 ^ 50 * (T / 2 ^ 52) := mul_le_mul_of_nonneg_right hn' (by positivity)
    refine this.trans ?_
    norm_num
    linarith
  have hgoal : (N + 1) * (T / 2 ^ 51) = 2 * (N * (T / 2 ^ 52)) + T / 2 ^ 51 := by ring
  have hrT : |r * A - r * T| ≤ N * (T / 2 ^ 52) := by
    rw [← mul_sub, abs_mul, abs_of_nonneg h0]
    calc r * |A - T| ≤ 1 * |A - T| := mul_le_mul_of_nonneg_right h1 (abs_nonneg _)
      _ ≤ _ := by rw [one_mul]; exact abs_le.2 herr
  have hrT := abs_le.1 hrT
  rw [hgoal]
  obtain ⟨z, hz⟩ : ∃ z, z = N * (T / 2 ^ 52) := ⟨_, rfl⟩
  rw [← hz] at herr hNT hrT ⊢
  unfold interpolateF
  rw [if_neg (by
    intro hcon
    have := List.isEmpty_iff_length_eq_zero.mp hcon
    omega)]
  rcases findF_spec o _ (ofPartsF_mono o dflt hd) r with ⟨hall, hf⟩ | ⟨k, e, hk, hlt, hbef, hf⟩
  · rw [hf]
    have hg := List.getElem?_eq_getElem (show ps.length - 1 < ps.length by omega)
    obtain ⟨p, hp⟩ : ∃ p, p = ps[ps.length - 1]'(by omega) := ⟨_, rfl⟩
    rw [← hp] at hg
    refine ⟨ps.length - 1, p, 1, hg, zero_le_one, le_rfl, ?_, ?_⟩
    · dsimp only
      rw [if_pos rfl, e3, e4 _ p hg]
      rfl
    · have h5 := hall (ps.length - 1) _ (e4 _ p hg)
      dsimp only at h5
      rw [show ps.length - 1 + 1 = ps.length by omega, ← hA, ← hx] at h5
      have h6 := lengthBefore_succ o hg
      rw [show ps.length - 1 + 1 = ps.length by omega, ← hTT] at h6
      rw [one_mul, ← h6]
      have hrT' : r * T ≤ T := mul_le_of_le_one_left hT0 h1
      norm_num at hxe ⊢
      rw [abs_le]
      constructor <;> linarith
  · have hkl := (List.getElem?_eq_some_iff.mp hk).1
    rw [e3] at hkl
    have hg := List.getElem?_eq_getElem hkl
    obtain ⟨p, hp⟩ : ∃ p, p = ps[k] := ⟨_, rfl⟩
    rw [← hp] at hg
    rw [e4 k p hg] at hk
    cases hk
    dsimp only at hlt hf
    rw [← hx] at hlt hf hbef
    obtain ⟨hl0, hlf⟩ := hd p (List.mem_of_getElem? hg)
    have hkx : accF o ps k ≤ x := by
      cases k with
      | zero => simpa [accF] using hx0
      | succ k =>
        exact hbef k _ (by omega) (e4 k _ (List.getElem?_eq_getElem (by omega)))
    have hsucc := accF_succ o hg
    rw [hsucc] at hlt
    have hkflt := accF_flt o ps k
    have hkerr := abs_le.1 (accF_err o hd k (by omega) (by omega))
    have hk0 := lengthBefore_nonneg o hd k
    have hkT : lengthBefore o ps k + o.length p ≤ T := by
      rw [← lengthBefore_succ o hg, hTT]
      exact lengthBefore_mono o (fun p hp => (hd p hp).1) (by omega)
    have hkz : (k : ℝ) * (lengthBefore o ps k / 2 ^ 52) ≤ z := by
      rw [hz]
      refine mul_le_mul ?_ ?_ (by positivity) (by linarith)
      · rw [hN]; exact_mod_cast hkl.le
      · have : lengthBefore o ps k ≤ T := by linarith
        gcongr
    obtain ⟨a, ha⟩ : ∃ a, a = accF o ps k := ⟨_, rfl⟩
    obtain ⟨E, hE⟩ : ∃ E, E = lengthBefore o ps k := ⟨_, rfl⟩
    obtain ⟨l, hl⟩ : ∃ l, l = o.length p := ⟨_, rfl⟩
    rw [← ha] at hkx hlt hf hkflt hkerr
    rw [← hE] at hkT hkerr hkz hk0
    rw [← hl] at hl0 hlf hlt hf hkT
    have hxl : x ≤ a + l := by
      by_contra hcon
      have := fl_mono 53 h53 (not_le.mp hcon).le
      rw [show fl 53 x = x from hxflt] at this
      exact absurd hlt (not_lt.mpr this)
    have hlne : l ≠ 0 := by
      intro h
      rw [h, add_zero, hkflt] at hlt
      linarith
    have hlp : 0 < l := lt_of_le_of_ne hl0 (Ne.symm hlne)
    rw [if_neg hlne] at hf
    obtain ⟨dd, hdd⟩ : ∃ d, d = fl64 (x - a) := ⟨_, rfl⟩
    have hd0 : 0 ≤ dd := by rw [hdd]; exact fl_nonneg 53 (by linarith)
    have hdl : dd ≤ l := by
      have := fl_mono 53 h53 (show x - a ≤ l by linarith)
      rw [show fl 53 l = l from hlf] at this
      rw [hdd]; exact this
    have hde := abs_le.1 (fl_rel 53 (x - a))
    rw [abs_of_nonneg (by linarith), show fl 53 (x - a) = dd from hdd.symm] at hde
    rw [← hdd] at hf
    obtain ⟨q, hq⟩ : ∃ q, q = fl64 (dd / l) := ⟨_, rfl⟩
    have hq0 : 0 ≤ q := by rw [hq]; exact fl_nonneg 53 (div_nonneg hd0 hl0)
    have hq1 : q ≤ 1 := by
      have := fl_mono 53 h53 ((div_le_one hlp).mpr hdl)
      rw [show fl 53 1 = 1 from fl_one] at this
      rw [hq]; exact this
    have hqe : |q * l - dd| ≤ ((2 : ℝ) ^ 53)⁻¹ * dd := by
      have h2 := fl_rel 53 (dd / l)
      rw [abs_of_nonneg (div_nonneg hd0 hl0), show fl 53 (dd / l) = q from hq.symm] at h2
      have h3 : dd / l * l = dd := div_mul_cancel₀ _ hlne
      have h4 : q * l - dd = (q - dd / l) * l := by rw [sub_mul, h3]
      rw [h4, abs_mul, abs_of_pos hlp]
      calc |q - dd / l| * l ≤ ((2 : ℝ) ^ 53)⁻¹ * (dd / l) * l := mul_le_mul_of_nonneg_right h2 hl0
        _ = _ := by rw [mul_assoc, h3]
    have hqe := abs_le.1 hqe
    rw [← hq] at hf
    refine ⟨k, p, q, hg, hq0, hq1, ?_, ?_⟩
    · rw [hf]
      dsimp only
      rw [if_neg (by omega), e4 k p hg]
      rfl
    · rw [← hE, ← hl]
      norm_num at hxe hde hqe ⊢
      rw [abs_le]
      constructor <;> linarith

private theorem truncate_cases (o : PartOps S P ℝ) (dflt : S) (ps : List P) (hd : DoubleLengths o ps)
    (r : ℝ) (h0 : 0 ≤ r) :
    ((ofPartsF o dflt ps).truncateF o r = ofPartsF o dflt ps ∧
      (ofPartsF o dflt ps).length ≤ fl64 (r * (ofPartsF o dflt ps).length)) ∨
    ∃ (i : Nat) (p : P) (q : ℝ), ps[i]? = some p ∧ 0 ≤ q ∧ q ≤ 1 ∧
      (ofPartsF o dflt ps).truncateF o r = { ofPartsF o dflt ps with
        final := o.final (o.truncate p q)
        length := fl64 (accF o ps i + o.length (o.truncate p q))
        paths := (ofPartsF o dflt ps).paths.take i ++ [(accF o ps i, accF o ps (i + 1), o.truncate p q)] } := by
  obtain ⟨e1, e3, e4, _⟩ := ofPartsF_paths o dflt ps
  by_cases hemp : (ofPartsF o dflt ps).paths.isEmpty
  · left
    have h := List.isEmpty_iff_length_eq_zero.mp hemp
    refine ⟨by unfold truncateF; rw [if_pos hemp], ?_⟩
    rw [e3] at h
    have : accF o ps ps.length = 0 := by rw [h]; rfl
    rw [e1, this, mul_zero]
    exact (fl_zero 53).ge
  have hlen : 0 < ps.length := by
    rw [← e3]
    exact Nat.pos_of_ne_zero (fun h => hemp (List.isEmpty_iff_length_eq_zero.mpr h))
  have hS0 := accF_nonneg o hd ps.length
  rcases findF_spec o _ (ofPartsF_mono o dflt hd) r with ⟨hall, hf⟩ | ⟨k, e, hk, hlt, hbef, hf⟩
  · left
    refine ⟨?_, ?_⟩
    · unfold truncateF
      rw [if_neg hemp, hf]
      dsimp only
      rw [List.getElem?_eq_none le_rfl]
    · have h5 := hall (ps.length - 1) _ (e4 _ _ (List.getElem?_eq_getElem (by omega)))
      dsimp only at h5
      rw [show ps.length - 1 + 1 = ps.length by omega, ← e1] at h5
      exact h5
  · right
    have hkl := (List.getElem?_eq_some_iff.mp hk).1
    rw [e3] at hkl
    have hg := List.getElem?_eq_getElem hkl
    obtain ⟨p, hp⟩ : ∃ p, p = ps[k] := ⟨_, rfl⟩
    rw [← hp] at hg
    rw [e4 k p hg] at hk
    cases hk
    dsimp only at hlt hf
    obtain ⟨x, hx⟩ : ∃ x, x = fl64 (r * (ofPartsF o dflt ps).length) := ⟨_, rfl⟩
    have hx0 : 0 ≤ x := by rw [hx, e1]; exact fl_nonneg 53 (mul_nonneg h0 hS0)
    have hxflt : fl64 x = x := by rw [hx]; exact fl_fl 53 h53 _
    rw [← hx] at hlt hf hbef
    obtain ⟨hl0, hlf⟩ := hd p (List.mem_of_getElem? hg)
    have hkx : accF o ps k ≤ x := by
      cases k with
      | zero => simpa [accF] using hx0
      | succ k => exact hbef k _ (by omega) (e4 k _ (List.getElem?_eq_getElem (by omega)))
    have hsucc := accF_succ o hg
    rw [hsucc] at hlt
    have hkflt := accF_flt o ps k
    have hxl : x ≤ accF o ps k + o.length p := by
      by_contra hcon
      have := fl_mono 53 h53 (not_le.mp hcon).le
      rw [show fl 53 x = x from hxflt] at this
      exact absurd hlt (not_lt.mpr this)
    have hlne : o.length p ≠ 0 := by
      intro h
      rw [h, add_zero, hkflt] at hlt
      linarith
    have hlp : 0 < o.length p := lt_of_le_of_ne hl0 (Ne.symm hlne)
    rw [if_neg hlne] at hf
    have hd0 : 0 ≤ fl64 (x - accF o ps k) := fl_nonneg 53 (by linarith)
    have hdl : fl64 (x - accF o ps k) ≤ o.length p := by
      have := fl_mono 53 h53 (show x - accF o ps k ≤ o.length p by linarith)
      rw [show fl 53 (o.length p) = o.length p from hlf] at this
      exact this
    obtain ⟨q, hq⟩ : ∃ q, q = fl64 (fl64 (x - accF o ps k) / o.length p) := ⟨_, rfl⟩
    rw [← hq] at hf
    refine ⟨k, p, q, hg, ?_, ?_, ?_⟩
    · rw [hq]; exact fl_nonneg 53 (div_nonneg hd0 hl0)
    · have := fl_mono 53 h53 ((div_le_one hlp).mpr hdl)
      rw [show fl 53 1 = 1 from fl_one] at this
      rw [hq]; exact this
    · unfold truncateF
      rw [if_neg hemp, hf]
      dsimp only
      rw [e4 k p hg]

/-- C131: `Truncate` with a ratio in [0, 1] leaves an empty path, and a ratio beyond the last part, alone. Otherwise it
truncates one part at a ratio in [0, 1], keeps the parts before it and drops those after it; the final state is that of the
truncated part and the length that of what is left, up to the roundings. -/
theorem C131_truncate (o : PartOps S P ℝ) (dflt : S) (ps : List P) (hd : DoubleLengths o ps)
    (hn : ps.length ≤ 2 ^ 50) (r : ℝ) (h0 : 0 ≤ r) :
    ((ofPartsF o dflt ps).truncateF o r = ofPartsF o dflt ps ∧
      (ofPartsF o dflt ps).length ≤ fl64 (r * (ofPartsF o dflt ps).length)) ∨
    ∃ (i : Nat) (p : P) (q : ℝ), ps[i]? = some p ∧ 0 ≤ q ∧ q ≤ 1 ∧
      ((ofPartsF o dflt ps).truncateF o r).paths.map (fun e => e.2.2) = ps.take i ++ [o.truncate p q] ∧
      ((ofPartsF o dflt ps).truncateF o r).final = o.final (o.truncate p q) ∧
      (0 ≤ o.length (o.truncate p q) →
        |((ofPartsF o dflt ps).truncateF o r).length - (lengthBefore o ps i + o.length (o.truncate p q))| ≤
          (i + 1) * ((lengthBefore o ps i + o.length (o.truncate p q)) / 2 ^ 52)) ∧
      (o.length (o.truncate p q) ≤ o.length p →
        ((ofPartsF o dflt ps).truncateF o r).length ≤ (ofPartsF o dflt ps).length) := by
  obtain ⟨e1, _, _, _⟩ := ofPartsF_paths o dflt ps
  rcases truncate_cases o dflt ps hd r h0 with h | ⟨k, p, q, hg, hq0, hq1, hf⟩
  · exact .inl h
  right
  have hkl := (List.getElem?_eq_some_iff.mp hg).1
  have hsucc := accF_succ o hg
  refine ⟨k, p, q, hg, hq0, hq1, ?_, ?_, ?_, ?_⟩
  all_goals rw [hf]
  · rw [List.map_append, List.map_take, ofPartsF_parts]
    rfl
  · intro hl'
    dsimp only
    have hkerr := abs_le.1 (accF_err o hd k (by omega) (by omega))
    have hE := lengthBefore_nonneg o hd k
    have ha := accF_nonneg o hd k
    have hk50 : (k : ℝ) ≤ 2 ^ 50 := by
      have : k ≤ 2 ^ 50 := by omega
      exact_mod_cast this
    obtain ⟨a, haa⟩ : ∃ a, a = accF o ps k := ⟨_, rfl⟩
    obtain ⟨E, hEE⟩ : ∃ E, E = lengthBefore o ps k := ⟨_, rfl⟩
    obtain ⟨l, hl⟩ : ∃ l, l = o.length (o.truncate p q) := ⟨_, rfl⟩
    rw [← haa, ← hEE] at hkerr
    rw [← haa] at ha
    rw [← hEE] at hE
    rw [← hl] at hl'
    rw [← haa, ← hEE, ← hl]
    have hr := abs_le.1 (fl_rel 53 (a + l))
    rw [abs_of_nonneg (by linarith)] at hr
    obtain ⟨y, hy⟩ : ∃ y, y = fl 53 (a + l) := ⟨_, rfl⟩
    change |fl 53 (a + l) - _| ≤ _
    rw [← hy] at hr ⊢
    have h3 : (k : ℝ) * (E / 2 ^ 52) ≤ E / 4 := by
      have : (k : ℝ) * (E / 2 ^ 52) ≤ 2 ^ 50 * (E / 2 ^ 52) := mul_le_mul_of_nonneg_right hk50 (by positivity)
      refine this.trans ?_
      norm_num
      linarith
    have h4 : ((k : ℝ) + 1) * ((E + l) / 2 ^ 52) = k * (E / 2 ^ 52) + k * (l / 2 ^ 52) + (E + l) / 2 ^ 52 := by ring
    have h5 : 0 ≤ (k : ℝ) * (l / 2 ^ 52) := by positivity
    rw [h4]
    obtain ⟨z, hz⟩ : ∃ z, z = (k : ℝ) * (E / 2 ^ 52) := ⟨_, rfl⟩
    rw [← hz] at hkerr h3 ⊢
    norm_num at hr ⊢
    rw [abs_le]
    constructor <;> linarith
  · intro hl'
    have h6 := accF_mono o hd (i := k + 1) (j := ps.length) (by omega)
    rw [e1]
    refine le_trans ?_ h6
    rw [hsucc]
    exact fl_mono 53 h53 (by linarith)

private theorem interp_general (o : PartOps S P ℝ) (c : Composite S P ℝ) (ps : List P) (hne : ps ≠ [])
    (hd : DoubleLengths o ps) (hn : ps.length ≤ 2 ^ 50) (F : Nat → ℝ)
    (e1 : c.length = accF o ps ps.length) (e3 : c.paths.length = ps.length)
    (e4 : ∀ i p, ps[i]? = some p → c.paths[i]? = some (accF o ps i, F i, p))
    (hF : ∀ i, i + 1 < ps.length → F i = accF o ps (i + 1)) (hFl : accF o ps ps.length ≤ F (ps.length - 1))
    (r : ℝ) (h0 : 0 ≤ r) (h1 : r ≤ 1) :
    ∃ (i : Nat) (p : P) (q : ℝ), ps[i]? = some p ∧ 0 ≤ q ∧
      q * o.length p ≤ o.length p + (ps.map o.length).sum / 2 ^ 51 ∧
      c.interpolateF o r = some (o.interpolate p q) ∧
      |lengthBefore o ps i + q * o.length p - r * (ps.map o.length).sum| ≤
        (ps.length + 1) * ((ps.map o.length).sum / 2 ^ 51) := by
  have hlen := List.length_pos_iff.mpr hne
  have hmono : ∀ (i j : Nat) (a b : ℝ × ℝ × P), i ≤ j → c.paths[i]? = some a → c.paths[j]? = some b →
      a.2.1 ≤ b.2.1 := by
    intro i j a b hij ha hb
    have hi := (List.getElem?_eq_some_iff.mp ha).1
    have hj := (List.getElem?_eq_some_iff.mp hb).1
    rw [e3] at hi hj
    rw [e4 i _ (List.getElem?_eq_getElem hi)] at ha
    rw [e4 j _ (List.getElem?_eq_getElem hj)] at hb
    cases ha; cases hb
    dsimp only
    by_cases hjl : j + 1 < ps.length
    · rw [hF i (by omega), hF j hjl]
      exact accF_mono o hd (by omega)
    · have hj' : j = ps.length - 1 := by omega
      by_cases hil : i + 1 < ps.length
      · rw [hF i hil, hj']
        exact (accF_mono o hd (by omega)).trans hFl
      · rw [show i = j by omega]
  have hT : lengthBefore o ps ps.length = (ps.map o.length).sum := by unfold lengthBefore; rw [List.take_length]
  have herr := abs_le.1 (accF_err o hd ps.length le_rfl hn)
  have hT0 := lengthBefore_nonneg o hd ps.length
  have hS0 := accF_nonneg o hd ps.length
  have hAflt := accF_flt o ps ps.length
  rw [← hT]
  obtain ⟨T, hTT⟩ : ∃ T, T = lengthBefore o ps ps.length := ⟨_, rfl⟩
  obtain ⟨A, hA⟩ : ∃ A, A = accF o ps ps.length := ⟨_, rfl⟩
  rw [← hTT] at herr hT0 ⊢
  rw [← hA] at herr hS0 e1 hAflt hFl
  obtain ⟨x, hx⟩ : ∃ x, x = fl64 (r * c.length) := ⟨_, rfl⟩
  have hxe := abs_le.1 (fl_rel 53 (r * A))
  have hrA : 0 ≤ r * A := mul_nonneg h0 hS0
  have hrA' : r * A ≤ A := mul_le_of_le_one_left hS0 h1
  have hx' : fl 53 (r * A) = x := by rw [hx, e1]; rfl
  rw [abs_of_nonneg hrA, hx'] at hxe
  have hx0 : 0 ≤ x := by rw [← hx']; exact fl_nonneg 53 hrA
  have hxA : x ≤ A := by
    have := fl_mono 53 h53 hrA'
    rw [hx', show fl 53 A = A from hAflt] at this
    exact this
  have hxflt : fl64 x = x := by rw [hx]; exact fl_fl 53 h53 _
  have hn' : (ps.length : ℝ) ≤ 2 ^ 50 := by exact_mod_cast hn
  obtain ⟨N, hN⟩ : ∃ N : ℝ, N = ps.length := ⟨_, rfl⟩
  rw [← hN] at hn' herr ⊢
  have hN1 : 1 ≤ N := by rw [hN]; exact_mod_cast hlen
  have hNT : N * (T / 2 ^ 52) ≤ T / 4 := by
    have : N * (T / 2 ^ 52) ≤ 2 ^ 50 * (T / 2 ^ 52) := mul_le_mul_of_nonneg_right hn' (by positivity)
    refine this.trans ?_
    norm_num
    linarith
  have hgoal : (N + 1) * (T / 2 ^ 51) = 2 * (N * (T / 2 ^ 52)) + T / 2 ^ 51 := by ring
  have hrT : |r * A - r * T| ≤ N * (T / 2 ^ 52) := by
    rw [← mul_sub, abs_mul, abs_of_nonneg h0]
    calc r * |A - T| ≤ 1 * |A - T| := mul_le_mul_of_nonneg_right h1 (abs_nonneg _)
      _ ≤ _ := by rw [one_mul]; exact abs_le.2 herr
  have hrT := abs_le.1 hrT
  rw [hgoal]
  obtain ⟨z, hz⟩ : ∃ z, z = N * (T / 2 ^ 52) := ⟨_, rfl⟩
  rw [← hz] at herr hNT hrT ⊢
  unfold interpolateF
  rw [if_neg (by
    intro hcon
    have := List.isEmpty_iff_length_eq_zero.mp hcon
    omega)]
  rcases findF_spec o _ hmono r with ⟨hall, hf⟩ | ⟨k, e, hk, hlt, hbef, hf⟩
  · rw [hf]
    have hg := List.getElem?_eq_getElem (show ps.length - 1 < ps.length by omega)
    obtain ⟨p, hp⟩ : ∃ p, p = ps[ps.length - 1]'(by omega) := ⟨_, rfl⟩
    rw [← hp] at hg
    refine ⟨ps.length - 1, p, 1, hg, zero_le_one, ?_, ?_, ?_⟩
    · rw [one_mul]
      have : 0 ≤ T / 2 ^ 51 := by positivity
      linarith
    · dsimp only
      rw [if_pos rfl, e3, e4 _ p hg]
      rfl
    · have h5 := hall (ps.length - 1) _ (e4 _ p hg)
      dsimp only at h5
      rw [← hx] at h5
      have h6 := lengthBefore_succ o hg
      rw [show ps.length - 1 + 1 = ps.length by omega, ← hTT] at h6
      rw [one_mul, ← h6]
      have hrT' : r * T ≤ T := mul_le_of_le_one_left hT0 h1
      norm_num at hxe ⊢
      rw [abs_le]
      constructor <;> linarith
  · have hkl := (List.getElem?_eq_some_iff.mp hk).1
    rw [e3] at hkl
    have hg := List.getElem?_eq_getElem hkl
    obtain ⟨p, hp⟩ : ∃ p, p = ps[k] := ⟨_, rfl⟩
    rw [← hp] at hg
    rw [e4 k p hg] at hk
    cases hk
    dsimp only at hlt hf
    rw [← hx] at hlt hf hbef
    obtain ⟨hl0, hlf⟩ := hd p (List.mem_of_getElem? hg)
    have hkx : accF o ps k ≤ x := by
      cases k with
      | zero => simpa [accF] using hx0
      | succ k =>
        have := hbef k _ (by omega) (e4 k _ (List.getElem?_eq_getElem (by omega)))
        dsimp only at this
        rwa [hF k (by omega)] at this
    have hsucc := accF_succ o hg
    have hk0a := accF_nonneg o hd k
    have hkflt := accF_flt o ps k
    have hkerr := abs_le.1 (accF_err o hd k (by omega) (by omega))
    have hk0 := lengthBefore_nonneg o hd k
    have hkT : lengthBefore o ps k + o.length p ≤ T := by
      rw [← lengthBefore_succ o hg, hTT]
      exact lengthBefore_mono o (fun p hp => (hd p hp).1) (by omega)
    have hkz : (k : ℝ) * (lengthBefore o ps k / 2 ^ 52) ≤ z := by
      rw [hz]
      refine mul_le_mul ?_ ?_ (by positivity) (by linarith)
      · rw [hN]; exact_mod_cast hkl.le
      · have : lengthBefore o ps k ≤ T := by linarith
        gcongr
    -- the position is not after the end of the part, but for one rounding
    have hxs : x ≤ accF o ps (k + 1) := by
      by_cases hlast : k + 1 < ps.length
      · rw [hF k hlast] at hlt; exact hlt.le
      · rw [show k + 1 = ps.length by omega, ← hA]; exact hxA
    have hzero : o.length p = 0 → lengthBefore o ps k = T ∧ x = A ∧ k + 1 = ps.length := by
      intro hz0
      rw [hz0, add_zero, hkflt] at hsucc
      have hlast : k + 1 = ps.length := by
        by_contra hcon
        rw [hF k (by omega), hsucc] at hlt
        linarith
      refine ⟨?_, ?_, hlast⟩
      · have := lengthBefore_succ o hg
        rw [hz0, add_zero, hlast] at this
        rw [hTT]; exact this.symm
      · rw [hlast, ← hA] at hsucc
        linarith
    rw [hsucc] at hxs
    obtain ⟨a, ha⟩ : ∃ a, a = accF o ps k := ⟨_, rfl⟩
    obtain ⟨E, hE⟩ : ∃ E, E = lengthBefore o ps k := ⟨_, rfl⟩
    obtain ⟨l, hl⟩ : ∃ l, l = o.length p := ⟨_, rfl⟩
    rw [← ha] at hkx hf hkerr hxs hk0a
    rw [← hE] at hkT hkerr hkz hk0 hzero
    rw [← hl] at hl0 hlf hf hkT hxs hzero
    have hsr := abs_le.1 (fl_rel 53 (a + l))
    rw [abs_of_nonneg (by linarith)] at hsr
    change x ≤ fl 53 (a + l) at hxs
    obtain ⟨sm, hsm⟩ : ∃ s, s = fl 53 (a + l) := ⟨_, rfl⟩
    rw [← hsm] at hsr hxs
    obtain ⟨y, hy⟩ : ∃ y, y = (k : ℝ) * (E / 2 ^ 52) := ⟨_, rfl⟩
    rw [← hy] at hkerr hkz
    by_cases hlz : l = 0
    · rw [if_pos hlz] at hf
      obtain ⟨hz1, hz2, hz3⟩ := hzero hlz
      refine ⟨k, p, 0, hg, le_rfl, ?_, ?_, ?_⟩
      · rw [zero_mul, ← hl, hlz, zero_add]
        positivity
      · rw [hf]
        dsimp only
        rw [if_neg (by omega), e4 k p hg]
        rfl
      · rw [← hE, zero_mul, add_zero, hz1]
        have hrT' : r * T ≤ T := mul_le_of_le_one_left hT0 h1
        norm_num at hxe ⊢
        rw [abs_le]
        constructor <;> linarith
    have hlp : 0 < l := lt_of_le_of_ne hl0 (Ne.symm hlz)
    rw [if_neg hlz] at hf
    obtain ⟨dd, hdd⟩ : ∃ d, d = fl64 (x - a) := ⟨_, rfl⟩
    have hd0 : 0 ≤ dd := by rw [hdd]; exact fl_nonneg 53 (by linarith)
    have hde := abs_le.1 (fl_rel 53 (x - a))
    rw [abs_of_nonneg (by linarith), show fl 53 (x - a) = dd from hdd.symm] at hde
    rw [← hdd] at hf
    obtain ⟨q, hq⟩ : ∃ q, q = fl64 (dd / l) := ⟨_, rfl⟩
    have hq0 : 0 ≤ q := by rw [hq]; exact fl_nonneg 53 (div_nonneg hd0 hl0)
    have hqe : |q * l - dd| ≤ ((2 : ℝ) ^ 53)⁻¹ * dd := by
      have h2 := fl_rel 53 (dd / l)
      rw [abs_of_nonneg (div_nonneg hd0 hl0), show fl 53 (dd / l) = q from hq.symm] at h2
      have h3 : dd / l * l = dd := div_mul_cancel₀ _ hlz
      have h4 : q * l - dd = (q - dd / l) * l := by rw [sub_mul, h3]
      rw [h4, abs_mul, abs_of_pos hlp]
      calc |q - dd / l| * l ≤ ((2 : ℝ) ^ 53)⁻¹ * (dd / l) * l := mul_le_mul_of_nonneg_right h2 hl0
        _ = _ := by rw [mul_assoc, h3]
    have hqe := abs_le.1 hqe
    rw [← hq] at hf
    refine ⟨k, p, q, hg, hq0, ?_, ?_, ?_⟩
    · rw [← hl]
      norm_num at hxe hde hqe hsr ⊢
      linarith
    · rw [hf]
      dsimp only
      rw [if_neg (by omega), e4 k p hg]
      rfl
    · rw [← hE, ← hl]
      norm_num at hxe hde hqe hsr ⊢
      rw [abs_le]
      constructor <;> linarith

/-- C131: after `Truncate`, `Interpolate` with a ratio in [0, 1] is that of one of the parts left, at a non-negative ratio
which exceeds the length of the part by no more than four roundings of the length of the path, and the position on the path
is the one asked for up to the roundings. `ps'` are the parts left, the last of them truncated. -/
theorem C131_truncated_interpolate_partial (o : PartOps S P ℝ) (dflt : S) (ps : List P) (hd : DoubleLengths o ps)
    (hn : ps.length ≤ 2 ^ 50) (s : ℝ) (hs0 : 0 ≤ s)
    (htr : ∀ p ∈ ps, ∀ q, 0 ≤ q → q ≤ 1 → 0 ≤ o.length (o.truncate p q) ∧ o.length (o.truncate p q) ≤ o.length p ∧
      IsFlt 53 (o.length (o.truncate p q)))
    (r : ℝ) (h0 : 0 ≤ r) (h1 : r ≤ 1) (hne : ps ≠ [])
    (ps' : List P) (hps' : ps' = ((ofPartsF o dflt ps).truncateF o s).paths.map (fun e => e.2.2)) :
    ∃ (i : Nat) (p : P) (q : ℝ), ps'[i]? = some p ∧ 0 ≤ q ∧
      q * o.length p ≤ o.length p + (ps'.map o.length).sum / 2 ^ 51 ∧
      ((ofPartsF o dflt ps).truncateF o s).interpolateF o r = some (o.interpolate p q) ∧
      |lengthBefore o ps' i + q * o.length p - r * (ps'.map o.length).sum| ≤
        (ps'.length + 1) * ((ps'.map o.length).sum / 2 ^ 51) := by
  have hlen := List.length_pos_iff.mpr hne
  obtain ⟨e1, e3, e4, _⟩ := ofPartsF_paths o dflt ps
  rcases truncate_cases o dflt ps hd s hs0 with ⟨hf, _⟩ | ⟨k, p, q, hg, hq0, hq1, hf⟩
  · rw [hf] at hps' ⊢
    rw [ofPartsF_parts] at hps'
    subst hps'
    exact interp_general o _ ps' hne hd hn (fun i => accF o ps' (i + 1)) e1 e3 e4 (fun _ _ => rfl)
      (by rw [show ps'.length - 1 + 1 = ps'.length by omega]) r h0 h1
  · have hkl := (List.getElem?_eq_some_iff.mp hg).1
    obtain ⟨ht0, htl, htf⟩ := htr p (List.mem_of_getElem? hg) q hq0 hq1
    rw [hf] at hps' ⊢
    obtain ⟨p', hp'⟩ : ∃ p', p' = o.truncate p q := ⟨_, rfl⟩
    rw [← hp'] at hps' ht0 htl htf ⊢
    dsimp only at hps' ⊢
    rw [List.map_append, List.map_take, ofPartsF_parts, List.map_singleton] at hps'
    have hl' : ps'.length = k + 1 := by
      rw [hps', List.length_append, List.length_take, List.length_singleton]; omega
    have hacc : ∀ i, i ≤ k → accF o ps' i = accF o ps i := by
      intro i hi
      unfold accF
      rw [hps', List.take_append_of_le_length (by rw [List.length_take]; omega), List.take_take, min_eq_left hi]
    have hlast : ps'[k]? = some p' := by
      rw [hps', List.getElem?_append_right (by rw [List.length_take]; omega), List.length_take]
      rw [show k - min k ps.length = 0 by omega]; rfl
    have hd' : DoubleLengths o ps' := by
      intro x hx
      rw [hps'] at hx
      rcases List.mem_append.1 hx with hx | hx
      · exact hd x (List.mem_of_mem_take hx)
      · rw [List.mem_singleton.1 hx]; exact ⟨ht0, htf⟩
    refine interp_general o _ ps' (by intro h; rw [h] at hl'; simp at hl') hd' (by omega)
      (fun i => accF o ps (i + 1)) ?_ ?_ ?_ ?_ ?_ r h0 h1
    · dsimp only
      rw [hl', accF_succ o hlast, hacc k le_rfl]
    · dsimp only
      rw [List.length_append, List.length_take, List.length_singleton, e3]; omega
    · intro i x hx
      dsimp only
      have hi := (List.getElem?_eq_some_iff.mp hx).1
      by_cases hik : i < k
      · rw [hps', List.getElem?_append_left (by rw [List.length_take]; omega), List.getElem?_take_of_lt hik] at hx
        rw [List.getElem?_append_left (by rw [List.length_take]; omega), List.getElem?_take_of_lt hik, e4 i x hx,
          hacc i hik.le]
      · have : i = k := by omega
        subst this
        rw [hlast] at hx
        cases hx
        rw [List.getElem?_append_right (by rw [List.length_take]; omega), List.length_take, hacc i le_rfl]
        rw [show i - min i (ofPartsF o dflt ps).paths.length = 0 by omega]; rfl
    · intro i hi
      rw [hacc (i + 1) (by omega)]
    · rw [hl', show k + 1 - 1 + 1 = k + 1 by omega, accF_succ o hlast, hacc k le_rfl, accF_succ o hg]
      exact fl_mono 53 h53 (by linarith)

private theorem mem_cuspLoopF (o : PartOps S P ℝ) (total v : ℝ) : ∀ (l : List (ℝ × ℝ × P)) (L : ℝ) (prev : Direction),
    v ∈ cuspLoopF o total l L prev ↔ (∃ e ∈ l, v ∈ o.cusps e.2.2) ∨
      ∃ (i : Nat) (e : ℝ × ℝ × P) (d : Direction), l[i]? = some e ∧
        (prev :: l.map fun e => o.direction e.2.2 1)[i]? = some d ∧ o.direction e.2.2 0 ≠ d ∧
        v = fl64 (((l.take i).map fun e => e.2.2).foldl (fun a p => fl64 (a + o.length p)) L / total) := by
  intro l
  induction l with
  | nil => intro L prev; simp [cuspLoopF]
  | cons e es ih =>
    intro L prev
    rw [cuspLoopF, List.mem_append, List.mem_append, ih]
    constructor
    · rintro ((h | h) | ⟨e', he', h⟩ | ⟨i, e', d, h1, h2, h3, h4⟩)
      · right
        refine ⟨0, e, prev, rfl, rfl, ?_⟩
        split at h
        · next hne => exact ⟨hne, by simpa using h⟩
        · simp at h
      · exact .inl ⟨e, by simp, h⟩
      · exact .inl ⟨e', by simp [he'], h⟩
      · right
        exact ⟨i + 1, e', d, by simpa using h1, by simpa using h2, h3, by simpa using h4⟩
    · rintro (⟨e', he', h⟩ | ⟨i, e', d, h1, h2, h3, h4⟩)
      · rcases List.mem_cons.1 he' with rfl | he'
        · exact .inl (.inr h)
        · exact .inr (.inl ⟨e', he', h⟩)
      · cases i with
        | zero =>
          simp only [List.getElem?_cons_zero, Option.some.injEq] at h1 h2
          subst h1; subst h2
          left; left
          rw [if_pos h3, h4]
          simp
        | succ i =>
          right; right
          exact ⟨i, e', d, by simpa using h1, by simpa using h2, h3, by simpa using h4⟩

/-- C131: what `GetCuspPointRatios` reports is what the parts report, and one ratio for each part which starts in another
direction than the one the part before ends in. This ratio is in [0, 1], and is that of the start of the part up to the
roundings. -/
theorem C131_cusps (o : PartOps S P ℝ) (dflt : S) (ps : List P) (hd : DoubleLengths o ps)
    (hn : ps.length ≤ 2 ^ 50) (hT : 0 < (ps.map o.length).sum) :
    (∀ v ∈ (ofPartsF o dflt ps).getCuspPointRatiosF o, (∃ p ∈ ps, v ∈ o.cusps p) ∨
      ∃ (i : Nat) (p p' : P), ps[i]? = some p ∧ ps[i + 1]? = some p' ∧ o.direction p' 0 ≠ o.direction p 1 ∧
        0 ≤ v ∧ v ≤ 1 ∧ |v * (ps.map o.length).sum - lengthBefore o ps (i + 1)| ≤
          (ps.length + 1) * ((ps.map o.length).sum / 2 ^ 51)) ∧
    (∀ p ∈ ps, ∀ v ∈ o.cusps p, v ∈ (ofPartsF o dflt ps).getCuspPointRatiosF o) ∧
    ∀ (i : Nat) (p p' : P), ps[i]? = some p → ps[i + 1]? = some p' → o.direction p' 0 ≠ o.direction p 1 →
      ∃ v ∈ (ofPartsF o dflt ps).getCuspPointRatiosF o, 0 ≤ v ∧ v ≤ 1 ∧
        |v * (ps.map o.length).sum - lengthBefore o ps (i + 1)| ≤
          (ps.length + 1) * ((ps.map o.length).sum / 2 ^ 51) := by
  obtain ⟨e1, e3, e4, _⟩ := ofPartsF_paths o dflt ps
  have hparts := ofPartsF_parts o dflt ps
  -- the ratio of the start of a part
  have hratio : ∀ j, j ≤ ps.length → 0 ≤ fl64 (accF o ps j / accF o ps ps.length) ∧
      fl64 (accF o ps j / accF o ps ps.length) ≤ 1 ∧
      |fl64 (accF o ps j / accF o ps ps.length) * (ps.map o.length).sum - lengthBefore o ps j| ≤
        (ps.length + 1) * ((ps.map o.length).sum / 2 ^ 51) := by
    intro j hj
    have hTl : lengthBefore o ps ps.length = (ps.map o.length).sum := by unfold lengthBefore; rw [List.take_length]
    have herr := abs_le.1 (accF_err o hd ps.length le_rfl hn)
    have hjerr := abs_le.1 (accF_err o hd j hj (by omega))
    have hj0 := accF_nonneg o hd j
    have hjm := accF_mono o hd hj
    have hEm : lengthBefore o ps j ≤ lengthBefore o ps ps.length := lengthBefore_mono o (fun p hp => (hd p hp).1) hj
    have hE0 := lengthBefore_nonneg o hd j
    rw [← hTl] at hT ⊢
    obtain ⟨T, hTT⟩ : ∃ T, T = lengthBefore o ps ps.length := ⟨_, rfl⟩
    obtain ⟨A, hA⟩ : ∃ A, A = accF o ps ps.length := ⟨_, rfl⟩
    obtain ⟨a, ha⟩ : ∃ a, a = accF o ps j := ⟨_, rfl⟩
    obtain ⟨E, hE⟩ : ∃ E, E = lengthBefore o ps j := ⟨_, rfl⟩
    rw [← hTT] at hT herr hEm ⊢
    rw [← hA] at herr hjm ⊢
    rw [← ha] at hjerr hj0 hjm ⊢
    rw [← hE] at hjerr hEm hE0 ⊢
    have hn' : (ps.length : ℝ) ≤ 2 ^ 50 := by exact_mod_cast hn
    have hjn : (j : ℝ) ≤ ps.length := by exact_mod_cast hj
    obtain ⟨N, hN⟩ : ∃ N : ℝ, N = ps.length := ⟨_, rfl⟩
    rw [← hN] at hn' herr hjn ⊢
    have hNT : N * (T / 2 ^ 52) ≤ T / 4 := by
      have : N * (T / 2 ^ 52) ≤ 2 ^ 50 * (T / 2 ^ 52) := mul_le_mul_of_nonneg_right hn' (by positivity)
      refine this.trans ?_
      norm_num
      linarith
    have hA0 : 0 < A := by linarith
    have hr0 : 0 ≤ a / A := by positivity
    have hr1 : a / A ≤ 1 := (div_le_one hA0).mpr hjm
    have hv1 := fl_mono 53 h53 hr1
    rw [show fl 53 1 = 1 from fl_one] at hv1
    refine ⟨fl_nonneg 53 hr0, hv1, ?_⟩
    have hve := abs_le.1 (fl_rel 53 (a / A))
    rw [abs_of_nonneg hr0] at hve
    change |fl 53 (a / A) * T - E| ≤ _
    obtain ⟨v, hv⟩ : ∃ v, v = fl 53 (a / A) := ⟨_, rfl⟩
    rw [← hv] at hve ⊢
    obtain ⟨w, hw⟩ : ∃ w, w = a / A := ⟨_, rfl⟩
    have haw : a = w * A := by rw [hw, div_mul_cancel₀ _ hA0.ne']
    rw [← hw] at hve hr0 hr1
    have hjE : (j : ℝ) * (E / 2 ^ 52) ≤ N * (T / 2 ^ 52) :=
      mul_le_mul hjn (by gcongr) (by positivity) ((Nat.cast_nonneg j).trans hjn)
    have hwT : |w * A - w * T| ≤ N * (T / 2 ^ 52) := by
      rw [← mul_sub, abs_mul, abs_of_nonneg hr0]
      calc w * |A - T| ≤ 1 * |A - T| := mul_le_mul_of_nonneg_right hr1 (abs_nonneg _)
        _ ≤ _ := by rw [one_mul]; exact abs_le.2 herr
    have hwT := abs_le.1 hwT
    have hvw : |v * T - w * T| ≤ ((2 : ℝ) ^ 53)⁻¹ * T := by
      rw [← sub_mul, abs_mul, abs_of_pos hT]
      refine mul_le_mul_of_nonneg_right ?_ hT.le
      have h2 : ((2 : ℝ) ^ 53)⁻¹ * w ≤ ((2 : ℝ) ^ 53)⁻¹ := mul_le_of_le_one_right (by positivity) hr1
      exact (abs_le.2 hve).trans h2
    have hvw := abs_le.1 hvw
    have hgoal : (N + 1) * (T / 2 ^ 51) = 2 * (N * (T / 2 ^ 52)) + T / 2 ^ 51 := by ring
    rw [hgoal]
    obtain ⟨z, hz⟩ : ∃ z, z = N * (T / 2 ^ 52) := ⟨_, rfl⟩
    rw [← hz] at hjE hwT ⊢
    obtain ⟨y, hy⟩ : ∃ y, y = (j : ℝ) * (E / 2 ^ 52) := ⟨_, rfl⟩
    rw [← hy] at hjerr hjE
    rw [haw] at hjerr
    norm_num at hvw ⊢
    rw [abs_le]
    constructor <;> linarith
  -- what is inserted
  have hmem : ∀ v, v ∈ (ofPartsF o dflt ps).getCuspPointRatiosF o ↔ (∃ p ∈ ps, v ∈ o.cusps p) ∨
      ∃ (i : Nat) (p p' : P), ps[i]? = some p ∧ ps[i + 1]? = some p' ∧ o.direction p' 0 ≠ o.direction p 1 ∧
        v = fl64 (accF o ps (i + 1) / accF o ps ps.length) := by
    intro v
    unfold getCuspPointRatiosF
    cases hpaths : (ofPartsF o dflt ps).paths with
    | nil =>
      rw [hpaths] at hparts
      simp only [List.map_nil] at hparts
      rw [← hparts]
      simp
    | cons e0 es =>
      dsimp only
      rw [mem_cuspLoopF, e1, ← hpaths]
      constructor
      · rintro (⟨e, he, h⟩ | ⟨i, e, d, h1, h2, h3, h4⟩)
        · exact .inl ⟨e.2.2, by rw [← hparts]; exact List.mem_map.2 ⟨e, he, rfl⟩, h⟩
        · right
          cases i with
          | zero =>
            rw [hpaths] at h1
            simp only [List.getElem?_cons_zero, Option.some.injEq] at h1 h2
            subst h1; subst h2
            exact absurd rfl h3
          | succ i =>
            have hg1 : ps[i + 1]? = some e.2.2 := by
              rw [← hparts, List.getElem?_map, h1]; rfl
            simp only [List.getElem?_cons_succ, List.getElem?_map, Option.map_eq_some_iff] at h2
            obtain ⟨e', he', hd'⟩ := h2
            have hg0 : ps[i]? = some e'.2.2 := by
              rw [← hparts, List.getElem?_map, he']; rfl
            refine ⟨i, e'.2.2, e.2.2, hg0, hg1, by rw [hd']; exact h3, ?_⟩
            rw [h4, List.map_take, hparts]
            rfl
      · rintro (⟨p, hp, h⟩ | ⟨i, p, p', h1, h2, h3, h4⟩)
        · rw [← hparts] at hp
          obtain ⟨e, he, rfl⟩ := List.mem_map.1 hp
          exact .inl ⟨e, he, h⟩
        · right
          refine ⟨i + 1, _, o.direction p 1, e4 _ _ h2, ?_, h3, ?_⟩
          · rw [List.getElem?_cons_succ, List.getElem?_map, e4 _ _ h1]; rfl
          · rw [h4, List.map_take, hparts]
            rfl
  refine ⟨?_, fun p hp v hv => (hmem v).2 (.inl ⟨p, hp, hv⟩), ?_⟩
  · intro v hv
    rcases (hmem v).1 hv with h | ⟨i, p, p', h1, h2, h3, h4⟩
    · exact .inl h
    · right
      have := hratio (i + 1) (List.getElem?_eq_some_iff.mp h2).1.le
      rw [← h4] at this
      exact ⟨i, p, p', h1, h2, h3, this⟩
  · intro i p p' h1 h2 h3
    exact ⟨_, (hmem _).2 (.inr ⟨i, p, p', h1, h2, h3, rfl⟩), hratio (i + 1) (List.getElem?_eq_some_iff.mp h2).1.le⟩

/-- Parts known by their lengths, which report the ratio they are interpolated at, and are truncated with one
multiplication (path_constant_steer.cpp:29). -/
private noncomputable def lengths : PartOps ℝ ℝ ℝ where
  length p := p
  init p := p
  final p := p
  interpolate _ q := q
  truncate p q := fl64 (p * q)
  direction _ _ := .forward
  cusps _ := []

private theorem fl_at (x : ℝ) (n e : ℤ) (h1 : (2 : ℝ) ^ (e + 52) ≤ |x|) (h2 : |x| < 2 ^ (e + 53))
    (h3 : |x - n * 2 ^ e| < 2 ^ e / 2) : fl64 x = n * 2 ^ e := by
  unfold fl64
  exact fl_eq (p := 53) (by simpa using h1) (by simpa using h2) h3

/-- The double nearest to 1/17. -/
private noncomputable def seventeenth : ℝ := 8477364004462110 / 2 ^ 57

/-- Violation of C131: on a path of a part of 2 m and a part of 49 m, truncated at 3 m, `Interpolate(1)` interpolates its
last part at a ratio above 1: beyond its end for a constant steer, and against the assertion of
`PathReedsShepp::Interpolate` (path_reeds_shepp.cpp:14). -/
theorem C131_truncated_beyond_end :
    ∃ (o : PartOps ℝ ℝ ℝ) (ps : List ℝ) (r : ℝ), (∀ p q, o.length (o.truncate p q) = fl64 (o.length p * q)) ∧
      (∀ p q, o.interpolate p q = q) ∧ DoubleLengths o ps ∧ 0 ≤ r ∧ r ≤ 1 ∧ IsFlt 53 r ∧
      ∃ q, ((ofPartsF o 0 ps).truncateF o r).interpolateF o 1 = some q ∧ 1 < q := by
  have hint : ∀ n : ℤ, |n| ≤ 2 ^ 53 → fl64 (n : ℝ) = n := fun n hn => fl_int h53 hn
  have f2 : fl64 2 = 2 := by simpa using hint 2 (by norm_num)
  have f49 : fl64 49 = 49 := by simpa using hint 49 (by norm_num)
  have f51 : fl64 51 = 51 := by simpa using hint 51 (by norm_num)
  have f3 : fl64 3 = 3 := by simpa using hint 3 (by norm_num)
  have hx : fl64 (seventeenth * 51) = 3 := by
    rw [fl_at (seventeenth * 51) (3 * 2 ^ 51) (-51)] <;> norm_num [abs_lt, seventeenth]
  have hq : fl64 (1 / 49) = 5882252574524729 / 2 ^ 58 := by
    rw [fl_at (1 / 49) 5882252574524729 (-58)] <;> norm_num [abs_lt]
  have hl : fl64 (49 * (5882252574524729 / 2 ^ 58)) = 1 - 1 / 2 ^ 53 := by
    rw [fl_at (49 * (5882252574524729 / 2 ^ 58)) (2 ^ 53 - 1) (-53)] <;> norm_num [abs_lt]
  have hm : fl64 (2 + (1 - 1 / 2 ^ 53)) = 3 := by
    rw [fl_at (2 + (1 - 1 / 2 ^ 53)) (3 * 2 ^ 51) (-51)] <;> norm_num [abs_lt]
  have hr : fl64 (1 / (1 - 1 / 2 ^ 53)) = 1 + 1 / 2 ^ 52 := by
    rw [fl_at (1 / (1 - 1 / 2 ^ 53)) (2 ^ 52 + 1) (-52)] <;> norm_num [abs_lt]
  have hof : ofPartsF lengths 0 [2, 49] = ⟨0, 49, 51, [(0, 2, 2), (2, 51, 49)]⟩ := by
    simp only [ofPartsF, List.foldl_cons, List.foldl_nil, pushBackF, Composite.new, lengths, zero_add, f2]
    norm_num [f51]
  have hfind : (⟨0, 49, 51, [(0, 2, 2), (2, 51, 49)]⟩ : Composite ℝ ℝ ℝ).findSegmentF lengths seventeenth =
      (1, 5882252574524729 / 2 ^ 58) := by
    unfold findSegmentF
    dsimp only
    rw [hx]
    have hu : upperBound ((⟨0, 49, 51, [(0, 2, 2), (2, 51, 49)]⟩ : Composite ℝ ℝ ℝ).lessThanAt 3) 0
        [((0 : ℝ), (2 : ℝ), (2 : ℝ)), (2, 51, 49)].length = 1 := by
      rw [List.length_cons, List.length_singleton, upperBound]
      norm_num [lessThanAt]
      rw [upperBound]
      norm_num [lessThanAt]
      rw [upperBound]
      norm_num
    rw [hu]
    norm_num [lengths]
    rw [fl_one]
    norm_num at hq
    exact hq
  have htr : (⟨0, 49, 51, [(0, 2, 2), (2, 51, 49)]⟩ : Composite ℝ ℝ ℝ).truncateF lengths seventeenth =
      ⟨0, 1 - 1 / 2 ^ 53, 3, [(0, 2, 2), (2, 51, 1 - 1 / 2 ^ 53)]⟩ := by
    unfold truncateF
    rw [if_neg (by simp), hfind]
    simp only [lengths, List.getElem?_cons_succ, List.getElem?_cons_zero, hl, hm, List.take_succ_cons, List.take_zero,
      List.cons_append, List.nil_append]
  refine ⟨lengths, [2, 49], seventeenth, fun _ _ => rfl, fun _ _ => rfl, ?_, ?_, ?_, ?_, 1 + 1 / 2 ^ 52, ?_, by norm_num⟩
  · intro p hp
    rcases List.mem_pair.1 hp with rfl | rfl
    · exact ⟨by norm_num [lengths], f2⟩
    · exact ⟨by norm_num [lengths], f49⟩
  · unfold seventeenth; norm_num
  · unfold seventeenth; norm_num
  · exact fl_repr h53 (n := 8477364004462110) (e := -57) (by unfold seventeenth; norm_num) (by norm_num)
  · rw [hof, htr]
    unfold interpolateF findSegmentF
    dsimp only
    rw [one_mul, f3]
    have hu : upperBound ((⟨0, 1 - 1 / 2 ^ 53, 3, [(0, 2, 2), (2, 51, 1 - 1 / 2 ^ 53)]⟩ : Composite ℝ ℝ ℝ).lessThanAt 3) 0
        [((0 : ℝ), (2 : ℝ), (2 : ℝ)), (2, 51, 1 - 1 / 2 ^ 53)].length = 1 := by
      rw [List.length_cons, List.length_singleton, upperBound]
      norm_num [lessThanAt]
      rw [upperBound]
      norm_num [lessThanAt]
      rw [upperBound]
      norm_num
    rw [hu]
    norm_num [lengths]
    rw [fl_one]
    norm_num at hr
    rw [one_div_div]
    exact hr

/-- C131: where the computed position is before the computed length, `GetDirection` is that of a part, at a ratio in [0, 1],
and the position on the path is the one asked for, up to the same roundings. -/
theorem C131_direction_partial (o : PartOps S P ℝ) (dflt : S) (ps : List P) (hne : ps ≠ []) (hd : DoubleLengths o ps)
    (hn : ps.length ≤ 2 ^ 50) (r : ℝ) (h0 : 0 ≤ r) (h1 : r ≤ 1)
    (hlt : fl64 (r * (ofPartsF o dflt ps).length) < (ofPartsF o dflt ps).length) :
    ∃ (i : Nat) (p : P) (q : ℝ), ps[i]? = some p ∧ 0 ≤ q ∧ q ≤ 1 ∧
      (ofPartsF o dflt ps).getDirectionF o r = some (o.direction p q) ∧
      |lengthBefore o ps i + q * o.length p - r * (ps.map o.length).sum| ≤
        (ps.length + 1) * ((ps.map o.length).sum / 2 ^ 51) := by
  -- the same parts, with the part and the ratio themselves as states
  obtain ⟨p0, hp0⟩ : ∃ p, p ∈ ps := List.exists_mem_of_ne_nil ps hne
  let o' : PartOps (P × ℝ) P ℝ :=
    { length := o.length, init := fun p => (p, 0), final := fun p => (p, 1), interpolate := fun p q => (p, q),
      truncate := o.truncate, direction := o.direction, cusps := o.cusps }
  obtain ⟨i, p, q, hp, hq0, hq1, hint, hpos⟩ := C131_interpolate_partial o' (p0, 0) ps hne hd hn r h0 h1
  refine ⟨i, p, q, hp, hq0, hq1, ?_, hpos⟩
  obtain ⟨e1, e3, e4, _⟩ := ofPartsF_paths o dflt ps
  obtain ⟨d1, d3, d4, _⟩ := ofPartsF_paths o' (p0, 0) ps
  have hl : (ofPartsF o' (p0, 0) ps).length = (ofPartsF o dflt ps).length := by rw [d1, e1]; rfl
  have hpaths : (ofPartsF o' (p0, 0) ps).paths = (ofPartsF o dflt ps).paths := by
    apply List.ext_getElem?
    intro j
    by_cases hj : j < ps.length
    · rw [d4 j _ (List.getElem?_eq_getElem hj), e4 j _ (List.getElem?_eq_getElem hj)]; rfl
    · rw [List.getElem?_eq_none (by omega), List.getElem?_eq_none (by omega)]
  have hfind : (ofPartsF o' (p0, 0) ps).findSegmentF o' r = (ofPartsF o dflt ps).findSegmentF o r := by
    unfold findSegmentF
    have : (ofPartsF o' (p0, 0) ps).lessThanAt = (ofPartsF o dflt ps).lessThanAt := by
      funext x j; unfold lessThanAt; rw [hpaths]
    dsimp only
    rw [hl, this, hpaths]
  have hlen := List.length_pos_iff.mpr hne
  unfold interpolateF at hint
  rw [hfind, hpaths] at hint
  unfold getDirectionF
  rcases findF_spec o _ (ofPartsF_mono o dflt hd) r with ⟨hall, _⟩ | ⟨k, e, hk, _, _, hf⟩
  · exfalso
    have := hall (ps.length - 1) _ (e4 _ _ (List.getElem?_eq_getElem (show ps.length - 1 < ps.length by omega)))
    dsimp only at this
    rw [show ps.length - 1 + 1 = ps.length by omega, ← e1] at this
    exact absurd hlt (not_lt.2 this)
  · have hkl := (List.getElem?_eq_some_iff.mp hk).1
    rw [if_neg (by
      intro hcon
      have := List.isEmpty_iff_length_eq_zero.mp hcon
      omega)] at hint
    obtain ⟨w, hw⟩ : ∃ w, w = (ofPartsF o dflt ps).findSegmentF o r := ⟨_, rfl⟩
    have hw1 : w.1 = k := by rw [hw, hf]; split <;> rfl
    rw [← hw] at hint ⊢
    obtain ⟨j, t⟩ := w
    dsimp only at hw1 hint ⊢
    subst hw1
    rw [if_neg (by omega), hk] at hint
    rw [hk]
    simp only [Option.map_some, Option.some.injEq, o', Prod.mk.injEq] at hint
    rw [Option.map_some, hint.1, hint.2]

/-- C131 fails at the end: where the computed position reaches the computed length, in particular at ratio 1, `GetDirection`
dereferences the end of the list. -/
theorem C131_direction_at_end_undefined (o : PartOps S P ℝ) (dflt : S) (ps : List P) (hd : DoubleLengths o ps) :
    (∀ r, (ofPartsF o dflt ps).length ≤ fl64 (r * (ofPartsF o dflt ps).length) →
      (ofPartsF o dflt ps).getDirectionF o r = none) ∧
    (ofPartsF o dflt ps).getDirectionF o 1 = none := by
  obtain ⟨e1, e3, e4, _⟩ := ofPartsF_paths o dflt ps
  have hmain : ∀ r, (ofPartsF o dflt ps).length ≤ fl64 (r * (ofPartsF o dflt ps).length) →
      (ofPartsF o dflt ps).getDirectionF o r = none := by
    intro r hr
    unfold getDirectionF
    rcases findF_spec o _ (ofPartsF_mono o dflt hd) r with ⟨_, hf⟩ | ⟨k, e, hk, hlt, _, _⟩
    · rw [hf]
      dsimp only
      rw [List.getElem?_eq_none le_rfl]
      rfl
    · exfalso
      have hkl := (List.getElem?_eq_some_iff.mp hk).1
      rw [e3] at hkl
      rw [e4 k _ (List.getElem?_eq_getElem hkl)] at hk
      cases hk
      have := accF_mono o hd (show k + 1 ≤ ps.length by omega)
      rw [← e1] at this
      dsimp only at hlt
      linarith
  refine ⟨hmain, hmain 1 ?_⟩
  rw [one_mul, e1, accF_flt]

/-- Parts of 1 m forward and of 2 m backward. -/
private noncomputable def backAndForth : PartOps ℝ Bool ℝ where
  length p := if p then 1 else 2
  init _ := 0
  final p := if p then 1 else 2
  interpolate _ q := q
  truncate p _ := p
  direction p _ := if p then .forward else .backward
  cusps _ := []

private theorem backAndForth_lengths : DoubleLengths backAndForth [true, false] := by
  intro p _
  cases p
  · refine ⟨by simp [backAndForth], ?_⟩
    simpa [backAndForth, IsFlt] using fl_int (p := 53) h53 (n := 2) (by norm_num)
  · refine ⟨by simp [backAndForth], ?_⟩
    simpa [backAndForth, IsFlt] using fl_int (p := 53) h53 (n := 1) (by norm_num)

/-- Non-vacuity: a path with a cusp meets the hypotheses of the theorems above, and reports it. -/
example : [true, false] ≠ [] ∧ DoubleLengths backAndForth [true, false] ∧
    0 < ([true, false].map backAndForth.length).sum ∧
    ∃ v ∈ (ofPartsF backAndForth 0 [true, false]).getCuspPointRatiosF backAndForth, 0 ≤ v ∧ v ≤ 1 ∧
      |v * 3 - 1| ≤ 3 * (3 / 2 ^ 51) := by
  have hT : 0 < ([true, false].map backAndForth.length).sum := by norm_num [backAndForth]
  refine ⟨by simp, backAndForth_lengths, hT, ?_⟩
  obtain ⟨v, h1, h2, h3, h4⟩ := (C131_cusps backAndForth 0 [true, false] backAndForth_lengths (by norm_num) hT).2.2
    0 true false rfl rfl (by simp [backAndForth])
  refine ⟨v, h1, h2, h3, ?_⟩
  norm_num [backAndForth, lengthBefore] at h4 ⊢
  exact h4

/-- Non-vacuity of `C131_direction_partial`: the ratio 0 of that path, which goes forward there. -/
example : fl64 (0 * (ofPartsF backAndForth 0 [true, false]).length) < (ofPartsF backAndForth 0 [true, false]).length ∧
    (ofPartsF backAndForth 0 [true, false]).getDirectionF backAndForth 1 = none := by
  refine ⟨?_, (C131_direction_at_end_undefined backAndForth 0 [true, false] backAndForth_lengths).2⟩
  have h := (C131_length_and_final backAndForth 0 [true, false] backAndForth_lengths (by norm_num)).1
  norm_num [backAndForth] at h
  have h := abs_le.1 h
  rw [zero_mul, show fl64 0 = 0 from fl_zero 53]
  change 0 < (ofPartsF backAndForth 0 [true, false]).length
  unfold backAndForth
  linarith

/-- Non-vacuity of `C131_truncated_interpolate_partial`: parts which are truncated with one multiplication meet its
hypothesis on truncated parts, as long as their lengths do not underflow. -/
example (p q : ℝ) (hp : 0 ≤ p) (hf : IsFlt 53 p) (h0 : 0 ≤ q) (h1 : q ≤ 1) :
    0 ≤ lengths.length (lengths.truncate p q) ∧ lengths.length (lengths.truncate p q) ≤ lengths.length p ∧
      IsFlt 53 (lengths.length (lengths.truncate p q)) := by
  refine ⟨fl_nonneg 53 (mul_nonneg hp h0), ?_, fl_fl 53 h53 _⟩
  have := fl_mono 53 h53 (mul_le_of_le_one_right hp h1)
  rw [hf] at this
  exact this

end PathPlanning
