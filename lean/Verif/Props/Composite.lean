import Verif.Model.Composite
import Mathlib.Tactic.Linarith
import Mathlib.Tactic.FieldSimp
import Mathlib.Tactic.Ring
import Mathlib.Algebra.Order.BigOperators.Group.List
import Mathlib.Algebra.Field.Rat
import Mathlib.Algebra.Order.Ring.Rat

/-!
# C47 (and C46 for composite paths)
-/

namespace PathPlanning
open Composite
variable {S P K : Type} [LinearOrder K] [Field K]

/-- The composite path made of the parts `ps`. -/
def Composite.ofParts (o : PartOps S P K) (dflt : S) (ps : List P) : Composite S P K :=
  ps.foldl (pushBack o) (new dflt)

/-- Length of the first `i` parts. -/
def lengthBefore (o : PartOps S P K) (ps : List P) (i : Nat) : K := ((ps.take i).map o.length).sum

theorem upperBound_spec (above : Nat → Bool) : ∀ (len first : Nat),
    (∀ i j, first ≤ i → i ≤ j → j < first + len → above i = true → above j = true) →
    first ≤ upperBound above first len ∧ upperBound above first len ≤ first + len ∧
    (∀ i, first ≤ i → i < upperBound above first len → above i = false) ∧
    (∀ i, upperBound above first len ≤ i → i < first + len → above i = true) := by
  intro len
  induction len using Nat.strongRecOn with
  | ind len ih =>
    intro first hm
    rw [upperBound]
    split
    · rename_i h
      subst h
      exact ⟨le_refl _, le_refl _, fun i h1 h2 => by omega, fun i h1 h2 => by omega⟩
    · rename_i h
      dsimp only
      split
      · rename_i ha
        obtain ⟨h1, h2, h3, h4⟩ := ih (len / 2) (by omega) first
          (fun i j a b c d => hm i j a b (by omega) d)
        refine ⟨h1, by omega, h3, fun i h5 h6 => ?_⟩
        by_cases h7 : i < first + len / 2
        · exact h4 i h5 h7
        · exact hm (first + len / 2) i (by omega) (by omega) h6 ha
      · rename_i ha
        obtain ⟨h1, h2, h3, h4⟩ := ih (len - len / 2 - 1) (by omega) (first + len / 2 + 1)
          (fun i j a b c d => hm i j (by omega) b (by omega) d)
        refine ⟨by omega, by omega, fun i h5 h6 => ?_, fun i h5 h6 => h4 i h5 (by omega)⟩
        by_cases h7 : first + len / 2 + 1 ≤ i
        · exact h3 i h7 h6
        · by_contra h8
          have h8' : above i = true := by simpa using h8
          exact ha (hm i (first + len / 2) h5 (by omega) (by omega) h8')

private theorem ofParts_paths (o : PartOps S P K) (dflt : S) (ps : List P) :
    (ofParts o dflt ps).length = (ps.map o.length).sum ∧
    (ofParts o dflt ps).init = dflt ∧
    (ofParts o dflt ps).paths.length = ps.length ∧
    (∀ i p, ps[i]? = some p → (ofParts o dflt ps).paths[i]? =
      some (lengthBefore o ps i, lengthBefore o ps (i + 1), p)) ∧
    (∀ p, ps.getLast? = some p → (ofParts o dflt ps).final = o.final p) := by
  induction ps using List.reverseRecOn with
  | nil => exact ⟨rfl, rfl, rfl, by simp, by simp⟩
  | append_singleton ps q ih =>
    obtain ⟨h1, h2, h3, h4, h5⟩ := ih
    have he : ofParts o dflt (ps ++ [q]) = (ofParts o dflt ps).pushBack o q := by
      simp [ofParts]
    have hlb : ∀ i, i ≤ ps.length → lengthBefore o (ps ++ [q]) i = lengthBefore o ps i := by
      intro i hi
      unfold lengthBefore
      rw [List.take_append_of_le_length hi]
    have htot : lengthBefore o ps ps.length = (ps.map o.length).sum := by
      unfold lengthBefore; rw [List.take_length]
    refine ⟨?_, ?_, ?_, ?_, ?_⟩
    · rw [he]; simp [pushBack, h1]
    · rw [he]; exact h2
    · rw [he]; simp [pushBack, h3]
    · intro i p hp
      rw [he]
      have hi : i < (ps ++ [q]).length := (List.getElem?_eq_some_iff.mp hp).1
      simp only [List.length_append, List.length_singleton] at hi
      simp only [pushBack]
      by_cases hlt : i < ps.length
      · rw [List.getElem?_append_left hlt] at hp
        rw [List.getElem?_append_left (by omega), h4 i p hp, hlb i (by omega), hlb (i + 1) (by omega)]
      · have hi' : i = ps.length := by omega
        subst hi'
        rw [List.getElem?_append_right (by omega)] at hp ⊢
        rw [h3]
        simp only [Nat.sub_self, List.getElem?_cons_zero, Option.some.injEq] at hp ⊢
        subst hp
        rw [hlb _ (le_refl _), htot, h1]
        have : lengthBefore o (ps ++ [q]) (ps.length + 1) = (ps.map o.length).sum + o.length q := by
          unfold lengthBefore
          rw [List.take_of_length_le (by simp)]
          simp
        rw [this]
    · intro p hp
      rw [he]
      simp only [List.getLast?_append, List.getLast?_singleton, Option.some_or, Option.some.injEq] at hp
      subst hp; rfl

variable [IsStrictOrderedRing K]

theorem lengthBefore_succ (o : PartOps S P K) {ps : List P} {i : Nat} {p : P} (h : ps[i]? = some p) :
    lengthBefore o ps (i + 1) = lengthBefore o ps i + o.length p := by
  unfold lengthBefore
  obtain ⟨hi, hp⟩ := List.getElem?_eq_some_iff.mp h
  rw [List.take_succ_eq_append_getElem hi, List.map_append, List.sum_append, hp]
  simp

theorem lengthBefore_mono (o : PartOps S P K) {ps : List P} (hn : ∀ p ∈ ps, 0 ≤ o.length p)
    {i j : Nat} (h : i ≤ j) : lengthBefore o ps i ≤ lengthBefore o ps j := by
  induction h with
  | refl => exact le_refl _
  | @step m _ ih =>
    by_cases hm : m < ps.length
    · rw [lengthBefore_succ o (List.getElem?_eq_getElem hm)]
      have := hn _ (List.getElem_mem hm)
      linarith
    · have : lengthBefore o ps (m + 1) = lengthBefore o ps m := by
        unfold lengthBefore
        rw [List.take_of_length_le (by omega), List.take_of_length_le (by omega)]
      rw [this]; exact ih

/-- What `findSegment` needs of the stored lengths. -/
private theorem find_of_bounds (o : PartOps S P K) (c : Composite S P K) (x r : K) (hx : r * c.length = x)
    (hm : ∀ (i j : Nat) (a b : K × K × P), i ≤ j → c.paths[i]? = some a → c.paths[j]? = some b → a.2.1 ≤ b.2.1)
    (k : Nat) (e : K × K × P) (hk : c.paths[k]? = some e) (hlt : x < e.2.1)
    (hge : ∀ (i : Nat) (a : K × K × P), i < k → c.paths[i]? = some a → a.2.1 ≤ x) :
    c.findSegment o r = if o.length e.2.2 = 0 then (k, 0) else (k, (x - e.1) / o.length e.2.2) := by
  unfold findSegment
  dsimp only
  rw [hx]
  obtain ⟨h1, h2, h3, h4⟩ := upperBound_spec (c.lessThanAt x) c.paths.length 0 (by
      intro i j _ hij hj ha
      have hi' : i < c.paths.length := by omega
      have hj' : j < c.paths.length := by omega
      simp only [lessThanAt, List.getElem?_eq_getElem hi', decide_eq_true_eq] at ha
      simp only [lessThanAt, List.getElem?_eq_getElem hj', decide_eq_true_eq]
      exact lt_of_lt_of_le ha (hm i j _ _ hij (List.getElem?_eq_getElem hi') (List.getElem?_eq_getElem hj')))
  have hkl := (List.getElem?_eq_some_iff.mp hk).1
  obtain ⟨u, hu⟩ : ∃ u, u = upperBound (c.lessThanAt x) 0 c.paths.length := ⟨_, rfl⟩
  rw [← hu] at h1 h2 h3 h4 ⊢
  have huk : u = k := by
    rcases Nat.lt_trichotomy u k with h | h | h
    · exfalso
      have h5 := h4 u (le_refl _) (by omega)
      have hul : u < c.paths.length := by omega
      simp only [lessThanAt, List.getElem?_eq_getElem hul, decide_eq_true_eq] at h5
      exact absurd h5 (not_lt.mpr (hge u _ h (List.getElem?_eq_getElem hul)))
    · exact h
    · exfalso
      have h5 := h3 k (by omega) h
      simp only [lessThanAt, hk, decide_eq_false_iff_not] at h5
      exact h5 hlt
  rw [huk, hk]

private theorem find_end (o : PartOps S P K) (c : Composite S P K) (x r : K) (hx : r * c.length = x)
    (hge : ∀ (i : Nat) (a : K × K × P), c.paths[i]? = some a → a.2.1 ≤ x) :
    c.findSegment o r = (c.paths.length, 1) := by
  unfold findSegment
  dsimp only
  rw [hx]
  have hf : ∀ i, c.lessThanAt x i = false := by
    intro i
    unfold lessThanAt
    cases h : c.paths[i]? with
    | none => rfl
    | some a => simpa using hge i a h
  obtain ⟨h1, h2, h3, h4⟩ := upperBound_spec (c.lessThanAt x) c.paths.length 0 (by
      intro i j _ hij hj ha
      have := hf i
      rw [this] at ha; cases ha)
  obtain ⟨u, hu⟩ : ∃ u, u = upperBound (c.lessThanAt x) 0 c.paths.length := ⟨_, rfl⟩
  rw [← hu] at h1 h2 h3 h4 ⊢
  have hul : u = c.paths.length := by
    by_contra hne
    have h5 := h4 u (le_refl _) (by omega)
    have h6 := hf u
    rw [h6] at h5; cases h5
  rw [hul, List.getElem?_eq_none (le_refl _)]

private theorem ofParts_mono (o : PartOps S P K) (dflt : S) {ps : List P} (hn : ∀ p ∈ ps, 0 ≤ o.length p) :
    ∀ (i j : Nat) (a b : K × K × P), i ≤ j → (ofParts o dflt ps).paths[i]? = some a → (ofParts o dflt ps).paths[j]? = some b →
      a.2.1 ≤ b.2.1 := by
  intro i j a b hij ha hb
  obtain ⟨_, _, h3, h4, _⟩ := ofParts_paths o dflt ps
  have hi := (List.getElem?_eq_some_iff.mp ha).1
  have hj := (List.getElem?_eq_some_iff.mp hb).1
  rw [h3] at hi hj
  rw [h4 i _ (List.getElem?_eq_getElem hi)] at ha
  rw [h4 j _ (List.getElem?_eq_getElem hj)] at hb
  cases ha; cases hb
  exact lengthBefore_mono o hn (by omega)

/-- Position `x` along the parts lies in part `i`, which is `p`. -/
private theorem find_ofParts (o : PartOps S P K) (dflt : S) {ps : List P} (hn : ∀ p ∈ ps, 0 ≤ o.length p)
    {i : Nat} {p : P} (hp : ps[i]? = some p) {r : K}
    (h1 : lengthBefore o ps i ≤ r * (ps.map o.length).sum)
    (h2 : r * (ps.map o.length).sum < lengthBefore o ps i + o.length p) :
    (ofParts o dflt ps).findSegment o r =
      (i, (r * (ps.map o.length).sum - lengthBefore o ps i) / o.length p) := by
  obtain ⟨e1, _, e3, e4, _⟩ := ofParts_paths o dflt ps
  have hne : o.length p ≠ 0 := by intro h0; rw [h0] at h2; linarith
  rw [find_of_bounds o _ (r * (ps.map o.length).sum) r (by rw [e1]) (ofParts_mono o dflt hn) i
    (lengthBefore o ps i, lengthBefore o ps (i + 1), p) (e4 i p hp)
    (by dsimp only; rw [lengthBefore_succ o hp]; exact h2)
    (by
      intro j a hj ha
      have hjl := (List.getElem?_eq_some_iff.mp ha).1
      rw [e3] at hjl
      rw [e4 j _ (List.getElem?_eq_getElem hjl)] at ha
      cases ha
      exact (lengthBefore_mono o hn (by omega)).trans h1)]
  dsimp only
  rw [if_neg hne]

/-- C47. The length of a composite path is the sum of the lengths of its parts, and its final state
is the one of the last part. -/
theorem C47_length_and_final (o : PartOps S P K) (dflt : S) (ps : List P) :
    (ofParts o dflt ps).length = (ps.map o.length).sum ∧
    ∀ p, ps.getLast? = some p → (ofParts o dflt ps).final = o.final p :=
  ⟨(ofParts_paths o dflt ps).1, (ofParts_paths o dflt ps).2.2.2.2⟩

/-- C47. At a ratio whose position lies in part `p`, interpolation is that of `p` at the relative
position in `p`. -/
theorem C47_interpolate (o : PartOps S P K) (dflt : S) (ps : List P) (hn : ∀ p ∈ ps, 0 ≤ o.length p)
    (i : Nat) (p : P) (hp : ps[i]? = some p) (r : K)
    (h1 : lengthBefore o ps i ≤ r * (ps.map o.length).sum)
    (h2 : r * (ps.map o.length).sum < lengthBefore o ps i + o.length p) :
    (ofParts o dflt ps).interpolate o r =
      some (o.interpolate p ((r * (ps.map o.length).sum - lengthBefore o ps i) / o.length p)) := by
  obtain ⟨_, _, e3, e4, _⟩ := ofParts_paths o dflt ps
  have hi := (List.getElem?_eq_some_iff.mp hp).1
  unfold interpolate
  rw [if_neg (by
    intro h0
    have := List.isEmpty_iff_length_eq_zero.mp h0
    omega), find_ofParts o dflt hn hp h1 h2]
  dsimp only
  rw [if_neg (by omega), e4 i p hp]
  rfl

/-- C47. At the end of the path (ratio 1, or beyond) it is the end of the last part. -/
theorem C47_interpolate_end (o : PartOps S P K) (dflt : S) (ps : List P)
    (hn : ∀ p ∈ ps, 0 ≤ o.length p) (p : P) (hp : ps.getLast? = some p) (r : K)
    (h : (ps.map o.length).sum ≤ r * (ps.map o.length).sum) :
    (ofParts o dflt ps).interpolate o r = some (o.interpolate p 1) := by
  obtain ⟨e1, _, e3, e4, _⟩ := ofParts_paths o dflt ps
  have hne : ps ≠ [] := by intro h0; rw [h0] at hp; cases hp
  have hlen := List.length_pos_iff.mpr hne
  have hp' : ps[ps.length - 1]? = some p := by rw [← List.getLast?_eq_getElem?]; exact hp
  unfold interpolate
  rw [if_neg (by
    intro h0
    have := List.isEmpty_iff_length_eq_zero.mp h0
    omega), find_end o _ _ r (by rw [e1]) (by
      intro j a ha
      have hjl := (List.getElem?_eq_some_iff.mp ha).1
      rw [e3] at hjl
      rw [e4 j _ (List.getElem?_eq_getElem hjl)] at ha
      cases ha
      refine le_trans ?_ h
      have := lengthBefore_mono o hn (show j + 1 ≤ ps.length by omega)
      unfold lengthBefore at this ⊢
      rw [List.take_length] at this
      exact this)]
  dsimp only
  rw [if_pos rfl, e3, e4 _ p hp']
  rfl

/-- C47. Every ratio in [0, 1] is covered by the two theorems above. -/
theorem C47_ratio_cases (o : PartOps S P K) (ps : List P) (r : K)
    (h0 : 0 ≤ r * (ps.map o.length).sum) (h1 : r * (ps.map o.length).sum < (ps.map o.length).sum) :
    ∃ i p, ps[i]? = some p ∧ lengthBefore o ps i ≤ r * (ps.map o.length).sum ∧
      r * (ps.map o.length).sum < lengthBefore o ps i + o.length p := by
  obtain ⟨x, hx⟩ : ∃ x, x = r * (ps.map o.length).sum := ⟨_, rfl⟩
  rw [← hx] at h0 h1 ⊢
  have : ∀ n, n ≤ ps.length → x < lengthBefore o ps n → ∃ i p, ps[i]? = some p ∧ lengthBefore o ps i ≤ x ∧
      x < lengthBefore o ps i + o.length p := by
    intro n
    induction n with
    | zero => intro _ h; exact absurd h (not_lt.mpr (by simpa [lengthBefore] using h0))
    | succ n ih =>
      intro hn h
      by_cases hlt : x < lengthBefore o ps n
      · exact ih (by omega) hlt
      · have hg := List.getElem?_eq_getElem (show n < ps.length by omega)
        refine ⟨n, _, hg, not_lt.mp hlt, ?_⟩
        rw [← lengthBefore_succ o hg]; exact h
  refine this ps.length (le_refl _) ?_
  unfold lengthBefore
  rw [List.take_length]; exact h1

/-- C47. The direction before the end of the path is the one of the part at that position. -/
theorem C47_direction_partial (o : PartOps S P K) (dflt : S) (ps : List P) (hn : ∀ p ∈ ps, 0 ≤ o.length p)
    (i : Nat) (p : P) (hp : ps[i]? = some p) (r : K)
    (h1 : lengthBefore o ps i ≤ r * (ps.map o.length).sum)
    (h2 : r * (ps.map o.length).sum < lengthBefore o ps i + o.length p) :
    (ofParts o dflt ps).getDirection o r =
      some (o.direction p ((r * (ps.map o.length).sum - lengthBefore o ps i) / o.length p)) := by
  obtain ⟨_, _, e3, e4, _⟩ := ofParts_paths o dflt ps
  unfold getDirection
  rw [find_ofParts o dflt hn hp h1 h2]
  dsimp only
  rw [e4 i p hp]
  rfl

/-- C47 fails at the end of the path: `GetDirection(1)` dereferences the end iterator, for every
composite path. -/
theorem C47_direction_at_end_undefined (o : PartOps S P K) (dflt : S) (ps : List P)
    (hn : ∀ p ∈ ps, 0 ≤ o.length p) : (ofParts o dflt ps).getDirection o 1 = none := by
  obtain ⟨e1, _, e3, e4, _⟩ := ofParts_paths o dflt ps
  unfold getDirection
  rw [find_end o _ _ 1 (by rw [e1]) (by
      intro j a ha
      have hjl := (List.getElem?_eq_some_iff.mp ha).1
      rw [e3] at hjl
      rw [e4 j _ (List.getElem?_eq_getElem hjl)] at ha
      cases ha
      rw [one_mul]
      have := lengthBefore_mono o hn (show j + 1 ≤ ps.length by omega)
      unfold lengthBefore at this ⊢
      rw [List.take_length] at this
      exact this)]
  dsimp only
  rw [List.getElem?_eq_none (le_refl _)]
  rfl

/-- C47 fails for the initial state: it is the default state whatever the parts. -/
theorem C47_initial_state_not_set (o : PartOps S P K) (dflt : S) (ps : List P) :
    (ofParts o dflt ps).init = dflt := (ofParts_paths o dflt ps).2.1

private theorem cuspLoop_eq (o : PartOps S P K) (total : K) : ∀ (l : List (K × K × P)) (len : K)
    (d : Direction), (∀ e ∈ l, o.cusps e.2.2 = []) →
    ∀ x, x ∈ cuspLoop o total l len d ↔ ∃ i e, l[i]? = some e ∧
      x = (len + ((l.take i).map fun e => o.length e.2.2).sum) / total ∧
      o.direction e.2.2 0 ≠ (match i with
        | 0 => d
        | j + 1 => match l[j]? with
          | some e' => o.direction e'.2.2 1
          | none => d) := by
  intro l
  induction l with
  | nil => intro len d _ x; simp [cuspLoop]
  | cons a l ih =>
    intro len d hc x
    rw [cuspLoop, hc a (List.mem_cons_self ..), List.append_nil, List.mem_append,
      ih _ _ (fun e he => hc e (List.mem_cons_of_mem _ he))]
    constructor
    · rintro (h | ⟨i, e, h1, h2, h3⟩)
      · split at h
        · rename_i hd
          simp only [List.mem_singleton] at h
          exact ⟨0, a, rfl, by simpa using h, hd⟩
        · cases h
      · refine ⟨i + 1, e, by simpa using h1, by rw [h2]; simp [add_assoc], ?_⟩
        cases i with
        | zero => simpa using h3
        | succ i =>
          have hil : i < l.length := by have := (List.getElem?_eq_some_iff.mp h1).1; omega
          simp only [List.getElem?_cons_succ, List.getElem?_eq_getElem hil] at h3 ⊢
          exact h3
    · rintro ⟨i, e, h1, h2, h3⟩
      cases i with
      | zero =>
        left
        simp only [List.getElem?_cons_zero, Option.some.injEq] at h1
        subst h1
        rw [if_pos h3]
        simpa using h2
      | succ i =>
        right
        refine ⟨i, e, by simpa using h1, by rw [h2]; simp [add_assoc], ?_⟩
        cases i with
        | zero => simpa using h3
        | succ i =>
          have hil : i < l.length := by
            have := (List.getElem?_eq_some_iff.mp h1).1
            simp only [List.length_cons] at this; omega
          simp only [List.getElem?_cons_succ, List.getElem?_eq_getElem hil] at h3 ⊢
          exact h3

/-- C47 (partial). When the parts have no cusp inside, the cusps of the composite path are exactly
the junctions where the direction changes, as ratios of the whole path. -/
theorem C47_cusps_partial (o : PartOps S P K) (dflt : S) (ps : List P)
    (hc : ∀ p ∈ ps, o.cusps p = []) (x : K) :
    x ∈ (ofParts o dflt ps).getCuspPointRatios o ↔
      ∃ i p q, ps[i]? = some p ∧ ps[i + 1]? = some q ∧ o.direction q 0 ≠ o.direction p 1 ∧
        x = lengthBefore o ps (i + 1) / (ps.map o.length).sum := by
  obtain ⟨e1, _, e3, e4, _⟩ := ofParts_paths o dflt ps
  have hparts : ∀ i e, (ofParts o dflt ps).paths[i]? = some e ↔
      ∃ p, ps[i]? = some p ∧ e = (lengthBefore o ps i, lengthBefore o ps (i + 1), p) := by
    intro i e
    constructor
    · intro h
      have hi := (List.getElem?_eq_some_iff.mp h).1
      rw [e3] at hi
      have hg := List.getElem?_eq_getElem hi
      rw [e4 i _ hg] at h
      cases h
      exact ⟨_, hg, rfl⟩
    · rintro ⟨p, h1, rfl⟩; exact e4 i p h1
  have hsum : ∀ i, (((ofParts o dflt ps).paths.take i).map fun e => o.length e.2.2).sum =
      lengthBefore o ps i := by
    intro i
    unfold lengthBefore
    congr 1
    rw [List.map_take, List.map_take]
    congr 1
    apply List.ext_getElem?
    intro j
    rw [List.getElem?_map, List.getElem?_map]
    cases hj : ps[j]? with
    | none =>
      rw [List.getElem?_eq_none (by
        have := List.getElem?_eq_none_iff.mp hj; omega)]; rfl
    | some p => rw [e4 j p hj]; rfl
  unfold getCuspPointRatios
  cases hp : (ofParts o dflt ps).paths with
  | nil =>
    rw [hp] at e3
    constructor
    · intro h; cases h
    · rintro ⟨i, p, q, h1, _⟩
      have := (List.getElem?_eq_some_iff.mp h1).1
      simp only [List.length_nil] at e3; omega
  | cons e0 es =>
    dsimp only
    rw [← hp, cuspLoop_eq o _ _ _ _ (by
      intro e he
      obtain ⟨i, hi⟩ := List.mem_iff_getElem?.mp he
      obtain ⟨p, h1, rfl⟩ := (hparts i e).mp hi
      exact hc p (List.mem_of_getElem? h1))]
    rw [e1]
    constructor
    · rintro ⟨i, e, h1, h2, h3⟩
      obtain ⟨q, hq, rfl⟩ := (hparts i e).mp h1
      cases i with
      | zero =>
        exfalso
        rw [hp] at h1
        simp only [List.getElem?_cons_zero, Option.some.injEq] at h1
        apply h3
        rw [h1]
      | succ i =>
        have hi : i < ps.length := by have := (List.getElem?_eq_some_iff.mp hq).1; omega
        have hg := List.getElem?_eq_getElem hi
        dsimp only at h3
        rw [e4 i _ hg] at h3
        exact ⟨i, _, q, hg, hq, h3, by rw [h2, hsum, zero_add]⟩
    · rintro ⟨i, p, q, h1, h2, h3, h4⟩
      refine ⟨i + 1, _, e4 (i + 1) q h2, by rw [h4, hsum, zero_add], ?_⟩
      dsimp only
      rw [e4 i p h1]
      exact h3

/-! ## Truncation -/

/-- C46 for composite paths whose parts satisfy it: truncating at a ratio in [0, 1] scales the
length and keeps the prefix. -/
theorem C46_composite (o : PartOps S P K) (dflt : S) (ps : List P) (hne : ps ≠ [])
    (hn : ∀ p ∈ ps, 0 ≤ o.length p)
    (hlen : ∀ p ρ, 0 ≤ ρ → ρ ≤ 1 → o.length (o.truncate p ρ) = ρ * o.length p)
    (hint : ∀ p ρ s, 0 ≤ ρ → ρ ≤ 1 → o.interpolate (o.truncate p ρ) s = o.interpolate p (ρ * s))
    (r : K) (hr0 : 0 ≤ r) (hr1 : r ≤ 1) :
    ((ofParts o dflt ps).truncate o r).length = r * (ps.map o.length).sum ∧
    ∀ s, 0 ≤ s → s ≤ 1 → ((ofParts o dflt ps).truncate o r).interpolate o s =
      (ofParts o dflt ps).interpolate o (r * s) := by
  obtain ⟨e1, _, e3, e4, _⟩ := ofParts_paths o dflt ps
  have htot0 : 0 ≤ (ps.map o.length).sum := by
    have := lengthBefore_mono o hn (Nat.zero_le ps.length)
    unfold lengthBefore at this
    simpa using this
  have hemp : ¬ (ofParts o dflt ps).paths.isEmpty = true := by
    intro h0
    have h1 := List.isEmpty_iff_length_eq_zero.mp h0
    have h2 := List.length_pos_iff.mpr hne
    omega
  by_cases hend : (ps.map o.length).sum ≤ r * (ps.map o.length).sum
  · -- nothing is cut
    have hfe := find_end o (ofParts o dflt ps) _ r rfl (by
      intro j a ha
      have hjl := (List.getElem?_eq_some_iff.mp ha).1
      rw [e3] at hjl
      rw [e4 j _ (List.getElem?_eq_getElem hjl)] at ha
      cases ha
      rw [e1]
      refine le_trans ?_ hend
      have := lengthBefore_mono o hn (show j + 1 ≤ ps.length by omega)
      unfold lengthBefore at this ⊢
      rw [List.take_length] at this
      exact this)
    have htr : (ofParts o dflt ps).truncate o r = ofParts o dflt ps := by
      unfold truncate
      rw [if_neg hemp, hfe]
      dsimp only
      rw [List.getElem?_eq_none (le_refl _)]
    rw [htr]
    have hEq : r * (ps.map o.length).sum = (ps.map o.length).sum := by
      refine le_antisymm ?_ hend
      have := mul_le_mul_of_nonneg_right hr1 htot0
      linarith
    refine ⟨by rw [e1, hEq], fun s _ _ => ?_⟩
    have hfs : (ofParts o dflt ps).findSegment o s = (ofParts o dflt ps).findSegment o (r * s) := by
      unfold findSegment
      rw [e1, show r * s * (ps.map o.length).sum = s * (r * (ps.map o.length).sum) by ring, hEq]
    unfold interpolate
    rw [hfs]
  · have hlt := not_le.mp hend
    obtain ⟨i, p, hp, hi1, hi2⟩ := C47_ratio_cases o ps r (mul_nonneg hr0 htot0) hlt
    have hfind := find_ofParts o dflt hn hp hi1 hi2
    obtain ⟨x, hx⟩ : ∃ x, x = r * (ps.map o.length).sum := ⟨_, rfl⟩
    rw [← hx] at hi1 hi2 hfind hlt
    have hlp : 0 < o.length p := by linarith
    obtain ⟨ρ, hρ⟩ : ∃ ρ, ρ = (x - lengthBefore o ps i) / o.length p := ⟨_, rfl⟩
    rw [← hρ] at hfind
    have hρ0 : 0 ≤ ρ := by rw [hρ]; exact div_nonneg (by linarith) hlp.le
    have hρ1 : ρ ≤ 1 := by rw [hρ, div_le_one hlp]; linarith
    have hρx : lengthBefore o ps i + ρ * o.length p = x := by
      rw [hρ, div_mul_cancel₀ _ hlp.ne']; ring
    have hil := (List.getElem?_eq_some_iff.mp hp).1
    have htr : (ofParts o dflt ps).truncate o r =
        { ofParts o dflt ps with
          final := o.final (o.truncate p ρ)
          length := lengthBefore o ps i + o.length (o.truncate p ρ)
          paths := (ofParts o dflt ps).paths.take i ++
            [(lengthBefore o ps i, lengthBefore o ps (i + 1), o.truncate p ρ)] } := by
      unfold truncate
      rw [if_neg hemp, hfind]
      dsimp only
      rw [e4 i p hp]
    have hL : ((ofParts o dflt ps).truncate o r).length = x := by
      rw [htr]; dsimp only; rw [hlen p ρ hρ0 hρ1, hρx]
    refine ⟨by rw [hL, hx], fun s hs0 hs1 => ?_⟩
    have hx0 : 0 ≤ x := by rw [hx]; exact mul_nonneg hr0 htot0
    have hy : r * s * (ps.map o.length).sum = s * x := by rw [hx]; ring
    have hylx : s * x ≤ x := by nlinarith
    have hy0 : 0 ≤ s * x := mul_nonneg hs0 hx0
    -- the original path
    obtain ⟨j, q, hq, hj1, hj2⟩ := C47_ratio_cases o ps (r * s) (by rw [hy]; exact hy0)
      (by rw [hy]; linarith)
    rw [C47_interpolate o dflt ps hn j q hq (r * s) hj1 hj2, hy]
    rw [hy] at hj1 hj2
    have hji : j ≤ i := by
      by_contra hc
      have := lengthBefore_mono o hn (show i + 1 ≤ j by omega)
      rw [lengthBefore_succ o hp] at this
      linarith
    -- the truncated one
    have hpaths : ((ofParts o dflt ps).truncate o r).paths = (ofParts o dflt ps).paths.take i ++
        [(lengthBefore o ps i, lengthBefore o ps (i + 1), o.truncate p ρ)] := by rw [htr]
    have htl : ((ofParts o dflt ps).paths.take i).length = i := by
      rw [List.length_take]; omega
    have hget : ∀ k, k < i → ((ofParts o dflt ps).truncate o r).paths[k]? = (ofParts o dflt ps).paths[k]? := by
      intro k hk
      rw [hpaths, List.getElem?_append_left (by omega), List.getElem?_take, if_pos hk]
    have hgeti : ((ofParts o dflt ps).truncate o r).paths[i]? =
        some (lengthBefore o ps i, lengthBefore o ps (i + 1), o.truncate p ρ) := by
      rw [hpaths, List.getElem?_append_right (by omega), htl]; simp
    have hlent : ((ofParts o dflt ps).truncate o r).paths.length = i + 1 := by
      rw [hpaths, List.length_append, htl]; rfl
    have hfin : ∀ (k : Nat) (a : K × K × P), ((ofParts o dflt ps).truncate o r).paths[k]? = some a →
        k ≤ i ∧ a.2.1 = lengthBefore o ps (k + 1) := by
      intro k a ha
      have hk := (List.getElem?_eq_some_iff.mp ha).1
      rw [hlent] at hk
      by_cases hki : k = i
      · subst hki; rw [hgeti] at ha; cases ha; exact ⟨le_refl _, rfl⟩
      · rw [hget k (by omega), e4 k _ (List.getElem?_eq_getElem (show k < ps.length by omega))] at ha
        cases ha
        exact ⟨by omega, rfl⟩
    have hmono : ∀ (k l : Nat) (a b : K × K × P), k ≤ l → ((ofParts o dflt ps).truncate o r).paths[k]? = some a →
        ((ofParts o dflt ps).truncate o r).paths[l]? = some b → a.2.1 ≤ b.2.1 := by
      intro k l a b hkl ha hb
      rw [(hfin k a ha).2, (hfin l b hb).2]
      exact lengthBefore_mono o hn (by omega)
    have hbelow : ∀ (k : Nat) (a : K × K × P), k < j → ((ofParts o dflt ps).truncate o r).paths[k]? = some a → a.2.1 ≤ s * x := by
      intro k a hk ha
      rw [(hfin k a ha).2]
      exact (lengthBefore_mono o hn (by omega)).trans hj1
    have hne' : ¬ ((ofParts o dflt ps).truncate o r).paths.isEmpty = true := by
      intro h0
      have h1 := List.isEmpty_iff_length_eq_zero.mp h0
      omega
    unfold interpolate
    rw [if_neg hne']
    rcases Nat.lt_or_ge j i with hji' | hji'
    · rw [find_of_bounds o _ (s * x) s (by rw [hL]) hmono j
        (lengthBefore o ps j, lengthBefore o ps (j + 1), q) (by rw [hget j hji', e4 j q hq])
        (by dsimp only; rw [lengthBefore_succ o hq]; exact hj2) hbelow]
      have hlq : o.length q ≠ 0 := by intro h0; rw [h0] at hj2; linarith
      dsimp only
      rw [if_neg hlq]
      dsimp only
      rw [if_neg (by omega), hget j hji', e4 j q hq]
      rfl
    · have hij : j = i := by omega
      subst hij
      rw [hp] at hq; cases hq
      rw [find_of_bounds o _ (s * x) s (by rw [hL]) hmono j _ hgeti
        (by dsimp only; rw [lengthBefore_succ o hp]; exact hj2) hbelow]
      dsimp only
      rw [hlen p ρ hρ0 hρ1]
      by_cases hz : ρ * o.length p = 0
      · rw [if_pos hz]
        dsimp only
        rw [if_neg (by omega), hgeti]
        have hρz : ρ = 0 := by
          rcases mul_eq_zero.mp hz with h | h
          · exact h
          · exact absurd h hlp.ne'
        have hxi : x = lengthBefore o ps j := by rw [← hρx, hz, add_zero]
        have : s * x - lengthBefore o ps j = 0 := by linarith
        show some (o.interpolate (o.truncate p ρ) 0) = _
        rw [hint p ρ _ hρ0 hρ1, this, zero_div, mul_zero]
      · rw [if_neg hz]
        dsimp only
        rw [if_neg (by omega), hgeti]
        show some (o.interpolate (o.truncate p ρ) _) = _
        rw [hint p ρ _ hρ0 hρ1]
        have hρne : ρ ≠ 0 := fun h => hz (by rw [h, zero_mul])
        congr 2
        field_simp

/-! ## Examples and counterexamples: parts on a line -/

/-- A part on the line: start, end, direction, inner cusps. -/
def exParts : PartOps ℚ (ℚ × ℚ × Direction × List ℚ) ℚ where
  length p := |p.2.1 - p.1|
  init p := p.1
  final p := p.2.1
  interpolate p r := p.1 + r * (p.2.1 - p.1)
  truncate p r := (p.1, p.1 + r * (p.2.1 - p.1), p.2.2)
  direction p _ := p.2.2.1
  cusps p := p.2.2.2

/-- Forward from 10 to 12, backward from 12 to 6. -/
def exC : Composite ℚ (ℚ × ℚ × Direction × List ℚ) ℚ :=
  ofParts exParts 0 [(10, 12, .forward, []), (12, 6, .backward, [])]

example : exC.length = 8 ∧ exC.interpolate exParts (1 / 8) = some 11 ∧
    exC.interpolate exParts (1 / 2) = some 10 ∧ exC.interpolate exParts 1 = some 6 ∧
    exC.getDirection exParts (1 / 2) = some .backward ∧ exC.getCuspPointRatios exParts = [1 / 4] ∧
    (exC.truncate exParts (1 / 2)).interpolate exParts 1 = some 10 := by decide +kernel

/-- C47 fails: the composite path above starts at 10 but reports the default state. -/
theorem C47_initial_state_wrong : exC.interpolate exParts 0 = some 10 ∧ exC.init ≠ 10 := by
  decide +kernel

/-- C47 fails: a cusp in the middle of the second part (position 5 of 8) is reported at ratio 1/2
instead of 5/8. -/
theorem C47_cusps_not_rescaled :
    (ofParts exParts 0 [(10, 12, .forward, []), (12, 18, .forward, [1 / 2])]).getCuspPointRatios exParts
      = [1 / 2] ∧ lengthBefore exParts [(10, 12, .forward, []), (12, 18, .forward, [1 / 2])] 1 +
        (1 / 2) * exParts.length (12, 18, .forward, [1 / 2]) = (5 / 8) * 8 := by decide +kernel

/-- C47 fails after a truncation: the path 0 → 4 cut at 2 and continued backward from 2 to 0 has
length 4, but at ratio 3/4 the first part is extrapolated to 3, a state that is not on the path; the
same path made of the parts 0 → 2 and 2 → 0 gives 1. -/
theorem C47_push_after_truncate_wrong :
    let c := ((ofParts exParts 0 [(0, 4, .forward, [])]).truncate exParts (1 / 2)).pushBack exParts
      (2, 0, .backward, [])
    c.length = 4 ∧ c.interpolate exParts (3 / 4) = some 3 ∧
      (ofParts exParts 0 [(0, 2, .forward, []), (2, 0, .backward, [])]).interpolate exParts (3 / 4)
        = some 1 := by decide +kernel

end PathPlanning
