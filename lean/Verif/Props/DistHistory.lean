import Verif.Props.ValidatorGrow

/-! # C166: the distances and the history of the map -/

namespace PathPlanning
open Spec

/-- C166, without removals: two maps with the same obstacles, whatever the order in which these were placed and the
updates in between, report distances that differ by 8.3 % at most. Missing: they need not be equal, and with removals
there is no such bound here. -/
theorem C166_same_up_to_eight_percent_partial {rows columns : Int} {ops ops' : List DistMap.Op} {m m' : DistMap}
    (r : DistMap.Run (.new rows columns) (ops ++ [.update]) m)
    (r' : DistMap.Run (.new rows columns) (ops' ++ [.update]) m') (hn' : NoUnset ops')
    (hS : ∀ c, c ∈ obstacles ops ↔ c ∈ obstacles ops') (ho : ∃ o, o ∈ obstacles ops) (c : Cell)
    (hc : InRect rows columns c) :
    ∃ d d' : Nat, m.dist c = d ∧ m'.dist c = d' ∧ √(d : ℝ) ≤ √(4 - 2 * √2) * √(d' : ℝ) := by
  obtain ⟨o, ho'⟩ := ho
  obtain ⟨p, hp, d', hd', hdp⟩ := C38_never_below_partial r' hn' c hc ⟨o, (hS o).mp ho'⟩
  obtain ⟨d, hd, hle⟩ := C38_at_most_eight_percent_partial r c hc p ((hS p).mpr hp)
  refine ⟨d, d', hd, hd', ?_⟩
  have h2 : (0 : ℝ) ≤ 4 - 2 * √2 := by
    have : √2 ≤ 2 := by rw [Real.sqrt_le_left (by norm_num)]; norm_num
    linarith
  rw [← Real.sqrt_mul h2]
  refine Real.sqrt_le_sqrt (hle.trans_eq ?_)
  rw [← hdp]
  push_cast
  ring

/-- C166 where the distances are exact: without removals, two maps with the same one or two obstacle cells report the
same distances. Missing: more obstacles, and removals. -/
theorem C166_same_for_two_obstacles_partial {rows columns : Int} {ops ops' : List DistMap.Op} {m m' : DistMap}
    (r : DistMap.Run (.new rows columns) (ops ++ [.update]) m)
    (r' : DistMap.Run (.new rows columns) (ops' ++ [.update]) m') (hn : NoUnset ops) (hn' : NoUnset ops') (o p : Cell)
    (ho : InRect rows columns o) (hp : InRect rows columns p) (hS : ∀ c, c ∈ obstacles ops ↔ c = o ∨ c = p)
    (hS' : ∀ c, c ∈ obstacles ops' ↔ c = o ∨ c = p) (c : Cell) (hc : InRect rows columns c) : m.dist c = m'.dist c := by
  obtain ⟨d, h1, h2⟩ := C38_two_obstacles_partial r hn o p ho hp hS c hc
  obtain ⟨d', h1', h2'⟩ := C38_two_obstacles_partial r' hn' o p ho hp hS' c hc
  rw [h1, h1', show d = d' by omega]

/-- C166 where the distances are exact, for the sets of obstacles of `C38_handed_partial` (such as the sides of a
rectangle): two maps without removals report the same distances. -/
theorem C166_same_where_exact_partial {rows columns : Int} {ops ops' : List DistMap.Op} {m m' : DistMap}
    (r : DistMap.Run (.new rows columns) (ops ++ [.update]) m)
    (r' : DistMap.Run (.new rows columns) (ops' ++ [.update]) m') (hn : NoUnset ops) (hn' : NoUnset ops')
    (hS : ∀ c, c ∈ obstacles ops ↔ c ∈ obstacles ops') (hh : Handed rows columns (obstacles ops)) (c : Cell)
    (hc : InRect rows columns c) : m.dist c = m'.dist c := by
  have e : obstacles ops = obstacles ops' := Set.ext hS
  obtain ⟨o, ho, h1, h2⟩ := C38_handed_partial r hn hh c hc
  obtain ⟨o', ho', h1', h2'⟩ := C38_handed_partial r' hn' (e ▸ hh) c hc
  rw [h1, h1', le_antisymm (h2 o' (e ▸ ho')) (h2' o (e ▸ ho))]

/-- Non-vacuity: the same two obstacles, placed in one and in two batches. -/
example : ∃ m m', DistMap.Run (.new 6 7) ([.set ⟨1, 1⟩, .set ⟨4, 5⟩] ++ [.update]) m ∧
    DistMap.Run (.new 6 7) ([.set ⟨4, 5⟩, .update, .set ⟨1, 1⟩] ++ [.update]) m' ∧
    (∀ c, c ∈ obstacles [.set ⟨1, 1⟩, .set ⟨4, 5⟩] ↔ c ∈ obstacles [.set ⟨4, 5⟩, .update, .set ⟨1, 1⟩]) ∧
    NoUnset [.set ⟨1, 1⟩, .set ⟨4, 5⟩] ∧ NoUnset [.set ⟨4, 5⟩, .update, .set ⟨1, 1⟩] := by
  obtain ⟨m, h⟩ := DistMap.exists_run (rows := 6) (columns := 7) ([.set ⟨1, 1⟩, .set ⟨4, 5⟩] ++ [.update]) (by
    intro o ho
    simp only [List.cons_append, List.nil_append, List.mem_cons, List.not_mem_nil, or_false] at ho
    rcases ho with rfl | rfl | rfl <;> simp [OpIn, InRect])
  obtain ⟨m', h'⟩ := DistMap.exists_run (rows := 6) (columns := 7)
    ([.set ⟨4, 5⟩, .update, .set ⟨1, 1⟩] ++ [.update]) (by
    intro o ho
    simp only [List.cons_append, List.nil_append, List.mem_cons, List.not_mem_nil, or_false] at ho
    rcases ho with rfl | rfl | rfl | rfl <;> simp [OpIn, InRect])
  refine ⟨m, m', h, h', ?_, by intro s hs; simp at hs, by intro s hs; simp at hs⟩
  intro c
  show ((False ∨ _) ∨ _) ↔ ((False ∨ _) ∨ _)
  simp [or_comm]

/-- C166, violated: a map from which an obstacle was removed reports another distance than a new map with the same
obstacles, with every order of the queues. -/
theorem C166_depends_on_history :
    ∃ ops ops' : List DistMap.Op, (∀ c, c ∈ obstacles ops ↔ c ∈ obstacles ops') ∧
      (∃ m, DistMap.Run (.new 14 9) (ops ++ [.update]) m) ∧ (∃ m, DistMap.Run (.new 14 9) (ops' ++ [.update]) m) ∧
      ∀ m m', DistMap.Run (.new 14 9) (ops ++ [.update]) m → DistMap.Run (.new 14 9) (ops' ++ [.update]) m' →
        m.dist ⟨13, 7⟩ = (169 : Nat) ∧ m'.dist ⟨13, 7⟩ = (170 : Nat) := by
  refine ⟨[.set ⟨1, 2⟩, .update, .set ⟨0, 8⟩, .set ⟨2, 0⟩, .update, .unset ⟨1, 2⟩], [.set ⟨0, 8⟩, .set ⟨2, 0⟩], ?_,
    DistMap.exists_run _ ?_, DistMap.exists_run _ ?_, ?_⟩
  · intro c
    show (((False ∨ c = ⟨1, 2⟩) ∨ c = ⟨0, 8⟩) ∨ c = ⟨2, 0⟩) ∧ c ≠ ⟨1, 2⟩ ↔ (False ∨ c = ⟨0, 8⟩) ∨ c = ⟨2, 0⟩
    constructor
    · rintro ⟨((h | h) | h) | h, hne⟩
      · exact h.elim
      · exact absurd h hne
      · exact Or.inl (Or.inr h)
      · exact Or.inr h
    · rintro ((h | h) | h)
      · exact h.elim
      · subst h; exact ⟨Or.inl (Or.inr rfl), by decide⟩
      · subst h; exact ⟨Or.inr rfl, by decide⟩
  · intro o ho
    simp only [List.cons_append, List.nil_append, List.mem_cons, List.not_mem_nil, or_false] at ho
    rcases ho with rfl | rfl | rfl | rfl | rfl | rfl | rfl <;> simp [OpIn, InRect]
  · intro o ho
    simp only [List.cons_append, List.nil_append, List.mem_cons, List.not_mem_nil, or_false] at ho
    rcases ho with rfl | rfl | rfl <;> simp [OpIn, InRect]
  · intro m m' r r'
    refine ⟨(DistMap.Witness.wrong35 r).2, ?_⟩
    obtain ⟨n, h1, h2⟩ := C38_two_obstacles_partial r' (by intro s hs; simp at hs) ⟨0, 8⟩ ⟨2, 0⟩ (by simp [InRect])
      (by simp [InRect]) (by intro c; show ((False ∨ _) ∨ _) ↔ _; simp) ⟨13, 7⟩ (by simp [InRect])
    rw [h1]
    have h3 : min (sqDist ⟨0, 8⟩ ⟨13, 7⟩) (sqDist ⟨2, 0⟩ ⟨13, 7⟩) = 170 := by decide
    rw [h3] at h2
    rw [show n = 170 by omega]

/-- C166, violated without removals: the same three obstacles, placed in two orders with an update in between, give
different distances, with every order of the queues. -/
theorem C166_depends_on_order :
    ∃ ops ops' : List DistMap.Op, NoUnset ops ∧ NoUnset ops' ∧ (∀ c, c ∈ obstacles ops ↔ c ∈ obstacles ops') ∧
      (∃ m, DistMap.Run (.new 14 9) (ops ++ [.update]) m) ∧ (∃ m, DistMap.Run (.new 14 9) (ops' ++ [.update]) m) ∧
      ∀ m m', DistMap.Run (.new 14 9) (ops ++ [.update]) m → DistMap.Run (.new 14 9) (ops' ++ [.update]) m' →
        m.dist ⟨13, 7⟩ = (169 : Nat) ∧ m'.dist ⟨13, 7⟩ = (170 : Nat) := by
  have hn : NoUnset [.set ⟨1, 2⟩, .update, .set ⟨0, 8⟩, .set ⟨2, 0⟩] := by intro s hs; simp at hs
  refine ⟨[.set ⟨1, 2⟩, .update, .set ⟨0, 8⟩, .set ⟨2, 0⟩], [.set ⟨0, 8⟩, .set ⟨2, 0⟩, .update, .set ⟨1, 2⟩], hn,
    by intro s hs; simp at hs, ?_, DistMap.exists_run _ ?_, DistMap.exists_run _ ?_, ?_⟩
  · intro c
    show ((False ∨ _) ∨ _) ∨ _ ↔ ((False ∨ _) ∨ _) ∨ _
    constructor
    · rintro (((h | h) | h) | h)
      · exact h.elim
      · exact Or.inr h
      · exact Or.inl (Or.inl (Or.inr h))
      · exact Or.inl (Or.inr h)
    · rintro (((h | h) | h) | h)
      · exact h.elim
      · exact Or.inl (Or.inr h)
      · exact Or.inr h
      · exact Or.inl (Or.inl (Or.inr h))
  · intro o ho
    simp only [List.cons_append, List.nil_append, List.mem_cons, List.not_mem_nil, or_false] at ho
    rcases ho with rfl | rfl | rfl | rfl | rfl <;> simp [OpIn, InRect]
  · intro o ho
    simp only [List.cons_append, List.nil_append, List.mem_cons, List.not_mem_nil, or_false] at ho
    rcases ho with rfl | rfl | rfl | rfl | rfl <;> simp [OpIn, InRect]
  · intro m m' r r'
    refine ⟨?_, DistMap.Witness.wrong38 r'⟩
    have hc : InRect 14 9 ⟨13, 7⟩ := by simp [InRect]
    obtain ⟨m1, r1, r2⟩ := DistMap.Run.split (os := [.set ⟨1, 2⟩] ++ [.update])
      (os' := [.set ⟨0, 8⟩, .set ⟨2, 0⟩, .update]) r
    obtain ⟨n, h1, h2⟩ := C38_two_obstacles_partial r1 (by intro s hs; simp at hs) ⟨1, 2⟩ ⟨1, 2⟩ (by simp [InRect])
      (by simp [InRect]) (by intro c; show (False ∨ _) ↔ _; simp) ⟨13, 7⟩ hc
    have hle := C164_distances_fall_partial r1 r2 (by intro s hs; simp at hs) ⟨13, 7⟩ hc
    obtain ⟨o, ho, d, hd, hdo⟩ := C38_never_below_partial r hn ⟨13, 7⟩ hc ⟨⟨2, 0⟩, Or.inr rfl⟩
    rw [hd, h1] at hle
    have hle : d ≤ n := WithTop.coe_le_coe.mp hle
    have h3 : min (sqDist ⟨1, 2⟩ ⟨13, 7⟩) (sqDist ⟨1, 2⟩ ⟨13, 7⟩) = 169 := by decide
    rw [h3] at h2
    have h4 : 169 ≤ sqDist o ⟨13, 7⟩ := by
      rcases ho with ((h | h) | h) | h
      · exact h.elim
      · rw [show o = ⟨1, 2⟩ from h]; decide
      · rw [show o = ⟨0, 8⟩ from h]; decide
      · rw [show o = ⟨2, 0⟩ from h]; decide
    rw [hd, show d = 169 by omega]

end PathPlanning
