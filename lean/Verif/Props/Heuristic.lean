import Verif.Model.Heuristic
import Mathlib.Order.Lattice

/-!
# C12: heuristic combinators
-/

namespace PathPlanning
namespace Heur
variable {C : Type} [LinearOrder C]

private theorem value_foldl {S : Type} (parts : List (Heur C S)) (h : Heur C S) (s : S) :
    value (parts.foldl combAdd h) s = parts.foldl (fun m p => max m (p.value s)) (h.value s) := by
  induction parts generalizing h with
  | nil => rfl
  | cons p ps ih => simp only [List.foldl_cons]; rw [ih]; rfl

private theorem foldl_max_le {S : Type} (parts : List (Heur C S)) (s : S) (m b : WithBot C) :
    parts.foldl (fun m p => max m (p.value s)) m ≤ b ↔ m ≤ b ∧ ∀ p ∈ parts, p.value s ≤ b := by
  induction parts generalizing m with
  | nil => simp
  | cons p ps ih => simp only [List.foldl_cons, ih, max_le_iff, List.forall_mem_cons, and_assoc]

end Heur
open Heur

section
variable {C : Type} [LinearOrder C] {S : Type}

/-- C12. The combined value is the least upper bound of the values of the parts (minus infinity for
no part), so in particular it is one of them. -/
theorem C12_combined_is_max (parts : List (Heur C S)) (s : S) :
    (∀ b, (combined parts).value s ≤ b ↔ ∀ p ∈ parts, p.value s ≤ b) ∧
    (parts = [] → (combined parts).value s = ⊥) ∧
    (parts ≠ [] → ∃ p ∈ parts, (combined parts).value s = p.value s) := by
  have hle : ∀ b, (combined parts).value s ≤ b ↔ ∀ p ∈ parts, p.value s ≤ b := by
    intro b
    unfold combined
    rw [value_foldl, foldl_max_le]
    simp [value]
  refine ⟨hle, ?_, ?_⟩
  · rintro rfl; rfl
  · intro hne
    -- a maximal part
    obtain ⟨p, hp, hmax⟩ : ∃ p ∈ parts, ∀ q ∈ parts, q.value s ≤ p.value s := by
      clear hle
      induction parts with
      | nil => exact absurd rfl hne
      | cons p ps ih =>
        by_cases hps : ps = []
        · subst hps; exact ⟨p, by simp, by simp⟩
        · obtain ⟨q, hq, hqm⟩ := ih hps
          rcases le_total (p.value s) (q.value s) with h | h
          · exact ⟨q, by simp [hq], by simpa using ⟨h, hqm⟩⟩
          · exact ⟨p, by simp, by simpa using fun r hr => le_trans (hqm r hr) h⟩
    exact ⟨p, hp, le_antisymm ((hle _).2 hmax) ((hle _).1 (le_refl _) p hp)⟩

/-- C12. Admissibility: if no part over-estimates the remaining cost, neither does the
combination. -/
theorem C12_combined_admissible (parts : List (Heur C S)) (rest : S → C)
    (h : ∀ p ∈ parts, ∀ s, p.value s ≤ (rest s : WithBot C)) (s : S) :
    (combined parts).value s ≤ (rest s : WithBot C) :=
  ((C12_combined_is_max parts s).1 _).2 (fun p hp => h p hp s)

/-- C12. Consistency: if every part is consistent for a transition, so is the combination. -/
theorem C12_combined_consistent [Add C] [AddLeftMono C] [AddRightMono C]
    (parts : List (Heur C S)) (u v : S) (c : C)
    (h : ∀ p ∈ parts, p.value u ≤ (c : WithBot C) + p.value v) :
    (combined parts).value u ≤ (c : WithBot C) + (combined parts).value v := by
  rw [(C12_combined_is_max parts u).1]
  intro p hp
  refine le_trans (h p hp) (add_le_add_right ?_ _)
  exact ((C12_combined_is_max parts v).1 _).1 (le_refl _) p hp

/-- C12. Setting the goal of a combination sets the goal of each part. -/
theorem C12_combined_forwards_goal (parts : List (Heur C S)) (g : S) :
    (combined parts).setGoal g = combined (parts.map (·.setGoal g)) := by
  have : ∀ (ps : List (Heur C S)) (h : Heur C S),
      (ps.foldl combAdd h).setGoal g = (ps.map (·.setGoal g)).foldl combAdd (h.setGoal g) := by
    intro ps
    induction ps with
    | nil => intro h; rfl
    | cons p ps ih => intro h; simp only [List.foldl_cons, List.map_cons]; rw [ih]; rfl
  exact this parts comb0

/-- C12. After `SetGoal g`, an adapted function heuristic evaluates the adapted state against the
adapted goal; and the last goal set is the one that counts. -/
theorem C12_adapter_uses_adapted_goal {S2 : Type} (f : S2 → S2 → C) (g₀ : S2) (a : S → S2)
    (gs : List S) (g s : S) :
    ((((gs.foldl (fun h g' => h.setGoal g') (adapter (fcn f g₀) a)).setGoal g).value s) :
      WithBot C) = (f (a s) (a g) : C) := by
  have : ∀ (gs : List S) (g₀ : S2), ∃ g₁,
      gs.foldl (fun h g' => h.setGoal g') (adapter (fcn f g₀) a) = adapter (fcn f g₁) a := by
    intro gs
    induction gs with
    | nil => intro g₀; exact ⟨g₀, rfl⟩
    | cons x xs ih => intro g₀; exact ih (a x)
  obtain ⟨g₁, h⟩ := this gs g₀
  rw [h]; rfl

end

/-- Non-vacuity: two distance heuristics on the integers, one of them adapted to pairs. -/
example : (combined [adapter (fcn (fun s g : Int => (s - g).natAbs) 0) (fun p : Int × Int => p.1),
    adapter (fcn (fun s g : Int => 2 * (s - g).natAbs) 0) (fun p : Int × Int => p.2)]
      |>.setGoal (5, 1)).value (0, 0) = ((5 : Nat) : WithBot Nat) := by
  rw [C12_combined_forwards_goal]
  simp [combined, setGoal, value]
  rfl

end PathPlanning
