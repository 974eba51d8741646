import Verif.Model.GridStore
import Mathlib.Tactic.Linarith
import Mathlib.Tactic.Ring

/-!
# C63: storage of a grid
-/

namespace PathPlanning
namespace GridStore
variable {T : Type}

/-- In-bounds cells of a grid of `r` rows and `c` columns. -/
def InB (r c i j : Int) : Prop := 0 ≤ i ∧ i < r ∧ 0 ≤ j ∧ j < c

private theorem offset_range {r c i j : Int} (h : InB r c i j) :
    0 ≤ i * c + j ∧ i * c + j < r * c := by
  obtain ⟨h1, h2, h3, h4⟩ := h
  have h5 : 0 ≤ i * c := by apply Int.mul_nonneg <;> omega
  have h6 : (i + 1) * c ≤ r * c := Int.mul_le_mul_of_nonneg_right (by omega) (by omega)
  have h7 : (i + 1) * c = i * c + c := by ring
  omega

private theorem offset_inj {r c i j i' j' : Int} (h : InB r c i j) (h' : InB r c i' j')
    (he : i * c + j = i' * c + j') : i = i' ∧ j = j' := by
  obtain ⟨h1, h2, h3, h4⟩ := h
  obtain ⟨h1', h2', h3', h4'⟩ := h'
  have key : ∀ a b x y : Int, 0 ≤ x → y < c → a < b → a * c + y < b * c + x := by
    intro a b x y hx hy hab
    have h6 : (a + 1) * c ≤ b * c := Int.mul_le_mul_of_nonneg_right (by omega) (by omega)
    have h7 : (a + 1) * c = a * c + c := by ring
    omega
  rcases Int.lt_trichotomy i i' with hl | hl | hl
  · have := key i i' j' j h3' h4 hl; omega
  · subst hl; omega
  · have := key i' i j j' h3 h4' hl; omega

/-- Well-formed storage. -/
def WF (g : GridStore T) : Prop := (g.data.length : Int) = g.rows * g.columns

private theorem set_spec {g : GridStore T} (h : g.WF) {i j : Int} (hb : InB g.rows g.columns i j) (v : T) :
    ∃ g', g.set i j v = some g' ∧ g'.WF ∧ g'.rows = g.rows ∧ g'.columns = g.columns ∧
      ∀ a b, InB g.rows g.columns a b →
        g'.get a b = if a = i ∧ b = j then some v else g.get a b := by
  have hr := offset_range hb
  unfold WF at h
  refine ⟨{ g with data := g.data.set (g.offset i j).toNat v }, ?_, ?_, rfl, rfl, ?_⟩
  · unfold set offset
    rw [if_neg]
    omega
  · unfold WF
    simp only [List.length_set]
    exact h
  · intro a b hab
    have hr' := offset_range hab
    unfold get offset
    dsimp only
    have hneg : ¬ (a * g.columns + b < 0) := by omega
    rw [if_neg hneg, if_neg hneg, List.getElem?_set]
    by_cases hc : a = i ∧ b = j
    · obtain ⟨rfl, rfl⟩ := hc
      rw [if_pos rfl, if_pos (by omega), if_pos ⟨rfl, rfl⟩]
    · rw [if_neg hc, if_neg]
      intro he
      have he' : i * g.columns + j = a * g.columns + b := by omega
      have := offset_inj hb hab he'
      exact hc ⟨this.1.symm, this.2.symm⟩

/-- C63. The constructor throws exactly for a non-positive dimension; otherwise every in-bounds
cell reads the initial value. -/
theorem C63_new (r c : Int) (v : T) :
    (new r c v = none ↔ r ≤ 0 ∨ c ≤ 0) ∧
    ∀ g, new r c v = some g → g.rows = r ∧ g.columns = c ∧ g.WF ∧
      ∀ i j, InB r c i j → g.get i j = some v := by
  constructor
  · unfold new
    split
    · rename_i h; simp only [Bool.not_eq_true', Bool.and_eq_false_iff, decide_eq_false_iff_not] at h
      simp; omega
    · rename_i h; simp only [Bool.not_eq_true', Bool.and_eq_false_iff, decide_eq_false_iff_not] at h
      simp; omega
  · intro g hg
    unfold new at hg
    split at hg
    · cases hg
    · rename_i h; simp only [Bool.not_eq_true', Bool.and_eq_false_iff, decide_eq_false_iff_not] at h
      cases hg
      have hpos : 0 ≤ r * c := Int.mul_nonneg (by omega) (by omega)
      refine ⟨rfl, rfl, ?_, fun i j hb => ?_⟩
      · unfold WF; simp only [List.length_replicate]; omega
      · have hr := offset_range hb
        unfold get offset
        dsimp only
        rw [if_neg (by omega), List.getElem?_replicate, if_pos (by omega)]

/-- C63. Writing an in-bounds cell is defined, and reading back gives the new value in that cell
and the old one in every other cell. -/
theorem C63_set (g : GridStore T) (h : g.WF) (i j : Int) (hb : InB g.rows g.columns i j) (v : T) :
    ∃ g', g.set i j v = some g' ∧ g'.WF ∧ g'.rows = g.rows ∧ g'.columns = g.columns ∧
      g'.get i j = some v ∧
      ∀ a b, InB g.rows g.columns a b → (a ≠ i ∨ b ≠ j) → g'.get a b = g.get a b := by
  obtain ⟨g', h1, h2, h3, h4, h5⟩ := set_spec h hb v
  refine ⟨g', h1, h2, h3, h4, ?_, fun a b hab hne => ?_⟩
  · rw [h5 i j hb, if_pos ⟨rfl, rfl⟩]
  · rw [h5 a b hab, if_neg (by omega)]

/-- The value of a cell after a list of writes: the last one to it, or the initial value. -/
def lastWrite (init : T) (l : List (Int × Int × T)) (i j : Int) : T :=
  l.foldl (fun acc w => if i = w.1 ∧ j = w.2.1 then w.2.2 else acc) init

/-- C63. After any sequence of in-bounds writes on a new grid, each cell reads the last value
written to it, or the initial value. -/
theorem C63_writes (r c : Int) (v : T) (g : GridStore T) (hg : new r c v = some g)
    (l : List (Int × Int × T)) (hl : ∀ w ∈ l, InB r c w.1 w.2.1) :
    ∃ g', g.writes l = some g' ∧ ∀ i j, InB r c i j → g'.get i j = some (lastWrite v l i j) := by
  obtain ⟨h1, h2, h3, h4⟩ := (C63_new r c v).2 g hg
  have gen : ∀ (l : List (Int × Int × T)) (g : GridStore T) (f : Int → Int → T), g.rows = r →
      g.columns = c → g.WF → (∀ w ∈ l, InB r c w.1 w.2.1) → (∀ i j, InB r c i j → g.get i j = some (f i j)) →
      ∃ g', g.writes l = some g' ∧ ∀ i j, InB r c i j → g'.get i j = some (lastWrite (f i j) l i j) := by
    intro l
    induction l with
    | nil => intro g f _ _ _ _ h; exact ⟨g, rfl, h⟩
    | cons w l ih =>
      intro g f hr hc hwf hl hf
      have hb : InB g.rows g.columns w.1 w.2.1 := by
        rw [hr, hc]; exact hl w (List.mem_cons_self ..)
      obtain ⟨g1, e1, e2, e3, e4, e5⟩ := set_spec hwf hb w.2.2
      obtain ⟨g2, e6, e7⟩ := ih g1 (fun i j => if i = w.1 ∧ j = w.2.1 then w.2.2 else f i j)
        (by rw [e3, hr]) (by rw [e4, hc]) e2 (fun x hx => hl x (List.mem_cons_of_mem _ hx))
        (fun i j hij => by
          rw [e5 i j (by rw [hr, hc]; exact hij), hf i j hij]
          split <;> rfl)
      refine ⟨g2, ?_, fun i j hij => ?_⟩
      · show List.foldlM _ g (w :: l) = _
        rw [List.foldlM_cons, e1]; exact e6
      · rw [e7 i j hij]; rfl
  exact gen l g (fun _ _ => v) h1 h2 h3 hl h4

example : ∃ g : GridStore Nat, new 2 3 7 = some g ∧
    (g.writes [(1, 2, 5), (0, 1, 4), (1, 2, 6)]).bind (·.get 1 2) = some 6 ∧
    (g.writes [(1, 2, 5), (0, 1, 4), (1, 2, 6)]).bind (·.get 1 1) = some 7 := by
  refine ⟨_, rfl, ?_, ?_⟩ <;> decide

end GridStore
end PathPlanning
