import Verif.Spec.DistMap
import Verif.Lemmas.Grid
import Mathlib.Tactic.Ring
import Mathlib.Tactic.Linarith

/-!
# Lemmas on distance maps: pointwise effect of the loops
-/

namespace PathPlanning
open Spec

theorem setAt_same {α : Type} (f : Cell → α) (c : Cell) (v : α) : setAt f c v c = v := if_pos rfl
theorem setAt_ne {α : Type} (f : Cell → α) {c d : Cell} (v : α) (h : d ≠ c) : setAt f c v d = f d := if_neg h

theorem sq_cast (a b : Cell) : ((squaredDistance a b : Nat) : Int) = sqDist a b := by
  unfold squaredDistance sqDist
  have h : 0 ≤ (a.row - b.row) * (a.row - b.row) + (a.col - b.col) * (a.col - b.col) :=
    add_nonneg (mul_self_nonneg _) (mul_self_nonneg _)
  rw [Int.toNat_of_nonneg h]
  ring

theorem sq_self (a : Cell) : squaredDistance a a = 0 := by
  simp [squaredDistance]

theorem sq_eq_zero {a b : Cell} : squaredDistance a b = 0 ↔ a = b := by
  constructor
  · intro h
    have h' := sq_cast a b
    rw [h] at h'
    unfold sqDist at h'
    have h1 := sq_nonneg (a.row - b.row)
    have h2 := sq_nonneg (a.col - b.col)
    have e1 : (a.row - b.row) ^ 2 = 0 := by push_cast at h'; linarith
    have e2 : (a.col - b.col) ^ 2 = 0 := by push_cast at h'; linarith
    have e1 := pow_eq_zero_iff (two_ne_zero) |>.mp e1
    have e2 := pow_eq_zero_iff (two_ne_zero) |>.mp e2
    ext <;> omega
  · rintro rfl; exact sq_self _

namespace DistMap

theorem inside_iff {m : DistMap} {c : Cell} : m.inside c = true ↔ InRect m.rows m.columns c := by
  simp [inside, InRect, and_assoc]

theorem inside_valid {m : DistMap} {c : Cell} (h : m.inside c = true) : c.isValid = true := by
  rw [inside_iff] at h
  simp [Cell.isValid, h.1, h.2.2.1]

theorem invalid_not_valid : Cell.invalid.isValid = false := rfl

theorem mem_nbrs {m : DistMap} {s : Cell} (hs : m.inside s = true) (n : Cell) :
    n ∈ s.getNeighbors m.rows m.columns ↔ m.inside n = true ∧ chebyshev s n = 1 := by
  rw [Cell.mem_getNeighbors, inside_iff]
  rw [inside_iff] at hs
  have hv : s.isValid = true := by simp [Cell.isValid, hs.1, hs.2.2.1]
  have hc := chebyshev_eq_one s n
  unfold InRect at hs ⊢
  simp only [hv, true_and]
  constructor
  · rintro ⟨h, h1, h2, h3, h4⟩
    have := hc.mp h
    refine ⟨by omega, h⟩
  · rintro ⟨h1, h⟩
    have := hc.mp h
    refine ⟨h, by omega⟩

theorem chebyshev_comm (a b : Cell) : chebyshev a b = chebyshev b a := by
  unfold chebyshev
  rw [abs_sub_comm, abs_sub_comm a.col]

/-- The obstacle of each cell, if any, lies in the grid. -/
def Bd (m : DistMap) : Prop := ∀ c, m.inside c = true → (m.obst c).isValid = true → m.inside (m.obst c) = true

/-- The cell is an obstacle. -/
def Occ (m : DistMap) (c : Cell) : Prop := c.isValid = true ∧ m.obst c = c

instance (m : DistMap) (c : Cell) : Decidable (m.Occ c) := inferInstanceAs (Decidable (_ ∧ _))

theorem read_in {α : Type} {m : DistMap} {c : Cell} (f : Cell → α) (h : m.inside c = true) :
    m.read f c = some (f c) := if_pos h

theorem isOccupied_eq {m : DistMap} {o : Cell} (h : o.isValid = true → m.inside o = true) :
    m.isOccupied o = some (decide (m.Occ o)) := by
  unfold isOccupied Occ
  by_cases hv : o.isValid = true
  · rw [if_pos hv, read_in _ (h hv)]
    simp [hv]
  · rw [if_neg hv]
    simp [hv]

/-- A neighbour that the raise loop touches. -/
def Touched (m : DistMap) (l : List Cell) (n : Cell) : Prop :=
  n ∈ l ∧ (m.obst n).isValid = true ∧ m.toRaise n = false

/-- A neighbour that the raise loop clears. -/
def Cleared (m : DistMap) (l : List Cell) (n : Cell) : Prop := m.Touched l n ∧ ¬ m.Occ (m.obst n)

/-- The effect of the raise loop. -/
structure RaiseSpec (m : DistMap) (l : List Cell) (m' : DistMap) : Prop where
  rows : m'.rows = m.rows
  columns : m'.columns = m.columns
  clr : ∀ n, m.Cleared l n → m'.dist n = ⊤ ∧ m'.obst n = Cell.invalid ∧ m'.toRaise n = true
  keep : ∀ n, ¬ m.Cleared l n → m'.dist n = m.dist n ∧ m'.obst n = m.obst n ∧ m'.toRaise n = m.toRaise n
  proc : ∀ n, m.Touched l n → m'.toProcess n = true
  nproc : ∀ n, ¬ m.Touched l n → m'.toProcess n = m.toProcess n
  queue : ∃ q, m'.queue = q ++ m.queue ∧ ∀ e, e ∈ q ↔ m.Touched l e.1 ∧ e.2 = m'.dist e.1

theorem raiseOne_eq {m : DistMap} (hb : m.Bd) {n : Cell} (hn : m.inside n = true) :
    m.raiseOne n = some (if (m.obst n).isValid = true ∧ m.toRaise n = false then
      (if m.Occ (m.obst n) then m.push n (m.dist n) else (m.clear n).push n ⊤) else m) := by
  unfold raiseOne
  rw [read_in _ hn, read_in _ hn]
  simp only [Option.bind_eq_bind, Option.bind_some, isOccupied_eq (hb n hn), Option.pure_def]
  cases hv : (m.obst n).isValid <;> cases hr : m.toRaise n <;> simp
  by_cases ho : m.Occ (m.obst n)
  · simp [ho]
  · simp [ho, clear, setAt_same]

theorem occ_clear {m : DistMap} {n : Cell} (h : ¬ m.Occ (m.obst n)) (hn : (m.obst n).isValid = true) (c : Cell) :
    (m.clear n).Occ c ↔ m.Occ c := by
  unfold Occ clear
  dsimp only
  by_cases hc : c = n
  · subst hc
    rw [setAt_same]
    constructor
    · rintro ⟨hv, e⟩; rw [← e] at hv; cases hv
    · rintro ⟨hv, e⟩; exact absurd ⟨hn, by rw [e, e]⟩ h
  · rw [setAt_ne _ _ hc]

theorem raiseLoop {m : DistMap} (hb : m.Bd) (l : List Cell) (hl : ∀ n ∈ l, m.inside n = true)
    (hd : l.Nodup) : ∃ m', l.foldlM raiseOne m = some m' ∧ RaiseSpec m l m' := by
  induction l generalizing m with
  | nil =>
    refine ⟨m, rfl, rfl, rfl, ?_, ?_, ?_, ?_, ⟨[], rfl, ?_⟩⟩
    · rintro n ⟨⟨h, -⟩, -⟩; cases h
    · intro n _; exact ⟨rfl, rfl, rfl⟩
    · rintro n ⟨h, -⟩; cases h
    · intro n _; rfl
    · intro e; constructor
      · intro h; cases h
      · rintro ⟨⟨h, -⟩, -⟩; cases h
  | cons a l ih =>
    have ha := hl a (by simp)
    rw [List.nodup_cons] at hd
    rw [List.foldlM_cons, raiseOne_eq hb ha]
    simp only [Option.bind_eq_bind, Option.bind_some]
    obtain ⟨m1, hm1⟩ : ∃ m1, m1 = (if (m.obst a).isValid = true ∧ m.toRaise a = false then
      (if m.Occ (m.obst a) then m.push a (m.dist a) else (m.clear a).push a ⊤) else m) := ⟨_, rfl⟩
    rw [← hm1]
    -- facts on m1
    have hrow : m1.rows = m.rows ∧ m1.columns = m.columns := by
      rw [hm1]; split
      · split <;> exact ⟨rfl, rfl⟩
      · exact ⟨rfl, rfl⟩
    have hins : ∀ c, m1.inside c = m.inside c := by
      intro c; unfold inside; rw [hrow.1, hrow.2]
    have hoth : ∀ c, c ≠ a → m1.dist c = m.dist c ∧ m1.obst c = m.obst c ∧ m1.toRaise c = m.toRaise c ∧
        m1.toProcess c = m.toProcess c := by
      intro c hc
      rw [hm1]; split
      · split <;> simp [push, clear, setAt_ne _ _ hc]
      · simp
    have hocc : ∀ c, m1.Occ c ↔ m.Occ c := by
      intro c
      rw [hm1]; split
      · rename_i h
        split
        · rfl
        · rename_i h'
          exact occ_clear h' h.1 c
      · rfl
    have hb1 : m1.Bd := by
      intro c hc hv
      rw [hins] at hc ⊢
      by_cases hca : c = a
      · subst hca
        by_cases hclr : (m.obst c).isValid = true ∧ m.toRaise c = false ∧ ¬ m.Occ (m.obst c)
        · exfalso
          rw [hm1, if_pos ⟨hclr.1, hclr.2.1⟩, if_neg hclr.2.2] at hv
          simp [push, clear, setAt_same, invalid_not_valid] at hv
        · have he : m1.obst c = m.obst c := by
            rw [hm1]; split
            · rename_i h
              rw [if_pos (by by_contra hc; exact hclr ⟨h.1, h.2, hc⟩)]
              rfl
            · rfl
          rw [he] at hv ⊢
          exact hb c hc hv
      · rw [(hoth c hca).2.1] at hv ⊢
        exact hb c hc hv
    obtain ⟨m', hm', sp⟩ := ih hb1 (fun n hn => by rw [hins]; exact hl n (List.mem_cons_of_mem _ hn)) hd.2
    have hT : ∀ n, n ≠ a → (m1.Touched l n ↔ m.Touched (a :: l) n) := by
      intro n hn
      unfold Touched
      rw [(hoth n hn).2.1, (hoth n hn).2.2.1]
      simp [hn]
    have hTa : ¬ m1.Touched l a := fun h => hd.1 h.1
    have hC : ∀ n, n ≠ a → (m1.Cleared l n ↔ m.Cleared (a :: l) n) := by
      intro n hn
      unfold Cleared
      rw [hT n hn, hocc, (hoth n hn).2.1]
    have hCa : ¬ m1.Cleared l a := fun h => hTa h.1
    refine ⟨m', hm', sp.rows.trans hrow.1, sp.columns.trans hrow.2, ?_, ?_, ?_, ?_, ?_⟩
    · intro n hn
      by_cases hna : n = a
      · subst hna
        have hk := sp.keep n hCa
        rw [hk.1, hk.2.1, hk.2.2, hm1, if_pos ⟨hn.1.2.1, hn.1.2.2⟩, if_neg hn.2]
        simp [push, clear, setAt_same]
      · exact sp.clr n ((hC n hna).mpr hn)
    · intro n hn
      by_cases hna : n = a
      · subst hna
        have hk := sp.keep n hCa
        rw [hk.1, hk.2.1, hk.2.2, hm1]
        split
        · rename_i h
          rw [if_pos (by by_contra hc; exact hn ⟨⟨by simp, h.1, h.2⟩, hc⟩)]
          exact ⟨rfl, rfl, rfl⟩
        · exact ⟨rfl, rfl, rfl⟩
      · obtain ⟨h1, h2, h3⟩ := sp.keep n (fun h => hn ((hC n hna).mp h))
        have := hoth n hna
        exact ⟨h1.trans this.1, h2.trans this.2.1, h3.trans this.2.2.1⟩
    · intro n hn
      by_cases hna : n = a
      · subst hna
        rw [sp.nproc n hTa, hm1, if_pos ⟨hn.2.1, hn.2.2⟩]
        split <;> simp [push, setAt_same]
      · exact sp.proc n ((hT n hna).mpr hn)
    · intro n hn
      by_cases hna : n = a
      · subst hna
        rw [sp.nproc n hTa, hm1, if_neg (fun h => hn ⟨by simp, h.1, h.2⟩)]
      · rw [sp.nproc n (fun h => hn ((hT n hna).mp h)), (hoth n hna).2.2.2]
    · obtain ⟨q, hq, hmem⟩ := sp.queue
      by_cases hta : (m.obst a).isValid = true ∧ m.toRaise a = false
      · have hq1 : m1.queue = (a, m1.dist a) :: m.queue := by
          rw [hm1, if_pos hta]
          split
          · rfl
          · simp [push, clear, setAt_same]
        refine ⟨q ++ [(a, m1.dist a)], by rw [hq, hq1]; simp, ?_⟩
        intro e
        rw [List.mem_append, List.mem_singleton, hmem]
        have hkd : m'.dist a = m1.dist a := (sp.keep a hCa).1
        by_cases hea : e.1 = a
        · constructor
          · rintro (h | h)
            · exact absurd (hea ▸ h.1) hTa
            · exact ⟨⟨by rw [hea]; simp, by rw [hea]; exact hta.1, by rw [hea]; exact hta.2⟩,
                by rw [hea, hkd, h]⟩
          · rintro ⟨_, h⟩
            right
            rw [Prod.ext_iff]
            exact ⟨hea, by rw [h, hea, hkd]⟩
        · rw [hT _ hea]
          constructor
          · rintro (h | h)
            · exact h
            · exact absurd (by rw [h]) hea
          · intro h; exact Or.inl h
      · have hq1 : m1 = m := by rw [hm1, if_neg hta]
        refine ⟨q, by rw [hq, hq1], ?_⟩
        intro e
        rw [hmem]
        by_cases hea : e.1 = a
        · constructor
          · intro h; exact absurd (hea ▸ h.1) hTa
          · rintro ⟨h, _⟩; rw [hea] at h; exact absurd ⟨h.2.1, h.2.2⟩ hta
        · rw [hT _ hea]

/-- A neighbour that the lower loop improves with obstacle `o`. -/
def Improved (m : DistMap) (o : Cell) (l : List Cell) (n : Cell) : Prop :=
  n ∈ l ∧ m.toRaise n = false ∧ ((squaredDistance o n : Nat) : WithTop Nat) < m.dist n

/-- The effect of the lower loop. -/
structure LowerSpec (m : DistMap) (o : Cell) (l : List Cell) (m' : DistMap) : Prop where
  rows : m'.rows = m.rows
  columns : m'.columns = m.columns
  toRaise : m'.toRaise = m.toRaise
  imp : ∀ n, m.Improved o l n → m'.dist n = (squaredDistance o n : Nat) ∧ m'.obst n = o ∧ m'.toProcess n = true
  keep : ∀ n, ¬ m.Improved o l n → m'.dist n = m.dist n ∧ m'.obst n = m.obst n ∧ m'.toProcess n = m.toProcess n
  queue : ∃ q, m'.queue = q ++ m.queue ∧ ∀ e, e ∈ q ↔ m.Improved o l e.1 ∧ e.2 = m'.dist e.1

theorem lowerOne_eq {m : DistMap} {s n : Cell} (hs : m.inside s = true) (hn : m.inside n = true) :
    m.lowerOne s n = some (if m.toRaise n = false ∧
      ((squaredDistance (m.obst s) n : Nat) : WithTop Nat) < m.dist n then
      m.take n (m.obst s) (squaredDistance (m.obst s) n) else m) := by
  unfold lowerOne
  rw [read_in _ hn, read_in _ hs, read_in _ hn]
  simp only [Option.bind_eq_bind, Option.bind_some, Option.pure_def]
  cases m.toRaise n
  · by_cases h : ((squaredDistance (m.obst s) n : Nat) : WithTop Nat) < m.dist n
    · simp [h]
    · simp [h]
  · simp

theorem lowerLoop {m : DistMap} {s : Cell} (hs : m.inside s = true) (l : List Cell)
    (hl : ∀ n ∈ l, m.inside n = true) (hsl : s ∉ l) (hd : l.Nodup) :
    ∃ m', l.foldlM (lowerOne s) m = some m' ∧ LowerSpec m (m.obst s) l m' := by
  induction l generalizing m with
  | nil =>
    refine ⟨m, rfl, rfl, rfl, rfl, ?_, ?_, ⟨[], rfl, ?_⟩⟩
    · rintro n ⟨h, -⟩; cases h
    · intro n _; exact ⟨rfl, rfl, rfl⟩
    · intro e; constructor
      · intro h; cases h
      · rintro ⟨⟨h, -⟩, -⟩; cases h
  | cons a l ih =>
    have ha := hl a (by simp)
    have hsa : s ≠ a := fun h => hsl (by rw [h]; simp)
    rw [List.nodup_cons] at hd
    rw [List.foldlM_cons, lowerOne_eq hs ha]
    simp only [Option.bind_eq_bind, Option.bind_some]
    obtain ⟨o, ho⟩ : ∃ o, o = m.obst s := ⟨_, rfl⟩
    rw [← ho]
    obtain ⟨m1, hm1⟩ : ∃ m1, m1 = (if m.toRaise a = false ∧
      ((squaredDistance o a : Nat) : WithTop Nat) < m.dist a then
      m.take a o (squaredDistance o a) else m) := ⟨_, rfl⟩
    rw [← hm1]
    have hrow : m1.rows = m.rows ∧ m1.columns = m.columns ∧ m1.toRaise = m.toRaise := by
      rw [hm1]; split <;> exact ⟨rfl, rfl, rfl⟩
    have hins : ∀ c, m1.inside c = m.inside c := by
      intro c; unfold inside; rw [hrow.1, hrow.2.1]
    have hoth : ∀ c, c ≠ a → m1.dist c = m.dist c ∧ m1.obst c = m.obst c ∧
        m1.toProcess c = m.toProcess c := by
      intro c hc
      rw [hm1]; split <;> simp [take, push, setAt_ne _ _ hc]
    have ho1 : m1.obst s = o := by rw [(hoth s hsa).2.1, ho]
    obtain ⟨m', hm', sp⟩ := ih (m := m1) (by rw [hins]; exact hs)
      (fun n hn => by rw [hins]; exact hl n (List.mem_cons_of_mem _ hn))
      (fun h => hsl (List.mem_cons_of_mem _ h)) hd.2
    rw [ho1] at sp
    have hI : ∀ n, n ≠ a → (m1.Improved o l n ↔ m.Improved o (a :: l) n) := by
      intro n hn
      unfold Improved
      rw [(hoth n hn).1, hrow.2.2]
      simp [hn]
    have hIa : ¬ m1.Improved o l a := fun h => hd.1 h.1
    refine ⟨m', hm', sp.rows.trans hrow.1, sp.columns.trans hrow.2.1, sp.toRaise.trans hrow.2.2, ?_, ?_, ?_⟩
    · intro n hn
      by_cases hna : n = a
      · subst hna
        have hk := sp.keep n hIa
        rw [hk.1, hk.2.1, hk.2.2, hm1, if_pos ⟨hn.2.1, hn.2.2⟩]
        simp [take, push, setAt_same]
      · exact sp.imp n ((hI n hna).mpr hn)
    · intro n hn
      by_cases hna : n = a
      · subst hna
        have hk := sp.keep n hIa
        rw [hk.1, hk.2.1, hk.2.2, hm1, if_neg (fun h => hn ⟨by simp, h.1, h.2⟩)]
        exact ⟨rfl, rfl, rfl⟩
      · obtain ⟨h1, h2, h3⟩ := sp.keep n (fun h => hn ((hI n hna).mp h))
        have := hoth n hna
        exact ⟨h1.trans this.1, h2.trans this.2.1, h3.trans this.2.2⟩
    · obtain ⟨q, hq, hmem⟩ := sp.queue
      have hkd : m'.dist a = m1.dist a := (sp.keep a hIa).1
      by_cases hta : m.toRaise a = false ∧ ((squaredDistance o a : Nat) : WithTop Nat) < m.dist a
      · have hq1 : m1.queue = (a, m1.dist a) :: m.queue := by
          rw [hm1, if_pos hta]
          simp [take, push, setAt_same]
        refine ⟨q ++ [(a, m1.dist a)], by rw [hq, hq1]; simp, ?_⟩
        intro e
        rw [List.mem_append, List.mem_singleton, hmem]
        by_cases hea : e.1 = a
        · constructor
          · rintro (h | h)
            · exact absurd (hea ▸ h.1) hIa
            · exact ⟨⟨by rw [hea]; simp, by rw [hea]; exact hta.1, by rw [hea]; exact hta.2⟩,
                by rw [hea, hkd, h]⟩
          · rintro ⟨_, h⟩
            right
            rw [Prod.ext_iff]
            exact ⟨hea, by rw [h, hea, hkd]⟩
        · rw [hI _ hea]
          constructor
          · rintro (h | h)
            · exact h
            · exact absurd (by rw [h]) hea
          · intro h; exact Or.inl h
      · have hq1 : m1 = m := by rw [hm1, if_neg hta]
        refine ⟨q, by rw [hq, hq1], ?_⟩
        intro e
        rw [hmem]
        by_cases hea : e.1 = a
        · constructor
          · intro h; exact absurd (hea ▸ h.1) hIa
          · rintro ⟨h, _⟩; rw [hea] at h; exact absurd ⟨h.2.1, h.2.2⟩ hta
        · rw [hI _ hea]

/-- The neighbours of a cell. -/
abbrev nbrs (m : DistMap) (s : Cell) : List Cell := s.getNeighbors m.rows m.columns

/-- What the body of the loop of `Update` does. -/
inductive Effect (m : DistMap) (s : Cell) : DistMap → Prop
  | idle : m.toProcess s = false → Effect m s m
  | raise {m1} : m.toProcess s = true → m.toRaise s = true → RaiseSpec m (m.nbrs s) m1 →
      Effect m s { m1 with toRaise := setAt m1.toRaise s false }
  | stale : m.toProcess s = true → m.toRaise s = false → ¬ m.Occ (m.obst s) → Effect m s m
  | lower {m1} : m.toProcess s = true → m.toRaise s = false → m.Occ (m.obst s) →
      LowerSpec { m with toProcess := setAt m.toProcess s false } (m.obst s) (m.nbrs s) m1 → Effect m s m1

theorem self_not_nbr {m : DistMap} {s : Cell} (hs : m.inside s = true) : s ∉ m.nbrs s := by
  intro h
  have := ((mem_nbrs hs s).mp h).2
  rw [chebyshev_eq_one] at this
  omega

theorem process_effect {m : DistMap} (hb : m.Bd) {s : Cell} (hs : m.inside s = true) :
    ∃ m', m.process s = some m' ∧ Effect m s m' := by
  unfold process
  rw [read_in _ hs, read_in _ hs, read_in _ hs]
  simp only [Option.bind_eq_bind, Option.bind_some, Option.pure_def]
  cases hp : m.toProcess s with
  | false => exact ⟨m, by simp, .idle hp⟩
  | true =>
    cases hr : m.toRaise s with
    | true =>
      obtain ⟨m1, h1, sp⟩ := raiseLoop hb (m.nbrs s) (fun n hn => ((mem_nbrs hs n).mp hn).1)
        (Cell.nodup_getNeighbors _ _ _)
      simp only [if_true]
      rw [show List.foldlM raiseOne m (s.getNeighbors m.rows m.columns) = some m1 from h1]
      exact ⟨_, rfl, .raise hp hr sp⟩
    | false =>
      rw [isOccupied_eq (hb s hs)]
      simp only [Option.bind_some, Bool.false_eq_true, if_false, if_true]
      by_cases ho : m.Occ (m.obst s)
      · obtain ⟨m1, h1, sp⟩ := lowerLoop (m := { m with toProcess := setAt m.toProcess s false }) hs (m.nbrs s)
          (fun n hn => ((mem_nbrs hs n).mp hn).1) (self_not_nbr hs) (Cell.nodup_getNeighbors _ _ _)
        simp only [ho, decide_true, if_true]
        exact ⟨m1, h1, .lower hp hr ho sp⟩
      · simp only [ho, decide_false, Bool.false_eq_true, if_false]
        exact ⟨m, rfl, .stale hp hr ho⟩

end DistMap
end PathPlanning
