import Verif.Lemmas.DistMapInv
import Mathlib.Algebra.Order.BigOperators.Group.List
import Mathlib.Data.Prod.Lex
import Mathlib.Algebra.Order.Ring.Abs
import Mathlib.Order.WellFounded

/-!
# Termination of the update of a distance map
-/

namespace PathPlanning
open Spec

theorem sq_le {rows columns : Int} {a b : Cell} (ha : InRect rows columns a) (hb : InRect rows columns b) :
    squaredDistance a b ≤ (rows ^ 2 + columns ^ 2).toNat := by
  have h := sq_cast a b
  unfold sqDist at h
  unfold InRect at ha hb
  have h1 : (a.row - b.row) ^ 2 ≤ rows ^ 2 := sq_le_sq' (by omega) (by omega)
  have h2 : (a.col - b.col) ^ 2 ≤ columns ^ 2 := sq_le_sq' (by omega) (by omega)
  have h3 := sq_nonneg rows
  have h4 := sq_nonneg columns
  omega

namespace DistMap

theorem Effect.size {m m' : DistMap} {s : Cell} (ef : Effect m s m') : m'.rows = m.rows ∧ m'.columns = m.columns := by
  cases ef with
  | idle => exact ⟨rfl, rfl⟩
  | stale => exact ⟨rfl, rfl⟩
  | raise _ _ sp => exact ⟨sp.rows, sp.columns⟩
  | lower _ _ _ sp => exact ⟨sp.rows, sp.columns⟩

theorem Inv.step_size {m m' : DistMap} {S : Set Cell} (h : m.Inv S) (st : Step m m') :
    m'.rows = m.rows ∧ m'.columns = m.columns := by
  obtain ⟨e, _, ef⟩ := h.step st
  exact ef.size

theorem Inv.steps_size {m m' : DistMap} {S : Set Cell} (h : m.Inv S) (st : Relation.ReflTransGen Step m m') :
    m'.rows = m.rows ∧ m'.columns = m.columns := by
  induction st with
  | refl => exact ⟨rfl, rfl⟩
  | tail st1 st ih =>
    have := (h.steps st1).step_size st
    exact ⟨this.1.trans ih.1, this.2.trans ih.2⟩

theorem Inv.call_size {m m' : DistMap} {S : Set Cell} (h : m.Inv S) {o : Op} (c : Call m o m') :
    m'.rows = m.rows ∧ m'.columns = m.columns := by
  cases c with
  | set hs =>
    unfold DistMap.set at hs
    split at hs
    · cases hs; exact ⟨rfl, rfl⟩
    · cases hs
  | unset hs =>
    unfold DistMap.unset at hs
    split at hs
    · cases hs; exact ⟨rfl, rfl⟩
    · cases hs
  | update u => exact h.steps_size u.1

theorem Inv.run_size {m m' : DistMap} {S : Set Cell} (h : m.Inv S) (hb : m.Batch) {os : List Op}
    (r : Run m os m') : m'.rows = m.rows ∧ m'.columns = m.columns := by
  induction r generalizing S with
  | nil => exact ⟨rfl, rfl⟩
  | cons c _ ih =>
    obtain ⟨h1, hb1⟩ := h.call hb c
    have := ih h1 hb1
    have hc := h.call_size c
    exact ⟨this.1.trans hc.1, this.2.trans hc.2⟩

theorem run_size {rows columns : Int} {os : List Op} {m : DistMap} (r : Run (.new rows columns) os m) :
    m.rows = rows ∧ m.columns = columns :=
  (Inv.new rows columns).run_size (fun e he => by cases he) r

/-- Is the obstacle of the cell no obstacle any more? -/
def Stale (m : DistMap) (c : Cell) : Prop := (m.obst c).isValid = true ∧ ¬ m.Occ (m.obst c)

instance (m : DistMap) (c : Cell) : Decidable (m.Stale c) := inferInstanceAs (Decidable (_ ∧ _))

/-- The first part of the measure, for one cell. -/
def weight (m : DistMap) (c : Cell) : Nat := (if m.Stale c then 2 else 0) + (if m.toRaise c = true then 1 else 0)

/-- The second part of the measure, for one cell. -/
def height (m : DistMap) (c : Cell) : Nat := (m.dist c).untopD ((m.rows ^ 2 + m.columns ^ 2).toNat + 1)

def totalWeight (m : DistMap) : Nat := ((allCells m.rows m.columns).map m.weight).sum
def totalHeight (m : DistMap) : Nat := ((allCells m.rows m.columns).map m.height).sum

/-- The measure. -/
def measure (m : DistMap) : ℕ ×ₗ (ℕ ×ₗ ℕ) :=
  toLex (m.totalWeight, toLex (m.totalHeight, m.queue.length))

theorem mem_all {m : DistMap} {c : Cell} : c ∈ allCells m.rows m.columns ↔ m.inside c = true := by
  rw [mem_allCells, inside_iff]; rfl

theorem measure_lt_of {m m' : DistMap} (h1 : m'.totalWeight ≤ m.totalWeight)
    (h2 : m'.totalHeight ≤ m.totalHeight) (h3 : m'.queue.length < m.queue.length) : m'.measure < m.measure := by
  unfold measure
  rw [Prod.Lex.toLex_lt_toLex]
  rcases h1.lt_or_eq with h1 | h1
  · exact Or.inl h1
  · refine Or.inr ⟨h1, ?_⟩
    rw [Prod.Lex.toLex_lt_toLex]
    rcases h2.lt_or_eq with h2 | h2
    · exact Or.inl h2
    · exact Or.inr ⟨h2, h3⟩

theorem Inv.effect_measure {m : DistMap} {S : Set Cell} (h : m.Inv S) {e : Cell × WithTop Nat} (he : e ∈ m.queue)
    {m' : DistMap} (ef : Effect (m.pop e) e.1 m') : m'.measure < m.measure := by
  have h' := h.effect he ef
  have hsz := ef.size
  have hrow : m'.rows = m.rows := hsz.1
  have hcol : m'.columns = m.columns := hsz.2
  have hin : ∀ c, m'.inside c = m.inside c := inside_congr hrow hcol
  have hs := h.qin e he
  have hlen : (m.queue.erase e).length < m.queue.length := by
    rw [List.length_erase_of_mem he]
    have := List.length_pos_of_mem he
    omega
  -- a cell is stale iff its obstacle is in the grid and not in `S`
  have hst : ∀ c, m.inside c = true → (m.Stale c ↔ m.inside (m.obst c) = true ∧ m.obst c ∉ S) := by
    intro c hc
    constructor
    · rintro ⟨hv, ho⟩
      exact ⟨h.bd c hc hv, fun hS => ho ((h.occ (h.bd c hc hv)).mpr hS)⟩
    · rintro ⟨hi, hS⟩
      exact ⟨inside_valid hi, fun ho => hS ((h.occ hi).mp ho)⟩
  have hst' : ∀ c, m.inside c = true → (m'.Stale c ↔ m.inside (m'.obst c) = true ∧ m'.obst c ∉ S) := by
    intro c hc
    have hc' : m'.inside c = true := by rw [hin]; exact hc
    constructor
    · rintro ⟨hv, ho⟩
      have hb := h'.bd c hc' hv
      exact ⟨by rw [← hin]; exact hb, fun hS => ho ((h'.occ hb).mpr hS)⟩
    · rintro ⟨hi, hS⟩
      rw [← hin] at hi
      exact ⟨inside_valid hi, fun ho => hS ((h'.occ hi).mp ho)⟩
  have hwe : ∀ c, m.inside c = true → m'.obst c = m.obst c → m'.toRaise c = m.toRaise c → m'.weight c = m.weight c := by
    intro c hc h1 h2
    unfold weight
    have : m'.Stale c ↔ m.Stale c := by rw [hst' c hc, hst c hc, h1]
    simp only [this, h2]
  have hhe : ∀ c, m'.dist c = m.dist c → m'.height c = m.height c := by
    intro c h1; unfold height; rw [h1, hrow, hcol]
  cases ef with
  | idle hp => exact measure_lt_of le_rfl le_rfl hlen
  | stale hp hr ho => exact measure_lt_of le_rfl le_rfl hlen
  | raise hp hr sp =>
    rename_i m1
    obtain ⟨m2, hm2⟩ : ∃ m2 : DistMap, m2 = { m1 with toRaise := setAt m1.toRaise e.1 false } := ⟨_, rfl⟩
    rw [← hm2] at hrow hcol hin h' hst' hwe hhe ⊢
    unfold measure
    rw [Prod.Lex.toLex_lt_toLex]
    left
    unfold totalWeight
    rw [hrow, hcol]
    have hcl : ∀ c, m.inside c = true → (m.pop e).Cleared ((m.pop e).nbrs e.1) c → c ≠ e.1 → m2.weight c < m.weight c := by
      intro c hc hC hce
      have h1 : m.Stale c := ⟨hC.1.2.1, hC.2⟩
      have h2 : ¬ m2.Stale c := by
        rintro ⟨hv, _⟩
        rw [hm2] at hv
        have hv : (m1.obst c).isValid = true := hv
        rw [(sp.clr c hC).2.1] at hv; cases hv
      unfold weight
      rw [if_pos h1, if_neg h2]
      split <;> split <;> omega
    refine List.sum_lt_sum _ _ (fun c hc => ?_) ⟨e.1, mem_all.mpr hs, ?_⟩
    · rw [mem_all] at hc
      by_cases hce : c = e.1
      · -- the raised cell
        subst hce
        have hC : ¬ (m.pop e).Cleared ((m.pop e).nbrs e.1) e.1 := fun hC => self_not_nbr (m := m) hs hC.1.1
        have hob : m2.obst e.1 = m.obst e.1 := by rw [hm2]; exact (sp.keep _ hC).2.1
        unfold weight
        have : m2.Stale e.1 ↔ m.Stale e.1 := by rw [hst' _ hc, hst _ hc, hob]
        have hr2 : m2.toRaise e.1 = false := by rw [hm2]; exact setAt_same _ _ _
        simp only [this, hr2]
        simp
      · by_cases hC : (m.pop e).Cleared ((m.pop e).nbrs e.1) c
        · exact (hcl c hc hC hce).le
        · refine (hwe c hc ?_ ?_).le
          · rw [hm2]; exact (sp.keep c hC).2.1
          · rw [hm2]
            show setAt m1.toRaise e.1 false c = _
            rw [setAt_ne _ _ hce]
            exact (sp.keep c hC).2.2
    · have hC : ¬ (m.pop e).Cleared ((m.pop e).nbrs e.1) e.1 := fun hC => self_not_nbr (m := m) hs hC.1.1
      have hob : m2.obst e.1 = m.obst e.1 := by rw [hm2]; exact (sp.keep _ hC).2.1
      unfold weight
      have : m2.Stale e.1 ↔ m.Stale e.1 := by rw [hst' _ hs, hst _ hs, hob]
      have hr2 : m2.toRaise e.1 = false := by rw [hm2]; exact setAt_same _ _ _
      have hr : m.toRaise e.1 = true := hr
      simp only [this, hr2, hr]
      simp
  | lower hp hr ho sp =>
    obtain ⟨m0, hm0⟩ : ∃ m0 : DistMap, m0 = { m.pop e with toProcess := setAt (m.pop e).toProcess e.1 false } := ⟨_, rfl⟩
    rw [← hm0] at sp
    obtain ⟨o, hoo⟩ : ∃ o, o = m.obst e.1 := ⟨_, rfl⟩
    have ho : m.Occ o := by rw [hoo]; exact ho
    have sp : LowerSpec m0 o (m.nbrs e.1) m' := by rw [hoo]; exact sp
    have hoin : m.inside o = true := by rw [hoo]; exact h.bd _ hs (hoo ▸ ho.1)
    have hoS : o ∈ S := (h.occ hoin).mp ho
    have hImp : ∀ n, m0.Improved o (m.nbrs e.1) n → n ∈ m.nbrs e.1 ∧ m.toRaise n = false ∧
        ((squaredDistance o n : Nat) : WithTop Nat) < m.dist n := by
      intro n hn; rw [hm0] at hn; exact hn
    have hk : ∀ n, ¬ m0.Improved o (m.nbrs e.1) n → m'.dist n = m.dist n ∧ m'.obst n = m.obst n := by
      intro n hn
      have := sp.keep n hn
      rw [hm0] at this
      exact ⟨this.1, this.2.1⟩
    have hrr : m'.toRaise = m.toRaise := by rw [sp.toRaise, hm0]; rfl
    have hw : m'.totalWeight ≤ m.totalWeight := by
      unfold totalWeight
      rw [hrow, hcol]
      refine List.sum_le_sum fun c hc => ?_
      rw [mem_all] at hc
      by_cases hI : m0.Improved o (m.nbrs e.1) c
      · have h2 : ¬ m'.Stale c := by
          rw [hst' c hc, (sp.imp c hI).2.1]
          exact fun h => h.2 hoS
        unfold weight
        rw [if_neg h2, hrr]
        omega
      · exact (hwe c hc (hk c hI).2 (by rw [hrr])).le
    have hhI : ∀ c, m0.Improved o (m.nbrs e.1) c → m'.height c < m.height c := by
      intro c hI
      have hc : m.inside c = true := ((mem_nbrs hs c).mp (hImp c hI).1).1
      have hlt := (hImp c hI).2.2
      have hle := sq_le (inside_iff.mp hoin) (inside_iff.mp hc)
      unfold height
      rw [(sp.imp c hI).1, hrow, hcol]
      show squaredDistance o c < _
      cases hd : m.dist c with
      | top => show _ < _ + 1; omega
      | coe d =>
        rw [hd] at hlt
        exact WithTop.coe_lt_coe.mp hlt
    by_cases hex : ∃ c, m0.Improved o (m.nbrs e.1) c
    · have hh : m'.totalHeight < m.totalHeight := by
        unfold totalHeight
        rw [hrow, hcol]
        obtain ⟨c0, hc0⟩ := hex
        refine List.sum_lt_sum _ _ (fun c hc => ?_)
          ⟨c0, mem_all.mpr ((mem_nbrs hs c0).mp (hImp c0 hc0).1).1, hhI c0 hc0⟩
        by_cases hI : m0.Improved o (m.nbrs e.1) c
        · exact (hhI c hI).le
        · exact (hhe c (hk c hI).1).le
      unfold measure
      rw [Prod.Lex.toLex_lt_toLex]
      rcases hw.lt_or_eq with hw | hw
      · exact Or.inl hw
      · exact Or.inr ⟨hw, by rw [Prod.Lex.toLex_lt_toLex]; exact Or.inl hh⟩
    · have hh : m'.totalHeight ≤ m.totalHeight := by
        unfold totalHeight
        rw [hrow, hcol]
        exact List.sum_le_sum fun c _ => (hhe c (hk c (fun h => hex ⟨c, h⟩)).1).le
      obtain ⟨q, hq, hmem⟩ := sp.queue
      have hqn : q = [] := by
        rw [List.eq_nil_iff_forall_not_mem]
        intro x hx
        exact hex ⟨_, ((hmem x).mp hx).1⟩
      refine measure_lt_of hw hh ?_
      rw [hq, hqn, hm0]
      exact hlen

theorem exists_top {q : List (Cell × WithTop Nat)} (h : q ≠ []) : ∃ e, IsTop q e := by
  induction q with
  | nil => exact absurd rfl h
  | cons a q ih =>
    by_cases hq : q = []
    · subst hq
      refine ⟨a, by simp, ?_⟩
      intro e' he'
      simp at he'
      rw [he']
    · obtain ⟨e, he, hmin⟩ := ih hq
      rcases le_total a.2 e.2 with hle | hle
      · refine ⟨a, by simp, ?_⟩
        intro e' he'
        rcases List.mem_cons.mp he' with rfl | he'
        · exact le_rfl
        · exact hle.trans (hmin e' he')
      · refine ⟨e, List.mem_cons_of_mem _ he, ?_⟩
        intro e' he'
        rcases List.mem_cons.mp he' with rfl | he'
        · exact hle
        · exact hmin e' he'

theorem Inv.no_infinite {m : DistMap} {S : Set Cell} (h : m.Inv S) (f : ℕ → DistMap) (h0 : f 0 = m)
    (hf : ∀ i, Step (f i) (f (i + 1))) : False := by
  have hi : ∀ i, (f i).Inv S := by
    intro i
    induction i with
    | zero => rw [h0]; exact h
    | succ i ih => exact ih.step_inv (hf i)
  have hd : ∀ i, (f (i + 1)).measure < (f i).measure := by
    intro i
    obtain ⟨e, he, ef⟩ := (hi i).step (hf i)
    exact (hi i).effect_measure he ef
  obtain ⟨n, hn⟩ := WellFounded.not_rel_apply_succ (r := (· < ·)) (fun i => (f i).measure)
  exact hn (hd n)

theorem Inv.exists_update {m : DistMap} {S : Set Cell} (h : m.Inv S) : ∃ m', Update m m' := by
  induction hm : m.measure using WellFoundedLT.induction generalizing m with
  | ind x ih =>
    by_cases hq : m.queue = []
    · exact ⟨m, .refl, hq⟩
    · obtain ⟨e, he⟩ := exists_top hq
      obtain ⟨m1, h1, ef⟩ := process_effect (m := m.pop e) (s := e.1) h.bd (h.qin e he.1)
      have hlt := h.effect_measure he.1 ef
      obtain ⟨m', hu⟩ := ih m1.measure (hm ▸ hlt) (h.effect he.1 ef) rfl
      exact ⟨m', Relation.ReflTransGen.head ⟨e, he, h1⟩ hu.1, hu.2⟩

end DistMap
end PathPlanning
