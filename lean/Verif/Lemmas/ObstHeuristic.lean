import Verif.Model.ObstHeuristic
import Verif.Lemmas.Frontier
import Verif.Lemmas.Grid
import Verif.Spec.Accumulate
import Mathlib.Algebra.Order.Monoid.Defs
import Mathlib.Data.Finset.Card

/-! # Invariant of `ObstaclesHeuristic::Update` -/

namespace PathPlanning.ObstHeuristic
open Spec

variable {K : Type}

theorem compareCell_swo [LinearOrder K] : StrictWeakOrder (compareCell (K := K)) := by
  refine ⟨fun a => by simp [compareCell], fun a b c => ?_, fun a b c => ?_⟩
  · simp only [compareCell, decide_eq_true_eq]; exact fun h1 h2 => lt_trans h2 h1
  · simp only [compareCell, decide_eq_false_iff_not, not_lt]
    rintro ⟨h1, h2⟩ ⟨h3, h4⟩
    exact ⟨le_trans h1 h3, le_trans h4 h2⟩

theorem equalCell_equiv : KeyEquiv (equalCell (K := K)) := by
  refine ⟨fun a => by simp [equalCell], fun a b => ?_, fun a b c => ?_⟩ <;>
  · simp only [equalCell, decide_eq_true_eq]; intros; simp_all

/-- What the proof needs of the addition of costs. It need be neither associative nor commutative: the addition of
`float`s has these properties. -/
structure CostLaws (K : Type) [LinearOrder K] [Add K] [Zero K] : Prop where
  mono : ∀ a b c d : K, a ≤ b → c ≤ d → a + c ≤ b + d
  le_add : ∀ t x : K, 0 ≤ t → x ≤ t + x

theorem CostLaws.of_ordered [LinearOrder K] [AddCommMonoid K] [IsOrderedAddMonoid K] : CostLaws K :=
  ⟨fun _ _ _ _ h1 h2 => add_le_add h1 h2, fun _ _ h => le_add_of_nonneg_left h⟩

variable [LinearOrder K] [Add K] [Zero K] [One K]

theorem CostLaws.mono_top (hK : CostLaws K) (d : K) {a b : WithTop K} (h : a ≤ b) :
    (d : WithTop K) + a ≤ (d : WithTop K) + b := by
  cases b with
  | top => exact le_top
  | coe b =>
    cases a with
    | top => exact absurd h (not_le.mpr (WithTop.coe_lt_top b))
    | coe a => exact WithTop.coe_le_coe.mpr (hK.mono _ _ _ _ le_rfl (WithTop.coe_le_coe.mp h))

theorem CostLaws.le_add_top (hK : CostLaws K) {d : K} (hd : 0 ≤ d) (a : WithTop K) : a ≤ (d : WithTop K) + a := by
  cases a with
  | top => exact le_rfl
  | coe a => exact WithTop.coe_le_coe.mpr (hK.le_add _ _ hd)

/-- The cell has been reached: explored, or in the frontier. -/
def Known (s : State K) (live : List (ValuedCell K)) (c : Cell) : Prop :=
  s.tables.explored c = true ∨ ∃ v, (c, v) ∈ live

/-- The invariant. `P c n`: the neighbour `n` of the explored cell `c` has been treated. -/
structure Inv (m : GridMap) (diag : K) (st : Cell) (s : State K) (live : List (ValuedCell K))
    (P : Cell → Cell → Prop) : Prop where
  repr : Frontier.Repr compareCell equalCell s.frontier live
  live_inside : ∀ e ∈ live, Inside m e.1
  live_unexplored : ∀ e ∈ live, s.tables.explored e.1 = false
  live_cost : ∀ e ∈ live, s.tables.cost e.1 = e.2
  expl_inside : ∀ c, s.tables.explored c = true → Inside m c
  known : ∀ c, s.tables.cost c ≠ ⊤ ↔ Known s live c
  path : ∀ c (x : K), s.tables.cost c = x → ∃ l, Walk m st l c ∧ accumulated (transitionCost diag) 0 l = x
  cost_start : s.tables.cost st = 0
  mono : ∀ c, s.tables.explored c = true → ∀ e ∈ live, s.tables.cost c ≤ e.2
  pred : ∀ n, Known s live n → n = st ∨
    ∃ u, s.tables.explored u = true ∧ s.tables.cost n ≤ (diag : WithTop K) + s.tables.cost u
  treated : ∀ c n, P c n → s.tables.explored c = true
  closed : ∀ c n, P c n → Move m c n → Known s live n ∧
    s.tables.cost n ≤ (diag : WithTop K) + s.tables.cost c

theorem skipped_inside {m : GridMap} {cell n : Cell} (hc : Inside m cell)
    (hn : n ∈ cell.getNeighbors m.rows m.columns) :
    ∃ b, skipped m cell n = some b ∧ (b = false ↔ Move m cell n) := by
  refine ⟨_, N2.skipped_inside hc hn, ?_⟩
  have hin := (N2.neighbor_inside hc hn).1
  rw [Cell.mem_getNeighbors] at hn
  unfold Move Free Cell.isDiagonalTo
  have h1 := hn.2.1
  cases ho : m.occ n <;> cases h2 : m.occ ⟨n.row, cell.col⟩ <;> cases h3 : m.occ ⟨cell.row, n.col⟩ <;>
    simp [hin, h1] <;> tauto

theorem walk_snoc {m : GridMap} {a b c : Cell} {l : List Cell} (f : Cell → Cell → K)
    (h : Walk m a l b) (hm : Move m b c) :
    Walk m a (l ++ [c]) c ∧ ∀ x, accumulated f x (l ++ [c]) = f b c + accumulated f x l := by
  induction h with
  | stop a => exact ⟨.move hm (.stop _), fun x => rfl⟩
  | @move x y z l h1 h2 ih =>
    obtain ⟨h3, h4⟩ := ih hm
    refine ⟨.move h1 h3, fun u => ?_⟩
    cases h2 with
    | stop => exact h4 _
    | move h5 h6 => exact h4 _

theorem le_accumulated (hK : CostLaws K) {f : Cell → Cell → K} (hf : ∀ a b, 0 ≤ f a b) :
    ∀ (l : List Cell) (x : K), x ≤ accumulated f x l := by
  intro l
  induction l with
  | nil => exact fun x => le_rfl
  | cons a l ih =>
    intro x
    cases l with
    | nil => exact le_rfl
    | cons b l => exact (hK.le_add _ _ (hf a b)).trans (ih _)

theorem read_inside {V : Type} {m : GridMap} {f : Cell → V} {c : Cell} (h : Inside m c) :
    read m f c = some (f c) := by
  unfold read; rw [(inside_iff m c).mpr h]; rfl

private theorem transition_le {diag : K} (h1 : 1 ≤ diag) (a b : Cell) : transitionCost diag a b ≤ diag := by
  unfold transitionCost; split
  · exact h1
  · exact le_rfl

private theorem transition_nonneg {diag : K} (h0 : (0 : K) ≤ 1) (h1 : 1 ≤ diag) (a b : Cell) :
    0 ≤ transitionCost diag a b := by
  unfold transitionCost; split
  · exact h0
  · exact h0.trans h1

theorem relax_spec (hK : CostLaws K) {m : GridMap} {diag : K} (h01 : (0 : K) ≤ 1) (h1d : 1 ≤ diag) {st cell n : Cell}
    {s : State K} {live : List (ValuedCell K)} {P : Cell → Cell → Prop} (h : Inv m diag st s live P)
    (hc : s.tables.explored cell = true)
    (hmax : ∀ u, s.tables.explored u = true → s.tables.cost u ≤ s.tables.cost cell)
    (hn : n ∈ cell.getNeighbors m.rows m.columns) :
    ∃ s' live', relax m diag cell s n = some s' ∧
      Inv m diag st s' live' (fun c d => P c d ∨ (c = cell ∧ d = n)) ∧
      s'.tables.explored = s.tables.explored ∧
      ∀ c, s.tables.explored c = true → s'.tables.cost c = s.tables.cost c := by
  have hci := h.expl_inside cell hc
  have hni := (N2.neighbor_inside hci hn).1
  obtain ⟨b, hb, hbm⟩ := skipped_inside hci hn
  unfold relax
  rw [hb]
  -- what is known of a neighbour that has been reached before
  have hold : Known s live n → s.tables.cost n ≤ (diag : WithTop K) + s.tables.cost cell := by
    intro hk
    rcases h.pred n hk with rfl | ⟨u, hu, hle⟩
    · rw [h.cost_start]
      have : (0 : WithTop K) ≤ s.tables.cost cell := by
        rw [← h.cost_start]
        by_cases hs : s.tables.explored n = true
        · exact hmax n hs
        · obtain ⟨v, hv⟩ := hk.resolve_left hs
          have := h.mono cell hc _ hv
          have h2 := h.live_cost _ hv
          rw [h.cost_start] at h2
          -- `n = st` is in the frontier, so no cell can have been explored before it
          by_contra hlt
          rw [h.cost_start, not_le] at hlt
          -- costs are costs of walks, hence nonnegative
          obtain ⟨x, hx⟩ := WithTop.ne_top_iff_exists.mp ((h.known cell).mpr (Or.inl hc))
          obtain ⟨l, hl, hlx⟩ := h.path cell x hx.symm
          have hnn : 0 ≤ x := by
            rw [← hlx]
            exact le_accumulated hK (transition_nonneg h01 h1d) l 0
          rw [← hx] at hlt
          exact absurd (WithTop.coe_lt_coe.mp hlt) (not_lt.mpr hnn)
      exact this.trans (hK.le_add_top (h01.trans h1d) _)
    · exact hle.trans (hK.mono_top _ (hmax u hu))
  have hkeep : (Move m cell n → Known s live n) →
      Inv m diag st s live (fun c d => P c d ∨ (c = cell ∧ d = n)) := by
    intro hk
    refine { h with closed := ?_, treated := ?_ }
    swap
    · rintro c d (hp | ⟨rfl, rfl⟩) hm
      · exact h.closed c d hp hm
      · exact ⟨hk hm, hold (hk hm)⟩
    · rintro c d (hp | ⟨rfl, rfl⟩)
      · exact h.treated c d hp
      · exact hc
  cases b with
  | true =>
    refine ⟨s, live, rfl, hkeep fun hm => ?_, rfl, fun _ _ => rfl⟩
    have := hbm.mpr hm
    cases this
  | false =>
    have hmove := hbm.mp rfl
    simp only [Option.bind_eq_bind, Option.bind_some, Bool.false_eq_true, if_false,
      read_inside hci, read_inside hni, Option.pure_def]
    rw [h.repr.find_eq equalCell_equiv]
    cases hf : live.find? (fun y => equalCell y (n, 0)) with
    | some e =>
      have he := List.mem_of_find?_eq_some hf
      have hen : e.1 = n := by simpa [equalCell] using List.find?_some hf
      have hce := h.live_cost e he
      rw [hen] at hce
      simp only [hce, lt_irrefl, gt_iff_lt, if_false]
      exact ⟨s, live, rfl, hkeep fun _ => Or.inr ⟨e.2, by rw [← hen]; exact he⟩, rfl, fun _ _ => rfl⟩
    | none =>
      cases hex : s.tables.explored n with
      | true => exact ⟨s, live, rfl, hkeep fun _ => Or.inl hex, rfl, fun _ _ => rfl⟩
      | false =>
        have hnone : ∀ v, (n, v) ∉ live := by
          intro v hv
          have := List.find?_eq_none.mp hf _ hv
          simp [equalCell] at this
        have hunk : s.tables.cost n = ⊤ := by
          by_contra hne
          rcases (h.known n).mp hne with h1 | ⟨v, hv⟩
          · rw [hex] at h1; cases h1
          · exact hnone v hv
        obtain ⟨x, hx⟩ := WithTop.ne_top_iff_exists.mp ((h.known cell).mpr (Or.inl hc))
        have hpc : ((transitionCost diag cell n : K) : WithTop K) + s.tables.cost cell =
            ((transitionCost diag cell n + x : K) : WithTop K) := by rw [← hx]; rfl
        rw [hpc]
        obtain ⟨pc, hpcd⟩ : ∃ pc, pc = transitionCost diag cell n + x := ⟨_, rfl⟩
        rw [← hpcd]
        have hpush := (h.repr.push_new compareCell_swo equalCell_equiv (x := (n, (pc : WithTop K))) (by
          rw [List.find?_eq_none]; intro y hy
          have := List.find?_eq_none.mp hf y hy
          simpa [equalCell] using this)).1
        have hcn : n ≠ cell := by rintro rfl; rw [hc] at hex; cases hex
        have hlive : ∀ e ∈ live, e.1 ≠ n := by
          rintro ⟨a, v⟩ he rfl; exact hnone v he
        have hexn : ∀ c, s.tables.explored c = true → c ≠ n := by
          rintro c h1 rfl; rw [hex] at h1; cases h1
        have hsame : ∀ c, c ≠ n → setCell s.tables.cost n (pc : WithTop K) c = s.tables.cost c :=
          fun c hne => if_neg hne
        have hset : setCell s.tables.cost n (pc : WithTop K) n = (pc : WithTop K) := if_pos rfl
        have hle1 : (pc : WithTop K) ≤ (diag : WithTop K) + s.tables.cost cell := by
          rw [← hx, hpcd, ← WithTop.coe_add]
          exact WithTop.coe_le_coe.mpr (hK.mono _ _ _ _ (transition_le h1d _ _) le_rfl)
        have hge : s.tables.cost cell ≤ (pc : WithTop K) := by
          rw [← hx, hpcd]
          exact WithTop.coe_le_coe.mpr (hK.le_add _ _ (transition_nonneg h01 h1d _ _))
        have hstn : st ≠ n := by
          rintro rfl
          rw [h.cost_start] at hunk
          exact WithTop.zero_ne_top hunk
        refine ⟨_, live ++ [(n, (pc : WithTop K))], rfl, ?_, rfl, fun c h1 => hsame c (hexn c h1)⟩
        refine ⟨hpush, ?_, ?_, ?_, h.expl_inside, ?_, ?_, ?_, ?_, ?_, ?_, ?_⟩
        · intro e he
          rcases List.mem_append.mp he with he | he
          · exact h.live_inside e he
          · rw [List.mem_singleton.mp he]; exact hni
        · intro e he
          rcases List.mem_append.mp he with he | he
          · exact h.live_unexplored e he
          · rw [List.mem_singleton.mp he]; exact hex
        · intro e he
          rcases List.mem_append.mp he with he | he
          · exact (hsame _ (hlive e he)).trans (h.live_cost e he)
          · rw [List.mem_singleton.mp he]; exact hset
        · intro c
          show setCell s.tables.cost n (pc : WithTop K) c ≠ ⊤ ↔ s.tables.explored c = true ∨ _
          by_cases hcn' : c = n
          · subst hcn'
            rw [hset]
            exact ⟨fun _ => Or.inr ⟨_, List.mem_append_right _ (List.mem_singleton.mpr rfl)⟩,
              fun _ => WithTop.coe_ne_top⟩
          · rw [hsame c hcn', h.known]
            unfold Known
            constructor
            · rintro (h1 | ⟨v, hv⟩)
              · exact Or.inl h1
              · exact Or.inr ⟨v, List.mem_append_left _ hv⟩
            · rintro (h1 | ⟨v, hv⟩)
              · exact Or.inl h1
              · rcases List.mem_append.mp hv with hv | hv
                · exact Or.inr ⟨v, hv⟩
                · exact absurd (congrArg Prod.fst (List.mem_singleton.mp hv)) hcn'
        · intro c y hy
          by_cases hcn' : c = n
          · subst hcn'
            have hy : setCell s.tables.cost c (pc : WithTop K) c = (y : WithTop K) := hy
            rw [hset] at hy
            have hy := WithTop.coe_injective hy
            obtain ⟨l, hl, hlx⟩ := h.path cell x hx.symm
            obtain ⟨h1, h2⟩ := walk_snoc (transitionCost diag) hl hmove
            exact ⟨_, h1, by rw [h2, hlx, ← hy, hpcd]⟩
          · exact h.path c y ((hsame c hcn').symm.trans hy)
        · exact (hsame st hstn).trans h.cost_start
        · intro c h1 e he
          have h1 : s.tables.explored c = true := h1
          show setCell s.tables.cost n (pc : WithTop K) c ≤ _
          rw [hsame c (hexn c h1)]
          rcases List.mem_append.mp he with he | he
          · exact h.mono c h1 e he
          · rw [List.mem_singleton.mp he]; exact (hmax c h1).trans hge
        · rintro d hk
          by_cases hdn : d = n
          · subst hdn
            refine Or.inr ⟨cell, hc, ?_⟩
            show setCell s.tables.cost d (pc : WithTop K) d ≤ _ + setCell s.tables.cost d (pc : WithTop K) cell
            rw [hset, hsame cell hcn.symm]
            exact hle1
          · have hk' : Known s live d := by
              rcases hk with h1 | ⟨v, hv⟩
              · exact Or.inl h1
              · rcases List.mem_append.mp hv with hv | hv
                · exact Or.inr ⟨v, hv⟩
                · exact absurd (congrArg Prod.fst (List.mem_singleton.mp hv)) hdn
            rcases h.pred d hk' with h1 | ⟨u, hu, hle⟩
            · exact Or.inl h1
            · refine Or.inr ⟨u, hu, ?_⟩
              show setCell s.tables.cost n (pc : WithTop K) d ≤ _ + setCell s.tables.cost n (pc : WithTop K) u
              rw [hsame d hdn, hsame u (hexn u hu)]
              exact hle
        · rintro c d (hp | ⟨rfl, rfl⟩)
          · exact h.treated c d hp
          · exact hc
        · rintro c d hp hm
          show Known _ _ _ ∧ setCell s.tables.cost n (pc : WithTop K) d ≤
            _ + setCell s.tables.cost n (pc : WithTop K) c
          by_cases hdn : d = n
          · subst hdn
            refine ⟨Or.inr ⟨_, List.mem_append_right _ (List.mem_singleton.mpr rfl)⟩, ?_⟩
            rw [hset]
            rcases hp with hp | ⟨rfl, -⟩
            · exfalso
              have := (h.known d).mpr (h.closed c d hp hm).1
              exact this hunk
            · rw [hsame c hcn.symm]; exact hle1
          · rcases hp with hp | ⟨-, rfl⟩
            · obtain ⟨h1, h2⟩ := h.closed c d hp hm
              refine ⟨?_, ?_⟩
              · rcases h1 with h1 | ⟨v, hv⟩
                · exact Or.inl h1
                · exact Or.inr ⟨v, List.mem_append_left _ hv⟩
              · rw [hsame d hdn]
                by_cases hcn' : c = n
                · exact absurd hcn' (hexn c (h.treated c d hp))
                · rw [hsame c hcn']; exact h2
            · exact absurd rfl hdn

theorem relaxAll_spec (hK : CostLaws K) {m : GridMap} {diag : K} (h01 : (0 : K) ≤ 1) (h1d : 1 ≤ diag) {st cell : Cell} :
    ∀ (ns : List Cell) {s : State K} {live : List (ValuedCell K)} {P : Cell → Cell → Prop},
      Inv m diag st s live P → s.tables.explored cell = true →
      (∀ u, s.tables.explored u = true → s.tables.cost u ≤ s.tables.cost cell) →
      (∀ n ∈ ns, n ∈ cell.getNeighbors m.rows m.columns) →
      ∃ s' live', relaxAll m diag cell s ns = some s' ∧
        Inv m diag st s' live' (fun c d => P c d ∨ (c = cell ∧ d ∈ ns)) ∧
        s'.tables.explored = s.tables.explored := by
  intro ns
  induction ns with
  | nil =>
    intro s live P h _ _ _
    refine ⟨s, live, rfl, ?_, rfl⟩
    have : (fun c d => P c d ∨ (c = cell ∧ d ∈ ([] : List Cell))) = P := by
      funext c d; simp
    rw [this]; exact h
  | cons n ns ih =>
    intro s live P h hc hmax hns
    obtain ⟨s1, live1, h1, h2, h3, h4⟩ := relax_spec hK h01 h1d h hc hmax (hns n (List.mem_cons_self ..))
    obtain ⟨s2, live2, h5, h6, h7⟩ := ih h2 (by rw [h3]; exact hc)
      (fun u hu => by rw [h3] at hu; rw [h4 u hu, h4 cell hc]; exact hmax u hu)
      (fun k hk => hns k (List.mem_cons_of_mem _ hk))
    refine ⟨s2, live2, ?_, ?_, h7.trans h3⟩
    · unfold relaxAll
      rw [h1]; exact h5
    · have : (fun c d => P c d ∨ (c = cell ∧ d ∈ n :: ns)) =
          (fun c d => (P c d ∨ (c = cell ∧ d = n)) ∨ (c = cell ∧ d ∈ ns)) := by
        funext c d; simp only [List.mem_cons, eq_iff_iff]; tauto
      rw [this]; exact h6

/-- The invariant between two turns of the main loop. -/
def Good (m : GridMap) (diag : K) (st : Cell) (s : State K) : Prop :=
  ∃ live, Inv m diag st s live
    (fun c n => s.tables.explored c = true ∧ n ∈ c.getNeighbors m.rows m.columns)

/-- The best element is no worse than any other. -/
theorem best_le {live : List (ValuedCell K)} {b : ValuedCell K} (hb : best compareCell live = some b) :
    ∀ e ∈ live, b.2 ≤ e.2 := by
  induction live using List.reverseRecOn generalizing b with
  | nil => cases hb
  | append_singleton l x ih =>
    rw [Frontier.best_append] at hb
    intro e he
    cases hl : best compareCell l with
    | none =>
      rw [hl] at hb
      have : l = [] := by
        cases l with
        | nil => rfl
        | cons a l => simp [best] at hl
      subst this
      injection hb with hb
      rw [List.nil_append, List.mem_singleton] at he
      rw [he, hb]
    | some c =>
      rw [hl] at hb
      dsimp only at hb
      rcases List.mem_append.mp he with he | he
      · split at hb
        · injection hb with hb; subst hb; exact ih hl e he
        · rename_i hcx
          injection hb with hb; subst hb
          simp only [compareCell, decide_eq_true_eq, gt_iff_lt, not_lt] at hcx
          exact hcx.trans (ih hl e he)
      · rw [List.mem_singleton] at he
        subst he
        split at hb
        · rename_i hcx
          injection hb with hb; subst hb
          simp only [compareCell, decide_eq_true_eq, gt_iff_lt] at hcx
          exact hcx.le
        · injection hb with hb; rw [hb]

theorem turn_spec (hK : CostLaws K) {m : GridMap} {diag : K} (h01 : (0 : K) ≤ 1) (h1d : 1 ≤ diag) {st : Cell}
    {s : State K} (h : Good m diag st s) (hne : s.frontier.isEmpty = false) :
    ∃ s', turn m diag s = some s' ∧ Good m diag st s' ∧
      ∃ c, Inside m c ∧ s.tables.explored c = false ∧
        s'.tables.explored = setCell s.tables.explored c true := by
  obtain ⟨live, h⟩ := h
  cases hb : best compareCell live with
  | none =>
    exfalso
    have : live = [] := by
      cases live with
      | nil => rfl
      | cons a l => simp [best] at hb
    rw [Frontier.isEmpty, h.repr.vec_eq, this] at hne
    cases hne
  | some b =>
    obtain ⟨f', hpop, hr⟩ := h.repr.pop_some compareCell_swo equalCell_equiv hb
    have hbl := Frontier.best_mem hb
    have hbi := h.live_inside b hbl
    have hbx := h.live_unexplored b hbl
    have hbc := h.live_cost b hbl
    have hmin := best_le hb
    have hmem : ∀ e, e ∈ live.filter (fun y => !equalCell y b) ↔ e ∈ live ∧ e.1 ≠ b.1 := by
      intro e; rw [List.mem_filter]; simp [equalCell]
    unfold turn
    rw [hpop]
    simp only [Option.bind_eq_bind, Option.bind_some, read_inside hbi]
    obtain ⟨s1, hs1⟩ : ∃ s1 : State K, s1 = ⟨f', { s.tables with explored := setCell s.tables.explored b.1 true }⟩ :=
      ⟨_, rfl⟩
    have hex1 : ∀ c, s1.tables.explored c = true ↔ s.tables.explored c = true ∨ c = b.1 := by
      intro c; rw [hs1]; show setCell _ _ _ _ = true ↔ _
      unfold setCell; split <;> simp_all
    have hco1 : s1.tables.cost = s.tables.cost := by rw [hs1]
    have hknown : ∀ c, Known s1 (live.filter (fun y => !equalCell y b)) c ↔ Known s live c := by
      intro c
      unfold Known
      rw [hex1]
      constructor
      · rintro ((h1 | rfl) | ⟨v, hv⟩)
        · exact Or.inl h1
        · exact Or.inr ⟨b.2, hbl⟩
        · exact Or.inr ⟨v, ((hmem _).mp hv).1⟩
      · rintro (h1 | ⟨v, hv⟩)
        · exact Or.inl (Or.inl h1)
        · by_cases hcb : c = b.1
          · exact Or.inl (Or.inr hcb)
          · exact Or.inr ⟨v, (hmem _).mpr ⟨hv, hcb⟩⟩
    have hmax : ∀ u, s1.tables.explored u = true → s1.tables.cost u ≤ s1.tables.cost b.1 := by
      intro u hu
      rw [hco1, hbc]
      rcases (hex1 u).mp hu with h1 | rfl
      · exact h.mono u h1 b hbl
      · exact hbc.le
    have hinv : Inv m diag st s1 (live.filter (fun y => !equalCell y b))
        (fun c n => s.tables.explored c = true ∧ n ∈ c.getNeighbors m.rows m.columns) := by
      refine ⟨by rw [hs1]; exact hr, fun e he => h.live_inside e ((hmem e).mp he).1, ?_, ?_, ?_, ?_, ?_, ?_, ?_, ?_,
        ?_, ?_⟩
      · intro e he
        obtain ⟨h1, h2⟩ := (hmem e).mp he
        have h3 := h.live_unexplored e h1
        cases h4 : s1.tables.explored e.1 with
        | false => rfl
        | true =>
          rcases (hex1 _).mp h4 with h5 | h5
          · rw [h3] at h5; cases h5
          · exact absurd h5 h2
      · intro e he; rw [hco1]; exact h.live_cost e ((hmem e).mp he).1
      · intro c hc
        rcases (hex1 c).mp hc with h1 | rfl
        · exact h.expl_inside c h1
        · exact hbi
      · intro c; rw [hco1, hknown]; exact h.known c
      · intro c x; rw [hco1]; exact h.path c x
      · rw [hco1]; exact h.cost_start
      · intro c hc e he
        have h1 := hmax c hc
        rw [hco1, hbc] at h1
        rw [hco1]
        exact h1.trans (hmin e ((hmem e).mp he).1)
      · intro n hk
        rcases h.pred n ((hknown n).mp hk) with h1 | ⟨u, hu, hle⟩
        · exact Or.inl h1
        · exact Or.inr ⟨u, (hex1 u).mpr (Or.inl hu), by rw [hco1]; exact hle⟩
      · rintro c n ⟨h1, -⟩; exact (hex1 c).mpr (Or.inl h1)
      · intro c n hp hm
        obtain ⟨h1, h2⟩ := h.closed c n hp hm
        exact ⟨(hknown n).mpr h1, by rw [hco1]; exact h2⟩
    rw [← hs1]
    obtain ⟨s2, live2, h5, h6, h7⟩ := relaxAll_spec hK h01 h1d (b.1.getNeighbors m.rows m.columns) hinv
      ((hex1 b.1).mpr (Or.inr rfl)) hmax (fun n hn => hn)
    refine ⟨s2, h5, ⟨live2, ?_⟩, b.1, hbi, hbx, by rw [h7, hs1]⟩
    have : (fun c n => s2.tables.explored c = true ∧ n ∈ c.getNeighbors m.rows m.columns) =
        (fun c n => (s.tables.explored c = true ∧ n ∈ c.getNeighbors m.rows m.columns) ∨
          (c = b.1 ∧ n ∈ b.1.getNeighbors m.rows m.columns)) := by
      funext c n
      rw [h7, hex1, eq_iff_iff]
      constructor
      · rintro ⟨h1 | rfl, h2⟩
        · exact Or.inl ⟨h1, h2⟩
        · exact Or.inr ⟨rfl, h2⟩
      · rintro (⟨h1, h2⟩ | ⟨rfl, h2⟩)
        · exact ⟨Or.inl h1, h2⟩
        · exact ⟨Or.inr rfl, h2⟩
    rw [this]; exact h6

/-- The cells of the map that are not explored. -/
private def unexplored (m : GridMap) (s : State K) : Finset Cell :=
  (allCells m.rows m.columns).toFinset.filter (fun c => s.tables.explored c = false)

theorem loop_spec (hK : CostLaws K) {m : GridMap} {diag : K} (h01 : (0 : K) ≤ 1) (h1d : 1 ≤ diag) {st : Cell} :
    ∀ (n : Nat) {s : State K}, Good m diag st s → (unexplored m s).card ≤ n →
      ∃ s', loop m diag s = some s' ∧ Good m diag st s' ∧ s'.frontier.isEmpty = true := by
  intro n
  induction n with
  | zero =>
    intro s h hn
    cases hne : s.frontier.isEmpty with
    | true => exact ⟨s, by rw [loop, hne]; rfl, h, hne⟩
    | false =>
      obtain ⟨s', -, -, c, hc, hx, -⟩ := turn_spec hK h01 h1d h hne
      have : c ∈ unexplored m s := by
        simp only [unexplored, Finset.mem_filter, List.mem_toFinset, mem_allCells]
        exact ⟨hc, hx⟩
      have := Finset.card_pos.mpr ⟨c, this⟩
      omega
  | succ n ih =>
    intro s h hn
    cases hne : s.frontier.isEmpty with
    | true => exact ⟨s, by rw [loop, hne]; rfl, h, hne⟩
    | false =>
      obtain ⟨s', h1, h2, c, hc, hx, hs⟩ := turn_spec hK h01 h1d h hne
      have hlt : unexplored m s' ⊂ unexplored m s := by
        rw [Finset.ssubset_iff_of_subset]
        · refine ⟨c, ?_, ?_⟩
          · simp only [unexplored, Finset.mem_filter, List.mem_toFinset, mem_allCells]
            exact ⟨hc, hx⟩
          · simp [unexplored, hs, setCell]
        · intro d hd
          simp only [unexplored, Finset.mem_filter, List.mem_toFinset, hs, setCell] at hd ⊢
          refine ⟨hd.1, ?_⟩
          by_cases hdc : d = c
          · rw [if_pos hdc] at hd; cases hd.2
          · rw [if_neg hdc] at hd; exact hd.2
      have := Finset.card_lt_card hlt
      obtain ⟨s2, h3, h4, h5⟩ := ih h2 (by omega)
      refine ⟨s2, ?_, h4, h5⟩
      rw [loop, hne]
      simp only [Bool.false_eq_true, if_false, h1, Option.bind_eq_bind, Option.bind_some]
      exact h3

theorem good_start {m : GridMap} {diag : K} {st : Cell} (hst : Inside m st) :
    Good m diag st (start st : State K) := by
  have hp := (Frontier.repr_empty (cmp := compareCell (K := K)) (eqv := equalCell)).push_new
    compareCell_swo equalCell_equiv (x := (st, 0)) rfl
  have hco : ∀ c, (start st : State K).tables.cost c = if c = st then 0 else ⊤ := fun c => rfl
  have hex : ∀ c, (start st : State K).tables.explored c = false := fun c => rfl
  have hl : ∀ e : ValuedCell K, e ∈ [] ++ [((st, 0) : ValuedCell K)] ↔ e = (st, 0) := by simp
  refine ⟨[] ++ [(st, 0)], hp.1, ?_, fun e _ => hex _, ?_, ?_, ?_, ?_, ?_, ?_, ?_, ?_, ?_⟩
  · intro e he; rw [(hl e).mp he]; exact hst
  · intro e he; rw [(hl e).mp he, hco, if_pos rfl]
  · intro c hc; rw [hex] at hc; cases hc
  · intro c
    rw [hco]
    unfold Known
    simp only [hex, hl, Bool.false_eq_true, false_or, Prod.mk.injEq]
    by_cases h : c = st <;> simp [h]
  · intro c x hx
    rw [hco] at hx
    by_cases h : c = st
    · subst h
      rw [if_pos rfl] at hx
      have hx : ((0 : K) : WithTop K) = x := hx
      exact ⟨[c], .stop c, WithTop.coe_injective hx⟩
    · rw [if_neg h] at hx; exact absurd hx.symm WithTop.coe_ne_top
  · rw [hco, if_pos rfl]
  · intro c hc; rw [hex] at hc; cases hc
  · rintro n (h | ⟨v, hv⟩)
    · rw [hex] at h; cases h
    · exact Or.inl (congrArg Prod.fst ((hl _).mp hv))
  · rintro c n ⟨h, -⟩; exact h
  · rintro c n ⟨h, -⟩; rw [hex] at h; cases h

/-- What `Update` leaves: the invariant, with an empty frontier. -/
theorem update_good (hK : CostLaws K) {m : GridMap} {diag : K} (h01 : (0 : K) ≤ 1) (h1d : 1 ≤ diag) {goal : Cell}
    (hg : Inside m goal) :
    ∃ s : State K, update m diag goal = some s.tables ∧ Inv m diag goal s []
      (fun c n => s.tables.explored c = true ∧ n ∈ c.getNeighbors m.rows m.columns) := by
  obtain ⟨s, h1, ⟨live, h2⟩, h3⟩ := loop_spec hK h01 h1d _ (good_start (diag := diag) hg) le_rfl
  have hl : live = [] := by
    have hp := h2.repr.vec_perm
    rw [Frontier.isEmpty, List.isEmpty_iff] at h3
    rw [h3] at hp
    exact hp.nil_eq.symm
  subst hl
  refine ⟨s, ?_, h2⟩
  unfold update
  have : goal.isValid = true := by
    unfold Inside at hg
    simp only [Cell.isValid, Bool.and_eq_true, decide_eq_true_eq]
    omega
  rw [this, h1]; rfl

/-- The closed set of explored cells contains every cell that a walk reaches. -/
theorem explored_of_walk (hK : CostLaws K) {m : GridMap} {diag : K} {goal : Cell} {s : State K}
    (h : Inv m diag goal s [] (fun c n => s.tables.explored c = true ∧ n ∈ c.getNeighbors m.rows m.columns))
    {a c : Cell} {l : List Cell} (hw : Walk m a l c) :
    s.tables.explored a = true → s.tables.explored c = true ∧
      ∀ x : K, s.tables.cost a ≤ x → s.tables.cost c ≤ (accumulated (fun _ _ => diag) x l : K) := by
  induction hw with
  | stop a => intro ha; exact ⟨ha, fun x hx => hx⟩
  | @move x y z l h1 h2 ih =>
    intro ha
    have hx := h.expl_inside x ha
    have hn : y ∈ x.getNeighbors m.rows m.columns := by
      rw [Cell.mem_getNeighbors]
      have := h1.1.1
      unfold Inside at hx this
      refine ⟨?_, h1.2.1, by omega, by omega, by omega, by omega⟩
      simp only [Cell.isValid, Bool.and_eq_true, decide_eq_true_eq]; omega
    obtain ⟨h3, h4⟩ := h.closed x y ⟨ha, hn⟩ h1
    have hy : s.tables.explored y = true := by
      rcases h3 with h3 | ⟨v, hv⟩
      · exact h3
      · cases hv
    obtain ⟨h5, h6⟩ := ih hy
    refine ⟨h5, fun u hu => ?_⟩
    have h7 := h6 (diag + u) (h4.trans (hK.mono_top _ hu))
    cases h2 with
    | stop => exact h7
    | move _ _ => exact h7

end PathPlanning.ObstHeuristic
