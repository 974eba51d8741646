import Verif.Lemmas.NonHoloMemory

/-!
# C124: the memory of the tables of the non-holonomic heuristic

Every history of building and destroying heuristics is defined (no access outside a block or to a freed
block, no double free), every heuristic that still exists reads the values `Build` computed, and nothing is
left once they are all destroyed. A copy of a heuristic, which the class does not forbid, is destroyed
twice: this is undefined for every table.
-/

namespace PathPlanning
namespace HoloMem

/-- The heuristics a program has built, `none` for those it has destroyed. -/
def expected (ops : List Op) : List (Option NonHolo) :=
  ops.foldl (fun l op => match op with
    | .build h => l ++ [some h]
    | .release n => l.set n none) []

/-- The memory after any history. -/
structure Good (m : Objects) : Prop where
  fresh : m.heap.Fresh
  live : ∀ (n : Nat) (h : NonHolo) (p : Nat), m.tables[n]? = some (some (h, p)) →
    TableAt m.heap p h.numSpatialX h.numSpatialY h.numAngular (fun i j k => .val (h.entry i j k)) ∧
      row p h.numSpatialY h.numSpatialX ≤ m.heap.next
  apart : ∀ (n n' : Nat) (h h' : NonHolo) (p p' : Nat), n ≠ n' → m.tables[n]? = some (some (h, p)) → m.tables[n']? = some (some (h', p')) →
    row p h.numSpatialY h.numSpatialX ≤ p' ∨ row p' h'.numSpatialY h'.numSpatialX ≤ p
  owned : ∀ b, m.heap.mem b ≠ none → ∃ (n : Nat) (h : NonHolo) (p : Nat), m.tables[n]? = some (some (h, p)) ∧
    p ≤ b ∧ b < row p h.numSpatialY h.numSpatialX

theorem good_start : Good ⟨⟨0, fun _ => none⟩, []⟩ := by
  refine ⟨fun _ _ => rfl, ?_, ?_, ?_⟩
  · intro n h p e; simp at e
  · intro n n' h h' p p' _ e; simp at e
  · intro b e; exact absurd rfl e

theorem append_get {α : Type} {l : List α} {a b : α} {n : Nat} (h : (l ++ [a])[n]? = some b) :
    l[n]? = some b ∨ n = l.length ∧ b = a := by
  rcases lt_trichotomy n l.length with hn | hn | hn
  · rw [List.getElem?_append_left hn] at h; exact Or.inl h
  · subst hn
    rw [List.getElem?_append_right le_rfl] at h
    simp at h
    exact Or.inr ⟨rfl, h.symm⟩
  · rw [List.getElem?_append_right hn.le] at h
    obtain ⟨d, hd⟩ : ∃ d, n - l.length = d + 1 := ⟨n - l.length - 1, by omega⟩
    rw [hd] at h
    simp at h

theorem good_build {m : Objects} (g : Good m) (h : NonHolo) :
    ∃ heap p, build m h = some ⟨heap, m.tables ++ [some (h, p)]⟩ ∧ Good ⟨heap, m.tables ++ [some (h, p)]⟩ := by
  obtain ⟨h1, e1, n1, f1, o1, t1⟩ := construct_eq m.heap g.fresh h.numSpatialX h.numSpatialY h.numAngular
  obtain ⟨h2, e2, c2⟩ := fill_eq t1 (fun i j k => h.entry i j k)
  have hrow0 := row_le (p := m.heap.next) (ny := h.numSpatialY) (Nat.zero_le h.numSpatialX)
  rw [row_zero] at hrow0
  have old : ∀ b < m.heap.next, h2.mem b = m.heap.mem b := fun b hb =>
    (c2.outside b (Or.inl hb)).trans (o1 b hb)
  have hn : h2.next = row m.heap.next h.numSpatialY h.numSpatialX := c2.next.trans n1
  refine ⟨h2, m.heap.next, ?_, ?_, ?_, ?_, ?_⟩
  · unfold build
    rw [e1]
    exact congrArg (fun o => Option.bind o fun heap => some (⟨heap, m.tables ++ [some (h, m.heap.next)]⟩ : Objects)) e2
  · intro b hb
    have hb' : h1.next ≤ b := c2.next ▸ hb
    rw [c2.outside b (Or.inr (n1 ▸ hb'))]
    exact f1 b hb'
  · intro n h' p' e
    rcases append_get e with e | ⟨_, e⟩
    · obtain ⟨t, l⟩ := g.live n h' p' e
      refine ⟨t.frame fun b _ hb => old b (hb.trans_le l), ?_⟩
      show _ ≤ h2.next
      rw [hn]; omega
    · simp only [Option.some.injEq, Prod.mk.injEq] at e
      obtain ⟨rfl, rfl⟩ := e
      exact ⟨c2.table, hn.ge⟩
  · intro n n' h' h'' p' p'' hne e e'
    rcases append_get e with x | ⟨en, x⟩ <;> rcases append_get e' with x' | ⟨en', x'⟩
    · exact g.apart n n' h' h'' p' p'' hne x x'
    · simp only [Option.some.injEq, Prod.mk.injEq] at x'
      obtain ⟨rfl, rfl⟩ := x'
      exact Or.inl (g.live n h' p' x).2
    · simp only [Option.some.injEq, Prod.mk.injEq] at x
      obtain ⟨rfl, rfl⟩ := x
      exact Or.inr (g.live n' h'' p'' x').2
    · exact absurd (en.trans en'.symm) hne
  · intro b hb
    by_cases h1 : b < m.heap.next
    · have hb' : m.heap.mem b ≠ none := by rw [← old b h1]; exact hb
      obtain ⟨n, h', p', e, l⟩ := g.owned b hb'
      refine ⟨n, h', p', ?_, l⟩
      show (m.tables ++ _)[n]? = _
      rw [List.getElem?_append_left (List.getElem?_eq_some_iff.mp e).1]
      exact e
    · refine ⟨m.tables.length, h, m.heap.next, ?_, by omega, ?_⟩
      · show (m.tables ++ _)[_]? = _
        rw [List.getElem?_append_right le_rfl]; simp
      · by_contra h3
        apply hb
        show h2.mem b = none
        rw [c2.outside b (Or.inr (by omega))]
        exact f1 b (by rw [n1]; omega)

theorem set_get {α : Type} {l : List (Option α)} {n k : Nat} {a : α} (h : (l.set n none)[k]? = some (some a)) :
    k ≠ n ∧ l[k]? = some (some a) := by
  rw [List.getElem?_set] at h
  by_cases hk : n = k
  · rw [if_pos hk] at h
    split at h <;> simp at h
  · rw [if_neg hk] at h
    exact ⟨fun e => hk e.symm, h⟩

theorem good_release {m : Objects} (g : Good m) (n : Nat) :
    ∃ heap, release m n = some ⟨heap, m.tables.set n none⟩ ∧ Good ⟨heap, m.tables.set n none⟩ := by
  unfold release
  split
  · rename_i h p e
    obtain ⟨t, l⟩ := g.live n h p e
    obtain ⟨heap, e1, n1, m1⟩ := destroy_eq t
    have same : ∀ (k : Nat) (h' : NonHolo) (p' : Nat), k ≠ n → m.tables[k]? = some (some (h', p')) → ∀ b, p' ≤ b →
        b < row p' h'.numSpatialY h'.numSpatialX → heap.mem b = m.heap.mem b := by
      intro k h' p' hk e' b hb hb'
      rw [m1, if_neg]
      have := g.apart k n h' h p' p hk e' e
      omega
    refine ⟨heap, ?_, ?_, ?_, ?_, ?_⟩
    · exact congrArg (fun o => Option.bind o fun heap => some (⟨heap, m.tables.set n none⟩ : Objects)) e1
    · intro b hb
      show heap.mem b = none
      rw [m1]
      have : m.heap.mem b = none := g.fresh b (n1 ▸ hb)
      rw [this, ite_self]
    · intro k h' p' e'
      obtain ⟨hk, e'⟩ := set_get e'
      obtain ⟨t', l'⟩ := g.live k h' p' e'
      exact ⟨t'.frame (same k h' p' hk e'), n1 ▸ l'⟩
    · intro k k' h' h'' p' p'' hne e' e''
      exact g.apart k k' h' h'' p' p'' hne (set_get e').2 (set_get e'').2
    · intro b hb
      by_cases hin : p ≤ b ∧ b < row p h.numSpatialY h.numSpatialX
      · exact absurd (by rw [m1, if_pos hin]) hb
      · have hb' : m.heap.mem b ≠ none := by
          have : heap.mem b = m.heap.mem b := by rw [m1, if_neg hin]
          rw [← this]; exact hb
        obtain ⟨k, h', p', e', l'⟩ := g.owned b hb'
        refine ⟨k, h', p', ?_, l'⟩
        show (m.tables.set n none)[k]? = _
        rw [List.getElem?_set, if_neg]
        · exact e'
        · rintro rfl
          rw [e] at e'
          simp only [Option.some.injEq, Prod.mk.injEq] at e'
          obtain ⟨rfl, rfl⟩ := e'
          exact hin l'
  · rename_i hno
    have : m.tables.set n none = m.tables := by
      apply List.ext_getElem?
      intro k
      rw [List.getElem?_set]
      by_cases hk : n = k
      · subst hk
        rw [if_pos rfl]
        split
        · rename_i hl
          cases hc : m.tables[n]? with
          | none => rw [List.getElem?_eq_none_iff] at hc; omega
          | some t =>
            cases t with
            | none => rfl
            | some t => exact absurd hc (hno t.1 t.2)
        · rename_i hl
          exact (List.getElem?_eq_none_iff.mpr (by omega)).symm
      · rw [if_neg hk]
    rw [this]
    exact ⟨m.heap, rfl, g⟩

/-- Every history goes through, to a good memory with the expected objects. -/
theorem run_good (ops : List Op) : ∃ m, run ops = some m ∧ Good m ∧
    m.tables.map (Option.map Prod.fst) = expected ops := by
  induction ops using List.reverseRecOn with
  | nil => exact ⟨_, rfl, good_start, rfl⟩
  | append_singleton ops op ih =>
    obtain ⟨m, e, g, x⟩ := ih
    unfold run at e ⊢
    rw [List.foldlM_append, e]
    simp only [expected, List.foldl_append, List.foldl_cons, List.foldl_nil]
    rw [show ops.foldl _ [] = expected ops from rfl, ← x]
    cases op with
    | build h =>
      obtain ⟨heap, p, e1, g1⟩ := good_build g h
      refine ⟨_, ?_, g1, by simp⟩
      simp only [List.foldlM_cons, List.foldlM_nil, step]
      show Option.bind (build m h) _ = _
      rw [e1]; rfl
    | release n =>
      obtain ⟨heap, e1, g1⟩ := good_release g n
      refine ⟨_, ?_, g1, by simp [List.map_set]⟩
      simp only [List.foldlM_cons, List.foldlM_nil, step]
      show Option.bind (release m n) _ = _
      rw [e1]; rfl

/-- **C124**: building and destroying heuristics, in any order and any number of times, is defined, and the
heuristics that exist afterwards are those built and not destroyed. -/
theorem C124_defined_partial (ops : List Op) : ∃ m, run ops = some m ∧
    m.tables.map (Option.map Prod.fst) = expected ops :=
  (run_good ops).imp fun _ h => ⟨h.1, h.2.2⟩

/-- **C124**: after any history, each place of the table of each heuristic that still exists holds the cost
`Build` computed for it; the table has no other place. -/
theorem C124_value_partial (ops : List Op) (m : Objects) (hm : run ops = some m) (n : Nat) (h : NonHolo) (p : Nat)
    (hn : m.tables[n]? = some (some (h, p))) (i j k : Nat) : lookup m.heap p i j k = h.read i j k := by
  obtain ⟨m', e, g, _⟩ := run_good ops
  rw [hm] at e
  obtain rfl : m = m' := Option.some.inj e
  rw [lookup_eq (g.live n h p hn).1]
  unfold NonHolo.read
  by_cases hin : i < h.numSpatialX ∧ j < h.numSpatialY ∧ k < h.numAngular
  · rw [if_pos hin, if_pos (by omega)]
  · rw [if_neg hin, if_neg (by omega)]

/-- **C124**: once every heuristic is destroyed, no memory is left. -/
theorem C124_no_leak_partial (ops : List Op) (m : Objects) (hm : run ops = some m)
    (hall : ∀ t ∈ expected ops, t = none) (b : Nat) : m.heap.mem b = none := by
  obtain ⟨m', e, g, x⟩ := run_good ops
  rw [hm] at e
  obtain rfl : m = m' := Option.some.inj e
  by_contra hb
  obtain ⟨n, h, p, hn, _⟩ := g.owned b hb
  have := hall (some h) (by
    rw [← x]
    exact List.mem_map.mpr ⟨some (h, p), List.mem_of_getElem? hn, rfl⟩)
  cases this

/-- **C124 is violated by copies**: after any history, copying a heuristic that exists and destroying both it
and the copy is undefined, whichever goes first. -/
theorem C124_copy_violated (ops : List Op) (m : Objects) (hm : run ops = some m) (n : Nat) (h : NonHolo)
    (hn : (expected ops)[n]? = some (some h)) : ∃ m', copy m n = some m' ∧
      ((release m' n).bind fun m'' => release m'' m.tables.length) = none ∧
      ((release m' m.tables.length).bind fun m'' => release m'' n) = none := by
  obtain ⟨m1, e, g, x⟩ := run_good ops
  rw [hm] at e
  obtain rfl : m = m1 := Option.some.inj e
  rw [← x, List.getElem?_map] at hn
  obtain ⟨p, hp⟩ : ∃ p, m.tables[n]? = some (some (h, p)) := by
    cases hc : m.tables[n]? with
    | none => rw [hc] at hn; cases hn
    | some t =>
      cases t with
      | none => rw [hc] at hn; cases hn
      | some t =>
        rw [hc] at hn
        simp only [Option.map_some, Option.some.injEq] at hn
        subst hn
        exact ⟨t.2, rfl⟩
  have hlt := (List.getElem?_eq_some_iff.mp hp).1
  obtain ⟨t, l⟩ := g.live n h p hp
  obtain ⟨heap, e1, n1, m1⟩ := destroy_eq t
  have hrow0 := row_le (p := p) (ny := h.numSpatialY) (Nat.zero_le h.numSpatialX)
  rw [row_zero] at hrow0
  have hdead : heap.mem p = none := by rw [m1, if_pos (by omega)]
  have key : destroy heap p h.numSpatialX h.numSpatialY = none := by
    have hfree : ∀ hp' : Heap (Option ℝ), hp'.mem p = none → free hp' p = none := by
      intro hp' hh; unfold free; rw [hh]
    unfold destroy
    cases hx : h.numSpatialX with
    | zero => exact hfree heap hdead
    | succ nx =>
      have hl : loadPtr heap p 0 = none := by
        unfold loadPtr load; rw [hdead]; rfl
      have hfst : ∀ (hf : Heap (Option ℝ)) (ny : Nat), hf.mem p = none → ((List.range ny).foldlM (fun hf j => do
          let q ← loadPtr hf p 0
          let r ← loadPtr hf q j
          free hf r) hf).bind (fun hf => (loadPtr hf p 0).bind fun q => free hf q) = none := by
        intro hf ny hd
        have hl : loadPtr hf p 0 = none := by
          unfold loadPtr load; rw [hd]; rfl
        cases ny with
        | zero =>
          simp only [List.range_zero, List.foldlM_nil]
          show (loadPtr hf p 0).bind _ = none
          rw [hl]; rfl
        | succ ny =>
          rw [List.range_succ_eq_map, List.foldlM_cons, hl]
          rfl
      rw [List.range_succ_eq_map, List.foldlM_cons]
      have := hfst heap h.numSpatialY hdead
      exact congrArg (fun o => Option.bind (Option.bind o _) _) this
  have hget : (m.tables ++ [some (h, p)])[n]? = some (some (h, p)) := by
    rw [List.getElem?_append_left hlt]; exact hp
  have hlast : (m.tables ++ [some (h, p)])[m.tables.length]? = some (some (h, p)) := by
    rw [List.getElem?_append_right le_rfl]; simp
  have hrel : ∀ a b : Nat, a ≠ b → (m.tables ++ [some (h, p)])[a]? = some (some (h, p)) →
      (m.tables ++ [some (h, p)])[b]? = some (some (h, p)) →
      ((release ⟨m.heap, m.tables ++ [some (h, p)]⟩ a).bind fun m'' => release m'' b) = none := by
    intro a b hab ha hb
    have h1 : release ⟨m.heap, m.tables ++ [some (h, p)]⟩ a =
        some ⟨heap, (m.tables ++ [some (h, p)]).set a none⟩ := by
      unfold release
      simp only [ha]
      exact congrArg (fun o => Option.bind o fun heap =>
        some (⟨heap, (m.tables ++ [some (h, p)]).set a none⟩ : Objects)) e1
    rw [h1]
    show release _ b = none
    unfold release
    have h2 : ((m.tables ++ [some (h, p)]).set a none)[b]? = some (some (h, p)) := by
      rw [List.getElem?_set, if_neg hab]; exact hb
    simp only [h2]
    exact congrArg (fun o => Option.bind o fun heap' =>
        some (⟨heap', ((m.tables ++ [some (h, p)]).set a none).set b none⟩ : Objects)) key
  refine ⟨⟨m.heap, m.tables ++ [some (h, p)]⟩, ?_, hrel n _ (by omega) hget hlast, hrel _ n (by omega) hlast hget⟩
  unfold copy
  simp only [hp]

/-! ## Examples -/

/-- Two heuristics, the first destroyed. -/
noncomputable def exampleOps (a b : NonHolo) : List Op := [.build a, .build b, .release 0, .release 0]

example (a b : NonHolo) : expected (exampleOps a b) = [none, some b] := rfl

/-- The hypotheses of `C124_value_partial` hold: the second heuristic is there, with its values. -/
example (a b : NonHolo) : ∃ m p, run (exampleOps a b) = some m ∧ m.tables[1]? = some (some (b, p)) ∧
    lookup m.heap p 0 0 0 = b.read 0 0 0 := by
  obtain ⟨m, e, x⟩ := C124_defined_partial (exampleOps a b)
  have h1 : (m.tables.map (Option.map Prod.fst))[1]? = some (some b) := by rw [x]; rfl
  rw [List.getElem?_map] at h1
  cases hc : m.tables[1]? with
  | none => rw [hc] at h1; cases h1
  | some t =>
    cases t with
    | none => rw [hc] at h1; cases h1
    | some t =>
      rw [hc] at h1
      simp only [Option.map_some, Option.some.injEq] at h1
      subst h1
      exact ⟨m, t.2, e, hc, C124_value_partial _ m e 1 t.1 t.2 hc 0 0 0⟩

/-- The hypotheses of `C124_no_leak_partial` hold. -/
example (a b : NonHolo) : ∃ m, run (exampleOps a b ++ [.release 1]) = some m ∧ ∀ x, m.heap.mem x = none := by
  obtain ⟨m, e, _⟩ := C124_defined_partial (exampleOps a b ++ [.release 1])
  exact ⟨m, e, C124_no_leak_partial _ m e (by
    intro t ht
    simp [expected, exampleOps] at ht
    exact ht)⟩

/-- The hypotheses of `C124_copy_violated` hold. -/
example (a b : NonHolo) : ∃ m m', run (exampleOps a b) = some m ∧ copy m 1 = some m' ∧
    ((release m' 1).bind fun m'' => release m'' 2) = none := by
  obtain ⟨m, e, x⟩ := C124_defined_partial (exampleOps a b)
  obtain ⟨m', c, r, _⟩ := C124_copy_violated _ m e 1 b rfl
  have hl : m.tables.length = 2 := by
    have := congrArg List.length x
    rw [List.length_map] at this
    exact this
  rw [hl] at r
  exact ⟨m, m', e, c, r⟩

end HoloMem
end PathPlanning
