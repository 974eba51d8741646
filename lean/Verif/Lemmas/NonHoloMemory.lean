import Verif.Model.NonHoloMemory

/-!
# The layout of a table in memory
-/

namespace PathPlanning
namespace HoloMem

variable {α : Type}

theorem foldlM_range {σ : Type} (step : σ → Nat → Option σ) (P : Nat → σ → Prop) (n : Nat) (s : σ) (h0 : P 0 s)
    (hs : ∀ i < n, ∀ s, P i s → ∃ s', step s i = some s' ∧ P (i + 1) s') :
    ∃ s', (List.range n).foldlM step s = some s' ∧ P n s' := by
  induction n with
  | zero => exact ⟨s, rfl, h0⟩
  | succ n ih =>
    obtain ⟨s1, e1, h1⟩ := ih (fun i hi => hs i (by omega))
    obtain ⟨s2, e2, h2⟩ := hs n (by omega) s1 h1
    refine ⟨s2, ?_, h2⟩
    rw [List.range_succ, List.foldlM_append, e1]
    simp [e2]

theorem map_range_set {β : Type} (n k : Nat) (g : Nat → β) (w : β) :
    ((List.range n).map g).set k w = (List.range n).map (fun i => if i = k then w else g i) := by
  apply List.ext_getElem?
  intro i
  rw [List.getElem?_set]
  simp only [List.length_map, List.length_range, List.getElem?_map]
  by_cases hik : k = i
  · subst hik
    by_cases hk : k < n <;> simp [hk]
  · rw [if_neg hik]
    by_cases hi : i < n
    · simp [hi, Ne.symm hik]
    · simp [hi]

/-- The address of the row `i` of a table at `p`. -/
def row (p ny i : Nat) : Nat := p + 1 + i * (ny + 1)

theorem row_succ (p ny i : Nat) : row p ny (i + 1) = row p ny i + 1 + ny := by
  unfold row; ring

theorem row_zero (p ny : Nat) : row p ny 0 = p + 1 := by unfold row; ring

theorem row_lt {p ny i i' : Nat} (h : i < i') : row p ny i + 1 + ny ≤ row p ny i' := by
  unfold row
  have := Nat.mul_le_mul_right (ny + 1) (show i + 1 ≤ i' by omega)
  have e : (i + 1) * (ny + 1) = i * (ny + 1) + (ny + 1) := by ring
  omega

theorem row_le {p ny i i' : Nat} (h : i ≤ i') : row p ny i ≤ row p ny i' := by
  rcases h.lt_or_eq with h | rfl
  · have := row_lt (p := p) (ny := ny) h; omega
  · rfl

/-- A table at `p` whose numbers are the words `g i j k`. -/
structure TableAt (h : Heap α) (p nx ny na : Nat) (g : Nat → Nat → Nat → Word α) : Prop where
  top : h.mem p = some ((List.range nx).map fun i => .ptr (row p ny i))
  rows : ∀ i < nx, h.mem (row p ny i) = some ((List.range ny).map fun j => .ptr (row p ny i + 1 + j))
  cells : ∀ i < nx, ∀ j < ny, h.mem (row p ny i + 1 + j) = some ((List.range na).map fun k => g i j k)

/-- Addresses from `next` on are free. -/
def Heap.Fresh (h : Heap α) : Prop := ∀ b, h.next ≤ b → h.mem b = none

/-- The heap agrees outside `[p, e)`. -/
def SameOutside (h h' : Heap α) (p e : Nat) : Prop := ∀ b, b < p ∨ e ≤ b → h'.mem b = h.mem b

theorem loadPtr_eq {h : Heap α} {p n i : Nat} {g : Nat → Word α} {q : Nat}
    (hm : h.mem p = some ((List.range n).map g)) (hi : i < n) (hg : g i = .ptr q) : loadPtr h p i = some q := by
  unfold loadPtr load
  simp [hm, hi, hg]

theorem store_eq {h : Heap α} {p n i : Nat} {g : Nat → Word α} (w : Word α)
    (hm : h.mem p = some ((List.range n).map g)) (hi : i < n) :
    store h p i w = some ⟨h.next, fun b => if b = p then some ((List.range n).map
      fun i' => if i' = i then w else g i') else h.mem b⟩ := by
  unfold store
  rw [hm]
  simp only [List.length_map, List.length_range, if_pos hi, map_range_set]

theorem free_eq {h : Heap α} {p : Nat} {l : List (Word α)} (hm : h.mem p = some l) :
    free h p = some ⟨h.next, fun b => if b = p then none else h.mem b⟩ := by
  unfold free
  rw [hm]

theorem replicate_range (n : Nat) : List.replicate n (Word.undef : Word α) = (List.range n).map fun _ => .undef := by
  simp

/-! ## The constructor -/

/-- After `I` rows. -/
structure Constructing (h0 : Heap α) (nx ny na I : Nat) (h : Heap α) : Prop where
  next : h.next = row h0.next ny I
  old : ∀ b < h0.next, h.mem b = h0.mem b
  fresh : h.Fresh
  top : h.mem h0.next = some ((List.range nx).map fun i => if i < I then .ptr (row h0.next ny i) else .undef)
  rows : ∀ i < I, h.mem (row h0.next ny i) = some ((List.range ny).map fun j => .ptr (row h0.next ny i + 1 + j))
  cells : ∀ i < I, ∀ j < ny, h.mem (row h0.next ny i + 1 + j) = some ((List.range na).map fun _ => .undef)

/-- After `J` cells of the row `I`. -/
structure ConstructingRow (h0 : Heap α) (nx ny na I J : Nat) (h : Heap α) : Prop where
  next : h.next = row h0.next ny I + 1 + J
  old : ∀ b < h0.next, h.mem b = h0.mem b
  fresh : h.Fresh
  top : h.mem h0.next = some ((List.range nx).map fun i => if i < I + 1 then .ptr (row h0.next ny i) else .undef)
  rows : ∀ i < I, h.mem (row h0.next ny i) = some ((List.range ny).map fun j => .ptr (row h0.next ny i + 1 + j))
  cells : ∀ i < I, ∀ j < ny, h.mem (row h0.next ny i + 1 + j) = some ((List.range na).map fun _ => .undef)
  current : h.mem (row h0.next ny I) =
    some ((List.range ny).map fun j => if j < J then .ptr (row h0.next ny I + 1 + j) else .undef)
  done : ∀ j < J, h.mem (row h0.next ny I + 1 + j) = some ((List.range na).map fun _ => .undef)

theorem construct_eq (h0 : Heap α) (hf : h0.Fresh) (nx ny na : Nat) :
    ∃ h, construct h0 nx ny na = some (h, h0.next) ∧ h.next = row h0.next ny nx ∧ h.Fresh ∧
      (∀ b < h0.next, h.mem b = h0.mem b) ∧ TableAt h h0.next nx ny na (fun _ _ _ => .undef) := by
  obtain ⟨p, hp⟩ : ∃ p, p = h0.next := ⟨_, rfl⟩
  have key := foldlM_range (fun (h : Heap α) i => do
    let (h, q) := alloc h ny
    let h ← store h p i (.ptr q)
    (List.range ny).foldlM (fun h j => do
      let (h, r) := alloc h na
      let q ← loadPtr h p i
      store h q j (.ptr r)) h) (Constructing h0 nx ny na) nx (alloc h0 nx).1 ?_ ?_
  · obtain ⟨h, e, c⟩ := key
    refine ⟨h, ?_, c.next, c.fresh, c.old, ⟨?_, c.rows, c.cells⟩⟩
    · subst hp
      exact congrArg (fun o => o.bind fun h => some (h, h0.next)) e
    · rw [c.top]
      congr 1
      refine List.map_congr_left fun i hi => ?_
      rw [if_pos (List.mem_range.mp hi)]
  · refine ⟨by simp [alloc, row_zero], ?_, ?_, ?_, by simp, by simp⟩
    · intro b hb
      simp only [alloc]
      rw [if_neg (by omega)]
    · intro b hb
      simp only [alloc] at hb ⊢
      rw [if_neg (by omega)]
      exact hf b (by omega)
    · simp only [alloc, if_true, Nat.not_lt_zero, if_false, replicate_range]
  · intro I hI h c
    have hlt : p < row p ny I := by have := row_le (p := p) (ny := ny) (Nat.zero_le I); rw [row_zero] at this; omega
    -- the row
    have hn := c.next
    rw [← hp] at hn
    obtain ⟨h1, e1⟩ : ∃ h1, h1 = (alloc h ny).1 := ⟨_, rfl⟩
    have m1 : ∀ b, h1.mem b = if b = row p ny I then some ((List.range ny).map fun _ => .undef) else h.mem b := by
      intro b
      rw [e1]
      simp only [alloc, hn, replicate_range]
    have t1 : h1.mem p = some ((List.range nx).map fun i => if i < I then .ptr (row p ny i) else .undef) := by
      rw [m1, if_neg (by omega), hp]
      exact c.top
    obtain ⟨h2, e2⟩ : ∃ h2, store h1 p I (.ptr (row p ny I)) = some h2 := ⟨_, store_eq _ t1 hI⟩
    have e2' := e2
    rw [store_eq _ t1 hI] at e2'
    have m2 : ∀ b, h2.mem b = if b = p then some ((List.range nx).map
        fun i => if i < I + 1 then .ptr (row p ny i) else .undef) else
        if b = row p ny I then some ((List.range ny).map fun _ => .undef) else h.mem b := by
      intro b
      injection e2' with e2'
      rw [← e2']
      simp only
      by_cases hb : b = p
      · rw [if_pos hb, if_pos hb]
        congr 1
        refine List.map_congr_left fun i hi => ?_
        by_cases h1 : i = I
        · rw [if_pos h1, if_pos (by omega), h1]
        · rw [if_neg h1]
          by_cases h2 : i < I
          · rw [if_pos h2, if_pos (by omega)]
          · rw [if_neg h2, if_neg (by omega)]
      · rw [if_neg hb, if_neg hb, m1]
    have n2 : h2.next = row p ny I + 1 := by
      injection e2' with e2'
      rw [← e2', e1]
      simp only [alloc, hn]
    -- the cells of the row
    have inner := foldlM_range (fun (h : Heap α) j => do
      let (h, r) := alloc h na
      let q ← loadPtr h p I
      store h q j (.ptr r)) (ConstructingRow h0 nx ny na I) ny h2 ?_ ?_
    · obtain ⟨h3, e3, d⟩ := inner
      refine ⟨h3, ?_, ?_⟩
      · show (store (alloc h ny).1 p I (.ptr (alloc h ny).2)).bind _ = some h3
        rw [show (alloc h ny).2 = row p ny I from hn, ← e1, e2]
        exact e3
      · refine ⟨?_, d.old, d.fresh, d.top, ?_, ?_⟩
        · rw [d.next, row_succ]
        · intro i hi
          rcases Nat.lt_succ_iff_lt_or_eq.mp hi with hi | rfl
          · exact d.rows i hi
          · rw [d.current]
            congr 1
            refine List.map_congr_left fun j hj => ?_
            rw [if_pos (List.mem_range.mp hj)]
        · intro i hi j hj
          rcases Nat.lt_succ_iff_lt_or_eq.mp hi with hi | rfl
          · exact d.cells i hi j hj
          · exact d.done j hj
    · refine ⟨by rw [n2, hp], ?_, ?_, ?_, ?_, ?_, ?_, by simp⟩
      · intro b hb
        rw [m2, if_neg (by omega), if_neg (by omega)]
        exact c.old b hb
      · intro b hb
        rw [n2] at hb
        rw [m2, if_neg (by omega), if_neg (by omega)]
        exact c.fresh b (by omega)
      · rw [← hp, m2, if_pos rfl]
      · intro i hi
        have := row_lt (p := p) (ny := ny) hi
        have h' := row_le (p := p) (ny := ny) (Nat.zero_le i)
        rw [row_zero] at h'
        have := c.rows i hi
        rw [← hp] at this ⊢
        rw [m2, if_neg (by omega), if_neg (by omega)]
        exact this
      · intro i hi j hj
        have := row_lt (p := p) (ny := ny) hi
        have h' := row_le (p := p) (ny := ny) (Nat.zero_le i)
        rw [row_zero] at h'
        have := c.cells i hi j hj
        rw [← hp] at this ⊢
        rw [m2, if_neg (by omega), if_neg (by omega)]
        exact this
      · rw [← hp, m2, if_neg (by omega), if_pos rfl]
        simp
    · intro J hJ h d
      have hn := d.next
      have ht := d.top
      have hcur := d.current
      rw [← hp] at hn ht hcur
      obtain ⟨h1, e1⟩ : ∃ h1, h1 = (alloc h na).1 := ⟨_, rfl⟩
      have m1 : ∀ b, h1.mem b = if b = row p ny I + 1 + J then some ((List.range na).map fun _ => .undef)
          else h.mem b := by
        intro b
        rw [e1]
        simp only [alloc, hn, replicate_range]
      have t1 : loadPtr h1 p I = some (row p ny I) := by
        refine loadPtr_eq (n := nx) (g := fun i => if i < I + 1 then .ptr (row p ny i) else .undef) ?_ hI ?_
        · rw [m1, if_neg (by omega)]; exact ht
        · simp
      have c1 : h1.mem (row p ny I) =
          some ((List.range ny).map fun j => if j < J then .ptr (row p ny I + 1 + j) else .undef) := by
        rw [m1, if_neg (by omega)]; exact hcur
      refine ⟨⟨h1.next, fun b => if b = row p ny I then some ((List.range ny).map
        fun j => if j < J + 1 then .ptr (row p ny I + 1 + j) else .undef) else h1.mem b⟩, ?_, ?_⟩
      · show (loadPtr (alloc h na).1 p I).bind (fun q => store (alloc h na).1 q J (.ptr (alloc h na).2)) = _
        rw [← e1, t1]
        show store h1 (row p ny I) J (.ptr (alloc h na).2) = _
        rw [store_eq _ c1 hJ, show (alloc h na).2 = row p ny I + 1 + J from hn]
        congr 2
        funext b
        by_cases hb : b = row p ny I
        · rw [if_pos hb, if_pos hb]
          congr 1
          refine List.map_congr_left fun j hj => ?_
          by_cases h1 : j = J
          · rw [if_pos h1, if_pos (by omega), h1]
          · rw [if_neg h1]
            by_cases h2 : j < J
            · rw [if_pos h2, if_pos (by omega)]
            · rw [if_neg h2, if_neg (by omega)]
        · rw [if_neg hb, if_neg hb]
      · refine ⟨?_, ?_, ?_, ?_, ?_, ?_, ?_, ?_⟩
        · simp only [e1, alloc, hn, ← hp]; ring
        · intro b hb
          have := d.old b hb
          simp only
          rw [if_neg (by omega), m1, if_neg (by omega)]
          exact this
        · intro b hb
          simp only [e1, alloc, hn] at hb
          simp only
          rw [if_neg (by omega), m1, if_neg (by omega)]
          exact d.fresh b (by omega)
        · rw [← hp]
          simp only
          rw [if_neg (by omega), m1, if_neg (by omega)]
          exact ht
        · intro i hi
          have := row_lt (p := p) (ny := ny) hi
          have h2 := d.rows i hi
          rw [← hp] at h2 ⊢
          simp only
          rw [if_neg (by omega), m1, if_neg (by omega)]
          exact h2
        · intro i hi j hj
          have := row_lt (p := p) (ny := ny) hi
          have h2 := d.cells i hi j hj
          rw [← hp] at h2 ⊢
          simp only
          rw [if_neg (by omega), m1, if_neg (by omega)]
          exact h2
        · rw [← hp]
          simp only [if_true]
        · intro j hj
          rw [← hp]
          simp only
          rw [if_neg (by omega), m1]
          by_cases hjJ : j = J
          · rw [if_pos (by omega)]
          · rw [if_neg (by omega)]
            have := d.done j (by omega)
            rw [← hp] at this
            exact this

/-! ## Filling the table -/

theorem TableAt.congr {h : Heap α} {p nx ny na : Nat} {g g' : Nat → Nat → Nat → Word α}
    (t : TableAt h p nx ny na g) (hg : ∀ i < nx, ∀ j < ny, ∀ k < na, g i j k = g' i j k) :
    TableAt h p nx ny na g' := by
  refine ⟨t.top, t.rows, fun i hi j hj => ?_⟩
  rw [t.cells i hi j hj]
  congr 1
  exact List.map_congr_left fun k hk => hg i hi j hj k (List.mem_range.mp hk)

/-- A change elsewhere does not matter. -/
theorem TableAt.frame {h h' : Heap α} {p nx ny na : Nat} {g : Nat → Nat → Nat → Word α}
    (t : TableAt h p nx ny na g) (hs : ∀ b, p ≤ b → b < row p ny nx → h'.mem b = h.mem b) :
    TableAt h' p nx ny na g := by
  have h0 : p < row p ny 0 := by rw [row_zero]; omega
  refine ⟨?_, fun i hi => ?_, fun i hi j hj => ?_⟩
  · rw [hs p le_rfl (h0.trans_le (row_le (Nat.zero_le _)))]; exact t.top
  · have h1 := row_lt (p := p) (ny := ny) hi
    have h2 := row_le (p := p) (ny := ny) (Nat.zero_le i)
    rw [hs _ (by omega) (by omega)]; exact t.rows i hi
  · have h1 := row_lt (p := p) (ny := ny) hi
    have h2 := row_le (p := p) (ny := ny) (Nat.zero_le i)
    rw [hs _ (by omega) (by omega)]; exact t.cells i hi j hj

/-- One assignment. -/
theorem TableAt.assign {h : Heap α} {p nx ny na : Nat} {g : Nat → Nat → Nat → Word α}
    (t : TableAt h p nx ny na g) {i j k : Nat} (hi : i < nx) (hj : j < ny) (hk : k < na) (w : Word α) :
    ∃ h', (do
        let q ← loadPtr h p i
        let r ← loadPtr h q j
        store h r k w) = some h' ∧ h'.next = h.next ∧ SameOutside h h' p (row p ny nx) ∧
      TableAt h' p nx ny na (fun i' j' k' => if i' = i ∧ j' = j ∧ k' = k then w else g i' j' k') := by
  have h0 := row_le (p := p) (ny := ny) (Nat.zero_le i)
  rw [row_zero] at h0
  have hlt := row_lt (p := p) (ny := ny) hi
  refine ⟨⟨h.next, fun b => if b = row p ny i + 1 + j then some ((List.range na).map
    fun k' => if k' = k then w else g i j k') else h.mem b⟩, ?_, ?_, ?_, ?_⟩
  · show (loadPtr h p i).bind (fun q => (loadPtr h q j).bind fun r => store h r k w) = _
    rw [loadPtr_eq t.top hi rfl]
    show (loadPtr h (row p ny i) j).bind (fun r => store h r k w) = _
    rw [loadPtr_eq (t.rows i hi) hj rfl]
    show store h (row p ny i + 1 + j) k w = _
    exact store_eq w (t.cells i hi j hj) hk
  · rfl
  · intro b hb
    simp only
    rw [if_neg (by omega)]
  · refine ⟨?_, fun i' hi' => ?_, fun i' hi' j' hj' => ?_⟩
    · simp only
      rw [if_neg (by omega)]; exact t.top
    · simp only
      rw [if_neg ?_]
      · exact t.rows i' hi'
      · rcases lt_trichotomy i' i with h1 | h1 | h1
        · have := row_lt (p := p) (ny := ny) h1; omega
        · subst h1; omega
        · have := row_lt (p := p) (ny := ny) h1; omega
    · simp only
      by_cases he : i' = i ∧ j' = j
      · obtain ⟨rfl, rfl⟩ := he
        rw [if_pos rfl]
        congr 1
        refine List.map_congr_left fun k' _ => ?_
        simp
      · rw [if_neg ?_]
        · rw [t.cells i' hi' j' hj']
          congr 1
          refine List.map_congr_left fun k' _ => ?_
          rw [if_neg (by tauto)]
        · rcases lt_trichotomy i' i with h1 | h1 | h1
          · have := row_lt (p := p) (ny := ny) h1; omega
          · subst h1
            intro hb
            exact he ⟨rfl, by omega⟩
          · have := row_lt (p := p) (ny := ny) h1; omega

theorem SameOutside.trans {h h' h'' : Heap α} {p e : Nat} (a : SameOutside h h' p e) (b : SameOutside h' h'' p e) :
    SameOutside h h'' p e := fun x hx => (b x hx).trans (a x hx)

/-- A table filled up to some place, the rest of the memory as in `h0`. -/
structure Filling (h0 : Heap α) (p nx ny na : Nat) (g : Nat → Nat → Nat → Word α) (h : Heap α) : Prop where
  next : h.next = h0.next
  outside : SameOutside h0 h p (row p ny nx)
  table : TableAt h p nx ny na g

theorem fill_eq {h0 : Heap α} {p nx ny na : Nat} {g : Nat → Nat → Nat → Word α} (t : TableAt h0 p nx ny na g)
    (f : Nat → Nat → Nat → α) :
    ∃ h, fill h0 p nx ny na f = some h ∧ Filling h0 p nx ny na (fun i j k => .val (f i j k)) h := by
  have key := foldlM_range (fun (h : Heap α) i => (List.range ny).foldlM (fun h j =>
      (List.range na).foldlM (fun h k => do
        let q ← loadPtr h p i
        let r ← loadPtr h q j
        store h r k (.val (f i j k))) h) h)
    (fun I => Filling h0 p nx ny na (fun i j k => if i < I then .val (f i j k) else g i j k)) nx h0
    ⟨rfl, fun _ _ => rfl, by simpa using t⟩ ?_
  · obtain ⟨h, e, c⟩ := key
    refine ⟨h, e, c.next, c.outside, c.table.congr fun i hi j hj k hk => ?_⟩
    rw [if_pos hi]
  intro I hI h c
  have key := foldlM_range (fun (h : Heap α) j => (List.range na).foldlM (fun h k => do
        let q ← loadPtr h p I
        let r ← loadPtr h q j
        store h r k (.val (f I j k))) h)
    (fun J => Filling h0 p nx ny na (fun i j k => if i < I ∨ i = I ∧ j < J then .val (f i j k) else g i j k)) ny h
    ⟨c.next, c.outside, by simpa using c.table⟩ ?_
  · obtain ⟨h', e', c'⟩ := key
    refine ⟨h', e', c'.next, c'.outside, c'.table.congr fun i hi j hj k hk => ?_⟩
    by_cases h1 : i < I + 1
    · rw [if_pos h1, if_pos (by omega)]
    · rw [if_neg h1, if_neg (by omega)]
  intro J hJ h c
  have key := foldlM_range (fun (h : Heap α) k => do
        let q ← loadPtr h p I
        let r ← loadPtr h q J
        store h r k (.val (f I J k)))
    (fun K => Filling h0 p nx ny na (fun i j k => if i < I ∨ i = I ∧ (j < J ∨ j = J ∧ k < K) then .val (f i j k)
      else g i j k)) na h
    ⟨c.next, c.outside, by simpa using c.table⟩ ?_
  · obtain ⟨h', e', c'⟩ := key
    refine ⟨h', e', c'.next, c'.outside, c'.table.congr fun i hi j hj k hk => ?_⟩
    by_cases h1 : i < I ∨ i = I ∧ j < J + 1
    · rw [if_pos h1, if_pos (by omega)]
    · rw [if_neg h1, if_neg (by omega)]
  intro K hK h c
  obtain ⟨h', e', n', o', t'⟩ := c.table.assign hI hJ hK (.val (f I J K))
  refine ⟨h', e', n'.trans c.next, c.outside.trans o', t'.congr fun i hi j hj k hk => ?_⟩
  by_cases h1 : i = I ∧ j = J ∧ k = K
  · obtain ⟨rfl, rfl, rfl⟩ := h1
    rw [if_pos ⟨rfl, rfl, rfl⟩, if_pos (by omega)]
  · rw [if_neg h1]
    by_cases h2 : i < I ∨ i = I ∧ (j < J ∨ j = J ∧ k < K)
    · rw [if_pos h2, if_pos (by omega)]
    · rw [if_neg h2, if_neg (by omega)]

/-! ## Reading -/

theorem lookup_eq {h : Heap α} {p nx ny na : Nat} {f : Nat → Nat → Nat → α}
    (t : TableAt h p nx ny na (fun i j k => .val (f i j k))) (i j k : Nat) :
    lookup h p i j k = if i < nx ∧ j < ny ∧ k < na then some (f i j k) else none := by
  have hnone : ∀ {b n : Nat} {l : Nat → Word α} {x : Nat}, h.mem b = some ((List.range n).map l) → ¬ x < n →
      load h b x = none := by
    intro b n l x hb hx
    unfold load
    rw [hb]
    simp [hx]
  show (loadPtr h p i).bind (fun q => (loadPtr h q j).bind fun r => (load h r k).bind _) = _
  by_cases hi : i < nx
  · rw [loadPtr_eq t.top hi rfl]
    show (loadPtr h (row p ny i) j).bind (fun r => (load h r k).bind _) = _
    by_cases hj : j < ny
    · rw [loadPtr_eq (t.rows i hi) hj rfl]
      show (load h (row p ny i + 1 + j) k).bind _ = _
      by_cases hk : k < na
      · rw [if_pos ⟨hi, hj, hk⟩]
        have : load h (row p ny i + 1 + j) k = some (.val (f i j k)) := by
          unfold load
          rw [t.cells i hi j hj]
          simp [hk]
        rw [this]
        rfl
      · rw [if_neg (by tauto), hnone (t.cells i hi j hj) hk]
        rfl
    · rw [if_neg (by tauto)]
      unfold loadPtr
      rw [hnone (t.rows i hi) hj]
      rfl
  · rw [if_neg (by tauto)]
    unfold loadPtr
    rw [hnone t.top hi]
    rfl

/-! ## The destructor -/

/-- The blocks in `[p + 1, e)` and `[a, b)` are freed. -/
structure Freed (h0 : Heap α) (p e a b : Nat) (h : Heap α) : Prop where
  next : h.next = h0.next
  mem : ∀ x, h.mem x = if p < x ∧ x < e ∨ a ≤ x ∧ x < b then none else h0.mem x

theorem destroy_eq {h0 : Heap α} {p nx ny na : Nat} {g : Nat → Nat → Nat → Word α} (t : TableAt h0 p nx ny na g) :
    ∃ h, destroy h0 p nx ny = some h ∧ h.next = h0.next ∧
      ∀ x, h.mem x = if p ≤ x ∧ x < row p ny nx then none else h0.mem x := by
  have key := foldlM_range (fun (h : Heap α) i => do
      let h ← (List.range ny).foldlM (fun h j => do
        let q ← loadPtr h p i
        let r ← loadPtr h q j
        free h r) h
      let q ← loadPtr h p i
      free h q)
    (fun I => Freed h0 p (row p ny I) 0 0) nx h0 ⟨rfl, fun x => ?_⟩ ?_
  · obtain ⟨h, e, c⟩ := key
    have ht : h.mem p = some ((List.range nx).map fun i => .ptr (row p ny i)) := by
      rw [c.mem, if_neg (by omega)]; exact t.top
    have h0' := row_le (p := p) (ny := ny) (Nat.zero_le nx)
    rw [row_zero] at h0'
    refine ⟨⟨h.next, fun b => if b = p then none else h.mem b⟩, ?_, c.next, fun x => ?_⟩
    · unfold destroy
      exact (congrArg (fun o => Option.bind o fun h => free h p) e).trans (free_eq ht)
    · simp only [c.mem]
      by_cases hx : x = p
      · rw [if_pos hx, if_pos (by omega)]
      · rw [if_neg hx]
        by_cases h1 : p < x ∧ x < row p ny nx ∨ 0 ≤ x ∧ x < 0
        · rw [if_pos h1, if_pos (by omega)]
        · rw [if_neg h1, if_neg (by omega)]
  · rw [row_zero, if_neg (by omega)]
  intro I hI h c
  have h0' := row_le (p := p) (ny := ny) (Nat.zero_le I)
  rw [row_zero] at h0'
  have key := foldlM_range (fun (h : Heap α) j => do
        let q ← loadPtr h p I
        let r ← loadPtr h q j
        free h r)
    (fun J => Freed h0 p (row p ny I) (row p ny I + 1) (row p ny I + 1 + J)) ny h ⟨c.next, fun x => ?_⟩ ?_
  · obtain ⟨h', e', c'⟩ := key
    have hp' : h'.mem p = h0.mem p := by rw [c'.mem, if_neg (by omega)]
    have hr : h'.mem (row p ny I) = h0.mem (row p ny I) := by rw [c'.mem, if_neg (by omega)]
    refine ⟨⟨h'.next, fun b => if b = row p ny I then none else h'.mem b⟩, ?_, c'.next, fun x => ?_⟩
    · show Option.bind _ (fun h => Option.bind (loadPtr h p I) fun q => free h q) = _
      rw [e']
      show Option.bind (loadPtr h' p I) (fun q => free h' q) = _
      rw [loadPtr_eq (hp'.trans t.top) hI rfl]
      exact free_eq (hr.trans (t.rows I hI))
    · simp only [c'.mem, row_succ]
      by_cases hx : x = row p ny I
      · rw [if_pos hx, if_pos (by omega)]
      · rw [if_neg hx]
        by_cases h1 : p < x ∧ x < row p ny I ∨ row p ny I + 1 ≤ x ∧ x < row p ny I + 1 + ny
        · rw [if_pos h1, if_pos (by omega)]
        · rw [if_neg h1, if_neg (by omega)]
  · rw [c.mem]
    by_cases h1 : p < x ∧ x < row p ny I ∨ 0 ≤ x ∧ x < 0
    · rw [if_pos h1, if_pos (by omega)]
    · rw [if_neg h1, if_neg (by omega)]
  intro J hJ h d
  have hp' : h.mem p = h0.mem p := by rw [d.mem, if_neg (by omega)]
  have hr : h.mem (row p ny I) = h0.mem (row p ny I) := by rw [d.mem, if_neg (by omega)]
  have hc : h.mem (row p ny I + 1 + J) = h0.mem (row p ny I + 1 + J) := by rw [d.mem, if_neg (by omega)]
  refine ⟨⟨h.next, fun b => if b = row p ny I + 1 + J then none else h.mem b⟩, ?_, d.next, fun x => ?_⟩
  · show Option.bind (loadPtr h p I) (fun q => Option.bind (loadPtr h q J) fun r => free h r) = _
    rw [loadPtr_eq (hp'.trans t.top) hI rfl]
    show Option.bind (loadPtr h (row p ny I) J) (fun r => free h r) = _
    rw [loadPtr_eq (hr.trans (t.rows I hI)) hJ rfl]
    exact free_eq (hc.trans (t.cells I hI J hJ))
  · simp only [d.mem]
    by_cases hx : x = row p ny I + 1 + J
    · rw [if_pos hx, if_pos (by omega)]
    · rw [if_neg hx]
      by_cases h1 : p < x ∧ x < row p ny I ∨ row p ny I + 1 ≤ x ∧ x < row p ny I + 1 + J
      · rw [if_pos h1, if_pos (by omega)]
      · rw [if_neg h1, if_neg (by omega)]

end HoloMem
end PathPlanning
