import Verif.Spec.ObstacleMap
import Mathlib.Data.List.Induction
import Mathlib.Data.List.Nodup
import Mathlib.Tactic.Common

/-!
# C30, C31: occupancy and identifiers of the obstacle list map
-/

namespace PathPlanning
open Spec ObsMap

/-! ## Invariant -/

private theorem run_append (m : ObsMap) (a b : List Op) :
    m.run (a ++ b) = (m.run a).bind fun m' => m'.run b := by
  induction a generalizing m with
  | nil => rfl
  | cons o os ih =>
    simp only [List.cons_append, ObsMap.run]
    cases m.call o with
    | none => rfl
    | some m' => exact ih m'

theorem ObsMap.run_append' (m : ObsMap) (a b : List Op) : m.run (a ++ b) = (m.run a).bind fun m' => m'.run b :=
  run_append m a b

private theorem registered_snoc (ops : List Op) (op : Op) (o : Nat) :
    registered (ops ++ [op]) o = match op with
      | .add o' => if o' = o then true else registered ops o
      | .remove o' => if o' = o then false else registered ops o
      | .move _ _ => registered ops o := by
  simp only [registered, List.foldl_append, List.foldl_cons, List.foldl_nil]
  cases op <;> rfl

private theorem covers_snoc (ops : List Op) (op : Op) (o : Nat) :
    covers (ops ++ [op]) o = match op with
      | .move o' cells => if o' = o then cells else covers ops o
      | _ => covers ops o := by
  simp only [covers, List.foldl_append, List.foldl_cons, List.foldl_nil]
  cases op <;> rfl

private theorem foldl_write (l : List Cell) (v : Int) (f : Cell → Int) (c : Cell) :
    l.foldl (fun f c => write f c v) f c = if c ∈ l then v else f c := by
  induction l generalizing f with
  | nil => simp
  | cons a l ih =>
    rw [List.foldl_cons, ih]
    by_cases h : c ∈ l
    · simp [h]
    · by_cases h2 : c = a <;> simp [h, h2, write]

/-- `x` is the smallest natural number outside `l`. -/
def IsMex (l : List Nat) (x : Nat) : Prop := x ∉ l ∧ ∀ y < x, y ∈ l

private theorem adjacentFind_spec : ∀ (l : List Nat) (a : Nat), (a :: l).Pairwise (· < ·) →
    match adjacentFind (a :: l) with
    | none => ∀ y, y ∈ a :: l ↔ a ≤ y ∧ y ≤ (a :: l).getLast (by simp)
    | some r => r + 1 ∉ a :: l ∧ a ≤ r ∧ ∀ y, a ≤ y → y ≤ r → y ∈ a :: l := by
  intro l
  induction l with
  | nil => intro a _; intro y; simp; omega
  | cons b l ih =>
    intro a hp
    have hab : a < b := (List.pairwise_cons.mp hp).1 b (List.mem_cons_self ..)
    have hp2 := (List.pairwise_cons.mp hp).2
    rw [adjacentFind]
    by_cases h : a + 1 ≠ b
    · rw [if_pos h]
      refine ⟨?_, Nat.le_refl _, fun y h1 h2 => ?_⟩
      · intro hm
        rcases List.mem_cons.mp hm with hm | hm
        · omega
        · rcases List.mem_cons.mp hm with hm | hm
          · exact h hm
          · have := (List.pairwise_cons.mp hp2).1 _ hm; omega
      · have : y = a := by omega
        subst this; exact List.mem_cons_self ..
    · rw [if_neg h]
      have h' : a + 1 = b := by simpa using h
      have := ih b hp2
      revert this
      cases adjacentFind (b :: l) with
      | none =>
        intro this y
        have hl : (a :: b :: l).getLast (by simp) = (b :: l).getLast (by simp) :=
          List.getLast_cons (by simp)
        rw [List.mem_cons, this y, hl]
        have hb := (this b).mp (List.mem_cons_self ..)
        omega
      | some r =>
        rintro ⟨h1, h2, h3⟩
        refine ⟨?_, by omega, fun y ha hr => ?_⟩
        · rw [List.mem_cons]; rintro (h | h)
          · omega
          · exact h1 h
        · rcases Nat.eq_or_lt_of_le ha with h | h
          · subst h; exact List.mem_cons_self ..
          · exact List.mem_cons_of_mem _ (h3 y (by omega) hr)

private theorem mex_spec (ids : List Nat) (hp : ids.Pairwise (· < ·)) :
    IsMex ids (findSmallestIDAvailable ids) := by
  cases ids with
  | nil => exact ⟨by simp, by intro y hy; simp [findSmallestIDAvailable] at hy⟩
  | cons a l =>
    unfold findSmallestIDAvailable
    dsimp only
    by_cases h : a > 0
    · rw [if_pos h]
      refine ⟨?_, fun y hy => by omega⟩
      intro hm
      rcases List.mem_cons.mp hm with hm | hm
      · omega
      · have := (List.pairwise_cons.mp hp).1 _ hm; omega
    · rw [if_neg h]
      have ha : a = 0 := by omega
      have := adjacentFind_spec l a hp
      revert this
      cases adjacentFind (a :: l) with
      | none =>
        intro this
        refine ⟨fun hm => ?_, fun y hy => (this y).mpr ⟨by omega, by dsimp only at hy; omega⟩⟩
        have := ((this _).mp hm).2; dsimp only at this; omega
      | some r =>
        rintro ⟨h1, h2, h3⟩
        exact ⟨h1, fun y hy => h3 y (by omega) (by dsimp only at hy; omega)⟩

private theorem mem_setInsert (x y : Nat) (l : List Nat) : y ∈ setInsert x l ↔ y = x ∨ y ∈ l := by
  induction l with
  | nil => simp [setInsert]
  | cons a l ih =>
    unfold setInsert
    split
    · simp
    · split
      · rename_i h; subst h; simp
      · rw [List.mem_cons, ih, List.mem_cons]; exact or_left_comm

private theorem setInsert_sorted (x : Nat) (l : List Nat) (h : l.Pairwise (· < ·)) :
    (setInsert x l).Pairwise (· < ·) := by
  induction l with
  | nil => simp [setInsert]
  | cons a l ih =>
    have h1 := (List.pairwise_cons.mp h).1
    have h2 := (List.pairwise_cons.mp h).2
    unfold setInsert
    split
    · rename_i hx
      refine List.pairwise_cons.mpr ⟨fun y hy => ?_, h⟩
      rcases List.mem_cons.mp hy with rfl | hy
      · exact hx
      · have := h1 y hy; omega
    · split
      · exact h
      · refine List.pairwise_cons.mpr ⟨fun y hy => ?_, ih h2⟩
        rcases (mem_setInsert x y l).mp hy with rfl | hy
        · omega
        · exact h1 y hy

/-- Facts that hold after every history. -/
private structure Inv (ops : List Op) (m : ObsMap) : Prop where
  mat : ∃ f, m.matrix = some f
  reg : ∀ o, registered ops o = true ↔ ∃ id, (o, id) ∈ m.obstacles
  keys : (m.obstacles.map Prod.fst).Nodup
  vals : (m.obstacles.map Prod.snd).Nodup
  ids : ∀ i, i ∈ m.ids ↔ ∃ o, (o, i) ∈ m.obstacles
  sorted : m.ids.Pairwise (· < ·)
  bound : ∀ o, m.boundary o = covers ops o

private theorem inv_start : Inv [] ObsMap.new.initializeSize := by
  refine ⟨⟨_, rfl⟩, ?_, ?_, ?_, ?_, ?_, ?_⟩ <;>
    simp [ObsMap.new, ObsMap.initializeSize, registered, covers]

private theorem any_iff {l : List (Nat × Nat)} {o : Nat} :
    l.any (fun e => e.1 == o) = true ↔ ∃ id, (o, id) ∈ l := by
  simp only [List.any_eq_true, beq_iff_eq, Prod.exists]
  constructor
  · rintro ⟨a, b, h, rfl⟩; exact ⟨b, h⟩
  · rintro ⟨b, h⟩; exact ⟨o, b, h, rfl⟩

/-- The two outcomes of `AddObstacle`. -/
private theorem add_cases {ops : List Op} {m : ObsMap} (inv : Inv ops m) (o : Nat) :
    (registered ops o = true ∧ m.addObstacle o = some (m, false)) ∨
    (registered ops o = false ∧ ∃ f id, m.matrix = some f ∧ IsMex m.ids id ∧
      m.addObstacle o = some ({ m with
        obstacles := (o, id) :: m.obstacles
        ids := setInsert id m.ids
        matrix := some ((m.boundary o).foldl (fun f c => write f c id) f)
        distCalls := m.distCalls ++ (m.boundary o).map .set }, true)) := by
  obtain ⟨f, hf⟩ := inv.mat
  cases h : registered ops o with
  | true =>
    left
    have := any_iff.mpr ((inv.reg o).mp h)
    refine ⟨rfl, ?_⟩
    simp only [ObsMap.addObstacle, hf, this, if_true]
  | false =>
    right
    refine ⟨rfl, f, _, hf, mex_spec _ inv.sorted, ?_⟩
    have : ¬ m.obstacles.any (fun e => e.1 == o) = true := by
      rw [any_iff, ← inv.reg o, h]; simp
    simp only [ObsMap.addObstacle, hf, this, if_false]
    rfl

/-- The two outcomes of `RemoveObstacle`. -/
private theorem remove_cases {ops : List Op} {m : ObsMap} (inv : Inv ops m) (o : Nat) :
    (registered ops o = false ∧ m.removeObstacle o = some (m, false)) ∨
    (registered ops o = true ∧ ∃ f id, m.matrix = some f ∧ (o, id) ∈ m.obstacles ∧
      m.removeObstacle o = some ({ m with
        ids := m.ids.erase id
        obstacles := m.obstacles.filter (fun e => e.1 != o)
        matrix := some ((m.boundary o).foldl (fun f c => write f c (-1)) f)
        distCalls := m.distCalls ++ (m.boundary o).map .unset }, true)) := by
  obtain ⟨f, hf⟩ := inv.mat
  cases h : m.obstacles.find? (fun e => e.1 == o) with
  | none =>
    left
    refine ⟨?_, by simp only [ObsMap.removeObstacle, hf, h]⟩
    rw [← Bool.not_eq_true, inv.reg o]
    rintro ⟨id, hm⟩
    have := List.find?_eq_none.mp h _ hm
    simp at this
  | some e =>
    right
    obtain ⟨o', id⟩ := e
    have h1 := List.find?_some h
    have h2 := List.mem_of_find?_eq_some h
    have : o' = o := by simpa using h1
    subst this
    refine ⟨(inv.reg o').mpr ⟨id, h2⟩, f, id, hf, h2, ?_⟩
    simp only [ObsMap.removeObstacle, hf, h]

private theorem inv_call {ops : List Op} {m m' : ObsMap} {op : Op} (inv : Inv ops m)
    (h : m.call op = some m') : Inv (ops ++ [op]) m' := by
  cases op with
  | move o cells =>
    cases h
    refine ⟨inv.mat, ?_, inv.keys, inv.vals, inv.ids, inv.sorted, ?_⟩
    · intro x; rw [registered_snoc]; exact inv.reg x
    · intro x
      rw [covers_snoc]
      simp only [ObsMap.moveObstacle, inv.bound, eq_comm]
  | add o =>
    rcases add_cases inv o with ⟨hr, ha⟩ | ⟨hr, f, id, hf, hmex, ha⟩
    · simp only [ObsMap.call, ha, Option.map_some, Option.some.injEq] at h
      subst h
      refine ⟨inv.mat, ?_, inv.keys, inv.vals, inv.ids, inv.sorted, ?_⟩
      · intro x
        rw [registered_snoc, ← inv.reg x]
        dsimp only
        split
        · rename_i e; subst e; simp [hr]
        · rfl
      · intro x; rw [covers_snoc]; exact inv.bound x
    · simp only [ObsMap.call, ha, Option.map_some, Option.some.injEq] at h
      subst h
      refine ⟨⟨_, rfl⟩, ?_, ?_, ?_, ?_, ?_, ?_⟩
      · intro x
        rw [registered_snoc]
        dsimp only
        split
        · rename_i e; subst e
          simp only [true_iff]
          exact ⟨id, List.mem_cons_self ..⟩
        · rename_i e
          rw [inv.reg x]
          simp only [List.mem_cons, Prod.mk.injEq]
          constructor
          · rintro ⟨i, hi⟩; exact ⟨i, Or.inr hi⟩
          · rintro ⟨i, ⟨h, _⟩ | hi⟩
            · exact absurd h.symm e
            · exact ⟨i, hi⟩
      · rw [List.map_cons, List.nodup_cons]
        refine ⟨?_, inv.keys⟩
        intro hm
        obtain ⟨⟨a, b⟩, he, rfl⟩ := List.mem_map.mp hm
        have := (inv.reg a).mpr ⟨b, he⟩
        rw [hr] at this; cases this
      · rw [List.map_cons, List.nodup_cons]
        refine ⟨?_, inv.vals⟩
        intro hm
        obtain ⟨⟨a, b⟩, he, rfl⟩ := List.mem_map.mp hm
        exact hmex.1 ((inv.ids b).mpr ⟨a, he⟩)
      · intro i
        rw [mem_setInsert, inv.ids]
        simp only [List.mem_cons, Prod.mk.injEq]
        constructor
        · rintro (rfl | ⟨a, ha⟩)
          · exact ⟨o, Or.inl ⟨rfl, rfl⟩⟩
          · exact ⟨a, Or.inr ha⟩
        · rintro ⟨a, ⟨_, rfl⟩ | ha⟩
          · exact Or.inl rfl
          · exact Or.inr ⟨a, ha⟩
      · exact setInsert_sorted _ _ inv.sorted
      · intro x; rw [covers_snoc]; exact inv.bound x
  | remove o =>
    rcases remove_cases inv o with ⟨hr, ha⟩ | ⟨hr, f, id, hf, hid, ha⟩
    · simp only [ObsMap.call, ha, Option.map_some, Option.some.injEq] at h
      subst h
      refine ⟨inv.mat, ?_, inv.keys, inv.vals, inv.ids, inv.sorted, ?_⟩
      · intro x
        rw [registered_snoc, ← inv.reg x]
        dsimp only
        split
        · rename_i e; subst e; simp [hr]
        · rfl
      · intro x; rw [covers_snoc]; exact inv.bound x
    · simp only [ObsMap.call, ha, Option.map_some, Option.some.injEq] at h
      subst h
      have huniq : ∀ i, (o, i) ∈ m.obstacles → i = id := by
        intro i hi
        have := List.inj_on_of_nodup_map inv.keys hi hid rfl
        exact congrArg Prod.snd this
      refine ⟨⟨_, rfl⟩, ?_, ?_, ?_, ?_, ?_, ?_⟩
      · intro x
        rw [registered_snoc]
        dsimp only
        simp only [List.mem_filter, bne_iff_ne]
        split
        · rename_i e; subst e; simp
        · rename_i e
          rw [inv.reg x]
          constructor
          · rintro ⟨i, hi⟩; exact ⟨i, hi, Ne.symm e⟩
          · rintro ⟨i, hi, _⟩; exact ⟨i, hi⟩
      · exact inv.keys.sublist (List.filter_sublist.map _)
      · exact inv.vals.sublist (List.filter_sublist.map _)
      · intro i
        have hnd : m.ids.Nodup := inv.sorted.imp (fun h => Nat.ne_of_lt h)
        rw [hnd.mem_erase_iff, inv.ids]
        simp only [List.mem_filter, bne_iff_ne]
        constructor
        · rintro ⟨hne, a, hm⟩
          refine ⟨a, hm, ?_⟩
          rintro rfl
          exact hne (huniq i hm)
        · rintro ⟨a, hm, hne⟩
          refine ⟨?_, a, hm⟩
          rintro rfl
          have := List.inj_on_of_nodup_map inv.vals hm hid rfl
          exact hne (congrArg Prod.fst this)
      · exact inv.sorted.sublist List.erase_sublist
      · intro x; rw [covers_snoc]; exact inv.bound x

private theorem inv_run : ∀ (ops : List Op) (m : ObsMap),
    ObsMap.new.initializeSize.run ops = some m → Inv ops m := by
  intro ops
  induction ops using List.reverseRecOn with
  | nil => intro m h; cases h; exact inv_start
  | append_singleton ops op ih =>
    intro m h
    rw [run_append] at h
    cases h1 : ObsMap.new.initializeSize.run ops with
    | none => rw [h1] at h; cases h
    | some m1 =>
      rw [h1] at h
      simp only [Option.bind_some, ObsMap.run] at h
      cases h2 : m1.call op with
      | none => rw [h2] at h; cases h
      | some m2 =>
        rw [h2] at h; cases h
        exact inv_call (ih m1 h1) h2

/-- C31. Histories never throw once the size is initialised. -/
theorem C31_no_exception (ops : List Op) :
    (ObsMap.new.initializeSize.run ops).isSome = true := by
  induction ops using List.reverseRecOn with
  | nil => rfl
  | append_singleton ops op ih =>
    obtain ⟨m, hm⟩ := Option.isSome_iff_exists.mp ih
    have inv := inv_run ops m hm
    rw [run_append, hm]
    cases op with
    | move o cells => rfl
    | add o =>
      rcases add_cases inv o with ⟨_, ha⟩ | ⟨_, f, id, _, _, ha⟩ <;>
        simp [ObsMap.run, ObsMap.call, ha]
    | remove o =>
      rcases remove_cases inv o with ⟨_, ha⟩ | ⟨_, f, id, _, _, ha⟩ <;>
        simp [ObsMap.run, ObsMap.call, ha]

/-- C31. After any history: the map lists exactly the registered obstacles, each with one
identifier, no two with the same, and `GetNumObstacles` counts them. -/
theorem C31_identifiers_unique (ops : List Op) (m : ObsMap)
    (h : ObsMap.new.initializeSize.run ops = some m) :
    (∀ o, registered ops o = true ↔ ∃ id, (o, id) ∈ m.obstacles) ∧
    (∀ o id o' id', (o, id) ∈ m.obstacles → (o', id') ∈ m.obstacles → (o = o' ↔ id = id')) ∧
    (∃ L : List Nat, L.Nodup ∧ (∀ o, o ∈ L ↔ registered ops o = true) ∧
      m.getNumObstacles = L.length) := by
  have inv := inv_run ops m h
  refine ⟨inv.reg, ?_, m.obstacles.map Prod.fst, inv.keys, ?_, by simp [ObsMap.getNumObstacles]⟩
  · intro o id o' id' h1 h2
    constructor
    · rintro rfl; exact congrArg Prod.snd (List.inj_on_of_nodup_map inv.keys h1 h2 rfl)
    · rintro rfl; exact congrArg Prod.fst (List.inj_on_of_nodup_map inv.vals h1 h2 rfl)
  · intro o
    rw [inv.reg o, List.mem_map]
    constructor
    · rintro ⟨⟨a, b⟩, he, rfl⟩; exact ⟨b, he⟩
    · rintro ⟨b, he⟩; exact ⟨(o, b), he, rfl⟩

/-- The cells an obstacle would occupy are those of its last shape and pose. -/
theorem ObsMap.boundary_eq_covers (ops : List Op) (m : ObsMap) (h : ObsMap.new.initializeSize.run ops = some m)
    (o : Nat) : m.boundary o = covers ops o := (inv_run ops m h).bound o

theorem ObsMap.foldl_write' (l : List Cell) (v : Int) (f : Cell → Int) (c : Cell) :
    l.foldl (fun f c => write f c v) f c = if c ∈ l then v else f c := foldl_write l v f c

/-- The identifiers in use are those of the registered obstacles. -/
theorem ObsMap.ids_iff (ops : List Op) (m : ObsMap) (h : ObsMap.new.initializeSize.run ops = some m) (i : Nat) :
    i ∈ m.ids ↔ ∃ o, (o, i) ∈ m.obstacles := (inv_run ops m h).ids i

/-- C31. Adding an obstacle: refused, without effect, iff it is registered; otherwise it gets the
smallest identifier that no registered obstacle uses. -/
theorem C31_add_gives_smallest_identifier (ops : List Op) (m : ObsMap)
    (h : ObsMap.new.initializeSize.run ops = some m) (o : Nat) :
    (registered ops o = true → m.addObstacle o = some (m, false)) ∧
    (registered ops o = false → ∃ m' id, m.addObstacle o = some (m', true) ∧
      (o, id) ∈ m'.obstacles ∧ (∀ o', (o', id) ∉ m.obstacles) ∧
      ∀ id' < id, ∃ o', (o', id') ∈ m.obstacles) := by
  have inv := inv_run ops m h
  rcases add_cases inv o with ⟨hr, ha⟩ | ⟨hr, f, id, hf, hmex, ha⟩
  · exact ⟨fun _ => ha, fun h => Bool.noConfusion (hr.symm.trans h)⟩
  · refine ⟨fun h => Bool.noConfusion (hr.symm.trans h), fun _ => ⟨_, id, ha, List.mem_cons_self .., ?_, ?_⟩⟩
    · intro o' ho'; exact hmex.1 ((inv.ids id).mpr ⟨o', ho'⟩)
    · intro id' hlt; exact (inv.ids id').mp (hmex.2 id' hlt)

/-- C31. Removing an obstacle that is not registered is refused, without effect; removing a
registered one is accepted. -/
theorem C31_remove_result (ops : List Op) (m : ObsMap)
    (h : ObsMap.new.initializeSize.run ops = some m) (o : Nat) :
    (registered ops o = false → m.removeObstacle o = some (m, false)) ∧
    (registered ops o = true → ∃ m', m.removeObstacle o = some (m', true) ∧
      ∀ x id, (x, id) ∈ m'.obstacles ↔ (x, id) ∈ m.obstacles ∧ x ≠ o) := by
  have inv := inv_run ops m h
  rcases remove_cases inv o with ⟨hr, ha⟩ | ⟨hr, f, id, hf, _, ha⟩
  · exact ⟨fun _ => ha, fun h => Bool.noConfusion (hr.symm.trans h)⟩
  · refine ⟨fun h => Bool.noConfusion (hr.symm.trans h), fun _ => ⟨_, ha, fun x i => ?_⟩⟩
    simp [List.mem_filter, bne_iff_ne]

/-- Before `InitializeSize` both calls throw. -/
theorem C31_uninitialised_throws (o : Nat) :
    ObsMap.new.addObstacle o = none ∧ ObsMap.new.removeObstacle o = none := ⟨rfl, rfl⟩

/-- Obstacle 7 takes the identifier freed by obstacle 5. -/
example : (ObsMap.new.initializeSize.run [.add 4, .add 5, .add 6, .remove 5, .add 7]).map
    (fun m => (m.obstacles, m.ids)) = some ([(7, 1), (6, 2), (4, 0)], [0, 1, 2]) := by decide

/-! ## C30 -/

/-- Facts about the matrix when no registered obstacle is moved. -/
private structure OccInv (ops : List Op) (m : ObsMap) : Prop where
  value : ∀ f, m.matrix = some f → ∀ c, f c ≥ 0 →
    ∃ o id, (o, id) ∈ m.obstacles ∧ f c = (id : Int) ∧ c ∈ covers ops o
  free : ∀ f, m.matrix = some f → ∀ c, f c ≥ 0 ∨ f c = -1

private theorem noMove_init {ops : List Op} {op : Op} (h : NoMoveWhileRegistered (ops ++ [op])) :
    NoMoveWhileRegistered ops := by
  intro pre o cells post he
  exact h pre o cells (post ++ [op]) (by rw [he]; simp)

private theorem noOverlap_init {ops : List Op} {op : Op} (h : NoOverlap (ops ++ [op])) :
    NoOverlap ops := by
  intro pre o post he
  exact h pre o (post ++ [op]) (by rw [he]; simp)

private theorem run_snoc {ops : List Op} {op : Op} {m : ObsMap}
    (h : ObsMap.new.initializeSize.run (ops ++ [op]) = some m) :
    ∃ m1, ObsMap.new.initializeSize.run ops = some m1 ∧ m1.call op = some m := by
  rw [run_append] at h
  cases h1 : ObsMap.new.initializeSize.run ops with
  | none => rw [h1] at h; cases h
  | some m1 =>
    rw [h1] at h
    simp only [Option.bind_some, ObsMap.run] at h
    cases h2 : m1.call op with
    | none => rw [h2] at h; cases h
    | some m2 => rw [h2] at h; cases h; exact ⟨m1, rfl, h2⟩

private theorem occInv_run : ∀ (ops : List Op) (m : ObsMap),
    ObsMap.new.initializeSize.run ops = some m → NoMoveWhileRegistered ops → OccInv ops m := by
  intro ops
  induction ops using List.reverseRecOn with
  | nil =>
    intro m h _; cases h
    refine ⟨?_, ?_⟩
    · intro f hf c hc; cases hf; simp at hc
    · intro f hf c; cases hf; exact Or.inr rfl
  | append_singleton ops op ih =>
    intro m h hnm
    obtain ⟨m1, h1, h2⟩ := run_snoc h
    have inv := inv_run ops m1 h1
    have occ := ih m1 h1 (noMove_init hnm)
    cases op with
    | move o cells =>
      cases h2
      have hr : registered ops o = false := hnm ops o cells [] rfl
      refine ⟨?_, occ.free⟩
      intro f hf c hc
      obtain ⟨o', id, h3, h4, h5⟩ := occ.value f hf c hc
      refine ⟨o', id, h3, h4, ?_⟩
      rw [covers_snoc]
      dsimp only
      rw [if_neg]
      · exact h5
      · rintro rfl
        have := (inv.reg o).mpr ⟨id, h3⟩
        rw [hr] at this; cases this
    | add o =>
      rcases add_cases inv o with ⟨hr, ha⟩ | ⟨hr, f1, id, hf1, hmex, ha⟩
      · simp only [ObsMap.call, ha, Option.map_some, Option.some.injEq] at h2
        subst h2
        refine ⟨?_, occ.free⟩
        intro f hf c hc
        obtain ⟨o', id, h3, h4, h5⟩ := occ.value f hf c hc
        exact ⟨o', id, h3, h4, by rw [covers_snoc]; exact h5⟩
      · simp only [ObsMap.call, ha, Option.map_some, Option.some.injEq] at h2
        subst h2
        refine ⟨?_, ?_⟩
        · intro f hf c hc
          cases hf
          simp only [covers_snoc]
          rw [foldl_write] at hc ⊢
          by_cases hm : c ∈ m1.boundary o
          · exact ⟨o, id, List.mem_cons_self .., by rw [if_pos hm], by rw [← inv.bound]; exact hm⟩
          · rw [if_neg hm] at hc ⊢
            obtain ⟨o', id', h3, h4, h5⟩ := occ.value f1 hf1 c hc
            exact ⟨o', id', List.mem_cons_of_mem _ h3, h4, h5⟩
        · intro f hf c
          cases hf
          rw [foldl_write]
          split
          · left; omega
          · exact occ.free f1 hf1 c
    | remove o =>
      rcases remove_cases inv o with ⟨hr, ha⟩ | ⟨hr, f1, id, hf1, hid, ha⟩
      · simp only [ObsMap.call, ha, Option.map_some, Option.some.injEq] at h2
        subst h2
        refine ⟨?_, occ.free⟩
        intro f hf c hc
        obtain ⟨o', id, h3, h4, h5⟩ := occ.value f hf c hc
        exact ⟨o', id, h3, h4, by rw [covers_snoc]; exact h5⟩
      · simp only [ObsMap.call, ha, Option.map_some, Option.some.injEq] at h2
        subst h2
        refine ⟨?_, ?_⟩
        · intro f hf c hc
          cases hf
          simp only [covers_snoc]
          rw [foldl_write] at hc ⊢
          by_cases hm : c ∈ m1.boundary o
          · rw [if_pos hm] at hc; omega
          · rw [if_neg hm] at hc ⊢
            obtain ⟨o', id', h3, h4, h5⟩ := occ.value f1 hf1 c hc
            refine ⟨o', id', ?_, h4, h5⟩
            rw [List.mem_filter]
            refine ⟨h3, ?_⟩
            simp only [bne_iff_ne]
            rintro rfl
            exact hm (by rw [inv.bound]; exact h5)
        · intro f hf c
          cases hf
          rw [foldl_write]
          split
          · right; rfl
          · exact occ.free f1 hf1 c

/-- C30, partial (one direction, overlapping obstacles allowed): if no obstacle is moved while it is
registered, an occupied cell is covered by a registered obstacle, and the occupancy value of the
cell is the identifier of such an obstacle. -/
theorem C30_occupied_is_covered_partial (ops : List Op) (m : ObsMap)
    (h : ObsMap.new.initializeSize.run ops = some m) (hnm : NoMoveWhileRegistered ops) (c : Cell)
    (hocc : m.isOccupied c = some true) :
    ∃ o id, registered ops o = true ∧ c ∈ covers ops o ∧ (o, id) ∈ m.obstacles ∧
      m.getOccupancyValue c = some (id : Int) := by
  have inv := inv_run ops m h
  obtain ⟨f, hf⟩ := inv.mat
  have : f c ≥ 0 := by simpa [ObsMap.isOccupied, hf] using hocc
  obtain ⟨o, id, h1, h2, h3⟩ := (occInv_run ops m h hnm).value f hf c this
  exact ⟨o, id, (inv.reg o).mpr ⟨id, h1⟩, h3, h1, by simp [ObsMap.getOccupancyValue, hf, h2]⟩

private theorem covered_run : ∀ (ops : List Op) (m : ObsMap),
    ObsMap.new.initializeSize.run ops = some m → NoMoveWhileRegistered ops → NoOverlap ops →
    (∀ o c, registered ops o = true → c ∈ covers ops o → ∀ f, m.matrix = some f → f c ≥ 0) ∧
    (∀ o o' c, registered ops o = true → registered ops o' = true → c ∈ covers ops o →
      c ∈ covers ops o' → o = o') := by
  intro ops
  induction ops using List.reverseRecOn with
  | nil => intro m _ _ _; simp [registered]
  | append_singleton ops op ih =>
    intro m h hnm hno
    obtain ⟨m1, h1, h2⟩ := run_snoc h
    have inv := inv_run ops m1 h1
    obtain ⟨ih1, ih2⟩ := ih m1 h1 (noMove_init hnm) (noOverlap_init hno)
    cases op with
    | move o cells =>
      cases h2
      have hr : registered ops o = false := hnm ops o cells [] rfl
      have hcov : ∀ x, registered ops x = true →
          covers (ops ++ [Op.move o cells]) x = covers ops x := by
        intro x hx
        rw [covers_snoc]
        dsimp only
        rw [if_neg]
        rintro rfl; rw [hr] at hx; cases hx
      constructor
      · intro x c hx hc f hf
        rw [registered_snoc] at hx
        rw [hcov x hx] at hc
        exact ih1 x c hx hc f hf
      · intro x y c hx hy hcx hcy
        rw [registered_snoc] at hx hy
        rw [hcov x hx] at hcx; rw [hcov y hy] at hcy
        exact ih2 x y c hx hy hcx hcy
    | add o =>
      have hnov := hno ops o [] rfl
      rcases add_cases inv o with ⟨hr, ha⟩ | ⟨hr, f1, id, hf1, hmex, ha⟩
      · simp only [ObsMap.call, ha, Option.map_some, Option.some.injEq] at h2
        subst h2
        have hreg : ∀ x, registered (ops ++ [Op.add o]) x = registered ops x := by
          intro x; rw [registered_snoc]; dsimp only
          split
          · rename_i e; subst e; exact hr.symm
          · rfl
        constructor
        · intro x c hx hc; rw [hreg] at hx; rw [covers_snoc] at hc; exact ih1 x c hx hc
        · intro x y c hx hy hcx hcy
          rw [hreg] at hx hy; rw [covers_snoc] at hcx hcy
          exact ih2 x y c hx hy hcx hcy
      · simp only [ObsMap.call, ha, Option.map_some, Option.some.injEq] at h2
        subst h2
        constructor
        · intro x c hx hc f hf
          cases hf
          rw [covers_snoc] at hc
          dsimp only at hc
          rw [foldl_write]
          by_cases hm : c ∈ m1.boundary o
          · rw [if_pos hm]; omega
          · rw [if_neg hm]
            rw [registered_snoc] at hx
            dsimp only at hx
            split at hx
            · rename_i e; subst e
              rw [inv.bound] at hm; exact absurd hc hm
            · exact ih1 x c hx hc f1 hf1
        · intro x y c hx hy hcx hcy
          rw [covers_snoc] at hcx hcy
          rw [registered_snoc] at hx hy
          dsimp only at hx hy hcx hcy
          split at hx
          · rename_i e; subst e
            split at hy
            · assumption
            · rename_i e2
              exact absurd hcy (hnov y (Ne.symm e2) hy c hcx)
          · rename_i e2
            split at hy
            · rename_i e; subst e
              exact absurd hcx (hnov x (Ne.symm e2) hx c hcy)
            · exact ih2 x y c hx hy hcx hcy
    | remove o =>
      rcases remove_cases inv o with ⟨hr, ha⟩ | ⟨hr, f1, id, hf1, hid, ha⟩
      · simp only [ObsMap.call, ha, Option.map_some, Option.some.injEq] at h2
        subst h2
        have hreg : ∀ x, registered (ops ++ [Op.remove o]) x = registered ops x := by
          intro x; rw [registered_snoc]; dsimp only
          split
          · rename_i e; subst e; exact hr.symm
          · rfl
        constructor
        · intro x c hx hc; rw [hreg] at hx; rw [covers_snoc] at hc; exact ih1 x c hx hc
        · intro x y c hx hy hcx hcy
          rw [hreg] at hx hy; rw [covers_snoc] at hcx hcy
          exact ih2 x y c hx hy hcx hcy
      · simp only [ObsMap.call, ha, Option.map_some, Option.some.injEq] at h2
        subst h2
        constructor
        · intro x c hx hc f hf
          cases hf
          rw [covers_snoc] at hc
          rw [registered_snoc] at hx
          dsimp only at hx hc
          split at hx
          · cases hx
          · rename_i e
            rw [foldl_write, if_neg]
            · exact ih1 x c hx hc f1 hf1
            · intro hm
              rw [inv.bound] at hm
              exact e (ih2 o x c hr hx hm hc)
        · intro x y c hx hy hcx hcy
          rw [covers_snoc] at hcx hcy
          rw [registered_snoc] at hx hy
          dsimp only at hx hy hcx hcy
          split at hx
          · cases hx
          · split at hy
            · cases hy
            · exact ih2 x y c hx hy hcx hcy

/-- C30, partial: if no obstacle is moved while it is registered and registered obstacles never
overlap, a cell is occupied iff a registered obstacle covers it. Missing: histories with overlaps
(`C30_overlap_lost`) or moves (`C30_moved_obstacle_leaves_cells`), for which it is false. -/
theorem C30_occupied_iff_covered_partial (ops : List Op) (m : ObsMap)
    (h : ObsMap.new.initializeSize.run ops = some m) (hnm : NoMoveWhileRegistered ops)
    (hno : NoOverlap ops) (c : Cell) :
    m.isOccupied c = some true ↔ ∃ o, registered ops o = true ∧ c ∈ covers ops o := by
  constructor
  · intro ho
    obtain ⟨o, _, h1, h2, _⟩ := C30_occupied_is_covered_partial ops m h hnm c ho
    exact ⟨o, h1, h2⟩
  · rintro ⟨o, h1, h2⟩
    obtain ⟨f, hf⟩ := (inv_run ops m h).mat
    have := (covered_run ops m h hnm hno).1 o c h1 h2 f hf
    simp [ObsMap.isOccupied, hf, this]

/-- C30 is violated: removing one of two overlapping obstacles frees the shared cell. -/
theorem C30_overlap_lost : ∃ (ops : List Op) (m : ObsMap) (c : Cell),
    ObsMap.new.initializeSize.run ops = some m ∧ NoMoveWhileRegistered ops ∧
    registered ops 0 = true ∧ c ∈ covers ops 0 ∧ m.isOccupied c = some false := by
  refine ⟨[.move 0 [⟨0, 0⟩, ⟨0, 1⟩], .move 1 [⟨0, 1⟩], .add 0, .add 1, .remove 1], _, ⟨0, 1⟩, rfl,
    ?_, by decide, by decide, by decide⟩
  intro pre o cells post he
  rcases pre with _ | ⟨a, _ | ⟨b, _ | ⟨c, _ | ⟨d, _ | ⟨e, pre⟩⟩⟩⟩⟩ <;> simp at he
  · simp [registered]
  · obtain ⟨rfl, _⟩ := he; simp [registered]

/-- C30 is violated: an obstacle moved while registered leaves occupied cells behind when it is
removed. -/
theorem C30_moved_obstacle_leaves_cells : ∃ (ops : List Op) (m : ObsMap) (c : Cell),
    ObsMap.new.initializeSize.run ops = some m ∧ (∀ o, registered ops o = false) ∧
    m.isOccupied c = some true := by
  refine ⟨[.move 0 [⟨0, 0⟩], .add 0, .move 0 [⟨3, 3⟩], .remove 0], _, ⟨0, 0⟩, rfl, ?_, by decide⟩
  intro o
  by_cases h : 0 = o <;> simp [registered, h]

/-- A history with two disjoint obstacles meets the hypotheses. -/
example : NoMoveWhileRegistered [.move 0 [⟨0, 0⟩], .move 1 [⟨0, 1⟩], .add 0, .add 1] ∧
    NoOverlap [.move 0 [⟨0, 0⟩], .move 1 [⟨0, 1⟩], .add 0, .add 1] := by
  constructor
  · intro pre o cells post he
    rcases pre with _ | ⟨a, _ | ⟨b, _ | ⟨c, _ | ⟨d, pre⟩⟩⟩⟩ <;> simp at he
    · simp [registered]
    · obtain ⟨rfl, _⟩ := he; simp [registered]
  · intro pre o post he
    rcases pre with _ | ⟨a, _ | ⟨b, _ | ⟨c, _ | ⟨d, pre⟩⟩⟩⟩ <;> simp at he
    · obtain ⟨rfl, rfl, rfl, _⟩ := he
      intro o' _ h
      simp [registered] at h
    · obtain ⟨rfl, rfl, rfl, rfl, _⟩ := he
      intro o' hne h c hc
      have : o' = 0 := by simpa [registered, eq_comm] using h
      subst this
      simp [covers] at hc ⊢
      rw [hc]; simp

end PathPlanning
