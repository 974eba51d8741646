import Verif.Model.Hash
import Mathlib.Data.List.Perm.Basic

/-!
# Hash tables: C116
-/

namespace PathPlanning
open HybridAStar

namespace Spec

/-- The value stored for `k` after a history of calls (the last call first): the one of the oldest insertion of an
equal key since the last removal. -/
def stored {K V : Type} (eq : K → K → Prop) [DecidableRel eq] : List (HashTable.Op K V) → K → Option V
  | [], _ => none
  | .insert k' v :: l, k => match stored eq l k with
    | some w => some w
    | none => if eq k' k then some v else none
  | .erase k' :: l, k => if eq k' k then none else stored eq l k
  | .clear :: _, _ => none
  | .rehash _ :: l, k => stored eq l k

/-- The number of different keys stored after a history of calls (the last call first). -/
def storedCount {K V : Type} (eq : K → K → Prop) [DecidableRel eq] : List (HashTable.Op K V) → Nat
  | [] => 0
  | .insert k _ :: l => if (stored eq l k).isSome then storedCount eq l else storedCount eq l + 1
  | .erase k :: l => if (stored eq l k).isSome then storedCount eq l - 1 else storedCount eq l
  | .clear :: _ => 0
  | .rehash _ :: l => storedCount eq l

/-- What the standard library asks of the functions of a hash table. -/
structure LawfulKeys {K : Type} (hash : K → BitVec 64) (eq : K → K → Prop) : Prop where
  equivalence : Equivalence eq
  hash_eq : ∀ a b, eq a b → hash a = hash b

end Spec

open Spec

namespace HashTable
variable {K V : Type} {hash : K → BitVec 64} {eq : K → K → Prop} [DecidableRel eq]

/-- Every entry is in its bucket, and a bucket has no two equal keys. -/
structure Ok (hash : K → BitVec 64) (eq : K → K → Prop) (t : HashTable K V) : Prop where
  pos : 0 < t.count
  place : ∀ j, ∀ e ∈ t.buckets j, t.index hash e.1 = j
  distinct : ∀ j, (t.buckets j).Pairwise fun a b => ¬ eq a.1 b.1

theorem find_none {t : HashTable K V} {k : K} :
    t.find hash eq k = none ↔ ∀ e ∈ t.buckets (t.index hash k), ¬ eq e.1 k := by
  simp [find]

theorem pairwise_unique {l : List (K × V)} (L : LawfulKeys hash eq) (h : l.Pairwise fun a b => ¬ eq a.1 b.1)
    {a b : K × V} (ha : a ∈ l) (hb : b ∈ l) (hab : eq a.1 b.1) : a = b := by
  induction l with
  | nil => cases ha
  | cons x l ih =>
    rw [List.pairwise_cons] at h
    rcases List.mem_cons.mp ha with ea | ha'
    · rcases List.mem_cons.mp hb with eb | hb'
      · rw [ea, eb]
      · subst ea; exact absurd hab (h.1 b hb')
    · rcases List.mem_cons.mp hb with eb | hb'
      · subst eb; exact absurd (L.equivalence.symm hab) (h.1 a ha')
      · exact ih h.2 ha' hb'

theorem find_some {t : HashTable K V} (L : LawfulKeys hash eq) (h : Ok hash eq t) {k : K} {v : V} :
    t.find hash eq k = some v ↔ ∃ k', eq k' k ∧ (k', v) ∈ t.buckets (t.index hash k) := by
  constructor
  · intro hf
    unfold find at hf
    obtain ⟨e, he, rfl⟩ := Option.map_eq_some_iff.mp hf
    exact ⟨e.1, by simpa using List.find?_some he, List.mem_of_find?_eq_some he⟩
  · rintro ⟨k', hk, hm⟩
    cases hf : t.find hash eq k with
    | none => exact absurd hk (find_none.mp hf (k', v) hm)
    | some w =>
      unfold find at hf
      obtain ⟨e, he, rfl⟩ := Option.map_eq_some_iff.mp hf
      have h1 : eq e.1 k := by simpa using List.find?_some he
      have := pairwise_unique L (h.distinct _) (List.mem_of_find?_eq_some he) hm
        (L.equivalence.trans h1 (L.equivalence.symm hk))
      rw [this]

theorem index_lt {t : HashTable K V} (h : Ok hash eq t) (k : K) : t.index hash k < t.count := Nat.mod_lt _ h.pos

theorem index_congr (L : LawfulKeys hash eq) {t : HashTable K V} {k k' : K} (h : eq k' k) :
    t.index hash k' = t.index hash k := by unfold index; rw [L.hash_eq _ _ h]

theorem mem_entries {t : HashTable K V} (h : Ok hash eq t) {e : K × V} :
    e ∈ t.entries ↔ e ∈ t.buckets (t.index hash e.1) := by
  unfold entries
  rw [List.mem_flatMap]
  constructor
  · rintro ⟨j, -, he⟩
    rw [h.place j e he]; exact he
  · intro he
    exact ⟨_, List.mem_range.mpr (index_lt h _), he⟩

theorem find_entries {t : HashTable K V} (L : LawfulKeys hash eq) (h : Ok hash eq t) {k : K} {v : V} :
    t.find hash eq k = some v ↔ ∃ k', eq k' k ∧ (k', v) ∈ t.entries := by
  rw [find_some L h]
  constructor
  · rintro ⟨k', hk, hm⟩
    exact ⟨k', hk, (mem_entries h).mpr (by rw [index_congr L hk]; exact hm)⟩
  · rintro ⟨k', hk, hm⟩
    refine ⟨k', hk, ?_⟩
    have := (mem_entries h).mp hm
    rwa [index_congr L (show eq (k', v).1 k from hk)] at this

theorem pairwise_entries {t : HashTable K V} (L : LawfulKeys hash eq) (h : Ok hash eq t) :
    t.entries.Pairwise fun a b => ¬ eq a.1 b.1 := by
  unfold entries
  rw [List.flatMap, List.pairwise_flatten]
  refine ⟨?_, ?_⟩
  · intro l hl
    obtain ⟨j, -, rfl⟩ := List.mem_map.mp hl
    exact h.distinct j
  · rw [List.pairwise_map]
    refine List.Pairwise.imp ?_ List.nodup_range
    intro i j hij a ha b hb hab
    apply hij
    rw [← h.place i a ha, ← h.place j b hb]
    exact index_congr L hab

theorem ok_new (n : Nat) : Ok hash eq (new n : HashTable K V) :=
  ⟨by simp only [new]; omega, by simp [new], by simp [new]⟩

theorem ok_insert (L : LawfulKeys hash eq) {t : HashTable K V} (h : Ok hash eq t) (k : K) (v : V) :
    Ok hash eq (t.insert hash eq k v) := by
  unfold insert
  cases hf : t.find hash eq k with
  | some w => exact h
  | none =>
    refine ⟨h.pos, ?_, ?_⟩
    · intro j e he
      simp only [setBucket] at he
      split at he
      · rename_i hj
        rcases List.mem_cons.mp he with rfl | he
        · exact hj.symm
        · rw [hj]; exact h.place _ e he
      · exact h.place j e he
    · intro j
      simp only [setBucket]
      split
      · rw [List.pairwise_cons]
        refine ⟨fun e he hk => find_none.mp hf e he (L.equivalence.symm hk), h.distinct _⟩
      · exact h.distinct j

theorem ok_erase {t : HashTable K V} (h : Ok hash eq t) (k : K) : Ok hash eq (t.erase hash eq k) := by
  refine ⟨h.pos, ?_, ?_⟩
  · intro j e he
    simp only [erase, setBucket] at he
    split at he
    · rename_i hj
      rw [hj]; exact h.place _ e (List.mem_of_mem_filter he)
    · exact h.place j e he
  · intro j
    simp only [erase, setBucket]
    split
    · exact (h.distinct _).filter _
    · exact h.distinct j

theorem ok_rehash (L : LawfulKeys hash eq) {t : HashTable K V} (h : Ok hash eq t) (n : Nat) :
    Ok hash eq (t.rehash hash n) := by
  refine ⟨by simp only [rehash]; omega, ?_, ?_⟩
  · intro j e he
    simp only [rehash, List.mem_filter, decide_eq_true_eq] at he
    exact he.2
  · intro j
    exact (pairwise_entries L h).filter _

theorem ok_step (L : LawfulKeys hash eq) {t : HashTable K V} (h : Ok hash eq t) (o : Op K V) :
    Ok hash eq (t.step hash eq o) := by
  cases o with
  | insert k v => exact ok_insert L h k v
  | erase k => exact ok_erase h k
  | clear => exact ⟨h.pos, by simp [step, clear], by simp [step, clear]⟩
  | rehash n => exact ok_rehash L h n

/-! ### Look-ups -/

theorem find_congr (L : LawfulKeys hash eq) {t : HashTable K V} (h : Ok hash eq t) {k k' : K} (hk : eq k' k) :
    t.find hash eq k' = t.find hash eq k := by
  have : ∀ v, t.find hash eq k' = some v ↔ t.find hash eq k = some v := fun v => by
    rw [find_entries L h, find_entries L h]
    exact ⟨fun ⟨a, h1, h2⟩ => ⟨a, L.equivalence.trans h1 hk, h2⟩,
      fun ⟨a, h1, h2⟩ => ⟨a, L.equivalence.trans h1 (L.equivalence.symm hk), h2⟩⟩
  cases h1 : t.find hash eq k with
  | some v => exact (this v).mpr h1
  | none =>
    cases h2 : t.find hash eq k' with
    | none => rfl
    | some w => rw [(this w).mp h2] at h1; cases h1

theorem find_insert (L : LawfulKeys hash eq) {t : HashTable K V} (h : Ok hash eq t) (k' : K) (v : V) (k : K) :
    (t.insert hash eq k' v).find hash eq k = match t.find hash eq k with
      | some w => some w
      | none => if eq k' k then some v else none := by
  unfold insert
  cases hf : t.find hash eq k' with
  | some w =>
    simp only
    cases hk : t.find hash eq k with
    | some w => rfl
    | none =>
      simp only
      rw [if_neg (fun he => by rw [find_congr L h he, hk] at hf; cases hf)]
  | none =>
    simp only
    by_cases hj : t.index hash k = t.index hash k'
    · have e1 : (t.setBucket (t.index hash k') ((k', v) :: t.buckets (t.index hash k'))).find hash eq k =
          Option.map (·.2) (List.find? (fun e => decide (eq e.1 k)) ((k', v) :: t.buckets (t.index hash k'))) := by
        show Option.map _ (List.find? _ (if t.index hash k = t.index hash k' then _ else _)) = _
        rw [if_pos hj]
      have e2 : t.find hash eq k =
          Option.map (·.2) (List.find? (fun e => decide (eq e.1 k)) (t.buckets (t.index hash k'))) := by
        show Option.map _ (List.find? _ (t.buckets (t.index hash k))) = _
        rw [hj]
      rw [e1, List.find?_cons]
      by_cases he : eq k' k
      · have hn : t.find hash eq k = none := by rw [← find_congr L h he]; exact hf
        simp [he, hn]
      · rw [e2]
        simp only [he, decide_false, if_false]
        cases List.find? (fun e : K × V => decide (eq e.1 k)) (t.buckets (t.index hash k')) <;> rfl
    · have he : ¬ eq k' k := fun he => hj (index_congr L he).symm
      have : (t.setBucket (t.index hash k') ((k', v) :: t.buckets (t.index hash k'))).find hash eq k =
          t.find hash eq k := by
        show Option.map _ (List.find? _ (if t.index hash k = t.index hash k' then _ else _)) = _
        rw [if_neg hj]; rfl
      rw [this, if_neg he]
      cases t.find hash eq k <;> rfl

theorem find_erase (L : LawfulKeys hash eq) {t : HashTable K V} (k' k : K) :
    (t.erase hash eq k').find hash eq k = if eq k' k then none else t.find hash eq k := by
  by_cases he : eq k' k
  · rw [if_pos he]
    show Option.map _ (List.find? _ (if t.index hash k = t.index hash k' then _ else _)) = _
    rw [if_pos (index_congr L he).symm, Option.map_eq_none_iff, List.find?_eq_none]
    intro e hm
    have h1 := (List.mem_filter.mp hm).2
    simp only [Bool.not_eq_true', decide_eq_false_iff_not] at h1
    simp only [decide_eq_true_eq]
    exact fun h => h1 (L.equivalence.trans h (L.equivalence.symm he))
  · rw [if_neg he]
    by_cases hj : t.index hash k = t.index hash k'
    · show Option.map _ (List.find? _ (if t.index hash k = t.index hash k' then _ else _)) =
        Option.map _ (List.find? _ (t.buckets (t.index hash k)))
      rw [if_pos hj, hj, List.find?_filter]
      congr 2
      funext e
      by_cases h1 : eq e.1 k
      · have : ¬ eq e.1 k' := fun h2 => he (L.equivalence.trans (L.equivalence.symm h2) h1)
        simp [h1, this]
      · simp [h1]
    · show Option.map _ (List.find? _ (if t.index hash k = t.index hash k' then _ else _)) = _
      rw [if_neg hj]; rfl

theorem find_rehash (L : LawfulKeys hash eq) {t : HashTable K V} (h : Ok hash eq t) (n : Nat) (k : K) :
    (t.rehash hash n).find hash eq k = t.find hash eq k := by
  have : ∀ v, (t.rehash hash n).find hash eq k = some v ↔ t.find hash eq k = some v := fun v => by
    rw [find_some L (ok_rehash L h n), find_entries L h]
    constructor
    · rintro ⟨k', hk, hm⟩
      exact ⟨k', hk, List.mem_of_mem_filter hm⟩
    · rintro ⟨k', hk, hm⟩
      refine ⟨k', hk, List.mem_filter.mpr ⟨hm, ?_⟩⟩
      simp only [decide_eq_true_eq]
      rw [L.hash_eq _ _ hk]; rfl
  cases h1 : t.find hash eq k with
  | some v => exact (this v).mpr h1
  | none =>
    cases h2 : (t.rehash hash n).find hash eq k with
    | none => rfl
    | some w => rw [(this w).mp h2] at h1; cases h1

/-! ### Sizes -/

theorem sum_update (f g : Nat → Nat) (n j : Nat) (hj : j < n) (h : ∀ i, i ≠ j → g i = f i) :
    ((List.range n).map g).sum + f j = ((List.range n).map f).sum + g j := by
  induction n with
  | zero => omega
  | succ n ih =>
    simp only [List.range_succ, List.map_append, List.map_cons, List.map_nil, List.sum_append, List.sum_cons,
      List.sum_nil]
    by_cases he : j = n
    · subst he
      have : (List.range j).map g = (List.range j).map f := by
        apply List.map_congr_left
        intro i hi
        exact h i (by have := List.mem_range.mp hi; omega)
      rw [this]; omega
    · have := ih (by omega)
      rw [h n (fun e => he e.symm)]
      omega

theorem size_sum (t : HashTable K V) : t.size = ((List.range t.count).map fun j => (t.buckets j).length).sum := by
  unfold size entries
  rw [List.length_flatMap]

theorem size_insert {t : HashTable K V} (h : Ok hash eq t) (k : K) (v : V) :
    (t.insert hash eq k v).size = if (t.find hash eq k).isSome then t.size else t.size + 1 := by
  unfold insert
  cases hf : t.find hash eq k with
  | some w => simp
  | none =>
    simp only [Option.isSome_none, Bool.false_eq_true, if_false]
    rw [size_sum, size_sum]
    have := sum_update (fun j => (t.buckets j).length)
      (fun j => ((t.setBucket (t.index hash k) ((k, v) :: t.buckets (t.index hash k))).buckets j).length)
      t.count (t.index hash k) (index_lt h k) (fun i hi => by simp only [setBucket]; rw [if_neg hi])
    simp only [setBucket, if_true, List.length_cons] at this ⊢
    omega

theorem length_filter_one (L : LawfulKeys hash eq) {l : List (K × V)} (h : l.Pairwise fun a b => ¬ eq a.1 b.1) (k : K) :
    (l.filter fun e => !decide (eq e.1 k)).length =
      if ((l.find? fun e => decide (eq e.1 k)).map (·.2)).isSome then l.length - 1 else l.length := by
  induction l with
  | nil => rfl
  | cons a l ih =>
    rw [List.pairwise_cons] at h
    by_cases ha : eq a.1 k
    · have hall : l.filter (fun e => !decide (eq e.1 k)) = l := by
        rw [List.filter_eq_self]
        intro e he
        simp only [Bool.not_eq_true', decide_eq_false_iff_not]
        exact fun hk => h.1 e he (L.equivalence.trans ha (L.equivalence.symm hk))
      simp [ha, hall]
    · have ih := ih h.2
      simp only [ha, decide_false, Bool.not_false, List.filter_cons_of_pos, List.length_cons, ih, List.find?_cons]
      split
      · rename_i hs
        have : l ≠ [] := by rintro rfl; simp at hs
        have := List.length_pos_iff.mpr this
        omega
      · rfl

theorem size_erase (L : LawfulKeys hash eq) {t : HashTable K V} (h : Ok hash eq t) (k : K) :
    (t.erase hash eq k).size = if (t.find hash eq k).isSome then t.size - 1 else t.size := by
  rw [size_sum, size_sum]
  have := sum_update (fun j => (t.buckets j).length)
    (fun j => ((t.erase hash eq k).buckets j).length)
    t.count (t.index hash k) (index_lt h k) (fun i hi => by simp only [erase, setBucket]; rw [if_neg hi])
  have h1 : ((t.erase hash eq k).buckets (t.index hash k)).length =
      if (t.find hash eq k).isSome then (t.buckets (t.index hash k)).length - 1
        else (t.buckets (t.index hash k)).length := by
    simp only [erase, setBucket, if_true]
    exact length_filter_one L (h.distinct _) k
  rw [h1] at this
  have h2 : (t.find hash eq k).isSome → 0 < (t.buckets (t.index hash k)).length := by
    intro hs
    rw [List.length_pos_iff]
    intro he
    simp [find, he] at hs
  simp only [show (t.erase hash eq k).count = t.count from rfl]
  split
  · rename_i hs
    have := h2 hs
    simp only [hs, if_true] at *
    omega
  · rename_i hs
    simp only [hs] at *
    simpa using this

theorem sum_filter (l : List (K × V)) (f : K × V → Nat) (n : Nat) (h : ∀ e ∈ l, f e < n) :
    ((List.range n).map fun j => (l.filter fun e => decide (f e = j)).length).sum = l.length := by
  induction l with
  | nil => simp
  | cons a l ih =>
    have := sum_update (fun j => (l.filter fun e => decide (f e = j)).length)
      (fun j => ((a :: l).filter fun e => decide (f e = j)).length) n (f a) (h a (by simp)) (fun i hi => by
        rw [List.filter_cons_of_neg (by simpa using fun e => hi e.symm)])
    rw [ih fun e he => h e (by simp [he])] at this
    simp only [decide_true, List.filter_cons_of_pos, List.length_cons] at this ⊢
    omega

theorem size_rehash {t : HashTable K V} (n : Nat) : (t.rehash hash n).size = t.size := by
  rw [size_sum]
  exact sum_filter t.entries (fun e => (hash e.1).toNat % max 1 n) (max 1 n) fun e _ => Nat.mod_lt _ (by omega)

theorem run_ok (L : LawfulKeys hash eq) (n : Nat) (ops : List (Op K V)) :
    Ok hash eq ((new n).run hash eq ops.reverse) ∧
    (∀ k, ((new n).run hash eq ops.reverse).find hash eq k = stored eq ops k) ∧
    ((new n).run hash eq ops.reverse).size = storedCount eq ops := by
  induction ops with
  | nil => exact ⟨ok_new n, fun k => rfl, by rw [size_sum]; simp [run, new, storedCount]⟩
  | cons o ops ih =>
    obtain ⟨h1, h2, h3⟩ := ih
    have hr : (new n : HashTable K V).run hash eq (o :: ops).reverse = ((new n).run hash eq ops.reverse).step hash eq o := by
      simp only [run, List.reverse_cons, List.foldl_append, List.foldl_cons, List.foldl_nil]
    rw [hr]
    refine ⟨ok_step L h1 o, ?_, ?_⟩
    · intro k
      cases o with
      | insert k' v => rw [step, find_insert L h1, h2, stored]
      | erase k' => rw [step, find_erase L, h2, stored]
      | clear => rfl
      | rehash n => rw [step, find_rehash L h1, h2, stored]
    · cases o with
      | insert k' v => rw [step, size_insert h1, h2, h3, storedCount]
      | erase k' => rw [step, size_erase L h1, h2, h3, storedCount]
      | clear => rw [size_sum]; simp [step, clear, storedCount]
      | rehash n => rw [step, size_rehash, h3, storedCount]

end HashTable

/-! ## C116 -/

/-- C116: with lawful keys a hash table finds what the history of calls stored for an equal key, whatever the hash
values, the number of buckets, and the moments at which the library redistributes the entries. -/
theorem C116_lookup {K V : Type} {hash : K → BitVec 64} {eq : K → K → Prop} [DecidableRel eq]
    (L : LawfulKeys hash eq) (n : Nat) (ops : List (HashTable.Op K V)) (k : K) :
    ((HashTable.new n).run hash eq ops).find hash eq k = stored eq ops.reverse k := by
  have := (HashTable.run_ok L n ops.reverse).2.1 k
  rwa [List.reverse_reverse] at this

/-- C116: and its size is the number of different keys stored. -/
theorem C116_size {K V : Type} {hash : K → BitVec 64} {eq : K → K → Prop} [DecidableRel eq]
    (L : LawfulKeys hash eq) (n : Nat) (ops : List (HashTable.Op K V)) :
    ((HashTable.new n).run hash eq ops).size = storedCount eq ops.reverse := by
  have := (HashTable.run_ok L n ops.reverse).2.2
  rwa [List.reverse_reverse] at this

/-- C116: the keys of the search graphs are lawful, for every hash of numbers: points, poses, grid cells, the states
of hybrid A*, and cells with a value. -/
theorem C116_keys_lawful (hd : ℝ → BitVec 64) (hi : Int → BitVec 64) :
    LawfulKeys (hashPoint hd) equalPoint ∧ LawfulKeys (hashPose hd) equalPose ∧
    LawfulKeys (hashCell hi) equalCell ∧ LawfulKeys (hashState hi) equalState ∧
    LawfulKeys (hashGridCell hi) equalGridCell := by
  refine ⟨⟨⟨?_, ?_, ?_⟩, ?_⟩, ⟨⟨?_, ?_, ?_⟩, ?_⟩, ⟨⟨?_, ?_, ?_⟩, ?_⟩, ⟨⟨?_, ?_, ?_⟩, ?_⟩, ⟨⟨?_, ?_, ?_⟩, ?_⟩⟩
  · exact fun _ => ⟨rfl, rfl⟩
  · exact fun h => ⟨h.1.symm, h.2.symm⟩
  · exact fun h h' => ⟨h.1.trans h'.1, h.2.trans h'.2⟩
  · rintro a b ⟨h1, h2⟩; unfold hashPoint; rw [h1, h2]
  · exact fun _ => ⟨rfl, rfl⟩
  · exact fun h => ⟨h.1.symm, h.2.symm⟩
  · exact fun h h' => ⟨h.1.trans h'.1, h.2.trans h'.2⟩
  · rintro a b ⟨h1, h2⟩; unfold hashPose; rw [h1, h2]
  · exact fun _ => ⟨rfl, rfl⟩
  · exact fun h => ⟨h.1.symm, h.2.symm⟩
  · exact fun h h' => ⟨h.1.trans h'.1, h.2.trans h'.2⟩
  · rintro a b ⟨h1, h2⟩; unfold hashCell; rw [h1, h2]
  · exact fun _ => ⟨⟨rfl, rfl⟩, rfl⟩
  · exact fun h => ⟨⟨h.1.1.symm, h.1.2.symm⟩, h.2.symm⟩
  · exact fun h h' => ⟨⟨h.1.1.trans h'.1.1, h.1.2.trans h'.1.2⟩, h.2.trans h'.2⟩
  · rintro a b ⟨⟨h1, h2⟩, h3⟩; unfold hashState hashPoseI; rw [h1, h2, h3]
  · exact fun _ => ⟨rfl, rfl⟩
  · exact fun h => ⟨h.1.symm, h.2.symm⟩
  · exact fun h h' => ⟨h.1.trans h'.1, h.2.trans h'.2⟩
  · rintro a b ⟨h1, h2⟩; unfold hashGridCell hashCell; rw [h1, h2]

/-- C116: what the equality of the keys means: points, cells and states of hybrid A* are equal if they have the same
coordinates (the latter those of their cell), poses if they have the same position and the same wrapped heading. -/
theorem C116_equality :
    (∀ a b : Pt, equalPoint a b ↔ a = b) ∧ (∀ a b : Cell, equalCell a b ↔ a = b) ∧
    (∀ a b : State, equalState a b ↔ a.discretePose = b.discretePose) ∧
    (∀ a b : PoseR, equalPose a b ↔ a.equalTo b) := by
  refine ⟨fun a b => ⟨?_, ?_⟩, fun a b => ⟨?_, ?_⟩, fun a b => ⟨?_, ?_⟩, fun a b => Iff.rfl⟩
  · rintro ⟨h1, h2⟩; cases a; cases b; simp only at h1 h2; rw [h1, h2]
  · rintro rfl; exact ⟨rfl, rfl⟩
  · rintro ⟨h1, h2⟩; exact Cell.ext h1 h2
  · rintro rfl; exact ⟨rfl, rfl⟩
  · rintro ⟨⟨h1, h2⟩, h3⟩
    obtain ⟨_, ⟨_, _, _⟩, _⟩ := a
    obtain ⟨_, ⟨_, _, _⟩, _⟩ := b
    simp only at h1 h2 h3 ⊢
    rw [h1, h2, h3]
  · intro h
    simp only [equalState, h, and_self]

/-- C116: lawful keys are needed: if two equal keys have different hashes, then in a table of some size the second is
not found after the first has been stored. -/
theorem C116_unlawful_keys {K V : Type} (hash : K → BitVec 64) (eq : K → K → Prop) [DecidableRel eq] (a b : K)
    (v : V) (hab : hash a ≠ hash b) :
    ∃ n, ((HashTable.new n).run hash eq [.insert a v]).find hash eq b = none := by
  refine ⟨2 ^ 64, ?_⟩
  have hidx : ∀ k, (HashTable.new (2 ^ 64) : HashTable K V).index hash k = (hash k).toNat := fun k => by
    show (hash k).toNat % max 1 (2 ^ 64) = _
    rw [show max 1 (2 ^ 64) = 2 ^ 64 by decide]
    exact Nat.mod_eq_of_lt (hash k).isLt
  have hne : (hash b).toNat ≠ (hash a).toNat := fun h => hab (BitVec.eq_of_toNat_eq h.symm)
  simp only [HashTable.run, List.foldl_cons, List.foldl_nil, HashTable.step]
  have : HashTable.insert hash eq (HashTable.new (2 ^ 64) : HashTable K V) a v =
      (HashTable.new (2 ^ 64)).setBucket ((HashTable.new (2 ^ 64) : HashTable K V).index hash a) [(a, v)] := rfl
  rw [this, HashTable.find_none]
  intro e he
  have he' : e ∈ if (HashTable.new (2 ^ 64) : HashTable K V).index hash b =
      (HashTable.new (2 ^ 64) : HashTable K V).index hash a then [(a, v)] else [] := he
  rw [hidx, hidx, if_neg hne] at he'
  cases he'

/-- Non-vacuity: grid cells of which all hashes collide, with a removal and a redistribution. -/
example : LawfulKeys (hashCell fun _ => 0) (fun a b : Cell => a = b) ∧
    ((HashTable.new 3).run (hashCell fun _ => 0) (fun a b : Cell => a = b)
      [.insert ⟨0, 1⟩ 5, .insert ⟨1, 0⟩ 6, .rehash 7, .insert ⟨0, 1⟩ 8, .erase ⟨1, 0⟩]).find
        (hashCell fun _ => 0) (fun a b : Cell => a = b) ⟨0, 1⟩ = some 5 := by
  have L : LawfulKeys (hashCell fun _ => 0) (fun a b : Cell => a = b) :=
    ⟨⟨fun _ => rfl, fun h => h.symm, fun h h' => h.trans h'⟩, by rintro a b rfl; rfl⟩
  refine ⟨L, ?_⟩
  rw [C116_lookup L]
  simp [stored]

end PathPlanning
