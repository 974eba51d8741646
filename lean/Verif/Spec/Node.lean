import Verif.Model.Node

/-!
# Specification: when linked nodes form a forest
-/

namespace PathPlanning.Spec
open Heap

/-- `x` is a strict descendant of `a` along parent links. -/
inductive Desc (h : Heap) : Nat → Nat → Prop
  | base {x a : Nat} : h.parent x = some a → Desc h x a
  | step {x b a : Nat} : h.parent x = some b → Desc h b a → Desc h x a

/-- The chain of parents of `x` ends after `d` steps. -/
inductive Depth (h : Heap) : Nat → Nat → Prop
  | root {x : Nat} : h.parent x = none → Depth h x 0
  | child {x a d : Nat} : h.parent x = some a → Depth h a d → Depth h x (d + 1)

/-- `x` belongs to the tree below `r`. -/
def InTree (h : Heap) (r x : Nat) : Prop := x = r ∨ Desc h x r

/-- The nodes form a forest whose roots the client holds. -/
structure Forest (h : Heap) : Prop where
  /-- Names in use. -/
  fresh : ∀ x, h.alive x → x < h.next
  /-- Child lists and parent links agree. -/
  agree : ∀ a, h.alive a → ∀ x, x ∈ h.children a ↔ h.alive x ∧ h.parent x = some a
  /-- No node is listed twice by its parent. -/
  once : ∀ a, h.alive a → (h.children a).Nodup
  /-- A parent link leads to an existing node. -/
  parent_alive : ∀ x a, h.alive x → h.parent x = some a → h.alive a
  /-- The client owns exactly the nodes without parent, once each. -/
  roots : ∀ x, x ∈ h.scopes ↔ h.alive x ∧ h.parent x = none
  roots_once : h.scopes.Nodup
  /-- No cycle: each chain of parents ends. -/
  acyclic : ∀ x, h.alive x → ∃ d, Depth h x d

/-- What a client must respect: pointers to live nodes, scopes it holds, and no node given to one of
its own descendants (or to itself). -/
def Allowed (h : Heap) : Op → Prop
  | .new => True
  | .add p n => h.alive p ∧ n ∈ h.scopes ∧ p ≠ n ∧ ¬ Desc h p n
  | .remove p _ => h.alive p
  | .replace p _ c _ => h.alive p ∧ c ∈ h.scopes ∧ p ≠ c ∧ ¬ Desc h p c
  | .drop n => n ∈ h.scopes

/-- The heaps a client can produce. -/
inductive NodeReachable : Heap → Prop
  | start : NodeReachable Heap.empty
  | call {h h' : Heap} {op : Op} : NodeReachable h → Allowed h op → h.call op = some h' → NodeReachable h'

end PathPlanning.Spec
