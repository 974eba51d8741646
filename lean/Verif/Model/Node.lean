/-!
# Model of the node hierarchy `Node<T>` (planner/src/utils/node.h)

Nodes live on a heap and are named by numbers. A `Scope` (unique pointer) to a node is held either by
the children vector of another node or by the client; `scopes` lists the nodes whose `Scope` the
client holds. Destroying a `Scope` destroys the node and everything it owns (`~Node() = default`,
node.h:22). The payload `m_data` is not part of this file.
-/

namespace PathPlanning

/-- Update of a function at one point. -/
def upd {β : Type} (f : Nat → β) (k : Nat) (v : β) : Nat → β := fun x => if x = k then v else f x

/-- node.h:228-232, for all nodes. -/
structure Heap where
  /-- The next fresh name. -/
  next : Nat
  /-- Nodes constructed and not destroyed. -/
  alive : Nat → Prop
  /-- `m_parent` -/
  parent : Nat → Option Nat
  /-- `m_children` -/
  children : Nat → List Nat
  /-- Nodes whose `Scope` the client holds. -/
  scopes : List Nat

namespace Heap

/-- No node. -/
def empty : Heap := ⟨0, fun _ => False, fun _ => none, fun _ => [], []⟩

/-- Node `x` is `a` or is owned, directly or not, by `a`: the nodes the default destructor of `a`
destroys. -/
inductive Owns (h : Heap) : Nat → Nat → Prop
  | self (a : Nat) : Owns h a a
  | child {a c x : Nat} : c ∈ h.children a → Owns h c x → Owns h a x

/-- node.h:16-21, `makeScope<Node>(..)`. -/
def new (h : Heap) : Heap :=
  { next := h.next + 1
    alive := fun x => h.alive x ∨ x = h.next
    parent := upd h.parent h.next none
    children := upd h.children h.next []
    scopes := h.next :: h.scopes }

/-- node.h:131-137, `p->AddChild(std::move(n))`. -/
def addChild (h : Heap) (p n : Nat) : Heap :=
  { h with
    children := upd h.children p (h.children p ++ [n])
    parent := upd h.parent n (some p)
    scopes := h.scopes.erase n }

/-- node.h:146-160, `p->RemoveChild(n)`; `none` is the failed assertion. The returned `Scope` goes to
the client. -/
def removeChild (h : Heap) (p n : Nat) : Option Heap :=
  if n ∈ h.children p then
    some { h with
      children := upd h.children p ((h.children p).erase n)
      parent := upd h.parent n none
      scopes := n :: h.scopes }
  else none

/-- node.h:178-183, the children of `brat` become those of `ch`; the former children of `ch` are
destroyed by the assignment of the vector. -/
def adopt (h : Heap) (brat ch : Nat) : Heap :=
  { h with
    alive := fun x => h.alive x ∧ ¬ ∃ c ∈ h.children ch, h.Owns c x
    parent := fun x => if x ∈ h.children brat then some ch else h.parent x
    children := upd (upd h.children ch (h.children brat)) brat [] }

/-- node.h:171-192, `p->ReplaceChild(brat, std::move(ch), adoptGrandchildren)`; `none` is the failed
assertion. -/
def replaceChild (h : Heap) (p brat ch : Nat) (adoptGrandchildren : Bool) : Option Heap :=
  if brat ∈ h.children p then
    let h1 := if adoptGrandchildren then h.adopt brat ch else h
    some { h1 with
      parent := upd (upd h1.parent brat none) ch (some p)
      children := upd h1.children p ((h1.children p).replace brat ch)
      scopes := brat :: h1.scopes.erase ch }
  else none

/-- The client destroys a `Scope` it holds. -/
def drop (h : Heap) (n : Nat) : Heap :=
  { h with alive := fun x => h.alive x ∧ ¬ h.Owns n x, scopes := h.scopes.erase n }

/-- node.h:50-57, the loop of `GetDepth` (`fuel` bounds the number of iterations, `none` means that
the loop is still running). -/
def depthLoop (h : Heap) : Nat → Option Nat → Nat → Option Nat
  | _, none, depth => some depth
  | 0, some _, _ => none
  | fuel + 1, some p, depth => depthLoop h fuel (h.parent p) (depth + 1)

/-- node.h:50-57, `GetDepth`. The loop gets as many iterations as there are names in use. -/
def getDepth (h : Heap) (n : Nat) : Option Nat := depthLoop h h.next (h.parent n) 0

/-- node.h:110-119, the loop of `IsDescendantOf`. -/
def descLoop (h : Heap) (node : Nat) : Nat → Option Nat → Option Bool
  | _, none => some false
  | 0, some _ => none
  | fuel + 1, some p => if p = node then some true else descLoop h node fuel (h.parent p)

/-- node.h:110-119, `n->IsDescendantOf(node)`. -/
def isDescendantOf (h : Heap) (n node : Nat) : Option Bool := descLoop h node h.next (h.parent n)

/-- node.h:121-126, `n->IsAncestorOf(node)`. -/
def isAncestorOf (h : Heap) (n node : Nat) : Option Bool := h.isDescendantOf node n

/-- node.h:203-225, `Reparent(child, newParent, rootNode)`; the result has the new `rootNode`. `none`
is a failed assertion, a null pointer access or a loop that does not end. -/
def reparent (h : Heap) (child newParent : Nat) (root : Option Nat) : Option (Heap × Option Nat) :=
  let oldParent := h.parent child
  -- lines 206-211: the scope of `child`, and what is left in `rootNode`
  let step1 : Option (Heap × Option Nat × Option Nat) :=
    match oldParent with
    | some p => (h.removeChild p child).map fun h1 => (h1, some child, root)
    | none => some (h, root, none)
  step1.bind fun (h1, childScope, root1) =>
  -- lines 215-221
  (h1.isDescendantOf newParent child).bind fun d =>
  let step2 : Option (Heap × Option Nat) :=
    if d then
      (h1.parent newParent).bind fun q =>
      (h1.removeChild q newParent).map fun h2 =>
        match oldParent with
        | some p => (h2.addChild p newParent, root1)
        | none => (h2, some newParent)
    else some (h1, root1)
  step2.bind fun (h2, root2) =>
  -- line 224
  childScope.map fun c => (h2.addChild newParent c, root2)

/-- node.h:28-34, `PreOrderTraversal`: the nodes in the order in which `func` is applied. The
recursion is bounded by `fuel` levels. -/
def preOrder (h : Heap) : Nat → Nat → Option (List Nat)
  | 0, _ => none
  | fuel + 1, n => ((h.children n).mapM (preOrder h fuel)).map fun ls => n :: ls.flatten

/-- node.h:40-46, `PostOrderTraversal`. -/
def postOrder (h : Heap) : Nat → Nat → Option (List Nat)
  | 0, _ => none
  | fuel + 1, n => ((h.children n).mapM (postOrder h fuel)).map fun ls => ls.flatten ++ [n]

/-- node.h:70-79, `GetPrevious`. -/
def getPrevious (h : Heap) (x : Nat) : Option Nat :=
  match h.parent x with
  | none => none
  | some p =>
    let siblings := h.children p
    let it := siblings.idxOf x
    if it = 0 then none else siblings[it - 1]?

/-- node.h:83-92, `GetNext`: the same search from the back. -/
def getNext (h : Heap) (x : Nat) : Option Nat :=
  match h.parent x with
  | none => none
  | some p =>
    let siblings := (h.children p).reverse
    let it := siblings.idxOf x
    if it = 0 then none else siblings[it - 1]?

/-- node.h:96-101, `GetFirst`. -/
def getFirst (h : Heap) (x : Nat) : Option Nat := (h.children x)[0]?

/-- A call of the public interface. -/
inductive Op where
  | new
  | add (p n : Nat)
  | remove (p n : Nat)
  | replace (p brat ch : Nat) (adopt : Bool)
  | drop (n : Nat)

/-- The effect of a call. -/
def call (h : Heap) : Op → Option Heap
  | .new => some h.new
  | .add p n => some (h.addChild p n)
  | .remove p n => h.removeChild p n
  | .replace p b c a => h.replaceChild p b c a
  | .drop n => some (h.drop n)

end Heap
end PathPlanning
