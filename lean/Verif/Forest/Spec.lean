/-
Specification: ordered forests of trees, as plain algebraic data.  Independent of the linked-node model.
-/
namespace Verif.Forest

/-- An ordered forest: empty, or a first tree (its root and the forest of its children) followed by the remaining trees. -/
inductive Forest (β : Type) where
  | nil
  | cons (root : β) (children : Forest β) (rest : Forest β)
  deriving DecidableEq

namespace Forest
variable {β γ : Type}

/-- the fullorder traversal: each root once on its leading edge (`true`), then its children, then its trailing edge (`false`) -/
def word : Forest β → List (β × Bool)
  | nil => []
  | cons n k r => (n, true) :: (word k ++ (n, false) :: word r)

/-- all roots and descendants in preorder -/
def pre : Forest β → List β
  | nil => []
  | cons n k r => n :: (pre k ++ pre r)

/-- in postorder -/
def post : Forest β → List β
  | nil => []
  | cons n k r => post k ++ n :: post r

/-- the roots -/
def roots : Forest β → List β
  | nil => []
  | cons n _ r => n :: roots r

/-- number of nodes -/
def card : Forest β → Nat
  | nil => 0
  | cons _ k r => 1 + card k + card r

def append : Forest β → Forest β → Forest β
  | nil, g => g
  | cons n k r, g => cons n k (append r g)

/-- reverse the order of the top-level trees (not of their children) -/
def rev : Forest β → Forest β
  | nil => nil
  | cons n k r => append (rev r) (cons n k nil)

/-- mirror image: reverse at every level -/
def mirror : Forest β → Forest β
  | nil => nil
  | cons n k r => append (mirror r) (cons n (mirror k) nil)

def map (f : β → γ) : Forest β → Forest γ
  | nil => nil
  | cons n k r => cons (f n) (map f k) (map f r)

/-- drop the subtrees whose root does not satisfy `p` -/
def prune (p : β → Bool) : Forest β → Forest β
  | nil => nil
  | cons n k r => if p n then cons n (prune p k) (prune p r) else prune p r

/-- the word of the traversal with each node's depth attached -/
def depths (d : Int) : Forest β → List ((β × Bool) × Int)
  | nil => []
  | cons n k r => ((n, true), d) :: (depths (d + 1) k ++ ((n, false), d) :: depths d r)

/-- both edges of `n` lie in the run `M` of the traversal -/
def both [DecidableEq β] (M : List (β × Bool)) (n : β) : Bool := decide ((n, true) ∈ M) && decide ((n, false) ∈ M)

/-- same shape, and corresponding nodes related -/
def rel (p : β → γ → Prop) : Forest β → Forest γ → Prop
  | nil, nil => True
  | cons n k r, cons n' k' r' => p n n' ∧ rel p k k' ∧ rel p r r'
  | _, _ => False

/-- A place in a forest: a hole that stands for a (possibly empty) final run of siblings. -/
inductive Ctx (β : Type) where
  /-- the whole list -/
  | top
  /-- somewhere after the tree with this root and these children, in the same list of siblings -/
  | after (root : β) (children : Forest β) (c : Ctx β)
  /-- somewhere among the children of `root`, which itself is followed by `rest` -/
  | inside (root : β) (c : Ctx β) (rest : Forest β)

/-- the node whose list of children contains the hole (`t` at top level) -/
def Ctx.parent (t : β) : Ctx β → β
  | .top => t
  | .after _ _ c => c.parent t
  | .inside n c _ => c.parent n

/-- fill the hole -/
def plug : Ctx β → Forest β → Forest β
  | .top, g => g
  | .after n k c, g => cons n k (plug c g)
  | .inside n c r, g => cons n (plug c g) r

end Forest

end Verif.Forest
