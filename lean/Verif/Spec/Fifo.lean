/-!
# A bounded first-in first-out queue

Independent of the model. A queue is the list of its elements, oldest first.
-/

set_option autoImplicit false

namespace Fstrm.Spec

/-- What a program can do to a queue. -/
inductive QOp (α : Type) where
  | ins (x : α)
  | rem
  deriving Repr, DecidableEq

/-- What it gets back: for an insertion whether it took place and how many more elements fit now;
for a removal the element, if there was one, and how many elements are left now. -/
inductive QRes (α : Type) where
  | ins (ok : Bool) (space : Nat)
  | rem (x : Option α) (count : Nat)
  deriving Repr, DecidableEq

/-- One operation on a queue that holds at most `cap` elements. -/
def fifoStep {α : Type} (cap : Nat) (q : List α) : QOp α → QRes α × List α
  | .ins x =>
    if q.length < cap then (.ins true (cap - (q.length + 1)), q ++ [x])
    else (.ins false 0, q)
  | .rem =>
    match q with
    | [] => (.rem none 0, [])
    | x :: rest => (.rem (some x) rest.length, rest)

/-- A sequence of operations. -/
def fifoRun {α : Type} (cap : Nat) (q : List α) : List (QOp α) → List (QRes α) × List α
  | [] => ([], q)
  | o :: ops =>
    let (r, q) := fifoStep cap q o
    let (rs, q) := fifoRun cap q ops
    (r :: rs, q)

end Fstrm.Spec
