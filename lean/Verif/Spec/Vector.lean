/-!
# What a growable array is supposed to be: a list

Independent of the model.
-/

set_option autoImplicit false

namespace Fstrm.Spec

/-- What a program can do to a growable array of `α`. -/
inductive VOp (α : Type) where
  /-- add one element at the end -/
  | add (x : α)
  /-- make room for `k` more elements -/
  | reserve (k : Nat)
  /-- add several elements at the end -/
  | append (xs : List α)
  /-- add all elements of another array at the end; the other array was built from the list `xs`
  by appending it to a fresh array with initial size `hint` -/
  | extend (hint : Nat) (xs : List α)
  /-- make room, write the elements through the end pointer, announce them -/
  | fill (xs : List α)
  /-- drop everything from index `k` on -/
  | clip (k : Nat)
  /-- drop everything -/
  | reset
  /-- give the array away and go on with a fresh one -/
  | detach
  /-- start afresh with initial size `hint` (after the array was given away or freed) -/
  | reinit (hint : Nat)

/-- The effect on the contents. -/
def VOp.effect {α : Type} (l : List α) : VOp α → List α
  | .add x => l ++ [x]
  | .reserve _ => l
  | .append xs => l ++ xs
  | .extend _ xs => l ++ xs
  | .fill xs => l ++ xs
  | .clip k => l.take k
  | .reset => []
  | .detach => []
  | .reinit _ => []

/-- The contents after a sequence of operations on an empty array. -/
def contents {α : Type} (ops : List (VOp α)) : List α := ops.foldl VOp.effect []

/-- The initial size in force after a sequence of operations. -/
def VOp.sizeHint {α : Type} (hint : Nat) : VOp α → Nat
  | .reinit k => k
  | _ => hint

end Fstrm.Spec
