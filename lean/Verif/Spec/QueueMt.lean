import Verif.Spec.Fifo

/-!
# What can be observed of a queue shared by many threads

A log entry is a completed call: the thread, the operation, and what it returned. The log lists the
calls in the order in which they returned (each thread's calls are in its program order).
Independent of the model.
-/

set_option autoImplicit false

namespace Fstrm.Spec

/-- A completed call. -/
structure Call (α : Type) where
  thread : Nat
  op : QOp α
  res : QRes α
  deriving Repr, DecidableEq

/-- The log is what a single FIFO of capacity `cap` would have answered, had the calls been made
one after the other in this order. -/
def Linear {α : Type} (cap : Nat) (log : List (Call α)) : Prop :=
  log.map Call.res = (fifoRun cap [] (log.map Call.op)).1

/-- The element a call inserted, if it did. -/
def Call.inserted {α : Type} (c : Call α) : Option α :=
  match c.op, c.res with
  | .ins x, .ins true _ => some x
  | _, _ => none

/-- The element a call removed, if it did. -/
def Call.removed {α : Type} (c : Call α) : Option α :=
  match c.res with
  | .rem x _ => x
  | _ => none

end Fstrm.Spec
