import Verif.Spec.QueueLog

/-!
# What a thread wrote before it put something into a queue

The element that is put into a queue is a struct with a pointer to a payload. The events of a queue
(`Spec/QueueLog.lean`) together with the accesses to the memory of the payloads. Independent of the
model.
-/

set_option autoImplicit false

namespace Fstrm.Spec

/-- Events, in the order in which they happen. -/
inductive PayEv (α : Type) where
  /-- the producer stores `b` at the address `a` -/
  | store (a : Nat) (b : UInt8)
  /-- an event of the queue -/
  | queue (e : QEv α)
  /-- the consumer, which has taken `k` elements out of the queue, loads from the address `a` and
  gets `b` -/
  | load (k : Nat) (a : Nat) (b : UInt8)
  deriving Repr, DecidableEq

/-- The events of the queue. -/
def queueEvents {α : Type} : List (PayEv α) → List (QEv α)
  | [] => []
  | .queue e :: l => e :: queueEvents l
  | _ :: l => queueEvents l

/-- The last value the producer stored at `a`, `b` if it did not. -/
def lastStored {α : Type} (a : Nat) (b : UInt8) : List (PayEv α) → UInt8
  | [] => b
  | .store a' b' :: l => lastStored a (if a' = a then b' else b) l
  | _ :: l => lastStored a b l

/-- What was stored before an element was put into the queue is what the consumer loads once it has
taken that element, if the producer has left it alone since. `init` is the memory at the beginning. -/
def Published {α : Type} (init : Nat → UInt8) (log : List (PayEv α)) : Prop :=
  ∀ before k a b after early x n late,
    log = before ++ .load k a b :: after → before = early ++ .queue (.put x n) :: late →
    (puts (queueEvents early)).length < k → (∀ b', .store a b' ∉ late) →
    b = lastStored a (init a) early

/-- The consumer has taken an element when the call that removes it has returned, and possibly a little
earlier. -/
def Taken {α : Type} (log : List (PayEv α)) : Prop :=
  ∀ before k a b after, log = before ++ .load k a b :: after →
    (gots (queueEvents before)).length ≤ k ∧ k ≤ (gots (queueEvents before)).length + 1

end Fstrm.Spec
