import Verif.Spec.IothrLog

/-!
# Data races

A trace is what threads do, in one order in which it happened: reads and writes of memory, and operations
that synchronize threads. `Before` is "happens before" of C11 (5.1.2.4) for them: an unlock happens before
every later lock of the same mutex, the end of a thread before the call that joins it. There is a data race
if two threads access the same place, at least one of them writing, and neither access happens before the
other. A program with a data race has undefined behaviour.
-/

set_option autoImplicit false

namespace Fstrm.Spec

variable {L M : Type}

/-- What a thread does. `L`: places in memory, `M`: mutexes. -/
inductive ThreadOp (L M : Type) where
  | read (x : L)
  | write (x : L)
  | lock (m : M)
  | unlock (m : M)
  | exit
  | join (t : Nat)
  deriving DecidableEq, Repr

/-- Thread number `thread` does `op`. -/
structure ThreadEv (L M : Type) where
  thread : Nat
  op : ThreadOp L M
  deriving DecidableEq, Repr

/-- The access reads or writes `x`. -/
def ThreadEv.At (x : L) (e : ThreadEv L M) : Prop := e.op = .read x ∨ e.op = .write x

/-- What number `i` of the trace happens before number `j`. -/
inductive Before (tr : List (ThreadEv L M)) : Nat → Nat → Prop
  | order {i j : Nat} {a b : ThreadEv L M} : i < j → tr[i]? = some a → tr[j]? = some b → a.thread = b.thread → Before tr i j
  | mutex {i j t u : Nat} {m : M} : i < j → tr[i]? = some ⟨t, .unlock m⟩ → tr[j]? = some ⟨u, .lock m⟩ → Before tr i j
  | join {i j t u : Nat} : i < j → tr[i]? = some ⟨t, .exit⟩ → tr[j]? = some ⟨u, .join t⟩ → Before tr i j
  | trans {i j k : Nat} : Before tr i j → Before tr j k → Before tr i k

/-- There is a data race on `x`. -/
def Race (tr : List (ThreadEv L M)) (x : L) : Prop :=
  ∃ i j a b, tr[i]? = some a ∧ tr[j]? = some b ∧ a.thread ≠ b.thread ∧ a.At x ∧ b.At x ∧
    (a.op = .write x ∨ b.op = .write x) ∧ ¬ Before tr i j ∧ ¬ Before tr j i

end Fstrm.Spec
