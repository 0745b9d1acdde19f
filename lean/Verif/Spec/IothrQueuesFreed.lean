import Verif.Model.IothrQueues
import Verif.Model.Iothr
import Verif.Spec.IothrProgress

/-!
# What can delay the release of a payload, access by access (C131)
-/

set_option autoImplicit false

namespace Fstrm.Spec

variable {σ : Type} {Q : QImpl}

/-- Sum over the steps of an execution. -/
def sumMoves (f : IoQ σ Q → QAct → IoQ σ Q → Nat) : IoQ σ Q → List QAct → Nat
  | _, [] => 0
  | s, a :: as =>
    match s.step a with
    | .error _ => 0
    | .ok s' => f s a s' + sumMoves f s' as

/-- Does the I/O thread stop waiting before its timeout although no payload is visible in any queue? -/
def vainAt (s : IoQ σ Q) (a : QAct) (s' : IoQ σ Q) : Nat :=
  match a with
  | .io _ .timeout _ => 0
  | .io _ _ _ => if s.io.asleep = true ∧ s'.io.asleep = false ∧ s'.io.queues.flatten = [] then 1 else 0
  | _ => 0

/-- How often it does. -/
def vain : IoQ σ Q → List QAct → Nat := sumMoves vainAt

/-- Does the I/O thread take a payload from a queue while the output is closed? -/
def tossAt (s : IoQ σ Q) (a : QAct) (s' : IoQ σ Q) : Nat :=
  if a.isIo = true ∧ s.io.opened = false ∧ s'.io.queues ≠ s.io.queues then 1 else 0

/-- How often it does. -/
def tosses : IoQ σ Q → List QAct → Nat := sumMoves tossAt

end Fstrm.Spec
