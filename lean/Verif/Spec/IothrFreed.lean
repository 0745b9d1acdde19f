import Verif.Spec.IothrProgress

/-!
# What can delay the release of a payload (C131)
-/

set_option autoImplicit false

namespace Fstrm

variable {σ : Type}

/-- Sum over the steps of an execution. -/
def sumSteps (f : Iothr σ → IoAct → Iothr σ → Nat) : Iothr σ → List IoAct → Nat
  | _, [] => 0
  | s, a :: as =>
    match s.step a with
    | .error _ => 0
    | .ok s' => f s a s' + sumSteps f s' as

/-- Does the I/O thread stop waiting without having been signalled and before its timeout? -/
def spuriousAt (s : Iothr σ) (a : IoAct) (_ : Iothr σ) : Nat :=
  match a with
  | .io _ .spurious => if s.asleep then 1 else 0
  | _ => 0

/-- How often it does. -/
def spurious : Iothr σ → List IoAct → Nat := sumSteps spuriousAt

/-- Does the I/O thread take a payload from a queue while the output is closed? -/
def discardAt (s : Iothr σ) (a : IoAct) (s' : Iothr σ) : Nat :=
  if Iothr.isIo a = true ∧ s.opened = false ∧ s'.queues ≠ s.queues then 1 else 0

/-- How often it does. -/
def discards : Iothr σ → List IoAct → Nat := sumSteps discardAt

end Fstrm
