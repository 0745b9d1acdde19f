import Verif.Model.Iothr

/-!
# How far the I/O thread has come (C130)
-/

set_option autoImplicit false

namespace Fstrm

variable {σ : Type}

/-- Is the I/O thread waiting on its condition variable? -/
def Iothr.asleep (s : Iothr σ) : Bool :=
  match s.pc with
  | .sleep _ => true
  | _ => false

/-- Is the I/O thread about to begin a pass over its queues? -/
def Iothr.passBegins (s : Iothr σ) : Bool :=
  match s.pc with
  | .top => true
  | _ => false

/-- The number of steps of the I/O thread in an execution, not counting those in which it goes on waiting. -/
def ioSteps : Iothr σ → List IoAct → Nat
  | _, [] => 0
  | s, a :: as =>
    match s.step a with
    | .error _ => 0
    | .ok s' => (if Iothr.isIo a && !(s.asleep && s'.asleep) then 1 else 0) + ioSteps s' as

end Fstrm
