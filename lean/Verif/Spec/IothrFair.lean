import Verif.Spec.IothrLog

/-!
# Overtaking (C128)
-/

set_option autoImplicit false

namespace Fstrm

/-- The events before the submission of `e` succeeded. -/
def beforeSubmit (log : List IoEv) (e : Entry) : List IoEv := log.takeWhile (· ≠ .submitted e)

/-- How many payloads of its own queue were ahead of `e` when it was submitted: submitted to that
queue, and neither handed to the writer nor freed so far. -/
def ahead (log : List IoEv) (e : Entry) : Nat :=
  let before := beforeSubmit log e
  ((onQueue e.queue (submits before)).filter fun x => x ∉ handed before ∧ x ∉ frees before).length

end Fstrm
