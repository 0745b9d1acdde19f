import Verif.Spec.History

/-!
# What can be observed of an I/O thread

An execution leaves a log of events. The theorems about the I/O thread are stated about this log.
-/

set_option autoImplicit false

namespace Fstrm

/-- A submitted payload. `id` is a number that tells payloads apart (nothing in the code looks at
it), `queue` the input queue it was submitted to, `hasFree` whether a free function was
given. -/
structure Entry where
  id : Nat
  queue : Nat
  data : Bytes
  hasFree : Bool
  deriving DecidableEq, Repr

/-- Observable events.
* `submitted e`: a submit call put `e` into its queue; it returns success.
* `refused id r`: a submit call for payload number `id` returned `r` instead.
* `signal`: a submit call signalled the condition variable.
* `gotQueue q`: a get_input_queue call returned queue number `q`, or NULL.
* `opn now r`: the I/O thread called fstrm_writer_open at time `now`.
* `write es r`: the I/O thread called fstrm_writer_writev with the payloads `es`.
* `close r`: the I/O thread called fstrm_writer_close.
* `freed e`: the free function was called for `e`.
* `shutdown`: fstrm_iothr_destroy was called. `destroyed`: it returned. -/
inductive IoEv where
  | submitted (e : Entry)
  | refused (id : Nat) (r : Res)
  | signal
  | gotQueue (q : Option Nat)
  | opn (now : Nat) (r : Res)
  | write (es : List Entry) (r : Res)
  | close (r : Res)
  | freed (e : Entry)
  | shutdown
  | destroyed
  deriving DecidableEq, Repr

/-- The payloads whose submission succeeded, in order. -/
def submits : List IoEv → List Entry
  | [] => []
  | .submitted e :: l => e :: submits l
  | _ :: l => submits l

/-- The payloads handed to the writer, in order. -/
def handed : List IoEv → List Entry
  | [] => []
  | .write es _ :: l => es ++ handed l
  | _ :: l => handed l

/-- The payloads for which the free function was called, in order. -/
def frees : List IoEv → List Entry
  | [] => []
  | .freed e :: l => e :: frees l
  | _ :: l => frees l

/-- The numbers of the payloads whose submission was refused. -/
def refusals : List IoEv → List Nat
  | [] => []
  | .refused id _ :: l => id :: refusals l
  | _ :: l => refusals l

/-- The calls on the writer and their results. -/
def calls : List IoEv → List (WOp × Res)
  | [] => []
  | .opn _ r :: l => (.opn, r) :: calls l
  | .write es r :: l => (.writev (es.map Entry.data), r) :: calls l
  | .close r :: l => (.close, r) :: calls l
  | _ :: l => calls l

/-- The times of the attempts to open the writer. -/
def attempts : List IoEv → List Nat
  | [] => []
  | .opn now _ :: l => now :: attempts l
  | _ :: l => attempts l

/-- The results of get_input_queue calls. -/
def gotQueues : List IoEv → List (Option Nat)
  | [] => []
  | .gotQueue q :: l => q :: gotQueues l
  | _ :: l => gotQueues l

/-- The payloads submitted to queue `q`. -/
def onQueue (q : Nat) (es : List Entry) : List Entry := es.filter (·.queue = q)

/-- The events before `fstrm_iothr_destroy` was called. -/
def beforeShutdown (log : List IoEv) : List IoEv := log.takeWhile (· ≠ .shutdown)

/-- The size of the data frames for these payloads: a length word and the payload each. -/
def framedSize (es : List Entry) : Nat := (es.map fun e => 4 + e.data.length).sum

/-- Whether the output is open after these events; the first argument is the state before. -/
def outputOpen : Bool → List IoEv → Bool
  | b, [] => b
  | _, .opn _ r :: l => outputOpen (decide (r = .success)) l
  | _, .close _ :: l => outputOpen false l
  | b, _ :: l => outputOpen b l

/-- Every event satisfies a condition on the events before it. -/
def Each (C : List IoEv → IoEv → Prop) (log : List IoEv) : Prop :=
  ∀ l e rest, log = l ++ e :: rest → C l e

/-- The order of events in the life of a payload (C37): it is freed only after its submission
succeeded and only once; it is handed to the writer only after its submission succeeded, only
once and never after it has been freed. -/
def Orderly (before : List IoEv) : IoEv → Prop
  | .freed e => e ∈ submits before ∧ e ∉ frees before ∧ e.hasFree = true
  | .write es _ => es.Nodup ∧ ∀ e ∈ es, e ∈ submits before ∧ e ∉ frees before ∧ e ∉ handed before
  | .submitted e => ∀ e' ∈ submits before, e'.id ≠ e.id
  | _ => True

end Fstrm
