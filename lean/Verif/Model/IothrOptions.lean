import Verif.Model.Writer
import Verif.Model.Queue

/-!
# Model of the options and the initialisation of the I/O thread, `/repo/fstrm/iothr.c:27-336`
-/

set_option autoImplicit false

namespace Fstrm

/-- `struct fstrm_iothr_options`, iothr.c:29-38. The fields are C `unsigned`, i.e. below 2^32. -/
structure IothrOptions where
  bufferHint : Nat
  flushTimeout : Nat
  inputQueueSize : Nat
  numInputQueues : Nat
  outputQueueSize : Nat
  notifyThreshold : Nat
  reopenInterval : Nat
  queueModel : Nat
  deriving DecidableEq, Repr

/-- `default_fstrm_iothr_options`, iothr.c:40-49, and `fstrm_iothr_options_init`, iothr.c:117-124;
the values are in iothr.h. Queue model 0 is SPSC, 1 is MPSC. -/
def IothrOptions.init : IothrOptions := ⟨8192, 1, 512, 1, 64, 32, 5, 0⟩

namespace IothrOptions

/-- `fstrm_iothr_options_set_buffer_hint`, iothr.c:133-144. -/
def setBufferHint (o : IothrOptions) (v : Nat) : Res × IothrOptions :=
  if v < 1024 ∨ v > 65536 then (.failure, o) else (.success, { o with bufferHint := v })

/-- `fstrm_iothr_options_set_flush_timeout`, iothr.c:146-157. -/
def setFlushTimeout (o : IothrOptions) (v : Nat) : Res × IothrOptions :=
  if v < 1 ∨ v > 600 then (.failure, o) else (.success, { o with flushTimeout := v })

/-- `fstrm_iothr_options_set_input_queue_size`, iothr.c:159-171. -/
def setInputQueueSize (o : IothrOptions) (v : Nat) : Res × IothrOptions :=
  if v < 2 ∨ v > 16384 ∨ v % 2 ≠ 0 then (.failure, o)
  else (.success, { o with inputQueueSize := v })

/-- `fstrm_iothr_options_set_num_input_queues`, iothr.c:173-181. -/
def setNumInputQueues (o : IothrOptions) (v : Nat) : Res × IothrOptions :=
  if v < 1 then (.failure, o) else (.success, { o with numInputQueues := v })

/-- `fstrm_iothr_options_set_output_queue_size`, iothr.c:183-194. -/
def setOutputQueueSize (o : IothrOptions) (v : Nat) : Res × IothrOptions :=
  if v < 2 ∨ v > IOV_MAX then (.failure, o) else (.success, { o with outputQueueSize := v })

/-- `fstrm_iothr_options_set_queue_model`, iothr.c:196-207. -/
def setQueueModel (o : IothrOptions) (v : Nat) : Res × IothrOptions :=
  if v ≠ 0 ∧ v ≠ 1 then (.failure, o) else (.success, { o with queueModel := v })

/-- `fstrm_iothr_options_set_queue_notify_threshold`, iothr.c:209-217. -/
def setNotifyThreshold (o : IothrOptions) (v : Nat) : Res × IothrOptions :=
  if v < 1 then (.failure, o) else (.success, { o with notifyThreshold := v })

/-- `fstrm_iothr_options_set_reopen_interval`, iothr.c:219-230. -/
def setReopenInterval (o : IothrOptions) (v : Nat) : Res × IothrOptions :=
  if v < 1 ∨ v > 600 then (.failure, o) else (.success, { o with reopenInterval := v })

end IothrOptions

/-- `sizeof(struct fstrm__iothr_queue_entry)`, iothr.c:55-65, on a 64-bit machine. -/
abbrev ENTRY_SIZE : UInt32 := 32

/-- The loop creating the input queues, iothr.c:279-284: `n` queues of the given size; `none` when
one of them is NULL. -/
def makeQueues (size : Nat) : Nat → Option (List Queue)
  | 0 => some []
  | n + 1 =>
    match Queue.init (UInt32.ofNat size) ENTRY_SIZE with
    | none => none
    | some q => (makeQueues size n).map (q :: ·)

/-- `fstrm_iothr_init`, iothr.c:232-336, as far as it can fail: the options in effect and the input
queues. `clocks` is the outcome of `fstrm__get_best_monotonic_clocks`. On failure the
function calls `fstrm_iothr_destroy` (iothr.c:333-335), which joins a thread that was never
created and uses a condition variable that was never initialised (iothr.c:369-371):
undefined behaviour. The pthread initialisation functions are assumed to succeed. -/
def iothrInit (opt : Option IothrOptions) (clocks : Bool) :
    Exec (Option (IothrOptions × List Queue)) :=
  let o := opt.getD IothrOptions.init
  let o := if o.outputQueueSize > IOV_MAX then { o with outputQueueSize := IOV_MAX } else o
  if !clocks then .error (.ub "join of a thread that was never created")
  else
    match makeQueues o.inputQueueSize o.numInputQueues with
    | none => .error (.ub "join of a thread that was never created")
    | some qs => .ok (some (o, qs))

end Fstrm
