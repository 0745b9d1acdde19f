import Verif.Model.Clock

/-!
# `fstrm_iothr_init` when the system refuses a mutex, a condition variable or a thread

Models `/repo/fstrm/iothr.c:232-336` and `/repo/libmy/my_queue_mutex.c:65-78` with the results of
the pthread functions, which `Verif.Model.IothrOptions` and `Verif.Model.Clock` take to be 0.
-/

set_option autoImplicit false

namespace Fstrm

/-- What the pthread functions return: true stands for 0. `queueLock i` is about the mutex of the
`i`-th input queue. `pthread_condattr_setclock` is in `ClockEnv`.
Called at iothr.c:302-329 and my_queue_mutex.c:75. -/
structure PthreadEnv where
  queueLock : Nat → Bool
  condattrInit : Bool
  condInit : Bool
  condattrDestroy : Bool
  cvLock : Bool
  getQueueLock : Bool
  create : Bool

/-- `assert`, compiled in or (`ndebug`) not. iothr.c:303-330. -/
def assertC (ndebug : Bool) (ok : Bool) (why : String) : Exec Unit :=
  if ok || ndebug then .ok () else .error (.abort why)

/-- A started I/O thread object, as far as it concerns the caller: whether there is a thread, and
the writer it has taken over. iothr.c:67-115, 324-332. -/
structure Started (ω : Type) where
  opt : IothrOptions
  clocks : IothrClocks
  writer : ω
  thread : Bool
  deriving Repr, DecidableEq

/-- The assertions about the mutexes of the first `n` input queues, my_queue_mutex.c:75-76; the
memory barrier queue has none. -/
def queueLocks (ndebug : Bool) (p : PthreadEnv) : Nat → Exec Unit
  | 0 => .ok ()
  | n + 1 => do
    queueLocks ndebug p n
    assertC ndebug (p.queueLock n) "pthread_mutex_init"

/-- `fstrm_iothr_init`, iothr.c:232-336. `mutexQueues`: the input queues have mutexes
(iothr.c:263-273). The result is the object, if any, and what is left in the caller's variable
`*writer`. Simplification: that a queue size is refused is found for the first queue, before any
mutex. -/
def iothrStart {ω : Type} (ndebug mutexQueues : Bool) (opt : Option IothrOptions) (e : ClockEnv)
    (p : PthreadEnv) (writer : ω) : Exec (Option (Started ω) × Option ω) := do
  let clocks := bestClocks e
  let r ← iothrInit opt clocks.isSome
  match r, clocks with
  | some (o, qs), some (g, c) =>
    queueLocks ndebug p (if mutexQueues then qs.length else 0)
    assertC ndebug p.condattrInit "pthread_condattr_init"
    assertC ndebug (e.setclock c) "pthread_condattr_setclock"
    assertC ndebug p.condInit "pthread_cond_init"
    assertC ndebug p.condattrDestroy "pthread_condattr_destroy"
    assertC ndebug p.cvLock "pthread_mutex_init"
    assertC ndebug p.getQueueLock "pthread_mutex_init"
    assertC ndebug p.create "pthread_create"
    .ok (some ⟨o, ⟨g, c, c⟩, writer, p.create⟩, none)
  | _, _ => .ok (none, some writer)

end Fstrm
