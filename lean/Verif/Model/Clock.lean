import Verif.Model.IothrOptions

/-!
# Model of the choice of clocks, `/repo/fstrm/time.c`, and of its use in `/repo/fstrm/iothr.c`

Built with `HAVE_CLOCK_GETTIME` and `HAVE_PTHREAD_CONDATTR_SETCLOCK`.
-/

set_option autoImplicit false

namespace Fstrm

/-- The clocks named in time.c:41-72, and the real-time clock. -/
inductive Clock where
  | coarse | raw | fast | monotonic | realtime
  deriving DecidableEq, Repr

/-- The platform: which clocks have a macro, for which `clock_gettime` succeeds, and which ones
`pthread_condattr_setclock` accepts. Used at time.c:31-137. -/
structure ClockEnv where
  known : Clock → Bool
  gettime : Clock → Bool
  setclock : Clock → Bool

/-- `fstrm__get_best_monotonic_clock_pthread`, time.c:30-85. The value of `*c` after a failure is not
used. -/
def bestClockPthread (e : ClockEnv) : Option Clock :=
  if e.known .coarse && e.gettime .coarse && e.setclock .coarse then some .coarse
  else if e.known .raw && e.gettime .raw && e.setclock .raw then some .raw
  else if e.known .fast && e.gettime .fast && e.setclock .fast then some .fast
  else if e.known .monotonic && e.gettime .monotonic && e.setclock .monotonic then some .monotonic
  else none

/-- `fstrm__get_best_monotonic_clock_gettime`, time.c:88-114. -/
def bestClockGettime (e : ClockEnv) : Option Clock :=
  if e.known .coarse && e.gettime .coarse then some .coarse
  else if e.known .raw && e.gettime .raw then some .raw
  else if e.known .fast && e.gettime .fast then some .fast
  else if e.known .monotonic && e.gettime .monotonic then some .monotonic
  else none

/-- `fstrm__get_best_monotonic_clocks`, time.c:116-140, called with both pointers: the clocks
`clkid_gettime` and `clkid_pthread`. -/
def bestClocks (e : ClockEnv) : Option (Clock × Clock) :=
  match bestClockGettime e with
  | none => none
  | some g =>
    match bestClockPthread e with
    | none => none
    | some p => some (g, p)

/-- The clocks of an I/O thread: `reopen` is read for the reopen interval (iothr.c:569), `deadline` for
the deadline of the timed wait (iothr.c:624), and the wait itself goes by `wait` (iothr.c:306). -/
structure IothrClocks where
  reopen : Clock
  deadline : Clock
  wait : Clock
  deriving DecidableEq, Repr

/-- `fstrm_iothr_init`, iothr.c:232-336, with the choice of clocks: lines 275-283 before the input queues
and 304-308 after, where `pthread_condattr_setclock` is asserted to succeed. -/
def iothrInitClocks (opt : Option IothrOptions) (e : ClockEnv) :
    Exec (Option (IothrOptions × List Queue) × Option IothrClocks) := do
  let clocks := bestClocks e
  let r ← iothrInit opt clocks.isSome
  match r, clocks with
  | some r, some (g, p) =>
    if !e.setclock p then .error (.abort "pthread_condattr_setclock")
    else .ok (some r, some ⟨g, p, p⟩)
  | _, _ => .ok (none, none)

/-- A reading of a clock by the I/O thread, iothr.c:569-570 and 624-628: asserted to succeed. -/
def readClock (e : ClockEnv) (c : Clock) : Exec Unit :=
  if e.gettime c then .ok () else .error (.abort "clock_gettime")

end Fstrm
