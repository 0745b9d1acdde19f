import Verif.Model.Clock

/-!
# The clocks of the I/O thread in every build, and what they mean for its waits

As `Verif.Model.Clock`, which is about builds with `HAVE_CLOCK_GETTIME` and
`HAVE_PTHREAD_CONDATTR_SETCLOCK` (configure.ac:56), but for builds without one or both.
-/

set_option autoImplicit false

namespace Fstrm

/-- Which functions configure found: `HAVE_CLOCK_GETTIME` and `HAVE_PTHREAD_CONDATTR_SETCLOCK`.
iothr.c:92-96, 275-283, 305-308, 568-573, 622-631. -/
structure Build where
  gettime : Bool
  setclock : Bool
  deriving DecidableEq, Repr

/-- The clocks in use after iothr.c:275-283 and 304-308. Without `clock_gettime` both readings are those of
`gettimeofday` (my_time.h:19-30, iothr.c:572 and 630); without
`pthread_condattr_setclock` the deadline is read from `CLOCK_REALTIME` (iothr.c:626). A condition variable
that was given no clock goes by the real-time clock (POSIX). time.c:116-140 looks for a clock to
wait for only if it can be set (lines 129-137). -/
def buildClocks (b : Build) (e : ClockEnv) : Option IothrClocks :=
  if b.gettime then
    match bestClockGettime e with
    | none => none
    | some g =>
      if b.setclock then
        match bestClockPthread e with
        | none => none
        | some p => some ⟨g, p, p⟩
      else some ⟨g, .realtime, .realtime⟩
  else some ⟨.realtime, .realtime, .realtime⟩

/-- `fstrm_iothr_init`, iothr.c:232-336, with the choice of clocks in the given build. -/
def iothrInitBuild (opt : Option IothrOptions) (b : Build) (e : ClockEnv) :
    Exec (Option (IothrOptions × List Queue) × Option IothrClocks) := do
  let clocks := buildClocks b e
  let r ← iothrInit opt clocks.isSome
  match r, clocks with
  | some r, some c =>
    if b.gettime && b.setclock && !e.setclock c.wait then .error (.abort "pthread_condattr_setclock")
    else .ok (some r, some c)
  | _, _ => .ok (none, none)

/-- A reading of a clock, iothr.c:568-573 and 621-631; `gettimeofday` succeeds. -/
def readClockIn (b : Build) (e : ClockEnv) (c : Clock) : Exec Unit :=
  if b.gettime then readClock e c else .ok ()

/-- Nanoseconds per second. The unit of `ts.tv_nsec`, iothr.c:569, 624. -/
abbrev nsec : Int := 1000000000

/-- What the clocks show, in nanoseconds, at each instant; instants are counted in nanoseconds of elapsed
time. `clock_gettime`, iothr.c:569, 624-626. -/
abbrev Shows := Clock → Int → Int

/-- The deadline computed at the instant `t`, iothr.c:621-632: `ts.tv_sec += flush_timeout`. -/
def waitDeadline (shows : Shows) (c : IothrClocks) (flushTimeout : Nat) (t : Int) : Int :=
  shows c.deadline t + flushTimeout * nsec

/-- `pthread_cond_timedwait`, iothr.c:635, called at the instant `t` with the given deadline and neither
signalled nor ended spuriously, returns `ETIMEDOUT` at the instant `t'`: the first one at which the clock
shows the deadline or more. -/
def TimesOut (shows : Shows) (c : IothrClocks) (deadline t t' : Int) : Prop :=
  t ≤ t' ∧ deadline ≤ shows c.wait t' ∧ ∀ u, t ≤ u → u < t' → shows c.wait u < deadline

/-- `ts.tv_sec`, iothr.c:574: the seconds shown, rounded down. -/
def shownSeconds (shows : Shows) (c : IothrClocks) (t : Int) : Int := shows c.reopen t / nsec

end Fstrm
