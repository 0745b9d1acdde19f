import Verif.Model.Capture

/-!
# Termination signals and `fstrm_capture`, `/repo/src/fstrm_capture.c:1184-1282`

`Verif.Model.Capture` takes SIGTERM and SIGINT as events of the loop. They are not: their handler is
called at whatever instruction the process is. Here the positions of `main` are steps of their own and
these signals can come between any two of them. `event_base_loopexit` allocates memory and
changes the lists of the event base; it is not among the functions that may be called while another
one is interrupted that does so too (POSIX, async-signal-safe functions).
-/

set_option autoImplicit false

namespace Fstrm

/-- Where `main` is.
* `starting`: before or in `open_write_file`, lines 1227-1252;
* `opened`: the output is open, the handlers are not installed, lines 1252-1265;
* `waiting`: in `event_base_dispatch`, line 1268, between callbacks;
* `handling a`: in the callbacks for the event `a`;
* `closing`: lines 1273-1276;
* `cleaning`: in `cleanup`, before `event_base_free` has begun, lines 1214-1222;
* `freed`: from then on, lines 1223-1282;
* `ended`: there is no process any more. -/
inductive MainPos where
  | starting | opened | waiting
  | handling (a : CapAct)
  | closing | cleaning | freed | ended
  deriving DecidableEq, Repr

/-- The program: its position, what `Verif.Model.Capture` knows about it once it has started, whether
`event_base_loopexit` was called, and whether a signal has killed it. Lines 100-121, 1227-1282. -/
structure SigCapture where
  pos : MainPos
  cap : Option Capture
  quit : Bool
  killed : Bool

/-- What happens next: `main` goes on; the loop finds an event; SIGTERM or SIGINT comes, `inside` a function that must not be
interrupted by `event_base_loopexit` or not. Lines 1184-1209, 1227-1282. -/
inductive SigCapAct where
  | next
  | event (a : CapAct)
  | term (inside : Bool)
  deriving DecidableEq, Repr

namespace SigCapture

/-- The program is called. Line 1227. -/
def init : SigCapture := ⟨.starting, none, false, false⟩

/-- `main` goes on, lines 1227-1282. `setup_event_loop` and `setup_signals` succeed. -/
def next (args : CapArgs) (env : CapEnv) (s : SigCapture) : Exec SigCapture :=
  match s.pos, s.cap with
  | .starting, _ => do
    let c ← Capture.start args env
    .ok { s with cap := some c, pos := if c.exited.isSome then .ended else .opened }
  | .opened, _ => .ok { s with pos := .waiting }
  | .waiting, _ => .ok (if s.quit then { s with pos := .closing } else s)
  | .handling a, some c => do
    let c ← c.step a
    .ok { s with cap := some c, pos := if c.exited.isSome then .ended else .waiting }
  | .closing, some c => do
    let (ok, c) ← c.closeWriteFile
    if !ok then .ok { s with cap := some (c.exit 1), pos := .ended }
    else .ok { s with cap := some c, pos := .cleaning }
  | .cleaning, _ => .ok { s with pos := .freed }
  | .freed, some c => .ok { s with cap := some (c.exit 0), pos := .ended }
  | _, _ => .ok s

/-- SIGTERM or SIGINT. Before `setup_signals`, lines 1190-1209, their action is to end the process; then
`shutdown_handler` is called, lines 1184-1188, which uses the event base. -/
def signal (s : SigCapture) (inside : Bool) : Exec SigCapture :=
  match s.pos with
  | .ended => .ok s
  | .starting | .opened => .ok { s with pos := .ended, killed := true }
  | .freed => .error (.ub "event_base_loopexit after event_base_free")
  | .waiting | .handling _ | .closing | .cleaning =>
    if inside then .error (.ub "event_base_loopexit in a function it must not interrupt")
    else .ok { s with quit := true }

/-- One step. An event of the loop is anything but `term`, which is not known to libevent.
Lines 1184-1282. -/
def step (args : CapArgs) (env : CapEnv) (s : SigCapture) : SigCapAct → Exec SigCapture
  | .next => s.next args env
  | .event a => if s.pos = .waiting ∧ a ≠ .term then .ok { s with pos := .handling a } else .ok s
  | .term inside => s.signal inside

/-- Steps in the given order. Lines 1184-1282. -/
def run (args : CapArgs) (env : CapEnv) : SigCapture → List SigCapAct → Exec SigCapture
  | s, [] => .ok s
  | s, a :: as => do
    let s ← s.step args env a
    s.run args env as

end SigCapture

end Fstrm
