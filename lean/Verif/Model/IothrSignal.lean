import Verif.Model.Iothr
import Verif.Model.FdSock

/-!
# The I/O thread's signal mask, `/repo/fstrm/iothr.c:584-601`

A unix or tcp writer in an I/O thread, with the mask of that thread. A signal that a system call
raises is for the thread that makes the call (POSIX, `SIGPIPE`): if that thread blocks it, it stays
pending until the thread ends and has no effect.
-/

set_option autoImplicit false

namespace Fstrm

/-- An I/O thread object and the state of its thread: whether `fstrm__iothr_thr_setup` has been
executed, and whether the thread blocks `SIGPIPE`. `hits` is a ghost field: the steps of threads that do not
block `SIGPIPE` in which a system call was made that can raise it. iothr.c:67-115, 584-601. -/
structure SigIothr where
  io : Iothr FdSock
  ready : Bool
  blocked : Bool
  hits : List IoAct

/-- What can happen: the I/O thread sets its mask, or a step of `Verif.Model.Iothr`.
iothr.c:584-643. -/
inductive SigAct where
  | setup
  | act (a : IoAct)
  deriving DecidableEq, Repr

namespace SigIothr

/-- `fstrm_iothr_init`, iothr.c:328-330. The new thread inherits its mask from the caller (POSIX). -/
def init (opt : IothrOptions) (w : Writer FdSock) (inherited : Bool) : SigIothr :=
  ⟨Iothr.init opt w, false, inherited, []⟩

/-- The system calls made so far. Not in the code. -/
def trail (s : Iothr FdSock) : List (Sys × Option Descr) := s.writer.rdwr.obj.proc.trail

/-- One step. The I/O thread sets its mask (`fstrm__iothr_thr_setup`, iothr.c:584-594) before anything else,
line 601; `pthread_sigmask` is asserted to succeed and fails only for arguments other than these. Other
threads need not block `SIGPIPE`. -/
def step (s : SigIothr) : SigAct → Exec SigIothr
  | .setup => .ok { s with ready := true, blocked := true }
  | .act a =>
    if Iothr.isIo a && !s.ready then .ok s
    else do
      let io ← s.io.step a
      let raised := ((trail io).drop (trail s.io).length).any Sys.signals
      let hit := raised && !(Iothr.isIo a && s.blocked)
      .ok { s with io := io, hits := if hit then s.hits ++ [a] else s.hits }

/-- Steps in the given order. iothr.c:584-643. -/
def run : SigIothr → List SigAct → Exec SigIothr
  | s, [] => .ok s
  | s, a :: as => do
    let s ← s.step a
    s.run as

end SigIothr

end Fstrm
