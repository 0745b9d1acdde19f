import Verif.Spec.QNet
import Verif.Spec.Pipe

/-! # A program with an I/O thread over queues in memory, over a pipe of limited capacity -/

set_option autoImplicit false

namespace Fstrm.Spec

/-- The program of `QClient.side` when its pipe takes `room` bytes in total. When the pipe is full
the I/O thread blocks in its write call, and the program stands still until there is room. -/
def QClient.pipe (p : QClient) (room : Nat) : Side QEnd := fun y =>
  match Writer.init p.wopt (Rdwr.init (pipeOps room) ⟨y, []⟩) with
  | none => .error (.abort "no writer")
  | some w =>
    match IoQ.init (p.opt.queueImpl p.machine) ENTRY_SIZE p.opt w with
    | none => .error (.abort "no queues")
    | some s => do
      let s1 ← s.run p.before
      let s ← s1.run (.shutdown :: p.after ++ [.finish])
      .ok (⟨s.io, s1.rets, s1.wait, s.rets, s.who, s.cur⟩, s.io.writer.rdwr.obj.out)

end Fstrm.Spec
