import Verif.Lemmas.FdSignal
import Verif.Props.Descr

/-!
# C100: writing to a peer that is gone raises no signal
-/

set_option autoImplicit false

namespace Fstrm.Props

open Spec (CFrame)

variable {p : Platform} {peers : List Bytes} {reads : List KRead} {sends : List KSend}
  {past : List Nat} {descrs : List (Option Bool)} {opens : List KOpen} {closes : List KClose}
  {uses : List (List Other)} {wopt : Option WriterOptions} {w w' : Writer FdSock}
  {calls : List WOp} {rs : List Res}

/-- **C100**, `_partial`: on a system that has `MSG_NOSIGNAL` or `SO_NOSIGPIPE`, no system call that a
unix or tcp writer makes can raise `SIGPIPE`, whatever is called on the writer, whatever the kernel
answers and whatever other threads do with their descriptors. On other systems it is false
(`sock_sigpipe`). -/
theorem sock_no_sigpipe_partial
    (hinit : Writer.init wopt (Rdwr.init (fdSockOps p)
      (FdSock.init peers reads sends past descrs opens closes uses)) = some w)
    (hrun : w.run calls = .ok (rs, w'))
    (hp : p.soNosigpipe = true ∨ p.msgNosignal = true) :
    ∀ e ∈ w'.rdwr.obj.proc.trail, Sys.signals e = false := by
  have h3 := (init_some hinit).2.2.1
  refine (fdQuiet_reach (p := p) (run_reach hrun) (by rw [h3]; rfl) ?_).none
  rw [h3]
  exact ⟨init_fdInv, (init_mine _).congr fun i => by simp [Rdwr.init, FdSock.init, Sock.init],
    (fun e (he : e ∈ ([] : List (Sys × Option Descr))) => by cases he), hp⟩

/-- `fstrm_writer_destroy` closes the stream by the same calls: it sends at most as
`fstrm_writer_close` does, and the destroy callback makes no system call. -/
theorem sock_destroy_no_sigpipe_partial {r : Res} {rw : Rdwr FdSock}
    (hinit : Writer.init wopt (Rdwr.init (fdSockOps p)
      (FdSock.init peers reads sends past descrs opens closes uses)) = some w)
    (hrun : w.run calls = .ok (rs, w')) (hd : w'.destroy = .ok (r, rw))
    (hp : p.soNosigpipe = true ∨ p.msgNosignal = true) :
    ∀ e ∈ rw.obj.proc.trail, Sys.signals e = false := by
  obtain ⟨cs, rs', w2, h1, h2⟩ := destroy_run hinit hrun hd
  rw [h2]
  exact sock_no_sigpipe_partial hinit h1 hp

/-- On a system with neither, sending the START frame can raise the signal. -/
theorem sock_sigpipe :
    ((Writer.init none (Rdwr.init (fdSockOps ⟨true, true, false, false⟩)
      (FdSock.init [CFrame.wire ⟨.accept, []⟩] [] [] [] [some false] [] [] []))).map fun w =>
      (w.run [.opn]).map fun x => (x.1, x.2.rdwr.obj.proc.trail.filter Sys.signals)) =
    some (.ok ([.success], List.replicate 2 (.sendmsg false, some ⟨true, true, false⟩))) := by
  decide +kernel

/-- The hypotheses are met, on Linux and on a system with `SO_NOSIGPIPE` only: two attempts to
connect, the first of which fails in `setsockopt` where this is called; a frame is sent, then the
peer is gone. -/
example : [linux, ⟨false, true, true, false⟩].map (fun p =>
    (Writer.init none (Rdwr.init (fdSockOps p)
      (FdSock.init (List.replicate 2 (CFrame.wire ⟨.accept, []⟩)) []
        [.all, .all, .all, .fail] [] [some false]
        [{ sockopt := false }] [] [[.opens true]]))).map fun w =>
      (w.run [.opn, .opn, .write [1, 2, 3], .write [4]]).map fun x =>
        (x.1, (x.2.rdwr.obj.proc.trail.filter fun
          | (.sendmsg _, _) => true
          | _ => false).map (·.1))) =
    [some (.ok ([.success, .success, .success, .failure], List.replicate 4 (.sendmsg true))),
     some (.ok ([.failure, .success, .success, .failure], List.replicate 4 (.sendmsg false)))] := by
  decide +kernel

end Fstrm.Props
