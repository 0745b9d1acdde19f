import Verif.Model.IothrSignal
import Verif.Props.IothrThread
import Verif.Props.Signal

/-!
# C116: an I/O thread whose peer is gone does not disturb the program by signals
-/

set_option autoImplicit false

namespace Fstrm.Props

open Iothr
open Spec (CFrame)

theorem destroy_ops {σ : Type} {w : Writer σ} {r : Res} {rw : Rdwr σ} (h : w.destroy = .ok (r, rw)) :
    rw.ops = w.rdwr.ops := by
  unfold Writer.destroy at h
  obtain ⟨⟨r1, w1⟩, h1, h⟩ := Exec.bind_eq_ok.1 h
  have h2 : w1.rdwr.ops = w.rdwr.ops := by
    split at h1
    · exact (close_frame h1).2.1.ops
    · cases h1; rfl
  obtain ⟨⟨r', rw'⟩, h3, h⟩ := Exec.bind_eq_ok.1 h
  cases h
  unfold Rdwr.destroy at h3
  split at h3
  · cases h3; exact h2
  · obtain ⟨⟨r'', obj⟩, _, h3⟩ := Exec.bind_eq_ok.1 h3
    cases h3; exact h2

theorem ops_tr {σ : Type} {ops : Ops σ} {s s' : Iothr σ} (h : s.writer.rdwr.ops = ops) (t : Tr s s') :
    s'.writer.rdwr.ops = ops := by
  cases t with
  | opn now r w _ ho _ e => exact (open_frame e).2.1.ops.trans h
  | cls i r w _ _ _ ho e => exact (close_frame e).2.1.ops.trans h
  | flushOk w _ _ ho _ e => exact (writev_frame e).2.ops.trans h
  | flushFail r r2 w w2 _ _ ho _ e _ e2 => exact (close_frame e2).2.1.ops.trans ((writev_frame e).2.ops.trans h)
  | finish r rdwr _ _ _ e => exact (destroy_ops e).trans h
  | _ => exact h

/-- The threads of the application make no system call for the writer. -/
theorem others_trail {p : Platform} {opt : IothrOptions} {w : Writer FdSock} {as : List IoAct}
    {s s' : Iothr FdSock} {a : IoAct} (hops : w.rdwr.ops = fdSockOps p) (hw : w.state ≠ .opened)
    (h : (Iothr.init opt w).run as = .ok s) (hs : s.step a = .ok s') (ha : isIo a = false) :
    SigIothr.trail s' = SigIothr.trail s := by
  have ho : s.writer.rdwr.ops = fdSockOps p :=
    (run_trs as h).inv (P := fun s => s.writer.rdwr.ops = fdSockOps p) (fun _ _ h t => ops_tr h t) hops
  obtain ⟨h1, h2⟩ := run_confined hw h
  unfold SigIothr.trail
  rcases callbacks_confined opt w as s s' a hw h hs ha with e | ⟨rfl, hx, hd, _⟩
  · rw [e]
  · have hno : s.writer.state ≠ .opened := fun e => by
      have := h2 hx
      rw [h1.2 e] at this
      cases this
    simp only [Iothr.step, finish] at hs
    split at hs
    · obtain ⟨⟨r, rdwr⟩, e1, hs⟩ := Exec.bind_eq_ok.1 hs
      cases hs
      unfold Writer.destroy at e1
      rw [if_neg hno, Exec.ok_bind] at e1
      obtain ⟨⟨r', rdwr'⟩, e2, e1⟩ := Exec.bind_eq_ok.1 e1
      cases e1
      unfold Rdwr.destroy at e2
      rw [ho] at e2
      simp only [freeAll_eq, Iothr.emit]
      cases e2
      rfl
    · cases hs; rfl

/-- What holds throughout. -/
structure SigInv (opt : IothrOptions) (w : Writer FdSock) (s : SigIothr) : Prop where
  run : ∃ as, (Iothr.init opt w).run as = .ok s.io
  mask : s.ready = true → s.blocked = true
  none : s.hits = []

theorem iothr_run_snoc {σ : Type} {a b c : Iothr σ} {as : List IoAct} {x : IoAct} (h : a.run as = .ok b)
    (hx : b.step x = .ok c) : a.run (as ++ [x]) = .ok c := by
  induction as generalizing a with
  | nil => cases h; simp only [List.nil_append, Iothr.run, hx, Exec.ok_bind]
  | cons y as ih =>
    obtain ⟨a1, h1, h⟩ := Exec.bind_eq_ok.1 h
    simp only [List.cons_append, Iothr.run, h1, Exec.ok_bind]
    exact ih h

theorem SigInv.step {p : Platform} {opt : IothrOptions} {w : Writer FdSock} {s s' : SigIothr} {a : SigAct}
    (hops : w.rdwr.ops = fdSockOps p) (hw : w.state ≠ .opened) (h : SigInv opt w s) (e : s.step a = .ok s') :
    SigInv opt w s' := by
  cases a with
  | setup => cases e; exact ⟨h.run, fun _ => rfl, h.none⟩
  | act a =>
    unfold SigIothr.step at e
    simp only at e
    split at e
    · cases e; exact h
    · rename_i hr
      obtain ⟨io, e1, e⟩ := Exec.bind_eq_ok.1 e
      cases e
      obtain ⟨as, h0⟩ := h.run
      refine ⟨⟨as ++ [a], iothr_run_snoc h0 e1⟩, h.mask, ?_⟩
      simp only
      rw [if_neg, h.none]
      intro hh
      simp only [Bool.and_eq_true, Bool.not_eq_true', Bool.and_eq_false_iff] at hh
      cases ha : isIo a with
      | false =>
        have := others_trail hops hw h0 e1 ha
        rw [this] at hh
        simp at hh
      | true =>
        rw [ha] at hr hh
        have hb := h.mask (by simpa using hr)
        rw [hb] at hh
        simp at hh

/-- **C116**: in a program that gives a unix or tcp writer to an I/O thread, no system call that can raise
`SIGPIPE` is ever made by a thread that does not block this signal: on every platform, whatever is called,
whatever the peer and the kernel do, in every schedule and whatever mask the I/O thread starts with. -/
theorem iothr_no_sigpipe (p : Platform) (peers : List Bytes) (reads : List KRead) (sends : List KSend)
    (past : List Nat) (descrs : List (Option Bool)) (opens : List KOpen) (closes : List KClose)
    (uses : List (List Other)) (wopt : Option WriterOptions) (w : Writer FdSock) (opt : IothrOptions)
    (inherited : Bool) (as : List SigAct) (s : SigIothr)
    (hinit : Writer.init wopt (Rdwr.init (fdSockOps p)
      (FdSock.init peers reads sends past descrs opens closes uses)) = some w)
    (h : (SigIothr.init opt w inherited).run as = .ok s) : s.hits = [] := by
  have h3 := init_some hinit
  have hops : w.rdwr.ops = fdSockOps p := by rw [h3.2.2.1]; rfl
  have hw : w.state ≠ .opened := by rw [h3.1]; simp
  have : ∀ (as : List SigAct) (s0 : SigIothr), SigInv opt w s0 → s0.run as = .ok s → SigInv opt w s := by
    intro as
    induction as with
    | nil => intro s0 h0 e; cases e; exact h0
    | cons a as ih =>
      intro s0 h0 e
      obtain ⟨s1, e1, e⟩ := Exec.bind_eq_ok.1 e
      exact ih s1 (h0.step hops hw e1) e
  exact (this as _ ⟨⟨[], rfl⟩, (by intro h; cases h), rfl⟩ h).none

/-- The actions that a sample run consists of: the thread starts, opens the connection, gets two payloads, sends
them, and is destroyed. -/
def sigActs : List SigAct :=
  [.act (.io 100 .timeout), .setup, .act (.io 100 .timeout), .act (.submit 0 0 (some [1, 2]) true), .act (.insert 0),
    .act (.io 100 .timeout), .act (.io 100 .timeout), .act (.io 100 .timeout), .act .shutdown] ++
  List.replicate 6 (.act (.io 100 .timeout)) ++ [.act .finish]

/-- The platform of `sock_sigpipe`, which has neither flag nor option: signals can be raised, by four calls of
this run, but they are blocked. A thread that started to work without setting its mask would not be. -/
example : ((Writer.init none (Rdwr.init (fdSockOps ⟨true, true, false, false⟩)
      (FdSock.init [CFrame.wire ⟨.accept, []⟩ ++ CFrame.wire ⟨.finish, []⟩] [] [] [] [some false] [] [] []))).map fun w =>
      ((SigIothr.init IothrOptions.init w false).run sigActs).map fun s =>
        ((SigIothr.trail s.io).filter Sys.signals).length) = some (.ok 4) ∧
    ((Writer.init none (Rdwr.init (fdSockOps ⟨true, true, false, false⟩)
      (FdSock.init [CFrame.wire ⟨.accept, []⟩ ++ CFrame.wire ⟨.finish, []⟩] [] [] [] [some false] [] [] []))).map fun w =>
      (({ SigIothr.init IothrOptions.init w false with ready := true } : SigIothr).run
        (sigActs.drop 2)).map fun s => s.hits.length) = some (.ok 2) := by
  decide +kernel

end Fstrm.Props
