import Verif.Lemmas.Pipe
import Verif.Lemmas.Iothr
import Verif.Spec.IoPipe

/-! The I/O thread over a pipe of limited capacity. -/

set_option autoImplicit false

namespace Fstrm

instance : Pipe (Iothr Chan) where
  out s := s.writer.rdwr.obj.out
  lim c s := { s with writer := Pipe.lim c s.writer }
  ok s := s.writer.rdwr.ops = chanOps

section
variable {c : Nat}

theorem Rdwr.destroy_cut (rw : Rdwr Chan) (h : rw.ops = chanOps) :
    Cut c rw.obj.out rw.destroy (Rdwr.destroy (Pipe.lim c rw)) := by
  unfold Rdwr.destroy
  rw [h]
  exact .same _ rfl h

theorem Writer.destroy_cut (w : Writer Chan) (h : w.rdwr.ops = chanOps) :
    Cut c w.rdwr.obj.out w.destroy (Writer.destroy (Pipe.lim c w)) := by
  unfold Writer.destroy
  dsimp only [Pipe.lim]
  refine Cut.bind (α := Res × Writer Chan) ?_ fun ⟨res, w⟩ _ h => ?_
  · split
    · exact w.close_cut h
    · exact .same _ rfl h
  · dsimp only [Pipe.lim]
    refine (w.rdwr.destroy_cut h).bind fun ⟨r, rw⟩ _ h => ?_
    exact .same _ rfl h

namespace Iothr

theorem close_cut (s : Iothr Chan) (h : s.writer.rdwr.ops = chanOps) :
    Cut c s.writer.rdwr.obj.out s.close (Iothr.close (Pipe.lim c s)) := by
  unfold Iothr.close
  dsimp only [Pipe.lim]
  split
  · refine (s.writer.close_cut h).bind fun ⟨res, w⟩ _ h => ?_
    exact .same _ rfl h
  · exact .same _ rfl h

theorem freeOutq_lim (s : Iothr Chan) : freeOutq (Pipe.lim c s) = Pipe.lim c s.freeOutq := by
  rw [freeOutq_eq, freeOutq_eq]; rfl

theorem freeOutq_same (s : Iothr Chan) (h : s.writer.rdwr.ops = chanOps) :
    Cut c s.writer.rdwr.obj.out (.ok s.freeOutq) (.ok (freeOutq (Pipe.lim c s))) := by
  rw [freeOutq_lim]
  refine .same _ ?_ ?_ <;> rw [freeOutq_eq]
  · rfl
  · exact h

theorem flush_cut (s : Iothr Chan) (h : s.writer.rdwr.ops = chanOps) :
    Cut c s.writer.rdwr.obj.out s.flush (Iothr.flush (Pipe.lim c s)) := by
  unfold Iothr.flush
  dsimp only [Pipe.lim]
  split
  · refine (s.writer.writev_cut h _).bind fun ⟨res, w⟩ _ h => ?_
    dsimp only [Pipe.lim]
    split
    · refine (close_cut (({ s with writer := w } : Iothr Chan).emit (.write s.outq res)) h).bind
        fun s _ h => ?_
      exact freeOutq_same s h
    · exact freeOutq_same (({ s with writer := w } : Iothr Chan).emit (.write s.outq res)) h
  · exact freeOutq_same s h

theorem maybeFlush_cut (s : Iothr Chan) (h : s.writer.rdwr.ops = chanOps) (n : Nat) :
    Cut c s.writer.rdwr.obj.out (s.maybeFlush n) (Iothr.maybeFlush (Pipe.lim c s) n) := by
  unfold Iothr.maybeFlush
  dsimp only [Pipe.lim]
  split
  · exact .stuck _ (by simp) _
  split
  · exact flush_cut s h
  · exact .same _ rfl h

theorem processEntry_cut (s : Iothr Chan) (h : s.writer.rdwr.ops = chanOps) (e : Entry) :
    Cut c s.writer.rdwr.obj.out (s.processEntry e) (Iothr.processEntry (Pipe.lim c s) e) := by
  unfold Iothr.processEntry
  dsimp only [Pipe.lim]
  split
  · refine (maybeFlush_cut s h _).bind fun s _ h => ?_
    dsimp only [Pipe.lim]
    split
    · exact .stuck _ (by simp) _
    · exact .same _ rfl h
  · rw [freeEntry_eq, freeEntry_eq]
    exact .same _ rfl h

theorem processQueue_cut (s : Iothr Chan) (h : s.writer.rdwr.ops = chanOps) (i : Nat) :
    Cut c s.writer.rdwr.obj.out (s.processQueue i) (Iothr.processQueue (Pipe.lim c s) i) := by
  unfold Iothr.processQueue
  dsimp only [Pipe.lim]
  split
  · refine (processEntry_cut ({ s with queues := s.queues.set i _ } : Iothr Chan) h _).bind
      fun s _ h => ?_
    exact .same _ rfl h
  · exact .same _ rfl h

theorem maybeOpen_cut (s : Iothr Chan) (h : s.writer.rdwr.ops = chanOps) (now : Nat) :
    Cut c s.writer.rdwr.obj.out (s.maybeOpen now) (Iothr.maybeOpen (Pipe.lim c s) now) := by
  unfold Iothr.maybeOpen
  dsimp only [Pipe.lim]
  split
  · exact .same _ rfl h
  split
  · exact .same _ rfl h
  · refine (s.writer.open_cut h).bind fun ⟨res, w⟩ _ h => ?_
    exact .same _ rfl h

theorem ioStep_cut (s : Iothr Chan) (h : s.writer.rdwr.ops = chanOps) (now : Nat) (wake : Wake) :
    Cut c s.writer.rdwr.obj.out (s.ioStep now wake) (Iothr.ioStep (Pipe.lim c s) now wake) := by
  unfold Iothr.ioStep
  dsimp only [Pipe.lim]
  split
  · refine (maybeOpen_cut s h _).bind fun s _ h => ?_
    exact .same _ rfl h
  · split
    · exact .same _ rfl h
    · refine (maybeOpen_cut s h _).bind fun s _ h => ?_
      exact .same _ rfl h
  · split
    · refine (processQueue_cut s h _).bind fun ⟨n, s⟩ _ h => ?_
      exact .same _ rfl h
    · split <;> exact .same _ rfl h
  · split
    · refine (processQueue_cut s h _).bind fun ⟨n, s⟩ _ h => ?_
      exact .same _ rfl h
    · split
      · exact .same _ rfl h
      · refine (flush_cut s h).bind fun s _ h => ?_
        refine (close_cut s h).bind fun s _ h => ?_
        exact .same _ rfl h
  · split
    · split
      · refine (flush_cut s h).bind fun s _ h => ?_
        exact .same _ rfl h
      · exact .same _ rfl h
    · split <;> exact .same _ rfl h
    · exact .same _ rfl h
  · exact .same _ rfl h

theorem signal_lim (s : Iothr Chan) : signal (Pipe.lim c s) = Pipe.lim c s.signal := by
  unfold signal
  dsimp only [Pipe.lim]
  split <;> rfl

theorem signal_same {o : Bytes} (s : Iothr Chan) (ho : o = s.writer.rdwr.obj.out)
    (h : s.writer.rdwr.ops = chanOps) :
    Cut c o (.ok s.signal) (.ok (signal (Pipe.lim c s))) := by
  subst ho
  rw [signal_lim]
  obtain ⟨wk, e⟩ := signal_eq s
  refine .same _ ?_ ?_ <;> rw [e]
  · rfl
  · exact h

theorem finish_cut (s : Iothr Chan) (h : s.writer.rdwr.ops = chanOps) :
    Cut c s.writer.rdwr.obj.out s.finish (Iothr.finish (Pipe.lim c s)) := by
  unfold Iothr.finish
  dsimp only [Pipe.lim]
  split
  · refine (s.writer.destroy_cut h).bind fun ⟨r, rw'⟩ _ h => ?_
    dsimp only [Pipe.lim]
    rw [freeAll_eq, freeAll_eq]
    exact .same _ rfl h
  · exact .same _ rfl h

theorem step_cut (s : Iothr Chan) (h : s.writer.rdwr.ops = chanOps) (a : IoAct) :
    Cut c s.writer.rdwr.obj.out (s.step a) (Iothr.step (Pipe.lim c s) a) := by
  cases a with
  | io now wake => exact ioStep_cut s h now wake
  | finish => exact finish_cut s h
  | submit t q data f =>
    unfold Iothr.step Iothr.submitCheck
    dsimp only [Pipe.lim]
    split
    · exact .stuck _ (by simp) _
    split
    · exact .same _ rfl h
    split
    · exact .same _ rfl h
    split
    · exact .same _ rfl h
    split <;> exact .same _ rfl h
  | insert t =>
    unfold Iothr.step Iothr.submitInsert
    dsimp only [Pipe.lim, emit]
    split
    · exact .same _ rfl h
    split
    · exact .stuck _ (by simp) _
    split
    · exact .same _ rfl h
    split
    · split
      · exact signal_same _ rfl h
      · exact .same _ rfl h
    · exact .same _ rfl h
  | getQueue =>
    unfold Iothr.step Iothr.getQueue
    dsimp only [Pipe.lim]
    split
    · exact .stuck _ (by simp) _
    split <;> exact .same _ rfl h
  | shutdown =>
    unfold Iothr.step Iothr.shutdown
    dsimp only [Pipe.lim]
    split
    · exact .same _ rfl h
    · exact signal_same (({ s with shutting := true } : Iothr Chan).emit .shutdown) rfl h

theorem run_cut (as : List IoAct) (s : Iothr Chan) (h : s.writer.rdwr.ops = chanOps) :
    Cut c s.writer.rdwr.obj.out (s.run as) (Iothr.run (Pipe.lim c s) as) := by
  induction as generalizing s with
  | nil => exact .same _ rfl h
  | cons a as ih =>
    unfold Iothr.run
    exact (step_cut s h a).bind fun s _ h => ih s h

end Iothr

end

end Fstrm
