import Verif.Lemmas.SockIothr
import Verif.Model.IothrQueues

/-! The I/O thread with its queues in memory over a socket. -/

set_option autoImplicit false

namespace Fstrm

variable {Q : QImpl}

/-- The same I/O thread and queues with another writer. -/
@[reducible] def IoQ.over {σ τ : Type} (s : IoQ σ Q) (w : Writer τ) : IoQ τ Q :=
  ⟨s.io.over w, s.qs, s.raw, s.who, s.wait, s.cur, s.rets⟩

/-- The result of the second is the result of the first with its own writer. -/
abbrev QOver (x : IoQ Chan Q) (y : IoQ Sock Q) : Prop :=
  ∃ w, y = x.over w ∧ SockIoInv x.io w

/-- The same while the thread runs. -/
abbrev QLive (x : IoQ Chan Q) (y : IoQ Sock Q) : Prop :=
  ∃ w, y = x.over w ∧ LiveIo x.io w

namespace IoQ

theorem out_live {s : IoQ Chan Q} {w : Writer Sock} (h : SockIoInv s.io w) (q : Nat) (o : QOut) :
    Follows QOver (s.out q o) ((s.over w).out q o) := by
  cases o with
  | effect t =>
    unfold IoQ.out effect
    dsimp only [over]
    split
    · exact .stuck _ _
    · exact .pure ⟨w, rfl, h.of rfl rfl rfl⟩
  | ins t ok sp =>
    unfold IoQ.out returned
    dsimp only [over]
    split
    · exact .stuck _ _
    · split
      · split
        · have e : (Iothr.emit (s.io.over w) .signal).signal = (s.io.emit .signal).signal.over w :=
            Iothr.signal_over (s.io.emit .signal) w
          rw [e]
          obtain ⟨wk, e2⟩ := Iothr.signal_eq (s.io.emit .signal)
          rw [e2]
          exact .pure ⟨w, rfl, h.of rfl rfl rfl⟩
        · exact .pure ⟨w, rfl, h⟩
      · exact .pure ⟨w, rfl, h.of rfl rfl rfl⟩

theorem outs_live (os : List QOut) {s : IoQ Chan Q} {w : Writer Sock} (h : SockIoInv s.io w) (q : Nat) :
    Follows QOver (s.outs q os) ((s.over w).outs q os) := by
  induction os generalizing s w with
  | nil => exact .pure ⟨w, rfl, h⟩
  | cons o os ih =>
    unfold IoQ.outs
    refine (out_live h q o).bind ?_
    rintro s _ ⟨w, rfl, h⟩
    exact ih h

theorem take_live {s : IoQ Chan Q} {w : Writer Sock} (h : LiveIo s.io w) (i k : Nat) :
    Follows (fun x y => x.1 = y.1 ∧ (x.1 = none → x.2.io = s.io) ∧ QLive x.2 y.2) (s.take i k) ((s.over w).take i k) := by
  unfold IoQ.take
  dsimp only [over]
  split
  · exact .stuck _ _
  · split
    · exact .pure ⟨rfl, fun _ => rfl, w, rfl, h⟩
    · refine Follows.both _ fun ⟨c, r⟩ => ?_
      dsimp only
      split
      · exact .pure ⟨rfl, fun _ => rfl, w, rfl, h⟩
      · exact .pure ⟨rfl, fun _ => rfl, w, rfl, h⟩
      · split
        · split
          · refine (Iothr.processEntry_live (s := { s.io with queues := s.io.queues.set i _ }) (w := w)
              ⟨h.live, h.opened⟩ _).bind ?_
            rintro io _ ⟨w, rfl, h⟩
            exact .pure ⟨rfl, fun e => (by cases e), w, rfl, h⟩
          · exact .stuck _ _
        · exact .stuck _ _

theorem ioStep_live {s : IoQ Chan Q} {w : Writer Sock} (h : SockIoInv s.io w) (now : Nat) (wake : Wake) (k : Nat) :
    Follows QOver (s.ioStep now wake k) ((s.over w).ioStep now wake k) := by
  have hio : Follows QOver
      (s.io.ioStep now wake >>= fun io => (Except.ok { s with io := io } : Exec (IoQ Chan Q)))
      ((s.io.over w).ioStep now wake >>= fun io => .ok { s.over w with io := io }) := by
    refine (Iothr.ioStep_live h now wake).bind ?_
    rintro io _ ⟨w, rfl, h⟩
    exact .pure ⟨w, rfl, h⟩
  unfold IoQ.ioStep
  dsimp only [over]
  cases hpc : s.io.pc with
  | work i total =>
    dsimp only
    split
    · refine (take_live (h.1 (by rw [hpc]; simp)) _ _).bind ?_
      rintro ⟨r, s⟩ ⟨_, _⟩ ⟨rfl, hn, w, rfl, h⟩
      cases r with
      | none => exact .pure ⟨w, rfl, fun _ => h, fun e => absurd ((congrArg Iothr.pc (hn rfl)).symm.trans e) (by rw [hpc]; simp)⟩
      | some n => exact .pure ⟨w, rfl, h.inv _ (by simp) s.io.woken⟩
    · exact hio
  | drain i total =>
    dsimp only
    split
    · refine (take_live (h.1 (by rw [hpc]; simp)) _ _).bind ?_
      rintro ⟨r, s⟩ ⟨_, _⟩ ⟨rfl, hn, w, rfl, h⟩
      cases r with
      | none => exact .pure ⟨w, rfl, fun _ => h, fun e => absurd ((congrArg Iothr.pc (hn rfl)).symm.trans e) (by rw [hpc]; simp)⟩
      | some n => exact .pure ⟨w, rfl, h.inv _ (by simp) s.io.woken⟩
    · exact hio
  | start => exact hio
  | top => exact hio
  | sleep d => exact hio
  | exited => exact hio

theorem step_live {s : IoQ Chan Q} {w : Writer Sock} (h : SockIoInv s.io w) (a : QAct) :
    Follows QOver (s.step a) ((s.over w).step a) := by
  have hio : ∀ b : IoAct, Follows QOver
      (s.io.step b >>= fun io => (Except.ok { s with io := io } : Exec (IoQ Chan Q)))
      ((s.io.over w).step b >>= fun io => .ok { s.over w with io := io }) := by
    intro b
    refine (Iothr.step_live h b).bind ?_
    rintro io _ ⟨w, rfl, h⟩
    exact .pure ⟨w, rfl, h⟩
  cases a with
  | submit q t raw data f =>
    unfold IoQ.step IoQ.submit
    dsimp only [over]
    split
    · exact .stuck _ _
    · split
      · exact .pure ⟨w, rfl, h⟩
      · split
        · exact .pure ⟨w, rfl, h⟩
        · refine (Iothr.step_live h (.submit s.io.nextId q data f)).bind ?_
          rintro io _ ⟨w, rfl, h⟩
          dsimp only
          split <;> exact .pure ⟨w, rfl, h⟩
  | prod q t k =>
    unfold IoQ.step IoQ.prod
    dsimp only [over]
    split
    · exact .stuck _ _
    · split
      · exact .pure ⟨w, rfl, h⟩
      · refine Follows.both _ fun ⟨c, os⟩ => ?_
        exact outs_live os (s := { s with qs := s.qs.set q c }) h q
  | flush q b i =>
    unfold IoQ.step IoQ.flush
    dsimp only [over]
    split
    · exact .pure ⟨w, rfl, h⟩
    · split
      · exact .pure ⟨w, rfl, h⟩
      · refine Follows.both _ fun ⟨c, os⟩ => ?_
        exact outs_live os (s := { s with qs := s.qs.set q c }) h q
  | io now wake k => exact ioStep_live h now wake k
  | getQueue => exact hio .getQueue
  | shutdown => exact hio .shutdown
  | finish =>
    unfold IoQ.step IoQ.finish
    dsimp only [over]
    split
    · refine Follows.both _ fun xss => ?_
      split
      · exact hio .finish
      · exact .stuck _ _
    · exact .pure ⟨w, rfl, h⟩

theorem run_live (as : List QAct) {s : IoQ Chan Q} {w : Writer Sock} (h : SockIoInv s.io w) :
    Follows QOver (s.run as) ((s.over w).run as) := by
  induction as generalizing s w with
  | nil => exact .pure ⟨w, rfl, h⟩
  | cons a as ih =>
    unfold IoQ.run
    refine (step_live h a).bind ?_
    rintro s _ ⟨w, rfl, h⟩
    exact ih h

end IoQ

end Fstrm
