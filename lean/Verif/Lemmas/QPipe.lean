import Verif.Lemmas.IoPipe
import Verif.Lemmas.QFleet
import Verif.Lemmas.QueueIa64Impl
import Verif.Spec.QPipe

/-! The I/O thread with its queues in memory over a pipe of limited capacity. -/

set_option autoImplicit false

namespace Fstrm

open Spec

/-- No access to the queues waits for the transport. -/
structure QImpl.Inert (Q : QImpl) : Prop where
  prod : ∀ s t k, Fstrm.Inert (Q.prod s t k)
  flush : ∀ s b i, Fstrm.Inert (Q.flush s b i)
  cons : ∀ s k, Fstrm.Inert (Q.cons s k)

theorem tso_step_inert (s : Tso) (a : TsoAct) : Inert (s.step a) := by
  have hc : ∀ q st, Inert (Tso.commit q st) := by
    intro q st
    unfold Tso.commit
    split
    · split
      · exact .ok _
      · exact .ub _
    · exact .ok _
    · exact .ok _
  unfold Tso.step
  split
  · split <;> exact .ok _
  · unfold Tso.pstep
    split
    · exact .ok _
    · exact .ok _
    · dsimp only; split <;> exact .ok _
    · exact .ok _
    · dsimp only
      split
      · exact .ub _
      · exact .ok _
  · split
    · exact .ok _
    · exact (hc _ _).bind fun _ => .ok _
  · split <;> exact .ok _
  · unfold Tso.cstep
    split
    · exact .ok _
    · exact .ok _
    · dsimp only; split <;> exact .ok _
    · split <;> exact .ok _
    · dsimp only
      split
      · exact .ub _
      · exact .ok _
    · exact .ok _
  · split
    · exact .ok _
    · exact (hc _ _).bind fun _ => .ok _

theorem mt_step_inert (s : Mt) (a : MtAct) : Inert (s.step a) := by
  unfold Mt.step
  split
  · split <;> exact .ok _
  · split <;> exact .ok _
  · unfold Mt.access
    split <;> try exact .ok _
    · dsimp only; split <;> exact .ok _
    · dsimp only
      split
      · exact .ub _
      · split
        · exact .ok _
        · exact .ub _
    · dsimp only; split <;> exact .ok _
    · dsimp only
      split
      · exact .ub _
      · exact .ok _

theorem ia64_step_inert (s : Ia64) (a : Ia64Act) : Inert (s.step a) := by
  have hc : ∀ q st, Inert (Tso.commit q st) := by
    intro q st
    unfold Tso.commit
    split
    · split
      · exact .ok _
      · exact .ub _
    · exact .ok _
    · exact .ok _
  have hr : ∀ (s : Ia64) tl i buf t todo, Inert (s.readByte tl i buf t todo) := by
    intro s tl i buf t todo
    unfold Ia64.readByte
    dsimp only
    split
    · exact .ub _
    · exact .ok _
  unfold Ia64.step
  split
  · split <;> exact .ok _
  · unfold Ia64.pstep
    split
    · exact .ok _
    · exact .ok _
    · dsimp only; split <;> exact .ok _
    · split <;> exact .ok _
    · dsimp only
      split
      · exact .ub _
      · exact .ok _
    · split <;> exact .ok _
  · split
    · exact .ok _
    · exact (hc _ _).bind fun _ => .ok _
  · split <;> exact .ok _
  · unfold Ia64.cstep
    split
    · exact .ok _
    · exact .ok _
    · dsimp only; split <;> exact .ok _
    · split <;> exact .ok _
    · exact (hr _ _ _ _ _ _).bind fun _ => .ok _
    · exact .ok _
  · unfold Ia64.cearly
    split
    · dsimp only
      split
      · exact .ok _
      · exact (hr _ _ _ _ _ _).bind fun _ => .ok _
    · exact .ok _
  · split
    · exact .ok _
    · exact (hc _ _).bind fun _ => .ok _

theorem queueImpl_inert (o : IothrOptions) (m : Machine) : (o.queueImpl m).Inert := by
  refine queueImpl_cases o m ?_ ?_ ?_
  · refine ⟨fun s t k => ?_, fun s b i => ?_, fun s k => ?_⟩
    · by_cases ht : t = 0
      · rw [show tsoQueue.prod s t k = (Tso.step s (.pstep k) >>= fun s' =>
          (Except.ok (s', (s'.log.drop (Tso.log s).length).flatMap Spec.QEv.out) : Exec (Tso × List QOut)))
          from if_pos ht]
        exact (tso_step_inert _ _).bind fun _ => .ok _
      · rw [show tsoQueue.prod s t k = .ok (s, []) from if_neg ht]
        exact .ok _
    · exact (tso_step_inert _ _).bind fun _ => .ok _
    · exact (tso_step_inert _ _).bind fun _ => .ok _
  · refine ⟨fun s t k => ?_, fun s b i => ?_, fun s k => ?_⟩
    · by_cases ht : t = 0
      · rw [show ia64Queue.prod s t k = (Ia64.step s (.pstep k) >>= fun s' =>
          (Except.ok (s', (s'.log.drop (Ia64.log s).length).flatMap Spec.QEv.out64 ++ Ia64.returns s)
            : Exec (Ia64 × List QOut))) from if_pos ht]
        exact (ia64_step_inert _ _).bind fun _ => .ok _
      · rw [show ia64Queue.prod s t k = .ok (s, []) from if_neg ht]
        exact .ok _
    · exact (ia64_step_inert _ _).bind fun _ => .ok _
    · exact (ia64_step_inert _ _).bind fun _ => .ok _
  · refine ⟨fun s t k => ?_, fun s b i => ?_, fun s k => ?_⟩
    · exact (mt_step_inert _ _).bind fun _ => .ok _
    · exact .ok _
    · exact (mt_step_inert _ _).bind fun _ => .ok _

theorem removeAll_inert : ∀ (n : Nat) (q : Queue), Inert (q.removeAll n)
  | 0, _ => .fuel
  | n + 1, q => by
    unfold Queue.removeAll
    refine Inert.bind ?_ fun r => ?_
    · unfold Queue.remove
      dsimp only
      split
      · refine Inert.bind ?_ fun _ => .ok _
        unfold getBytes
        split
        · exact .ok _
        · exact .ub _
      · exact .ok _
    · obtain ⟨r, n', q⟩ := r
      dsimp only
      split
      · exact .ok _
      · exact (removeAll_inert n q).bind fun _ => .ok _

theorem removeAllOf_inert : ∀ qs : List Queue, Inert (Queue.removeAllOf qs)
  | [] => .ok _
  | q :: qs => (removeAll_inert _ q).bind fun _ => (removeAllOf_inert qs).bind fun _ => .ok _

variable {Q : QImpl}

instance : Pipe (IoQ Chan Q) where
  out s := s.io.writer.rdwr.obj.out
  lim c s := { s with io := Pipe.lim c s.io }
  ok s := s.io.writer.rdwr.ops = chanOps

namespace IoQ

variable {c : Nat}

theorem out_cut (s : IoQ Chan Q) (h : s.io.writer.rdwr.ops = chanOps) (q : Nat) (o : QOut) :
    Cut c s.io.writer.rdwr.obj.out (s.out q o) (IoQ.out (Pipe.lim c s) q o) := by
  cases o with
  | effect t =>
    unfold IoQ.out effect
    dsimp only [Pipe.lim]
    split
    · exact .stuck _ (by simp) _
    · exact .same _ rfl h
  | ins t ok sp =>
    unfold IoQ.out returned
    dsimp only [Pipe.lim]
    split
    · exact .stuck _ (by simp) _
    · split
      · split
        · obtain ⟨wk, e⟩ := Iothr.signal_eq (s.io.emit .signal)
          have e2 : Iothr.signal (Iothr.emit (Pipe.lim c s.io) .signal) =
              Pipe.lim c (Iothr.signal (s.io.emit .signal)) := Iothr.signal_lim (c := c) (s.io.emit .signal)
          have e3 : (Iothr.emit { s.io with writer := { s.io.writer with rdwr := { s.io.writer.rdwr with ops := pipeOps c } } } .signal).signal =
              Pipe.lim c (Iothr.signal (s.io.emit .signal)) := e2
          rw [e3]
          refine Cut.same (α := IoQ Chan Q) _ ?_ ?_
          · show _ = (s.io.emit .signal).signal.writer.rdwr.obj.out
            rw [e]; rfl
          · show (s.io.emit .signal).signal.writer.rdwr.ops = _
            rw [e]; exact h
        · exact .same _ rfl h
      · exact .same _ rfl h

theorem outs_cut (os : List QOut) (s : IoQ Chan Q) (h : s.io.writer.rdwr.ops = chanOps) (q : Nat) :
    Cut c s.io.writer.rdwr.obj.out (s.outs q os) (IoQ.outs (Pipe.lim c s) q os) := by
  induction os generalizing s with
  | nil => exact .same _ rfl h
  | cons o os ih =>
    unfold IoQ.outs
    exact (out_cut s h q o).bind fun s _ h => ih s h

theorem take_cut (hQ : Q.Inert) (s : IoQ Chan Q) (h : s.io.writer.rdwr.ops = chanOps) (i k : Nat) :
    Cut c s.io.writer.rdwr.obj.out (s.take i k) (IoQ.take (Pipe.lim c s) i k) := by
  unfold IoQ.take
  dsimp only [Pipe.lim]
  split
  · exact .stuck _ (by simp) _
  · split
    · exact .same _ rfl h
    · refine Cut.inert (hQ.cons _ _) fun ⟨c', r⟩ _ => ?_
      dsimp only
      split
      · exact .same _ rfl h
      · exact .same _ rfl h
      · split
        · split
          · refine (Iothr.processEntry_cut ({ s.io with queues := s.io.queues.set i _ } : Iothr Chan) h _).bind
              fun io _ h => ?_
            exact .same _ rfl h
          · exact .stuck _ (by simp) _
        · exact .stuck _ (by simp) _

theorem ioStep_cut (hQ : Q.Inert) (s : IoQ Chan Q) (h : s.io.writer.rdwr.ops = chanOps) (now : Nat) (wk : Wake)
    (k : Nat) : Cut c s.io.writer.rdwr.obj.out (s.ioStep now wk k) (IoQ.ioStep (Pipe.lim c s) now wk k) := by
  have hio : Cut c s.io.writer.rdwr.obj.out
      (s.io.ioStep now wk >>= fun io => (Except.ok { s with io := io } : Exec (IoQ Chan Q)))
      (Iothr.ioStep (Pipe.lim c s.io) now wk >>= fun io => .ok { s with io := io }) :=
    (Iothr.ioStep_cut s.io h now wk).bind fun io _ h => .same _ rfl h
  unfold IoQ.ioStep
  dsimp only [Pipe.lim]
  split
  · split
    · refine (take_cut hQ s h _ _).bind fun ⟨r, s⟩ _ h => ?_
      cases r <;> exact .same _ rfl h
    · exact hio
  · split
    · refine (take_cut hQ s h _ _).bind fun ⟨r, s⟩ _ h => ?_
      cases r <;> exact .same _ rfl h
    · exact hio
  · exact hio

theorem step_cut (hQ : Q.Inert) (s : IoQ Chan Q) (h : s.io.writer.rdwr.ops = chanOps) (a : QAct) :
    Cut c s.io.writer.rdwr.obj.out (s.step a) (IoQ.step (Pipe.lim c s) a) := by
  cases a with
  | submit q t raw data f =>
    unfold IoQ.step IoQ.submit
    dsimp only [Pipe.lim]
    split
    · exact .stuck _ (by simp) _
    · split
      · exact .same _ rfl h
      · split
        · exact .same _ rfl h
        · refine (Iothr.step_cut s.io h (.submit s.io.nextId q data f)).bind fun io _ h => ?_
          dsimp only [Pipe.lim]
          split <;> exact .same _ rfl h
  | prod q t k =>
    unfold IoQ.step IoQ.prod
    dsimp only [Pipe.lim]
    split
    · exact .stuck _ (by simp) _
    · split
      · exact .same _ rfl h
      · refine Cut.inert (hQ.prod _ _ _) fun ⟨c', os⟩ _ => ?_
        exact outs_cut os { s with qs := s.qs.set q c' } h q
  | flush q b i =>
    unfold IoQ.step IoQ.flush
    dsimp only [Pipe.lim]
    split
    · exact .same _ rfl h
    · split
      · exact .same _ rfl h
      · refine Cut.inert (hQ.flush _ _ _) fun ⟨c', os⟩ _ => ?_
        exact outs_cut os { s with qs := s.qs.set q c' } h q
  | io now wk k => exact ioStep_cut hQ s h now wk k
  | getQueue => exact (Iothr.step_cut s.io h .getQueue).bind fun io _ h => .same _ rfl h
  | shutdown => exact (Iothr.step_cut s.io h .shutdown).bind fun io _ h => .same _ rfl h
  | finish =>
    unfold IoQ.step IoQ.finish
    dsimp only [Pipe.lim]
    split
    · refine Cut.inert (removeAllOf_inert _) fun xss _ => ?_
      split
      · exact (Iothr.finish_cut s.io h).bind fun io _ h => .same _ rfl h
      · exact .stuck _ (by simp) _
    · exact .same _ rfl h

theorem run_cut (hQ : Q.Inert) (as : List QAct) (s : IoQ Chan Q) (h : s.io.writer.rdwr.ops = chanOps) :
    Cut c s.io.writer.rdwr.obj.out (s.run as) (IoQ.run (Pipe.lim c s) as) := by
  induction as generalizing s with
  | nil => exact .same _ rfl h
  | cons a as ih =>
    unfold IoQ.run
    exact (step_cut hQ s h a).bind fun s _ h => ih s h

end IoQ

instance : Pipe QEnd where
  out e := e.io.writer.rdwr.obj.out
  lim c e := { e with io := Pipe.lim c e.io }
  ok e := e.io.writer.rdwr.ops = chanOps

/-- What the program does over a pipe that takes `c` bytes. -/
theorem qPipe_cut (p : QClient) (c : Nat) (y : Bytes) :
    (∀ e o, p.side y = .ok (e, o) →
      p.pipe c y = if o.length ≤ c then .ok (Pipe.lim c e, o) else .error (.full (o.take c))) ∧
    (∀ o, p.side y = .error (.wait o) →
      p.pipe c y = if o.length ≤ c then .error (.wait o) else .error (.full (o.take c))) := by
  obtain ⟨w, e, -, -, h3, h4, -⟩ := writer_init_chan p.wopt y
  have e' : Writer.init p.wopt (Rdwr.init (pipeOps c) ⟨y, []⟩) = some (Pipe.lim c w) := by
    unfold Writer.init at e ⊢
    rw [if_neg (by simp [Rdwr.init, chanOps])] at e
    rw [if_neg (by simp [Rdwr.init, pipeOps, chanOps])]
    cases e
    rfl
  have hQ := queueImpl_inert p.opt p.machine
  unfold QClient.side QClient.pipe
  rw [e, e']
  dsimp only
  unfold IoQ.init
  cases hi : (p.opt.queueImpl p.machine).create (UInt32.ofNat p.opt.inputQueueSize) ENTRY_SIZE with
  | none =>
    dsimp only [Option.map]
    exact ⟨fun _ _ h => (by cases h), fun _ h => (by cases h)⟩
  | some q0 =>
  dsimp only [Option.map]
  generalize hs0 : (⟨Iothr.init p.opt w, List.replicate p.opt.numInputQueues q0, fun _ => [], fun _ => 0,
    fun _ _ => [], fun _ _ => none, []⟩ : IoQ Chan (p.opt.queueImpl p.machine)) = s0
  have hl : (⟨Iothr.init p.opt (Pipe.lim c w), List.replicate p.opt.numInputQueues q0, fun _ => [], fun _ => 0,
    fun _ _ => [], fun _ _ => none, []⟩ : IoQ Chan (p.opt.queueImpl p.machine)) = Pipe.lim c s0 := by
    subst hs0; rfl
  rw [hl]
  have ho : s0.io.writer.rdwr.obj.out = [] := by subst hs0; exact congrArg Chan.out h4
  have hok : s0.io.writer.rdwr.ops = chanOps := by subst hs0; exact h3
  have hc : Cut c [] (s0.run p.before >>= fun s1 => s1.run (.shutdown :: p.after ++ [.finish]) >>= fun s =>
        (Except.ok (⟨s.io, s1.rets, s1.wait, s.rets, s.who, s.cur⟩ : QEnd) : Exec QEnd))
      (IoQ.run (Pipe.lim c s0) p.before >>= fun s1 => s1.run (.shutdown :: p.after ++ [.finish]) >>= fun s =>
        .ok (⟨s.io, s1.rets, s1.wait, s.rets, s.who, s.cur⟩ : QEnd)) := by
    rw [← ho]
    refine (IoQ.run_cut hQ p.before s0 hok).bind fun s1 _ h1 => ?_
    refine (IoQ.run_cut hQ _ s1 h1).bind fun s _ h => ?_
    exact .same _ rfl h
  constructor
  · intro e o h
    obtain ⟨s1, e1, h⟩ := Exec.bind_eq_ok.1 h
    obtain ⟨s, e2, h⟩ := Exec.bind_eq_ok.1 h
    cases h
    have := hc.ok (Nat.zero_le _) ⟨s.io, s1.rets, s1.wait, s.rets, s.who, s.cur⟩
      (by rw [e1, Exec.ok_bind, e2]; rfl)
    cases hx : IoQ.run (Pipe.lim c s0) p.before with
    | error x =>
      rw [hx] at this
      dsimp only [Pipe.out] at this
      split at this
      · cases this
      · rename_i hn
        rw [if_neg hn]
        cases this; rfl
    | ok t1 =>
      rw [hx, Exec.ok_bind] at this
      rw [Exec.ok_bind]
      cases hy : t1.run (.shutdown :: p.after ++ [.finish]) with
      | error x =>
        rw [hy] at this
        dsimp only [Pipe.out] at this
        split at this
        · cases this
        · rename_i hn
          rw [if_neg hn]
          cases this; rfl
      | ok t =>
        rw [hy, Exec.ok_bind] at this
        rw [Exec.ok_bind]
        dsimp only [Pipe.out] at this
        split at this
        · rename_i hn
          rw [if_pos hn]
          have h5 := Except.ok.inj this
          rw [h5]
          have h6 : t.io = Pipe.lim c s.io := congrArg QEnd.io h5
          rw [h6]
          rfl
        · cases this
  · intro o h
    have hw : (s0.run p.before >>= fun s1 => s1.run (.shutdown :: p.after ++ [.finish]) >>= fun s =>
        (Except.ok (⟨s.io, s1.rets, s1.wait, s.rets, s.who, s.cur⟩ : QEnd) : Exec QEnd)) = .error (.wait o) := by
      cases hx : s0.run p.before with
      | error x => rw [hx] at h; cases h; rfl
      | ok t1 =>
        rw [hx, Exec.ok_bind] at h
        rw [Exec.ok_bind]
        cases hy : t1.run (.shutdown :: p.after ++ [.finish]) with
        | error x => rw [hy] at h; cases h; rfl
        | ok t => rw [hy] at h; cases h
    have := hc.wait (Nat.zero_le _) o hw
    cases hx : IoQ.run (Pipe.lim c s0) p.before with
    | error x =>
      rw [hx] at this
      split at this
      · rename_i hn; rw [if_pos hn]; cases this; rfl
      · rename_i hn; rw [if_neg hn]; cases this; rfl
    | ok t1 =>
      rw [hx, Exec.ok_bind] at this
      rw [Exec.ok_bind]
      cases hy : t1.run (.shutdown :: p.after ++ [.finish]) with
      | error x =>
        rw [hy] at this
        split at this
        · rename_i hn; rw [if_pos hn]; cases this; rfl
        · rename_i hn; rw [if_neg hn]; cases this; rfl
      | ok t =>
        rw [hy] at this
        split at this <;> cases this

end Fstrm
