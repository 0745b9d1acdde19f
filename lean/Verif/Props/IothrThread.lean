import Verif.Props.Iothr

/-!
# C101: the transport is used by the I/O thread only
-/

set_option autoImplicit false

namespace Fstrm.Props

open Iothr

variable {σ : Type}

/-- The I/O thread regards its output as open exactly while the writer is. -/
theorem opened_iff_tr {s s' : Iothr σ} (h : s.opened = true ↔ s.writer.state = .opened)
    (t : Tr s s') : s'.opened = true ↔ s'.writer.state = .opened := by
  cases t with
  | opn now r w _ ho _ e =>
    obtain ⟨_, _, h1, h2⟩ := open_frame e
    by_cases hr : r = .success
    · simp [hr, h1 hr]
    · simp only [hr, decide_false, Bool.false_eq_true, h2 hr, ← h, ho]
  | cls i r w _ _ _ ho e => simp [(close_frame e).2.2.2 (h.1 ho)]
  | flushOk w _ _ ho _ e => simp [ho, (writev_opened (h.1 ho) e).1]
  | flushFail r r2 w w2 _ _ ho _ e _ e2 =>
    simp [(close_frame e2).2.2.2 (writev_opened (h.1 ho) e).1]
  | finish r rdwr => exact h
  | _ => exact h

/-- When the I/O thread has ended its output is closed. -/
theorem exited_tr {s s' : Iothr σ} (h : s.pc = .exited → s.opened = false)
    (t : Tr s s') : s'.pc = .exited → s'.opened = false := by
  cases t with
  | opn now r w hp ho _ e => intro he; simp only at he; rw [he] at hp; rcases hp with hp | hp <;> cases hp
  | cls => intro _; rfl
  | flushOk w _ hp => intro he; exact absurd he hp
  | flushFail => intro _; rfl
  | pc p wk hp =>
    intro he
    simp only at he
    subst he
    cases hp with
    | exit i _ _ _ ho => exact ho
  | _ => exact h

theorem run_confined {opt : IothrOptions} {w : Writer σ} {as : List IoAct} {s : Iothr σ}
    (hw : w.state ≠ .opened) (h : (Iothr.init opt w).run as = .ok s) :
    (s.opened = true ↔ s.writer.state = .opened) ∧ (s.pc = .exited → s.opened = false) := by
  have t := run_trs as h
  constructor
  · exact t.inv (P := fun s => s.opened = true ↔ s.writer.state = .opened)
      (fun _ _ h t => opened_iff_tr h t) (by simp [Iothr.init, hw])
  · exact t.inv (P := fun s => s.pc = .exited → s.opened = false)
      (fun _ _ h t => exited_tr h t) (fun _ => rfl)

theorem signal_writer (s : Iothr σ) : s.signal.writer = s.writer := by
  obtain ⟨wk, h⟩ := signal_eq s
  rw [h]

/-- **C101**: the transport of an I/O thread is used by that thread only: the steps of all other
threads, whatever they call and whenever, leave it and its object alone, with one exception. When
the I/O thread has ended, `fstrm_iothr_destroy` invokes the `destroy` callback, once and no other
callback. (The writer must not be open when it is handed over to `fstrm_iothr_init`.) -/
theorem callbacks_confined (opt : IothrOptions) (w : Writer σ) (as : List IoAct) (s s' : Iothr σ)
    (a : IoAct) (hw : w.state ≠ .opened) (h : (Iothr.init opt w).run as = .ok s)
    (hs : s.step a = .ok s') (ha : isIo a = false) :
    s'.writer.rdwr = s.writer.rdwr ∨
    (a = .finish ∧ s.pc = .exited ∧ s.destroyed = false ∧ s'.destroyed = true ∧
      ∃ r, s'.writer.rdwr.log = s.writer.rdwr.log ++ [.destroy r]) := by
  obtain ⟨h1, h2⟩ := run_confined hw h
  cases a with
  | submit t q data f =>
    left
    simp only [Iothr.step, submitCheck] at hs
    split at hs
    · cases hs
    · split at hs
      · cases hs; rfl
      · split at hs
        · cases hs; rfl
        · split at hs
          · cases hs; rfl
          · split at hs <;> (cases hs; rfl)
  | insert t =>
    left
    simp only [Iothr.step, submitInsert] at hs
    split at hs
    · cases hs; rfl
    · split at hs
      · cases hs
      · split at hs
        · cases hs; rfl
        · split at hs
          · split at hs
            · cases hs
              exact congrArg Writer.rdwr (signal_writer _)
            · cases hs; rfl
          · cases hs; rfl
  | getQueue =>
    left
    simp only [Iothr.step, getQueue] at hs
    split at hs
    · cases hs
    · split at hs <;> (cases hs; rfl)
  | io now wake => cases ha
  | shutdown =>
    left
    simp only [Iothr.step, shutdown] at hs
    split at hs
    · cases hs; rfl
    · cases hs
      exact congrArg Writer.rdwr (signal_writer _)
  | finish =>
    simp only [Iothr.step, finish] at hs
    split at hs
    · rename_i hc
      obtain ⟨⟨r, rdwr⟩, e1, hs⟩ := Exec.bind_eq_ok.1 hs
      cases hs
      have hno : s.writer.state ≠ .opened := fun e => by
        have := h2 hc.2.1
        rw [h1.2 e] at this
        cases this
      unfold Writer.destroy at e1
      rw [if_neg hno, Exec.ok_bind] at e1
      obtain ⟨⟨r', rdwr'⟩, e2, e1⟩ := Exec.bind_eq_ok.1 e1
      cases e1
      unfold Rdwr.destroy at e2
      simp only [freeAll_eq, Iothr.emit]
      split at e2
      · cases e2; exact Or.inl rfl
      · obtain ⟨⟨r'', obj⟩, _, e2⟩ := Exec.bind_eq_ok.1 e2
        cases e2
        exact Or.inr ⟨trivial, hc.2.1, hc.2.2, trivial, _, rfl⟩
    · cases hs; exact Or.inl rfl

/-- After the I/O thread has ended no step of it uses the transport any more, and after
`fstrm_iothr_destroy` has returned no step of any thread does. -/
theorem callbacks_over (opt : IothrOptions) (w : Writer σ) (as : List IoAct) (s s' : Iothr σ)
    (a : IoAct) (hw : w.state ≠ .opened) (h : (Iothr.init opt w).run as = .ok s)
    (hs : s.step a = .ok s')
    (he : (s.pc = .exited ∧ isIo a = true) ∨ s.destroyed = true) :
    s'.writer.rdwr = s.writer.rdwr := by
  have hd : s.destroyed = true → s.pc = .exited := by
    have t := run_trs as h
    refine t.inv (P := fun s => s.destroyed = true → s.pc = .exited) ?_ nofun
    intro s s' h t
    cases t with
    | finish r rdwr _ hp => exact fun _ => hp
    | pc p wk hp =>
      intro hd
      have := h hd
      cases hp <;> simp_all
    | _ => exact h
  cases hio : isIo a with
  | true =>
    have hp : s.pc = .exited := he.elim (·.1) hd
    cases a with
    | io now wake =>
      simp only [Iothr.step, ioStep, hp] at hs
      cases hs; rfl
    | _ => cases hio
  | false =>
    rcases callbacks_confined opt w as s s' a hw h hs hio with h1 | ⟨_, _, h3, _⟩
    · exact h1
    · rcases he with he | he
      · rw [hio] at he; cases he.2
      · rw [h3] at he; cases he

/-- The writer of the demonstration of `Props/Iothr.lean`, over a transport with a `destroy`
callback. -/
def destroyWriter : Writer Spec.Pipe :=
  { pipeWriter with rdwr := { pipeWriter.rdwr with
    ops := { pipeWriter.rdwr.ops with destroy := some fun s => .ok (.success, s) } } }

/-- In the last step of that demonstration `fstrm_iothr_destroy` invokes `destroy`; everything before,
STOP frame and close included, is the work of the I/O thread. -/
example : ((Iothr.init twoQueues destroyWriter).run (demoPre ++ .io 9 .timeout :: demoPost)).map
    (fun s => (s.writer.rdwr.log.getLast?, s.destroyed)) = .ok (some (.destroy .success), true) ∧
    ((Iothr.init twoQueues destroyWriter).run ((demoPre ++ .io 9 .timeout :: demoPost).dropLast)).map
    (fun s => (s.writer.rdwr.log.getLast?, s.pc)) = .ok (some (.cls .success), .exited) ∧
    (demoPre ++ .io 9 .timeout :: demoPost).getLast? = some .finish ∧
    destroyWriter.state ≠ .opened := by decide +kernel

end Fstrm.Props
