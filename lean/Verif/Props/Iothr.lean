import Verif.Lemmas.IothrLive
import Verif.Props.Options
import Verif.Props.File

/-!
# C37–C45: the I/O thread

`Iothr.init opt w` is the state after a successful `fstrm_iothr_init`, `Iothr.run` performs an
arbitrary interleaving of submit calls by any threads, get_input_queue calls, steps of the I/O
thread, and the two parts of `fstrm_iothr_destroy`. The writer `w` and its transport are
arbitrary, so every pattern of failures is covered. What happened is read off the log
(`Spec/IothrLog.lean`).
-/

set_option autoImplicit false

namespace Fstrm.Props

open Iothr Spec

variable {σ : Type}

/-! ## A concrete execution, to show that the hypotheses of the theorems can be met -/

/-- A writer on a pipe that never fails. -/
def pipeWriter : Writer Pipe :=
  (Writer.init (some ⟨[[7]]⟩) (Rdwr.init (pipeOps false true) ⟨[], [], false⟩)).get rfl

/-- Default options with two input queues of size 4. -/
def twoQueues : IothrOptions := { IothrOptions.init with numInputQueues := 2, inputQueueSize := 4 }

/-- Some time of the I/O thread. -/
def ioTimes (n now : Nat) : List IoAct := List.replicate n (.io now .timeout)

/-- Two producers; a submission without a free function; one that is refused because its length
is zero; a wait that times out; destroy, with a racing submission that completes after
it was called. -/
def demoPre : List IoAct :=
  [.getQueue, .submit 0 0 (some [1]) true, .submit 1 1 (some [2, 2]) false, .insert 1, .insert 0]

/-- See `demoPre`. -/
def demoPost : List IoAct :=
  [.getQueue, .getQueue] ++ ioTimes 12 10 ++ [.submit 0 0 (some []) true, .submit 0 0 (some [3]) true] ++
  ioTimes 2 11 ++ [.insert 0, .submit 1 0 (some [4]) true, .insert 1, .submit 2 1 (some [5]) true,
    .shutdown, .insert 2] ++ ioTimes 30 20 ++ [.finish]

/-! ## Invariants hold in every execution -/

theorem trs_invA {opt : IothrOptions} {w : Writer σ} {s : Iothr σ}
    (h : Trs (Iothr.init opt w) s) : InvA s ∧ InvB s :=
  InvAB.trs ⟨.init opt w, .init opt w⟩ h

theorem iothr_invA {opt : IothrOptions} {w : Writer σ} {as : List IoAct} {s : Iothr σ}
    (h : (Iothr.init opt w).run as = .ok s) : InvA s ∧ InvB s := trs_invA (run_trs as h)

theorem trs_invC {opt : IothrOptions} {w : Writer σ} {s : Iothr σ}
    (h : Trs (Iothr.init opt w) s) : InvC w (Iothr.init opt w).opt s :=
  (InvC.init opt w).trs h

theorem iothr_invC {opt : IothrOptions} {w : Writer σ} {as : List IoAct} {s : Iothr σ}
    (h : (Iothr.init opt w).run as = .ok s) : InvC w (Iothr.init opt w).opt s := trs_invC (run_trs as h)

theorem trs_invG {opt : IothrOptions} {w : Writer σ} {s : Iothr σ}
    (h : Trs (Iothr.init opt w) s) : InvG s :=
  (h.inv (P := fun s => InvA s ∧ InvG s) (fun _ _ h t => ⟨h.1.tr t, h.2.tr h.1 t⟩)
    ⟨.init opt w, .init opt w⟩).2

theorem iothr_invG {opt : IothrOptions} {w : Writer σ} {as : List IoAct} {s : Iothr σ}
    (h : (Iothr.init opt w).run as = .ok s) : InvG s := trs_invG (run_trs as h)

/-- `destroyed` in the log means the object has been destroyed. -/
theorem destroyed_of_log {opt : IothrOptions} {w : Writer σ} {s : Iothr σ}
    (h : Trs (Iothr.init opt w) s) (hd : IoEv.destroyed ∈ s.log) : s.destroyed = true := by
  refine h.inv (P := fun s => IoEv.destroyed ∈ s.log → s.destroyed = true) ?_
    (by simp [Iothr.init]) hd
  have nf : ∀ es, IoEv.destroyed ∉ freeEvs es := by
    intro es h; obtain ⟨_, _, _, h⟩ := mem_freeEvs h; cases h
  intro s s' ih t hm
  cases t with
  | inserted t e q wk sig _ _ _ _ hs => rcases hs with rfl | rfl <;> simp_all
  | _ => simp_all

theorem perm_of_counts {a b : List Entry} (h : ∀ e, a.count e = b.count e) : a.Perm b :=
  List.perm_iff_count.2 h

theorem trs_freed {opt : IothrOptions} {w : Writer σ} {s : Iothr σ} (h : Trs (Iothr.init opt w) s) :
    Each Orderly s.log ∧
    ((submits s.log).map Entry.id).Nodup ∧
    (∀ id ∈ refusals s.log, id ∉ (submits s.log).map Entry.id ∧ id ∉ (frees s.log).map Entry.id) ∧
    (IoEv.destroyed ∈ s.log → (frees s.log).Perm ((submits s.log).filter Entry.hasFree)) := by
  obtain ⟨ha, _⟩ := trs_invA h
  have hfs : ∀ e ∈ frees s.log, e ∈ submits s.log := by
    intro e he
    have h1 := ha.cons e (ha.free e he)
    have h2 := List.count_pos_iff.2 he
    exact List.count_pos_iff.1 (by omega)
  refine ⟨ha.ord, ha.ids, ?_, ?_⟩
  · intro id hid
    refine ⟨(ha.ref id hid).2, ?_⟩
    intro hf
    obtain ⟨e, he, rfl⟩ := List.mem_map.1 hf
    exact (ha.ref _ hid).2 (List.mem_map.2 ⟨e, hfs e he, rfl⟩)
  · intro hd
    obtain ⟨hp, hq⟩ := ha.dest (destroyed_of_log h hd)
    refine perm_of_counts fun e => ?_
    cases hf : e.hasFree with
    | true =>
      have := ha.cons e hf
      rw [ha.exit hp, hq] at this
      rw [List.count_filter (by simpa using hf)]
      simpa using this
    | false =>
      rw [List.count_eq_zero.2, List.count_eq_zero.2]
      · simp [hf]
      · intro he; rw [ha.free e he] at hf; cases hf

/-- **C37** In every execution in which `fstrm_iothr_destroy` has returned, the free function has
been called exactly once for each payload with a free function whose submission succeeded, and
for nothing else; in particular not for a payload whose submission was refused. Moreover, in
every execution (whether or not it gets that far), a payload is freed only after its
submission has succeeded, at most once, and is never handed to the writer once it has
been freed (`Orderly`). -/
theorem freed_exactly_once (opt : IothrOptions) (w : Writer σ) (as : List IoAct) (s : Iothr σ)
    (h : (Iothr.init opt w).run as = .ok s) :
    Each Orderly s.log ∧
    ((submits s.log).map Entry.id).Nodup ∧
    (∀ id ∈ refusals s.log, id ∉ (submits s.log).map Entry.id ∧ id ∉ (frees s.log).map Entry.id) ∧
    (IoEv.destroyed ∈ s.log → (frees s.log).Perm ((submits s.log).filter Entry.hasFree)) :=
  trs_freed (run_trs as h)

example : ((Iothr.init twoQueues pipeWriter).run (demoPre ++ .io 9 .timeout :: demoPost)).map
    (fun s => (decide (IoEv.destroyed ∈ s.log), (frees s.log).map Entry.id, (submits s.log).map Entry.id,
      refusals s.log, (handed s.log).map Entry.id)) =
    .ok (true, [0, 3, 5, 4], [1, 0, 3, 4, 5], [2], [0, 1, 3, 5, 4]) := by decide +kernel

theorem trs_order {opt : IothrOptions} {w : Writer σ} {s : Iothr σ} (h : Trs (Iothr.init opt w) s) :
    (∀ q, (onQueue q (handed s.log)).Sublist (onQueue q (submits s.log))) ∧ (handed s.log).Nodup := by
  obtain ⟨ha, hb⟩ := trs_invA h
  constructor
  · intro q
    refine List.Sublist.trans ?_ (hb q)
    unfold lane onQueue
    rw [List.filter_append, List.append_assoc]
    exact List.sublist_append_left _ _
  · refine nodup_iff_count.2 fun e => ?_
    have h1 := ha.held e
    have h2 := count_le_one ha.ids e
    omega

/-- **C38** In every execution, the payloads handed to the writer, restricted to one input queue,
are a subsequence of the payloads successfully submitted to that queue; no payload is handed
over twice. -/
theorem order_preserved (opt : IothrOptions) (w : Writer σ) (as : List IoAct) (s : Iothr σ)
    (h : (Iothr.init opt w).run as = .ok s) :
    (∀ q, (onQueue q (handed s.log)).Sublist (onQueue q (submits s.log))) ∧ (handed s.log).Nodup :=
  trs_order (run_trs as h)

/-! ## No loss -/

/-- The output is open only while the thread is running. -/
theorem opened_running {opt : IothrOptions} {w : Writer σ} {s : Iothr σ}
    (h : Trs (Iothr.init opt w) s) : s.opened = true → s.pc ≠ .exited := by
  refine h.inv (P := fun s => s.opened = true → s.pc ≠ .exited) ?_ (by simp [Iothr.init])
  intro s s' ih t
  cases t with
  | pc p wk hp =>
    intro ho he
    simp only at ho he
    subst he
    cases hp with
    | exit i _ _ _ h => rw [h] at ho; cases ho
  | opn now r w hp => intro _ he; simp only at he; rw [he] at hp; rcases hp with hp | hp <;> cases hp
  | cls => intro h; cases h
  | flushFail => intro h; cases h
  | _ => exact ih

theorem trs_invS {opt : IothrOptions} {w : Writer σ} {s : Iothr σ}
    (h : Trs (Iothr.init opt w) s) : InvS s := by
  refine (h.inv (P := fun s => InvA s ∧ InvS s) (fun _ _ h t => ⟨h.1.tr t, h.2.tr h.1 t⟩)
    ⟨.init opt w, ?_⟩).2
  intro _ q
  simp only [lane, Iothr.init, submits, handed, List.nil_append, onQueue, List.filter_nil]
  rw [List.getElem?_replicate]
  by_cases hc : q < opt.numInputQueues
  · split <;> rfl
  · split <;> rfl

/-- Once the output is open and nothing has been lost so far, nothing is lost. -/
theorem no_loss_from {s0 s : Iothr σ} (ha : InvA s0) (hg : InvG s0) (hd : InvD s0)
    (h : Trs s0 s) : InvA s ∧ InvG s ∧ InvD s :=
  h.inv (P := fun s => InvA s ∧ InvG s ∧ InvD s)
    (fun _ _ h t => ⟨h.1.tr t, h.2.1.tr h.1 t, h.2.2.tr h.1 h.2.1 t⟩) ⟨ha, hg, hd⟩

theorem trs_no_loss {opt : IothrOptions} {w : Writer σ} {s0 s : Iothr σ} (h0 : Trs (Iothr.init opt w) s0)
    (hopen : s0.pc ≠ .start ∧ s0.opened = true ∧ calls s0.log = [(.opn, .success)])
    (hnone : s0.outq = [] ∧ ∀ q, (s0.queues[q]?).getD [] = onQueue q (submits s0.log))
    (h : Trs s0 s) (hok : ∀ c ∈ calls s.log, c.2 = .success) (hexit : s.pc = .exited) :
    (∀ q, onQueue q (submits (beforeShutdown s.log)) <+: onQueue q (handed s.log)) ∧
    ∃ batches : List (List Entry), batches.flatten = handed s.log ∧
      calls s.log = (.opn, .success) :: batches.map (fun es => (.writev (es.map Entry.data), .success)) ++
        [(.close, .success)] := by
  have hh : handed s0.log = [] := by
    have : ∀ l, (∀ c ∈ calls l, c = (WOp.opn, Res.success)) → handed l = [] := by
      intro l
      induction l with
      | nil => intro _; rfl
      | cons e l ih =>
        intro h
        cases e <;> simp only [calls, handed, List.mem_cons, forall_eq_or_imp] at h ⊢ <;>
          first | exact ih h | exact ih h.2 | exact absurd h.1 (by simp)
    exact this _ (by rw [hopen.2.2]; simp)
  have hd : InvD s0 := by
    intro _
    refine ⟨hopen.1, Or.inl ⟨hopen.2.1, opened_running h0 hopen.2.1⟩, ?_, ?_, [], ?_, ?_⟩
    · intro _ q
      unfold lane
      rw [hh, hnone.1, hnone.2]
      simp [onQueue]
    · intro hp; exact absurd hp (opened_running h0 hopen.2.1)
    · simp [hh]
    · rw [hopen.2.1, hopen.2.2]; simp
  obtain ⟨_, _, hd⟩ := no_loss_from (trs_invA h0).1 (trs_invG h0) hd h
  obtain ⟨_, d2, _, d4, ws, d5, d6⟩ := hd hok
  refine ⟨d4 hexit, ws, d5, ?_⟩
  rcases d2 with ⟨_, d2⟩ | ⟨d2, _⟩
  · exact absurd hexit d2
  · rw [d2] at d6
    simpa using d6

/-- **C39** Suppose that at some point of an execution the output has been opened and nothing has
been taken from the queues yet: the queues hold all payloads submitted so far. If no call on the
writer fails until the I/O thread has exited, then every payload whose submission completed
before `fstrm_iothr_destroy` was called has been handed to the writer, in the order of
submission to its queue (and, in each queue, ahead of the later ones); the calls on the
writer are exactly: open, the batches of payloads handed over, close. -/
theorem no_loss (opt : IothrOptions) (w : Writer σ) (pre post : List IoAct) (s0 s : Iothr σ)
    (h0 : (Iothr.init opt w).run pre = .ok s0)
    (hopen : s0.pc ≠ .start ∧ s0.opened = true ∧ calls s0.log = [(.opn, .success)])
    (hnone : s0.outq = [] ∧ ∀ q, (s0.queues[q]?).getD [] = onQueue q (submits s0.log))
    (h : s0.run post = .ok s)
    (hok : ∀ c ∈ calls s.log, c.2 = .success)
    (hexit : s.pc = .exited) :
    (∀ q, onQueue q (submits (beforeShutdown s.log)) <+: onQueue q (handed s.log)) ∧
    ∃ batches : List (List Entry), batches.flatten = handed s.log ∧
      calls s.log = (.opn, .success) :: batches.map (fun es => (.writev (es.map Entry.data), .success)) ++
        [(.close, .success)] :=
  trs_no_loss (run_trs pre h0) hopen hnone (run_trs post h) hok hexit

theorem trs_no_loss_start {opt : IothrOptions} {w : Writer σ} {s2 s3 s : Iothr σ} {now : Nat} {wk : Wake}
    (h3 : Trs (Iothr.init opt w) s2) (hpc : s2.pc = .start) (f2 : s2.opened = false) (f3 : s2.lastOpen = 0)
    (f5 : s2.outq = []) (hh : handed s2.log = []) (f9 : calls s2.log = [])
    (h5 : s2.ioStep now wk = .ok s3) (h2 : Trs s3 s)
    (hnow : opt.reopenInterval ≤ now) (hok : ∀ c ∈ calls s.log, c.2 = .success) (hexit : s.pc = .exited) :
    (∀ q, onQueue q (submits (beforeShutdown s.log)) <+: onQueue q (handed s.log)) ∧
    ∃ batches : List (List Entry), batches.flatten = handed s.log ∧
      calls s.log = (.opn, .success) :: batches.map (fun es => (.writev (es.map Entry.data), .success)) ++
        [(.close, .success)] := by
  have hinv := trs_invS h3 hpc
  have h1 : Trs (Iothr.init opt w) s3 := h3.trans (step_trs (a := .io now wk) h5)
  simp only [ioStep, hpc] at h5
  obtain ⟨s4, h7, h8⟩ := Exec.bind_eq_ok.1 h5
  cases h8
  unfold maybeOpen at h7
  have hro : s2.opt.reopenInterval = opt.reopenInterval := by
    rw [h3.inv (P := fun x => x.opt = (Iothr.init opt w).opt) (fun _ _ h t => t.opt.trans h) rfl]
    simp only [Iothr.init]; split <;> rfl
  rw [if_neg (by rw [f2]; simp), if_neg (by rw [f3, hro]; omega)] at h7
  obtain ⟨⟨r, w'⟩, h9, h7⟩ := Exec.bind_eq_ok.1 h7
  cases h7
  obtain ⟨x, hx⟩ := h2.log
  have hr : r = .success := by
    refine hok (.opn, r) ?_
    rw [hx, calls_append]
    simp [emit, calls_append, calls]
  subst hr
  refine trs_no_loss h1 ?_ ?_ h2 hok hexit
  · refine ⟨by simp, by simp [emit], ?_⟩
    simp only [emit, calls_append, calls]
    rw [f9]; rfl
  · refine ⟨f5, ?_⟩
    intro q
    have := hinv q
    unfold lane at this
    rw [hh, f5] at this
    simp only [emit, submits_append, submits, List.append_nil]
    simpa [onQueue] using this

/-- **C39**, the usual case: the clock shows at least `reopen_interval` when the I/O thread starts
(after any number of steps of clients), and no call on the writer fails. -/
theorem no_loss_start (opt : IothrOptions) (w : Writer σ) (pre post : List IoAct) (now : Nat) (wk : Wake)
    (s : Iothr σ)
    (h : (Iothr.init opt w).run (pre ++ .io now wk :: post) = .ok s)
    (hpre : ∀ a ∈ pre, isIo a = false)
    (hnow : opt.reopenInterval ≤ now)
    (hok : ∀ c ∈ calls s.log, c.2 = .success)
    (hexit : s.pc = .exited) :
    (∀ q, onQueue q (submits (beforeShutdown s.log)) <+: onQueue q (handed s.log)) ∧
    ∃ batches : List (List Entry), batches.flatten = handed s.log ∧
      calls s.log = (.opn, .success) :: batches.map (fun es => (.writev (es.map Entry.data), .success)) ++
        [(.close, .success)] := by
  have hsplit : pre ++ IoAct.io now wk :: post = (pre ++ [.io now wk]) ++ post := by simp
  rw [hsplit] at h
  obtain ⟨s1, h1, h2⟩ := (Iothr.run_append _ _ _ _).1 h
  obtain ⟨s2, h3, h4⟩ := (Iothr.run_append _ _ _ _).1 h1
  obtain ⟨s3, h5, h6⟩ := Exec.bind_eq_ok.1 h4
  cases h6
  obtain ⟨f1, f2, f3, f4, f5, f6, f7, f8, f9⟩ := client_frames pre hpre (by simp [Iothr.init]) h3
  have hpc : s2.pc = .start := f1
  exact trs_no_loss_start (run_trs pre h3) hpc f2 f3 f5 f8 f9 h5 (run_trs post h2) hnow hok hexit

example : ((Iothr.init twoQueues pipeWriter).run (demoPre ++ .io 9 .timeout :: demoPost)).map
    (fun s => (decide (s.pc = .exited), calls s.log,
      (submits (beforeShutdown s.log)).map Entry.id)) =
    .ok (true, [(.opn, .success), (.writev [[1], [2, 2]], .success), (.writev [[3], [5], [4]], .success),
      (.close, .success)], [1, 0, 3, 4]) ∧
    (∀ a ∈ demoPre, isIo a = false) ∧ twoQueues.reopenInterval ≤ 9 := by decide +kernel

/-- What is on the wire: an unidirectional writer's transport has been given exactly one stream
with the payloads handed over. -/
theorem iothr_wire (ops : Ops σ) (obj : σ) (wopt : Option WriterOptions) (opt : IothrOptions)
    (w : Writer σ) (s : Iothr σ) (batches : List (List Entry))
    (huni : ops.rd = none)
    (hinit : Writer.init wopt (Rdwr.init ops obj) = some w)
    (h : Trs (Iothr.init opt w) s)
    (hb : batches.flatten = handed s.log)
    (hcalls : calls s.log = (.opn, .success) ::
      batches.map (fun es => (.writev (es.map Entry.data), .success)) ++ [(.close, .success)]) :
    Spec.wrote s.writer.rdwr.log =
      Spec.stream (optCts wopt).head? ((handed s.log).map Entry.data) := by
  obtain ⟨w', hw, hl, hdst⟩ := (trs_invC h).writer
  obtain ⟨i1, i2, i3, _⟩ := init_some hinit
  have e1 : (calls s.log).map Prod.fst =
      (.opn :: batches.map fun es => WOp.writev (es.map Entry.data)) ++ [.close] := by
    rw [hcalls]; simp [Function.comp_def]
  have e2 : ∀ r ∈ (calls s.log).map Prod.snd, r = .success := by
    rw [hcalls]
    intro r hr
    simp at hr
    rcases hr with hr | ⟨_, hr⟩ | hr
    · exact hr
    · exact hr.symm
    · exact hr
  rw [e1] at hw
  obtain ⟨s1, s2, s3, s4⟩ := session_stream (optCts wopt).head? _ w w' _ [] [] (by rw [i3]; exact huni)
    (by rw [i2]) (by simp) hw e2 (Or.inl ⟨by rw [i1]; simp, by rw [i3]; rfl, rfl⟩)
  have e3 : (WOp.opn :: batches.map fun es => WOp.writev (es.map Entry.data)).flatMap WOp.frames =
      (handed s.log).map Entry.data := by
    rw [← hb]
    simp only [List.flatMap_cons, WOp.frames, List.nil_append, List.flatMap_map, List.map_flatten]
    rfl
  rw [List.nil_append, List.nil_append, e3] at s1
  cases hd : s.destroyed with
  | false => rw [hl hd]; exact s1
  | true =>
    obtain ⟨r, rdwr, hde, hrd⟩ := hdst hd
    rw [hrd, ← s1]
    unfold Writer.destroy at hde
    obtain ⟨⟨r1, w1⟩, hd1, hde⟩ := Exec.bind_eq_ok.1 hde
    obtain ⟨⟨r2, rw2⟩, hd2, hde⟩ := Exec.bind_eq_ok.1 hde
    cases hde
    have : w1 = w' := by
      revert hd1; simp [s2]
      intro _ h; exact h.symm
    subst this
    unfold Rdwr.destroy at hd2
    split at hd2
    · cases hd2; rfl
    · obtain ⟨⟨r3, obj⟩, hd3, hd2⟩ := Exec.bind_eq_ok.1 hd2
      cases hd2
      simp [wrote_append, wrote]

/-- **C39 on the wire** With an unidirectional writer, a clock that has reached `reopen_interval`
when the thread starts and no failing call, everything the transport has been given when the
I/O thread has exited (and later, when destroy has returned) is one complete stream START, data
frames, STOP, whose data frames contain, per queue and in order, all payloads submitted
before destroy was called. -/
theorem iothr_stream (ops : Ops σ) (obj : σ) (wopt : Option WriterOptions) (opt : IothrOptions)
    (w : Writer σ) (pre post : List IoAct) (now : Nat) (wk : Wake) (s : Iothr σ)
    (huni : ops.rd = none)
    (hinit : Writer.init wopt (Rdwr.init ops obj) = some w)
    (h : (Iothr.init opt w).run (pre ++ .io now wk :: post) = .ok s)
    (hpre : ∀ a ∈ pre, isIo a = false)
    (hnow : opt.reopenInterval ≤ now)
    (hok : ∀ c ∈ calls s.log, c.2 = .success)
    (hexit : s.pc = .exited) :
    ∃ es : List Entry, wrote s.writer.rdwr.log = Spec.stream (optCts wopt).head? (es.map Entry.data) ∧
      (∀ q, onQueue q (submits (beforeShutdown s.log)) <+: onQueue q es) ∧
      (∀ q, (onQueue q es).Sublist (onQueue q (submits s.log))) ∧ es.Nodup := by
  obtain ⟨h1, bs, h2, h3⟩ := no_loss_start opt w pre post now wk s h hpre hnow hok hexit
  exact ⟨handed s.log, iothr_wire ops obj wopt opt w s bs huni hinit (run_trs _ h) h2 h3, h1,
    order_preserved opt w _ s h⟩

example : ((Iothr.init twoQueues pipeWriter).run (demoPre ++ .io 9 .timeout :: demoPost)).map
    (fun s => wrote s.writer.rdwr.log) =
    .ok (Spec.stream (some [7]) [[1], [2, 2], [3], [5], [4]]) ∧ (pipeOps false true).rd = none ∧
    Writer.init (some ⟨[[7]]⟩) (Rdwr.init (pipeOps false true) ⟨[], [], false⟩) = some pipeWriter :=
  ⟨by decide +kernel, rfl, rfl⟩

/-! ## Limits -/

theorem reached_limits {o : IothrOptions} (hr : Reached o) :
    1024 ≤ o.bufferHint ∧ o.bufferHint ≤ 65536 ∧ 2 ≤ o.outputQueueSize ∧ o.outputQueueSize ≤ IOV_MAX ∧
    1 ≤ o.numInputQueues ∧ 2 ≤ o.inputQueueSize := by
  induction hr with
  | init => decide
  | set name o v _ ih =>
    cases name <;>
      simp only [setOpt, IothrOptions.setBufferHint, IothrOptions.setFlushTimeout,
        IothrOptions.setInputQueueSize, IothrOptions.setNumInputQueues,
        IothrOptions.setOutputQueueSize, IothrOptions.setQueueModel, IothrOptions.setNotifyThreshold,
        IothrOptions.setReopenInterval] <;>
      split <;> first
        | exact ih
        | (simp only [IOV_MAX] at *; omega)

theorem trs_limits {opt : IothrOptions} (hr : Reached opt) {w : Writer σ} {s : Iothr σ}
    (h : Trs (Iothr.init opt w) s) :
    s.outq.length ≤ opt.outputQueueSize ∧
    ((∀ e ∈ submits s.log, e.data.length < 4294967292) →
      2 ≤ s.outq.length → framedSize s.outq < opt.bufferHint) := by
  have hl := reached_limits hr
  have ho : (Iothr.init opt w).opt = opt := by
    simp only [Iothr.init]
    rw [if_neg (by omega)]
  have hc := trs_invC h
  rw [ho] at hc
  refine ⟨hc.lim, ?_⟩
  have he : InvE s := InvE.trs (by rw [ho]; omega) (.init opt w)
    (by intro _; simp [Iothr.init, framedSize]) h
  intro h1 h2
  have := (he h1).2 h2
  rwa [hc.opts] at this

/-- **C40**, as far as it is true: for options produced by the setters, in every execution the I/O
thread holds at most `output_queue_size` payloads, and if it holds more than one, their
frames take fewer than `buffer_hint` bytes, provided no payload is within 4 bytes of 4 GiB. -/
theorem output_limits_partial (opt : IothrOptions) (hr : Reached opt) (w : Writer σ) (as : List IoAct)
    (s : Iothr σ) (h : (Iothr.init opt w).run as = .ok s) :
    s.outq.length ≤ opt.outputQueueSize ∧
    ((∀ e ∈ submits s.log, e.data.length < 4294967292) →
      2 ≤ s.outq.length → framedSize s.outq < opt.bufferHint) :=
  trs_limits hr (run_trs as h)

example : Reached (setOpt .numInputQueues (setOpt .inputQueueSize IothrOptions.init 4).2 2).2 ∧
    (setOpt .numInputQueues (setOpt .inputQueueSize IothrOptions.init 4).2 2).2 = twoQueues ∧
    ((Iothr.init twoQueues pipeWriter).run (demoPre ++ ioTimes 7 9)).map
      (fun s => (s.outq.map Entry.id, framedSize s.outq)) = .ok ([0, 1], 11) :=
  ⟨.set _ _ _ (.set _ _ _ .init), by decide, by decide +kernel⟩

/-- **C40 is false** for payloads within 4 bytes of 4 GiB: the counter of buffered bytes wraps
around, and the I/O thread keeps buffering, for any writer that opens. -/
theorem output_limits_wrong (w w1 : Writer σ) (hopen : w.open = .ok (.success, w1)) (d : Bytes)
    (hd : d.length = 4294967292) :
    ∃ s, (Iothr.init IothrOptions.init w).run
        [.io 10 .timeout, .io 10 .timeout, .submit 0 0 (some d) false, .insert 0,
         .submit 0 0 (some [1]) false, .insert 0, .io 10 .timeout, .io 10 .timeout, .io 10 .timeout,
         .io 10 .timeout] = .ok s ∧
      s.outq.length = 2 ∧ s.opt.bufferHint < framedSize s.outq := by
  simp [Iothr.run, Iothr.step, Iothr.init, ioStep, maybeOpen, submitCheck, submitInsert, processQueue,
    processEntry, maybeFlush, emit, signal, IothrOptions.init, hopen, hd, framedSize, IOV_MAX, Exec.ok_bind,
    List.replicate]

example : (∃ w1, pipeWriter.open = .ok (.success, w1)) ∧
    (List.replicate 4294967292 (0 : UInt8)).length = 4294967292 :=
  ⟨⟨_, rfl⟩, List.length_replicate⟩

/-! ## Reopening -/

theorem trs_reopen {opt : IothrOptions} {w : Writer σ} {s : Iothr σ} (h : Trs (Iothr.init opt w) s) :
    (attempts s.log).Pairwise (fun a b => a + opt.reopenInterval ≤ b) ∧
    ∀ before now r rest, s.log = before ++ .opn now r :: rest → outputOpen false before = false := by
  have hc := trs_invC h
  have ho : (Iothr.init opt w).opt.reopenInterval = opt.reopenInterval := by
    simp only [Iothr.init]; split <;> rfl
  refine ⟨by rw [← ho]; exact hc.att, ?_⟩
  intro before now r rest hl
  exact hc.closed before (.opn now r) rest hl

/-- **C41** In every execution, two attempts to open the output are at least `reopen_interval`
seconds apart (the list has the times of the attempts in order), and no attempt is made
while the output is open. -/
theorem reopen_rate (opt : IothrOptions) (w : Writer σ) (as : List IoAct) (s : Iothr σ)
    (h : (Iothr.init opt w).run as = .ok s) :
    (attempts s.log).Pairwise (fun a b => a + opt.reopenInterval ≤ b) ∧
    ∀ before now r rest, s.log = before ++ .opn now r :: rest → outputOpen false before = false :=
  trs_reopen (run_trs as h)

/-- A transport on which opening always fails. -/
def deadOps : Ops Pipe := { pipeOps false true with opn := some fun s => .ok (.failure, s) }

/-- A writer on it. -/
def deadWriter : Writer Pipe := (Writer.init none (Rdwr.init deadOps ⟨[], [], false⟩)).get rfl

example : ((Iothr.init twoQueues deadWriter).run (ioTimes 8 9 ++ ioTimes 8 13 ++ ioTimes 8 15 ++ ioTimes 8 19 ++
    ioTimes 8 20)).map (fun s => attempts s.log) = .ok [9, 15, 20] := by decide +kernel

/-- **C42**, as far as it is true: if the clock shows at least `reopen_interval` when the I/O
thread starts, its first step tries to open the output. -/
theorem first_open_partial (opt : IothrOptions) (w : Writer σ) (pre : List IoAct) (now : Nat) (wk : Wake)
    (s : Iothr σ) (hpre : ∀ a ∈ pre, isIo a = false)
    (h : (Iothr.init opt w).run (pre ++ [.io now wk]) = .ok s)
    (hnow : opt.reopenInterval ≤ now) : attempts s.log = [now] := by
  obtain ⟨s2, h3, h4⟩ := (Iothr.run_append _ _ _ _).1 h
  obtain ⟨s3, h5, h6⟩ := Exec.bind_eq_ok.1 h4
  cases h6
  obtain ⟨f1, f2, f3, f4, f5, f6, f7, f8, f9⟩ := client_frames pre hpre (by simp [Iothr.init]) h3
  have hpc : s2.pc = .start := f1
  simp only [step, ioStep, hpc] at h5
  obtain ⟨s4, h7, h8⟩ := Exec.bind_eq_ok.1 h5
  cases h8
  unfold maybeOpen at h7
  have hro : s2.opt.reopenInterval = opt.reopenInterval := by
    rw [f7]; simp only [Iothr.init]; split <;> rfl
  rw [if_neg (by rw [f2]; simp [Iothr.init]), if_neg (by rw [f3, hro]; simp only [Iothr.init]; omega)] at h7
  obtain ⟨⟨r, w'⟩, h9, h7⟩ := Exec.bind_eq_ok.1 h7
  cases h7
  have ha : ∀ l, calls l = [] → attempts l = [] := by
    intro l
    induction l with
    | nil => intro _; rfl
    | cons e l ih => intro h; cases e <;> simp_all [calls, attempts]
  simp only [emit, attempts_append, attempts]
  rw [ha _ f9]; rfl

/-- **C42 is false** when the monotonic clock shows less than `reopen_interval`, as it may soon
after the machine was started: with the default options (5 seconds) and a clock showing 4, the
I/O thread takes and discards a payload without having tried to open the output, whatever
the writer. -/
theorem first_open_wrong (w : Writer σ) :
    ∃ s, (Iothr.init IothrOptions.init w).run
        [.submit 0 0 (some [1]) true, .insert 0, .io 4 .timeout, .io 4 .timeout, .io 4 .timeout] = .ok s ∧
      attempts s.log = [] ∧ submits s.log = [⟨0, 0, [1], true⟩] ∧ frees s.log = [⟨0, 0, [1], true⟩] ∧
      handed s.log = [] := by
  simp [Iothr.run, Iothr.step, Iothr.init, ioStep, maybeOpen, submitCheck, submitInsert, processQueue,
    processEntry, emit, signal, IothrOptions.init, IOV_MAX, Exec.ok_bind, List.replicate,
    freeEntry, attempts, submits, frees, handed]

example : ∃ s, (Iothr.init twoQueues deadWriter).run (demoPre ++ [.io 9 .timeout]) = .ok s ∧
    attempts s.log = [9] := by
  obtain ⟨s, hs⟩ : ∃ s, (Iothr.init twoQueues deadWriter).run (demoPre ++ [.io 9 .timeout]) = .ok s := ⟨_, rfl⟩
  exact ⟨s, hs, first_open_partial _ _ _ _ _ s (by decide) hs (by decide)⟩

/-! ## Queue handles -/

theorem trs_handles {opt : IothrOptions} {w : Writer σ} {s : Iothr σ} (h : Trs (Iothr.init opt w) s) :
    gotQueues s.log = (List.range (gotQueues s.log).length).map
      (fun i => if i < opt.numInputQueues then some i else none) := by
  obtain ⟨k, h1, h2, h3⟩ := (trs_invC h).got
  have ho : (Iothr.init opt w).opt.numInputQueues = opt.numInputQueues := by
    simp only [Iothr.init]; split <;> rfl
  rw [ho] at h2 h3
  have hlen : (gotQueues s.log).length = s.getIdx + k := by rw [h1]; simp
  rw [hlen, h1, List.range_add, List.map_append]
  congr 1
  · refine List.map_congr_left fun i hi => ?_
    rw [if_pos (by have := List.mem_range.1 hi; omega)]
  · rw [List.map_map]
    refine List.ext_getElem (by simp) ?_
    intro i hi _
    simp only [List.length_replicate] at hi
    have := h3 (by omega)
    simp only [List.getElem_replicate, List.getElem_map, List.getElem_range, Function.comp_apply]
    rw [if_neg (by omega)]

/-- **C43** In every execution, whatever the interleaving, the results of the get_input_queue calls
are, in order: queue 0, 1, 2, …, as long as there are queues, and NULL from then on. -/
theorem queue_handles (opt : IothrOptions) (w : Writer σ) (as : List IoAct) (s : Iothr σ)
    (h : (Iothr.init opt w).run as = .ok s) :
    gotQueues s.log = (List.range (gotQueues s.log).length).map
      (fun i => if i < opt.numInputQueues then some i else none) :=
  trs_handles (run_trs as h)

example : ((Iothr.init twoQueues pipeWriter).run (demoPre ++ .io 9 .timeout :: demoPost)).map
    (fun s => gotQueues s.log) = .ok [some 0, some 1, none] := by decide +kernel

/-- **C43**: the handles are pairwise distinct. -/
theorem queue_handles_distinct (opt : IothrOptions) (w : Writer σ) (as : List IoAct) (s : Iothr σ)
    (h : (Iothr.init opt w).run as = .ok s) (i j q : Nat)
    (hi : (gotQueues s.log)[i]? = some (some q)) (hj : (gotQueues s.log)[j]? = some (some q)) : i = j := by
  have hq := queue_handles opt w as s h
  have key : ∀ i, (gotQueues s.log)[i]? = some (some q) → i = q := by
    intro i hi
    rw [hq, List.getElem?_map] at hi
    cases hr : (List.range (gotQueues s.log).length)[i]? with
    | none => rw [hr] at hi; cases hi
    | some k =>
      rw [hr] at hi
      obtain ⟨hk, hk'⟩ := List.getElem?_eq_some_iff.1 hr
      rw [List.getElem_range] at hk'
      subst hk'
      simp only [Option.map_some, Option.some.injEq] at hi
      split at hi
      · simpa using hi
      · cases hi
  rw [key i hi, key j hj]

/-- **C43**: get_input_queue_idx gives the queue with that number, or NULL. -/
theorem queue_handle_idx (opt : IothrOptions) (w : Writer σ) (as : List IoAct) (s : Iothr σ)
    (h : (Iothr.init opt w).run as = .ok s) (idx : Nat) :
    s.getQueueIdx idx = if idx < opt.numInputQueues then some idx else none := by
  have ho : s.opt = _ := (iothr_invC h).opts
  unfold getQueueIdx
  rw [ho]
  simp only [Iothr.init]; split <;> rfl

/-! ## Shutdown -/

/-- **C44** Take any execution in which `fstrm_iothr_destroy` has been called. If from then on only
the I/O thread runs, along any infinite schedule `f` (clock and reason for the end of a wait,
at every step) in which a wait can time out again and again as the clock advances without
bound, then after finitely many steps the I/O thread has exited with an empty output
buffer, and whatever is left in the queues was submitted after destroy was called; if there
were no such submissions, the queues are empty. -/
theorem shutdown_terminates (opt : IothrOptions) (w : Writer σ) (as : List IoAct) (s : Iothr σ)
    (h : (Iothr.init opt w).run as = .ok s) (hshut : IoEv.shutdown ∈ s.log)
    (f : Nat → Nat × Wake)
    (hfair : ∀ N T, ∃ n, N ≤ n ∧ (f n).2 = .timeout ∧ T ≤ (f n).1)
    (hok : ∀ n, ∃ s', s.run (ioActs f n) = .ok s') :
    ∃ n s', s.run (ioActs f n) = .ok s' ∧ s'.pc = .exited ∧ s'.outq = [] ∧
      (∀ e ∈ s'.queues.flatten, e ∉ submits (beforeShutdown s'.log)) ∧
      (submits s'.log = submits (beforeShutdown s'.log) → s'.queues.flatten = []) := by
  obtain ⟨n, s', h1, h2⟩ := exits s f hfair hok s.fuelLeft 0 s rfl ((iothr_invG h).shut.2 hshut)
    (Nat.le_refl _)
  have h' : (Iothr.init opt w).run (as ++ ioActs f n) = .ok s' :=
    (Iothr.run_append _ _ _ _).2 ⟨s, h, h1⟩
  have ha := (iothr_invA h').1
  have hg := (iothr_invG h').exited h2
  refine ⟨n, s', h1, h2, ha.exit h2, hg.2, ?_⟩
  intro heq
  refine List.eq_nil_iff_forall_not_mem.2 fun e he => hg.2 e he ?_
  rw [old, ← heq]
  exact ha.mem_queues he

/-- A fair schedule. -/
def fairSchedule : Nat → Nat × Wake := fun k => (k, .timeout)

example : (∀ N T, ∃ n, N ≤ n ∧ (fairSchedule n).2 = .timeout ∧ T ≤ (fairSchedule n).1) ∧
    ((Iothr.init twoQueues pipeWriter).run (demoPre ++ ioTimes 12 9 ++ [.shutdown])).map
      (fun s => (s.pc, decide (IoEv.shutdown ∈ s.log), s.outq.length)) = .ok (.sleep 10, true, 2) :=
  ⟨fun N T => ⟨N + T, by omega, rfl, by show T ≤ N + T; omega⟩, by decide +kernel⟩

/-! ## Flushing -/

/-- **C45**, as far as it is true: when the I/O thread goes to sleep at time `now` and its wait is
not ended by a signal or spuriously, then the first time it looks at a clock showing at
least `now + flush_timeout`, everything buffered is handed to the writer, provided the
output is open. Meanwhile clients may do anything. -/
theorem flush_after_timeout_partial (s s1 s2 s3 : Iothr σ) (i now now2 : Nat) (wk : Wake) (cl : List IoAct)
    (hpc : s.pc = .work i 0) (hi : s.opt.numInputQueues ≤ i)
    (h1 : s.step (.io now wk) = .ok s1)
    (hcl : ∀ a ∈ cl, isIo a = true → ∃ t, a = .io t .timeout ∧ t < now + s.opt.flushTimeout)
    (h2 : s1.run cl = .ok s2) (h3 : s2.step (.io now2 .timeout) = .ok s3)
    (hnow : now + s.opt.flushTimeout ≤ now2) (ho : s.opened = true) :
    s2.outq = s.outq ∧ handed s3.log = handed s.log ++ s.outq ∧ s3.outq = [] := by
  simp only [step, ioStep, hpc] at h1
  rw [if_neg (by omega), if_neg (by simp)] at h1
  cases h1
  have key : ∀ (cl : List IoAct) (s1 : Iothr σ), s1.pc = .sleep (now + s.opt.flushTimeout) →
      (∀ a ∈ cl, isIo a = true → ∃ t, a = .io t .timeout ∧ t < now + s.opt.flushTimeout) →
      s1.run cl = .ok s2 → s2.pc = s1.pc ∧ s2.outq = s1.outq ∧ s2.opened = s1.opened ∧
        handed s2.log = handed s1.log := by
    intro cl
    induction cl with
    | nil => intro s1 _ _ h; cases h; exact ⟨rfl, rfl, rfl, rfl⟩
    | cons a cl ih =>
      intro s1 hp hcl h
      obtain ⟨s4, h4, h⟩ := Exec.bind_eq_ok.1 h
      have hs4 : s4.pc = s1.pc ∧ s4.outq = s1.outq ∧ s4.opened = s1.opened ∧
          handed s4.log = handed s1.log := by
        cases hio : isIo a with
        | true =>
          obtain ⟨t, rfl, ht⟩ := hcl a (by simp) hio
          simp only [step, ioStep, hp] at h4
          rw [if_neg (by omega)] at h4
          cases h4
          exact ⟨rfl, rfl, rfl, rfl⟩
        | false =>
          obtain ⟨c1, c2, _, _, c5, _, _, c8, _⟩ := client_frame hio (by rw [hp]; simp) h4
          exact ⟨c1, c5, c2, c8⟩
      obtain ⟨i1, i2, i3, i4⟩ := ih s4 (by rw [hs4.1, hp]) (fun a ha => hcl a (by simp [ha])) h
      exact ⟨i1.trans hs4.1, i2.trans hs4.2.1, i3.trans hs4.2.2.1, i4.trans hs4.2.2.2⟩
  obtain ⟨k1, k2, k3, k4⟩ := key cl _ rfl hcl h2
  simp only at k1 k2 k3 k4
  refine ⟨k2, ?_⟩
  simp only [step, ioStep, k1] at h3
  rw [if_pos hnow] at h3
  obtain ⟨s4, h4, h3⟩ := Exec.bind_eq_ok.1 h3
  cases h3
  simp only
  rw [← k2, ← k4]
  unfold Iothr.flush at h4
  split at h4
  · obtain ⟨⟨r, w⟩, h5, h4⟩ := Exec.bind_eq_ok.1 h4
    simp only at h4
    split at h4
    · obtain ⟨s5, h6, h4⟩ := Exec.bind_eq_ok.1 h4
      cases h4
      rw [freeOutq_eq]
      rcases close_ok h6 with ⟨_, rfl⟩ | ⟨_, _, _, _, rfl⟩ <;>
        simp [emit, handed_append, handed, handed_freeEvs]
    · cases h4
      rw [freeOutq_eq]
      simp [emit, handed_append, handed, handed_freeEvs]
  · rename_i hn
    have hq : s2.outq = [] := by
      cases hq : s2.outq with
      | nil => rfl
      | cons => exact absurd ⟨by rw [k3, ho], by simp [hq]⟩ hn
    cases h4
    rw [freeOutq_eq]
    simp [hq, handed_append, handed_freeEvs]

example : ∃ s s1 s2 s3 : Iothr Pipe,
    (Iothr.init twoQueues pipeWriter).run (demoPre ++ ioTimes 8 9) = .ok s ∧
    s.pc = .work 2 0 ∧ s.opened = true ∧ s.outq.map Entry.id = [0, 1] ∧
    s.step (.io 9 .timeout) = .ok s1 ∧
    s1.run [.submit 0 0 (some [3]) true, .io 9 .timeout, .insert 0] = .ok s2 ∧
    s2.step (.io 10 .timeout) = .ok s3 ∧ (handed s3.log).map Entry.id = [0, 1] :=
  ⟨_, _, _, _, rfl, rfl, rfl, rfl, rfl, rfl, rfl, rfl⟩

/-- Options for `flush_timeout_wrong`: a small queue that notifies for every payload put into an
empty queue. -/
def eager : IothrOptions :=
  (setOpt .flushTimeout (setOpt .notifyThreshold (setOpt .inputQueueSize IothrOptions.init 64).2 62).2 2).2

/-- A payload is submitted at second 10 and then one more every second, for `k` seconds. Whenever
the I/O thread waits, it is woken by the producer's signal before its wait times out. -/
def trickle : Nat → List IoAct
  | 0 => [.io 10 .timeout, .io 10 .timeout, .submit 0 0 (some [0]) false, .insert 0] ++ ioTimes 5 10
  | k + 1 => trickle k ++ [.submit 0 0 (some [0]) false, .insert 0, .io (11 + k) .signal] ++ ioTimes 6 (11 + k)

/-- The clock readings in an execution. -/
def clocks : List IoAct → List Nat
  | [] => []
  | .io now _ :: as => now :: clocks as
  | _ :: as => clocks as

/-- **C45 is false**: with `flush_timeout` 2, a payload taken from the queue and buffered at second
10, over an output that is open all the time and never fails, has still not been handed to
the writer at second 50. Each wait ends by a signal, so `flush_timeout` never expires. -/
theorem flush_timeout_wrong :
    Reached eager ∧ eager.flushTimeout = 2 ∧
    ((Iothr.init eager pipeWriter).run (trickle 0)).map (fun s => (s.opened, s.outq)) =
      .ok (true, [⟨0, 0, [0], false⟩]) ∧ (∀ t ∈ clocks (trickle 0), t = 10) ∧
    ((Iothr.init eager pipeWriter).run (trickle 40)).map
      (fun s => (s.opened, handed s.log, s.outq.head?, s.outq.length)) =
      .ok (true, [], some ⟨0, 0, [0], false⟩, 41) ∧
    (clocks (trickle 40)).getLast? = some 50 ∧ (clocks (trickle 40)).Pairwise (· ≤ ·) :=
  ⟨.set _ _ _ (.set _ _ _ (.set _ _ _ .init)), by decide, by decide +kernel, by decide +kernel,
    by decide +kernel, by decide +kernel, by decide +kernel⟩

/-! ## Absence of undefined behaviour -/

/-- **C40**, last part: over a transport whose callbacks respect their contracts, no execution in
which clients stop using the object before destroy returns aborts, runs into an
out-of-bounds access or any other undefined behaviour. -/
theorem iothr_safe (ops : Ops σ) (I : σ → Prop) (hw : Spec.WellBehaved ops I) (hp : Spec.Preserves ops I)
    (hz : Spec.NoZeroPair ops I) (obj : σ) (hI : I obj) (wopt : Option WriterOptions)
    (opt : IothrOptions) (hr : Reached opt) (w : Writer σ)
    (hinit : Writer.init wopt (Rdwr.init ops obj) = some w)
    (as : List IoAct) (has : IoAct.finish ∉ as) :
    ∃ s, (Iothr.init opt w).run as = .ok s ∧ ∃ s', s.step .finish = .ok s' := by
  obtain ⟨_, _, h3, _⟩ := init_some hinit
  have hl := reached_limits hr
  have ho : (Iothr.init opt w).opt = opt := by
    simp only [Iothr.init]
    rw [if_neg (by omega)]
  have hg : Good ops I w.rdwr := ⟨by rw [h3]; rfl, by rw [h3]; exact hI⟩
  have hf : Iothr.Fine ops I (Iothr.init opt w) :=
    ⟨hg, by simp [Iothr.init], by rw [ho]; omega, by rw [ho]; exact hl.2.2.2.1, rfl⟩
  rcases hf.run (b := false) hw hp hz as has with ⟨s, h1, h2⟩ | ⟨h, _⟩
  · refine ⟨s, h1, ?_⟩
    rcases h2.finish (b := false) hw hp hz with ⟨s', h3, _⟩ | ⟨h, _⟩
    · exact ⟨s', h3⟩
    · cases h
  · cases h

example : WellBehaved (pipeOps false true) (fun _ => True) ∧
    Preserves (pipeOps false true) (fun _ => True) ∧ NoZeroPair (pipeOps false true) (fun _ => True) ∧
    Reached twoQueues ∧ IoAct.finish ∉ demoPre ++ .io 9 .timeout :: demoPost.dropLast :=
  ⟨pipe_wellBehaved _ _ _, pipe_preserves _ _ (fun _ => True) (fun _ _ _ => trivial),
    (fun f hf => by cases hf), .set .numInputQueues _ 2 (.set .inputQueueSize _ 4 .init), by decide +kernel⟩

/-- **C44** over a transport whose callbacks respect their contracts: the assumption that the steps
do not fail is not needed. -/
theorem shutdown_terminates_safe (ops : Ops σ) (I : σ → Prop) (hw : Spec.WellBehaved ops I)
    (hp : Spec.Preserves ops I) (hz : Spec.NoZeroPair ops I) (obj : σ) (hI : I obj)
    (wopt : Option WriterOptions) (opt : IothrOptions) (hr : Reached opt) (w : Writer σ)
    (hinit : Writer.init wopt (Rdwr.init ops obj) = some w)
    (as : List IoAct) (has : IoAct.finish ∉ as) (hsh : IoAct.shutdown ∈ as)
    (f : Nat → Nat × Wake)
    (hfair : ∀ N T, ∃ n, N ≤ n ∧ (f n).2 = .timeout ∧ T ≤ (f n).1) :
    ∃ n s, (Iothr.init opt w).run (as ++ ioActs f n) = .ok s ∧ s.pc = .exited ∧ s.outq = [] ∧
      (∀ e ∈ s.queues.flatten, e ∉ submits (beforeShutdown s.log)) ∧
      ∃ s', s.step .finish = .ok s' ∧ IoEv.destroyed ∈ s'.log := by
  have safe := fun as has => iothr_safe ops I hw hp hz obj hI wopt opt hr w hinit as has
  have nofin : ∀ n, IoAct.finish ∉ as ++ ioActs f n := by
    intro n hm
    rcases List.mem_append.1 hm with hm | hm
    · exact has hm
    · obtain ⟨_, _, hm⟩ := List.mem_map.1 hm; cases hm
  obtain ⟨s, h1, _⟩ := safe as has
  have hshut : IoEv.shutdown ∈ s.log := by
    obtain ⟨a, b, rfl⟩ := List.append_of_mem hsh
    obtain ⟨s1, h2, h3⟩ := (Iothr.run_append _ _ _ _).1 h1
    obtain ⟨s2, h4, h5⟩ := Exec.bind_eq_ok.1 h3
    obtain ⟨x, hx⟩ := (run_trs b h5).log
    rw [hx]
    refine List.mem_append_left _ ?_
    simp only [step, shutdown] at h4
    split at h4
    · rename_i hs
      cases h4
      exact (iothr_invG h2).shut.1 hs
    · cases h4
      obtain ⟨wk, hwk⟩ := signal_eq (({ s1 with shutting := true }.emit .shutdown))
      rw [hwk]; simp [emit]
  obtain ⟨n, s', h2, h3, h4, h5, _⟩ := shutdown_terminates opt w as s h1 hshut f hfair (by
    intro n
    obtain ⟨s', h2, _⟩ := safe _ (nofin n)
    obtain ⟨s1, h3, h4⟩ := (Iothr.run_append _ _ _ _).1 h2
    rw [h1] at h3; cases h3
    exact ⟨s', h4⟩)
  have h6 : (Iothr.init opt w).run (as ++ ioActs f n) = .ok s' := (Iothr.run_append _ _ _ _).2 ⟨s, h1, h2⟩
  refine ⟨n, s', h6, h3, h4, h5, ?_⟩
  obtain ⟨s1, h7, s2, h8⟩ := safe _ (nofin n)
  rw [h6] at h7; cases h7
  refine ⟨s2, h8, ?_⟩
  have hd : s'.destroyed = false := by
    obtain ⟨_, _, h9, _⟩ := init_some hinit
    have hl := reached_limits hr
    have ho : (Iothr.init opt w).opt = opt := by
      simp only [Iothr.init]
      rw [if_neg (by omega)]
    have hg : Good ops I w.rdwr := ⟨by rw [h9]; rfl, by rw [h9]; exact hI⟩
    have hf : Iothr.Fine ops I (Iothr.init opt w) :=
      ⟨hg, by simp [Iothr.init], by rw [ho]; omega,
        by rw [ho]; exact hl.2.2.2.1, rfl⟩
    rcases hf.run (b := false) hw hp hz _ (nofin n) with ⟨s3, h1, h2⟩ | ⟨h, _⟩
    · rw [h6] at h1; cases h1; exact h2.alive
    · cases h
  simp only [step, finish] at h8
  rw [if_pos ⟨(iothr_invG h6).exited h3 |>.1, h3, hd⟩] at h8
  obtain ⟨⟨r, rdwr⟩, _, h8⟩ := Exec.bind_eq_ok.1 h8
  cases h8
  simp [emit]

/-! ## From the I/O thread to a file and back -/

theorem nodup_length_le {a b : List Entry} (hn : a.Nodup) (hs : ∀ e ∈ a, e ∈ b) : a.length ≤ b.length := by
  induction a generalizing b with
  | nil => simp
  | cons e a ih =>
    rw [List.nodup_cons] at hn
    have he : e ∈ b := hs e (by simp)
    have := ih (b := b.erase e) hn.2 (by
      intro x hx
      rw [List.mem_erase_of_ne (by rintro rfl; exact hn.1 hx)]
      exact hs x (by simp [hx]))
    rw [List.length_erase_of_mem he] at this
    have := List.length_pos_of_mem he
    simp only [List.length_cons]; omega

/-- **C64** An I/O thread writing to a file, with no failing call and a clock that has reached
`reopen_interval` when the thread starts. When destroy has returned, a reader of the file
delivers a list of payloads which contains, per queue and in order, all payloads submitted
before destroy was called, no payload that was not submitted and none twice, and then
reports the end of the stream. -/
theorem iothr_file_round_trip (w : Writer FileSt) (wopt : Option WriterOptions) (disk : Option Bytes)
    (script : List Io) (opt : IothrOptions) (pre post : List IoAct) (now : Nat) (wk : Wake)
    (s : Iothr FileSt)
    (hinit : fileWriterInit .file wopt disk script = some w)
    (hct : ∀ c ∈ optCts wopt, c.length ≤ 256)
    (h : (Iothr.init opt w).run (pre ++ .io now wk :: post) = .ok s)
    (hpre : ∀ a ∈ pre, isIo a = false) (hnow : opt.reopenInterval ≤ now)
    (hok : ∀ c ∈ calls s.log, c.2 = .success)
    (hdone : IoEv.destroyed ∈ s.log)
    (ropt : Option ReaderOptions) (r : Reader FileSt) (fuel n : Nat)
    (hrinit : fileReaderInit .file ropt s.writer.rdwr.obj.disk [] = some r)
    (hcompat : compatible (optR ropt).cts (optCts wopt).head?.toList)
    (hmax : ∀ e ∈ submits s.log, e.data.length ≤ (optR ropt).maxFrameSize ∧ e.data.length < 2 ^ 32)
    (hfuel : (submits s.log).length + 1 ≤ fuel) (hn : (submits s.log).length + 1 ≤ n) :
    ∃ (es : List Entry) (r' : Reader FileSt),
      Reader.readLoop fuel n r = .ok (es.map (fun e => some e.data), some .stop, r') ∧
      (∀ q, onQueue q (submits (beforeShutdown s.log)) <+: onQueue q es) ∧
      (∀ q, (onQueue q es).Sublist (onQueue q (submits s.log))) ∧ es.Nodup := by
  have hdst := destroyed_of_log (run_trs _ h) hdone
  have ha := (iothr_invA h).1
  have hexit := (ha.dest hdst).1
  obtain ⟨h1, bs, h2, h3⟩ := no_loss_start opt w pre post now wk s h hpre hnow hok hexit
  obtain ⟨w', hw, _, hde⟩ := (iothr_invC h).writer
  obtain ⟨r0, rdwr, hde, hrd⟩ := hde hdst
  obtain ⟨i1, i2, i3, _⟩ := init_some (fileWriter_init hinit)
  have e1 : (calls s.log).map Prod.fst =
      (.opn :: bs.map fun es => WOp.writev (es.map Entry.data)) ++ [.close] := by
    rw [h3]; simp [Function.comp_def]
  have e2 : (calls s.log).map Prod.snd =
      (.success :: bs.map fun _ => Res.success) ++ [.success] := by
    rw [h3]; simp [Function.comp_def]
  rw [e1, e2] at hw
  obtain ⟨r1, w1, r2, hw1, hw2, hr12⟩ := (run_append _ _ _ _ _).1 hw
  obtain ⟨⟨r3, w2⟩, hc, hw2⟩ := Exec.bind_eq_ok.1 hw2
  obtain ⟨⟨r4, w3⟩, hc', hw2⟩ := Exec.bind_eq_ok.1 hw2
  cases hc'
  cases hw2
  obtain ⟨hr1, hr2⟩ := List.append_inj' hr12 rfl
  cases hr2
  subst hr1
  have hacc : accepted [] ((WOp.opn :: bs.map fun es => WOp.writev (es.map Entry.data)).zip
      (Res.success :: bs.map fun _ => Res.success)) = (handed s.log).map Entry.data := by
    rw [← h2, List.map_flatten]
    have : ∀ (bs : List (List Entry)) (acc : List Bytes), accepted acc
        ((bs.map fun es => WOp.writev (es.map Entry.data)).zip (bs.map fun _ => Res.success)) =
        acc ++ (bs.map (List.map Entry.data)).flatten := by
      intro bs
      induction bs with
      | nil => intro acc; simp [accepted]
      | cons b bs ih => intro acc; simp [accepted, ih, WOp.frames]
    simp only [List.zip_cons_cons, accepted, WOp.frames]
    rw [this]; simp
  have hsub : ∀ e ∈ handed s.log, e ∈ submits s.log := by
    intro e he
    have := ha.held e
    have h2 := List.count_pos_iff.2 he
    exact List.count_pos_iff.1 (by omega)
  have hlen : (handed s.log).length ≤ (submits s.log).length := by
    have hnd := (order_preserved opt w _ s h).2
    exact nodup_length_le hnd hsub
  have hst' := session_stream (optCts wopt).head? _ w w' _ [] [] (by rw [i3]; rfl)
      (by rw [i2]) (by simp) hw (by
        intro r hr
        simp only [List.cons_append, List.mem_cons, List.mem_append, List.mem_map] at hr
        rcases hr with hr | ⟨_, _, hr⟩ | hr
        · exact hr
        · exact hr.symm
        · simpa using hr) (Or.inl ⟨by rw [i1]; simp, by rw [i3]; rfl, rfl⟩)
  have hst : w'.state ≠ .opened := by rw [hst'.2.1]; simp
  have hdisk : s.writer.rdwr.obj.disk = w'.rdwr.obj.disk := by
    rw [hrd]
    unfold Writer.destroy at hde
    rw [if_neg hst] at hde
    obtain ⟨⟨r5, w5⟩, h5, hde⟩ := Exec.bind_eq_ok.1 hde
    cases h5
    obtain ⟨⟨r6, rw6⟩, h6, hde⟩ := Exec.bind_eq_ok.1 hde
    cases hde
    have hops : w'.rdwr.ops = fileOps true := by rw [hst'.2.2.2, i3]; rfl
    unfold Rdwr.destroy at h6
    rw [hops] at h6
    cases h6
    rfl
  rw [hdisk] at hrinit
  obtain ⟨r', hr'⟩ := file_round_trip w w1 w' wopt disk script _ _ hinit hct hw1 hc ropt r fuel n
    hrinit hcompat
    (by
      rw [hacc]
      intro d hd
      obtain ⟨e, he, rfl⟩ := List.mem_map.1 hd
      exact hmax e (hsub e he))
    (by rw [hacc, List.length_map]; omega) (by rw [hacc, List.length_map]; omega)
  refine ⟨handed s.log, r', ?_, h1, order_preserved opt w _ s h⟩
  rw [hr', hacc, List.map_map]; rfl

/-- A file writer whose I/O never fails. -/
def demoFile : Writer FileSt :=
  (fileWriterInit .file (some ⟨[[7]]⟩) none []).get rfl

example : fileWriterInit .file (some ⟨[[7]]⟩) none [] = some demoFile ∧
    ∃ s, (Iothr.init twoQueues demoFile).run (demoPre ++ .io 9 .timeout :: demoPost) = .ok s ∧
      (∀ c ∈ calls s.log, c.2 = .success) ∧ IoEv.destroyed ∈ s.log ∧
      ∃ r, fileReaderInit .file none s.writer.rdwr.obj.disk [] = some r ∧
        (Reader.readLoop 9 9 r).map (fun p => (p.1, p.2.1)) =
          .ok ([some [1], some [2, 2], some [3], some [5], some [4]], some .stop) :=
  ⟨rfl, _, rfl, by decide +kernel, by decide +kernel, _, rfl, by decide +kernel⟩

end Fstrm.Props
