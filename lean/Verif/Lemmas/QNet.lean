import Verif.Spec.QNet
import Verif.Lemmas.QSwap
import Verif.Lemmas.IoFleet
import Verif.Props.IothrQueues

/-! A program that sends through an I/O thread over queues in memory does the same as a program that
calls the writer. -/

set_option autoImplicit false

namespace Fstrm

open Spec Iothr

variable {σ τ : Type} {Q : QImpl}

namespace IoQ

/-- What most steps leave alone. -/
def fr (s : IoQ σ Q) : (Nat × Bool × Bool) × (Nat → Nat) := (Iothr.fr s.io, s.who)

theorem outs_fr (os : List QOut) {s s' : IoQ σ Q} {q : Nat} (h : s.outs q os = .ok s') : fr s' = fr s := by
  induction os generalizing s with
  | nil => cases h; rfl
  | cons o os ih =>
    obtain ⟨s1, h1, h⟩ := Exec.bind_eq_ok.1 h
    refine (ih h).trans ?_
    cases o with
    | effect t =>
      simp only [out, effect] at h1
      split at h1
      · cases h1
      · cases h1; rfl
    | ins t ok sp =>
      simp only [out, returned] at h1
      split at h1
      · cases h1
      · split at h1
        · split at h1
          · cases h1
            obtain ⟨wk, hwk⟩ := signal_eq (s.io.emit .signal)
            unfold fr
            dsimp only
            rw [hwk]; rfl
          · cases h1; rfl
        · cases h1; rfl

theorem processEntry_fr {s s' : Iothr σ} {e : Entry} (h1 : s.processEntry e = .ok s') :
    Iothr.fr s' = Iothr.fr s := by
  unfold processEntry at h1
  split at h1
  · obtain ⟨s2, h2, h1⟩ := Exec.bind_eq_ok.1 h1
    have e2 : Iothr.fr s2 = Iothr.fr s := by
      unfold maybeFlush at h2
      split at h2
      · cases h2
      · split at h2
        · exact flush_fr h2
        · cases h2; rfl
    split at h1
    · cases h1
    · cases h1; exact e2
  · cases h1
    rw [freeEntry_eq]; rfl

theorem take_fr {s s1 : IoQ σ Q} {i k : Nat} {r : Option Nat} (h : s.take i k = .ok (r, s1)) : fr s1 = fr s := by
  unfold take at h
  split at h
  · cases h
  · split at h
    · cases h; rfl
    · obtain ⟨⟨c', x⟩, h1, h⟩ := Exec.bind_eq_ok.1 h
      dsimp only at h
      split at h
      · cases h; rfl
      · cases h; rfl
      · split at h
        · split at h
          · obtain ⟨io, h2, h⟩ := Exec.bind_eq_ok.1 h
            cases h
            have := processEntry_fr h2
            unfold fr
            dsimp only
            rw [this]; rfl
          · cases h
        · cases h

theorem ioStep_fr {s s' : IoQ σ Q} {now k : Nat} {wk : Wake} (h : s.ioStep now wk k = .ok s') : fr s' = fr s := by
  have hio : ∀ {s' : IoQ σ Q}, (s.io.ioStep now wk >>= fun io => (Except.ok { s with io := io } : Exec (IoQ σ Q))) =
      .ok s' → fr s' = fr s := by
    intro s' h
    obtain ⟨io, h1, h⟩ := Exec.bind_eq_ok.1 h
    cases h
    unfold fr
    dsimp only
    rw [Iothr.ioStep_fr h1]
  unfold ioStep at h
  split at h
  · split at h
    · obtain ⟨⟨r, s1⟩, h1, h⟩ := Exec.bind_eq_ok.1 h
      refine Eq.trans ?_ (take_fr h1)
      cases r <;> cases h <;> rfl
    · exact hio h
  · split at h
    · obtain ⟨⟨r, s1⟩, h1, h⟩ := Exec.bind_eq_ok.1 h
      refine Eq.trans ?_ (take_fr h1)
      cases r <;> cases h <;> rfl
    · exact hio h
  · exact hio h

/-- Only submitting takes a number and only the end of destroying destroys; threads keep what they
submitted. -/
theorem step_fr {s s' : IoQ σ Q} {a : QAct} (h : s.step a = .ok s') :
    ((∀ q t raw d f, a ≠ .submit q t raw d f) → s'.io.nextId = s.io.nextId) ∧
    (a ≠ .finish → s'.io.destroyed = s.io.destroyed) ∧
    (a ≠ .shutdown → s'.io.shutting = s.io.shutting) ∧
    ∀ id, id ≠ s.io.nextId → s'.who id = s.who id := by
  have key : fr s' = fr s → ((∀ q t raw d f, a ≠ .submit q t raw d f) → s'.io.nextId = s.io.nextId) ∧
      (a ≠ .finish → s'.io.destroyed = s.io.destroyed) ∧
      (a ≠ .shutdown → s'.io.shutting = s.io.shutting) ∧
      ∀ id, id ≠ s.io.nextId → s'.who id = s.who id := fun h =>
    ⟨fun _ => congrArg (·.1.1) h, fun _ => congrArg (·.1.2.1) h, fun _ => congrArg (·.1.2.2) h, fun id _ => congrArg (·.2 id) h⟩
  cases a with
  | submit q t raw data f =>
    refine ⟨fun h => absurd rfl (h q t raw data f), ?_⟩
    simp only [step, submit] at h
    split at h
    · cases h
    · split at h
      · cases h; exact ⟨fun _ => rfl, fun _ => rfl, fun _ _ => rfl⟩
      · split at h
        · cases h; exact ⟨fun _ => rfl, fun _ => rfl, fun _ _ => rfl⟩
        · obtain ⟨io, h1, h⟩ := Exec.bind_eq_ok.1 h
          have h2 := (Iothr.step_fr (a := .submit s.io.nextId q data f) h1).2
          split at h
          · cases h; exact ⟨fun _ => h2.1 nofun, fun _ => h2.2 nofun, fun _ _ => rfl⟩
          · cases h
            refine ⟨fun _ => h2.1 nofun, fun _ => h2.2 nofun, fun id hid => ?_⟩
            simp only [if_neg hid]
  | prod q t k =>
    refine key ?_
    simp only [step, prod] at h
    split at h
    · cases h
    · split at h
      · cases h; rfl
      · obtain ⟨⟨c, os⟩, h1, h⟩ := Exec.bind_eq_ok.1 h
        exact (outs_fr os h).trans rfl
  | flush q b i =>
    refine key ?_
    simp only [step, flush] at h
    split at h
    · cases h; rfl
    · split at h
      · cases h; rfl
      · obtain ⟨⟨c, os⟩, h1, h⟩ := Exec.bind_eq_ok.1 h
        exact (outs_fr os h).trans rfl
  | io now wk k => exact key (ioStep_fr h)
  | getQueue =>
    obtain ⟨io, h1, h⟩ := Exec.bind_eq_ok.1 h
    cases h
    have := Iothr.step_fr (a := .getQueue) h1
    exact ⟨fun _ => this.1 nofun, fun _ => this.2.1 nofun, fun _ => this.2.2 nofun, fun _ _ => rfl⟩
  | shutdown =>
    obtain ⟨io, h1, h⟩ := Exec.bind_eq_ok.1 h
    cases h
    have := Iothr.step_fr (a := .shutdown) h1
    exact ⟨fun _ => this.1 nofun, fun _ => this.2.1 nofun, fun h => absurd rfl h, fun _ _ => rfl⟩
  | finish =>
    simp only [step, finish] at h
    split at h
    · obtain ⟨xss, _, h⟩ := Exec.bind_eq_ok.1 h
      split at h
      · obtain ⟨io, h1, h⟩ := Exec.bind_eq_ok.1 h
        cases h
        have := Iothr.step_fr (a := .finish) h1
        exact ⟨fun _ => this.1 nofun, fun h => absurd rfl h, fun _ => this.2.2 nofun, fun _ _ => rfl⟩
      · cases h
    · cases h; exact ⟨fun _ => rfl, fun _ => rfl, fun _ => rfl, fun _ _ => rfl⟩

theorem step_nextId {s s' : IoQ σ Q} {a : QAct} (h : s.step a = .ok s') : s'.io.nextId ≤ s.io.nextId + 1 := by
  by_cases hs : ∃ q t raw d f, a = .submit q t raw d f
  · obtain ⟨q, t, raw, d, f, rfl⟩ := hs
    simp only [step, submit] at h
    split at h
    · cases h
    · split at h
      · cases h; omega
      · split at h
        · cases h; omega
        · obtain ⟨io, h1, h⟩ := Exec.bind_eq_ok.1 h
          have h2 := Iothr.step_nextId (a := .submit s.io.nextId q d f) h1
          split at h <;> cases h <;> exact h2
  · rw [(step_fr h).1 fun q t raw d f h => hs ⟨q, t, raw, d, f, h⟩]
    omega

theorem run_nextId : ∀ (as : List QAct) {s s' : IoQ σ Q}, s.run as = .ok s' →
    s'.io.nextId ≤ s.io.nextId + as.length
  | [], _, _, h => by cases h; simp
  | a :: as, s, s', h => by
    obtain ⟨s1, e1, h⟩ := Exec.bind_eq_ok.1 h
    have h1 := step_nextId e1
    have h2 := run_nextId as h
    simp only [List.length_cons]
    omega

theorem run_destroyed : ∀ (as : List QAct) {s s' : IoQ σ Q}, s.run as = .ok s' → QAct.finish ∉ as →
    s'.io.destroyed = s.io.destroyed
  | [], _, _, h, _ => by cases h; rfl
  | a :: as, s, s', h, hn => by
    obtain ⟨s1, e1, h⟩ := Exec.bind_eq_ok.1 h
    simp only [List.mem_cons, not_or] at hn
    rw [run_destroyed as h hn.2, (step_fr e1).2.1 (fun h => hn.1 h.symm)]

theorem run_shutting : ∀ (as : List QAct) {s s' : IoQ σ Q}, s.run as = .ok s' → QAct.shutdown ∉ as →
    s'.io.shutting = s.io.shutting
  | [], _, _, h, _ => by cases h; rfl
  | a :: as, s, s', h, hn => by
    obtain ⟨s1, e1, h⟩ := Exec.bind_eq_ok.1 h
    simp only [List.mem_cons, not_or] at hn
    rw [run_shutting as h hn.2, (step_fr e1).2.2.1 (fun h => hn.1 h.symm)]

theorem run_bind : ∀ (a b : List QAct) (s : IoQ σ Q),
    s.run (a ++ b) = (s.run a >>= fun s => s.run b)
  | [], _, _ => rfl
  | x :: a, b, s => by
    show (s.step x >>= fun s => s.run (a ++ b)) = ((s.step x >>= fun s => s.run a) >>= _)
    cases s.step x with
    | error e => rfl
    | ok s1 => exact run_bind a b s1

variable {num sz : UInt32} {R : Q.S → QGhost → Prop}

theorem run_who (hQ : Q.Correct num sz R) : ∀ (as : List QAct) {s s' : IoQ σ Q}, s.Link num R →
    s.run as = .ok s' → ∀ id < s.io.nextId, s'.who id = s.who id
  | [], _, _, _, h, _, _ => by cases h; rfl
  | a :: as, s, s', hl, h, id, hid => by
    obtain ⟨s1, e1, h⟩ := Exec.bind_eq_ok.1 h
    obtain ⟨hl1, ht⟩ := hl.step hQ e1
    rw [run_who hQ as hl1 h id (Nat.lt_of_lt_of_le hid ht.nextId_le), (step_fr e1).2.2.2 id (by omega)]

/-- The submitted payloads come from the calls. -/
theorem run_src (hQ : Q.Correct num sz R) {P : Bytes → Prop} : ∀ (as : List QAct) {s s' : IoQ σ Q},
    s.Link num R → s.run as = .ok s' → Src P s.io →
    (∀ q t raw d f, .submit q t raw (some d) f ∈ as → 1 ≤ d.length → d.length < 4294967295 → P d) → Src P s'.io
  | [], _, _, _, h, hp, _ => by cases h; exact hp
  | a :: as, s, s', hl, h, hp, ha => by
    obtain ⟨s1, e1, h⟩ := Exec.bind_eq_ok.1 h
    obtain ⟨hl1, ht⟩ := hl.step hQ e1
    refine run_src hQ as hl1 h ?_ fun q t raw d f hm => ha q t raw d f (List.mem_cons_of_mem _ hm)
    by_cases hs : ∃ q t raw d f, a = .submit q t raw d f
    · obtain ⟨q, t, raw, d, f, rfl⟩ := hs
      simp only [step, submit] at e1
      split at e1
      · cases e1
      · split at e1
        · cases e1; exact hp
        · split at e1
          · cases e1; exact hp
          · obtain ⟨io, h1, e1⟩ := Exec.bind_eq_ok.1 e1
            have h2 := hp.step (a := .submit s.io.nextId q d f) h1 (by
              intro t' q' d' f' h' h3 h4
              cases h'
              exact ha q t raw d' f (List.mem_cons_self ..) h3 h4)
            split at e1 <;> cases e1 <;> exact h2
    · exact hp.trs ht ((step_fr e1).1 fun q t raw d f h => hs ⟨q, t, raw, d, f, h⟩)

/-- The end of destroy. -/
theorem finish_cases {s s' : IoQ σ Q} (h : s.finish = .ok s') (hd : s.io.destroyed = false)
    (hd' : s'.io.destroyed = true) : ∃ io, s.io.finish = .ok io ∧ s' = { s with io := io } ∧
      ∀ (w : Writer τ) io', (s.io.swap w).finish = .ok io' →
        (s.swap w).finish = .ok { s.swap w with io := io' } := by
  unfold finish at h
  split at h
  · rename_i hc
    obtain ⟨xss, hx, h⟩ := Exec.bind_eq_ok.1 h
    split at h
    · rename_i hq
      obtain ⟨io, h1, h⟩ := Exec.bind_eq_ok.1 h
      cases h
      refine ⟨io, h1, rfl, fun w io' hio => ?_⟩
      unfold finish
      refine (if_pos hc).trans ?_
      show (Queue.removeAllOf (s.qs.map Q.mem) >>= _) = _
      rw [hx, Exec.ok_bind]
      refine (if_pos hq).trans ?_
      show ((s.io.swap w).finish >>= _) = _
      rw [hio]; rfl
    · cases h
  · cases h
    rw [hd] at hd'; cases hd'

/-- No submission is on its way if none is pending. -/
theorem settled_of {s : IoQ σ Q} (hl : s.Link num R) (hd : s.io.destroyed = false)
    (hp : ∀ id < s.io.nextId, s.io.pending id = none) (q t : Nat) : s.wait q t = [] := by
  obtain ⟨G, h⟩ := hl.live hd
  cases hw : s.wait q t with
  | nil => rfl
  | cons e l =>
    have h1 := h.g.pend q t e (by rw [hw]; exact List.mem_cons_self ..)
    rw [hp _ (h.g.invA.plt _ _ h1).1] at h1
    cases h1

/-- No call is in progress if all submissions have taken effect and returned. -/
theorem idle_of {s : IoQ σ Q} (h : s.Acct) (hw : ∀ q t, s.wait q t = [])
    (hp : (submits s.io.log).Perm s.rets) (q t : Nat) : s.cur q t = none := by
  have h1 := h.acct q t
  rw [hw] at h1
  have h2 := congrArg List.length h1
  have h3 := ((hp.filter (fun e => decide (e.queue = q))).filter (fun e => decide (s.who e.id = t))).length_eq
  simp only [IoQ.mine, onQueue, List.append_nil, List.length_append] at h2
  rw [h3] at h2
  cases hc : s.cur q t with
  | none => rfl
  | some e => rw [hc] at h2; simp at h2

end IoQ

/-- What a complete execution of a program says about the frames it passes on. -/
structure QPassed (e : QEnd) (fs : List Bytes) : Prop where
  frames : fs = (handed e.io.log).map Entry.data
  nodup : (handed e.io.log).Nodup
  done : (∀ q t, e.late q t = []) → (∀ x ∈ e.done, x ∈ handed e.io.log) ∧
    ∀ q t, (e.mine q t e.done).Sublist (e.mine q t (handed e.io.log))
  sub : ∀ q t, (e.mine q t (handed e.io.log)).Sublist (e.mine q t e.rets ++ (e.busy q t).toList)

/-- Everything but the connection is the same. -/
structure QSame (a b : QEnd) : Prop where
  log : a.io.log = b.io.log
  destroyed : a.io.destroyed = b.io.destroyed
  done : a.done = b.done
  late : a.late = b.late
  rets : a.rets = b.rets
  who : a.who = b.who
  busy : a.busy = b.busy

theorem QPassed.same {a b : QEnd} {fs : List Bytes} (h : QPassed a fs) (hs : QSame a b) : QPassed b fs := by
  obtain ⟨⟨_, l⟩, d, la, r, w, bu⟩ := a
  obtain ⟨⟨_, l'⟩, d', la', r', w', bu'⟩ := b
  obtain ⟨h1, _, h2, h3, h4, h5, h6⟩ := hs
  dsimp only at h1 h2 h3 h4 h5 h6
  subst h1 h2 h3 h4 h5 h6
  exact ⟨h.frames, h.nodup, h.done, h.sub⟩

/-- What a program does, compared with a complete execution. -/
theorem QClient.like {p : QClient} (hp : p.Whole) {y0 o0 : Bytes} {e0 : QEnd}
    (h0 : p.side y0 = .ok (e0, o0)) (hf : Finished e0.io) :
    ∃ batches : List (List Entry), batches.flatten = handed e0.io.log ∧
      QPassed e0 ((handed e0.io.log).map Entry.data) ∧
      (∀ b ∈ batches, b.length ≤ 1073741823) ∧
      (∀ e ∈ handed e0.io.log, 1 ≤ e.data.length ∧ e.data.length < 4294967295 ∧
        ∃ q t raw f, .submit q t raw (some e.data) f ∈ p.before ++ p.after) ∧
      (handed e0.io.log).length ≤ p.before.length + p.after.length ∧
      ∀ ropt, NetOk p.wopt ropt (batches.map (·.map Entry.data)) → ∀ y, y <+: netY p.wopt ropt →
        (y.length < (netA p.wopt ropt).length ∧
          p.side y = .error (.wait (CFrame.wire ⟨.ready, Props.optCts p.wopt⟩))) ∨
        ((netA p.wopt ropt).length ≤ y.length ∧ y ≠ netY p.wopt ropt ∧
          p.side y = .error (.wait (netX p.wopt (batches.map (·.map Entry.data))))) ∨
        (y = netY p.wopt ropt ∧ ∃ e, p.side y =
          .ok (e, netX p.wopt (batches.map (·.map Entry.data))) ∧ QSame e e0) := by
  obtain ⟨pre, now, wk, k, mid, ha, hpre, hnow⟩ := hp.starts
  obtain ⟨hns, hnf, hnf2⟩ := hp.once
  unfold QClient.side at h0
  obtain ⟨w0, ew0, _⟩ := writer_init_chan p.wopt y0
  rw [ew0] at h0
  dsimp only at h0
  cases hi : IoQ.init (p.opt.queueImpl p.machine) ENTRY_SIZE p.opt w0 with
  | none => rw [hi] at h0; cases h0
  | some s0 =>
  rw [hi] at h0
  obtain ⟨s1, r1, h0⟩ := Exec.bind_eq_ok.1 h0
  obtain ⟨s, r2, h0⟩ := Exec.bind_eq_ok.1 h0
  cases h0
  obtain ⟨ht1, num, R, hQ, hl1, hl0, hio⟩ := Props.queues_link hp.opt hp.size hi r1
  obtain ⟨hl, ht⟩ := hl1.run hQ _ r2
  obtain ⟨s2, r3, r4⟩ := (IoQ.run_append _ _ _ _).1 r2
  obtain ⟨s', r5, r4⟩ := Exec.bind_eq_ok.1 r4
  cases r4
  have hd1 : s1.io.destroyed = false := by
    rw [IoQ.run_destroyed _ r1 hnf, hio]; rfl
  have hd2 : s2.io.destroyed = false := by
    rw [IoQ.run_destroyed _ r3 (by simpa using hnf2), hd1]
  obtain ⟨io, f0, fs, fsw⟩ := IoQ.finish_cases (τ := Chan) r5 hd2 hf.1
  obtain ⟨f1, f2, f3, f4⟩ := iothr_finish f0 hd2 (by have := hf.1; rw [fs] at this; exact this)
  have hlog : s.io = io := by rw [fs]
  rw [← hlog] at f3 f4 f0
  have hok1 : ∀ c ∈ calls s2.io.log, c.2 = .success := by rw [← f3]; exact hf.2
  -- the I/O thread
  rw [ha] at r1
  obtain ⟨a, g1, g2⟩ := (IoQ.run_append _ _ _ _).1 r1
  obtain ⟨a2, g3, g4⟩ := Exec.bind_eq_ok.1 g2
  obtain ⟨hla, hta⟩ := hl0.run hQ pre g1
  obtain ⟨hla2, hta2⟩ := hla.step hQ g3
  have hsame := hl0.client_run hQ pre g1 hpre (by rw [hio]; simp [Iothr.init])
  have ht2 := (hla2.run hQ mid g4).2
  rw [hio] at hta
  have hpc : a.io.pc = .start := by rw [hsame.pc, hio]; simp [Iothr.init]
  simp only [IoQ.step, IoQ.ioStep, hpc] at g3
  obtain ⟨io2, g5, g6⟩ := Exec.bind_eq_ok.1 g3
  cases g6
  obtain ⟨n1, batches, hbat, hcalls⟩ := Props.trs_no_loss_start hta hpc
    (by rw [hsame.opened, hio]; rfl) (by rw [hsame.lastOpen, hio]; rfl) (by rw [hsame.outq, hio]; rfl)
    (by rw [hsame.handed, hio]; rfl) (by rw [hsame.calls, hio]; rfl) g5 (ht2.trans ht) hnow hf.2 f4
  have htot := ht1.trans ht
  rw [← ha] at r1
  obtain ⟨o1, o2⟩ := Props.trs_order htot
  have hshut : s1.io.shutting = false := by
    rw [IoQ.run_shutting _ r1 hns, hio]; rfl
  have hold : submits (beforeShutdown s.io.log) = submits s1.io.log := by
    obtain ⟨a3, g7, g8⟩ := Exec.bind_eq_ok.1 r2
    simp only [IoQ.step, Iothr.shutdown, hshut, Bool.false_eq_true, if_false, Exec.ok_bind] at g7
    cases g7
    have hn : IoEv.shutdown ∉ s1.io.log := fun hx => by
      have := hl1.invG.shut.2 hx
      rw [hshut] at this; cases this
    have hl2 := (hl1.step hQ (a := .shutdown)
      (by simp only [IoQ.step, Iothr.shutdown, hshut, Bool.false_eq_true, if_false, Exec.ok_bind]; rfl)).1
    obtain ⟨x, hx⟩ := (hl2.run hQ _ g8).2.log
    obtain ⟨wk2, hwk⟩ := signal_eq (emit { s1.io with shutting := true } .shutdown)
    have hlog : s.io.log = (s1.io.log ++ [.shutdown]) ++ x := by
      rw [hx, hwk]; rfl
    rw [hlog, beforeShutdown_append x (by simp)]
    unfold beforeShutdown
    rw [List.takeWhile_append_of_pos (fun e he => by
      simp only [ne_eq, decide_not, Bool.not_eq_true', decide_eq_false_iff_not]
      intro h; exact hn (h ▸ he))]
    simp
  refine ⟨batches, hbat, ⟨rfl, o2, ?_, ?_⟩, ?_, ?_, ?_, ?_⟩
  · intro hset
    dsimp only at hset ⊢
    have hret : ∀ e ∈ s1.rets, e ∈ submits s1.io.log := by
      intro e he
      rcases hl1.ac.mem_rets he with h | h
      · exact h
      · rw [hset] at h; cases h
    have hid : ∀ e ∈ s1.rets, e.id < s1.io.nextId := fun e he =>
      hl1.invA.lt e (hret e he)
    have hmine : ∀ q t, QEnd.mine ⟨s.io, s1.rets, s1.wait, s.rets, s.who, s.cur⟩ q t s1.rets =
        s1.mine q t s1.rets := by
      intro q t
      unfold QEnd.mine IoQ.mine
      refine List.filter_congr fun e he => ?_
      show decide (s.who e.id = t) = _
      rw [IoQ.run_who hQ _ hl1 r2 e.id (hid e (List.mem_filter.1 he).1)]
    have hsub : ∀ q t, (s1.mine q t s1.rets).Sublist (onQueue q (handed s.io.log)) := by
      intro q t
      have hm := hl1.ac.acct q t
      rw [hset] at hm
      have e1 : (s1.mine q t s1.rets).Sublist (s1.mine q t (submits s1.io.log)) := by
        rw [← List.append_nil (s1.mine q t (submits _)), hm]
        exact List.sublist_append_left _ _
      refine e1.trans (List.filter_sublist.trans ?_)
      rw [← hold]
      exact (n1 q).sublist
    constructor
    · intro e he
      have := (hsub e.queue (s1.who e.id)).subset
        (List.mem_filter.2 ⟨List.mem_filter.2 ⟨he, by simp⟩, by simp⟩)
      exact (List.mem_filter.1 this).1
    · intro q t
      rw [hmine]
      have h5 := (hsub q t).filter fun x => decide (s.who x.id = t)
      have h6 : (s1.mine q t s1.rets).filter (fun x => decide (s.who x.id = t)) = s1.mine q t s1.rets := by
        rw [← hmine]
        unfold QEnd.mine
        rw [List.filter_filter]
        simp
      rw [h6] at h5
      exact h5
  · intro q t
    have := hl.ac.acct q t
    show (s.mine q t _).Sublist (s.mine q t s.rets ++ (s.cur q t).toList)
    rw [← hl.ac.acct q t]
    exact ((o1 q).filter _).trans (List.sublist_append_left _ _)
  · intro b hb
    obtain ⟨w', hw', _⟩ := (Props.trs_invC htot).writer
    have := run_count _ hw' (by
      intro r hr
      obtain ⟨c, hc, rfl⟩ := List.mem_map.1 hr
      exact hf.2 c hc) (b.map Entry.data) (by
      rw [hcalls]
      simp only [List.map_append, List.map_cons, List.map_map, List.mem_append, List.mem_cons,
        List.mem_map]
      exact Or.inl (Or.inr ⟨b, hb, rfl⟩))
    simpa using this
  · have hrun : s0.run (p.before ++ (.shutdown :: p.after ++ [.finish])) = .ok s :=
      (IoQ.run_append _ _ _ _).2 ⟨s1, r1, r2⟩
    have := IoQ.run_src hQ (P := fun d => 1 ≤ d.length ∧ d.length < 4294967295 ∧
      ∃ q t raw f, .submit q t raw (some d) f ∈ p.before ++ p.after) _ hl0 hrun
      (by rw [hio]; exact ⟨nofun, nofun⟩)
      (fun q t raw d f hm h1 h2 => ⟨h1, h2, q, t, raw, f, by simpa using hm⟩)
    intro e he
    refine this.sub e ?_
    have h2 := (o1 e.queue).subset (List.mem_filter.2 ⟨he, by simp⟩)
    exact (List.mem_filter.1 h2).1
  · have h1 := nodup_length _ (submits s.io.log) o2 (by
      intro e he
      have h2 := (o1 e.queue).subset (List.mem_filter.2 ⟨he, by simp⟩)
      exact (List.mem_filter.1 h2).1)
    have h2 := nodup_length _ (List.range s.io.nextId) hl.invA.ids (by
      intro i hi
      obtain ⟨e, he, rfl⟩ := List.mem_map.1 hi
      exact List.mem_range.2 (hl.invA.lt e he))
    obtain ⟨s3, r6, r7⟩ := Exec.bind_eq_ok.1 r3
    have h3 := IoQ.run_nextId _ r1
    have h4 := (IoQ.step_fr r6).1 nofun
    have h5 := IoQ.run_nextId _ r7
    have h6 := (IoQ.step_fr r5).1 nofun
    have h7 : s0.io.nextId = 0 := by rw [hio]; rfl
    rw [List.length_map, List.length_range] at h2
    show (handed s.io.log).length ≤ _
    omega
  · intro ropt hnet y hy
    obtain ⟨w, ew, hcase⟩ := allOk_at hnet hy
    have hsim2 := IoQ.sim_run (τ := Chan) _ r3 (by simpa using hnf2) hok1
    have hok0 : ∀ c ∈ calls s1.io.log, c.2 = .success := fun c hc => hok1 c (hsim2.log.subset hc)
    obtain ⟨c1, hc1, hs1⟩ := IoQ.sim_run (τ := Chan) _ r1 hnf hok0
    obtain ⟨c2, hc2, hs2⟩ := hsim2
    have hcs : c1 ++ c2 = .opn :: ((batches.map (·.map Entry.data)).map .writev ++ [.close]) := by
      have h6 := congrArg (List.map Prod.fst) ((f3.trans hc2).symm.trans hcalls)
      rw [hc1, hio] at h6
      simpa [Iothr.init, calls, Function.comp_def] using h6
    rw [← hcs] at hcase
    have hne : allOk w (c1 ++ c2) ≠ .error .fuel := by
      rcases hcase with ⟨_, h7⟩ | ⟨_, _, h7⟩ | ⟨_, w', h7, _⟩ <;> rw [h7] <;> nofun
    have hinit : IoQ.init (p.opt.queueImpl p.machine) ENTRY_SIZE p.opt w = some (s0.swap w) := by
      unfold IoQ.init at hi ⊢
      cases hc : (p.opt.queueImpl p.machine).create (UInt32.ofNat p.opt.inputQueueSize) ENTRY_SIZE with
      | none => rw [hc] at hi; cases hi
      | some c => rw [hc] at hi; cases hi; rfl
    have hrun : p.side y = (do
        let w' ← allOk w (c1 ++ c2)
        let s ← (s2.swap w').finish
        .ok (⟨s.io, s1.rets, s1.wait, s.rets, s.who, s.cur⟩, s.io.writer.rdwr.obj.out)) := by
      rw [allOk_append] at hne ⊢
      have h11 := hs1 w (by intro h; rw [h] at hne; exact hne rfl)
      dsimp only at h11
      unfold QClient.side
      rw [ew]
      dsimp only
      rw [hinit]
      dsimp only
      rw [h11]
      cases h : allOk w c1 with
      | error e => rfl
      | ok w1 =>
        rw [h, Exec.ok_bind] at hne
        have h12 := hs2 w1 hne
        dsimp only at h12
        show ((s1.swap w1).run (.shutdown :: p.after ++ [.finish]) >>= _) = (allOk w1 c2 >>= _)
        rw [IoQ.run_bind, h12]
        cases allOk w1 c2 with
        | error e => rfl
        | ok w2 =>
          show ((((s2.swap w2).finish >>= fun s => (Except.ok s : Exec _)) >>= _)) = ((s2.swap w2).finish >>= _)
          cases (s2.swap w2).finish <;> rfl
    rcases hcase with ⟨h6, h7⟩ | ⟨h6, h8, h7⟩ | ⟨h6, w', h7, h8, h9, h10⟩
    · left
      refine ⟨h6, ?_⟩
      rw [hrun, h7]; rfl
    · right; left
      refine ⟨h6, h8, ?_⟩
      rw [hrun, h7]; rfl
    · right; right
      refine ⟨h6, ?_⟩
      obtain ⟨s3, g1, g2, g3, g4⟩ := iothr_finish_swap f0 hd2 hf.1 h9 h10
      have h13 := fsw w' s3 g1
      refine ⟨⟨s3, s1.rets, s1.wait, s.rets, s.who, s.cur⟩, ?_, ⟨g3, g4.trans hf.1.symm, rfl, rfl, rfl, rfl, rfl⟩⟩
      rw [hrun, h7, Exec.ok_bind, h13, Exec.ok_bind, ← h8, ← g2, fs]
      rfl

end Fstrm
