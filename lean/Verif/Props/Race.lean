import Verif.Lemmas.IothrRaceOwn
import Verif.Lemmas.QNet
import Verif.Props.IothrQueues

/-!
# C122: data races

`IoQ.trace` (`Model/IothrAccess.lean`) is `IoQ.run` with a note of each access to memory that other threads may
access too. `Spec.Race` is a data race as defined by C11.

The full property, that no run has a data race, is false: `shutting_races` and `lockfree_races`. Proved is that with
the queue for multiple producers nothing else races than the flag `shutting_down` (`mutex_races_partial`), and with either queue not
what the I/O thread has for itself nor the number of the next queue handle (`lockfree_races_partial`).
-/

set_option autoImplicit false

namespace Fstrm.Props

open Iothr Spec

variable {σ : Type}

/-! ## The traces are those of the runs -/

/-- Each run has a trace, for each choice of the threads that call get_input_queue and destroy. -/
theorem trace_of_run {Q : QImpl} (A : QTouch Q) (as : List (Nat × QAct)) (s s' : IoQ σ Q) (h : s.run (as.map Prod.snd) = .ok s') :
    ∃ tr, s.trace A as = .ok (s', tr) := by
  induction as generalizing s with
  | nil => cases h; exact ⟨[], rfl⟩
  | cons a as ih =>
    obtain ⟨b, a⟩ := a
    obtain ⟨s1, h1, h⟩ := Exec.bind_eq_ok.1 h
    obtain ⟨tr, h2⟩ := ih s1 h
    exact ⟨_, by simp only [IoQ.trace, h1, h2, Exec.ok_bind]; rfl⟩

/-- And each trace is one of a run. -/
theorem run_of_trace {Q : QImpl} (A : QTouch Q) (as : List (Nat × QAct)) (s s' : IoQ σ Q) (tr : List (ThreadEv Place Mutex))
    (h : s.trace A as = .ok (s', tr)) : s.run (as.map Prod.snd) = .ok s' := by
  induction as generalizing s tr with
  | nil => cases h; rfl
  | cons a as ih =>
    obtain ⟨b, a⟩ := a
    obtain ⟨s1, h1, h⟩ := Exec.bind_eq_ok.1 h
    obtain ⟨⟨s2, tr2⟩, h2, h⟩ := Exec.bind_eq_ok.1 h
    cases h
    simp only [List.map_cons, IoQ.run, h1, Exec.ok_bind]
    exact ih s1 tr2 h2

/-- What the queue with a mutex has at a place. -/
def Queue.at (q : Queue) : QPlace → Option Nat
  | .head => some q.head.toNat
  | .tail => some q.tail.toNat
  | .data off => (q.data[off]?).map UInt8.toNat

/-- What the trace says of the queue with a mutex is what happens: a place that an access changes is noted as
written, and the mutex is taken and released when that is noted. -/
theorem touch_writes (s s' : Mt) (hl : s.locked = true) (t k : Nat) (h : s.access t k = .ok s') :
    (∀ p, Queue.at s'.q p ≠ Queue.at s.q p → .write p ∈ s.touch t k) ∧
    (s.owner = none → s'.owner ≠ none → s.touch t k = [.lock ()]) ∧
    (s'.owner = none → s.owner ≠ none → s.touch t k = [.unlock ()]) := by
  have quiet : ∀ {P : Prop}, s'.q = s.q → s'.owner = s.owner →
      (∀ p, Queue.at s'.q p ≠ Queue.at s.q p → .write p ∈ s.touch t k) ∧
      (s.owner = none → s'.owner ≠ none → s.touch t k = [.lock ()]) ∧
      (s'.owner = none → s.owner ≠ none → s.touch t k = [.unlock ()]) := by
    intro _ h1 h2
    rw [h1, h2]
    exact ⟨fun p hp => absurd rfl hp, fun a b => absurd a b, fun a b => absurd a b⟩
  unfold Mt.access at h
  split at h
  · cases h; exact quiet (P := True) rfl rfl
  · rename_i item hp
    cases h
    unfold Mt.enter
    rw [hl]
    cases ho : s.owner with
    | none => simp [Mt.touch, hp, ho, Mt.goto]
    | some v => simp [ho]
  · cases h; exact quiet (P := True) rfl rfl
  · simp only at h
    split at h <;> cases h <;> exact quiet (P := True) rfl rfl
  · rename_i item head space hp
    cases h
    refine ⟨fun p hpp => ?_, fun a b => absurd a b, fun a b => absurd a b⟩
    cases p with
    | head => simp [Mt.touch, hp]
    | tail => exact absurd rfl hpp
    | data off => exact absurd rfl hpp
  · rename_i item head space k0 todo hp
    simp only at h
    split at h
    · cases h
    · split at h
      · cases h
        refine ⟨fun p hpp => ?_, fun a b => absurd a b, fun a b => absurd a b⟩
        cases p with
        | head => exact absurd rfl hpp
        | tail => exact absurd rfl hpp
        | data off =>
          simp only [Queue.at, ne_eq] at hpp
          by_cases he : (head * s.q.sz).toNat + (k0 :: todo)[k % (todo.length + 1)]?.getD k0 = off
          · subst he
            simp only [Mt.touch, hp, nextByte, List.mem_singleton]
          · rw [List.getElem?_set_ne he] at hpp
            exact absurd rfl hpp
      · cases h
  · rename_i item ok space hp
    cases h
    refine ⟨fun p hpp => absurd rfl hpp, fun a b => ?_, fun a b => ?_⟩
    · simp [Mt.leave, hl] at b
    · simp [Mt.touch, hp]
  · rename_i hp
    cases h
    unfold Mt.enter
    rw [hl]
    cases ho : s.owner with
    | none => simp [Mt.touch, hp, ho, Mt.goto]
    | some v => simp [ho]
  · cases h; exact quiet (P := True) rfl rfl
  · simp only at h
    split at h <;> cases h <;> exact quiet (P := True) rfl rfl
  · rename_i tail count buf hp
    cases h
    refine ⟨fun p hpp => ?_, fun a b => absurd a b, fun a b => absurd a b⟩
    cases p with
    | head => exact absurd rfl hpp
    | tail => simp [Mt.touch, hp]
    | data off => exact absurd rfl hpp
  · simp only at h
    split at h
    · cases h
    · cases h; exact quiet (P := True) rfl rfl
  · rename_i res count hp
    cases h
    refine ⟨fun p hpp => absurd rfl hpp, fun a b => ?_, fun a b => ?_⟩
    · simp [Mt.leave, hl] at b
    · simp [Mt.touch, hp]

/-- And what a thread does depends on no other places than those noted as read: if memory differs
elsewhere, the thread goes on in the same way. -/
theorem touch_reads (s s' : Mt) (t k : Nat) (h : s.access t k = .ok s') (q2 : Queue)
    (hn : q2.num = s.q.num) (hz : q2.sz = s.q.sz) (hd : q2.data.length = s.q.data.length)
    (hr : ∀ p, .read p ∈ s.touch t k → Queue.at q2 p = Queue.at s.q p) :
    ∃ s2, Mt.access { s with q := q2 } t k = .ok s2 ∧ s2.th = s'.th ∧ s2.owner = s'.owner ∧ s2.log = s'.log ∧
      ∀ p, .write p ∈ s.touch t k → Queue.at s2.q p = Queue.at s'.q p := by
  unfold Mt.access at h
  unfold Mt.access
  split at h
  · rename_i hp
    cases h
    simp only [hp, Mt.touch]
    exact ⟨_, rfl, rfl, rfl, rfl, nofun⟩
  · rename_i item hp
    cases h
    simp only [hp, Mt.touch]
    refine ⟨_, rfl, ?_⟩
    unfold Mt.enter
    dsimp only
    split
    · cases ho : s.owner with
      | none => exact ⟨rfl, rfl, rfl, by simp⟩
      | some v => exact ⟨rfl, ho.symm, rfl, by simp⟩
    · refine ⟨rfl, rfl, rfl, ?_⟩
      intro p hpp
      exfalso
      revert hpp
      split <;> simp
  · rename_i item hp
    cases h
    simp only [hp, Mt.touch, List.mem_singleton, ThreadOp.read.injEq, Queue.at] at hr ⊢
    have hh := hr .head rfl
    simp only [Option.some.injEq] at hh
    have hh : q2.head = s.q.head := UInt32.toNat_inj.1 hh
    exact ⟨_, rfl, by simp only [Mt.goto, hh], rfl, rfl, by simp⟩
  · rename_i item head hp
    simp only [hp, Mt.touch, List.mem_singleton, ThreadOp.read.injEq] at hr ⊢
    have hh := hr .tail rfl
    simp only [Queue.at, Option.some.injEq] at hh
    have hh : q2.tail = s.q.tail := UInt32.toNat_inj.1 hh
    simp only at h
    rw [hh, hn, hz]
    split at h
    · rename_i hc
      cases h
      rw [if_pos hc]
      exact ⟨_, rfl, rfl, rfl, rfl, by simp⟩
    · rename_i hc
      cases h
      rw [if_neg hc]
      exact ⟨_, rfl, rfl, rfl, rfl, by simp⟩
  · rename_i item head space hp
    cases h
    simp only [hp, Mt.touch, List.mem_singleton, ThreadOp.write.injEq]
    refine ⟨_, rfl, rfl, rfl, rfl, ?_⟩
    rintro p rfl
    simp only [Queue.at, hn]
  · rename_i item head space k0 todo hp
    simp only [hp, Mt.touch, List.mem_singleton, ThreadOp.write.injEq]
    simp only at h
    rw [hz]
    split at h
    · cases h
    · rename_i b hb
      split at h
      · rename_i hlt
        cases h
        rw [hd, if_pos hlt]
        refine ⟨_, rfl, rfl, rfl, rfl, ?_⟩
        rintro p rfl
        simp only [Queue.at, nextByte]
        rw [List.getElem?_set_self (by rw [hd]; exact hlt), List.getElem?_set_self hlt]
      · cases h
  · rename_i item ok space hp
    cases h
    simp only [hp, Mt.touch]
    exact ⟨_, rfl, rfl, rfl, rfl, by simp⟩
  · rename_i hp
    cases h
    simp only [hp, Mt.touch]
    refine ⟨_, rfl, ?_⟩
    unfold Mt.enter
    dsimp only
    split
    · cases ho : s.owner with
      | none => exact ⟨rfl, rfl, rfl, by simp⟩
      | some v => exact ⟨rfl, ho.symm, rfl, by simp⟩
    · refine ⟨rfl, rfl, rfl, ?_⟩
      intro p hpp
      exfalso
      revert hpp
      split <;> simp
  · rename_i hp
    cases h
    simp only [hp, Mt.touch, List.mem_singleton, ThreadOp.read.injEq, Queue.at] at hr ⊢
    have hh := hr .head rfl
    simp only [Option.some.injEq] at hh
    have hh : q2.head = s.q.head := UInt32.toNat_inj.1 hh
    exact ⟨_, rfl, by simp only [Mt.goto, hh], rfl, rfl, by simp⟩
  · rename_i head hp
    simp only [hp, Mt.touch, List.mem_singleton, ThreadOp.read.injEq] at hr ⊢
    have hh := hr .tail rfl
    simp only [Queue.at, Option.some.injEq] at hh
    have hh : q2.tail = s.q.tail := UInt32.toNat_inj.1 hh
    simp only at h
    rw [hh, hn, hz]
    split at h
    · rename_i hc
      cases h
      rw [if_pos hc]
      exact ⟨_, rfl, rfl, rfl, rfl, by simp⟩
    · rename_i hc
      cases h
      rw [if_neg hc]
      exact ⟨_, rfl, rfl, rfl, rfl, by simp⟩
  · rename_i tail count buf hp
    cases h
    simp only [hp, Mt.touch, List.mem_singleton, ThreadOp.write.injEq]
    refine ⟨_, rfl, rfl, rfl, rfl, ?_⟩
    rintro p rfl
    simp only [Queue.at, hn]
  · rename_i tail count buf k0 todo hp
    simp only [hp, Mt.touch, List.mem_singleton, ThreadOp.read.injEq] at hr ⊢
    have hh := hr _ rfl
    simp only [Queue.at, nextByte] at hh
    simp only at h
    rw [hz]
    split at h
    · cases h
    · rename_i b hb
      rw [hb] at hh
      simp only [Option.map_some, Option.map_eq_some_iff] at hh
      obtain ⟨b', hb1, hb2⟩ := hh
      have : b' = b := UInt8.toNat_inj.1 hb2
      subst this
      cases h
      simp only [hb1]
      exact ⟨_, rfl, rfl, rfl, rfl, by simp⟩
  · rename_i res count hp
    cases h
    simp only [hp, Mt.touch]
    exact ⟨_, rfl, rfl, rfl, rfl, by simp⟩

/-- What changes `shutting_down` is noted as a write. -/
theorem shutting_noted {Q : QImpl} (A : QTouch Q) (s s' : IoQ σ Q) (a : QAct) (h : s.step a = .ok s')
    (hc : s'.io.shutting ≠ s.io.shutting) : .write .shutting ∈ s.touch A s' a := by
  by_cases ha : a = .shutdown
  · subst ha
    obtain ⟨io, h1, h⟩ := Exec.bind_eq_ok.1 h
    cases h
    unfold Iothr.shutdown at h1
    split at h1
    · cases h1; exact absurd rfl hc
    · rename_i hs
      simp only [IoQ.touch]
      rw [if_neg hs]; simp
  · exact absurd ((IoQ.step_fr h).2.2.1 ha) hc

/-- What changes anything the I/O thread has for itself is noted as a write, in all runs. -/
theorem own_noted (opt : IothrOptions) (hr : Reached opt) (hpow : ∃ k, opt.inputQueueSize = 2 ^ k) (m : Machine) (w : Writer σ)
    (A : QTouch (opt.queueImpl m)) (s0 s s' : IoQ σ (opt.queueImpl m)) (hi : IoQ.init (opt.queueImpl m) ENTRY_SIZE opt w = some s0)
    (as : List QAct) (h : s0.run as = .ok s) (a : QAct) (hs : s.step a = .ok s')
    (hc : s'.io.writer ≠ s.io.writer ∨ s'.io.outq ≠ s.io.outq ∨ s'.io.pc ≠ s.io.pc ∨ s'.io.opened ≠ s.io.opened ∨
      s'.io.lastOpen ≠ s.io.lastOpen) : .write .own ∈ s.touch A s' a := by
  obtain ⟨hsz, R, hQ⟩ := impl_correct hr hpow m
  obtain ⟨s1, e1, e2, _⟩ := IoQ.Link.init hQ hsz w
  rw [hi] at e1; cases e1
  have hl := (e2.run hQ as h).1
  have same : ∀ {s'' : IoQ σ (opt.queueImpl m)}, s.step a = .ok s'' → IoQ.ClientStep s s'' → False := by
    intro s'' e1 e2
    rw [hs] at e1; cases e1
    rcases hc with hc | hc | hc | hc | hc
    · exact hc e2.io.writer
    · exact hc e2.io.outq
    · exact hc e2.io.pc
    · exact hc e2.io.opened
    · exact hc e2.io.lastOpen
  have refl : s' ≠ s := by
    rintro rfl
    rcases hc with hc | hc | hc | hc | hc <;> exact hc rfl
  cases hd : s.io.destroyed with
  | true => exact absurd (hl.dead hd hs) refl
  | false =>
    obtain ⟨G, hl⟩ := hl.live hd
    cases a with
    | submit q t raw data f => obtain ⟨_, e1, _, e3⟩ := hl.submit hQ q t raw data f; exact (same e1 e3).elim
    | prod q t k => obtain ⟨_, e1, _, e3⟩ := hl.prod hQ q t k; exact (same e1 e3).elim
    | flush q b i => obtain ⟨_, e1, _, e3⟩ := hl.flush hQ q b i; exact (same e1 e3).elim
    | getQueue => obtain ⟨_, e1, _, e3⟩ := hl.getQueue; exact (same e1 e3).elim
    | shutdown => obtain ⟨_, e1, _, e3⟩ := hl.shutdown; exact (same e1 e3).elim
    | io now wake k =>
      simp only [IoQ.touch, IoQ.ioTouch]
      split
      · rename_i hp
        refine absurd ?_ refl
        simp only [IoQ.step, IoQ.ioStep, hp, Iothr.ioStep, Exec.ok_bind] at hs
        cases hs; rfl
      · simp
    | finish =>
      simp only [IoQ.touch]
      by_cases hcd : s.io.shutting = true ∧ s.io.pc = .exited ∧ s.io.destroyed = false ∧ s.qs.all (opt.queueImpl m).quiet = true
      · have hs2 := hs
        simp only [IoQ.step, IoQ.finish] at hs2
        rw [if_pos hcd] at hs2
        obtain ⟨xss, _, hs2⟩ := Exec.bind_eq_ok.1 hs2
        split at hs2
        · obtain ⟨io, e1, hs2⟩ := Exec.bind_eq_ok.1 hs2
          unfold Iothr.finish at e1
          rw [if_pos ⟨hcd.1, hcd.2.1, hcd.2.2.1⟩] at e1
          obtain ⟨⟨r, rdwr⟩, _, e1⟩ := Exec.bind_eq_ok.1 e1
          cases e1
          cases hs2
          rw [if_pos ⟨hd, rfl⟩]
          simp
        · cases hs2
      · refine absurd ?_ refl
        simp only [IoQ.step, IoQ.finish] at hs
        rw [if_neg hcd] at hs
        cases hs; rfl

/-! ## C122 -/

/-- Options for which the queue with a mutex is chosen: those for multiple producers, and all in a build without
memory barriers (neither x86-64 nor ia64). -/
theorem mutex_chosen (opt : IothrOptions) (m : Machine) (h : opt.queueModel ≠ 0 ∨ m = .other) : opt.queueImpl m = mutexQueue := by
  unfold IothrOptions.queueImpl
  rcases h with h | rfl
  · rw [if_neg h]
  · split <;> rfl

/-- **C122**, part: with the queue that has a mutex nothing has a data race but the flag `shutting_down`. -/
theorem mutex_races_partial (opt : IothrOptions) (hr : Reached opt) (hpow : ∃ k, opt.inputQueueSize = 2 ^ k) (w : Writer σ)
    (s0 s : IoQ σ mutexQueue) (hi : IoQ.init mutexQueue ENTRY_SIZE opt w = some s0) (as : List (Nat × QAct))
    (tr : List (ThreadEv Place Mutex)) (h : s0.trace mutexTouch as = .ok (s, tr)) (x : Place) (hx : Race tr x) : x = .shutting := by
  obtain ⟨hsz, hq, hm⟩ := impl_size hr hpow
  have h0 := IoQ.Race0.init (mutex_correct hq hm) hsz hi
  have h1 := (h0.trace (mutex_correct hq hm) as h).ord x
  rw [List.nil_append] at h1
  by_cases hs : x = .shutting
  · exact hs
  · exact absurd hx (h1 hs).no_race

/-- The queue for multiple producers. -/
def traceShared (as : List (Nat × QAct)) : Exec (IoQ Pipe mutexQueue × List (ThreadEv Place Mutex)) :=
  match IoQ.init mutexQueue ENTRY_SIZE twoShared pipeWriter with
  | some s => s.trace mutexTouch as
  | none => .error .fuel

/-- A run that meets the hypotheses: two threads submit, one of them while the I/O thread is at work; destroy. Nearly 1000 accesses of
three threads; payloads 0 and 1 are accessed by two threads each. -/
example : ∃ s0 s tr, IoQ.init mutexQueue ENTRY_SIZE twoShared pipeWriter = some s0 ∧
    s0.trace mutexTouch ((qPre ++ qMid 1 ++ [QAct.shutdown] ++ qPost).map fun a => (0, a)) = .ok (s, tr) ∧
    s.io.destroyed = true ∧ 900 ≤ tr.length ∧
    (⟨1, .write (.payload 0)⟩ ∈ tr ∧ ⟨0, .read (.payload 0)⟩ ∈ tr ∧ ⟨0, .write (.payload 0)⟩ ∈ tr) ∧
    (⟨2, .write (.payload 2)⟩ ∈ tr ∧ ⟨0, .write (.payload 2)⟩ ∈ tr) := by
  have h : ((traceShared ((qPre ++ qMid 1 ++ [QAct.shutdown] ++ qPost).map fun a => (0, a))).map fun r =>
      [r.1.io.destroyed, decide (900 ≤ r.2.length), decide (⟨1, .write (.payload 0)⟩ ∈ r.2), decide (⟨0, .read (.payload 0)⟩ ∈ r.2),
        decide (⟨0, .write (.payload 0)⟩ ∈ r.2), decide (⟨2, .write (.payload 2)⟩ ∈ r.2), decide (⟨0, .write (.payload 2)⟩ ∈ r.2)]) =
      .ok [true, true, true, true, true, true, true] := by
    decide +kernel
  unfold traceShared at h
  split at h
  · rename_i s0 h0
    cases hr : s0.trace mutexTouch ((qPre ++ qMid 1 ++ [QAct.shutdown] ++ qPost).map fun a => (0, a)) with
    | error e => rw [hr] at h; cases h
    | ok r =>
      rw [hr] at h
      simp only [Except.map, Except.ok.injEq, List.cons.injEq, decide_eq_true_eq, and_true] at h
      obtain ⟨h1, h2, h3, h4, h5, h6, h7⟩ := h
      exact ⟨s0, r.1, r.2, h0, hr, h1, h2, ⟨h3, h4, h5⟩, h6, h7⟩
  · cases h

/-! ## What races -/

/-- No thread synchronizes with another one, and two threads access `x`, one of them writing. -/
def racing (tr : List (ThreadEv Place Mutex)) (x : Place) : Bool :=
  tr.all (fun a => match a.op with
    | .unlock _ => false
    | .exit => false
    | _ => true) &&
  tr.any fun a => tr.any fun b => decide (a.thread ≠ b.thread ∧ (a.op = .read x ∨ a.op = .write x) ∧ b.op = .write x)

theorem race_of_racing {tr : List (ThreadEv Place Mutex)} {x : Place} (h : racing tr x = true) : Race tr x := by
  simp only [racing, Bool.and_eq_true, List.all_eq_true, List.any_eq_true, decide_eq_true_eq] at h
  obtain ⟨h1, a, ha, b, hb, h2, h3, h4⟩ := h
  obtain ⟨i, hi⟩ := List.getElem?_of_mem ha
  obtain ⟨j, hj⟩ := List.getElem?_of_mem hb
  have same : ∀ {i j : Nat} {a b : ThreadEv Place Mutex}, tr[i]? = some a → tr[j]? = some b → Before tr i j → a.thread = b.thread := by
    intro i j a b hi hj hb
    obtain ⟨a', b', e1, e2, e3⟩ := before_same (tr := tr)
      (fun a ha m e => by have := h1 a ha; rw [e] at this; cases this)
      (fun a ha e => by have := h1 a ha; rw [e] at this; cases this) hb
    rw [hi] at e1; rw [hj] at e2
    cases e1; cases e2
    exact e3
  exact ⟨i, j, a, b, hi, hj, h2, h3, Or.inr h4, Or.inr h4, fun hb' => h2 (same hi hj hb'), fun hb' => h2 (same hj hi hb').symm⟩

/-- Destroy sets the flag while the I/O thread looks at it; and submit looks at it. -/
def shutRace : List (Nat × QAct) :=
  [(0, .io 10 .timeout 0), (0, .shutdown), (0, .io 10 .timeout 0)]

/-- **C122**, refuted: the flag `shutting_down` races, with the queue for multiple producers, too. -/
theorem shutting_races : ∃ s0 s tr, IoQ.init mutexQueue ENTRY_SIZE twoShared pipeWriter = some s0 ∧
    s0.trace mutexTouch shutRace = .ok (s, tr) ∧ Race tr .shutting := by
  have h : ((traceShared shutRace).map fun r => racing r.2 .shutting) = .ok true := by decide +kernel
  unfold traceShared at h
  split at h
  · rename_i s0 h0
    cases hr : s0.trace mutexTouch shutRace with
    | error e => rw [hr] at h; cases h
    | ok r =>
      rw [hr] at h
      simp only [Except.map, Except.ok.injEq] at h
      exact ⟨s0, r.1, r.2, h0, hr, race_of_racing h⟩
  · cases h

/-- A submission with the lock-free queue; the I/O thread takes the payload and frees it. -/
def freeRace : List (Nat × QAct) :=
  (aSubmit 0 0 1 [1] true ++ drainStores 0 ++ List.replicate 60 (QAct.io 10 .timeout 0) ++ List.replicate 60 (QAct.io 20 .timeout 0)).map fun a => (0, a)

/-- The queue for a single producer. -/
def traceSingle (as : List (Nat × QAct)) : Exec (IoQ Pipe tsoQueue × List (ThreadEv Place Mutex)) :=
  match IoQ.init tsoQueue ENTRY_SIZE twoQueues pipeWriter with
  | some s => s.trace tsoTouch as
  | none => .error .fuel

/-- **C122**, refuted: with the lock-free queue, the indices, the elements and the payloads race: barriers are not operations that
synchronize threads in the sense of C11. (That the queue works on the machines it is meant for is C33 and C112.) -/
theorem lockfree_races : ∃ s0 s tr, IoQ.init tsoQueue ENTRY_SIZE twoQueues pipeWriter = some s0 ∧
    s0.trace tsoTouch freeRace = .ok (s, tr) ∧ Race tr (.queue 0 .head) ∧ Race tr (.queue 0 .tail) ∧
    Race tr (.queue 0 (.data 0)) ∧ Race tr (.payload 0) := by
  have h : ((traceSingle freeRace).map fun r =>
      [racing r.2 (.queue 0 .head), racing r.2 (.queue 0 .tail), racing r.2 (.queue 0 (.data 0)), racing r.2 (.payload 0)]) =
      .ok [true, true, true, true] := by decide +kernel
  unfold traceSingle at h
  split at h
  · rename_i s0 h0
    cases hr : s0.trace tsoTouch freeRace with
    | error e => rw [hr] at h; cases h
    | ok r =>
      rw [hr] at h
      simp only [Except.map, Except.ok.injEq, List.cons.injEq, and_true] at h
      exact ⟨s0, r.1, r.2, h0, hr, race_of_racing h.1, race_of_racing h.2.1, race_of_racing h.2.2.1, race_of_racing h.2.2.2⟩
  · cases h

/-- **C122**, part: with either queue, and whatever an operation on a queue accesses in it, there is no data race on what the I/O
thread has for itself (the writer, its buffers and flags), which destroy frees; nor on the number of the next queue handle. -/
theorem lockfree_races_partial (opt : IothrOptions) (hr : Reached opt) (hpow : ∃ k, opt.inputQueueSize = 2 ^ k) (m : Machine) (w : Writer σ)
    (A : QTouch (opt.queueImpl m)) (s0 s : IoQ σ (opt.queueImpl m)) (hi : IoQ.init (opt.queueImpl m) ENTRY_SIZE opt w = some s0)
    (as : List (Nat × QAct)) (tr : List (ThreadEv Place Mutex)) (h : s0.trace A as = .ok (s, tr)) :
    ¬ Race tr .own ∧ ¬ Race tr .getIdx := by
  obtain ⟨hsz, R, hQ⟩ := impl_correct hr hpow m
  have h1 := ((IoQ.Own.init hQ hsz hi).trace A hQ as h).known
  rw [List.nil_append] at h1
  exact ⟨h1.ordO.no_race, h1.ordG.no_race⟩

/-- A run that meets the hypotheses, with the lock-free queue: both places are accessed by two threads. -/
example : ∃ s0 s tr, IoQ.init tsoQueue ENTRY_SIZE twoQueues pipeWriter = some s0 ∧
    s0.trace tsoTouch ((qPre ++ qMid 0 ++ [QAct.shutdown] ++ qPost).map fun a => (7, a)) = .ok (s, tr) ∧ s.io.destroyed = true ∧
    (⟨0, .write .own⟩ ∈ tr ∧ ⟨8, .write .own⟩ ∈ tr) ∧ ⟨8, .write .getIdx⟩ ∈ tr := by
  have h : ((traceSingle ((qPre ++ qMid 0 ++ [QAct.shutdown] ++ qPost).map fun a => (7, a))).map fun r =>
      [r.1.io.destroyed, decide (⟨0, .write .own⟩ ∈ r.2), decide (⟨8, .write .own⟩ ∈ r.2), decide (⟨8, .write .getIdx⟩ ∈ r.2)]) =
      .ok [true, true, true, true] := by
    decide +kernel
  unfold traceSingle at h
  split at h
  · rename_i s0 h0
    cases hr : s0.trace tsoTouch ((qPre ++ qMid 0 ++ [QAct.shutdown] ++ qPost).map fun a => (7, a)) with
    | error e => rw [hr] at h; cases h
    | ok r =>
      rw [hr] at h
      simp only [Except.map, Except.ok.injEq, List.cons.injEq, decide_eq_true_eq, and_true] at h
      obtain ⟨h1, h2, h3, h4⟩ := h
      exact ⟨s0, r.1, r.2, h0, hr, h1, ⟨h2, h3⟩, h4⟩
  · cases h

end Fstrm.Props
