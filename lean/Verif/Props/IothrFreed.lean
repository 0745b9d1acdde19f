import Verif.Lemmas.IothrFreed
import Verif.Props.IothrProgress

/-!
# C131: payloads are released while the program runs
-/

set_option autoImplicit false

namespace Fstrm.Props

open Iothr

variable {σ : Type}

/-- A payload that has left the object does not come back. -/
theorem stays_gone {s s' : Iothr σ} (as : List IoAct) (h : s.run as = .ok s') (hl : Live s) {e : Entry}
    (he : e ∈ submits s.log) (hn : e ∉ s.queues.flatten) (hn' : e ∉ s.outq) : e ∉ s'.outq := by
  refine ((run_trs as h).inv (P := fun s => InvA s ∧ e ∈ submits s.log ∧ e ∉ s.queues.flatten ∧ e ∉ s.outq) ?_
    ⟨hl.a, he, hn, hn'⟩).2.2.2
  intro s s' ⟨hA, he, hn, hn'⟩ t
  have sub : ∀ {i : Nat} {x : Entry} {rest : List Entry}, s.queues[i]? = some (x :: rest) →
      e ∉ (s.queues.set i rest).flatten := by
    intro i x rest hq hm
    obtain ⟨l, hl, hel⟩ := List.mem_flatten.1 hm
    rcases List.mem_or_eq_of_mem_set hl with hl | rfl
    · exact hn (List.mem_flatten.2 ⟨l, hl, hel⟩)
    · exact hn (List.mem_flatten.2 ⟨_, List.mem_of_getElem? hq, by simp [hel]⟩)
  refine ⟨hA.tr t, ?_, ?_, ?_⟩
  · obtain ⟨x, hx⟩ := t.log
    rw [hx, submits_append]; exact List.mem_append_left _ he
  · cases t with
    | inserted t e' q wk sig h1 h2 h3 h4 h5 =>
      intro hm
      obtain ⟨l, hl, hel⟩ := List.mem_flatten.1 hm
      rcases List.mem_or_eq_of_mem_set hl with hl | rfl
      · exact hn (List.mem_flatten.2 ⟨l, hl, hel⟩)
      · rcases List.mem_append.1 hel with hel | hel
        · exact hn (List.mem_flatten.2 ⟨_, List.mem_of_getElem? h3, hel⟩)
        · simp only [List.mem_singleton] at hel
          subst hel
          exact (hA.plt _ _ h2).2.2.1 (List.mem_map.2 ⟨e, he, rfl⟩)
    | push i x rest h1 h2 h3 h4 => exact sub h2
    | drop i x rest h1 h2 h3 => exact sub h2
    | finish =>
      intro hm
      obtain ⟨l, hl, hel⟩ := List.mem_flatten.1 hm
      obtain ⟨_, _, rfl⟩ := List.mem_map.1 hl
      cases hel
    | _ => exact hn
  · cases t with
    | push i x rest h1 h2 h3 h4 =>
      intro hm
      rcases List.mem_append.1 hm with hm | hm
      · exact hn' hm
      · simp only [List.mem_singleton] at hm
        subst hm
        exact hn (List.mem_flatten.2 ⟨_, List.mem_of_getElem? h2, by simp⟩)
    | flushOk | flushFail | flushIdle => intro hm; cases hm
    | _ => exact hn'

theorem out_not_queued {s : Iothr σ} (hA : InvA s) {e : Entry} (he : e ∈ s.outq) :
    e ∈ submits s.log ∧ e ∉ s.queues.flatten := by
  have h1 := hA.held e
  have h2 := count_le_one hA.ids e
  have h3 : 0 < s.outq.count e := List.count_pos_iff.2 he
  exact ⟨List.count_pos_iff.1 (by omega), fun h => by
    have := List.count_pos_iff.2 h
    omega⟩

theorem sumSteps_cons {f : Iothr σ → IoAct → Iothr σ → Nat} {s s1 : Iothr σ} {a : IoAct} {as : List IoAct}
    (h : s.step a = .ok s1) : sumSteps f s (a :: as) = f s a s1 + sumSteps f s1 as := by
  simp only [sumSteps, h]

theorem ioSteps_cons {s s1 : Iothr σ} {a : IoAct} {as : List IoAct} (h : s.step a = .ok s1) :
    ioSteps s (a :: as) = (if Iothr.isIo a && !(s.asleep && s1.asleep) then 1 else 0) + ioSteps s1 as := by
  simp only [ioSteps, h]

/-- As long as `e` is in the output buffer, steps of the I/O thread use up the potential. -/
theorem run_potential {s s' : Iothr σ} (bs : List IoAct) (h : s.run bs = .ok s') (hl : Live s) (hW : s.Woken)
    (hs : IoEv.shutdown ∉ s'.log) {e : Entry} (he : e ∈ s.outq) (he' : e ∈ s'.outq) :
    ioSteps s bs + s'.potential ≤ s.potential + spurious s bs * (s.opt.numInputQueues + 3) +
      discards s bs * (3 * s.opt.numInputQueues + 6) := by
  induction bs generalizing s with
  | nil => cases h; simp [ioSteps]; omega
  | cons a bs ih =>
    have hsh := not_shutting (a :: bs) h hl hs
    obtain ⟨s1, h1, h⟩ := Exec.bind_eq_ok.1 h
    obtain ⟨hl1, ho⟩ := hl.step h1
    have hsh1 := not_shutting bs h hl1 hs
    have he1 : e ∈ s1.outq := by
      obtain ⟨g1, g2⟩ := out_not_queued hl.a he
      by_cases hc : e ∈ s1.outq
      · exact hc
      · exfalso
        refine stays_gone bs h hl1 ?_ ?_ hc he'
        · obtain ⟨x, hx⟩ := (step_trs h1).log
          rw [hx, submits_append]; exact List.mem_append_left _ g1
        · exact stays_out [a] (by simp only [Iothr.run, h1]; rfl) hl g1 g2
    have ih := ih h hl1 (hW.step h1) he1
    rw [ho] at ih
    rw [ioSteps_cons h1]
    unfold spurious discards at ih ⊢
    rw [sumSteps_cons h1, sumSteps_cons h1, Nat.add_mul, Nat.add_mul]
    cases a with
    | io now wake =>
      rcases ioStep_potential h1 hl.a hl.g hW hsh he he1 with ⟨hsl, rfl⟩ | hp
      · rw [if_neg (by simp [hsl])]
        omega
      · have e1 : discardAt s (.io now wake) s1 * (3 * s.opt.numInputQueues + 6) =
            if s.opened = false ∧ s1.queues ≠ s.queues then 3 * s.opt.numInputQueues + 6 else 0 := by
          unfold discardAt
          by_cases hc : s.opened = false ∧ s1.queues ≠ s.queues
          · rw [if_pos hc, if_pos ⟨rfl, hc⟩, Nat.one_mul]
          · rw [if_neg hc, if_neg (fun h => hc h.2), Nat.zero_mul]
        have e2 : spuriousAt s (.io now wake) s1 * (s.opt.numInputQueues + 3) =
            if s.asleep = true ∧ wake = .spurious then s.opt.numInputQueues + 3 else 0 := by
          unfold spuriousAt
          cases wake <;> cases s.asleep <;> simp
        rw [e1, e2]
        have : (if (Iothr.isIo (.io now wake) && !(s.asleep && s1.asleep)) = true then 1 else 0) ≤ 1 := by
          split <;> omega
        omega
    | _ =>
      obtain ⟨g1, g2, g3, g4, g5⟩ := client_step h1 (by intro _ _ h; cases h) hsh1
      have := phase_mono g2 g3 g4
      have hp : s1.potential ≤ s.potential := by
        unfold potential; rw [g1, g3]; omega
      rw [if_neg (by simp [Iothr.isIo])]
      omega

/-- The output buffer does not overflow. -/
theorem out_len {s : Iothr σ} {opt : IothrOptions} {w : Writer σ} (as : List IoAct)
    (h : (Iothr.init opt w).run as = .ok s) : s.outq.length ≤ s.opt.outputQueueSize := by
  refine (run_trs as h).inv (P := fun s => s.outq.length ≤ s.opt.outputQueueSize) ?_ (by simp [Iothr.init])
  intro s s' hp t
  cases t with
  | push i x rest h1 h2 h3 h4 => simp only [List.length_append, List.length_cons, List.length_nil]; omega
  | flushOk | flushFail | flushIdle => simp
  | _ => exact hp

/-- An execution can be cut after any number of steps of the I/O thread. -/
theorem ioSteps_split {s s' : Iothr σ} (bs : List IoAct) (h : s.run bs = .ok s') {k : Nat}
    (hk : k ≤ ioSteps s bs) : ∃ b1 b2 s1, s.run b1 = .ok s1 ∧ s1.run b2 = .ok s' ∧ ioSteps s b1 = k ∧
      ioSteps s bs = k + ioSteps s1 b2 ∧
      ∀ f : Iothr σ → IoAct → Iothr σ → Nat, sumSteps f s1 b2 ≤ sumSteps f s bs := by
  induction bs generalizing s k with
  | nil =>
    have : k = 0 := by simpa [ioSteps] using hk
    subst this
    exact ⟨[], [], s, rfl, h, rfl, by simp [ioSteps], fun _ => Nat.le_refl _⟩
  | cons a bs ih =>
    by_cases h0 : k = 0
    · subst h0
      exact ⟨[], a :: bs, s, rfl, h, rfl, by simp, fun _ => Nat.le_refl _⟩
    · obtain ⟨s1, h1, h⟩ := Exec.bind_eq_ok.1 h
      rw [ioSteps_cons h1] at hk
      obtain ⟨b1, b2, s2, i1, i2, i3, i4, i5⟩ := ih h
        (k := k - (if Iothr.isIo a && !(s.asleep && s1.asleep) then 1 else 0)) (by omega)
      refine ⟨a :: b1, b2, s2, by simp only [Iothr.run, h1]; exact i1, i2, ?_, ?_, ?_⟩
      · rw [ioSteps_cons h1, i3]; split <;> omega
      · rw [ioSteps_cons h1, i4]; split <;> omega
      · intro f
        have := i5 f
        rw [sumSteps_cons h1]; omega

/-- **C131**, as far as it is true. Let the submission of `e` have succeeded. Once the I/O thread has made
`(input_queue_size - 1) * (num_input_queues + 3) + output_queue_size * (3 * num_input_queues + 6)` more steps, not counting
those in which it goes on waiting, it does not hold `e` any more, unless `fstrm_iothr_destroy` has been called: if `e` has
a free function, it has been called. The bound grows by `num_input_queues + 3` with every wait that ends without a
reason, and by `3 * num_input_queues + 6` with every payload taken from a queue while the output is
closed. -/
theorem accepted_freed_partial (opt : IothrOptions) (w : Writer σ) (as bs : List IoAct) (s s' : Iothr σ)
    (h : (Iothr.init opt w).run as = .ok s) (e : Entry) (he : e ∈ submits s.log)
    (hb : s.run bs = .ok s') (hs : IoEv.shutdown ∉ s'.log)
    (hk : (opt.inputQueueSize - 1) * (opt.numInputQueues + 3) +
      opt.outputQueueSize * (3 * opt.numInputQueues + 6) +
      spurious s bs * (opt.numInputQueues + 3) +
      discards s bs * (3 * opt.numInputQueues + 6) ≤ ioSteps s bs) :
    e ∉ s'.queues.flatten ∧ e ∉ s'.outq ∧ (e.hasFree = true → e ∈ frees s'.log) := by
  obtain ⟨hl, ho⟩ := (Live.init opt w).run as h
  have hW0 : (Iothr.init opt w).Woken := by intro d hd; cases hd
  have key : ∀ (as : List IoAct) (a b : Iothr σ), a.run as = .ok b → a.Woken → b.Woken := by
    intro as
    induction as with
    | nil => intro a b h hw; cases h; exact hw
    | cons x as ih =>
      intro a b h hw
      obtain ⟨a1, h1, h⟩ := Exec.bind_eq_ok.1 h
      exact ih a1 b h (hw.step h1)
  have ho1 : s.opt.numInputQueues = opt.numInputQueues ∧ s.opt.outputQueueSize ≤ opt.outputQueueSize := by
    rw [ho]
    unfold Iothr.init
    simp only
    split
    · rename_i hc; exact ⟨rfl, Nat.le_of_lt hc⟩
    · exact ⟨rfl, Nat.le_refl _⟩
  obtain ⟨b1, b2, s1, r1, r2, r3, r4, r5⟩ := ioSteps_split bs hb
    (k := (opt.inputQueueSize - 1) * (opt.numInputQueues + 3)) (by omega)
  obtain ⟨hl1, hoo⟩ := hl.run b1 r1
  have hs1 : IoEv.shutdown ∉ s1.log := by
    obtain ⟨x, hx⟩ := (run_trs b2 r2).log
    intro hm
    exact hs (by rw [hx]; exact List.mem_append_left _ hm)
  obtain ⟨q1, _⟩ := accepted_leaves opt w as b1 s s1 h e he r1 hs1 (by omega)
  have he1 : e ∈ submits s1.log := by
    obtain ⟨x, hx⟩ := (run_trs b1 r1).log
    rw [hx, submits_append]; exact List.mem_append_left _ he
  have hq := stays_out b2 r2 hl1 he1 q1
  have hout : e ∉ s'.outq := by
    intro hin
    by_cases hc : e ∈ s1.outq
    · have hp := run_potential b2 r2 hl1 (key b1 s s1 r1 (key as _ s h hW0)) hs hc hin
      obtain ⟨hl', ho'⟩ := hl1.run b2 r2
      have hsp := r5 spuriousAt
      have hd := r5 discardAt
      change spurious s1 b2 ≤ spurious s bs at hsp
      change discards s1 b2 ≤ discards s bs at hd
      have hpos : 1 ≤ s'.potential := by
        have hns := not_shutting [] (s := s') rfl hl' hs
        unfold potential phase
        split
        · split <;> omega
        · split <;> (try split) <;> omega
        · omega
        · rename_i h1 h2 h3
          exfalso
          cases hpc : s'.pc with
          | start => rw [hl'.a.start hpc] at hin; cases hin
          | top => exact h1 hpc
          | work i t => exact h2 i t hpc
          | sleep d => exact h3 d hpc
          | drain i t => have := hl'.g.drain i t hpc; rw [hns] at this; cases this
          | exited => rw [hl'.a.exit hpc] at hin; cases hin
      have hle : s1.potential ≤ opt.outputQueueSize * (3 * opt.numInputQueues + 6) := by
        have hph := phase_le s1
        have hlen := List.length_pos_of_mem hc
        unfold potential
        rw [hoo, ho1.1] at hph ⊢
        have : (s.opt.outputQueueSize - s1.outq.length + 1) * (3 * opt.numInputQueues + 6) ≤
            opt.outputQueueSize * (3 * opt.numInputQueues + 6) := by
          refine Nat.mul_le_mul_right _ ?_
          have hlen2 := out_len (as ++ b1) ((Iothr.run_append _ _ _ _).2 ⟨s, h, r1⟩)
          rw [hoo] at hlen2
          omega
        rw [Nat.succ_mul] at this
        omega
      rw [hoo, ho1.1] at hp
      have m1 := Nat.mul_le_mul_right (opt.numInputQueues + 3) hsp
      have m2 := Nat.mul_le_mul_right (3 * opt.numInputQueues + 6) hd
      omega
    · exact stays_gone b2 r2 hl1 he1 q1 hc hin
  refine ⟨hq, hout, fun hf => ?_⟩
  obtain ⟨hl', _⟩ := hl1.run b2 r2
  have h1 := hl'.a.cons e hf
  have h2 : 0 < (submits s'.log).count e := by
    obtain ⟨x, hx⟩ := (run_trs bs hb).log
    rw [hx, submits_append]
    exact List.count_pos_iff.2 (List.mem_append_left _ he)
  rw [List.count_eq_zero.2 hq, List.count_eq_zero.2 hout] at h1
  exact List.count_pos_iff.1 (by omega)

/-- Two payloads are submitted while the I/O thread opens the output. -/
def freedPre : List IoAct :=
  [.io 10 .timeout, .submit 0 0 (some [1]) true, .insert 0, .submit 1 0 (some [2]) true, .insert 1]

/-- Fifty steps of the I/O thread, with a third payload arriving and one wait that ends without a
reason. -/
def freedPost : List IoAct :=
  (List.range 20).map (fun k => .io (10 + k) .timeout) ++ [.submit 0 0 (some [3]) true, .insert 0] ++
  (List.range 30).map (fun k => .io (30 + k) (if k = 1 then .spurious else .timeout))

/-! ### The bound does not hold without the last summand -/

/-- A transport that can be opened once and then takes one write; everything later fails. -/
def breakOps : Ops Nat where
  destroy := none
  opn := some fun n => if n = 0 then .ok (.success, 1) else .ok (.failure, n)
  cls := some fun n => .ok (.success, n)
  rd := none
  wr := some fun _ n => if n = 1 then .ok (.success, 2) else .ok (.failure, n)

/-- A writer over this transport. -/
def breakWriter : Writer Nat := (Writer.init (some ⟨[[7]]⟩) (Rdwr.init breakOps 0)).get rfl

/-- Default options with an input queue of size 4 and an output buffer of size 2. -/
def smallBuffer : IothrOptions := (setOpt .outputQueueSize (setOpt .inputQueueSize IothrOptions.init 4).2 2).2

example : ((Iothr.init smallBuffer pipeWriter).run freedPre).map (fun s => (submits s.log, ioSteps s freedPost,
      spurious s freedPost, discards s freedPost, (s.run freedPost).map fun s' => (decide (IoEv.shutdown ∈ s'.log), frees s'.log))) =
      .ok ([⟨0, 0, [1], true⟩, ⟨1, 0, [2], true⟩], 50, 1, 0,
        .ok (false, [⟨0, 0, [1], true⟩, ⟨1, 0, [2], true⟩, ⟨2, 0, [3], true⟩])) ∧
    (smallBuffer.inputQueueSize - 1) * (smallBuffer.numInputQueues + 3) +
      smallBuffer.outputQueueSize * (3 * smallBuffer.numInputQueues + 6) + 1 * (smallBuffer.numInputQueues + 3) +
      0 * (3 * smallBuffer.numInputQueues + 6) = 34 := by
  constructor
  · rfl
  · decide

/-- Three payloads are submitted; the I/O thread opens the output at second 10 and takes them
from the queue. To make room for the third it writes the first two, which fails. -/
def breakPre : List IoAct :=
  [.submit 0 0 (some [1]) true, .insert 0, .submit 0 0 (some [2]) true, .insert 0,
    .submit 0 0 (some [3]) true, .insert 0] ++ ioTimes 10 10

/-- The third payload. -/
def third : Entry := ⟨2, 0, [3], true⟩

/-- Then one more is submitted and taken from the queue every second, for `k` seconds. -/
def keepBusy : Nat → List IoAct
  | 0 => []
  | k + 1 => keepBusy k ++ [.submit 0 0 (some [4]) true, .insert 0] ++ ioTimes 3 (11 + k)

/-- The state in which the I/O thread keeps the third payload; `q` are the input queues. -/
structure Kept (q : List (List Entry)) (s : Iothr Nat) : Prop where
  opt : s.opt = smallBuffer
  pc : s.pc = .top
  opened : s.opened = false
  shutting : s.shutting = false
  destroyed : s.destroyed = false
  pending : s.pending 0 = none
  queues : s.queues = q
  outq : s.outq = [third]
  next : 3 ≤ s.nextId
  freed : third ∉ frees s.log
  handed : third ∉ handed s.log
  noShut : IoEv.shutdown ∉ s.log
  state : s.writer.state ≠ .opened
  ops : s.writer.rdwr.ops = breakOps
  obj : s.writer.rdwr.obj ≠ 0

theorem Kept.maybeOpen {q : List (List Entry)} {s : Iothr Nat} (h : Kept q s) (now : Nat) :
    ∃ s', s.maybeOpen now = .ok s' ∧ Kept q s' := by
  obtain ⟨opt, pc, opened, shutting, destroyed, pending, queues, outq, next, freed, hand, noShut, state, ops, obj⟩ := h
  unfold Iothr.maybeOpen
  rw [if_neg (by simp [opened])]
  split
  · exact ⟨s, rfl, opt, pc, opened, shutting, destroyed, pending, queues, outq, next, freed, hand, noShut, state, ops, obj⟩
  · have : s.writer.open = .ok (.failure, { s.writer with rdwr :=
        { s.writer.rdwr with log := s.writer.rdwr.log ++ [.opn .failure] } }) := by
      unfold Writer.open Rdwr.open
      rw [if_neg state, ops]
      simp [breakOps, obj, Exec.ok_bind]
      exact ops.symm
    refine ⟨_, by rw [this]; rfl, ?_⟩
    refine ⟨opt, pc, by simp [Iothr.emit], shutting, destroyed, pending, queues, outq, next, ?_, ?_, ?_, state, ops, obj⟩
    · simp only [Iothr.emit, frees_append]; simpa [frees] using freed
    · simp only [Iothr.emit, handed_append]; simpa [Fstrm.handed] using hand
    · simpa [Iothr.emit] using noShut


theorem Kept.cycle {s : Iothr Nat} (h : Kept [[]] s) (now : Nat) :
    ∃ s', s.run ([.submit 0 0 (some [4]) true, .insert 0] ++ ioTimes 3 now) = .ok s' ∧ Kept [[]] s' ∧
      ioSteps s ([.submit 0 0 (some [4]) true, .insert 0] ++ ioTimes 3 now) = 3 := by
  obtain ⟨opt, pc, opened, shutting, destroyed, pending, queues, outq, next, freed, hand, noShut, state, ops, obj⟩ := h
  have ho : smallBuffer.inputQueueSize = 4 ∧ smallBuffer.notifyThreshold = 32 ∧ smallBuffer.numInputQueues = 1 := by decide
  let e : Entry := ⟨s.nextId, 0, [4], true⟩
  have hne : third ≠ e := by
    intro h
    have : third.id = e.id := by rw [h]
    simp only [third, e] at this
    omega
  let s1 : Iothr Nat := { s with nextId := s.nextId + 1, pending := fun t' => if t' = 0 then some e else s.pending t' }
  have e1 : s.step (.submit 0 0 (some [4]) true) = .ok s1 := by
    simp [Iothr.step, Iothr.submitCheck, destroyed, pending, queues, shutting, s1, e]
  let s2 : Iothr Nat := Iothr.emit
    { s1 with pending := fun t' => if t' = 0 then none else s1.pending t', queues := [[e]] } (.submitted e)
  have e2 : s1.step (.insert 0) = .ok s2 := by
    simp [Iothr.step, Iothr.submitInsert, s1, s2, e, destroyed, queues, opt, ho, Iothr.emit]
  have hk : Kept [[e]] s2 := by
    refine ⟨opt, pc, opened, shutting, destroyed, by simp [s2, Iothr.emit], rfl, outq, by simp [s2, s1, Iothr.emit]; omega, ?_, ?_, ?_, state, ops, obj⟩
    · simp only [s2, Iothr.emit, frees_append]; simpa [frees] using freed
    · simp only [s2, Iothr.emit, handed_append]; simpa [Fstrm.handed] using hand
    · simpa [s2, Iothr.emit] using noShut
  obtain ⟨s4, m4, k4⟩ := hk.maybeOpen now
  have q4 := k4.queues
  have e3 : s2.step (.io now .timeout) = .ok { s4 with pc := .work 0 0 } := by
    simp only [Iothr.step, Iothr.ioStep]
    rw [show s2.pc = .top from pc]
    dsimp only
    rw [if_neg (by simp [s2, s1, shutting, Iothr.emit]), m4]
    rfl
  have e4 : Iothr.step { s4 with pc := .work 0 0 } (.io now .timeout) =
      .ok { { s4 with queues := [[]] }.emit (.freed e) with pc := .work 1 1 } := by
    have h1 := k4.opt
    have h2 := k4.opened
    simp [Iothr.step, Iothr.ioStep, Iothr.processQueue, q4, h1, ho, Iothr.processEntry, h2, Iothr.freeEntry, e, Iothr.emit,
      Exec.ok_bind]
  have e5 : Iothr.step { { s4 with queues := [[]] }.emit (.freed e) with pc := .work 1 1 } (.io now .timeout) =
      .ok ({ s4 with queues := [[]] }.emit (.freed e)) := by
    have h1 := k4.opt
    have h2 := k4.pc
    simp [Iothr.step, Iothr.ioStep, h1, ho, Iothr.emit, h2]
  refine ⟨{ s4 with queues := [[]] }.emit (.freed e), ?_, ?_, ?_⟩
  · simp only [ioTimes, List.replicate, List.cons_append, List.nil_append, Iothr.run, e1, e2, e3, e4, e5, Exec.ok_bind]
  · obtain ⟨opt, pc, opened, shutting, destroyed, pending, queues, outq, next, freed, hand, noShut, state, ops, obj⟩ := k4
    refine ⟨opt, pc, opened, shutting, destroyed, pending, rfl, outq, next, ?_, ?_, ?_, state, ops, obj⟩
    · simp only [Iothr.emit, frees_append]; simpa [frees, hne] using freed
    · simp only [Iothr.emit, handed_append]; simpa [Fstrm.handed] using hand
    · simpa [Iothr.emit] using noShut
  · simp only [ioTimes, List.replicate, List.cons_append, List.nil_append]
    rw [ioSteps_cons e1, ioSteps_cons e2, ioSteps_cons e3, ioSteps_cons e4, ioSteps_cons e5]
    simp [Iothr.isIo, Iothr.asleep, ioSteps]

theorem ioSteps_append {s s1 : Iothr σ} {a b : List IoAct} (h : s.run a = .ok s1) :
    ioSteps s (a ++ b) = ioSteps s a + ioSteps s1 b := by
  induction a generalizing s with
  | nil => cases h; simp [ioSteps]
  | cons x a ih =>
    obtain ⟨s2, h1, h2⟩ := Exec.bind_eq_ok.1 h
    rw [List.cons_append, ioSteps_cons h1, ioSteps_cons h1, ih h2]
    omega

theorem Kept.busy {s : Iothr Nat} (h : Kept [[]] s) (k : Nat) :
    ∃ s', s.run (keepBusy k) = .ok s' ∧ Kept [[]] s' ∧ ioSteps s (keepBusy k) = 3 * k := by
  induction k with
  | zero => exact ⟨s, rfl, h, rfl⟩
  | succ k ih =>
    obtain ⟨s1, r1, k1, i1⟩ := ih
    obtain ⟨s2, r2, k2, i2⟩ := k1.cycle (11 + k)
    refine ⟨s2, ?_, k2, ?_⟩
    · rw [keepBusy, List.append_assoc]; exact (Iothr.run_append _ _ _ _).2 ⟨s1, r1, r2⟩
    · rw [keepBusy, List.append_assoc, ioSteps_append r1, i1, i2]; omega

theorem breakPre_kept : ∃ s, (Iothr.init smallBuffer breakWriter).run breakPre = .ok s ∧ Kept [[]] s ∧ third ∈ submits s.log := by
  have h1 : ((Iothr.init smallBuffer breakWriter).run breakPre).map
      (fun s => (s.opt, s.pc, s.opened, s.shutting, s.destroyed, s.pending 0, s.queues, s.outq, s.nextId, s.log)) =
      .ok (smallBuffer, .top, false, false, false, none, [[]], [third], 3,
        [.submitted ⟨0, 0, [1], true⟩, .submitted ⟨1, 0, [2], true⟩, .submitted third, .opn 10 .success,
          .write [⟨0, 0, [1], true⟩, ⟨1, 0, [2], true⟩] .failure, .close .failure, .freed ⟨0, 0, [1], true⟩,
          .freed ⟨1, 0, [2], true⟩]) := by rfl
  have h2 : ((Iothr.init smallBuffer breakWriter).run breakPre).map (fun s => (s.writer.state, s.writer.rdwr.obj)) =
      .ok (.closed, 2) := by decide +kernel
  have h3 : ((Iothr.init smallBuffer breakWriter).run breakPre).map (fun s => s.writer.rdwr.ops) = .ok breakOps := by rfl
  cases hr : (Iothr.init smallBuffer breakWriter).run breakPre with
  | error x => rw [hr] at h3; cases h3
  | ok s =>
    rw [hr] at h1 h2 h3
    simp only [Except.map, Except.ok.injEq, Prod.mk.injEq] at h1 h2 h3
    obtain ⟨a1, a2, a3, a4, a5, a6, a7, a8, a9, a10⟩ := h1
    refine ⟨s, rfl, ⟨a1, a2, a3, a4, a5, a6, a7, a8, by omega, ?_, ?_, ?_, ?_, h3, by omega⟩, ?_⟩
    · rw [a10]; decide
    · rw [a10]; decide
    · rw [a10]; decide
    · rw [h2.1]; decide
    · rw [a10]; decide

theorem no_spurious {s : Iothr σ} (bs : List IoAct) (h : ∀ now, IoAct.io now .spurious ∉ bs) : spurious s bs = 0 := by
  induction bs generalizing s with
  | nil => rfl
  | cons a bs ih =>
    unfold spurious sumSteps
    split
    · rfl
    · rename_i s1 _
      have := @ih s1 (fun now hm => h now (List.mem_cons_of_mem _ hm))
      unfold spurious at this
      rw [this]
      unfold spuriousAt
      split
      · exact absurd (List.mem_cons_self ..) (h _)
      · rfl

theorem keepBusy_awake (k now : Nat) : IoAct.io now .spurious ∉ keepBusy k := by
  induction k with
  | zero => simp [keepBusy]
  | succ k ih => simp [keepBusy, ih, ioTimes]

/-- **C131 is false**: there is no bound on how long the I/O thread may keep a payload that
depends only on the options. When the write that makes room for the third payload fails, the I/O thread closes the output
but stores the payload in the output buffer all the same. As long as the output cannot be
opened again and producers keep the I/O thread from waiting, it stays there: it is neither handed
to the writer nor freed, while those submitted after it are freed. -/
theorem accepted_freed_wrong :
    Reached smallBuffer ∧ ∃ s, (Iothr.init smallBuffer breakWriter).run breakPre = .ok s ∧
      third ∈ submits s.log ∧ third.hasFree = true ∧
      ∀ k, ∃ s', s.run (keepBusy k) = .ok s' ∧ ioSteps s (keepBusy k) = 3 * k ∧ spurious s (keepBusy k) = 0 ∧
        IoEv.shutdown ∉ s'.log ∧ third ∉ handed s'.log ∧ third ∉ frees s'.log := by
  obtain ⟨s, h, hk, hm⟩ := breakPre_kept
  refine ⟨.set _ _ _ (.set _ _ _ .init), s, h, hm, rfl, fun k => ?_⟩
  obtain ⟨s', r, k', i⟩ := hk.busy k
  exact ⟨s', r, i, no_spurious _ (keepBusy_awake k), k'.noShut, k'.handed, k'.freed⟩


end Fstrm.Props
