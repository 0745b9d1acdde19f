import Verif.Lemmas.QueueIa64Impl
import Verif.Lemmas.IothrQueues
import Verif.Props.Iothr

/-!
# C79, C80: the I/O thread with its input queues as they are in memory

C37–C44 are about an I/O thread whose input queues have atomic operations. Here the queues
are the ring buffers chosen by `fstrm_iothr_init`, and submit calls and the I/O thread operate on
them one memory access at a time, with store buffers for the lock-free queue
(`Model/IothrQueues.lean`). `IoQ.run` performs an arbitrary interleaving.
-/

set_option autoImplicit false

namespace Fstrm.Props

open Iothr Spec

variable {σ : Type}

theorem impl_size {opt : IothrOptions} (hr : Reached opt) (hpow : ∃ k, opt.inputQueueSize = 2 ^ k) :
    (UInt32.ofNat opt.inputQueueSize).toNat = opt.inputQueueSize ∧
    QSize (UInt32.ofNat opt.inputQueueSize).toNat ∧
    (UInt32.ofNat opt.inputQueueSize).toNat * ENTRY_SIZE.toNat ≤ 2 ^ 32 := by
  have hb : 2 ≤ opt.inputQueueSize ∧ opt.inputQueueSize ≤ 16384 := by
    clear hpow
    induction hr with
    | init => decide
    | set name o v _ ih =>
      rcases setter_effect name o v with ⟨h1, h2, h3⟩ | ⟨_, h⟩
      · by_cases hi : name = .inputQueueSize
        · subst hi
          rw [(input_queue_size_iff o v).1] at h1
          rw [show (setOpt .inputQueueSize o v).2.inputQueueSize = v from h2]
          exact ⟨h1.1, h1.2.1⟩
        · rw [show (setOpt name o v).2.inputQueueSize = o.inputQueueSize from
            h3 .inputQueueSize (fun h => hi h.symm)]
          exact ih
      · rw [h]; exact ih
  have hsz : (UInt32.ofNat opt.inputQueueSize).toNat = opt.inputQueueSize := by
    rw [UInt32.toNat_ofNat']; omega
  have hq : QSize (UInt32.ofNat opt.inputQueueSize).toNat := by
    obtain ⟨k, hk⟩ := hpow
    refine ⟨k, ?_, ?_, by rw [hsz, hk]⟩
    · rcases k with _ | k
      · omega
      · omega
    · rcases Nat.lt_or_ge 31 k with h | h
      · have := Nat.pow_le_pow_right (n := 2) (by omega) h
        omega
      · exact h
  have hm : (UInt32.ofNat opt.inputQueueSize).toNat * ENTRY_SIZE.toNat ≤ 2 ^ 32 := by
    rw [hsz]
    have : ENTRY_SIZE.toNat = 32 := rfl
    rw [this]; omega
  exact ⟨hsz, hq, hm⟩

/-- For all options made by the setters in which the queue size is a power of two, the queue chosen
is a correct queue. -/
theorem impl_correct {opt : IothrOptions} (hr : Reached opt) (hpow : ∃ k, opt.inputQueueSize = 2 ^ k)
    (m : Machine) : (UInt32.ofNat opt.inputQueueSize).toNat = opt.inputQueueSize ∧
      ∃ R, (opt.queueImpl m).Correct (UInt32.ofNat opt.inputQueueSize) ENTRY_SIZE R := by
  obtain ⟨hsz, hq, hm⟩ := impl_size hr hpow
  refine ⟨hsz, ?_⟩
  exact queueImpl_cases (P := fun Q => ∃ R, Q.Correct _ ENTRY_SIZE R) opt m ⟨_, tso_correct hq hm⟩
    ⟨_, ia64_correct hq hm⟩ ⟨_, mutex_correct hq hm⟩

theorem queues_link {opt : IothrOptions} (hr : Reached opt) (hpow : ∃ k, opt.inputQueueSize = 2 ^ k)
    {m : Machine} {w : Writer σ} {as : List QAct} {s0 s : IoQ σ (opt.queueImpl m)}
    (hi : IoQ.init (opt.queueImpl m) ENTRY_SIZE opt w = some s0) (h : s0.run as = .ok s) :
    Trs (Iothr.init opt w) s.io ∧ ∃ num R, (opt.queueImpl m).Correct num ENTRY_SIZE R ∧ s.Link num R ∧
      s0.Link num R ∧ s0.io = Iothr.init opt w := by
  obtain ⟨h1, R, hQ⟩ := impl_correct hr hpow m
  obtain ⟨s1, h2, h3, h4⟩ := IoQ.Link.init hQ h1 w
  rw [hi] at h2; cases h2
  obtain ⟨h5, h6⟩ := h3.run hQ as h
  rw [h4] at h6
  exact ⟨h6, _, R, hQ, h5, h3, h4⟩

/-! ## Concrete executions -/

/-- A struct: 32 bytes. -/
def aStruct (x : UInt8) : Bytes := List.replicate 32 x

/-- Thread `t` calls submit for queue `q` and runs to the end of the call: three accesses besides the copying
(the mutex needs two more). -/
def aSubmit (q t : Nat) (x : UInt8) (data : Bytes) (f : Bool) : List QAct :=
  .submit q t (aStruct x) (some data) f :: List.replicate 40 (.prod q t 0)

/-- All stores in the producer's buffer for queue `q` reach memory. -/
def drainStores (q : Nat) : List QAct := List.replicate 80 (.flush q true 0)

/-- The I/O thread at work, its stores reaching memory at once. -/
def qTimes (n now : Nat) : List QAct :=
  (List.replicate n [.io now .timeout 0, .flush 0 false 0, .flush 1 false 0]).flatten

/-- Two queues of four, multiple producers. -/
def twoShared : IothrOptions := { twoQueues with queueModel := 1 }

/-- Before the I/O thread starts: a submission, and another one under way. -/
def qPre : List QAct :=
  [.getQueue] ++ aSubmit 0 0 1 [1] true ++ [.submit 1 0 (aStruct 2) (some [2, 2]) false, .prod 1 0 0]

/-- Up to the call of destroy: the I/O thread and the producers alternate; then another thread, or the
same one, submits to the first queue. -/
def qMid (t : Nat) : List QAct :=
  (List.replicate 50 [.io 10 .timeout 0, .prod 1 0 3, .flush 0 true 0, .flush 1 true 0]).flatten ++
  drainStores 1 ++ aSubmit 0 t 3 [3] true ++ drainStores 0 ++ [.submit 0 0 (aStruct 6) (some []) true]

/-- After it: a submission, which comes too late, and the I/O thread until it exits. -/
def qPost : List QAct :=
  aSubmit 1 0 5 [5] true ++ drainStores 1 ++ qTimes 260 20 ++ [.finish]

/-- Instead, destroy is called while submit is under way. -/
def qRace : List QAct :=
  qTimes 50 12 ++ [.submit 1 0 (aStruct 5) (some [5]) true, .prod 1 0 0, .shutdown] ++ List.replicate 40 (.prod 1 0 0) ++ qPost

/-- Run from the beginning. -/
def startQueues (opt : IothrOptions) (as : List QAct) (m : Machine := .x86_64) : Exec (IoQ Pipe (opt.queueImpl m)) :=
  match IoQ.init (opt.queueImpl m) ENTRY_SIZE opt pipeWriter with
  | some s => s.run as
  | none => .error .fuel

example : Reached twoQueues ∧ Reached twoShared ∧ twoQueues.inputQueueSize = 2 ^ 2 :=
  ⟨.set .numInputQueues _ 2 (.set .inputQueueSize _ 4 .init),
    .set .queueModel _ 1 (.set .numInputQueues _ 2 (.set .inputQueueSize _ 4 .init)), rfl⟩

/-! ## C79 -/

/-- **C79** For all options made by the setters in which the queue size is a power of two,
initialisation makes the queues, and over a transport whose callbacks respect their contracts
every interleaving of memory accesses of submitting threads and the I/O thread, with stores
delayed in every possible way, is free of undefined behaviour; so is the end of destroy. In
particular, every struct the I/O thread takes from a queue is, byte for byte, one that was
put there by submit, and stands for the oldest payload in that queue. -/
theorem queues_safe (ops : Ops σ) (I : σ → Prop) (hw : Spec.WellBehaved ops I) (hp : Spec.Preserves ops I)
    (hz : Spec.NoZeroPair ops I) (obj : σ) (hI : I obj) (wopt : Option WriterOptions)
    (opt : IothrOptions) (hr : Reached opt) (hpow : ∃ k, opt.inputQueueSize = 2 ^ k) (m : Machine)
    (w : Writer σ) (hinit : Writer.init wopt (Rdwr.init ops obj) = some w) :
    ∃ s0, IoQ.init (opt.queueImpl m) ENTRY_SIZE opt w = some s0 ∧
      ∀ as, QAct.finish ∉ as → ∃ s, s0.run as = .ok s ∧ ∃ s', s.step .finish = .ok s' := by
  obtain ⟨h1, R, hQ⟩ := impl_correct hr hpow m
  obtain ⟨s0, h2, h3, h4⟩ := IoQ.Link.init hQ h1 w
  refine ⟨s0, h2, fun as ha => ?_⟩
  obtain ⟨_, _, h5, _⟩ := init_some hinit
  have hl := reached_limits hr
  have ho : (Iothr.init opt w).opt = opt := by
    simp only [Iothr.init]
    rw [if_neg (by omega)]
  have hg : Good ops I w.rdwr := ⟨by rw [h5]; rfl, by rw [h5]; exact hI⟩
  have hf : Iothr.Fine ops I s0.io := by
    rw [h4]
    exact ⟨hg, by simp [Iothr.init], by rw [ho]; omega, by rw [ho]; exact hl.2.2.2.1, rfl⟩
  obtain ⟨s, h6, h7, h8⟩ := h3.safe_run hQ hw hp hz as hf ha
  exact ⟨s, h6, h7.safe_finish hQ hw hp hz h8⟩

/-- **C79**, producers: with the model for multiple producers every thread can submit, with the model for
a single producer that thread can: a thread that is not in a submit call for the queue starts one when it
submits a payload, and the call is for this payload. -/
theorem queues_accept (opt : IothrOptions) (hr : Reached opt)
    (hpow : ∃ k, opt.inputQueueSize = 2 ^ k) (m : Machine) (w : Writer σ) (as : List QAct)
    (s0 s : IoQ σ (opt.queueImpl m)) (hi : IoQ.init (opt.queueImpl m) ENTRY_SIZE opt w = some s0)
    (h : s0.run as = .ok s) (hd : s.io.destroyed = false) (hs : s.io.shutting = false)
    (q t : Nat) (hq : q < opt.numInputQueues) (ht : opt.queueModel = 1 ∨ t = 0) (hc : s.cur q t = none)
    (raw d : Bytes) (f : Bool) (hraw : raw.length = 32) (h1 : 1 ≤ d.length) (h2 : d.length < 4294967295) :
    ∃ s', s.step (.submit q t raw (some d) f) = .ok s' ∧ s'.cur q t = some ⟨s.io.nextId, q, d, f⟩ ∧
      s'.raw s.io.nextId = raw := by
  obtain ⟨hsz, hqs, hm⟩ := impl_size hr hpow
  have key : ∀ {Q : QImpl} {num : UInt32} {R : Q.S → QGhost → Prop} {s : IoQ σ Q}, s.Link num R →
      s.io.destroyed = false → s.io.shutting = false → s.cur q t = none → q < s.io.queues.length →
      (∀ c g, R c g → g.calling t = false → ∃ c', Q.insert c t raw = some c') →
      ∃ s', s.step (.submit q t raw (some d) f) = .ok s' ∧ s'.cur q t = some ⟨s.io.nextId, q, d, f⟩ ∧
        s'.raw s.io.nextId = raw := by
    intro Q num R s hl hd hs hc hq hins
    obtain ⟨G, hl⟩ := hl.live hd
    have hql : q < s.qs.length := by rw [hl.len]; exact hq
    have hqe : s.qs[q]? = some s.qs[q] := List.getElem?_eq_getElem hql
    obtain ⟨c', hc'⟩ := hins _ _ (hl.rel q _ hqe) (by rw [hl.g.calling, hc]; rfl)
    have hpn : s.io.pending s.io.nextId = none := by
      cases hp : s.io.pending s.io.nextId with
      | none => rfl
      | some e =>
        have h1 := hl.g.key _ _ hp
        have h2 := (hl.g.invA.plt _ _ hp).1
        omega
    have hck : s.io.submitCheck s.io.nextId q (some d) f = .ok { s.io with
        nextId := s.io.nextId + 1
        pending := fun t' => if t' = s.io.nextId then some ⟨s.io.nextId, q, d, f⟩ else s.io.pending t' } := by
      unfold submitCheck
      rw [if_neg (by simp [hd]), if_neg (by rw [hpn]; simp; omega)]
      simp only [hs, Bool.false_eq_true, if_false]
      rw [if_neg (by omega)]
    have hstep : s.step (.submit q t raw (some d) f) = .ok { s with
        io := { s.io with
          nextId := s.io.nextId + 1
          pending := fun t' => if t' = s.io.nextId then some ⟨s.io.nextId, q, d, f⟩ else s.io.pending t' }
        qs := s.qs.set q c'
        raw := fun id' => if id' = s.io.nextId then raw else s.raw id'
        who := fun id' => if id' = s.io.nextId then t else s.who id'
        wait := upd2 s.wait q t (s.wait q t ++ [⟨s.io.nextId, q, d, f⟩])
        cur := upd2 s.cur q t (some ⟨s.io.nextId, q, d, f⟩) } := by
      simp only [IoQ.step, IoQ.submit, hd, Bool.false_eq_true, if_false, hqe, hc', hck, Exec.ok_bind, if_true]
    exact ⟨_, hstep, by simp [upd2], by simp⟩
  have all : ∀ (Q : QImpl), (Q = tsoQueue ∧ t = 0) ∨ (Q = ia64Queue ∧ t = 0) ∨ Q = mutexQueue → ∀ s0 s : IoQ σ Q,
      IoQ.init Q ENTRY_SIZE opt w = some s0 → s0.run as = .ok s → s.io.destroyed = false →
      s.io.shutting = false → s.cur q t = none →
      ∃ s', s.step (.submit q t raw (some d) f) = .ok s' ∧ s'.cur q t = some ⟨s.io.nextId, q, d, f⟩ ∧
        s'.raw s.io.nextId = raw := by
    intro Q hQ s0 s hi h hd hs hc
    have len : ∀ {Q : QImpl} {s0 s : IoQ σ Q} {num : UInt32} {R : Q.S → QGhost → Prop},
        IoQ.init Q ENTRY_SIZE opt w = some s0 → s.Link num R → Trs s0.io s.io → q < s.io.queues.length := by
      intro Q s0 s num R hi hl htr
      unfold IoQ.init at hi
      cases hcr : Q.create (UInt32.ofNat opt.inputQueueSize) ENTRY_SIZE with
      | none => rw [hcr] at hi; cases hi
      | some c =>
        rw [hcr] at hi
        cases hi
        rw [hl.invA.qlen, (trs_invC htr).opts]
        simp only [Iothr.init]
        split <;> exact hq
    rcases hQ with ⟨rfl, ht⟩ | ⟨rfl, ht⟩ | rfl
    · obtain ⟨s1, e1, l1, _⟩ := IoQ.Link.init (tso_correct hqs hm) hsz w
      rw [hi] at e1; cases e1
      obtain ⟨hl, htr⟩ := l1.run (tso_correct hqs hm) as h
      refine key hl hd hs hc (len hi hl htr) fun c g hR hg => ?_
      subst ht
      have : c.p = .idle := by
        have := hR.calling
        rw [hg] at this
        cases hp : c.p <;> rw [hp] at this <;> first | rfl | (simp [PPc.item] at this)
      exact ⟨_, if_pos ⟨rfl, this, by rw [hR.inv.hsz, hraw]; rfl⟩⟩
    · obtain ⟨s1, e1, l1, _⟩ := IoQ.Link.init (ia64_correct hqs hm) hsz w
      rw [hi] at e1; cases e1
      obtain ⟨hl, htr⟩ := l1.run (ia64_correct hqs hm) as h
      refine key hl hd hs hc (len hi hl htr) fun c g hR hg => ?_
      subst ht
      have : c.p = .idle := by
        have := hR.calling
        rw [hg] at this
        simpa using this
      exact ⟨_, if_pos ⟨rfl, this, by rw [hR.sz, hraw]; rfl⟩⟩
    · obtain ⟨s1, e1, l1, _⟩ := IoQ.Link.init (mutex_correct hqs hm) hsz w
      rw [hi] at e1; cases e1
      obtain ⟨hl, htr⟩ := l1.run (mutex_correct hqs hm) as h
      refine key hl hd hs hc (len hi hl htr) fun c g hR hg => ?_
      have : c.th (t + 1) = .idle := by
        have h1 := hR.calling t
        have h2 := hR.roles t
        rw [hg] at h1
        cases hp : c.th (t + 1) <;> rw [hp] at h1 h2 <;>
          first | rfl | (simp [MtPc.item] at h1; done) | (simp [MtPc.removing] at h2)
      exact ⟨_, if_pos ⟨this, by rw [hR.inv.hsz, hraw]; rfl⟩⟩
  refine all _ ?_ s0 s hi h hd hs hc
  unfold IothrOptions.queueImpl
  split
  · rename_i hx
    rcases ht with ht | ht
    · omega
    · cases m
      · exact Or.inl ⟨rfl, ht⟩
      · exact Or.inr (Or.inl ⟨rfl, ht⟩)
      · exact Or.inr (Or.inr rfl)
  · exact Or.inr (Or.inr rfl)

example : ∃ s0 s : IoQ Pipe (twoShared.queueImpl .x86_64),
    IoQ.init (twoShared.queueImpl .x86_64) ENTRY_SIZE twoShared pipeWriter = some s0 ∧ s0.run qPre = .ok s ∧
    s.io.destroyed = false ∧ s.io.shutting = false ∧ s.cur 0 7 = none ∧ s.cur 1 0 ≠ none := by
  have h : ((startQueues twoShared qPre).map fun s =>
      [s.io.destroyed, s.io.shutting, (s.cur 0 7).isSome, (s.cur 1 0).isSome]) = .ok [false, false, false, true] := by
    decide +kernel
  unfold startQueues at h
  cases hi : IoQ.init (twoShared.queueImpl .x86_64) ENTRY_SIZE twoShared pipeWriter with
  | none => rw [hi] at h; cases h
  | some s0 =>
    rw [hi] at h
    dsimp only at h
    cases hr : s0.run qPre with
    | error e => rw [hr] at h; cases h
    | ok s =>
      rw [hr] at h
      simp only [Except.map, Except.ok.injEq, List.cons.injEq, and_true] at h
      refine ⟨s0, s, rfl, hr, h.1, h.2.1, ?_, ?_⟩
      · simpa using h.2.2.1
      · intro hn; rw [hn] at h; simp at h

/-! ## C80 -/

/-- **C80**, first part. In every interleaving of memory accesses:
* payloads are freed at most once, after their submission took effect, and not handed to the writer
  afterwards (`Orderly`);
* a payload for which submit has returned success has been seen by the I/O thread or will be: it
  is in a queue, or its store has not left the producer's store buffer yet (`wait`);
* when destroy has returned and no submit call was in progress, exactly those payloads with a
  free function have been freed for which submit has returned success, once each;
* payloads that submit has refused are not among them. -/
theorem queues_freed_exactly_once (opt : IothrOptions) (hr : Reached opt)
    (hpow : ∃ k, opt.inputQueueSize = 2 ^ k) (m : Machine) (w : Writer σ) (as : List QAct)
    (s0 s : IoQ σ (opt.queueImpl m)) (hi : IoQ.init (opt.queueImpl m) ENTRY_SIZE opt w = some s0)
    (h : s0.run as = .ok s) :
    Each Orderly s.io.log ∧
    (∀ e ∈ s.rets, e ∈ submits s.io.log ∨ e ∈ s.wait e.queue (s.who e.id)) ∧
    (∀ id ∈ refusals s.io.log, id ∉ (submits s.io.log).map Entry.id ∧ id ∉ (frees s.io.log).map Entry.id) ∧
    (IoEv.destroyed ∈ s.io.log → (∀ q t, s.cur q t = none) →
      (submits s.io.log).Perm s.rets ∧ (frees s.io.log).Perm (s.rets.filter Entry.hasFree)) := by
  obtain ⟨ht, num, R, hQ, hl, _⟩ := queues_link hr hpow hi h
  obtain ⟨f1, _, f3, f4⟩ := trs_freed ht
  refine ⟨f1, fun e he => hl.ac.mem_rets he, f3, ?_⟩
  intro hd hc
  have hfin := hl.fin (destroyed_of_log ht hd)
  have hperm : (submits s.io.log).Perm s.rets := by
    refine perm_of_counts fun e => ?_
    have hw : s.wait e.queue (s.who e.id) = [] := by
      have := hfin e.queue (s.who e.id)
      rw [hc] at this
      exact List.length_eq_zero_iff.1 (by simpa using this)
    have hm := hl.ac.acct e.queue (s.who e.id)
    rw [hw, hc] at hm
    simp only [List.append_nil, Option.toList] at hm
    have hcount : ∀ l : List Entry, (s.mine e.queue (s.who e.id) l).count e = l.count e := by
      intro l
      unfold IoQ.mine onQueue
      rw [List.count_filter (by simp), List.count_filter (by simp)]
    rw [← hcount (submits _), ← hcount s.rets, hm]
  exact ⟨hperm, (f4 hd).trans (hperm.filter _)⟩

example :
    ((startQueues twoQueues (qPre ++ QAct.io 9 .timeout 0 :: qMid 0 ++ qRace)).map fun s =>
      (decide (IoEv.destroyed ∈ s.io.log), [s.rets.map Entry.id, (frees s.io.log).map Entry.id,
        refusals s.io.log])) = .ok (true, [[0, 1, 2, 4], [0, 2, 4], [3, 5]]) ∧
    ((startQueues twoShared (qPre ++ QAct.io 9 .timeout 0 :: qMid 7 ++ qRace)).map fun s =>
      (decide (IoEv.destroyed ∈ s.io.log), [s.rets.map Entry.id, (frees s.io.log).map Entry.id,
        refusals s.io.log])) = .ok (true, [[0, 1, 2, 4], [0, 2, 4], [3, 5]]) := by decide +kernel

/-- **C80**, second part: what one thread submits to one queue reaches the writer in the order in
which it was submitted, nothing twice. -/
theorem queues_order (opt : IothrOptions) (hr : Reached opt)
    (hpow : ∃ k, opt.inputQueueSize = 2 ^ k) (m : Machine) (w : Writer σ) (as : List QAct)
    (s0 s : IoQ σ (opt.queueImpl m)) (hi : IoQ.init (opt.queueImpl m) ENTRY_SIZE opt w = some s0)
    (h : s0.run as = .ok s) :
    (∀ q t, (s.mine q t (handed s.io.log)).Sublist (s.mine q t s.rets ++ (s.cur q t).toList)) ∧
    (handed s.io.log).Nodup := by
  obtain ⟨ht, num, R, hQ, hl, _⟩ := queues_link hr hpow hi h
  obtain ⟨o1, o2⟩ := trs_order ht
  refine ⟨fun q t => ?_, o2⟩
  rw [← hl.ac.acct q t]
  exact ((o1 q).filter _).trans (List.sublist_append_left _ _)

/-- **C80**, third part, delivery: the I/O thread starts when the clock shows at least
`reopen_interval`, and no call on the (unidirectional) writer fails. Suppose that at some point destroy is
called, when all submissions have taken effect: producers are done and have synchronized with the
caller. When the I/O thread has exited, the transport has been given one stream of
payloads `es`, nothing twice; every payload for which submit had returned success before destroy was
called is among them, those of each thread and queue in the order of submission. -/
theorem queues_delivery (ops : Ops σ) (obj : σ) (wopt : Option WriterOptions) (opt : IothrOptions)
    (hr : Reached opt) (hpow : ∃ k, opt.inputQueueSize = 2 ^ k) (m : Machine) (w : Writer σ)
    (huni : ops.rd = none)
    (hinit : Writer.init wopt (Rdwr.init ops obj) = some w)
    (pre mid post : List QAct) (now : Nat) (wk : Wake) (k : Nat)
    (s0 s1 s : IoQ σ (opt.queueImpl m)) (hi : IoQ.init (opt.queueImpl m) ENTRY_SIZE opt w = some s0)
    (h1 : s0.run (pre ++ .io now wk k :: mid) = .ok s1)
    (hset : ∀ q t, s1.wait q t = []) (hns : s1.io.shutting = false)
    (h : s1.run (.shutdown :: post) = .ok s)
    (hpre : ∀ a ∈ pre, a.isIo = false)
    (hnow : opt.reopenInterval ≤ now)
    (hok : ∀ c ∈ calls s.io.log, c.2 = .success)
    (hexit : s.io.pc = .exited) :
    ∃ es : List Entry, es.Nodup ∧
      Spec.wrote s.io.writer.rdwr.log = Spec.stream (optCts wopt).head? (es.map Entry.data) ∧
      (∀ e ∈ s1.rets, e ∈ es) ∧
      (∀ q t, (s1.mine q t s1.rets).Sublist es) ∧
      (∀ q t, (s.mine q t es).Sublist (s.mine q t s.rets ++ (s.cur q t).toList)) := by
  obtain ⟨ht1, num, R, hQ, hl1, hl0, hio⟩ := queues_link hr hpow hi h1
  obtain ⟨hl, ht⟩ := hl1.run hQ _ h
  obtain ⟨a, g1, g2⟩ := (IoQ.run_append _ _ _ _).1 h1
  obtain ⟨a2, g3, g4⟩ := Exec.bind_eq_ok.1 g2
  obtain ⟨hla, hta⟩ := hl0.run hQ pre g1
  obtain ⟨hla2, hta2⟩ := hla.step hQ g3
  have hsame := hl0.client_run hQ pre g1 hpre (by rw [hio]; simp [Iothr.init])
  have ht2 := (hla2.run hQ mid g4).2
  rw [hio] at hta
  have hpc : a.io.pc = .start := by rw [hsame.pc, hio]; simp [Iothr.init]
  simp only [IoQ.step, IoQ.ioStep, hpc] at g3
  obtain ⟨io2, g5, g6⟩ := Exec.bind_eq_ok.1 g3
  cases g6
  obtain ⟨n1, bs, n2, n3⟩ := trs_no_loss_start hta hpc
    (by rw [hsame.opened, hio]; rfl) (by rw [hsame.lastOpen, hio]; rfl) (by rw [hsame.outq, hio]; rfl)
    (by rw [hsame.handed, hio]; rfl) (by rw [hsame.calls, hio]; rfl) g5 (ht2.trans ht) hnow hok hexit
  have htot := ht1.trans ht
  have hold : submits (beforeShutdown s.io.log) = submits s1.io.log := by
    obtain ⟨a3, g7, g8⟩ := Exec.bind_eq_ok.1 h
    simp only [IoQ.step, Iothr.shutdown, hns, Bool.false_eq_true, if_false, Exec.ok_bind] at g7
    cases g7
    have hn : IoEv.shutdown ∉ s1.io.log := fun hx => by
      have := hl1.invG.shut.2 hx
      rw [hns] at this; cases this
    have hl2 := (hl1.step hQ (a := .shutdown)
      (by simp only [IoQ.step, Iothr.shutdown, hns, Bool.false_eq_true, if_false, Exec.ok_bind]; rfl)).1
    obtain ⟨x, hx⟩ := (hl2.run hQ post g8).2.log
    obtain ⟨wk2, hwk⟩ := signal_eq (emit { s1.io with shutting := true } .shutdown)
    have hlog : s.io.log = (s1.io.log ++ [.shutdown]) ++ x := by
      rw [hx, hwk]; rfl
    rw [hlog, beforeShutdown_append x (by simp)]
    unfold beforeShutdown
    rw [List.takeWhile_append_of_pos (fun e he => by
      simp only [ne_eq, decide_not, Bool.not_eq_true', decide_eq_false_iff_not]
      intro h; exact hn (h ▸ he))]
    simp
  have hsub : ∀ q t, (s1.mine q t s1.rets).Sublist (handed s.io.log) := by
    intro q t
    have hm := hl1.ac.acct q t
    rw [hset] at hm
    have e1 : (s1.mine q t s1.rets).Sublist (s1.mine q t (submits s1.io.log)) := by
      rw [← List.append_nil (s1.mine q t (submits _)), hm]
      exact List.sublist_append_left _ _
    refine e1.trans (List.filter_sublist.trans ?_)
    rw [← hold]
    exact (n1 q).sublist.trans List.filter_sublist
  refine ⟨handed s.io.log, (trs_order htot).2, iothr_wire ops obj wopt opt w s.io bs huni hinit htot n2 n3,
    ?_, hsub, ?_⟩
  · intro e he
    refine (hsub e.queue (s1.who e.id)).subset ?_
    exact List.mem_filter.2 ⟨List.mem_filter.2 ⟨he, by simp⟩, by simp⟩
  · intro q t
    rw [← hl.ac.acct q t]
    exact (((trs_order htot).1 q).filter _).trans (List.sublist_append_left _ _)

example :
    ((startQueues twoQueues (qPre ++ QAct.io 9 .timeout 0 :: qMid 0)).map fun s1 =>
      (s1.io.shutting, [s1.rets, s1.wait 0 0, s1.wait 1 0].map (·.map Entry.id))) =
      .ok (false, [[0, 1, 2], [], []]) ∧
    ((startQueues twoQueues (qPre ++ QAct.io 9 .timeout 0 :: qMid 0 ++ .shutdown :: qPost)).map fun s =>
      (decide (s.io.pc = .exited), calls s.io.log)) = .ok (true, [(.opn, .success),
        (.writev [[1], [2, 2], [3]], .success), (.close, .success)]) ∧
    ((startQueues twoShared (qPre ++ QAct.io 9 .timeout 0 :: qMid 7)).map fun s1 =>
      (s1.io.shutting, [s1.rets, s1.wait 0 0, s1.wait 1 0, s1.wait 0 7].map (·.map Entry.id))) =
      .ok (false, [[0, 1, 2], [], [], []]) ∧
    ((startQueues twoShared (qPre ++ QAct.io 9 .timeout 0 :: qMid 7 ++ .shutdown :: qPost)).map fun s =>
      (decide (s.io.pc = .exited), calls s.io.log)) = .ok (true, [(.opn, .success),
        (.writev [[1], [2, 2], [3]], .success), (.close, .success)]) ∧
    (∀ a ∈ qPre, a.isIo = false) ∧ twoQueues.reopenInterval ≤ 9 := by decide +kernel

/-- When have all submissions of a thread taken effect? With the mutex: when no submit call of its is in
progress; the same on ia64, where submit waits for its stores. With the lock-free queue on x86-64: when,
moreover, its stores have reached memory. -/
theorem queues_settled (opt : IothrOptions) (hr : Reached opt)
    (hpow : ∃ k, opt.inputQueueSize = 2 ^ k) (w : Writer σ) (as : List QAct) :
    (∀ s0 s : IoQ σ mutexQueue, IoQ.init mutexQueue ENTRY_SIZE opt w = some s0 → s0.run as = .ok s →
      s.io.destroyed = false → ∀ q t, s.cur q t = none → s.wait q t = []) ∧
    (∀ s0 s : IoQ σ ia64Queue, IoQ.init ia64Queue ENTRY_SIZE opt w = some s0 → s0.run as = .ok s →
      s.io.destroyed = false → ∀ q t, s.cur q t = none → s.wait q t = []) ∧
    (∀ s0 s : IoQ σ tsoQueue, IoQ.init tsoQueue ENTRY_SIZE opt w = some s0 → s0.run as = .ok s →
      s.io.destroyed = false → ∀ q t c, s.qs[q]? = some c → c.pbuf = [] → s.cur q t = none → s.wait q t = []) := by
  obtain ⟨hsz, hq, hm⟩ := impl_size hr hpow
  refine ⟨?_, ?_, ?_⟩
  · intro s0 s hi h hd q t hc
    obtain ⟨s1, h2, h3, _⟩ := IoQ.Link.init (mutex_correct hq hm) hsz w
    rw [hi] at h2; cases h2
    obtain ⟨G, hl⟩ := (h3.run (mutex_correct hq hm) as h).1.live hd
    have := hl.settled_at q t fun c _ g hg => by
      rw [hg.wait, hg.calling]; cases (c.th (t + 1)).item <;> simp
    rw [hc] at this
    exact List.length_eq_zero_iff.1 (by simpa using this)
  · intro s0 s hi h hd q t hc
    obtain ⟨s1, h2, h3, _⟩ := IoQ.Link.init (ia64_correct hq hm) hsz w
    rw [hi] at h2; cases h2
    obtain ⟨G, hl⟩ := (h3.run (ia64_correct hq hm) as h).1.live hd
    have := hl.settled_at q t fun c hcq g hg => by
      by_cases ht : t = 0
      · subst ht
        have hcal := (hl.rel q c hcq).calling
        rw [hl.g.calling, hc] at hcal
        have hp : c.p = .idle := by simpa using hcal
        have := hg.visible hp
        have : (puts c.log).drop (visibles c.log) = [] := by
          rw [List.drop_eq_nil_iff]; exact Nat.le_of_eq this.symm
        rw [hg.wait, this, hp]
        simp [PPc64.item]
      · simp [(hg.others t ht).1]
    rw [hc] at this
    exact List.length_eq_zero_iff.1 (by simpa using this)
  · intro s0 s hi h hd q t c hqc hpb hc
    obtain ⟨s1, h2, h3, _⟩ := IoQ.Link.init (tso_correct hq hm) hsz w
    rw [hi] at h2; cases h2
    obtain ⟨G, hl⟩ := (h3.run (tso_correct hq hm) as h).1.live hd
    have := hl.settled_at q t fun c' hc' g hg => by
      rw [hqc] at hc'; cases hc'
      by_cases ht : t = 0
      · subst ht
        have hb := hg.inv.pbuf
        rw [hpb] at hb
        have : (puts c.log).drop (visibles c.log) = [] := by
          rw [List.drop_eq_nil_iff]; exact Nat.le_of_eq hb.1.symm
        rw [hg.wait, this, hg.calling]
        cases c.p.item <;> simp
      · simp [(hg.others t ht).1]
    rw [hc] at this
    exact List.length_eq_zero_iff.1 (by simpa using this)

/-- **C80**, last part: the limits on the output queue (C40), the rate of reopening (C41) and the
handles for queues (C43) are as with atomic queues. -/
theorem queues_limits (opt : IothrOptions) (hr : Reached opt)
    (hpow : ∃ k, opt.inputQueueSize = 2 ^ k) (m : Machine) (w : Writer σ) (as : List QAct)
    (s0 s : IoQ σ (opt.queueImpl m)) (hi : IoQ.init (opt.queueImpl m) ENTRY_SIZE opt w = some s0)
    (h : s0.run as = .ok s) :
    (s.io.outq.length ≤ opt.outputQueueSize ∧
      ((∀ e ∈ submits s.io.log, e.data.length < 4294967292) →
        2 ≤ s.io.outq.length → framedSize s.io.outq < opt.bufferHint)) ∧
    (attempts s.io.log).Pairwise (fun a b => a + opt.reopenInterval ≤ b) ∧
    gotQueues s.io.log = (List.range (gotQueues s.io.log).length).map
      (fun i => if i < opt.numInputQueues then some i else none) := by
  obtain ⟨ht, _⟩ := queues_link hr hpow hi h
  exact ⟨trs_limits hr ht, (trs_reopen ht).1, trs_handles ht⟩

/-! ## ia64

The producer goes on only when its stores have reached memory. -/

/-- As `aSubmit`; the copied bytes become visible in reverse order. -/
def slowSubmit (q : Nat) (x : UInt8) (data : Bytes) (f : Bool) : List QAct :=
  aSubmit q 0 x data f ++ (List.range 32).reverse.map (QAct.flush q true) ++ [.prod q 0 0, .prod q 0 0] ++
    [.flush q true 0, .prod q 0 0]

/-- Three submissions; the first is taken by the I/O thread while the second is under way; the third is in the queue
when destroy is called. -/
def slowRun : List QAct :=
  slowSubmit 0 1 [1] true ++ (aSubmit 1 0 2 [2, 2] false) ++ qTimes 90 9 ++
  [.flush 1 true 7, .flush 1 true 0] ++ (List.replicate 30 (.flush 1 true 0)) ++ [.prod 1 0 0, .flush 1 true 0]

example : Machine.ia64.lockFree = some ia64Queue ∧ twoQueues.queueImpl .ia64 = ia64Queue := ⟨rfl, rfl⟩

/-- On ia64 a run meets the hypotheses of C79 and C80: a payload has been taken while another one was being
copied; that one takes effect before its call returns; one more comes after; all are written and freed. -/
example :
    ((startQueues twoQueues slowRun .ia64).map fun s =>
      [s.rets, submits s.io.log, s.io.outq, (s.cur 1 0).toList, s.wait 1 0].map (·.map Entry.id)) =
      .ok [[0], [0, 1], [0], [1], []] ∧
    ((startQueues twoQueues (slowRun ++ .prod 1 0 0 :: slowSubmit 0 3 [3] true ++ QAct.shutdown :: qTimes 260 20 ++ [.finish])
        .ia64).map fun s => (decide (IoEv.destroyed ∈ s.io.log), [s.rets, submits s.io.log, frees s.io.log].map (·.map Entry.id),
          calls s.io.log)) =
      .ok (true, [[0, 1, 2], [0, 1, 2], [0, 2]], [(.opn, .success), (.writev [[1]], .success),
        (.writev [[3], [2, 2]], .success), (.close, .success)]) := by
  decide +kernel

end Fstrm.Props
