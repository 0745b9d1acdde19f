import Verif.Lemmas.IothrQueuesWait
import Verif.Props.IothrQueuesLive

/-!
# C105: submitting does not wait for I/O

The I/O thread may be blocked in a callback of the transport, or not be scheduled at all: it then
takes no steps. A submit call needs only its own steps, and, with the mutex, that the mutex be free, which
no thread holds for longer than its own next few dozen memory accesses.
-/

set_option autoImplicit false

namespace Fstrm.Props

open Iothr Spec

variable {σ : Type}

/-- What is known of every state reached before destroy. -/
theorem wait_setup {Q : QImpl} {num : UInt32} {R : Q.S → QGhost → Prop} {opt : IothrOptions}
    (hQ : Q.Correct num ENTRY_SIZE R) (hn : num.toNat = opt.inputQueueSize) {w : Writer σ} {s0 s : IoQ σ Q}
    (hi : IoQ.init Q ENTRY_SIZE opt w = some s0) {as : List QAct} (hf : QAct.finish ∉ as)
    (h : s0.run as = .ok s) :
    (∃ G0, s0.QLink num R G0) ∧ (∃ G, s.QLink num R G) ∧ s.Finite ∧ (∀ q t, s0.cur q t = none) ∧
      ∃ c0, Q.create num ENTRY_SIZE = some c0 ∧ ∀ (q : Nat) (c : Q.S), s0.qs[q]? = some c → c = c0 := by
  obtain ⟨s1, h2, h3, h4⟩ := IoQ.Link.init hQ hn w
  rw [hi] at h2; cases h2
  obtain ⟨G0, h5⟩ := h3.live (by rw [h4]; rfl)
  have hnum : UInt32.ofNat opt.inputQueueSize = num := by rw [← hn]; simp
  simp only [IoQ.init, hnum, Option.map_eq_some_iff] at hi
  obtain ⟨c0, e0, e1⟩ := hi
  have hcur : ∀ q t, s0.cur q t = none := by intro q t; rw [← e1]
  have hfin : s0.Finite := ⟨0, fun q t _ => hcur q t⟩
  refine ⟨⟨G0, h5⟩, IoQ.alive_run hQ as h5 hf h, hfin.run as h, hcur, c0, e0, ?_⟩
  intro q c hc
  rw [← e1] at hc
  exact (List.mem_replicate.1 (List.mem_of_getElem? hc)).2

/-- The general form, for both kinds of queue. -/
theorem wait_returns {Q : QImpl} {num : UInt32} {R : Q.S → QGhost → Prop} {N : Nat} {may : Nat → Q.S → Bool}
    {left : Nat → Q.S → Nat} {opt : IothrOptions}
    (hQ : Q.Correct num ENTRY_SIZE R) (hB : Q.Bounded R N may left) (hn : num.toNat = opt.inputQueueSize)
    {w : Writer σ} {s0 s s' : IoQ σ Q}
    (hi : IoQ.init Q ENTRY_SIZE opt w = some s0) {as bs : List QAct} (hf : QAct.finish ∉ as ++ bs)
    (h : s0.run as = .ok s) {q t : Nat} {e : Entry} (hcur : s.cur q t = some e) (hs : s.run bs = .ok s')
    (hacc : N ≤ s.accesses (may t) q t bs) :
    ∃ bs1 bs2 s1, bs = bs1 ++ bs2 ∧ s.run bs1 = .ok s1 ∧ s1.cur q t = none ∧ s1.Answered e := by
  simp only [List.mem_append, not_or] at hf
  obtain ⟨⟨G0, h0⟩, ⟨G, h1⟩, ⟨B, h2⟩, h3, _⟩ := wait_setup hQ hn hi hf.1 h
  have hshort : s.Short N left := IoQ.short_run hQ hB as h0 (fun q t c _ hc => absurd (h3 q t) hc) hf.1 h
  have hq : q < s.qs.length := by
    rcases Nat.lt_or_ge q s.qs.length with hlt | hge
    · exact hlt
    · rw [h2 q t (Or.inr hge)] at hcur; cases hcur
  have hc : s.qs[q]? = some s.qs[q] := List.getElem?_eq_getElem hq
  exact h1.returns hQ hB bs hc hcur hf.2 hs
    (Nat.le_trans (hshort q t _ hc (by rw [hcur]; simp)) hacc)

/-- **C105**, queues for one producer each (lock-free): from the time a thread has called submit, the
call returns, accepting or refusing the payload, within 35 memory accesses of that thread, no matter
what the I/O thread, the store buffers and other threads do meanwhile, or whether they do anything. -/
theorem submit_wait_free (opt : IothrOptions) (hr : Reached opt)
    (hpow : ∃ k, opt.inputQueueSize = 2 ^ k) (w : Writer σ) (as : List QAct) (s0 s : IoQ σ tsoQueue)
    (hi : IoQ.init tsoQueue ENTRY_SIZE opt w = some s0) (h : s0.run as = .ok s)
    (q : Nat) (e : Entry) (hcur : s.cur q 0 = some e)
    (bs : List QAct) (s' : IoQ σ tsoQueue) (hs : s.run bs = .ok s') (hf : QAct.finish ∉ as ++ bs)
    (hn : 35 ≤ bs.countP (QAct.isProd q 0)) :
    ∃ bs1 bs2 s1, bs = bs1 ++ bs2 ∧ s.run bs1 = .ok s1 ∧ s1.cur q 0 = none ∧
      (e ∈ s1.rets ∨ IoEv.refused e.id .again ∈ s1.io.log) := by
  obtain ⟨h1, h2, h3⟩ := impl_size hr hpow
  have hQ := tso_correct (sz := ENTRY_SIZE) h2 h3
  refine wait_returns hQ tso_bounded h1 hi hf h hcur hs ?_
  have hf' := hf
  simp only [List.mem_append, not_or] at hf'
  obtain ⟨_, ⟨G, k1⟩, ⟨B, k2⟩, _⟩ := wait_setup hQ h1 hi hf'.1 h
  have hq : q < s.qs.length := by
    rcases Nat.lt_or_ge q s.qs.length with hlt | hge
    · exact hlt
    · rw [k2 q 0 (Or.inr hge)] at hcur; cases hcur
  rw [IoQ.accesses_all _ q 0 bs hs]
  · exact hn
  · intro bs1 bs2 s1 e1 e2
    obtain ⟨c1, k3⟩ := IoQ.qs_run bs1 (List.getElem?_eq_getElem hq) e2
    rw [k3]
    rfl

/-- **C105**, so the thread can complete its call alone: its next 35 accesses are free of undefined
behaviour and bring the call to its end. -/
theorem submit_alone (opt : IothrOptions) (hr : Reached opt)
    (hpow : ∃ k, opt.inputQueueSize = 2 ^ k) (w : Writer σ) (as : List QAct) (s0 s : IoQ σ tsoQueue)
    (hi : IoQ.init tsoQueue ENTRY_SIZE opt w = some s0) (h : s0.run as = .ok s) (hf : QAct.finish ∉ as)
    (q : Nat) (e : Entry) (hcur : s.cur q 0 = some e) (ks : List Nat) (hk : ks.length = 35) :
    ∃ s', s.run (ks.map (QAct.prod q 0)) = .ok s' ∧ s'.cur q 0 = none ∧
      ∃ ks1 s1, ks1 <+: ks ∧ s.run (ks1.map (QAct.prod q 0)) = .ok s1 ∧ s1.cur q 0 = none ∧
        (e ∈ s1.rets ∨ IoEv.refused e.id .again ∈ s1.io.log) := by
  obtain ⟨h1, h2, h3⟩ := impl_size hr hpow
  have hQ := tso_correct (sz := ENTRY_SIZE) h2 h3
  obtain ⟨_, ⟨G, k1⟩, _⟩ := wait_setup hQ h1 hi hf h
  have safe : ∀ (ks : List Nat) (s : IoQ σ tsoQueue), (∃ G, s.QLink (UInt32.ofNat opt.inputQueueSize) (TsoR (UInt32.ofNat opt.inputQueueSize) ENTRY_SIZE) G) → ∃ s', s.run (ks.map (QAct.prod q 0)) = .ok s' ∧
      (s.cur q 0 = none → s'.cur q 0 = none) := by
    intro ks
    induction ks with
    | nil => intro s _; exact ⟨s, rfl, id⟩
    | cons k ks ih =>
      intro s ⟨G, hG⟩
      obtain ⟨s1, g1, g2, _⟩ := hG.prod hQ q 0 k
      obtain ⟨s2, g3, g4⟩ := ih s1 g2
      refine ⟨s2, by simp only [List.map_cons, IoQ.run, IoQ.step, g1, Exec.ok_bind]; exact g3, fun hc => g4 ?_⟩
      simp only [IoQ.prod] at g1
      split at g1
      · cases g1
      · split at g1
        · cases g1; exact hc
        · obtain ⟨⟨c2, os⟩, _, g1⟩ := Exec.bind_eq_ok.1 g1
          exact IoQ.outs_cur os g1 q 0 hc
  have hnf : ∀ ks : List Nat, QAct.finish ∉ ks.map (QAct.prod q 0) := by
    intro ks hm
    obtain ⟨k, _, hm⟩ := List.mem_map.1 hm
    cases hm
  obtain ⟨s', g1, _⟩ := safe ks s ⟨G, k1⟩
  obtain ⟨bs1, bs2, s1, m1, m2, m3, m4⟩ := submit_wait_free opt hr hpow w as s0 s hi h q e hcur _ s' g1
    (by simp only [List.mem_append, not_or]; exact ⟨hf, hnf ks⟩)
    (by
      rw [List.countP_map, List.countP_eq_length.2 (fun a _ => by simp [QAct.isProd])]
      omega)
  have hb1 : bs1 = (ks.take bs1.length).map (QAct.prod q 0) := by
    rw [List.map_take, m1, List.take_left]
  have hb2 : bs2 = (ks.drop bs1.length).map (QAct.prod q 0) := by
    rw [List.map_drop, m1, List.drop_left]
  refine ⟨s', g1, ?_, ks.take bs1.length, s1, List.take_prefix _ _, by rw [← hb1]; exact m2, m3, m4⟩
  rw [m1] at g1
  obtain ⟨s2, n1, n2⟩ := (IoQ.run_append _ _ _ _).1 g1
  rw [m2] at n1; cases n1
  obtain ⟨G1, n3⟩ := IoQ.alive_run hQ bs1 k1 (by rw [hb1]; exact hnf _) m2
  obtain ⟨s3, n4, n5⟩ := safe (ks.drop bs1.length) s1 ⟨G1, n3⟩
  rw [← hb2, n2] at n4; cases n4
  exact n5 m3

/-- **C105**, queues for one producer each on ia64: the call returns within 36 accesses and fences of the thread, not
counting those at which it waits for its own stores to reach memory. -/
theorem submit_waits_for_stores_only (opt : IothrOptions) (hr : Reached opt)
    (hpow : ∃ k, opt.inputQueueSize = 2 ^ k) (w : Writer σ) (as : List QAct) (s0 s : IoQ σ ia64Queue)
    (hi : IoQ.init ia64Queue ENTRY_SIZE opt w = some s0) (h : s0.run as = .ok s)
    (q : Nat) (e : Entry) (hcur : s.cur q 0 = some e)
    (bs : List QAct) (s' : IoQ σ ia64Queue) (hs : s.run bs = .ok s') (hf : QAct.finish ∉ as ++ bs)
    (hn : 36 ≤ s.accesses (fun c : Ia64 => match c.p with
      | .copy _ _ _ [] => decide (c.pbuf = [])
      | .fence _ => decide (c.pbuf = [])
      | _ => true) q 0 bs) :
    ∃ bs1 bs2 s1, bs = bs1 ++ bs2 ∧ s.run bs1 = .ok s1 ∧ s1.cur q 0 = none ∧
      (e ∈ s1.rets ∨ IoEv.refused e.id .again ∈ s1.io.log) := by
  obtain ⟨h1, h2, h3⟩ := impl_size hr hpow
  refine wait_returns (ia64_correct (sz := ENTRY_SIZE) h2 h3) ia64_bounded h1 hi hf h hcur hs ?_
  have : (fun c : Ia64 => !c.fenced) = (fun c : Ia64 => match c.p with
      | .copy _ _ _ [] => decide (c.pbuf = [])
      | .fence _ => decide (c.pbuf = [])
      | _ => true) := by
    funext c
    unfold Ia64.fenced
    cases c.p with
    | copy a b d todo => cases todo <;> simp
    | _ => simp
  exact this ▸ hn

/-- **C105**, queues for several producers: the call returns within 37 accesses of the thread to a queue whose
mutex is not held by another thread. -/
theorem submit_waits_for_mutex_only (opt : IothrOptions) (hr : Reached opt)
    (hpow : ∃ k, opt.inputQueueSize = 2 ^ k) (w : Writer σ) (as : List QAct) (s0 s : IoQ σ mutexQueue)
    (hi : IoQ.init mutexQueue ENTRY_SIZE opt w = some s0) (h : s0.run as = .ok s)
    (q t : Nat) (e : Entry) (hcur : s.cur q t = some e)
    (bs : List QAct) (s' : IoQ σ mutexQueue) (hs : s.run bs = .ok s') (hf : QAct.finish ∉ as ++ bs)
    (hn : 37 ≤ s.accesses (fun c : Mt => decide (c.owner = none ∨ c.owner = some (t + 1))) q t bs) :
    ∃ bs1 bs2 s1, bs = bs1 ++ bs2 ∧ s.run bs1 = .ok s1 ∧ s1.cur q t = none ∧
      (e ∈ s1.rets ∨ IoEv.refused e.id .again ∈ s1.io.log) := by
  obtain ⟨h1, h2, h3⟩ := impl_size hr hpow
  exact wait_returns (mutex_correct (sz := ENTRY_SIZE) h2 h3) mutex_bounded h1 hi hf h hcur hs hn

/-- **C105**, how long the mutex is held: a submitting thread that holds it releases it within 37 of its accesses,
the I/O thread within 38 of its steps. While the I/O thread holds it, it does nothing but access the queue: a
step that does anything else, such as calling the transport, has released it. -/
theorem mutex_released (opt : IothrOptions) (hr : Reached opt)
    (hpow : ∃ k, opt.inputQueueSize = 2 ^ k) (w : Writer σ) (as : List QAct) (s0 s : IoQ σ mutexQueue)
    (hi : IoQ.init mutexQueue ENTRY_SIZE opt w = some s0) (h : s0.run as = .ok s) (hfa : QAct.finish ∉ as)
    (q : Nat) (c : Mt) (hc : s.qs[q]? = some c) :
    (∀ t, c.owner = some (t + 1) → ∀ bs s', s.run bs = .ok s' → QAct.finish ∉ bs →
      37 ≤ bs.countP (QAct.isProd q t) →
      ∃ bs1 bs2 s1, ∃ c1 : Mt, bs = bs1 ++ bs2 ∧ s.run bs1 = .ok s1 ∧ s1.qs[q]? = some c1 ∧ c1.owner ≠ some (t + 1)) ∧
    (c.owner = some 0 → ∀ bs s', s.run bs = .ok s' → QAct.finish ∉ bs → 38 ≤ bs.countP QAct.isIo →
      ∃ bs1 bs2 s1, ∃ c1 : Mt, bs = bs1 ++ bs2 ∧ s.run bs1 = .ok s1 ∧ s1.qs[q]? = some c1 ∧ c1.owner = none) ∧
    (c.owner = some 0 → ∀ now wake k s', s.step (.io now wake k) = .ok s' →
      s'.io = s.io ∨ ∃ c1 : Mt, s'.qs[q]? = some c1 ∧ c1.owner = none) := by
  obtain ⟨h1, h2, h3⟩ := impl_size hr hpow
  have hQ := mutex_correct (sz := ENTRY_SIZE) h2 h3
  obtain ⟨⟨G0, k0⟩, ⟨G, k1⟩, _, _, c0, hc0, hall⟩ := wait_setup hQ h1 hi hfa h
  refine ⟨?_, ?_, ?_⟩
  · intro t ho bs s' hs hf hn
    -- holding the mutex, the thread is in a call
    have incall : ∀ (s : IoQ σ mutexQueue) (G : Nat → QGhost), s.QLink (UInt32.ofNat opt.inputQueueSize) (MtR (UInt32.ofNat opt.inputQueueSize) ENTRY_SIZE) G → ∀ c : Mt, s.qs[q]? = some c →
        c.owner = some (t + 1) → ∃ e, s.cur q t = some e := by
      intro s G hG c hc ho
      have hr : MtR (UInt32.ofNat opt.inputQueueSize) ENTRY_SIZE c (G q) := hG.rel q c hc
      have hcr := hr.inv.crit _ ho
      have hro := hr.roles t
      have : (c.th (t + 1)).item.isSome = true := by
        revert hcr hro
        cases c.th (t + 1) <;> simp [Crit, MtPc.removing, MtPc.item]
      rw [← hr.calling, hG.g.calling] at this
      exact Option.isSome_iff_exists.1 this
    obtain ⟨e, hcur⟩ := incall s G k1 c hc ho
    by_cases hex : ∃ bs1 bs2 s1, ∃ c1 : Mt, bs = bs1 ++ bs2 ∧ s.run bs1 = .ok s1 ∧ s1.qs[q]? = some c1 ∧ c1.owner ≠ some (t + 1)
    · exact hex
    · exfalso
      have hheld : ∀ bs1 bs2 s1, bs = bs1 ++ bs2 → s.run bs1 = .ok s1 →
          ∃ c1 : Mt, s1.qs[q]? = some c1 ∧ c1.owner = some (t + 1) := by
        intro bs1 bs2 s1 e1 e2
        obtain ⟨c1, e3⟩ := IoQ.qs_run bs1 hc e2
        by_cases ho1 : c1.owner = some (t + 1)
        · exact ⟨c1, e3, ho1⟩
        · exact absurd ⟨bs1, bs2, s1, c1, e1, e2, e3, ho1⟩ hex
      have hacc := IoQ.accesses_all (fun c : Mt => decide (c.owner = none ∨ c.owner = some (t + 1))) q t bs hs (by
        intro bs1 bs2 s1 e1 e2
        obtain ⟨c1, e3, e4⟩ := hheld bs1 bs2 s1 e1 e2
        rw [e3]
        exact congrArg some (decide_eq_true (Or.inr e4)))
      obtain ⟨bs1, bs2, s1, m1, m2, m3, _⟩ := submit_waits_for_mutex_only opt hr hpow w as s0 s hi h q t e hcur bs s' hs
        (by simp only [List.mem_append, not_or]; exact ⟨hfa, hf⟩) (by rw [hacc]; exact hn)
      obtain ⟨c1, e3, e4⟩ := hheld bs1 bs2 s1 m1 m2
      obtain ⟨G1, n3⟩ := IoQ.alive_run hQ bs1 k1 (fun hm => hf (by rw [m1]; exact List.mem_append_left _ hm)) m2
      obtain ⟨e', he'⟩ := incall s1 G1 n3 c1 e3 e4
      rw [m3] at he'; cases he'
  · intro ho bs s' hs hf hn
    have hbrief := IoQ.brief_run hQ as k0 (by
      intro q' c' hc'
      have := hall q' c' hc'
      subst this
      simp only [mutexQueue, Option.map_eq_some_iff] at hc0
      obtain ⟨q0, _, rfl⟩ := hc0
      exact Nat.le_refl _) hfa h
    exact k1.hold hQ bs hc ho hf hs (Nat.le_trans (hbrief q c hc) hn)
  · intro ho now wake k s' hs
    obtain ⟨c1, e1, ⟨_, _, e2⟩ | e2⟩ := k1.hold_io hc ho hs
    · exact Or.inl e2
    · exact Or.inr ⟨c1, e1, e2⟩

/-! ## Instances -/

/-- Run from the beginning, with the queue given. -/
def startWith (Q : QImpl) (opt : IothrOptions) (as : List QAct) : Exec (IoQ Pipe Q) :=
  match IoQ.init Q ENTRY_SIZE opt pipeWriter with
  | some s => s.run as
  | none => .error .fuel

/-- Of three accesses, two while another thread holds the mutex. -/
def mutexContended : List QAct :=
  [.submit 0 0 (aStruct 1) (some [1]) true, .submit 0 1 (aStruct 2) (some [2]) true, .prod 0 1 0]

example :
    -- a thread is in the middle of a submit call, the I/O thread not yet started; 34 accesses do it
    ((startWith tsoQueue twoQueues qPre).map fun s => ((s.cur 1 0).map Entry.data, decide (s.io.pc = .start))) =
      .ok (some [2, 2], true) ∧
    ((startWith tsoQueue twoQueues (qPre ++ List.replicate 33 (.prod 1 0 0))).map fun s => (s.cur 1 0).isSome) = .ok true ∧
    ((startWith tsoQueue twoQueues (qPre ++ List.replicate 34 (.prod 1 0 0))).map fun s => (s.cur 1 0).isSome) = .ok false ∧
    -- on ia64 it then waits for its stores
    ((startWith ia64Queue twoQueues (qPre.drop 42)).map fun s =>
      (s.cur 1 0 |>.isSome, s.accesses (fun c : Ia64 => match c.p with
        | .copy _ _ _ [] => decide (c.pbuf = [])
        | .fence _ => decide (c.pbuf = [])
        | _ => true) 1 0 (List.replicate 40 (.prod 1 0 0)))) = .ok (true, 33) ∧
    ((startWith ia64Queue twoQueues (qPre.drop 42 ++ List.replicate 33 (.prod 1 0 0) ++ List.replicate 32 (.flush 1 true 0) ++
        [.prod 1 0 0, .flush 1 true 0, .prod 1 0 0])).map fun s => ((s.cur 1 0).isSome, s.rets.length)) = .ok (false, 1) ∧
    -- another thread holds the mutex: accesses do not count and bring nothing
    ((startWith mutexQueue twoShared mutexContended).map fun s =>
      ((s.cur 0 0).isSome, s.qs.map fun c : Mt => c.owner)) = .ok (true, [some 2, none]) ∧
    ((startWith mutexQueue twoShared mutexContended).map fun s =>
      (s.accesses (fun c : Mt => decide (c.owner = none ∨ c.owner = some 1)) 0 0 (List.replicate 40 (.prod 0 0 0)),
       s.accesses (fun c : Mt => decide (c.owner = none ∨ c.owner = some 1)) 0 0
         (List.replicate 40 (.prod 0 1 0) ++ List.replicate 40 (.prod 0 0 0)))) = .ok (0, 40) ∧
    -- the I/O thread holds the mutex
    ((startWith mutexQueue twoShared (qPre ++ [.io 9 .timeout 0, .io 9 .timeout 0, .io 9 .timeout 0, .io 9 .timeout 0])).map fun s =>
      (s.qs.map fun c : Mt => c.owner)) = .ok [some 0, some 1] := by
  refine ⟨by decide +kernel, by decide +kernel, by decide +kernel, by decide +kernel, by decide +kernel, by decide +kernel, by decide +kernel, by decide +kernel⟩

end Fstrm.Props
