import Verif.Lemmas.QFleet
import Verif.Props.IoFleet

/-!
# C121: programs with I/O threads over queues in memory and `fstrm_capture`

As C74, but the programs' threads operate on the input queues by memory accesses, interleaved in
every possible way and with delayed stores. `Verif.Spec.QNet` says what the programs are.
-/

set_option autoImplicit false

namespace Fstrm.Props

open Iothr
open Spec (World CapEv CFrame CType Client QClient QEnd QSuits Finished Side Suits sides Fair FleetRun Settled
  dataFrame receivedFrom recordedFrom recordedAll sentTo sentBy stream)

/-- **C121, safety.** The server gets through everything that can happen next; every program is
waiting for bytes of the server or has destroyed its I/O thread without a failing call. -/
theorem qfleet_safe (args : CapArgs) (env : CapEnv) (prog : Nat → QClient)
    (stranger breaks : Nat → Prop) (s : Capture) (got : Nat → Bytes) (hb : args.bufferSize < 2 ^ 31)
    (hs : ∀ id, ¬ stranger id → QSuits args.contentType args.highwater (prog id))
    (h : FleetRun args env ⟨fun id => (prog id).side, stranger, breaks⟩ s got) :
    (∀ a, Fair ⟨fun id => (prog id).side, stranger, breaks⟩ got s a → ∃ s', s.step a = .ok s') ∧
    ∀ id, ¬ stranger id → (∃ sent, (prog id).side (got id) = .error (.wait sent)) ∨
      ∃ e sent, (prog id).side (got id) = .ok (e, sent) ∧ e.Clean := by
  obtain ⟨c, c1, c2, c3, c4, c5⟩ := q_clients hs
  have hr := c5.run hb c1 h
  have hg := (fleet_inv hb c1 hr).sent hb c1
  constructor
  · intro a ha
    exact (fleet_safe args env c stranger breaks s got hb c1 hr).1 a ((c5.fair hg a).1 ha)
  · intro id hk
    rcases c4 id _ hk (hg id hk) with ⟨o, h1, _⟩ | ⟨e, o, r, h1, h2, _⟩
    · exact Or.inl ⟨o, h1⟩
    · exact Or.inr ⟨e, o, h1, h2⟩

/-- **C121, delivery.** What the server has written for a program is, in order and without gaps, a
beginning of what it writes for it by the end: payloads `es`, none of them twice. Every payload for which
submit had returned success before destroy was called is one of them. Of what one thread submitted to
one queue, `es` has what was submitted before destroy was called, and otherwise only payloads for
which submit returned success, in the order of submission. -/
theorem qfleet_delivers (args : CapArgs) (env : CapEnv) (prog : Nat → QClient)
    (stranger breaks : Nat → Prop) (s : Capture) (got : Nat → Bytes) (hb : args.bufferSize < 2 ^ 31)
    (hs : ∀ id, ¬ stranger id → QSuits args.contentType args.highwater (prog id))
    (h : FleetRun args env ⟨fun id => (prog id).side, stranger, breaks⟩ s got) (id : Nat) (hk : ¬ stranger id) :
    (∀ y e sent, (prog id).side y = .ok (e, sent) → Finished e.io →
      recordedFrom id s.log <+: (handed e.io.log).map fun x => dataFrame x.data) ∧
    ∀ e sent, (prog id).side (got id) = .ok (e, sent) →
      ∃ es : List Entry, recordedFrom id s.log = es.map (fun x => dataFrame x.data) ∧ es.Nodup ∧
        (∀ x ∈ e.done, x ∈ es) ∧
        ∀ q t, (e.mine q t e.done).Sublist (e.mine q t es) ∧ (e.mine q t es).Sublist (e.mine q t e.rets) := by
  obtain ⟨c, c1, c2, c3, c4, c5⟩ := q_clients hs
  have hr := c5.run hb c1 h
  have hg := (fleet_inv hb c1 hr).sent hb c1
  obtain ⟨d1, d2⟩ := fleet_delivers args env c stranger breaks s got hb c1 hr id hk
  have hm : ∀ es : List Entry, (es.map Entry.data).map dataFrame =
      es.map fun e => dataFrame e.data := fun es => by rw [List.map_map]; rfl
  constructor
  · intro y e sent he hf
    rw [← hm, ← (c3 id y e sent hk he hf).2.frames]
    exact d1
  · intro e sent he
    rcases c4 id _ hk (hg id hk) with ⟨o, h1, _⟩ | ⟨e', o, ⟨rs, w⟩, h1, h2, h3⟩
    · rw [he] at h1; cases h1
    · rw [he] at h1
      cases h1
      obtain ⟨_, hp⟩ := c3 id _ e sent hk he h2.finished
      obtain ⟨p1, p2⟩ := hp.done h2.settled
      refine ⟨handed e.io.log, ?_, hp.nodup, p1, fun q t => ⟨p2 q t, ?_⟩⟩
      · rw [(d2 rs w sent h3).2, hp.frames, hm]
      · have := hp.sub q t
        rw [h2.idle] at this
        simpa using this

/-- **C121, progress.** While the server runs, the network always has something to do for a program
whose connection was accepted and does not break, until it has destroyed its I/O thread without a
failing call. (By `qfleet_bounded` there is only so much to do.) -/
theorem qfleet_progress (args : CapArgs) (env : CapEnv) (prog : Nat → QClient)
    (stranger breaks : Nat → Prop) (s : Capture) (got : Nat → Bytes) (hb : args.bufferSize < 2 ^ 31)
    (hs : ∀ id, ¬ stranger id → QSuits args.contentType args.highwater (prog id))
    (h : FleetRun args env ⟨fun id => (prog id).side, stranger, breaks⟩ s got) (hx : s.exited = none)
    (id : Nat) (hk : ¬ stranger id) (hbr : ¬ breaks id) (hacc : .accepted id ∈ s.log)
    (hq : Settled ⟨fun id => (prog id).side, stranger, breaks⟩ s got id) :
    ∃ e sent, (prog id).side (got id) = .ok (e, sent) ∧ e.Clean := by
  obtain ⟨c, c1, c2, c3, c4, c5⟩ := q_clients hs
  have hr := c5.run hb c1 h
  have hg := (fleet_inv hb c1 hr).sent hb c1
  obtain ⟨⟨w, sent, h1⟩, _⟩ :=
    fleet_progress args env c stranger breaks s got hb c1 hr hx id hk hbr hacc (c5.settled hg hq)
  rcases c4 id _ hk (hg id hk) with ⟨o, _, h2⟩ | ⟨e, o, r, h2, h3, _⟩
  · rw [h2] at h1; cases h1
  · exact ⟨e, o, h2, h3⟩

/-- **C121, termination.** The bytes moved for a program are bounded, and every move of the network
that is not refused adds to them. -/
theorem qfleet_bounded (args : CapArgs) (env : CapEnv) (prog : Nat → QClient)
    (stranger breaks : Nat → Prop) (s : Capture) (got : Nat → Bytes) (hb : args.bufferSize < 2 ^ 31)
    (hs : ∀ id, ¬ stranger id → QSuits args.contentType args.highwater (prog id))
    (h : FleetRun args env ⟨fun id => (prog id).side, stranger, breaks⟩ s got) (id : Nat) (hk : ¬ stranger id) :
    (∀ y e sent, (prog id).side y = .ok (e, sent) → Finished e.io → receivedFrom id s.log <+:
      CFrame.wire ⟨.ready, (prog id).types⟩ ++
        stream (prog id).types.head? ((handed e.io.log).map Entry.data)) ∧
    (got id <+: sentTo id s.log) ∧
    (sentTo id s.log <+:
      CFrame.wire ⟨.accept, [args.contentType]⟩ ++ CFrame.wire ⟨.finish, []⟩) ∧
    (∀ bs chains s', s.step (.recv id bs chains) = .ok s' → s' ≠ s →
      (receivedFrom id s.log).length < (receivedFrom id s'.log).length) ∧
    (∀ k s', s.step (.send id k) = .ok s' → s' ≠ s →
      (sentTo id s.log).length < (sentTo id s'.log).length) := by
  obtain ⟨c, c1, c2, c3, c4, c5⟩ := q_clients hs
  have hr := c5.run hb c1 h
  obtain ⟨d1, d2⟩ := fleet_bounded args env c stranger breaks s got hb c1 hr id hk
  refine ⟨?_, d2⟩
  intro y e sent he hf
  rw [← (c3 id y e sent hk he hf).2.frames]
  have : (c id).types = (prog id).types := by
    unfold Client.types QClient.types; rw [c2 id hk]; cases (prog id).wopt <;> rfl
  rw [← this]
  exact d1

/-- **C121, output files.** If no output file was overwritten and no output failed, the files hold
START, data frames and, except for the one being written, STOP; the data frames of all files together
contain, in order, the payloads of every program that has finished, as in `qfleet_delivers`. -/
theorem qfleet_files (args : CapArgs) (env : CapEnv) (prog : Nat → QClient)
    (stranger breaks : Nat → Prop) (s : Capture) (got : Nat → Bytes) (hb : args.bufferSize < 2 ^ 31)
    (hs : ∀ id, ¬ stranger id → QSuits args.contentType args.highwater (prog id))
    (h : FleetRun args env ⟨fun id => (prog id).side, stranger, breaks⟩ s got) (hc : ∀ i, .clobbered i ∉ s.log)
    (hf : ∀ i, .failed i ∉ s.log) :
    ∃ dss : List (List Bytes), dss.length = s.files.length ∧
      (∀ i ds, dss[i]? = some ds → s.files[i]? =
        if s.outputFile = some i then
          some (CFrame.wire ⟨.start, [args.contentType]⟩ ++ ds.flatMap dataFrame)
        else some (stream (some args.contentType) ds)) ∧
      ∀ id e sent, ¬ stranger id → (prog id).side (got id) = .ok (e, sent) →
        ∃ es : List Entry, (es.map Entry.data).Sublist dss.flatten ∧ es.Nodup ∧ (∀ x ∈ e.done, x ∈ es) ∧
          ∀ q t, (e.mine q t e.done).Sublist (e.mine q t es) ∧ (e.mine q t es).Sublist (e.mine q t e.rets) := by
  obtain ⟨c, c1, c2, c3, c4, c5⟩ := q_clients hs
  have hr := c5.run hb c1 h
  have hg := (fleet_inv hb c1 hr).sent hb c1
  obtain ⟨dss, h1, h2, h3⟩ := fleet_files args env c stranger breaks s got hb c1 hr hc hf
  refine ⟨dss, h1, h2, ?_⟩
  intro id e sent hk he
  rcases c4 id _ hk (hg id hk) with ⟨o, h4, _⟩ | ⟨e', o, r, h4, h5, h6⟩
  · rw [he] at h4; cases h4
  · rw [he] at h4
    cases h4
    obtain ⟨_, hp⟩ := c3 id _ e sent hk he h5.finished
    obtain ⟨p1, p2⟩ := hp.done h5.settled
    refine ⟨handed e.io.log, ?_, hp.nodup, p1, fun q t => ⟨p2 q t, ?_⟩⟩
    · rw [← hp.frames]
      exact h3 id _ hk h6
    · have := hp.sub q t
      rw [h5.idle] at this
      simpa using this

/-! ## A sample run -/

/-- The program of the examples of C79 and C80, over a connection. -/
def qSample (opt : IothrOptions) (t : Nat) : QClient :=
  ⟨some ⟨[[97]]⟩, opt, .x86_64, qPre ++ .io 9 .timeout 0 :: qMid t, qPost.dropLast⟩

/-- Does the program end as it should with this input? -/
def qCheck (p : QClient) (y : Bytes) : Exec Bool :=
  match Writer.init p.wopt (Rdwr.init chanOps ⟨y, []⟩) with
  | none => .error .fuel
  | some w =>
    match IoQ.init (p.opt.queueImpl p.machine) ENTRY_SIZE p.opt w with
    | none => .error .fuel
    | some s => do
      let s1 ← s.run p.before
      let s2 ← s1.run (.shutdown :: p.after)
      let s ← s2.run [.finish]
      .ok (decide (s1.io.destroyed = false) && decide (∀ id < s1.io.nextId, s1.io.pending id = none) &&
        decide (s2.io.destroyed = false) && decide (∀ id < s2.io.nextId, s2.io.pending id = none) &&
        decide ((submits s2.io.log).Perm s2.rets) && s.io.destroyed && (calls s.io.log).all (·.2 = .success))

theorem qCheck_clean {p : QClient} (hr : Reached p.opt) (hpow : ∃ k, p.opt.inputQueueSize = 2 ^ k) {y : Bytes}
    (h : qCheck p y = .ok true) : ∃ e sent, p.side y = .ok (e, sent) ∧ e.Clean := by
  unfold qCheck at h
  unfold QClient.side
  cases hw : Writer.init p.wopt (Rdwr.init chanOps ⟨y, []⟩) with
  | none => rw [hw] at h; cases h
  | some w =>
  rw [hw] at h
  dsimp only at h ⊢
  cases hi : IoQ.init (p.opt.queueImpl p.machine) ENTRY_SIZE p.opt w with
  | none => rw [hi] at h; cases h
  | some s0 =>
  rw [hi] at h
  obtain ⟨s1, r1, h⟩ := Exec.bind_eq_ok.1 h
  obtain ⟨s2, r2, h⟩ := Exec.bind_eq_ok.1 h
  obtain ⟨s, r3, h⟩ := Exec.bind_eq_ok.1 h
  simp only [Except.ok.injEq, Bool.and_eq_true, decide_eq_true_eq, List.all_eq_true] at h
  obtain ⟨⟨⟨⟨⟨⟨d1, p1⟩, d2⟩, p2⟩, hperm⟩, d3⟩, hok⟩ := h
  obtain ⟨_, num, R, hQ, hl1, _⟩ := queues_link hr hpow hi r1
  have hl2 := (hl1.run hQ _ r2).1
  have hc := IoQ.idle_of hl2.ac (IoQ.settled_of hl2 d2 p2) hperm
  obtain ⟨s', r4, r5⟩ := Exec.bind_eq_ok.1 r3
  cases r5
  obtain ⟨io, _, hs, _⟩ := IoQ.finish_cases (τ := Chan) r4 d2 d3
  refine ⟨⟨s.io, s1.rets, s1.wait, s.rets, s.who, s.cur⟩, s.io.writer.rdwr.obj.out, ?_, ⟨⟨d3, hok⟩, IoQ.settled_of hl1 d1 p1, ?_⟩⟩
  · dsimp only
    rw [r1, Exec.ok_bind, (IoQ.run_append s1 (.shutdown :: p.after) [.finish] s).2 ⟨s2, r2, r3⟩]
    rfl
  · intro q t
    show s.cur q t = none
    rw [hs]
    exact hc q t

/-- What the server sends to the samples. -/
def qInput : Bytes := CFrame.wire ⟨.accept, [[97]]⟩ ++ CFrame.wire ⟨.finish, []⟩

theorem qSample_suits (opt : IothrOptions) (t : Nat) (h : (opt = twoQueues ∧ t = 0) ∨ opt = twoShared ∧ t = 7) :
    QSuits (easyArgs 0).contentType (easyArgs 0).highwater (qSample opt t) := by
  show QSuits [97] 262144 (qSample opt t)
  have hfit : ∀ a ∈ (qSample opt t).before ++ (qSample opt t).after, (match a with
      | .submit _ _ _ (some d) _ => decide (4 + d.length ≤ 262144)
      | _ => true) = true := by
    rcases h with ⟨rfl, rfl⟩ | ⟨rfl, rfl⟩ <;> decide +kernel
  have hr : Reached opt ∧ opt.inputQueueSize = 2 ^ 2 ∧ opt.reopenInterval ≤ 9 := by
    rcases h with ⟨rfl, rfl⟩ | ⟨rfl, rfl⟩
    · exact ⟨.set .numInputQueues _ 2 (.set .inputQueueSize _ 4 .init), rfl, by decide⟩
    · exact ⟨.set .queueModel _ 1 (.set .numInputQueues _ 2 (.set .inputQueueSize _ 4 .init)), rfl, by decide⟩
  have hc : qCheck (qSample opt t) qInput = .ok true := by
    rcases h with ⟨rfl, rfl⟩ | ⟨rfl, rfl⟩ <;> decide +kernel
  have ho : QAct.shutdown ∉ (qSample opt t).before ∧ QAct.finish ∉ (qSample opt t).before ∧
      QAct.finish ∉ (qSample opt t).after := by
    rcases h with ⟨rfl, rfl⟩ | ⟨rfl, rfl⟩ <;> decide +kernel
  refine ⟨⟨hr.1, ⟨2, hr.2.1⟩, ⟨qPre, 9, .timeout, 0, qMid t, rfl, by decide +kernel, hr.2.2⟩, ho, ?_⟩,
    by decide +kernel, ?_, ?_, ?_, ?_, by decide +kernel, ?_, by decide +kernel⟩
  · obtain ⟨e, sent, h1, h2⟩ := qCheck_clean hr.1 ⟨2, hr.2.1⟩ hc
    exact ⟨_, e, sent, h1, h2⟩
  · show ∀ c ∈ [[97]], _
    decide +kernel
  · intro c hc; cases hc; rfl
  · show (CFrame.wire ⟨.ready, [[97]]⟩).length < 512
    decide +kernel
  · show (CFrame.wire ⟨.ready, [[97]]⟩).length ≤ _
    decide +kernel
  · intro q t raw d f hm
    simpa using hfit _ hm

/-- Two programs, one with lock-free queues and one with a mutex. -/
def qProg (id : Nat) : QClient := if id = 0 then qSample twoQueues 0 else qSample twoShared 7

theorem qProg_suits (id : Nat) : QSuits (easyArgs 0).contentType (easyArgs 0).highwater (qProg id) := by
  unfold qProg
  split
  · exact qSample_suits _ _ (Or.inl ⟨rfl, rfl⟩)
  · exact qSample_suits _ _ (Or.inr ⟨rfl, rfl⟩)

/-- A stranger sends a frame and then READY again, which ends its connection; everything of programs 0
and 1 is delivered in pieces. -/
def qSampleMoves : List FleetMove :=
  let ready := CFrame.wire ⟨.ready, [[97]]⟩
  let all := stream (some [97]) [[1], [2, 2], [3]]
  let accept := CFrame.wire ⟨.accept, [[97]]⟩
  let finish := CFrame.wire ⟨.finish, []⟩
  let odd := CFrame.wire ⟨.start, [[97]]⟩ ++ dataFrame [6] ++ ready
  [.act .accept, .act .accept, .act .accept,
    .act (.recv 1 ready [ready]), .act (.recv 0 (ready.take 9) [ready.take 9]),
    .act (.recv 2 (ready ++ odd) [ready ++ odd]),
    .act (.recv 0 (ready.drop 9) [ready.take 9, ready.drop 9]), .act (.send 0 20), .deliver 0 (accept.take 20),
    .act (.send 0 1), .act (.send 1 21), .deliver 1 accept, .act (.recv 1 (all.take 28) [all.take 28]),
    .deliver 0 (accept.drop 20), .act (.recv 0 all [all]), .act (.rename [98] [99]), .act .sigusr1,
    .act (.recv 1 (all.drop 28) [(all.take 28).drop 26, all.drop 28]), .act (.send 0 12),
    .act (.send 1 12), .deliver 0 finish, .deliver 1 finish]

/-- The sample run ends with programs 0 and 1 done, the server running and all payloads in two
files. -/
theorem qSample_run : ∃ s got, FleetRun (easyArgs 0) easyEnv (worldOf (fun id => (qProg id).side) [2] []) s got ∧
    s.exited = none ∧
    (∀ id < 2, s.conns id = none ∧ .accepted id ∈ s.log ∧ got id = sentTo id s.log) ∧
    s.files = [stream (some [97]) [[6], [1], [1], [2, 2], [3]],
      CFrame.wire ⟨.start, [[97]]⟩ ++ [[2, 2], [3]].flatMap dataFrame] ∧
    (s.log.any fun e => match e with | .clobbered _ => true | .failed _ => true | _ => false) =
      false ∧ ∀ id < 2, ((qProg id).side (got id)).toBool := by
  have h : (Capture.start (easyArgs 0) easyEnv >>= fun s => fleetExec (fun id => (qProg id).side) [2] [] s (fun _ => [])
      qSampleMoves).map (fun p => (p.1.exited, p.1.files,
        [(p.1.conns 0).isNone, (p.1.conns 1).isNone, p.1.log.any fun e => match e with | .clobbered _ => true | .failed _ => true | _ => false,
        decide (.accepted 0 ∈ p.1.log), decide (.accepted 1 ∈ p.1.log),
        decide (p.2 0 = sentTo 0 p.1.log), decide (p.2 1 = sentTo 1 p.1.log),
        ((qProg 0).side (p.2 0)).toBool, ((qProg 1).side (p.2 1)).toBool])) =
    .ok (none, [stream (some [97]) [[6], [1], [1], [2, 2], [3]],
      CFrame.wire ⟨.start, [[97]]⟩ ++ [[2, 2], [3]].flatMap dataFrame],
      [true, true, false, true, true, true, true, true, true]) := by decide +kernel
  cases h0 : Capture.start (easyArgs 0) easyEnv with
  | error x => rw [h0] at h; cases h
  | ok s0 =>
    rw [h0, Exec.ok_bind] at h
    cases h1 : fleetExec (fun id => (qProg id).side) [2] [] s0 (fun _ => []) qSampleMoves with
    | error x => rw [h1] at h; cases h
    | ok p =>
      obtain ⟨s, got⟩ := p
      rw [h1] at h
      simp only [Except.map, Except.ok.injEq, Prod.mk.injEq, List.cons.injEq, decide_eq_true_eq,
        and_true] at h
      obtain ⟨a1, a5, a3, a4, a6, a7, a8, a9, a10, a11, a12⟩ := h
      refine ⟨s, got, fleetExec_sound _ (.start h0) h1, a1, ?_, ?_, a6, ?_⟩
      · intro id hid
        have : id = 0 ∨ id = 1 := by omega
        rcases this with rfl | rfl
        · exact ⟨Option.isNone_iff_eq_none.1 a3, a7, a9⟩
        · exact ⟨Option.isNone_iff_eq_none.1 a4, a8, a10⟩
      · exact a5
      · intro id hid
        have : id = 0 ∨ id = 1 := by omega
        rcases this with rfl | rfl
        · exact a11
        · exact a12

/-- The hypotheses of the theorems are met by the end of the sample run. -/
example : ∃ s got, FleetRun (easyArgs 0) easyEnv (worldOf (fun id => (qProg id).side) [2] []) s got ∧
    (easyArgs 0).bufferSize < 2 ^ 31 ∧
    (∀ id, QSuits (easyArgs 0).contentType (easyArgs 0).highwater (qProg id)) ∧
    s.exited = none ∧ Settled (worldOf (fun id => (qProg id).side) [2] []) s got 1 ∧ .accepted 1 ∈ s.log ∧
    (∀ i, .clobbered i ∉ s.log) ∧ (∀ i, .failed i ∉ s.log) ∧
    (∃ r, (qProg 1).side (got 1) = .ok r) := by
  obtain ⟨s, got, h, hx, hid, _, hl, hr⟩ := qSample_run
  obtain ⟨hc, hacc, hg⟩ := hid 1 (by omega)
  refine ⟨s, got, h, by decide +kernel, qProg_suits, hx, settled_of hx hc hg, hacc,
    ?_, ?_, ?_⟩
  · intro i hi'
    have := List.any_eq_false.1 hl _ hi'
    simp at this
  · intro i hi'
    have := List.any_eq_false.1 hl _ hi'
    simp at this
  · have := hr 1 (by omega)
    cases hh : (qProg 1).side (got 1) with
    | error x => rw [hh] at this; cases this
    | ok r => exact ⟨r, rfl⟩

end Fstrm.Props
