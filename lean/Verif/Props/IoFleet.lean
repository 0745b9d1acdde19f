import Verif.Lemmas.IoFleet
import Verif.Props.Fleet

/-!
# C74: programs with I/O threads and `fstrm_capture`

Any number of programs, each with producer threads and an I/O thread over a bidirectional writer of
the library, are connected to one `fstrm_capture`. `Verif.Spec.IoNet` says what the programs are,
`Verif.Spec.Fleet` what can happen to the network and the server, and what strangers can do.
-/

set_option autoImplicit false

namespace Fstrm.Props

open Iothr
open Spec (World CapEv CFrame CType Client IoClient IoSuits Finished Side Suits sides Fair FleetRun Settled
  dataFrame receivedFrom recordedFrom recordedAll sentTo sentBy stream)

/-- **C74, safety.** The server gets through everything that can happen next; every program is
waiting for bytes of the server or has destroyed its I/O thread without a failing call. -/
theorem iofleet_safe (args : CapArgs) (env : CapEnv) (prog : Nat → IoClient)
    (stranger breaks : Nat → Prop) (s : Capture) (got : Nat → Bytes) (hb : args.bufferSize < 2 ^ 31)
    (hs : ∀ id, ¬ stranger id → IoSuits args.contentType args.highwater (prog id))
    (h : FleetRun args env ⟨fun id => (prog id).side, stranger, breaks⟩ s got) :
    (∀ a, Fair ⟨fun id => (prog id).side, stranger, breaks⟩ got s a → ∃ s', s.step a = .ok s') ∧
    ∀ id, ¬ stranger id → (∃ sent, (prog id).side (got id) = .error (.wait sent)) ∨
      ∃ st sent, (prog id).side (got id) = .ok (st, sent) ∧ Finished st := by
  obtain ⟨c, c1, c2, c3, c4, c5⟩ := io_clients hs
  have hr := c5.run hb c1 h
  have hg := (fleet_inv hb c1 hr).sent hb c1
  constructor
  · intro a ha
    exact (fleet_safe args env c stranger breaks s got hb c1 hr).1 a ((c5.fair hg a).1 ha)
  · intro id hk
    rcases c4 id _ hk (hg id hk) with ⟨o, h1, _⟩ | ⟨st, o, r, h1, h2, _⟩
    · exact Or.inl ⟨o, h1⟩
    · exact Or.inr ⟨st, o, h1, h2⟩

/-- **C74, delivery.** What the server has written for a program is, in order and without gaps, a
beginning of the payloads the I/O thread hands over by the end. Once the program has destroyed its
I/O thread they have all been written, among them every payload submitted before destroy was
called; those of one input queue are in the order of submission, and none is written twice. -/
theorem iofleet_delivers (args : CapArgs) (env : CapEnv) (prog : Nat → IoClient)
    (stranger breaks : Nat → Prop) (s : Capture) (got : Nat → Bytes) (hb : args.bufferSize < 2 ^ 31)
    (hs : ∀ id, ¬ stranger id → IoSuits args.contentType args.highwater (prog id))
    (h : FleetRun args env ⟨fun id => (prog id).side, stranger, breaks⟩ s got) (id : Nat) (hk : ¬ stranger id) :
    (∀ y st sent, (prog id).side y = .ok (st, sent) → Finished st →
      recordedFrom id s.log <+: (handed st.log).map fun e => dataFrame e.data) ∧
    ∀ st sent, (prog id).side (got id) = .ok (st, sent) →
      ∃ es : List Entry, recordedFrom id s.log = es.map (fun e => dataFrame e.data) ∧
        (∀ q, onQueue q (submits (beforeShutdown st.log)) <+: onQueue q es) ∧
        (∀ q, (onQueue q es).Sublist (onQueue q (submits st.log))) ∧ es.Nodup := by
  obtain ⟨c, c1, c2, c3, c4, c5⟩ := io_clients hs
  have hr := c5.run hb c1 h
  have hg := (fleet_inv hb c1 hr).sent hb c1
  obtain ⟨d1, d2⟩ := fleet_delivers args env c stranger breaks s got hb c1 hr id hk
  have hm : ∀ es : List Entry, (es.map Entry.data).map dataFrame =
      es.map fun e => dataFrame e.data := fun es => by rw [List.map_map]; rfl
  constructor
  · intro y st sent e hf
    rw [← hm, ← (c3 id y st sent hk e hf).frames]
    exact d1
  · intro st sent e
    rcases c4 id _ hk (hg id hk) with ⟨o, h1, _⟩ | ⟨st', o, ⟨rs, w⟩, h1, h2, h3⟩
    · rw [e] at h1; cases h1
    · rw [e] at h1
      cases h1
      have hp := c3 id _ st sent hk e h2
      refine ⟨handed st.log, ?_, hp.before, hp.sub, hp.nodup⟩
      rw [(d2 rs w sent h3).2, hp.frames, hm]

/-- **C74, progress.** While the server runs, the network always has something to do for a program
whose connection was accepted and does not break, until it has destroyed its I/O thread without a
failing call. (By `iofleet_bounded` there is only so much to do.) -/
theorem iofleet_progress (args : CapArgs) (env : CapEnv) (prog : Nat → IoClient)
    (stranger breaks : Nat → Prop) (s : Capture) (got : Nat → Bytes) (hb : args.bufferSize < 2 ^ 31)
    (hs : ∀ id, ¬ stranger id → IoSuits args.contentType args.highwater (prog id))
    (h : FleetRun args env ⟨fun id => (prog id).side, stranger, breaks⟩ s got) (hx : s.exited = none)
    (id : Nat) (hk : ¬ stranger id) (hbr : ¬ breaks id) (hacc : .accepted id ∈ s.log)
    (hq : Settled ⟨fun id => (prog id).side, stranger, breaks⟩ s got id) :
    ∃ st sent, (prog id).side (got id) = .ok (st, sent) ∧ Finished st := by
  obtain ⟨c, c1, c2, c3, c4, c5⟩ := io_clients hs
  have hr := c5.run hb c1 h
  have hg := (fleet_inv hb c1 hr).sent hb c1
  obtain ⟨⟨w, sent, h1⟩, _⟩ :=
    fleet_progress args env c stranger breaks s got hb c1 hr hx id hk hbr hacc (c5.settled hg hq)
  rcases c4 id _ hk (hg id hk) with ⟨o, _, h2⟩ | ⟨st, o, r, h2, h3, _⟩
  · rw [h2] at h1; cases h1
  · exact ⟨st, o, h2, h3⟩

/-- **C74, termination.** The bytes moved for a program are bounded, and every move of the network
that is not refused adds to them. -/
theorem iofleet_bounded (args : CapArgs) (env : CapEnv) (prog : Nat → IoClient)
    (stranger breaks : Nat → Prop) (s : Capture) (got : Nat → Bytes) (hb : args.bufferSize < 2 ^ 31)
    (hs : ∀ id, ¬ stranger id → IoSuits args.contentType args.highwater (prog id))
    (h : FleetRun args env ⟨fun id => (prog id).side, stranger, breaks⟩ s got) (id : Nat) (hk : ¬ stranger id) :
    (∀ y st sent, (prog id).side y = .ok (st, sent) → Finished st → receivedFrom id s.log <+:
      CFrame.wire ⟨.ready, (prog id).types⟩ ++
        stream (prog id).types.head? ((handed st.log).map Entry.data)) ∧
    (got id <+: sentTo id s.log) ∧
    (sentTo id s.log <+:
      CFrame.wire ⟨.accept, [args.contentType]⟩ ++ CFrame.wire ⟨.finish, []⟩) ∧
    (∀ bs chains s', s.step (.recv id bs chains) = .ok s' → s' ≠ s →
      (receivedFrom id s.log).length < (receivedFrom id s'.log).length) ∧
    (∀ k s', s.step (.send id k) = .ok s' → s' ≠ s →
      (sentTo id s.log).length < (sentTo id s'.log).length) := by
  obtain ⟨c, c1, c2, c3, c4, c5⟩ := io_clients hs
  have hr := c5.run hb c1 h
  obtain ⟨d1, d2⟩ := fleet_bounded args env c stranger breaks s got hb c1 hr id hk
  refine ⟨?_, d2⟩
  intro y st sent e hf
  rw [← (c3 id y st sent hk e hf).frames]
  have : (c id).types = (prog id).types := by 
    unfold Client.types IoClient.types; rw [c2 id hk]; cases (prog id).wopt <;> rfl
  rw [← this]
  exact d1

/-- **C74, output files.** If no output file was overwritten and no output failed, the files hold
START, data frames and, except for the one being written, STOP; the data frames of all files together
contain, in order, what the I/O thread of every program that has finished handed over. -/
theorem iofleet_files (args : CapArgs) (env : CapEnv) (prog : Nat → IoClient)
    (stranger breaks : Nat → Prop) (s : Capture) (got : Nat → Bytes) (hb : args.bufferSize < 2 ^ 31)
    (hs : ∀ id, ¬ stranger id → IoSuits args.contentType args.highwater (prog id))
    (h : FleetRun args env ⟨fun id => (prog id).side, stranger, breaks⟩ s got) (hc : ∀ i, .clobbered i ∉ s.log)
    (hf : ∀ i, .failed i ∉ s.log) :
    ∃ dss : List (List Bytes), dss.length = s.files.length ∧
      (∀ i ds, dss[i]? = some ds → s.files[i]? =
        if s.outputFile = some i then
          some (CFrame.wire ⟨.start, [args.contentType]⟩ ++ ds.flatMap dataFrame)
        else some (stream (some args.contentType) ds)) ∧
      ∀ id st sent, ¬ stranger id → (prog id).side (got id) = .ok (st, sent) →
        ∃ es : List Entry, (es.map Entry.data).Sublist dss.flatten ∧
          (∀ q, onQueue q (submits (beforeShutdown st.log)) <+: onQueue q es) ∧
          (∀ q, (onQueue q es).Sublist (onQueue q (submits st.log))) ∧ es.Nodup := by
  obtain ⟨c, c1, c2, c3, c4, c5⟩ := io_clients hs
  have hr := c5.run hb c1 h
  have hg := (fleet_inv hb c1 hr).sent hb c1
  obtain ⟨dss, h1, h2, h3⟩ := fleet_files args env c stranger breaks s got hb c1 hr hc hf
  refine ⟨dss, h1, h2, ?_⟩
  intro id st sent hk e
  rcases c4 id _ hk (hg id hk) with ⟨o, h4, _⟩ | ⟨st', o, r, h4, h5, h6⟩
  · rw [e] at h4; cases h4
  · rw [e] at h4
    cases h4
    have hp := c3 id _ st sent hk e h5
    refine ⟨handed st.log, ?_, hp.before, hp.sub, hp.nodup⟩
    rw [← hp.frames]
    exact h3 id _ hk h6

/-! ## A sample run -/

/-- Every program has two input queues and the threads of `demoPre` and `demoPost`. -/
def ioSample : IoClient := ⟨some ⟨[[97]]⟩, twoQueues, demoPre ++ .io 9 .timeout :: demoPost⟩

theorem ioSample_suits :
    IoSuits (easyArgs 0).contentType (easyArgs 0).highwater ioSample := by
  show IoSuits [97] 262144 ioSample
  refine ⟨⟨⟨demoPre, 9, .timeout, demoPost, rfl, by decide +kernel, by decide +kernel⟩,
      ⟨(demoPre ++ .io 9 .timeout :: demoPost).dropLast, by decide +kernel, by decide +kernel⟩, ?_⟩,
    by decide +kernel, by decide +kernel, by intro c hc; cases hc; rfl, by decide +kernel,
    by decide +kernel, by decide +kernel, ?_, by decide +kernel⟩
  · let y := CFrame.wire ⟨.accept, [[97]]⟩ ++ CFrame.wire ⟨.finish, []⟩
    have h : (ioSample.side y).map (fun p => (p.1.destroyed, (calls p.1.log).all (·.2 = .success))) =
      .ok (true, true) := by decide +kernel
    cases e : ioSample.side y with
    | error x => rw [e] at h; cases h
    | ok p =>
      obtain ⟨st, sent⟩ := p
      rw [e] at h
      simp only [Except.map, Except.ok.injEq, Prod.mk.injEq, List.all_eq_true, decide_eq_true_eq] at h
      exact ⟨y, st, sent, e, h⟩
  · intro t q d f hm
    have : ∀ a ∈ ioSample.acts, (match a with
      | .submit _ _ (some d) _ => decide (4 + d.length ≤ 262144)
      | _ => true) = true := by decide +kernel
    simpa using this _ hm

/-- Three programs and a stranger. The stranger sends a frame and then READY again, which ends its
connection; the connection of program 2 breaks after its first payload; everything of programs 0 and
1 is delivered in pieces; the output is rotated in between. -/
def ioSampleMoves : List FleetMove :=
  let ready := CFrame.wire ⟨.ready, [[97]]⟩
  let all := stream (some [97]) [[1], [2, 2], [3], [5], [4]]
  let accept := CFrame.wire ⟨.accept, [[97]]⟩
  let finish := CFrame.wire ⟨.finish, []⟩
  let odd := CFrame.wire ⟨.start, [[97]]⟩ ++ dataFrame [6] ++ ready
  [.act .accept, .act .accept, .act .accept, .act .accept,
    .act (.recv 1 ready [ready]), .act (.recv 0 (ready.take 9) [ready.take 9]),
    .act (.recv 2 ready [ready]), .act (.send 2 21), .deliver 2 accept,
    .act (.recv 2 (all.take 28) [all.take 28]), .act (.hangup 2),
    .act (.recv 3 (ready ++ odd) [ready ++ odd]),
    .act (.recv 0 (ready.drop 9) [ready.take 9, ready.drop 9]), .act (.send 0 20), .deliver 0 (accept.take 20),
    .act (.send 0 1), .act (.send 1 21), .deliver 1 accept, .act (.recv 1 (all.take 28) [all.take 28]),
    .deliver 0 (accept.drop 20), .act (.recv 0 all [all]), .act (.rename [98] [99]), .act .sigusr1,
    .act (.recv 1 (all.drop 28) [(all.take 28).drop 26, all.drop 28]), .act (.send 0 12),
    .act (.send 1 12), .deliver 0 finish, .deliver 1 finish]

/-- The sample run ends with programs 0 and 1 done, the server running and all payloads in two
files. -/
theorem ioSample_run : ∃ s got, FleetRun (easyArgs 0) easyEnv (worldOf (fun _ => ioSample.side) [3] [2]) s got ∧
    s.exited = none ∧
    s.nextId = 4 ∧ (∀ id < 2, s.conns id = none ∧ .accepted id ∈ s.log ∧
      got id = sentTo id s.log) ∧
    s.files = [stream (some [97]) [[1], [6], [1], [1], [2, 2], [3], [5], [4]],
      CFrame.wire ⟨.start, [[97]]⟩ ++ [[2, 2], [3], [5], [4]].flatMap dataFrame] ∧
    (s.log.any fun e => match e with | .clobbered _ => true | .failed _ => true | _ => false) =
      false ∧ ∀ id < 2, (ioSample.side (got id)).toBool := by
  have h : (Capture.start (easyArgs 0) easyEnv >>= fun s => fleetExec (fun _ => ioSample.side) [3] [2] s (fun _ => [])
      ioSampleMoves).map (fun p => (p.1.exited, p.1.files,
        [decide (p.1.nextId = 4), (p.1.conns 0).isNone, (p.1.conns 1).isNone, p.1.log.any fun e => match e with | .clobbered _ => true | .failed _ => true | _ => false,
        decide (.accepted 0 ∈ p.1.log), decide (.accepted 1 ∈ p.1.log),
        decide (p.2 0 = sentTo 0 p.1.log), decide (p.2 1 = sentTo 1 p.1.log),
        (ioSample.side (p.2 0)).toBool, (ioSample.side (p.2 1)).toBool])) =
    .ok (none, [stream (some [97]) [[1], [6], [1], [1], [2, 2], [3], [5], [4]],
      CFrame.wire ⟨.start, [[97]]⟩ ++ [[2, 2], [3], [5], [4]].flatMap dataFrame],
      [true, true, true, false, true, true, true, true, true, true]) := by decide +kernel
  cases h0 : Capture.start (easyArgs 0) easyEnv with
  | error x => rw [h0] at h; cases h
  | ok s0 =>
    rw [h0, Exec.ok_bind] at h
    cases h1 : fleetExec (fun _ => ioSample.side) [3] [2] s0 (fun _ => []) ioSampleMoves with
    | error x => rw [h1] at h; cases h
    | ok p =>
      obtain ⟨s, got⟩ := p
      rw [h1] at h
      simp only [Except.map, Except.ok.injEq, Prod.mk.injEq, List.cons.injEq, decide_eq_true_eq,
        and_true] at h
      obtain ⟨a1, a5, a2, a3, a4, a6, a7, a8, a9, a10, a11, a12⟩ := h
      refine ⟨s, got, fleetExec_sound _ (.start h0) h1, a1, a2, ?_, ?_, a6, ?_⟩
      · intro id hid
        have : id = 0 ∨ id = 1 := by omega
        rcases this with rfl | rfl
        · exact ⟨Option.isNone_iff_eq_none.1 a3, a7, a9⟩
        · exact ⟨Option.isNone_iff_eq_none.1 a4, a8, a10⟩
      · exact a5
      · intro id hid
        have : id = 0 ∨ id = 1 := by omega
        rcases this with rfl | rfl
        · exact a11
        · exact a12

/-- The hypotheses of the theorems are met by the end of the sample run. -/
example : ∃ s got, FleetRun (easyArgs 0) easyEnv (worldOf (fun _ => ioSample.side) [3] [2]) s got ∧
    (easyArgs 0).bufferSize < 2 ^ 31 ∧
    IoSuits (easyArgs 0).contentType (easyArgs 0).highwater ioSample ∧
    s.exited = none ∧ Settled (worldOf (fun _ => ioSample.side) [3] [2]) s got 1 ∧ .accepted 1 ∈ s.log ∧
    (∀ i, .clobbered i ∉ s.log) ∧ (∀ i, .failed i ∉ s.log) ∧
    (∃ r, ioSample.side (got 1) = .ok r) := by
  obtain ⟨s, got, h, hx, hn, hid, _, hl, hr⟩ := ioSample_run
  obtain ⟨hc, hacc, hg⟩ := hid 1 (by omega)
  refine ⟨s, got, h, by decide +kernel, ioSample_suits, hx, settled_of hx hc hg, hacc,
    ?_, ?_, ?_⟩
  · intro i hi'
    have := List.any_eq_false.1 hl _ hi'
    simp at this
  · intro i hi'
    have := List.any_eq_false.1 hl _ hi'
    simp at this
  · have := hr 1 (by omega)
    cases hh : ioSample.side (got 1) with
    | error x => rw [hh] at this; cases this
    | ok r => exact ⟨r, rfl⟩

end Fstrm.Props
