import Verif.Lemmas.ReplayPipe
import Verif.Props.IoFleet
import Verif.Props.Pipeline

/-!
# C115: connections that hold only so many bytes

The clients of C72, C74 and C111 and `fstrm_capture` over connections of limited capacity;
`Verif.Spec.FleetPipe` says how these work. A client whose connection is full blocks in its write call
and does not read, so a server that waited for the client to read could get stuck with it.
-/

set_option autoImplicit false

namespace Fstrm.Props

open Iothr
open Spec (CapEv CFrame Client IoClient IoSuits Finished ReplayJob Replayable replays replayPipes Suits sides pipes
  Fair FleetRun World PipeWorld PipeFair PipeFleetRun PipeSettled Reads dataFrame receivedFrom recordedFrom sentTo
  sentBy stream)

/-- **C115, capacity.** At no time are more than `cr` bytes under way from the server to a client. -/
theorem fleet_pipe_held {α : Type} (args : CapArgs) (env : CapEnv) (w : PipeWorld α) (s : Capture)
    (got : Nat → Bytes) (h : PipeFleetRun args env w s got) (id : Nat) (hk : ¬ w.stranger id) :
    got id <+: sentTo id s.log ∧ (sentTo id s.log).length ≤ (got id).length + w.cr := by
  induction h with
  | start e =>
    rw [(quiet_events (start_quiet e)).2]
    exact ⟨List.prefix_refl _, Nat.zero_le _⟩
  | @act s s' got a h hf e ih =>
    obtain ⟨es, l⟩ := step_log e
    rw [l.log, sentTo_append]
    refine ⟨ih.1.trans (List.prefix_append _ _), ?_⟩
    rcases l.sent id with he | ⟨_, k, ha, hle⟩
    · rw [he, List.append_nil]; exact ih.2
    · subst ha
      have := hf hk
      rw [List.length_append]
      omega
  | @deliver s got i b h hd ih =>
    simp only
    split
    · subst_vars
      refine ⟨hd.1, ?_⟩
      rw [List.length_append]
      have := ih.2
      omega
    · exact ih

/-- **C115, programs that use the writer: safety.** Whatever happens can also happen over unlimited
connections, so that C72 applies. The server gets through everything that can happen next. Every client is
waiting for bytes of the server, or blocked with as many bytes sent as its connection takes, or has
finished with all calls successful. -/
theorem fleet_pipe_safe (args : CapArgs) (env : CapEnv) (prog : Nat → Client)
    (stranger breaks : Nat → Prop) (cw cr : Nat) (s : Capture) (got : Nat → Bytes) (hb : args.bufferSize < 2 ^ 31)
    (hs : ∀ id, ¬ stranger id → Suits args.contentType args.highwater (prog id))
    (h : PipeFleetRun args env ⟨pipes prog, stranger, breaks, cw, cr⟩ s got) :
    FleetRun args env ⟨sides prog, stranger, breaks⟩ s got ∧
    (∀ a, PipeFair ⟨pipes prog, stranger, breaks, cw, cr⟩ got s a → ∃ s', s.step a = .ok s') ∧
    ∀ id, ¬ stranger id →
      (∃ sent, pipes prog id ((receivedFrom id s.log).length + cw) (got id) = .error (.wait sent)) ∨
      (∃ sent, pipes prog id ((receivedFrom id s.log).length + cw) (got id) = .error (.full sent) ∧
        sent.length = (receivedFrom id s.log).length + cw) ∨
      ∃ w sent, pipes prog id ((receivedFrom id s.log).length + cw) (got id) =
        .ok ((List.replicate ((prog id).batches.length + 2) .success, w), sent) := by
  have hl := pipes_like hs
  have hr := hl.run hb hs h
  have hg := (fleet_inv hb hs hr).sent hb hs
  refine ⟨hr, fun a ha => (fleet_safe args env prog stranger breaks s got hb hs hr).1 a (hl.fair hg ha), ?_⟩
  intro id hk
  have hcut := writerPipe_cut (prog id).wopt (prog id).batches ((receivedFrom id s.log).length + cw) (got id)
  rcases hl.cases hk (hg id hk) ((receivedFrom id s.log).length + cw) with ⟨o, _, h1⟩ | h1 | ⟨r, r', o, h1, h2⟩
  · exact Or.inl ⟨o, h1⟩
  · exact Or.inr (Or.inl h1)
  · refine Or.inr (Or.inr ?_)
    rcases (fleet_safe args env prog stranger breaks s got hb hs hr).2 id hk with ⟨_, h3⟩ | ⟨w, h3⟩
    · have h3 : sides prog id (got id) = _ := h3
      rw [h1] at h3; cases h3
    · have h4 := hcut.1 _ _ _ h3
      have h2 : Spec.writerPipe _ _ _ _ = _ := h2
      rw [h2] at h4
      split at h4
      · exact ⟨_, _, h2.trans h4⟩
      · cases h4

/-- **C115, programs that use the writer: progress.** While the server runs, the network always has something
to do for a client that was accepted and whose connection does not break, however few bytes the
connections hold, until it has finished with success; then all its frames have been written. (By
`fleet_pipe_safe` and `fleet_bounded` there is only so much to do.) -/
theorem fleet_pipe_progress (args : CapArgs) (env : CapEnv) (prog : Nat → Client)
    (stranger breaks : Nat → Prop) (cw cr : Nat) (s : Capture) (got : Nat → Bytes) (hb : args.bufferSize < 2 ^ 31)
    (hcw : 1 ≤ cw) (hcr : 1 ≤ cr)
    (hs : ∀ id, ¬ stranger id → Suits args.contentType args.highwater (prog id))
    (h : PipeFleetRun args env ⟨pipes prog, stranger, breaks, cw, cr⟩ s got) (hx : s.exited = none)
    (id : Nat) (hk : ¬ stranger id) (hbr : ¬ breaks id) (hacc : .accepted id ∈ s.log)
    (hq : PipeSettled ⟨pipes prog, stranger, breaks, cw, cr⟩ s got id) :
    (∃ w sent, pipes prog id ((receivedFrom id s.log).length + cw) (got id) =
      .ok ((List.replicate ((prog id).batches.length + 2) .success, w), sent)) ∧
    recordedFrom id s.log = (prog id).frames.map dataFrame := by
  have hl := pipes_like hs
  have hr := hl.run hb hs h
  obtain ⟨⟨rs, w⟩, r', o, h1, h2⟩ := hl.progress hb hcw hcr hs h hx id hk hbr hacc hq
  constructor
  · rcases (fleet_pipe_safe args env prog stranger breaks cw cr s got hb hs h).2.2 id hk with
      ⟨_, h3⟩ | ⟨_, h3, _⟩ | h3
    · rw [h2] at h3; cases h3
    · rw [h2] at h3; cases h3
    · exact h3
  · exact ((fleet_delivers args env prog stranger breaks s got hb hs hr id hk).2 rs w o h1).2

/-- **C115, programs with I/O threads: safety.** As `fleet_pipe_safe`, for the programs of C74. -/
theorem iofleet_pipe_safe (args : CapArgs) (env : CapEnv) (prog : Nat → IoClient)
    (stranger breaks : Nat → Prop) (cw cr : Nat) (s : Capture) (got : Nat → Bytes) (hb : args.bufferSize < 2 ^ 31)
    (hs : ∀ id, ¬ stranger id → IoSuits args.contentType args.highwater (prog id))
    (h : PipeFleetRun args env ⟨fun id => (prog id).pipe, stranger, breaks, cw, cr⟩ s got) :
    FleetRun args env ⟨fun id => (prog id).side, stranger, breaks⟩ s got ∧
    (∀ a, PipeFair ⟨fun id => (prog id).pipe, stranger, breaks, cw, cr⟩ got s a → ∃ s', s.step a = .ok s') ∧
    ∀ id, ¬ stranger id →
      (∃ sent, (prog id).pipe ((receivedFrom id s.log).length + cw) (got id) = .error (.wait sent)) ∨
      (∃ sent, (prog id).pipe ((receivedFrom id s.log).length + cw) (got id) = .error (.full sent) ∧
        sent.length = (receivedFrom id s.log).length + cw) ∨
      ∃ st sent, (prog id).pipe ((receivedFrom id s.log).length + cw) (got id) = .ok (st, sent) ∧ Finished st := by
  obtain ⟨c, c1, c2, c3, c4, c5⟩ := io_clients hs
  have hl := ioPipes_like c4
  have hr := hl.run hb c1 h
  have hg := (fleet_inv hb c1 hr).sent hb c1
  refine ⟨c5.back hb c1 hr,
    fun a ha => (fleet_safe args env c stranger breaks s got hb c1 hr).1 a (hl.fair hg ha), ?_⟩
  intro id hk
  rcases hl.cases hk (hg id hk) ((receivedFrom id s.log).length + cw) with ⟨o, _, h1⟩ | h1 | ⟨r, r', o, h1, h2⟩
  · exact Or.inl ⟨o, h1⟩
  · exact Or.inr (Or.inl h1)
  · refine Or.inr (Or.inr ⟨r', o, h2, ?_⟩)
    rcases c4 id _ hk (hg id hk) with ⟨_, _, h3⟩ | ⟨st, o', _, h3, h4, _⟩
    · have h3 : sides c id (got id) = _ := h3
      rw [h1] at h3; cases h3
    · have h5 := (ioPipe_cut (prog id) ((receivedFrom id s.log).length + cw) (got id)).1 _ _ h3
      rw [h2] at h5
      split at h5
      · cases h5; exact h4
      · cases h5

/-- **C115, programs with I/O threads: progress.** While the server runs, the network always has something
to do for a program whose connection was accepted and does not break, until the program has destroyed
its I/O thread without a failing call; then every payload submitted before destroy was called has been
written, those of one input queue in the order of submission, and none twice. -/
theorem iofleet_pipe_progress (args : CapArgs) (env : CapEnv) (prog : Nat → IoClient)
    (stranger breaks : Nat → Prop) (cw cr : Nat) (s : Capture) (got : Nat → Bytes) (hb : args.bufferSize < 2 ^ 31)
    (hcw : 1 ≤ cw) (hcr : 1 ≤ cr)
    (hs : ∀ id, ¬ stranger id → IoSuits args.contentType args.highwater (prog id))
    (h : PipeFleetRun args env ⟨fun id => (prog id).pipe, stranger, breaks, cw, cr⟩ s got) (hx : s.exited = none)
    (id : Nat) (hk : ¬ stranger id) (hbr : ¬ breaks id) (hacc : .accepted id ∈ s.log)
    (hq : PipeSettled ⟨fun id => (prog id).pipe, stranger, breaks, cw, cr⟩ s got id) :
    ∃ st sent, (prog id).pipe ((receivedFrom id s.log).length + cw) (got id) = .ok (st, sent) ∧ Finished st ∧
      ∃ es : List Entry, recordedFrom id s.log = es.map (fun e => dataFrame e.data) ∧
        (∀ q, onQueue q (submits (beforeShutdown st.log)) <+: onQueue q es) ∧
        (∀ q, (onQueue q es).Sublist (onQueue q (submits st.log))) ∧ es.Nodup := by
  obtain ⟨c, c1, c2, c3, c4, c5⟩ := io_clients hs
  have hl := ioPipes_like c4
  have hr := hl.run hb c1 h
  have hg := (fleet_inv hb c1 hr).sent hb c1
  obtain ⟨r, r', o, h1, h2⟩ := hl.progress hb hcw hcr c1 h hx id hk hbr hacc hq
  refine ⟨r', o, h2, ?_⟩
  rcases c4 id _ hk (hg id hk) with ⟨_, _, h3⟩ | ⟨st, o', _, h3, h4, _⟩
  · have h3 : sides c id (got id) = _ := h3
    rw [h1] at h3; cases h3
  · have h5 := (ioPipe_cut (prog id) ((receivedFrom id s.log).length + cw) (got id)).1 _ _ h3
    have h2 : (prog id).pipe ((receivedFrom id s.log).length + cw) (got id) = _ := h2
    rw [h2] at h5
    split at h5
    · cases h5
      have hd := (iofleet_delivers args env prog stranger breaks s got hb hs (c5.back hb c1 hr) id hk).2 _ _ h3
      exact ⟨h4, hd⟩
    · cases h5

/-- **C115, `fstrm_replay`.** Replays over such connections: whatever happens can also happen over unlimited
ones, so that C111 applies, and while the server runs, the network always has something to do for a replay
that was accepted and whose connection does not break, until it has ended with status 0 and without a
message and all frames of its files have been written. -/
theorem pipeline_pipe_progress (args : CapArgs) (env : CapEnv) (fuel : Nat) (job : Nat → ReplayJob)
    (stranger breaks : Nat → Prop) (cw cr : Nat) (s : Capture) (got : Nat → Bytes) (hb : args.bufferSize < 2 ^ 31)
    (hcw : 1 ≤ cw) (hcr : 1 ≤ cr) (hct : args.contentType.length ≤ 256)
    (hstart : (CFrame.wire ⟨.start, [args.contentType]⟩).length ≤ args.highwater)
    (hj : ∀ id, ¬ stranger id → Replayable args.contentType args.highwater fuel (job id))
    (h : PipeFleetRun args env ⟨replayPipes fuel args.contentType job, stranger, breaks, cw, cr⟩ s got) :
    FleetRun args env ⟨replays fuel args.contentType job, stranger, breaks⟩ s got ∧
    ∀ id, s.exited = none → ¬ stranger id → ¬ breaks id → .accepted id ∈ s.log →
      PipeSettled ⟨replayPipes fuel args.contentType job, stranger, breaks, cw, cr⟩ s got id →
      (∃ rw sent, replayPipes fuel args.contentType job id ((receivedFrom id s.log).length + cw) (got id) =
        .ok (⟨0, [], some rw⟩, sent)) ∧
      recordedFrom id s.log = (job id).frames.map dataFrame := by
  have hs : ∀ id, ¬ stranger id → Spec.Suits args.contentType args.highwater (clientsOf args.contentType job id) :=
    fun id hk => clientOf_suits hct hstart (highwater_lt hb) (hj id hk)
  have hl := replayPipes_like hb hct hstart hj
  have hr := hl.run hb hs h
  have hg := (fleet_inv hb hs hr).sent hb hs
  refine ⟨(replays_alike hb hct hstart hj).back hb hs hr, ?_⟩
  intro id hx hk hbr hacc hq
  obtain ⟨⟨rs, w⟩, r', o, h1, h2⟩ := hl.progress hb hcw hcr hs h hx id hk hbr hacc hq
  constructor
  · have hy := hg id hk
    have hy : got id <+: netY (clientOf args.contentType (job id)).wopt _ := hy
    rw [(hs id hk).replyAll] at hy
    have h1 : (clientOf args.contentType (job id)).side (got id) = _ := h1
    have h2 : Spec.replayPipe fuel args.contentType ((job id).map (·.1)) _ (got id) = _ := h2
    obtain ⟨o', ⟨h3, h4⟩ | ⟨r, h3, h4⟩⟩ :=
      replayPipe_at hct hstart (highwater_lt hb) (hj id hk) hy
    · rw [h1] at h3; cases h3
    · have := h4 ((receivedFrom id s.log).length + cw)
      split at this
      · obtain ⟨rw, h5⟩ := this
        exact ⟨rw, o', h5⟩
      · rw [h2] at this; cases this
  · have := ((fleet_delivers args env (clientsOf args.contentType job) stranger breaks s got hb hs hr id hk).2
      rs w o h1).2
    rwa [clientOf_frames] at this

/-! ## A sample run -/

/-- Serves client `id` for up to `n` moves: bytes are received as soon as they are there, sent as far as the
connection takes them and read one by one. -/
def serveOne {α : Type} (side : Nat → Nat → Spec.Side α) (cw cr id : Nat) :
    Nat → Capture → (Nat → Bytes) → Exec (Capture × (Nat → Bytes))
  | 0, s, got => .ok (s, got)
  | n+1, s, got =>
    let now := side id ((receivedFrom id s.log).length + cw) (got id)
    let bs := (sentBy now).drop (receivedFrom id s.log).length
    match s.conns id with
    | none =>
      match now, (sentTo id s.log)[(got id).length]? with
      | .error (.wait _), some b =>
        if (got id ++ [b]).isPrefixOf (sentTo id s.log) then
          serveOne side cw cr id n s (fun i => if i = id then got id ++ [b] else got i)
        else .error .fuel
      | _, _ => .ok (s, got)
    | some c =>
      if bs ≠ [] ∧ (receivedFrom id s.log ++ bs).isPrefixOf (sentBy now) then do
        let s ← s.step (.recv id bs (c.input ++ [bs]))
        serveOne side cw cr id n s got
      else if c.output ≠ [] ∧ (sentTo id s.log).length < (got id).length + cr then do
        let s ← s.step (.send id (min c.output.length ((got id).length + cr - (sentTo id s.log).length)))
        serveOne side cw cr id n s got
      else
        match now, (sentTo id s.log)[(got id).length]? with
        | .error (.wait _), some b =>
          if (got id ++ [b]).isPrefixOf (sentTo id s.log) then
            serveOne side cw cr id n s (fun i => if i = id then got id ++ [b] else got i)
          else .error .fuel
        | _, _ => .ok (s, got)

theorem serveOne_sound {α : Type} {args : CapArgs} {env : CapEnv} {side : Nat → Nat → Spec.Side α}
    {breaks : Nat → Prop} {cw cr id : Nat} : ∀ (n : Nat) {s s' : Capture} {got got' : Nat → Bytes},
    PipeFleetRun args env ⟨side, fun _ => False, breaks, cw, cr⟩ s got →
    serveOne side cw cr id n s got = .ok (s', got') →
    PipeFleetRun args env ⟨side, fun _ => False, breaks, cw, cr⟩ s' got' := by
  intro n
  induction n with
  | zero => intro s s' got got' h e; cases e; exact h
  | succ n ih =>
    intro s s' got got' h e
    unfold serveOne at e
    simp only at e
    split at e
    · split at e
      · rename_i hw hb
        split at e
        · rename_i hp
          exact ih (h.deliver ⟨List.isPrefixOf_iff_prefix.1 hp, fun _ => ⟨_, hw⟩⟩) e
        · cases e
      · cases e; exact h
    · split at e
      · rename_i hp
        obtain ⟨s1, e1, e⟩ := Exec.bind_eq_ok.1 e
        exact ih (h.act (a := .recv _ _ _)
          ⟨fun _ => List.isPrefixOf_iff_prefix.1 hp.2, fun h' => absurd h' (by simp)⟩ e1) e
      · split at e
        · rename_i hp
          obtain ⟨s1, e1, e⟩ := Exec.bind_eq_ok.1 e
          refine ih (h.act (a := .send _ _) (fun _ => ?_) e1) e
          show _ ≤ (got id).length + cr
          omega
        · split at e
          · rename_i hw hb
            split at e
            · rename_i hp
              exact ih (h.deliver ⟨List.isPrefixOf_iff_prefix.1 hp, fun _ => ⟨_, hw⟩⟩) e
            · cases e
          · cases e; exact h

/-- Two clients connect to the server over connections that hold 16 bytes one way and 5 bytes the other. The
second one is served to the end; the first one, not served at all, is blocked after 16 bytes. -/
theorem pipe_sample : ∃ s got,
    PipeFleetRun (easyArgs 0) easyEnv ⟨pipes sampleProg, fun _ => False, fun _ => False, 16, 5⟩ s got ∧
    s.exited = none ∧ .accepted 1 ∈ s.log ∧ s.conns 1 = none ∧ got 1 = sentTo 1 s.log ∧
    (pipes sampleProg 0 16 (got 0)).map (fun _ => ()) =
      .error (.full ((CFrame.wire ⟨.ready, [[97]]⟩).take 16)) ∧
    (pipes sampleProg 1 ((receivedFrom 1 s.log).length + 16) (got 1)).toBool ∧
    s.files = [CFrame.wire ⟨.start, [[97]]⟩ ++ [[1, 2, 3], [7, 8], [9]].flatMap dataFrame] := by
  have h : (do
      let s ← Capture.start (easyArgs 0) easyEnv
      let s ← s.step .accept
      let s ← s.step .accept
      let p ← serveOne (pipes sampleProg) 16 5 1 100 s (fun _ => [])
      .ok (p.1.exited, p.1.files, (pipes sampleProg 0 16 (p.2 0)).map (fun _ => ()),
        [decide (.accepted 1 ∈ p.1.log), (p.1.conns 1).isNone, decide (p.2 1 = sentTo 1 p.1.log),
          (pipes sampleProg 1 ((receivedFrom 1 p.1.log).length + 16) (p.2 1)).toBool]) : Exec _) =
      .ok (none, [CFrame.wire ⟨.start, [[97]]⟩ ++ [[1, 2, 3], [7, 8], [9]].flatMap dataFrame],
        .error (.full ((CFrame.wire ⟨.ready, [[97]]⟩).take 16)), [true, true, true, true]) := by
    decide +kernel
  obtain ⟨s0, e0, h⟩ := Exec.bind_eq_ok.1 h
  obtain ⟨s1, e1, h⟩ := Exec.bind_eq_ok.1 h
  obtain ⟨s2, e2, h⟩ := Exec.bind_eq_ok.1 h
  obtain ⟨⟨s, got⟩, e3, h⟩ := Exec.bind_eq_ok.1 h
  have hr := serveOne_sound (breaks := fun _ => False) (cw := 16) (cr := 5) 100
    (((PipeFleetRun.start (w := ⟨pipes sampleProg, fun _ => False, fun _ => False, 16, 5⟩) e0).act
      (a := .accept) trivial e1).act (a := .accept) trivial e2) e3
  simp only [Except.ok.injEq, Prod.mk.injEq, List.cons.injEq, decide_eq_true_eq, and_true] at h
  obtain ⟨a1, a2, a3, a4, a5, a6, a7⟩ := h
  exact ⟨s, got, hr, a1, a4, Option.isNone_iff_eq_none.1 a5, a6, a3, a7, a2⟩

theorem pipe_settled_of {α : Type} {w : PipeWorld α} {s : Capture} {got : Nat → Bytes} {id : Nat}
    (hx : s.exited = none) (hc : s.conns id = none) (hg : got id = sentTo id s.log) : PipeSettled w s got id := by
  refine ⟨?_, ?_, ?_⟩
  · intro bs chains _
    unfold Capture.step
    rw [hx]
    simp [hc]
  · intro k _
    unfold Capture.step
    rw [hx]
    simp [hc]
  · rintro b ⟨hb, _⟩
    rw [hg] at hb
    have := hb.length_le
    rw [List.length_append] at this
    exact absurd this (Nat.not_succ_le_self _)

/-- The hypotheses of the theorems are met by the end of the sample run. -/
example : ∃ s got,
    PipeFleetRun (easyArgs 0) easyEnv ⟨pipes sampleProg, fun _ => False, fun _ => False, 16, 5⟩ s got ∧
    (easyArgs 0).bufferSize < 2 ^ 31 ∧
    (∀ id, Suits (easyArgs 0).contentType (easyArgs 0).highwater (sampleProg id)) ∧
    s.exited = none ∧ .accepted 1 ∈ s.log ∧
    PipeSettled ⟨pipes sampleProg, fun _ => False, fun _ => False, 16, 5⟩ s got 1 := by
  obtain ⟨s, got, h, hx, hacc, hc, hg, _⟩ := pipe_sample
  exact ⟨s, got, h, by decide +kernel, sampleProg_suits, hx, hacc, pipe_settled_of hx hc hg⟩

/-- Client 0 alone, served to the end. -/
theorem served_sample {α : Type} (side : Nat → Nat → Spec.Side α) (cw cr : Nat) (files : List Bytes)
    (h : (do
      let s ← Capture.start (easyArgs 0) easyEnv
      let s ← s.step .accept
      let p ← serveOne side cw cr 0 100 s (fun _ => [])
      .ok (p.1.exited, p.1.files, [decide (.accepted 0 ∈ p.1.log), (p.1.conns 0).isNone,
        decide (p.2 0 = sentTo 0 p.1.log)]) : Exec _) = .ok (none, files, [true, true, true])) :
    ∃ s got, PipeFleetRun (easyArgs 0) easyEnv ⟨side, fun _ => False, fun _ => False, cw, cr⟩ s got ∧
      s.exited = none ∧ .accepted 0 ∈ s.log ∧ s.files = files ∧
      PipeSettled ⟨side, fun _ => False, fun _ => False, cw, cr⟩ s got 0 := by
  obtain ⟨s0, e0, h⟩ := Exec.bind_eq_ok.1 h
  obtain ⟨s1, e1, h⟩ := Exec.bind_eq_ok.1 h
  obtain ⟨⟨s, got⟩, e3, h⟩ := Exec.bind_eq_ok.1 h
  have hr := serveOne_sound (breaks := fun _ => False) (cw := cw) (cr := cr) 100
    ((PipeFleetRun.start (w := ⟨side, fun _ => False, fun _ => False, cw, cr⟩) e0).act
      (a := .accept) trivial e1) e3
  simp only [Except.ok.injEq, Prod.mk.injEq, List.cons.injEq, decide_eq_true_eq, and_true] at h
  obtain ⟨a1, a2, a3, a4, a5⟩ := h
  exact ⟨s, got, hr, a1, a3, a2, pipe_settled_of a1 (Option.isNone_iff_eq_none.1 a4) a5⟩

/-- The same for a program with an I/O thread, and connections that hold 7 bytes and 1 byte. -/
example : ∃ s got,
    PipeFleetRun (easyArgs 0) easyEnv ⟨fun _ => ioSample.pipe, fun _ => False, fun _ => False, 7, 1⟩ s got ∧
    (easyArgs 0).bufferSize < 2 ^ 31 ∧ IoSuits (easyArgs 0).contentType (easyArgs 0).highwater ioSample ∧
    s.exited = none ∧ .accepted 0 ∈ s.log ∧
    s.files = [CFrame.wire ⟨.start, [[97]]⟩ ++ [[1], [2, 2], [3], [5], [4]].flatMap dataFrame] ∧
    PipeSettled ⟨fun _ => ioSample.pipe, fun _ => False, fun _ => False, 7, 1⟩ s got 0 := by
  obtain ⟨s, got, h, hx, hacc, hf, hq⟩ := served_sample (fun _ => ioSample.pipe) 7 1
    [CFrame.wire ⟨.start, [[97]]⟩ ++ [[1], [2, 2], [3], [5], [4]].flatMap dataFrame] (by decide +kernel)
  exact ⟨s, got, h, by decide +kernel, ioSample_suits, hx, hacc, hf, hq⟩

/-- The same for `fstrm_replay`. -/
example : ∃ s got,
    PipeFleetRun (easyArgs 0) easyEnv ⟨replayPipes 9 [97] sampleJobs, fun _ => False, fun _ => False, 7, 1⟩ s got ∧
    (∀ id, Replayable (easyArgs 0).contentType (easyArgs 0).highwater 9 (sampleJobs id)) ∧
    s.exited = none ∧ .accepted 0 ∈ s.log ∧
    s.files = [CFrame.wire ⟨.start, [[97]]⟩ ++ [[1, 2], [3], [4]].flatMap dataFrame] ∧
    PipeSettled ⟨replayPipes 9 [97] sampleJobs, fun _ => False, fun _ => False, 7, 1⟩ s got 0 := by
  obtain ⟨s, got, h, hx, hacc, hf, hq⟩ := served_sample (replayPipes 9 [97] sampleJobs) 7 1
    [CFrame.wire ⟨.start, [[97]]⟩ ++ [[1, 2], [3], [4]].flatMap dataFrame] (by decide +kernel)
  exact ⟨s, got, h, sampleJobs_ok, hx, hacc, hf, hq⟩

end Fstrm.Props
