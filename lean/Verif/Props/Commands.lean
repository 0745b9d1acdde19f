import Verif.Props.CommandLine
import Verif.Props.Pipeline
import Verif.Props.IoFleet
import Verif.Props.SockChan

/-!
# C120: two command lines that fit each other

`fstrm_capture` and `fstrm_replay` are started with command lines that give the same content type and the same
address. What happens between them is as in C111, with a socket instead of pipes.
-/

set_option autoImplicit false

namespace Fstrm.Props

open Spec (CFrame Manual Setting CaptureOption ReplayOption captureManual replayManual given captureMeaning replayMeaning
  ReplayComplete ReplayJob Replayable replays FleetRun World Reliable SentOnly dataFrame recordedFrom
  sentBy replaySide)

/-- The two command lines give the same content type `ct` and the same address, and the second one is complete and
does not ask for help. -/
structure Fit (lc : List (Setting CaptureOption)) (lr : List (Setting ReplayOption)) (ct : Bytes) : Prop where
  types : (given lc .type).getLast? = some ct ∧ (given lr .type).getLast? = some ct
  unix : (given lr .unix).getLast? = (given lc .unix).getLast?
  tcp : (given lr .tcp).getLast? = (given lc .tcp).getLast?
  port : (given lr .port).getLast? = (given lc .port).getLast?
  path : ∀ p, (given lc .unix).getLast? = some p → (0 : UInt8) ∉ p ∧ p ≠ []
  complete : ReplayComplete lr
  help : given lr .help = []

/-- **C120.** The server was started by one command line and is running, and a replay started by the other one has got
everything it waits for. Then the replay has connected to the address where the server listens, its exit status is 0
and there was no message, and what the server has written for it are the frames of the files named on the command
line, file by file, in order. -/
theorem commands_meet (fuel : Nat) (osc osr : ArgvOs) (henvc : NoArgvEnv osc) (henvr : NoArgvEnv osr)
    (pc pr : Bytes) (lc : List (Setting CaptureOption)) (lr : List (Setting ReplayOption)) (num : Bytes → Int)
    (hlc : ∀ x ∈ lc, captureManual.Legible num x) (hlr : ∀ x ∈ lr, replayManual.Legible (fun _ => 0) x)
    (hnc : lc.length < 2147483647) (hnr : lr.length < 2147483647) (ct : Bytes) (hct : ct.length ≤ 256)
    (hfit : Fit lc lr ct) (e : StartEnv) (env : CapEnv) (evs : List StartEv) (s0 : Capture)
    (hcap : captureProgram (fuel + 1) osc e env (pc :: lc.flatMap captureManual.written) =
      .ok (.inr (evs, some s0)))
    (hx : s0.exited = none) (hb : s0.args.bufferSize < 2 ^ 31)
    (hstart : (CFrame.wire ⟨.start, [ct]⟩).length ≤ s0.args.highwater)
    (disk : Bytes → Option Bytes) (script : Nat → List Io) (sock : Sock)
    (job : Nat → ReplayJob) (stranger breaks : Nat → Prop)
    (hj : ∀ id, ¬ stranger id → Replayable ct s0.args.highwater (fuel + 1) (job id))
    (s : Capture) (got : Nat → Bytes)
    (h : FleetRun s0.args env ⟨replays (fuel + 1) ct job, stranger, breaks⟩ s got)
    (id : Nat) (hk : ¬ stranger id)
    (hfiles : (job id).map (·.1) = filesNamed disk script (given lr .readFile))
    (hend : ∃ r, replays (fuel + 1) ct job id (got id) = .ok r) (hs : Reliable (got id) sock) :
    ∃ l rw, (∀ l', .listening l' ∈ evs ↔ l' = l) ∧
      replayProgram (fuel + 1) osr e.pton disk script sock (pr :: lr.flatMap replayManual.written) =
        .ok (.inr (some l, ⟨0, [], some rw⟩)) ∧
      SentOnly (sentBy (replays (fuel + 1) ct job id (got id))) rw.obj ∧
      recordedFrom id s.log = (job id).frames.map dataFrame := by
  rw [capture_command_line fuel osc henvc pc lc num hlc hnc] at hcap
  cases hm : captureMain (captureMeaning num lc) e env with
  | error x => rw [hm] at hcap; cases hcap
  | ok r =>
    rw [hm] at hcap
    have hcap : (Except.ok (Sum.inr r) : Exec (Nat ⊕ (List StartEv × Option Capture))) =
      .ok (.inr (evs, some s0)) := hcap
    simp only [Except.ok.injEq, Sum.inr.injEq] at hcap
    subst hcap
    have hone : (captureMeaning num lc).unix = none ∨ (captureMeaning num lc).tcp = none := by
      have hc := hfit.complete.2.2
      change (given lc .unix).getLast? = none ∨ (given lc .tcp).getLast? = none
      rw [← hfit.unix, ← hfit.tcp]
      simp only [List.getLast?_eq_none_iff]
      by_cases hu : given lr .unix = []
      · exact Or.inl hu
      · exact Or.inr (hc.1 hu)
    obtain ⟨l, hl, hr⟩ := capture_replay_meet_partial (fuel + 1) (captureMeaning num lc) e env
      (filesNamed disk script (given lr .readFile)) sock ct hfit.path hone hfit.types.1 hct evs s0 hm hx
    have hargs : s0.args.contentType = ct :=
      (capture_listens _ e env (fun p hp => (hfit.path p hp).1) evs s0 hm hx).2.2.1 ct hfit.types.1
    subst hargs
    obtain ⟨-, hd⟩ := pipeline_delivers s0.args env (fuel + 1) job stranger breaks s got hb hct hstart hj h id hk
    rcases hd with ⟨o, h4⟩ | ⟨rw1, sent, h4, h5⟩
    · obtain ⟨r, hend⟩ := hend
      rw [hend] at h4; cases h4
    · obtain ⟨o', e1, e2, e3, e4⟩ := socket_replay (fuel + 1) s0.args.contentType _ _ sock _ _ hs h4
      rw [hfiles] at e1
      rcases e4 with ⟨e4, _⟩ | ⟨rw', e4, e5⟩
      · cases e4
      · refine ⟨l, rw', hl, ?_, ?_, h5⟩
        · rw [(replay_command_line fuel osr henvr pr lr hlr hnr e.pton disk script sock).1 hfit.complete]
          have hmean : (replayMeaning lr).1 = ⟨false, some s0.args.contentType, (captureMeaning num lc).unix,
              (captureMeaning num lc).tcp, (captureMeaning num lc).port⟩ := by
            unfold replayMeaning captureMeaning
            simp only [hfit.help, hfit.types.2, hfit.unix, hfit.tcp, hfit.port]
            simp
          rw [hmean, hr, e1]
          obtain ⟨st, ms, rw2⟩ := o'
          simp only at e2 e3 e4
          subst e2 e3 e4
          rfl
        · rw [h4]; exact e5

/-! ## Samples -/

/-- The settings in `fstrm_capture -t a --unix=s -w b`. -/
def meetCapture : List (Setting CaptureOption) := [
  ⟨.type, .letter, false, txt ['a']⟩,
  ⟨.unix, .name 4, true, txt ['s']⟩,
  ⟨.write, .letter, false, txt ['b']⟩]

/-- The two files of `sampleFiles` under the names `f` and `g`. -/
def meetDisk (name : Bytes) : Option Bytes :=
  if name = [102] then (sampleFiles[0]?).bind (·.1.disk)
  else if name = [103] then (sampleFiles[1]?).bind (·.1.disk) else none

theorem meetCapture_legible : ∀ s ∈ meetCapture, captureManual.Legible (fun _ => 0) s := by
  intro s hs
  simp only [meetCapture, List.mem_cons, List.not_mem_nil, or_false] at hs
  rcases hs with rfl | rfl | rfl
  · exact ⟨by decide, (by intro n h; cases h), fun _ _ => Or.inl (by decide), (by intro h; cases h)⟩
  · refine ⟨(by intro h; cases h), ?_, (by intro _ h; cases h), (by intro h; cases h)⟩
    intro n h
    cases h
    refine ⟨by decide, fun o => ?_⟩
    cases o <;> decide +kernel
  · exact ⟨by decide, (by intro n h; cases h), fun _ _ => Or.inl (by decide), (by intro h; cases h)⟩

/-- The replies `y` arrive in small pieces with interruptions. -/
def meetSocket (y : Bytes) : Sock :=
  Sock.init [y] [true] [] [.data 1, .intr, .data 3, .data 2, .intr, .intr, .data 100] [.intr, .all, .intr] [7]

/-- The hypotheses of `commands_meet` are met by `fstrm_capture -t a --unix=s -w b` and
`fstrm_replay --read=f -t a -u s -r g`; the replies arrive in small pieces. -/
example : ∃ evs s0 s got, captureProgram 9 plainOs (sampleEnv none true) easyEnv
      ([99] :: meetCapture.flatMap captureManual.written) = .ok (.inr (evs, some s0)) ∧
    s0.exited = none ∧ s0.args.bufferSize < 2 ^ 31 ∧
    (CFrame.wire ⟨.start, [[97]]⟩).length ≤ s0.args.highwater ∧
    Fit meetCapture sampleReplay [97] ∧
    (∀ id, Replayable [97] s0.args.highwater 9 (sampleJobs id)) ∧
    FleetRun s0.args easyEnv (worldOf (replays 9 [97] sampleJobs) [] []) s got ∧
    (sampleJobs 0).map (·.1) = filesNamed meetDisk (fun _ => []) (given sampleReplay .readFile) ∧
    (∃ r, replays 9 [97] sampleJobs 0 (got 0) = .ok r) ∧
    Reliable (got 0) (meetSocket (got 0)) ∧ (sampleJobs 0).frames = [[1, 2], [3], [4]] := by
  have hfit : Fit meetCapture sampleReplay [97] := by
    refine ⟨⟨by decide +kernel, by decide +kernel⟩, by decide +kernel, by decide +kernel, by decide +kernel, ?_, ?_,
      by decide +kernel⟩
    · intro p hp
      have : (given meetCapture .unix).getLast? = some [115] := by decide +kernel
      rw [this] at hp
      cases hp
      decide
    · unfold ReplayComplete; decide +kernel
  obtain ⟨s0, hm, hx, -, -⟩ := capture_starts (captureMeaning (fun _ => 0) meetCapture) (sampleEnv none true) easyEnv
    (.unix [115]) [97] (fun p hp => (hfit.path p hp).1) (by refine ⟨rfl, ?_, ?_, ?_, ?_, ?_, ?_, ?_⟩ <;> decide +kernel)
    ⟨by decide +kernel, by decide +kernel, by decide +kernel⟩ (by decide +kernel) (by decide +kernel) ⟨rfl, rfl, rfl⟩
    ⟨fun _ => rfl, fun _ => rfl, by simp [easyEnv]⟩
  obtain ⟨-, -, c1, c2, c3, c4, c5, c6, hst⟩ := capture_listens _ _ _ (fun p hp => (hfit.path p hp).1) _ _ hm hx
  have hcl := capture_command_line 8 plainOs ⟨rfl, fun _ => rfl⟩ [99] meetCapture (fun _ => 0) meetCapture_legible
    (by decide) (sampleEnv none true) easyEnv
  have ha0 : s0.args = easyArgs 0 := by
    clear hm hst hcl hx
    generalize s0.args = a at *
    obtain ⟨a1, a2, a3, a4, a5, a6, a7⟩ := a
    have d1 := c1 [97] (by decide +kernel)
    have d2 := c2 [98] (by decide +kernel)
    dsimp only at d1 d2 c3 c4 c5 c6
    subst d1 c3 c5 c6
    obtain ⟨rfl, d2⟩ := d2
    have d3 : a3 = false := by
      cases a3 with
      | false => rfl
      | true => exact absurd (d2.1 rfl) (by decide)
    have d4 : a4 = false := by
      cases a4 with
      | false => rfl
      | true => exact absurd (c4.1 rfl) (by decide +kernel)
    subst d3 d4
    decide +kernel
  rw [ha0] at hst
  have h : (Capture.start (easyArgs 0) easyEnv >>= fun s =>
      fleetExec (replays 9 [97] sampleJobs) [] [] s (fun _ => []) samplePipe).map (fun p =>
        ((replays 9 [97] sampleJobs 0 (p.2 0)).toBool)) = .ok true := by decide +kernel
  rw [hst, Exec.ok_bind] at h
  cases h1 : fleetExec (replays 9 [97] sampleJobs) [] [] s0 (fun _ => []) samplePipe with
  | error x => rw [h1] at h; cases h
  | ok p =>
    obtain ⟨s, got⟩ := p
    rw [h1] at h
    simp only [Except.map, Except.ok.injEq] at h
    refine ⟨Spec.toRemove (sampleEnv none true).present (.unix [115]) ++ [.listening (.unix [115])], s0, s, got, ?_, hx, ?_, ?_, hfit, ?_, ?_, rfl, ?_, ?_, rfl⟩
    · rw [hcl, hm]; rfl
    · rw [ha0]; decide +kernel
    · rw [ha0]; decide +kernel
    · rw [ha0]; exact sampleJobs_ok
    · rw [ha0]; exact fleetExec_sound _ (.start hst) h1
    · cases hh : replays 9 [97] sampleJobs 0 (got 0) with
      | error x => rw [hh] at h; cases h
      | ok r => exact ⟨r, rfl⟩
    · refine ⟨⟨rfl, rfl⟩, rfl, ?_, ?_, ?_, ?_⟩
      · simp [meetSocket, Sock.init]
      · simp [meetSocket, Sock.init]
      · simp [meetSocket, Sock.init]
      · simp [meetSocket, Sock.init]

/-- The hypotheses of `socket_iothr` are met: five frames are sent, and all calls succeed. -/
example : ∃ t sent, ioSample.side sampleReplies = .ok (t, sent) ∧ t.destroyed = true ∧
    sent = CFrame.wire ⟨.ready, [[97]]⟩ ++ Spec.stream (some [97]) [[1], [2, 2], [3], [5], [4]] ∧
    Reliable sampleReplies sampleSocket := by
  have h : (ioSample.side sampleReplies).map (fun p => (p.1.destroyed, p.2)) =
    .ok (true, CFrame.wire ⟨.ready, [[97]]⟩ ++ Spec.stream (some [97]) [[1], [2, 2], [3], [5], [4]]) := by decide +kernel
  cases hh : ioSample.side sampleReplies with
  | error e => rw [hh] at h; cases h
  | ok r =>
    obtain ⟨t, sent⟩ := r
    rw [hh] at h
    simp only [Except.map, Except.ok.injEq, Prod.mk.injEq] at h
    exact ⟨t, sent, rfl, h.1, h.2, sampleSocket_reliable⟩

/-- The hypotheses of `socket_replay` are met: two files are sent. -/
example : ∃ o sent, replaySide 9 [97] (sampleFiles.map (·.1)) sampleReplies = .ok (o, sent) ∧
    o.status = 0 ∧ sent = CFrame.wire ⟨.ready, [[97]]⟩ ++ Spec.stream (some [97]) [[1, 2], [3], [4]] ∧
    Reliable sampleReplies sampleSocket := by
  have h : (replaySide 9 [97] (sampleFiles.map (·.1)) sampleReplies).map (fun p => (p.1.status, p.2)) =
    .ok (0, CFrame.wire ⟨.ready, [[97]]⟩ ++ Spec.stream (some [97]) [[1, 2], [3], [4]]) := by decide +kernel
  cases hh : replaySide 9 [97] (sampleFiles.map (·.1)) sampleReplies with
  | error e => rw [hh] at h; cases h
  | ok r =>
    obtain ⟨o, sent⟩ := r
    rw [hh] at h
    simp only [Except.map, Except.ok.injEq, Prod.mk.injEq] at h
    exact ⟨o, sent, rfl, h.1, h.2, sampleSocket_reliable⟩

end Fstrm.Props
