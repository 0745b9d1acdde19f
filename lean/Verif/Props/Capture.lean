import Verif.Lemmas.CaptureSpec

/-!
# Properties of `fstrm_capture`

A run is given by the arguments, an environment (times, which calls fail) and a list of things that
happen: connections, bytes arriving in any pieces, signals, other programs renaming files.
Frames are told apart by the specification in `Verif.Spec.Capture`.

The code computes the total size of a frame in 32 bits, so the four lengths 0xFFFFFFFC to 0xFFFFFFFF
are misread. Theorems that need this are about polite clients, which do not send them.
-/

set_option autoImplicit false

namespace Fstrm.Props

open Spec (CapEv CapItem CapPhase CFrame CType items serve dataFrame receivedFrom recordedFrom
  recordedAll sentTo active stream)

/-- A run of the program. -/
def outcome (args : CapArgs) (env : CapEnv) (acts : List CapAct) : Exec Capture := do
  let s ← Capture.start args env
  s.run acts

/-- No client ever announces a frame of 2^32 bytes or more in total. -/
def Polite (args : CapArgs) (env : CapEnv) (acts : List CapAct) : Prop :=
  ∀ before id bs chains after s, acts = before ++ .recv id bs chains :: after →
    outcome args env before = .ok s →
    ∀ n, .skipped n ∈ items args.highwater (receivedFrom id s.log ++ bs) → n < 2 ^ 32

theorem outcome_inv {args : CapArgs} {env : CapEnv} {acts : List CapAct}
    (hb : args.bufferSize < 2 ^ 31) (hp : Polite args env acts) :
    ∃ s, outcome args env acts = .ok s ∧ CapInv s ∧ s.args = args := by
  obtain ⟨s0, e0, h0, a0, _⟩ := start_inv args env hb
  have he : ∀ as, outcome args env as = s0.run as := by
    intro as; unfold outcome; rw [e0]; rfl
  obtain ⟨s, e, h, a⟩ := run_inv acts s0 h0 (fun as1 id bs ch as2 s1 h1 h2 => by
    rw [a0]
    exact hp as1 id bs ch as2 s1 h1 (by rw [he]; exact h2))
  exact ⟨s, by rw [he]; exact e, h, a.trans a0⟩

theorem inv_of_outcome {args : CapArgs} {env : CapEnv} {acts : List CapAct} {s : Capture}
    (hb : args.bufferSize < 2 ^ 31) (hp : Polite args env acts)
    (e : outcome args env acts = .ok s) : CapInv s ∧ s.args = args := by
  obtain ⟨s', e', h⟩ := outcome_inv hb hp
  rw [e] at e'
  cases e'
  exact h

/-! ## C51: hostile lengths -/

/-- **C51, in part.** With polite clients the program never gets into undefined behaviour, a failing
assertion or an endless loop. Missing: clients that announce one of the four largest lengths;
for them the property is false, see `hostile_length`. -/
theorem capture_safe_partial (args : CapArgs) (env : CapEnv) (acts : List CapAct)
    (hb : args.bufferSize < 2 ^ 31) (hp : Polite args env acts) :
    ∃ s, outcome args env acts = .ok s := by
  obtain ⟨s, e, _⟩ := outcome_inv hb hp
  exact ⟨s, e⟩

/-- Everything succeeds and a second passes between any two calls of `time`; file names are made of
the time. -/
def easyEnv : CapEnv := ⟨fun k => k, fun _ => true, fun _ => true, fun t => some [UInt8.ofNat t]⟩

/-- Options `-t a -w b` with a buffer of `n` bytes. -/
def easyArgs (n : Int) : CapArgs := ⟨[97], [98], false, false, 0, n, 0⟩

/-- READY and START for content type "a", as `easyArgs` asks for. -/
def hello : Bytes := CFrame.wire ⟨.ready, [[97]]⟩ ++ CFrame.wire ⟨.start, [[97]]⟩

/-- **C51 is false.** A client that sends the length 0xFFFFFFFC makes the total size zero; the
program then declares an array of zero elements and makes no progress. -/
theorem hostile_length : ∃ args env acts why, args.bufferSize < 2 ^ 31 ∧
    outcome args env acts = .error (.ub why) :=
  ⟨easyArgs 0, easyEnv,
    [.accept, .recv 0 [255, 255, 255, 252] [[255, 255, 255, 252]]],
    "variable length array of length zero", by decide +kernel, by
      have h : ∀ x : Exec Capture, x.map (fun _ => ()) = .error (.ub "variable length array of length zero") →
          x = .error (.ub "variable length array of length zero") := by
        intro x hx
        cases x with
        | error y => simpa [Except.map] using hx
        | ok y => cases hx
      exact h _ (by decide +kernel)⟩

/-- A polite run: a client connects, sends its handshake and two frames in two pieces, stops, the
replies are sent, the program is terminated. -/
def politeActs : List CapAct :=
  let a := hello ++ dataFrame [1, 2, 3] ++ [0, 0, 0]
  let b := [2, 7, 8] ++ CFrame.wire ⟨.stop, []⟩
  [.accept, .recv 0 a [a], .send 0 21, .recv 0 b [[0, 0, 0], b], .send 0 12, .term]

theorem polite_of_check {args : CapArgs} {env : CapEnv} {acts : List CapAct}
    (h : (Capture.start args env).map (fun s => politeB args.highwater s acts) = .ok true) :
    Polite args env acts := by
  intro as1 id bs ch as2 s1 h1 h2
  unfold outcome at h2
  obtain ⟨s0, e0, h2⟩ := Exec.bind_eq_ok.1 h2
  rw [e0] at h
  cases h' : politeB args.highwater s0 acts with
  | false => simp [Except.map, h'] at h
  | true => exact politeB_sound _ acts s0 h' as1 id bs ch as2 s1 h1 h2

theorem politeActs_polite : Polite (easyArgs 0) easyEnv politeActs :=
  polite_of_check (by decide +kernel)

example : ∃ s, outcome (easyArgs 0) easyEnv politeActs = .ok s :=
  capture_safe_partial _ _ _ (by decide +kernel) politeActs_polite

/-- What the sample run leaves behind. -/
example : (outcome (easyArgs 0) easyEnv politeActs).map (fun s => (s.files, s.exited, sentTo 0 s.log)) =
    .ok ([stream (some [97]) [[1, 2, 3], [7, 8]]], some 0,
      CFrame.wire ⟨.accept, [[97]]⟩ ++ CFrame.wire ⟨.finish, []⟩) := by decide +kernel

/-! ## C46: output files -/

/-- **C46, in part.** With polite clients, every output file that is not being written and on which
no write failed is a well-formed stream: START with the configured content type, complete data
frames, STOP. The frames are those recorded since the file was opened. Missing: clients that announce
one of the four largest lengths, see `capture_files_false`. -/
theorem capture_files_partial (args : CapArgs) (env : CapEnv) (acts : List CapAct) (s : Capture)
    (hb : args.bufferSize < 2 ^ 31) (hp : Polite args env acts)
    (e : outcome args env acts = .ok s) (i : Nat) (hi : i < s.files.length)
    (hcur : s.outputFile ≠ some i) (hf : .failed i ∉ s.log) :
    ∃ ds : List Bytes, s.files[i]? = some (stream (some args.contentType) ds) ∧
      (∀ d ∈ ds, d ≠ []) ∧ Spec.latest i (Spec.sessions s.log) = some (ds.map dataFrame) := by
  obtain ⟨h, a⟩ := inv_of_outcome hb hp e
  obtain ⟨l, hl⟩ := h.out.all i hi
  obtain ⟨ds, hds, hd⟩ := session_frames h (mem_of_latest hl)
  dsimp only at hds
  subst hds
  refine ⟨ds, ?_, fun d hd' => (hd d hd').1, hl⟩
  rw [h.out.file i _ hl hf, if_neg hcur, a]
  simp [stream, startBytes, stopBytes, List.flatMap_def]

/-- Used by `capture_files_false`. -/
theorem stream_length (ct : Bytes) (ds : List Bytes) :
    (stream (some ct) ds).length = 32 + ct.length + (ds.flatMap dataFrame).length := by
  simp [stream, CFrame.wire, CFrame.payload, Spec.field, Spec.be32]
  omega

/-- **C46 is false.** A client that sends the length 0xFFFFFFFD leaves a single byte in the output;
the file, finished without any failure, is no stream. -/
theorem capture_files_false : ∃ args env acts, args.bufferSize < 2 ^ 31 ∧
    ∃ s, outcome args env acts = .ok s ∧ s.exited = some 0 ∧ s.outputFile = none ∧
      (∀ i, .failed i ∉ s.log) ∧ s.files.length = 1 ∧
      ∀ f ∈ s.files, ∀ ct ds, f ≠ stream ct ds := by
  let acts : List CapAct := [.accept, .recv 0 [255, 255, 255, 253] [[255, 255, 255, 253]], .term]
  have h : (outcome (easyArgs 0) easyEnv acts).map
      (fun s => (s.files, s.exited, s.outputFile, s.log.any (fun e => match e with
        | .failed _ => true | _ => false))) =
      .ok ([CFrame.wire ⟨.start, [[97]]⟩ ++ [255] ++ CFrame.wire ⟨.stop, []⟩], some 0, none, false) := by
    decide +kernel
  refine ⟨easyArgs 0, easyEnv, acts, by decide +kernel, ?_⟩
  cases hs : outcome (easyArgs 0) easyEnv acts with
  | error x => rw [hs] at h; cases h
  | ok s =>
    rw [hs] at h
    simp only [Except.map, Except.ok.injEq, Prod.mk.injEq] at h
    obtain ⟨h1, h2, h3, h4⟩ := h
    refine ⟨s, rfl, h2, h3, ?_, by rw [h1]; rfl, ?_⟩
    · intro i hi
      have := List.any_eq_false.1 h4 _ hi
      simp at this
    · intro f hf ct ds he
      rw [h1, List.mem_singleton] at hf
      rw [hf] at he
      have hds : ∀ ds : List Bytes, ds ≠ [] → 4 ≤ (ds.flatMap dataFrame).length := by
        intro ds h
        cases ds with
        | nil => exact absurd rfl h
        | cons d r => simp [dataFrame, Spec.be32]
      have hhead := congrArg (List.take 21) he
      have hlen := congrArg List.length he
      cases ct with
      | none =>
        -- the START frame has no content type
        have : (CFrame.wire ⟨.start, [[97]]⟩ ++ [255] ++ CFrame.wire ⟨.stop, []⟩ : Bytes)[7]? = some 13 := by
          decide +kernel
        rw [he] at this
        simp [stream, CFrame.wire, CFrame.payload, Spec.be32, CType.code] at this
      | some c =>
        by_cases hd : ds = []
        · subst hd
          have h13 : (CFrame.wire ⟨.start, [[97]]⟩ ++ [255] ++ CFrame.wire ⟨.stop, []⟩ : Bytes)[7]? = some 13 := by
            decide +kernel
          rw [stream_length] at hlen
          have hc : c.length = 2 := by
            have : (CFrame.wire ⟨.start, [[97]]⟩ ++ [255] ++ CFrame.wire ⟨.stop, []⟩ : Bytes).length = 34 := by
              decide +kernel
            simp at hlen this
            omega
          rw [he] at h13
          simp [stream, CFrame.wire, CFrame.payload, Spec.field, Spec.be32, CType.code, hc] at h13
        · rw [stream_length] at hlen
          have := hds ds hd
          have h34 : (CFrame.wire ⟨.start, [[97]]⟩ ++ [255] ++ CFrame.wire ⟨.stop, []⟩ : Bytes).length = 34 := by
            decide +kernel
          rw [h34] at hlen
          omega

example : ∃ s, outcome (easyArgs 0) easyEnv politeActs = .ok s ∧ 0 < s.files.length ∧
    s.outputFile ≠ some 0 ∧ .failed 0 ∉ s.log := by
  have h : (outcome (easyArgs 0) easyEnv politeActs).map
      (fun s => (s.files.length, s.outputFile, s.log.contains (.failed 0))) = .ok (1, none, false) := by
    decide +kernel
  obtain ⟨s, e⟩ := capture_safe_partial (easyArgs 0) easyEnv politeActs (by decide +kernel)
    politeActs_polite
  rw [e] at h
  simp only [Except.map, Except.ok.injEq, Prod.mk.injEq] at h
  refine ⟨s, e, by omega, by rw [h.2.1]; nofun, ?_⟩
  intro hf
  have := List.contains_iff_mem.2 hf
  rw [h.2.2] at this
  cases this

/-! ## C47: segmentation -/

/-- **C47, in part.** With polite clients, what has been recorded for a client is determined by the
bytes received from it: it is what the specification `serve` records for them, each payload
written as one data frame. `exited ≠ some 1`: the program did not fail on the output. Missing: clients
that announce one of the four largest lengths. -/
theorem capture_recorded_partial (args : CapArgs) (env : CapEnv) (acts : List CapAct) (s : Capture)
    (hb : args.bufferSize < 2 ^ 31) (hp : Polite args env acts)
    (e : outcome args env acts = .ok s) (hx : s.exited ≠ some 1) (id : Nat) :
    recordedFrom id s.log =
      (serve args.contentType (items args.highwater (receivedFrom id s.log))).recorded.map dataFrame := by
  obtain ⟨h, a⟩ := inv_of_outcome hb hp e
  have := h.ids hx id
  unfold IdInv at this
  rw [a] at this
  split at this
  · exact this.pre.recorded
  · exact this

/-- **C47, in part.** Two runs, with any timing, any other clients and any segmentation: clients from
which the same bytes were received had the same frames recorded. -/
theorem capture_segmentation_partial (args : CapArgs) (env1 env2 : CapEnv) (acts1 acts2 : List CapAct)
    (s1 s2 : Capture) (hb : args.bufferSize < 2 ^ 31) (hp1 : Polite args env1 acts1)
    (hp2 : Polite args env2 acts2) (e1 : outcome args env1 acts1 = .ok s1)
    (e2 : outcome args env2 acts2 = .ok s2) (hx1 : s1.exited ≠ some 1) (hx2 : s2.exited ≠ some 1)
    (id1 id2 : Nat) (hr : receivedFrom id1 s1.log = receivedFrom id2 s2.log) :
    recordedFrom id1 s1.log = recordedFrom id2 s2.log := by
  rw [capture_recorded_partial args env1 acts1 s1 hb hp1 e1 hx1,
    capture_recorded_partial args env2 acts2 s2 hb hp2 e2 hx2, hr]

/-- Even if the program fails on the output, it has recorded a part of the right frames and sent a
part of the right replies. -/
theorem capture_sofar_partial (args : CapArgs) (env : CapEnv) (acts : List CapAct) (s : Capture)
    (hb : args.bufferSize < 2 ^ 31) (hp : Polite args env acts)
    (e : outcome args env acts = .ok s) (id : Nat) :
    recordedFrom id s.log <+: (serve args.contentType
      (items args.highwater (receivedFrom id s.log))).recorded.map dataFrame ∧
    sentTo id s.log <+: (serve args.contentType
      (items args.highwater (receivedFrom id s.log))).replies.flatMap CFrame.wire := by
  obtain ⟨h, a⟩ := inv_of_outcome hb hp e
  have := h.sofar id
  unfold SoFar at this
  rw [a] at this
  exact this

/-- Bytes one at a time, the buffer being made of pieces of one byte. -/
def byteActs : List CapAct :=
  [.accept, .recv 0 [0] [[0]], .recv 0 [0] [[0], [0]], .recv 0 [0] [[0], [0], [0]],
    .recv 0 [1] [[0], [0], [0], [1]], .recv 0 [9] [[0], [0], [0], [1], [9]]]

theorem byteActs_polite : Polite (easyArgs 0) easyEnv byteActs := polite_of_check (by decide +kernel)

/-- Two different segmentations of the same bytes. -/
example : ∃ s1 s2,
    outcome (easyArgs 0) easyEnv byteActs = .ok s1 ∧
    outcome (easyArgs 0) easyEnv [.accept, .recv 0 [0, 0, 0, 1, 9] [[0, 0, 0, 1, 9]]] = .ok s2 ∧
    Polite (easyArgs 0) easyEnv [.accept, .recv 0 [0, 0, 0, 1, 9] [[0, 0, 0, 1, 9]]] ∧
    s1.exited ≠ some 1 ∧ s2.exited ≠ some 1 ∧
    receivedFrom 0 s1.log = receivedFrom 0 s2.log ∧ recordedFrom 0 s1.log = [dataFrame [9]] := by
  have hp2 : Polite (easyArgs 0) easyEnv [.accept, .recv 0 [0, 0, 0, 1, 9] [[0, 0, 0, 1, 9]]] :=
    polite_of_check (by decide +kernel)
  obtain ⟨s1, e1⟩ := capture_safe_partial _ _ _ (by decide +kernel) byteActs_polite
  obtain ⟨s2, e2⟩ := capture_safe_partial _ _ _ (by decide +kernel) hp2
  have h1 : (outcome (easyArgs 0) easyEnv byteActs).map
      (fun s => (s.exited, receivedFrom 0 s.log, recordedFrom 0 s.log)) =
      .ok (none, [0, 0, 0, 1, 9], [dataFrame [9]]) := by decide +kernel
  have h2 : (outcome (easyArgs 0) easyEnv [.accept, .recv 0 [0, 0, 0, 1, 9] [[0, 0, 0, 1, 9]]]).map
      (fun s => (s.exited, receivedFrom 0 s.log)) = .ok (none, [0, 0, 0, 1, 9]) := by decide +kernel
  rw [e1] at h1
  rw [e2] at h2
  simp only [Except.map, Except.ok.injEq, Prod.mk.injEq] at h1 h2
  exact ⟨s1, s2, e1, e2, hp2, by rw [h1.1]; nofun, by rw [h2.1]; nofun, by rw [h1.2.1, h2.2],
    h1.2.2⟩

/-! ## C48: only negotiated data -/

/-- **C48 is false.** A data frame sent before any handshake is recorded. -/
theorem recorded_before_handshake : ∃ args env acts, args.bufferSize < 2 ^ 31 ∧ Polite args env acts ∧
    ∃ s, outcome args env acts = .ok s ∧ receivedFrom 0 s.log = dataFrame [9] ∧
      recordedFrom 0 s.log = [dataFrame [9]] ∧ s.exited = some 0 := by
  let acts : List CapAct := [.accept, .recv 0 [0, 0, 0, 1, 9] [[0, 0, 0, 1, 9]], .term]
  have hp : Polite (easyArgs 0) easyEnv acts := polite_of_check (by decide +kernel)
  obtain ⟨s, e⟩ := capture_safe_partial _ _ _ (by decide +kernel) hp
  have h : (outcome (easyArgs 0) easyEnv acts).map
      (fun s => (receivedFrom 0 s.log, recordedFrom 0 s.log, s.exited)) =
      .ok (dataFrame [9], [dataFrame [9]], some 0) := by decide +kernel
  refine ⟨easyArgs 0, easyEnv, acts, by decide +kernel, hp, s, e, ?_⟩
  rw [e] at h
  simpa [Except.map] using h

/-- **C48, in part.** Once the server has found a frame wrong (a control frame that is out of place, of
the wrong content type or malformed), nothing more is recorded for that client: what is recorded
is determined by the bytes up to that point. Missing: data frames sent before START or after STOP
are recorded, see `recorded_before_handshake`. -/
theorem capture_rejected_partial (args : CapArgs) (env : CapEnv) (acts : List CapAct) (s : Capture)
    (hb : args.bufferSize < 2 ^ 31) (hp : Polite args env acts)
    (e : outcome args env acts = .ok s) (hx : s.exited ≠ some 1) (id : Nat) (early late : Bytes)
    (hr : receivedFrom id s.log = early ++ late)
    (hc : (serve args.contentType (items args.highwater early)).phase = none) :
    recordedFrom id s.log =
      (serve args.contentType (items args.highwater early)).recorded.map dataFrame := by
  rw [capture_recorded_partial args env acts s hb hp e hx, hr]
  obtain ⟨t, ht⟩ := items_prefix args.highwater early.length early late (Nat.le_refl _)
  rw [← ht, serve_append_closed hc]

/-- A client whose first frame is not READY, followed by a data frame. -/
example : (serve [97] (items 262144 (CFrame.wire ⟨.stop, []⟩))).phase = none := by
  have h : items 262144 (CFrame.wire ⟨.stop, []⟩) = [.control (CFrame.payload ⟨.stop, []⟩)] := by
    decide +kernel
  rw [h]
  have : ¬ Spec.fits .ready [97] (CFrame.payload ⟨.stop, []⟩) := by
    rintro ⟨_, cts, hw, he, _⟩
    have := payload_inj (f := ⟨.stop, []⟩) (g := ⟨.ready, cts⟩)
      ⟨by simp, by intro m hm; cases hm; simp⟩ hw (by decide +kernel) he
    cases this
  simp [serve, Spec.serveItem, this]

example : (outcome (easyArgs 0) easyEnv [.accept,
      .recv 0 (CFrame.wire ⟨.stop, []⟩ ++ dataFrame [9]) [CFrame.wire ⟨.stop, []⟩ ++ dataFrame [9]]]).map
    (fun s => (receivedFrom 0 s.log, recordedFrom 0 s.log, active s.log)) =
    .ok (CFrame.wire ⟨.stop, []⟩ ++ dataFrame [9], [], []) := by decide +kernel

/-! ## C66: replies -/

/-- **C66, in part.** When bytes arrive, the server does at once what the protocol asks for: it closes the
connection exactly if one of the frames was wrong, and otherwise has sent or queued exactly the
replies called for, ACCEPT for a fitting READY and FINISH for STOP. Missing: clients that announce
one of the four largest lengths. -/
theorem capture_answers_partial (args : CapArgs) (env : CapEnv) (acts : List CapAct) (s s' : Capture)
    (id : Nat) (bs : Bytes) (chains : List Bytes)
    (hb : args.bufferSize < 2 ^ 31) (hp : Polite args env (acts ++ [.recv id bs chains]))
    (e : outcome args env acts = .ok s) (hx : s.exited = none) (c : Conn) (hc : s.conns id = some c)
    (h1 : bs ≠ []) (h2 : chains.flatten = c.input.flatten ++ bs) (h3 : [] ∉ chains)
    (h4 : evLength chains ≤ args.highwater)
    (e' : s.step (.recv id bs chains) = .ok s') (hx' : s'.exited = none) :
    receivedFrom id s'.log = receivedFrom id s.log ++ bs ∧
    (let want := serve args.contentType (items args.highwater (receivedFrom id s'.log))
     (want.phase = none ∧ s'.conns id = none) ∨
     (want.phase ≠ none ∧ ∃ c', s'.conns id = some c' ∧
       sentTo id s'.log ++ c'.output = want.replies.flatMap CFrame.wire)) := by
  have hp' : Polite args env acts := by
    intro as1 i b ch as2 s1 h1 h2
    exact hp as1 i b ch (as2 ++ [.recv id bs chains]) s1 (by rw [h1]; simp) h2
  obtain ⟨h, a⟩ := inv_of_outcome hb hp' e
  have up := h.up hx
  have sane : Sane s.args.highwater (receivedFrom id s.log ++ bs) := by
    rw [a]; exact hp acts id bs chains [] s (by simp) e
  rw [← a] at h4
  obtain ⟨s'', e'', ⟨h', a'⟩, hpost, _⟩ := step_recv h up hc h2 h3 h4 sane
  have : s.step (.recv id bs chains) =
      (s.emit (.received id bs)).cbRead id { c with input := chains } := by
    unfold Capture.step
    rw [hx]
    simp only [Option.isSome_none, Bool.false_eq_true, if_false, hc]
    rw [if_pos ⟨h1, h2, h3, h4⟩]
  rw [this, e''] at e'
  injection e' with e'
  subst s'
  obtain ⟨p1, _, p3⟩ := hpost hx'
  rw [a] at p3
  refine ⟨p1, ?_⟩
  dsimp only
  rw [p1]
  by_cases hph : (serve args.contentType
      (items args.highwater (receivedFrom id s.log ++ bs))).phase = none
  · refine Or.inl ⟨hph, ?_⟩
    cases hcc : s''.conns id with
    | none => rfl
    | some c' => exact absurd hph (p3.1 (by rw [hcc]; rfl))
  · refine Or.inr ⟨hph, ?_⟩
    obtain ⟨c', hc'⟩ := Option.isSome_iff_exists.1 (p3.2 hph)
    refine ⟨c', hc', ?_⟩
    have hid := h'.ids (by rw [hx']; nofun) id
    unfold IdInv at hid
    rw [hc', a', a] at hid
    have := hid.pre.replies
    rw [p1] at this
    exact this

/-- The hypotheses are met by a client that connects and sends READY. -/
example : ∃ s s' c,
    Polite (easyArgs 0) easyEnv ([.accept] ++ [.recv 0 (CFrame.wire ⟨.ready, [[97]]⟩)
      [CFrame.wire ⟨.ready, [[97]]⟩]]) ∧
    outcome (easyArgs 0) easyEnv [.accept] = .ok s ∧ s.exited = none ∧ s.conns 0 = some c ∧
    c.input = [] ∧ s.step (.recv 0 (CFrame.wire ⟨.ready, [[97]]⟩)
      [CFrame.wire ⟨.ready, [[97]]⟩]) = .ok s' ∧ s'.exited = none ∧
    (s'.conns 0).map (·.output) = some (CFrame.wire ⟨.accept, [[97]]⟩) := by
  have hp : Polite (easyArgs 0) easyEnv ([.accept] ++ [.recv 0 (CFrame.wire ⟨.ready, [[97]]⟩)
      [CFrame.wire ⟨.ready, [[97]]⟩]]) := polite_of_check (by decide +kernel)
  have h1 : (outcome (easyArgs 0) easyEnv [.accept]).map
      (fun s => (s.exited, (s.conns 0).map (·.input))) = .ok (none, some []) := by decide +kernel
  have h2 : (outcome (easyArgs 0) easyEnv [.accept] >>= fun s =>
      s.step (.recv 0 (CFrame.wire ⟨.ready, [[97]]⟩) [CFrame.wire ⟨.ready, [[97]]⟩])).map
      (fun s => (s.exited, (s.conns 0).map (·.output))) =
      .ok (none, some (CFrame.wire ⟨.accept, [[97]]⟩)) := by decide +kernel
  cases e : outcome (easyArgs 0) easyEnv [.accept] with
  | error x => rw [e] at h1; cases h1
  | ok s =>
    rw [e] at h1 h2
    simp only [Except.map, Except.ok.injEq, Prod.mk.injEq] at h1
    simp only [Exec.ok_bind] at h2
    obtain ⟨c, hc, hci⟩ := Option.map_eq_some_iff.1 h1.2
    cases e' : s.step (.recv 0 (CFrame.wire ⟨.ready, [[97]]⟩) [CFrame.wire ⟨.ready, [[97]]⟩]) with
    | error x => rw [e'] at h2; cases h2
    | ok s' =>
      rw [e'] at h2
      simp only [Except.map, Except.ok.injEq, Prod.mk.injEq] at h2
      exact ⟨s, s', c, hp, rfl, h1.1, hc, hci, e', h2.1, h2.2⟩

/-- **C66, in part: when the server hangs up.** A client loses its connection in one step of the server
only if it hung up itself (or its connection broke), or one of its frames was wrong, or it has sent
STOP and all replies have been delivered to it. In the last case it does lose it.
Missing: clients that announce one of the four largest lengths. -/
theorem capture_hangup_partial (args : CapArgs) (env : CapEnv) (acts : List CapAct) (a : CapAct)
    (s s' : Capture) (id : Nat) (hb : args.bufferSize < 2 ^ 31) (hp : Polite args env (acts ++ [a]))
    (e : outcome args env acts = .ok s) (e' : s.step a = .ok s') (hx' : s'.exited = none)
    (hid : id ∈ active s.log) :
    let asked := serve args.contentType (items args.highwater (receivedFrom id s'.log))
    (id ∉ active s'.log →
      a = .hangup id ∨
      (∃ bs chains, a = .recv id bs chains ∧ asked.phase = none) ∨
      (∃ k, a = .send id k ∧ asked.phase = some .stopped ∧
        sentTo id s'.log = asked.replies.flatMap CFrame.wire)) ∧
    (∀ k, a = .send id k → s'.log ≠ s.log → asked.phase = some .stopped →
      sentTo id s'.log = asked.replies.flatMap CFrame.wire → id ∉ active s'.log) := by
  have hp' : Polite args env acts := by
    intro as1 i b ch as2 s1 h1 h2
    exact hp as1 i b ch (as2 ++ [a]) s1 (by rw [h1]; simp) h2
  obtain ⟨h, ha⟩ := inv_of_outcome hb hp' e
  have hx : s.exited = none := by
    cases hh : s.exited with
    | none => rfl
    | some k =>
      rw [step_exited (by rw [hh]; rfl)] at e'
      cases e'
      rw [hh] at hx'
      cases hx'
  have up := h.up hx
  have hin := (h.listen.mem id).1 hid
  have hmem : ∀ i, i ∈ active s'.log ↔ (s'.conns i).isSome :=
    (step_linv ⟨h.listen, fun i hi => (h.new i hi).1⟩ e').1.listen.mem
  dsimp only
  rw [hmem]
  have e0 := e'
  unfold Capture.step at e'
  rw [hx] at e'
  simp only [Option.isSome_none, Bool.false_eq_true, if_false] at e'
  cases a with
  | accept =>
    refine ⟨fun hn => absurd ?_ hn, nofun⟩
    dsimp only at e'
    split at e' <;> cases e'
    · rw [(accept_fields s).2.2.2.2.2.2.2.1]
      dsimp only
      split
      · rfl
      · exact hin
    · exact hin
  | recv j bs chains =>
    refine ⟨fun hn => ?_, nofun⟩
    dsimp only at e'
    cases hc : s.conns j with
    | none => rw [hc] at e'; cases e'; exact absurd hin hn
    | some c =>
      rw [hc] at e'
      dsimp only at e'
      split at e'
      · rename_i hcond
        have sane : Sane s.args.highwater (receivedFrom j s.log ++ bs) := by
          rw [ha]; exact hp acts j bs chains [] s (by simp) e
        obtain ⟨s'', e'', _, hpost, hother⟩ :=
          step_recv h up hc hcond.2.1 hcond.2.2.1 hcond.2.2.2 sane
        rw [e''] at e'
        injection e' with e'
        subst s'
        by_cases hj : id = j
        · subst hj
          obtain ⟨p1, _, p3⟩ := hpost hx'
          refine Or.inr (Or.inl ⟨bs, chains, rfl, ?_⟩)
          rw [p1, ← ha]
          exact Classical.byContradiction fun hh => hn (p3.2 hh)
        · rw [hother id hj] at hn; exact absurd hin hn
      · cases e'; exact absurd hin hn
  | send j k =>
    dsimp only at e'
    cases hc : s.conns j with
    | none =>
      rw [hc] at e'; cases e'
      exact ⟨fun hn => absurd hin hn, fun k' _ hh => absurd rfl hh⟩
    | some c =>
      rw [hc] at e'
      dsimp only at e'
      split at e'
      · have hs := step_sent h up hc k
        by_cases hj : id = j
        · subst hj
          have hi := h.ids (by rw [hx]; nofun) id
          unfold IdInv at hi
          rw [hc] at hi
          have key : ∀ t : Capture, receivedFrom id t.log = receivedFrom id s.log →
              sentTo id t.log = sentTo id s.log ++ c.output.take k →
              (serve args.contentType (items args.highwater (receivedFrom id t.log))).phase =
                some (phaseOf c.state) ∧
              (sentTo id t.log = (serve args.contentType
                (items args.highwater (receivedFrom id t.log))).replies.flatMap CFrame.wire ↔
                c.output.drop k = []) := by
            intro t t1 t2
            rw [t1, t2, ← ha]
            refine ⟨hi.pre.phase, ?_⟩
            rw [← hi.pre.replies, List.append_right_inj]
            constructor
            · intro hh
              have := List.take_append_drop k c.output
              rw [hh] at this
              simpa using this
            · intro hh
              have := List.take_append_drop k c.output
              rw [hh, List.append_nil] at this
              exact this
          have r1 : receivedFrom id (((s.setConn id (some { c with output := c.output.drop k })).emit
              (.sent id (c.output.take k))).log) = receivedFrom id s.log := by
            simp [Capture.emit, Capture.setConn, receivedFrom]
          have r2 : sentTo id (((s.setConn id (some { c with output := c.output.drop k })).emit
              (.sent id (c.output.take k))).log) = sentTo id s.log ++ c.output.take k := by
            simp [Capture.emit, Capture.setConn, sentTo]
          split at e'
          · rename_i hd
            unfold Capture.cbWrite at e'
            split at e' <;> cases e'
            · rename_i hst
              refine ⟨fun hn => absurd (by simp [Capture.emit, Capture.setConn]) hn, ?_⟩
              intro k' hk' _ hph
              rw [(key _ r1 r2).1] at hph
              exact absurd (by revert hph; cases c.state <;> simp [phaseOf]) hst
            · rename_i hst
              simp only [ne_eq, Classical.not_not] at hst
              have q1 := (closeConn_fields ((s.setConn id
                (some { c with output := c.output.drop k })).emit (.sent id (c.output.take k))) id)
              have u := key (((s.setConn id (some { c with output := c.output.drop k })).emit
                (.sent id (c.output.take k))).closeConn id)
                (by rw [q1.2.2.2.2.2.2.1, ← r1]; simp [receivedFrom])
                (by rw [q1.2.2.2.2.2.2.1, ← r2]; simp [sentTo])
              refine ⟨fun _ => Or.inr (Or.inr ⟨k, rfl, ?_, u.2.2 hd⟩), ?_⟩
              · rw [u.1, hst]; rfl
              · intro _ _ _ _ _
                rw [q1.2.2.2.2.2.2.2.1]
                simp
          · rename_i hd
            cases e'
            refine ⟨fun hn => absurd (by simp [Capture.emit, Capture.setConn]) hn, ?_⟩
            intro k' hk' _ _ hh
            exact absurd ((key _ r1 r2).2.1 hh) hd
        · have hother : s'.conns id = s.conns id := by
            split at e'
            · unfold Capture.cbWrite at e'
              split at e' <;> cases e'
              · simp [Capture.emit, Capture.setConn, hj]
              · rw [(closeConn_fields _ j).2.2.2.2.2.2.2.1]
                simp [Capture.emit, Capture.setConn, hj]
            · cases e'
              simp [Capture.emit, Capture.setConn, hj]
          refine ⟨fun hn => ?_, fun k' hk' => ?_⟩
          · rw [hother] at hn; exact absurd hin hn
          · cases hk'; exact absurd rfl hj
      · cases e'
        exact ⟨fun hn => absurd hin hn, fun k' _ hh => absurd rfl hh⟩
  | hangup j =>
    refine ⟨fun hn => Or.inl ?_, nofun⟩
    dsimp only at e'
    cases hc : s.conns j with
    | none => rw [hc] at e'; cases e'; exact absurd hin hn
    | some c =>
      rw [hc] at e'
      cases e'
      rw [(closeConn_fields s j).2.2.2.2.2.2.2.1] at hn
      by_cases hj : id = j
      · rw [hj]
      · simp [hj] at hn
        rw [hn] at hin; cases hin
  | sigusr1 =>
    refine ⟨fun hn => absurd ?_ hn, nofun⟩
    dsimp only at e'
    split at e'
    · rw [(rotateOutput_lf e').conns]; exact hin
    · cases e'; exact hin
  | sighup =>
    refine ⟨fun hn => absurd ?_ hn, nofun⟩
    cases e'
    rw [(fflush_lf s).conns]
    exact hin
  | term =>
    dsimp only at e'
    unfold Capture.shutdown at e'
    obtain ⟨⟨ok, s1⟩, e1, e'⟩ := Exec.bind_eq_ok.1 e'
    cases ok <;> cases e' <;> cases hx'
  | rename x y =>
    refine ⟨fun hn => absurd ?_ hn, nofun⟩
    dsimp only at e'
    split at e' <;> cases e' <;> exact hin
  | remove x =>
    refine ⟨fun hn => absurd ?_ hn, nofun⟩
    cases e'
    exact hin

/-- A session to its end: the connection survives ACCEPT and is closed after FINISH. -/
example :
    (outcome (easyArgs 0) easyEnv [.accept, .recv 0 hello [hello],
      .send 0 (CFrame.wire ⟨.accept, [[97]]⟩).length]).map (fun s => (active s.log, s.exited)) =
    .ok ([0], none) ∧
    (outcome (easyArgs 0) easyEnv [.accept, .recv 0 hello [hello],
      .send 0 (CFrame.wire ⟨.accept, [[97]]⟩).length,
      .recv 0 (CFrame.wire ⟨.stop, []⟩) [CFrame.wire ⟨.stop, []⟩],
      .send 0 (CFrame.wire ⟨.finish, []⟩).length]).map (fun s => (active s.log, s.exited)) =
    .ok ([], none) ∧
    Polite (easyArgs 0) easyEnv [.accept, .recv 0 hello [hello],
      .send 0 (CFrame.wire ⟨.accept, [[97]]⟩).length,
      .recv 0 (CFrame.wire ⟨.stop, []⟩) [CFrame.wire ⟨.stop, []⟩],
      .send 0 (CFrame.wire ⟨.finish, []⟩).length] :=
  ⟨by decide +kernel, by decide +kernel, polite_of_check (by decide +kernel)⟩

/-! ## C49: handshakes -/

/-- **C49, in part.** A client that sends a READY frame offering the configured content type, or none,
of less than 512 bytes in total and fitting the buffer, is answered with ACCEPT for that type.
Missing: a frame of exactly 512 bytes (`ready_512_rejected`), and of more bytes than the buffer set
with `-b` holds (it is skipped as too large). -/
theorem capture_accepts_partial (args : CapArgs) (env : CapEnv) (acts : List CapAct) (s s' : Capture)
    (id : Nat) (bs : Bytes) (chains : List Bytes)
    (hb : args.bufferSize < 2 ^ 31) (hp : Polite args env (acts ++ [.recv id bs chains]))
    (e : outcome args env acts = .ok s) (hx : s.exited = none) (c : Conn) (hc : s.conns id = some c)
    (h1 : bs ≠ []) (h2 : chains.flatten = c.input.flatten ++ bs) (h3 : [] ∉ chains)
    (h4 : evLength chains ≤ args.highwater)
    (e' : s.step (.recv id bs chains) = .ok s') (hx' : s'.exited = none)
    (cts : List Bytes) (hcts : ∀ ct ∈ cts, ct.length ≤ 256)
    (hm : cts = [] ∨ args.contentType ∈ cts)
    (hl : (CFrame.wire ⟨.ready, cts⟩).length < 512)
    (hl2 : (CFrame.wire ⟨.ready, cts⟩).length ≤ args.highwater)
    (hr : receivedFrom id s.log ++ bs = CFrame.wire ⟨.ready, cts⟩) :
    ∃ c', s'.conns id = some c' ∧
      sentTo id s'.log ++ c'.output = CFrame.wire ⟨.accept, [args.contentType]⟩ := by
  obtain ⟨r1, r2⟩ := capture_answers_partial args env acts s s' id bs chains hb hp e hx c hc h1 h2 h3 h4
    e' hx'
  have hlen : (CFrame.wire ⟨.ready, cts⟩).length = 8 + (CFrame.payload ⟨.ready, cts⟩).length := by
    simp [CFrame.wire, Spec.be32]; omega
  have hwf : CFrame.WF ⟨.ready, cts⟩ := ⟨hcts, by nofun⟩
  have hits : items args.highwater (CFrame.wire ⟨.ready, cts⟩) =
      [.control (CFrame.payload ⟨.ready, cts⟩)] := by
    have := items_control (hw := args.highwater) (f := ⟨.ready, cts⟩) [] (payload_ge _) (by omega) (by omega)
    simpa using this
  have hsv : serve args.contentType [.control (CFrame.payload ⟨.ready, cts⟩)] =
      ⟨some .start, [], [⟨.accept, [args.contentType]⟩]⟩ := by
    unfold serve
    rw [List.foldl_cons, serveItem_ready rfl hwf (by omega) hm]
    rfl
  rw [r1, hr, hits, hsv] at r2
  rcases r2 with ⟨h, _⟩ | ⟨_, c', h, h'⟩
  · cases h
  · refine ⟨c', h, ?_⟩
    rw [h']
    simp

/-- **C49 is false.** A READY frame of exactly 512 bytes that offers the configured content type:
the library's encoder produces it, and the library's decoder reads it, but the server hangs up. -/
theorem ready_512_rejected : ∃ args env acts, args.bufferSize < 2 ^ 31 ∧ Polite args env acts ∧
    ∃ cts, args.contentType ∈ cts ∧ (∀ ct ∈ cts, ct.length ≤ 256) ∧
      (CFrame.wire ⟨.ready, cts⟩).length = 512 ∧
      ∃ s, outcome args env acts = .ok s ∧ s.exited = none ∧
        receivedFrom 0 s.log = CFrame.wire ⟨.ready, cts⟩ ∧ sentTo 0 s.log = [] ∧
        .hungup 0 ∈ s.log := by
  let cts : List Bytes := [[97], List.replicate 230 98, List.replicate 245 99]
  let acts : List CapAct := [.accept, .recv 0 (CFrame.wire ⟨.ready, cts⟩) [CFrame.wire ⟨.ready, cts⟩]]
  have hp : Polite (easyArgs 0) easyEnv acts := polite_of_check (by decide +kernel)
  obtain ⟨s, e⟩ := capture_safe_partial _ _ _ (by decide +kernel) hp
  have h : (outcome (easyArgs 0) easyEnv acts).map (fun s =>
      (s.exited, decide (receivedFrom 0 s.log = CFrame.wire ⟨.ready, cts⟩), sentTo 0 s.log,
        decide (.hungup 0 ∈ s.log))) =
      .ok (none, true, [], true) := by decide +kernel
  refine ⟨easyArgs 0, easyEnv, acts, by decide +kernel, hp, cts, by decide +kernel, by decide +kernel,
    by decide +kernel, s, e, ?_⟩
  rw [e] at h
  simpa [Except.map] using h

/-! ## C50: frames too large for the buffer -/

/-- The bytes of a client that keeps to the protocol and sends the payloads `ds`. -/
def clientBytes (cts cts' : List Bytes) (ds : List Bytes) : Bytes :=
  CFrame.wire ⟨.ready, cts⟩ ++ CFrame.wire ⟨.start, cts'⟩ ++ ds.flatMap dataFrame

/-- **C50, in part.** From a client that keeps to the protocol exactly the frames that fit the buffer are
recorded, in order; the others are dropped as a whole and do not disturb those that follow.
Together with `capture_no_stall_partial`. Missing: frames of 2^32 bytes or more in total. -/
theorem capture_skips_partial (args : CapArgs) (env : CapEnv) (acts : List CapAct) (s : Capture)
    (hb : args.bufferSize < 2 ^ 31) (hp : Polite args env acts)
    (e : outcome args env acts = .ok s) (hx : s.exited ≠ some 1) (id : Nat)
    (cts cts' ds : List Bytes) (hcts : ∀ ct ∈ cts, ct.length ≤ 256) (hm : cts = [] ∨ args.contentType ∈ cts)
    (hl : (CFrame.wire ⟨.ready, cts⟩).length < 512)
    (hl2 : (CFrame.wire ⟨.ready, cts⟩).length ≤ args.highwater)
    (hcts' : cts' = [] ∨ cts' = [args.contentType])
    (hl3 : (CFrame.wire ⟨.start, cts'⟩).length ≤ args.highwater) (hct : args.contentType.length ≤ 256)
    (hds : ∀ d ∈ ds, d ≠ [] ∧ d.length < 2 ^ 32)
    (hr : receivedFrom id s.log = clientBytes cts cts' ds) :
    recordedFrom id s.log = (ds.filter fun d => 4 + d.length ≤ args.highwater).map dataFrame := by
  rw [capture_recorded_partial args env acts s hb hp e hx, hr]
  have hlen : ∀ f : CFrame, f.wire.length = 8 + f.payload.length := by
    intro f; simp [CFrame.wire, Spec.be32]; omega
  have hwf : CFrame.WF ⟨.ready, cts⟩ := ⟨hcts, by nofun⟩
  have hwf' : CFrame.WF ⟨.start, cts'⟩ := by
    rcases hcts' with rfl | rfl
    · exact ⟨by simp, by intro m hm; cases hm; simp⟩
    · exact ⟨by simpa using hct, by intro m hm; cases hm; simp⟩
  have hs512 : (CFrame.wire ⟨.start, cts'⟩).length < 512 := by
    rcases hcts' with rfl | rfl
    · decide +kernel
    · rw [length_wire1]; omega
  have h1 := hlen ⟨.ready, cts⟩
  have h2 := hlen ⟨.start, cts'⟩
  have hits : items args.highwater (clientBytes cts cts' ds) =
      .control (CFrame.payload ⟨.ready, cts⟩) :: .control (CFrame.payload ⟨.start, cts'⟩) ::
      ds.map (fun d => if 4 + d.length ≤ args.highwater then CapItem.data d
        else .skipped (4 + d.length)) := by
    unfold clientBytes
    rw [List.append_assoc, items_control _ (payload_ge _) (by omega) (by omega),
      items_control _ (payload_ge _) (by omega) (by omega)]
    have := items_datas (hw := args.highwater) [] ds hds
    rw [List.append_nil, items_nil, List.append_nil] at this
    rw [this]
  rw [hits]
  unfold serve
  rw [List.foldl_cons, serveItem_ready rfl hwf (by omega) hm, List.foldl_cons,
    serveItem_start rfl hwf' (by omega) (by rcases hcts' with rfl | rfl <;> simp),
    serve_datas _ _ _ _ (by nofun)]
  rfl

/-- A client with a frame of five bytes and a buffer that only holds 25 bytes. -/
def bigActs : List CapAct :=
  let a := CFrame.wire ⟨.ready, [[97]]⟩
  let b := CFrame.wire ⟨.start, [[97]]⟩
  let c := dataFrame (List.replicate 30 7)
  let d := dataFrame [1]
  [.accept, .recv 0 a [a], .recv 0 b [b], .recv 0 (c.take 10) [c.take 10],
    .recv 0 ((c.drop 10).take 15) [c.take 10, (c.drop 10).take 15], .recv 0 (c.drop 25 ++ d) [c.drop 25 ++ d]]

example : ∃ s, Polite (easyArgs 25) easyEnv bigActs ∧ outcome (easyArgs 25) easyEnv bigActs = .ok s ∧
    s.exited ≠ some 1 ∧
    receivedFrom 0 s.log = clientBytes [[97]] [[97]] [List.replicate 30 7, [1]] ∧
    recordedFrom 0 s.log = [dataFrame [1]] := by
  have hp : Polite (easyArgs 25) easyEnv bigActs := polite_of_check (by decide +kernel)
  obtain ⟨s, e⟩ := capture_safe_partial _ _ _ (by decide +kernel) hp
  have h : (outcome (easyArgs 25) easyEnv bigActs).map (fun s =>
      (s.exited, receivedFrom 0 s.log, recordedFrom 0 s.log)) =
      .ok (none, clientBytes [[97]] [[97]] [List.replicate 30 7, [1]], [dataFrame [1]]) := by
    decide +kernel
  rw [e] at h
  simp only [Except.map, Except.ok.injEq, Prod.mk.injEq] at h
  exact ⟨s, hp, e, by rw [h.1]; nofun, h.2.1, h.2.2⟩

/-- **C50, in part.** If at most `n - 8` bytes are read at a time, where `n` is the size of the buffer,
no connection stalls: there is always room for more bytes. (libevent reads at most 4096 bytes at a
time by default.) Missing: larger reads, see `oversize_stall`. -/
theorem capture_no_stall_partial (args : CapArgs) (env : CapEnv) (acts : List CapAct) (s : Capture)
    (hb : args.bufferSize < 2 ^ 31) (hp : Polite args env acts)
    (hsmall : ∀ id bs chains, .recv id bs chains ∈ acts → bs.length + 8 ≤ args.highwater)
    (e : outcome args env acts = .ok s) (hx : s.exited = none) (id : Nat) (c : Conn)
    (hc : s.conns id = some c) : evLength c.input < args.highwater := by
  obtain ⟨s0, e0, h0, a0, c0⟩ := start_inv args env hb
  have he : ∀ as, outcome args env as = s0.run as := by
    intro as; unfold outcome; rw [e0]; rfl
  obtain ⟨_, a⟩ := inv_of_outcome hb hp e
  have := run_roomy acts s0 s h0 (fun i c hc => by rw [c0 i] at hc; cases hc)
    (fun as1 id bs ch as2 s1 h1 h2 => by
      rw [a0]
      exact hp as1 id bs ch as2 s1 h1 (by rw [he]; exact h2))
    (by rw [a0]; exact hsmall) (by rw [← he]; exact e) hx id c hc
  rw [a] at this
  exact this

example : ∃ s c, Polite (easyArgs 40) easyEnv bigActs ∧ outcome (easyArgs 40) easyEnv bigActs = .ok s ∧
    s.exited = none ∧ s.conns 0 = some c ∧
    ∀ id bs chains, .recv id bs chains ∈ bigActs → bs.length + 8 ≤ (easyArgs 40).highwater := by
  have hp : Polite (easyArgs 40) easyEnv bigActs := polite_of_check (by decide +kernel)
  obtain ⟨s, e⟩ := capture_safe_partial _ _ _ (by decide +kernel) hp
  have h : (outcome (easyArgs 40) easyEnv bigActs).map (fun s => (s.exited, (s.conns 0).isSome)) =
      .ok (none, true) := by decide +kernel
  rw [e] at h
  simp only [Except.map, Except.ok.injEq, Prod.mk.injEq] at h
  obtain ⟨c, hc⟩ := Option.isSome_iff_exists.1 h.2
  refine ⟨s, c, hp, e, h.1, hc, ?_⟩
  intro id bs chains hm
  have : (bigActs.all fun a => match a with
      | .recv _ bs _ => bs.length + 8 ≤ (easyArgs 40).highwater
      | _ => true) = true := by decide +kernel
  have := List.all_eq_true.1 this _ hm
  simpa using this

/-- **C50 is false in full.** If a read fills the buffer with the beginning of a frame that is too
large, the connection stalls: the program waits for more bytes before it discards any, and
libevent reads no more bytes. -/
theorem oversize_stall : ∃ args env acts, args.bufferSize < 2 ^ 31 ∧ Polite args env acts ∧
    ∃ s, outcome args env acts = .ok s ∧ s.exited = none ∧ (s.conns 0).isSome ∧
      receivedFrom 0 s.log <+: dataFrame (List.replicate 100 1) ∧
      ∀ bs chains, s.step (.recv 0 bs chains) = .ok s := by
  let b : Bytes := [0, 0, 0, 100, 1, 1, 1, 1, 1, 1]
  let acts : List CapAct := [.accept, .recv 0 b [b]]
  have hp : Polite (easyArgs 10) easyEnv acts := polite_of_check (by decide +kernel)
  obtain ⟨s, e⟩ := capture_safe_partial _ _ _ (by decide +kernel) hp
  have h : (outcome (easyArgs 10) easyEnv acts).map (fun s =>
      (s.exited, (s.conns 0).map (fun c => evLength c.input), receivedFrom 0 s.log,
        s.args.highwater)) = .ok (none, some 10, b, 10) := by decide +kernel
  rw [e] at h
  simp only [Except.map, Except.ok.injEq, Prod.mk.injEq] at h
  obtain ⟨h1, h2, h3, h4⟩ := h
  obtain ⟨c, hc, hl⟩ := Option.map_eq_some_iff.1 h2
  refine ⟨easyArgs 10, easyEnv, acts, by decide +kernel, hp, s, e, h1, by rw [hc]; rfl, ?_, ?_⟩
  · rw [h3]; decide +kernel
  · intro bs chains
    unfold Capture.step
    rw [h1]
    simp only [Option.isSome_none, Bool.false_eq_true, if_false, hc]
    rw [if_neg]
    rintro ⟨hne, hfl, _, hcap⟩
    have := congrArg List.length hfl
    rw [List.length_append] at this
    have h0 : 0 < bs.length := List.length_pos_iff.2 hne
    unfold evLength at hl hcap
    omega

/-! ## C52: the connection limit -/

/-- **C52.** With a limit of `n` connections at most `n` clients are connected at any time, and the
program listens exactly when fewer are; without a limit it always listens. This holds whatever
clients send. -/
theorem capture_limit (args : CapArgs) (env : CapEnv) (acts : List CapAct) (s : Capture)
    (e : outcome args env acts = .ok s) :
    (args.countConnections > 0 →
      ((active s.log).length : Int) ≤ args.countConnections ∧
      (s.listening = true ↔ ((active s.log).length : Int) < args.countConnections)) ∧
    (args.countConnections ≤ 0 → s.listening = true) := by
  unfold outcome at e
  obtain ⟨s0, e0, e⟩ := Exec.bind_eq_ok.1 e
  obtain ⟨h0, a0⟩ := start_linv e0
  obtain ⟨h, a⟩ := run_linv acts h0 e
  have hl := h.listen.limit
  have hli := h.listen.listening
  rw [a, a0] at hl hli
  refine ⟨fun hp => ⟨hl hp, hli.trans ⟨fun h => h hp, fun h _ => h⟩⟩, fun hn => ?_⟩
  exact hli.2 (fun hp => by omega)

/-- The clients that are connected are those the program has state for, each once. -/
theorem capture_active (args : CapArgs) (env : CapEnv) (acts : List CapAct) (s : Capture)
    (e : outcome args env acts = .ok s) :
    (active s.log).Nodup ∧ ∀ id, id ∈ active s.log ↔ (s.conns id).isSome := by
  unfold outcome at e
  obtain ⟨s0, e0, e⟩ := Exec.bind_eq_ok.1 e
  obtain ⟨h, a⟩ := run_linv acts (start_linv e0).1 e
  exact ⟨h.listen.nodup, h.listen.mem⟩

/-- While the program listens a client that connects is accepted; while it does not, none is. -/
theorem capture_accept (args : CapArgs) (env : CapEnv) (acts : List CapAct) (s s' : Capture)
    (e : outcome args env acts = .ok s) (hx : s.exited = none) (e' : s.step .accept = .ok s') :
    active s'.log = if s.listening then active s.log ++ [s.nextId] else active s.log := by
  unfold Capture.step at e'
  rw [hx] at e'
  simp only [Option.isSome_none, Bool.false_eq_true, if_false] at e'
  split at e'
  · rename_i hl
    cases e'
    rw [if_pos hl, (accept_fields s).2.2.2.2.2.2.1]
    unfold active
    rw [List.foldl_append]
    rfl
  · rename_i hl
    cases e'
    rw [if_neg hl]

/-- Two clients with a limit of one; the first leaves and a third comes. -/
example : (outcome { easyArgs 0 with countConnections := 1 } easyEnv
      [.accept, .accept, .hangup 0, .accept]).map (fun s => (active s.log, s.listening, s.exited)) =
    .ok ([1], false, none) := by decide +kernel

/-! ## C53: rotation -/

/-- **C53, in part.** As long as no file name is used twice and no write fails, the frames of all output
files, in order, are the frames recorded, in order; only the file being written lacks its STOP.
Missing: files that are overwritten, see `rotation_overwrites`; the four largest lengths. -/
theorem capture_rotation_partial (args : CapArgs) (env : CapEnv) (acts : List CapAct) (s : Capture)
    (hb : args.bufferSize < 2 ^ 31) (hp : Polite args env acts)
    (e : outcome args env acts = .ok s) (hc : ∀ i, .clobbered i ∉ s.log) (hf : ∀ i, .failed i ∉ s.log) :
    ∃ dss : List (List Bytes), dss.length = s.files.length ∧
      recordedAll s.log = dss.flatten.map dataFrame ∧
      ∀ i ds, dss[i]? = some ds → s.files[i]? =
        if s.outputFile = some i then
          some (CFrame.wire ⟨.start, [args.contentType]⟩ ++ ds.flatMap dataFrame)
        else some (stream (some args.contentType) ds) := by
  obtain ⟨h, a⟩ := inv_of_outcome hb hp e
  have hfresh := h.out.fresh hc
  have htally := tally h.head
  -- payloads of every session
  have hex : ∀ ss : List (Nat × List Bytes), (∀ p ∈ ss, p ∈ Spec.sessions s.log) →
      ∃ dss : List (List Bytes), ss.map (·.2) = dss.map (·.map dataFrame) := by
    intro ss
    induction ss with
    | nil => intro _; exact ⟨[], rfl⟩
    | cons p r ih =>
      intro hm
      obtain ⟨dss, hd⟩ := ih (fun q hq => hm q (List.mem_cons_of_mem _ hq))
      obtain ⟨ds, hds, _⟩ := session_frames h (hm p List.mem_cons_self)
      exact ⟨ds :: dss, by rw [List.map_cons, hd, hds]; rfl⟩
  obtain ⟨dss, hdss⟩ := hex (Spec.sessions s.log).reverse (fun p hp => by simpa using hp)
  have hlen : dss.length = s.files.length := by
    have h1 := congrArg List.length hdss
    have h2 := congrArg List.length hfresh
    simp at h1 h2
    omega
  refine ⟨dss, hlen, ?_, ?_⟩
  · rw [← htally, List.flatMap_def, hdss, List.map_flatten]
  · intro i ds hi
    have hil : i < s.files.length := by
      rw [← hlen]
      exact (List.getElem?_eq_some_iff.1 hi).1
    have h1 : ((Spec.sessions s.log).reverse[i]?).map (·.2) = some (ds.map dataFrame) := by
      have := congrArg (fun l => l[i]?) hdss
      simp only [List.getElem?_map, hi] at this
      simpa using this
    have h2 : ((Spec.sessions s.log).reverse[i]?).map (·.1) = some i := by
      have := congrArg (fun l => l[i]?) hfresh
      simp only [List.getElem?_map, List.getElem?_range hil] at this
      exact this
    obtain ⟨p, hp, hp2⟩ := Option.map_eq_some_iff.1 h1
    rw [hp] at h2
    have hp1 : p.1 = i := by simpa using h2
    have hmem : p ∈ Spec.sessions s.log := by
      have := List.mem_of_getElem? hp
      simpa using this
    have hnd : ((Spec.sessions s.log).map (·.1)).Nodup := by
      have : ((Spec.sessions s.log).reverse.map (·.1)).Nodup := by rw [hfresh]; exact List.nodup_range
      rw [List.map_reverse] at this
      exact (List.pairwise_reverse.1 this).imp fun h => h.symm
    have hlat : Spec.latest i (Spec.sessions s.log) = some (ds.map dataFrame) := by
      generalize Spec.sessions s.log = ss at hmem hnd
      clear h1 h2 hp hfresh htally hdss
      induction ss with
      | nil => cases hmem
      | cons q r ih =>
        rcases List.mem_cons.1 hmem with rfl | hm
        · rw [← hp1, ← hp2]
          exact latest_cons_self p.1 p.2 r
        · rw [List.map_cons, List.nodup_cons] at hnd
          have : q.1 ≠ i := by
            intro hq
            apply hnd.1
            rw [hq, ← hp1]
            exact List.mem_map.2 ⟨p, hm, rfl⟩
          have e2 : Spec.latest i (q :: r) = Spec.latest i r := latest_cons_ne q.2 r this
          rw [e2]
          exact ih hm hnd.2
    rw [h.out.file i _ hlat (hf i), a]
    split
    · simp [startBytes, List.flatMap_def]
    · simp [stream, startBytes, stopBytes, List.flatMap_def]

/-- A run with two rotations by SIGUSR1, with file names made of the time. -/
def rotateActs : List CapAct :=
  let a := hello ++ dataFrame [1]
  [.accept, .recv 0 a [a], .sigusr1, .recv 0 (dataFrame [2]) [dataFrame [2]], .sigusr1, .term]

example : ∃ s, Polite { easyArgs 0 with calendar := true } easyEnv rotateActs ∧
    outcome { easyArgs 0 with calendar := true } easyEnv rotateActs = .ok s ∧
    (∀ i, .clobbered i ∉ s.log) ∧ (∀ i, .failed i ∉ s.log) ∧
    s.files = [stream (some [97]) [[1]], stream (some [97]) [[2]], stream (some [97]) []] := by
  have hp : Polite { easyArgs 0 with calendar := true } easyEnv rotateActs :=
    polite_of_check (by decide +kernel)
  obtain ⟨s, e⟩ := capture_safe_partial _ _ _ (by decide +kernel) hp
  have h : (outcome { easyArgs 0 with calendar := true } easyEnv rotateActs).map (fun s =>
      (s.log.all (fun e => match e with
        | .clobbered _ => false | .failed _ => false | _ => true), s.files)) =
      .ok (true, [stream (some [97]) [[1]], stream (some [97]) [[2]], stream (some [97]) []]) := by
    decide +kernel
  rw [e] at h
  simp only [Except.map, Except.ok.injEq, Prod.mk.injEq] at h
  refine ⟨s, hp, e, ?_, ?_, h.2⟩ <;> intro i hi <;> have := List.all_eq_true.1 h.1 _ hi <;> simp at this

/-- **C53 is false in full.** With a fixed file name, rotation by SIGUSR1 truncates the very file it has
just closed, and the frames recorded so far are gone (unless another program has moved the
file away in between). -/
theorem rotation_overwrites : ∃ args env acts, args.bufferSize < 2 ^ 31 ∧ Polite args env acts ∧
    ∃ s, outcome args env acts = .ok s ∧ s.exited = some 0 ∧ recordedAll s.log = [dataFrame [1]] ∧
      s.files = [stream (some args.contentType) []] := by
  let acts : List CapAct := [.accept, .recv 0 (hello ++ dataFrame [1]) [hello ++ dataFrame [1]], .sigusr1,
    .term]
  have hp : Polite (easyArgs 0) easyEnv acts := polite_of_check (by decide +kernel)
  obtain ⟨s, e⟩ := capture_safe_partial _ _ _ (by decide +kernel) hp
  have h : (outcome (easyArgs 0) easyEnv acts).map (fun s => (s.exited, recordedAll s.log, s.files)) =
      .ok (some 0, [dataFrame [1]], [stream (some [97]) []]) := by decide +kernel
  rw [e] at h
  simp only [Except.map, Except.ok.injEq, Prod.mk.injEq] at h
  exact ⟨easyArgs 0, easyEnv, acts, by decide +kernel, hp, s, e, h.1, h.2.1, h.2.2⟩

end Fstrm.Props
