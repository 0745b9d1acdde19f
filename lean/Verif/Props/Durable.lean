import Verif.Lemmas.Durable

/-!
# What `fstrm_capture` leaves in its output files

The program writes through the buffers of the C library. A run fixes the calls the program makes
(`s.io`); the results of these calls that it does not look at, and how much of a buffer the
library passes on at which call, are free: `h` is the list of calls with any such results. What the
files then contain is told by `Verif.Spec.Disk`. That the operating system keeps what
it was given is assumed: these are crashes of the program, not of the machine.
-/

set_option autoImplicit false

namespace Fstrm.Props

open Spec (CapEv CFrame StdioCall CallResult Calls onDisk dataFrame stream sessions latest)

/-! ## C94: the program is killed -/

/-- **C94, in part.** With polite clients, if the program is killed at any time, after any of its
calls and also in the middle of one, every output file is the beginning of a well-formed stream
with the configured content type, provided that no `fflush` before the last call has failed.
Missing: failing calls of `fflush`, for which it is false, see `capture_killed_false`, and clients that
announce one of the four largest lengths. -/
theorem capture_killed_partial (args : CapArgs) (env : CapEnv) (acts : List CapAct) (s : Capture)
    (hb : args.bufferSize < 2 ^ 31) (hp : Polite args env acts)
    (e : outcome args env acts = .ok s) (h : Calls) (hh : h.map (·.1) <+: s.io)
    (hf : ∀ i r, (.fflush i, r) ∈ h.dropLast → r.ok = true) (i : Nat) :
    ∃ ds, onDisk i h <+: stream (some args.contentType) ds := by
  obtain ⟨hi, ha⟩ := inv_of_outcome hb hp e
  have hc := hi.out.io.fine.of_prefix hh
  have h1 := disk_whole i h hc hf
  obtain ⟨ds, h2⟩ := hc.here i
  exact ⟨ds, by rw [← ha]; exact h1.trans h2⟩

/-- **C94, the contents, in part.** If the program is killed between two events, a file on which no
write has failed contains a beginning of START, the frames recorded since it was opened
and STOP. Missing as above. -/
theorem capture_killed_contents_partial (args : CapArgs) (env : CapEnv) (acts : List CapAct)
    (s : Capture) (hb : args.bufferSize < 2 ^ 31) (hp : Polite args env acts)
    (e : outcome args env acts = .ok s) (h : Calls) (hh : h.map (·.1) = s.io)
    (hf : ∀ i r, (.fflush i, r) ∈ h → r.ok = true) (i : Nat) (hi : .failed i ∉ s.log)
    (l : List Bytes) (hl : latest i (sessions s.log) = some l) :
    onDisk i h <+: CFrame.wire ⟨.start, [args.contentType]⟩ ++ l.flatten ++
      CFrame.wire ⟨.stop, []⟩ := by
  obtain ⟨hinv, ha⟩ := inv_of_outcome hb hp e
  have hc := hinv.out.io.fine
  rw [← hh] at hc
  have h1 := (disk_held _).trans (held_whole i h hc hf).1
  have hlt : i < s.files.length := hinv.out.lt _ (mem_of_latest hl)
  have h2 := hinv.out.io.files i hlt hi
  rw [hinv.out.file i l hl hi] at h2
  rw [hh, ← Option.some.inj h2, ha] at h1
  refine h1.trans ?_
  unfold startBytes stopBytes
  split
  · exact ⟨CFrame.wire ⟨.stop, []⟩, by simp⟩
  · exact List.prefix_refl _

/-- The calls of a run, the results of which depend on the call only. -/
def withResults (f : StdioCall → CallResult) (cs : List StdioCall) : Calls := cs.map fun c => (c, f c)

theorem withResults_calls (f : StdioCall → CallResult) (cs : List StdioCall) :
    (withResults f cs).map (·.1) = cs := by
  simp [withResults, Function.comp_def]

/-- Everything succeeds and nothing is passed on before it must be. -/
def lazy : StdioCall → CallResult := fun _ => ⟨0, 0, true⟩

/-- `fflush` fails. -/
def noFlush : StdioCall → CallResult
  | .fflush _ => ⟨0, 0, false⟩
  | _ => ⟨0, 0, true⟩

/-- `fclose` fails. -/
def noClose : StdioCall → CallResult
  | .fclose _ => ⟨0, 0, false⟩
  | _ => ⟨0, 0, true⟩

/-- **C94 is false in full.** The result of `fflush` after START has been written is ignored. If it
fails, START is lost, the program goes on, ends with success and leaves a file that
begins with a data frame. -/
theorem capture_killed_false : ∃ args env acts s h, args.bufferSize < 2 ^ 31 ∧ Polite args env acts ∧
    outcome args env acts = .ok s ∧ s.exited = some 0 ∧ h.map (·.1) = s.io ∧
    ¬ ∃ ds, onDisk 0 h <+: stream (some args.contentType) ds := by
  obtain ⟨s, e⟩ := capture_safe_partial (easyArgs 0) easyEnv politeActs (by decide +kernel)
    politeActs_polite
  have h : (outcome (easyArgs 0) easyEnv politeActs).map
      (fun s => (s.exited, (onDisk 0 (withResults noFlush s.io)).take 4)) =
      .ok (some 0, [0, 0, 0, 3]) := by decide +kernel
  rw [e] at h
  simp only [Except.map, Except.ok.injEq, Prod.mk.injEq] at h
  refine ⟨_, _, _, s, withResults noFlush s.io, by decide +kernel, politeActs_polite, e, h.1,
    withResults_calls _ _, ?_⟩
  rintro ⟨ds, hd⟩
  have h1 := (List.take_prefix 4 _).trans hd
  rw [h.2] at h1
  obtain ⟨t, ht⟩ := h1
  simp [stream, CFrame.wire, Spec.be32] at ht

/-- The hypotheses of `capture_killed_partial` are met by a run that is killed after START and
part of the first frame have reached the file. -/
example : ∃ s h, Polite (easyArgs 0) easyEnv politeActs ∧
    outcome (easyArgs 0) easyEnv politeActs = .ok s ∧ h.map (·.1) <+: s.io ∧
    (∀ i r, (.fflush i, r) ∈ h.dropLast → r.ok = true) ∧
    onDisk 0 h = CFrame.wire ⟨.start, [[97]]⟩ ++ [0, 0, 0, 3, 1] := by
  obtain ⟨s, e⟩ := capture_safe_partial (easyArgs 0) easyEnv politeActs (by decide +kernel)
    politeActs_polite
  refine ⟨s, (s.io.take 4).map fun c => (c, ⟨0, 5, true⟩), politeActs_polite, e, ?_, ?_, ?_⟩
  · simpa [Function.comp_def] using List.take_prefix _ _
  · intro i r hr
    obtain ⟨c, _, hc⟩ := List.mem_map.1 (List.dropLast_subset _ hr)
    cases hc; rfl
  · have h : (outcome (easyArgs 0) easyEnv politeActs).map
        (fun s => onDisk 0 ((s.io.take 4).map fun c => (c, ⟨0, 5, true⟩))) =
        .ok (CFrame.wire ⟨.start, [[97]]⟩ ++ [0, 0, 0, 3, 1]) := by decide +kernel
    rw [e] at h
    simpa [Except.map] using h

/-! ## C95: SIGHUP -/

theorem args_of_outcome {args : CapArgs} {env : CapEnv} {acts : List CapAct} {s : Capture}
    (e : outcome args env acts = .ok s) : s.args = args := by
  unfold outcome at e
  obtain ⟨s0, e0, e⟩ := Exec.bind_eq_ok.1 e
  obtain ⟨h0, a0⟩ := start_linv e0
  exact (run_linv acts h0 e).2.trans a0

theorem run_snoc_inv : ∀ (as : List CapAct) (a : CapAct) (s s' : Capture), s.run (as ++ [a]) = .ok s' →
    ∃ s1, s.run as = .ok s1 ∧ s1.step a = .ok s' := by
  intro as
  induction as with
  | nil =>
    intro a s s' e
    obtain ⟨s1, e1, e⟩ := Exec.bind_eq_ok.1 e
    cases e
    exact ⟨s, rfl, e1⟩
  | cons b as ih =>
    intro a s s' e
    rw [List.cons_append] at e
    unfold Capture.run at e
    obtain ⟨s1, e1, e⟩ := Exec.bind_eq_ok.1 e
    obtain ⟨s2, e2, e3⟩ := ih a s1 s' e
    refine ⟨s2, ?_, e3⟩
    unfold Capture.run
    rw [e1]
    exact e2

theorem outcome_snoc_inv {args : CapArgs} {env : CapEnv} {acts : List CapAct} {a : CapAct}
    {s : Capture} (e : outcome args env (acts ++ [a]) = .ok s) :
    ∃ s1, outcome args env acts = .ok s1 ∧ s1.step a = .ok s := by
  unfold outcome at e
  obtain ⟨s0, e0, e⟩ := Exec.bind_eq_ok.1 e
  obtain ⟨s1, e1, e2⟩ := run_snoc_inv _ _ _ _ e
  refine ⟨s1, ?_, e2⟩
  unfold outcome
  rw [e0]
  exact e1

theorem step_running {s s' : Capture} {a : CapAct} (e : s.step a = .ok s') (hx : s'.exited = none) :
    s.exited = none := by
  cases h : s.exited with
  | none => rfl
  | some k =>
    rw [step_exited (by rw [h]; rfl)] at e
    cases e
    rw [h] at hx
    cases hx

/-- The calls before the last one. -/
theorem calls_snoc {h : Calls} {cs : List StdioCall} {c : StdioCall} (hh : h.map (·.1) = cs ++ [c]) :
    ∃ h0 r, h = h0 ++ [(c, r)] ∧ h0.map (·.1) = cs := by
  rcases List.eq_nil_or_concat h with rfl | ⟨l, x, rfl⟩
  · simp at hh
  · simp only [List.concat_eq_append] at hh ⊢
    rw [List.map_append] at hh
    obtain ⟨h1, h2⟩ := List.append_inj' hh rfl
    obtain ⟨c', r⟩ := x
    simp only [List.map_cons, List.map_nil, List.cons.injEq, and_true] at h2
    subst h2
    exact ⟨l, r, rfl, h1⟩

/-- **C95.** When the program has handled SIGHUP, and if no flushing of a stream has failed, then all
that has been recorded since the current file was opened is in the file, and stays there
whatever happens later (`later`), until the file is opened once more. Nothing is assumed
about the clients. -/
theorem capture_sighup (args : CapArgs) (env : CapEnv) (acts : List CapAct) (s : Capture)
    (e : outcome args env (acts ++ [.sighup]) = .ok s) (hx : s.exited = none)
    (h : Calls) (hh : h.map (·.1) = s.io) (hf : ∀ c r, (c, r) ∈ h → c.flushes = true → r.ok = true)
    (i : Nat) (l : List Bytes) (rest : List (Nat × List Bytes)) (hs : sessions s.log = (i, l) :: rest)
    (later : Calls) (hl : ∀ c ∈ later, c.1 ≠ .fopen i) :
    CFrame.wire ⟨.start, [args.contentType]⟩ ++ l.flatten <+: onDisk i (h ++ later) := by
  refine List.IsPrefix.trans ?_ (onDisk_mono i h later hl)
  obtain ⟨s0, e0, e1⟩ := outcome_snoc_inv e
  have hx0 := step_running e1 hx
  have ha := args_of_outcome e
  rcases life_of_outcome e0 with h0 | ⟨j, l', hm⟩ | h0
  · rw [hx0] at h0; cases h0
  · unfold Capture.step at e1
    rw [hx0] at e1
    simp only [Option.isSome_none, Bool.false_eq_true, if_false, Except.ok.injEq] at e1
    have hm' := hm.fflush
    have hio : s.io = s0.io ++ [.fflush j] := by
      rw [← e1]; unfold Capture.fflush; rw [hm.outputFile]; rfl
    rw [e1] at hm'
    obtain ⟨rest', hs'⟩ := hm'.sess
    rw [hs] at hs'
    cases hs'
    rw [hio] at hh
    obtain ⟨h0, r, rfl, hh0⟩ := calls_snoc hh
    have hall := held_all i (h0 ++ [(.fflush i, r)]) (by rw [hh, ← hio]; exact hm'.core.nofail) hf
    have hfile := hm'.core.files i (lt_of_some hm'.this)
    rw [hm'.this] at hfile
    have hargs : s0.args = args := by rw [← ha, ← e1]; exact ((fflush_same s0).args).symm
    rw [hargs] at hfile
    unfold startBytes at hfile
    rw [Option.some.inj hfile, hio, ← hh, ← hall]
    unfold onDisk
    rw [buffered_snoc]
    simp only [Spec.Buffered.after, if_true]
    have hr : r.ok = true := hf (.fflush i) r (by simp) rfl
    rw [disk_flush_ok _ _ hr, held_flush_ok _ _ hr]
    exact List.prefix_refl _
  · have h1 := h0.1
    rw [hx0] at h1; cases h1

/-- A client sends a frame, SIGHUP is handled. -/
def hupActs : List CapAct :=
  let a := hello ++ dataFrame [1, 2, 3]
  [.accept, .recv 0 a [a]]

/-- After SIGHUP the frame is in the file; without it, it need not be. -/
example : ((outcome (easyArgs 0) easyEnv (hupActs ++ [.sighup])).map fun s =>
      (s.exited, onDisk 0 (withResults lazy s.io))) =
      .ok (none, CFrame.wire ⟨.start, [[97]]⟩ ++ dataFrame [1, 2, 3]) := by decide +kernel

example : ((outcome (easyArgs 0) easyEnv (hupActs ++ [.sighup])).map fun s => sessions s.log) =
      .ok [(0, [dataFrame [1, 2, 3]])] := by decide +kernel

example : ((outcome (easyArgs 0) easyEnv hupActs).map fun s => onDisk 0 (withResults lazy s.io)) =
      .ok (CFrame.wire ⟨.start, [[97]]⟩) := by decide +kernel

/-! ## C96: the program ends with success -/

/-- **C96, in part.** If the program ends with status 0 and every flushing of a stream has succeeded,
then each output file consists of START, all that was recorded since it was opened, and STOP.
Nothing is assumed about the clients. Missing: the program ends with status 0 also if the
flushing in `fclose` or at exit fails, and then it is false, see `capture_exit_false`. -/
theorem capture_exit_partial (args : CapArgs) (env : CapEnv) (acts : List CapAct) (s : Capture)
    (e : outcome args env acts = .ok s) (hx : s.exited = some 0)
    (h : Calls) (hh : h.map (·.1) = s.io) (hf : ∀ c r, (c, r) ∈ h → c.flushes = true → r.ok = true)
    (i : Nat) (hi : i < s.files.length) :
    ∃ l, latest i (sessions s.log) = some l ∧
      onDisk i h = CFrame.wire ⟨.start, [args.contentType]⟩ ++ l.flatten ++
        CFrame.wire ⟨.stop, []⟩ := by
  rw [← args_of_outcome e]
  rcases life_of_outcome e with h0 | ⟨_, _, h0⟩ | ⟨_, s1, hs, rfl⟩
  · rw [hx] at h0; cases h0
  · rw [h0.core.exited] at hx; cases hx
  · obtain ⟨l, hl⟩ := hs.core.all i hi
    refine ⟨l, hl, ?_⟩
    have hio : (s1.exit 0).io = s1.io ++ [.exit] := rfl
    rw [hio] at hh
    obtain ⟨h0, r, rfl, hh0⟩ := calls_snoc hh
    have hnf : ∀ j bs, StdioCall.fwrite j bs false ∉ (h0 ++ [(StdioCall.exit, r)]).map (·.1) := by
      intro j bs hm
      rw [hh] at hm
      exact hs.core.nofail j bs (by simpa using hm)
    have hfile := hs.core.files i hi
    rw [hs.all i l hl] at hfile
    rw [disk_all i h0 r hnf hf, hh, whole_snoc]
    exact (Option.some.inj hfile).symm

/-- **C96, with polite clients.** Then each file is a well-formed stream of the recorded payloads. -/
theorem capture_exit_stream_partial (args : CapArgs) (env : CapEnv) (acts : List CapAct) (s : Capture)
    (hb : args.bufferSize < 2 ^ 31) (hp : Polite args env acts)
    (e : outcome args env acts = .ok s) (hx : s.exited = some 0)
    (h : Calls) (hh : h.map (·.1) = s.io) (hf : ∀ c r, (c, r) ∈ h → c.flushes = true → r.ok = true)
    (i : Nat) (hi : i < s.files.length) :
    ∃ ds : List Bytes, onDisk i h = stream (some args.contentType) ds ∧
      latest i (sessions s.log) = some (ds.map dataFrame) := by
  obtain ⟨l, hl, hd⟩ := capture_exit_partial args env acts s e hx h hh hf i hi
  obtain ⟨hinv, _⟩ := inv_of_outcome hb hp e
  obtain ⟨ds, hds, _⟩ := session_frames hinv (mem_of_latest hl)
  dsimp only at hds
  subst hds
  refine ⟨ds, ?_, hl⟩
  rw [hd]
  simp [stream, List.flatMap_def]

/-- **C96 is false in full.** The result of `fclose` is ignored: if it fails, the program ends with
status 0 and leaves an incomplete file. -/
theorem capture_exit_false : ∃ args env acts s h, args.bufferSize < 2 ^ 31 ∧ Polite args env acts ∧
    outcome args env acts = .ok s ∧ s.exited = some 0 ∧ h.map (·.1) = s.io ∧ 0 < s.files.length ∧
    ¬ ∃ ds, onDisk 0 h = stream (some args.contentType) ds := by
  obtain ⟨s, e⟩ := capture_safe_partial (easyArgs 0) easyEnv politeActs (by decide +kernel)
    politeActs_polite
  have h : (outcome (easyArgs 0) easyEnv politeActs).map
      (fun s => (s.exited, s.files.length, (onDisk 0 (withResults noClose s.io)).length)) =
      .ok (some 0, 1, 21) := by decide +kernel
  rw [e] at h
  simp only [Except.map, Except.ok.injEq, Prod.mk.injEq] at h
  refine ⟨_, _, _, s, withResults noClose s.io, by decide +kernel, politeActs_polite, e, h.1,
    withResults_calls _ _, by omega, ?_⟩
  rintro ⟨ds, hd⟩
  have h1 := h.2.2
  rw [hd, stream_length] at h1
  omega

/-- The hypotheses are met: a run with three files. -/
example : ((outcome { easyArgs 0 with calendar := true } easyEnv rotateActs).map fun s =>
      (s.exited, s.files.length, (List.range 3).map fun i => onDisk i (withResults lazy s.io))) =
    .ok (some 0, 3, [stream (some [97]) [[1]], stream (some [97]) [[2]], stream (some [97]) []]) := by
  decide +kernel

example (s : Capture) (c : StdioCall) (r : CallResult) (h : (c, r) ∈ withResults lazy s.io) :
    r.ok = true := by
  obtain ⟨c, _, h⟩ := List.mem_map.1 h
  cases h; rfl

/-! ## C97: failing writes -/

/-- **C97.** A write that is reported to fail is never passed over: the program has ended with
status 1. -/
theorem capture_write_error (args : CapArgs) (env : CapEnv) (acts : List CapAct) (s : Capture)
    (e : outcome args env acts = .ok s) (i : Nat) (bs : Bytes) (h : .fwrite i bs false ∈ s.io) :
    s.exited = some 1 := by
  rcases life_of_outcome e with h0 | ⟨_, _, h0⟩ | ⟨_, s1, hs, rfl⟩
  · exact h0
  · exact absurd h (h0.core.nofail i bs)
  · exact absurd (by simpa [Capture.exit, Capture.call] using h) (hs.core.nofail i bs)

/-- The hypothesis is met: the second write of a run fails. -/
example : (outcome (easyArgs 0) { easyEnv with writeOk := fun k => k != 1 } politeActs).map
      (fun s => (s.exited, s.io.contains (.fwrite 0 (dataFrame [1, 2, 3]) false))) =
    .ok (some 1, true) := by decide +kernel

end Fstrm.Props
