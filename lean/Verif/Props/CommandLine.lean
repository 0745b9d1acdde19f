import Verif.Lemmas.ArgvGrids
import Verif.Props.ReplayMain

/-!
# The command lines of fstrm_capture and fstrm_replay (C89)
-/

set_option autoImplicit false

namespace Fstrm.Props

open Fstrm
open Fstrm.Spec (Manual Setting CaptureOption ReplayOption captureManual replayManual given captureMeaning
  replayMeaning ReplayComplete Names)

/-- No environment variable adds arguments or changes how they are read: there is none named
`GLOBAL_ARGV` or `ARGV_…`. -/
def NoArgvEnv (os : ArgvOs) : Prop :=
  os.getenv (asc ['G', 'L', 'O', 'B', 'A', 'L', '_', 'A', 'R', 'G', 'V']) = none ∧
    ∀ name, os.getenv (asc ['A', 'R', 'G', 'V', '_'] ++ name) = none

theorem NoArgvEnv.env {os : ArgvOs} (h : NoArgvEnv os) (program : Bytes) :
    os.getenv (envName program) = none := by
  have : ∃ name, envName program = asc ['A', 'R', 'G', 'V', '_'] ++ name := by
    unfold envName
    rw [List.map_append]
    exact ⟨_, rfl⟩
  obtain ⟨name, h1⟩ := this
  rw [h1]
  exact h.2 name

/-- **C89**, fstrm_capture: every list of options, each spelled by its letter or by its name or an
unambiguous abbreviation of it, with its value joined by `=` or as the next argument, is read as what
it means. -/
theorem capture_reads (fuel : Nat) (os : ArgvOs) (henv : NoArgvEnv os) (program : Bytes)
    (l : List (Setting CaptureOption)) (num : Bytes → Int) (hl : ∀ s ∈ l, captureManual.Legible num s)
    (hlen : l.length < 2147483647) :
    captureOptions (fuel + 1) os (program :: l.flatMap captureManual.written) =
      .ok (captureMeaning num l) := by
  unfold captureOptions
  rw [argvProcess_settings capture_fits rfl fuel os program l henv.1 (henv.env _) hl hlen]
  have hok : ∀ (l : List (Setting CaptureOption)) (st : ArgvSt),
      (st.afterAll captureManual num capPos captureGrid l).ok = st.ok := by
    intro l
    induction l with
    | nil => intro st; rfl
    | cons s l ih =>
      intro st
      rw [ArgvSt.afterAll, List.foldl_cons]
      rw [ih, after_ok, checkOr_none capture_noOr]
      simp
  rw [hok, checkMand_capture, checkXor_capture, if_pos (by rfl)]
  have hinj := capture_fits.inj
  have text : ∀ o, captureManual.kind o = .text → ((ArgvSt.init captureGrid os.stdin).vals (capPos o)).toStr = none →
      (((ArgvSt.init captureGrid os.stdin).afterAll captureManual num capPos captureGrid l).vals (capPos o)).toStr =
        (given l o).getLast? := by
    intro o hk h0
    rw [afterAll_text hinj o hk, h0, Option.or_none]
  have number : ∀ o, captureManual.kind o = .number → ((ArgvSt.init captureGrid os.stdin).vals (capPos o)).toInt = 0 →
      (((ArgvSt.init captureGrid os.stdin).afterAll captureManual num capPos captureGrid l).vals (capPos o)).toInt =
        ((given l o).getLast?.map num).getD 0 := by
    intro o hk h0
    rw [afterAll_number hinj o hk, h0]
  have flag : ∀ o, captureManual.kind o = .flag → ((ArgvSt.init captureGrid os.stdin).vals (capPos o)).toBool = false →
      (((ArgvSt.init captureGrid os.stdin).afterAll captureManual num capPos captureGrid l).vals (capPos o)).toBool =
        decide (given l o ≠ []) := by
    intro o hk h0
    rw [afterAll_flag hinj o hk, h0, Bool.false_or]
  change Except.ok _ = _
  congr 1
  unfold ArgvSt.capOpts captureMeaning
  congr 1
  · exact flag .help rfl rfl
  · exact flag .localtime rfl rfl
  · exact flag .gmtime rfl rfl
  · exact text .type rfl rfl
  · exact text .unix rfl rfl
  · exact text .tcp rfl rfl
  · exact text .port rfl rfl
  · exact text .write rfl rfl
  · exact number .split rfl rfl
  · exact number .buffersize rfl rfl
  · exact number .maxconns rfl rfl

/-- The state of fstrm_replay after settings. -/
theorem replay_ok (os : ArgvOs) (l : List (Setting ReplayOption)) (num : Bytes → Int) :
    ((ArgvSt.init replayGrid os.stdin).afterAll replayManual num repPos replayGrid l).ok =
      !(decide (given l .unix ≠ []) && decide (given l .tcp ≠ [])) := by
  have key : ∀ (l : List (Setting ReplayOption)) (st : ArgvSt), st.ok = !(st.used 2 && st.used 4) →
      (st.afterAll replayManual num repPos replayGrid l).ok =
        !((st.afterAll replayManual num repPos replayGrid l).used 2 &&
          (st.afterAll replayManual num repPos replayGrid l).used 4) := by
    intro l
    induction l with
    | nil => intro st h; exact h
    | cons s l ih =>
      intro st h
      rw [ArgvSt.afterAll, List.foldl_cons]
      refine ih _ ?_
      rw [after_ok, checkOr_replay _ _ (replay_fits.lt s.opt), h]
      simp only [after_used]
      cases s.opt <;> simp only [repPos] <;> cases st.used 2 <;> cases st.used 4 <;> rfl
  rw [key l _ rfl]
  have h2 := afterAll_used (m := replayManual) (num := num) (g := replayGrid) replay_fits.inj l
    (ArgvSt.init replayGrid os.stdin) .unix
  have h4 := afterAll_used (m := replayManual) (num := num) (g := replayGrid) replay_fits.inj l
    (ArgvSt.init replayGrid os.stdin) .tcp
  change _ = (false || _) at h2
  change _ = (false || _) at h4
  rw [Bool.false_or] at h2 h4
  rw [← h2, ← h4]
  rfl

/-- **C89**, fstrm_replay: likewise; but if a content type, a file or an address is missing, or both
kinds of address are given, the program exits with status 1 without doing anything else. -/
theorem replay_reads (fuel : Nat) (os : ArgvOs) (henv : NoArgvEnv os) (program : Bytes)
    (l : List (Setting ReplayOption)) (hl : ∀ s ∈ l, replayManual.Legible (fun _ => 0) s)
    (hlen : l.length < 2147483647) :
    (ReplayComplete l → replayOptions (fuel + 1) os (program :: l.flatMap replayManual.written) =
      .ok (replayMeaning l)) ∧
    (¬ ReplayComplete l → replayOptions (fuel + 1) os (program :: l.flatMap replayManual.written) =
      .error (.exit 1)) := by
  unfold replayOptions
  rw [argvProcess_settings replay_fits rfl fuel os program l henv.1 (henv.env _) hl hlen]
  have hinj := replay_fits.inj
  generalize hst : (ArgvSt.init replayGrid os.stdin).afterAll replayManual (fun _ => 0) repPos replayGrid l = st
  have used : ∀ o, st.used (repPos o) = decide (given l o ≠ []) := by
    intro o
    rw [← hst, afterAll_used hinj]
    change (false || _) = _
    rw [Bool.false_or]
  have hok : st.ok = !(decide (given l .unix ≠ []) && decide (given l .tcp ≠ [])) := by
    rw [← hst]; exact replay_ok os l _
  have hcond : (st.ok && checkMand replayGrid st.used && checkXor replayGrid st.used) =
      decide (ReplayComplete l) := by
    rw [hok, checkMand_replay, checkXor_replay]
    have e1 : st.used 1 = decide (given l .type ≠ []) := used .type
    have e2 : st.used 2 = decide (given l .unix ≠ []) := used .unix
    have e4 : st.used 4 = decide (given l .tcp ≠ []) := used .tcp
    have e6 : st.used 6 = decide (given l .readFile ≠ []) := used .readFile
    rw [e1, e2, e4, e6]
    unfold ReplayComplete
    by_cases h1 : given l .type = [] <;> by_cases h2 : given l .unix = [] <;>
      by_cases h4 : given l .tcp = [] <;> by_cases h6 : given l .readFile = [] <;> simp [h1, h2, h4, h6]
  rw [hcond]
  constructor
  · intro hc
    rw [if_pos (decide_eq_true hc)]
    have text : ∀ o, replayManual.kind o = .text → ((ArgvSt.init replayGrid os.stdin).vals (repPos o)).toStr = none →
        (st.vals (repPos o)).toStr = (given l o).getLast? := by
      intro o hk h0
      rw [← hst, afterAll_text hinj o hk, h0, Option.or_none]
    have hh : (st.vals 0).toBool = decide (given l .help ≠ []) := by
      rw [← hst]
      have := afterAll_flag (m := replayManual) (num := fun _ => 0) (g := replayGrid) hinj .help rfl l
        (ArgvSt.init replayGrid os.stdin)
      change _ = (false || _) at this
      rw [Bool.false_or] at this
      exact this
    have hr : (st.vals 6).toArr = given l .readFile := by
      rw [← hst]
      have := afterAll_texts (m := replayManual) (num := fun _ => 0) (g := replayGrid) hinj .readFile rfl l
        (ArgvSt.init replayGrid os.stdin)
      exact this
    change Except.ok _ = _
    congr 1
    unfold replayMeaning
    congr 1
    unfold ArgvSt.replayOpts
    congr 1
    · exact text .type rfl rfl
    · exact text .unix rfl rfl
    · exact text .tcp rfl rfl
    · exact text .port rfl rfl
  · intro hc
    rw [if_neg (by simpa using hc)]
    rfl

/-- **C89**, the whole of fstrm_capture: with such a command line it does what C81 says for the
options that the command line means. -/
theorem capture_command_line (fuel : Nat) (os : ArgvOs) (henv : NoArgvEnv os) (program : Bytes)
    (l : List (Setting CaptureOption)) (num : Bytes → Int) (hl : ∀ s ∈ l, captureManual.Legible num s)
    (hlen : l.length < 2147483647) (e : StartEnv) (env : CapEnv) :
    captureProgram (fuel + 1) os e env (program :: l.flatMap captureManual.written) =
      (captureMain (captureMeaning num l) e env).map .inr := by
  unfold captureProgram
  rw [capture_reads fuel os henv program l num hl hlen]
  simp only [Cmd.orExit]
  cases captureMain (captureMeaning num l) e env <;> rfl

/-- The files that fstrm_replay is to read: their names, contents and what happens when they are read. -/
def filesNamed (disk : Bytes → Option Bytes) (script : Nat → List Io) (names : List Bytes) :
    List ReplayFile :=
  names.mapIdx fun k name => ⟨if name = [45] then .dash else .file, disk name, script k⟩

/-- **C89**, the whole of fstrm_replay: with such a command line, if it is complete, it does what C83
says for the options that the command line means, with the files in the order given; otherwise it
exits with status 1 and connects to nothing. -/
theorem replay_command_line (fuel : Nat) (os : ArgvOs) (henv : NoArgvEnv os) (program : Bytes)
    (l : List (Setting ReplayOption)) (hl : ∀ s ∈ l, replayManual.Legible (fun _ => 0) s)
    (hlen : l.length < 2147483647) (pton : Family → Bytes → Option Bytes)
    (disk : Bytes → Option Bytes) (script : Nat → List Io) (sock : Sock) :
    (ReplayComplete l →
      replayProgram (fuel + 1) os pton disk script sock (program :: l.flatMap replayManual.written) =
        (replayMain (fuel + 1) (replayMeaning l).1 pton (filesNamed disk script (given l .readFile)) sock).map
          .inr) ∧
    (¬ ReplayComplete l →
      replayProgram (fuel + 1) os pton disk script sock (program :: l.flatMap replayManual.written) =
        .ok (.inl 1)) := by
  unfold replayProgram
  obtain ⟨h1, h2⟩ := replay_reads fuel os henv program l hl hlen
  constructor
  · intro hc
    rw [h1 hc]
    simp only [Cmd.orExit]
    change Except.bind (replayMain (fuel + 1) (replayMeaning l).1 pton (filesNamed disk script (given l .readFile)) sock)
      _ = _
    cases replayMain (fuel + 1) (replayMeaning l).1 pton (filesNamed disk script (given l .readFile)) sock <;> rfl
  · intro hc
    rw [h2 hc]
    rfl

/-- An operating system without any environment variables and files. -/
def plainOs : ArgvOs := ⟨fun _ => none, fun _ => none, []⟩

/-- The bytes of a text. -/
abbrev txt (l : List Char) : Bytes := asc l

/-- The settings in `fstrm_capture -t a --unix=s --wri - -s -5 -d -d --loc`. -/
def sampleSettings : List (Setting CaptureOption) := [
  ⟨.type, .letter, false, txt ['a']⟩,
  ⟨.unix, .name 4, true, txt ['s']⟩,
  ⟨.write, .name 3, false, txt ['-']⟩,
  ⟨.split, .letter, false, txt ['-', '5']⟩,
  ⟨.debug, .letter, false, []⟩,
  ⟨.debug, .letter, false, []⟩,
  ⟨.localtime, .name 3, false, []⟩]

/-- The hypotheses of `capture_reads` are met by `sampleSettings`, which is written as one expects. -/
example : (∀ s ∈ sampleSettings, captureManual.Legible (fun _ => -5) s) ∧
    sampleSettings.flatMap captureManual.written =
      [txt ['-', 't'], txt ['a'], txt ['-', '-', 'u', 'n', 'i', 'x', '=', 's'], txt ['-', '-', 'w', 'r', 'i'],
        txt ['-'], txt ['-', 's'], txt ['-', '5'], txt ['-', 'd'], txt ['-', 'd'],
        txt ['-', '-', 'l', 'o', 'c']] ∧
    captureMeaning (fun _ => -5) sampleSettings =
      ⟨false, true, false, some [97], some [115], none, none, some [45], -5, 0, 0⟩ ∧
    NoArgvEnv plainOs := by
  refine ⟨?_, by decide +kernel, by decide +kernel, rfl, fun _ => rfl⟩
  intro s hs
  simp only [sampleSettings, List.mem_cons, List.not_mem_nil, or_false] at hs
  rcases hs with rfl | rfl | rfl | rfl | rfl | rfl | rfl
  · exact ⟨by decide, (by intro n h; cases h), fun _ _ => Or.inl (by decide), (by intro h; cases h)⟩
  · refine ⟨(by intro h; cases h), ?_, (by intro _ h; cases h), (by intro h; cases h)⟩
    intro n h
    cases h
    refine ⟨by decide, fun o => ?_⟩
    cases o <;> decide +kernel
  · refine ⟨(by intro h; cases h), ?_, fun _ _ => Or.inr (Or.inl (by decide)), (by intro h; cases h)⟩
    intro n h
    cases h
    refine ⟨by decide, fun o => ?_⟩
    cases o <;> decide +kernel
  · refine ⟨by decide, (by intro n h; cases h), fun _ _ => Or.inr (Or.inr ⟨rfl, [53], by decide, by decide, ?_⟩), ?_⟩
    · intro d hd
      rw [List.mem_singleton] at hd
      subst hd
      exact ⟨5, by decide, by decide⟩
    · intro _
      refine ⟨⟨[], [45], [53], [], by decide, by simp, by simp, by simp, ?_, by simp, by decide⟩, by decide, by decide⟩
      intro d hd
      rw [List.mem_singleton] at hd
      subst hd
      exact ⟨5, by decide, by decide⟩
  · exact ⟨by decide, (by intro n h; cases h), (by intro h; cases h), (by intro h; cases h)⟩
  · exact ⟨by decide, (by intro n h; cases h), (by intro h; cases h), (by intro h; cases h)⟩
  · refine ⟨(by intro h; cases h), ?_, (by intro h; cases h), (by intro h; cases h)⟩
    intro n h
    cases h
    refine ⟨by decide, fun o => ?_⟩
    cases o <;> decide +kernel

/-- The settings in `fstrm_replay --read=f -t a -u s -r g`. -/
def sampleReplay : List (Setting ReplayOption) := [
  ⟨.readFile, .name 4, true, txt ['f']⟩,
  ⟨.type, .letter, false, txt ['a']⟩,
  ⟨.unix, .letter, false, txt ['s']⟩,
  ⟨.readFile, .letter, false, txt ['g']⟩]

theorem sampleReplay_legible : ∀ s ∈ sampleReplay, replayManual.Legible (fun _ => 0) s := by
  intro s hs
  simp only [sampleReplay, List.mem_cons, List.not_mem_nil, or_false] at hs
  rcases hs with rfl | rfl | rfl | rfl
  · refine ⟨(by intro h; cases h), ?_, (by intro _ h; cases h), (by intro h; cases h)⟩
    intro n h
    cases h
    refine ⟨by decide, fun o => ?_⟩
    cases o <;> decide +kernel
  all_goals exact ⟨by decide, (by intro n h; cases h), fun _ _ => Or.inl (by decide), (by intro h; cases h)⟩

/-- The hypotheses of `replay_reads` are met by `sampleReplay`, which is complete; without its second
setting it is not. -/
example : (∀ s ∈ sampleReplay, replayManual.Legible (fun _ => 0) s) ∧ ReplayComplete sampleReplay ∧
    ¬ ReplayComplete (sampleReplay.eraseIdx 1) ∧
    sampleReplay.flatMap replayManual.written =
      [txt ['-', '-', 'r', 'e', 'a', 'd', '=', 'f'], txt ['-', 't'], txt ['a'], txt ['-', 'u'], txt ['s'],
        txt ['-', 'r'], txt ['g']] ∧
    replayMeaning sampleReplay = (⟨false, some [97], some [115], none, none⟩, [[102], [103]]) :=
  ⟨sampleReplay_legible, by unfold ReplayComplete; decide +kernel, by unfold ReplayComplete; decide +kernel,
    by decide +kernel, by decide +kernel⟩

end Fstrm.Props
