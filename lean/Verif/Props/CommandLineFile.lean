import Verif.Lemmas.ArgvFile
import Verif.Props.CommandLineRefuse

/-!
# Argument files of fstrm_capture and fstrm_replay (C110)

`--argv-file=path` stands for the lines of the file, each of them an argument, except that longer lines
than 1023 bytes are broken up.
-/

set_option autoImplicit false

namespace Fstrm.Props

open Fstrm
open Fstrm.Spec (ArgLines)

/-- Undefined behaviour, or files that name each other without end. -/
def Undefined {α : Type} (x : Cmd α) : Prop := ∃ s, x = .error (.stuck s)

/-- `--argv-file=path`. -/
def argvFile (path : Bytes) : Bytes :=
  asc ['-', '-', 'a', 'r', 'g', 'v', '-', 'f', 'i', 'l', 'e', '='] ++ path

theorem one_file {c : ArgvCtx} (hc : c.set.close = true) (hg : c.grid.matchLong FILE_ARG = [])
    (nested : List Bytes → ArgvSt → Cmd ArgvSt) (path content : Bytes) (ls : List Bytes) (hp : path ≠ [45])
    (hf : c.files path = some content) (hl : ArgLines content ls) (st : ArgvSt) :
    c.one nested false (argvFile path) st = nested ls st := by
  unfold ArgvCtx.one
  rw [if_pos (by simp [argvFile, asc, List.isPrefixOf])]
  unfold ArgvCtx.doLong
  have h1 : argvFile path = ([45, 45] ++ FILE_ARG) ++ [61] ++ path := rfl
  rw [h1, splitClose_joined hc (by decide)]
  dsimp only
  have h2 : ([45, 45] ++ FILE_ARG).drop 2 = FILE_ARG := rfl
  rw [h2, if_neg (by decide), hg]
  dsimp only
  rw [if_pos (by decide)]
  unfold ArgvCtx.fileArgs
  rw [if_neg hp, hf]
  dsimp only
  rw [fileLines_eq hl _ (by omega)]

theorem file_refines {g : Grid} (hpre : preprocessGo false false none g = true) (hm : g.matchLong FILE_ARG = [])
    (fuel : Nat) (os : ArgvOs) (hg : os.getenv GLOBAL_NAME = none) (program : Bytes) (pre ls post : List Bytes)
    (path content : Bytes) (hp : path ≠ [45]) (hf : os.files path = some content) (hl : ArgLines content ls)
    (h1 : [45, 45] ∉ pre) (h2 : [45, 45] ∉ ls) :
    ∃ y, Refines (argvProcess fuel g os (program :: (pre ++ argvFile path :: post))) y ∧
      Refines (argvProcess fuel g os (program :: (pre ++ ls ++ post))) y ∧
      (ls ≠ [] → y = argvProcess fuel g os (program :: (pre ++ ls ++ post))) := by
  obtain ⟨env, henv⟩ : ∃ env : List Bytes, ∀ args, argvProcess fuel g os (program :: args) =
      ((⟨g, {}, args.length + 1 + env.length, os.files⟩ : ArgvCtx).doList fuel env
        (ArgvSt.init g os.stdin)).bind fun st =>
      ((⟨g, {}, args.length + 1 + env.length, os.files⟩ : ArgvCtx).doList fuel args st).bind fun st =>
        st.finish g := ⟨_, fun args => argvProcess_eq fuel g os program args hpre hg _ rfl⟩
  rw [henv, henv]
  generalize hc1 : (pre ++ argvFile path :: post).length + 1 + env.length = cap1
  generalize hc2 : (pre ++ ls ++ post).length + 1 + env.length = cap2
  refine ⟨((⟨g, {}, max cap1 cap2, os.files⟩ : ArgvCtx).doList fuel env (ArgvSt.init g os.stdin)).bind fun st =>
      ((⟨g, {}, max cap1 cap2, os.files⟩ : ArgvCtx).doList fuel (pre ++ ls ++ post) st).bind fun st =>
        st.finish g, ?_, ?_, ?_⟩
  · have r : Roomier ⟨g, {}, cap1, os.files⟩ ⟨g, {}, max cap1 cap2, os.files⟩ := ⟨rfl, rfl, rfl, Nat.le_max_left _ _⟩
    refine (r.doList fuel fuel (Nat.le_refl _) _ _).bind (fun st => Refines.bind ?_ (fun st => .refl _))
    cases fuel with
    | zero => exact .inl ⟨.fuel, by unfold ArgvCtx.doList; rfl⟩
    | succ n =>
      unfold ArgvCtx.doList
      rw [List.append_assoc, loop_append _ _ _ _ h1, loop_append _ _ _ _ h1]
      refine (r.loop (fun args st => r.doList n n (Nat.le_refl _) args st) _ _ _).bind (fun st => ?_)
      rw [loop_append _ _ _ _ h2, loop_cons, if_neg (by
        rintro ⟨h, _⟩
        have := congrArg List.length h
        simp [argvFile, asc] at this), one_file rfl hm _ path content ls hp hf hl]
      refine Refines.bind ?_ (fun st => r.loop (fun args st => r.doList n n (Nat.le_refl _) args st) _ _ _)
      exact r.doList n (n + 1) (by omega) ls st
  · have r : Roomier ⟨g, {}, cap2, os.files⟩ ⟨g, {}, max cap1 cap2, os.files⟩ := ⟨rfl, rfl, rfl, Nat.le_max_right _ _⟩
    exact (r.doList fuel fuel (Nat.le_refl _) _ _).bind (fun st =>
      (r.doList fuel fuel (Nat.le_refl _) _ _).bind (fun st => .refl _))
  · intro hne
    have : 0 < ls.length := List.length_pos_iff.2 hne
    rw [Nat.max_eq_right]
    rw [← hc1, ← hc2]
    simp only [List.length_append, List.length_cons]
    omega

theorem refines_equal {α : Type} {x x' y : Cmd α} {P : Prop} (h : Refines x y) (h' : Refines x' y) (hy : ¬ P → y = x')
    (hx : ¬ Undefined x) (hx' : P → ¬ Undefined x') : x = x' := by
  rcases h with h | h
  · exact absurd h hx
  · rcases h' with h' | h'
    · by_cases hP : P
      · exact absurd h' (hx' hP)
      · rw [h, hy hP]
    · rw [h, h']

/-- **C110, the part that holds**, fstrm_capture: the lines of an argument file (of at most 1023 bytes, without
zero bytes, none of them `--`) count as if they stood in its place, if that is defined (C92). -/
theorem capture_argv_file_partial (fuel : Nat) (os : ArgvOs)
    (hg : os.getenv (asc ['G', 'L', 'O', 'B', 'A', 'L', '_', 'A', 'R', 'G', 'V']) = none)
    (program : Bytes) (pre ls post : List Bytes) (path content : Bytes) (hp : path ≠ [45])
    (hf : os.files path = some content) (hl : ArgLines content ls) (h1 : [45, 45] ∉ pre) (h2 : [45, 45] ∉ ls)
    (hu : ¬ Undefined (captureOptions fuel os (program :: (pre ++ argvFile path :: post))))
    (hu' : ls = [] → ¬ Undefined (captureOptions fuel os (program :: (pre ++ ls ++ post)))) :
    captureOptions fuel os (program :: (pre ++ argvFile path :: post)) =
      captureOptions fuel os (program :: (pre ++ ls ++ post)) := by
  obtain ⟨y, r1, r2, r3⟩ := file_refines (g := captureGrid) rfl (by decide +kernel) fuel os hg program pre ls post path
    content hp hf hl h1 h2
  unfold captureOptions at hu hu' ⊢
  exact refines_equal (y := y.bind fun st => .ok st.capOpts) (r1.bind fun _ => .refl _) (r2.bind fun _ => .refl _)
    (fun hne => by rw [r3 hne]; rfl) hu hu'

/-- **C110, the part that holds**, fstrm_replay. -/
theorem replay_argv_file_partial (fuel : Nat) (os : ArgvOs)
    (hg : os.getenv (asc ['G', 'L', 'O', 'B', 'A', 'L', '_', 'A', 'R', 'G', 'V']) = none)
    (program : Bytes) (pre ls post : List Bytes) (path content : Bytes) (hp : path ≠ [45])
    (hf : os.files path = some content) (hl : ArgLines content ls) (h1 : [45, 45] ∉ pre) (h2 : [45, 45] ∉ ls)
    (hu : ¬ Undefined (replayOptions fuel os (program :: (pre ++ argvFile path :: post))))
    (hu' : ls = [] → ¬ Undefined (replayOptions fuel os (program :: (pre ++ ls ++ post)))) :
    replayOptions fuel os (program :: (pre ++ argvFile path :: post)) =
      replayOptions fuel os (program :: (pre ++ ls ++ post)) := by
  obtain ⟨y, r1, r2, r3⟩ := file_refines (g := replayGrid) rfl (by decide +kernel) fuel os hg program pre ls post path
    content hp hf hl h1 h2
  unfold replayOptions at hu hu' ⊢
  exact refines_equal (y := y.bind fun st => .ok (st.replayOpts, (st.vals 6).toArr)) (r1.bind fun _ => .refl _)
    (r2.bind fun _ => .refl _) (fun hne => by rw [r3 hne]; rfl) hu hu'

theorem one_noFile {c : ArgvCtx} (hc : c.set.close = true) (hg : c.grid.matchLong FILE_ARG = [])
    (nested : List Bytes → ArgvSt → Cmd ArgvSt) (path : Bytes) (hp : path ≠ [45])
    (hf : c.files path = none) (st : ArgvSt) : c.one nested false (argvFile path) st = .error (.exit 1) := by
  unfold ArgvCtx.one
  rw [if_pos (by simp [argvFile, asc, List.isPrefixOf])]
  unfold ArgvCtx.doLong
  have h1 : argvFile path = ([45, 45] ++ FILE_ARG) ++ [61] ++ path := rfl
  rw [h1, splitClose_joined hc (by decide)]
  dsimp only
  have h2 : ([45, 45] ++ FILE_ARG).drop 2 = FILE_ARG := rfl
  rw [h2, if_neg (by decide), hg]
  dsimp only
  rw [if_pos (by decide)]
  unfold ArgvCtx.fileArgs
  rw [if_neg hp, hf]

theorem noFile_stops {g : Grid} (hpre : preprocessGo false false none g = true) (hm : g.matchLong FILE_ARG = [])
    (fuel : Nat) (os : ArgvOs) (hg : os.getenv GLOBAL_NAME = none) (program : Bytes) (pre post : List Bytes)
    (path : Bytes) (hp : path ≠ [45]) (hf : os.files path = none) (h1 : [45, 45] ∉ pre) :
    (∀ st, argvProcess fuel g os (program :: (pre ++ argvFile path :: post)) ≠ .ok st) ∧
    (os.getenv (envName (baseName program)) = none →
      argvProcess (fuel + 1) g os (program :: argvFile path :: post) = .error (.exit 1)) := by
  have hne : ¬ (argvFile path = [45, 45] ∧ (!false || ({} : ArgvSettings).lastToggle) = true) := by
    rintro ⟨h, _⟩
    have := congrArg List.length h
    simp [argvFile, asc] at this
  constructor
  · intro st e
    rw [argvProcess_eq fuel g os program _ hpre hg _ rfl] at e
    obtain ⟨s1, _, e⟩ := Cmd.bind_eq_ok.1 e
    obtain ⟨s2, e2, _⟩ := Cmd.bind_eq_ok.1 e
    cases fuel with
    | zero => unfold ArgvCtx.doList at e2; cases e2
    | succ n =>
      unfold ArgvCtx.doList at e2
      rw [loop_append _ _ _ _ h1] at e2
      obtain ⟨s4, _, e2⟩ := Cmd.bind_eq_ok.1 e2
      rw [loop_cons, if_neg hne, one_noFile rfl hm _ path hp hf] at e2
      cases e2
  · intro he
    rw [argvProcess_eq (fuel + 1) g os program _ hpre hg [] (by rw [he])]
    have h0 : (⟨g, {}, (argvFile path :: post).length + 1 + ([] : List Bytes).length, os.files⟩ : ArgvCtx).doList
        (fuel + 1) [] (ArgvSt.init g os.stdin) = .ok (ArgvSt.init g os.stdin) := rfl
    rw [h0]
    simp only [Except.bind]
    unfold ArgvCtx.doList
    rw [loop_cons, if_neg hne, one_noFile rfl hm _ path hp hf]
    rfl

/-- **C110**, fstrm_capture: an argument file that cannot be opened is not passed over. Whatever else there is on
the command line, the program does not start; if the file comes first, the program exits with status 1. -/
theorem capture_argv_file_missing (fuel : Nat) (os : ArgvOs) (e : StartEnv) (env : CapEnv)
    (hg : os.getenv (asc ['G', 'L', 'O', 'B', 'A', 'L', '_', 'A', 'R', 'G', 'V']) = none)
    (program : Bytes) (pre post : List Bytes) (path : Bytes) (hp : path ≠ [45]) (hf : os.files path = none)
    (h1 : [45, 45] ∉ pre) :
    (∀ r, captureProgram fuel os e env (program :: (pre ++ argvFile path :: post)) ≠ .ok (.inr r)) ∧
    (NoArgvEnv os →
      captureProgram (fuel + 1) os e env (program :: argvFile path :: post) = .ok (.inl 1)) := by
  have h := noFile_stops (g := captureGrid) rfl (by decide +kernel) fuel os hg program pre post path hp hf h1
  constructor
  · intro r e
    obtain ⟨st, e⟩ := captureProgram_inr e
    exact h.1 st e
  · intro he
    unfold captureProgram captureOptions
    rw [h.2 (he.env _)]
    rfl

/-- **C110**, fstrm_replay: the same. -/
theorem replay_argv_file_missing (fuel : Nat) (os : ArgvOs) (pton : Family → Bytes → Option Bytes)
    (disk : Bytes → Option Bytes) (script : Nat → List Io) (sock : Sock)
    (hg : os.getenv (asc ['G', 'L', 'O', 'B', 'A', 'L', '_', 'A', 'R', 'G', 'V']) = none)
    (program : Bytes) (pre post : List Bytes) (path : Bytes) (hp : path ≠ [45]) (hf : os.files path = none)
    (h1 : [45, 45] ∉ pre) :
    (∀ r, replayProgram fuel os pton disk script sock (program :: (pre ++ argvFile path :: post)) ≠ .ok (.inr r)) ∧
    (NoArgvEnv os →
      replayProgram (fuel + 1) os pton disk script sock (program :: argvFile path :: post) = .ok (.inl 1)) := by
  have h := noFile_stops (g := replayGrid) rfl (by decide +kernel) fuel os hg program pre post path hp hf h1
  constructor
  · intro r e
    obtain ⟨st, e⟩ := replayProgram_inr e
    exact h.1 st e
  · intro he
    unfold replayProgram replayOptions
    rw [h.2 (he.env _)]
    rfl

/-- A system with one file. -/
def oneFile (path content : Bytes) : ArgvOs := ⟨fun _ => none, fun p => if p = path then some content else none, []⟩

/-- On such a system a second file cannot be opened, and nothing but the command line has arguments. -/
example : (oneFile [102] [45]).files [103] = none ∧ NoArgvEnv (oneFile [102] [45]) ∧
    captureOptions 2 (oneFile [102] (asc ['-', 'd'])) [asc ['p'], argvFile [102], argvFile [103]] =
      .error (.exit 1) := ⟨rfl, ⟨rfl, fun _ => rfl⟩, by decide +kernel⟩

/-- A file with a blank line between two arguments, and no newline at the end. -/
example :
    ArgLines (asc ['-', 't', '=', 'a', '\n', '\n', '-', 'u', '=', 's']) [asc ['-', 't', '=', 'a'], asc ['-', 'u', '=', 's']] ∧
    captureOptions 2 (oneFile [102] (asc ['-', 't', '=', 'a', '\n', '\n', '-', 'u', '=', 's']))
      [asc ['p'], argvFile [102], asc ['-', 'w', '=', 'o']] =
        .ok ⟨false, false, false, some [97], some [115], none, none, some [111], 0, 0, 0⟩ := by
  constructor
  · exact .line (asc ['-', 't', '=', 'a']) _ _ (by decide) (by decide) (by decide) (by decide) (.inr rfl)
      (.newline _ _ (.newline _ _ (.line (asc ['-', 'u', '=', 's']) [] [] (by decide) (by decide) (by decide) (by decide)
        (.inl rfl) .nil)))
  · decide +kernel

/-- **C110 does not hold in full**: a line that is longer than 1023 bytes becomes two arguments. Here the file
has the one line `--type=xx…x`, of 1027 bytes: fstrm_capture exits, though it accepts the same argument on its
command line. -/
theorem argv_file_long : ∃ (path line : Bytes), path ≠ [45] ∧ 10 ∉ line ∧ 0 ∉ line ∧
    captureOptions 2 (oneFile path (line ++ [10])) [asc ['p'], argvFile path] = .error (.exit 1) ∧
    captureOptions 2 (oneFile path (line ++ [10])) [asc ['p'], line] =
      .ok ⟨false, false, false, some (List.replicate 1020 120), none, none, none, none, 0, 0, 0⟩ := by
  refine ⟨[102], asc ['-', '-', 't', 'y', 'p', 'e', '='] ++ List.replicate 1020 120, ?_⟩
  decide +kernel

end Fstrm.Props
