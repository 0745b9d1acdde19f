import Verif.Lemmas.ArgvRefuse

/-!
# Mistakes on the command lines of fstrm_capture and fstrm_replay (C108, C109)

An option that does not exist, an abbreviation of two options, a word that belongs to no option and an
option without its value keep the programs from starting. A value that should be a number and is
not is read as 0.
-/

set_option autoImplicit false

namespace Fstrm.Props

open Fstrm
open Fstrm.Spec (Manual Setting Spelling CaptureOption ReplayOption captureManual replayManual StartsWithInt
  IsDigit IsSpace)

theorem captureProgram_inr {fuel : Nat} {os : ArgvOs} {e : StartEnv} {env : CapEnv} {argv : List Bytes}
    {r : List StartEv × Option Capture} (h : captureProgram fuel os e env argv = .ok (.inr r)) :
    ∃ st, argvProcess fuel captureGrid os argv = .ok st := by
  unfold captureProgram at h
  cases hc : captureOptions fuel os argv with
  | ok o =>
    unfold captureOptions at hc
    obtain ⟨st, h1, _⟩ := Cmd.bind_eq_ok.1 hc
    exact ⟨st, h1⟩
  | error x =>
    rw [hc] at h
    cases x <;> cases h

theorem replayProgram_inr {fuel : Nat} {os : ArgvOs} {pton : Family → Bytes → Option Bytes}
    {disk : Bytes → Option Bytes} {script : Nat → List Io} {sock : Sock} {argv : List Bytes}
    {r : Option Listen × ReplayOut Sock} (h : replayProgram fuel os pton disk script sock argv = .ok (.inr r)) :
    ∃ st, argvProcess fuel replayGrid os argv = .ok st := by
  unfold replayProgram at h
  cases hc : replayOptions fuel os argv with
  | ok o =>
    unfold replayOptions at hc
    obtain ⟨st, h1, _⟩ := Cmd.bind_eq_ok.1 hc
    exact ⟨st, h1⟩
  | error x =>
    rw [hc] at h
    cases x <;> cases h

/-- **C108**, fstrm_capture, unknown and ambiguous options: whatever the environment and the files, and
whatever other arguments there are, unless `--` comes before, the program does not start. -/
theorem capture_refuses_mistakes (fuel : Nat) (os : ArgvOs) (e : StartEnv) (env : CapEnv) (program : Bytes)
    (pre post : List Bytes) (arg : Bytes) (hpre : [45, 45] ∉ pre) (h : captureManual.Mistaken arg)
    (r : List StartEv × Option Capture) :
    captureProgram fuel os e env (program :: (pre ++ arg :: post)) ≠ .ok (.inr r) := by
  intro h1
  obtain ⟨st, h1⟩ := captureProgram_inr h1
  exact argvProcess_mistaken capture_fits capture_noPlain capture_letters fuel os program pre post arg hpre h st h1

/-- **C108**, fstrm_replay, unknown and ambiguous options. -/
theorem replay_refuses_mistakes (fuel : Nat) (os : ArgvOs) (pton : Family → Bytes → Option Bytes)
    (disk : Bytes → Option Bytes) (script : Nat → List Io) (sock : Sock) (program : Bytes)
    (pre post : List Bytes) (arg : Bytes) (hpre : [45, 45] ∉ pre) (h : replayManual.Mistaken arg)
    (r : Option Listen × ReplayOut Sock) :
    replayProgram fuel os pton disk script sock (program :: (pre ++ arg :: post)) ≠ .ok (.inr r) := by
  intro h1
  obtain ⟨st, h1⟩ := replayProgram_inr h1
  exact argvProcess_mistaken replay_fits replay_noPlain replay_letters fuel os program pre post arg hpre h st h1

/-- `--buffer-size=5`, `-hxd` and `--t=x` are such mistakes. -/
example : captureManual.Mistaken (asc ['-', '-', 'b', 'u', 'f', 'f', 'e', 'r', '-', 's', 'i', 'z', 'e', '=', '5']) := by
  have := Manual.Mistaken.unknown (m := captureManual) (asc ['b', 'u', 'f', 'f', 'e', 'r', '-', 's', 'i', 'z', 'e'])
    (asc ['=', '5']) (by decide) (.inr ⟨asc ['5'], by decide⟩) (by intro o; cases o <;> decide +kernel)
    (by decide +kernel)
  exact this

example : captureManual.Mistaken (asc ['-', 'h', 'x', 'd']) := by
  have := Manual.Mistaken.letter (m := captureManual) (asc ['h']) (asc ['d']) 120 (by decide) (by decide) (by decide)
    (by decide) (by decide)
    (by
      rintro (⟨v, h1, h2⟩ | h | h | h)
      · have h3 : Spec.digitVal 120 = none := by decide
        rw [h3] at h1
        cases h1
      · exact absurd h (by decide)
      · exact absurd h (by decide)
      · exact absurd h (by decide))
    (by intro o c h; cases o <;> cases h <;> decide)
  exact this

example : replayManual.Mistaken (asc ['-', '-', 't', '=', 'x']) :=
  .ambiguous (asc ['t']) (asc ['=', 'x']) .type .tcp (by decide) (.inr ⟨asc ['x'], by decide⟩) (by decide)
    (by decide) (by decide +kernel) (by decide +kernel)

/-- **C108**, fstrm_capture, a word that belongs to no option, with anything behind it. -/
theorem capture_refuses_words (fuel : Nat) (os : ArgvOs) (henv : NoArgvEnv os) (e : StartEnv) (env : CapEnv)
    (program : Bytes) (l : List (Setting CaptureOption)) (num : Bytes → Int)
    (hl : ∀ s ∈ l, captureManual.Legible num s) (hlen : l.length < 2147483647) (word : Bytes)
    (hw : word.head? ≠ some 45 ∨ word = [45]) (post : List Bytes) (r : List StartEv × Option Capture) :
    captureProgram fuel os e env (program :: (l.flatMap captureManual.written ++ word :: post)) ≠ .ok (.inr r) := by
  intro h1
  obtain ⟨st, h1⟩ := captureProgram_inr h1
  exact argvProcess_stray capture_fits capture_noPlain rfl fuel os program l word post henv.1 (henv.env _) hl hlen hw st h1

/-- **C108**, fstrm_replay, a word that belongs to no option, with anything behind it. -/
theorem replay_refuses_words (fuel : Nat) (os : ArgvOs) (henv : NoArgvEnv os) (pton : Family → Bytes → Option Bytes)
    (disk : Bytes → Option Bytes) (script : Nat → List Io) (sock : Sock) (program : Bytes)
    (l : List (Setting ReplayOption)) (num : Bytes → Int)
    (hl : ∀ s ∈ l, replayManual.Legible num s) (hlen : l.length < 2147483647) (word : Bytes)
    (hw : word.head? ≠ some 45 ∨ word = [45]) (post : List Bytes) (r : Option Listen × ReplayOut Sock) :
    replayProgram fuel os pton disk script sock
      (program :: (l.flatMap replayManual.written ++ word :: post)) ≠ .ok (.inr r) := by
  intro h1
  obtain ⟨st, h1⟩ := replayProgram_inr h1
  exact argvProcess_stray replay_fits replay_noPlain rfl fuel os program l word post henv.1 (henv.env _) hl hlen hw st h1

/-- **C108**, fstrm_capture, anything at all behind `--`: nothing there is an option. -/
theorem capture_refuses_behind (fuel : Nat) (os : ArgvOs) (henv : NoArgvEnv os) (e : StartEnv) (env : CapEnv)
    (program : Bytes) (l : List (Setting CaptureOption)) (num : Bytes → Int)
    (hl : ∀ s ∈ l, captureManual.Legible num s) (hlen : l.length < 2147483647) (word : Bytes)
    (post : List Bytes) (r : List StartEv × Option Capture) :
    captureProgram fuel os e env (program :: (l.flatMap captureManual.written ++ [45, 45] :: word :: post)) ≠
      .ok (.inr r) := by
  intro h1
  obtain ⟨st, h1⟩ := captureProgram_inr h1
  exact argvProcess_behind capture_fits capture_noPlain rfl fuel os program l word post henv.1 (henv.env _) hl hlen st h1

/-- **C108**, fstrm_replay, anything at all behind `--`. -/
theorem replay_refuses_behind (fuel : Nat) (os : ArgvOs) (henv : NoArgvEnv os) (pton : Family → Bytes → Option Bytes)
    (disk : Bytes → Option Bytes) (script : Nat → List Io) (sock : Sock) (program : Bytes)
    (l : List (Setting ReplayOption)) (num : Bytes → Int)
    (hl : ∀ s ∈ l, replayManual.Legible num s) (hlen : l.length < 2147483647) (word : Bytes)
    (post : List Bytes) (r : Option Listen × ReplayOut Sock) :
    replayProgram fuel os pton disk script sock
      (program :: (l.flatMap replayManual.written ++ [45, 45] :: word :: post)) ≠ .ok (.inr r) := by
  intro h1
  obtain ⟨st, h1⟩ := replayProgram_inr h1
  exact argvProcess_behind replay_fits replay_noPlain rfl fuel os program l word post henv.1 (henv.env _) hl hlen st h1

/-- **C108**, fstrm_capture, an option at the end without its value: the program exits with status 1. -/
theorem capture_refuses_missing (fuel : Nat) (os : ArgvOs) (henv : NoArgvEnv os) (e : StartEnv) (env : CapEnv)
    (program : Bytes) (l : List (Setting CaptureOption)) (num : Bytes → Int)
    (hl : ∀ s ∈ l, captureManual.Legible num s) (hlen : l.length < 2147483647) (o : CaptureOption) (sp : Spelling)
    (hv : (captureManual.kind o).valued = true) (h1 : sp = .letter → captureManual.letter o ≠ none)
    (h2 : ∀ n, sp = .name n → 0 < n ∧
      ∀ o', (captureManual.nameBytes o).take n <+: captureManual.nameBytes o' → o' = o) :
    captureProgram (fuel + 1) os e env (program :: (l.flatMap captureManual.written ++ [captureManual.spell o sp])) =
      .ok (.inl 1) := by
  unfold captureProgram captureOptions
  rw [argvProcess_missing capture_fits rfl fuel os program l o sp henv.1 (henv.env _) hl hlen hv h1 h2]
  rfl

/-- **C108**, fstrm_replay, an option at the end without its value. -/
theorem replay_refuses_missing (fuel : Nat) (os : ArgvOs) (henv : NoArgvEnv os) (pton : Family → Bytes → Option Bytes)
    (disk : Bytes → Option Bytes) (script : Nat → List Io) (sock : Sock) (program : Bytes)
    (l : List (Setting ReplayOption)) (num : Bytes → Int)
    (hl : ∀ s ∈ l, replayManual.Legible num s) (hlen : l.length < 2147483647) (o : ReplayOption) (sp : Spelling)
    (hv : (replayManual.kind o).valued = true) (h1 : sp = .letter → replayManual.letter o ≠ none)
    (h2 : ∀ n, sp = .name n → 0 < n ∧
      ∀ o', (replayManual.nameBytes o).take n <+: replayManual.nameBytes o' → o' = o) :
    replayProgram (fuel + 1) os pton disk script sock
      (program :: (l.flatMap replayManual.written ++ [replayManual.spell o sp])) = .ok (.inl 1) := by
  unfold replayProgram replayOptions
  rw [argvProcess_missing replay_fits rfl fuel os program l o sp henv.1 (henv.env _) hl hlen hv h1 h2]
  rfl

/-- The theorems are about command lines that would otherwise be good: this one is. -/
example (os : ArgvOs) (henv : NoArgvEnv os) :
    (replayOptions 1 os [asc ['p'], asc ['-', 't', '=', 'x'], asc ['-', 'r'], asc ['f'], asc ['-', 'u', '=', 's']]).toOption ≠ none ∧
    replayOptions 1 os [asc ['p'], asc ['-', 't', '=', 'x'], asc ['-', 'r'], asc ['f'], asc ['-', 'u', '=', 's'], asc ['y']] =
      .error (.exit 1) := by
  have h1 := (replay_reads 0 os henv (asc ['p']) [⟨.type, .letter, true, [120]⟩, ⟨.readFile, .letter, false, [102]⟩, ⟨.unix, .letter, true, [115]⟩]
    (by
      intro s hs
      simp only [List.mem_cons, List.not_mem_nil, or_false] at hs
      rcases hs with rfl | rfl | rfl <;>
        exact ⟨by intro _; decide, (by intro n h; cases h), by intro _ _; left; decide, by intro h; cases h⟩)
    (by decide)).1 (by decide)
  have h2 := argvProcess_eq 1 replayGrid os (asc ['p']) [asc ['-', 't', '=', 'x'], asc ['-', 'r'], asc ['f'], asc ['-', 'u', '=', 's'], asc ['y']]
    rfl henv.1 [] (by rw [henv.env])
  constructor
  · intro h
    have h1 : replayOptions 1 os [asc ['p'], asc ['-', 't', '=', 'x'], asc ['-', 'r'], asc ['f'], asc ['-', 'u', '=', 's']] = _ := h1
    rw [h1] at h
    cases h
  · unfold replayOptions
    rw [h2]
    rfl

/-! ## Numbers -/

/-- The number that fstrm_capture has for one of its options with a number. -/
def numberOf (o : CapOpts) : CaptureOption → Int
  | .buffersize => o.bufferSize
  | .maxconns => o.countConnections
  | .split => o.split
  | _ => 0

/-- **C109, the part that holds**: a number of C's `int` for `-b`, `-c` or `-s` is understood as that number,
whatever settings come before. -/
theorem capture_numbers_partial (fuel : Nat) (os : ArgvOs) (henv : NoArgvEnv os) (program : Bytes)
    (l : List (Setting CaptureOption)) (num : Bytes → Int) (hl : ∀ s ∈ l, captureManual.Legible num s)
    (hlen : l.length + 1 < 2147483647) (s : Setting CaptureOption) (hk : captureManual.kind s.opt = .number)
    (hs : captureManual.Legible num s) (v : Int) (hv : StartsWithInt s.value v)
    (hr : Spec.IntRange v) :
    (captureOptions (fuel + 1) os (program :: (l ++ [s]).flatMap captureManual.written)).map (fun o => numberOf o s.opt) =
      .ok v := by
  have hnum : num s.value = v := by
    have h1 := (atoi_eq (hs.number hk).1 (hs.number hk).2).symm.trans (atoi_eq hv hr)
    cases h1
    rfl
  rw [capture_reads fuel os henv program (l ++ [s]) num (by
    intro s' h
    rcases List.mem_append.1 h with h | h
    · exact hl s' h
    · rw [List.mem_singleton.1 h]; exact hs) (by simpa using hlen)]
  simp only [Except.map]
  congr 1
  cases ho : s.opt <;> rw [ho] at hk <;> first | (cases hk; done) | skip
  all_goals
    simp [numberOf, Spec.captureMeaning, Spec.given, ho, hnum]

/-- With `-c 3 --split=60` the number of seconds is 60. -/
example (os : ArgvOs) (henv : NoArgvEnv os) (program : Bytes) :
    (captureOptions 1 os [program, asc ['-', 'c'], asc ['3'], asc ['-', '-', 's', 'p', 'l', 'i', 't', '=', '6', '0']]).map
      (fun o => numberOf o .split) = .ok 60 := by
  have digit : ∀ d ∈ ([48, 51, 54] : Bytes), IsDigit 10 d := by
    intro d hd
    simp only [List.mem_cons, List.not_mem_nil, or_false] at hd
    rcases hd with rfl | rfl | rfl
    · exact ⟨0, rfl, by omega⟩
    · exact ⟨3, rfl, by omega⟩
    · exact ⟨6, rfl, by omega⟩
  have h60 : StartsWithInt [54, 48] 60 := ⟨[], [], [54, 48], [], rfl, by simp, .inl rfl, by simp, by
    intro d hd
    exact digit d (by simp only [List.mem_cons, List.not_mem_nil, or_false] at hd ⊢; rcases hd with rfl | rfl <;> simp), by simp, rfl⟩
  have h3 : StartsWithInt [51] 3 := ⟨[], [], [51], [], rfl, by simp, .inl rfl, by simp, by
    intro d hd
    exact digit d (by simp only [List.mem_cons, List.not_mem_nil, or_false] at hd ⊢; subst hd; simp), by simp, rfl⟩
  exact capture_numbers_partial 0 os henv program [⟨.maxconns, .letter, false, [51]⟩]
    (fun s => if s = [51] then 3 else 60) (by
      intro s hs
      rw [List.mem_singleton] at hs
      subst hs
      exact ⟨by intro _; decide, (by intro n h; cases h), by intro _ _; left; decide, fun _ => ⟨h3, by unfold Spec.IntRange; decide⟩⟩)
    (by decide) ⟨.split, .name 5, true, [54, 48]⟩ rfl
    ⟨(by intro h; cases h), (by
      intro n h
      cases h
      refine ⟨by omega, ?_⟩
      intro o
      cases o <;> decide +kernel), (by intro _ h; cases h), fun _ => ⟨h60, by unfold Spec.IntRange; decide⟩⟩ 60 h60
    (by unfold Spec.IntRange; decide)

theorem atoi_word (ch : UInt8) (w : Bytes) (hd : ¬ IsDigit 10 ch) (hsp : ¬ IsSpace ch) (hplus : ch ≠ 43)
    (hminus : ch ≠ 45) : atoi (ch :: w) = .ok 0 := by
  have h1 : isSpace ch = false := by
    rw [Bool.eq_false_iff]
    exact fun h => hsp ((isSpace_iff ch).1 h)
  have h2 : digit 10 ch = none := by
    cases h : digit 10 ch with
    | none => rfl
    | some v => exact absurd ⟨v, (digit_iff (by omega) ch v).1 h⟩ hd
  unfold atoi
  rw [List.dropWhile_cons_of_neg (by rw [h1]; decide)]
  have h3 : strtoulSign (ch :: w) = (false, ch :: w) := by
    unfold strtoulSign
    split
    · rename_i h; cases h; exact absurd rfl hminus
    · rename_i h; cases h; exact absurd rfl hplus
    · rfl
  rw [h3]
  simp only [digits, h2]
  rfl

/-- **C109 does not hold in full**: `-b`, `-c` and `-s` with a word that is no number are not refused; the
program goes on as if they had not been given. -/
theorem capture_numbers_not_refused (fuel : Nat) (os : ArgvOs) (henv : NoArgvEnv os) (program : Bytes)
    (o : CaptureOption) (hk : captureManual.kind o = .number) (ch : UInt8) (w : Bytes) (hd : ¬ IsDigit 10 ch)
    (hsp : ¬ IsSpace ch) (hplus : ch ≠ 43) (hminus : ch ≠ 45) :
    captureOptions (fuel + 1) os [program, captureManual.spell o .letter ++ [61] ++ ch :: w] =
      captureOptions (fuel + 1) os [program] := by
  have h0 : captureOptions (fuel + 1) os [program] = _ :=
    capture_reads fuel os henv program [] (fun _ => 0) (by simp) (by simp)
  rw [h0]
  have hat := atoi_word ch w hd hsp hplus hminus
  have hlo : captureManual.Legible (fun _ => 0) ⟨o, .letter, true, [48]⟩ := by
    refine ⟨fun _ => ?_, (by intro n h; cases h), (by intro _ h; cases h), fun _ => ⟨?_, by unfold Spec.IntRange; omega⟩⟩
    · cases o <;> first | (cases hk; done) | (intro h; cases h)
    · exact ⟨[], [], [48], [], rfl, by simp, .inl rfl, by simp, by
        intro d hd
        rw [List.mem_singleton] at hd
        subst hd
        exact ⟨0, rfl, by omega⟩, by simp, rfl⟩
  unfold captureOptions
  rw [argvProcess_eq (fuel + 1) captureGrid os program _ rfl henv.1 [] (by rw [henv.env])]
  have h1 : ∀ cap, (⟨captureGrid, {}, cap, os.files⟩ : ArgvCtx).doList
      (fuel + 1) [] (ArgvSt.init captureGrid os.stdin) = .ok (ArgvSt.init captureGrid os.stdin) := fun _ => rfl
  rw [h1]
  simp only [Except.bind]
  unfold ArgvCtx.doList
  rw [capture_fits.option (num := fun _ => 0) rfl _ ⟨o, .letter, true, [48]⟩ hlo _ (some (ch :: w))
    (splitClose_joined rfl (capture_fits.spell_eq _ hlo)) (by rw [List.append_assoc]; exact List.prefix_append _ _), doArg_eq rfl]
  simp only [Option.isSome_some, Bool.and_true, if_true]
  cases o <;> first | (cases hk; done) | skip
  all_goals
    rw [store_some (v := .int 0) (by
      unfold stringToValue
      simp only [Grid.at, captureGrid, capPos]
      change (atoi (ch :: w)).bind _ = _
      rw [hat]
      rfl)]
    rfl

/-- `-b=many` is not refused. -/
example (os : ArgvOs) (henv : NoArgvEnv os) (program : Bytes) :
    captureOptions 1 os [program, asc ['-', 'b', '=', 'm', 'a', 'n', 'y']] = captureOptions 1 os [program] :=
  capture_numbers_not_refused 0 os henv program .buffersize rfl 109 (asc ['a', 'n', 'y'])
    (by rintro ⟨v, h, _⟩; have h3 : Spec.digitVal 109 = none := by decide
        rw [h3] at h; cases h)
    (by rintro (h | h) <;> exact absurd h (by decide)) (by decide) (by decide)

end Fstrm.Props
