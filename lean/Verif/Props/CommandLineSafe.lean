import Verif.Lemmas.ArgvSafe
import Verif.Props.CaptureMain
import Verif.Props.CommandLineAny

/-!
# Memory errors while command lines are read (C92), and `-u` together with `-a` (C93)
-/

set_option autoImplicit false

namespace Fstrm.Props

open Fstrm
open Fstrm.Spec (Manual Setting CaptureOption ReplayOption captureManual replayManual given captureMeaning
  replayMeaning ReplayComplete Names)

/-- The letters of the options of fstrm_capture that take a value. -/
def captureLetters : List UInt8 := asc ['t', 'u', 'a', 'p', 'b', 'c', 'w', 's']

/-- The letters of the options of fstrm_replay that take a value, and the byte 251, which argv.c takes
for an option (it marks alternatives in the array of options). -/
def replayLetters : List UInt8 := asc ['t', 'u', 'a', 'p', 'r'] ++ [251]

/-- A modest argument: if it consists of letters behind a single `-`, then at most one of them is
an option that takes a value; it does not start with `--a` (as `--argv-file` does); nowhere in it
are there more than nine decimal digits in a row. -/
structure Modest (letters : List UInt8) (a : Bytes) : Prop where
  letters : ∀ s, a = 45 :: s → s.head? ≠ some 45 → 61 ∉ s → s.countP (fun ch => letters.contains ch) ≤ 1
  noFile : ¬ asc ['-', '-', 'a'] <+: a
  numbers : ∀ d, d <:+: a → (∀ ch ∈ d, 48 ≤ ch ∧ ch ≤ 57) → d.length ≤ 9

theorem Modest.simple {letters : List UInt8} {g : Grid}
    (hl : ∀ ch : UInt8, takesValue g ch = letters.contains ch) {a : Bytes} (h : Modest letters a) : SimpleArg g a where
  letters h1 h2 h3 := by
    cases a with
    | nil => cases h1
    | cons x s =>
      simp only [List.head?_cons, Option.some.injEq] at h1
      subst h1
      rw [List.tail_cons, show takesValue g = (fun ch => letters.contains ch) from funext hl]
      refine h.letters s rfl ?_ (fun hm => h3 (by simp [hm]))
      intro h4
      cases s with
      | nil => cases h4
      | cons y s => simp only [List.head?_cons, Option.some.injEq] at h4; subst h4; exact h2 ⟨s, rfl⟩
  noFile := by
    have : asc ['-', '-', 'a'] = [45, 45, 97] := by decide
    rw [← this]
    exact h.noFile
  numbers := h.numbers

theorem fine_not_stuck {α : Type} {x : Cmd α} {Q : α → Prop} (h : Cmd.Fine x Q) (s : Stuck) :
    x ≠ .error (.stuck s) := by
  rintro rfl
  exact h

/-- **C92, in part.** fstrm_capture reads modest arguments, of a total length below 2^30, without
undefined behaviour (and without looping): it accepts them or exits. Missing: the other
arguments, see `capture_ttt`, `capture_file`, `capture_null`, `capture_number`, `no_arguments`. -/
theorem capture_arguments_partial (fuel : Nat) (os : ArgvOs) (henv : NoArgvEnv os) (program : Bytes)
    (args : List Bytes) (h : ∀ a ∈ args, Modest captureLetters a)
    (hlen : (args.map fun a => a.length + 1).sum < 1073741824) (s : Stuck) :
    captureOptions (fuel + 1) os (program :: args) ≠ .error (.stuck s) := by
  have hfine := argvProcess_fine (g := captureGrid) rfl (fun _ => rfl) (fun _ => rfl) fuel os program args henv.1
    (henv.env _) (fun a ha => (h a ha).simple (forall_u8 (by decide +kernel))) hlen (by
      intro i
      simp only [ArgEntry.zero]
      split <;> (try split) <;> (show (0 : Int) ≤ _; omega))
  unfold captureOptions
  refine fine_not_stuck (Q := fun _ => True) (Cmd.Fine.bind hfine ?_) s
  intro _ _
  trivial

/-- **C92, in part.** Likewise fstrm_replay. Missing: the other arguments, see `replay_ttt`; and
memory behind the array of options is read whenever `-r` is given (`replay_past_end`). -/
theorem replay_arguments_partial (fuel : Nat) (os : ArgvOs) (henv : NoArgvEnv os) (program : Bytes)
    (args : List Bytes) (h : ∀ a ∈ args, Modest replayLetters a)
    (hlen : (args.map fun a => a.length + 1).sum < 1073741824) (s : Stuck) :
    replayOptions (fuel + 1) os (program :: args) ≠ .error (.stuck s) := by
  have hfine := argvProcess_fine (g := replayGrid) rfl (fun _ => rfl) (fun _ => rfl) fuel os program args henv.1
    (henv.env _) (fun a ha => (h a ha).simple (forall_u8 (by decide +kernel))) hlen (by
      intro i
      simp only [ArgEntry.zero]
      split <;> (try split) <;> (show (0 : Int) ≤ _; omega))
  unfold replayOptions
  refine fine_not_stuck (Q := fun _ => True) (Cmd.Fine.bind hfine ?_) s
  intro _ _
  trivial

/-- Modest arguments: `-dt`, `x`, `--unix=/12`, `-a` and `1.2.3.4`. -/
example : ∀ a ∈ [txt ['-', 'd', 't'], txt ['x'], txt ['-', '-', 'u', 'n', 'i', 'x', '=', '/', '1', '2'], txt ['-', 'a'],
    txt ['1', '.', '2', '.', '3', '.', '4']], Modest captureLetters a := by
  have hnum : ∀ a : Bytes, a.length ≤ 10 → a.head?.all (fun ch => ch < 48 || 57 < ch) = true →
      ∀ d, d <:+: a → (∀ ch ∈ d, 48 ≤ ch ∧ ch ≤ 57) → d.length ≤ 9 := by
    intro a hlen hhd d hd hall
    apply Nat.le_of_lt_succ
    refine Nat.lt_of_le_of_ne (Nat.le_trans hd.length_le hlen) ?_
    intro h10
    have heq := hd.eq_of_length (by have := hd.length_le; omega)
    subst heq
    cases d with
    | nil => cases h10
    | cons ch d =>
      have h1 := hall ch (by simp)
      simp only [List.head?_cons, Option.all_some, Bool.or_eq_true, decide_eq_true_eq] at hhd
      rcases hhd with hhd | hhd
      · exact absurd h1.1 (UInt8.not_le.2 hhd)
      · exact absurd h1.2 (UInt8.not_le.2 hhd)
  intro a ha
  simp only [List.mem_cons, List.not_mem_nil, or_false] at ha
  rcases ha with rfl | rfl | rfl | rfl | rfl
  · refine ⟨?_, by decide, hnum _ (by decide) (by decide)⟩
    intro s hs; cases hs; intro _ _; decide
  · refine ⟨?_, by decide, hnum _ (by decide) (by decide)⟩
    intro s hs; cases hs
  · refine ⟨?_, by decide, hnum _ (by decide) (by decide)⟩
    intro s hs; cases hs; intro h; exact absurd (by decide) h
  · refine ⟨?_, by decide, hnum _ (by decide) (by decide)⟩
    intro s hs; cases hs; intro _ _; decide
  · refine ⟨?_, by decide, ?_⟩
    · intro s hs; cases hs
    · intro d hd _
      exact Nat.le_trans hd.length_le (by decide)

/-! ## What is not true -/

/-- **C92 does not hold in full**: `fstrm_capture -ttt` writes behind the end of an allocated array. -/
theorem capture_ttt : captureOptions 1 plainOs [txt ['c'], txt ['-', 't', 't', 't']] =
    .error (.stuck (.ub "write behind queue_list")) := by decide +kernel

/-- So does `fstrm_replay -ttt`. -/
theorem replay_ttt : replayOptions 1 plainOs [txt ['c'], txt ['-', 't', 't', 't']] =
    .error (.stuck (.ub "write behind queue_list")) := by decide +kernel

/-- Files: one with the lines `-t`, `x`, `-u`, `s`, `-w` and `y`. -/
def fileOs : ArgvOs where
  getenv _ := none
  files _ := some (txt ['-', 't', '\n', 'x', '\n', '-', 'u', '\n', 's', '\n', '-', 'w', '\n', 'y', '\n'])
  stdin := []

/-- So does `fstrm_capture --argv-file=f`, if there are more options in the file `f` than arguments on the
command line. -/
theorem capture_file : captureOptions 2 fileOs [txt ['c'], txt ['-', '-', 'a', 'r', 'g', 'v', '-', 'f', 'i', 'l', 'e', '=', 'f']] =
    .error (.stuck (.ub "write behind queue_list")) := by decide +kernel

/-- `fstrm_capture --argv-file -5` dereferences NULL. -/
theorem capture_null : captureOptions 1 plainOs [txt ['c'], txt ['-', '-', 'a', 'r', 'g', 'v', '-', 'f', 'i', 'l', 'e'],
    txt ['-', '5']] = .error (.stuck (.ub "NULL dereference")) := by decide +kernel

/-- `fstrm_capture -b 3000000000` calls `atoi` with a number that is too large for it, which the C standard
leaves undefined. -/
theorem capture_number : captureOptions 1 plainOs [txt ['c'], txt ['-', 'b'],
    txt ['3', '0', '0', '0', '0', '0', '0', '0', '0', '0']] = .error (.stuck (.ub "atoi out of range")) := by
  decide +kernel

/-- A program that is executed without any arguments, not even its name, dereferences NULL. -/
theorem no_arguments (fuel : Nat) (os : ArgvOs) :
    captureOptions fuel os [] = .error (.stuck (.ub "NULL dereference")) ∧
      replayOptions fuel os [] = .error (.stuck (.ub "NULL dereference")) := ⟨rfl, rfl⟩

theorem checkOr_past_replay (used : Nat → Bool) (i : Nat) (hi : i < 7) :
    (checkOr replayGrid used i).2 = (i == 6) := by
  match i, hi with
  | 0, _ => rfl
  | 1, _ => rfl
  | 2, _ => cases h : used 4 <;> simp [checkOr, checkOrBelow, checkOrAbove, replayGrid, Grid.at, ArgEntry.isOr, ARGV_OR, ARGV_XOR, ARGV_LAST, h]
  | 3, _ => rfl
  | 4, _ => cases h : used 2 <;> simp [checkOr, checkOrBelow, checkOrAbove, replayGrid, Grid.at, ArgEntry.isOr, ARGV_OR, ARGV_XOR, ARGV_LAST, h]
  | 5, _ => rfl
  | 6, _ => rfl

theorem checkOr_past_capture (used : Nat → Bool) (i : Nat) (hi : i < 12) :
    (checkOr captureGrid used i).2 = (i == 11) := by
  match i, hi with
  | 0, _ | 1, _ | 2, _ | 3, _ | 4, _ | 5, _ | 6, _ | 7, _ | 8, _ | 9, _ | 10, _ | 11, _ => rfl

theorem store_past {st st' : ArgvSt} {g : Grid} {i : Nat} {arg : Option Bytes}
    (h : st.store g i arg = .ok st') : st'.used = st.used ∧ st'.pastEnd = st.pastEnd := by
  unfold ArgvSt.store at h
  obtain ⟨x, _, h⟩ := Cmd.bind_eq_ok.1 h
  cases x <;> (cases h; exact ⟨rfl, rfl⟩)

/-- Memory behind the array is read exactly for the last option. -/
theorem past_preserved {g : Grid} {n : Nat}
    (hc : ∀ used i, i < g.length → (checkOr g used i).2 = (i == n))
    (hm : ∀ used, g.positional used ARGV_MAND = none) (hm' : ∀ used, g.positional used ARGV_MAYBE = none)
    (set : ArgvSettings) (cap : Nat) (files : Bytes → Option Bytes) :
    Preserved ⟨g, set, cap, files⟩ (fun st => st.pastEnd = st.used n) where
  bad _ h := h
  arg i close st st' hi h e := by
    unfold ArgvCtx.doArg at e
    dsimp only at e
    generalize hst1 : (if (!set.multiAccept && (st.used i && !(g.at i).array && (g.at i).type != .incr)) = true
      then st.bad else st) = st1 at e
    have h1 : st1.pastEnd = st1.used n := by rw [← hst1]; split <;> exact h
    generalize hst2 : ({ st1 with
        used := fun j => if j = i then true else st1.used j
        ok := st1.ok && !(checkOr g (fun j => if j = i then true else st1.used j) i).1
        pastEnd := st1.pastEnd || (checkOr g (fun j => if j = i then true else st1.used j) i).2 } : ArgvSt) = st2 at e
    have h2 : st2.pastEnd = st2.used n := by
      rw [← hst2]
      simp only
      rw [hc _ _ hi, h1]
      by_cases hin : i = n
      · subst hin; simp
      · rw [if_neg (fun h => hin h.symm)]; simp [hin]
    have hs : ∀ arg, st2.store g i arg = .ok st' → st'.pastEnd = st'.used n := by
      intro arg e
      obtain ⟨e1, e2⟩ := store_past e
      rw [e1, e2]
      exact h2
    split at e
    · exact hs _ e
    · split at e
      · exact hs _ e
      · unfold ArgvSt.enqueue at e
        split at e
        · cases e; exact h2
        · cases e
  null st st' h e := by
    unfold ArgvSt.enqueue at e
    split at e
    · cases e; exact h
    · cases e
  stdin _ h := h
  file _ h _ _ := h
  value i a st st' h _ _ e := by
    obtain ⟨e1, e2⟩ := store_past e
    rw [e1, e2]
    exact h
  noMand := hm
  noMaybe := hm'

/-- **C92 does not hold in full**: whenever fstrm_replay accepts its command line, it has read
memory behind the end of its array of options. -/
theorem replay_past_end (fuel : Nat) (os : ArgvOs) (argv : List Bytes) (st : ArgvSt)
    (h : argvProcess fuel replayGrid os argv = .ok st) : st.pastEnd = true := by
  obtain ⟨hp, _, hm, _, _⟩ := argvProcess_ok (P := fun st => st.pastEnd = st.used 6) h
    (fun set cap => past_preserved (fun used i hi => checkOr_past_replay used i hi) (fun _ => rfl) (fun _ => rfl) set cap os.files)
    rfl
  rw [checkMand_replay, Bool.and_eq_true] at hm
  rw [hp]
  exact hm.2

/-- fstrm_capture does so exactly if `--gmtime` is given. -/
theorem capture_past_end (fuel : Nat) (os : ArgvOs) (argv : List Bytes) (st : ArgvSt)
    (h : argvProcess fuel captureGrid os argv = .ok st) : st.pastEnd = st.used 11 :=
  (argvProcess_ok (P := fun st => st.pastEnd = st.used 11) h
    (fun set cap => past_preserved (fun used i hi => checkOr_past_capture used i hi) (fun _ => rfl) (fun _ => rfl) set cap os.files)
    rfl).1

/-! ## `-u` together with `-a` -/

/-- `fstrm_capture -t a -u s -a h -p 7 -w b` -/
def bothArgs : List Bytes := [txt ['c'], txt ['-', 't'], txt ['a'], txt ['-', 'u'], txt ['s'], txt ['-', 'a'], txt ['h'],
  txt ['-', 'p'], txt ['7'], txt ['-', 'w'], txt ['b']]

/-- **C93 does not hold in full**: although "only one of -u or -a may be given", fstrm_capture starts with
both, and listens at the path only. -/
theorem capture_both : ∃ s, captureProgram 1 plainOs (sampleEnv none true) fineEnv bothArgs =
    .ok (.inr ([.listening (.unix (txt ['s']))], some s)) ∧ s.exited = none := by
  have ho : captureOptions 1 plainOs bothArgs = .ok ⟨false, false, false, some [97], some [115], some [104],
      some [55], some [98], 0, 0, 0⟩ := by decide +kernel
  obtain ⟨s, h, hx, _⟩ := capture_starts ⟨false, false, false, some [97], some [115], some [104],
      some [55], some [98], 0, 0, 0⟩ (sampleEnv none true) fineEnv (.unix [115]) [97]
    (by intro p hp; cases hp; decide +kernel)
    ⟨rfl, by decide, by decide, by decide, by decide, by decide, by decide, by decide⟩
    ⟨rfl, by decide +kernel, by decide +kernel⟩ rfl (by decide +kernel) ⟨rfl, rfl, rfl⟩
    ⟨fun _ => rfl, fun _ => rfl, by simp [fineEnv]⟩
  refine ⟨s, ?_, hx⟩
  unfold captureProgram
  rw [ho]
  simp only [Cmd.orExit]
  rw [h]
  rfl

/-- **C93, in part.** However it is spelled, and whatever else is given: fstrm_replay exits with status
1 and connects to nothing if both `-u` and `-a` are given, or neither. And whatever it accepts (with any
environment and files), there was exactly one. Missing: the same for fstrm_capture (`capture_both`). -/
theorem one_address_partial (fuel : Nat) (os : ArgvOs) (program : Bytes)
    (pton : Family → Bytes → Option Bytes) (disk : Bytes → Option Bytes) (script : Nat → List Io) (sock : Sock) :
    (∀ l : List (Setting ReplayOption), NoArgvEnv os → (∀ s ∈ l, replayManual.Legible (fun _ => 0) s) →
      l.length < 2147483647 → (given l .unix ≠ [] ↔ given l .tcp ≠ []) →
      replayProgram (fuel + 1) os pton disk script sock (program :: l.flatMap replayManual.written) =
        .ok (.inl 1)) ∧
    (∀ args o files, replayOptions fuel os (program :: args) = .ok (o, files) → (o.unix ≠ none ↔ o.tcp = none)) := by
  constructor
  · intro l henv hl hlen hboth
    refine (replay_command_line fuel os henv program l hl hlen pton disk script sock).2 ?_
    rintro ⟨_, _, h⟩
    by_cases hu : given l .unix = []
    · by_cases ht : given l .tcp = []
      · exact h.2 ht hu
      · exact hboth.2 ht hu
    · exact hboth.1 hu (h.1 hu)
  · intro args o files h
    rcases (replay_accepts fuel os _ o files h).1.one with ⟨h1, h2⟩ | ⟨h1, h2⟩
    · exact ⟨fun _ => h2, fun _ => h1⟩
    · exact ⟨fun h => absurd h1 h, fun h => absurd h h2⟩

/-- `fstrm_replay --read=f -t a -u s -r g --tcp=h` meets the hypotheses. -/
example : (∀ s ∈ sampleReplay ++ [⟨.tcp, .name 3, true, txt ['h']⟩], replayManual.Legible (fun _ => 0) s) ∧
    (given (sampleReplay ++ [⟨.tcp, .name 3, true, txt ['h']⟩]) .unix ≠ [] ↔
      given (sampleReplay ++ [⟨.tcp, .name 3, true, txt ['h']⟩]) .tcp ≠ []) := by
  constructor
  · intro s hs
    rcases List.mem_append.1 hs with hs | hs
    · exact sampleReplay_legible s hs
    · rw [List.mem_singleton] at hs
      subst hs
      refine ⟨(by intro h; cases h), ?_, (by intro _ h; cases h), (by intro h; cases h)⟩
      intro n h
      cases h
      refine ⟨by decide, fun o => ?_⟩
      cases o <;> decide +kernel
  · decide +kernel

/-- **C83**, from the command lines: if a running fstrm_capture and an fstrm_replay that was not
rejected have read the same content type, path, address and port from their command lines (whatever
these are), then the one connects to where the other listens. Missing: the empty path
(`empty_path_wrong`). -/
theorem command_lines_meet_partial (fuel fuel' : Nat) (os os' : ArgvOs) (e : StartEnv) (env : CapEnv)
    (disk : Bytes → Option Bytes) (script : Nat → List Io) (sock : Sock)
    (argv argv' : List Bytes) (o : CapOpts) (o' : ReplayOpts) (names : List Bytes)
    (ho : captureOptions fuel os argv = .ok o) (ho' : replayOptions fuel' os' argv' = .ok (o', names))
    (hsame : o'.contentType = o.contentType ∧ o'.unix = o.unix ∧ o'.tcp = o.tcp ∧ o'.port = o.port)
    (hhelp : o'.help = false)
    (h0 : ∀ p, o.unix = some p → (0 : UInt8) ∉ p ∧ p ≠ [])
    (hlen : ∀ ct, o.contentType = some ct → ct.length ≤ 256)
    (evs : List StartEv) (s : Capture)
    (h : captureProgram fuel os e env argv = .ok (.inr (evs, some s))) (hx : s.exited = none) :
    ∃ ct l, o.contentType = some ct ∧ (∀ l', .listening l' ∈ evs ↔ l' = l) ∧
      replayProgram fuel' os' e.pton disk script sock argv' =
        (replay fuel' ct (filesNamed disk script names) sockOps sock).map fun out => .inr (some l, out) := by
  obtain ⟨⟨ht, hone⟩, _⟩ := replay_accepts fuel' os' argv' o' names ho'
  obtain ⟨h1, h2, h3, h4⟩ := hsame
  obtain ⟨ct, hct⟩ := Option.ne_none_iff_exists'.1 ht
  unfold captureProgram at h
  rw [ho] at h
  simp only [Cmd.orExit] at h
  obtain ⟨r, hr, h⟩ := Exec.bind_eq_ok.1 h
  cases h
  obtain ⟨l, hl, hrep⟩ := capture_replay_meet_partial fuel' o e env (filesNamed disk script names) sock ct h0 (by
      rw [← h2, ← h3]
      rcases hone with ⟨_, h⟩ | ⟨h, _⟩
      · exact Or.inr h
      · exact Or.inl h) (by rw [← h1, hct]) (hlen ct (by rw [← h1, hct])) evs s hr hx
  refine ⟨ct, l, by rw [← h1, hct], hl, ?_⟩
  unfold replayProgram
  rw [ho']
  simp only [Cmd.orExit]
  have ho'' : o' = ⟨false, some ct, o.unix, o.tcp, o.port⟩ := by
    cases o'
    simp only at hhelp hct h2 h3 h4
    subst hhelp hct h2 h3 h4
    rfl
  rw [ho'']
  change Except.bind (replayMain fuel' ⟨false, some ct, o.unix, o.tcp, o.port⟩ e.pton
    (filesNamed disk script names) sock) _ = _
  rw [hrep]
  cases replay fuel' ct (filesNamed disk script names) sockOps sock <;> rfl

/-- `fstrm_capture -t a -u s -w b` and `fstrm_replay --read=f -t a -u s -r g` meet the hypotheses. -/
example : captureOptions 1 plainOs [txt ['c'], txt ['-', 't'], txt ['a'], txt ['-', 'u'], txt ['s'], txt ['-', 'w'],
      txt ['b']] = .ok ⟨false, false, false, some [97], some [115], none, none, some [98], 0, 0, 0⟩ ∧
    replayOptions 1 plainOs (txt ['r'] :: sampleReplay.flatMap replayManual.written) =
        .ok (⟨false, some [97], some [115], none, none⟩, [[102], [103]]) := ⟨by decide +kernel, by decide +kernel⟩

end Fstrm.Props
