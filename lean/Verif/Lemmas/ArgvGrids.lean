import Verif.Lemmas.Argv

/-! Lemmas about the options of fstrm_capture and fstrm_replay. -/

set_option autoImplicit false

namespace Fstrm

open Fstrm.Spec (IsDigit Kind Manual Setting Spelling byteOf CaptureOption ReplayOption captureManual
  replayManual given captureMeaning replayMeaning ReplayComplete)

/-- Where the options of fstrm_capture are. -/
def capPos : CaptureOption → Nat
  | .help => 0 | .debug => 1 | .type => 2 | .unix => 3 | .tcp => 4 | .port => 5 | .buffersize => 6
  | .maxconns => 7 | .write => 8 | .split => 9 | .localtime => 10 | .gmtime => 11

/-- Where the options of fstrm_replay are. -/
def repPos : ReplayOption → Nat
  | .help => 0 | .type => 1 | .unix => 2 | .tcp => 4 | .port => 5 | .readFile => 6

theorem capture_fits : Fits captureManual captureGrid capPos where
  lt o := by cases o <;> decide
  inj o o' := by cases o <;> cases o' <;> simp [capPos]
  long o := by cases o <;> rfl
  onto i hi _ := by
    have hi : i < 12 := hi
    match i, hi with
    | 0, _ => exact ⟨.help, rfl⟩
    | 1, _ => exact ⟨.debug, rfl⟩
    | 2, _ => exact ⟨.type, rfl⟩
    | 3, _ => exact ⟨.unix, rfl⟩
    | 4, _ => exact ⟨.tcp, rfl⟩
    | 5, _ => exact ⟨.port, rfl⟩
    | 6, _ => exact ⟨.buffersize, rfl⟩
    | 7, _ => exact ⟨.maxconns, rfl⟩
    | 8, _ => exact ⟨.write, rfl⟩
    | 9, _ => exact ⟨.split, rfl⟩
    | 10, _ => exact ⟨.localtime, rfl⟩
    | 11, _ => exact ⟨.gmtime, rfl⟩
  type o := by cases o <;> rfl
  array o := by cases o <;> rfl
  letter o c hc := by
    cases o <;> simp only [captureManual, Option.some.injEq, reduceCtorEq] at hc <;> subst hc <;> decide +kernel
  name o := by cases o <;> decide +kernel
  digit c hc := forall_u8 (P := fun c => 48 ≤ c ∧ c ≤ 57 → captureGrid.findIdx? (·.short == c) = none)
    (by decide +kernel) c (isDigit10 hc)

theorem replay_fits : Fits replayManual replayGrid repPos where
  lt o := by cases o <;> decide
  inj o o' := by cases o <;> cases o' <;> simp [repPos]
  long o := by cases o <;> rfl
  onto i hi hl := by
    have hi : i < 7 := hi
    match i, hi with
    | 0, _ => exact ⟨.help, rfl⟩
    | 1, _ => exact ⟨.type, rfl⟩
    | 2, _ => exact ⟨.unix, rfl⟩
    | 3, _ => exact absurd rfl hl
    | 4, _ => exact ⟨.tcp, rfl⟩
    | 5, _ => exact ⟨.port, rfl⟩
    | 6, _ => exact ⟨.readFile, rfl⟩
  type o := by cases o <;> rfl
  array o := by cases o <;> rfl
  letter o c hc := by
    cases o <;> simp only [replayManual, Option.some.injEq] at hc <;> subst hc <;> decide +kernel
  name o := by cases o <;> decide +kernel
  digit c hc := forall_u8 (P := fun c => 48 ≤ c ∧ c ≤ 57 → replayGrid.findIdx? (·.short == c) = none)
    (by decide +kernel) c (isDigit10 hc)

section fold

variable {ι : Type} {m : Manual ι} {g : Grid} {pos : ι → Nat} {num : Bytes → Int}

theorem after_vals (s : Setting ι) (st : ArgvSt) (i : Nat) :
    (st.after m num pos g s).vals i =
      if i = pos s.opt then newVal m num s (st.vals (pos s.opt)) else st.vals i := by
  unfold ArgvSt.after
  dsimp only
  split <;> rfl

theorem after_used (s : Setting ι) (st : ArgvSt) (i : Nat) :
    (st.after m num pos g s).used i = if i = pos s.opt then true else st.used i := by
  unfold ArgvSt.after
  dsimp only
  split <;> rfl

theorem after_ok (s : Setting ι) (st : ArgvSt) :
    (st.after m num pos g s).ok = (st.ok && !(checkOr g (st.after m num pos g s).used (pos s.opt)).1) := by
  unfold ArgvSt.after
  dsimp only
  split <;> rfl

/-- The state after settings. -/
abbrev ArgvSt.afterAll (m : Manual ι) (num : Bytes → Int) (pos : ι → Nat) (g : Grid) (l : List (Setting ι))
    (st : ArgvSt) : ArgvSt :=
  l.foldl (fun st s => st.after m num pos g s) st

theorem afterAll_queue' (l : List (Setting ι)) : ∀ (st : ArgvSt), st.tail = st.queue.length →
    (st.afterAll m num pos g l).tail = (st.afterAll m num pos g l).queue.length := by
  induction l with
  | nil => intro st h; exact h
  | cons s l ih =>
    intro st h
    rw [ArgvSt.afterAll, List.foldl_cons]
    exact ih _ (after_queue s st h).1

variable [DecidableEq ι]

theorem given_cons (s : Setting ι) (l : List (Setting ι)) (o : ι) :
    given (s :: l) o = if s.opt = o then s.value :: given l o else given l o := by
  unfold given
  rw [List.filter_cons]
  by_cases h : s.opt = o <;> simp [h]

theorem afterAll_used (hinj : ∀ o o', pos o = pos o' → o = o') (l : List (Setting ι)) : ∀ (st : ArgvSt) (o : ι),
    (st.afterAll m num pos g l).used (pos o) = (st.used (pos o) || decide (given l o ≠ [])) := by
  induction l with
  | nil => intro st o; simp [given]
  | cons s l ih =>
    intro st o
    rw [ArgvSt.afterAll, List.foldl_cons]
    rw [ih, after_used, given_cons]
    by_cases h : s.opt = o
    · subst h; simp
    · rw [if_neg (fun h' => h (hinj _ _ h').symm), if_neg h]

theorem afterAll_text (hinj : ∀ o o', pos o = pos o' → o = o') (o : ι) (hk : m.kind o = .text)
    (l : List (Setting ι)) : ∀ (st : ArgvSt),
    ((st.afterAll m num pos g l).vals (pos o)).toStr =
      (given l o).getLast?.or (st.vals (pos o)).toStr := by
  induction l with
  | nil => intro st; rfl
  | cons s l ih =>
    intro st
    rw [ArgvSt.afterAll, List.foldl_cons]
    rw [ih, after_vals, given_cons]
    by_cases h : s.opt = o
    · subst h
      rw [if_pos rfl, if_pos rfl]
      unfold newVal
      rw [hk]
      simp only [ArgVal.toStr]
      rw [List.getLast?_cons]
      cases (given l s.opt).getLast? <;> rfl
    · rw [if_neg (fun h' => h (hinj _ _ h').symm), if_neg h]

theorem afterAll_flag (hinj : ∀ o o', pos o = pos o' → o = o') (o : ι) (hk : m.kind o = .flag)
    (l : List (Setting ι)) : ∀ (st : ArgvSt),
    ((st.afterAll m num pos g l).vals (pos o)).toBool =
      ((st.vals (pos o)).toBool || decide (given l o ≠ [])) := by
  induction l with
  | nil => intro st; simp [given]
  | cons s l ih =>
    intro st
    rw [ArgvSt.afterAll, List.foldl_cons]
    rw [ih, after_vals, given_cons]
    by_cases h : s.opt = o
    · subst h
      rw [if_pos rfl, if_pos rfl]
      unfold newVal
      rw [hk]
      simp [ArgVal.toBool]
    · rw [if_neg (fun h' => h (hinj _ _ h').symm), if_neg h]

theorem afterAll_number (hinj : ∀ o o', pos o = pos o' → o = o') (o : ι) (hk : m.kind o = .number)
    (l : List (Setting ι)) : ∀ (st : ArgvSt),
    ((st.afterAll m num pos g l).vals (pos o)).toInt =
      ((given l o).getLast?.map num).getD (st.vals (pos o)).toInt := by
  induction l with
  | nil => intro st; rfl
  | cons s l ih =>
    intro st
    rw [ArgvSt.afterAll, List.foldl_cons]
    rw [ih, after_vals, given_cons]
    by_cases h : s.opt = o
    · subst h
      rw [if_pos rfl, if_pos rfl]
      unfold newVal
      rw [hk]
      simp only [ArgVal.toInt]
      rw [List.getLast?_cons]
      cases (given l s.opt).getLast? <;> rfl
    · rw [if_neg (fun h' => h (hinj _ _ h').symm), if_neg h]

theorem afterAll_texts (hinj : ∀ o o', pos o = pos o' → o = o') (o : ι) (hk : m.kind o = .texts)
    (l : List (Setting ι)) : ∀ (st : ArgvSt),
    ((st.afterAll m num pos g l).vals (pos o)).toArr = (st.vals (pos o)).toArr ++ given l o := by
  induction l with
  | nil => intro st; simp [given]
  | cons s l ih =>
    intro st
    rw [ArgvSt.afterAll, List.foldl_cons]
    rw [ih, after_vals, given_cons]
    by_cases h : s.opt = o
    · subst h
      rw [if_pos rfl, if_pos rfl]
      unfold newVal
      rw [hk]
      simp [ArgVal.toArr]
    · rw [if_neg (fun h' => h (hinj _ _ h').symm), if_neg h]

end fold

theorem capture_noOr (i : Nat) : (captureGrid.at i).isOr = false := by
  by_cases h : i < 12
  · match i, h with
    | 0, _ | 1, _ | 2, _ | 3, _ | 4, _ | 5, _ | 6, _ | 7, _ | 8, _ | 9, _ | 10, _ | 11, _ => rfl
  · have : captureGrid.at i = ⟨ARGV_LAST, none, .none, false, false⟩ := by
      unfold Grid.at
      rw [List.getD_eq_getElem?_getD, List.getElem?_eq_none (by simpa [captureGrid] using h)]
      rfl
    rw [this]
    rfl

theorem checkOr_none {g : Grid} (h : ∀ i, (g.at i).isOr = false) (used : Nat → Bool) (i : Nat) :
    (checkOr g used i).1 = false := by
  have h1 : checkOrBelow g used i = false := by
    match i with
    | 0 => rfl
    | 1 => rfl
    | i + 2 => simp [checkOrBelow, h]
  have h2 : ∀ n i, (checkOrAbove g used n i).1 = false := by
    intro n i
    cases n with
    | zero => rfl
    | succ n =>
      unfold checkOrAbove
      repeat' split
      all_goals first | rfl | (rename_i h3 _; rw [h] at h3; simp at h3) | skip
      all_goals simp_all
  unfold checkOr
  rw [h1]
  exact h2 _ _

theorem checkOr_replay (used : Nat → Bool) (i : Nat) (hi : i < 7) :
    (checkOr replayGrid used i).1 = ((i == 2 && used 4) || (i == 4 && used 2)) := by
  match i, hi with
  | 0, _ => rfl
  | 1, _ => rfl
  | 2, _ => cases h : used 4 <;> simp [checkOr, checkOrBelow, checkOrAbove, replayGrid, Grid.at, ArgEntry.isOr, ARGV_OR, ARGV_XOR, ARGV_LAST, h]
  | 3, _ => rfl
  | 4, _ => cases h : used 2 <;> simp [checkOr, checkOrBelow, checkOrAbove, replayGrid, Grid.at, ArgEntry.isOr, ARGV_OR, ARGV_XOR, ARGV_LAST, h]
  | 5, _ => rfl
  | 6, _ => rfl

theorem checkMand_capture (used : Nat → Bool) : checkMand captureGrid used = true := rfl

theorem checkXor_capture (used : Nat → Bool) : checkXor captureGrid used = true := rfl

theorem checkMand_replay (used : Nat → Bool) : checkMand replayGrid used = (used 1 && used 6) := by
  have : checkMand replayGrid used = (used 1 && (used 6 && true)) := rfl
  rw [this, Bool.and_true]

theorem checkXor_replay (used : Nat → Bool) : checkXor replayGrid used = (used 2 || used 4) := by
  have : checkXor replayGrid used =
    (if (used 2 || used 4) = true then checkXorGo (.outer (used 5)) [(114, used 6)] else false) := rfl
  rw [this]
  cases used 2 || used 4 <;> rfl

theorem argvProcess_eq (fuel : Nat) (g : Grid) (os : ArgvOs) (program : Bytes) (args : List Bytes)
    (hpre : preprocessGo false false none g = true)
    (hg : os.getenv GLOBAL_NAME = none) (env : List Bytes)
    (he : env = match os.getenv (envName (baseName program)) with
      | none => []
      | some v => tokens (asc [' ', '\t']) v) :
    argvProcess fuel g os (program :: args) =
      ((⟨g, {}, args.length + 1 + env.length, os.files⟩ : ArgvCtx).doList fuel env
        (ArgvSt.init g os.stdin)).bind fun st =>
      ((⟨g, {}, args.length + 1 + env.length, os.files⟩ : ArgvCtx).doList fuel args st).bind fun st =>
        st.finish g := by
  subst he
  unfold argvProcess
  rw [hg]
  simp only [hpre, Bool.not_true, Bool.false_eq_true, if_false, processEnv, Bool.not_false, Bool.and_self,
    Bool.and_false]
  rfl

/-- Whether all is well after settings that leave no option without value. -/
theorem argvProcess_settings {ι : Type} {m : Manual ι} {g : Grid} {pos : ι → Nat} {num : Bytes → Int}
    (hf : Fits m g pos) (hpre : preprocessGo false false none g = true)
    (fuel : Nat) (os : ArgvOs) (program : Bytes) (l : List (Setting ι))
    (hg : os.getenv GLOBAL_NAME = none) (he : os.getenv (envName (baseName program)) = none)
    (hl : ∀ s ∈ l, m.Legible num s) (hlen : l.length < 2147483647) :
    argvProcess (fuel + 1) g os (program :: l.flatMap m.written) =
      if (((ArgvSt.init g os.stdin).afterAll m num pos g l).ok &&
        checkMand g ((ArgvSt.init g os.stdin).afterAll m num pos g l).used &&
        checkXor g ((ArgvSt.init g os.stdin).afterAll m num pos g l).used) = true
      then .ok ((ArgvSt.init g os.stdin).afterAll m num pos g l)
      else .error (.exit 1) := by
  rw [argvProcess_eq (fuel + 1) g os program _ hpre hg [] (by rw [he])]
  simp only [List.length_nil, Nat.add_zero]
  have h1 : (⟨g, {}, (l.flatMap m.written).length + 1, os.files⟩ : ArgvCtx).doList (fuel + 1) []
      (ArgvSt.init g os.stdin) = .ok (ArgvSt.init g os.stdin) := rfl
  rw [h1]
  simp only [Except.bind]
  unfold ArgvCtx.doList
  rw [hf.loop (num := num) rfl rfl _ l 0 (ArgvSt.init g os.stdin) hl rfl (by simp [ArgvSt.init]) _ (by omega)]
  · simp only
    unfold ArgvSt.finish
    rw [← afterAll_queue' (m := m) (num := num) (pos := pos) (g := g) l (ArgvSt.init g os.stdin) rfl]
    simp only [Nat.le_refl, decide_true, Bool.and_true]
  · intro o _
    simp only [ArgvSt.init, ArgEntry.zero]
    split <;> first | (simp [ArgVal.toInt]; done) | (split <;> simp [ArgVal.toInt])

end Fstrm
