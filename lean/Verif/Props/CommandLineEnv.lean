import Verif.Lemmas.ArgvFile

/-!
# Arguments from the environment with `GLOBAL_ARGV` set (C91)
-/

set_option autoImplicit false

namespace Fstrm.Props

open Fstrm
open Spec

/-- What `GLOBAL_ARGV` can say about the variable, with nothing else in it. -/
inductive EnvWhen where
  | none | before | after

/-- The setting. -/
def EnvWhen.text : EnvWhen → Bytes
  | .none => asc ['e', 'n', 'v', '=', 'n', 'o', 'n', 'e']
  | .before => asc ['e', 'n', 'v', '=', 'b', 'e', 'f', 'o', 'r', 'e']
  | .after => asc ['e', 'n', 'v', '=', 'a', 'f', 't', 'e', 'r']

/-- **C91**, with `GLOBAL_ARGV` set: `env=before` changes nothing; with `env=after` the words count as if they had been given
last on the command line (unless there is a `--` in it); with `env=none` they do not count (except that
there is room for more pending options, C92). -/
theorem env_arguments_global (g : Grid) (hg : g = captureGrid ∨ g = replayGrid) (fuel : Nat) (os os' : ArgvOs)
    (dir name : Bytes) (hd : dir = [] ∨ ∃ d, dir = d ++ [47]) (hn : 47 ∉ name)
    (hlen : name.length ≤ 256) (args : List Bytes) (v : Bytes) (ws : List Bytes) (when : EnvWhen)
    (hglobal : os.getenv (asc ['G', 'L', 'O', 'B', 'A', 'L', '_', 'A', 'R', 'G', 'V']) = some when.text)
    (hv : os.getenv (argvVariable name) = some v) (hw : Words v ws)
    (hos' : os' = without os (argvVariable name)) :
    match when with
    | .before => [45, 45] ∉ ws →
      argvProcess fuel g os ((dir ++ name) :: args) = argvProcess fuel g os' ((dir ++ name) :: (ws ++ args))
    | .after => [45, 45] ∉ args →
      argvProcess fuel g os ((dir ++ name) :: args) = argvProcess fuel g os' ((dir ++ name) :: (args ++ ws))
    | .none => (∃ why, argvProcess fuel g os' ((dir ++ name) :: args) = .error (.stuck why)) ∨
      argvProcess fuel g os ((dir ++ name) :: args) = argvProcess fuel g os' ((dir ++ name) :: args) := by
  have hpre : preprocessGo false false none g = true := by rcases hg with rfl | rfl <;> rfl
  have hne : argvVariable name ≠ asc ['G', 'L', 'O', 'B', 'A', 'L', '_', 'A', 'R', 'G', 'V'] := by
    intro h
    have := congrArg List.head? h
    simp [argvVariable, asc] at this
  have hglobal' : os'.getenv GLOBAL_NAME = some when.text := by
    rw [hos', without]
    simp only
    rw [if_neg (fun h => hne h.symm)]
    exact hglobal
  have hfiles : os'.files = os.files := by rw [hos']; rfl
  have hstdin : os'.stdin = os.stdin := by rw [hos']; rfl
  have hv' : os'.getenv (argvVariable name) = none := by rw [hos']; simp [without]
  rw [← envName_variable dir name hd hn hlen] at hv hv'
  have eq : ∀ (os : ArgvOs) (args : List Bytes) (env : List Bytes), os.getenv GLOBAL_NAME = some when.text →
      (match os.getenv (envName (baseName (dir ++ name))) with
        | none => []
        | some v => tokens (asc [' ', '\t']) v) = env →
      argvProcess fuel g os ((dir ++ name) :: args) =
        ((⟨g, processEnv (some when.text), args.length + 1 + env.length, os.files⟩ : ArgvCtx).doEnv fuel
          ((processEnv (some when.text)).processEnv && !(processEnv (some when.text)).envAfter) env (ArgvSt.init g os.stdin)).bind fun st =>
        ((⟨g, processEnv (some when.text), args.length + 1 + env.length, os.files⟩ : ArgvCtx).doList fuel args st).bind fun st =>
        ((⟨g, processEnv (some when.text), args.length + 1 + env.length, os.files⟩ : ArgvCtx).doEnv fuel
          ((processEnv (some when.text)).processEnv && (processEnv (some when.text)).envAfter) env st).bind fun st =>
        st.finish g := by
    intro os args env h1 h2
    subst h2
    unfold argvProcess
    rw [h1]
    simp only [hpre, Bool.not_true, Bool.false_eq_true, if_false]
    rfl
  have e1 := fun args => eq os args ws hglobal (by rw [hv]; exact tokens_words hw)
  have e2 := fun args => eq os' args [] hglobal' (by rw [hv'])
  rw [hfiles, hstdin] at e2
  cases when with
  | before =>
    intro hdash
    rw [e1, e2]
    have hset : processEnv (some EnvWhen.before.text) = {} := by decide +kernel
    rw [hset]
    simp only [ArgvCtx.doEnv, Bool.not_false, Bool.and_true, Bool.and_false, if_true, Bool.false_eq_true, if_false]
    have hcap : (ws ++ args).length + 1 + ([] : List Bytes).length = args.length + 1 + ws.length := by
      simp only [List.length_append, List.length_nil]; omega
    rw [hcap]
    cases fuel with
    | zero => rfl
    | succ n =>
      generalize (⟨g, {}, args.length + 1 + ws.length, os.files⟩ : ArgvCtx) = c
      unfold ArgvCtx.doList
      have hnil : c.loop (c.doList n) false [] (ArgvSt.init g os.stdin) = .ok (ArgvSt.init g os.stdin) := rfl
      rw [hnil]
      simp only [Except.bind]
      rw [loop_append c _ _ args hdash]
      simp only [Except.bind]
      cases c.loop (c.doList n) false ws (ArgvSt.init g os.stdin) <;> rfl
  | after =>
    intro hdash
    rw [e1, e2]
    have hset : processEnv (some EnvWhen.after.text) = { envAfter := true } := by decide +kernel
    rw [hset]
    simp only [ArgvCtx.doEnv, Bool.not_true, Bool.and_true, Bool.and_false, if_true, Bool.false_eq_true, if_false]
    have hcap : (args ++ ws).length + 1 + ([] : List Bytes).length = args.length + 1 + ws.length := by
      simp only [List.length_append, List.length_nil]; omega
    rw [hcap]
    cases fuel with
    | zero => rfl
    | succ n =>
      generalize (⟨g, { envAfter := true }, args.length + 1 + ws.length, os.files⟩ : ArgvCtx) = c
      unfold ArgvCtx.doList
      have hnil : ∀ st, c.loop (c.doList n) false [] st = .ok st := fun _ => rfl
      simp only [hnil, Except.bind]
      rw [loop_append c _ _ ws hdash]
      simp only [Except.bind]
      cases c.loop (c.doList n) false args (ArgvSt.init g os.stdin) <;> rfl
  | none =>
    simp only [e1, e2]
    have hset : processEnv (some EnvWhen.none.text) = { processEnv := false } := by decide +kernel
    rw [hset]
    simp only [ArgvCtx.doEnv, Bool.false_and, Bool.false_eq_true, if_false]
    have h : Refines ((⟨g, { processEnv := false }, args.length + 1 + ([] : List Bytes).length, os.files⟩ : ArgvCtx).doList fuel args
        (ArgvSt.init g os.stdin))
        ((⟨g, { processEnv := false }, args.length + 1 + ws.length, os.files⟩ : ArgvCtx).doList fuel args
        (ArgvSt.init g os.stdin)) := by
      have hr : Roomier (⟨g, { processEnv := false }, args.length + 1 + ([] : List Bytes).length, os.files⟩ : ArgvCtx)
          ⟨g, { processEnv := false }, args.length + 1 + ws.length, os.files⟩ := ⟨rfl, rfl, rfl, by simp⟩
      exact hr.doList fuel fuel (Nat.le_refl _) _ _
    rcases h.bind fun st => Refines.refl ((Except.ok st : Cmd ArgvSt).bind fun st => st.finish g) with ⟨why, h⟩ | h
    · exact Or.inl ⟨why, h⟩
    · exact Or.inr h.symm

/-- `ARGV_P="-u a"`, and `GLOBAL_ARGV=env=after`. -/
def afterOs : ArgvOs where
  getenv n := if n = txt ['A', 'R', 'G', 'V', '_', 'P'] then some (txt ['-', 'u', ' ', 'a'])
    else if n = GLOBAL_NAME then some EnvWhen.after.text else none
  files _ := none
  stdin := []

/-- The hypotheses are met, and it matters which value is the last one. -/
example : afterOs.getenv (asc ['G', 'L', 'O', 'B', 'A', 'L', '_', 'A', 'R', 'G', 'V']) = some EnvWhen.after.text ∧
    afterOs.getenv (argvVariable (txt ['p'])) = some (txt ['-', 'u', ' ', 'a']) ∧
    Words (txt ['-', 'u', ' ', 'a']) [txt ['-', 'u'], txt ['a']] ∧
    ((captureOptions 1 afterOs [txt ['p'], txt ['-', 'u'], txt ['b']]).map fun o => o.unix) = .ok (some (txt ['a'])) := by
  refine ⟨by decide +kernel, by decide +kernel, ?_, by decide +kernel⟩
  exact .word [] (txt ['-', 'u']) (txt [' ', 'a']) _ (by simp) (by decide)
    (by unfold blank; decide) (Or.inr ⟨32, _, Or.inl rfl, rfl⟩)
    (.word (txt [' ']) (txt ['a']) [] _ (by unfold blank; decide) (by decide) (by unfold blank; decide) (Or.inl rfl)
      (.none [] (by simp)))

end Fstrm.Props
