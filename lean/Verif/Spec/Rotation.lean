import Verif.Model.Capture

/-!
# When `fstrm_capture` opens and closes its output files

As seen in the system calls it makes: `time`, `open`, writing a data frame, closing a file.
-/

set_option autoImplicit false

namespace Fstrm.Spec

/-- How the output file is named: standard output, a fixed path, or the result of `strftime` for the
current time. -/
inductive OutName where
  | stdout
  | file (path : Bytes)
  | calendar (name : Nat → Option Bytes)

/-- How the output file is named, by the arguments. -/
def outName (args : CapArgs) (env : CapEnv) : OutName :=
  if args.toStdout then .stdout
  else if args.calendar then .calendar env.strftime
  else .file args.path

/-- The events that concern the output. -/
def outputEvents (log : List CapEv) : List CapEv :=
  log.filter fun e => match e with
    | .accepted _ => false
    | .received _ _ => false
    | .sent _ _ => false
    | .hungup _ => false
    | _ => true

/-- `es` is what happens when an output file is opened at the time `t` and given the number `i`. -/
def Opens (m : OutName) (t i : Nat) (es : List CapEv) : Prop :=
  ∃ e, (e = .opened i ∨ e = .clobbered i) ∧
    match m with
    | .stdout => es = [e]
    | .file path => es = [.opening path, e]
    | .calendar name => ∃ n, name t = some n ∧ es = [.asked t, .opening n, e]

/-- `Rotations m split k es t i`: `es` is what happens to the output when a new file is begun
* with each of `k` signals, unless the output goes to standard output, and
* if `split` is positive, after a data frame when at least `split` seconds have passed since
  the present file was opened,
and at no other time. The present file is number `i` and was opened at the time `t`. -/
inductive Rotations (m : OutName) (split : Int) : Nat → List CapEv → Nat → Nat → Prop
  | start {t i : Nat} {es : List CapEv} : Opens m t i es → Rotations m split 0 es t i
  | frame {k t i id : Nat} {es : List CapEv} {b : Bytes} : Rotations m split k es t i →
      split ≤ 0 → Rotations m split k (es ++ [.recorded id b]) t i
  | early {k t i id now : Nat} {es : List CapEv} {b : Bytes} : Rotations m split k es t i →
      0 < split → (now : Int) < t + split →
      Rotations m split k (es ++ [.recorded id b, .asked now]) t i
  | due {k t i id now t' i' : Nat} {es es' : List CapEv} {b : Bytes} : Rotations m split k es t i →
      0 < split → (t : Int) + split ≤ now → Opens m t' i' es' →
      Rotations m split k (es ++ [.recorded id b, .asked now, .finished i] ++ es') t' i'
  | signal {k t i t' i' : Nat} {es es' : List CapEv} : Rotations m split k es t i →
      m ≠ .stdout → Opens m t' i' es' →
      Rotations m split (k + 1) (es ++ [.finished i] ++ es') t' i'
  | ignored {k t i : Nat} {es : List CapEv} : Rotations m split k es t i →
      m = .stdout → Rotations m split (k + 1) es t i

end Fstrm.Spec
