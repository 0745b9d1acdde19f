import Verif.Lemmas.Rotation

/-!
# C77: `fstrm_capture` begins a new output file exactly when it should

`Verif.Spec.Rotation` says when that is and what the file is called.
-/

set_option autoImplicit false

namespace Fstrm.Props

open Spec (CapEv CFrame OutName Opens Rotations outName outputEvents dataFrame)

theorem signals_eq (acts : List CapAct) : signals acts = acts.count .sigusr1 := by
  induction acts with
  | nil => rfl
  | cons a as ih =>
    rw [List.count_cons, ← ih]
    simp only [signals, List.map_cons, List.sum_cons, isUsr1, beq_iff_eq]
    omega

/-- **C77.** While the program runs, it has begun a new file with each SIGUSR1 (unless it writes to
standard output) and, with `--split`, after each data frame at which that many seconds have passed
since the file was opened, and never otherwise; each file was opened under the name that
`--write` gives, with `--localtime` or `--gmtime` for the time of opening. No assumption is made about the
clock, the clients or the file system. -/
theorem capture_rotations (args : CapArgs) (env : CapEnv) (acts : List CapAct) (s : Capture)
    (h : outcome args env acts = .ok s) (hx : s.exited = none) :
    ∃ t i, Rotations (outName args env) args.splitSeconds (acts.count .sigusr1)
      (outputEvents s.log) t i := by
  rcases rotations h with h' | h' | ⟨_, _, _, h', _⟩
  · rw [hx] at h'; cases h'
  · obtain ⟨i, _, hr⟩ := h'.file
    exact ⟨_, i, signals_eq acts ▸ hr⟩
  · rw [hx] at h'; cases h'

/-- **C77, after a clean end.** The program ends with success only by a signal to stop, and then
closes the present file; before that the same holds. -/
theorem capture_rotations_end (args : CapArgs) (env : CapEnv) (acts : List CapAct) (s : Capture)
    (h : outcome args env acts = .ok s) (hx : s.exited = some 0) :
    ∃ before after es t i, acts = before ++ .term :: after ∧
      Rotations (outName args env) args.splitSeconds (before.count .sigusr1) es t i ∧
      outputEvents s.log = es ++ [.finished i] := by
  rcases rotations h with h' | h' | ⟨b, f, h1, _, es, t, i, h2, h3⟩
  · rw [hx] at h'; cases h'
  · rw [h'.exited] at hx; cases hx
  · exact ⟨b, f, es, t, i, h1, signals_eq b ▸ h2, h3⟩

/-- Whether a file is begun. -/
def begins : CapEv → Bool
  | .opened _ => true
  | .clobbered _ => true
  | _ => false

theorem opens_begins {m : OutName} {t i : Nat} {es : List CapEv} (h : Opens m t i es) :
    es.countP begins = 1 := by
  obtain ⟨e, he, h⟩ := h
  cases m with
  | stdout => cases h; rcases he with rfl | rfl <;> rfl
  | file p => cases h; rcases he with rfl | rfl <;> rfl
  | calendar n => obtain ⟨n, _, h⟩ := h; cases h; rcases he with rfl | rfl <;> rfl

theorem rotations_begins {m : OutName} {split : Int} {k t i : Nat} {es : List CapEv}
    (h : Rotations m split k es t i) (hs : split ≤ 0) (hm : m ≠ .stdout) :
    es.countP begins = k + 1 := by
  induction h with
  | start ho => exact opens_begins ho
  | frame _ _ ih => rw [List.countP_append, ih]; rfl
  | early _ hp => omega
  | due _ hp => omega
  | signal _ _ ho ih => rw [List.countP_append, List.countP_append, ih, opens_begins ho]; rfl
  | ignored _ hm' => exact absurd hm' hm

/-- **C77, without `--split`.** As many files have been begun as there were signals, and one. -/
theorem capture_begins (args : CapArgs) (env : CapEnv) (acts : List CapAct) (s : Capture)
    (h : outcome args env acts = .ok s) (hx : s.exited = none) (hs : args.splitSeconds ≤ 0)
    (ho : args.toStdout = false) : s.log.countP begins = acts.count .sigusr1 + 1 := by
  obtain ⟨t, i, hr⟩ := capture_rotations args env acts s h hx
  rw [← rotations_begins hr hs (by rw [Ne, outName_stdout, ho]; nofun)]
  unfold outputEvents
  rw [List.countP_filter]
  refine List.countP_congr fun e _ => ?_
  cases e <;> simp [begins]

/-- **C77, exit status.** Otherwise the program exits with a failure status. -/
theorem capture_exit_status (args : CapArgs) (env : CapEnv) (acts : List CapAct) (s : Capture)
    (h : outcome args env acts = .ok s) : s.exited = none ∨ s.exited = some 0 ∨ s.exited = some 1 := by
  rcases rotations h with h' | h' | ⟨_, _, _, h', _⟩
  · exact Or.inr (Or.inr h')
  · exact Or.inl h'.exited
  · exact Or.inr (Or.inl h')

/-! ## A sample run -/

/-- Output files named after the time, a new one after ten seconds. -/
def splitArgs : CapArgs := ⟨[97], [37, 115], false, true, 10, 0, 0⟩

/-- Every look at the clock takes four seconds. -/
def splitEnv : CapEnv := ⟨fun k => 4 * k, fun _ => true, fun _ => true, fun t => some [100, UInt8.ofNat t]⟩

def splitActs : List CapAct :=
  let ready := CFrame.wire ⟨.ready, [[97]]⟩
  let data := CFrame.wire ⟨.start, [[97]]⟩ ++ [[1], [2], [3], [4]].flatMap dataFrame
  [.accept, .recv 0 (ready ++ data) [ready ++ data], .sigusr1, .term]

/-- The events of the sample run: three frames in the first file, one in the second, none in the
third. -/
theorem split_run :
    (outcome splitArgs splitEnv splitActs.dropLast).map (fun s => (s.exited, outputEvents s.log)) =
    .ok (none, [.asked 0, .opening [100, 0], .opened 0,
      .recorded 0 (dataFrame [1]), .asked 4, .recorded 0 (dataFrame [2]), .asked 8,
      .recorded 0 (dataFrame [3]), .asked 12, .finished 0, .asked 16, .opening [100, 16], .opened 1,
      .recorded 0 (dataFrame [4]), .asked 20,
      .finished 1, .asked 24, .opening [100, 24], .opened 2]) := by decide +kernel

/-- The hypotheses of `capture_rotations` are met. -/
example : ∃ s, outcome splitArgs splitEnv splitActs.dropLast = .ok s ∧ s.exited = none := by
  have h := split_run
  cases e : outcome splitArgs splitEnv splitActs.dropLast with
  | error x => rw [e] at h; cases h
  | ok s => rw [e] at h; cases h' : s.exited <;> simp_all [Except.map]

/-- The hypotheses of `capture_rotations_end` are met. -/
example : ∃ s, outcome splitArgs splitEnv splitActs = .ok s ∧ s.exited = some 0 := by
  have h : (outcome splitArgs splitEnv splitActs).map (·.exited) = .ok (some 0) := by decide +kernel
  cases e : outcome splitArgs splitEnv splitActs with
  | error x => rw [e] at h; cases h
  | ok s => rw [e] at h; exact ⟨s, rfl, Except.ok.inj h⟩

/-- Without `--split` there is one more file than signals (`capture_begins`): here two. -/
example : ∃ s, outcome (easyArgs 0) easyEnv [.accept, .sigusr1] = .ok s ∧ s.exited = none := by
  have h : (outcome (easyArgs 0) easyEnv [.accept, .sigusr1]).map (·.exited) = .ok none := by
    decide +kernel
  cases e : outcome (easyArgs 0) easyEnv [.accept, .sigusr1] with
  | error x => rw [e] at h; cases h
  | ok s => rw [e] at h; exact ⟨s, rfl, Except.ok.inj h⟩

end Fstrm.Props
