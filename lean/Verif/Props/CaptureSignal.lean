import Verif.Model.CaptureSignal
import Verif.Lemmas.FleetInv
import Verif.Props.Durable

/-!
# Termination signals and `fstrm_capture` (C118)
-/

set_option autoImplicit false

namespace Fstrm.Props

open Spec (CFrame dataFrame stream Calls CallResult onDisk)

/-- The events of the loop among what happens. -/
def loopEvents : List SigCapAct → List CapAct
  | [] => []
  | .event a :: as => a :: loopEvents as
  | _ :: as => loopEvents as

theorem loopEvents_append (as bs : List SigCapAct) :
    loopEvents (as ++ bs) = loopEvents as ++ loopEvents bs := by
  induction as with
  | nil => rfl
  | cons a as ih => cases a <;> simp [loopEvents, ih]

theorem closeWriteFile_total (c : Capture) : ∃ ok c', c.closeWriteFile = .ok (ok, c') := by
  unfold Capture.closeWriteFile
  cases h : c.outputFile with
  | none => exact ⟨_, _, rfl⟩
  | some i =>
    dsimp only
    rcases closeWriteStop_eq h with e | e <;> rw [e] <;> exact ⟨_, _, rfl⟩

/-- The program is in its loop, or about to enter or to leave it, after the events `evs`. -/
def Loops (args : CapArgs) (env : CapEnv) (as : List SigCapAct) (s : SigCapture) (evs : List CapAct)
    (c : Capture) : Prop :=
  s.killed = false ∧ s.cap = some c ∧ outcome args env evs = .ok c ∧ c.exited = none ∧
    evs.Sublist (loopEvents as) ∧ .term ∉ evs

/-- What is known of the state after the steps `as`. -/
def SigCapInv (args : CapArgs) (env : CapEnv) (as : List SigCapAct) (s : SigCapture) : Prop :=
  match s.pos with
  | .starting => s.killed = false
  | .opened | .waiting | .closing => ∃ evs c, Loops args env as s evs c
  | .handling a => ∃ evs c, Loops args env as s evs c ∧ (evs ++ [a]).Sublist (loopEvents as) ∧ a ≠ .term
  | .cleaning | .freed => ∃ evs c0 c, s.killed = false ∧ s.cap = some c ∧
      Loops args env as { s with cap := some c0 } evs c0 ∧ c0.closeWriteFile = .ok (true, c)
  | .ended => s.killed = true ∨ ∃ evs c, s.cap = some c ∧ evs.Sublist (loopEvents as) ∧ .term ∉ evs ∧
      (outcome args env evs = .ok c ∨ outcome args env (evs ++ [.term]) = .ok c) ∧ c.exited.isSome

theorem Loops.mono {args : CapArgs} {env : CapEnv} {as : List SigCapAct} {s s' : SigCapture}
    {evs : List CapAct} {c : Capture} (h : Loops args env as s evs c) (a : SigCapAct)
    (hk : s'.killed = s.killed) (hc : s'.cap = s.cap) : Loops args env (as ++ [a]) s' evs c := by
  obtain ⟨h1, h2, h3, h4, h5, h6⟩ := h
  refine ⟨hk.trans h1, hc.trans h2, h3, h4, ?_, h6⟩
  rw [loopEvents_append]
  exact h5.trans (List.sublist_append_left _ _)

theorem SigCapInv.next {args : CapArgs} {env : CapEnv} {as : List SigCapAct} {s s' : SigCapture}
    (h : SigCapInv args env as s) (e : s.next args env = .ok s') :
    SigCapInv args env (as ++ [.next]) s' := by
  obtain ⟨pos, cap, quit, killed⟩ := s
  have hl : loopEvents (as ++ [.next]) = loopEvents as := by rw [loopEvents_append]; simp [loopEvents]
  cases pos with
  | starting =>
    simp only [SigCapInv] at h
    simp only [SigCapture.next] at e
    obtain ⟨c, e1, e⟩ := Exec.bind_eq_ok.1 e
    cases e
    have ho : outcome args env [] = .ok c := by unfold outcome; rw [e1]; rfl
    cases hx : c.exited with
    | none =>
      simp only [SigCapInv, Option.isSome_none, Bool.false_eq_true, if_false]
      exact ⟨[], c, h, rfl, ho, hx, List.nil_sublist _, by simp⟩
    | some k =>
      simp only [SigCapInv, Option.isSome_some, if_true]
      exact Or.inr ⟨[], c, rfl, List.nil_sublist _, by simp, Or.inl ho, by rw [hx]; rfl⟩
  | opened =>
    cases e
    obtain ⟨evs, c, h⟩ := h
    exact ⟨evs, c, h.mono _ rfl rfl⟩
  | waiting =>
    cases e
    obtain ⟨evs, c, h⟩ := h
    cases quit <;> exact ⟨evs, c, h.mono _ rfl rfl⟩
  | handling a =>
    obtain ⟨evs, c, h, hs, hne⟩ := h
    obtain ⟨h1, h2, h3, h4, h5, h6⟩ := h
    simp only at h2 h1
    subst h2
    simp only [SigCapture.next] at e
    obtain ⟨c', e1, e⟩ := Exec.bind_eq_ok.1 e
    cases e
    have ho := outcome_snoc h3 e1
    have hm : CapAct.term ∉ evs ++ [a] := by
      simp only [List.mem_append, List.mem_singleton, not_or]
      exact ⟨h6, fun h => hne h.symm⟩
    cases hx : c'.exited with
    | none =>
      simp only [SigCapInv, Option.isSome_none, Bool.false_eq_true, if_false]
      exact ⟨_, c', h1, rfl, ho, hx, by rw [hl]; exact hs, hm⟩
    | some k =>
      simp only [SigCapInv, Option.isSome_some, if_true]
      exact Or.inr ⟨_, c', rfl, by rw [hl]; exact hs, hm, Or.inl ho, by rw [hx]; rfl⟩
  | closing =>
    obtain ⟨evs, c, h⟩ := h
    have h' := h
    obtain ⟨h1, h2, h3, h4, h5, h6⟩ := h
    simp only at h2 h1
    subst h2
    simp only [SigCapture.next] at e
    obtain ⟨⟨ok, c'⟩, e1, e⟩ := Exec.bind_eq_ok.1 e
    cases ok with
    | false =>
      cases e
      have ht : c.step .term = .ok (c'.exit 1) := by
        unfold Capture.step
        rw [h4]
        simp only [Option.isSome_none, Bool.false_eq_true, if_false, Capture.shutdown]
        rw [e1]; rfl
      exact Or.inr ⟨evs, _, rfl, by rw [hl]; exact h5, h6, Or.inr (outcome_snoc h3 ht), rfl⟩
    | true =>
      cases e
      exact ⟨evs, c, c', h1, rfl, h'.mono _ rfl rfl, e1⟩
  | cleaning =>
    cases e
    obtain ⟨evs, c0, c, h1, h2, h3, h4⟩ := h
    exact ⟨evs, c0, c, h1, h2, h3.mono _ rfl rfl, h4⟩
  | freed =>
    obtain ⟨evs, c0, c, h1, h2, ⟨_, _, h3, h4, h5, h6⟩, h7⟩ := h
    simp only at h2
    subst h2
    cases e
    have ht : c0.step .term = .ok (c.exit 0) := by
      unfold Capture.step
      rw [h4]
      simp only [Option.isSome_none, Bool.false_eq_true, if_false, Capture.shutdown]
      rw [h7]; rfl
    exact Or.inr ⟨evs, _, rfl, by rw [hl]; exact h5, h6, Or.inr (outcome_snoc h3 ht), rfl⟩
  | ended =>
    cases e
    rcases h with h | ⟨evs, c, h1, h2, h3⟩
    · exact Or.inl h
    · exact Or.inr ⟨evs, c, h1, by rw [hl]; exact h2, h3⟩

/-- A step that changes neither position nor contents keeps the invariant. -/
theorem SigCapInv.same {args : CapArgs} {env : CapEnv} {as : List SigCapAct} {s s' : SigCapture}
    (h : SigCapInv args env as s) (a : SigCapAct) (hp : s'.pos = s.pos) (hc : s'.cap = s.cap)
    (hk : s'.killed = s.killed) : SigCapInv args env (as ++ [a]) s' := by
  have hl : (loopEvents as).Sublist (loopEvents (as ++ [a])) := by
    rw [loopEvents_append]; exact List.sublist_append_left _ _
  obtain ⟨pos, cap, quit, killed⟩ := s
  obtain ⟨pos', cap', quit', killed'⟩ := s'
  simp only at hp hc hk
  subst hp; subst hc; subst hk
  cases pos' <;> simp only [SigCapInv] at h ⊢
  · exact h
  · obtain ⟨evs, c, h⟩ := h; exact ⟨evs, c, h.mono _ rfl rfl⟩
  · obtain ⟨evs, c, h⟩ := h; exact ⟨evs, c, h.mono _ rfl rfl⟩
  · obtain ⟨evs, c, h, h2, h3⟩ := h; exact ⟨evs, c, h.mono _ rfl rfl, h2.trans hl, h3⟩
  · obtain ⟨evs, c, h⟩ := h; exact ⟨evs, c, h.mono _ rfl rfl⟩
  · obtain ⟨evs, c0, c, h1, h2, h3, h4⟩ := h
    exact ⟨evs, c0, c, h1, h2, h3.mono _ rfl rfl, h4⟩
  · obtain ⟨evs, c0, c, h1, h2, h3, h4⟩ := h
    exact ⟨evs, c0, c, h1, h2, h3.mono _ rfl rfl, h4⟩
  · rcases h with h | ⟨evs, c, h1, h2, h3⟩
    · exact Or.inl (h)
    · exact Or.inr ⟨evs, c, h1, h2.trans hl, h3⟩

theorem SigCapInv.step {args : CapArgs} {env : CapEnv} {as : List SigCapAct} {s s' : SigCapture}
    {a : SigCapAct} (h : SigCapInv args env as s) (e : s.step args env a = .ok s') :
    SigCapInv args env (as ++ [a]) s' := by
  cases a with
  | next => exact h.next e
  | event a =>
    unfold SigCapture.step at e
    simp only at e
    split at e
    · rename_i hc
      cases e
      obtain ⟨pos, cap, quit, killed⟩ := s
      obtain ⟨h1, h2⟩ := hc
      simp only at h1
      subst h1
      obtain ⟨evs, c, h⟩ := h
      refine ⟨evs, c, h.mono _ rfl rfl, ?_, h2⟩
      rw [loopEvents_append]
      exact h.2.2.2.2.1.append (List.Sublist.refl _)
    · cases e; exact h.same _ rfl rfl rfl
  | term inside =>
    unfold SigCapture.step SigCapture.signal at e
    simp only at e
    split at e
    · cases e; exact h.same _ rfl rfl rfl
    · cases e; exact Or.inl rfl
    · cases e; exact Or.inl rfl
    · cases e
    all_goals
      split at e
      · cases e
      · cases e; exact h.same _ rfl rfl rfl

theorem sigCap_inv {args : CapArgs} {env : CapEnv} : ∀ (as : List SigCapAct) {s : SigCapture},
    SigCapture.init.run args env as = .ok s → SigCapInv args env as s := by
  have : ∀ (as bs : List SigCapAct) (s0 s : SigCapture), SigCapInv args env bs s0 →
      s0.run args env as = .ok s → SigCapInv args env (bs ++ as) s := by
    intro as
    induction as with
    | nil => intro bs s0 s h e; cases e; simpa using h
    | cons a as ih =>
      intro bs s0 s h e
      obtain ⟨s1, e1, e⟩ := Exec.bind_eq_ok.1 e
      have := ih (bs ++ [a]) s1 s (h.step e1) e
      simpa using this
  intro as s e
  exact this as [] _ s (show SigCapInv args env [] SigCapture.init from rfl) e

/-- **C118**, in part: whenever SIGTERM and SIGINT come and however often, if the program ends without
having been killed, then what it has done is what a run of `Verif.Model.Capture` does that handles some of the
events and is possibly ended by `term`; so all that is proved about these runs holds (exit status
and files: C46, C94, C96, C97). Missing: it may be killed (`capture_term_early`), and its behaviour may be
undefined (`capture_term_late`, `capture_term_inside`). -/
theorem capture_term_partial (args : CapArgs) (env : CapEnv) (as : List SigCapAct) (s : SigCapture)
    (h : SigCapture.init.run args env as = .ok s) (hk : s.killed = false) (he : s.pos = .ended) :
    ∃ evs c, s.cap = some c ∧ evs.Sublist (loopEvents as) ∧ .term ∉ evs ∧ c.exited.isSome ∧
      (outcome args env evs = .ok c ∨ outcome args env (evs ++ [.term]) = .ok c) := by
  have hi := sigCap_inv as h
  unfold SigCapInv at hi
  rw [he] at hi
  rcases hi with hi | ⟨evs, c, h1, h2, h3, h4, h5⟩
  · rw [hk] at hi; cases hi
  · exact ⟨evs, c, h1, h2, h3, h5, h4⟩

/-- **C118**, in part: a signal that comes while the loop waits, not inside a function that must not be
interrupted, ends the program as `term` does, after everything handled so far; nothing
else is needed for that. -/
theorem capture_term_ends_partial (args : CapArgs) (env : CapEnv) (as : List SigCapAct) (s : SigCapture)
    (h : SigCapture.init.run args env as = .ok s) (hp : s.pos = .waiting) :
    ∃ c0 c s', s.cap = some c0 ∧ c0.step .term = .ok c ∧
      s.run args env [.term false, .next, .next, .next, .next] = .ok s' ∧ s'.pos = .ended ∧
      s'.killed = false ∧ s'.cap = some c := by
  have hi := sigCap_inv as h
  obtain ⟨pos, cap, quit, killed⟩ := s
  simp only at hp
  subst hp
  obtain ⟨evs, c0, h1, h2, h3, h4, _⟩ := hi
  simp only at h1 h2
  subst h1; subst h2
  obtain ⟨ok, c1, e1⟩ := closeWriteFile_total c0
  have ht : c0.step .term = .ok (c1.exit (if ok then 0 else 1)) := by
    unfold Capture.step
    rw [h4]
    simp only [Option.isSome_none, Bool.false_eq_true, if_false, Capture.shutdown]
    rw [e1]; cases ok <;> rfl
  cases ok with
  | true =>
    refine ⟨c0, _, ⟨.ended, some (c1.exit 0), true, false⟩, rfl, ht, ?_, rfl, rfl, rfl⟩
    simp [SigCapture.run, SigCapture.step, SigCapture.signal, SigCapture.next, Exec.ok_bind, e1]
  | false =>
    refine ⟨c0, _, ⟨.ended, some (c1.exit 1), true, false⟩, rfl, ht, ?_, rfl, rfl, rfl⟩
    simp [SigCapture.run, SigCapture.step, SigCapture.signal, SigCapture.next, Exec.ok_bind, e1]

/-- Nobody has told the program to stop. -/
def Untold (args : CapArgs) (env : CapEnv) (s : SigCapture) : Prop :=
  s.quit = false ∧ s.killed = false ∧
    match s.pos with
    | .closing | .cleaning | .freed => False
    | .ended => ∃ evs c, s.cap = some c ∧ .term ∉ evs ∧ outcome args env evs = .ok c ∧ c.exited.isSome
    | _ => True

theorem Untold.step {args : CapArgs} {env : CapEnv} {as : List SigCapAct} {s s' : SigCapture}
    {a : SigCapAct} (h : Untold args env s) (hi : SigCapInv args env as s)
    (ha : ∀ b, a ≠ .term b) (e : s.step args env a = .ok s') : Untold args env s' := by
  obtain ⟨pos, cap, quit, killed⟩ := s
  obtain ⟨h1, h2, h3⟩ := h
  simp only at h1 h2
  subst h1; subst h2
  cases a with
  | term b => exact absurd rfl (ha b)
  | event a =>
    unfold SigCapture.step at e
    simp only at e
    split at e
    · cases e; exact ⟨rfl, rfl, trivial⟩
    · cases e; exact ⟨rfl, rfl, h3⟩
  | next =>
    simp only [SigCapture.step] at e
    cases pos with
    | starting =>
      simp only [SigCapture.next] at e
      obtain ⟨c, e1, e⟩ := Exec.bind_eq_ok.1 e
      cases e
      refine ⟨rfl, rfl, ?_⟩
      cases hx : c.exited with
      | none => exact trivial
      | some k =>
        have ho : outcome args env [] = .ok c := by unfold outcome; rw [e1]; rfl
        exact ⟨[], c, rfl, by simp, ho, by rw [hx]; rfl⟩
    | opened => cases e; exact ⟨rfl, rfl, trivial⟩
    | waiting => cases e; exact ⟨rfl, rfl, trivial⟩
    | handling a =>
      obtain ⟨evs, c, ⟨_, g2, g3, g4, g5, g6⟩, hs, hne⟩ := hi
      simp only at g2
      subst g2
      simp only [SigCapture.next] at e
      obtain ⟨c', e1, e⟩ := Exec.bind_eq_ok.1 e
      cases e
      refine ⟨rfl, rfl, ?_⟩
      cases hx : c'.exited with
      | none => exact trivial
      | some k =>
        refine ⟨evs ++ [a], c', rfl, ?_, outcome_snoc g3 e1, by rw [hx]; rfl⟩
        simp only [List.mem_append, List.mem_singleton, not_or]
        exact ⟨g6, fun h => hne h.symm⟩
    | closing => exact h3.elim
    | cleaning => exact h3.elim
    | freed => exact h3.elim
    | ended => cases e; exact ⟨rfl, rfl, h3⟩

/-- **C118**, the other direction: the program does not stop before it is told to. If no signal comes, then
it is never killed, and it is still starting, in its loop or handling an event,
unless it ended by itself, in the start or because of an event. -/
theorem capture_until_told (args : CapArgs) (env : CapEnv) (as : List SigCapAct) (s : SigCapture)
    (h : SigCapture.init.run args env as = .ok s) (ht : ∀ b, .term b ∉ as) :
    s.killed = false ∧ ((s.pos = .starting ∨ s.pos = .opened ∨ s.pos = .waiting ∨ ∃ a, s.pos = .handling a) ∨
      s.pos = .ended ∧ ∃ evs c, s.cap = some c ∧ .term ∉ evs ∧ outcome args env evs = .ok c ∧
        c.exited.isSome) := by
  have : ∀ (as bs : List SigCapAct) (s0 s : SigCapture), SigCapInv args env bs s0 → Untold args env s0 →
      (∀ b, .term b ∉ as) → s0.run args env as = .ok s → Untold args env s := by
    intro as
    induction as with
    | nil => intro bs s0 s _ h _ e; cases e; exact h
    | cons a as ih =>
      intro bs s0 s hi h ht e
      obtain ⟨s1, e1, e⟩ := Exec.bind_eq_ok.1 e
      exact ih (bs ++ [a]) s1 s (hi.step e1)
        (h.step hi (fun b hb => ht b (hb ▸ List.mem_cons_self)) e1)
        (fun b hb => ht b (List.mem_cons_of_mem _ hb)) e
  obtain ⟨_, h2, h3⟩ := this as [] _ s (show SigCapInv args env [] SigCapture.init from rfl)
    ⟨rfl, rfl, trivial⟩ ht h
  refine ⟨h2, ?_⟩
  cases hp : s.pos with
  | starting => exact Or.inl (Or.inl rfl)
  | opened => exact Or.inl (Or.inr (Or.inl rfl))
  | waiting => exact Or.inl (Or.inr (Or.inr (Or.inl rfl)))
  | handling a => exact Or.inl (Or.inr (Or.inr (Or.inr ⟨a, rfl⟩)))
  | closing => rw [hp] at h3; exact h3.elim
  | cleaning => rw [hp] at h3; exact h3.elim
  | freed => rw [hp] at h3; exact h3.elim
  | ended => rw [hp] at h3; exact Or.inr ⟨rfl, h3⟩

/-- A started program whose output could be opened waits for events after two more steps, and comes back
to waiting after each event that does not end it. -/
theorem capture_waits (args : CapArgs) (env : CapEnv) (c : Capture) (hs : Capture.start args env = .ok c)
    (hx : c.exited = none) (a : CapAct) (ha : a ≠ .term) :
    SigCapture.init.run args env [.next, .next] = .ok ⟨.waiting, some c, false, false⟩ ∧
    ∀ c', c.step a = .ok c' → c'.exited = none →
      SigCapture.init.run args env [.next, .next, .event a, .next] =
        .ok ⟨.waiting, some c', false, false⟩ := by
  constructor
  · simp [SigCapture.run, SigCapture.step, SigCapture.next, SigCapture.init, hs, Exec.ok_bind, hx]
  · intro c' e hx'
    simp [SigCapture.run, SigCapture.step, SigCapture.next, SigCapture.init, hs, Exec.ok_bind, hx, ha, e, hx']

/-- **C118 is false** for a signal that comes after the output was opened and before the handlers are
installed: the program is killed, and has written START only, so the file is no stream. -/
theorem capture_term_early : ∃ args env s c h, args.bufferSize < 2 ^ 31 ∧
    SigCapture.init.run args env [.next, .term false] = .ok s ∧ s.killed = true ∧ s.cap = some c ∧
    h.map (·.1) = c.io ∧ (∀ x r, (x, r) ∈ h → r.ok = true) ∧ c.files.length = 1 ∧
    ∀ ds, onDisk 0 h ≠ stream (some args.contentType) ds := by
  obtain ⟨c, e⟩ : ∃ c, Capture.start (easyArgs 0) easyEnv = .ok c := by
    obtain ⟨c, e⟩ := capture_safe_partial (easyArgs 0) easyEnv [] (by decide +kernel)
      (polite_of_check (by decide +kernel))
    unfold outcome at e
    obtain ⟨c, e, _⟩ := Exec.bind_eq_ok.1 e
    exact ⟨c, e⟩
  have h : (Capture.start (easyArgs 0) easyEnv).map
      (fun c => (c.exited, c.files.length, (onDisk 0 (withResults lazy c.io)).length)) =
      .ok (none, 1, 21) := by decide +kernel
  rw [e] at h
  simp only [Except.map, Except.ok.injEq, Prod.mk.injEq] at h
  refine ⟨easyArgs 0, easyEnv, ⟨.ended, some c, false, true⟩, c, withResults lazy c.io, by decide +kernel, ?_,
    rfl, rfl, withResults_calls _ _, ?_, h.2.1, ?_⟩
  · simp [SigCapture.run, SigCapture.step, SigCapture.signal, SigCapture.next, SigCapture.init, e,
      Exec.ok_bind, h.1]
  · intro x r hx
    obtain ⟨_, _, hx⟩ := List.mem_map.1 hx
    cases hx; rfl
  · intro ds hd
    have h1 := h.2.2
    rw [hd, stream_length] at h1
    omega

/-- **C118 is false** for a second signal that comes when the event base has been freed: whatever the program has
done before, if it ends because of a signal and can finish its output, there is a moment at which
another signal makes the handler use freed memory. -/
theorem capture_term_late (args : CapArgs) (env : CapEnv) (as : List SigCapAct) (s : SigCapture)
    (c0 c : Capture) (h : SigCapture.init.run args env as = .ok s) (hp : s.pos = .waiting)
    (hc : s.cap = some c0) (ht : c0.step .term = .ok c) (hx : c.exited = some 0) (inside : Bool) :
    s.run args env [.term false, .next, .next, .next, .term inside] =
      .error (.ub "event_base_loopexit after event_base_free") := by
  have hi := sigCap_inv as h
  obtain ⟨pos, cap, quit, killed⟩ := s
  simp only at hp hc
  subst hp; subst hc
  obtain ⟨evs, c1, _, h2, _, h4, _⟩ := hi
  cases h2
  obtain ⟨ok, c2, e1⟩ := closeWriteFile_total c0
  unfold Capture.step at ht
  rw [h4] at ht
  simp only [Option.isSome_none, Bool.false_eq_true, if_false, Capture.shutdown] at ht
  rw [e1] at ht
  cases ok with
  | false => cases ht; cases hx
  | true =>
    simp [SigCapture.run, SigCapture.step, SigCapture.signal, SigCapture.next, Exec.ok_bind, e1]
    rfl

/-- **C118 is false** for a signal that comes inside a function that must not be interrupted, such as
`malloc`. -/
theorem capture_term_inside (args : CapArgs) (env : CapEnv) (s : SigCapture) (a : CapAct)
    (hp : s.pos = .waiting ∨ s.pos = .handling a) : s.step args env (.term true) =
      .error (.ub "event_base_loopexit in a function it must not interrupt") := by
  rcases hp with hp | hp <;> simp [SigCapture.step, SigCapture.signal, hp]

/-- Non-vacuity: the events of `politeActs`; two signals, the second of which comes during the closing of the
output; the file is complete. -/
def sigCapActs : List SigCapAct :=
  [.next, .next] ++ (politeActs.dropLast.flatMap fun a => [.event a, .next]) ++
    [.term false, .next, .term false, .next]

example : (SigCapture.init.run (easyArgs 0) easyEnv (sigCapActs ++ [.next, .next])).map (fun s =>
      (s.pos, s.killed, s.cap.map fun c => (c.exited, onDisk 0 (withResults lazy c.io)))) =
    .ok (.ended, false, some (some 0, stream (some [97]) [[1, 2, 3], [7, 8]])) := by decide +kernel

/-- One more signal then, and the program uses freed memory. -/
example : (SigCapture.init.run (easyArgs 0) easyEnv (sigCapActs ++ [.next, .term false])).map
    (fun s => s.pos) = .error (.ub "event_base_loopexit after event_base_free") := by decide +kernel

end Fstrm.Props
