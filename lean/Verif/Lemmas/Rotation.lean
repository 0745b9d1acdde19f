import Verif.Spec.Rotation
import Verif.Lemmas.CaptureListen
import Verif.Props.Capture

/-! When `fstrm_capture` opens and closes its output files. -/

set_option autoImplicit false

namespace Fstrm

open Spec Props

/-- What writing to the output leaves alone. -/
structure OutSame (s s' : Capture) : Prop where
  args : s'.args = s.args
  env : s'.env = s.env
  outputFile : s'.outputFile = s.outputFile
  time : s'.openTimestamp = s.openTimestamp
  log : s'.log = s.log
  exited : s'.exited = s.exited

theorem OutSame.refl (s : Capture) : OutSame s s := ⟨rfl, rfl, rfl, rfl, rfl, rfl⟩

theorem OutSame.trans {a b c : Capture} (h1 : OutSame a b) (h2 : OutSame b c) : OutSame a c :=
  ⟨h2.args.trans h1.args, h2.env.trans h1.env, h2.outputFile.trans h1.outputFile,
    h2.time.trans h1.time, h2.log.trans h1.log, h2.exited.trans h1.exited⟩

theorem fwrite_same {s s' : Capture} {bs : Bytes} {ok : Bool} (h : s.fwrite bs = .ok (ok, s')) :
    OutSame s s' := by
  unfold Capture.fwrite at h
  split at h
  · cases h
  · dsimp only at h
    split at h <;> cases h <;> exact ⟨rfl, rfl, rfl, rfl, rfl, rfl⟩

theorem closeWriteStop_same {s s' : Capture} {ok : Bool} (h : s.closeWriteStop = .ok (ok, s')) :
    OutSame s s' := by
  unfold Capture.closeWriteStop at h
  dsimp only at h
  split at h
  · cases h; exact .refl s
  · obtain ⟨r, _, h⟩ := Exec.bind_eq_ok.1 h
    cases r with
    | none => cases h; exact .refl s
    | some bs => exact fwrite_same h

theorem fflush_same (s : Capture) : OutSame s s.fflush := by
  unfold Capture.fflush
  split
  · exact .refl s
  · exact ⟨rfl, rfl, rfl, rfl, rfl, rfl⟩

theorem writeStart_same {s s' : Capture} {bs : Bytes} {ok : Bool}
    (h : s.writeStart bs = .ok (ok, s')) : OutSame s s' := by
  unfold Capture.writeStart at h
  obtain ⟨⟨ok', s1⟩, e1, h⟩ := Exec.bind_eq_ok.1 h
  have h1 := fwrite_same e1
  cases ok' <;> cases h
  · exact h1
  · exact h1.trans (fflush_same _)

theorem fclose_same (s : Capture) : s.fclose.args = s.args ∧ s.fclose.env = s.env ∧
    s.fclose.log = s.log ∧ s.fclose.exited = s.exited := by
  unfold Capture.fclose
  split <;> exact ⟨rfl, rfl, rfl, rfl⟩

theorem openWriteStart_same {s s' : Capture} {ok : Bool} (h : s.openWriteStart = .ok (ok, s')) :
    OutSame s s' := by
  unfold Capture.openWriteStart at h
  dsimp only at h
  split at h
  · cases h; exact .refl s
  · split at h
    · cases h; exact .refl s
    · obtain ⟨r, _, h⟩ := Exec.bind_eq_ok.1 h
      cases r with
      | none => cases h; exact .refl s
      | some bs => exact writeStart_same h

/-- A file was opened. -/
structure DidOpen (s s' : Capture) (es : List CapEv) (i : Nat) : Prop where
  args : s'.args = s.args
  env : s'.env = s.env
  outputFile : s'.outputFile = some i
  log : s'.log = s.log ++ es
  exited : s'.exited = s.exited

theorem openFile_did {s s' : Capture} {name : Bytes} (h : s.openFile name = (true, s')) :
    ∃ i e, (e = .opened i ∨ e = .clobbered i) ∧ DidOpen s s' [.opening name, e] i ∧
      s'.openTimestamp = s.openTimestamp := by
  unfold Capture.openFile at h
  dsimp only at h
  split at h
  · split at h
    · rename_i i _
      cases h
      exact ⟨i, _, Or.inr rfl, ⟨rfl, rfl, rfl, by simp [Capture.emit, Capture.call], rfl⟩, rfl⟩
    · cases h
      exact ⟨s.files.length, _, Or.inl rfl, ⟨rfl, rfl, rfl, by simp [Capture.emit, Capture.call], rfl⟩, rfl⟩
  · cases h

theorem openOutput_did {s s' : Capture} (h : s.openOutput = (true, s')) :
    ∃ i es, Opens (outName s.args s.env) s'.openTimestamp i es ∧ DidOpen s s' es i := by
  unfold Capture.openOutput at h
  unfold outName
  split at h
  · rename_i hc
    cases h
    rw [if_pos hc]
    exact ⟨_, _, ⟨_, Or.inl rfl, rfl⟩, ⟨rfl, rfl, rfl, rfl, rfl⟩⟩
  · rename_i hc
    rw [if_neg hc]
    split at h
    · rename_i hc
      rw [if_pos hc]
      unfold Capture.updateFname at h
      dsimp only at h
      split at h
      · cases h
      · rename_i name s1 hn
        simp only [Prod.mk.injEq] at hn
        obtain ⟨hn, rfl⟩ := hn
        obtain ⟨i, e, he, hd, ht⟩ := openFile_did h
        refine ⟨i, _, ⟨e, he, name, ?_, rfl⟩, hd.args, hd.env, hd.outputFile, ?_, hd.exited⟩
        · rw [ht]; exact hn
        · rw [hd.log, ht]; simp [Capture.emit]
    · rename_i hc
      rw [if_neg hc]
      obtain ⟨i, e, he, hd, ht⟩ := openFile_did h
      exact ⟨i, _, ⟨e, he, rfl⟩, hd⟩

theorem openWriteFile_did {s s' : Capture} (h : s.openWriteFile = .ok (true, s')) :
    ∃ i es, Opens (outName s.args s.env) s'.openTimestamp i es ∧ DidOpen s s' es i := by
  unfold Capture.openWriteFile at h
  split at h
  · cases h
  · rename_i s1 e1
    obtain ⟨i, es, ho, hd⟩ := openOutput_did e1
    obtain ⟨⟨ok, s2⟩, e2, h⟩ := Exec.bind_eq_ok.1 h
    have hs := openWriteStart_same e2
    dsimp only at h
    split at h
    · cases h
    · cases h
      exact ⟨i, es, by rw [hs.time]; exact ho, hs.args.trans hd.args, hs.env.trans hd.env,
        hs.outputFile.trans hd.outputFile, hs.log.trans hd.log, hs.exited.trans hd.exited⟩

theorem closeWriteFile_did {s s' : Capture} {i : Nat} (hi : s.outputFile = some i)
    (h : s.closeWriteFile = .ok (true, s')) :
    s'.args = s.args ∧ s'.env = s.env ∧ s'.log = s.log ++ [.finished i] ∧ s'.exited = s.exited := by
  unfold Capture.closeWriteFile at h
  rw [hi] at h
  dsimp only at h
  obtain ⟨⟨ok, s1⟩, e1, h⟩ := Exec.bind_eq_ok.1 h
  have hs := closeWriteStop_same e1
  dsimp only at h
  split at h
  · cases h
  · cases h
    obtain ⟨c1, c2, c3, c4⟩ := fclose_same s1
    exact ⟨c1.trans hs.args, c2.trans hs.env, by simp [Capture.emit, c3, hs.log], c4.trans hs.exited⟩

theorem rotateOutput_did {s s' : Capture} {i : Nat} (hi : s.outputFile = some i)
    (hx : s.exited = none) (h : s.rotateOutput = .ok s') :
    s'.exited = some 1 ∨ (s.args.toStdout = true ∧ s' = s) ∨
    (s.args.toStdout = false ∧ ∃ j es, Opens (outName s.args s.env) s'.openTimestamp j es ∧
      DidOpen s s' (.finished i :: es) j) := by
  unfold Capture.rotateOutput at h
  split at h
  · rename_i hc; cases h; exact Or.inr (Or.inl ⟨hc, rfl⟩)
  · rename_i hc
    obtain ⟨⟨ok, s1⟩, e1, h⟩ := Exec.bind_eq_ok.1 h
    dsimp only at h
    split at h
    · cases h; exact Or.inl rfl
    · rename_i hok
      have hok : ok = true := by simpa using hok
      subst hok
      obtain ⟨a1, a2, a3, a4⟩ := closeWriteFile_did hi e1
      obtain ⟨⟨ok, s2⟩, e2, h⟩ := Exec.bind_eq_ok.1 h
      dsimp only at h
      split at h
      · cases h; exact Or.inl rfl
      · rename_i hok
        have hok : ok = true := by simpa using hok
        subst hok
        cases h
        obtain ⟨j, es, ho, hd⟩ := openWriteFile_did e2
        rw [a1, a2] at ho
        exact Or.inr (Or.inr ⟨by simpa using hc, j, es, ho, hd.args.trans a1, hd.env.trans a2,
          hd.outputFile, by rw [hd.log, a3]; simp, hd.exited.trans a4⟩)

theorem writeVecs_same (total : Nat) : ∀ (vs : List Bytes) (br : Nat) (s s' : Capture)
    (r : Option Nat), Capture.writeVecs total vs br s = .ok (r, s') →
    (r = none ∧ s'.exited = some 1) ∨ OutSame s s' := by
  intro vs
  induction vs with
  | nil => intro br s s' r h; cases h; exact Or.inr (.refl s)
  | cons v vs ih =>
    intro br s s' r h
    unfold Capture.writeVecs at h
    obtain ⟨⟨ok, s1⟩, e1, h⟩ := Exec.bind_eq_ok.1 h
    dsimp only at h
    split at h
    · cases h; exact Or.inl ⟨rfl, rfl⟩
    · rcases ih _ _ _ _ h with h' | h'
      · exact Or.inl h'
      · exact Or.inr ((fwrite_same e1).trans h')

theorem failed_exited (s : Capture) : s.failed.exited = s.exited := by
  unfold Capture.failed; split <;> rfl

theorem writeVecs_some {total br : Nat} {vs : List Bytes} {s s' : Capture}
    (h : Capture.writeVecs total vs br s = .ok (none, s')) : s'.exited = some 1 := by
  induction vs generalizing br s with
  | nil => cases h
  | cons v vs ih =>
    unfold Capture.writeVecs at h
    obtain ⟨⟨ok, s1⟩, e1, h⟩ := Exec.bind_eq_ok.1 h
    dsimp only at h
    split at h
    · cases h; rfl
    · exact ih h

theorem processDataFrame_did {s s' : Capture} {id total : Nat} {c c' : Conn}
    (h : s.processDataFrame id c total = .ok (c', s')) :
    s'.exited = some 1 ∨ ∃ b, s'.args = s.args ∧ s'.env = s.env ∧ s'.outputFile = s.outputFile ∧
      s'.openTimestamp = s.openTimestamp ∧ s'.log = s.log ++ [.recorded id b] ∧
      s'.exited = s.exited := by
  unfold Capture.processDataFrame at h
  dsimp only at h
  split at h
  · cases h
  · obtain ⟨⟨r, s1⟩, e1, h⟩ := Exec.bind_eq_ok.1 h
    dsimp only at h
    split at h
    · cases h
      exact Or.inl (by rw [failed_exited]; exact writeVecs_some e1)
    · split at h
      · cases h
      · cases h
        rcases writeVecs_same _ _ _ _ _ _ e1 with ⟨h', _⟩ | hs
        · cases h'
        · exact Or.inr ⟨c.input.flatten.take total, hs.args, hs.env, hs.outputFile, hs.time,
            by simp [Capture.emit, hs.log], hs.exited⟩

/-- Invariant. -/
structure RotInv (args : CapArgs) (env : CapEnv) (k : Nat) (s : Capture) : Prop where
  file : ∃ i, s.outputFile = some i ∧
    Rotations (outName args env) args.splitSeconds k (outputEvents s.log) s.openTimestamp i
  ok : args.accepted = true
  args : s.args = args
  env : s.env = env
  exited : s.exited = none

section
variable {args : CapArgs} {env : CapEnv} {k : Nat} {s s' : Capture}

theorem outputEvents_append (a b : List CapEv) :
    outputEvents (a ++ b) = outputEvents a ++ outputEvents b := List.filter_append ..

theorem outputEvents_opens {m : OutName} {t i : Nat} {es : List CapEv} (h : Opens m t i es) :
    outputEvents es = es := by
  obtain ⟨e, he, h⟩ := h
  cases m with
  | stdout => cases h; rcases he with rfl | rfl <;> rfl
  | file p => cases h; rcases he with rfl | rfl <;> rfl
  | calendar n => obtain ⟨n, _, h⟩ := h; cases h; rcases he with rfl | rfl <;> rfl

/-- Nothing happened to the output. -/
theorem RotInv.same (h : RotInv args env k s) (h1 : s'.args = s.args) (h2 : s'.env = s.env)
    (h3 : s'.outputFile = s.outputFile) (h4 : s'.openTimestamp = s.openTimestamp)
    (h5 : outputEvents s'.log = outputEvents s.log) (h6 : s'.exited = none) :
    RotInv args env k s' :=
  ⟨by rw [h3, h4, h5]; exact h.file, h.ok, h1.trans h.args, h2.trans h.env, h6⟩

theorem RotInv.closeConn (h : RotInv args env k s) (id : Nat) : RotInv args env k (s.closeConn id) := by
  refine h.same ?_ ?_ ?_ ?_ ?_ ?_ <;> unfold Capture.closeConn <;> dsimp only <;> split <;>
    first
    | rfl
    | exact h.exited
    | (simp only [Capture.emit, Capture.setConn]; rw [outputEvents_append]; exact List.append_nil _)

theorem RotInv.data (h : RotInv args env k s) {id total : Nat} {c c' : Conn} {s1 : Capture}
    (e1 : s.processDataFrame id c total = .ok (c', s1)) (e2 : s1.maybeRotateOutput = .ok s')
    (hx : s1.exited = none) : s'.exited = some 1 ∨ RotInv args env k s' := by
  rcases processDataFrame_did e1 with h' | ⟨b, a1, a2, a3, a4, a5, a6⟩
  · rw [hx] at h'; cases h'
  · obtain ⟨i, hi, hr⟩ := h.file
    have hlog : outputEvents s1.log = outputEvents s.log ++ [.recorded id b] := by
      rw [a5, outputEvents_append]; rfl
    unfold Capture.maybeRotateOutput at e2
    have hsp : s1.args.splitSeconds = args.splitSeconds := by rw [a1, h.args]
    split at e2
    · rename_i hp
      rw [hsp] at hp
      dsimp only at e2
      split at e2
      · rename_i hd
        rcases rotateOutput_did (s := { s1 with nTime := s1.nTime + 1 }.emit
          (.asked (s1.env.time s1.nTime))) (i := i) (a3.trans hi) hx e2 with
          h' | ⟨hc, _⟩ | ⟨hc, j, es, ho, hd'⟩
        · exact Or.inl h'
        · exfalso
          have hok := h.ok
          have hc : s1.args.toStdout = true := hc
          rw [a1, h.args] at hc
          unfold CapArgs.accepted at hok
          rw [hc] at hok
          simp at hok
          omega
        · refine Or.inr ⟨⟨j, hd'.outputFile, ?_⟩, h.ok, hd'.args.trans (a1.trans h.args),
            hd'.env.trans (a2.trans h.env), hd'.exited.trans hx⟩
          have hd2 : (s.openTimestamp : Int) + args.splitSeconds ≤ (s1.env.time s1.nTime : Nat) := by
            have : ((s1.env.time s1.nTime : Nat) : Int) ≥ (s1.openTimestamp : Int) + s1.args.splitSeconds := hd
            rw [a4, hsp] at this
            exact this
          have ho2 : Opens (outName args env) s'.openTimestamp j es := by
            have : Opens (outName s1.args s1.env) s'.openTimestamp j es := ho
            rw [a1, a2, h.args, h.env] at this
            exact this
          have := Rotations.due (id := id) (b := b) hr hp hd2 ho2
          rw [hd'.log]
          simp only [Capture.emit]
          rw [outputEvents_append, outputEvents_append, hlog]
          rw [show outputEvents (.finished i :: es) = .finished i :: outputEvents es from rfl,
            outputEvents_opens ho2]
          simpa [outputEvents] using this
      · rename_i hd
        cases e2
        refine Or.inr ⟨⟨i, a3.trans hi, ?_⟩, h.ok, a1.trans h.args, a2.trans h.env, hx⟩
        have hd2 : ((s1.env.time s1.nTime : Nat) : Int) < s.openTimestamp + args.splitSeconds := by
          have : ¬ ((s1.env.time s1.nTime : Nat) : Int) ≥ (s1.openTimestamp : Int) + s1.args.splitSeconds := hd
          rw [a4, hsp] at this
          omega
        have := Rotations.early (id := id) (b := b) hr hp hd2
        simp only [Capture.emit]
        rw [outputEvents_append, hlog, a4]
        simpa [outputEvents] using this
    · rename_i hp
      rw [hsp] at hp
      cases e2
      refine Or.inr ⟨⟨i, a3.trans hi, ?_⟩, h.ok, a1.trans h.args, a2.trans h.env, hx⟩
      rw [hlog, a4]
      exact hr.frame (by omega)

theorem RotInv.loop (id : Nat) : ∀ (fuel : Nat) (c : Conn) (s s' : Capture),
    RotInv args env k s → Capture.cbReadLoop id fuel c s = .ok s' →
    s'.exited = some 1 ∨ RotInv args env k s' := by
  intro fuel
  induction fuel with
  | zero => intro c s s' h e; cases e
  | succ fuel ih =>
    intro c s s' h e
    unfold Capture.cbReadLoop at e
    dsimp only at e
    split at e
    · cases e; exact Or.inr (h.same rfl rfl rfl rfl rfl h.exited)
    · split at e
      · exact ih _ _ _ h e
      · split at e
        · cases e; exact Or.inr (h.same rfl rfl rfl rfl rfl h.exited)
        · cases e; exact Or.inr (h.closeConn id)
        · split at e
          · obtain ⟨⟨c1, s1⟩, e1, e⟩ := Exec.bind_eq_ok.1 e
            dsimp only at e
            split at e
            · rename_i hx
              cases e
              rcases processDataFrame_did e1 with h' | ⟨_, _, _, _, _, _, h'⟩
              · exact Or.inl h'
              · rw [h', h.exited] at hx; cases hx
            · rename_i hx
              have hx : s1.exited = none := by simpa using hx
              obtain ⟨s2, e2, e⟩ := Exec.bind_eq_ok.1 e
              have h2 := h.data e1 e2 hx
              split at e
              · rename_i hx2
                cases e
                rcases h2 with h2 | h2
                · exact Or.inl h2
                · rw [h2.exited] at hx2; cases hx2
              · rename_i hx2
                rcases h2 with h2 | h2
                · rw [h2] at hx2; exact absurd rfl hx2
                · exact ih _ _ _ h2 e
          · obtain ⟨⟨ok, c1⟩, e1, e⟩ := Exec.bind_eq_ok.1 e
            dsimp only at e
            split at e
            · cases e; exact Or.inr (h.closeConn id)
            · obtain ⟨⟨ok, c2⟩, e2, e⟩ := Exec.bind_eq_ok.1 e
              dsimp only at e
              split at e
              · cases e; exact Or.inr (h.closeConn id)
              · exact ih _ _ _ h e

/-- The signals among events. -/
def isUsr1 (a : CapAct) : Nat := if a = .sigusr1 then 1 else 0

theorem outName_stdout : outName args env = .stdout ↔ args.toStdout = true := by
  unfold outName
  cases args.toStdout <;> simp
  split <;> nofun

/-- After shutdown. -/
def Ended (args : CapArgs) (env : CapEnv) (k : Nat) (s : Capture) : Prop :=
  ∃ es t i, Rotations (outName args env) args.splitSeconds k es t i ∧
    outputEvents s.log = es ++ [.finished i]

theorem RotInv.step (h : RotInv args env k s) {a : CapAct} (e : s.step a = .ok s') :
    s'.exited = some 1 ∨ RotInv args env (k + isUsr1 a) s' ∨
    (a = .term ∧ s'.exited = some 0 ∧ Ended args env k s') := by
  unfold Capture.step at e
  rw [h.exited] at e
  simp only [Option.isSome_none, Bool.false_eq_true, if_false] at e
  have hsame : ∀ x : Capture, isUsr1 a = 0 → RotInv args env k x →
      RotInv args env (k + isUsr1 a) x := fun x h0 hx => by rw [h0]; exact hx
  cases a with
  | accept =>
    refine Or.inr (Or.inl (hsame _ rfl ?_))
    dsimp only at e
    split at e
    · cases e
      refine h.same ?_ ?_ ?_ ?_ ?_ ?_ <;> unfold Capture.cbAccept <;> dsimp only <;> split <;>
        first
        | rfl
        | exact h.exited
        | (simp only [Capture.emit, Capture.setConn]; rw [outputEvents_append]
           exact List.append_nil _)
    · cases e; exact h
  | recv id bs ch =>
    dsimp only at e
    split at e
    · cases e; exact Or.inr (Or.inl (hsame _ rfl h))
    · split at e
      · have h1 : RotInv args env k (s.emit (.received id bs)) := by
          refine h.same rfl rfl rfl rfl ?_ h.exited
          simp only [Capture.emit]
          rw [outputEvents_append]
          exact List.append_nil _
        rcases RotInv.loop id _ _ _ _ h1 e with h2 | h2
        · exact Or.inl h2
        · exact Or.inr (Or.inl (hsame _ rfl h2))
      · cases e; exact Or.inr (Or.inl (hsame _ rfl h))
  | send id n =>
    refine Or.inr (Or.inl (hsame _ rfl ?_))
    dsimp only at e
    split at e
    · cases e; exact h
    · rename_i c hc
      split at e
      · have h1 : RotInv args env k ((s.setConn id (some { c with output := c.output.drop n })).emit
            (.sent id (c.output.take n))) := by
          refine h.same rfl rfl rfl rfl ?_ h.exited
          simp only [Capture.emit, Capture.setConn]
          rw [outputEvents_append]
          exact List.append_nil _
        split at e
        · cases e
          unfold Capture.cbWrite
          split
          · exact h1
          · exact h1.closeConn id
        · cases e; exact h1
      · cases e; exact h
  | hangup id =>
    refine Or.inr (Or.inl (hsame _ rfl ?_))
    dsimp only at e
    split at e
    · cases e; exact h
    · cases e; exact h.closeConn id
  | sigusr1 =>
    obtain ⟨i, hi, hr⟩ := h.file
    dsimp only at e
    rw [if_pos (by rw [hi]; rfl)] at e
    rcases rotateOutput_did hi h.exited e with h' | ⟨hc, rfl⟩ | ⟨hc, j, es, ho, hd⟩
    · exact Or.inl h'
    · refine Or.inr (Or.inl ⟨⟨i, hi, ?_⟩, h.ok, h.args, h.env, h.exited⟩)
      exact hr.ignored (outName_stdout.2 (by rw [← h.args]; exact hc))
    · refine Or.inr (Or.inl ⟨⟨j, hd.outputFile, ?_⟩, h.ok, hd.args.trans h.args, hd.env.trans h.env,
        hd.exited.trans h.exited⟩)
      rw [h.args, h.env] at ho
      have := hr.signal (fun h' => by
        rw [outName_stdout, ← h.args, hc] at h'; cases h') ho
      rw [hd.log, outputEvents_append,
        show outputEvents (.finished i :: es) = .finished i :: outputEvents es from rfl,
        outputEvents_opens ho, show isUsr1 .sigusr1 = 1 from rfl]
      simpa using this
  | sighup =>
    refine Or.inr (Or.inl (hsame _ rfl ?_))
    cases e
    have f := fflush_same s
    exact h.same f.args f.env f.outputFile f.time (by rw [f.log]) (f.exited.trans h.exited)
  | term =>
    obtain ⟨i, hi, hr⟩ := h.file
    dsimp only at e
    unfold Capture.shutdown at e
    obtain ⟨⟨ok, s1⟩, e1, e⟩ := Exec.bind_eq_ok.1 e
    dsimp only at e
    split at e
    · cases e; exact Or.inl rfl
    · rename_i hok
      have hok : ok = true := by simpa using hok
      subst hok
      cases e
      obtain ⟨_, _, a3, _⟩ := closeWriteFile_did hi e1
      refine Or.inr (Or.inr ⟨rfl, rfl, _, _, _, hr, ?_⟩)
      simp only [Capture.exit, Capture.call]
      rw [a3, outputEvents_append]
      rfl
  | rename a b =>
    refine Or.inr (Or.inl (hsame _ rfl ?_))
    dsimp only at e
    split at e
    · cases e; exact h
    · cases e; exact h.same rfl rfl rfl rfl rfl rfl
  | remove a =>
    cases e
    exact Or.inr (Or.inl (hsame _ rfl (h.same rfl rfl rfl rfl rfl rfl)))

theorem RotInv.start (e : Capture.start args env = .ok s) :
    s.exited = some 1 ∨ RotInv args env 0 s := by
  unfold Capture.start at e
  dsimp only at e
  split at e
  · cases e; exact Or.inl rfl
  · rename_i hok
    obtain ⟨⟨ok, s1⟩, e1, e⟩ := Exec.bind_eq_ok.1 e
    dsimp only at e
    split at e
    · cases e; exact Or.inl rfl
    · rename_i hok'
      have hok' : ok = true := by simpa using hok'
      subst hok'
      cases e
      obtain ⟨i, es, ho, hd⟩ := openWriteFile_did e1
      refine Or.inr ⟨⟨i, hd.outputFile, ?_⟩, by simpa using hok, hd.args, hd.env, hd.exited⟩
      rw [hd.log, List.nil_append, outputEvents_opens ho]
      exact .start ho

/-- How many signals there are among events. -/
def signals (acts : List CapAct) : Nat := (acts.map isUsr1).sum

/-- The states of the program. -/
def RotState (args : CapArgs) (env : CapEnv) (acts : List CapAct) (s : Capture) : Prop :=
  s.exited = some 1 ∨ RotInv args env (signals acts) s ∨
  (∃ before after, acts = before ++ .term :: after ∧ s.exited = some 0 ∧
    Ended args env (signals before) s)

theorem RotState.run : ∀ (as acts : List CapAct) (s s' : Capture), RotState args env acts s →
    s.run as = .ok s' → RotState args env (acts ++ as) s' := by
  intro as
  induction as with
  | nil => intro acts s s' h e; cases e; rw [List.append_nil]; exact h
  | cons a as ih =>
    intro acts s s' h e
    unfold Capture.run at e
    obtain ⟨s1, e1, e⟩ := Exec.bind_eq_ok.1 e
    have : acts ++ a :: as = (acts ++ [a]) ++ as := by simp
    rw [this]
    refine ih _ s1 _ ?_ e
    rcases h with h | h | ⟨b, f, h1, h2, h3⟩
    · rw [step_exited (by rw [h]; rfl)] at e1
      cases e1
      exact Or.inl h
    · rcases h.step e1 with h' | h' | ⟨rfl, h2, h3⟩
      · exact Or.inl h'
      · refine Or.inr (Or.inl ?_)
        have : signals (acts ++ [a]) = signals acts + isUsr1 a := by simp [signals]
        rw [this]
        exact h'
      · exact Or.inr (Or.inr ⟨acts, [], rfl, h2, h3⟩)
    · rw [step_exited (by rw [h2]; rfl)] at e1
      cases e1
      exact Or.inr (Or.inr ⟨b, f ++ [a], by rw [h1]; simp, h2, h3⟩)

theorem rotations {acts : List CapAct} (e : outcome args env acts = .ok s) :
    RotState args env acts s := by
  unfold outcome at e
  obtain ⟨s0, e0, e⟩ := Exec.bind_eq_ok.1 e
  refine RotState.run acts [] s0 s ?_ e
  rcases RotInv.start e0 with h | h
  · exact Or.inl h
  · exact Or.inr (Or.inl h)

end
end Fstrm
