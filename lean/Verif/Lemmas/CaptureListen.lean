import Verif.Lemmas.CaptureRun

/-! The listener of `fstrm_capture`, whatever clients send. -/

set_option autoImplicit false

namespace Fstrm

open Spec (CapEv active)

/-- Not an event of the network. -/
def quiet (e : CapEv) : Prop :=
  (∀ id, e ≠ .accepted id) ∧ (∀ id, e ≠ .hungup id) ∧ (∀ id bs, e ≠ .received id bs) ∧
    ∀ id bs, e ≠ .sent id bs

/-- What does not change in the functions below. -/
structure LF (s s' : Capture) : Prop where
  args : s'.args = s.args
  remaining : s'.remaining = s.remaining
  listening : s'.listening = s.listening
  conns : s'.conns = s.conns
  nextId : s'.nextId = s.nextId
  log : ∃ es, s'.log = s.log ++ es ∧ ∀ e ∈ es, quiet e

theorem LF.refl (s : Capture) : LF s s := ⟨rfl, rfl, rfl, rfl, rfl, [], by simp, by simp⟩

theorem LF.trans {a b c : Capture} (h1 : LF a b) (h2 : LF b c) : LF a c := by
  obtain ⟨e1, l1, o1⟩ := h1.log
  obtain ⟨e2, l2, o2⟩ := h2.log
  refine ⟨h2.args.trans h1.args, h2.remaining.trans h1.remaining, h2.listening.trans h1.listening,
    h2.conns.trans h1.conns, h2.nextId.trans h1.nextId, e1 ++ e2,
    by rw [l2, l1, List.append_assoc], ?_⟩
  intro e he
  rcases List.mem_append.1 he with h | h
  · exact o1 e h
  · exact o2 e h

theorem LF.emit (s : Capture) {e : CapEv} (h : quiet e) : LF s (s.emit e) :=
  ⟨rfl, rfl, rfl, rfl, rfl, [e], rfl, by intro e' he; rw [List.mem_singleton] at he; rw [he]; exact h⟩

theorem failed_lf (s : Capture) : LF s s.failed := by
  unfold Capture.failed
  split
  · exact LF.refl s
  · exact LF.emit s ⟨nofun, nofun, nofun, nofun⟩

theorem fwrite_lf {s s' : Capture} {bs : Bytes} {ok : Bool} (h : s.fwrite bs = .ok (ok, s')) :
    LF s s' := by
  unfold Capture.fwrite at h
  split at h
  · cases h
  · dsimp only at h
    split at h <;> cases h <;> exact ⟨rfl, rfl, rfl, rfl, rfl, [], by simp [Capture.call], by simp⟩

theorem fflush_lf (s : Capture) : LF s s.fflush := by
  unfold Capture.fflush
  split
  · exact LF.refl s
  · exact ⟨rfl, rfl, rfl, rfl, rfl, [], by simp [Capture.call], by simp⟩

theorem fclose_lf (s : Capture) : LF s s.fclose := by
  unfold Capture.fclose
  split
  · exact LF.refl s
  · exact ⟨rfl, rfl, rfl, rfl, rfl, [], by simp [Capture.call], by simp⟩

theorem writeStart_lf {s s' : Capture} {bs : Bytes} {ok : Bool} (h : s.writeStart bs = .ok (ok, s')) :
    LF s s' := by
  unfold Capture.writeStart at h
  obtain ⟨⟨ok', s1⟩, e1, h⟩ := Exec.bind_eq_ok.1 h
  have h1 := fwrite_lf e1
  cases ok' <;> cases h
  · exact h1
  · exact h1.trans (fflush_lf _)

theorem closeWriteStop_lf {s s' : Capture} {ok : Bool} (h : s.closeWriteStop = .ok (ok, s')) :
    LF s s' := by
  unfold Capture.closeWriteStop at h
  dsimp only at h
  split at h
  · cases h; exact LF.refl s
  · obtain ⟨r, _, h⟩ := Exec.bind_eq_ok.1 h
    cases r with
    | none => cases h; exact LF.refl s
    | some bs => exact fwrite_lf h

theorem openWriteStart_lf {s s' : Capture} {ok : Bool} (h : s.openWriteStart = .ok (ok, s')) :
    LF s s' := by
  unfold Capture.openWriteStart at h
  dsimp only at h
  split at h
  · cases h; exact LF.refl s
  · split at h
    · cases h; exact LF.refl s
    · obtain ⟨r, _, h⟩ := Exec.bind_eq_ok.1 h
      cases r with
      | none => cases h; exact LF.refl s
      | some bs => exact writeStart_lf h

theorem openFile_lf (s : Capture) (name : Bytes) : LF s (s.openFile name).2 := by
  unfold Capture.openFile
  dsimp only
  have h0 : LF s ({ s with nOpen := s.nOpen + 1 }.emit (.opening name)) :=
    ⟨rfl, rfl, rfl, rfl, rfl, _, rfl, by
      intro e he; rw [List.mem_singleton] at he; rw [he]; exact ⟨nofun, nofun, nofun, nofun⟩⟩
  split
  · split
    · exact h0.trans ⟨rfl, rfl, rfl, rfl, rfl, _, rfl, by
        intro e he; rw [List.mem_singleton] at he; rw [he]; exact ⟨nofun, nofun, nofun, nofun⟩⟩
    · exact h0.trans ⟨rfl, rfl, rfl, rfl, rfl, _, rfl, by
        intro e he; rw [List.mem_singleton] at he; rw [he]; exact ⟨nofun, nofun, nofun, nofun⟩⟩
  · exact h0

theorem openOutput_lf (s : Capture) : LF s s.openOutput.2 := by
  unfold Capture.openOutput
  split
  · exact ⟨rfl, rfl, rfl, rfl, rfl, _, rfl, by
      intro e he; rw [List.mem_singleton] at he; rw [he]; exact ⟨nofun, nofun, nofun, nofun⟩⟩
  · split
    · have h1 : LF s s.updateFname.2 := ⟨rfl, rfl, rfl, rfl, rfl, _, rfl, by
        intro e he; rw [List.mem_singleton] at he; rw [he]; exact ⟨nofun, nofun, nofun, nofun⟩⟩
      split
      · rename_i s1 h; rw [h] at h1; exact h1
      · rename_i n s1 h; rw [h] at h1; exact h1.trans (openFile_lf _ _)
    · exact openFile_lf _ _

theorem openWriteFile_lf {s s' : Capture} {ok : Bool} (h : s.openWriteFile = .ok (ok, s')) :
    LF s s' := by
  unfold Capture.openWriteFile at h
  have h1 := openOutput_lf s
  split at h
  · rename_i s1 e; rw [e] at h1; cases h; exact h1
  · rename_i s1 e
    rw [e] at h1
    obtain ⟨⟨ok', s2⟩, e2, h⟩ := Exec.bind_eq_ok.1 h
    have h2 := h1.trans (openWriteStart_lf e2)
    dsimp only at h
    split at h
    · cases h
      exact (h2.trans (failed_lf s2)).trans (fclose_lf _)
    · cases h; exact h2

theorem closeWriteFile_lf {s s' : Capture} {ok : Bool} (h : s.closeWriteFile = .ok (ok, s')) :
    LF s s' := by
  unfold Capture.closeWriteFile at h
  split at h
  · cases h; exact LF.refl s
  · rename_i i _
    obtain ⟨⟨ok', s2⟩, e2, h⟩ := Exec.bind_eq_ok.1 h
    have h2 := closeWriteStop_lf e2
    dsimp only at h
    split at h
    · cases h; exact h2.trans (failed_lf s2)
    · cases h
      exact (h2.trans (fclose_lf s2)).trans (LF.emit _ ⟨nofun, nofun, nofun, nofun⟩)

theorem exit_lf (s : Capture) (k : Nat) : LF s (s.exit k) :=
  ⟨rfl, rfl, rfl, rfl, rfl, [], by simp [Capture.exit, Capture.call], by simp⟩

theorem rotateOutput_lf {s s' : Capture} (h : s.rotateOutput = .ok s') : LF s s' := by
  unfold Capture.rotateOutput at h
  split at h
  · cases h; exact LF.refl s
  · obtain ⟨⟨ok, s1⟩, e1, h⟩ := Exec.bind_eq_ok.1 h
    have h1 := closeWriteFile_lf e1
    dsimp only at h
    split at h
    · cases h; exact h1.trans (exit_lf _ _)
    · obtain ⟨⟨ok, s2⟩, e2, h⟩ := Exec.bind_eq_ok.1 h
      have h2 := h1.trans (openWriteFile_lf e2)
      dsimp only at h
      split at h
      · cases h; exact h2.trans (exit_lf _ _)
      · cases h; exact h2

theorem maybeRotateOutput_lf {s s' : Capture} (h : s.maybeRotateOutput = .ok s') : LF s s' := by
  have h0 : LF s ({ s with nTime := s.nTime + 1 }.emit (.asked (s.env.time s.nTime))) :=
    ⟨rfl, rfl, rfl, rfl, rfl, _, rfl, by
      intro e he; rw [List.mem_singleton] at he; rw [he]; exact ⟨nofun, nofun, nofun, nofun⟩⟩
  unfold Capture.maybeRotateOutput at h
  split at h
  · dsimp only at h
    split at h
    · exact h0.trans (rotateOutput_lf h)
    · cases h; exact h0
  · cases h; exact LF.refl s

theorem writeVecs_lf (total : Nat) : ∀ (vs : List Bytes) (br : Nat) (s s' : Capture) (r : Option Nat),
    Capture.writeVecs total vs br s = .ok (r, s') → LF s s' := by
  intro vs
  induction vs with
  | nil => intro br s s' r h; unfold Capture.writeVecs at h; cases h; exact LF.refl s
  | cons v vs ih =>
    intro br s s' r h
    unfold Capture.writeVecs at h
    dsimp only at h
    obtain ⟨⟨ok, s1⟩, e1, h⟩ := Exec.bind_eq_ok.1 h
    have h1 := fwrite_lf e1
    dsimp only at h
    split at h
    · cases h; exact h1.trans (exit_lf _ _)
    · exact h1.trans (ih _ _ _ _ h)

theorem processDataFrame_lf {s s' : Capture} {id : Nat} {c c' : Conn} {total : Nat}
    (h : s.processDataFrame id c total = .ok (c', s')) : LF s s' := by
  unfold Capture.processDataFrame at h
  dsimp only at h
  split at h
  · cases h
  · obtain ⟨⟨r, s1⟩, e1, h⟩ := Exec.bind_eq_ok.1 h
    have h1 := writeVecs_lf _ _ _ _ _ _ e1
    dsimp only at h
    split at h
    · cases h; exact h1.trans (failed_lf _)
    · split at h
      · cases h
      · cases h; exact h1.trans (LF.emit _ ⟨nofun, nofun, nofun, nofun⟩)

theorem cbReadLoop_lf (id : Nat) : ∀ (fuel : Nat) (c : Conn) (s s' : Capture),
    Capture.cbReadLoop id fuel c s = .ok s' → ∃ s1, LF s s1 ∧
      ((∃ c', s' = s1.setConn id (some c')) ∨ s' = s1.closeConn id ∨ s' = s1) := by
  intro fuel
  induction fuel with
  | zero => intro c s s' h; cases h
  | succ fuel ih =>
    intro c s s' h
    unfold Capture.cbReadLoop at h
    dsimp only at h
    split at h
    · cases h; exact ⟨s, LF.refl s, Or.inl ⟨_, rfl⟩⟩
    split at h
    · exact ih _ _ _ h
    split at h
    · cases h; exact ⟨s, LF.refl s, Or.inl ⟨_, rfl⟩⟩
    · cases h; exact ⟨s, LF.refl s, Or.inr (Or.inl rfl)⟩
    · split at h
      · obtain ⟨⟨c1, s1⟩, e1, h⟩ := Exec.bind_eq_ok.1 h
        have h1 := processDataFrame_lf e1
        dsimp only at h
        split at h
        · cases h; exact ⟨_, h1, Or.inr (Or.inr rfl)⟩
        · obtain ⟨s2, e2, h⟩ := Exec.bind_eq_ok.1 h
          have h2 := h1.trans (maybeRotateOutput_lf e2)
          split at h
          · cases h; exact ⟨_, h2, Or.inr (Or.inr rfl)⟩
          · obtain ⟨s3, h3, h'⟩ := ih _ _ _ h
            exact ⟨s3, h2.trans h3, h'⟩
      · obtain ⟨⟨ok, c1⟩, e1, h⟩ := Exec.bind_eq_ok.1 h
        dsimp only at h
        split at h
        · cases h; exact ⟨s, LF.refl s, Or.inr (Or.inl rfl)⟩
        · obtain ⟨⟨ok, c2⟩, e2, h⟩ := Exec.bind_eq_ok.1 h
          dsimp only at h
          split at h
          · cases h; exact ⟨s, LF.refl s, Or.inr (Or.inl rfl)⟩
          · exact ih _ _ _ h

/-- Invariant of the listener. -/
structure LInv (s : Capture) : Prop where
  listen : ListenInv s
  new : ∀ id, s.nextId ≤ id → s.conns id = none

theorem LInv.lf {s s' : Capture} (h : LInv s) (f : LF s s') : LInv s' := by
  obtain ⟨es, l, he⟩ := f.log
  exact ⟨h.listen.congr f.args (fun i => by rw [f.conns]) f.remaining f.listening l
      (fun e h => ⟨(he e h).1, (he e h).2.1⟩),
    by rw [f.nextId, f.conns]; exact h.new⟩

theorem LInv.emit {s : Capture} (h : LInv s) {e : CapEv}
    (he : (∀ id, e ≠ .accepted id) ∧ ∀ id, e ≠ .hungup id) : LInv (s.emit e) :=
  ⟨h.listen.congr rfl (fun _ => rfl) rfl rfl rfl
    (fun e' h' => by rw [List.mem_singleton] at h'; rw [h']; exact he), h.new⟩

theorem LInv.close {s : Capture} (h : LInv s) {id : Nat} (hid : (s.conns id).isSome) :
    LInv (s.closeConn id) := by
  obtain ⟨_, _, _, _, _, f6, _, f8, _⟩ := closeConn_fields s id
  refine ⟨closeConn_listen h.listen hid, ?_⟩
  rw [f6, f8]
  intro i hi
  dsimp only
  split
  · rfl
  · exact h.new i hi

theorem LInv.set {s : Capture} (h : LInv s) {id : Nat} (c : Conn) (hid : (s.conns id).isSome) :
    LInv (s.setConn id (some c)) := by
  refine ⟨h.listen.congr (es := []) rfl ?_ rfl rfl (by simp [Capture.setConn]) (by simp), ?_⟩
  · intro i
    by_cases hi : i = id
    · subst hi; simp [Capture.setConn, hid]
    · simp [Capture.setConn, hi]
  · intro i hi
    have h1 := h.new i hi
    have : i ≠ id := by rintro rfl; rw [h1] at hid; cases hid
    simp [Capture.setConn, this, h1]

theorem step_linv {s s' : Capture} {a : CapAct} (h : LInv s) (e : s.step a = .ok s') :
    LInv s' ∧ s'.args = s.args := by
  unfold Capture.step at e
  split at e
  · cases e; exact ⟨h, rfl⟩
  cases a with
  | accept =>
    dsimp only at e
    split at e
    · rename_i hl
      cases e
      obtain ⟨f1, _, _, _, _, f6, _, f8, _⟩ := accept_fields s
      refine ⟨⟨accept_listen h.listen (h.new _ (Nat.le_refl _)) hl, ?_⟩, f1⟩
      rw [f6, f8]
      intro i hi
      dsimp only
      rw [if_neg (by omega)]
      exact h.new i (by omega)
    · cases e; exact ⟨h, rfl⟩
  | recv id bs chains =>
    dsimp only at e
    cases hc : s.conns id with
    | none => rw [hc] at e; cases e; exact ⟨h, rfl⟩
    | some c =>
      rw [hc] at e
      dsimp only at e
      split at e
      · obtain ⟨s1, f, hr⟩ := cbReadLoop_lf _ _ _ _ _ e
        have h1 := (h.emit (e := .received id bs) ⟨nofun, nofun⟩).lf f
        have hid : (s1.conns id).isSome := by rw [f.conns]; show (s.conns id).isSome; rw [hc]; rfl
        have ha : s1.args = s.args := f.args
        rcases hr with ⟨c', rfl⟩ | rfl | rfl
        · exact ⟨h1.set c' hid, ha⟩
        · exact ⟨h1.close hid, (closeConn_fields s1 id).1.trans ha⟩
        · exact ⟨h1, ha⟩
      · cases e; exact ⟨h, rfl⟩
  | send id k =>
    dsimp only at e
    cases hc : s.conns id with
    | none => rw [hc] at e; cases e; exact ⟨h, rfl⟩
    | some c =>
      rw [hc] at e
      dsimp only at e
      split at e
      · have h1 := (h.set { c with output := c.output.drop k } (id := id) (by rw [hc]; rfl)).emit
          (e := .sent id (c.output.take k)) ⟨nofun, nofun⟩
        split at e
        · unfold Capture.cbWrite at e
          split at e
          · cases e; exact ⟨h1, rfl⟩
          · cases e
            exact ⟨h1.close (by simp [Capture.emit, Capture.setConn]), (closeConn_fields _ _).1⟩
        · cases e; exact ⟨h1, rfl⟩
      · cases e; exact ⟨h, rfl⟩
  | hangup id =>
    dsimp only at e
    cases hc : s.conns id with
    | none => rw [hc] at e; cases e; exact ⟨h, rfl⟩
    | some c =>
      rw [hc] at e
      cases e
      exact ⟨h.close (by rw [hc]; rfl), (closeConn_fields _ _).1⟩
  | sigusr1 =>
    dsimp only at e
    split at e
    · have f := rotateOutput_lf e
      exact ⟨h.lf f, f.args⟩
    · cases e; exact ⟨h, rfl⟩
  | sighup =>
    cases e
    exact ⟨h.lf (fflush_lf s), (fflush_lf s).args⟩
  | term =>
    dsimp only at e
    unfold Capture.shutdown at e
    obtain ⟨⟨ok, s1⟩, e1, e⟩ := Exec.bind_eq_ok.1 e
    have f := closeWriteFile_lf e1
    cases ok <;> cases e
    · exact ⟨h.lf (f.trans (exit_lf _ 1)), f.args⟩
    · exact ⟨h.lf (f.trans (exit_lf _ 0)), f.args⟩
  | rename a b =>
    dsimp only at e
    split at e <;> cases e
    · exact ⟨h, rfl⟩
    · exact ⟨h.lf ⟨rfl, rfl, rfl, rfl, rfl, [], by simp, by simp⟩, rfl⟩
  | remove a =>
    cases e
    exact ⟨h.lf ⟨rfl, rfl, rfl, rfl, rfl, [], by simp, by simp⟩, rfl⟩

theorem run_linv : ∀ (acts : List CapAct) {s s' : Capture}, LInv s → s.run acts = .ok s' →
    LInv s' ∧ s'.args = s.args := by
  intro acts
  induction acts with
  | nil => intro s s' h e; cases e; exact ⟨h, rfl⟩
  | cons a r ih =>
    intro s s' h e
    unfold Capture.run at e
    obtain ⟨s1, e1, e⟩ := Exec.bind_eq_ok.1 e
    obtain ⟨h1, a1⟩ := step_linv h e1
    obtain ⟨h2, a2⟩ := ih h1 e
    exact ⟨h2, a2.trans a1⟩

theorem start_linv {args : CapArgs} {env : CapEnv} {s : Capture} (e : Capture.start args env = .ok s) :
    LInv s ∧ s.args = args := by
  unfold Capture.start at e
  dsimp only at e
  generalize hs0 : (⟨args, env, none, 0, [], fun _ => none, 0, 0, 0, args.remaining, true,
    fun _ => none, none, 0, [], []⟩ : Capture) = s0 at e
  have h0 : LInv s0 := by
    rw [← hs0]
    refine ⟨⟨List.nodup_nil, ?_, ?_, ?_, ?_⟩, fun _ _ => rfl⟩
    · intro id; simp [active]
    · simp [active]
    · intro h; dsimp only at h; simp [active]; omega
    · simp [active]
  have a0 : s0.args = args := by rw [← hs0]
  split at e
  · cases e; exact ⟨h0.lf (exit_lf _ _), a0⟩
  · obtain ⟨⟨ok, s1⟩, e1, e⟩ := Exec.bind_eq_ok.1 e
    have f := openWriteFile_lf e1
    cases ok <;> cases e
    · exact ⟨h0.lf (f.trans (exit_lf _ 1)), f.args.trans a0⟩
    · exact ⟨h0.lf f, f.args.trans a0⟩

end Fstrm
