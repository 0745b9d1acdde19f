import Verif.Lemmas.CaptureListen

/-!
# Lemmas for C107: the buffers of a connection are bounded
-/

set_option autoImplicit false

namespace Fstrm

open Spec (CapEv CType CFrame)

/-- How much may be waiting to be sent in each state. -/
def ConnState.replies (ct : Bytes) : ConnState → Nat
  | .readingControlReady => 0
  | .readingControlStart | .readingData => (CFrame.wire ⟨.accept, [ct]⟩).length
  | .stopped => (CFrame.wire ⟨.accept, [ct]⟩).length + (CFrame.wire ⟨.finish, []⟩).length

/-- The buffers of a connection are within the limits. -/
def Conn.Small (hw : Nat) (ct : Bytes) (c : Conn) : Prop :=
  evLength c.input ≤ hw ∧ c.output.length ≤ c.state.replies ct

/-- The connection has the same state and output, and not more input. -/
def Conn.Eaten (c c' : Conn) : Prop :=
  evLength c'.input ≤ evLength c.input ∧ c'.output = c.output ∧ c'.state = c.state

theorem Conn.Small.eaten {hw : Nat} {ct : Bytes} {c c' : Conn} (h : c.Small hw ct) (he : c.Eaten c') :
    c'.Small hw ct := by
  obtain ⟨e1, e2, e3⟩ := he
  exact ⟨by have := h.1; omega, by rw [e2, e3]; exact h.2⟩

theorem evLength_drain (n : Nat) (b : List Bytes) : evLength (evDrain n b) ≤ evLength b := by
  unfold evLength
  rw [evDrain_flatten, List.length_drop]
  omega

theorem loadControlFrame_eaten {c c' : Conn} {total : Nat} {ok : Bool}
    (h : Capture.loadControlFrame c total = .ok (ok, c')) : c.Eaten c' := by
  unfold Capture.loadControlFrame at h
  split at h
  · cases h; exact ⟨Nat.le_refl _, rfl, rfl⟩
  · split at h
    · cases h; exact ⟨Nat.le_refl _, rfl, rfl⟩
    · rename_i frame input hp
      obtain ⟨⟨res, ctl⟩, e1, h⟩ := Exec.bind_eq_ok.1 h
      have hin : evLength input ≤ evLength c.input := by
        unfold evPullup at hp
        split at hp
        · cases hp
        · simp only [Option.some.injEq, Prod.mk.injEq] at hp
          rw [← hp.2]
          unfold evLength
          rw [List.flatten_cons, evDrain_flatten, List.take_append_drop]
          exact Nat.le_refl _
      dsimp only at h
      split at h
      · cases h; exact ⟨hin, rfl, rfl⟩
      · cases h
        exact ⟨Nat.le_trans (evLength_drain _ _) hin, rfl, rfl⟩

theorem processDataFrame_eaten {s s' : Capture} {id : Nat} {c c' : Conn} {total : Nat}
    (h : s.processDataFrame id c total = .ok (c', s')) : c.Eaten c' := by
  unfold Capture.processDataFrame at h
  dsimp only at h
  split at h
  · cases h
  · obtain ⟨⟨r, s1⟩, e1, h⟩ := Exec.bind_eq_ok.1 h
    dsimp only at h
    split at h
    · cases h; exact ⟨Nat.le_refl _, rfl, rfl⟩
    · split at h
      · cases h
      · cases h; exact ⟨evLength_drain _ _, rfl, rfl⟩

theorem writeControlFrame_len {c c' : Conn} {t : CType} {cts : List Bytes} (hc : c.control = ⟨t.code, cts⟩)
    (h : Capture.writeControlFrame c = .ok (true, c')) :
    c'.input = c.input ∧ c'.output.length = c.output.length + (CFrame.wire ⟨t, t.visible cts⟩).length := by
  unfold Capture.writeControlFrame at h
  rw [hc, encodeFrame_eq] at h
  split at h
  · simp only [Exec.ok_bind] at h
    cases h
    exact ⟨rfl, by simp⟩
  · cases h

theorem processControlFrame_small {s : Capture} {hw : Nat} {c c' : Conn}
    (hs : c.Small hw s.args.contentType) (h : s.processControlFrame c = .ok (true, c')) :
    c'.Small hw s.args.contentType := by
  obtain ⟨h1, h2⟩ := hs
  unfold Capture.processControlFrame at h
  split at h
  · rename_i type ht
    cases hst : c.state with
    | readingControlReady =>
      rw [hst] at h h2
      dsimp only at h
      split at h
      · cases h
      · unfold Capture.processReady at h
        split at h
        · cases h
        split at h
        · cases h
        dsimp only at h
        split at h
        · cases h
        split at h
        · cases h
        obtain ⟨⟨ok, c1⟩, e1, h⟩ := Exec.bind_eq_ok.1 h
        cases ok with
        | false => cases h
        | true =>
          cases h
          obtain ⟨i1, i2⟩ := writeControlFrame_len (t := .accept) (cts := [s.args.contentType]) rfl e1
          refine ⟨by show evLength c1.input ≤ hw; rw [i1]; exact h1, ?_⟩
          show c1.output.length ≤ _
          rw [i2]
          simp only [ConnState.replies] at h2 ⊢
          show c.output.length + (CFrame.wire ⟨.accept, [s.args.contentType]⟩).length ≤ _
          omega
    | readingControlStart =>
      rw [hst] at h h2
      dsimp only at h
      split at h
      · cases h
      · unfold Capture.processStart at h
        split at h
        · cases h
        · cases h; exact ⟨h1, h2⟩
    | readingData =>
      rw [hst] at h h2
      dsimp only at h
      split at h
      · cases h
      · unfold Capture.processStop at h
        dsimp only at h
        split at h
        · cases h
        obtain ⟨⟨ok, c1⟩, e1, h⟩ := Exec.bind_eq_ok.1 h
        cases ok with
        | false => cases h
        | true =>
          cases h
          obtain ⟨i1, i2⟩ := writeControlFrame_len (t := .finish) (cts := []) rfl e1
          refine ⟨by show evLength c1.input ≤ hw; rw [i1]; exact h1, ?_⟩
          show c1.output.length ≤ _
          rw [i2]
          simp only [ConnState.replies] at h2 ⊢
          show c.output.length + (CFrame.wire ⟨.finish, []⟩).length ≤ _
          omega
    | stopped =>
      rw [hst] at h
      cases h
  · cases h

theorem cbReadLoop_small (id hw : Nat) : ∀ (fuel : Nat) (c : Conn) (s s' : Capture),
    c.Small hw s.args.contentType → Capture.cbReadLoop id fuel c s = .ok s' → ∃ s1, LF s s1 ∧
      ((∃ c', s' = s1.setConn id (some c') ∧ c'.Small hw s.args.contentType) ∨ s' = s1.closeConn id ∨ s' = s1) := by
  intro fuel
  induction fuel with
  | zero => intro c s s' _ h; cases h
  | succ fuel ih =>
    intro c s s' hc h
    unfold Capture.cbReadLoop at h
    dsimp only at h
    split at h
    · cases h; exact ⟨s, LF.refl s, Or.inl ⟨_, rfl, hc⟩⟩
    split at h
    · refine ih _ _ _ ?_ h
      exact hc.eaten ⟨evLength_drain _ _, rfl, rfl⟩
    split at h
    · cases h; exact ⟨s, LF.refl s, Or.inl ⟨_, rfl, hc⟩⟩
    · cases h; exact ⟨s, LF.refl s, Or.inr (Or.inl rfl)⟩
    · split at h
      · obtain ⟨⟨c1, s1⟩, e1, h⟩ := Exec.bind_eq_ok.1 h
        have h1 := processDataFrame_lf e1
        dsimp only at h
        split at h
        · cases h; exact ⟨_, h1, Or.inr (Or.inr rfl)⟩
        · obtain ⟨s2, e2, h⟩ := Exec.bind_eq_ok.1 h
          have h2 := h1.trans (maybeRotateOutput_lf e2)
          split at h
          · cases h; exact ⟨_, h2, Or.inr (Or.inr rfl)⟩
          · obtain ⟨s3, h3, h'⟩ := ih _ _ _ (by rw [h2.args]; exact hc.eaten (processDataFrame_eaten e1)) h
            rw [h2.args] at h'
            exact ⟨s3, h2.trans h3, h'⟩
      · obtain ⟨⟨ok, c1⟩, e1, h⟩ := Exec.bind_eq_ok.1 h
        dsimp only at h
        split at h
        · cases h; exact ⟨s, LF.refl s, Or.inr (Or.inl rfl)⟩
        · obtain ⟨⟨ok, c2⟩, e2, h⟩ := Exec.bind_eq_ok.1 h
          cases ok with
          | false => cases h; exact ⟨s, LF.refl s, Or.inr (Or.inl rfl)⟩
          | true => exact ih _ _ _ (processControlFrame_small (hc.eaten (loadControlFrame_eaten e1)) e2) h

/-- All connections are within the limits. -/
def Capture.Small (s : Capture) : Prop :=
  ∀ id c, s.conns id = some c → c.Small s.args.highwater s.args.contentType

theorem Capture.Small.lf {s s' : Capture} (h : s.Small) (f : LF s s') : s'.Small := by
  intro id c hc
  rw [f.conns] at hc
  rw [f.args]
  exact h id c hc

theorem Capture.Small.close {s : Capture} (h : s.Small) (id : Nat) : (s.closeConn id).Small := by
  intro i c hc
  obtain ⟨f1, _, _, _, _, _, _, f8, _⟩ := closeConn_fields s id
  rw [f8] at hc
  rw [f1]
  dsimp only at hc
  split at hc
  · cases hc
  · exact h i c hc

theorem Capture.Small.set {s : Capture} (h : s.Small) {id : Nat} {c : Conn}
    (hc : c.Small s.args.highwater s.args.contentType) : (s.setConn id (some c)).Small := by
  intro i c' hc'
  simp only [Capture.setConn] at hc' ⊢
  split at hc'
  · cases hc'; exact hc
  · exact h i c' hc'

theorem step_small {s s' : Capture} {a : CapAct} (h : s.Small) (e : s.step a = .ok s') : s'.Small := by
  unfold Capture.step at e
  split at e
  · cases e; exact h
  cases a with
  | accept =>
    dsimp only at e
    split at e
    · cases e
      obtain ⟨f1, _, _, _, _, _, _, f8, _⟩ := accept_fields s
      intro i c hc
      rw [f8] at hc
      rw [f1]
      dsimp only at hc
      split at hc
      · cases hc; exact ⟨Nat.zero_le _, Nat.zero_le _⟩
      · exact h i c hc
    · cases e; exact h
  | recv id bs chains =>
    dsimp only at e
    cases hc : s.conns id with
    | none => rw [hc] at e; cases e; exact h
    | some c =>
      rw [hc] at e
      dsimp only at e
      split at e
      · rename_i hg
        have hsm : Conn.Small s.args.highwater s.args.contentType { c with input := chains } :=
          ⟨hg.2.2.2, (h id c hc).2⟩
        obtain ⟨s1, f, hr⟩ := cbReadLoop_small id s.args.highwater _ _ (s.emit (.received id bs)) _ hsm e
        have h1 : s1.Small := Capture.Small.lf (s := s.emit (.received id bs)) h f
        have ha : s1.args = s.args := f.args
        rcases hr with ⟨c', rfl, hc'⟩ | rfl | rfl
        · exact h1.set (by rw [ha]; exact hc')
        · exact h1.close id
        · exact h1
      · cases e; exact h
  | send id k =>
    dsimp only at e
    cases hc : s.conns id with
    | none => rw [hc] at e; cases e; exact h
    | some c =>
      rw [hc] at e
      dsimp only at e
      split at e
      · have h1 : ((s.setConn id (some { c with output := c.output.drop k })).emit
            (.sent id (c.output.take k))).Small :=
          h.set ⟨(h id c hc).1, by
            have := (h id c hc).2
            show (c.output.drop k).length ≤ c.state.replies s.args.contentType
            rw [List.length_drop]
            omega⟩
        split at e
        · unfold Capture.cbWrite at e
          split at e
          · cases e; exact h1
          · cases e; exact h1.close id
        · cases e; exact h1
      · cases e; exact h
  | hangup id =>
    dsimp only at e
    cases hc : s.conns id with
    | none => rw [hc] at e; cases e; exact h
    | some c => rw [hc] at e; cases e; exact h.close id
  | sigusr1 =>
    dsimp only at e
    split at e
    · exact h.lf (rotateOutput_lf e)
    · cases e; exact h
  | sighup => cases e; exact h.lf (fflush_lf s)
  | term =>
    dsimp only at e
    unfold Capture.shutdown at e
    obtain ⟨⟨ok, s1⟩, e1, e⟩ := Exec.bind_eq_ok.1 e
    have f := closeWriteFile_lf e1
    cases ok <;> cases e
    · exact h.lf (f.trans (exit_lf _ 1))
    · exact h.lf (f.trans (exit_lf _ 0))
  | rename a b =>
    dsimp only at e
    split at e <;> cases e
    · exact h
    · exact h
  | remove a => cases e; exact h

theorem run_small : ∀ (acts : List CapAct) {s s' : Capture}, s.Small → s.run acts = .ok s' → s'.Small := by
  intro acts
  induction acts with
  | nil => intro s s' h e; cases e; exact h
  | cons a r ih =>
    intro s s' h e
    unfold Capture.run at e
    obtain ⟨s1, e1, e⟩ := Exec.bind_eq_ok.1 e
    exact ih (step_small h e1) e

theorem start_small {args : CapArgs} {env : CapEnv} {s : Capture} (e : Capture.start args env = .ok s) :
    s.Small := by
  unfold Capture.start at e
  dsimp only at e
  generalize hs0 : (⟨args, env, none, 0, [], fun _ => none, 0, 0, 0, args.remaining, true,
    fun _ => none, none, 0, [], []⟩ : Capture) = s0 at e
  have h0 : s0.Small := by
    rw [← hs0]
    intro i c hc
    cases hc
  split at e
  · cases e; exact h0.lf (exit_lf _ _)
  · obtain ⟨⟨ok, s1⟩, e1, e⟩ := Exec.bind_eq_ok.1 e
    have f := openWriteFile_lf e1
    cases ok <;> cases e
    · exact h0.lf (f.trans (exit_lf _ 1))
    · exact h0.lf f

end Fstrm
