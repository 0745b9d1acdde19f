import Verif.Lemmas.WriterStream

/-! Phase invariants of the transport log. -/

set_option autoImplicit false

namespace Fstrm

open Spec (Phase WPhase CType CFrame)

variable {σ : Type}

/-! ### Call discipline of `rdwr.c` -/

/-- The log obeys the discipline and ends in the phase recorded by `opened`. -/
def Disc (rw : Rdwr σ) : Prop :=
  rw.ops.cls ≠ none ∧ Phase.closed.run rw.log = some (if rw.opened then .isOpen else .closed)

theorem Disc.init {ops : Ops σ} {obj : σ} (h : ops.cls ≠ none) : Disc (Rdwr.init ops obj) :=
  ⟨h, rfl⟩

theorem Disc.prim {a b : Rdwr σ} (ha : Disc a) (h : Prim a b) : Disc b := by
  obtain ⟨hc, hl⟩ := ha
  refine ⟨by rw [h.ops]; exact hc, ?_⟩
  cases h with
  | @opn r h =>
    rcases (Rdwr.open_ok h).2 with ⟨_, _, rfl⟩ | ⟨h2, h3⟩
    · exact hl
    · rw [h2, h3, Phase.run_append, hl]
      cases a.opened <;> cases r <;> rfl
  | cls h =>
    rcases (Rdwr.close_ok h).2 with ⟨_, _, rfl⟩ | ⟨_, _, _, rfl⟩ | ⟨_, h2, h3, h4⟩
    · exact hl
    · exact hl
    · rw [h3, h4, Phase.run_append, hl, h2]; rfl
  | @rd n r bs h =>
    rcases (Rdwr.read_ok h).2 with ⟨_, _, _, rfl⟩ | ⟨h1, h2, h3, h4, h5⟩ |
      ⟨h1, h2, h3, bs', ⟨h4, _⟩ | ⟨h4, h5, rc, h6⟩⟩
    · exact hl
    · rw [h5, h4, Phase.run_append, hl, h1]; rfl
    · exact absurd h4 hc
    · rw [h6, h5, Phase.run_append, hl, h1]
      cases r <;> first | exact absurd rfl h2 | rfl
  | @wr iov r h =>
    rcases (Rdwr.write_ok h).2 with ⟨_, _, rfl⟩ | ⟨h1, h2, h4, h5⟩ |
      ⟨h1, h2, ⟨h4, _⟩ | ⟨h4, h5, rc, h6⟩⟩
    · exact hl
    · rw [h5, h4, Phase.run_append, hl, h1]; rfl
    · exact absurd h4 hc
    · rw [h6, h5, Phase.run_append, hl, h1]
      cases r <;> first | exact absurd rfl h2 | rfl

theorem Disc.reach {a b : Rdwr σ} (ha : Disc a) (h : Reach a b) : Disc b :=
  h.inv ha fun _ _ h1 h2 => h1.prim h2

theorem step_reach {w w' : Writer σ} {op : WOp} {r : Res} (h : w.step op = .ok (r, w')) :
    Reach w.rdwr w'.rdwr := by
  cases op with
  | opn => exact (open_frame h).2.1
  | write d => exact (writev_frame (iov := [d]) h).2
  | writev ds => exact (writev_frame h).2
  | getControl t =>
    obtain ⟨⟨res, c, w2⟩, h1, h⟩ := Exec.bind_eq_ok.1 h
    cases h; exact (getControl_frame h1).2
  | close => exact (close_frame h).2.1

theorem run_reach {w w' : Writer σ} {ops : List WOp} {rs : List Res}
    (h : w.run ops = .ok (rs, w')) : Reach w.rdwr w'.rdwr := by
  induction ops generalizing w rs with
  | nil => cases h; exact .refl
  | cons op rest ih =>
    obtain ⟨⟨r, w1⟩, h1, h⟩ := Exec.bind_eq_ok.1 h
    obtain ⟨⟨rs', w2⟩, h2, h⟩ := Exec.bind_eq_ok.1 h
    cases h
    exact (step_reach h1).trans (ih h2)

/-! ### Phases of the written stream -/

/-- The phase of the stream according to the writer's own state. -/
def Writer.phase (w : Writer σ) : WPhase :=
  if w.rdwr.opened then (if w.state = .opened then .streaming else .handshake) else .closed

/-- The log is a legal trace ending in the phase `p` (or closed). -/
def TracedAs (rw : Rdwr σ) (p : WPhase) : Prop :=
  rw.ops.cls ≠ none ∧ rw.ops.wr ≠ none ∧
    WPhase.Trace .closed rw.log (if rw.opened then p else .closed)

theorem trace_snoc2 {p q q' q'' : WPhase} {l : List Ev} {e e' : Ev} (h : WPhase.Trace p l q)
    (h1 : WPhase.Step q e q') (h2 : WPhase.Step q' e' q'') : WPhase.Trace p (l ++ [e, e']) q'' := by
  have := WPhase.Trace.snoc _ _ _ _ _ (WPhase.Trace.snoc _ _ _ _ _ h h1) h2
  simpa using this

theorem TracedAs.ofClosed {a : Rdwr σ} {p q : WPhase} (h : TracedAs a p) (ho : a.opened = false) :
    TracedAs a q := by
  obtain ⟨h1, h2, h3⟩ := h
  refine ⟨h1, h2, ?_⟩
  simpa [ho] using h3

theorem TracedAs.write {a b : Rdwr σ} {p q : WPhase} {iov : List Bytes} {r : Res}
    (h : TracedAs a p) (hs : WPhase.Sends p iov q) (hw : a.write iov = .ok (r, b)) :
    (r = .success → TracedAs b q ∧ b.opened = true) ∧
    (r ≠ .success → TracedAs b p ∧ b.opened = false) := by
  obtain ⟨hc, hwr, ht⟩ := h
  obtain ⟨ho, hw⟩ := Rdwr.write_ok hw
  rcases hw with ⟨h1, h2, h3⟩ | ⟨h1, h2, h4, h5⟩ | ⟨h1, h2, ⟨h4, _⟩ | ⟨h4, h5, rc, h6⟩⟩
  · subst h2; subst h3
    refine ⟨nofun, fun _ => ⟨⟨hc, hwr, ht⟩, ?_⟩⟩
    rcases h1 with h1 | h1
    · exact h1
    · exact absurd h1 hwr
  · subst h2
    refine ⟨fun _ => ⟨⟨by rw [ho]; exact hc, by rw [ho]; exact hwr, ?_⟩, h4⟩, fun h => absurd rfl h⟩
    rw [if_pos h1] at ht
    rw [h5, if_pos h4]
    exact .snoc _ _ _ _ _ ht (.sent _ _ _ hs)
  · exact absurd h4 hc
  · refine ⟨fun h => absurd h h2, fun _ =>
      ⟨⟨by rw [ho]; exact hc, by rw [ho]; exact hwr, ?_⟩, h5⟩⟩
    rw [if_pos h1] at ht
    rw [h6, h5]
    exact trace_snoc2 ht (.sendFails _ _ _ _ hs h2) (.closes _ _ (by simp))

theorem TracedAs.read {a b : Rdwr σ} {p : WPhase} {n : Nat} {r : Res} {bs : Bytes}
    (h : TracedAs a p) (hp : p = .handshake ∨ p = .stopped) (hw : a.read n = .ok (r, bs, b)) :
    TracedAs b p := by
  obtain ⟨hc, hwr, ht⟩ := h
  obtain ⟨ho, hw⟩ := Rdwr.read_ok hw
  rcases hw with ⟨_, _, _, rfl⟩ | ⟨h1, h2, h3, h4, h5⟩ |
      ⟨h1, h2, h3, bs', ⟨h4, _⟩ | ⟨h4, h5, rc, h6⟩⟩
  · exact ⟨hc, hwr, ht⟩
  · refine ⟨by rw [ho]; exact hc, by rw [ho]; exact hwr, ?_⟩
    rw [if_pos h1] at ht
    rw [h5, if_pos h4]
    rcases hp with rfl | rfl
    · exact .snoc _ _ _ _ _ ht (.rdHandshake _ _)
    · exact .snoc _ _ _ _ _ ht (.rdStopped _ _)
  · exact absurd h4 hc
  · refine ⟨by rw [ho]; exact hc, by rw [ho]; exact hwr, ?_⟩
    rw [if_pos h1] at ht
    rw [h6, h5]
    exact trace_snoc2 ht (.rdFails _ _ _ _ hp h2) (.closes _ _ (by simp))

theorem TracedAs.reads {a b : Rdwr σ} {p : WPhase}
    (h : TracedAs a p) (hp : p = .handshake ∨ p = .stopped) (hr : RdReach a b) :
    TracedAs b p := by
  induction hr with
  | refl => exact h
  | tail _ h2 ih => exact ih.read hp h2

theorem TracedAs.open {a b : Rdwr σ} {r : Res}
    (h : TracedAs a .handshake) (hw : a.open = .ok (r, b)) : TracedAs b .handshake := by
  obtain ⟨hc, hwr, ht⟩ := h
  obtain ⟨ho, hw⟩ := Rdwr.open_ok hw
  rcases hw with ⟨_, _, rfl⟩ | ⟨h1, h2⟩
  · exact ⟨hc, hwr, ht⟩
  · refine ⟨by rw [ho]; exact hc, by rw [ho]; exact hwr, ?_⟩
    rw [h1, h2]
    cases hao : a.opened with
    | true =>
      rw [hao] at ht
      exact .snoc _ _ _ _ _ ht (.reopen _)
    | false =>
      rw [hao] at ht
      by_cases hr : r = .success
      · subst hr
        exact .snoc _ _ _ _ _ ht .opened
      · simp only [hr, decide_false, Bool.or_self, Bool.false_eq_true, if_false] at ht ⊢
        exact .snoc _ _ _ _ _ ht (.openFails _ hr)

theorem TracedAs.close {a b : Rdwr σ} {p q : WPhase} {r : Res} (hp : p ≠ .closed)
    (h : TracedAs a p) (hw : a.close = .ok (r, b)) : TracedAs b q ∧ b.opened = false := by
  obtain ⟨hc, hwr, ht⟩ := h
  obtain ⟨ho, hw⟩ := Rdwr.close_ok hw
  rcases hw with ⟨h1, _⟩ | ⟨_, h1, _, rfl⟩ | ⟨_, h1, h2, h3⟩
  · exact absurd h1 hc
  · exact ⟨TracedAs.ofClosed (p := p) ⟨hc, hwr, ht⟩ h1, h1⟩
  · refine ⟨⟨by rw [ho]; exact hc, by rw [ho]; exact hwr, ?_⟩, h2⟩
    rw [if_pos h1] at ht
    rw [h3, h2]
    exact .snoc _ _ _ _ _ ht (.closes _ _ hp)

theorem TracedAs.writeControlFrame {a b : Rdwr σ} {p q : WPhase} {t : CType} {cts : List Bytes}
    {r : Res} (h : TracedAs a p) (hs : WPhase.Sends p [CFrame.wire ⟨t, t.visible cts⟩] q)
    (hw : a.writeControlFrame ⟨t.code, cts⟩ = .ok (r, b)) :
    (r = .success → TracedAs b q ∧ b.opened = true) ∧ (r ≠ .success → TracedAs b p) := by
  rw [writeControlFrame_eq] at hw
  split at hw
  · obtain ⟨h1, h2⟩ := h.write hs hw
    exact ⟨h1, fun hr => (h2 hr).1⟩
  · cases hw; exact ⟨nofun, fun _ => h⟩

/-- The writer's log invariant. -/
def WInv (w : Writer σ) : Prop :=
  TracedAs w.rdwr (if w.state = .opened then .streaming else .handshake)

theorem sendStart_traced {w w' : Writer σ} {ct : Option Bytes} {r : Res}
    (hi : TracedAs w.rdwr .handshake) (h : w.sendStart ct = .ok (r, w')) :
    (r = .success → TracedAs w'.rdwr .streaming) ∧ (r ≠ .success → TracedAs w'.rdwr .handshake) := by
  obtain ⟨rw, h1, rfl⟩ := sendStart_ok h
  obtain ⟨h2, h3⟩ := hi.writeControlFrame (by rw [visible_toList]; exact .start ct) h1
  exact ⟨fun h => (h2 h).1, h3⟩

theorem openBidirectional_traced {w w' : Writer σ} {r : Res}
    (hi : TracedAs w.rdwr .handshake) (h : w.openBidirectional = .ok (r, w')) :
    (r = .success → TracedAs w'.rdwr .streaming) ∧ (r ≠ .success → TracedAs w'.rdwr .handshake) := by
  rw [openBidirectional_eq] at h
  simp only at h
  obtain ⟨⟨res, rw⟩, h1, h⟩ := Exec.bind_eq_ok.1 h
  obtain ⟨h2, h3⟩ := hi.writeControlFrame (.ready _) h1
  simp only at h
  split at h
  · rename_i hne
    cases h; exact ⟨fun h => absurd h hne, h3⟩
  · rename_i hs
    have hs : res = .success := by simpa using hs
    obtain ⟨⟨res, acc, rw2⟩, h4, h⟩ := Exec.bind_eq_ok.1 h
    have h5 := (h2 hs).1.reads (Or.inl rfl) (readControl_rdreach h4)
    simp only at h
    split at h
    · rename_i hne
      cases h; exact ⟨fun h => absurd h hne, fun _ => h5⟩
    · split at h
      · cases h
      · split at h
        · cases h; exact ⟨nofun, fun _ => h5⟩
        · exact sendStart_traced h5 h

theorem open_traced {w w' : Writer σ} {r : Res} (hi : WInv w) (h : w.open = .ok (r, w')) :
    WInv w' := by
  have hf := open_frame h
  unfold Writer.open at h
  split at h
  · cases h; exact hi
  · rename_i hns
    unfold WInv at hi
    rw [if_neg hns] at hi
    obtain ⟨⟨res, rw⟩, h1, h⟩ := Exec.bind_eq_ok.1 h
    have h2 := hi.open h1
    simp only at h
    split at h
    · cases h
      unfold WInv
      rw [if_neg hns]; exact h2
    · obtain ⟨⟨res, w2⟩, h3, h⟩ := Exec.bind_eq_ok.1 h
      have h4 : (res = .success → TracedAs w2.rdwr .streaming) ∧
          (res ≠ .success → TracedAs w2.rdwr .handshake) := by
        split at h3
        · exact openBidirectional_traced h2 h3
        · rw [openUnidirectional_eq] at h3
          exact sendStart_traced h2 h3
      simp only at h
      unfold WInv
      split at h
      · rename_i hne
        cases h
        rw [hf.2.2.2 hne, if_neg hns]
        exact h4.2 hne
      · rename_i hs
        have hs : res = .success := by simpa using hs
        cases h
        exact h4.1 hs

theorem maybeOpen_traced {w w' : Writer σ} {r : Res} (hi : WInv w)
    (h : w.maybeOpen = .ok (r, w')) : WInv w' := by
  unfold Writer.maybeOpen at h
  split at h
  · exact open_traced hi h
  · cases h; exact hi

theorem close_traced {w w' : Writer σ} {r : Res} (hi : WInv w) (h : w.close = .ok (r, w')) :
    WInv w' ∧ (w.state = .opened → w'.rdwr.opened = false) := by
  have hf := close_frame h
  by_cases hns : w.state ≠ .opened
  · rw [(hf.2.2.1 hns).2]; exact ⟨hi, fun h => absurd h hns⟩
  · have hst : w.state = .opened := by simpa using hns
    have hcl := hf.2.2.2 hst
    unfold Writer.close at h
    rw [if_neg hns] at h
    unfold WInv at hi
    rw [if_pos hst] at hi
    obtain ⟨⟨res, rw⟩, h1, h⟩ := Exec.bind_eq_ok.1 h
    rw [writeControl_stop] at h1
    obtain ⟨h2, h3⟩ := hi.write .stop h1
    suffices hg : TracedAs w'.rdwr .handshake ∧ w'.rdwr.opened = false by
      refine ⟨?_, fun _ => hg.2⟩
      unfold WInv
      rw [hcl]; exact hg.1
    simp only at h
    split at h
    · rename_i hne
      obtain ⟨⟨res2, rw2⟩, h4, h⟩ := Exec.bind_eq_ok.1 h
      cases h
      exact (h3 hne).1.close (by simp) h4
    · rename_i hs
      have hs : res = .success := by simpa using hs
      have h5 := (h2 hs).1
      split at h
      · obtain ⟨⟨res2, fin, rw2⟩, h4, h⟩ := Exec.bind_eq_ok.1 h
        have h6 := h5.reads (Or.inr rfl) (readControl_rdreach h4)
        simp only at h
        split at h
        · obtain ⟨⟨res3, rw3⟩, h7, h⟩ := Exec.bind_eq_ok.1 h
          cases h
          exact h6.close (by simp) h7
        · obtain ⟨⟨res3, rw3⟩, h7, h⟩ := Exec.bind_eq_ok.1 h
          cases h
          exact h6.close (by simp) h7
      · obtain ⟨⟨res3, rw3⟩, h7, h⟩ := Exec.bind_eq_ok.1 h
        cases h
        exact h5.close (by simp) h7

theorem writeIov_traced {w w' : Writer σ} {iov : List Bytes} {r : Res}
    (hi : TracedAs w.rdwr .streaming) (hn : iov ≠ []) (hl : iov.length ≤ 128)
    (h : w.writeIov iov = .ok (r, w')) : TracedAs w'.rdwr .streaming := by
  obtain ⟨rw, h2, rfl⟩ := writeIov_ok hl h
  obtain ⟨h3, h4⟩ := hi.write (.data iov hn hl) h2
  by_cases hr : r = .success
  · exact (h3 hr).1
  · exact (h4 hr).1

theorem writeIovStupid_traced : ∀ (fuel : Nat) (w w' : Writer σ) (iov : List Bytes) (r : Res),
    TracedAs w.rdwr .streaming → Writer.writeIovStupid fuel w iov = .ok (r, w') →
    TracedAs w'.rdwr .streaming := by
  intro fuel
  induction fuel with
  | zero =>
    intro w w' iov r hi h
    unfold Writer.writeIovStupid at h
    split at h
    · cases h
    · cases h; exact hi
  | succ fuel ih =>
    intro w w' iov r hi h
    unfold Writer.writeIovStupid at h
    rw [stupidMax_eq] at h
    split at h
    · rename_i hpos
      simp only at h
      generalize hk : (if 128 > iov.length then iov.length else 128) = k at h
      have hk1 : k ≤ iov.length := by subst hk; split <;> omega
      have hk2 : k ≤ 128 := by subst hk; split <;> omega
      have hk3 : 0 < k := by subst hk; split <;> omega
      obtain ⟨⟨res, w2⟩, h1, h⟩ := Exec.bind_eq_ok.1 h
      have h2 := writeIov_traced hi (by
        intro h0
        have := congrArg List.length h0
        rw [List.length_take, List.length_nil] at this; omega)
        (by rw [List.length_take]; omega) h1
      simp only at h
      split at h
      · cases h; exact h2
      · exact ih _ _ _ _ h2 h
    · cases h; exact hi

theorem writev_traced {w w' : Writer σ} {iov : List Bytes} {r : Res} (hi : WInv w)
    (h : w.writev iov = .ok (r, w')) : WInv w' := by
  unfold Writer.writev at h
  split at h
  · cases h; exact hi
  · rename_i hne
    obtain ⟨⟨res, w1⟩, h1, h⟩ := Exec.bind_eq_ok.1 h
    have f1 := maybeOpen_traced hi h1
    simp only at h
    split at h
    · cases h; exact f1
    · split at h
      · rename_i hst
        unfold WInv at f1 ⊢
        rw [if_pos hst] at f1
        split at h
        · cases h
        · split at h
          · rename_i hl
            simp only [WRITER_IOVEC_SIZE] at hl
            have h2 := writeIov_traced f1 (by rintro rfl; simp at hne) (by omega) h
            obtain ⟨rw, _, rfl⟩ := writeIov_ok (by omega) h
            simpa [hst] using h2
          · have h2 := writeIovStupid_traced _ _ _ _ _ f1 h
            rw [(writeIovStupid_frame _ _ _ _ _ h).2.1, if_pos hst]
            exact h2
      · cases h; exact f1

theorem step_traced {w w' : Writer σ} {op : WOp} {r : Res} (hi : WInv w)
    (h : w.step op = .ok (r, w')) : WInv w' := by
  cases op with
  | opn => exact open_traced hi h
  | write d => exact writev_traced (iov := [d]) hi h
  | writev ds => exact writev_traced hi h
  | getControl t =>
    obtain ⟨⟨res, c, w2⟩, h1, h⟩ := Exec.bind_eq_ok.1 h
    cases h
    obtain ⟨r', h2, _⟩ := getControl_maybeOpen h1
    exact maybeOpen_traced hi h2
  | close => exact (close_traced hi h).1

theorem run_traced {w w' : Writer σ} {ops : List WOp} {rs : List Res} (hi : WInv w)
    (h : w.run ops = .ok (rs, w')) : WInv w' := by
  induction ops generalizing w rs with
  | nil => cases h; exact hi
  | cons op rest ih =>
    obtain ⟨⟨r, w1⟩, h1, h⟩ := Exec.bind_eq_ok.1 h
    obtain ⟨⟨rs', w2⟩, h2, h⟩ := Exec.bind_eq_ok.1 h
    cases h
    exact ih (step_traced hi h1) h2

end Fstrm
