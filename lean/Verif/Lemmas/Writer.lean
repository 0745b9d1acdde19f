import Verif.Lemmas.Rdwr
import Verif.Model.Writer

/-! Helper lemmas about `writer.c`. -/

set_option autoImplicit false

namespace Fstrm

open Spec (wrote received iovs CType CFrame)

variable {σ : Type}

/-- The iovec array built for a batch of frames. -/
abbrev frameIovs (ds : List Bytes) : List Bytes := Spec.batch ds

theorem frameIovs_flatten (ds : List Bytes) : (frameIovs ds).flatten = ds.flatMap Spec.dataFrame := by
  induction ds with
  | nil => rfl
  | cons d ds ih => simp [Spec.batch, Spec.dataFrame] at *; exact ih

theorem frameIovs_length (ds : List Bytes) : (frameIovs ds).length = 2 * ds.length := by
  induction ds with
  | nil => rfl
  | cons d ds ih => simp [Spec.batch] at *; omega

theorem iovLoop_eq : ∀ (iov : List Bytes) (i : Nat) (acc : List Bytes), i + iov.length ≤ 128 →
    Writer.iovLoop iov i (2 * i) acc = .ok (acc ++ frameIovs iov) := by
  intro iov
  induction iov with
  | nil => intro i acc _; simp [Writer.iovLoop, Spec.batch]
  | cons d rest ih =>
    intro i acc h
    simp only [List.length_cons] at h
    unfold Writer.iovLoop
    simp only [WRITER_IOVEC_SIZE]
    rw [if_neg (by omega), if_neg (by omega)]
    have := ih (i + 1) (acc ++ [htonl d.length, d]) (by omega)
    rw [show 2 * (i + 1) = 2 * i + 2 by omega] at this
    rw [this]
    simp [Spec.batch, htonl_eq]

theorem writeIov_eq (w : Writer σ) (iov : List Bytes) (h : iov.length ≤ 128) :
    w.writeIov iov = (do
      let (res, rdwr) ← w.rdwr.write (frameIovs iov)
      .ok (res, { w with rdwr := rdwr })) := by
  unfold Writer.writeIov
  rw [show (Writer.iovLoop iov 0 0 []) = _ from iovLoop_eq iov 0 [] (by omega)]
  rfl

theorem stupidMax_eq : stupidMax = 128 := by decide

/-! ### Only `rdwr` operations touch the transport -/

/-- Fields of the writer other than the transport and the recorded control frames. -/
theorem writeIov_ok {w w' : Writer σ} {iov : List Bytes} {r : Res} (h : iov.length ≤ 128)
    (hw : w.writeIov iov = .ok (r, w')) :
    ∃ rw, w.rdwr.write (frameIovs iov) = .ok (r, rw) ∧ w' = { w with rdwr := rw } := by
  rw [writeIov_eq w iov h] at hw
  obtain ⟨⟨res, rw⟩, h1, h2⟩ := Exec.bind_eq_ok.1 hw
  simp only [Except.ok.injEq, Prod.mk.injEq] at h2
  obtain ⟨rfl, rfl⟩ := h2
  exact ⟨rw, h1, rfl⟩

theorem sendStart_eq (w : Writer σ) (ct : Option Bytes) :
    w.sendStart ct = (do
      let (res, rdwr) ← w.rdwr.writeControlFrame ⟨CType.start.code, ct.toList⟩
      .ok (res, { w with start := some ⟨CType.start.code, ct.toList⟩, rdwr := rdwr })) := by
  unfold Writer.sendStart
  have : (freshControl w.start).setType T_START = (.success, ⟨2, []⟩) := by
    unfold freshControl; split <;> rfl
  rw [this]
  cases ct <;> rfl

theorem openUnidirectional_eq (w : Writer σ) : w.openUnidirectional = w.sendStart w.cts.head? := by
  unfold Writer.openUnidirectional Writer.sendStart
  cases w.cts <;> rfl

theorem addAllCts_eq (c : Control) (cts : List Bytes) :
    addAllCts c cts = ⟨c.type, c.cts ++ cts⟩ := by
  unfold addAllCts
  induction cts generalizing c with
  | nil => simp
  | cons ct rest ih => simp only [List.foldl_cons]; rw [ih]; simp [Control.addCt]

theorem freshReady (c : Option Control) :
    (freshControl c).setType T_READY = (.success, ⟨CType.ready.code, []⟩) := by
  unfold freshControl; split <;> rfl

/-- The bidirectional handshake with the bookkeeping removed. -/
theorem openBidirectional_eq (w : Writer σ) :
    w.openBidirectional = (do
      let ready : Control := ⟨CType.ready.code, w.cts⟩
      let (res, rw) ← w.rdwr.writeControlFrame ready
      if res ≠ .success then .ok (res, { w with ready := some ready, rdwr := rw })
      else do
        let (res, accept, rw) ← rw.readControl w.accept T_ACCEPT
        let w := { w with ready := some ready, rdwr := rw, accept := accept }
        if res ≠ .success then .ok (res, w)
        else match accept with
          | none => .error (.ub "NULL control_accept")
          | some acc =>
            if !(Writer.matchLoop acc w.cts true).1 then .ok (.failure, w)
            else w.sendStart (Writer.matchLoop acc w.cts true).2) := by
  unfold Writer.openBidirectional
  rw [freshReady]
  simp only [addAllCts_eq, List.nil_append]
  rfl

theorem sendStart_ok {w w' : Writer σ} {ct : Option Bytes} {r : Res}
    (h : w.sendStart ct = .ok (r, w')) :
    ∃ rw, w.rdwr.writeControlFrame ⟨CType.start.code, ct.toList⟩ = .ok (r, rw) ∧
      w' = { w with start := some ⟨CType.start.code, ct.toList⟩, rdwr := rw } := by
  rw [sendStart_eq] at h
  obtain ⟨⟨res, rw⟩, h1, h2⟩ := Exec.bind_eq_ok.1 h
  simp only [Except.ok.injEq, Prod.mk.injEq] at h2
  obtain ⟨rfl, rfl⟩ := h2
  exact ⟨rw, h1, rfl⟩

/-- Successful control frame writes put exactly the wire form on the transport. -/
theorem writeControlFrame_success {rw rw' : Rdwr σ} {t : CType} {cts : List Bytes}
    (h : rw.writeControlFrame ⟨t.code, cts⟩ = .ok (.success, rw')) :
    rw'.ops = rw.ops ∧ rw.opened = true ∧ rw'.opened = true ∧
    rw'.log = rw.log ++ [.wr [CFrame.wire ⟨t, t.visible cts⟩] .success] := by
  rw [writeControlFrame_eq] at h
  split at h
  · have h1 := Rdwr.write_ok h
    refine ⟨h1.1, ?_⟩
    rcases h1.2 with ⟨_, h2, _⟩ | h2 | ⟨_, h2, _⟩
    · cases h2
    · exact ⟨h2.1, h2.2.2.1, h2.2.2.2⟩
    · exact absurd rfl h2
  · cases h

theorem sendStart_frame {w w' : Writer σ} {ct : Option Bytes} {r : Res}
    (h : w.sendStart ct = .ok (r, w')) :
    w'.state = w.state ∧ w'.cts = w.cts ∧ w'.rdwr.ops = w.rdwr.ops ∧ Reach w.rdwr w'.rdwr := by
  obtain ⟨rw, h1, rfl⟩ := sendStart_ok h
  have := writeControlFrame_reach h1
  exact ⟨rfl, rfl, this.ops, this⟩

theorem openBidirectional_frame {w w' : Writer σ} {r : Res}
    (h : w.openBidirectional = .ok (r, w')) :
    w'.state = w.state ∧ w'.cts = w.cts ∧ Reach w.rdwr w'.rdwr := by
  rw [openBidirectional_eq] at h
  simp only at h
  obtain ⟨⟨res, rw⟩, h1, h⟩ := Exec.bind_eq_ok.1 h
  have r1 := writeControlFrame_reach h1
  simp only at h
  split at h
  · cases h; exact ⟨rfl, rfl, r1⟩
  · obtain ⟨⟨res, acc, rw2⟩, h2, h⟩ := Exec.bind_eq_ok.1 h
    have r2 := readControl_reach h2
    simp only at h
    split at h
    · cases h; exact ⟨rfl, rfl, r1.trans r2⟩
    · split at h
      · cases h
      · split at h
        · cases h; exact ⟨rfl, rfl, r1.trans r2⟩
        · obtain ⟨a, b, _, c⟩ := sendStart_frame h
          exact ⟨a, b, (r1.trans r2).trans c⟩

theorem open_frame {w w' : Writer σ} {r : Res} (h : w.open = .ok (r, w')) :
    w'.cts = w.cts ∧ Reach w.rdwr w'.rdwr ∧
    (r = .success → w'.state = .opened) ∧ (r ≠ .success → w'.state = w.state) := by
  unfold Writer.open at h
  split at h
  · cases h; exact ⟨rfl, .refl, fun _ => ‹_›, fun _ => rfl⟩
  · obtain ⟨⟨res, rw⟩, h1, h⟩ := Exec.bind_eq_ok.1 h
    have r1 := Reach.opn h1
    simp only at h
    split at h
    · cases h; exact ⟨rfl, r1, fun h => absurd h ‹_›, fun _ => rfl⟩
    · obtain ⟨⟨res, w2⟩, h2, h⟩ := Exec.bind_eq_ok.1 h
      have h3 : w2.state = w.state ∧ w2.cts = w.cts ∧ Reach rw w2.rdwr := by
        split at h2
        · exact openBidirectional_frame h2
        · rw [openUnidirectional_eq] at h2
          obtain ⟨a, b, _, c⟩ := sendStart_frame h2
          exact ⟨a, b, c⟩
      simp only at h
      split at h
      · cases h
        exact ⟨h3.2.1, r1.trans h3.2.2, fun h => absurd h ‹_›, fun _ => h3.1⟩
      · cases h
        exact ⟨h3.2.1, r1.trans h3.2.2, fun _ => rfl, fun h => absurd rfl h⟩

theorem maybeOpen_frame {w w' : Writer σ} {r : Res} (h : w.maybeOpen = .ok (r, w')) :
    w'.cts = w.cts ∧ Reach w.rdwr w'.rdwr := by
  unfold Writer.maybeOpen at h
  split at h
  · exact ⟨(open_frame h).1, (open_frame h).2.1⟩
  · cases h; exact ⟨rfl, .refl⟩

/-- The closing sequence with the branches merged. -/
theorem close_frame {w w' : Writer σ} {r : Res} (h : w.close = .ok (r, w')) :
    w'.cts = w.cts ∧ Reach w.rdwr w'.rdwr ∧
    (w.state ≠ .opened → r = .failure ∧ w' = w) ∧ (w.state = .opened → w'.state = .closed) := by
  unfold Writer.close at h
  split at h
  · cases h; exact ⟨rfl, .refl, fun _ => ⟨rfl, rfl⟩, fun h => absurd h ‹_›⟩
  · rename_i hs
    have hs' : w.state = .opened := by simpa using hs
    obtain ⟨⟨res, rw⟩, h1, h⟩ := Exec.bind_eq_ok.1 h
    have r1 := writeControl_reach h1
    simp only at h r1
    refine ⟨?_, ?_, fun h => absurd hs' h, fun _ => ?_⟩
    all_goals
      split at h
      · obtain ⟨⟨res, rw2⟩, h2, h⟩ := Exec.bind_eq_ok.1 h
        cases h
        first | rfl | exact r1.trans (.cls h2)
      · split at h
        · obtain ⟨⟨res, fin, rw2⟩, h2, h⟩ := Exec.bind_eq_ok.1 h
          have r2 := readControl_reach h2
          simp only at h
          split at h
          · obtain ⟨⟨res, rw3⟩, h3, h⟩ := Exec.bind_eq_ok.1 h
            cases h
            first | rfl | exact (r1.trans r2).trans (.cls h3)
          · obtain ⟨⟨res, rw3⟩, h3, h⟩ := Exec.bind_eq_ok.1 h
            cases h
            first | rfl | exact (r1.trans r2).trans (.cls h3)
        · obtain ⟨⟨res, rw3⟩, h3, h⟩ := Exec.bind_eq_ok.1 h
          cases h
          first | rfl | exact r1.trans (.cls h3)

theorem writeIovStupid_frame : ∀ (fuel : Nat) (w w' : Writer σ) (iov : List Bytes) (r : Res),
    Writer.writeIovStupid fuel w iov = .ok (r, w') →
    w'.cts = w.cts ∧ w'.state = w.state ∧ Reach w.rdwr w'.rdwr := by
  intro fuel
  induction fuel with
  | zero =>
    intro w w' iov r h
    unfold Writer.writeIovStupid at h
    split at h
    · cases h
    · cases h; exact ⟨rfl, rfl, .refl⟩
  | succ fuel ih =>
    intro w w' iov r h
    unfold Writer.writeIovStupid at h
    rw [stupidMax_eq] at h
    split at h
    · simp only at h
      obtain ⟨⟨res, w2⟩, h1, h⟩ := Exec.bind_eq_ok.1 h
      obtain ⟨rw, h2, rfl⟩ := writeIov_ok (by rw [List.length_take]; split <;> omega) h1
      simp only at h
      split at h
      · cases h; exact ⟨rfl, rfl, .wr h2⟩
      · obtain ⟨a, b, c⟩ := ih _ _ _ _ h
        exact ⟨a, b, (Reach.wr h2).trans c⟩
    · cases h; exact ⟨rfl, rfl, .refl⟩

theorem writev_frame {w w' : Writer σ} {iov : List Bytes} {r : Res}
    (h : w.writev iov = .ok (r, w')) : w'.cts = w.cts ∧ Reach w.rdwr w'.rdwr := by
  unfold Writer.writev at h
  split at h
  · cases h; exact ⟨rfl, .refl⟩
  · obtain ⟨⟨res, w1⟩, h1, h⟩ := Exec.bind_eq_ok.1 h
    have f1 := maybeOpen_frame h1
    simp only at h
    split at h
    · cases h; exact f1
    · split at h
      · split at h
        · cases h
        · split at h
          · rename_i hl
            simp only [WRITER_IOVEC_SIZE] at hl
            obtain ⟨rw, h2, rfl⟩ := writeIov_ok (by omega) h
            exact ⟨f1.1, f1.2.trans (.wr h2)⟩
          · obtain ⟨a, _, c⟩ := writeIovStupid_frame _ _ _ _ _ h
            exact ⟨a.trans f1.1, f1.2.trans c⟩
      · cases h; exact f1

theorem getControl_frame {w w' : Writer σ} {t : Nat} {r : Res} {c : Option Control}
    (h : w.getControl t = .ok (r, c, w')) : w'.cts = w.cts ∧ Reach w.rdwr w'.rdwr := by
  unfold Writer.getControl at h
  obtain ⟨⟨res, w1⟩, h1, h⟩ := Exec.bind_eq_ok.1 h
  have f1 := maybeOpen_frame h1
  simp only at h
  repeat' split at h
  all_goals (cases h; exact f1)

end Fstrm
