import Verif.Lemmas.Writer
import Verif.Spec.History

/-! What the writer puts on the transport. -/

set_option autoImplicit false

namespace Fstrm

open Spec (wrote received iovs CType CFrame)

variable {σ : Type}

theorem write_success {a b : Rdwr σ} {iov : List Bytes} (h : a.write iov = .ok (.success, b)) :
    b.ops = a.ops ∧ a.opened = true ∧ b.opened = true ∧
      b.log = a.log ++ [.wr iov .success] := by
  obtain ⟨h1, h2⟩ := Rdwr.write_ok h
  rcases h2 with ⟨_, h2, _⟩ | h2 | ⟨_, h2, _⟩
  · cases h2
  · exact ⟨h1, h2.1, h2.2.2.1, h2.2.2.2⟩
  · exact absurd rfl h2

theorem wrote_wr (l : List Ev) (iov : List Bytes) :
    wrote (l ++ [.wr iov .success]) = wrote l ++ iov.flatten := by
  rw [wrote_append]; simp [wrote]

theorem received_wr (l : List Ev) (iov : List Bytes) (r : Res) :
    received (l ++ [.wr iov r]) = received l := by
  rw [received_append]; simp [received]

theorem wrote_wr_fail {r : Res} (hr : r ≠ .success) (l : List Ev) (iov : List Bytes) :
    wrote (l ++ [.wr iov r]) = wrote l := by
  rw [wrote_append]; cases r <;> simp [wrote] at *

theorem wrote_cls (l : List Ev) (r : Res) : wrote (l ++ [.cls r]) = wrote l := by
  rw [wrote_append]; simp [wrote]

theorem wrote_opn (l : List Ev) (r : Res) : wrote (l ++ [.opn r]) = wrote l := by
  rw [wrote_append]; simp [wrote]

theorem write_fail_wrote {a b : Rdwr σ} {iov : List Bytes} {r : Res}
    (h : a.write iov = .ok (r, b)) (hr : r ≠ .success) : wrote b.log = wrote a.log := by
  obtain ⟨_, h2⟩ := Rdwr.write_ok h
  rcases h2 with ⟨_, _, rfl⟩ | h2 | ⟨_, _, ⟨_, _, h3⟩ | ⟨_, _, rc, h3⟩⟩
  · rfl
  · exact absurd h2.2.1 hr
  · rw [h3, wrote_wr_fail hr]
  · rw [h3, show a.log ++ [Ev.wr iov r, .cls rc] = (a.log ++ [.wr iov r]) ++ [.cls rc] by simp,
      wrote_cls, wrote_wr_fail hr]

theorem write_wrote {a b : Rdwr σ} {iov : List Bytes} (h : a.write iov = .ok (.success, b)) :
    wrote b.log = wrote a.log ++ iov.flatten := by
  rw [(write_success h).2.2.2, wrote_wr]

theorem open_wrote {a b : Rdwr σ} {r : Res} (h : a.open = .ok (r, b)) :
    wrote b.log = wrote a.log := by
  obtain ⟨_, h2⟩ := Rdwr.open_ok h
  rcases h2 with ⟨_, _, rfl⟩ | ⟨h2, _⟩
  · rfl
  · rw [h2, wrote_opn]

theorem close_wrote {a b : Rdwr σ} {r : Res} (h : a.close = .ok (r, b)) :
    wrote b.log = wrote a.log := by
  obtain ⟨_, h2⟩ := Rdwr.close_ok h
  rcases h2 with ⟨_, _, rfl⟩ | ⟨_, _, _, rfl⟩ | ⟨_, _, _, h2⟩
  · rfl
  · rfl
  · rw [h2, wrote_cls]

theorem read_wrote {a b : Rdwr σ} {n : Nat} {r : Res} {bs : Bytes}
    (h : a.read n = .ok (r, bs, b)) : wrote b.log = wrote a.log := by
  obtain ⟨_, h2⟩ := Rdwr.read_ok h
  rcases h2 with ⟨_, _, _, rfl⟩ | ⟨_, _, _, _, h2⟩ | ⟨_, _, _, bs', ⟨_, _, h2⟩ | ⟨_, _, rc, h2⟩⟩
  · rfl
  · rw [h2, wrote_rd]
  · rw [h2, wrote_append]; simp [wrote]
  · rw [h2, wrote_append]; simp [wrote]

theorem rdreach_wrote {a b : Rdwr σ} (h : RdReach a b) : wrote b.log = wrote a.log := by
  induction h with
  | refl => rfl
  | tail _ h ih => rw [read_wrote h, ih]

theorem take_flatMap_append (iov : List Bytes) (k j : Nat) :
    (iov.take k).flatMap Spec.dataFrame ++ ((iov.drop k).take j).flatMap Spec.dataFrame =
      (iov.take (k + j)).flatMap Spec.dataFrame := by
  rw [List.take_add, List.flatMap_append]

/-- What a chunked write hands over: always a prefix of the batch, all of it on
success. -/
theorem writeIovStupid_wrote : ∀ (fuel : Nat) (w w' : Writer σ) (iov : List Bytes) (r : Res),
    Writer.writeIovStupid fuel w iov = .ok (r, w') →
    ∃ k, k ≤ iov.length ∧ (r = .success → k = iov.length) ∧
      wrote w'.rdwr.log = wrote w.rdwr.log ++ (iov.take k).flatMap Spec.dataFrame := by
  intro fuel
  induction fuel with
  | zero =>
    intro w w' iov r h
    unfold Writer.writeIovStupid at h
    split at h
    · cases h
    · cases h; exact ⟨0, by omega, fun _ => by omega, by simp⟩
  | succ fuel ih =>
    intro w w' iov r h
    unfold Writer.writeIovStupid at h
    rw [stupidMax_eq] at h
    split at h
    · rename_i hpos
      simp only at h
      generalize hk : (if 128 > iov.length then iov.length else 128) = k at h
      have hk1 : k ≤ iov.length := by subst hk; split <;> omega
      have hk2 : k ≤ 128 := by subst hk; split <;> omega
      obtain ⟨⟨res, w2⟩, h1, h⟩ := Exec.bind_eq_ok.1 h
      obtain ⟨rw, h2, rfl⟩ := writeIov_ok (by rw [List.length_take]; omega) h1
      simp only at h
      split at h
      · rename_i hne
        cases h
        exact ⟨0, by omega, fun h => absurd h hne, by simp [write_fail_wrote h2 hne]⟩
      · rename_i hs
        have hs : res = .success := by simpa using hs
        subst hs
        obtain ⟨j, hj1, hj2, hj3⟩ := ih _ _ _ _ h
        rw [List.length_drop] at hj1 hj2
        refine ⟨k + j, by omega, fun hr => by have := hj2 hr; omega, ?_⟩
        rw [hj3, write_wrote h2, frameIovs_flatten, List.append_assoc, take_flatMap_append]
    · rename_i h0
      cases h; exact ⟨0, by omega, fun _ => by omega, by simp⟩

/-- `writev` on an opened writer. -/
theorem writev_opened {w w' : Writer σ} {iov : List Bytes} {r : Res} (ho : w.state = .opened)
    (h : w.writev iov = .ok (r, w')) :
    w'.state = .opened ∧ ∃ k, k ≤ iov.length ∧ (r = .success → k = iov.length) ∧
      wrote w'.rdwr.log = wrote w.rdwr.log ++ (iov.take k).flatMap Spec.dataFrame := by
  unfold Writer.writev at h
  split at h
  · cases h; exact ⟨ho, 0, by omega, fun _ => by omega, by simp⟩
  · have hm : w.maybeOpen = .ok (.success, w) := by
      unfold Writer.maybeOpen; rw [if_neg (by rw [ho]; simp)]
    rw [hm, Exec.ok_bind] at h
    simp only [ne_eq, not_true_eq_false, if_false, ho, if_true] at h
    split at h
    · cases h
    · split at h
      · rename_i hl
        simp only [WRITER_IOVEC_SIZE] at hl
        obtain ⟨rw, h2, rfl⟩ := writeIov_ok (by omega) h
        refine ⟨ho, ?_⟩
        by_cases hr : r = .success
        · subst hr
          exact ⟨iov.length, Nat.le_refl _, fun _ => rfl, by
            simp [write_wrote h2, frameIovs_flatten]⟩
        · exact ⟨0, by omega, fun h => absurd h hr, by simp [write_fail_wrote h2 hr]⟩
      · obtain ⟨a, b, c⟩ := writeIovStupid_frame _ _ _ _ _ h
        exact ⟨b.trans ho, writeIovStupid_wrote _ _ _ _ _ h⟩

theorem visible_toList (ct : Option Bytes) : CType.start.visible ct.toList = ct.toList := by
  cases ct <;> rfl

theorem sendStart_success {w w' : Writer σ} {ct : Option Bytes}
    (h : w.sendStart ct = .ok (.success, w')) :
    wrote w'.rdwr.log = wrote w.rdwr.log ++ CFrame.wire ⟨.start, ct.toList⟩ ∧
    w'.start = some ⟨CType.start.code, ct.toList⟩ ∧ w'.rdwr.opened = true ∧
    received w'.rdwr.log = received w.rdwr.log ∧ w'.ready = w.ready ∧ w'.accept = w.accept := by
  obtain ⟨rw, h1, rfl⟩ := sendStart_ok h
  obtain ⟨a, b, c, d⟩ := writeControlFrame_success h1
  rw [visible_toList] at d
  refine ⟨?_, rfl, c, ?_, rfl, rfl⟩
  · simp only [d, wrote_wr]; simp
  · simp only [d, received_wr]

/-- Successful unidirectional open. -/
theorem open_uni_success {w w' : Writer σ} (hu : w.rdwr.ops.rd = none) (hs : w.state ≠ .opened)
    (h : w.open = .ok (.success, w')) :
    wrote w'.rdwr.log = wrote w.rdwr.log ++ CFrame.wire ⟨.start, w.cts.head?.toList⟩ ∧
    w'.start = some ⟨CType.start.code, w.cts.head?.toList⟩ ∧ w'.rdwr.opened = true := by
  unfold Writer.open at h
  rw [if_neg hs] at h
  obtain ⟨⟨res, rw⟩, h1, h⟩ := Exec.bind_eq_ok.1 h
  have ho := (Rdwr.open_ok h1).1
  simp only at h
  split at h
  · rename_i hne; cases h; exact absurd rfl hne
  · rw [ho, hu] at h
    simp only [Option.isSome_none, Bool.false_eq_true, if_false] at h
    obtain ⟨⟨res, w2⟩, h2, h⟩ := Exec.bind_eq_ok.1 h
    simp only at h
    split at h
    · rename_i hne; cases h; exact absurd rfl hne
    · rename_i hs
      have hs : res = .success := by simpa using hs
      subst hs
      cases h
      rw [openUnidirectional_eq] at h2
      obtain ⟨a, b, c, _⟩ := sendStart_success h2
      simp only at a b c ⊢
      exact ⟨by rw [a, open_wrote h1], b, c⟩

theorem received_opn (l : List Ev) (r : Res) : received (l ++ [.opn r]) = received l := by
  rw [received_append]; simp [received]

theorem open_received {a b : Rdwr σ} {r : Res} (h : a.open = .ok (r, b)) :
    received b.log = received a.log := by
  obtain ⟨_, h2⟩ := Rdwr.open_ok h
  rcases h2 with ⟨_, _, rfl⟩ | ⟨h2, _⟩
  · rfl
  · rw [h2, received_opn]

/-- Successful bidirectional open. -/
theorem open_bi_success {w w' : Writer σ} (hb : w.rdwr.ops.rd ≠ none) (hs : w.state ≠ .opened)
    (h : w.open = .ok (.success, w')) :
    ∃ f : CFrame, f.WF ∧ f.payload.length ≤ 512 ∧ f.type = .accept ∧
      w'.accept = some ⟨CType.accept.code, f.cts⟩ ∧
      received w'.rdwr.log = received w.rdwr.log ++ f.wire ∧
      (Writer.matchLoop ⟨CType.accept.code, f.cts⟩ w.cts true).1 = true ∧
      w'.ready = some ⟨CType.ready.code, w.cts⟩ ∧
      w'.start = some ⟨CType.start.code,
        (Writer.matchLoop ⟨CType.accept.code, f.cts⟩ w.cts true).2.toList⟩ ∧
      w'.rdwr.opened = true ∧
      wrote w'.rdwr.log = wrote w.rdwr.log ++ CFrame.wire ⟨.ready, w.cts⟩ ++
        CFrame.wire ⟨.start, (Writer.matchLoop ⟨CType.accept.code, f.cts⟩ w.cts true).2.toList⟩ := by
  unfold Writer.open at h
  rw [if_neg hs] at h
  obtain ⟨⟨res, rw⟩, h1, h⟩ := Exec.bind_eq_ok.1 h
  have ho := (Rdwr.open_ok h1).1
  simp only at h
  split at h
  · rename_i hne; cases h; exact absurd rfl hne
  · rw [ho] at h
    simp only [Option.isSome_iff_ne_none.2 hb, if_true] at h
    obtain ⟨⟨res, w2⟩, h2, h⟩ := Exec.bind_eq_ok.1 h
    simp only at h
    split at h
    · rename_i hne; cases h; exact absurd rfl hne
    · rename_i hs
      have hs : res = .success := by simpa using hs
      subst hs
      cases h
      rw [openBidirectional_eq] at h2
      simp only at h2
      obtain ⟨⟨res, rw2⟩, h3, h2⟩ := Exec.bind_eq_ok.1 h2
      simp only at h2
      split at h2
      · rename_i hne; cases h2; exact absurd rfl hne
      · rename_i hs
        have hs : res = .success := by simpa using hs
        subst hs
        obtain ⟨a1, a2, a3, a4⟩ := writeControlFrame_success h3
        obtain ⟨⟨res, acc, rw3⟩, h4, h2⟩ := Exec.bind_eq_ok.1 h2
        simp only at h2
        split at h2
        · rename_i hne; cases h2; exact absurd rfl hne
        · rename_i hs
          have hs : res = .success := by simpa using hs
          subst hs
          obtain ⟨b1, b2, b3, b4, f, c1, c2, c3, c4, c5⟩ := readControl_success h4
          have hft : f.type = .accept := CType.code_inj c3
          subst c4
          simp only [hft] at h2
          split at h2
          · cases h2
          · rename_i hm
            obtain ⟨d1, d2, d3, d4, d5, d6⟩ := sendStart_success h2
            simp only at d1 d2 d3 d4 d5 d6 ⊢
            refine ⟨f, c1, c2, hft, d6, ?_, by simpa using hm, d5, d2, d3, ?_⟩
            · rw [d4, c5, a4, received_wr, open_received h1]
            · rw [d1, b4, a4, wrote_wr, open_wrote h1]
              simp [CType.visible]

/-- A successful close. -/
theorem close_success {w w' : Writer σ} (h : w.close = .ok (.success, w')) :
    w.state = .opened ∧ w'.state = .closed ∧
    wrote w'.rdwr.log = wrote w.rdwr.log ++ CFrame.wire ⟨.stop, []⟩ ∧
    (w.rdwr.ops.rd = none ∨ ∃ rw, received w'.rdwr.log = rw ++ CFrame.wire ⟨.finish, []⟩) := by
  have hst : w.state = .opened := by
    by_cases hs : w.state = .opened
    · exact hs
    · have := ((close_frame h).2.2.1 hs).1; cases this
  have hcl := (close_frame h).2.2.2 hst
  refine ⟨hst, hcl, ?_⟩
  unfold Writer.close at h
  rw [if_neg (by simp [hst])] at h
  obtain ⟨⟨res, rw⟩, h1, h⟩ := Exec.bind_eq_ok.1 h
  rw [writeControl_stop] at h1
  simp only at h
  split at h
  · rename_i hne
    obtain ⟨⟨res2, rw2⟩, h2, h⟩ := Exec.bind_eq_ok.1 h
    cases h; exact absurd rfl hne
  · rename_i hs
    have hs : res = .success := by simpa using hs
    subst hs
    have hops := (write_success h1).1
    split at h
    · obtain ⟨⟨res, fin, rw2⟩, h2, h⟩ := Exec.bind_eq_ok.1 h
      simp only at h
      split at h
      · rename_i hne
        obtain ⟨⟨res3, rw3⟩, h3, h⟩ := Exec.bind_eq_ok.1 h
        cases h; exact absurd rfl hne
      · rename_i hs
        have hs : res = .success := by simpa using hs
        subst hs
        obtain ⟨b1, b2, b3, b4, f, c1, c2, c3, c4, c5⟩ := readControl_success h2
        obtain ⟨⟨res3, rw3⟩, h3, h⟩ := Exec.bind_eq_ok.1 h
        cases h
        have hft : f = ⟨.finish, []⟩ := by
          have : f.type = .finish := CType.code_inj c3
          obtain ⟨t, cts⟩ := f
          simp only at this; subst this
          have h5 := c1.2 0 rfl
          simp only [Nat.le_zero, List.length_eq_zero_iff] at h5
          rw [h5]
        refine ⟨by simp only [close_wrote h3, b4, write_wrote h1]; simp, Or.inr ⟨received rw.log, ?_⟩⟩
        obtain ⟨_, hc⟩ := Rdwr.close_ok h3
        simp only
        have : received rw3.log = received rw2.log := by
          rcases hc with ⟨_, _, hc⟩ | ⟨_, _, _, hc⟩ | ⟨_, _, _, hc⟩
          · rw [hc]
          · rw [hc]
          · rw [hc, received_append]; simp [received]
        rw [this, c5, hft]
    · rename_i hn
      obtain ⟨⟨res3, rw3⟩, h3, h⟩ := Exec.bind_eq_ok.1 h
      cases h
      refine ⟨by simp only [close_wrote h3, write_wrote h1]; simp, Or.inl ?_⟩
      rw [hops] at hn
      simpa using hn

end Fstrm

namespace Fstrm

open Spec (wrote received iovs CType CFrame)

variable {σ : Type}

theorem write_received {a b : Rdwr σ} {iov : List Bytes} {r : Res}
    (h : a.write iov = .ok (r, b)) : received b.log = received a.log := by
  obtain ⟨_, h2⟩ := Rdwr.write_ok h
  rcases h2 with ⟨_, _, rfl⟩ | ⟨_, _, _, h3⟩ | ⟨_, _, ⟨_, _, h3⟩ | ⟨_, _, rc, h3⟩⟩
  · rfl
  · rw [h3, received_wr]
  · rw [h3, received_wr]
  · rw [h3, received_append]; simp [received]

theorem writeIovStupid_rest : ∀ (fuel : Nat) (w w' : Writer σ) (iov : List Bytes) (r : Res),
    Writer.writeIovStupid fuel w iov = .ok (r, w') →
    ∃ rw, w' = { w with rdwr := rw } ∧ received rw.log = received w.rdwr.log := by
  intro fuel
  induction fuel with
  | zero =>
    intro w w' iov r h
    unfold Writer.writeIovStupid at h
    split at h
    · cases h
    · cases h; exact ⟨_, rfl, rfl⟩
  | succ fuel ih =>
    intro w w' iov r h
    unfold Writer.writeIovStupid at h
    rw [stupidMax_eq] at h
    split at h
    · simp only at h
      obtain ⟨⟨res, w2⟩, h1, h⟩ := Exec.bind_eq_ok.1 h
      obtain ⟨rw, h2, rfl⟩ := writeIov_ok (by rw [List.length_take]; split <;> omega) h1
      simp only at h
      split at h
      · cases h; exact ⟨_, rfl, write_received h2⟩
      · obtain ⟨rw2, rfl, h4⟩ := ih _ _ _ _ h
        exact ⟨rw2, rfl, h4.trans (write_received h2)⟩
    · cases h; exact ⟨_, rfl, rfl⟩

theorem writev_rest {w w' : Writer σ} {iov : List Bytes} {r : Res} (ho : w.state = .opened)
    (h : w.writev iov = .ok (r, w')) :
    ∃ rw, w' = { w with rdwr := rw } ∧ received rw.log = received w.rdwr.log := by
  unfold Writer.writev at h
  split at h
  · cases h; exact ⟨_, rfl, rfl⟩
  · have hm : w.maybeOpen = .ok (.success, w) := by
      unfold Writer.maybeOpen; rw [if_neg (by rw [ho]; simp)]
    rw [hm, Exec.ok_bind] at h
    simp only [ne_eq, not_true_eq_false, if_false, ho, if_true] at h
    split at h
    · cases h
    · split at h
      · rename_i hl
        simp only [WRITER_IOVEC_SIZE] at hl
        obtain ⟨rw, h2, rfl⟩ := writeIov_ok (by omega) h
        exact ⟨rw, rfl, write_received h2⟩
      · exact writeIovStupid_rest _ _ _ _ _ h

theorem getControl_maybeOpen {w w' : Writer σ} {t : Nat} {r : Res} {c : Option Control}
    (h : w.getControl t = .ok (r, c, w')) : ∃ r', w.maybeOpen = .ok (r', w') ∧
      (r = .success → r' = .success) := by
  unfold Writer.getControl at h
  obtain ⟨⟨res, w1⟩, h1, h⟩ := Exec.bind_eq_ok.1 h
  simp only at h
  split at h
  · cases h; exact ⟨_, h1, fun h => h⟩
  · rename_i hs
    have hs : res = .success := by simpa using hs
    refine ⟨res, ?_, fun _ => hs⟩
    repeat' split at h
    all_goals (cases h; exact h1)

/-- A successful non-empty `writev` is one performed on an opened writer. -/
theorem writev_maybeOpen {w w' : Writer σ} {iov : List Bytes} (hne : iov ≠ [])
    (h : w.writev iov = .ok (.success, w')) :
    ∃ w1, w.maybeOpen = .ok (.success, w1) ∧ w1.state = .opened ∧
      w1.writev iov = .ok (.success, w') := by
  have hlen : ¬ iov.length < 1 := by
    have := List.length_pos_iff.2 hne; omega
  have h0 := h
  unfold Writer.writev at h
  rw [if_neg hlen] at h
  obtain ⟨⟨res, w1⟩, h1, h⟩ := Exec.bind_eq_ok.1 h
  simp only at h
  split at h
  · rename_i hne; cases h; exact absurd rfl hne
  · rename_i hs
    have hs : res = .success := by simpa using hs
    subst hs
    split at h
    · rename_i hst
      refine ⟨w1, h1, hst, ?_⟩
      unfold Writer.writev
      have : w1.maybeOpen = .ok (.success, w1) := by
        unfold Writer.maybeOpen; rw [if_neg (by rw [hst]; simp)]
      rw [if_neg hlen, this, Exec.ok_bind]
      simp only [ne_eq, not_true_eq_false, if_false]
      rw [if_pos hst]; exact h
    · cases h

/-- What `maybeOpen` did: nothing, or an open. -/
theorem maybeOpen_cases {w w' : Writer σ} {r : Res} (h : w.maybeOpen = .ok (r, w')) :
    (w' = w ∧ w.state ≠ .opening) ∨ (w.state = .opening ∧ w.open = .ok (r, w')) := by
  unfold Writer.maybeOpen at h
  split at h
  · exact Or.inr ⟨‹_›, h⟩
  · cases h; exact Or.inl ⟨rfl, ‹_›⟩

/-- Effect of a successful call other than close, in terms of the state before:
either nothing happened (and there were no frames), or the writer is now opened,
having been so before or just now. -/
theorem step_success {w w' : Writer σ} {op : WOp} (hop : op ≠ .close)
    (h : w.step op = .ok (.success, w')) :
    (w' = w ∧ op.frames = []) ∨
    (∃ w1, (w1 = w ∨ (w.state ≠ .opened ∧ w.open = .ok (.success, w1))) ∧
      w1.state = .opened ∧ w'.state = .opened ∧ w'.cts = w.cts ∧ w'.accept = w1.accept ∧
      w'.rdwr.ops = w.rdwr.ops ∧ received w'.rdwr.log = received w1.rdwr.log ∧
      wrote w'.rdwr.log = wrote w1.rdwr.log ++ op.frames.flatMap Spec.dataFrame) := by
  have hwv : ∀ iov, w.writev iov = .ok (.success, w') →
      (w' = w ∧ iov = []) ∨
      (∃ w1, (w1 = w ∨ (w.state ≠ .opened ∧ w.open = .ok (.success, w1))) ∧
        w1.state = .opened ∧ w'.state = .opened ∧ w'.cts = w.cts ∧ w'.accept = w1.accept ∧
        w'.rdwr.ops = w.rdwr.ops ∧ received w'.rdwr.log = received w1.rdwr.log ∧
        wrote w'.rdwr.log = wrote w1.rdwr.log ++ iov.flatMap Spec.dataFrame) := by
    intro iov h
    by_cases hne : iov = []
    · subst hne
      have : w.writev [] = .ok (.success, w) := rfl
      rw [this] at h; cases h; exact Or.inl ⟨rfl, rfl⟩
    · obtain ⟨w1, h1, h2, h3⟩ := writev_maybeOpen hne h
      obtain ⟨h4, k, h5, h6, h7⟩ := writev_opened h2 h3
      rw [h6 rfl, List.take_length] at h7
      have hwf := writev_frame h
      have hmisc : w'.accept = w1.accept ∧ received w'.rdwr.log = received w1.rdwr.log := by
        obtain ⟨rw, rfl, h8⟩ := writev_rest h2 h3
        exact ⟨rfl, h8⟩
      refine Or.inr ⟨w1, ?_, h2, h4, hwf.1, hmisc.1, hwf.2.ops, hmisc.2, h7⟩
      rcases maybeOpen_cases h1 with ⟨rfl, _⟩ | ⟨h8, h9⟩
      · exact Or.inl rfl
      · exact Or.inr ⟨by rw [h8]; simp, h9⟩
  cases op with
  | opn =>
    have h' : w.open = .ok (.success, w') := h
    by_cases ho : w.state = .opened
    · unfold Writer.open at h'
      rw [if_pos ho] at h'; cases h'
      exact Or.inl ⟨rfl, rfl⟩
    · have hf := open_frame h'
      exact Or.inr ⟨w', Or.inr ⟨ho, h'⟩, hf.2.2.1 rfl, hf.2.2.1 rfl, hf.1, rfl, hf.2.1.ops, rfl,
        by simp [WOp.frames]⟩
  | write d =>
    rcases hwv [d] h with ⟨_, h2⟩ | h2
    · cases h2
    · exact Or.inr h2
  | writev ds =>
    rcases hwv ds h with h2 | h2
    · exact Or.inl h2
    · exact Or.inr h2
  | getControl t =>
    obtain ⟨⟨res, c, w2⟩, h1, h⟩ := Exec.bind_eq_ok.1 h
    cases h
    obtain ⟨r', h2, h3⟩ := getControl_maybeOpen h1
    rw [h3 rfl] at h2
    rcases maybeOpen_cases h2 with ⟨rfl, _⟩ | ⟨h8, h9⟩
    · exact Or.inl ⟨rfl, rfl⟩
    · have hf := open_frame h9
      exact Or.inr ⟨w', Or.inr ⟨by rw [h8]; simp, h9⟩, hf.2.2.1 rfl, hf.2.2.1 rfl, hf.1, rfl,
        hf.2.1.ops, rfl, by simp [WOp.frames]⟩
  | close => exact absurd rfl hop

end Fstrm
