import Verif.Props.Writer

/-!
# What a successful call has handed to the transport when it returns (C135)
-/

set_option autoImplicit false

namespace Fstrm.Props

open Fstrm
open Fstrm.Spec (CType CFrame pipeOps wrote)

variable {σ : Type}

/-- A call of the transport's write callback, or of its close callback. -/
def Ev.outward : Ev → Prop
  | .wr _ _ => True
  | .cls _ => True
  | _ => False

/-- The log grew by calls of the write and close callbacks only. -/
def Outward (a b : Rdwr σ) : Prop := ∃ evs, b.log = a.log ++ evs ∧ ∀ e ∈ evs, Ev.outward e

theorem Outward.refl (a : Rdwr σ) : Outward a a := ⟨[], by simp, by simp⟩

theorem Outward.trans {a b c : Rdwr σ} (h1 : Outward a b) (h2 : Outward b c) : Outward a c := by
  obtain ⟨e1, l1, p1⟩ := h1
  obtain ⟨e2, l2, p2⟩ := h2
  refine ⟨e1 ++ e2, by rw [l2, l1, List.append_assoc], ?_⟩
  intro e he
  rcases List.mem_append.1 he with h | h
  · exact p1 e h
  · exact p2 e h

theorem write_outward {a b : Rdwr σ} {iov : List Bytes} {r : Res}
    (h : a.write iov = .ok (r, b)) : Outward a b := by
  obtain ⟨_, h⟩ := Rdwr.write_ok h
  rcases h with ⟨_, _, rfl⟩ | ⟨_, _, _, h⟩ | ⟨_, _, ⟨_, _, h⟩ | ⟨_, _, rc, h⟩⟩
  · exact .refl _
  · exact ⟨_, h, by simp [Ev.outward]⟩
  · exact ⟨_, h, by simp [Ev.outward]⟩
  · exact ⟨_, h, by simp [Ev.outward]⟩

theorem writeIov_outward {w w' : Writer σ} {iov : List Bytes} {r : Res}
    (h : w.writeIov iov = .ok (r, w')) : Outward w.rdwr w'.rdwr := by
  unfold Writer.writeIov at h
  obtain ⟨iovecs, _, h⟩ := Exec.bind_eq_ok.1 h
  obtain ⟨⟨res, rw⟩, h1, h⟩ := Exec.bind_eq_ok.1 h
  cases h
  exact write_outward h1

theorem writeIovStupid_outward : ∀ (fuel : Nat) {w w' : Writer σ} {iov : List Bytes} {r : Res},
    Writer.writeIovStupid fuel w iov = .ok (r, w') → Outward w.rdwr w'.rdwr := by
  intro fuel
  induction fuel with
  | zero =>
    intro w w' iov r h
    unfold Writer.writeIovStupid at h
    split at h
    · cases h
    · cases h; exact .refl _
  | succ fuel ih =>
    intro w w' iov r h
    unfold Writer.writeIovStupid at h
    split at h
    · simp only at h
      obtain ⟨⟨res, w1⟩, h1, h⟩ := Exec.bind_eq_ok.1 h
      simp only at h
      split at h
      · cases h; exact writeIov_outward h1
      · exact (writeIov_outward h1).trans (ih h)
    · cases h; exact .refl _

theorem writev_outward {w w' : Writer σ} {iov : List Bytes} {r : Res} (ho : w.state = .opened)
    (h : w.writev iov = .ok (r, w')) : Outward w.rdwr w'.rdwr := by
  unfold Writer.writev at h
  split at h
  · cases h; exact .refl _
  · have hm : w.maybeOpen = .ok (.success, w) := by
      unfold Writer.maybeOpen; rw [if_neg (by rw [ho]; simp)]
    rw [hm, Exec.ok_bind] at h
    simp only [ne_eq, not_true_eq_false, if_false, ho, if_true] at h
    split at h
    · cases h
    · split at h
      · exact writeIov_outward h
      · exact writeIovStupid_outward _ h

theorem step_opened {w w' : Writer σ} {op : WOp} {r : Res} (ho : w.state = .opened)
    (hop : op ≠ .close) (h : w.step op = .ok (r, w')) : w'.state = .opened := by
  cases op with
  | opn =>
    unfold Writer.step Writer.open at h
    simp only [ho, if_true] at h
    cases h; exact ho
  | write d => exact (writev_opened (iov := [d]) ho h).1
  | writev ds => exact (writev_opened ho h).1
  | getControl t =>
    unfold Writer.step Writer.getControl at h
    have hm : w.maybeOpen = .ok (.success, w) := by
      unfold Writer.maybeOpen; rw [if_neg (by rw [ho]; simp)]
    simp only [hm, Exec.ok_bind, ne_eq, not_true_eq_false, if_false] at h
    obtain ⟨⟨res, c, w1⟩, h1, h⟩ := Exec.bind_eq_ok.1 h
    cases h
    split at h1
    · cases h1; exact ho
    · split at h1
      · cases h1; exact ho
      · split at h1
        · cases h1; exact ho
        · split at h1 <;> cases h1 <;> exact ho
  | close => exact absurd rfl hop

theorem run_opened : ∀ (calls : List WOp) {w w' : Writer σ} {rs : List Res},
    w.state = .opened → WOp.close ∉ calls → w.run calls = .ok (rs, w') → w'.state = .opened := by
  intro calls
  induction calls with
  | nil => intro w w' rs ho _ h; cases h; exact ho
  | cons op rest ih =>
    intro w w' rs ho hc h
    simp only [List.mem_cons, not_or] at hc
    obtain ⟨⟨r, w1⟩, h1, h⟩ := Exec.bind_eq_ok.1 h
    obtain ⟨⟨rs', w2⟩, h2, h⟩ := Exec.bind_eq_ok.1 h
    cases h
    exact ih (step_opened ho (fun h => hc.1 h.symm) h1) hc.2 h2

theorem open_success_opened {w w' : Writer σ} (h : w.open = .ok (.success, w')) :
    w'.state = .opened := by
  unfold Writer.open at h
  split at h
  · rename_i ho; cases h; exact ho
  · obtain ⟨⟨res, rw⟩, h1, h⟩ := Exec.bind_eq_ok.1 h
    simp only at h
    split at h
    · rename_i hn; cases h; exact absurd rfl hn
    · obtain ⟨⟨res2, w2⟩, h2, h⟩ := Exec.bind_eq_ok.1 h
      simp only at h
      split at h
      · rename_i hn; cases h; exact absurd rfl hn
      · cases h; rfl

/-- **C135**. Take any transport, any history of calls on a writer and, somewhere in it, a
successful open with no close after it; calls may have failed. Then a call writing the frames `ds`
uses the write and close callbacks of the transport only, so it waits for nothing from the peer;
when it returns, its first `k` frames and nothing else have been handed over, and these are all of
them if it reports success. -/
theorem write_hands_over (ops : Ops σ) (obj : σ) (wopt : Option WriterOptions)
    (w0 w1 w2 w w' : Writer σ) (before after : List WOp) (rs1 rs2 : List Res) (op : WOp) (res : Res)
    (_hinit : Writer.init wopt (Rdwr.init ops obj) = some w0)
    (_hbefore : w0.run before = .ok (rs1, w1))
    (hopen : w1.step .opn = .ok (.success, w2))
    (hafter : w2.run after = .ok (rs2, w)) (hclose : WOp.close ∉ after)
    (hop : (∃ d, op = .write d) ∨ ∃ ds, op = .writev ds)
    (h : w.step op = .ok (res, w')) :
    (∃ evs, w'.rdwr.log = w.rdwr.log ++ evs ∧ ∀ e ∈ evs, Ev.outward e) ∧
    ∃ k, k ≤ op.frames.length ∧ (res = .success → k = op.frames.length) ∧
      wrote w'.rdwr.log = wrote w.rdwr.log ++ (op.frames.take k).flatMap Spec.dataFrame := by
  have ho : w.state = .opened := run_opened after (open_success_opened hopen) hclose hafter
  rcases hop with ⟨d, rfl⟩ | ⟨ds, rfl⟩
  · exact ⟨writev_outward (iov := [d]) ho h, (writev_opened (iov := [d]) ho h).2⟩
  · exact ⟨writev_outward ho h, (writev_opened ho h).2⟩

theorem run_cts {w w' : Writer σ} {calls : List WOp} {rs : List Res}
    (h : w.run calls = .ok (rs, w')) : w'.cts = w.cts := by
  induction calls generalizing w rs with
  | nil => cases h; rfl
  | cons op rest ih =>
    obtain ⟨⟨r, w1⟩, h1, h⟩ := Exec.bind_eq_ok.1 h
    obtain ⟨⟨rs', w2⟩, h2, h⟩ := Exec.bind_eq_ok.1 h
    cases h
    refine (ih h2).trans ?_
    cases op with
    | opn => exact (open_frame h1).1
    | write d => exact (writev_frame (iov := [d]) h1).1
    | writev ds => exact (writev_frame h1).1
    | getControl t =>
      obtain ⟨⟨res, c, w3⟩, h3, h4⟩ := Exec.bind_eq_ok.1 h1
      cases h4; exact (getControl_frame h3).1
    | close => exact (close_frame h1).1

/-- **C135**, the first call: on a writer that was just created, or closed, a call that opens it and
reports success, be it open or a write of at least one frame, has handed over when it returns: READY
with all content types if the transport can be read, START with the first content type, and the
frames of the call; and nothing else. -/
theorem open_hands_over (ops : Ops σ) (obj : σ) (wopt : Option WriterOptions) (w0 w w' : Writer σ)
    (before : List WOp) (rs : List Res) (op : WOp)
    (hinit : Writer.init wopt (Rdwr.init ops obj) = some w0)
    (hbefore : w0.run before = .ok (rs, w))
    (hnew : before = [] ∨ ∃ b, before = b ++ [.close])
    (hop : op = .opn ∨ op.frames ≠ [])
    (h : w.step op = .ok (.success, w')) :
    wrote w'.rdwr.log = wrote w.rdwr.log ++
      ((if ops.rd.isSome then CFrame.wire ⟨.ready, optCts wopt⟩ else []) ++
      CFrame.wire ⟨.start, (optCts wopt).head?.toList⟩ ++ op.frames.flatMap Spec.dataFrame) := by
  obtain ⟨i1, i2, i3, _⟩ := init_some hinit
  have hcts : w.cts = optCts wopt := (run_cts hbefore).trans i2
  have hops : w.rdwr.ops = ops := by rw [(run_reach hbefore).ops, i3]; rfl
  have hst : w.state ≠ .opened := by
    rcases hnew with rfl | ⟨b, rfl⟩
    · cases hbefore; rw [i1]; simp
    · obtain ⟨r1, w1, r2, _, h2, _⟩ := (run_append _ _ _ _ _).1 hbefore
      obtain ⟨⟨r, w2⟩, h3, h4⟩ := Exec.bind_eq_ok.1 h2
      obtain ⟨_, h5, h6⟩ := Exec.bind_eq_ok.1 h4
      cases h5; cases h6
      obtain ⟨_, _, c1, c2⟩ := close_frame h3
      by_cases ho : w1.state = .opened
      · rw [c2 ho]; simp
      · rw [(c1 ho).2]; exact ho
  have hopen : ∀ w1, w.open = .ok (.success, w1) → wrote w1.rdwr.log = wrote w.rdwr.log ++
      ((if ops.rd.isSome then CFrame.wire ⟨.ready, optCts wopt⟩ else []) ++
      CFrame.wire ⟨.start, (optCts wopt).head?.toList⟩) := by
    intro w1 h1
    cases hrd : ops.rd with
    | none =>
      rw [(open_uni_success (by rw [hops]; exact hrd) hst h1).1, hcts]
      simp
    | some f =>
      obtain ⟨_, ct, _, _, _, hw, _, _, he⟩ :=
        negotiated_sound w w1 (by rw [hops, hrd]; simp) hst h1
      rw [hw, he, hcts]
      simp
  have hcl : op ≠ .close := by
    rintro rfl
    rcases hop with h | h
    · cases h
    · exact h rfl
  rcases step_success hcl h with ⟨rfl, hf⟩ | ⟨w1, h1, h2, _, _, _, _, _, h8⟩
  · rcases hop with rfl | hop
    · exact absurd (open_success_opened h) hst
    · exact absurd hf hop
  · rcases h1 with rfl | ⟨_, h1⟩
    · exact absurd h2 hst
    · rw [h8, hopen w1 h1, List.append_assoc]

/-- The hypotheses are met: a batch of 300 frames, which takes three calls of the write callback, on
a writer that was opened by its first write. -/
example : ((Writer.init (some ⟨[[1]]⟩) (Rdwr.init (pipeOps false true) ⟨[], [], false⟩)).map fun w0 =>
    (do
      let (_, w1) ← w0.run [.close]
      let (r2, w2) ← w1.step .opn
      let (_, w) ← w2.run [.write [7]]
      let (res, w') ← w.step (.writev (List.replicate 300 [8]))
      Except.ok (r2, res, wrote w2.rdwr.log == CFrame.wire ⟨.start, [[1]]⟩,
        (wrote w'.rdwr.log).length, (w'.rdwr.log.drop w.rdwr.log.length).length) :
      Exec (Res × Res × Bool × Nat × Nat))) =
    some (.ok (.success, .success, true, 21 + 5 * 301, 3)) := by decide +kernel

/-- They are also met by a writer of which calls fail: the transport cannot be opened at first. -/
example : ∃ (ops : Ops Nat) (w0 w1 w2 w w' : Writer Nat) (rs : List Res),
    Writer.init none (Rdwr.init ops 0) = some w0 ∧
    w0.run [.write [1]] = .ok ([.failure], w1) ∧ w1.step .opn = .ok (.success, w2) ∧
    w2.run [.getControl T_START] = .ok (rs, w) ∧ w.step (.writev [[2], [3]]) = .ok (.success, w') ∧
    wrote w'.rdwr.log = CFrame.wire ⟨.start, []⟩ ++ Spec.dataFrame [2] ++ Spec.dataFrame [3] := by
  refine ⟨{ destroy := none, cls := none, rd := none,
            opn := some fun n => .ok (if n = 0 then .failure else .success, n + 1),
            wr := some fun _ n => .ok (.success, n) }, _, _, _, _, _, _, rfl, rfl, rfl, rfl, rfl, ?_⟩
  rfl

end Fstrm.Props
