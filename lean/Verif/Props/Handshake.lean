import Verif.Props.ReaderOpen

/-!
# C65: the handshake at the end of a stream
-/

set_option autoImplicit false

namespace Fstrm.Props

open Spec

variable {σ : Type}

theorem wrote_close {a b : Rdwr σ} {r : Res} (h : a.close = .ok (r, b)) :
    wrote b.log = wrote a.log ∧ received b.log = received a.log := by
  obtain ⟨_, h⟩ := Rdwr.close_ok h
  rcases h with ⟨_, _, rfl⟩ | ⟨_, _, _, rfl⟩ | ⟨_, _, _, h⟩
  · exact ⟨rfl, rfl⟩
  · exact ⟨rfl, rfl⟩
  · rw [h, wrote_append, received_append]; simp [wrote, received]

theorem wrote_write {a b : Rdwr σ} {iov : List Bytes} {r : Res} (h : a.write iov = .ok (r, b)) :
    (r = .success → wrote b.log = wrote a.log ++ iov.flatten) ∧
    (r ≠ .success → wrote b.log = wrote a.log) ∧ received b.log = received a.log := by
  obtain ⟨_, h⟩ := Rdwr.write_ok h
  rcases h with ⟨_, rfl, rfl⟩ | ⟨_, rfl, _, h⟩ | ⟨_, hr, ⟨_, _, h⟩ | ⟨_, _, rc, h⟩⟩
  · exact ⟨nofun, fun _ => rfl, rfl⟩
  · rw [h, wrote_append, received_append]; simp [wrote, received]
  · rw [h, wrote_append, received_append]
    refine ⟨fun h => absurd h hr, fun _ => ?_, by simp [received]⟩
    cases r <;> simp_all [wrote]
  · rw [h, wrote_append, received_append]
    refine ⟨fun h => absurd h hr, fun _ => ?_, by simp [received]⟩
    cases r <;> simp_all [wrote]

/-- **C65**, reader side: closing an opened reader (or one that has seen STOP) over a transport with
a write method writes exactly one FINISH frame and nothing else, or nothing if that write
fails, in which case the failure is reported; without a write method it writes nothing. -/
theorem reader_close_finish (r r' : Reader σ) (res : Res)
    (hs : r.state = .opened ∨ r.state = .closing) (h : r.close = .ok (res, r')) :
    r'.state = .closed ∧ received r'.rdwr.log = received r.rdwr.log ∧
    (r.rdwr.ops.wr = none → wrote r'.rdwr.log = wrote r.rdwr.log) ∧
    (r.rdwr.ops.wr ≠ none →
      wrote r'.rdwr.log = wrote r.rdwr.log ++ CFrame.wire ⟨.finish, []⟩ ∨
      wrote r'.rdwr.log = wrote r.rdwr.log ∧ res ≠ .success) := by
  unfold Reader.close at h
  rw [if_neg (by rcases hs with h | h <;> simp [h])] at h
  simp only at h
  split at h
  · rename_i hw
    have hw : r.rdwr.ops.wr ≠ none := by intro h; simp [h] at hw
    rw [writeControl_finish] at h
    obtain ⟨⟨res1, rw1⟩, h1, h⟩ := Exec.bind_eq_ok.1 h
    obtain ⟨w1, w2, w3⟩ := wrote_write h1
    simp only at h
    split at h
    · rename_i hne
      obtain ⟨⟨rc, rw2⟩, h2, h⟩ := Exec.bind_eq_ok.1 h
      cases h
      obtain ⟨c1, c2⟩ := wrote_close h2
      exact ⟨rfl, c2.trans w3, fun h => absurd h hw, fun _ => Or.inr ⟨c1.trans (w2 hne), hne⟩⟩
    · rename_i hs
      have hs : res1 = .success := by simpa using hs
      obtain ⟨⟨rc, rw2⟩, h2, h⟩ := Exec.bind_eq_ok.1 h
      cases h
      obtain ⟨c1, c2⟩ := wrote_close h2
      refine ⟨rfl, c2.trans w3, fun h => absurd h hw, fun _ => Or.inl ?_⟩
      rw [c1, w1 hs]; simp
  · rename_i hw
    obtain ⟨⟨rc, rw2⟩, h2, h⟩ := Exec.bind_eq_ok.1 h
    cases h
    obtain ⟨c1, c2⟩ := wrote_close h2
    exact ⟨rfl, c2, fun _ => c1, fun h => absurd (by simpa using hw) h⟩

/-- A bidirectional reader that has opened, and then reports the end of the stream. -/
example : ∃ r r1 rs r2, Reader.init none (Rdwr.init (pipeOps true true)
      ⟨CFrame.wire ⟨.ready, []⟩ ++ CFrame.wire ⟨.start, []⟩ ++ CFrame.wire ⟨.stop, []⟩, [], false⟩) = some r ∧
    r.run 9 [.read] = .ok (rs, r1) ∧ r1.state = .closing ∧ r1.rdwr.ops.wr ≠ none ∧
    r1.close = .ok (.success, r2) ∧
    r2.rdwr.obj.out = CFrame.wire ⟨.accept, []⟩ ++ CFrame.wire ⟨.finish, []⟩ :=
  ⟨_, _, _, _, rfl, rfl, rfl, by simp [pipeOps, Rdwr.init], rfl, rfl⟩

/-- **C65**, writer side: whatever the transport does, if closing an opened writer succeeds then it
has written exactly one STOP frame and, over a transport with a read method, has
received exactly one complete FINISH frame (none without). -/
theorem writer_close_finish (w w' : Writer σ) (hs : w.state = .opened)
    (h : w.close = .ok (.success, w')) :
    wrote w'.rdwr.log = wrote w.rdwr.log ++ CFrame.wire ⟨.stop, []⟩ ∧
    (w.rdwr.ops.rd ≠ none → ∃ cts, CFrame.WF ⟨.finish, cts⟩ ∧
      received w'.rdwr.log = received w.rdwr.log ++ CFrame.wire ⟨.finish, cts⟩) ∧
    (w.rdwr.ops.rd = none → received w'.rdwr.log = received w.rdwr.log) := by
  unfold Writer.close at h
  rw [if_neg (by simp [hs])] at h
  simp only at h
  rw [writeControl_stop] at h
  obtain ⟨⟨res1, rw1⟩, h1, h⟩ := Exec.bind_eq_ok.1 h
  obtain ⟨w1, w2, w3⟩ := wrote_write h1
  have ho := (Rdwr.write_ok h1).1
  simp only at h
  split at h
  · rename_i hne
    obtain ⟨⟨rc, rw2⟩, h2, h⟩ := Exec.bind_eq_ok.1 h
    simp only [Except.ok.injEq, Prod.mk.injEq] at h
    exact absurd h.1 hne
  · rename_i hs
    have hs : res1 = .success := by simpa using hs
    have w1 := w1 hs
    simp only [List.flatten_cons, List.flatten_nil, List.append_nil] at w1
    split at h
    · rename_i hrd
      have hrd : w.rdwr.ops.rd ≠ none := by rw [← ho]; intro h; simp [h] at hrd
      obtain ⟨⟨res2, fin, rw2⟩, h2, h⟩ := Exec.bind_eq_ok.1 h
      simp only at h
      split at h
      · rename_i hne
        obtain ⟨⟨rc, rw3⟩, h3, h⟩ := Exec.bind_eq_ok.1 h
        simp only [Except.ok.injEq, Prod.mk.injEq] at h
        exact absurd h.1 hne
      · rename_i hs2
        have hs2 : res2 = .success := by simpa using hs2
        subst hs2
        obtain ⟨⟨rc, rw3⟩, h3, h⟩ := Exec.bind_eq_ok.1 h
        cases h
        obtain ⟨c1, c2⟩ := wrote_close h3
        obtain ⟨_, _, _, p4, ⟨ft, fc⟩, q1, _, q3, _, q5⟩ := readControl_success h2
        have hft : ft = .finish := CType.code_inj q3
        subst hft
        refine ⟨by rw [c1, p4, w1], fun _ => ⟨fc, q1, by rw [c2, q5, w3]⟩, fun h => absurd h hrd⟩
    · rename_i hrd
      have hrd : w.rdwr.ops.rd = none := by rw [← ho]; simpa using hrd
      obtain ⟨⟨rc, rw3⟩, h3, h⟩ := Exec.bind_eq_ok.1 h
      cases h
      obtain ⟨c1, c2⟩ := wrote_close h3
      exact ⟨by rw [c1, w1], fun h => absurd hrd h, fun _ => by rw [c2, w3]⟩

/-- A bidirectional writer whose peer accepts and finishes. -/
example : ∃ w rs w1 w2, Writer.init none (Rdwr.init (pipeOps true true)
      ⟨CFrame.wire ⟨.accept, []⟩ ++ CFrame.wire ⟨.finish, []⟩, [], false⟩) = some w ∧
    w.run [.write [1]] = .ok (rs, w1) ∧ w1.state = .opened ∧ w1.rdwr.ops.rd ≠ none ∧
    w1.close = .ok (.success, w2) :=
  ⟨_, _, _, _, rfl, rfl, rfl, by simp [pipeOps, Rdwr.init], rfl⟩

/-- **C65**, the rest: closing a reader or a writer that is not open reports failure and does
nothing. -/
theorem close_not_open (r : Reader σ) (w : Writer σ) :
    (r.state ≠ .opened → r.state ≠ .closing → r.close = .ok (.failure, r)) ∧
    (w.state ≠ .opened → w.close = .ok (.failure, w)) := by
  constructor
  · intro h1 h2
    unfold Reader.close
    rw [if_pos ⟨h1, h2⟩]
  · intro h
    unfold Writer.close
    rw [if_pos h]

/-- A reader and a writer that have been closed. -/
example : ∃ r r1 rs w w1 rs', Reader.init none (Rdwr.init (pipeOps true false)
      ⟨CFrame.wire ⟨.start, []⟩ ++ CFrame.wire ⟨.stop, []⟩, [], false⟩) = some r ∧
    r.run 9 [.read, .close] = .ok (rs, r1) ∧ r1.state = .closed ∧
    Writer.init none (Rdwr.init (pipeOps false true) ⟨[], [], false⟩) = some w ∧
    w.run [.write [1], .close] = .ok (rs', w1) ∧ w1.state = .closed :=
  ⟨_, _, _, _, _, _, rfl, rfl, rfl, rfl, rfl, rfl⟩

end Fstrm.Props
