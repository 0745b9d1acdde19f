import Verif.Lemmas.CaptureMemory
import Verif.Props.Capture

/-!
# C107: `-b` and `-c` limit what `fstrm_capture` buffers

The manual page says of `-b`: "Combined with -c, this can be used to limit the total memory usage".
-/

set_option autoImplicit false

namespace Fstrm.Props

open Spec (CFrame active)

/-- The bytes that are held for a client: received but not yet recorded, and not yet sent. -/
def held (s : Capture) (id : Nat) : Nat :=
  match s.conns id with
  | none => 0
  | some c => c.input.flatten.length + c.output.length

/-- **C107** For every client at most as many bytes are held as the buffer size, plus one ACCEPT and
one FINISH. Clients may send anything, at any time, and need not read what is sent to them. -/
theorem capture_buffers (args : CapArgs) (env : CapEnv) (acts : List CapAct) (s : Capture)
    (e : outcome args env acts = .ok s) (id : Nat) :
    held s id ≤ args.highwater +
      ((CFrame.wire ⟨.accept, [args.contentType]⟩).length + (CFrame.wire ⟨.finish, []⟩).length) := by
  unfold outcome at e
  obtain ⟨s0, e0, e⟩ := Exec.bind_eq_ok.1 e
  obtain ⟨h0, a0⟩ := start_linv e0
  obtain ⟨_, a⟩ := run_linv acts h0 e
  have h := run_small acts (start_small e0) e
  unfold held
  cases hc : s.conns id with
  | none => exact Nat.zero_le _
  | some c =>
    obtain ⟨h1, h2⟩ := h id c hc
    rw [a, a0] at h1 h2
    unfold evLength at h1
    have h3 : c.state.replies args.contentType ≤
        (CFrame.wire ⟨.accept, [args.contentType]⟩).length + (CFrame.wire ⟨.finish, []⟩).length := by
      cases c.state <;> simp only [ConnState.replies] <;> omega
    dsimp only
    omega

/-- **C107** With `-c n -b m` the program never holds more than `n` times that in total. -/
theorem capture_memory (args : CapArgs) (env : CapEnv) (acts : List CapAct) (s : Capture)
    (e : outcome args env acts = .ok s) (n m : Nat) (hn : 0 < n) (hc : args.countConnections = n)
    (hm : 0 < m) (hb : args.bufferSize = m) :
    ((active s.log).map (held s)).sum ≤ n * (m +
      ((CFrame.wire ⟨.accept, [args.contentType]⟩).length + (CFrame.wire ⟨.finish, []⟩).length)) ∧
    ∀ id, id ∉ active s.log → held s id = 0 := by
  have hhw : args.highwater = m := by
    unfold CapArgs.highwater
    rw [hb, if_pos (by omega)]
    rfl
  have hl := ((capture_limit args env acts s e).1 (by omega)).1
  constructor
  · have hsum : ∀ l : List Nat, (l.map (held s)).sum ≤ l.length * (m +
        ((CFrame.wire ⟨.accept, [args.contentType]⟩).length + (CFrame.wire ⟨.finish, []⟩).length)) := by
      intro l
      induction l with
      | nil => simp
      | cons i l ih =>
        have := capture_buffers args env acts s e i
        rw [hhw] at this
        rw [List.map_cons, List.sum_cons, List.length_cons, Nat.add_mul]
        omega
    exact Nat.le_trans (hsum _) (Nat.mul_le_mul_right _ (by omega))
  · intro id hid
    have := (capture_active args env acts s e).2 id
    unfold held
    cases hcc : s.conns id with
    | none => rfl
    | some c => rw [hcc] at this; exact absurd (this.2 rfl) hid

/-- Two clients of a program with `-c 2 -b 64`: one has sent READY and the beginning of a frame and has not read
the answer, the other fills its buffer. -/
example : (outcome { easyArgs 64 with countConnections := 2 } easyEnv
      [.accept, .accept, .accept,
        .recv 0 (CFrame.wire ⟨.ready, [[97]]⟩ ++ [0, 0, 0, 9, 1]) [CFrame.wire ⟨.ready, [[97]]⟩ ++ [0, 0, 0, 9, 1]],
        .recv 1 ([0, 0, 0, 70] ++ List.replicate 60 7) [[0, 0, 0, 70] ++ List.replicate 60 7],
        .recv 1 [7] [[0, 0, 0, 70] ++ List.replicate 60 7, [7]]]).map
      (fun s => (active s.log, (active s.log).map (held s))) = .ok ([0, 1], [26, 64]) := by decide +kernel

/-- The bound is reached up to one byte of the buffer size: the client that has sent READY, START, STOP and
most of another frame, and has read nothing. -/
example : (outcome { easyArgs 70 with countConnections := 2 } easyEnv
      [.accept, .recv 0 (hello ++ CFrame.wire ⟨.stop, []⟩) [hello ++ CFrame.wire ⟨.stop, []⟩],
        .recv 0 ([0, 0, 0, 66] ++ List.replicate 65 7) [[0, 0, 0, 66] ++ List.replicate 65 7]]).map
      (fun s => (held s 0, 70 + ((CFrame.wire ⟨.accept, [[97]]⟩).length + (CFrame.wire ⟨.finish, []⟩).length))) =
    .ok (102, 103) := by decide +kernel

end Fstrm.Props
