import Verif.Lemmas.QPipe
import Verif.Props.FleetPipe
import Verif.Props.QFleet

/-!
# C115 and C121: threads' memory accesses, and connections that hold only so many bytes

The programs of C121 and `fstrm_capture` over connections of limited capacity; `Verif.Spec.FleetPipe` says how
these work, `Verif.Spec.QPipe` what a program does whose connection is full.
-/

set_option autoImplicit false

namespace Fstrm.Props

open Iothr
open Spec (CapEv CFrame Client QClient QEnd QSuits Finished Suits sides Fair FleetRun World PipeWorld PipeFair
  PipeFleetRun PipeSettled dataFrame receivedFrom recordedFrom sentTo sentBy stream)

/-- Programs with I/O threads over queues in memory. -/
theorem qPipes_like {ct : Bytes} {hw : Nat} {stranger : Nat → Prop} {prog : Nat → QClient} {c : Nat → Client}
    (h : ∀ id y, ¬ stranger id → y <+: netY (c id).wopt (capR ct hw) →
      (∃ o, (prog id).side y = .error (.wait o) ∧ (c id).side y = .error (.wait o)) ∨
      ∃ e o r, (prog id).side y = .ok (e, o) ∧ e.Clean ∧ (c id).side y = .ok (r, o)) :
    PipeLike ct hw stranger c fun id => (prog id).pipe := by
  intro id y hk hy
  rcases h id y hk hy with ⟨o, h1, h2⟩ | ⟨st, o, r, h1, _, h2⟩
  · exact ⟨o, Or.inl ⟨h2, fun k => (qPipe_cut (prog id) k y).2 o h1⟩⟩
  · refine ⟨o, Or.inr ⟨r, h2, fun k => ?_⟩⟩
    have := (qPipe_cut (prog id) k y).1 _ _ h1
    split
    · rename_i hle; rw [if_pos hle] at this; exact ⟨_, this⟩
    · rename_i hle; rw [if_neg hle] at this; exact this

/-- **C115, programs with I/O threads over queues in memory: safety.** Whatever happens can also happen over
unlimited connections, so that C121 applies. The server gets through everything that can happen next. Every
program is waiting for bytes of the server, or blocked with as many bytes sent as its connection takes, or
has destroyed its I/O thread without a failing call. -/
theorem qfleet_pipe_safe (args : CapArgs) (env : CapEnv) (prog : Nat → QClient)
    (stranger breaks : Nat → Prop) (cw cr : Nat) (s : Capture) (got : Nat → Bytes) (hb : args.bufferSize < 2 ^ 31)
    (hs : ∀ id, ¬ stranger id → QSuits args.contentType args.highwater (prog id))
    (h : PipeFleetRun args env ⟨fun id => (prog id).pipe, stranger, breaks, cw, cr⟩ s got) :
    FleetRun args env ⟨fun id => (prog id).side, stranger, breaks⟩ s got ∧
    (∀ a, PipeFair ⟨fun id => (prog id).pipe, stranger, breaks, cw, cr⟩ got s a → ∃ s', s.step a = .ok s') ∧
    ∀ id, ¬ stranger id →
      (∃ sent, (prog id).pipe ((receivedFrom id s.log).length + cw) (got id) = .error (.wait sent)) ∨
      (∃ sent, (prog id).pipe ((receivedFrom id s.log).length + cw) (got id) = .error (.full sent) ∧
        sent.length = (receivedFrom id s.log).length + cw) ∨
      ∃ e sent, (prog id).pipe ((receivedFrom id s.log).length + cw) (got id) = .ok (e, sent) ∧ e.Clean := by
  obtain ⟨c, c1, c2, c3, c4, c5⟩ := q_clients hs
  have hl := qPipes_like c4
  have hr := hl.run hb c1 h
  have hg := (fleet_inv hb c1 hr).sent hb c1
  refine ⟨c5.back hb c1 hr,
    fun a ha => (fleet_safe args env c stranger breaks s got hb c1 hr).1 a (hl.fair hg ha), ?_⟩
  intro id hk
  rcases hl.cases hk (hg id hk) ((receivedFrom id s.log).length + cw) with ⟨o, _, h1⟩ | h1 | ⟨r, r', o, h1, h2⟩
  · exact Or.inl ⟨o, h1⟩
  · exact Or.inr (Or.inl h1)
  · refine Or.inr (Or.inr ⟨r', o, h2, ?_⟩)
    rcases c4 id _ hk (hg id hk) with ⟨_, _, h3⟩ | ⟨e, o', _, h3, h4, _⟩
    · have h3 : sides c id (got id) = _ := h3
      rw [h1] at h3; cases h3
    · have h5 := (qPipe_cut (prog id) ((receivedFrom id s.log).length + cw) (got id)).1 _ _ h3
      rw [h2] at h5
      split at h5
      · cases h5; exact ⟨h4.finished, h4.settled, h4.idle⟩
      · cases h5

/-- **C115, programs with I/O threads over queues in memory: progress.** While the server runs, the network
always has something to do for a program whose connection was accepted and does not break, however few
bytes the connections hold, until the program has destroyed its I/O thread without a failing call; then every
payload for which submit had returned success before destroy was called has been written, what one thread
submitted to one queue in the order of submission, and nothing twice. -/
theorem qfleet_pipe_progress (args : CapArgs) (env : CapEnv) (prog : Nat → QClient)
    (stranger breaks : Nat → Prop) (cw cr : Nat) (s : Capture) (got : Nat → Bytes) (hb : args.bufferSize < 2 ^ 31)
    (hcw : 1 ≤ cw) (hcr : 1 ≤ cr)
    (hs : ∀ id, ¬ stranger id → QSuits args.contentType args.highwater (prog id))
    (h : PipeFleetRun args env ⟨fun id => (prog id).pipe, stranger, breaks, cw, cr⟩ s got) (hx : s.exited = none)
    (id : Nat) (hk : ¬ stranger id) (hbr : ¬ breaks id) (hacc : .accepted id ∈ s.log)
    (hq : PipeSettled ⟨fun id => (prog id).pipe, stranger, breaks, cw, cr⟩ s got id) :
    ∃ e sent, (prog id).pipe ((receivedFrom id s.log).length + cw) (got id) = .ok (e, sent) ∧ e.Clean ∧
      ∃ es : List Entry, recordedFrom id s.log = es.map (fun x => dataFrame x.data) ∧ es.Nodup ∧
        (∀ x ∈ e.done, x ∈ es) ∧
        ∀ q t, (e.mine q t e.done).Sublist (e.mine q t es) ∧ (e.mine q t es).Sublist (e.mine q t e.rets) := by
  obtain ⟨c, c1, c2, c3, c4, c5⟩ := q_clients hs
  have hl := qPipes_like c4
  have hr := hl.run hb c1 h
  have hg := (fleet_inv hb c1 hr).sent hb c1
  obtain ⟨r, r', o, h1, h2⟩ := hl.progress hb hcw hcr c1 h hx id hk hbr hacc hq
  refine ⟨r', o, h2, ?_⟩
  rcases c4 id _ hk (hg id hk) with ⟨_, _, h3⟩ | ⟨e, o', _, h3, h4, _⟩
  · have h3 : sides c id (got id) = _ := h3
    rw [h1] at h3; cases h3
  · have h5 := (qPipe_cut (prog id) ((receivedFrom id s.log).length + cw) (got id)).1 _ _ h3
    have h2 : (prog id).pipe ((receivedFrom id s.log).length + cw) (got id) = _ := h2
    rw [h2] at h5
    split at h5
    · cases h5
      have hd := (qfleet_delivers args env prog stranger breaks s got hb hs (c5.back hb c1 hr) id hk).2 _ _ h3
      exact ⟨⟨h4.finished, h4.settled, h4.idle⟩, hd⟩
    · cases h5

/-- The hypotheses are met by a program with lock-free queues, served to the end over a connection that holds
7 bytes one way and 1 byte the other. -/
example : ∃ s got,
    PipeFleetRun (easyArgs 0) easyEnv
      ⟨fun _ => (qSample twoQueues 0).pipe, fun _ => False, fun _ => False, 7, 1⟩ s got ∧
    (easyArgs 0).bufferSize < 2 ^ 31 ∧
    QSuits (easyArgs 0).contentType (easyArgs 0).highwater (qSample twoQueues 0) ∧
    s.exited = none ∧ .accepted 0 ∈ s.log ∧
    s.files = [CFrame.wire ⟨.start, [[97]]⟩ ++ [[1], [2, 2], [3]].flatMap dataFrame] ∧
    PipeSettled ⟨fun _ => (qSample twoQueues 0).pipe, fun _ => False, fun _ => False, 7, 1⟩ s got 0 := by
  obtain ⟨s, got, h, hx, hacc, hf, hq⟩ := served_sample (fun _ => (qSample twoQueues 0).pipe) 7 1
    [CFrame.wire ⟨.start, [[97]]⟩ ++ [[1], [2, 2], [3]].flatMap dataFrame] (by decide +kernel)
  exact ⟨s, got, h, by decide +kernel, qSample_suits _ _ (Or.inl ⟨rfl, rfl⟩), hx, hacc, hf, hq⟩

end Fstrm.Props
