import Verif.Props.IoNet

/-!
# C102: can the peer keep `fstrm_iothr_destroy` from returning?

Yes. `Spec/IoNet.lean` says what the program is: it destroys its I/O thread at the end of its
schedule, and `IoClient.side` says how far it gets with the bytes it has received.
-/

set_option autoImplicit false

namespace Fstrm.Props

open Iothr
open Spec (CFrame IoClient Finished common stream)

/-- **C102 is false of the code.** A program sends payloads through an I/O thread with a bidirectional
writer to a peer that keeps the connection open; the peer answers READY with a suitable ACCEPT, and has
sent any part of its answers ACCEPT and FINISH, but not all of it. Then `fstrm_iothr_destroy` has not
returned: the program is waiting for more bytes, having sent READY or, if all of ACCEPT has arrived,
everything up to and including STOP. As there is no time limit, it waits forever if no more bytes
come. -/
theorem destroy_waits_for_peer (p : IoClient) (ropt : Option ReaderOptions)
    (hp : p.Whole)
    (hwcts : ∀ c ∈ p.types, c.length ≤ 256)
    (hready : (CFrame.wire ⟨.ready, p.types⟩).length ≤ 512)
    (hrcts : ∀ c ∈ (optR ropt).cts, c.length ≤ 256)
    (haccept : (CFrame.wire ⟨.accept, common (optR ropt).cts p.types⟩).length ≤ 512)
    (hagree : ∀ c, p.types.head? = some c → (optR ropt).cts = [] ∨ c ∈ (optR ropt).cts)
    (hsize : ∀ t q d f, .submit t q (some d) f ∈ p.acts → d.length ≤ (optR ropt).maxFrameSize)
    (y : Bytes)
    (hy : y <+: CFrame.wire ⟨.accept, common (optR ropt).cts p.types⟩ ++ CFrame.wire ⟨.finish, []⟩)
    (hpart : y.length < (CFrame.wire ⟨.accept, common (optR ropt).cts p.types⟩).length + 12) :
    (y.length < (CFrame.wire ⟨.accept, common (optR ropt).cts p.types⟩).length →
      p.side y = .error (.wait (CFrame.wire ⟨.ready, p.types⟩))) ∧
    ((CFrame.wire ⟨.accept, common (optR ropt).cts p.types⟩).length ≤ y.length →
      ∃ frames, p.side y =
        .error (.wait (CFrame.wire ⟨.ready, p.types⟩ ++ stream p.types.head? frames))) := by
  obtain ⟨bs, es, log, hok, hfr, hn', h2, h3, h4, hcmp⟩ :=
    ioCompare p ropt (p.acts.length + 1) hp hwcts hready hrcts haccept hagree hsize (by omega)
  have ht : p.types = optCts p.wopt := by unfold IoClient.types optCts; cases p.wopt <;> rfl
  rw [ht] at hy hpart ⊢
  have hA : (netA p.wopt ropt).length =
      (CFrame.wire ⟨.accept, common (optR ropt).cts (optCts p.wopt)⟩).length := rfl
  have hne : y ≠ netY p.wopt ropt := by
    intro h
    rw [h, List.length_append, wire_finish_length] at hpart
    omega
  rcases writer_at hok hy with ⟨a1, a2⟩ | ⟨a1, -, a2⟩ | ⟨a1, -⟩
  · refine ⟨fun _ => ?_, fun h => absurd a1 (by omega)⟩
    rcases hcmp y hy with ⟨o, g1, g2⟩ | ⟨st, o, r, g1, -, -, g2⟩
    · rw [a2] at g2; cases g2; exact g1
    · rw [a2] at g2; cases g2
  · refine ⟨fun h => absurd a1 (by omega), fun _ => ⟨bs.flatten, ?_⟩⟩
    rcases hcmp y hy with ⟨o, g1, g2⟩ | ⟨st, o, r, g1, -, -, g2⟩
    · rw [a2] at g2; cases g2; exact g1
    · rw [a2] at g2; cases g2
  · exact absurd a1 hne

/-- Such a program and peer exist: with ACCEPT and all of FINISH but its last byte, the program of
`Props/IoNet.lean` is still waiting. -/
theorem destroy_hangs : ∃ (p : IoClient) (y : Bytes) (o : Bytes), p.Whole ∧
    p.side y = .error (.wait o) ∧
    y = CFrame.wire ⟨.accept, [[1]]⟩ ++ (CFrame.wire ⟨.finish, []⟩).take 11 := by
  obtain ⟨g1, g2, g3, g4, g5, g6, g7, g8⟩ := ioNet_hyps
  obtain ⟨-, h⟩ := destroy_waits_for_peer ioNetEx ioNetR g1 g2 g3 g4 g5 g6 g7
    (CFrame.wire ⟨.accept, [[1]]⟩ ++ (CFrame.wire ⟨.finish, []⟩).take 11)
    (by decide +kernel) (by decide +kernel)
  obtain ⟨frames, h⟩ := h (by decide +kernel)
  exact ⟨_, _, _, g1, h, rfl⟩

/-- **C102, as far as it holds.** When all of ACCEPT and FINISH has arrived, `fstrm_iothr_destroy`
has returned.

Missing for the full property: it returns whatever the peer does; `destroy_hangs`. -/
theorem destroy_returns_partial (p : IoClient) (ropt : Option ReaderOptions)
    (hp : p.Whole)
    (hwcts : ∀ c ∈ p.types, c.length ≤ 256)
    (hready : (CFrame.wire ⟨.ready, p.types⟩).length ≤ 512)
    (hrcts : ∀ c ∈ (optR ropt).cts, c.length ≤ 256)
    (haccept : (CFrame.wire ⟨.accept, common (optR ropt).cts p.types⟩).length ≤ 512)
    (hagree : ∀ c, p.types.head? = some c → (optR ropt).cts = [] ∨ c ∈ (optR ropt).cts)
    (hsize : ∀ t q d f, .submit t q (some d) f ∈ p.acts → d.length ≤ (optR ropt).maxFrameSize) :
    ∃ s o, p.side (CFrame.wire ⟨.accept, common (optR ropt).cts p.types⟩ ++
      CFrame.wire ⟨.finish, []⟩) = .ok (s, o) ∧ Finished s := by
  obtain ⟨bs, es, log, hok, hfr, hn', h2, h3, h4, hcmp⟩ :=
    ioCompare p ropt (p.acts.length + 1) hp hwcts hready hrcts haccept hagree hsize (by omega)
  have ht : p.types = optCts p.wopt := by unfold IoClient.types optCts; cases p.wopt <;> rfl
  rw [ht]
  rcases hcmp _ (List.prefix_refl _) with ⟨o, -, g2⟩ | ⟨st, o, r, g1, g3, -⟩
  · rcases writer_at hok (List.prefix_refl _) with ⟨a1, -⟩ | ⟨-, a1, -⟩ | ⟨-, w, a2, -⟩
    · rw [List.length_append] at a1; omega
    · exact absurd rfl a1
    · rw [a2] at g2; cases g2
  · exact ⟨st, o, g1, g3⟩

/-- It has returned there. -/
example : ∃ s o, ioNetEx.side (CFrame.wire ⟨.accept, [[1]]⟩ ++ CFrame.wire ⟨.finish, []⟩) =
    .ok (s, o) ∧ Finished s := by
  obtain ⟨g1, g2, g3, g4, g5, g6, g7, g8⟩ := ioNet_hyps
  exact destroy_returns_partial ioNetEx ioNetR g1 g2 g3 g4 g5 g6 g7

end Fstrm.Props
