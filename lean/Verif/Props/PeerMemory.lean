import Verif.Lemmas.PeerMemory
import Verif.Props.ReaderOpen

/-!
# C133: a peer cannot make a reader or writer hold much memory
-/

set_option autoImplicit false

namespace Fstrm.Props

open Fstrm Spec

variable {σ : Type}

/-- **C133** for readers. After every history of calls, on every transport: what the reader keeps of
each control frame of its peer is at most 508 bytes (hence at most 63 content types), what it keeps
of its own ACCEPT is no more than its own content types, and all its memory that depends on what
the peer sends, frame buffer included, is bounded by its options alone. -/
theorem reader_memory_bounded (ops : Ops σ) (obj : σ) (ropt : Option ReaderOptions)
    (r r' : Reader σ) (fuel : Nat) (calls : List ROp) (rs : List (Res × Option Bytes))
    (hinit : Reader.init ropt (Rdwr.init ops obj) = some r)
    (hrun : r.run fuel calls = .ok (rs, r')) :
    (∀ c, some c ∈ [r'.start, r'.stop, r'.ready, r'.tmp] →
      typeBytes c.cts ≤ 508 ∧ c.cts.length ≤ 63) ∧
    keptBytes r'.accept ≤ typeBytes (optR ropt).cts ∧
    readerHolds r' ≤ max 512 (2 * (optR ropt).maxFrameSize) + 4 * 508 + typeBytes (optR ropt).cts := by
  have hbuf := (delivered_are_slices ops obj ropt r r' fuel calls rs hinit hrun).2
  have hcts := (reader_init_some hinit).2.1
  have h0 : SmallR (optR ropt).cts r := by
    unfold Reader.init at hinit
    cases ropt <;> dsimp only at hinit <;> split at hinit
    all_goals first
    | cases hinit; done
    | cases hinit
      exact ⟨hcts, Nat.zero_le _, Nat.zero_le _, Nat.zero_le _, Nat.zero_le _, Nat.zero_le _⟩
  have h : SmallR (optR ropt).cts r' := h0.run fuel calls _ hrun
  refine ⟨?_, h.accept, ?_⟩
  · intro c hc
    have hk : typeBytes c.cts ≤ 508 := by
      have e : keptBytes (some c) = typeBytes c.cts := rfl
      rw [← e]
      simp only [List.mem_cons, List.not_mem_nil, or_false] at hc
      rcases hc with hc | hc | hc | hc <;> rw [hc]
      · exact h.start
      · exact h.stop
      · exact h.ready
      · exact h.tmp
    have hl : ∀ l : List Bytes, 8 * l.length ≤ typeBytes l := by
      intro l
      induction l with
      | nil => exact Nat.le_refl _
      | cons a l ih => rw [typeBytes_cons, List.length_cons]; omega
    have := hl c.cts
    exact ⟨hk, by omega⟩
  · have h1 := h.start
    have h2 := h.stop
    have h3 := h.ready
    have h4 := h.tmp
    have h5 := h.accept
    unfold readerHolds
    omega

/-- **C133** for writers: the same, a writer having no frame buffer. -/
theorem writer_memory_bounded (ops : Ops σ) (obj : σ) (wopt : Option WriterOptions)
    (w w' : Writer σ) (calls : List WOp) (rs : List Res)
    (hinit : Writer.init wopt (Rdwr.init ops obj) = some w)
    (hrun : w.run calls = .ok (rs, w')) :
    keptBytes w'.accept ≤ 508 ∧ keptBytes w'.finish ≤ 508 ∧
    writerHolds w' ≤ 2 * 508 + 2 * typeBytes (wopt.getD WriterOptions.init).cts := by
  have h0 : SmallW (wopt.getD WriterOptions.init).cts w := by
    unfold Writer.init at hinit
    split at hinit
    · cases hinit
    · cases hinit
      refine ⟨?_, Nat.zero_le _, Nat.zero_le _, Nat.zero_le _, Nat.zero_le _⟩
      cases wopt <;> rfl
  have h : SmallW (wopt.getD WriterOptions.init).cts w' := h0.run calls _ hrun
  have h1 := h.accept
  have h2 := h.finish
  have h3 := h.ready
  have h4 := h.start
  refine ⟨h1, h2, ?_⟩
  unfold writerHolds
  omega

/-- The peer offers 63 content types and starts; then it sends a data frame of 700 bytes. -/
def greedyPeer : Bytes :=
  CFrame.wire ⟨.ready, List.replicate 63 []⟩ ++ (CFrame.wire ⟨.start, [[]]⟩ ++
    (be32 700 ++ List.replicate 700 5))

/-- The reader keeps all 63 content types and grows its buffer, up to the bounds; a writer keeps the
ACCEPT it is answered. -/
example : (∃ r, Reader.init (some ⟨[[]], 1000⟩) (Rdwr.init (pipeOps true true) ⟨greedyPeer, [], false⟩) = some r ∧
    ((r.run 1 [.read]).map fun x => (x.1.map (·.1), keptBytes x.2.ready, keptBytes x.2.accept, x.2.bufCap,
      readerHolds x.2)) = .ok ([.success], 504, 8, 1024, 1024 + 504 + 8 + 8)) ∧
    (∃ w, Writer.init none (Rdwr.init (pipeOps true true)
      ⟨CFrame.wire ⟨.accept, [[1, 2], [3]]⟩, [], false⟩) = some w ∧
    ((w.run [.opn]).map fun x => (x.1, keptBytes x.2.accept, writerHolds x.2)) =
      .ok ([.success], 19, 19)) := by
  refine ⟨⟨_, rfl, ?_⟩, ⟨_, rfl, ?_⟩⟩
  · decide +kernel
  · decide +kernel

end Fstrm.Props
