import Verif.Lemmas.Net

/-!
# C27: a bidirectional writer and reader connected by pipes do not deadlock

`Spec/Net.lean` says what the two programs are and how the network delivers bytes.
-/

set_option autoImplicit false

namespace Fstrm.Props

open Spec

section
variable {wopt : Option WriterOptions} {ropt : Option ReaderOptions} {batches : List (List Bytes)}

theorem reader_at (h : NetOk wopt ropt batches) (fuel n : Nat)
    (hn : batches.flatten.length < n) {x : Bytes} (hx : x <+: netX wopt batches) :
    (x.length < (CFrame.wire ⟨.ready, optCts wopt⟩).length ∧
      readerSide ropt (fuel+1) n x = .error (.wait [])) ∨
    ((CFrame.wire ⟨.ready, optCts wopt⟩).length ≤ x.length ∧ x ≠ netX wopt batches ∧
      readerSide ropt (fuel+1) n x = .error (.wait (netA wopt ropt))) ∨
    (x = netX wopt batches ∧ ∃ r, readerSide ropt (fuel+1) n x =
      .ok ((batches.flatten.map some, some .stop, .success, r), netY wopt ropt) ∧
      r.start = some ⟨T_START, (optCts wopt).head?.toList⟩ ∧ r.state = .closed) := by
  have hx2 := List.prefix_iff_eq_take.1 hx
  by_cases h1 : x.length < (CFrame.wire ⟨.ready, optCts wopt⟩).length
  · left
    refine ⟨h1, ?_⟩
    rw [List.take_append_of_le_length (by omega)] at hx2
    rw [hx2]
    exact h.reader_wait1 _ _ x.length (by omega) h1
  · right
    by_cases h2 : x = netX wopt batches
    · right
      refine ⟨h2, ?_⟩
      rw [h2]
      exact h.reader_done fuel n hn
    · left
      refine ⟨by omega, h2, ?_⟩
      have hlt : x.length < (netX wopt batches).length := by
        have h3 := hx.length_le
        have h4 : x.length ≠ (netX wopt batches).length := fun h5 => h2 (hx.eq_of_length h5)
        omega
      rw [take_append_ge (by omega)] at hx2
      rw [hx2]
      refine h.reader_wait2 fuel n _ hn ?_
      rw [List.length_append] at hlt
      omega

/-- What holds in every reachable state. -/
structure NetInv (wopt : Option WriterOptions) (ropt : Option ReaderOptions)
    (batches : List (List Bytes)) (fuel n k : Nat) (s : Net) : Prop where
  x : s.toReader <+: sentBy (writerSide wopt batches s.toWriter)
  y : s.toWriter <+: sentBy (readerSide ropt (fuel+1) n s.toReader)
  tx : s.toReader <+: netX wopt batches
  ty : s.toWriter <+: netY wopt ropt
  k : k ≤ s.toReader.length + s.toWriter.length

theorem reader_sent (h : NetOk wopt ropt batches) (fuel n : Nat)
    (hn : batches.flatten.length < n) {x : Bytes} (hx : x <+: netX wopt batches) :
    sentBy (readerSide ropt (fuel+1) n x) =
      if x.length < (CFrame.wire ⟨.ready, optCts wopt⟩).length then []
      else if x.length < (netX wopt batches).length then netA wopt ropt else netY wopt ropt := by
  rcases reader_at h fuel n hn hx with ⟨h1, h2⟩ | ⟨h1, h3, h2⟩ | ⟨h1, w, h2, _⟩
  · rw [h2, if_pos h1]; rfl
  · rw [h2, if_neg (by omega), if_pos]
    · rfl
    · have h3' := hx.length_le
      have h4 : x.length ≠ (netX wopt batches).length := fun h5 => h3 (hx.eq_of_length h5)
      omega
  · rw [h2, if_neg, if_neg]
    · rfl
    · rw [h1]; omega
    · rw [h1, List.length_append]; omega

theorem reader_mono (h : NetOk wopt ropt batches) (fuel n : Nat)
    (hn : batches.flatten.length < n) {x x' : Bytes}
    (hx : x' <+: netX wopt batches) (hxx : x <+: x') :
    sentBy (readerSide ropt (fuel+1) n x) <+: sentBy (readerSide ropt (fuel+1) n x') := by
  rw [reader_sent h fuel n hn hx, reader_sent h fuel n hn (hxx.trans hx)]
  have := hxx.length_le
  by_cases h1 : x.length < (CFrame.wire ⟨.ready, optCts wopt⟩).length
  · rw [if_pos h1]; exact List.nil_prefix
  · rw [if_neg h1, show ¬ x'.length < (CFrame.wire ⟨.ready, optCts wopt⟩).length by omega |> if_neg]
    by_cases h2 : x.length < (netX wopt batches).length
    · rw [if_pos h2]
      split
      · exact List.prefix_refl _
      · exact List.prefix_append _ _
    · rw [if_neg h2, if_neg (by omega)]
      exact List.prefix_refl _

theorem netInv (h : NetOk wopt ropt batches) (fuel n : Nat)
    (hn : batches.flatten.length < n) {k : Nat} {s : Net}
    (hr : NetRun (writerSide wopt batches) (readerSide ropt (fuel+1) n) k s) :
    NetInv wopt ropt batches fuel n k s := by
  have topx : ∀ {y : Bytes}, y <+: netY wopt ropt →
      sentBy (writerSide wopt batches y) <+: netX wopt batches := by
    intro y hy
    rw [writer_sent h hy]
    split
    · exact List.prefix_append _ _
    · exact List.prefix_refl _
  have topy : ∀ {x : Bytes}, x <+: netX wopt batches →
      sentBy (readerSide ropt (fuel+1) n x) <+: netY wopt ropt := by
    intro x hx
    rw [reader_sent h fuel n hn hx]
    split
    · exact List.nil_prefix
    · split
      · exact List.prefix_append _ _
      · exact List.prefix_refl _
  induction hr with
  | start => exact ⟨List.nil_prefix, List.nil_prefix, List.nil_prefix, List.nil_prefix, by simp⟩
  | step _ hd ih =>
    cases hd with
    | toReader x y bs hb hp =>
      have hx' := hp.trans (topx ih.ty)
      refine ⟨hp, ih.y.trans (reader_mono h fuel n hn hx' (List.prefix_append _ _)), hx', ih.ty, ?_⟩
      have := ih.k
      have := List.length_pos_iff.2 hb
      simp only [List.length_append] at *
      omega
    | toWriter x y bs hb hp =>
      have hy' := hp.trans (topy ih.tx)
      refine ⟨ih.x.trans (writer_mono h hy' (List.prefix_append _ _)), hp, ih.tx, hy', ?_⟩
      have := ih.k
      have := List.length_pos_iff.2 hb
      simp only [List.length_append] at *
      omega

end

/-- **C27, no deadlock.** A program that opens a bidirectional writer, submits any batches of
frames and closes it, and a program that reads from a bidirectional reader until told to stop
and closes it, are connected by two pipes. Their control frames fit into the protocol's limits,
the frames suit the reader, and the reader takes the writer's *first* content type (if the
writer has any and the reader is choosy). Then, however the network cuts up and interleaves
the bytes:

* the number of deliveries is bounded, so every execution ends;
* in every reachable state each side is waiting for input or has finished successfully;
* when nothing is left to deliver, all calls of the writer have succeeded, the reader has
  delivered exactly the submitted frames, has been told to stop and has closed successfully,
  and both agree on the content type in START.

Missing for the full property: "compatible" here means that the reader takes the writer's
first content type; see `net_compatible_fails`. -/
theorem net_no_deadlock_partial (wopt : Option WriterOptions) (ropt : Option ReaderOptions)
    (batches : List (List Bytes)) (fuel n : Nat)
    (hwcts : ∀ c ∈ optCts wopt, c.length ≤ 256)
    (hready : (CFrame.wire ⟨.ready, optCts wopt⟩).length ≤ 512)
    (hrcts : ∀ c ∈ (optR ropt).cts, c.length ≤ 256)
    (haccept : (CFrame.wire ⟨.accept, common (optR ropt).cts (optCts wopt)⟩).length ≤ 512)
    (hagree : ∀ c, (optCts wopt).head? = some c → (optR ropt).cts = [] ∨ c ∈ (optR ropt).cts)
    (hcount : ∀ b ∈ batches, b.length ≤ 1073741823)
    (hframes : ∀ b ∈ batches, ∀ d ∈ b, 1 ≤ d.length ∧ d.length ≤ (optR ropt).maxFrameSize ∧
      d.length < 2^32)
    (hfuel : 1 ≤ fuel) (hn : batches.flatten.length < n)
    (k : Nat) (s : Net)
    (hr : NetRun (writerSide wopt batches) (readerSide ropt fuel n) k s) :
    k ≤ (CFrame.wire ⟨.ready, optCts wopt⟩).length +
        (stream (optCts wopt).head? batches.flatten).length +
        (CFrame.wire ⟨.accept, common (optR ropt).cts (optCts wopt)⟩).length +
        (CFrame.wire ⟨.finish, []⟩).length ∧
    ((∃ o, writerSide wopt batches s.toWriter = .error (.wait o)) ∨
      ∃ w o, writerSide wopt batches s.toWriter =
        .ok ((List.replicate (batches.length + 2) .success, w), o)) ∧
    ((∃ o, readerSide ropt fuel n s.toReader = .error (.wait o)) ∨
      ∃ r o, readerSide ropt fuel n s.toReader =
        .ok ((batches.flatten.map some, some .stop, .success, r), o)) ∧
    (Quiescent (writerSide wopt batches) (readerSide ropt fuel n) s →
      ∃ w r o o', writerSide wopt batches s.toWriter =
          .ok ((List.replicate (batches.length + 2) .success, w), o) ∧
        readerSide ropt fuel n s.toReader =
          .ok ((batches.flatten.map some, some .stop, .success, r), o') ∧
        w.state = .closed ∧ r.state = .closed ∧
        w.start = some ⟨T_START, (optCts wopt).head?.toList⟩ ∧ r.start = w.start) := by
  obtain ⟨fuel, rfl⟩ : ∃ m, fuel = m + 1 := ⟨fuel - 1, by omega⟩
  have h : NetOk wopt ropt batches := ⟨hwcts, hready, hrcts, haccept, hagree, hcount, hframes⟩
  have inv := netInv h fuel n hn hr
  refine ⟨?_, ?_, ?_, ?_⟩
  · have h1 := inv.k
    have h2 := inv.tx.length_le
    have h3 := inv.ty.length_le
    simp only [netA, List.length_append] at h2 h3
    omega
  · rcases writer_at h inv.ty with ⟨_, h2⟩ | ⟨_, _, h2⟩ | ⟨_, w, h2, _⟩
    · exact Or.inl ⟨_, h2⟩
    · exact Or.inl ⟨_, h2⟩
    · exact Or.inr ⟨w, _, h2⟩
  · rcases reader_at h fuel n hn inv.tx with ⟨_, h2⟩ | ⟨_, _, h2⟩ | ⟨_, w, h2, _⟩
    · exact Or.inl ⟨_, h2⟩
    · exact Or.inl ⟨_, h2⟩
    · exact Or.inr ⟨w, _, h2⟩
  · intro hq
    obtain ⟨x, y⟩ := s
    have hx : x = sentBy (writerSide wopt batches y) := by
      obtain ⟨bs, hb⟩ := inv.x
      by_cases h0 : bs = []
      · rw [h0, List.append_nil] at hb; exact hb
      · exact absurd (Deliver.toReader x y bs h0 (hb ▸ List.prefix_refl _)) (hq _)
    have hy : y = sentBy (readerSide ropt (fuel+1) n x) := by
      obtain ⟨bs, hb⟩ := inv.y
      by_cases h0 : bs = []
      · rw [h0, List.append_nil] at hb; exact hb
      · exact absurd (Deliver.toWriter x y bs h0 (hb ▸ List.prefix_refl _)) (hq _)
    rcases reader_at h fuel n hn inv.tx with ⟨h1, h2⟩ | ⟨h1, h3, h2⟩ | ⟨h1, r, h2, h4, h5⟩
    · exfalso
      rw [writer_sent h inv.ty] at hx
      simp only at h1
      split at hx
      · rw [hx] at h1; omega
      · rw [hx, List.length_append] at h1; omega
    · exfalso
      simp only at h2 h3
      rw [h2] at hy
      rw [writer_sent h inv.ty, if_neg (by simp only [hy, sentBy]; omega)] at hx
      exact h3 hx
    · simp only at h2
      rw [h2] at hy
      rcases writer_at h inv.ty with ⟨g1, _⟩ | ⟨_, g1, _⟩ | ⟨_, w, g2, g3, g4⟩
      · simp only [hy, sentBy, List.length_append] at g1; omega
      · exact absurd hy g1
      · exact ⟨w, r, _, _, g2, h2, g4, h5, g3, h4.trans g3.symm⟩

/-! ### The hypotheses can be met, and the network really runs -/

private def exW : Option WriterOptions := some ⟨[[1], [2]]⟩
private def exR : Option ReaderOptions := some ⟨[[3], [1]], 1000⟩
private def exB : List (List Bytes) := [[[7], [8, 9]], [], [[10]]]

private def exX : Bytes := CFrame.wire ⟨.ready, [[1], [2]]⟩ ++ stream (some [1]) [[7], [8, 9], [10]]
private def exA : Bytes := CFrame.wire ⟨.accept, [[1]]⟩

theorem quiescent_of {α β : Type} {W : Side α} {R : Side β} {x y : Bytes}
    (h1 : sentBy (W y) = x) (h2 : sentBy (R x) = y) : Quiescent W R ⟨x, y⟩ := by
  intro s' hd
  cases hd with
  | toReader _ _ bs hb hp =>
    rw [h1] at hp
    have := hp.length_le
    have := List.length_pos_iff.2 hb
    simp only [List.length_append] at *
    omega
  | toWriter _ _ bs hb hp =>
    rw [h2] at hp
    have := hp.length_le
    have := List.length_pos_iff.2 hb
    simp only [List.length_append] at *
    omega

/-- READY is delivered in two pieces, then ACCEPT, then the rest of the writer's stream, then
FINISH; nothing is left to deliver afterwards. -/
example : NetRun (writerSide exW exB) (readerSide exR 1 4) 5
      ⟨exX, exA ++ CFrame.wire ⟨.finish, []⟩⟩ ∧
    Quiescent (writerSide exW exB) (readerSide exR 1 4) ⟨exX, exA ++ CFrame.wire ⟨.finish, []⟩⟩ := by
  have e1 : exX.take 5 ++ (exX.drop 5).take 25 = exX.take 30 := by decide +kernel
  refine ⟨?_, quiescent_of (by decide +kernel) (by decide +kernel)⟩
  have r1 := NetRun.step (.start (W := writerSide exW exB) (R := readerSide exR 1 4))
    (.toReader [] [] (exX.take 5) (by decide +kernel) (by decide +kernel))
  have r2 := r1.step (.toReader _ [] ((exX.drop 5).take 25) (by decide +kernel) (by decide +kernel))
  have r3 := r2.step (.toWriter _ [] exA (by decide +kernel) (by decide +kernel))
  rw [List.nil_append, List.nil_append, e1] at r3
  have r4 := r3.step (.toReader _ _ (exX.drop 30) (by decide +kernel) (by decide +kernel))
  rw [List.take_append_drop] at r4
  exact r4.step (.toWriter _ _ (CFrame.wire ⟨.finish, []⟩) (by decide +kernel) (by decide +kernel))

/-- The hypotheses of `net_no_deadlock_partial` hold there. -/
example (k : Nat) (s : Net) (hr : NetRun (writerSide exW exB) (readerSide exR 1 4) k s)
    (hq : Quiescent (writerSide exW exB) (readerSide exR 1 4) s) :
    ∃ r o, readerSide exR 1 4 s.toReader =
      .ok (([some [7], some [8, 9], some [10]], some .stop, .success, r), o) := by
  obtain ⟨_, _, _, h⟩ := net_no_deadlock_partial exW exR exB 1 4 (by decide) (by decide +kernel)
    (by decide) (by decide +kernel) (by decide) (by decide) (by decide) (by decide) (by decide)
    k s hr
  obtain ⟨w, r, o, o', _, h2, _⟩ := h hq
  exact ⟨r, o', h2⟩

/-- **The full property is false.** The writer offers `[1]` and `[2]`, the reader takes `[2]`, so
they have a content type in common; yet `open` fails on the writer. A program that goes on to
submit a frame then makes it send READY again and wait for an answer, which the reader
answers by failing: with nothing left to deliver the writer waits, and no frame was
delivered. -/
theorem net_compatible_fails : ∃ s,
    NetRun (writerSide (some ⟨[[1], [2]]⟩) [[[7]]]) (readerSide (some ⟨[[2]], 1000⟩) 1 4) 3 s ∧
    Quiescent (writerSide (some ⟨[[1], [2]]⟩) [[[7]]]) (readerSide (some ⟨[[2]], 1000⟩) 1 4) s ∧
    (writerSide (some ⟨[[1], [2]]⟩) [[[7]]] s.toWriter).map (fun p => p.1.1) =
      .error (.wait s.toReader) ∧
    (readerSide (some ⟨[[2]], 1000⟩) 1 4 s.toReader).map (fun p => (p.1.1, p.1.2.1)) =
      .ok ([], some .failure) := by
  refine ⟨⟨CFrame.wire ⟨.ready, [[1], [2]]⟩ ++ CFrame.wire ⟨.ready, [[1], [2]]⟩,
      CFrame.wire ⟨.accept, [[2]]⟩⟩, ?_,
    quiescent_of (by decide +kernel) (by decide +kernel), by decide +kernel, by decide +kernel⟩
  have r1 := NetRun.step (.start (W := writerSide (some ⟨[[1], [2]]⟩) [[[7]]])
      (R := readerSide (some ⟨[[2]], 1000⟩) 1 4))
    (.toReader [] [] (CFrame.wire ⟨.ready, [[1], [2]]⟩) (by decide +kernel) (by decide +kernel))
  have r2 := r1.step
    (.toWriter _ [] (CFrame.wire ⟨.accept, [[2]]⟩) (by decide +kernel) (by decide +kernel))
  exact r2.step (.toReader _ _ (CFrame.wire ⟨.ready, [[1], [2]]⟩) (by decide +kernel) (by decide +kernel))

end Fstrm.Props
