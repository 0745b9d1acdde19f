import Verif.Lemmas.IoNet
import Verif.Props.Net

/-!
# C75: a program with an I/O thread and a library reader connected by pipes

`Verif.Spec.IoNet` says what the program is, `Verif.Spec.Net` what the reading program is and how the
network delivers bytes.
-/

set_option autoImplicit false

namespace Fstrm.Props

open Iothr
open Spec (CFrame Side Net NetRun Quiescent Deliver IoClient Finished readerSide writerSide common
  stream sentBy)

/-- From outside the program looks like one that calls the writer itself. -/
theorem net_alike {α β γ : Type} {W : Side α} {W' : Side β} {R : Side γ} {P : Net → Prop}
    (hP : ∀ k s, NetRun W' R k s → P s)
    (ha : ∀ s, P s → sentBy (W s.toWriter) = sentBy (W' s.toWriter)) {k : Nat} {s : Net}
    (h : NetRun W R k s) : NetRun W' R k s := by
  induction h with
  | start => exact .start
  | step h hd ih =>
    have := ha _ (hP _ _ ih)
    cases hd with
    | toReader x y bs hb hp =>
      simp only at this
      rw [this] at hp
      exact .step ih (.toReader x y bs hb hp)
    | toWriter x y bs hb hp => exact .step ih (.toWriter x y bs hb hp)

theorem quiescent_alike {α β γ : Type} {W : Side α} {W' : Side β} {R : Side γ} {s : Net}
    (ha : sentBy (W s.toWriter) = sentBy (W' s.toWriter)) (h : Quiescent W R s) :
    Quiescent W' R s := by
  intro s' hd
  cases hd with
  | toReader x y bs hb hp =>
    simp only at ha
    rw [← ha] at hp
    exact h _ (.toReader x y bs hb hp)
  | toWriter x y bs hb hp => exact h _ (.toWriter x y bs hb hp)

/-- The program compared with one that calls the writer itself. -/
theorem ioCompare (p : IoClient) (ropt : Option ReaderOptions) (n : Nat)
    (hp : p.Whole)
    (hwcts : ∀ c ∈ p.types, c.length ≤ 256)
    (hready : (CFrame.wire ⟨.ready, p.types⟩).length ≤ 512)
    (hrcts : ∀ c ∈ (optR ropt).cts, c.length ≤ 256)
    (haccept : (CFrame.wire ⟨.accept, common (optR ropt).cts p.types⟩).length ≤ 512)
    (hagree : ∀ c, p.types.head? = some c → (optR ropt).cts = [] ∨ c ∈ (optR ropt).cts)
    (hsize : ∀ t q d f, .submit t q (some d) f ∈ p.acts → d.length ≤ (optR ropt).maxFrameSize)
    (hn : p.acts.length < n) :
    ∃ (bs : List (List Bytes)) (es : List Entry) (log : List IoEv),
      NetOk p.wopt ropt bs ∧ bs.flatten = es.map Entry.data ∧ bs.flatten.length < n ∧
      (∀ q, onQueue q (submits (beforeShutdown log)) <+: onQueue q es) ∧
      (∀ q, (onQueue q es).Sublist (onQueue q (submits log))) ∧ es.Nodup ∧
      ∀ y, y <+: netY p.wopt ropt →
        (∃ o, p.side y = .error (.wait o) ∧ writerSide p.wopt bs y = .error (.wait o)) ∨
        ∃ st o r, p.side y = .ok (st, o) ∧ Finished st ∧ st.log = log ∧
          writerSide p.wopt bs y = .ok (r, o) := by
  have ht : p.types = optCts p.wopt := by unfold IoClient.types optCts; cases p.wopt <;> rfl
  rw [ht] at hwcts hready haccept hagree
  obtain ⟨y0, s0, o0, h0, hf⟩ := hp.ends
  obtain ⟨bs, h1, h2, h3, h4, hlen, h5, h6, h7⟩ := IoClient.like hp h0 hf
  have hfr : (bs.map (·.map Entry.data)).flatten = (handed s0.log).map Entry.data := by
    rw [← h1, List.map_flatten]
  have hcount : ∀ b ∈ bs.map (·.map Entry.data), b.length ≤ 1073741823 := by
    intro b hb
    obtain ⟨b', hb', rfl⟩ := List.mem_map.1 hb
    simpa using h5 b' hb'
  have hframes : ∀ b ∈ bs.map (·.map Entry.data), ∀ d ∈ b,
      1 ≤ d.length ∧ d.length ≤ (optR ropt).maxFrameSize ∧ d.length < 2^32 := by
    intro b hb d hd
    have : d ∈ (handed s0.log).map Entry.data := hfr ▸ List.mem_flatten.2 ⟨b, hb, hd⟩
    obtain ⟨e, he, rfl⟩ := List.mem_map.1 this
    obtain ⟨g1, g2, t, q, f, g3⟩ := h6 e he
    exact ⟨g1, hsize t q _ f g3, by omega⟩
  have hn' : (bs.map (·.map Entry.data)).flatten.length < n := by
    rw [hfr, List.length_map]; omega
  have hok : NetOk p.wopt ropt (bs.map (·.map Entry.data)) :=
    ⟨hwcts, hready, hrcts, haccept, hagree, hcount, hframes⟩
  refine ⟨bs.map (·.map Entry.data), handed s0.log, s0.log, hok, hfr, hn', h2, h3, h4, ?_⟩
  · intro y hy
    rcases h7 _ hok y hy with ⟨a1, a2⟩ | ⟨a1, a3, a2⟩ | ⟨a1, s2, a2, a3, a4⟩ <;>
      rcases writer_at hok hy with ⟨b1, b2⟩ | ⟨b1, b3, b2⟩ | ⟨b1, w, b2, _⟩
    · exact Or.inl ⟨_, a2, b2⟩
    · exfalso; omega
    · exfalso; rw [b1] at a1; simp only [List.length_append] at a1; omega
    · exfalso; omega
    · exact Or.inl ⟨_, a2, b2⟩
    · exact absurd b1 a3
    · exfalso; rw [a1] at b1; simp only [List.length_append] at b1; omega
    · exact absurd a1 b3
    · exact Or.inr ⟨s2, _, _, a2, a3, a4, b2⟩

/-- **C75.** A program whose producers submit payloads to an I/O thread with a bidirectional writer,
and a program that reads from a bidirectional reader until told to stop and closes it, are connected
by two pipes. Their control frames fit into the protocol's limits, the payloads suit the reader
(it goes on reading long enough: `n` is more than the number of steps of the first program), and the reader takes the writer's *first* content type
(if the writer has any and the reader is choosy). Then, however the network cuts up and interleaves
the bytes:

* in every reachable state each side is waiting for input or has finished successfully;
* when nothing is left to deliver, the I/O thread has been destroyed without a failing call, and the
  reader has delivered, without gaps, exactly what the I/O thread handed over, has been told to stop
  and has closed successfully; among the payloads are all those submitted before destroy was called;
  those of one input queue are in the order of submission; none is delivered twice;
* the number of deliveries is bounded, so every execution ends.

Missing for the full property: "compatible" here means that the reader takes the writer's
first content type; see `net_compatible_fails`. -/
theorem iothr_net_partial (p : IoClient) (ropt : Option ReaderOptions) (fuel n : Nat)
    (hp : p.Whole)
    (hwcts : ∀ c ∈ p.types, c.length ≤ 256)
    (hready : (CFrame.wire ⟨.ready, p.types⟩).length ≤ 512)
    (hrcts : ∀ c ∈ (optR ropt).cts, c.length ≤ 256)
    (haccept : (CFrame.wire ⟨.accept, common (optR ropt).cts p.types⟩).length ≤ 512)
    (hagree : ∀ c, p.types.head? = some c → (optR ropt).cts = [] ∨ c ∈ (optR ropt).cts)
    (hsize : ∀ t q d f, .submit t q (some d) f ∈ p.acts → d.length ≤ (optR ropt).maxFrameSize)
    (hfuel : 1 ≤ fuel)
    (hn : p.acts.length < n)
    (k : Nat) (s : Net) (hr : NetRun p.side (readerSide ropt fuel n) k s) :
    ((∃ o, p.side s.toWriter = .error (.wait o)) ∨
      ∃ st o, p.side s.toWriter = .ok (st, o) ∧ Finished st) ∧
    ((∃ o, readerSide ropt fuel n s.toReader = .error (.wait o)) ∨
      ∃ ds r o, readerSide ropt fuel n s.toReader = .ok ((ds, some .stop, .success, r), o)) ∧
    (Quiescent p.side (readerSide ropt fuel n) s →
      ∃ (st : Iothr Chan) (o : Bytes) (es : List Entry) (r : Reader Chan) (o' : Bytes),
        p.side s.toWriter = .ok (st, o) ∧ Finished st ∧
        readerSide ropt fuel n s.toReader =
          .ok ((es.map fun e => some e.data, some .stop, .success, r), o') ∧
        (∀ q, onQueue q (submits (beforeShutdown st.log)) <+: onQueue q es) ∧
        (∀ q, (onQueue q es).Sublist (onQueue q (submits st.log))) ∧ es.Nodup) ∧
    ∃ bound, ∀ k' s', NetRun p.side (readerSide ropt fuel n) k' s' → k' ≤ bound := by
  obtain ⟨fuel, rfl⟩ : ∃ m, fuel = m + 1 := ⟨fuel - 1, by omega⟩
  obtain ⟨bs, es, log, hok, hfr, hn', h2, h3, h4, hcmp⟩ :=
    ioCompare p ropt n hp hwcts hready hrcts haccept hagree hsize hn
  have hsent : ∀ s : Net, s.toWriter <+: netY p.wopt ropt → sentBy (p.side s.toWriter) =
      sentBy (writerSide p.wopt bs s.toWriter) := by
    intro s hs
    rcases hcmp _ hs with ⟨o, g1, g2⟩ | ⟨st, o, r, g1, _, _, g2⟩ <;> rw [g1, g2] <;> rfl
  have hrun : ∀ {k s}, NetRun p.side (readerSide ropt (fuel+1) n) k s →
      NetRun (writerSide p.wopt bs) (readerSide ropt (fuel+1) n) k s :=
    fun h => net_alike (P := fun s => s.toWriter <+: netY p.wopt ropt)
      (fun k s h => (netInv hok fuel n hn' h).ty) hsent h
  have hty := (netInv hok fuel n hn' (hrun hr)).ty
  obtain ⟨_, _, m3, m4⟩ := net_no_deadlock_partial p.wopt ropt _ (fuel+1) n hok.wcts hok.ready hok.rcts
    hok.acc hok.agree hok.count hok.frames hfuel hn' k s (hrun hr)
  refine ⟨?_, ?_, ?_, _, fun k' s' h' => (net_no_deadlock_partial p.wopt ropt _ (fuel+1) n
    hok.wcts hok.ready hok.rcts hok.acc hok.agree hok.count hok.frames hfuel hn' k' s' (hrun h')).1⟩
  · rcases hcmp _ hty with ⟨o, g1, _⟩ | ⟨st, o, r, g1, g2, _⟩
    · exact Or.inl ⟨o, g1⟩
    · exact Or.inr ⟨st, o, g1, g2⟩
  · rcases m3 with ⟨o, g⟩ | ⟨r, o, g⟩
    · exact Or.inl ⟨o, g⟩
    · exact Or.inr ⟨_, r, o, g⟩
  · intro hq
    obtain ⟨w, r, o, o', g1, g2, _⟩ := m4 (quiescent_alike (hsent s hty) hq)
    rcases hcmp _ hty with ⟨o2, _, g3⟩ | ⟨st, o2, r2, g3, g4, g5, _⟩
    · rw [g3] at g1; cases g1
    · refine ⟨st, o2, es, r, o', g3, g4, ?_, by rw [g5]; exact h2, by rw [g5]; exact h3, h4⟩
      rw [g2, hfr, List.map_map]
      rfl

/-! ### The hypotheses can be met, and the network really runs -/

def ioNetEx : IoClient := ⟨some ⟨[[1], [2]]⟩, twoQueues, demoPre ++ .io 9 .timeout :: demoPost⟩
def ioNetR : Option ReaderOptions := some ⟨[[3], [1]], 1000⟩
def ioNetX : Bytes :=
  CFrame.wire ⟨.ready, [[1], [2]]⟩ ++ stream (some [1]) [[1], [2, 2], [3], [5], [4]]
def ioNetA : Bytes := CFrame.wire ⟨.accept, [[1]]⟩

/-- READY is delivered in two pieces, then ACCEPT, then the rest of the writer's stream, then
FINISH; nothing is left to deliver afterwards. -/
example : NetRun ioNetEx.side (readerSide ioNetR 1 100) 5 ⟨ioNetX, ioNetA ++ CFrame.wire ⟨.finish, []⟩⟩ ∧
    Quiescent ioNetEx.side (readerSide ioNetR 1 100) ⟨ioNetX, ioNetA ++ CFrame.wire ⟨.finish, []⟩⟩ := by
  have e1 : ioNetX.take 5 ++ (ioNetX.drop 5).take 25 = ioNetX.take 30 := by decide +kernel
  refine ⟨?_, quiescent_of (by decide +kernel) (by decide +kernel)⟩
  have r1 := NetRun.step (.start (W := ioNetEx.side) (R := readerSide ioNetR 1 100))
    (.toReader [] [] (ioNetX.take 5) (by decide +kernel) (by decide +kernel))
  have r2 := r1.step (.toReader _ [] ((ioNetX.drop 5).take 25) (by decide +kernel) (by decide +kernel))
  have r3 := r2.step (.toWriter _ [] ioNetA (by decide +kernel) (by decide +kernel))
  rw [List.nil_append, List.nil_append, e1] at r3
  have r4 := r3.step (.toReader _ _ (ioNetX.drop 30) (by decide +kernel) (by decide +kernel))
  rw [List.take_append_drop] at r4
  exact r4.step (.toWriter _ _ (CFrame.wire ⟨.finish, []⟩) (by decide +kernel) (by decide +kernel))

theorem ioNet_whole : ioNetEx.Whole := by
  refine ⟨⟨demoPre, 9, .timeout, demoPost, rfl, by decide +kernel, by decide +kernel⟩,
      ⟨(demoPre ++ .io 9 .timeout :: demoPost).dropLast, by decide +kernel, by decide +kernel⟩, ?_⟩
  have h : (ioNetEx.side (ioNetA ++ CFrame.wire ⟨.finish, []⟩)).map (fun p =>
      (p.1.destroyed, (calls p.1.log).all (·.2 = .success))) = .ok (true, true) := by decide +kernel
  cases e : ioNetEx.side (ioNetA ++ CFrame.wire ⟨.finish, []⟩) with
  | error x => rw [e] at h; cases h
  | ok p =>
    obtain ⟨st, sent⟩ := p
    rw [e] at h
    simp only [Except.map, Except.ok.injEq, Prod.mk.injEq, List.all_eq_true, decide_eq_true_eq] at h
    exact ⟨_, st, sent, e, h⟩

/-- The hypotheses of `iothr_net_partial` hold there. -/
theorem ioNet_hyps : ioNetEx.Whole ∧ (∀ c ∈ ioNetEx.types, c.length ≤ 256) ∧
    (CFrame.wire ⟨.ready, ioNetEx.types⟩).length ≤ 512 ∧ (∀ c ∈ (optR ioNetR).cts, c.length ≤ 256) ∧
    (CFrame.wire ⟨.accept, common (optR ioNetR).cts ioNetEx.types⟩).length ≤ 512 ∧
    (∀ c, ioNetEx.types.head? = some c → (optR ioNetR).cts = [] ∨ c ∈ (optR ioNetR).cts) ∧
    (∀ t q d f, .submit t q (some d) f ∈ ioNetEx.acts → d.length ≤ (optR ioNetR).maxFrameSize) ∧
    ioNetEx.acts.length < 100 := by
  refine ⟨ioNet_whole, by decide +kernel, by decide +kernel, by decide +kernel, by decide +kernel,
    by intro c hc; cases hc; decide +kernel, ?_, by decide +kernel⟩
  intro t q d f hm
  show d.length ≤ 1000
  have : ∀ a ∈ ioNetEx.acts, (match a with
    | .submit _ _ (some d) _ => decide (d.length ≤ 1000)
    | _ => true) = true := by decide +kernel
  simpa using this _ hm

end Fstrm.Props
