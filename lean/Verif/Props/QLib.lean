import Verif.Lemmas.QPipe
import Verif.Spec.QLib
import Verif.Props.IoPipe
import Verif.Props.QFleet

/-!
# C123: threads that submit to an I/O thread, down to their memory accesses, and a library reader

`Spec/QNet.lean` and `Spec/QPipe.lean` say what the program is, `Spec/Net.lean` and `Spec/Pipe.lean`
what the reading program is and how bytes get from one to the other.
-/

set_option autoImplicit false

namespace Fstrm.Props

open Iothr
open Spec

theorem _root_.Fstrm.QPassed.delivered {e : QEnd} {fs : List Bytes} (h : QPassed e fs) (hc : e.Clean) :
    QDelivered e (handed e.io.log) := by
  obtain ⟨h1, h2⟩ := h.done hc.settled
  refine ⟨h.nodup, h1, h2, fun q t => ?_⟩
  have := h.sub q t
  rw [hc.idle] at this
  simpa using this

/-- The program compared with one that calls the writer itself. -/
theorem qCompare (p : QClient) (ropt : Option ReaderOptions) (n : Nat)
    (hp : p.Whole)
    (hwcts : ∀ c ∈ p.types, c.length ≤ 256)
    (hready : (CFrame.wire ⟨.ready, p.types⟩).length ≤ 512)
    (hrcts : ∀ c ∈ (optR ropt).cts, c.length ≤ 256)
    (haccept : (CFrame.wire ⟨.accept, common (optR ropt).cts p.types⟩).length ≤ 512)
    (hagree : ∀ c, p.types.head? = some c → (optR ropt).cts = [] ∨ c ∈ (optR ropt).cts)
    (hsize : ∀ q t raw d f, .submit q t raw (some d) f ∈ p.before ++ p.after →
      d.length ≤ (optR ropt).maxFrameSize)
    (hn : p.before.length + p.after.length < n) :
    ∃ (bs : List (List Bytes)) (es : List Entry),
      NetOk p.wopt ropt bs ∧ bs.flatten = es.map Entry.data ∧ bs.flatten.length < n ∧
      ∀ y, y <+: netY p.wopt ropt →
        (∃ o, p.side y = .error (.wait o) ∧ writerSide p.wopt bs y = .error (.wait o)) ∨
        ∃ e o r, p.side y = .ok (e, o) ∧ e.Clean ∧ QDelivered e es ∧
          writerSide p.wopt bs y = .ok (r, o) := by
  have ht : p.types = optCts p.wopt := by unfold QClient.types optCts; cases p.wopt <;> rfl
  rw [ht] at hwcts hready haccept hagree
  obtain ⟨y0, e0, o0, h0, hc⟩ := hp.ends
  obtain ⟨bs, h1, h2, h5, h6, hlen, h7⟩ := QClient.like hp h0 hc.finished
  have hfr : (bs.map (·.map Entry.data)).flatten = (handed e0.io.log).map Entry.data := by
    rw [← h1, List.map_flatten]
  have hcount : ∀ b ∈ bs.map (·.map Entry.data), b.length ≤ 1073741823 := by
    intro b hb
    obtain ⟨b', hb', rfl⟩ := List.mem_map.1 hb
    simpa using h5 b' hb'
  have hframes : ∀ b ∈ bs.map (·.map Entry.data), ∀ d ∈ b,
      1 ≤ d.length ∧ d.length ≤ (optR ropt).maxFrameSize ∧ d.length < 2^32 := by
    intro b hb d hd
    have : d ∈ (handed e0.io.log).map Entry.data := hfr ▸ List.mem_flatten.2 ⟨b, hb, hd⟩
    obtain ⟨e, he, rfl⟩ := List.mem_map.1 this
    obtain ⟨g1, g2, q, t, raw, f, g3⟩ := h6 e he
    exact ⟨g1, hsize q t raw _ f g3, by omega⟩
  have hn' : (bs.map (·.map Entry.data)).flatten.length < n := by
    rw [hfr, List.length_map]; omega
  have hok : NetOk p.wopt ropt (bs.map (·.map Entry.data)) :=
    ⟨hwcts, hready, hrcts, haccept, hagree, hcount, hframes⟩
  refine ⟨bs.map (·.map Entry.data), handed e0.io.log, hok, hfr, hn', ?_⟩
  intro y hy
  rcases h7 _ hok y hy with ⟨a1, a2⟩ | ⟨a1, a3, a2⟩ | ⟨a1, e2, a2, a3⟩ <;>
    rcases writer_at hok hy with ⟨b1, b2⟩ | ⟨b1, b3, b2⟩ | ⟨b1, w, b2, _⟩
  · exact Or.inl ⟨_, a2, b2⟩
  · exfalso; omega
  · exfalso; rw [b1] at a1; simp only [List.length_append] at a1; omega
  · exfalso; omega
  · exact Or.inl ⟨_, a2, b2⟩
  · exact absurd b1 a3
  · exfalso; rw [a1] at b1; simp only [List.length_append] at b1; omega
  · exact absurd a1 b3
  · have hc2 := a3.clean hc
    have := (h2.same a3.symm).delivered hc2
    rw [a3.log] at this
    exact Or.inr ⟨e2, _, _, a2, hc2, this, b2⟩

/-- **C123.** A program whose threads submit payloads to an I/O thread with a bidirectional writer, and a
program that reads from a bidirectional reader until told to stop and closes it, are connected by two
pipes. The threads' and the I/O thread's accesses to the input queues are interleaved arbitrarily, with
stores delayed as the machine allows. Control frames fit into the protocol's limits, the
payloads suit the reader (it goes on reading long enough: `n` is more than the number of steps of the first
program), and the reader takes the writer's *first* content type (if the writer has any and the reader is
choosy). Then, however the network cuts up and interleaves the bytes:

* in every reachable state each side is waiting for input or has finished successfully;
* when nothing is left to deliver, the I/O thread has been destroyed without a failing call, and the
  reader has delivered payloads as in `QDelivered`, has been told to stop and has closed successfully;
* the number of deliveries is bounded, so every execution ends.

Missing for the full property: "compatible" here means that the reader takes the writer's
first content type; see `queues_compatible_fails`. -/
theorem queues_net_partial (p : QClient) (ropt : Option ReaderOptions) (fuel n : Nat)
    (hp : p.Whole)
    (hwcts : ∀ c ∈ p.types, c.length ≤ 256)
    (hready : (CFrame.wire ⟨.ready, p.types⟩).length ≤ 512)
    (hrcts : ∀ c ∈ (optR ropt).cts, c.length ≤ 256)
    (haccept : (CFrame.wire ⟨.accept, common (optR ropt).cts p.types⟩).length ≤ 512)
    (hagree : ∀ c, p.types.head? = some c → (optR ropt).cts = [] ∨ c ∈ (optR ropt).cts)
    (hsize : ∀ q t raw d f, .submit q t raw (some d) f ∈ p.before ++ p.after →
      d.length ≤ (optR ropt).maxFrameSize)
    (hfuel : 1 ≤ fuel)
    (hn : p.before.length + p.after.length < n)
    (k : Nat) (s : Net) (hr : NetRun p.side (readerSide ropt fuel n) k s) :
    ((∃ o, p.side s.toWriter = .error (.wait o)) ∨
      ∃ e o, p.side s.toWriter = .ok (e, o) ∧ e.Clean) ∧
    ((∃ o, readerSide ropt fuel n s.toReader = .error (.wait o)) ∨
      ∃ ds r o, readerSide ropt fuel n s.toReader = .ok ((ds, some .stop, .success, r), o)) ∧
    (Quiescent p.side (readerSide ropt fuel n) s →
      ∃ (e : QEnd) (o : Bytes) (es : List Entry) (r : Reader Chan) (o' : Bytes),
        p.side s.toWriter = .ok (e, o) ∧ e.Clean ∧
        readerSide ropt fuel n s.toReader =
          .ok ((es.map fun x => some x.data, some .stop, .success, r), o') ∧
        QDelivered e es) ∧
    ∃ bound, ∀ k' s', NetRun p.side (readerSide ropt fuel n) k' s' → k' ≤ bound := by
  obtain ⟨fuel, rfl⟩ : ∃ m, fuel = m + 1 := ⟨fuel - 1, by omega⟩
  obtain ⟨bs, es, hok, hfr, hn', hcmp⟩ :=
    qCompare p ropt n hp hwcts hready hrcts haccept hagree hsize hn
  have hsent : ∀ s : Net, s.toWriter <+: netY p.wopt ropt → sentBy (p.side s.toWriter) =
      sentBy (writerSide p.wopt bs s.toWriter) := by
    intro s hs
    rcases hcmp _ hs with ⟨o, g1, g2⟩ | ⟨st, o, r, g1, _, _, g2⟩ <;> rw [g1, g2] <;> rfl
  have hrun : ∀ {k s}, NetRun p.side (readerSide ropt (fuel+1) n) k s →
      NetRun (writerSide p.wopt bs) (readerSide ropt (fuel+1) n) k s :=
    fun h => net_alike (P := fun s => s.toWriter <+: netY p.wopt ropt)
      (fun k s h => (netInv hok fuel n hn' h).ty) hsent h
  have hty := (netInv hok fuel n hn' (hrun hr)).ty
  obtain ⟨_, _, m3, m4⟩ := net_no_deadlock_partial p.wopt ropt _ (fuel+1) n hok.wcts hok.ready hok.rcts
    hok.acc hok.agree hok.count hok.frames hfuel hn' k s (hrun hr)
  refine ⟨?_, ?_, ?_, _, fun k' s' h' => (net_no_deadlock_partial p.wopt ropt _ (fuel+1) n
    hok.wcts hok.ready hok.rcts hok.acc hok.agree hok.count hok.frames hfuel hn' k' s' (hrun h')).1⟩
  · rcases hcmp _ hty with ⟨o, g1, _⟩ | ⟨e, o, r, g1, g2, _⟩
    · exact Or.inl ⟨o, g1⟩
    · exact Or.inr ⟨e, o, g1, g2⟩
  · rcases m3 with ⟨o, g⟩ | ⟨r, o, g⟩
    · exact Or.inl ⟨o, g⟩
    · exact Or.inr ⟨_, r, o, g⟩
  · intro hq
    obtain ⟨w, r, o, o', g1, g2, _⟩ := m4 (quiescent_alike (hsent s hty) hq)
    rcases hcmp _ hty with ⟨o2, _, g3⟩ | ⟨e, o2, r2, g3, g4, g5, _⟩
    · rw [g3] at g1; cases g1
    · refine ⟨e, o2, es, r, o', g3, g4, ?_, g5⟩
      rw [g2, hfr, List.map_map]
      rfl

/-- **C123 with pipes of any capacity.** The same over pipes that hold at most `cw` bytes (from the writer
to the reader) and `cr` bytes (the other way) that were sent and not read yet; each capacity is at least one
byte. An I/O thread whose pipe is full blocks in its write call. One byte is moved in every step.

Missing for the full property: as in `queues_net_partial`. -/
theorem queues_net_capacity_partial (p : QClient) (ropt : Option ReaderOptions) (fuel n cw cr : Nat)
    (hp : p.Whole)
    (hwcts : ∀ c ∈ p.types, c.length ≤ 256)
    (hready : (CFrame.wire ⟨.ready, p.types⟩).length ≤ 512)
    (hrcts : ∀ c ∈ (optR ropt).cts, c.length ≤ 256)
    (haccept : (CFrame.wire ⟨.accept, common (optR ropt).cts p.types⟩).length ≤ 512)
    (hagree : ∀ c, p.types.head? = some c → (optR ropt).cts = [] ∨ c ∈ (optR ropt).cts)
    (hsize : ∀ q t raw d f, .submit q t raw (some d) f ∈ p.before ++ p.after →
      d.length ≤ (optR ropt).maxFrameSize)
    (hfuel : 1 ≤ fuel) (hn : p.before.length + p.after.length < n) (hcw : 1 ≤ cw) (hcr : 1 ≤ cr)
    (k : Nat) (s : Net) (hr : PipeRun cw cr p.pipe (readerPipe ropt fuel n) k s) :
    ((∃ o, p.pipe (s.toReader.length + cw) s.toWriter = .error (.wait o)) ∨
      (∃ o, p.pipe (s.toReader.length + cw) s.toWriter = .error (.full o) ∧
        o.length = s.toReader.length + cw) ∨
      ∃ e o, p.pipe (s.toReader.length + cw) s.toWriter = .ok (e, o) ∧ e.Clean) ∧
    ((∃ o, readerPipe ropt fuel n (s.toWriter.length + cr) s.toReader = .error (.wait o)) ∨
      (∃ o, readerPipe ropt fuel n (s.toWriter.length + cr) s.toReader = .error (.full o) ∧
        o.length = s.toWriter.length + cr) ∨
      ∃ ds r o, readerPipe ropt fuel n (s.toWriter.length + cr) s.toReader =
        .ok ((ds, some .stop, .success, r), o)) ∧
    (PipeStuck cw cr p.pipe (readerPipe ropt fuel n) s →
      ∃ (e : QEnd) (o : Bytes) (es : List Entry) (r : Reader Chan) (o' : Bytes),
        p.pipe (s.toReader.length + cw) s.toWriter = .ok (e, o) ∧ e.Clean ∧
        readerPipe ropt fuel n (s.toWriter.length + cr) s.toReader =
          .ok ((es.map fun x => some x.data, some .stop, .success, r), o') ∧
        QDelivered e es) ∧
    ∃ bound, ∀ k' s', PipeRun cw cr p.pipe (readerPipe ropt fuel n) k' s' → k' ≤ bound := by
  obtain ⟨fuel, rfl⟩ : ∃ m, fuel = m + 1 := ⟨fuel - 1, by omega⟩
  obtain ⟨bs, es, hok, hfr, hn', hcmp⟩ :=
    qCompare p ropt n hp hwcts hready hrcts haccept hagree hsize hn
  have hpipe : ∀ c y, y <+: netY p.wopt ropt →
      (∃ o, p.pipe c y = .error (.wait o) ∧ writerPipe p.wopt bs c y = .error (.wait o)) ∨
      (∃ o, p.pipe c y = .error (.full o) ∧ o.length = c ∧
        writerPipe p.wopt bs c y = .error (.full o)) ∨
      ∃ e o r, p.pipe c y = .ok (e, o) ∧ e.Clean ∧ QDelivered e es ∧
        writerPipe p.wopt bs c y = .ok (r, o) := by
    intro c y hy
    obtain ⟨a1, a2⟩ := qPipe_cut p c y
    obtain ⟨b1, b2⟩ := writerPipe_cut p.wopt bs c y
    rcases hcmp y hy with ⟨o, e1, e2⟩ | ⟨st, o, r, e1, e3, e4, e2⟩
    · have f1 := a2 o e1
      have f2 := b2 o e2
      by_cases hle : o.length ≤ c
      · rw [if_pos hle] at f1 f2
        exact Or.inl ⟨o, f1, f2⟩
      · rw [if_neg hle] at f1 f2
        exact Or.inr (Or.inl ⟨_, f1, by rw [List.length_take]; omega, f2⟩)
    · have f1 := a1 _ _ e1
      have f2 := b1 _ _ _ e2
      by_cases hle : o.length ≤ c
      · rw [if_pos hle] at f1 f2
        exact Or.inr (Or.inr ⟨_, _, _, f1, ⟨e3.1, e3.2, e3.3⟩, ⟨e4.1, e4.2, e4.3, e4.4⟩, f2⟩)
      · rw [if_neg hle] at f1 f2
        exact Or.inr (Or.inl ⟨_, f1, by rw [List.length_take]; omega, f2⟩)
  have hsame : ∀ c y, y <+: netY p.wopt ropt → SameEnd (p.pipe c y) (writerPipe p.wopt bs c y) := by
    intro c y hy
    rcases hpipe c y hy with ⟨o, e1, e2⟩ | ⟨o, e1, _, e2⟩ | ⟨st, o, r, e1, _, _, e2⟩ <;>
      rw [e1, e2] <;> refine ⟨rfl, fun o' => ?_⟩
    · simp
    · simp
    · simp
  have hrun : ∀ {k s}, PipeRun cw cr p.pipe (readerPipe ropt (fuel+1) n) k s →
      PipeRun cw cr (writerPipe p.wopt bs) (readerPipe ropt (fuel+1) n) k s :=
    fun h => pipe_alike (P := fun s => s.toWriter <+: netY p.wopt ropt)
      (fun k s h => (netInv hok fuel n hn' (pipe_net hok fuel n cw cr hn' h).1).ty)
      (fun s c hs => hsame c _ hs) h
  have hty := (netInv hok fuel n hn' (pipe_net hok fuel n cw cr hn' (hrun hr)).1).ty
  obtain ⟨_, _, m3, m4⟩ := net_no_deadlock_capacity_partial p.wopt ropt bs (fuel+1) n cw cr hok.wcts
    hok.ready hok.rcts hok.acc hok.agree hok.count hok.frames hfuel hn' hcw hcr k s (hrun hr)
  refine ⟨?_, ?_, ?_, _, fun k' s' h' => (net_no_deadlock_capacity_partial p.wopt ropt bs (fuel+1) n cw
    cr hok.wcts hok.ready hok.rcts hok.acc hok.agree hok.count hok.frames hfuel hn' hcw hcr k' s'
    (hrun h')).1⟩
  · rcases hpipe _ _ hty with ⟨o, e1, _⟩ | ⟨o, e1, e2, _⟩ | ⟨st, o, r, e1, e2, _⟩
    · exact Or.inl ⟨o, e1⟩
    · exact Or.inr (Or.inl ⟨o, e1, e2⟩)
    · exact Or.inr (Or.inr ⟨st, o, e1, e2⟩)
  · rcases m3 with ⟨o, g⟩ | ⟨o, g⟩ | ⟨r, o, g⟩
    · exact Or.inl ⟨o, g⟩
    · exact Or.inr (Or.inl ⟨o, g⟩)
    · exact Or.inr (Or.inr ⟨_, r, o, g⟩)
  · intro hq
    obtain ⟨w, r, o, o', g1, g2, _⟩ := m4 (pipeStuck_alike (fun c => hsame c _ hty) hq)
    rcases hpipe _ _ hty with ⟨o2, _, g3⟩ | ⟨o2, _, _, g3⟩ | ⟨e, o2, r2, g3, g4, g5, _⟩
    · rw [g3] at g1; cases g1
    · rw [g3] at g1; cases g1
    · refine ⟨e, o2, es, r, o', g3, g4, ?_, g5⟩
      rw [g2, hfr, List.map_map]
      rfl

/-! ### The hypotheses can be met, and the network really runs -/

/-- On ia64: the first payload has been written while the second was being copied. -/
def slowSample : QClient :=
  ⟨some ⟨[[97]]⟩, twoQueues, .ia64,
    (slowSubmit 0 1 [1] true ++ aSubmit 1 0 2 [2, 2] false) ++ .io 9 .timeout 0 :: (qTimes 90 9 ++
      [.flush 1 true 7, .flush 1 true 0] ++ (List.replicate 30 (.flush 1 true 0)) ++
      [.prod 1 0 0, .flush 1 true 0, .prod 1 0 0]),
    slowSubmit 0 3 [3] true ++ qTimes 260 20⟩

theorem slowSample_whole : slowSample.Whole := by
  have hr : Reached twoQueues := .set .numInputQueues _ 2 (.set .inputQueueSize _ 4 .init)
  refine ⟨hr, ⟨2, rfl⟩, ⟨slowSubmit 0 1 [1] true ++ aSubmit 1 0 2 [2, 2] false, 9, .timeout, 0, _,
    rfl, by decide +kernel, by decide⟩,
    by decide +kernel, ?_⟩
  obtain ⟨e, sent, h1, h2⟩ := qCheck_clean (p := slowSample) (y := qInput) hr ⟨2, rfl⟩ (by decide +kernel)
  exact ⟨_, e, sent, h1, h2⟩

/-- Three programs: lock-free queues on two machines, and queues with a mutex. -/
def libProg : Fin 3 → QClient
  | 0 => qSample twoQueues 0
  | 1 => qSample twoShared 7
  | 2 => slowSample

def libR : Option ReaderOptions := some ⟨[[3], [97]], 1000⟩

theorem libProg_hyps (i : Fin 3) : (libProg i).Whole ∧ (∀ c ∈ (libProg i).types, c.length ≤ 256) ∧
    (CFrame.wire ⟨.ready, (libProg i).types⟩).length ≤ 512 ∧ (∀ c ∈ (optR libR).cts, c.length ≤ 256) ∧
    (CFrame.wire ⟨.accept, common (optR libR).cts (libProg i).types⟩).length ≤ 512 ∧
    (∀ c, (libProg i).types.head? = some c → (optR libR).cts = [] ∨ c ∈ (optR libR).cts) ∧
    (∀ q t raw d f, .submit q t raw (some d) f ∈ (libProg i).before ++ (libProg i).after →
      d.length ≤ (optR libR).maxFrameSize) ∧
    (libProg i).before.length + (libProg i).after.length < 2000 := by
  have ht : (libProg i).types = [[97]] := by
    match i with
    | 0 => rfl
    | 1 => rfl
    | 2 => rfl
  rw [ht]
  have hx : ∀ j : Fin 3, (∀ a ∈ (libProg j).before ++ (libProg j).after, (match a with
      | .submit _ _ _ (some d) _ => decide (d.length ≤ 1000)
      | _ => true) = true) ∧ (libProg j).before.length + (libProg j).after.length < 2000 := by decide +kernel
  refine ⟨?_, by decide +kernel, by decide +kernel, by decide +kernel, by decide +kernel,
    by intro c hc; cases hc; decide +kernel, ?_, (hx i).2⟩
  · match i with
    | 0 => exact (qSample_suits twoQueues 0 (Or.inl ⟨rfl, rfl⟩)).whole
    | 1 => exact (qSample_suits twoShared 7 (Or.inr ⟨rfl, rfl⟩)).whole
    | 2 => exact slowSample_whole
  · intro q t raw d f hm
    show d.length ≤ 1000
    simpa using (hx i).1 _ hm

def libX : Bytes := CFrame.wire ⟨.ready, [[97]]⟩ ++ stream (some [97]) [[1], [2, 2]]
def libA : Bytes := CFrame.wire ⟨.accept, [[97]]⟩

/-- READY is delivered in two pieces, then ACCEPT, then the rest of the writer's stream, then
FINISH; nothing is left to deliver afterwards. -/
example : NetRun slowSample.side (readerSide libR 1 2000) 5 ⟨libX, libA ++ CFrame.wire ⟨.finish, []⟩⟩ ∧
    Quiescent slowSample.side (readerSide libR 1 2000) ⟨libX, libA ++ CFrame.wire ⟨.finish, []⟩⟩ := by
  have e1 : libX.take 5 ++ (libX.drop 5).take 16 = libX.take 21 := by decide +kernel
  refine ⟨?_, quiescent_of (by decide +kernel) (by decide +kernel)⟩
  have r1 := NetRun.step (.start (W := slowSample.side) (R := readerSide libR 1 2000))
    (.toReader [] [] (libX.take 5) (by decide +kernel) (by decide +kernel))
  have r2 := r1.step (.toReader _ [] ((libX.drop 5).take 16) (by decide +kernel) (by decide +kernel))
  have r3 := r2.step (.toWriter _ [] libA (by decide +kernel) (by decide +kernel))
  rw [List.nil_append, List.nil_append, e1] at r3
  have r4 := r3.step (.toReader _ _ (libX.drop 21) (by decide +kernel) (by decide +kernel))
  rw [List.take_append_drop] at r4
  exact r4.step (.toWriter _ _ (CFrame.wire ⟨.finish, []⟩) (by decide +kernel) (by decide +kernel))

/-- The hypotheses of the theorems hold for all three programs; the pipes may hold a single byte. -/
example (i : Fin 3) (k : Nat) (s : Net) (hr : PipeRun 1 1 (libProg i).pipe (readerPipe libR 1 2000) k s)
    (hq : PipeStuck 1 1 (libProg i).pipe (readerPipe libR 1 2000) s) :
    ∃ e o, (libProg i).pipe (s.toReader.length + 1) s.toWriter = .ok (e, o) ∧ e.Clean := by
  obtain ⟨g1, g2, g3, g4, g5, g6, g7, g8⟩ := libProg_hyps i
  obtain ⟨_, _, h, _⟩ := queues_net_capacity_partial (libProg i) libR 1 2000 1 1 g1 g2 g3 g4 g5 g6 g7
    (by decide) g8 (by decide) (by decide) k s hr
  obtain ⟨e, o, _, _, _, h1, h2, _⟩ := h hq
  exact ⟨e, o, h1, h2⟩

/-- In the beginning the I/O thread is blocked in the write of READY: one byte is in the pipe. -/
example : (slowSample.pipe 1 []).map (fun _ => ()) = .error (.full (libX.take 1)) ∧
    (slowSample.pipe 22 []).map (fun _ => ()) = .error (.wait (libX.take 21)) := by decide +kernel

/-- The program with two content types. -/
def choosySample : QClient := { qSample twoQueues 0 with wopt := some ⟨[[98], [97]]⟩ }

/-- **The full property is false.** The writer offers `[98]` and `[97]`, the reader takes `[97]`, so they
have a content type in common; yet the I/O thread's attempt to open the writer fails. The program ends,
submit has returned success for three payloads, and all of them are lost; the reader waits for START. With
the same schedule the program ends as it should if the reader takes `[98]`. -/
theorem queues_compatible_fails :
    (∃ e o, choosySample.side (CFrame.wire ⟨.accept, [[98]]⟩ ++ CFrame.wire ⟨.finish, []⟩) = .ok (e, o) ∧ e.Clean) ∧
    ∃ s, NetRun choosySample.side (readerSide (some ⟨[[97]], 1000⟩) 1 2000) 2 s ∧
      Quiescent choosySample.side (readerSide (some ⟨[[97]], 1000⟩) 1 2000) s ∧
      (choosySample.side s.toWriter).map (fun p => (p.1.io.destroyed, p.1.done.map Entry.data, calls p.1.io.log)) =
        .ok (true, [[1], [2, 2], [3]], [(.opn, .failure)]) ∧
      (readerSide (some ⟨[[97]], 1000⟩) 1 2000 s.toReader).map (fun _ => ()) = .error (.wait s.toWriter) := by
  refine ⟨qCheck_clean (.set .numInputQueues _ 2 (.set .inputQueueSize _ 4 .init)) ⟨2, rfl⟩ (by decide +kernel), ?_⟩
  refine ⟨⟨CFrame.wire ⟨.ready, [[98], [97]]⟩, CFrame.wire ⟨.accept, [[97]]⟩⟩, ?_,
    quiescent_of (by decide +kernel) (by decide +kernel), by decide +kernel, by decide +kernel⟩
  have r1 := NetRun.step (.start (W := choosySample.side)
      (R := readerSide (some ⟨[[97]], 1000⟩) 1 2000))
    (.toReader [] [] (CFrame.wire ⟨.ready, [[98], [97]]⟩) (by decide +kernel) (by decide +kernel))
  exact r1.step
    (.toWriter _ [] (CFrame.wire ⟨.accept, [[97]]⟩) (by decide +kernel) (by decide +kernel))

end Fstrm.Props
