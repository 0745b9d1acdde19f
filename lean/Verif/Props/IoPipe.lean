import Verif.Lemmas.IoPipe
import Verif.Props.IoNet
import Verif.Props.Pipe

/-!
# C75: a program with an I/O thread and a library reader, over pipes that hold only so many bytes

`Spec/IoPipe.lean` says what the program does when its pipe is full, `Spec/Pipe.lean` how the pipes
work and what the reading program is. `Props/IoNet.lean` has the theorem for unlimited pipes.
-/

set_option autoImplicit false

namespace Fstrm.Props

open Iothr
open Spec

/-- What the program does over a pipe that takes `c` bytes. -/
theorem ioPipe_cut (p : IoClient) (c : Nat) (y : Bytes) :
    (∀ s o, p.side y = .ok (s, o) →
      p.pipe c y = if o.length ≤ c then .ok (Pipe.lim c s, o) else .error (.full (o.take c))) ∧
    (∀ o, p.side y = .error (.wait o) →
      p.pipe c y = if o.length ≤ c then .error (.wait o) else .error (.full (o.take c))) := by
  obtain ⟨w, e, -, -, h3, h4, -⟩ := writer_init_chan p.wopt y
  have e' : Writer.init p.wopt (Rdwr.init (pipeOps c) ⟨y, []⟩) = some (Pipe.lim c w) := by
    unfold Writer.init at e ⊢
    rw [if_neg (by simp [Rdwr.init, chanOps])] at e
    rw [if_neg (by simp [Rdwr.init, pipeOps, chanOps])]
    cases e
    rfl
  unfold IoClient.side IoClient.pipe
  rw [e, e']
  dsimp only
  have hc := Iothr.run_cut (c := c) p.acts (Iothr.init p.opt w) h3
  rw [show (Iothr.init p.opt w).writer.rdwr.obj.out = [] from congrArg Chan.out h4] at hc
  have el : Iothr.init p.opt (Pipe.lim c w) = Pipe.lim c (Iothr.init p.opt w) := rfl
  rw [el]
  constructor
  · intro s o h
    obtain ⟨s1, e1, h⟩ := Exec.bind_eq_ok.1 h
    cases h
    rw [hc.ok (Nat.zero_le _) _ e1]
    dsimp only [Pipe.out]
    split <;> rfl
  · intro o h
    cases hx : (Iothr.init p.opt w).run p.acts with
    | ok p => rw [hx] at h; cases h
    | error e1 =>
      rw [hx] at h
      cases h
      rw [hc.wait (Nat.zero_le _) _ hx]
      split <;> rfl

/-- Two ends of a pipe that look the same from outside. -/
structure SameEnd {α β : Type} (x : Exec (α × Bytes)) (y : Exec (β × Bytes)) : Prop where
  sent : sentBy x = sentBy y
  wait : ∀ o, x = .error (.wait o) ↔ y = .error (.wait o)

theorem pipe_alike {α β γ : Type} {W : Nat → Side α} {W' : Nat → Side β} {R : Nat → Side γ}
    {cw cr : Nat} {P : Net → Prop} (hP : ∀ k s, PipeRun cw cr W' R k s → P s)
    (ha : ∀ s c, P s → SameEnd (W c s.toWriter) (W' c s.toWriter)) {k : Nat} {s : Net}
    (h : PipeRun cw cr W R k s) : PipeRun cw cr W' R k s := by
  induction h with
  | start => exact .start
  | step h hd ih =>
    have := fun c => ha _ c (hP _ _ ih)
    cases hd with
    | toReader x y o b hb hw => exact .step ih (.toReader x y o b ((this _).sent ▸ hb) hw)
    | toWriter x y o b hb hw => exact .step ih (.toWriter x y o b hb (((this _).wait o).1 hw))

theorem pipeStuck_alike {α β γ : Type} {W : Nat → Side α} {W' : Nat → Side β} {R : Nat → Side γ}
    {cw cr : Nat} {s : Net} (ha : ∀ c, SameEnd (W c s.toWriter) (W' c s.toWriter))
    (h : PipeStuck cw cr W R s) : PipeStuck cw cr W' R s := by
  intro s' hd
  cases hd with
  | toReader x y o b hb hw => exact h _ (.toReader x y o b ((ha _).sent.symm ▸ hb) hw)
  | toWriter x y o b hb hw => exact h _ (.toWriter x y o b hb (((ha _).wait o).2 hw))

/-- **C75 with pipes of any capacity.** The two programs of `iothr_net_partial`, over pipes that hold
at most `cw` bytes (from the writer to the reader) and `cr` bytes (the other way) that were sent and
not read yet; each capacity is at least one byte. An I/O thread whose pipe is full blocks in its
write call. Then, whichever side goes next:

* one byte is moved in every step, and the number of steps is bounded, so every execution ends;
* in every reachable state each side is waiting for input, blocked because its pipe is full, or has
  finished successfully;
* when nothing can move, the I/O thread has been destroyed without a failing call, and the reader has
  delivered, without gaps, exactly what the I/O thread handed over, has been told to stop and has
  closed successfully; among the payloads are all those submitted before destroy was called; those of
  one input queue are in the order of submission; none is delivered twice.

Missing for the full property: as in `iothr_net_partial`. -/
theorem iothr_net_capacity_partial (p : IoClient) (ropt : Option ReaderOptions) (fuel n cw cr : Nat)
    (hp : p.Whole)
    (hwcts : ∀ c ∈ p.types, c.length ≤ 256)
    (hready : (CFrame.wire ⟨.ready, p.types⟩).length ≤ 512)
    (hrcts : ∀ c ∈ (optR ropt).cts, c.length ≤ 256)
    (haccept : (CFrame.wire ⟨.accept, common (optR ropt).cts p.types⟩).length ≤ 512)
    (hagree : ∀ c, p.types.head? = some c → (optR ropt).cts = [] ∨ c ∈ (optR ropt).cts)
    (hsize : ∀ t q d f, .submit t q (some d) f ∈ p.acts → d.length ≤ (optR ropt).maxFrameSize)
    (hfuel : 1 ≤ fuel) (hn : p.acts.length < n) (hcw : 1 ≤ cw) (hcr : 1 ≤ cr)
    (k : Nat) (s : Net) (hr : PipeRun cw cr p.pipe (readerPipe ropt fuel n) k s) :
    ((∃ o, p.pipe (s.toReader.length + cw) s.toWriter = .error (.wait o)) ∨
      (∃ o, p.pipe (s.toReader.length + cw) s.toWriter = .error (.full o) ∧
        o.length = s.toReader.length + cw) ∨
      ∃ st o, p.pipe (s.toReader.length + cw) s.toWriter = .ok (st, o) ∧ Finished st) ∧
    ((∃ o, readerPipe ropt fuel n (s.toWriter.length + cr) s.toReader = .error (.wait o)) ∨
      (∃ o, readerPipe ropt fuel n (s.toWriter.length + cr) s.toReader = .error (.full o) ∧
        o.length = s.toWriter.length + cr) ∨
      ∃ ds r o, readerPipe ropt fuel n (s.toWriter.length + cr) s.toReader =
        .ok ((ds, some .stop, .success, r), o)) ∧
    (PipeStuck cw cr p.pipe (readerPipe ropt fuel n) s →
      ∃ (st : Iothr Chan) (o : Bytes) (es : List Entry) (r : Reader Chan) (o' : Bytes),
        p.pipe (s.toReader.length + cw) s.toWriter = .ok (st, o) ∧ Finished st ∧
        readerPipe ropt fuel n (s.toWriter.length + cr) s.toReader =
          .ok ((es.map fun e => some e.data, some .stop, .success, r), o') ∧
        (∀ q, onQueue q (submits (beforeShutdown st.log)) <+: onQueue q es) ∧
        (∀ q, (onQueue q es).Sublist (onQueue q (submits st.log))) ∧ es.Nodup) ∧
    ∃ bound, ∀ k' s', PipeRun cw cr p.pipe (readerPipe ropt fuel n) k' s' → k' ≤ bound := by
  obtain ⟨fuel, rfl⟩ : ∃ m, fuel = m + 1 := ⟨fuel - 1, by omega⟩
  obtain ⟨bs, es, log, hok, hfr, hn', h2, h3, h4, hcmp⟩ :=
    ioCompare p ropt n hp hwcts hready hrcts haccept hagree hsize hn
  have hpipe : ∀ c y, y <+: netY p.wopt ropt →
      (∃ o, p.pipe c y = .error (.wait o) ∧ writerPipe p.wopt bs c y = .error (.wait o)) ∨
      (∃ o, p.pipe c y = .error (.full o) ∧ o.length = c ∧
        writerPipe p.wopt bs c y = .error (.full o)) ∨
      ∃ st o r, p.pipe c y = .ok (st, o) ∧ Finished st ∧ st.log = log ∧
        writerPipe p.wopt bs c y = .ok (r, o) := by
    intro c y hy
    obtain ⟨a1, a2⟩ := ioPipe_cut p c y
    obtain ⟨b1, b2⟩ := writerPipe_cut p.wopt bs c y
    rcases hcmp y hy with ⟨o, e1, e2⟩ | ⟨st, o, r, e1, e3, e4, e2⟩
    · have f1 := a2 o e1
      have f2 := b2 o e2
      by_cases hle : o.length ≤ c
      · rw [if_pos hle] at f1 f2
        exact Or.inl ⟨o, f1, f2⟩
      · rw [if_neg hle] at f1 f2
        exact Or.inr (Or.inl ⟨_, f1, by rw [List.length_take]; omega, f2⟩)
    · have f1 := a1 _ _ e1
      have f2 := b1 _ _ _ e2
      by_cases hle : o.length ≤ c
      · rw [if_pos hle] at f1 f2
        exact Or.inr (Or.inr ⟨_, _, _, f1, e3, e4, f2⟩)
      · rw [if_neg hle] at f1 f2
        exact Or.inr (Or.inl ⟨_, f1, by rw [List.length_take]; omega, f2⟩)
  have hsame : ∀ c y, y <+: netY p.wopt ropt → SameEnd (p.pipe c y) (writerPipe p.wopt bs c y) := by
    intro c y hy
    rcases hpipe c y hy with ⟨o, e1, e2⟩ | ⟨o, e1, _, e2⟩ | ⟨st, o, r, e1, _, _, e2⟩ <;>
      rw [e1, e2] <;> refine ⟨rfl, fun o' => ?_⟩
    · simp
    · simp
    · simp
  have hrun : ∀ {k s}, PipeRun cw cr p.pipe (readerPipe ropt (fuel+1) n) k s →
      PipeRun cw cr (writerPipe p.wopt bs) (readerPipe ropt (fuel+1) n) k s :=
    fun h => pipe_alike (P := fun s => s.toWriter <+: netY p.wopt ropt)
      (fun k s h => (netInv hok fuel n hn' (pipe_net hok fuel n cw cr hn' h).1).ty)
      (fun s c hs => hsame c _ hs) h
  have hty := (netInv hok fuel n hn' (pipe_net hok fuel n cw cr hn' (hrun hr)).1).ty
  obtain ⟨_, _, m3, m4⟩ := net_no_deadlock_capacity_partial p.wopt ropt bs (fuel+1) n cw cr hok.wcts
    hok.ready hok.rcts hok.acc hok.agree hok.count hok.frames hfuel hn' hcw hcr k s (hrun hr)
  refine ⟨?_, ?_, ?_, _, fun k' s' h' => (net_no_deadlock_capacity_partial p.wopt ropt bs (fuel+1) n cw
    cr hok.wcts hok.ready hok.rcts hok.acc hok.agree hok.count hok.frames hfuel hn' hcw hcr k' s'
    (hrun h')).1⟩
  · rcases hpipe _ _ hty with ⟨o, e1, _⟩ | ⟨o, e1, e2, _⟩ | ⟨st, o, r, e1, e2, _⟩
    · exact Or.inl ⟨o, e1⟩
    · exact Or.inr (Or.inl ⟨o, e1, e2⟩)
    · exact Or.inr (Or.inr ⟨st, o, e1, e2⟩)
  · rcases m3 with ⟨o, g⟩ | ⟨o, g⟩ | ⟨r, o, g⟩
    · exact Or.inl ⟨o, g⟩
    · exact Or.inr (Or.inl ⟨o, g⟩)
    · exact Or.inr (Or.inr ⟨_, r, o, g⟩)
  · intro hq
    obtain ⟨w, r, o, o', g1, g2, _⟩ := m4 (pipeStuck_alike (fun c => hsame c _ hty) hq)
    rcases hpipe _ _ hty with ⟨o2, _, g3⟩ | ⟨o2, _, _, g3⟩ | ⟨st, o2, r2, g3, g4, g5, _⟩
    · rw [g3] at g1; cases g1
    · rw [g3] at g1; cases g1
    · refine ⟨st, o2, es, r, o', g3, g4, ?_, by rw [g5]; exact h2, by rw [g5]; exact h3, h4⟩
      rw [g2, hfr, List.map_map]
      rfl

/-! ### The hypotheses can be met: both pipes hold a single byte -/

/-- READY is read byte by byte. -/
private theorem ioRun (i : Nat) (hi : i ≤ 30) :
    PipeRun 1 1 ioNetEx.pipe (readerPipe ioNetR 1 100) i ⟨ioNetX.take i, []⟩ := by
  induction i with
  | zero => exact .start
  | succ i ih =>
    have hl : i < ioNetX.length := by
      have : 30 ≤ ioNetX.length := by decide +kernel
      omega
    have h1 : ∀ j : Fin 30, ioNetX.take j ++ [ioNetX[j.val]?.getD 0] <+:
        sentBy (ioNetEx.pipe ((ioNetX.take j).length + 1) []) := by decide +kernel
    have h2 : ∀ j : Fin 30, (readerPipe ioNetR 1 100 1 (ioNetX.take j)).map (fun _ => ()) =
        .error (.wait []) := by decide +kernel
    have h2' := h2 ⟨i, by omega⟩
    have h3 : readerPipe ioNetR 1 100 1 (ioNetX.take i) = .error (.wait []) := by
      revert h2'
      cases readerPipe ioNetR 1 100 1 (ioNetX.take i) with
      | ok _ => intro h; cases h
      | error e => intro h; cases h; rfl
    have := (ih (by omega)).step (.toReader _ [] [] (ioNetX[i]?.getD 0) (h1 ⟨i, by omega⟩) h3)
    rwa [List.getElem?_eq_getElem hl, Option.getD_some, List.take_append_getElem] at this

example : PipeRun 1 1 ioNetEx.pipe (readerPipe ioNetR 1 100) 30 ⟨ioNetX.take 30, []⟩ :=
  ioRun 30 (by omega)

/-- In the beginning the I/O thread is blocked in the write of READY: one byte is in the pipe. In the
end it waits for ACCEPT. -/
example : (ioNetEx.pipe 1 []).map (fun _ => ()) = .error (.full (ioNetX.take 1)) ∧
    (ioNetEx.pipe 31 []).map (fun _ => ()) = .error (.wait (ioNetX.take 30)) := by decide +kernel

/-- The hypotheses of `iothr_net_capacity_partial` hold there. -/
example (k : Nat) (s : Net) (hr : PipeRun 1 1 ioNetEx.pipe (readerPipe ioNetR 1 100) k s)
    (hq : PipeStuck 1 1 ioNetEx.pipe (readerPipe ioNetR 1 100) s) :
    ∃ st o, ioNetEx.pipe (s.toReader.length + 1) s.toWriter = .ok (st, o) ∧ Finished st := by
  obtain ⟨g1, g2, g3, g4, g5, g6, g7, g8⟩ := ioNet_hyps
  obtain ⟨_, _, h, _⟩ := iothr_net_capacity_partial ioNetEx ioNetR 1 100 1 1 g1 g2 g3 g4 g5 g6 g7
    (by decide) g8 (by decide) (by decide) k s hr
  obtain ⟨st, o, _, _, _, h1, h2, _⟩ := h hq
  exact ⟨st, o, h1, h2⟩

end Fstrm.Props
