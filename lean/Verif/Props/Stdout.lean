import Verif.Lemmas.Stdout
import Verif.Props.File

/-!
# C71: a writer on "-" appends one stream to standard output

In the model the file behind "-" is what the process's standard output is connected
to (`disk`).
-/

set_option autoImplicit false

namespace Fstrm.Props

open Fstrm.Spec

theorem stdoutWriter_inv {wopt : Option WriterOptions} {disk : Option Bytes} {script : List Io}
    {w : Writer FileSt} (h : fileWriterInit .dash wopt disk script = some w)
    (hct : ∀ c ∈ optCts wopt, c.length ≤ 256) :
    CInv (optCts wopt).head? w [] [] ∧ SInv disk w.rdwr := by
  unfold fileWriterInit at h
  rw [if_neg (by decide)] at h
  obtain ⟨h1, h2, h3, _⟩ := init_some h
  rw [h3]
  refine ⟨⟨by rw [h2], by rw [h3]; rfl, by rw [h3]; simp [fileOps, Rdwr.init],
    by rw [h3]; simp [fileOps, Rdwr.init], by rw [h2]; exact hct, Or.inr ⟨by rw [h3]; rfl, fun _ => rfl, ?_⟩⟩,
    SInv.init _ _⟩
  left; rw [h3]; rfl

/-- **C71**. At every point in the life of a writer on "-", whatever calls were made and whatever the
I/O errors: what was on standard output before is still there, followed by a prefix of one
well-formed stream whose data frames are consecutive among those submitted. Nothing is
written before the writer is opened. -/
theorem stdout_appends (w w' : Writer FileSt) (wopt : Option WriterOptions)
    (disk : Option Bytes) (script : List Io) (calls : List WOp) (rs : List Res)
    (hinit : fileWriterInit .dash wopt disk script = some w)
    (hct : ∀ c ∈ optCts wopt, c.length ≤ 256)
    (hrun : w.run calls = .ok (rs, w')) :
    (sent none w'.rdwr.log = none ∧ w'.rdwr.obj.disk = disk) ∨
    ∃ d fs, w'.rdwr.obj.disk.getD [] = disk.getD [] ++ d ∧ d <+: stream (optCts wopt).head? fs ∧
      fs <:+: calls.flatMap WOp.frames := by
  obtain ⟨hc, hf⟩ := stdoutWriter_inv hinit hct
  have hc1 := hc.run hrun
  have hf1 := hf.reach (run_reach hrun)
  rw [List.nil_append] at hc1
  rcases hf1.cases with ⟨ho, t, ht, h⟩ | ⟨ho, ⟨hn, hd, _⟩ | ⟨t, ht, h⟩⟩ | ⟨ho, hs, _⟩
  · right
    obtain ⟨d, hd, hb⟩ := h.cont
    rcases hc1.cases with ⟨_, _, h2, h3⟩ | ⟨h1, _⟩
    · rw [ht] at h2
      cases h2
      refine ⟨d, _, hd, ?_, h3.isInfix⟩
      rw [stream_eq, ← hb, List.append_assoc]
      exact List.prefix_append _ _
    · rw [ho] at h1; cases h1
  · exact Or.inl ⟨hn, by rw [hd]; rfl⟩
  · right
    obtain ⟨d, hd, hb, _⟩ := h.cont
    rcases hc1.cases with ⟨h1, _⟩ | ⟨_, _, h3⟩
    · rw [ho] at h1; cases h1
    · rcases h3 with h3 | ⟨t', fs, h3, h4, h5⟩
      · rw [ht] at h3; cases h3
      · rw [ht] at h3
        cases h3
        exact ⟨d, fs, hd, hb.trans h4, h5⟩
  · exfalso
    rcases hc1.cases with ⟨_, _, h2, _⟩ | ⟨h1, _⟩
    · rw [hs] at h2
      have := congrArg List.length (Option.some.inj h2)
      simp [openStream, CFrame.wire, be32] at this
    · rw [ho] at h1; cases h1

/-- **C71**. When `close` on it reports success, what follows the earlier output is exactly the stream of
the frames of the calls that reported success. -/
theorem stdout_close_durable (w w1 w2 : Writer FileSt) (wopt : Option WriterOptions)
    (disk : Option Bytes) (script : List Io) (calls : List WOp) (rs : List Res)
    (hinit : fileWriterInit .dash wopt disk script = some w)
    (hct : ∀ c ∈ optCts wopt, c.length ≤ 256)
    (hrun : w.run calls = .ok (rs, w1)) (hclose : w1.close = .ok (.success, w2)) :
    w2.rdwr.obj.disk.getD [] =
      disk.getD [] ++ stream (optCts wopt).head? (accepted [] (calls.zip rs)) := by
  obtain ⟨hc, hf⟩ := stdoutWriter_inv hinit hct
  have hc1 := hc.run hrun
  obtain ⟨hc2, hs⟩ := hc1.close hclose
  obtain ⟨hs1, hs2⟩ := hs rfl
  have hf2 := (hf.reach (run_reach hrun)).reach (close_frame hclose).2.1
  have hno : w2.rdwr.opened = true → False := by
    intro ho
    rcases hc2.cases with ⟨_, hst, _⟩ | ⟨ho2, _⟩
    · have := (close_frame hclose).2.2.2 (close_success hclose).1
      rw [this] at hst; cases hst
    · rw [ho] at ho2; cases ho2
  rcases hf2.cases with ⟨ho, _⟩ | ⟨_, ⟨hn, _⟩ | ⟨t, ht, h⟩⟩ | ⟨ho, _⟩
  · exact (hno ho).elim
  · rw [hn] at hs1; cases hs1
  · rw [ht] at hs1
    cases hs1
    obtain ⟨d, h1, _, h3⟩ := h.cont
    rw [h1, h3 (by simp [hs2])]
  · exact (hno ho).elim

/-- **C71**. Opening "-" opens no file: the transport of a reader or writer on "-" opens
successfully whatever the file system would answer, changes no file and leaves reading at the
position where it was. -/
theorem dash_opens_no_file (ropt : Option ReaderOptions) (wopt : Option WriterOptions)
    (disk : Option Bytes) (script : List Io) (r : Reader FileSt) (w : Writer FileSt)
    (hr : fileReaderInit .dash ropt disk script = some r)
    (hw : fileWriterInit .dash wopt disk script = some w) :
    (∃ r1, r.rdwr.open = .ok (.success, r1) ∧ r1.obj.disk = disk ∧ r1.obj.pos = r.rdwr.obj.pos ∧
      r1.obj.script = script) ∧
    ∃ w1, w.rdwr.open = .ok (.success, w1) ∧ w1.obj.disk = disk ∧ w1.obj.script = script := by
  unfold fileReaderInit at hr
  rw [if_neg (by decide)] at hr
  unfold fileWriterInit at hw
  rw [if_neg (by decide)] at hw
  obtain ⟨_, _, h3, _⟩ := init_some hw
  have h4 : r.rdwr = Rdwr.init (fileOps false) (FileSt.init false true disk script) := by
    unfold Reader.init at hr
    split at hr <;> (cases hr; rfl)
  rw [h3, h4]
  exact ⟨⟨_, rfl, rfl, rfl, rfl⟩, _, rfl, rfl, rfl⟩

/-- The hypotheses can be met. A named file that does not exist cannot be opened for reading. -/
example : (∃ r, fileReaderInit .dash none none [.fail 0] = some r) ∧
    (∃ w, fileWriterInit .dash none none [.fail 0] = some w) ∧
    ∃ r, fileReaderInit .file none none [] = some r ∧
      r.rdwr.open.map (·.1) = .ok .failure :=
  ⟨⟨_, rfl⟩, ⟨_, rfl⟩, _, rfl, rfl⟩

/-- The hypotheses can be met: three frames are written after `[9]`, some bytes reaching it early. -/
example : ∃ w, fileWriterInit .dash (some ⟨[[7]]⟩) (some [9]) [.ok 2, .ok 0, .ok 3] = some w ∧
    ∃ w1 w2, w.run [.opn, .write [2, 3], .writev [[4], [5, 6]]] =
        .ok ([.success, .success, .success], w1) ∧
      w1.close = .ok (.success, w2) ∧
      w2.rdwr.obj.disk = some (9 :: stream (some [7]) [[2, 3], [4], [5, 6]]) :=
  ⟨_, rfl, _, _, rfl, rfl, by decide +kernel⟩

/-- After a failed write the part that was flushed stays. -/
example : ∃ w, fileWriterInit .dash none (some [9]) [.ok 0, .ok 0, .fail 1, .fail 13] = some w ∧
    ∃ w1, w.run [.write [2, 3], .write [4]] = .ok ([.failure, .failure], w1) ∧
      w1.rdwr.obj.disk = some (9 :: (stream none [[2, 3]]).take 13) :=
  ⟨_, rfl, _, rfl, by decide +kernel⟩

/-- By contrast a named file is emptied when it is opened. -/
example : ∃ w, fileWriterInit .file none (some [9]) [] = some w ∧
    ∃ w1 w2, w.run [.write [2, 3]] = .ok ([.success], w1) ∧ w1.close = .ok (.success, w2) ∧
      w2.rdwr.obj.disk = some (stream none [[2, 3]]) :=
  ⟨_, rfl, _, _, rfl, rfl, by decide +kernel⟩

end Fstrm.Props
