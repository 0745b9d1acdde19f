import Verif.Lemmas.Replay

/-!
# fstrm_replay (C56, C69)

`replay` is the program run with a given content type on a list of files (contents
and outcomes of the stdio calls on them), over an arbitrary bidirectional
transport. `Sends`, `SendsAll` and `ValidFile` are in `Verif.Spec.Replay`.
-/

set_option autoImplicit false

namespace Fstrm.Props

open Fstrm.Spec

variable {σ : Type}

/-- The calls of a run that ended with status 0 and without the message about closing. -/
theorem replay_wrote {ct : Bytes} {w0 w1 w2 w3 : Writer σ} {ops : Ops σ} {obj : σ} {ds : List Bytes}
    (hbi : ops.rd ≠ none) (hi : Writer.init (some ⟨[ct]⟩) (Rdwr.init ops obj) = some w0)
    (ho : w0.open = .ok (.success, w1)) (hw : Wrote w1 ds w2) (hc : w2.close = .ok (.success, w3)) :
    wrote w3.rdwr.log = CFrame.wire ⟨.ready, [ct]⟩ ++ stream (some ct) ds := by
  obtain ⟨rs, h1, h2⟩ := hw
  have hrun : w0.run ([WOp.opn :: ds.map WOp.write].flatMap (· ++ [.close])) =
      .ok (.success :: (rs ++ [.success]), w3) := by
    simp only [List.flatMap_cons, List.flatMap_nil, List.append_nil, List.cons_append, Writer.run,
      Writer.step]
    rw [ho, Exec.ok_bind]
    simp only
    have : w1.run (ds.map WOp.write ++ [.close]) = .ok (rs ++ [.success], w3) := by
      rw [run_append]
      refine ⟨rs, w2, [.success], h1, ?_, rfl⟩
      simp only [Writer.run, Writer.step]
      rw [hc, Exec.ok_bind]
      rfl
    rw [this, Exec.ok_bind]
  have key := writer_stream_bidir ops obj (some ⟨[ct]⟩) w0 w3 [WOp.opn :: ds.map WOp.write] _ hbi hi
    (by simp) hrun (by
      intro r hr
      simp only [List.mem_cons, List.mem_append, List.not_mem_nil, or_false] at hr
      rcases hr with rfl | hr | rfl
      · rfl
      · exact h2 r hr
      · rfl)
  rw [key]
  have hf : ∀ l : List Bytes, l.flatMap (fun x => (WOp.write x).frames) = l := by
    intro l; induction l with
    | nil => rfl
    | cons a l ih => simp [WOp.frames] at ih ⊢
  simp [optCts, WOp.frames, List.flatMap_map, hf]

/-! ### C56 -/

/-- **C56**, soundness: every list of files (valid or not), every outcome of every I/O operation.
If the program ends with status 0 and does not report that closing failed, the bytes sent are READY
and one stream of the configured content type whose frames are, file by file in order, those of
the file (see `Sends`).
`_partial`: a frame above 1048576 bytes is undefined behaviour (`replay_oversize_ub`). -/
theorem replay_sound_partial (fuel : Nat) (ct : Bytes) (files : List ReplayFile) (ops : Ops σ)
    (obj : σ) (o : ReplayOut σ) (hbi : ops.rd ≠ none)
    (h : replay fuel ct files ops obj = .ok o) (hs : o.status = 0)
    (hc : ReplayMsg.error "fstrm_writer_close" ∉ o.msgs) :
    ∃ rdwr parts, o.rdwr = some rdwr ∧ SendsAll ct files o.msgs parts ∧
      wrote rdwr.log = CFrame.wire ⟨.ready, [ct]⟩ ++ stream (some ct) parts.flatten := by
  obtain ⟨w0, w1, w2, w3, res, msgs, rdwr, _, h2, h3, h4, h5, h6, h7, h8⟩ := replay_ok h hs
  have hres : res = .success := by
    by_cases hx : res = .success
    · exact hx
    · rw [h8 hx] at hc; simp at hc
  subst hres
  obtain ⟨h9, h10⟩ := h7 rfl
  obtain ⟨parts, p1, p2⟩ := replayFiles_ok _ _ _ _ h4
  exact ⟨rdwr, parts, h6, h9 ▸ p1, by rw [h10]; exact replay_wrote hbi h2 h3 p2 h5⟩

/-- **C56** for files that are complete streams: the bytes sent are READY and one stream with exactly
the frames of all files, in order; and nothing is reported. -/
theorem replay_sends_partial (fuel : Nat) (ct : Bytes) (files : List (ReplayFile × List Item))
    (ops : Ops σ) (obj : σ) (o : ReplayOut σ) (hbi : ops.rd ≠ none)
    (hv : ∀ p ∈ files, ValidFile ct p.1 p.2 ∧ p.2.length + 2 ≤ fuel)
    (h : replay fuel ct (files.map (·.1)) ops obj = .ok o) (hs : o.status = 0)
    (hc : ReplayMsg.error "fstrm_writer_close" ∉ o.msgs) :
    o.msgs = [] ∧ ∃ rdwr, o.rdwr = some rdwr ∧
      wrote rdwr.log = CFrame.wire ⟨.ready, [ct]⟩ ++
        stream (some ct) (files.flatMap fun p => datas p.2) := by
  obtain ⟨w0, w1, w2, w3, res, msgs, rdwr, hct, h2, h3, h4, h5, h6, h7, h8⟩ := replay_ok h hs
  have hres : res = .success := by
    by_cases hx : res = .success
    · exact hx
    · rw [h8 hx] at hc; simp at hc
  subst hres
  obtain ⟨h9, h10⟩ := h7 rfl
  obtain ⟨p1, p2⟩ := replayFiles_valid hct files _ _ _ hv h4
  exact ⟨h9.trans p1, rdwr, h6, by rw [h10]; exact replay_wrote hbi h2 h3 p2 h5⟩

/-- **C56**, completeness: on complete streams the program makes exactly these calls on its writer:
open, one write per frame of all files in order, close. If they succeed, it ends with status 0
and without a message. -/
theorem replay_completes (fuel : Nat) (ct : Bytes) (files : List (ReplayFile × List Item))
    (ops : Ops σ) (obj : σ) (hct : ct.length ≤ 256)
    (hv : ∀ p ∈ files, ValidFile ct p.1 p.2 ∧ p.2.length + 2 ≤ fuel)
    (w w1 : Writer σ) (rs : List Res) (p : Res × Rdwr σ)
    (hinit : Writer.init (some ⟨[ct]⟩) (Rdwr.init ops obj) = some w)
    (hrun : w.run (.opn :: (files.flatMap fun p => datas p.2).map WOp.write ++ [.close]) = .ok (rs, w1))
    (hrs : ∀ r ∈ rs, r = .success) (hd : w1.destroy = .ok p) :
    replay fuel ct (files.map (·.1)) ops obj = .ok ⟨0, [], some p.2⟩ := by
  simp only [List.cons_append, Writer.run, Writer.step] at hrun
  obtain ⟨⟨r1, w2⟩, h1, hrun⟩ := Exec.bind_eq_ok.1 hrun
  obtain ⟨⟨rs2, w3⟩, h2, hrun⟩ := Exec.bind_eq_ok.1 hrun
  cases hrun
  rw [run_append] at h2
  obtain ⟨rs3, w4, rs4, h3, h4, rfl⟩ := h2
  simp only [Writer.run, Writer.step] at h4
  obtain ⟨⟨r5, w5⟩, h5, h4⟩ := Exec.bind_eq_ok.1 h4
  rw [Exec.ok_bind] at h4
  cases h4
  have e1 : r1 = .success := hrs _ (by simp)
  have e5 : r5 = .success := hrs _ (by simp)
  subst e1 e5
  have hw : Wrote w2 (files.flatMap fun p => datas p.2) w4 :=
    ⟨rs3, h3, fun r hr => hrs r (by simp [hr])⟩
  unfold replay initWriter
  have hadd : WriterOptions.init.addCt ct = (.success, ⟨[ct]⟩) := by
    unfold WriterOptions.addCt
    rw [if_neg (by simp only [CT_LENGTH_MAX]; omega)]
    rfl
  rw [hadd]
  simp only [ne_eq, not_true_eq_false, if_false]
  rw [hinit]
  simp only
  rw [h1, Exec.ok_bind]
  simp only [not_true_eq_false, if_false, Exec.ok_bind]
  rw [replayFiles_complete hct files w2 w4 hv hw, Exec.ok_bind]
  simp only
  rw [if_neg (by decide), h5, Exec.ok_bind]
  simp only [not_true_eq_false, if_false]
  rw [hd, Exec.ok_bind]

/-- **C56** fails for oversized frames: an uninitialised pointer is passed to the writer, whatever
the state of the writer and the length of the frame. -/
theorem replay_oversize_ub (ct : Bytes) (n fuel : Nat) (rest : Bytes) (w : Writer σ)
    (hct : ct.length ≤ 256) (hn : 1048576 < n) (hn2 : n < 2^32) :
    processFile (fuel + 1) ct .file (some (CFrame.wire ⟨.start, [ct]⟩ ++ (be32 n ++ rest))) [] w =
      .error (.ub "uninitialised data pointer") := by
  have hinit : ∃ r, fileReaderInit .file none (some (CFrame.wire ⟨.start, [ct]⟩ ++
      (be32 n ++ rest))) [] = some r := ⟨_, rfl⟩
  obtain ⟨r, hr⟩ := hinit
  obtain ⟨r1, a1, b1, b2, b3, b4, b5, b6, _⟩ := open_uni_at none r (some ct) _ (fileReader_init hr)
    (file_serves _) rfl (by rintro c ⟨⟩; exact hct)
  obtain ⟨c1, c2⟩ := b6 (Or.inl rfl)
  obtain ⟨rw, e1, a2, o1⟩ := readBe32_at a1 hn2
  have hread : r1.read (fuel+1) = .ok (.success, none, { r1 with rdwr := rw, state := .failed }) := by
    rw [read_opened _ c1]
    unfold Reader.nextData
    rw [e1, Exec.ok_bind]
    simp only [ne_eq, not_true_eq_false, if_false]
    rw [if_pos (by omega)]
    unfold Reader.dataFrame
    rw [if_pos (by simp only [b3]; exact hn)]
  obtain ⟨hf, _, _⟩ := fileReader_fresh hr
  have hgc : r.getControl T_START = .ok (.success, some ⟨T_START, [ct]⟩, r1) := by
    unfold Reader.getControl Reader.maybeOpen
    rw [if_pos hf.state, c2, Exec.ok_bind]
    simp [b4]
  unfold processFile
  rw [hr]
  simp only
  rw [hgc, Exec.ok_bind]
  simp only [ne_eq, not_true_eq_false, if_false]
  have hm : Control.matchCt ⟨T_START, [ct]⟩ (some ct) = .success :=
    (matchCt_start (some ct) ct).2 (Or.inr rfl)
  rw [if_neg (Classical.not_not.2 hm)]
  unfold replayLoop
  rw [hread]
  rfl

/-! ### C69 -/

/-- **C69** is false: the exit status is 0 although the peer never confirmed the end of the stream, so
that closing failed. -/
theorem replay_ignores_close :
    (replay 9 [116] [⟨.file, some (stream (some [116]) [[1]]), []⟩] (pipeOps true true)
      ⟨CFrame.wire ⟨.accept, [[116]]⟩, [], false⟩).map (fun o => (o.status, o.msgs)) =
    .ok (0, [.error "fstrm_writer_close"]) := by decide +kernel

/-- **C69** is false for files that cannot be read, too: they are skipped with a warning, and the
exit status is 0. -/
theorem replay_skips_files :
    (replay 9 [116] [⟨.file, none, []⟩, ⟨.file, some (stream (some [117]) [[1]]), []⟩]
      (pipeOps true true)
      ⟨CFrame.wire ⟨.accept, [[116]]⟩ ++ CFrame.wire ⟨.finish, []⟩, [], false⟩).map
        (fun o => (o.status, o.msgs, o.rdwr.map (fun rw => wrote rw.log))) =
    .ok (0, [.warning "failed to read control frame", .warning "content type mismatch"],
      some (CFrame.wire ⟨.ready, [[116]]⟩ ++ stream (some [116]) [])) := by decide +kernel

/-- What remains of **C69**: without any message the peer has been sent everything. (`_partial`: it
must be read from standard error, the exit status does not tell; and a file that was cut off
inside a frame is not reported, as `Sends` says.) -/
theorem replay_reports_partial (fuel : Nat) (ct : Bytes) (files : List ReplayFile) (ops : Ops σ)
    (obj : σ) (o : ReplayOut σ) (hbi : ops.rd ≠ none)
    (h : replay fuel ct files ops obj = .ok o) (hs : o.status = 0) (hm : o.msgs = []) :
    ∃ rdwr parts, o.rdwr = some rdwr ∧ SendsAll ct files [] parts ∧
      wrote rdwr.log = CFrame.wire ⟨.ready, [ct]⟩ ++ stream (some ct) parts.flatten := by
  have := replay_sound_partial fuel ct files ops obj o hbi h hs (by rw [hm]; simp)
  rw [hm] at this
  exact this

/-! ### Examples -/

/-- Not vacuous: two files, the second without content type and with a READY frame inside. -/
example : (replay 9 [116] [⟨.file, some (stream (some [116]) [[1], [2, 3]]), []⟩,
      ⟨.file, some (CFrame.wire ⟨.start, []⟩ ++ (wires [.ctl ⟨.ready, []⟩, .data [4]] ++
        (CFrame.wire ⟨.stop, []⟩ ++ []))), []⟩]
      (pipeOps true true)
      ⟨CFrame.wire ⟨.accept, [[9], [116]]⟩ ++ CFrame.wire ⟨.finish, []⟩, [], false⟩).map
        (fun o => (o.status, o.msgs, o.rdwr.map (fun rw => wrote rw.log))) =
    .ok (0, [], some (CFrame.wire ⟨.ready, [[116]]⟩ ++ stream (some [116]) [[1], [2, 3], [4]])) := by
  decide +kernel

example : ValidFile [116] ⟨.file, some (CFrame.wire ⟨.start, []⟩ ++
      (wires [.ctl ⟨.ready, []⟩, .data [4]] ++ (CFrame.wire ⟨.stop, []⟩ ++ []))), []⟩
    [.ctl ⟨.ready, []⟩, .data [4]] := by
  refine ⟨rfl, rfl, ?_, none, [], Or.inl rfl, rfl⟩
  intro it hit
  simp only [List.mem_cons, List.not_mem_nil, or_false] at hit
  rcases hit with rfl | rfl
  · exact ⟨⟨by simp, nofun⟩, by decide +kernel, by decide⟩
  · simp [Item.Ok]

end Fstrm.Props
