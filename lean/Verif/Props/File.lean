import Verif.Lemmas.File
import Verif.Props.ReaderOpen

/-!
# Properties of file readers and writers (C18, C61, C62)

All theorems about writing hold for every script of stdio outcomes: any `fopen`,
`fwrite` or `fclose` may fail, after any part of the data, and pending output may
reach the file at any time. A crash in the middle of a call is covered as well:
it leaves what a script leaves in which every later stdio call fails without
effect.
-/

set_option autoImplicit false

namespace Fstrm.Props

open Fstrm Fstrm.Spec
open Fstrm.Spec (WellBehaved Preserves NoZeroPair)

/-! ### Helpers -/

theorem fileWriter_init {wopt : Option WriterOptions} {disk : Option Bytes} {script : List Io}
    {w : Writer FileSt} (h : fileWriterInit .file wopt disk script = some w) :
    Writer.init wopt (Rdwr.init (fileOps true) (FileSt.init true false disk script)) = some w := by
  unfold fileWriterInit at h
  rw [if_neg (by decide)] at h
  exact h

theorem fileReader_init {ropt : Option ReaderOptions} {disk : Option Bytes} {script : List Io}
    {r : Reader FileSt} (h : fileReaderInit .file ropt disk script = some r) :
    Reader.init ropt (Rdwr.init (fileOps false) (FileSt.init false false disk script)) = some r := by
  unfold fileReaderInit at h
  rw [if_neg (by decide)] at h
  exact h

theorem fileWriter_cinv {wopt : Option WriterOptions} {disk : Option Bytes} {script : List Io}
    {w : Writer FileSt} (h : fileWriterInit .file wopt disk script = some w)
    (hct : ∀ c ∈ optCts wopt, c.length ≤ 256) :
    CInv (optCts wopt).head? w [] [] ∧ FInv disk w.rdwr := by
  obtain ⟨h1, h2, h3, _⟩ := init_some (fileWriter_init h)
  rw [h3]
  refine ⟨⟨by rw [h2], by rw [h3]; rfl, by rw [h3]; simp [fileOps, Rdwr.init],
    by rw [h3]; simp [fileOps, Rdwr.init], by rw [h2]; exact hct, Or.inr ⟨by rw [h3]; rfl, fun _ => rfl, ?_⟩⟩,
    FInv.init _ _⟩
  left; rw [h3]; rfl

theorem wires_data (fs : List Bytes) : wires (fs.map Item.data) = fs.flatMap dataFrame := by
  simp [wires, List.flatMap_map, Item.wire]

theorem datas_data (fs : List Bytes) : datas (fs.map Item.data) = fs := by
  induction fs with
  | nil => rfl
  | cons d fs ih => simp [datas, ih]

theorem writeLoop_nonempty : ∀ (iov : List Bytes) (s s' : FileSt),
    FileSt.writeLoop iov s = .ok (.success, s') → ∀ d ∈ iov, d ≠ []
  | [], _, _, _ => by simp
  | d :: rest, s, s', h => by
    unfold FileSt.writeLoop at h
    obtain ⟨⟨n, s2⟩, h1, h⟩ := Exec.bind_eq_ok.1 h
    simp only at h
    split at h
    · obtain ⟨⟨rc, s3⟩, h2, h⟩ := Exec.bind_eq_ok.1 h
      cases h
    · rename_i hn
      have hn : n = 1 := by simpa using hn
      subst hn
      have := writeLoop_nonempty rest s2 s' h
      intro x hx
      rcases List.mem_cons.1 hx with rfl | hx
      · rintro rfl
        unfold FileSt.fwrite at h1
        split at h1 <;> cases h1
      · exact this x hx

theorem write_nonempty {a b : Rdwr FileSt} {iov : List Bytes} (ha : a.ops = fileOps true)
    (h : a.write iov = .ok (.success, b)) : ∀ d ∈ iov, d ≠ [] := by
  unfold Rdwr.write at h
  split at h
  · cases h
  · rw [ha] at h
    simp only [fileOps, if_true] at h
    obtain ⟨⟨r', s'⟩, h5, h⟩ := Exec.bind_eq_ok.1 h
    simp only at h
    split at h
    · rename_i hne
      obtain ⟨⟨rc, rw2⟩, _, h⟩ := Exec.bind_eq_ok.1 h
      cases h; exact absurd rfl hne
    · rename_i hs
      have hs : r' = .success := by simpa using hs
      subst hs
      unfold FileSt.opWrite at h5
      split at h5
      · cases h5
      · exact writeLoop_nonempty _ _ _ h5

theorem mem_frameIovs {d : Bytes} {iov : List Bytes} (h : d ∈ iov) : d ∈ frameIovs iov := by
  exact List.mem_flatMap.2 ⟨d, h, by simp⟩

theorem stupid_nonempty : ∀ (fuel : Nat) (w w' : Writer FileSt) (iov : List Bytes),
    w.rdwr.ops = fileOps true →
    Writer.writeIovStupid fuel w iov = .ok (.success, w') → ∀ d ∈ iov, d ≠ [] := by
  intro fuel
  induction fuel with
  | zero =>
    intro w w' iov ha h
    unfold Writer.writeIovStupid at h
    split at h
    · cases h
    · have : iov = [] := List.eq_nil_of_length_eq_zero (by omega)
      simp [this]
  | succ fuel ih =>
    intro w w' iov ha h
    unfold Writer.writeIovStupid at h
    rw [stupidMax_eq] at h
    split at h
    · simp only at h
      generalize hk : (if 128 > iov.length then iov.length else 128) = k at h
      have hk2 : k ≤ 128 := by subst hk; split <;> omega
      obtain ⟨⟨res, w2⟩, h1, h⟩ := Exec.bind_eq_ok.1 h
      obtain ⟨rw, h2, rfl⟩ := writeIov_ok (by rw [List.length_take]; omega) h1
      simp only at h
      split at h
      · rename_i hne; cases h; exact absurd rfl hne
      · rename_i hs
        have hs : res = .success := by simpa using hs
        subst hs
        have h3 := ih _ _ _ ((Rdwr.write_ok h2).1.trans ha) h
        have h4 := write_nonempty ha h2
        intro d hd
        rw [← List.take_append_drop k iov] at hd
        rcases List.mem_append.1 hd with hd | hd
        · exact h4 d (mem_frameIovs hd)
        · exact h3 d hd
    · have : iov = [] := List.eq_nil_of_length_eq_zero (by omega)
      simp [this]

theorem writev_nonempty {w w' : Writer FileSt} {iov : List Bytes} (ha : w.rdwr.ops = fileOps true)
    (h : w.writev iov = .ok (.success, w')) : ∀ d ∈ iov, d ≠ [] := by
  by_cases hne : iov = []
  · simp [hne]
  · obtain ⟨w1, h1, h2, h3⟩ := writev_maybeOpen hne h
    have ha1 : w1.rdwr.ops = fileOps true := (maybeOpen_frame h1).2.ops.trans ha
    unfold Writer.writev at h3
    rw [if_neg (by have := List.length_pos_iff.2 hne; omega)] at h3
    have hm : w1.maybeOpen = .ok (.success, w1) := by
      unfold Writer.maybeOpen; rw [if_neg (by rw [h2]; simp)]
    rw [hm, Exec.ok_bind] at h3
    simp only [ne_eq, not_true_eq_false, if_false, h2, if_true] at h3
    split at h3
    · cases h3
    · split at h3
      · rename_i hl
        simp only [WRITER_IOVEC_SIZE] at hl
        obtain ⟨rw, g2, rfl⟩ := writeIov_ok (by omega) h3
        intro d hd
        exact write_nonempty ha1 g2 d (mem_frameIovs hd)
      · exact stupid_nonempty _ _ _ _ ha1 h3

/-! ### C18 -/

/-- A file writer refuses empty frames: a call that contains one does not report
success, whatever came before. (Compare `empty_frame_corrupts`, C12.) -/
theorem file_refuses_empty (w w1 w2 : Writer FileSt) (wopt : Option WriterOptions)
    (disk : Option Bytes) (script : List Io) (calls : List WOp) (rs : List Res) (op : WOp) (r : Res)
    (hinit : fileWriterInit .file wopt disk script = some w)
    (hrun : w.run calls = .ok (rs, w1)) (hstep : w1.step op = .ok (r, w2)) (he : [] ∈ op.frames) :
    r ≠ .success := by
  have ha : w1.rdwr.ops = fileOps true := by
    rw [(run_reach hrun).ops, (init_some (fileWriter_init hinit)).2.2.1]; rfl
  rintro rfl
  cases op with
  | write d =>
    exact writev_nonempty (iov := [d]) ha hstep [] he rfl
  | writev ds => exact writev_nonempty ha hstep [] he rfl
  | opn => simp [WOp.frames] at he
  | getControl t => simp [WOp.frames] at he
  | close => simp [WOp.frames] at he

example : ∃ w, fileWriterInit .file none none [] = some w ∧
    ∃ w1 w2, w.run [.write [1]] = .ok ([.success], w1) ∧
      w1.step (.writev [[2], []]) = .ok (.failure, w2) ∧ [] ∈ (WOp.writev [[2], []]).frames :=
  ⟨_, rfl, _, _, rfl, rfl, by decide⟩

theorem accepted_nonempty {w w' : Writer FileSt} {acc : List Bytes} (calls : List WOp)
    (rs : List Res) (ha : w.rdwr.ops = fileOps true) (hacc : ∀ d ∈ acc, d ≠ [])
    (hrun : w.run calls = .ok (rs, w')) : ∀ d ∈ accepted acc (calls.zip rs), d ≠ [] := by
  induction calls generalizing w rs acc with
  | nil => cases hrun; simpa [accepted] using hacc
  | cons op rest ih =>
    obtain ⟨⟨r, w1⟩, h1, h⟩ := Exec.bind_eq_ok.1 hrun
    obtain ⟨⟨rs', w2⟩, h2, h⟩ := Exec.bind_eq_ok.1 h
    cases h
    have ha1 : w1.rdwr.ops = fileOps true := (step_reach h1).ops.trans ha
    have key : ∀ d ∈ accepted acc [(op, r)], d ≠ [] := by
      cases op with
      | write d =>
        cases r with
        | success =>
          intro x hx
          rcases List.mem_append.1 hx with hx | hx
          · exact hacc x hx
          · exact writev_nonempty (iov := [d]) ha h1 x hx
        | _ => exact hacc
      | writev ds =>
        cases r with
        | success =>
          intro x hx
          rcases List.mem_append.1 hx with hx | hx
          · exact hacc x hx
          · exact writev_nonempty ha h1 x hx
        | _ => exact hacc
      | opn => cases r <;> simpa [accepted, WOp.frames] using hacc
      | getControl t => cases r <;> simpa [accepted, WOp.frames] using hacc
      | close => simp [accepted]
    have := ih _ ha1 key h2
    rw [← accepted_append] at this
    exact this

/-- **C18**, first half. When `fstrm_writer_close` on a file writer reports success, the file holds
exactly the stream made of the frames of the calls since the previous close that
reported success: whatever calls were made and failed before, and whatever the
I/O errors were. -/
theorem file_close_durable (w w1 w2 : Writer FileSt) (wopt : Option WriterOptions)
    (disk : Option Bytes) (script : List Io) (calls : List WOp) (rs : List Res)
    (hinit : fileWriterInit .file wopt disk script = some w)
    (hct : ∀ c ∈ optCts wopt, c.length ≤ 256)
    (hrun : w.run calls = .ok (rs, w1)) (hclose : w1.close = .ok (.success, w2)) :
    w2.rdwr.obj.disk = some (stream (optCts wopt).head? (accepted [] (calls.zip rs))) := by
  obtain ⟨hc, hf⟩ := fileWriter_cinv hinit hct
  have hc1 := hc.run hrun
  obtain ⟨hc2, hs⟩ := hc1.close hclose
  obtain ⟨hs1, hs2⟩ := hs rfl
  have hf2 := (hf.reach (run_reach hrun)).reach (close_frame hclose).2.1
  rcases hf2.cases with ⟨ho, _⟩ | ⟨_, ⟨hn, _⟩ | ⟨t, ht, h⟩⟩
  · rcases hc2.cases with ⟨_, hst, _⟩ | ⟨ho2, _⟩
    · have := (close_frame hclose).2.2.2 (close_success hclose).1
      rw [this] at hst; cases hst
    · rw [ho] at ho2; cases ho2
  · rw [hn] at hs1; cases hs1
  · rw [ht] at hs1
    cases hs1
    obtain ⟨_, _, _, d, h1, _, h3⟩ := h
    rw [h1, h3 (by simp [hs2])]

/-- **C18**. A reader opened on a file after the writer's successful close returns exactly the
frames accepted since the previous close, byte for byte and in order, then stop.
(The frames must be within the reader's maximum, the content types compatible.) -/
theorem file_round_trip (w w1 w2 : Writer FileSt) (wopt : Option WriterOptions)
    (disk : Option Bytes) (script : List Io) (calls : List WOp) (rs : List Res)
    (hinit : fileWriterInit .file wopt disk script = some w)
    (hct : ∀ c ∈ optCts wopt, c.length ≤ 256)
    (hrun : w.run calls = .ok (rs, w1)) (hclose : w1.close = .ok (.success, w2))
    (ropt : Option ReaderOptions) (r : Reader FileSt) (fuel n : Nat)
    (hrinit : fileReaderInit .file ropt w2.rdwr.obj.disk [] = some r)
    (hcompat : compatible (optR ropt).cts (optCts wopt).head?.toList)
    (hmax : ∀ d ∈ accepted [] (calls.zip rs), d.length ≤ (optR ropt).maxFrameSize ∧ d.length < 2^32)
    (hfuel : (accepted [] (calls.zip rs)).length + 1 ≤ fuel)
    (hn : (accepted [] (calls.zip rs)).length + 1 ≤ n) :
    ∃ r', Reader.readLoop fuel n r =
      .ok ((accepted [] (calls.zip rs)).map some, some .stop, r') := by
  have hdisk := file_close_durable w w1 w2 wopt disk script calls rs hinit hct hrun hclose
  have hops : w.rdwr.ops = fileOps true := by
    rw [(init_some (fileWriter_init hinit)).2.2.1]; rfl
  have hne := accepted_nonempty (acc := []) calls rs hops (by simp) hrun
  rw [hdisk] at hrinit
  obtain ⟨r', h, _⟩ := reader_reads_stream ropt r (optCts wopt).head?
    ((accepted [] (calls.zip rs)).map Item.data) [] fuel n (fileReader_init hrinit)
    (rem := FileSt.left) (eof := .stop)
    (by
      rw [wires_data]
      have := file_serves (stream (optCts wopt).head? (accepted [] (calls.zip rs)))
      simpa [stream] using this)
    rfl
    (by
      intro c hc
      exact hct c (List.mem_of_mem_head? hc))
    hcompat
    (by
      intro it hit
      obtain ⟨d, hd, rfl⟩ := List.mem_map.1 hit
      exact ⟨List.length_pos_iff.2 (hne d hd), hmax d hd⟩)
    (by simpa using hfuel) (by rw [datas_data]; exact hn)
  rw [datas_data] at h
  exact ⟨r', h⟩

/-- A history with failures: the first `fopen` fails, so the first frame is not accepted; the round
trip holds for the accepted ones. -/
example : ∃ w, fileWriterInit .file (some ⟨[[7]]⟩) (some [9, 9]) [.fail 0, .ok 0, .ok 3] = some w ∧
    ∃ w1 w2, w.run [.write [1], .write [2, 3], .opn, .writev [[4], [5, 6]]] =
        .ok ([.failure, .success, .success, .success], w1) ∧
      w1.close = .ok (.success, w2) ∧
      accepted [] ([WOp.write [1], .write [2, 3], .opn, .writev [[4], [5, 6]]].zip
        [Res.failure, .success, .success, .success]) = [[2, 3], [4], [5, 6]] ∧
      w2.rdwr.obj.disk = some (stream (some [7]) [[2, 3], [4], [5, 6]]) ∧
      ∃ r, fileReaderInit .file none w2.rdwr.obj.disk [] = some r :=
  ⟨_, rfl, _, _, rfl, rfl, rfl, rfl, _, rfl⟩

/-! ### C61: what a crash or I/O error leaves behind -/

/-- **C61**. At every point in the life of a file writer, whatever the I/O errors, the file is either
untouched (it was never opened) or holds a prefix of one well-formed stream whose
data frames are consecutive among those submitted. -/
theorem file_always_prefix (w w' : Writer FileSt) (wopt : Option WriterOptions)
    (disk : Option Bytes) (script : List Io) (calls : List WOp) (rs : List Res)
    (hinit : fileWriterInit .file wopt disk script = some w)
    (hct : ∀ c ∈ optCts wopt, c.length ≤ 256)
    (hrun : w.run calls = .ok (rs, w')) :
    (sent none w'.rdwr.log = none ∧ w'.rdwr.obj.disk = disk) ∨
    ∃ d fs, w'.rdwr.obj.disk = some d ∧ d <+: stream (optCts wopt).head? fs ∧
      fs <:+: calls.flatMap WOp.frames := by
  obtain ⟨hc, hf⟩ := fileWriter_cinv hinit hct
  have hc1 := hc.run hrun
  have hf1 := hf.reach (run_reach hrun)
  rw [List.nil_append] at hc1
  rcases hf1.cases with ⟨ho, t, ht, h⟩ | ⟨ho, ⟨hn, hd, _⟩ | ⟨t, ht, h⟩⟩
  · right
    obtain ⟨d, hd, hb⟩ := h.cont
    rcases hc1.cases with ⟨_, _, h2, h3⟩ | ⟨h1, _⟩
    · rw [ht] at h2
      cases h2
      refine ⟨d, _, hd, ?_, h3.isInfix⟩
      rw [stream_eq, ← hb, List.append_assoc]
      exact List.prefix_append _ _
    · rw [ho] at h1; cases h1
  · exact Or.inl ⟨hn, hd⟩
  · right
    obtain ⟨d, hd, hb, _⟩ := h.cont
    rcases hc1.cases with ⟨h1, _⟩ | ⟨_, _, h3⟩
    · rw [ho] at h1; cases h1
    · rcases h3 with h3 | ⟨t', fs, h3, h4, h5⟩
      · rw [ht] at h3; cases h3
      · rw [ht] at h3
        cases h3
        exact ⟨d, fs, hd, hb.trans h4, h5⟩

/-- **C61**, as seen by a reader: reading the file at any point yields frames that were submitted,
unchanged, consecutive and in order, and then something other than success. -/
theorem file_crash_read (w w' : Writer FileSt) (wopt : Option WriterOptions)
    (disk : Option Bytes) (script : List Io) (calls : List WOp) (rs : List Res)
    (hinit : fileWriterInit .file wopt disk script = some w)
    (hct : ∀ c ∈ optCts wopt, c.length ≤ 256)
    (hrun : w.run calls = .ok (rs, w')) (hopened : sent none w'.rdwr.log ≠ none)
    (ropt : Option ReaderOptions) (r : Reader FileSt) (fuel n : Nat)
    (hrinit : fileReaderInit .file ropt w'.rdwr.obj.disk [] = some r)
    (hcompat : compatible (optR ropt).cts (optCts wopt).head?.toList)
    (hmax : ∀ d ∈ calls.flatMap WOp.frames,
      1 ≤ d.length ∧ d.length ≤ (optR ropt).maxFrameSize ∧ d.length < 2^32)
    (hfuel : (calls.flatMap WOp.frames).length + 1 ≤ fuel)
    (hn : (calls.flatMap WOp.frames).length + 1 ≤ n) :
    ∃ ds last r', Reader.readLoop fuel n r = .ok (ds.map some, some last, r') ∧
      last ≠ .success ∧ ds <:+: calls.flatMap WOp.frames := by
  rcases file_always_prefix w w' wopt disk script calls rs hinit hct hrun with ⟨h, _⟩ | ⟨d, fs, h1, h2, h3⟩
  · exact absurd h hopened
  rw [h1] at hrinit
  obtain ⟨x, hx⟩ := h2
  have hl := h3.length_le
  obtain ⟨last, r', e1, e2, e3⟩ := reader_truncated ropt r (optCts wopt).head?
    (fs.map Item.data) d.length fuel n (fileReader_init hrinit)
    (rem := FileSt.left) (eof := .stop)
    (by
      rw [wires_data]
      have hd : (CFrame.wire ⟨.start, (optCts wopt).head?.toList⟩ ++
          (fs.flatMap dataFrame ++ CFrame.wire ⟨.stop, []⟩)).take d.length = d := by
        rw [← List.append_assoc, show _ ++ _ ++ _ = stream (optCts wopt).head? fs from rfl, ← hx]
        simp
      rw [hd]
      exact file_serves d)
    rfl
    (by
      intro c hc
      exact hct c (List.mem_of_mem_head? hc))
    hcompat
    (by
      intro it hit
      obtain ⟨d, hd, rfl⟩ := List.mem_map.1 hit
      exact hmax d (h3.subset hd))
    (by simp; omega) (by rw [datas_data]; omega)
  rw [datas_data] at e3
  exact ⟨_, last, r', e1, e2, e3.isInfix.trans h3⟩

/-- A write error in the middle of a batch, with part of the pending output flushed. -/
example : ∃ w, fileWriterInit .file (some ⟨[[7]]⟩) none [.ok 0, .ok 0, .ok 0, .ok 0, .ok 0, .fail 1, .fail 30] =
      some w ∧
    ∃ w', w.run [.write [1, 2], .writev [[3], [4, 5]], .write [6]] =
        .ok ([.success, .failure, .failure], w') ∧
      sent none w'.rdwr.log ≠ none ∧
      w'.rdwr.obj.disk = some ((stream (some [7]) [[1, 2], [3], [4, 5]]).take 30) ∧
      ∃ r, fileReaderInit .file none w'.rdwr.obj.disk [] = some r ∧
        (r.readLoop 9 9).map (fun p => (p.1, p.2.1)) = .ok ([some [1, 2]], some .stop) :=
  ⟨_, rfl, _, rfl, by decide +kernel, by decide +kernel, _, rfl, by decide +kernel⟩

/-! ### C62: memory safety of file readers and writers -/

/-- A stream other than standard input or output. -/
def Named (s : FileSt) : Prop := s.isStd = false

theorem fclose_total {s : FileSt} (h : s.isStd = false) :
    ∃ ok s', s.fclose = .ok (ok, s') ∧ s'.isStd = false ∧ s'.fp = s.fp ∧
      (s.write = false → s'.disk = s.disk) ∧ s'.write = s.write := by
  unfold FileSt.fclose
  rw [if_neg (by simp [h])]
  obtain ⟨l, hl⟩ := FileSt.next_same { s with stdClosed := s.isStd }
  simp only
  split
  · rename_i k s2 hk
    rw [hk] at hl
    simp only at hl
    subst hl
    refine ⟨_, _, rfl, ?_⟩
    cases s.write <;> simp [FileSt.flush, h]
  · rename_i k s2 hk
    rw [hk] at hl
    simp only at hl
    subst hl
    refine ⟨_, _, rfl, ?_⟩
    cases s.write <;> simp [FileSt.flush, h]

theorem opClose_total {s : FileSt} (h : s.isStd = false) :
    ∃ r s', s.opClose = .ok (r, s') ∧ s'.isStd = false ∧
      (s.write = false → s'.disk = s.disk) ∧ s'.write = s.write := by
  unfold FileSt.opClose
  split
  · obtain ⟨ok, s', h1, h2, _, h3, h4⟩ := fclose_total (s := { s with fp := false }) h
    rw [h1, Exec.ok_bind]
    simp only
    cases ok
    · exact ⟨_, s', rfl, h2, h3, h4⟩
    · exact ⟨_, s', rfl, h2, h3, h4⟩
  · exact ⟨_, s, rfl, h, fun _ => rfl, rfl⟩

theorem opOpen_total {s : FileSt} (h : s.isStd = false) :
    ∃ r s', s.opOpen = .ok (r, s') ∧ s'.isStd = false ∧
      (s.write = false → s'.disk = s.disk) ∧ s'.write = s.write := by
  unfold FileSt.opOpen
  cases hfp : s.fp with
  | true => exact ⟨_, s, rfl, h, fun _ => rfl, rfl⟩
  | false =>
    simp only [Bool.not_false, if_true, h, Bool.false_eq_true, if_false]
    obtain ⟨l, hl⟩ := FileSt.next_same s
    unfold FileSt.fopen
    split
    · rename_i k s2 hk
      rw [hk] at hl
      simp only at hl
      subst hl
      exact ⟨_, _, rfl, h, fun _ => rfl, rfl⟩
    · rename_i k s2 hk
      rw [hk] at hl
      simp only at hl
      subst hl
      cases hw : s.write with
      | true => exact ⟨_, _, rfl, h, nofun, rfl⟩
      | false =>
        cases hd : s.disk with
        | none => exact ⟨_, _, rfl, h, fun _ => rfl, rfl⟩
        | some d => exact ⟨_, _, rfl, h, fun _ => rfl, rfl⟩

theorem writeLoop_total : ∀ (iov : List Bytes) (s : FileSt), s.isStd = false →
    ∃ r s', FileSt.writeLoop iov s = .ok (r, s') ∧ s'.isStd = false ∧ s'.write = s.write
  | [], s, h => ⟨_, s, rfl, h, rfl⟩
  | d :: rest, s, h => by
    have hfw : ∃ n s', s.fwrite d = .ok (n, s') ∧ s'.isStd = false ∧ s'.write = s.write := by
      unfold FileSt.fwrite
      rw [if_neg (by simp [h])]
      split
      · exact ⟨_, s, rfl, h, rfl⟩
      · obtain ⟨l, hl⟩ := FileSt.next_same s
        split
        all_goals
          rename_i k s2 hk
          rw [hk] at hl
          simp only at hl
          subst hl
          exact ⟨_, _, rfl, h, rfl⟩
    obtain ⟨n, s2, h1, h2, h3⟩ := hfw
    unfold FileSt.writeLoop
    rw [h1, Exec.ok_bind]
    simp only
    split
    · obtain ⟨r, s3, h4, h5, _, h6⟩ := opClose_total h2
      rw [h4, Exec.ok_bind]
      exact ⟨_, s3, rfl, h5, h6.trans h3⟩
    · obtain ⟨r, s3, h4, h5, h6⟩ := writeLoop_total rest s2 h2
      exact ⟨r, s3, h4, h5, h6.trans h3⟩

theorem opWrite_total (iov : List Bytes) {s : FileSt} (h : s.isStd = false) :
    ∃ r s', FileSt.opWrite iov s = .ok (r, s') ∧ s'.isStd = false := by
  unfold FileSt.opWrite
  split
  · exact ⟨_, s, rfl, h⟩
  · obtain ⟨r, s', a, b, _⟩ := writeLoop_total iov s h
    exact ⟨r, s', a, b⟩

theorem opRead_total (n : Nat) {s : FileSt} (h : s.isStd = false) :
    ∃ r bs s', FileSt.opRead n s = .ok (r, bs, s') ∧
      (r = .success → bs = ((s.disk.getD []).drop s.pos).take n ∧ bs.length = n ∧ s'.pos = s.pos + n) ∧
      s'.isStd = false ∧ s'.disk = s.disk ∧ s'.write = s.write := by
  unfold FileSt.opRead
  split
  · unfold FileSt.fread
    rw [if_neg (by simp [h])]
    simp only
    split
    · rw [Exec.ok_bind]
      simp only [Nat.zero_ne_one, if_false]
      repeat' split
      all_goals exact ⟨_, _, s, rfl, nofun, h, rfl, rfl⟩
    · obtain ⟨l, hl⟩ := FileSt.next_same s
      split
      · rename_i k s2 hk
        rw [hk] at hl
        simp only at hl
        subst hl
        rw [Exec.ok_bind]
        exact ⟨_, _, _, rfl, nofun, h, rfl, rfl⟩
      · rename_i k s2 hk
        rw [hk] at hl
        simp only at hl
        subst hl
        simp only
        split
        · rename_i hle
          rw [Exec.ok_bind]
          refine ⟨_, _, _, rfl, fun _ => ⟨rfl, ?_, rfl⟩, h, rfl, rfl⟩
          rw [List.length_take, List.length_drop]; omega
        · rw [Exec.ok_bind]
          simp only [Nat.zero_ne_one, if_false]
          repeat' split
          all_goals exact ⟨_, _, _, rfl, nofun, h, rfl, rfl⟩
  · exact ⟨_, _, s, rfl, nofun, h, rfl, rfl⟩

theorem file_wellBehaved (write : Bool) : WellBehaved (fileOps write) Named where
  opn := by
    rintro f ⟨⟩ s hs
    obtain ⟨r, s', h, _⟩ := opOpen_total hs
    exact ⟨r, s', h⟩
  cls := by
    rintro f ⟨⟩ s hs
    obtain ⟨r, s', h, _⟩ := opClose_total hs
    exact ⟨r, s', h⟩
  destroy := by rintro f ⟨⟩ s hs; exact ⟨_, _, rfl⟩
  wr := by
    intro f hf iov s hs
    cases write <;> simp [fileOps] at hf
    subst hf
    obtain ⟨r, s', h, _⟩ := opWrite_total iov hs
    exact ⟨r, s', h⟩
  rd := by
    intro f hf n s hs
    cases write <;> simp [fileOps] at hf
    subst hf
    obtain ⟨r, bs, s', h, h2, _⟩ := opRead_total n hs
    exact ⟨r, bs, s', h, fun hr => (h2 hr).2.1⟩

theorem file_preserves : Preserves (fileOps true) Named where
  opn := by
    rintro f ⟨⟩ s r s' hs he
    obtain ⟨_, _, h, h2, _⟩ := opOpen_total hs
    rw [h] at he; cases he; exact h2
  cls := by
    rintro f ⟨⟩ s r s' hs he
    obtain ⟨_, _, h, h2, _⟩ := opClose_total hs
    rw [h] at he; cases he; exact h2
  wr := by
    rintro f ⟨⟩ iov s r s' hs he
    obtain ⟨_, _, h, h2⟩ := opWrite_total iov hs
    rw [h] at he; cases he; exact h2
  rd := by rintro f ⟨⟩

/-- **C62** for writers on a named file: no sequence of calls, ended by destroying the writer, runs
into undefined behaviour, whatever the I/O errors. `_partial`: not so for "-"
(`stdout_reuse_ub`). -/
theorem file_writer_safe_partial (w : Writer FileSt) (wopt : Option WriterOptions)
    (disk : Option Bytes) (script : List Io) (calls : List WOp)
    (hinit : fileWriterInit .file wopt disk script = some w)
    (hlen : ∀ op ∈ calls, op.frames.length ≤ 1073741823) :
    ∃ r, (do
      let (_, w) ← w.run calls
      let (res, _) ← w.destroy
      Except.ok res : Exec Res) = .ok r :=
  writer_safe_uni (fileOps true) _ Named wopt w calls (file_wellBehaved true) file_preserves
    (show Named (FileSt.init true false disk script) from rfl) rfl
    hlen (fileWriter_init hinit)

/-- A named file opened for reading whose contents lack eight zero bytes in a row. -/
def Harmless (s : FileSt) : Prop :=
  s.isStd = false ∧ s.write = false ∧ ¬ ([0, 0, 0, 0, 0, 0, 0, 0] <:+: s.disk.getD [])

theorem file_preserves_rd : Preserves (fileOps false) Harmless where
  opn := by
    rintro f ⟨⟩ s r s' ⟨h1, h2, h3⟩ he
    obtain ⟨_, _, h, a, b, c⟩ := opOpen_total h1
    rw [h] at he; cases he
    exact ⟨a, c.trans h2, by rw [b h2]; exact h3⟩
  cls := by
    rintro f ⟨⟩ s r s' ⟨h1, h2, h3⟩ he
    obtain ⟨_, _, h, a, b, c⟩ := opClose_total h1
    rw [h] at he; cases he
    exact ⟨a, c.trans h2, by rw [b h2]; exact h3⟩
  wr := by rintro f ⟨⟩
  rd := by
    rintro f ⟨⟩ n s r bs s' ⟨h1, h2, h3⟩ he
    obtain ⟨_, _, _, h, _, a, b, c⟩ := opRead_total n h1
    rw [h] at he; cases he
    exact ⟨a, c.trans h2, by rw [b]; exact h3⟩

theorem file_noZeroPair : NoZeroPair (fileOps false) Harmless := by
  rintro f ⟨⟩ s s1 s2 ⟨h1, h2, h3⟩ e1 e2
  obtain ⟨_, _, _, g, k, a, b, _⟩ := opRead_total 4 h1
  rw [g] at e1; cases e1
  obtain ⟨_, _, _, g', k', _, _, _⟩ := opRead_total 4 a
  rw [g'] at e2; cases e2
  obtain ⟨x1, _, x3⟩ := k rfl
  obtain ⟨y1, _, _⟩ := k' rfl
  rw [b, x3] at y1
  apply h3
  refine ⟨(s.disk.getD []).take s.pos, (s.disk.getD []).drop (s.pos + 8), ?_⟩
  have : (s.disk.getD []).drop s.pos = [0, 0, 0, 0] ++ ([0, 0, 0, 0] ++ (s.disk.getD []).drop (s.pos + 8)) := by
    conv => lhs; rw [← List.take_append_drop 4 ((s.disk.getD []).drop s.pos), ← x1, List.drop_drop,
      ← List.take_append_drop 4 ((s.disk.getD []).drop (s.pos + 4)), ← y1, List.drop_drop]
  conv => rhs; rw [← List.take_append_drop s.pos (s.disk.getD []), this]
  simp

/-- **C62** for readers on a named file: hostile contents included, except that eight zero bytes in
a row trigger the defect of `reader_zero_length_ub`. -/
theorem file_reader_safe_partial (r : Reader FileSt) (ropt : Option ReaderOptions)
    (disk : Option Bytes) (script : List Io) (fuel : Nat) (calls : List ROp)
    (hinit : fileReaderInit .file ropt disk script = some r)
    (h8 : ¬ ([0, 0, 0, 0, 0, 0, 0, 0] <:+: disk.getD [])) :
    NoUB (do
      let (_, r) ← r.run fuel calls
      let (res, _) ← r.destroy
      Except.ok res : Exec Res) :=
  reader_safe_partial (fileOps false) _ Harmless ropt r fuel calls
    ⟨fun f hf s hs => (file_wellBehaved false).opn f hf s hs.1,
     fun f hf s hs => (file_wellBehaved false).cls f hf s hs.1,
     fun f hf s hs => (file_wellBehaved false).destroy f hf s hs.1,
     fun f hf iov s hs => (file_wellBehaved false).wr f hf iov s hs.1,
     fun f hf n s hs => (file_wellBehaved false).rd f hf n s hs.1⟩
    file_preserves_rd file_noZeroPair ⟨rfl, rfl, h8⟩ (fileReader_init hinit)

example : (∃ w, fileWriterInit .file none none [.fail 0] = some w) ∧
    (∃ r, fileReaderInit .file none (some [0, 0, 0, 0, 7]) [.ok 0, .fail 0] = some r) ∧
    ¬ ([0, 0, 0, 0, 0, 0, 0, 0] <:+: ((some [0, 0, 0, 0, 7] : Option Bytes)).getD []) := by
  refine ⟨⟨_, rfl⟩, ⟨_, rfl⟩, fun h => ?_⟩
  have := h.length_le
  simp at this

/-- **C62** is false for "-": closing a writer on standard output and opening it again uses the
closed stream. -/
theorem stdout_reuse_ub :
    (fileWriterInit .dash none (some []) []).map
      (fun w => (w.run [.write [1], .close, .opn]).map (fun p => p.1)) =
    some (.error (.ub "use of a closed stream")) := by decide +kernel

end Fstrm.Props
