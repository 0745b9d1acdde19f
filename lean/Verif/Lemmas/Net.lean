import Verif.Lemmas.Chan
import Verif.Props.Writer
import Verif.Props.Reader

/-! The two sides of a connection, as functions of the bytes delivered to them. -/

set_option autoImplicit false

namespace Fstrm

open Spec

theorem chan_run_wait (cts : List Bytes) (k : Nat) (hk : k < 12) :
    ∀ (batches : List (List Bytes)) (w : Writer Chan) (out : Bytes),
    ChW cts w ((CFrame.wire ⟨.finish, []⟩).take k) out →
    (∀ b ∈ batches, b.length ≤ 1073741823) →
    w.run (batches.map .writev ++ [.close]) =
      .error (.wait (out ++ batches.flatten.flatMap dataFrame ++ CFrame.wire ⟨.stop, []⟩))
  | [], w, out, h, _ => by
    simp only [List.map_nil, List.nil_append, List.flatten_nil, List.flatMap_nil, List.append_nil]
    unfold Writer.run Writer.step
    simp only
    rw [h.close_wait hk]
    rfl
  | b :: rest, w, out, h, hb => by
    obtain ⟨w1, e1, c1⟩ := h.writev (hb b (by simp))
    have ih := chan_run_wait cts k hk rest w1 _ c1 (fun x hx => hb x (by simp [hx]))
    simp only [List.map_cons, List.cons_append]
    unfold Writer.run Writer.step
    simp only
    rw [e1, Exec.ok_bind, ih]
    simp [Exec.err_bind]

theorem chan_run_done (cts : List Bytes) (rest : Bytes) :
    ∀ (batches : List (List Bytes)) (w : Writer Chan) (out : Bytes),
    ChW cts w (CFrame.wire ⟨.finish, []⟩ ++ rest) out →
    (∀ b ∈ batches, b.length ≤ 1073741823) →
    ∃ w', w.run (batches.map .writev ++ [.close]) =
      .ok (List.replicate (batches.length + 1) .success, w') ∧
      w'.rdwr.obj.out = out ++ batches.flatten.flatMap dataFrame ++ CFrame.wire ⟨.stop, []⟩ ∧
      w'.start = some ⟨T_START, cts.head?.toList⟩ ∧ w'.state = .closed
  | [], w, out, h, _ => by
    obtain ⟨w', e, c1, c2, c3⟩ := h.close
    refine ⟨w', ?_, by simpa using c1, c2, c3⟩
    simp only [List.map_nil, List.nil_append]
    unfold Writer.run Writer.step
    simp only
    rw [e, Exec.ok_bind]
    rfl
  | b :: bs, w, out, h, hb => by
    obtain ⟨w1, e1, c1⟩ := h.writev (hb b (by simp))
    obtain ⟨w', e2, c2, c3, c4⟩ := chan_run_done cts rest bs w1 _ c1 (fun x hx => hb x (by simp [hx]))
    refine ⟨w', ?_, by simpa using c2, c3, c4⟩
    simp only [List.map_cons, List.cons_append]
    unfold Writer.run Writer.step
    simp only
    rw [e1, Exec.ok_bind, e2]
    rfl

/-- A configuration of the two sides that works. -/
structure NetOk (wopt : Option WriterOptions) (ropt : Option ReaderOptions)
    (batches : List (List Bytes)) : Prop where
  wcts : ∀ c ∈ Props.optCts wopt, c.length ≤ 256
  ready : (CFrame.wire ⟨.ready, Props.optCts wopt⟩).length ≤ 512
  rcts : ∀ c ∈ (Props.optR ropt).cts, c.length ≤ 256
  acc : (CFrame.wire ⟨.accept, common (Props.optR ropt).cts (Props.optCts wopt)⟩).length ≤ 512
  agree : ∀ c, (Props.optCts wopt).head? = some c →
    (Props.optR ropt).cts = [] ∨ c ∈ (Props.optR ropt).cts
  count : ∀ b ∈ batches, b.length ≤ 1073741823
  frames : ∀ b ∈ batches, ∀ d ∈ b, 1 ≤ d.length ∧ d.length ≤ (Props.optR ropt).maxFrameSize ∧
    d.length < 2^32

section
variable {wopt : Option WriterOptions} {ropt : Option ReaderOptions} {batches : List (List Bytes)}

theorem wire_payload (f : CFrame) : f.payload.length ≤ f.wire.length := by
  rw [length_item_ctl]; omega

theorem writer_init_chan (wopt : Option WriterOptions) (y : Bytes) :
    ∃ w, Writer.init wopt (Rdwr.init chanOps ⟨y, []⟩) = some w ∧ w.state = .opening ∧
      w.cts = Props.optCts wopt ∧ w.rdwr.ops = chanOps ∧ w.rdwr.obj = ⟨y, []⟩ ∧ w.finish = none := by
  unfold Writer.init
  rw [if_neg (by simp [Rdwr.init, chanOps])]
  exact ⟨_, rfl, rfl, rfl, rfl, rfl, rfl⟩

theorem NetOk.writer_wait1 (h : NetOk wopt ropt batches) (k : Nat)
    (hk : k < (CFrame.wire ⟨.accept, common (Props.optR ropt).cts (Props.optCts wopt)⟩).length) :
    writerSide wopt batches
      ((CFrame.wire ⟨.accept, common (Props.optR ropt).cts (Props.optCts wopt)⟩).take k) =
      .error (.wait (CFrame.wire ⟨.ready, Props.optCts wopt⟩)) := by
  unfold writerSide
  obtain ⟨w, e, s1, s2, s3, s4, s5⟩ := writer_init_chan wopt
    ((CFrame.wire ⟨.accept, common (Props.optR ropt).cts (Props.optCts wopt)⟩).take k)
  rw [e]
  simp only
  unfold Writer.run Writer.step
  simp only
  rw [chan_writer_open_wait s3 s4 (by rw [s2]; exact h.wcts) (by rw [s2]; exact h.ready) s1
    (Nat.le_trans (wire_payload _) h.acc) hk, s2]
  rfl

theorem NetOk.opened (h : NetOk wopt ropt batches) (rest : Bytes) :
    ∃ w w', Writer.init wopt (Rdwr.init chanOps
        ⟨CFrame.wire ⟨.accept, common (Props.optR ropt).cts (Props.optCts wopt)⟩ ++ rest, []⟩) = some w ∧
      w.open = .ok (.success, w') ∧ ChW (Props.optCts wopt) w' rest
        (CFrame.wire ⟨.ready, Props.optCts wopt⟩ ++
          CFrame.wire ⟨.start, (Props.optCts wopt).head?.toList⟩) := by
  obtain ⟨w, e, s1, s2, s3, s4, s5⟩ := writer_init_chan wopt
    (CFrame.wire ⟨.accept, common (Props.optR ropt).cts (Props.optCts wopt)⟩ ++ rest)
  obtain ⟨w', e2, c⟩ := chan_writer_open s3 s4 (by rw [s2]; exact h.wcts) (by rw [s2]; exact h.ready)
    s1 s5 (fun c hc => h.rcts c (List.mem_filter.1 hc).1)
    (Nat.le_trans (wire_payload _) h.acc) (by
      intro c hc
      rw [s2] at hc
      rcases h.agree c hc with h0 | h0
      · left; simp [common, h0]
      · right
        refine List.mem_filter.2 ⟨h0, ?_⟩
        have := List.mem_of_mem_head? hc
        simp [this])
  rw [s2] at c
  exact ⟨w, w', e, e2, c⟩

theorem NetOk.writer_wait2 (h : NetOk wopt ropt batches) (k : Nat) (hk : k < 12) :
    writerSide wopt batches
      (CFrame.wire ⟨.accept, common (Props.optR ropt).cts (Props.optCts wopt)⟩ ++
        (CFrame.wire ⟨.finish, []⟩).take k) =
      .error (.wait (CFrame.wire ⟨.ready, Props.optCts wopt⟩ ++
        stream (Props.optCts wopt).head? batches.flatten)) := by
  unfold writerSide
  obtain ⟨w, w', e, e2, c⟩ := h.opened ((CFrame.wire ⟨.finish, []⟩).take k)
  rw [e]
  simp only
  unfold Writer.run
  rw [show w.step .opn = w.open from rfl, e2, Exec.ok_bind]
  simp only
  rw [chan_run_wait _ k hk batches w' _ c h.count]
  simp [Exec.err_bind, stream, List.append_assoc]

theorem NetOk.writer_done (h : NetOk wopt ropt batches) :
    ∃ w, writerSide wopt batches
      (CFrame.wire ⟨.accept, common (Props.optR ropt).cts (Props.optCts wopt)⟩ ++
        CFrame.wire ⟨.finish, []⟩) =
      .ok ((List.replicate (batches.length + 2) .success, w),
        CFrame.wire ⟨.ready, Props.optCts wopt⟩ ++
          stream (Props.optCts wopt).head? batches.flatten) ∧
      w.start = some ⟨T_START, (Props.optCts wopt).head?.toList⟩ ∧ w.state = .closed := by
  obtain ⟨w, w', e, e2, c⟩ := h.opened (CFrame.wire ⟨.finish, []⟩ ++ [])
  obtain ⟨w2, e3, c1, c2, c3⟩ := chan_run_done _ [] batches w' _ c h.count
  refine ⟨w2, ?_, c2, c3⟩
  rw [List.append_nil] at e
  unfold writerSide
  rw [e]
  simp only
  unfold Writer.run
  rw [show w.step .opn = w.open from rfl, e2, Exec.ok_bind]
  simp only
  rw [e3]
  simp [Exec.ok_bind, stream, List.append_assoc, c1, List.replicate_succ]

/-! ### The reader -/

theorem reader_init_chan (ropt : Option ReaderOptions) (x : Bytes) :
    ∃ r, Reader.init ropt (Rdwr.init chanOps ⟨x, []⟩) = some r ∧ r.state = .opening ∧
      r.cts = (Props.optR ropt).cts ∧ r.maxFrameSize = (Props.optR ropt).maxFrameSize ∧
      r.rdwr.ops = chanOps ∧ r.rdwr.obj = ⟨x, []⟩ ∧ 1 ≤ r.bufCap := by
  unfold Reader.init
  simp only
  rw [if_neg (by simp [Rdwr.init, chanOps])]
  refine ⟨_, rfl, rfl, ?_, ?_, rfl, rfl, by simp [FRAME_LENGTH_MAX]⟩ <;> cases ropt <;> rfl

theorem readLoop_opening (fuel n : Nat) {r : Reader Chan} (hs : r.state = .opening) :
    Reader.readLoop fuel (n+1) r = (do
      let (res, r) ← r.open
      if res ≠ .success then .ok ([], some res, r)
      else if r.state = .opened then Reader.readLoop fuel (n+1) r
      else if r.state = .closed then .ok ([], some .stop, r)
      else .ok ([], some .failure, r)) := by
  conv => lhs; unfold Reader.readLoop
  unfold Reader.read Reader.maybeOpen
  rw [if_pos hs]
  cases ho : r.open with
  | error e => rfl
  | ok p =>
    obtain ⟨res, r'⟩ := p
    simp only [Exec.ok_bind]
    by_cases hr : res = .success
    · subst hr
      simp only [ne_eq, not_true_eq_false, if_false]
      by_cases h1 : r'.state = .opened
      · simp only [h1, if_true]
        rw [readLoop_opened _ _ h1]
        rfl
      · by_cases h2 : r'.state = .closed
        · simp [h2, Exec.ok_bind]
        · simp [h1, h2, Exec.ok_bind]
    · simp [hr, Exec.ok_bind]

theorem NetOk.reader_wait1 (h : NetOk wopt ropt batches) (fuel n k : Nat) (hn : 0 < n)
    (hk : k < (CFrame.wire ⟨.ready, Props.optCts wopt⟩).length) :
    readerSide ropt fuel n ((CFrame.wire ⟨.ready, Props.optCts wopt⟩).take k) =
      .error (.wait []) := by
  obtain ⟨n, rfl⟩ : ∃ m, n = m + 1 := ⟨n - 1, by omega⟩
  obtain ⟨r, e, s1, s2, s3, s4, s5, s6⟩ := reader_init_chan ropt
    ((CFrame.wire ⟨.ready, Props.optCts wopt⟩).take k)
  unfold readerSide
  rw [e]
  simp only
  rw [readLoop_opening _ _ s1,
    chan_reader_open_wait s4 s5 s1 (Nat.le_trans (wire_payload _) h.ready) hk]
  rfl

theorem NetOk.compat (h : NetOk wopt ropt batches) :
    compatible (Props.optR ropt).cts (Props.optCts wopt).head?.toList := by
  cases hh : (Props.optCts wopt).head? with
  | none => right; left; rfl
  | some c =>
    rcases h.agree c hh with h0 | h0
    · exact Or.inl h0
    · exact Or.inr (Or.inr ⟨c, h0, by simp⟩)

theorem startWF {cts : List Bytes} (h : ∀ c ∈ cts, c.length ≤ 256) :
    CFrame.WF ⟨.start, cts.head?.toList⟩ :=
  ⟨(startable h).1, by intro m hm; cases hm; cases cts.head? <;> simp⟩

theorem NetOk.reader_wait2 (h : NetOk wopt ropt batches) (fuel n k : Nat)
    (hn : batches.flatten.length < n)
    (hk : k < (stream (Props.optCts wopt).head? batches.flatten).length) :
    readerSide ropt (fuel+1) n (CFrame.wire ⟨.ready, Props.optCts wopt⟩ ++
        (stream (Props.optCts wopt).head? batches.flatten).take k) =
      .error (.wait (CFrame.wire ⟨.accept, common (Props.optR ropt).cts (Props.optCts wopt)⟩)) := by
  obtain ⟨n, rfl⟩ : ∃ m, n = m + 1 := ⟨n - 1, by omega⟩
  obtain ⟨r, e, s1, s2, s3, s4, s5, s6⟩ := reader_init_chan ropt
    (CFrame.wire ⟨.ready, Props.optCts wopt⟩ ++
        (stream (Props.optCts wopt).head? batches.flatten).take k)
  obtain ⟨rw, c, e2⟩ := chan_reader_open_accept s4 s5 s1 h.wcts
    (Nat.le_trans (wire_payload _) h.ready) (by rw [s2]; exact h.rcts) (by rw [s2]; exact h.acc)
  rw [s2] at c
  obtain ⟨st1, st2⟩ := startable h.wcts
  unfold readerSide
  rw [e]
  simp only
  rw [readLoop_opening _ _ s1, e2]
  unfold stream at c hk
  rw [List.append_assoc] at c hk
  by_cases hlt : k < (CFrame.wire ⟨.start, (Props.optCts wopt).head?.toList⟩).length
  · rw [List.take_append_of_le_length (by omega)] at c
    rw [chan_openUni_wait c (Nat.le_trans (wire_payload _) st2) hlt]
    rfl
  · rw [take_append_ge (by omega)] at c
    obtain ⟨r2, e3, c3⟩ := chan_openUni (r := { r with
          rdwr := rw, ready := some ⟨T_READY, Props.optCts wopt⟩,
          accept := some ⟨T_ACCEPT, common r.cts (Props.optCts wopt)⟩ }) c (startWF h.wcts) (Nat.le_trans (wire_payload _) st2)
      (by simp only [s2]; exact h.compat) s6
    rw [e3]
    simp only [Exec.ok_bind, ne_eq, not_true_eq_false, if_false, if_true]
    rw [ChR.loop_wait _ _ _ fuel batches.flatten (n+1) _ { r2 with state := .opened } (by
        intro d hd
        obtain ⟨b, hb, hd⟩ := List.mem_flatten.1 hd
        simp only [s3]
        exact h.frames b hb d hd) ⟨c3.ch, rfl, c3.max, c3.cap, c3.start⟩ (by
        rw [List.length_append] at hk; omega) hn]
    rfl

theorem NetOk.reader_done (h : NetOk wopt ropt batches) (fuel n : Nat)
    (hn : batches.flatten.length < n) :
    ∃ r, readerSide ropt (fuel+1) n (CFrame.wire ⟨.ready, Props.optCts wopt⟩ ++
        stream (Props.optCts wopt).head? batches.flatten) =
      .ok ((batches.flatten.map some, some .stop, .success, r),
        CFrame.wire ⟨.accept, common (Props.optR ropt).cts (Props.optCts wopt)⟩ ++
          CFrame.wire ⟨.finish, []⟩) ∧
      r.start = some ⟨T_START, (Props.optCts wopt).head?.toList⟩ ∧ r.state = .closed := by
  obtain ⟨n, rfl⟩ : ∃ m, n = m + 1 := ⟨n - 1, by omega⟩
  obtain ⟨r, e, s1, s2, s3, s4, s5, s6⟩ := reader_init_chan ropt
    (CFrame.wire ⟨.ready, Props.optCts wopt⟩ ++
        stream (Props.optCts wopt).head? batches.flatten)
  obtain ⟨rw, c, e2⟩ := chan_reader_open_accept s4 s5 s1 h.wcts
    (Nat.le_trans (wire_payload _) h.ready) (by rw [s2]; exact h.rcts) (by rw [s2]; exact h.acc)
  rw [s2] at c
  obtain ⟨st1, st2⟩ := startable h.wcts
  unfold stream at c
  rw [List.append_assoc] at c
  obtain ⟨r2, e3, c3⟩ := chan_openUni (r := { r with
          rdwr := rw, ready := some ⟨T_READY, Props.optCts wopt⟩,
          accept := some ⟨T_ACCEPT, common r.cts (Props.optCts wopt)⟩ }) c (startWF h.wcts) (Nat.le_trans (wire_payload _) st2)
      (by simp only [s2]; exact h.compat) s6
  obtain ⟨r3, e4, c4, c5, c6⟩ := ChR.loop r.maxFrameSize (Props.optCts wopt).head?.toList
    (CFrame.wire ⟨.accept, common (Props.optR ropt).cts (Props.optCts wopt)⟩) [] fuel
    batches.flatten (n+1) { r2 with state := .opened } (by
        intro d hd
        obtain ⟨b, hb, hd⟩ := List.mem_flatten.1 hd
        simp only [s3]
        exact h.frames b hb d hd)
    ⟨by rw [List.append_nil]; exact c3.ch, rfl, c3.max, c3.cap, c3.start⟩ hn
  obtain ⟨r4, e5, c7, c8, c9⟩ := chan_reader_close c4 c5
  refine ⟨r4, ?_, c8.trans c6, c9⟩
  unfold readerSide
  rw [e]
  simp only
  rw [readLoop_opening _ _ s1, e2, e3]
  simp only [Exec.ok_bind, ne_eq, not_true_eq_false, if_false, if_true]
  rw [e4]
  simp only [Exec.ok_bind, e5, c7]

/-! ### The writer -/

/-- Everything the writer sends. -/
abbrev netX (wopt : Option WriterOptions) (batches : List (List Bytes)) : Bytes :=
  CFrame.wire ⟨.ready, Props.optCts wopt⟩ ++ stream (Props.optCts wopt).head? batches.flatten

/-- The ACCEPT frame. -/
abbrev netA (wopt : Option WriterOptions) (ropt : Option ReaderOptions) : Bytes :=
  CFrame.wire ⟨.accept, common (Props.optR ropt).cts (Props.optCts wopt)⟩

/-- Everything the reader sends. -/
abbrev netY (wopt : Option WriterOptions) (ropt : Option ReaderOptions) : Bytes :=
  netA wopt ropt ++ CFrame.wire ⟨.finish, []⟩

theorem wire_finish_length : (CFrame.wire ⟨.finish, []⟩).length = 12 := by decide +kernel

theorem writer_at (h : NetOk wopt ropt batches) {y : Bytes} (hy : y <+: netY wopt ropt) :
    (y.length < (netA wopt ropt).length ∧
      writerSide wopt batches y = .error (.wait (CFrame.wire ⟨.ready, Props.optCts wopt⟩))) ∨
    ((netA wopt ropt).length ≤ y.length ∧ y ≠ netY wopt ropt ∧
      writerSide wopt batches y = .error (.wait (netX wopt batches))) ∨
    (y = netY wopt ropt ∧ ∃ w, writerSide wopt batches y =
      .ok ((List.replicate (batches.length + 2) .success, w), netX wopt batches) ∧
      w.start = some ⟨T_START, (Props.optCts wopt).head?.toList⟩ ∧ w.state = .closed) := by
  have hy2 := List.prefix_iff_eq_take.1 hy
  by_cases h1 : y.length < (netA wopt ropt).length
  · left
    refine ⟨h1, ?_⟩
    rw [List.take_append_of_le_length (by omega)] at hy2
    rw [hy2]
    exact h.writer_wait1 y.length h1
  · right
    by_cases h2 : y = netY wopt ropt
    · right
      refine ⟨h2, ?_⟩
      rw [h2]
      exact h.writer_done
    · left
      refine ⟨by omega, h2, ?_⟩
      have hlt : y.length < (netA wopt ropt).length + 12 := by
        have h3 : y.length ≤ (netY wopt ropt).length := hy.length_le
        have h4 : y.length ≠ (netY wopt ropt).length := fun h5 => h2 (hy.eq_of_length h5)
        rw [List.length_append, wire_finish_length] at h3 h4
        omega
      rw [take_append_ge (by omega)] at hy2
      rw [hy2]
      exact h.writer_wait2 _ (by omega)

theorem writer_sent (h : NetOk wopt ropt batches) {y : Bytes} (hy : y <+: netY wopt ropt) :
    sentBy (writerSide wopt batches y) = if y.length < (netA wopt ropt).length then
      CFrame.wire ⟨.ready, Props.optCts wopt⟩ else netX wopt batches := by
  rcases writer_at h hy with ⟨h1, h2⟩ | ⟨h1, _, h2⟩ | ⟨h1, w, h2, _⟩
  · rw [h2, if_pos h1]; rfl
  · rw [h2, if_neg (by omega)]; rfl
  · rw [h2, if_neg]
    · rfl
    · rw [h1, List.length_append]; omega

theorem writer_mono (h : NetOk wopt ropt batches) {y y' : Bytes}
    (hy : y' <+: netY wopt ropt) (hyy : y <+: y') :
    sentBy (writerSide wopt batches y) <+: sentBy (writerSide wopt batches y') := by
  rw [writer_sent h hy, writer_sent h (hyy.trans hy)]
  have := hyy.length_le
  split <;> split
  · exact List.prefix_refl _
  · exact List.prefix_append _ _
  · omega
  · exact List.prefix_refl _

end

end Fstrm
