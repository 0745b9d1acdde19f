import Verif.Lemmas.GetControl

/-!
# C76: the control frames reported by `fstrm_writer_get_control` and `fstrm_reader_get_control`
-/

set_option autoImplicit false

namespace Fstrm.Props

open Spec

variable {σ : Type}

private theorem getControl_val {w w' : Writer σ} {t : Nat} {res : Res} {c : Option Control}
    (h : w.getControl t = .ok (res, c, w')) (hs : w'.state = .opened) :
    (res = .success ↔ t ∈ [T_ACCEPT, T_FINISH, T_READY, T_START]) ∧
    (t = T_START → c = w'.start) ∧ (t = T_READY → c = w'.ready) ∧ (t = T_ACCEPT → c = w'.accept) ∧
    (t = T_FINISH → c = w'.finish) ∧ (t ∉ [T_ACCEPT, T_FINISH, T_READY, T_START] → c = none) := by
  unfold Writer.getControl at h
  obtain ⟨⟨res1, w1⟩, h1, h2⟩ := Exec.bind_eq_ok.1 h
  clear h
  have h := h2
  clear h2
  have hw : w' = w1 := by
    simp only at h
    repeat' split at h
    all_goals (cases h; rfl)
  subst hw
  have hres : res1 = .success := by
    by_cases hr : res1 = .success
    · exact hr
    · rcases maybeOpen_cases h1 with ⟨rfl, ho⟩ | ⟨ho, h1⟩
      · unfold Writer.maybeOpen at h1; rw [if_neg ho] at h1; cases h1; rfl
      · have := (open_frame h1).2.2.2 hr
        rw [hs, ho] at this; cases this
  subst hres
  simp only [ne_eq, not_true_eq_false, if_false] at h
  split at h
  · rename_i ht; subst ht; cases h; simp [T_START, T_STOP, T_READY, T_ACCEPT, T_FINISH]
  · split at h
    · rename_i ht; subst ht; cases h; simp [T_START, T_STOP, T_READY, T_ACCEPT, T_FINISH]
    · split at h
      · rename_i ht; subst ht; cases h; simp [T_START, T_STOP, T_READY, T_ACCEPT, T_FINISH]
      · split at h
        · rename_i ht; subst ht; cases h; simp [T_START, T_STOP, T_READY, T_ACCEPT, T_FINISH]
        · rename_i h1 h2 h3 h4
          cases h; simp_all

/-- **C76**, writer: in every history of calls, what an opened writer reports when asked for a control
frame is what was exchanged in the handshake of the present stream. `wrote` and `received` are
the bytes sent and received over the writer's whole life:
* over a transport without a read method START is the frame last sent before the data, with the first
  configured content type; the other frames do not exist, and NULL is reported for them;
* over one with a read method READY, with all configured content types, and START are the two
  frames last sent before the data, and ACCEPT is the frame last received;
* the call succeeds exactly for the four types of frame a writer deals with.
Partial: the full property also says that success means that a frame of the type asked for was
returned, which is false (`writer_get_control_null`, `writer_get_control_stale`). -/
theorem writer_get_control_partial (wopt : Option WriterOptions) (rdwr : Rdwr σ) (w w1 w2 : Writer σ)
    (calls : List WOp) (rs : List Res) (t : Nat) (res : Res) (c : Option Control)
    (hinit : Writer.init wopt rdwr = some w) (hrun : w.run calls = .ok (rs, w1))
    (h : w1.getControl t = .ok (res, c, w2)) (hopen : w2.state = .opened) :
    (res = .success ↔ t ∈ [T_ACCEPT, T_FINISH, T_READY, T_START]) ∧
    ∃ (pre : Bytes) (ct : Option Bytes) (data : List Bytes),
      (t = T_START → c = some ⟨T_START, ct.toList⟩) ∧
      (rdwr.ops.rd = none → ct = (optCts wopt).head? ∧
        wrote w2.rdwr.log =
          pre ++ CFrame.wire ⟨.start, ct.toList⟩ ++ data.flatMap Spec.dataFrame ∧
        (t ≠ T_START → c = none)) ∧
      (rdwr.ops.rd ≠ none →
        wrote w2.rdwr.log = pre ++ CFrame.wire ⟨.ready, optCts wopt⟩ ++
          CFrame.wire ⟨.start, ct.toList⟩ ++ data.flatMap Spec.dataFrame ∧
        (t = T_READY → c = some ⟨T_READY, optCts wopt⟩) ∧
        (t = T_ACCEPT → ∃ acts, CFrame.WF ⟨.accept, acts⟩ ∧ c = some ⟨T_ACCEPT, acts⟩ ∧
          CFrame.wire ⟨.accept, acts⟩ <:+ received w2.rdwr.log)) := by
  have hI := (Writer.init_keeps hinit).run hrun
  obtain ⟨r', hm, _⟩ := getControl_maybeOpen h
  have hI2 := hI.maybeOpen hm
  have f1 := run_frame hrun
  have f2 := getControl_frame h
  have hc : w.cts = optCts wopt ∧ w.rdwr = rdwr := by
    unfold Writer.init at hinit
    split at hinit
    · cases hinit
    · cases hinit; cases wopt <;> exact ⟨rfl, rfl⟩
  have hcts : w2.cts = optCts wopt := by rw [f2.1, f1.1, hc.1]
  have hops : w2.rdwr.ops = rdwr.ops := by rw [f2.2.ops, f1.2.ops, hc.2]
  obtain ⟨v1, v2, v3, v4, v5, v6⟩ := getControl_val h hopen
  obtain ⟨pre, ct, ds, k1, k2, k3⟩ := hI2.keeps hopen
  rw [hcts, hops] at k2 k3
  refine ⟨v1, pre, ct, ds, fun ht => (v2 ht).trans k1, fun hu => ?_, fun hb => ?_⟩
  · obtain ⟨a, b⟩ := k2 hu
    refine ⟨a, b, fun ht => ?_⟩
    obtain ⟨u1, u2, u3⟩ := hI2.uni (by rw [hops]; exact hu)
    by_cases h1 : t = T_READY
    · rw [v3 h1]; exact u1
    · by_cases h2 : t = T_ACCEPT
      · rw [v4 h2]; exact u2
      · by_cases h3 : t = T_FINISH
        · rw [v5 h3]; exact u3
        · exact v6 (by simp_all)
  · obtain ⟨a, b, acts, d, e, f⟩ := k3 hb
    exact ⟨b, fun ht => (v3 ht).trans a, fun ht => ⟨acts, d, (v4 ht).trans e, f⟩⟩

/-- A bidirectional writer asked for the ACCEPT frame after a write. -/
example : ∃ w rs w1 w2 acc, Writer.init (some ⟨[[5], [6]]⟩) (Rdwr.init (pipeOps true true)
      ⟨CFrame.wire ⟨.accept, [[5], [7]]⟩, [], false⟩) = some w ∧
    w.run [.write [1]] = .ok (rs, w1) ∧ w1.getControl T_ACCEPT = .ok (.success, some acc, w2) ∧
    acc.cts = [[5], [7]] ∧ w2.state = .opened :=
  ⟨_, _, _, _, _, rfl, rfl, rfl, rfl, rfl⟩

/-- **C76**, writer, FINISH: after a successful close over a transport with a read method the
FINISH frame is reported, and it is the frame last received. -/
theorem writer_get_finish (w w1 : Writer σ) (hs : w.state = .opened)
    (h : w.close = .ok (.success, w1)) (hrd : w.rdwr.ops.rd ≠ none) :
    w1.getControl T_FINISH = .ok (.success, some ⟨T_FINISH, []⟩, w1) ∧
    received w1.rdwr.log = received w.rdwr.log ++ CFrame.wire ⟨.finish, []⟩ := by
  have hcl := (close_frame h).2.2.2 hs
  have hget : w1.getControl T_FINISH = .ok (.success, w1.finish, w1) := by
    unfold Writer.getControl Writer.maybeOpen
    rw [if_neg (by rw [hcl]; simp)]; rfl
  obtain ⟨_, hf, _⟩ := writer_close_finish w w1 hs h
  obtain ⟨cts, wf, hrec⟩ := hf hrd
  have hz : cts = [] := by
    have h5 := wf.2 0 rfl
    simpa using h5
  subst hz
  refine ⟨?_, hrec⟩
  rw [hget]
  unfold Writer.close at h
  rw [if_neg (by simp [hs])] at h
  simp only at h
  rw [writeControl_stop] at h
  obtain ⟨⟨res1, rw1⟩, h1, h⟩ := Exec.bind_eq_ok.1 h
  have ho := (Rdwr.write_ok h1).1
  simp only at h
  split at h
  · rename_i hne
    obtain ⟨⟨rc, rw2⟩, h2, h⟩ := Exec.bind_eq_ok.1 h
    simp only [Except.ok.injEq, Prod.mk.injEq] at h
    exact absurd h.1 hne
  · rw [ho] at h
    simp only [Option.isSome_iff_ne_none.2 hrd, if_true] at h
    obtain ⟨⟨res2, fin, rw2⟩, h2, h⟩ := Exec.bind_eq_ok.1 h
    simp only at h
    split at h
    · rename_i hne
      obtain ⟨⟨rc, rw3⟩, h3, h⟩ := Exec.bind_eq_ok.1 h
      simp only [Except.ok.injEq, Prod.mk.injEq] at h
      exact absurd h.1 hne
    · rename_i hs2
      have hs2 : res2 = .success := by simpa using hs2
      subst hs2
      obtain ⟨⟨rc, rw3⟩, h3, h⟩ := Exec.bind_eq_ok.1 h
      cases h
      obtain ⟨_, _, _, p4, ⟨ft, fc⟩, q1, _, q3, q4, q5⟩ := readControl_success h2
      have hft : ft = .finish := CType.code_inj q3
      subst hft
      have h5 := q1.2 0 rfl
      simp only [Nat.le_zero, List.length_eq_zero_iff] at h5
      subst h5
      subst q4
      rfl

/-- A bidirectional writer whose peer accepts and finishes. -/
example : ∃ w rs w1 w2, Writer.init none (Rdwr.init (pipeOps true true)
      ⟨CFrame.wire ⟨.accept, []⟩ ++ CFrame.wire ⟨.finish, []⟩, [], false⟩) = some w ∧
    w.run [.write [1]] = .ok (rs, w1) ∧ w1.state = .opened ∧ w1.rdwr.ops.rd ≠ none ∧
    w1.close = .ok (.success, w2) :=
  ⟨_, _, _, _, rfl, rfl, rfl, by simp [pipeOps, Rdwr.init], rfl⟩

/-- The documented reading of the result, "success: if an fstrm_control object was returned", is not
what the code does: a writer over a transport without a read method reports success when asked for the
ACCEPT frame and stores NULL. -/
theorem writer_get_control_null :
    ∃ (w w1 : Writer Pipe),
      Writer.init none (Rdwr.init (pipeOps false true) ⟨[], [], false⟩) = some w ∧
      w.getControl T_ACCEPT = .ok (.success, none, w1) ∧ w1.state = .opened :=
  ⟨_, _, rfl, rfl, rfl⟩

/-- Nor is what is reported always a frame of the type asked for: when a closed writer is opened again
and the peer's answer is not an ACCEPT frame, the open fails, but asking for the ACCEPT frame
still succeeds, and stores the frame that was received instead. -/
theorem writer_get_control_stale :
    ∃ (w w1 w2 : Writer Pipe),
      Writer.init none (Rdwr.init (pipeOps true true)
        ⟨CFrame.wire ⟨.accept, []⟩ ++ CFrame.wire ⟨.finish, []⟩ ++ CFrame.wire ⟨.finish, []⟩,
          [], false⟩) = some w ∧
      w.run [.opn, .close, .opn] = .ok ([.success, .success, .failure], w1) ∧
      w1.getControl T_ACCEPT = .ok (.success, some ⟨T_FINISH, []⟩, w2) :=
  ⟨_, _, _, rfl, rfl, rfl⟩

private theorem reader_getControl_val {r r' : Reader σ} {t : Nat} {res : Res} {c : Option Control}
    (h : r.getControl t = .ok (res, c, r')) (hs : r'.state ≠ .opening) :
    (res = .success ↔ t ∈ [T_START, T_STOP, T_READY, T_ACCEPT]) ∧
    (t = T_START → c = r'.start) ∧ (t = T_READY → c = r'.ready) ∧ (t = T_ACCEPT → c = r'.accept) ∧
    (t = T_STOP → c = r'.stop) ∧ (t ∉ [T_START, T_STOP, T_READY, T_ACCEPT] → c = none) := by
  unfold Reader.getControl at h
  obtain ⟨⟨res1, r1⟩, h1, h2⟩ := Exec.bind_eq_ok.1 h
  clear h
  have h := h2
  clear h2
  have hw : r' = r1 := by
    simp only at h
    repeat' split at h
    all_goals (cases h; rfl)
  subst hw
  have hres : res1 = .success := by
    by_cases hr : res1 = .success
    · exact hr
    · rcases reader_maybeOpen_cases h1 with ⟨_, h, _⟩ | ⟨ho, h1⟩
      · exact h
      · have := ((reader_open_ok h1).2.2.2.2.1 hr).1
        rw [ho] at this; exact absurd this hs
  subst hres
  simp only [ne_eq, not_true_eq_false, if_false] at h
  split at h
  · rename_i ht; subst ht; cases h; simp [T_START, T_STOP, T_READY, T_ACCEPT, T_FINISH]
  · split at h
    · rename_i ht; subst ht; cases h; simp [T_START, T_STOP, T_READY, T_ACCEPT, T_FINISH]
    · split at h
      · rename_i ht; subst ht; cases h; simp [T_START, T_STOP, T_READY, T_ACCEPT, T_FINISH]
      · split at h
        · rename_i ht; subst ht; cases h; simp [T_START, T_STOP, T_READY, T_ACCEPT, T_FINISH]
        · rename_i h1 h2 h3 h4
          cases h; simp_all

/-- **C76**, reader: in every history of calls, what an opened reader reports when asked for START,
READY or ACCEPT is what was exchanged in the handshake of the present stream:
* START is the frame last received before the data and other control frames of the stream;
* over a transport without a write method there are no READY and ACCEPT frames, and NULL is
  reported for them;
* over one with a write method READY is the frame received before START, and ACCEPT,
  which has the content types common to READY and the configuration, is the frame last sent;
* the call succeeds exactly for the four types of frame a reader keeps.
Partial: the full property also says that success means that a frame was returned, which is false
(`reader_get_control_null`). -/
theorem reader_get_control_partial (fuel : Nat) (ropt : Option ReaderOptions) (rdwr : Rdwr σ)
    (r r1 r2 : Reader σ) (calls : List ROp) (rs : List (Res × Option Bytes)) (t : Nat) (res : Res)
    (c : Option Control)
    (hinit : Reader.init ropt rdwr = some r) (hrun : r.run fuel calls = .ok (rs, r1))
    (h : r1.getControl t = .ok (res, c, r2)) (hopen : r2.state = .opened) :
    (res = .success ↔ t ∈ [T_START, T_STOP, T_READY, T_ACCEPT]) ∧
    ∃ (pre : Bytes) (sct : List Bytes) (items : List Item), CFrame.WF ⟨.start, sct⟩ ∧
      (t = T_START → c = some ⟨T_START, sct⟩) ∧
      (rdwr.ops.wr = none →
        received r2.rdwr.log = pre ++ CFrame.wire ⟨.start, sct⟩ ++ wires items ∧
        (t = T_READY ∨ t = T_ACCEPT → c = none)) ∧
      (rdwr.ops.wr ≠ none → ∃ offer, CFrame.WF ⟨.ready, offer⟩ ∧
        received r2.rdwr.log = pre ++ CFrame.wire ⟨.ready, offer⟩ ++
          CFrame.wire ⟨.start, sct⟩ ++ wires items ∧
        CFrame.wire ⟨.accept, common (optR ropt).cts offer⟩ <:+ wrote r2.rdwr.log ∧
        (t = T_READY → c = some ⟨T_READY, offer⟩) ∧
        (t = T_ACCEPT → c = some ⟨T_ACCEPT, common (optR ropt).cts offer⟩)) := by
  have hI0 := Reader.init_keeps hinit
  have hI := hI0.run hrun
  obtain ⟨r', hm, _⟩ := reader_getControl_ok h
  have hI2 := hI.maybeOpen hm
  have f1 := reader_run_kept hI0.cap hrun
  have f2 := reader_maybeOpen_kept hm
  have hc : r.cts = (optR ropt).cts ∧ r.rdwr = rdwr := by
    unfold Reader.init at hinit
    simp only at hinit
    split at hinit
    · cases hinit
    · cases hinit; cases ropt <;> exact ⟨rfl, rfl⟩
  have hcts : r2.cts = (optR ropt).cts := by rw [f2.cts, f1.cts, hc.1]
  have hops : r2.rdwr.ops = rdwr.ops := by rw [f2.reach.ops, f1.reach.ops, hc.2]
  obtain ⟨v1, v2, v3, v4, v5, v6⟩ := reader_getControl_val h (by rw [hopen]; simp)
  obtain ⟨pre, sct, items, k0, k1, k2, k3⟩ := hI2.keeps hopen
  rw [hcts, hops] at k3
  rw [hops] at k2
  refine ⟨v1, pre, sct, items, k0, fun ht => (v2 ht).trans k1, fun hu => ⟨k2 hu, ?_⟩, fun hb => ?_⟩
  · obtain ⟨u1, u2⟩ := hI2.uni (by rw [hops]; exact hu)
    rintro (ht | ht)
    · rw [v3 ht]; exact u1
    · rw [v4 ht]; exact u2
  · obtain ⟨offer, a, b, d, e, f⟩ := k3 hb
    exact ⟨offer, a, d, f, fun ht => (v3 ht).trans b, fun ht => (v4 ht).trans e⟩

/-- A bidirectional reader asked for the READY frame after a read. -/
example : ∃ r rs r1 r2 rdy, Reader.init (some ⟨[[5], [6]], 512⟩) (Rdwr.init (pipeOps true true)
      ⟨CFrame.wire ⟨.ready, [[5], [7]]⟩ ++ CFrame.wire ⟨.start, [[5]]⟩ ++ Spec.dataFrame [1, 2],
        [], false⟩) = some r ∧
    r.run 9 [.read] = .ok (rs, r1) ∧ r1.getControl T_READY = .ok (.success, some rdy, r2) ∧
    rdy.cts = [[5], [7]] ∧ r2.state = .opened :=
  ⟨_, _, _, _, _, rfl, rfl, rfl, rfl, rfl⟩

/-- **C76**, reader, end of stream: after a read that reports the end of the stream the STOP frame
is reported, and it is the frame last received, while START, READY and ACCEPT are
reported as before that read. -/
theorem reader_get_stop (fuel : Nat) (r r1 : Reader σ) (d : Option Bytes) (hcap : 1 ≤ r.bufCap)
    (hs : r.state = .opened) (h : r.read fuel = .ok (.stop, d, r1)) (hstop : r1.state = .closing) :
    r1.getControl T_STOP = .ok (.success, some ⟨T_STOP, []⟩, r1) ∧
    CFrame.wire ⟨.stop, []⟩ <:+ received r1.rdwr.log ∧
    ∀ t, t ∈ [T_START, T_READY, T_ACCEPT] →
      ∃ c, r.getControl t = .ok (.success, c, r) ∧ r1.getControl t = .ok (.success, c, r1) := by
  have hm : r.maybeOpen = .ok (.success, r) := by
    unfold Reader.maybeOpen; rw [if_neg (by rw [hs]; simp)]
  have hm1 : r1.maybeOpen = .ok (.success, r1) := by
    unfold Reader.maybeOpen; rw [if_neg (by rw [hstop]; simp)]
  obtain ⟨res1, r2, h1, h⟩ := reader_read_cases h
  rw [hm] at h1
  cases h1
  rcases h with ⟨h, _⟩ | ⟨_, _, h⟩ | ⟨_, h, _⟩ | ⟨_, h, _⟩
  · exact absurd rfl h
  · obtain ⟨skipped, _, hn, _, _⟩ := nextData_next fuel hcap h
    obtain ⟨e1, e2, e3⟩ := nextData_kept_frames fuel h
    cases hn with
    | stop _ a b _ hrec =>
      refine ⟨?_, ⟨_, by rw [hrec, List.append_assoc]⟩, ?_⟩
      · unfold Reader.getControl; rw [hm1]
        refine Eq.trans ?_ (congrArg (fun x => (Except.ok (Res.success, x, r1) : Exec _)) b)
        rfl
      · intro t ht
        simp only [List.mem_cons, List.not_mem_nil, or_false] at ht
        rcases ht with rfl | rfl | rfl
        · refine ⟨r.start, ?_, ?_⟩
          · unfold Reader.getControl; rw [hm]; rfl
          · unfold Reader.getControl; rw [hm1, ← e1]; rfl
        · refine ⟨r.ready, ?_, ?_⟩
          · unfold Reader.getControl; rw [hm]; rfl
          · unfold Reader.getControl; rw [hm1, ← e2]; rfl
        · refine ⟨r.accept, ?_, ?_⟩
          · unfold Reader.getControl; rw [hm]; rfl
          · unfold Reader.getControl; rw [hm1, ← e3]; rfl
    | fails _ _ _ h5 => rw [h5] at hstop; cases hstop
  · rw [hs] at h; cases h
  · exact absurd hs h

/-- A reader that reaches the end of its stream. -/
example : ∃ r r0 r1, Reader.init none (Rdwr.init (pipeOps true false)
      ⟨CFrame.wire ⟨.start, [[5]]⟩ ++ CFrame.wire ⟨.stop, []⟩, [], false⟩) = some r ∧
    r.open = .ok (.success, r0) ∧ 1 ≤ r0.bufCap ∧ r0.state = .opened ∧
    r0.read 9 = .ok (.stop, none, r1) ∧ r1.state = .closing :=
  ⟨_, _, _, rfl, rfl, by decide, rfl, rfl, rfl⟩

/-- For a reader, too, success does not mean that a control frame was returned. -/
theorem reader_get_control_null :
    ∃ (r r1 : Reader Pipe), Reader.init none (Rdwr.init (pipeOps true false)
        ⟨CFrame.wire ⟨.start, [[5]]⟩, [], false⟩) = some r ∧
      r.getControl T_STOP = .ok (.success, none, r1) ∧ r1.state = .opened :=
  ⟨_, _, rfl, rfl, rfl⟩

end Fstrm.Props
