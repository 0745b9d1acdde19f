import Verif.Lemmas.Pipe
import Verif.Props.Net

/-!
# C27: no deadlock when the pipes between writer and reader hold only so many bytes

`Spec/Pipe.lean` says how such pipes work. `Props/Net.lean` has the theorem for unlimited ones.
-/

set_option autoImplicit false

namespace Fstrm.Props

open Spec

section
variable {wopt : Option WriterOptions} {ropt : Option ReaderOptions} {batches : List (List Bytes)}

/-- What a side sends in total over a pipe that takes `c` bytes. -/
theorem writerPipe_cut (wopt : Option WriterOptions) (batches : List (List Bytes)) (c : Nat)
    (y : Bytes) :
    (∀ rs w o, writerSide wopt batches y = .ok ((rs, w), o) →
      writerPipe wopt batches c y =
        if o.length ≤ c then .ok ((rs, Pipe.lim c w), o) else .error (.full (o.take c))) ∧
    (∀ o, writerSide wopt batches y = .error (.wait o) →
      writerPipe wopt batches c y =
        if o.length ≤ c then .error (.wait o) else .error (.full (o.take c))) := by
  obtain ⟨w, e, -, -, h3, h4, -⟩ := writer_init_chan wopt y
  have e' : Writer.init wopt (Rdwr.init (pipeOps c) ⟨y, []⟩) = some (Pipe.lim c w) := by
    unfold Writer.init at e ⊢
    rw [if_neg (by simp [Rdwr.init, chanOps])] at e
    rw [if_neg (by simp [Rdwr.init, pipeOps, chanOps])]
    cases e
    rfl
  unfold writerSide writerPipe
  rw [e, e']
  dsimp only
  have hc := Writer.run_cut (c := c) (.opn :: (batches.map .writev ++ [.close])) w h3
  rw [h4] at hc
  constructor
  · intro rs w' o h
    obtain ⟨⟨rs1, w1⟩, e1, h⟩ := Exec.bind_eq_ok.1 h
    cases h
    rw [hc.ok (Nat.zero_le _) _ e1]
    dsimp only [Pipe.out]
    split <;> rfl
  · intro o h
    cases hx : w.run (.opn :: (batches.map .writev ++ [.close])) with
    | ok p => rw [hx] at h; cases h
    | error e1 =>
      rw [hx] at h
      cases h
      rw [hc.wait (Nat.zero_le _) _ hx]
      split <;> rfl

theorem readerPipe_cut (ropt : Option ReaderOptions) (fuel n c : Nat) (x : Bytes) :
    (∀ ds last res r o, readerSide ropt fuel n x = .ok ((ds, last, res, r), o) →
      readerPipe ropt fuel n c x =
        if o.length ≤ c then .ok ((ds, last, res, Pipe.lim c r), o) else .error (.full (o.take c))) ∧
    (∀ o, readerSide ropt fuel n x = .error (.wait o) →
      readerPipe ropt fuel n c x =
        if o.length ≤ c then .error (.wait o) else .error (.full (o.take c))) := by
  obtain ⟨r, e, -, -, -, h3, h4, -⟩ := reader_init_chan ropt x
  have e' : Reader.init ropt (Rdwr.init (pipeOps c) ⟨x, []⟩) = some (Pipe.lim c r) := by
    unfold Reader.init at e ⊢
    simp only at e ⊢
    rw [if_neg (by simp [Rdwr.init, chanOps])] at e
    rw [if_neg (by simp [Rdwr.init, pipeOps, chanOps])]
    cases e
    rfl
  have hc : Cut c [] (do
      let (ds, last, r) ← Reader.readLoop fuel n r
      let (res, r) ← r.close
      .ok (ds, last, res, r)) (do
      let (ds, last, r) ← Reader.readLoop fuel n (Pipe.lim c r)
      let (res, r) ← r.close
      .ok (ds, last, res, r)) := by
    have h0 := Reader.readLoop_cut (c := c) fuel n r h3
    rw [h4] at h0
    refine h0.bind fun ⟨ds, last, r⟩ _ h => ?_
    refine (r.close_cut h).bind fun ⟨res, r⟩ _ h => ?_
    exact .same _ rfl h
  have es : ∀ z : Reader Chan, (do
      let (ds, last, r) ← Reader.readLoop fuel n z
      let (res, r) ← r.close
      .ok ((ds, last, res, r), r.rdwr.obj.out) : Exec _) = (do
      let q ← (do
        let (ds, last, r) ← Reader.readLoop fuel n z
        let (res, r) ← r.close
        .ok (ds, last, res, r) : Exec (List (Option Bytes) × Option Res × Res × Reader Chan))
      .ok (q, q.2.2.2.rdwr.obj.out)) := by
    intro z
    cases Reader.readLoop fuel n z with
    | error e => rfl
    | ok p =>
      simp only [Exec.ok_bind]
      cases p.2.2.close with
      | error e => rfl
      | ok p => rfl
  unfold readerSide readerPipe
  rw [e, e']
  dsimp only
  rw [es r, es]
  constructor
  · intro ds last res r' o h
    obtain ⟨q, e1, h⟩ := Exec.bind_eq_ok.1 h
    cases h
    rw [hc.ok (Nat.zero_le _) _ e1]
    dsimp only [Pipe.out]
    split <;> rfl
  · intro o h
    generalize hq : (do
        let (ds, last, r) ← Reader.readLoop fuel n r
        let (res, r) ← r.close
        .ok (ds, last, res, r) : Exec (List (Option Bytes) × Option Res × Res × Reader Chan)) = q at h hc
    cases q with
    | ok p => cases h
    | error e1 =>
      cases h
      rw [hc.wait (Nat.zero_le _) _ rfl]
      split <;> rfl

private theorem writerPipe_sent (h : NetOk wopt ropt batches) (c : Nat) {y : Bytes}
    (hy : y <+: netY wopt ropt) :
    sentBy (writerPipe wopt batches c y) = (sentBy (writerSide wopt batches y)).take c := by
  obtain ⟨c1, c2⟩ := writerPipe_cut wopt batches c y
  rcases writer_at h hy with ⟨_, h2⟩ | ⟨_, _, h2⟩ | ⟨_, w, h2, _⟩
  · rw [c2 _ h2, h2]
    split
    · exact (List.take_of_length_le (by assumption)).symm
    · rfl
  · rw [c2 _ h2, h2]
    split
    · exact (List.take_of_length_le (by assumption)).symm
    · rfl
  · rw [c1 _ _ _ h2, h2]
    split
    · exact (List.take_of_length_le (by assumption)).symm
    · rfl

private theorem readerPipe_sent (h : NetOk wopt ropt batches) (fuel n c : Nat)
    (hn : batches.flatten.length < n) {x : Bytes} (hx : x <+: netX wopt batches) :
    sentBy (readerPipe ropt (fuel+1) n c x) = (sentBy (readerSide ropt (fuel+1) n x)).take c := by
  obtain ⟨c1, c2⟩ := readerPipe_cut ropt (fuel+1) n c x
  rcases reader_at h fuel n hn hx with ⟨_, h2⟩ | ⟨_, _, h2⟩ | ⟨_, w, h2, _⟩
  · rw [c2 _ h2, h2]
    split
    · exact (List.take_of_length_le (by assumption)).symm
    · rfl
  · rw [c2 _ h2, h2]
    split
    · exact (List.take_of_length_le (by assumption)).symm
    · rfl
  · rw [c1 _ _ _ _ _ h2, h2]
    split
    · exact (List.take_of_length_le (by assumption)).symm
    · rfl

/-- Every reachable state is reachable with unlimited pipes. -/
theorem pipe_net (h : NetOk wopt ropt batches) (fuel n cw cr : Nat)
    (hn : batches.flatten.length < n) {k : Nat} {s : Net}
    (hr : PipeRun cw cr (writerPipe wopt batches) (readerPipe ropt (fuel+1) n) k s) :
    NetRun (writerSide wopt batches) (readerSide ropt (fuel+1) n) k s ∧
      k = s.toReader.length + s.toWriter.length := by
  induction hr with
  | start => exact ⟨.start, rfl⟩
  | step _ hd ih =>
    obtain ⟨ih, hk⟩ := ih
    have inv := netInv h fuel n hn ih
    cases hd with
    | toReader x y o b hp hw =>
      rw [writerPipe_sent h _ inv.ty] at hp
      refine ⟨ih.step (.toReader x y [b] (by simp) (hp.trans (List.take_prefix _ _))), ?_⟩
      simp only [List.length_append, List.length_singleton] at *
      omega
    | toWriter x y o b hp hw =>
      rw [readerPipe_sent h _ _ _ hn inv.tx] at hp
      refine ⟨ih.step (.toWriter x y [b] (by simp) (hp.trans (List.take_prefix _ _))), ?_⟩
      simp only [List.length_append, List.length_singleton] at *
      omega

/-- If not everything has been read, there is a next byte to read. -/
theorem next_byte {x z : Bytes} {c : Nat} (h : x <+: z) (hlt : x.length < z.length)
    (hc : 1 ≤ c) : ∃ b, x ++ [b] <+: z.take (x.length + c) := by
  obtain ⟨t, rfl⟩ := h
  cases t with
  | nil => simp at hlt
  | cons b t =>
    refine ⟨b, t.take (c - 1), ?_⟩
    rw [List.take_append, List.take_of_length_le (l := x) (by omega)]
    obtain ⟨c, rfl⟩ : ∃ d, c = d + 1 := ⟨c - 1, by omega⟩
    rw [show x.length + (c + 1) - x.length = c + 1 by omega]
    simp

end

/-- **C27 with pipes of any capacity.** The two programs of `net_no_deadlock_partial`, over pipes
that hold at most `cw` bytes (from the writer to the reader) and `cr` bytes (the other way) that were
sent and not read yet; each capacity is at least one byte. A side whose pipe is full blocks in its
write call and does not read. Then, whichever side goes next:

* one byte is moved in every step, and there are at most as many steps as bytes in the whole
  conversation, so every execution ends;
* in every reachable state each side is waiting for input, blocked because its pipe is full, or
  has finished successfully;
* it only ends with both finished: when nothing can move, all calls of the writer have succeeded,
  the reader has delivered exactly the submitted frames, has been told to stop and has closed
  successfully, and both agree on the content type in START.

Missing for the full property: as in `net_no_deadlock_partial`. -/
theorem net_no_deadlock_capacity_partial (wopt : Option WriterOptions) (ropt : Option ReaderOptions)
    (batches : List (List Bytes)) (fuel n cw cr : Nat)
    (hwcts : ∀ c ∈ optCts wopt, c.length ≤ 256)
    (hready : (CFrame.wire ⟨.ready, optCts wopt⟩).length ≤ 512)
    (hrcts : ∀ c ∈ (optR ropt).cts, c.length ≤ 256)
    (haccept : (CFrame.wire ⟨.accept, common (optR ropt).cts (optCts wopt)⟩).length ≤ 512)
    (hagree : ∀ c, (optCts wopt).head? = some c → (optR ropt).cts = [] ∨ c ∈ (optR ropt).cts)
    (hcount : ∀ b ∈ batches, b.length ≤ 1073741823)
    (hframes : ∀ b ∈ batches, ∀ d ∈ b, 1 ≤ d.length ∧ d.length ≤ (optR ropt).maxFrameSize ∧
      d.length < 2^32)
    (hfuel : 1 ≤ fuel) (hn : batches.flatten.length < n) (hcw : 1 ≤ cw) (hcr : 1 ≤ cr)
    (k : Nat) (s : Net)
    (hr : PipeRun cw cr (writerPipe wopt batches) (readerPipe ropt fuel n) k s) :
    k ≤ (CFrame.wire ⟨.ready, optCts wopt⟩).length +
        (stream (optCts wopt).head? batches.flatten).length +
        (CFrame.wire ⟨.accept, common (optR ropt).cts (optCts wopt)⟩).length +
        (CFrame.wire ⟨.finish, []⟩).length ∧
    ((∃ o, writerPipe wopt batches (s.toReader.length + cw) s.toWriter = .error (.wait o)) ∨
      (∃ o, writerPipe wopt batches (s.toReader.length + cw) s.toWriter = .error (.full o) ∧
        o.length = s.toReader.length + cw) ∨
      ∃ w o, writerPipe wopt batches (s.toReader.length + cw) s.toWriter =
        .ok ((List.replicate (batches.length + 2) .success, w), o)) ∧
    ((∃ o, readerPipe ropt fuel n (s.toWriter.length + cr) s.toReader = .error (.wait o)) ∨
      (∃ o, readerPipe ropt fuel n (s.toWriter.length + cr) s.toReader = .error (.full o) ∧
        o.length = s.toWriter.length + cr) ∨
      ∃ r o, readerPipe ropt fuel n (s.toWriter.length + cr) s.toReader =
        .ok ((batches.flatten.map some, some .stop, .success, r), o)) ∧
    (PipeStuck cw cr (writerPipe wopt batches) (readerPipe ropt fuel n) s →
      ∃ w r o o', writerPipe wopt batches (s.toReader.length + cw) s.toWriter =
          .ok ((List.replicate (batches.length + 2) .success, w), o) ∧
        readerPipe ropt fuel n (s.toWriter.length + cr) s.toReader =
          .ok ((batches.flatten.map some, some .stop, .success, r), o') ∧
        w.state = .closed ∧ r.state = .closed ∧
        w.start = some ⟨T_START, (optCts wopt).head?.toList⟩ ∧ r.start = w.start) := by
  obtain ⟨fuel, rfl⟩ : ∃ m, fuel = m + 1 := ⟨fuel - 1, by omega⟩
  have h : NetOk wopt ropt batches := ⟨hwcts, hready, hrcts, haccept, hagree, hcount, hframes⟩
  obtain ⟨hnet, hk⟩ := pipe_net h fuel n cw cr hn hr
  have inv := netInv h fuel n hn hnet
  obtain ⟨x, y⟩ := s
  obtain ⟨ix, iy, tx, ty, -⟩ := inv
  simp only at ix iy tx ty hk ⊢
  obtain ⟨w1, w2⟩ := writerPipe_cut wopt batches (x.length + cw) y
  obtain ⟨r1, r2⟩ := readerPipe_cut ropt (fuel+1) n (y.length + cr) x
  refine ⟨?_, ?_, ?_, ?_⟩
  · have h2 := tx.length_le
    have h3 := ty.length_le
    simp only [netA, List.length_append] at h2 h3
    omega
  · have wait : ∀ o, writerSide wopt batches y = .error (.wait o) →
        (∃ o, writerPipe wopt batches (x.length + cw) y = .error (.wait o)) ∨
        (∃ o, writerPipe wopt batches (x.length + cw) y = .error (.full o) ∧
          o.length = x.length + cw) ∨
        ∃ w o, writerPipe wopt batches (x.length + cw) y =
          .ok ((List.replicate (batches.length + 2) .success, w), o) := fun o h2 => by
      have := w2 _ h2
      by_cases hle : o.length ≤ x.length + cw
      · rw [if_pos hle] at this; exact Or.inl ⟨_, this⟩
      · rw [if_neg hle] at this
        exact Or.inr (Or.inl ⟨_, this, by rw [List.length_take]; omega⟩)
    rcases writer_at h ty with ⟨_, h2⟩ | ⟨_, _, h2⟩ | ⟨_, w, h2, _⟩
    · exact wait _ h2
    · exact wait _ h2
    · have := w1 _ _ _ h2
      by_cases hle : (netX wopt batches).length ≤ x.length + cw
      · rw [if_pos hle] at this; exact Or.inr (Or.inr ⟨_, _, this⟩)
      · rw [if_neg hle] at this
        exact Or.inr (Or.inl ⟨_, this, by rw [List.length_take]; omega⟩)
  · have wait : ∀ o, readerSide ropt (fuel+1) n x = .error (.wait o) →
        (∃ o, readerPipe ropt (fuel+1) n (y.length + cr) x = .error (.wait o)) ∨
        (∃ o, readerPipe ropt (fuel+1) n (y.length + cr) x = .error (.full o) ∧
          o.length = y.length + cr) ∨
        ∃ r o, readerPipe ropt (fuel+1) n (y.length + cr) x =
          .ok ((batches.flatten.map some, some .stop, .success, r), o) := fun o h2 => by
      have := r2 _ h2
      by_cases hle : o.length ≤ y.length + cr
      · rw [if_pos hle] at this; exact Or.inl ⟨_, this⟩
      · rw [if_neg hle] at this
        exact Or.inr (Or.inl ⟨_, this, by rw [List.length_take]; omega⟩)
    rcases reader_at h fuel n hn tx with ⟨_, h2⟩ | ⟨_, _, h2⟩ | ⟨_, w, h2, _⟩
    · exact wait _ h2
    · exact wait _ h2
    · have := r1 _ _ _ _ _ h2
      by_cases hle : (netY wopt ropt).length ≤ y.length + cr
      · rw [if_pos hle] at this; exact Or.inr (Or.inr ⟨_, _, this⟩)
      · rw [if_neg hle] at this
        exact Or.inr (Or.inl ⟨_, this, by rw [List.length_take]; omega⟩)
  · intro hq
    have goR : ∀ o, readerPipe ropt (fuel+1) n (y.length + cr) x = .error (.wait o) →
        ¬ x.length < (sentBy (writerSide wopt batches y)).length := fun o ho hlt => by
      obtain ⟨b, hb⟩ := next_byte ix hlt hcw
      rw [← writerPipe_sent h _ ty] at hb
      exact hq _ (.toReader x y o b hb ho)
    have goW : ∀ o, writerPipe wopt batches (x.length + cw) y = .error (.wait o) →
        ¬ y.length < (sentBy (readerSide ropt (fuel+1) n x)).length := fun o ho hlt => by
      obtain ⟨b, hb⟩ := next_byte iy hlt hcr
      rw [← readerPipe_sent h _ _ _ hn tx] at hb
      exact hq _ (.toWriter x y o b hb ho)
    have ws := writer_sent h ty
    rcases reader_at h fuel n hn tx with ⟨h1, h2⟩ | ⟨h1, h3, h2⟩ | ⟨h1, r, h2, h4, h5⟩
    · exfalso
      have e := r2 _ h2
      rw [if_pos (by simp)] at e
      refine goR _ e ?_
      rw [ws]
      split
      · exact h1
      · rw [List.length_append]; omega
    · exfalso
      have hy : y <+: netA wopt ropt := by rw [h2] at iy; exact iy
      by_cases hlt : y.length < (netA wopt ropt).length
      · rcases writer_at h ty with ⟨_, g2⟩ | ⟨g1, _⟩ | ⟨g1, _⟩
        · have e := w2 _ g2
          rw [if_pos (by omega)] at e
          refine goW _ e ?_
          rw [h2]
          exact hlt
        · omega
        · rw [g1, List.length_append] at hlt; omega
      · have e := r2 _ h2
        rw [if_pos (by omega)] at e
        refine goR _ e ?_
        rw [ws, if_neg hlt]
        have h6 := tx.length_le
        have h7 : x.length ≠ (netX wopt batches).length := fun h8 => h3 (tx.eq_of_length h8)
        omega
    · have hx1 : 1 ≤ (stream (optCts wopt).head? batches.flatten).length := by
        unfold stream
        rw [List.length_append, show (CFrame.wire ⟨.stop, []⟩).length = 12 by decide +kernel]
        omega
      have hnotA : ¬ y.length < (netA wopt ropt).length := by
        intro hlt
        rw [ws, if_pos hlt, h1] at ix
        have := ix.length_le
        rw [List.length_append] at this
        omega
      rcases writer_at h ty with ⟨g1, _⟩ | ⟨_, g1, g2⟩ | ⟨g1, w, g2, g3, g4⟩
      · exact absurd g1 hnotA
      · exfalso
        have e := w2 _ g2
        rw [if_pos (by rw [h1]; omega)] at e
        refine goW _ e ?_
        rw [h2]
        have h6 := ty.length_le
        have h7 : y.length ≠ (netY wopt ropt).length := fun h8 => g1 (ty.eq_of_length h8)
        show y.length < (netY wopt ropt).length
        omega
      · have e1 := w1 _ _ _ g2
        rw [if_pos (by rw [h1]; omega)] at e1
        have e2 := r1 _ _ _ _ _ h2
        rw [if_pos (by rw [g1]; omega)] at e2
        exact ⟨_, _, _, _, e1, e2, g4, h5, g3, h4.trans g3.symm⟩

/-! ### The hypotheses can be met: both pipes hold a single byte -/

private def exW : Option WriterOptions := some ⟨[[1], [2]]⟩
private def exR : Option ReaderOptions := some ⟨[[3], [1]], 1000⟩
private def exB : List (List Bytes) := [[[7], [8, 9]], [], [[10]]]

private def exX : Bytes := CFrame.wire ⟨.ready, [[1], [2]]⟩ ++ stream (some [1]) [[7], [8, 9], [10]]
private def exA : Bytes := CFrame.wire ⟨.accept, [[1]]⟩

/-- READY and ACCEPT are exchanged byte by byte. -/
private theorem exRun (i : Nat) (hi : i ≤ 30) :
    PipeRun 1 1 (writerPipe exW exB) (readerPipe exR 1 4) i ⟨exX.take i, []⟩ := by
  induction i with
  | zero => exact .start
  | succ i ih =>
    have hl : i < exX.length := by
      have : 30 ≤ exX.length := by decide +kernel
      omega
    have h1 : ∀ j : Fin 30, exX.take j ++ [exX[j.val]?.getD 0] <+:
        sentBy (writerPipe exW exB ((exX.take j).length + 1) []) := by decide +kernel
    have h2 : ∀ j : Fin 30, (readerPipe exR 1 4 1 (exX.take j)).map (fun _ => ()) =
        .error (.wait []) := by decide +kernel
    have h2' := h2 ⟨i, by omega⟩
    have h3 : readerPipe exR 1 4 1 (exX.take i) = .error (.wait []) := by
      revert h2'
      cases readerPipe exR 1 4 1 (exX.take i) with
      | ok _ => intro h; cases h
      | error e => intro h; cases h; rfl
    have := (ih (by omega)).step (.toReader _ [] [] (exX[i]?.getD 0) (h1 ⟨i, by omega⟩) h3)
    rwa [List.getElem?_eq_getElem hl, Option.getD_some, List.take_append_getElem] at this

/-- There READY has arrived, and the reader is blocked: it has sent a byte of ACCEPT, and the next
one waits until the writer has read the first. -/
example : PipeRun 1 1 (writerPipe exW exB) (readerPipe exR 1 4) 31 ⟨exX.take 30, [exA.headD 0]⟩ ∧
    (readerPipe exR 1 4 2 (exX.take 30)).map (fun _ => ()) = .error (.full (exA.take 2)) := by
  refine ⟨?_, by decide +kernel⟩
  have h2 : (writerPipe exW exB 31 []).map (fun _ => ()) = .error (.wait (exX.take 30)) := by
    decide +kernel
  have h3 : writerPipe exW exB 31 [] = .error (.wait (exX.take 30)) := by
    revert h2
    cases writerPipe exW exB 31 [] with
    | ok _ => intro h; cases h
    | error e => intro h; cases h; rfl
  have hl : (exX.take 30).length = 30 := by decide +kernel
  exact (exRun 30 (by omega)).step (.toWriter _ [] (exX.take 30) _ (by decide +kernel) (by rw [hl]; exact h3))

/-- The hypotheses of `net_no_deadlock_capacity_partial` hold there. -/
example (k : Nat) (s : Net) (hr : PipeRun 1 1 (writerPipe exW exB) (readerPipe exR 1 4) k s)
    (hq : PipeStuck 1 1 (writerPipe exW exB) (readerPipe exR 1 4) s) :
    ∃ r o, readerPipe exR 1 4 (s.toWriter.length + 1) s.toReader =
      .ok (([some [7], some [8, 9], some [10]], some .stop, .success, r), o) := by
  obtain ⟨_, _, _, h⟩ := net_no_deadlock_capacity_partial exW exR exB 1 4 1 1 (by decide)
    (by decide +kernel) (by decide) (by decide +kernel) (by decide) (by decide) (by decide)
    (by decide) (by decide) (by decide) (by decide) k s hr
  obtain ⟨w, r, o, o', _, h2, _⟩ := h hq
  exact ⟨r, o', h2⟩

end Fstrm.Props
