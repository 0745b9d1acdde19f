import Verif.Props.Conns
import Verif.Props.Iothr

/-!
# C73: the I/O thread and a writer that connects to a peer

The writers for sockets are bidirectional and the I/O thread opens them again after failures. What
travels on each of the connections it makes?
-/

set_option autoImplicit false

namespace Fstrm.Props

open Iothr Spec

variable {σ : Type}

/-- The connections a transport has made, in order: those closed, and the present one; with
`all`, what was given to the write callback in calls that failed counts as well. -/
def allConns (all : Bool) (rw : Rdwr σ) : List Bytes :=
  (connectionsOf all rw.log).1 ++ if rw.opened then [(connectionsOf all rw.log).2] else []

theorem _root_.Fstrm.BInv.delivered {all : Bool} {cts sub done : List Bytes} {w : Writer σ}
    (h : BInv all cts sub done w) : Delivered cts (allConns all w.rdwr) sub := by
  have hc := h.conn
  obtain ⟨cur, c1, c2, _⟩ := hc.now
  unfold allConns
  rw [c1]
  split
  · rename_i ho
    have := c2 ho
    split at this
    · exact this.one
    · exact this.one hc.past
  · simpa using hc.past

/-- Destroying the transport's object is not visible on its connections. -/
theorem rdwrDestroy_frame {all : Bool} {a b : Rdwr σ} {r : Res} (e : a.destroy = .ok (r, b)) :
    connectionsOf all b.log = connectionsOf all a.log ∧ b.opened = a.opened ∧ b.ops = a.ops := by
  unfold Rdwr.destroy at e
  split at e
  · cases e; exact ⟨rfl, rfl, rfl⟩
  · obtain ⟨⟨r', o⟩, e1, e⟩ := Exec.bind_eq_ok.1 e
    cases e
    refine ⟨?_, rfl, rfl⟩
    simp only [connectionsOf, List.foldl_append, List.foldl_cons, List.foldl_nil]
    rfl

theorem _root_.Fstrm.BInv.destroyed {all : Bool} {cts sub done : List Bytes} {w : Writer σ} {r : Res}
    {rw : Rdwr σ} (h : BInv all cts sub done w) (e : w.destroy = .ok (r, rw)) :
    Delivered cts (allConns all rw) sub := by
  unfold Writer.destroy at e
  obtain ⟨⟨r1, w1⟩, e1, e⟩ := Exec.bind_eq_ok.1 e
  obtain ⟨⟨r2, rw2⟩, e2, e⟩ := Exec.bind_eq_ok.1 e
  cases e
  obtain ⟨f1, f2, _⟩ := rdwrDestroy_frame (all := all) e2
  have : allConns all rw = allConns all w1.rdwr := by unfold allConns; rw [f1, f2]
  rw [this]
  split at e1
  · obtain ⟨d, h1, _⟩ := h.close e1
    exact h1.delivered
  · cases e1; exact h.delivered

theorem close_not_opened {w w' : Writer σ} {r : Res} (h : w.close = .ok (r, w')) :
    w'.state ≠ .opened := by
  unfold Writer.close at h
  split at h
  · cases h; assumption
  · obtain ⟨⟨r1, rw1⟩, _, h⟩ := Exec.bind_eq_ok.1 h
    dsimp only at h
    split at h
    · obtain ⟨⟨r2, rw2⟩, _, h⟩ := Exec.bind_eq_ok.1 h
      cases h; simp
    · split at h
      · obtain ⟨⟨r2, f, rw2⟩, _, h⟩ := Exec.bind_eq_ok.1 h
        dsimp only at h
        split at h <;>
        · obtain ⟨⟨r3, rw3⟩, _, h⟩ := Exec.bind_eq_ok.1 h
          cases h; simp
      · obtain ⟨⟨r2, rw2⟩, _, h⟩ := Exec.bind_eq_ok.1 h
        cases h; simp

/-- The frames in the calls of an I/O thread. -/
theorem calls_frames (log : List IoEv) :
    ((calls log).map Prod.fst).flatMap WOp.frames = (handed log).map Entry.data := by
  induction log with
  | nil => rfl
  | cons e l ih =>
    cases e <;> simp [calls, handed, WOp.frames, ih]

/-- `Delivered`, with the payloads of each connection named. -/
theorem _root_.Fstrm.Spec.Delivered.entries {cts conns sub : List Bytes} (h : Delivered cts conns sub) :
    ∀ es : List Entry, es.map Entry.data = sub →
    ∃ carried : List (List Entry), carried.length = conns.length ∧ carried.flatten.Sublist es ∧
      ∀ (i : Nat) bs, conns[i]? = some bs → ∃ k fs, carried[i]? = some fs ∧
        bs <+: (List.replicate k (CFrame.wire ⟨.ready, cts⟩)).flatten ++
          stream cts.head? (fs.map Entry.data) := by
  induction h with
  | nil gap => intro es _; exact ⟨[], rfl, by simp, by simp⟩
  | @snoc conns sub bs k fs gap h hb ih =>
    intro es he
    obtain ⟨e12, e3, rfl, h12, h3⟩ := List.map_eq_append_iff.1 he
    obtain ⟨e1, e2, rfl, h1, h2⟩ := List.map_eq_append_iff.1 h12
    obtain ⟨car, c1, c2, c3⟩ := ih e1 h1
    refine ⟨car ++ [e2], by simp [c1], ?_, ?_⟩
    · rw [List.flatten_append, List.flatten_singleton]
      exact (c2.append (List.Sublist.refl _)).trans (List.sublist_append_left _ _)
    · intro i b hi
      rw [List.getElem?_append] at hi
      split at hi
      · rename_i hl
        obtain ⟨k', fs', g1, g2⟩ := c3 i b hi
        exact ⟨k', fs', by rw [List.getElem?_append, if_pos (by omega)]; exact g1, g2⟩
      · rename_i hl
        have hi0 : i - conns.length = 0 := by
          cases hm : i - conns.length with
          | zero => rfl
          | succ m => rw [hm] at hi; simp at hi
        rw [hi0] at hi
        obtain rfl : bs = b := by simpa using hi
        refine ⟨k, e2, ?_, by rw [h2]; exact hb⟩
        rw [List.getElem?_append, if_neg (by omega), c1, hi0]
        rfl

/-- **C73.** An I/O thread on a bidirectional writer, for every schedule, every behaviour of
the peer and every failure: each connection made carries a beginning of READY (perhaps repeated) and
one stream of payloads `carried`. On all connections together, the payloads of one input queue
are in the order in which they were submitted, and no payload is on two connections or
twice on one. This holds at any time, also after `fstrm_iothr_destroy` has returned. With `all`,
what was given to the write callback in calls that failed is taken to be on the connection as well,
as a part of it may be. -/
theorem iothr_conns (all : Bool) (ops : Ops σ) (obj : σ) (wopt : Option WriterOptions) (opt : IothrOptions)
    (w : Writer σ) (as : List IoAct) (s : Iothr σ)
    (hrd : ops.rd ≠ none) (hcls : ops.cls ≠ none)
    (hinit : Writer.init wopt (Rdwr.init ops obj) = some w)
    (h : (Iothr.init opt w).run as = .ok s) :
    ∃ carried : List (List Entry), carried.length = (allConns all s.writer.rdwr).length ∧
      (∀ (i : Nat) bs, (allConns all s.writer.rdwr)[i]? = some bs → ∃ k fs, carried[i]? = some fs ∧
        bs <+: (List.replicate k (CFrame.wire ⟨.ready, optCts wopt⟩)).flatten ++
          stream (optCts wopt).head? (fs.map Entry.data)) ∧
      (∀ q, (onQueue q carried.flatten).Sublist (onQueue q (submits s.log))) ∧
      carried.flatten.Nodup := by
  obtain ⟨w', hw, hl, hdst⟩ := (iothr_invC h).writer
  obtain ⟨d, h1, _⟩ := (binv_init (all := all) hrd hcls hinit).run hw
  rw [List.nil_append, calls_frames] at h1
  have hdel : Delivered (optCts wopt) (allConns all s.writer.rdwr) ((handed s.log).map Entry.data) := by
    cases hd : s.destroyed with
    | false => rw [hl hd]; exact h1.delivered
    | true =>
      obtain ⟨r, rw', e1, e2⟩ := hdst hd
      rw [e2]
      exact h1.destroyed e1
  obtain ⟨car, c1, c2, c3⟩ := hdel.entries _ rfl
  obtain ⟨o1, o2⟩ := order_preserved opt w as s h
  refine ⟨car, c1, c3, ?_, c2.nodup o2⟩
  intro q
  exact (c2.filter _).trans (o1 q)

/-- **C73**, without failures: everything travels on one connection, which carries READY and
one complete stream, whose data frames are, per queue and in order, the payloads submitted, among
them all those submitted before destroy was called. -/
theorem iothr_stream_bidir (ops : Ops σ) (obj : σ) (wopt : Option WriterOptions) (opt : IothrOptions)
    (w : Writer σ) (pre post : List IoAct) (now : Nat) (wk : Wake) (s : Iothr σ)
    (hrd : ops.rd ≠ none) (hcls : ops.cls ≠ none)
    (hinit : Writer.init wopt (Rdwr.init ops obj) = some w)
    (h : (Iothr.init opt w).run (pre ++ .io now wk :: post) = .ok s)
    (hpre : ∀ a ∈ pre, isIo a = false)
    (hnow : opt.reopenInterval ≤ now)
    (hok : ∀ c ∈ calls s.log, c.2 = .success)
    (hexit : s.pc = .exited) :
    ∃ es : List Entry, allConns false s.writer.rdwr =
        [CFrame.wire ⟨.ready, optCts wopt⟩ ++ Spec.stream (optCts wopt).head? (es.map Entry.data)] ∧
      (∀ q, onQueue q (submits (beforeShutdown s.log)) <+: onQueue q es) ∧
      (∀ q, (onQueue q es).Sublist (onQueue q (submits s.log))) ∧ es.Nodup := by
  obtain ⟨h1, bs, h2, h3⟩ := no_loss_start opt w pre post now wk s h hpre hnow hok hexit
  refine ⟨handed s.log, ?_, h1, order_preserved opt w _ s h⟩
  obtain ⟨w', hw, hl, hdst⟩ := (iothr_invC h).writer
  have hrs : ∀ r ∈ (calls s.log).map Prod.snd, r = .success := by
    intro r hr
    obtain ⟨c, hc, rfl⟩ := List.mem_map.1 hr
    exact hok c hc
  have e1 : (calls s.log).map Prod.fst =
      [WOp.opn :: bs.map fun es => WOp.writev (es.map Entry.data)].flatMap (· ++ [.close]) := by
    rw [h3]; simp [Function.comp_def]
  rw [e1] at hw
  obtain ⟨k1, k2⟩ := writer_session_conns ops obj wopt w w' _ _ hrd hcls hinit (by simp) hw hrs
  have e3 : (WOp.opn :: bs.map fun es => WOp.writev (es.map Entry.data)).flatMap WOp.frames =
      (handed s.log).map Entry.data := by
    rw [← h2]
    simp only [List.flatMap_cons, WOp.frames, List.nil_append, List.flatMap_map, List.map_flatten]
    rfl
  simp only [List.map_cons, List.map_nil, e3] at k2
  have hw' : allConns false w'.rdwr = [CFrame.wire ⟨.ready, optCts wopt⟩ ++
      Spec.stream (optCts wopt).head? ((handed s.log).map Entry.data)] := by
    unfold allConns; rw [k1, k2]; simp
  cases hd : s.destroyed with
  | false => rw [hl hd]; exact hw'
  | true =>
    obtain ⟨r, rw', e4, e5⟩ := hdst hd
    rw [e5, ← hw']
    unfold Writer.destroy at e4
    obtain ⟨⟨r1, w1⟩, hd1, e4⟩ := Exec.bind_eq_ok.1 e4
    obtain ⟨⟨r2, rw2⟩, hd2, e4⟩ := Exec.bind_eq_ok.1 e4
    cases e4
    obtain ⟨f1, f2, _⟩ := rdwrDestroy_frame hd2
    have hcl : w'.state ≠ .opened := by
      simp only [List.flatMap_cons, List.flatMap_nil, List.append_nil] at hw
      obtain ⟨r3, w3, r4, h5, h6, _⟩ := (Props.run_append _ _ _ _ _).1 hw
      obtain ⟨⟨r, w4⟩, h7, h6⟩ := Exec.bind_eq_ok.1 h6
      obtain ⟨⟨rs', w5⟩, h8, h6⟩ := Exec.bind_eq_ok.1 h6
      cases h8; cases h6
      exact close_not_opened h7
    rw [if_neg hcl] at hd1
    cases hd1
    unfold allConns
    rw [f1, f2]

/-! ### Sockets -/

/-- The connections made by a unix or tcp writer, with what the kernel took on each. -/
def kernelConns (o : Sock) : List Bytes := o.history ++ if o.connected then [o.out] else []

theorem sockDestroy_sync {a b : Rdwr Sock} {r : Res} (h : SockSync a) (e : a.destroy = .ok (r, b)) :
    SockSync b := by
  obtain ⟨f1, f2, f3⟩ := rdwrDestroy_frame e
  unfold Rdwr.destroy at e
  rw [h.ops] at e
  simp only [sockOps] at e
  cases e
  exact ⟨rfl, h.noShort, h.same, f1.trans h.conns⟩

theorem iothr_sockSync {wopt : Option WriterOptions} {opt : IothrOptions} {w : Writer Sock}
    {peers : List Bytes} {conn close : List Bool} {reads : List KRead} {sends : List KSend}
    {past : List Nat} {as : List IoAct} {s : Iothr Sock}
    (hinit : Writer.init wopt (Rdwr.init sockOps
      (Sock.init peers conn close reads sends past)) = some w)
    (hsends : NoShort sends) (h : (Iothr.init opt w).run as = .ok s) :
    SockSync s.writer.rdwr := by
  obtain ⟨w', hw, hl, hdst⟩ := (iothr_invC h).writer
  have hs := sockSync_run hinit hsends hw
  cases hd : s.destroyed with
  | false => rw [hl hd]; exact hs
  | true =>
    obtain ⟨r, rw', e1, e2⟩ := hdst hd
    rw [e2]
    unfold Writer.destroy at e1
    obtain ⟨⟨r1, w1⟩, hd1, e1⟩ := Exec.bind_eq_ok.1 e1
    obtain ⟨⟨r2, rw2⟩, hd2, e1⟩ := Exec.bind_eq_ok.1 e1
    cases e1
    refine sockDestroy_sync ?_ hd2
    split at hd1
    · exact (close_frame hd1).2.1.inv hs fun _ _ h e => h.step e
    · cases hd1; exact hs

theorem sync_allConns {rw : Rdwr Sock} (h : SockSync rw) : allConns false rw = kernelConns rw.obj := by
  unfold allConns kernelConns
  rw [h.conns, ← h.same]
  split <;> rfl

/-- **C73** for unix and tcp writers, in terms of what the kernel takes on each connection, for
every schedule, all failures to connect, read, send and close, and all answers.
`_partial`: there must be no short sends (`sock_write_duplicates`). -/
theorem iothr_sock_conns_partial (wopt : Option WriterOptions) (opt : IothrOptions)
    (w : Writer Sock) (peers : List Bytes) (conn close : List Bool) (reads : List KRead)
    (sends : List KSend) (past : List Nat) (as : List IoAct) (s : Iothr Sock)
    (hinit : Writer.init wopt (Rdwr.init sockOps
      (Sock.init peers conn close reads sends past)) = some w)
    (hsends : NoShort sends)
    (h : (Iothr.init opt w).run as = .ok s) :
    ∃ carried : List (List Entry), carried.length = (kernelConns s.writer.rdwr.obj).length ∧
      (∀ (i : Nat) bs, (kernelConns s.writer.rdwr.obj)[i]? = some bs →
        ∃ k fs, carried[i]? = some fs ∧
        bs <+: (List.replicate k (CFrame.wire ⟨.ready, optCts wopt⟩)).flatten ++
          stream (optCts wopt).head? (fs.map Entry.data)) ∧
      (∀ q, (onQueue q carried.flatten).Sublist (onQueue q (submits s.log))) ∧
      carried.flatten.Nodup := by
  rw [← sync_allConns (iothr_sockSync hinit hsends h)]
  exact iothr_conns false sockOps _ wopt opt w as s (by simp [sockOps]) (by simp [sockOps]) hinit h

/-- **C73** for unix and tcp writers without failures. -/
theorem iothr_sock_stream_partial (wopt : Option WriterOptions) (opt : IothrOptions)
    (w : Writer Sock) (peers : List Bytes) (conn close : List Bool) (reads : List KRead)
    (sends : List KSend) (past : List Nat) (pre post : List IoAct) (now : Nat) (wk : Wake)
    (s : Iothr Sock)
    (hinit : Writer.init wopt (Rdwr.init sockOps
      (Sock.init peers conn close reads sends past)) = some w)
    (hsends : NoShort sends)
    (h : (Iothr.init opt w).run (pre ++ .io now wk :: post) = .ok s)
    (hpre : ∀ a ∈ pre, isIo a = false)
    (hnow : opt.reopenInterval ≤ now)
    (hok : ∀ c ∈ calls s.log, c.2 = .success)
    (hexit : s.pc = .exited) :
    ∃ es : List Entry, kernelConns s.writer.rdwr.obj =
        [CFrame.wire ⟨.ready, optCts wopt⟩ ++ Spec.stream (optCts wopt).head? (es.map Entry.data)] ∧
      (∀ q, onQueue q (submits (beforeShutdown s.log)) <+: onQueue q es) ∧
      (∀ q, (onQueue q es).Sublist (onQueue q (submits s.log))) ∧ es.Nodup := by
  rw [← sync_allConns (iothr_sockSync hinit hsends h)]
  exact iothr_stream_bidir sockOps _ wopt opt w pre post now wk s (by simp [sockOps])
    (by simp [sockOps]) hinit h hpre hnow hok hexit

/-- A unix or tcp writer whose peers accept the content type and confirm the end. -/
def demoSockWriter (sends : List KSend) : Writer Sock :=
  (Writer.init (some ⟨[[7]]⟩) (Rdwr.init sockOps
    (Sock.init (List.replicate 2 (CFrame.wire ⟨.accept, [[7]]⟩ ++ CFrame.wire ⟨.finish, []⟩)) [] []
      [.data 3, .intr] sends []))).get rfl

/-- The hypotheses are met: the execution of `demoPre` and `demoPost` on a socket. -/
example : ((Iothr.init twoQueues (demoSockWriter [.intr])).run
      (demoPre ++ .io 9 .timeout :: demoPost)).map
    (fun s => (kernelConns s.writer.rdwr.obj, (calls s.log).all (·.2 = .success),
      decide (s.pc = .exited))) =
    .ok ([CFrame.wire ⟨.ready, [[7]]⟩ ++ Spec.stream (some [7]) [[1], [2, 2], [3], [5], [4]]],
      true, true) := by decide +kernel

/-- A send fails: the payloads of the batch are lost, the writer is opened again after the reopen
interval, and the later payloads travel on the second connection. -/
example : ((Iothr.init twoQueues (demoSockWriter [.all, .all, .fail])).run
      (demoPre ++ ioTimes 12 10 ++ [.submit 0 0 (some [3]) true, .insert 0] ++ ioTimes 8 20 ++
        [.submit 0 0 (some [4]) true, .insert 0, .shutdown] ++ ioTimes 9 30 ++ ioTimes 30 40 ++ [.finish])).map
    (fun s => (kernelConns s.writer.rdwr.obj, (submits s.log).map Entry.data)) =
    .ok ([CFrame.wire ⟨.ready, [[7]]⟩ ++ CFrame.wire ⟨.start, [[7]]⟩,
      CFrame.wire ⟨.ready, [[7]]⟩ ++ Spec.stream (some [7]) [[3], [4]]],
      [[2, 2], [1], [3], [4]]) := by decide +kernel

end Fstrm.Props
