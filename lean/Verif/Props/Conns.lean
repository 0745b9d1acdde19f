import Verif.Lemmas.SockConns
import Verif.Props.Writer

/-!
# What travels on each connection (C70)
-/

set_option autoImplicit false

namespace Fstrm.Props

open Fstrm Fstrm.Spec

variable {σ : Type}

theorem binv_init {all : Bool} {ops : Ops σ} {obj : σ} {wopt : Option WriterOptions} {w : Writer σ}
    (hrd : ops.rd ≠ none) (hcls : ops.cls ≠ none)
    (hinit : Writer.init wopt (Rdwr.init ops obj) = some w) : BInv all (optCts wopt) [] [] w := by
  have hwr : ops.wr ≠ none := by
    intro h
    unfold Writer.init at hinit
    rw [if_pos (by simp [Rdwr.init, h])] at hinit
    cases hinit
  obtain ⟨h1, h2, h3, _⟩ := init_some hinit
  refine ⟨h2, by rw [h3]; exact hrd, by rw [h3]; exact hcls, by rw [h3]; exact hwr, .nil _, [], ?_, ?_,
    fun _ => rfl⟩
  · rw [h3]; rfl
  · rw [h3]; nofun

/-- **C70**, for every bidirectional transport. Whatever calls are made, whatever the peer answers
and whatever fails: the connections the writer uses one after the other each carry a beginning of
READY and one stream, and the streams consist of consecutive runs of the frames given to the
writer, no frame being on two connections. With `all`, what was given to the write callback in calls
that failed is taken to be on the connection as well, as a part of it may be. -/
theorem writer_conns (all : Bool) (ops : Ops σ) (obj : σ) (wopt : Option WriterOptions) (w w' : Writer σ)
    (calls : List WOp) (rs : List Res)
    (hrd : ops.rd ≠ none) (hcls : ops.cls ≠ none)
    (hinit : Writer.init wopt (Rdwr.init ops obj) = some w)
    (hrun : w.run calls = .ok (rs, w')) :
    Delivered (optCts wopt)
      ((connectionsOf all w'.rdwr.log).1 ++
        if w'.rdwr.opened then [(connectionsOf all w'.rdwr.log).2] else [])
      (calls.flatMap WOp.frames) := by
  obtain ⟨d, h1, _⟩ := (binv_init (all := all) hrd hcls hinit).run hrun
  rw [List.nil_append] at h1
  have hc := h1.conn
  obtain ⟨cur, c1, c2, _⟩ := hc.now
  rw [c1]
  split
  · rename_i ho
    have := c2 ho
    split at this
    · exact this.one
    · exact this.one hc.past
  · simpa using hc.past

/-- **C70**. If every call succeeds, each session has a connection of its own, which carries exactly
READY and the stream of the session's frames; afterwards no connection is left open. -/
theorem writer_session_conns (ops : Ops σ) (obj : σ) (wopt : Option WriterOptions) (w w' : Writer σ)
    (sessions : List (List WOp)) (rs : List Res)
    (hrd : ops.rd ≠ none) (hcls : ops.cls ≠ none)
    (hinit : Writer.init wopt (Rdwr.init ops obj) = some w)
    (hsess : ∀ s ∈ sessions, WOp.close ∉ s)
    (hrun : w.run (sessions.flatMap (· ++ [.close])) = .ok (rs, w'))
    (hok : ∀ r ∈ rs, r = .success) :
    w'.rdwr.opened = false ∧
    connectionsOf false w'.rdwr.log = (sessions.map fun s => CFrame.wire ⟨.ready, optCts wopt⟩ ++
      Spec.stream (optCts wopt).head? (s.flatMap WOp.frames), []) := by
  have hb := binv_init (all := false) hrd hcls hinit
  obtain ⟨h1, h2, h3, _⟩ := init_some hinit
  have hst : w.state ≠ .opened := by rw [h1]; simp
  have hops : w.rdwr.ops = ops := by rw [h3]; rfl
  have hopn : w.rdwr.opened = false := by rw [h3]; rfl
  clear hinit h1 h3
  have hopen : ∀ w w' : Writer σ, w.rdwr.ops = ops → w.cts = optCts wopt → w.state ≠ .opened →
      w.open = .ok (.success, w') → wrote w'.rdwr.log = wrote w.rdwr.log ++
        (CFrame.wire ⟨.ready, optCts wopt⟩ ++ CFrame.wire ⟨.start, (optCts wopt).head?.toList⟩) := by
    intro w w' ho hc hs h
    obtain ⟨f, ct, _, _, _, hw, _, _, he⟩ := negotiated_sound w w' (by rw [ho]; exact hrd) hs h
    rw [hw, he, hc, List.append_assoc]
  suffices H : ∀ (sessions : List (List WOp)) (w : Writer σ) (rs : List Res) (sub done : List Bytes),
      BInv false (optCts wopt) sub done w → w.rdwr.opened = false →
      w.state ≠ .opened → w.cts = optCts wopt → w.rdwr.ops = ops →
      (∀ s ∈ sessions, WOp.close ∉ s) →
      w.run (sessions.flatMap (· ++ [.close])) = .ok (rs, w') → (∀ r ∈ rs, r = .success) →
      w'.rdwr.opened = false ∧ connectionsOf false w'.rdwr.log = (done ++ sessions.map fun s =>
        CFrame.wire ⟨.ready, optCts wopt⟩ ++
          Spec.stream (optCts wopt).head? (s.flatMap WOp.frames), []) by
    simpa using H sessions w rs [] [] hb hopn hst h2 hops hsess hrun hok
  intro sessions
  induction sessions with
  | nil =>
    intro w rs sub done hb ho _ _ _ _ hrun _
    cases hrun
    obtain ⟨cur, c1, _, c3⟩ := hb.conn.now
    rw [c1, c3 ho]
    simp [ho]
  | cons s rest ih =>
    intro w rs sub done hb ho hst hcts hu hs hrun hok
    rw [List.flatMap_cons, run_append] at hrun
    obtain ⟨r1, w1, r2, h1, h2, rfl⟩ := hrun
    have hok1 : ∀ r ∈ r1, r = .success := fun r hr => hok r (by simp [hr])
    obtain ⟨a, b, c, d⟩ := session_wrote ops (optCts wopt) _ hopen s w w1 r1 _ [] hu hcts
      (hs s (by simp)) h1 hok1 (Or.inl ⟨hst, rfl, rfl⟩)
    -- the connections of this session
    rw [run_append] at h1
    obtain ⟨r3, w2, r4, h3, h4, rfl⟩ := h1
    obtain ⟨d1, g1, g2⟩ := hb.run h3
    obtain rfl := g2 (fun r hr => hok1 r (by simp [hr])) (hs s (by simp))
    obtain ⟨⟨r, w3⟩, h5, h4⟩ := Exec.bind_eq_ok.1 h4
    obtain ⟨⟨rs', w4⟩, h6, h4⟩ := Exec.bind_eq_ok.1 h4
    cases h6; cases h4
    have hr : r = .success := hok1 r (by simp)
    subst hr
    obtain ⟨d2, k1, k2⟩ := g1.close h5
    obtain ⟨ho1, x, rfl⟩ := k2 rfl
    have hrest := ih w1 r2 _ (d1 ++ [x]) k1 ho1 (by rw [b]; simp) c d
      (fun s hs' => hs s (by simp [hs'])) h2 (fun r hr => hok r (by simp [hr]))
    refine ⟨hrest.1, ?_⟩
    rw [hrest.2]
    suffices hx : x = CFrame.wire ⟨.ready, optCts wopt⟩ ++
        Spec.stream (optCts wopt).head? (s.flatMap WOp.frames) by
      rw [hx]; simp
    have e1 := wrote_connections w.rdwr.log
    have e2 := wrote_connections w1.rdwr.log
    obtain ⟨cur, c1, _, c3⟩ := hb.conn.now
    rw [c1, c3 ho] at e1
    obtain ⟨cur, c1, _, c3⟩ := k1.conn.now
    rw [c1, c3 ho1] at e2
    rw [a, e1] at e2
    simp only [List.append_nil, List.flatten_append, List.flatten_cons, List.flatten_nil,
      List.append_assoc, List.append_cancel_left_eq, List.nil_append] at e2
    rw [← e2]
    simp [Spec.stream]

/-! ### Sockets -/

theorem sockSync_run {w w' : Writer Sock} {wopt : Option WriterOptions} {peers : List Bytes}
    {conn close : List Bool} {reads : List KRead} {sends : List KSend} {past : List Nat}
    {calls : List WOp} {rs : List Res}
    (hinit : Writer.init wopt (Rdwr.init sockOps
      (Sock.init peers conn close reads sends past)) = some w)
    (hsends : NoShort sends) (hrun : w.run calls = .ok (rs, w')) : SockSync w'.rdwr := by
  refine (run_reach hrun).inv ?_ fun _ _ h e => h.step e
  rw [(init_some hinit).2.2.1]
  exact ⟨rfl, hsends, rfl, rfl⟩

/-- **C70** for unix and tcp writers, in terms of what the kernel takes on each connection, for all
calls, all failures to connect, read, send and close, and all answers.
`_partial`: there must be no short sends (`sock_write_duplicates`). -/
theorem sock_conns_partial (w w' : Writer Sock) (wopt : Option WriterOptions)
    (peers : List Bytes) (conn close : List Bool) (reads : List KRead) (sends : List KSend)
    (past : List Nat) (calls : List WOp) (rs : List Res)
    (hinit : Writer.init wopt (Rdwr.init sockOps
      (Sock.init peers conn close reads sends past)) = some w)
    (hsends : NoShort sends)
    (hrun : w.run calls = .ok (rs, w')) :
    Delivered (optCts wopt)
      (w'.rdwr.obj.history ++ if w'.rdwr.obj.connected then [w'.rdwr.obj.out] else [])
      (calls.flatMap WOp.frames) := by
  have h := writer_conns false sockOps _ wopt w w' calls rs (by simp [sockOps]) (by simp [sockOps]) hinit
    hrun
  have hs := sockSync_run hinit hsends hrun
  rw [hs.conns, ← hs.same] at h
  split at h
  · rename_i hc; rw [if_pos hc]; exact h
  · rename_i hc; rw [if_neg hc]; exact h

/-- **C70** for unix and tcp writers: if every call succeeds, each session has a connection of its
own, on which the kernel takes exactly READY and the stream of the session's frames. -/
theorem sock_session_conns_partial (w w' : Writer Sock) (wopt : Option WriterOptions)
    (peers : List Bytes) (conn close : List Bool) (reads : List KRead) (sends : List KSend)
    (past : List Nat) (sessions : List (List WOp)) (rs : List Res)
    (hinit : Writer.init wopt (Rdwr.init sockOps
      (Sock.init peers conn close reads sends past)) = some w)
    (hsends : NoShort sends)
    (hsess : ∀ s ∈ sessions, WOp.close ∉ s)
    (hrun : w.run (sessions.flatMap (· ++ [.close])) = .ok (rs, w'))
    (hok : ∀ r ∈ rs, r = .success) :
    w'.rdwr.obj.connected = false ∧
    w'.rdwr.obj.history = sessions.map fun s => CFrame.wire ⟨.ready, optCts wopt⟩ ++
      Spec.stream (optCts wopt).head? (s.flatMap WOp.frames) := by
  obtain ⟨h1, h2⟩ := writer_session_conns sockOps _ wopt w w' sessions rs (by simp [sockOps])
    (by simp [sockOps]) hinit hsess hrun hok
  have hs := sockSync_run hinit hsends hrun
  rw [hs.conns] at h2
  exact ⟨hs.same.trans h1, (Prod.mk.inj h2).1⟩

/-- The hypotheses are met: two sessions on two connections. -/
example : ((Writer.init (some ⟨[[1]]⟩) (Rdwr.init sockOps
      (Sock.init (List.replicate 2 (CFrame.wire ⟨.accept, [[1]]⟩ ++ CFrame.wire ⟨.finish, []⟩)) [] []
        [.data 3, .intr] [.intr] []))).map fun w =>
    (w.run ([[WOp.opn, .write [7]], [.opn, .writev [[8], [9]]]].flatMap (· ++ [.close]))).map
      fun p => (p.1, p.2.rdwr.obj.history)) =
    some (.ok (List.replicate 6 .success,
      [CFrame.wire ⟨.ready, [[1]]⟩ ++ Spec.stream (some [1]) [[7]],
       CFrame.wire ⟨.ready, [[1]]⟩ ++ Spec.stream (some [1]) [[8], [9]]])) ∧
    NoShort [KSend.intr] := by
  refine ⟨by decide +kernel, ?_⟩
  intro e he k
  simp only [List.mem_singleton] at he
  rw [he]
  nofun

/-- A send fails: the first connection carries the beginning of a stream, the frame that failed is
lost, and the next connection starts a new stream. -/
example : ((Writer.init (some ⟨[[1]]⟩) (Rdwr.init sockOps
      (Sock.init (List.replicate 2 (CFrame.wire ⟨.accept, [[1]]⟩ ++ CFrame.wire ⟨.finish, []⟩)) [] []
        [] [.all, .all, .all, .fail] []))).map fun w =>
    (w.run [.opn, .write [7], .write [8], .close, .opn, .write [9]]).map
      fun p => (p.1, p.2.rdwr.obj.history, p.2.rdwr.obj.out)) =
    some (.ok ([.success, .success, .failure, .failure, .success, .success],
      [CFrame.wire ⟨.ready, [[1]]⟩ ++ CFrame.wire ⟨.start, [[1]]⟩ ++ Spec.dataFrame [7]],
      CFrame.wire ⟨.ready, [[1]]⟩ ++ CFrame.wire ⟨.start, [[1]]⟩ ++ Spec.dataFrame [9])) := by
  decide +kernel

/-- READY can be repeated on one connection: when the peer answers with a frame that is not ACCEPT,
opening fails but leaves the connection in place, and the next attempt uses it again. -/
theorem writer_repeats_ready :
    ((Writer.init (some ⟨[[1]]⟩) (Rdwr.init sockOps
      (Sock.init [CFrame.wire ⟨.finish, []⟩ ++ CFrame.wire ⟨.accept, [[1]]⟩] [] [] [] [] []))).map
      fun w => (w.run [.opn, .opn]).map fun p => (p.1, p.2.rdwr.obj.history, p.2.rdwr.obj.out)) =
    some (.ok ([.failure, .success], [],
      CFrame.wire ⟨.ready, [[1]]⟩ ++ CFrame.wire ⟨.ready, [[1]]⟩ ++ CFrame.wire ⟨.start, [[1]]⟩)) := by
  decide +kernel

end Fstrm.Props
