import Verif.Lemmas.FdCloexec
import Verif.Props.Writer

/-!
# Descriptors of socket writers (C98, C99)
-/

set_option autoImplicit false

namespace Fstrm.Props

open Spec (CFrame)

/-- Whether the system calls of an attempt to connect let it succeed. -/
def _root_.Fstrm.KOpen.succeeds (p : Platform) (k : KOpen) : Bool :=
  (decide (k.first = .ok) ||
    (p.sockCloexec && decide (k.first = .inval) && decide (k.second = .ok))) &&
  (!p.soNosigpipe || k.sockopt) && k.connect

/-- The model of `Model/Sock.lean` that leaves out descriptors. -/
def _root_.Fstrm.FdSock.plain (p : Platform) (s : FdSock) : Sock :=
  { s.sock with conn := s.opens.map (·.succeeds p), close := s.closes.map (·.ok) }

/-- The functions modelled down to system calls behave as those of `Model/Sock.lean`, about which
C30, C31, C63 and C70 speak: same results, same bytes, same connections. -/
theorem sock_refines (p : Platform) (s : FdSock) :
    (s.opOpen p).map (fun x => (x.1, x.2.plain p)) = (s.plain p).opOpen ∧
    s.opClose.map (fun x => (x.1, x.2.plain p)) = (s.plain p).opClose ∧
    (∀ n, (s.opRead n).map (fun x => (x.1, x.2.1, x.2.2.plain p)) = (s.plain p).opRead n) ∧
    (∀ iov, (s.opWrite p iov).map (fun x => (x.1, x.2.plain p)) = (s.plain p).opWrite iov) := by
  refine ⟨?_, ?_, ?_, ?_⟩
  · have hconn : (s.plain p).conn.head?.getD true = (s.opens.head?.getD {}).succeeds p := by
      cases h : s.opens with
      | nil => simp [FdSock.plain, h, KOpen.succeeds]
      | cons a l => simp [FdSock.plain, h]
    unfold FdSock.opOpen Sock.opOpen
    rw [hconn]
    have hpc : (s.plain p).connected = s.sock.connected := rfl
    rw [hpc]
    split
    · rfl
    · generalize hk : (s.opens.head?.getD {} : KOpen) = k
      dsimp only
      have hsock : ∀ s0 : FdSock, ((s0.sockets p k).fd < 0 ↔
          ¬ (k.first = .ok ∨ (p.sockCloexec = true ∧ k.first = .inval ∧ k.second = .ok))) := by
        intro s0
        unfold FdSock.sockets
        split
        · rename_i hp
          dsimp only
          split
          · rename_i hf
            rw [socket_fd]
            simp [hp, hf.2]
          · rename_i hf
            rw [socket_fd] at hf
            rw [socket_fd]
            cases hkf : k.first <;> simp_all
        · rename_i hp
          rw [socket_fd]
          simp [hp]
      obtain ⟨r1, r2, r3⟩ := sockets_rest p { s with opens := s.opens.tail } k
      have hs := hsock { s with opens := s.opens.tail }
      generalize FdSock.sockets p { s with opens := s.opens.tail } k = s1 at r1 r2 r3 hs
      have rest : ∀ s2 : FdSock, s2.sock = s1.sock → s2.opens = s1.opens → s2.closes = s1.closes →
          s2.plain p = { s.plain p with conn := (s.plain p).conn.tail } := by
        intro s2 a b c
        simp only [FdSock.plain, a, b, c, r1, r2, r3, List.map_tail]
      split
      · rename_i hf
        rw [hs] at hf
        have : k.succeeds p = false := by
          simp only [KOpen.succeeds]
          cases hkf : k.first <;> simp_all
        rw [if_neg (by simp [this])]
        exact congrArg (fun x => Except.ok (Res.failure, x)) (rest s1 rfl rfl rfl)
      · rename_i hf
        rw [hs, Classical.not_not] at hf
        have hfirst : (decide (k.first = .ok) ||
            (p.sockCloexec && decide (k.first = .inval) && decide (k.second = .ok))) = true := by
          simpa [and_assoc] using hf
        have f2 : ∃ s2, (if p.fdCloexec = true then s1.fcntl k else s1) = s2 ∧
            s2.sock = s1.sock ∧ s2.opens = s1.opens ∧ s2.closes = s1.closes := by
          refine ⟨_, rfl, ?_⟩
          split
          · obtain ⟨a, b, c, _⟩ := fcntl_rest s1 k; exact ⟨a, b, c⟩
          · exact ⟨rfl, rfl, rfl⟩
        obtain ⟨s2, e2, a2, b2, c2⟩ := f2
        rw [e2]
        have f3 : ∃ s3, (if p.soNosigpipe = true then s2.nosigpipe k else s2) = s3 ∧
            s3.sock = s1.sock ∧ s3.opens = s1.opens ∧ s3.closes = s1.closes := by
          refine ⟨_, rfl, ?_⟩
          split
          · obtain ⟨_, q, _, _, q', q''⟩ := nosigpipe_rest s2 k
            exact ⟨q.trans a2, q'.trans b2, q''.trans c2⟩
          · exact ⟨a2, b2, c2⟩
        obtain ⟨s3, e3, a3, b3, c3⟩ := f3
        rw [e3]
        split
        · rename_i hn
          have : k.succeeds p = false := by
            have h1 := hn.1
            have h2 : k.sockopt = false := by simpa using hn.2
            simp [KOpen.succeeds, h1, h2]
          rw [if_neg (by simp [this])]
          exact congrArg (fun x => Except.ok (Res.failure, x))
            (rest (s3.closeFd (k.before 5)) a3 b3 c3)
        · rename_i hn
          have hn' : (!p.soNosigpipe || k.sockopt) = true := by
            cases h1 : p.soNosigpipe <;> cases h2 : k.sockopt <;> simp_all
          split
          · rename_i hcn
            have : k.succeeds p = false := by
              have h2 : k.connect = false := by simpa using hcn
              simp [KOpen.succeeds, h2]
            rw [if_neg (by simp [this])]
            exact congrArg (fun x => Except.ok (Res.failure, x))
              (rest ((s3.call .connect (k.before 6)).closeFd (k.before 7)) a3 b3 c3)
          · rename_i hcn
            have : k.succeeds p = true := by
              have h2 : k.connect = true := by simpa using hcn
              simp only [KOpen.succeeds, hfirst, hn', h2, Bool.and_true]
            rw [if_pos this]
            show Except.ok _ = Except.ok _
            have := rest s3 a3 b3 c3
            simp only [FdSock.plain, FdSock.call] at this ⊢
            rw [a3] at this ⊢
            rw [r1] at this ⊢
            rw [b3, r2] at this ⊢
            rw [c3, r3] at this ⊢
            simp only [List.map_tail]
  · unfold FdSock.opClose Sock.opClose
    have hpc : (s.plain p).connected = s.sock.connected := rfl
    rw [hpc]
    have hcl : (s.plain p).close.head?.getD true = (s.closes.head?.getD {}).ok := by
      cases h : s.closes with
      | nil => simp [FdSock.plain, h]
      | cons a l => simp [FdSock.plain, h]
    split
    · dsimp only
      rw [hcl]
      split <;>
      · show Except.ok _ = Except.ok _
        simp only [FdSock.plain, FdSock.closeFd, FdSock.call, List.map_tail]
    · rfl
  · intro n
    unfold FdSock.opRead
    cases hc : s.sock.connected <;> simp [Sock.opRead, FdSock.plain, hc, FdSock.call, bind, Except.bind, Except.map]
    cases hb : (readBytes s.sock.reads n s.sock.inp []).1 <;> simp
  · intro iov
    unfold FdSock.opWrite
    cases hc : s.sock.connected <;>
      simp [Sock.opWrite, FdSock.plain, hc, FdSock.call, bind, Except.bind, Except.map]
    cases hb : sendLoop s.sock.past (List.map List.length iov).sum (s.sock.sends.length + 2)
      s.sock.sends iov 0 s.sock.out <;> rfl

variable {p : Platform} {peers : List Bytes} {reads : List KRead} {sends : List KSend}
  {past : List Nat} {descrs : List (Option Bool)} {opens : List KOpen} {closes : List KClose}
  {uses : List (List Other)} {wopt : Option WriterOptions} {w w' : Writer FdSock}
  {calls : List WOp} {rs : List Res}

theorem init_at (descrs : List (Option Bool)) (i : Int) (d : Descr)
    (h : Descrs.at (descrs.map (·.map fun c => ⟨false, c, false⟩)) i = some d) : d.mine = false := by
  unfold Descrs.at at h
  split at h
  · cases h
  · rw [List.getElem?_map] at h
    cases hx : descrs[i.toNat]? with
    | none => rw [hx] at h; cases h
    | some x =>
      rw [hx] at h
      cases x with
      | none => cases h
      | some c => cases h; rfl

theorem init_mine (F : Descr → Prop) :
    Mine (FdSock.init peers reads sends past descrs opens closes uses).proc (fun _ => False) F := by
  refine ⟨fun i => ?_, fun i d hd hm => ?_⟩
  · simp only [Descrs.mineAt, FdSock.init, iff_false]
    cases hd : Descrs.at (descrs.map (·.map fun c => (⟨false, c, false⟩ : Descr))) i with
    | none => simp
    | some d => simp [init_at _ _ _ hd]
  · rw [init_at _ _ _ hd] at hm; cases hm

theorem init_fdInv : FdInv (FdSock.init peers reads sends past descrs opens closes uses) :=
  ⟨(init_mine _).congr fun i => by simp [FdSock.init, Sock.init], fun e he => by cases he⟩

theorem run_fdInv
    (hinit : Writer.init wopt (Rdwr.init (fdSockOps p)
      (FdSock.init peers reads sends past descrs opens closes uses)) = some w)
    (hrun : w.run calls = .ok (rs, w')) :
    FdInv w'.rdwr.obj ∧ w'.rdwr.obj.sock.connected = w'.rdwr.opened := by
  have h3 := (init_some hinit).2.2.1
  refine fdInv_reach (p := p) (run_reach hrun) ?_ ?_ ?_
  · rw [h3]; rfl
  · rw [h3]; exact init_fdInv
  · rw [h3]; rfl

theorem own_length {s : FdSock} (h : FdInv s) :
    s.proc.descrs.own.length = if s.sock.connected then 1 else 0 := by
  have hmem : ∀ i, i ∈ s.proc.descrs.own ↔ (s.sock.connected = true ∧ (i : Int) = s.fd) :=
    fun i => (Descrs.mem_own _ _).trans (h.mine.iff i)
  split
  · rename_i hc
    have hfd : s.proc.descrs.mineAt s.fd = true := (h.mine.iff s.fd).2 ⟨hc, rfl⟩
    have hnn : 0 ≤ s.fd := by
      rcases Int.lt_or_le s.fd 0 with h' | h'
      · simp [Descrs.mineAt, Descrs.at_neg _ h'] at hfd
      · exact h'
    obtain ⟨n, hn⟩ := Int.eq_ofNat_of_zero_le hnn
    have hin : n ∈ s.proc.descrs.own := (hmem n).2 ⟨hc, hn.symm⟩
    have hall : ∀ i ∈ s.proc.descrs.own, i = n := by
      intro i hi
      have := ((hmem i).1 hi).2
      rw [hn] at this
      exact_mod_cast this
    have hnd := Descrs.own_nodup s.proc.descrs
    cases ho : s.proc.descrs.own with
    | nil => rw [ho] at hin; cases hin
    | cons a l =>
      cases l with
      | nil => rfl
      | cons b l =>
        rw [ho] at hall hnd
        have h1 := hall a (by simp)
        have h2 := hall b (by simp)
        rw [h1, h2] at hnd
        simp at hnd
  · rename_i hc
    rw [List.length_eq_zero_iff, List.eq_nil_iff_forall_not_mem]
    intro i hi
    exact hc ((hmem i).1 hi).1

/-- **C98**: Whatever is called on a unix or tcp writer, whatever the kernel answers and whatever
other threads do with their descriptors in between: the writer holds at most one descriptor, and
every system call it makes on a descriptor is made on one that it created itself and that is open
at that time. So it never closes or writes to a descriptor of somebody else. -/
theorem sock_descriptors
    (hinit : Writer.init wopt (Rdwr.init (fdSockOps p)
      (FdSock.init peers reads sends past descrs opens closes uses)) = some w)
    (hrun : w.run calls = .ok (rs, w')) :
    w'.rdwr.obj.proc.descrs.own.length ≤ 1 ∧
    ∀ c d, (c, d) ∈ w'.rdwr.obj.proc.trail →
      (∃ cloexec, c = .socket cloexec) ∨ ∃ x, d = some x ∧ x.mine = true := by
  obtain ⟨h, _⟩ := run_fdInv hinit hrun
  refine ⟨?_, fun c d hd => h.calls _ hd⟩
  rw [own_length h]
  split <;> omega

/-- `fstrm_writer_destroy` closes an open stream as `fstrm_writer_close` does, and makes no further
system calls. -/
theorem destroy_run {r : Res} {rw : Rdwr FdSock}
    (hinit : Writer.init wopt (Rdwr.init (fdSockOps p)
      (FdSock.init peers reads sends past descrs opens closes uses)) = some w)
    (hrun : w.run calls = .ok (rs, w')) (hd : w'.destroy = .ok (r, rw)) :
    ∃ cs rs' w2, w.run cs = .ok (rs', w2) ∧ rw.obj = w2.rdwr.obj := by
  have h3 := (init_some hinit).2.2.1
  unfold Writer.destroy at hd
  obtain ⟨⟨res, w2⟩, h1, hd⟩ := Exec.bind_eq_ok.1 hd
  obtain ⟨⟨res2, rw2⟩, h2, hd⟩ := Exec.bind_eq_ok.1 hd
  cases hd
  have hcl : ∃ cs rs', w.run cs = .ok (rs', w2) := by
    split at h1
    · refine ⟨calls ++ [.close], rs ++ [r], ?_⟩
      rw [run_append]
      refine ⟨rs, w', [r], hrun, ?_, rfl⟩
      simp only [Writer.run, Writer.step, h1]
      rfl
    · cases h1; exact ⟨calls, rs, hrun⟩
  obtain ⟨cs, rs', h5⟩ := hcl
  have hops : w2.rdwr.ops = fdSockOps p := by
    rw [(run_reach h5).ops, h3]; rfl
  unfold Rdwr.destroy at h2
  rw [hops] at h2
  cases h2
  exact ⟨cs, rs', w2, h5, rfl⟩

/-- **C98**: this is also true of `fstrm_writer_destroy`, at the end of any history. -/
theorem sock_destroy_descriptors {r : Res} {rw : Rdwr FdSock}
    (hinit : Writer.init wopt (Rdwr.init (fdSockOps p)
      (FdSock.init peers reads sends past descrs opens closes uses)) = some w)
    (hrun : w.run calls = .ok (rs, w')) (hd : w'.destroy = .ok (r, rw)) :
    rw.obj.proc.descrs.own.length ≤ 1 ∧
    ∀ c d, (c, d) ∈ rw.obj.proc.trail →
      (∃ cloexec, c = .socket cloexec) ∨ ∃ x, d = some x ∧ x.mine = true := by
  obtain ⟨cs, rs', w2, h1, h2⟩ := destroy_run hinit hrun hd
  rw [h2]
  exact sock_descriptors hinit h1

/-- A history of one call. -/
theorem run_one {w0 w1 : Writer FdSock} {op : WOp} {rs' : List Res}
    (h : w0.run [op] = .ok (rs', w1)) : ∃ r, rs' = [r] ∧ w0.step op = .ok (r, w1) := by
  obtain ⟨⟨r, w2⟩, h1, h⟩ := Exec.bind_eq_ok.1 h
  obtain ⟨⟨rs2, w3⟩, h2, h⟩ := Exec.bind_eq_ok.1 h
  cases h2; cases h
  exact ⟨r, rfl, h1⟩

theorem step_write_success {w0 w1 : Writer FdSock} {d : Bytes}
    (h : w0.step (.write d) = .ok (.success, w1)) :
    w1.rdwr.opened = true ∧ w1.state = .opened := by
  obtain ⟨w2, _, h2, h3⟩ := writev_maybeOpen (iov := [d]) (by simp) h
  have h4 := (writev_opened h2 h3).1
  unfold Writer.writev at h3
  have : w2.maybeOpen = .ok (.success, w2) := by
    unfold Writer.maybeOpen; rw [if_neg (by rw [h2]; simp)]
  rw [if_neg (by simp), this, Exec.ok_bind] at h3
  simp only [ne_eq, not_true_eq_false, if_false] at h3
  rw [if_pos h2, if_neg (by simp [INT_MAX]), if_pos (by simp [WRITER_IOVEC_SIZE])] at h3
  obtain ⟨rw, h5, rfl⟩ := writeIov_ok (by simp) h3
  exact ⟨(write_success h5).2.2.1, h4⟩

theorem step_open_success {w0 w1 : Writer FdSock} (h : w0.step .opn = .ok (.success, w1)) :
    w1.state = .opened := by
  have h8' : w0.open = .ok (.success, w1) := h
  by_cases ho : w0.state = .opened
  · unfold Writer.open at h8'
    rw [if_pos ho] at h8'; cases h8'
    exact ho
  · exact (open_frame h8').2.2.1 rfl

theorem step_stays_opened {w0 w1 : Writer FdSock} {op : WOp} {r : Res} (ho : w0.state = .opened)
    (hop : op ≠ .close) (h : w0.step op = .ok (r, w1)) : w1.state = .opened := by
  have hwv : ∀ iov, w0.writev iov = .ok (r, w1) → w1.state = .opened := by
    intro iov h
    exact (writev_opened ho h).1
  cases op with
  | opn =>
    have h' : w0.open = .ok (r, w1) := h
    unfold Writer.open at h'
    rw [if_pos ho] at h'; cases h'
    exact ho
  | write d => exact hwv [d] h
  | writev ds => exact hwv ds h
  | getControl t =>
    obtain ⟨⟨res, c, w2⟩, h1, h⟩ := Exec.bind_eq_ok.1 h
    cases h
    obtain ⟨r', h2, _⟩ := getControl_maybeOpen h1
    unfold Writer.maybeOpen at h2
    rw [if_neg (by rw [ho]; simp)] at h2
    cases h2; exact ho
  | close => exact absurd rfl hop

theorem run_stays_opened {w0 w1 : Writer FdSock} {ops : List WOp} {rs' : List Res}
    (ho : w0.state = .opened) (hop : WOp.close ∉ ops) (h : w0.run ops = .ok (rs', w1)) :
    w1.state = .opened := by
  induction ops generalizing w0 rs' with
  | nil => cases h; exact ho
  | cons op rest ih =>
    obtain ⟨⟨r, w2⟩, h1, h⟩ := Exec.bind_eq_ok.1 h
    obtain ⟨⟨rs2, w3⟩, h2, h⟩ := Exec.bind_eq_ok.1 h
    cases h
    simp only [List.mem_cons, not_or] at hop
    exact ih (step_stays_opened ho (fun e => hop.1 e.symm) h1) hop.2 h2

theorem closed_own_nil
    (hinit : Writer.init wopt (Rdwr.init (fdSockOps p)
      (FdSock.init peers reads sends past descrs opens closes uses)) = some w)
    (hrun : w.run calls = .ok (rs, w')) (hcl : w'.rdwr.opened = false) :
    w'.rdwr.obj.proc.descrs.own = [] := by
  obtain ⟨a, b⟩ := run_fdInv hinit hrun
  rw [← List.length_eq_zero_iff, own_length a, b, hcl]
  rfl

/-- **C98**: when a frame has been written successfully the writer has its descriptor. -/
theorem sock_descriptor_held
    (hinit : Writer.init wopt (Rdwr.init (fdSockOps p)
      (FdSock.init peers reads sends past descrs opens closes uses)) = some w)
    (d : Bytes) (hrun : w.run (calls ++ [.write d]) = .ok (rs ++ [.success], w')) :
    w'.rdwr.obj.proc.descrs.own.length = 1 := by
  obtain ⟨a, b⟩ := run_fdInv hinit hrun
  rw [run_append] at hrun
  obtain ⟨r1, w1, r2, h1, h2, h3⟩ := hrun
  obtain ⟨r, rfl, h4⟩ := run_one h2
  have := (List.append_inj' h3 rfl).2
  cases this
  rw [own_length a, b, (step_write_success h4).1]
  rfl

/-- **C98**: closing an open writer gives its descriptor back, whatever `fstrm_writer_close`
returns. The writer is open if a call `op` has opened it or has written a frame successfully, and it
has not been closed since (in `mid`). -/
theorem sock_descriptor_closed
    (hinit : Writer.init wopt (Rdwr.init (fdSockOps p)
      (FdSock.init peers reads sends past descrs opens closes uses)) = some w)
    (op : WOp) (mid : List WOp) (r : Res) (ms : List Res)
    (hop : op = .opn ∨ ∃ d, op = .write d) (hmid : WOp.close ∉ mid) (hms : ms.length = mid.length)
    (hrun : w.run (calls ++ [op] ++ mid ++ [.close]) = .ok (rs ++ [.success] ++ ms ++ [r], w')) :
    w'.rdwr.obj.proc.descrs.own = [] := by
  have h0 := hrun
  have len : ∀ (ops : List WOp) (w0 w1 : Writer FdSock) (rs' : List Res),
      w0.run ops = .ok (rs', w1) → rs'.length = ops.length := by
    intro ops
    induction ops with
    | nil => intro w0 w1 rs' h; cases h; rfl
    | cons op rest ih =>
      intro w0 w1 rs' h
      obtain ⟨⟨r, w2⟩, h1, h⟩ := Exec.bind_eq_ok.1 h
      obtain ⟨⟨rs2, w3⟩, h2, h⟩ := Exec.bind_eq_ok.1 h
      cases h
      simp [ih _ _ _ h2]
  rw [run_append] at hrun
  obtain ⟨r1, w1, r2, h1, h2, h3⟩ := hrun
  obtain ⟨r', rfl, h4⟩ := run_one h2
  obtain ⟨e1, _⟩ := List.append_inj' h3 rfl
  refine closed_own_nil hinit h0
    ((close_traced (run_traced (WInv.init hinit (by simp [fdSockOps])) h1) h4).2 ?_)
  rw [run_append] at h1
  obtain ⟨r5, w5, r6, h5, h6, h7⟩ := h1
  refine run_stays_opened ?_ hmid h6
  rw [h7] at e1
  obtain ⟨e3, _⟩ := List.append_inj' e1 (by rw [hms, len _ _ _ _ h6])
  rw [run_append] at h5
  obtain ⟨r8, w8, r9, h8, h9, h10⟩ := h5
  obtain ⟨r11, rfl, h11⟩ := run_one h9
  rw [h10] at e3
  have := (List.append_inj' e3 rfl).2
  cases this
  rcases hop with rfl | ⟨d, rfl⟩
  · exact step_open_success h11
  · exact (step_write_success h11).2

/-- **C98**, `_partial`: after `fstrm_writer_destroy` the writer has no descriptor left, provided that
no call on it failed. Without this proviso it is false (`sock_descriptor_leak`). -/
theorem sock_descriptor_destroy_partial {r : Res} {rw : Rdwr FdSock}
    (hinit : Writer.init wopt (Rdwr.init (fdSockOps p)
      (FdSock.init peers reads sends past descrs opens closes uses)) = some w)
    (hrun : w.run calls = .ok (rs, w')) (hok : ∀ r ∈ rs, r = .success)
    (hd : w'.destroy = .ok (r, rw)) :
    rw.obj.proc.descrs.own = [] := by
  have h3 := (init_some hinit).2.2.1
  have key : ∀ (ops : List WOp) (w0 w1 : Writer FdSock) (rs' : List Res), WInv w0 →
      (w0.state = .opened ∨ w0.rdwr.opened = false) → w0.run ops = .ok (rs', w1) →
      (∀ r ∈ rs', r = .success) → (w1.state = .opened ∨ w1.rdwr.opened = false) := by
    intro ops
    induction ops with
    | nil => intro w0 w1 rs' _ h1 h2 _; cases h2; exact h1
    | cons op rest ih =>
      intro w0 w1 rs' hi h1 h2 hok
      obtain ⟨⟨r, w2⟩, h4, h⟩ := Exec.bind_eq_ok.1 h2
      obtain ⟨⟨rs2, w3⟩, h5, h⟩ := Exec.bind_eq_ok.1 h
      cases h
      have hr : r = .success := hok r (by simp)
      subst hr
      refine ih w2 w1 rs2 (step_traced hi h4) ?_ h5 fun r hr => hok r (by simp [hr])
      by_cases hop : op = .close
      · subst hop
        have hc : w0.close = .ok (.success, w2) := h4
        by_cases hst : w0.state = .opened
        · exact Or.inr ((close_traced hi hc).2 hst)
        · exact absurd ((close_frame hc).2.2.1 hst).1 (by simp)
      · rcases step_success hop h4 with ⟨rfl, _⟩ | ⟨_, _, _, h6, _⟩
        · exact h1
        · exact Or.inl h6
  have hw := WInv.init hinit (by simp [fdSockOps])
  have hfin := key calls w w' rs hw (Or.inr (by rw [h3]; rfl)) hrun hok
  unfold Writer.destroy at hd
  obtain ⟨⟨res, w2⟩, h1, hd⟩ := Exec.bind_eq_ok.1 hd
  obtain ⟨⟨res2, rw2⟩, h2, hd⟩ := Exec.bind_eq_ok.1 hd
  cases hd
  have hcl : ∃ cs rs', w.run cs = .ok (rs', w2) ∧ w2.rdwr.opened = false := by
    split at h1
    · rename_i hst
      refine ⟨calls ++ [.close], rs ++ [r], ?_, (close_traced (run_traced hw hrun) h1).2 hst⟩
      rw [run_append]
      refine ⟨rs, w', [r], hrun, ?_, rfl⟩
      simp only [Writer.run, Writer.step, h1]
      rfl
    · rename_i hst
      cases h1
      exact ⟨calls, rs, hrun, hfin.resolve_left hst⟩
  obtain ⟨cs, rs', h5, h6⟩ := hcl
  have hn := closed_own_nil hinit h5 h6
  have hops : w2.rdwr.ops = fdSockOps p := by
    rw [(run_reach h5).ops, h3]; rfl
  unfold Rdwr.destroy at h2
  rw [hops] at h2
  cases h2
  exact hn

/-- Linux. -/
abbrev linux : Platform := ⟨true, true, false, true⟩

/-- A descriptor is lost for good when the handshake fails and the writer is destroyed (here the
peer offers no common content type): `fstrm_writer_destroy` does not close the connection. -/
theorem sock_descriptor_leak :
    ((Writer.init (some ⟨[[1]]⟩) (Rdwr.init (fdSockOps linux)
      (FdSock.init [CFrame.wire ⟨.accept, [[2]]⟩] [] [] [] [some false, some false, some false]
        [] [] []))).map fun w => (do
      let (rs, w) ← w.run [.opn, .close]
      let (_, rw) ← w.destroy
      Except.ok (rs, rw.obj.proc.descrs.own) : Exec (List Res × List Nat))) =
    some (.ok ([.failure, .failure], [3])) := by decide +kernel

/-- The hypotheses of `sock_descriptor_destroy_partial` and the others are met: descriptor 3 is used,
although another thread closes descriptor 0 and opens others meanwhile; after the close another
thread gets the number 3, and the writer connects again with number 4 without touching it. -/
example : ((Writer.init (some ⟨[[1]]⟩) (Rdwr.init (fdSockOps linux)
      (FdSock.init (List.replicate 2 (CFrame.wire ⟨.accept, [[1]]⟩ ++ CFrame.wire ⟨.finish, []⟩))
        [] [] [] [some false, some false, some false]
        [{ first := .inval, others := [[], [], [.closes 0, .closes 3]] },
         { others := [[.opens true, .opens true]] }] [{ ok := true }] [[.spawns]]))).map fun w => (do
      let (rs, w1) ← w.run [.opn, .write [7], .close]
      let (rs', w2) ← w1.run [.opn, .write [8]]
      let (rs'', w3) ← w2.run [.close]
      Except.ok (rs ++ rs' ++ rs'', [w1.rdwr.obj.proc.descrs.own, w2.rdwr.obj.proc.descrs.own,
        w3.rdwr.obj.proc.descrs.own] ++ w3.rdwr.obj.proc.inherited) :
      Exec (List Res × List (List Nat)))) =
    some (.ok (List.replicate 6 .success, [[], [4], [], []])) := by decide +kernel

/-! ### Close-on-exec -/

/-- **C99**, `_partial`: a program that another thread starts, at whatever time, gets no descriptor
of the writer. This needs a kernel that knows `SOCK_CLOEXEC`; where it does not (and for attempts to
connect for which it does not), no program may be started between `socket` and the second `fcntl`
call, and `fcntl` must work. Without this it is false (`sock_inherited`). -/
theorem sock_not_inherited_partial
    (hinit : Writer.init wopt (Rdwr.init (fdSockOps p)
      (FdSock.init peers reads sends past descrs opens closes uses)) = some w)
    (hrun : w.run calls = .ok (rs, w'))
    (hp : p.sockCloexec = true ∨ p.fdCloexec = true)
    (hk : ∀ k ∈ opens, (p.sockCloexec = true ∧ k.first ≠ .inval) ∨
      (p.fdCloexec = true ∧ k.getfd = true ∧ k.setfd = true ∧
        ∀ os ∈ (k.others.drop 2).take 2, Other.spawns ∉ os)) :
    ∀ got ∈ w'.rdwr.obj.proc.inherited, got = [] := by
  have h3 := (init_some hinit).2.2.1
  have hget : ∀ (k : KOpen) (i : Nat), (i = 2 ∨ i = 3) →
      (∀ os ∈ (k.others.drop 2).take 2, Other.spawns ∉ os) → Other.spawns ∉ k.before i := by
    intro k i hi h hm
    unfold KOpen.before at hm
    rw [List.getD_eq_getElem?_getD] at hm
    cases hx : k.others[i]? with
    | none => rw [hx] at hm; cases hm
    | some os =>
      rw [hx] at hm
      refine h os ?_ hm
      rw [List.mem_iff_getElem?]
      refine ⟨i - 2, ?_⟩
      rw [List.getElem?_take, if_pos (by omega), List.getElem?_drop]
      rw [show 2 + (i - 2) = i from by omega]
      exact hx
  refine (fdExec_reach (p := p) (run_reach hrun) (by rw [h3]; rfl) ?_).none
  rw [h3]
  refine ⟨init_fdInv, (init_mine _).congr fun i => by simp [Rdwr.init, FdSock.init, Sock.init],
    (fun l (hl : l ∈ ([] : List (List Nat))) => by cases hl), ?_, ?_⟩
  · intro k hk'
    rcases hk k hk' with h | ⟨a, b, c, d⟩
    · exact Or.inl h
    · exact Or.inr ⟨a, b, c, hget k 2 (Or.inl rfl) d, hget k 3 (Or.inr rfl) d⟩
  · rcases hp with h | h
    · exact Or.inl ⟨h, by simp⟩
    · exact Or.inr ⟨h, rfl, rfl, by simp [KOpen.before], by simp [KOpen.before]⟩

/-- **C99**, `_partial`: the same for programs started while `fstrm_writer_destroy` runs. -/
theorem sock_destroy_not_inherited_partial {r : Res} {rw : Rdwr FdSock}
    (hinit : Writer.init wopt (Rdwr.init (fdSockOps p)
      (FdSock.init peers reads sends past descrs opens closes uses)) = some w)
    (hrun : w.run calls = .ok (rs, w')) (hd : w'.destroy = .ok (r, rw))
    (hp : p.sockCloexec = true ∨ p.fdCloexec = true)
    (hk : ∀ k ∈ opens, (p.sockCloexec = true ∧ k.first ≠ .inval) ∨
      (p.fdCloexec = true ∧ k.getfd = true ∧ k.setfd = true ∧
        ∀ os ∈ (k.others.drop 2).take 2, Other.spawns ∉ os)) :
    ∀ got ∈ rw.obj.proc.inherited, got = [] := by
  obtain ⟨cs, rs', w2, h1, h2⟩ := destroy_run hinit hrun hd
  rw [h2]
  exact sock_not_inherited_partial hinit h1 hp hk

/-- There a program is started while the open writer is destroyed, by `fstrm_writer_destroy` closing
it: descriptor 3 is closed, and the program has not got it. -/
example : ((Writer.init none (Rdwr.init (fdSockOps linux)
      (FdSock.init [CFrame.wire ⟨.accept, []⟩ ++ CFrame.wire ⟨.finish, []⟩] [] [] []
        [some false, some false, some false] [] [{ others := [.spawns] }] []))).map fun w =>
      (w.run [.opn]).bind fun x => x.2.destroy.map fun y =>
        (x.1, [x.2.rdwr.obj.proc.descrs.own, y.2.obj.proc.descrs.own] ++ y.2.obj.proc.inherited)) =
    some (.ok ([.success], [[3], [], []])) := by decide +kernel

/-- On a kernel without `SOCK_CLOEXEC` a program started at the wrong time gets the socket. -/
theorem sock_inherited :
    ((Writer.init none (Rdwr.init (fdSockOps linux)
      (FdSock.init [CFrame.wire ⟨.accept, []⟩] [] [] [] [some false, some false, some false]
        [{ first := .inval, others := [[], [], [.spawns]] }] [] []))).map fun w =>
      (w.run [.opn]).map fun x => (x.1, x.2.rdwr.obj.proc.inherited)) =
    some (.ok ([.success], [[3]])) := by decide +kernel

/-- The hypotheses of `sock_not_inherited_partial` are met: programs are started before every system
call of a first attempt, which fails, and during a second one on a kernel without `SOCK_CLOEXEC`. -/
example : ((Writer.init none (Rdwr.init (fdSockOps linux)
      (FdSock.init [CFrame.wire ⟨.accept, []⟩] [] [] [] [some false]
        [{ connect := false, others := List.replicate 8 [.spawns] },
         { first := .inval, others := [[.spawns], [.spawns], [], [.opens true], [], [], [.spawns]] }]
        [] [[.spawns], [.spawns]]))).map fun w =>
      (w.run [.opn, .opn]).map fun x => (x.1, x.2.rdwr.obj.proc.inherited)) =
    some (.ok ([.failure, .success], List.replicate 10 [])) ∧
    ∀ k ∈ [({ connect := false, others := List.replicate 8 [.spawns] } : KOpen),
         { first := .inval, others := [[.spawns], [.spawns], [], [.opens true], [], [], [.spawns]] }],
      (linux.sockCloexec = true ∧ k.first ≠ .inval) ∨
      (linux.fdCloexec = true ∧ k.getfd = true ∧ k.setfd = true ∧
        ∀ os ∈ (k.others.drop 2).take 2, Other.spawns ∉ os) := by
  refine ⟨by decide +kernel, ?_⟩
  intro k hk
  simp only [List.mem_cons, List.not_mem_nil, or_false] at hk
  rcases hk with rfl | rfl
  · left; decide
  · right; decide

end Fstrm.Props
