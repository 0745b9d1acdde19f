import Verif.Lemmas.FdSock

/-! Programs started by a process do not inherit the descriptors of its socket writers. -/

set_option autoImplicit false

namespace Fstrm

variable {s s' : FdSock} {P : Int → Prop}

/-- Close-on-exec. -/
abbrev Flagged : Descr → Prop := fun d => d.cloexec = true

/-- No program got one of the writer's descriptors. -/
def NoneInherited (p : Proc) : Prop := ∀ l ∈ p.inherited, l = []

theorem NoneInherited.others {p : Proc} (h : NoneInherited p) (hm : Mine p P Flagged)
    (os : List Other) : NoneInherited (p.others os) := by
  intro l hl
  rcases inherited_others hm os l hl with h1 | h1
  · exact h l h1
  · exact h1

theorem Mine.noneFlagged {p : Proc} {F : Descr → Prop} (h : Mine p (fun _ => False) F) :
    Mine p (fun _ => False) Flagged := by
  refine ⟨h.iff, fun i d hd hm => ?_⟩
  exact absurd ((h.iff i).1 (by simp [Descrs.mineAt, hd, hm])) id

theorem NoneInherited.call (h : NoneInherited s.proc) (hm : Mine s.proc P Flagged) (c : Sys)
    (os : List Other) : NoneInherited (s.call c os).proc := h.others hm os

theorem NoneInherited.socket {F : Descr → Prop} (h : NoneInherited s.proc)
    (hm : Mine s.proc (fun _ => False) F)
    (c : Bool) (k : KSocket) (os : List Other) : NoneInherited (s.socket c k os).proc := by
  have := h.others hm.noneFlagged os
  cases k <;> exact this

/-- An attempt to open a connection during which no descriptor can be inherited: the kernel knows
`SOCK_CLOEXEC`, or `fcntl` works and no program is started before it has been called. -/
def KOpen.Safe (p : Platform) (k : KOpen) : Prop :=
  (p.sockCloexec = true ∧ k.first ≠ .inval) ∨
  (p.fdCloexec = true ∧ k.getfd = true ∧ k.setfd = true ∧
    Other.spawns ∉ k.before 2 ∧ Other.spawns ∉ k.before 3)

/-- As `FdInv`, for the close-on-exec flag. -/
structure FdExec (p : Platform) (s : FdSock) : Prop where
  inv : FdInv s
  flag : Mine s.proc (fun i => s.sock.connected = true ∧ i = s.fd) Flagged
  none : NoneInherited s.proc
  safe : ∀ k ∈ s.opens, k.Safe p
  default : KOpen.Safe p {}

theorem sockets_flag {p : Platform} {k : KOpen} (h : Mine s.proc (fun _ => False) AnyFlag)
    (hn : NoneInherited s.proc) :
    NoneInherited (s.sockets p k).proc ∧
    (p.sockCloexec = true ∧ k.first ≠ .inval → ¬ (s.sockets p k).fd < 0 →
      Mine (s.sockets p k).proc (fun i => i = (s.sockets p k).fd) Flagged) := by
  unfold FdSock.sockets
  split
  · dsimp only
    split
    · rename_i hf
      obtain ⟨_, b⟩ := h.none_socket.2 ((socket_fd _ _ _ _).1 hf.1)
      exact ⟨(hn.socket h _ _ _).socket b _ _ _, fun h' => absurd hf.2 h'.2⟩
    · refine ⟨hn.socket h _ _ _, fun h' hfd => ?_⟩
      rw [socket_fd] at hfd
      cases hr : k.first with
      | ok => exact h.noneFlagged.none_socket.1 ⟨rfl, fun _ h => h⟩
      | inval => rw [hr] at hfd; exact absurd (by simp) hfd
      | fail => rw [hr] at hfd; exact absurd (by simp) hfd
  · rename_i hp
    exact ⟨hn.socket h _ _ _, fun h' => absurd h'.1 hp⟩

theorem fcntl_flagged {k : KOpen} (h : Mine s.proc P Flagged) (hn : NoneInherited s.proc) :
    Mine (s.fcntl k).proc P Flagged ∧ NoneInherited (s.fcntl k).proc := by
  unfold FdSock.fcntl
  dsimp only
  have h1 := h.call .getfd (k.before 2)
  have n1 := hn.call h .getfd (k.before 2)
  split
  · have h2 := h1.call .setfd (k.before 3)
    have n2 := n1.call h1 .setfd (k.before 3)
    split
    · refine ⟨h2.setFlag fun _ h => h, ?_⟩
      unfold NoneInherited
      rw [(setFlag_rest ((s.call .getfd (k.before 2)).call .setfd (k.before 3))).2.2.2.1]
      exact n2
    · exact ⟨h2, n2⟩
  · exact ⟨h1, n1⟩

theorem fcntl_flags {k : KOpen} (h : Mine s.proc (fun i => i = s.fd) AnyFlag)
    (hn : NoneInherited s.proc) (h1 : k.getfd = true) (h2 : k.setfd = true)
    (h3 : Other.spawns ∉ k.before 2) (h4 : Other.spawns ∉ k.before 3) :
    Mine (s.fcntl k).proc (fun i => i = s.fd) Flagged ∧ NoneInherited (s.fcntl k).proc := by
  unfold FdSock.fcntl
  dsimp only
  rw [if_pos h1, if_pos h2]
  have m := (h.call .getfd (k.before 2))
  have m := Mine.call (s := s.call .getfd (k.before 2)) m .setfd (k.before 3)
  have hi : ((s.call .getfd (k.before 2)).call .setfd (k.before 3)).proc.inherited
      = s.proc.inherited := by
    show ((s.call .getfd (k.before 2)).proc.others (k.before 3)).inherited = _
    rw [inherited_same h4]
    show (s.proc.others (k.before 2)).inherited = _
    rw [inherited_same h3]
  have hfd : ((s.call .getfd (k.before 2)).call .setfd (k.before 3)).fd = s.fd := rfl
  generalize (s.call .getfd (k.before 2)).call .setfd (k.before 3) = s2 at m hi hfd
  refine ⟨⟨(m.setFlag fun _ _ => trivial).iff, ?_⟩, ?_⟩
  · intro i d hd hm
    have hi' := ((m.setFlag fun _ _ => trivial).iff i).1 (by simp [Descrs.mineAt, hd, hm])
    subst hi'
    unfold FdSock.setFlag at hd
    split at hd
    · rename_i d' hd'
      simp only at hd
      rw [Descrs.at_set _ _ _ _ _ hd', if_pos hfd.symm] at hd
      cases hd; rfl
    · rename_i hd'
      rw [← hfd, hd'] at hd
      exact absurd hd (by simp)
  · unfold NoneInherited
    rw [(setFlag_rest s2).2.2.2.1, hi]
    exact hn

theorem FdExec.opOpen {p : Platform} {r : Res} (h : FdExec p s) (e : s.opOpen p = .ok (r, s')) :
    FdExec p s' := by
  have hinv := (h.inv.opOpen e).1
  unfold FdSock.opOpen at e
  split at e
  · cases e; exact h
  · rename_i hc
    generalize hk : (s.opens.head?.getD {} : KOpen) = k at e
    have hsafe : k.Safe p := by
      rw [← hk]
      cases ho : s.opens with
      | nil => exact h.default
      | cons a l => exact h.safe a (by rw [ho]; simp)
    generalize hs0 : ({ s with opens := s.opens.tail } : FdSock) = s0 at e
    have m0 : Mine s0.proc (fun _ => False) AnyFlag := by
      rw [← hs0]; exact h.inv.mine.congr fun i => by simp [hc]
    have n0 : NoneInherited s0.proc := by rw [← hs0]; exact h.none
    have c0 : s0.sock.connected = false := by rw [← hs0]; simpa using hc
    have q0 : ∀ k ∈ s0.opens, k.Safe p := by
      rw [← hs0]; exact fun k hk => h.safe k (List.mem_of_mem_tail hk)
    have o0 : OwnCalls s0.proc := by rw [← hs0]; exact h.inv.calls
    obtain ⟨_, f1, m1⟩ := sockets_own (p := p) (k := k) m0 o0
    obtain ⟨n1, g1⟩ := sockets_flag (p := p) (k := k) m0 n0
    have c1 : (s0.sockets p k).sock.connected = false := by rw [(sockets_rest p s0 k).1]; exact c0
    have q1 : ∀ k' ∈ (s0.sockets p k).opens, k'.Safe p := by
      rw [(sockets_rest p s0 k).2.1]; exact q0
    dsimp only at e
    generalize s0.sockets p k = s1 at e f1 m1 c1 g1 n1 q1
    split at e
    · rename_i hf
      cases e
      exact ⟨hinv, (f1 hf).noneFlagged.congr fun i => by simp [c1], n1, q1, h.default⟩
    · rename_i hf
      replace m1 := m1 hf
      have x2 : ∃ s2, (if p.fdCloexec = true then s1.fcntl k else s1) = s2 ∧
          Mine s2.proc (fun i => i = s2.fd) Flagged ∧ NoneInherited s2.proc ∧
          s2.sock.connected = false ∧ ∀ k ∈ s2.opens, k.Safe p := by
        refine ⟨_, rfl, ?_⟩
        rcases hsafe with hsafe | hsafe
        · have g1 := g1 hsafe hf
          split
          · obtain ⟨a, b⟩ := fcntl_flagged (k := k) g1 n1
            obtain ⟨q, q2, _, q'⟩ := fcntl_rest s1 k
            exact ⟨a.congr fun i => by rw [q'], b, by rw [q]; exact c1, by rw [q2]; exact q1⟩
          · exact ⟨g1, n1, c1, q1⟩
        · rw [if_pos hsafe.1]
          obtain ⟨a, b⟩ := fcntl_flags (k := k) m1 n1 hsafe.2.1 hsafe.2.2.1 hsafe.2.2.2.1
            hsafe.2.2.2.2
          obtain ⟨q, q2, _, q'⟩ := fcntl_rest s1 k
          exact ⟨a.congr fun i => by rw [q'], b, by rw [q]; exact c1, by rw [q2]; exact q1⟩
      obtain ⟨s2, e2, m2, n2, c2, q2⟩ := x2
      rw [e2] at e
      have x3 : ∃ s3, (if p.soNosigpipe = true then s2.nosigpipe k else s2) = s3 ∧
          Mine s3.proc (fun i => i = s3.fd) Flagged ∧ NoneInherited s3.proc ∧
          s3.sock.connected = false ∧ ∀ k ∈ s3.opens, k.Safe p := by
        refine ⟨_, rfl, ?_⟩
        split
        · obtain ⟨q, q', _, q3, q4, _⟩ := nosigpipe_rest s2 k
          refine ⟨(m2.nosigpipe k fun _ h => h).congr fun i => by rw [q], ?_,
            by rw [q']; exact c2, by rw [q4]; exact q2⟩
          unfold NoneInherited
          rw [q3]
          exact n2.call m2 .setsockopt (k.before 4)
        · exact ⟨m2, n2, c2, q2⟩
      obtain ⟨s3, e3, m3, n3, c3, q3⟩ := x3
      rw [e3] at e
      split at e
      · cases e
        refine ⟨hinv, (m3.closeFd _).congr fun i => ?_, n3.call m3 .close (k.before 5), q3, h.default⟩
        show False ↔ s3.sock.connected = true ∧ _
        simp [c3]
      · have m4 := m3.call .connect (k.before 6)
        have n4 := n3.call m3 .connect (k.before 6)
        split at e
        · cases e
          refine ⟨hinv, (Mine.closeFd (s := s3.call .connect (k.before 6)) m4 _).congr fun i => ?_,
            NoneInherited.call (s := s3.call .connect (k.before 6)) n4 m4 .close (k.before 7), q3, h.default⟩
          show False ↔ s3.sock.connected = true ∧ _
          simp [c3]
        · cases e
          refine ⟨hinv, m4.congr fun i => ?_, n4, q3, h.default⟩
          show i = s3.fd ↔ true = true ∧ i = s3.fd
          simp

theorem FdExec.opClose {p : Platform} {r : Res} (h : FdExec p s) (e : s.opClose = .ok (r, s')) :
    FdExec p s' := by
  have hinv := (h.inv.opClose e).1
  unfold FdSock.opClose at e
  split at e
  · rename_i hc
    have m : Mine s.proc (fun i => i = s.fd) Flagged := h.flag.congr fun i => by simp [hc]
    have m' := m.closeFd (s.closes.head?.getD {}).others
    have n' := h.none.call m .close (s.closes.head?.getD {}).others
    dsimp only at e
    split at e <;>
    · cases e
      refine ⟨hinv, ?_, n', h.safe, h.default⟩
      refine Mine.congr (P := fun _ => False) m' fun i => ?_
      show False ↔ false = true ∧ _
      simp
  · cases e; exact h

theorem FdExec.use {p : Platform} {s2 : FdSock} {c : Sys} (h : FdExec p s)
    (e : s2 = if s.sock.connected
      then { (s.call c (s.uses.head?.getD [])) with uses := s.uses.tail } else s) :
    FdExec p s2 := by
  have hinv := h.inv.use e
  subst e
  split
  · rename_i hc
    rw [if_pos hc] at hinv
    exact ⟨hinv, h.flag.call c _, h.none.call h.flag c _, h.safe, h.default⟩
  · exact h

theorem FdExec.opRead {p : Platform} {n : Nat} {r : Res} {bs : Bytes} (h : FdExec p s)
    (e : s.opRead n = .ok (r, bs, s')) : FdExec p s' := by
  have hinv := h.inv.opRead e
  unfold FdSock.opRead at e
  dsimp only at e
  obtain ⟨⟨a, b, k⟩, e1, e⟩ := Exec.bind_eq_ok.1 e
  have h2 := h.use (c := .read) rfl
  cases e
  have := opRead_connected e1
  refine ⟨hinv, h2.flag.congr fun i => ?_, h2.none, h2.safe, h.default⟩
  simp only [this]

theorem FdExec.opWrite {p : Platform} {iov : List Bytes} {r : Res} (h : FdExec p s)
    (e : s.opWrite p iov = .ok (r, s')) : FdExec p s' := by
  have hinv := h.inv.opWrite e
  unfold FdSock.opWrite at e
  dsimp only at e
  obtain ⟨⟨a, k⟩, e1, e⟩ := Exec.bind_eq_ok.1 e
  have h2 := h.use (c := .sendmsg p.msgNosignal) rfl
  cases e
  have := opWrite_connected e1
  refine ⟨hinv, h2.flag.congr fun i => ?_, h2.none, h2.safe, h.default⟩
  simp only [this]

/-! ### Through the transport object -/

/-- What callbacks preserve holds along any use of the transport. `J b s`: `b` says whether the
transport counts as open. -/
theorem Reach.obj_inv {σ : Type} {ops : Ops σ} {J : Bool → σ → Prop} {a b : Rdwr σ}
    (ho : ∀ f ∈ ops.opn, ∀ o s r s', J o s → f s = .ok (r, s') → J (o || decide (r = .success)) s')
    (hc : ∀ f ∈ ops.cls, ∀ s r s', J true s → f s = .ok (r, s') → J false s')
    (hr : ∀ f ∈ ops.rd, ∀ n s r bs s', J true s → f n s = .ok (r, bs, s') → J true s')
    (hw : ∀ f ∈ ops.wr, ∀ iov s r s', J true s → f iov s = .ok (r, s') → J true s')
    (h : Reach a b) (ha : a.ops = ops) (hj : J a.opened a.obj) :
    b.ops = ops ∧ J b.opened b.obj := by
  have close : ∀ (x y : Rdwr σ) (r : Res), x.ops = ops → J x.opened x.obj → x.close = .ok (r, y) →
      y.ops = ops ∧ J y.opened y.obj := by
    intro x y r hx hj e
    unfold Rdwr.close at e
    split at e
    · cases e; exact ⟨hx, hj⟩
    · rename_i f hf
      split at e
      · rename_i ho'
        obtain ⟨⟨res, obj⟩, e1, e⟩ := Exec.bind_eq_ok.1 e
        cases e
        rw [ho'] at hj
        exact ⟨hx, hc f (by rw [← hx, hf]; simp) _ _ _ hj e1⟩
      · cases e; exact ⟨hx, hj⟩
  refine h.inv (P := fun x => x.ops = ops ∧ J x.opened x.obj) ⟨ha, hj⟩ ?_
  rintro x y ⟨hx, hj⟩ e
  cases e with
  | opn e =>
    unfold Rdwr.open at e
    split at e
    · cases e; exact ⟨hx, hj⟩
    · rename_i f hf
      obtain ⟨⟨res, obj⟩, e1, e⟩ := Exec.bind_eq_ok.1 e
      have := ho f (by rw [← hx, hf]; simp) _ _ _ _ hj e1
      dsimp only at e
      split at e
      · rename_i hs
        cases e
        exact ⟨hx, by simpa [hs] using this⟩
      · rename_i hs
        cases e
        exact ⟨hx, by simpa [hs] using this⟩
  | cls e => exact close x y _ hx hj e
  | rd e =>
    unfold Rdwr.read at e
    split at e
    · cases e; exact ⟨hx, hj⟩
    · rename_i hop
      have hop : x.opened = true := by simpa using hop
      split at e
      · cases e; exact ⟨hx, hj⟩
      · rename_i f hf
        obtain ⟨⟨res, bs, obj⟩, e1, e⟩ := Exec.bind_eq_ok.1 e
        rw [hop] at hj
        have := hr f (by rw [← hx, hf]; simp) _ _ _ _ _ hj e1
        dsimp only at e
        split at e
        · obtain ⟨⟨r2, rw2⟩, e2, e⟩ := Exec.bind_eq_ok.1 e
          cases e
          exact close { x with obj := obj, log := _ } _ _ hx (by simpa [hop] using this) e2
        · split at e
          · exact absurd e (by simp)
          · cases e; exact ⟨hx, by simpa [hop] using this⟩
  | wr e =>
    unfold Rdwr.write at e
    split at e
    · cases e; exact ⟨hx, hj⟩
    · rename_i hop
      have hop : x.opened = true := by simpa using hop
      split at e
      · cases e; exact ⟨hx, hj⟩
      · rename_i f hf
        obtain ⟨⟨res, obj⟩, e1, e⟩ := Exec.bind_eq_ok.1 e
        rw [hop] at hj
        have := hw f (by rw [← hx, hf]; simp) _ _ _ _ hj e1
        dsimp only at e
        split at e
        · obtain ⟨⟨r2, rw2⟩, e2, e⟩ := Exec.bind_eq_ok.1 e
          cases e
          exact close { x with obj := obj, log := _ } _ _ hx (by simpa [hop] using this) e2
        · cases e; exact ⟨hx, by simpa [hop] using this⟩

theorem fdInv_reach {p : Platform} {a b : Rdwr FdSock} (h : Reach a b) (ha : a.ops = fdSockOps p)
    (hi : FdInv a.obj) (hs : a.obj.sock.connected = a.opened) :
    FdInv b.obj ∧ b.obj.sock.connected = b.opened := by
  refine (h.obj_inv (J := fun o s => FdInv s ∧ s.sock.connected = o) ?_ ?_ ?_ ?_ ha ⟨hi, hs⟩).2
  · intro f hf o s r s' hj e
    cases hf
    obtain ⟨a, b⟩ := hj.1.opOpen e
    refine ⟨a, ?_⟩
    cases ho : o with
    | false => simpa using b
    | true =>
      have hc : s.sock.connected = true := hj.2.trans ho
      unfold FdSock.opOpen at e
      rw [if_pos hc] at e
      cases e; simpa using hc
  · intro f hf s r s' hj e
    cases hf
    exact hj.1.opClose e
  · intro f hf n s r bs s' hj e
    cases hf
    refine ⟨hj.1.opRead e, ?_⟩
    unfold FdSock.opRead at e
    dsimp only at e
    obtain ⟨⟨a, b, k⟩, e1, e⟩ := Exec.bind_eq_ok.1 e
    cases e
    refine (opRead_connected e1).trans ?_
    split <;> exact hj.2
  · intro f hf iov s r s' hj e
    cases hf
    refine ⟨hj.1.opWrite e, ?_⟩
    unfold FdSock.opWrite at e
    dsimp only at e
    obtain ⟨⟨a, k⟩, e1, e⟩ := Exec.bind_eq_ok.1 e
    cases e
    refine (opWrite_connected e1).trans ?_
    split <;> exact hj.2

theorem fdExec_reach {p : Platform} {a b : Rdwr FdSock} (h : Reach a b) (ha : a.ops = fdSockOps p)
    (hi : FdExec p a.obj) : FdExec p b.obj := by
  refine (h.obj_inv (J := fun _ s => FdExec p s) ?_ ?_ ?_ ?_ ha hi).2
  · intro f hf o s r s' hj e; cases hf; exact hj.opOpen e
  · intro f hf s r s' hj e; cases hf; exact hj.opClose e
  · intro f hf n s r bs s' hj e; cases hf; exact hj.opRead e
  · intro f hf iov s r s' hj e; cases hf; exact hj.opWrite e

end Fstrm
