import Verif.Lemmas.FdCloexec

/-! Writing to a socket whose peer is gone raises no signal. -/

set_option autoImplicit false

namespace Fstrm

variable {s s' : FdSock} {P : Int → Prop}

/-- Sending on this descriptor raises no signal. -/
abbrev Quiet (p : Platform) : Descr → Prop := fun d => p.msgNosignal = true ∨ d.nosigpipe = true

/-- No system call so far could raise a signal. -/
def NoSignals (p : Proc) : Prop := ∀ e ∈ p.trail, Sys.signals e = false

/-- As `FdInv`, for signals. -/
structure FdQuiet (p : Platform) (s : FdSock) : Prop where
  inv : FdInv s
  flag : Mine s.proc (fun i => s.sock.connected = true ∧ i = s.fd) (Quiet p)
  none : NoSignals s.proc
  plat : p.soNosigpipe = true ∨ p.msgNosignal = true

theorem Mine.noneAny {p : Proc} {F G : Descr → Prop} (h : Mine p (fun _ => False) F) :
    Mine p (fun _ => False) G := by
  refine ⟨h.iff, fun i d hd hm => ?_⟩
  exact absurd ((h.iff i).1 (by simp [Descrs.mineAt, hd, hm])) id

theorem NoSignals.call {c : Sys} (h : NoSignals s.proc) (hc : ∀ d, Sys.signals (c, d) = false)
    (os : List Other) : NoSignals (s.call c os).proc := by
  intro e he
  simp only [FdSock.call, Proc.call, trail_others, List.mem_append, List.mem_singleton] at he
  rcases he with he | rfl
  · exact h e he
  · exact hc _

theorem NoSignals.socket (h : NoSignals s.proc) (c : Bool) (k : KSocket) (os : List Other) :
    NoSignals (s.socket c k os).proc := by
  have : (s.socket c k os).proc.trail = s.proc.trail ++ [(.socket c, none)] := by
    cases k <;> simp [FdSock.socket, trail_others]
  intro e he
  rw [this, List.mem_append, List.mem_singleton] at he
  rcases he with he | rfl
  · exact h e he
  · rfl

theorem NoSignals.sockets (h : NoSignals s.proc) (p : Platform) (k : KOpen) :
    NoSignals (s.sockets p k).proc := by
  unfold FdSock.sockets
  split
  · dsimp only
    split
    · exact (h.socket _ _ _).socket _ _ _
    · exact h.socket _ _ _
  · exact h.socket _ _ _

theorem NoSignals.fcntl (h : NoSignals s.proc) (k : KOpen) : NoSignals (s.fcntl k).proc := by
  unfold FdSock.fcntl
  dsimp only
  have h1 := h.call (c := .getfd) (fun _ => rfl) (k.before 2)
  split
  · have h2 := h1.call (c := .setfd) (fun _ => rfl) (k.before 3)
    split
    · unfold NoSignals
      rw [(setFlag_rest ((s.call .getfd (k.before 2)).call .setfd (k.before 3))).2.2.1]
      exact h2
    · exact h2
  · exact h1

theorem NoSignals.nosigpipe (h : NoSignals s.proc) (k : KOpen) :
    NoSignals (s.nosigpipe k).proc := by
  unfold NoSignals
  rw [(nosigpipe_rest s k).2.2.1]
  exact h.call (c := .setsockopt) (fun _ => rfl) (k.before 4)

/-- The option takes effect. -/
theorem nosigpipe_quiet {p : Platform} {k : KOpen} (h : Mine s.proc (fun i => i = s.fd) AnyFlag)
    (hk : k.sockopt = true) : Mine (s.nosigpipe k).proc (fun i => i = s.fd) (Quiet p) := by
  have m := h.nosigpipe k fun _ h => h
  refine ⟨m.iff, fun i d hd hm => ?_⟩
  have hi := (m.iff i).1 (by simp [Descrs.mineAt, hd, hm])
  subst hi
  have hc := h.call .setsockopt (k.before 4)
  unfold FdSock.nosigpipe at hd
  dsimp only at hd
  have hfd : (s.call .setsockopt (k.before 4)).fd = s.fd := rfl
  split at hd
  · rename_i d' _ hd'
    simp only at hd
    rw [Descrs.at_set _ _ _ _ _ hd', if_pos hfd.symm] at hd
    cases hd; exact Or.inr rfl
  · rename_i hno
    exact absurd hd (hno d hk)

theorem FdQuiet.opOpen {p : Platform} {r : Res} (h : FdQuiet p s) (e : s.opOpen p = .ok (r, s')) :
    FdQuiet p s' := by
  have hinv := (h.inv.opOpen e).1
  unfold FdSock.opOpen at e
  split at e
  · cases e; exact h
  · rename_i hc
    generalize hk : (s.opens.head?.getD {} : KOpen) = k at e
    generalize hs0 : ({ s with opens := s.opens.tail } : FdSock) = s0 at e
    have m0 : Mine s0.proc (fun _ => False) AnyFlag := by
      rw [← hs0]; exact h.inv.mine.congr fun i => by simp [hc]
    have n0 : NoSignals s0.proc := by rw [← hs0]; exact h.none
    have c0 : s0.sock.connected = false := by rw [← hs0]; simpa using hc
    have o0 : OwnCalls s0.proc := by rw [← hs0]; exact h.inv.calls
    obtain ⟨_, f1, m1⟩ := sockets_own (p := p) (k := k) m0 o0
    have n1 := n0.sockets p k
    have c1 : (s0.sockets p k).sock.connected = false := by rw [(sockets_rest p s0 k).1]; exact c0
    dsimp only at e
    generalize s0.sockets p k = s1 at e f1 m1 c1 n1
    split at e
    · rename_i hf
      cases e
      exact ⟨hinv, (f1 hf).noneAny.congr fun i => by simp [c1], n1, h.plat⟩
    · rename_i hf
      replace m1 := m1 hf
      have x2 : ∃ s2, (if p.fdCloexec = true then s1.fcntl k else s1) = s2 ∧
          Mine s2.proc (fun i => i = s2.fd) AnyFlag ∧ NoSignals s2.proc ∧
          s2.sock.connected = false := by
        refine ⟨_, rfl, ?_⟩
        split
        · obtain ⟨q, _, _, q'⟩ := fcntl_rest s1 k
          refine ⟨Mine.congr (P := fun i => i = s1.fd) ?_ fun i => by rw [q'], n1.fcntl k,
            by rw [q]; exact c1⟩
          unfold FdSock.fcntl
          dsimp only
          have a := m1.call .getfd (k.before 2)
          split
          · have b := Mine.call (s := s1.call .getfd (k.before 2)) a .setfd (k.before 3)
            split
            · exact b.setFlag fun _ _ => trivial
            · exact b
          · exact a
        · exact ⟨m1, n1, c1⟩
      obtain ⟨s2, e2, m2, n2, c2⟩ := x2
      rw [e2] at e
      have x3 : ∃ s3, (if p.soNosigpipe = true then s2.nosigpipe k else s2) = s3 ∧
          Mine s3.proc (fun i => i = s3.fd) AnyFlag ∧ NoSignals s3.proc ∧
          s3.sock.connected = false ∧ (¬ (p.soNosigpipe = true ∧ (!k.sockopt) = true) →
            Mine s3.proc (fun i => i = s3.fd) (Quiet p)) := by
        refine ⟨_, rfl, ?_⟩
        obtain ⟨q, q', _⟩ := nosigpipe_rest s2 k
        split
        · rename_i hp
          refine ⟨(m2.nosigpipe k fun _ h => h).congr fun i => by rw [q], n2.nosigpipe k,
            by rw [q']; exact c2, fun hn => ?_⟩
          have hk' : k.sockopt = true := by simpa [hp] using hn
          exact (nosigpipe_quiet m2 hk').congr fun i => by rw [q]
        · rename_i hp
          refine ⟨m2, n2, c2, fun _ => ⟨m2.iff, fun _ _ _ _ => Or.inl ?_⟩⟩
          exact h.plat.resolve_left hp
      obtain ⟨s3, e3, m3, n3, c3, y3⟩ := x3
      rw [e3] at e
      split at e
      · cases e
        refine ⟨hinv, (m3.closeFd _).noneAny.congr fun i => ?_,
          n3.call (c := .close) (fun _ => rfl) (k.before 5), h.plat⟩
        show False ↔ s3.sock.connected = true ∧ _
        simp [c3]
      · rename_i hn
        replace y3 := y3 hn
        have m4 := y3.call .connect (k.before 6)
        have n4 := n3.call (c := .connect) (fun _ => rfl) (k.before 6)
        split at e
        · cases e
          refine ⟨hinv, (Mine.closeFd (s := s3.call .connect (k.before 6)) m4 _).congr fun i => ?_,
            NoSignals.call (s := s3.call .connect (k.before 6)) n4 (c := .close) (fun _ => rfl)
              (k.before 7), h.plat⟩
          show False ↔ s3.sock.connected = true ∧ _
          simp [c3]
        · cases e
          refine ⟨hinv, m4.congr fun i => ?_, n4, h.plat⟩
          show i = s3.fd ↔ true = true ∧ i = s3.fd
          simp

theorem FdQuiet.opClose {p : Platform} {r : Res} (h : FdQuiet p s) (e : s.opClose = .ok (r, s')) :
    FdQuiet p s' := by
  have hinv := (h.inv.opClose e).1
  unfold FdSock.opClose at e
  split at e
  · rename_i hc
    have m : Mine s.proc (fun i => i = s.fd) (Quiet p) := h.flag.congr fun i => by simp [hc]
    have m' := m.closeFd (s.closes.head?.getD {}).others
    have n' := h.none.call (c := .close) (fun _ => rfl) (s.closes.head?.getD {}).others
    dsimp only at e
    split at e <;>
    · cases e
      refine ⟨hinv, ?_, n', h.plat⟩
      refine Mine.congr (P := fun _ => False) m' fun i => ?_
      show False ↔ false = true ∧ _
      simp
  · cases e; exact h

theorem FdQuiet.use {p : Platform} {s2 : FdSock} {c : Sys} (h : FdQuiet p s)
    (hq : ∀ d : Descr, Quiet p d → Sys.signals (c, some d) = false)
    (e : s2 = if s.sock.connected
      then { (s.call c (s.uses.head?.getD [])) with uses := s.uses.tail } else s) :
    FdQuiet p s2 := by
  have hinv := h.inv.use e
  subst e
  split
  · rename_i hc
    rw [if_pos hc] at hinv
    refine ⟨hinv, h.flag.call c _, ?_, h.plat⟩
    intro e he
    simp only [FdSock.call, Proc.call, trail_others, List.mem_append, List.mem_singleton] at he
    rcases he with he | rfl
    · exact h.none e he
    · have m := h.flag.others (s.uses.head?.getD [])
      have hm := (m.iff s.fd).2 ⟨hc, rfl⟩
      simp only [Descrs.mineAt] at hm
      cases hd : (s.proc.others (s.uses.head?.getD [])).descrs.at s.fd with
      | none => rw [hd] at hm; exact absurd hm (by simp)
      | some d => exact hq d (m.flag _ d hd (by rw [hd] at hm; simpa using hm))
  · exact h

theorem FdQuiet.opRead {p : Platform} {n : Nat} {r : Res} {bs : Bytes} (h : FdQuiet p s)
    (e : s.opRead n = .ok (r, bs, s')) : FdQuiet p s' := by
  have hinv := h.inv.opRead e
  unfold FdSock.opRead at e
  dsimp only at e
  obtain ⟨⟨a, b, k⟩, e1, e⟩ := Exec.bind_eq_ok.1 e
  have h2 := h.use (c := .read) (fun _ _ => rfl) rfl
  cases e
  have := opRead_connected e1
  refine ⟨hinv, h2.flag.congr fun i => ?_, h2.none, h.plat⟩
  simp only [this]

theorem FdQuiet.opWrite {p : Platform} {iov : List Bytes} {r : Res} (h : FdQuiet p s)
    (e : s.opWrite p iov = .ok (r, s')) : FdQuiet p s' := by
  have hinv := h.inv.opWrite e
  unfold FdSock.opWrite at e
  dsimp only at e
  obtain ⟨⟨a, k⟩, e1, e⟩ := Exec.bind_eq_ok.1 e
  have h2 := h.use (c := .sendmsg p.msgNosignal) (fun d hd => by
    rcases hd with hd | hd <;> simp [Sys.signals, hd]) rfl
  cases e
  have := opWrite_connected e1
  refine ⟨hinv, h2.flag.congr fun i => ?_, h2.none, h.plat⟩
  simp only [this]

theorem fdQuiet_reach {p : Platform} {a b : Rdwr FdSock} (h : Reach a b) (ha : a.ops = fdSockOps p)
    (hi : FdQuiet p a.obj) : FdQuiet p b.obj := by
  refine (h.obj_inv (J := fun _ s => FdQuiet p s) ?_ ?_ ?_ ?_ ha hi).2
  · intro f hf o s r s' hj e; cases hf; exact hj.opOpen e
  · intro f hf s r s' hj e; cases hf; exact hj.opClose e
  · intro f hf n s r bs s' hj e; cases hf; exact hj.opRead e
  · intro f hf iov s r s' hj e; cases hf; exact hj.opWrite e

end Fstrm
