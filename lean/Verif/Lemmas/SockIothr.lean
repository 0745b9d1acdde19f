import Verif.Lemmas.SockChan
import Verif.Lemmas.IoPipe

/-! The I/O thread over a socket. -/

set_option autoImplicit false

namespace Fstrm

theorem writeIov_chan {a a' : Writer Chan} {r : Res} {iov : List Bytes} (ho : a.rdwr.ops = chanOps)
    (h1 : a.rdwr.opened = true) (h : a.writeIov iov = .ok (r, a')) :
    r = .success ∧ a'.state = a.state ∧ a'.rdwr.ops = chanOps ∧ a'.rdwr.opened = true := by
  unfold Writer.writeIov at h
  obtain ⟨iov, -, h⟩ := Exec.bind_eq_ok.1 h
  unfold Rdwr.write at h
  have e : ∀ x, chanOps.wr = some x → x iov a.rdwr.obj = .ok (.success, { a.rdwr.obj with out := a.rdwr.obj.out ++ iov.flatten }) := by
    intro x hx; cases hx; rfl
  rw [h1, ho] at h
  simp only [Bool.not_true, Bool.false_eq_true, if_false] at h
  cases hw : chanOps.wr with
  | none => cases hw
  | some x =>
    rw [hw] at h
    simp only [e x hw, Exec.ok_bind, ne_eq, not_true_eq_false, if_false] at h
    cases h
    exact ⟨rfl, rfl, rfl, rfl⟩

theorem writeIovStupid_chan (fuel : Nat) : ∀ {a a' : Writer Chan} {r : Res} {iov : List Bytes},
    a.rdwr.ops = chanOps → a.rdwr.opened = true → Writer.writeIovStupid fuel a iov = .ok (r, a') →
    r = .success ∧ a'.state = a.state := by
  induction fuel with
  | zero =>
    intro a a' r iov _ _ h
    unfold Writer.writeIovStupid at h
    split at h
    · cases h
    · cases h; exact ⟨rfl, rfl⟩
  | succ fuel ih =>
    intro a a' r iov ho h1 h
    unfold Writer.writeIovStupid at h
    split at h
    · obtain ⟨⟨res, a1⟩, e, h⟩ := Exec.bind_eq_ok.1 h
      obtain ⟨rfl, h2, h3, h4⟩ := writeIov_chan ho h1 e
      simp only [ne_eq, not_true_eq_false, if_false] at h
      obtain ⟨h5, h6⟩ := ih h3 h4 h
      exact ⟨h5, h6.trans h2⟩
    · cases h; exact ⟨rfl, rfl⟩

/-- Writing to an open writer over pipes succeeds. -/
theorem writev_chan {a a' : Writer Chan} {r : Res} {iov : List Bytes} (ho : a.rdwr.ops = chanOps)
    (h1 : a.rdwr.opened = true) (hs : a.state = .opened) (h : a.writev iov = .ok (r, a')) :
    r = .success ∧ a'.state = .opened := by
  unfold Writer.writev at h
  split at h
  · cases h; exact ⟨rfl, hs⟩
  unfold Writer.maybeOpen at h
  rw [if_neg (by rw [hs]; decide)] at h
  simp only [Exec.ok_bind, ne_eq, not_true_eq_false, if_false, if_pos hs] at h
  split at h
  · cases h
  split at h
  · obtain ⟨h2, h3, _⟩ := writeIov_chan ho h1 h
    exact ⟨h2, h3.trans hs⟩
  · obtain ⟨h2, h3⟩ := writeIovStupid_chan _ ho h1 h
    exact ⟨h2, h3.trans hs⟩

theorem openBidirectional_state {σ : Type} {a a' : Writer σ} {r : Res} (h : a.openBidirectional = .ok (r, a')) :
    a'.state = a.state := by
  unfold Writer.openBidirectional at h
  dsimp only at h
  split at h
  · cases h; rfl
  obtain ⟨⟨res, rw1⟩, -, h⟩ := Exec.bind_eq_ok.1 h
  dsimp only at h
  split at h
  · cases h; rfl
  obtain ⟨⟨res, acc, rw1⟩, -, h⟩ := Exec.bind_eq_ok.1 h
  dsimp only at h
  split at h
  · cases h; rfl
  cases acc with
  | none => cases h
  | some acc =>
    dsimp only at h
    split at h
    · cases h; rfl
    · unfold Writer.sendStart at h
      dsimp only at h
      split at h
      · cases h; rfl
      · obtain ⟨⟨res, rw1⟩, -, h⟩ := Exec.bind_eq_ok.1 h
        cases h; rfl

/-- A writer is open after it was opened successfully, and not if that failed. -/
theorem open_chan {a a' : Writer Chan} {r : Res} (ho : a.rdwr.ops = chanOps) (hs : a.state ≠ .opened)
    (h : a.open = .ok (r, a')) : r = .success ↔ a'.state = .opened := by
  unfold Writer.open at h
  rw [if_neg hs] at h
  have e1 : a.rdwr.open = .ok (.success, { a.rdwr with opened := true, log := a.rdwr.log ++ [.opn .success] }) := by
    revert ho
    generalize a.rdwr = rw
    intro ho
    obtain ⟨_, _, _, _⟩ := rw
    cases ho
    rfl
  rw [e1, Exec.ok_bind] at h
  dsimp only at h
  rw [if_neg (by simp)] at h
  rw [ho, if_pos (by rfl)] at h
  obtain ⟨⟨res, w⟩, e2, h⟩ := Exec.bind_eq_ok.1 h
  have := openBidirectional_state e2
  dsimp only at h
  split at h
  · rename_i hr
    cases h
    exact ⟨fun e => absurd e hr, fun e => absurd (this.symm.trans e) hs⟩
  · cases h; exact ⟨fun _ => rfl, fun _ => rfl⟩

/-- The same I/O thread with another writer. -/
@[reducible] def Iothr.over {σ τ : Type} (s : Iothr σ) (w : Writer τ) : Iothr τ :=
  ⟨s.opt, w, s.opened, s.lastOpen, s.queues, s.shutting, s.getIdx, s.outq, s.outqBytes, s.pc, s.woken, s.pending,
    s.destroyed, s.nextId, s.log⟩

/-- The writers of the two are the same, and open if the thread thinks so. -/
structure LiveIo (s : Iothr Chan) (w : Writer Sock) : Prop where
  live : LiveW s.writer w
  opened : s.opened = true ↔ s.writer.state = .opened

/-- As `LiveIo` until the thread has returned; then the writer is closed. -/
def SockIoInv (s : Iothr Chan) (w : Writer Sock) : Prop :=
  (s.pc ≠ .exited → LiveIo s w) ∧ (s.pc = .exited → SameW s.writer w ∧ s.writer.state ≠ .opened)

/-- The result of the second is the result of the first with its own writer. -/
abbrev IoOver (R : Iothr Chan → Writer Sock → Prop) (x : Iothr Chan) (y : Iothr Sock) : Prop :=
  ∃ w, y = x.over w ∧ R x w

namespace Iothr

theorem freeOutq_over (s : Iothr Chan) (w : Writer Sock) : (s.over w).freeOutq = s.freeOutq.over w := by
  rw [freeOutq_eq, freeOutq_eq]

theorem freeOutq_live {s : Iothr Chan} {w : Writer Sock} (h : LiveIo s w) :
    Follows (IoOver LiveIo) (.ok s.freeOutq) (.ok (s.over w).freeOutq) := by
  rw [freeOutq_over]
  refine .pure ⟨w, rfl, ?_⟩
  rw [freeOutq_eq]
  exact ⟨h.live, h.opened⟩

theorem flush_live {s : Iothr Chan} {w : Writer Sock} (h : LiveIo s w) :
    Follows (IoOver LiveIo) s.flush (s.over w).flush := by
  unfold Iothr.flush
  dsimp only [over]
  by_cases ho : s.opened = true ∧ s.outq.length > 0
  · rw [if_pos ho, if_pos ho]
    have hs := h.opened.1 ho.1
    have h0 := h.live.rdwr.held (by simp [hs])
    refine Follows.bind (P := fun x y => Both LiveW x y ∧ x.1 = .success ∧ x.2.state = .opened) ?_ ?_
    · intro x e
      obtain ⟨y, e1, h1⟩ := Writer.writev_live h.live _ x e
      exact ⟨y, e1, h1, writev_chan h.live.rdwr.opsA h0 hs e⟩
    · rintro ⟨res, a⟩ ⟨_, b⟩ ⟨⟨rfl, hw⟩, hr, hs'⟩
      have hr : res = .success := hr
      subst hr
      dsimp only
      rw [if_neg (by simp), if_neg (by simp)]
      exact freeOutq_live (s := ({ s with writer := a } : Iothr Chan).emit (.write s.outq .success)) (w := b)
        ⟨hw, fun _ => hs', fun _ => ho.1⟩
  · rw [if_neg ho, if_neg ho]
    exact freeOutq_live h

theorem maybeFlush_live {s : Iothr Chan} {w : Writer Sock} (h : LiveIo s w) (n : Nat) :
    Follows (IoOver LiveIo) (s.maybeFlush n) ((s.over w).maybeFlush n) := by
  unfold Iothr.maybeFlush
  dsimp only [over]
  split
  · exact .stuck _ _
  split
  · exact flush_live h
  · exact .pure ⟨w, rfl, h⟩

theorem processEntry_live {s : Iothr Chan} {w : Writer Sock} (h : LiveIo s w) (e : Entry) :
    Follows (IoOver LiveIo) (s.processEntry e) ((s.over w).processEntry e) := by
  unfold Iothr.processEntry
  dsimp only [over]
  split
  · refine (maybeFlush_live h _).bind ?_
    rintro s _ ⟨w, rfl, h⟩
    dsimp only [over]
    split
    · exact .stuck _ _
    · exact .pure ⟨w, rfl, h.live, h.opened⟩
  · rw [freeEntry_eq, freeEntry_eq]
    exact .pure ⟨w, rfl, h.live, h.opened⟩

theorem processQueue_live {s : Iothr Chan} {w : Writer Sock} (h : LiveIo s w) (i : Nat) :
    Follows (fun x y => x.1 = y.1 ∧ IoOver LiveIo x.2 y.2) (s.processQueue i) ((s.over w).processQueue i) := by
  unfold Iothr.processQueue
  dsimp only [over]
  split
  · refine (processEntry_live (s := { s with queues := s.queues.set i _ }) (w := w) ⟨h.live, h.opened⟩ _).bind ?_
    rintro s _ ⟨w, rfl, h⟩
    exact .pure ⟨rfl, w, rfl, h⟩
  · exact .pure ⟨rfl, w, rfl, h⟩

theorem maybeOpen_live {s : Iothr Chan} {w : Writer Sock} (h : LiveIo s w) (now : Nat) :
    Follows (IoOver LiveIo) (s.maybeOpen now) ((s.over w).maybeOpen now) := by
  unfold Iothr.maybeOpen
  dsimp only [over]
  split
  · exact .pure ⟨w, rfl, h⟩
  rename_i hno
  split
  · exact .pure ⟨w, rfl, h⟩
  · refine Follows.bind (P := fun x y => Both LiveW x y ∧ (x.1 = .success ↔ x.2.state = .opened)) ?_ ?_
    · intro x e
      obtain ⟨y, e1, h1⟩ := Writer.open_live h.live x e
      exact ⟨y, e1, h1, open_chan h.live.rdwr.opsA (fun hs => hno (h.opened.2 hs)) e⟩
    · rintro ⟨res, a⟩ ⟨_, b⟩ ⟨⟨rfl, hw⟩, hs⟩
      refine .pure ⟨b, rfl, hw, ?_⟩
      dsimp only [emit]
      rw [decide_eq_true_iff]
      exact hs

/-- The thread closes its writer. -/
theorem close_live {s : Iothr Chan} {w : Writer Sock} (h : LiveIo s w) :
    Follows (IoOver fun x v => SameW x.writer v ∧ x.writer.state ≠ .opened) s.close (s.over w).close := by
  unfold Iothr.close
  dsimp only [over]
  split
  · refine Follows.bind (P := fun x y => Both SameW x y ∧ x.2.state ≠ .opened) ?_ ?_
    · intro x e
      obtain ⟨y, e1, h1⟩ := Writer.close_live h.live x e
      exact ⟨y, e1, h1, Writer.close_state e⟩
    · rintro ⟨res, a⟩ ⟨_, b⟩ ⟨⟨rfl, hw⟩, hs⟩
      exact .pure ⟨b, rfl, hw, hs⟩
  · rename_i hno
    exact .pure ⟨w, rfl, h.live.same, fun hs => hno (h.opened.2 hs)⟩

/-- The program counter moves on. -/
theorem _root_.Fstrm.LiveIo.inv {x : Iothr Chan} {v : Writer Sock} (h : LiveIo x v) (p : IoPc) (hp : p ≠ .exited) (wk : Bool) :
    SockIoInv { x with pc := p, woken := wk } v :=
  ⟨fun _ => ⟨h.live, h.opened⟩, fun e => absurd e hp⟩

theorem ioStep_live {s : Iothr Chan} {w : Writer Sock} (h : SockIoInv s w) (now : Nat) (wake : Wake) :
    Follows (IoOver SockIoInv) (s.ioStep now wake) ((s.over w).ioStep now wake) := by
  obtain ⟨opt, wr, op, lo, qs, sh, gi, oq, ob, pc, wk, pe, de, ni, lg⟩ := s
  unfold Iothr.ioStep
  cases pc with
  | start =>
    have hl := h.1 (by simp)
    dsimp only
    refine (maybeOpen_live hl now).bind ?_
    rintro s _ ⟨w, rfl, h⟩
    exact .pure ⟨w, rfl, h.inv _ (by simp) s.woken⟩
  | top =>
    have hl := h.1 (by simp)
    dsimp only
    split
    · exact .pure ⟨w, rfl, hl.inv _ (by simp) _⟩
    · refine (maybeOpen_live hl now).bind ?_
      rintro s _ ⟨w, rfl, h⟩
      exact .pure ⟨w, rfl, h.inv _ (by simp) s.woken⟩
  | work i total =>
    have hl := h.1 (by simp)
    dsimp only
    split
    · refine (processQueue_live hl i).bind ?_
      rintro ⟨n, s⟩ ⟨_, _⟩ ⟨rfl, w, rfl, h⟩
      exact .pure ⟨w, rfl, h.inv _ (by simp) s.woken⟩
    · split
      · exact .pure ⟨w, rfl, hl.inv _ (by simp) _⟩
      · exact .pure ⟨w, rfl, hl.inv _ (by simp) _⟩
  | drain i total =>
    have hl := h.1 (by simp)
    dsimp only
    split
    · refine (processQueue_live hl i).bind ?_
      rintro ⟨n, s⟩ ⟨_, _⟩ ⟨rfl, w, rfl, h⟩
      exact .pure ⟨w, rfl, h.inv _ (by simp) s.woken⟩
    · split
      · exact .pure ⟨w, rfl, hl.inv _ (by simp) _⟩
      · refine (flush_live hl).bind ?_
        rintro s _ ⟨w, rfl, h⟩
        refine (close_live h).bind ?_
        rintro s _ ⟨w, rfl, h⟩
        exact .pure ⟨w, rfl, fun hp => absurd rfl hp, fun _ => h⟩
  | sleep d =>
    have hl := h.1 (by simp)
    cases wake with
    | timeout =>
      dsimp only
      split
      · refine (flush_live hl).bind ?_
        rintro s _ ⟨w, rfl, h⟩
        exact .pure ⟨w, rfl, h.inv _ (by simp) s.woken⟩
      · exact .pure ⟨w, rfl, h⟩
    | signal =>
      dsimp only
      split
      · exact .pure ⟨w, rfl, hl.inv _ (by simp) _⟩
      · exact .pure ⟨w, rfl, h⟩
    | spurious => exact .pure ⟨w, rfl, hl.inv _ (by simp) _⟩
  | exited => exact .pure ⟨w, rfl, h⟩

theorem _root_.Fstrm.SockIoInv.of {x x' : Iothr Chan} {v : Writer Sock} (h : SockIoInv x v) (h1 : x'.writer = x.writer)
    (h2 : x'.opened = x.opened) (h3 : x'.pc = x.pc) : SockIoInv x' v := by
  obtain ⟨a, b⟩ := h
  refine ⟨fun hp => ?_, fun hp => ?_⟩
  · obtain ⟨c, d⟩ := a (h3 ▸ hp)
    exact ⟨h1 ▸ c, by rw [h1, h2]; exact d⟩
  · rw [h1]; exact b (h3 ▸ hp)

theorem signal_over (s : Iothr Chan) (w : Writer Sock) : (s.over w).signal = s.signal.over w := by
  unfold signal
  dsimp only
  cases s.pc <;> rfl

theorem signal_live {s : Iothr Chan} {w : Writer Sock} (h : SockIoInv s w) :
    Follows (IoOver SockIoInv) (.ok s.signal) (.ok (s.over w).signal) := by
  rw [signal_over]
  refine .pure ⟨w, rfl, ?_⟩
  obtain ⟨wk, e⟩ := signal_eq s
  rw [e]
  exact h.of rfl rfl rfl

theorem finish_live {s : Iothr Chan} {w : Writer Sock} (h : SockIoInv s w) :
    Follows (IoOver SockIoInv) s.finish (s.over w).finish := by
  unfold Iothr.finish
  dsimp only
  split
  · rename_i hc
    obtain ⟨hw, hs⟩ := h.2 hc.2.1
    refine (Writer.destroy_closed hw hs).bind ?_
    rintro ⟨r, rwa⟩ ⟨_, rwb⟩ ⟨rfl, hr⟩
    dsimp only
    rw [freeAll_eq, freeAll_eq]
    refine .pure ⟨{ w with rdwr := rwb }, rfl, fun hp => absurd hc.2.1 hp, fun _ => ⟨?_, hs⟩⟩
    exact ⟨hw.state, hw.cts, hr, hw.ready, hw.accept, hw.start, hw.finish⟩
  · exact .pure ⟨w, rfl, h⟩

theorem step_live {s : Iothr Chan} {w : Writer Sock} (h : SockIoInv s w) (a : IoAct) :
    Follows (IoOver SockIoInv) (s.step a) ((s.over w).step a) := by
  cases a with
  | io now wake => exact ioStep_live h now wake
  | finish => exact finish_live h
  | submit t q data f =>
    unfold Iothr.step Iothr.submitCheck
    dsimp only [emit]
    repeat' split
    all_goals first
      | exact .stuck _ _
      | exact .pure ⟨w, rfl, h.of rfl rfl rfl⟩
  | insert t =>
    unfold Iothr.step Iothr.submitInsert
    dsimp only [emit]
    split
    · exact .pure ⟨w, rfl, h⟩
    split
    · exact .stuck _ _
    split
    · exact .pure ⟨w, rfl, h.of rfl rfl rfl⟩
    split
    · split
      · exact signal_live (h.of (x' := { s with pending := _, queues := _, log := _ }) rfl rfl rfl)
      · exact .pure ⟨w, rfl, h.of rfl rfl rfl⟩
    · exact .pure ⟨w, rfl, h.of rfl rfl rfl⟩
  | getQueue =>
    unfold Iothr.step Iothr.getQueue
    dsimp only [emit]
    repeat' split
    all_goals first
      | exact .stuck _ _
      | exact .pure ⟨w, rfl, h.of rfl rfl rfl⟩
  | shutdown =>
    unfold Iothr.step Iothr.shutdown
    dsimp only [emit]
    split
    · exact .pure ⟨w, rfl, h⟩
    · exact signal_live (h.of (x' := { s with shutting := true, log := _ }) rfl rfl rfl)

theorem run_live (as : List IoAct) {s : Iothr Chan} {w : Writer Sock} (h : SockIoInv s w) :
    Follows (IoOver SockIoInv) (s.run as) ((s.over w).run as) := by
  induction as generalizing s w with
  | nil => exact .pure ⟨w, rfl, h⟩
  | cons a as ih =>
    unfold Iothr.run
    refine (step_live h a).bind ?_
    rintro s _ ⟨w, rfl, h⟩
    exact ih h

/-- A new I/O thread. -/
theorem init_live {a : Writer Chan} {b : Writer Sock} (h : LiveW a b) (hs : a.state = .opening)
    (opt : IothrOptions) : Iothr.init opt b = (Iothr.init opt a).over b ∧ SockIoInv (Iothr.init opt a) b := by
  refine ⟨rfl, fun _ => ⟨h, ?_⟩, fun e => by cases e⟩
  change false = true ↔ a.state = .opened
  rw [hs]
  simp

end Iothr

end Fstrm
