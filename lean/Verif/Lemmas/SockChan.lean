import Verif.Lemmas.Pipe
import Verif.Lemmas.Sock
import Verif.Model.Replay
import Verif.Spec.Link

/-!
# What a program does over a socket

It does what it does over the pipes of `Verif.Spec.Net`, however the kernel splits what it delivers.
-/

set_option autoImplicit false

namespace Fstrm

/-- From now on closing succeeds, nothing fails, and no send is short. -/
structure Sock.Calm (s : Sock) : Prop where
  close : s.close.head?.getD true = true
  reads : KRead.fail ∉ s.reads
  sends : NoShort s.sends
  sent : KSend.fail ∉ s.sends

/-- The socket is connected and both ends have the same bytes before them. -/
structure OnLine (c : Chan) (s : Sock) : Prop where
  connected : s.connected = true
  inp : s.inp = c.inp
  out : s.out = c.out
  history : s.history = []
  calm : s.Calm

/-- The socket was not connected yet, and its next peer will send what is in the pipe. -/
structure OffLine (c : Chan) (s : Sock) : Prop where
  connected : s.connected = false
  conn : s.conn.head?.getD true = true
  inp : s.peers.head?.getD [] = c.inp
  out : c.out = []
  history : s.history = []
  calm : s.Calm

theorem OffLine.of {y : Bytes} {s : Sock} (h : Spec.Reliable y s) : OffLine ⟨y, []⟩ s := by
  have key : ∀ l : List Bool, l.head? ≠ some false → l.head?.getD true = true := by
    intro l hl
    cases hh : l.head? with
    | none => rfl
    | some b => cases b with
      | false => exact absurd hh hl
      | true => rfl
  refine ⟨h.unused.1, key _ h.connects, ?_, rfl, h.unused.2, key _ h.closes, h.reads, ?_, ?_⟩
  · rw [h.peer]; rfl
  · intro e he k
    rcases h.sends e he with rfl | rfl <;> simp
  · intro hm
    rcases h.sends _ hm with h | h <;> cases h

/-- The same transport, over pipes and over a socket that is not closed yet; open, if `o`. -/
structure LiveRw (o : Bool) (a : Rdwr Chan) (b : Rdwr Sock) : Prop where
  held : o = true → a.opened = true
  opsA : a.ops = chanOps
  opsB : b.ops = sockOps
  opened : b.opened = a.opened
  on : a.opened = true → OnLine a.obj b.obj
  off : a.opened = false → OffLine a.obj b.obj

/-- The same transport, possibly closed: at most one connection was made, and on it the same bytes were
sent. -/
structure SameRw (a : Rdwr Chan) (b : Rdwr Sock) : Prop where
  opsA : a.ops = chanOps
  opsB : b.ops = sockOps
  sent : Spec.SentOnly a.obj.out b.obj

/-- If the first computation succeeds, so does the second, with a related result. -/
def Follows {α β : Type} (P : α → β → Prop) (x : Exec α) (y : Exec β) : Prop :=
  ∀ a, x = .ok a → ∃ b, y = .ok b ∧ P a b

namespace Follows
variable {α β γ δ : Type} {P : α → β → Prop} {Q : γ → δ → Prop}

theorem pure {a : α} {b : β} (h : P a b) : Follows P (.ok a) (.ok b) := by
  intro a' e; cases e; exact ⟨b, rfl, h⟩

theorem stuck (e : Stuck) (y : Exec β) : Follows P (.error e) y := by intro a h; cases h

theorem bind {x : Exec α} {y : Exec β} {f : α → Exec γ} {g : β → Exec δ} (h : Follows P x y)
    (hf : ∀ a b, P a b → Follows Q (f a) (g b)) : Follows Q (x >>= f) (y >>= g) := by
  intro c e
  obtain ⟨a, e1, e2⟩ := Exec.bind_eq_ok.1 e
  obtain ⟨b, e3, hp⟩ := h a e1
  obtain ⟨d, e4, hq⟩ := hf a b hp c e2
  exact ⟨d, by rw [e3, Exec.ok_bind]; exact e4, hq⟩

theorem both {ε : Type} (z : Exec ε) {f : ε → Exec γ} {g : ε → Exec δ} (hf : ∀ a, Follows Q (f a) (g a)) :
    Follows Q (z >>= f) (z >>= g) :=
  bind (P := Eq) (fun a h => ⟨a, h, rfl⟩) fun a b h => by subst h; exact hf a

theorem mono {P' : α → β → Prop} {x : Exec α} {y : Exec β} (h : Follows P x y) (hp : ∀ a b, P a b → P' a b) :
    Follows P' x y := by
  intro a e
  obtain ⟨b, e1, h1⟩ := h a e
  exact ⟨b, e1, hp _ _ h1⟩

end Follows

/-! ### The transport -/

theorem LiveRw.same {o : Bool} {a : Rdwr Chan} {b : Rdwr Sock} (h : LiveRw o a b) : SameRw a b := by
  refine ⟨h.opsA, h.opsB, ?_⟩
  cases ho : a.opened with
  | false =>
    have := h.off ho
    simp [Spec.SentOnly, Spec.taken, this.connected, this.history, this.out]
  | true =>
    have := h.on ho
    simp [Spec.SentOnly, Spec.taken, this.connected, this.history, this.out]

theorem calm_reads {s : Sock} (h : s.Calm) {l : List KRead} (hl : l <:+ s.reads) (i : Bytes) :
    Sock.Calm { s with inp := i, reads := l } :=
  ⟨h.close, fun hm => h.reads (hl.subset hm), h.sends, h.sent⟩

/-- A result of a call with the transport after it. -/
abbrev Both {α β : Type} (P : α → β → Prop) (x : Res × α) (y : Res × β) : Prop := x.1 = y.1 ∧ P x.2 y.2

theorem Rdwr.open_live {o : Bool} {a : Rdwr Chan} {b : Rdwr Sock} (h : LiveRw o a b) :
    Follows (Both (LiveRw true)) a.open b.open := by
  have e1 : a.open = .ok (.success, { a with opened := true, log := a.log ++ [.opn .success] }) := by
    unfold Rdwr.open; rw [h.opsA]; simp [chanOps, Exec.ok_bind]
  rw [e1]
  cases ho : a.opened with
  | true =>
    have l := h.on ho
    have e2 : b.open = .ok (.success, { b with opened := true, log := b.log ++ [.opn .success] }) := by
      unfold Rdwr.open
      rw [h.opsB]
      simp [sockOps, Sock.opOpen, l.connected, Exec.ok_bind]
    rw [e2]
    exact .pure ⟨rfl, fun _ => rfl, h.opsA, h.opsB, rfl, fun _ => l, fun h => by cases h⟩
  | false =>
    have l := h.off ho
    have e2 : b.open = .ok (.success, { b with
        opened := true, log := b.log ++ [.opn .success],
        obj := { b.obj with conn := b.obj.conn.tail, connected := true, inp := b.obj.peers.head?.getD [],
                            out := [], peers := b.obj.peers.tail } }) := by
      unfold Rdwr.open
      rw [h.opsB]
      simp [sockOps, Sock.opOpen, l.connected, l.conn, Exec.ok_bind]
    rw [e2]
    refine .pure ⟨rfl, fun _ => rfl, h.opsA, h.opsB, rfl, fun _ => ?_, fun h => by cases h⟩
    exact ⟨rfl, l.inp, l.out.symm, l.history, ⟨l.calm.close, l.calm.reads, l.calm.sends, l.calm.sent⟩⟩

theorem Rdwr.close_live {o : Bool} {a : Rdwr Chan} {b : Rdwr Sock} (h : LiveRw o a b) :
    Follows (Both SameRw) a.close b.close := by
  cases ho : a.opened with
  | false =>
    have e1 : a.close = .ok (.success, a) := by
      unfold Rdwr.close; rw [h.opsA]; simp [chanOps, ho]
    have e2 : b.close = .ok (.success, b) := by
      unfold Rdwr.close; rw [h.opsB]; simp [sockOps, h.opened, ho]
    rw [e1, e2]
    exact .pure ⟨rfl, h.same⟩
  | true =>
    have l := h.on ho
    have e1 : a.close = .ok (.success, { a with opened := false, log := a.log ++ [.cls .success] }) := by
      unfold Rdwr.close; rw [h.opsA]; simp [chanOps, Exec.ok_bind, ho]
    have e2 : b.close = .ok (.success, { b with
        opened := false, log := b.log ++ [.cls .success],
        obj := { b.obj with connected := false, close := b.obj.close.tail,
                            history := b.obj.history ++ [b.obj.out] } }) := by
      unfold Rdwr.close
      rw [h.opsB]
      simp [sockOps, Sock.opClose, l.connected, l.calm.close, Exec.ok_bind, h.opened, ho]
    rw [e1, e2]
    refine .pure ⟨rfl, h.opsA, h.opsB, ?_⟩
    simp [Spec.SentOnly, Spec.taken, l.history, l.out]

/-- The state of the transport is that of the other after a read or a write. -/
abbrev Both3 {α β : Type} (P : α → β → Prop) (x : Res × Bytes × α) (y : Res × Bytes × β) : Prop :=
  x.1 = y.1 ∧ x.2.1 = y.2.1 ∧ P x.2.2 y.2.2

theorem Sock.opRead_calm {s : Sock} (n : Nat) (hc : s.connected = true) (h : s.Calm) (hn : n ≤ s.inp.length) :
    ∃ l, l <:+ s.reads ∧ s.opRead n = .ok (.success, s.inp.take n, { s with inp := s.inp.drop n, reads := l }) := by
  obtain ⟨got, g1, g2, g3, g4, g5⟩ := readBytes_prefix s.reads n s.inp []
  have hok := (readBytes_ok_iff s.reads n s.inp [] h.reads).2 hn
  unfold Sock.opRead
  rw [if_pos hc]
  generalize hr : readBytes s.reads n s.inp [] = r at *
  obtain ⟨ok, buf, inp, script⟩ := r
  simp only at g1 g2 g4 g5 hok
  subst hok
  have g4 := g4 rfl
  refine ⟨script, g5, ?_⟩
  simp only [if_true]
  rw [List.nil_append] at g1
  subst g1
  have e1 : s.inp.take n = buf := by rw [g2, ← g4]; simp
  have e2 : s.inp.drop n = inp := by rw [g2, ← g4]; simp
  rw [e1, e2]

theorem Rdwr.read_live {o : Bool} {a : Rdwr Chan} {b : Rdwr Sock} (h : LiveRw o a b) (n : Nat) :
    Follows (Both3 (LiveRw o)) (a.read n) (b.read n) := by
  cases ho : a.opened with
  | false =>
    have e1 : a.read n = .ok (.failure, [], a) := by unfold Rdwr.read; simp [ho]
    have e2 : b.read n = .ok (.failure, [], b) := by unfold Rdwr.read; simp [h.opened, ho]
    rw [e1, e2]
    exact .pure ⟨rfl, rfl, h⟩
  | true =>
    have l := h.on ho
    by_cases hn : n ≤ a.obj.inp.length
    · have e1 : a.read n = .ok (.success, a.obj.inp.take n, { a with
          obj := { a.obj with inp := a.obj.inp.drop n }
          log := a.log ++ [.rd n .success (a.obj.inp.take n)] }) := by
        unfold Rdwr.read; rw [h.opsA]; simp [chanOps, Exec.ok_bind, ho, hn]
      obtain ⟨sc, h1, h2⟩ := Sock.opRead_calm n l.connected l.calm (by rw [l.inp]; exact hn)
      have e2 : b.read n = .ok (.success, a.obj.inp.take n, { b with
          obj := { b.obj with inp := b.obj.inp.drop n, reads := sc }
          log := b.log ++ [.rd n .success (a.obj.inp.take n)] }) := by
        unfold Rdwr.read
        rw [h.opsB]
        simp only [sockOps]
        rw [h2, h.opened, ho, l.inp]
        simp [Exec.ok_bind, hn]
      rw [e1, e2]
      refine .pure ⟨rfl, rfl, h.held, h.opsA, h.opsB, h.opened, fun _ => ?_, ?_⟩
      · exact ⟨l.connected, by simp [l.inp], l.out, l.history, calm_reads l.calm h1 _⟩
      · intro hf; rw [ho] at hf; cases hf
    · have e1 : a.read n = .error (.wait a.obj.out) := by
        unfold Rdwr.read; rw [h.opsA]
        simp only [chanOps, ho, Bool.not_true, Bool.false_eq_true, if_false, if_neg hn]
        rfl
      rw [e1]
      exact .stuck _ _

theorem Rdwr.write_live {o : Bool} {a : Rdwr Chan} {b : Rdwr Sock} (h : LiveRw o a b) (iov : List Bytes) :
    Follows (Both (LiveRw o)) (a.write iov) (b.write iov) := by
  cases ho : a.opened with
  | false =>
    have e1 : a.write iov = .ok (.failure, a) := by unfold Rdwr.write; simp [ho]
    have e2 : b.write iov = .ok (.failure, b) := by unfold Rdwr.write; simp [h.opened, ho]
    rw [e1, e2]
    exact .pure ⟨rfl, h⟩
  | true =>
    have l := h.on ho
    have e1 : a.write iov = .ok (.success, { a with
        obj := { a.obj with out := a.obj.out ++ iov.flatten }
        log := a.log ++ [.wr iov .success] }) := by
      unfold Rdwr.write; rw [h.opsA]; simp [chanOps, Exec.ok_bind, ho]
    obtain ⟨sc, h1, h2, h3⟩ := sendLoop_noShort b.obj.past iov b.obj.out (b.obj.sends.length + 2) b.obj.sends
      l.calm.sends (by omega)
    have h3 := h3.resolve_right fun hf => l.calm.sent hf.2
    have e2 : b.write iov = .ok (.success, { b with
        obj := { b.obj with out := b.obj.out ++ iov.flatten, sends := sc }
        log := b.log ++ [.wr iov .success] }) := by
      unfold Rdwr.write
      rw [h.opsB]
      simp only [sockOps, Sock.opWrite, ← List.length_flatten]
      rw [h3, h.opened, ho, l.connected]
      simp [Exec.ok_bind]
    rw [e1, e2]
    refine .pure ⟨rfl, h.held, h.opsA, h.opsB, h.opened, fun _ => ?_, ?_⟩
    · exact ⟨l.connected, l.inp, by simp [l.out], l.history,
        l.calm.close, l.calm.reads, h1, fun hm => l.calm.sent (h2.subset hm)⟩
    · intro hf; rw [ho] at hf; cases hf

/-- The same results, and the transport last. -/
abbrev Both4 {α β γ δ : Type} (P : α → β → Prop) (x : Res × γ × δ × α) (y : Res × γ × δ × β) : Prop :=
  x.1 = y.1 ∧ x.2.1 = y.2.1 ∧ x.2.2.1 = y.2.2.1 ∧ P x.2.2.2 y.2.2.2

theorem Rdwr.readControlBody_live {o : Bool} {a : Rdwr Chan} {b : Rdwr Sock} (h : LiveRw o a b) (ct : Control) :
    Follows (Both4 (LiveRw o)) (a.readControlBody ct) (b.readControlBody ct) := by
  unfold Rdwr.readControlBody
  refine (Rdwr.read_live h 4).bind ?_
  rintro ⟨res, tmp, a⟩ ⟨_, _, b⟩ ⟨rfl, rfl, h⟩
  dsimp only
  split
  · exact .pure ⟨rfl, rfl, rfl, h⟩
  split
  · exact .pure ⟨rfl, rfl, rfl, h⟩
  split
  · exact .stuck _ _
  refine (Rdwr.read_live h _).bind ?_
  rintro ⟨res, frame, a⟩ ⟨_, _, b⟩ ⟨rfl, rfl, h⟩
  dsimp only
  split
  · exact .pure ⟨rfl, rfl, rfl, h⟩
  refine .both _ fun ⟨res, ct⟩ => ?_
  dsimp only
  split
  · exact .pure ⟨rfl, rfl, rfl, h⟩
  · exact .pure ⟨rfl, rfl, rfl, h⟩

theorem Rdwr.readControlFrame_live {o : Bool} {a : Rdwr Chan} {b : Rdwr Sock} (h : LiveRw o a b) (ct : Control) (e : Bool) :
    Follows (Both4 (LiveRw o)) (a.readControlFrame ct e) (b.readControlFrame ct e) := by
  unfold Rdwr.readControlFrame
  split
  · refine (Rdwr.read_live h 4).bind ?_
    rintro ⟨res, tmp, a⟩ ⟨_, _, b⟩ ⟨rfl, rfl, h⟩
    dsimp only
    split
    · exact .pure ⟨rfl, rfl, rfl, h⟩
    split
    · exact .pure ⟨rfl, rfl, rfl, h⟩
    exact Rdwr.readControlBody_live h ct
  · exact Rdwr.readControlBody_live h ct

/-- The same results, and the transport last. -/
abbrev BothC {α β γ : Type} (P : α → β → Prop) (x : Res × γ × α) (y : Res × γ × β) : Prop :=
  x.1 = y.1 ∧ x.2.1 = y.2.1 ∧ P x.2.2 y.2.2

theorem Rdwr.readControl_live {o : Bool} {a : Rdwr Chan} {b : Rdwr Sock} (h : LiveRw o a b) (ct : Option Control) (t : Nat) :
    Follows (BothC (LiveRw o)) (a.readControl ct t) (b.readControl ct t) := by
  unfold Rdwr.readControl
  refine (Rdwr.readControlFrame_live h _ _).bind ?_
  rintro ⟨res, ct, ty, a⟩ ⟨_, _, _, b⟩ ⟨rfl, rfl, rfl, h⟩
  dsimp only
  repeat' split
  all_goals exact .pure ⟨rfl, rfl, h⟩

theorem Rdwr.writeControlFrame_live {o : Bool} {a : Rdwr Chan} {b : Rdwr Sock} (h : LiveRw o a b) (ct : Control) :
    Follows (Both (LiveRw o)) (a.writeControlFrame ct) (b.writeControlFrame ct) := by
  unfold Rdwr.writeControlFrame
  split
  · exact .pure ⟨rfl, h⟩
  split
  · exact .stuck _ _
  refine .both _ fun ⟨res, frame, len⟩ => ?_
  dsimp only
  split
  · exact .pure ⟨rfl, h⟩
  · exact Rdwr.write_live h _

theorem Rdwr.writeControl_live {o : Bool} {a : Rdwr Chan} {b : Rdwr Sock} (h : LiveRw o a b) (t : Nat) (ct : Option Bytes) :
    Follows (Both (LiveRw o)) (a.writeControl t ct) (b.writeControl t ct) := by
  unfold Rdwr.writeControl
  dsimp only
  split
  · exact .pure ⟨rfl, h⟩
  split
  · exact Rdwr.writeControlFrame_live h _
  · split
    · exact .pure ⟨rfl, h⟩
    · exact Rdwr.writeControlFrame_live h _

theorem Rdwr.destroy_same {a : Rdwr Chan} {b : Rdwr Sock} (h : SameRw a b) :
    Follows (Both SameRw) a.destroy b.destroy := by
  have e1 : a.destroy = .ok (.success, a) := by unfold Rdwr.destroy; rw [h.opsA]; rfl
  have e2 : b.destroy = .ok (.success, { b with log := b.log ++ [.destroy .success] }) := by
    unfold Rdwr.destroy; rw [h.opsB]; rfl
  rw [e1, e2]
  exact .pure ⟨rfl, h.opsA, h.opsB, h.sent⟩

/-! ### The writer -/

/-- Writers that differ in the transport only. -/
structure WSame (R : Rdwr Chan → Rdwr Sock → Prop) (a : Writer Chan) (b : Writer Sock) : Prop where
  state : b.state = a.state
  cts : b.cts = a.cts
  rdwr : R a.rdwr b.rdwr
  ready : b.ready = a.ready
  accept : b.accept = a.accept
  start : b.start = a.start
  finish : b.finish = a.finish

/-- The transport is not closed yet, and open if the writer is. -/
abbrev LiveW (a : Writer Chan) (b : Writer Sock) : Prop := WSame (LiveRw (decide (a.state = .opened))) a b

abbrev SameW := WSame SameRw

theorem LiveRw.mono {o o' : Bool} {a : Rdwr Chan} {b : Rdwr Sock} (h : LiveRw o a b) (ho : o' = true → o = true) :
    LiveRw o' a b := ⟨fun e => h.held (ho e), h.opsA, h.opsB, h.opened, h.on, h.off⟩

theorem WSame.live {a : Writer Chan} {b : Writer Sock} (h : WSame (LiveRw true) a b) : LiveW a b :=
  ⟨h.state, h.cts, h.rdwr.mono fun _ => rfl, h.ready, h.accept, h.start, h.finish⟩

theorem LiveW.same {a : Writer Chan} {b : Writer Sock} (h : LiveW a b) : SameW a b :=
  ⟨h.state, h.cts, h.rdwr.same, h.ready, h.accept, h.start, h.finish⟩

theorem Writer.sendStart_live {o : Bool} {a : Writer Chan} {b : Writer Sock} (h : WSame (LiveRw o) a b) (ct : Option Bytes) :
    Follows (Both (WSame (LiveRw o))) (a.sendStart ct) (b.sendStart ct) := by
  obtain ⟨s1, c1, rw1, r1, a1, t1, f1⟩ := a
  obtain ⟨s2, c2, rw2, r2, a2, t2, f2⟩ := b
  obtain ⟨rfl, rfl, h, rfl, rfl, rfl, rfl⟩ := h
  have h : LiveRw o rw1 rw2 := h
  unfold Writer.sendStart
  dsimp only
  split
  · exact .pure ⟨rfl, rfl, rfl, h, rfl, rfl, rfl, rfl⟩
  refine (Rdwr.writeControlFrame_live h _).bind ?_
  rintro ⟨res, a⟩ ⟨_, b⟩ ⟨rfl, h⟩
  exact .pure ⟨rfl, rfl, rfl, h, rfl, rfl, rfl, rfl⟩

theorem Writer.openBidirectional_live {o : Bool} {a : Writer Chan} {b : Writer Sock} (h : WSame (LiveRw o) a b) :
    Follows (Both (WSame (LiveRw o))) a.openBidirectional b.openBidirectional := by
  obtain ⟨s1, c1, rw1, r1, a1, t1, f1⟩ := a
  obtain ⟨s2, c2, rw2, r2, a2, t2, f2⟩ := b
  obtain ⟨rfl, rfl, h, rfl, rfl, rfl, rfl⟩ := h
  have h : LiveRw o rw1 rw2 := h
  unfold Writer.openBidirectional
  dsimp only
  split
  · exact .pure ⟨rfl, rfl, rfl, h, rfl, rfl, rfl, rfl⟩
  refine (Rdwr.writeControlFrame_live h _).bind ?_
  rintro ⟨res, a⟩ ⟨_, b⟩ ⟨rfl, h⟩
  dsimp only
  split
  · exact .pure ⟨rfl, rfl, rfl, h, rfl, rfl, rfl, rfl⟩
  refine (Rdwr.readControl_live h _ _).bind ?_
  rintro ⟨res, acc, a⟩ ⟨_, _, b⟩ ⟨rfl, rfl, h⟩
  dsimp only
  split
  · exact .pure ⟨rfl, rfl, rfl, h, rfl, rfl, rfl, rfl⟩
  cases acc with
  | none => exact .stuck _ _
  | some acc =>
    dsimp only
    split
    · exact .pure ⟨rfl, rfl, rfl, h, rfl, rfl, rfl, rfl⟩
    · exact Writer.sendStart_live ⟨rfl, rfl, h, rfl, rfl, rfl, rfl⟩ _

theorem Writer.open_live {a : Writer Chan} {b : Writer Sock} (h : LiveW a b) :
    Follows (Both LiveW) a.open b.open := by
  unfold Writer.open
  rw [h.state]
  split
  · exact .pure ⟨rfl, h⟩
  refine (Rdwr.open_live h.rdwr).bind ?_
  rintro ⟨res, rwa⟩ ⟨_, rwb⟩ ⟨rfl, hr⟩
  have hr : LiveRw true rwa rwb := hr
  dsimp only
  have hw : WSame (LiveRw true) { a with rdwr := rwa } { b with state := a.state, rdwr := rwb } :=
    ⟨rfl, h.cts, hr, h.ready, h.accept, h.start, h.finish⟩
  split
  · exact .pure ⟨rfl, hw.live⟩
  rw [hr.opsA, hr.opsB, if_pos (by rfl), if_pos (by rfl)]
  refine (Writer.openBidirectional_live hw).bind ?_
  rintro ⟨res, a⟩ ⟨_, b⟩ ⟨rfl, h⟩
  have h : WSame (LiveRw true) a b := h
  dsimp only
  split
  · exact .pure ⟨rfl, h.live⟩
  · exact .pure ⟨rfl, rfl, h.cts, h.rdwr.mono fun _ => rfl, h.ready, h.accept, h.start, h.finish⟩

theorem Writer.maybeOpen_live {a : Writer Chan} {b : Writer Sock} (h : LiveW a b) :
    Follows (Both LiveW) a.maybeOpen b.maybeOpen := by
  unfold Writer.maybeOpen
  rw [h.state]
  split
  · exact Writer.open_live h
  · exact .pure ⟨rfl, h⟩

theorem Writer.close_live {a : Writer Chan} {b : Writer Sock} (h : LiveW a b) :
    Follows (Both SameW) a.close b.close := by
  unfold Writer.close
  rw [h.state]
  split
  · exact .pure ⟨rfl, h.same⟩
  refine (Rdwr.writeControl_live h.rdwr _ _).bind ?_
  rintro ⟨res, rwa⟩ ⟨_, rwb⟩ ⟨rfl, hr⟩
  have hr : LiveRw _ rwa rwb := hr
  dsimp only
  split
  · refine (Rdwr.close_live hr).bind ?_
    rintro ⟨r, rwa⟩ ⟨_, rwb⟩ ⟨rfl, hr⟩
    exact .pure ⟨rfl, rfl, h.cts, hr, h.ready, h.accept, h.start, h.finish⟩
  rw [hr.opsA, hr.opsB, if_pos (by rfl), if_pos (by rfl), h.finish]
  refine (Rdwr.readControl_live hr _ _).bind ?_
  rintro ⟨res, fin, rwa⟩ ⟨_, _, rwb⟩ ⟨rfl, rfl, hr⟩
  have hr : LiveRw _ rwa rwb := hr
  dsimp only
  split <;>
  · refine (Rdwr.close_live hr).bind ?_
    rintro ⟨r, rwa⟩ ⟨_, rwb⟩ ⟨rfl, hr⟩
    exact .pure ⟨rfl, rfl, h.cts, hr, h.ready, h.accept, h.start, rfl⟩

theorem Writer.writeIov_live {a : Writer Chan} {b : Writer Sock} (h : LiveW a b) (iov : List Bytes) :
    Follows (Both LiveW) (a.writeIov iov) (b.writeIov iov) := by
  unfold Writer.writeIov
  refine .both _ fun iov => ?_
  refine (Rdwr.write_live h.rdwr iov).bind ?_
  rintro ⟨res, rwa⟩ ⟨_, rwb⟩ ⟨rfl, hr⟩
  exact .pure ⟨rfl, h.state, h.cts, hr, h.ready, h.accept, h.start, h.finish⟩

theorem Writer.writeIovStupid_live (fuel : Nat) {a : Writer Chan} {b : Writer Sock} (h : LiveW a b)
    (iov : List Bytes) :
    Follows (Both LiveW) (Writer.writeIovStupid fuel a iov) (Writer.writeIovStupid fuel b iov) := by
  induction fuel generalizing a b iov with
  | zero =>
    unfold Writer.writeIovStupid
    split
    · exact .stuck _ _
    · exact .pure ⟨rfl, h⟩
  | succ fuel ih =>
    unfold Writer.writeIovStupid
    split
    · refine (Writer.writeIov_live h _).bind ?_
      rintro ⟨res, a⟩ ⟨_, b⟩ ⟨rfl, h⟩
      dsimp only
      split
      · exact .pure ⟨rfl, h⟩
      · exact ih h _
    · exact .pure ⟨rfl, h⟩

theorem Writer.writev_live {a : Writer Chan} {b : Writer Sock} (h : LiveW a b) (iov : List Bytes) :
    Follows (Both LiveW) (a.writev iov) (b.writev iov) := by
  unfold Writer.writev
  split
  · exact .pure ⟨rfl, h⟩
  refine (Writer.maybeOpen_live h).bind ?_
  rintro ⟨res, a⟩ ⟨_, b⟩ ⟨rfl, h⟩
  have h : LiveW a b := h
  dsimp only
  split
  · exact .pure ⟨rfl, h⟩
  rw [h.state]
  split
  · split
    · exact .stuck _ _
    split
    · exact Writer.writeIov_live h iov
    · exact Writer.writeIovStupid_live _ h iov
  · exact .pure ⟨rfl, h⟩

theorem Writer.destroy_live {a : Writer Chan} {b : Writer Sock} (h : LiveW a b) :
    Follows (Both SameRw) a.destroy b.destroy := by
  unfold Writer.destroy
  rw [h.state]
  refine Follows.bind (P := Both SameW) ?_ ?_
  · split
    · exact Writer.close_live h
    · exact .pure ⟨rfl, h.same⟩
  · rintro ⟨res, a⟩ ⟨_, b⟩ ⟨rfl, h⟩
    have h : SameW a b := h
    dsimp only
    refine (Rdwr.destroy_same h.rdwr).bind ?_
    rintro ⟨r, rwa⟩ ⟨_, rwb⟩ ⟨rfl, hr⟩
    exact .pure ⟨rfl, hr⟩

/-- A closed writer is destroyed. -/
theorem Writer.destroy_closed {a : Writer Chan} {b : Writer Sock} (h : SameW a b) (hs : a.state ≠ .opened) :
    Follows (Both SameRw) a.destroy b.destroy := by
  unfold Writer.destroy
  rw [h.state, if_neg hs, if_neg hs]
  simp only [Exec.ok_bind]
  refine (Rdwr.destroy_same h.rdwr).bind ?_
  rintro ⟨r, rwa⟩ ⟨_, rwb⟩ ⟨rfl, hr⟩
  exact .pure ⟨rfl, hr⟩

theorem Writer.close_state {σ : Type} {w w' : Writer σ} {r : Res} (h : w.close = .ok (r, w')) :
    w'.state ≠ .opened := by
  unfold Writer.close at h
  split at h
  · cases h; assumption
  obtain ⟨⟨res, rw⟩, -, h⟩ := Exec.bind_eq_ok.1 h
  dsimp only at h
  split at h
  · obtain ⟨⟨res, rw⟩, -, h⟩ := Exec.bind_eq_ok.1 h
    cases h; simp
  split at h
  · obtain ⟨⟨res, fin, rw⟩, -, h⟩ := Exec.bind_eq_ok.1 h
    dsimp only at h
    split at h <;>
    · obtain ⟨⟨res, rw⟩, -, h⟩ := Exec.bind_eq_ok.1 h
      cases h; simp
  · obtain ⟨⟨res, rw⟩, -, h⟩ := Exec.bind_eq_ok.1 h
    cases h; simp

/-- The operations on a writer other than closing it. -/
theorem Writer.step_live {a : Writer Chan} {b : Writer Sock} (h : LiveW a b) {op : WOp} (hop : op ≠ .close) :
    Follows (Both LiveW) (a.step op) (b.step op) := by
  cases op with
  | opn => exact Writer.open_live h
  | write d => exact Writer.writev_live h [d]
  | writev ds => exact Writer.writev_live h ds
  | close => exact absurd rfl hop
  | getControl t =>
    unfold Writer.step Writer.getControl
    refine Follows.bind (P := BothC LiveW) ?_ ?_
    · refine (Writer.maybeOpen_live h).bind ?_
      rintro ⟨res, a⟩ ⟨_, b⟩ ⟨rfl, h⟩
      have h : LiveW a b := h
      dsimp only
      rw [h.accept, h.finish, h.ready, h.start]
      repeat' split
      all_goals exact .pure ⟨rfl, rfl, h⟩
    · rintro ⟨res, c, a⟩ ⟨_, _, b⟩ ⟨rfl, rfl, h⟩
      exact .pure ⟨rfl, h⟩

/-- Any operations, none of which closes the writer, and then the closing. -/
theorem Writer.run_live (ops : List WOp) (hops : .close ∉ ops) {a : Writer Chan} {b : Writer Sock}
    (h : LiveW a b) :
    Follows (fun x y => x.1 = y.1 ∧ SameW x.2 y.2) (a.run (ops ++ [.close])) (b.run (ops ++ [.close])) := by
  induction ops generalizing a b with
  | nil =>
    simp only [List.nil_append]
    unfold Writer.run
    refine Follows.bind (P := Both SameW) (Writer.close_live h) ?_
    rintro ⟨r, a⟩ ⟨_, b⟩ ⟨rfl, h⟩
    unfold Writer.run
    exact .pure ⟨rfl, h⟩
  | cons op ops ih =>
    simp only [List.mem_cons, not_or] at hops
    rw [List.cons_append]
    unfold Writer.run
    refine (Writer.step_live h (fun h => hops.1 h.symm)).bind ?_
    rintro ⟨r, a⟩ ⟨_, b⟩ ⟨rfl, h⟩
    refine (ih hops.2 h).bind ?_
    rintro ⟨rs, a⟩ ⟨_, b⟩ ⟨rfl, h⟩
    exact .pure ⟨rfl, h⟩

/-- A writer over a fresh socket. -/
theorem Writer.init_live {s : Sock} {y : Bytes} (h : OffLine ⟨y, []⟩ s) (wopt : Option WriterOptions) :
    ∃ a b, Writer.init wopt (Rdwr.init chanOps ⟨y, []⟩) = some a ∧
      Writer.init wopt (Rdwr.init sockOps s) = some b ∧ LiveW a b := by
  unfold Writer.init
  rw [if_neg (by simp [Rdwr.init, chanOps]), if_neg (by simp [Rdwr.init, sockOps])]
  refine ⟨_, _, rfl, rfl, rfl, rfl, ?_, rfl, rfl, rfl, rfl⟩
  exact ⟨(by intro h; cases h), rfl, rfl, rfl, (by intro h; cases h), fun _ => h⟩

/-! ### `fstrm_replay` -/

theorem replayLoop_live (fuel n : Nat) (r : Reader FileSt) {a : Writer Chan} {b : Writer Sock} (h : LiveW a b) :
    Follows (fun x y => x.1 = y.1 ∧ x.2.1 = y.2.1 ∧ x.2.2.1 = y.2.2.1 ∧ LiveW x.2.2.2 y.2.2.2)
      (replayLoop fuel n r a) (replayLoop fuel n r b) := by
  induction n generalizing r a b with
  | zero => exact .stuck _ _
  | succ n ih =>
    unfold replayLoop
    refine .both _ fun ⟨res, data, r⟩ => ?_
    dsimp only
    split
    · cases data with
      | none => exact .stuck _ _
      | some d =>
        dsimp only
        refine Follows.bind (P := Both LiveW) (Writer.writev_live h [d]) ?_
        rintro ⟨res, a⟩ ⟨_, b⟩ ⟨rfl, h⟩
        dsimp only
        split
        · exact .pure ⟨rfl, rfl, rfl, h⟩
        · exact ih r h
    split
    · refine .both _ fun ⟨res, c, r⟩ => ?_
      dsimp only
      split <;> exact .pure ⟨rfl, rfl, rfl, h⟩
    · exact .pure ⟨rfl, rfl, rfl, h⟩

/-- The same outcome and messages, and the writer last. -/
abbrev BothR {γ δ : Type} (x : γ × δ × Writer Chan) (y : γ × δ × Writer Sock) : Prop :=
  x.1 = y.1 ∧ x.2.1 = y.2.1 ∧ LiveW x.2.2 y.2.2

theorem processFile_live (fuel : Nat) (ct : Bytes) (path : FilePath) (disk : Option Bytes) (script : List Io)
    {a : Writer Chan} {b : Writer Sock} (h : LiveW a b) :
    Follows BothR (processFile fuel ct path disk script a) (processFile fuel ct path disk script b) := by
  unfold processFile
  split
  · exact .pure ⟨rfl, rfl, h⟩
  refine .both _ fun ⟨res, control, r⟩ => ?_
  dsimp only
  split
  · exact .both _ fun _ => .pure ⟨rfl, rfl, h⟩
  cases control with
  | none => exact .stuck _ _
  | some control =>
    dsimp only
    split
    · exact .both _ fun _ => .pure ⟨rfl, rfl, h⟩
    refine (replayLoop_live fuel fuel r h).bind ?_
    rintro ⟨flow, msgs, r, a⟩ ⟨_, _, _, b⟩ ⟨rfl, rfl, rfl, h⟩
    dsimp only
    split
    · exact .pure ⟨rfl, rfl, h⟩
    · exact .both _ fun _ => .pure ⟨rfl, rfl, h⟩

theorem replayFiles_live (fuel : Nat) (ct : Bytes) (files : List ReplayFile) {a : Writer Chan} {b : Writer Sock}
    (h : LiveW a b) : Follows BothR (replayFiles fuel ct files a) (replayFiles fuel ct files b) := by
  induction files generalizing a b with
  | nil => exact .pure ⟨rfl, rfl, h⟩
  | cons f rest ih =>
    unfold replayFiles
    refine (processFile_live fuel ct f.path f.disk f.script h).bind ?_
    rintro ⟨flow, msgs, a⟩ ⟨_, _, b⟩ ⟨rfl, rfl, h⟩
    dsimp only
    split
    · exact .pure ⟨rfl, rfl, h⟩
    refine (ih h).bind ?_
    rintro ⟨flow, msgs, a⟩ ⟨_, _, b⟩ ⟨rfl, rfl, h⟩
    exact .pure ⟨rfl, rfl, h⟩

/-- The same status and messages, and transports on which the same was sent. -/
def SameOut (x : ReplayOut Chan) (y : ReplayOut Sock) : Prop :=
  y.status = x.status ∧ y.msgs = x.msgs ∧
    (x.rdwr = none ∧ y.rdwr = none ∨ ∃ a b, x.rdwr = some a ∧ y.rdwr = some b ∧ SameRw a b)

theorem replay_live (fuel : Nat) (ct : Bytes) (files : List ReplayFile) {s : Sock} {y : Bytes}
    (h : OffLine ⟨y, []⟩ s) :
    Follows SameOut (replay fuel ct files chanOps ⟨y, []⟩) (replay fuel ct files sockOps s) := by
  unfold replay
  refine Follows.bind (P := fun (x : Option (Writer Chan) × List ReplayMsg) (y : Option (Writer Sock) × List ReplayMsg) =>
      x.2 = y.2 ∧ (x.1 = none ∧ y.1 = none ∨ ∃ a b, x.1 = some a ∧ y.1 = some b ∧ LiveW a b)) ?_ ?_
  · unfold initWriter
    dsimp only
    split
    · exact .pure ⟨rfl, Or.inl ⟨rfl, rfl⟩⟩
    obtain ⟨a, b, e1, e2, h⟩ := Writer.init_live h (some (WriterOptions.init.addCt ct).2)
    rw [e1, e2]
    dsimp only
    refine (Writer.open_live h).bind ?_
    rintro ⟨res, a⟩ ⟨_, b⟩ ⟨rfl, h⟩
    dsimp only
    split
    · refine (Writer.destroy_live h).bind ?_
      intro _ _ _
      exact .pure ⟨rfl, Or.inl ⟨rfl, rfl⟩⟩
    · exact .pure ⟨rfl, Or.inr ⟨_, _, rfl, rfl, h⟩⟩
  · rintro ⟨w1, m⟩ ⟨w2, _⟩ ⟨rfl, ⟨rfl, rfl⟩ | ⟨a, b, rfl, rfl, h⟩⟩
    · exact .pure ⟨rfl, rfl, Or.inl ⟨rfl, rfl⟩⟩
    · dsimp only
      refine (replayFiles_live fuel ct files h).bind ?_
      rintro ⟨flow, msgs, a⟩ ⟨_, _, b⟩ ⟨rfl, rfl, h⟩
      have h : LiveW a b := h
      dsimp only
      split
      · exact .pure ⟨rfl, rfl, Or.inr ⟨_, _, rfl, rfl, h.rdwr.same⟩⟩
      refine Follows.bind (P := fun x y => Both SameW x y ∧ x.2.state ≠ .opened) ?_ ?_
      · intro x e
        obtain ⟨y, e1, h1⟩ := Writer.close_live h x e
        exact ⟨y, e1, h1, Writer.close_state e⟩
      rintro ⟨res, a⟩ ⟨_, b⟩ ⟨⟨rfl, h⟩, hs⟩
      dsimp only
      refine (Writer.destroy_closed h hs).bind ?_
      rintro ⟨r, rwa⟩ ⟨_, rwb⟩ ⟨rfl, hr⟩
      exact .pure ⟨rfl, rfl, Or.inr ⟨_, _, rfl, rfl, hr⟩⟩

end Fstrm
