import Verif.Lemmas.SafeZero
import Verif.Props.File
import Verif.Props.Sock

/-!
# The zero length control frame is the only undefined behaviour (C23, C60, C62, C63)

The theorems named `..._safe_partial` exclude peers that ever send eight zero bytes in a row. Here
nothing is excluded: for every peer, the one undefined behaviour that can happen is the array of
length zero, and it happens only right after two reads of four zero bytes.
-/

set_option autoImplicit false

namespace Fstrm.Props

open Fstrm
open Fstrm.Spec (CType CFrame be32 WellBehaved Preserves Pipe pipeOps)

variable {σ : Type}

/-- The computation ends normally, or a `read` call is still skipping control frames after as many
of them as the model follows, or an array of length zero is declared (fstrm/rdwr.c:183), the last
one only if `Z`. No other undefined behaviour, no failing assertion, no blocking. -/
def OnlyZeroArray {α : Type} (Z : Prop) (x : Exec α) : Prop :=
  (∃ a, x = .ok a) ∨ x = .error .fuel ∨
    (Z ∧ x = .error (.ub "zero length variable length array"))

/-- In a state satisfying `I` the transport delivers two reads of four zero bytes in succession. -/
def ZeroPairAt (ops : Ops σ) (I : σ → Prop) : Prop :=
  ∃ f s s1 s2, ops.rd = some f ∧ I s ∧ f 4 s = .ok (.success, [0, 0, 0, 0], s1) ∧
    f 4 s1 = .ok (.success, [0, 0, 0, 0], s2)

theorem onlyZeroArray_of_safe {ops : Ops σ} {I : σ → Prop} {b : Bool} {α : Type} {x : Exec α}
    {Q : α → Prop} (h : Zero.Safe (Zero.Pair ops I) b x Q) :
    OnlyZeroArray (ZeroPairAt ops I) x := by
  rcases h with ⟨a, h, _⟩ | ⟨_, h⟩ | h
  · exact Or.inl ⟨a, h⟩
  · exact Or.inr (Or.inl h)
  · exact Or.inr (Or.inr h)

/-- **C23**: for every well-behaved transport, whatever it delivers, the only undefined behaviour
of a sequence of calls on a reader, ended by destroying it, is the array of length zero, after two
reads of four zero bytes from a state within the invariant `I` of the transport. -/
theorem reader_only_zero_array (ops : Ops σ) (obj : σ) (I : σ → Prop)
    (ropt : Option ReaderOptions) (r : Reader σ) (fuel : Nat) (calls : List ROp)
    (hw : WellBehaved ops I) (hp : Preserves ops I) (hI : I obj)
    (hinit : Reader.init ropt (Rdwr.init ops obj) = some r) :
    OnlyZeroArray (ZeroPairAt ops I) (do
      let (_, r) ← r.run fuel calls
      let (res, _) ← r.destroy
      Except.ok res : Exec Res) := by
  obtain ⟨_, _, _, h4, _, h6, _⟩ := reader_init_some hinit
  have hg : Zero.GoodR ops I r := ⟨⟨by rw [h4]; rfl, by rw [h4]; exact hI⟩, by omega⟩
  refine onlyZeroArray_of_safe (b := true) (Q := fun _ => True)
    (Zero.Safe.bind (hg.run hw hp fuel calls) ?_)
  rintro ⟨rs, r1⟩ h1
  refine Zero.Safe.bind (h1.destroy hw hp) ?_
  rintro ⟨res, rw⟩ _
  exact .ok trivial

/-- **C60**: the same for writers, which never run out of the budget. -/
theorem writer_only_zero_array (ops : Ops σ) (obj : σ) (I : σ → Prop)
    (wopt : Option WriterOptions) (w : Writer σ) (calls : List WOp)
    (hw : WellBehaved ops I) (hp : Preserves ops I) (hI : I obj)
    (hlen : ∀ op ∈ calls, op.frames.length ≤ 1073741823)
    (hinit : Writer.init wopt (Rdwr.init ops obj) = some w) :
    (∃ r, (do
      let (_, w) ← w.run calls
      let (res, _) ← w.destroy
      Except.ok res : Exec Res) = .ok r) ∨
    (ZeroPairAt ops I ∧ (do
      let (_, w) ← w.run calls
      let (res, _) ← w.destroy
      Except.ok res : Exec Res) = .error (.ub "zero length variable length array")) := by
  obtain ⟨_, _, h3, _⟩ := init_some hinit
  have hg : Zero.Good ops I w.rdwr := ⟨by rw [h3]; rfl, by rw [h3]; exact hI⟩
  have : Zero.Safe (Zero.Pair ops I) false (do
      let (_, w) ← w.run calls
      let (res, _) ← w.destroy
      Except.ok res : Exec Res) (fun _ => True) := by
    refine Zero.Safe.bind (Zero.Good.wrun hw hp calls hg hlen) ?_
    rintro ⟨rs, w1⟩ h1
    refine Zero.Safe.bind (Zero.Good.wdestroy hw hp h1) ?_
    rintro ⟨res, rw⟩ _
    exact .ok trivial
  rcases this with ⟨a, h, _⟩ | ⟨h, _⟩ | h
  · exact Or.inl ⟨a, h⟩
  · cases h
  · exact Or.inr h

/-- A named file opened for reading with the given contents. -/
def Holding (D : Bytes) (s : FileSt) : Prop :=
  s.isStd = false ∧ s.write = false ∧ s.disk.getD [] = D

theorem holding_preserved (D : Bytes) : Preserves (fileOps false) (Holding D) where
  opn := by
    rintro f ⟨⟩ s r s' ⟨h1, h2, h3⟩ he
    obtain ⟨_, _, h, a, b, c⟩ := opOpen_total h1
    rw [h] at he; cases he
    exact ⟨a, c.trans h2, by rw [b h2]; exact h3⟩
  cls := by
    rintro f ⟨⟩ s r s' ⟨h1, h2, h3⟩ he
    obtain ⟨_, _, h, a, b, c⟩ := opClose_total h1
    rw [h] at he; cases he
    exact ⟨a, c.trans h2, by rw [b h2]; exact h3⟩
  wr := by rintro f ⟨⟩
  rd := by
    rintro f ⟨⟩ n s r bs s' ⟨h1, h2, h3⟩ he
    obtain ⟨_, _, _, h, _, a, b, c⟩ := opRead_total n h1
    rw [h] at he; cases he
    exact ⟨a, c.trans h2, by rw [b]; exact h3⟩

theorem holding_zeroPair {D : Bytes} (h : ZeroPairAt (fileOps false) (Holding D)) :
    [0, 0, 0, 0, 0, 0, 0, 0] <:+: D := by
  obtain ⟨f, s, s1, s2, hf, ⟨h1, h2, h3⟩, e1, e2⟩ := h
  cases hf
  obtain ⟨_, _, _, g, k, a, b, _⟩ := opRead_total 4 h1
  rw [g] at e1; cases e1
  obtain ⟨_, _, _, g', k', _, _, _⟩ := opRead_total 4 a
  rw [g'] at e2; cases e2
  obtain ⟨x1, _, x3⟩ := k rfl
  obtain ⟨y1, _, _⟩ := k' rfl
  rw [b, x3] at y1
  rw [← h3]
  refine ⟨(s.disk.getD []).take s.pos, (s.disk.getD []).drop (s.pos + 8), ?_⟩
  have : (s.disk.getD []).drop s.pos =
      [0, 0, 0, 0] ++ ([0, 0, 0, 0] ++ (s.disk.getD []).drop (s.pos + 8)) := by
    conv => lhs; rw [← List.take_append_drop 4 ((s.disk.getD []).drop s.pos), ← x1, List.drop_drop,
      ← List.take_append_drop 4 ((s.disk.getD []).drop (s.pos + 4)), ← y1, List.drop_drop]
  conv => rhs; rw [← List.take_append_drop s.pos (s.disk.getD []), this]
  simp

/-- **C62** for readers on a named file with any contents: the only undefined behaviour is the array
of length zero, and only if the file contains eight zero bytes in a row. -/
theorem file_reader_only_zero_array (r : Reader FileSt) (ropt : Option ReaderOptions)
    (disk : Option Bytes) (script : List Io) (fuel : Nat) (calls : List ROp)
    (hinit : fileReaderInit .file ropt disk script = some r) :
    OnlyZeroArray ([0, 0, 0, 0, 0, 0, 0, 0] <:+: disk.getD []) (do
      let (_, r) ← r.run fuel calls
      let (res, _) ← r.destroy
      Except.ok res : Exec Res) := by
  have := reader_only_zero_array (fileOps false) _ (Holding (disk.getD [])) ropt r fuel calls
    ⟨fun f hf s hs => (file_wellBehaved false).opn f hf s hs.1,
     fun f hf s hs => (file_wellBehaved false).cls f hf s hs.1,
     fun f hf s hs => (file_wellBehaved false).destroy f hf s hs.1,
     fun f hf iov s hs => (file_wellBehaved false).wr f hf iov s hs.1,
     fun f hf n s hs => (file_wellBehaved false).rd f hf n s hs.1⟩
    (holding_preserved _) ⟨rfl, rfl, rfl⟩ (fileReader_init hinit)
  rcases this with h | h | ⟨h, h'⟩
  · exact Or.inl h
  · exact Or.inr (Or.inl h)
  · exact Or.inr (Or.inr ⟨holding_zeroPair h, h'⟩)

/-- Not vacuous: a valid file whose payload is eight zero bytes is read without undefined behaviour,
and a file with an escape and a zero length is not. -/
example : (∃ r, fileReaderInit .file none
      (some (CFrame.wire ⟨.start, []⟩ ++ (be32 8 ++ List.replicate 8 0))) [] = some r ∧
      (do
        let (_, r) ← r.run 5 [.read]
        let (res, _) ← r.destroy
        Except.ok res : Exec Res) = .ok .success) ∧
    (∃ r, fileReaderInit .file none
      (some (CFrame.wire ⟨.start, []⟩ ++ (be32 0 ++ be32 0))) [] = some r ∧
      (do
        let (_, r) ← r.run 5 [.read, .read, .close]
        let (res, _) ← r.destroy
        Except.ok res : Exec Res) = .error (.ub "zero length variable length array")) := by
  refine ⟨⟨_, rfl, ?_⟩, ⟨_, rfl, ?_⟩⟩ <;> decide +kernel

/-- A socket without short sends. -/
def Whole (s : Sock) : Prop := NoShort s.sends

/-- **C63** for unix and tcp writers whose kernel makes no short sends (the other defect, C31): for
every peer and every reconnection, the calls end normally or declare the array of length zero. -/
theorem sock_writer_only_zero_array (w : Writer Sock) (wopt : Option WriterOptions)
    (peers : List Bytes) (conn close : List Bool) (reads : List KRead) (sends : List KSend)
    (past : List Nat) (calls : List WOp)
    (hinit : Writer.init wopt (Rdwr.init sockOps
      (Sock.init peers conn close reads sends past)) = some w)
    (hsends : NoShort sends)
    (hlen : ∀ op ∈ calls, op.frames.length ≤ 1073741823) :
    (∃ r, (do
      let (_, w) ← w.run calls
      let (res, _) ← w.destroy
      Except.ok res : Exec Res) = .ok r) ∨
    ((∃ p ∈ peers, [0, 0, 0, 0, 0, 0, 0, 0] <:+: p) ∧ (do
      let (_, w) ← w.run calls
      let (res, _) ← w.destroy
      Except.ok res : Exec Res) = .error (.ub "zero length variable length array")) := by
  have hw : WellBehaved sockOps Whole := by
    refine ⟨?_, ?_, ?_, ?_, ?_⟩
    · rintro f ⟨⟩ s hs
      unfold Sock.opOpen
      split
      · exact ⟨_, _, rfl⟩
      · simp only; split <;> exact ⟨_, _, rfl⟩
    · rintro f ⟨⟩ s hs
      unfold Sock.opClose
      split
      · simp only; split <;> exact ⟨_, _, rfl⟩
      · exact ⟨_, _, rfl⟩
    · rintro f ⟨⟩ s hs; exact ⟨_, _, rfl⟩
    · rintro f ⟨⟩ iov s hs
      by_cases hc : s.connected = true
      · obtain ⟨r, s', h, _⟩ := sock_write_complete s iov hc hs
        exact ⟨r, s', h⟩
      · unfold Sock.opWrite; rw [if_pos (by simp [hc])]; exact ⟨_, _, rfl⟩
    · rintro f ⟨⟩ n s hs
      rcases hr : s.opRead n with e | ⟨r, bs, s'⟩
      · exfalso
        unfold Sock.opRead at hr
        split at hr
        · simp only at hr; split at hr <;> cases hr
        · cases hr
      · exact ⟨r, bs, s', rfl, by rintro rfl; exact (sock_read_exact s s' n bs hr).2.1⟩
  have hp : Preserves sockOps Whole := by
    refine ⟨?_, ?_, ?_, ?_⟩
    · rintro f ⟨⟩ s r s' hs h
      unfold Sock.opOpen at h
      split at h
      · cases h; exact hs
      · simp only at h
        split at h <;> (cases h; exact hs)
    · rintro f ⟨⟩ s r s' hs h
      unfold Sock.opClose at h
      split at h
      · simp only at h
        split at h <;> (cases h; exact hs)
      · cases h; exact hs
    · rintro f ⟨⟩ iov s r s' hs h
      by_cases hc : s.connected = true
      · obtain ⟨r1, s1, hr, _, _, hi, hsf, _, hp, _⟩ := sock_write_complete s iov hc hs
        have h : s.opWrite iov = .ok (r, s') := h
        rw [hr] at h
        cases h
        exact fun e he => hs e (hsf.subset he)
      · unfold Sock.opWrite at h
        rw [if_pos (by simp [hc])] at h
        cases h; exact hs
    · rintro f ⟨⟩ n s r bs s' hs h
      unfold Sock.opRead at h
      split at h
      · simp only at h
        split at h <;> (cases h; exact hs)
      · cases h; exact hs
  rcases writer_only_zero_array sockOps _ Whole wopt w calls hw hp
    (show Whole (Sock.init peers conn close reads sends past) from hsends) hlen hinit with h | ⟨_, h⟩
  · exact Or.inl h
  · by_cases h8 : ∃ p ∈ peers, [0, 0, 0, 0, 0, 0, 0, 0] <:+: p
    · exact Or.inr ⟨h8, h⟩
    · exact Or.inl (sock_writer_safe_partial w wopt peers conn close reads sends past calls hinit
        hsends (fun p hp hh => h8 ⟨p, hp, hh⟩) hlen)

/-- Not vacuous: a peer whose ACCEPT frame carries a content type of eight zero bytes is served, a
peer that sends an escape and a zero length is not. -/
example : (∃ w, Writer.init none (Rdwr.init sockOps
      (Sock.init [CFrame.wire ⟨.accept, [List.replicate 8 0]⟩] [] [] [] [] [])) = some w ∧
      (do
        let (_, w) ← w.run [.opn]
        let (res, _) ← w.destroy
        Except.ok res : Exec Res) ≠ .error (.ub "zero length variable length array")) ∧
    (∃ w, Writer.init none (Rdwr.init sockOps
      (Sock.init [be32 0 ++ be32 0] [] [] [] [] [])) = some w ∧
      (do
        let (_, w) ← w.run [.opn]
        let (res, _) ← w.destroy
        Except.ok res : Exec Res) = .error (.ub "zero length variable length array")) := by
  refine ⟨⟨_, rfl, ?_⟩, ⟨_, rfl, ?_⟩⟩ <;> decide +kernel

end Fstrm.Props
