import Verif.Lemmas.Sock
import Verif.Props.ReaderOpen

/-!
# Properties of the socket transports (C30, C31, C63)

The scripts `reads` and `sends` range over all behaviours of the kernel: any splitting, any
interruptions, any errors.
-/

set_option autoImplicit false

namespace Fstrm.Props

open Fstrm Fstrm.Spec
open Fstrm.Spec (WellBehaved Preserves NoZeroPair)

/-! ### Reading -/

/-- **C30**. A successful read of `n` bytes returns exactly the next `n` bytes of the stream and
leaves the rest, whatever the kernel does. -/
theorem sock_read_exact (s s' : Sock) (n : Nat) (bs : Bytes)
    (h : s.opRead n = .ok (.success, bs, s')) :
    s.connected = true ∧ bs.length = n ∧ s.inp = bs ++ s'.inp := by
  unfold Sock.opRead at h
  split at h
  · rename_i hc
    obtain ⟨got, h1, h2, h3, h4, h5⟩ := readBytes_prefix s.reads n s.inp []
    simp only at h
    split at h
    · rename_i hok
      cases h
      refine ⟨hc, ?_, ?_⟩
      · rw [h1]; simpa using h4 hok
      · rw [h1]; simpa using h2
    · cases h
  · cases h

/-- **C30**. A read always ends; and as long as the kernel reports no error it succeeds exactly if
the stream holds `n` more bytes, however they are split and however often it is interrupted. -/
theorem sock_read_iff (s : Sock) (n : Nat) (hc : s.connected = true) (hf : KRead.fail ∉ s.reads) :
    ∃ r bs s', s.opRead n = .ok (r, bs, s') ∧ (r = .success ↔ n ≤ s.inp.length) := by
  unfold Sock.opRead
  rw [if_pos hc]
  simp only
  have := readBytes_ok_iff s.reads n s.inp [] hf
  split
  · rename_i hok; exact ⟨_, _, _, rfl, by simpa using this.1 hok⟩
  · rename_i hok
    exact ⟨_, _, _, rfl, by simp; have := mt this.2 hok; omega⟩

/-- Single bytes, interruptions and a large piece; the rest of the stream is left alone. -/
example : Sock.opRead 4 ⟨true, [1, 2, 3, 4, 5], [], [], [], [], [.data 1, .intr, .data 1, .intr], [], [], []⟩ =
    .ok (.success, [1, 2, 3, 4], ⟨true, [5], [], [], [], [], [], [], [], []⟩) := by decide +kernel
/-- A stream that ends early. -/
example : (Sock.opRead 4 ⟨true, [1, 2], [], [], [], [], [.data 1], [], [], []⟩).map (·.1) =
    .ok .failure := by decide +kernel

open Classical in
/-- What a connected socket will deliver, provided the kernel reports no errors and takes
everything that is sent. -/
noncomputable def Sock.left (s : Sock) : Option Bytes :=
  if s.connected = true ∧ KRead.fail ∉ s.reads ∧ NoShort s.sends ∧ KSend.fail ∉ s.sends then
    some s.inp
  else none

theorem Sock.left_some {s : Sock} {bs : Bytes} (h : Sock.left s = some bs) :
    s.connected = true ∧ KRead.fail ∉ s.reads ∧ NoShort s.sends ∧ KSend.fail ∉ s.sends ∧
      s.inp = bs := by
  unfold Sock.left at h
  split at h
  · rename_i hc; cases h; exact ⟨hc.1, hc.2.1, hc.2.2.1, hc.2.2.2, rfl⟩
  · cases h

theorem readBytes_suffix (script : List KRead) (n : Nat) (inp acc : Bytes) :
    (readBytes script n inp acc).2.2.2 <:+ script :=
  (readBytes_prefix script n inp acc).choose_spec.2.2.2.2

/-- **C30**, for use with the theorems about readers and writers: a socket is a byte source,
whatever the segmentation. -/
theorem sock_source : ByteSource sockOps Sock.left .failure := by
  refine ⟨by simp, Sock.opRead, rfl, ?_⟩
  intro n s bs _ hb
  obtain ⟨hc, hf, hn, hs, rfl⟩ := Sock.left_some hb
  obtain ⟨got, h1, h2, h3, h4, h5⟩ := readBytes_prefix s.reads n s.inp []
  have hiff := readBytes_ok_iff s.reads n s.inp [] hf
  unfold Sock.opRead
  rw [if_pos hc]
  simp only
  by_cases h : n ≤ s.inp.length
  · rw [if_pos h, if_pos (hiff.2 h)]
    have hlen := h4 (hiff.2 h)
    simp only [List.nil_append] at h1
    refine ⟨_, by rw [h1, show got = s.inp.take n by rw [h2, ← hlen]; simp], ?_⟩
    unfold Sock.left
    rw [if_pos ⟨hc, fun hm => hf (h5.subset hm), hn, hs⟩]
    simp only
    congr 1
    generalize (readBytes s.reads n s.inp []).2.2.1 = rest at h2
    rw [h2, ← hlen]
    simp
  · rw [if_neg h, if_neg (fun hk => h (hiff.1 hk))]
    refine ⟨_, rfl, ?_⟩
    rintro g ⟨⟩
    unfold Sock.opClose
    rw [if_pos (by exact hc)]
    simp only
    split <;> exact ⟨_, _, rfl⟩

/-! ### Writing -/

/-- **C31**, as far as it is true. Read strictly (nothing may be read beyond the caller's iovec
array, `past = []`), a write that returns success has handed the kernel exactly the
concatenation of the buffers, whatever sequence of short sends, interruptions and errors
occurred. `_partial`: after a short send the function never gets that far, see
`sock_short_send`, and what it does on real memory is wrong, see `sock_write_duplicates`. -/
theorem sock_write_exact_partial (s s' : Sock) (iov : List Bytes) (hpast : s.past = [])
    (h : s.opWrite iov = .ok (.success, s')) :
    s.connected = true ∧ s'.out = s.out ++ iov.flatten := by
  unfold Sock.opWrite at h
  split at h
  · cases h
  · rename_i hc
    obtain ⟨⟨res, out, sends⟩, h1, h⟩ := Exec.bind_eq_ok.1 h
    simp only [Except.ok.injEq, Prod.mk.injEq] at h
    obtain ⟨rfl, rfl⟩ := h
    rw [hpast, ← List.length_flatten] at h1
    obtain ⟨a, _⟩ := sendLoop_success iov.flatten s.out _ _ _ _ _ _ _ (Nat.le_refl _)
      (Or.inl ⟨rfl, rfl, rfl⟩) h1
    exact ⟨by simpa using hc, a⟩

/-- **C31**. Without short sends a write ends; it fails only after an error reported by the kernel
and then nothing was sent, and otherwise exactly the concatenation of the buffers was.
This needs no assumption about the memory after the array. -/
theorem sock_write_complete (s : Sock) (iov : List Bytes) (hc : s.connected = true)
    (hn : NoShort s.sends) :
    ∃ r s', s.opWrite iov = .ok (r, s') ∧
      (r = .success ∧ s'.out = s.out ++ iov.flatten ∨
       r = .failure ∧ s'.out = s.out ∧ KSend.fail ∈ s.sends) ∧
      s'.connected = true ∧ s'.inp = s.inp ∧ s'.sends <:+ s.sends ∧ s'.reads = s.reads ∧
      s'.peers = s.peers ∧ s'.past = s.past := by
  obtain ⟨sc, h1, h2, h3⟩ := sendLoop_noShort s.past iov s.out (s.sends.length + 2) s.sends hn
    (by omega)
  unfold Sock.opWrite
  rw [if_neg (by simp [hc])]
  simp only [← List.length_flatten]
  rcases h3 with h3 | ⟨h3, h4⟩
  · rw [h3]
    exact ⟨_, _, rfl, Or.inl ⟨rfl, rfl⟩, hc, rfl, h2, rfl, rfl, rfl⟩
  · rw [h3]
    exact ⟨_, _, rfl, Or.inr ⟨rfl, rfl, h4⟩, hc, rfl, h2, rfl, rfl, rfl⟩

example : (Sock.opWrite [[1, 2], [], [3]] ⟨true, [], [9], [], [], [], [], [.intr, .intr, .all], [], []⟩).map
    (fun p => (p.1, p.2.out)) = .ok (.success, [9, 1, 2, 3]) ∧
    NoShort [KSend.intr, .intr, .all] := by
  refine ⟨by decide +kernel, ?_⟩
  intro e he k
  simp only [List.mem_cons, List.not_mem_nil, or_false] at he
  rcases he with rfl | rfl | rfl <;> simp

theorem sendLoop_intr (past : List Nat) (nbytes fuel j : Nat) (script : List KSend)
    (iov : List Bytes) (cur : Nat) (out : Bytes) :
    sendLoop past nbytes (fuel + j) (List.replicate j .intr ++ script) iov cur out =
      sendLoop past nbytes fuel script iov cur out := by
  induction j with
  | zero => simp
  | succ j ih => rw [← Nat.add_assoc, sendLoop_succ, List.replicate_succ]; simpa using ih

/-- **C31** is false in that short sends are not survived: once the kernel takes only a part of the
data the write cannot return success any more without reading beyond the caller's
array. -/
theorem sock_short_send (s s' : Sock) (iov : List Bytes) (j k : Nat) (rest : List KSend)
    (hpast : s.past = []) (hs : s.sends = List.replicate j .intr ++ .sent k :: rest)
    (hk : 0 < k ∧ k < iov.flatten.length) : s.opWrite iov ≠ .ok (.success, s') := by
  intro h
  unfold Sock.opWrite at h
  split at h
  · cases h
  · obtain ⟨⟨res, out, sends⟩, h1, h⟩ := Exec.bind_eq_ok.1 h
    simp only [Except.ok.injEq, Prod.mk.injEq] at h
    obtain ⟨rfl, rfl⟩ := h
    rw [hpast, hs, ← List.length_flatten] at h1
    rw [show (List.replicate j KSend.intr ++ .sent k :: rest).length + 2 = (rest.length + 2 + 1) + j by
      simp; omega, sendLoop_intr, sendLoop_succ] at h1
    simp only [List.head?_cons, Option.getD_some, KSend.amount, reduceCtorEq, if_false,
      List.tail_cons] at h1
    rw [Nat.min_eq_left (Nat.le_of_lt hk.2), if_neg (by omega)] at h1
    obtain ⟨⟨w, c⟩, h2, h3⟩ := Exec.bind_eq_ok.1 h1
    have hlt := skipIov_lt _ _ _ _ _ h2
    simp only [List.append_nil, List.drop_zero, List.length_map] at hlt h2
    simp only at h3
    split at h3
    · omega
    · split at h3
      · cases h3
      · have hle := modify_flatten_length iov c w
        have := sendLoop_success iov.flatten s.out _ _ _ _ _ _ _ (by rw [hle]; omega) ?_ h3
        · obtain ⟨_, rfl, ho, _⟩ := this
          have : (s.out ++ iov.flatten.take k).length = s.out.length := by rw [ho]
          simp only [List.length_append, List.length_take] at this
          omega
        · by_cases hc0 : c = 0
          · right; right
            subst hc0
            obtain ⟨rfl, l, ls, hl, hwl⟩ := skipIov_same h2 rfl
            have h0 : (iov[0]?.getD []).length = l := by
              cases iov with
              | nil => simp at hl
              | cons d _ => simp at hl; simp [hl.1]
            rw [hle, h0]; omega
          · exact Or.inr (Or.inl hc0)

/-- **C31** is false: two buffers, the kernel takes two of five bytes first. The second buffer is
then sent together with the first one once more, and the code reads beyond its array.
If a large number happens to be there, the write reports success although the kernel
was given seven bytes, two of them twice. Strictly, the read is undefined behaviour. -/
theorem sock_write_duplicates :
    (Sock.opWrite [[1, 2], [3, 4, 5]] ⟨true, [], [], [], [], [], [], [.sent 2], [1000], []⟩).map
      (fun p => (p.1, p.2.out)) = .ok (.success, [1, 2, 1, 2, 3, 4, 5]) ∧
    Sock.opWrite [[1, 2], [3, 4, 5]] ⟨true, [], [], [], [], [], [], [.sent 2], [], []⟩ =
      .error (.ub "read past the end of the iovec array") := by
  constructor <;> decide +kernel

/-- **C31** is false even for a single buffer: after a short send and the rest, both taken
correctly, the code reads beyond its array. -/
theorem sock_single_buffer_ub :
    Sock.opWrite [[1, 2, 3]] ⟨true, [], [], [], [], [], [], [.sent 1], [], []⟩ =
      .error (.ub "read past the end of the iovec array") := by decide +kernel

/-- Sockets take what is written, without errors and short sends. -/
theorem sock_sink : ByteSink sockOps Sock.left := by
  refine ⟨Sock.opWrite, rfl, ?_⟩
  intro iov s bs hb
  obtain ⟨hc, hf, hn, hs, rfl⟩ := Sock.left_some hb
  obtain ⟨r, s', h1, h2, h3, h4, h5, h6, _⟩ := sock_write_complete s iov hc hn
  rcases h2 with ⟨rfl, _⟩ | ⟨_, _, h2⟩
  · refine ⟨s', h1, ?_⟩
    unfold Sock.left
    rw [if_pos ⟨h3, by rw [h6]; exact hf, fun e he => hn e (h5.subset he),
      fun he => hs (h5.subset he)⟩, h4]
  · exact absurd h2 hs

/-- **C15** and **C30** for a unix or tcp writer: when the peer's ACCEPT frame arrives, split and
interrupted in any way, opening succeeds if and only if the writer has no content types
or its first one is accepted. -/
theorem sock_writer_open_partial (w : Writer Sock) (wopt : Option WriterOptions) (f : CFrame)
    (rest : Bytes) (peers : List Bytes) (close : List Bool) (reads : List KRead)
    (sends : List KSend) (past : List Nat)
    (hinit : Writer.init wopt (Rdwr.init sockOps
      (Sock.init ((f.wire ++ rest) :: peers) [] close reads sends past)) = some w)
    (hreads : KRead.fail ∉ reads) (hsends : NoShort sends ∧ KSend.fail ∉ sends)
    (hf : f.WF) (hfl : f.payload.length ≤ 512) (hft : f.type = .accept)
    (hct : ∀ ct ∈ w.cts, ct.length ≤ 256) (hready : (CFrame.wire ⟨.ready, w.cts⟩).length ≤ 512) :
    ∃ r w', w.open = .ok (r, w') ∧
      (r = .success ↔ w.cts = [] ∨ ∃ c rest, w.cts = c :: rest ∧ accepts f.cts c) := by
  obtain ⟨h1, h2, h3, _⟩ := init_some hinit
  refine writer_open_bidir_partial (rem := Sock.left) (eof := .failure) w
    ⟨sockOps, ⟨true, f.wire ++ rest, [], peers, [], close, reads, sends, past, []⟩, true,
      [.opn .success]⟩ f rest (by rw [h1]; simp) (by rw [h3]; rfl) ?_ sock_source sock_sink hf hfl
    hft hct hready
  unfold Sock.left
  rw [if_pos ⟨rfl, hreads, hsends⟩]

/-- A concrete instance of the hypotheses: the frame arrives byte by byte. -/
example : ∃ w, Writer.init (some ⟨[[1], [2]]⟩) (Rdwr.init sockOps
      (Sock.init ((CFrame.wire ⟨.accept, [[9], [1]]⟩ ++ []) :: []) [] []
        (List.replicate 30 (.data 1)) [.intr, .all] [])) = some w ∧
    (w.open.map (·.1)) = .ok .success := by
  refine ⟨_, rfl, ?_⟩
  decide +kernel

/-! ### Safety -/

/-- No short sends, and no peer sends eight zero bytes in a row. -/
def SockHarmless (s : Sock) : Prop :=
  NoShort s.sends ∧ ¬ ([0, 0, 0, 0, 0, 0, 0, 0] <:+: s.inp) ∧
    ∀ p ∈ s.peers, ¬ ([0, 0, 0, 0, 0, 0, 0, 0] <:+: p)

theorem sock_wellBehaved : WellBehaved sockOps SockHarmless where
  opn := by
    rintro f ⟨⟩ s hs
    unfold Sock.opOpen
    split
    · exact ⟨_, _, rfl⟩
    · simp only; split <;> exact ⟨_, _, rfl⟩
  cls := by
    rintro f ⟨⟩ s hs
    unfold Sock.opClose
    split
    · simp only; split <;> exact ⟨_, _, rfl⟩
    · exact ⟨_, _, rfl⟩
  destroy := by rintro f ⟨⟩ s hs; exact ⟨_, _, rfl⟩
  wr := by
    rintro f ⟨⟩ iov s hs
    by_cases hc : s.connected = true
    · obtain ⟨r, s', h, _⟩ := sock_write_complete s iov hc hs.1
      exact ⟨r, s', h⟩
    · unfold Sock.opWrite; rw [if_pos (by simp [hc])]; exact ⟨_, _, rfl⟩
  rd := by
    rintro f ⟨⟩ n s hs
    rcases hr : s.opRead n with e | ⟨r, bs, s'⟩
    · exfalso
      unfold Sock.opRead at hr
      split at hr
      · simp only at hr; split at hr <;> cases hr
      · cases hr
    · exact ⟨r, bs, s', rfl, by rintro rfl; exact (sock_read_exact s s' n bs hr).2.1⟩

theorem sock_preserves : Preserves sockOps SockHarmless where
  opn := by
    rintro f ⟨⟩ s r s' ⟨h1, h2, h3⟩ h
    unfold Sock.opOpen at h
    split at h
    · cases h; exact ⟨h1, h2, h3⟩
    · simp only at h
      split at h
      · cases h
        refine ⟨h1, ?_, fun p hp => h3 p (List.mem_of_mem_tail hp)⟩
        cases hp : s.peers with
        | nil => intro hh; have := hh.length_le; simp at this
        | cons p ps => exact h3 p (by simp [hp])
      · cases h; exact ⟨h1, h2, h3⟩
  cls := by
    rintro f ⟨⟩ s r s' ⟨h1, h2, h3⟩ h
    unfold Sock.opClose at h
    split at h
    · simp only at h
      split at h <;> (cases h; exact ⟨h1, h2, h3⟩)
    · cases h; exact ⟨h1, h2, h3⟩
  wr := by
    rintro f ⟨⟩ iov s r s' ⟨h1, h2, h3⟩ h
    by_cases hc : s.connected = true
    · obtain ⟨r1, s1, hr, _, _, hi, hs, _, hp, _⟩ := sock_write_complete s iov hc h1
      have h : s.opWrite iov = .ok (r, s') := h
      rw [hr] at h
      cases h
      exact ⟨fun e he => h1 e (hs.subset he), by rw [hi]; exact h2, by rw [hp]; exact h3⟩
    · unfold Sock.opWrite at h
      rw [if_pos (by simp [hc])] at h
      cases h; exact ⟨h1, h2, h3⟩
  rd := by
    rintro f ⟨⟩ n s r bs s' ⟨h1, h2, h3⟩ h
    unfold Sock.opRead at h
    obtain ⟨got, _, g2, _⟩ := readBytes_prefix s.reads n s.inp []
    have key : ¬ ([0, 0, 0, 0, 0, 0, 0, 0] <:+: (readBytes s.reads n s.inp []).2.2.1) := by
      intro hh
      exact h2 (hh.trans (by conv => rhs; rw [g2]
                             exact (List.suffix_append _ _).isInfix))
    split at h
    · simp only at h
      split at h <;> (cases h; exact ⟨h1, key, h3⟩)
    · cases h; exact ⟨h1, h2, h3⟩

theorem sock_noZeroPair : NoZeroPair sockOps SockHarmless := by
  rintro f ⟨⟩ s s1 s2 ⟨_, h3, _⟩ e1 e2
  obtain ⟨_, _, a⟩ := sock_read_exact s s1 4 _ e1
  obtain ⟨_, _, b⟩ := sock_read_exact s1 s2 4 _ e2
  apply h3
  rw [a, b]
  exact ⟨[], s2.inp, by simp⟩

/-- **C63**. No sequence of calls on a unix or tcp writer, ended by destroying it and including
reconnections, runs into undefined behaviour, whatever the kernel and the peers do.
`_partial`: there must be no short sends (`sock_single_buffer_ub`) and no peer may send
eight zero bytes in a row (`writer_zero_length_ub`). -/
theorem sock_writer_safe_partial (w : Writer Sock) (wopt : Option WriterOptions)
    (peers : List Bytes) (conn close : List Bool) (reads : List KRead) (sends : List KSend)
    (past : List Nat) (calls : List WOp)
    (hinit : Writer.init wopt (Rdwr.init sockOps
      (Sock.init peers conn close reads sends past)) = some w)
    (hsends : NoShort sends)
    (h8 : ∀ p ∈ peers, ¬ ([0, 0, 0, 0, 0, 0, 0, 0] <:+: p))
    (hlen : ∀ op ∈ calls, op.frames.length ≤ 1073741823) :
    ∃ r, (do
      let (_, w) ← w.run calls
      let (res, _) ← w.destroy
      Except.ok res : Exec Res) = .ok r :=
  writer_safe_partial sockOps _ SockHarmless wopt w calls sock_wellBehaved sock_preserves
    sock_noZeroPair
    ⟨hsends, fun hh => by have := hh.length_le; simp [Sock.init] at this, h8⟩ hlen hinit

example : ∃ w, Writer.init (some ⟨[[1]]⟩) (Rdwr.init sockOps
      (Sock.init [[0, 0, 0, 0, 9], []] [false, true] [false] [.fail, .intr, .data 1]
        [.intr, .fail, .all] [3])) = some w ∧ NoShort [KSend.intr, .fail, .all] := by
  refine ⟨_, rfl, ?_⟩
  intro e he k
  simp only [List.mem_cons, List.not_mem_nil, or_false] at he
  rcases he with rfl | rfl | rfl <;> simp

end Fstrm.Props
