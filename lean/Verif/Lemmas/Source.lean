import Verif.Lemmas.WriterStream
import Verif.Spec.Transport

/-! Reading from a transport that delivers a given byte string. -/

set_option autoImplicit false

namespace Fstrm

open Spec (CType CFrame ByteSource ByteSink be32)

variable {σ : Type} {rem : σ → Option Bytes} {eof : Res}

/-- `rw` is open on a byte source with `bs` left to be read. -/
structure At (rem : σ → Option Bytes) (eof : Res) (rw : Rdwr σ) (bs : Bytes) : Prop where
  src : ByteSource rw.ops rem eof
  op : rw.opened = true
  left : rem rw.obj = some bs

theorem At.read {rw : Rdwr σ} {bs rest : Bytes} (h : At rem eof rw (bs ++ rest)) (hpos : bs ≠ []) :
    ∃ rw', rw.read bs.length = .ok (.success, bs, rw') ∧ At rem eof rw' rest ∧ rw'.ops = rw.ops := by
  obtain ⟨⟨h1, ⟨f, hf, hrd⟩⟩, ho, hl⟩ := h
  have hp : 0 < bs.length := List.length_pos_iff.2 hpos
  have := hrd bs.length rw.obj _ hp hl
  rw [if_pos (by simp)] at this
  obtain ⟨s', h4, h5⟩ := this
  rw [List.take_left' rfl] at h4
  refine ⟨{ rw with obj := s', log := rw.log ++ [.rd bs.length .success bs] }, ?_,
    ⟨⟨h1, ⟨f, hf, hrd⟩⟩, ho, ?_⟩, rfl⟩
  · unfold Rdwr.read
    simp only [ho, hf, h4]
    simp [bind, Except.bind]
  · show rem s' = some rest
    rw [h5, List.drop_left' rfl]

theorem At.readN {rw : Rdwr σ} {bs : Bytes} {n : Nat} (h : At rem eof rw bs) (hpos : 0 < n)
    (hn : n ≤ bs.length) :
    ∃ rw', rw.read n = .ok (.success, bs.take n, rw') ∧ At rem eof rw' (bs.drop n) ∧
      rw'.ops = rw.ops := by
  have hl : (bs.take n).length = n := by rw [List.length_take]; omega
  have h2 := At.read (bs := bs.take n) (rest := bs.drop n) (by rw [List.take_append_drop]; exact h)
    (by intro h0; rw [h0] at hl; simp at hl; omega)
  rwa [hl] at h2

theorem close_total {rw : Rdwr σ}
    (h : ∀ f, rw.ops.cls = some f → ∃ r s', f rw.obj = .ok (r, s')) :
    ∃ r rw', rw.close = .ok (r, rw') := by
  unfold Rdwr.close
  cases hc : rw.ops.cls with
  | none => exact ⟨_, _, rfl⟩
  | some f =>
    by_cases ho : rw.opened = true
    · obtain ⟨r, s', hs⟩ := h f hc
      simp only [ho, if_true, hs, bind, Except.bind]
      exact ⟨_, _, rfl⟩
    · have ho : rw.opened = false := by simpa using ho
      simp only [ho, Bool.false_eq_true, if_false]; exact ⟨_, _, rfl⟩

theorem At.read_short {rw : Rdwr σ} {bs : Bytes} {n : Nat} (h : At rem eof rw bs) (hpos : 0 < n)
    (hn : bs.length < n) :
    ∃ rw', rw.read n = .ok (eof, [], rw') ∧ rw'.ops = rw.ops := by
  obtain ⟨⟨h1, ⟨f, hf, hrd⟩⟩, ho, hl⟩ := h
  have := hrd n rw.obj _ hpos hl
  rw [if_neg (by omega)] at this
  obtain ⟨s', h4, h3⟩ := this
  obtain ⟨r, rw', hc⟩ := close_total
    (rw := { rw with obj := s', log := rw.log ++ [.rd n eof []] }) h3
  refine ⟨rw', ?_, (Rdwr.close_ok hc).1⟩
  unfold Rdwr.read
  simp only [ho] at hc
  simp [ho, hf, h4, bind, Except.bind, h1, hc]

theorem be32_zero_ne (n : Nat) (h : n < 2^32) : ntohl (be32 n) = n := ntohl_htonl h

theorem payload_pos (f : CFrame) : 4 ≤ f.payload.length := by
  simp [CFrame.payload]

/-- Reading the part of a control frame after the escape. -/
theorem At.readControlBody {rw : Rdwr σ} {f : CFrame} {rest : Bytes} (c : Control)
    (h : At rem eof rw (be32 f.payload.length ++ (f.payload ++ rest)))
    (hf : f.WF) (hl : f.payload.length ≤ 512) :
    ∃ rw', rw.readControlBody c =
        .ok (.success, ⟨f.type.code, f.cts⟩, some f.type.code, rw') ∧
      At rem eof rw' rest ∧ rw'.ops = rw.ops := by
  obtain ⟨rw1, h1, a1, o1⟩ := h.read (by simp [be32])
  have hp := payload_pos f
  obtain ⟨rw2, h2, a2, o2⟩ := a1.read (by
    intro h0; rw [h0] at hp; simp at hp)
  refine ⟨rw2, ?_, a2, o2.trans o1⟩
  have hd : c.decode f.payload f.payload.length false =
      .ok (.success, ⟨f.type.code, f.cts⟩) := by
    rw [Props.decode_iff _ _ _ _ _ (Nat.le_refl _)]
    exact ⟨f, hf, hl, by simp [Spec.wireBytes], rfl⟩
  have ht : Control.getType ⟨f.type.code, f.cts⟩ = (.success, some f.type.code) := by
    unfold Control.getType; rw [if_pos (knownType_code _)]
  unfold Rdwr.readControlBody
  rw [show rw.read 4 = _ from h1, Exec.ok_bind]
  simp only [ne_eq, not_true_eq_false, if_false, be32_zero_ne _ (by omega : f.payload.length < 2^32)]
  rw [if_neg (by simp only [FRAME_LENGTH_MAX]; omega), if_neg (by omega), h2, Exec.ok_bind]
  simp only [not_true_eq_false, if_false, hd, Exec.ok_bind, ht]

theorem At.readControlFrame {rw : Rdwr σ} {f : CFrame} {rest : Bytes} (c : Control)
    (h : At rem eof rw (f.wire ++ rest)) (hf : f.WF) (hl : f.payload.length ≤ 512) :
    ∃ rw', rw.readControlFrame c true =
        .ok (.success, ⟨f.type.code, f.cts⟩, some f.type.code, rw') ∧
      At rem eof rw' rest ∧ rw'.ops = rw.ops := by
  simp only [CFrame.wire, List.append_assoc] at h
  obtain ⟨rw1, h1, a1, o1⟩ := h.read (by simp [be32])
  obtain ⟨rw2, h2, a2, o2⟩ := a1.readControlBody c hf hl
  refine ⟨rw2, ?_, a2, o2.trans o1⟩
  unfold Rdwr.readControlFrame
  rw [if_pos rfl, show rw.read 4 = _ from h1, Exec.ok_bind]
  simp only [ne_eq, not_true_eq_false, if_false, be32_zero_ne 0 (by omega)]
  exact h2

/-- Awaiting a control frame of type `t` when frame `f` is next. -/
theorem At.readControl {rw : Rdwr σ} {f : CFrame} {rest : Bytes} (c : Option Control) (t : CType)
    (h : At rem eof rw (f.wire ++ rest)) (hf : f.WF) (hl : f.payload.length ≤ 512) :
    ∃ rw', rw.readControl c t.code =
        .ok (if f.type = t then .success else .failure, some ⟨f.type.code, f.cts⟩, rw') ∧
      At rem eof rw' rest ∧ rw'.ops = rw.ops := by
  obtain ⟨rw1, h1, a1, o1⟩ := h.readControlFrame (c.getD Control.init) hf hl
  refine ⟨rw1, ?_, a1, o1⟩
  unfold Rdwr.readControl
  rw [h1, Exec.ok_bind]
  by_cases ht : f.type = t
  · simp [ht]
  · have : f.type.code ≠ t.code := fun h => ht (CType.code_inj h)
    simp [ht, this]

theorem At.write {rw : Rdwr σ} {bs : Bytes} (h : At rem eof rw bs) (hk : ByteSink rw.ops rem)
    (iov : List Bytes) :
    ∃ rw', rw.write iov = .ok (.success, rw') ∧ At rem eof rw' bs ∧ rw'.ops = rw.ops := by
  obtain ⟨f, hf, hw⟩ := hk.wr
  obtain ⟨s', h1, h2⟩ := hw iov rw.obj _ h.left
  refine ⟨{ rw with obj := s', log := rw.log ++ [.wr iov .success] }, ?_,
    ⟨h.src, h.op, h2⟩, rfl⟩
  unfold Rdwr.write
  simp only [h.op, hf, h1]
  simp [bind, Except.bind]

end Fstrm
