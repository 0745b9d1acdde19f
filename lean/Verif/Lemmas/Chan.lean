import Verif.Lemmas.Reader
import Verif.Lemmas.FileNoFail
import Verif.Lemmas.Conns
import Verif.Spec.Net

/-! Reading and writing over pipes whose reads block. -/

set_option autoImplicit false

namespace Fstrm

open Spec (CType CFrame be32)

/-- `rw` is an open end of the pipes with `inp` left to be read and `out` sent. -/
structure Ch (rw : Rdwr Chan) (inp out : Bytes) : Prop where
  ops : rw.ops = chanOps
  op : rw.opened = true
  inp : rw.obj.inp = inp
  out : rw.obj.out = out

theorem chan_init_open (y o : Bytes) (rw : Rdwr Chan) (ho : rw.ops = chanOps)
    (hs : rw.obj = ⟨y, o⟩) : ∃ rw', rw.open = .ok (.success, rw') ∧ Ch rw' y o := by
  refine ⟨{ rw with opened := true, log := rw.log ++ [.opn .success] }, ?_,
    ⟨ho, rfl, by simp [hs], by simp [hs]⟩⟩
  unfold Rdwr.open
  rw [ho]
  simp [chanOps, Exec.ok_bind, ho]

theorem Ch.read {rw : Rdwr Chan} {bs rest out : Bytes} (h : Ch rw (bs ++ rest) out) :
    ∃ rw', rw.read bs.length = .ok (.success, bs, rw') ∧ Ch rw' rest out := by
  refine ⟨{ rw with obj := ⟨rest, out⟩, log := rw.log ++ [.rd bs.length .success bs] }, ?_,
    ⟨h.ops, h.op, rfl, rfl⟩⟩
  unfold Rdwr.read
  rw [h.op, h.ops]
  simp [chanOps, h.inp, h.out, Exec.ok_bind, h.ops, h.op]

theorem Ch.read_wait {rw : Rdwr Chan} {bs out : Bytes} {n : Nat} (h : Ch rw bs out)
    (hn : bs.length < n) : rw.read n = .error (.wait out) := by
  unfold Rdwr.read
  rw [h.op, h.ops]
  simp only [chanOps, h.inp, h.out, Bool.not_true, Bool.false_eq_true, if_false]
  rw [if_neg (by omega)]
  rfl

theorem Ch.write {rw : Rdwr Chan} {inp out : Bytes} (h : Ch rw inp out) (iov : List Bytes) :
    ∃ rw', rw.write iov = .ok (.success, rw') ∧ Ch rw' inp (out ++ iov.flatten) := by
  refine ⟨{ rw with obj := ⟨inp, out ++ iov.flatten⟩, log := rw.log ++ [.wr iov .success] }, ?_,
    ⟨h.ops, h.op, rfl, rfl⟩⟩
  unfold Rdwr.write
  rw [h.op, h.ops]
  simp [chanOps, h.inp, h.out, Exec.ok_bind, h.ops, h.op]

theorem Ch.close {rw : Rdwr Chan} {inp out : Bytes} (h : Ch rw inp out) :
    ∃ rw', rw.close = .ok (.success, rw') ∧ rw'.obj.out = out := by
  refine ⟨{ rw with opened := false, log := rw.log ++ [.cls .success] }, ?_, h.out⟩
  unfold Rdwr.close
  rw [h.op, h.ops]
  simp [chanOps, Exec.ok_bind, h.ops]

theorem Exec.err_bind {α β : Type} (e : Stuck) (f : α → Exec β) :
    (Except.error e >>= f : Exec β) = .error e := rfl

theorem Ch.readControlBody {rw : Rdwr Chan} {f : CFrame} {rest out : Bytes} (c : Control)
    (h : Ch rw (be32 f.payload.length ++ (f.payload ++ rest)) out)
    (hf : f.WF) (hl : f.payload.length ≤ 512) :
    ∃ rw', rw.readControlBody c =
        .ok (.success, ⟨f.type.code, f.cts⟩, some f.type.code, rw') ∧ Ch rw' rest out := by
  obtain ⟨rw1, h1, a1⟩ := h.read
  have hp := payload_pos f
  obtain ⟨rw2, h2, a2⟩ := a1.read
  refine ⟨rw2, ?_, a2⟩
  have hd : c.decode f.payload f.payload.length false =
      .ok (.success, ⟨f.type.code, f.cts⟩) := by
    rw [Props.decode_iff _ _ _ _ _ (Nat.le_refl _)]
    exact ⟨f, hf, hl, by simp [Spec.wireBytes], rfl⟩
  have ht : Control.getType ⟨f.type.code, f.cts⟩ = (.success, some f.type.code) := by
    unfold Control.getType; rw [if_pos (knownType_code _)]
  unfold Rdwr.readControlBody
  rw [show rw.read 4 = _ from h1, Exec.ok_bind]
  simp only [ne_eq, not_true_eq_false, if_false, be32_zero_ne _ (by omega : f.payload.length < 2^32)]
  rw [if_neg (by simp only [FRAME_LENGTH_MAX]; omega), if_neg (by omega), h2, Exec.ok_bind]
  simp only [not_true_eq_false, if_false, hd, Exec.ok_bind, ht]

theorem Ch.readControlBody_wait {rw : Rdwr Chan} {p out : Bytes} {k : Nat} (c : Control)
    (h : Ch rw ((be32 p.length ++ p).take k) out) (hp : 1 ≤ p.length) (hl : p.length ≤ 512)
    (hk : k < 4 + p.length) : rw.readControlBody c = .error (.wait out) := by
  unfold Rdwr.readControlBody
  by_cases hk4 : k < 4
  · rw [h.read_wait (by simp [length_be32]; omega)]
    rfl
  · rw [take_append_ge (by rw [length_be32]; omega)] at h
    obtain ⟨rw1, e1, a1⟩ := h.read
    rw [show rw.read 4 = _ from e1, Exec.ok_bind]
    simp only [ne_eq, not_true_eq_false, if_false, be32_zero_ne _ (by omega : p.length < 2^32)]
    rw [if_neg (by simp only [FRAME_LENGTH_MAX]; omega), if_neg (by omega),
      a1.read_wait (by simp [length_be32]; omega)]
    rfl

theorem Ch.readControl {rw : Rdwr Chan} {f : CFrame} {rest out : Bytes} (c : Option Control)
    (h : Ch rw (f.wire ++ rest) out) (hf : f.WF) (hl : f.payload.length ≤ 512) :
    ∃ rw', rw.readControl c f.type.code =
        .ok (.success, some ⟨f.type.code, f.cts⟩, rw') ∧ Ch rw' rest out := by
  simp only [CFrame.wire, List.append_assoc] at h
  obtain ⟨rw1, h1, a1⟩ := h.read
  obtain ⟨rw2, h2, a2⟩ := a1.readControlBody (c.getD Control.init) hf hl
  refine ⟨rw2, ?_, a2⟩
  unfold Rdwr.readControl Rdwr.readControlFrame
  rw [if_pos rfl, show rw.read 4 = _ from h1, Exec.ok_bind]
  simp only [ne_eq, not_true_eq_false, if_false, be32_zero_ne 0 (by omega)]
  rw [h2, Exec.ok_bind]
  simp

theorem Ch.readControl_wait {rw : Rdwr Chan} {f : CFrame} {k : Nat} {out : Bytes}
    (c : Option Control) (t : Nat)
    (h : Ch rw (f.wire.take k) out) (hl : f.payload.length ≤ 512) (hk : k < f.wire.length) :
    rw.readControl c t = .error (.wait out) := by
  have hwl := length_item_ctl f
  have hp := payload_pos f
  unfold Rdwr.readControl Rdwr.readControlFrame
  rw [if_pos rfl]
  simp only [CFrame.wire, List.append_assoc] at h
  by_cases hk4 : k < 4
  · rw [h.read_wait (by simp [length_be32]; omega)]
    rfl
  · rw [take_append_ge (by rw [length_be32]; omega)] at h
    obtain ⟨rw1, e1, a1⟩ := h.read
    rw [show rw.read 4 = _ from e1, Exec.ok_bind]
    simp only [ne_eq, not_true_eq_false, if_false, be32_zero_ne 0 (by omega)]
    rw [a1.readControlBody_wait (c.getD Control.init) (by omega) hl (by rw [length_be32]; omega)]
    rfl

/-! ### The writer -/

/-- The writer is open, with `inp` left to be read and `out` sent. -/
structure ChW (own : List Bytes) (w : Writer Chan) (inp out : Bytes) : Prop where
  ch : Ch w.rdwr inp out
  st : w.state = .opened
  cts : w.cts = own
  start : w.start = some ⟨T_START, own.head?.toList⟩
  fin : w.finish = none

theorem matchLoop_first {t : CType} {acc : List Bytes} {cts : List Bytes} (hv : t.visible acc = acc)
    (ht : t = .accept)
    (h : ∀ c, cts.head? = some c → acc = [] ∨ c ∈ acc) :
    Writer.matchLoop ⟨t.code, acc⟩ cts true = (true, cts.head?) := by
  subst ht
  cases cts with
  | nil => rfl
  | cons c rest =>
    unfold Writer.matchLoop
    rw [if_pos]
    · rfl
    · rw [Props.match_iff]
      simp only [hv]
      rcases h c rfl with h | h <;> simp [h]

theorem chan_open_ready {w : Writer Chan} {y : Bytes} (ho : w.rdwr.ops = chanOps)
    (hs : w.rdwr.obj = ⟨y, []⟩)
    (hcts : ∀ c ∈ w.cts, c.length ≤ 256) (hr : (CFrame.wire ⟨.ready, w.cts⟩).length ≤ 512)
    (hst : w.state = .opening) :
    ∃ rw rw', Ch rw y (CFrame.wire ⟨.ready, w.cts⟩) ∧ rw'.ops = chanOps ∧
      w.rdwr.open = .ok (.success, rw') ∧
      rw'.writeControlFrame ⟨CType.ready.code, w.cts⟩ = .ok (.success, rw) := by
  obtain ⟨rw1, e1, c1⟩ := chan_init_open y [] w.rdwr ho hs
  obtain ⟨rw2, e2, c2⟩ := c1.write [CFrame.wire ⟨.ready, w.cts⟩]
  refine ⟨rw2, rw1, by simpa using c2, c1.ops, e1, ?_⟩
  rw [writeControlFrame_eq, if_pos ⟨hcts, hr⟩]
  exact e2

theorem chan_writer_open_wait {w : Writer Chan} {acc : List Bytes} {k : Nat}
    (ho : w.rdwr.ops = chanOps)
    (hs : w.rdwr.obj = ⟨(CFrame.wire ⟨.accept, acc⟩).take k, []⟩)
    (hcts : ∀ c ∈ w.cts, c.length ≤ 256) (hr : (CFrame.wire ⟨.ready, w.cts⟩).length ≤ 512)
    (hst : w.state = .opening)
    (hal : (CFrame.payload ⟨.accept, acc⟩).length ≤ 512)
    (hk : k < (CFrame.wire ⟨.accept, acc⟩).length) :
    w.open = .error (.wait (CFrame.wire ⟨.ready, w.cts⟩)) := by
  obtain ⟨rw2, rw1, c2, o1, e1, e2⟩ := chan_open_ready ho hs hcts hr hst
  unfold Writer.open
  rw [if_neg (by simp [hst]), e1, Exec.ok_bind]
  simp only [ne_eq, not_true_eq_false, if_false]
  rw [o1]
  simp only [chanOps, Option.isSome_some, if_true]
  rw [openBidirectional_eq]
  simp only
  rw [e2, Exec.ok_bind]
  simp only [ne_eq, not_true_eq_false, if_false]
  rw [c2.readControl_wait w.accept T_ACCEPT hal hk]
  rfl

theorem chan_writer_open {w : Writer Chan} {acc : List Bytes} {rest : Bytes}
    (ho : w.rdwr.ops = chanOps)
    (hs : w.rdwr.obj = ⟨CFrame.wire ⟨.accept, acc⟩ ++ rest, []⟩)
    (hcts : ∀ c ∈ w.cts, c.length ≤ 256) (hr : (CFrame.wire ⟨.ready, w.cts⟩).length ≤ 512)
    (hst : w.state = .opening) (hfin : w.finish = none)
    (hacc : ∀ c ∈ acc, c.length ≤ 256)
    (hal : (CFrame.payload ⟨.accept, acc⟩).length ≤ 512)
    (hm : ∀ c, w.cts.head? = some c → acc = [] ∨ c ∈ acc) :
    ∃ w', w.open = .ok (.success, w') ∧ ChW w.cts w' rest
      (CFrame.wire ⟨.ready, w.cts⟩ ++ CFrame.wire ⟨.start, w.cts.head?.toList⟩) := by
  obtain ⟨rw2, rw1, c2, o1, e1, e2⟩ := chan_open_ready ho hs hcts hr hst
  have hwf : CFrame.WF ⟨.accept, acc⟩ := ⟨hacc, by simp [CType.maxCts]⟩
  obtain ⟨rw3, e3, c3⟩ := c2.readControl w.accept hwf hal
  obtain ⟨rw4, e4, c4⟩ := c3.write [CFrame.wire ⟨.start, w.cts.head?.toList⟩]
  obtain ⟨s1, s2⟩ := startable hcts
  refine ⟨{ w with state := .opened, start := some ⟨T_START, w.cts.head?.toList⟩, rdwr := rw4,
                   ready := some ⟨CType.ready.code, w.cts⟩,
                   accept := some ⟨CType.accept.code, acc⟩ }, ?_,
    ⟨by simpa using c4, rfl, rfl, rfl, hfin⟩⟩
  unfold Writer.open
  rw [if_neg (by simp [hst]), e1, Exec.ok_bind]
  simp only [ne_eq, not_true_eq_false, if_false]
  rw [o1]
  simp only [chanOps, Option.isSome_some, if_true]
  rw [openBidirectional_eq]
  simp only
  rw [e2, Exec.ok_bind]
  simp only [ne_eq, not_true_eq_false, if_false]
  rw [show rw2.readControl w.accept T_ACCEPT = _ from e3, Exec.ok_bind]
  simp only [ne_eq, not_true_eq_false, if_false]
  rw [matchLoop_first rfl rfl hm]
  simp only [Bool.not_true, Bool.false_eq_true, if_false]
  rw [sendStart_eq]
  simp only
  rw [writeControlFrame_eq, visible_toList, if_pos ⟨s1, s2⟩, e4]
  simp only [Exec.ok_bind, not_true_eq_false, if_false]
  rfl

theorem ChW.stupid (cts : List Bytes) : ∀ (fuel : Nat) (w : Writer Chan) (iov : List Bytes)
    (inp out : Bytes), ChW cts w inp out → iov.length ≤ fuel →
    ∃ w', Writer.writeIovStupid fuel w iov = .ok (.success, w') ∧
      ChW cts w' inp (out ++ iov.flatMap Spec.dataFrame) := by
  intro fuel
  induction fuel with
  | zero =>
    intro w iov inp out h hl
    have : iov = [] := List.eq_nil_of_length_eq_zero (by omega)
    subst this
    exact ⟨w, rfl, by simpa using h⟩
  | succ fuel ih =>
    intro w iov inp out h hl
    unfold Writer.writeIovStupid
    rw [stupidMax_eq]
    split
    · simp only
      generalize hk : (if 128 > iov.length then iov.length else 128) = k
      have hk2 : k ≤ 128 ∧ 0 < k := by subst hk; split <;> omega
      obtain ⟨rw1, e1, f1⟩ := h.ch.write (frameIovs (iov.take k))
      rw [writeIov_eq _ _ (by rw [List.length_take]; omega), e1, Exec.ok_bind, Exec.ok_bind]
      simp only [ne_eq, not_true_eq_false, if_false]
      obtain ⟨w', e2, f2⟩ := ih { w with rdwr := rw1 } (iov.drop k) inp
        (out ++ (frameIovs (iov.take k)).flatten) ⟨f1, h.st, h.cts, h.start, h.fin⟩
        (by rw [List.length_drop]; omega)
      refine ⟨w', e2, ?_⟩
      rw [frameIovs_flatten, List.append_assoc, ← List.flatMap_append, List.take_append_drop] at f2
      exact f2
    · have : iov = [] := List.eq_nil_of_length_eq_zero (by omega)
      subst this
      exact ⟨w, rfl, by simpa using h⟩

theorem ChW.writev {cts : List Bytes} {w : Writer Chan} {iov : List Bytes} {inp out : Bytes}
    (h : ChW cts w inp out) (hl : iov.length ≤ 1073741823) :
    ∃ w', w.writev iov = .ok (.success, w') ∧
      ChW cts w' inp (out ++ iov.flatMap Spec.dataFrame) := by
  unfold Writer.writev
  split
  · rename_i h0
    have : iov = [] := List.eq_nil_of_length_eq_zero (by omega)
    subst this
    exact ⟨w, rfl, by simpa using h⟩
  · have hm : w.maybeOpen = .ok (.success, w) := by
      unfold Writer.maybeOpen
      rw [if_neg (by simp [h.st])]
    rw [hm, Exec.ok_bind]
    simp only [ne_eq, not_true_eq_false, if_false]
    rw [if_pos h.st, if_neg (by simp only [INT_MAX]; omega)]
    split
    · rename_i hlt
      obtain ⟨rw2, e2, f2⟩ := h.ch.write (frameIovs iov)
      rw [frameIovs_flatten] at f2
      refine ⟨{ w with rdwr := rw2 }, ?_, ⟨f2, h.st, h.cts, h.start, h.fin⟩⟩
      rw [writeIov_eq _ _ (by simp only [WRITER_IOVEC_SIZE] at hlt; omega), e2, Exec.ok_bind]
    · exact ChW.stupid cts iov.length w iov inp out h (Nat.le_refl _)

theorem ChW.close_wait {cts : List Bytes} {w : Writer Chan} {out : Bytes} {k : Nat}
    (h : ChW cts w ((CFrame.wire ⟨.finish, []⟩).take k) out) (hk : k < 12) :
    w.close = .error (.wait (out ++ CFrame.wire ⟨.stop, []⟩)) := by
  obtain ⟨rw1, e1, f1⟩ := h.ch.write [CFrame.wire ⟨.stop, []⟩]
  unfold Writer.close
  rw [if_neg (by simp [h.st])]
  simp only
  rw [writeControl_stop, e1, Exec.ok_bind]
  simp only [ne_eq, not_true_eq_false, if_false]
  rw [f1.ops]
  simp only [chanOps, Option.isSome_some, if_true]
  rw [f1.readControl_wait w.finish T_FINISH (f := ⟨.finish, []⟩) (k := k) (by decide +kernel)
    (by rw [show (CFrame.wire ⟨.finish, []⟩).length = 12 by decide +kernel]; exact hk)]
  simp [Exec.err_bind]

theorem ChW.close {cts : List Bytes} {w : Writer Chan} {rest out : Bytes}
    (h : ChW cts w (CFrame.wire ⟨.finish, []⟩ ++ rest) out) :
    ∃ w', w.close = .ok (.success, w') ∧ w'.rdwr.obj.out = out ++ CFrame.wire ⟨.stop, []⟩ ∧
      w'.start = some ⟨T_START, cts.head?.toList⟩ ∧ w'.state = .closed := by
  obtain ⟨rw1, e1, f1⟩ := h.ch.write [CFrame.wire ⟨.stop, []⟩]
  obtain ⟨rw2, e2, f2⟩ := f1.readControl w.finish ⟨by simp, by simp⟩ (by decide +kernel)
  obtain ⟨rw3, e3, f3⟩ := f2.close
  refine ⟨{ w with state := .closed, rdwr := rw3, finish := some ⟨T_FINISH, []⟩ }, ?_,
    by simpa using f3, h.start, rfl⟩
  unfold Writer.close
  rw [if_neg (by simp [h.st])]
  simp only
  rw [writeControl_stop, e1, Exec.ok_bind]
  simp only [ne_eq, not_true_eq_false, if_false]
  rw [f1.ops]
  simp only [chanOps, Option.isSome_some, if_true]
  rw [show rw1.readControl w.finish T_FINISH = _ from e2, Exec.ok_bind]
  simp only [not_true_eq_false, if_false]
  rw [e3, Exec.ok_bind]
  rfl

/-! ### The reader -/

/-- The reader is open, with `inp` left to be read and `out` sent. -/
structure ChR (max : Nat) (ct : List Bytes) (r : Reader Chan) (inp out : Bytes) : Prop where
  ch : Ch r.rdwr inp out
  st : r.state = .opened
  max : r.maxFrameSize = max
  cap : 1 ≤ r.bufCap
  start : r.start = some ⟨T_START, ct⟩

theorem chan_openUni_wait {r : Reader Chan} {f : CFrame} {k : Nat} {out : Bytes}
    (h : Ch r.rdwr (f.wire.take k) out) (hl : f.payload.length ≤ 512) (hk : k < f.wire.length) :
    r.openUnidirectional = .error (.wait out) := by
  unfold Reader.openUnidirectional
  rw [h.readControl_wait r.start T_START hl hk]
  rfl

theorem chan_openUni {r : Reader Chan} {ct : List Bytes} {rest out : Bytes}
    (h : Ch r.rdwr (CFrame.wire ⟨.start, ct⟩ ++ rest) out) (hf : CFrame.WF ⟨.start, ct⟩)
    (hl : (CFrame.payload ⟨.start, ct⟩).length ≤ 512) (hc : Spec.compatible r.cts ct) 
    (hcap : 1 ≤ r.bufCap) :
    ∃ r', r.openUnidirectional = .ok (.success, r') ∧ ChR r.maxFrameSize ct r' rest out := by
  obtain ⟨rw1, e1, a1⟩ := h.readControl r.start hf hl
  have hm : Reader.matchLoop ⟨CType.start.code, ct⟩ r.cts true = true := by
    rw [reader_matchLoop (Or.inl rfl) (visible_start hf rfl)]
    rcases hc with h | h | ⟨c, h1, h2⟩
    · exact Or.inl ⟨h, rfl⟩
    · cases hr : r.cts with
      | nil => exact Or.inl ⟨rfl, rfl⟩
      | cons c _ => exact Or.inr ⟨c, by simp, Or.inl h⟩
    · exact Or.inr ⟨c, h1, Or.inr h2⟩
  refine ⟨{ r with rdwr := rw1, start := some ⟨T_START, ct⟩, state := .opened }, ?_,
    ⟨a1, rfl, rfl, hcap, rfl⟩⟩
  unfold Reader.openUnidirectional
  rw [show r.rdwr.readControl r.start T_START = _ from e1, Exec.ok_bind]
  simp only [ne_eq, not_true_eq_false, if_false]
  rw [hm]
  rfl

theorem chan_reader_open_wait {r : Reader Chan} {offer : List Bytes} {k : Nat}
    (ho : r.rdwr.ops = chanOps) (hs : r.rdwr.obj = ⟨(CFrame.wire ⟨.ready, offer⟩).take k, []⟩)
    (hst : r.state = .opening)
    (hol : (CFrame.payload ⟨.ready, offer⟩).length ≤ 512)
    (hk : k < (CFrame.wire ⟨.ready, offer⟩).length) :
    r.open = .error (.wait []) := by
  obtain ⟨rw1, e1, c1⟩ := chan_init_open _ [] r.rdwr ho hs
  unfold Reader.open
  rw [if_neg (by simp [hst]), e1, Exec.ok_bind]
  simp only [ne_eq, not_true_eq_false, if_false]
  rw [c1.ops]
  simp only [chanOps, Option.isSome_some, if_true]
  unfold Reader.openBidirectional
  simp only
  rw [c1.readControl_wait r.ready T_READY hol hk]
  rfl

/-- The reader after reading READY and sending ACCEPT is about to read START. -/
theorem chan_reader_open_accept {r : Reader Chan} {offer : List Bytes} {rest : Bytes}
    (ho : r.rdwr.ops = chanOps)
    (hs : r.rdwr.obj = ⟨CFrame.wire ⟨.ready, offer⟩ ++ rest, []⟩)
    (hst : r.state = .opening) (hoffer : ∀ c ∈ offer, c.length ≤ 256)
    (hol : (CFrame.payload ⟨.ready, offer⟩).length ≤ 512)
    (hown : ∀ c ∈ r.cts, c.length ≤ 256)
    (hacc : (CFrame.wire ⟨.accept, Spec.common r.cts offer⟩).length ≤ 512) :
    ∃ rw, Ch rw rest (CFrame.wire ⟨.accept, Spec.common r.cts offer⟩) ∧
      r.open = (do
        let (res, r) ← Reader.openUnidirectional { r with
          rdwr := rw, ready := some ⟨T_READY, offer⟩,
          accept := some ⟨T_ACCEPT, Spec.common r.cts offer⟩ }
        if res ≠ .success then .ok (res, r) else .ok (.success, { r with state := .opened })) := by
  obtain ⟨rw1, e1, c1⟩ := chan_init_open _ [] r.rdwr ho hs
  obtain ⟨rw2, e2, c2⟩ := c1.readControl r.ready ⟨hoffer, by simp [CType.maxCts]⟩ hol
  obtain ⟨rw3, e3, c3⟩ := c2.write [CFrame.wire ⟨.accept, Spec.common r.cts offer⟩]
  refine ⟨rw3, by simpa using c3, ?_⟩
  have e4 : rw2.writeControlFrame ⟨CType.accept.code, Spec.common r.cts offer⟩ =
      .ok (.success, rw3) := by
    rw [writeControlFrame_eq]
    exact (if_pos ⟨fun c hc => hown c (List.mem_filter.1 hc).1, hacc⟩).trans e3
  unfold Reader.open
  rw [if_neg (by simp [hst]), e1, Exec.ok_bind]
  simp only [ne_eq, not_true_eq_false, if_false]
  rw [c1.ops]
  simp only [chanOps, Option.isSome_some, if_true]
  have key : Reader.openBidirectional { r with rdwr := rw1 } = Reader.openUnidirectional { r with
          rdwr := rw3, ready := some ⟨T_READY, offer⟩,
          accept := some ⟨T_ACCEPT, Spec.common r.cts offer⟩ } := by
    unfold Reader.openBidirectional
    simp only
    rw [show rw1.readControl r.ready T_READY = _ from e2, Exec.ok_bind]
    have hfc : (freshControl r.accept).setType T_ACCEPT = (.success, ⟨T_ACCEPT, []⟩) := by
      unfold freshControl
      cases r.accept <;> rfl
    simp only [ne_eq, not_true_eq_false, if_false, hfc, acceptLoop_eq, List.nil_append]
    rw [show rw2.writeControlFrame ⟨T_ACCEPT, r.cts.filter (fun ct => offer = [] ∨ ct ∈ offer)⟩ = _
      from e4, Exec.ok_bind]
    simp only [not_true_eq_false, if_false]
    rfl
  rw [key]

theorem ChR.data {max : Nat} {ct : List Bytes} {r : Reader Chan} {d rest out : Bytes} (fuel : Nat)
    (h : ChR max ct r (Spec.dataFrame d ++ rest) out)
    (h1 : 1 ≤ d.length) (h2 : d.length ≤ max) (h3 : d.length < 2^32) :
    ∃ r', Reader.nextData (fuel+1) r = .ok (.success, some d, r') ∧ ChR max ct r' rest out := by
  have hc := h.ch
  simp only [Spec.dataFrame, List.append_assoc] at hc
  obtain ⟨rw1, e1, a1⟩ := hc.read
  obtain ⟨rw2, e2, a2⟩ := a1.read
  obtain ⟨cap, e3, c1, c2, c3⟩ := reserve_ok { r with rdwr := rw1 } d.length h.cap
  have hcap := h.cap
  refine ⟨{ r with rdwr := rw2, bufN := 0, bufCap := cap }, ?_,
    ⟨a2, h.st, h.max, by simp only at c2 ⊢; omega, h.start⟩⟩
  unfold Reader.nextData Reader.readBe32
  rw [show r.rdwr.read 4 = _ from e1, Exec.ok_bind]
  simp only [ne_eq, not_true_eq_false, if_false, Exec.ok_bind, be32_zero_ne _ h3]
  rw [if_pos (by omega)]
  unfold Reader.dataFrame
  rw [if_neg (by simp only [h.max]; omega), e3, Exec.ok_bind]
  simp only
  rw [if_neg (by omega), e2, Exec.ok_bind]
  simp

theorem ChR.data_wait {max : Nat} {ct : List Bytes} {r : Reader Chan} {d out : Bytes} {k : Nat}
    (fuel : Nat) (h : ChR max ct r ((Spec.dataFrame d).take k) out)
    (h1 : 1 ≤ d.length) (h2 : d.length ≤ max) (h3 : d.length < 2^32) (hk : k < 4 + d.length) :
    Reader.nextData (fuel+1) r = .error (.wait out) := by
  have hc := h.ch
  simp only [Spec.dataFrame] at hc
  unfold Reader.nextData Reader.readBe32
  by_cases hk4 : k < 4
  · rw [hc.read_wait (by simp [length_be32]; omega)]
    rfl
  · rw [take_append_ge (by rw [length_be32]; omega)] at hc
    obtain ⟨rw1, e1, a1⟩ := hc.read
    obtain ⟨cap, e3, c1, c2, c3⟩ := reserve_ok { r with rdwr := rw1 } d.length h.cap
    rw [show r.rdwr.read 4 = _ from e1, Exec.ok_bind]
    simp only [ne_eq, not_true_eq_false, if_false, Exec.ok_bind, be32_zero_ne _ h3]
    rw [if_pos (by omega)]
    unfold Reader.dataFrame
    rw [if_neg (by simp only [h.max]; omega), e3, Exec.ok_bind]
    simp only
    rw [if_neg (by omega), a1.read_wait (by simp [length_be32]; omega)]
    rfl

theorem ChR.stop {max : Nat} {ct : List Bytes} {r : Reader Chan} {rest out : Bytes} (fuel : Nat)
    (h : ChR max ct r (CFrame.wire ⟨.stop, []⟩ ++ rest) out) :
    ∃ r', Reader.nextData (fuel+1) r = .ok (.stop, none, r') ∧ Ch r'.rdwr rest out ∧
      r'.state = .closing ∧ r'.start = some ⟨T_START, ct⟩ := by
  have hc := h.ch
  simp only [CFrame.wire, List.append_assoc] at hc
  obtain ⟨rw1, e1, a1⟩ := hc.read
  obtain ⟨rw2, e2, a2⟩ := a1.readControlBody (r.tmp.getD Control.init) (f := ⟨.stop, []⟩)
    ⟨by simp, by simp⟩ (by decide +kernel)
  refine ⟨{ r with rdwr := rw2, tmp := none, state := .closing, stop := some ⟨T_STOP, []⟩ }, ?_,
    a2, rfl, h.start⟩
  unfold Reader.nextData Reader.readBe32
  rw [show r.rdwr.read 4 = _ from e1, Exec.ok_bind]
  simp only [ne_eq, not_true_eq_false, if_false, Exec.ok_bind, be32_zero_ne 0 (by omega)]
  rw [show rw1.readControlFrame (r.tmp.getD Control.init) false = _ from e2, Exec.ok_bind]
  simp [CType.code, T_STOP]

theorem ChR.stop_wait {max : Nat} {ct : List Bytes} {r : Reader Chan} {out : Bytes} {k : Nat}
    (fuel : Nat) (h : ChR max ct r ((CFrame.wire ⟨.stop, []⟩).take k) out) (hk : k < 12) :
    Reader.nextData (fuel+1) r = .error (.wait out) := by
  have hc := h.ch
  simp only [CFrame.wire, List.append_assoc] at hc
  unfold Reader.nextData Reader.readBe32
  by_cases hk4 : k < 4
  · rw [hc.read_wait (by simp [length_be32]; omega)]
    rfl
  · rw [take_append_ge (by rw [length_be32]; omega)] at hc
    obtain ⟨rw1, e1, a1⟩ := hc.read
    rw [show r.rdwr.read 4 = _ from e1, Exec.ok_bind]
    simp only [ne_eq, not_true_eq_false, if_false, Exec.ok_bind, be32_zero_ne 0 (by omega)]
    rw [show rw1.readControlFrame (r.tmp.getD Control.init) false = .error (.wait out) from
      a1.readControlBody_wait (r.tmp.getD Control.init) (by decide +kernel) (by decide +kernel) (by
        rw [length_be32, show (CFrame.payload ⟨.stop, []⟩).length = 4 by decide +kernel]; omega)]
    rfl

theorem ChR.loop_wait (max : Nat) (ct : List Bytes) (out : Bytes) (fuel : Nat) :
    ∀ (frames : List Bytes) (n k : Nat) (r : Reader Chan),
    (∀ d ∈ frames, 1 ≤ d.length ∧ d.length ≤ max ∧ d.length < 2^32) →
    ChR max ct r ((frames.flatMap Spec.dataFrame ++ CFrame.wire ⟨.stop, []⟩).take k) out →
    k < (frames.flatMap Spec.dataFrame ++ CFrame.wire ⟨.stop, []⟩).length →
    frames.length < n →
    Reader.readLoop (fuel+1) n r = .error (.wait out)
  | [], n, k, r, _, h, hk, hn => by
    obtain ⟨n, rfl⟩ : ∃ m, n = m + 1 := ⟨n - 1, by simp at hn; omega⟩
    simp only [List.flatMap_nil, List.nil_append] at h hk
    rw [readLoop_opened _ _ h.st]
    unfold contLoop
    rw [h.stop_wait fuel (by rwa [show (CFrame.wire ⟨.stop, []⟩).length = 12 by decide +kernel] at hk)]
    rfl
  | d :: rest, n, k, r, hd, h, hk, hn => by
    obtain ⟨n, rfl⟩ : ∃ m, n = m + 1 := ⟨n - 1, by simp at hn; omega⟩
    obtain ⟨h1, h2, h3⟩ := hd d (by simp)
    have hlen : (Spec.dataFrame d).length = 4 + d.length := by simp [Spec.dataFrame, length_be32]
    simp only [List.flatMap_cons, List.append_assoc] at h hk
    rw [readLoop_opened _ _ h.st]
    unfold contLoop
    by_cases hlt : k < 4 + d.length
    · rw [List.take_append_of_le_length (by omega)] at h
      rw [h.data_wait fuel h1 h2 h3 hlt]
      rfl
    · rw [take_append_ge (by omega)] at h
      obtain ⟨r', e1, c1⟩ := h.data fuel h1 h2 h3
      rw [e1, Exec.ok_bind]
      simp only [if_true]
      rw [ChR.loop_wait max ct out fuel rest n (k - (Spec.dataFrame d).length) r'
        (fun x hx => hd x (by simp [hx])) c1
        (by rw [List.length_append] at hk ⊢; rw [List.length_append] at hk; omega)
        (by simp at hn; omega)]
      rfl

theorem ChR.loop (max : Nat) (ct : List Bytes) (out rest : Bytes) (fuel : Nat) :
    ∀ (frames : List Bytes) (n : Nat) (r : Reader Chan),
    (∀ d ∈ frames, 1 ≤ d.length ∧ d.length ≤ max ∧ d.length < 2^32) →
    ChR max ct r (frames.flatMap Spec.dataFrame ++ (CFrame.wire ⟨.stop, []⟩ ++ rest)) out →
    frames.length < n →
    ∃ r', Reader.readLoop (fuel+1) n r = .ok (frames.map some, some .stop, r') ∧
      Ch r'.rdwr rest out ∧ r'.state = .closing ∧ r'.start = some ⟨T_START, ct⟩
  | [], n, r, _, h, hn => by
    obtain ⟨n, rfl⟩ : ∃ m, n = m + 1 := ⟨n - 1, by simp at hn; omega⟩
    simp only [List.flatMap_nil, List.nil_append] at h
    obtain ⟨r', e1, c1⟩ := h.stop fuel
    refine ⟨r', ?_, c1⟩
    rw [readLoop_opened _ _ h.st]
    unfold contLoop
    rw [e1, Exec.ok_bind]
    simp
  | d :: fs, n, r, hd, h, hn => by
    obtain ⟨n, rfl⟩ : ∃ m, n = m + 1 := ⟨n - 1, by simp at hn; omega⟩
    obtain ⟨h1, h2, h3⟩ := hd d (by simp)
    simp only [List.flatMap_cons, List.append_assoc] at h
    obtain ⟨r1, e1, c1⟩ := h.data fuel h1 h2 h3
    obtain ⟨r', e2, c2⟩ := ChR.loop max ct out rest fuel fs n r1 (fun x hx => hd x (by simp [hx]))
      c1 (by simp at hn; omega)
    refine ⟨r', ?_, c2⟩
    rw [readLoop_opened _ _ h.st]
    unfold contLoop
    rw [e1, Exec.ok_bind]
    simp only [if_true]
    rw [e2, Exec.ok_bind]
    simp

theorem chan_reader_close {r : Reader Chan} {rest out : Bytes} (h : Ch r.rdwr rest out)
    (hs : r.state = .closing) :
    ∃ r', r.close = .ok (.success, r') ∧ r'.rdwr.obj.out = out ++ CFrame.wire ⟨.finish, []⟩ ∧
      r'.start = r.start ∧ r'.state = .closed := by
  obtain ⟨rw1, e1, c1⟩ := h.write [CFrame.wire ⟨.finish, []⟩]
  obtain ⟨rw2, e2, c2⟩ := c1.close
  refine ⟨{ r with state := .closed, rdwr := rw2 }, ?_, by simpa using c2, rfl, rfl⟩
  unfold Reader.close
  rw [if_neg (by simp [hs])]
  simp only
  rw [h.ops]
  simp only [chanOps, Option.isSome_some, if_true]
  have : r.rdwr.writeControl T_FINISH none = .ok (.success, rw1) := by
    rw [← e1]; exact writeControl_finish _
  rw [this, Exec.ok_bind]
  simp only [ne_eq, not_true_eq_false, if_false]
  rw [e2, Exec.ok_bind]

end Fstrm
