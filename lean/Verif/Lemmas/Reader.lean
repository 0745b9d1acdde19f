import Verif.Lemmas.Source
import Verif.Lemmas.Vector
import Verif.Model.Reader
import Verif.Spec.History
import Verif.Spec.Stream

/-! The reader on a transport that delivers a given byte string. -/

set_option autoImplicit false

namespace Fstrm

open Spec (CType CFrame ByteSource ByteSink be32 Item)

variable {σ : Type} {rem : σ → Option Bytes} {eof : Res}

/-- Everything but the transport, state and buffers is unchanged; the buffer exists. -/
structure Same (r r' : Reader σ) : Prop where
  cts : r'.cts = r.cts
  max : r'.maxFrameSize = r.maxFrameSize
  ops : r'.rdwr.ops = r.rdwr.ops
  start : r'.start = r.start
  ready : r'.ready = r.ready
  accept : r'.accept = r.accept

theorem Same.refl (r : Reader σ) : Same r r := ⟨rfl, rfl, rfl, rfl, rfl, rfl⟩

theorem Same.trans {a b c : Reader σ} (h1 : Same a b) (h2 : Same b c) : Same a c :=
  ⟨h2.cts.trans h1.cts, h2.max.trans h1.max, h2.ops.trans h1.ops, h2.start.trans h1.start,
   h2.ready.trans h1.ready, h2.accept.trans h1.accept⟩

theorem reserve_ok (r : Reader σ) (len : Nat) (h : 1 ≤ r.bufCap) :
    ∃ cap, r.reserve len = .ok { r with bufN := 0, bufCap := cap } ∧ len ≤ cap ∧ r.bufCap ≤ cap ∧
      (cap = r.bufCap ∨ cap < 2 * len) := by
  have h0 : (if 0 < r.bufN then 0 else r.bufN) = 0 := by split <;> omega
  obtain ⟨c, h1, h2, h3, h4⟩ := growCap_ok (len + 0 + 1) r.bufCap 0 len h (by omega) (by omega) (by omega)
  refine ⟨c, ?_, by omega, h3, by omega⟩
  unfold Reader.reserve
  simp only [h0, h1, Exec.ok_bind]

theorem readBe32_at {r : Reader σ} {n : Nat} {rest : Bytes}
    (h : At rem eof r.rdwr (be32 n ++ rest)) (hn : n < 2^32) :
    ∃ rw, r.readBe32 = .ok (.success, n, { r with rdwr := rw }) ∧ At rem eof rw rest ∧
      rw.ops = r.rdwr.ops := by
  obtain ⟨rw1, h1, a1, o1⟩ := h.read (by simp [be32])
  refine ⟨rw1, ?_, a1, o1⟩
  unfold Reader.readBe32
  rw [show r.rdwr.read 4 = _ from h1, Exec.ok_bind]
  simp [be32_zero_ne n hn]

theorem readBe32_short {r : Reader σ} {bs : Bytes} (h : At rem eof r.rdwr bs)
    (hl : bs.length < 4) :
    ∃ rw, r.readBe32 = .ok (eof, 0, { r with rdwr := rw }) ∧ rw.ops = r.rdwr.ops := by
  obtain ⟨rw1, h1, o1⟩ := h.read_short (by omega : 0 < 4) hl
  refine ⟨rw1, ?_, o1⟩
  unfold Reader.readBe32
  rw [h1, Exec.ok_bind]
  simp [h.src.eof_ne]

theorem nextData_data (fuel : Nat) {r : Reader σ} {d rest : Bytes}
    (h : At rem eof r.rdwr (Spec.dataFrame d ++ rest)) (hcap : 1 ≤ r.bufCap)
    (h1 : 1 ≤ d.length) (h2 : d.length ≤ r.maxFrameSize) (h3 : d.length < 2^32) :
    ∃ r', Reader.nextData (fuel+1) r = .ok (.success, some d, r') ∧ At rem eof r'.rdwr rest ∧
      Same r r' ∧ r'.state = r.state ∧ 1 ≤ r'.bufCap ∧ r'.stop = r.stop := by
  simp only [Spec.dataFrame, List.append_assoc] at h
  obtain ⟨rw1, e1, a1, o1⟩ := readBe32_at h h3
  obtain ⟨rw2, e2, a2, o2⟩ := a1.read (by intro h0; simp [h0] at h1)
  obtain ⟨cap, e3, c1, c2, c3⟩ := reserve_ok { r with rdwr := rw1 } d.length hcap
  refine ⟨{ r with rdwr := rw2, bufN := 0, bufCap := cap }, ?_, a2,
    ⟨rfl, rfl, o2.trans o1, rfl, rfl, rfl⟩, rfl, ?_, rfl⟩
  · unfold Reader.nextData
    rw [e1, Exec.ok_bind]
    simp only [ne_eq, not_true_eq_false, if_false]
    rw [if_pos (by omega)]
    unfold Reader.dataFrame
    rw [if_neg (by simp only; omega), e3, Exec.ok_bind]
    simp only
    rw [if_neg (by omega), e2, Exec.ok_bind]
    simp
  · simp only at c2 ⊢; omega

theorem nextData_ctl (fuel : Nat) {r : Reader σ} {f : CFrame} {rest : Bytes}
    (h : At rem eof r.rdwr (f.wire ++ rest)) (hf : f.WF) (hl : f.payload.length ≤ 512) :
    ∃ r', At rem eof r'.rdwr rest ∧ Same r r' ∧ r'.bufCap = r.bufCap ∧
      (f.type ≠ .stop → r'.state = r.state ∧ r'.stop = r.stop ∧
        Reader.nextData (fuel+1) r = Reader.nextData fuel r') ∧
      (f.type = .stop → r'.state = .closing ∧ r'.stop = some ⟨T_STOP, []⟩ ∧
        Reader.nextData (fuel+1) r = .ok (.stop, none, r')) := by
  simp only [CFrame.wire, List.append_assoc] at h
  obtain ⟨rw1, e1, a1, o1⟩ := readBe32_at h (by omega)
  obtain ⟨rw2, e2, a2, o2⟩ := a1.readControlBody (r.tmp.getD Control.init) hf hl
  have e2' : rw1.readControlFrame (r.tmp.getD Control.init) false = _ := e2
  have key : Reader.nextData (fuel+1) r =
      (if some f.type.code = some T_STOP then
        .ok (.stop, none, { r with rdwr := rw2, tmp := none, state := .closing,
                                   stop := some ⟨f.type.code, f.cts⟩ })
      else Reader.nextData fuel { r with rdwr := rw2, tmp := some ⟨f.type.code, f.cts⟩ }) := by
    conv => lhs; unfold Reader.nextData
    rw [e1, Exec.ok_bind]
    simp only [ne_eq, not_true_eq_false, if_false]
    rw [e2', Exec.ok_bind]
    simp only [not_true_eq_false, if_false]
  by_cases ht : f.type = .stop
  · have hcts : f.cts = [] := by
      have := hf.2 0 (by rw [ht]; rfl)
      simpa using this
    rw [if_pos (by rw [ht]; rfl)] at key
    refine ⟨_, ?_, ?_, ?_, fun h => absurd ht h, fun _ => ⟨?_, ?_, key⟩⟩
    · exact a2
    · exact ⟨rfl, rfl, o2.trans o1, rfl, rfl, rfl⟩
    · rfl
    · rfl
    · rw [ht, hcts]; rfl
  · rw [if_neg (by
      intro h; exact ht (CType.code_inj (Option.some.inj h)))] at key
    refine ⟨_, ?_, ?_, ?_, fun _ => ⟨?_, ?_, key⟩, fun h => absurd h ht⟩
    · exact a2
    · exact ⟨rfl, rfl, o2.trans o1, rfl, rfl, rfl⟩
    · rfl
    · rfl
    · rfl

/-! ### Truncated input -/

theorem take_append_ge {α : Type} {a b : List α} {k : Nat} (h : a.length ≤ k) :
    (a ++ b).take k = a ++ b.take (k - a.length) := by
  rw [List.take_append, List.take_of_length_le h]

theorem readControlBody_short {rw : Rdwr σ} {p : Bytes} {k : Nat} (c : Control)
    (h : At rem eof rw ((be32 p.length ++ p).take k)) (hp : 1 ≤ p.length) (hl : p.length ≤ 512)
    (hk : k < 4 + p.length) :
    ∃ rw', rw.readControlBody c = .ok (eof, c, none, rw') ∧ rw'.ops = rw.ops := by
  unfold Rdwr.readControlBody
  by_cases hk4 : k < 4
  · obtain ⟨rw1, e1, o1⟩ := h.read_short (by omega : 0 < 4) (by simp [length_be32]; omega)
    refine ⟨rw1, ?_, o1⟩
    rw [e1, Exec.ok_bind]
    simp [h.src.eof_ne]
  · rw [take_append_ge (by rw [length_be32]; omega)] at h
    obtain ⟨rw1, e1, a1, o1⟩ := h.read (by simp [be32])
    obtain ⟨rw2, e2, o2⟩ := a1.read_short (n := p.length) (by omega) (by
      simp [length_be32]; omega)
    refine ⟨rw2, ?_, o2.trans o1⟩
    rw [show rw.read 4 = _ from e1, Exec.ok_bind]
    simp only [ne_eq, not_true_eq_false, if_false, be32_zero_ne _ (by omega : p.length < 2^32)]
    rw [if_neg (by simp only [FRAME_LENGTH_MAX]; omega), if_neg (by omega), e2, Exec.ok_bind]
    simp [h.src.eof_ne]

theorem readControlFrame_short {rw : Rdwr σ} {f : CFrame} {k : Nat} (c : Control)
    (h : At rem eof rw (f.wire.take k)) (hl : f.payload.length ≤ 512)
    (hk : k < f.wire.length) :
    ∃ rw', rw.readControlFrame c true = .ok (eof, c, none, rw') ∧ rw'.ops = rw.ops := by
  have hwl : f.wire.length = 8 + f.payload.length := by
    simp [CFrame.wire, length_be32]; omega
  have hp := payload_pos f
  unfold Rdwr.readControlFrame
  rw [if_pos rfl]
  simp only [CFrame.wire, List.append_assoc] at h
  by_cases hk4 : k < 4
  · obtain ⟨rw1, e1, o1⟩ := h.read_short (by omega : 0 < 4) (by simp [length_be32]; omega)
    refine ⟨rw1, ?_, o1⟩
    rw [e1, Exec.ok_bind]
    simp [h.src.eof_ne]
  · rw [take_append_ge (by rw [length_be32]; omega)] at h
    obtain ⟨rw1, e1, a1, o1⟩ := h.read (by simp [be32])
    obtain ⟨rw2, e2, o2⟩ := readControlBody_short c a1 (by omega) hl
      (by rw [length_be32]; omega)
    refine ⟨rw2, ?_, o2.trans o1⟩
    rw [show rw.read 4 = _ from e1, Exec.ok_bind]
    simp only [ne_eq, not_true_eq_false, if_false, be32_zero_ne 0 (by omega)]
    exact e2

theorem readControl_short {rw : Rdwr σ} {f : CFrame} {k : Nat} (c : Option Control) (t : Nat)
    (h : At rem eof rw (f.wire.take k)) (hl : f.payload.length ≤ 512)
    (hk : k < f.wire.length) :
    ∃ c' rw', rw.readControl c t = .ok (eof, c', rw') ∧ rw'.ops = rw.ops := by
  obtain ⟨rw', e, o⟩ := readControlFrame_short (c.getD Control.init) h hl hk
  refine ⟨some (c.getD Control.init), rw', ?_, o⟩
  unfold Rdwr.readControl
  rw [e, Exec.ok_bind]
  simp [h.src.eof_ne]

theorem nextData_short_data (fuel : Nat) {r : Reader σ} {d : Bytes} {k : Nat}
    (h : At rem eof r.rdwr ((Spec.dataFrame d).take k)) (hcap : 1 ≤ r.bufCap)
    (h1 : 1 ≤ d.length) (h2 : d.length ≤ r.maxFrameSize) (h3 : d.length < 2^32)
    (hk : k < 4 + d.length) :
    ∃ r', Reader.nextData (fuel+1) r = .ok (eof, none, r') ∧ Same r r' ∧ r'.state = .failed ∧
      r'.stop = r.stop := by
  unfold Spec.dataFrame at h
  unfold Reader.nextData
  by_cases hk4 : k < 4
  · obtain ⟨rw1, e1, o1⟩ := readBe32_short h (by simp [length_be32]; omega)
    refine ⟨{ r with rdwr := rw1, state := .failed }, ?_, ⟨rfl, rfl, o1, rfl, rfl, rfl⟩, rfl, rfl⟩
    rw [e1, Exec.ok_bind]
    simp [h.src.eof_ne]
  · rw [take_append_ge (by rw [length_be32]; omega)] at h
    obtain ⟨rw1, e1, a1, o1⟩ := readBe32_at h h3
    obtain ⟨rw2, e2, o2⟩ := a1.read_short (n := d.length) (by omega) (by
      simp [length_be32]; omega)
    obtain ⟨cap, e3, c1, c2, c3⟩ := reserve_ok { r with rdwr := rw1 } d.length hcap
    refine ⟨{ r with rdwr := rw2, state := .failed, bufN := 0, bufCap := cap }, ?_,
      ⟨rfl, rfl, o2.trans o1, rfl, rfl, rfl⟩, rfl, rfl⟩
    rw [e1, Exec.ok_bind]
    simp only [ne_eq, not_true_eq_false, if_false]
    rw [if_pos (by omega)]
    unfold Reader.dataFrame
    rw [if_neg (by simp only; omega), e3, Exec.ok_bind]
    simp only
    rw [if_neg (by omega), e2, Exec.ok_bind]
    simp [h.src.eof_ne]

theorem nextData_short_ctl (fuel : Nat) {r : Reader σ} {f : CFrame} {k : Nat}
    (h : At rem eof r.rdwr (f.wire.take k)) (hl : f.payload.length ≤ 512)
    (hk : k < 8 + f.payload.length) :
    ∃ r', Reader.nextData (fuel+1) r = .ok (eof, none, r') ∧ Same r r' ∧ r'.state = .failed ∧
      r'.stop = r.stop := by
  have hp := payload_pos f
  unfold Reader.nextData
  simp only [CFrame.wire, List.append_assoc] at h
  by_cases hk4 : k < 4
  · obtain ⟨rw1, e1, o1⟩ := readBe32_short h (by simp [length_be32]; omega)
    refine ⟨{ r with rdwr := rw1, state := .failed }, ?_, ⟨rfl, rfl, o1, rfl, rfl, rfl⟩, rfl, rfl⟩
    rw [e1, Exec.ok_bind]
    simp [h.src.eof_ne]
  · rw [take_append_ge (by rw [length_be32]; omega)] at h
    obtain ⟨rw1, e1, a1, o1⟩ := readBe32_at h (by omega)
    obtain ⟨rw2, e2, o2⟩ := readControlBody_short (r.tmp.getD Control.init) a1 (by omega) hl
      (by rw [length_be32]; omega)
    have e2' : rw1.readControlFrame (r.tmp.getD Control.init) false = _ := e2
    refine ⟨{ r with rdwr := rw2, state := .failed, tmp := some (r.tmp.getD Control.init) }, ?_,
      ⟨rfl, rfl, o2.trans o1, rfl, rfl, rfl⟩, rfl, rfl⟩
    rw [e1, Exec.ok_bind]
    simp only [ne_eq, not_true_eq_false, if_false]
    rw [e2', Exec.ok_bind]
    simp [h.src.eof_ne]

/-! ### Opening -/

/-- The reader's content types are compatible with those of a frame. -/
theorem matchCt_code {t : CType} (ht : t = .start ∨ t = .ready) {cts : List Bytes} (ct : Bytes)
    (hv : t.visible cts = cts) :
    Control.matchCt ⟨t.code, cts⟩ (some ct) = .success ↔ cts = [] ∨ ct ∈ cts := by
  rw [Props.match_iff]
  simp only [hv]
  rcases ht with rfl | rfl <;> simp

theorem reader_matchLoop {t : CType} (ht : t = .start ∨ t = .ready) {cts : List Bytes}
    (hv : t.visible cts = cts) (own : List Bytes) (m : Bool) :
    Reader.matchLoop ⟨t.code, cts⟩ own m = true ↔
      (own = [] ∧ m = true) ∨ ∃ ct ∈ own, cts = [] ∨ ct ∈ cts := by
  induction own generalizing m with
  | nil => simp [Reader.matchLoop]
  | cons ct rest ih =>
    unfold Reader.matchLoop
    by_cases h : Control.matchCt ⟨t.code, cts⟩ (some ct) = .success
    · rw [if_pos h]
      rw [matchCt_code ht ct hv] at h
      simp [h]
    · rw [if_neg h, ih]
      rw [matchCt_code ht ct hv] at h
      simp [h]

theorem acceptLoop_eq (ready : List Bytes) (own : List Bytes) (t : Nat) (acc : List Bytes) :
    Reader.acceptLoop ⟨CType.ready.code, ready⟩ own ⟨t, acc⟩ =
      ⟨t, acc ++ own.filter (fun ct => ready = [] ∨ ct ∈ ready)⟩ := by
  induction own generalizing acc with
  | nil => simp [Reader.acceptLoop]
  | cons ct rest ih =>
    unfold Reader.acceptLoop
    by_cases h : Control.matchCt ⟨CType.ready.code, ready⟩ (some ct) = .success
    · rw [if_pos h]
      rw [matchCt_code (Or.inr rfl) ct rfl] at h
      have : (Control.addCt ⟨t, acc⟩ ct).2 = ⟨t, acc ++ [ct]⟩ := rfl
      rw [this, ih, List.filter_cons_of_pos (by simpa using h)]
      simp
    · rw [if_neg h, ih]
      rw [matchCt_code (Or.inr rfl) ct rfl] at h
      rw [List.filter_cons_of_neg (by simpa using h)]

/-- What the two `open` functions leave alone. -/
structure SameCfg (r r' : Reader σ) : Prop where
  cts : r'.cts = r.cts
  max : r'.maxFrameSize = r.maxFrameSize
  ops : r'.rdwr.ops = r.rdwr.ops
  cap : r'.bufCap = r.bufCap
  stop : r'.stop = r.stop

theorem visible_start {f : CFrame} (hf : f.WF) (ht : f.type = .start) :
    CType.visible .start f.cts = f.cts := by
  have := hf.2 1 (by rw [ht]; rfl)
  simp only [CType.visible]
  exact List.take_of_length_le this

theorem openUnidirectional_at {r : Reader σ} {f : CFrame} {rest : Bytes}
    (h : At rem eof r.rdwr (f.wire ++ rest)) (hf : f.WF) (hl : f.payload.length ≤ 512)
    (ht : f.type = .start) :
    ∃ r', At rem eof r'.rdwr rest ∧ SameCfg r r' ∧ r'.start = some ⟨T_START, f.cts⟩ ∧
      r'.ready = r.ready ∧ r'.accept = r.accept ∧
      (Spec.compatible r.cts f.cts → r'.state = .opened ∧
        r.openUnidirectional = .ok (.success, r')) ∧
      (¬ Spec.compatible r.cts f.cts → r'.state = r.state ∧
        r.openUnidirectional = .ok (.failure, r')) := by
  obtain ⟨rw1, e1, a1, o1⟩ := h.readControl r.start .start hf hl
  rw [if_pos ht] at e1
  have hm : Reader.matchLoop ⟨CType.start.code, f.cts⟩ r.cts true = true ↔
      Spec.compatible r.cts f.cts := by
    rw [reader_matchLoop (Or.inl rfl) (visible_start hf ht)]
    unfold Spec.compatible
    constructor
    · rintro (⟨h, _⟩ | ⟨ct, h1, h2⟩)
      · exact Or.inl h
      · rcases h2 with h2 | h2
        · exact Or.inr (Or.inl h2)
        · exact Or.inr (Or.inr ⟨ct, h1, h2⟩)
    · rintro (h | h | ⟨ct, h1, h2⟩)
      · exact Or.inl ⟨h, rfl⟩
      · cases hr : r.cts with
        | nil => exact Or.inl ⟨rfl, rfl⟩
        | cons ct _ => exact Or.inr ⟨ct, by simp, Or.inl h⟩
      · exact Or.inr ⟨ct, h1, Or.inr h2⟩
  have key : r.openUnidirectional =
      if !(Reader.matchLoop ⟨CType.start.code, f.cts⟩ r.cts true) then
        .ok (.failure, { r with rdwr := rw1, start := some ⟨CType.start.code, f.cts⟩ })
      else .ok (.success, { r with rdwr := rw1, start := some ⟨CType.start.code, f.cts⟩,
                                   state := .opened }) := by
    unfold Reader.openUnidirectional
    rw [show r.rdwr.readControl r.start T_START = _ from e1, Exec.ok_bind]
    simp only [ne_eq, not_true_eq_false, if_false, ht]
  by_cases hc : Spec.compatible r.cts f.cts
  · rw [hm.2 hc] at key
    exact ⟨{ r with rdwr := rw1, start := some ⟨CType.start.code, f.cts⟩, state := .opened }, a1,
      ⟨rfl, rfl, o1, rfl, rfl⟩, rfl, rfl, rfl, fun _ => ⟨rfl, key⟩, fun h => absurd hc h⟩
  · have : Reader.matchLoop ⟨CType.start.code, f.cts⟩ r.cts true = false := by
      cases h : Reader.matchLoop ⟨CType.start.code, f.cts⟩ r.cts true with
      | false => rfl
      | true => exact absurd (hm.1 h) hc
    rw [this] at key
    exact ⟨{ r with rdwr := rw1, start := some ⟨CType.start.code, f.cts⟩ }, a1,
      ⟨rfl, rfl, o1, rfl, rfl⟩, rfl, rfl, rfl, fun h => absurd h hc, fun _ => ⟨rfl, key⟩⟩

theorem open_of_uni {r : Reader σ} {rw : Rdwr σ} {r' : Reader σ} {res : Res}
    (hs : r.state ≠ .opened) (ho : r.rdwr.open = .ok (.success, rw)) (hw : rw.ops.wr = none)
    (h : ({ r with rdwr := rw } : Reader σ).openUnidirectional = .ok (res, r')) :
    r.open = .ok (res, if res = .success then { r' with state := .opened } else r') := by
  unfold Reader.open
  rw [if_neg hs, ho, Exec.ok_bind]
  simp only [ne_eq, not_true_eq_false, if_false, hw, Option.isSome_none, Bool.false_eq_true, h,
    Exec.ok_bind]
  cases res <;> simp

theorem open_of_bi {r : Reader σ} {rw : Rdwr σ} {r' : Reader σ} {res : Res}
    (hs : r.state ≠ .opened) (ho : r.rdwr.open = .ok (.success, rw)) (hw : rw.ops.wr ≠ none)
    (h : ({ r with rdwr := rw } : Reader σ).openBidirectional = .ok (res, r')) :
    r.open = .ok (res, if res = .success then { r' with state := .opened } else r') := by
  unfold Reader.open
  rw [if_neg hs, ho, Exec.ok_bind]
  have : rw.ops.wr.isSome = true := by cases h : rw.ops.wr <;> simp_all
  simp only [ne_eq, not_true_eq_false, if_false, this, if_true, h, Exec.ok_bind]
  cases res <;> simp

theorem openBidirectional_at {r : Reader σ} {f g : CFrame} {rest : Bytes}
    (h : At rem eof r.rdwr (g.wire ++ (f.wire ++ rest))) (hk : ByteSink r.rdwr.ops rem)
    (hf : f.WF) (hl : f.payload.length ≤ 512) (ht : f.type = .start)
    (hg : g.WF) (hgl : g.payload.length ≤ 512) (hgt : g.type = .ready)
    (hct : ∀ ct ∈ r.cts, ct.length ≤ 256)
    (hacc : (CFrame.wire ⟨.accept, Spec.common r.cts g.cts⟩).length ≤ 512) :
    ∃ r', At rem eof r'.rdwr rest ∧ SameCfg r r' ∧ r'.start = some ⟨T_START, f.cts⟩ ∧
      r'.ready = some ⟨T_READY, g.cts⟩ ∧ r'.accept = some ⟨T_ACCEPT, Spec.common r.cts g.cts⟩ ∧
      (Spec.compatible r.cts f.cts → r'.state = .opened ∧
        r.openBidirectional = .ok (.success, r')) ∧
      (¬ Spec.compatible r.cts f.cts → r'.state = r.state ∧
        r.openBidirectional = .ok (.failure, r')) := by
  obtain ⟨rw1, e1, a1, o1⟩ := h.readControl r.ready .ready hg hgl
  rw [if_pos hgt] at e1
  obtain ⟨rw2, e2, a2, o2⟩ := a1.write (by rw [o1]; exact hk)
    [CFrame.wire ⟨.accept, Spec.common r.cts g.cts⟩]
  have e3 : rw1.writeControlFrame ⟨CType.accept.code, Spec.common r.cts g.cts⟩ =
      .ok (.success, rw2) := by
    rw [writeControlFrame_eq]
    refine (if_pos ⟨?_, hacc⟩).trans e2
    intro ct hc
    exact hct ct (List.mem_filter.1 hc).1
  obtain ⟨r', b1, b2, b3, b4, b5, b6, b7⟩ := openUnidirectional_at
    (r := { r with rdwr := rw2, ready := some ⟨T_READY, g.cts⟩,
                   accept := some ⟨T_ACCEPT, Spec.common r.cts g.cts⟩ }) a2 hf hl ht
  have key : r.openBidirectional = Reader.openUnidirectional
      { r with rdwr := rw2, ready := some ⟨T_READY, g.cts⟩,
               accept := some ⟨T_ACCEPT, Spec.common r.cts g.cts⟩ } := by
    unfold Reader.openBidirectional
    rw [show r.rdwr.readControl r.ready T_READY = _ from e1, Exec.ok_bind]
    have hfc : (freshControl r.accept).setType T_ACCEPT = (.success, ⟨T_ACCEPT, []⟩) := by
      unfold freshControl
      cases r.accept <;> rfl
    simp only [ne_eq, not_true_eq_false, if_false, hfc, hgt, acceptLoop_eq, List.nil_append]
    rw [show rw1.writeControlFrame ⟨T_ACCEPT, r.cts.filter (fun ct => g.cts = [] ∨ ct ∈ g.cts)⟩ = _
      from e3, Exec.ok_bind]
    simp only [not_true_eq_false, if_false]
    rfl
  rw [← key] at b6 b7
  exact ⟨r', b1, ⟨b2.cts, b2.max, b2.ops.trans (o2.trans o1), b2.cap, b2.stop⟩, b3, b4, b5, b6, b7⟩

/-! ### The read loop -/

/-- One `nextData` with its own budget, then the read loop. -/
def contLoop (fuel' fuel n : Nat) (r : Reader σ) :
    Exec (List (Option Bytes) × Option Res × Reader σ) := do
  let (res, d, r) ← Reader.nextData fuel' r
  if res = .success then do
    let (ds, last, r) ← Reader.readLoop fuel n r
    .ok (d :: ds, last, r)
  else .ok ([], some res, r)

theorem read_opened (fuel : Nat) {r : Reader σ} (h : r.state = .opened) :
    r.read fuel = Reader.nextData fuel r := by
  unfold Reader.read Reader.maybeOpen
  rw [if_neg (by rw [h]; decide), Exec.ok_bind]
  simp [h]

theorem readLoop_opened (fuel n : Nat) {r : Reader σ} (h : r.state = .opened) :
    Reader.readLoop fuel (n+1) r = contLoop fuel fuel n r := by
  unfold Reader.readLoop contLoop
  rw [read_opened fuel h]

theorem length_item_ctl (f : CFrame) : f.wire.length = 8 + f.payload.length := by
  simp [CFrame.wire, length_be32]; omega

theorem contained_le (k : Nat) (items : List Item) :
    (Spec.contained k items).length ≤ (Spec.datas items).length := by
  induction items generalizing k with
  | nil => simp [Spec.contained]
  | cons it rest ih =>
    cases it with
    | data d =>
      unfold Spec.contained
      split
      · simp [Spec.datas]; exact ih _
      · simp
    | ctl f =>
      unfold Spec.contained
      split
      · simp [Spec.datas]; exact ih _
      · simp

theorem contLoop_items (items : List Item) (k fuel' fuel n : Nat) (rest : Bytes) (r : Reader σ)
    (hs : r.state = .opened) (hcap : 1 ≤ r.bufCap)
    (hok : ∀ it ∈ items, it.Ok r.maxFrameSize)
    (h : At rem eof r.rdwr ((Spec.wires items ++ (CFrame.wire ⟨.stop, []⟩ ++ rest)).take k))
    (hf' : items.length + 1 ≤ fuel') (hf : items.length + 1 ≤ fuel)
    (hn : (Spec.contained k items).length ≤ n) :
    ∃ last r', contLoop fuel' fuel n r = .ok ((Spec.contained k items).map some, some last, r') ∧
      Same r r' ∧
      ((Spec.wires items).length + 12 ≤ k → last = .stop ∧ r'.state = .closing ∧
        r'.stop = some ⟨T_STOP, []⟩ ∧
        At rem eof r'.rdwr (rest.take (k - ((Spec.wires items).length + 12)))) ∧
      (k < (Spec.wires items).length + 12 → last = eof ∧ r'.state = .failed ∧
        r'.stop = r.stop) := by
  induction items generalizing k fuel' n r with
  | nil =>
    obtain ⟨fuel', rfl⟩ : ∃ m, fuel' = m + 1 := ⟨fuel' - 1, by omega⟩
    simp only [Spec.wires, List.flatMap_nil, List.nil_append, List.length_nil, Nat.zero_add] at h ⊢
    simp only [Spec.contained, List.map_nil]
    have hlen : (CFrame.wire ⟨.stop, []⟩).length = 12 := by decide +kernel
    have hwf : CFrame.WF ⟨.stop, []⟩ := ⟨by simp, by simp⟩
    by_cases hk : k < 12
    · have : (CFrame.wire ⟨.stop, []⟩ ++ rest).take k = (CFrame.wire ⟨.stop, []⟩).take k := by
        rw [List.take_append_of_le_length (by omega)]
      rw [this] at h
      obtain ⟨r', e, b1, b2, b3⟩ := nextData_short_ctl fuel' h (by decide +kernel)
        (by have := length_item_ctl ⟨.stop, []⟩; omega)
      refine ⟨eof, r', ?_, b1, fun h => by omega, fun _ => ⟨rfl, b2, b3⟩⟩
      unfold contLoop
      rw [e, Exec.ok_bind]
      simp [h.src.eof_ne]
    · rw [take_append_ge (by omega), hlen] at h
      obtain ⟨r', b1, b2, b3, _, b5⟩ := nextData_ctl fuel' h hwf (by decide +kernel)
      obtain ⟨c1, c2, c3⟩ := b5 rfl
      refine ⟨.stop, r', ?_, b2, fun _ => ⟨rfl, c1, c2, b1⟩, fun h => by omega⟩
      unfold contLoop
      rw [c3, Exec.ok_bind]
      simp
  | cons it items ih =>
    obtain ⟨fuel', rfl⟩ : ∃ m, fuel' = m + 1 := ⟨fuel' - 1, by simp at hf'; omega⟩
    simp only [List.length_cons] at hf' hf
    have hok1 := hok it (by simp)
    have hwl : (Spec.wires (it :: items)).length = it.wire.length + (Spec.wires items).length := by
      simp [Spec.wires]
    have hw : Spec.wires (it :: items) ++ (CFrame.wire ⟨.stop, []⟩ ++ rest) =
        it.wire ++ (Spec.wires items ++ (CFrame.wire ⟨.stop, []⟩ ++ rest)) := by
      simp [Spec.wires]
    rw [hw] at h
    rw [hwl]
    by_cases hk : k < it.wire.length
    · rw [List.take_append_of_le_length (by omega)] at h
      have hcont : Spec.contained k (it :: items) = [] := by
        cases it with
        | data d => simp [Item.wire, Spec.dataFrame, length_be32] at hk; simp [Spec.contained]; omega
        | ctl f => simp only [Item.wire, length_item_ctl] at hk; simp [Spec.contained]; omega
      rw [hcont]
      have : ∃ r', Reader.nextData (fuel'+1) r = .ok (eof, none, r') ∧ Same r r' ∧
          r'.state = .failed ∧ r'.stop = r.stop := by
        cases it with
        | data d =>
          simp [Item.wire, Spec.dataFrame, length_be32] at hk
          exact nextData_short_data fuel' h hcap hok1.1 hok1.2.1 hok1.2.2 (by omega)
        | ctl f =>
          simp only [Item.wire, length_item_ctl] at hk
          exact nextData_short_ctl fuel' h hok1.2.1 hk
      obtain ⟨r', e, b1, b2, b3⟩ := this
      refine ⟨eof, r', ?_, b1, fun h => by omega, fun _ => ⟨rfl, b2, b3⟩⟩
      unfold contLoop
      rw [e, Exec.ok_bind]
      simp [h.src.eof_ne]
    · rw [take_append_ge (by omega)] at h
      cases it with
      | data d =>
        have hlen : (Item.wire (.data d)).length = 4 + d.length := by
          simp [Item.wire, Spec.dataFrame, length_be32]; try omega
        have hcont : Spec.contained k (.data d :: items) =
            d :: Spec.contained (k - (4 + d.length)) items := by
          rw [Spec.contained, if_pos (by omega)]
        rw [hcont] at hn ⊢
        simp only [List.length_cons] at hn
        obtain ⟨n, rfl⟩ : ∃ m, n = m + 1 := ⟨n - 1, by omega⟩
        obtain ⟨r1, e1, a1, s1, st1, cap1, sp1⟩ := nextData_data fuel' h hcap hok1.1 hok1.2.1 hok1.2.2
        rw [hlen] at a1
        obtain ⟨last, r', e2, s2, b1, b2⟩ := ih (k - (4 + d.length)) fuel n r1 (st1.trans hs) cap1
          (by intro it hit; rw [s1.max]; exact hok it (by simp [hit])) a1 (by omega) (by omega) (by omega)
        refine ⟨last, r', ?_, s1.trans s2, ?_, ?_⟩
        · unfold contLoop
          rw [e1, Exec.ok_bind]
          simp only [if_true]
          rw [readLoop_opened _ _ (st1.trans hs), e2, Exec.ok_bind]
          simp
        · intro hk2
          rw [hlen] at hk2 ⊢
          have := b1 (by omega)
          rwa [show k - (4 + d.length) - ((Spec.wires items).length + 12) =
            k - (4 + d.length + (Spec.wires items).length + 12) by omega] at this
        · intro hk2
          rw [hlen] at hk2
          have := b2 (by omega)
          rwa [sp1] at this
      | ctl f =>
        have hlen : (Item.wire (.ctl f)).length = 8 + f.payload.length := length_item_ctl f
        have hcont : Spec.contained k (.ctl f :: items) =
            Spec.contained (k - (8 + f.payload.length)) items := by
          rw [Spec.contained, if_pos (by omega)]
        rw [hcont] at hn ⊢
        obtain ⟨r1, a1, s1, cap1, b1, _⟩ := nextData_ctl fuel' h hok1.1 hok1.2.1
        obtain ⟨st1, sp1, e1⟩ := b1 hok1.2.2
        rw [hlen] at a1
        obtain ⟨last, r', e2, s2, b1, b2⟩ := ih (k - (8 + f.payload.length)) fuel' n r1
          (st1.trans hs) (by omega)
          (by intro it hit; rw [s1.max]; exact hok it (by simp [hit])) a1 (by omega) (by omega) (by omega)
        refine ⟨last, r', ?_, s1.trans s2, ?_, ?_⟩
        · unfold contLoop at e2 ⊢
          rw [e1]; exact e2
        · intro hk2
          rw [hlen] at hk2 ⊢
          have := b1 (by omega)
          rwa [show k - (8 + f.payload.length) - ((Spec.wires items).length + 12) =
            k - (8 + f.payload.length + (Spec.wires items).length + 12) by omega] at this
        · intro hk2
          rw [hlen] at hk2
          have := b2 (by omega)
          rwa [sp1] at this

end Fstrm
