import Verif.Lemmas.Reader
import Verif.Spec.Arrived

/-! Reading from a transport on which a given byte string has arrived so far and on which
asking for more may do anything, for instance block: the lemmas of Lemmas/Source.lean and
Lemmas/Reader.lean without the assumption on reads past what is there. -/

set_option autoImplicit false

namespace Fstrm.Arrive

open Spec (CType CFrame ByteSink be32 Arrived)

variable {σ : Type} {rem : σ → Option Bytes}

/-- `rw` is open on a transport on which `bs` is there to be read. -/
structure At (rem : σ → Option Bytes) (rw : Rdwr σ) (bs : Bytes) : Prop where
  src : Arrived rw.ops rem
  op : rw.opened = true
  left : rem rw.obj = some bs

theorem At.read {rw : Rdwr σ} {bs rest : Bytes} (h : At rem rw (bs ++ rest)) (hpos : bs ≠ []) :
    ∃ rw', rw.read bs.length = .ok (.success, bs, rw') ∧ At rem rw' rest ∧ rw'.ops = rw.ops := by
  obtain ⟨⟨f, hf, hrd⟩, ho, hl⟩ := h
  have hp : 0 < bs.length := List.length_pos_iff.2 hpos
  obtain ⟨s', h4, h5⟩ := hrd bs.length rw.obj _ hp (by simp) hl
  rw [List.take_left' rfl] at h4
  refine ⟨{ rw with obj := s', log := rw.log ++ [.rd bs.length .success bs] }, ?_,
    ⟨⟨f, hf, hrd⟩, ho, ?_⟩, rfl⟩
  · unfold Rdwr.read
    simp only [ho, hf, h4]
    simp [bind, Except.bind]
  · show rem s' = some rest
    rw [h5, List.drop_left' rfl]

theorem At.readControlBody {rw : Rdwr σ} {f : CFrame} {rest : Bytes} (c : Control)
    (h : At rem rw (be32 f.payload.length ++ (f.payload ++ rest)))
    (hf : f.WF) (hl : f.payload.length ≤ 512) :
    ∃ rw', rw.readControlBody c =
        .ok (.success, ⟨f.type.code, f.cts⟩, some f.type.code, rw') ∧
      At rem rw' rest ∧ rw'.ops = rw.ops := by
  obtain ⟨rw1, h1, a1, o1⟩ := h.read (by simp [be32])
  have hp := payload_pos f
  obtain ⟨rw2, h2, a2, o2⟩ := a1.read (by
    intro h0; rw [h0] at hp; simp at hp)
  refine ⟨rw2, ?_, a2, o2.trans o1⟩
  have hd : c.decode f.payload f.payload.length false =
      .ok (.success, ⟨f.type.code, f.cts⟩) := by
    rw [Props.decode_iff _ _ _ _ _ (Nat.le_refl _)]
    exact ⟨f, hf, hl, by simp [Spec.wireBytes], rfl⟩
  have ht : Control.getType ⟨f.type.code, f.cts⟩ = (.success, some f.type.code) := by
    unfold Control.getType; rw [if_pos (knownType_code _)]
  unfold Rdwr.readControlBody
  rw [show rw.read 4 = _ from h1, Exec.ok_bind]
  simp only [ne_eq, not_true_eq_false, if_false, be32_zero_ne _ (by omega : f.payload.length < 2^32)]
  rw [if_neg (by simp only [FRAME_LENGTH_MAX]; omega), if_neg (by omega), h2, Exec.ok_bind]
  simp only [not_true_eq_false, if_false, hd, Exec.ok_bind, ht]

theorem At.readControlFrame {rw : Rdwr σ} {f : CFrame} {rest : Bytes} (c : Control)
    (h : At rem rw (f.wire ++ rest)) (hf : f.WF) (hl : f.payload.length ≤ 512) :
    ∃ rw', rw.readControlFrame c true =
        .ok (.success, ⟨f.type.code, f.cts⟩, some f.type.code, rw') ∧
      At rem rw' rest ∧ rw'.ops = rw.ops := by
  simp only [CFrame.wire, List.append_assoc] at h
  obtain ⟨rw1, h1, a1, o1⟩ := h.read (by simp [be32])
  obtain ⟨rw2, h2, a2, o2⟩ := a1.readControlBody c hf hl
  refine ⟨rw2, ?_, a2, o2.trans o1⟩
  unfold Rdwr.readControlFrame
  rw [if_pos rfl, show rw.read 4 = _ from h1, Exec.ok_bind]
  simp only [ne_eq, not_true_eq_false, if_false, be32_zero_ne 0 (by omega)]
  exact h2

theorem At.readControl {rw : Rdwr σ} {f : CFrame} {rest : Bytes} (c : Option Control) (t : CType)
    (h : At rem rw (f.wire ++ rest)) (hf : f.WF) (hl : f.payload.length ≤ 512) :
    ∃ rw', rw.readControl c t.code =
        .ok (if f.type = t then .success else .failure, some ⟨f.type.code, f.cts⟩, rw') ∧
      At rem rw' rest ∧ rw'.ops = rw.ops := by
  obtain ⟨rw1, h1, a1, o1⟩ := h.readControlFrame (c.getD Control.init) hf hl
  refine ⟨rw1, ?_, a1, o1⟩
  unfold Rdwr.readControl
  rw [h1, Exec.ok_bind]
  by_cases ht : f.type = t
  · simp [ht]
  · have : f.type.code ≠ t.code := fun h => ht (CType.code_inj h)
    simp [ht, this]

theorem At.write {rw : Rdwr σ} {q a : Bytes} (h : At rem rw []) (hk : Spec.Answers rw.ops rem q a) :
    ∃ rw', rw.write [q] = .ok (.success, rw') ∧ At rem rw' a ∧ rw'.ops = rw.ops := by
  obtain ⟨f, hf, hw⟩ := hk.wr
  obtain ⟨s', h1, h2⟩ := hw rw.obj h.left
  refine ⟨{ rw with obj := s', log := rw.log ++ [.wr [q] .success] }, ?_,
    ⟨h.src, h.op, h2⟩, rfl⟩
  unfold Rdwr.write
  simp only [h.op, hf, h1]
  simp [bind, Except.bind]

theorem readBe32_at {r : Reader σ} {n : Nat} {rest : Bytes}
    (h : At rem r.rdwr (be32 n ++ rest)) (hn : n < 2^32) :
    ∃ rw, r.readBe32 = .ok (.success, n, { r with rdwr := rw }) ∧ At rem rw rest ∧
      rw.ops = r.rdwr.ops := by
  obtain ⟨rw1, h1, a1, o1⟩ := h.read (by simp [be32])
  refine ⟨rw1, ?_, a1, o1⟩
  unfold Reader.readBe32
  rw [show r.rdwr.read 4 = _ from h1, Exec.ok_bind]
  simp [be32_zero_ne n hn]

theorem nextData_data {r : Reader σ} {d rest : Bytes}
    (h : At rem r.rdwr (Spec.dataFrame d ++ rest)) (hcap : 1 ≤ r.bufCap)
    (h1 : 1 ≤ d.length) (h2 : d.length ≤ r.maxFrameSize) (h3 : d.length < 2^32) :
    ∃ r', (∀ fuel, Reader.nextData (fuel+1) r = .ok (.success, some d, r')) ∧ At rem r'.rdwr rest ∧
      Same r r' ∧ r'.state = r.state ∧ 1 ≤ r'.bufCap ∧ r'.stop = r.stop := by
  simp only [Spec.dataFrame, List.append_assoc] at h
  obtain ⟨rw1, e1, a1, o1⟩ := readBe32_at h h3
  obtain ⟨rw2, e2, a2, o2⟩ := a1.read (by intro h0; simp [h0] at h1)
  obtain ⟨cap, e3, c1, c2, c3⟩ := reserve_ok { r with rdwr := rw1 } d.length hcap
  refine ⟨{ r with rdwr := rw2, bufN := 0, bufCap := cap }, ?_, a2,
    ⟨rfl, rfl, o2.trans o1, rfl, rfl, rfl⟩, rfl, ?_, rfl⟩
  · intro fuel
    unfold Reader.nextData
    rw [e1, Exec.ok_bind]
    simp only [ne_eq, not_true_eq_false, if_false]
    rw [if_pos (by omega)]
    unfold Reader.dataFrame
    rw [if_neg (by simp only; omega), e3, Exec.ok_bind]
    simp only
    rw [if_neg (by omega), e2, Exec.ok_bind]
    simp
  · simp only at c2 ⊢; omega

theorem nextData_ctl {r : Reader σ} {f : CFrame} {rest : Bytes}
    (h : At rem r.rdwr (f.wire ++ rest)) (hf : f.WF) (hl : f.payload.length ≤ 512) :
    ∃ r', At rem r'.rdwr rest ∧ Same r r' ∧ r'.bufCap = r.bufCap ∧
      (f.type ≠ .stop → r'.state = r.state ∧ r'.stop = r.stop ∧
        ∀ fuel, Reader.nextData (fuel+1) r = Reader.nextData fuel r') ∧
      (f.type = .stop → r'.state = .closing ∧ r'.stop = some ⟨T_STOP, []⟩ ∧
        ∀ fuel, Reader.nextData (fuel+1) r = .ok (.stop, none, r')) := by
  simp only [CFrame.wire, List.append_assoc] at h
  obtain ⟨rw1, e1, a1, o1⟩ := readBe32_at h (by omega)
  obtain ⟨rw2, e2, a2, o2⟩ := a1.readControlBody (r.tmp.getD Control.init) hf hl
  have e2' : rw1.readControlFrame (r.tmp.getD Control.init) false = _ := e2
  have key : ∀ fuel, Reader.nextData (fuel+1) r =
      (if some f.type.code = some T_STOP then
        .ok (.stop, none, { r with rdwr := rw2, tmp := none, state := .closing,
                                   stop := some ⟨f.type.code, f.cts⟩ })
      else Reader.nextData fuel { r with rdwr := rw2, tmp := some ⟨f.type.code, f.cts⟩ }) := by
    intro fuel
    conv => lhs; unfold Reader.nextData
    rw [e1, Exec.ok_bind]
    simp only [ne_eq, not_true_eq_false, if_false]
    rw [e2', Exec.ok_bind]
    simp only [not_true_eq_false, if_false]
  by_cases ht : f.type = .stop
  · have hcts : f.cts = [] := by
      have := hf.2 0 (by rw [ht]; rfl)
      simpa using this
    simp only [if_pos (show some f.type.code = some T_STOP by rw [ht]; rfl)] at key
    refine ⟨_, ?_, ?_, ?_, fun h => absurd ht h, fun _ => ⟨?_, ?_, key⟩⟩
    · exact a2
    · exact ⟨rfl, rfl, o2.trans o1, rfl, rfl, rfl⟩
    · rfl
    · rfl
    · rw [ht, hcts]; rfl
  · simp only [if_neg (show ¬ some f.type.code = some T_STOP by
      intro h; exact ht (CType.code_inj (Option.some.inj h)))] at key
    refine ⟨_, ?_, ?_, ?_, fun _ => ⟨?_, ?_, key⟩, fun h => absurd h ht⟩
    · exact a2
    · exact ⟨rfl, rfl, o2.trans o1, rfl, rfl, rfl⟩
    · rfl
    · rfl
    · rfl

theorem openUnidirectional_at {r : Reader σ} {f : CFrame} {rest : Bytes}
    (h : At rem r.rdwr (f.wire ++ rest)) (hf : f.WF) (hl : f.payload.length ≤ 512)
    (ht : f.type = .start) :
    ∃ r', At rem r'.rdwr rest ∧ SameCfg r r' ∧ r'.start = some ⟨T_START, f.cts⟩ ∧
      r'.ready = r.ready ∧ r'.accept = r.accept ∧
      (Spec.compatible r.cts f.cts → r'.state = .opened ∧
        r.openUnidirectional = .ok (.success, r')) ∧
      (¬ Spec.compatible r.cts f.cts → r'.state = r.state ∧
        r.openUnidirectional = .ok (.failure, r')) := by
  obtain ⟨rw1, e1, a1, o1⟩ := h.readControl r.start .start hf hl
  rw [if_pos ht] at e1
  have hm : Reader.matchLoop ⟨CType.start.code, f.cts⟩ r.cts true = true ↔
      Spec.compatible r.cts f.cts := by
    rw [reader_matchLoop (Or.inl rfl) (visible_start hf ht)]
    unfold Spec.compatible
    constructor
    · rintro (⟨h, _⟩ | ⟨ct, h1, h2⟩)
      · exact Or.inl h
      · rcases h2 with h2 | h2
        · exact Or.inr (Or.inl h2)
        · exact Or.inr (Or.inr ⟨ct, h1, h2⟩)
    · rintro (h | h | ⟨ct, h1, h2⟩)
      · exact Or.inl ⟨h, rfl⟩
      · cases hr : r.cts with
        | nil => exact Or.inl ⟨rfl, rfl⟩
        | cons ct _ => exact Or.inr ⟨ct, by simp, Or.inl h⟩
      · exact Or.inr ⟨ct, h1, Or.inr h2⟩
  have key : r.openUnidirectional =
      if !(Reader.matchLoop ⟨CType.start.code, f.cts⟩ r.cts true) then
        .ok (.failure, { r with rdwr := rw1, start := some ⟨CType.start.code, f.cts⟩ })
      else .ok (.success, { r with rdwr := rw1, start := some ⟨CType.start.code, f.cts⟩,
                                   state := .opened }) := by
    unfold Reader.openUnidirectional
    rw [show r.rdwr.readControl r.start T_START = _ from e1, Exec.ok_bind]
    simp only [ne_eq, not_true_eq_false, if_false, ht]
  by_cases hc : Spec.compatible r.cts f.cts
  · rw [hm.2 hc] at key
    exact ⟨{ r with rdwr := rw1, start := some ⟨CType.start.code, f.cts⟩, state := .opened }, a1,
      ⟨rfl, rfl, o1, rfl, rfl⟩, rfl, rfl, rfl, fun _ => ⟨rfl, key⟩, fun h => absurd hc h⟩
  · have : Reader.matchLoop ⟨CType.start.code, f.cts⟩ r.cts true = false := by
      cases h : Reader.matchLoop ⟨CType.start.code, f.cts⟩ r.cts true with
      | false => rfl
      | true => exact absurd (hm.1 h) hc
    rw [this] at key
    exact ⟨{ r with rdwr := rw1, start := some ⟨CType.start.code, f.cts⟩ }, a1,
      ⟨rfl, rfl, o1, rfl, rfl⟩, rfl, rfl, rfl, fun h => absurd h hc, fun _ => ⟨rfl, key⟩⟩

theorem openBidirectional_at {r : Reader σ} {f g : CFrame} {rest : Bytes}
    (h : At rem r.rdwr g.wire)
    (hk : Spec.Answers r.rdwr.ops rem (CFrame.wire ⟨.accept, Spec.common r.cts g.cts⟩)
      (f.wire ++ rest))
    (hf : f.WF) (hl : f.payload.length ≤ 512) (ht : f.type = .start)
    (hg : g.WF) (hgl : g.payload.length ≤ 512) (hgt : g.type = .ready)
    (hct : ∀ ct ∈ r.cts, ct.length ≤ 256)
    (hacc : (CFrame.wire ⟨.accept, Spec.common r.cts g.cts⟩).length ≤ 512) :
    ∃ r', At rem r'.rdwr rest ∧ SameCfg r r' ∧ r'.start = some ⟨T_START, f.cts⟩ ∧
      r'.ready = some ⟨T_READY, g.cts⟩ ∧ r'.accept = some ⟨T_ACCEPT, Spec.common r.cts g.cts⟩ ∧
      (Spec.compatible r.cts f.cts → r'.state = .opened ∧
        r.openBidirectional = .ok (.success, r')) ∧
      (¬ Spec.compatible r.cts f.cts → r'.state = r.state ∧
        r.openBidirectional = .ok (.failure, r')) := by
  obtain ⟨rw1, e1, a1, o1⟩ := At.readControl (rest := []) r.ready .ready
    (by rw [List.append_nil]; exact h) hg hgl
  rw [if_pos hgt] at e1
  obtain ⟨rw2, e2, a2, o2⟩ := a1.write (by rw [o1]; exact hk)
  have e3 : rw1.writeControlFrame ⟨CType.accept.code, Spec.common r.cts g.cts⟩ =
      .ok (.success, rw2) := by
    rw [writeControlFrame_eq]
    refine (if_pos ⟨?_, hacc⟩).trans e2
    intro ct hc
    exact hct ct (List.mem_filter.1 hc).1
  obtain ⟨r', b1, b2, b3, b4, b5, b6, b7⟩ := openUnidirectional_at
    (r := { r with rdwr := rw2, ready := some ⟨T_READY, g.cts⟩,
                   accept := some ⟨T_ACCEPT, Spec.common r.cts g.cts⟩ }) a2 hf hl ht
  have key : r.openBidirectional = Reader.openUnidirectional
      { r with rdwr := rw2, ready := some ⟨T_READY, g.cts⟩,
               accept := some ⟨T_ACCEPT, Spec.common r.cts g.cts⟩ } := by
    unfold Reader.openBidirectional
    rw [show r.rdwr.readControl r.ready T_READY = _ from e1, Exec.ok_bind]
    have hfc : (freshControl r.accept).setType T_ACCEPT = (.success, ⟨T_ACCEPT, []⟩) := by
      unfold freshControl
      cases r.accept <;> rfl
    simp only [ne_eq, not_true_eq_false, if_false, hfc, hgt, acceptLoop_eq, List.nil_append]
    rw [show rw1.writeControlFrame ⟨T_ACCEPT, r.cts.filter (fun ct => g.cts = [] ∨ ct ∈ g.cts)⟩ = _
      from e3, Exec.ok_bind]
    simp only [not_true_eq_false, if_false]
    rfl
  rw [← key] at b6 b7
  exact ⟨r', b1, ⟨b2.cts, b2.max, b2.ops.trans (o2.trans o1), b2.cap, b2.stop⟩, b3, b4, b5, b6, b7⟩

end Fstrm.Arrive
