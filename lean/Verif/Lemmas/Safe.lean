import Verif.Lemmas.ReaderSound
import Verif.Lemmas.WriterTrace

/-! Absence of undefined behaviour on well-behaved transports. -/

set_option autoImplicit false

namespace Fstrm

open Spec (CType CFrame be32 WellBehaved)

variable {σ : Type} {b : Bool}

/-- No undefined behaviour and no failing assertion; normal outcomes satisfy `Q`. With `b`
the iteration budget may run out. -/
def Safe (b : Bool) {α : Type} (x : Exec α) (Q : α → Prop) : Prop :=
  (∃ a, x = .ok a ∧ Q a) ∨ (b = true ∧ x = .error .fuel)

theorem Safe.bind {α β : Type} {x : Exec α} {f : α → Exec β} {P : α → Prop} {Q : β → Prop}
    (hx : Safe b x P) (hf : ∀ a, P a → Safe b (f a) Q) : Safe b (x >>= f) Q := by
  rcases hx with ⟨a, rfl, h⟩ | ⟨hb, rfl⟩
  · exact hf a h
  · exact Or.inr ⟨hb, rfl⟩

theorem Safe.ok {α : Type} {a : α} {Q : α → Prop} (h : Q a) : Safe b (.ok a) Q := Or.inl ⟨a, rfl, h⟩

theorem Safe.mono {α : Type} {x : Exec α} {P Q : α → Prop} (hx : Safe b x P)
    (h : ∀ a, P a → Q a) : Safe b x Q := by
  rcases hx with ⟨a, rfl, h1⟩ | ⟨hb, rfl⟩
  · exact .ok (h a h1)
  · exact Or.inr ⟨hb, rfl⟩

theorem Safe.ite {α : Type} {c : Prop} [Decidable c] {x y : Exec α} {Q : α → Prop}
    (h1 : c → Safe b x Q) (h2 : ¬c → Safe b y Q) : Safe b (if c then x else y) Q := by
  split
  · exact h1 ‹_›
  · exact h2 ‹_›

/-- The transport has the given callbacks and its state satisfies the invariant. -/
def Good (ops : Ops σ) (I : σ → Prop) (rw : Rdwr σ) : Prop := rw.ops = ops ∧ I rw.obj

variable {ops : Ops σ} {I : σ → Prop}

theorem Good.open (hw : WellBehaved ops I) (hp : Spec.Preserves ops I) {rw : Rdwr σ}
    (h : Good ops I rw) : Safe b rw.open (fun p => Good ops I p.2) := by
  obtain ⟨rfl, hi⟩ := h
  unfold Rdwr.open
  split
  · exact .ok ⟨rfl, hi⟩
  · rename_i f hf
    obtain ⟨r, s', hs⟩ := hw.opn f hf rw.obj hi
    have := hp.opn f hf _ _ _ hi hs
    rw [hs, Exec.ok_bind]
    simp only
    split <;> exact .ok ⟨rfl, this⟩

theorem Good.close (hw : WellBehaved ops I) (hp : Spec.Preserves ops I) {rw : Rdwr σ}
    (h : Good ops I rw) : Safe b rw.close (fun p => Good ops I p.2) := by
  obtain ⟨rfl, hi⟩ := h
  unfold Rdwr.close
  split
  · exact .ok ⟨rfl, hi⟩
  · rename_i f hf
    split
    · obtain ⟨r, s', hs⟩ := hw.cls f hf rw.obj hi
      have := hp.cls f hf _ _ _ hi hs
      rw [hs, Exec.ok_bind]
      exact .ok ⟨rfl, this⟩
    · exact .ok ⟨rfl, hi⟩

theorem Good.destroy (hw : WellBehaved ops I) {rw : Rdwr σ}
    (h : Good ops I rw) : Safe b rw.destroy (fun _ => True) := by
  obtain ⟨rfl, hi⟩ := h
  unfold Rdwr.destroy
  split
  · exact .ok trivial
  · rename_i f hf
    obtain ⟨r, s', hs⟩ := hw.destroy f hf rw.obj hi
    rw [hs, Exec.ok_bind]
    exact .ok trivial

theorem Good.read (hw : WellBehaved ops I) (hp : Spec.Preserves ops I) {rw : Rdwr σ}
    (h : Good ops I rw) (n : Nat) :
    Safe b (rw.read n) (fun p => Good ops I p.2.2 ∧ (p.1 = .success → p.2.1.length = n ∧
      ∃ f, ops.rd = some f ∧ f n rw.obj = .ok (.success, p.2.1, p.2.2.obj))) := by
  have hg := h
  obtain ⟨rfl, hi⟩ := h
  unfold Rdwr.read
  split
  · exact .ok ⟨hg, nofun⟩
  · split
    · exact .ok ⟨hg, nofun⟩
    · rename_i f hf
      obtain ⟨r, bs, s', hs, hl⟩ := hw.rd f hf n rw.obj hi
      have := hp.rd f hf _ _ _ _ _ hi hs
      rw [hs, Exec.ok_bind]
      simp only
      split
      · rename_i hne
        refine Safe.bind (Good.close (rw := { rw with obj := s', log := _ }) hw hp ⟨rfl, this⟩) ?_
        intro p hp
        exact .ok ⟨hp, fun h => absurd h hne⟩
      · rename_i hr
        have hr : r = .success := by simpa using hr
        subst hr
        rw [if_neg (by simp [hl rfl])]
        exact .ok ⟨⟨rfl, this⟩, fun _ => ⟨hl rfl, f, hf, hs⟩⟩

theorem Good.write (hw : WellBehaved ops I) (hp : Spec.Preserves ops I) {rw : Rdwr σ}
    (h : Good ops I rw) (iov : List Bytes) : Safe b (rw.write iov) (fun p => Good ops I p.2) := by
  have hg := h
  obtain ⟨rfl, hi⟩ := h
  unfold Rdwr.write
  split
  · exact .ok hg
  · split
    · exact .ok hg
    · rename_i f hf
      obtain ⟨r, s', hs⟩ := hw.wr f hf iov rw.obj hi
      have := hp.wr f hf _ _ _ _ hi hs
      rw [hs, Exec.ok_bind]
      simp only
      split
      · refine Safe.bind (Good.close (rw := { rw with obj := s', log := _ }) hw hp ⟨rfl, this⟩) ?_
        intro p hp
        exact .ok hp
      · exact .ok ⟨rfl, this⟩

/-- After an escape was just read, reading the rest of a control frame is safe. -/
theorem Good.readControlBody (hw : WellBehaved ops I) (hp : Spec.Preserves ops I) {rw : Rdwr σ}
    (h : Good ops I rw) (c : Control)
    (hz : ∀ f s2, ops.rd = some f → f 4 rw.obj ≠ .ok (.success, [0, 0, 0, 0], s2)) :
    Safe b (rw.readControlBody c) (fun p => Good ops I p.2.2.2) := by
  unfold Rdwr.readControlBody
  refine Safe.bind (h.read hw hp 4) ?_
  rintro ⟨r, tmp, rw1⟩ ⟨h1, h2⟩
  simp only at h1 h2 ⊢
  refine Safe.ite (fun _ => .ok h1) fun hr => ?_
  have hr : r = .success := by simpa using hr
  obtain ⟨hl, f, hf, hfe⟩ := h2 hr
  refine Safe.ite (fun _ => .ok h1) fun _ => ?_
  refine (if_neg ?_ : (if ntohl tmp = 0 then _ else _) = _) ▸ ?_
  · intro h0
    apply hz f rw1.obj hf
    have : tmp = [0, 0, 0, 0] := by
      have e := htonl_ntohl hl
      rw [h0] at e
      exact e.symm
    rw [hfe, this]
  · refine Safe.bind (h1.read hw hp _) ?_
    rintro ⟨r2, frame, rw2⟩ ⟨h3, h4⟩
    simp only at h3 h4 ⊢
    refine Safe.ite (fun _ => .ok h3) fun hr => ?_
    have hr : r2 = .success := by simpa using hr
    obtain ⟨hl2, _⟩ := h4 hr
    obtain ⟨r', c', hd, _⟩ := Props.decode_safe c frame (ntohl tmp) false (by omega)
    rw [hd, Exec.ok_bind]
    simp only
    exact Safe.ite (fun _ => .ok h3) fun _ => .ok h3

theorem Good.readControl (hw : WellBehaved ops I) (hp : Spec.Preserves ops I)
    (hz : Spec.NoZeroPair ops I) {rw : Rdwr σ}
    (h : Good ops I rw) (c : Option Control) (t : Nat) :
    Safe b (rw.readControl c t) (fun p => Good ops I p.2.2 ∧ p.2.1 ≠ none) := by
  unfold Rdwr.readControl Rdwr.readControlFrame
  rw [if_pos rfl]
  have : Safe b (do
      let (res, tmp, rw) ← rw.read 4
      if res ≠ .success then .ok (res, c.getD Control.init, none, rw)
      else if ntohl tmp ≠ 0 then .ok (.failure, c.getD Control.init, none, rw)
      else rw.readControlBody (c.getD Control.init) : Exec (Res × Control × Option Nat × Rdwr σ))
      (fun p => Good ops I p.2.2.2) := by
    refine Safe.bind (h.read hw hp 4) ?_
    rintro ⟨r, tmp, rw1⟩ ⟨h1, h2⟩
    simp only at h1 h2 ⊢
    refine Safe.ite (fun _ => .ok h1) fun hr => Safe.ite (fun _ => .ok h1) fun hn => ?_
    have hr : r = .success := by simpa using hr
    obtain ⟨hl, f, hf, hfe⟩ := h2 hr
    have h0 : ntohl tmp = 0 := by simpa using hn
    have htmp : tmp = [0, 0, 0, 0] := by
      have e := htonl_ntohl hl
      rw [h0] at e
      exact e.symm
    refine h1.readControlBody hw hp _ ?_
    intro f' s2 hf' 
    rw [hf] at hf'; cases hf'
    exact hz f hf _ _ _ h.2 (by rw [hfe, htmp])
  refine Safe.bind this ?_
  rintro ⟨r, c', t', rw1⟩ h1
  simp only at h1 ⊢
  exact Safe.ite (fun _ => .ok ⟨h1, nofun⟩) fun _ => Safe.ite (fun _ => .ok ⟨h1, nofun⟩)
    fun _ => .ok ⟨h1, nofun⟩

theorem Good.writeControlFrame (hw : WellBehaved ops I) (hp : Spec.Preserves ops I) {rw : Rdwr σ}
    (h : Good ops I rw) (t : CType) (cts : List Bytes) :
    Safe b (rw.writeControlFrame ⟨t.code, cts⟩) (fun p => Good ops I p.2) := by
  rw [writeControlFrame_eq]
  exact Safe.ite (fun _ => h.write hw hp _) fun _ => .ok h

/-! ### Reader -/

/-- The reader's part of the invariant. -/
def GoodR (ops : Ops σ) (I : σ → Prop) (r : Reader σ) : Prop := Good ops I r.rdwr ∧ 1 ≤ r.bufCap

theorem GoodR.openUnidirectional (hw : WellBehaved ops I) (hp : Spec.Preserves ops I)
    (hz : Spec.NoZeroPair ops I) {r : Reader σ} (h : GoodR ops I r) :
    Safe b r.openUnidirectional (fun p => GoodR ops I p.2) := by
  unfold Reader.openUnidirectional
  refine Safe.bind (h.1.readControl hw hp hz _ _) ?_
  rintro ⟨res, c, rw⟩ ⟨h1, h2⟩
  simp only at h1 h2 ⊢
  refine Safe.ite (fun _ => .ok ⟨h1, h.2⟩) fun _ => ?_
  cases c with
  | none => exact absurd rfl h2
  | some c => exact Safe.ite (fun _ => .ok ⟨h1, h.2⟩) fun _ => .ok ⟨h1, h.2⟩

theorem GoodR.openBidirectional (hw : WellBehaved ops I) (hp : Spec.Preserves ops I)
    (hz : Spec.NoZeroPair ops I) {r : Reader σ} (h : GoodR ops I r) :
    Safe b r.openBidirectional (fun p => GoodR ops I p.2) := by
  unfold Reader.openBidirectional
  have hx := h.1.readControl (b := b) hw hp hz r.ready T_READY
  rcases hx with ⟨⟨res, c, rw⟩, hx, h1, h2⟩ | ⟨hb, hx⟩
  · rw [hx, Exec.ok_bind]
    simp only at h1 h2 ⊢
    refine Safe.ite (fun _ => .ok ⟨h1, h.2⟩) fun hs => ?_
    have hs : res = .success := by simpa using hs
    subst hs
    obtain ⟨_, _, _, _, g, q1, q2, q3, rfl, q5⟩ := readControl_success hx
    have hgt : g.type = .ready := CType.code_inj q3
    have hfc : (freshControl r.accept).setType T_ACCEPT = (.success, ⟨T_ACCEPT, []⟩) := by
      unfold freshControl
      cases r.accept <;> rfl
    simp only [hfc, hgt, acceptLoop_eq, List.nil_append, ne_eq, not_true_eq_false, if_false]
    refine Safe.bind (Good.writeControlFrame hw hp h1 .accept _) ?_
    rintro ⟨res2, rw2⟩ h3
    simp only at h3 ⊢
    refine Safe.ite (fun _ => .ok ⟨h3, h.2⟩) fun _ => ?_
    exact GoodR.openUnidirectional hw hp hz ⟨h3, h.2⟩
  · rw [hx]; exact Or.inr ⟨hb, rfl⟩

theorem GoodR.open (hw : WellBehaved ops I) (hp : Spec.Preserves ops I)
    (hz : Spec.NoZeroPair ops I) {r : Reader σ} (h : GoodR ops I r) :
    Safe b r.open (fun p => GoodR ops I p.2) := by
  unfold Reader.open
  refine Safe.ite (fun _ => .ok h) fun _ => ?_
  refine Safe.bind (h.1.open hw hp) ?_
  rintro ⟨res, rw⟩ h1
  simp only at h1 ⊢
  refine Safe.ite (fun _ => .ok ⟨h1, h.2⟩) fun _ => ?_
  have hg : GoodR ops I { r with rdwr := rw } := ⟨h1, h.2⟩
  refine Safe.bind (P := fun p => GoodR ops I p.2) ?_ ?_
  · exact Safe.ite (fun _ => hg.openBidirectional hw hp hz) fun _ => hg.openUnidirectional hw hp hz
  · rintro ⟨res2, r2⟩ h2
    exact Safe.ite (fun _ => .ok h2) fun _ => .ok ⟨h2.1, h2.2⟩

theorem GoodR.maybeOpen (hw : WellBehaved ops I) (hp : Spec.Preserves ops I)
    (hz : Spec.NoZeroPair ops I) {r : Reader σ} (h : GoodR ops I r) :
    Safe b r.maybeOpen (fun p => GoodR ops I p.2) := by
  unfold Reader.maybeOpen
  exact Safe.ite (fun _ => h.open hw hp hz) fun _ => .ok h

theorem GoodR.nextData (hw : WellBehaved ops I) (hp : Spec.Preserves ops I)
    (hz : Spec.NoZeroPair ops I) (fuel : Nat) {r : Reader σ} (h : GoodR ops I r) :
    Safe true (Reader.nextData fuel r) (fun p => GoodR ops I p.2.2) := by
  induction fuel generalizing r with
  | zero => exact Or.inr ⟨rfl, rfl⟩
  | succ fuel ih =>
    unfold Reader.nextData Reader.readBe32
    rcases h.1.read (b := true) hw hp 4 with ⟨⟨res, tmp, rw⟩, hx, h1, h2⟩ | ⟨hb, hx⟩
    · rw [hx]
      simp only [Exec.ok_bind] at h1 h2 ⊢
      by_cases hs : res = .success
      · subst hs
        simp only [ne_eq, not_true_eq_false, if_false, Exec.ok_bind]
        have hg : GoodR ops I { r with rdwr := rw } := ⟨h1, h.2⟩
        obtain ⟨hl, f, hf, hfe⟩ := h2 rfl
        refine Safe.ite (fun _ => ?_) fun hn => ?_
        · unfold Reader.dataFrame
          refine Safe.ite (fun _ => .ok ⟨h1, h.2⟩) fun _ => ?_
          obtain ⟨cap, e, c1, c2, c3⟩ := reserve_ok { r with rdwr := rw } (ntohl tmp) h.2
          rw [e, Exec.ok_bind]
          simp only
          rw [if_neg (by omega)]
          refine Safe.bind (h1.read hw hp _) ?_
          rintro ⟨r2, bs, rw2⟩ ⟨h3, _⟩
          have hc : 1 ≤ cap := Nat.le_trans h.2 c2
          exact Safe.ite (fun _ => .ok ⟨h3, hc⟩) fun _ => .ok ⟨h3, hc⟩
        · have h0 : ntohl tmp = 0 := by simpa using hn
          have htmp : tmp = [0, 0, 0, 0] := by
            have e := htonl_ntohl hl
            rw [h0] at e
            exact e.symm
          have hb : Safe true (rw.readControlFrame (r.tmp.getD Control.init) false)
              (fun p => Good ops I p.2.2.2) := by
            show Safe true (rw.readControlBody _) _
            refine h1.readControlBody hw hp _ ?_
            intro f' s2 hf'
            rw [hf] at hf'; cases hf'
            exact hz f hf _ _ _ h.1.2 (by rw [hfe, htmp])
          refine Safe.bind hb ?_
          rintro ⟨res3, c, t, rw3⟩ h3
          simp only at h3 ⊢
          refine Safe.ite (fun _ => .ok ⟨h3, h.2⟩) fun _ => Safe.ite (fun _ => .ok ⟨h3, h.2⟩) fun _ => ?_
          exact ih ⟨h3, h.2⟩
      · simp only [ne_eq, hs, not_false_eq_true, if_true, Exec.ok_bind]
        exact .ok ⟨h1, h.2⟩
    · rw [hx]; exact Or.inr ⟨hb, rfl⟩

theorem GoodR.close (hw : WellBehaved ops I) (hp : Spec.Preserves ops I) {r : Reader σ}
    (h : GoodR ops I r) : Safe b r.close (fun p => GoodR ops I p.2) := by
  unfold Reader.close
  refine Safe.ite (fun _ => .ok h) fun _ => ?_
  simp only
  have fin : ∀ (res : Option Res) (rw : Rdwr σ), Good ops I rw → Safe b (do
      let (res', rdwr) ← rw.close
      .ok (res.getD res', { r with state := .closed, rdwr := rdwr }) : Exec (Res × Reader σ))
      (fun p => GoodR ops I p.2) := by
    intro res rw hg
    refine Safe.bind (hg.close hw hp) ?_
    rintro ⟨res', rw'⟩ h'
    exact .ok ⟨h', h.2⟩
  refine Safe.ite (fun _ => ?_) fun _ => fin none _ h.1
  rw [writeControl_finish]
  refine Safe.bind (h.1.write hw hp _) ?_
  rintro ⟨res, rw⟩ h1
  exact Safe.ite (fun _ => fin (some res) rw h1) fun _ => fin none rw h1

theorem GoodR.step (hw : WellBehaved ops I) (hp : Spec.Preserves ops I)
    (hz : Spec.NoZeroPair ops I) (fuel : Nat) {r : Reader σ} (h : GoodR ops I r) (op : ROp) :
    Safe true (r.step fuel op) (fun p => GoodR ops I p.2.2) := by
  cases op with
  | opn =>
    refine Safe.bind (h.open hw hp hz) ?_
    rintro ⟨res, r1⟩ h1; exact .ok h1
  | read =>
    refine Safe.bind (h.maybeOpen hw hp hz) ?_
    rintro ⟨res, r1⟩ h1
    exact Safe.ite (fun _ => .ok h1) fun _ => Safe.ite (fun _ => h1.nextData hw hp hz fuel)
      fun _ => Safe.ite (fun _ => .ok h1) fun _ => .ok h1
  | getControl t =>
    have : Safe true (r.getControl t) (fun p => GoodR ops I p.2.2) := by
      refine Safe.bind (h.maybeOpen hw hp hz) ?_
      rintro ⟨res, r1⟩ h1
      exact Safe.ite (fun _ => .ok h1) fun _ => Safe.ite (fun _ => .ok h1) fun _ =>
        Safe.ite (fun _ => .ok h1) fun _ => Safe.ite (fun _ => .ok h1) fun _ =>
        Safe.ite (fun _ => .ok h1) fun _ => .ok h1
    refine Safe.bind this ?_
    rintro ⟨res, c, r1⟩ h1; exact .ok h1
  | close =>
    refine Safe.bind (h.close hw hp) ?_
    rintro ⟨res, r1⟩ h1; exact .ok h1

theorem GoodR.run (hw : WellBehaved ops I) (hp : Spec.Preserves ops I)
    (hz : Spec.NoZeroPair ops I) (fuel : Nat) (calls : List ROp) {r : Reader σ}
    (h : GoodR ops I r) : Safe true (r.run fuel calls) (fun p => GoodR ops I p.2) := by
  induction calls generalizing r with
  | nil => exact .ok h
  | cons op rest ih =>
    refine Safe.bind (h.step hw hp hz fuel op) ?_
    rintro ⟨res, d, r1⟩ h1
    refine Safe.bind (ih h1) ?_
    rintro ⟨rs, r2⟩ h2
    exact .ok h2

theorem GoodR.destroy (hw : WellBehaved ops I) (hp : Spec.Preserves ops I) {r : Reader σ}
    (h : GoodR ops I r) : Safe b r.destroy (fun _ => True) := by
  unfold Reader.destroy
  refine Safe.bind (P := fun p => GoodR ops I p.2) ?_ ?_
  · exact Safe.ite (fun _ => h.close hw hp) fun _ => .ok h
  · rintro ⟨res, r1⟩ h1
    refine Safe.bind (h1.1.destroy hw) ?_
    rintro ⟨_, _⟩ _; exact .ok trivial

/-! ### Writer -/

theorem Good.sendStart (hw : WellBehaved ops I) (hp : Spec.Preserves ops I) {w : Writer σ}
    (h : Good ops I w.rdwr) (ct : Option Bytes) :
    Safe b (w.sendStart ct) (fun p => Good ops I p.2.rdwr) := by
  rw [sendStart_eq]
  refine Safe.bind (h.writeControlFrame hw hp .start _) ?_
  rintro ⟨res, rw⟩ h1; exact .ok h1

theorem Good.openBi (hw : WellBehaved ops I) (hp : Spec.Preserves ops I)
    (hz : Spec.NoZeroPair ops I) {w : Writer σ} (h : Good ops I w.rdwr) :
    Safe b w.openBidirectional (fun p => Good ops I p.2.rdwr) := by
  rw [openBidirectional_eq]
  refine Safe.bind (h.writeControlFrame hw hp .ready _) ?_
  rintro ⟨res, rw⟩ h1
  simp only at h1 ⊢
  refine Safe.ite (fun _ => .ok h1) fun _ => ?_
  refine Safe.bind (h1.readControl hw hp hz _ _) ?_
  rintro ⟨res, c, rw⟩ ⟨h1, h2⟩
  simp only at h1 h2 ⊢
  refine Safe.ite (fun _ => .ok h1) fun _ => ?_
  cases c with
  | none => exact absurd rfl h2
  | some c => exact Safe.ite (fun _ => .ok h1) fun _ => Good.sendStart hw hp h1 _

theorem Good.wopen (hw : WellBehaved ops I) (hp : Spec.Preserves ops I)
    (hz : Spec.NoZeroPair ops I) {w : Writer σ} (h : Good ops I w.rdwr) :
    Safe b w.open (fun p => Good ops I p.2.rdwr) := by
  unfold Writer.open
  refine Safe.ite (fun _ => .ok h) fun _ => ?_
  refine Safe.bind (h.open hw hp) ?_
  rintro ⟨res, rw⟩ h1
  simp only at h1 ⊢
  refine Safe.ite (fun _ => .ok h1) fun _ => ?_
  refine Safe.bind (P := fun p => Good ops I p.2.rdwr) ?_ ?_
  · refine Safe.ite (fun _ => Good.openBi hw hp hz h1) fun _ => ?_
    rw [openUnidirectional_eq]
    exact Good.sendStart hw hp h1 _
  · rintro ⟨res2, r2⟩ h2
    exact Safe.ite (fun _ => .ok h2) fun _ => .ok h2

theorem Good.wmaybeOpen (hw : WellBehaved ops I) (hp : Spec.Preserves ops I)
    (hz : Spec.NoZeroPair ops I) {w : Writer σ} (h : Good ops I w.rdwr) :
    Safe b w.maybeOpen (fun p => Good ops I p.2.rdwr) := by
  unfold Writer.maybeOpen
  exact Safe.ite (fun _ => h.wopen hw hp hz) fun _ => .ok h

theorem Good.wclose (hw : WellBehaved ops I) (hp : Spec.Preserves ops I)
    (hz : Spec.NoZeroPair ops I) {w : Writer σ} (h : Good ops I w.rdwr) :
    Safe b w.close (fun p => Good ops I p.2.rdwr) := by
  unfold Writer.close
  refine Safe.ite (fun _ => .ok h) fun _ => ?_
  simp only
  have fin : ∀ (w : Writer σ) (res : Option Res) (rw : Rdwr σ), Good ops I rw → Safe b (do
      let (res', rdwr) ← rw.close
      .ok (res.getD res', { w with rdwr := rdwr }) : Exec (Res × Writer σ))
      (fun p => Good ops I p.2.rdwr) := by
    intro w res rw hg
    refine Safe.bind (hg.close hw hp) ?_
    rintro ⟨res', rw'⟩ h'
    exact .ok h'
  rw [writeControl_stop]
  refine Safe.bind (h.write hw hp _) ?_
  rintro ⟨res, rw⟩ h1
  refine Safe.ite (fun _ => fin { w with state := .closed } (some res) rw h1) fun _ => ?_
  refine Safe.ite (fun _ => ?_) fun _ => fin { w with state := .closed } none rw h1
  refine Safe.bind (h1.readControl hw hp hz _ _) ?_
  rintro ⟨res, c, rw⟩ ⟨h1, h2⟩
  refine Safe.ite (fun _ => fin { w with state := .closed, finish := c } (some res) rw h1) fun _ =>
    fin { w with state := .closed, finish := c } none rw h1

theorem Good.writeIov (hw : WellBehaved ops I) (hp : Spec.Preserves ops I) {w : Writer σ}
    (h : Good ops I w.rdwr) (iov : List Bytes) (hl : iov.length ≤ 128) :
    Safe b (w.writeIov iov) (fun p => Good ops I p.2.rdwr) := by
  rw [writeIov_eq _ _ hl]
  refine Safe.bind (h.write hw hp _) ?_
  rintro ⟨res, rw⟩ h1; exact .ok h1

theorem Good.writeIovStupid (hw : WellBehaved ops I) (hp : Spec.Preserves ops I) (fuel : Nat)
    (iov : List Bytes) {w : Writer σ} (h : Good ops I w.rdwr) (hl : iov.length ≤ fuel) :
    Safe b (Writer.writeIovStupid fuel w iov) (fun p => Good ops I p.2.rdwr) := by
  induction fuel generalizing w iov with
  | zero =>
    unfold Writer.writeIovStupid
    exact Safe.ite (fun h => by omega) fun _ => .ok h
  | succ fuel ih =>
    unfold Writer.writeIovStupid
    refine Safe.ite (fun hpos => ?_) fun _ => .ok h
    simp only [stupidMax_eq]
    refine Safe.bind (Good.writeIov hw hp h _ ?_) ?_
    · rw [List.length_take]; split <;> omega
    · rintro ⟨res, w1⟩ h1
      exact Safe.ite (fun _ => .ok h1) fun _ => ih _ h1 (by rw [List.length_drop]; split <;> omega)

theorem Good.writev (hw : WellBehaved ops I) (hp : Spec.Preserves ops I)
    (hz : Spec.NoZeroPair ops I) {w : Writer σ} (h : Good ops I w.rdwr) (iov : List Bytes)
    (hl : iov.length ≤ 1073741823) :
    Safe b (w.writev iov) (fun p => Good ops I p.2.rdwr) := by
  unfold Writer.writev
  refine Safe.ite (fun _ => .ok h) fun _ => ?_
  refine Safe.bind (h.wmaybeOpen hw hp hz) ?_
  rintro ⟨res, w1⟩ h1
  refine Safe.ite (fun _ => .ok h1) fun _ => Safe.ite (fun _ => ?_) fun _ => .ok h1
  rw [if_neg (by simp only [INT_MAX]; omega)]
  refine Safe.ite (fun hle => Good.writeIov hw hp h1 _ ?_) fun _ => Good.writeIovStupid hw hp _ _ h1 (Nat.le_refl _)
  simp only [WRITER_IOVEC_SIZE] at hle; omega

theorem Good.wstep (hw : WellBehaved ops I) (hp : Spec.Preserves ops I)
    (hz : Spec.NoZeroPair ops I) {w : Writer σ} (h : Good ops I w.rdwr) (op : WOp)
    (hl : op.frames.length ≤ 1073741823) :
    Safe b (w.step op) (fun p => Good ops I p.2.rdwr) := by
  cases op with
  | opn => exact h.wopen hw hp hz
  | write d => exact Good.writev hw hp hz h [d] (by simp)
  | writev ds => exact Good.writev hw hp hz h ds hl
  | getControl t =>
    have : Safe b (w.getControl t) (fun p => Good ops I p.2.2.rdwr) := by
      refine Safe.bind (h.wmaybeOpen hw hp hz) ?_
      rintro ⟨res, r1⟩ h1
      exact Safe.ite (fun _ => .ok h1) fun _ => Safe.ite (fun _ => .ok h1) fun _ =>
        Safe.ite (fun _ => .ok h1) fun _ => Safe.ite (fun _ => .ok h1) fun _ =>
        Safe.ite (fun _ => .ok h1) fun _ => .ok h1
    refine Safe.bind this ?_
    rintro ⟨res, c, r1⟩ h1; exact .ok h1
  | close => exact h.wclose hw hp hz

theorem Good.wrun (hw : WellBehaved ops I) (hp : Spec.Preserves ops I)
    (hz : Spec.NoZeroPair ops I) (calls : List WOp) {w : Writer σ} (h : Good ops I w.rdwr)
    (hl : ∀ op ∈ calls, op.frames.length ≤ 1073741823) :
    Safe b (w.run calls) (fun p => Good ops I p.2.rdwr) := by
  induction calls generalizing w with
  | nil => exact .ok h
  | cons op rest ih =>
    refine Safe.bind (h.wstep hw hp hz op (hl op (by simp))) ?_
    rintro ⟨res, w1⟩ h1
    refine Safe.bind (ih h1 (fun op h => hl op (by simp [h]))) ?_
    rintro ⟨rs, r2⟩ h2
    exact .ok h2

theorem Good.wdestroy (hw : WellBehaved ops I) (hp : Spec.Preserves ops I)
    (hz : Spec.NoZeroPair ops I) {w : Writer σ} (h : Good ops I w.rdwr) :
    Safe b w.destroy (fun _ => True) := by
  unfold Writer.destroy
  refine Safe.bind (P := fun p => Good ops I p.2.rdwr) ?_ ?_
  · exact Safe.ite (fun _ => h.wclose hw hp hz) fun _ => .ok h
  · rintro ⟨res, r1⟩ h1
    refine Safe.bind (h1.destroy hw) ?_
    rintro ⟨_, _⟩ _; exact .ok trivial

end Fstrm
