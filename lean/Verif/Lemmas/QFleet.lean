import Verif.Lemmas.QNet

/-! Programs with I/O threads over queues in memory as clients of `fstrm_capture`: each behaves like a
program that calls the writer itself. -/

set_option autoImplicit false

namespace Fstrm

open Spec

theorem QSame.symm {a b : QEnd} (h : QSame a b) : QSame b a :=
  ⟨h.log.symm, h.destroyed.symm, h.done.symm, h.late.symm, h.rets.symm, h.who.symm, h.busy.symm⟩

theorem QSame.clean {a b : QEnd} (h : QSame a b) (hb : b.Clean) : a.Clean :=
  ⟨⟨h.destroyed.trans hb.finished.1, by rw [h.log]; exact hb.finished.2⟩, by rw [h.late]; exact hb.settled,
    by rw [h.busy]; exact hb.idle⟩

theorem _root_.Fstrm.Spec.QSuits.client {ct : Bytes} {hw : Nat} {p : QClient}
    (h : QSuits ct hw p) : ∃ c : Client, Suits ct hw c ∧ c.wopt = p.wopt ∧
      (∀ y e o, p.side y = .ok (e, o) → Finished e.io → e.Clean ∧ QPassed e c.frames) ∧
      ∀ y, y <+: netY c.wopt (capR ct hw) →
        (∃ o, p.side y = .error (.wait o) ∧ c.side y = .error (.wait o)) ∨
        ∃ e o r, p.side y = .ok (e, o) ∧ e.Clean ∧ c.side y = .ok (r, o) := by
  have key : ∀ y e o, p.side y = .ok (e, o) → Finished e.io → ∃ c : Client, Suits ct hw c ∧
      c.wopt = p.wopt ∧ QPassed e c.frames ∧
      (∃ e2 o2, p.side (netY p.wopt (capR ct hw)) = .ok (e2, o2) ∧ QSame e2 e) ∧
      ∀ y, y <+: netY c.wopt (capR ct hw) →
        (∃ o, p.side y = .error (.wait o) ∧ c.side y = .error (.wait o)) ∨
        ∃ e' o r, p.side y = .ok (e', o) ∧ QSame e' e ∧ c.side y = .ok (r, o) := by
    intro y0 e0 o0 h0 hf
    obtain ⟨bs, h1, h2, h5, h6, _, h7⟩ := QClient.like h.whole h0 hf
    have hfr : (bs.map (·.map Entry.data)).flatten = (handed e0.io.log).map Entry.data := by
      rw [← h1, List.map_flatten]
    have hs : Suits ct hw ⟨p.wopt, bs.map (·.map Entry.data)⟩ := by
      refine ⟨h.server, h.types, h.first, h.ready, h.readyFits, h.startFits, ?_, ?_, h.buffer⟩
      · intro b hb
        obtain ⟨b', hb', rfl⟩ := List.mem_map.1 hb
        simpa using h5 b' hb'
      · intro d hd
        rw [Client.frames, hfr] at hd
        obtain ⟨e, he, rfl⟩ := List.mem_map.1 hd
        obtain ⟨h8, _, q, t, raw, f, h9⟩ := h6 e he
        exact ⟨by intro h0; rw [h0] at h8; simp at h8, h.fits q t raw _ f h9⟩
    refine ⟨_, hs, rfl, ?_, ?_, ?_⟩
    · rw [Client.frames, hfr]; exact h2
    · rcases h7 _ hs.net _ (List.prefix_refl _) with ⟨h8, _⟩ | ⟨_, h8, _⟩ | ⟨_, s2, h8, h9⟩
      · exfalso
        simp only [List.length_append] at h8
        omega
      · exact absurd rfl h8
      · exact ⟨s2, _, h8, h9⟩
    · intro y hy
      rcases h7 _ hs.net y hy with ⟨a1, a2⟩ | ⟨a1, a3, a2⟩ | ⟨a1, s2, a2, a3⟩ <;>
        rcases writer_at hs.net hy with ⟨b1, b2⟩ | ⟨b1, b3, b2⟩ | ⟨b1, w, b2, _⟩
      · exact Or.inl ⟨_, a2, b2⟩
      · exfalso; simp only at b1 a1; omega
      · exfalso; rw [b1] at a1; simp only [List.length_append] at a1; omega
      · exfalso; simp only at b1 a1; omega
      · exact Or.inl ⟨_, a2, b2⟩
      · exact absurd b1 a3
      · exfalso; rw [a1] at b1; simp only [List.length_append] at b1; omega
      · exact absurd a1 b3
      · exact Or.inr ⟨s2, _, _, a2, a3, b2⟩
  obtain ⟨y0, e0, o0, h0, hc⟩ := h.whole.ends
  obtain ⟨c, h1, h2, h3, ⟨e2, o2, h4, h5⟩, h6⟩ := key y0 e0 o0 h0 hc.finished
  refine ⟨c, h1, h2, ?_, fun y hy => ?_⟩
  · intro y e o he hfe
    obtain ⟨_, _, _, _, ⟨e2', _, h4', h5'⟩, _⟩ := key y e o he hfe
    rw [h4] at h4'
    cases h4'
    have hl : QSame e2 e := h5'
    exact ⟨hl.symm.clean (h5.clean hc), (h3.same h5.symm).same hl⟩
  · rcases h6 y hy with h | ⟨e, o, r, a1, a2, a3⟩
    · exact Or.inl h
    · exact Or.inr ⟨e, o, r, a1, a2.clean hc, a3⟩

variable {stranger : Nat → Prop}

/-- All clients at once. -/
theorem q_clients {ct : Bytes} {hw : Nat} {prog : Nat → QClient}
    (h : ∀ id, ¬ stranger id → QSuits ct hw (prog id)) :
    ∃ c : Nat → Client, (∀ id, ¬ stranger id → Suits ct hw (c id)) ∧
      (∀ id, ¬ stranger id → (c id).wopt = (prog id).wopt) ∧
      (∀ id y e o, ¬ stranger id → (prog id).side y = .ok (e, o) → Finished e.io →
        e.Clean ∧ QPassed e (c id).frames) ∧
      (∀ id y, ¬ stranger id → y <+: netY (c id).wopt (capR ct hw) →
        (∃ o, (prog id).side y = .error (.wait o) ∧ (c id).side y = .error (.wait o)) ∨
        ∃ e o r, (prog id).side y = .ok (e, o) ∧ e.Clean ∧ (c id).side y = .ok (r, o)) ∧
      Alike ct hw stranger c fun id => (prog id).side := by
  have h0 : ∀ id, ∃ c : Client, ¬ stranger id → _ := fun id => by
    by_cases hk : stranger id
    · exact ⟨⟨none, []⟩, fun h => absurd hk h⟩
    · obtain ⟨c, hc⟩ := (h id hk).client
      exact ⟨c, fun _ => hc⟩
  obtain ⟨c, hc⟩ := Classical.axiomOfChoice h0
  refine ⟨c, fun id hk => (hc id hk).1, fun id hk => (hc id hk).2.1,
    fun id y st o hk => (hc id hk).2.2.1 y st o, fun id y hk => (hc id hk).2.2.2 y, ?_⟩
  intro id y hk hy
  show sentBy ((prog id).side y) = _ ∧ ((∃ r, (prog id).side y = .ok r) ↔ _)
  rcases (hc id hk).2.2.2 y hy with ⟨o, h1, h2⟩ | ⟨st, o, r, h1, _, h2⟩
  · rw [h1, h2]
    refine ⟨rfl, ⟨?_, ?_⟩⟩ <;> rintro ⟨_, h⟩ <;> cases h
  · rw [h1, h2]
    exact ⟨rfl, ⟨fun _ => ⟨_, rfl⟩, fun _ => ⟨_, rfl⟩⟩⟩

end Fstrm
