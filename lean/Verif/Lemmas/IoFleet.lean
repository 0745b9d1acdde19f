import Verif.Lemmas.IoNet
import Verif.Lemmas.FleetInv

/-! Programs with I/O threads as clients of `fstrm_capture`: each behaves like a program that calls
the writer itself. -/

set_option autoImplicit false

namespace Fstrm

open Spec

/-- What a complete execution of a program says about the frames it passes on. -/
structure PassedOn {σ : Type} (s : Iothr σ) (fs : List Bytes) : Prop where
  frames : fs = (handed s.log).map Entry.data
  before : ∀ q, onQueue q (submits (beforeShutdown s.log)) <+: onQueue q (handed s.log)
  sub : ∀ q, (onQueue q (handed s.log)).Sublist (onQueue q (submits s.log))
  nodup : (handed s.log).Nodup

theorem _root_.Fstrm.Spec.IoSuits.client {ct : Bytes} {hw : Nat} {p : IoClient}
    (h : IoSuits ct hw p) : ∃ c : Client, Suits ct hw c ∧ c.wopt = p.wopt ∧
      (∀ y st o, p.side y = .ok (st, o) → Finished st → PassedOn st c.frames) ∧
      ∀ y, y <+: netY c.wopt (capR ct hw) →
        (∃ o, p.side y = .error (.wait o) ∧ c.side y = .error (.wait o)) ∨
        ∃ st o r, p.side y = .ok (st, o) ∧ Finished st ∧ c.side y = .ok (r, o) := by
  have key : ∀ y st o, p.side y = .ok (st, o) → Finished st → ∃ c : Client, Suits ct hw c ∧
      c.wopt = p.wopt ∧ PassedOn st c.frames ∧
      (∃ s2 o2, p.side (netY p.wopt (capR ct hw)) = .ok (s2, o2) ∧ s2.log = st.log) ∧
      ∀ y, y <+: netY c.wopt (capR ct hw) →
        (∃ o, p.side y = .error (.wait o) ∧ c.side y = .error (.wait o)) ∨
        ∃ st o r, p.side y = .ok (st, o) ∧ Finished st ∧ c.side y = .ok (r, o) := by
    intro y0 s0 o0 h0 hf
    obtain ⟨bs, h1, h2, h3, h4, _, h5, h6, h7⟩ := IoClient.like h.whole h0 hf
    have hfr : (bs.map (·.map Entry.data)).flatten = (handed s0.log).map Entry.data := by
      rw [← h1, List.map_flatten]
    have hs : Suits ct hw ⟨p.wopt, bs.map (·.map Entry.data)⟩ := by
      refine ⟨h.server, h.types, h.first, h.ready, h.readyFits, h.startFits, ?_, ?_, h.buffer⟩
      · intro b hb
        obtain ⟨b', hb', rfl⟩ := List.mem_map.1 hb
        simpa using h5 b' hb'
      · intro d hd
        rw [Client.frames, hfr] at hd
        obtain ⟨e, he, rfl⟩ := List.mem_map.1 hd
        obtain ⟨h8, _, t, q, f, h9⟩ := h6 e he
        exact ⟨by intro h0; rw [h0] at h8; simp at h8, h.fits t q _ f h9⟩
    refine ⟨_, hs, rfl, ⟨hfr, h2, h3, h4⟩, ?_, ?_⟩
    · rcases h7 _ hs.net _ (List.prefix_refl _) with ⟨h8, _⟩ | ⟨_, h8, _⟩ | ⟨_, s2, h8, _, h9⟩
      · exfalso
        simp only [List.length_append] at h8
        omega
      · exact absurd rfl h8
      · exact ⟨s2, _, h8, h9⟩
    · intro y hy
      rcases h7 _ hs.net y hy with ⟨a1, a2⟩ | ⟨a1, a3, a2⟩ | ⟨a1, s2, a2, a3, _⟩ <;>
        rcases writer_at hs.net hy with ⟨b1, b2⟩ | ⟨b1, b3, b2⟩ | ⟨b1, w, b2, _⟩
      · exact Or.inl ⟨_, a2, b2⟩
      · exfalso; simp only at b1 a1; omega
      · exfalso; rw [b1] at a1; simp only [List.length_append] at a1; omega
      · exfalso; simp only at b1 a1; omega
      · exact Or.inl ⟨_, a2, b2⟩
      · exact absurd b1 a3
      · exfalso; rw [a1] at b1; simp only [List.length_append] at b1; omega
      · exact absurd a1 b3
      · exact Or.inr ⟨s2, _, _, a2, a3, b2⟩
  obtain ⟨y0, s0, o0, h0, hf⟩ := h.whole.ends
  obtain ⟨c, h1, h2, h3, ⟨s2, o2, h4, h5⟩, h6⟩ := key y0 s0 o0 h0 hf
  refine ⟨c, h1, h2, ?_, h6⟩
  intro y st o e hst
  obtain ⟨_, _, _, _, ⟨s2', _, h4', h5'⟩, _⟩ := key y st o e hst
  rw [h4] at h4'
  cases h4'
  have hl := h5.symm.trans h5'
  exact ⟨hl ▸ h3.frames, hl ▸ h3.before, hl ▸ h3.sub, hl ▸ h3.nodup⟩

variable {α : Type} {args : CapArgs} {env : CapEnv} {prog : Nat → Client} {side : Nat → Side α}
  {stranger breaks : Nat → Prop} {s : Capture} {got : Nat → Bytes}

/-- Programs that look the same from outside. -/
def Alike (ct : Bytes) (hw : Nat) (stranger : Nat → Prop) (prog : Nat → Client)
    (side : Nat → Side α) : Prop :=
  ∀ id y, ¬ stranger id → y <+: netY (prog id).wopt (capR ct hw) →
    sentBy (side id y) = sentBy ((prog id).side y) ∧
    ((∃ r, side id y = .ok r) ↔ ∃ r, (prog id).side y = .ok r)

theorem Alike.fair (ha : Alike args.contentType args.highwater stranger prog side)
    (hg : ∀ id, ¬ stranger id → got id <+: netY (prog id).wopt (capR args.contentType args.highwater)) (a : CapAct) :
    Fair ⟨side, stranger, breaks⟩ got s a ↔ Fair ⟨sides prog, stranger, breaks⟩ got s a := by
  cases a with
  | recv id bs ch =>
    by_cases hk : stranger id
    · simp only [Fair, hk, not_true_eq_false, false_implies]
    · simp only [Fair, (ha id _ hk (hg id hk)).1]
  | hangup id =>
    by_cases hk : stranger id
    · simp only [Fair, hk, true_or]
    · simp only [Fair, (ha id _ hk (hg id hk)).2]
  | _ => exact Iff.rfl

theorem Alike.run (hb : args.bufferSize < 2 ^ 31)
    (hs : ∀ id, ¬ stranger id → Suits args.contentType args.highwater (prog id))
    (ha : Alike args.contentType args.highwater stranger prog side)
    (h : FleetRun args env ⟨side, stranger, breaks⟩ s got) :
    FleetRun args env ⟨sides prog, stranger, breaks⟩ s got := by
  induction h with
  | start e => exact .start e
  | act h hf e ih =>
    exact .act ih ((ha.fair ((fleet_inv hb hs ih).sent hb hs) _).1 hf) e
  | deliver h hd ih => exact .deliver ih hd

/-- The other way round. -/
theorem Alike.back (hb : args.bufferSize < 2 ^ 31)
    (hs : ∀ id, ¬ stranger id → Suits args.contentType args.highwater (prog id))
    (ha : Alike args.contentType args.highwater stranger prog side)
    (h : FleetRun args env ⟨sides prog, stranger, breaks⟩ s got) :
    FleetRun args env ⟨side, stranger, breaks⟩ s got := by
  induction h with
  | start e => exact .start e
  | act h hf e ih =>
    exact .act ih ((ha.fair ((fleet_inv hb hs h).sent hb hs) _).2 hf) e
  | deliver h hd ih => exact .deliver ih hd

theorem Alike.settled (ha : Alike args.contentType args.highwater stranger prog side)
    (hg : ∀ id, ¬ stranger id → got id <+: netY (prog id).wopt (capR args.contentType args.highwater))
    {id : Nat} (h : Settled ⟨side, stranger, breaks⟩ s got id) :
    Settled ⟨sides prog, stranger, breaks⟩ s got id :=
  ⟨fun bs ch hf => h.recv bs ch ((ha.fair hg _).2 hf), h.send, h.deliver⟩

/-- All clients at once. -/
theorem io_clients {ct : Bytes} {hw : Nat} {prog : Nat → IoClient}
    (h : ∀ id, ¬ stranger id → IoSuits ct hw (prog id)) :
    ∃ c : Nat → Client, (∀ id, ¬ stranger id → Suits ct hw (c id)) ∧
      (∀ id, ¬ stranger id → (c id).wopt = (prog id).wopt) ∧
      (∀ id y st o, ¬ stranger id → (prog id).side y = .ok (st, o) → Finished st → PassedOn st (c id).frames) ∧
      (∀ id y, ¬ stranger id → y <+: netY (c id).wopt (capR ct hw) →
        (∃ o, (prog id).side y = .error (.wait o) ∧ (c id).side y = .error (.wait o)) ∨
        ∃ st o r, (prog id).side y = .ok (st, o) ∧ Finished st ∧ (c id).side y = .ok (r, o)) ∧
      Alike ct hw stranger c fun id => (prog id).side := by
  have h0 : ∀ id, ∃ c : Client, ¬ stranger id → _ := fun id => by
    by_cases hk : stranger id
    · exact ⟨⟨none, []⟩, fun h => absurd hk h⟩
    · obtain ⟨c, hc⟩ := (h id hk).client
      exact ⟨c, fun _ => hc⟩
  obtain ⟨c, hc⟩ := Classical.axiomOfChoice h0
  refine ⟨c, fun id hk => (hc id hk).1, fun id hk => (hc id hk).2.1,
    fun id y st o hk => (hc id hk).2.2.1 y st o, fun id y hk => (hc id hk).2.2.2 y, ?_⟩
  intro id y hk hy
  show sentBy ((prog id).side y) = _ ∧ ((∃ r, (prog id).side y = .ok r) ↔ _)
  rcases (hc id hk).2.2.2 y hy with ⟨o, h1, h2⟩ | ⟨st, o, r, h1, _, h2⟩
  · rw [h1, h2]
    refine ⟨rfl, ⟨?_, ?_⟩⟩ <;> rintro ⟨_, h⟩ <;> cases h
  · rw [h1, h2]
    exact ⟨rfl, ⟨fun _ => ⟨_, rfl⟩, fun _ => ⟨_, rfl⟩⟩⟩

end Fstrm
