import Verif.Spec.FleetPipe
import Verif.Props.Pipe
import Verif.Props.Fleet
import Verif.Props.IoPipe

/-! Clients over connections of limited capacity: what happens can also happen over unlimited ones, and
nothing gets stuck. -/

set_option autoImplicit false

namespace Fstrm

open Spec Props

section
variable {α : Type} {args : CapArgs} {env : CapEnv} {prog : Nat → Client} {P : Nat → Nat → Side α}
  {stranger breaks : Nat → Prop} {cw cr : Nat} {s : Capture} {got : Nat → Bytes}

/-- `P id c` is what the program of client `id` does over a connection that takes `c` bytes. -/
def PipeLike (ct : Bytes) (hw : Nat) (stranger : Nat → Prop) (prog : Nat → Client)
    (P : Nat → Nat → Side α) : Prop :=
  ∀ id y, ¬ stranger id → y <+: netY (prog id).wopt (capR ct hw) →
    ∃ o, (sides prog id y = .error (.wait o) ∧
        ∀ c, P id c y = if o.length ≤ c then .error (.wait o) else .error (.full (o.take c))) ∨
      ∃ r, sides prog id y = .ok (r, o) ∧
        ∀ c, if o.length ≤ c then ∃ r', P id c y = .ok (r', o) else P id c y = .error (.full (o.take c))

theorem PipeLike.sent {ct : Bytes} {hw : Nat} (h : PipeLike ct hw stranger prog P) {id : Nat} {y : Bytes}
    (hk : ¬ stranger id) (hy : y <+: netY (prog id).wopt (capR ct hw)) (c : Nat) :
    sentBy (P id c y) = (sentBy (sides prog id y)).take c := by
  obtain ⟨o, ⟨h1, h2⟩ | ⟨r, h1, h2⟩⟩ := h id y hk hy
  · rw [h1, h2 c]
    split
    · exact (List.take_of_length_le (by assumption)).symm
    · rfl
  · have := h2 c
    rw [h1]
    split at this
    · obtain ⟨r', h3⟩ := this
      rw [h3]
      exact (List.take_of_length_le (by assumption)).symm
    · rw [this]; rfl

/-- If everything the program sends fits, it does the same. -/
theorem PipeLike.fits {ct : Bytes} {hw : Nat} (h : PipeLike ct hw stranger prog P) {id : Nat} {y : Bytes}
    (hk : ¬ stranger id) (hy : y <+: netY (prog id).wopt (capR ct hw)) {c : Nat}
    (hc : (sentBy (sides prog id y)).length ≤ c) :
    (∃ o, sides prog id y = .error (.wait o) ∧ P id c y = .error (.wait o)) ∨
    ∃ r r' o, sides prog id y = .ok (r, o) ∧ P id c y = .ok (r', o) := by
  obtain ⟨o, ⟨h1, h2⟩ | ⟨r, h1, h2⟩⟩ := h id y hk hy
  · rw [h1] at hc
    have hc : o.length ≤ c := hc
    exact Or.inl ⟨o, h1, by rw [h2 c, if_pos hc]⟩
  · rw [h1] at hc
    have hc : o.length ≤ c := hc
    have := h2 c
    rw [if_pos hc] at this
    obtain ⟨r', h3⟩ := this
    exact Or.inr ⟨r, r', o, h1, h3⟩

/-- In any case it waits, is blocked or has ended, and only if the unlimited program has. -/
theorem PipeLike.cases {ct : Bytes} {hw : Nat} (h : PipeLike ct hw stranger prog P) {id : Nat} {y : Bytes}
    (hk : ¬ stranger id) (hy : y <+: netY (prog id).wopt (capR ct hw)) (c : Nat) :
    (∃ o, sides prog id y = .error (.wait o) ∧ P id c y = .error (.wait o)) ∨
    (∃ o, P id c y = .error (.full o) ∧ o.length = c) ∨
    ∃ r r' o, sides prog id y = .ok (r, o) ∧ P id c y = .ok (r', o) := by
  by_cases hc : (sentBy (sides prog id y)).length ≤ c
  · rcases h.fits hk hy hc with h1 | h1
    · exact Or.inl h1
    · exact Or.inr (Or.inr h1)
  · right; left
    obtain ⟨o, ⟨h1, h2⟩ | ⟨r, h1, h2⟩⟩ := h id y hk hy
    · rw [h1] at hc
      have hc : ¬ o.length ≤ c := hc
      exact ⟨o.take c, by rw [h2 c, if_neg hc], by rw [List.length_take]; omega⟩
    · rw [h1] at hc
      have hc : ¬ o.length ≤ c := hc
      have := h2 c
      rw [if_neg hc] at this
      exact ⟨o.take c, this, by rw [List.length_take]; omega⟩

theorem PipeLike.fair (hp : PipeLike args.contentType args.highwater stranger prog P)
    (hg : ∀ id, ¬ stranger id → got id <+: netY (prog id).wopt (capR args.contentType args.highwater))
    {a : CapAct} (hf : PipeFair ⟨P, stranger, breaks, cw, cr⟩ got s a) :
    Fair ⟨sides prog, stranger, breaks⟩ got s a := by
  cases a <;> try trivial
  · rename_i id bs ch
    refine ⟨fun hk => ?_, hf.2⟩
    have h1 := hf.1 hk
    unfold PipeWorld.now at h1
    rw [hp.sent hk (hg id hk)] at h1
    exact h1.trans (List.take_prefix _ _)
  · rename_i id
    by_cases hk : stranger id
    · exact Or.inl hk
    · rcases hf with hf | hf | ⟨r, hf⟩
      · exact Or.inl hf
      · exact Or.inr (Or.inl hf)
      · refine Or.inr (Or.inr ?_)
        unfold PipeWorld.now at hf
        simp only at hf
        rcases hp.cases hk (hg id hk) _ with ⟨o, _, h3⟩ | ⟨o, h3, _⟩ | ⟨r1, r2, o, h2, _⟩
        · rw [h3] at hf; cases hf
        · rw [h3] at hf; cases hf
        · exact ⟨_, h2⟩

/-- What can happen over connections of limited capacity can happen over unlimited ones. -/
theorem PipeLike.run (hb : args.bufferSize < 2 ^ 31)
    (hs : ∀ id, ¬ stranger id → Suits args.contentType args.highwater (prog id))
    (hp : PipeLike args.contentType args.highwater stranger prog P)
    (h : PipeFleetRun args env ⟨P, stranger, breaks, cw, cr⟩ s got) :
    FleetRun args env ⟨sides prog, stranger, breaks⟩ s got := by
  induction h with
  | start e => exact .start e
  | act h hf e ih =>
    exact .act ih (hp.fair ((fleet_inv hb hs ih).sent hb hs) hf) e
  | deliver h hd ih => exact .deliver ih hd.1

/-- If nothing can move, the client has ended. -/
theorem PipeLike.progress (hb : args.bufferSize < 2 ^ 31) (hcw : 1 ≤ cw) (hcr : 1 ≤ cr)
    (hs : ∀ id, ¬ stranger id → Suits args.contentType args.highwater (prog id))
    (hp : PipeLike args.contentType args.highwater stranger prog P)
    (h : PipeFleetRun args env ⟨P, stranger, breaks, cw, cr⟩ s got) (hx : s.exited = none) (id : Nat)
    (hk : ¬ stranger id) (hbr : ¬ breaks id) (hacc : .accepted id ∈ s.log)
    (hq : PipeSettled ⟨P, stranger, breaks, cw, cr⟩ s got id) :
    ∃ r r' o, sides prog id (got id) = .ok (r, o) ∧
      P id ((receivedFrom id s.log).length + cw) (got id) = .ok (r', o) := by
  have hr := hp.run hb hs h
  have hi := fleet_inv hb hs hr
  have hy := hi.sent hb hs id hk
  have hnow : ∀ z, P id ((receivedFrom id s.log).length + cw) (got id) = z →
      PipeWorld.now ⟨P, stranger, breaks, cw, cr⟩ got s id = z := fun z hz => hz
  -- a client that waits has read everything the server has sent
  have hread : ∀ o, P id ((receivedFrom id s.log).length + cw) (got id) = .error (.wait o) →
      got id = sentTo id s.log := by
    intro o ho
    obtain ⟨u, hu⟩ := hi.got id
    cases u with
    | nil => rw [← hu, List.append_nil]
    | cons b u => exact absurd ⟨⟨u, by simp [← hu]⟩, fun _ => ⟨o, hnow _ ho⟩⟩ (hq.deliver b)
  cases hc : s.conns id with
  | none =>
    have h1 := hi.conn hx id hk hbr hacc hc
    obtain ⟨acts, e, hpol⟩ := hi.hist
    have h2 := (capture_sofar_partial args env acts s hb hpol e id).2
    have hall : receivedFrom id s.log = (prog id).all := by
      rw [h1] at h2
      have h2 := h2.length_le
      rw [replyAll, List.length_append, wire_finish_length] at h2
      rcases ((hs id hk).served (hi.part id hk)).2 with ⟨_, h3⟩ | ⟨_, _, ph, ds, h3, _⟩ | ⟨h3, _⟩
      · rw [h3] at h2
        simp only [List.flatMap_nil, List.length_nil] at h2
        omega
      · rw [h3] at h2
        simp only [List.flatMap_cons, List.flatMap_nil, List.append_nil] at h2
        omega
      · exact h3
    have hfit : (sentBy (sides prog id (got id))).length ≤ (receivedFrom id s.log).length + cw := by
      have := (side_all (hs id hk) hy).length_le
      rw [hall]
      exact Nat.le_trans this (by omega)
    rcases hp.fits hk hy hfit with ⟨o, h3, h4⟩ | ⟨r, r', o, h3, h4⟩
    · exfalso
      have h5 := hread o h4
      rw [h1] at h5
      rcases writer_at (hs id hk).net hy with ⟨g1, _⟩ | ⟨_, g1, _⟩ | ⟨_, w, g2, _⟩
      · rw [h5, netA, (hs id hk).common] at g1
        simp only [List.length_append] at g1
        omega
      · exact absurd (h5.trans (hs id hk).replyAll.symm) g1
      · have g2 : sides prog id (got id) = _ := g2
        rw [h3] at g2; cases g2
    · exact ⟨r, r', o, h3, h4⟩
  | some c =>
    have hall : receivedFrom id s.log = sentBy (sides prog id (got id)) := by
      refine (hi.recv id hk).eq_of_length_le (Nat.not_lt.1 fun hlt => ?_)
      obtain ⟨b, hb'⟩ := next_byte (hi.recv id hk) hlt hcw
      refine hi.takes hb hs hx id hk hc (hb'.trans (List.take_prefix _ _)) (hq.recv _ _ ?_)
      refine ⟨fun _ => ?_, fun h' => absurd h' hk⟩
      unfold PipeWorld.now
      rw [hp.sent hk hy]
      exact hb'
    rcases hp.fits hk hy (c := (receivedFrom id s.log).length + cw) (by rw [hall]; omega) with
      ⟨o, h3, h4⟩ | ⟨r, r', o, h3, h4⟩
    · exfalso
      have h5 := hread o h4
      have hout : c.output = [] := by
        by_cases ho : c.output = []
        · exact ho
        · refine absurd (hq.send 1 fun _ => ?_) (send_moves hx hc ho)
          rw [h5]
          exact Nat.add_le_add_left hcr _
      have hset : Settled ⟨sides prog, stranger, breaks⟩ s got id := by
        refine ⟨?_, ?_, ?_⟩
        · intro bs ch hf
          have h6 := (hf.1 hk).length_le
          have h7 : (sentBy (sides prog id (got id))).length = (receivedFrom id s.log).length := by rw [hall]
          simp only [List.length_append] at h6
          have : bs = [] := List.length_eq_zero_iff.1 (by omega)
          subst this
          unfold Capture.step
          rw [hx]
          simp [hc]
        · intro k
          unfold Capture.step
          rw [hx]
          simp only [Option.isSome_none, Bool.false_eq_true, if_false, hc, hout, List.length_nil]
          rw [if_neg (by omega)]
        · intro bs hd
          rw [h5] at hd
          have := hd.length_le
          rw [List.length_append] at this
          exact List.length_eq_zero_iff.1 (by omega)
      obtain ⟨⟨w, o', h6⟩, _⟩ := fleet_progress args env prog stranger breaks s got hb hs hr hx id hk hbr hacc hset
      have h6 : sides prog id (got id) = _ := h6
      rw [h3] at h6
      cases h6
    · exact ⟨r, r', o, h3, h4⟩

end

/-- Programs that use the writer. -/
theorem pipes_like {ct : Bytes} {hw : Nat} {stranger : Nat → Prop} {prog : Nat → Client}
    (hs : ∀ id, ¬ stranger id → Suits ct hw (prog id)) : PipeLike ct hw stranger prog (pipes prog) := by
  intro id y hk hy
  rcases writer_at (hs id hk).net hy with ⟨_, h2⟩ | ⟨_, _, h2⟩ | ⟨_, w, h2, _⟩
  · exact ⟨_, Or.inl ⟨h2, fun c => (writerPipe_cut _ _ c y).2 _ h2⟩⟩
  · exact ⟨_, Or.inl ⟨h2, fun c => (writerPipe_cut _ _ c y).2 _ h2⟩⟩
  · refine ⟨_, Or.inr ⟨_, h2, fun c => ?_⟩⟩
    have := (writerPipe_cut (prog id).wopt (prog id).batches c y).1 _ _ _ h2
    split
    · rename_i hle; rw [if_pos hle] at this; exact ⟨_, this⟩
    · rename_i hle; rw [if_neg hle] at this; exact this

/-- Programs with an I/O thread. -/
theorem ioPipes_like {ct : Bytes} {hw : Nat} {stranger : Nat → Prop} {prog : Nat → IoClient} {c : Nat → Client}
    (h : ∀ id y, ¬ stranger id → y <+: netY (c id).wopt (capR ct hw) →
      (∃ o, (prog id).side y = .error (.wait o) ∧ (c id).side y = .error (.wait o)) ∨
      ∃ st o r, (prog id).side y = .ok (st, o) ∧ Finished st ∧ (c id).side y = .ok (r, o)) :
    PipeLike ct hw stranger c fun id => (prog id).pipe := by
  intro id y hk hy
  rcases h id y hk hy with ⟨o, h1, h2⟩ | ⟨st, o, r, h1, _, h2⟩
  · exact ⟨o, Or.inl ⟨h2, fun k => (ioPipe_cut (prog id) k y).2 o h1⟩⟩
  · refine ⟨o, Or.inr ⟨r, h2, fun k => ?_⟩⟩
    have := (ioPipe_cut (prog id) k y).1 _ _ h1
    split
    · rename_i hle; rw [if_pos hle] at this; exact ⟨_, this⟩
    · rename_i hle; rw [if_neg hle] at this; exact this

end Fstrm
