import Verif.Lemmas.Fleet
import Verif.Props.Capture

/-! Invariant of the server and its clients. -/

set_option autoImplicit false

namespace Fstrm

open Spec Props

theorem capRun_snoc : ∀ (acts : List CapAct) (a : CapAct) {s s' : Capture}, s.run acts = .ok s' →
    s.run (acts ++ [a]) = s'.step a := by
  intro acts
  induction acts with
  | nil =>
    intro a s s' h
    cases h
    show (s.step a >>= fun s => Capture.run s []) = s.step a
    cases s.step a <;> rfl
  | cons b r ih =>
    intro a s s' h
    unfold Capture.run at h
    obtain ⟨s1, e1, h⟩ := Exec.bind_eq_ok.1 h
    show (s.step b >>= fun s => Capture.run s (r ++ [a])) = s'.step a
    rw [e1]
    exact ih a h

theorem outcome_snoc {args : CapArgs} {env : CapEnv} {acts : List CapAct} {a : CapAct}
    {s s' : Capture} (h : outcome args env acts = .ok s) (e : s.step a = .ok s') :
    outcome args env (acts ++ [a]) = .ok s' := by
  unfold outcome at h ⊢
  obtain ⟨s0, e0, h⟩ := Exec.bind_eq_ok.1 h
  rw [e0]
  show s0.run _ = _
  rw [capRun_snoc acts a h, e]

theorem polite_snoc {args : CapArgs} {env : CapEnv} {acts : List CapAct} {a : CapAct}
    {s : Capture} (hp : Polite args env acts) (h : outcome args env acts = .ok s)
    (ha : ∀ id bs ch, a = .recv id bs ch →
      ∀ n, .skipped n ∈ items args.highwater (receivedFrom id s.log ++ bs) → n < 2 ^ 32) :
    Polite args env (acts ++ [a]) := by
  intro before id bs ch after s1 h1 h2 n hn
  rcases List.append_eq_append_iff.1 h1 with ⟨u, hu1, hu2⟩ | ⟨u, hu1, hu2⟩
  · cases u with
    | nil =>
      rw [List.append_nil] at hu1
      rw [hu1, h] at h2
      cases h2
      have := (List.cons.inj hu2).1
      exact ha id bs ch this n hn
    | cons x xs => simp at hu2
  · cases u with
    | nil =>
      rw [List.append_nil] at hu1
      rw [← hu1, h] at h2
      cases h2
      have := (List.cons.inj hu2).1
      exact ha id bs ch this.symm n hn
    | cons x xs =>
      rw [List.cons_append] at hu2
      obtain ⟨hx, _⟩ := List.cons.inj hu2
      subst hx
      exact hp before id bs ch xs s1 hu1 h2 n hn

/-- Invariant. -/
structure FleetInv (args : CapArgs) (env : CapEnv) (prog : Nat → Client)
    (stranger breaks : Nat → Prop) (s : Capture) (got : Nat → Bytes) : Prop where
  hist : ∃ acts, outcome args env acts = .ok s ∧ Polite args env acts
  part : ∀ id, ¬ stranger id → receivedFrom id s.log <+: (prog id).all
  recv : ∀ id, ¬ stranger id → receivedFrom id s.log <+: sentBy ((prog id).side (got id))
  got : ∀ id, got id <+: sentTo id s.log
  done : ∀ id, ¬ stranger id → (CFrame.wire ⟨.accept, [args.contentType]⟩).length < (sentTo id s.log).length →
    recordedFrom id s.log = (prog id).frames.map dataFrame
  conn : s.exited = none → ∀ id, ¬ stranger id → ¬ breaks id → .accepted id ∈ s.log → s.conns id = none →
    sentTo id s.log = replyAll args.contentType

section
variable {args : CapArgs} {env : CapEnv} {prog : Nat → Client} {stranger breaks : Nat → Prop} {s : Capture} {got : Nat → Bytes}

theorem served_bounds {ct : Bytes} {hw : Nat} {p : Client} (h : Suits ct hw p) {x : Bytes}
    (hx : x <+: p.all) :
    (serve ct (items hw x)).recorded <+: p.frames ∧
    (serve ct (items hw x)).replies.flatMap CFrame.wire <+: replyAll ct ∧
    (serve ct (items hw x)).phase ≠ none := by
  rcases (h.served hx).2 with ⟨_, h1⟩ | ⟨_, _, ph, ds, h1, h2, _⟩ | ⟨_, h1⟩
  · rw [h1]; exact ⟨List.nil_prefix, List.nil_prefix, by nofun⟩
  · rw [h1]
    exact ⟨h2, by simp [replyAll], by nofun⟩
  · rw [h1]
    exact ⟨List.prefix_refl _, by simp [replyAll], by nofun⟩

theorem FleetInv.sofar (hb : args.bufferSize < 2 ^ 31)
    (hs : ∀ id, ¬ stranger id → Suits args.contentType args.highwater (prog id))
    (h : FleetInv args env prog stranger breaks s got) (id : Nat) (hk : ¬ stranger id) :
    recordedFrom id s.log <+: (prog id).frames.map dataFrame ∧
    sentTo id s.log <+: replyAll args.contentType := by
  obtain ⟨acts, e, hp⟩ := h.hist
  obtain ⟨h1, h2⟩ := capture_sofar_partial args env acts s hb hp e id
  obtain ⟨b1, b2, _⟩ := served_bounds (hs id hk) (h.part id hk)
  exact ⟨h1.trans (b1.map _), h2.trans b2⟩

theorem FleetInv.sent (hb : args.bufferSize < 2 ^ 31)
    (hs : ∀ id, ¬ stranger id → Suits args.contentType args.highwater (prog id))
    (h : FleetInv args env prog stranger breaks s got) (id : Nat) (hk : ¬ stranger id) :
    got id <+: netY (prog id).wopt (capR args.contentType args.highwater) := by
  rw [(hs id hk).replyAll]
  exact (h.got id).trans (h.sofar hb hs id hk).2

theorem side_all {ct : Bytes} {hw : Nat} {p : Client} (h : Suits ct hw p) {y : Bytes}
    (hy : y <+: netY p.wopt (capR ct hw)) : sentBy (p.side y) <+: p.all := by
  unfold Client.side
  rw [writer_sent h.net hy]
  split
  · exact List.prefix_append _ _
  · exact List.prefix_refl _

/-- Moves of the network keep the server polite. -/
theorem FleetInv.polite (hb : args.bufferSize < 2 ^ 31)
    (hs : ∀ id, ¬ stranger id → Suits args.contentType args.highwater (prog id))
    (h : FleetInv args env prog stranger breaks s got) {a : CapAct} (hf : Fair ⟨sides prog, stranger, breaks⟩ got s a)
    {acts : List CapAct} (e : outcome args env acts = .ok s) (hp : Polite args env acts) :
    Polite args env (acts ++ [a]) := by
  refine polite_snoc hp e ?_
  intro id bs ch ha
  subst ha
  obtain ⟨h1, h2⟩ := hf
  by_cases hk : stranger id
  · have ha := (inv_of_outcome hb hp e).2
    rw [ha] at h2
    exact h2 hk
  · have : receivedFrom id s.log ++ bs <+: (prog id).all :=
      List.IsPrefix.trans (h1 hk) (side_all (hs id hk) (h.sent hb hs id hk))
    exact fun n hn => absurd hn (((hs id hk).served this).1 n)

theorem FleetInv.step (hb : args.bufferSize < 2 ^ 31)
    (hs : ∀ id, ¬ stranger id → Suits args.contentType args.highwater (prog id))
    (h : FleetInv args env prog stranger breaks s got) {a : CapAct} (hf : Fair ⟨sides prog, stranger, breaks⟩ got s a) {s' : Capture}
    (e' : s.step a = .ok s') : FleetInv args env prog stranger breaks s' got := by
  obtain ⟨acts, e, hp⟩ := h.hist
  have hp' := h.polite hb hs hf e hp
  have eo := outcome_snoc e e'
  obtain ⟨es, l⟩ := step_log e'
  have hrecv : ∀ id, ¬ stranger id →
      receivedFrom id s'.log <+: sentBy ((prog id).side (got id)) := by
    intro id hk
    rw [l.log, receivedFrom_append]
    rcases l.recv id with h0 | ⟨bs, ch, ha, h0⟩
    · rw [h0, List.append_nil]; exact h.recv id hk
    · rw [h0]; subst ha; exact hf.1 hk
  have hpart : ∀ id, ¬ stranger id → receivedFrom id s'.log <+: (prog id).all := fun id hk =>
    (hrecv id hk).trans (side_all (hs id hk) (h.sent hb hs id hk))
  have hgot : ∀ id, got id <+: sentTo id s'.log := by
    intro id
    rw [l.log, sentTo_append]
    exact (h.got id).trans (List.prefix_append _ _)
  have hsofar : ∀ id, ¬ stranger id → recordedFrom id s'.log <+: (prog id).frames.map dataFrame ∧
      sentTo id s'.log <+: replyAll args.contentType := by
    intro id hk
    obtain ⟨h1, h2⟩ := capture_sofar_partial args env _ s' hb hp' eo id
    obtain ⟨b1, b2, _⟩ := served_bounds (hs id hk) (hpart id hk)
    exact ⟨h1.trans (b1.map _), h2.trans b2⟩
  refine ⟨⟨_, eo, hp'⟩, hpart, hrecv, hgot, ?_, ?_⟩
  · intro id hk hlen
    rcases l.sent id with h0 | ⟨h0, _⟩
    · have h1 : sentTo id s'.log = sentTo id s.log := by
        rw [l.log, sentTo_append, h0, List.append_nil]
      rw [h1] at hlen
      have h2 := h.done id hk hlen
      have h3 := (hsofar id hk).1
      rw [l.log, recordedFrom_append, h2] at h3 ⊢
      have h4 := List.IsPrefix.eq_of_length_le h3 (by simp)
      exact h4
    · rw [capture_recorded_partial args env _ s' hb hp' eo (by rw [h0]; nofun) id]
      have h2 := (capture_sofar_partial args env _ s' hb hp' eo id).2
      rcases ((hs id hk).served (hpart id hk)).2 with ⟨_, h1⟩ | ⟨_, _, ph, ds, h1, _⟩ | ⟨_, h1⟩
      · rw [h1] at h2
        have := h2.length_le
        simp only [List.flatMap_nil, List.length_nil] at this
        omega
      · rw [h1] at h2
        have := h2.length_le
        simp at this
        omega
      · rw [h1]
  · intro hx id hk hbr hacc hc
    have hl := capture_active args env _ s' eo
    have hl0 := capture_active args env _ s e
    have hx0 : s.exited = none := by
      cases hh : s.exited with
      | none => rfl
      | some k =>
        rw [step_exited (by rw [hh]; rfl)] at e'
        cases e'
        rw [hh] at hx
        cases hx
    rw [l.log, List.mem_append] at hacc
    rcases hacc with hacc | hacc
    · cases hc0 : s.conns id with
      | none =>
        have h1 := h.conn hx0 id hk hbr hacc hc0
        have h2 := (hsofar id hk).2
        rw [l.log, sentTo_append, h1] at h2 ⊢
        exact List.IsPrefix.eq_of_length_le h2 (by simp)
      | some c =>
        have hact : id ∈ active s.log := (hl0.2 id).2 (by rw [hc0]; rfl)
        have hact' : id ∉ active s'.log := fun h' => by
          have := (hl.2 id).1 h'; rw [hc] at this; cases this
        rcases (capture_hangup_partial args env acts a s s' id hb hp' e e' hx hact).1 hact' with
          ha | ⟨bs, ch, ha, hph⟩ | ⟨k, ha, hph, hsn⟩
        · subst ha
          obtain ⟨r, hr⟩ : ∃ r, (prog id).side (got id) = .ok r := by
            rcases hf with hf | hf | hf
            · exact absurd hf hk
            · exact absurd hf hbr
            · exact hf
          have hy := h.sent hb hs id hk
          rcases writer_at (hs id hk).net hy with ⟨_, h2⟩ | ⟨_, _, h2⟩ | ⟨h1, _⟩
          · rw [Client.side, h2] at hr; cases hr
          · rw [Client.side, h2] at hr; cases hr
          · rw [(hs id hk).replyAll] at h1
            have := hgot id
            rw [h1] at this
            exact (hsofar id hk).2.eq_of_length_le this.length_le
        · exact absurd hph (served_bounds (hs id hk) (hpart id hk)).2.2
        · rw [hsn]
          rcases ((hs id hk).served (hpart id hk)).2 with ⟨_, h1⟩ | ⟨_, _, ph, ds, h1, _, h3⟩ | ⟨_, h1⟩
          · rw [h1] at hph; cases hph
          · rw [h1] at hph; cases hph; exact absurd rfl h3
          · rw [h1]; simp [replyAll]
    · have := l.acc id hacc
      rw [hc] at this
      cases this

theorem FleetInv.start (e : Capture.start args env = .ok s) :
    FleetInv args env prog stranger breaks s (fun _ => []) := by
  have hq := start_quiet e
  refine ⟨⟨[], by unfold outcome; rw [e]; rfl, ?_⟩, ?_, ?_, ?_, ?_, ?_⟩
  · intro as1 id bs ch as2 s1 h1
    simp at h1
  · intro id _; rw [(quiet_events hq).1]; exact List.nil_prefix
  · intro id _; rw [(quiet_events hq).1]; exact List.nil_prefix
  · intro id; exact List.nil_prefix
  · intro id _ hlen
    rw [(quiet_events hq).2] at hlen
    simp at hlen
  · intro _ id _ _ hacc
    exact absurd rfl ((hq _ hacc).1 id)

/-- Sending moves something if there is something to send. -/
theorem send_moves {s : Capture} {id : Nat} {c : Conn} (hx : s.exited = none) (hc : s.conns id = some c)
    (ho : c.output ≠ []) : s.step (.send id 1) ≠ .ok s := by
  intro this
  unfold Capture.step at this
  rw [hx] at this
  dsimp only at this
  rw [hc] at this
  simp only [Option.isSome_none, Bool.false_eq_true, if_false, Nat.le_refl, true_and] at this
  rw [if_pos (show 1 ≤ c.output.length from List.length_pos_iff.2 ho)] at this
  have hl : ∀ t : Capture, t.log.length > s.log.length → Except.ok t ≠ (Except.ok s : Exec Capture) := by
    intro t ht h'; cases h'; omega
  split at this
  · refine hl _ ?_ this
    unfold Capture.cbWrite
    split
    · simp [Capture.emit, Capture.setConn]
    · rw [(closeConn_fields _ id).2.2.2.2.2.2.1]; simp [Capture.emit, Capture.setConn]
  · exact hl _ (by simp [Capture.emit, Capture.setConn]) this

/-- The server takes the next byte of a client whose connection is open. -/
theorem FleetInv.takes (hb : args.bufferSize < 2 ^ 31)
    (hs : ∀ id, ¬ stranger id → Suits args.contentType args.highwater (prog id))
    (h : FleetInv args env prog stranger breaks s got) (hx : s.exited = none) (id : Nat) (hk : ¬ stranger id)
    {c : Conn} (hc : s.conns id = some c) {b : UInt8}
    (hnext : receivedFrom id s.log ++ [b] <+: sentBy ((prog id).side (got id))) :
    s.step (.recv id [b] (c.input ++ [[b]])) ≠ .ok s := by
  intro h1
  obtain ⟨acts, e, hp⟩ := h.hist
  obtain ⟨hinv, ha⟩ := inv_of_outcome hb hp e
  have hid := hinv.ids (by rw [hx]; nofun) id
  unfold IdInv at hid
  rw [hc, ha] at hid
  dsimp only at hid
  have hskip : c.bytesSkip = 0 := by
    by_cases h0 : c.bytesSkip = 0
    · exact h0
    · obtain ⟨n, hn⟩ := hid.pre.skip h0
      exact absurd hn (((hs id hk).served (h.part id hk)).1 n)
  have hroom := nextItem_none_room (by have := (hs id hk).stopFits; omega) (hid.calm hskip)
  have hf : Fair ⟨sides prog, stranger, breaks⟩ got s (.recv id [b] (c.input ++ [[b]])) :=
    ⟨fun _ => hnext, fun h' => absurd h' hk⟩
  have hp' := h.polite hb hs hf e hp
  have h2 := (capture_answers_partial args env acts s s id [b] _ hb hp' e hx c hc (by simp)
    (by simp) (by simp [hid.pre.chains])
    (by simp only [evLength, List.flatten_append, List.length_append, List.flatten_cons,
          List.flatten_nil, List.append_nil, List.length_singleton]; omega) h1 hx).1
  have := congrArg List.length h2
  simp at this

/-- With nothing left to do, a client that was accepted has finished. -/
theorem FleetInv.settled (hb : args.bufferSize < 2 ^ 31)
    (hs : ∀ id, ¬ stranger id → Suits args.contentType args.highwater (prog id))
    (h : FleetInv args env prog stranger breaks s got) (hx : s.exited = none) (id : Nat) (hk : ¬ stranger id)
    (hbr : ¬ breaks id) (hq : Settled ⟨sides prog, stranger, breaks⟩ s got id) (hacc : .accepted id ∈ s.log) : got id = replyAll args.contentType := by
  obtain ⟨acts, e, hp⟩ := h.hist
  obtain ⟨hinv, ha⟩ := inv_of_outcome hb hp e
  have hgot : got id = sentTo id s.log := by
    obtain ⟨u, hu⟩ := h.got id
    have := hq.deliver u (by rw [hu]; exact List.prefix_refl _)
    rw [← hu, this, List.append_nil]
  rw [hgot]
  cases hc : s.conns id with
  | none => exact h.conn hx id hk hbr hacc hc
  | some c =>
    have hid := hinv.ids (by rw [hx]; nofun) id
    unfold IdInv at hid
    rw [hc, ha] at hid
    dsimp only at hid
    -- nothing to send
    have hout : c.output = [] := by
      by_cases ho : c.output = []
      · exact ho
      · exact absurd (hq.send 1) (send_moves hx hc ho)
    have hrep := hid.pre.replies
    rw [hout, List.append_nil] at hrep
    -- nothing to receive
    have hall : receivedFrom id s.log = sentBy ((prog id).side (got id)) := by
      obtain ⟨u, hu⟩ := h.recv id hk
      cases u with
      | nil => rw [← hu, List.append_nil]
      | cons b u =>
        exfalso
        have hnext : receivedFrom id s.log ++ [b] <+: sentBy ((prog id).side (got id)) :=
          ⟨u, by simp [← hu]⟩
        exact h.takes hb hs hx id hk hc hnext
          (hq.recv [b] (c.input ++ [[b]]) ⟨fun _ => hnext, fun h' => absurd h' hk⟩)
    have hy := h.sent hb hs id hk
    have hsent := writer_sent (hs id hk).net hy
    rw [Client.side, hsent] at hall
    rcases ((hs id hk).served (h.part id hk)).2 with ⟨h1, h2⟩ | ⟨h1, h2, ph, ds, h3, _⟩ | ⟨_, h2⟩
    · exfalso
      rw [h2] at hrep
      simp only [List.flatMap_nil] at hrep
      rw [hgot, hrep, if_pos] at hall
      · rw [hall, types_eq] at h1
        omega
      · unfold netA
        rw [(hs id hk).common, length_wire1]
        simp only [List.length_nil]
        omega
    · exfalso
      rw [h3] at hrep
      simp only [List.flatMap_cons, List.flatMap_nil, List.append_nil] at hrep
      rw [hgot, hrep, if_neg] at hall
      · exact h2 hall
      · unfold netA
        rw [(hs id hk).common]
        omega
    · rw [hrep, h2]
      simp [replyAll]

theorem fleet_inv (hb : args.bufferSize < 2 ^ 31)
    (hs : ∀ id, ¬ stranger id → Suits args.contentType args.highwater (prog id))
    (h : FleetRun args env ⟨sides prog, stranger, breaks⟩ s got) : FleetInv args env prog stranger breaks s got := by
  induction h with
  | start e => exact FleetInv.start e
  | act h hf e ih => exact ih.step hb hs hf e
  | @deliver s got id bs h hd ih =>
    have hs1 := ih.sofar hb hs
    have hg : ∀ i, (if i = id then got id ++ bs else got i) <+: sentTo i s.log := by
      intro i
      split
      · subst_vars; exact hd
      · exact ih.got i
    refine ⟨ih.hist, ih.part, ?_, hg, ih.done, ih.conn⟩
    intro i hk
    refine (ih.recv i hk).trans ?_
    unfold Client.side
    refine writer_mono (hs i hk).net ?_ ?_
    · rw [(hs i hk).replyAll]
      exact (hg i).trans (hs1 i hk).2
    · split
      · subst_vars; exact List.prefix_append _ _
      · exact List.prefix_refl _

end
end Fstrm
