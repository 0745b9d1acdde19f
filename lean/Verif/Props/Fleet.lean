import Verif.Lemmas.FleetInv

/-!
# C72: the library's writers and `fstrm_capture`

Any number of client programs, each with a bidirectional writer of the library, are connected to one
`fstrm_capture`, some perhaps over connections that break, besides strangers that send
anything else. See `Verif.Spec.Fleet` for what can happen.
-/

set_option autoImplicit false

namespace Fstrm.Props

open Spec (items CapEv CFrame CType Client Side Suits sides Fair FleetRun World Settled dataFrame receivedFrom recordedFrom
  recordedAll sentTo sentBy stream)

/-- **C72, safety.** The server gets through everything that can happen next, and every client is
waiting for bytes of the server or has finished with all calls successful, having sent READY
and the stream of its frames. -/
theorem fleet_safe (args : CapArgs) (env : CapEnv) (prog : Nat → Client)
    (stranger breaks : Nat → Prop) (s : Capture) (got : Nat → Bytes) (hb : args.bufferSize < 2 ^ 31)
    (hs : ∀ id, ¬ stranger id → Suits args.contentType args.highwater (prog id))
    (h : FleetRun args env ⟨sides prog, stranger, breaks⟩ s got) :
    (∀ a, Fair ⟨sides prog, stranger, breaks⟩ got s a → ∃ s', s.step a = .ok s') ∧
    ∀ id, ¬ stranger id → (∃ sent, (prog id).side (got id) = .error (.wait sent)) ∨
      ∃ w, (prog id).side (got id) = .ok ((List.replicate ((prog id).batches.length + 2) .success, w),
        CFrame.wire ⟨.ready, (prog id).types⟩ ++ stream (prog id).types.head? (prog id).frames) := by
  have hi := fleet_inv hb hs h
  constructor
  · intro a ha
    obtain ⟨acts, e, hp⟩ := hi.hist
    obtain ⟨s', e'⟩ := capture_safe_partial args env _ hb (hi.polite hb hs ha e hp)
    unfold outcome at e e'
    obtain ⟨s0, e0, e⟩ := Exec.bind_eq_ok.1 e
    rw [e0] at e'
    exact ⟨s', (capRun_snoc acts a e).symm.trans e'⟩
  · intro id hk
    rcases writer_at (hs id hk).net (hi.sent hb hs id hk) with ⟨_, h2⟩ | ⟨_, _, h2⟩ | ⟨_, w, h2, _⟩
    · exact Or.inl ⟨_, h2⟩
    · exact Or.inl ⟨_, h2⟩
    · exact Or.inr ⟨w, h2⟩

/-- **C72, delivery.** What the server has written for a client is, in order and without gaps, a
beginning of the frames the client submitted; if the client has finished, it is all of them, and all
calls of the client succeeded. This holds whatever happened to the server, to the connection and
whatever other clients and strangers did. -/
theorem fleet_delivers (args : CapArgs) (env : CapEnv) (prog : Nat → Client)
    (stranger breaks : Nat → Prop) (s : Capture) (got : Nat → Bytes) (hb : args.bufferSize < 2 ^ 31)
    (hs : ∀ id, ¬ stranger id → Suits args.contentType args.highwater (prog id))
    (h : FleetRun args env ⟨sides prog, stranger, breaks⟩ s got) (id : Nat) (hk : ¬ stranger id) :
    recordedFrom id s.log <+: (prog id).frames.map dataFrame ∧
    ∀ rs w sent, (prog id).side (got id) = .ok ((rs, w), sent) →
      (∀ r ∈ rs, r = .success) ∧ recordedFrom id s.log = (prog id).frames.map dataFrame := by
  have hi := fleet_inv hb hs h
  refine ⟨(hi.sofar hb hs id hk).1, ?_⟩
  intro rs w sent he
  rcases writer_at (hs id hk).net (hi.sent hb hs id hk) with ⟨_, h2⟩ | ⟨_, _, h2⟩ | ⟨h1, w', h2, _⟩
  · rw [Client.side, h2] at he; cases he
  · rw [Client.side, h2] at he; cases he
  · rw [Client.side, h2] at he
    cases he
    refine ⟨fun r hr => (List.mem_replicate.1 hr).2, ?_⟩
    refine hi.done id hk ?_
    have h3 := (hi.got id).length_le
    rw [h1, (hs id hk).replyAll, List.length_append, wire_finish_length] at h3
    omega

/-- **C72, termination.** The bytes moved for a client are bounded, and every move of the network
that is not refused adds to them. -/
theorem fleet_bounded (args : CapArgs) (env : CapEnv) (prog : Nat → Client)
    (stranger breaks : Nat → Prop) (s : Capture) (got : Nat → Bytes) (hb : args.bufferSize < 2 ^ 31)
    (hs : ∀ id, ¬ stranger id → Suits args.contentType args.highwater (prog id))
    (h : FleetRun args env ⟨sides prog, stranger, breaks⟩ s got) (id : Nat) (hk : ¬ stranger id) :
    (receivedFrom id s.log <+:
      CFrame.wire ⟨.ready, (prog id).types⟩ ++ stream (prog id).types.head? (prog id).frames) ∧
    (got id <+: sentTo id s.log) ∧
    (sentTo id s.log <+:
      CFrame.wire ⟨.accept, [args.contentType]⟩ ++ CFrame.wire ⟨.finish, []⟩) ∧
    (∀ bs chains s', s.step (.recv id bs chains) = .ok s' → s' ≠ s →
      (receivedFrom id s.log).length < (receivedFrom id s'.log).length) ∧
    (∀ k s', s.step (.send id k) = .ok s' → s' ≠ s →
      (sentTo id s.log).length < (sentTo id s'.log).length) := by
  have hi := fleet_inv hb hs h
  exact ⟨hi.part id hk, hi.got id, (hi.sofar hb hs id hk).2,
    fun bs ch s' e hne => (step_moves e hne).1 id bs ch rfl,
    fun k s' e hne => (step_moves e hne).2 id k rfl⟩

/-- **C72, progress.** While the server runs, the network always has something to do for a client
that was accepted and whose connection does not break, until it has finished with success; then all
its frames have been written. What other clients and strangers do or fail to do is no obstacle. -/
theorem fleet_progress (args : CapArgs) (env : CapEnv) (prog : Nat → Client)
    (stranger breaks : Nat → Prop) (s : Capture) (got : Nat → Bytes) (hb : args.bufferSize < 2 ^ 31)
    (hs : ∀ id, ¬ stranger id → Suits args.contentType args.highwater (prog id))
    (h : FleetRun args env ⟨sides prog, stranger, breaks⟩ s got) (hx : s.exited = none)
    (id : Nat) (hk : ¬ stranger id) (hbr : ¬ breaks id) (hacc : .accepted id ∈ s.log)
    (hq : Settled ⟨sides prog, stranger, breaks⟩ s got id) :
    (∃ w sent, (prog id).side (got id) =
      .ok ((List.replicate ((prog id).batches.length + 2) .success, w), sent)) ∧
    recordedFrom id s.log = (prog id).frames.map dataFrame := by
  have hi := fleet_inv hb hs h
  have hg := hi.settled hb hs hx id hk hbr hq hacc
  rcases writer_at (hs id hk).net (hi.sent hb hs id hk) with ⟨h1, _⟩ | ⟨_, h1, _⟩ | ⟨_, w, h2, _⟩
  · exfalso
    rw [hg, netA, (hs id hk).common] at h1
    simp only [List.length_append] at h1
    omega
  · exact absurd (hg.trans (hs id hk).replyAll.symm) h1
  · exact ⟨⟨w, _, h2⟩, ((fleet_delivers args env prog stranger breaks s got hb hs h id hk).2 _ _ _ h2).2⟩

theorem recordedFrom_sublist (id : Nat) (log : List CapEv) :
    (recordedFrom id log).Sublist (recordedAll log) := by
  unfold recordedFrom recordedAll
  induction log with
  | nil => exact List.Sublist.refl _
  | cons e r ih =>
    cases e <;> simp only [List.filterMap_cons] <;> try exact ih
    split
    · rename_i h
      split at h
      · cases h
      · exact ih.cons _
    · rename_i h
      split at h
      · cases h; exact ih.cons_cons _
      · cases h

/-- **C72, output files.** If no output file was overwritten and no output failed, the files hold
START, data frames and, except for the one being written, STOP; the data frames of all files together
contain those of every client that has finished, in the order submitted. -/
theorem fleet_files (args : CapArgs) (env : CapEnv) (prog : Nat → Client)
    (stranger breaks : Nat → Prop) (s : Capture) (got : Nat → Bytes) (hb : args.bufferSize < 2 ^ 31)
    (hs : ∀ id, ¬ stranger id → Suits args.contentType args.highwater (prog id))
    (h : FleetRun args env ⟨sides prog, stranger, breaks⟩ s got) (hc : ∀ i, .clobbered i ∉ s.log)
    (hf : ∀ i, .failed i ∉ s.log) :
    ∃ dss : List (List Bytes), dss.length = s.files.length ∧
      (∀ i ds, dss[i]? = some ds → s.files[i]? =
        if s.outputFile = some i then
          some (CFrame.wire ⟨.start, [args.contentType]⟩ ++ ds.flatMap dataFrame)
        else some (stream (some args.contentType) ds)) ∧
      ∀ id r, ¬ stranger id → (prog id).side (got id) = .ok r → (prog id).frames.Sublist dss.flatten := by
  have hi := fleet_inv hb hs h
  obtain ⟨acts, e, hp⟩ := hi.hist
  obtain ⟨dss, h1, h2, h3⟩ := capture_rotation_partial args env acts s hb hp e hc hf
  refine ⟨dss, h1, h3, ?_⟩
  rintro id ⟨⟨rs, w⟩, sent⟩ hk hr
  have h4 := ((fleet_delivers args env prog stranger breaks s got hb hs h id hk).2 rs w sent hr).2
  have h5 := recordedFrom_sublist id s.log
  rw [h4, h2] at h5
  have h6 := h5.map (List.drop 4)
  have h7 : ∀ l : List Bytes, (l.map dataFrame).map (List.drop 4) = l := by
    intro l
    rw [List.map_map]
    conv => rhs; rw [← List.map_id l]
    apply List.map_congr_left
    intro d _
    simp [dataFrame, Spec.be32]
  rw [h7, h7] at h6
  exact h6

/-! ## A sample run -/

/-- A move of the server or the network. -/
inductive FleetMove where
  | act (a : CapAct)
  | deliver (id : Nat) (bs : Bytes)

/-- A world in which the connections of `st` are those of strangers and those of `br` may break. -/
abbrev worldOf {α : Type} (side : Nat → Side α) (st br : List Nat) : World α :=
  ⟨side, fun id => id ∈ st, fun id => id ∈ br⟩

/-- Checks `Fair`. -/
def fairB {α : Type} (side : Nat → Side α) (st br : List Nat) (got : Nat → Bytes) (s : Capture) :
    CapAct → Bool
  | .recv id bs _ =>
    if id ∈ st then
      (items s.args.highwater (receivedFrom id s.log ++ bs)).all fun i =>
        match i with | .skipped n => decide (n < 2 ^ 32) | _ => true
    else (receivedFrom id s.log ++ bs).isPrefixOf (sentBy (side id (got id)))
  | .hangup id => decide (id ∈ st) || decide (id ∈ br) || (side id (got id)).toBool
  | _ => true

/-- Moves one after the other; an error if one is not possible. -/
def fleetExec {α : Type} (side : Nat → Side α) (st br : List Nat) :
    Capture → (Nat → Bytes) → List FleetMove → Exec (Capture × (Nat → Bytes))
  | s, got, [] => .ok (s, got)
  | s, got, .act a :: r =>
    if fairB side st br got s a then do
      let s ← s.step a
      fleetExec side st br s got r
    else .error .fuel
  | s, got, .deliver id bs :: r =>
    if (got id ++ bs).isPrefixOf (sentTo id s.log) then
      fleetExec side st br s (fun i => if i = id then got id ++ bs else got i) r
    else .error .fuel

theorem fairB_sound {α : Type} {side : Nat → Side α} {st br : List Nat} {got : Nat → Bytes}
    {s : Capture} {a : CapAct} (h : fairB side st br got s a = true) :
    Fair (worldOf side st br) got s a := by
  cases a <;> simp only [fairB, Fair] at h ⊢
  · split at h
    · rename_i hm
      refine ⟨fun h' => absurd hm h', fun _ n hn => ?_⟩
      have := List.all_eq_true.1 h _ hn
      simpa using this
    · rename_i hm
      exact ⟨fun _ => List.isPrefixOf_iff_prefix.1 h, fun h' => absurd h' hm⟩
  · simp only [Bool.or_eq_true, decide_eq_true_eq] at h
    rcases h with (h | h) | h
    · exact Or.inl h
    · exact Or.inr (Or.inl h)
    · cases hh : side _ (got _) with
      | error x => rw [hh] at h; cases h
      | ok r => exact Or.inr (Or.inr ⟨r, rfl⟩)

theorem fleetExec_sound {α : Type} {args : CapArgs} {env : CapEnv} {side : Nat → Side α}
    {st br : List Nat} : ∀ (ms : List FleetMove) {s s' : Capture} {got got' : Nat → Bytes},
    FleetRun args env (worldOf side st br) s got → fleetExec side st br s got ms = .ok (s', got') →
    FleetRun args env (worldOf side st br) s' got' := by
  intro ms
  induction ms with
  | nil => intro s s' got got' h e; cases e; exact h
  | cons m r ih =>
    intro s s' got got' h e
    cases m with
    | act a =>
      unfold fleetExec at e
      split at e
      · rename_i hf
        obtain ⟨s1, e1, e⟩ := Exec.bind_eq_ok.1 e
        exact ih (h.act (fairB_sound hf) e1) e
      · cases e
    | deliver id bs =>
      unfold fleetExec at e
      split at e
      · rename_i hf
        exact ih (h.deliver (List.isPrefixOf_iff_prefix.1 hf)) e
      · cases e

/-- Every client submits two batches with three frames. -/
def sampleProg (_ : Nat) : Client := ⟨some ⟨[[97]]⟩, [[[1, 2, 3], [7, 8]], [[9]]]⟩

theorem sampleProg_suits (id : Nat) :
    Suits (easyArgs 0).contentType (easyArgs 0).highwater (sampleProg id) :=
  show Suits [97] 262144 (sampleProg 0) from
  ⟨by decide +kernel, by decide +kernel, by intro c hc; cases hc; rfl, by decide +kernel,
    by decide +kernel, by decide +kernel, by decide +kernel, by decide +kernel, by decide +kernel⟩

/-- Three clients and a stranger. The stranger sends a frame and then READY again, which ends its
connection; the connection of client 2 breaks after its first frame; everything of clients 0 and 1 is
delivered in pieces; the output is rotated in between. -/
def sampleMoves : List FleetMove :=
  let ready := CFrame.wire ⟨.ready, [[97]]⟩
  let all := stream (some [97]) [[1, 2, 3], [7, 8], [9]]
  let accept := CFrame.wire ⟨.accept, [[97]]⟩
  let finish := CFrame.wire ⟨.finish, []⟩
  let odd := CFrame.wire ⟨.start, [[97]]⟩ ++ dataFrame [6] ++ ready
  [.act .accept, .act .accept, .act .accept, .act .accept,
    .act (.recv 1 ready [ready]), .act (.recv 0 (ready.take 9) [ready.take 9]),
    .act (.recv 2 ready [ready]), .act (.send 2 21), .deliver 2 accept,
    .act (.recv 2 (all.take 30) [all.take 30]), .act (.hangup 2),
    .act (.recv 3 (ready ++ odd) [ready ++ odd]),
    .act (.recv 0 (ready.drop 9) [ready.take 9, ready.drop 9]), .act (.send 0 20), .deliver 0 (accept.take 20),
    .act (.send 0 1), .act (.send 1 21), .deliver 1 accept, .act (.recv 1 (all.take 30) [all.take 30]),
    .deliver 0 (accept.drop 20), .act (.recv 0 all [all]), .act (.rename [98] [99]), .act .sigusr1,
    .act (.recv 1 (all.drop 30) [(all.take 30).drop 28, all.drop 30]), .act (.send 0 12),
    .act (.send 1 12), .deliver 0 finish, .deliver 1 finish]

/-- The sample run ends with clients 0 and 1 done, the server running and all frames in two files. -/
theorem sample_run : ∃ s got, FleetRun (easyArgs 0) easyEnv (worldOf (sides sampleProg) [3] [2]) s got ∧
    s.exited = none ∧
    s.nextId = 4 ∧ (∀ id < 2, s.conns id = none ∧ .accepted id ∈ s.log ∧
      got id = sentTo id s.log) ∧
    s.files = [stream (some [97]) [[1, 2, 3], [6], [1, 2, 3], [1, 2, 3], [7, 8], [9]],
      CFrame.wire ⟨.start, [[97]]⟩ ++ [[7, 8], [9]].flatMap dataFrame] ∧
    (s.log.any fun e => match e with | .clobbered _ => true | .failed _ => true | _ => false) =
      false ∧ ∀ id < 2, ((sampleProg id).side (got id)).toBool := by
  have h : (Capture.start (easyArgs 0) easyEnv >>= fun s => fleetExec (sides sampleProg) [3] [2] s (fun _ => [])
      sampleMoves).map (fun p => (p.1.exited, p.1.files,
        [decide (p.1.nextId = 4), (p.1.conns 0).isNone, (p.1.conns 1).isNone, p.1.log.any fun e => match e with | .clobbered _ => true | .failed _ => true | _ => false,
        decide (.accepted 0 ∈ p.1.log), decide (.accepted 1 ∈ p.1.log),
        decide (p.2 0 = sentTo 0 p.1.log), decide (p.2 1 = sentTo 1 p.1.log),
        ((sampleProg 0).side (p.2 0)).toBool, ((sampleProg 1).side (p.2 1)).toBool])) =
    .ok (none, [stream (some [97]) [[1, 2, 3], [6], [1, 2, 3], [1, 2, 3], [7, 8], [9]],
      CFrame.wire ⟨.start, [[97]]⟩ ++ [[7, 8], [9]].flatMap dataFrame],
      [true, true, true, false, true, true, true, true, true, true]) := by decide +kernel
  cases h0 : Capture.start (easyArgs 0) easyEnv with
  | error x => rw [h0] at h; cases h
  | ok s0 =>
    rw [h0, Exec.ok_bind] at h
    cases h1 : fleetExec (sides sampleProg) [3] [2] s0 (fun _ => []) sampleMoves with
    | error x => rw [h1] at h; cases h
    | ok p =>
      obtain ⟨s, got⟩ := p
      rw [h1] at h
      simp only [Except.map, Except.ok.injEq, Prod.mk.injEq, List.cons.injEq, decide_eq_true_eq,
        and_true] at h
      obtain ⟨a1, a5, a2, a3, a4, a6, a7, a8, a9, a10, a11, a12⟩ := h
      refine ⟨s, got, fleetExec_sound _ (.start h0) h1, a1, a2, ?_, ?_, a6, ?_⟩
      · intro id hid
        have : id = 0 ∨ id = 1 := by omega
        rcases this with rfl | rfl
        · exact ⟨Option.isNone_iff_eq_none.1 a3, a7, a9⟩
        · exact ⟨Option.isNone_iff_eq_none.1 a4, a8, a10⟩
      · exact a5
      · intro id hid
        have : id = 0 ∨ id = 1 := by omega
        rcases this with rfl | rfl
        · exact a11
        · exact a12

/-- The network has nothing left to do for a client whose connection the server has closed and to
which everything has been delivered. -/
theorem settled_of {α : Type} {w : World α} {s : Capture} {got : Nat → Bytes} {id : Nat}
    (hx : s.exited = none) (hc : s.conns id = none) (hg : got id = sentTo id s.log) :
    Settled w s got id := by
  refine ⟨?_, ?_, ?_⟩
  · intro bs chains _
    unfold Capture.step
    rw [hx]
    simp [hc]
  · intro k
    unfold Capture.step
    rw [hx]
    simp [hc]
  · intro bs hd
    rw [hg] at hd
    have := hd.length_le
    rw [List.length_append] at this
    exact List.length_eq_zero_iff.1 (by omega)

/-- The hypotheses of the theorems are met by the end of the sample run. -/
example : ∃ s got, FleetRun (easyArgs 0) easyEnv (worldOf (sides sampleProg) [3] [2]) s got ∧
    (easyArgs 0).bufferSize < 2 ^ 31 ∧
    (∀ id, Suits (easyArgs 0).contentType (easyArgs 0).highwater (sampleProg id)) ∧
    s.exited = none ∧ Settled (worldOf (sides sampleProg) [3] [2]) s got 1 ∧ .accepted 1 ∈ s.log ∧
    (∀ i, .clobbered i ∉ s.log) ∧ (∀ i, .failed i ∉ s.log) ∧
    (∃ r, (sampleProg 1).side (got 1) = .ok r) ∧ (sampleProg 1).frames = [[1, 2, 3], [7, 8], [9]] := by
  obtain ⟨s, got, h, hx, hn, hid, _, hl, hr⟩ := sample_run
  obtain ⟨hc, hacc, hg⟩ := hid 1 (by omega)
  refine ⟨s, got, h, by decide +kernel, sampleProg_suits, hx, settled_of hx hc hg, hacc,
    ?_, ?_, ?_, rfl⟩
  · intro i hi'
    have := List.any_eq_false.1 hl _ hi'
    simp at this
  · intro i hi'
    have := List.any_eq_false.1 hl _ hi'
    simp at this
  · have := hr 1 (by omega)
    cases hh : (sampleProg 1).side (got 1) with
    | error x => rw [hh] at this; cases this
    | ok r => exact ⟨r, rfl⟩

end Fstrm.Props
