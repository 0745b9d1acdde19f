import Verif.Lemmas.ReplayFleet
import Verif.Props.Fleet

/-!
# C111: from files through `fstrm_replay` and `fstrm_capture` to what `fstrm_dump` prints

Any number of `fstrm_replay` processes are connected to one `fstrm_capture`, besides strangers that
send anything else; see `Verif.Spec.Fleet` for what can happen and `Verif.Spec.Pipeline` for what a
replay does.
-/

set_option autoImplicit false

namespace Fstrm.Props

open Spec (CapEv CFrame Item ReplayJob Replayable replays ValidFile Fair FleetRun World Settled dataFrame
  datas dumpLines recordedFrom recordedAll sentTo stream sides wires)

/-- **C111, delivery.** Whatever else happens to the server and to the connection, every replay is waiting for the server or
has ended with status 0 and without a message; what the server has written for it is a beginning
of the frames of its files in order, and all of them if it has ended. -/
theorem pipeline_delivers (args : CapArgs) (env : CapEnv) (fuel : Nat) (job : Nat → ReplayJob)
    (stranger breaks : Nat → Prop) (s : Capture) (got : Nat → Bytes) (hb : args.bufferSize < 2 ^ 31)
    (hct : args.contentType.length ≤ 256)
    (hstart : (CFrame.wire ⟨.start, [args.contentType]⟩).length ≤ args.highwater)
    (hj : ∀ id, ¬ stranger id → Replayable args.contentType args.highwater fuel (job id))
    (h : FleetRun args env ⟨replays fuel args.contentType job, stranger, breaks⟩ s got)
    (id : Nat) (hk : ¬ stranger id) :
    recordedFrom id s.log <+: (job id).frames.map dataFrame ∧
    ((∃ sent, replays fuel args.contentType job id (got id) = .error (.wait sent)) ∨
      ∃ rw sent, replays fuel args.contentType job id (got id) = .ok (⟨0, [], some rw⟩, sent) ∧
        recordedFrom id s.log = (job id).frames.map dataFrame) := by
  have hs : ∀ id, ¬ stranger id → Spec.Suits args.contentType args.highwater (clientsOf args.contentType job id) :=
    fun id hk => clientOf_suits hct hstart (highwater_lt hb) (hj id hk)
  obtain ⟨h1, h2⟩ := fleet_delivers args env (clientsOf args.contentType job) stranger breaks s got hb hs
    (replays_run hb hct hstart hj h) id hk
  rw [clientOf_frames] at h1 h2
  refine ⟨h1, ?_⟩
  rcases replays_at hb hct hstart hj h id hk with ⟨o, _, h3⟩ | ⟨⟨rs, w⟩, rw, o, h3, h4⟩
  · exact Or.inl ⟨o, h3⟩
  · exact Or.inr ⟨rw, o, h4, (h2 _ _ _ h3).2⟩

/-- **C111, progress.** While the server runs, the network always has something to do for a replay that
was accepted and whose connection does not break, until the replay has ended with status 0 and
without a message and all frames of its files have been written. -/
theorem pipeline_progress (args : CapArgs) (env : CapEnv) (fuel : Nat) (job : Nat → ReplayJob)
    (stranger breaks : Nat → Prop) (s : Capture) (got : Nat → Bytes) (hb : args.bufferSize < 2 ^ 31)
    (hct : args.contentType.length ≤ 256)
    (hstart : (CFrame.wire ⟨.start, [args.contentType]⟩).length ≤ args.highwater)
    (hj : ∀ id, ¬ stranger id → Replayable args.contentType args.highwater fuel (job id))
    (h : FleetRun args env ⟨replays fuel args.contentType job, stranger, breaks⟩ s got)
    (hx : s.exited = none) (id : Nat) (hk : ¬ stranger id) (hbr : ¬ breaks id)
    (hacc : .accepted id ∈ s.log)
    (hq : Settled ⟨replays fuel args.contentType job, stranger, breaks⟩ s got id) :
    (∃ rw sent, replays fuel args.contentType job id (got id) = .ok (⟨0, [], some rw⟩, sent)) ∧
    recordedFrom id s.log = (job id).frames.map dataFrame := by
  have hs : ∀ id, ¬ stranger id → Spec.Suits args.contentType args.highwater (clientsOf args.contentType job id) :=
    fun id hk => clientOf_suits hct hstart (highwater_lt hb) (hj id hk)
  have hat := replays_at hb hct hstart hj h id hk
  have hq' : Settled ⟨sides (clientsOf args.contentType job), stranger, breaks⟩ s got id := by
    refine ⟨fun bs ch hf => hq.recv bs ch ⟨fun hk => ?_, hf.2⟩, hq.send, hq.deliver⟩
    have h1 := hf.1 hk
    rcases hat with ⟨o, h2, h3⟩ | ⟨r, rw, o, h2, h3⟩
    · have h2 : sides (clientsOf args.contentType job) id (got id) = .error (.wait o) := h2
      simp only at h1 ⊢
      rw [h2] at h1
      rw [h3]
      exact h1
    · have h2 : sides (clientsOf args.contentType job) id (got id) = .ok (r, o) := h2
      simp only at h1 ⊢
      rw [h2] at h1
      rw [h3]
      exact h1
  obtain ⟨⟨w, sent, h1⟩, h2⟩ := fleet_progress args env (clientsOf args.contentType job) stranger breaks s got hb hs
    (replays_run hb hct hstart hj h) hx id hk hbr hacc hq'
  rw [clientOf_frames] at h2
  refine ⟨?_, h2⟩
  rcases hat with ⟨o, h3, _⟩ | ⟨r, rw, o, h3, h4⟩
  · rw [h1] at h3; cases h3
  · exact ⟨rw, o, h4⟩

/-- A complete stream of frames that are not too large is printed. -/
theorem dump_stream (ct : Bytes) (ds : List Bytes) (fuel : Nat) (hct : ct.length ≤ 256)
    (hds : ∀ d ∈ ds, d ≠ [] ∧ d.length ≤ 1048576) (hfuel : ds.length + 2 ≤ fuel) :
    ∃ o, dump fuel .file (some (stream (some ct) ds)) [] .none [] = .ok o ∧
      o.status = 0 ∧ o.stdout = dumpLines ds := by
  obtain ⟨o, h1, h2, h3, _⟩ := dump_copies_partial (some ct) (ds.map Item.data) [] fuel .none []
    (by rintro c ⟨⟩; exact hct) (by
      intro it hit
      obtain ⟨d, hd, rfl⟩ := List.mem_map.1 hit
      obtain ⟨a, b⟩ := hds d hd
      have := List.length_pos_iff.2 a
      exact ⟨this, b, by omega⟩) (by simpa using hfuel) (by intro _ _ h; cases h) (by intro h; cases h)
  rw [wires_data, List.append_nil] at h1
  refine ⟨o, ?_, h2, ?_⟩
  · rw [← h1]
    simp [stream]
  · have := h3 (by intro h; cases h) (by intro x hx; cases hx)
    rwa [datas_data] at this

/-- **C111, output.** If no output file was overwritten and no output failed, `fstrm_dump` succeeds on every output file
of the server that is closed and prints its frames, and the frames of all files together contain those of
every replay that has ended, in order. -/
theorem pipeline_prints (args : CapArgs) (env : CapEnv) (fuel : Nat) (job : Nat → ReplayJob)
    (stranger breaks : Nat → Prop) (s : Capture) (got : Nat → Bytes) (hb : args.bufferSize < 2 ^ 31)
    (hct : args.contentType.length ≤ 256)
    (hstart : (CFrame.wire ⟨.start, [args.contentType]⟩).length ≤ args.highwater)
    (hmax : args.highwater ≤ 1048580)
    (hj : ∀ id, ¬ stranger id → Replayable args.contentType args.highwater fuel (job id))
    (h : FleetRun args env ⟨replays fuel args.contentType job, stranger, breaks⟩ s got)
    (hc : ∀ i, .clobbered i ∉ s.log) (hf : ∀ i, .failed i ∉ s.log) :
    ∃ dss : List (List Bytes), dss.length = s.files.length ∧
      (∀ i ds, dss[i]? = some ds → s.outputFile ≠ some i → ∀ n, ds.length + 2 ≤ n →
        ∃ o, dump n .file s.files[i]? [] .none [] = .ok o ∧ o.status = 0 ∧ o.stdout = dumpLines ds) ∧
      ∀ id, ¬ stranger id → (∃ r, replays fuel args.contentType job id (got id) = .ok r) →
        (job id).frames.Sublist dss.flatten := by
  have hs : ∀ id, ¬ stranger id → Spec.Suits args.contentType args.highwater (clientsOf args.contentType job id) :=
    fun id hk => clientOf_suits hct hstart (highwater_lt hb) (hj id hk)
  have hr := replays_run hb hct hstart hj h
  obtain ⟨acts, e, hp⟩ := (fleet_inv hb hs hr).hist
  obtain ⟨dss, h1, h2, h3⟩ := capture_rotation_partial args env acts s hb hp e hc hf
  have hfit := recorded_fits hb hp e h2
  refine ⟨dss, h1, ?_, ?_⟩
  · intro i ds hi ho n hn
    rw [h3 i ds hi, if_neg ho]
    refine dump_stream _ _ _ hct ?_ hn
    intro d hd
    obtain ⟨a, b⟩ := hfit d (List.mem_flatten.2 ⟨ds, List.mem_of_getElem? hi, hd⟩)
    exact ⟨a, by omega⟩
  · intro id hk ⟨r, hrr⟩
    rcases (pipeline_delivers args env fuel job stranger breaks s got hb hct hstart hj h id hk).2 with
      ⟨o, h4⟩ | ⟨rw, o, _, h4⟩
    · rw [hrr] at h4; cases h4
    · have h5 := recordedFrom_sublist id s.log
      rw [h4, h2] at h5
      have h6 := h5.map (List.drop 4)
      have h7 : ∀ l : List Bytes, (l.map dataFrame).map (List.drop 4) = l := by
        intro l
        rw [List.map_map]
        conv => rhs; rw [← List.map_id l]
        apply List.map_congr_left
        intro d _
        simp [dataFrame, Spec.be32]
      rw [h7, h7] at h6
      exact h6

theorem recordedAll_only {id : Nat} {log : List CapEv} (h : ∀ k, k ≠ id → recordedFrom k log = []) :
    recordedAll log = recordedFrom id log := by
  have h' : ∀ k bs, .recorded k bs ∈ log → k = id := by
    intro k bs hm
    by_cases hk : k = id
    · exact hk
    · have : bs ∈ recordedFrom k log := by
        unfold recordedFrom
        exact List.mem_filterMap.2 ⟨_, hm, by simp⟩
      rw [h k hk] at this
      cases this
  clear h
  unfold recordedAll recordedFrom
  induction log with
  | nil => rfl
  | cons e r ih =>
    have ih := ih (fun k bs hm => h' k bs (List.mem_cons_of_mem _ hm))
    cases e <;> simp only [List.filterMap_cons, ih]
    rw [if_pos (h' _ _ List.mem_cons_self)]

/-- **C111, one replay.** If the files of only one replay contain frames and nobody else connects, then, once it has ended
and the server has closed its output, what `fstrm_dump` prints for the output files of the server, one after
the other, are the frames of the replayed files, file by file, in order: none is lost, duplicated, changed
or reordered. -/
theorem pipeline_single (args : CapArgs) (env : CapEnv) (fuel : Nat) (job : Nat → ReplayJob)
    (breaks : Nat → Prop) (s : Capture) (got : Nat → Bytes) (id n : Nat) (hb : args.bufferSize < 2 ^ 31)
    (hct : args.contentType.length ≤ 256)
    (hstart : (CFrame.wire ⟨.start, [args.contentType]⟩).length ≤ args.highwater)
    (hmax : args.highwater ≤ 1048580)
    (hj : ∀ k, Replayable args.contentType args.highwater fuel (job k))
    (hone : ∀ k, k ≠ id → (job k).frames = [])
    (h : FleetRun args env ⟨replays fuel args.contentType job, fun _ => False, breaks⟩ s got)
    (hc : ∀ i, .clobbered i ∉ s.log) (hf : ∀ i, .failed i ∉ s.log) (hout : s.outputFile = none)
    (hend : ∃ r, replays fuel args.contentType job id (got id) = .ok r)
    (hn : (job id).frames.length + 2 ≤ n) :
    ∃ outs : List DumpOut, outs.length = s.files.length ∧
      (∀ (i : Nat) (o : DumpOut), outs[i]? = some o →
        o.status = 0 ∧ dump n .file s.files[i]? [] .none [] = .ok o) ∧
      outs.flatMap (·.stdout) = dumpLines (job id).frames := by
  have hs : ∀ id, ¬ (fun _ : Nat => False) id →
      Spec.Suits args.contentType args.highwater (clientsOf args.contentType job id) :=
    fun id _ => clientOf_suits hct hstart (highwater_lt hb) (hj id)
  have hj' : ∀ id, ¬ (fun _ : Nat => False) id →
    Replayable args.contentType args.highwater fuel (job id) := fun k _ => hj k
  have hr := replays_run hb hct hstart hj' h
  have hdel := fun k => pipeline_delivers args env fuel job _ breaks s got hb hct hstart hj' h k (by simp)
  obtain ⟨acts, e, hp⟩ := (fleet_inv hb hs hr).hist
  obtain ⟨dss, h1, h2, h3⟩ := capture_rotation_partial args env acts s hb hp e hc hf
  have hfit := recorded_fits hb hp e h2
  have hfl : dss.flatten = (job id).frames := by
    have h4 : recordedFrom id s.log = (job id).frames.map dataFrame := by
      rcases (hdel id).2 with ⟨o, h4⟩ | ⟨rw, o, _, h4⟩
      · obtain ⟨r, hr⟩ := hend
        rw [hr] at h4; cases h4
      · exact h4
    have h5 := recordedAll_only (id := id) (log := s.log) (fun k hk => by
      have := (hdel k).1
      rw [hone k hk] at this
      simpa using this)
    rw [h2, h4] at h5
    exact (List.map_inj_right (fun _ _ h => dataFrame_inj h)).1 h5
  have hfiles : s.files = dss.map (stream (some args.contentType)) := by
    apply List.ext_getElem?
    intro i
    rw [List.getElem?_map]
    cases hi : dss[i]? with
    | none =>
      rw [List.getElem?_eq_none_iff] at hi
      rw [List.getElem?_eq_none_iff.2 (by omega)]
      rfl
    | some ds => rw [h3 i ds hi, if_neg (by rw [hout]; nofun)]; rfl
  have hlen : ∀ ds ∈ dss, ds.length ≤ (job id).frames.length := by
    intro ds hds
    rw [← hfl]
    exact (List.sublist_flatten_of_mem hds).length_le
  have hall : ∀ ds ∈ dss, ∃ o, dump n .file (some (stream (some args.contentType) ds)) [] .none [] = .ok o ∧
      o.status = 0 ∧ o.stdout = dumpLines ds := by
    intro ds hds
    refine dump_stream _ _ _ hct ?_ (by have := hlen ds hds; omega)
    intro d hd
    obtain ⟨a, b⟩ := hfit d (List.mem_flatten.2 ⟨ds, hds, hd⟩)
    exact ⟨a, by omega⟩
  rw [hfiles, ← hfl]
  clear hfiles hfl h1 h2 h3 hfit hlen
  induction dss with
  | nil => exact ⟨[], rfl, by intro i o h; simp at h, rfl⟩
  | cons ds r ih =>
    obtain ⟨o, o1, o2, o3⟩ := hall ds (by simp)
    obtain ⟨outs, p1, p2, p3⟩ := ih (fun x hx => hall x (by simp [hx]))
    refine ⟨o :: outs, by simpa using p1, ?_, ?_⟩
    · intro i x hx
      cases i with
      | zero =>
        have : o = x := by simpa using hx
        subst this
        exact ⟨o2, o1⟩
      | succ i => exact p2 i x (by simpa using hx)
    · rw [List.flatMap_cons, p3, o3]
      simp [dumpLines]

/-! ## A sample run -/

/-- Two files, the second with a control frame between its frames and without content type. -/
def sampleFiles : ReplayJob :=
  [(⟨.file, some (CFrame.wire ⟨.start, [[97]]⟩ ++ (wires [.data [1, 2], .data [3]] ++
      (CFrame.wire ⟨.stop, []⟩ ++ []))), []⟩, [.data [1, 2], .data [3]]),
   (⟨.file, some (CFrame.wire ⟨.start, []⟩ ++ (wires [.ctl ⟨.finish, []⟩, .data [4]] ++
      (CFrame.wire ⟨.stop, []⟩ ++ [7]))), []⟩, [.ctl ⟨.finish, []⟩, .data [4]])]

/-- Client 0 replays the two files, all others replay nothing. -/
def sampleJobs : Nat → ReplayJob
  | 0 => sampleFiles
  | _ => []

theorem sampleJobs_ok (id : Nat) : Replayable [97] 262144 9 (sampleJobs id) := by
  cases id with
  | zero =>
    constructor
    · intro p hp
      rcases List.mem_cons.1 hp with rfl | hp
      · exact ⟨⟨rfl, rfl, by simp [Item.Ok], some [97], [], Or.inr rfl, rfl⟩, by decide⟩
      · rcases List.mem_cons.1 hp with rfl | hp
        · refine ⟨⟨rfl, rfl, ?_, none, [7], Or.inl rfl, rfl⟩, by decide⟩
          intro it hit
          rcases List.mem_cons.1 hit with rfl | hit
          · exact ⟨⟨by simp, by simp⟩, by decide +kernel, by decide⟩
          · rcases List.mem_cons.1 hit with rfl | hit
            · simp [Item.Ok]
            · cases hit
        · cases hp
    · decide +kernel
  | succ n => exact ⟨(by intro p hp; cases hp), (by intro p hp; cases hp)⟩

/-- The replay's bytes arrive in pieces, the output is rotated in between, and in the end the server is
terminated. -/
def samplePipe : List FleetMove :=
  let ready := CFrame.wire ⟨.ready, [[97]]⟩
  let all := stream (some [97]) [[1, 2], [3], [4]]
  let accept := CFrame.wire ⟨.accept, [[97]]⟩
  let finish := CFrame.wire ⟨.finish, []⟩
  [.act .accept, .act (.recv 0 ready [ready]), .act (.send 0 21), .deliver 0 accept,
    .act (.recv 0 (all.take 30) [all.take 30]), .act (.rename [98] [99]), .act .sigusr1,
    .act (.recv 0 (all.drop 30) [(all.take 30).drop 27, all.drop 30]), .act (.send 0 12),
    .deliver 0 finish, .act .term]

/-- The hypotheses of the theorems are met by the end of the sample run; the frames are in two files. -/
example : ∃ s got, FleetRun (easyArgs 0) easyEnv (worldOf (replays 9 [97] sampleJobs) [] []) s got ∧
    (easyArgs 0).bufferSize < 2 ^ 31 ∧ (easyArgs 0).contentType.length ≤ 256 ∧
    (CFrame.wire ⟨.start, [(easyArgs 0).contentType]⟩).length ≤ (easyArgs 0).highwater ∧
    (easyArgs 0).highwater ≤ 1048580 ∧
    (∀ id, Replayable (easyArgs 0).contentType (easyArgs 0).highwater 9 (sampleJobs id)) ∧
    (∀ k, k ≠ 0 → (sampleJobs k).frames = []) ∧
    (∀ i, .clobbered i ∉ s.log) ∧ (∀ i, .failed i ∉ s.log) ∧ s.outputFile = none ∧
    (∃ r, replays 9 [97] sampleJobs 0 (got 0) = .ok r) ∧ (sampleJobs 0).frames = [[1, 2], [3], [4]] ∧
    s.files.length = 2 := by
  have h : (Capture.start (easyArgs 0) easyEnv >>= fun s =>
      fleetExec (replays 9 [97] sampleJobs) [] [] s (fun _ => []) samplePipe).map (fun p =>
        (p.1.outputFile, p.1.files.length, [p.1.log.any fun e => match e with | .clobbered _ => true | .failed _ => true | _ => false,
        (replays 9 [97] sampleJobs 0 (p.2 0)).toBool])) =
    .ok (none, 2, [false, true]) := by decide +kernel
  cases h0 : Capture.start (easyArgs 0) easyEnv with
  | error x => rw [h0] at h; cases h
  | ok s0 =>
    rw [h0, Exec.ok_bind] at h
    cases h1 : fleetExec (replays 9 [97] sampleJobs) [] [] s0 (fun _ => []) samplePipe with
    | error x => rw [h1] at h; cases h
    | ok p =>
      obtain ⟨s, got⟩ := p
      rw [h1] at h
      simp only [Except.map, Except.ok.injEq, Prod.mk.injEq, List.cons.injEq, and_true] at h
      obtain ⟨a1, a2, a3, a4⟩ := h
      refine ⟨s, got, fleetExec_sound _ (.start h0) h1, by decide +kernel, by decide +kernel,
        by decide +kernel, by decide +kernel, sampleJobs_ok, ?_, ?_, ?_, a1, ?_, rfl, a2⟩
      · intro k hk
        cases k with
        | zero => exact absurd rfl hk
        | succ k => rfl
      · intro i hi'
        have := List.any_eq_false.1 a3 _ hi'
        simp at this
      · intro i hi'
        have := List.any_eq_false.1 a3 _ hi'
        simp at this
      · cases hh : replays 9 [97] sampleJobs 0 (got 0) with
        | error x => rw [hh] at a4; cases a4
        | ok r => exact ⟨r, rfl⟩

/-- Before the server is terminated, the network has nothing left to do for the replay. -/
example : ∃ s got, FleetRun (easyArgs 0) easyEnv (worldOf (replays 9 [97] sampleJobs) [] []) s got ∧
    s.exited = none ∧ .accepted 0 ∈ s.log ∧
    Settled (worldOf (replays 9 [97] sampleJobs) [] []) s got 0 := by
  have h : (Capture.start (easyArgs 0) easyEnv >>= fun s =>
      fleetExec (replays 9 [97] sampleJobs) [] [] s (fun _ => []) samplePipe.dropLast).map (fun p =>
        (p.1.exited, [(p.1.conns 0).isNone, decide (.accepted 0 ∈ p.1.log),
          decide (p.2 0 = sentTo 0 p.1.log)])) =
    .ok (none, [true, true, true]) := by decide +kernel
  cases h0 : Capture.start (easyArgs 0) easyEnv with
  | error x => rw [h0] at h; cases h
  | ok s0 =>
    rw [h0, Exec.ok_bind] at h
    cases h1 : fleetExec (replays 9 [97] sampleJobs) [] [] s0 (fun _ => []) samplePipe.dropLast with
    | error x => rw [h1] at h; cases h
    | ok p =>
      obtain ⟨s, got⟩ := p
      rw [h1] at h
      simp only [Except.map, Except.ok.injEq, Prod.mk.injEq, List.cons.injEq, and_true,
        decide_eq_true_eq] at h
      obtain ⟨a1, a2, a3, a4⟩ := h
      exact ⟨s, got, fleetExec_sound _ (.start h0) h1, a1, a3,
        settled_of a1 (Option.isNone_iff_eq_none.1 a2) a4⟩

end Fstrm.Props
