import Verif.Spec.Pipeline
import Verif.Lemmas.FleetInv
import Verif.Props.Replay

/-! `fstrm_replay` over a connection does what a program does that opens a writer, writes every frame
and closes it. -/

set_option autoImplicit false

namespace Fstrm

open Spec Props

/-- The program a replay amounts to. -/
def clientOf (ct : Bytes) (job : ReplayJob) : Client := ⟨some ⟨[ct]⟩, job.frames.map ([·])⟩

theorem clientOf_frames (ct : Bytes) (job : ReplayJob) : (clientOf ct job).frames = job.frames := by
  unfold Client.frames clientOf
  simp only
  generalize job.frames = l
  induction l with
  | nil => rfl
  | cons a r ih => simpa using ih

theorem valid_data {ct : Bytes} {hw fuel : Nat} {job : ReplayJob} (h : Replayable ct hw fuel job) :
    ∀ d ∈ job.frames, d ≠ [] ∧ d.length ≤ 1048576 := by
  intro d hd
  obtain ⟨p, hp, hd⟩ := List.mem_flatMap.1 hd
  have hv := (h.valid p hp).1.2.2.1
  have : ∀ items : List Item, (∀ it ∈ items, it.Ok 1048576) → d ∈ datas items → d ≠ [] ∧ d.length ≤ 1048576 := by
    intro items
    induction items with
    | nil => intro _ h; cases h
    | cons it r ih =>
      intro ho hd
      cases it with
      | data x =>
        rcases List.mem_cons.1 hd with rfl | hd
        · have := ho (.data d) (by simp)
          simp only [Item.Ok] at this
          refine ⟨?_, this.2.1⟩
          rintro rfl
          simp at this
        · exact ih (fun i hi => ho i (by simp [hi])) hd
      | ctl f => exact ih (fun i hi => ho i (by simp [hi])) hd
  exact this p.2 hv hd

theorem clientOf_suits {ct : Bytes} {hw fuel : Nat} {job : ReplayJob} (hct : ct.length ≤ 256)
    (hstart : (CFrame.wire ⟨.start, [ct]⟩).length ≤ hw) (hhw : hw < 2 ^ 31)
    (h : Replayable ct hw fuel job) : Suits ct hw (clientOf ct job) := by
  rw [length_wire1] at hstart
  refine ⟨hct, ?_, ?_, ?_, ?_, ?_, ?_, ?_, hhw⟩
  · intro c hc; have : c = ct := by simpa [clientOf, Client.types] using hc
    rw [this]; exact hct
  · intro c hc; simpa [clientOf, Client.types, eq_comm] using hc
  · show (CFrame.wire ⟨.ready, [ct]⟩).length < 512
    rw [length_wire1]; omega
  · show (CFrame.wire ⟨.ready, [ct]⟩).length ≤ hw
    rw [length_wire1]; omega
  · rw [length_wire1]; omega
  · intro b hb
    obtain ⟨d, _, rfl⟩ := List.mem_map.1 hb
    simp
  · rw [clientOf_frames]
    intro d hd
    exact ⟨(valid_data h d hd).1, h.fits d hd⟩

theorem chW_wrote (cts : List Bytes) (inp : Bytes) : ∀ (ds : List Bytes) (w : Writer Chan) (out : Bytes),
    ChW cts w inp out → ∃ w', Wrote w ds w' ∧ ChW cts w' inp (out ++ ds.flatMap dataFrame) := by
  intro ds
  induction ds with
  | nil => intro w out h; exact ⟨w, ⟨[], rfl, by simp⟩, by simpa using h⟩
  | cons d r ih =>
    intro w out h
    obtain ⟨w1, e1, c1⟩ := h.writev (iov := [d]) (by simp)
    obtain ⟨w2, e2, c2⟩ := ih w1 _ c1
    refine ⟨w2, Wrote.append (a := [d]) ⟨[.success], ?_, by simp⟩ e2, by simpa using c2⟩
    simp only [List.map_cons, List.map_nil, Writer.run, Writer.step]
    rw [show w.write d = _ from e1]
    rfl

theorem addCt_ok {ct : Bytes} (hct : ct.length ≤ 256) :
    WriterOptions.init.addCt ct = (.success, ⟨[ct]⟩) := by
  unfold WriterOptions.addCt
  rw [if_neg (by simp only [CT_LENGTH_MAX]; omega)]
  rfl

section
variable {ct : Bytes} {hw fuel : Nat} {job : ReplayJob}

/-- A replay whose writer was opened and took all frames. -/
theorem replay_steps (hct : ct.length ≤ 256) (h : Replayable ct hw fuel job)
    (hadd : WriterOptions.init.addCt ct = (.success, ⟨[ct]⟩)) {y : Bytes} {w w1 w2 : Writer Chan}
    (h1 : Writer.init (some ⟨[ct]⟩) (Rdwr.init chanOps ⟨y, []⟩) = some w)
    (h2 : w.open = .ok (.success, w1)) (h3 : Wrote w1 job.frames w2) :
    replay fuel ct (job.map (·.1)) chanOps ⟨y, []⟩ = (do
      let (res, w) ← w2.close
      let msgs := if res ≠ .success then [.error "fstrm_writer_close"] else []
      let (_, rdwr) ← w.destroy
      .ok ⟨0, msgs, some rdwr⟩) := by
  unfold replay initWriter
  rw [hadd]
  simp only [ne_eq, not_true_eq_false, if_false]
  rw [h1]
  simp only
  rw [h2, Exec.ok_bind]
  simp only [not_true_eq_false, if_false, Exec.ok_bind]
  rw [replayFiles_complete hct job w1 w2 h.valid h3, Exec.ok_bind]
  simp only
  rw [if_neg (by decide)]
  simp

/-- What a replay of complete streams does for every beginning of the server's replies. -/
theorem replay_at (hct : ct.length ≤ 256)
    (hstart : (CFrame.wire ⟨.start, [ct]⟩).length ≤ hw) (hhw : hw < 2 ^ 31)
    (h : Replayable ct hw fuel job) {y : Bytes} (hy : y <+: replyAll ct) :
    (∃ o, (clientOf ct job).side y = .error (.wait o) ∧
      replaySide fuel ct (job.map (·.1)) y = .error (.wait o)) ∨
    ∃ r rw o, (clientOf ct job).side y = .ok (r, o) ∧
      replaySide fuel ct (job.map (·.1)) y = .ok (⟨0, [], some rw⟩, o) := by
  have hs := clientOf_suits hct hstart hhw h
  have hn := hs.net
  rw [← hs.replyAll] at hy
  have hadd := addCt_ok hct
  have hy2 := List.prefix_iff_eq_take.1 hy
  rcases writer_at hn hy with ⟨h1, h2⟩ | ⟨h1, h3, h2⟩ | ⟨h1, w, h2, _⟩
  · left
    refine ⟨_, h2, ?_⟩
    unfold replaySide replay initWriter
    rw [hadd]
    simp only [ne_eq, not_true_eq_false, if_false]
    obtain ⟨w, e, s1, s2, s3, s4, s5⟩ := writer_init_chan (some ⟨[ct]⟩) y
    rw [e]
    simp only
    unfold netY at hy2
    rw [List.take_append_of_le_length (by omega)] at hy2
    rw [chan_writer_open_wait s3 (s4.trans (congrArg (fun z => Chan.mk z []) hy2)) (by rw [s2]; exact hn.wcts)
      (by rw [s2]; exact hn.ready) s1 (Nat.le_trans (wire_payload _) hn.acc) h1, s2]
    rfl
  · left
    refine ⟨_, h2, ?_⟩
    have hlt : y.length < (netA (clientOf ct job).wopt (capR ct hw)).length + 12 := by
      have h4 : y.length ≤ (netY (clientOf ct job).wopt (capR ct hw)).length := hy.length_le
      have h5 : y.length ≠ (netY (clientOf ct job).wopt (capR ct hw)).length :=
        fun h6 => h3 (hy.eq_of_length h6)
      unfold netY at h4 h5
      rw [List.length_append, wire_finish_length] at h4 h5
      omega
    unfold netY at hy2
    rw [take_append_ge (by omega)] at hy2
    obtain ⟨w, w', e, e2, c⟩ := hn.opened ((CFrame.wire ⟨.finish, []⟩).take
      (y.length - (netA (clientOf ct job).wopt (capR ct hw)).length))
    obtain ⟨w2, e3, c2⟩ := chW_wrote _ _ job.frames w' _ c
    unfold replaySide
    rw [replay_steps hct h hadd (by rw [hy2]; exact e) e2 e3, c2.close_wait (by omega)]
    simp only [Exec.err_bind]
    rw [netX, show (clientOf ct job).batches.flatten = job.frames from clientOf_frames ct job]
    simp [stream, List.append_assoc]
  · right
    obtain ⟨w, w', e, e2, c⟩ := hn.opened (CFrame.wire ⟨.finish, []⟩)
    obtain ⟨w2, e3, c2⟩ := chW_wrote _ _ job.frames w' _ c
    rw [← List.append_nil (CFrame.wire ⟨.finish, []⟩)] at c2
    obtain ⟨w3, e4, c3, _, c5⟩ := c2.close
    have hops : w3.rdwr.ops.destroy = none := by
      rw [(close_frame e4).2.1.ops, c2.ch.ops]; rfl
    have hd : w3.destroy = .ok (.failure, w3.rdwr) := by
      unfold Writer.destroy
      rw [if_neg (by rw [c5]; decide)]
      simp only [Exec.ok_bind]
      unfold Rdwr.destroy
      rw [hops]
      rfl
    refine ⟨_, w3.rdwr, _, h2, ?_⟩
    unfold replaySide
    rw [replay_steps hct h hadd (by rw [h1]; exact e) e2 e3, e4]
    simp only [Exec.ok_bind]
    rw [hd]
    simp only [Exec.ok_bind]
    rw [c3, netX, show (clientOf ct job).batches.flatten = job.frames from clientOf_frames ct job]
    simp [stream, List.append_assoc]

end

theorem highwater_lt {args : CapArgs} (hb : args.bufferSize < 2 ^ 31) : args.highwater < 2 ^ 31 := by
  unfold CapArgs.highwater
  split <;> omega

section
variable {args : CapArgs} {env : CapEnv} {fuel : Nat} {job : Nat → ReplayJob} {stranger breaks : Nat → Prop}
  {s : Capture} {got : Nat → Bytes}

/-- The clients that the replays amount to. -/
abbrev clientsOf (ct : Bytes) (job : Nat → ReplayJob) : Nat → Client := fun id => clientOf ct (job id)

/-- A run of the server with replays is one with the clients they amount to. -/
theorem replays_run (hb : args.bufferSize < 2 ^ 31) (hct : args.contentType.length ≤ 256)
    (hstart : (CFrame.wire ⟨.start, [args.contentType]⟩).length ≤ args.highwater)
    (hj : ∀ id, ¬ stranger id → Replayable args.contentType args.highwater fuel (job id))
    (h : FleetRun args env ⟨replays fuel args.contentType job, stranger, breaks⟩ s got) :
    FleetRun args env ⟨sides (clientsOf args.contentType job), stranger, breaks⟩ s got := by
  have hs : ∀ id, ¬ stranger id → Suits args.contentType args.highwater (clientsOf args.contentType job id) :=
    fun id hk => clientOf_suits hct hstart (highwater_lt hb) (hj id hk)
  induction h with
  | start e => exact .start e
  | @act s s' got a h hf e ih =>
    refine .act ih ?_ e
    have hat : ∀ id, ¬ stranger id →
        (∃ o, sides (clientsOf args.contentType job) id (got id) = .error (.wait o) ∧
          replays fuel args.contentType job id (got id) = .error (.wait o)) ∨
        ∃ r rw o, sides (clientsOf args.contentType job) id (got id) = .ok (r, o) ∧
          replays fuel args.contentType job id (got id) = .ok (⟨0, [], some rw⟩, o) := fun id hk =>
      replay_at hct hstart (highwater_lt hb) (hj id hk)
        ((hs id hk).replyAll ▸ (fleet_inv hb hs ih).sent hb hs id hk)
    cases a <;> try trivial
    · rename_i id bs ch
      refine ⟨fun hk => ?_, hf.2⟩
      have h1 := hf.1 hk
      rcases hat id hk with ⟨o, h2, h3⟩ | ⟨r, rw, o, h2, h3⟩
      · simp only at h1 ⊢
        rw [h3] at h1
        rw [h2]
        exact h1
      · simp only at h1 ⊢
        rw [h3] at h1
        rw [h2]
        exact h1
    · rename_i id
      by_cases hk : stranger id
      · exact Or.inl hk
      · rcases hf with hf | hf | ⟨r, hf⟩
        · exact Or.inl hf
        · exact Or.inr (Or.inl hf)
        · refine Or.inr (Or.inr ?_)
          rcases hat id hk with ⟨o, h2, h3⟩ | ⟨r, rw, o, h2, h3⟩
          · simp only at hf
            rw [h3] at hf
            cases hf
          · exact ⟨_, h2⟩
  | deliver h hd ih => exact ih.deliver hd

/-- What each replay does in a reachable state. -/
theorem replays_at (hb : args.bufferSize < 2 ^ 31) (hct : args.contentType.length ≤ 256)
    (hstart : (CFrame.wire ⟨.start, [args.contentType]⟩).length ≤ args.highwater)
    (hj : ∀ id, ¬ stranger id → Replayable args.contentType args.highwater fuel (job id))
    (h : FleetRun args env ⟨replays fuel args.contentType job, stranger, breaks⟩ s got)
    (id : Nat) (hk : ¬ stranger id) :
    (∃ o, (clientsOf args.contentType job id).side (got id) = .error (.wait o) ∧
      replays fuel args.contentType job id (got id) = .error (.wait o)) ∨
    ∃ r rw o, (clientsOf args.contentType job id).side (got id) = .ok (r, o) ∧
      replays fuel args.contentType job id (got id) = .ok (⟨0, [], some rw⟩, o) := by
  have hs : ∀ id, ¬ stranger id → Suits args.contentType args.highwater (clientsOf args.contentType job id) :=
    fun id hk => clientOf_suits hct hstart (highwater_lt hb) (hj id hk)
  exact replay_at hct hstart (highwater_lt hb) (hj id hk) ((hs id hk).replyAll ▸
    (fleet_inv hb hs (replays_run hb hct hstart hj h)).sent hb hs id hk)

end

theorem dataFrame_inj {a b : Bytes} (h : dataFrame a = dataFrame b) : a = b := by
  have := congrArg (List.drop 4) h
  simpa [dataFrame, Spec.be32] using this

/-- Every recorded frame holds data that fits into the buffers of the server. -/
theorem recorded_fits {args : CapArgs} {env : CapEnv} {acts : List CapAct} {s : Capture}
    (hb : args.bufferSize < 2 ^ 31) (hp : Polite args env acts) (e : outcome args env acts = .ok s)
    {ds : List Bytes} (h : recordedAll s.log = ds.map dataFrame) :
    ∀ d ∈ ds, d ≠ [] ∧ 4 + d.length ≤ args.highwater := by
  obtain ⟨hi, ha⟩ := inv_of_outcome hb hp e
  intro d hd
  have h1 : dataFrame d ∈ recordedAll s.log := by rw [h]; exact List.mem_map_of_mem hd
  unfold recordedAll at h1
  obtain ⟨ev, h2, h3⟩ := List.mem_filterMap.1 h1
  cases ev <;> simp only [Option.some.injEq, reduceCtorEq] at h3
  subst h3
  obtain ⟨d', e1, e2⟩ := hi.frames _ _ h2
  rw [dataFrame_inj e1, ← ha]
  exact e2

end Fstrm
