import Verif.Lemmas.WriterTrace
import Verif.Lemmas.Source
import Verif.Spec.Transport

/-!
# Properties C10-C16, C28, C29: the writer

The transport is arbitrary (`σ`, `ops`, `obj`); what it sees is its callback log
(`Verif/Spec/Trace.lean`), what the stream should look like is
`Verif/Spec/Wire.lean`, and call histories are `Verif/Spec/History.lean`.
-/

set_option autoImplicit false

namespace Fstrm.Props

open Fstrm.Spec (wrote received iovs Phase WPhase CType CFrame Pipe pipeOps WellBehaved ByteSource ByteSink)

variable {σ : Type}

/-- The content types configured through the options (`none`: no options object). -/
def optCts (wopt : Option WriterOptions) : List Bytes :=
  match wopt with
  | none => []
  | some o => o.cts

theorem init_some {wopt : Option WriterOptions} {rw : Rdwr σ} {w : Writer σ}
    (h : Writer.init wopt rw = some w) :
    w.state = .opening ∧ w.cts = optCts wopt ∧ w.rdwr = rw ∧ rw.ops.wr ≠ none := by
  unfold Writer.init at h
  split at h
  · cases h
  · rename_i hw
    cases h
    refine ⟨rfl, ?_, rfl, by intro h; simp [h] at hw⟩
    cases wopt <;> rfl

/-- One session of successful calls ending in close. -/
theorem session_stream (ct : Option Bytes) : ∀ (calls : List WOp) (w w' : Writer σ) (rs : List Res)
    (base : Bytes) (done : List Bytes),
    w.rdwr.ops.rd = none → w.cts.head? = ct → WOp.close ∉ calls →
    w.run (calls ++ [.close]) = .ok (rs, w') → (∀ r ∈ rs, r = .success) →
    ((w.state ≠ .opened ∧ wrote w.rdwr.log = base ∧ done = []) ∨
     (w.state = .opened ∧ wrote w.rdwr.log =
        base ++ CFrame.wire ⟨.start, ct.toList⟩ ++ done.flatMap Spec.dataFrame)) →
    wrote w'.rdwr.log = base ++ Spec.stream ct (done ++ calls.flatMap WOp.frames) ∧
      w'.state = .closed ∧ w'.cts = w.cts ∧ w'.rdwr.ops = w.rdwr.ops := by
  intro calls
  induction calls with
  | nil =>
    intro w w' rs base done hu hct _ hrun hok hw
    obtain ⟨⟨r, w1⟩, h1, h⟩ := Exec.bind_eq_ok.1 hrun
    obtain ⟨⟨rs', w2⟩, h2, h⟩ := Exec.bind_eq_ok.1 h
    cases h2; cases h
    have hr : r = .success := hok r (by simp)
    subst hr
    have h1' : w.close = .ok (.success, w') := h1
    obtain ⟨a, b, c, _⟩ := close_success h1'
    have hf := close_frame h1'
    rcases hw with ⟨hs, _⟩ | ⟨_, hw⟩
    · exact absurd a hs
    · refine ⟨?_, b, hf.1, hf.2.1.ops⟩
      rw [c, hw]
      simp [Spec.stream]
  | cons op rest ih =>
    intro w w' rs base done hu hct hnc hrun hok hw
    simp only [List.mem_cons, not_or] at hnc
    obtain ⟨⟨r, w1⟩, h1, h⟩ := Exec.bind_eq_ok.1 hrun
    obtain ⟨⟨rs', w2⟩, h2, h⟩ := Exec.bind_eq_ok.1 h
    cases h
    have hr : r = .success := hok r (by simp)
    subst hr
    have hok' : ∀ r ∈ rs', r = .success := fun r hr => hok r (by simp [hr])
    rcases step_success (fun h => hnc.1 h.symm) h1 with ⟨rfl, hfr⟩ | ⟨w0, h3, h4, h5, h6, _, h7, _, h8⟩
    · simpa [hfr] using ih w1 w' rs' base done hu hct hnc.2 h2 hok' hw
    · have hw0 : wrote w0.rdwr.log =
          base ++ CFrame.wire ⟨.start, ct.toList⟩ ++ done.flatMap Spec.dataFrame := by
        rcases h3 with rfl | ⟨h9, h10⟩
        · rcases hw with ⟨hs, _⟩ | ⟨_, hw⟩
          · exact absurd h4 hs
          · exact hw
        · rcases hw with ⟨_, hw, hd⟩ | ⟨hs, _⟩
          · rw [(open_uni_success hu h9 h10).1, hw, hd, hct]; simp
          · exact absurd hs h9
      have := ih w1 w' rs' base (done ++ op.frames) (by rw [h7]; exact hu) (by rw [h6]; exact hct)
        hnc.2 h2 hok' (Or.inr ⟨h5, by rw [h8, hw0]; simp⟩)
      refine ⟨?_, this.2.1, this.2.2.1.trans h6, this.2.2.2.trans h7⟩
      rw [this.1]; simp

theorem run_append (w : Writer σ) (a b : List WOp) (rs : List Res) (w' : Writer σ) :
    w.run (a ++ b) = .ok (rs, w') ↔
      ∃ r1 w1 r2, w.run a = .ok (r1, w1) ∧ w1.run b = .ok (r2, w') ∧ rs = r1 ++ r2 := by
  induction a generalizing w rs with
  | nil =>
    simp only [List.nil_append, Writer.run]
    constructor
    · intro h; exact ⟨[], w, rs, rfl, h, rfl⟩
    · rintro ⟨r1, w1, r2, h1, h2, h3⟩; cases h1; rw [h3]; exact h2
  | cons op a ih =>
    simp only [List.cons_append, Writer.run, Exec.bind_eq_ok, Prod.exists]
    constructor
    · rintro ⟨r, w1, h1, rs', w2, h2, h3⟩
      simp only [Except.ok.injEq, Prod.mk.injEq] at h3
      obtain ⟨rfl, rfl⟩ := h3
      obtain ⟨r1, w3, r2, h4, h5, rfl⟩ := (ih w1 rs').1 h2
      exact ⟨r :: r1, w3, r2, ⟨r, w1, h1, r1, w3, h4, rfl⟩, h5, rfl⟩
    · rintro ⟨r1, w1, r2, ⟨r, w2, h1, rs', w3, h2, h3⟩, h4, h5⟩
      simp only [Except.ok.injEq, Prod.mk.injEq] at h3
      obtain ⟨rfl, rfl⟩ := h3
      exact ⟨r, w2, h1, rs' ++ r2, w', (ih w2 _).2 ⟨rs', w3, r2, h2, h4, rfl⟩, by rw [h5]; rfl⟩

/-- **C10**. Take any unidirectional transport, any writer options and any number of sessions,
each an arbitrary sequence of open, write, writev and get_control calls followed
by close. If every call succeeds, the bytes handed to the transport are exactly
one complete stream per session: START with the first configured content type,
the length-prefixed frames in the order of submission, STOP. -/
theorem writer_stream (ops : Ops σ) (obj : σ) (wopt : Option WriterOptions) (w w' : Writer σ)
    (sessions : List (List WOp)) (rs : List Res)
    (huni : ops.rd = none)
    (hinit : Writer.init wopt (Rdwr.init ops obj) = some w)
    (hsess : ∀ s ∈ sessions, WOp.close ∉ s)
    (hrun : w.run (sessions.flatMap (· ++ [.close])) = .ok (rs, w'))
    (hok : ∀ r ∈ rs, r = .success) :
    wrote w'.rdwr.log =
      sessions.flatMap fun s => Spec.stream (optCts wopt).head? (s.flatMap WOp.frames) := by
  obtain ⟨h1, h2, h3, _⟩ := init_some hinit
  have hst : w.state ≠ .opened := by rw [h1]; simp
  have hops : w.rdwr.ops.rd = none := by rw [h3]; exact huni
  have hlog : wrote w.rdwr.log = [] := by rw [h3]; rfl
  clear hinit h1 h3
  suffices H : ∀ (sessions : List (List WOp)) (w : Writer σ) (rs : List Res) (base : Bytes),
      w.state ≠ .opened → w.cts = optCts wopt → w.rdwr.ops.rd = none → wrote w.rdwr.log = base →
      (∀ s ∈ sessions, WOp.close ∉ s) →
      w.run (sessions.flatMap (· ++ [.close])) = .ok (rs, w') → (∀ r ∈ rs, r = .success) →
      wrote w'.rdwr.log = base ++
        sessions.flatMap fun s => Spec.stream (optCts wopt).head? (s.flatMap WOp.frames) by
    simpa using H sessions w rs [] hst h2 hops hlog hsess hrun hok
  intro sessions
  induction sessions with
  | nil => intro w rs base _ _ _ hb _ hrun _; cases hrun; simpa using hb
  | cons s rest ih =>
    intro w rs base hst hcts hu hb hs hrun hok
    rw [List.flatMap_cons, run_append] at hrun
    obtain ⟨r1, w1, r2, h1, h2, rfl⟩ := hrun
    obtain ⟨a, b, c, d⟩ := session_stream (optCts wopt).head? s w w1 r1 base [] hu (by rw [hcts])
      (hs s (by simp)) h1 (fun r hr => hok r (by simp [hr])) (Or.inl ⟨hst, hb, rfl⟩)
    have := ih w1 r2 _ (by rw [b]; simp) (c.trans hcts) (by rw [d]; exact hu) rfl
      (fun s hs' => hs s (by simp [hs'])) h2 (fun r hr => hok r (by simp [hr]))
    rw [this, a]
    simp

/-- The hypotheses are met: two sessions over a concrete transport, with batching. -/
example :
    ((Writer.init (some ⟨[[0x61], [0x62]]⟩) (Rdwr.init (pipeOps false true) ⟨[], [], false⟩)).map
      fun w => (w.run ([[WOp.write [1, 2], .writev [[3], [4, 5]]], [.opn]].flatMap
        (· ++ [.close]))).map (fun p => (p.1, wrote p.2.rdwr.log))) =
    some (.ok (List.replicate 5 .success,
      Spec.stream (some [0x61]) [[1, 2], [3], [4, 5]] ++ Spec.stream (some [0x61]) [])) := by
  decide +kernel

/-- **C11**, first part: any two successful sessions submitting the same frames in the same
order, in whatever grouping, put the same bytes on their transports. -/
theorem batching_unobservable {τ : Type} (ops₁ : Ops σ) (ops₂ : Ops τ) (obj₁ : σ) (obj₂ : τ)
    (wopt : Option WriterOptions)
    (w₁ w₁' : Writer σ) (w₂ w₂' : Writer τ) (calls₁ calls₂ : List WOp) (rs₁ rs₂ : List Res)
    (hu₁ : ops₁.rd = none) (hu₂ : ops₂.rd = none)
    (hi₁ : Writer.init wopt (Rdwr.init ops₁ obj₁) = some w₁)
    (hi₂ : Writer.init wopt (Rdwr.init ops₂ obj₂) = some w₂)
    (hc₁ : WOp.close ∉ calls₁) (hc₂ : WOp.close ∉ calls₂)
    (hr₁ : w₁.run (calls₁ ++ [.close]) = .ok (rs₁, w₁')) (hs₁ : ∀ r ∈ rs₁, r = .success)
    (hr₂ : w₂.run (calls₂ ++ [.close]) = .ok (rs₂, w₂')) (hs₂ : ∀ r ∈ rs₂, r = .success)
    (hsame : calls₁.flatMap WOp.frames = calls₂.flatMap WOp.frames) :
    wrote w₁'.rdwr.log = wrote w₂'.rdwr.log := by
  have h1 := writer_stream ops₁ obj₁ wopt w₁ w₁' [calls₁] rs₁ hu₁ hi₁ (by simpa using hc₁)
    (by simpa using hr₁) hs₁
  have h2 := writer_stream ops₂ obj₂ wopt w₂ w₂' [calls₂] rs₂ hu₂ hi₂ (by simpa using hc₂)
    (by simpa using hr₂) hs₂
  rw [h1, h2]; simp [hsame]

/-- A batch of 300 frames, which is split into three transport calls, and the same frames
written one by one. -/
example :
    let run := fun calls => (Writer.init none (Rdwr.init (pipeOps false true) ⟨[], [], false⟩)).map
      fun w => (w.run (calls ++ [WOp.close])).map
        (fun p => (p.1.all (· == .success), wrote p.2.rdwr.log, (iovs p.2.rdwr.log).map List.length))
    (run [.writev (List.replicate 300 [7])]).map (·.map (fun p => (p.1, p.2.2))) =
      some (.ok (true, [1, 256, 256, 88, 1])) ∧
    (run [.writev (List.replicate 300 [7])]).map (·.map (·.2.1)) =
      (run (List.replicate 300 (.write [7]))).map (·.map (·.2.1)) := by
  decide +kernel

/-- `w` starts with the log invariant. -/
theorem WInv.init {ops : Ops σ} {obj : σ} {wopt : Option WriterOptions} {w : Writer σ}
    (hinit : Writer.init wopt (Rdwr.init ops obj) = some w) (hcls : ops.cls ≠ none) : WInv w := by
  obtain ⟨h1, h2, h3, h4⟩ := init_some hinit
  unfold WInv
  rw [h3]
  exact ⟨hcls, h4, WPhase.Trace.nil _⟩

theorem trace_iovs {p q : WPhase} {l : List Ev} (h : WPhase.Trace p l q) :
    ∀ iov ∈ iovs l, iov.length ≤ 256 := by
  induction h with
  | nil => simp [iovs]
  | snoc q q' l e _ hs ih =>
    rw [iovs_append]
    intro iov hm
    rw [List.mem_append] at hm
    rcases hm with hm | hm
    · exact ih iov hm
    · have hsend : ∀ a b i, WPhase.Sends a i b → i.length ≤ 256 := by
        intro a b i hs
        cases hs with
        | data ds h1 h2 => rw [show (Spec.batch ds).length = _ from frameIovs_length ds]; omega
        | _ => simp
      cases hs with
      | sent _ _ i hs => simp [iovs] at hm; subst hm; exact hsend _ _ _ hs
      | sendFails _ _ i r hs _ => simp [iovs] at hm; subst hm; exact hsend _ _ _ hs
      | _ => simp [iovs] at hm

/-- **C11**, second part: over every history of calls, whatever the transport answers, no
transport write call gets more than 256 iovecs (below `IOV_MAX`). -/
theorem iovecs_bounded (ops : Ops σ) (obj : σ) (wopt : Option WriterOptions) (w w' : Writer σ)
    (calls : List WOp) (rs : List Res) (hcls : ops.cls ≠ none)
    (hinit : Writer.init wopt (Rdwr.init ops obj) = some w)
    (hrun : w.run calls = .ok (rs, w')) :
    ∀ iov ∈ iovs w'.rdwr.log, iov.length ≤ 256 :=
  trace_iovs (run_traced (WInv.init hinit hcls) hrun).2.2

/-- **C11** holds up to the size where `2 * iovcnt` overflows `int`: from 2^30 frames on,
`writev` on an opened writer is undefined behaviour. -/
theorem writev_overflow (w : Writer σ) (iov : List Bytes) (ho : w.state = .opened)
    (hl : iov.length ≥ 2^30) :
    w.writev iov = .error (.ub "signed overflow in 2 * iovcnt") := by
  unfold Writer.writev
  rw [if_neg (by omega)]
  have hm : w.maybeOpen = .ok (.success, w) := by
    unfold Writer.maybeOpen; rw [if_neg (by rw [ho]; simp)]
  rw [hm, Exec.ok_bind]
  simp only [ne_eq, not_true_eq_false, if_false, ho, if_true]
  rw [if_pos (by simp only [INT_MAX]; omega)]

/-- Lists of that length exist. -/
example : (List.replicate (2^30) ([] : Bytes)).length ≥ 2^30 := by
  rw [List.length_replicate]; exact Nat.le_refl _

/-- **C13**, the positive half (`_partial`): whatever the outcome of `write` on an opened
writer, it has handed over nothing or the frame with its length prefix, and when
the frame is shorter than 2^32 bytes the prefix read as a number is its length.
Missing: longer frames, see `large_frame_prefix_wrong`. -/
theorem write_prefix_partial (w w' : Writer σ) (d : Bytes) (r : Res) (ho : w.state = .opened)
    (hlen : d.length < 2^32) (h : w.write d = .ok (r, w')) :
    ∃ pre : Bytes, ntohl pre = d.length ∧ pre.length = 4 ∧
      (wrote w'.rdwr.log = wrote w.rdwr.log ++ pre ++ d ∨
       (r ≠ .success ∧ wrote w'.rdwr.log = wrote w.rdwr.log)) := by
  refine ⟨htonl d.length, ntohl_htonl hlen, rfl, ?_⟩
  obtain ⟨_, k, h1, h2, h3⟩ := writev_opened ho h
  simp only [List.length_cons, List.length_nil] at h1 h2
  by_cases hr : r = .success
  · left
    rw [h3, h2 hr]; simp [Spec.dataFrame, htonl_eq]
  · by_cases hk : k = 0
    · right; exact ⟨hr, by rw [h3, hk]; simp⟩
    · left
      rw [h3, show k = 1 by omega]; simp [Spec.dataFrame, htonl_eq]

/-- **C13** is false for larger frames: a frame of exactly 2^32 bytes is accepted and emitted
with the length prefix 0 (which marks a control frame). -/
theorem large_frame_prefix_wrong (w w' : Writer σ) (d : Bytes) (ho : w.state = .opened)
    (hlen : d.length = 2^32) (h : w.write d = .ok (.success, w')) :
    wrote w'.rdwr.log = wrote w.rdwr.log ++ [0, 0, 0, 0] ++ d := by
  obtain ⟨_, k, h1, h2, h3⟩ := writev_opened ho h
  rw [h3, h2 rfl]
  simp only [List.take_length, List.flatMap_cons, List.flatMap_nil, Spec.dataFrame, hlen,
    List.append_nil, List.append_assoc]
  rfl

/-- Such a call does succeed over the concrete transport. -/
example (d : Bytes) : ∃ w w' : Writer Pipe, w.state = .opened ∧ w.write d = .ok (.success, w') :=
  ⟨⟨.opened, [], ⟨pipeOps false true, ⟨[], [], true⟩, true, []⟩, none, none, none, none⟩, _, rfl, rfl⟩

/-- **C14**. Over every history of calls and whatever the transport answers, the callbacks
follow the phases of `Spec.WPhase`: data frames are handed over only after a
START frame has been written successfully on the same connection and before STOP
or any failure; after a close, a failed open or a failed write nothing is emitted
until the transport is opened again, and no data until a new START. -/
theorem writer_phases (ops : Ops σ) (obj : σ) (wopt : Option WriterOptions) (w w' : Writer σ)
    (calls : List WOp) (rs : List Res) (hcls : ops.cls ≠ none)
    (hinit : Writer.init wopt (Rdwr.init ops obj) = some w)
    (hrun : w.run calls = .ok (rs, w')) :
    ∃ q, WPhase.Trace .closed w'.rdwr.log q ∧ q ≠ .broken :=
  ⟨_, (run_traced (WInv.init hinit hcls) hrun).2.2, by
    split
    · split <;> simp
    · simp⟩

/-- A transport whose write callback fails from the `n`-th call on (state: calls
left). -/
def failingOps : Ops Nat where
  destroy := none
  opn := some fun s => .ok (.success, s)
  cls := some fun s => .ok (.success, s)
  rd := none
  wr := some fun _ s => match s with
    | 0 => .ok (.failure, 0)
    | n+1 => .ok (.success, n)

/-- After a failed write, further writes fail and emit nothing. -/
example : ((Writer.init none (Rdwr.init failingOps 2)).map fun w =>
    (w.run [.write [1], .write [2], .write [3], .close, .write [4]]).map
      fun p => (p.1, p.2.rdwr.log)) =
    some (.ok ([.success, .failure, .failure, .failure, .failure],
      [.opn .success, .wr [CFrame.wire ⟨.start, []⟩] .success, .wr [[0,0,0,1], [1]] .success,
       .wr [[0,0,0,1], [2]] .failure, .cls .success])) := by decide +kernel

/-- **C14**, after close: a write on a closed writer fails without touching anything. -/
theorem write_after_close (w : Writer σ) (iov : List Bytes) (hs : w.state = .closed)
    (hne : iov ≠ []) : w.writev iov = .ok (.failure, w) := by
  unfold Writer.writev
  have := List.length_pos_iff.2 hne
  rw [if_neg (by omega)]
  have hm : w.maybeOpen = .ok (.success, w) := by
    unfold Writer.maybeOpen; rw [if_neg (by rw [hs]; simp)]
  rw [hm, Exec.ok_bind]
  simp [hs]

/-- **C14**, after a failed write: as long as the transport is closed, writes fail without
touching it (up to the `int` overflow of `writev_overflow`). -/
theorem write_after_failure (w : Writer σ) (iov : List Bytes) (hs : w.state = .opened)
    (ho : w.rdwr.opened = false) (hne : iov ≠ []) (hl : iov.length < 2^30) :
    w.writev iov = .ok (.failure, w) := by
  have hw : ∀ iovs, w.rdwr.write iovs = .ok (.failure, w.rdwr) := by
    intro iovs; unfold Rdwr.write; simp [ho]
  have hpos := List.length_pos_iff.2 hne
  unfold Writer.writev
  rw [if_neg (by omega)]
  have hm : w.maybeOpen = .ok (.success, w) := by
    unfold Writer.maybeOpen; rw [if_neg (by rw [hs]; simp)]
  rw [hm, Exec.ok_bind]
  simp only [ne_eq, not_true_eq_false, if_false, hs, if_true]
  rw [if_neg (by simp only [INT_MAX]; omega)]
  split
  · rename_i h
    simp only [WRITER_IOVEC_SIZE] at h
    rw [writeIov_eq w iov (by omega), hw]; rfl
  · rename_i h
    simp only [WRITER_IOVEC_SIZE] at h
    obtain ⟨n, hn⟩ : ∃ n, iov.length = n + 1 := ⟨iov.length - 1, by omega⟩
    rw [hn]
    unfold Writer.writeIovStupid
    rw [if_pos (by omega), stupidMax_eq]
    simp only
    rw [writeIov_eq, hw]
    · rfl
    · rw [List.length_take]; split <;> omega

/-- Both situations are reached, see the history above; here the states. -/
example : ((Writer.init none (Rdwr.init failingOps 1)).map fun w =>
    (w.run [.opn, .write [2]]).map fun p => (p.2.state, p.2.rdwr.opened)) =
    some (.ok (.opened, false)) ∧
    ((Writer.init none (Rdwr.init failingOps 3)).map fun w =>
    (w.run [.opn, .write [2], .close]).map fun p => (p.1, p.2.state)) =
    some (.ok ([.success, .success, .success], .closed)) := by decide +kernel

/-! ### Content type negotiation -/

/-- The acceptance rule for a content type list as it is on the wire: an ACCEPT frame without
content types accepts everything. -/
def accepts (offered : List Bytes) (ct : Bytes) : Prop := offered = [] ∨ ct ∈ offered

theorem matchCt_accept (offered : List Bytes) (ct : Bytes) :
    Control.matchCt ⟨CType.accept.code, offered⟩ (some ct) = .success ↔ accepts offered ct := by
  rw [match_iff]
  simp [CType.visible, accepts]

theorem matchLoop_false (acc : Control) (cts : List Bytes) :
    (Writer.matchLoop acc cts false).1 = false := by
  induction cts with
  | nil => rfl
  | cons ct rest ih =>
    unfold Writer.matchLoop
    split
    · rfl
    · exact ih

/-- The writer's matching loop, exactly. -/
theorem matchLoop_char (offered cts : List Bytes) (ct : Option Bytes) :
    Writer.matchLoop ⟨CType.accept.code, offered⟩ cts true = (true, ct) ↔
      ct = cts.head? ∧ ∀ c, cts.head? = some c → accepts offered c := by
  cases cts with
  | nil => simp [Writer.matchLoop, eq_comm]
  | cons c rest =>
    unfold Writer.matchLoop
    by_cases h : Control.matchCt ⟨CType.accept.code, offered⟩ (some c) = .success
    · rw [if_pos h]
      rw [matchCt_accept] at h
      simp only [List.head?_cons, Option.some.injEq, Prod.mk.injEq, true_and]
      constructor
      · intro h2; exact ⟨h2.symm, fun c' hc => hc ▸ h⟩
      · intro h2; exact h2.1.symm
    · rw [if_neg h]
      have := matchLoop_false ⟨CType.accept.code, offered⟩ rest
      rw [matchCt_accept] at h
      constructor
      · intro h2; rw [h2] at this; cases this
      · rintro ⟨_, h2⟩; exact absurd (h2 c rfl) h

/-- **C16**. Whenever opening a bidirectional writer succeeds, then, whatever bytes the peer
sent: they contained a well-formed ACCEPT frame `f`; what was sent is READY with
all configured content types and START; and START carries no content type only
if the writer has none, and otherwise one of the writer's own content types that
`f` accepts (in fact the first one configured). -/
theorem negotiated_sound (w w' : Writer σ) (hbi : w.rdwr.ops.rd ≠ none)
    (hs : w.state ≠ .opened) (h : w.open = .ok (.success, w')) :
    ∃ (f : CFrame) (ct : Option Bytes), f.WF ∧ f.type = .accept ∧
      received w'.rdwr.log = received w.rdwr.log ++ f.wire ∧
      wrote w'.rdwr.log = wrote w.rdwr.log ++ CFrame.wire ⟨.ready, w.cts⟩ ++
        CFrame.wire ⟨.start, ct.toList⟩ ∧
      (ct = none → w.cts = []) ∧
      (∀ c, ct = some c → c ∈ w.cts ∧ accepts f.cts c) ∧ ct = w.cts.head? := by
  obtain ⟨f, h1, _, h3, _, h5, h6, _, _, _, h10⟩ := open_bi_success hbi hs h
  generalize hm : Writer.matchLoop ⟨CType.accept.code, f.cts⟩ w.cts true = m at h6 h10
  obtain ⟨b, ct⟩ := m
  simp only at h6 h10
  subst h6
  rw [matchLoop_char] at hm
  refine ⟨f, ct, h1, h3, h5, h10, ?_, ?_, hm.1⟩
  · intro hn; rw [hm.1] at hn; exact List.head?_eq_none_iff.1 hn
  · intro c hc
    have : w.cts.head? = some c := by rw [← hm.1]; exact hc
    exact ⟨List.mem_of_mem_head? this, hm.2 c this⟩

/-- A successful handshake over the concrete transport, with two types on each side. -/
example : ((Writer.init (some ⟨[[1], [2]]⟩) (Rdwr.init (pipeOps true true)
      ⟨CFrame.wire ⟨.accept, [[9], [1]]⟩, [], false⟩)).map fun w =>
    (w.run [.opn]).map fun p => (p.1, p.2.rdwr.obj.out)) =
    some (.ok ([.success],
      CFrame.wire ⟨.ready, [[1], [2]]⟩ ++ CFrame.wire ⟨.start, [[1]]⟩)) := by decide +kernel

/-- One session of successful calls ending in close, over a transport for which every successful
open writes `start`. -/
theorem session_wrote (ops : Ops σ) (cts : List Bytes) (start : Bytes)
    (hopen : ∀ w w' : Writer σ, w.rdwr.ops = ops → w.cts = cts → w.state ≠ .opened →
      w.open = .ok (.success, w') → wrote w'.rdwr.log = wrote w.rdwr.log ++ start) :
    ∀ (calls : List WOp) (w w' : Writer σ) (rs : List Res) (base : Bytes) (done : List Bytes),
    w.rdwr.ops = ops → w.cts = cts → WOp.close ∉ calls →
    w.run (calls ++ [.close]) = .ok (rs, w') → (∀ r ∈ rs, r = .success) →
    ((w.state ≠ .opened ∧ wrote w.rdwr.log = base ∧ done = []) ∨
     (w.state = .opened ∧ wrote w.rdwr.log = base ++ start ++ done.flatMap Spec.dataFrame)) →
    wrote w'.rdwr.log = base ++ start ++ (done ++ calls.flatMap WOp.frames).flatMap Spec.dataFrame ++
        CFrame.wire ⟨.stop, []⟩ ∧
      w'.state = .closed ∧ w'.cts = cts ∧ w'.rdwr.ops = ops := by
  intro calls
  induction calls with
  | nil =>
    intro w w' rs base done hu hct _ hrun hok hw
    obtain ⟨⟨r, w1⟩, h1, h⟩ := Exec.bind_eq_ok.1 hrun
    obtain ⟨⟨rs', w2⟩, h2, h⟩ := Exec.bind_eq_ok.1 h
    cases h2; cases h
    have hr : r = .success := hok r (by simp)
    subst hr
    have h1' : w.close = .ok (.success, w') := h1
    obtain ⟨a, b, c, _⟩ := close_success h1'
    have hf := close_frame h1'
    rcases hw with ⟨hs, _⟩ | ⟨_, hw⟩
    · exact absurd a hs
    · refine ⟨?_, b, hf.1.trans hct, hf.2.1.ops.trans hu⟩
      rw [c, hw]
      simp
  | cons op rest ih =>
    intro w w' rs base done hu hct hnc hrun hok hw
    simp only [List.mem_cons, not_or] at hnc
    obtain ⟨⟨r, w1⟩, h1, h⟩ := Exec.bind_eq_ok.1 hrun
    obtain ⟨⟨rs', w2⟩, h2, h⟩ := Exec.bind_eq_ok.1 h
    cases h
    have hr : r = .success := hok r (by simp)
    subst hr
    have hok' : ∀ r ∈ rs', r = .success := fun r hr => hok r (by simp [hr])
    rcases step_success (fun h => hnc.1 h.symm) h1 with ⟨rfl, hfr⟩ | ⟨w0, h3, h4, h5, h6, _, h7, _, h8⟩
    · simpa [hfr] using ih w1 w' rs' base done hu hct hnc.2 h2 hok' hw
    · have hw0 : wrote w0.rdwr.log = base ++ start ++ done.flatMap Spec.dataFrame := by
        rcases h3 with rfl | ⟨h9, h10⟩
        · rcases hw with ⟨hs, _⟩ | ⟨_, hw⟩
          · exact absurd h4 hs
          · exact hw
        · rcases hw with ⟨_, hw, hd⟩ | ⟨hs, _⟩
          · rw [hopen w w0 hu hct h9 h10, hw, hd]; simp
          · exact absurd hs h9
      have := ih w1 w' rs' base (done ++ op.frames) (h7.trans hu) (h6.trans hct)
        hnc.2 h2 hok' (Or.inr ⟨h5, by rw [h8, hw0]; simp⟩)
      refine ⟨?_, this.2.1, this.2.2.1, this.2.2.2⟩
      rw [this.1]; simp

/-- **C10** for bidirectional transports: if every call succeeds, whatever the peer answered, the
bytes handed to the transport are, per session, READY with all configured content types followed
by one complete stream. -/
theorem writer_stream_bidir (ops : Ops σ) (obj : σ) (wopt : Option WriterOptions) (w w' : Writer σ)
    (sessions : List (List WOp)) (rs : List Res)
    (hbi : ops.rd ≠ none)
    (hinit : Writer.init wopt (Rdwr.init ops obj) = some w)
    (hsess : ∀ s ∈ sessions, WOp.close ∉ s)
    (hrun : w.run (sessions.flatMap (· ++ [.close])) = .ok (rs, w'))
    (hok : ∀ r ∈ rs, r = .success) :
    wrote w'.rdwr.log = sessions.flatMap fun s =>
      CFrame.wire ⟨.ready, optCts wopt⟩ ++ Spec.stream (optCts wopt).head? (s.flatMap WOp.frames) := by
  obtain ⟨h1, h2, h3, _⟩ := init_some hinit
  have hst : w.state ≠ .opened := by rw [h1]; simp
  have hops : w.rdwr.ops = ops := by rw [h3]; rfl
  have hlog : wrote w.rdwr.log = [] := by rw [h3]; rfl
  clear hinit h1 h3
  have hopen : ∀ w w' : Writer σ, w.rdwr.ops = ops → w.cts = optCts wopt → w.state ≠ .opened →
      w.open = .ok (.success, w') → wrote w'.rdwr.log = wrote w.rdwr.log ++
        (CFrame.wire ⟨.ready, optCts wopt⟩ ++ CFrame.wire ⟨.start, (optCts wopt).head?.toList⟩) := by
    intro w w' ho hc hs h
    obtain ⟨f, ct, _, _, _, hw, _, _, he⟩ := negotiated_sound w w' (by rw [ho]; exact hbi) hs h
    rw [hw, he, hc, List.append_assoc]
  suffices H : ∀ (sessions : List (List WOp)) (w : Writer σ) (rs : List Res) (base : Bytes),
      w.state ≠ .opened → w.cts = optCts wopt → w.rdwr.ops = ops → wrote w.rdwr.log = base →
      (∀ s ∈ sessions, WOp.close ∉ s) →
      w.run (sessions.flatMap (· ++ [.close])) = .ok (rs, w') → (∀ r ∈ rs, r = .success) →
      wrote w'.rdwr.log = base ++ sessions.flatMap fun s =>
        CFrame.wire ⟨.ready, optCts wopt⟩ ++
          Spec.stream (optCts wopt).head? (s.flatMap WOp.frames) by
    simpa using H sessions w rs [] hst h2 hops hlog hsess hrun hok
  intro sessions
  induction sessions with
  | nil => intro w rs base _ _ _ hb _ hrun _; cases hrun; simpa using hb
  | cons s rest ih =>
    intro w rs base hst hcts hu hb hs hrun hok
    rw [List.flatMap_cons, run_append] at hrun
    obtain ⟨r1, w1, r2, h1, h2, rfl⟩ := hrun
    obtain ⟨a, b, c, d⟩ := session_wrote ops (optCts wopt) _ hopen s w w1 r1 base [] hu hcts
      (hs s (by simp)) h1 (fun r hr => hok r (by simp [hr])) (Or.inl ⟨hst, hb, rfl⟩)
    have := ih w1 r2 _ (by rw [b]; simp) c d rfl
      (fun s hs' => hs s (by simp [hs'])) h2 (fun r hr => hok r (by simp [hr]))
    rw [this, a]
    simp [Spec.stream]

/-- The hypotheses are met: a peer that accepts and finishes a session with two frames. -/
example : ((Writer.init (some ⟨[[1], [2]]⟩) (Rdwr.init (pipeOps true true)
      ⟨CFrame.wire ⟨.accept, [[9], [1]]⟩ ++ CFrame.wire ⟨.finish, []⟩, [], false⟩)).map fun w =>
    (w.run ([[WOp.write [7], .writev [[8]]]].flatMap (· ++ [.close]))).map
      fun p => (p.1, wrote p.2.rdwr.log)) =
    some (.ok ([.success, .success, .success],
      CFrame.wire ⟨.ready, [[1], [2]]⟩ ++ Spec.stream (some [1]) [[7], [8]])) := by decide +kernel

/-- **C15**, what the code does: over a reliable transport on which the peer's ACCEPT frame `f`
arrives, opening succeeds if and only if the writer has no content types or its
*first* one is accepted. (The READY frame must be encodable.) -/
theorem writer_open_bidir_partial {rem : σ → Option Bytes} {eof : Res} (w : Writer σ) (rw : Rdwr σ)
    (f : CFrame) (rest : Bytes)
    (hs : w.state ≠ .opened)
    (hopen : w.rdwr.open = .ok (.success, rw)) (hrem : rem rw.obj = some (f.wire ++ rest))
    (hsrc : ByteSource rw.ops rem eof) (hsink : ByteSink rw.ops rem)
    (hf : f.WF) (hfl : f.payload.length ≤ 512) (hft : f.type = .accept)
    (hct : ∀ ct ∈ w.cts, ct.length ≤ 256) (hready : (CFrame.wire ⟨.ready, w.cts⟩).length ≤ 512) :
    ∃ r w', w.open = .ok (r, w') ∧
      (r = .success ↔ w.cts = [] ∨ ∃ c rest, w.cts = c :: rest ∧ accepts f.cts c) := by
  obtain ⟨ho, hol⟩ := Rdwr.open_ok hopen
  have hopn : rw.opened = true := by
    rcases hol with ⟨_, h, _⟩ | ⟨_, h⟩
    · cases h
    · simpa using h
  obtain ⟨rd, hrd, _⟩ := hsrc.rd
  have hat : At rem eof rw (f.wire ++ rest) := ⟨hsrc, hopn, hrem⟩
  obtain ⟨rw1, h1, a1, o1⟩ := hat.write hsink [CFrame.wire ⟨.ready, w.cts⟩]
  obtain ⟨rw2, h2, a2, o2⟩ := a1.readControl w.accept .accept hf hfl
  rw [if_pos hft] at h2
  have hwf : rw.writeControlFrame ⟨CType.ready.code, w.cts⟩ = .ok (.success, rw1) := by
    rw [writeControlFrame_eq, if_pos ⟨hct, hready⟩]; exact h1
  have key : w.open = (do
      let (res, w) ← ({ w with rdwr := rw } : Writer σ).openBidirectional
      if res ≠ .success then .ok (res, w)
      else .ok (.success, { w with state := .opened })) := by
    unfold Writer.open
    rw [if_neg hs, hopen, Exec.ok_bind]
    simp only [ne_eq, not_true_eq_false, if_false, hrd, Option.isSome_some, if_true]
  rw [key, openBidirectional_eq]
  simp only
  rw [hwf, Exec.ok_bind]
  simp only [ne_eq, not_true_eq_false, if_false]
  rw [show rw1.readControl w.accept T_ACCEPT = _ from h2, Exec.ok_bind]
  simp only [not_true_eq_false, if_false, hft]
  generalize hm : Writer.matchLoop ⟨CType.accept.code, f.cts⟩ w.cts true = m
  obtain ⟨b, ct⟩ := m
  have hhead : (w.cts = [] ∨ ∃ c rest, w.cts = c :: rest ∧ accepts f.cts c) ↔
      ∀ c, w.cts.head? = some c → accepts f.cts c := by
    cases w.cts with
    | nil => simp
    | cons c rest => simp
  rw [hhead]
  cases b with
  | false =>
    refine ⟨.failure, { w with ready := some ⟨CType.ready.code, w.cts⟩, rdwr := rw2,
                               accept := some ⟨CType.accept.code, f.cts⟩ }, rfl, ?_⟩
    constructor
    · intro h; cases h
    · intro h
      have := (matchLoop_char f.cts w.cts w.cts.head?).2 ⟨rfl, h⟩
      rw [this] at hm; cases hm
  | true =>
    rw [matchLoop_char] at hm
    have hcl : ∀ c ∈ ct.toList, c.length ≤ 256 := by
      intro c hc
      have : w.cts.head? = some c := by
        rw [← hm.1]; simpa using hc
      exact hct c (List.mem_of_mem_head? this)
    have hsl : (CFrame.wire ⟨.start, ct.toList⟩).length ≤ 512 := by
      cases ct with
      | none => decide +kernel
      | some c =>
        have := hcl c (by simp)
        simp [CFrame.wire, CFrame.payload, length_field]; omega
    obtain ⟨rw3, h3, a3, o3⟩ := a2.write (by rw [o2, o1]; exact hsink)
      [CFrame.wire ⟨.start, ct.toList⟩]
    have hst : rw2.writeControlFrame ⟨CType.start.code, ct.toList⟩ = .ok (.success, rw3) := by
      rw [writeControlFrame_eq, visible_toList, if_pos ⟨hcl, hsl⟩]; exact h3
    have hr : (.success = Res.success ↔ ∀ c, w.cts.head? = some c → accepts f.cts c) :=
      ⟨fun _ => hm.2, fun _ => rfl⟩
    simp only [sendStart_eq, hst, Exec.ok_bind, Bool.not_true, Bool.false_eq_true, if_false,
      not_true_eq_false]
    exact ⟨_, _, rfl, hr⟩

theorem pipe_source (hasWr : Bool) : ByteSource (pipeOps true hasWr) Pipe.left .stop := by
  refine ⟨by simp, _, rfl, ?_⟩
  intro n s bs _ hb
  cases hb
  by_cases h : n ≤ s.inp.length
  · rw [if_pos h]; exact ⟨_, if_pos h, rfl⟩
  · rw [if_neg h]
    refine ⟨_, if_neg h, ?_⟩
    intro g hg
    cases hg
    exact ⟨_, _, rfl⟩

theorem pipe_sink (hasRd : Bool) : ByteSink (pipeOps hasRd true) Pipe.left :=
  ⟨_, rfl, fun _ _ _ h => ⟨_, rfl, h⟩⟩

/-- The concrete transport meets the hypotheses of `writer_open_bidir_partial`. -/
example : ∃ rw : Rdwr Pipe, (Rdwr.init (pipeOps true true)
      ⟨CFrame.wire ⟨.accept, [[9], [1]]⟩, [], false⟩).open = .ok (.success, rw) ∧
    rw.obj.inp = CFrame.wire ⟨.accept, [[9], [1]]⟩ ++ [] ∧
    ByteSource rw.ops Pipe.left .stop ∧ ByteSink rw.ops Pipe.left :=
  ⟨_, rfl, (List.append_nil _).symm, pipe_source true, pipe_sink true⟩

/-- **C15** is false: a writer offering [1] and [2] to a peer that accepts [2] fails to open,
although one of its content types is acceptable. -/
theorem negotiation_needs_first :
    ((Writer.init (some ⟨[[1], [2]]⟩) (Rdwr.init (pipeOps true true)
      ⟨CFrame.wire ⟨.accept, [[2]]⟩, [], false⟩)).map fun w =>
        (w.run [.opn]).map fun p => (p.1, p.2.accept)) =
      some (.ok ([.failure], some ⟨CType.accept.code, [[2]]⟩)) ∧
    accepts [[2]] [2] := by
  constructor
  · decide +kernel
  · right; simp

/-! ### Transport discipline -/

/-- **C28** for writers: over every history of calls, whatever the transport answers, read and
write callbacks are invoked only while it is open, close at most once per
successful open, and after a failed read or write close comes before anything
else; the same including a final destroy. -/
theorem writer_discipline (ops : Ops σ) (obj : σ) (wopt : Option WriterOptions) (w w' : Writer σ)
    (calls : List WOp) (rs : List Res) (hcls : ops.cls ≠ none)
    (hinit : Writer.init wopt (Rdwr.init ops obj) = some w)
    (hrun : w.run calls = .ok (rs, w')) :
    (∃ p, Phase.closed.run w'.rdwr.log = some p ∧ p ≠ .broken) ∧
    ∀ r rw, w'.destroy = .ok (r, rw) → ∃ p, Phase.closed.run rw.log = some p ∧ p ≠ .broken := by
  obtain ⟨_, _, h3, _⟩ := init_some hinit
  have hd : Disc w'.rdwr := (by rw [h3]; exact Disc.init hcls : Disc w.rdwr).reach (run_reach hrun)
  refine ⟨⟨_, hd.2, by split <;> simp⟩, ?_⟩
  intro r rw h
  unfold Writer.destroy at h
  obtain ⟨⟨res, w2⟩, h1, h⟩ := Exec.bind_eq_ok.1 h
  obtain ⟨⟨res2, rw2⟩, h2, h⟩ := Exec.bind_eq_ok.1 h
  cases h
  have hd2 : Disc w2.rdwr := by
    split at h1
    · exact hd.reach (close_frame h1).2.1
    · cases h1; exact hd
  unfold Rdwr.destroy at h2
  split at h2
  · cases h2; exact ⟨_, hd2.2, by split <;> simp⟩
  · obtain ⟨⟨res3, obj3⟩, _, h2⟩ := Exec.bind_eq_ok.1 h2
    cases h2
    refine ⟨.gone, ?_, by simp⟩
    simp only
    rw [Phase.run_append, hd2.2]
    cases w2.rdwr.opened <;> rfl

/-- A history exercising failures: see the example after `writer_phases`; its log in
the discipline automaton. -/
example : Phase.closed.run [.opn .success, .wr [[1]] .success, .wr [[2]] .failure, .cls .success] =
      some .closed ∧
    Phase.closed.run [.opn .success, .wr [[1]] .failure, .wr [[2]] .success] = none ∧
    Phase.closed.run [.opn .success, .cls .success, .cls .success] = none := by decide +kernel

/-- The unidirectional invariant: a transport that is open belongs to an opened
writer. -/
def UInv (w : Writer σ) : Prop :=
  w.rdwr.ops.rd = none ∧ w.rdwr.ops.wr ≠ none ∧ w.rdwr.ops.cls ≠ none ∧
    (∀ ct ∈ w.cts, ct.length ≤ 256) ∧ (w.state = .opened ∨ w.rdwr.opened = false)

theorem UInv.open {w w' : Writer σ} {r : Res} (hi : UInv w) (h : w.open = .ok (r, w')) :
    UInv w' := by
  have hf := open_frame h
  obtain ⟨h1, h2, h3, h4, h5⟩ := hi
  have hops := hf.2.1.ops
  refine ⟨by rw [hops]; exact h1, by rw [hops]; exact h2, by rw [hops]; exact h3,
    by rw [hf.1]; exact h4, ?_⟩
  by_cases hr : r = .success
  · exact Or.inl (hf.2.2.1 hr)
  · right
    unfold Writer.open at h
    split at h
    · cases h; exact absurd rfl hr
    · rename_i hns
      have hcl : w.rdwr.opened = false := by
        rcases h5 with h5 | h5
        · exact absurd h5 hns
        · exact h5
      obtain ⟨⟨res, rw⟩, g1, h⟩ := Exec.bind_eq_ok.1 h
      obtain ⟨go, g2⟩ := Rdwr.open_ok g1
      simp only at h
      split at h
      · rename_i hne
        cases h
        rcases g2 with ⟨_, _, rfl⟩ | ⟨_, g3⟩
        · exact hcl
        · rw [g3, hcl]; simpa using hne
      · rw [go, h1] at h
        simp only [Option.isSome_none, Bool.false_eq_true, if_false] at h
        obtain ⟨⟨res, w2⟩, g3, h⟩ := Exec.bind_eq_ok.1 h
        rw [openUnidirectional_eq] at g3
        obtain ⟨rw3, g4, rfl⟩ := sendStart_ok g3
        simp only at h
        split at h
        · rename_i hne
          cases h
          simp only
          rw [writeControlFrame_eq, visible_toList] at g4
          have hcl : ∀ c ∈ w.cts.head?.toList, c.length ≤ 256 := by
            intro c hc
            have : w.cts.head? = some c := by simpa using hc
            exact h4 c (List.mem_of_mem_head? this)
          have hsl : (CFrame.wire ⟨.start, w.cts.head?.toList⟩).length ≤ 512 := by
            cases hh : w.cts.head? with
            | none => decide +kernel
            | some c =>
              have := hcl c (by simp [hh])
              simp [CFrame.wire, CFrame.payload, length_field]; omega
          rw [if_pos ⟨hcl, hsl⟩] at g4
          obtain ⟨_, g5⟩ := Rdwr.write_ok g4
          rcases g5 with ⟨g6, _, g7⟩ | ⟨_, g6, _⟩ | ⟨_, _, ⟨g6, _⟩ | ⟨_, g6, _⟩⟩
          · rw [g7]
            rcases g6 with g6 | g6
            · exact g6
            · simp only at g6; rw [go] at g6; exact absurd g6 h2
          · exact absurd g6 hne
          · simp only at g6; rw [go] at g6; exact absurd g6 h3
          · exact g6
        · cases h; exact absurd rfl hr

theorem UInv.maybeOpen {w w' : Writer σ} {r : Res} (hi : UInv w) (h : w.maybeOpen = .ok (r, w')) :
    UInv w' := by
  rcases maybeOpen_cases h with ⟨rfl, _⟩ | ⟨_, h⟩
  · exact hi
  · exact hi.open h

theorem UInv.writev {w w' : Writer σ} {iov : List Bytes} {r : Res} (hi : UInv w)
    (h : w.writev iov = .ok (r, w')) : UInv w' := by
  have hf := writev_frame h
  by_cases hs : w.state = .opened
  · have := (writev_opened hs h).1
    obtain ⟨h1, h2, h3, h4, h5⟩ := hi
    have hops := hf.2.ops
    exact ⟨by rw [hops]; exact h1, by rw [hops]; exact h2, by rw [hops]; exact h3,
      by rw [hf.1]; exact h4, Or.inl this⟩
  · unfold Writer.writev at h
    split at h
    · cases h; exact hi
    · rename_i hlen
      obtain ⟨⟨res, w1⟩, g1, h⟩ := Exec.bind_eq_ok.1 h
      have f1 := hi.maybeOpen g1
      simp only at h
      split at h
      · cases h; exact f1
      · split at h
        · rename_i hst
          have hrest : w'.state = .opened ∧ Reach w1.rdwr w'.rdwr ∧ w'.cts = w1.cts := by
            split at h
            · cases h
            · split at h
              · rename_i hl
                simp only [WRITER_IOVEC_SIZE] at hl
                obtain ⟨rw, g2, rfl⟩ := writeIov_ok (by omega) h
                exact ⟨hst, .wr g2, rfl⟩
              · obtain ⟨a, b, c⟩ := writeIovStupid_frame _ _ _ _ _ h
                exact ⟨b.trans hst, c, a⟩
          obtain ⟨h1, h2, h3, h4, h5⟩ := f1
          have hops := hrest.2.1.ops
          exact ⟨by rw [hops]; exact h1, by rw [hops]; exact h2, by rw [hops]; exact h3,
            by rw [hrest.2.2]; exact h4, Or.inl hrest.1⟩
        · cases h; exact f1

theorem UInv.run {w w' : Writer σ} {calls : List WOp} {rs : List Res} (hi : UInv w) (ht : WInv w)
    (h : w.run calls = .ok (rs, w')) : UInv w' ∧ WInv w' := by
  induction calls generalizing w rs with
  | nil => cases h; exact ⟨hi, ht⟩
  | cons op rest ih =>
    obtain ⟨⟨r, w1⟩, h1, h⟩ := Exec.bind_eq_ok.1 h
    obtain ⟨⟨rs', w2⟩, h2, h⟩ := Exec.bind_eq_ok.1 h
    cases h
    refine ih ?_ (step_traced ht h1) h2
    cases op with
    | opn => exact hi.open h1
    | write d => exact UInv.writev (iov := [d]) hi h1
    | writev ds => exact hi.writev h1
    | getControl t =>
      obtain ⟨⟨res, c, w2⟩, h3, h4⟩ := Exec.bind_eq_ok.1 h1
      cases h4
      obtain ⟨r', h5, _⟩ := getControl_maybeOpen h3
      exact hi.maybeOpen h5
    | close =>
      have h1' : w.close = .ok (r, w1) := h1
      have hf := close_frame h1'
      by_cases hs : w.state = .opened
      · obtain ⟨h6, h7, h8, h9, _⟩ := hi
        have hops := hf.2.1.ops
        exact ⟨by rw [hops]; exact h6, by rw [hops]; exact h7, by rw [hops]; exact h8,
          by rw [hf.1]; exact h9, Or.inr ((close_traced ht h1').2 hs)⟩
      · rw [(hf.2.2.1 hs).2]; exact hi

/-- **C29** for writers, `_partial`: after any history of calls and `fstrm_writer_destroy`, a
unidirectional transport has been closed (content types at most 256 bytes, which
is all `fstrm_writer_options_add_content_type` accepts). Missing: bidirectional
transports, for which it is false (`writer_destroy_leaks`). -/
theorem writer_destroy_closes_partial (ops : Ops σ) (obj : σ) (wopt : Option WriterOptions)
    (w w' : Writer σ) (calls : List WOp) (rs : List Res) (r : Res) (rw : Rdwr σ)
    (hcls : ops.cls ≠ none) (huni : ops.rd = none)
    (hct : ∀ ct ∈ optCts wopt, ct.length ≤ 256)
    (hinit : Writer.init wopt (Rdwr.init ops obj) = some w)
    (hrun : w.run calls = .ok (rs, w')) (hd : w'.destroy = .ok (r, rw)) :
    ∃ l, (rw.log = l ∨ ∃ rd, rw.log = l ++ [.destroy rd]) ∧ Phase.closed.run l = some .closed := by
  obtain ⟨a1, a2, a3, a4⟩ := init_some hinit
  have hu : UInv w := ⟨by rw [a3]; exact huni, by rw [a3]; exact a4, by rw [a3]; exact hcls,
    by rw [a2]; exact hct, Or.inr (by rw [a3]; rfl)⟩
  obtain ⟨hu', ht'⟩ := hu.run (WInv.init hinit hcls) hrun
  have hdisc : Disc w'.rdwr :=
    (by rw [a3]; exact Disc.init hcls : Disc w.rdwr).reach (run_reach hrun)
  unfold Writer.destroy at hd
  obtain ⟨⟨res, w2⟩, h1, hd⟩ := Exec.bind_eq_ok.1 hd
  obtain ⟨⟨res2, rw2⟩, h2, hd⟩ := Exec.bind_eq_ok.1 hd
  cases hd
  have hd2 : Disc w2.rdwr ∧ w2.rdwr.opened = false := by
    split at h1
    · rename_i hs
      exact ⟨hdisc.reach (close_frame h1).2.1, (close_traced ht' h1).2 hs⟩
    · rename_i hs
      cases h1
      refine ⟨hdisc, ?_⟩
      rcases hu'.2.2.2.2 with h | h
      · exact absurd h hs
      · exact h
  have hrun2 := hd2.1.2
  rw [hd2.2] at hrun2
  unfold Rdwr.destroy at h2
  split at h2
  · cases h2; exact ⟨_, Or.inl rfl, by simpa using hrun2⟩
  · obtain ⟨⟨res3, obj3⟩, _, h2⟩ := Exec.bind_eq_ok.1 h2
    cases h2
    exact ⟨_, Or.inr ⟨_, rfl⟩, by simpa using hrun2⟩

example : ((Writer.init (some ⟨[[1]]⟩) (Rdwr.init (pipeOps false true) ⟨[], [], false⟩)).map
    fun w => (do
      let (_, w) ← w.run [.opn, .write [1]]
      let (_, rw) ← w.destroy
      Except.ok rw.obj.isOpen : Exec Bool)) = some (.ok false) := by decide +kernel

/-- **C29** is false for bidirectional writers: after a handshake that failed because the peer
accepts none of the writer's content types, destroying the writer leaves the
transport open. -/
theorem writer_destroy_leaks :
    ((Writer.init (some ⟨[[1]]⟩) (Rdwr.init (pipeOps true true)
        ⟨CFrame.wire ⟨.accept, [[2]]⟩, [], false⟩)).map fun w => (do
      let (rs, w) ← w.run [.opn]
      let (_, rw) ← w.destroy
      Except.ok (rs, rw.obj.isOpen) : Exec (List Res × Bool))) =
    some (.ok ([.failure], true)) := by decide +kernel

end Fstrm.Props
