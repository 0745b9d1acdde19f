import Verif.Lemmas.ReplayFleet
import Verif.Lemmas.FleetPipe
import Verif.Lemmas.IoFleet

/-! `fstrm_replay` over a connection of limited capacity. -/

set_option autoImplicit false

namespace Fstrm

open Spec Props

section
variable {σ : Type}

/-- Writing `ds` gets stuck. -/
def Blocks (w : Writer σ) (ds : List Bytes) (e : Stuck) : Prop :=
  ∃ a d b w1, ds = a ++ d :: b ∧ Wrote w a w1 ∧ w1.write d = .error e

theorem Wrote.nil (w : Writer σ) : Wrote w [] w := ⟨[], rfl, by simp⟩

theorem Wrote.cons {w w1 w2 : Writer σ} {d : Bytes} {ds : List Bytes} (h : w.write d = .ok (.success, w1))
    (h2 : Wrote w1 ds w2) : Wrote w (d :: ds) w2 := by
  refine Wrote.append (a := [d]) ⟨[.success], ?_, by simp⟩ h2
  simp only [List.map_cons, List.map_nil, Writer.run, Writer.step]
  rw [h]
  rfl

theorem Blocks.cons {w : Writer σ} {d : Bytes} {ds : List Bytes} {e : Stuck} (h : Blocks w (d :: ds) e) :
    w.write d = .error e ∨ ∃ w1, w.write d = .ok (.success, w1) ∧ Blocks w1 ds e := by
  obtain ⟨a, x, b, w1, h1, h2, h3⟩ := h
  cases a with
  | nil =>
    cases h1
    obtain ⟨rs, k1, _⟩ := h2
    cases k1
    exact Or.inl h3
  | cons y a =>
    obtain ⟨rfl, h4⟩ := List.cons.inj h1
    obtain ⟨w2, g1, g2⟩ := Wrote.split (a := [d]) (b := a) h2
    exact Or.inr ⟨w2, g1.one, a, x, b, w1, h4, g2, h3⟩

theorem Blocks.split {w : Writer σ} {a b : List Bytes} {e : Stuck} (h : Blocks w (a ++ b) e) :
    Blocks w a e ∨ ∃ w1, Wrote w a w1 ∧ Blocks w1 b e := by
  obtain ⟨a', x, b', w1, h1, h2, h3⟩ := h
  rcases List.append_eq_append_iff.1 h1 with ⟨u, hu1, hu2⟩ | ⟨u, hu1, hu2⟩
  · subst hu1
    obtain ⟨w2, g1, g2⟩ := h2.split
    exact Or.inr ⟨w2, g1, u, x, b', w1, hu2, g2, h3⟩
  · cases u with
    | nil =>
      rw [List.append_nil] at hu1
      subst hu1
      exact Or.inr ⟨w1, h2, [], x, b', w1, hu2.symm, Wrote.nil _, h3⟩
    | cons y u =>
      rw [List.cons_append] at hu2
      obtain ⟨rfl, hu2⟩ := List.cons.inj hu2
      exact Or.inl ⟨a', x, u, w1, hu1, h2, h3⟩

theorem replayLoop_blocks (fuel : Nat) : ∀ (n : Nat) (r r1 : Reader FileSt) (w : Writer σ)
    (ds : List Bytes) (e : Stuck) (last : Option Res), r.readLoop fuel n = .ok (ds.map some, last, r1) → Blocks w ds e →
    replayLoop fuel n r w = .error e := by
  intro n
  induction n with
  | zero =>
    intro r r1 w ds e last h hw
    unfold Reader.readLoop at h
    cases ds with
    | nil => obtain ⟨a, _, _, _, h1, _⟩ := hw; cases a <;> cases h1
    | cons x ds => simp at h
  | succ n ih =>
    intro r r1 w ds e last h hw
    unfold Reader.readLoop at h
    obtain ⟨⟨res, d, r2⟩, h1, h⟩ := Exec.bind_eq_ok.1 h
    simp only at h
    unfold replayLoop
    rw [h1, Exec.ok_bind]
    simp only
    split at h
    · rename_i hs
      obtain ⟨⟨ds2, last2, r3⟩, h2, h⟩ := Exec.bind_eq_ok.1 h
      cases ds with
      | nil => simp at h
      | cons x ds =>
        simp only [List.map_cons, Except.ok.injEq, Prod.mk.injEq, List.cons.injEq] at h
        obtain ⟨⟨hx, hds⟩, hl, hr3⟩ := h
        subst hx hds hl hr3
        rw [if_pos hs]
        simp only
        rcases hw.cons with g | ⟨w1, g1, g2⟩
        · rw [g]; rfl
        · rw [g1, Exec.ok_bind]
          simp only [ne_eq, not_true_eq_false, if_false]
          exact ih _ _ _ _ _ _ h2 g2
    · cases ds with
      | nil => obtain ⟨a, _, _, _, h1, _⟩ := hw; cases a <;> cases h1
      | cons x ds => simp at h

theorem processFile_blocks {fuel : Nat} {ct : Bytes} {f : ReplayFile} {w : Writer σ} {e : Stuck}
    {items : List Item} (hv : ValidFile ct f items) (hct : ct.length ≤ 256)
    (hfuel : items.length + 2 ≤ fuel) (hw : Blocks w (datas items) e) :
    processFile fuel ct f.path f.disk f.script w = .error e := by
  obtain ⟨hp, hsc, hitems, fct, rest, hfct, hdisk⟩ := hv
  rw [hp, hsc, hdisk]
  unfold processFile
  have hinit : ∃ r, fileReaderInit .file none (some (CFrame.wire ⟨.start, fct.toList⟩ ++
      (wires items ++ (CFrame.wire ⟨.stop, []⟩ ++ rest)))) [] = some r := ⟨_, rfl⟩
  obtain ⟨r, hr⟩ := hinit
  rw [hr]
  simp only
  obtain ⟨hf, _, _⟩ := fileReader_fresh hr
  obtain ⟨r1, r2, g1, g2, g3, g4, g5⟩ := valid_reads fuel fct items rest r hr
    (by rintro c rfl; rcases hfct with h | h; · cases h
        · cases h; exact hct) hitems hfuel
  have hgc : r.getControl T_START = .ok (.success, some ⟨T_START, fct.toList⟩, r1) := by
    unfold Reader.getControl Reader.maybeOpen
    rw [if_pos hf.state, g1, Exec.ok_bind]
    simp [g3]
  rw [hgc, Exec.ok_bind]
  simp only [ne_eq, not_true_eq_false, if_false]
  rw [if_neg (by rw [(matchCt_start fct ct).2 hfct]; simp),
    replayLoop_blocks fuel fuel r1 r2 w _ e _ g4 hw]
  rfl

theorem replayFiles_blocks {fuel : Nat} {ct : Bytes} {e : Stuck} (hct : ct.length ≤ 256) :
    ∀ (files : List (ReplayFile × List Item)) (w : Writer σ),
    (∀ p ∈ files, ValidFile ct p.1 p.2 ∧ p.2.length + 2 ≤ fuel) →
    Blocks w (files.flatMap fun p => datas p.2) e →
    replayFiles fuel ct (files.map (·.1)) w = .error e := by
  intro files
  induction files with
  | nil =>
    intro w _ h
    obtain ⟨a, _, _, _, h1, _⟩ := h
    cases a <;> cases h1
  | cons f files ih =>
    intro w hv h
    rw [List.flatMap_cons] at h
    obtain ⟨v1, v2⟩ := hv f (by simp)
    rw [List.map_cons]
    unfold replayFiles
    rcases h.split with h | ⟨w1, h1, h2⟩
    · rw [processFile_blocks v1 hct v2 h]; rfl
    · rw [processFile_complete v1 hct v2 h1, Exec.ok_bind]
      simp only
      rw [if_neg (by decide), ih _ (fun p hp => hv p (by simp [hp])) h2]
      rfl

end

/-- Writing frames over a connection that takes `c` bytes. -/
theorem wrote_cut (c : Nat) : ∀ (ds : List Bytes) (w w' : Writer Chan), w.rdwr.ops = chanOps →
    w.rdwr.obj.out.length ≤ c → Wrote w ds w' →
    w'.rdwr.ops = chanOps ∧ w.rdwr.obj.out <+: w'.rdwr.obj.out ∧
    if w'.rdwr.obj.out.length ≤ c then Wrote (Pipe.lim c w) ds (Pipe.lim c w')
    else Blocks (Pipe.lim c w) ds (.full (w'.rdwr.obj.out.take c)) := by
  intro ds
  induction ds with
  | nil =>
    intro w w' h hl hw
    obtain ⟨rs, k1, _⟩ := hw
    cases k1
    refine ⟨h, List.prefix_refl _, ?_⟩
    rw [if_pos hl]
    exact Wrote.nil _
  | cons d ds ih =>
    intro w w' h hl hw
    obtain ⟨w1, g1, g2⟩ := Wrote.split (a := [d]) (b := ds) hw
    have hcut := Writer.writev_cut (c := c) w h [d]
    obtain ⟨k1, k2⟩ := hcut.okGrow _ g1.one
    have k1 : w1.rdwr.ops = chanOps := k1
    have k2 : w.rdwr.obj.out <+: w1.rdwr.obj.out := k2
    have k3 := hcut.ok hl _ g1.one
    have k3 : Writer.write (Pipe.lim c w) d = if w1.rdwr.obj.out.length ≤ c then
      .ok (.success, Pipe.lim c w1) else .error (.full (w1.rdwr.obj.out.take c)) := k3
    by_cases hle : w1.rdwr.obj.out.length ≤ c
    · rw [if_pos hle] at k3
      obtain ⟨m1, m2, m3⟩ := ih w1 w' k1 hle g2
      refine ⟨m1, k2.trans m2, ?_⟩
      split
      · rename_i h3
        rw [if_pos h3] at m3
        exact Wrote.cons k3 m3
      · rename_i h3
        rw [if_neg h3] at m3
        obtain ⟨a, x, b, w2, n1, n2, n3⟩ := m3
        exact ⟨d :: a, x, b, w2, by rw [n1]; rfl, Wrote.cons k3 n2, n3⟩
    · rw [if_neg hle] at k3
      -- what follows only adds
      obtain ⟨rs, e, _⟩ := g2
      obtain ⟨m1, m2⟩ := (Writer.run_cut (c := c) (ds.map WOp.write) w1 k1).okGrow _ e
      have m1 : w'.rdwr.ops = chanOps := m1
      have m2 : w1.rdwr.obj.out <+: w'.rdwr.obj.out := m2
      refine ⟨m1, k2.trans m2, ?_⟩
      rw [if_neg (by have := m2.length_le; omega)]
      exact ⟨[], d, ds, _, rfl, Wrote.nil _, by rw [k3, prefix_take_eq m2 (by omega)]⟩

section
variable {ct : Bytes} {hw fuel : Nat} {job : ReplayJob}

/-- The part of a replay after its writer was opened. -/
def replayRest (fuel : Nat) (ct : Bytes) (files : List ReplayFile) (w : Writer Chan) : Side (ReplayOut Chan) :=
  fun _ => do
    let o ← (do
      let (flow, msgs, w) ← replayFiles fuel ct files w
      if flow = .exited then .ok ⟨1, msgs, some w.rdwr⟩
      else do
        let (res, w) ← w.close
        let msgs := if res ≠ .success then msgs ++ [.error "fstrm_writer_close"] else msgs
        let (_, rdwr) ← w.destroy
        .ok ⟨0, msgs, some rdwr⟩ : Exec (ReplayOut Chan))
    .ok (o, match o.rdwr with
      | none => []
      | some rw => rw.obj.out)

theorem replayPipe_init (hct : ct.length ≤ 256) (files : List ReplayFile) (y : Bytes) (c : Nat) {w : Writer Chan}
    (h1 : Writer.init (some ⟨[ct]⟩) (Rdwr.init chanOps ⟨y, []⟩) = some w) :
    (∀ e, (Pipe.lim c w).open = .error e → replayPipe fuel ct files c y = .error e) ∧
    ∀ w1, (Pipe.lim c w).open = .ok (.success, w1) →
      replayPipe fuel ct files c y = replayRest fuel ct files w1 y := by
  have e' : Writer.init (some ⟨[ct]⟩) (Rdwr.init (pipeOps c) ⟨y, []⟩) = some (Pipe.lim c w) := by
    unfold Writer.init at h1 ⊢
    rw [if_neg (by simp [Rdwr.init, chanOps])] at h1
    rw [if_neg (by simp [Rdwr.init, pipeOps, chanOps])]
    cases h1
    rfl
  constructor
  · intro e he
    unfold replayPipe replay initWriter
    rw [addCt_ok hct]
    simp only [ne_eq, not_true_eq_false, if_false]
    rw [e']
    simp only
    rw [he]
    rfl
  · intro w1 he
    unfold replayPipe replay initWriter
    rw [addCt_ok hct]
    simp only [ne_eq, not_true_eq_false, if_false]
    rw [e']
    simp only
    rw [he]
    rfl

/-- A replay that got its writer open. -/
theorem replayPipe_opened (hct : ct.length ≤ 256) (h : Replayable ct hw fuel job) (y : Bytes) (c : Nat)
    {w w1 w2 : Writer Chan} (h1 : Writer.init (some ⟨[ct]⟩) (Rdwr.init chanOps ⟨y, []⟩) = some w)
    (h2 : w.open = .ok (.success, w1)) (h3 : Wrote w1 job.frames w2) (hops : w.rdwr.ops = chanOps)
    (hobj : w.rdwr.obj = ⟨y, []⟩) :
    (∀ o, w2.close = .error (.wait o) → replayPipe fuel ct (job.map (·.1)) c y =
      if o.length ≤ c then .error (.wait o) else .error (.full (o.take c))) ∧
    ∀ w3, w2.close = .ok (.success, w3) → w3.state = .closed →
      if w3.rdwr.obj.out.length ≤ c then
        ∃ rw, replayPipe fuel ct (job.map (·.1)) c y = .ok (⟨0, [], some rw⟩, w3.rdwr.obj.out)
      else replayPipe fuel ct (job.map (·.1)) c y = .error (.full (w3.rdwr.obj.out.take c)) := by
  have hoc := Writer.open_cut (c := c) w hops
  rw [hobj] at hoc
  obtain ⟨i1, i2⟩ := replayPipe_init (fuel := fuel) hct (job.map (·.1)) y c h1
  obtain ⟨k1, -⟩ := hoc.okGrow _ h2
  have k1 : w1.rdwr.ops = chanOps := k1
  have ho := hoc.ok (Nat.zero_le _) _ h2
  have ho : (Pipe.lim c w).open = if w1.rdwr.obj.out.length ≤ c then .ok (.success, Pipe.lim c w1)
    else .error (.full (w1.rdwr.obj.out.take c)) := ho
  have hgrow : w2.rdwr.ops = chanOps ∧ w1.rdwr.obj.out <+: w2.rdwr.obj.out := by
    obtain ⟨rs, e, _⟩ := h3
    obtain ⟨m1, m2⟩ := (Writer.run_cut (c := c) (job.frames.map WOp.write) w1 k1).okGrow _ e
    exact ⟨m1, m2⟩
  have hcc := Writer.close_cut (c := c) w2 hgrow.1
  -- the connection is full before the writer is closed
  have early : ¬ w2.rdwr.obj.out.length ≤ c →
      replayPipe fuel ct (job.map (·.1)) c y = .error (.full (w2.rdwr.obj.out.take c)) := by
    intro hgt
    by_cases hle : w1.rdwr.obj.out.length ≤ c
    · rw [if_pos hle] at ho
      rw [i2 _ ho]
      have := (wrote_cut c job.frames w1 w2 k1 hle h3).2.2
      rw [if_neg hgt] at this
      unfold replayRest
      rw [replayFiles_blocks hct job _ h.valid this]
      rfl
    · rw [if_neg hle] at ho
      rw [i1 _ ho, prefix_take_eq hgrow.2 (by omega)]
  -- it is not
  have late : w2.rdwr.obj.out.length ≤ c → replayPipe fuel ct (job.map (·.1)) c y = (do
      let o ← (do
        let (res, w) ← (Pipe.lim c w2).close
        let msgs := if res ≠ .success then [.error "fstrm_writer_close"] else []
        let (_, rdwr) ← w.destroy
        .ok ⟨0, msgs, some rdwr⟩ : Exec (ReplayOut Chan))
      .ok (o, match o.rdwr with
        | none => []
        | some rw => rw.obj.out)) := by
    intro hle2
    have hle : w1.rdwr.obj.out.length ≤ c := Nat.le_trans hgrow.2.length_le hle2
    rw [if_pos hle] at ho
    rw [i2 _ ho]
    have := (wrote_cut c job.frames w1 w2 k1 hle h3).2.2
    rw [if_pos hle2] at this
    unfold replayRest
    rw [replayFiles_complete hct job _ _ h.valid this, Exec.ok_bind]
    simp only
    rw [if_neg (by decide)]
    simp
  constructor
  · intro o e
    have hg := hcc.waitGrow _ e
    by_cases hle2 : w2.rdwr.obj.out.length ≤ c
    · rw [late hle2, hcc.wait hle2 _ e]
      split <;> rfl
    · rw [early hle2, if_neg (by have := hg.length_le; omega), prefix_take_eq hg (by omega)]
  · intro w3 e hcl
    have hg : w2.rdwr.obj.out <+: w3.rdwr.obj.out := (hcc.okGrow _ e).2
    by_cases hle2 : w2.rdwr.obj.out.length ≤ c
    · rw [late hle2, hcc.ok hle2 _ e]
      dsimp only [Pipe.out]
      split
      · simp only [Exec.ok_bind]
        have hd : (Pipe.lim c w3).destroy = .ok (.failure, (Pipe.lim c w3).rdwr) := by
          unfold Writer.destroy
          rw [if_neg (by dsimp only [Pipe.lim]; rw [hcl]; decide)]
          simp only [Exec.ok_bind]
          rfl
        dsimp only [Pipe.lim] at hd ⊢
        rw [hd]
        exact ⟨_, rfl⟩
      · rfl
    · rw [early hle2, if_neg (by have := hg.length_le; omega), prefix_take_eq hg (by omega)]

/-- What a replay of complete streams does over a connection that takes `c` bytes, for every beginning
of the server's replies. -/
theorem replayPipe_at (hct : ct.length ≤ 256)
    (hstart : (CFrame.wire ⟨.start, [ct]⟩).length ≤ hw) (hhw : hw < 2 ^ 31)
    (h : Replayable ct hw fuel job) {y : Bytes} (hy : y <+: replyAll ct) :
    ∃ o, ((clientOf ct job).side y = .error (.wait o) ∧ ∀ c, replayPipe fuel ct (job.map (·.1)) c y =
        if o.length ≤ c then .error (.wait o) else .error (.full (o.take c))) ∨
      ∃ r, (clientOf ct job).side y = .ok (r, o) ∧ ∀ c, if o.length ≤ c then
          ∃ rw, replayPipe fuel ct (job.map (·.1)) c y = .ok (⟨0, [], some rw⟩, o)
        else replayPipe fuel ct (job.map (·.1)) c y = .error (.full (o.take c)) := by
  have hs := clientOf_suits hct hstart hhw h
  have hn := hs.net
  rw [← hs.replyAll] at hy
  have hy2 := List.prefix_iff_eq_take.1 hy
  rcases writer_at hn hy with ⟨h1, h2⟩ | ⟨h1, h3, h2⟩ | ⟨h1, w, h2, _⟩
  · refine ⟨_, Or.inl ⟨h2, fun c => ?_⟩⟩
    obtain ⟨w, e, s1, s2, s3, s4, s5⟩ := writer_init_chan (some ⟨[ct]⟩) y
    have hy3 : y = (netA (clientOf ct job).wopt (capR ct hw)).take y.length := by
      unfold netY at hy2
      rwa [List.take_append_of_le_length (by omega)] at hy2
    have hw := chan_writer_open_wait s3 (s4.trans (congrArg (fun z => Chan.mk z []) hy3)) (by rw [s2]; exact hn.wcts)
      (by rw [s2]; exact hn.ready) s1 (Nat.le_trans (wire_payload _) hn.acc) h1
    rw [s2] at hw
    have hoc := Writer.open_cut (c := c) w s3
    rw [s4] at hoc
    have := hoc.wait (Nat.zero_le _) _ hw
    obtain ⟨i1, _⟩ := replayPipe_init (fuel := fuel) hct (job.map (·.1)) y c e
    split
    · rename_i hle
      exact i1 _ (this.trans (if_pos hle))
    · rename_i hle
      exact i1 _ (this.trans (if_neg hle))
  · refine ⟨_, Or.inl ⟨h2, fun c => ?_⟩⟩
    have hlt : y.length < (netA (clientOf ct job).wopt (capR ct hw)).length + 12 := by
      have h4 : y.length ≤ (netY (clientOf ct job).wopt (capR ct hw)).length := hy.length_le
      have h5 : y.length ≠ (netY (clientOf ct job).wopt (capR ct hw)).length :=
        fun h6 => h3 (hy.eq_of_length h6)
      unfold netY at h4 h5
      rw [List.length_append, wire_finish_length] at h4 h5
      omega
    unfold netY at hy2
    rw [take_append_ge (by omega)] at hy2
    obtain ⟨w, w', e, e2, ch⟩ := hn.opened ((CFrame.wire ⟨.finish, []⟩).take
      (y.length - (netA (clientOf ct job).wopt (capR ct hw)).length))
    obtain ⟨w0, e0, _, _, s3, s4, _⟩ := writer_init_chan (some ⟨[ct]⟩) y
    have e' : Writer.init (some ⟨[ct]⟩) (Rdwr.init chanOps ⟨y, []⟩) = some w := by rw [hy2]; exact e
    rw [e0] at e'
    cases e'
    obtain ⟨w2, e3, c2⟩ := chW_wrote _ _ job.frames w' _ ch
    have := (replayPipe_opened hct h y c e0 e2 e3 s3 s4).1 _ (c2.close_wait (by omega))
    rw [this, netX, show (clientOf ct job).batches.flatten = job.frames from clientOf_frames ct job]
    simp [stream, List.append_assoc]
  · refine ⟨_, Or.inr ⟨_, h2, fun c => ?_⟩⟩
    obtain ⟨w, w', e, e2, ch⟩ := hn.opened (CFrame.wire ⟨.finish, []⟩)
    obtain ⟨w0, e0, _, _, s3, s4, _⟩ := writer_init_chan (some ⟨[ct]⟩) y
    have e' : Writer.init (some ⟨[ct]⟩) (Rdwr.init chanOps ⟨y, []⟩) = some w := by rw [h1]; exact e
    rw [e0] at e'
    cases e'
    obtain ⟨w2, e3, c2⟩ := chW_wrote _ _ job.frames w' _ ch
    rw [← List.append_nil (CFrame.wire ⟨.finish, []⟩)] at c2
    obtain ⟨w3, e4, c3, _, c5⟩ := c2.close
    have := (replayPipe_opened hct h y c e0 e2 e3 s3 s4).2 _ e4 c5
    have ho : netX (clientOf ct job).wopt (clientOf ct job).batches = w3.rdwr.obj.out := by
      rw [c3, netX, show (clientOf ct job).batches.flatten = job.frames from clientOf_frames ct job]
      simp [stream, List.append_assoc]
    rw [ho]
    exact this

end

section
variable {args : CapArgs} {fuel : Nat} {job : Nat → ReplayJob} {stranger : Nat → Prop}

theorem replayPipes_like (hb : args.bufferSize < 2 ^ 31) (hct : args.contentType.length ≤ 256)
    (hstart : (CFrame.wire ⟨.start, [args.contentType]⟩).length ≤ args.highwater)
    (hj : ∀ id, ¬ stranger id → Replayable args.contentType args.highwater fuel (job id)) :
    PipeLike args.contentType args.highwater stranger (clientsOf args.contentType job)
      (replayPipes fuel args.contentType job) := by
  intro id y hk hy
  have hs := clientOf_suits hct hstart (highwater_lt hb) (hj id hk)
  have hy : y <+: netY (clientOf args.contentType (job id)).wopt _ := hy
  rw [hs.replyAll] at hy
  obtain ⟨o, ⟨h1, h2⟩ | ⟨r, h1, h2⟩⟩ := replayPipe_at hct hstart (highwater_lt hb) (hj id hk) hy
  · exact ⟨o, Or.inl ⟨h1, h2⟩⟩
  · refine ⟨o, Or.inr ⟨r, h1, fun c => ?_⟩⟩
    have := h2 c
    split
    · rename_i hle
      rw [if_pos hle] at this
      obtain ⟨rw, h3⟩ := this
      exact ⟨_, h3⟩
    · rename_i hle
      rw [if_neg hle] at this
      exact this

/-- Replays look like the clients they amount to. -/
theorem replays_alike (hb : args.bufferSize < 2 ^ 31) (hct : args.contentType.length ≤ 256)
    (hstart : (CFrame.wire ⟨.start, [args.contentType]⟩).length ≤ args.highwater)
    (hj : ∀ id, ¬ stranger id → Replayable args.contentType args.highwater fuel (job id)) :
    Alike args.contentType args.highwater stranger (clientsOf args.contentType job)
      (replays fuel args.contentType job) := by
  intro id y hk hy
  have hs := clientOf_suits hct hstart (highwater_lt hb) (hj id hk)
  have hy : y <+: netY (clientOf args.contentType (job id)).wopt _ := hy
  rw [hs.replyAll] at hy
  show sentBy (replaySide fuel args.contentType _ y) = sentBy ((clientOf _ _).side y) ∧
    ((∃ r, replaySide fuel args.contentType _ y = .ok r) ↔ ∃ r, (clientOf _ _).side y = .ok r)
  rcases replay_at hct hstart (highwater_lt hb) (hj id hk) hy with ⟨o, h1, h2⟩ | ⟨r, rw', o, h1, h2⟩
  · rw [h1, h2]
    refine ⟨rfl, ⟨?_, ?_⟩⟩ <;> rintro ⟨_, h⟩ <;> cases h
  · rw [h1, h2]
    exact ⟨rfl, ⟨fun _ => ⟨_, rfl⟩, fun _ => ⟨_, rfl⟩⟩⟩

end

end Fstrm
