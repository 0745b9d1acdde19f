import Verif.Spec.IoNet
import Verif.Lemmas.IothrSwap
import Verif.Lemmas.Net
import Verif.Props.Iothr

/-! A program that sends through an I/O thread does the same as a program that calls the writer. -/

set_option autoImplicit false

namespace Fstrm

open Spec

variable {σ : Type}

/-! ### Where submitted payloads come from -/

namespace Iothr

/-- What steps of the I/O thread leave alone. -/
def fr (s : Iothr σ) : Nat × Bool × Bool := (s.nextId, s.destroyed, s.shutting)

theorem close_fr {s s' : Iothr σ} (h : s.close = .ok s') : fr s' = fr s := by
  rcases close_ok h with ⟨_, rfl⟩ | ⟨_, r, w, _, rfl⟩ <;> rfl

theorem flush_fr {s s' : Iothr σ} (h : s.flush = .ok s') : fr s' = fr s := by
  unfold flush at h
  split at h
  · obtain ⟨⟨r, w⟩, h1, h⟩ := Exec.bind_eq_ok.1 h
    simp only at h
    split at h
    · obtain ⟨s1, h2, h⟩ := Exec.bind_eq_ok.1 h
      cases h
      rw [freeOutq_eq]
      exact (show fr _ = fr s1 from rfl).trans <| (close_fr h2).trans rfl
    · cases h
      rw [freeOutq_eq]; rfl
  · cases h
    rw [freeOutq_eq]; rfl

theorem processQueue_fr {s s' : Iothr σ} {i n : Nat} (h : s.processQueue i = .ok (n, s')) :
    fr s' = fr s := by
  unfold processQueue at h
  split at h
  · rename_i e rest hq
    obtain ⟨s1, h1, h⟩ := Exec.bind_eq_ok.1 h
    cases h
    unfold processEntry at h1
    split at h1
    · obtain ⟨s2, h2, h1⟩ := Exec.bind_eq_ok.1 h1
      have e2 : fr s2 = fr s := by
        unfold maybeFlush at h2
        split at h2
        · cases h2
        · split at h2
          · exact (flush_fr h2).trans rfl
          · cases h2; rfl
      split at h1
      · cases h1
      · cases h1; exact e2
    · cases h1
      rw [freeEntry_eq]; rfl
  · cases h; rfl

theorem maybeOpen_fr {s s' : Iothr σ} {now : Nat} (h : s.maybeOpen now = .ok s') :
    fr s' = fr s := by
  unfold maybeOpen at h
  split at h
  · cases h; rfl
  · split at h
    · cases h; rfl
    · obtain ⟨⟨r, w⟩, h1, h⟩ := Exec.bind_eq_ok.1 h
      cases h; rfl

theorem ioStep_fr {s s' : Iothr σ} {now : Nat} {wake : Wake} (h : s.ioStep now wake = .ok s') :
    fr s' = fr s := by
  unfold ioStep at h
  split at h
  · obtain ⟨s1, h1, h⟩ := Exec.bind_eq_ok.1 h
    cases h
    exact (maybeOpen_fr h1 : fr s1 = _)
  · split at h
    · cases h; rfl
    · obtain ⟨s1, h1, h⟩ := Exec.bind_eq_ok.1 h
      cases h
      exact (maybeOpen_fr h1 : fr s1 = _)
  · split at h
    · obtain ⟨⟨n, s1⟩, h1, h⟩ := Exec.bind_eq_ok.1 h
      cases h
      exact (processQueue_fr h1 : fr s1 = _)
    · split at h <;> cases h <;> rfl
  · split at h
    · obtain ⟨⟨n, s1⟩, h1, h⟩ := Exec.bind_eq_ok.1 h
      cases h
      exact (processQueue_fr h1 : fr s1 = _)
    · split at h
      · cases h; rfl
      · obtain ⟨s1, h1, h⟩ := Exec.bind_eq_ok.1 h
        obtain ⟨s2, h2, h⟩ := Exec.bind_eq_ok.1 h
        cases h
        exact (close_fr h2).trans (flush_fr h1)
  · split at h
    · split at h
      · obtain ⟨s1, h1, h⟩ := Exec.bind_eq_ok.1 h
        cases h
        exact (flush_fr h1 : fr s1 = _)
      · cases h; rfl
    · split at h <;> cases h <;> rfl
    · cases h; rfl
  · cases h; rfl

/-- The payloads on their way in and those submitted. -/
structure Src (Q : Bytes → Prop) (s : Iothr σ) : Prop where
  pend : ∀ t e, s.pending t = some e → Q e.data
  sub : ∀ e ∈ submits s.log, Q e.data

theorem Src.tr {Q : Bytes → Prop} {s s' : Iothr σ} (h : Src Q s) (ht : Tr s s')
    (hn : s'.nextId = s.nextId) : Src Q s' := by
  cases ht with
  | refused | began => simp at hn
  | full t e hd hp =>
    refine ⟨?_, by simpa [submits_append, submits] using h.sub⟩
    intro t' e' h'
    simp only at h'
    split at h'
    · cases h'
    · exact h.pend t' e' h'
  | lost t e hd hp =>
    refine ⟨?_, h.sub⟩
    intro t' e' h'
    simp only at h'
    split at h'
    · cases h'
    · exact h.pend t' e' h'
  | inserted t e q wk sig hd hp hq hl hsig =>
    refine ⟨?_, ?_⟩
    · intro t' e' h'
      simp only at h'
      split at h'
      · cases h'
      · exact h.pend t' e' h'
    · intro e' h'
      have hz : submits sig = [] := by rcases hsig with rfl | rfl <;> rfl
      simp only [submits_append, submits, hz, List.append_nil, List.mem_append,
        List.mem_singleton] at h'
      rcases h' with h' | rfl
      · exact h.sub e' h'
      · exact h.pend t e' hp
  | _ =>
    refine ⟨h.pend, ?_⟩
    have hf : ∀ es, submits (freeEvs es) = [] := submits_freeEvs
    simpa [submits_append, submits, hf] using h.sub

theorem Tr.nextId_le {s s' : Iothr σ} (ht : Tr s s') : s.nextId ≤ s'.nextId := by
  cases ht <;> simp

theorem Trs.nextId_le {s s' : Iothr σ} (ht : Trs s s') : s.nextId ≤ s'.nextId := by
  induction ht with
  | refl => exact Nat.le_refl _
  | snoc _ h ih => exact Nat.le_trans ih h.nextId_le

theorem Src.trs {Q : Bytes → Prop} {s s' : Iothr σ} (h : Src Q s) (ht : Trs s s')
    (hn : s'.nextId = s.nextId) : Src Q s' := by
  induction ht with
  | refl => exact h
  | snoc h1 h2 ih =>
    have := h1.nextId_le
    have := h2.nextId_le
    exact (ih (by omega)).tr h2 (by omega)

/-- Only submitting takes a number and only the end of destroying destroys. -/
theorem step_fr {s s' : Iothr σ} {a : IoAct} (e : s.step a = .ok s') :
    ((∀ t q d f, a ≠ .submit t q d f) → s'.nextId = s.nextId) ∧
    (a ≠ .finish → s'.destroyed = s.destroyed) ∧ (a ≠ .shutdown → s'.shutting = s.shutting) := by
  cases a with
  | submit t q data f =>
    refine ⟨fun h => absurd rfl (h t q data f), ?_⟩
    have : fr s' = (s'.nextId, s.destroyed, s.shutting) → (IoAct.submit t q data f ≠ .finish →
        s'.destroyed = s.destroyed) ∧ (IoAct.submit t q data f ≠ .shutdown → s'.shutting = s.shutting) :=
      fun h => ⟨fun _ => congrArg (·.2.1) h, fun _ => congrArg (·.2.2) h⟩
    refine this ?_
    simp only [Iothr.step, submitCheck] at e
    split at e
    · cases e
    · split at e
      · cases e; rfl
      · split at e
        · cases e; rfl
        · split at e
          · cases e; rfl
          · split at e <;> cases e <;> rfl
  | io now wake =>
    have := ioStep_fr e
    exact ⟨fun _ => congrArg Prod.fst this, fun _ => congrArg (·.2.1) this, fun _ => congrArg (·.2.2) this⟩
  | insert t =>
    have : fr s' = fr s := by
      simp only [Iothr.step, submitInsert] at e
      split at e
      · cases e; rfl
      · split at e
        · cases e
        · split at e
          · cases e; rfl
          · split at e
            · split at e
              · cases e
                obtain ⟨wk, hwk⟩ := signal_eq (emit (emit { s with
                  pending := fun t' => if t' = t then none else s.pending t'
                  queues := s.queues.set _ (_ ++ [_]) } (.submitted _)) .signal)
                rw [hwk]; rfl
              · cases e; rfl
            · cases e; rfl
    exact ⟨fun _ => congrArg Prod.fst this, fun _ => congrArg (·.2.1) this, fun _ => congrArg (·.2.2) this⟩
  | getQueue =>
    have : fr s' = fr s := by
      simp only [Iothr.step, getQueue] at e
      split at e
      · cases e
      · split at e <;> cases e <;> rfl
    exact ⟨fun _ => congrArg Prod.fst this, fun _ => congrArg (·.2.1) this, fun _ => congrArg (·.2.2) this⟩
  | shutdown =>
    have : (s'.nextId, s'.destroyed) = (s.nextId, s.destroyed) := by
      simp only [Iothr.step, shutdown] at e
      split at e
      · cases e; rfl
      · cases e
        obtain ⟨wk, hwk⟩ := signal_eq ({ s with shutting := true }.emit .shutdown)
        rw [hwk]; rfl
    exact ⟨fun _ => congrArg Prod.fst this, fun _ => congrArg Prod.snd this, fun h => absurd rfl h⟩
  | finish =>
    have : (s'.nextId, s'.shutting) = (s.nextId, s.shutting) := by
      simp only [Iothr.step, finish] at e
      split at e
      · obtain ⟨⟨r, rdwr⟩, h1, e⟩ := Exec.bind_eq_ok.1 e
        cases e
        rw [freeAll_eq]; rfl
      · cases e; rfl
    exact ⟨fun _ => congrArg Prod.fst this, fun h => absurd rfl h, fun _ => congrArg Prod.snd this⟩

theorem step_nextId {s s' : Iothr σ} {a : IoAct} (e : s.step a = .ok s') :
    s'.nextId ≤ s.nextId + 1 := by
  cases a with
  | submit t q data f =>
    simp only [Iothr.step, submitCheck] at e
    split at e
    · cases e
    · split at e
      · cases e; omega
      · split at e
        · cases e; exact Nat.le_refl _
        · split at e
          · cases e; exact Nat.le_refl _
          · split at e <;> cases e <;> exact Nat.le_refl _
  | _ => rw [(step_fr e).1 nofun]; omega

theorem run_nextId : ∀ (as : List IoAct) {s s' : Iothr σ}, s.run as = .ok s' →
    s'.nextId ≤ s.nextId + as.length
  | [], _, _, h => by cases h; simp
  | a :: as, s, s', h => by
    obtain ⟨s1, e1, h⟩ := Exec.bind_eq_ok.1 h
    have h1 := step_nextId e1
    have h2 := run_nextId as h
    simp only [List.length_cons]
    omega

theorem run_bind : ∀ (a b : List IoAct) (s : Iothr σ),
    s.run (a ++ b) = (s.run a >>= fun s => s.run b)
  | [], _, _ => rfl
  | x :: a, b, s => by
    show (s.step x >>= fun s => s.run (a ++ b)) = ((s.step x >>= fun s => s.run a) >>= _)
    cases s.step x with
    | error e => rfl
    | ok s1 => exact run_bind a b s1

theorem run_destroyed : ∀ (as : List IoAct) {s s' : Iothr σ}, s.run as = .ok s' → .finish ∉ as →
    s'.destroyed = s.destroyed
  | [], _, _, h, _ => by cases h; rfl
  | a :: as, s, s', h, hn => by
    obtain ⟨s1, e1, h⟩ := Exec.bind_eq_ok.1 h
    simp only [List.mem_cons, not_or] at hn
    rw [run_destroyed as h hn.2, (step_fr e1).2.1 (fun h => hn.1 h.symm)]

theorem Src.step {Q : Bytes → Prop} {s s' : Iothr σ} {a : IoAct} (h : Src Q s)
    (e : s.step a = .ok s')
    (ha : ∀ t q d f, a = .submit t q (some d) f → 1 ≤ d.length → d.length < 4294967295 → Q d) :
    Src Q s' := by
  cases a with
  | submit t q data f =>
    have htr := step_trs e
    simp only [Iothr.step, submitCheck] at e
    split at e
    · cases e
    · split at e
      · cases e; exact h
      · split at e
        · cases e; exact ⟨h.pend, by simpa [emit, submits_append, submits] using h.sub⟩
        · split at e
          · cases e; exact ⟨h.pend, by simpa [emit, submits_append, submits] using h.sub⟩
          · split at e
            · cases e; exact ⟨h.pend, by simpa [emit, submits_append, submits] using h.sub⟩
            · rename_i d hl
              cases e
              refine ⟨?_, h.sub⟩
              intro t' e' h'
              simp only at h'
              split at h'
              · cases h'; exact ha t q d f rfl (by omega) (by omega)
              · exact h.pend t' e' h'
  | _ => exact h.trs (step_trs e) ((step_fr e).1 nofun)

/-- Every submitted payload was an argument of `fstrm_iothr_submit`. -/
theorem submits_from {Q : Bytes → Prop} : ∀ (as : List IoAct) {s s' : Iothr σ}, Src Q s →
    s.run as = .ok s' →
    (∀ t q d f, .submit t q (some d) f ∈ as → 1 ≤ d.length → d.length < 4294967295 → Q d) → Src Q s'
  | [], s, s', h, e, _ => by cases e; exact h
  | a :: as, s, s', h, e, ha => by
    obtain ⟨s1, e1, e⟩ := Exec.bind_eq_ok.1 e
    refine submits_from as (h.step e1 ?_) e fun t q d f hm => ha t q d f (List.mem_cons_of_mem _ hm)
    intro t q d f hd
    exact ha t q d f (by simp [hd])

end Iothr

/-! ### The number of frames in a call -/

theorem writev_count {w w' : Writer σ} {iov : List Bytes} (h : w.writev iov = .ok (.success, w')) :
    iov.length ≤ 1073741823 := by
  unfold Writer.writev at h
  split at h
  · omega
  · obtain ⟨⟨r, w1⟩, h1, h⟩ := Exec.bind_eq_ok.1 h
    dsimp only at h
    split at h
    · rename_i hr; cases h; exact absurd rfl hr
    · split at h
      · split at h
        · cases h
        · rename_i hc
          simp only [INT_MAX] at hc
          omega
      · cases h

theorem run_count : ∀ (cs : List WOp) {w w' : Writer σ} {rs : List Res}, w.run cs = .ok (rs, w') →
    (∀ r ∈ rs, r = .success) → ∀ b, .writev b ∈ cs → b.length ≤ 1073741823
  | [], _, _, _, _, _ => by simp
  | c :: cs, w, w', rs, h, hr => by
    obtain ⟨⟨r, w1⟩, h1, h⟩ := Exec.bind_eq_ok.1 h
    obtain ⟨⟨rs1, w2⟩, h2, h⟩ := Exec.bind_eq_ok.1 h
    cases h
    intro b hb
    rcases List.mem_cons.1 hb with rfl | hb
    · have : r = .success := hr r (by simp)
      subst this
      exact writev_count h1
    · exact run_count cs h2 (fun r hr' => hr r (by simp [hr'])) b hb

/-! ### The calls, one after the other, over a pipe -/

theorem chan_allOk_wait (cts : List Bytes) (k : Nat) (hk : k < 12) :
    ∀ (batches : List (List Bytes)) (w : Writer Chan) (out : Bytes),
    ChW cts w ((CFrame.wire ⟨.finish, []⟩).take k) out →
    (∀ b ∈ batches, b.length ≤ 1073741823) →
    allOk w (batches.map .writev ++ [.close]) =
      .error (.wait (out ++ batches.flatten.flatMap dataFrame ++ CFrame.wire ⟨.stop, []⟩))
  | [], w, out, h, _ => by
    simp only [List.map_nil, List.nil_append, List.flatten_nil, List.flatMap_nil, List.append_nil]
    unfold allOk Writer.step
    simp only
    rw [h.close_wait hk]
    rfl
  | b :: rest, w, out, h, hb => by
    obtain ⟨w1, e1, c1⟩ := h.writev (hb b (by simp))
    have ih := chan_allOk_wait cts k hk rest w1 _ c1 (fun x hx => hb x (by simp [hx]))
    simp only [List.map_cons, List.cons_append]
    unfold allOk Writer.step
    simp only
    rw [e1, Exec.ok_bind, if_pos rfl, ih]
    simp

section
variable {wopt : Option WriterOptions} {ropt : Option ReaderOptions} {batches : List (List Bytes)}

/-- The calls of the writer, given the bytes delivered. -/
theorem allOk_at (h : NetOk wopt ropt batches) {y : Bytes} (hy : y <+: netY wopt ropt) :
    ∃ w, Writer.init wopt (Rdwr.init chanOps ⟨y, []⟩) = some w ∧
    ((y.length < (netA wopt ropt).length ∧
      allOk w (.opn :: (batches.map .writev ++ [.close])) =
        .error (.wait (CFrame.wire ⟨.ready, Props.optCts wopt⟩))) ∨
    ((netA wopt ropt).length ≤ y.length ∧ y ≠ netY wopt ropt ∧
      allOk w (.opn :: (batches.map .writev ++ [.close])) = .error (.wait (netX wopt batches))) ∨
    (y = netY wopt ropt ∧ ∃ w', allOk w (.opn :: (batches.map .writev ++ [.close])) = .ok w' ∧
      w'.rdwr.obj.out = netX wopt batches ∧ w'.rdwr.ops = chanOps ∧ w'.state = .closed)) := by
  have hy2 := List.prefix_iff_eq_take.1 hy
  obtain ⟨w, e, s1, s2, s3, s4, s5⟩ := writer_init_chan wopt y
  refine ⟨w, e, ?_⟩
  by_cases h1 : y.length < (netA wopt ropt).length
  · left
    refine ⟨h1, ?_⟩
    rw [List.take_append_of_le_length (by omega)] at hy2
    rw [hy2] at s4
    unfold allOk Writer.step
    simp only
    rw [chan_writer_open_wait s3 s4 (by rw [s2]; exact h.wcts) (by rw [s2]; exact h.ready) s1
      (Nat.le_trans (wire_payload _) h.acc) h1, s2]
    rfl
  · right
    by_cases h2 : y = netY wopt ropt
    · right
      refine ⟨h2, ?_⟩
      rcases writer_at h hy with ⟨h3, _⟩ | ⟨_, h3, _⟩ | ⟨_, w', h4, _, h5⟩
      · exact absurd h3 h1
      · exact absurd h2 h3
      · unfold writerSide at h4
        rw [e] at h4
        obtain ⟨⟨rs, w2⟩, h6, h4⟩ := Exec.bind_eq_ok.1 h4
        have h7 := (Prod.mk.inj (Except.ok.inj h4))
        obtain ⟨h8, h9⟩ := Prod.mk.inj h7.1
        subst h8 h9
        refine ⟨w2, allOk_run _ h6 fun r hr => (List.mem_replicate.1 hr).2, h7.2, ?_, h5⟩
        · rw [(run_reach h6).ops, s3]
    · left
      refine ⟨by omega, h2, ?_⟩
      have hlt : y.length < (netA wopt ropt).length + 12 := by
        have h3 : y.length ≤ (netY wopt ropt).length := hy.length_le
        have h4 : y.length ≠ (netY wopt ropt).length := fun h5 => h2 (hy.eq_of_length h5)
        rw [List.length_append, wire_finish_length] at h3 h4
        omega
      rw [take_append_ge (by omega)] at hy2
      obtain ⟨w1, w', e1, e2, c⟩ := h.opened ((CFrame.wire ⟨.finish, []⟩).take (y.length - (netA wopt ropt).length))
      rw [← hy2, e] at e1
      cases e1
      unfold allOk
      rw [show w.step .opn = w.open from rfl, e2, Exec.ok_bind]
      simp only [if_true]
      rw [chan_allOk_wait _ _ (by omega) batches w' _ c h.count]
      simp [stream, List.append_assoc]

end

/-! ### The program as a whole -/

theorem iothr_finish {s s' : Iothr σ} (h : s.finish = .ok s') (hd : s.destroyed = false)
    (hd' : s'.destroyed = true) :
    s.shutting = true ∧ s.pc = .exited ∧ calls s'.log = calls s.log ∧ s'.pc = .exited := by
  unfold Iothr.finish at h
  split at h
  · rename_i hc
    obtain ⟨⟨r, rdwr⟩, h1, h⟩ := Exec.bind_eq_ok.1 h
    cases h
    refine ⟨hc.1, hc.2.1, ?_, ?_⟩
    · simp only [Iothr.emit, calls_append, Iothr.calls_freeAll]
      simp [calls]
    · simp only [Iothr.emit, Iothr.freeAll_eq]
      exact hc.2.1
  · cases h
    rw [hd] at hd'
    cases hd'

/-- Destroying with a closed writer over a pipe. -/
theorem iothr_finish_swap {s s' : Iothr σ} (h : s.finish = .ok s') (hd : s.destroyed = false)
    (hd' : s'.destroyed = true) {w : Writer Chan} (ho : w.rdwr.ops = chanOps)
    (hs : w.state = .closed) :
    ∃ s2, (s.swap w).finish = .ok s2 ∧ s2.writer.rdwr.obj = w.rdwr.obj ∧ s2.log = s'.log ∧
      s2.destroyed = true := by
  obtain ⟨h1, h2, _⟩ := iothr_finish h hd hd'
  unfold Iothr.finish at h ⊢
  rw [if_pos ⟨h1, h2, hd⟩] at h
  rw [if_pos (show (s.swap w).shutting = true ∧ (s.swap w).pc = .exited ∧
    (s.swap w).destroyed = false from ⟨h1, h2, hd⟩)]
  obtain ⟨⟨r, rdwr⟩, e1, h⟩ := Exec.bind_eq_ok.1 h
  cases h
  have hw : w.destroy = .ok (.failure, w.rdwr) := by
    unfold Writer.destroy
    rw [if_neg (by rw [hs]; nofun)]
    simp only [Exec.ok_bind]
    unfold Rdwr.destroy
    rw [ho]
    rfl
  show ∃ s2, (w.destroy >>= _) = .ok s2 ∧ _
  rw [hw, Exec.ok_bind]
  refine ⟨_, rfl, ?_, ?_, rfl⟩
  · simp only [Iothr.emit, Iothr.freeAll_eq]
  · simp only [Iothr.emit, Iothr.freeAll_eq]
    rfl

theorem nodup_length {α : Type} [DecidableEq α] : ∀ (a b : List α), a.Nodup → a ⊆ b →
    a.length ≤ b.length
  | [], _, _, _ => by simp
  | x :: a, b, hn, hs => by
    obtain ⟨h1, h2⟩ := List.nodup_cons.1 hn
    have hx : x ∈ b := hs (by simp)
    have := nodup_length a (b.erase x) h2 fun y hy =>
      (List.mem_erase_of_ne (by intro h; exact h1 (h ▸ hy))).2 (hs (by simp [hy]))
    rw [List.length_erase_of_mem hx] at this
    have := List.length_pos_of_mem hx
    simp only [List.length_cons]
    omega

/-- No more payloads are handed over than there are steps. -/
theorem handed_length {opt : IothrOptions} {w : Writer σ} {as : List IoAct} {s : Iothr σ}
    (h : (Iothr.init opt w).run as = .ok s) : (handed s.log).length ≤ as.length := by
  obtain ⟨ha, _⟩ := Props.iothr_invA h
  obtain ⟨hsub, hnod⟩ := Props.order_preserved opt w _ s h
  have h1 := nodup_length _ (submits s.log) hnod (by
    intro e he
    have h2 := (hsub e.queue).subset (List.mem_filter.2 ⟨he, by simp⟩)
    exact (List.mem_filter.1 h2).1)
  have h2 := nodup_length _ (List.range s.nextId) ha.ids (by
    intro i hi
    obtain ⟨e, he, rfl⟩ := List.mem_map.1 hi
    exact List.mem_range.2 (ha.lt e he))
  have h3 := Iothr.run_nextId as h
  have h4 : (Iothr.init opt w).nextId = 0 := rfl
  rw [List.length_map, List.length_range] at h2
  omega

/-- What a program does, compared with a complete execution. -/
theorem IoClient.like {p : IoClient} (hp : p.Whole) {y0 o0 : Bytes} {s0 : Iothr Chan}
    (h0 : p.side y0 = .ok (s0, o0)) (hf : Finished s0) :
    ∃ batches : List (List Entry), batches.flatten = handed s0.log ∧
      (∀ q, onQueue q (submits (beforeShutdown s0.log)) <+: onQueue q (handed s0.log)) ∧
      (∀ q, (onQueue q (handed s0.log)).Sublist (onQueue q (submits s0.log))) ∧
      (handed s0.log).Nodup ∧ (handed s0.log).length ≤ p.acts.length ∧
      (∀ b ∈ batches, b.length ≤ 1073741823) ∧
      (∀ e ∈ handed s0.log, 1 ≤ e.data.length ∧ e.data.length < 4294967295 ∧
        ∃ t q f, .submit t q (some e.data) f ∈ p.acts) ∧
      ∀ ropt, NetOk p.wopt ropt (batches.map (·.map Entry.data)) → ∀ y, y <+: netY p.wopt ropt →
        (y.length < (netA p.wopt ropt).length ∧
          p.side y = .error (.wait (CFrame.wire ⟨.ready, Props.optCts p.wopt⟩))) ∨
        ((netA p.wopt ropt).length ≤ y.length ∧ y ≠ netY p.wopt ropt ∧
          p.side y = .error (.wait (netX p.wopt (batches.map (·.map Entry.data))))) ∨
        (y = netY p.wopt ropt ∧ ∃ s, p.side y =
          .ok (s, netX p.wopt (batches.map (·.map Entry.data))) ∧ Finished s ∧ s.log = s0.log) := by
  obtain ⟨pre, now, wk, post, ha, hpre, hnow⟩ := hp.starts
  obtain ⟨body, hb, hnf⟩ := hp.once
  unfold IoClient.side at h0
  obtain ⟨w0, ew0, _⟩ := writer_init_chan p.wopt y0
  rw [ew0] at h0
  obtain ⟨s0', h1, h0⟩ := Exec.bind_eq_ok.1 h0
  cases h0
  have h2 := h1
  rw [hb] at h2
  obtain ⟨s1, h3, h4⟩ := (Iothr.run_append _ _ _ _).1 h2
  obtain ⟨s2, h5, h4⟩ := Exec.bind_eq_ok.1 h4
  cases h4
  have hd1 : s1.destroyed = false := (Iothr.run_destroyed body h3 hnf).trans rfl
  obtain ⟨f1, f2, f3, f4⟩ := iothr_finish h5 hd1 hf.1
  have hok1 : ∀ c ∈ calls s1.log, c.2 = .success := by rw [← f3]; exact hf.2
  obtain ⟨hq, batches, hbat, hcalls⟩ := Props.no_loss_start p.opt w0 pre post now wk s0
    (ha ▸ h1) hpre hnow hf.2 f4
  obtain ⟨hsub, hnod⟩ := Props.order_preserved p.opt w0 _ s0 h1
  refine ⟨batches, hbat, hq, hsub, hnod, handed_length h1, ?_, ?_, ?_⟩
  · intro b hb
    obtain ⟨w', hw', _⟩ := (Props.iothr_invC h1).writer
    have := run_count _ hw' (by
      intro r hr
      obtain ⟨c, hc, rfl⟩ := List.mem_map.1 hr
      exact hf.2 c hc) (b.map Entry.data) (by
      rw [hcalls]
      simp only [List.map_append, List.map_cons, List.map_map, List.mem_append, List.mem_cons,
        List.mem_map]
      exact Or.inl (Or.inr ⟨b, hb, rfl⟩))
    simpa using this
  · have := Iothr.submits_from (Q := fun d => 1 ≤ d.length ∧ d.length < 4294967295 ∧
      ∃ t q f, .submit t q (some d) f ∈ p.acts) p.acts (s := Iothr.init p.opt w0) ⟨nofun, nofun⟩ h1
      (fun t q d f hm h1 h2 => ⟨h1, h2, t, q, f, hm⟩)
    intro e he
    refine this.sub e ?_
    have h2 := (hsub e.queue).subset (List.mem_filter.2 ⟨he, by simp⟩)
    exact (List.mem_filter.1 h2).1
  · intro ropt hnet y hy
    obtain ⟨w, ew, hcase⟩ := allOk_at hnet hy
    obtain ⟨cs, hcs, hsim⟩ := Iothr.sim_run (τ := Chan) body h3 hnf hok1
    have hcs' : cs = .opn :: ((batches.map (·.map Entry.data)).map .writev ++ [.close]) := by
      have h6 := congrArg (List.map Prod.fst) (hcs.symm.trans (f3.symm.trans hcalls))
      simpa [Iothr.init, calls, Function.comp_def] using h6
    subst hcs'
    have hrun : p.side y = (do
        let s ← (allOk w (.opn :: ((batches.map (·.map Entry.data)).map .writev ++ [.close]))).map s1.swap
        let s ← s.finish
        .ok (s, s.writer.rdwr.obj.out)) := by
      have h11 := hsim w (by
        rcases hcase with ⟨_, h7⟩ | ⟨_, _, h7⟩ | ⟨_, w', h7, _⟩ <;> rw [h7] <;> nofun)
      unfold IoClient.side
      rw [ew]
      show ((Iothr.init p.opt w).run p.acts >>= _) = _
      rw [hb, Iothr.run_bind]
      change (Iothr.init p.opt w).run body = _ at h11
      rw [h11]
      cases allOk w (.opn :: ((batches.map (·.map Entry.data)).map .writev ++ [.close])) with
      | error e => rfl
      | ok w' =>
        show (((s1.swap w').finish >>= fun s => (Except.ok s : Exec _)) >>= _) = ((s1.swap w').finish >>= _)
        cases (s1.swap w').finish <;> rfl
    rcases hcase with ⟨h6, h7⟩ | ⟨h6, h8, h7⟩ | ⟨h6, w', h7, h8, h9, h10⟩
    · left
      refine ⟨h6, ?_⟩
      rw [hrun, h7]; rfl
    · right; left
      refine ⟨h6, h8, ?_⟩
      rw [hrun, h7]; rfl
    · right; right
      refine ⟨h6, ?_⟩
      obtain ⟨s3, g1, g2, g3, g4⟩ := iothr_finish_swap h5 hd1 hf.1 h9 h10
      refine ⟨s3, ?_, ⟨g4, by rw [g3]; exact hf.2⟩, g3⟩
      rw [hrun, h7]
      show ((s1.swap w').finish >>= fun s => (Except.ok (s, s.writer.rdwr.obj.out) : Exec _)) = _
      rw [g1, Exec.ok_bind, g2, h8]

end Fstrm
