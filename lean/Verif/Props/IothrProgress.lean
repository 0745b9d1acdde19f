import Verif.Lemmas.IothrProgress
import Verif.Props.IothrFair

/-!
# C130: accepted payloads leave their queue, and full queues accept again
-/

set_option autoImplicit false

namespace Fstrm.Props

open Iothr

variable {σ : Type}

/-- Invariants for the proofs. -/
structure Live (s : Iothr σ) : Prop where
  a : InvA s
  g : InvG s
  cap : ∀ q, (s.waiting q).length ≤ s.opt.inputQueueSize - 1

theorem Live.step {s s' : Iothr σ} {a : IoAct} (h : s.step a = .ok s') (hl : Live s) :
    Live s' ∧ s'.opt = s.opt := by
  have ht := step_trs h
  have hAG : InvA s' ∧ InvG s' := ht.inv (P := fun s => InvA s ∧ InvG s)
    (fun _ _ h t => ⟨h.1.tr t, h.2.tr h.1 t⟩) ⟨hl.a, hl.g⟩
  have ho : s'.opt = s.opt := ht.inv (P := fun x => x.opt = s.opt) (fun _ _ h t => t.opt.trans h) rfl
  refine ⟨⟨hAG.1, hAG.2, fun q => ?_⟩, ho⟩
  rw [ho]
  have hc := hl.cap q
  rcases step_eff h with ⟨h1, _⟩ | ⟨e', q', sig, h1, h2, h3, _⟩ | ⟨x, rest, h1, h3, _⟩ | ⟨h1, _⟩
  · unfold waiting at hc ⊢; rw [h1]; exact hc
  · rw [waiting_set h1 h3 q]
    split
    · simp only [List.length_append, List.length_cons, List.length_nil]; omega
    · exact hc
  · rw [waiting_set h1 h3 q]
    split
    · rename_i hq
      have : s.waiting q = x :: rest := by unfold waiting; rw [← hq, h1]; rfl
      rw [this, List.length_cons] at hc
      omega
    · exact hc
  · rw [h1]; simp

theorem Live.init (opt : IothrOptions) (w : Writer σ) : Live (Iothr.init opt w) := by
  refine ⟨.init opt w, .init opt w, fun q => ?_⟩
  have : (Iothr.init opt w).waiting q = [] := by
    simp only [waiting, Iothr.init, List.getElem?_replicate]
    split <;> split <;> rfl
  rw [this]; simp

theorem Live.run {s s' : Iothr σ} (as : List IoAct) (h : s.run as = .ok s') (hl : Live s) :
    Live s' ∧ s'.opt = s.opt := by
  induction as generalizing s with
  | nil => cases h; exact ⟨hl, rfl⟩
  | cons a as ih =>
    obtain ⟨s1, h1, h⟩ := Exec.bind_eq_ok.1 h
    obtain ⟨h2, h3⟩ := hl.step h1
    obtain ⟨h4, h5⟩ := ih h h2
    exact ⟨h4, h5.trans h3⟩

theorem not_shutting {s s' : Iothr σ} (as : List IoAct) (h : s.run as = .ok s') (hl : Live s)
    (hs : IoEv.shutdown ∉ s'.log) : s.shutting = false := by
  obtain ⟨x, hx⟩ := (run_trs as h).log
  cases hc : s.shutting with
  | false => rfl
  | true =>
    have := hl.g.shut.1 hc
    exact absurd (by rw [hx]; exact List.mem_append_left _ this) hs

/-- A payload that has left its queue does not come back. -/
theorem stays_out {s s' : Iothr σ} (as : List IoAct) (h : s.run as = .ok s') (hl : Live s) {e : Entry}
    (he : e ∈ submits s.log) (hn : e ∉ s.queues.flatten) : e ∉ s'.queues.flatten := by
  refine ((run_trs as h).inv (P := fun s => InvA s ∧ e ∈ submits s.log ∧ e ∉ s.queues.flatten) ?_
    ⟨hl.a, he, hn⟩).2.2
  intro s s' ⟨hA, he, hn⟩ t
  refine ⟨hA.tr t, ?_, ?_⟩
  · obtain ⟨x, hx⟩ := t.log
    rw [hx, submits_append]; exact List.mem_append_left _ he
  · have sub : ∀ {i : Nat} {x : Entry} {rest : List Entry}, s.queues[i]? = some (x :: rest) →
        e ∉ (s.queues.set i rest).flatten := by
      intro i x rest hq hm
      obtain ⟨l, hl, hel⟩ := List.mem_flatten.1 hm
      rcases List.mem_or_eq_of_mem_set hl with hl | rfl
      · exact hn (List.mem_flatten.2 ⟨l, hl, hel⟩)
      · exact hn (List.mem_flatten.2 ⟨_, List.mem_of_getElem? hq, by simp [hel]⟩)
    cases t with
    | inserted t e' q wk sig h1 h2 h3 h4 h5 =>
      intro hm
      obtain ⟨l, hl, hel⟩ := List.mem_flatten.1 hm
      rcases List.mem_or_eq_of_mem_set hl with hl | rfl
      · exact hn (List.mem_flatten.2 ⟨l, hl, hel⟩)
      · rcases List.mem_append.1 hel with hel | hel
        · exact hn (List.mem_flatten.2 ⟨_, List.mem_of_getElem? h3, hel⟩)
        · simp only [List.mem_singleton] at hel
          subst hel
          exact (hA.plt _ _ h2).2.2.1 (List.mem_map.2 ⟨e, he, rfl⟩)
    | push i x rest h1 h2 h3 h4 => exact sub h2
    | drop i x rest h1 h2 h3 => exact sub h2
    | finish =>
      intro hm
      obtain ⟨l, hl, hel⟩ := List.mem_flatten.1 hm
      obtain ⟨_, _, rfl⟩ := List.mem_map.1 hl
      cases hel
    | _ => exact hn

theorem mem_queues_waiting {s : Iothr σ} (hA : InvA s) {e : Entry} (h : e ∈ s.queues.flatten) :
    e.queue < s.opt.numInputQueues ∧ e ∈ s.waiting e.queue := by
  obtain ⟨l, hl, hel⟩ := List.mem_flatten.1 h
  obtain ⟨i, hi⟩ := List.mem_iff_getElem?.1 hl
  have := hA.qid i l hi e hel
  rw [this]
  exact ⟨hA.qlen ▸ (List.getElem?_eq_some_iff.1 hi).1, by unfold waiting; rw [hi]; exact hel⟩

/-- With every step of the I/O thread an entry gets nearer to being taken. -/
theorem run_progress {s s' : Iothr σ} (as : List IoAct) (h : s.run as = .ok s') (hl : Live s)
    (hs : IoEv.shutdown ∉ s'.log) {e : Entry} (hq : e.queue < s.opt.numInputQueues)
    {l1 l2 : List Entry} (hw : s.waiting e.queue = l1 ++ e :: l2)
    (hin : e ∈ s'.queues.flatten) :
    ioSteps s as ≤ l1.length * (s.opt.numInputQueues + 3) + dist s.opt.numInputQueues e.queue s.pc := by
  induction as generalizing s l1 l2 with
  | nil => simp [ioSteps]
  | cons a as ih =>
    have hsh := not_shutting (a :: as) h hl hs
    have h0 := h
    clear h
    obtain ⟨s1, h1, h⟩ := Exec.bind_eq_ok.1 h0
    clear h0
    obtain ⟨hl1, ho⟩ := hl.step h1
    have hsh1 := not_shutting as h hl1 hs
    have hr : ioSteps s (a :: as) =
        (if Iothr.isIo a && !(s.asleep && s1.asleep) then 1 else 0) + ioSteps s1 as := by
      simp only [ioSteps, h1]
    rw [hr]
    cases a with
    | io now wake =>
      rcases ioStep_nearer h1 hl.g hsh hq hw with ⟨⟨d, hd⟩, rfl⟩ | ⟨rfl, hw1⟩ | ⟨l1', hw1, hlt⟩
      · have : s1.asleep = true := by unfold asleep; rw [hd]
        have := ih h hl hq hw
        simp_all
      · -- taken
        exfalso
        refine absurd hin (stays_out as h hl1 ?_ ?_)
        · obtain ⟨x, hx⟩ := (step_trs h1).log
          have hm : e ∈ submits s.log := hl.a.mem_queues (by
            obtain ⟨_, _, _, hf⟩ := mem_waiting (s := s) (q := e.queue) (e := e) (by rw [hw]; simp)
            exact hf)
          rw [hx, submits_append]; exact List.mem_append_left _ hm
        · intro hm
          have hm := (mem_queues_waiting hl1.a hm).2
          rw [hw1] at hm
          have hc : (s.waiting e.queue).count e ≤ 1 := by
            have h1 := hl.a.held e
            have h2 := count_le_one hl.a.ids e
            have h3 : (s.waiting e.queue).count e ≤ s.queues.flatten.count e := by
              obtain ⟨l, hl', _, _⟩ := mem_waiting (s := s) (q := e.queue) (e := e) (by rw [hw]; simp)
              have : s.waiting e.queue = l := by unfold waiting; rw [hl']; rfl
              rw [this]
              have : l.Sublist s.queues.flatten := List.sublist_flatten_of_mem (List.mem_of_getElem? hl')
              exact this.count_le _
            omega
          rw [hw] at hc
          have := List.count_pos_iff.2 hm
          simp at hc
          omega
      · have := ih h hl1 (by rw [ho]; exact hq) hw1
        rw [ho] at this
        split <;> omega
    | _ =>
      obtain ⟨l2', hw1, _⟩ := step_waiting h1 (by intro _ _ h; cases h) hsh1 hw
      have := ih h hl1 (by rw [ho]; exact hq) hw1
      rw [ho, step_pc h1 (by intro _ _ h; cases h)] at this
      simpa [Iothr.isIo] using this

/-- **C130**, first part. Let the submission of `e` have succeeded. Once the I/O thread has made
`(input_queue_size - 1) * (num_input_queues + 3)` more steps, not counting those in which it goes on waiting, `e` is
in no queue any more, unless `fstrm_iothr_destroy` has been called: if it has a free function, it has been
called, or `e` is in the output buffer. This does not depend on what producers do. -/
theorem accepted_leaves (opt : IothrOptions) (w : Writer σ) (as bs : List IoAct) (s s' : Iothr σ)
    (h : (Iothr.init opt w).run as = .ok s) (e : Entry) (he : e ∈ submits s.log)
    (hb : s.run bs = .ok s') (hs : IoEv.shutdown ∉ s'.log)
    (hk : (opt.inputQueueSize - 1) * (opt.numInputQueues + 3) ≤ ioSteps s bs) :
    e ∉ s'.queues.flatten ∧ (e.hasFree = true → e ∈ frees s'.log ∨ e ∈ s'.outq) := by
  obtain ⟨hl, ho⟩ := (Live.init opt w).run as h
  obtain ⟨hl', _⟩ := hl.run bs hb
  have ho1 : s.opt.inputQueueSize = opt.inputQueueSize ∧ s.opt.numInputQueues = opt.numInputQueues := by
    rw [ho]
    unfold Iothr.init
    simp only
    split <;> exact ⟨rfl, rfl⟩
  have hout : e ∉ s'.queues.flatten := by
    by_cases hm : e ∈ s.queues.flatten
    · intro hin
      obtain ⟨hq, hw⟩ := mem_queues_waiting hl.a hm
      obtain ⟨l1, l2, hw⟩ := List.append_of_mem hw
      have h1 := run_progress bs hb hl hs hq hw hin
      have h2 := hl.cap e.queue
      rw [hw, ho1.1] at h2
      simp only [List.length_append, List.length_cons] at h2
      have h3 := dist_le s.opt.numInputQueues e.queue s.pc hq
      rw [ho1.2] at h1 h3
      have h4 : (l1.length + 1) * (opt.numInputQueues + 3) ≤
          (opt.inputQueueSize - 1) * (opt.numInputQueues + 3) := Nat.mul_le_mul_right _ (by omega)
      rw [Nat.add_mul] at h4
      omega
    · exact stays_out bs hb hl he hm
  refine ⟨hout, fun hf => ?_⟩
  have h1 := hl'.a.cons e hf
  have h2 : 0 < (submits s'.log).count e := by
    obtain ⟨x, hx⟩ := (run_trs bs hb).log
    rw [hx, submits_append]
    exact List.count_pos_iff.2 (List.mem_append_left _ he)
  rw [List.count_eq_zero.2 hout] at h1
  by_cases h3 : e ∈ frees s'.log
  · exact Or.inl h3
  · rw [List.count_eq_zero.2 h3] at h1
    exact Or.inr (List.count_pos_iff.1 (by omega))

theorem onQueue_mono {s s' : Iothr σ} (as : List IoAct) (h : s.run as = .ok s') (q : Nat) :
    ∃ x, onQueue q (submits s'.log) = onQueue q (submits s.log) ++ x := by
  obtain ⟨x, hx⟩ := (run_trs as h).log
  exact ⟨_, by rw [hx, submits_append, onQueue_append]⟩

/-- A queue into which nothing is put only gets shorter. -/
theorem waiting_suffix {s s' : Iothr σ} (as : List IoAct) (h : s.run as = .ok s') (q : Nat)
    (hn : onQueue q (submits s'.log) = onQueue q (submits s.log)) : s'.waiting q <:+ s.waiting q := by
  induction as generalizing s with
  | nil => cases h; exact List.suffix_rfl
  | cons a as ih =>
    obtain ⟨s1, h1, h⟩ := Exec.bind_eq_ok.1 h
    obtain ⟨x, hx⟩ := onQueue_mono as h q
    obtain ⟨y, hy⟩ := onQueue_mono [a] (s := s) (s' := s1) (by simp only [Iothr.run, h1]; rfl) q
    have hxy : x = [] ∧ y = [] := by
      rw [hx, hy] at hn
      have := congrArg List.length hn
      simp only [List.length_append] at this
      exact ⟨List.length_eq_zero_iff.1 (by omega), List.length_eq_zero_iff.1 (by omega)⟩
    rw [hxy.1, List.append_nil] at hx
    rw [hxy.2, List.append_nil] at hy
    refine (ih h hx).trans ?_
    rcases step_eff h1 with ⟨g1, _⟩ | ⟨e', q', sig, g1, g2, g3, g4, g5, _⟩ | ⟨z, rest, g1, g3, _⟩ | ⟨g1, _⟩
    · unfold waiting; rw [g1]; exact List.suffix_rfl
    · rw [waiting_set g1 g3 q]
      split
      · rename_i hq
        exfalso
        rw [g4, submits_append] at hy
        simp only [submits, g5] at hy
        rw [onQueue_append, onQueue_single, if_pos hq] at hy
        exact absurd (congrArg List.length hy) (by simp)
      · exact List.suffix_rfl
    · rw [waiting_set g1 g3 q]
      split
      · rename_i hq
        have : s.waiting q = z :: rest := by unfold waiting; rw [← hq, g1]; rfl
        rw [this]; exact List.suffix_cons _ _
      · exact List.suffix_rfl
    · rw [g1]; exact List.nil_suffix

/-- **C130**, second part. A queue that is full does not stay full: if nothing else is accepted for it while the I/O
thread makes `num_input_queues + 3` steps, not counting those in which it goes on waiting, then the next submission
to it succeeds, unless `fstrm_iothr_destroy` has been called. -/
theorem full_queue_reopens (opt : IothrOptions) (hopt : 2 ≤ opt.inputQueueSize) (w : Writer σ)
    (as bs : List IoAct) (s s' : Iothr σ)
    (h : (Iothr.init opt w).run as = .ok s) (hb : s.run bs = .ok s') (hs : IoEv.shutdown ∉ s'.log)
    (t : Nat) (e : Entry) (hp : s'.pending t = some e)
    (hn : onQueue e.queue (submits s'.log) = onQueue e.queue (submits s.log))
    (hk : opt.numInputQueues + 3 ≤ ioSteps s bs) :
    ∃ s'', s'.step (.insert t) = .ok s'' ∧ submits s''.log = submits s'.log ++ [e] := by
  obtain ⟨hl, ho⟩ := (Live.init opt w).run as h
  obtain ⟨hl', ho'⟩ := hl.run bs hb
  have ho1 : s.opt.inputQueueSize = opt.inputQueueSize ∧ s.opt.numInputQueues = opt.numInputQueues := by
    rw [ho]
    unfold Iothr.init
    simp only
    split <;> exact ⟨rfl, rfl⟩
  have hlt : (s'.waiting e.queue).length < s'.opt.inputQueueSize - 1 := by
    have hsuf := waiting_suffix bs hb e.queue hn
    have hc := hl.cap e.queue
    rw [ho', ho1.1]
    rw [ho1.1] at hc
    cases hw : s.waiting e.queue with
    | nil =>
      rw [hw] at hsuf
      rw [List.suffix_nil.1 hsuf]
      simp only [List.length_nil]; omega
    | cons x rest =>
      rw [hw] at hsuf hc
      rcases List.suffix_cons_iff.1 hsuf with heq | hsuf
      · -- the first entry is still there
        exfalso
        have hxq : x.queue = e.queue ∧ x ∈ s'.queues.flatten := by
          obtain ⟨l, h1, h2, h3⟩ := mem_waiting (s := s') (q := e.queue) (e := x) (by rw [heq]; simp)
          exact ⟨hl'.a.qid _ _ h1 x h2, h3⟩
        have hq : x.queue < s.opt.numInputQueues := by
          obtain ⟨l, h1, h2, h3⟩ := mem_waiting (s := s) (q := e.queue) (e := x) (by rw [hw]; simp)
          rw [hxq.1]
          exact hl.a.qlen ▸ (List.getElem?_eq_some_iff.1 h1).1
        have h1 := run_progress bs hb hl hs hq (l1 := []) (l2 := rest) (by rw [hxq.1, hw]; rfl) hxq.2
        have h3 := dist_le s.opt.numInputQueues x.queue s.pc hq
        rw [ho1.2] at h1 h3
        simp at h1
        omega
      · have := hsuf.length_le
        simp only [List.length_cons] at hc
        omega
  obtain ⟨_, hpl, _⟩ := hl'.a.plt t e hp
  have hq : s'.queues[e.queue]? = some (s'.waiting e.queue) := by
    unfold waiting
    rw [List.getElem?_eq_getElem hpl]; rfl
  have hd : s'.destroyed = false := by
    cases hd : s'.destroyed with
    | false => rfl
    | true =>
      have := (iothr_invC (as := as ++ bs) ((Iothr.run_append _ _ _ _).2 ⟨s, h, hb⟩)).alive hd
      have := hl'.g.shut.1 (hl'.g.exited this).1
      exact absurd this hs
  simp only [step, submitInsert, hp, hd, Bool.false_eq_true, ↓reduceIte, hq, hlt]
  split
  · refine ⟨_, rfl, ?_⟩
    have hlog : ∀ x : Iothr σ, x.signal.log = x.log := by
      intro x; obtain ⟨wk, hwk⟩ := signal_eq x; rw [hwk]
    rw [hlog]
    simp [emit, submits_append, submits]
  · exact ⟨_, rfl, by simp [emit, submits_append, submits]⟩

/-- While no queue was found to have an entry, `e` is in none that has been looked at. -/
theorem step_not_asleep {s s' : Iothr σ} {a : IoAct} (h : s.step a = .ok s') (hl : Live s) {e : Entry}
    (he : e ∈ submits s.log) (hin : e ∈ s'.queues.flatten) (hs : s.asleep = false)
    (hc : ∀ i, s.pc = .work i 0 → i ≤ e.queue) :
    s'.asleep = false ∧ ∀ i, s'.pc = .work i 0 → i ≤ e.queue := by
  have hin0 : e ∈ s.queues.flatten := Decidable.byContradiction fun hn =>
    stays_out [a] (s := s) (s' := s') (by simp only [Iothr.run, h]; rfl) hl he hn hin
  obtain ⟨hq, hw⟩ := mem_queues_waiting hl.a hin0
  cases a with
  | io now wake =>
    simp only [step] at h
    unfold ioStep at h
    split at h
    · obtain ⟨s1, h1, h⟩ := Exec.bind_eq_ok.1 h
      cases h
      exact ⟨rfl, fun i hi => by cases hi⟩
    · split at h
      · cases h; exact ⟨rfl, fun i hi => by cases hi⟩
      · obtain ⟨s1, h1, h⟩ := Exec.bind_eq_ok.1 h
        cases h
        exact ⟨rfl, fun i hi => by cases hi; omega⟩
    · rename_i i total hp
      split at h
      · obtain ⟨⟨n, s1⟩, h1, h⟩ := Exec.bind_eq_ok.1 h
        cases h
        refine ⟨rfl, fun j hj => ?_⟩
        simp only [IoPc.work.injEq] at hj
        obtain ⟨rfl, h0⟩ := hj
        have ht : total = 0 := by omega
        subst ht
        have hle := hc i hp
        by_cases hie : i = e.queue
        · exfalso
          subst hie
          unfold waiting at hw
          unfold processQueue at h1
          split at h1
          · obtain ⟨s2, _, h1⟩ := Exec.bind_eq_ok.1 h1
            cases h1; omega
          · rename_i hne
            cases hqq : s.queues[e.queue]? with
            | none => rw [hqq] at hw; cases hw
            | some l =>
              rw [hqq] at hw
              cases l with
              | nil => cases hw
              | cons x r => exact hne x r hqq
        · omega
      · rename_i hi
        split at h
        · cases h; exact ⟨rfl, fun i hi => by cases hi⟩
        · rename_i ht
          have ht : total = 0 := by omega
          subst ht
          have := hc i hp
          omega
    · split at h
      · obtain ⟨⟨n, s1⟩, h1, h⟩ := Exec.bind_eq_ok.1 h
        cases h; exact ⟨rfl, fun i hi => by cases hi⟩
      · split at h
        · cases h; exact ⟨rfl, fun i hi => by cases hi⟩
        · obtain ⟨s1, h1, h⟩ := Exec.bind_eq_ok.1 h
          obtain ⟨s2, h2, h⟩ := Exec.bind_eq_ok.1 h
          cases h; exact ⟨rfl, fun i hi => by cases hi⟩
    · rename_i d hp
      unfold asleep at hs
      rw [hp] at hs; cases hs
    · cases h; exact ⟨hs, hc⟩
  | _ =>
    have hpc := step_pc h (by intro _ _ h; cases h)
    unfold asleep at hs ⊢
    rw [hpc]
    exact ⟨hs, hc⟩

/-- **C130**, third part. The I/O thread does not wait while it has work: when it begins to wait, every payload that had been
accepted when it began its last pass over the queues (or an earlier one) has left its queue. -/
theorem waits_only_when_empty (opt : IothrOptions) (w : Writer σ) (as bs : List IoAct) (s s' : Iothr σ)
    (h : (Iothr.init opt w).run as = .ok s) (hp : s.passBegins = true) (hb : s.run bs = .ok s')
    (ha : s'.asleep = true) (e : Entry) (he : e ∈ submits s.log) : e ∉ s'.queues.flatten := by
  obtain ⟨hl, _⟩ := (Live.init opt w).run as h
  have hpc : s.pc = .top := by
    unfold passBegins at hp
    split at hp
    · assumption
    · cases hp
  intro hin
  have key : ∀ (bs : List IoAct) (s : Iothr σ), s.run bs = .ok s' → Live s → e ∈ submits s.log →
      s.asleep = false → (∀ i, s.pc = .work i 0 → i ≤ e.queue) → False := by
    intro bs
    induction bs with
    | nil => intro s h _ _ h1 _; cases h; rw [ha] at h1; cases h1
    | cons a bs ih =>
      intro s h hl he h1 h2
      obtain ⟨s1, g1, h⟩ := Exec.bind_eq_ok.1 h
      obtain ⟨hl1, _⟩ := hl.step g1
      have he1 : e ∈ submits s1.log := by
        obtain ⟨x, hx⟩ := (step_trs g1).log
        rw [hx, submits_append]; exact List.mem_append_left _ he
      have hin1 : e ∈ s1.queues.flatten := Decidable.byContradiction fun hn => stays_out bs h hl1 he1 hn hin
      obtain ⟨g2, g3⟩ := step_not_asleep g1 hl he hin1 h1 h2
      exact ih s1 h hl1 he1 g2 g3
  exact key bs s hb hl he (by unfold asleep; rw [hpc]) (by intro i hi; rw [hpc] at hi; cases hi)

/-- A queue of size 4 takes three payloads and refuses the fourth; after five steps of the I/O thread it takes it. -/
def fullActs : List IoAct :=
  [.submit 0 0 (some [1]) true, .insert 0, .submit 0 0 (some [2]) true, .insert 0,
   .submit 0 0 (some [3]) true, .insert 0, .submit 0 0 (some [4]) true, .insert 0]

example : ((Iothr.init twoQueues pipeWriter).run fullActs).map
    (fun s => ((submits s.log).map Entry.id, refusals s.log, ioSteps s (ioTimes 5 10))) =
      .ok ([0, 1, 2], [3], 5) ∧
    ((Iothr.init twoQueues pipeWriter).run (fullActs ++ ioTimes 5 10 ++
      [.submit 0 0 (some [4]) true, .insert 0])).map (fun s => (submits s.log).map Entry.id) =
      .ok [0, 1, 2, 4] ∧
    ((Iothr.init twoQueues pipeWriter).run (fullActs ++ ioTimes 15 10)).map
      (fun s => (s.queues, s.outq.map Entry.id, decide (IoEv.shutdown ∈ s.log))) =
      .ok ([[], []], [0, 1, 2], false) := by
  decide +kernel

/-- Before its first pass the I/O thread finds three payloads; when it waits for the first time, they are gone. -/
example : ((Iothr.init twoQueues pipeWriter).run (fullActs ++ ioTimes 1 10)).map
    (fun s => (s.passBegins, (submits s.log).length, s.queues.flatten.length)) = .ok (true, 3, 3) ∧
    ((Iothr.init twoQueues pipeWriter).run (fullActs ++ ioTimes 17 10)).map
    (fun s => (s.asleep, s.queues)) = .ok (true, [[], []]) := by
  decide +kernel

end Fstrm.Props
