import Verif.Model.Iothr
import Verif.Lemmas.Exec

/-!
# The steps of the I/O thread model as a small set of transitions
-/

set_option autoImplicit false

namespace Fstrm.Iothr

variable {σ : Type}

/-- The events of freeing several entries. -/
def freeEvs (es : List Entry) : List IoEv := (es.filter (·.hasFree)).map IoEv.freed

theorem freeEntry_eq (s : Iothr σ) (e : Entry) :
    s.freeEntry e = { s with log := s.log ++ freeEvs [e] } := by
  unfold freeEntry freeEvs emit
  by_cases h : e.hasFree <;> simp [h]

theorem freeAll_eq (es : List Entry) : ∀ (s : Iothr σ),
    s.freeAll es = { s with log := s.log ++ freeEvs es } := by
  induction es with
  | nil => intro s; simp [freeAll, freeEvs]
  | cons e es ih =>
    intro s
    have : s.freeAll (e :: es) = (s.freeEntry e).freeAll es := rfl
    rw [this, ih, freeEntry_eq]
    simp only [List.append_assoc]
    congr 1
    congr 1
    unfold freeEvs
    rw [← List.map_append, ← List.filter_append]
    rfl

theorem freeOutq_eq (s : Iothr σ) :
    s.freeOutq = { s with outq := [], outqBytes := 0, log := s.log ++ freeEvs s.outq } := by
  unfold freeOutq; rw [freeAll_eq]

/-- Changes of the program counter. -/
inductive PcStep (s : Iothr σ) : IoPc → Prop
  | start : s.pc = .start → PcStep s .top
  | shut : s.pc = .top → s.shutting = true → PcStep s (.drain 0 0)
  | work : s.pc = .top → PcStep s (.work 0 0)
  | workNext (i t t' : Nat) : s.pc = .work i t → PcStep s (.work (i + 1) t')
  | workTop (i t : Nat) : s.pc = .work i t → PcStep s .top
  | workSleep (i t d : Nat) : s.pc = .work i t → PcStep s (.sleep d)
  | drainNext (i t t' : Nat) : s.pc = .drain i t → i < s.opt.numInputQueues →
      (t' = 0 → t = 0 ∧ ∀ q, s.queues[i]? = some q → ∀ e ∈ q, e ∉ submits (beforeShutdown s.log)) →
      PcStep s (.drain (i + 1) t')
  | drainAgain (i t : Nat) : s.pc = .drain i t → t ≠ 0 → PcStep s (.drain 0 0)
  | exit (i : Nat) : s.pc = .drain i 0 → s.opt.numInputQueues ≤ i → s.outq = [] →
      s.opened = false → PcStep s .exited
  | wake (d : Nat) : s.pc = .sleep d → PcStep s .top

/-- The queue a program counter is looking at. -/
inductive At (s : Iothr σ) (i : Nat) : Prop
  | work (t : Nat) : s.pc = .work i t → i < s.opt.numInputQueues → At s i
  | drain (t : Nat) : s.pc = .drain i t → i < s.opt.numInputQueues → At s i

/-- Transitions. -/
inductive Tr : Iothr σ → Iothr σ → Prop
  | refused (s : Iothr σ) (r : Res) : s.destroyed = false →
      Tr s { s with nextId := s.nextId + 1, log := s.log ++ [.refused s.nextId r] }
  | began (s : Iothr σ) (t q : Nat) (d : Bytes) (f : Bool) : s.destroyed = false → s.pending t = none →
      q < s.queues.length → s.shutting = false → 1 ≤ d.length → d.length < 4294967295 →
      Tr s { s with
        nextId := s.nextId + 1
        pending := fun t' => if t' = t then some ⟨s.nextId, q, d, f⟩ else s.pending t' }
  | full (s : Iothr σ) (t : Nat) (e : Entry) : s.destroyed = false → s.pending t = some e →
      Tr s { s with
        pending := fun t' => if t' = t then none else s.pending t'
        log := s.log ++ [.refused e.id .again] }
  | lost (s : Iothr σ) (t : Nat) (e : Entry) : s.destroyed = false → s.pending t = some e →
      s.queues[e.queue]? = none →
      Tr s { s with pending := fun t' => if t' = t then none else s.pending t' }
  | inserted (s : Iothr σ) (t : Nat) (e : Entry) (q : List Entry) (wk : Bool) (sig : List IoEv) :
      s.destroyed = false → s.pending t = some e → s.queues[e.queue]? = some q →
      q.length < s.opt.inputQueueSize - 1 → sig = [] ∨ sig = [.signal] →
      Tr s { s with
        pending := fun t' => if t' = t then none else s.pending t'
        queues := s.queues.set e.queue (q ++ [e])
        woken := wk
        log := s.log ++ [.submitted e] ++ sig }
  | signalled (s : Iothr σ) (wk : Bool) : Tr s { s with woken := wk, log := s.log ++ [.signal] }
  | gotSome (s : Iothr σ) : s.getIdx < s.opt.numInputQueues →
      Tr s { s with getIdx := s.getIdx + 1, log := s.log ++ [.gotQueue (some s.getIdx)] }
  | gotNone (s : Iothr σ) : ¬ s.getIdx < s.opt.numInputQueues →
      Tr s { s with log := s.log ++ [.gotQueue none] }
  | shut (s : Iothr σ) (wk : Bool) : s.shutting = false →
      Tr s { s with shutting := true, woken := wk, log := s.log ++ [.shutdown] }
  | opn (s : Iothr σ) (now : Nat) (r : Res) (w : Writer σ) : s.pc = .start ∨ s.pc = .top →
      s.opened = false → s.lastOpen + s.opt.reopenInterval ≤ now → s.writer.open = .ok (r, w) →
      Tr s { s with
        lastOpen := now, opened := decide (r = .success), writer := w
        log := s.log ++ [.opn now r] }
  | cls (s : Iothr σ) (i : Nat) (r : Res) (w : Writer σ) : s.pc = .drain i 0 →
      s.opt.numInputQueues ≤ i → s.outq = [] → s.opened = true → s.writer.close = .ok (r, w) →
      Tr s { s with opened := false, writer := w, log := s.log ++ [.close r] }
  | flushOk (s : Iothr σ) (w : Writer σ) : s.pc ≠ .start → s.pc ≠ .exited → s.opened = true →
      s.outq ≠ [] → s.writer.writev (s.outq.map Entry.data) = .ok (.success, w) →
      Tr s { s with
        writer := w, outq := [], outqBytes := 0
        log := s.log ++ [.write s.outq .success] ++ freeEvs s.outq }
  | flushFail (s : Iothr σ) (r r2 : Res) (w w2 : Writer σ) : s.pc ≠ .start → s.pc ≠ .exited →
      s.opened = true → s.outq ≠ [] → s.writer.writev (s.outq.map Entry.data) = .ok (r, w) →
      r ≠ .success → w.close = .ok (r2, w2) →
      Tr s { s with
        opened := false, writer := w2, outq := [], outqBytes := 0
        log := s.log ++ [.write s.outq r, .close r2] ++ freeEvs s.outq }
  | flushIdle (s : Iothr σ) : s.pc ≠ .start → s.pc ≠ .exited → s.opened = false ∨ s.outq = [] →
      Tr s { s with outq := [], outqBytes := 0, log := s.log ++ freeEvs s.outq }
  | push (s : Iothr σ) (i : Nat) (e : Entry) (rest : List Entry) : At s i →
      s.queues[i]? = some (e :: rest) → s.outq.length < s.opt.outputQueueSize →
      s.outq = [] ∨ s.outqBytes + (4 + e.data.length) < s.opt.bufferHint →
      Tr s { s with
        queues := s.queues.set i rest, outq := s.outq ++ [e]
        outqBytes := (s.outqBytes + (4 + e.data.length)) % 4294967296 }
  | drop (s : Iothr σ) (i : Nat) (e : Entry) (rest : List Entry) : At s i →
      s.queues[i]? = some (e :: rest) → s.opened = false →
      Tr s { s with queues := s.queues.set i rest, log := s.log ++ freeEvs [e] }
  | pc (s : Iothr σ) (p : IoPc) (wk : Bool) : PcStep s p → Tr s { s with pc := p, woken := wk }
  | finish (s : Iothr σ) (r : Res) (rdwr : Rdwr σ) : s.shutting = true → s.pc = .exited →
      s.destroyed = false → s.writer.destroy = .ok (r, rdwr) →
      Tr s { s with
        writer := { s.writer with rdwr := rdwr }
        queues := s.queues.map fun _ => [], destroyed := true
        log := s.log ++ freeEvs s.queues.flatten ++ [.destroyed] }

/-- Any number of transitions. -/
inductive Trs : Iothr σ → Iothr σ → Prop
  | refl (s : Iothr σ) : Trs s s
  | snoc {s s' s'' : Iothr σ} : Trs s s' → Tr s' s'' → Trs s s''

theorem Trs.trans {a b c : Iothr σ} (h1 : Trs a b) (h2 : Trs b c) : Trs a c := by
  induction h2 with
  | refl => exact h1
  | snoc _ ht ih => exact .snoc ih ht

theorem Tr.trs {a b : Iothr σ} (h : Tr a b) : Trs a b := .snoc (.refl a) h

/-- A property kept by all transitions. -/
theorem Trs.inv {P : Iothr σ → Prop} (hP : ∀ s s', P s → Tr s s' → P s') {a b : Iothr σ}
    (h : Trs a b) (ha : P a) : P b := by
  induction h with
  | refl => exact ha
  | snoc _ ht ih => exact hP _ _ ih ht

theorem close_ok {s s' : Iothr σ} (h : s.close = .ok s') :
    (s.opened = false ∧ s' = s) ∨ (s.opened = true ∧ ∃ r w, s.writer.close = .ok (r, w) ∧
      s' = { s with opened := false, writer := w, log := s.log ++ [.close r] }) := by
  unfold close at h
  split at h
  · rename_i ho
    obtain ⟨⟨r, w⟩, h1, h⟩ := Exec.bind_eq_ok.1 h
    cases h
    exact Or.inr ⟨ho, r, w, h1, rfl⟩
  · rename_i ho
    cases h
    exact Or.inl ⟨by simpa using ho, rfl⟩

/-- Flushing changes these fields only. -/
theorem flush_frame {s s' : Iothr σ} (h : s.flush = .ok s') :
    s'.opt = s.opt ∧ s'.pc = s.pc ∧ s'.queues = s.queues ∧ s'.shutting = s.shutting ∧
    s'.outq = [] ∧ s'.outqBytes = 0 := by
  unfold flush at h
  split at h
  · obtain ⟨⟨r, w⟩, h1, h⟩ := Exec.bind_eq_ok.1 h
    simp only at h
    split at h
    · obtain ⟨s1, h2, h⟩ := Exec.bind_eq_ok.1 h
      cases h
      rw [freeOutq_eq]
      rcases close_ok h2 with ⟨_, rfl⟩ | ⟨_, r2, w2, _, rfl⟩ <;> simp [emit]
    · cases h
      rw [freeOutq_eq]; simp [emit]
  · cases h
    rw [freeOutq_eq]; simp

theorem flush_tr {s s' : Iothr σ} (h : s.flush = .ok s') (hp : s.pc ≠ .start) (hp' : s.pc ≠ .exited) :
    Tr s s' := by
  unfold flush at h
  split at h
  · rename_i ho
    obtain ⟨⟨r, w⟩, h1, h⟩ := Exec.bind_eq_ok.1 h
    have hne : s.outq ≠ [] := by intro hn; simp [hn] at ho
    simp only at h
    split at h
    · rename_i hr
      obtain ⟨s1, h2, h⟩ := Exec.bind_eq_ok.1 h
      cases h
      rw [freeOutq_eq]
      rcases close_ok h2 with ⟨hc, rfl⟩ | ⟨_, r2, w2, hc, rfl⟩
      · simp [emit, ho.1] at hc
      · have := Tr.flushFail s r r2 w w2 hp hp' ho.1 hne h1 hr hc
        simpa [emit] using this
    · rename_i hr
      cases h
      simp only [ne_eq, Decidable.not_not] at hr
      subst hr
      rw [freeOutq_eq]
      have := Tr.flushOk s w hp hp' ho.1 hne h1
      simpa [emit] using this
  · rename_i ho
    cases h
    rw [freeOutq_eq]
    refine Tr.flushIdle s hp hp' ?_
    by_cases h1 : s.opened = true
    · right
      simp only [h1, true_and] at ho
      exact List.length_eq_zero_iff.1 (by omega)
    · left; simpa using h1

/-- Flushing does not look at the input queues. -/
theorem flush_queues (s : Iothr σ) (qs : List (List Entry)) :
    ({ s with queues := qs }).flush = (s.flush).map fun s => { s with queues := qs } := by
  unfold flush
  simp only
  split
  · cases hw : s.writer.writev (s.outq.map Entry.data) with
    | error e => rfl
    | ok p =>
      obtain ⟨r, w⟩ := p
      simp only [Exec.ok_bind, emit]
      split
      · unfold close
        simp only
        rename_i ho _
        simp only [ho.1, if_true]
        cases hc : w.close with
        | error e => rfl
        | ok p =>
          simp only [Exec.ok_bind, freeOutq_eq, emit]; rfl
      · simp only [freeOutq_eq]; rfl
  · simp only [freeOutq_eq]; rfl

theorem processQueue_ok {s s' : Iothr σ} {i n : Nat} (h : s.processQueue i = .ok (n, s'))
    (hat : At s i) :
    Trs s s' ∧ s'.pc = s.pc ∧ s'.opt = s.opt ∧ s'.shutting = s.shutting ∧
    (n = 0 → s' = s ∧ ∀ q, s.queues[i]? = some q → q = []) ∧
    (n = 0 ∨ n = 1) := by
  have hp : s.pc ≠ .start ∧ s.pc ≠ .exited := by
    cases hat with
    | work t h => rw [h]; exact ⟨nofun, nofun⟩
    | drain t h => rw [h]; exact ⟨nofun, nofun⟩
  unfold processQueue at h
  split at h
  · rename_i e rest hq
    obtain ⟨s1, h1, h⟩ := Exec.bind_eq_ok.1 h
    cases h
    unfold processEntry at h1
    split at h1
    · rename_i ho
      simp only at ho
      obtain ⟨s2, h2, h1⟩ := Exec.bind_eq_ok.1 h1
      unfold maybeFlush at h2
      simp only at h2
      split at h2
      · cases h2
      · rename_i hle
        split at h2
        · rename_i hcond
          rw [flush_queues] at h2
          cases hf : s.flush with
          | error e => rw [hf] at h2; cases h2
          | ok s3 =>
            rw [hf] at h2
            cases h2
            obtain ⟨f1, f2, f3, f4, f5, f6⟩ := flush_frame hf
            split at h1
            · cases h1
            · rename_i hlt
              cases h1
              have t1 := flush_tr hf hp.1 hp.2
              have hat3 : At s3 i := by
                cases hat with
                | work t h hi => exact .work t (f2.trans h) (f1 ▸ hi)
                | drain t h hi => exact .drain t (f2.trans h) (f1 ▸ hi)
              have t2 := Tr.push s3 i e rest hat3 (by rw [f3]; exact hq)
                (by simpa using hlt) (Or.inl f5)
              rw [f3] at t2
              exact ⟨.snoc t1.trs t2, f2, f1, f4, by simp, Or.inr rfl⟩
        · rename_i hcond
          cases h2
          split at h1
          · cases h1
          · rename_i hlt
            cases h1
            refine ⟨Tr.trs (Tr.push s i e rest hat hq (by simpa using hlt) ?_), rfl, rfl, rfl, by simp,
              Or.inr rfl⟩
            by_cases hz : s.outq = []
            · exact Or.inl hz
            · right
              have := List.length_pos_iff.2 hz
              simp only at hlt
              omega
    · rename_i ho
      cases h1
      rw [freeEntry_eq]
      exact ⟨Tr.trs (Tr.drop s i e rest hat hq (by simpa using ho)), rfl, rfl, rfl, by simp, Or.inr rfl⟩
  · rename_i hne
    cases h
    refine ⟨.refl _, rfl, rfl, rfl, fun _ => ⟨rfl, ?_⟩, Or.inl rfl⟩
    intro q hq
    cases q with
    | nil => rfl
    | cons e r => exact absurd hq (hne e r)

theorem maybeOpen_ok {s s' : Iothr σ} {now : Nat} (h : s.maybeOpen now = .ok s')
    (hp : s.pc = .start ∨ s.pc = .top) :
    Trs s s' ∧ s'.pc = s.pc ∧ s'.opt = s.opt ∧ s'.shutting = s.shutting := by
  unfold maybeOpen at h
  split at h
  · cases h; exact ⟨.refl _, rfl, rfl, rfl⟩
  · rename_i ho
    split at h
    · cases h; exact ⟨.refl _, rfl, rfl, rfl⟩
    · rename_i hi
      obtain ⟨⟨r, w⟩, h1, h⟩ := Exec.bind_eq_ok.1 h
      cases h
      exact ⟨Tr.trs (Tr.opn s now r w hp (by simpa using ho) (by omega) h1), rfl, rfl, rfl⟩

theorem ioStep_trs {s s' : Iothr σ} {now : Nat} {wake : Wake} (h : s.ioStep now wake = .ok s') :
    Trs s s' := by
  unfold ioStep at h
  split at h
  · rename_i hp
    obtain ⟨s1, h1, h⟩ := Exec.bind_eq_ok.1 h
    cases h
    obtain ⟨t, p, _, _⟩ := maybeOpen_ok h1 (Or.inl hp)
    exact .snoc t (Tr.pc s1 .top _ (.start (p.trans hp)))
  · rename_i hp
    split at h
    · rename_i hs
      cases h
      exact Tr.trs (Tr.pc s _ _ (.shut hp hs))
    · obtain ⟨s1, h1, h⟩ := Exec.bind_eq_ok.1 h
      cases h
      obtain ⟨t, p, _, _⟩ := maybeOpen_ok h1 (Or.inr hp)
      exact .snoc t (Tr.pc s1 _ _ (.work (p.trans hp)))
  · rename_i i total hp
    split at h
    · rename_i hi
      obtain ⟨⟨n, s1⟩, h1, h⟩ := Exec.bind_eq_ok.1 h
      cases h
      obtain ⟨t, p, _⟩ := processQueue_ok h1 (.work total hp hi)
      exact .snoc t (Tr.pc s1 _ _ (.workNext i total _ (p.trans hp)))
    · split at h
      · cases h
        exact Tr.trs (Tr.pc s _ _ (.workTop i total hp))
      · cases h
        exact Tr.trs (Tr.pc s _ _ (.workSleep i total _ hp))
  · rename_i i total hp
    split at h
    · rename_i hi
      obtain ⟨⟨n, s1⟩, h1, h⟩ := Exec.bind_eq_ok.1 h
      cases h
      obtain ⟨t, p, ho, _, hz, _⟩ := processQueue_ok h1 (.drain total hp hi)
      refine .snoc t (Tr.pc s1 _ _ (.drainNext i total _ (p.trans hp) (ho ▸ hi) ?_))
      intro h0
      obtain ⟨e1, e2⟩ := hz (by omega)
      rw [e1]
      exact ⟨by omega, fun q hq e he => by rw [e2 q hq] at he; cases he⟩
    · rename_i hi
      split at h
      · rename_i ht
        cases h
        exact Tr.trs (Tr.pc s _ _ (.drainAgain i total hp ht))
      · rename_i ht
        simp only [ne_eq, Decidable.not_not] at ht
        subst ht
        obtain ⟨s1, h1, h⟩ := Exec.bind_eq_ok.1 h
        obtain ⟨s2, h2, h⟩ := Exec.bind_eq_ok.1 h
        cases h
        have t1 := flush_tr h1 (by rw [hp]; nofun) (by rw [hp]; nofun)
        obtain ⟨f1, f2, f3, f4, f5, f6⟩ := flush_frame h1
        have hi1 : s1.opt.numInputQueues ≤ i := by rw [f1]; omega
        rcases close_ok h2 with ⟨hc, rfl⟩ | ⟨ho, r, w, hc, rfl⟩
        · exact .snoc t1.trs (Tr.pc s2 _ _ (.exit i (f2.trans hp) hi1 f5 hc))
        · exact .snoc (.snoc t1.trs (Tr.cls s1 i r w (f2.trans hp) hi1 f5 ho hc))
            (Tr.pc _ _ _ (.exit i (f2.trans hp) hi1 f5 rfl))
  · rename_i d hp
    split at h
    · split at h
      · obtain ⟨s1, h1, h⟩ := Exec.bind_eq_ok.1 h
        cases h
        have t1 := flush_tr h1 (by rw [hp]; nofun) (by rw [hp]; nofun)
        obtain ⟨f1, f2, f3, f4, f5, f6⟩ := flush_frame h1
        exact .snoc t1.trs (Tr.pc s1 _ _ (.wake d (f2.trans hp)))
      · cases h; exact .refl _
    · split at h
      · cases h; exact Tr.trs (Tr.pc s _ _ (.wake d hp))
      · cases h; exact .refl _
    · cases h; exact Tr.trs (Tr.pc s _ _ (.wake d hp))
  · cases h; exact .refl _

theorem signal_eq (s : Iothr σ) : ∃ wk, s.signal = { s with woken := wk } := by
  unfold signal
  split
  · exact ⟨true, rfl⟩
  · exact ⟨s.woken, rfl⟩

/-- Every step is a sequence of transitions. -/
theorem step_trs {s s' : Iothr σ} {a : IoAct} (h : s.step a = .ok s') : Trs s s' := by
  cases a with
  | submit t q data f =>
    simp only [step, submitCheck] at h
    split at h
    · cases h
    · rename_i hd
      have hd : s.destroyed = false := by simpa using hd
      split at h
      · cases h; exact .refl _
      · rename_i hpq
        simp only [not_or] at hpq
        split at h
        · cases h; exact Tr.trs (Tr.refused s _ hd)
        · rename_i hs
          split at h
          · cases h; exact Tr.trs (Tr.refused s _ hd)
          · split at h
            · cases h; exact Tr.trs (Tr.refused s _ hd)
            · rename_i d hl
              cases h
              exact Tr.trs (Tr.began s t q d f hd (by simpa using hpq.1) (by omega) (by simpa using hs) (by omega)
                (by omega))
  | insert t =>
    simp only [step, submitInsert] at h
    split at h
    · cases h; exact .refl _
    · rename_i e hp
      split at h
      · cases h
      · rename_i hd
        have hd : s.destroyed = false := by simpa using hd
        split at h
        · rename_i hq
          cases h; exact Tr.trs (Tr.lost s t e hd hp hq)
        · rename_i q hq
          split at h
          · rename_i hl
            split at h
            · cases h
              obtain ⟨wk, hwk⟩ := signal_eq (emit (emit { s with
                pending := fun t' => if t' = t then none else s.pending t'
                queues := s.queues.set e.queue (q ++ [e]) } (.submitted e)) .signal)
              have := Tr.inserted s t e q wk [.signal] hd hp hq hl (Or.inr rfl)
              simp only [emit] at hwk
              simp only [emit, hwk]
              exact this.trs
            · cases h
              have := Tr.inserted s t e q s.woken [] hd hp hq hl (Or.inl rfl)
              simpa [emit] using this.trs
          · cases h; exact Tr.trs (Tr.full s t e hd hp)
  | getQueue =>
    simp only [step, getQueue] at h
    split at h
    · cases h
    · split at h
      · rename_i hg
        cases h; exact Tr.trs (Tr.gotSome s hg)
      · rename_i hg
        cases h; exact Tr.trs (Tr.gotNone s hg)
  | io now wake => exact ioStep_trs h
  | shutdown =>
    simp only [step, shutdown] at h
    split at h
    · cases h; exact .refl _
    · rename_i hs
      cases h
      obtain ⟨wk, hwk⟩ := signal_eq ({ s with shutting := true }.emit .shutdown)
      simp only [emit] at hwk
      simp only [emit, hwk]
      exact Tr.trs (Tr.shut s wk (by simpa using hs))
  | finish =>
    simp only [step, finish] at h
    split at h
    · rename_i hc
      obtain ⟨⟨r, rdwr⟩, h1, h⟩ := Exec.bind_eq_ok.1 h
      cases h
      rw [freeAll_eq]
      have := Tr.finish s r rdwr hc.1 hc.2.1 hc.2.2 h1
      simpa [emit] using this.trs
    · cases h; exact .refl _

/-- Every execution is a sequence of transitions. -/
theorem run_trs : ∀ (as : List IoAct) {s s' : Iothr σ}, s.run as = .ok s' → Trs s s'
  | [], s, s', h => by cases h; exact .refl _
  | a :: as, s, s', h => by
    obtain ⟨s1, h1, h⟩ := Exec.bind_eq_ok.1 h
    exact (step_trs h1).trans (run_trs as h)

theorem run_append (s s' : Iothr σ) (a b : List IoAct) :
    s.run (a ++ b) = .ok s' ↔ ∃ s1, s.run a = .ok s1 ∧ s1.run b = .ok s' := by
  induction a generalizing s with
  | nil => simp [run]
  | cons x a ih =>
    simp only [List.cons_append, run]
    constructor
    · intro h
      obtain ⟨s1, h1, h⟩ := Exec.bind_eq_ok.1 h
      obtain ⟨s2, h2, h3⟩ := (ih s1).1 h
      exact ⟨s2, Exec.bind_eq_ok.2 ⟨s1, h1, h2⟩, h3⟩
    · rintro ⟨s2, h2, h3⟩
      obtain ⟨s1, h1, h2⟩ := Exec.bind_eq_ok.1 h2
      exact Exec.bind_eq_ok.2 ⟨s1, h1, (ih s1).2 ⟨s2, h2, h3⟩⟩

end Fstrm.Iothr
