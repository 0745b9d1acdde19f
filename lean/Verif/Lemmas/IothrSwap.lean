import Verif.Lemmas.IothrInv2
import Verif.Lemmas.Chan

/-!
The I/O thread looks at nothing of the writer but the results of its calls: two executions with the
same schedule, on different writers whose calls all succeed, do the same.
-/

set_option autoImplicit false

namespace Fstrm

variable {σ τ : Type}

/-- The same I/O thread with another writer. -/
def Iothr.swap (s : Iothr σ) (w : Writer τ) : Iothr τ :=
  { opt := s.opt, writer := w, opened := s.opened, lastOpen := s.lastOpen, queues := s.queues,
    shutting := s.shutting, getIdx := s.getIdx, outq := s.outq, outqBytes := s.outqBytes, pc := s.pc,
    woken := s.woken, pending := s.pending, destroyed := s.destroyed, nextId := s.nextId,
    log := s.log }

/-- Calls that must all succeed; `fuel` stands for a call that does not. -/
def allOk (w : Writer τ) : List WOp → Exec (Writer τ)
  | [] => .ok w
  | c :: cs => do
    let (r, w) ← w.step c
    if r = .success then allOk w cs else .error .fuel

theorem allOk_append (a b : List WOp) : ∀ w : Writer τ,
    allOk w (a ++ b) = (allOk w a >>= fun w => allOk w b) := by
  induction a with
  | nil => intro w; rfl
  | cons c a ih =>
    intro w
    show (w.step c >>= fun p => if p.1 = .success then allOk p.2 (a ++ b) else .error .fuel) = _
    show _ = ((w.step c >>= fun p => if p.1 = .success then allOk p.2 a else .error .fuel) >>= fun w =>
      allOk w b)
    cases w.step c with
    | error e => rfl
    | ok p =>
      rw [Exec.ok_bind, Exec.ok_bind]
      split
      · exact ih p.2
      · rfl

theorem allOk_run (cs : List WOp) : ∀ {w w' : Writer τ} {rs : List Res}, w.run cs = .ok (rs, w') →
    (∀ r ∈ rs, r = .success) → allOk w cs = .ok w' := by
  induction cs with
  | nil => intro w w' rs h _; cases h; rfl
  | cons c cs ih =>
    intro w w' rs h hr
    obtain ⟨⟨r, w1⟩, e1, h⟩ := Exec.bind_eq_ok.1 h
    obtain ⟨⟨rs1, w2⟩, e2, h⟩ := Exec.bind_eq_ok.1 h
    cases h
    show (w.step c >>= fun p => if p.1 = .success then allOk p.2 cs else .error .fuel) = _
    rw [e1, Exec.ok_bind]
    have : r = .success := hr r (by simp)
    rw [if_pos this]
    exact ih e2 fun r hr' => hr r (by simp [hr'])

/-- The step from `s` to `s'` is done in the same way with any other writer. -/
def Sim (s s' : Iothr σ) (g : Writer τ → Exec (Iothr τ)) : Prop :=
  ∃ cs : List WOp, calls s'.log = calls s.log ++ cs.map (·, .success) ∧
    ∀ w : Writer τ, allOk w cs ≠ .error .fuel → g w = (allOk w cs).map s'.swap

theorem Sim.pure {s s' : Iothr σ} {g : Writer τ → Exec (Iothr τ)} (hl : calls s'.log = calls s.log)
    (hg : ∀ w, g w = .ok (s'.swap w)) : Sim s s' g :=
  ⟨[], by simp [hl], fun w _ => by rw [hg]; rfl⟩

theorem Sim.bind {s s1 s2 : Iothr σ} {g : Writer τ → Exec (Iothr τ)} {f : Iothr τ → Exec (Iothr τ)}
    (h1 : Sim s s1 g) (h2 : Sim s1 s2 fun w => f (s1.swap w)) : Sim s s2 fun w => g w >>= f := by
  obtain ⟨c1, l1, e1⟩ := h1
  obtain ⟨c2, l2, e2⟩ := h2
  refine ⟨c1 ++ c2, by rw [l2, l1]; simp, ?_⟩
  intro w hw
  rw [allOk_append] at hw ⊢
  have h1 := e1 w (by intro h; rw [h] at hw; exact hw rfl)
  show (g w >>= f) = _
  rw [h1]
  cases h : allOk w c1 with
  | error e => rfl
  | ok w1 =>
    rw [h, Exec.ok_bind] at hw
    exact e2 w1 hw

theorem Sim.log {s s' : Iothr σ} {g : Writer τ → Exec (Iothr τ)} (h : Sim s s' g) :
    calls s.log <+: calls s'.log := by
  obtain ⟨c, l, _⟩ := h
  rw [l]
  exact List.prefix_append _ _

theorem Sim.map {s s1 s2 : Iothr σ} {g : Writer τ → Exec (Iothr τ)} {f : Iothr τ → Iothr τ}
    (h1 : Sim s s1 g) (hl : calls s2.log = calls s1.log) (hf : ∀ w, f (s1.swap w) = s2.swap w) :
    Sim s s2 fun w => g w >>= fun s => .ok (f s) :=
  h1.bind (.pure hl fun w => by rw [hf])

/-- One call on the writer. -/
theorem Sim.call {s s' : Iothr σ} {c : WOp} {g : Writer τ → Exec (Iothr τ)}
    (hl : calls s'.log = calls s.log ++ [(c, .success)])
    (hg : ∀ w, (∀ e, w.step c = .error e → g w = .error e) ∧
      ∀ w', w.step c = .ok (.success, w') → g w = .ok (s'.swap w')) : Sim s s' g := by
  refine ⟨[c], by simpa using hl, ?_⟩
  intro w hw
  have e : allOk w [c] = (w.step c >>= fun p => if p.1 = .success then .ok p.2 else .error .fuel) := rfl
  rw [e] at hw ⊢
  cases h : w.step c with
  | error e => rw [(hg w).1 e h]; rfl
  | ok p =>
    obtain ⟨r, w'⟩ := p
    rw [h, Exec.ok_bind] at hw
    rw [Exec.ok_bind]
    by_cases hr : r = .success
    · subst hr
      rw [(hg w).2 w' h]; rfl
    · exact absurd (if_neg hr) hw

namespace Iothr

section
variable {s s' : Iothr σ}

theorem swap_freeAll (es : List Entry) : ∀ (s : Iothr σ) (w : Writer τ),
    (s.swap w).freeAll es = (s.freeAll es).swap w := by
  induction es with
  | nil => intro s w; rfl
  | cons e es ih =>
    intro s w
    show ((s.swap w).freeEntry e).freeAll es = ((s.freeEntry e).freeAll es).swap w
    rw [← ih]
    congr 1
    unfold freeEntry
    split <;> rfl

theorem calls_freeAll (es : List Entry) : ∀ s : Iothr σ,
    calls (s.freeAll es).log = calls s.log := by
  induction es with
  | nil => intro s; rfl
  | cons e es ih =>
    intro s
    show calls ((s.freeEntry e).freeAll es).log = _
    rw [ih]
    unfold freeEntry
    split
    · simp [emit, calls_append, calls]
    · rfl

theorem swap_freeOutq (s : Iothr σ) (w : Writer τ) : (s.swap w).freeOutq = s.freeOutq.swap w := by
  unfold freeOutq
  rw [show (s.swap w).outq = s.outq from rfl, swap_freeAll]
  rfl

theorem calls_freeOutq (s : Iothr σ) : calls s.freeOutq.log = calls s.log := by
  unfold freeOutq
  exact calls_freeAll _ _

theorem last_success {l : List (WOp × Res)} {c : WOp} {r : Res}
    (h : ∀ x ∈ l ++ [(c, r)], x.2 = .success) : r = .success := h (c, r) (by simp)

theorem sim_close (e : s.close = .ok s') (hok : ∀ c ∈ calls s'.log, c.2 = .success) :
    Sim (τ := τ) s s' fun w => (s.swap w).close := by
  unfold close at e ⊢
  by_cases ho : s.opened = true
  · rw [if_pos ho] at e
    simp only [show ∀ w : Writer τ, (s.swap w).opened = s.opened from fun _ => rfl, if_pos ho]
    obtain ⟨⟨r, w1⟩, e1, e⟩ := Exec.bind_eq_ok.1 e
    cases e
    have hl : calls (emit { s with opened := false, writer := w1 } (.close r)).log =
      calls s.log ++ [(.close, r)] := by simp [emit, calls_append, calls]
    rw [hl] at hok
    obtain rfl := last_success hok
    refine .call hl fun w => ⟨?_, ?_⟩
    · intro e he
      rw [show (s.swap w).writer.close = .error e from he]; rfl
    · intro w' he
      rw [show (s.swap w).writer.close = .ok (.success, w') from he]; rfl
  · rw [if_neg ho] at e
    simp only [show ∀ w : Writer τ, (s.swap w).opened = s.opened from fun _ => rfl, if_neg ho]
    cases e
    exact .pure rfl fun w => rfl

theorem sim_flush (e : s.flush = .ok s') (hok : ∀ c ∈ calls s'.log, c.2 = .success) :
    Sim (τ := τ) s s' fun w => (s.swap w).flush := by
  unfold flush at e ⊢
  by_cases ho : s.opened = true ∧ s.outq.length > 0
  · rw [if_pos ho] at e
    simp only [show ∀ w : Writer τ, (s.swap w).opened = s.opened from fun _ => rfl,
      show ∀ w : Writer τ, (s.swap w).outq = s.outq from fun _ => rfl, if_pos ho]
    obtain ⟨⟨r, w1⟩, e1, e⟩ := Exec.bind_eq_ok.1 e
    dsimp only at e
    have hl : calls (emit { s with writer := w1 } (.write s.outq r)).log =
      calls s.log ++ [(.writev (s.outq.map Entry.data), r)] := by simp [emit, calls_append, calls]
    by_cases hr : r = .success
    · subst hr
      rw [if_neg (by simp)] at e
      cases e
      have hl' : calls (emit { s with writer := w1 } (.write s.outq .success)).freeOutq.log =
        calls s.log ++ [(.writev (s.outq.map Entry.data), .success)] := (calls_freeOutq _).trans hl
      refine .call hl' fun w => ⟨?_, ?_⟩
      · intro e he
        rw [show (s.swap w).writer.writev (s.outq.map Entry.data) = .error e from he]; rfl
      · intro w' he
        rw [show (s.swap w).writer.writev (s.outq.map Entry.data) = .ok (.success, w') from he,
          Exec.ok_bind]
        simp only [ne_eq, not_true_eq_false, if_false]
        rw [← swap_freeOutq]
        rfl
    · exfalso
      rw [if_pos hr] at e
      obtain ⟨s2, e2, e⟩ := Exec.bind_eq_ok.1 e
      cases e
      rw [calls_freeOutq] at hok
      unfold close at e2
      split at e2
      · obtain ⟨⟨r2, w2⟩, e3, e2⟩ := Exec.bind_eq_ok.1 e2
        cases e2
        refine hr (hok (.writev (s.outq.map Entry.data), r) ?_)
        simp [emit, calls_append, calls]
      · cases e2
        exact hr (hok (.writev (s.outq.map Entry.data), r) (by rw [hl]; simp))
  · rw [if_neg ho] at e
    simp only [show ∀ w : Writer τ, (s.swap w).opened = s.opened from fun _ => rfl,
      show ∀ w : Writer τ, (s.swap w).outq = s.outq from fun _ => rfl, if_neg ho]
    cases e
    exact .pure (calls_freeOutq s) fun w => by rw [swap_freeOutq]

theorem sim_maybeFlush {n : Nat} (e : s.maybeFlush n = .ok s')
    (hok : ∀ c ∈ calls s'.log, c.2 = .success) :
    Sim (τ := τ) s s' fun w => (s.swap w).maybeFlush n := by
  unfold maybeFlush at e ⊢
  by_cases h1 : ¬ s.outq.length ≤ s.opt.outputQueueSize
  · rw [if_pos h1] at e; cases e
  · rw [if_neg h1] at e
    simp only [show ∀ w : Writer τ, (s.swap w).opt = s.opt from fun _ => rfl,
      show ∀ w : Writer τ, (s.swap w).outqBytes = s.outqBytes from fun _ => rfl,
      show ∀ w : Writer τ, (s.swap w).outq = s.outq from fun _ => rfl, if_neg h1]
    split at e
    · rename_i h2
      simp only [if_pos h2]
      exact sim_flush e hok
    · rename_i h2
      simp only [if_neg h2]
      cases e
      exact .pure rfl fun w => rfl

theorem sim_processEntry {x : Entry} (e : s.processEntry x = .ok s')
    (hok : ∀ c ∈ calls s'.log, c.2 = .success) :
    Sim (τ := τ) s s' fun w => (s.swap w).processEntry x := by
  unfold processEntry at e ⊢
  by_cases ho : s.opened = true
  · rw [if_pos ho] at e
    simp only [show ∀ w : Writer τ, (s.swap w).opened = s.opened from fun _ => rfl, if_pos ho]
    obtain ⟨s1, e1, e⟩ := Exec.bind_eq_ok.1 e
    split at e
    · cases e
    · rename_i h1
      cases e
      refine (sim_maybeFlush e1 hok).bind (.pure rfl fun w => ?_)
      rw [if_neg (by exact h1)]
      rfl
  · rw [if_neg ho] at e
    simp only [show ∀ w : Writer τ, (s.swap w).opened = s.opened from fun _ => rfl, if_neg ho]
    cases e
    refine .pure (calls_freeAll [x] s) fun w => ?_
    rw [show (s.swap w).freeEntry x = (s.swap w).freeAll [x] from rfl, swap_freeAll]
    rfl

theorem sim_processQueue {i n : Nat} {s1 : Iothr σ} (F : Nat → IoPc)
    (e : s.processQueue i = .ok (n, s1)) (hok : ∀ c ∈ calls s1.log, c.2 = .success) :
    Sim (τ := τ) s { s1 with pc := F n } fun w =>
      (s.swap w).processQueue i >>= fun p => .ok { p.2 with pc := F p.1 } := by
  unfold processQueue at e ⊢
  simp only [show ∀ w : Writer τ, (s.swap w).queues = s.queues from fun _ => rfl]
  split at e
  · rename_i x rest hq
    obtain ⟨s2, e1, e⟩ := Exec.bind_eq_ok.1 e
    cases e
    have h := sim_processEntry (τ := τ) e1 hok
    have h2 : Sim (τ := τ) s { s1 with pc := F 1 } fun w =>
        ({ s with queues := s.queues.set i rest }.swap w).processEntry x >>= fun t =>
          .ok { t with pc := F 1 } := by
      obtain ⟨cs, l, hg⟩ := h.map (s2 := { s1 with pc := F 1 }) (f := fun t => { t with pc := F 1 }) rfl
        (fun _ => rfl)
      exact ⟨cs, l, hg⟩
    obtain ⟨cs, l, hg⟩ := h2
    refine ⟨cs, l, fun w hw => ?_⟩
    rw [← hg w hw]
    dsimp only
    show ((({ s with queues := s.queues.set i rest }.swap w).processEntry x >>= fun s =>
      Except.ok (1, s)) >>= _) = _
    cases ({ s with queues := s.queues.set i rest }.swap w).processEntry x <;> rfl
  · rename_i hq
    cases e
    exact .pure rfl fun w => rfl

theorem sim_maybeOpen {now : Nat} (e : s.maybeOpen now = .ok s')
    (hok : ∀ c ∈ calls s'.log, c.2 = .success) :
    Sim (τ := τ) s s' fun w => (s.swap w).maybeOpen now := by
  unfold maybeOpen at e ⊢
  simp only [show ∀ w : Writer τ, (s.swap w).opened = s.opened from fun _ => rfl,
    show ∀ w : Writer τ, (s.swap w).opt = s.opt from fun _ => rfl,
    show ∀ w : Writer τ, (s.swap w).lastOpen = s.lastOpen from fun _ => rfl]
  split at e
  · rename_i h1
    cases e
    simp only [if_pos h1]
    exact .pure rfl fun w => rfl
  · rename_i h1
    simp only [if_neg h1]
    split at e
    · rename_i h2
      cases e
      simp only [if_pos h2]
      exact .pure rfl fun w => rfl
    · rename_i h2
      simp only [if_neg h2]
      obtain ⟨⟨r, w1⟩, e1, e⟩ := Exec.bind_eq_ok.1 e
      cases e
      have hl : calls (emit { s with lastOpen := now, opened := decide (r = Res.success), writer := w1 }
        (.opn now r)).log = calls s.log ++ [(.opn, r)] := by simp [emit, calls_append, calls]
      rw [hl] at hok
      obtain rfl := last_success hok
      refine .call hl fun w => ⟨?_, ?_⟩
      · intro e he
        rw [show (s.swap w).writer.open = .error e from he]; rfl
      · intro w' he
        rw [show (s.swap w).writer.open = .ok (.success, w') from he]; rfl

theorem sim_ioStep {now : Nat} {wk : Wake} (e : s.ioStep now wk = .ok s')
    (hok : ∀ c ∈ calls s'.log, c.2 = .success) :
    Sim (τ := τ) s s' fun w => (s.swap w).ioStep now wk := by
  unfold ioStep at e ⊢
  simp only [show ∀ w : Writer τ, (s.swap w).pc = s.pc from fun _ => rfl,
    show ∀ w : Writer τ, (s.swap w).shutting = s.shutting from fun _ => rfl,
    show ∀ w : Writer τ, (s.swap w).woken = s.woken from fun _ => rfl,
    show ∀ w : Writer τ, (s.swap w).opt = s.opt from fun _ => rfl]
  cases hp : s.pc with
  | start =>
    rw [hp] at e
    obtain ⟨s1, e1, e⟩ := Exec.bind_eq_ok.1 e
    cases e
    exact (sim_maybeOpen e1 hok).map rfl fun _ => rfl
  | top =>
    rw [hp] at e
    dsimp only at e ⊢
    split at e
    · rename_i h1
      cases e
      simp only [if_pos h1]
      exact .pure rfl fun _ => rfl
    · rename_i h1
      simp only [if_neg h1]
      obtain ⟨s1, e1, e⟩ := Exec.bind_eq_ok.1 e
      cases e
      exact (sim_maybeOpen e1 hok).map rfl fun _ => rfl
  | work i total =>
    rw [hp] at e
    dsimp only at e ⊢
    split at e
    · rename_i h1
      simp only [if_pos h1]
      obtain ⟨⟨n, s1⟩, e1, e⟩ := Exec.bind_eq_ok.1 e
      cases e
      exact sim_processQueue (fun n => .work (i + 1) (total + n)) e1 hok
    · rename_i h1
      simp only [if_neg h1]
      split at e
      · rename_i h2
        cases e
        simp only [if_pos h2]
        exact .pure rfl fun _ => rfl
      · rename_i h2
        cases e
        simp only [if_neg h2]
        exact .pure rfl fun _ => rfl
  | drain i total =>
    rw [hp] at e
    dsimp only at e ⊢
    split at e
    · rename_i h1
      simp only [if_pos h1]
      obtain ⟨⟨n, s1⟩, e1, e⟩ := Exec.bind_eq_ok.1 e
      cases e
      exact sim_processQueue (fun n => .drain (i + 1) (total + n)) e1 hok
    · rename_i h1
      simp only [if_neg h1]
      split at e
      · rename_i h2
        cases e
        simp only [if_pos h2]
        exact .pure rfl fun _ => rfl
      · rename_i h2
        simp only [if_neg h2]
        obtain ⟨s1, e1, e⟩ := Exec.bind_eq_ok.1 e
        obtain ⟨s2, e2, e⟩ := Exec.bind_eq_ok.1 e
        cases e
        have h2 := sim_close (τ := τ) e2 hok
        have h1 := sim_flush (τ := τ) e1 fun c hc => hok c (h2.log.subset hc)
        exact h1.bind (h2.map rfl fun _ => rfl)
  | sleep d =>
    rw [hp] at e
    cases wk with
    | timeout =>
      dsimp only at e ⊢
      split at e
      · rename_i h1
        simp only [if_pos h1]
        obtain ⟨s1, e1, e⟩ := Exec.bind_eq_ok.1 e
        cases e
        exact (sim_flush e1 hok).map rfl fun _ => rfl
      · rename_i h1
        cases e
        simp only [if_neg h1]
        exact .pure rfl fun _ => rfl
    | signal =>
      dsimp only at e ⊢
      split at e
      · rename_i h1
        cases e
        simp only [if_pos h1]
        exact .pure rfl fun _ => rfl
      · rename_i h1
        cases e
        simp only [if_neg h1]
        exact .pure rfl fun _ => rfl
    | spurious =>
      cases e
      exact .pure rfl fun _ => rfl
  | exited =>
    rw [hp] at e
    cases e
    exact .pure rfl fun _ => rfl

theorem swap_signal (s : Iothr σ) (w : Writer τ) : (s.swap w).signal = s.signal.swap w := by
  unfold signal
  simp only [show (s.swap w).pc = s.pc from rfl]
  split <;> rfl

theorem log_signal (s : Iothr σ) : s.signal.log = s.log := by
  unfold signal
  split <;> rfl

theorem sim_step {a : IoAct} (e : s.step a = .ok s') (ha : a ≠ .finish)
    (hok : ∀ c ∈ calls s'.log, c.2 = .success) :
    Sim (τ := τ) s s' fun w => (s.swap w).step a := by
  cases a with
  | io now wk => exact sim_ioStep e hok
  | finish => exact absurd rfl ha
  | getQueue =>
    simp only [step] at e ⊢
    unfold getQueue at e ⊢
    simp only [show ∀ w : Writer τ, (s.swap w).destroyed = s.destroyed from fun _ => rfl,
      show ∀ w : Writer τ, (s.swap w).getIdx = s.getIdx from fun _ => rfl,
      show ∀ w : Writer τ, (s.swap w).opt = s.opt from fun _ => rfl]
    split at e
    · cases e
    · rename_i h1
      simp only [if_neg h1]
      split at e
      · rename_i h2
        cases e
        simp only [if_pos h2]
        exact .pure (by simp [emit, calls_append, calls]) fun _ => rfl
      · rename_i h2
        cases e
        simp only [if_neg h2]
        exact .pure (by simp [emit, calls_append, calls]) fun _ => rfl
  | shutdown =>
    simp only [step] at e ⊢
    unfold shutdown at e ⊢
    simp only [show ∀ w : Writer τ, (s.swap w).shutting = s.shutting from fun _ => rfl]
    split at e
    · rename_i h1
      cases e
      simp only [if_pos h1]
      exact .pure rfl fun _ => rfl
    · rename_i h1
      cases e
      simp only [if_neg h1]
      refine .pure (by simp [log_signal, emit, calls_append, calls]) fun w => ?_
      rw [← swap_signal]
      rfl
  | submit t q data hf =>
    simp only [step] at e ⊢
    unfold submitCheck at e ⊢
    simp only [show ∀ w : Writer τ, (s.swap w).destroyed = s.destroyed from fun _ => rfl,
      show ∀ w : Writer τ, (s.swap w).pending = s.pending from fun _ => rfl,
      show ∀ w : Writer τ, (s.swap w).queues = s.queues from fun _ => rfl,
      show ∀ w : Writer τ, (s.swap w).shutting = s.shutting from fun _ => rfl,
      show ∀ w : Writer τ, (s.swap w).nextId = s.nextId from fun _ => rfl] at e ⊢
    split at e
    · cases e
    · rename_i h1
      simp only [if_neg h1]
      split at e
      · rename_i h2
        cases e
        simp only [if_pos h2]
        exact .pure rfl fun _ => rfl
      · rename_i h2
        simp only [if_neg h2]
        split at e
        · rename_i h3
          cases e
          simp only [if_pos h3]
          exact .pure (by simp [emit, calls_append, calls]) fun _ => rfl
        · rename_i h3
          simp only [if_neg h3]
          cases data with
          | none =>
            cases e
            exact .pure (by simp [emit, calls_append, calls]) fun _ => rfl
          | some d =>
            dsimp only at e ⊢
            split at e
            · rename_i h4
              cases e
              simp only [if_pos h4]
              exact .pure (by simp [emit, calls_append, calls]) fun _ => rfl
            · rename_i h4
              cases e
              simp only [if_neg h4]
              exact .pure rfl fun _ => rfl
  | insert t =>
    simp only [step] at e ⊢
    unfold submitInsert at e ⊢
    simp only [show ∀ w : Writer τ, (s.swap w).destroyed = s.destroyed from fun _ => rfl,
      show ∀ w : Writer τ, (s.swap w).pending = s.pending from fun _ => rfl,
      show ∀ w : Writer τ, (s.swap w).queues = s.queues from fun _ => rfl,
      show ∀ w : Writer τ, (s.swap w).opt = s.opt from fun _ => rfl] at e ⊢
    cases hp : s.pending t with
    | none =>
      rw [hp] at e
      cases e
      exact .pure rfl fun _ => rfl
    | some x =>
      rw [hp] at e
      dsimp only at e ⊢
      split at e
      · cases e
      · rename_i h1
        simp only [if_neg h1]
        cases hq : s.queues[x.queue]? with
        | none =>
          rw [hq] at e
          cases e
          exact .pure rfl fun _ => rfl
        | some q =>
          rw [hq] at e
          dsimp only at e ⊢
          split at e
          · rename_i h2
            simp only [if_pos h2]
            split at e
            · rename_i h3
              cases e
              refine .pure (by simp [log_signal, emit, calls_append, calls]) fun w => ?_
              refine (if_pos h3).trans ?_
              rw [← swap_signal]
              rfl
            · rename_i h3
              cases e
              refine .pure (by simp [emit, calls_append, calls]) fun w => ?_
              exact if_neg h3
          · rename_i h2
            cases e
            simp only [if_neg h2]
            exact .pure (by simp [emit, calls_append, calls]) fun _ => rfl

theorem sim_run (as : List IoAct) : ∀ {s s' : Iothr σ}, s.run as = .ok s' → IoAct.finish ∉ as →
    (∀ c ∈ calls s'.log, c.2 = .success) → Sim (τ := τ) s s' fun w => (s.swap w).run as := by
  induction as with
  | nil => intro s s' e _ _; cases e; exact .pure rfl fun _ => rfl
  | cons a as ih =>
    intro s s' e ha hok
    unfold run at e
    obtain ⟨s1, e1, e⟩ := Exec.bind_eq_ok.1 e
    have h2 := ih e (fun h => ha (by simp [h])) hok
    have h1 := sim_step (τ := τ) e1 (fun h => ha (by simp [h])) fun c hc => hok c (h2.log.subset hc)
    exact h1.bind h2

end
end Iothr
end Fstrm
