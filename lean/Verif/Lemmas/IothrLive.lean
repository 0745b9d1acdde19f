import Verif.Lemmas.IothrInv2
import Verif.Lemmas.Safe

/-!
# The I/O thread: termination and absence of undefined behaviour
-/

set_option autoImplicit false

namespace Fstrm.Iothr

variable {σ : Type}

theorem flatten_length_set {qs : List (List Entry)} {i : Nat} {e : Entry} {rest : List Entry}
    (h : qs[i]? = some (e :: rest)) : (qs.set i rest).flatten.length + 1 = qs.flatten.length := by
  induction qs generalizing i with
  | nil => simp at h
  | cons x qs ih =>
    cases i with
    | zero =>
      simp only [List.getElem?_cons_zero, Option.some.injEq] at h
      subst h
      simp only [List.set_cons_zero, List.flatten_cons, List.length_append, List.length_cons]
      omega
    | succ i =>
      simp only [List.getElem?_cons_succ] at h
      have := ih h
      simp only [List.set_cons_succ, List.flatten_cons, List.length_append]
      omega

theorem processEntry_queues {s s' : Iothr σ} {e : Entry} (h : s.processEntry e = .ok s') :
    s'.queues = s.queues := by
  unfold processEntry at h
  split at h
  · obtain ⟨s1, h1, h⟩ := Exec.bind_eq_ok.1 h
    split at h
    · cases h
    · cases h
      unfold maybeFlush at h1
      split at h1
      · cases h1
      · split at h1
        · exact (flush_frame h1).2.2.1
        · cases h1; rfl
  · cases h
    rw [freeEntry_eq]

theorem processQueue_length {s s' : Iothr σ} {i n : Nat} (h : s.processQueue i = .ok (n, s')) :
    s'.queues.flatten.length + n = s.queues.flatten.length := by
  unfold processQueue at h
  split at h
  · rename_i e rest hq
    obtain ⟨s1, h1, h⟩ := Exec.bind_eq_ok.1 h
    cases h
    rw [processEntry_queues h1]
    exact flatten_length_set hq
  · cases h; rfl

/-- Steps left until the I/O thread exits, once the shutdown has begun. -/
def fuelLeft (s : Iothr σ) : Nat :=
  let n := s.opt.numInputQueues
  let e := (n + 2) * s.queues.flatten.length
  match s.pc with
  | .start => n + 3 + e
  | .top => n + 2 + e
  | .work i _ => (n - i) + (n + 4) + e
  | .drain i t => (n - i) + 1 + (if t = 0 then 0 else n + 2) + e
  | .sleep _ => n + 3 + e
  | .exited => 0

theorem close_queues {s s' : Iothr σ} (h : s.close = .ok s') : s'.queues = s.queues ∧ s'.opt = s.opt ∧
    s'.shutting = s.shutting := by
  rcases close_ok h with ⟨_, rfl⟩ | ⟨_, _, _, _, rfl⟩ <;> exact ⟨rfl, rfl, rfl⟩

theorem maybeOpen_queues {s s' : Iothr σ} {now : Nat} (h : s.maybeOpen now = .ok s') :
    s'.queues = s.queues ∧ s'.opt = s.opt ∧ s'.shutting = s.shutting := by
  unfold maybeOpen at h
  split at h
  · cases h; exact ⟨rfl, rfl, rfl⟩
  · split at h
    · cases h; exact ⟨rfl, rfl, rfl⟩
    · obtain ⟨⟨r, w⟩, h1, h⟩ := Exec.bind_eq_ok.1 h
      cases h; exact ⟨rfl, rfl, rfl⟩

/-- During shutdown every step of the I/O thread makes progress, unless it is waiting and the wait
does not end, or it has exited. -/
theorem ioStep_progress {s s' : Iothr σ} {now : Nat} {wk : Wake} (hs : s.shutting = true)
    (h : s.ioStep now wk = .ok s') :
    s'.shutting = true ∧ s'.opt = s.opt ∧ (s'.fuelLeft < s.fuelLeft ∨
      (s' = s ∧ ((∃ d, s.pc = .sleep d ∧ ¬ (wk = .timeout ∧ d ≤ now)) ∨ s.pc = .exited))) := by
  unfold ioStep at h
  split at h
  · rename_i hp
    obtain ⟨s1, h1, h⟩ := Exec.bind_eq_ok.1 h
    cases h
    obtain ⟨q1, q2, q3⟩ := maybeOpen_queues h1
    refine ⟨by simp [q3, hs], q2, Or.inl ?_⟩
    simp only [fuelLeft, hp, q1, q2]; omega
  · rename_i hp
    rw [if_pos hs] at h
    cases h
    refine ⟨hs, rfl, Or.inl ?_⟩
    simp only [fuelLeft, hp, if_true]; omega
  · rename_i i total hp
    split at h
    · rename_i hi
      obtain ⟨⟨n, s1⟩, h1, h⟩ := Exec.bind_eq_ok.1 h
      cases h
      obtain ⟨_, p, o, sh, _, hn⟩ := processQueue_ok h1 (.work total hp hi)
      have hl := processQueue_length h1
      refine ⟨by simp [sh, hs], o, Or.inl ?_⟩
      simp only [fuelLeft, hp, o]
      have : (s.opt.numInputQueues + 2) * s1.queues.flatten.length ≤
        (s.opt.numInputQueues + 2) * s.queues.flatten.length := Nat.mul_le_mul_left _ (by omega)
      omega
    · split at h
      · cases h
        refine ⟨hs, rfl, Or.inl ?_⟩
        simp only [fuelLeft, hp]; omega
      · cases h
        refine ⟨hs, rfl, Or.inl ?_⟩
        simp only [fuelLeft, hp]; omega
  · rename_i i total hp
    split at h
    · rename_i hi
      obtain ⟨⟨n, s1⟩, h1, h⟩ := Exec.bind_eq_ok.1 h
      cases h
      obtain ⟨_, p, o, sh, _, hn⟩ := processQueue_ok h1 (.drain total hp hi)
      have hl := processQueue_length h1
      refine ⟨by simp [sh, hs], o, Or.inl ?_⟩
      simp only [fuelLeft, hp, o]
      rcases hn with rfl | rfl
      · rw [← hl]
        simp only [Nat.add_zero]
        omega
      · rw [← hl, Nat.mul_add]
        rw [if_neg (by omega)]
        omega
    · rename_i hi
      split at h
      · rename_i ht
        cases h
        refine ⟨hs, rfl, Or.inl ?_⟩
        simp only [fuelLeft, hp, if_true]
        rw [if_neg ht]; omega
      · obtain ⟨s1, h1, h⟩ := Exec.bind_eq_ok.1 h
        obtain ⟨s2, h2, h⟩ := Exec.bind_eq_ok.1 h
        cases h
        obtain ⟨f1, f2, f3, f4, f5, f6⟩ := flush_frame h1
        obtain ⟨c1, c2, c3⟩ := close_queues h2
        refine ⟨by simp [c3, f4, hs], c2.trans f1, Or.inl ?_⟩
        simp only [fuelLeft, hp]; omega
  · rename_i d hp
    split at h
    · split at h
      · obtain ⟨s1, h1, h⟩ := Exec.bind_eq_ok.1 h
        cases h
        obtain ⟨f1, f2, f3, f4, f5, f6⟩ := flush_frame h1
        refine ⟨by simp [f4, hs], f1, Or.inl ?_⟩
        simp only [fuelLeft, hp, f1, f3]; omega
      · rename_i hd
        cases h
        exact ⟨hs, rfl, Or.inr ⟨rfl, Or.inl ⟨d, hp, fun h => hd h.2⟩⟩⟩
    · split at h
      · cases h
        refine ⟨hs, rfl, Or.inl ?_⟩
        simp only [fuelLeft, hp]; omega
      · cases h
        exact ⟨hs, rfl, Or.inr ⟨rfl, Or.inl ⟨d, hp, fun h => by cases h.1⟩⟩⟩
    · cases h
      refine ⟨hs, rfl, Or.inl ?_⟩
      simp only [fuelLeft, hp]; omega
  · rename_i hp
    cases h
    exact ⟨hs, rfl, Or.inr ⟨rfl, Or.inr hp⟩⟩

theorem run_ioActs_succ {s s' : Iothr σ} {f : Nat → Nat × Wake} {n : Nat} :
    s.run (ioActs f (n + 1)) = .ok s' ↔
      ∃ s1, s.run (ioActs f n) = .ok s1 ∧ s1.ioStep (f n).1 (f n).2 = .ok s' := by
  unfold ioActs
  rw [List.range_succ, List.map_append, run_append]
  constructor
  · rintro ⟨s1, h1, h2⟩
    obtain ⟨s2, h2, h3⟩ := Exec.bind_eq_ok.1 h2
    cases h3
    exact ⟨s1, h1, h2⟩
  · rintro ⟨s1, h1, h2⟩
    exact ⟨s1, h1, Exec.bind_eq_ok.2 ⟨s', h2, rfl⟩⟩

/-- Under a fair schedule the I/O thread exits. -/
theorem exits (s : Iothr σ) (f : Nat → Nat × Wake)
    (hfair : ∀ N T, ∃ n, N ≤ n ∧ (f n).2 = .timeout ∧ T ≤ (f n).1)
    (hok : ∀ n, ∃ s', s.run (ioActs f n) = .ok s') :
    ∀ (m n : Nat) (s1 : Iothr σ), s.run (ioActs f n) = .ok s1 → s1.shutting = true → s1.fuelLeft ≤ m →
      ∃ k s', s.run (ioActs f k) = .ok s' ∧ s'.pc = .exited := by
  intro m
  induction m with
  | zero =>
    intro n s1 h1 _ hm
    refine ⟨n, s1, h1, ?_⟩
    unfold fuelLeft at hm
    cases hp : s1.pc <;> rw [hp] at hm <;> simp only at hm <;> first | rfl | omega
  | succ m ih =>
    intro n s1 h1 hs hm
    -- where the next effective step is
    have stay : ∀ j, (∃ k s', n ≤ k ∧ s.run (ioActs f k) = .ok s' ∧ s'.shutting = true ∧
        (s'.fuelLeft ≤ m ∨ s'.pc = .exited)) ∨ s.run (ioActs f (n + j)) = .ok s1 := by
      intro j
      induction j with
      | zero => exact Or.inr h1
      | succ j ihj =>
        rcases ihj with ihj | ihj
        · exact Or.inl ihj
        · obtain ⟨s2, h2⟩ := hok (n + j + 1)
          obtain ⟨s3, h3, h4⟩ := run_ioActs_succ.1 h2
          rw [ihj] at h3
          cases h3
          obtain ⟨p1, p2, p3⟩ := ioStep_progress hs h4
          rcases p3 with p3 | ⟨p3, _⟩
          · exact Or.inl ⟨n + j + 1, s2, by omega, h2, p1, Or.inl (by omega)⟩
          · exact Or.inr (by rw [← Nat.add_assoc, h2, p3])
    have key : ∃ k s', n ≤ k ∧ s.run (ioActs f k) = .ok s' ∧ s'.shutting = true ∧
        (s'.fuelLeft ≤ m ∨ s'.pc = .exited) := by
      by_cases hpe : s1.pc = .exited
      · exact ⟨n, s1, Nat.le_refl _, h1, hs, Or.inr hpe⟩
      -- the deadline of the wait, if any
      obtain ⟨T, hT⟩ : ∃ T, ∀ d, s1.pc = .sleep d → d ≤ T := by
        cases hp : s1.pc with
        | sleep d => exact ⟨d, fun d' h => by cases h; exact Nat.le_refl _⟩
        | _ => exact ⟨0, nofun⟩
      obtain ⟨k, hk, h2, h3⟩ := hfair n T
      rcases stay (k - n) with h | h
      · exact h
      · rw [show n + (k - n) = k by omega] at h
        obtain ⟨s2, h4⟩ := hok (k + 1)
        obtain ⟨s3, h5, h6⟩ := run_ioActs_succ.1 h4
        rw [h] at h5
        cases h5
        obtain ⟨p1, p2, p3⟩ := ioStep_progress hs h6
        rcases p3 with p3 | ⟨_, ⟨d, hd, p3⟩ | p3⟩
        · exact ⟨k + 1, s2, by omega, h4, p1, Or.inl (by omega)⟩
        · exact absurd ⟨h2, Nat.le_trans (hT d hd) h3⟩ p3
        · exact absurd p3 hpe
    obtain ⟨k, s', _, h2, h3, h4 | h4⟩ := key
    · exact ih k s' h2 h3 h4
    · exact ⟨k, s', h2, h4⟩

/-! ## Absence of undefined behaviour -/

variable {ops : Ops σ} {I : σ → Prop}

/-- What safety needs of a state. -/
structure Fine (ops : Ops σ) (I : σ → Prop) (s : Iothr σ) : Prop where
  good : Good ops I s.writer.rdwr
  lim : s.outq.length ≤ s.opt.outputQueueSize
  pos : 1 ≤ s.opt.outputQueueSize
  iov : s.opt.outputQueueSize ≤ 1024
  alive : s.destroyed = false

variable {b : Bool}

theorem Fine.flush (hw : Spec.WellBehaved ops I) (hp : Spec.Preserves ops I) (hz : Spec.NoZeroPair ops I)
    {s : Iothr σ} (h : Fine ops I s) : Safe b s.flush (fun s' => Fine ops I s' ∧ s'.outq = []) := by
  unfold Iothr.flush
  refine Safe.ite (fun ho => ?_) fun _ => ?_
  · refine Safe.bind (Good.writev hw hp hz h.good _ ?_) ?_
    · have := h.lim; have := h.iov; simp only [List.length_map]; omega
    · rintro ⟨r, w⟩ h1
      refine Safe.ite (fun _ => ?_) fun _ => ?_
      · unfold Iothr.close
        simp only [emit, ho.1, if_true]
        refine Safe.bind (P := fun s' => Fine ops I s') ?_ ?_
        · refine Safe.bind (Good.wclose hw hp hz h1) ?_
          rintro ⟨r2, w2⟩ h2
          exact .ok ⟨h2, h.lim, h.pos, h.iov, h.alive⟩
        · intro s1 h1
          rw [freeOutq_eq]
          exact .ok ⟨⟨h1.good, by simp, h1.pos, h1.iov, h1.alive⟩, rfl⟩
      · rw [freeOutq_eq]
        exact .ok ⟨⟨h1, by simp [emit], h.pos, h.iov, h.alive⟩, rfl⟩
  · rw [freeOutq_eq]
    exact .ok ⟨⟨h.good, by simp, h.pos, h.iov, h.alive⟩, rfl⟩

theorem Fine.close (hw : Spec.WellBehaved ops I) (hp : Spec.Preserves ops I) (hz : Spec.NoZeroPair ops I)
    {s : Iothr σ} (h : Fine ops I s) : Safe b s.close (fun s' => Fine ops I s') := by
  unfold Iothr.close
  refine Safe.ite (fun ho => ?_) fun _ => .ok h
  refine Safe.bind (Good.wclose hw hp hz h.good) ?_
  rintro ⟨r2, w2⟩ h2
  exact .ok ⟨h2, h.lim, h.pos, h.iov, h.alive⟩

theorem Fine.maybeOpen (hw : Spec.WellBehaved ops I) (hp : Spec.Preserves ops I) (hz : Spec.NoZeroPair ops I)
    {s : Iothr σ} (h : Fine ops I s) (now : Nat) :
    Safe b (s.maybeOpen now) (fun s' => Fine ops I s') := by
  unfold Iothr.maybeOpen
  refine Safe.ite (fun _ => .ok h) fun _ => Safe.ite (fun _ => .ok h) fun _ => ?_
  refine Safe.bind (Good.wopen hw hp hz h.good) ?_
  rintro ⟨r2, w2⟩ h2
  exact .ok ⟨h2, h.lim, h.pos, h.iov, h.alive⟩

theorem Fine.processQueue (hw : Spec.WellBehaved ops I) (hp : Spec.Preserves ops I) (hz : Spec.NoZeroPair ops I)
    {s : Iothr σ} (h : Fine ops I s) (i : Nat) :
    Safe b (s.processQueue i) (fun p => Fine ops I p.2) := by
  unfold Iothr.processQueue
  split
  · rename_i e rest hq
    refine Safe.bind (P := fun s' => Fine ops I s') ?_ (fun s1 h1 => .ok h1)
    have h' : Fine ops I { s with queues := s.queues.set i rest } :=
      ⟨h.good, h.lim, h.pos, h.iov, h.alive⟩
    unfold Iothr.processEntry
    refine Safe.ite (fun _ => ?_) fun _ => ?_
    · refine Safe.bind (P := fun s' => Fine ops I s' ∧ s'.outq.length < s'.opt.outputQueueSize) ?_ ?_
      · unfold Iothr.maybeFlush
        rw [if_neg (by simpa using h'.lim)]
        refine Safe.ite (fun hc => ?_) fun hc => ?_
        · refine Safe.mono (h'.flush hw hp hz) ?_
          rintro s1 ⟨h1, h2⟩
          exact ⟨h1, by rw [h2]; exact h1.pos⟩
        · refine .ok ⟨h', ?_⟩
          have := h'.pos
          omega
      · rintro s1 ⟨h1, h2⟩
        rw [if_neg (by omega)]
        exact .ok ⟨h1.good, by simp only [List.length_append, List.length_cons, List.length_nil]; omega,
          h1.pos, h1.iov, h1.alive⟩
    · rw [freeEntry_eq]
      exact .ok ⟨h.good, h.lim, h.pos, h.iov, h.alive⟩
  · exact .ok h

theorem Fine.ioStep (hw : Spec.WellBehaved ops I) (hp : Spec.Preserves ops I) (hz : Spec.NoZeroPair ops I)
    {s : Iothr σ} (h : Fine ops I s) (now : Nat) (wk : Wake) :
    Safe b (s.ioStep now wk) (fun s' => Fine ops I s') := by
  have setPc : ∀ (s : Iothr σ) (p : IoPc) (w : Bool), Fine ops I s → Fine ops I { s with pc := p, woken := w } :=
    fun s p w h => ⟨h.good, h.lim, h.pos, h.iov, h.alive⟩
  unfold Iothr.ioStep
  split
  · refine Safe.bind (h.maybeOpen hw hp hz now) ?_
    intro s1 h1; exact .ok (setPc _ _ _ h1)
  · refine Safe.ite (fun _ => .ok (setPc _ _ _ h)) fun _ => ?_
    refine Safe.bind (h.maybeOpen hw hp hz now) ?_
    intro s1 h1; exact .ok (setPc _ _ _ h1)
  · refine Safe.ite (fun _ => ?_) fun _ => Safe.ite (fun _ => .ok (setPc _ _ _ h)) fun _ => .ok (setPc _ _ _ h)
    refine Safe.bind (h.processQueue hw hp hz _) ?_
    rintro ⟨n, s1⟩ h1; exact .ok (setPc _ _ _ h1)
  · refine Safe.ite (fun _ => ?_) fun _ => Safe.ite (fun _ => .ok (setPc _ _ _ h)) fun _ => ?_
    · refine Safe.bind (h.processQueue hw hp hz _) ?_
      rintro ⟨n, s1⟩ h1; exact .ok (setPc _ _ _ h1)
    · refine Safe.bind (h.flush hw hp hz) ?_
      rintro s1 ⟨h1, _⟩
      refine Safe.bind (h1.close hw hp hz) ?_
      intro s2 h2; exact .ok (setPc _ _ _ h2)
  · split
    · refine Safe.ite (fun _ => ?_) fun _ => .ok h
      refine Safe.bind (h.flush hw hp hz) ?_
      rintro s1 ⟨h1, _⟩; exact .ok (setPc _ _ _ h1)
    · exact Safe.ite (fun _ => .ok (setPc _ _ _ h)) fun _ => .ok h
    · exact .ok (setPc _ _ _ h)
  · exact .ok h

theorem Fine.signal {s : Iothr σ} (h : Fine ops I s) : Fine ops I s.signal := by
  obtain ⟨wk, hwk⟩ := signal_eq s
  rw [hwk]
  exact ⟨h.good, h.lim, h.pos, h.iov, h.alive⟩

theorem Fine.step (hw : Spec.WellBehaved ops I) (hp : Spec.Preserves ops I) (hz : Spec.NoZeroPair ops I)
    {s : Iothr σ} (h : Fine ops I s) (a : IoAct) (ha : a ≠ .finish) :
    Safe b (s.step a) (fun s' => Fine ops I s') := by
  have hd := h.alive
  cases a with
  | submit t q data f =>
    simp only [Iothr.step, submitCheck]
    rw [if_neg (by simp [hd])]
    refine Safe.ite (fun _ => .ok h) fun _ => ?_
    refine Safe.ite (fun _ => .ok ⟨h.good, h.lim, h.pos, h.iov, h.alive⟩) fun _ => ?_
    split
    · exact .ok ⟨h.good, h.lim, h.pos, h.iov, h.alive⟩
    · exact Safe.ite (fun _ => .ok ⟨h.good, h.lim, h.pos, h.iov, h.alive⟩)
        fun _ => .ok ⟨h.good, h.lim, h.pos, h.iov, h.alive⟩
  | insert t =>
    simp only [Iothr.step, submitInsert]
    split
    · exact .ok h
    · rw [if_neg (by simp [hd])]
      split
      · exact .ok ⟨h.good, h.lim, h.pos, h.iov, h.alive⟩
      · refine Safe.ite (fun _ => ?_) fun _ => .ok ⟨h.good, h.lim, h.pos, h.iov, h.alive⟩
        refine Safe.ite (fun _ => .ok (Fine.signal ?_)) fun _ => .ok ?_
        · exact ⟨h.good, h.lim, h.pos, h.iov, h.alive⟩
        · exact ⟨h.good, h.lim, h.pos, h.iov, h.alive⟩
  | getQueue =>
    simp only [Iothr.step, Iothr.getQueue]
    rw [if_neg (by simp [hd])]
    exact Safe.ite (fun _ => .ok ⟨h.good, h.lim, h.pos, h.iov, h.alive⟩)
      fun _ => .ok ⟨h.good, h.lim, h.pos, h.iov, h.alive⟩
  | io now wk => exact h.ioStep hw hp hz now wk
  | shutdown =>
    simp only [Iothr.step, Iothr.shutdown]
    refine Safe.ite (fun _ => .ok h) fun _ => .ok (Fine.signal ?_)
    exact ⟨h.good, h.lim, h.pos, h.iov, h.alive⟩
  | finish => exact absurd rfl ha

theorem Fine.run (hw : Spec.WellBehaved ops I) (hp : Spec.Preserves ops I) (hz : Spec.NoZeroPair ops I)
    (as : List IoAct) {s : Iothr σ} (h : Fine ops I s) (ha : IoAct.finish ∉ as) :
    Safe b (s.run as) (fun s' => Fine ops I s') := by
  induction as generalizing s with
  | nil => exact .ok h
  | cons a as ih =>
    rw [List.mem_cons, not_or] at ha
    exact Safe.bind (h.step hw hp hz a (fun he => ha.1 he.symm)) fun s1 h1 => ih h1 ha.2

theorem Fine.finish (hw : Spec.WellBehaved ops I) (hp : Spec.Preserves ops I) (hz : Spec.NoZeroPair ops I)
    {s : Iothr σ} (h : Fine ops I s) : Safe b s.finish (fun _ => True) := by
  unfold Iothr.finish
  refine Safe.ite (fun _ => ?_) fun _ => .ok trivial
  refine Safe.bind (Good.wdestroy hw hp hz h.good) ?_
  rintro ⟨r, rdwr⟩ _; exact .ok trivial

/-! ## Client steps while the I/O thread is at a given point -/

/-- Steps of clients leave the I/O thread's own data alone. -/
theorem client_frame {s s' : Iothr σ} {a : IoAct} (ha : isIo a = false) (hp : s.pc ≠ .exited)
    (h : s.step a = .ok s') :
    s'.pc = s.pc ∧ s'.opened = s.opened ∧ s'.lastOpen = s.lastOpen ∧ s'.writer = s.writer ∧
    s'.outq = s.outq ∧ s'.outqBytes = s.outqBytes ∧ s'.opt = s.opt ∧ handed s'.log = handed s.log ∧
    calls s'.log = calls s.log := by
  have sig : ∀ s : Iothr σ, s.signal.pc = s.pc ∧ s.signal.opened = s.opened ∧
      s.signal.lastOpen = s.lastOpen ∧ s.signal.writer = s.writer ∧
      s.signal.outq = s.outq ∧ s.signal.outqBytes = s.outqBytes ∧ s.signal.opt = s.opt ∧
      s.signal.log = s.log := by
    intro s
    obtain ⟨wk, hwk⟩ := signal_eq s
    rw [hwk]; exact ⟨rfl, rfl, rfl, rfl, rfl, rfl, rfl, rfl⟩
  cases a with
  | submit t q data f =>
    simp only [step, submitCheck] at h
    split at h
    · cases h
    · split at h
      · cases h; exact ⟨rfl, rfl, rfl, rfl, rfl, rfl, rfl, rfl, rfl⟩
      · split at h
        · cases h; simp [emit, handed_append, handed, calls_append, calls]
        · split at h
          · cases h; simp [emit, handed_append, handed, calls_append, calls]
          · split at h
            · cases h; simp [emit, handed_append, handed, calls_append, calls]
            · cases h; exact ⟨rfl, rfl, rfl, rfl, rfl, rfl, rfl, rfl, rfl⟩
  | insert t =>
    simp only [step, submitInsert] at h
    split at h
    · cases h; exact ⟨rfl, rfl, rfl, rfl, rfl, rfl, rfl, rfl, rfl⟩
    · split at h
      · cases h
      · split at h
        · cases h; exact ⟨rfl, rfl, rfl, rfl, rfl, rfl, rfl, rfl, rfl⟩
        · split at h
          · split at h
            · cases h
              simp only [sig]
              simp [emit, handed_append, handed, calls_append, calls]
            · cases h; simp [emit, handed_append, handed, calls_append, calls]
          · cases h; simp [emit, handed_append, handed, calls_append, calls]
  | getQueue =>
    simp only [step, getQueue] at h
    split at h
    · cases h
    · split at h <;> cases h <;> simp [emit, handed_append, handed, calls_append, calls]
  | io now wk => cases ha
  | shutdown =>
    simp only [step, shutdown] at h
    split at h
    · cases h; exact ⟨rfl, rfl, rfl, rfl, rfl, rfl, rfl, rfl, rfl⟩
    · cases h
      simp only [sig]
      simp [emit, handed_append, handed, calls_append, calls]
  | finish =>
    simp only [step, finish] at h
    rw [if_neg (by simp [hp])] at h
    cases h; exact ⟨rfl, rfl, rfl, rfl, rfl, rfl, rfl, rfl, rfl⟩

/-- The same for several steps. -/
theorem client_frames (as : List IoAct) {s s' : Iothr σ} (ha : ∀ a ∈ as, isIo a = false)
    (hp : s.pc ≠ .exited) (h : s.run as = .ok s') :
    s'.pc = s.pc ∧ s'.opened = s.opened ∧ s'.lastOpen = s.lastOpen ∧ s'.writer = s.writer ∧
    s'.outq = s.outq ∧ s'.outqBytes = s.outqBytes ∧ s'.opt = s.opt ∧ handed s'.log = handed s.log ∧
    calls s'.log = calls s.log := by
  induction as generalizing s with
  | nil => cases h; exact ⟨rfl, rfl, rfl, rfl, rfl, rfl, rfl, rfl, rfl⟩
  | cons a as ih =>
    obtain ⟨s1, h1, h⟩ := Exec.bind_eq_ok.1 h
    obtain ⟨a1, a2, a3, a4, a5, a6, a7, a8, a9⟩ := client_frame (ha a (by simp)) hp h1
    obtain ⟨b1, b2, b3, b4, b5, b6, b7, b8, b9⟩ :=
      ih (fun a h => ha a (by simp [h])) (by rw [a1]; exact hp) h
    exact ⟨b1.trans a1, b2.trans a2, b3.trans a3, b4.trans a4, b5.trans a5, b6.trans a6,
      b7.trans a7, b8.trans a8, b9.trans a9⟩

end Fstrm.Iothr
