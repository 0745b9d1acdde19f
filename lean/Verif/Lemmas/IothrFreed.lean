import Verif.Lemmas.IothrProgress
import Verif.Spec.IothrFreed

/-!
# Payloads leave the output buffer
-/

set_option autoImplicit false

namespace Fstrm.Iothr

variable {σ : Type}

/-- There is an entry in queue `i` or a later one. -/
def Hot (s : Iothr σ) (i : Nat) : Prop := ∃ (j : Nat) (q : List Entry), i ≤ j ∧ s.queues[j]? = some q ∧ q ≠ []

/-- What a client's step does. -/
theorem client_step {s s' : Iothr σ} {a : IoAct} (h : s.step a = .ok s') (ha : ∀ now wake, a ≠ .io now wake)
    (hs : s'.shutting = false) :
    s'.outq = s.outq ∧ s'.pc = s.pc ∧ s'.opt = s.opt ∧ (∀ i, s.Hot i → s'.Hot i) ∧
      (s'.woken = true → s.woken = true ∨ s'.Hot 0) := by
  cases a with
  | submit t q data f =>
    simp only [step, submitCheck] at h
    split at h
    · cases h
    · split at h
      · cases h; exact ⟨rfl, rfl, rfl, fun _ h => h, Or.inl⟩
      · split at h
        · cases h; exact ⟨rfl, rfl, rfl, fun _ h => h, Or.inl⟩
        · split at h
          · cases h; exact ⟨rfl, rfl, rfl, fun _ h => h, Or.inl⟩
          · split at h <;> cases h <;> exact ⟨rfl, rfl, rfl, fun _ h => h, Or.inl⟩
  | insert t =>
    simp only [step, submitInsert] at h
    split at h
    · cases h; exact ⟨rfl, rfl, rfl, fun _ h => h, Or.inl⟩
    · split at h
      · cases h
      · split at h
        · cases h; exact ⟨rfl, rfl, rfl, fun _ h => h, Or.inl⟩
        · rename_i e _ _ _ q hq
          split at h
          · have hm : ∀ x : Iothr σ, x.queues = s.queues.set e.queue (q ++ [e]) →
                (∀ i, s.Hot i → x.Hot i) ∧ x.Hot 0 := by
              intro x hx
              have hlt := (List.getElem?_eq_some_iff.1 hq).1
              refine ⟨?_, e.queue, q ++ [e], Nat.zero_le _, by rw [hx]; simp [hlt], by simp⟩
              rintro i ⟨j, l, h1, h2, h3⟩
              by_cases hj : j = e.queue
              · subst hj
                exact ⟨e.queue, q ++ [e], h1, by rw [hx]; simp [hlt], by simp⟩
              · exact ⟨j, l, h1, by rw [hx, List.getElem?_set_ne (Ne.symm hj)]; exact h2, h3⟩
            split at h
            · cases h
              obtain ⟨wk, hwk⟩ := signal_eq (emit (emit { s with
                pending := fun t' => if t' = t then none else s.pending t'
                queues := s.queues.set e.queue (q ++ [e]) } (.submitted e)) .signal)
              rw [hwk]
              exact ⟨rfl, rfl, rfl, (hm { emit (emit { s with
                pending := fun t' => if t' = t then none else s.pending t'
                queues := s.queues.set e.queue (q ++ [e]) } (.submitted e)) .signal with woken := wk } rfl).1,
                fun _ => Or.inr (hm _ rfl).2⟩
            · cases h
              exact ⟨rfl, rfl, rfl, (hm _ rfl).1, Or.inl⟩
          · cases h; exact ⟨rfl, rfl, rfl, fun _ h => h, Or.inl⟩
  | getQueue =>
    simp only [step, getQueue] at h
    split at h
    · cases h
    · split at h <;> cases h <;> exact ⟨rfl, rfl, rfl, fun _ h => h, Or.inl⟩
  | io now wake => exact absurd rfl (ha now wake)
  | shutdown =>
    simp only [step, shutdown] at h
    split at h
    · cases h; exact ⟨rfl, rfl, rfl, fun _ h => h, Or.inl⟩
    · cases h
      obtain ⟨wk, hwk⟩ := signal_eq ({ s with shutting := true }.emit .shutdown)
      rw [hwk] at hs; cases hs
  | finish =>
    simp only [step, finish] at h
    split at h
    · rename_i hc
      obtain ⟨⟨r, rdwr⟩, h1, h⟩ := Exec.bind_eq_ok.1 h
      cases h
      rw [freeAll_eq] at hs
      exact absurd (hc.1.symm.trans hs) (by simp)
    · cases h; exact ⟨rfl, rfl, rfl, fun _ h => h, Or.inl⟩

/-- Looking at one queue. -/
theorem processQueue_out {s s' : Iothr σ} {i n : Nat} (h : s.processQueue i = .ok (n, s')) :
    (n = 0 ∧ s' = s ∧ ∀ q, s.queues[i]? = some q → q = []) ∨
    (n = 1 ∧ s'.pc = s.pc ∧ s'.opt = s.opt ∧ ∃ x rest, s.queues[i]? = some (x :: rest) ∧
      s'.queues = s.queues.set i rest ∧
      ((s.opened = false ∧ s'.outq = s.outq) ∨ (s'.outq = s.outq ++ [x] ∧ s.outq.length < s.opt.outputQueueSize) ∨
        s'.outq = [x])) := by
  unfold processQueue at h
  split at h
  · rename_i e rest hq
    right
    obtain ⟨s1, h1, h⟩ := Exec.bind_eq_ok.1 h
    cases h
    unfold processEntry at h1
    split at h1
    · obtain ⟨s2, h2, h1⟩ := Exec.bind_eq_ok.1 h1
      split at h1
      · cases h1
      · rename_i hlen
        cases h1
        unfold maybeFlush at h2
        split at h2
        · cases h2
        · split at h2
          · obtain ⟨f1, f2, f3, f4, f5, f6⟩ := flush_frame h2
            exact ⟨rfl, f2, f1, e, rest, hq, f3, Or.inr (Or.inr (by simp [f5]))⟩
          · cases h2
            exact ⟨rfl, rfl, rfl, e, rest, hq, rfl, Or.inr (Or.inl ⟨rfl, by simpa using hlen⟩)⟩
    · rename_i ho
      cases h1
      rw [freeEntry_eq]
      exact ⟨rfl, rfl, rfl, e, rest, hq, rfl, Or.inl ⟨by simpa using ho, rfl⟩⟩
  · rename_i hne
    cases h
    refine Or.inl ⟨rfl, rfl, fun q hq => ?_⟩
    cases q with
    | nil => rfl
    | cons e r => exact absurd hq (hne e r)

theorem maybeOpen_out {s s' : Iothr σ} {now : Nat} (h : s.maybeOpen now = .ok s') :
    s'.queues = s.queues ∧ s'.outq = s.outq ∧ s'.opt = s.opt := by
  unfold maybeOpen at h
  split at h
  · cases h; exact ⟨rfl, rfl, rfl⟩
  · split at h
    · cases h; exact ⟨rfl, rfl, rfl⟩
    · obtain ⟨⟨r, w⟩, h1, h⟩ := Exec.bind_eq_ok.1 h
      cases h; exact ⟨rfl, rfl, rfl⟩

open Classical in
/-- How many steps the I/O thread makes until it takes an entry or waits for the last time. -/
noncomputable def phase (s : Iothr σ) : Nat :=
  match s.pc with
  | .top => if s.Hot 0 then s.opt.numInputQueues + 2 else 2 * s.opt.numInputQueues + 5
  | .work i t =>
    if t = 0 then
      if s.Hot i then s.opt.numInputQueues - i + 1
      else s.opt.numInputQueues + 3 + (s.opt.numInputQueues - i) + 1
    else 2 * s.opt.numInputQueues + 5 + (s.opt.numInputQueues - i) + 1
  | .sleep _ => s.opt.numInputQueues + 3
  | _ => 0

theorem phase_le (s : Iothr σ) : s.phase ≤ 3 * s.opt.numInputQueues + 6 := by
  unfold phase
  split <;> (try split) <;> (try split) <;> omega

/-- The same until the output buffer is full. -/
noncomputable def potential (s : Iothr σ) : Nat :=
  (s.opt.outputQueueSize - s.outq.length) * (3 * s.opt.numInputQueues + 6) + s.phase

open Classical in
theorem phase_mono {s s' : Iothr σ} (hp : s'.pc = s.pc) (ho : s'.opt = s.opt) (hm : ∀ i, s.Hot i → s'.Hot i) :
    s'.phase ≤ s.phase := by
  unfold phase
  rw [hp, ho]
  split
  · by_cases h1 : s.Hot 0
    · rw [if_pos h1, if_pos (hm 0 h1)]; omega
    · rw [if_neg h1]; split <;> omega
  · rename_i i t _
    split
    · by_cases h1 : s.Hot i
      · rw [if_pos h1, if_pos (hm i h1)]; omega
      · rw [if_neg h1]; split <;> omega
    · omega
  · omega
  · omega

theorem Hot.congr {s s' : Iothr σ} (h : s'.queues = s.queues) (i : Nat) : s'.Hot i ↔ s.Hot i := by
  unfold Hot; rw [h]

/-- If the I/O thread has been signalled while it waits, there is an entry. -/
def Woken (s : Iothr σ) : Prop := ∀ d, s.pc = .sleep d → s.woken = true → s.shutting = false → s.Hot 0

theorem Woken.step {s s' : Iothr σ} {a : IoAct} (h : s.step a = .ok s') (hw : s.Woken) : s'.Woken := by
  intro d hd hk hs
  cases a with
  | io now wake =>
    simp only [Iothr.step] at h
    unfold ioStep at h
    split at h
    · obtain ⟨s1, h1, h⟩ := Exec.bind_eq_ok.1 h
      cases h; cases hd
    · split at h
      · cases h; cases hd
      · obtain ⟨s1, h1, h⟩ := Exec.bind_eq_ok.1 h
        cases h; cases hd
    · split at h
      · obtain ⟨⟨n, s1⟩, h1, h⟩ := Exec.bind_eq_ok.1 h
        cases h; cases hd
      · split at h
        · cases h; cases hd
        · cases h; cases hk
    · split at h
      · obtain ⟨⟨n, s1⟩, h1, h⟩ := Exec.bind_eq_ok.1 h
        cases h; cases hd
      · split at h
        · cases h; cases hd
        · obtain ⟨s1, h1, h⟩ := Exec.bind_eq_ok.1 h
          obtain ⟨s2, h2, h⟩ := Exec.bind_eq_ok.1 h
          cases h; cases hd
    · split at h
      · split at h
        · obtain ⟨s1, h1, h⟩ := Exec.bind_eq_ok.1 h
          cases h; cases hd
        · cases h; exact hw d hd hk hs
      · split at h
        · cases h; cases hd
        · cases h; exact hw d hd hk hs
      · cases h; cases hd
    · cases h; exact hw d hd hk hs
  | _ =>
    obtain ⟨_, h2, _, h4, h5⟩ := client_step h (by intro _ _ h; cases h) hs
    have hs0 : s.shutting = false := by
      cases hc : s.shutting with
      | false => rfl
      | true =>
        exfalso
        have ht := step_trs h
        have := ht.inv (P := fun x => x.shutting = true) (by
          intro s s' hp t
          cases t <;> first | exact hp | rfl) hc
        rw [hs] at this; cases this
    rcases h5 hk with h | h
    · exact h4 0 (hw d (h2 ▸ hd) h hs0)
    · exact h

/-- While `e` is in the output buffer, steps of the I/O thread use up the potential. -/
theorem ioStep_potential {s s' : Iothr σ} {now : Nat} {wake : Wake} (h : s.ioStep now wake = .ok s')
    (hA : InvA s) (hG : InvG s) (hW : s.Woken) (hs : s.shutting = false) {e : Entry}
    (he : e ∈ s.outq) (he' : e ∈ s'.outq) :
    (s.asleep = true ∧ s' = s) ∨
    s'.potential + 1 ≤ s.potential +
      (if s.asleep = true ∧ wake = .spurious then s.opt.numInputQueues + 3 else 0) +
      (if s.opened = false ∧ s'.queues ≠ s.queues then 3 * s.opt.numInputQueues + 6 else 0) := by
  have hne : ∀ (i : Nat) (x : Entry) (rest : List Entry), s.queues[i]? = some (x :: rest) → e ≠ x := by
    rintro i x rest hq rfl
    have h1 := hA.held e
    have h2 := count_le_one hA.ids e
    have h3 : 0 < s.outq.count e := List.count_pos_iff.2 he
    have h4 : 0 < s.queues.flatten.count e :=
      List.count_pos_iff.2 (List.mem_flatten.2 ⟨_, List.mem_of_getElem? hq, by simp⟩)
    omega
  unfold ioStep at h
  split at h
  · rename_i hp
    have := hA.start hp
    rw [this] at he; cases he
  · rename_i hp
    split at h
    · rename_i h'; rw [hs] at h'; cases h'
    · obtain ⟨s1, h1, h⟩ := Exec.bind_eq_ok.1 h
      cases h
      obtain ⟨a, b, c⟩ := maybeOpen_out h1
      right
      have hph : Iothr.phase { s1 with pc := .work 0 0 } + 1 ≤ s.phase := by
        unfold phase
        rw [hp]
        simp only [c, ↓reduceIte]
        have hh := Hot.congr (s := s) (s' := { s1 with pc := .work 0 0 }) a 0
        by_cases hc : s.Hot 0
        · rw [if_pos hc, if_pos (hh.2 hc)]; omega
        · rw [if_neg hc, if_neg (fun h => hc (hh.1 h))]; omega
      unfold potential
      simp only [b, c] at hph ⊢
      omega
  · rename_i i total hp
    split at h
    · rename_i hi
      obtain ⟨⟨n, s1⟩, h1, h⟩ := Exec.bind_eq_ok.1 h
      cases h
      right
      rcases processQueue_out h1 with ⟨rfl, rfl, hq⟩ | ⟨rfl, p1, p2, x, rest, p3, p4, p5⟩
      · have hph : Iothr.phase { s1 with pc := .work (i + 1) (total + 0) } + 1 ≤ s1.phase := by
          unfold phase
          rw [hp]
          simp only [Nat.add_zero]
          split
          · have hh : s1.Hot i ↔ Iothr.Hot { s1 with pc := .work (i + 1) total } (i + 1) := by
              constructor
              · rintro ⟨j, q, g1, g2, g3⟩
                refine ⟨j, q, ?_, g2, g3⟩
                rcases Nat.lt_or_ge i j with g | g
                · exact g
                · exact absurd (hq q (by rwa [show i = j by omega])) g3
              · rintro ⟨j, q, g1, g2, g3⟩
                exact ⟨j, q, by omega, g2, g3⟩
            by_cases hc : s1.Hot i
            · rw [if_pos hc, if_pos (hh.1 hc)]; omega
            · rw [if_neg hc, if_neg (fun h => hc (hh.2 h))]; omega
          · omega
        unfold potential
        simp only at hph ⊢
        omega
      · have hph := phase_le { s1 with pc := .work (i + 1) (total + 1) }
        have hph1 : Iothr.phase { s1 with pc := .work (i + 1) (total + 1) } + 1 ≤ 3 * s.opt.numInputQueues + 6 := by
          unfold phase
          simp only [p2]
          rw [if_neg (by omega)]
          omega
        have hpos : 1 ≤ s.phase := by
          unfold phase
          rw [hp]
          simp only
          split <;> (try split) <;> omega
        rcases p5 with ⟨p5, p6⟩ | ⟨p5, p6⟩ | p5
        · have hch : s1.queues ≠ s.queues := by
            rw [p4]
            intro hc
            have := congrArg (fun l => l[i]?) hc
            rw [p3, List.getElem?_set_self (List.getElem?_eq_some_iff.1 p3).1] at this
            have := congrArg List.length (Option.some.inj this)
            simp at this
          rw [if_pos (show s.opened = false ∧ s1.queues ≠ s.queues from ⟨p5, hch⟩)]
          unfold potential
          simp only [p2, p6] at hph1 ⊢
          omega
        · unfold potential
          simp only [p2, p5, List.length_append, List.length_cons, List.length_nil] at hph1 ⊢
          have : (s.opt.outputQueueSize - s.outq.length) * (3 * s.opt.numInputQueues + 6) =
              (s.opt.outputQueueSize - (s.outq.length + (0 + 1))) * (3 * s.opt.numInputQueues + 6) +
                (3 * s.opt.numInputQueues + 6) := by
            rw [← Nat.succ_mul]
            congr 1
            omega
          omega
        · simp only [p5, List.mem_singleton] at he'
          exact absurd he' (hne i x rest p3)
    · rename_i hi
      have hnh : ¬ s.Hot i := by
        rintro ⟨j, q, g1, g2, g3⟩
        have := (List.getElem?_eq_some_iff.1 g2).1
        rw [hA.qlen] at this
        omega
      split at h
      · cases h
        right
        rename_i ht
        have hph : Iothr.phase { s with pc := .top } + 1 ≤ s.phase := by
          unfold phase
          rw [hp]
          simp only
          rw [if_neg ht]
          split <;> omega
        unfold potential
        simp only at hph ⊢
        omega
      · cases h
        right
        rename_i ht
        have hph : Iothr.phase { s with pc := .sleep (now + s.opt.flushTimeout), woken := false } + 1 ≤ s.phase := by
          unfold phase
          rw [hp]
          simp only
          rw [if_pos (by simpa using ht), if_neg hnh]
          omega
        unfold potential
        simp only at hph ⊢
        omega
  · rename_i i total hp
    have := hG.drain i total hp
    rw [hs] at this; cases this
  · rename_i d hp
    have hsl : s.asleep = true := by unfold asleep; rw [hp]
    split at h
    · split at h
      · obtain ⟨s1, h1, h⟩ := Exec.bind_eq_ok.1 h
        cases h
        obtain ⟨f1, f2, f3, f4, f5, f6⟩ := flush_frame h1
        simp only [f5] at he'
        cases he'
      · cases h; exact Or.inl ⟨hsl, rfl⟩
    · split at h
      · rename_i hk
        cases h
        right
        have hph : Iothr.phase { s with pc := .top } + 1 ≤ s.phase := by
          unfold phase
          rw [hp]
          simp only
          rw [if_pos (show Iothr.Hot { s with pc := .top } 0 from hW d hp hk hs)]
          omega
        unfold potential
        simp only at hph ⊢
        omega
      · cases h; exact Or.inl ⟨hsl, rfl⟩
    · cases h
      right
      have hph : Iothr.phase { s with pc := .top } + 1 ≤ s.phase + (s.opt.numInputQueues + 3) := by
        unfold phase
        rw [hp]
        simp only
        split <;> omega
      rw [if_pos ⟨hsl, rfl⟩]
      unfold potential
      simp only at hph ⊢
      omega
  · rename_i hp
    have := (hG.exited hp).1
    rw [hs] at this; cases this

end Fstrm.Iothr
