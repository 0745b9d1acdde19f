import Verif.Lemmas.IothrFreed
import Verif.Lemmas.IothrQueuesProgress
import Verif.Spec.IothrQueuesFreed

/-!
# Payloads leave the output buffer, access by access
-/

set_option autoImplicit false

namespace Fstrm

open Iothr Spec

variable {σ : Type}

/-- A payload that has left the object does not come back. -/
theorem Iothr.Trs.stays_gone {s s' : Iothr σ} (t : Trs s s') (hA : InvA s) {e : Entry}
    (he : e ∈ submits s.log) (hn : e ∉ s.queues.flatten) (hn' : e ∉ s.outq) : e ∉ s'.outq := by
  refine (t.inv (P := fun s => InvA s ∧ e ∈ submits s.log ∧ e ∉ s.queues.flatten ∧ e ∉ s.outq) ?_
    ⟨hA, he, hn, hn'⟩).2.2.2
  intro s s' ⟨hA, he, hn, hn'⟩ t
  refine ⟨hA.tr t, ?_, Trs.stays_out t.trs hA he hn, ?_⟩
  · obtain ⟨x, hx⟩ := t.log
    rw [hx, submits_append]; exact List.mem_append_left _ he
  · cases t with
    | push i x rest h1 h2 h3 h4 =>
      intro hm
      rcases List.mem_append.1 hm with hm | hm
      · exact hn' hm
      · simp only [List.mem_singleton] at hm
        subst hm
        exact hn (List.mem_flatten.2 ⟨_, List.mem_of_getElem? h2, by simp⟩)
    | flushOk | flushFail | flushIdle => intro hm; cases hm
    | _ => exact hn'

theorem Iothr.InvA.out_not_queued {s : Iothr σ} (hA : InvA s) {e : Entry} (he : e ∈ s.outq) :
    e ∈ submits s.log ∧ e ∉ s.queues.flatten := by
  have h1 := hA.held e
  have h2 := count_le_one hA.ids e
  have h3 : 0 < s.outq.count e := List.count_pos_iff.2 he
  exact ⟨List.count_pos_iff.1 (by omega), fun h => by
    have := List.count_pos_iff.2 h
    omega⟩

namespace IoQ

variable {Q : QImpl} {num sz : UInt32} {R : Q.S → QGhost → Prop} {M : Nat} {cl : Q.S → Nat}

theorem outs_outq {q : Nat} (os : List QOut) {s s' : IoQ σ Q} (h : s.outs q os = .ok s') :
    s'.io.outq = s.io.outq := by
  induction os generalizing s with
  | nil => cases h; rfl
  | cons o os ih =>
    obtain ⟨s1, e1, h⟩ := Exec.bind_eq_ok.1 h
    refine (ih h).trans ?_
    cases o with
    | effect t =>
      have e1 : s.effect q t = .ok s1 := e1
      unfold IoQ.effect at e1
      split at e1
      · cases e1
      · cases e1; rfl
    | ins t ok sp =>
      have e1 : s.returned q t ok sp = .ok s1 := e1
      unfold IoQ.returned at e1
      split at e1
      · cases e1
      · simp only at e1
        split at e1
        · split at e1
          · cases e1
            obtain ⟨wk, hwk⟩ := signal_eq (s.io.emit .signal)
            simp only [hwk]; rfl
          · cases e1; rfl
        · cases e1; rfl

/-- Steps of clients leave the output buffer alone. -/
theorem client_outq {s s' : IoQ σ Q} {a : QAct} (ha : a.isIo = false) (hs : s.step a = .ok s')
    (hd : s'.io.destroyed = false) : s'.io.outq = s.io.outq := by
  cases a with
  | submit q t raw data f =>
    have hs : s.submit q t raw data f = .ok s' := hs
    unfold IoQ.submit at hs
    split at hs
    · cases hs
    · split at hs
      · cases hs; rfl
      · split at hs
        · cases hs; rfl
        · obtain ⟨io, h1, hs⟩ := Exec.bind_eq_ok.1 hs
          have : io.outq = s.io.outq := by
            simp only [submitCheck] at h1
            split at h1
            · cases h1
            · split at h1
              · cases h1; rfl
              · split at h1
                · cases h1; rfl
                · split at h1
                  · cases h1; rfl
                  · split at h1 <;> cases h1 <;> rfl
          split at hs <;> cases hs <;> exact this
  | prod q t k =>
    simp only [IoQ.step, IoQ.prod] at hs
    split at hs
    · cases hs
    · split at hs
      · cases hs; rfl
      · obtain ⟨⟨c, os⟩, _, hs⟩ := Exec.bind_eq_ok.1 hs
        exact (outs_outq os hs).trans rfl
  | flush q b i =>
    simp only [IoQ.step, IoQ.flush] at hs
    split at hs
    · cases hs; rfl
    · split at hs
      · cases hs; rfl
      · obtain ⟨⟨c, os⟩, _, hs⟩ := Exec.bind_eq_ok.1 hs
        exact (outs_outq os hs).trans rfl
  | getQueue =>
    simp only [IoQ.step] at hs
    obtain ⟨io, h1, hs⟩ := Exec.bind_eq_ok.1 hs
    cases hs
    unfold Iothr.getQueue at h1
    split at h1
    · cases h1
    · split at h1 <;> cases h1 <;> rfl
  | io now wake k => cases ha
  | shutdown =>
    simp only [IoQ.step] at hs
    obtain ⟨io, h1, hs⟩ := Exec.bind_eq_ok.1 hs
    cases hs
    unfold Iothr.shutdown at h1
    split at h1
    · cases h1; rfl
    · cases h1
      obtain ⟨wk, hwk⟩ := signal_eq ({ s.io with shutting := true }.emit .shutdown)
      simp only [hwk]; rfl
  | finish =>
    simp only [IoQ.step, IoQ.finish] at hs
    split at hs
    · obtain ⟨xss, _, hs⟩ := Exec.bind_eq_ok.1 hs
      split at hs
      · obtain ⟨io, h1, hs⟩ := Exec.bind_eq_ok.1 hs
        cases hs
        unfold Iothr.finish at h1
        split at h1
        · obtain ⟨⟨r, rdwr⟩, _, h1⟩ := Exec.bind_eq_ok.1 h1
          cases h1
          rw [freeAll_eq] at hd
          cases hd
        · cases h1; rfl
      · cases hs
    · cases hs; rfl

/-- There is an entry in queue `i` or a later one which the look in progress does not miss. -/
def Hot (s : IoQ σ Q) (G : Nat → QGhost) (i : Nat) : Prop :=
  ∃ (j : Nat) (l1 : List Entry) (e : Entry) (l2 : List Entry),
    i ≤ j ∧ s.io.waiting j = l1 ++ e :: l2 ∧ late G j l2 = 0

open Classical in
/-- How many looks the I/O thread takes until it takes an entry or waits for the last time. -/
noncomputable def phase (s : IoQ σ Q) (G : Nat → QGhost) : Nat :=
  match s.io.pc with
  | .top => if s.Hot G 0 then s.io.opt.numInputQueues + 2 else 2 * s.io.opt.numInputQueues + 5
  | .work i t =>
    if t = 0 then
      if s.Hot G i then s.io.opt.numInputQueues - i + 1
      else s.io.opt.numInputQueues + 3 + (s.io.opt.numInputQueues - i) + 1
    else 2 * s.io.opt.numInputQueues + 5 + (s.io.opt.numInputQueues - i) + 1
  | .sleep _ => s.io.opt.numInputQueues + 3
  | _ => 0

theorem phase_le (s : IoQ σ Q) (G : Nat → QGhost) : s.phase G ≤ 3 * s.io.opt.numInputQueues + 6 := by
  unfold phase
  split <;> (try split) <;> (try split) <;> omega

open Classical in
theorem phase_mono {s s' : IoQ σ Q} {G G' : Nat → QGhost} (hp : s'.io.pc = s.io.pc) (ho : s'.io.opt = s.io.opt)
    (hm : ∀ i, s.Hot G i → s'.Hot G' i) : s'.phase G' ≤ s.phase G := by
  unfold phase
  rw [hp, ho]
  split
  · by_cases h1 : s.Hot G 0
    · rw [if_pos h1, if_pos (hm 0 h1)]; omega
    · rw [if_neg h1]; split <;> omega
  · rename_i i t _
    split
    · by_cases h1 : s.Hot G i
      · rw [if_pos h1, if_pos (hm i h1)]; omega
      · rw [if_neg h1]; split <;> omega
    · omega
  · omega
  · omega

/-- The same until the output buffer is full. -/
noncomputable def looks (s : IoQ σ Q) (G : Nat → QGhost) : Nat :=
  (s.io.opt.outputQueueSize - s.io.outq.length) * (3 * s.io.opt.numInputQueues + 6) + s.phase G

/-- The same in accesses. -/
noncomputable def potential (M : Nat) (cl : Q.S → Nat) (s : IoQ σ Q) (G : Nat → QGhost) : Nat :=
  s.looks G * (M + 1) + curCl cl s

theorem potential_lt {s s' : IoQ σ Q} {G G' : Nat → QGhost} {x : Nat} (hcb : Cb M cl s')
    (h : s'.looks G' + 1 ≤ s.looks G + x) :
    s'.potential M cl G' + 1 ≤ s.potential M cl G + x * (M + 1) := by
  unfold potential
  have h1 := hcb.cur
  have h2 := Nat.mul_le_mul_right (M + 1) h
  rw [Nat.add_mul, Nat.add_mul] at h2
  omega

theorem Grows.hot {s s' : IoQ σ Q} {G G' : Nat → QGhost} (h : Grows s s' G G') (i : Nat) (hh : s.Hot G i) :
    s'.Hot G' i := by
  obtain ⟨j, l1, e, l2, h1, h2, h3⟩ := hh
  obtain ⟨l2', h4, h5⟩ := h.waiting h2
  exact ⟨j, l1, e, l2', h1, h4, h5.trans h3⟩

/-- What a step of the I/O thread does when it is not at a queue and keeps `e` in the output buffer. -/
theorem other_cases {s s' : Iothr σ} {now : Nat} {wake : Wake} (h : s.ioStep now wake = .ok s')
    (hn : ∀ i t, s.pc = .work i t ∨ s.pc = .drain i t → ¬ i < s.opt.numInputQueues)
    (hA : InvA s) (hG : InvG s) (hs : s.shutting = false) {e : Entry} (he : e ∈ s.outq) (he' : e ∈ s'.outq) :
    s' = s ∨ (s'.queues = s.queues ∧ s'.outq = s.outq ∧ s'.opt = s.opt ∧
      ((s.pc = .top ∧ s'.pc = .work 0 0) ∨
        (∃ i t, s.pc = .work i t ∧ s.opt.numInputQueues ≤ i ∧ t ≠ 0 ∧ s'.pc = .top) ∨
        (∃ i d, s.pc = .work i 0 ∧ s.opt.numInputQueues ≤ i ∧ s'.pc = .sleep d) ∨
        (∃ d, s.pc = .sleep d ∧ s'.pc = .top ∧ wake ≠ .timeout))) := by
  unfold Iothr.ioStep at h
  split at h
  · rename_i hp
    have := hA.start hp
    rw [this] at he; cases he
  · rename_i hp
    split at h
    · rename_i h'; rw [hs] at h'; cases h'
    · obtain ⟨s1, h1, h⟩ := Exec.bind_eq_ok.1 h
      cases h
      obtain ⟨a, b, c⟩ := maybeOpen_out h1
      exact Or.inr ⟨a, b, c, Or.inl ⟨hp, rfl⟩⟩
  · rename_i i total hp
    have hi := hn i total (Or.inl hp)
    rw [if_neg hi] at h
    split at h
    · rename_i ht
      cases h
      exact Or.inr ⟨rfl, rfl, rfl, Or.inr (Or.inl ⟨i, total, hp, by omega, ht, rfl⟩)⟩
    · rename_i ht
      cases h
      have ht : total = 0 := by simpa using ht
      subst ht
      exact Or.inr ⟨rfl, rfl, rfl, Or.inr (Or.inr (Or.inl ⟨i, _, hp, by omega, rfl⟩))⟩
  · rename_i i total hp
    have := hG.drain i total hp
    rw [hs] at this; cases this
  · rename_i d hp
    split at h
    · split at h
      · obtain ⟨s1, h1, h⟩ := Exec.bind_eq_ok.1 h
        cases h
        obtain ⟨f1, f2, f3, f4, f5, f6⟩ := flush_frame h1
        simp only [f5] at he'
        cases he'
      · cases h; exact Or.inl rfl
    · split at h
      · cases h
        exact Or.inr ⟨rfl, rfl, rfl, Or.inr (Or.inr (Or.inr ⟨d, hp, rfl, nofun⟩))⟩
      · cases h; exact Or.inl rfl
    · cases h
      exact Or.inr ⟨rfl, rfl, rfl, Or.inr (Or.inr (Or.inr ⟨d, hp, rfl, nofun⟩))⟩
  · rename_i hp
    have := (hG.exited hp).1
    rw [hs] at this; cases this

theorem hot_lt {s : IoQ σ Q} (hA : InvA s.io) {G : Nat → QGhost} {i : Nat} (h : s.Hot G i) :
    i < s.io.opt.numInputQueues := by
  obtain ⟨j, l1, e, l2, h1, h2, _⟩ := h
  obtain ⟨l, hl, _, _⟩ := mem_waiting (s := s.io) (q := j) (e := e) (by rw [h2]; simp)
  have := (List.getElem?_eq_some_iff.1 hl).1
  rw [hA.qlen] at this
  omega

open Classical in
/-- While `e` is in the output buffer, the accesses of the I/O thread use up the potential. -/
theorem QLink.drains (hQ : Q.Correct num sz R) (hB : Q.ConsBounded num sz R M cl) {s s' : IoQ σ Q}
    {G : Nat → QGhost} (h : s.QLink num R G) (hcb : Cb M cl s)
    {now : Nat} {wake : Wake} {k : Nat} (hs : s.ioStep now wake k = .ok s') (hsh : s.io.shutting = false)
    {e : Entry} (he : e ∈ s.io.outq) (he' : e ∈ s'.io.outq) :
    s' = s ∨ ∃ G', s'.QLink num R G' ∧ Cb M cl s' ∧
      s'.potential M cl G' + 1 ≤ s.potential M cl G +
        (vainAt s (.io now wake k) s' * (s.io.opt.numInputQueues + 3) +
          tossAt s (.io now wake k) s' * (3 * s.io.opt.numInputQueues + 6)) * (M + 1) := by
  rcases ioStep_cases hs with ⟨io, hn, hio, rfl⟩ | ⟨i, t, r, s1, hp, hi, ht, hr0, hr1⟩ | ⟨i, t, _, _, hp, _⟩
  · obtain ⟨hno, hl⟩ := h.other hn hio
    rcases other_cases hio hn h.g.invA h.g.invG hsh he he' with rfl | ⟨q1, q2, q3, hc⟩
    · exact Or.inl rfl
    · refine Or.inr ⟨G, hl, hcb, potential_lt hcb ?_⟩
      have hh : ∀ i, IoQ.Hot { s with io := io } G i ↔ s.Hot G i := by
        intro i
        unfold Hot waiting
        simp only [q1]
      unfold looks
      simp only [q2, q3]
      have key : ∀ x, IoQ.phase { s with io := io } G + 1 ≤ s.phase G + x →
          (s.io.opt.outputQueueSize - s.io.outq.length) * (3 * s.io.opt.numInputQueues + 6) +
            IoQ.phase { s with io := io } G + 1 ≤
          (s.io.opt.outputQueueSize - s.io.outq.length) * (3 * s.io.opt.numInputQueues + 6) + s.phase G +
            (x + tossAt s (.io now wake k) { s with io := io } * (3 * s.io.opt.numInputQueues + 6)) := by
        intro x hx; omega
      refine key _ ?_
      rcases hc with ⟨p1, p2⟩ | ⟨i, t, p1, p2, p3, p4⟩ | ⟨i, d, p1, p2, p3⟩ | ⟨d, p1, p2, p3⟩
      · unfold phase
        simp only [p1, p2, q3, hh, ↓reduceIte]
        split <;> omega
      · unfold phase
        simp only [p1, p4, q3, hh, if_neg p3]
        split <;> omega
      · have : ¬ s.Hot G i := fun hc => by
          have := hot_lt h.g.invA hc
          omega
        unfold phase
        simp only [p1, p3, q3, ↓reduceIte, if_neg this]
        omega
      · have hv : vainAt s (.io now wake k) { s with io := io } =
            if io.queues.flatten = [] then 1 else 0 := by
          have a1 : s.io.asleep = true := by unfold asleep; rw [p1]
          have a2 : io.asleep = false := by unfold asleep; rw [p2]
          cases wake with
          | timeout => exact absurd rfl p3
          | signal => simp only [vainAt, a1, a2, true_and]
          | spurious => simp only [vainAt, a1, a2, true_and]
        rw [hv]
        unfold phase
        simp only [p1, p2, q3, hh]
        by_cases hne : io.queues.flatten = []
        · rw [if_pos hne]
          split <;> omega
        · have hhot : s.Hot G 0 := by
            rw [q1] at hne
            obtain ⟨x, hx⟩ := List.exists_mem_of_ne_nil _ hne
            obtain ⟨l, hl, hel⟩ := List.mem_flatten.1 hx
            obtain ⟨j, hj⟩ := List.mem_iff_getElem?.1 hl
            obtain ⟨l1, l2, rfl⟩ := List.append_of_mem hel
            have hw : s.io.waiting j = l1 ++ x :: l2 := by unfold waiting; rw [hj]; rfl
            exact ⟨j, l1, x, l2, Nat.zero_le _, hw, late_none (hno _) _⟩
          rw [if_pos hhot]
          omega
  · have hne : ∀ (i : Nat) (x : Entry) (rest : List Entry), s.io.queues[i]? = some (x :: rest) → e ≠ x := by
      rintro i x rest hq rfl
      exact (h.g.invA.out_not_queued he).2 (List.mem_flatten.2 ⟨_, List.mem_of_getElem? hq, by simp⟩)
    rcases h.look hQ hB hcb (.work t hp hi) (fun n => .work (i + 1) (t + n))
      (fun _ => PcStep.workNext (s := s.io) i t (t + 0) hp)
      (fun io h1 _ => PcStep.workNext (s := io) i t (t + 1) (h1.trans hp)) ht with
      ⟨rfl, hl⟩ | ⟨rfl, hio, G', e1, e2, e3, e4, e5⟩ | ⟨rfl, hpq, G', e1, e2, e3⟩
    · have hr0 := hr0 rfl
      subst hr0
      rcases hl with rfl | ⟨hio, hcb', ⟨c0, c, g1, g2, g3⟩, G', hl, hlate⟩
      · exact Or.inl rfl
      · refine Or.inr ⟨G', hl, hcb', ?_⟩
        have hph : s'.phase G' ≤ s.phase G := by
          refine phase_mono (by rw [hio]) (by rw [hio]) ?_
          rintro i ⟨j, l1, x, l2, b1, b2, b3⟩
          refine ⟨j, l1, x, l2, b1, by rw [hio]; exact b2, ?_⟩
          have := hlate j l2
          omega
        have hc : curCl cl s' < curCl cl s := by
          unfold curCl
          rw [hio, hp]
          simp only [cursor, g1, g2, Option.map_some, Option.getD_some]
          exact g3
        have hlo : s'.looks G' ≤ s.looks G := by
          unfold looks; rw [hio]; omega
        have := Nat.mul_le_mul_right (M + 1) hlo
        unfold potential
        omega
    · have hr1 := hr1 0 rfl
      subst hr1
      refine Or.inr ⟨G', e1, e2, potential_lt e2 ?_⟩
      have hph : IoQ.phase { s1 with io := { s1.io with pc := .work (i + 1) (t + 0) } } G' + 1 ≤ s.phase G := by
        have hh : s.Hot G i → IoQ.Hot { s1 with io := { s1.io with pc := .work (i + 1) (t + 0) } } G' (i + 1) := by
          rintro ⟨j, l1, x, l2, b1, b2, b3⟩
          refine ⟨j, l1, x, l2, ?_, ?_, late_none (e3 j) _⟩
          · rcases Nat.lt_or_ge i j with g | g
            · exact g
            · have hij : j = i := by omega
              subst hij
              unfold late at b3
              rw [b2] at e5
              simp only [List.length_append, List.length_cons] at e5
              rw [if_pos ⟨e4, by omega⟩] at b3
              cases b3
          · show Iothr.waiting { s1.io with pc := _ } j = _
            have : Iothr.waiting { s1.io with pc := .work (i + 1) (t + 0) } j = s1.io.waiting j := rfl
            rw [this, hio]; exact b2
        unfold phase
        rw [hp]
        simp only [Nat.add_zero, hio] at hh ⊢
        split
        · by_cases hc : s.Hot G i
          · rw [if_pos hc, if_pos (hh hc)]; omega
          · rw [if_neg hc]; split <;> omega
        · omega
      unfold looks
      simp only [hio] at hph ⊢
      omega
    · have hr1 := hr1 1 rfl
      subst hr1
      refine Or.inr ⟨G', e1, e2, potential_lt e2 ?_⟩
      rcases processQueue_out hpq with ⟨h0, _⟩ | ⟨_, p1, p2, x, rest, p3, p4, p5⟩
      · cases h0
      · have hph1 : IoQ.phase { s1 with io := { s1.io with pc := .work (i + 1) (t + 1) } } G' + 1 ≤
            3 * s.io.opt.numInputQueues + 6 := by
          unfold phase
          simp only [p2]
          rw [if_neg (by omega)]
          omega
        have hpos : 1 ≤ s.phase G := by
          unfold phase
          rw [hp]
          simp only
          split <;> (try split) <;> omega
        rcases p5 with ⟨p5, p6⟩ | ⟨p5, p6⟩ | p5
        · have hch : s1.io.queues ≠ s.io.queues := by
            rw [p4]
            intro hc
            have := congrArg (fun l => l[i]?) hc
            rw [p3, List.getElem?_set_self (List.getElem?_eq_some_iff.1 p3).1] at this
            have := congrArg List.length (Option.some.inj this)
            simp at this
          have htoss : tossAt s (.io now wake k) { s1 with io := { s1.io with pc := .work (i + 1) (t + 1) } } = 1 := by
            unfold tossAt
            rw [if_pos ⟨rfl, p5, hch⟩]
          rw [htoss]
          unfold looks
          simp only [p2, p6] at hph1 ⊢
          omega
        · unfold looks
          simp only [p2, p5, List.length_append, List.length_cons, List.length_nil] at hph1 ⊢
          have : (s.io.opt.outputQueueSize - s.io.outq.length) * (3 * s.io.opt.numInputQueues + 6) =
              (s.io.opt.outputQueueSize - (s.io.outq.length + (0 + 1))) * (3 * s.io.opt.numInputQueues + 6) +
                (3 * s.io.opt.numInputQueues + 6) := by
            rw [← Nat.succ_mul]
            congr 1
            omega
          omega
        · simp only [p5, List.mem_singleton] at he'
          exact absurd he' (hne i x rest p3)
  · have := h.g.invG.drain i t hp
    rw [hsh] at this; cases this

end IoQ

namespace IoQ

variable {Q : QImpl} {num sz : UInt32} {R : Q.S → QGhost → Prop} {M : Nat} {cl : Q.S → Nat}

theorem sumMoves_cons {f : IoQ σ Q → QAct → IoQ σ Q → Nat} {s s1 : IoQ σ Q} {a : QAct} {as : List QAct}
    (h : s.step a = .ok s1) : sumMoves f s (a :: as) = f s a s1 + sumMoves f s1 as := by
  simp only [sumMoves, h]

/-- As long as `e` is in the output buffer, moves of the I/O thread use up the potential. -/
theorem QLink.drained (hQ : Q.Correct num sz R) (hB : Q.ConsBounded num sz R M cl) {s s' : IoQ σ Q}
    {as : List QAct} {n : Nat} (hm : Moves s as n s') {G : Nat → QGhost} (h : s.QLink num R G) (hcb : Cb M cl s)
    (hs : IoEv.shutdown ∉ s'.io.log) {e : Entry} (he : e ∈ s.io.outq) (he' : e ∈ s'.io.outq) :
    n ≤ s.potential M cl G + (vain s as * (s.io.opt.numInputQueues + 3) +
      tosses s as * (3 * s.io.opt.numInputQueues + 6)) * (M + 1) := by
  induction hm generalizing G with
  | nil s => exact Nat.zero_le _
  | @other s s1 s' a as n h1 ha hm ih =>
    obtain ⟨hl1, t1⟩ := h.link.step hQ h1
    have t2 := (hl1.run hQ _ hm.run).2
    obtain ⟨_, hd⟩ := hl1.undestroyed t2 hs
    obtain ⟨G', e1, e2, e3, e4⟩ := h.grows hQ hB ha h1 fun _ => hd
    have ho : s1.io.opt = s.io.opt := t1.inv (P := fun x => x.opt = s.io.opt) (fun _ _ h t => t.opt.trans h) rfl
    have hq := client_outq ha h1 hd
    have ih := ih e1 (hcb.cls e3) hs (by rw [hq]; exact he) he'
    rw [ho] at ih
    have hp : s1.potential M cl G' ≤ s.potential M cl G := by
      have h2 := phase_mono e4 ho e2.hot
      have h3 := e3.cur e4
      have : s1.looks G' ≤ s.looks G := by unfold looks; rw [hq, ho]; omega
      have := Nat.mul_le_mul_right (M + 1) this
      unfold potential
      omega
    unfold vain tosses at ih ⊢
    rw [sumMoves_cons h1, sumMoves_cons h1]
    refine Nat.le_trans ih (Nat.add_le_add hp (Nat.mul_le_mul_right _ (Nat.add_le_add ?_ ?_))) <;>
      exact Nat.mul_le_mul_right _ (by omega)
  | @still s s' a as n h1 ha hm ih =>
    have ih := ih h hcb hs he he'
    unfold vain tosses at ih ⊢
    rw [sumMoves_cons h1, sumMoves_cons h1]
    refine Nat.le_trans ih (Nat.add_le_add_left (Nat.mul_le_mul_right _ (Nat.add_le_add ?_ ?_)) _) <;>
      exact Nat.mul_le_mul_right _ (by omega)
  | @moved s s1 s' a as n h1 ha hc hm ih =>
    obtain ⟨hl1, t1⟩ := h.link.step hQ h1
    have t2 := (hl1.run hQ _ hm.run).2
    obtain ⟨hsh, _⟩ := h.link.undestroyed (t1.trans t2) hs
    have ho : s1.io.opt = s.io.opt := t1.inv (P := fun x => x.opt = s.io.opt) (fun _ _ h t => t.opt.trans h) rfl
    obtain ⟨g1, g2⟩ := h.g.invA.out_not_queued he
    have he1 : e ∈ s1.io.outq := by
      refine Decidable.byContradiction fun hn => t2.stays_gone hl1.invA ?_ (t1.stays_out h.g.invA g1 g2) hn he'
      obtain ⟨x, hx⟩ := t1.log
      rw [hx, submits_append]; exact List.mem_append_left _ g1
    cases a with
    | io now wake k =>
      rcases h.drains hQ hB hcb h1 hsh he he1 with rfl | ⟨G', e1, e2, e3⟩
      · exact absurd rfl hc
      · have ih := ih e1 e2 hs he1 he'
        rw [ho] at ih
        unfold vain tosses at ih ⊢
        rw [sumMoves_cons h1, sumMoves_cons h1]
        generalize vainAt s (.io now wake k) s1 = v at e3 ⊢
        generalize tossAt s (.io now wake k) s1 = w at e3 ⊢
        simp only [Nat.add_mul] at ih e3 ⊢
        omega
    | _ => cases ha

/-- An execution can be cut after any number of moves. -/
theorem _root_.Fstrm.Spec.Moves.split {s s' : IoQ σ Q} {as : List QAct} {n : Nat} (hm : Moves s as n s')
    (k : Nat) (hk : k ≤ n) : ∃ b1 b2 s1, as = b1 ++ b2 ∧ Moves s b1 k s1 ∧ Moves s1 b2 (n - k) s' ∧
      ∀ f : IoQ σ Q → QAct → IoQ σ Q → Nat, sumMoves f s1 b2 ≤ sumMoves f s as := by
  induction hm generalizing k with
  | nil s =>
    have : k = 0 := by omega
    subst this
    exact ⟨[], [], s, rfl, .nil s, .nil s, fun _ => Nat.le_refl _⟩
  | @other s s1 s' a as n h1 ha hm ih =>
    obtain ⟨b1, b2, s2, i1, i2, i3, i4⟩ := ih k hk
    refine ⟨a :: b1, b2, s2, by rw [i1]; rfl, .other h1 ha i2, i3, fun f => ?_⟩
    have := i4 f
    rw [sumMoves_cons h1]; omega
  | @still s s' a as n h1 ha hm ih =>
    obtain ⟨b1, b2, s2, i1, i2, i3, i4⟩ := ih k hk
    refine ⟨a :: b1, b2, s2, by rw [i1]; rfl, .still h1 ha i2, i3, fun f => ?_⟩
    have := i4 f
    rw [sumMoves_cons h1]; omega
  | @moved s s1 s' a as n h1 ha hc hm ih =>
    cases k with
    | zero => exact ⟨[], a :: as, s, rfl, .nil s, .moved h1 ha hc hm, fun _ => Nat.le_refl _⟩
    | succ k =>
      obtain ⟨b1, b2, s2, i1, i2, i3, i4⟩ := ih k (by omega)
      refine ⟨a :: b1, b2, s2, by rw [i1]; rfl, .moved h1 ha hc i2, by rw [Nat.add_sub_add_right]; exact i3, fun f => ?_⟩
      have := i4 f
      rw [sumMoves_cons h1]; omega

end IoQ
end Fstrm
