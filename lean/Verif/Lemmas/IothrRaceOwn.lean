import Verif.Lemmas.IothrRaceRun

/-! With any queue, what the I/O thread has for itself and the number of the next handle are accessed in order. -/

set_option autoImplicit false

namespace Fstrm

open Spec Iothr

variable {σ : Type} {Q : QImpl} {num sz : UInt32} {R : Q.S → QGhost → Prop}

namespace IoQ

/-- Who knows of the accesses. -/
structure OwnKnown (tr : Evs) (pc : IoPc) (gone : Bool) : Prop where
  ordO : Ordered tr .own
  ordG : Ordered tr .getIdx
  idx : HeldM tr .getQueue .getIdx
  own : gone = false → pc ≠ .exited → Held tr 0 .own
  exited : gone = false → pc = .exited → HeldX tr 0 .own

theorem OwnKnown.frame {tr evs : Evs} {pc : IoPc} {g : Bool} (h : OwnKnown tr pc g) {u : Nat} (hu : ∀ a ∈ evs, a.thread = u)
    (h1 : ∀ a ∈ evs, ¬ a.At .own) (h2 : ∀ a ∈ evs, ¬ a.At .getIdx) : OwnKnown (tr ++ evs) pc g where
  ordO := h.ordO.append hu fun ⟨a, ha, hx⟩ => absurd hx (h1 a ha)
  ordG := h.ordG.append hu fun ⟨a, ha, hx⟩ => absurd hx (h2 a ha)
  idx := h.idx.append fun a ha hx => absurd hx (h2 a ha)
  own g1 g2 := (h.own g1 g2).append fun a ha hx => absurd hx (h1 a ha)
  exited g1 g2 := (h.exited g1 g2).append fun a ha hx => absurd hx (h1 a ha)

theorem ofQueue_at {i : Nat} {o : ThreadOp QPlace Unit} {x : Place} (h : OpAt x (ThreadOp.ofQueue i o)) : ∃ p, x = .queue i p := by
  cases o <;> rcases h with h | h <;> cases h <;> exact ⟨_, rfl⟩

/-- The accesses of an operation on a queue. -/
theorem OwnKnown.queue {tr : Evs} {pc : IoPc} {g : Bool} (h : OwnKnown tr pc g) (u i : Nat) (os : List (ThreadOp QPlace Unit)) :
    OwnKnown (tr ++ (os.map (ThreadOp.ofQueue i)).map fun o => ⟨u, o⟩) pc g := by
  refine h.frame (u := u) ?_ ?_ ?_ <;> intro a ha <;> obtain ⟨o, ho, rfl⟩ := List.mem_map.1 ha
  · rfl
  all_goals
    obtain ⟨o', _, rfl⟩ := List.mem_map.1 ho
    intro hx
    obtain ⟨p, hp⟩ := ofQueue_at hx
    cases hp

theorem freeTouch_at' (A : QTouch Q) {c : Q.S} {i : Nat} {es : List Entry} {x : Place} {o : ThreadOp Place Mutex}
    (ho : o ∈ freeTouch A c i es) (hx : OpAt x o) : (∃ p, x = .queue i p) ∨ ∃ id, x = .payload id := by
  have whole : ∀ {o}, o ∈ (A.whole c).map (ThreadOp.ofQueue i) → OpAt x o → ∃ p, x = .queue i p := by
    intro o ho hx
    obtain ⟨o', _, rfl⟩ := List.mem_map.1 ho
    exact ofQueue_at hx
  unfold freeTouch at ho
  rcases List.mem_append.1 ho with ho | ho
  · rcases List.mem_append.1 ho with ho | ho
    · obtain ⟨e, he, ho⟩ := List.mem_flatMap.1 ho
      rcases List.mem_append.1 ho with ho | ho
      · exact Or.inl (whole ho hx)
      · split at ho
        · simp only [List.mem_singleton] at ho
          subst ho
          rcases hx with hx | hx <;> cases hx
          exact Or.inr ⟨e.id, rfl⟩
        · cases ho
    · exact Or.inl (whole ho hx)
  · obtain ⟨p, _, rfl⟩ := List.mem_map.1 ho
    rcases hx with hx | hx <;> cases hx
    exact Or.inl ⟨p, rfl⟩

theorem freeAllTouch_at (A : QTouch Q) (cs : List Q.S) (ess : List (List Entry)) (k : Nat) {x : Place} {o : ThreadOp Place Mutex}
    (ho : o ∈ freeAllTouch A k cs ess) (hx : OpAt x o) : (∃ i p, x = .queue i p) ∨ ∃ id, x = .payload id := by
  induction cs generalizing ess k with
  | nil => cases ho
  | cons c cs ih =>
    cases ess with
    | nil => cases ho
    | cons es ess =>
      rcases List.mem_append.1 ho with ho | ho
      · exact (freeTouch_at' A ho hx).imp (fun ⟨p, h⟩ => ⟨k, p, h⟩) id
      · exact ih ess (k + 1) ho

/-- What `IoQ.Known` is for all places. -/
structure Own (num : UInt32) (R : Q.S → QGhost → Prop) (s : IoQ σ Q) (tr : Evs) : Prop where
  link : s.Link num R
  known : OwnKnown tr s.io.pc s.io.destroyed

/-- The step's accesses at the program counter. -/
theorem OwnKnown.pcTouch (A : QTouch Q) {s : IoQ σ Q} {tr : Evs} {pc : IoPc} {g : Bool} (h : OwnKnown tr pc g) (k : Nat) :
    OwnKnown (tr ++ (s.pcTouch A k).map fun o => ⟨0, o⟩) pc g := by
  have nil : OwnKnown (tr ++ ([] : List (ThreadOp Place Mutex)).map fun o => ⟨0, o⟩) pc g := by
    simp only [List.map_nil, List.append_nil]; exact h
  have take : ∀ i, OwnKnown (tr ++ (s.takeTouch A i k).map fun o => ⟨0, o⟩) pc g := by
    intro i
    unfold IoQ.takeTouch
    split
    · exact nil
    · split
      · exact nil
      · exact h.queue 0 i _
  unfold IoQ.pcTouch
  split
  · exact nil
  · refine h.frame (u := 0) ?_ ?_ ?_ <;> intro a ha <;> obtain ⟨o, ho, rfl⟩ := List.mem_map.1 ha
    · rfl
    all_goals
      simp only [List.mem_singleton] at ho
      subst ho
      rintro (hx | hx) <;> cases hx
  · split
    · exact take _
    · exact nil
  · split
    · exact take _
    · exact nil
  · exact nil
  · exact nil

theorem ioEv_at {evs : List IoEv} {o : ThreadOp Place Mutex} (ho : o ∈ evs.flatMap IoEv.touch) {x : Place} (hx : OpAt x o) :
    ∃ id, x = .payload id := by
  obtain ⟨ev, _, ho⟩ := List.mem_flatMap.1 ho
  cases ev <;> simp only [IoEv.touch, List.not_mem_nil] at ho
  · obtain ⟨e, _, rfl⟩ := List.mem_map.1 ho
    rcases hx with hx | hx <;> cases hx
    exact ⟨_, rfl⟩
  · simp only [List.mem_singleton] at ho
    subst ho
    rcases hx with hx | hx <;> cases hx
    exact ⟨_, rfl⟩

theorem Own.step (A : QTouch Q) (hQ : Q.Correct num sz R) {s s' : IoQ σ Q} {tr : Evs} (h : Own num R s tr)
    {a : QAct} (hs : s.step a = .ok s') (b : Nat) :
    Own num R s' (tr ++ (s.touch A s' a).map fun o => ⟨a.thread b, o⟩) := by
  have hlink := (h.link.step hQ hs).1
  cases hd : s.io.destroyed with
  | true =>
    have e := h.link.dead hd hs
    subst e
    have : s'.touch A s' a = [] := by
      have hp := (h.link.invA.dest hd).1
      have hsh := (h.link.invG.exited hp).1
      cases a with
      | submit q t raw data f => simp [IoQ.step, IoQ.submit, hd] at hs
      | prod q t k => simp [IoQ.step, IoQ.prod, hd] at hs
      | flush q b i => rfl
      | getQueue =>
        simp only [IoQ.step, Iothr.getQueue, hd, if_true] at hs
        cases hs
      | io now wake k => simp [IoQ.touch, IoQ.ioTouch, hp]
      | shutdown => simp [IoQ.touch, hsh]
      | finish => simp [IoQ.touch, hd]
    rw [this]
    simp only [List.map_nil, List.append_nil]
    exact h
  | false =>
    obtain ⟨G, hl⟩ := h.link.live hd
    have hk := h.known
    rw [hd] at hk
    have client : ∀ {s'' : IoQ σ Q}, s.step a = .ok s'' → (∃ G', s''.QLink num R G') → ClientStep s s'' →
        OwnKnown (tr ++ (s.touch A s' a).map fun o => ⟨a.thread b, o⟩) s.io.pc false →
        Own num R s' (tr ++ (s.touch A s' a).map fun o => ⟨a.thread b, o⟩) := by
      intro s'' e1 ⟨G', e2⟩ e3 hk'
      rw [hs] at e1; cases e1
      refine ⟨hlink, ?_⟩
      rw [e3.io.pc, e2.g.alive]
      exact hk'
    cases a with
    | submit q t raw data f =>
      obtain ⟨_, e1, e2, e3⟩ := hl.submit hQ q t raw data f
      refine client e1 e2 e3 ?_
      simp only [IoQ.touch]
      split
      · simp only [List.map_nil, List.append_nil]; exact hk
      · split
        · refine hk.frame (u := t + 1) ?_ ?_ ?_ <;> intro a ha <;> obtain ⟨o, ho, rfl⟩ := List.mem_map.1 ha
          · rfl
          all_goals
            simp only [List.mem_cons, List.not_mem_nil, or_false] at ho
            rcases ho with rfl | rfl <;> rintro (hx | hx) <;> cases hx
        · simp only [List.map_nil, List.append_nil]; exact hk
    | prod q t k =>
      obtain ⟨_, e1, e2, e3⟩ := hl.prod hQ q t k
      refine client e1 e2 e3 ?_
      simp only [IoQ.touch]
      split
      · simp only [List.map_nil, List.append_nil]; exact hk
      · exact hk.queue _ _ _
    | flush q fb fi =>
      obtain ⟨_, e1, e2, e3⟩ := hl.flush hQ q fb fi
      refine client e1 e2 e3 ?_
      simp only [IoQ.touch, List.map_nil, List.append_nil]
      exact hk
    | getQueue =>
      obtain ⟨_, e1, e2, e3⟩ := hl.getQueue
      refine client e1 e2 e3 ?_
      have hm : ∀ a ∈ ([ThreadOp.read Place.getIdx] ++ if s.io.getIdx < s.io.opt.numInputQueues then [ThreadOp.write Place.getIdx] else []).map
          (fun o => (⟨b + 1, o⟩ : ThreadEv Place Mutex)), a.thread = b + 1 ∧ ¬ a.At .own := by
        intro a ha
        obtain ⟨o, ho, rfl⟩ := List.mem_map.1 ha
        refine ⟨rfl, ?_⟩
        rcases List.mem_append.1 ho with ho | ho
        · simp only [List.mem_singleton] at ho
          subst ho
          rintro (hx | hx) <;> cases hx
        · split at ho
          · simp only [List.mem_singleton] at ho
            subst ho
            rintro (hx | hx) <;> cases hx
          · cases ho
      have h1 := hk.frame (u := b + 1) (evs := [⟨b + 1, .lock .getQueue⟩]) (by simp)
        (by intro a ha; simp only [List.mem_singleton] at ha; subst ha; rintro (hx | hx) <;> cases hx)
        (by intro a ha; simp only [List.mem_singleton] at ha; subst ha; rintro (hx | hx) <;> cases hx)
      have hH : Held (tr ++ [⟨b + 1, .lock .getQueue⟩]) (b + 1) .getIdx := hk.idx.lock
      have hH2 := hH.append (evs := ([ThreadOp.read Place.getIdx] ++
        if s.io.getIdx < s.io.opt.numInputQueues then [ThreadOp.write Place.getIdx] else []).map
          (fun o => (⟨b + 1, o⟩ : ThreadEv Place Mutex))) fun a ha _ => (hm a ha).1
      have oO := h1.ordO.append (fun a ha => (hm a ha).1) fun ⟨a, ha, hx⟩ => absurd hx (hm a ha).2
      have oG := h1.ordG.append (fun a ha => (hm a ha).1) fun _ => hH
      have key : OwnKnown (((tr ++ [⟨b + 1, .lock .getQueue⟩]) ++ ([ThreadOp.read Place.getIdx] ++
        if s.io.getIdx < s.io.opt.numInputQueues then [ThreadOp.write Place.getIdx] else []).map
          (fun o => (⟨b + 1, o⟩ : ThreadEv Place Mutex))) ++ [⟨b + 1, .unlock .getQueue⟩]) s.io.pc false := by
        have hno : ∀ x, ¬ (⟨b + 1, .unlock .getQueue⟩ : ThreadEv Place Mutex).At x := by
          rintro x (hx | hx) <;> cases hx
        refine ⟨oO.snoc _ fun hx => absurd hx (hno _), oG.snoc _ fun hx => absurd hx (hno _), Held.unlock hH2, ?_, ?_⟩
        · intro g1 g2
          refine ((h1.own g1 g2).append fun a ha hx => absurd hx (hm a ha).2).append ?_
          intro a ha; simp only [List.mem_singleton] at ha; subst ha
          exact fun hx => absurd hx (hno _)
        · intro g1 g2
          refine ((h1.exited g1 g2).append fun a ha hx => absurd hx (hm a ha).2).append ?_
          intro a ha; simp only [List.mem_singleton] at ha; subst ha
          exact fun hx => absurd hx (hno _)
      simpa only [List.append_assoc, List.cons_append, List.nil_append, IoQ.touch, QAct.thread, List.map_append, List.map_cons,
        List.map_nil] using key
    | shutdown =>
      obtain ⟨_, e1, e2, e3⟩ := hl.shutdown
      refine client e1 e2 e3 ?_
      simp only [IoQ.touch]
      split
      · simp only [List.map_nil, List.append_nil]; exact hk
      · refine hk.frame (u := b + 1) ?_ ?_ ?_ <;> intro a ha <;> obtain ⟨o, ho, rfl⟩ := List.mem_map.1 ha
        · rfl
        all_goals
          simp only [List.mem_singleton] at ho
          subst ho
          rintro (hx | hx) <;> cases hx
    | io now wake k =>
      obtain ⟨⟨G', hl'⟩, _⟩ := hl.ioStep hQ hs
      refine ⟨hlink, ?_⟩
      rw [hl'.g.alive]
      simp only [IoQ.touch, IoQ.ioTouch, QAct.thread]
      by_cases hp : s.io.pc = .exited
      · simp only [hp, if_true, List.map_nil, List.append_nil]
        simp only [IoQ.step, IoQ.ioStep, hp, Iothr.ioStep, Exec.ok_bind] at hs
        cases hs
        exact hk
      · simp only [hp, if_false]
        have h1 := hk.pcTouch A (s := s) k
        have hm : ∀ a ∈ ([ThreadOp.write Place.own] ++ (s'.io.log.drop s.io.log.length).flatMap IoEv.touch).map
            (fun o => (⟨0, o⟩ : ThreadEv Place Mutex)), a.thread = 0 ∧ ¬ a.At .getIdx := by
          intro a ha
          obtain ⟨o, ho, rfl⟩ := List.mem_map.1 ha
          refine ⟨rfl, ?_⟩
          rcases List.mem_append.1 ho with ho | ho
          · simp only [List.mem_singleton] at ho
            subst ho
            rintro (hx | hx) <;> cases hx
          · intro hx
            obtain ⟨id, hid⟩ := ioEv_at ho hx
            cases hid
        have oO := h1.ordO.append (fun a ha => (hm a ha).1) fun _ => h1.own rfl hp
        have oG := h1.ordG.append (fun a ha => (hm a ha).1) fun ⟨a, ha, hx⟩ => absurd hx (hm a ha).2
        have oI := h1.idx.append fun a ha hx => absurd hx (hm a ha).2
        have oH := (h1.own rfl hp).append fun a ha _ => (hm a ha).1
        rw [show s.pcTouch A k ++ [ThreadOp.write Place.own] ++ (s'.io.log.drop s.io.log.length).flatMap IoEv.touch =
          s.pcTouch A k ++ ([ThreadOp.write Place.own] ++ (s'.io.log.drop s.io.log.length).flatMap IoEv.touch) by
            simp only [List.append_assoc]]
        rw [List.map_append, List.map_append, ← List.append_assoc, ← List.append_assoc]
        split
        · rename_i hp'
          have hno : ∀ x, ¬ (⟨0, .exit⟩ : ThreadEv Place Mutex).At x := by
            rintro x (hx | hx) <;> cases hx
          exact ⟨oO.snoc _ fun hx => absurd hx (hno _), oG.snoc _ fun hx => absurd hx (hno _),
            oI.append (evs := [⟨0, .exit⟩]) (by
              intro a ha; simp only [List.mem_singleton] at ha; subst ha
              exact fun hx => absurd hx (hno _)),
            fun _ hx => absurd hp' hx, fun _ _ => Held.exit oH⟩
        · rename_i hp'
          rw [List.map_nil, List.append_nil]
          exact ⟨oO, oG, oI, fun _ _ => oH, fun _ hx => absurd hx hp'⟩
    | finish =>
      refine ⟨hlink, ?_⟩
      by_cases hc : s.io.shutting = true ∧ s.io.pc = .exited ∧ s.io.destroyed = false ∧ s.qs.all Q.quiet = true
      · cases hd' : s'.io.destroyed with
        | false =>
          exfalso
          simp only [IoQ.step, IoQ.finish] at hs
          rw [if_pos hc] at hs
          obtain ⟨xss, _, hs⟩ := Exec.bind_eq_ok.1 hs
          split at hs
          · obtain ⟨io, e1, hs⟩ := Exec.bind_eq_ok.1 hs
            unfold Iothr.finish at e1
            rw [if_pos ⟨hc.1, hc.2.1, hc.2.2.1⟩] at e1
            obtain ⟨⟨r, rdwr⟩, _, e1⟩ := Exec.bind_eq_ok.1 e1
            cases e1
            cases hs
            simp [emit] at hd'
          · cases hs
        | true =>
          simp only [IoQ.touch, hd, hd', and_self, if_true, QAct.thread]
          have hJ : Held (tr ++ [⟨b + 1, .join 0⟩]) (b + 1) .own := (hk.exited rfl hc.2.1).join
          have hm : ∀ a ∈ (ThreadOp.write Place.own :: freeAllTouch A 0 s.qs s.io.queues).map
              (fun o => (⟨b + 1, o⟩ : ThreadEv Place Mutex)), a.thread = b + 1 ∧ ¬ a.At .getIdx := by
            intro a ha
            obtain ⟨o, ho, rfl⟩ := List.mem_map.1 ha
            refine ⟨rfl, ?_⟩
            rcases List.mem_cons.1 ho with rfl | ho
            · rintro (hx | hx) <;> cases hx
            · intro hx
              rcases freeAllTouch_at A _ _ _ ho hx with ⟨i, p, hid⟩ | ⟨id, hid⟩ <;> cases hid
          have h1 := hk.frame (u := b + 1) (evs := [⟨b + 1, .join 0⟩]) (by simp)
            (by intro a ha; simp only [List.mem_singleton] at ha; subst ha; rintro (hx | hx) <;> cases hx)
            (by intro a ha; simp only [List.mem_singleton] at ha; subst ha; rintro (hx | hx) <;> cases hx)
          have heq : ([ThreadOp.join 0, ThreadOp.write Place.own] ++ freeAllTouch A 0 s.qs s.io.queues).map
              (fun o => (⟨b + 1, o⟩ : ThreadEv Place Mutex)) = [⟨b + 1, .join 0⟩] ++
              (ThreadOp.write Place.own :: freeAllTouch A 0 s.qs s.io.queues).map (fun o => (⟨b + 1, o⟩ : ThreadEv Place Mutex)) := rfl
          rw [heq, ← List.append_assoc]
          exact ⟨h1.ordO.append (fun a ha => (hm a ha).1) fun _ => hJ,
            h1.ordG.append (fun a ha => (hm a ha).1) fun ⟨a, ha, hx⟩ => absurd hx (hm a ha).2,
            h1.idx.append fun a ha hx => absurd hx (hm a ha).2, (fun h => nomatch h), (fun h => nomatch h)⟩
      · simp only [IoQ.step, IoQ.finish] at hs
        rw [if_neg hc] at hs
        cases hs
        simp only [IoQ.touch, hd, Bool.false_eq_true, and_false, if_false, List.map_nil, List.append_nil]
        exact hk

theorem Own.trace (A : QTouch Q) (hQ : Q.Correct num sz R) (as : List (Nat × QAct)) {s : IoQ σ Q} {tr : Evs}
    (h : Own num R s tr) {s' : IoQ σ Q} {tr' : Evs} (hs : s.trace A as = .ok (s', tr')) : Own num R s' (tr ++ tr') := by
  induction as generalizing s tr tr' with
  | nil =>
    cases hs
    rw [List.append_nil]; exact h
  | cons a as ih =>
    obtain ⟨b, a⟩ := a
    obtain ⟨s1, h1, hs⟩ := Exec.bind_eq_ok.1 hs
    obtain ⟨⟨s2, tr2⟩, h2, hs⟩ := Exec.bind_eq_ok.1 hs
    cases hs
    rw [← List.append_assoc]
    exact ih (h.step A hQ h1 b) h2

theorem Own.init (hQ : Q.Correct num sz R) {opt : IothrOptions} (hn : num.toNat = opt.inputQueueSize)
    {w : Writer σ} {s : IoQ σ Q} (hs : IoQ.init Q sz opt w = some s) : Own num R s [] := by
  obtain ⟨s0, h1, h2, h3⟩ := Link.init hQ hn w
  rw [hs] at h1
  cases h1
  exact ⟨h2, fun _ _ _ _ _ h => by simp at h, fun _ _ _ _ _ h => by simp at h, .none (by simp), fun _ _ => .none (by simp),
    fun _ _ => .none (by simp)⟩

end IoQ
end Fstrm
