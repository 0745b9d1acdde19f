import Verif.Lemmas.IothrQueuesFair
import Verif.Lemmas.IothrProgress
import Verif.Lemmas.QueueBounded
import Verif.Spec.IothrQueuesProgress

/-!
# Payloads leave their queue, access by access
-/

set_option autoImplicit false

namespace Fstrm

open Iothr
open QGhost (upd upd_same upd_ne)

variable {σ : Type}

/-- Queues do not get longer than they may. -/
theorem Iothr.Trs.cap {s s' : Iothr σ} (t : Trs s s')
    (h : ∀ q, (s.waiting q).length ≤ s.opt.inputQueueSize - 1) :
    ∀ q, (s'.waiting q).length ≤ s'.opt.inputQueueSize - 1 := by
  refine t.inv (P := fun s => ∀ q, (s.waiting q).length ≤ s.opt.inputQueueSize - 1) ?_ h
  intro s s' hc t
  have shorter : ∀ {i : Nat} {x : Entry} {rest : List Entry} {s' : Iothr σ}, s.queues[i]? = some (x :: rest) →
      s'.queues = s.queues.set i rest → ∀ q, (s'.waiting q).length ≤ s.opt.inputQueueSize - 1 := by
    intro i x rest s' h1 h2 q
    rw [waiting_set h1 h2 q]
    split
    · rename_i hq
      have := hc q
      unfold waiting at this
      rw [← hq, h1] at this
      simp only [Option.getD_some, List.length_cons] at this
      omega
    · exact hc q
  cases t with
  | inserted t e q wk sig h1 h2 h3 h4 h5 =>
    intro j
    rw [waiting_set (s := s) h3 rfl j]
    split
    · simp only [List.length_append, List.length_cons, List.length_nil]; omega
    · exact hc j
  | push i x rest h1 h2 h3 h4 => exact shorter h2 rfl
  | drop i x rest h1 h2 h3 => exact shorter h2 rfl
  | finish r rdwr =>
    intro q
    have : Iothr.waiting (σ := σ) { s with
        writer := { s.writer with rdwr := rdwr }
        queues := s.queues.map fun _ => [], destroyed := true
        log := s.log ++ freeEvs s.queues.flatten ++ [.destroyed] } q = [] := by
      unfold waiting
      rw [List.getElem?_map]
      cases s.queues[q]? <;> rfl
    rw [this]; exact Nat.zero_le _
  | _ => exact hc

/-- A payload that has left its queue does not come back. -/
theorem Iothr.Trs.stays_out {s s' : Iothr σ} (t : Trs s s') (hA : InvA s) {e : Entry}
    (he : e ∈ submits s.log) (hn : e ∉ s.queues.flatten) : e ∉ s'.queues.flatten := by
  refine (t.inv (P := fun s => InvA s ∧ e ∈ submits s.log ∧ e ∉ s.queues.flatten) ?_ ⟨hA, he, hn⟩).2.2
  intro s s' ⟨hA, he, hn⟩ t
  refine ⟨hA.tr t, ?_, ?_⟩
  · obtain ⟨x, hx⟩ := t.log
    rw [hx, submits_append]; exact List.mem_append_left _ he
  · have sub : ∀ {i : Nat} {x : Entry} {rest : List Entry}, s.queues[i]? = some (x :: rest) →
        e ∉ (s.queues.set i rest).flatten := by
      intro i x rest hq hm
      obtain ⟨l, hl, hel⟩ := List.mem_flatten.1 hm
      rcases List.mem_or_eq_of_mem_set hl with hl | rfl
      · exact hn (List.mem_flatten.2 ⟨l, hl, hel⟩)
      · exact hn (List.mem_flatten.2 ⟨_, List.mem_of_getElem? hq, by simp [hel]⟩)
    cases t with
    | inserted t e' q wk sig h1 h2 h3 h4 h5 =>
      intro hm
      obtain ⟨l, hl, hel⟩ := List.mem_flatten.1 hm
      rcases List.mem_or_eq_of_mem_set hl with hl | rfl
      · exact hn (List.mem_flatten.2 ⟨l, hl, hel⟩)
      · rcases List.mem_append.1 hel with hel | hel
        · exact hn (List.mem_flatten.2 ⟨_, List.mem_of_getElem? h3, hel⟩)
        · simp only [List.mem_singleton] at hel
          subst hel
          exact (hA.plt _ _ h2).2.2.1 (List.mem_map.2 ⟨e, he, rfl⟩)
    | push i x rest h1 h2 h3 h4 => exact sub h2
    | drop i x rest h1 h2 h3 => exact sub h2
    | finish =>
      intro hm
      obtain ⟨l, hl, hel⟩ := List.mem_flatten.1 hm
      obtain ⟨_, _, rfl⟩ := List.mem_map.1 hl
      cases hel
    | _ => exact hn

/-- A payload at the front of its queue is nowhere else. -/
theorem Iothr.taken_out {s s' : Iothr σ} (hA : InvA s) (hA' : InvA s') {e : Entry} {l2 : List Entry}
    (hw : s.waiting e.queue = e :: l2) (hw' : s'.waiting e.queue = l2) : e ∉ s'.queues.flatten := by
  intro hm
  obtain ⟨l, hl, hel⟩ := List.mem_flatten.1 hm
  obtain ⟨i, hi⟩ := List.mem_iff_getElem?.1 hl
  have hq := hA'.qid i l hi e hel
  subst hq
  have hm : e ∈ l2 := by rw [← hw']; unfold waiting; rw [hi]; exact hel
  have h1 := hA.held e
  have h2 := count_le_one hA.ids e
  have h3 : (s.waiting e.queue).count e ≤ s.queues.flatten.count e := by
    obtain ⟨l, hl', _, _⟩ := mem_waiting (s := s) (q := e.queue) (e := e) (by rw [hw]; simp)
    have : s.waiting e.queue = l := by unfold waiting; rw [hl']; rfl
    rw [this]
    exact (List.sublist_flatten_of_mem (List.mem_of_getElem? hl')).count_le _
  rw [hw] at h3
  have := List.count_pos_iff.2 hm
  simp at h3
  omega

theorem Iothr.processQueue_one {s s' : Iothr σ} {i : Nat} (h : s.processQueue i = .ok (1, s')) :
    s.waiting i ≠ [] := by
  unfold processQueue at h
  split at h
  · rename_i e rest hq
    unfold waiting; rw [hq]; simp
  · cases h

namespace IoQ

variable {Q : QImpl} {num sz : UInt32} {R : Q.S → QGhost → Prop} {M : Nat} {cl : Q.S → Nat}

/-- How a step of a client changes the queues: something is appended, and that is what is recent. -/
def Grows (s s' : IoQ σ Q) (G G' : Nat → QGhost) : Prop :=
  ∀ j, ∃ x, s'.io.waiting j = s.io.waiting j ++ x ∧ (G' j).taking = (G j).taking ∧
    (G' j).recent = (G j).recent + x.length

theorem Grows.same {s s' : IoQ σ Q} {G G' : Nat → QGhost} (h1 : s'.io.queues = s.io.queues)
    (h2 : ∀ q, (G' q).taking = (G q).taking ∧ (G' q).recent = (G q).recent) : Grows s s' G G' := by
  intro j
  refine ⟨[], ?_, (h2 j).1, (h2 j).2⟩
  unfold waiting; rw [h1]; simp

theorem Grows.trans {s s' s'' : IoQ σ Q} {G G' G'' : Nat → QGhost} (h1 : Grows s s' G G')
    (h2 : Grows s' s'' G' G'') : Grows s s'' G G'' := by
  intro j
  obtain ⟨x, a1, a2, a3⟩ := h1 j
  obtain ⟨y, b1, b2, b3⟩ := h2 j
  exact ⟨x ++ y, by rw [b1, a1, List.append_assoc], b2.trans a2, by rw [b3, a3, List.length_append]; omega⟩

theorem GLink.grows_effect {s s' : IoQ σ Q} {G : Nat → QGhost} (h : s.GLink G) {q t : Nat} {g' : QGhost}
    (hg : (G q).out (s.io.opt.inputQueueSize - 1) (.effect t) = some g') (hs : s.effect q t = .ok s') :
    Grows s s' G (upd G q g') := by
  have hw := h.wait q t
  unfold IoQ.effect at hs
  simp only [QGhost.out] at hg
  cases hwt : s.wait q t with
  | nil => rw [hwt] at hs; cases hs
  | cons e rest =>
    rw [hwt] at hw hs
    simp only [List.map_cons] at hw
    rw [hw] at hg
    simp only at hg hs
    split at hg
    · simp only [Option.some.injEq] at hg
      have hm : e ∈ s.wait q t := by rw [hwt]; simp
      have hp := h.pend q t e hm
      obtain ⟨hown, hwho⟩ := h.ac.own q t e hm
      obtain ⟨p1, p2, p3, p4⟩ := h.invA.plt _ _ hp
      obtain ⟨es, hes⟩ : ∃ es, s.io.queues[e.queue]? = some es := ⟨_, List.getElem?_eq_getElem p2⟩
      cases hs
      intro j
      have hj : Iothr.waiting ({ s.io with
          pending := fun id => if id = e.id then none else s.io.pending id
          queues := s.io.queues.modify e.queue (· ++ [e]) }.emit (.submitted e)) j =
          s.io.waiting j ++ if q = j then [e] else [] := by
        simp only [waiting, emit]
        rw [List.getElem?_modify, hown]
        by_cases hj : q = j
        · subst hj
          rw [← hown, hes]; simp
        · simp [hj]
      refine ⟨_, hj, ?_, ?_⟩
      · by_cases hj : j = q
        · subst hj; rw [upd_same, ← hg]
        · rw [upd_ne hj]
      · by_cases hj : j = q
        · subst hj; rw [upd_same, ← hg]; simp
        · rw [upd_ne hj, if_neg (fun h => hj h.symm)]; simp
    · cases hg

theorem GLink.grows_returned {s s' : IoQ σ Q} {G : Nat → QGhost} {q t : Nat} {ok : Bool}
    {sp : Nat} {g' : QGhost}
    (hg : (G q).out (s.io.opt.inputQueueSize - 1) (.ins t ok sp) = some g')
    (hs : s.returned q t ok sp = .ok s') : Grows s s' G (upd G q g') := by
  have hG : ∀ q', ((upd G q g') q').taking = (G q').taking ∧ ((upd G q g') q').recent = (G q').recent := by
    have : g'.taking = (G q).taking ∧ g'.recent = (G q).recent := by
      simp only [QGhost.out] at hg
      split at hg
      · split at hg
        · cases hg; exact ⟨rfl, rfl⟩
        · split at hg
          · cases hg
          · cases hg; exact ⟨rfl, rfl⟩
      · cases hg
    intro q'
    by_cases hq : q' = q
    · subst hq; rw [upd_same]; exact this
    · rw [upd_ne hq]; exact ⟨rfl, rfl⟩
  unfold IoQ.returned at hs
  split at hs
  · cases hs
  · rename_i e hcur
    simp only at hs
    split at hs
    · split at hs
      · cases hs
        obtain ⟨wk, hwk⟩ := signal_eq (s.io.emit .signal)
        simp only [hwk]
        exact .same rfl hG
      · cases hs
        exact .same rfl hG
    · cases hs
      exact .same rfl hG

theorem GLink.grows_outs (os : List QOut) {s s' : IoQ σ Q} {G : Nat → QGhost} (h : s.GLink G) {q : Nat}
    {g' : QGhost} (hg : (G q).outs (s.io.opt.inputQueueSize - 1) os = some g')
    (hs : s.outs q os = .ok s') : Grows s s' G (upd G q g') := by
  induction os generalizing s G with
  | nil =>
    cases hg; cases hs
    have : upd G q (G q) = G := by funext x; simp only [upd]; split <;> simp_all
    rw [this]; exact .same rfl fun _ => ⟨rfl, rfl⟩
  | cons o os ih =>
    obtain ⟨g1, h1, h2⟩ := Option.bind_eq_some_iff.1 hg
    obtain ⟨s1, e1, hs⟩ := Exec.bind_eq_ok.1 hs
    have step : s1.GLink (upd G q g1) ∧ Trs s.io s1.io ∧ Grows s s1 G (upd G q g1) := by
      cases o with
      | effect t =>
        obtain ⟨s2, a, b, c, _⟩ := h.effect h1
        have e1' : s.effect q t = .ok s1 := e1
        rw [e1'] at a; cases a
        exact ⟨b, c.trs, h.grows_effect h1 e1⟩
      | ins t ok sp =>
        obtain ⟨s2, a, b, c, _⟩ := h.returned h1
        have e1' : s.returned q t ok sp = .ok s1 := e1
        rw [e1'] at a; cases a
        exact ⟨b, c, grows_returned h1 e1⟩
    obtain ⟨a1, a2, a3⟩ := step
    have ho : s1.io.opt = s.io.opt :=
      a2.inv (P := fun x => x.opt = s.io.opt) (fun _ _ h t => t.opt.trans h) rfl
    have := ih a1 (by rw [upd_same, ho]; exact h2) hs
    have hu : upd (upd G q g1) q g' = upd G q g' := by funext x; simp only [upd]; split <;> rfl
    rw [hu] at this
    exact a3.trans this

/-- Remove calls do not get longer. -/
def Cls (cl : Q.S → Nat) (s s' : IoQ σ Q) : Prop :=
  ∀ (j : Nat) (c' : Q.S), s'.qs[j]? = some c' → ∃ c, s.qs[j]? = some c ∧ cl c' ≤ cl c

theorem Cls.same {s s' : IoQ σ Q} (h : s'.qs = s.qs) : Cls cl s s' := by
  intro j c' hj
  rw [h] at hj
  exact ⟨c', hj, Nat.le_refl _⟩

theorem Cls.set {s s' : IoQ σ Q} {i : Nat} {c c' : Q.S} (hc : s.qs[i]? = some c) (h : s'.qs = s.qs.set i c')
    (hle : cl c' ≤ cl c) : Cls cl s s' := by
  intro j d hj
  rw [h, List.getElem?_set] at hj
  split at hj
  · rename_i e
    subst e
    split at hj
    · cases hj; exact ⟨c, hc, hle⟩
    · cases hj
  · exact ⟨d, hj, Nat.le_refl _⟩

/-- The steps of clients, before the end. -/
theorem QLink.grows (hQ : Q.Correct num sz R) (hB : Q.ConsBounded num sz R M cl) {s s' : IoQ σ Q}
    {G : Nat → QGhost} (h : s.QLink num R G) {a : QAct} (ha : a.isIo = false)
    (hs : s.step a = .ok s') (hd : a = .finish → s'.io.destroyed = false) :
    ∃ G', s'.QLink num R G' ∧ Grows s s' G G' ∧ Cls cl s s' ∧ s'.io.pc = s.io.pc := by
  have outs : ∀ {q : Nat} {c c' : Q.S} {os : List QOut} {g' : QGhost}, s.qs[q]? = some c →
      (G q).outs (num.toNat - 1) os = some g' → R c' g' → cl c' ≤ cl c →
      { s with qs := s.qs.set q c' }.outs q os = .ok s' →
      ∃ G', s'.QLink num R G' ∧ Grows s s' G G' ∧ Cls cl s s' ∧ s'.io.pc = s.io.pc := by
    intro q c c' os g' hc h2 h3 hle hs
    rw [h.num] at h2
    have hg : GLink { s with qs := s.qs.set q c' } G :=
      ⟨h.g.invA, h.g.invG, ⟨h.g.ac.acct, h.g.ac.own, h.g.ac.curs⟩, h.g.alive, h.g.fifo, h.g.wait, h.g.calling,
        h.g.pend, h.g.key, h.g.nodup, h.g.loc, h.g.recent⟩
    obtain ⟨s1, a1, a2, a3, a4, a5⟩ := hg.outs os h2
    rw [hs] at a1; cases a1
    exact ⟨_, h.set a2 a4 h3 a3, hg.grows_outs os h2 hs, Cls.set hc a4 hle, a5.pc⟩
  cases a with
  | submit q t raw data f =>
    obtain ⟨s1, e1, ⟨G', e2, e3, e4, e5⟩, e6⟩ := h.submit' hQ q t raw data f
    have hs' : s.submit q t raw data f = .ok s' := hs
    rw [hs'] at e1; cases e1
    refine ⟨G', e2, .same e4 e3, ?_, e6.io.pc⟩
    unfold IoQ.submit at hs'
    split at hs'
    · cases hs'
    · split at hs'
      · cases hs'; exact .same rfl
      · rename_i c hc
        split at hs'
        · cases hs'; exact .same rfl
        · rename_i c' hi
          obtain ⟨io, _, hs'⟩ := Exec.bind_eq_ok.1 hs'
          split at hs'
          · cases hs'; exact .same rfl
          · cases hs'
            exact .set hc rfl (hB.insert _ _ _ _ hi)
  | prod q t k =>
    simp only [IoQ.step, IoQ.prod, h.g.alive, Bool.false_eq_true, if_false] at hs
    split at hs
    · cases hs; exact ⟨G, h, .same rfl fun _ => ⟨rfl, rfl⟩, .same rfl, rfl⟩
    · rename_i c hc
      obtain ⟨c', os, g', h1, h2, h3⟩ := hQ.prod _ _ t k (h.rel q c hc)
      rw [h1] at hs
      exact outs hc h2 h3 (hB.prod _ _ _ _ _ _ (h.rel q c hc) h1) hs
  | flush q b i =>
    simp only [IoQ.step, IoQ.flush, h.g.alive, Bool.false_eq_true, if_false] at hs
    split at hs
    · cases hs; exact ⟨G, h, .same rfl fun _ => ⟨rfl, rfl⟩, .same rfl, rfl⟩
    · rename_i c hc
      obtain ⟨c', os, g', h1, h2, h3⟩ := hQ.flush _ _ b i (h.rel q c hc)
      rw [h1] at hs
      exact outs hc h2 h3 (hB.flush _ _ _ _ _ _ (h.rel q c hc) h1) hs
  | getQueue =>
    have htr : Trs s.io s'.io := (h.link.step hQ hs).2
    simp only [IoQ.step] at hs
    obtain ⟨io, h1, hs⟩ := Exec.bind_eq_ok.1 hs
    cases hs
    have hq : io.queues = s.io.queues ∧ io.pc = s.io.pc ∧ SameQ s.io io := by
      unfold Iothr.getQueue at h1
      split at h1
      · cases h1
      · split at h1 <;> cases h1 <;>
        exact ⟨rfl, rfl, rfl, rfl, rfl, by simp [emit, submits_append, submits]⟩
    obtain ⟨q1, q2, q5⟩ := hq
    exact ⟨G, h.frame htr q5 (Or.inl q2), .same q1 fun _ => ⟨rfl, rfl⟩, .same rfl, q2⟩
  | io now wake k => cases ha
  | shutdown =>
    have htr : Trs s.io s'.io := (h.link.step hQ hs).2
    simp only [IoQ.step] at hs
    obtain ⟨io, h1, hs⟩ := Exec.bind_eq_ok.1 hs
    cases hs
    have hq : io.queues = s.io.queues ∧ io.pc = s.io.pc ∧ SameQ s.io io := by
      unfold Iothr.shutdown at h1
      split at h1
      · cases h1; exact ⟨rfl, rfl, .refl _⟩
      · cases h1
        obtain ⟨wk, hwk⟩ := signal_eq ({ s.io with shutting := true }.emit .shutdown)
        rw [hwk]
        exact ⟨rfl, rfl, rfl, rfl, rfl, by simp [emit, submits_append, submits]⟩
    obtain ⟨q1, q2, q5⟩ := hq
    exact ⟨G, h.frame htr q5 (Or.inl q2), .same q1 fun _ => ⟨rfl, rfl⟩, .same rfl, q2⟩
  | finish =>
    simp only [IoQ.step] at hs
    rcases h.finish hQ with e | ⟨hq, e⟩
    · rw [e] at hs; cases hs; exact ⟨G, h, .same rfl fun _ => ⟨rfl, rfl⟩, .same rfl, rfl⟩
    · rw [e] at hs
      obtain ⟨io, h1, hs⟩ := Exec.bind_eq_ok.1 hs
      cases hs
      unfold Iothr.finish at h1
      split at h1
      · obtain ⟨⟨r, rdwr⟩, _, h1⟩ := Exec.bind_eq_ok.1 h1
        cases h1
        have hd := hd rfl
        rw [freeAll_eq] at hd
        cases hd
      · cases h1; exact ⟨G, h, .same rfl fun _ => ⟨rfl, rfl⟩, .same rfl, rfl⟩

/-- Is the entry with `l2` behind it one that the look at queue `q` in progress may miss? -/
def late (G : Nat → QGhost) (q : Nat) (l2 : List Entry) : Nat :=
  if (G q).taking = true ∧ l2.length < (G q).recent then 1 else 0

theorem late_le (G : Nat → QGhost) (q : Nat) (l2 : List Entry) : late G q l2 ≤ 1 := by
  unfold late; split <;> omega

theorem late_none {G : Nat → QGhost} {q : Nat} (h : (G q).taking = false) (l2 : List Entry) : late G q l2 = 0 := by
  unfold late; rw [if_neg (by rw [h]; simp)]

theorem late_zero {G : Nat → QGhost} {q : Nat} (h : (G q).recent = 0) (l2 : List Entry) : late G q l2 = 0 := by
  unfold late; rw [if_neg (by omega)]

theorem Grows.waiting {s s' : IoQ σ Q} {G G' : Nat → QGhost} (h : Grows s s' G G') {q : Nat} {e : Entry}
    {l1 l2 : List Entry} (hw : s.io.waiting q = l1 ++ e :: l2) :
    ∃ l2', s'.io.waiting q = l1 ++ e :: l2' ∧ late G' q l2' = late G q l2 := by
  obtain ⟨x, h1, h2, h3⟩ := h q
  refine ⟨l2 ++ x, by rw [h1, hw]; simp, ?_⟩
  unfold late
  rw [h2, h3, List.length_append]
  simp only [Nat.add_lt_add_iff_right]

/-- The bound on the remove calls. -/
def Cb (M : Nat) (cl : Q.S → Nat) (s : IoQ σ Q) : Prop := ∀ (j : Nat) (c : Q.S), s.qs[j]? = some c → cl c ≤ M

theorem Cb.cls {s s' : IoQ σ Q} (h : Cb M cl s) (hc : Cls cl s s') : Cb M cl s' := by
  intro j c hj
  obtain ⟨c', h1, h2⟩ := hc j c hj
  exact Nat.le_trans h2 (h j c' h1)

theorem Cb.set {s s' : IoQ σ Q} (h : Cb M cl s) {i : Nat} {c : Q.S} (hs : s'.qs = s.qs.set i c)
    (hc : cl c ≤ M) : Cb M cl s' := by
  intro j d hj
  rw [hs, List.getElem?_set] at hj
  split at hj
  · split at hj
    · cases hj; exact hc
    · cases hj
  · exact h j d hj

/-- How long the remove call at the cursor still is. -/
def curCl (cl : Q.S → Nat) (s : IoQ σ Q) : Nat := ((s.qs[cursor s.io.pc]?).map cl).getD 0

theorem Cb.cur {s : IoQ σ Q} (h : Cb M cl s) : curCl cl s ≤ M := by
  unfold curCl
  cases hc : s.qs[cursor s.io.pc]? with
  | none => exact Nat.zero_le _
  | some c => exact h _ c hc

theorem Cls.cur {s s' : IoQ σ Q} (h : Cls cl s s') (hp : s'.io.pc = s.io.pc) : curCl cl s' ≤ curCl cl s := by
  unfold curCl
  rw [hp]
  cases hc : s'.qs[cursor s.io.pc]? with
  | none => exact Nat.zero_le _
  | some c =>
    obtain ⟨c', h1, h2⟩ := h _ c hc
    rw [h1]; exact h2

theorem take_cl (hB : Q.ConsBounded num sz R M cl) (hQ : Q.Correct num sz R) {s s1 : IoQ σ Q} {G : Nat → QGhost}
    (h : s.QLink num R G) (hcb : Cb M cl s) {i k : Nat} {r : Option Nat} (ht : s.take i k = .ok (r, s1)) :
    ∃ c0 c, s.qs[i]? = some c0 ∧ s1.qs = s.qs.set i c ∧ cl c ≤ M ∧
      (r = none → s1 = { s with qs := s.qs.set i c } ∧ (cl c < cl c0 ∨ c = c0)) := by
  unfold IoQ.take at ht
  split at ht
  · cases ht
  · rename_i c0 hc0
    split at ht
    · rename_i c hrem
      cases ht
      have := hB.remove _ _ hrem
      have := hcb i c0 hc0
      exact ⟨c0, c, hc0, rfl, by omega, fun _ => ⟨rfl, Or.inl (by omega)⟩⟩
    · rename_i hrem
      have htk := hQ.removing _ _ (h.rel i c0 hc0) hrem
      obtain ⟨⟨c, r'⟩, h1, ht⟩ := Exec.bind_eq_ok.1 ht
      have hb := hB.cons _ _ _ _ _ (h.rel i c0 hc0) htk h1
      have hM := hcb i c0 hc0
      simp only at ht
      cases r' with
      | none =>
        cases ht
        rcases hb with ⟨_, hb⟩ | ⟨hb, _⟩
        · refine ⟨c0, c, hc0, rfl, ?_, fun _ => ⟨rfl, hb⟩⟩
          rcases hb with hb | rfl
          · omega
          · exact hM
        · exact absurd rfl hb
      | some r' =>
        replace hb : cl c ≤ M := by
          rcases hb with ⟨hb, _⟩ | ⟨_, hb⟩
          · cases hb
          · exact hb
        cases r' with
        | none =>
          cases ht
          exact ⟨c0, c, hc0, rfl, hb, nofun⟩
        | some x =>
          simp only at ht
          split at ht
          · split at ht
            · obtain ⟨io, _, ht⟩ := Exec.bind_eq_ok.1 ht
              cases ht
              exact ⟨c0, c, hc0, rfl, hb, nofun⟩
            · cases ht
          · cases ht

/-- An access of a look at queue `i`, followed by a move of the program counter to `pc n` if the look is over. -/
theorem QLink.look (hQ : Q.Correct num sz R) (hB : Q.ConsBounded num sz R M cl) {s s1 : IoQ σ Q} {G : Nat → QGhost}
    (h : s.QLink num R G) (hcb : Cb M cl s) {i k : Nat} (hat : Iothr.At s.io i) (pc : Nat → IoPc)
    (hp0 : (∀ t, s.io.pc = .drain i t → ∀ es, s.io.queues[i]? = some es → ∀ e ∈ es, e ∉ s.io.old) →
      PcStep s.io (pc 0))
    (hp1 : ∀ io : Iothr σ, io.pc = s.io.pc → io.opt = s.io.opt → PcStep io (pc 1))
    {r : Option Nat} (ht : s.take i k = .ok (r, s1)) :
    (r = none ∧ (s1 = s ∨ s1.io = s.io ∧ Cb M cl s1 ∧ (∃ c0 c, s.qs[i]? = some c0 ∧ s1.qs[i]? = some c ∧ cl c < cl c0) ∧
      ∃ G', s1.QLink num R G' ∧ ∀ q l2, late G' q l2 ≤ late G q l2)) ∨
    (r = some 0 ∧ s1.io = s.io ∧ ∃ G', QLink num R { s1 with io := { s1.io with pc := pc 0 } } G' ∧
      Cb M cl { s1 with io := { s1.io with pc := pc 0 } } ∧ (∀ q, (G' q).taking = false) ∧
      (G i).taking = true ∧ (s.io.waiting i).length ≤ (G i).recent) ∨
    (r = some 1 ∧ s.io.processQueue i = .ok (1, s1.io) ∧
      ∃ G', QLink num R { s1 with io := { s1.io with pc := pc 1 } } G' ∧
      Cb M cl { s1 with io := { s1.io with pc := pc 1 } } ∧ ∀ q, (G' q).taking = false) := by
  have hi : i < s.io.opt.numInputQueues := by
    cases hat with
    | work t hp hi => exact hi
    | drain t hp hi => exact hi
  obtain ⟨c0, c, hc0, hqs, hcM, hcn⟩ := take_cl hB hQ h hcb ht
  rcases h.take hQ hat k with ⟨c', e1, G', e2, e3⟩ | ⟨c', G', e1, e2, e3, e4, e5⟩ | ⟨c', G', e1, e2⟩
  · rw [e1] at ht; cases ht
    refine Or.inl ⟨rfl, ?_⟩
    obtain ⟨hs1, hlt⟩ := hcn rfl
    rcases hlt with hlt | rfl
    · refine Or.inr ⟨rfl, hcb.set hqs hcM, ⟨c0, c, hc0, ?_, hlt⟩, G', e2, fun q l2 => ?_⟩
      · rw [hqs, List.getElem?_set_self (List.getElem?_eq_some_iff.1 hc0).1]
      · rcases e3 with e3 | rfl
        · by_cases hq : q = i
          · subst hq; rw [late_zero e3]; exact Nat.zero_le _
          · rw [late_none]
            · exact Nat.zero_le _
            · cases ht : (G' q).taking with
              | false => rfl
              | true =>
                exfalso
                obtain ⟨_, t, h2⟩ := e2.g.loc q ht
                have h2 : s.io.pc = .work q t ∨ s.io.pc = .drain q t := h2
                cases hat with
                | work t' hp _ => rw [hp] at h2; rcases h2 with h2 | h2 <;> cases h2; exact hq rfl
                | drain t' hp _ => rw [hp] at h2; rcases h2 with h2 | h2 <;> cases h2; exact hq rfl
        · exact Nat.le_refl _
    · refine Or.inl ?_
      rw [hs1]
      have : s.qs.set i c = s.qs := by
        apply List.ext_getElem?
        intro j
        rw [List.getElem?_set]
        split
        · rename_i hj
          subst hj
          rw [hc0, if_pos (List.getElem?_eq_some_iff.1 hc0).1]
        · rfl
      rw [this]
  · rw [e1] at ht; cases ht
    refine Or.inr (Or.inl ⟨rfl, rfl, G', e2.setPc _ (hp0 e5) e3, hcb.set hqs hcM, e3, e4.1, ?_⟩)
    unfold waiting
    cases hes : s.io.queues[i]? with
    | none => simp
    | some es => exact e4.2 es hes
  · rw [e1] at ht
    obtain ⟨⟨n, io⟩, h2, ht⟩ := Exec.bind_eq_ok.1 ht
    cases ht
    obtain ⟨rfl, e3, e4⟩ := e2 n io h2
    obtain ⟨t1, t2, t3, t4, _, _⟩ := processQueue_ok h2 hat
    exact Or.inr (Or.inr ⟨rfl, h2, G', e3.setPc _ (hp1 io t2 t3) e4, hcb.set hqs hcM, e4⟩)

/-- How far an entry is from being taken. -/
def rank (M : Nat) (cl : Q.S → Nat) (s : IoQ σ Q) (G : Nat → QGhost) (q : Nat) (l1 l2 : List Entry) : Nat :=
  ((late G q l2 + l1.length) * (s.io.opt.numInputQueues + 3) + dist s.io.opt.numInputQueues q s.io.pc) * (M + 1) +
    curCl cl s

theorem QLink.other {s : IoQ σ Q} {G : Nat → QGhost} (h : s.QLink num R G)
    {now : Nat} {wake : Wake} {io : Iothr σ}
    (hn : ∀ i t, s.io.pc = .work i t ∨ s.io.pc = .drain i t → ¬ i < s.io.opt.numInputQueues)
    (hio : s.io.ioStep now wake = .ok io) :
    (∀ q, (G q).taking = false) ∧ QLink num R { s with io := io } G := by
  have hno : ∀ q, (G q).taking = false := by
    intro q
    cases ht : (G q).taking with
    | false => rfl
    | true =>
      obtain ⟨h1, t, h2⟩ := h.g.loc q ht
      exact absurd h1 (hn q t h2)
  exact ⟨hno, h.frame (ioStep_trs hio) (ioStep_sameQ hio hn) (Or.inr hno)⟩

/-- The cases of a step of the I/O thread. -/
theorem ioStep_cases {s s' : IoQ σ Q} {now : Nat} {wake : Wake} {k : Nat} (hs : s.ioStep now wake k = .ok s') :
    (∃ io, (∀ i t, s.io.pc = .work i t ∨ s.io.pc = .drain i t → ¬ i < s.io.opt.numInputQueues) ∧
      s.io.ioStep now wake = .ok io ∧ s' = { s with io := io }) ∨
    (∃ i t r s1, (s.io.pc = .work i t) ∧ i < s.io.opt.numInputQueues ∧ s.take i k = .ok (r, s1) ∧
      (r = none → s' = s1) ∧ ∀ n, r = some n → s' = { s1 with io := { s1.io with pc := .work (i + 1) (t + n) } }) ∨
    (∃ i t r s1, (s.io.pc = .drain i t) ∧ i < s.io.opt.numInputQueues ∧ s.take i k = .ok (r, s1) ∧
      (r = none → s' = s1) ∧ ∀ n, r = some n → s' = { s1 with io := { s1.io with pc := .drain (i + 1) (t + n) } }) := by
  unfold IoQ.ioStep at hs
  split at hs
  · rename_i i total hp
    split at hs
    · rename_i hi
      obtain ⟨⟨r, s1⟩, h1, hs⟩ := Exec.bind_eq_ok.1 hs
      refine Or.inr (Or.inl ⟨i, total, r, s1, hp, hi, h1, ?_⟩)
      cases r with
      | none => cases hs; exact ⟨fun _ => rfl, nofun⟩
      | some n => cases hs; exact ⟨nofun, fun n h => by cases h; rfl⟩
    · rename_i hi
      obtain ⟨io, h1, hs⟩ := Exec.bind_eq_ok.1 hs
      cases hs
      refine Or.inl ⟨io, ?_, h1, rfl⟩
      intro j t hj
      rw [hp] at hj
      rcases hj with hj | hj
      · cases hj; exact hi
      · cases hj
  · rename_i i total hp
    split at hs
    · rename_i hi
      obtain ⟨⟨r, s1⟩, h1, hs⟩ := Exec.bind_eq_ok.1 hs
      refine Or.inr (Or.inr ⟨i, total, r, s1, hp, hi, h1, ?_⟩)
      cases r with
      | none => cases hs; exact ⟨fun _ => rfl, nofun⟩
      | some n => cases hs; exact ⟨nofun, fun n h => by cases h; rfl⟩
    · rename_i hi
      obtain ⟨io, h1, hs⟩ := Exec.bind_eq_ok.1 hs
      cases hs
      refine Or.inl ⟨io, ?_, h1, rfl⟩
      intro j t hj
      rw [hp] at hj
      rcases hj with hj | hj
      · cases hj
      · cases hj; exact hi
  · rename_i hp1 hp2
    obtain ⟨io, h1, hs⟩ := Exec.bind_eq_ok.1 hs
    cases hs
    refine Or.inl ⟨io, ?_, h1, rfl⟩
    intro j t hj
    rcases hj with hj | hj
    · exact absurd hj (hp1 j t)
    · exact absurd hj (hp2 j t)

theorem rank_lt {s s' : IoQ σ Q} {G G' : Nat → QGhost} {q : Nat} {l1 l2 l1' l2' : List Entry}
    (hcb : Cb M cl s') (ho : s'.io.opt = s.io.opt)
    (h : (late G' q l2' + l1'.length) * (s.io.opt.numInputQueues + 3) + dist s.io.opt.numInputQueues q s'.io.pc <
      (late G q l2 + l1.length) * (s.io.opt.numInputQueues + 3) + dist s.io.opt.numInputQueues q s.io.pc) :
    rank M cl s' G' q l1' l2' < rank M cl s G q l1 l2 := by
  unfold rank
  rw [ho]
  have h1 := hcb.cur
  have h2 := Nat.mul_le_mul_right (M + 1) (Nat.succ_le_of_lt h)
  rw [Nat.succ_mul] at h2
  omega

/-- A step of the I/O thread that changes anything brings an entry nearer to being taken. -/
theorem QLink.nearer (hQ : Q.Correct num sz R) (hB : Q.ConsBounded num sz R M cl) {s s' : IoQ σ Q}
    {G : Nat → QGhost} (h : s.QLink num R G) (hcb : Cb M cl s)
    {now : Nat} {wake : Wake} {k : Nat} (hs : s.ioStep now wake k = .ok s') (hsh : s.io.shutting = false)
    {e : Entry} {q : Nat} (hq : q < s.io.opt.numInputQueues)
    {l1 l2 : List Entry} (hw : s.io.waiting q = l1 ++ e :: l2) :
    s' = s ∨ ∃ G', s'.QLink num R G' ∧ Cb M cl s' ∧ ((l1 = [] ∧ s'.io.waiting q = l2) ∨
      ∃ l1', s'.io.waiting q = l1' ++ e :: l2 ∧ rank M cl s' G' q l1' l2 < rank M cl s G q l1 l2) := by
  have ho : s'.io.opt = s.io.opt :=
    (h.link.step hQ (a := .io now wake k) hs).2.inv (P := fun x => x.opt = s.io.opt)
      (fun _ _ h t => t.opt.trans h) rfl
  rcases ioStep_cases hs with ⟨io, hn, hio, rfl⟩ | ⟨i, t, r, s1, hp, hi, ht, hr0, hr1⟩ | ⟨i, t, _, _, hp, _⟩
  · obtain ⟨hno, hl⟩ := h.other hn hio
    rcases ioStep_nearer hio h.g.invG hsh hq hw with ⟨_, rfl⟩ | ⟨e1, e2⟩ | ⟨l1', e1, e2⟩
    · exact Or.inl rfl
    · exact Or.inr ⟨G, hl, hcb, Or.inl ⟨e1, e2⟩⟩
    · refine Or.inr ⟨G, hl, hcb, Or.inr ⟨l1', e1, rank_lt hcb ho ?_⟩⟩
      rw [late_none (hno q), Nat.zero_add, Nat.zero_add]
      exact e2
  · rcases h.look hQ hB hcb (.work t hp hi) (fun n => .work (i + 1) (t + n))
      (fun _ => PcStep.workNext (s := s.io) i t (t + 0) hp)
      (fun io h1 _ => PcStep.workNext (s := io) i t (t + 1) (h1.trans hp)) ht with
      ⟨rfl, hl⟩ | ⟨rfl, hio, G', e1, e2, e3, e4, e5⟩ | ⟨rfl, hpq, G', e1, e2, e3⟩
    · have hr0 := hr0 rfl
      subst hr0
      rcases hl with rfl | ⟨hio, hcb', ⟨c0, c, g1, g2, g3⟩, G', hl, hlate⟩
      · exact Or.inl rfl
      · refine Or.inr ⟨G', hl, hcb', Or.inr ⟨l1, by rw [hio]; exact hw, ?_⟩⟩
        unfold rank
        have hc : curCl cl s' < curCl cl s := by
          unfold curCl
          rw [hio, hp]
          simp only [cursor, g1, g2, Option.map_some, Option.getD_some]
          exact g3
        rw [hio]
        have := Nat.mul_le_mul_right (M + 1) (Nat.add_le_add_right (Nat.mul_le_mul_right
          (s.io.opt.numInputQueues + 3) (Nat.add_le_add_right (hlate q l2) l1.length))
          (dist s.io.opt.numInputQueues q s.io.pc))
        omega
    · have hr1 := hr1 0 rfl
      subst hr1
      refine Or.inr ⟨G', e1, e2, Or.inr ⟨l1, ?_, rank_lt e2 ho ?_⟩⟩
      · show Iothr.waiting { s1.io with pc := _ } q = _
        have : Iothr.waiting { s1.io with pc := .work (i + 1) (t + 0) } q = s1.io.waiting q := rfl
        rw [this, hio]; exact hw
      · rw [late_none (e3 q), Nat.zero_add, hp]
        simp only [dist]
        by_cases hiq : i = q
        · subst hiq
          have : late G i l2 = 1 := by
            unfold late
            rw [hw] at e5
            simp only [List.length_append, List.length_cons] at e5
            rw [if_pos ⟨e4, by omega⟩]
          rw [this, Nat.add_mul, if_neg (by omega), if_pos (Nat.le_refl _)]
          omega
        · have := late_le G q l2
          have h3 : l1.length * (s.io.opt.numInputQueues + 3) ≤
            (late G q l2 + l1.length) * (s.io.opt.numInputQueues + 3) := Nat.mul_le_mul_right _ (by omega)
          split <;> split <;> omega
    · have hr1 := hr1 1 rfl
      subst hr1
      have hwq : ∀ j, Iothr.waiting { s1.io with pc := .work (i + 1) (t + 1) } j = s1.io.waiting j := fun _ => rfl
      rcases processQueue_eff hpq with ⟨h0, h0'⟩ | ⟨x, rest, a, b, c, d⟩
      · exact absurd h0' (processQueue_one hpq)
      · by_cases hiq : i = q
        · subst hiq
          have hwe := waiting_set (s' := s1.io) a b i
          rw [if_pos rfl] at hwe
          have hx : s.io.waiting i = x :: rest := by unfold waiting; rw [a]; rfl
          rw [hx] at hw
          cases l1 with
          | nil =>
            simp only [List.nil_append, List.cons.injEq] at hw
            exact Or.inr ⟨G', e1, e2, Or.inl ⟨rfl, (hwq i).trans (hwe.trans hw.2)⟩⟩
          | cons y l1 =>
            simp only [List.cons_append, List.cons.injEq] at hw
            refine Or.inr ⟨G', e1, e2, Or.inr ⟨l1, (hwq i).trans (hwe.trans hw.2), rank_lt e2 ho ?_⟩⟩
            rw [late_none (e3 i), Nat.zero_add, hp]
            have h3 : (l1.length + 1) * (s.io.opt.numInputQueues + 3) ≤
              (late G i l2 + (y :: l1).length) * (s.io.opt.numInputQueues + 3) :=
              Nat.mul_le_mul_right _ (by simp only [List.length_cons]; omega)
            rw [Nat.add_mul] at h3
            simp only [dist]
            split <;> split <;> omega
        · have hwe := waiting_set (s' := s1.io) a b q
          rw [if_neg hiq] at hwe
          refine Or.inr ⟨G', e1, e2, Or.inr ⟨l1, (hwq q).trans (hwe.trans hw), rank_lt e2 ho ?_⟩⟩
          rw [late_none (e3 q), Nat.zero_add, hp]
          have h3 : l1.length * (s.io.opt.numInputQueues + 3) ≤
            (late G q l2 + l1.length) * (s.io.opt.numInputQueues + 3) := Nat.mul_le_mul_right _ (by omega)
          simp only [dist]
          split <;> split <;> omega
  · have := h.g.invG.drain i t hp
    rw [hsh] at this; cases this

end IoQ
end Fstrm

namespace Fstrm

open Iothr Spec

variable {σ : Type} {Q : QImpl} {num sz : UInt32} {R : Q.S → QGhost → Prop} {M : Nat} {cl : Q.S → Nat}

theorem Spec.Moves.run {s s' : IoQ σ Q} {as : List QAct} {n : Nat} (h : Moves s as n s') : s.run as = .ok s' := by
  induction h with
  | nil s => rfl
  | other h _ _ ih => simp only [IoQ.run, h, Exec.ok_bind, ih]
  | still h _ _ ih => simp only [IoQ.run, h, Exec.ok_bind, ih]
  | moved h _ _ _ ih => simp only [IoQ.run, h, Exec.ok_bind, ih]

/-- Steps of the I/O thread that change what `g` shows of the state. Not in the code; for examples. -/
def seenMoves {β : Type} [DecidableEq β] (g : IoQ σ Q → β) : IoQ σ Q → List QAct → Nat
  | _, [] => 0
  | s, a :: as =>
    match s.step a with
    | .error _ => 0
    | .ok s1 => (if a.isIo && decide (g s1 ≠ g s) then 1 else 0) + seenMoves g s1 as

/-- Every execution is one with some number of moves. -/
theorem Spec.Moves.of_run {β : Type} [DecidableEq β] (g : IoQ σ Q → β) {s s' : IoQ σ Q} (as : List QAct)
    (h : s.run as = .ok s') : ∃ n, Moves s as n s' ∧ seenMoves g s as ≤ n := by
  induction as generalizing s with
  | nil => cases h; exact ⟨0, .nil _, Nat.le_refl _⟩
  | cons a as ih =>
    obtain ⟨s1, h1, h2⟩ := Exec.bind_eq_ok.1 h
    obtain ⟨n, e1, e2⟩ := ih h2
    have hr : seenMoves g s (a :: as) = (if a.isIo && decide (g s1 ≠ g s) then 1 else 0) + seenMoves g s1 as := by
      simp only [seenMoves, h1]
    rw [hr]
    cases ha : a.isIo with
    | false => exact ⟨n, .other h1 ha e1, by simpa using e2⟩
    | true =>
      by_cases hc : s1 = s
      · subst hc
        exact ⟨n, .still h1 ha e1, by simpa using e2⟩
      · exact ⟨n + 1, .moved h1 ha hc e1, by split <;> omega⟩

namespace IoQ

theorem Link.undestroyed {s : IoQ σ Q} (h : s.Link num R) {io : Iothr σ} (t : Trs s.io io)
    (hs : IoEv.shutdown ∉ io.log) : s.io.shutting = false ∧ s.io.destroyed = false := by
  have hsh : s.io.shutting = false := by
    cases hc : s.io.shutting with
    | false => rfl
    | true =>
      obtain ⟨x, hx⟩ := t.log
      exact absurd (by rw [hx]; exact List.mem_append_left _ (h.invG.shut.1 hc)) hs
  refine ⟨hsh, ?_⟩
  cases hd : s.io.destroyed with
  | false => rfl
  | true =>
    have := (h.invG.exited (h.invA.dest hd).1).1
    rw [hsh] at this; cases this

/-- With every move of the I/O thread an entry gets nearer to being taken. -/
theorem QLink.progress (hQ : Q.Correct num sz R) (hB : Q.ConsBounded num sz R M cl) {s s' : IoQ σ Q}
    {as : List QAct} {n : Nat} (hm : Moves s as n s') {G : Nat → QGhost} (h : s.QLink num R G) (hcb : Cb M cl s)
    (hs : IoEv.shutdown ∉ s'.io.log) {e : Entry} (hq : e.queue < s.io.opt.numInputQueues)
    {l1 l2 : List Entry} (hw : s.io.waiting e.queue = l1 ++ e :: l2)
    (hin : e ∈ s'.io.queues.flatten) : n ≤ rank M cl s G e.queue l1 l2 := by
  induction hm generalizing G l1 l2 with
  | nil s => exact Nat.zero_le _
  | @other s s1 s' a as n h1 ha hm ih =>
    obtain ⟨hl1, t1⟩ := h.link.step hQ h1
    have t2 := (hl1.run hQ _ hm.run).2
    obtain ⟨_, hd⟩ := hl1.undestroyed t2 hs
    obtain ⟨G', e1, e2, e3, e4⟩ := h.grows hQ hB ha h1 fun _ => hd
    have ho : s1.io.opt = s.io.opt := t1.inv (P := fun x => x.opt = s.io.opt) (fun _ _ h t => t.opt.trans h) rfl
    obtain ⟨l2', w1, w2⟩ := e2.waiting hw
    refine Nat.le_trans (ih e1 (hcb.cls e3) hs (by rw [ho]; exact hq) w1 hin) ?_
    unfold rank
    rw [ho, e4, w2]
    have := e3.cur e4
    omega
  | still h1 ha hm ih => exact ih h hcb hs hq hw hin
  | @moved s s1 s' a as n h1 ha hc hm ih =>
    cases a with
    | io now wake k =>
      obtain ⟨hl1, t1⟩ := h.link.step hQ h1
      have t2 := (hl1.run hQ _ hm.run).2
      obtain ⟨hsh, _⟩ := h.link.undestroyed (t1.trans t2) hs
      have ho : s1.io.opt = s.io.opt := t1.inv (P := fun x => x.opt = s.io.opt) (fun _ _ h t => t.opt.trans h) rfl
      rcases h.nearer hQ hB hcb (show s.ioStep now wake k = .ok s1 from h1) hsh hq hw with
        e0 | ⟨G', e1, e2, ⟨rfl, e3⟩ | ⟨l1', e3, e4⟩⟩
      · exact absurd e0 hc
      · exfalso
        refine absurd hin (t2.stays_out hl1.invA ?_ (taken_out h.link.invA hl1.invA hw e3))
        obtain ⟨x, hx⟩ := t1.log
        have hm : e ∈ submits s.io.log := h.link.invA.mem_queues (by
          obtain ⟨_, _, _, hf⟩ := mem_waiting (s := s.io) (q := e.queue) (e := e) (by rw [hw]; simp)
          exact hf)
        rw [hx, submits_append]; exact List.mem_append_left _ hm
      · have := ih e1 e2 hs (by rw [ho]; exact hq) e3 hin
        omega
    | _ => cases ha

/-- The I/O thread does not begin to wait. -/
theorem QLink.awake (hQ : Q.Correct num sz R) (hB : Q.ConsBounded num sz R M cl) {s s' : IoQ σ Q}
    {a : QAct} {G : Nat → QGhost} (h : s.QLink num R G) (hcb : Cb M cl s) (hs : s.step a = .ok s')
    (hd : s'.io.destroyed = false)
    {e : Entry} (hq : e.queue < s.io.opt.numInputQueues) {l1 l2 : List Entry}
    (hw : s.io.waiting e.queue = l1 ++ e :: l2) (h1 : s.io.asleep = false) (h2 : late G e.queue l2 = 0)
    (h3 : ∀ i, s.io.pc = .work i 0 → i ≤ e.queue) (hin : e ∈ s'.io.queues.flatten) :
    ∃ G' l1' l2', s'.QLink num R G' ∧ Cb M cl s' ∧ s'.io.waiting e.queue = l1' ++ e :: l2' ∧
      s'.io.asleep = false ∧ late G' e.queue l2' = 0 ∧ ∀ i, s'.io.pc = .work i 0 → i ≤ e.queue := by
  obtain ⟨hl', t1⟩ := h.link.step hQ hs
  have hw' : ∃ l1 l2, s'.io.waiting e.queue = l1 ++ e :: l2 := by
    obtain ⟨l, hl, hel⟩ := List.mem_flatten.1 hin
    obtain ⟨i, hi⟩ := List.mem_iff_getElem?.1 hl
    have := hl'.invA.qid i l hi e hel
    exact List.append_of_mem (by rw [this]; unfold waiting; rw [hi]; exact hel)
  have client : a.isIo = false → ∃ G' l1' l2', s'.QLink num R G' ∧ Cb M cl s' ∧
      s'.io.waiting e.queue = l1' ++ e :: l2' ∧ s'.io.asleep = false ∧ late G' e.queue l2' = 0 ∧
      ∀ i, s'.io.pc = .work i 0 → i ≤ e.queue := by
    intro ha
    obtain ⟨G', e1, e2, e3, e4⟩ := h.grows hQ hB ha hs fun _ => hd
    obtain ⟨l2', w1, w2⟩ := e2.waiting hw
    refine ⟨G', l1, l2', e1, hcb.cls e3, w1, ?_, w2.trans h2, ?_⟩
    · unfold asleep at h1 ⊢; rw [e4]; exact h1
    · rw [e4]; exact h3
  cases a with
  | io now wake k =>
    obtain ⟨m1, m2, hm⟩ := hw'
    rcases ioStep_cases (show s.ioStep now wake k = .ok s' from hs) with
      ⟨io, hn, hio, rfl⟩ | ⟨i, t, r, s1, hp, hi, ht, hr0, hr1⟩ | ⟨i, t, r, s1, hp, hi, ht, hr0, hr1⟩
    · obtain ⟨hno, hl⟩ := h.other hn hio
      refine ⟨G, m1, m2, hl, hcb, hm, ?_, late_none (hno _) _, ?_⟩
      · -- it goes to sleep only from `work N 0`
        unfold Iothr.ioStep at hio
        split at hio
        · obtain ⟨s1, _, hio⟩ := Exec.bind_eq_ok.1 hio
          cases hio; rfl
        · split at hio
          · cases hio; rfl
          · obtain ⟨s1, _, hio⟩ := Exec.bind_eq_ok.1 hio
            cases hio; rfl
        · rename_i i total hp
          have hni := hn i total (Or.inl hp)
          rw [if_neg hni] at hio
          split at hio
          · cases hio; rfl
          · rename_i h0
            have h0 : total = 0 := Decidable.byContradiction h0
            subst h0
            have := h3 i hp
            omega
        · rename_i i total hp
          have hni := hn i total (Or.inr hp)
          rw [if_neg hni] at hio
          split at hio
          · cases hio; rfl
          · obtain ⟨s1, _, hio⟩ := Exec.bind_eq_ok.1 hio
            obtain ⟨s2, _, hio⟩ := Exec.bind_eq_ok.1 hio
            cases hio; rfl
        · rename_i d hp
          unfold asleep at h1; rw [hp] at h1; cases h1
        · cases hio; exact h1
      · intro i hpi
        have hpi : io.pc = .work i 0 := hpi
        unfold Iothr.ioStep at hio
        split at hio
        · obtain ⟨s1, _, hio⟩ := Exec.bind_eq_ok.1 hio
          cases hio; cases hpi
        · split at hio
          · cases hio; cases hpi
          · obtain ⟨s1, _, hio⟩ := Exec.bind_eq_ok.1 hio
            cases hio; cases hpi; exact Nat.zero_le _
        · rename_i i total hp
          have hni := hn i total (Or.inl hp)
          rw [if_neg hni] at hio
          split at hio
          · cases hio; cases hpi
          · cases hio; cases hpi
        · rename_i i total hp
          have hni := hn i total (Or.inr hp)
          rw [if_neg hni] at hio
          split at hio
          · cases hio; cases hpi
          · obtain ⟨s1, _, hio⟩ := Exec.bind_eq_ok.1 hio
            obtain ⟨s2, _, hio⟩ := Exec.bind_eq_ok.1 hio
            cases hio; cases hpi
        · rename_i d hp
          unfold asleep at h1; rw [hp] at h1; cases h1
        · cases hio; exact h3 i hpi
    · rcases h.look hQ hB hcb (.work t hp hi) (fun n => .work (i + 1) (t + n))
        (fun _ => PcStep.workNext (s := s.io) i t (t + 0) hp)
        (fun io h1 _ => PcStep.workNext (s := io) i t (t + 1) (h1.trans hp)) ht with
        ⟨rfl, hl⟩ | ⟨rfl, hio, G', e1, e2, e3, e4, e5⟩ | ⟨rfl, hpq, G', e1, e2, e3⟩
      · have hr0 := hr0 rfl
        subst hr0
        rcases hl with rfl | ⟨hio, hcb', _, G', hl, hlate⟩
        · exact ⟨G, l1, l2, h, hcb, hw, h1, h2, h3⟩
        · refine ⟨G', l1, l2, hl, hcb', by rw [hio]; exact hw, by rw [hio]; exact h1, ?_, by rw [hio]; exact h3⟩
          have := hlate e.queue l2
          omega
      · have hr1 := hr1 0 rfl
        subst hr1
        refine ⟨G', m1, m2, e1, e2, hm, rfl, late_none (e3 _) _, fun j hj => ?_⟩
        have hj : IoPc.work (i + 1) (t + 0) = .work j 0 := hj
        simp only [IoPc.work.injEq] at hj
        obtain ⟨rfl, ht0⟩ := hj
        have ht0 : t = 0 := ht0
        subst ht0
        have hle := h3 i hp
        by_cases hie : i = e.queue
        · exfalso
          subst hie
          rw [hw] at e5
          simp only [List.length_append, List.length_cons] at e5
          unfold late at h2
          rw [if_pos ⟨e4, by omega⟩] at h2
          cases h2
        · omega
      · have hr1 := hr1 1 rfl
        subst hr1
        refine ⟨G', m1, m2, e1, e2, hm, rfl, late_none (e3 _) _, fun j hj => ?_⟩
        have hj : IoPc.work (i + 1) (t + 1) = .work j 0 := hj
        simp at hj
    · rcases h.look hQ hB hcb (.drain t hp hi) (fun n => .drain (i + 1) (t + n))
        (fun e5 => PcStep.drainNext (s := s.io) i t (t + 0) hp hi fun h0 =>
          ⟨by omega, fun es hes e he => e5 t hp es hes e he⟩)
        (fun io h1 h2 => PcStep.drainNext (s := io) i t (t + 1) (h1.trans hp) (h2 ▸ hi)
          fun h0 => absurd h0 (by omega)) ht with
        ⟨rfl, hl⟩ | ⟨rfl, hio, G', e1, e2, e3, e4, e5⟩ | ⟨rfl, hpq, G', e1, e2, e3⟩
      · have hr0 := hr0 rfl
        subst hr0
        rcases hl with rfl | ⟨hio, hcb', _, G', hl, hlate⟩
        · exact ⟨G, l1, l2, h, hcb, hw, h1, h2, h3⟩
        · refine ⟨G', l1, l2, hl, hcb', by rw [hio]; exact hw, by rw [hio]; exact h1, ?_, by rw [hio]; exact h3⟩
          have := hlate e.queue l2
          omega
      · have hr1 := hr1 0 rfl
        subst hr1
        refine ⟨G', m1, m2, e1, e2, hm, rfl, late_none (e3 _) _, fun j hj => ?_⟩
        have hj : IoPc.drain (i + 1) (t + 0) = .work j 0 := hj
        cases hj
      · have hr1 := hr1 1 rfl
        subst hr1
        refine ⟨G', m1, m2, e1, e2, hm, rfl, late_none (e3 _) _, fun j hj => ?_⟩
        have hj : IoPc.drain (i + 1) (t + 1) = .work j 0 := hj
        cases hj
  | _ => exact client rfl

/-- The bound on the remove calls holds always. -/
theorem Link.cb_step (hQ : Q.Correct num sz R) (hB : Q.ConsBounded num sz R M cl) {s s' : IoQ σ Q}
    (h : s.Link num R) (hcb : Cb M cl s) {a : QAct} (hs : s.step a = .ok s') : Cb M cl s' := by
  cases hd : s.io.destroyed with
  | true => rw [h.dead hd hs]; exact hcb
  | false =>
    obtain ⟨G, hl⟩ := h.live hd
    cases a with
    | io now wake k =>
      rcases ioStep_cases (show s.ioStep now wake k = .ok s' from hs) with
        ⟨io, hn, hio, rfl⟩ | ⟨i, t, r, s1, hp, hi, ht, hr0, hr1⟩ | ⟨i, t, r, s1, hp, hi, ht, hr0, hr1⟩
      · exact hcb
      all_goals
        obtain ⟨c0, c, _, hqs, hcM, _⟩ := take_cl hB hQ hl hcb ht
        cases r with
        | none => rw [hr0 rfl]; exact hcb.set hqs hcM
        | some n => rw [hr1 n rfl]; exact hcb.set (s' := { s1 with io := _ }) hqs hcM
    | finish =>
      rcases hl.finish hQ with e | ⟨_, e⟩
      · have hs : s.finish = .ok s' := hs
        rw [e] at hs; cases hs; exact hcb
      · have hs : s.finish = .ok s' := hs
        rw [e] at hs
        obtain ⟨io, _, hs⟩ := Exec.bind_eq_ok.1 hs
        cases hs; exact hcb
    | _ =>
      obtain ⟨_, _, _, e3, _⟩ := hl.grows hQ hB rfl hs nofun
      exact hcb.cls e3

end IoQ
end Fstrm
