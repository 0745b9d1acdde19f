import Verif.Lemmas.QueueImpl
import Verif.Lemmas.IothrLive

/-!
# The I/O thread over its queues behaves like the I/O thread over atomic queues
-/

set_option autoImplicit false

namespace Fstrm

open Iothr Spec
open QGhost (upd upd_same upd_ne)

variable {σ : Type}

/-! ## What steps of the I/O thread leave alone -/

/-- Everything clients see of the queues is the same. -/
structure SameQ (s s' : Iothr σ) : Prop where
  queues : s'.queues = s.queues
  pending : s'.pending = s.pending
  destroyed : s'.destroyed = s.destroyed
  submits : submits s'.log = submits s.log

theorem SameQ.refl (s : Iothr σ) : SameQ s s := ⟨rfl, rfl, rfl, rfl⟩

theorem SameQ.trans {a b c : Iothr σ} (h1 : SameQ a b) (h2 : SameQ b c) : SameQ a c :=
  ⟨h2.queues.trans h1.queues, h2.pending.trans h1.pending, h2.destroyed.trans h1.destroyed,
    h2.submits.trans h1.submits⟩

theorem close_sameQ {s s' : Iothr σ} (h : s.close = .ok s') : SameQ s s' := by
  rcases close_ok h with ⟨_, rfl⟩ | ⟨_, r, w, _, rfl⟩
  · exact .refl _
  · exact ⟨rfl, rfl, rfl, by simp [submits_append, submits]⟩

theorem freeOutq_sameQ (s : Iothr σ) : SameQ s s.freeOutq := by
  rw [freeOutq_eq]
  exact ⟨rfl, rfl, rfl, by simp [submits_append, submits_freeEvs]⟩

theorem flush_sameQ {s s' : Iothr σ} (h : s.flush = .ok s') : SameQ s s' := by
  unfold flush at h
  split at h
  · obtain ⟨⟨r, w⟩, h1, h⟩ := Exec.bind_eq_ok.1 h
    have h0 : SameQ s ({ s with writer := w }.emit (.write s.outq r)) :=
      ⟨rfl, rfl, rfl, by simp [emit, submits_append, submits]⟩
    simp only at h
    split at h
    · obtain ⟨s1, h2, h⟩ := Exec.bind_eq_ok.1 h
      cases h
      exact (h0.trans (close_sameQ h2)).trans (freeOutq_sameQ _)
    · cases h
      exact h0.trans (freeOutq_sameQ _)
  · cases h
    exact freeOutq_sameQ _

theorem maybeOpen_sameQ {s s' : Iothr σ} {now : Nat} (h : s.maybeOpen now = .ok s') : SameQ s s' := by
  unfold maybeOpen at h
  split at h
  · cases h; exact .refl _
  · split at h
    · cases h; exact .refl _
    · obtain ⟨⟨r, w⟩, h1, h⟩ := Exec.bind_eq_ok.1 h
      cases h
      exact ⟨rfl, rfl, rfl, by simp [emit, submits_append, submits]⟩

theorem processEntry_sameQ {s s' : Iothr σ} {e : Entry} (h : s.processEntry e = .ok s') : SameQ s s' := by
  unfold processEntry at h
  split at h
  · obtain ⟨s1, h1, h⟩ := Exec.bind_eq_ok.1 h
    split at h
    · cases h
    · cases h
      have h2 : SameQ s s1 := by
        unfold maybeFlush at h1
        split at h1
        · cases h1
        · split at h1
          · exact flush_sameQ h1
          · cases h1; exact .refl _
      exact ⟨h2.queues, h2.pending, h2.destroyed, h2.submits⟩
  · cases h
    rw [freeEntry_eq]
    exact ⟨rfl, rfl, rfl, by simp [submits_append, submits_freeEvs]⟩

/-- A step of the I/O thread that is not about to look at a queue. -/
theorem ioStep_sameQ {s s' : Iothr σ} {now : Nat} {wake : Wake} (h : s.ioStep now wake = .ok s')
    (hn : ∀ i t, s.pc = .work i t ∨ s.pc = .drain i t → ¬ i < s.opt.numInputQueues) : SameQ s s' := by
  unfold ioStep at h
  split at h
  · obtain ⟨s1, h1, h⟩ := Exec.bind_eq_ok.1 h
    cases h
    have := maybeOpen_sameQ h1
    exact ⟨this.queues, this.pending, this.destroyed, this.submits⟩
  · split at h
    · cases h; exact ⟨rfl, rfl, rfl, rfl⟩
    · obtain ⟨s1, h1, h⟩ := Exec.bind_eq_ok.1 h
      cases h
      have := maybeOpen_sameQ h1
      exact ⟨this.queues, this.pending, this.destroyed, this.submits⟩
  · rename_i i t hp
    rw [if_neg (hn i t (Or.inl hp))] at h
    split at h
    · cases h; exact ⟨rfl, rfl, rfl, rfl⟩
    · cases h; exact ⟨rfl, rfl, rfl, rfl⟩
  · rename_i i t hp
    rw [if_neg (hn i t (Or.inr hp))] at h
    split at h
    · cases h; exact ⟨rfl, rfl, rfl, rfl⟩
    · obtain ⟨s1, h1, h⟩ := Exec.bind_eq_ok.1 h
      obtain ⟨s2, h2, h⟩ := Exec.bind_eq_ok.1 h
      cases h
      have := (flush_sameQ h1).trans (close_sameQ h2)
      exact ⟨this.queues, this.pending, this.destroyed, this.submits⟩
  · split at h
    · split at h
      · obtain ⟨s1, h1, h⟩ := Exec.bind_eq_ok.1 h
        cases h
        have := flush_sameQ h1
        exact ⟨this.queues, this.pending, this.destroyed, this.submits⟩
      · cases h; exact .refl _
    · split at h <;> (cases h; exact ⟨rfl, rfl, rfl, rfl⟩)
    · cases h; exact ⟨rfl, rfl, rfl, rfl⟩
  · cases h; exact .refl _

theorem signal_sameQ (s : Iothr σ) : SameQ s s.signal := by
  obtain ⟨wk, h⟩ := signal_eq s
  rw [h]; exact ⟨rfl, rfl, rfl, rfl⟩

/-- Everything the I/O thread has for itself is the same. -/
structure SameIo (s s' : Iothr σ) : Prop where
  writer : s'.writer = s.writer
  outq : s'.outq = s.outq
  pc : s'.pc = s.pc
  opened : s'.opened = s.opened
  lastOpen : s'.lastOpen = s.lastOpen
  calls : calls s'.log = calls s.log
  handed : handed s'.log = handed s.log

theorem SameIo.refl (s : Iothr σ) : SameIo s s := ⟨rfl, rfl, rfl, rfl, rfl, rfl, rfl⟩

theorem SameIo.trans {a b c : Iothr σ} (h1 : SameIo a b) (h2 : SameIo b c) : SameIo a c :=
  ⟨h2.writer.trans h1.writer, h2.outq.trans h1.outq, h2.pc.trans h1.pc, h2.opened.trans h1.opened,
    h2.lastOpen.trans h1.lastOpen, h2.calls.trans h1.calls, h2.handed.trans h1.handed⟩

/-! ## The connection between the queues and their contents -/

namespace IoQ

variable {Q : QImpl}

/-- The struct of a submission. -/
def rawOf (s : IoQ σ Q) (e : Entry) : Bytes := s.raw e.id

/-- What became of the submissions of a thread to a queue: those that have taken effect and those
that have not are those for which submit has returned success and the one in progress. -/
structure Acct (s : IoQ σ Q) : Prop where
  acct : ∀ q t, s.mine q t (submits s.io.log) ++ s.wait q t = s.mine q t s.rets ++ (s.cur q t).toList
  own : ∀ q t e, e ∈ s.wait q t → e.queue = q ∧ s.who e.id = t
  curs : ∀ q t e, s.cur q t = some e → e.queue = q ∧ s.who e.id = t

/-- The ghost state of the queues agrees with the rest of the state. -/
structure GLink (s : IoQ σ Q) (G : Nat → QGhost) : Prop where
  invA : InvA s.io
  invG : InvG s.io
  ac : s.Acct
  alive : s.io.destroyed = false
  fifo : ∀ (q : Nat) (es : List Entry), s.io.queues[q]? = some es → (G q).fifo = es.map s.rawOf
  wait : ∀ q t, (G q).wait t = (s.wait q t).map s.rawOf
  calling : ∀ q t, (G q).calling t = (s.cur q t).isSome
  pend : ∀ q t e, e ∈ s.wait q t → s.io.pending e.id = some e
  key : ∀ id e, s.io.pending id = some e → e.id = id
  nodup : ∀ q t, (s.wait q t).Nodup
  loc : ∀ q, (G q).taking = true →
    q < s.io.opt.numInputQueues ∧ ∃ t, s.io.pc = .work q t ∨ s.io.pc = .drain q t
  recent : ∀ (q t : Nat) (es : List Entry), s.io.pc = .drain q t → (G q).taking = true →
    s.io.queues[q]? = some es → ∀ e ∈ es.drop (es.length - (G q).recent), e ∉ s.io.old

/-- The queues are in states that agree with their contents. -/
structure QLink (num : UInt32) (R : Q.S → QGhost → Prop) (s : IoQ σ Q) (G : Nat → QGhost) : Prop where
  g : s.GLink G
  len : s.qs.length = s.io.queues.length
  rel : ∀ (q : Nat) (c : Q.S), s.qs[q]? = some c → R c (G q)
  num : num.toNat = s.io.opt.inputQueueSize

/-- The same, also after the object has been destroyed. -/
structure Link (num : UInt32) (R : Q.S → QGhost → Prop) (s : IoQ σ Q) : Prop where
  invA : InvA s.io
  invG : InvG s.io
  ac : s.Acct
  live : s.io.destroyed = false → ∃ G, s.QLink num R G
  fin : s.io.destroyed = true → ∀ q t, (s.wait q t).length ≤ (s.cur q t).toList.length

theorem QLink.link {num : UInt32} {R : Q.S → QGhost → Prop} {s : IoQ σ Q} {G : Nat → QGhost}
    (h : s.QLink num R G) : s.Link num R := 
  ⟨h.g.invA, h.g.invG, h.g.ac, fun _ => ⟨G, h⟩, fun hd => by rw [h.g.alive] at hd; cases hd⟩

/-- A later state still has the same payloads submitted before the shutdown, when draining. -/
theorem old_trs {s s' : Iothr σ} (h : Trs s s') (hg : InvG s) (hs : s.shutting = true) : s'.old = s.old := by
  obtain ⟨x, hx⟩ := h.log
  unfold old
  rw [hx, old_append (hg.shut.1 hs)]
  rfl

theorem InvG.trs {s s' : Iothr σ} (ha : InvA s) (hg : InvG s) (h : Trs s s') : InvG s' :=
  (h.inv (P := fun s => InvA s ∧ InvG s) (fun _ _ h t => ⟨h.1.tr t, h.2.tr h.1 t⟩) ⟨ha, hg⟩).2

theorem Acct.frame {s s' : IoQ σ Q} (h : s.Acct) (h1 : submits s'.io.log = submits s.io.log)
    (h2 : s'.who = s.who) (h3 : s'.wait = s.wait) (h4 : s'.cur = s.cur) (h5 : s'.rets = s.rets) : s'.Acct := by
  obtain ⟨a, b, c⟩ := h
  refine ⟨fun q t => ?_, fun q t e he => ?_, fun q t e he => ?_⟩
  · have := a q t
    simp only [mine] at this ⊢
    rw [h1, h2, h3, h4, h5]; exact this
  · rw [h2]; exact b q t e (h3 ▸ he)
  · rw [h2]; exact c q t e (h4 ▸ he)

/-- A step of the I/O thread or a client that does not touch the queues. -/
theorem GLink.frame {s : IoQ σ Q} {G : Nat → QGhost} (h : s.GLink G) {io : Iothr σ} (t : Trs s.io io)
    (hs : SameQ s.io io) (hpc : io.pc = s.io.pc ∨ ∀ q, (G q).taking = false) :
    GLink { s with io := io } G := by
  have ho : io.opt = s.io.opt := t.inv (P := fun x => x.opt = s.io.opt) (fun _ _ h t => t.opt.trans h) rfl
  refine ⟨h.invA.trs t, InvG.trs h.invA h.invG t, h.ac.frame hs.submits rfl rfl rfl rfl,
    hs.destroyed.trans h.alive, ?_, h.wait, h.calling, ?_, ?_, h.nodup, ?_, ?_⟩
  · intro q es hq
    exact h.fifo q es (hs.queues ▸ hq)
  · intro q t e he
    show io.pending e.id = some e
    rw [hs.pending]; exact h.pend q t e he
  · intro id e he
    exact h.key id e (hs.pending ▸ he)
  · intro q hq
    rcases hpc with hpc | hpc
    · show q < io.opt.numInputQueues ∧ ∃ t, io.pc = _ ∨ io.pc = _
      rw [ho, hpc]; exact h.loc q hq
    · rw [hpc q] at hq; cases hq
  · intro q t' es hp hq hes e he
    rcases hpc with hpc | hpc
    · simp only at hp hes
      rw [hpc] at hp
      rw [hs.queues] at hes
      rw [old_trs t h.invG (h.invG.drain q t' hp)]
      exact h.recent q t' es hp hq hes e he
    · rw [hpc q] at hq; cases hq

theorem GLink.lt_queues {s : IoQ σ Q} {G : Nat → QGhost} (h : s.GLink G) {q : Nat} {es : List Entry}
    (hq : s.io.queues[q]? = some es) {e : Entry} (he : e ∈ es) : e.id < s.io.nextId :=
  h.invA.lt e (h.invA.mem_queues (List.mem_flatten.2 ⟨es, List.mem_of_getElem? hq, he⟩))

theorem GLink.lt_wait {s : IoQ σ Q} {G : Nat → QGhost} (h : s.GLink G) {q t : Nat} {e : Entry}
    (he : e ∈ s.wait q t) : e.id < s.io.nextId := (h.invA.plt _ _ (h.pend q t e he)).1

theorem Acct.mem_rets {s : IoQ σ Q} (h : s.Acct) {e : Entry} (he : e ∈ s.rets) :
    e ∈ submits s.io.log ∨ e ∈ s.wait e.queue (s.who e.id) := by
  have h1 : e ∈ s.mine e.queue (s.who e.id) s.rets := by
    simp [mine, onQueue, he]
  have h2 : e ∈ s.mine e.queue (s.who e.id) (submits s.io.log) ++ s.wait e.queue (s.who e.id) := by
    rw [h.acct]; exact List.mem_append_left _ h1
  rcases List.mem_append.1 h2 with h2 | h2
  · simp only [mine, onQueue, List.mem_filter] at h2
    exact Or.inl h2.1.1
  · exact Or.inr h2

theorem upd2_same {α : Type} (f : Nat → Nat → α) (a b : Nat) (x : α) : upd2 f a b x a b = x := by
  simp [upd2]

theorem upd2_ne {α : Type} {f : Nat → Nat → α} {a b a' b' : Nat} {x : α} (h : ¬ (a' = a ∧ b' = b)) :
    upd2 f a b x a' b' = f a' b' := by
  simp only [upd2, if_neg h]

/-! ### Effects and returns -/

/-- An insertion takes effect. -/
theorem GLink.effect {s : IoQ σ Q} {G : Nat → QGhost} (h : s.GLink G) {q t : Nat} {g' : QGhost}
    (hg : (G q).out (s.io.opt.inputQueueSize - 1) (.effect t) = some g') :
    ∃ s', s.effect q t = .ok s' ∧ s'.GLink (upd G q g') ∧ Tr s.io s'.io ∧ s'.qs = s.qs ∧
      SameIo s.io s'.io := by
  have hw := h.wait q t
  simp only [QGhost.out] at hg
  cases hwt : s.wait q t with
  | nil => rw [hwt] at hw; rw [hw] at hg; cases hg
  | cons e rest =>
    rw [hwt] at hw
    simp only [List.map_cons] at hw
    rw [hw] at hg
    simp only at hg
    split at hg
    · rename_i hlt
      simp only [Option.some.injEq] at hg
      have hm : e ∈ s.wait q t := by rw [hwt]; simp
      have hp := h.pend q t e hm
      obtain ⟨hown, hwho⟩ := h.ac.own q t e hm
      obtain ⟨p1, p2, p3, p4⟩ := h.invA.plt _ _ hp
      rw [hown] at p2
      obtain ⟨es, hes⟩ : ∃ es, s.io.queues[q]? = some es := ⟨_, List.getElem?_eq_getElem p2⟩
      have hfifo := h.fifo q es hes
      have hlen : es.length < s.io.opt.inputQueueSize - 1 := by
        rw [hfifo] at hlt; simpa using hlt
      have hmod : s.io.queues.modify e.queue (· ++ [e]) = s.io.queues.set q (es ++ [e]) := by
        rw [hown]
        refine List.ext_getElem? fun i => ?_
        rw [List.getElem?_modify, List.getElem?_set]
        by_cases hi : q = i
        · subst hi; rw [hes]; simp [p2]
        · simp [hi]
      have htr := Tr.inserted s.io e.id e es s.io.woken [] h.alive hp (by rw [hown]; exact hes) hlen (Or.inl rfl)
      have hnd := h.nodup q t
      rw [hwt] at hnd
      have hsub : submits (s.io.log ++ [IoEv.submitted e]) = submits s.io.log ++ [e] := by
        simp [submits_append, submits]
      rw [List.append_nil, hown] at htr
      have heq : s.effect q t = .ok { s with
          io := { s.io with
            pending := fun t' => if t' = e.id then none else s.io.pending t'
            queues := s.io.queues.set q (es ++ [e])
            woken := s.io.woken
            log := s.io.log ++ [.submitted e] }
          wait := upd2 s.wait q t rest } := by
        simp only [IoQ.effect, hwt, hmod]; rfl
      refine ⟨_, heq, ?_, htr, rfl, ⟨rfl, rfl, rfl, rfl, rfl,
        by simp [calls_append, calls], by simp [handed_append, handed]⟩⟩
      · clear heq
        have hother : ∀ q' t' e', e' ∈ upd2 s.wait q t rest q' t' → e' ∈ s.wait q' t' ∧ e'.id ≠ e.id := by
          intro q' t' e' he'
          by_cases hqt : q' = q ∧ t' = t
          · obtain ⟨rfl, rfl⟩ := hqt
            rw [upd2_same] at he'
            have hm' : e' ∈ s.wait q' t' := by rw [hwt]; simp [he']
            refine ⟨hm', fun hid => ?_⟩
            have := h.pend q' t' e' hm'
            rw [hid, hp] at this
            cases this
            exact (List.nodup_cons.1 hnd).1 he'
          · rw [upd2_ne hqt] at he'
            refine ⟨he', fun hid => hqt ?_⟩
            have := h.pend q' t' e' he'
            rw [hid, hp] at this
            cases this
            obtain ⟨o1, o2⟩ := h.ac.own q' t' e he'
            exact ⟨o1.symm.trans hown, o2.symm.trans hwho⟩
        refine ⟨h.invA.tr htr, h.invG.tr h.invA htr, ⟨?_, ?_, h.ac.curs⟩, h.alive, ?_, ?_, ?_, ?_, ?_, ?_, ?_, ?_⟩
        · intro q' t'
          simp only [mine, hsub]
          have ha := h.ac.acct q' t'
          simp only [mine] at ha
          rw [onQueue_append, List.filter_append, onQueue_single]
          by_cases hqt : q' = q ∧ t' = t
          · obtain ⟨rfl, rfl⟩ := hqt
            rw [upd2_same, if_pos hown, ← ha, hwt]
            simp [hwho]
          · rw [upd2_ne hqt, ← ha]
            by_cases hq' : e.queue = q'
            · rw [if_pos hq']
              have : ¬ s.who e.id = t' := fun hx => hqt ⟨hq'.symm.trans hown, hx.symm.trans hwho⟩
              simp [this]
            · rw [if_neg hq']; simp
        · intro q' t' e' he'
          exact h.ac.own q' t' e' (hother q' t' e' he').1
        · intro q' es' hq'
          simp only at hq'
          by_cases hqq : q' = q
          · subst hqq
            rw [List.getElem?_set_self p2] at hq'
            cases hq'
            rw [upd_same, ← hg]
            simp only [hfifo, List.map_append, List.map_cons, List.map_nil]
            rfl
          · rw [List.getElem?_set_ne (fun hx => hqq hx.symm)] at hq'
            rw [upd_ne hqq]
            exact h.fifo q' es' hq'
        · intro q' t'
          simp only
          by_cases hqq : q' = q
          · subst hqq
            rw [upd_same, ← hg]
            simp only
            by_cases htt : t' = t
            · subst htt; rw [upd_same, upd2_same]; rfl
            · rw [upd_ne htt, upd2_ne (fun hx => htt hx.2)]; exact h.wait q' t'
          · rw [upd_ne hqq, upd2_ne (fun hx => hqq hx.1)]; exact h.wait q' t'
        · intro q' t'
          by_cases hqq : q' = q
          · subst hqq
            rw [upd_same, ← hg]
            exact h.calling q' t'
          · rw [upd_ne hqq]; exact h.calling q' t'
        · intro q' t' e' he'
          obtain ⟨m1, m2⟩ := hother q' t' e' he'
          simp only
          rw [if_neg m2]; exact h.pend q' t' e' m1
        · intro id e' he'
          simp only at he'
          split at he'
          · cases he'
          · exact h.key id e' he'
        · intro q' t'
          simp only
          by_cases hqt : q' = q ∧ t' = t
          · obtain ⟨rfl, rfl⟩ := hqt
            rw [upd2_same]; exact (List.nodup_cons.1 hnd).2
          · rw [upd2_ne hqt]; exact h.nodup q' t'
        · intro q' hq'
          by_cases hqq : q' = q
          · subst hqq
            rw [upd_same, ← hg] at hq'
            exact h.loc q' hq'
          · rw [upd_ne hqq] at hq'; exact h.loc q' hq'
        · intro q' t' es' hpc hq' hes' e' he'
          simp only at hpc hes'
          have hshut := h.invG.drain q' t' hpc
          have hold := old_trs htr.trs h.invG hshut
          rw [hold]
          by_cases hqq : q' = q
          · subst hqq
            rw [List.getElem?_set_self p2] at hes'
            cases hes'
            rw [upd_same, ← hg] at hq' he'
            simp only [List.length_append, List.length_singleton] at he'
            have hd : ∀ x ∈ (es ++ [e]).drop (es.length + 1 - ((G q').recent + 1)),
                x ∈ es.drop (es.length - (G q').recent) ∨ x = e := by
              intro x hx
              rw [Nat.add_sub_add_right, List.drop_append_of_le_length (by omega)] at hx
              simpa using hx
            rcases hd e' he' with hx | rfl
            · exact h.recent q' t' es hpc hq' hes e' hx
            · intro ho
              obtain ⟨y, hy⟩ := beforeShutdown_split s.io.log
              apply p3
              rw [hy, submits_append, List.map_append]
              exact List.mem_append_left _ (List.mem_map_of_mem ho)
          · rw [List.getElem?_set_ne (fun hx => hqq hx.symm)] at hes'
            rw [upd_ne hqq] at hq' he'
            exact h.recent q' t' es' hpc hq' hes' e' he'
    · cases hg

/-- Changing what is called and what has returned. -/
theorem GLink.returned {s : IoQ σ Q} {G : Nat → QGhost} (h : s.GLink G) {q t : Nat} {ok : Bool} {sp : Nat}
    {g' : QGhost} (hg : (G q).out (s.io.opt.inputQueueSize - 1) (.ins t ok sp) = some g') :
    ∃ s', s.returned q t ok sp = .ok s' ∧ s'.GLink (upd G q g') ∧ Trs s.io s'.io ∧ s'.qs = s.qs ∧
      SameIo s.io s'.io := by
  have hc := h.calling q t
  simp only [QGhost.out] at hg
  split at hg
  · rename_i hcall
    rw [hcall] at hc
    obtain ⟨e, hcur⟩ : ∃ e, s.cur q t = some e := Option.isSome_iff_exists.1 hc.symm
    obtain ⟨ho1, ho2⟩ := h.ac.curs q t e hcur
    have hacct := h.ac.acct q t
    rw [hcur] at hacct
    simp only [Option.toList] at hacct
    have hcurs : ∀ q' t' e', upd2 s.cur q t none q' t' = some e' → s.cur q' t' = some e' := by
      intro q' t' e' he'
      by_cases hqt : q' = q ∧ t' = t
      · obtain ⟨rfl, rfl⟩ := hqt
        rw [upd2_same] at he'; cases he'
      · rw [upd2_ne hqt] at he'; exact he'
    cases ok with
    | true =>
      simp only [if_true, Option.some.injEq] at hg
      have hbase : GLink { s with cur := upd2 s.cur q t none, rets := s.rets ++ [e] } (upd G q g') := by
        refine ⟨h.invA, h.invG, ⟨?_, h.ac.own, fun q' t' e' he' => h.ac.curs q' t' e' (hcurs q' t' e' he')⟩,
          h.alive, ?_, ?_, ?_, h.pend, h.key, h.nodup, ?_, ?_⟩
        · intro q' t'
          simp only [mine]
          rw [onQueue_append, List.filter_append, onQueue_single]
          by_cases hqt : q' = q ∧ t' = t
          · obtain ⟨rfl, rfl⟩ := hqt
            rw [upd2_same, if_pos ho1]
            simp only [mine] at hacct
            simpa [ho2] using hacct
          · have ha := h.ac.acct q' t'
            simp only [mine] at ha
            rw [upd2_ne hqt, ha]
            by_cases hq' : e.queue = q'
            · rw [if_pos hq']
              have : ¬ s.who e.id = t' := fun hx => hqt ⟨hq'.symm.trans ho1, hx.symm.trans ho2⟩
              simp [this]
            · rw [if_neg hq']; simp
        · intro q' es' hq'
          by_cases hqq : q' = q
          · subst hqq; rw [upd_same, ← hg]; exact h.fifo q' es' hq'
          · rw [upd_ne hqq]; exact h.fifo q' es' hq'
        · intro q' t'
          by_cases hqq : q' = q
          · subst hqq; rw [upd_same, ← hg]; exact h.wait q' t'
          · rw [upd_ne hqq]; exact h.wait q' t'
        · intro q' t'
          simp only
          by_cases hqq : q' = q
          · subst hqq
            rw [upd_same, ← hg]
            simp only
            by_cases htt : t' = t
            · subst htt; rw [upd_same, upd2_same]; rfl
            · rw [upd_ne htt, upd2_ne (fun hx => htt hx.2)]; exact h.calling q' t'
          · rw [upd_ne hqq, upd2_ne (fun hx => hqq hx.1)]; exact h.calling q' t'
        · intro q' hq'
          by_cases hqq : q' = q
          · subst hqq; rw [upd_same, ← hg] at hq'; exact h.loc q' hq'
          · rw [upd_ne hqq] at hq'; exact h.loc q' hq'
        · intro q' t' es' hpc hq' hes' e' he'
          by_cases hqq : q' = q
          · subst hqq
            rw [upd_same, ← hg] at hq' he'
            exact h.recent q' t' es' hpc hq' hes' e' he'
          · rw [upd_ne hqq] at hq' he'; exact h.recent q' t' es' hpc hq' hes' e' he'
      simp only [IoQ.returned, hcur, if_true]
      split
      · obtain ⟨wk, hwk⟩ := signal_eq (s.io.emit .signal)
        have htr : Trs s.io (s.io.emit .signal).signal := by
          rw [hwk]; exact Tr.trs (Tr.signalled s.io wk)
        refine ⟨_, rfl, hbase.frame (io := (s.io.emit .signal).signal) htr ?_ (Or.inl ?_), htr, rfl, ?_⟩
        · rw [hwk]; exact ⟨rfl, rfl, rfl, by simp [emit, submits_append, submits]⟩
        · rw [hwk]; rfl
        · rw [hwk]
          exact ⟨rfl, rfl, rfl, rfl, rfl, by simp [emit, calls_append, calls],
            by simp [emit, handed_append, handed]⟩
      · exact ⟨_, rfl, hbase, .refl _, rfl, .refl _⟩
    | false =>
      simp only [Bool.false_eq_true, if_false] at hg
      split at hg
      · cases hg
      · rename_i hne
        simp only [Option.some.injEq] at hg
        have hwne : s.wait q t ≠ [] := by
          intro hx; apply hne; rw [h.wait, hx]; rfl
        have hlast : s.wait q t = (s.wait q t).dropLast ++ [e] := by
          have h1 := List.dropLast_concat_getLast hwne
          have h2 : (s.mine q t (submits s.io.log) ++ s.wait q t).getLast? = some e := by
            rw [hacct]; simp
          rw [List.getLast?_append, List.getLast?_eq_some_getLast hwne, Option.some_or] at h2
          cases h2
          exact h1.symm
        have hm : e ∈ s.wait q t := by rw [hlast]; simp
        have hp := h.pend q t e hm
        have htr := Tr.full s.io e.id e h.alive hp
        have hnd := h.nodup q t
        rw [hlast] at hnd
        have hother : ∀ q' t' e', e' ∈ upd2 s.wait q t (s.wait q t).dropLast q' t' →
            e' ∈ s.wait q' t' ∧ e'.id ≠ e.id := by
          intro q' t' e' he'
          by_cases hqt : q' = q ∧ t' = t
          · obtain ⟨rfl, rfl⟩ := hqt
            rw [upd2_same] at he'
            have hm' : e' ∈ s.wait q' t' := List.dropLast_subset _ he'
            refine ⟨hm', fun hid => ?_⟩
            have := h.pend q' t' e' hm'
            rw [hid, hp] at this
            cases this
            exact (List.nodup_append.1 hnd).2.2 e he' e (by simp) rfl
          · rw [upd2_ne hqt] at he'
            refine ⟨he', fun hid => hqt ?_⟩
            have := h.pend q' t' e' he'
            rw [hid, hp] at this
            cases this
            obtain ⟨o1, o2⟩ := h.ac.own q' t' e he'
            exact ⟨o1.symm.trans ho1, o2.symm.trans ho2⟩
        have hsub : submits (s.io.log ++ [IoEv.refused e.id .again]) = submits s.io.log := by
          simp [submits_append, submits]
        have heq : s.returned q t false sp = .ok { s with
            io := { s.io with
              pending := fun id => if id = e.id then none else s.io.pending id
              log := s.io.log ++ [.refused e.id .again] }
            cur := upd2 s.cur q t none
            wait := upd2 s.wait q t (s.wait q t).dropLast } := by
          simp only [IoQ.returned, hcur, Bool.false_eq_true, if_false]; rfl
        refine ⟨_, heq, ?_, htr.trs, rfl, ⟨rfl, rfl, rfl, rfl, rfl,
          by simp [calls_append, calls], by simp [handed_append, handed]⟩⟩
        clear heq
        refine ⟨h.invA.tr htr, h.invG.tr h.invA htr, ⟨?_, ?_, ?_⟩, h.alive, ?_, ?_, ?_, ?_, ?_, ?_, ?_, ?_⟩
        · intro q' t'
          simp only [mine, hsub]
          by_cases hqt : q' = q ∧ t' = t
          · obtain ⟨rfl, rfl⟩ := hqt
            rw [upd2_same, upd2_same]
            rw [hlast, ← List.append_assoc] at hacct
            have := List.append_inj_left' hacct rfl
            simp only [mine] at this
            simpa using this
          · rw [upd2_ne hqt, upd2_ne hqt]; exact h.ac.acct q' t'
        · intro q' t' e' he'
          exact h.ac.own q' t' e' (hother q' t' e' he').1
        · intro q' t' e' he'
          exact h.ac.curs q' t' e' (hcurs q' t' e' he')
        · intro q' es' hq'
          by_cases hqq : q' = q
          · subst hqq; rw [upd_same, ← hg]; exact h.fifo q' es' hq'
          · rw [upd_ne hqq]; exact h.fifo q' es' hq'
        · intro q' t'
          simp only
          by_cases hqq : q' = q
          · subst hqq
            rw [upd_same, ← hg]
            simp only
            by_cases htt : t' = t
            · subst htt; rw [upd_same, upd2_same, h.wait, List.map_dropLast]; rfl
            · rw [upd_ne htt, upd2_ne (fun hx => htt hx.2)]; exact h.wait q' t'
          · rw [upd_ne hqq, upd2_ne (fun hx => hqq hx.1)]; exact h.wait q' t'
        · intro q' t'
          simp only
          by_cases hqq : q' = q
          · subst hqq
            rw [upd_same, ← hg]
            simp only
            by_cases htt : t' = t
            · subst htt; rw [upd_same, upd2_same]; rfl
            · rw [upd_ne htt, upd2_ne (fun hx => htt hx.2)]; exact h.calling q' t'
          · rw [upd_ne hqq, upd2_ne (fun hx => hqq hx.1)]; exact h.calling q' t'
        · intro q' t' e' he'
          obtain ⟨m1, m2⟩ := hother q' t' e' he'
          simp only
          rw [if_neg m2]; exact h.pend q' t' e' m1
        · intro id e' he'
          simp only at he'
          split at he'
          · cases he'
          · exact h.key id e' he'
        · intro q' t'
          simp only
          by_cases hqt : q' = q ∧ t' = t
          · obtain ⟨rfl, rfl⟩ := hqt
            rw [upd2_same]; exact (List.nodup_append.1 hnd).1
          · rw [upd2_ne hqt]; exact h.nodup q' t'
        · intro q' hq'
          by_cases hqq : q' = q
          · subst hqq; rw [upd_same, ← hg] at hq'; exact h.loc q' hq'
          · rw [upd_ne hqq] at hq'; exact h.loc q' hq'
        · intro q' t' es' hpc hq' hes' e' he'
          have hpc' : s.io.pc = .drain q' t' := hpc
          have hold := old_trs htr.trs h.invG (h.invG.drain q' t' hpc')
          rw [hold]
          by_cases hqq : q' = q
          · subst hqq
            rw [upd_same, ← hg] at hq' he'
            exact h.recent q' t' es' hpc' hq' hes' e' he'
          · rw [upd_ne hqq] at hq' he'; exact h.recent q' t' es' hpc' hq' hes' e' he'
  · cases hg

/-- Everything a step of a producer may bring about. -/
theorem GLink.outs (os : List QOut) {s : IoQ σ Q} {G : Nat → QGhost} (h : s.GLink G) {q : Nat} {g' : QGhost}
    (hg : (G q).outs (s.io.opt.inputQueueSize - 1) os = some g') :
    ∃ s', s.outs q os = .ok s' ∧ s'.GLink (upd G q g') ∧ Trs s.io s'.io ∧ s'.qs = s.qs ∧
      SameIo s.io s'.io := by
  induction os generalizing s G with
  | nil =>
    cases hg
    have : upd G q (G q) = G := by funext x; simp only [upd]; split <;> simp_all
    exact ⟨s, rfl, by rw [this]; exact h, .refl _, rfl, .refl _⟩
  | cons o os ih =>
    obtain ⟨g1, h1, h2⟩ := Option.bind_eq_some_iff.1 hg
    have step : ∃ s1, s.out q o = .ok s1 ∧ s1.GLink (upd G q g1) ∧ Trs s.io s1.io ∧ s1.qs = s.qs ∧
        SameIo s.io s1.io := by
      cases o with
      | effect t =>
        obtain ⟨s1, a, b, c, d⟩ := h.effect h1
        exact ⟨s1, a, b, c.trs, d⟩
      | ins t ok sp => exact h.returned h1
    obtain ⟨s1, a1, a2, a3, a4, a5⟩ := step
    have ho : s1.io.opt = s.io.opt :=
      a3.inv (P := fun x => x.opt = s.io.opt) (fun _ _ h t => t.opt.trans h) rfl
    obtain ⟨s2, b1, b2, b3, b4, b5⟩ := ih a2 (by rw [upd_same, ho]; exact h2)
    refine ⟨s2, by simp only [IoQ.outs, a1, Exec.ok_bind, b1], ?_, a3.trans b3, b4.trans a4,
      a5.trans b5⟩
    have : upd (upd G q g1) q g' = upd G q g' := by funext x; simp only [upd]; split <;> rfl
    rw [this] at b2
    exact b2

/-! ### Steps of clients -/

variable {num sz : UInt32} {R : Q.S → QGhost → Prop}

/-- Changing the state of one queue and the ghost state with it. -/
theorem QLink.set {s s' : IoQ σ Q} {G : Nat → QGhost} (h : s.QLink num R G) {q : Nat} {c : Q.S} {g' : QGhost}
    (hg : s'.GLink (upd G q g')) (hqs : s'.qs = s.qs.set q c) (hr : R c g') (t : Trs s.io s'.io) :
    s'.QLink num R (upd G q g') := by
  have ho : s'.io.opt = s.io.opt :=
    t.inv (P := fun x => x.opt = s.io.opt) (fun _ _ h t => t.opt.trans h) rfl
  refine ⟨hg, ?_, ?_, ?_⟩
  · rw [hqs, List.length_set, h.len, h.g.invA.qlen, hg.invA.qlen, ho]
  · intro q' c' hq'
    rw [hqs] at hq'
    by_cases hqq : q' = q
    · subst hqq
      rw [upd_same]
      rw [List.getElem?_set] at hq'
      simp only [if_true] at hq'
      split at hq'
      · cases hq'; exact hr
      · cases hq'
    · rw [List.getElem?_set_ne (fun hx => hqq hx.symm)] at hq'
      rw [upd_ne hqq]
      exact h.rel q' c' hq'
  · rw [h.num, ho]

/-- The queues are left alone. -/
theorem QLink.frame {s : IoQ σ Q} {G : Nat → QGhost} (h : s.QLink num R G) {io : Iothr σ} (t : Trs s.io io)
    (hs : SameQ s.io io) (hpc : io.pc = s.io.pc ∨ ∀ q, (G q).taking = false) :
    QLink num R { s with io := io } G := by
  have ho : io.opt = s.io.opt := t.inv (P := fun x => x.opt = s.io.opt) (fun _ _ h t => t.opt.trans h) rfl
  exact ⟨h.g.frame t hs hpc, by rw [h.len, hs.queues], h.rel, by rw [h.num, ho]⟩

/-- What a client's step does not change. -/
structure ClientStep (s s' : IoQ σ Q) : Prop where
  trs : Trs s.io s'.io
  io : SameIo s.io s'.io

theorem submitCheck_cases (s : Iothr σ) (t q : Nat) (data : Option Bytes) (f : Bool)
    (ha : s.destroyed = false) (hp : s.pending t = none) (hq : q < s.queues.length) :
    (∃ r, s.submitCheck t q data f =
      .ok { s with nextId := s.nextId + 1, log := s.log ++ [.refused s.nextId r] }) ∨
    (∃ d : Bytes, s.shutting = false ∧ 1 ≤ d.length ∧ d.length < 4294967295 ∧
      s.submitCheck t q data f = .ok { s with
        nextId := s.nextId + 1
        pending := fun t' => if t' = t then some ⟨s.nextId, q, d, f⟩ else s.pending t' }) := by
  unfold submitCheck
  rw [if_neg (by simp [ha]), if_neg (by rw [hp]; simp; omega)]
  simp only [emit]
  split
  · exact Or.inl ⟨_, rfl⟩
  · rename_i hs
    split
    · exact Or.inl ⟨_, rfl⟩
    · split
      · exact Or.inl ⟨_, rfl⟩
      · rename_i d hl
        exact Or.inr ⟨d, by simpa using hs, by omega, by omega, rfl⟩

/-- A submit call begins. -/
theorem QLink.submit' (hQ : Q.Correct num sz R) {s : IoQ σ Q} {G : Nat → QGhost} (h : s.QLink num R G)
    (q t : Nat) (raw : Bytes) (data : Option Bytes) (f : Bool) :
    ∃ s', s.submit q t raw data f = .ok s' ∧ (∃ G', s'.QLink num R G' ∧
      (∀ q, (G' q).taking = (G q).taking ∧ (G' q).recent = (G q).recent) ∧
      s'.io.queues = s.io.queues ∧ submits s'.io.log = submits s.io.log) ∧ ClientStep s s' := by
  unfold IoQ.submit
  rw [if_neg (by simp [h.g.alive])]
  split
  · exact ⟨s, rfl, ⟨G, h, fun _ => ⟨rfl, rfl⟩, rfl, rfl⟩, .refl _, .refl _⟩
  · rename_i c hc
    split
    · exact ⟨s, rfl, ⟨G, h, fun _ => ⟨rfl, rfl⟩, rfl, rfl⟩, .refl _, .refl _⟩
    · rename_i c' hi
      obtain ⟨i1, i2⟩ := hQ.insert _ _ _ _ _ (h.rel q c hc) hi
      have hql : q < s.io.queues.length := by
        rw [← h.len]; exact (List.getElem?_eq_some_iff.1 hc).1
      have hpn : s.io.pending s.io.nextId = none := by
        cases hp : s.io.pending s.io.nextId with
        | none => rfl
        | some e =>
          have h1 := h.g.key _ _ hp
          have h2 := (h.g.invA.plt _ _ hp).1
          omega
      rcases submitCheck_cases s.io s.io.nextId q data f h.g.alive hpn hql with ⟨r, hck⟩ | ⟨d, hs, hd1, hd2, hck⟩
      · have htr := Tr.refused s.io r h.g.alive
        refine ⟨{ s with io := { s.io with nextId := s.io.nextId + 1, log := s.io.log ++ [.refused s.io.nextId r] } },
          ?_, ⟨G, h.frame htr.trs ⟨rfl, rfl, rfl, ?_⟩ (Or.inl rfl), fun _ => ⟨rfl, rfl⟩, rfl,
            by simp [submits_append, submits]⟩, htr.trs, ⟨rfl, rfl, rfl, rfl, rfl,
      by simp [calls_append, calls], by simp [handed_append, handed]⟩⟩
        · simp only [hck, Exec.ok_bind, hpn]
        · simp only [submits_append, submits, List.append_nil]
      · have hcur : s.cur q t = none := by
          have := h.g.calling q t
          rw [i1] at this
          cases hx : s.cur q t with
          | none => rfl
          | some e => rw [hx] at this; cases this
        simp only [hck, Exec.ok_bind, if_true]
        have htr := Tr.began s.io s.io.nextId q d f h.g.alive hpn hql hs hd1 hd2
        refine ⟨_, rfl, ⟨upd G q _, h.set ?_ rfl i2 htr.trs, fun q' => by
          by_cases hqq : q' = q
          · subst hqq; rw [upd_same]; exact ⟨rfl, rfl⟩
          · rw [upd_ne hqq]; exact ⟨rfl, rfl⟩, rfl, rfl⟩, htr.trs, ⟨rfl, rfl, rfl, rfl, rfl,
      by simp [calls_append, calls], by simp [handed_append, handed]⟩⟩
        have hraw : ∀ e : Entry, e.id < s.io.nextId →
            (if e.id = s.io.nextId then raw else s.raw e.id) = s.raw e.id := by
          intro e he; rw [if_neg (by omega)]
        have hmap : ∀ es : List Entry, (∀ e ∈ es, e.id < s.io.nextId) →
            es.map (fun e => if e.id = s.io.nextId then raw else s.raw e.id) = es.map s.rawOf := by
          intro es hes
          exact List.map_congr_left fun e he => hraw e (hes e he)
        have hmine : ∀ (es : List Entry) (q' t' : Nat), (∀ e ∈ es, e.id < s.io.nextId) →
            (onQueue q' es).filter (fun e => decide ((if e.id = s.io.nextId then t else s.who e.id) = t')) =
            s.mine q' t' es := by
          intro es q' t' hes
          unfold mine
          refine List.filter_congr fun e he => ?_
          have : e ∈ es := by
            unfold onQueue at he; exact (List.mem_filter.1 he).1
          rw [if_neg (by have := hes e this; omega)]
        have hrets : ∀ e ∈ s.rets, e.id < s.io.nextId := by
          intro e he
          rcases h.g.ac.mem_rets he with he | he
          · exact h.g.invA.lt e he
          · exact h.g.lt_wait he
        have hwmem : ∀ q' t' (e : Entry), e ∈ upd2 s.wait q t (s.wait q t ++ [⟨s.io.nextId, q, d, f⟩]) q' t' →
            e ∈ s.wait q' t' ∨ (e = ⟨s.io.nextId, q, d, f⟩ ∧ q' = q ∧ t' = t) := by
          intro q' t' e he
          by_cases hqt : q' = q ∧ t' = t
          · obtain ⟨rfl, rfl⟩ := hqt
            rw [upd2_same] at he
            rcases List.mem_append.1 he with he | he
            · exact Or.inl he
            · exact Or.inr ⟨by simpa using he, rfl, rfl⟩
          · rw [upd2_ne hqt] at he; exact Or.inl he
        refine ⟨h.g.invA.tr htr, h.g.invG.tr h.g.invA htr, ⟨?_, ?_, ?_⟩, h.g.alive, ?_, ?_, ?_, ?_, ?_, ?_,
          ?_, ?_⟩
        · intro q' t'
          have ha := h.g.ac.acct q' t'
          simp only [mine]
          rw [hmine _ _ _ h.g.invA.lt, hmine _ _ _ hrets]
          by_cases hqt : q' = q ∧ t' = t
          · obtain ⟨rfl, rfl⟩ := hqt
            rw [upd2_same, upd2_same, ← List.append_assoc, ha, hcur]
            simp
          · rw [upd2_ne hqt, upd2_ne hqt, ha]
        · intro q' t' e he
          rcases hwmem q' t' e he with he | ⟨rfl, rfl, rfl⟩
          · obtain ⟨o1, o2⟩ := h.g.ac.own q' t' e he
            refine ⟨o1, ?_⟩
            simp only
            rw [if_neg (by have := h.g.lt_wait he; omega)]; exact o2
          · exact ⟨rfl, if_pos rfl⟩
        · intro q' t' e he
          simp only at he
          by_cases hqt : q' = q ∧ t' = t
          · obtain ⟨rfl, rfl⟩ := hqt
            rw [upd2_same] at he
            cases he
            exact ⟨rfl, if_pos rfl⟩
          · rw [upd2_ne hqt] at he
            obtain ⟨o1, o2⟩ := h.g.ac.curs q' t' e he
            refine ⟨o1, ?_⟩
            have hlt : e.id < s.io.nextId := by
              have ha := h.g.ac.acct q' t'
              rw [he] at ha
              have : e ∈ s.mine q' t' (submits s.io.log) ++ s.wait q' t' := by rw [ha]; simp
              rcases List.mem_append.1 this with hx | hx
              · unfold mine onQueue at hx
                exact h.g.invA.lt e (List.mem_filter.1 (List.mem_filter.1 hx).1).1
              · exact h.g.lt_wait hx
            simp only
            rw [if_neg (by omega)]; exact o2
        · intro q' es hq'
          simp only at hq'
          have hr : es.map (fun e : Entry => if e.id = s.io.nextId then raw else s.raw e.id) =
              es.map s.rawOf := hmap es fun e he => h.g.lt_queues hq' he
          have := h.g.fifo q' es hq'
          refine Eq.trans ?_ hr.symm
          by_cases hqq : q' = q
          · subst hqq; rw [upd_same]; exact this
          · rw [upd_ne hqq]; exact this
        · intro q' t'
          have hr : ∀ q' t', (s.wait q' t').map
              (fun e : Entry => if e.id = s.io.nextId then raw else s.raw e.id) = (s.wait q' t').map s.rawOf :=
            fun q' t' => hmap _ fun e he => h.g.lt_wait he
          show _ = (upd2 s.wait q t (s.wait q t ++ [⟨s.io.nextId, q, d, f⟩]) q' t').map
            (fun e : Entry => if e.id = s.io.nextId then raw else s.raw e.id)
          by_cases hqq : q' = q
          · subst hqq
            rw [upd_same]
            simp only
            by_cases htt : t' = t
            · subst htt
              rw [upd_same, upd2_same, List.map_append, hr, h.g.wait]
              simp
            · rw [upd_ne htt, upd2_ne (fun hx => htt hx.2), hr]; exact h.g.wait q' t'
          · rw [upd_ne hqq, upd2_ne (fun hx => hqq hx.1), hr]; exact h.g.wait q' t'
        · intro q' t'
          simp only
          by_cases hqq : q' = q
          · subst hqq
            rw [upd_same]
            simp only
            by_cases htt : t' = t
            · subst htt; rw [upd_same, upd2_same]; rfl
            · rw [upd_ne htt, upd2_ne (fun hx => htt hx.2)]; exact h.g.calling q' t'
          · rw [upd_ne hqq, upd2_ne (fun hx => hqq hx.1)]; exact h.g.calling q' t'
        · intro q' t' e he
          simp only
          rcases hwmem q' t' e he with he | ⟨rfl, _, _⟩
          · rw [if_neg (by have := h.g.lt_wait he; omega)]; exact h.g.pend q' t' e he
          · rw [if_pos rfl]
        · intro id e he
          simp only at he
          split at he
          · rename_i hid
            cases he; exact hid.symm
          · exact h.g.key id e he
        · intro q' t'
          simp only
          by_cases hqt : q' = q ∧ t' = t
          · obtain ⟨rfl, rfl⟩ := hqt
            rw [upd2_same]
            refine List.nodup_append.2 ⟨h.g.nodup _ _, by simp, ?_⟩
            intro a ha b hb hab
            subst hab
            simp only [List.mem_singleton] at hb
            have := h.g.lt_wait ha
            rw [hb] at this
            exact absurd this (Nat.lt_irrefl _)
          · rw [upd2_ne hqt]; exact h.g.nodup q' t'
        · intro q' hq'
          by_cases hqq : q' = q
          · subst hqq; rw [upd_same] at hq'; exact h.g.loc q' hq'
          · rw [upd_ne hqq] at hq'; exact h.g.loc q' hq'
        · intro q' t' es' hpc hq' hes' e' he'
          have hpc' : s.io.pc = .drain q' t' := hpc
          have hs' := h.g.invG.drain q' t' hpc'
          rw [hs'] at hs; cases hs

theorem QLink.submit (hQ : Q.Correct num sz R) {s : IoQ σ Q} {G : Nat → QGhost} (h : s.QLink num R G)
    (q t : Nat) (raw : Bytes) (data : Option Bytes) (f : Bool) :
    ∃ s', s.submit q t raw data f = .ok s' ∧ (∃ G', s'.QLink num R G') ∧ ClientStep s s' := by
  obtain ⟨s', h1, ⟨G', h2, _⟩, h3⟩ := h.submit' hQ q t raw data f
  exact ⟨s', h1, ⟨G', h2⟩, h3⟩

/-- A producer's access. -/
theorem QLink.prod (hQ : Q.Correct num sz R) {s : IoQ σ Q} {G : Nat → QGhost} (h : s.QLink num R G)
    (q t k : Nat) :
    ∃ s', s.prod q t k = .ok s' ∧ (∃ G', s'.QLink num R G') ∧ ClientStep s s' := by
  unfold IoQ.prod
  rw [if_neg (by simp [h.g.alive])]
  split
  · exact ⟨s, rfl, ⟨G, h⟩, .refl _, .refl _⟩
  · rename_i c hc
    obtain ⟨c', os, g', h1, h2, h3⟩ := hQ.prod _ _ t k (h.rel q c hc)
    rw [h.num] at h2
    have hg : GLink { s with qs := s.qs.set q c' } G :=
      ⟨h.g.invA, h.g.invG, ⟨h.g.ac.acct, h.g.ac.own, h.g.ac.curs⟩, h.g.alive, h.g.fifo, h.g.wait, h.g.calling,
        h.g.pend, h.g.key, h.g.nodup, h.g.loc, h.g.recent⟩
    obtain ⟨s', a1, a2, a3, a4, a5⟩ := hg.outs os h2
    rw [h1, Exec.ok_bind]
    exact ⟨s', a1, ⟨_, h.set a2 a4 h3 a3⟩, a3, a5⟩

/-- A store reaches memory. -/
theorem QLink.flush (hQ : Q.Correct num sz R) {s : IoQ σ Q} {G : Nat → QGhost} (h : s.QLink num R G)
    (q : Nat) (b : Bool) (i : Nat) :
    ∃ s', s.flush q b i = .ok s' ∧ (∃ G', s'.QLink num R G') ∧ ClientStep s s' := by
  unfold IoQ.flush
  rw [if_neg (by simp [h.g.alive])]
  split
  · exact ⟨s, rfl, ⟨G, h⟩, .refl _, .refl _⟩
  · rename_i c hc
    obtain ⟨c', os, g', h1, h2, h3⟩ := hQ.flush _ _ b i (h.rel q c hc)
    rw [h.num] at h2
    have hg : GLink { s with qs := s.qs.set q c' } G :=
      ⟨h.g.invA, h.g.invG, ⟨h.g.ac.acct, h.g.ac.own, h.g.ac.curs⟩, h.g.alive, h.g.fifo, h.g.wait, h.g.calling,
        h.g.pend, h.g.key, h.g.nodup, h.g.loc, h.g.recent⟩
    obtain ⟨s', a1, a2, a3, a4, a5⟩ := hg.outs os h2
    rw [h1, Exec.ok_bind]
    exact ⟨s', a1, ⟨_, h.set a2 a4 h3 a3⟩, a3, a5⟩

/-- Asking for a queue handle. -/
theorem QLink.getQueue {s : IoQ σ Q} {G : Nat → QGhost} (h : s.QLink num R G) :
    ∃ s', s.step .getQueue = .ok s' ∧ (∃ G', s'.QLink num R G') ∧ ClientStep s s' := by
  simp only [IoQ.step, Iothr.getQueue, emit]
  rw [if_neg (by simp [h.g.alive])]
  split
  · rename_i hg
    have htr := Tr.gotSome s.io hg
    refine ⟨_, Exec.ok_bind _ _, ⟨G, h.frame htr.trs ⟨rfl, rfl, rfl, ?_⟩ (Or.inl rfl)⟩, htr.trs, ⟨rfl, rfl, rfl, rfl, rfl,
      by simp [calls_append, calls], by simp [handed_append, handed]⟩⟩
    simp [submits_append, submits]
  · rename_i hg
    have htr := Tr.gotNone s.io hg
    refine ⟨_, Exec.ok_bind _ _, ⟨G, h.frame htr.trs ⟨rfl, rfl, rfl, ?_⟩ (Or.inl rfl)⟩, htr.trs, ⟨rfl, rfl, rfl, rfl, rfl,
      by simp [calls_append, calls], by simp [handed_append, handed]⟩⟩
    simp [submits_append, submits]

/-- Destroy is called. -/
theorem QLink.shutdown {s : IoQ σ Q} {G : Nat → QGhost} (h : s.QLink num R G) :
    ∃ s', s.step .shutdown = .ok s' ∧ (∃ G', s'.QLink num R G') ∧ ClientStep s s' := by
  simp only [IoQ.step, Iothr.shutdown]
  split
  · exact ⟨s, by rw [Exec.ok_bind], ⟨G, h⟩, .refl _, .refl _⟩
  · rename_i hs
    obtain ⟨wk, hwk⟩ := signal_eq (({ s.io with shutting := true }.emit .shutdown))
    rw [hwk]
    simp only [emit]
    have htr := Tr.shut s.io wk (by simpa using hs)
    refine ⟨_, Exec.ok_bind _ _, ⟨G, h.frame htr.trs ⟨rfl, rfl, rfl, ?_⟩ (Or.inl rfl)⟩, htr.trs, ⟨rfl, rfl, rfl, rfl, rfl,
      by simp [calls_append, calls], by simp [handed_append, handed]⟩⟩
    simp [submits_append, submits]

/-! ### Steps of the I/O thread -/

/-- The I/O thread calls remove. -/
theorem GLink.take {s : IoQ σ Q} {G : Nat → QGhost} (h : s.GLink G) {i : Nat} (hat : Iothr.At s.io i)
    (g' : QGhost) (h1 : g'.fifo = (G i).fifo) (h2 : g'.wait = (G i).wait) (h3 : g'.calling = (G i).calling)
    (h4 : g'.taking = true → g'.recent = 0) : s.GLink (upd G i g') := by
  refine ⟨h.invA, h.invG, h.ac, h.alive, ?_, ?_, ?_, h.pend, h.key, h.nodup, ?_, ?_⟩
  · intro q es hq
    by_cases hqq : q = i
    · subst hqq; rw [upd_same, h1]; exact h.fifo q es hq
    · rw [upd_ne hqq]; exact h.fifo q es hq
  · intro q t
    by_cases hqq : q = i
    · subst hqq; rw [upd_same, h2]; exact h.wait q t
    · rw [upd_ne hqq]; exact h.wait q t
  · intro q t
    by_cases hqq : q = i
    · subst hqq; rw [upd_same, h3]; exact h.calling q t
    · rw [upd_ne hqq]; exact h.calling q t
  · intro q hq
    by_cases hqq : q = i
    · subst hqq
      cases hat with
      | work t hp hi => exact ⟨hi, t, Or.inl hp⟩
      | drain t hp hi => exact ⟨hi, t, Or.inr hp⟩
    · rw [upd_ne hqq] at hq; exact h.loc q hq
  · intro q t es hp hq hes e he
    by_cases hqq : q = i
    · subst hqq
      rw [upd_same] at hq he
      rw [h4 hq] at he
      simp at he
    · rw [upd_ne hqq] at hq he; exact h.recent q t es hp hq hes e he

/-- While the I/O thread is at queue `i` it is in no call for another queue. -/
theorem GLink.quiet {s : IoQ σ Q} {G : Nat → QGhost} (h : s.GLink G) {i : Nat} (hat : Iothr.At s.io i) {g' : QGhost}
    (hg : g'.taking = false) (q : Nat) : ((upd G i g') q).taking = false := by
  by_cases hqq : q = i
  · subst hqq; rw [upd_same]; exact hg
  · rw [upd_ne hqq]
    cases ht : (G q).taking with
    | false => rfl
    | true =>
      obtain ⟨_, t, hp⟩ := h.loc q ht
      cases hat with
      | work t' hp' =>
        rw [hp'] at hp
        rcases hp with hp | hp
        · cases hp; exact absurd rfl hqq
        · cases hp
      | drain t' hp' =>
        rw [hp'] at hp
        rcases hp with hp | hp
        · cases hp
        · cases hp; exact absurd rfl hqq

/-- What an access of the I/O thread to queue `i` leads to. -/
theorem QLink.take (hQ : Q.Correct num sz R) {s : IoQ σ Q} {G : Nat → QGhost} (h : s.QLink num R G)
    {i : Nat} (hat : Iothr.At s.io i) (k : Nat) :
    (∃ c, s.take i k = .ok (none, { s with qs := s.qs.set i c }) ∧
      ∃ G', QLink num R { s with qs := s.qs.set i c } G' ∧ ((G' i).recent = 0 ∨ G' = G)) ∨
    (∃ c G', s.take i k = .ok (some 0, { s with qs := s.qs.set i c }) ∧
      QLink num R { s with qs := s.qs.set i c } G' ∧ (∀ q, (G' q).taking = false) ∧
      ((G i).taking = true ∧ ∀ es, s.io.queues[i]? = some es → es.length ≤ (G i).recent) ∧
      ∀ t, s.io.pc = .drain i t → ∀ es, s.io.queues[i]? = some es → ∀ e ∈ es, e ∉ s.io.old) ∨
    (∃ c G', s.take i k = (do
        let (n, io) ← s.io.processQueue i
        .ok (some n, { s with io := io, qs := s.qs.set i c })) ∧
      ∀ n io, s.io.processQueue i = .ok (n, io) → n = 1 ∧
        QLink num R { s with io := io, qs := s.qs.set i c } G' ∧ ∀ q, (G' q).taking = false) := by
  have hi : i < s.io.opt.numInputQueues := by
    cases hat with
    | work t hp hi => exact hi
    | drain t hp hi => exact hi
  have hil : i < s.qs.length := by rw [h.len, h.g.invA.qlen]; exact hi
  obtain ⟨c, hc⟩ : ∃ c, s.qs[i]? = some c := ⟨_, List.getElem?_eq_getElem hil⟩
  have hr := h.rel i c hc
  obtain ⟨es, hes⟩ : ∃ es, s.io.queues[i]? = some es :=
    ⟨_, List.getElem?_eq_getElem (by rw [h.g.invA.qlen]; exact hi)⟩
  have hqs : ∀ {c : Q.S} {G' : Nat → QGhost}, s.GLink G' → GLink { s with qs := s.qs.set i c } G' := by
    intro c G' hg
    exact ⟨hg.invA, hg.invG, ⟨hg.ac.acct, hg.ac.own, hg.ac.curs⟩, hg.alive, hg.fifo, hg.wait, hg.calling,
      hg.pend, hg.key, hg.nodup, hg.loc, hg.recent⟩
  unfold IoQ.take
  rw [hc]
  simp only
  cases hrem : Q.remove c with
  | some c' =>
    refine Or.inl ⟨c', rfl, upd G i _, h.set (hqs ?_) rfl (hQ.remove _ _ _ hr hrem) (.refl _),
      Or.inl (by rw [upd_same])⟩
    exact h.g.take hat _ rfl rfl rfl fun _ => rfl
  | none =>
    have htk := hQ.removing _ _ hr hrem
    obtain ⟨c', r, h1, h2⟩ := hQ.cons _ _ k hr htk
    simp only [h1, Exec.ok_bind]
    cases r with
    | none =>
      have : upd G i (G i) = G := by funext x; simp only [upd]; split <;> simp_all
      refine Or.inl ⟨c', rfl, upd G i (G i), h.set (hqs ?_) rfl h2 (.refl _), Or.inr this⟩
      rw [this]; exact h.g
    | some r =>
      cases r with
      | none =>
        obtain ⟨h2, h3⟩ := h2
        refine Or.inr (Or.inl ⟨c', upd G i _, rfl, h.set (hqs ?_) rfl h3 (.refl _), h.g.quiet hat rfl, ⟨htk, ?_⟩, ?_⟩)
        · exact h.g.take hat _ rfl rfl rfl nofun
        · intro es' hes'
          rw [h.g.fifo i es' hes', List.length_map] at h2
          exact h2
        · intro t hp es' hes' e he
          rw [hes] at hes'
          cases hes'
          refine h.g.recent i t es hp htk hes e ?_
          rw [h.g.fifo i es hes, List.length_map] at h2
          rw [Nat.sub_eq_zero_of_le h2]
          exact he
      | some x =>
        obtain ⟨rest, h2, h3⟩ := h2
        rw [h.g.fifo i es hes] at h2
        cases es with
        | nil => cases h2
        | cons e es =>
          simp only [List.map_cons, List.cons.injEq] at h2
          obtain ⟨h2, h2'⟩ := h2
          have hraw : s.raw e.id = x := h2
          refine Or.inr (Or.inr ⟨c', upd G i { (G i) with fifo := rest, taking := false }, ?_, ?_⟩)
          · simp only [hes, hraw, if_true, Iothr.processQueue]
            cases ({ s.io with queues := s.io.queues.set i es }).processEntry e with
            | error x => rfl
            | ok io => rfl
          · intro n io hio
            obtain ⟨t1, t2, t3, t4, _, _⟩ := processQueue_ok hio hat
            simp only [Iothr.processQueue, hes] at hio
            obtain ⟨io', hio1, hio2⟩ := Exec.bind_eq_ok.1 hio
            cases hio2
            have hsame := processEntry_sameQ hio1
            have hsq : io.queues = s.io.queues.set i es := hsame.queues
            refine ⟨rfl, h.set ?_ rfl h3 t1, h.g.quiet hat rfl⟩
            refine ⟨h.g.invA.trs t1, InvG.trs h.g.invA h.g.invG t1,
              h.g.ac.frame hsame.submits rfl rfl rfl rfl, hsame.destroyed.trans h.g.alive, ?_, ?_, ?_, ?_, ?_,
              h.g.nodup, ?_, ?_⟩
            · intro q es' hq
              simp only [hsq] at hq
              by_cases hqq : q = i
              · subst hqq
                rw [List.getElem?_set_self (by rw [h.g.invA.qlen]; exact hi)] at hq
                cases hq
                rw [upd_same]
                exact h2'.symm
              · rw [List.getElem?_set_ne (fun hx => hqq hx.symm)] at hq
                rw [upd_ne hqq]
                exact h.g.fifo q es' hq
            · intro q t
              by_cases hqq : q = i
              · subst hqq; rw [upd_same]; exact h.g.wait q t
              · rw [upd_ne hqq]; exact h.g.wait q t
            · intro q t
              by_cases hqq : q = i
              · subst hqq; rw [upd_same]; exact h.g.calling q t
              · rw [upd_ne hqq]; exact h.g.calling q t
            · intro q t e' he'
              show io.pending e'.id = some e'
              rw [hsame.pending]; exact h.g.pend q t e' he'
            · intro id e' he'
              exact h.g.key id e' (hsame.pending ▸ he')
            · intro q hq
              have := h.g.quiet hat (g' := { (G i) with fifo := rest, taking := false }) rfl q
              rw [this] at hq; cases hq
            · intro q t es' hp hq
              have := h.g.quiet hat (g' := { (G i) with fifo := rest, taking := false }) rfl q
              rw [this] at hq; cases hq

theorem QLink.setPc {s : IoQ σ Q} {G : Nat → QGhost} (h : s.QLink num R G) (p : IoPc) (hp : PcStep s.io p)
    (hq : ∀ q, (G q).taking = false) : QLink num R { s with io := { s.io with pc := p } } G :=
  h.frame (Tr.trs (Tr.pc s.io p s.io.woken hp)) ⟨rfl, rfl, rfl, rfl⟩ (Or.inr hq)

/-- A step of the I/O thread keeps everything in agreement and is a sequence of transitions of the
I/O thread with atomic queues. -/
theorem QLink.ioStep (hQ : Q.Correct num sz R) {s s' : IoQ σ Q} {G : Nat → QGhost} (h : s.QLink num R G)
    {now : Nat} {wake : Wake} {k : Nat} (hs : s.ioStep now wake k = .ok s') :
    (∃ G', s'.QLink num R G') ∧ Trs s.io s'.io := by
  have other : (∀ i t, s.io.pc = .work i t ∨ s.io.pc = .drain i t → ¬ i < s.io.opt.numInputQueues) →
      ∀ io, s.io.ioStep now wake = .ok io → (∃ G', QLink num R { s with io := io } G') ∧ Trs s.io io := by
    intro hn io hio
    have t := ioStep_trs hio
    refine ⟨⟨G, h.frame t (ioStep_sameQ hio hn) (Or.inr fun q => ?_)⟩, t⟩
    cases ht : (G q).taking with
    | false => rfl
    | true =>
      obtain ⟨h1, t, h2⟩ := h.g.loc q ht
      exact absurd h1 (hn q t h2)
  unfold IoQ.ioStep at hs
  split at hs
  · rename_i i total hp
    split at hs
    · rename_i hi
      obtain ⟨⟨r, s1⟩, h1, hs⟩ := Exec.bind_eq_ok.1 hs
      simp only at hs
      rcases h.take hQ (.work total hp hi) k with ⟨c, e1, G', e2, _⟩ | ⟨c, G', e1, e2, e3, _, _⟩ | ⟨c, G', e1, e2⟩
      · rw [e1] at h1; cases h1; cases hs
        exact ⟨⟨G', e2⟩, .refl _⟩
      · rw [e1] at h1; cases h1; cases hs
        have hpc := PcStep.workNext (s := s.io) i total (total + 0) hp
        exact ⟨⟨G', e2.setPc _ hpc e3⟩, Tr.trs (Tr.pc s.io _ s.io.woken hpc)⟩
      · rw [e1] at h1
        obtain ⟨⟨n, io⟩, h2, h1⟩ := Exec.bind_eq_ok.1 h1
        cases h1; cases hs
        obtain ⟨rfl, e3, e4⟩ := e2 n io h2
        obtain ⟨t1, t2, t3, t4, _, _⟩ := processQueue_ok h2 (.work total hp hi)
        have hpc := PcStep.workNext (s := io) i total (total + 1) (t2.trans hp)
        exact ⟨⟨G', e3.setPc _ hpc e4⟩, .snoc t1 (Tr.pc io _ io.woken hpc)⟩
    · rename_i hi
      obtain ⟨io, h1, hs⟩ := Exec.bind_eq_ok.1 hs
      cases hs
      refine other ?_ io h1
      intro j t hj
      rw [hp] at hj
      rcases hj with hj | hj
      · cases hj; exact hi
      · cases hj
  · rename_i i total hp
    split at hs
    · rename_i hi
      obtain ⟨⟨r, s1⟩, h1, hs⟩ := Exec.bind_eq_ok.1 hs
      simp only at hs
      rcases h.take hQ (.drain total hp hi) k with ⟨c, e1, G', e2, _⟩ | ⟨c, G', e1, e2, e3, _, e4⟩ | ⟨c, G', e1, e2⟩
      · rw [e1] at h1; cases h1; cases hs
        exact ⟨⟨G', e2⟩, .refl _⟩
      · rw [e1] at h1; cases h1; cases hs
        have hpc : PcStep s.io (.drain (i + 1) (total + 0)) :=
          PcStep.drainNext (s := s.io) i total (total + 0) hp hi fun h0 =>
            ⟨by omega, fun es hes e he => e4 total hp es hes e he⟩
        exact ⟨⟨G', e2.setPc _ hpc e3⟩, Tr.trs (Tr.pc s.io _ s.io.woken hpc)⟩
      · rw [e1] at h1
        obtain ⟨⟨n, io⟩, h2, h1⟩ := Exec.bind_eq_ok.1 h1
        cases h1; cases hs
        obtain ⟨rfl, e3, e4⟩ := e2 n io h2
        obtain ⟨t1, t2, t3, t4, _, _⟩ := processQueue_ok h2 (.drain total hp hi)
        have hpc : PcStep io (.drain (i + 1) (total + 1)) :=
          PcStep.drainNext (s := io) i total (total + 1) (t2.trans hp) (t3 ▸ hi) fun h0 => absurd h0 (by omega)
        exact ⟨⟨G', e3.setPc _ hpc e4⟩, .snoc t1 (Tr.pc io _ io.woken hpc)⟩
    · rename_i hi
      obtain ⟨io, h1, hs⟩ := Exec.bind_eq_ok.1 hs
      cases hs
      refine other ?_ io h1
      intro j t hj
      rw [hp] at hj
      rcases hj with hj | hj
      · cases hj
      · cases hj; exact hi
  · rename_i hp1 hp2
    obtain ⟨io, h1, hs⟩ := Exec.bind_eq_ok.1 hs
    cases hs
    refine other ?_ io h1
    intro j t hj
    rcases hj with hj | hj
    · exact absurd hj (hp1 j t)
    · exact absurd hj (hp2 j t)

theorem removeAllOf_ok (hQ : Q.Correct num sz R) (G : Nat → QGhost) (raw : Entry → Bytes)
    (cs : List Q.S) (ess : List (List Entry)) (k : Nat) (hl : cs.length = ess.length)
    (hr : ∀ (q : Nat) (c : Q.S), cs[q]? = some c → R c (G (k + q)))
    (hf : ∀ (q : Nat) (es : List Entry), ess[q]? = some es → (G (k + q)).fifo = es.map raw)
    (hq : cs.all Q.quiet = true) :
    Queue.removeAllOf (cs.map Q.mem) = .ok (ess.map fun es => es.map raw) := by
  induction cs generalizing ess k with
  | nil =>
    cases ess with
    | nil => rfl
    | cons _ _ => simp at hl
  | cons c cs ih =>
    cases ess with
    | nil => simp at hl
    | cons es ess =>
      simp only [List.all_cons, Bool.and_eq_true] at hq
      have h1 := hQ.mem c (G k) (by simpa using hr 0 c rfl) hq.1
      have h2 := ih ess (k + 1) (by simpa using hl)
        (fun q c hc => by have := hr (q + 1) c (by simpa using hc); rwa [show k + 1 + q = k + (q + 1) by omega])
        (fun q es hes => by
          have := hf (q + 1) es (by simpa using hes); rwa [show k + 1 + q = k + (q + 1) by omega]) hq.2
      have h3 := hf 0 es rfl
      simp only [Nat.add_zero] at h3
      simp only [List.map_cons, Queue.removeAllOf, h1, h2, Exec.ok_bind, h3]

/-- The end of destroy. -/
theorem QLink.finish (hQ : Q.Correct num sz R) {s : IoQ σ Q} {G : Nat → QGhost} (h : s.QLink num R G) :
    s.finish = .ok s ∨ s.qs.all Q.quiet = true ∧ s.finish = (do
      let io ← s.io.finish
      .ok { s with io := io }) := by
  unfold IoQ.finish
  split
  · rename_i hc
    have := removeAllOf_ok hQ G s.rawOf s.qs s.io.queues 0 h.len
      (fun q c hc => by rw [Nat.zero_add]; exact h.rel q c hc)
      (fun q es hes => by rw [Nat.zero_add]; exact h.g.fifo q es hes) hc.2.2.2
    rw [this, Exec.ok_bind]
    rw [if_pos (by rfl)]
    exact Or.inr ⟨hc.2.2.2, rfl⟩
  · exact Or.inl rfl

theorem QLink.settled_at {s : IoQ σ Q} {G : Nat → QGhost} (h : s.QLink num R G) (q t : Nat)
    (hq : ∀ (c : Q.S), s.qs[q]? = some c → ∀ g, R c g → (g.wait t).length ≤ (g.calling t).toNat) :
    (s.wait q t).length ≤ (s.cur q t).toList.length := by
  cases hw : s.wait q t with
  | nil => simp
  | cons e rest =>
    have hlt : q < s.qs.length := by
      have he : e ∈ s.wait q t := by rw [hw]; simp
      rw [h.len, ← (h.g.ac.own q t e he).1]
      exact (h.g.invA.plt _ e (h.g.pend q t e he)).2.1
    have h1 := hq _ (List.getElem?_eq_getElem hlt) (G q) (h.rel q _ (List.getElem?_eq_getElem hlt))
    rw [h.g.wait, h.g.calling, hw] at h1
    revert h1
    cases s.cur q t <;> simp

/-- When no call is in progress and all stores have reached memory, insertions have taken effect. -/
theorem QLink.settled (hQ : Q.Correct num sz R) {s : IoQ σ Q} {G : Nat → QGhost} (h : s.QLink num R G)
    (hq : s.qs.all Q.quiet = true) (q t : Nat) : (s.wait q t).length ≤ (s.cur q t).toList.length :=
  h.settled_at q t fun c hc g hg => hQ.settled c g t hg (List.all_eq_true.1 hq c (List.mem_of_getElem? hc))

/-- After destroy nothing happens any more. -/
theorem Link.dead {s s' : IoQ σ Q} (h : s.Link num R) (hd : s.io.destroyed = true) {a : QAct}
    (hs : s.step a = .ok s') : s' = s := by
  have hp := (h.invA.dest hd).1
  have hsh := (h.invG.exited hp).1
  cases a with
  | submit q t raw data f => simp [IoQ.step, IoQ.submit, hd] at hs
  | prod q t k => simp [IoQ.step, IoQ.prod, hd] at hs
  | flush q b i => simp [IoQ.step, IoQ.flush, hd] at hs; exact hs.symm
  | getQueue =>
    simp only [IoQ.step, Iothr.getQueue, hd, if_true] at hs
    cases hs
  | io now wake k =>
    simp only [IoQ.step, IoQ.ioStep, hp, Iothr.ioStep, Exec.ok_bind] at hs
    cases hs; rfl
  | shutdown =>
    simp only [IoQ.step, Iothr.shutdown, hsh, if_true, Exec.ok_bind] at hs
    cases hs; rfl
  | finish =>
    simp only [IoQ.step, IoQ.finish, hd] at hs
    rw [if_neg (by simp)] at hs
    cases hs; rfl

/-- Every step keeps the queues in agreement with their contents, and for the rest of the state is
a sequence of transitions of the I/O thread with atomic queues. -/
theorem Link.step (hQ : Q.Correct num sz R) {s s' : IoQ σ Q} (h : s.Link num R) {a : QAct}
    (hs : s.step a = .ok s') : s'.Link num R ∧ Trs s.io s'.io := by
  cases hd : s.io.destroyed with
  | true => rw [h.dead hd hs]; exact ⟨h, .refl _⟩
  | false =>
    obtain ⟨G, hl⟩ := h.live hd
    have client : ∀ {s'' : IoQ σ Q}, s.step a = .ok s'' → (∃ G', s''.QLink num R G') → ClientStep s s'' →
        s'.Link num R ∧ Trs s.io s'.io := by
      intro s'' e1 ⟨G', e2⟩ e3
      rw [hs] at e1; cases e1
      exact ⟨e2.link, e3.trs⟩
    cases a with
    | submit q t raw data f => obtain ⟨_, e1, e2, e3⟩ := hl.submit hQ q t raw data f; exact client e1 e2 e3
    | prod q t k => obtain ⟨_, e1, e2, e3⟩ := hl.prod hQ q t k; exact client e1 e2 e3
    | flush q b i => obtain ⟨_, e1, e2, e3⟩ := hl.flush hQ q b i; exact client e1 e2 e3
    | getQueue => obtain ⟨_, e1, e2, e3⟩ := hl.getQueue; exact client e1 e2 e3
    | shutdown => obtain ⟨_, e1, e2, e3⟩ := hl.shutdown; exact client e1 e2 e3
    | io now wake k =>
      obtain ⟨⟨G', e1⟩, e2⟩ := hl.ioStep hQ hs
      exact ⟨e1.link, e2⟩
    | finish =>
      simp only [IoQ.step] at hs
      rcases hl.finish hQ with e | ⟨hq, e⟩
      · rw [e] at hs; cases hs; exact ⟨h, .refl _⟩
      · rw [e] at hs
        obtain ⟨io, h1, hs⟩ := Exec.bind_eq_ok.1 hs
        cases hs
        have htr : Trs s.io io := step_trs (a := .finish) h1
        refine ⟨⟨h.invA.trs htr, InvG.trs h.invA h.invG htr, h.ac.frame ?_ rfl rfl rfl rfl, ?_, fun _ => hl.settled hQ hq⟩, htr⟩
        · unfold Iothr.finish at h1
          split at h1
          · obtain ⟨⟨r, rdwr⟩, _, h1⟩ := Exec.bind_eq_ok.1 h1
            cases h1
            rw [freeAll_eq]
            simp [emit, submits_append, submits, submits_freeEvs]
          · cases h1; rfl
        · intro hd'
          unfold Iothr.finish at h1
          split at h1
          · obtain ⟨⟨r, rdwr⟩, _, h1⟩ := Exec.bind_eq_ok.1 h1
            cases h1
            simp [emit] at hd'
          · cases h1; exact h.live hd

theorem Link.run (hQ : Q.Correct num sz R) (as : List QAct) {s s' : IoQ σ Q} (h : s.Link num R)
    (hs : s.run as = .ok s') : s'.Link num R ∧ Trs s.io s'.io := by
  induction as generalizing s with
  | nil => cases hs; exact ⟨h, .refl _⟩
  | cons a as ih =>
    obtain ⟨s1, h1, hs⟩ := Exec.bind_eq_ok.1 hs
    obtain ⟨a1, a2⟩ := h.step hQ h1
    obtain ⟨b1, b2⟩ := ih a1 hs
    exact ⟨b1, a2.trans b2⟩

/-- At the beginning. -/
theorem Link.init (hQ : Q.Correct num sz R) {opt : IothrOptions} (hn : num.toNat = opt.inputQueueSize)
    (w : Writer σ) : ∃ s, IoQ.init Q sz opt w = some s ∧ s.Link num R ∧ s.io = Iothr.init opt w := by
  obtain ⟨c, h1, h2⟩ := hQ.create
  have hnum : UInt32.ofNat opt.inputQueueSize = num := by rw [← hn]; simp
  have hqn : (Iothr.init opt w).opt.numInputQueues = opt.numInputQueues := by
    simp only [Iothr.init]; split <;> rfl
  have hqi : (Iothr.init opt w).opt.inputQueueSize = opt.inputQueueSize := by
    simp only [Iothr.init]; split <;> rfl
  have hqq : (Iothr.init opt w).queues = List.replicate opt.numInputQueues [] := by
    simp only [Iothr.init]; split <;> rfl
  refine ⟨_, by simp only [IoQ.init, hnum, h1, Option.map_some]; rfl, QLink.link (G := fun _ => .empty) ?_, rfl⟩
  refine ⟨⟨.init opt w, .init opt w, ⟨fun _ _ => rfl, nofun, nofun⟩, rfl, ?_, fun _ _ => rfl, fun _ _ => rfl,
    nofun, nofun, fun _ _ => List.nodup_nil, nofun, ?_⟩, ?_, ?_, ?_⟩
  · intro q es hq
    simp only [hqq] at hq
    rw [(List.mem_replicate.1 (List.mem_of_getElem? hq)).2]
    rfl
  · intro q t es _ hq
    cases hq
  · simp only [hqq, List.length_replicate]
  · intro q c' hc
    rw [(List.mem_replicate.1 (List.mem_of_getElem? hc)).2]
    exact h2
  · simp only [hqi]; exact hn

/-- Before the I/O thread starts. -/
theorem Link.client_step (hQ : Q.Correct num sz R) {s s' : IoQ σ Q} (h : s.Link num R) {a : QAct}
    (hs : s.step a = .ok s') (ha : a.isIo = false) (hpc : s.io.pc = .start) : SameIo s.io s'.io := by
  cases hd : s.io.destroyed with
  | true => have := (h.invA.dest hd).1; rw [hpc] at this; cases this
  | false =>
    obtain ⟨G, hl⟩ := h.live hd
    have client : ∀ {s'' : IoQ σ Q}, s.step a = .ok s'' → ClientStep s s'' → SameIo s.io s'.io := by
      intro s'' e1 e3
      rw [hs] at e1; cases e1
      exact e3.io
    cases a with
    | submit q t raw data f => obtain ⟨_, e1, _, e3⟩ := hl.submit hQ q t raw data f; exact client e1 e3
    | prod q t k => obtain ⟨_, e1, _, e3⟩ := hl.prod hQ q t k; exact client e1 e3
    | flush q b i => obtain ⟨_, e1, _, e3⟩ := hl.flush hQ q b i; exact client e1 e3
    | getQueue => obtain ⟨_, e1, _, e3⟩ := hl.getQueue; exact client e1 e3
    | shutdown => obtain ⟨_, e1, _, e3⟩ := hl.shutdown; exact client e1 e3
    | io now wake k => cases ha
    | finish =>
      simp only [IoQ.step, IoQ.finish, hpc] at hs
      rw [if_neg (by simp)] at hs
      cases hs; exact .refl _

theorem Link.client_run (hQ : Q.Correct num sz R) (as : List QAct) {s s' : IoQ σ Q} (h : s.Link num R)
    (hs : s.run as = .ok s') (ha : ∀ a ∈ as, a.isIo = false) (hpc : s.io.pc = .start) :
    SameIo s.io s'.io := by
  induction as generalizing s with
  | nil => cases hs; exact .refl _
  | cons a as ih =>
    obtain ⟨s1, h1, hs⟩ := Exec.bind_eq_ok.1 hs
    have h2 := h.client_step hQ h1 (ha a (by simp)) hpc
    exact h2.trans (ih (h.step hQ h1).1 hs (fun a h => ha a (by simp [h])) (h2.pc.trans hpc))

theorem run_append (s : IoQ σ Q) (as bs : List QAct) (s' : IoQ σ Q) :
    s.run (as ++ bs) = .ok s' ↔ ∃ s1, s.run as = .ok s1 ∧ s1.run bs = .ok s' := by
  induction as generalizing s with
  | nil => simp [IoQ.run]
  | cons a as ih =>
    simp only [List.cons_append, IoQ.run]
    constructor
    · intro h
      obtain ⟨s1, h1, h⟩ := Exec.bind_eq_ok.1 h
      obtain ⟨s2, h2, h3⟩ := (ih s1).1 h
      exact ⟨s2, by rw [h1]; exact h2, h3⟩
    · rintro ⟨s2, h2, h3⟩
      obtain ⟨s1, h1, h2⟩ := Exec.bind_eq_ok.1 h2
      rw [h1]
      exact (ih s1).2 ⟨s2, h2, h3⟩

/-! ### No step goes wrong -/

variable {ops : Ops σ} {I : σ → Prop}

theorem fine_client {s s' : IoQ σ Q} (hf : Fine ops I s.io) (h : ClientStep s s')
    (ha : s'.io.destroyed = false) : Fine ops I s'.io := by
  have ho : s'.io.opt = s.io.opt :=
    h.trs.inv (P := fun x => x.opt = s.io.opt) (fun _ _ h t => t.opt.trans h) rfl
  exact ⟨by rw [h.io.writer]; exact hf.good, by rw [h.io.outq, ho]; exact hf.lim, by rw [ho]; exact hf.pos,
    by rw [ho]; exact hf.iov, ha⟩

theorem QLink.safe_io (hQ : Q.Correct num sz R) (hw : Spec.WellBehaved ops I) (hp : Spec.Preserves ops I)
    (hz : Spec.NoZeroPair ops I) {s : IoQ σ Q} {G : Nat → QGhost} (h : s.QLink num R G)
    (hf : Fine ops I s.io) (now : Nat) (wake : Wake) (k : Nat) :
    ∃ s', s.ioStep now wake k = .ok s' ∧ Fine ops I s'.io := by
  have other : ∃ s', (do
      let io ← s.io.ioStep now wake
      (Except.ok { s with io := io } : Exec (IoQ σ Q))) = .ok s' ∧ Fine ops I s'.io := by
    rcases hf.ioStep (b := false) hw hp hz now wake with ⟨io, h1, h2⟩ | ⟨h, _⟩
    · exact ⟨_, by rw [h1, Exec.ok_bind], h2⟩
    · cases h
  have hpq : ∀ i, ∃ n io, s.io.processQueue i = .ok (n, io) ∧ Fine ops I io := by
    intro i
    rcases hf.processQueue (b := false) hw hp hz i with ⟨⟨n, io⟩, h1, h2⟩ | ⟨h, _⟩
    · exact ⟨n, io, h1, h2⟩
    · cases h
  unfold IoQ.ioStep
  split
  · rename_i i total hpc
    split
    · rename_i hi
      rcases h.take hQ (.work total hpc hi) k with ⟨c, e1, G', e2, _⟩ | ⟨c, G', e1, e2, e3, _, _⟩ | ⟨c, G', e1, e2⟩
      · rw [e1, Exec.ok_bind]; exact ⟨_, rfl, hf⟩
      · rw [e1, Exec.ok_bind]
        exact ⟨_, rfl, hf.good, hf.lim, hf.pos, hf.iov, hf.alive⟩
      · obtain ⟨n, io, h1, h2⟩ := hpq i
        rw [e1, h1, Exec.ok_bind, Exec.ok_bind]
        exact ⟨_, rfl, h2.good, h2.lim, h2.pos, h2.iov, h2.alive⟩
    · exact other
  · rename_i i total hpc
    split
    · rename_i hi
      rcases h.take hQ (.drain total hpc hi) k with ⟨c, e1, G', e2, _⟩ | ⟨c, G', e1, e2, e3, _, _⟩ | ⟨c, G', e1, e2⟩
      · rw [e1, Exec.ok_bind]; exact ⟨_, rfl, hf⟩
      · rw [e1, Exec.ok_bind]
        exact ⟨_, rfl, hf.good, hf.lim, hf.pos, hf.iov, hf.alive⟩
      · obtain ⟨n, io, h1, h2⟩ := hpq i
        rw [e1, h1, Exec.ok_bind, Exec.ok_bind]
        exact ⟨_, rfl, h2.good, h2.lim, h2.pos, h2.iov, h2.alive⟩
    · exact other
  · exact other

/-- No step other than the last one of destroy goes wrong. -/
theorem Link.safe_step (hQ : Q.Correct num sz R) (hw : Spec.WellBehaved ops I) (hp : Spec.Preserves ops I)
    (hz : Spec.NoZeroPair ops I) {s : IoQ σ Q} (h : s.Link num R) (hf : Fine ops I s.io) (a : QAct)
    (ha : a ≠ .finish) : ∃ s', s.step a = .ok s' ∧ s'.Link num R ∧ Fine ops I s'.io := by
  obtain ⟨G, hl⟩ := h.live hf.alive
  have client : ∀ {s'' : IoQ σ Q}, s.step a = .ok s'' → (∃ G', s''.QLink num R G') → ClientStep s s'' →
      ∃ s', s.step a = .ok s' ∧ s'.Link num R ∧ Fine ops I s'.io := by
    intro s'' e1 ⟨G', e2⟩ e3
    exact ⟨s'', e1, e2.link, fine_client hf e3 e2.g.alive⟩
  cases a with
  | submit q t raw data f => obtain ⟨_, e1, e2, e3⟩ := hl.submit hQ q t raw data f; exact client e1 e2 e3
  | prod q t k => obtain ⟨_, e1, e2, e3⟩ := hl.prod hQ q t k; exact client e1 e2 e3
  | flush q b i => obtain ⟨_, e1, e2, e3⟩ := hl.flush hQ q b i; exact client e1 e2 e3
  | getQueue => obtain ⟨_, e1, e2, e3⟩ := hl.getQueue; exact client e1 e2 e3
  | shutdown => obtain ⟨_, e1, e2, e3⟩ := hl.shutdown; exact client e1 e2 e3
  | io now wake k =>
    obtain ⟨s', e1, e2⟩ := hl.safe_io hQ hw hp hz hf now wake k
    exact ⟨s', e1, (h.step hQ (a := .io now wake k) e1).1, e2⟩
  | finish => exact absurd rfl ha

theorem Link.safe_run (hQ : Q.Correct num sz R) (hw : Spec.WellBehaved ops I) (hp : Spec.Preserves ops I)
    (hz : Spec.NoZeroPair ops I) (as : List QAct) {s : IoQ σ Q} (h : s.Link num R) (hf : Fine ops I s.io)
    (ha : QAct.finish ∉ as) : ∃ s', s.run as = .ok s' ∧ s'.Link num R ∧ Fine ops I s'.io := by
  induction as generalizing s with
  | nil => exact ⟨s, rfl, h, hf⟩
  | cons a as ih =>
    rw [List.mem_cons, not_or] at ha
    obtain ⟨s1, h1, h2, h3⟩ := h.safe_step hQ hw hp hz hf a (fun e => ha.1 e.symm)
    obtain ⟨s2, h4, h5⟩ := ih h2 h3 ha.2
    exact ⟨s2, by simp only [IoQ.run, h1, Exec.ok_bind, h4], h5⟩

theorem Link.safe_finish (hQ : Q.Correct num sz R) (hw : Spec.WellBehaved ops I) (hp : Spec.Preserves ops I)
    (hz : Spec.NoZeroPair ops I) {s : IoQ σ Q} (h : s.Link num R) (hf : Fine ops I s.io) :
    ∃ s', s.step .finish = .ok s' := by
  obtain ⟨G, hl⟩ := h.live hf.alive
  simp only [IoQ.step]
  rcases hl.finish hQ with e | ⟨hq, e⟩
  · exact ⟨_, e⟩
  · rcases hf.finish (b := false) hw hp hz with ⟨io, h1, _⟩ | ⟨h, _⟩
    · exact ⟨_, by rw [e, h1, Exec.ok_bind]⟩
    · cases h

end IoQ
end Fstrm
