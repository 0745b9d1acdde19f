import Verif.Lemmas.IothrQueues
import Verif.Lemmas.QueueLive

/-!
# The I/O thread over its queues: termination
-/

set_option autoImplicit false

namespace Fstrm

open Iothr Spec

variable {σ : Type}

theorem sum_set {α : Type} (f : α → Nat) (l : List α) (i : Nat) (a b : α) (h : l[i]? = some a) :
    ((l.set i b).map f).sum + f a = (l.map f).sum + f b := by
  induction l generalizing i with
  | nil => simp at h
  | cons x l ih =>
    cases i with
    | zero =>
      simp only [List.getElem?_cons_zero, Option.some.injEq] at h
      subst h
      simp only [List.set_cons_zero, List.map_cons, List.sum_cons]; omega
    | succ i =>
      simp only [List.getElem?_cons_succ] at h
      have := ih i h
      simp only [List.set_cons_succ, List.map_cons, List.sum_cons]; omega

theorem set_getElem?_self {α : Type} {l : List α} {i : Nat} {a : α} (h : l[i]? = some a) : l.set i a = l := by
  obtain ⟨hl, rfl⟩ := List.getElem?_eq_some_iff.1 h
  exact List.set_getElem_self hl

namespace IoQ

variable {Q : QImpl}

/-- Nothing relevant for progress has changed. -/
structure Same (s s' : IoQ σ Q) : Prop where
  qs : s'.qs = s.qs
  pc : s'.io.pc = s.io.pc
  queues : s'.io.queues = s.io.queues
  opt : s'.io.opt = s.io.opt

theorem Same.refl (s : IoQ σ Q) : Same s s := ⟨rfl, rfl, rfl, rfl⟩

theorem Same.trans {a b c : IoQ σ Q} (h1 : Same a b) (h2 : Same b c) : Same a c :=
  ⟨h2.qs.trans h1.qs, h2.pc.trans h1.pc, h2.queues.trans h1.queues, h2.opt.trans h1.opt⟩

/-- The work left: of the producers, of the I/O thread in calls of remove, and in the current call. -/
def work (pw cw : Q.S → Nat) (s : IoQ σ Q) : Nat × Nat × Nat :=
  ((s.qs.map pw).sum, s.io.fuelLeft, (s.qs.map cw).sum)

theorem Same.work {pw cw : Q.S → Nat} {s s' : IoQ σ Q} (h : Same s s') : s'.work pw cw = s.work pw cw := by
  simp only [IoQ.work, fuelLeft, h.qs, h.pc, h.queues, h.opt]

/-- The lexicographic order. -/
abbrev Lt3 : Nat × Nat × Nat → Nat × Nat × Nat → Prop :=
  fun a b => a.1 < b.1 ∨ (a.1 = b.1 ∧ (a.2.1 < b.2.1 ∨ (a.2.1 = b.2.1 ∧ a.2.2 < b.2.2)))

theorem lt3_wf : WellFounded Lt3 := by
  refine Subrelation.wf (r := Prod.Lex (· < ·) (Prod.Lex (· < ·) (· < ·))) ?_
    (Prod.lex Nat.lt_wfRel (Prod.lex Nat.lt_wfRel Nat.lt_wfRel)).wf
  rintro ⟨a, b, c⟩ ⟨a', b', c'⟩ h
  rcases h with h | ⟨h, h' | ⟨h', h''⟩⟩
  · exact .left _ _ h
  · simp only at h h'; subst h; exact .right _ (.left _ _ h')
  · simp only at h h' h''; subst h; subst h'; exact .right _ (.right _ h'')

variable {num sz : UInt32} {R : Q.S → QGhost → Prop} {B : Nat} {pw cw : Q.S → Nat}

theorem outs_cur (os : List QOut) {s s' : IoQ σ Q} {q : Nat} (h : s.outs q os = .ok s') (q' t' : Nat)
    (hc : s.cur q' t' = none) : s'.cur q' t' = none := by
  induction os generalizing s with
  | nil => cases h; exact hc
  | cons o os ih =>
    obtain ⟨s1, h1, h⟩ := Exec.bind_eq_ok.1 h
    refine ih h ?_
    cases o with
    | effect t =>
      simp only [IoQ.out, IoQ.effect] at h1
      split at h1
      · cases h1
      · cases h1; exact hc
    | ins t ok sp =>
      have key : upd2 s.cur q t none q' t' = none := by
        by_cases he : q' = q ∧ t' = t
        · obtain ⟨rfl, rfl⟩ := he; exact upd2_same _ _ _ _
        · rw [upd2_ne he]; exact hc
      simp only [IoQ.out, IoQ.returned] at h1
      split at h1
      · cases h1
      · split at h1
        · split at h1 <;> cases h1 <;> exact key
        · cases h1; exact key

/-- What the I/O thread's step brings. -/
theorem QLink.io_progress (hQ : Q.Correct num sz R) (hL : Q.Live R B pw cw) {s s' : IoQ σ Q} {G : Nat → QGhost}
    (h : s.QLink num R G) (hsh : s.io.shutting = true) {now : Nat} {wk : Wake} {k : Nat}
    (hs : s.ioStep now wk k = .ok s') :
    s'.cur = s.cur ∧ (Lt3 (s'.work pw cw) (s.work pw cw) ∨
      (s' = s ∧ ((∃ d, s.io.pc = .sleep d ∧ ¬ (wk = .timeout ∧ d ≤ now)) ∨ s.io.pc = .exited ∨
        ∃ (i : Nat) (c : Q.S), s.qs[i]? = some c ∧ Q.Helped c))) := by
  have other : ∀ io, s.io.ioStep now wk = .ok io → s' = { s with io := io } →
      s'.cur = s.cur ∧ (Lt3 (s'.work pw cw) (s.work pw cw) ∨
      (s' = s ∧ ((∃ d, s.io.pc = .sleep d ∧ ¬ (wk = .timeout ∧ d ≤ now)) ∨ s.io.pc = .exited ∨
        ∃ (i : Nat) (c : Q.S), s.qs[i]? = some c ∧ Q.Helped c))) := by
    intro io hio he
    subst he
    obtain ⟨_, _, p | ⟨rfl, p⟩⟩ := ioStep_progress hsh hio
    · exact ⟨rfl, Or.inl (Or.inr ⟨rfl, Or.inl p⟩)⟩
    · refine ⟨rfl, Or.inr ⟨rfl, ?_⟩⟩
      rcases p with p | p
      · exact Or.inl p
      · exact Or.inr (Or.inl p)
  -- at a queue
  have taken : ∀ (i : Nat) (f : Nat → IoPc) (r : Option Nat) (s1 : IoQ σ Q), Iothr.At s.io i →
      s.take i k = .ok (r, s1) →
      (∀ io, s.io.processQueue i = .ok (1, io) → s.io.ioStep now wk = .ok { io with pc := f 1 }) →
      ({ s.io with pc := f 0 } : Iothr σ).fuelLeft < s.io.fuelLeft →
      s' = (match r with
        | none => s1
        | some n => { s1 with io := { s1.io with pc := f n } }) →
      s'.cur = s.cur ∧ (Lt3 (s'.work pw cw) (s.work pw cw) ∨
      (s' = s ∧ ((∃ d, s.io.pc = .sleep d ∧ ¬ (wk = .timeout ∧ d ≤ now)) ∨ s.io.pc = .exited ∨
        ∃ (i : Nat) (c : Q.S), s.qs[i]? = some c ∧ Q.Helped c))) := by
    intro i f r s1 hat ht hone hzero he
    unfold IoQ.take at ht
    split at ht
    · cases ht
    · rename_i c hc
      have hr := h.rel i c hc
      split at ht
      · rename_i c' hrem
        cases ht
        simp only at he
        subst he
        obtain ⟨l1, l2⟩ := hL.remove _ _ _ hr hrem
        refine ⟨rfl, Or.inl (Or.inr ⟨?_, Or.inr ⟨rfl, ?_⟩⟩)⟩
        · have := sum_set pw s.qs i c c' hc
          simp only [IoQ.work]; omega
        · have := sum_set cw s.qs i c c' hc
          simp only [IoQ.work]; omega
      · rename_i hrem
        have htk := hQ.removing _ _ hr hrem
        obtain ⟨⟨c', r'⟩, h1, ht⟩ := Exec.bind_eq_ok.1 ht
        obtain ⟨l1, l2⟩ := hL.cons _ _ _ _ _ hr htk h1
        have hp : ((s.qs.set i c').map pw).sum = (s.qs.map pw).sum := by
          have := sum_set pw s.qs i c c' hc
          omega
        simp only at ht
        split at ht
        · cases ht
          simp only at he
          subst he
          rcases l2 rfl with l2 | ⟨l2, l3⟩
          · refine ⟨rfl, Or.inl (Or.inr ⟨hp, Or.inr ⟨rfl, ?_⟩⟩)⟩
            have := sum_set cw s.qs i c c' hc
            simp only [IoQ.work]; omega
          · subst l2
            refine ⟨rfl, Or.inr ⟨?_, Or.inr (Or.inr ⟨i, c', hc, l3⟩)⟩⟩
            simp only [set_getElem?_self hc]
        · cases ht
          simp only at he
          subst he
          exact ⟨rfl, Or.inl (Or.inr ⟨hp, Or.inl hzero⟩)⟩
        · split at ht
          · rename_i e rest hq
            split at ht
            · obtain ⟨io, h2, ht⟩ := Exec.bind_eq_ok.1 ht
              cases ht
              simp only at he
              subst he
              have hpq : s.io.processQueue i = .ok (1, io) := by
                simp only [Iothr.processQueue, hq]
                rw [h2, Exec.ok_bind]
              obtain ⟨_, _, p | ⟨p, _⟩⟩ := ioStep_progress hsh (hone io hpq)
              · exact ⟨rfl, Or.inl (Or.inr ⟨hp, Or.inl p⟩)⟩
              · exfalso
                have hlen := processQueue_length hpq
                have : io.queues = s.io.queues := (congrArg Iothr.queues p :)
                rw [this] at hlen
                omega
            · cases ht
          · cases ht
  unfold IoQ.ioStep at hs
  split at hs
  · rename_i i total hp
    split at hs
    · rename_i hi
      obtain ⟨⟨r, s1⟩, h1, hs⟩ := Exec.bind_eq_ok.1 hs
      refine taken i (fun n => .work (i + 1) (total + n)) r s1 (.work total hp hi) h1 ?_ ?_ ?_
      · intro io hio
        simp only [Iothr.ioStep, hp, if_pos hi, hio, Exec.ok_bind]
      · simp only [fuelLeft, hp]; omega
      · cases r <;> (cases hs; rfl)
    · obtain ⟨io, h1, hs⟩ := Exec.bind_eq_ok.1 hs
      cases hs
      exact other io h1 rfl
  · rename_i i total hp
    split at hs
    · rename_i hi
      obtain ⟨⟨r, s1⟩, h1, hs⟩ := Exec.bind_eq_ok.1 hs
      refine taken i (fun n => .drain (i + 1) (total + n)) r s1 (.drain total hp hi) h1 ?_ ?_ ?_
      · intro io hio
        simp only [Iothr.ioStep, hp, if_pos hi, hio, Exec.ok_bind]
      · simp only [fuelLeft, hp, Nat.add_zero]; omega
      · cases r <;> (cases hs; rfl)
    · obtain ⟨io, h1, hs⟩ := Exec.bind_eq_ok.1 hs
      cases hs
      exact other io h1 rfl
  · obtain ⟨io, h1, hs⟩ := Exec.bind_eq_ok.1 hs
    cases hs
    exact other io h1 rfl

theorem outs_qs (os : List QOut) {s s' : IoQ σ Q} {q : Nat} (h : s.outs q os = .ok s') : s'.qs = s.qs := by
  induction os generalizing s with
  | nil => cases h; rfl
  | cons o os ih =>
    obtain ⟨s1, h1, h⟩ := Exec.bind_eq_ok.1 h
    refine (ih h).trans ?_
    cases o with
    | effect t =>
      simp only [IoQ.out, IoQ.effect] at h1
      split at h1
      · cases h1
      · cases h1; rfl
    | ins t ok sp =>
      simp only [IoQ.out, IoQ.returned] at h1
      split at h1
      · cases h1
      · split at h1
        · split at h1 <;> cases h1 <;> rfl
        · cases h1; rfl

/-- The states that count. -/
structure Late (num : UInt32) (R : Q.S → QGhost → Prop) (B : Nat) (s : IoQ σ Q) : Prop where
  link : ∃ G, s.QLink num R G
  shut : s.io.shutting = true
  dom : ∀ q t, B ≤ t → s.cur q t = none
  idx : ∀ q t, s.qs.length ≤ q → s.cur q t = none

/-- A step of a producer brings progress or nothing. -/
theorem Late.prod (hL : Q.Live R B pw cw) {s s' : IoQ σ Q} (h : s.Late num R B) {q t k : Nat}
    (hs : s.prod q t k = .ok s') :
    (∀ q t, s.cur q t = none → s'.cur q t = none) ∧ (s' = s ∨ Lt3 (s'.work pw cw) (s.work pw cw)) ∧
    ∀ c, s.qs[q]? = some c → (∀ k c' os, Q.prod c t k = .ok (c', os) → (c', os) ≠ (c, [])) →
      Lt3 (s'.work pw cw) (s.work pw cw) := by
  obtain ⟨G, hl⟩ := h.link
  unfold IoQ.prod at hs
  rw [if_neg (by simp [hl.g.alive])] at hs
  split at hs
  · rename_i hq
    cases hs
    exact ⟨fun _ _ h => h, Or.inl rfl, fun c hc => by rw [hq] at hc; cases hc⟩
  · rename_i c hc
    obtain ⟨⟨c', os⟩, h1, hs⟩ := Exec.bind_eq_ok.1 hs
    refine ⟨fun q' t' => outs_cur os hs q' t', ?_⟩
    have hr := hl.rel q c hc
    rcases hL.prod _ _ _ _ _ _ hr (fun t ht => by rw [hl.g.calling, h.dom q t ht]; rfl) h1 with ⟨rfl, rfl⟩ | hlt
    · cases hs
      refine ⟨Or.inl (by simp only [set_getElem?_self hc]), fun c2 hc2 hne => ?_⟩
      rw [hc] at hc2; cases hc2
      exact absurd rfl (hne _ _ _ h1)
    · have : Lt3 (s'.work pw cw) (s.work pw cw) := by
        left
        have h2 := sum_set pw s.qs q c c' hc
        simp only [IoQ.work, outs_qs os hs]; omega
      exact ⟨Or.inr this, fun _ _ _ => this⟩

/-- A store reaching memory brings progress or nothing. -/
theorem Late.flush (hL : Q.Live R B pw cw) {s s' : IoQ σ Q} (h : s.Late num R B) {q : Nat} {b : Bool} {i : Nat}
    (hs : s.flush q b i = .ok s') :
    (∀ q t, s.cur q t = none → s'.cur q t = none) ∧ (s' = s ∨ Lt3 (s'.work pw cw) (s.work pw cw)) ∧
    ∀ c, s.qs[q]? = some c → (∀ c' os, Q.flush c b i = .ok (c', os) → (c', os) ≠ (c, [])) →
      Lt3 (s'.work pw cw) (s.work pw cw) := by
  obtain ⟨G, hl⟩ := h.link
  unfold IoQ.flush at hs
  rw [if_neg (by simp [hl.g.alive])] at hs
  split at hs
  · rename_i hq
    cases hs
    exact ⟨fun _ _ h => h, Or.inl rfl, fun c hc => by rw [hq] at hc; cases hc⟩
  · rename_i c hc
    obtain ⟨⟨c', os⟩, h1, hs⟩ := Exec.bind_eq_ok.1 hs
    refine ⟨fun q' t' => outs_cur os hs q' t', ?_⟩
    have hr := hl.rel q c hc
    have h2 := sum_set pw s.qs q c c' hc
    rcases hL.flush _ _ _ _ _ _ hr h1 with ⟨rfl, rfl⟩ | hlt | ⟨rfl, he, hlt⟩
    · cases hs
      refine ⟨Or.inl (by simp only [set_getElem?_self hc]), fun c2 hc2 hne => ?_⟩
      rw [hc] at hc2; cases hc2
      exact absurd rfl (hne _ _ h1)
    · have : Lt3 (s'.work pw cw) (s.work pw cw) := by
        left
        simp only [IoQ.work, outs_qs os hs]; omega
      exact ⟨Or.inr this, fun _ _ _ => this⟩
    · have : Lt3 (s'.work pw cw) (s.work pw cw) := by
        cases hs
        have h3 := sum_set cw s.qs q c c' hc
        right
        refine ⟨by simp only [IoQ.work]; omega, Or.inr ⟨rfl, by simp only [IoQ.work]; omega⟩⟩
      exact ⟨Or.inr this, fun _ _ _ => this⟩

theorem shutting_trs {s s' : Iothr σ} (h : Trs s s') (ha : InvA s) (hg : InvG s) (hs : s.shutting = true) :
    s'.shutting = true := by
  obtain ⟨x, hx⟩ := h.log
  refine (InvG.trs ha hg h).shut.2 ?_
  rw [hx]
  exact List.mem_append_left _ (hg.shut.1 hs)

/-- During shutdown every step brings progress, or nothing relevant changes. -/
theorem Late.step (hQ : Q.Correct num sz R) (hL : Q.Live R B pw cw) {s s' : IoQ σ Q} (h : s.Late num R B)
    {a : QAct} (ha : a ≠ .finish) (hs : s.step a = .ok s') :
    s'.Late num R B ∧ (Same s s' ∨ Lt3 (s'.work pw cw) (s.work pw cw)) := by
  obtain ⟨G, hl⟩ := h.link
  have late : (∀ q t, s.cur q t = none → s'.cur q t = none) → (∃ G', s'.QLink num R G') → s'.Late num R B := by
    intro hc hl'
    have htr := (hl.link.step hQ hs).2
    refine ⟨hl', shutting_trs htr hl.g.invA hl.g.invG h.shut, fun q t ht => hc q t (h.dom q t ht), fun q t hq => ?_⟩
    obtain ⟨G', hl'⟩ := hl'
    have ho : s'.io.opt = s.io.opt := htr.inv (P := fun x => x.opt = s.io.opt) (fun _ _ h t => t.opt.trans h) rfl
    rw [hl'.len, hl'.g.invA.qlen, ho, ← hl.g.invA.qlen, ← hl.len] at hq
    exact hc q t (h.idx q t hq)
  have client : ∀ {s'' : IoQ σ Q}, s.step a = .ok s'' → (∃ G', s''.QLink num R G') → ∃ G', s'.QLink num R G' := by
    intro s'' e1 e2
    rw [hs] at e1; cases e1; exact e2
  have eq : ∀ {s'' : IoQ σ Q}, s'' = s → Same s s'' := by rintro _ rfl; exact .refl _
  cases a with
  | submit q t raw data f =>
    obtain ⟨s2, e1, e2, _⟩ := hl.submit hQ q t raw data f
    have hl' := client e1 e2
    simp only [IoQ.step, IoQ.submit] at hs
    rw [if_neg (by simp [hl.g.alive])] at hs
    split at hs
    · cases hs; exact ⟨late (fun _ _ h => h) hl', Or.inl (.refl _)⟩
    · rename_i c hc
      split at hs
      · cases hs; exact ⟨late (fun _ _ h => h) hl', Or.inl (.refl _)⟩
      · rename_i c' hi
        have hql : q < s.io.queues.length := by
          rw [← hl.len]; exact (List.getElem?_eq_some_iff.1 hc).1
        have hpn : s.io.pending s.io.nextId = none := by
          cases hp : s.io.pending s.io.nextId with
          | none => rfl
          | some e =>
            have h1 := hl.g.key _ _ hp
            have h2 := (hl.g.invA.plt _ _ hp).1
            omega
        rcases submitCheck_cases s.io s.io.nextId q data f hl.g.alive hpn hql with ⟨r, hck⟩ | ⟨d, hn, _⟩
        · simp only [hck, Exec.ok_bind, hpn] at hs
          cases hs
          exact ⟨late (fun _ _ h => h) hl', Or.inl ⟨rfl, rfl, rfl, rfl⟩⟩
        · rw [h.shut] at hn; cases hn
  | prod q t k =>
    obtain ⟨s2, e1, e2, _⟩ := hl.prod hQ q t k
    obtain ⟨h1, h2, _⟩ := h.prod hL hs
    exact ⟨late h1 (client e1 e2), h2.imp_left eq⟩
  | flush q b i =>
    obtain ⟨s2, e1, e2, _⟩ := hl.flush hQ q b i
    obtain ⟨h1, h2, _⟩ := h.flush hL hs
    exact ⟨late h1 (client e1 e2), h2.imp_left eq⟩
  | getQueue =>
    obtain ⟨s2, e1, e2, _⟩ := hl.getQueue
    have hl' := client e1 e2
    simp only [IoQ.step, Iothr.getQueue, emit] at hs
    rw [if_neg (by simp [hl.g.alive])] at hs
    split at hs <;> (cases hs; exact ⟨late (fun _ _ h => h) hl', Or.inl ⟨rfl, rfl, rfl, rfl⟩⟩)
  | shutdown =>
    obtain ⟨s2, e1, e2, _⟩ := hl.shutdown
    have hl' := client e1 e2
    simp only [IoQ.step, Iothr.shutdown, h.shut, if_true, Exec.ok_bind] at hs
    cases hs
    exact ⟨late (fun _ _ h => h) hl', Or.inl (.refl _)⟩
  | io now wake k =>
    obtain ⟨e1, _⟩ := hl.ioStep hQ hs
    obtain ⟨h1, h2⟩ := hl.io_progress hQ hL h.shut hs
    refine ⟨late (fun q t hc => by rw [h1]; exact hc) e1, ?_⟩
    rcases h2 with h2 | ⟨h2, _⟩
    · exact Or.inr h2
    · exact Or.inl (eq h2)
  | finish => exact absurd rfl ha

/-- Only finitely many threads are in submit calls. -/
def Finite (s : IoQ σ Q) : Prop := ∃ B, ∀ q t, (B ≤ t ∨ s.qs.length ≤ q) → s.cur q t = none

theorem Finite.step {s s' : IoQ σ Q} (h : s.Finite) {a : QAct}
    (hs : s.step a = .ok s') : s'.Finite := by
  obtain ⟨B, hB⟩ := h
  have keep : s'.qs.length = s.qs.length → (∀ q t, s.cur q t = none → s'.cur q t = none) → s'.Finite := by
    intro h1 h2
    exact ⟨B, fun q t hqt => h2 q t (hB q t (by rw [← h1]; exact hqt))⟩
  cases a with
  | submit q t raw data f =>
    simp only [IoQ.step, IoQ.submit] at hs
    split at hs
    · cases hs
    · split at hs
      · cases hs; exact ⟨B, hB⟩
      · rename_i c hc
        split at hs
        · cases hs; exact ⟨B, hB⟩
        · obtain ⟨io, h1, hs⟩ := Exec.bind_eq_ok.1 hs
          split at hs
          · cases hs; exact ⟨B, hB⟩
          · cases hs
            refine ⟨max B (t + 1), fun q' t' hqt => ?_⟩
            simp only [List.length_set] at hqt ⊢
            have hlt := (List.getElem?_eq_some_iff.1 hc).1
            rw [upd2_ne (by omega)]
            exact hB q' t' (by omega)
  | prod q t k =>
    simp only [IoQ.step, IoQ.prod] at hs
    split at hs
    · cases hs
    · split at hs
      · cases hs; exact ⟨B, hB⟩
      · obtain ⟨⟨c', os⟩, h1, hs⟩ := Exec.bind_eq_ok.1 hs
        exact keep (by rw [outs_qs os hs]; simp) fun q' t' => outs_cur os hs q' t'
  | flush q b i =>
    simp only [IoQ.step, IoQ.flush] at hs
    split at hs
    · cases hs; exact ⟨B, hB⟩
    · split at hs
      · cases hs; exact ⟨B, hB⟩
      · obtain ⟨⟨c', os⟩, h1, hs⟩ := Exec.bind_eq_ok.1 hs
        exact keep (by rw [outs_qs os hs]; simp) fun q' t' => outs_cur os hs q' t'
  | getQueue =>
    obtain ⟨io, _, hs⟩ := Exec.bind_eq_ok.1 hs
    cases hs; exact ⟨B, hB⟩
  | shutdown =>
    obtain ⟨io, _, hs⟩ := Exec.bind_eq_ok.1 hs
    cases hs; exact ⟨B, hB⟩
  | io now wake k =>
    have take : ∀ i r s1, s.take i k = .ok (r, s1) → s1.cur = s.cur ∧ s1.qs.length = s.qs.length := by
      intro i r s1 h1
      unfold IoQ.take at h1
      split at h1
      · cases h1
      · split at h1
        · cases h1; exact ⟨rfl, by simp⟩
        · obtain ⟨⟨c, r⟩, h2, h1⟩ := Exec.bind_eq_ok.1 h1
          simp only at h1
          split at h1
          · cases h1; exact ⟨rfl, by simp⟩
          · cases h1; exact ⟨rfl, by simp⟩
          · split at h1
            · split at h1
              · obtain ⟨io, h3, h1⟩ := Exec.bind_eq_ok.1 h1
                cases h1; exact ⟨rfl, by simp⟩
              · cases h1
            · cases h1
    simp only [IoQ.step, IoQ.ioStep] at hs
    split at hs
    · split at hs
      · obtain ⟨⟨r, s1⟩, h1, hs⟩ := Exec.bind_eq_ok.1 hs
        obtain ⟨e1, e2⟩ := take _ _ _ h1
        cases r <;> cases hs <;> exact keep e2 fun q t hq => by simpa only [e1] using hq
      · obtain ⟨io, _, hs⟩ := Exec.bind_eq_ok.1 hs
        cases hs; exact ⟨B, hB⟩
    · split at hs
      · obtain ⟨⟨r, s1⟩, h1, hs⟩ := Exec.bind_eq_ok.1 hs
        obtain ⟨e1, e2⟩ := take _ _ _ h1
        cases r <;> cases hs <;> exact keep e2 fun q t hq => by simpa only [e1] using hq
      · obtain ⟨io, _, hs⟩ := Exec.bind_eq_ok.1 hs
        cases hs; exact ⟨B, hB⟩
    · obtain ⟨io, _, hs⟩ := Exec.bind_eq_ok.1 hs
      cases hs; exact ⟨B, hB⟩
  | finish =>
    simp only [IoQ.step, IoQ.finish] at hs
    split at hs
    · obtain ⟨xss, _, hs⟩ := Exec.bind_eq_ok.1 hs
      split at hs
      · obtain ⟨io, _, hs⟩ := Exec.bind_eq_ok.1 hs
        cases hs; exact ⟨B, hB⟩
      · cases hs
    · cases hs; exact ⟨B, hB⟩

theorem Finite.run (as : List QAct) {s s' : IoQ σ Q} (h : s.Finite) (hs : s.run as = .ok s') : s'.Finite := by
  induction as generalizing s with
  | nil => cases hs; exact h
  | cons a as ih =>
    obtain ⟨s1, h1, hs⟩ := Exec.bind_eq_ok.1 hs
    exact ih (h.step h1) hs

/-- The I/O thread has exited, no call is in progress and all stores have reached memory. -/
def Over (s : IoQ σ Q) : Prop :=
  s.io.pc = .exited ∧ s.qs.all Q.quiet = true ∧ ∀ q t, s.cur q t = none

/-- What a fair schedule contains again and again. -/
inductive Kind where
  | io (T : Nat)
  | prod (q t : Nat)
  | flush (q : Nat) (b : Bool)

/-- Is it this action? -/
def Kind.Is : Kind → QAct → Prop
  | .io T, .io now wake _ => wake = .timeout ∧ T ≤ now
  | .prod q t, .prod q' t' _ => q' = q ∧ t' = t
  | .flush q b, .flush q' b' i => q' = q ∧ b' = b ∧ i = 0
  | _, _ => False

/-- Such an action brings progress. -/
def Kind.Useful (s : IoQ σ Q) : Kind → Prop
  | .io T => s.io.pc ≠ .exited ∧ (∀ d, s.io.pc = .sleep d → d ≤ T) ∧
      ∀ (i : Nat) (c : Q.S), s.qs[i]? = some c → ¬ Q.Helped c
  | .prod q t => ∃ c, s.qs[q]? = some c ∧ ∀ k c' os, Q.prod c t k = .ok (c', os) → (c', os) ≠ (c, [])
  | .flush q b => ∃ c, s.qs[q]? = some c ∧ ∀ c' os, Q.flush c b 0 = .ok (c', os) → (c', os) ≠ (c, [])

theorem Kind.Useful.same {s s' : IoQ σ Q} {kd : Kind} (h : kd.Useful s) (hs : Same s s') : kd.Useful s' := by
  cases kd <;> simp only [Kind.Useful, hs.qs, hs.pc] at h ⊢ <;> exact h

/-- As long as not everything is over, something can go on. -/
theorem Late.useful (hL : Q.Live R B pw cw) {s : IoQ σ Q} (h : s.Late num R B) (ho : ¬ s.Over) :
    ∃ kd : Kind, kd.Useful s := by
  obtain ⟨G, hl⟩ := h.link
  by_cases hh : ∃ (i : Nat) (c : Q.S), s.qs[i]? = some c ∧ Q.Helped c
  · obtain ⟨i, c, hc, ⟨t, ht⟩ | ⟨b, hb⟩⟩ := hh
    · exact ⟨.prod i t, c, hc, ht⟩
    · exact ⟨.flush i b, c, hc, hb⟩
  · have hn : ∀ (i : Nat) (c : Q.S), s.qs[i]? = some c → ¬ Q.Helped c := fun i c hc hx => hh ⟨i, c, hc, hx⟩
    by_cases hp : s.io.pc = .exited
    · exfalso
      apply ho
      have htk : ∀ q, (G q).taking = false := by
        intro q
        cases ht : (G q).taking with
        | false => rfl
        | true =>
          obtain ⟨_, t, h1 | h1⟩ := hl.g.loc q ht <;> (rw [hp] at h1; cases h1)
      refine ⟨hp, ?_, ?_⟩
      · rw [List.all_eq_true]
        intro c hc
        obtain ⟨i, hi⟩ := List.getElem?_of_mem hc
        cases hqt : Q.quiet c with
        | true => rfl
        | false => exact absurd (hL.busy c _ (hl.rel i c hi) (htk i) (Or.inl hqt)) (hn i c hi)
      · intro q t
        cases hcur : s.cur q t with
        | none => rfl
        | some e =>
          exfalso
          have hcl : (G q).calling t = true := by rw [hl.g.calling, hcur]; rfl
          have hlt : q < s.qs.length := by
            rcases Nat.lt_or_ge q s.qs.length with hx | hx
            · exact hx
            · have := h.idx q t hx
              rw [hcur] at this; cases this
          exact hn q _ (List.getElem?_eq_getElem hlt)
            (hL.busy _ _ (hl.rel q _ (List.getElem?_eq_getElem hlt)) (htk q) (Or.inr ⟨t, hcl⟩))
    · obtain ⟨T, hT⟩ : ∃ T, ∀ d, s.io.pc = .sleep d → d ≤ T := by
        cases hp : s.io.pc with
        | sleep d => exact ⟨d, fun d' h => by cases h; exact Nat.le_refl _⟩
        | _ => exact ⟨0, nofun⟩
      exact ⟨.io T, hp, hT, hn⟩

theorem Late.use (hQ : Q.Correct num sz R) (hL : Q.Live R B pw cw) {s s' : IoQ σ Q} (h : s.Late num R B)
    {kd : Kind} (hu : kd.Useful s) {a : QAct} (ha : kd.Is a) (hs : s.step a = .ok s') :
    Lt3 (s'.work pw cw) (s.work pw cw) := by
  cases kd with
  | io T =>
    cases a <;> simp only [Kind.Is] at ha
    rename_i now wake k
    obtain ⟨G, hl⟩ := h.link
    obtain ⟨u1, u2, u3⟩ := hu
    obtain ⟨_, h2⟩ := hl.io_progress hQ hL h.shut hs
    rcases h2 with h2 | ⟨_, ⟨d, h2, h3⟩ | h2 | ⟨i, c, h2, h3⟩⟩
    · exact h2
    · exact absurd ⟨ha.1, Nat.le_trans (u2 d h2) ha.2⟩ h3
    · exact absurd h2 u1
    · exact absurd h3 (u3 i c h2)
  | prod q t =>
    cases a <;> simp only [Kind.Is] at ha
    obtain ⟨rfl, rfl⟩ := ha
    obtain ⟨c, hc, hne⟩ := hu
    exact (h.prod hL hs).2.2 c hc hne
  | flush q b =>
    cases a <;> simp only [Kind.Is] at ha
    obtain ⟨rfl, rfl, rfl⟩ := ha
    obtain ⟨c, hc, hne⟩ := hu
    exact (h.flush hL hs).2.2 c hc hne

theorem run_first_succ {s s' : IoQ σ Q} {f : Nat → QAct} {n : Nat} :
    s.run (QAct.first f (n + 1)) = .ok s' ↔ ∃ s1, s.run (QAct.first f n) = .ok s1 ∧ s1.step (f n) = .ok s' := by
  unfold QAct.first
  rw [List.range_succ, List.map_append, run_append]
  constructor
  · rintro ⟨s1, h1, h2⟩
    obtain ⟨s2, h2, h3⟩ := Exec.bind_eq_ok.1 h2
    cases h3
    exact ⟨s1, h1, h2⟩
  · rintro ⟨s1, h1, h2⟩
    exact ⟨s1, h1, Exec.bind_eq_ok.2 ⟨s', h2, rfl⟩⟩

/-- Under a fair schedule everything comes to its end. -/
theorem Late.exits (hQ : Q.Correct num sz R) (hL : Q.Live R B pw cw) (s : IoQ σ Q) (f : Nat → QAct)
    (hfair : ∀ (kd : Kind) N, ∃ n, N ≤ n ∧ kd.Is (f n)) (hnf : ∀ n, f n ≠ .finish)
    (hok : ∀ n, ∃ s', s.run (QAct.first f n) = .ok s') :
    ∀ (s1 : IoQ σ Q) (n : Nat), s.run (QAct.first f n) = .ok s1 → s1.Late num R B →
      ∃ k s', s.run (QAct.first f k) = .ok s' ∧ s'.Late num R B ∧ s'.Over := by
  intro s1
  induction s1 using (InvImage.wf (IoQ.work pw cw) lt3_wf).induction with
  | _ s1 ih =>
    intro n h1 hl
    by_cases ho : s1.Over
    · exact ⟨n, s1, h1, hl, ho⟩
    obtain ⟨kd, hu⟩ := hl.useful hL ho
    obtain ⟨m, hm, hk⟩ := hfair kd n
    have stay : ∀ j, (∃ m s2, s.run (QAct.first f m) = .ok s2 ∧ s2.Late num R B ∧
          Lt3 (s2.work pw cw) (s1.work pw cw)) ∨
        ∃ s2, s.run (QAct.first f (n + j)) = .ok s2 ∧ s2.Late num R B ∧ Same s1 s2 := by
      intro j
      induction j with
      | zero => exact Or.inr ⟨s1, h1, hl, .refl _⟩
      | succ j ihj =>
        rcases ihj with ihj | ⟨s2, i1, i2, i3⟩
        · exact Or.inl ihj
        · obtain ⟨s3, h3⟩ := hok (n + j + 1)
          obtain ⟨s2', h4, h5⟩ := run_first_succ.1 h3
          rw [i1] at h4; cases h4
          obtain ⟨k1, k2⟩ := i2.step hQ hL (hnf _) h5
          rcases k2 with k2 | k2
          · exact Or.inr ⟨s3, h3, k1, i3.trans k2⟩
          · exact Or.inl ⟨_, s3, h3, k1, by rw [i3.work] at k2; exact k2⟩
    have key : ∃ m s2, s.run (QAct.first f m) = .ok s2 ∧ s2.Late num R B ∧
        Lt3 (s2.work pw cw) (s1.work pw cw) := by
      rcases stay (m - n) with h | ⟨s2, i1, i2, i3⟩
      · exact h
      · rw [show n + (m - n) = m by omega] at i1
        obtain ⟨s3, h3⟩ := hok (m + 1)
        obtain ⟨s2', h4, h5⟩ := run_first_succ.1 h3
        rw [i1] at h4; cases h4
        have h6 := i2.use hQ hL (hu.same i3) hk h5
        rw [i3.work] at h6
        exact ⟨_, s3, h3, (i2.step hQ hL (hnf _) h5).1, h6⟩
    obtain ⟨m', s2, k1, k2, k3⟩ := key
    exact ih s2 k3 m' k1 k2

end IoQ
end Fstrm
