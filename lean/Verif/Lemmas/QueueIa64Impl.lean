import Verif.Lemmas.QueueIa64
import Verif.Lemmas.QueueLive

/-!
# The lock-free queue on ia64 is what the I/O thread needs
-/

set_option autoImplicit false

namespace Fstrm

open Spec (QEv puts gots visibles freeds seen seenFrom)
open QGhost (upd upd_same upd_ne)

/-- The item of the insert call in progress, as long as it is not in the log. -/
def PPc64.item : PPc64 → Option Bytes
  | .idle => none
  | .loadHead x => some x
  | .loadTail x _ => some x
  | .copy x _ _ _ => some x
  | .fence _ => none

/-- The consumer has looked at the head index. -/
def CPc64.looked : CPc64 → Bool
  | .idle | .loadHead _ => false
  | _ => true

/-- The relation for the lock-free queue on ia64. -/
structure Ia64R (num sz : UInt32) (s : Ia64) (g : QGhost) : Prop where
  rel : ∃ t, s.Rel num sz t
  wait : g.wait 0 = (puts s.log).drop (visibles s.log) ++ s.p.item.toList
  others : ∀ t, t ≠ 0 → g.wait t = [] ∧ g.calling t = false
  calling : g.calling 0 = decide (s.p ≠ .idle)
  fifo : g.fifo = ((puts s.log).take (visibles s.log)).drop (gots s.log).length
  taking : g.taking = decide (s.c ≠ .idle)
  recent : s.c.looked = true → visibles s.log ≤ seen s.log + g.recent

/-- The state of the queue on x86-64 that matches is that of an ideal queue with the same elements. -/
theorem Ia64R.toTso {num sz : UInt32} {s : Ia64} {g : QGhost} (h : Ia64R num sz s g) {t : Tso}
    (ht : s.Rel num sz t) : ∃ g', TsoR num sz t g' ∧ g'.fifo = g.fifo := by
  refine ⟨⟨upd (fun _ => []) 0 ((puts t.log).drop (visibles t.log) ++ t.p.item.toList),
    upd (fun _ => false) 0 t.p.item.isSome, g.fifo, decide (t.c ≠ .idle), visibles t.log⟩,
    ⟨ht.inv, by simp only [upd_same], fun u hu => ⟨by simp only [upd_ne hu], by simp only [upd_ne hu]⟩, by simp only [upd_same], ?_, rfl, ?_⟩, rfl⟩
  · rw [ht.log]; exact h.fifo
  · intro _; exact Nat.le_add_left _ _

theorem TailBuf.mem {n T u : Nat} {buf : List Store} (h : TailBuf n T u buf) {st : Store} (hs : st ∈ buf) :
    ∃ v, st = .tail v := by
  induction buf generalizing u with
  | nil => cases hs
  | cons x buf ih =>
    cases x with
    | tail v =>
      rcases List.mem_cons.1 hs with rfl | hs
      · exact ⟨v, rfl⟩
      · exact ih h.2 hs
    | data => exact h.elim
    | head => exact h.elim

theorem Ia64R.le {num sz : UInt32} {s : Ia64} {g : QGhost} (h : Ia64R num sz s g) :
    visibles s.log ≤ (puts s.log).length := by
  obtain ⟨t, ht⟩ := h.rel
  have := ht.inv.pbuf.le
  rwa [ht.log] at this

theorem Ia64R.prod {num sz : UInt32} {s : Ia64} {g : QGhost} (h : Ia64R num sz s g) (t k : Nat) :
    ∃ s' os g', ia64Queue.prod s t k = .ok (s', os) ∧ g.outs (num.toNat - 1) os = some g' ∧
      Ia64R num sz s' g' := by
  rcases Decidable.em (¬ t = 0) with ht | ht
  · exact ⟨s, [], g, by simp [ia64Queue, ht], rfl, h⟩
  replace ht := Decidable.not_not.1 ht
  obtain ⟨r, hr⟩ := h.rel
  obtain ⟨s', h1, _, r', _, hr', _⟩ := hr.pstep k
  have h2 : ∃ r, s'.Rel num sz r := ⟨r', hr'⟩
  have hstep : ia64Queue.prod s t k =
      .ok (s', (s'.log.drop s.log.length).flatMap Spec.QEv.out64 ++ s.returns) := by
    simp only [ia64Queue, ht, if_true, Ia64.step, h1, Exec.ok_bind]
  refine ⟨s', (s'.log.drop s.log.length).flatMap Spec.QEv.out64 ++ s.returns, ?_⟩
  simp only [hstep, true_and]
  unfold Ia64.pstep at h1
  have hw := h.wait
  have hc := h.calling
  have hvp := h.le
  cases hp : s.p with
  | idle =>
    simp only [hp] at h1
    cases h1
    exact ⟨g, by simp [QGhost.outs, Ia64.returns, hp], h⟩
  | loadHead item =>
    simp only [hp] at h1
    cases h1
    rw [hp] at hw hc
    exact ⟨g, by simp [QGhost.outs, Ia64.returns, hp], ⟨h2, hw, h.others, hc, h.fifo, h.taking, h.recent⟩⟩
  | loadTail item head =>
    simp only [hp] at h1
    rw [hp] at hw hc
    split at h1
    · cases h1
      exact ⟨g, by simp [QGhost.outs, Ia64.returns, hp], ⟨h2, hw, h.others, hc, h.fifo, h.taking, h.recent⟩⟩
    · cases h1
      have hne : g.wait 0 ≠ [] := by rw [hw]; simp [PPc64.item]
      refine ⟨{ g with calling := upd g.calling 0 false, wait := upd g.wait 0 (g.wait 0).dropLast }, ?_, h2, ?_, ?_, ?_, ?_, h.taking, ?_⟩
      · simp [drop_append_self, Spec.QEv.out64, QGhost.outs, QGhost.out, hc, hne, Ia64.returns, hp]
      · simp only [upd_same, hw, PPc64.item, Option.toList, puts_append, visibles_append, puts, visibles,
          List.append_nil, Nat.add_zero, List.dropLast_concat]
      · intro t ht; simp only [upd_ne ht]; exact h.others t ht
      · simp only [upd_same]; rfl
      · simp only [puts_append, visibles_append, gots_append, puts, visibles, gots, List.append_nil, Nat.add_zero]
        exact h.fifo
      · simp only [visibles_append, seen_append, seenFrom, visibles, Nat.add_zero]
        exact h.recent
  | copy item head space todo =>
    rw [hp] at hw hc
    cases todo with
    | nil =>
      simp only [hp] at h1
      split at h1
      · cases h1
        refine ⟨g, ?_, h2, ?_, h.others, hc, ?_, h.taking, ?_⟩
        · simp [drop_append_self, Spec.QEv.out64, QGhost.outs, Ia64.returns, hp]
        · simp only [hw, PPc64.item, Option.toList, puts_append, visibles_append, puts, visibles,
            List.append_nil, Nat.add_zero]
          rw [List.drop_append_of_le_length hvp]
        · simp only [puts_append, visibles_append, gots_append, puts, visibles, gots, List.append_nil, Nat.add_zero]
          rw [List.take_append_of_le_length hvp]
          exact h.fifo
        · simp only [visibles_append, seen_append, seenFrom, visibles, Nat.add_zero]
          exact h.recent
      · cases h1
        exact ⟨g, by simp [QGhost.outs, Ia64.returns, hp], h⟩
    | cons a todo =>
      simp only [hp] at h1
      split at h1
      · cases h1
      · cases h1
        exact ⟨g, by simp [QGhost.outs, Ia64.returns, hp], ⟨h2, hw, h.others, hc, h.fifo, h.taking, h.recent⟩⟩
  | fence space =>
    rw [hp] at hw hc
    simp only [hp] at h1
    by_cases hb : s.pbuf = []
    · rw [if_pos hb] at h1
      cases h1
      refine ⟨{ g with calling := upd g.calling 0 false }, ?_, h2, hw, ?_, ?_, h.fifo, h.taking, h.recent⟩
      · simp [QGhost.outs, QGhost.out, hc, Ia64.returns, hp, hb]
      · intro t ht; simp only [upd_ne ht]; exact h.others t ht
      · simp only [upd_same]; rfl
    · rw [if_neg hb] at h1
      cases h1
      exact ⟨g, by simp [QGhost.outs, Ia64.returns, hp, hb], h⟩

theorem Ia64R.flush {num sz : UInt32} {s : Ia64} {g : QGhost} (h : Ia64R num sz s g) (b : Bool) (i : Nat) :
    ∃ s' os g', ia64Queue.flush s b i = .ok (s', os) ∧ g.outs (num.toNat - 1) os = some g' ∧
      Ia64R num sz s' g' := by
  obtain ⟨r, hr⟩ := h.rel
  obtain ⟨s', h1, _, r', _, hr', _⟩ := hr.step (if b then .pflush i else .cflush i)
  have h2 : ∃ r, s'.Rel num sz r := ⟨r', hr'⟩
  have hstep : ia64Queue.flush s b i = .ok (s', (s'.log.drop s.log.length).flatMap Spec.QEv.out64) := by
    simp only [ia64Queue, h1, Exec.ok_bind]
  refine ⟨s', (s'.log.drop s.log.length).flatMap Spec.QEv.out64, ?_⟩
  simp only [hstep, true_and]
  have hw := h.wait
  have hvp := h.le
  have hroom := hr.inv.room
  have hle := hr.inv.cbuf.le
  have hord := hr.inv.order
  rw [hr.log] at hroom hle hord
  cases b with
  | true =>
    simp only [if_true, Ia64.step] at h1
    split at h1
    · cases h1
      exact ⟨g, by simp [QGhost.outs], h⟩
    · rename_i st hpick
      obtain ⟨q, hq, h1⟩ := Exec.bind_eq_ok.1 h1
      cases h1
      obtain ⟨hi, hst⟩ := pickStore_some hpick
      have hpm := hr.p
      cases st with
      | data off b =>
        refine ⟨g, by simp [QGhost.outs, Tso.commitEv], h2, ?_, h.others, h.calling, ?_, h.taking, ?_⟩ <;>
          simp only [Tso.commitEv, List.append_nil]
        · exact hw
        · exact h.fifo
        · exact h.recent
      | tail v =>
        exfalso
        have hmem : Store.tail v ∈ s.pbuf := hst ▸ List.getElem_mem hi
        cases hp : s.p with
        | idle => rw [hp] at hpm; rw [hpm.2.1] at hmem; cases hmem
        | loadHead x => rw [hp] at hpm; rw [hpm.2.1] at hmem; cases hmem
        | loadTail x y => rw [hp] at hpm; rw [hpm.2.1] at hmem; cases hmem
        | copy x y z w =>
          rw [hp] at hpm
          obtain ⟨_, pend, _, _, e, _⟩ := hpm
          rw [e] at hmem
          obtain ⟨_, _, e⟩ := List.mem_map.1 hmem
          cases e
        | fence sp =>
          rw [hp] at hpm
          obtain ⟨_, e1, e2⟩ := hpm
          have hb := hr.inv.pbuf
          rw [← e1] at hb
          match hpb : s.pbuf, e2, hmem, hb with
          | [x], _, hmem, hb => rw [List.mem_singleton] at hmem; subst hmem; exact hb.elim
          | _ :: _ :: _, e2, _, _ => simp at e2
      | head v =>
        have hmem : Store.head v ∈ s.pbuf := hst ▸ List.getElem_mem hi
        have hlt : visibles s.log < (puts s.log).length := by
          cases hp : s.p with
          | idle => rw [hp] at hpm; rw [hpm.2.1] at hmem; cases hmem
          | loadHead x => rw [hp] at hpm; rw [hpm.2.1] at hmem; cases hmem
          | loadTail x y => rw [hp] at hpm; rw [hpm.2.1] at hmem; cases hmem
          | copy x y z w =>
            rw [hp] at hpm
            obtain ⟨_, pend, _, _, e, _⟩ := hpm
            rw [e] at hmem
            obtain ⟨_, _, e⟩ := List.mem_map.1 hmem
            cases e
          | fence sp =>
            rw [hp] at hpm
            obtain ⟨_, e1, e2⟩ := hpm
            have hb := hr.inv.pbuf
            rw [← e1, hr.log] at hb
            match hpb : s.pbuf, e2, hmem, hb with
            | [x], _, hmem, hb => rw [List.mem_singleton] at hmem; subst hmem; exact hb.2.1
            | _ :: _ :: _, e2, _, _ => simp at e2
        have hd : (puts s.log).drop (visibles s.log) =
            (puts s.log)[visibles s.log] :: (puts s.log).drop (visibles s.log + 1) :=
          List.drop_eq_getElem_cons hlt
        have hfl : g.fifo.length < num.toNat - 1 := by
          rw [h.fifo]
          simp only [List.length_drop, List.length_take]
          omega
        have hwt : g.wait 0 = (puts s.log)[visibles s.log] ::
            ((puts s.log).drop (visibles s.log + 1) ++ s.p.item.toList) := by
          rw [hw, hd]; rfl
        refine ⟨{ g with
          wait := upd g.wait 0 ((puts s.log).drop (visibles s.log + 1) ++ s.p.item.toList)
          fifo := g.fifo ++ [(puts s.log)[visibles s.log]]
          recent := g.recent + 1 }, ?_, h2, ?_, ?_, h.calling, ?_, h.taking, ?_⟩
        · simp only [Tso.commitEv, drop_append_self, List.flatMap_cons, List.flatMap_nil, Spec.QEv.out64,
            List.append_nil, QGhost.outs, QGhost.out, hwt, hfl, if_true]
          rfl
        · simp only [upd_same, Tso.commitEv, puts_append, visibles_append, puts, visibles, List.append_nil, Nat.zero_add]
        · intro t ht; simp only [upd_ne ht]; exact h.others t ht
        · simp only [Tso.commitEv, puts_append, visibles_append, gots_append, puts, visibles, gots,
            List.append_nil, Nat.zero_add, h.fifo]
          rw [← List.take_append_getElem hlt, List.drop_append_of_le_length]
          simp only [List.length_take]; omega
        · intro hl
          have := h.recent hl
          simp only [Tso.commitEv, visibles_append, seen_append, seenFrom, visibles]
          omega
  | false =>
    simp only [Bool.false_eq_true, if_false, Ia64.step] at h1
    split at h1
    · cases h1
      exact ⟨g, by simp [QGhost.outs], h⟩
    · rename_i st hpick
      obtain ⟨q, hq, h1⟩ := Exec.bind_eq_ok.1 h1
      cases h1
      obtain ⟨hi, hst⟩ := pickStore_some hpick
      obtain ⟨v, rfl⟩ : ∃ v, st = .tail v := by
        have hmem : st ∈ s.cbuf := hst ▸ List.getElem_mem hi
        have hb := hr.inv.cbuf
        rw [hr.cbuf] at hb
        exact TailBuf.mem hb hmem
      refine ⟨g, ?_, h2, ?_, h.others, h.calling, ?_, h.taking, ?_⟩
      · simp [Tso.commitEv, Spec.QEv.out64, QGhost.outs]
      · simp only [Tso.commitEv, puts_append, visibles_append, puts, visibles, List.append_nil, Nat.add_zero]
        exact hw
      · simp only [Tso.commitEv, puts_append, visibles_append, gots_append, puts, visibles, gots,
          List.append_nil, Nat.add_zero]
        exact h.fifo
      · simp only [Tso.commitEv, visibles_append, seen_append, seenFrom, visibles, Nat.add_zero]
        exact h.recent

theorem Ia64R.cons {num sz : UInt32} {s : Ia64} {g : QGhost} (h : Ia64R num sz s g) (k : Nat)
    (ht : g.taking = true) :
    ∃ s' r, ia64Queue.cons s k = .ok (s', r) ∧
    match r with
    | none => Ia64R num sz s' g
    | some none => g.fifo.length ≤ g.recent ∧ Ia64R num sz s' { g with taking := false }
    | some (some x) => ∃ rest, g.fifo = x :: rest ∧ Ia64R num sz s' { g with fifo := rest, taking := false } := by
  obtain ⟨r, hr⟩ := h.rel
  obtain ⟨s', h1, _, r', _, hr', _⟩ := hr.cstep k
  have h2 : ∃ r, s'.Rel num sz r := ⟨r', hr'⟩
  have hstep : ia64Queue.cons s k = .ok (s', ((s'.log.drop s.log.length).filterMap Spec.QEv.ret).head?) := by
    simp only [ia64Queue, Ia64.step, h1, Exec.ok_bind]
  refine ⟨s', _, hstep, ?_⟩
  have htk := h.taking
  have hvp := h.le
  have hord := hr.inv.order
  rw [hr.log] at hord
  have hcm := hr.c
  unfold Ia64.cstep at h1
  cases hp : s.c with
  | idle => rw [hp, ht] at htk; cases htk
  | loadHead pre =>
    simp only [hp] at h1
    cases h1
    simp only [drop_append_self, List.filterMap_cons, Spec.QEv.ret, List.filterMap_nil, List.head?_nil]
    refine ⟨h2, ?_, h.others, h.calling, ?_, ?_, ?_⟩
    · simp only [puts_append, visibles_append, puts, visibles, List.append_nil, Nat.add_zero]; exact h.wait
    · simp only [puts_append, visibles_append, gots_append, puts, visibles, gots, List.append_nil, Nat.add_zero]
      exact h.fifo
    · rw [ht]; rfl
    · intro _
      simp only [visibles_append, seen_append, seenFrom, visibles, Nat.add_zero]; omega
  | loadTail head pre =>
    simp only [hp] at h1
    split at h1
    · cases h1
      simp only [List.drop_length, List.filterMap_nil, List.head?_nil]
      refine ⟨h2, h.wait, h.others, h.calling, h.fifo, ?_, ?_⟩
      · rw [ht]; rfl
      · intro _; exact h.recent (by rw [hp]; rfl)
    · cases h1
      simp only [drop_append_self, List.filterMap_cons, Spec.QEv.ret, List.filterMap_nil, List.head?_cons]
      refine ⟨?_, h2, ?_, h.others, h.calling, ?_, rfl, ?_⟩
      · obtain ⟨_, he⟩ := hr'.inv.empties s.log _ [] hr'.log ⟨_, rfl⟩
        have hrc := h.recent (by rw [hp]; rfl)
        rw [h.fifo]
        simp only [List.length_drop, List.length_take]
        omega
      · simp only [puts_append, visibles_append, puts, visibles, List.append_nil, Nat.add_zero]; exact h.wait
      · simp only [puts_append, visibles_append, gots_append, puts, visibles, gots, List.append_nil, Nat.add_zero]
        exact h.fifo
      · intro hl; cases hl
  | copy tail count buf todo =>
    cases todo with
    | nil =>
      simp only [hp] at h1
      split at h1 <;> cases h1
      · simp only [List.drop_length, List.filterMap_nil, List.head?_nil]
        refine ⟨h2, h.wait, h.others, h.calling, h.fifo, ?_, ?_⟩
        · rw [ht]; rfl
        · intro _; exact h.recent (by rw [hp]; rfl)
      · simp only [List.drop_length, List.filterMap_nil, List.head?_nil]
        exact h
    | cons a todo =>
      simp only [hp] at h1
      obtain ⟨⟨buf', todo'⟩, _, h1⟩ := Exec.bind_eq_ok.1 h1
      cases h1
      simp only [List.drop_length, List.filterMap_nil, List.head?_nil]
      refine ⟨h2, h.wait, h.others, h.calling, h.fifo, ?_, ?_⟩
      · rw [ht]; rfl
      · intro _; exact h.recent (by rw [hp]; rfl)
  | store tail count buf =>
    simp only [hp] at h1
    rw [hp] at hcm
    have hc := hr.inv.c
    rw [hcm.1] at hc
    obtain ⟨_, hc2, hc3⟩ := hc
    rw [hr.log] at hc2 hc3
    cases h1
    simp only [drop_append_self, List.filterMap_cons, Spec.QEv.ret, List.filterMap_nil, List.head?_cons]
    have hlt : (gots s.log).length < ((puts s.log).take (visibles s.log)).length := by
      simp only [List.length_take]; omega
    have hd := List.drop_eq_getElem_cons hlt
    have hg : ((puts s.log).take (visibles s.log))[(gots s.log).length] = buf := by
      rw [List.getElem_take]
      exact (List.getElem?_eq_some_iff.1 hc3).2
    rw [hg] at hd
    refine ⟨_, h.fifo.trans hd, h2, ?_, h.others, h.calling, ?_, rfl, ?_⟩
    · simp only [puts_append, visibles_append, puts, visibles, List.append_nil, Nat.add_zero]; exact h.wait
    · simp only [puts_append, visibles_append, gots_append, puts, visibles, gots, List.append_nil, Nat.add_zero,
        List.length_append, List.length_singleton]
    · intro hl; cases hl

/-- With nothing buffered by the producer everything inserted is visible. -/
theorem Ia64R.all {num sz : UInt32} {s : Ia64} {g : QGhost} (h : Ia64R num sz s g) (hb : s.pbuf = []) :
    visibles s.log = (puts s.log).length := by
  obtain ⟨r, hr⟩ := h.rel
  have ht : r.pbuf = [] := by
    have hpm := hr.p
    cases hp : s.p with
    | idle => rw [hp] at hpm; exact hpm.2.2
    | loadHead x => rw [hp] at hpm; exact hpm.2.2
    | loadTail x y => rw [hp] at hpm; exact hpm.2.2
    | copy x y z w =>
      rw [hp] at hpm
      obtain ⟨_, _, _, e, _⟩ := hpm
      exact e
    | fence sp => rw [hp] at hpm; rw [← hpm.2.1]; exact hb
  have hpb := hr.inv.pbuf
  rw [ht, hr.log] at hpb
  exact hpb.1

/-- Between calls of the producer everything inserted is visible. -/
theorem Ia64R.visible {num sz : UInt32} {s : Ia64} {g : QGhost} (h : Ia64R num sz s g) (hp : s.p = .idle) :
    visibles s.log = (puts s.log).length := by
  obtain ⟨r, hr⟩ := h.rel
  have hpm := hr.p
  rw [hp] at hpm
  have hpb := hr.inv.pbuf
  rw [hpm.2.2, hr.log] at hpb
  exact hpb.1

/-- The lock-free queue is correct on ia64. -/
theorem ia64_correct {num sz : UInt32} (hs : QSize num.toNat) (hb : num.toNat * sz.toNat ≤ 2 ^ 32) :
    ia64Queue.Correct num sz (Ia64R num sz) where
  create := by
    obtain ⟨q, hq, -⟩ := Queue.init_rep hb hs
    refine ⟨Ia64.start true q, by simp [ia64Queue, hq], ⟨_, Ia64.Rel.start hq hs hb⟩, rfl, fun _ _ => ⟨rfl, rfl⟩,
      rfl, rfl, rfl, ?_⟩
    intro h; cases h
  insert := by
    intro s g t x s' h hi
    simp only [ia64Queue] at hi
    split at hi
    · rename_i hc
      obtain ⟨rfl, hp, hl⟩ := hc
      cases hi
      have hcl := h.calling
      rw [hp] at hcl
      obtain ⟨r, hr⟩ := h.rel
      obtain ⟨s1, h1, _, r', _, hr', _⟩ := hr.step (.insert x)
      simp only [Ia64.step, hp, hl, and_self, if_true] at h1
      cases h1
      refine ⟨by simpa using hcl, ⟨r', hr'⟩, ?_, ?_, ?_, h.fifo, h.taking, h.recent⟩
      · have hw := h.wait
        rw [hp] at hw
        simp only [upd_same, hw, PPc64.item, Option.toList, List.append_nil]
      · intro t ht; simp only [upd_ne ht]; exact h.others t ht
      · simp only [upd_same]; rfl
    · cases hi
  prod := fun s g t k h => h.prod t k
  flush := fun s g b i h => h.flush b i
  remove := by
    intro s g s' h hi
    simp only [ia64Queue] at hi
    split at hi
    · rename_i hc
      cases hi
      obtain ⟨r, hr⟩ := h.rel
      obtain ⟨s1, h1, _, r', _, hr', _⟩ := hr.step .remove
      simp only [Ia64.step, hc, if_true] at h1
      cases h1
      exact ⟨⟨r', hr'⟩, h.wait, h.others, h.calling, h.fifo, rfl, by intro hl; cases hl⟩
    · cases hi
  removing := by
    intro s g h hi
    simp only [ia64Queue] at hi
    split at hi
    · cases hi
    · rename_i hc
      rw [h.taking]; simpa using hc
  cons := fun s g k h ht => h.cons k ht
  mem := by
    intro s g h hq
    simp only [ia64Queue, decide_eq_true_eq] at hq ⊢
    obtain ⟨r, hr⟩ := h.rel
    obtain ⟨g', h', hf⟩ := h.toTso hr
    have hrep := h'.rep (hr.cbuf.trans hq.2.1)
    rw [hr.q, hf] at hrep
    exact hrep.removeAll _ hrep.room
  settled := by
    intro s g t h hq
    simp only [ia64Queue, decide_eq_true_eq] at hq
    by_cases ht : t = 0
    · subst ht
      have : (puts s.log).drop (visibles s.log) = [] := by
        rw [List.drop_eq_nil_iff]; exact Nat.le_of_eq (h.all hq.1).symm
      rw [h.wait, this, h.calling]
      cases s.p <;> simp [PPc64.item]
    · simp [(h.others t ht).1]

/-! ## Calls end -/

/-- Accesses left in an insert call, those that fill the store buffer counted twice. -/
def PPc64.left (sz : Nat) : PPc64 → Nat
  | .idle => 0
  | .loadHead _ => 2 * sz + 6
  | .loadTail _ _ => 2 * sz + 5
  | .copy _ _ _ todo => 2 * todo.length + 4
  | .fence _ => 1

/-- Accesses left in a remove call. -/
def CPc64.left (sz : Nat) : CPc64 → Nat
  | .idle => sz + 8
  | .loadHead _ => sz + 7
  | .loadTail _ _ => sz + 6
  | .copy _ _ _ todo => todo.length + 3
  | .store _ _ _ => 2

/-- Work left for the producer. -/
def Ia64.pw (sz : Nat) (s : Ia64) : Nat := s.p.left sz + s.pbuf.length

/-- Work left for the consumer. -/
def Ia64.cw (sz : Nat) (s : Ia64) : Nat := s.c.left sz + s.cbuf.length

theorem Ia64.pstep_left {s s' : Ia64} {k sz : Nat} (hsz : s.q.sz.toNat = sz) (hp : s.p ≠ .idle)
    (h : s.pstep k = .ok s') : s'.pw sz < s.pw sz ∨ (s' = s ∧ s.pbuf ≠ []) := by
  unfold Ia64.pstep at h
  split at h
  · rename_i e; exact absurd e hp
  · rename_i e; cases h; left; simp only [pw, e, PPc64.left]; omega
  · rename_i e
    simp only at h
    left
    split at h <;> cases h <;> simp only [pw, e, PPc64.left, List.length_range, hsz] <;> omega
  · rename_i e
    split at h
    · cases h; left; simp only [pw, e, PPc64.left, List.length_append, List.length_cons, List.length_nil]; omega
    · rename_i hb; cases h; exact Or.inr ⟨rfl, hb⟩
  · rename_i t todo e
    simp only at h
    split at h
    · cases h
    · cases h
      left
      simp only [pw, e, PPc64.left, List.length_append, erase_choose_length, List.length_cons, List.length_nil]
      omega
  · rename_i e
    split at h
    · cases h; left; simp only [pw, e, PPc64.left]; omega
    · rename_i hb; cases h; exact Or.inr ⟨rfl, hb⟩

theorem Ia64.cstep_left {s s' : Ia64} {k sz : Nat} (hsz : s.q.sz.toNat = sz) (hc : s.c ≠ .idle)
    (hpre : s.c = .idle ∨ (∃ t, CMatch s.cbuf t s.c))
    (h : s.cstep k = .ok s') : s'.p = s.p ∧ s'.pbuf = s.pbuf ∧
      (s'.cw sz < s.cw sz ∨ (s' = s ∧ s.cbuf ≠ []) ∨ ∃ e r, s'.log = s.log ++ [e] ∧ e.ret = some r) := by
  rcases hpre with hpre | ⟨t, hm⟩
  · exact absurd hpre hc
  unfold Ia64.cstep at h
  split at h
  · rename_i e; exact absurd e hc
  · rename_i e; cases h
    exact ⟨rfl, rfl, Or.inl (by simp only [cw, e, CPc64.left]; omega)⟩
  · rename_i e
    rw [e] at hm
    obtain ⟨_, rfl, _⟩ := hm
    simp only [Option.getD_none] at h
    split at h <;> cases h
    · exact ⟨rfl, rfl, Or.inl (by simp only [cw, e, CPc64.left, List.length_range, hsz]; omega)⟩
    · exact ⟨rfl, rfl, Or.inr (Or.inr ⟨_, _, rfl, rfl⟩)⟩
  · rename_i e
    split at h
    · cases h
      exact ⟨rfl, rfl, Or.inl (by simp only [cw, e, CPc64.left, List.length_nil]; omega)⟩
    · rename_i hb
      cases h
      exact ⟨rfl, rfl, Or.inr (Or.inl ⟨rfl, hb⟩)⟩
  · rename_i t todo e
    obtain ⟨⟨buf', todo'⟩, h1, h⟩ := Exec.bind_eq_ok.1 h
    cases h
    unfold Ia64.readByte at h1
    simp only at h1
    split at h1
    · cases h1
    · cases h1
      refine ⟨rfl, rfl, Or.inl ?_⟩
      simp only [cw, e, CPc64.left, erase_choose_length, List.length_cons]; omega
  · rename_i e
    cases h
    exact ⟨rfl, rfl, Or.inr (Or.inr ⟨_, _, rfl, rfl⟩)⟩

theorem pickStore_zero (st : Store) (l : List Store) : pickStore (st :: l) 0 = some st := rfl

theorem ia64_flush_helped {s : Ia64} {b : Bool} (hb : (if b then s.pbuf else s.cbuf) ≠ []) :
    ∀ s' os, ia64Queue.flush s b 0 = .ok (s', os) → (s', os) ≠ (s, []) := by
  intro s' os h he
  cases he
  simp only [ia64Queue] at h
  obtain ⟨s1, h1, h⟩ := Exec.bind_eq_ok.1 h
  simp only [Except.ok.injEq, Prod.mk.injEq] at h
  obtain ⟨rfl, _⟩ := h
  cases b
  · simp only [Bool.false_eq_true, if_false, Ia64.step] at h1 hb
    cases e : s1.cbuf with
    | nil => exact hb e
    | cons st rest =>
      simp only [e, pickStore_zero] at h1
      obtain ⟨q, h2, h1⟩ := Exec.bind_eq_ok.1 h1
      have := congrArg (fun x => (Except.toOption x).map fun s : Ia64 => s.cbuf.length) h1
      simp [Except.toOption, e] at this
  · simp only [if_true, Ia64.step] at h1 hb
    cases e : s1.pbuf with
    | nil => exact hb e
    | cons st rest =>
      simp only [e, pickStore_zero] at h1
      obtain ⟨q, h2, h1⟩ := Exec.bind_eq_ok.1 h1
      have := congrArg (fun x => (Except.toOption x).map fun s : Ia64 => s.pbuf.length) h1
      simp [Except.toOption, e] at this

theorem Ia64R.sz {num sz : UInt32} {s : Ia64} {g : QGhost} (h : Ia64R num sz s g) : s.q.sz = sz := by
  obtain ⟨r, hr⟩ := h.rel
  rw [← hr.q]; exact hr.inv.hsz

/-- Calls on the lock-free queue end on ia64 too. -/
theorem ia64_live {num sz : UInt32} (B : Nat) :
    ia64Queue.Live (Ia64R num sz) B (Ia64.pw sz.toNat) (Ia64.cw sz.toNat) where
  prod := by
    intro s g t k s' os h _ hs
    simp only [ia64Queue] at hs
    split at hs
    · obtain ⟨s1, h1, hs⟩ := Exec.bind_eq_ok.1 hs
      cases hs
      simp only [Ia64.step] at h1
      by_cases hp : s.p = .idle
      · simp only [Ia64.pstep, hp] at h1
        cases h1
        exact Or.inl ⟨rfl, by simp [Ia64.returns, hp]⟩
      · rcases Ia64.pstep_left (by rw [h.sz]) hp h1 with hl | ⟨rfl, hb⟩
        · exact Or.inr hl
        · refine Or.inl ⟨rfl, ?_⟩
          simp only [List.drop_length, List.flatMap_nil, List.nil_append, Ia64.returns]
          split
          · rw [if_neg hb]
          · rfl
    · cases hs; exact Or.inl ⟨rfl, rfl⟩
  flush := by
    intro s g b i s' os h hs
    simp only [ia64Queue] at hs
    obtain ⟨s1, h1, hs⟩ := Exec.bind_eq_ok.1 hs
    cases hs
    cases b
    · simp only [Bool.false_eq_true, if_false, Ia64.step] at h1
      split at h1
      · cases h1; exact Or.inl ⟨rfl, by simp⟩
      · rename_i st e
        obtain ⟨q, h2, h1⟩ := Exec.bind_eq_ok.1 h1
        cases h1
        obtain ⟨hi, hst⟩ := pickStore_some e
        obtain ⟨r, hr⟩ := h.rel
        have hc := hr.inv.cbuf
        rw [hr.cbuf] at hc
        obtain ⟨v, rfl⟩ := TailBuf.mem hc (hst ▸ List.getElem_mem hi)
        refine Or.inr (Or.inr ⟨?_, rfl, ?_⟩)
        · simp [Tso.commitEv, Spec.QEv.out64]
        · simp only [Ia64.cw, List.length_eraseIdx, hi, if_true]; omega
    · simp only [if_true, Ia64.step] at h1
      split at h1
      · cases h1; exact Or.inl ⟨rfl, by simp⟩
      · rename_i st e
        obtain ⟨q, h2, h1⟩ := Exec.bind_eq_ok.1 h1
        cases h1
        obtain ⟨hi, hst⟩ := pickStore_some e
        exact Or.inr (Or.inl (by simp only [Ia64.pw, List.length_eraseIdx, hi, if_true]; omega))
  remove := by
    intro s g s' h hs
    simp only [ia64Queue] at hs
    split at hs
    · rename_i e
      cases hs
      exact ⟨rfl, by simp only [Ia64.cw, e, CPc64.left]; omega⟩
    · cases hs
  cons := by
    intro s g k s' r h ht hs
    simp only [ia64Queue] at hs
    obtain ⟨s1, h1, hs⟩ := Exec.bind_eq_ok.1 hs
    cases hs
    have hc : s.c ≠ .idle := by
      have := h.taking
      rw [ht] at this
      simpa using this.symm
    obtain ⟨r, hr⟩ := h.rel
    obtain ⟨e1, e2, e3⟩ := Ia64.cstep_left (by rw [h.sz]) hc (Or.inr ⟨_, hr.c⟩) h1
    refine ⟨by simp only [Ia64.pw, e1, e2], fun hr => ?_⟩
    rcases e3 with e3 | ⟨e3, e4⟩ | ⟨e, x, e3, e4⟩
    · exact Or.inl e3
    · exact Or.inr ⟨e3, Or.inr ⟨false, ia64_flush_helped (by simpa using e4)⟩⟩
    · rw [e3] at hr
      simp [e4] at hr
  busy := by
    intro s g h ht hb
    have hc : s.c = .idle := by
      have := h.taking
      rw [ht] at this
      simpa using this.symm
    by_cases h1 : s.pbuf = []
    · by_cases h2 : s.cbuf = []
      · rcases hb with hb | ⟨t, hb⟩
        · simp [ia64Queue, h1, h2, hc] at hb
        · have ht0 : t = 0 := by
            by_cases h0 : t = 0
            · exact h0
            · rw [(h.others t h0).2] at hb; cases hb
          subst ht0
          rw [h.calling] at hb
          have hp : s.p ≠ .idle := by simpa using hb
          refine Or.inl ⟨0, fun k s' os hs he => ?_⟩
          cases he
          simp only [ia64Queue, if_true] at hs
          obtain ⟨s1, h3, hs⟩ := Exec.bind_eq_ok.1 hs
          have hs : s1 = s := congrArg Prod.fst (Except.ok.inj hs)
          subst hs
          rcases Ia64.pstep_left (by rw [h.sz]) hp h3 with hl | ⟨_, hb⟩
          · exact absurd hl (Nat.lt_irrefl _)
          · exact hb h1
      · exact Or.inr ⟨false, ia64_flush_helped (by simpa using h2)⟩
    · exact Or.inr ⟨true, ia64_flush_helped (by simpa using h1)⟩

/-- One of three implementations is chosen. -/
theorem queueImpl_cases {P : QImpl → Prop} (o : IothrOptions) (m : Machine) (h1 : P tsoQueue) (h2 : P ia64Queue)
    (h3 : P mutexQueue) : P (o.queueImpl m) := by
  unfold IothrOptions.queueImpl
  split
  · cases m
    · exact h1
    · exact h2
    · exact h3
  · exact h3

end Fstrm
