import Verif.Model.IothrQueues
import Verif.Lemmas.QueueMt

/-!
# What the I/O thread needs of a queue implementation, and that both have it
-/

set_option autoImplicit false

namespace Fstrm

open Spec (QEv puts gots visibles freeds seen seenFrom QOp QRes fifoStep fifoRun Call Linear)

/-- An ideal queue. `wait t`: insertions of thread `t` that have not taken effect, oldest first.
`calling t`: thread `t` is in an insert call. `fifo`: the elements that can be removed.
`taking`: the consumer is in a remove call; `recent`: insertions that have taken effect since that
call began. -/
structure QGhost where
  wait : Nat → List Bytes
  calling : Nat → Bool
  fifo : List Bytes
  taking : Bool
  recent : Nat

namespace QGhost

/-- Change a function at one place. -/
def upd {α : Type} (f : Nat → α) (a : Nat) (x : α) : Nat → α := fun a' => if a' = a then x else f a'

theorem upd_same {α : Type} (f : Nat → α) (a : Nat) (x : α) : upd f a x a = x := if_pos rfl

theorem upd_ne {α : Type} {f : Nat → α} {a b : Nat} {x : α} (h : b ≠ a) : upd f a x b = f b := if_neg h

/-- The empty queue. -/
def empty : QGhost := ⟨fun _ => [], fun _ => false, [], false, 0⟩

/-- What an event means for the ideal queue; `none`: it is not possible. -/
def out (cap : Nat) (g : QGhost) : QOut → Option QGhost
  | .effect t =>
    match g.wait t with
    | [] => none
    | x :: rest =>
      if g.fifo.length < cap then
        some { g with wait := upd g.wait t rest, fifo := g.fifo ++ [x], recent := g.recent + 1 }
      else none
  | .ins t ok _ =>
    if g.calling t then
      if ok then some { g with calling := upd g.calling t false }
      else if g.wait t = [] then none
      else some { g with calling := upd g.calling t false, wait := upd g.wait t (g.wait t).dropLast }
    else none

/-- Several events. -/
def outs (cap : Nat) (g : QGhost) : List QOut → Option QGhost
  | [] => some g
  | o :: os => (g.out cap o).bind fun g => g.outs cap os

end QGhost

open QGhost (upd upd_same upd_ne)

/-- `Q` implements the ideal queue, `R` relating the states. -/
structure QImpl.Correct (Q : QImpl) (num sz : UInt32) (R : Q.S → QGhost → Prop) : Prop where
  create : ∃ s, Q.create num sz = some s ∧ R s .empty
  insert : ∀ s g t x s', R s g → Q.insert s t x = some s' → g.calling t = false ∧
    R s' { g with wait := upd g.wait t (g.wait t ++ [x]), calling := upd g.calling t true }
  prod : ∀ s g t k, R s g → ∃ s' os g', Q.prod s t k = .ok (s', os) ∧
    g.outs (num.toNat - 1) os = some g' ∧ R s' g'
  flush : ∀ s g b i, R s g → ∃ s' os g', Q.flush s b i = .ok (s', os) ∧
    g.outs (num.toNat - 1) os = some g' ∧ R s' g'
  remove : ∀ s g s', R s g → Q.remove s = some s' → R s' { g with taking := true, recent := 0 }
  removing : ∀ s g, R s g → Q.remove s = none → g.taking = true
  cons : ∀ s g k, R s g → g.taking = true → ∃ s' r, Q.cons s k = .ok (s', r) ∧
    match r with
    | none => R s' g
    | some none => g.fifo.length ≤ g.recent ∧ R s' { g with taking := false }
    | some (some x) => ∃ rest, g.fifo = x :: rest ∧ R s' { g with fifo := rest, taking := false }
  mem : ∀ s g, R s g → Q.quiet s = true → (Q.mem s).removeAll (Q.mem s).num.toNat = .ok g.fifo
  settled : ∀ s g t, R s g → Q.quiet s = true → (g.wait t).length ≤ (g.calling t).toNat

/-! ## Emptying a queue -/

theorem Queue.Rep.removeAll {q : Queue} {U : Nat} {xs : List Bytes} (h : q.Rep U xs) (n : Nat)
    (hn : xs.length < n) : q.removeAll n = .ok xs := by
  induction n generalizing q U xs with
  | zero => omega
  | succ n ih =>
    obtain ⟨r, ct, q', U', h1, h2, h3, _, _⟩ := h.remove
    unfold Queue.removeAll
    rw [h1, Exec.ok_bind]
    cases xs with
    | nil =>
      simp only [fifoStep, QRes.rem.injEq] at h2
      obtain ⟨rfl, _⟩ := h2
      rfl
    | cons x rest =>
      simp only [fifoStep, QRes.rem.injEq] at h2 h3
      obtain ⟨rfl, _⟩ := h2
      simp only [List.length_cons] at hn
      simp only [ih h3 (by omega), Exec.ok_bind]

/-! ## The lock-free queue -/

/-- The item of the insert call in progress. -/
def PPc.item : PPc → Option Bytes
  | .idle => none
  | .loadHead x => some x
  | .loadTail x _ => some x
  | .copy x _ _ _ => some x

/-- The consumer has looked at the head index. -/
def CPc.looked : CPc → Bool
  | .idle | .loadHead => false
  | _ => true

/-- The relation for the lock-free queue. -/
structure TsoR (num sz : UInt32) (s : Tso) (g : QGhost) : Prop where
  inv : s.Inv num sz
  wait : g.wait 0 = (puts s.log).drop (visibles s.log) ++ s.p.item.toList
  others : ∀ t, t ≠ 0 → g.wait t = [] ∧ g.calling t = false
  calling : g.calling 0 = s.p.item.isSome
  fifo : g.fifo = ((puts s.log).take (visibles s.log)).drop (gots s.log).length
  taking : g.taking = decide (s.c ≠ .idle)
  recent : s.c.looked = true → visibles s.log ≤ seen s.log + g.recent

theorem drop_append_self {α : Type} (a b : List α) : (a ++ b).drop a.length = b := by simp

theorem TsoR.prod {num sz : UInt32} {s : Tso} {g : QGhost} (h : TsoR num sz s g) (t k : Nat) :
    ∃ s' os g', tsoQueue.prod s t k = .ok (s', os) ∧ g.outs (num.toNat - 1) os = some g' ∧
      TsoR num sz s' g' := by
  rcases Decidable.em (¬ t = 0) with ht | ht
  · exact ⟨s, [], g, by simp [tsoQueue, ht], rfl, h⟩
  replace ht := Decidable.not_not.1 ht
  obtain ⟨s', h1, h2⟩ := h.inv.step (.pstep k)
  have h1' := h1
  simp only [Tso.step, Tso.pstep] at h1
  have hstep : tsoQueue.prod s t k = .ok (s', (s'.log.drop s.log.length).flatMap Spec.QEv.out) := by
    simp only [tsoQueue, ht, if_true, h1', Exec.ok_bind]
  refine ⟨s', (s'.log.drop s.log.length).flatMap Spec.QEv.out, ?_⟩
  simp only [hstep, true_and]
  have hw := h.wait
  have hc := h.calling
  have hvp := h.inv.pbuf.le
  split at h1
  · rename_i hp
    cases h1
    exact ⟨g, by simp [QGhost.outs], h⟩
  · rename_i item hp
    cases h1
    rw [hp] at hw hc
    exact ⟨g, by simp [QGhost.outs], ⟨h2, hw, h.others, hc, h.fifo, h.taking, h.recent⟩⟩
  · rename_i item head hp
    rw [hp] at hw hc
    split at h1
    · cases h1
      exact ⟨g, by simp [QGhost.outs], ⟨h2, hw, h.others, hc, h.fifo, h.taking, h.recent⟩⟩
    · cases h1
      have hne : g.wait 0 ≠ [] := by rw [hw]; simp [PPc.item]
      refine ⟨{ g with calling := upd g.calling 0 false, wait := upd g.wait 0 (g.wait 0).dropLast }, ?_, h2, ?_, ?_, ?_, ?_, h.taking, ?_⟩
      · simp only [drop_append_self, List.flatMap_cons, List.flatMap_nil, Spec.QEv.out, List.append_nil,
          QGhost.outs, QGhost.out, hc, PPc.item, Option.isSome_some, if_true, if_neg hne]
        rfl
      · simp only [upd_same, hw, PPc.item, Option.toList, puts_append, visibles_append, puts, visibles,
          List.append_nil, Nat.add_zero, List.dropLast_concat]
      · intro t ht; simp only [upd_ne ht]; exact h.others t ht
      · simp only [upd_same]; rfl
      · simp only [puts_append, visibles_append, gots_append, puts, visibles, gots, List.append_nil, Nat.add_zero]
        exact h.fifo
      · simp only [visibles_append, seen_append, seenFrom, visibles, Nat.add_zero]
        exact h.recent
  · rename_i item head space hp
    rw [hp] at hw hc
    cases h1
    refine ⟨{ g with calling := upd g.calling 0 false }, ?_, h2, ?_, ?_, ?_, ?_, h.taking, ?_⟩
    · simp only [drop_append_self, List.flatMap_cons, List.flatMap_nil, Spec.QEv.out, List.append_nil,
        QGhost.outs, QGhost.out, hc, PPc.item, Option.isSome_some, if_true]
      rfl
    · simp only [hw, PPc.item, Option.toList, puts_append, visibles_append, puts, visibles,
        List.append_nil, Nat.add_zero]
      rw [List.drop_append_of_le_length hvp]
    · intro t ht; simp only [upd_ne ht]; exact h.others t ht
    · simp only [upd_same]; rfl
    · simp only [puts_append, visibles_append, gots_append, puts, visibles, gots, List.append_nil, Nat.add_zero]
      rw [List.take_append_of_le_length hvp]
      exact h.fifo
    · simp only [visibles_append, seen_append, seenFrom, visibles, Nat.add_zero]
      exact h.recent
  · rename_i item head space t0 todo hp
    rw [hp] at hw hc
    split at h1
    · cases h1
    · cases h1
      exact ⟨g, by simp [QGhost.outs], ⟨h2, hw, h.others, hc, h.fifo, h.taking, h.recent⟩⟩

theorem TsoR.flush {num sz : UInt32} {s : Tso} {g : QGhost} (h : TsoR num sz s g) (b : Bool) (i : Nat) :
    ∃ s' os g', tsoQueue.flush s b i = .ok (s', os) ∧ g.outs (num.toNat - 1) os = some g' ∧
      TsoR num sz s' g' := by
  obtain ⟨s', h1, h2⟩ := h.inv.step (if b then .pflush else .cflush)
  have h1' := h1
  have hstep : tsoQueue.flush s b i = .ok (s', (s'.log.drop s.log.length).flatMap Spec.QEv.out) := by
    simp only [tsoQueue, h1', Exec.ok_bind]
  refine ⟨s', (s'.log.drop s.log.length).flatMap Spec.QEv.out, ?_⟩
  simp only [hstep, true_and]
  have hw := h.wait
  have hvp := h.inv.pbuf.le
  have hroom := h.inv.room
  have hle := h.inv.cbuf.le
  have hord := h.inv.order
  cases b with
  | true =>
    simp only [if_true, Tso.step] at h1
    split at h1
    · cases h1
      exact ⟨g, by simp [QGhost.outs], h⟩
    · rename_i st rest hb
      obtain ⟨q, hq, h1⟩ := Exec.bind_eq_ok.1 h1
      cases h1
      have hpb := h.inv.pbuf
      rw [hb] at hpb
      cases st with
      | tail v => exact hpb.elim
      | data off b =>
        refine ⟨g, by simp [QGhost.outs, Tso.commitEv], h2, ?_, h.others, h.calling, ?_, h.taking, ?_⟩ <;>
          simp only [Tso.commitEv, List.append_nil]
        · exact hw
        · exact h.fifo
        · exact h.recent
      | head v =>
        have hlt : visibles s.log < (puts s.log).length := hpb.2.1
        have hd : (puts s.log).drop (visibles s.log) =
            (puts s.log)[visibles s.log] :: (puts s.log).drop (visibles s.log + 1) :=
          List.drop_eq_getElem_cons hlt
        have hfl : g.fifo.length < num.toNat - 1 := by
          rw [h.fifo]
          simp only [List.length_drop, List.length_take]
          omega
        have hwt : g.wait 0 = (puts s.log)[visibles s.log] ::
            ((puts s.log).drop (visibles s.log + 1) ++ s.p.item.toList) := by
          rw [hw, hd]; rfl
        refine ⟨{ g with
          wait := upd g.wait 0 ((puts s.log).drop (visibles s.log + 1) ++ s.p.item.toList)
          fifo := g.fifo ++ [(puts s.log)[visibles s.log]]
          recent := g.recent + 1 }, ?_, h2, ?_, ?_, h.calling, ?_, h.taking, ?_⟩
        · simp only [Tso.commitEv, drop_append_self, List.flatMap_cons, List.flatMap_nil, Spec.QEv.out,
            List.append_nil, QGhost.outs, QGhost.out, hwt, hfl, if_true]
          rfl
        · simp only [upd_same, Tso.commitEv, puts_append, visibles_append, puts, visibles, List.append_nil, Nat.zero_add]
        · intro t ht; simp only [upd_ne ht]; exact h.others t ht
        · simp only [Tso.commitEv, puts_append, visibles_append, gots_append, puts, visibles, gots,
            List.append_nil, Nat.zero_add, h.fifo]
          rw [← List.take_append_getElem hlt, List.drop_append_of_le_length]
          simp only [List.length_take]; omega
        · intro hl
          have := h.recent hl
          simp only [Tso.commitEv, visibles_append, seen_append, seenFrom, visibles]
          omega
  | false =>
    simp only [Bool.false_eq_true, if_false, Tso.step] at h1
    split at h1
    · cases h1
      exact ⟨g, by simp [QGhost.outs], h⟩
    · rename_i st rest hb
      obtain ⟨q, hq, h1⟩ := Exec.bind_eq_ok.1 h1
      cases h1
      have hpb := h.inv.cbuf
      rw [hb] at hpb
      cases st with
      | data off b => exact hpb.elim
      | head v => exact hpb.elim
      | tail v =>
        refine ⟨g, ?_, h2, ?_, h.others, h.calling, ?_, h.taking, ?_⟩
        · simp [Tso.commitEv, Spec.QEv.out, QGhost.outs]
        · simp only [Tso.commitEv, puts_append, visibles_append, puts, visibles, List.append_nil, Nat.add_zero]
          exact hw
        · simp only [Tso.commitEv, puts_append, visibles_append, gots_append, puts, visibles, gots,
            List.append_nil, Nat.add_zero]
          exact h.fifo
        · simp only [Tso.commitEv, visibles_append, seen_append, seenFrom, visibles, Nat.add_zero]
          exact h.recent

theorem TsoR.cons {num sz : UInt32} {s : Tso} {g : QGhost} (h : TsoR num sz s g) (k : Nat)
    (ht : g.taking = true) :
    ∃ s' r, tsoQueue.cons s k = .ok (s', r) ∧
    match r with
    | none => TsoR num sz s' g
    | some none => g.fifo.length ≤ g.recent ∧ TsoR num sz s' { g with taking := false }
    | some (some x) => ∃ rest, g.fifo = x :: rest ∧ TsoR num sz s' { g with fifo := rest, taking := false } := by
  obtain ⟨s', h1, h2⟩ := h.inv.step (.cstep k)
  have h1' := h1
  simp only [Tso.step, Tso.cstep] at h1
  have hstep : tsoQueue.cons s k = .ok (s', ((s'.log.drop s.log.length).filterMap Spec.QEv.ret).head?) := by
    simp only [tsoQueue, h1', Exec.ok_bind]
  refine ⟨s', _, hstep, ?_⟩
  have htk := h.taking
  have hvp := h.inv.pbuf.le
  have hord := h.inv.order
  split at h1
  · rename_i hp
    rw [hp, ht] at htk; cases htk
  · rename_i hp
    cases h1
    simp only [drop_append_self, List.filterMap_cons, Spec.QEv.ret, List.filterMap_nil, List.head?_nil]
    refine ⟨h2, ?_, h.others, h.calling, ?_, ?_, ?_⟩
    · simp only [puts_append, visibles_append, puts, visibles, List.append_nil, Nat.add_zero]; exact h.wait
    · simp only [puts_append, visibles_append, gots_append, puts, visibles, gots, List.append_nil, Nat.add_zero]
      exact h.fifo
    · rw [ht]; rfl
    · intro _
      simp only [visibles_append, seen_append, seenFrom, visibles, Nat.add_zero]; omega
  · rename_i head hp
    split at h1
    · cases h1
      simp only [List.drop_length, List.filterMap_nil, List.head?_nil]
      refine ⟨h2, h.wait, h.others, h.calling, h.fifo, ?_, ?_⟩
      · rw [ht]; rfl
      · intro _; exact h.recent (by rw [hp]; rfl)
    · cases h1
      simp only [drop_append_self, List.filterMap_cons, Spec.QEv.ret, List.filterMap_nil, List.head?_cons]
      refine ⟨?_, h2, ?_, h.others, h.calling, ?_, rfl, ?_⟩
      · obtain ⟨_, he⟩ := h2.empties s.log _ [] rfl ⟨_, rfl⟩
        have hr := h.recent (by rw [hp]; rfl)
        rw [h.fifo]
        simp only [List.length_drop, List.length_take]
        omega
      · simp only [puts_append, visibles_append, puts, visibles, List.append_nil, Nat.add_zero]; exact h.wait
      · simp only [puts_append, visibles_append, gots_append, puts, visibles, gots, List.append_nil, Nat.add_zero]
        exact h.fifo
      · intro hl; cases hl
  · rename_i tail count buf hp
    split at h1 <;> cases h1
    · simp only [List.drop_length, List.filterMap_nil, List.head?_nil]
      refine ⟨h2, h.wait, h.others, h.calling, h.fifo, ?_, ?_⟩
      · rw [ht]; rfl
      · intro _; exact h.recent (by rw [hp]; rfl)
    · simp only [List.drop_length, List.filterMap_nil, List.head?_nil]
      exact h
  · rename_i tail count buf t0 todo hp
    split at h1
    · cases h1
    · cases h1
      simp only [List.drop_length, List.filterMap_nil, List.head?_nil]
      refine ⟨h2, h.wait, h.others, h.calling, h.fifo, ?_, ?_⟩
      · rw [ht]; rfl
      · intro _; exact h.recent (by rw [hp]; rfl)
  · rename_i tail count buf hp
    have hc := h.inv.c
    rw [hp] at hc
    obtain ⟨_, hc2, hc3⟩ := hc
    cases h1
    simp only [drop_append_self, List.filterMap_cons, Spec.QEv.ret, List.filterMap_nil, List.head?_cons]
    have hlt : (gots s.log).length < ((puts s.log).take (visibles s.log)).length := by
      simp only [List.length_take]; omega
    have hd := List.drop_eq_getElem_cons hlt
    have hg : ((puts s.log).take (visibles s.log))[(gots s.log).length] = buf := by
      rw [List.getElem_take]
      exact (List.getElem?_eq_some_iff.1 hc3).2
    rw [hg] at hd
    refine ⟨_, h.fifo.trans hd, h2, ?_, h.others, h.calling, ?_, rfl, ?_⟩
    · simp only [puts_append, visibles_append, puts, visibles, List.append_nil, Nat.add_zero]; exact h.wait
    · simp only [puts_append, visibles_append, gots_append, puts, visibles, gots, List.append_nil, Nat.add_zero,
        List.length_append, List.length_singleton]
    · intro hl; cases hl

theorem TsoR.rep {num sz : UInt32} {s : Tso} {g : QGhost} (h : TsoR num sz s g)
    (hc : s.cbuf = []) : s.q.Rep (gots s.log).length g.fifo := by
  have hi := h.inv
  have hcb := hi.cbuf
  rw [hc] at hcb
  have hf : freeds s.log = (gots s.log).length := hcb
  have hroom := hi.room
  have hvp := hi.pbuf.le
  have hord := hi.order
  have hlen : g.fifo.length = visibles s.log - (gots s.log).length := by
    rw [h.fifo]; simp only [List.length_drop, List.length_take]; omega
  refine ⟨by rw [hi.hnum]; exact hi.size, by rw [hi.hnum, hi.hsz]; exact hi.small,
    by rw [hi.hnum, hi.hsz]; exact hi.mem, by rw [hi.hnum, hlen]; omega, ?_, ?_, ?_, ?_⟩
  · rw [hi.hnum, hlen, hi.head]; congr 1; omega
  · rw [hi.hnum, hi.tail, hf]
  · intro x hx
    rw [hi.hsz]
    rw [h.fifo] at hx
    exact hi.lens x (List.mem_of_mem_take (List.mem_of_mem_drop hx))
  · intro j x hx i hz
    rw [hi.hsz] at hz
    rw [hi.hnum, hi.hsz]
    rw [h.fifo, List.getElem?_drop] at hx
    have hlt : (gots s.log).length + j < visibles s.log := by
      rcases Nat.lt_or_ge ((gots s.log).length + j) (visibles s.log) with hl | hl
      · exact hl
      · rw [List.getElem?_eq_none (by simp only [List.length_take]; omega)] at hx; cases hx
    rw [List.getElem?_take_of_lt hlt] at hx
    exact hi.slots _ x (by omega) hlt hx i hz

/-- The lock-free queue is correct. -/
theorem tso_correct {num sz : UInt32} (hs : QSize num.toNat) (hb : num.toNat * sz.toNat ≤ 2 ^ 32) :
    tsoQueue.Correct num sz (TsoR num sz) where
  create := by
    obtain ⟨q, hq, -⟩ := Queue.init_rep hb hs
    refine ⟨Tso.start q, by simp [tsoQueue, hq], Tso.Inv.start hq hs hb, rfl, fun _ _ => ⟨rfl, rfl⟩, rfl, rfl,
      rfl, ?_⟩
    intro h; cases h
  insert := by
    intro s g t x s' h hi
    simp only [tsoQueue] at hi
    split at hi
    · rename_i hc
      obtain ⟨rfl, hp, hl⟩ := hc
      cases hi
      have hcl := h.calling
      rw [hp] at hcl
      obtain ⟨s1, h1, h2⟩ := h.inv.step (.insert x)
      simp only [Tso.step, hp, hl, and_self, if_true] at h1
      cases h1
      refine ⟨hcl, h2, ?_, ?_, ?_, h.fifo, h.taking, h.recent⟩
      · have hw := h.wait
        rw [hp] at hw
        simp only [upd_same, hw, PPc.item, Option.toList, List.append_nil]
      · intro t ht; simp only [upd_ne ht]; exact h.others t ht
      · simp only [upd_same]; rfl
    · cases hi
  prod := fun s g t k h => h.prod t k
  flush := fun s g b i h => h.flush b i
  remove := by
    intro s g s' h hi
    simp only [tsoQueue] at hi
    split at hi
    · rename_i hc
      cases hi
      obtain ⟨s1, h1, h2⟩ := h.inv.step .remove
      simp only [Tso.step, hc, if_true] at h1
      cases h1
      exact ⟨h2, h.wait, h.others, h.calling, h.fifo, rfl, by intro hl; cases hl⟩
    · cases hi
  removing := by
    intro s g h hi
    simp only [tsoQueue] at hi
    split at hi
    · cases hi
    · rename_i hc
      rw [h.taking]; simpa using hc
  cons := fun s g k h ht => h.cons k ht
  mem := by
    intro s g h hq
    simp only [tsoQueue, decide_eq_true_eq] at hq ⊢
    have hr := h.rep hq.2.1
    exact hr.removeAll _ hr.room
  settled := by
    intro s g t h hq
    simp only [tsoQueue, decide_eq_true_eq] at hq
    by_cases ht : t = 0
    · subst ht
      have hb := h.inv.pbuf
      rw [hq.1] at hb
      have : (puts s.log).drop (visibles s.log) = [] := by
        rw [List.drop_eq_nil_iff]; exact Nat.le_of_eq hb.1.symm
      rw [h.wait, this, h.calling]
      cases s.p.item <;> simp
    · simp [(h.others t ht).1]

/-! ## The queue with a mutex -/

/-- The item of an insert call in progress. -/
def MtPc.item : MtPc → Option Bytes
  | .insEnter x | .insHead x | .insTail x _ | .insCopy x _ _ _ | .insLeave x _ _ => some x
  | _ => none

/-- In a remove call. -/
def MtPc.removing : MtPc → Bool
  | .remEnter | .remHead | .remTail _ | .remCopy _ _ _ _ | .remLeave _ _ => true
  | _ => false

/-- The relation for the queue with a mutex. -/
structure MtR (num sz : UInt32) (s : Mt) (g : QGhost) : Prop where
  inv : s.Inv num sz
  wait : ∀ t, g.wait t = (s.th (t + 1)).item.toList
  calling : ∀ t, g.calling t = (s.th (t + 1)).item.isSome
  roles : ∀ t, (s.th (t + 1)).removing = false
  role : (s.th 0).item = none
  fifo : g.fifo = fifoOf (num.toNat - 1) s.log
  taking : g.taking = (s.th 0).removing

/-- A step of a thread inside its call leaves everything else as it is. -/
theorem MtR.goto {num sz : UInt32} {s s' : Mt} {g : QGhost} (h : MtR num sz s g) (hi : s'.Inv num sz)
    (hl : s'.log = s.log)
    (hth : ∀ u, (s'.th u).item = (s.th u).item ∧ (s'.th u).removing = (s.th u).removing) : MtR num sz s' g :=
  ⟨hi, fun t => by rw [(hth _).1]; exact h.wait t, fun t => by rw [(hth _).1]; exact h.calling t,
    fun t => by rw [(hth _).2]; exact h.roles t, by rw [(hth _).1]; exact h.role, by rw [hl]; exact h.fifo,
    by rw [(hth _).2]; exact h.taking⟩

/-- What a step of thread `t` does: it stays in its call, or returns from it. -/
theorem Mt.access_cases {s s' : Mt} {t k : Nat} (h : s.access t k = .ok s') :
    (s'.log = s.log ∧ ∀ u, (s'.th u).item = (s.th u).item ∧ (s'.th u).removing = (s.th u).removing) ∨
    (∃ x ok sp, s.th t = .insLeave x ok sp ∧ s' = s.leave t ⟨t, .ins x, .ins ok sp.toNat⟩) ∨
    (∃ r ct, s.th t = .remLeave r ct ∧ s' = s.leave t ⟨t, .rem, .rem r ct.toNat⟩) := by
  have stay : ∀ (pc : MtPc) (u : Nat), pc.item = (s.th t).item → pc.removing = (s.th t).removing →
      ((if u = t then pc else s.th u).item = (s.th u).item ∧
       (if u = t then pc else s.th u).removing = (s.th u).removing) := by
    intro pc u h1 h2
    split
    · rename_i e; subst e; exact ⟨h1, h2⟩
    · exact ⟨rfl, rfl⟩
  unfold Mt.access at h
  split at h
  · cases h; exact Or.inl ⟨rfl, fun _ => ⟨rfl, rfl⟩⟩
  · rename_i item hp
    cases h
    unfold Mt.enter
    split
    · split
      · exact Or.inl ⟨rfl, fun u => stay _ u (by rw [hp]; rfl) (by rw [hp]; rfl)⟩
      · exact Or.inl ⟨rfl, fun _ => ⟨rfl, rfl⟩⟩
    · exact Or.inl ⟨rfl, fun u => stay _ u (by rw [hp]; rfl) (by rw [hp]; rfl)⟩
  · rename_i item hp
    cases h
    exact Or.inl ⟨rfl, fun u => stay _ u (by rw [hp]; rfl) (by rw [hp]; rfl)⟩
  · rename_i item head hp
    simp only at h
    split at h <;> cases h
    · exact Or.inl ⟨rfl, fun u => stay _ u (by rw [hp]; rfl) (by rw [hp]; rfl)⟩
    · exact Or.inl ⟨rfl, fun u => stay _ u (by rw [hp]; rfl) (by rw [hp]; rfl)⟩
  · rename_i item head space hp
    cases h
    exact Or.inl ⟨rfl, fun u => stay _ u (by rw [hp]; rfl) (by rw [hp]; rfl)⟩
  · rename_i item head space k0 todo hp
    simp only at h
    split at h
    · cases h
    · split at h
      · cases h
        exact Or.inl ⟨rfl, fun u => stay _ u (by rw [hp]; rfl) (by rw [hp]; rfl)⟩
      · cases h
  · rename_i item ok space hp
    cases h
    exact Or.inr (Or.inl ⟨_, _, _, hp, rfl⟩)
  · rename_i hp
    cases h
    unfold Mt.enter
    split
    · split
      · exact Or.inl ⟨rfl, fun u => stay _ u (by rw [hp]; rfl) (by rw [hp]; rfl)⟩
      · exact Or.inl ⟨rfl, fun _ => ⟨rfl, rfl⟩⟩
    · exact Or.inl ⟨rfl, fun u => stay _ u (by rw [hp]; rfl) (by rw [hp]; rfl)⟩
  · rename_i hp
    cases h
    exact Or.inl ⟨rfl, fun u => stay _ u (by rw [hp]; rfl) (by rw [hp]; rfl)⟩
  · rename_i head hp
    simp only at h
    split at h <;> cases h
    · exact Or.inl ⟨rfl, fun u => stay _ u (by rw [hp]; rfl) (by rw [hp]; rfl)⟩
    · exact Or.inl ⟨rfl, fun u => stay _ u (by rw [hp]; rfl) (by rw [hp]; rfl)⟩
  · rename_i tail count buf hp
    cases h
    exact Or.inl ⟨rfl, fun u => stay _ u (by rw [hp]; rfl) (by rw [hp]; rfl)⟩
  · rename_i tail count buf k0 todo hp
    simp only at h
    split at h
    · cases h
    · cases h
      exact Or.inl ⟨rfl, fun u => stay _ u (by rw [hp]; rfl) (by rw [hp]; rfl)⟩
  · rename_i res count hp
    cases h
    exact Or.inr (Or.inr ⟨_, _, hp, rfl⟩)

theorem Mt.leave_log (s : Mt) (t : Nat) (c : Call Bytes) : (s.leave t c).log = s.log ++ [c] := rfl

theorem Mt.leave_th (s : Mt) (t u : Nat) (c : Call Bytes) :
    (s.leave t c).th u = if u = t then .idle else s.th u := rfl

theorem MtR.prod {num sz : UInt32} {s : Mt} {g : QGhost} (h : MtR num sz s g) (t k : Nat) :
    ∃ s' os g', mutexQueue.prod s t k = .ok (s', os) ∧ g.outs (num.toNat - 1) os = some g' ∧
      MtR num sz s' g' := by
  obtain ⟨s', h1, h2⟩ := h.inv.step (.step (t + 1) k)
  have hstep : mutexQueue.prod s t k = .ok (s', (s'.log.drop s.log.length).flatMap Spec.Call.out) := by
    simp only [mutexQueue, h1, Exec.ok_bind]
  refine ⟨s', (s'.log.drop s.log.length).flatMap Spec.Call.out, ?_⟩
  simp only [hstep, true_and]
  have hw := h.wait t
  have hc := h.calling t
  rcases Mt.access_cases (show s.access (t + 1) k = .ok s' from h1) with ⟨hl, hth⟩ | ⟨x, ok, sp, hp, rfl⟩ |
      ⟨r, ct, hp, rfl⟩
  · refine ⟨g, by simp [hl, QGhost.outs], h.goto h2 hl hth⟩
  · rw [hp] at hw hc
    have hown := h.inv.excl (t + 1) (by rw [hp]; rfl)
    have hcrit := h.inv.crit (t + 1) hown
    rw [hp] at hcrit
    obtain ⟨hres, _⟩ := hcrit
    have hwait' : g.wait t = [x] := hw
    cases ok with
    | true =>
      have hlt : (fifoOf (num.toNat - 1) s.log).length < num.toNat - 1 := by
        rcases Nat.lt_or_ge (fifoOf (num.toNat - 1) s.log).length (num.toNat - 1) with hl | hl
        · exact hl
        · simp only [fifoStep, if_neg (Nat.not_lt.2 hl)] at hres; cases hres
      refine ⟨{ g with
        wait := upd g.wait t []
        fifo := g.fifo ++ [x]
        recent := g.recent + 1
        calling := upd g.calling t false }, ?_, h2, ?_, ?_, ?_, ?_, ?_, ?_⟩
      · simp only [Mt.leave_log, drop_append_self, List.flatMap_cons, List.flatMap_nil, Spec.Call.out,
          List.append_nil, Nat.add_sub_cancel, QGhost.outs, QGhost.out, hwait', h.fifo, hlt, if_true,
          hc, MtPc.item, Option.isSome_some, Option.bind_some]
      · intro u
        simp only [Mt.leave_th]
        by_cases hu : u = t
        · subst hu; rw [upd_same, if_pos rfl]; rfl
        · rw [upd_ne hu, if_neg (by omega)]; exact h.wait u
      · intro u
        simp only [Mt.leave_th]
        by_cases hu : u = t
        · subst hu; rw [upd_same, if_pos rfl]; rfl
        · rw [upd_ne hu, if_neg (by omega)]; exact h.calling u
      · intro u
        rw [Mt.leave_th]
        split
        · rfl
        · exact h.roles u
      · rw [Mt.leave_th, if_neg (by omega)]; exact h.role
      · simp only [Mt.leave_log, fifoOf_snoc, fifoStep, if_pos hlt, h.fifo]
      · rw [Mt.leave_th, if_neg (by omega)]; exact h.taking
    | false =>
      have hge : ¬ (fifoOf (num.toNat - 1) s.log).length < num.toNat - 1 := by
        intro hl
        simp only [fifoStep, if_pos hl] at hres; cases hres
      refine ⟨{ g with wait := upd g.wait t [], calling := upd g.calling t false }, ?_, h2, ?_, ?_, ?_, ?_, ?_, ?_⟩
      · simp only [Mt.leave_log, drop_append_self, List.flatMap_cons, List.flatMap_nil, Spec.Call.out,
          List.append_nil, Nat.add_sub_cancel, QGhost.outs, QGhost.out, hwait',
          hc, MtPc.item, Option.isSome_some, if_true]
        rfl
      · intro u
        simp only [Mt.leave_th]
        by_cases hu : u = t
        · subst hu; rw [upd_same, if_pos rfl]; rfl
        · rw [upd_ne hu, if_neg (by omega)]; exact h.wait u
      · intro u
        simp only [Mt.leave_th]
        by_cases hu : u = t
        · subst hu; rw [upd_same, if_pos rfl]; rfl
        · rw [upd_ne hu, if_neg (by omega)]; exact h.calling u
      · intro u
        rw [Mt.leave_th]
        split
        · rfl
        · exact h.roles u
      · rw [Mt.leave_th, if_neg (by omega)]; exact h.role
      · simp only [Mt.leave_log, fifoOf_snoc, fifoStep, if_neg hge, h.fifo]
      · rw [Mt.leave_th, if_neg (by omega)]; exact h.taking
  · have := h.roles t
    rw [hp] at this; cases this

theorem MtR.cons {num sz : UInt32} {s : Mt} {g : QGhost} (h : MtR num sz s g) (k : Nat) :
    ∃ s' r, mutexQueue.cons s k = .ok (s', r) ∧
    match r with
    | none => MtR num sz s' g
    | some none => g.fifo.length ≤ g.recent ∧ MtR num sz s' { g with taking := false }
    | some (some x) => ∃ rest, g.fifo = x :: rest ∧ MtR num sz s' { g with fifo := rest, taking := false } := by
  obtain ⟨s', h1, h2⟩ := h.inv.step (.step 0 k)
  have hstep : mutexQueue.cons s k = .ok (s', ((s'.log.drop s.log.length).filterMap Spec.Call.ret).head?) := by
    simp only [mutexQueue, h1, Exec.ok_bind]
  refine ⟨s', _, hstep, ?_⟩
  rcases Mt.access_cases (show s.access 0 k = .ok s' from h1) with ⟨hl, hth⟩ | ⟨x, ok, sp, hp, rfl⟩ |
      ⟨r, ct, hp, rfl⟩
  · simp only [hl, List.drop_length, List.filterMap_nil, List.head?_nil]
    exact h.goto h2 hl hth
  · have := h.role
    rw [hp] at this; cases this
  · have hown := h.inv.excl 0 (by rw [hp]; rfl)
    have hcrit := h.inv.crit 0 hown
    rw [hp] at hcrit
    obtain ⟨hres, _⟩ := hcrit
    have rest : ∀ l, l = (fifoStep (num.toNat - 1) (fifoOf (num.toNat - 1) s.log) .rem).2 →
        MtR num sz (s.leave 0 ⟨0, .rem, .rem r ct.toNat⟩) { g with fifo := l, taking := false } := by
      intro l hl
      refine ⟨h2, fun u => ?_, fun u => ?_, fun u => ?_, ?_, ?_, ?_⟩
      · rw [Mt.leave_th, if_neg (by omega)]; exact h.wait u
      · rw [Mt.leave_th, if_neg (by omega)]; exact h.calling u
      · rw [Mt.leave_th, if_neg (by omega)]; exact h.roles u
      · rw [Mt.leave_th, if_pos rfl]; rfl
      · simp only [Mt.leave_log, fifoOf_snoc]; exact hl
      · simp only [Mt.leave_th, if_true]; rfl
    simp only [Mt.leave_log, drop_append_self, List.filterMap_cons, Spec.Call.ret, List.filterMap_nil, List.head?_cons]
    have hf := h.fifo
    cases hx : fifoOf (num.toNat - 1) s.log with
    | nil =>
      rw [hx] at hres hf
      simp only [fifoStep, QRes.rem.injEq] at hres
      obtain ⟨rfl, _⟩ := hres
      refine ⟨by rw [hf]; simp, ?_⟩
      have := rest [] (by rw [hx]; rfl)
      rw [← hf] at this
      exact this
    | cons x l =>
      rw [hx] at hres hf
      simp only [fifoStep, QRes.rem.injEq] at hres
      obtain ⟨rfl, _⟩ := hres
      exact ⟨l, hf, rest l (by rw [hx]; rfl)⟩

/-- The queue with a mutex is correct. -/
theorem mutex_correct {num sz : UInt32} (hs : QSize num.toNat) (hb : num.toNat * sz.toNat ≤ 2 ^ 32) :
    mutexQueue.Correct num sz (MtR num sz) where
  create := by
    obtain ⟨q, hq, -⟩ := Queue.init_rep hb hs
    exact ⟨Mt.start true q, by simp [mutexQueue, hq], Mt.Inv.start hq hs hb, fun _ => rfl, fun _ => rfl,
      fun _ => rfl, rfl, rfl, rfl⟩
  insert := by
    intro s g t x s' h hi
    simp only [mutexQueue] at hi
    split at hi
    · rename_i hc
      obtain ⟨hp, hl⟩ := hc
      cases hi
      have hcl := h.calling t
      rw [hp] at hcl
      obtain ⟨s1, h1, h2⟩ := h.inv.step (.insert (t + 1) x)
      simp only [Mt.step, hp, hl, and_self, if_true] at h1
      cases h1
      refine ⟨hcl, h2, fun u => ?_, fun u => ?_, fun u => ?_, ?_, h.fifo, ?_⟩
      · simp only [Mt.goto]
        by_cases hu : u = t
        · subst hu
          have hw := h.wait u
          rw [hp] at hw
          rw [upd_same, if_pos rfl, hw]; rfl
        · rw [upd_ne hu, if_neg (by omega)]; exact h.wait u
      · simp only [Mt.goto]
        by_cases hu : u = t
        · subst hu; rw [upd_same, if_pos rfl]; rfl
        · rw [upd_ne hu, if_neg (by omega)]; exact h.calling u
      · simp only [Mt.goto]
        split
        · rfl
        · exact h.roles u
      · simp only [Mt.goto]; rw [if_neg (by omega)]; exact h.role
      · simp only [Mt.goto]; rw [if_neg (by omega)]; exact h.taking
    · cases hi
  prod := fun s g t k h => h.prod t k
  flush := fun s g b i h => ⟨s, [], g, rfl, rfl, h⟩
  remove := by
    intro s g s' h hi
    simp only [mutexQueue] at hi
    split at hi
    · rename_i hc
      cases hi
      obtain ⟨s1, h1, h2⟩ := h.inv.step (.remove 0)
      simp only [Mt.step, hc, if_true] at h1
      cases h1
      refine ⟨h2, fun u => ?_, fun u => ?_, fun u => ?_, ?_, h.fifo, ?_⟩
      · simp only [Mt.goto]; rw [if_neg (by omega)]; exact h.wait u
      · simp only [Mt.goto]; rw [if_neg (by omega)]; exact h.calling u
      · simp only [Mt.goto]; rw [if_neg (by omega)]; exact h.roles u
      · rfl
      · rfl
    · cases hi
  removing := by
    intro s g h hi
    simp only [mutexQueue] at hi
    split at hi
    · cases hi
    · rename_i hc
      rw [h.taking]
      have hr := h.role
      revert hc hr
      cases s.th 0 <;> simp [MtPc.item, MtPc.removing]
  cons := fun s g k h _ => h.cons k
  mem := by
    intro s g h hq
    simp only [mutexQueue, Bool.and_eq_true, decide_eq_true_eq] at hq ⊢
    obtain ⟨U, hr⟩ := h.inv.free hq.1
    rw [h.fifo]
    exact hr.removeAll _ hr.room
  settled := by
    intro s g t h _
    rw [h.wait, h.calling]
    cases (s.th (t + 1)).item <;> simp

end Fstrm
