import Verif.Model.QueueMt
import Verif.Lemmas.QueueTso

/-! Mutual exclusion makes the queue linearizable. -/

set_option autoImplicit false

namespace Fstrm

open Spec (QOp QRes fifoStep fifoRun Call Linear)

theorem fifoRun_append {α : Type} (cap : Nat) (q : List α) (a b : List (QOp α)) :
    fifoRun cap q (a ++ b) =
      ((fifoRun cap q a).1 ++ (fifoRun cap (fifoRun cap q a).2 b).1,
       (fifoRun cap (fifoRun cap q a).2 b).2) := by
  induction a generalizing q with
  | nil => rfl
  | cons o a ih => simp only [List.cons_append, fifoRun, ih]

/-- The contents of the FIFO after the calls of the log. -/
def fifoOf (cap : Nat) (log : List (Call Bytes)) : List Bytes :=
  (fifoRun cap [] (log.map Call.op)).2

theorem Linear.snoc {cap : Nat} {log : List (Call Bytes)} {c : Call Bytes} (h : Linear cap log)
    (hr : c.res = (fifoStep cap (fifoOf cap log) c.op).1) : Linear cap (log ++ [c]) := by
  unfold Linear at *
  rw [List.map_append, List.map_append, fifoRun_append]
  simp only [List.map_cons, List.map_nil, fifoRun, h]
  congr 1
  rw [hr]; rfl

theorem fifoOf_snoc {cap : Nat} {log : List (Call Bytes)} {c : Call Bytes} :
    fifoOf cap (log ++ [c]) = (fifoStep cap (fifoOf cap log) c.op).2 := by
  unfold fifoOf
  rw [List.map_append, fifoRun_append]
  rfl

/-- Writing into the free slot does not disturb the queue. -/
theorem Queue.Rep.poke {q : Queue} {U : Nat} {xs : List Bytes} (h : q.Rep U xs)
    {k : Nat} (b : UInt8) (hk : k < q.sz.toNat) :
    ({ q with data := q.data.set (q.head.toNat * q.sz.toNat + k) b } : Queue).Rep U xs := by
  refine ⟨h.size, h.small, by simpa using h.mem, h.room, h.head, h.tail, h.lens, ?_⟩
  intro j x hx i hi
  have hj : j < xs.length := by
    rcases Nat.lt_or_ge j xs.length with hlt | hge
    · exact hlt
    · rw [List.getElem?_eq_none hge] at hx; cases hx
  simp only at hi ⊢
  rw [List.getElem?_set_ne, h.items j x hx i hi]
  intro he
  obtain ⟨e1, -⟩ := slot_inj hk hi he
  rw [h.head] at e1
  have := h.room
  have := mod_inj_of_close (n := q.num.toNat) (a := U + j) (b := U + xs.length) (by omega)
    (by omega) e1.symm
  omega

/-- Moving the head over a filled slot. -/
theorem Queue.Rep.publish {q : Queue} {U : Nat} {xs : List Bytes} (h : q.Rep U xs) {x : Bytes}
    (hx : x.length = q.sz.toNat) (hr : xs.length < q.num.toNat - 1)
    (hb : ∀ i, i < q.sz.toNat → q.data[q.head.toNat * q.sz.toNat + i]? = x[i]?) :
    ({ q with head := qNext q.head q.num } : Queue).Rep U (xs ++ [x]) := by
  refine ⟨h.size, h.small, h.mem, ?_, ?_, h.tail, ?_, ?_⟩
  · simp only [List.length_append, List.length_singleton]; omega
  · simp only [List.length_append, List.length_singleton]
    rw [qNext_toNat h.size h.head]; rfl
  · intro y hy
    rcases List.mem_append.1 hy with hy | hy
    · exact h.lens y hy
    · rw [List.mem_singleton.1 hy]; exact hx
  · intro j y hy i hi
    simp only at hi ⊢
    by_cases hj : j < xs.length
    · rw [List.getElem?_append_left hj] at hy
      exact h.items j y hy i hi
    · rw [List.getElem?_append_right (by omega)] at hy
      have hj2 : j = xs.length := by
        by_cases hj3 : j = xs.length
        · exact hj3
        · rw [List.getElem?_eq_none (by simp; omega)] at hy; cases hy
      subst hj2
      simp at hy
      subst hy
      rw [← h.head]; exact hb i hi

/-- Moving the tail over the oldest item. -/
theorem Queue.Rep.drop {q : Queue} {U : Nat} {x : Bytes} {rest : List Bytes}
    (h : q.Rep U (x :: rest)) :
    ({ q with tail := qNext q.tail q.num } : Queue).Rep (U + 1) rest := by
  have hroom := h.room
  have hhead := h.head
  simp only [List.length_cons] at hroom hhead
  refine ⟨h.size, h.small, h.mem, ?_, ?_, ?_, ?_, ?_⟩
  · simp only; omega
  · simp only [hhead]; congr 1; omega
  · simp only; exact qNext_toNat h.size h.tail
  · intro y hy; exact h.lens y (by simp [hy])
  · intro j y hy i hi
    have := h.items (j + 1) y hy i hi
    simp only at hi ⊢
    rw [← this, show U + 1 + j = U + (j + 1) by omega]

/-- The threads that are between lock and unlock. -/
def MtPc.inside : MtPc → Bool
  | .idle | .insEnter _ | .remEnter => false
  | _ => true

/-- What holds while a thread inside is at `pc` and the FIFO holds `xs`. -/
def Crit (num sz : UInt32) (q : Queue) (xs : List Bytes) : MtPc → Prop
  | .insHead item => item.length = sz.toNat ∧ ∃ U, q.Rep U xs
  | .insTail item head => item.length = sz.toNat ∧ head = q.head ∧ ∃ U, q.Rep U xs
  | .insCopy item head space todo => item.length = sz.toNat ∧ head = q.head ∧
      xs.length + 1 + space.toNat = num.toNat - 1 ∧ (∀ k ∈ todo, k < sz.toNat) ∧
      (∀ i, i < sz.toNat → i ∉ todo → q.data[q.head.toNat * sz.toNat + i]? = item[i]?) ∧
      ∃ U, q.Rep U xs
  | .insLeave item ok space =>
      QRes.ins ok space.toNat = (fifoStep (num.toNat - 1) xs (.ins item)).1 ∧
      ∃ U, q.Rep U (fifoStep (num.toNat - 1) xs (.ins item)).2
  | .remHead => ∃ U, q.Rep U xs
  | .remTail head => head = q.head ∧ ∃ U, q.Rep U xs
  | .remCopy tail count buf todo => tail = q.tail ∧ xs.length = count.toNat + 1 ∧
      buf.length = sz.toNat ∧ (∀ k ∈ todo, k < sz.toNat) ∧
      (∀ x, xs[0]? = some x → ∀ i, i < sz.toNat → i ∉ todo → buf[i]? = x[i]?) ∧
      ∃ U, q.Rep U xs
  | .remLeave res count =>
      QRes.rem res count.toNat = (fifoStep (num.toNat - 1) xs .rem).1 ∧
      ∃ U, q.Rep U (fifoStep (num.toNat - 1) xs .rem).2
  | _ => False

/-- Outside: what a thread waiting for the lock knows. -/
def Wait (sz : UInt32) : MtPc → Prop
  | .insEnter item => item.length = sz.toNat
  | _ => True

structure Mt.Inv (num sz : UInt32) (s : Mt) : Prop where
  locked : s.locked = true
  hnum : s.q.num = num
  hsz : s.q.sz = sz
  size : QSize num.toNat
  small : num.toNat * sz.toNat ≤ 2 ^ 32
  excl : ∀ t, (s.th t).inside = true → s.owner = some t
  wait : ∀ t, Wait sz (s.th t)
  free : s.owner = none → ∃ U, s.q.Rep U (fifoOf (num.toNat - 1) s.log)
  crit : ∀ t, s.owner = some t → Crit num sz s.q (fifoOf (num.toNat - 1) s.log) (s.th t)
  lin : Linear (num.toNat - 1) s.log

/-- The owner moves on inside. -/
theorem Mt.Inv.move {num sz : UInt32} {s : Mt} (h : s.Inv num sz) {t : Nat} {pc : MtPc} {q : Queue}
    (ho : s.owner = some t) (hn : q.num = num) (hz : q.sz = sz)
    (hw : Wait sz pc) (hc : Crit num sz q (fifoOf (num.toNat - 1) s.log) pc) :
    ({ s.goto t pc with q := q } : Mt).Inv num sz := by
  refine ⟨h.locked, hn, hz, h.size, h.small, ?_, ?_, ?_, ?_, h.lin⟩
  · intro u hu
    simp only [Mt.goto] at hu ⊢
    split at hu
    · rename_i e; rw [e]; exact ho
    · exact h.excl u hu
  · intro u
    simp only [Mt.goto]
    split
    · exact hw
    · exact h.wait u
  · intro hf; simp only [Mt.goto, ho] at hf; cases hf
  · intro u hu
    simp only [Mt.goto] at hu ⊢
    rw [ho] at hu; cases hu
    rw [if_pos rfl]; exact hc

theorem Mt.goto_q (s : Mt) (t : Nat) (pc : MtPc) : s.goto t pc = { s.goto t pc with q := s.q } := rfl

/-- Taking the lock. -/
theorem Mt.Inv.enter {num sz : UInt32} {s : Mt} (h : s.Inv num sz) {t : Nat} {pc : MtPc}
    (hw : Wait sz pc)
    (hc : ∀ U, s.q.Rep U (fifoOf (num.toNat - 1) s.log) →
      Crit num sz s.q (fifoOf (num.toNat - 1) s.log) pc) :
    (s.enter t pc).Inv num sz := by
  unfold Mt.enter
  rw [h.locked, if_pos rfl]
  cases ho : s.owner with
  | some u => exact h
  | none =>
    obtain ⟨U, hU⟩ := h.free ho
    refine ⟨h.locked, h.hnum, h.hsz, h.size, h.small, ?_, ?_, ?_, ?_, h.lin⟩
    · intro u hu
      simp only [Mt.goto] at hu ⊢
      split at hu
      · rename_i e; rw [e]
      · have := h.excl u hu; rw [ho] at this; cases this
    · intro u
      simp only [Mt.goto]
      split
      · exact hw
      · exact h.wait u
    · intro hf; cases hf
    · intro u hu
      simp only [Mt.goto] at hu ⊢
      cases hu
      rw [if_pos rfl]; exact hc U hU

/-- Releasing the lock. -/
theorem Mt.Inv.leave {num sz : UInt32} {s : Mt} (h : s.Inv num sz) {t : Nat} {c : Call Bytes}
    (ho : s.owner = some t)
    (hr : c.res = (fifoStep (num.toNat - 1) (fifoOf (num.toNat - 1) s.log) c.op).1)
    (hU : ∃ U, s.q.Rep U (fifoStep (num.toNat - 1) (fifoOf (num.toNat - 1) s.log) c.op).2) :
    (s.leave t c).Inv num sz := by
  unfold Mt.leave
  refine ⟨h.locked, h.hnum, h.hsz, h.size, h.small, ?_, ?_, ?_, ?_, Linear.snoc h.lin hr⟩
  · intro u hu
    simp only [Mt.goto] at hu ⊢
    split at hu
    · cases hu
    · have := h.excl u hu; rw [ho] at this; cases this
      rename_i hne; exact absurd rfl hne
  · intro u
    simp only [Mt.goto]
    split
    · trivial
    · exact h.wait u
  · intro _; simp only [Mt.goto, fifoOf_snoc]; exact hU
  · intro u hu
    simp only [h.locked] at hu
    cases hu

/-- A thread outside changes its position. -/
theorem Mt.Inv.outside {num sz : UInt32} {s : Mt} (h : s.Inv num sz) {t : Nat} {pc : MtPc}
    (hi : (s.th t).inside = false) (hp : pc.inside = false) (hw : Wait sz pc) :
    (s.goto t pc).Inv num sz := by
  refine ⟨h.locked, h.hnum, h.hsz, h.size, h.small, ?_, ?_, h.free, ?_, h.lin⟩
  · intro u hu
    simp only [Mt.goto] at hu ⊢
    split at hu
    · rw [hp] at hu; cases hu
    · exact h.excl u hu
  · intro u
    simp only [Mt.goto]
    split
    · exact hw
    · exact h.wait u
  · intro u hu
    have hc := h.crit u hu
    simp only [Mt.goto]
    split
    · rename_i e
      subst e
      revert hc hi
      cases s.th u <;> simp [MtPc.inside, Crit]
    · exact hc

theorem Mt.Inv.access {num sz : UInt32} {s : Mt} (h : s.Inv num sz) (t i : Nat) :
    ∃ s', s.access t i = .ok s' ∧ s'.Inv num sz := by
  have hg := h.size.ge
  have hnum := h.hnum
  have hsz := h.hsz
  unfold Mt.access
  have own : (s.th t).inside = true → s.owner = some t ∧
      Crit num sz s.q (fifoOf (num.toNat - 1) s.log) (s.th t) :=
    fun hin => ⟨h.excl t hin, h.crit t (h.excl t hin)⟩
  have hw := h.wait t
  split
  · exact ⟨s, rfl, h⟩
  · rename_i item hpc
    rw [hpc] at hw
    exact ⟨_, rfl, h.enter trivial (fun U hU => ⟨hw, U, hU⟩)⟩
  · rename_i item hpc
    rw [hpc] at own
    obtain ⟨ho, h1, h2⟩ := own rfl
    exact ⟨_, rfl, by rw [Mt.goto_q]; exact h.move ho hnum hsz trivial ⟨h1, rfl, h2⟩⟩
  · rename_i item head hpc
    rw [hpc] at own
    obtain ⟨ho, h1, h2, U, hU⟩ := own rfl
    subst h2
    have hsp := qSpace_toNat hU.size hU.head hU.tail hU.room
    simp only [UInt32.ge_one_iff, hsp]
    have hroom := hU.room
    have hs1 := hU.size
    rw [hnum] at hsp hroom
    split
    · rename_i hge
      rw [hnum] at hge
      refine ⟨_, rfl, ?_⟩
      rw [Mt.goto_q]
      refine h.move ho hnum hsz trivial ⟨h1, rfl, ?_, ?_, ?_, U, hU⟩
      · rw [UInt32.sub_one_toNat (by rw [hnum]; omega), hnum, hsp]; omega
      · rw [hsz]; exact fun k hk => List.mem_range.1 hk
      · rw [hsz]; intro i hi hn; exact absurd (List.mem_range.2 hi) hn
    · rename_i hge
      rw [hnum] at hge
      refine ⟨_, rfl, ?_⟩
      rw [Mt.goto_q]
      have hfull : ¬ (fifoOf (num.toNat - 1) s.log).length < num.toNat - 1 := by omega
      refine h.move ho hnum hsz trivial ⟨?_, U, ?_⟩
      · rw [hnum, hsp]; simp only [fifoStep, if_neg hfull]; congr 1; omega
      · simp only [fifoStep, if_neg hfull]; exact hU
  · rename_i item head space hpc
    rw [hpc] at own
    obtain ⟨ho, h1, h2, h3, -, h5, U, hU⟩ := own rfl
    subst h2
    refine ⟨_, rfl, ?_⟩
    have hroom : (fifoOf (num.toNat - 1) s.log).length < num.toNat - 1 := by omega
    refine h.move ho hnum hsz trivial ⟨?_, U, ?_⟩
    · simp only [fifoStep, if_pos hroom]; congr 1; omega
    · simp only [fifoStep, if_pos hroom]
      exact hU.publish (by rw [hsz]; exact h1) (by rw [hnum]; exact hroom)
        (by rw [hsz]; exact fun i hi => h5 i hi (by simp))
  · rename_i item head space k0 todo hpc
    rw [hpc] at own
    obtain ⟨ho, h1, h2, h3, h4, h5, U, hU⟩ := own rfl
    subst h2
    have hk := choose_mem k0 todo i
    generalize (k0 :: todo)[i % (todo.length + 1)]?.getD k0 = k at hk
    have hks := h4 k hk
    simp only [List.getElem?_eq_getElem (show k < item.length by omega)]
    have hlt := qidx_lt hU.size hU.head
    have hoff := offset_any hlt hU.small
    have hfit : s.q.head.toNat * s.q.sz.toNat + k < s.q.data.length := by
      rw [hU.mem]; exact slot_fits hlt (by rw [hsz]; exact hks)
    rw [hoff, if_pos hfit]
    refine ⟨_, rfl, ?_⟩
    refine h.move ho hnum hsz trivial ⟨h1, rfl, h3,
      fun k' hk' => h4 k' (List.mem_of_mem_erase hk'), ?_, U, hU.poke _ (by rw [hsz]; exact hks)⟩
    intro j hj hn
    simp only [hsz] at hfit ⊢
    by_cases hjk : j = k
    · subst hjk
      rw [List.getElem?_set_self hfit, List.getElem?_eq_getElem]
    · rw [List.getElem?_set_ne (by omega)]
      exact h5 j hj (fun hm => hn ((List.mem_erase_of_ne hjk).2 hm))
  · rename_i item ok space hpc
    rw [hpc] at own
    obtain ⟨ho, h1, h2⟩ := own rfl
    exact ⟨_, rfl, h.leave ho h1 h2⟩
  · exact ⟨_, rfl, h.enter trivial (fun U hU => ⟨U, hU⟩)⟩
  · rename_i hpc
    rw [hpc] at own
    obtain ⟨ho, h2⟩ := own rfl
    exact ⟨_, rfl, by rw [Mt.goto_q]; exact h.move ho hnum hsz trivial ⟨rfl, h2⟩⟩
  · rename_i head hpc
    rw [hpc] at own
    obtain ⟨ho, h2, U, hU⟩ := own rfl
    subst h2
    have hct := qCount_toNat hU.size hU.head hU.tail hU.room
    simp only [UInt32.ge_one_iff, hct]
    split
    · rename_i hge
      refine ⟨_, rfl, ?_⟩
      rw [Mt.goto_q]
      refine h.move ho hnum hsz trivial ⟨rfl, ?_, by simp [hsz], ?_, ?_, U, hU⟩
      · rw [UInt32.sub_one_toNat (by omega), hct]; omega
      · rw [hsz]; exact fun k hk => List.mem_range.1 hk
      · rw [hsz]; intro x hx i hi hn; exact absurd (List.mem_range.2 hi) hn
    · rename_i hge
      refine ⟨_, rfl, ?_⟩
      rw [Mt.goto_q]
      have hnil : fifoOf (num.toNat - 1) s.log = [] := List.eq_nil_of_length_eq_zero (by omega)
      refine h.move ho hnum hsz trivial ⟨?_, U, ?_⟩
      · rw [hct, hnil]; rfl
      · rw [hnil] at hU ⊢; exact hU
  · rename_i tail count buf hpc
    rw [hpc] at own
    obtain ⟨ho, h2, h3, h4, -, h5, U, hU⟩ := own rfl
    subst h2
    refine ⟨_, rfl, ?_⟩
    cases hx : fifoOf (num.toNat - 1) s.log with
    | nil => rw [hx] at h3; simp at h3
    | cons x rest =>
      rw [hx] at h3 h5 hU
      have hbx : buf = x := by
        have hl := hU.lens x (by simp)
        rw [hsz] at hl
        apply List.ext_getElem?
        intro j
        by_cases hj : j < sz.toNat
        · exact h5 x rfl j hj (by simp)
        · rw [List.getElem?_eq_none (by omega), List.getElem?_eq_none (by omega)]
      refine h.move ho hnum hsz trivial ⟨?_, U + 1, ?_⟩
      · rw [hx, hbx]; simp only [fifoStep]; simp at h3; rw [h3]
      · rw [hx]; exact hU.drop
  · rename_i tail count buf k0 todo hpc
    rw [hpc] at own
    obtain ⟨ho, h2, h3, h4, h6, h5, U, hU⟩ := own rfl
    subst h2
    have hk := choose_mem k0 todo i
    generalize (k0 :: todo)[i % (todo.length + 1)]?.getD k0 = k at hk
    have hks := h6 k hk
    cases hx : fifoOf (num.toNat - 1) s.log with
    | nil => rw [hx] at h3; simp at h3
    | cons x rest =>
      rw [hx] at h3 h5 hU
      have hl := hU.lens x (by simp)
      have hread := hU.items 0 x rfl k (by rw [hsz]; exact hks)
      rw [Nat.add_zero, ← hU.tail, List.getElem?_eq_getElem (l := x) (by rw [hl, hsz]; exact hks)]
        at hread
      simp only [offset_any (qidx_lt hU.size hU.tail) hU.small, hread]
      refine ⟨_, rfl, ?_⟩
      rw [Mt.goto_q]
      refine h.move ho hnum hsz trivial ?_
      rw [hx]
      refine ⟨rfl, h3, by simp [h4], fun k' hk' => h6 k' (List.mem_of_mem_erase hk'), ?_, U, hU⟩
      intro y hy j hj hn
      cases hy
      by_cases hjk : j = k
      · subst hjk
        rw [List.getElem?_set_self (by omega), List.getElem?_eq_getElem]
      · rw [List.getElem?_set_ne (by omega)]
        exact h5 x rfl j hj (fun hm => hn ((List.mem_erase_of_ne hjk).2 hm))
  · rename_i res count hpc
    rw [hpc] at own
    obtain ⟨ho, h1, h2⟩ := own rfl
    exact ⟨_, rfl, h.leave ho h1 h2⟩

theorem Mt.Inv.step {num sz : UInt32} {s : Mt} (h : s.Inv num sz) (a : MtAct) :
    ∃ s', s.step a = .ok s' ∧ s'.Inv num sz := by
  cases a with
  | insert t item =>
    unfold Mt.step
    simp only
    split
    · rename_i hi
      exact ⟨_, rfl, h.outside (by rw [hi.1]; rfl) rfl (by rw [← h.hsz]; exact hi.2)⟩
    · exact ⟨_, rfl, h⟩
  | remove t =>
    unfold Mt.step
    simp only
    split
    · rename_i hi
      exact ⟨_, rfl, h.outside (by rw [hi]; rfl) rfl trivial⟩
    · exact ⟨_, rfl, h⟩
  | step t i => exact h.access t i

theorem Mt.Inv.run {num sz : UInt32} {s : Mt} (h : s.Inv num sz) (as : List MtAct) :
    ∃ s', s.run as = .ok s' ∧ s'.Inv num sz := by
  induction as generalizing s with
  | nil => exact ⟨s, rfl, h⟩
  | cons a as ih =>
    obtain ⟨s1, h1, h2⟩ := h.step a
    obtain ⟨s', h3, h4⟩ := ih h2
    exact ⟨s', by rw [Mt.run, h1, Exec.ok_bind, h3], h4⟩

theorem Mt.Inv.start {num sz : UInt32} {q : Queue} (hq : Queue.init num sz = some q)
    (hs : QSize num.toNat) (hb : num.toNat * sz.toNat ≤ 2 ^ 32) :
    (Mt.start true q).Inv num sz := by
  obtain ⟨q', h1, h2, h3, h4⟩ := Queue.init_rep hb hs
  rw [hq] at h1; cases h1
  exact {
    locked := rfl, hnum := h3, hsz := h4, size := hs, small := hb
    excl := by intro t ht; cases ht
    wait := fun _ => trivial
    free := fun _ => ⟨0, h2⟩
    crit := by intro t ht; cases ht
    lin := rfl }

end Fstrm
