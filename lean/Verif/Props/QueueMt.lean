import Verif.Lemmas.QueueMt

/-! C34: many threads. -/

set_option autoImplicit false

namespace Fstrm.Props

open Fstrm.Spec (QOp QRes Call Linear fifoRun fifoStep)

/-- C34 (mutex queue): for any number of threads and every interleaving of their memory accesses,
no access is out of bounds, and the completed calls returned what one FIFO of capacity 2^k - 1
would have returned to the same calls made one after the other. -/
theorem mutex_linearizable (num sz : UInt32) (k : Nat) (hk1 : 1 ≤ k) (hk2 : k ≤ 31)
    (hnum : num.toNat = 2 ^ k) (hmem : num.toNat * sz.toNat ≤ 2 ^ 32) (acts : List MtAct) :
    ∃ q s, Queue.init num sz = some q ∧ (Mt.start true q).run acts = .ok s ∧
      Linear (2 ^ k - 1) s.log := by
  have hs : QSize num.toNat := ⟨k, hk1, hk2, hnum⟩
  obtain ⟨q, hq, -⟩ := Queue.init_rep hmem hs
  obtain ⟨s, hr, hi⟩ := (Mt.Inv.start hq hs hmem).run acts
  exact ⟨q, s, hq, hr, by rw [← hnum]; exact hi.lin⟩

theorem fifoRun_conserves {α : Type} (cap : Nat) (q : List α) (log : List (Call α))
    (h : log.map Call.res = (fifoRun cap q (log.map Call.op)).1) :
    q ++ log.filterMap Call.inserted =
      log.filterMap Call.removed ++ (fifoRun cap q (log.map Call.op)).2 := by
  induction log generalizing q with
  | nil => simp [fifoRun]
  | cons c log ih =>
    obtain ⟨t, op, res⟩ := c
    simp only [List.map_cons, fifoRun] at h ⊢
    obtain ⟨h1, h2⟩ := List.cons.inj h
    have := ih _ h2
    cases op with
    | ins x =>
      simp only [fifoStep] at h1 this h2 ⊢
      split at h1
      · rename_i hl
        subst h1
        simp only [hl, if_true] at this ⊢
        simp only [List.filterMap_cons, Call.inserted, Call.removed]
        rw [← this]; simp
      · rename_i hl
        subst h1
        simp only [hl, if_false] at this ⊢
        simp only [List.filterMap_cons, Call.inserted, Call.removed]
        exact this
    | rem =>
      cases q with
      | nil =>
        simp only [fifoStep] at h1 this ⊢
        subst h1
        simp only [List.filterMap_cons, Call.inserted, Call.removed]
        exact this
      | cons y q =>
        simp only [fifoStep] at h1 this ⊢
        subst h1
        simp only [List.filterMap_cons, Call.inserted, Call.removed]
        rw [List.cons_append, this]; simp

/-- C34 (mutex queue), consequence: nothing is lost, duplicated or reordered: the elements removed
(by whichever threads) are the first of those inserted, in the order in which the insertions took
place, which for each thread is the order of its calls. -/
theorem mutex_order (num sz : UInt32) (k : Nat) (hk1 : 1 ≤ k) (hk2 : k ≤ 31)
    (hnum : num.toNat = 2 ^ k) (hmem : num.toNat * sz.toNat ≤ 2 ^ 32) (acts : List MtAct) :
    ∃ q s, Queue.init num sz = some q ∧ (Mt.start true q).run acts = .ok s ∧
      s.log.filterMap Call.removed <+: s.log.filterMap Call.inserted := by
  obtain ⟨q, s, h1, h2, h3⟩ := mutex_linearizable num sz k hk1 hk2 hnum hmem acts
  refine ⟨q, s, h1, h2, ?_⟩
  have := fifoRun_conserves (2 ^ k - 1) [] s.log h3
  rw [List.nil_append] at this
  exact ⟨_, this.symm⟩

/-- Non-vacuity: three threads on a queue of size 2; thread 1 waits for the lock. -/
example : (Queue.init 2 1).map (fun q =>
      ((Mt.start true q).run [.insert 0 [5], .insert 1 [6], .remove 2, .step 0 0, .step 1 0,
        .step 0 0, .step 0 0, .step 0 0, .step 0 0, .step 1 0, .step 0 0, .step 2 0, .step 2 0,
        .step 2 0, .step 2 0, .step 2 0, .step 2 0, .step 1 0, .step 1 0, .step 1 0, .step 1 0,
        .step 1 0, .step 1 0]).map Mt.log) =
    some (.ok [⟨0, .ins [5], .ins true 0⟩, ⟨2, .rem, .rem (some [5]) 0⟩,
      ⟨1, .ins [6], .ins true 0⟩]) := by decide +kernel

/-- C34 (lock-free queue): with two producers an element whose insertion was reported successful
can be lost: both producers take the same slot. -/
theorem lockfree_two_producers_lose : ∃ q s, ∃ acts : List MtAct,
    Queue.init 4 1 = some q ∧ (Mt.start false q).run acts = .ok s ∧
    s.log = [⟨0, .ins [5], .ins true 2⟩, ⟨1, .ins [6], .ins true 2⟩,
      ⟨2, .rem, .rem (some [6]) 0⟩, ⟨2, .rem, .rem none 0⟩] := by
  have h : (Queue.init 4 1).map (fun q => ((Mt.start false q).run
    [.insert 0 [5], .insert 1 [6],
     .step 0 0, .step 1 0, .step 0 0, .step 1 0, .step 0 0, .step 1 0, .step 0 0, .step 1 0,
     .step 0 0, .step 1 0, .step 0 0, .step 1 0,
     .remove 2, .step 2 0, .step 2 0, .step 2 0, .step 2 0, .step 2 0, .step 2 0,
     .remove 2, .step 2 0, .step 2 0, .step 2 0, .step 2 0]).map Mt.log) =
    some (.ok [⟨0, .ins [5], .ins true 2⟩, ⟨1, .ins [6], .ins true 2⟩,
      ⟨2, .rem, .rem (some [6]) 0⟩, ⟨2, .rem, .rem none 0⟩]) := by decide +kernel
  cases hq : Queue.init 4 1 with
  | none => rw [hq] at h; cases h
  | some q =>
    rw [hq] at h
    simp only [Option.map_some, Option.some.injEq] at h
    cases hr : (Mt.start false q).run
      [.insert 0 [5], .insert 1 [6],
       .step 0 0, .step 1 0, .step 0 0, .step 1 0, .step 0 0, .step 1 0, .step 0 0, .step 1 0,
       .step 0 0, .step 1 0, .step 0 0, .step 1 0,
       .remove 2, .step 2 0, .step 2 0, .step 2 0, .step 2 0, .step 2 0, .step 2 0,
       .remove 2, .step 2 0, .step 2 0, .step 2 0, .step 2 0] with
    | error e => rw [hr] at h; cases h
    | ok s => rw [hr] at h; exact ⟨q, s, _, rfl, hr, Except.ok.inj h⟩

end Fstrm.Props
