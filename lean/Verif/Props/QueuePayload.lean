import Verif.Lemmas.QueuePayload

/-! C124: the payloads behind the elements of the lock-free queue. -/

set_option autoImplicit false

namespace Fstrm.Props

open Fstrm.Spec (PayEv Published Taken queueEvents puts gots)

/-- C124, x86-64: for every queue size, element size, initial memory and schedule of a thread that
writes payloads and inserts elements and a thread that removes elements and reads payloads (single
memory accesses, stores delayed by the store buffers): the run is not stuck; the elements removed are
the first ones inserted; and once an element has been removed, every byte that the producer stored
before it inserted that element, and has not overwritten since, is read as stored. -/
theorem tso_published (num sz : UInt32) (k : Nat) (hk1 : 1 ≤ k) (hk2 : k ≤ 31)
    (hnum : num.toNat = 2 ^ k) (hmem : num.toNat * sz.toNat ≤ 2 ^ 32) (init : Nat → UInt8)
    (acts : List (PayAct TsoAct)) :
    ∃ q s, Queue.init num sz = some q ∧ (PayTso.start q init).run acts = .ok s ∧
      gots (queueEvents s.log) <+: puts (queueEvents s.log) ∧ Published init s.log ∧ Taken s.log := by
  have hs : QSize num.toNat := ⟨k, hk1, hk2, hnum⟩
  obtain ⟨q, hq, -⟩ := Queue.init_rep hmem hs
  obtain ⟨s, hr, hi⟩ := PayTso.Inv.run acts (PayTso.Inv.start hq hs hmem init)
  refine ⟨q, s, hq, hr, ?_, hi.published, hi.taken⟩
  rw [hi.log, hi.t.taken]
  exact List.take_prefix _ _

/-- C124, ia64 (where stores to different locations become visible in any order), with acquire loads:
the same. -/
theorem ia64_published (num sz : UInt32) (k : Nat) (hk1 : 1 ≤ k) (hk2 : k ≤ 31)
    (hnum : num.toNat = 2 ^ k) (hmem : num.toNat * sz.toNat ≤ 2 ^ 32) (init : Nat → UInt8)
    (acts : List (PayAct Ia64Act)) :
    ∃ q s, Queue.init num sz = some q ∧ (PayIa64.start q init).run acts = .ok s ∧
      gots (queueEvents s.log) <+: puts (queueEvents s.log) ∧ Published init s.log ∧ Taken s.log := by
  have hs : QSize num.toNat := ⟨k, hk1, hk2, hnum⟩
  obtain ⟨q, hq, -⟩ := Queue.init_rep hmem hs
  obtain ⟨s, hr, hi⟩ := PayIa64.Inv.run acts (PayIa64.Inv.start hq hs hmem init)
  refine ⟨q, s, hq, hr, ?_, hi.published, hi.taken⟩
  obtain ⟨t, ht⟩ := hi.rel
  rw [hi.log, ← ht.log, ht.inv.taken]
  exact List.take_prefix _ _

/-- The log of a run of two elements of one byte, for the examples. -/
def tsoPayLog (acts : List (PayAct TsoAct)) : Option (List (PayEv Bytes)) :=
  match Queue.init 2 1 with
  | none => none
  | some q =>
    match (PayTso.start q (fun _ => 0)).run acts with
    | .ok s => some s.log
    | .error _ => none

@[inherit_doc tsoPayLog]
def ia64PayLog (acts : List (PayAct Ia64Act)) : Option (List (PayEv Bytes)) :=
  match Queue.init 2 1 with
  | none => none
  | some q =>
    match (PayIa64.start q (fun _ => 0)).run acts with
    | .ok s => some s.log
    | .error _ => none

/-- The hypotheses are met by 2 elements of 1 byte; before the stores have left the store buffer the
consumer finds the old byte and an empty queue, afterwards it takes the element and finds the new
byte, before the call that removes the element has returned and after it. -/
example : (2 : UInt32).toNat = 2 ^ 1 ∧ (2 : UInt32).toNat * (1 : UInt32).toNat ≤ 2 ^ 32 ∧
    tsoPayLog [.store 7 42, .queue (.insert [9]), .queue (.pstep 0), .queue (.pstep 0),
      .queue (.pstep 0), .queue (.pstep 0), .load 7, .queue .remove, .queue (.cstep 0), .queue (.cstep 0),
      .queue .pflush, .queue .pflush, .queue .pflush, .queue .remove, .queue (.cstep 0), .queue (.cstep 0),
      .queue (.cstep 0), .queue (.cstep 0), .load 7, .queue (.cstep 0), .load 7] =
    some [.store 7 42, .queue (.put [9] 0), .load 0 7 0, .queue .look, .queue (.empty 0),
      .queue .visible, .queue .look, .load 1 7 42, .queue (.got [9] 0), .load 1 7 42] := by
  decide +kernel

/-- On ia64 the bytes of the payload become visible in any order, all of them before the element. -/
example : ia64PayLog [.store 7 42, .store 8 43, .reach 1, .load 7, .load 8, .queue (.insert [9]),
      .queue (.pstep 0), .queue (.pstep 0), .queue (.pstep 0), .queue (.pflush 0), .queue (.pstep 0),
      .reach 0, .queue (.pstep 0), .queue (.pflush 0), .queue .remove, .queue (.cstep 0),
      .queue (.cstep 0), .queue (.cstep 0), .queue (.cstep 0), .load 7, .load 8, .queue (.cstep 0)] =
    some [.store 7 42, .store 8 43, .load 0 7 0, .load 0 8 43, .queue (.put [9] 0), .queue .visible,
      .queue .look, .load 1 7 42, .load 1 8 43, .queue (.got [9] 0)] := by
  decide +kernel

end Fstrm.Props
