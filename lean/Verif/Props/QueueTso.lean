import Verif.Lemmas.QueueTso

/-! C33: one producer, one consumer, no lock, x86-TSO. -/

set_option autoImplicit false

namespace Fstrm.Props

open Fstrm.Spec (QEv puts gots visibles freeds seen)

/-- C33: for every queue size, element size and schedule (interleaving of the single memory
accesses of the two threads, order of the bytes within a copy, delay of buffered stores), where the
log of the run says what the calls returned and when stores reached the other thread:

1. no access is out of bounds (the run is not stuck);
2. the elements removed are the first elements inserted, in order and uncorrupted;
3. what is removed was visible, what is visible was inserted, and at most 2^k - 1 elements are
   in the queue;
4. a removal fails only if everything visible when it looked had been removed, and reports 0;
5. an insertion fails only if 2^k - 1 elements had not been visibly removed, and reports 0;
6. the space reported by a successful insertion is really there, the count reported by a
   successful removal is really there;
7. an element that is visible and not yet removed is intact in memory (its slot is not reused);
8. nothing is lost: when the producer's stores have all reached memory, every insertion is
   visible. -/
theorem tso_spsc (num sz : UInt32) (k : Nat) (hk1 : 1 ≤ k) (hk2 : k ≤ 31)
    (hnum : num.toNat = 2 ^ k) (hmem : num.toNat * sz.toNat ≤ 2 ^ 32) (acts : List TsoAct) :
    ∃ q s, Queue.init num sz = some q ∧ (Tso.start q).run acts = .ok s ∧
      gots s.log <+: puts s.log ∧
      ((gots s.log).length ≤ visibles s.log ∧ visibles s.log ≤ (puts s.log).length ∧
        (puts s.log).length ≤ (gots s.log).length + (2 ^ k - 1)) ∧
      (∀ a c b, s.log = a ++ .empty c :: b → c = 0 ∧ (gots a).length = seen a) ∧
      (∀ a c b, s.log = a ++ .full c :: b → c = 0 ∧ (puts a).length = freeds a + (2 ^ k - 1)) ∧
      (∀ a x c b, s.log = a ++ .put x c :: b →
        (puts a).length + 1 + c ≤ (gots a).length + (2 ^ k - 1)) ∧
      (∀ a x c b, s.log = a ++ .got x c :: b → (gots a).length + 1 + c ≤ visibles a) ∧
      (∀ j x, (gots s.log).length ≤ j → j < visibles s.log → (puts s.log)[j]? = some x →
        (s.q.data.drop ((j % 2 ^ k) * sz.toNat)).take sz.toNat = x) ∧
      (s.pbuf = [] → visibles s.log = (puts s.log).length) := by
  have hs : QSize num.toNat := ⟨k, hk1, hk2, hnum⟩
  obtain ⟨q, hq, -⟩ := Queue.init_rep hmem hs
  obtain ⟨s, hr, hi⟩ := (Tso.Inv.start hq hs hmem).run acts
  have hg := hs.ge
  have hroom := hi.room
  have hfT := hi.cbuf.le
  refine ⟨q, s, hq, hr, ?_, ⟨hi.order, hi.pbuf.le, ?_⟩, ?_, ?_, ?_, ?_, ?_, ?_⟩
  · rw [hi.taken]; exact List.take_prefix _ _
  · rw [← hnum]; omega
  · intro a c b h
    obtain ⟨h1, h2⟩ := hi.empties a _ b h ⟨c, rfl⟩
    cases h1; exact ⟨rfl, h2⟩
  · intro a c b h
    obtain ⟨h1, h2⟩ := hi.fulls a _ b h ⟨c, rfl⟩
    cases h1; exact ⟨rfl, by rw [← hnum]; exact h2⟩
  · intro a x c b h
    have := hi.spaces a _ b h ⟨x, c, rfl⟩ x c rfl
    rwa [hnum] at this
  · intro a x c b h
    exact hi.counts a _ b h ⟨x, c, rfl⟩ x c rfl
  · intro j x h1 h2 hx
    have hxl := hi.lens x (List.mem_of_getElem? hx)
    apply List.ext_getElem?
    intro i
    by_cases hz : i < sz.toNat
    · rw [List.getElem?_take_of_lt hz, List.getElem?_drop, ← hnum]
      exact hi.slots j x h1 h2 hx i hz
    · have hl : ((s.q.data.drop ((j % 2 ^ k) * sz.toNat)).take sz.toNat).length ≤ i := by
        rw [List.length_take]; omega
      rw [List.getElem?_eq_none hl, List.getElem?_eq_none (by omega)]
  · intro h0
    have := hi.pbuf
    rw [h0] at this
    exact this.1

/-- Non-vacuity: a schedule in which the consumer looks while the producer's stores are still in
its buffer (removal fails), and again after they arrived (removal succeeds), with the bytes of the
element copied in reverse order. -/
example : (Queue.init 2 2).map (fun q =>
      ((Tso.start q).run [.insert [7, 8], .pstep 0, .pstep 0, .pstep 1, .pstep 0, .pstep 0,
        .remove, .cstep 0, .cstep 0, .pflush, .pflush, .remove, .cstep 0, .pflush, .cstep 0,
        .remove, .cstep 0, .cstep 0, .cstep 1, .cstep 0, .cstep 0, .cstep 0, .cflush]).map
        (fun s => (s.log, s.q.data))) =
    some (.ok ([.put [7, 8] 0, .look, .empty 0, .look, .visible, .empty 0, .look, .got [7, 8] 0,
      .freed], [7, 8, 0, 0])) := by decide +kernel

end Fstrm.Props
