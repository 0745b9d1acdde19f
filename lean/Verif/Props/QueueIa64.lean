import Verif.Lemmas.QueueIa64

/-! C112: one producer, one consumer, no lock, ia64. -/

set_option autoImplicit false

namespace Fstrm.Props

open Fstrm.Spec (QEv puts gots visibles freeds seen)

/-- C112: for every queue size, element size and schedule on ia64 (interleaving of the single memory
accesses of the two threads, order of the bytes within a copy, delay of stores, order in which
pending stores to different locations become visible), if the reads through `volatile` are acquire
loads, where the log of the run says what the calls returned and when stores reached the other
thread:

1. no access is out of bounds (the run is not stuck);
2. the elements removed are the first elements inserted, in order and uncorrupted;
3. what is removed was visible, what is visible was inserted, and at most 2^k - 1 elements are
   in the queue;
4. a removal fails only if everything visible when it looked had been removed, and reports 0;
5. an insertion fails only if 2^k - 1 elements had not been visibly removed, and reports 0;
6. the space reported by a successful insertion is really there, the count reported by a
   successful removal is really there;
7. an element that is visible and not yet removed is intact in memory (its slot is not reused);
8. whenever the producer is not inside a call, all that it has inserted is visible (on x86-64,
   `tso_spsc`, that may take longer). -/
theorem ia64_spsc (num sz : UInt32) (k : Nat) (hk1 : 1 ≤ k) (hk2 : k ≤ 31)
    (hnum : num.toNat = 2 ^ k) (hmem : num.toNat * sz.toNat ≤ 2 ^ 32) (acts : List Ia64Act) :
    ∃ q s, Queue.init num sz = some q ∧ (Ia64.start true q).run acts = .ok s ∧
      gots s.log <+: puts s.log ∧
      ((gots s.log).length ≤ visibles s.log ∧ visibles s.log ≤ (puts s.log).length ∧
        (puts s.log).length ≤ (gots s.log).length + (2 ^ k - 1)) ∧
      (∀ a c b, s.log = a ++ .empty c :: b → c = 0 ∧ (gots a).length = seen a) ∧
      (∀ a c b, s.log = a ++ .full c :: b → c = 0 ∧ (puts a).length = freeds a + (2 ^ k - 1)) ∧
      (∀ a x c b, s.log = a ++ .put x c :: b →
        (puts a).length + 1 + c ≤ (gots a).length + (2 ^ k - 1)) ∧
      (∀ a x c b, s.log = a ++ .got x c :: b → (gots a).length + 1 + c ≤ visibles a) ∧
      (∀ j x, (gots s.log).length ≤ j → j < visibles s.log → (puts s.log)[j]? = some x →
        (s.q.data.drop ((j % 2 ^ k) * sz.toNat)).take sz.toNat = x) ∧
      (s.p = .idle → visibles s.log = (puts s.log).length) := by
  have hs : QSize num.toNat := ⟨k, hk1, hk2, hnum⟩
  obtain ⟨q, hq, -⟩ := Queue.init_rep hmem hs
  obtain ⟨s, hr, acts', t, ht, hrel⟩ := (Ia64.Rel.start hq hs hmem).run acts
  have hi := hrel.inv
  obtain ⟨-, hqq, hlog, -, hp, -, -⟩ := hrel
  have hroom := hi.room
  have hfT := hi.cbuf.le
  have hg := hs.ge
  have horder := hi.order
  have hle := hi.pbuf.le
  have htaken := hi.taken
  have hemp := hi.empties
  have hful := hi.fulls
  have hspa := hi.spaces
  have hcnt := hi.counts
  have hlens := hi.lens
  have hslots := hi.slots
  have hpb := hi.pbuf
  rw [hlog] at hroom hfT horder hle htaken hemp hful hspa hcnt hlens hslots hpb
  rw [hqq] at hslots
  refine ⟨q, s, hq, hr, ?_, ⟨horder, hle, ?_⟩, ?_, ?_, ?_, ?_, ?_, ?_⟩
  · rw [htaken]; exact List.take_prefix _ _
  · rw [← hnum]; omega
  · intro a c b h
    obtain ⟨h1, h2⟩ := hemp a _ b h ⟨c, rfl⟩
    cases h1; exact ⟨rfl, h2⟩
  · intro a c b h
    obtain ⟨h1, h2⟩ := hful a _ b h ⟨c, rfl⟩
    cases h1; exact ⟨rfl, by rw [← hnum]; exact h2⟩
  · intro a x c b h
    have := hspa a _ b h ⟨x, c, rfl⟩ x c rfl
    rwa [hnum] at this
  · intro a x c b h
    exact hcnt a _ b h ⟨x, c, rfl⟩ x c rfl
  · intro j x h1 h2 hx
    have hxl := hlens x (List.mem_of_getElem? hx)
    apply List.ext_getElem?
    intro i
    by_cases hz : i < sz.toNat
    · rw [List.getElem?_take_of_lt hz, List.getElem?_drop, ← hnum]
      exact hslots j x h1 h2 hx i hz
    · have hl : ((s.q.data.drop ((j % 2 ^ k) * sz.toNat)).take sz.toNat).length ≤ i := by
        rw [List.length_take]; omega
      rw [List.getElem?_eq_none hl, List.getElem?_eq_none (by omega)]
  · intro hidle
    rw [hidle] at hp
    obtain ⟨-, -, h0⟩ := hp
    rw [h0] at hpb
    exact hpb.1

/-- C112, what the claim rests on: there is no barrier between the look at how much there is and
the copy of the element (my_queue_mb.c:127-131). If the read of `q->head` is a plain load, the copy
may be carried out first, and a removal returns an element that was never inserted: here the
zeroes with which the queue was set up, instead of the 7 that the producer inserted meanwhile. -/
theorem ia64_needs_acquire : ∃ q acts s, Queue.init 2 1 = some q ∧
    (Ia64.start false q).run acts = .ok s ∧ puts s.log = [[7]] ∧ gots s.log = [[0]] ∧
    ¬ gots s.log <+: puts s.log :=
  ⟨⟨[0, 0], 2, 1, 0, 0⟩,
    [.remove, .cearly 0, .insert [7], .pstep 0, .pstep 0, .pstep 0, .pflush 0, .pstep 0, .pflush 0,
      .pstep 0, .cstep 0, .cstep 0, .cstep 0, .cstep 0],
    ⟨false, ⟨[7, 0], 2, 1, 1, 0⟩, [], [.tail 1], .idle, .idle,
      [.put [7] 0, .visible, .look, .got [0] 0]⟩,
    by decide +kernel, by decide +kernel, by decide +kernel, by decide +kernel, by decide +kernel⟩

/-- Non-vacuity: a schedule in which the two bytes of the element become visible in the opposite
order, and not before a first look; a removal then succeeds, and the freed slot is seen late. -/
example : (Queue.init 2 2).map (fun q =>
      ((Ia64.start true q).run [.insert [7, 8], .pstep 0, .pstep 0, .pstep 0, .pstep 0, .pstep 0,
        .pflush 1, .remove, .cstep 0, .cstep 0, .pflush 0, .pstep 0, .pflush 0, .pstep 0,
        .remove, .cearly 0, .cstep 0, .cstep 0, .cstep 1, .cstep 0, .cstep 0, .cstep 0,
        .insert [1, 2], .pstep 0, .pstep 0, .cflush 0]).map
        (fun s => (s.log, s.q.data))) =
    some (.ok ([.look, .empty 0, .put [7, 8] 0, .visible, .look, .got [7, 8] 0, .full 0, .freed],
      [7, 8, 0, 0])) := by decide +kernel

end Fstrm.Props
