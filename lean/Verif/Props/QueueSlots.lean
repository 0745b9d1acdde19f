import Verif.Props.QueueTso

/-!
# The two threads of the lock-free queue never touch the same element (C33)

This is what makes the copying of elements, which is neither atomic nor protected by a lock, harmless.
-/

set_option autoImplicit false

namespace Fstrm.Props

open Fstrm.Spec (QEv puts gots visibles freeds seen)

/-- The array bytes that the consumer reads in its current call. -/
def consumerBytes (sz : Nat) (s : Tso) (off : Nat) : Prop :=
  match s.c with
  | .copy tail _ _ _ => tail.toNat * sz ≤ off ∧ off < tail.toNat * sz + sz
  | _ => False

/-- The array bytes that the producer writes in its current call or whose new value has not reached
memory. -/
def producerBytes (sz : Nat) (s : Tso) (off : Nat) : Prop :=
  (match s.p with
    | .copy _ head _ _ => head.toNat * sz ≤ off ∧ off < head.toNat * sz + sz
    | _ => False) ∨
  ∃ b, .data off b ∈ s.pbuf

/-- A buffered byte is in the slot of an insertion that is not visible. -/
theorem GoodBuf.mem {n sz : Nat} {P : List Bytes} {cur : Option (Bytes × List Nat)} {mem : Bytes}
    {v : Nat} {buf : List Store} (h : GoodBuf n sz P cur mem v buf) {off : Nat} {b : UInt8}
    (hm : .data off b ∈ buf) : ∃ w i, v ≤ w ∧ w ≤ P.length ∧ i < sz ∧ off = (w % n) * sz + i := by
  induction buf generalizing mem v with
  | nil => cases hm
  | cons s buf ih =>
    cases s with
    | data o x =>
      rcases List.mem_cons.1 hm with hm | hm
      · cases hm
        obtain ⟨i, h1, h2⟩ := h.1
        exact ⟨v, i, Nat.le_refl _, GoodBuf.le h.2, h1, h2⟩
      · exact ih h.2 hm
    | head x =>
      rcases List.mem_cons.1 hm with hm | hm
      · cases hm
      · obtain ⟨w, i, h1, h2⟩ := ih h.2.2.2 hm
        exact ⟨w, i, by omega, h2⟩
    | tail x => exact h.elim

theorem slots_apart {n sz a b i j : Nat} (hi : i < sz) (hj : j < sz)
    (h : a * sz + i = b * sz + j) : a = b := by
  rcases Nat.lt_trichotomy a b with hlt | heq | hlt
  · have : (a + 1) * sz ≤ b * sz := Nat.mul_le_mul_right _ hlt
    rw [Nat.add_mul] at this; omega
  · exact heq
  · have : (b + 1) * sz ≤ a * sz := Nat.mul_le_mul_right _ hlt
    rw [Nat.add_mul] at this; omega

theorem mod_apart {n t w : Nat} (h1 : t < w) (h2 : w < t + n) : t % n ≠ w % n := by
  intro h
  have hd := Nat.mod_add_div t n
  have hd' := Nat.mod_add_div w n
  rw [h] at hd
  have hlt : t / n < w / n := by
    rcases Nat.lt_or_ge (t / n) (w / n) with hlt | hge
    · exact hlt
    · have := Nat.mul_le_mul_left n hge; omega
  have : n * (t / n + 1) ≤ n * (w / n) := Nat.mul_le_mul_left n hlt
  rw [Nat.mul_add] at this
  omega

/-- **C33**, the elements: in every schedule, at no time is there a byte of the array that the consumer reads in
its call while the producer writes it in its call, or while a value written to it has not reached memory. -/
theorem tso_exclusive (num sz : UInt32) (k : Nat) (hk1 : 1 ≤ k) (hk2 : k ≤ 31)
    (hnum : num.toNat = 2 ^ k) (hmem : num.toNat * sz.toNat ≤ 2 ^ 32) (q : Queue)
    (hq : Queue.init num sz = some q) (acts : List TsoAct) (s : Tso)
    (h : (Tso.start q).run acts = .ok s) (off : Nat) :
    ¬ (consumerBytes sz.toNat s off ∧ producerBytes sz.toNat s off) := by
  have hs : QSize num.toNat := ⟨k, hk1, hk2, hnum⟩
  obtain ⟨s', hr, hi⟩ := (Tso.Inv.start hq hs hmem).run acts
  rw [h] at hr; cases hr
  rintro ⟨h1, h2⟩
  unfold consumerBytes at h1
  split at h1
  · rename_i tail count buf todo hc
    have hcg := hi.c
    rw [hc] at hcg
    obtain ⟨c1, c2, _⟩ := hcg
    have hroom := hi.room
    have hle := hi.pbuf.le
    have hfT := hi.cbuf.le
    -- any slot that the producer writes belongs to an insertion `w`
    have key : ∀ w i, visibles s.log ≤ w → w ≤ (puts s.log).length →
        w + 1 ≤ num.toNat + freeds s.log → i < sz.toNat →
        off = (w % num.toNat) * sz.toNat + i → False := by
      intro w i w1 w2 w3 w4 w5
      refine mod_apart (t := (gots s.log).length) (w := w) (n := num.toNat) (by omega) (by omega) ?_
      refine slots_apart (n := num.toNat) (i := off - tail.toNat * sz.toNat) (j := i) (sz := sz.toNat)
        (by omega) w4 ?_
      rw [← c1]; omega
    rcases h2 with h2 | ⟨b, h2⟩
    · split at h2
      · rename_i item head space todo' hp
        have hpg := hi.p
        rw [hp] at hpg hroom
        obtain ⟨_, p2, _, p4⟩ := hpg
        simp only [PPc.busy] at hroom
        exact key (puts s.log).length (off - head.toNat * sz.toNat) hle (Nat.le_refl _) (by omega)
          (by omega) (by rw [← p2]; omega)
      · exact h2
    · obtain ⟨w, i, w1, w2, w3, w4⟩ := GoodBuf.mem hi.pbuf h2
      exact key w i w1 w2 (by omega) w3 w4
  · exact h1

/-- Non-vacuity: both threads are copying, the consumer element 0, the producer element 1, and a byte of it is
still in the store buffer. -/
example : (Queue.init 4 2).map (fun q =>
      ((Tso.start q).run ([.insert [7, 8], .pstep 0, .pstep 0, .pstep 0, .pstep 0, .pstep 0, .pflush,
        .pflush, .pflush, .insert [5, 6], .pstep 0, .pstep 0, .pstep 0, .remove, .cstep 0, .cstep 0])).map
        (fun s => (s.p, s.c, s.pbuf))) =
    some (.ok (.copy [5, 6] 1 1 [1], .copy 0 0 [0, 0] [0, 1], [.data 2 5])) := by decide +kernel

end Fstrm.Props
