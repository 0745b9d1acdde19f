import Verif.Lemmas.Queue

/-! C32: the ring buffers, called sequentially, are bounded FIFOs. -/

set_option autoImplicit false

namespace Fstrm.Props

open Fstrm.Spec (QOp QRes fifoStep fifoRun)

/-- One call on the model. -/
def queueStep (q : Queue) : QOp Bytes → Exec (QRes Bytes × Queue)
  | .ins x => do
    let (ok, space, q) ← q.insert x
    .ok (.ins ok space.toNat, q)
  | .rem => do
    let (x, count, q) ← q.remove
    .ok (.rem x count.toNat, q)

/-- A sequence of calls. -/
def queueRun (q : Queue) : List (QOp Bytes) → Exec (List (QRes Bytes))
  | [] => .ok []
  | o :: ops => do
    let (r, q) ← queueStep q o
    let rs ← queueRun q ops
    .ok (r :: rs)

theorem queueRun_rep {q : Queue} {U : Nat} {xs : List Bytes} (h : q.Rep U xs)
    (ops : List (QOp Bytes)) (hops : ∀ x, QOp.ins x ∈ ops → x.length = q.sz.toNat) :
    queueRun q ops = .ok (fifoRun (q.num.toNat - 1) xs ops).1 := by
  induction ops generalizing q U xs with
  | nil => rfl
  | cons o ops ih =>
    cases o with
    | ins x =>
      obtain ⟨ok, sp, q', h1, h2, h3, h4, h5⟩ := h.insert x (hops x (by simp))
      simp only [queueRun, queueStep, h1, Exec.ok_bind]
      rw [ih h3 (by rw [h5]; exact fun y hy => hops y (by simp [hy])), h2, h4]
      rfl
    | rem =>
      obtain ⟨r, ct, q', U', h1, h2, h3, h4, h5⟩ := h.remove
      simp only [queueRun, queueStep, h1, Exec.ok_bind]
      rw [ih h3 (by rw [h5]; exact fun y hy => hops y (by simp [hy])), h2, h4]
      rfl

/-- A queue is created exactly for the sizes 2, 4, 8, ..., 2^31. -/
theorem queue_init_iff (num sz : UInt32) :
    (Queue.init num sz).isSome ↔ ∃ k, 1 ≤ k ∧ k ≤ 31 ∧ num.toNat = 2 ^ k := by
  constructor
  · intro h
    unfold Queue.init at h
    split at h
    · cases h
    · rename_i hn
      rw [not_or, UInt32.lt_iff_toNat_lt, show (2 : UInt32).toNat = 2 from rfl] at hn
      obtain ⟨h1, h2⟩ := hn
      have h2 : (num - 1) &&& num = 0 := by simpa using h2
      have h3 := congrArg UInt32.toNat h2
      rw [UInt32.toNat_and, UInt32.sub_one_toNat (by omega)] at h3
      obtain ⟨k, hk⟩ := pow2_of_and num.toNat (by omega) h3
      refine ⟨k, ?_, ?_, hk⟩
      · rcases k with _ | k
        · rw [hk] at h1; simp at h1
        · omega
      · have hlt := num.toNat_lt
        rw [hk] at hlt
        have := (Nat.pow_lt_pow_iff_right (a := 2) (by omega)).1 hlt
        omega
  · intro h
    have hs : QSize num.toNat := h
    have hg := hs.ge
    unfold Queue.init
    rw [if_neg]
    · rfl
    · rintro (h | h)
      · rw [UInt32.lt_iff_toNat_lt, show (2 : UInt32).toNat = 2 from rfl] at h
        omega
      · apply h
        rw [UInt32.and_comm]
        apply UInt32.toNat_inj.1
        rw [mask_toNat hs, Nat.mod_self]; rfl

/-- C32: for every size 2^k (1 ≤ k ≤ 31), every element size for which the array is at most 4 GiB,
and every sequence of insertions and removals, the calls return exactly what a FIFO of capacity
2^k - 1 returns: the elements in order, unchanged, and exact space and count. No call touches
memory outside of the array. -/
theorem queue_is_fifo (num sz : UInt32) (k : Nat) (hk1 : 1 ≤ k) (hk2 : k ≤ 31)
    (hnum : num.toNat = 2 ^ k) (hmem : num.toNat * sz.toNat ≤ 2 ^ 32)
    (ops : List (QOp Bytes)) (hops : ∀ x, QOp.ins x ∈ ops → x.length = sz.toNat) :
    ∃ q, Queue.init num sz = some q ∧
      queueRun q ops = .ok (fifoRun (2 ^ k - 1) [] ops).1 := by
  obtain ⟨q, h1, h2, h3, h4⟩ := Queue.init_rep hmem ⟨k, hk1, hk2, hnum⟩
  refine ⟨q, h1, ?_⟩
  rw [queueRun_rep h2 ops (by rw [h4]; exact hops), h3, hnum]

/-- Non-vacuity: a queue of size 4 with 2-byte elements, filled, overfilled, drained and wrapped
around. -/
example : (Queue.init 4 2).map (fun q => queueRun q
      [.ins [1, 2], .ins [3, 4], .ins [5, 6], .ins [7, 8], .rem, .ins [9, 9], .rem, .rem, .rem,
       .rem]) =
    some (.ok [.ins true 2, .ins true 1, .ins true 0, .ins false 0, .rem (some [1, 2]) 2,
      .ins true 0, .rem (some [3, 4]) 2, .rem (some [5, 6]) 1, .rem (some [9, 9]) 0,
      .rem none 0]) := by decide +kernel

example : (fifoRun 3 [] [.ins 1, .ins 2, .ins 3, .ins 4, .rem, .ins 5, .rem, .rem, .rem, .rem]).1 =
    [.ins true 2, .ins true 1, .ins true 0, .ins false 0, .rem (some 1) 2, .ins true 0,
     .rem (some 2) 2, .rem (some 3) 1, .rem (some 5) 0, .rem none 0] := by decide +kernel

/-- The 4 GiB condition in `queue_is_fifo` is needed: the byte offset of a slot is computed in
32 bits, so for larger arrays two slots share memory. -/
theorem queue_offset_wraps : ∃ (num sz i j : UInt32),
    (Queue.init num sz).isSome ∧ i < num ∧ j < num ∧ i ≠ j ∧ i * sz = j * sz ∧ 0 < sz := by
  refine ⟨2147483648, 4, 0, 1073741824, ?_, ?_, ?_, ?_, ?_, ?_⟩
  · rw [queue_init_iff]; exact ⟨31, by omega, by omega, rfl⟩
  all_goals decide

end Fstrm.Props
