import Verif.Lemmas.Layout
import Verif.Model.IothrOptions

/-!
# C137: objects lie where their types may lie
-/

set_option autoImplicit false

namespace Fstrm.Props

open CType Spec

/-- **C137**, as far as it is true. Whatever address, a multiple of `A`, an allocation returns, the members of
all objects and arrays allocated there lie at addresses that are multiples of their alignment, do not
overlap and are inside what was allocated, if the alignments of the platform's types divide `A`. Of the queues with a mutex
this holds if the compiler does not define `__GNUC__`, or `A` is a multiple of 64. -/
theorem objects_placed_partial (m : Abi) (A : Nat) (h : PlainAbi A m) (base n : Nat) (hb : A ∣ base) :
    (∀ ts ∈ m.objects, Placed base n ts) ∧ Placed base n (m.queueMutex false) ∧
      (64 ∣ A → Placed base n (m.queueMutex true)) := by
  obtain ⟨h1, h2, h3, h4, h5, h6, h7, h8, h9, h10, h11, h12, h13⟩ := h
  have ho : Plain A (struct m.rdwrOps) := plain_struct (by simp [Abi.rdwrOps, h1])
  have hi : Plain A (struct m.iothrOptions) := plain_struct (by simp [Abi.iothrOptions, h2])
  have hc : Plain A (⟨2, 1⟩ : CType) := ⟨Nat.one_pos, Nat.one_dvd _⟩
  refine ⟨?_, placed (by simp [Abi.queueMutex, h1, h2, h8]) hb, fun hA => placed ?_ hb⟩
  · intro ts hts
    refine placed ?_ hb
    simp only [Abi.objects, List.mem_cons, List.not_mem_nil, or_false] at hts
    rcases hts with rfl | rfl | rfl | rfl | rfl | rfl | rfl | rfl | rfl | rfl | rfl | rfl | rfl | rfl | rfl | rfl | rfl |
      rfl | rfl | rfl | rfl | rfl
    all_goals first
      | simp [Abi.control, Abi.buf, Abi.vector, Abi.rdwr, Abi.fileOptions, Abi.file, Abi.unixOptions, Abi.unixWriter,
          Abi.tcpOptions, Abi.tcpWriter, Abi.writerOptions, Abi.writer, Abi.iovec, Abi.be32, Abi.reader,
          Abi.readerOptions, Abi.iothrQueue, Abi.entry, Abi.iothr, Abi.queueMb, Abi.conn, *]; done
      | simp [Abi.iothrOptions, h2]
  · have : Plain A (m.mutex.aligned 64) := ⟨Nat.lcm_pos h8.1 (by decide), Nat.lcm_dvd h8.2 hA⟩
    simp [Abi.queueMutex, h1, h2, this]

/-- The usual 64-bit platform. -/
def lp64 : Abi where
  pointer := ⟨8, 8⟩
  unsigned := ⟨4, 4⟩
  bool := ⟨1, 1⟩
  uint32 := ⟨4, 4⟩
  size := ⟨8, 8⟩
  time := ⟨8, 8⟩
  thread := ⟨8, 8⟩
  mutex := ⟨40, 8⟩
  cond := ⟨48, 8⟩
  clockid := ⟨4, 4⟩
  sockaddrUn := ⟨110, 2⟩
  sockaddrStorage := ⟨128, 8⟩
  socklen := ⟨4, 4⟩

/-- There `malloc` returns multiples of 16. The sizes are those a compiler reports. -/
example : PlainAbi 16 lp64 ∧ (struct lp64.entry).size = ENTRY_SIZE.toNat ∧
    offsets 0 lp64.queueMb = [0, 8, 12, 16, 20] ∧ struct lp64.queueMb = ⟨24, 8⟩ ∧
    offsets 0 lp64.unixWriter = [0, 4, 8] ∧ struct lp64.unixWriter = ⟨120, 4⟩ ∧
    offsets 0 (lp64.queueMutex true) = [0, 8, 12, 16, 20, 64] ∧ struct (lp64.queueMutex true) = ⟨128, 64⟩ := by
  refine ⟨?_, ?_⟩
  · simp only [PlainAbi, Plain, lp64]; decide
  · decide

/-- **C137 is false**: with a compiler that defines `__GNUC__`, a queue with a mutex must be at a multiple of 64, but it is
allocated with `calloc`. On every platform where `calloc` may return other addresses, the mutex then lies where it
must not. -/
theorem queue_misplaced (m : Abi) (A : Nat) (hA : 0 < A) (h : PlainAbi A m) (hn : ¬ 64 ∣ A) :
    ∃ base, 0 < base ∧ A ∣ base ∧ ¬ Placed base 1 (m.queueMutex true) := by
  refine ⟨A, hA, Nat.dvd_refl _, fun hp => ?_⟩
  obtain ⟨h1, h2, _, _, _, _, _, h8, _⟩ := h
  have hpos : ∀ t ∈ m.queueMutex true, 0 < t.align := by
    intro t ht
    simp only [Abi.queueMutex, List.mem_cons, List.not_mem_nil, or_false, ↓reduceIte] at ht
    have : 0 < (m.mutex.aligned 64).align := Nat.lcm_pos h8.1 (by decide)
    have := h1.1
    have := h2.1
    rcases ht with rfl | rfl | rfl | rfl | rfl | rfl <;> assumption
  have ht : (m.queueMutex true)[5]? = some (m.mutex.aligned 64) := rfl
  obtain ⟨o, ho⟩ : ∃ o, (offsets 0 (m.queueMutex true))[5]? = some o := ⟨_, rfl⟩
  have h3 := hp.aligned 0 (by decide) 5 _ o ht ho
  have h4 := (offset_spec _ 0 hpos ht ho).1
  have h64 : 64 ∣ (m.mutex.aligned 64).align := Nat.dvd_lcm_right _ _
  rw [Nat.zero_mul, Nat.add_zero] at h3
  exact hn ((Nat.dvd_add_iff_left (Nat.dvd_trans h64 h4)).2 (Nat.dvd_trans h64 h3))

example : ¬ Placed 16 1 (lp64.queueMutex true) := fun h =>
  absurd (h.aligned 0 (by decide) 5 ⟨40, 64⟩ 64 rfl (by decide)) (by decide)

end Fstrm.Props
