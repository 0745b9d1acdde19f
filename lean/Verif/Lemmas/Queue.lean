import Verif.Model.Queue
import Verif.Spec.Fifo
import Verif.Lemmas.Exec

/-! Index arithmetic of the ring buffers, and the sequential refinement. -/

set_option autoImplicit false

namespace Fstrm

open Spec (QOp QRes fifoStep fifoRun)

/-- `n` is a usable queue size: a power of two between 2 and 2^31. -/
def QSize (n : Nat) : Prop := ∃ k, 1 ≤ k ∧ k ≤ 31 ∧ n = 2 ^ k

theorem QSize.dvd {n : Nat} (h : QSize n) : n ∣ 2 ^ 32 := by
  obtain ⟨k, -, hk, rfl⟩ := h
  exact Nat.pow_dvd_pow 2 (by omega)

theorem QSize.ge {n : Nat} (h : QSize n) : 2 ≤ n := by
  obtain ⟨k, hk, -, rfl⟩ := h
  calc 2 = 2 ^ 1 := rfl
    _ ≤ 2 ^ k := Nat.pow_le_pow_right (by omega) hk

theorem QSize.le {n : Nat} (h : QSize n) : n ≤ 2 ^ 31 := by
  obtain ⟨k, -, hk, rfl⟩ := h
  exact Nat.pow_le_pow_right (by omega) hk

/-- Masking with `size - 1` is reduction modulo the size. -/
theorem mask_toNat {size : UInt32} (h : QSize size.toNat) (x : UInt32) :
    (x &&& (size - 1)).toNat = x.toNat % size.toNat := by
  have hg := h.ge
  obtain ⟨k, hk1, hk2, hk⟩ := h
  rw [UInt32.toNat_and, UInt32.toNat_sub_of_le _ _ (by
    rw [UInt32.le_iff_toNat_le]; exact (by show 1 ≤ size.toNat; omega))]
  rw [show (1 : UInt32).toNat = 1 from rfl, hk, Nat.and_two_pow_sub_one_eq_mod]

/-- Adding fewer than `n` on a circle of `n`. -/
theorem circle {n u d : Nat} (hu : u < n) (hd : d < n) :
    (u + d) % n = if u + d < n then u + d else u + d - n := by
  split
  · exact Nat.mod_eq_of_lt ‹_›
  · rw [Nat.mod_eq_sub_mod (by omega), Nat.mod_eq_of_lt (by omega)]

theorem mod_of_eq {n c r x : Nat} (h : x = n * c + r) (hr : r < n) : x % n = r := by
  rw [h, Nat.mul_add_mod, Nat.mod_eq_of_lt hr]

theorem qSpace_toNat {head tail size : UInt32} {U d : Nat} (hs : QSize size.toNat)
    (hh : head.toNat = (U + d) % size.toNat) (ht : tail.toNat = U % size.toNat)
    (hd : d < size.toNat) : (qSpace head tail size).toNat = size.toNat - 1 - d := by
  unfold qSpace
  rw [mask_toNat hs, UInt32.toNat_sub, UInt32.toNat_add, Nat.mod_mod_of_dvd _ hs.dvd]
  have hg := hs.ge
  have hle := hs.le
  obtain ⟨c, hc⟩ := hs.dvd
  generalize size.toNat = n at *
  have hu : U % n < n := Nat.mod_lt _ (by omega)
  rw [Nat.add_mod, Nat.mod_eq_of_lt hd, circle hu hd] at hh
  have hc1 : 1 ≤ c := by
    rcases c with _ | c
    · simp at hc
    · omega
  have hcc : n * c = n * (c - 1) + n := by
    rw [← Nat.mul_succ]; congr 1; omega
  rw [show (1 : UInt32).toNat = 1 from rfl]
  have h1 : (head.toNat + 1) % 2 ^ 32 = head.toNat + 1 := Nat.mod_eq_of_lt (by split at hh <;> omega)
  rw [h1]
  split at hh
  · exact mod_of_eq (c := c - 1) (by omega) (by omega)
  · rw [show 2 ^ 32 - (head.toNat + 1) + tail.toNat = n * c + (n - 1 - d) by omega]
    exact mod_of_eq rfl (by omega)

theorem qCount_toNat {head tail size : UInt32} {U d : Nat} (hs : QSize size.toNat)
    (hh : head.toNat = (U + d) % size.toNat) (ht : tail.toNat = U % size.toNat)
    (hd : d < size.toNat) : (qCount head tail size).toNat = d := by
  unfold qCount
  rw [mask_toNat hs, UInt32.toNat_sub, Nat.mod_mod_of_dvd _ hs.dvd]
  have hg := hs.ge
  have hle := hs.le
  obtain ⟨c, hc⟩ := hs.dvd
  generalize size.toNat = n at *
  have hu : U % n < n := Nat.mod_lt _ (by omega)
  rw [Nat.add_mod, Nat.mod_eq_of_lt hd, circle hu hd] at hh
  have hc1 : 1 ≤ c := by
    rcases c with _ | c
    · simp at hc
    · omega
  have hcc : n * c = n * (c - 1) + n := by
    rw [← Nat.mul_succ]; congr 1; omega
  split at hh
  · exact mod_of_eq (c := c) (by omega) (by omega)
  · exact mod_of_eq (c := c - 1) (by omega) (by omega)

theorem qNext_toNat {i size : UInt32} {I : Nat} (hs : QSize size.toNat)
    (hi : i.toNat = I % size.toNat) : (qNext i size).toNat = (I + 1) % size.toNat := by
  unfold qNext
  rw [mask_toNat hs, UInt32.toNat_add, Nat.mod_mod_of_dvd _ hs.dvd, hi]
  rw [show (1 : UInt32).toNat = 1 from rfl, Nat.mod_add_mod]

/-- The byte offset of slot `i` does not wrap around as long as the array is at most 4 GiB. -/
theorem offset_toNat {i size sz : UInt32} (hi : i.toNat < size.toNat)
    (hb : size.toNat * sz.toNat ≤ 2 ^ 32) (hz : 1 ≤ sz.toNat) :
    (i * sz).toNat = i.toNat * sz.toNat := by
  rw [UInt32.toNat_mul, Nat.mod_eq_of_lt]
  calc i.toNat * sz.toNat < size.toNat * sz.toNat := Nat.mul_lt_mul_of_pos_right hi hz
    _ ≤ 2 ^ 32 := hb

/-- Distinct slots do not overlap. -/
theorem slot_inj {a b i j sz : Nat} (hi : i < sz) (hj : j < sz) (h : a * sz + i = b * sz + j) :
    a = b ∧ i = j := by
  have h1 : (a * sz + i) / sz = a := by
    rw [Nat.mul_comm, Nat.mul_add_div (by omega), Nat.div_eq_of_lt hi, Nat.add_zero]
  have h2 : (b * sz + j) / sz = b := by
    rw [Nat.mul_comm, Nat.mul_add_div (by omega), Nat.div_eq_of_lt hj, Nat.add_zero]
  have : a = b := by rw [← h1, ← h2, h]
  subst this
  exact ⟨rfl, by omega⟩

/-- Indices less than `n` apart name different slots. -/
theorem mod_inj_of_close {n a b : Nat} (hab : a ≤ b) (hd : b - a < n) (h : a % n = b % n) :
    a = b := by
  have h1 : b = a + (b - a) := by omega
  rw [h1, Nat.add_mod, Nat.mod_eq_of_lt hd, circle (Nat.mod_lt _ (by omega)) hd] at h
  split at h <;> omega

theorem slot_fits {a n i sz : Nat} (ha : a < n) (hi : i < sz) : a * sz + i < n * sz := by
  have : (a + 1) * sz ≤ n * sz := Nat.mul_le_mul_right _ ha
  rw [Nat.add_mul] at this
  omega

theorem putBytes_ok {mem bs : Bytes} {off : Nat} (h : off + bs.length ≤ mem.length) :
    ∃ m, putBytes mem off bs = .ok m ∧ m.length = mem.length ∧
      ∀ i, m[i]? = if off ≤ i ∧ i < off + bs.length then bs[i - off]? else mem[i]? := by
  refine ⟨_, if_pos h, by simp; omega, fun i => ?_⟩
  rw [List.append_assoc, List.getElem?_append]
  simp only [List.length_take, Nat.min_eq_left (by omega : off ≤ mem.length)]
  split
  · rw [if_neg (by omega), List.getElem?_take_of_lt ‹_›]
  · rw [List.getElem?_append]
    split
    · rw [if_pos (by omega)]
    · rw [if_neg (by omega), List.getElem?_drop]; congr 1; omega

/-- `q` holds the items `xs`, all of the element size; `U` removals have taken place. -/
structure Queue.Rep (q : Queue) (U : Nat) (xs : List Bytes) : Prop where
  size : QSize q.num.toNat
  small : q.num.toNat * q.sz.toNat ≤ 2 ^ 32
  mem : q.data.length = q.num.toNat * q.sz.toNat
  room : xs.length < q.num.toNat
  head : q.head.toNat = (U + xs.length) % q.num.toNat
  tail : q.tail.toNat = U % q.num.toNat
  lens : ∀ x ∈ xs, x.length = q.sz.toNat
  items : ∀ j x, xs[j]? = some x → ∀ i, i < q.sz.toNat →
    q.data[((U + j) % q.num.toNat) * q.sz.toNat + i]? = x[i]?

theorem UInt32.ge_one_iff (x : UInt32) : x ≥ 1 ↔ 1 ≤ x.toNat := UInt32.le_iff_toNat_le

theorem UInt32.sub_one_toNat {x : UInt32} (h : 1 ≤ x.toNat) : (x - 1).toNat = x.toNat - 1 :=
  UInt32.toNat_sub_of_le _ _ (UInt32.le_iff_toNat_le.2 h)

/-- The offset of the slot an index points to (element size zero included). -/
theorem offset_any {i size sz : UInt32} (hi : i.toNat < size.toNat)
    (hb : size.toNat * sz.toNat ≤ 2 ^ 32) : (i * sz).toNat = i.toNat * sz.toNat := by
  by_cases hz : 1 ≤ sz.toNat
  · exact offset_toNat hi hb hz
  · rw [UInt32.toNat_mul, show sz.toNat = 0 by omega]; simp

theorem Queue.Rep.insert {q : Queue} {U : Nat} {xs : List Bytes} (h : q.Rep U xs) (x : Bytes)
    (hx : x.length = q.sz.toNat) :
    ∃ ok sp q', q.insert x = .ok (ok, sp, q') ∧
      QRes.ins ok sp.toNat = (fifoStep (q.num.toNat - 1) xs (.ins x)).1 ∧
      q'.Rep U (fifoStep (q.num.toNat - 1) xs (.ins x)).2 ∧ q'.num = q.num ∧ q'.sz = q.sz := by
  have hsp := qSpace_toNat h.size h.head h.tail h.room
  have hg := h.size.ge
  unfold Queue.insert fifoStep
  simp only [UInt32.ge_one_iff, hsp, hx, Nat.lt_irrefl, if_false,
    show x.take q.sz.toNat = x by rw [← hx, List.take_length]]
  have hh : q.head.toNat < q.num.toNat := by rw [h.head]; exact Nat.mod_lt _ (by omega)
  by_cases hr : xs.length < q.num.toNat - 1
  · rw [if_pos (by omega), if_pos hr]
    rw [offset_any hh h.small]
    have hfit : q.head.toNat * q.sz.toNat + x.length ≤ q.data.length := by
      rw [h.mem, hx]
      have : (q.head.toNat + 1) * q.sz.toNat ≤ q.num.toNat * q.sz.toNat :=
        Nat.mul_le_mul_right _ hh
      rw [Nat.add_mul] at this; omega
    obtain ⟨m, h1, h2, h3⟩ := putBytes_ok hfit
    rw [h1, Exec.ok_bind]
    refine ⟨_, _, _, rfl, ?_, ⟨h.size, h.small, by rw [← h.mem, ← h2], ?_, ?_, h.tail, ?_, ?_⟩,
      rfl, rfl⟩
    · rw [UInt32.sub_one_toNat (by omega), hsp]
      congr 1
    · simp only [List.length_append, List.length_singleton]; omega
    · simp only [List.length_append, List.length_singleton]
      rw [qNext_toNat h.size h.head]; rfl
    · intro y hy
      rcases List.mem_append.1 hy with hy | hy
      · exact h.lens y hy
      · rw [List.mem_singleton.1 hy]; exact hx
    · intro j y hy i hi
      simp only at hi ⊢
      rw [h3]
      by_cases hj : j < xs.length
      · rw [List.getElem?_append_left hj] at hy
        rw [if_neg, h.items j y hy i hi]
        rintro ⟨e1, e2⟩
        have e3 := slot_inj (a := (U + j) % q.num.toNat) (b := q.head.toNat) (i := i)
          (j := (U + j) % q.num.toNat * q.sz.toNat + i - q.head.toNat * q.sz.toNat)
          hi (by omega) (by omega)
        rw [h.head] at e3
        have := mod_inj_of_close (n := q.num.toNat) (a := U + j) (b := U + xs.length) (by omega)
          (by omega) e3.1
        omega
      · rw [List.getElem?_append_right (by omega)] at hy
        have hj2 : j = xs.length := by
          by_cases hj3 : j = xs.length
          · exact hj3
          · rw [List.getElem?_eq_none (by simp; omega)] at hy; cases hy
        subst hj2
        simp at hy
        subst hy
        rw [← h.head, if_pos (by omega)]
        congr 1; omega
  · rw [if_neg (by omega), if_neg hr]
    refine ⟨_, _, _, rfl, ?_, h, rfl, rfl⟩
    rw [hsp]; congr 1; omega

theorem Queue.Rep.remove {q : Queue} {U : Nat} {xs : List Bytes} (h : q.Rep U xs) :
    ∃ r ct q' U', q.remove = .ok (r, ct, q') ∧
      QRes.rem r ct.toNat = (fifoStep (q.num.toNat - 1) xs .rem).1 ∧
      q'.Rep U' (fifoStep (q.num.toNat - 1) xs .rem).2 ∧ q'.num = q.num ∧ q'.sz = q.sz := by
  have hct := qCount_toNat h.size h.head h.tail h.room
  have hg := h.size.ge
  unfold Queue.remove fifoStep
  simp only [UInt32.ge_one_iff, hct]
  have hh : q.tail.toNat < q.num.toNat := by rw [h.tail]; exact Nat.mod_lt _ (by omega)
  cases xs with
  | nil =>
    rw [if_neg (by simp)]
    exact ⟨_, _, _, U, rfl, by rw [hct]; rfl, h, rfl, rfl⟩
  | cons x rest =>
    rw [if_pos (by simp), offset_any hh h.small]
    have hfit : q.tail.toNat * q.sz.toNat + q.sz.toNat ≤ q.data.length := by
      rw [h.mem]
      have : (q.tail.toNat + 1) * q.sz.toNat ≤ q.num.toNat * q.sz.toNat :=
        Nat.mul_le_mul_right _ hh
      rw [Nat.add_mul] at this; omega
    have hget : getBytes q.data (q.tail.toNat * q.sz.toNat) q.sz.toNat = .ok x := by
      unfold getBytes
      rw [if_pos hfit]
      congr 1
      have hxl := h.lens x (by simp)
      apply List.ext_getElem?
      intro i
      by_cases hi : i < q.sz.toNat
      · rw [List.getElem?_take_of_lt hi, List.getElem?_drop, h.tail]
        have := h.items 0 x rfl i hi
        rwa [Nat.add_zero] at this
      · rw [List.getElem?_eq_none (by simp; omega), List.getElem?_eq_none (by omega)]
    rw [hget, Exec.ok_bind]
    have hroom := h.room
    have hhead := h.head
    simp only [List.length_cons] at hroom hhead
    refine ⟨_, _, _, U + 1, rfl, ?_, ⟨h.size, h.small, h.mem, ?_, ?_, ?_, ?_, ?_⟩, rfl, rfl⟩
    · rw [UInt32.sub_one_toNat (by rw [hct]; simp), hct]; simp
    · simp only; omega
    · simp only [hhead]; congr 1; omega
    · simp only; exact qNext_toNat h.size h.tail
    · intro y hy; exact h.lens y (by simp [hy])
    · intro j y hy i hi
      have := h.items (j + 1) y hy i hi
      simp only at hi ⊢
      rw [← this, show U + 1 + j = U + (j + 1) by omega]

theorem pow2_of_and (n : Nat) (h1 : 1 ≤ n) (h : (n - 1) &&& n = 0) : ∃ k, n = 2 ^ k := by
  induction n using Nat.strongRecOn with
  | _ n ih =>
    by_cases hn : n = 1
    · exact ⟨0, hn⟩
    · have h2 : (n - 1) / 2 &&& n / 2 = 0 := by rw [← Nat.and_div_two, h]
      by_cases he : n % 2 = 0
      · rw [show (n - 1) / 2 = n / 2 - 1 by omega] at h2
        obtain ⟨k, hk⟩ := ih (n / 2) (by omega) (by omega) h2
        exact ⟨k + 1, by rw [Nat.pow_succ]; omega⟩
      · rw [show (n - 1) / 2 = n / 2 by omega, Nat.and_self] at h2
        omega

theorem Queue.init_rep {num sz : UInt32} (hb : num.toNat * sz.toNat ≤ 2 ^ 32)
    (hs : QSize num.toNat) :
    ∃ q, Queue.init num sz = some q ∧ q.Rep 0 [] ∧ q.num = num ∧ q.sz = sz := by
  have hg := hs.ge
  unfold Queue.init
  rw [if_neg]
  · refine ⟨_, rfl, ⟨hs, hb, by simp, by simp only [List.length_nil]; omega, ?_, ?_, ?_, ?_⟩,
      rfl, rfl⟩
    · simp
    · simp
    · simp
    · simp
  · rintro (h | h)
    · rw [UInt32.lt_iff_toNat_lt] at h
      have : (2 : UInt32).toNat = 2 := rfl
      omega
    · apply h
      rw [UInt32.and_comm]
      apply UInt32.toNat_inj.1
      rw [mask_toNat hs, Nat.mod_self]; rfl

end Fstrm
