import Verif.Model.Vector
import Verif.Lemmas.Exec

/-! Growth of vectors, and vectors as lists. -/

set_option autoImplicit false

namespace Fstrm

/-- The growth loop ends within the budget the model gives it, makes enough room, and at most
doubles what is needed. -/
theorem growCap_ok (fuel cap n need : Nat) (hcap : 1 ≤ cap) (hn : n ≤ cap)
    (hfp : 1 ≤ fuel) (hf : need + n < fuel + cap) :
    ∃ c, growCap fuel cap n need = .ok c ∧ need + n ≤ c ∧ cap ≤ c ∧
      (c = cap ∨ c < 2 * (need + n)) := by
  induction fuel generalizing cap with
  | zero => omega
  | succ fuel ih =>
    unfold growCap
    split
    · obtain ⟨c, h1, h2, h3, h4⟩ := ih (cap * 2) (by omega) (by omega) (by omega) (by omega)
      refine ⟨c, h1, h2, by omega, ?_⟩
      omega
    · exact ⟨cap, rfl, by omega, by omega, Or.inl rfl⟩

/-- The vector `v` holds the list `xs`. -/
structure Vec.Rep {α : Type} (v : Vec α) (xs : List α) : Prop where
  len : v.n = xs.length
  fit : v.n ≤ v.mem.length
  cells : v.mem.take v.n = xs.map some
  cap : 1 ≤ v.mem.length
  hint : 1 ≤ v.hint
  ptr : v.p = v.n

variable {α : Type}

theorem reallocTo_length (mem : List (Option α)) (k : Nat) : (reallocTo mem k).length = k := by
  simp [reallocTo]; omega

theorem reallocTo_take (mem : List (Option α)) {k n : Nat} (h : n ≤ k) (hn : n ≤ mem.length) :
    (reallocTo mem k).take n = mem.take n := by
  simp only [reallocTo, List.take_append, List.take_take, List.length_take]
  rw [show min n k = n by omega, show n - min k mem.length = 0 by omega]
  simp

theorem memWrite_ok {mem : List (Option α)} {i : Nat} {xs : List α}
    (h : i + xs.length ≤ mem.length) :
    ∃ m, memWrite mem i xs = .ok m ∧ m.length = mem.length ∧
      m.take (i + xs.length) = mem.take i ++ xs.map some := by
  refine ⟨_, if_pos h, ?_, ?_⟩
  · simp; omega
  · rw [List.take_append_of_le_length (by simp; omega), List.take_of_length_le (by simp; omega)]

theorem Vec.Rep.init (hint : Nat) : (Vec.init α hint).Rep [] := by
  unfold Vec.init
  refine ⟨rfl, ?_, ?_, ?_, ?_, rfl⟩
  · simp
  · simp
  · simp; split <;> omega
  · simp; split <;> omega

theorem Vec.Rep.reserve {v : Vec α} {xs : List α} (h : v.Rep xs) (k : Nat) :
    ∃ v', v.reserve k = .ok v' ∧ v'.Rep xs ∧ v'.n + k ≤ v'.mem.length ∧ v'.hint = v.hint := by
  obtain ⟨c, h1, h2, h3, -⟩ := growCap_ok (k + v.n + 1) v.mem.length v.n k h.cap h.fit (by omega)
    (by have := h.cap; omega)
  unfold Vec.reserve
  rw [h1, Exec.ok_bind]
  split
  · rename_i hc
    exact ⟨v, rfl, h, by omega, rfl⟩
  · refine ⟨_, rfl, ⟨h.len, ?_, ?_, ?_, h.hint, rfl⟩, ?_, rfl⟩
    · simp only [reallocTo_length]; omega
    · rw [← h.cells]; exact reallocTo_take _ (by show v.n ≤ c; omega) h.fit
    · simp only [reallocTo_length]; have := h.cap; omega
    · simp only [reallocTo_length]; omega

theorem Vec.Rep.add {v : Vec α} {xs : List α} (h : v.Rep xs) (x : α) :
    ∃ v', v.add x = .ok v' ∧ v'.Rep (xs ++ [x]) ∧ v'.hint = v.hint := by
  obtain ⟨c, h1, h2, h3, -⟩ := growCap_ok (1 + v.n + 1) v.mem.length v.n 1 h.cap h.fit (by omega)
    (by have := h.cap; omega)
  unfold Vec.add
  rw [h1, Exec.ok_bind]
  generalize hm : (if c = v.mem.length then v.mem else reallocTo v.mem c) = mem
  have hml : mem.length = c := by
    rw [← hm]; split
    · omega
    · exact reallocTo_length _ _
  have hmt : mem.take v.n = xs.map some := by
    rw [← hm, ← h.cells]; split
    · rfl
    · exact reallocTo_take _ (by omega) h.fit
  obtain ⟨m, h4, h5, h6⟩ := memWrite_ok (mem := mem) (i := v.n) (xs := [x]) (by simp; omega)
  simp only [h4, Exec.ok_bind]
  refine ⟨_, rfl, ⟨?_, ?_, ?_, ?_, h.hint, rfl⟩, rfl⟩
  · simp [h.len]
  · simp only; omega
  · simp only
    have := h6; simp only [List.length_singleton] at this
    rw [this, hmt]; simp
  · simp only; omega

theorem Vec.Rep.append {v : Vec α} {xs : List α} (h : v.Rep xs) (ys : List α) :
    ∃ v', v.append ys = .ok v' ∧ v'.Rep (xs ++ ys) ∧ v'.hint = v.hint := by
  obtain ⟨w, h1, h2, h3, h7⟩ := h.reserve ys.length
  obtain ⟨m, h4, h5, h6⟩ := memWrite_ok (mem := w.mem) (i := w.n) (xs := ys) h3
  unfold Vec.append
  rw [h1, Exec.ok_bind, h4, Exec.ok_bind]
  refine ⟨_, rfl, ⟨?_, ?_, ?_, ?_, h2.hint, rfl⟩, h7⟩
  · simp [h2.len]
  · simp only; omega
  · simp only; rw [h6, h2.cells]; simp
  · simp only; have := h2.cap; omega

theorem Vec.Rep.reset {v : Vec α} {xs : List α} (h : v.Rep xs) : v.reset.Rep [] := by
  unfold Vec.reset
  refine ⟨rfl, Nat.zero_le _, by simp, ?_, h.hint, rfl⟩
  simp only; split
  · rw [reallocTo_length]; exact h.hint
  · exact h.cap

theorem Vec.Rep.clip {v : Vec α} {xs : List α} (h : v.Rep xs) (k : Nat) :
    (v.clip k).Rep (xs.take k) := by
  unfold Vec.clip
  split
  · rename_i hk
    have := h.len
    refine ⟨?_, ?_, ?_, h.cap, h.hint, rfl⟩
    · simp only [List.length_take]; omega
    · have := h.fit; simp only; omega
    · simp only [List.map_take, ← h.cells, List.take_take]; congr 1; omega
  · have := h.len
    rw [List.take_of_length_le (by omega)]; exact h

theorem Vec.Rep.cell {v : Vec α} {xs : List α} (h : v.Rep xs) {i : Nat} (hi : i < xs.length) :
    v.mem[i]? = some (some xs[i]) := by
  have h1 : (v.mem.take v.n)[i]? = some (some xs[i]) := by rw [h.cells]; simp [hi]
  rwa [List.getElem?_take_of_lt (by rw [h.len]; exact hi)] at h1

theorem Vec.Rep.readAll {v : Vec α} {xs : List α} (h : v.Rep xs) (k : Nat) (hk : k ≤ xs.length) :
    Vec.readAll v.mem k = .ok (xs.take k) := by
  induction k with
  | zero => rfl
  | succ k ih =>
    unfold Vec.readAll
    rw [ih (by omega), Exec.ok_bind, h.cell (i := k) (by omega)]
    simp only
    rw [List.take_succ_eq_append_getElem (by omega)]

theorem Vec.Rep.extend {v w : Vec α} {xs ys : List α} (h : v.Rep xs) (hw : w.Rep ys) :
    ∃ v', v.extend w = .ok v' ∧ v'.Rep (xs ++ ys) ∧ v'.hint = v.hint := by
  unfold Vec.extend
  rw [hw.len, hw.readAll _ (Nat.le_refl _), Exec.ok_bind, List.take_length]
  exact h.append ys

theorem Vec.Rep.advance {v : Vec α} {xs ys : List α} (h : v.Rep xs)
    (hf : v.n + ys.length ≤ v.mem.length) :
    ∃ v', v.advance ys = .ok v' ∧ v'.Rep (xs ++ ys) ∧ v'.hint = v.hint := by
  obtain ⟨m, h4, h5, h6⟩ := memWrite_ok (mem := v.mem) (i := v.n) (xs := ys) hf
  unfold Vec.advance
  rw [h.ptr, h4, Exec.ok_bind, if_pos (by omega)]
  refine ⟨_, rfl, ⟨?_, ?_, ?_, ?_, h.hint, rfl⟩, rfl⟩
  · simp [h.len]
  · simp only; omega
  · simp only; rw [h6, h.cells]; simp
  · simp only; have := h.cap; omega

theorem Vec.Rep.value {v : Vec α} {xs : List α} (h : v.Rep xs) (i : Nat) (hi : i < xs.length) :
    v.value i = .ok xs[i] := by
  unfold Vec.value
  rw [if_pos (by rw [h.len]; exact hi), h.cell hi]

end Fstrm
