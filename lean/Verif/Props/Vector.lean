import Verif.Lemmas.Vector
import Verif.Spec.Vector

/-! C58: growable arrays are lists. -/

set_option autoImplicit false

namespace Fstrm.Props

open Fstrm.Spec (VOp contents)

variable {α : Type}

/-- The model's functions an operation of the specification stands for. -/
def vecStep (v : Vec α) : VOp α → Exec (Vec α)
  | .add x => v.add x
  | .reserve k => v.reserve k
  | .append xs => v.append xs
  | .extend hint xs => do
    let w ← (Vec.init α hint).append xs
    v.extend w
  | .fill xs => do
    let v ← v.reserve xs.length
    v.advance xs
  | .clip k => .ok (v.clip k)
  | .reset => .ok v.reset
  | .detach => .ok v.detach.2
  | .reinit hint => .ok (v.reinit hint)

/-- A sequence of operations. -/
def vecRun (v : Vec α) : List (VOp α) → Exec (Vec α)
  | [] => .ok v
  | o :: ops => do
    let v ← vecStep v o
    vecRun v ops

theorem vecStep_rep {v : Vec α} {xs : List α} (h : v.Rep xs) (o : VOp α) :
    ∃ v', vecStep v o = .ok v' ∧ v'.Rep (o.effect xs) ∧
      ∀ hint, v.hint = max 1 hint → v'.hint = max 1 (o.sizeHint hint) := by
  have keep : (∃ v', vecStep v o = .ok v' ∧ v'.Rep (o.effect xs) ∧ v'.hint = v.hint) →
      (∀ hint, o.sizeHint hint = hint) →
      ∃ v', vecStep v o = .ok v' ∧ v'.Rep (o.effect xs) ∧
        ∀ hint, v.hint = max 1 hint → v'.hint = max 1 (o.sizeHint hint) := by
    rintro ⟨v', h1, h2, h3⟩ h4
    exact ⟨v', h1, h2, fun hint hh => by rw [h3, hh, h4]⟩
  cases o with
  | reinit k =>
    refine ⟨_, rfl, Vec.Rep.init k, fun _ _ => ?_⟩
    simp only [Vec.reinit, VOp.sizeHint]
    split <;> omega
  | detach =>
    refine keep ⟨_, rfl, ⟨rfl, ?_, ?_, ?_, h.hint, rfl⟩, rfl⟩ (fun _ => rfl)
    · simp [Vec.detach]
    · simp [Vec.detach, VOp.effect]
    · simpa [Vec.detach] using h.hint
  | add x => exact keep (h.add x) (fun _ => rfl)
  | reserve k =>
    obtain ⟨v', h1, h2, -, h4⟩ := h.reserve k
    exact keep ⟨v', h1, h2, h4⟩ (fun _ => rfl)
  | append xs => exact keep (h.append xs) (fun _ => rfl)
  | extend hint ys =>
    obtain ⟨w, h1, h2, -⟩ := (Vec.Rep.init (α := α) hint).append ys
    refine keep ?_ (fun _ => rfl)
    simp only [vecStep, h1, Exec.ok_bind]
    exact h.extend h2
  | fill ys =>
    obtain ⟨w, h1, h2, h3, h4⟩ := h.reserve ys.length
    refine keep ?_ (fun _ => rfl)
    simp only [vecStep, h1, Exec.ok_bind]
    obtain ⟨v', h5, h6, h7⟩ := h2.advance h3
    exact ⟨v', h5, h6, h7.trans h4⟩
  | clip k => exact keep ⟨_, rfl, h.clip k, by unfold Vec.clip; split <;> rfl⟩ (fun _ => rfl)
  | reset => exact keep ⟨_, rfl, h.reset, rfl⟩ (fun _ => rfl)

theorem vecRun_rep {v : Vec α} {xs : List α} (h : v.Rep xs) (ops : List (VOp α)) :
    ∃ v', vecRun v ops = .ok v' ∧ v'.Rep (ops.foldl VOp.effect xs) ∧
      ∀ hint, v.hint = max 1 hint → v'.hint = max 1 (ops.foldl VOp.sizeHint hint) := by
  induction ops generalizing v xs with
  | nil => exact ⟨v, rfl, h, fun _ hh => hh⟩
  | cons o ops ih =>
    obtain ⟨w, h1, h2, h3⟩ := vecStep_rep h o
    obtain ⟨v', h4, h5, h6⟩ := ih h2
    refine ⟨v', ?_, h5, fun hint hh => h6 _ (h3 hint hh)⟩
    simp only [vecRun, h1, Exec.ok_bind, h4]

/-- C58: for every initial size and every sequence of operations, no operation accesses memory out
of bounds or runs into an assertion, the size and every element are those of the mathematical list,
the size does not exceed the capacity, and reading at an index beyond the size is refused. -/
theorem vec_is_list (hint : Nat) (ops : List (VOp α)) :
    ∃ v, vecRun (Vec.init α hint) ops = .ok v ∧
      v.size = (contents ops).length ∧
      v.size ≤ v.mem.length ∧
      (∀ i (h : i < (contents ops).length), v.value i = .ok (contents ops)[i]) ∧
      (∀ i, (contents ops).length ≤ i → v.value i = .error (.abort "i < _n")) := by
  obtain ⟨v, h1, h2, -⟩ := vecRun_rep (Vec.Rep.init (α := α) hint) ops
  refine ⟨v, h1, h2.len, h2.fit, fun i hi => h2.value i hi, fun i hi => ?_⟩
  unfold Vec.value
  rw [if_neg]
  have := h2.len
  simp only [contents] at hi
  omega

/-- `reserve` keeps its promise: after reserving `k`, `k` elements can be added without another
allocation, and the array handed out is not more than twice what is needed or what was there. -/
theorem vec_reserve_room (hint : Nat) (ops : List (VOp α)) (k : Nat) :
    ∃ v v', vecRun (Vec.init α hint) ops = .ok v ∧ v.reserve k = .ok v' ∧
      v'.size + k ≤ v'.mem.length ∧
      v'.mem.length ≤ max v.mem.length (2 * (v.size + k)) := by
  obtain ⟨v, h1, h2, -⟩ := vecRun_rep (Vec.Rep.init (α := α) hint) ops
  obtain ⟨v', h3, h4, h5, -⟩ := h2.reserve k
  refine ⟨v, v', h1, h3, h5, ?_⟩
  obtain ⟨c, e1, e2, e3, e4⟩ := growCap_ok (k + v.n + 1) v.mem.length v.n k h2.cap h2.fit (by omega)
    (by have := h2.cap; omega)
  unfold Vec.reserve at h3
  rw [e1, Exec.ok_bind] at h3
  simp only [Vec.size]
  split at h3
  · cases h3; omega
  · cases h3
    simp only [reallocTo_length]; omega

/-- Resetting gives back memory: however large a vector has grown, after a reset it is empty and
its allocation is at most its initial size (at least one element), where the initial size is the
one given last. -/
theorem vec_reset_shrinks (hint : Nat) (ops : List (VOp α)) :
    ∃ v, vecRun (Vec.init α hint) (ops ++ [.reset]) = .ok v ∧ v.size = 0 ∧
      v.mem.length ≤ max 1 (ops.foldl VOp.sizeHint hint) := by
  obtain ⟨v, h1, h2, h3⟩ := vecRun_rep (Vec.Rep.init (α := α) hint) ops
  have : vecRun (Vec.init α hint) (ops ++ [.reset]) = .ok v.reset := by
    clear h2 h3
    generalize Vec.init α hint = u at h1
    induction ops generalizing u with
    | nil => cases h1; rfl
    | cons o ops ih =>
      simp only [vecRun] at h1
      obtain ⟨w, e1, e2⟩ := Exec.bind_eq_ok.1 h1
      simp only [List.cons_append, vecRun, e1, Exec.ok_bind]
      exact ih _ e2
  refine ⟨_, this, rfl, ?_⟩
  have hh := h3 hint (by simp only [Vec.init]; split <;> omega)
  simp only [Vec.reset]
  split
  · rw [reallocTo_length, hh]; exact Nat.le_refl _
  · omega

/-- Giving the array away: what the caller gets is exactly the contents, in an array of their own;
the vector goes on empty, with the allocation of its initial size. -/
theorem vec_detach_hands_out (hint : Nat) (ops : List (VOp α)) :
    ∃ v, vecRun (Vec.init α hint) ops = .ok v ∧
      v.detach.1.2 = (contents ops).length ∧
      v.detach.1.1.take v.detach.1.2 = (contents ops).map some ∧
      v.detach.2.size = 0 ∧
      v.detach.2.mem.length = max 1 (ops.foldl VOp.sizeHint hint) := by
  obtain ⟨v, h1, h2, h3⟩ := vecRun_rep (Vec.Rep.init (α := α) hint) ops
  refine ⟨v, h1, h2.len, h2.cells, rfl, ?_⟩
  rw [← h3 hint (by simp only [Vec.init]; split <;> omega)]
  simp [Vec.detach]

/-- Non-vacuity: a sequence using every operation, with growth and shrinking. -/
example :
    vecRun (Vec.init Nat 0) [.add 1, .append [2, 3], .reserve 9, .clip 2, .fill [7, 8],
      .extend 1 [5]] =
    .ok ⟨[some 1, some 2, some 7, some 8, some 5, none, none, none, none, none, none, none, none,
      none, none, none], 5, 1, 5⟩ := by
  decide +kernel

example : contents ([.add 1, .append [2, 3], .reserve 9, .clip 2, .fill [7, 8],
    .extend 1 [5]] : List (VOp Nat)) = [1, 2, 7, 8, 5] := by decide +kernel

example : vecRun (Vec.init Nat 2) [.append [1, 2, 3, 4, 5], .reset] =
    .ok ⟨[some 1, some 2], 0, 2, 0⟩ := by decide +kernel

example : vecRun (Vec.init Nat 2) [.append [1, 2, 3], .detach, .add 4, .reinit 0, .append [5, 6]] =
    .ok ⟨[some 5, some 6], 2, 1, 2⟩ := by decide +kernel

example : ((vecRun (Vec.init Nat 2) [.append [1, 2, 3]]).map fun v => v.detach.1) =
    .ok ([some 1, some 2, some 3, none], 3) := by decide +kernel

end Fstrm.Props
