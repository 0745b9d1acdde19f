import Verif.Model.Basic

/-!
# Model of the growable arrays of `/repo/libmy/vector.h` and `/repo/libmy/ubuf.h`

`mem` is the allocated array (`_n_alloced` cells); a cell is `none` until it is
written. Reading an unwritten cell or touching a cell outside the array is
undefined behaviour. The pointer `_p` is represented by its index into `_v`.
-/

set_option autoImplicit false

namespace Fstrm

/-- `VECTOR_GENERATE` struct, vector.h:30-34. -/
structure Vec (α : Type) where
  mem : List (Option α)
  n : Nat
  hint : Nat
  p : Nat
  deriving Repr, DecidableEq

/-- The growth loop shared by `reserve` (vector.h:80-85) and `add`
(vector.h:91-96): double the allocation until `need` more elements fit.
`_n_alloced - _n` is unsigned in C; `n ≤ alloced` is an invariant. -/
def growCap : (fuel alloced n need : Nat) → Exec Nat
  | 0, _, _, _ => .error .fuel
  | fuel+1, alloced, n, need =>
    if need > alloced - n then growCap fuel (alloced * 2) n need else .ok alloced

/-- `realloc` to `k` cells: old contents kept, new cells uninitialised.
Called at vector.h:83, 94, 124. -/
def reallocTo {α : Type} (mem : List (Option α)) (k : Nat) : List (Option α) :=
  mem.take k ++ List.replicate (k - mem.length) none

/-- `memcpy`/assignment of `elems` into the array at index `i`. vector.h:98, 107. -/
def memWrite {α : Type} (mem : List (Option α)) (i : Nat) (elems : List α) :
    Exec (List (Option α)) :=
  if i + elems.length ≤ mem.length then
    .ok (mem.take i ++ elems.map some ++ mem.drop (i + elems.length))
  else .error (.ub "vector write out of bounds")

namespace Vec

/-- `name##_init`, vector.h:35-45. -/
def init (α : Type) (hint : Nat) : Vec α :=
  let hint := if hint = 0 then 1 else hint
  ⟨List.replicate hint none, 0, hint, 0⟩

/-- `name##_reinit`, vector.h:47-55 (the old array is the caller's problem). -/
def reinit {α : Type} (_v : Vec α) (hint : Nat) : Vec α :=
  let hint := if hint = 0 then 1 else hint
  ⟨List.replicate hint none, 0, hint, 0⟩

/-- `name##_reserve`, vector.h:77-86. -/
def reserve {α : Type} (v : Vec α) (need : Nat) : Exec (Vec α) := do
  let cap ← growCap (need + v.n + 1) v.mem.length v.n need
  if cap = v.mem.length then .ok v
  else .ok { v with mem := reallocTo v.mem cap, p := v.n }

/-- `name##_add`, vector.h:88-100. -/
def add {α : Type} (v : Vec α) (x : α) : Exec (Vec α) := do
  let cap ← growCap (1 + v.n + 1) v.mem.length v.n 1
  let mem := if cap = v.mem.length then v.mem else reallocTo v.mem cap
  let mem ← memWrite mem v.n [x]
  .ok { v with mem := mem, n := v.n + 1, p := v.n + 1 }

/-- `name##_append`, vector.h:102-109. -/
def append {α : Type} (v : Vec α) (xs : List α) : Exec (Vec α) := do
  let v ← v.reserve xs.length
  let mem ← memWrite v.mem v.n xs
  .ok { v with mem := mem, n := v.n + xs.length, p := v.n + xs.length }

/-- `name##_reset`, vector.h:117-128. -/
def reset {α : Type} (v : Vec α) : Vec α :=
  let mem := if v.mem.length > v.hint then reallocTo v.mem v.hint else v.mem
  { v with mem := mem, n := 0, p := 0 }

/-- `name##_clip`, vector.h:129-137. -/
def clip {α : Type} (v : Vec α) (k : Nat) : Vec α :=
  if k < v.n then { v with n := k, p := k } else v

/-- `name##_size`, vector.h:144-149. -/
def size {α : Type} (v : Vec α) : Nat := v.n

/-- `name##_value`, vector.h:150-156. -/
def value {α : Type} (v : Vec α) (i : Nat) : Exec α :=
  if i < v.n then
    match v.mem[i]? with
    | some (some x) => .ok x
    | some none => .error (.ub "read of uninitialised element")
    | none => .error (.ub "vector read out of bounds")
  else .error (.abort "i < _n")

/-- The elements `_v[0] .. _v[n-1]` read one after the other.
Not in the code: `name##_value` for every index, vector.h:150-156. -/
def readAll {α : Type} (mem : List (Option α)) : (n : Nat) → Exec (List α)
  | 0 => .ok []
  | n+1 => do
    let xs ← readAll mem n
    match mem[n]? with
    | some (some x) => .ok (xs ++ [x])
    | some none => .error (.ub "read of uninitialised element")
    | none => .error (.ub "vector read out of bounds")

/-- `name##_extend`, vector.h:111-116: append the contents of another vector. -/
def extend {α : Type} (v w : Vec α) : Exec (Vec α) := do
  let xs ← readAll w.mem w.n
  v.append xs

/-- `name##_detach`, vector.h:57-67: hand out the array and start a new one. -/
def detach {α : Type} (v : Vec α) : (List (Option α) × Nat) × Vec α :=
  ((v.mem, v.n), ⟨List.replicate v.hint none, 0, v.hint, 0⟩)

/-- `name##_advance`, vector.h:169-176: the caller wrote `xs` through `_p` and
announces their number. -/
def advance {α : Type} (v : Vec α) (xs : List α) : Exec (Vec α) := do
  let mem ← memWrite v.mem v.p xs
  if xs.length ≤ v.mem.length - v.n then
    .ok { v with mem := mem, n := v.n + xs.length, p := v.n + xs.length }
  else .error (.abort "x <= _n_alloced - _n")

end Vec
end Fstrm
