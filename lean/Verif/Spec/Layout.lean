import Verif.Model.Layout

/-!
# What it means that objects lie where they may (C137)
-/

set_option autoImplicit false

namespace Fstrm.Spec

open CType

/-- An array of `n` structures at address `base`: every member of every element lies at a multiple of its alignment and
inside its element, and behind the members before it. -/
structure Placed (base n : Nat) (ts : List CType) : Prop where
  aligned : ∀ i < n, ∀ (k : Nat) (t : CType) (o : Nat), ts[k]? = some t → (offsets 0 ts)[k]? = some o → t.align ∣ base + i * (struct ts).size + o
  inside : ∀ (k : Nat) (t : CType) (o : Nat), ts[k]? = some t → (offsets 0 ts)[k]? = some o → o + t.size ≤ (struct ts).size
  behind : ∀ (k k' : Nat) (t : CType) (o o' : Nat), k < k' → ts[k]? = some t → (offsets 0 ts)[k]? = some o → (offsets 0 ts)[k']? = some o' →
    o + t.size ≤ o'

/-- A type that `malloc` and `calloc`, whose results are multiples of `A`, can be used for. -/
def Plain (A : Nat) (t : CType) : Prop := 0 < t.align ∧ t.align ∣ A

/-- All types of the platform are. -/
def PlainAbi (A : Nat) (m : Abi) : Prop :=
  Spec.Plain A m.pointer ∧ Spec.Plain A m.unsigned ∧ Spec.Plain A m.bool ∧ Spec.Plain A m.uint32 ∧ Spec.Plain A m.size ∧
  Spec.Plain A m.time ∧ Spec.Plain A m.thread ∧ Spec.Plain A m.mutex ∧ Spec.Plain A m.cond ∧ Spec.Plain A m.clockid ∧
  Spec.Plain A m.sockaddrUn ∧ Spec.Plain A m.sockaddrStorage ∧ Spec.Plain A m.socklen

end Fstrm.Spec
