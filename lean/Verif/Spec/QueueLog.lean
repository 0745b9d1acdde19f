/-!
# What can be observed of a queue shared by two threads

The log of a run: what the calls returned, and when stores became visible to the other thread.
Independent of the model.
-/

set_option autoImplicit false

namespace Fstrm.Spec

/-- Events, in the order in which they happen. -/
inductive QEv (α : Type) where
  /-- an insertion was carried out by the producer; it reports `space` -/
  | put (x : α) (space : Nat)
  /-- an insertion returned false; it reports `space` -/
  | full (space : Nat)
  /-- the oldest insertion not yet visible to the consumer became visible to it -/
  | visible
  /-- a removal call took its look at how much there is -/
  | look
  /-- a removal was carried out by the consumer and returns this element and count -/
  | got (x : α) (count : Nat)
  /-- a removal returned false; it reports `count` -/
  | empty (count : Nat)
  /-- the oldest removal not yet visible to the producer became visible to it -/
  | freed
  deriving Repr, DecidableEq

/-- Elements inserted. -/
def puts {α : Type} : List (QEv α) → List α
  | [] => []
  | .put x _ :: l => x :: puts l
  | _ :: l => puts l

/-- Elements removed. -/
def gots {α : Type} : List (QEv α) → List α
  | [] => []
  | .got x _ :: l => x :: gots l
  | _ :: l => gots l

/-- Number of insertions visible to the consumer. -/
def visibles {α : Type} : List (QEv α) → Nat
  | [] => 0
  | .visible :: l => visibles l + 1
  | _ :: l => visibles l

/-- Number of removals visible to the producer. -/
def freeds {α : Type} : List (QEv α) → Nat
  | [] => 0
  | .freed :: l => freeds l + 1
  | _ :: l => freeds l

/-- Number of insertions that were visible when the last removal call took its look: `v` counts
the visible insertions so far, `s` is the answer for the last look so far. -/
def seenFrom {α : Type} (v s : Nat) : List (QEv α) → Nat
  | [] => s
  | .visible :: l => seenFrom (v + 1) s l
  | .look :: l => seenFrom v v l
  | _ :: l => seenFrom v s l

/-- See `seenFrom`. -/
def seen {α : Type} (l : List (QEv α)) : Nat := seenFrom 0 0 l

end Fstrm.Spec
