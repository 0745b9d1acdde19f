import Verif.Model.IothrQueues

/-!
# Counting the steps of the I/O thread, access by access (C130)
-/

set_option autoImplicit false

namespace Fstrm.Spec

variable {σ : Type} {Q : QImpl}

/-- `Moves s as n s'`: the steps `as` lead from `s` to `s'`, and `n` of them are steps of the I/O thread
that change anything. Those that change nothing are steps of waiting: for a wakeup, the clock, the mutex, or its
own store buffer. -/
inductive Moves : IoQ σ Q → List QAct → Nat → IoQ σ Q → Prop
  | nil (s : IoQ σ Q) : Moves s [] 0 s
  | other {s s1 s' : IoQ σ Q} {a : QAct} {as : List QAct} {n : Nat} (h : s.step a = .ok s1)
      (ha : a.isIo = false) (hm : Moves s1 as n s') : Moves s (a :: as) n s'
  | still {s s' : IoQ σ Q} {a : QAct} {as : List QAct} {n : Nat} (h : s.step a = .ok s)
      (ha : a.isIo = true) (hm : Moves s as n s') : Moves s (a :: as) n s'
  | moved {s s1 s' : IoQ σ Q} {a : QAct} {as : List QAct} {n : Nat} (h : s.step a = .ok s1)
      (ha : a.isIo = true) (hc : s1 ≠ s) (hm : Moves s1 as n s') : Moves s (a :: as) (n + 1) s'

end Fstrm.Spec
