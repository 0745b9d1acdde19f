import Verif.Model.Queue
import Verif.Spec.QueueMt

/-!
# The queues shared by any number of threads

`/repo/libmy/my_queue_mutex.c:123-161` (`locked = true`) and `/repo/libmy/my_queue_mb.c:103-140`
(`locked = false`), at the granularity of single memory accesses, interleaved arbitrarily.
Memory is sequentially consistent here: under the mutex that is what POSIX promises, and for the
lock-free queue it only removes behaviours (this machine is used to show what goes wrong there).
A thread is named by a number; there is no bound on their number.
-/

set_option autoImplicit false

namespace Fstrm

/-- Where a thread is. my_queue_mutex.c:97-161. -/
inductive MtPc where
  | idle
  /-- `my_queue_mutex_insert` line 126, waiting for the lock; lock-free: line 107 not yet done -/
  | insEnter (item : Bytes)
  /-- lines 128-129 / mb 107: about to load `q->head` -/
  | insHead (item : Bytes)
  /-- lines 129-130 / mb 108-109: about to load `q->tail` -/
  | insTail (item : Bytes) (head : UInt32)
  /-- line 132 / mb 111: copying; with nothing left, about to store `q->head` -/
  | insCopy (item : Bytes) (head space : UInt32) (todo : List Nat)
  /-- line 137: about to unlock and return -/
  | insLeave (item : Bytes) (ok : Bool) (space : UInt32)
  | remEnter
  | remHead
  | remTail (head : UInt32)
  | remCopy (tail count : UInt32) (buf : Bytes) (todo : List Nat)
  | remLeave (res : Option Bytes) (count : UInt32)
  deriving Repr, DecidableEq

/-- Shared memory, the mutex (`none`: free) and the threads. `log` is a ghost field.
my_queue_mutex.c:41-48. -/
structure Mt where
  locked : Bool
  q : Queue
  owner : Option Nat
  th : Nat → MtPc
  log : List (Spec.Call Bytes)

/-- What the schedule chooses. my_queue_mutex.c:123-161. -/
inductive MtAct where
  /-- thread `t` calls insert (if it is not in a call) -/
  | insert (t : Nat) (item : Bytes)
  /-- thread `t` calls remove (if it is not in a call) -/
  | remove (t : Nat)
  /-- the next access of thread `t`; `i` picks the byte copied next -/
  | step (t i : Nat)
  deriving Repr, DecidableEq

namespace Mt

/-- Thread `t` continues at `pc`. my_queue_mutex.c:97-161. -/
def goto (s : Mt) (t : Nat) (pc : MtPc) : Mt :=
  { s with th := fun u => if u = t then pc else s.th u }

/-- `q_lock`, my_queue_mutex.c:97-102: wait until the mutex is free (the step does nothing while it
is not). -/
def enter (s : Mt) (t : Nat) (pc : MtPc) : Mt :=
  if s.locked then
    match s.owner with
    | none => { s.goto t pc with owner := some t }
    | some _ => s
  else s.goto t pc

/-- `q_unlock`, my_queue_mutex.c:104-109, and return. -/
def leave (s : Mt) (t : Nat) (c : Spec.Call Bytes) : Mt :=
  { s.goto t .idle with owner := if s.locked then none else s.owner, log := s.log ++ [c] }

/-- The next access of thread `t`. my_queue_mutex.c:123-161. -/
def access (s : Mt) (t i : Nat) : Exec Mt :=
  match s.th t with
  | .idle => .ok s
  | .insEnter item => .ok (s.enter t (.insHead item))
  | .insHead item => .ok (s.goto t (.insTail item s.q.head))
  | .insTail item head =>
    let space := qSpace head s.q.tail s.q.num
    if space ≥ 1 then .ok (s.goto t (.insCopy item head (space - 1) (List.range s.q.sz.toNat)))
    else .ok (s.goto t (.insLeave item false space))
  | .insCopy item head space [] =>
    .ok { s.goto t (.insLeave item true space) with q := { s.q with head := qNext head s.q.num } }
  | .insCopy item head space (k0 :: todo) =>
    let k := (k0 :: todo)[i % (todo.length + 1)]?.getD k0
    let off := (head * s.q.sz).toNat + k
    match item[k]? with
    | none => .error (.ub "read past the end of the item")
    | some b =>
      if off < s.q.data.length then
        .ok { s.goto t (.insCopy item head space ((k0 :: todo).erase k)) with
          q := { s.q with data := s.q.data.set off b } }
      else .error (.ub "queue write out of bounds")
  | .insLeave item ok space => .ok (s.leave t ⟨t, .ins item, .ins ok space.toNat⟩)
  | .remEnter => .ok (s.enter t .remHead)
  | .remHead => .ok (s.goto t (.remTail s.q.head))
  | .remTail head =>
    let count := qCount head s.q.tail s.q.num
    if count ≥ 1 then
      .ok (s.goto t (.remCopy s.q.tail (count - 1) (List.replicate s.q.sz.toNat 0)
        (List.range s.q.sz.toNat)))
    else .ok (s.goto t (.remLeave none count))
  | .remCopy tail count buf [] =>
    .ok { s.goto t (.remLeave (some buf) count) with q := { s.q with tail := qNext tail s.q.num } }
  | .remCopy tail count buf (k0 :: todo) =>
    let k := (k0 :: todo)[i % (todo.length + 1)]?.getD k0
    match s.q.data[(tail * s.q.sz).toNat + k]? with
    | none => .error (.ub "queue read out of bounds")
    | some b => .ok (s.goto t (.remCopy tail count (buf.set k b) ((k0 :: todo).erase k)))
  | .remLeave res count => .ok (s.leave t ⟨t, .rem, .rem res count.toNat⟩)

/-- One action. Actions that are not possible do nothing. my_queue_mutex.c:123-161. -/
def step (s : Mt) : MtAct → Exec Mt
  | .insert t item =>
    if s.th t = .idle ∧ item.length = s.q.sz.toNat then .ok (s.goto t (.insEnter item)) else .ok s
  | .remove t => if s.th t = .idle then .ok (s.goto t .remEnter) else .ok s
  | .step t i => s.access t i

/-- A run. my_queue_mutex.c:123-161. -/
def run (s : Mt) : List MtAct → Exec Mt
  | [] => .ok s
  | a :: as => do
    let s ← s.step a
    s.run as

/-- A fresh queue, all threads idle. my_queue_mutex.c:65-78. -/
def start (locked : Bool) (q : Queue) : Mt := ⟨locked, q, none, fun _ => .idle, []⟩

end Mt
end Fstrm
