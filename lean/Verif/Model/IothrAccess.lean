import Verif.Model.IothrQueues
import Verif.Spec.Race

/-!
# Which memory the threads access

For each step of `Model/IothrQueues.lean`: what the thread reads and writes that another thread may access
too, and how it synchronizes. The I/O thread is thread 0; thread `t` of the client is thread `t + 1`.

Left out: what `fstrm_iothr_init` writes (it happens before everything else, as the threads
are created, or get hold of the object, later) and nobody changes afterwards (the options, the array
of queue handles, `queue_ops`, `num_elems`, `sizeof_elem`), and that destroy frees it (that no other thread
uses the object then is up to the client); memory of one thread only (local variables); the condition variable and its mutex,
which protects no data.
-/

set_option autoImplicit false

namespace Fstrm

open Spec (ThreadOp ThreadEv)

/-- Memory of a queue that changes, my_queue_mb.c:54-60 and my_queue_mutex.c:41-48: the indices and each byte of the
array. -/
inductive QPlace where
  | head
  | tail
  | data (off : Nat)
  deriving DecidableEq, Repr

/-- Memory of an I/O thread object: its queues, `shutting_down`, `get_queue_idx`, what only the I/O thread and the
end of destroy use (`writer`, `opened`, `last_open_attempt`, the output queue), and the payloads, by number.
iothr.c:67-115. -/
inductive Place where
  | queue (i : Nat) (p : QPlace)
  | shutting
  | getIdx
  | own
  | payload (id : Nat)
  deriving DecidableEq, Repr

/-- The mutexes: one per queue (my_queue_mutex.c:47), and `get_queue_lock` (iothr.c:107). -/
inductive Mutex where
  | queue (i : Nat)
  | getQueue
  deriving DecidableEq, Repr

/-- What the accesses of a queue implementation are, for the states of the implementation.
* `prod s t k`: the next access of thread `t` in its insert call;
* `cons s k`: the next access of the consumer in its remove call;
* `whole s`: a whole remove call. my_queue_mb.c:107-140, my_queue_mutex.c:123-161. -/
structure QTouch (Q : QImpl) where
  prod : Q.S → Nat → Nat → List (ThreadOp QPlace Unit)
  cons : Q.S → Nat → List (ThreadOp QPlace Unit)
  whole : Q.S → List (ThreadOp QPlace Unit)

/-- The byte of an element that is copied next, see `Mt.access`. my_queue_mutex.c:132, 152. -/
def nextByte (i k0 : Nat) (todo : List Nat) : Nat := (k0 :: todo)[i % (todo.length + 1)]?.getD k0

/-- The next access of thread `t`, my_queue_mutex.c:123-161; see `Mt.access`. Waiting for the mutex is no access. -/
def Mt.touch (s : Mt) (t i : Nat) : List (ThreadOp QPlace Unit) :=
  match s.th t with
  | .idle => []
  | .insEnter _ => if s.owner = none then [.lock ()] else []
  | .insHead _ => [.read .head]
  | .insTail _ _ => [.read .tail]
  | .insCopy _ _ _ [] => [.write .head]
  | .insCopy _ head _ (k0 :: todo) => [.write (.data ((head * s.q.sz).toNat + nextByte i k0 todo))]
  | .insLeave _ _ _ => [.unlock ()]
  | .remEnter => if s.owner = none then [.lock ()] else []
  | .remHead => [.read .head]
  | .remTail _ => [.read .tail]
  | .remCopy _ _ _ [] => [.write .tail]
  | .remCopy tail _ _ (k0 :: todo) => [.read (.data ((tail * s.q.sz).toNat + nextByte i k0 todo))]
  | .remLeave _ _ => [.unlock ()]

/-- All bytes of the array. my_queue_mb.c:54-60. -/
def Queue.bytes (q : Queue) : List QPlace := (List.range q.data.length).map .data

/-- my_queue_mutex.c:123-161. (The whole remove call: as if it read all bytes and changed `tail` even if the queue is
empty.) -/
def mutexTouch : QTouch mutexQueue where
  prod s t k := Mt.touch s (t + 1) k
  cons s k := Mt.touch s 0 k
  whole s := [.lock (), .read .head, .read .tail] ++ (Queue.bytes (Mt.q s)).map .read ++ [.write .tail, .unlock ()]

/-- The producer's next access, my_queue_mb.c:103-121; see `Tso.pstep`. -/
def Tso.ptouch (s : Tso) (i : Nat) : List (ThreadOp QPlace Unit) :=
  match s.p with
  | .idle => []
  | .loadHead _ => [.read .head]
  | .loadTail _ _ => [.read .tail]
  | .copy _ _ _ [] => [.write .head]
  | .copy _ head _ (k0 :: todo) => [.write (.data ((head * s.q.sz).toNat + nextByte i k0 todo))]

/-- The consumer's next access, my_queue_mb.c:123-140; see `Tso.cstep`. -/
def Tso.ctouch (s : Tso) (i : Nat) : List (ThreadOp QPlace Unit) :=
  match s.c with
  | .idle => []
  | .loadHead => [.read .head]
  | .loadTail _ => [.read .tail]
  | .copy _ _ _ [] => []
  | .copy tail _ _ (k0 :: todo) => [.read (.data ((tail * s.q.sz).toNat + nextByte i k0 todo))]
  | .store _ _ _ => [.write .tail]

/-- my_queue_mb.c:103-140. The barriers are not synchronization operations of C11. -/
def tsoTouch : QTouch tsoQueue where
  prod s t k := if t = 0 then Tso.ptouch s k else []
  cons s k := Tso.ctouch s k
  whole s := [.read .head, .read .tail] ++ (Queue.bytes (Tso.q s)).map .read ++ [.write .tail]

/-- An access to queue number `i`. Not in the code. -/
def Spec.ThreadOp.ofQueue (i : Nat) : ThreadOp QPlace Unit → ThreadOp Place Mutex
  | .read p => .read (.queue i p)
  | .write p => .write (.queue i p)
  | .lock _ => .lock (.queue i)
  | .unlock _ => .unlock (.queue i)
  | .exit => .exit
  | .join t => .join t

/-- The payloads accessed in calls to the outside: writing reads them (iothr.c:464), the free function may
change them (iothr.c:342). -/
def IoEv.touch : IoEv → List (ThreadOp Place Mutex)
  | .write es _ => es.map fun e => .read (.payload e.id)
  | .freed e => [.write (.payload e.id)]
  | _ => []

variable {σ : Type} {Q : QImpl}

namespace IoQ

/-- What the I/O thread accesses at queue `i`, iothr.c:535. -/
def takeTouch (A : QTouch Q) (s : IoQ σ Q) (i k : Nat) : List (ThreadOp Place Mutex) :=
  match s.qs[i]? with
  | none => []
  | some c => if (Q.remove c).isSome then [] else (A.cons c k).map (ThreadOp.ofQueue i)

/-- The I/O thread at its program counter, iothr.c:596-643. -/
def pcTouch (A : QTouch Q) (s : IoQ σ Q) (k : Nat) : List (ThreadOp Place Mutex) :=
  match s.io.pc with
  | .start => []
  | .top => [.read .shutting]
  | .work i _ => if i < s.io.opt.numInputQueues then s.takeTouch A i k else []
  | .drain i _ => if i < s.io.opt.numInputQueues then s.takeTouch A i k else []
  | .sleep _ => []
  | .exited => []

/-- A step of the I/O thread, from state `s` to `s'`. It may use everything it has for itself; the calls to the
outside are in the log. iothr.c:448-643. -/
def ioTouch (A : QTouch Q) (s s' : IoQ σ Q) (k : Nat) : List (ThreadOp Place Mutex) :=
  if s.io.pc = .exited then []
  else s.pcTouch A k ++ [.write .own] ++ (s'.io.log.drop s.io.log.length).flatMap IoEv.touch ++
    if s'.io.pc = .exited then [.exit] else []

/-- Queue number `i` holding `es` in `fstrm__iothr_free_queues`, iothr.c:348-357: remove and free payload
after payload until the queue is empty, then free the queue (freeing counts as writing). -/
def freeTouch (A : QTouch Q) (c : Q.S) (i : Nat) (es : List Entry) : List (ThreadOp Place Mutex) :=
  es.flatMap (fun e => (A.whole c).map (ThreadOp.ofQueue i) ++ if e.hasFree then [.write (.payload e.id)] else []) ++
    (A.whole c).map (ThreadOp.ofQueue i) ++
    (.head :: .tail :: (Q.mem c).bytes).map fun p => .write (.queue i p)

/-- The same for the queues from number `i` on. iothr.c:346-359. -/
def freeAllTouch (A : QTouch Q) : Nat → List Q.S → List (List Entry) → List (ThreadOp Place Mutex)
  | i, c :: cs, es :: ess => freeTouch A c i es ++ freeAllTouch A (i + 1) cs ess
  | _, _, _ => []

/-- What the step `a` from `s` to `s'` accesses. iothr.c:338-643. -/
def touch (A : QTouch Q) (s s' : IoQ σ Q) : QAct → List (ThreadOp Place Mutex)
  | .submit q t raw _ _ =>
    -- iothr.c:420-438; the client has written the payload before the call
    match s.qs[q]? with
    | none => []
    | some c => if (Q.insert c t raw).isSome then [.write (.payload s.io.nextId), .read .shutting] else []
  | .prod q t k =>
    match s.qs[q]? with
    | none => []
    | some c => (A.prod c t k).map (ThreadOp.ofQueue q)
  | .flush _ _ _ => []
  | .getQueue =>
    -- iothr.c:387-400
    [.lock .getQueue, .read .getIdx] ++
      (if s.io.getIdx < s.io.opt.numInputQueues then [.write .getIdx] else []) ++ [.unlock .getQueue]
  | .io _ _ k => s.ioTouch A s' k
  | .shutdown =>
    -- iothr.c:369
    if s.io.shutting then [] else [.write .shutting]
  | .finish =>
    -- iothr.c:371-384
    if s.io.destroyed = false ∧ s'.io.destroyed = true then
      [.join 0, .write .own] ++ freeAllTouch A 0 s.qs s.io.queues
    else []

/-- The thread that makes a step; `b` is the thread of the client that calls get_input_queue or destroy.
Not in the code: who calls the functions of iothr.h. -/
def _root_.Fstrm.QAct.thread (b : Nat) : QAct → Nat
  | .submit _ t _ _ _ => t + 1
  | .prod _ t _ => t + 1
  | .io _ _ _ => 0
  | _ => b + 1

/-- Run, and note what is accessed. Each step is given with the thread `b` of `QAct.thread`.
Not in the code: the accesses of iothr.c:338-643 in order. -/
def trace (A : QTouch Q) (s : IoQ σ Q) : List (Nat × QAct) → Exec (IoQ σ Q × List (ThreadEv Place Mutex))
  | [] => .ok (s, [])
  | (b, a) :: as => do
    let s' ← s.step a
    let (s2, tr) ← s'.trace A as
    .ok (s2, (s.touch A s' a).map (fun o => ⟨a.thread b, o⟩) ++ tr)

end IoQ
end Fstrm
