import Verif.Model.Iothr
import Verif.Model.QueueTso
import Verif.Model.QueueMt
import Verif.Model.QueueIa64

/-!
# The I/O thread with its input queues as they are in memory

`Model/Iothr.lean` has input queues with atomic operations. Here the queues are the ring buffers of
`/repo/libmy/my_queue_mb.c` on x86-64 (`Model/QueueTso.lean`) or ia64 (`Model/QueueIa64.lean`) or those of
`/repo/libmy/my_queue_mutex.c` (`Model/QueueMt.lean`), chosen as in iothr.c:264-272; submit calls
and the I/O thread operate on them access by access, interleaved arbitrarily.

What is put into a queue is a struct (`struct fstrm__iothr_queue_entry`, iothr.c:55-65): pointer to
the payload, length, free function and its argument. Here it is some bytes, chosen by the
client. The state also has, as ghost fields, the payloads in the order in which their structs
became visible to the I/O thread. The struct that comes out of a queue is compared with the struct
of the first of these payloads; if they differ in any byte, what follows is undefined
(`corrupted entry`). Otherwise it denotes that payload.
-/

set_option autoImplicit false

namespace Fstrm

/-- What a step of a producer may bring about.
* `effect t`: an insertion by thread `t` took effect, the oldest one that had not (it can be seen
  by the consumer from now on);
* `ins t ok space`: the insert call of thread `t` returns. iothr.c:439-445. -/
inductive QOut where
  | effect (t : Nat)
  | ins (t : Nat) (ok : Bool) (space : Nat)
  deriving DecidableEq, Repr

/-- A queue implementation (`struct my_queue_ops`, my_queue.h:90-96), step by step.
* `create n z`: `init`, for `n` elements of `z` bytes;
* `insert s t x`: thread `t` calls insert; `none` if it may not;
* `prod s t k`: the next memory access of thread `t` in its insert call;
* `flush s b i`: a buffered store of the producer (`b`) or the consumer reaches memory; where the
  machine lets stores overtake each other, `i` is its place among those that have not;
* `remove s`: the consumer calls remove; `none` if it is in that call already;
* `cons s k`: the next memory access of the consumer; what remove returns, if it returns;
* `quiet s`: the consumer is in no call and all stores have reached memory, which is `mem s`. -/
structure QImpl where
  S : Type
  create : UInt32 → UInt32 → Option S
  insert : S → Nat → Bytes → Option S
  prod : S → Nat → Nat → Exec (S × List QOut)
  flush : S → Bool → Nat → Exec (S × List QOut)
  remove : S → Option S
  cons : S → Nat → Exec (S × Option (Option Bytes))
  quiet : S → Bool
  mem : S → Queue

/-- What the producer gets to know from an event of the two-thread machine.
my_queue_mb.c:103-120. -/
def Spec.QEv.out : Spec.QEv Bytes → List QOut
  | .put _ space => [.ins 0 true space]
  | .full space => [.ins 0 false space]
  | .visible => [.effect 0]
  | _ => []

/-- What remove returns. my_queue_mb.c:123-140. -/
def Spec.QEv.ret : Spec.QEv Bytes → Option (Option Bytes)
  | .got x _ => some (some x)
  | .empty _ => some none
  | _ => none

/-- my_queue_mb.c on x86-TSO, `my_queue_mb_ops` (my_queue_mb.c:142-153). There is one producer
thread, number 0. -/
def tsoQueue : QImpl where
  S := Tso
  create num sz := (Queue.init num sz).map Tso.start
  insert s t x :=
    if t = 0 ∧ s.p = .idle ∧ x.length = s.q.sz.toNat then some { s with p := .loadHead x } else none
  prod s t k :=
    if t = 0 then do
      let s' ← s.step (.pstep k)
      .ok (s', (s'.log.drop s.log.length).flatMap Spec.QEv.out)
    else .ok (s, [])
  flush s b _ := do
    let s' ← s.step (if b then .pflush else .cflush)
    .ok (s', (s'.log.drop s.log.length).flatMap Spec.QEv.out)
  remove s := if s.c = .idle then some { s with c := .loadHead } else none
  cons s k := do
    let s' ← s.step (.cstep k)
    .ok (s', ((s'.log.drop s.log.length).filterMap Spec.QEv.ret).head?)
  quiet s := decide (s.pbuf = [] ∧ s.cbuf = [] ∧ s.c = .idle)
  mem s := s.q

/-- What becomes known by an event on ia64, except for the return of a successful insertion.
my_queue_mb.c:103-120. -/
def Spec.QEv.out64 : Spec.QEv Bytes → List QOut
  | .full space => [.ins 0 false space]
  | .visible => [.effect 0]
  | _ => []

/-- On ia64 a successful insertion returns after its second fence, my_queue_mb.c:114-120. -/
def Ia64.returns (s : Ia64) : List QOut :=
  match s.p with
  | .fence space => if s.pbuf = [] then [.ins 0 true space.toNat] else []
  | _ => []

/-- my_queue_mb.c on ia64, where volatile reads are acquire loads. There is one producer thread,
number 0. -/
def ia64Queue : QImpl where
  S := Ia64
  create num sz := (Queue.init num sz).map (Ia64.start true)
  insert s t x :=
    if t = 0 ∧ s.p = .idle ∧ x.length = s.q.sz.toNat then some { s with p := .loadHead x } else none
  prod s t k :=
    if t = 0 then do
      let s' ← s.step (.pstep k)
      .ok (s', (s'.log.drop s.log.length).flatMap Spec.QEv.out64 ++ s.returns)
    else .ok (s, [])
  flush s b i := do
    let s' ← s.step (if b then .pflush i else .cflush i)
    .ok (s', (s'.log.drop s.log.length).flatMap Spec.QEv.out64)
  remove s := if s.c = .idle then some { s with c := .loadHead none } else none
  cons s k := do
    let s' ← s.step (.cstep k)
    .ok (s', ((s'.log.drop s.log.length).filterMap Spec.QEv.ret).head?)
  quiet s := decide (s.pbuf = [] ∧ s.cbuf = [] ∧ s.c = .idle)
  mem s := s.q

/-- What a producer gets to know from a completed call: it took effect and returned.
my_queue_mutex.c:123-141. -/
def Spec.Call.out (c : Spec.Call Bytes) : List QOut :=
  match c.res with
  | .ins true space => [.effect (c.thread - 1), .ins (c.thread - 1) true space]
  | .ins false space => [.ins (c.thread - 1) false space]
  | .rem _ _ => []

/-- What remove returns. my_queue_mutex.c:143-161. -/
def Spec.Call.ret (c : Spec.Call Bytes) : Option (Option Bytes) :=
  match c.res with
  | .ins _ _ => none
  | .rem x _ => some x

/-- my_queue_mutex.c, `my_queue_mutex_ops` (my_queue_mutex.c:163-174). The consumer is thread 0 of
the machine, producer `t` is its thread `t + 1`. An insertion takes effect when the mutex is
unlocked. -/
def mutexQueue : QImpl where
  S := Mt
  create num sz := (Queue.init num sz).map (Mt.start true)
  insert s t x :=
    if s.th (t + 1) = .idle ∧ x.length = s.q.sz.toNat then some (s.goto (t + 1) (.insEnter x)) else none
  prod s t k := do
    let s' ← s.step (.step (t + 1) k)
    .ok (s', (s'.log.drop s.log.length).flatMap Spec.Call.out)
  flush s _ _ := .ok (s, [])
  remove s := if s.th 0 = .idle then some (s.goto 0 .remEnter) else none
  cons s k := do
    let s' ← s.step (.step 0 k)
    .ok (s', ((s'.log.drop s.log.length).filterMap Spec.Call.ret).head?)
  quiet s := decide (s.owner = none) && decide (s.th 0 = .idle)
  mem s := s.q

/-- The machines that my_memory_barrier.h:4-16 knows, for all others (and without GCC)
`MY_HAVE_MEMORY_BARRIERS` is not defined. -/
inductive Machine where
  | x86_64 | ia64 | other
  deriving DecidableEq, Repr

/-- The lock-free queue on the machine, if it has barriers. iothr.c:265-273. -/
def Machine.lockFree : Machine → Option QImpl
  | .x86_64 => some tsoQueue
  | .ia64 => some ia64Queue
  | .other => none

/-- The choice of the implementation in `fstrm_iothr_init`, iothr.c:264-272. -/
def IothrOptions.queueImpl (o : IothrOptions) (m : Machine) : QImpl :=
  if o.queueModel = 0 then m.lockFree.getD mutexQueue else mutexQueue

/-- Remove until remove returns false, iothr.c:353-355. The first argument bounds the number of
calls. -/
def Queue.removeAll : Nat → Queue → Exec (List Bytes)
  | 0, _ => .error .fuel
  | n + 1, q => do
    let (r, _, q) ← q.remove
    match r with
    | none => .ok []
    | some x => do
      let xs ← q.removeAll n
      .ok (x :: xs)

/-- The same for all queues, the loop of `fstrm__iothr_free_queues`, iothr.c:348-357. -/
def Queue.removeAllOf : List Queue → Exec (List (List Bytes))
  | [] => .ok []
  | q :: qs => do
    let xs ← q.removeAll q.num.toNat
    let xss ← Queue.removeAllOf qs
    .ok (xs :: xss)

variable {σ : Type}

/-- `struct fstrm_iothr` with its queues. `io` has everything but the queues; its fields `queues`
and `pending` are ghost fields here: `queues` has the payloads visible to the I/O thread, `pending id`
is submission number `id`, as long as it has not taken effect. `raw id` is the struct
for submission `id` and `who id` the thread that calls submit; `wait q t` are the submissions of thread `t` to queue `q` that have not
taken effect, oldest first; `cur q t` is the one whose submit call is in progress; `rets` are those for
which submit has returned success (all ghost fields). iothr.c:67-115. -/
structure IoQ (σ : Type) (Q : QImpl) where
  io : Iothr σ
  qs : List Q.S
  raw : Nat → Bytes
  who : Nat → Nat
  wait : Nat → Nat → List Entry
  cur : Nat → Nat → Option Entry
  rets : List Entry

/-- What the schedule chooses. iothr.c:362-446, 597-643. -/
inductive QAct where
  /-- thread `t` calls submit for queue `q`; `raw` is the struct it builds -/
  | submit (q t : Nat) (raw : Bytes) (data : Option Bytes) (hasFree : Bool)
  /-- the next access of the thread in its submit call -/
  | prod (q t k : Nat)
  /-- a buffered store concerning queue `q` reaches memory -/
  | flush (q : Nat) (b : Bool) (i : Nat)
  | getQueue
  /-- the next access of the I/O thread -/
  | io (now : Nat) (wake : Wake) (k : Nat)
  | shutdown
  | finish
  deriving DecidableEq, Repr

/-- Is this a step of the I/O thread? iothr.c:597-643. -/
def QAct.isIo : QAct → Bool
  | .io _ _ _ => true
  | _ => false

/-- Change a function of two numbers at one place. Not in the code. -/
def upd2 {α : Type} (f : Nat → Nat → α) (a b : Nat) (x : α) : Nat → Nat → α :=
  fun a' b' => if a' = a ∧ b' = b then x else f a' b'

namespace IoQ

variable {Q : QImpl}

/-- `fstrm_iothr_init`, iothr.c:232-336, as far as the queues are concerned: 285-293. `sz` is the
size of the struct. -/
def init (Q : QImpl) (sz : UInt32) (opt : IothrOptions) (w : Writer σ) : Option (IoQ σ Q) :=
  (Q.create (UInt32.ofNat opt.inputQueueSize) sz).map fun c =>
    ⟨Iothr.init opt w, List.replicate opt.numInputQueues c, fun _ => [], fun _ => 0,
      fun _ _ => [], fun _ _ => none, []⟩

/-- An insertion by thread `t` into queue `q` takes effect. (Ghost: only names are moved.)
iothr.c:439. -/
def effect (s : IoQ σ Q) (q t : Nat) : Exec (IoQ σ Q) :=
  match s.wait q t with
  | [] => .error (.ub "insertion of nothing")
  | e :: rest =>
    .ok { s with
      io := { s.io with
        pending := fun id => if id = e.id then none else s.io.pending id
        queues := s.io.queues.modify e.queue (· ++ [e]) }.emit (.submitted e)
      wait := upd2 s.wait q t rest }

/-- The insert call in `fstrm_iothr_submit` returns, iothr.c:439-445. -/
def returned (s : IoQ σ Q) (q t : Nat) (ok : Bool) (space : Nat) : Exec (IoQ σ Q) :=
  match s.cur q t with
  | none => .error (.ub "return without a call")
  | some e =>
    let s := { s with cur := upd2 s.cur q t none }
    if ok then
      let s := { s with rets := s.rets ++ [e] }
      if space = s.io.opt.notifyThreshold then .ok { s with io := (s.io.emit .signal).signal } else .ok s
    else
      .ok { s with
        io := { s.io with
          pending := fun id => if id = e.id then none else s.io.pending id }.emit (.refused e.id .again)
        wait := upd2 s.wait q t (s.wait q t).dropLast }

/-- Take note of what a step brought about. iothr.c:439-445. -/
def out (s : IoQ σ Q) (q : Nat) : QOut → Exec (IoQ σ Q)
  | .effect t => s.effect q t
  | .ins t ok space => s.returned q t ok space

/-- The same for several. iothr.c:439-445. -/
def outs (s : IoQ σ Q) (q : Nat) : List QOut → Exec (IoQ σ Q)
  | [] => .ok s
  | o :: os => do
    let s ← s.out q o
    s.outs q os

/-- `fstrm_iothr_submit` up to the call of insert, iothr.c:420-439. A thread is in one submit call
at a time. -/
def submit (s : IoQ σ Q) (q t : Nat) (raw : Bytes) (data : Option Bytes) (hasFree : Bool) :
    Exec (IoQ σ Q) :=
  if s.io.destroyed then .error (.ub "use after free")
  else
    match s.qs[q]? with
    | none => .ok s
    | some c =>
      match Q.insert c t raw with
      | none => .ok s
      | some c' => do
        let id := s.io.nextId
        let io ← s.io.submitCheck id q data hasFree
        match io.pending id with
        | none => .ok { s with io := io }
        | some e =>
          .ok { s with
            io := io
            qs := s.qs.set q c'
            raw := fun id' => if id' = id then raw else s.raw id'
            who := fun id' => if id' = id then t else s.who id'
            wait := upd2 s.wait q t (s.wait q t ++ [e])
            cur := upd2 s.cur q t (some e) }

/-- The next access of a submit call, inside insert, and what follows it. iothr.c:439-445. -/
def prod (s : IoQ σ Q) (q t k : Nat) : Exec (IoQ σ Q) :=
  if s.io.destroyed then .error (.ub "use after free")
  else
    match s.qs[q]? with
    | none => .ok s
    | some c => do
      let (c, os) ← Q.prod c t k
      { s with qs := s.qs.set q c }.outs q os

/-- A buffered store reaches memory.
Not in the code: the store buffer of the processor behind my_queue_mb.c:111-113, 133. -/
def flush (s : IoQ σ Q) (q : Nat) (b : Bool) (i : Nat) : Exec (IoQ σ Q) :=
  if s.io.destroyed then .ok s
  else
    match s.qs[q]? with
    | none => .ok s
    | some c => do
      let (c, os) ← Q.flush c b i
      { s with qs := s.qs.set q c }.outs q os

/-- The I/O thread at queue `i` in `fstrm__iothr_process_queues`, iothr.c:534-539: call remove, its
accesses one by one, and process the entry. The result is the number of entries removed,
once remove has returned. -/
def take (s : IoQ σ Q) (i k : Nat) : Exec (Option Nat × IoQ σ Q) :=
  match s.qs[i]? with
  | none => .error (.ub "queue index out of bounds")
  | some c =>
    match Q.remove c with
    | some c => .ok (none, { s with qs := s.qs.set i c })
    | none => do
      let (c, r) ← Q.cons c k
      let s := { s with qs := s.qs.set i c }
      match r with
      | none => .ok (none, s)
      | some none => .ok (some 0, s)
      | some (some x) =>
        match s.io.queues[i]? with
        | some (e :: rest) =>
          if s.raw e.id = x then do
            let io ← { s.io with queues := s.io.queues.set i rest }.processEntry e
            .ok (some 1, { s with io := io })
          else .error (.ub "corrupted entry")
        | _ => .error (.ub "entry out of nowhere")

/-- A step of the I/O thread, iothr.c:596-643; see `Iothr.ioStep`. -/
def ioStep (s : IoQ σ Q) (now : Nat) (wake : Wake) (k : Nat) : Exec (IoQ σ Q) :=
  match s.io.pc with
  | .work i total =>
    if i < s.io.opt.numInputQueues then do
      let (r, s) ← s.take i k
      match r with
      | none => .ok s
      | some n => .ok { s with io := { s.io with pc := .work (i + 1) (total + n) } }
    else do
      let io ← s.io.ioStep now wake
      .ok { s with io := io }
  | .drain i total =>
    if i < s.io.opt.numInputQueues then do
      let (r, s) ← s.take i k
      match r with
      | none => .ok s
      | some n => .ok { s with io := { s.io with pc := .drain (i + 1) (total + n) } }
    else do
      let io ← s.io.ioStep now wake
      .ok { s with io := io }
  | _ => do
    let io ← s.io.ioStep now wake
    .ok { s with io := io }

/-- The end of `fstrm_iothr_destroy`, iothr.c:370-384. When the I/O thread has been joined its
stores have reached memory, and clients, which must not use the object any more, have
synchronized with the caller, so theirs have too. -/
def finish (s : IoQ σ Q) : Exec (IoQ σ Q) :=
  if s.io.shutting = true ∧ s.io.pc = .exited ∧ s.io.destroyed = false ∧ s.qs.all Q.quiet = true then do
    let xss ← Queue.removeAllOf (s.qs.map Q.mem)
    if xss = s.io.queues.map (fun es => es.map fun e => s.raw e.id) then do
      let io ← s.io.finish
      .ok { s with io := io }
    else .error (.ub "corrupted entry")
  else .ok s

/-- Perform one step. iothr.c:338-643. -/
def step (s : IoQ σ Q) : QAct → Exec (IoQ σ Q)
  | .submit q t raw data hasFree => s.submit q t raw data hasFree
  | .prod q t k => s.prod q t k
  | .flush q b i => s.flush q b i
  | .getQueue => do
    let io ← s.io.getQueue
    .ok { s with io := io }
  | .io now wake k => s.ioStep now wake k
  | .shutdown => do
    let io ← s.io.shutdown
    .ok { s with io := io }
  | .finish => s.finish

/-- Perform steps in the given order. iothr.c:338-643. -/
def run (s : IoQ σ Q) : List QAct → Exec (IoQ σ Q)
  | [] => .ok s
  | a :: as => do
    let s ← s.step a
    s.run as

/-- For stating properties: the first `n` steps of an infinite schedule. Not in the code. -/
def _root_.Fstrm.QAct.first (f : Nat → QAct) (n : Nat) : List QAct := (List.range n).map f

/-- For stating properties: the submissions to queue `q` by thread `t` among `es`.
Not in the code. -/
def mine (s : IoQ σ Q) (q t : Nat) (es : List Entry) : List Entry :=
  (onQueue q es).filter fun e => decide (s.who e.id = t)

end IoQ
end Fstrm
