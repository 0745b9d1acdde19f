import Verif.Model.Queue
import Verif.Spec.QueueLog

/-!
# The lock-free queue under x86-TSO: one producer thread, one consumer thread

Models `/repo/libmy/my_queue_mb.c:103-140` at the granularity of single memory accesses. Each
thread has a FIFO store buffer; its loads see its own buffered stores first, then memory; a
buffered store reaches memory at an arbitrary later time (action `pflush`/`cflush`). On x86-64
`smp_wmb` is a compiler barrier (my_memory_barrier.h:5-9), so it appears here only as program
order, and `smp_mb` is `mfence`, which waits until the thread's buffer is empty.
`memcpy` is modelled as byte accesses in an arbitrary order chosen by the schedule.

Simplifications: loads and stores of `unsigned` variables are single accesses; the C11 memory
model (formally a data race) is not modelled, only the machine's.
-/

set_option autoImplicit false

namespace Fstrm

/-- A buffered store. my_queue_mb.c:111, 113, 133. -/
inductive Store where
  | data (off : Nat) (b : UInt8)
  | head (v : UInt32)
  | tail (v : UInt32)
  deriving Repr, DecidableEq

/-- The producer inside `my_queue_mb_insert`, my_queue_mb.c:103-121. -/
inductive PPc where
  /-- not in a call -/
  | idle
  /-- about to load `q->head`, line 107 -/
  | loadHead (item : Bytes)
  /-- about to load `q->tail`, line 108 -/
  | loadTail (item : Bytes) (head : UInt32)
  /-- copying the item, line 111; `todo` are the bytes not yet stored. With nothing left to copy,
  about to store `q->head`, line 113 -/
  | copy (item : Bytes) (head : UInt32) (space : UInt32) (todo : List Nat)
  deriving Repr, DecidableEq

/-- The consumer inside `my_queue_mb_remove`, my_queue_mb.c:123-140. -/
inductive CPc where
  | idle
  /-- about to load `q->head`, line 127 -/
  | loadHead
  /-- about to load `q->tail`, line 128 -/
  | loadTail (head : UInt32)
  /-- copying the item out, line 131. With nothing left to copy, at the `mfence`, line 132 -/
  | copy (tail : UInt32) (count : UInt32) (buf : Bytes) (todo : List Nat)
  /-- about to store `q->tail`, line 133 -/
  | store (tail : UInt32) (count : UInt32) (buf : Bytes)
  deriving Repr, DecidableEq

/-- The two threads, their store buffers, and shared memory (`q`). `log` is a ghost field.
my_queue_mb.c:54-60, 103-140. -/
structure Tso where
  q : Queue
  pbuf : List Store
  cbuf : List Store
  p : PPc
  c : CPc
  log : List (Spec.QEv Bytes)
  deriving Repr, DecidableEq

/-- What the schedule chooses. my_queue_mb.c:103-140. -/
inductive TsoAct where
  /-- the producer calls insert (if it is not in a call already) -/
  | insert (item : Bytes)
  /-- the producer's next memory access; `i` picks which remaining byte is copied next -/
  | pstep (i : Nat)
  /-- the producer's oldest buffered store reaches memory -/
  | pflush
  /-- the consumer calls remove (if it is not in a call already) -/
  | remove
  /-- the consumer's next memory access -/
  | cstep (i : Nat)
  /-- the consumer's oldest buffered store reaches memory -/
  | cflush
  deriving Repr, DecidableEq

/-- The last buffered value of `q->head`, if any (store forwarding).
Not in the code: the processor. -/
def fwdHead : List Store → Option UInt32
  | [] => none
  | .head v :: l => (fwdHead l).or (some v)
  | _ :: l => fwdHead l

/-- The last buffered value of `q->tail`, if any. Not in the code: the processor. -/
def fwdTail : List Store → Option UInt32
  | [] => none
  | .tail v :: l => (fwdTail l).or (some v)
  | _ :: l => fwdTail l

/-- The last buffered value of the array byte at `off`, if any. Not in the code: the processor. -/
def fwdData (off : Nat) : List Store → Option UInt8
  | [] => none
  | .data o b :: l => (fwdData off l).or (if o = off then some b else none)
  | _ :: l => fwdData off l

namespace Tso

/-- A store reaches memory. my_queue_mb.c:111, 113, 133. -/
def commit (q : Queue) : Store → Exec Queue
  | .data off b =>
    if off < q.data.length then .ok { q with data := q.data.set off b }
    else .error (.ub "queue write out of bounds")
  | .head v => .ok { q with head := v }
  | .tail v => .ok { q with tail := v }

/-- Ghost events for a store reaching memory. Not in the code. -/
def commitEv : Store → List (Spec.QEv Bytes)
  | .data _ _ => []
  | .head _ => [.visible]
  | .tail _ => [.freed]

/-- The producer's next access, my_queue_mb.c:107-120. -/
def pstep (s : Tso) (i : Nat) : Exec Tso :=
  match s.p with
  | .idle => .ok s
  | .loadHead item => .ok { s with p := .loadTail item ((fwdHead s.pbuf).getD s.q.head) }
  | .loadTail item head =>
    let tail := (fwdTail s.pbuf).getD s.q.tail
    let space := qSpace head tail s.q.num
    if space ≥ 1 then
      .ok { s with p := .copy item head (space - 1) (List.range s.q.sz.toNat) }
    else .ok { s with p := .idle, log := s.log ++ [.full space.toNat] }
  | .copy item head space [] =>
    .ok { s with
      pbuf := s.pbuf ++ [.head (qNext head s.q.num)]
      p := .idle
      log := s.log ++ [.put item space.toNat] }
  | .copy item head space (t :: todo) =>
    let k := (t :: todo)[i % (todo.length + 1)]?.getD t
    match item[k]? with
    | none => .error (.ub "read past the end of the item")
    | some b =>
      .ok { s with
        pbuf := s.pbuf ++ [.data ((head * s.q.sz).toNat + k) b]
        p := .copy item head space ((t :: todo).erase k) }

/-- The consumer's next access, my_queue_mb.c:127-139. -/
def cstep (s : Tso) (i : Nat) : Exec Tso :=
  match s.c with
  | .idle => .ok s
  | .loadHead =>
    .ok { s with c := .loadTail ((fwdHead s.cbuf).getD s.q.head), log := s.log ++ [.look] }
  | .loadTail head =>
    let tail := (fwdTail s.cbuf).getD s.q.tail
    let count := qCount head tail s.q.num
    if count ≥ 1 then
      .ok { s with
        c := .copy tail (count - 1) (List.replicate s.q.sz.toNat 0) (List.range s.q.sz.toNat) }
    else .ok { s with c := .idle, log := s.log ++ [.empty count.toNat] }
  | .copy tail count buf [] =>
    if s.cbuf = [] then .ok { s with c := .store tail count buf } else .ok s
  | .copy tail count buf (t :: todo) =>
    let k := (t :: todo)[i % (todo.length + 1)]?.getD t
    let off := (tail * s.q.sz).toNat + k
    match (fwdData off s.cbuf).or s.q.data[off]? with
    | none => .error (.ub "queue read out of bounds")
    | some b => .ok { s with c := .copy tail count (buf.set k b) ((t :: todo).erase k) }
  | .store tail count buf =>
    .ok { s with
      cbuf := s.cbuf ++ [.tail (qNext tail s.q.num)]
      c := .idle
      log := s.log ++ [.got buf count.toNat] }

/-- One action. Actions that are not possible in the current state do nothing. An insertion is
given `sizeof_elem` bytes. my_queue_mb.c:103-140. -/
def step (s : Tso) : TsoAct → Exec Tso
  | .insert item =>
    if s.p = .idle ∧ item.length = s.q.sz.toNat then .ok { s with p := .loadHead item } else .ok s
  | .pstep i => s.pstep i
  | .pflush =>
    match s.pbuf with
    | [] => .ok s
    | st :: rest => do
      let q ← commit s.q st
      .ok { s with q := q, pbuf := rest, log := s.log ++ commitEv st }
  | .remove => if s.c = .idle then .ok { s with c := .loadHead } else .ok s
  | .cstep i => s.cstep i
  | .cflush =>
    match s.cbuf with
    | [] => .ok s
    | st :: rest => do
      let q ← commit s.q st
      .ok { s with q := q, cbuf := rest, log := s.log ++ commitEv st }

/-- A run. my_queue_mb.c:103-140. -/
def run (s : Tso) : List TsoAct → Exec Tso
  | [] => .ok s
  | a :: as => do
    let s ← s.step a
    s.run as

/-- A fresh queue, both threads idle. my_queue_mb.c:62-73. -/
def start (q : Queue) : Tso := ⟨q, [], [], .idle, .idle, []⟩

end Tso
end Fstrm
