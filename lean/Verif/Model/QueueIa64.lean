import Verif.Model.QueueTso

/-!
# The lock-free queue on ia64: one producer thread, one consumer thread

Models `/repo/libmy/my_queue_mb.c:103-140` as `Verif.Model.QueueTso` does, on the other
architecture for which `/repo/libmy/my_memory_barrier.h:10-15` provides barriers. There stores to
different locations may become visible in any order, and a load may be carried out before an
earlier one; all three barriers are the full fence `mf`, which lets nothing pass. A compiler turns
the volatile read behind `MY_ACCESS_ONCE` (my_queue_mb.c:37) into an acquire load, `ld.acq`, if it
follows the ia64 convention for volatile accesses: no later access is carried out before it. The
C standard does not ask for that, so whether it does is a parameter, `acq`.

Simplifications: loads and stores of `unsigned` variables are single accesses; a thread's load of
the variable only it writes (`q->head` in the producer, `q->tail` in the consumer) is not moved,
since it has one possible result; the producer's stores are not moved before its loads, since
whether they are carried out depends on the loads.
-/

set_option autoImplicit false

namespace Fstrm

/-- The location that a store changes. The fields of my_queue_mb.c:54-60. -/
inductive Loc where
  | data (off : Nat)
  | head
  | tail
  deriving Repr, DecidableEq

/-- See `Loc`. The fields of my_queue_mb.c:54-60. -/
def Store.loc : Store → Loc
  | .data off _ => .data off
  | .head _ => .head
  | .tail _ => .tail

/-- The producer inside `my_queue_mb_insert`, my_queue_mb.c:103-121. -/
inductive PPc64 where
  /-- not in a call -/
  | idle
  /-- about to load `q->head`, line 107 -/
  | loadHead (item : Bytes)
  /-- about to load `q->tail`, line 108 -/
  | loadTail (item : Bytes) (head : UInt32)
  /-- copying the item, line 111; with nothing left to copy, at the first fence, line 112 -/
  | copy (item : Bytes) (head : UInt32) (space : UInt32) (todo : List Nat)
  /-- at the second fence, line 114 -/
  | fence (space : UInt32)
  deriving Repr, DecidableEq

/-- The consumer inside `my_queue_mb_remove`, my_queue_mb.c:123-140. `pre` is what has been read
of the element ahead of the load of `q->head`: the bytes, and the offsets still to be read. -/
inductive CPc64 where
  | idle
  /-- about to load `q->head`, line 127 -/
  | loadHead (pre : Option (Bytes × List Nat))
  /-- about to load `q->tail`, line 128 -/
  | loadTail (head : UInt32) (pre : Option (Bytes × List Nat))
  /-- copying the item out, line 131. With nothing left to copy, at the fence, line 132 -/
  | copy (tail : UInt32) (count : UInt32) (buf : Bytes) (todo : List Nat)
  /-- about to store `q->tail`, line 133 -/
  | store (tail : UInt32) (count : UInt32) (buf : Bytes)
  deriving Repr, DecidableEq

/-- The two threads, their stores that are not visible yet, and shared memory (`q`). `log` is a
ghost field. my_queue_mb.c:54-60, 103-140. -/
structure Ia64 where
  acq : Bool
  q : Queue
  pbuf : List Store
  cbuf : List Store
  p : PPc64
  c : CPc64
  log : List (Spec.QEv Bytes)
  deriving Repr, DecidableEq

/-- What the schedule chooses. my_queue_mb.c:103-140. -/
inductive Ia64Act where
  /-- the producer calls insert (if it is not in a call already) -/
  | insert (item : Bytes)
  /-- the producer's next memory access; `i` picks which remaining byte is copied next -/
  | pstep (i : Nat)
  /-- the producer's `i`-th pending store becomes visible -/
  | pflush (i : Nat)
  /-- the consumer calls remove (if it is not in a call already) -/
  | remove
  /-- the consumer's next memory access -/
  | cstep (i : Nat)
  /-- the consumer reads a byte of the element before it loads `q->head` -/
  | cearly (i : Nat)
  /-- the consumer's `i`-th pending store becomes visible -/
  | cflush (i : Nat)
  deriving Repr, DecidableEq

/-- The `i`-th pending store, if it may become visible now: stores to the same location do so in
order. Not in the code: the processor. -/
def pickStore (buf : List Store) (i : Nat) : Option Store :=
  match buf[i]? with
  | none => none
  | some st => if (buf.take i).any (fun o => o.loc = st.loc) then none else some st

namespace Ia64

/-- The producer's next access, my_queue_mb.c:107-120. -/
def pstep (s : Ia64) (i : Nat) : Exec Ia64 :=
  match s.p with
  | .idle => .ok s
  | .loadHead item => .ok { s with p := .loadTail item ((fwdHead s.pbuf).getD s.q.head) }
  | .loadTail item head =>
    let tail := (fwdTail s.pbuf).getD s.q.tail
    let space := qSpace head tail s.q.num
    if space ≥ 1 then
      .ok { s with p := .copy item head (space - 1) (List.range s.q.sz.toNat) }
    else .ok { s with p := .idle, log := s.log ++ [.full space.toNat] }
  | .copy item head space [] =>
    if s.pbuf = [] then
      .ok { s with
        pbuf := s.pbuf ++ [.head (qNext head s.q.num)]
        p := .fence space
        log := s.log ++ [.put item space.toNat] }
    else .ok s
  | .copy item head space (t :: todo) =>
    let k := (t :: todo)[i % (todo.length + 1)]?.getD t
    match item[k]? with
    | none => .error (.ub "read past the end of the item")
    | some b =>
      .ok { s with
        pbuf := s.pbuf ++ [.data ((head * s.q.sz).toNat + k) b]
        p := .copy item head space ((t :: todo).erase k) }
  | .fence _ => if s.pbuf = [] then .ok { s with p := .idle } else .ok s

/-- One byte of `memcpy` out of the element at `tail`, my_queue_mb.c:131. -/
def readByte (s : Ia64) (tail : UInt32) (i : Nat) (buf : Bytes) (t : Nat) (todo : List Nat) :
    Exec (Bytes × List Nat) :=
  let k := (t :: todo)[i % (todo.length + 1)]?.getD t
  let off := (tail * s.q.sz).toNat + k
  match (fwdData off s.cbuf).or s.q.data[off]? with
  | none => .error (.ub "queue read out of bounds")
  | some b => .ok (buf.set k b, (t :: todo).erase k)

/-- The consumer's next access, my_queue_mb.c:127-139. -/
def cstep (s : Ia64) (i : Nat) : Exec Ia64 :=
  match s.c with
  | .idle => .ok s
  | .loadHead pre =>
    .ok { s with c := .loadTail ((fwdHead s.cbuf).getD s.q.head) pre, log := s.log ++ [.look] }
  | .loadTail head pre =>
    let tail := (fwdTail s.cbuf).getD s.q.tail
    let count := qCount head tail s.q.num
    if count ≥ 1 then
      let r := pre.getD (List.replicate s.q.sz.toNat 0, List.range s.q.sz.toNat)
      .ok { s with c := .copy tail (count - 1) r.1 r.2 }
    else .ok { s with c := .idle, log := s.log ++ [.empty count.toNat] }
  | .copy tail count buf [] =>
    if s.cbuf = [] then .ok { s with c := .store tail count buf } else .ok s
  | .copy tail count buf (t :: todo) => do
    let (buf, todo) ← s.readByte tail i buf t todo
    .ok { s with c := .copy tail count buf todo }
  | .store tail count buf =>
    .ok { s with
      cbuf := s.cbuf ++ [.tail (qNext tail s.q.num)]
      c := .idle
      log := s.log ++ [.got buf count.toNat] }

/-- A byte of the copy of my_queue_mb.c:131 read ahead of the load of `q->head`, line 127; only if
that is not an acquire load: there is no barrier in between. -/
def cearly (s : Ia64) (i : Nat) : Exec Ia64 :=
  match s.acq, s.c with
  | false, .loadHead pre =>
    let r := pre.getD (List.replicate s.q.sz.toNat 0, List.range s.q.sz.toNat)
    match r.2 with
    | [] => .ok s
    | t :: todo => do
      let r ← s.readByte ((fwdTail s.cbuf).getD s.q.tail) i r.1 t todo
      .ok { s with c := .loadHead (some r) }
  | _, _ => .ok s

/-- One action. Actions that are not possible in the current state do nothing. An insertion is
given `sizeof_elem` bytes. my_queue_mb.c:103-140. -/
def step (s : Ia64) : Ia64Act → Exec Ia64
  | .insert item =>
    if s.p = .idle ∧ item.length = s.q.sz.toNat then .ok { s with p := .loadHead item } else .ok s
  | .pstep i => s.pstep i
  | .pflush i =>
    match pickStore s.pbuf i with
    | none => .ok s
    | some st => do
      let q ← Tso.commit s.q st
      .ok { s with q := q, pbuf := s.pbuf.eraseIdx i, log := s.log ++ Tso.commitEv st }
  | .remove => if s.c = .idle then .ok { s with c := .loadHead none } else .ok s
  | .cstep i => s.cstep i
  | .cearly i => s.cearly i
  | .cflush i =>
    match pickStore s.cbuf i with
    | none => .ok s
    | some st => do
      let q ← Tso.commit s.q st
      .ok { s with q := q, cbuf := s.cbuf.eraseIdx i, log := s.log ++ Tso.commitEv st }

/-- A run. my_queue_mb.c:103-140. -/
def run (s : Ia64) : List Ia64Act → Exec Ia64
  | [] => .ok s
  | a :: as => do
    let s ← s.step a
    s.run as

/-- A fresh queue, both threads idle. my_queue_mb.c:62-73. -/
def start (acq : Bool) (q : Queue) : Ia64 := ⟨acq, q, [], [], .idle, .idle, []⟩

end Ia64
end Fstrm
