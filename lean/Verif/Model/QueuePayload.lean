import Verif.Model.QueueIa64
import Verif.Spec.Payload

/-!
# The lock-free queue and the payloads that its elements point to

The machines of `Model/QueueTso.lean` and `Model/QueueIa64.lean`, running `my_queue_mb_insert` and
`my_queue_mb_remove` of `/repo/libmy/my_queue_mb.c`, with more memory: the payloads. The producer
stores into it between its insert calls (a client that fills in a payload before
`fstrm_iothr_submit`, iothr.c:413-446); these stores are delayed as its other stores are. The
consumer loads from it when it likes (the I/O thread that writes a payload, iothr.c:466-507).

A load of the consumer that comes after a remove call may be carried out before the call returns, but
not before the barrier of my_queue_mb.c:132; so in between, an element counts as taken.
-/

set_option autoImplicit false

namespace Fstrm

open Spec (PayEv)

/-- What the schedule chooses; `α` are the actions of the queue.
my_queue_mb.c:103-140 and its callers, iothr.c:439, 535. -/
inductive PayAct (α : Type) where
  /-- the producer stores a byte of a payload (if it is not in an insert call) -/
  | store (a : Nat) (b : UInt8)
  /-- an action of the queue -/
  | queue (act : α)
  /-- the producer's `i`-th pending store to a payload becomes visible, out of order -/
  | reach (i : Nat)
  /-- the consumer loads a byte of a payload -/
  | load (a : Nat)
  deriving Repr, DecidableEq

/-- Change memory at one address. Not in the code: memory. -/
def setByte (m : Nat → UInt8) (a : Nat) (b : UInt8) : Nat → UInt8 := fun a' => if a' = a then b else m a'

/-- x86-64. `buf` is the producer's store buffer, oldest store first: `some (a, b)` is a store to a payload,
`none` is a store to the queue, the next one of `t.pbuf`. `log` is a ghost field. -/
structure PayTso where
  t : Tso
  buf : List (Option (Nat × UInt8))
  mem : Nat → UInt8
  log : List (PayEv Bytes)

/-- Is an element copied out of the queue and the barrier of my_queue_mb.c:132 passed, but the call not
finished? -/
def CPc.holds : CPc → Nat
  | .store _ _ _ => 1
  | _ => 0

namespace PayTso

/-- One action. Actions that are not possible in the current state do nothing.
my_queue_mb.c:103-140. -/
def step (s : PayTso) : PayAct TsoAct → Exec PayTso
  | .store a b =>
    if s.t.p = .idle then
      .ok { s with buf := s.buf ++ [some (a, b)], log := s.log ++ [.store a b] }
    else .ok s
  | .queue .pflush =>
    match s.buf with
    | [] => .ok s
    | some (a, b) :: rest => .ok { s with buf := rest, mem := setByte s.mem a b }
    | none :: rest => do
      let t ← s.t.step .pflush
      .ok { s with t := t, buf := rest, log := s.log ++ (t.log.drop s.t.log.length).map .queue }
  | .queue act => do
    let t ← s.t.step act
    .ok { s with
      t := t
      buf := s.buf ++ List.replicate (t.pbuf.length - s.t.pbuf.length) none
      log := s.log ++ (t.log.drop s.t.log.length).map .queue }
  | .reach _ => .ok s
  | .load a => .ok { s with log := s.log ++ [.load ((Spec.gots s.t.log).length + s.t.c.holds) a (s.mem a)] }

/-- A run. my_queue_mb.c:103-140. -/
def run (s : PayTso) : List (PayAct TsoAct) → Exec PayTso
  | [] => .ok s
  | a :: as => do
    let s ← s.step a
    s.run as

/-- A fresh queue and some memory. my_queue_mb.c:62-73. -/
def start (q : Queue) (m : Nat → UInt8) : PayTso := ⟨Tso.start q, [], m, []⟩

end PayTso

/-- ia64. `pays` are the producer's stores to payloads that are not visible yet. `log` is a ghost field.
my_queue_mb.c:54-60, 103-140. -/
structure PayIa64 where
  s : Ia64
  pays : List (Nat × UInt8)
  mem : Nat → UInt8
  log : List (PayEv Bytes)

/-- Is the producer at one of the fences of my_queue_mb.c:112-114? -/
def PPc64.atFence : PPc64 → Bool
  | .copy _ _ _ [] => true
  | .fence _ => true
  | _ => false

/-- As `CPc.holds`. my_queue_mb.c:132. -/
def CPc64.holds : CPc64 → Nat
  | .store _ _ _ => 1
  | _ => 0

/-- The `i`-th pending store, if it may become visible now: stores to the same address do so in order.
Not in the code: the processor. -/
def pickPay (l : List (Nat × UInt8)) (i : Nat) : Option (Nat × UInt8) :=
  match l[i]? with
  | none => none
  | some x => if (l.take i).any (fun y => y.1 = x.1) then none else some x

namespace PayIa64

/-- One action. Actions that are not possible in the current state do nothing. A fence waits for the stores
to payloads too. my_queue_mb.c:103-140. -/
def step (s : PayIa64) : PayAct Ia64Act → Exec PayIa64
  | .store a b =>
    if s.s.p = .idle then
      .ok { s with pays := s.pays ++ [(a, b)], log := s.log ++ [.store a b] }
    else .ok s
  | .queue (.pstep i) =>
    if s.s.p.atFence = true ∧ s.pays ≠ [] then .ok s
    else do
      let s' ← s.s.step (.pstep i)
      .ok { s with s := s', log := s.log ++ (s'.log.drop s.s.log.length).map .queue }
  | .queue act => do
    let s' ← s.s.step act
    .ok { s with s := s', log := s.log ++ (s'.log.drop s.s.log.length).map .queue }
  | .reach i =>
    match pickPay s.pays i with
    | none => .ok s
    | some (a, b) => .ok { s with pays := s.pays.eraseIdx i, mem := setByte s.mem a b }
  | .load a => .ok { s with log := s.log ++ [.load ((Spec.gots s.s.log).length + s.s.c.holds) a (s.mem a)] }

/-- A run. my_queue_mb.c:103-140. -/
def run (s : PayIa64) : List (PayAct Ia64Act) → Exec PayIa64
  | [] => .ok s
  | a :: as => do
    let s ← s.step a
    s.run as

/-- A fresh queue and some memory. my_queue_mb.c:62-73. -/
def start (q : Queue) (m : Nat → UInt8) : PayIa64 := ⟨Ia64.start true q, [], m, []⟩

end PayIa64
end Fstrm
