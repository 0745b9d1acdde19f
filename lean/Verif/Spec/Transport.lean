import Verif.Model.Rdwr

/-!
# Assumptions about transports used by theorems, and a concrete transport

These describe the environment, not code of `/repo`.
-/

set_option autoImplicit false

namespace Fstrm.Spec

open Fstrm

variable {σ : Type}

/-- Callbacks that, in states satisfying `I`, never run into undefined behaviour
themselves and fill the buffer when a read reports success: the contract of
`fstrm/rdwr.h`. Outcomes are otherwise arbitrary. -/
structure WellBehaved (ops : Ops σ) (I : σ → Prop) : Prop where
  opn : ∀ f, ops.opn = some f → ∀ s, I s → ∃ r s', f s = .ok (r, s')
  cls : ∀ f, ops.cls = some f → ∀ s, I s → ∃ r s', f s = .ok (r, s')
  destroy : ∀ f, ops.destroy = some f → ∀ s, I s → ∃ r s', f s = .ok (r, s')
  wr : ∀ f, ops.wr = some f → ∀ iov s, I s → ∃ r s', f iov s = .ok (r, s')
  rd : ∀ f, ops.rd = some f → ∀ n s, I s → ∃ r bs s', f n s = .ok (r, bs, s') ∧
    (r = .success → bs.length = n)

/-- Every callback preserves the predicate `I` on the transport's state. -/
structure Preserves (ops : Ops σ) (I : σ → Prop) : Prop where
  opn : ∀ f, ops.opn = some f → ∀ s r s', I s → f s = .ok (r, s') → I s'
  cls : ∀ f, ops.cls = some f → ∀ s r s', I s → f s = .ok (r, s') → I s'
  wr : ∀ f, ops.wr = some f → ∀ iov s r s', I s → f iov s = .ok (r, s') → I s'
  rd : ∀ f, ops.rd = some f → ∀ n s r bs s', I s → f n s = .ok (r, bs, s') → I s'

/-- In states satisfying `I`, two consecutive four byte reads never both return
four zero bytes: the peer never sends an escape followed by a zero length. -/
def NoZeroPair (ops : Ops σ) (I : σ → Prop) : Prop :=
  ∀ f, ops.rd = some f → ∀ s s1 s2, I s → f 4 s = .ok (.success, [0, 0, 0, 0], s1) →
    f 4 s1 ≠ .ok (.success, [0, 0, 0, 0], s2)

/-- In a state with `rem s = some bs` the read callback delivers the byte sequence
`bs`, and once fewer bytes than wanted are left it reports `eof`, after which the
close callback, if present, returns. -/
structure ByteSource (ops : Ops σ) (rem : σ → Option Bytes) (eof : Res) : Prop where
  eof_ne : eof ≠ .success
  rd : ∃ f, ops.rd = some f ∧ ∀ n s bs, 0 < n → rem s = some bs →
    if n ≤ bs.length then
      ∃ s', f n s = .ok (.success, bs.take n, s') ∧ rem s' = some (bs.drop n)
    else ∃ s', f n s = .ok (eof, [], s') ∧ ∀ g, ops.cls = some g → ∃ r s'', g s' = .ok (r, s'')

/-- In such a state the write callback succeeds and does not affect what will be read. -/
structure ByteSink (ops : Ops σ) (rem : σ → Option Bytes) : Prop where
  wr : ∃ f, ops.wr = some f ∧ ∀ iov s bs, rem s = some bs →
    ∃ s', f iov s = .ok (.success, s') ∧ rem s' = some bs

/-- Opening the transport in state `obj` succeeds and it then delivers exactly `bs`;
`eof` is what reading past the end reports. -/
def Serves (ops : Ops σ) (obj : σ) (rem : σ → Option Bytes) (eof : Res) (bs : Bytes) : Prop :=
  ByteSource ops rem eof ∧ ∃ f s, ops.opn = some f ∧ f obj = .ok (.success, s) ∧ rem s = some bs

/-- A concrete peer: `inp` is what it will send, `out` what it has received. -/
structure Pipe where
  inp : Bytes
  out : Bytes
  isOpen : Bool
  deriving DecidableEq, Repr

/-- What is left to be read from it. -/
def Pipe.left (s : Pipe) : Option Bytes := some s.inp

/-- Callbacks of the concrete transport: reads consume `inp`, writes append to
`out`, nothing fails except reading past the end (`stop`). `hasRd`/`hasWr` select
which callbacks are present. -/
def pipeOps (hasRd hasWr : Bool) : Ops Pipe where
  destroy := none
  opn := some fun s => .ok (.success, { s with isOpen := true })
  cls := some fun s => .ok (.success, { s with isOpen := false })
  rd := if hasRd then
      some fun n s =>
        if n ≤ s.inp.length then .ok (.success, s.inp.take n, { s with inp := s.inp.drop n })
        else .ok (.stop, [], s)
    else none
  wr := if hasWr then
      some fun iov s => .ok (.success, { s with out := s.out ++ iov.flatten })
    else none

end Fstrm.Spec
