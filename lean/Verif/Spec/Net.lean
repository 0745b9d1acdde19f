import Verif.Spec.History

/-!
# A writer and a reader connected by two byte pipes

Each side is a program whose transport blocks on a read until enough bytes have
been delivered to it, so what the side has done so far is a function of the bytes
delivered to it so far. The network delivers bytes that have been sent, in order,
in pieces of any size and in any interleaving.
-/

set_option autoImplicit false

namespace Fstrm

/-- One side's end of the two pipes: the bytes delivered and not yet read, and
everything sent. -/
structure Chan where
  inp : Bytes
  out : Bytes
  deriving DecidableEq, Repr

/-- Reads block (`Stuck.wait`) until all bytes asked for are there; writes, opening
and closing always work. -/
def chanOps : Ops Chan where
  destroy := none
  opn := some fun s => .ok (.success, s)
  cls := some fun s => .ok (.success, s)
  rd := some fun n s =>
    if n ≤ s.inp.length then .ok (.success, s.inp.take n, { s with inp := s.inp.drop n })
    else .error (.wait s.out)
  wr := some fun iov s => .ok (.success, { s with out := s.out ++ iov.flatten })

namespace Spec

/-- What a program does given all bytes delivered to it so far: it finishes (with a
result and the bytes it has sent) or is blocked or stuck. -/
abbrev Side (α : Type) := Bytes → Exec (α × Bytes)

/-- The bytes a side has sent. -/
def sentBy {α : Type} : Exec (α × Bytes) → Bytes
  | .ok (_, o) => o
  | .error (.wait o) => o
  | .error (.full o) => o
  | .error _ => []

/-- A program that opens a writer, submits batches of frames and closes it. Returns the
results of the calls and the writer. -/
def writerSide (wopt : Option WriterOptions) (batches : List (List Bytes)) :
    Side (List Res × Writer Chan) := fun y =>
  match Writer.init wopt (Rdwr.init chanOps ⟨y, []⟩) with
  | none => .error (.abort "no writer")
  | some w => do
    let (rs, w) ← w.run (.opn :: (batches.map .writev ++ [.close]))
    .ok ((rs, w), w.rdwr.obj.out)

/-- A program that reads from a reader until `read` does not succeed (at most `n` times)
and then closes it. Returns what was delivered, the last result of `read`, the result
of `close` and the reader. -/
def readerSide (ropt : Option ReaderOptions) (fuel n : Nat) :
    Side (List (Option Bytes) × Option Res × Res × Reader Chan) := fun x =>
  match Reader.init ropt (Rdwr.init chanOps ⟨x, []⟩) with
  | none => .error (.abort "no reader")
  | some r => do
    let (ds, last, r) ← Reader.readLoop fuel n r
    let (res, r) ← r.close
    .ok ((ds, last, res, r), r.rdwr.obj.out)

/-- The state of the network: all bytes delivered so far to each side. -/
structure Net where
  toReader : Bytes
  toWriter : Bytes
  deriving DecidableEq, Repr

/-- Some more of the bytes sent by one side are delivered to the other. -/
inductive Deliver {α β : Type} (W : Side α) (R : Side β) : Net → Net → Prop
  | toReader (x y bs : Bytes) : bs ≠ [] → x ++ bs <+: sentBy (W y) →
      Deliver W R ⟨x, y⟩ ⟨x ++ bs, y⟩
  | toWriter (x y bs : Bytes) : bs ≠ [] → y ++ bs <+: sentBy (R x) →
      Deliver W R ⟨x, y⟩ ⟨x, y ++ bs⟩

/-- The states reachable in a given number of deliveries. -/
inductive NetRun {α β : Type} (W : Side α) (R : Side β) : Nat → Net → Prop
  | start : NetRun W R 0 ⟨[], []⟩
  | step {k : Nat} {s s' : Net} : NetRun W R k s → Deliver W R s s' → NetRun W R (k+1) s'

/-- Nothing that was sent remains to be delivered. -/
def Quiescent {α β : Type} (W : Side α) (R : Side β) (s : Net) : Prop :=
  ∀ s', ¬ Deliver W R s s'

end Spec

end Fstrm
