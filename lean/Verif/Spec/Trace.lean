import Verif.Model.Rdwr
import Verif.Spec.Wire

/-!
# What an observer of the transport sees

The ghost log of a transport (`Ev`, one entry per callback invocation with its
outcome) is the only part of the model mentioned here.
-/

set_option autoImplicit false

namespace Fstrm.Spec

/-- The bytes handed over in write callbacks that reported success. -/
def wrote : List Ev → Bytes
  | [] => []
  | .wr iov .success :: rest => iov.flatten ++ wrote rest
  | _ :: rest => wrote rest

/-- The bytes obtained from read callbacks that reported success. -/
def received : List Ev → Bytes
  | [] => []
  | .rd _ .success bs :: rest => bs ++ received rest
  | _ :: rest => received rest

/-- Everything handed to write callbacks, whatever their outcome, since the
transport was last opened successfully; `none` if it never was. The first argument
is the value before the log. -/
def sent : Option Bytes → List Ev → Option Bytes
  | acc, [] => acc
  | _, .opn .success :: rest => sent (some []) rest
  | acc, .wr iov _ :: rest => sent (acc.map (· ++ iov.flatten)) rest
  | acc, _ :: rest => sent acc rest

/-- The iovec arrays handed to write callbacks, whatever the outcome. -/
def iovs : List Ev → List (List Bytes)
  | [] => []
  | .wr iov _ :: rest => iov :: iovs rest
  | _ :: rest => iovs rest

/-- Phase of a transport as seen from its callbacks: closed, open, open with
the last read or write having failed, or destroyed. -/
inductive Phase where
  | closed | isOpen | broken | gone
  deriving DecidableEq, Repr

/-- Transport call discipline (C28): reading and writing only while open, closing
only while open, nothing but closing after a failed read or write. Opening is
allowed both when closed and when already open (a retry after a failed
handshake); destroying is allowed when closed or open, and nothing may follow
it; `none` is a violation. -/
def Phase.next : Phase → Ev → Option Phase
  | .closed, .opn .success => some .isOpen
  | .closed, .opn _ => some .closed
  | .isOpen, .opn _ => some .isOpen
  | .isOpen, .rd _ .success _ => some .isOpen
  | .isOpen, .rd _ _ _ => some .broken
  | .isOpen, .wr _ .success => some .isOpen
  | .isOpen, .wr _ _ => some .broken
  | .isOpen, .cls _ => some .closed
  | .broken, .cls _ => some .closed
  | .closed, .destroy _ => some .gone
  | .isOpen, .destroy _ => some .gone
  | _, _ => none

/-- Run the discipline over a log. -/
def Phase.run (p : Phase) : List Ev → Option Phase
  | [] => some p
  | e :: rest => match p.next e with
    | none => none
    | some p' => p'.run rest

/-- Phase of a written stream, judged from the transport callbacks alone. -/
inductive WPhase where
  | closed | handshake | streaming | stopped | broken
  deriving DecidableEq, Repr

/-- The iovec array of a batch of data frames: length prefix and payload of each. -/
def batch (ds : List Bytes) : List Bytes := ds.flatMap fun d => [be32 d.length, d]

/-- What a write callback may be handed in each phase, and the phase after a
success: READY and START during the handshake, data frames and STOP only once a
START frame has been written successfully on this connection. -/
inductive WPhase.Sends : WPhase → List Bytes → WPhase → Prop
  | ready (cts : List Bytes) : Sends .handshake [CFrame.wire ⟨.ready, cts⟩] .handshake
  | start (ct : Option Bytes) : Sends .handshake [CFrame.wire ⟨.start, ct.toList⟩] .streaming
  | data (ds : List Bytes) : ds ≠ [] → ds.length ≤ 128 → Sends .streaming (batch ds) .streaming
  | stop : Sends .streaming [CFrame.wire ⟨.stop, []⟩] .stopped

/-- The phases a writer's callbacks may go through (C14). A failed read or write must be
followed by closing; a closed transport must be opened and get a new START
before data. Reads only happen during the handshake and after STOP. -/
inductive WPhase.Step : WPhase → Ev → WPhase → Prop
  | opened : Step .closed (.opn .success) .handshake
  | openFails (r : Res) : r ≠ .success → Step .closed (.opn r) .closed
  | reopen (r : Res) : Step .handshake (.opn r) .handshake
  | sent (p q : WPhase) (iov : List Bytes) : Sends p iov q → Step p (.wr iov .success) q
  | sendFails (p q : WPhase) (iov : List Bytes) (r : Res) :
      Sends p iov q → r ≠ .success → Step p (.wr iov r) .broken
  | rdHandshake (n : Nat) (bs : Bytes) : Step .handshake (.rd n .success bs) .handshake
  | rdStopped (n : Nat) (bs : Bytes) : Step .stopped (.rd n .success bs) .stopped
  | rdFails (p : WPhase) (n : Nat) (r : Res) (bs : Bytes) :
      p = .handshake ∨ p = .stopped → r ≠ .success → Step p (.rd n r bs) .broken
  | closes (p : WPhase) (r : Res) : p ≠ .closed → Step p (.cls r) .closed

/-- A whole log. -/
inductive WPhase.Trace : WPhase → List Ev → WPhase → Prop
  | nil (p : WPhase) : Trace p [] p
  | snoc (p q q' : WPhase) (l : List Ev) (e : Ev) :
      Trace p l q → Step q e q' → Trace p (l ++ [e]) q'

/-- One event, seen as what travels on connections: the bytes written on the connections closed so
far, and on the present one. Writes that fail count if `all` is set. -/
def connStep (all : Bool) : List Bytes × Bytes → Ev → List Bytes × Bytes
  | (done, cur), .wr iov r => if all || r = .success then (done, cur ++ iov.flatten) else (done, cur)
  | (done, cur), .cls _ => (done ++ [cur], [])
  | s, _ => s

/-- The bytes written on each connection that was closed, and on the present one; with `all`
including those of writes that failed, of which the transport may have transmitted a part. -/
def connectionsOf (all : Bool) (log : List Ev) : List Bytes × Bytes :=
  log.foldl (connStep all) ([], [])

/-- A writer with content types `cts` was given the frames `sub`, in this order; `Delivered cts conns
sub` says that its connections carried `conns`, one after the other: each a beginning of READY with
all content types, perhaps repeatedly, followed by one stream of the first content type. The frames
of one stream are consecutive in `sub`, those of the next one come later, and between the streams
frames may be missing. -/
inductive Delivered (cts : List Bytes) : List Bytes → List Bytes → Prop
  | nil (gap : List Bytes) : Delivered cts [] gap
  | snoc {conns sub : List Bytes} (bs : Bytes) (k : Nat) (fs gap : List Bytes) :
    Delivered cts conns sub →
    bs <+: (List.replicate k (CFrame.wire ⟨.ready, cts⟩)).flatten ++ stream cts.head? fs →
    Delivered cts (conns ++ [bs]) (sub ++ fs ++ gap)

end Fstrm.Spec
