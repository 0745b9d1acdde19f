import Verif.Spec.Fleet
import Verif.Spec.IoPipe
import Verif.Spec.Pipeline

/-!
# Clients of `fstrm_capture` over connections of limited capacity

As in `Verif.Spec.Fleet`, but a connection holds only so many bytes that were sent and not received
yet: `cw` bytes from the client to the server and `cr` bytes the other way. A client that has filled
its connection blocks in its write call and does not read meanwhile. The server never blocks: it sends
as many bytes as the connection takes and keeps the rest in a buffer of its own. Bytes are delivered to
a client one at a time and only while it waits for them in a read call, so the bytes delivered to it
are exactly those it has read.
-/

set_option autoImplicit false

namespace Fstrm.Spec

/-- Who connects to the server: `side id room` is what client `id` does when its connection takes
`room` bytes in total. -/
structure PipeWorld (α : Type) where
  side : Nat → Nat → Side α
  stranger : Nat → Prop
  breaks : Nat → Prop
  cw : Nat
  cr : Nat

/-- What client `id` does, when it has read the bytes `got id` and the server has read what the log
says. -/
def PipeWorld.now {α : Type} (w : PipeWorld α) (got : Nat → Bytes) (s : Capture) (id : Nat) :
    Exec (α × Bytes) :=
  w.side id ((receivedFrom id s.log).length + w.cw) (got id)

/-- What can happen to the server next: as `Fair`, and the server sends only what the connection
takes. -/
def PipeFair {α : Type} (w : PipeWorld α) (got : Nat → Bytes) (s : Capture) : CapAct → Prop
  | .recv id bs _ =>
    (¬ w.stranger id → receivedFrom id s.log ++ bs <+: sentBy (w.now got s id)) ∧
    (w.stranger id →
      ∀ n, .skipped n ∈ items s.args.highwater (receivedFrom id s.log ++ bs) → n < 2 ^ 32)
  | .send id k => ¬ w.stranger id → (sentTo id s.log).length + k ≤ (got id).length + w.cr
  | .hangup id => w.stranger id ∨ w.breaks id ∨ ∃ r, w.now got s id = .ok r
  | _ => True

/-- The next byte for client `id` is `b`, and the client is reading. -/
def Reads {α : Type} (w : PipeWorld α) (got : Nat → Bytes) (s : Capture) (id : Nat) (b : UInt8) : Prop :=
  got id ++ [b] <+: sentTo id s.log ∧ (¬ w.stranger id → ∃ o, w.now got s id = .error (.wait o))

/-- The reachable states of the server and its clients. -/
inductive PipeFleetRun {α : Type} (args : CapArgs) (env : CapEnv) (w : PipeWorld α) :
    Capture → (Nat → Bytes) → Prop
  | start {s : Capture} : Capture.start args env = .ok s → PipeFleetRun args env w s (fun _ => [])
  | act {s s' : Capture} {got : Nat → Bytes} {a : CapAct} : PipeFleetRun args env w s got →
      PipeFair w got s a → s.step a = .ok s' → PipeFleetRun args env w s' got
  | deliver {s : Capture} {got : Nat → Bytes} {id : Nat} {b : UInt8} :
      PipeFleetRun args env w s got → Reads w got s id b →
      PipeFleetRun args env w s (fun i => if i = id then got id ++ [b] else got i)

/-- The network has nothing left to do for client `id`: no byte can be moved from the client to the
server or from the server to the client. -/
structure PipeSettled {α : Type} (w : PipeWorld α) (s : Capture) (got : Nat → Bytes) (id : Nat) :
    Prop where
  recv : ∀ bs chains, PipeFair w got s (.recv id bs chains) → s.step (.recv id bs chains) = .ok s
  send : ∀ k, PipeFair w got s (.send id k) → s.step (.send id k) = .ok s
  deliver : ∀ b, ¬ Reads w got s id b

/-- The client programs of `Client.side` over such connections. -/
abbrev pipes (prog : Nat → Client) : Nat → Nat → Side (List Res × Writer Chan) :=
  fun id => writerPipe (prog id).wopt (prog id).batches

/-- What `fstrm_replay` does over a connection that takes `room` bytes in total. -/
def replayPipe (fuel : Nat) (ct : Bytes) (files : List ReplayFile) (room : Nat) : Side (ReplayOut Chan) :=
  fun y => do
    let o ← replay fuel ct files (pipeOps room) ⟨y, []⟩
    .ok (o, match o.rdwr with
      | none => []
      | some rw => rw.obj.out)

/-- As `replays`, over such connections. -/
abbrev replayPipes (fuel : Nat) (ct : Bytes) (job : Nat → ReplayJob) : Nat → Nat → Side (ReplayOut Chan) :=
  fun id => replayPipe fuel ct ((job id).map (·.1))

end Fstrm.Spec
