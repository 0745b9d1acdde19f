import Verif.Spec.Net
import Verif.Model.Capture

/-!
# Programs with the library's writer as clients of `fstrm_capture`

Each client opens a bidirectional writer, submits batches of frames and closes it. The network
delivers the bytes of every connection in order, in pieces of any size and in any
interleaving; some connections may break at any time. Besides these clients there may be
strangers that send anything at all, except announcements of frames of nearly 2^32 bytes (see C51).
Everything else that can happen to the server (signals, renamed files, output errors) may happen at
any time.
-/

set_option autoImplicit false

namespace Fstrm.Spec

/-- A client program: the options of its writer and the batches it submits. -/
structure Client where
  wopt : Option WriterOptions
  batches : List (List Bytes)

/-- What the client does, given all bytes delivered to it so far (`writerSide`). -/
def Client.side (p : Client) : Side (List Res × Writer Chan) := writerSide p.wopt p.batches

/-- The frames the client submits. -/
def Client.frames (p : Client) : List Bytes := p.batches.flatten

/-- The content types the client's writer is configured with, in order. -/
def Client.types (p : Client) : List Bytes :=
  match p.wopt with
  | none => []
  | some o => o.cts

/-- A client that suits a server for the content type `ct` with buffers of `hw` bytes: it was
given no content types or `ct` first, the server's buffers hold each of its frames, and it
submits no empty frames. -/
structure Suits (ct : Bytes) (hw : Nat) (p : Client) : Prop where
  server : ct.length ≤ 256
  types : ∀ c ∈ p.types, c.length ≤ 256
  first : ∀ c, p.types.head? = some c → c = ct
  ready : (CFrame.wire ⟨.ready, p.types⟩).length < 512
  readyFits : (CFrame.wire ⟨.ready, p.types⟩).length ≤ hw
  startFits : (CFrame.wire ⟨.start, [ct]⟩).length ≤ hw
  count : ∀ b ∈ p.batches, b.length ≤ 1073741823
  fits : ∀ d ∈ p.frames, d ≠ [] ∧ 4 + d.length ≤ hw
  buffer : hw < 2 ^ 31

/-- What each client does, when client `id` runs the program `prog id`. -/
abbrev sides (prog : Nat → Client) : Nat → Side (List Res × Writer Chan) := fun id => (prog id).side

/-- Who connects to the server: what each client does, which connections are those of strangers (of
which `side` says nothing), and which connections may break. -/
structure World (α : Type) where
  side : Nat → Side α
  stranger : Nat → Prop
  breaks : Nat → Prop

/-- What can happen to the server next, when client `id` runs the program `w.side id` and has been
delivered the bytes `got id`: only bytes it has sent arrive, and its connection ends only when
the program has finished or the connection breaks. A stranger can send any bytes that do not
announce a frame of 2^32 bytes or more in total and can end its connection at any time. -/
def Fair {α : Type} (w : World α) (got : Nat → Bytes) (s : Capture) : CapAct → Prop
  | .recv id bs _ =>
    (¬ w.stranger id → receivedFrom id s.log ++ bs <+: sentBy (w.side id (got id))) ∧
    (w.stranger id →
      ∀ n, .skipped n ∈ items s.args.highwater (receivedFrom id s.log ++ bs) → n < 2 ^ 32)
  | .hangup id => w.stranger id ∨ w.breaks id ∨ ∃ r, w.side id (got id) = .ok r
  | _ => True

/-- The reachable states of the server and its clients. -/
inductive FleetRun {α : Type} (args : CapArgs) (env : CapEnv) (w : World α) :
    Capture → (Nat → Bytes) → Prop
  | start {s : Capture} : Capture.start args env = .ok s → FleetRun args env w s (fun _ => [])
  | act {s s' : Capture} {got : Nat → Bytes} {a : CapAct} : FleetRun args env w s got →
      Fair w got s a → s.step a = .ok s' → FleetRun args env w s' got
  | deliver {s : Capture} {got : Nat → Bytes} {id : Nat} {bs : Bytes} :
      FleetRun args env w s got → got id ++ bs <+: sentTo id s.log →
      FleetRun args env w s (fun i => if i = id then got id ++ bs else got i)

/-- The network has nothing left to do for client `id`: no bytes can be moved from the client to the
server or from the server to the client. -/
structure Settled {α : Type} (w : World α) (s : Capture) (got : Nat → Bytes) (id : Nat) : Prop where
  recv : ∀ bs chains, Fair w got s (.recv id bs chains) → s.step (.recv id bs chains) = .ok s
  send : ∀ k, s.step (.send id k) = .ok s
  deliver : ∀ bs, got id ++ bs <+: sentTo id s.log → bs = []

end Fstrm.Spec
