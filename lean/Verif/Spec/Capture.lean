import Verif.Spec.Wire

/-!
# Specification of a capture server

What a server that follows the bidirectional protocol takes out of the bytes one client sends,
and the observable events of a run. The byte stream is cut into frames as a whole; nothing here
knows in which pieces it arrives.
-/

set_option autoImplicit false

namespace Fstrm.Spec

/-- The number with the given digits in base 256, most significant first. -/
def number (bs : Bytes) : Nat := bs.foldl (fun n b => n * 256 + b.toNat) 0

/-- What can stand at the beginning of a client's byte stream, for a server with a buffer of
`hw` bytes.
* `data d`: a data frame with payload `d`;
* `control b`: a control frame with payload `b`;
* `skipped n`: a frame of `n` bytes in total, too large for the buffer;
* `bad`: a control frame with an impossible length. -/
inductive CapItem where
  | data (d : Bytes)
  | control (b : Bytes)
  | skipped (n : Nat)
  | bad
  deriving DecidableEq, Repr

/-- The first frame of a byte stream and the number of bytes it takes; `none` if more bytes are
needed to tell. -/
def nextItem (hw : Nat) (bs : Bytes) : Option (CapItem × Nat) :=
  if bs.length < 4 then none
  else
    let n := number (bs.take 4)
    if n ≠ 0 then
      if 4 + n > hw then some (.skipped (4 + n), 4 + n)
      else if bs.length < 4 + n then none
      else some (.data ((bs.drop 4).take n), 4 + n)
    else if bs.length < 8 then none
    else
      let m := number ((bs.drop 4).take 4)
      if m < 4 ∨ m > 512 then some (.bad, 0)
      else if 8 + m > hw then some (.skipped (8 + m), 8 + m)
      else if bs.length < 8 + m then none
      else some (.control ((bs.drop 8).take m), 8 + m)

/-- All the frames of a byte stream up to the first bad one; `n` bounds their number. -/
def itemsUpTo (hw : Nat) : Nat → Bytes → List CapItem
  | 0, _ => []
  | n + 1, bs =>
    match nextItem hw bs with
    | none => []
    | some (.bad, _) => [.bad]
    | some (it, len) => it :: itemsUpTo hw n (bs.drop len)

/-- All the frames of a byte stream up to the first bad one (each takes at least four bytes). -/
def items (hw : Nat) (bs : Bytes) : List CapItem := itemsUpTo hw bs.length bs

/-- Where a connection is: waiting for READY, for START, transferring data, stopped. -/
inductive CapPhase where
  | ready | start | data | stopped
  deriving DecidableEq, Repr

/-- What has come of a connection: its phase (`none`: the server has closed it), the payloads
recorded and the control frames sent to the client. -/
structure Served where
  phase : Option CapPhase
  recorded : List Bytes
  replies : List CFrame

/-- The payload of a control frame of the given type that fits the content type `ct`, i.e. names it
or names none. Frames of 512 bytes or more in total are not accepted. -/
def fits (type : CType) (ct b : Bytes) : Prop :=
  8 + b.length < 512 ∧
  ∃ cts, CFrame.WF ⟨type, cts⟩ ∧ b = CFrame.payload ⟨type, cts⟩ ∧ (cts = [] ∨ ct ∈ cts)

open Classical in
/-- The server handles one frame. -/
noncomputable def serveItem (ct : Bytes) (s : Served) (it : CapItem) : Served :=
  match s.phase, it with
  | none, _ => s
  | some _, .data d => { s with recorded := s.recorded ++ [d] }
  | some _, .skipped _ => s
  | some _, .bad => { s with phase := none }
  | some .ready, .control b =>
    if fits .ready ct b then
      { s with phase := some .start, replies := s.replies ++ [⟨.accept, [ct]⟩] }
    else { s with phase := none }
  | some .start, .control b =>
    if fits .start ct b then { s with phase := some .data } else { s with phase := none }
  | some .data, .control b =>
    if b = CFrame.payload ⟨.stop, []⟩ then
      { s with phase := some .stopped, replies := s.replies ++ [⟨.finish, []⟩] }
    else { s with phase := none }
  | some .stopped, .control _ => { s with phase := none }

/-- The server handles frames one after the other. -/
noncomputable def serve (ct : Bytes) (its : List CapItem) : Served :=
  its.foldl (serveItem ct) ⟨some .ready, [], []⟩

/-! ## Observable events -/

/-- Events.
* `accepted id`: a client connected, it is given the number `id`;
* `received id bs`: bytes were read from its connection;
* `sent id bs`: bytes were sent to it;
* `hungup id`: its connection was closed;
* `opened i`: the output file `i` was opened, a new file; `clobbered i`: it was opened and its
  previous contents are gone;
* `recorded id bs`: the bytes `bs` were written to the output as a data frame of client `id`;
* `finished i`: the output file `i` was closed; `failed i`: writing to it failed;
* `asked t`: the program called `time`, which returned `t`;
* `opening name`: the program called `open` for the output file `name`. -/
inductive CapEv where
  | accepted (id : Nat)
  | received (id : Nat) (bs : Bytes)
  | sent (id : Nat) (bs : Bytes)
  | hungup (id : Nat)
  | opened (i : Nat)
  | clobbered (i : Nat)
  | recorded (id : Nat) (bs : Bytes)
  | finished (i : Nat)
  | failed (i : Nat)
  | asked (t : Nat)
  | opening (name : Bytes)
  deriving DecidableEq, Repr

/-- All bytes received from client `id`. -/
def receivedFrom (id : Nat) (log : List CapEv) : Bytes :=
  log.flatMap fun e => match e with
    | .received i bs => if i = id then bs else []
    | _ => []

/-- All bytes sent to client `id`. -/
def sentTo (id : Nat) (log : List CapEv) : Bytes :=
  log.flatMap fun e => match e with
    | .sent i bs => if i = id then bs else []
    | _ => []

/-- What was written for client `id`, one element for each data frame. -/
def recordedFrom (id : Nat) (log : List CapEv) : List Bytes :=
  log.filterMap fun e => match e with
    | .recorded i bs => if i = id then some bs else none
    | _ => none

/-- What was written for all clients. -/
def recordedAll (log : List CapEv) : List Bytes :=
  log.filterMap fun e => match e with
    | .recorded _ bs => some bs
    | _ => none

/-- The clients connected at the moment. -/
def active (log : List CapEv) : List Nat :=
  log.foldl (fun l e => match e with
    | .accepted id => l ++ [id]
    | .hungup id => l.filter (· ≠ id)
    | _ => l) []

/-- Output sessions, the newest first: the file and what was recorded since it was opened. -/
def sessionStep (ss : List (Nat × List Bytes)) (e : CapEv) : List (Nat × List Bytes) :=
  match e, ss with
  | .opened i, _ => (i, []) :: ss
  | .clobbered i, _ => (i, []) :: ss
  | .recorded _ bs, (i, l) :: rest => (i, l ++ [bs]) :: rest
  | _, _ => ss

/-- The output sessions of a run, the newest first. -/
def sessions (log : List CapEv) : List (Nat × List Bytes) := log.foldl sessionStep []

/-- What the newest session with file `i` has recorded. -/
def latest (i : Nat) : List (Nat × List Bytes) → Option (List Bytes)
  | [] => none
  | (j, l) :: rest => if j = i then some l else latest i rest

end Fstrm.Spec
