import Verif.Model.HeapInit
import Verif.Spec.HeapHistory

/-!
# Client programs that make readers and writers from options, and I/O threads
-/

set_option autoImplicit false

namespace Fstrm

variable {σ : Type}

/-- Calls on a writer. -/
def HWriter.run : HWriter σ → List WOp → HExec (List Res × HWriter σ)
  | w, [] => pure ([], w)
  | w, op :: rest => do
    let (r, w) ← w.step op
    let (rs, w) ← HWriter.run w rest
    pure (r :: rs, w)

/-- Calls on a reader. -/
def HReader.run (fuel : Nat) : HReader σ → List ROp → HExec (List (Res × Option Bytes) × HReader σ)
  | r, [] => pure ([], r)
  | r, op :: rest => do
    let (res, d, r) ← r.step fuel op
    let (rs, r) ← HReader.run fuel r rest
    pure ((res, d) :: rs, r)

/-- Calls of the I/O thread on its writer. -/
def HIothr.run : HIothr σ → List WOp → HExec (List Res × HIothr σ)
  | t, [] => pure ([], t)
  | t, op :: rest => do
    let (r, t) ← t.call (·.step op)
    let (rs, t) ← HIothr.run t rest
    pure (r :: rs, t)

/-- Setting the path of file or unix socket options again and again. -/
def HPathOptions.setPaths : HPathOptions → List (Option Bytes) → HExec HPathOptions
  | o, [] => pure o
  | o, s :: rest => do
    let o ← o.setPath s
    HPathOptions.setPaths o rest

/-- Setting the address (`inl`) or port (`inr`) of TCP options again and again. -/
def HTcpOptions.sets : HTcpOptions → List (Option Bytes ⊕ Option Bytes) → HExec HTcpOptions
  | o, [] => pure o
  | o, .inl s :: rest => do
    let o ← o.setAddress s
    HTcpOptions.sets o rest
  | o, .inr s :: rest => do
    let o ← o.setPort s
    HTcpOptions.sets o rest

/-- The string set last; NULL if none was set. -/
def lastSet (l : List (Option Bytes)) : Option Bytes := l.getLast?.getD none

/-- What a path stands for: no path at all, a standard stream if it is "-", or the file of that name. -/
def pathNamed : Option Bytes → FilePath
  | none => .null
  | some s => if s = ['-'].map (fun c => UInt8.ofNat c.toNat) then .dash else .file

/-- The addresses set. -/
def addresses (l : List (Option Bytes ⊕ Option Bytes)) : List (Option Bytes) :=
  l.filterMap fun
    | .inl s => some s
    | .inr _ => none

/-- The ports set. -/
def ports (l : List (Option Bytes ⊕ Option Bytes)) : List (Option Bytes) :=
  l.filterMap fun
    | .inl _ => none
    | .inr s => some s

/-- Use a writer, if the constructor returned one, and destroy it. -/
def HWriter.useUp (w : Option (HWriter σ)) (calls : List WOp) :
    HExec (Option (List Res × Res × Rdwr σ)) :=
  w.elim (pure none) fun w => do
    let (rs, w) ← w.run calls
    let (r, rw) ← w.destroy
    pure (some (rs, r, rw))

/-- The same without memory. -/
def Writer.useUp (w : Option (Writer σ)) (calls : List WOp) :
    Exec (Option (List Res × Res × Rdwr σ)) :=
  w.elim (.ok none) fun w => do
    let (rs, w) ← w.run calls
    let (r, rw) ← w.destroy
    .ok (some (rs, r, rw))

/-- Use a reader, if the constructor returned one, and destroy it. -/
def HReader.useUp (fuel : Nat) (r : Option (HReader σ)) (calls : List ROp) :
    HExec (Option (List (Res × Option Bytes) × Res × Rdwr σ)) :=
  r.elim (pure none) fun r => do
    let (rs, r) ← r.run fuel calls
    let (res, rw) ← r.destroy
    pure (some (rs, res, rw))

/-- The same without memory. -/
def Reader.useUp (fuel : Nat) (r : Option (Reader σ)) (calls : List ROp) :
    Exec (Option (List (Res × Option Bytes) × Res × Rdwr σ)) :=
  r.elim (.ok none) fun r => do
    let (rs, r) ← r.run fuel calls
    let (res, rw) ← r.destroy
    .ok (some (rs, res, rw))

/-- A client writing a file: it makes options, sets the path (any number of times), makes a writer with
the writer options `wopt`, destroys the options, uses the writer and destroys it. -/
def fileWriterLife (paths : List (Option Bytes)) (wopt : Option HWriterOptions) (disk : Option Bytes)
    (script : List Io) (calls : List WOp) : HExec (Option (List Res × Res × Rdwr FileSt)) := do
  let o ← HPathOptions.init
  let o ← o.setPaths paths
  let w ← hFileWriterInit o wopt disk script
  o.destroy
  HWriter.useUp w calls

/-- A client reading a file. -/
def fileReaderLife (paths : List (Option Bytes)) (ropt : Option HReaderOptions) (disk : Option Bytes)
    (script : List Io) (fuel : Nat) (calls : List ROp) :
    HExec (Option (List (Res × Option Bytes) × Res × Rdwr FileSt)) := do
  let o ← HPathOptions.init
  let o ← o.setPaths paths
  let r ← hFileReaderInit o ropt disk script
  o.destroy
  HReader.useUp fuel r calls

/-- A client writing to a unix socket. -/
def unixWriterLife (paths : List (Option Bytes)) (wopt : Option HWriterOptions) (sock : Sock)
    (calls : List WOp) : HExec (Option (List Res × Res × Rdwr Sock)) := do
  let o ← HPathOptions.init
  let o ← o.setPaths paths
  let w ← hUnixWriterInit o wopt sock
  o.destroy
  HWriter.useUp (w.map Prod.snd) calls

/-- A client writing to a TCP socket. -/
def tcpWriterLife (pton : Family → Bytes → Option Bytes) (sets : List (Option Bytes ⊕ Option Bytes))
    (wopt : Option HWriterOptions) (sock : Sock) (calls : List WOp) :
    HExec (Option (List Res × Res × Rdwr Sock)) := do
  let o ← HTcpOptions.init
  let o ← o.sets sets
  let w ← hTcpWriterInit pton o wopt sock
  o.destroy
  HWriter.useUp (w.map Prod.snd) calls

/-- The life of an I/O thread that makes the calls `calls` on its writer: the options are destroyed
(iothr.c:127-134) after the thread was made. -/
def iothrLife (opt : Option IothrOptions) (writer : HWriter σ) (calls : List WOp) :
    HExec (IothrOptions × List Res × Rdwr σ) := do
  let opt ← opt.elim (pure none) fun o => do
    let p ← alloc
    use p
    pure (some (p, o))
  let (o, t) ← HIothr.init opt true writer
  freeOpt (opt.map Prod.fst)
  let (rs, t) ← t.run calls
  let rw ← t.destroy
  pure (o, rs, rw)

/-- Started on the heap `h0`, `m` does what the computation `v` without memory does, and when it ends
exactly the blocks `after` are allocated; or memory runs out. -/
def EndsWith {α : Type} (m : HExec α) (v : Exec α) (h0 : Heap) (after : List Ptr) : Prop :=
  (∃ a h, m h0 = .ok (a, h) ∧ v = .ok a ∧ h.Valid ∧ h.live.Perm after) ∨
  (∃ e, m h0 = .error e ∧ v = .error e) ∨
  (m h0 = .error outOfMemory ∧ h0.Scarce)

/-- The reader is not opened again after a `read` returned `stop`. -/
def NoReopen1 (hist : List (ROp × Res × Option Bytes)) : Prop :=
  hist.Pairwise fun a b => a.1 = .read → a.2.1 = .stop → b.1 ≠ .opn

end Fstrm
