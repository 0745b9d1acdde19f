import Verif.Model.Writer
import Verif.Model.Reader

/-!
# Call histories: what a client program does with a writer or reader
-/

set_option autoImplicit false

namespace Fstrm

variable {σ : Type}

/-- A call on a writer. -/
inductive WOp where
  | opn
  | write (d : Bytes)
  | writev (ds : List Bytes)
  | getControl (type : Nat)
  | close
  deriving DecidableEq, Repr

/-- The data frames a call submits. -/
def WOp.frames : WOp → List Bytes
  | .write d => [d]
  | .writev ds => ds
  | _ => []

/-- Perform one call. -/
def Writer.step (w : Writer σ) : WOp → Exec (Res × Writer σ)
  | .opn => w.open
  | .write d => w.write d
  | .writev ds => w.writev ds
  | .getControl t => do
    let (res, _, w) ← w.getControl t
    .ok (res, w)
  | .close => w.close

/-- Perform a sequence of calls, collecting the results. -/
def Writer.run : Writer σ → List WOp → Exec (List Res × Writer σ)
  | w, [] => .ok ([], w)
  | w, op :: rest => do
    let (r, w) ← w.step op
    let (rs, w) ← Writer.run w rest
    .ok (r :: rs, w)

/-- The data frames of those calls since the last `close` that reported success. The
first argument is the value before the history. -/
def accepted : List Bytes → List (WOp × Res) → List Bytes
  | acc, [] => acc
  | _, (.close, _) :: rest => accepted [] rest
  | acc, (op, .success) :: rest => accepted (acc ++ op.frames) rest
  | acc, (_, _) :: rest => accepted acc rest

/-- A call on a reader. -/
inductive ROp where
  | opn
  | read
  | getControl (type : Nat)
  | close
  deriving DecidableEq, Repr

/-- Perform one call; the second component is the data frame delivered by a
successful `read`. `fuel` bounds the number of control frames skipped by one
`read`. -/
def Reader.step (fuel : Nat) (r : Reader σ) : ROp → Exec (Res × Option Bytes × Reader σ)
  | .opn => do
    let (res, r) ← r.open
    .ok (res, none, r)
  | .read => r.read fuel
  | .getControl t => do
    let (res, _, r) ← r.getControl t
    .ok (res, none, r)
  | .close => do
    let (res, r) ← r.close
    .ok (res, none, r)

/-- Perform a sequence of calls, collecting results and delivered frames. -/
def Reader.run (fuel : Nat) : Reader σ → List ROp → Exec (List (Res × Option Bytes) × Reader σ)
  | r, [] => .ok ([], r)
  | r, op :: rest => do
    let (res, d, r) ← r.step fuel op
    let (rs, r) ← Reader.run fuel r rest
    .ok ((res, d) :: rs, r)

/-- The usual read loop: call `read` until it does not return success, at most `n`
times. Returns what the successful calls delivered (`none`: a success that did
not set the data pointer), the last result (`none` if `n` calls all
succeeded) and the reader. -/
def Reader.readLoop (fuel : Nat) : Nat → Reader σ →
    Exec (List (Option Bytes) × Option Res × Reader σ)
  | 0, r => .ok ([], none, r)
  | n+1, r => do
    let (res, d, r) ← r.read fuel
    if res = .success then do
      let (ds, last, r) ← Reader.readLoop fuel n r
      .ok (d :: ds, last, r)
    else .ok ([], some res, r)

end Fstrm
