import Verif.Spec.Wire
import Verif.Model.Reader

/-!
# Transports on which bytes arrive while the program runs

These describe the environment, not code of `/repo`.
-/

set_option autoImplicit false

namespace Fstrm.Spec

open Fstrm

variable {σ : Type}

/-- In a state with `rem s = some bs` the bytes `bs` have arrived: a read of no more than
these returns them in order. Nothing is said about a read of more than has arrived, which may
for instance block for ever. -/
structure Arrived (ops : Ops σ) (rem : σ → Option Bytes) : Prop where
  rd : ∃ f, ops.rd = some f ∧ ∀ n s bs, 0 < n → n ≤ bs.length → rem s = some bs →
    ∃ s', f n s = .ok (.success, bs.take n, s') ∧ rem s' = some (bs.drop n)

/-- The peer answers the bytes `q` by the bytes `a`: when nothing is there to be read, writing `q`
succeeds and then `a` has arrived. -/
structure Answers (ops : Ops σ) (rem : σ → Option Bytes) (q a : Bytes) : Prop where
  wr : ∃ f, ops.wr = some f ∧ ∀ s, rem s = some [] →
    ∃ s', f [q] s = .ok (.success, s') ∧ rem s' = some a

/-- What happens to a reader that is open: bytes arrive on its transport, or the program asks
for the next payload. -/
inductive Happening where
  | arrive (bs : Bytes)
  | read
  deriving DecidableEq

/-- The bytes of control frames. -/
def ctls (fs : List CFrame) : Bytes := (fs.map CFrame.wire).flatten

/-- Control frames other than STOP that fit into 512 bytes: what a reader skips. -/
def Skippable (fs : List CFrame) : Prop :=
  ∀ f ∈ fs, f.WF ∧ f.payload.length ≤ 512 ∧ f.type ≠ .stop

/-- `InTime max evs buf ds left`: starting with the bytes `buf` there to be read, whenever the
program asks for a payload during `evs` a data frame of at most `max` bytes has arrived
completely, behind no other data frame, and `ds` are the contents of those frames in order. What
has arrived of the following frames, and what these are, is left open; `left` is what is there
at the end. -/
inductive InTime (max : Nat) : List Happening → Bytes → List Bytes → Bytes → Prop where
  | done (buf : Bytes) : InTime max [] buf [] buf
  | arrive {evs : List Happening} {buf bs left : Bytes} {ds : List Bytes} :
      InTime max evs (buf ++ bs) ds left → InTime max (.arrive bs :: evs) buf ds left
  | read {evs : List Happening} {skip : List CFrame} {d tail left : Bytes} {ds : List Bytes} :
      Skippable skip → 1 ≤ d.length → d.length ≤ max → d.length < 2^32 →
      InTime max evs tail ds left →
      InTime max (.read :: evs) (ctls skip ++ (dataFrame d ++ tail)) (d :: ds) left

/-- The program `evs` on an open reader, the payloads it gets; `put` is the arrival of bytes at
the transport. A read that returns no payload ends the program. -/
def play (fuel : Nat) (put : Bytes → σ → σ) : List Happening → Reader σ → Exec (List Bytes × Reader σ)
  | [], r => .ok ([], r)
  | .arrive bs :: evs, r =>
    play fuel put evs { r with rdwr := { r.rdwr with obj := put bs r.rdwr.obj } }
  | .read :: evs, r => do
    let (res, d, r) ← r.read fuel
    match res, d with
    | .success, some d => do
      let (ds, r) ← play fuel put evs r
      .ok (d :: ds, r)
    | _, _ => .ok ([], r)

end Fstrm.Spec
