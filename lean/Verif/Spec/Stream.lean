import Verif.Spec.Wire

/-!
# Specification of the contents of an opened stream

After the START frame a stream consists of data frames and control frames, up
to the STOP frame.
-/

set_option autoImplicit false

namespace Fstrm.Spec

/-- A frame of an opened stream. -/
inductive Item where
  | data (d : Bytes)
  | ctl (f : CFrame)
  deriving DecidableEq, Repr

/-- Its bytes. -/
def Item.wire : Item → Bytes
  | .data d => dataFrame d
  | .ctl f => f.wire

/-- Frames that may occur before STOP in a stream with maximum frame size `max`:
non-empty data frames up to that size, and well-formed control frames other than
STOP. -/
def Item.Ok (max : Nat) : Item → Prop
  | .data d => 1 ≤ d.length ∧ d.length ≤ max ∧ d.length < 2^32
  | .ctl f => f.WF ∧ f.payload.length ≤ 512 ∧ f.type ≠ .stop

/-- The data frames among them. -/
def datas : List Item → List Bytes
  | [] => []
  | .data d :: rest => d :: datas rest
  | .ctl _ :: rest => datas rest

/-- The bytes of a sequence of frames. -/
def wires (items : List Item) : Bytes := items.flatMap Item.wire

/-- The data frames wholly contained in the first `k` bytes of `wires items`. -/
def contained : Nat → List Item → List Bytes
  | _, [] => []
  | k, .data d :: rest =>
    if 4 + d.length ≤ k then d :: contained (k - (4 + d.length)) rest else []
  | k, .ctl f :: rest =>
    if 8 + f.payload.length ≤ k then contained (k - (8 + f.payload.length)) rest else []

/-- A reader with content types `own` accepts a stream whose START frame carries
`offered`: either side may leave its list empty, meaning anything. -/
def compatible (own offered : List Bytes) : Prop :=
  own = [] ∨ offered = [] ∨ ∃ ct ∈ own, ct ∈ offered

/-- The content types of `own` that are on offer, in the order of `own`; an
empty offer means anything. -/
def common (own offered : List Bytes) : List Bytes :=
  own.filter fun ct => offered = [] ∨ ct ∈ offered

/-- The bytes end in the middle of the frame that starts there: in the length, in the data, or in
the length or payload of a control frame. -/
inductive Cut : Bytes → Prop
  | length (bs : Bytes) : bs.length < 4 → Cut bs
  | data (n : Nat) (bs : Bytes) : 0 < n → n < 2^32 → bs.length < n → Cut (be32 n ++ bs)
  | ctlLength (bs : Bytes) : bs.length < 4 → Cut (be32 0 ++ bs)
  | ctl (n : Nat) (bs : Bytes) : n ≤ 512 → bs.length < n → Cut (be32 0 ++ (be32 n ++ bs))

end Fstrm.Spec
