/-!
# Specification of the Frame Streams wire format

Written from the protocol description in `/repo/fstrm/fstrm.h` (the
overview) and `/repo/fstrm/control.h:30-150` (control frame description); it does not
import the model. Everything a property theorem says about bytes is said in
these terms.
-/

set_option autoImplicit false

namespace Fstrm.Spec

abbrev Bytes := List UInt8

/-- The four bytes of a 32-bit number, most significant first
(`n` is taken modulo `2^32`). -/
def be32 (n : Nat) : Bytes :=
  [UInt8.ofNat (n / 2^24), UInt8.ofNat (n / 2^16), UInt8.ofNat (n / 2^8), UInt8.ofNat n]

/-- The five control frame types. -/
inductive CType where
  | accept | start | stop | ready | finish
  deriving DecidableEq, Repr

/-- Their numeric codes on the wire. -/
def CType.code : CType → Nat
  | .accept => 1
  | .start => 2
  | .stop => 3
  | .ready => 4
  | .finish => 5

/-- A control frame: a type and a list of content types. -/
structure CFrame where
  type : CType
  cts : List Bytes
  deriving DecidableEq, Repr

/-- How many content types a frame of the given type may carry. -/
def CType.maxCts : CType → Option Nat
  | .accept => none
  | .ready => none
  | .start => some 1
  | .stop => some 0
  | .finish => some 0

/-- Well-formed control frames: content types are at most 256 bytes, START
carries at most one of them, STOP and FINISH carry none. -/
def CFrame.WF (f : CFrame) : Prop :=
  (∀ ct ∈ f.cts, ct.length ≤ 256) ∧
  (∀ m, f.type.maxCts = some m → f.cts.length ≤ m)

/-- A content type field: field code 1, length, bytes. -/
def field (ct : Bytes) : Bytes := be32 1 ++ be32 ct.length ++ ct

/-- The control frame payload: type code followed by the fields. -/
def CFrame.payload (f : CFrame) : Bytes :=
  be32 f.type.code ++ f.cts.flatMap field

/-- A control frame on the wire: escape (zero length), payload length, payload. -/
def CFrame.wire (f : CFrame) : Bytes :=
  be32 0 ++ be32 f.payload.length ++ f.payload

/-- The bytes of a control frame with or without the 8 byte header. -/
def wireBytes (f : CFrame) (hdr : Bool) : Bytes := if hdr then f.wire else f.payload

/-- A data frame on the wire: length, payload. -/
def dataFrame (d : Bytes) : Bytes := be32 d.length ++ d

/-- What a frame of type `t` shows of a list of content types: START the first,
STOP and FINISH none. -/
def CType.visible (t : CType) (cts : List Bytes) : List Bytes :=
  match t with
  | .start => cts.take 1
  | .stop => []
  | .finish => []
  | .accept => cts
  | .ready => cts

/-- A complete unidirectional stream with optional content type `ct` and data
frames `ds`. -/
def stream (ct : Option Bytes) (ds : List Bytes) : Bytes :=
  CFrame.wire ⟨.start, ct.toList⟩ ++ ds.flatMap dataFrame ++ CFrame.wire ⟨.stop, []⟩

end Fstrm.Spec
