import Verif.Model.Reader

/-!
# What a reader or writer keeps of what its peer sent (C133)

A control object keeps the content types of the last frame decoded into it. The
amounts below count the bytes of each content type and 8 more bytes for each (the size of its
field header on the wire).
-/

set_option autoImplicit false

namespace Fstrm.Spec

open Fstrm

/-- The bytes of the content types, with 8 bytes for each of them. -/
def typeBytes (cts : List Bytes) : Nat := (cts.map fun ct => 8 + ct.length).sum

/-- The amount kept in a control object, nothing if there is no object. -/
def keptBytes (c : Option Control) : Nat := typeBytes ((c.map (·.cts)).getD [])

variable {σ : Type}

/-- All memory of a reader that depends on what it received: the frame buffer and its five
control objects. -/
def readerHolds (r : Reader σ) : Nat :=
  r.bufCap + keptBytes r.start + keptBytes r.stop + keptBytes r.ready + keptBytes r.accept +
    keptBytes r.tmp

/-- The same for the four control objects of a writer; it has no other memory that depends on
what it received. -/
def writerHolds (w : Writer σ) : Nat :=
  keptBytes w.ready + keptBytes w.accept + keptBytes w.start + keptBytes w.finish

end Fstrm.Spec
