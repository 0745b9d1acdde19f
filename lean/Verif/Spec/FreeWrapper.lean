import Verif.Model.FreeWrapper

/-!
# What a program that uses `fstrm_free_wrapper` must do
-/

set_option autoImplicit false

namespace Fstrm.Spec

/-- The program submits with `fstrm_free_wrapper` only blocks that malloc has given to it for this
payload: malloc does not return NULL, nor the address of a block that is allocated at this time.
(It may return an address that has been in use before.) Payloads without free function
are objects of the program that are there from the beginning and keep their contents. -/
def FromMalloc (addr : Nat → Nat) (m0 : MallocBlocks) (log : List IoEv) : Prop :=
  ∀ l e rest, log = l ++ .submitted e :: rest →
    if e.hasFree then addr e.id ≠ 0 ∧ ∀ m, serveAll addr m0 l = .ok m → m (addr e.id) = none
    else m0 (addr e.id) = some e.data

end Fstrm.Spec
