import Verif.Spec.History

/-!
# What stays in a file
-/

set_option autoImplicit false

namespace Fstrm.Spec

/-- A file with these contents (none: there is no such file) has kept them later: what was there is
still there, perhaps with more behind it. -/
def FileKept (before after : Option Bytes) : Prop :=
  ∀ d, before = some d → ∃ d', after = some d' ∧ d <+: d'

end Fstrm.Spec
