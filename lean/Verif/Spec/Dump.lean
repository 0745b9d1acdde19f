import Verif.Model.PrintString
import Verif.Spec.Stream

/-! # Specification of the output of `fstrm_dump` -/

set_option autoImplicit false

namespace Fstrm.Spec

/-- One line per frame: a space (32), the frame as a quoted string, a newline (10). -/
def dumpLines (ds : List Bytes) : Bytes := ds.flatMap fun d => 32 :: (printString d ++ [10])

/-- Printed lines and a copy of the same frames on one standard output: for each frame its line, or what
is left of it where printing failed, then the frame. -/
inductive Mixed : List Bytes → Bytes → Prop where
  | nil : Mixed [] []
  | cons {d line rest : Bytes} {ds : List Bytes} (hl : line.Sublist (dumpLines [d]))
      (h : Mixed ds rest) : Mixed (d :: ds) (line ++ dataFrame d ++ rest)

end Fstrm.Spec
