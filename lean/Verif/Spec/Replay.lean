import Verif.Spec.Stream
import Verif.Model.Replay

/-! # Specification of what `fstrm_replay` sends for a file -/

set_option autoImplicit false

namespace Fstrm.Spec

/-- `part` is what a replay with content type `ct` sends for the file `f`; `warned` tells whether a
message about the file was printed. Without a message the file is a stream without
content type or of type `ct`, and `part` are all its data frames up to the STOP frame, or up
to the frame in which the file ends. With a message it can be nothing, or the frames before the
error. -/
def Sends (ct : Bytes) (f : ReplayFile) (warned : Prop) (part : List Bytes) : Prop :=
  (warned ∧ part = []) ∨
  ∃ (fct : Option Bytes) (items : List Item) (tail : Bytes),
    f.disk.getD [] = CFrame.wire ⟨.start, fct.toList⟩ ++ (wires items ++ tail) ∧
    (fct = none ∨ fct = some ct) ∧ (∀ it ∈ items, it.Ok 1048576) ∧ part = datas items ∧
    (warned ∨ CFrame.wire ⟨.stop, []⟩ <+: tail ∨ Cut tail)

/-- The named file is a complete stream of type `ct` (or without type) whose frames between START
and STOP are `items`, and reading it does not fail. -/
def ValidFile (ct : Bytes) (f : ReplayFile) (items : List Item) : Prop :=
  f.path = .file ∧ f.script = [] ∧ (∀ it ∈ items, it.Ok 1048576) ∧
  ∃ (fct : Option Bytes) (rest : Bytes), (fct = none ∨ fct = some ct) ∧
    f.disk = some (CFrame.wire ⟨.start, fct.toList⟩ ++
      (wires items ++ (CFrame.wire ⟨.stop, []⟩ ++ rest)))

/-- A list of parts, one for each file, and their messages. -/
inductive SendsAll (ct : Bytes) : List ReplayFile → List ReplayMsg → List (List Bytes) → Prop
  | nil : SendsAll ct [] [] []
  | cons {f : ReplayFile} {files : List ReplayFile} {m msgs : List ReplayMsg} {part : List Bytes}
      {parts : List (List Bytes)} :
      Sends ct f (m ≠ []) part → SendsAll ct files msgs parts →
      SendsAll ct (f :: files) (m ++ msgs) (part :: parts)

end Fstrm.Spec
