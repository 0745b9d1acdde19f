import Verif.Spec.Fleet
import Verif.Spec.Replay

/-!
# `fstrm_replay` as a client of `fstrm_capture`

The network between the two is that of `Verif.Spec.Fleet`.
-/

set_option autoImplicit false

namespace Fstrm.Spec

/-- What `fstrm_replay` does over a connection, given all bytes delivered to it so far. If it runs to its
end, the bytes it sent are those written to the connection (none, if it gave up before it sent
anything). -/
def replaySide (fuel : Nat) (ct : Bytes) (files : List ReplayFile) : Side (ReplayOut Chan) := fun y => do
  let o ← replay fuel ct files chanOps ⟨y, []⟩
  .ok (o, match o.rdwr with
    | none => []
    | some rw => rw.obj.out)

/-- The files named on the command line of a replay with what is between their START and STOP frames. -/
abbrev ReplayJob := List (ReplayFile × List Item)

/-- All data frames of the files, file by file. -/
def ReplayJob.frames (job : ReplayJob) : List Bytes := job.flatMap fun p => datas p.2

/-- The files are complete streams of the type `ct` or without type (and shorter than the bound `fuel` of
the loops of the model), and buffers of `hw` bytes hold each of their frames. -/
structure Replayable (ct : Bytes) (hw fuel : Nat) (job : ReplayJob) : Prop where
  valid : ∀ p ∈ job, ValidFile ct p.1 p.2 ∧ p.2.length + 2 ≤ fuel
  fits : ∀ d ∈ job.frames, 4 + d.length ≤ hw

/-- The clients of the server all run `fstrm_replay` with the server's content type, client `id` on the files
`job id`. -/
abbrev replays (fuel : Nat) (ct : Bytes) (job : Nat → ReplayJob) : Nat → Side (ReplayOut Chan) :=
  fun id => replaySide fuel ct ((job id).map (·.1))

end Fstrm.Spec
