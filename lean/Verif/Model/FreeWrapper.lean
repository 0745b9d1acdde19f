import Verif.Model.Basic
import Verif.Spec.IothrLog

/-!
# Payloads from malloc, and `fstrm_free_wrapper`

The memory of the program as seen by an execution of an I/O thread: which blocks are allocated and
what is in them. Addresses may be used again once a block has been given back.
-/

set_option autoImplicit false

namespace Fstrm

/-- What is in the block at an address; none if no allocated block starts there. Simplified: blocks
do not overlap, and their size is that of their contents. -/
abbrev MallocBlocks := Nat → Option Bytes

/-- Another content at one address. -/
def MallocBlocks.set (m : MallocBlocks) (p : Nat) (v : Option Bytes) : MallocBlocks := fun a => if a = p then v else m a

/-- fstrm/iothr.c:413-418 `fstrm_free_wrapper`: `free(data)`. Nothing happens for NULL; anything
else must be the address of an allocated block. -/
def freeWrapper (m : MallocBlocks) (p : Nat) : Exec MallocBlocks :=
  if p = 0 then .ok m
  else match m p with
    | some _ => .ok (m.set p none)
    | none => .error (.ub "free of a block that is not allocated")

/-- What an event does with the memory of the program; `addr` gives the address that was passed to
submit for a payload.
* fstrm/fstrm.h:195-208: the program fills a block from malloc and passes it to submit with
  `fstrm_free_wrapper`. Simplified: the block appears with the submission. A payload without free function is
  left as it is: it is an object of the program.
* fstrm/iothr.c:464-466, fstrm/writer.c: a write reads the blocks of its payloads. Reading anything
  but the bytes that were submitted is an error as well.
* fstrm/iothr.c:338-343 `fstrm__iothr_queue_entry_free_bytes`: the free function is called with the
  address. -/
def serve (addr : Nat → Nat) (m : MallocBlocks) : IoEv → Exec MallocBlocks
  | .submitted e => .ok (if e.hasFree then m.set (addr e.id) (some e.data) else m)
  | .write es _ =>
    if es.all (fun e => m (addr e.id) == some e.data) then .ok m
    else .error (.ub "payload read from a block that is not its own")
  | .freed e => freeWrapper m (addr e.id)
  | _ => .ok m

/-- The events of an execution, one after the other. -/
def serveAll (addr : Nat → Nat) (m : MallocBlocks) : List IoEv → Exec MallocBlocks
  | [] => .ok m
  | e :: l => do serveAll addr (← serve addr m e) l

end Fstrm
