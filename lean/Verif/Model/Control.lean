import Verif.Model.Basic

/-!
# Model of `/repo/fstrm/control.c`

`fs_bufvec` (a growable array of byte buffers) is represented by a list; the
array implementation itself is modelled in `Verif/Model/Vector.lean`.
-/

set_option autoImplicit false

namespace Fstrm

/-- `FSTRM_CONTROL_FRAME_LENGTH_MAX`, fstrm/control.h:143. -/
abbrev FRAME_LENGTH_MAX : Nat := 512
/-- `FSTRM_CONTROL_FIELD_CONTENT_TYPE_LENGTH_MAX`, fstrm/control.h:149. -/
abbrev CT_LENGTH_MAX : Nat := 256
/-- `FSTRM_CONTROL_ACCEPT` … `FSTRM_CONTROL_FINISH`, fstrm/control.h:154-169. -/
abbrev T_ACCEPT : Nat := 1
/-- `FSTRM_CONTROL_START`, control.h:159. -/
abbrev T_START : Nat := 2
/-- `FSTRM_CONTROL_STOP`, control.h:162. -/
abbrev T_STOP : Nat := 3
/-- `FSTRM_CONTROL_READY`, control.h:165. -/
abbrev T_READY : Nat := 4
/-- `FSTRM_CONTROL_FINISH`, control.h:168. -/
abbrev T_FINISH : Nat := 5
/-- `FSTRM_CONTROL_FIELD_CONTENT_TYPE`, fstrm/control.h:180. -/
abbrev F_CONTENT_TYPE : Nat := 1

/-- `struct fstrm_control`, control.c:25-28. `type = 0` means unset. -/
structure Control where
  type : Nat
  cts : List Bytes
  deriving DecidableEq, Repr

/-- `fstrm_control_init`, control.c:61-68. -/
def Control.init : Control := ⟨0, []⟩

/-- `fstrm_control_reset`, control.c:80-89. -/
def Control.reset (_c : Control) : Control := ⟨0, []⟩

/-- The `switch` labels accepted in control.c:94-101, 110-117, 279-285. -/
def knownType (t : Nat) : Bool :=
  t == T_ACCEPT || t == T_START || t == T_STOP || t == T_READY || t == T_FINISH

/-- `fstrm_control_get_type`, control.c:91-105; the type is reported only on
success. -/
def Control.getType (c : Control) : Res × Option Nat :=
  if knownType c.type then (.success, some c.type) else (.failure, none)

/-- `fstrm_control_set_type`, control.c:107-121. -/
def Control.setType (c : Control) (t : Nat) : Res × Control :=
  if knownType t then (.success, { c with type := t }) else (.failure, c)

/-- `fstrm_control_get_num_field_content_type`, control.c:123-147. -/
def Control.numCt (c : Control) : Nat :=
  if c.type = T_STOP ∨ c.type = T_FINISH then 0
  else if c.type = T_START then (if c.cts.length > 1 then 1 else c.cts.length)
  else c.cts.length

/-- `fstrm_control_get_field_content_type`, control.c:149-162. `none` stands for
`fstrm_res_failure`. -/
def Control.getCt (c : Control) (idx : Nat) : Option Bytes := c.cts[idx]?

/-- `fstrm_control_add_field_content_type`, control.c:164-176. Always succeeds. -/
def Control.addCt (c : Control) (ct : Bytes) : Res × Control :=
  (.success, { c with cts := c.cts ++ [ct] })

/-- The loop of `fstrm_control_match_field_content_type`, control.c:209-232,
from index `idx` with `n` iterations left. -/
def Control.matchLoop (c : Control) (m : Bytes) : (n idx : Nat) → Res
  | 0, _ => .failure
  | n+1, idx =>
    match c.getCt idx with
    | none => .failure
    | some ct => if ct = m then .success else Control.matchLoop c m n (idx+1)

/-- `fstrm_control_match_field_content_type`, control.c:178-236. `none` is a NULL
content type. The length check followed by `memcmp` is byte string equality. -/
def Control.matchCt (c : Control) (m : Option Bytes) : Res :=
  if c.type = T_STOP ∨ c.type = T_FINISH then .failure
  else if c.numCt = 0 then .success
  else match m with
    | none => .failure
    | some m => c.matchLoop m c.numCt 0

/-- The final limits on the number of fields, control.c:334-357. -/
def Control.checkCount (c : Control) : Res :=
  if c.type = T_START then (if c.cts.length > 1 then .failure else .success)
  else if c.type = T_STOP ∨ c.type = T_FINISH then
    (if c.cts.length > 0 then .failure else .success)
  else .success

/-- The field loop of `fstrm_control_decode`, control.c:288-332, and the check
after it. `fuel` bounds the number of iterations (see `decode`). -/
def Control.decodeFields : Nat → RCur → Control → Exec (Res × Control)
  | 0, _, _ => .error .fuel
  | fuel+1, cur, c =>
    if cur.len = 0 then .ok (c.checkCount, c)
    else do
      match ← fsLoadBe32 cur with
      | none => .ok (.failure, c)
      | some (val, cur) =>
        if val = F_CONTENT_TYPE then
          match ← fsLoadBe32 cur with
          | none => .ok (.failure, c)
          | some (ctlen, cur) =>
            if ctlen > cur.len then .ok (.failure, c)
            else if ctlen > CT_LENGTH_MAX then .ok (.failure, c)
            else
              match ← fsLoadBytes ctlen cur with
              | none => .ok (.failure, c)
              | some (bs, cur) =>
                Control.decodeFields fuel cur { c with cts := c.cts ++ [bs] }
        else .ok (.failure, c)

/-- The part of `fstrm_control_decode` after the header: type and fields,
control.c:275-360. Each loop iteration consumes at least 8 bytes, so a budget
of `len + 1` iterations is never exhausted (theorem `decode_no_stuck`). -/
def Control.decodeBody (cur : RCur) (c : Control) : Exec (Res × Control) := do
  match ← fsLoadBe32 cur with
  | none => .ok (.failure, c)
  | some (val, cur) =>
    if knownType val then
      Control.decodeFields (cur.len + 1) cur { c with type := val }
    else .ok (.failure, c)

/-- `fstrm_control_decode`, control.c:238-360. `mem` is the memory from the
`control_frame` pointer to the end of its object, `len` the length passed, `hdr`
whether `FSTRM_CONTROL_FLAG_WITH_HEADER` is set in the flags. -/
def Control.decode (c : Control) (mem : Bytes) (len : Nat) (hdr : Bool) :
    Exec (Res × Control) :=
  let c := c.reset
  let cur : RCur := ⟨mem, len⟩
  if hdr then do
    match ← fsLoadBe32 cur with
    | none => .ok (.failure, c)
    | some (val, cur) =>
      if val ≠ 0 then .ok (.failure, c)
      else
        match ← fsLoadBe32 cur with
        | none => .ok (.failure, c)
        | some (val, cur) =>
          if val > FRAME_LENGTH_MAX then .ok (.failure, c)
          else if val ≠ cur.len then .ok (.failure, c)
          else Control.decodeBody cur c
  else if len > FRAME_LENGTH_MAX then .ok (.failure, c)
  else Control.decodeBody cur c

/-- The field loop of `fstrm_control_encoded_size`, control.c:381-407, over the
remaining fields, with `len` accumulated so far. `none` is the early
`fstrm_res_failure`. -/
def Control.sizeFields (type : Nat) : List Bytes → Nat → Option Nat
  | [], len => some len
  | ct :: rest, len =>
    if type = T_STOP ∨ type = T_FINISH then some len
    else
      let len := len + 4 + 4
      if ct.length > CT_LENGTH_MAX then none
      else
        let len := len + ct.length
        if type = T_START then some len
        else Control.sizeFields type rest len

/-- `fstrm_control_encoded_size`, control.c:362-415; `none` is
`fstrm_res_failure`. -/
def Control.encodedSize (c : Control) (hdr : Bool) : Option Nat :=
  let len := (if hdr then 4 + 4 else 0) + 4
  match Control.sizeFields c.type c.cts len with
  | none => none
  | some len => if len > FRAME_LENGTH_MAX then none else some len

/-- The field loop of `fstrm_control_encode`, control.c:466-490. The Boolean is
`false` when a store was refused. -/
def Control.encodeFields (type : Nat) : List Bytes → WCur → Exec (Bool × WCur)
  | [], cur => .ok (true, cur)
  | ct :: rest, cur =>
    if type = T_STOP ∨ type = T_FINISH then .ok (true, cur)
    else do
      match ← fsStoreBe32 cur F_CONTENT_TYPE with
      | none => .ok (false, cur)
      | some cur =>
        match ← fsStoreBe32 cur ct.length with
        | none => .ok (false, cur)
        | some cur =>
          match ← fsStoreBytes cur ct with
          | none => .ok (false, cur)
          | some cur =>
            if type = T_START then .ok (true, cur)
            else Control.encodeFields type rest cur

/-- The part of `fstrm_control_encode` after the header, control.c:461-490. -/
def Control.encodeBody (c : Control) (cur : WCur) : Exec (Bool × WCur) := do
  match ← fsStoreBe32 cur c.type with
  | none => .ok (false, cur)
  | some cur => Control.encodeFields c.type c.cts cur

/-- The serialization part of `fstrm_control_encode`, control.c:441-490. -/
def Control.encodeAll (c : Control) (cur : WCur) (size : Nat) (hdr : Bool) :
    Exec (Bool × WCur) :=
  if hdr then do
    match ← fsStoreBe32 cur 0 with
    | none => .ok (false, cur)
    | some cur =>
      match ← fsStoreBe32 cur (size - 2 * 4) with
      | none => .ok (false, cur)
      | some cur => c.encodeBody cur
  else c.encodeBody cur

/-- `fstrm_control_encode`, control.c:417-494. `mem` is the caller's buffer (its
real extent), `cap` the value of `*len_control_frame` on entry. Returns the
result code, the buffer afterwards and the final `*len_control_frame`. -/
def Control.encode (c : Control) (mem : Bytes) (cap : Nat) (hdr : Bool) :
    Exec (Res × Bytes × Nat) :=
  match c.encodedSize hdr with
  | none => .ok (.failure, mem, cap)
  | some size =>
    if cap < size then .ok (.failure, mem, cap)
    else do
      let (ok, cur) ← c.encodeAll ⟨[], mem, size⟩ size hdr
      if ok then .ok (.success, cur.all, size) else .ok (.failure, cur.all, cap)

end Fstrm
