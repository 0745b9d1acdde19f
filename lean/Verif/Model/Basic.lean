/-!
# Model basics: results, undefined behaviour, byte memory

Models `/repo/fstrm/fstrm.h:261-276` (`fstrm_res`) and the buffer helpers of
`/repo/fstrm/fstrm-private.h:78-134`.
-/

set_option autoImplicit false

namespace Fstrm

/-- Byte strings. `uint8_t *` with a length, as `fs_buf`, fstrm-private.h:71-74. -/
abbrev Bytes := List UInt8

/-- `fstrm_res`, fstrm/fstrm.h:261-276. -/
inductive Res where
  | success | failure | again | invalid | stop
  deriving DecidableEq, Repr, Inhabited

/-- Abnormal outcomes of running a piece of C code.
`ub`: undefined behaviour. `abort`: a failing `assert`. `fuel`: a loop used up
the iteration budget given to the model (so nothing is known about it). `wait`: a
callback does not return (it blocks on input that has not arrived) after these bytes
have been sent; only the pipe transports of `Spec/Net.lean` and `Spec/Pipe.lean` produce it.
`full`: a callback does not return (it blocks because the pipe takes no more output) after these
bytes have been sent; only the transport of `Spec/Pipe.lean` produces it.
Not in the code: the ways in which C code does not go on. -/
inductive Stuck where
  | ub (why : String)
  | abort (why : String)
  | fuel
  | wait (sent : Bytes)
  | full (sent : Bytes)
  deriving DecidableEq, Repr

deriving instance DecidableEq for Except

/-- Result of running a piece of C code. Not in the code: results of the functions of this model. -/
abbrev Exec (α : Type) := Except Stuck α

/-- `ntohl` applied to four bytes loaded from memory
(fstrm-private.h:88-89). The argument always has four elements where it is
used; other lengths are given a value only to make the function total. -/
def ntohl : Bytes → Nat
  | [a, b, c, d] => ((a.toNat * 256 + b.toNat) * 256 + c.toNat) * 256 + d.toNat
  | _ => 0

/-- The four bytes stored for a `uint32_t` after `ntohl`/`htonl`
(fstrm-private.h:100-103). A `size_t` argument is truncated to 32 bits by the
C conversion, which `UInt8.ofNat` (reduction mod 256) reproduces. -/
def htonl (v : Nat) : Bytes :=
  [UInt8.ofNat (v / 16777216), UInt8.ofNat (v / 65536), UInt8.ofNat (v / 256), UInt8.ofNat v]

/-- Copying `n` bytes out of memory of which `mem` is what lies between the
pointer and the end of the object; anything beyond is undefined behaviour.
`memmove` at fstrm-private.h:88, 117. -/
def memRead (mem : Bytes) (n : Nat) : Exec (Bytes × Bytes) :=
  if mem.length < n then .error (.ub "read past the end of the buffer")
  else .ok (mem.take n, mem.drop n)

/-- Read cursor `(*buf, *len)`: `mem` is the memory from `*buf` to the end of
the underlying object, `len` the number of bytes the code believes are left.
Arguments of fstrm-private.h:82, 112. -/
structure RCur where
  mem : Bytes
  len : Nat
  deriving Repr

/-- `fs_load_be32`, fstrm-private.h:80-93. -/
def fsLoadBe32 (cur : RCur) : Exec (Option (Nat × RCur)) :=
  if cur.len < 4 then .ok none
  else do
    let (bs, rest) ← memRead cur.mem 4
    .ok (some (ntohl bs, ⟨rest, cur.len - 4⟩))

/-- `fs_load_bytes`, fstrm-private.h:110-121. -/
def fsLoadBytes (n : Nat) (cur : RCur) : Exec (Option (Bytes × RCur)) :=
  if cur.len < n then .ok none
  else do
    let (bs, rest) ← memRead cur.mem n
    .ok (some (bs, ⟨rest, cur.len - n⟩))

/-- Write cursor: `done` is the part of the buffer already passed by `*buf`,
`mem` the memory from `*buf` to the end of the object, `len` is `*len`.
Arguments of fstrm-private.h:97, 125. -/
structure WCur where
  done : Bytes
  mem : Bytes
  len : Nat
  deriving Repr

/-- The whole buffer behind a write cursor. For stating results of fstrm-private.h:97-134. -/
def WCur.all (cur : WCur) : Bytes := cur.done ++ cur.mem

/-- `fs_store_bytes`, fstrm-private.h:123-134. -/
def fsStoreBytes (cur : WCur) (bs : Bytes) : Exec (Option WCur) :=
  if cur.len < bs.length then .ok none
  else if cur.mem.length < bs.length then .error (.ub "write past the end of the buffer")
  else .ok (some ⟨cur.done ++ bs, cur.mem.drop bs.length, cur.len - bs.length⟩)

/-- `fs_store_be32`, fstrm-private.h:95-108. -/
def fsStoreBe32 (cur : WCur) (v : Nat) : Exec (Option WCur) :=
  fsStoreBytes cur (htonl v)

end Fstrm
