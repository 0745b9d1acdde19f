import Verif.Model.Basic

/-!
# Model of the ring buffers `/repo/libmy/my_queue_mb.c` and `/repo/libmy/my_queue_mutex.c`

All index arithmetic is C `unsigned` arithmetic, i.e. `UInt32` with wrap around; this includes the
byte offset `head * sizeof_elem`. The array is byte memory; an access outside of it is undefined
behaviour. This file is the sequential behaviour, which is the same for both implementations.
-/

set_option autoImplicit false

namespace Fstrm

/-- `struct my_queue`, my_queue_mb.c:54-60, my_queue_mutex.c:41-48 (there with a mutex, which
sequential calls do not notice). -/
structure Queue where
  data : Bytes
  num : UInt32
  sz : UInt32
  head : UInt32
  tail : UInt32
  deriving Repr, DecidableEq

/-- `q_space`, my_queue_mb.c:91-95, my_queue_mutex.c:111-115. -/
def qSpace (head tail size : UInt32) : UInt32 := (tail - (head + 1)) &&& (size - 1)

/-- `q_count`, my_queue_mb.c:97-101, my_queue_mutex.c:117-121. -/
def qCount (head tail size : UInt32) : UInt32 := (head - tail) &&& (size - 1)

/-- The next index, my_queue_mb.c:113, 133, my_queue_mutex.c:133, 153. -/
def qNext (i size : UInt32) : UInt32 := (i + 1) &&& (size - 1)

/-- `memcpy` into the array at byte offset `off`. my_queue_mb.c:111, my_queue_mutex.c:132. -/
def putBytes (mem : Bytes) (off : Nat) (bs : Bytes) : Exec Bytes :=
  if off + bs.length ≤ mem.length then
    .ok (mem.take off ++ bs ++ mem.drop (off + bs.length))
  else .error (.ub "queue write out of bounds")

/-- `memcpy` of `n` bytes out of the array at byte offset `off`.
my_queue_mb.c:131, my_queue_mutex.c:152. -/
def getBytes (mem : Bytes) (off n : Nat) : Exec Bytes :=
  if off + n ≤ mem.length then .ok ((mem.drop off).take n)
  else .error (.ub "queue read out of bounds")

namespace Queue

/-- `my_queue_mb_init`, my_queue_mb.c:62-73; `my_queue_mutex_init`, my_queue_mutex.c:65-78.
The array is zeroed (`my_calloc`). -/
def init (num sz : UInt32) : Option Queue :=
  if num < 2 ∨ (num - 1) &&& num ≠ 0 then none
  else some ⟨List.replicate (num.toNat * sz.toNat) 0, num, sz, 0, 0⟩

/-- `my_queue_mb_insert`, my_queue_mb.c:103-121; `my_queue_mutex_insert`, my_queue_mutex.c:123-141.
`item` is the memory behind the pointer; `sizeof_elem` bytes of it are copied. -/
def insert (q : Queue) (item : Bytes) : Exec (Bool × UInt32 × Queue) :=
  let space := qSpace q.head q.tail q.num
  if space ≥ 1 then
    if item.length < q.sz.toNat then .error (.ub "read past the end of the item")
    else do
      let data ← putBytes q.data (q.head * q.sz).toNat (item.take q.sz.toNat)
      .ok (true, space - 1, { q with data := data, head := qNext q.head q.num })
  else .ok (false, space, q)

/-- `my_queue_mb_remove`, my_queue_mb.c:123-140; `my_queue_mutex_remove`,
my_queue_mutex.c:143-161. The result is the item copied out, if any. -/
def remove (q : Queue) : Exec (Option Bytes × UInt32 × Queue) :=
  let count := qCount q.head q.tail q.num
  if count ≥ 1 then do
    let item ← getBytes q.data (q.tail * q.sz).toNat q.sz.toNat
    .ok (some item, count - 1, { q with tail := qNext q.tail q.num })
  else .ok (none, count, q)

end Queue
end Fstrm
