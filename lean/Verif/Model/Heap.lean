import Verif.Model.Reader

/-!
# Memory management: which blocks the library allocates and frees

The models of `Control`, `Rdwr`, `Writer` and `Reader` treat objects as values. Here every object
also carries the addresses of the memory blocks it consists of, and every function allocates,
reallocates, frees and touches blocks as the C code does, in the same order. A block is an address
that is or is not allocated; what is stored in it is the value carried next to the address.
Touching or freeing a block that is not allocated is undefined behaviour.

Which allocations fail is part of the initial state; `my_alloc.h` asserts that they do not, so the
process is aborted.

Simplifications: `realloc` always moves the block; a function that only reads an object touches
all its blocks at once; stack variables are not blocks; assertions are compiled in (no `NDEBUG`).
-/

set_option autoImplicit false

namespace Fstrm

/-- Addresses of blocks returned by `malloc`, `calloc`, `realloc` and `strdup`. my_alloc.h:8-38. -/
abbrev Ptr := Nat

/-- The heap: the blocks currently allocated, and the next address to be returned (addresses are
never reused, so that a stale pointer is always recognised). `denied` are the addresses that cannot
be returned because memory has run out then, `zeroNull` whether `malloc(0)` returns NULL, as C
allows. Behind my_alloc.h:8-40. -/
structure Heap where
  next : Ptr
  live : List Ptr
  denied : List Ptr
  zeroNull : Bool
  deriving DecidableEq, Repr

/-- Allocations may fail. For stating properties. -/
def Heap.Scarce (h : Heap) : Prop := h.denied ≠ [] ∨ h.zeroNull = true

/-- The same heap with enough memory, on a system where `malloc(0)` returns a block.
For stating properties. -/
def Heap.ample (h : Heap) : Heap := { h with denied := [], zeroNull := false }

/-- A computation that uses the heap. Not in the code. -/
def HExec (α : Type) := Heap → Exec (α × Heap)

instance : Monad HExec where
  pure a := fun h => .ok (a, h)
  bind m f := fun h => match m h with
    | .ok (a, h) => f a h
    | .error e => .error e

/-- A computation that does not use the heap. Not in the code. -/
def HExec.lift {α : Type} (x : Exec α) : HExec α := fun h =>
  match x with
  | .ok a => .ok (a, h)
  | .error e => .error e

/-- An abnormal outcome. Not in the code. -/
def HExec.stuck {α : Type} (e : Stuck) : HExec α := fun _ => .error e

/-- The outcome when the assertions of my_alloc.h:12, 20, 28 and 36 fail. -/
def outOfMemory : Stuck := .abort "ptr != NULL"

/-- `my_malloc` of `size` bytes, `my_calloc`, `my_strdup`: my_alloc.h:8-22, 32-38. -/
def malloc (size : Nat) : HExec Ptr := fun h =>
  if h.next ∈ h.denied ∨ (size = 0 ∧ h.zeroNull = true) then .error outOfMemory
  else .ok (h.next, { h with next := h.next + 1, live := h.next :: h.live })

/-- An allocation of more than 0 bytes; how many does not matter. my_alloc.h:8-38. -/
def alloc : HExec Ptr := malloc 1

/-- `my_free` of a pointer that is not NULL, my_alloc.h:40. -/
def free (p : Ptr) : HExec Unit := fun h =>
  if p ∈ h.live then .ok ((), { h with live := h.live.erase p })
  else .error (.ub "free of a block that is not allocated")

/-- `my_free` of a pointer that may be NULL. my_alloc.h:40. -/
def freeOpt : Option Ptr → HExec Unit
  | none => pure ()
  | some p => free p

/-- `my_realloc`, my_alloc.h:24-30: the old block is freed and a new one allocated. -/
def realloc (p : Ptr) : HExec Ptr := do
  free p
  alloc

/-- Reading from or writing to a block. Not a function of the code: any access through a pointer. -/
def use (p : Ptr) : HExec Unit := fun h =>
  if p ∈ h.live then .ok ((), h) else .error (.ub "use of a block that is not allocated")

/-- Reading from or writing to several blocks.
Not a function of the code: any access through a pointer. -/
def useAll : List Ptr → HExec Unit
  | [] => pure ()
  | p :: ps => do
    use p
    useAll ps

/-- Freeing several blocks. my_alloc.h:40, several times. -/
def freeAll : List Ptr → HExec Unit
  | [] => pure ()
  | p :: ps => do
    free p
    freeAll ps

/-- `fs_bufvec`, fstrm-private.h:76 and vector.h:30-34: the structure, the array of elements and its
capacity; an element is a pointer to the bytes of a content type. `_hint` is 1 in all uses. -/
structure HVec where
  self : Ptr
  arr : Ptr
  cap : Nat
  elems : List (Ptr × Bytes)
  deriving DecidableEq, Repr

/-- `fs_bufvec_init(1)`, vector.h:35-45. -/
def HVec.init : HExec HVec := do
  let self ← alloc
  let arr ← alloc
  pure ⟨self, arr, 1, []⟩

/-- `fs_bufvec_add`, vector.h:88-100. The loop runs at most once because the capacity is at least
the number of elements and not zero (`Verif/Props/Vector.lean`). -/
def HVec.add (v : HVec) (x : Ptr × Bytes) : HExec HVec := do
  use v.self
  if v.elems.length + 1 > v.cap then do
    let arr ← realloc v.arr
    use arr
    pure { v with arr := arr, cap := v.cap * 2, elems := v.elems ++ [x] }
  else do
    use v.arr
    pure { v with elems := v.elems ++ [x] }

/-- `fs_bufvec_reset`, vector.h:117-128. -/
def HVec.reset (v : HVec) : HExec HVec := do
  use v.self
  if v.cap > 1 then do
    let arr ← realloc v.arr
    pure { v with arr := arr, cap := 1, elems := [] }
  else pure { v with elems := [] }

/-- `fs_bufvec_destroy` of a pointer that is not NULL, vector.h:68-76. -/
def HVec.destroy (v : HVec) : HExec Unit := do
  use v.self
  free v.arr
  free v.self

/-- The loops freeing the elements: control.c:83-86, writer.c:64-67 and 139-142, reader.c:72-75 and
168-171. -/
def HVec.freeElems (v : HVec) : List (Ptr × Bytes) → HExec Unit
  | [] => pure ()
  | x :: xs => do
    use v.self
    use v.arr
    free x.1
    HVec.freeElems v xs

/-- `my_malloc`, `memcpy` and `fs_bufvec_add` of a content type: control.c:170-173, writer.c:84-89,
reader.c:92-97. -/
def HVec.addCopy (v : HVec) (ct : Bytes) : HExec HVec := do
  let p ← malloc ct.length
  use p
  v.add (p, ct)

/-- `struct fstrm_control`, control.c:25-28. -/
structure HControl where
  self : Ptr
  type : Nat
  vec : HVec
  deriving DecidableEq, Repr

/-- The value of the object. control.c:26-29. -/
def HControl.val (c : HControl) : Control := ⟨c.type, c.vec.elems.map Prod.snd⟩

/-- The blocks of the object. For stating properties; vector.h:30-34. -/
def HVec.blocks (v : HVec) : List Ptr := v.self :: v.arr :: v.elems.map Prod.fst

/-- For stating properties: the blocks of `struct fstrm_control`, control.c:26-29. -/
def HControl.blocks (c : HControl) : List Ptr := c.self :: c.vec.blocks

namespace HControl

/-- Reading the whole object. control.c, any function that only reads. -/
def touch (c : HControl) : HExec Unit := useAll c.blocks

/-- `fstrm_control_init`, control.c:61-68. -/
def init : HExec HControl := do
  let self ← alloc
  let vec ← HVec.init
  pure ⟨self, 0, vec⟩

/-- `fstrm_control_reset`, control.c:80-89. -/
def reset (c : HControl) : HExec HControl := do
  use c.self
  c.vec.freeElems c.vec.elems
  let vec ← c.vec.reset
  pure { c with type := 0, vec := vec }

/-- `fstrm_control_destroy`, control.c:70-78; `none` is NULL. -/
def destroy : Option HControl → HExec Unit
  | none => pure ()
  | some c => do
    let c ← c.reset
    c.vec.destroy
    free c.self

/-- `fstrm_control_get_type`, control.c:91-105. -/
def getType (c : HControl) : HExec (Res × Option Nat) := do
  use c.self
  pure c.val.getType

/-- `fstrm_control_set_type`, control.c:107-121. -/
def setType (c : HControl) (t : Nat) : HExec (Res × HControl) := do
  if knownType t then do
    use c.self
    pure (.success, { c with type := t })
  else pure (.failure, c)

/-- `fstrm_control_get_num_field_content_type`, control.c:123-147. -/
def numCt (c : HControl) : HExec Nat := do
  use c.self
  use c.vec.self
  pure c.val.numCt

/-- `fstrm_control_get_field_content_type`, control.c:149-162: the pointer returned and the bytes it
points to. -/
def getCt (c : HControl) (idx : Nat) : HExec (Option (Ptr × Bytes)) := do
  use c.self
  use c.vec.self
  use c.vec.arr
  pure c.vec.elems[idx]?

/-- `fstrm_control_add_field_content_type`, control.c:164-176. -/
def addCt (c : HControl) (ct : Bytes) : HExec (Res × HControl) := do
  let p ← malloc ct.length
  use p
  use c.self
  let vec ← c.vec.add (p, ct)
  pure (.success, { c with vec := vec })

/-- `fstrm_control_match_field_content_type`, control.c:178-236. -/
def matchCt (c : HControl) (m : Option Bytes) : HExec Res := do
  c.touch
  pure (c.val.matchCt m)

/-- The field loop of `fstrm_control_decode`, control.c:288-332, and the check after it. The buffer of
a content type is allocated before its bytes are loaded and freed if that fails. -/
def decodeFields : Nat → RCur → HControl → HExec (Res × HControl)
  | 0, _, _ => HExec.stuck .fuel
  | fuel+1, cur, c =>
    if cur.len = 0 then pure (c.val.checkCount, c)
    else do
      match ← HExec.lift (fsLoadBe32 cur) with
      | none => pure (.failure, c)
      | some (val, cur) =>
        if val = F_CONTENT_TYPE then do
          match ← HExec.lift (fsLoadBe32 cur) with
          | none => pure (.failure, c)
          | some (ctlen, cur) =>
            if ctlen > cur.len then pure (.failure, c)
            else if ctlen > CT_LENGTH_MAX then pure (.failure, c)
            else do
              let p ← malloc ctlen
              match ← HExec.lift (fsLoadBytes ctlen cur) with
              | none => do
                free p
                pure (.failure, c)
              | some (bs, cur) => do
                use p
                use c.self
                let vec ← c.vec.add (p, bs)
                decodeFields fuel cur { c with vec := vec }
        else pure (.failure, c)

/-- The part of `fstrm_control_decode` after the header, control.c:275-360. -/
def decodeBody (cur : RCur) (c : HControl) : HExec (Res × HControl) := do
  match ← HExec.lift (fsLoadBe32 cur) with
  | none => pure (.failure, c)
  | some (val, cur) =>
    if knownType val then do
      use c.self
      decodeFields (cur.len + 1) cur { c with type := val }
    else pure (.failure, c)

/-- `fstrm_control_decode`, control.c:238-360. -/
def decode (c : HControl) (mem : Bytes) (len : Nat) (hdr : Bool) : HExec (Res × HControl) := do
  let c ← c.reset
  if hdr then do
    match ← HExec.lift (fsLoadBe32 ⟨mem, len⟩) with
    | none => pure (.failure, c)
    | some (val, cur) =>
      if val ≠ 0 then pure (.failure, c)
      else do
        match ← HExec.lift (fsLoadBe32 cur) with
        | none => pure (.failure, c)
        | some (val, cur) =>
          if val > FRAME_LENGTH_MAX then pure (.failure, c)
          else if val ≠ cur.len then pure (.failure, c)
          else decodeBody cur c
  else if len > FRAME_LENGTH_MAX then pure (.failure, c)
  else decodeBody ⟨mem, len⟩ c

/-- `fstrm_control_encoded_size`, control.c:362-415. -/
def encodedSize (c : HControl) (hdr : Bool) : HExec (Option Nat) := do
  c.touch
  pure (c.val.encodedSize hdr)

/-- `fstrm_control_encode`, control.c:417-494. -/
def encode (c : HControl) (mem : Bytes) (cap : Nat) (hdr : Bool) : HExec (Res × Bytes × Nat) := do
  c.touch
  HExec.lift (c.val.encode mem cap hdr)

/-- `if (p != NULL) fstrm_control_reset(p); else p = fstrm_control_init();`, writer.c:157-160 and
elsewhere. -/
def fresh : Option HControl → HExec HControl
  | some c => c.reset
  | none => init

/-- `if (p == NULL) p = fstrm_control_init();`, rdwr.c:214-215 and reader.c:331-332. -/
def getD : Option HControl → HExec HControl
  | some c => pure c
  | none => init

/-- The blocks of an object referred to by a pointer that may be NULL. For stating properties. -/
def optBlocks : Option HControl → List Ptr
  | none => []
  | some c => c.blocks

/-- The loops adding all content types to a control frame, writer.c:166-172. -/
def addAllCts (c : HControl) : List (Ptr × Bytes) → HExec HControl
  | [] => pure c
  | x :: xs => do
    use x.1
    let (_, c) ← c.addCt x.2
    addAllCts c xs

end HControl

variable {σ : Type}

/-- `struct fstrm_rdwr`, fstrm-private.h:146-150, at address `self`. `objs` are the blocks of the
transport's own object `obj`, which its `destroy` method frees (file.c:122-129,
unix_writer.c:192-198, tcp_writer.c:206-212). -/
structure HRdwr (σ : Type) where
  self : Ptr
  objs : List Ptr
  rw : Rdwr σ

namespace HRdwr

/-- The blocks of the object. Without a `destroy` method those of `obj` belong to the user.
For stating properties; fstrm-private.h:146-150. -/
def blocks (r : HRdwr σ) : List Ptr :=
  r.self :: (if r.rw.ops.destroy.isSome then r.objs else [])

/-- `fstrm_rdwr_init` and the `fstrm_rdwr_set_*` calls, rdwr.c:26-33 and 118-151. -/
def init (ops : Ops σ) (obj : σ) (objs : List Ptr) : HExec (HRdwr σ) := do
  let self ← alloc
  pure ⟨self, objs, Rdwr.init ops obj⟩

/-- `fstrm_rdwr_destroy`, rdwr.c:35-46, of a pointer that is not NULL. The `destroy` method frees the
transport's object; without such a method nothing is freed. -/
def destroy (r : HRdwr σ) : HExec (Res × Rdwr σ) := do
  use r.self
  let p ← HExec.lift r.rw.destroy
  if r.rw.ops.destroy.isSome then do
    freeAll r.objs
    free r.self
    pure p
  else do
    free r.self
    pure p

/-- `fstrm_rdwr_open`, rdwr.c:48-58. -/
def «open» (r : HRdwr σ) : HExec (Res × HRdwr σ) := do
  useAll r.blocks
  let (res, rw) ← HExec.lift r.rw.open
  pure (res, { r with rw := rw })

/-- `fstrm_rdwr_close`, rdwr.c:60-70. -/
def close (r : HRdwr σ) : HExec (Res × HRdwr σ) := do
  useAll r.blocks
  let (res, rw) ← HExec.lift r.rw.close
  pure (res, { r with rw := rw })

/-- `fstrm_rdwr_read`, rdwr.c:72-93. -/
def read (r : HRdwr σ) (n : Nat) : HExec (Res × Bytes × HRdwr σ) := do
  useAll r.blocks
  let (res, bs, rw) ← HExec.lift (r.rw.read n)
  pure (res, bs, { r with rw := rw })

/-- `fstrm_rdwr_write`, rdwr.c:95-116. -/
def write (r : HRdwr σ) (iov : List Bytes) : HExec (Res × HRdwr σ) := do
  useAll r.blocks
  let (res, rw) ← HExec.lift (r.rw.write iov)
  pure (res, { r with rw := rw })

/-- The part of `fstrm__rdwr_read_control_frame` after the escape sequence, rdwr.c:170-203. -/
def readControlBody (r : HRdwr σ) (control : HControl) :
    HExec (Res × HControl × Option Nat × HRdwr σ) := do
  let (res, tmp, r) ← r.read 4
  if res ≠ .success then pure (res, control, none, r)
  else
    let len := ntohl tmp
    if len > FRAME_LENGTH_MAX then pure (.failure, control, none, r)
    else if len = 0 then HExec.stuck (.ub "zero length variable length array")
    else do
      let (res, frame, r) ← r.read len
      if res ≠ .success then pure (res, control, none, r)
      else do
        let (res, control) ← control.decode frame len false
        if res ≠ .success then pure (res, control, none, r)
        else do
          let (res, type) ← control.getType
          pure (res, control, type, r)

/-- `fstrm__rdwr_read_control_frame`, rdwr.c:153-204. -/
def readControlFrame (r : HRdwr σ) (control : HControl) (withEscape : Bool) :
    HExec (Res × HControl × Option Nat × HRdwr σ) :=
  if withEscape then do
    let (res, tmp, r) ← r.read 4
    if res ≠ .success then pure (res, control, none, r)
    else if ntohl tmp ≠ 0 then pure (.failure, control, none, r)
    else r.readControlBody control
  else r.readControlBody control

/-- `fstrm__rdwr_read_control`, rdwr.c:206-225. -/
def readControl (r : HRdwr σ) (control : Option HControl) (wanted : Nat) :
    HExec (Res × Option HControl × HRdwr σ) := do
  let control ← HControl.getD control
  let (res, c, type, r) ← r.readControlFrame control true
  if res ≠ .success then pure (res, some c, r)
  else if type ≠ some wanted then pure (.failure, some c, r)
  else pure (.success, some c, r)

/-- `fstrm__rdwr_write_control_frame`, rdwr.c:227-252. -/
def writeControlFrame (r : HRdwr σ) (control : HControl) : HExec (Res × HRdwr σ) := do
  match ← control.encodedSize true with
  | none => pure (.failure, r)
  | some size =>
    if size = 0 then HExec.stuck (.ub "zero length variable length array")
    else do
      let (res, frame, len) ← control.encode (List.replicate size 0) size true
      if res ≠ .success then pure (res, r)
      else r.write [frame.take len]

/-- `fstrm__rdwr_write_control`, rdwr.c:254-277, with a NULL content type as in all callers
(writer.c:316, reader.c:385). -/
def writeControl (r : HRdwr σ) (type : Nat) : HExec (Res × HRdwr σ) := do
  let control ← HControl.init
  let (res, control) ← control.setType type
  if res ≠ .success then do
    HControl.destroy (some control)
    pure (res, r)
  else do
    let (res, r) ← r.writeControlFrame control
    HControl.destroy (some control)
    pure (res, r)

end HRdwr

/-- `struct fstrm_writer_options`, writer.c:36-38. -/
structure HWriterOptions where
  self : Ptr
  vec : Option HVec
  deriving DecidableEq, Repr

/-- The content types in a vector that may be NULL.
For stating properties; writer.c:36-38, reader.c:49-52. -/
def HVec.optVals : Option HVec → List Bytes
  | none => []
  | some v => v.elems.map Prod.snd

/-- The blocks of a vector that may be NULL.
For stating properties; writer.c:36-38, reader.c:49-52. -/
def HVec.optBlocks : Option HVec → List Ptr
  | none => []
  | some v => v.blocks

/-- Freeing the content types and the vector, if there is one: writer.c:63-69, reader.c:71-77. -/
def HVec.optDestroy : Option HVec → HExec Unit
  | none => pure ()
  | some v => do
    v.freeElems v.elems
    v.destroy

/-- `if (v == NULL) v = fs_bufvec_init(1);`, writer.c:82-83, reader.c:90-91. -/
def HVec.getD : Option HVec → HExec HVec
  | some v => pure v
  | none => HVec.init

/-- The loops copying content types from the options: writer.c:108-116, reader.c:135-143. -/
def HVec.copyFrom (v src : HVec) : List (Ptr × Bytes) → HExec HVec
  | [] => pure v
  | x :: xs => do
    use src.self
    use src.arr
    let p ← malloc x.2.length
    use x.1
    use p
    let v ← v.add (p, x.2)
    HVec.copyFrom v src xs

/-- Copying the content types of the options, if there are any, writer.c:107-117, reader.c:134-144. -/
def HVec.copyOpt (v : HVec) : Option HVec → HExec HVec
  | none => pure v
  | some src => v.copyFrom src src.elems

namespace HWriterOptions

/-- For stating properties: the blocks of `struct fstrm_writer_options`, writer.c:36-38. -/
def blocks (o : HWriterOptions) : List Ptr := o.self :: HVec.optBlocks o.vec

/-- For stating properties: the value of `struct fstrm_writer_options`, writer.c:36-38. -/
def val (o : HWriterOptions) : WriterOptions := ⟨HVec.optVals o.vec⟩

/-- `fstrm_writer_options_init`, writer.c:53-57. -/
def init : HExec HWriterOptions := do
  let self ← alloc
  pure ⟨self, none⟩

/-- `fstrm_writer_options_destroy`, writer.c:59-72, of a pointer that is not NULL. -/
def destroy (o : HWriterOptions) : HExec Unit := do
  use o.self
  HVec.optDestroy o.vec
  free o.self

/-- `fstrm_writer_options_add_content_type`, writer.c:74-91. -/
def addCt (o : HWriterOptions) (ct : Bytes) : HExec (Res × HWriterOptions) := do
  if ct.length > CT_LENGTH_MAX then pure (.failure, o)
  else do
    use o.self
    let vec ← HVec.getD o.vec
    let vec ← vec.addCopy ct
    pure (.success, { o with vec := some vec })

end HWriterOptions

/-- `struct fstrm_writer`, writer.c:40-51. -/
structure HWriter (σ : Type) where
  self : Ptr
  state : WState
  vec : HVec
  rdwr : HRdwr σ
  ready : Option HControl
  accept : Option HControl
  start : Option HControl
  finish : Option HControl
  iovecs : Ptr
  lens : Ptr

namespace HWriter

/-- For stating properties: the blocks of `struct fstrm_reader_options`, reader.c:49-52. -/
def blocks (w : HWriter σ) : List Ptr :=
  w.rdwr.blocks ++ HControl.optBlocks w.ready ++ HControl.optBlocks w.accept ++
    HControl.optBlocks w.start ++ HControl.optBlocks w.finish ++
    [w.self, w.iovecs, w.lens] ++ w.vec.blocks

/-- For stating properties: the value of `struct fstrm_reader_options`, reader.c:49-52. -/
def val (w : HWriter σ) : Writer σ :=
  ⟨w.state, w.vec.elems.map Prod.snd, w.rdwr.rw, w.ready.map HControl.val, w.accept.map HControl.val,
    w.start.map HControl.val, w.finish.map HControl.val⟩

/-- `fstrm_writer_init`, writer.c:93-124; `none` is a NULL result, after which the caller still owns
`rdwr`. -/
def init (wopt : Option HWriterOptions) (rdwr : HRdwr σ) : HExec (Option (HWriter σ)) := do
  use rdwr.self
  if rdwr.rw.ops.wr.isNone then pure none
  else do
    let self ← alloc
    let vec ← HVec.init
    let vec ← (match wopt with
      | none => pure vec
      | some o => do
        use o.self
        vec.copyOpt o.vec : HExec HVec)
    let iovecs ← alloc
    let lens ← alloc
    pure (some ⟨self, .opening, vec, rdwr, none, none, none, none, iovecs, lens⟩)

/-- `fstrm__writer_open_unidirectional`, writer.c:231-261. -/
def openUnidirectional (w : HWriter σ) : HExec (Res × HWriter σ) := do
  use w.self
  let start ← HControl.fresh w.start
  let (res, start) ← start.setType T_START
  if res ≠ .success then pure (res, { w with start := some start })
  else do
    use w.vec.self
    let start ← (match w.vec.elems with
      | [] => pure start
      | x :: _ => do
        use w.vec.arr
        use x.1
        let (_, start) ← start.addCt x.2
        pure start : HExec HControl)
    let (res, rdwr) ← w.rdwr.writeControlFrame start
    pure (res, { w with start := some start, rdwr := rdwr })

/-- The last part of `fstrm__writer_open_bidirectional`, writer.c:206-228. `match_ctype` points to
the bytes of a content type of the writer. -/
def sendStart (w : HWriter σ) (ct : Option Bytes) : HExec (Res × HWriter σ) := do
  let start ← HControl.fresh w.start
  let (res, start) ← start.setType T_START
  if res ≠ .success then pure (res, { w with start := some start })
  else do
    useAll w.vec.blocks
    let start ← (match ct with
      | none => pure start
      | some ct => do
        let (_, start) ← start.addCt ct
        pure start : HExec HControl)
    let (res, rdwr) ← w.rdwr.writeControlFrame start
    pure (res, { w with start := some start, rdwr := rdwr })

/-- `fstrm__writer_open_bidirectional`, writer.c:151-229. -/
def openBidirectional (w : HWriter σ) : HExec (Res × HWriter σ) := do
  use w.self
  let ready ← HControl.fresh w.ready
  let (res, ready) ← ready.setType T_READY
  if res ≠ .success then pure (res, { w with ready := some ready })
  else do
    use w.vec.self
    use w.vec.arr
    let ready ← ready.addAllCts w.vec.elems
    let (res, rdwr) ← w.rdwr.writeControlFrame ready
    if res ≠ .success then pure (res, { w with ready := some ready, rdwr := rdwr })
    else do
      let (res, accept, rdwr) ← rdwr.readControl w.accept T_ACCEPT
      let w := { w with ready := some ready, rdwr := rdwr, accept := accept }
      if res ≠ .success then pure (res, w)
      else
        match accept with
        | none => HExec.stuck (.ub "NULL control_accept")
        | some acc => do
          acc.touch
          useAll w.vec.blocks
          let (m, ct) := Writer.matchLoop acc.val (w.vec.elems.map Prod.snd) true
          if !m then pure (.failure, w)
          else w.sendStart ct

/-- `fstrm_writer_open`, writer.c:263-289. -/
def «open» (w : HWriter σ) : HExec (Res × HWriter σ) := do
  use w.self
  if w.state = .opened then pure (.success, w)
  else do
    let (res, rdwr) ← w.rdwr.open
    let w := { w with rdwr := rdwr }
    if res ≠ .success then pure (res, w)
    else do
      let (res, w) ← (if w.rdwr.rw.ops.rd.isSome then w.openBidirectional
        else w.openUnidirectional : HExec (Res × HWriter σ))
      if res ≠ .success then pure (res, w)
      else pure (.success, { w with state := .opened })

/-- `fstrm__writer_maybe_open`, writer.c:291-303. -/
def maybeOpen (w : HWriter σ) : HExec (Res × HWriter σ) := do
  use w.self
  if w.state = .opening then w.open else pure (.success, w)

/-- `fstrm_writer_close`, writer.c:305-334. -/
def close (w : HWriter σ) : HExec (Res × HWriter σ) := do
  use w.self
  if w.state ≠ .opened then pure (.failure, w)
  else do
    let w := { w with state := .closed }
    let (res, rdwr) ← w.rdwr.writeControl T_STOP
    if res ≠ .success then do
      let (_, rdwr) ← rdwr.close
      pure (res, { w with rdwr := rdwr })
    else if rdwr.rw.ops.rd.isSome then do
      let (res, finish, rdwr) ← rdwr.readControl w.finish T_FINISH
      let w := { w with finish := finish }
      if res ≠ .success then do
        let (_, rdwr) ← rdwr.close
        pure (res, { w with rdwr := rdwr })
      else do
        let (res, rdwr) ← rdwr.close
        pure (res, { w with rdwr := rdwr })
    else do
      let (res, rdwr) ← rdwr.close
      pure (res, { w with rdwr := rdwr })

/-- `fstrm__writer_write_iov`, writer.c:336-352. -/
def writeIov (w : HWriter σ) (iov : List Bytes) : HExec (Res × HWriter σ) := do
  use w.self
  use w.iovecs
  use w.lens
  let iovecs ← HExec.lift (Writer.iovLoop iov 0 0 [])
  let (res, rdwr) ← w.rdwr.write iovecs
  pure (res, { w with rdwr := rdwr })

/-- `fstrm__writer_write_iov_stupid`, writer.c:354-379. -/
def writeIovStupid : Nat → HWriter σ → List Bytes → HExec (Res × HWriter σ)
  | 0, w, iov => if iov.length > 0 then HExec.stuck .fuel else pure (.success, w)
  | fuel+1, w, iov =>
    if iov.length > 0 then
      let k := if stupidMax > iov.length then iov.length else stupidMax
      do
        let (res, w) ← w.writeIov (iov.take k)
        if res ≠ .success then pure (res, w)
        else writeIovStupid fuel w (iov.drop k)
    else pure (.success, w)

/-- `fstrm_writer_writev`, writer.c:391-411. -/
def writev (w : HWriter σ) (iov : List Bytes) : HExec (Res × HWriter σ) :=
  if iov.length < 1 then pure (.success, w)
  else do
    let (res, w) ← w.maybeOpen
    if res ≠ .success then pure (res, w)
    else do
      use w.self
      if w.state = .opened then
        if 2 * iov.length > INT_MAX then HExec.stuck (.ub "signed overflow in 2 * iovcnt")
        else if 2 * iov.length ≤ WRITER_IOVEC_SIZE then w.writeIov iov
        else writeIovStupid iov.length w iov
      else pure (.failure, w)

/-- `fstrm_writer_write`, writer.c:381-389. -/
def write (w : HWriter σ) (data : Bytes) : HExec (Res × HWriter σ) := w.writev [data]

/-- `fstrm_writer_get_control`, writer.c:413-446; the object `*control` points to (`none`: NULL or
not set) is still part of the writer. -/
def getControl (w : HWriter σ) (type : Nat) : HExec (Res × Option HControl × HWriter σ) := do
  let (res, w) ← w.maybeOpen
  if res ≠ .success then pure (res, none, w)
  else do
    use w.self
    if type = T_ACCEPT then pure (.success, w.accept, w)
    else if type = T_FINISH then pure (.success, w.finish, w)
    else if type = T_READY then pure (.success, w.ready, w)
    else if type = T_START then pure (.success, w.start, w)
    else pure (.failure, none, w)

/-- `fstrm_writer_destroy`, writer.c:126-149, of a pointer that is not NULL. The second component is
the transport's state at the end. -/
def destroy (w : HWriter σ) : HExec (Res × Rdwr σ) := do
  use w.self
  let (res, w) ← (if w.state = .opened then w.close else pure (.failure, w) : HExec (Res × HWriter σ))
  HControl.destroy w.finish
  HControl.destroy w.start
  HControl.destroy w.accept
  HControl.destroy w.ready
  let (_, rw) ← w.rdwr.destroy
  w.vec.freeElems w.vec.elems
  w.vec.destroy
  free w.iovecs
  free w.lens
  free w.self
  pure (res, rw)

end HWriter

/-- `struct fstrm_reader_options`, reader.c:49-52. -/
structure HReaderOptions where
  self : Ptr
  vec : Option HVec
  maxFrameSize : Nat
  deriving DecidableEq, Repr

namespace HReaderOptions

/-- For stating properties: the blocks of `struct fstrm_writer`, writer.c:40-51. -/
def blocks (o : HReaderOptions) : List Ptr := o.self :: HVec.optBlocks o.vec

/-- For stating properties: the value of `struct fstrm_writer`, writer.c:40-51. -/
def val (o : HReaderOptions) : ReaderOptions := ⟨HVec.optVals o.vec, o.maxFrameSize⟩

/-- `fstrm_reader_options_init`, reader.c:58-65. -/
def init : HExec HReaderOptions := do
  let self ← alloc
  use self
  pure ⟨self, none, MAX_FRAME_SIZE_DEFAULT⟩

/-- `fstrm_reader_options_destroy`, reader.c:67-80, of a pointer that is not NULL. -/
def destroy (o : HReaderOptions) : HExec Unit := do
  use o.self
  HVec.optDestroy o.vec
  free o.self

/-- `fstrm_reader_options_add_content_type`, reader.c:82-99. -/
def addCt (o : HReaderOptions) (ct : Bytes) : HExec (Res × HReaderOptions) := do
  if ct.length > CT_LENGTH_MAX then pure (.failure, o)
  else do
    use o.self
    let vec ← HVec.getD o.vec
    let vec ← vec.addCopy ct
    pure (.success, { o with vec := some vec })

/-- `fstrm_reader_options_set_max_frame_size`, reader.c:101-113. -/
def setMaxFrameSize (o : HReaderOptions) (m : Nat) : HExec (Res × HReaderOptions) := do
  if m < FRAME_LENGTH_MAX ∨ m > UINT32_MAX - 1 then pure (.failure, o)
  else do
    use o.self
    pure (.success, { o with maxFrameSize := m })

end HReaderOptions

/-- `struct fstrm_reader`, reader.c:36-47; `buf` and `bufArr` are the blocks of the `ubuf`. The ghost
field `lost`, which no code reads, lists the blocks of control objects to which the last pointer was
overwritten. -/
structure HReader (σ : Type) where
  self : Ptr
  state : RState
  vec : HVec
  maxFrameSize : Nat
  rdwr : HRdwr σ
  start : Option HControl
  stop : Option HControl
  ready : Option HControl
  accept : Option HControl
  tmp : Option HControl
  buf : Ptr
  bufArr : Ptr
  bufN : Nat
  bufCap : Nat
  lost : List Ptr

namespace HReader

/-- For stating properties: the blocks of `struct fstrm_reader`, reader.c:36-47. -/
def blocks (r : HReader σ) : List Ptr :=
  r.rdwr.blocks ++ HControl.optBlocks r.start ++ HControl.optBlocks r.stop ++
    HControl.optBlocks r.ready ++ HControl.optBlocks r.accept ++ HControl.optBlocks r.tmp ++
    [r.self, r.buf, r.bufArr] ++ r.vec.blocks

/-- For stating properties: the value of `struct fstrm_reader`, reader.c:36-47. -/
def val (r : HReader σ) : Reader σ :=
  ⟨r.state, r.vec.elems.map Prod.snd, r.maxFrameSize, r.rdwr.rw, r.start.map HControl.val,
    r.stop.map HControl.val, r.ready.map HControl.val, r.accept.map HControl.val,
    r.tmp.map HControl.val, r.bufN, r.bufCap⟩

/-- `fstrm_reader_init`, reader.c:115-148. -/
def init (ropt : Option HReaderOptions) (rdwr : HRdwr σ) : HExec (Option (HReader σ)) := do
  use rdwr.self
  if rdwr.rw.ops.rd.isNone then pure none
  else do
    let self ← alloc
    let vec ← HVec.init
    let buf ← alloc
    let bufArr ← alloc
    match ropt with
    | none =>
      pure (some ⟨self, .opening, vec, MAX_FRAME_SIZE_DEFAULT, rdwr, none, none, none, none, none, buf,
        bufArr, 0, FRAME_LENGTH_MAX, []⟩)
    | some o => do
      use o.self
      let vec ← vec.copyOpt o.vec
      pure (some ⟨self, .opening, vec, o.maxFrameSize, rdwr, none, none, none, none, none, buf, bufArr,
        0, FRAME_LENGTH_MAX, []⟩)

/-- `fstrm__reader_open_unidirectional`, reader.c:178-209. -/
def openUnidirectional (r : HReader σ) : HExec (Res × HReader σ) := do
  use r.self
  let (res, start, rdwr) ← r.rdwr.readControl r.start T_START
  let r := { r with rdwr := rdwr, start := start }
  if res ≠ .success then pure (res, r)
  else
    match start with
    | none => HExec.stuck (.ub "NULL control_start")
    | some st => do
      useAll r.vec.blocks
      st.touch
      if !(Reader.matchLoop st.val (r.vec.elems.map Prod.snd) true) then pure (.failure, r)
      else pure (.success, { r with state := .opened })

/-- The loop adding the acceptable content types to the ACCEPT frame, reader.c:232-242. -/
def acceptLoop (ready : HControl) : List (Ptr × Bytes) → HControl → HExec HControl
  | [], acc => pure acc
  | x :: xs, acc => do
    use x.1
    let res ← ready.matchCt (some x.2)
    if res = .success then do
      let (_, acc) ← acc.addCt x.2
      acceptLoop ready xs acc
    else acceptLoop ready xs acc

/-- `fstrm__reader_open_bidirectional`, reader.c:211-251. -/
def openBidirectional (r : HReader σ) : HExec (Res × HReader σ) := do
  use r.self
  let (res, ready, rdwr) ← r.rdwr.readControl r.ready T_READY
  let r := { r with rdwr := rdwr, ready := ready }
  if res ≠ .success then pure (res, r)
  else
    match ready with
    | none => HExec.stuck (.ub "NULL control_ready")
    | some rdy => do
      let accept ← HControl.fresh r.accept
      let (res, accept) ← accept.setType T_ACCEPT
      if res ≠ .success then pure (res, { r with accept := some accept })
      else do
        use r.vec.self
        use r.vec.arr
        let accept ← acceptLoop rdy r.vec.elems accept
        let (res, rdwr) ← r.rdwr.writeControlFrame accept
        let r := { r with accept := some accept, rdwr := rdwr }
        if res ≠ .success then pure (res, r)
        else r.openUnidirectional

/-- `fstrm_reader_open`, reader.c:253-279. -/
def «open» (r : HReader σ) : HExec (Res × HReader σ) := do
  use r.self
  if r.state = .opened then pure (.failure, r)
  else do
    let (res, rdwr) ← r.rdwr.open
    let r := { r with rdwr := rdwr }
    if res ≠ .success then pure (res, r)
    else do
      let (res, r) ← (if r.rdwr.rw.ops.wr.isSome then r.openBidirectional
        else r.openUnidirectional : HExec (Res × HReader σ))
      if res ≠ .success then pure (res, r)
      else pure (.success, { r with state := .opened })

/-- `fstrm__reader_read_be32`, reader.c:281-292. -/
def readBe32 (r : HReader σ) : HExec (Res × Nat × HReader σ) := do
  use r.self
  let (res, tmp, rdwr) ← r.rdwr.read 4
  let r := { r with rdwr := rdwr }
  if res ≠ .success then pure (res, 0, r) else pure (.success, ntohl tmp, r)

/-- The loop of `ubuf_reserve`, vector.h:80-85: the array may move in every iteration. -/
def growBuf (arr : Ptr) : (fuel alloced n need : Nat) → HExec (Ptr × Nat)
  | 0, _, _, _ => HExec.stuck .fuel
  | fuel+1, alloced, n, need =>
    if need > alloced - n then do
      let arr ← realloc arr
      growBuf arr fuel (alloced * 2) n need
    else pure (arr, alloced)

/-- `ubuf_clip(r->buf, 0); ubuf_reserve(r->buf, len)`, reader.c:316-317. -/
def reserve (r : HReader σ) (len : Nat) : HExec (HReader σ) := do
  use r.self
  use r.buf
  let n := if 0 < r.bufN then 0 else r.bufN
  let (arr, cap) ← growBuf r.bufArr (len + n + 1) r.bufCap n len
  pure { r with bufArr := arr, bufN := n, bufCap := cap }

/-- The data frame branch of `fstrm__reader_next_data`, reader.c:309-326. A delivered frame is
the pointer handed to the caller, which is the address of the buffer's array, and the bytes. -/
def dataFrame (r : HReader σ) (len : Nat) : HExec (Res × Option (Ptr × Bytes) × HReader σ) :=
  if len > r.maxFrameSize then pure (.success, none, { r with state := .failed })
  else do
    let r ← r.reserve len
    if r.bufN + len > r.bufCap then HExec.stuck (.ub "read past the end of the frame buffer")
    else do
      use r.bufArr
      let (res, bs, rdwr) ← r.rdwr.read len
      let r := { r with rdwr := rdwr }
      if res ≠ .success then pure (res, none, { r with state := .failed })
      else pure (.success, some (r.bufArr, bs), r)

/-- `fstrm__reader_next_data`, reader.c:294-354. `control_stop` is assigned without freeing the
object it may point to. -/
def nextData : Nat → HReader σ → HExec (Res × Option (Ptr × Bytes) × HReader σ)
  | 0, _ => HExec.stuck .fuel
  | fuel+1, r => do
    let (res, len, r) ← r.readBe32
    if res ≠ .success then pure (res, none, { r with state := .failed })
    else if len ≠ 0 then r.dataFrame len
    else do
      let tmp ← HControl.getD r.tmp
      let (res, tmp, type, rdwr) ← r.rdwr.readControlFrame tmp false
      let r := { r with rdwr := rdwr, tmp := some tmp }
      if res ≠ .success then pure (res, none, { r with state := .failed })
      else if type = some T_STOP then
        pure (.stop, none, { r with state := .closing, stop := some tmp, tmp := none,
                                    lost := r.lost ++ HControl.optBlocks r.stop })
      else nextData fuel r

/-- `fstrm__reader_maybe_open`, reader.c:356-368. -/
def maybeOpen (r : HReader σ) : HExec (Res × HReader σ) := do
  use r.self
  if r.state = .opening then r.open else pure (.success, r)

/-- `fstrm_reader_close`, reader.c:370-393. -/
def close (r : HReader σ) : HExec (Res × HReader σ) := do
  use r.self
  if r.state ≠ .opened ∧ r.state ≠ .closing then pure (.failure, r)
  else do
    let r := { r with state := .closed }
    if r.rdwr.rw.ops.wr.isSome then do
      let (res, rdwr) ← r.rdwr.writeControl T_FINISH
      if res ≠ .success then do
        let (_, rdwr) ← rdwr.close
        pure (res, { r with rdwr := rdwr })
      else do
        let (res, rdwr) ← rdwr.close
        pure (res, { r with rdwr := rdwr })
    else do
      let (res, rdwr) ← r.rdwr.close
      pure (res, { r with rdwr := rdwr })

/-- `fstrm_reader_read`, reader.c:395-412. -/
def read (fuel : Nat) (r : HReader σ) : HExec (Res × Option (Ptr × Bytes) × HReader σ) := do
  let (res, r) ← r.maybeOpen
  if res ≠ .success then pure (res, none, r)
  else do
    use r.self
    if r.state = .opened then nextData fuel r
    else if r.state = .closed then pure (.stop, none, r)
    else pure (.failure, none, r)

/-- `fstrm_reader_get_control`, reader.c:414-447. -/
def getControl (r : HReader σ) (type : Nat) : HExec (Res × Option HControl × HReader σ) := do
  let (res, r) ← r.maybeOpen
  if res ≠ .success then pure (res, none, r)
  else do
    use r.self
    if type = T_START then pure (.success, r.start, r)
    else if type = T_STOP then pure (.success, r.stop, r)
    else if type = T_READY then pure (.success, r.ready, r)
    else if type = T_ACCEPT then pure (.success, r.accept, r)
    else pure (.failure, none, r)

/-- `fstrm_reader_destroy`, reader.c:150-176, of a pointer that is not NULL. -/
def destroy (r : HReader σ) : HExec (Res × Rdwr σ) := do
  use r.self
  let (res, r) ← (if r.state = .opened ∨ r.state = .closing then r.close
    else pure (.failure, r) : HExec (Res × HReader σ))
  HControl.destroy r.tmp
  HControl.destroy r.accept
  HControl.destroy r.ready
  HControl.destroy r.stop
  HControl.destroy r.start
  let (_, rw) ← r.rdwr.destroy
  use r.buf
  free r.bufArr
  free r.buf
  r.vec.freeElems r.vec.elems
  r.vec.destroy
  free r.self
  pure (res, rw)

end HReader

end Fstrm
