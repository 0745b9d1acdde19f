import Verif.Model.Heap
import Verif.Model.File
import Verif.Model.Addr
import Verif.Model.IothrOptions

/-!
# Memory management of transports and of the I/O thread

The options of `/repo/fstrm/file.c`, `unix_writer.c` and `tcp_writer.c`, the functions that make
readers and writers from them, and `fstrm_iothr_init` and `fstrm_iothr_destroy`, with every
allocation and deallocation; see `Verif/Model/Heap.lean` for the heap. The `destroy` methods of the
transports are in `HRdwr.destroy`: the blocks they free are the `objs` given here.
-/

set_option autoImplicit false

namespace Fstrm

/-- A string owned by an object; `none` is NULL.
file.c:27-35, unix_writer.c:32-34, tcp_writer.c:34-37. -/
abbrev HStr := Option (Ptr × Bytes)

namespace HStr

/-- The block of the string. For stating properties. -/
def blocks (s : HStr) : List Ptr := (s.map Prod.fst).toList

/-- The string. For stating properties. -/
def val (s : HStr) : Option Bytes := s.map Prod.snd

/-- `my_free` of the string. my_alloc.h:40. -/
def free (s : HStr) : HExec Unit := freeOpt (s.map Prod.fst)

/-- `my_free(field); if (str != NULL) field = my_strdup(str);`, file.c:55-58, unix_writer.c:63-65,
tcp_writer.c:67-69 and 77-79. (`my_free` sets the field to NULL.) -/
def set (s : HStr) (str : Option Bytes) : HExec HStr := do
  s.free
  match str with
  | none => pure none
  | some str => do
    let p ← alloc
    pure (some (p, str))

end HStr

/-- `struct fstrm_file_options`, file.c:27-29, and `struct fstrm_unix_writer_options`,
unix_writer.c:32-34: one string. -/
structure HPathOptions where
  self : Ptr
  path : HStr
  deriving DecidableEq, Repr

namespace HPathOptions

/-- For stating properties; file.c:27-29, unix_writer.c:32-34. -/
def blocks (o : HPathOptions) : List Ptr := o.self :: o.path.blocks

/-- `fstrm_file_options_init`, file.c:37-41; `fstrm_unix_writer_options_init`, unix_writer.c:43-47. -/
def init : HExec HPathOptions := do
  let self ← alloc
  pure ⟨self, none⟩

/-- `fstrm_file_options_set_file_path`, file.c:52-59; `fstrm_unix_writer_options_set_socket_path`,
unix_writer.c:58-66. -/
def setPath (o : HPathOptions) (str : Option Bytes) : HExec HPathOptions := do
  use o.self
  let path ← o.path.set str
  pure { o with path := path }

/-- `fstrm_file_options_destroy`, file.c:43-50; `fstrm_unix_writer_options_destroy`,
unix_writer.c:49-56, of a pointer that is not NULL. -/
def destroy (o : HPathOptions) : HExec Unit := do
  use o.self
  o.path.free
  free o.self

end HPathOptions

/-- `struct fstrm_tcp_writer_options`, tcp_writer.c:34-37. -/
structure HTcpOptions where
  self : Ptr
  address : HStr
  port : HStr
  deriving DecidableEq, Repr

namespace HTcpOptions

/-- For stating properties; tcp_writer.c:34-37. -/
def blocks (o : HTcpOptions) : List Ptr := o.self :: (o.address.blocks ++ o.port.blocks)

/-- `fstrm_tcp_writer_options_init`, tcp_writer.c:46-50. -/
def init : HExec HTcpOptions := do
  let self ← alloc
  pure ⟨self, none, none⟩

/-- `fstrm_tcp_writer_options_set_socket_address`, tcp_writer.c:62-70. -/
def setAddress (o : HTcpOptions) (str : Option Bytes) : HExec HTcpOptions := do
  use o.self
  let address ← o.address.set str
  pure { o with address := address }

/-- `fstrm_tcp_writer_options_set_socket_port`, tcp_writer.c:72-80. -/
def setPort (o : HTcpOptions) (str : Option Bytes) : HExec HTcpOptions := do
  use o.self
  let port ← o.port.set str
  pure { o with port := port }

/-- `fstrm_tcp_writer_options_destroy`, tcp_writer.c:52-60, of a pointer that is not NULL. -/
def destroy (o : HTcpOptions) : HExec Unit := do
  use o.self
  o.address.free
  o.port.free
  free o.self

end HTcpOptions

/-- The path of the options as `fileReaderInit` and `fileWriterInit` see it.
file.c:66-69, 136-140. -/
def filePath : Option Bytes → FilePath
  | none => .null
  | some s => if s = [45] then .dash else .file

/-- `fstrm__file_init`, file.c:131-150, with the `read` or `write` method set by the caller. The blocks
of the transport's object are the path and the structure, freed in this order by
`fstrm__file_op_destroy`, file.c:122-129. -/
def hFileInit (o : HPathOptions) (write : Bool) (disk : Option Bytes) (script : List Io) :
    HExec (Option (HRdwr FileSt)) := do
  use o.self
  match o.path with
  | none => pure none
  | some (p, str) => do
    let f ← alloc
    use p
    let path ← alloc
    use f
    let rdwr ← HRdwr.init (fileOps write) (FileSt.init write (filePath (some str) = .dash) disk script)
      [path, f]
    pure (some rdwr)

/-- `fstrm_file_reader_init`, file.c:152-161. -/
def hFileReaderInit (o : HPathOptions) (ropt : Option HReaderOptions) (disk : Option Bytes)
    (script : List Io) : HExec (Option (HReader FileSt)) := do
  match ← hFileInit o false disk script with
  | none => pure none
  | some rdwr => HReader.init ropt rdwr

/-- `fstrm_file_writer_init`, file.c:163-172. -/
def hFileWriterInit (o : HPathOptions) (wopt : Option HWriterOptions) (disk : Option Bytes)
    (script : List Io) : HExec (Option (HWriter FileSt)) := do
  match ← hFileInit o true disk script with
  | none => pure none
  | some rdwr => HWriter.init wopt rdwr

/-- `fstrm_unix_writer_init`, unix_writer.c:200-224. The only block of the transport's object is the
structure, freed by `fstrm__unix_writer_op_destroy`, unix_writer.c:192-198. -/
def hUnixWriterInit (o : HPathOptions) (wopt : Option HWriterOptions) (sock : Sock) :
    HExec (Option (Bytes × HWriter Sock)) := do
  use o.self
  match o.path with
  | none => pure none
  | some (p, path) => do
    use p
    if path.length + 1 > SUN_PATH_SIZE then pure none
    else do
      let uw ← alloc
      use uw
      use p
      let rdwr ← HRdwr.init sockOps sock [uw]
      let w ← HWriter.init wopt rdwr
      pure (w.map fun w => (strncpyZeroed SUN_PATH_SIZE (SUN_PATH_SIZE - 1) path, w))

/-- `fstrm_tcp_writer_init`, tcp_writer.c:259-285; `fstrm__tcp_writer_op_destroy` is tcp_writer.c:206-212. -/
def hTcpWriterInit (pton : Family → Bytes → Option Bytes) (o : HTcpOptions)
    (wopt : Option HWriterOptions) (sock : Sock) : HExec (Option (SockAddr × HWriter Sock)) := do
  use o.self
  match o.address, o.port with
  | some (pa, address), some (pp, port) => do
    let tw ← alloc
    use pa
    use tw
    match fillAddr pton address with
    | none => do
      free tw
      pure none
    | some (family, addr) => do
      use pp
      match parsePort port with
      | none => do
        free tw
        pure none
      | some port => do
        let rdwr ← HRdwr.init sockOps sock [tw]
        let w ← HWriter.init wopt rdwr
        pure (w.map fun w => (⟨family, addr, port⟩, w))
  | _, _ => pure none

variable {σ : Type}

/-- `struct fstrm_iothr`, iothr.c:68-115, as far as memory is concerned: the structure, the writer, the
array of input queues, the queues (structure and ring buffer of each, my_queue_mb.c:62-73 and
my_queue_mutex.c:65-78), and the two arrays of the output queue. -/
structure HIothr (σ : Type) where
  self : Ptr
  writer : HWriter σ
  queues : Ptr
  qs : List (Ptr × Ptr)
  iov : Ptr
  entries : Ptr

namespace HIothr

/-- For stating properties: the blocks of `struct fstrm_iothr`, iothr.c:67-115. -/
def blocks (t : HIothr σ) : List Ptr :=
  t.writer.blocks ++ [t.self, t.queues, t.iov, t.entries] ++ t.qs.flatMap fun q => [q.1, q.2]

/-- The loop creating the input queues, iothr.c:279-285. `my_queue_*_init` refuses a number of
elements that is no power of two before it allocates anything. -/
def initQueues (size : Nat) : Nat → HExec (Option (List (Ptr × Ptr)))
  | 0 => pure (some [])
  | n + 1 =>
    match Queue.init (UInt32.ofNat size) ENTRY_SIZE with
    | none => pure none
    | some _ => do
      let q ← alloc
      let data ← alloc
      match ← initQueues size n with
      | none => pure none
      | some qs => pure (some ((q, data) :: qs))

/-- Copying the options, iothr.c:243-245. -/
def fetch : Option (Ptr × IothrOptions) → HExec IothrOptions
  | none => pure IothrOptions.init
  | some (p, o) => do
    use p
    pure o

/-- `fstrm_iothr_init`, iothr.c:232-336, with given options (`none`: the default ones), which stay
with the caller; see `iothrInit` for the failures. The writer now belongs to the new object. -/
def init (opt : Option (Ptr × IothrOptions)) (clocks : Bool) (writer : HWriter σ) :
    HExec (IothrOptions × HIothr σ) := do
  let self ← alloc
  let o ← fetch opt
  let o := if o.outputQueueSize > IOV_MAX then { o with outputQueueSize := IOV_MAX } else o
  if !clocks then HExec.stuck (.ub "join of a thread that was never created")
  else do
    let queues ← alloc
    match ← initQueues o.inputQueueSize o.numInputQueues with
    | none => HExec.stuck (.ub "join of a thread that was never created")
    | some qs => do
      use queues
      let iov ← alloc
      let entries ← alloc
      use self
      pure (o, ⟨self, writer, queues, qs, iov, entries⟩)

/-- A call `f` on the writer made by the I/O thread: in `fstrm__iothr_close`,
`fstrm__iothr_flush_output` and `fstrm__iothr_maybe_open`, iothr.c:448-477 and 544-583. The arrays of
the output queue are touched in any case. -/
def call (t : HIothr σ) (f : HWriter σ → HExec (Res × HWriter σ)) : HExec (Res × HIothr σ) := do
  use t.self
  useAll [t.iov, t.entries]
  let (res, w) ← f t.writer
  pure (res, { t with writer := w })

/-- The loop destroying the queues, iothr.c:345-359: the entries left are freed by the clients' own
functions; `my_queue_mb_destroy`, my_queue_mb.c:75-83, `my_queue_mutex_destroy`,
my_queue_mutex.c:80-89. -/
def freeQueues (t : HIothr σ) : List (Ptr × Ptr) → HExec Unit
  | [] => pure ()
  | q :: qs => do
    use t.self
    use t.queues
    use q.1
    use q.2
    free q.2
    free q.1
    freeQueues t qs

/-- `fstrm_iothr_destroy`, iothr.c:361-384, after the I/O thread was joined. -/
def destroy (t : HIothr σ) : HExec (Rdwr σ) := do
  use t.self
  let (_, rw) ← t.writer.destroy
  t.freeQueues t.qs
  use t.self
  free t.queues
  free t.iov
  free t.entries
  free t.self
  pure rw

end HIothr

end Fstrm
