/-!
# Where the members of allocated objects lie

The structures which fstrm allocates with `my_calloc` and `my_malloc`, for any platform. The rules for placing members
are those of the usual C ABIs: each member at the next multiple of its alignment, the whole structure aligned as
strictly as its members need and padded to a multiple of that.
-/

set_option autoImplicit false

namespace Fstrm

/-- What `sizeof` and `_Alignof` say about a type. Not in the code: the platform. -/
structure CType where
  size : Nat
  align : Nat
  deriving DecidableEq, Repr

namespace CType

/-- The next multiple of `a`. Not in the code: the compiler. -/
def pad (n a : Nat) : Nat := (n + a - 1) / a * a

/-- The offsets of members, from `n` on. Not in the code: the compiler. -/
def offsets : Nat → List CType → List Nat
  | _, [] => []
  | n, t :: ts => pad n t.align :: offsets (pad n t.align + t.size) ts

/-- The end of the last member. Not in the code: the compiler. -/
def finish : Nat → List CType → Nat
  | n, [] => n
  | n, t :: ts => finish (pad n t.align + t.size) ts

/-- The alignment which all members need. For powers of two this is the greatest one.
Not in the code: the compiler. -/
def alignOf : List CType → Nat
  | [] => 1
  | t :: ts => Nat.lcm t.align (alignOf ts)

/-- A structure as a type. Not in the code: the compiler. -/
def struct (ts : List CType) : CType := ⟨pad (finish 0 ts) (alignOf ts), alignOf ts⟩

/-- `__attribute__((aligned(a)))`, my_queue_mutex.c:35-39. -/
def aligned (a : Nat) (t : CType) : CType := ⟨t.size, Nat.lcm t.align a⟩

end CType

open CType

/-- The types of a platform that occur in the structures. Not in the code. Pointers to
functions are like pointers to data, and enumerations like `unsigned`. -/
structure Abi where
  pointer : CType
  unsigned : CType
  bool : CType
  uint32 : CType
  size : CType
  time : CType
  thread : CType
  mutex : CType
  cond : CType
  clockid : CType
  sockaddrUn : CType
  sockaddrStorage : CType
  socklen : CType

namespace Abi

variable (m : Abi)

/-- `struct fstrm_control`, control.c:26-29. -/
def control : List CType := [m.unsigned, m.pointer]

/-- `fs_buf`, fstrm-private.h:71-74. -/
def buf : List CType := [m.size, m.pointer]

/-- The structure of `VECTOR_GENERATE`, vector.h:29-34. -/
def vector : List CType := [m.pointer, m.pointer, m.size, m.size, m.size]

/-- `struct fstrm_rdwr_ops`, fstrm-private.h:138-144. -/
def rdwrOps : List CType := [m.pointer, m.pointer, m.pointer, m.pointer, m.pointer]

/-- `struct fstrm_rdwr`, fstrm-private.h:146-150. -/
def rdwr : List CType := [struct m.rdwrOps, m.pointer, m.bool]

/-- `struct fstrm_file_options`, file.c:27-29. -/
def fileOptions : List CType := [m.pointer]

/-- `struct fstrm__file`, file.c:31-35; a `char` takes one byte. -/
def file : List CType := [m.pointer, m.pointer, ⟨2, 1⟩]

/-- `struct fstrm_unix_writer_options`, unix_writer.c:33-35. -/
def unixOptions : List CType := [m.pointer]

/-- `struct fstrm__unix_writer`, unix_writer.c:37-41. -/
def unixWriter : List CType := [m.bool, m.unsigned, m.sockaddrUn]

/-- `struct fstrm_tcp_writer_options`, tcp_writer.c:34-37. -/
def tcpOptions : List CType := [m.pointer, m.pointer]

/-- `struct fstrm__tcp_writer`, tcp_writer.c:39-44. -/
def tcpWriter : List CType := [m.bool, m.unsigned, m.sockaddrStorage, m.socklen]

/-- `struct fstrm_writer_options`, writer.c:36-38. -/
def writerOptions : List CType := [m.pointer]

/-- `struct fstrm_writer`, writer.c:40-51. -/
def writer : List CType :=
  [m.unsigned, m.pointer, m.pointer, m.pointer, m.pointer, m.pointer, m.pointer, m.pointer, m.pointer]

/-- `struct iovec` of POSIX, allocated in writer.c:119 and iothr.c:296. -/
def iovec : List CType := [m.pointer, m.size]

/-- The elements of `be32_lens`, writer.c:120. -/
def be32 : List CType := [m.uint32]

/-- `struct fstrm_reader`, reader.c:36-47. -/
def reader : List CType :=
  [m.unsigned, m.pointer, m.size, m.pointer, m.pointer, m.pointer, m.pointer, m.pointer, m.pointer, m.pointer]

/-- `struct fstrm_reader_options`, reader.c:49-52. -/
def readerOptions : List CType := [m.pointer, m.size]

/-- `struct fstrm_iothr_options`, iothr.c:29-38. -/
def iothrOptions : List CType := List.replicate 8 m.unsigned

/-- `struct fstrm_iothr_queue`, iothr.c:51-53. -/
def iothrQueue : List CType := [m.pointer]

/-- `struct fstrm__iothr_queue_entry`, iothr.c:55-65. -/
def entry : List CType := [m.pointer, m.pointer, m.pointer, m.uint32]

/-- `struct fstrm_iothr`, iothr.c:67-115. -/
def iothr : List CType :=
  [m.thread, struct m.iothrOptions, m.pointer, m.pointer, m.bool, m.time, m.pointer, m.bool, m.clockid, m.clockid,
    m.cond, m.mutex, m.mutex, m.unsigned, m.unsigned, m.pointer, m.pointer, m.unsigned]

/-- `struct my_queue`, my_queue_mb.c:54-60. -/
def queueMb : List CType := [m.pointer, m.unsigned, m.unsigned, m.unsigned, m.unsigned]

/-- `struct my_queue`, my_queue_mutex.c:35-48; `gnuc`: is `__GNUC__` defined? -/
def queueMutex (gnuc : Bool) : List CType :=
  [m.pointer, m.unsigned, m.unsigned, m.unsigned, m.unsigned, if gnuc then m.mutex.aligned 64 else m.mutex]

/-- `struct conn`, fstrm_capture.c:85-98. -/
def conn : List CType :=
  [m.pointer, m.unsigned, m.uint32, m.uint32, m.size, m.size, m.size, m.size, m.pointer, m.pointer, m.pointer, m.pointer]

/-- Everything that is allocated other than strings and the queue with a mutex: control.c:65, rdwr.c:31, file.c:40 and
140, unix_writer.c:46 and 213, tcp_writer.c:49 and 269, writer.c:56, 100, 119 and 120, reader.c:62 and 125, iothr.c:121, 242,
286, 296 and 298, my_queue_mb.c:68, vector.h:40 and 43, fstrm_capture.c:221. -/
def objects : List (List CType) :=
  [m.control, m.buf, m.vector, m.rdwr, m.fileOptions, m.file, m.unixOptions, m.unixWriter, m.tcpOptions, m.tcpWriter,
    m.writerOptions, m.writer, m.iovec, m.be32, m.reader, m.readerOptions, m.iothrOptions, m.iothrQueue, m.entry, m.iothr,
    m.queueMb, m.conn]

end Abi
end Fstrm
