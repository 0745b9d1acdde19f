import Verif.Model.Sock

/-!
# Model of the initialisation of the socket writers: `fstrm_unix_writer_init`
(`/repo/fstrm/unix_writer.c`) and `fstrm_tcp_writer_init` (`/repo/fstrm/tcp_writer.c`)

C strings are their characters without the terminator.
-/

set_option autoImplicit false

namespace Fstrm

/-- `isspace` in the "C" locale, used by `strtoul`. tcp_writer.c:221, fstrm_capture.c:402. -/
def isSpace (c : UInt8) : Bool := c == 32 || (9 ≤ c && c ≤ 13)

/-- Digit value as `strtoul` computes it; letters beyond `f` are values above 15 in the C library
and never digits of the bases used here, so they are left out.
tcp_writer.c:221, fstrm_capture.c:402. -/
def digit (base : Nat) (c : UInt8) : Option Nat :=
  let v := if 48 ≤ c ∧ c ≤ 57 then c.toNat - 48
    else if 97 ≤ c ∧ c ≤ 102 then c.toNat - 87
    else if 65 ≤ c ∧ c ≤ 70 then c.toNat - 55
    else base
  if v < base then some v else none

/-- The digit loop of `strtoul`: accumulates as long as there are digits; returns the number and the
rest of the string. The C library stops accumulating at overflow and remembers that; the
number is reduced to the result range in `strtoul`. tcp_writer.c:221, fstrm_capture.c:402. -/
def digits (base : Nat) : Nat → Bytes → Nat × Bytes
  | n, [] => (n, [])
  | n, c :: s =>
    match digit base c with
    | some v => digits base (n * base + v) s
    | none => (n, c :: s)

/-- Base 0 of `strtoul`: the prefix selects base 16 (if a hexadecimal digit follows), 8 or 10.
tcp_writer.c:221, fstrm_capture.c:402. -/
def strtoulBase : Bytes → Nat × Bytes
  | 48 :: x :: c :: s =>
    if (x = 120 ∨ x = 88) ∧ (digit 16 c).isSome then (16, c :: s) else (8, 48 :: x :: c :: s)
  | 48 :: s => (8, 48 :: s)
  | s => (10, s)

/-- The optional sign: whether it is a minus sign, and the rest.
tcp_writer.c:221, fstrm_capture.c:402. -/
def strtoulSign : Bytes → Bool × Bytes
  | 45 :: s => (true, s)
  | 43 :: s => (false, s)
  | s => (false, s)

/-- The C library function `strtoul(str, &endptr, 0)` (C11 7.22.1.4) for a 64-bit
`unsigned long`, called at tcp_writer.c:221; returns the value and the string at `endptr`.
White space, an optional sign, then a numeral. Without any digits the result is 0 and
`endptr` the whole string; too large numbers give `ULONG_MAX`; a minus sign negates
modulo 2^64. (The binary prefix of C23 is not modelled.) -/
def strtoul (str : Bytes) : Nat × Bytes :=
  let (neg, s) := strtoulSign (str.dropWhile isSpace)
  let (base, s) := strtoulBase s
  match s with
  | [] => (0, str)
  | c :: _ =>
    if (digit base c).isNone then (0, str)
    else
      let (n, rest) := digits base 0 s
      if n ≥ 2 ^ 64 then (2 ^ 64 - 1, rest)
      else (if neg then (2 ^ 64 - n) % 2 ^ 64 else n, rest)

/-- The port check of `fstrm__tcp_writer_fill_socket_port`, tcp_writer.c:214-224. -/
def parsePort (str : Bytes) : Option Nat :=
  let (port, endptr) := strtoul str
  if endptr ≠ [] ∨ port > 65535 then none else some port

/-- Address families. tcp_writer.c:246-254, fstrm_capture.c:408-416. -/
inductive Family where
  | inet | inet6
  deriving DecidableEq, Repr

/-- `struct sockaddr_in` or `sockaddr_in6` as far as it is filled in.
tcp_writer.c:227-260, fstrm_capture.c:396-420. -/
structure SockAddr where
  family : Family
  addr : Bytes
  port : Nat
  deriving DecidableEq, Repr

/-- `fstrm__tcp_writer_fill_socket_address`, tcp_writer.c:239-257. The C library function
`inet_pton` is the parameter `pton`. -/
def fillAddr (pton : Family → Bytes → Option Bytes) (str : Bytes) : Option (Family × Bytes) :=
  match pton .inet str with
  | some a => some (.inet, a)
  | none =>
    match pton .inet6 str with
    | some a => some (.inet6, a)
    | none => none

/-- `fstrm_tcp_writer_init`, tcp_writer.c:259-285, with the options set by tcp_writer.c:63-80
(`none` is NULL): the address the writer will connect to, and the writer. The family is
always one of the two when the port is stored (tcp_writer.c:226-236). -/
def tcpWriterInit (pton : Family → Bytes → Option Bytes) (address port : Option Bytes)
    (wopt : Option WriterOptions) (sock : Sock) : Option (SockAddr × Writer Sock) :=
  match address, port with
  | some address, some port =>
    match fillAddr pton address with
    | none => none
    | some (family, addr) =>
      match parsePort port with
      | none => none
      | some port =>
        (Writer.init wopt (Rdwr.init sockOps sock)).map fun w => (⟨family, addr, port⟩, w)
  | _, _ => none

/-- `sizeof(((struct sockaddr_un *) 0)->sun_path)` on Linux.
unix_writer.c:210, fstrm_capture.c:368. -/
abbrev SUN_PATH_SIZE : Nat := 108

/-- `strncpy(dst, src, n)` into a zeroed array of `size` bytes (unix_writer.c:213-215): the first
`n` characters, padded with zeros; the other bytes keep their value. -/
def strncpyZeroed (size n : Nat) (src : Bytes) : Bytes :=
  let copied := src.take n
  copied ++ List.replicate (size - copied.length) 0

/-- `fstrm_unix_writer_init`, unix_writer.c:200-224, with the path set by
unix_writer.c:59-66: the contents of `sun_path`, and the writer. -/
def unixWriterInit (path : Option Bytes) (wopt : Option WriterOptions) (sock : Sock) :
    Option (Bytes × Writer Sock) :=
  match path with
  | none => none
  | some path =>
    if path.length + 1 > SUN_PATH_SIZE then none
    else
      (Writer.init wopt (Rdwr.init sockOps sock)).map fun w =>
        (strncpyZeroed SUN_PATH_SIZE (SUN_PATH_SIZE - 1) path, w)

end Fstrm
