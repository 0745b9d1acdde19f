import Verif.Model.CaptureMain
import Verif.Spec.Numeral

/-!
# Which options of fstrm_capture can be used, and where it should listen
-/

set_option autoImplicit false

namespace Fstrm.Spec

/-- The options make sense together: what to capture, from where and to where is given; standard
output is used only if it is not a terminal, and not with splitting; splitting needs file names that
change with time; only one kind of time is chosen. -/
structure Sensible (o : CapOpts) (tty : Bool) : Prop where
  help : o.help = false
  type : o.contentType ≠ none
  source : o.unix ≠ none ∨ o.tcp ≠ none
  port : o.tcp ≠ none → o.port ≠ none
  write : o.write ≠ none
  stdout : o.write = some [45] → tty = false ∧ o.split = 0
  time : ¬ (o.localtime = true ∧ o.gmtime = true)
  split : o.split ≠ 0 → o.localtime = true ∨ o.gmtime = true

/-- The string is read as the given port number: white space, an optional plus sign and a C numeral.
(Also the empty string, as 0, and negative numerals modulo 2^64, see C59.) -/
def PortString (str : List UInt8) (port : Nat) : Prop :=
  port < 65536 ∧ (str = [] ∧ port = 0 ∨
    ∃ ws sign body n, str = ws ++ sign ++ body ∧ (∀ c ∈ ws, IsSpace c) ∧
      (sign = [] ∨ sign = [43] ∨ sign = [45]) ∧ Numeral body n ∧
      n < 2 ^ 64 ∧ port = if sign = [45] then (2 ^ 64 - n) % 2 ^ 64 else n)

/-- The options name the address `l`: the unix path if there is one, else the internet address (read
as an IPv4 address if possible, else as an IPv6 address) and port. (An empty path names no address;
the program then listens at an address that nobody knows.) -/
def Names (pton : Family → Bytes → Option Bytes) (unix tcp port : Option Bytes) : Listen → Prop
  | .unix path => unix = some path ∧ path ≠ [] ∧ path.length < 108
  | .tcp sa => unix = none ∧ ∃ a p, tcp = some a ∧ port = some p ∧ PortString p sa.port ∧
      pton sa.family a = some sa.addr ∧ (sa.family = .inet6 → pton .inet a = none)
  | .unnamed => unix = some []
  | .abstract _ => False

/-- What has to be removed to listen at `l`: what is present at the path. -/
def toRemove (present : Bytes → Option FileKind) : Listen → List StartEv
  | .unix path => (present path).toList.map (StartEv.removed path)
  | _ => []

end Fstrm.Spec
