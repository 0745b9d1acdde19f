import Verif.Model.Sock
import Verif.Spec.Net

/-!
# A socket on which nothing goes wrong

What its peer sends arrives in pieces of any size, with any number of interruptions.
-/

set_option autoImplicit false

namespace Fstrm.Spec

/-- A socket before its first use. The first peer it connects to will send `y`; connecting, reading, sending
and closing do not fail, and no send is short. How many bytes each read returns and which calls are
interrupted is left open. -/
structure Reliable (y : Bytes) (s : Sock) : Prop where
  unused : s.connected = false ∧ s.history = []
  peer : s.peers.head? = some y
  connects : s.conn.head? ≠ some false
  reads : .fail ∉ s.reads
  sends : ∀ e ∈ s.sends, e = .all ∨ e = .intr
  closes : s.close.head? ≠ some false

/-- What the kernel took, connection by connection; the last connection may still be open. -/
def taken (s : Sock) : List Bytes := s.history ++ if s.connected then [s.out] else []

/-- Exactly the bytes `o` were sent, all on one connection. -/
def SentOnly (o : Bytes) (s : Sock) : Prop := (taken s).length ≤ 1 ∧ (taken s).flatten = o

end Fstrm.Spec
