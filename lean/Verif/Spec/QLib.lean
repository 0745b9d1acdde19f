import Verif.Spec.QNet

/-! # What a reader gets from a program with an I/O thread over queues in memory -/

set_option autoImplicit false

namespace Fstrm.Spec

/-- What the reader gets from a program that has ended as `e`, by the submit calls: `es` has no payload
twice and has every payload for which submit had returned success before destroy was called; of what one
thread submitted to one queue it has these payloads, and otherwise only payloads for which submit returned
success, in the order of submission. -/
structure QDelivered (e : QEnd) (es : List Entry) : Prop where
  nodup : es.Nodup
  all : ∀ x ∈ e.done, x ∈ es
  early : ∀ q t, (e.mine q t e.done).Sublist (e.mine q t es)
  only : ∀ q t, (e.mine q t es).Sublist (e.mine q t e.rets)

end Fstrm.Spec
