/-!
# The documented option ranges (`/repo/fstrm/iothr.h:88-303`, `/repo/fstrm/reader.h`)
-/

set_option autoImplicit false

namespace Fstrm.Spec

/-- The options of an I/O thread. -/
inductive OptName where
  | bufferHint | flushTimeout | inputQueueSize | numInputQueues | outputQueueSize | queueModel
  | notifyThreshold | reopenInterval
  deriving DecidableEq, Repr

/-- Values the documentation allows; `IOV_MAX` is 1024. Queue models are numbered from 0. -/
def Documented : OptName → Nat → Prop
  | .bufferHint, v => 1024 ≤ v ∧ v ≤ 65536
  | .flushTimeout, v => 1 ≤ v ∧ v ≤ 600
  | .inputQueueSize, v => 2 ≤ v ∧ v ≤ 16384 ∧ ∃ k, v = 2 ^ k
  | .numInputQueues, v => 1 ≤ v
  | .outputQueueSize, v => 2 ≤ v ∧ v ≤ 1024
  | .queueModel, v => v = 0 ∨ v = 1
  | .notifyThreshold, v => 1 ≤ v
  | .reopenInterval, v => 1 ≤ v ∧ v ≤ 600

/-- The documented defaults. -/
def documentedDefault : OptName → Nat
  | .bufferHint => 8192
  | .flushTimeout => 1
  | .inputQueueSize => 512
  | .numInputQueues => 1
  | .outputQueueSize => 64
  | .queueModel => 0
  | .notifyThreshold => 32
  | .reopenInterval => 5

end Fstrm.Spec
