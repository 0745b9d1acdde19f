import Verif.Model.IothrOptions
import Verif.Spec.OptionRange
import Verif.Model.Reader
import Verif.Props.Queue

/-!
# Properties of options (C35, C36)
-/

set_option autoImplicit false

namespace Fstrm.Props

open Fstrm
open Fstrm.Spec (OptName Documented documentedDefault)

/-- The setter of each option. -/
def setOpt : OptName → IothrOptions → Nat → Res × IothrOptions
  | .bufferHint => IothrOptions.setBufferHint
  | .flushTimeout => IothrOptions.setFlushTimeout
  | .inputQueueSize => IothrOptions.setInputQueueSize
  | .numInputQueues => IothrOptions.setNumInputQueues
  | .outputQueueSize => IothrOptions.setOutputQueueSize
  | .queueModel => IothrOptions.setQueueModel
  | .notifyThreshold => IothrOptions.setNotifyThreshold
  | .reopenInterval => IothrOptions.setReopenInterval

/-- The value of each option. -/
def getOpt : OptName → IothrOptions → Nat
  | .bufferHint => IothrOptions.bufferHint
  | .flushTimeout => IothrOptions.flushTimeout
  | .inputQueueSize => IothrOptions.inputQueueSize
  | .numInputQueues => IothrOptions.numInputQueues
  | .outputQueueSize => IothrOptions.outputQueueSize
  | .queueModel => IothrOptions.queueModel
  | .notifyThreshold => IothrOptions.notifyThreshold
  | .reopenInterval => IothrOptions.reopenInterval

/-- **C35**, effect: a setter either reports success and then exactly its own option has the new
value, or reports failure and changes nothing. -/
theorem setter_effect (name : OptName) (o : IothrOptions) (v : Nat) :
    ((setOpt name o v).1 = .success ∧ getOpt name (setOpt name o v).2 = v ∧
      ∀ other, other ≠ name → getOpt other (setOpt name o v).2 = getOpt other o) ∨
    ((setOpt name o v).1 = .failure ∧ (setOpt name o v).2 = o) := by
  cases name <;>
    simp only [setOpt, IothrOptions.setBufferHint, IothrOptions.setFlushTimeout,
      IothrOptions.setInputQueueSize, IothrOptions.setNumInputQueues,
      IothrOptions.setOutputQueueSize, IothrOptions.setQueueModel, IothrOptions.setNotifyThreshold,
      IothrOptions.setReopenInterval] <;> split
  all_goals first
    | exact Or.inr ⟨rfl, rfl⟩
    | (refine Or.inl ⟨rfl, rfl, ?_⟩
       intro other ho
       cases other <;> first | rfl | exact absurd rfl ho)

/-- **C35**, range: every setter but that of the input queue size accepts exactly the documented
values. `_partial`: for the input queue size see `input_queue_size_iff` and
`input_queue_size_wrong`. -/
theorem setter_range_partial (name : OptName) (o : IothrOptions) (v : Nat)
    (hn : name ≠ .inputQueueSize) :
    (setOpt name o v).1 = .success ↔ Documented name v := by
  cases name <;>
    simp only [setOpt, IothrOptions.setBufferHint, IothrOptions.setFlushTimeout,
      IothrOptions.setInputQueueSize, IothrOptions.setNumInputQueues,
      IothrOptions.setOutputQueueSize, IothrOptions.setQueueModel, IothrOptions.setNotifyThreshold,
      IothrOptions.setReopenInterval, Documented, IOV_MAX] <;>
    first
    | exact absurd rfl hn
    | (split <;> simp <;> omega)

/-- **C35**, defaults: new options have the documented defaults, which are documented values; a new
reader takes frames of up to 1048576 bytes. -/
theorem option_defaults :
    (∀ name, getOpt name IothrOptions.init = documentedDefault name ∧
      Documented name (getOpt name IothrOptions.init)) ∧
    ReaderOptions.init.maxFrameSize = 1048576 ∧ ReaderOptions.init.cts = [] ∧ WriterOptions.init.cts = [] := by
  refine ⟨fun name => ?_, rfl, rfl, rfl⟩
  cases name
  case inputQueueSize => exact ⟨rfl, by decide, by decide, 9, rfl⟩
  all_goals exact ⟨rfl, by simp [Documented, getOpt, IothrOptions.init]⟩

/-- The input queue size is only checked for being even; every documented value is accepted. -/
theorem input_queue_size_iff (o : IothrOptions) (v : Nat) :
    ((setOpt .inputQueueSize o v).1 = .success ↔ 2 ≤ v ∧ v ≤ 16384 ∧ v % 2 = 0) ∧
    (Documented .inputQueueSize v → (setOpt .inputQueueSize o v).1 = .success) := by
  have h : (setOpt .inputQueueSize o v).1 = .success ↔ 2 ≤ v ∧ v ≤ 16384 ∧ v % 2 = 0 := by
    simp only [setOpt, IothrOptions.setInputQueueSize]
    split <;> simp <;> omega
  refine ⟨h, ?_⟩
  rintro ⟨h1, h2, k, rfl⟩
  rw [h]
  refine ⟨h1, h2, ?_⟩
  cases k with
  | zero => simp at h1
  | succ k => rw [Nat.pow_succ]; omega

/-- **C35** is false for the input queue size: 6 is accepted although it is no power of two. -/
theorem input_queue_size_wrong :
    (setOpt .inputQueueSize IothrOptions.init 6).1 = .success ∧ ¬ Documented .inputQueueSize 6 := by
  refine ⟨by decide, ?_⟩
  rintro ⟨_, _, k, hk⟩
  have hk3 : k < 3 := by
    rcases Nat.lt_or_ge k 3 with h | h
    · exact h
    · have : 2 ^ 3 ≤ 2 ^ k := Nat.pow_le_pow_right (by omega) h
      omega
  match k, hk3, hk with
  | 0, _, hk => cases hk
  | 1, _, hk => cases hk
  | 2, _, hk => cases hk

/-- **C35** for content types of reader and writer options: at most 256 bytes are accepted, and a
refused content type leaves the options unchanged. -/
theorem content_type_option (w : WriterOptions) (r : ReaderOptions) (ct : Bytes) :
    (ct.length ≤ 256 → w.addCt ct = (.success, { w with cts := w.cts ++ [ct] }) ∧
      r.addCt ct = (.success, { r with cts := r.cts ++ [ct] })) ∧
    (256 < ct.length → w.addCt ct = (.failure, w) ∧ r.addCt ct = (.failure, r)) := by
  unfold WriterOptions.addCt ReaderOptions.addCt
  constructor
  · intro h
    rw [if_neg (by simp only [CT_LENGTH_MAX]; omega), if_neg (by simp only [CT_LENGTH_MAX]; omega)]
    exact ⟨rfl, rfl⟩
  · intro h
    rw [if_pos (by simp only [CT_LENGTH_MAX]; omega), if_pos (by simp only [CT_LENGTH_MAX]; omega)]
    exact ⟨rfl, rfl⟩

/-- **C35** for the maximum frame size of a reader. -/
theorem max_frame_size_option (r : ReaderOptions) (m : Nat) :
    (512 ≤ m ∧ m < 4294967295 → r.setMaxFrameSize m = (.success, { r with maxFrameSize := m })) ∧
    (¬(512 ≤ m ∧ m < 4294967295) → r.setMaxFrameSize m = (.failure, r)) := by
  unfold ReaderOptions.setMaxFrameSize
  constructor
  · intro h; rw [if_neg (by simp only [FRAME_LENGTH_MAX, UINT32_MAX]; omega)]
  · intro h; rw [if_pos (by simp only [FRAME_LENGTH_MAX, UINT32_MAX]; omega)]

theorem makeQueues_some (size n : Nat) (q : Queue)
    (h : Queue.init (UInt32.ofNat size) ENTRY_SIZE = some q) :
    makeQueues size n = some (List.replicate n q) := by
  induction n with
  | zero => rfl
  | succ n ih => unfold makeQueues; rw [h]; simp [ih, List.replicate_succ]

/-- Options that some sequence of setter calls, starting from the defaults, produces. -/
inductive Reached : IothrOptions → Prop where
  | init : Reached IothrOptions.init
  | set (name : OptName) (o : IothrOptions) (v : Nat) : Reached o → Reached (setOpt name o v).2

theorem reached_bounds (o : IothrOptions) (hr : Reached o) :
    2 ≤ o.inputQueueSize ∧ o.inputQueueSize ≤ 16384 ∧ o.outputQueueSize ≤ IOV_MAX := by
  induction hr with
  | init => decide
  | set name o v _ ih =>
    rcases setter_effect name o v with ⟨h1, h2, h3⟩ | ⟨_, h⟩
    · by_cases hi : name = .inputQueueSize
      · subst hi
        rw [(input_queue_size_iff o v).1] at h1
        refine ⟨?_, ?_, ?_⟩
        · rw [show (setOpt .inputQueueSize o v).2.inputQueueSize = v from h2]; exact h1.1
        · rw [show (setOpt .inputQueueSize o v).2.inputQueueSize = v from h2]; exact h1.2.1
        · rw [show (setOpt .inputQueueSize o v).2.outputQueueSize = o.outputQueueSize from
            h3 .outputQueueSize (by simp)]
          exact ih.2.2
      · have e1 : (setOpt name o v).2.inputQueueSize = o.inputQueueSize :=
          h3 .inputQueueSize (fun h => hi h.symm)
        rw [e1]
        refine ⟨ih.1, ih.2.1, ?_⟩
        by_cases ho : name = .outputQueueSize
        · subst ho
          rw [show (setOpt .outputQueueSize o v).2.outputQueueSize = v from h2]
          exact ((setter_range_partial .outputQueueSize o v (by simp)).1 h1).2
        · rw [show (setOpt name o v).2.outputQueueSize = o.outputQueueSize from
            h3 .outputQueueSize (fun h => ho h.symm)]
          exact ih.2.2
    · rw [h]; exact ih

theorem reached_queues (o : IothrOptions) (hr : Reached o) : 1 ≤ o.numInputQueues := by
  induction hr with
  | init => decide
  | set name o v _ ih =>
    rcases setter_effect name o v with ⟨h1, h2, h3⟩ | ⟨_, h⟩
    · by_cases hi : name = .numInputQueues
      · subst hi
        rw [show (setOpt .numInputQueues o v).2.numInputQueues = v from h2]
        exact (setter_range_partial .numInputQueues o v (by simp)).1 h1
      · rw [show (setOpt name o v).2.numInputQueues = o.numInputQueues from
          h3 .numInputQueues (fun h => hi h.symm)]
        exact ih
    · rw [h]; exact ih

/-- **C36**, as far as it is true: for all options produced by the setters in which the input queue
size is a power of two, initialisation succeeds, with the requested number of empty queues
of the requested size. -/
theorem iothr_init_ok_partial (o : IothrOptions) (hr : Reached o)
    (hpow : ∃ k, o.inputQueueSize = 2 ^ k) :
    ∃ q, Queue.init (UInt32.ofNat o.inputQueueSize) ENTRY_SIZE = some q ∧
      iothrInit (some o) true = .ok (some (o, List.replicate o.numInputQueues q)) := by
  have hb := reached_bounds o hr
  obtain ⟨k, hk⟩ := hpow
  have hsz : (UInt32.ofNat o.inputQueueSize).toNat = o.inputQueueSize := by
    rw [UInt32.toNat_ofNat']; omega
  have hq : (Queue.init (UInt32.ofNat o.inputQueueSize) ENTRY_SIZE).isSome = true := by
    rw [queue_init_iff]
    refine ⟨k, ?_, ?_⟩
    · rcases Nat.eq_zero_or_pos k with rfl | h
      · simp at hk; omega
      · exact h
    · refine ⟨?_, by rw [hsz]; exact hk⟩
      rcases Nat.lt_or_ge 31 k with h | h
      · have : 2 ^ 32 ≤ 2 ^ k := Nat.pow_le_pow_right (by omega) h
        omega
      · exact h
  obtain ⟨q, hq⟩ := Option.isSome_iff_exists.1 hq
  refine ⟨q, hq, ?_⟩
  unfold iothrInit
  simp only [Option.getD_some, Bool.not_true, Bool.false_eq_true, if_false]
  rw [if_neg (by omega), makeQueues_some _ _ q hq]

/-- **C36** without options: initialisation succeeds, with one empty queue for 511 entries. -/
theorem iothr_init_default :
    ∃ q, Queue.init 512 ENTRY_SIZE = some q ∧ iothrInit none true = .ok (some (IothrOptions.init, [q])) := by
  obtain ⟨q, h1, h2⟩ := iothr_init_ok_partial IothrOptions.init .init ⟨9, rfl⟩
  exact ⟨q, h1, h2⟩

/-- Hypotheses met by options with five queues of size 1024. -/
example : Reached (setOpt .inputQueueSize (setOpt .numInputQueues IothrOptions.init 5).2 1024).2 ∧
    (setOpt .inputQueueSize (setOpt .numInputQueues IothrOptions.init 5).2 1024).2.inputQueueSize
      = 2 ^ 10 := ⟨.set _ _ _ (.set _ _ _ .init), by decide⟩

/-- **C36** is false: with the accepted input queue size 6, initialisation is undefined behaviour. -/
theorem iothr_init_ub :
    Reached (setOpt .inputQueueSize IothrOptions.init 6).2 ∧
    iothrInit (some (setOpt .inputQueueSize IothrOptions.init 6).2) true =
      .error (.ub "join of a thread that was never created") :=
  ⟨.set _ _ _ .init, by decide +kernel⟩

/-- **C36** is false in general for input queue sizes that are no power of two: for all options the
setters produce with such a size, whatever the other options are, initialisation is undefined
behaviour; and for all options whatsoever if there is no monotonic clock. -/
theorem iothr_init_ub_all :
    (∀ o, Reached o → (¬ ∃ k, o.inputQueueSize = 2 ^ k) →
      iothrInit (some o) true = .error (.ub "join of a thread that was never created")) ∧
    (∀ o, iothrInit o false = .error (.ub "join of a thread that was never created")) := by
  refine ⟨?_, fun o => rfl⟩
  intro o hr hpow
  have hb := reached_bounds o hr
  have hn := reached_queues o hr
  have hsz : (UInt32.ofNat o.inputQueueSize).toNat = o.inputQueueSize := by
    rw [UInt32.toNat_ofNat']; omega
  have hq : Queue.init (UInt32.ofNat o.inputQueueSize) ENTRY_SIZE = none := by
    cases h : Queue.init (UInt32.ofNat o.inputQueueSize) ENTRY_SIZE with
    | none => rfl
    | some q =>
      have h2 : (Queue.init (UInt32.ofNat o.inputQueueSize) ENTRY_SIZE).isSome = true := by rw [h]; rfl
      rw [queue_init_iff] at h2
      obtain ⟨k, _, _, hk⟩ := h2
      rw [hsz] at hk
      exact absurd ⟨k, hk⟩ hpow
  unfold iothrInit
  simp only [Option.getD_some, Bool.not_true, Bool.false_eq_true, if_false]
  rw [if_neg (by omega)]
  obtain ⟨n, hn⟩ : ∃ n, o.numInputQueues = n + 1 := ⟨o.numInputQueues - 1, by omega⟩
  rw [hn]
  unfold makeQueues
  rw [hq]

end Fstrm.Props
