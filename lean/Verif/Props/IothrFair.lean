import Verif.Lemmas.IothrFair
import Verif.Props.Iothr

/-!
# C128: no input queue can starve another
-/

set_option autoImplicit false

namespace Fstrm.Props

open Iothr

variable {σ : Type}

theorem run_fair {s s' : Iothr σ} (as : List IoAct) (h : s.run as = .ok s') (hA : InvA s)
    (hf : Fair [] s) : Fair [] s' := by
  induction as generalizing s with
  | nil => cases h; exact hf
  | cons a as ih =>
    obtain ⟨s1, h1, h⟩ := Exec.bind_eq_ok.1 h
    have ht := step_trs h1
    have hA1 : InvA s1 := ht.inv (P := InvA) (fun _ _ h t => h.tr t) hA
    have ho : s1.opt = s.opt :=
      ht.inv (P := fun x => x.opt = s.opt) (fun _ _ h t => t.opt.trans h) rfl
    exact ih h hA1 (hf.step hA hA1 ho ht.log (step_eff h1))

/-- **C128** Let a payload `e` have been handed to the writer. Of every other input queue, the payloads that
were submitted after `e` and nevertheless handed to the writer before `e` are at most one more
than the payloads that were ahead of `e` in its own queue, and at most
`input_queue_size - 1`. This holds in every execution, whatever the other producers do. -/
theorem no_queue_starves (opt : IothrOptions) (w : Writer σ) (as : List IoAct) (s : Iothr σ)
    (h : (Iothr.init opt w).run as = .ok s) (e : Entry) (u v : List Entry)
    (hs : submits s.log = u ++ e :: v) (a b : List Entry) (hh : handed s.log = a ++ e :: b)
    (q : Nat) (hq : q ≠ e.queue) :
    ((onQueue q a).filter (· ∈ v)).length ≤ ahead s.log e + 1 ∧
    ((onQueue q a).filter (· ∈ v)).length ≤ opt.inputQueueSize - 1 := by
  have hA : InvA (Iothr.init opt w) := .init opt w
  have hf : Fair [] s := run_fair as h hA (by
    intro e u v q' hs
    simp [Iothr.init, submits] at hs)
  obtain ⟨p, h1, h2, _, h4⟩ := hf e u v q hs hq
  have := h4 a (b ++ s.outq) (by unfold taken; rw [hh]; simp)
  have ho : s.opt.inputQueueSize = opt.inputQueueSize := by
    rw [(iothr_invC h).opts]
    unfold Iothr.init
    simp only
    split <;> rfl
  omega

/-- Two producers. Queue 0 has one payload waiting; the other producer then fills queue 1 and keeps
refilling it. The payload `[9]` of queue 0, submitted third, is handed over after
two later payloads of queue 1. -/
def fairActs : List IoAct :=
  ioTimes 3 10 ++ [.submit 0 0 (some [8]) true, .insert 0, .submit 0 0 (some [9]) true, .insert 0,
    .submit 1 1 (some [1]) true, .insert 1, .submit 1 1 (some [2]) true, .insert 1,
    .submit 1 1 (some [3]) true, .insert 1] ++ ioTimes 3 10 ++
  [.submit 1 1 (some [4]) true, .insert 1] ++ ioTimes 3 10 ++
  [.submit 1 1 (some [5]) true, .insert 1, .shutdown] ++ ioTimes 40 20 ++ [.finish]

/-- The bounds are met in a concrete execution: `[9]` has one payload ahead of it and is overtaken by
two payloads (of five submitted later). -/
example : ((Iothr.init twoQueues pipeWriter).run fairActs).map
    (fun s => ((submits s.log).map Entry.data, (handed s.log).map Entry.data,
      ahead s.log ⟨1, 0, [9], true⟩)) =
    .ok ([[8], [9], [1], [2], [3], [4], [5]], [[1], [8], [2], [9], [3], [4], [5]], 1) := by
  decide +kernel

end Fstrm.Props
