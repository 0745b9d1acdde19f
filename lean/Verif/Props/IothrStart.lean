import Verif.Model.IothrStart
import Verif.Props.Clock

/-!
# What `fstrm_iothr_init` does when the system refuses something (C113)
-/

set_option autoImplicit false

namespace Fstrm.Props

open Fstrm

/-- The system grants all that `n` queues, with mutexes or without, and the thread ask for. -/
structure Granted (mutexQueues : Bool) (n : Nat) (p : PthreadEnv) : Prop where
  queues : mutexQueues = true → ∀ i, i < n → p.queueLock i = true
  condattrInit : p.condattrInit = true
  condInit : p.condInit = true
  condattrDestroy : p.condattrDestroy = true
  cvLock : p.cvLock = true
  getQueueLock : p.getQueueLock = true
  create : p.create = true

theorem assertC_ok {b : Bool} {why : String} {u : Unit} (h : assertC false b why = .ok u) :
    b = true := by
  unfold assertC at h
  cases b
  · cases h
  · rfl

theorem queueLocks_ok {p : PthreadEnv} {n : Nat} {u : Unit} (h : queueLocks false p n = .ok u) :
    ∀ i, i < n → p.queueLock i = true := by
  induction n generalizing u with
  | zero => intro i hi; cases hi
  | succ n ih =>
    rw [queueLocks] at h
    obtain ⟨u1, h1, h⟩ := Exec.bind_eq_ok.1 h
    intro i hi
    by_cases he : i = n
    · subst he; exact assertC_ok h
    · exact ih h1 i (by omega)

theorem queueLocks_granted {p : PthreadEnv} {n : Nat} (h : ∀ i, i < n → p.queueLock i = true) :
    queueLocks false p n = .ok () := by
  induction n with
  | zero => rfl
  | succ n ih =>
    rw [queueLocks, ih (fun i hi => h i (by omega)), Exec.ok_bind, h n (by omega)]
    rfl

/-- **C113**, in part. For all options made by the setters whose queue size is a power of two, on a
platform with a usable monotonic clock and if the system grants what is asked for, the object is
made, has a thread and the writer, and the caller's writer variable is NULL. Missing: if something
is refused, NULL is not what is returned (`iothr_start_never_null`). -/
theorem iothr_start_partial {ω : Type} (mutexQueues : Bool) (o : IothrOptions) (e : ClockEnv)
    (p : PthreadEnv) (writer : ω) (hr : Reached o) (hpow : ∃ k, o.inputQueueSize = 2 ^ k)
    (hc : ∃ c, Waitable e c) (hp : Granted mutexQueues o.numInputQueues p) :
    ∃ s, iothrStart false mutexQueues (some o) e p writer = .ok (some s, none) ∧ s.opt = o ∧
      s.writer = writer ∧ s.thread = true := by
  obtain ⟨c, ⟨hm, h1, h2⟩, h3⟩ := hc
  obtain ⟨g, hg⟩ := find_some (p := fun c => e.known c && e.gettime c) hm (by simp [h1, h2])
  obtain ⟨cp, hcp⟩ := find_some (p := fun c => e.known c && e.gettime c && e.setclock c) hm
    (by simp [h1, h2, h3])
  obtain ⟨q, _, hi⟩ := iothr_init_ok_partial o hr hpow
  have hb : bestClocks e = some (g, cp) := by
    unfold bestClocks
    rw [bestClockGettime_eq, bestClockPthread_eq, hg, hcp]
  have hs : e.setclock cp = true := by
    have := List.find?_some hcp
    simp only [Bool.and_eq_true] at this
    exact this.2
  have hl : queueLocks false p (if mutexQueues then (List.replicate o.numInputQueues q).length
      else 0) = .ok () := by
    cases hmq : mutexQueues
    · rfl
    · rw [if_pos rfl, List.length_replicate]
      exact queueLocks_granted (hp.queues hmq)
  refine ⟨⟨o, ⟨g, cp, cp⟩, writer, true⟩, ?_, rfl, rfl, rfl⟩
  unfold iothrStart
  simp only [hb, Option.isSome_some, hi, Exec.ok_bind]
  rw [hl]
  simp only [Exec.ok_bind, hp.condattrInit, hp.condInit, hp.condattrDestroy, hp.cvLock,
    hp.getQueueLock, hp.create, hs, assertC, Bool.true_or, if_true]

/-- **C113**, in part: built with assertions, an object that is returned has a thread, and everything it
asked for was granted; nothing is silently missing. -/
theorem iothr_start_complete {ω : Type} (mutexQueues : Bool) (opt : Option IothrOptions)
    (e : ClockEnv) (p : PthreadEnv) (writer : ω) (s : Started ω) (w : Option ω)
    (h : iothrStart false mutexQueues opt e p writer = .ok (some s, w)) :
    s.thread = true ∧ s.writer = writer ∧ w = none ∧
      Granted mutexQueues s.opt.numInputQueues p ∧ ∃ c, Waitable e c := by
  unfold iothrStart at h
  obtain ⟨r, h1, h⟩ := Exec.bind_eq_ok.1 h
  have hlen : ∀ o qs, r = some (o, qs) → qs.length = o.numInputQueues := by
    intro o qs hr
    subst hr
    unfold iothrInit at h1
    simp only at h1
    split at h1
    · cases h1
    · split at h1
      · cases h1
      · rename_i qs' hq
        cases h1
        have : ∀ n l, makeQueues (if (opt.getD IothrOptions.init).outputQueueSize > IOV_MAX then
            { opt.getD IothrOptions.init with outputQueueSize := IOV_MAX }
            else opt.getD IothrOptions.init).inputQueueSize n = some l → l.length = n := by
          intro n
          induction n with
          | zero => intro l hl; cases hl; rfl
          | succ n ih =>
            intro l hl
            rw [makeQueues] at hl
            split at hl
            · cases hl
            · obtain ⟨l', hl', rfl⟩ := Option.map_eq_some_iff.1 hl
              simp [ih l' hl']
        exact this _ _ hq
  cases hr : r with
  | none => rw [hr] at h; cases hb : bestClocks e <;> rw [hb] at h <;> cases h
  | some oq =>
    obtain ⟨o, qs⟩ := oq
    have hl := hlen o qs hr
    rw [hr] at h
    cases hb : bestClocks e with
    | none => rw [hb] at h; cases h
    | some gc =>
      obtain ⟨g, c⟩ := gc
      rw [hb] at h
      simp only at h
      obtain ⟨_, a1, h⟩ := Exec.bind_eq_ok.1 h
      obtain ⟨_, a2, h⟩ := Exec.bind_eq_ok.1 h
      obtain ⟨_, a3, h⟩ := Exec.bind_eq_ok.1 h
      obtain ⟨_, a4, h⟩ := Exec.bind_eq_ok.1 h
      obtain ⟨_, a5, h⟩ := Exec.bind_eq_ok.1 h
      obtain ⟨_, a6, h⟩ := Exec.bind_eq_ok.1 h
      obtain ⟨_, a7, h⟩ := Exec.bind_eq_ok.1 h
      obtain ⟨_, a8, h⟩ := Exec.bind_eq_ok.1 h
      cases h
      have hcreate := assertC_ok a8
      refine ⟨hcreate, rfl, rfl, ⟨?_, assertC_ok a2, assertC_ok a4, assertC_ok a5, assertC_ok a6,
        assertC_ok a7, hcreate⟩, ?_⟩
      · intro hmq i hi
        rw [hmq, if_pos rfl] at a1
        exact queueLocks_ok a1 i (by rw [hl]; exact hi)
      · unfold bestClocks at hb
        rw [bestClockPthread_eq] at hb
        split at hb
        · cases hb
        · split at hb
          · cases hb
          · rename_i p' hp'
            have hf := List.find?_some hp'
            have hm := List.mem_of_find?_eq_some hp'
            simp only [Bool.and_eq_true] at hf
            exact ⟨p', ⟨hm, hf.1.1, hf.1.2⟩, hf.2⟩

/-- **C113 is false**: whatever the options, the platform and the system's answers are,
`fstrm_iothr_init` never returns NULL, although that is its documented way of reporting failure. -/
theorem iothr_start_never_null {ω : Type} (ndebug mutexQueues : Bool) (opt : Option IothrOptions)
    (e : ClockEnv) (p : PthreadEnv) (writer : ω) (w : Option ω) :
    iothrStart ndebug mutexQueues opt e p writer ≠ .ok (none, w) := by
  intro h
  unfold iothrStart at h
  obtain ⟨r, h1, h⟩ := Exec.bind_eq_ok.1 h
  cases hb : bestClocks e with
  | none => rw [hb] at h1; cases h1
  | some gc =>
    obtain ⟨g, c⟩ := gc
    rw [hb] at h1 h
    cases r with
    | none =>
      unfold iothrInit at h1
      simp only at h1
      split at h1
      · cases h1
      · split at h1 <;> cases h1
    | some oq =>
      simp only at h
      obtain ⟨_, a1, h⟩ := Exec.bind_eq_ok.1 h
      obtain ⟨_, a2, h⟩ := Exec.bind_eq_ok.1 h
      obtain ⟨_, a3, h⟩ := Exec.bind_eq_ok.1 h
      obtain ⟨_, a4, h⟩ := Exec.bind_eq_ok.1 h
      obtain ⟨_, a5, h⟩ := Exec.bind_eq_ok.1 h
      obtain ⟨_, a6, h⟩ := Exec.bind_eq_ok.1 h
      obtain ⟨_, a7, h⟩ := Exec.bind_eq_ok.1 h
      obtain ⟨_, a8, h⟩ := Exec.bind_eq_ok.1 h
      cases h

/-- The system grants everything but the thread, as when the limit on the number of threads is
reached. -/
def noThread : PthreadEnv := ⟨fun _ => true, true, true, true, true, true, false⟩

/-- **C113 is false**, in a case that can happen: at the limit on the number of threads the program is
aborted; compiled without assertions, the caller gets an object without a thread and no sign of it. -/
theorem iothr_thread_limit :
    iothrStart false false none linuxClocks noThread () = .error (.abort "pthread_create") ∧
    ∃ s, iothrStart true false none linuxClocks noThread () = .ok (some s, none) ∧
      s.thread = false :=
  ⟨by decide +kernel, ⟨IothrOptions.init, ⟨.coarse, .monotonic, .monotonic⟩, (), false⟩,
    by decide +kernel, rfl⟩

/-- Non-vacuity. -/
example : Granted true 3 ⟨fun i => decide (i < 3), true, true, true, true, true, true⟩ :=
  ⟨fun _ i hi => by simp [hi], rfl, rfl, rfl, rfl, rfl, rfl⟩

example : iothrStart false true none linuxClocks
    ⟨fun i => decide (i < 1), true, true, true, true, true, true⟩ 7 =
    .ok (some ⟨IothrOptions.init, ⟨.coarse, .monotonic, .monotonic⟩, 7, true⟩, none) := by
  decide +kernel

end Fstrm.Props
