import Verif.Model.Clock
import Verif.Props.Options

/-!
# The clocks of the I/O thread (C82)
-/

set_option autoImplicit false

namespace Fstrm.Props

open Fstrm

/-- The monotonic clocks, the cheapest to read first. -/
def monotonicClocks : List Clock := [.coarse, .raw, .fast, .monotonic]

/-- A monotonic clock of this platform that can be read. -/
def Readable (e : ClockEnv) (c : Clock) : Prop :=
  c ∈ monotonicClocks ∧ e.known c = true ∧ e.gettime c = true

/-- A monotonic clock of this platform that can be read and waited for. -/
def Waitable (e : ClockEnv) (c : Clock) : Prop := Readable e c ∧ e.setclock c = true

/-- `c` is the first clock with the given property. -/
def First (ok : Clock → Prop) (c : Clock) : Prop :=
  ok c ∧ ∃ before after, monotonicClocks = before ++ c :: after ∧ ∀ d ∈ before, ¬ ok d

theorem bestClockGettime_eq (e : ClockEnv) :
    bestClockGettime e = monotonicClocks.find? fun c => e.known c && e.gettime c := by
  unfold bestClockGettime monotonicClocks
  simp only [List.find?_cons, List.find?_nil]
  repeat' split
  all_goals simp_all

theorem bestClockPthread_eq (e : ClockEnv) :
    bestClockPthread e = monotonicClocks.find? fun c => e.known c && e.gettime c && e.setclock c := by
  unfold bestClockPthread monotonicClocks
  simp only [List.find?_cons, List.find?_nil]
  repeat' split
  all_goals simp_all

theorem first_of_find {ok : Clock → Prop} {p : Clock → Bool}
    (h : ∀ c, c ∈ monotonicClocks → (p c = true ↔ ok c)) {c : Clock}
    (hf : monotonicClocks.find? p = some c) : First ok c := by
  obtain ⟨h1, as, bs, h2, h3⟩ := List.find?_eq_some_iff_append.1 hf
  refine ⟨(h c (by rw [h2]; simp)).1 h1, as, bs, h2, ?_⟩
  intro d hd hok
  have := h3 d hd
  rw [(h d (by rw [h2]; simp [hd])).2 hok] at this
  cases this

/-- **C82**, the choice: a thread that was started uses for the reopen interval the first monotonic
clock that can be read, and for the flush timeout the first one that can be read and waited for; the
deadline of a wait is computed with the clock that the wait goes by; reading these clocks does not
fail an assertion. -/
theorem iothr_clocks (opt : Option IothrOptions) (e : ClockEnv) (r : IothrOptions × List Queue)
    (c : IothrClocks) (h : iothrInitClocks opt e = .ok (some r, some c)) :
    First (Readable e) c.reopen ∧ First (Waitable e) c.deadline ∧ c.wait = c.deadline ∧
      readClock e c.reopen = .ok () ∧ readClock e c.deadline = .ok () := by
  unfold iothrInitClocks at h
  obtain ⟨r1, h1, h⟩ := Exec.bind_eq_ok.1 h
  unfold bestClocks at h
  rw [bestClockGettime_eq, bestClockPthread_eq] at h
  cases hg : monotonicClocks.find? (fun c => e.known c && e.gettime c) with
  | none => rw [hg] at h; cases r1 <;> simp at h
  | some g =>
    rw [hg] at h
    cases hp : monotonicClocks.find? (fun c => e.known c && e.gettime c && e.setclock c) with
    | none => rw [hp] at h; cases r1 <;> simp at h
    | some p =>
      rw [hp] at h
      cases r1 with
      | none => simp at h
      | some r1 =>
        simp only at h
        split at h
        · cases h
        · cases h
          have f1 : First (Readable e) g :=
            first_of_find (fun c hc => by simp [Readable, hc]) hg
          have f2 : First (Waitable e) p :=
            first_of_find (fun c hc => by simp [Waitable, Readable, hc]) hp
          refine ⟨f1, f2, rfl, ?_, ?_⟩
          · unfold readClock; rw [if_pos f1.1.2.2]
          · unfold readClock; rw [if_pos f2.1.1.2.2]

theorem find_some {p : Clock → Bool} {c : Clock} (hc : c ∈ monotonicClocks) (h : p c = true) :
    ∃ d, monotonicClocks.find? p = some d := by
  cases hf : monotonicClocks.find? p with
  | some d => exact ⟨d, rfl⟩
  | none => exact absurd h (by simpa using List.find?_eq_none.1 hf c hc)

/-- **C82**, existence, in part: if there is a monotonic clock that can be read and waited for, then
with all options made by the setters whose queue size is a power of two, initialisation finds clocks, and
no assertion fails. Missing: without such a clock, initialisation does not return NULL but is
undefined behaviour (`iothr_no_clock_ub`). -/
theorem iothr_clocks_exist_partial (o : IothrOptions) (e : ClockEnv) (hr : Reached o)
    (hpow : ∃ k, o.inputQueueSize = 2 ^ k) (hc : ∃ c, Waitable e c) :
    ∃ r c, iothrInitClocks (some o) e = .ok (some r, some c) := by
  obtain ⟨c, ⟨hm, h1, h2⟩, h3⟩ := hc
  obtain ⟨g, hg⟩ := find_some (p := fun c => e.known c && e.gettime c) hm (by simp [h1, h2])
  obtain ⟨p, hp⟩ := find_some (p := fun c => e.known c && e.gettime c && e.setclock c) hm
    (by simp [h1, h2, h3])
  obtain ⟨q, _, hi⟩ := iothr_init_ok_partial o hr hpow
  have hb : bestClocks e = some (g, p) := by
    unfold bestClocks
    rw [bestClockGettime_eq, bestClockPthread_eq, hg, hp]
  have hs : e.setclock p = true := by
    have := List.find?_some hp
    simp only [Bool.and_eq_true] at this
    exact this.2
  unfold iothrInitClocks
  rw [hb]
  simp only [Option.isSome_some]
  rw [hi]
  simp only [Exec.ok_bind, hs, Bool.not_true, Bool.false_eq_true, if_false]
  exact ⟨_, _, rfl⟩

/-- **C82 is false** on a platform on which no monotonic clock can be both read and waited for: with
any options, initialisation is undefined behaviour. -/
theorem iothr_no_clock_ub (opt : Option IothrOptions) (e : ClockEnv) (hc : ¬ ∃ c, Waitable e c) :
    iothrInitClocks opt e = .error (.ub "join of a thread that was never created") := by
  have hp : monotonicClocks.find? (fun c => e.known c && e.gettime c && e.setclock c) = none := by
    rw [List.find?_eq_none]
    intro c hm h
    simp only [Bool.and_eq_true] at h
    exact hc ⟨c, ⟨hm, h.1.1, h.1.2⟩, h.2⟩
  have hb : bestClocks e = none := by
    unfold bestClocks
    rw [bestClockPthread_eq, hp]
    cases bestClockGettime e <;> rfl
  unfold iothrInitClocks
  rw [hb]
  rfl

/-- Linux: the coarse clock can be read, but only the real-time and the monotonic clocks can be waited
for. -/
def linuxClocks : ClockEnv :=
  ⟨fun c => c != .fast, fun c => c != .fast, fun c => c == .monotonic || c == .realtime⟩

example : Waitable linuxClocks .monotonic := ⟨⟨by decide, rfl, rfl⟩, rfl⟩

example : (iothrInitClocks none linuxClocks).map (fun x => x.2) =
    .ok (some ⟨.coarse, .monotonic, .monotonic⟩) := by decide +kernel

example : ¬ ∃ c, Waitable ⟨fun _ => true, fun c => c == .realtime, fun c => c == .realtime⟩ c := by
  rintro ⟨c, ⟨hm, _, h⟩, _⟩
  revert hm h
  cases c <;> decide

end Fstrm.Props
