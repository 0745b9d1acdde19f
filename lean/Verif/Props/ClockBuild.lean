import Verif.Model.ClockBuild
import Verif.Props.Clock
import Verif.Props.Iothr

/-!
# Timeouts are elapsed time (C117)
-/

set_option autoImplicit false

namespace Fstrm.Props

open Fstrm Fstrm.Iothr Fstrm.Spec

/-- The monotonic clocks run with elapsed time: each shows the time elapsed since some instant, as of at
most `g` nanoseconds ago (its resolution). Nothing is said about the real-time clock, which can be
set. -/
def Steady (shows : Shows) (g : Int) : Prop :=
  0 ≤ g ∧ ∀ c, c ∈ monotonicClocks → ∃ k, ∀ t, t + k - g ≤ shows c t ∧ shows c t ≤ t + k

/-- In the build with both functions nothing changes. -/
theorem build_full (opt : Option IothrOptions) (e : ClockEnv) :
    iothrInitBuild opt ⟨true, true⟩ e = iothrInitClocks opt e := by
  unfold iothrInitBuild iothrInitClocks buildClocks bestClocks
  simp only [if_true, Bool.true_and]
  cases bestClockGettime e with
  | none => rfl
  | some g =>
    cases bestClockPthread e with
    | none => rfl
    | some p =>
      simp only [Option.isSome_some]
      congr 1
      funext r
      cases r <;> rfl

/-- **C82**, for all builds: the deadline of a wait is always computed with the clock that the wait goes by, and
the clocks used can be read. `clock_gettime` is assumed to work for the real-time clock, as POSIX
demands. -/
theorem build_clocks (opt : Option IothrOptions) (b : Build) (e : ClockEnv)
    (r : IothrOptions × List Queue) (c : IothrClocks) (hreal : e.gettime .realtime = true)
    (h : iothrInitBuild opt b e = .ok (some r, some c)) :
    c.wait = c.deadline ∧ readClockIn b e c.reopen = .ok () ∧ readClockIn b e c.deadline = .ok () ∧
    (b.gettime = true → First (Readable e) c.reopen) ∧
    (b.gettime = true → b.setclock = true → First (Waitable e) c.wait) ∧
    (b.gettime = false ∨ b.setclock = false → c.wait = .realtime) ∧
    (b.gettime = false → c.reopen = .realtime) := by
  obtain ⟨bg, bs⟩ := b
  cases bg with
  | false =>
    unfold iothrInitBuild buildClocks at h
    simp only [Bool.false_eq_true, if_false, Bool.false_and] at h
    obtain ⟨r1, h1, h⟩ := Exec.bind_eq_ok.1 h
    cases r1 with
    | none => cases h
    | some r1 =>
      cases h
      exact ⟨rfl, rfl, rfl, (by intro h; cases h), (by intro h; cases h), fun _ => rfl, fun _ => rfl⟩
  | true =>
    cases bs with
    | true =>
      rw [build_full] at h
      obtain ⟨h1, h2, h3, h4, h5⟩ := iothr_clocks opt e r c h
      exact ⟨h3, h4, h5, fun _ => h1, fun _ _ => h3 ▸ h2, (by rintro (h | h) <;> cases h),
        (by intro h; cases h)⟩
    | false =>
      unfold iothrInitBuild buildClocks at h
      simp only [if_true, Bool.false_eq_true, if_false, Bool.and_false, Bool.false_and] at h
      obtain ⟨r1, h1, h⟩ := Exec.bind_eq_ok.1 h
      rw [bestClockGettime_eq] at h
      cases hg : monotonicClocks.find? (fun c => e.known c && e.gettime c) with
      | none => rw [hg] at h; cases r1 <;> cases h
      | some g =>
        rw [hg] at h
        cases r1 with
        | none => cases h
        | some r1 =>
          cases h
          have f1 : First (Readable e) g := first_of_find (fun c hc => by simp [Readable, hc]) hg
          refine ⟨rfl, ?_, ?_, fun _ => f1, (by intro _ h; cases h), fun _ => rfl, (by intro h; cases h)⟩
          · simp only [readClockIn, if_true, readClock]; rw [if_pos f1.1.2.2]
          · simp only [readClockIn, if_true, readClock]; rw [if_pos hreal]

/-- There is a first number with a property if some number above has it. -/
theorem int_least (p : Int → Prop) (t u : Int) (htu : t ≤ u) (hu : p u) :
    ∃ v, t ≤ v ∧ v ≤ u ∧ p v ∧ ∀ w, t ≤ w → w < v → ¬ p w := by
  have : ∀ n : Nat, ∀ u, t ≤ u → u - t ≤ n → p u →
      ∃ v, t ≤ v ∧ v ≤ u ∧ p v ∧ ∀ w, t ≤ w → w < v → ¬ p w := by
    intro n
    induction n with
    | zero => intro u h1 h2 h3; exact ⟨u, h1, by omega, h3, by intro w _ _; omega⟩
    | succ n ih =>
      intro u h1 h2 h3
      by_cases hex : ∃ w, t ≤ w ∧ w < u ∧ p w
      · obtain ⟨w, w1, w2, w3⟩ := hex
        obtain ⟨v, v1, v2, v3, v4⟩ := ih w w1 (by omega) w3
        exact ⟨v, v1, by omega, v3, v4⟩
      · exact ⟨u, h1, by omega, h3, fun w w1 w2 w3 => hex ⟨w, w1, w2, w3⟩⟩
  exact this (u - t).toNat u htu (by omega) hu

/-- **C117**, in part: if the library was built with `clock_gettime` and `pthread_condattr_setclock`, then
whatever happens to the real-time clock, a wait that begins at the instant `t` and that nobody ends earlier
times out, after `flush_timeout` seconds up to the resolution of the clocks. Missing: other builds
(`flush_wait_set_back`). -/
theorem flush_wait_partial (opt : Option IothrOptions) (e : ClockEnv) (r : IothrOptions × List Queue)
    (c : IothrClocks) (shows : Shows) (g t : Int) (hs : Steady shows g)
    (h : iothrInitBuild opt ⟨true, true⟩ e = .ok (some r, some c)) :
    ∃ t', TimesOut shows c (waitDeadline shows c r.1.flushTimeout t) t t' ∧
      r.1.flushTimeout * nsec - g ≤ t' - t ∧ t' - t ≤ r.1.flushTimeout * nsec + g := by
  rw [build_full] at h
  obtain ⟨_, h2, h3, _, _⟩ := iothr_clocks opt e r c h
  obtain ⟨hg, hs⟩ := hs
  obtain ⟨k, hk⟩ := hs c.deadline h2.1.1.1
  have hF : (0 : Int) ≤ r.1.flushTimeout * nsec := by simp only [nsec]; omega
  generalize hFe : (r.1.flushTimeout : Int) * nsec = F at hF
  unfold TimesOut waitDeadline
  rw [h3, hFe]
  obtain ⟨v, v1, v2, v3, v4⟩ := int_least (fun u => shows c.deadline t + F ≤ shows c.deadline u) t
    (t + F + g) (by omega) (by have := hk t; have := hk (t + F + g); omega)
  refine ⟨v, ⟨v1, v3, fun u u1 u2 => by have := v4 u u1 u2; omega⟩, ?_, by omega⟩
  have := hk t
  have := hk v
  omega

/-- **C117**, in part: if the library was built with `clock_gettime`, then in every execution of the I/O
thread, two attempts to open the output that were made at the instants `t1` and `t2` (the list has the
seconds that the clock showed, in order) are `reopen_interval` seconds apart, but for
one second and the resolution of the clock. Missing: the second (`reopen_early`) and builds without
`clock_gettime` (`reopen_set_back`). -/
theorem reopen_elapsed_partial {σ : Type} (opt : IothrOptions) (e : ClockEnv) (r : IothrOptions × List Queue)
    (c : IothrClocks) (b : Build) (hb : b.gettime = true) (shows : Shows) (g : Int) (hs : Steady shows g)
    (hreal : e.gettime .realtime = true) (hc : iothrInitBuild (some opt) b e = .ok (some r, some c))
    (w : Writer σ) (as : List IoAct) (s : Iothr σ) (h : (Iothr.init opt w).run as = .ok s) :
    (attempts s.log).Pairwise fun x y : Nat => ∀ t1 t2 : Int, shownSeconds shows c t1 = x →
      shownSeconds shows c t2 = y → (opt.reopenInterval - 1) * nsec - g < t2 - t1 := by
  obtain ⟨_, _, _, h4, _⟩ := build_clocks (some opt) b e r c hreal hc
  obtain ⟨hg, hs⟩ := hs
  obtain ⟨k, hk⟩ := hs c.reopen (h4 hb).1.1
  refine (reopen_rate opt w as s h).1.imp ?_
  intro x y hxy t1 t2 e1 e2
  have a1 := hk t1
  have a2 := hk t2
  unfold shownSeconds at e1 e2
  simp only [nsec] at *
  omega

/-- **C117 is false** by almost a second: with a clock as good as can be and `reopen_interval` 1, two attempts can
be made one nanosecond apart, at the end of a second and the beginning of the next. -/
theorem reopen_early :
    ∃ (opt : IothrOptions) (s : Iothr Pipe) (as : List IoAct), Reached opt ∧ opt.reopenInterval = 1 ∧
      (Iothr.init opt deadWriter).run as = .ok s ∧ attempts s.log = [1, 2] ∧
      Steady (fun _ t => t) 0 ∧
      shownSeconds (fun _ t => t) ⟨.coarse, .monotonic, .monotonic⟩ 1999999999 = 1 ∧
      shownSeconds (fun _ t => t) ⟨.coarse, .monotonic, .monotonic⟩ 2000000000 = 2 := by
  refine ⟨(setOpt .reopenInterval IothrOptions.init 1).2, _, [.io 1 .timeout, .io 2 .timeout],
    .set _ _ _ .init, by decide, rfl, by decide +kernel, ⟨by decide, fun _ _ => ⟨0, fun t => by simp⟩⟩,
    by decide +kernel, by decide +kernel⟩

/-- Clocks as good as can be, but the real-time clock is set back by `by` nanoseconds at the instant 0. -/
def setBack (by' : Int) : Shows := fun c t =>
  match c with
  | .realtime => if t < 0 then t + by' else t
  | _ => t

/-- **C117 is false** in builds without `clock_gettime` or `pthread_condattr_setclock`, on every platform and with
all options: a wait in which the real-time clock is set back can take any time `d` longer than
`flush_timeout`. -/
theorem flush_wait_set_back (opt : Option IothrOptions) (b : Build) (e : ClockEnv)
    (r : IothrOptions × List Queue) (c : IothrClocks) (hb : b.gettime = false ∨ b.setclock = false)
    (hreal : e.gettime .realtime = true) (h : iothrInitBuild opt b e = .ok (some r, some c))
    (hF : 0 < r.1.flushTimeout) (d : Nat) :
    Steady (setBack (d + 1)) 0 ∧
    ∀ t', TimesOut (setBack (d + 1)) c (waitDeadline (setBack (d + 1)) c r.1.flushTimeout (-1)) (-1) t' →
      r.1.flushTimeout * nsec + d < t' - -1 := by
  obtain ⟨h1, _, _, _, _, h6, _⟩ := build_clocks opt b e r c hreal h
  have hw := h6 hb
  refine ⟨⟨by decide, fun c hc => ⟨0, fun t => ?_⟩⟩, ?_⟩
  · have : setBack (d + 1) c t = t := by
      revert hc; cases c <;> simp [monotonicClocks, setBack]
    omega
  · rintro t' ⟨h2, h3, _⟩
    unfold waitDeadline at h3
    rw [← h1, hw] at h3
    simp only [setBack] at h3
    have hF : (0 : Int) < r.1.flushTimeout * nsec := by simp only [nsec]; omega
    generalize (r.1.flushTimeout : Int) * nsec = F at *
    rw [if_pos (by omega)] at h3
    split at h3 <;> omega

/-- **C117 is false** in builds without `clock_gettime`: once the real-time clock, which showed the second
`last` at the previous attempt, has been set back by `d` seconds, no further attempt is made for `d` seconds
more than `reopen_interval`, whatever the thread does meanwhile: at an instant `t` up to then the clock shows so little that opening
is left for later. -/
theorem reopen_set_back {σ : Type} (b : Build) (e : ClockEnv) (opt : Option IothrOptions)
    (r : IothrOptions × List Queue) (c : IothrClocks) (hb : b.gettime = false)
    (hreal : e.gettime .realtime = true) (h : iothrInitBuild opt b e = .ok (some r, some c))
    (s : Iothr σ) (d : Nat) (t : Int) (now : Nat) (ht0 : 0 ≤ t)
    (hlast : s.lastOpen = shownSeconds (setBack ((d + 1) * nsec)) c (-1))
    (hnow : (now : Int) = shownSeconds (setBack ((d + 1) * nsec)) c t)
    (ht : t < (s.opt.reopenInterval + d) * nsec) : s.maybeOpen now = .ok s := by
  obtain ⟨_, _, _, _, _, _, h7⟩ := build_clocks opt b e r c hreal h
  rw [shownSeconds, h7 hb] at hlast hnow
  simp only [setBack, nsec] at hlast hnow ht
  rw [if_pos (by omega)] at hlast
  rw [if_neg (by omega)] at hnow
  unfold maybeOpen
  split
  · rfl
  · rw [if_pos (by omega)]

/-- Non-vacuity: Linux, in each build. -/
example : (iothrInitBuild none ⟨true, true⟩ linuxClocks).map (fun x => x.2) =
      .ok (some ⟨.coarse, .monotonic, .monotonic⟩) ∧
    (iothrInitBuild none ⟨true, false⟩ linuxClocks).map (fun x => x.2) =
      .ok (some ⟨.coarse, .realtime, .realtime⟩) ∧
    (iothrInitBuild none ⟨false, false⟩ linuxClocks).map (fun x => x.2) =
      .ok (some ⟨.realtime, .realtime, .realtime⟩) ∧
    linuxClocks.gettime .realtime = true := by decide +kernel

/-- A coarse clock that is updated every 4 milliseconds. -/
example : Steady (fun c t => if c = .coarse then t / 4000000 * 4000000 else t + 7) 4000000 := by
  refine ⟨by decide, fun c _ => ?_⟩
  by_cases h : c = .coarse
  · exact ⟨0, fun t => by simp only [h, if_true]; omega⟩
  · exact ⟨7, fun t => by simp only [h, if_false]; omega⟩

/-- A wait in which the clock is set back by an hour does time out, later. -/
example : TimesOut (setBack 3600000000000) ⟨.realtime, .realtime, .realtime⟩
    (waitDeadline (setBack 3600000000000) ⟨.realtime, .realtime, .realtime⟩ 1 (-1)) (-1) 3600999999999 := by
  refine ⟨by decide, by decide +kernel, ?_⟩
  intro u h1 h2
  simp only [setBack, waitDeadline, nsec]
  split <;> omega

end Fstrm.Props
