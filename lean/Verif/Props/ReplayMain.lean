import Verif.Model.ReplayMain
import Verif.Props.CaptureMain

/-!
# Where fstrm_replay connects to (C83)
-/

set_option autoImplicit false

namespace Fstrm.Props

open Fstrm
open Fstrm.Spec (Sensible Names PortString toRemove)

/-- Options that `argv_process` lets through: a content type is given, and exactly one of the unix path
and the internet address (fstrm_replay.c:63-84). -/
structure Given (o : ReplayOpts) : Prop where
  type : o.contentType ≠ none
  one : o.unix ≠ none ∧ o.tcp = none ∨ o.unix = none ∧ o.tcp ≠ none

theorem target_iff (o : ReplayOpts) (pton : Family → Bytes → Option Bytes) (ct : Bytes) (sock : Sock)
    (h0 : ∀ p, o.unix = some p → (0 : UInt8) ∉ p ∧ p ≠ []) (hct : ct.length ≤ 256)
    (hg : o.unix = none → o.tcp ≠ none ∧ o.port ≠ none) :
    ∃ r, o.target pton ct sock = .ok r ∧ ∀ l, (∃ w, r = some (l, w)) ↔ Names pton o.unix o.tcp o.port l := by
  have hadd : WriterOptions.init.addCt ct = (.success, ⟨[ct]⟩) := by
    unfold WriterOptions.addCt
    rw [if_neg (by simp only [CT_LENGTH_MAX]; omega)]
    rfl
  have hw : Writer.init (some ⟨[ct]⟩) (Rdwr.init sockOps sock) ≠ none := by
    intro h; cases h
  obtain ⟨w, hw⟩ := Option.ne_none_iff_exists'.1 hw
  unfold ReplayOpts.target
  rw [hadd]
  simp only [ne_eq, not_true_eq_false, if_false]
  cases hu : o.unix with
  | some path =>
    refine ⟨_, rfl, ?_⟩
    intro l
    unfold unixWriterInit
    simp only
    by_cases hl : path.length + 1 > SUN_PATH_SIZE
    · rw [if_pos hl]
      simp only [gt_iff_lt, SUN_PATH_SIZE] at hl
      constructor
      · rintro ⟨w, h⟩; cases h
      · intro h
        cases l with
        | unix p => obtain ⟨h1, _, h2⟩ := h; cases h1; omega
        | tcp sa => obtain ⟨h1, _⟩ := h; cases h1
        | unnamed => cases h; simp at hl
        | abstract n => exact absurd h (by simp [Names])
    · rw [if_neg hl, hw]
      have hl' : path.length < 108 := by simp only [gt_iff_lt, SUN_PATH_SIZE] at hl; omega
      simp only [Option.map_some]
      unfold sunAddress
      rw [cString_strncpy (h0 path hu).1 hl', if_neg (h0 path hu).2]
      constructor
      · rintro ⟨w', h⟩
        cases h
        exact ⟨rfl, (h0 path hu).2, hl'⟩
      · intro h
        cases l with
        | unix p => obtain ⟨h1, _, h2⟩ := h; cases h1; exact ⟨w, rfl⟩
        | tcp sa => obtain ⟨h1, _⟩ := h; cases h1
        | unnamed => cases h; exact absurd rfl (h0 [] hu).2
        | abstract n => exact absurd h (by simp [Names])
  | none =>
    obtain ⟨ht, hp⟩ := hg hu
    obtain ⟨a, ha⟩ := Option.ne_none_iff_exists'.1 ht
    obtain ⟨p, hp⟩ := Option.ne_none_iff_exists'.1 hp
    rw [ha, hp]
    simp only
    have key : ∀ l, Names pton none (some a) (some p) l ↔
        ∃ port f v, parsePort p = some port ∧ fillAddr pton a = some (f, v) ∧ l = .tcp ⟨f, v, port⟩ := by
      intro l
      constructor
      · intro h
        cases l with
        | unix p => obtain ⟨h1, _⟩ := h; cases h1
        | unnamed => cases h
        | abstract n => exact absurd h (by simp [Names])
        | tcp sa =>
          obtain ⟨_, a', p', h1, h2, h3, h4⟩ := h
          cases h1; cases h2
          exact ⟨sa.port, sa.family, sa.addr, (port_accepted_iff _ _).2 h3, (fillAddr_iff _ _ _ _).2 h4,
            rfl⟩
      · rintro ⟨port, f, v, h1, h2, rfl⟩
        exact ⟨rfl, a, p, rfl, rfl, (port_accepted_iff _ _).1 h1, (fillAddr_iff _ _ _ _).1 h2⟩
    have hpp : parsePort p = if (strtoul p).2 ≠ [] ∨ (strtoul p).1 > 65535 then none
      else some (strtoul p).1 := rfl
    by_cases hb : (strtoul p).2 ≠ [] ∨ (strtoul p).1 > 65535
    · rw [if_pos hb]
      rw [if_pos hb] at hpp
      refine ⟨none, rfl, ?_⟩
      intro l
      rw [key]
      constructor
      · rintro ⟨w, h⟩; cases h
      · rintro ⟨port, f, v, h1, _⟩; rw [hpp] at h1; cases h1
    · rw [if_neg hb]
      rw [if_neg hb] at hpp
      by_cases hn : ((pton .inet a).isNone && (pton .inet6 a).isNone) = true
      · rw [if_pos hn]
        refine ⟨none, rfl, ?_⟩
        intro l
        rw [key]
        constructor
        · rintro ⟨w, h⟩; cases h
        · rintro ⟨port, f, v, _, h2, _⟩
          simp only [Bool.and_eq_true, Option.isNone_iff_eq_none] at hn
          unfold fillAddr at h2
          rw [hn.1, hn.2] at h2
          cases h2
      · rw [if_neg hn]
        refine ⟨_, rfl, ?_⟩
        intro l
        rw [key]
        unfold tcpWriterInit
        simp only
        cases hf : fillAddr pton a with
        | none =>
          constructor
          · rintro ⟨w, h⟩; cases h
          · rintro ⟨port, f, v, _, h2, _⟩; cases h2
        | some x =>
          obtain ⟨f, v⟩ := x
          simp only
          rw [hpp, hw]
          simp only [Option.map_some]
          constructor
          · rintro ⟨w', h⟩
            cases h
            exact ⟨_, _, _, rfl, rfl, rfl⟩
          · rintro ⟨port, f', v', h1, h2, rfl⟩
            cases h1; cases h2
            exact ⟨w, rfl⟩

/-- **C83**, unusable options: if help is asked for, the port is missing, the content type is longer
than 256 bytes or no address is named, then fstrm_replay connects to nothing and exits with status 1. -/
theorem replay_rejects_partial (fuel : Nat) (o : ReplayOpts) (pton : Family → Bytes → Option Bytes)
    (files : List ReplayFile) (sock : Sock) (hg : Given o)
    (h0 : ∀ p, o.unix = some p → (0 : UInt8) ∉ p ∧ p ≠ [])
    (h : o.help = true ∨ (o.tcp ≠ none ∧ o.port = none) ∨
      (∀ ct, o.contentType = some ct → 256 < ct.length) ∨
      ∀ l, ¬ Names pton o.unix o.tcp o.port l) :
    replayMain fuel o pton files sock = .ok (none, ⟨1, [], none⟩) := by
  unfold replayMain ReplayOpts.parse
  by_cases hh : o.help = true
  · rw [if_pos hh]; rfl
  rw [if_neg hh]
  by_cases hp : o.tcp ≠ none ∧ o.port = none
  · rw [if_pos (by simp [hp.2, Option.isSome_iff_ne_none, hp.1])]; rfl
  rw [if_neg (by simpa [Option.isSome_iff_ne_none] using hp)]
  obtain ⟨ct, hct⟩ := Option.ne_none_iff_exists'.1 hg.type
  rw [hct]
  simp only [Exec.ok_bind]
  by_cases hlen : ct.length ≤ 256
  · obtain ⟨r, e1, h1⟩ := target_iff o pton ct sock h0 hlen (by
      intro hu
      rcases hg.one with h | h
      · exact absurd hu h.1
      · exact ⟨h.2, fun h' => hp ⟨h.2, h'⟩⟩)
    rw [e1]
    rcases h with h | h | h | h
    · exact absurd h hh
    · exact absurd h hp
    · have := h ct hct; omega
    · cases r with
      | none => rfl
      | some x => exact absurd ((h1 x.1).1 ⟨x.2, rfl⟩) (h x.1)
  · have : o.target pton ct sock = .ok none := by
      unfold ReplayOpts.target WriterOptions.addCt
      rw [if_pos (by simp only [CT_LENGTH_MAX]; omega)]
      rfl
    rw [this]
    rfl

/-- **C83**, usable options: fstrm_replay connects to the address its options name, and there does
what C56 and C69 say, with the content type given. Missing: the empty path, see `empty_path_wrong`. -/
theorem replay_connects_partial (fuel : Nat) (o : ReplayOpts) (pton : Family → Bytes → Option Bytes)
    (files : List ReplayFile) (sock : Sock) (hg : Given o)
    (h0 : ∀ p, o.unix = some p → (0 : UInt8) ∉ p ∧ p ≠ []) (hh : o.help = false)
    (hp : o.tcp ≠ none → o.port ≠ none) (ct : Bytes) (hct : o.contentType = some ct)
    (hlen : ct.length ≤ 256) (l : Listen) (hl : Names pton o.unix o.tcp o.port l) :
    replayMain fuel o pton files sock =
      (replay fuel ct files sockOps sock).map fun out => (some l, out) := by
  obtain ⟨r, e1, h1⟩ := target_iff o pton ct sock h0 hlen (by
    intro hu
    rcases hg.one with h | h
    · exact absurd hu h.1
    · exact ⟨h.2, hp h.2⟩)
  obtain ⟨w, rfl⟩ := (h1 l).2 hl
  unfold replayMain ReplayOpts.parse
  rw [if_neg (by simp [hh]), if_neg, hct]
  · simp only [Exec.ok_bind]
    rw [e1]
    simp only [Exec.ok_bind]
    cases replay fuel ct files sockOps sock <;> rfl
  · intro hc
    simp only [Bool.and_eq_true, Option.isNone_iff_eq_none, Option.isSome_iff_ne_none] at hc
    exact hp hc.1 hc.2

/-- **C83**, both ends: an fstrm_replay that is given the same content type and the same address options
as a running fstrm_capture connects to the address at which the latter listens. -/
theorem capture_replay_meet_partial (fuel : Nat) (o : CapOpts) (e : StartEnv) (env : CapEnv)
    (files : List ReplayFile) (sock : Sock) (ct : Bytes)
    (h0 : ∀ p, o.unix = some p → (0 : UInt8) ∉ p ∧ p ≠ []) (hone : o.unix = none ∨ o.tcp = none)
    (hct : o.contentType = some ct) (hlen : ct.length ≤ 256)
    (evs : List StartEv) (s : Capture)
    (h : captureMain o e env = .ok (evs, some s)) (hx : s.exited = none) :
    ∃ l, (∀ l', .listening l' ∈ evs ↔ l' = l) ∧
      replayMain fuel ⟨false, some ct, o.unix, o.tcp, o.port⟩ e.pton files sock =
        (replay fuel ct files sockOps sock).map fun out => (some l, out) := by
  obtain ⟨hs, ⟨l, hn, rfl⟩, _⟩ := capture_listens o e env (fun p hp => (h0 p hp).1) evs s h hx
  refine ⟨l, ?_, replay_connects_partial fuel _ e.pton files sock ⟨by simp, ?_⟩ h0 rfl hs.port ct rfl
    hlen l hn⟩
  · intro l'
    cases l with
    | unix p => simp [toRemove]
    | _ => simp [toRemove]
  · simp only
    rcases hone with h1 | h1
    · exact Or.inr ⟨h1, hs.source.resolve_left (fun h => h h1)⟩
    · exact Or.inl ⟨hs.source.resolve_right (fun h => h h1), h1⟩

/-- The hypotheses of `capture_replay_meet_partial` are met by the sample of `capture_starts`. -/
example : ∃ evs s, captureMain sampleOpts (sampleEnv (some .socket) true) fineEnv = .ok (evs, some s) ∧
    s.exited = none ∧ sampleOpts.unix = some [115] ∧ sampleOpts.contentType = some [97] := by
  obtain ⟨s, h, hx, _⟩ := capture_starts sampleOpts (sampleEnv (some .socket) true) fineEnv
    (.unix [115]) [97] (by intro p hp; cases hp; decide +kernel) sampleOpts_sensible
    ⟨rfl, by decide +kernel, by decide +kernel⟩ rfl (by decide +kernel) ⟨rfl, rfl, rfl⟩
    ⟨fun _ => rfl, fun _ => rfl, by simp [fineEnv]⟩
  exact ⟨_, s, h, hx, rfl, rfl⟩

/-- **C83 is false** of the empty path: the server listens at an address without a name, and
fstrm_replay with the same options connects to a name of 108 zero bytes outside the file system. -/
theorem empty_path_wrong :
    (∃ s, captureMain { sampleOpts with unix := some [] } (sampleEnv none true) fineEnv =
      .ok ([.listening .unnamed], some s) ∧ s.exited = none) ∧
    ∀ pton sock, ∃ w, (⟨false, some [97], some [], none, none⟩ : ReplayOpts).target pton [97] sock =
      .ok (some (.abstract (List.replicate 108 0), w)) := by
  constructor
  · obtain ⟨s, h, hx, _⟩ := capture_starts { sampleOpts with unix := some [] } (sampleEnv none true)
      fineEnv .unnamed [97] (by intro p hp; cases hp; simp)
      (by refine ⟨rfl, ?_, ?_, ?_, ?_, ?_, ?_, ?_⟩ <;> decide +kernel) rfl rfl (by decide +kernel)
      ⟨rfl, rfl, rfl⟩ ⟨fun _ => rfl, fun _ => rfl, by simp [fineEnv]⟩
    exact ⟨s, h, hx⟩
  · intro pton sock
    exact ⟨_, rfl⟩

end Fstrm.Props
