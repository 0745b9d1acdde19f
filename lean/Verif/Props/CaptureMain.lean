import Verif.Lemmas.CaptureMain

/-!
# How fstrm_capture starts (C81)
-/

set_option autoImplicit false

namespace Fstrm.Props

open Fstrm
open Fstrm.Spec (Sensible Names PortString toRemove CapEv CType CFrame)

/-- **C81**, unusable options: if the options do not make sense together, or name no address that
can be listened on, then fstrm_capture removes nothing, opens no output, does not listen and exits
(with status 1). -/
theorem capture_rejects (o : CapOpts) (e : StartEnv) (env : CapEnv)
    (h0 : ∀ p, o.unix = some p → (0 : UInt8) ∉ p)
    (h : ¬ Sensible o e.tty ∨ ∀ l, ¬ Names e.pton o.unix o.tcp o.port l) :
    captureMain o e env = .ok ([], none) := by
  unfold captureMain
  cases hp : o.parse e.tty with
  | none => rfl
  | some a =>
    have hs := ((parse_iff _ _ _).1 hp).1
    rcases h with h | h
    · exact absurd hs h
    · cases hr : o.openRead e with
      | none => rfl
      | some x => exact absurd ((openRead_iff o e h0 x.1 x.2).1 hr).1 (h x.1)

/-- **C81**, a server that runs: its options make sense, it listens at the address they name and
nowhere else, nothing but what was at that path was removed, and it writes the stream of the
given content type to the given place with the given settings, starting as all theorems about `Capture.run` assume. -/
theorem capture_listens (o : CapOpts) (e : StartEnv) (env : CapEnv)
    (h0 : ∀ p, o.unix = some p → (0 : UInt8) ∉ p) (evs : List StartEv) (s : Capture)
    (h : captureMain o e env = .ok (evs, some s)) (hx : s.exited = none) :
    Sensible o e.tty ∧ (∃ l, Names e.pton o.unix o.tcp o.port l ∧ evs = toRemove e.present l ++ [.listening l]) ∧
      (∀ ct, o.contentType = some ct → s.args.contentType = ct) ∧
      (∀ w, o.write = some w → s.args.path = w ∧ (s.args.toStdout = true ↔ w = [45])) ∧
      s.args.splitSeconds = o.split ∧
      (s.args.calendar = true ↔ o.localtime = true ∨ o.gmtime = true) ∧
      s.args.bufferSize = o.bufferSize ∧ s.args.countConnections = o.countConnections ∧
      Capture.start s.args env = .ok s := by
  unfold captureMain at h
  cases hp : o.parse e.tty with
  | none => rw [hp] at h; simp at h
  | some a =>
    obtain ⟨hs, rfl⟩ := (parse_iff _ _ _).1 hp
    rw [hp] at h
    cases hr : o.openRead e with
    | none => rw [hr] at h; simp at h
    | some x =>
      obtain ⟨l, evs'⟩ := x
      rw [hr] at h
      simp only at h
      obtain ⟨hn, he, _⟩ := (openRead_iff o e h0 l evs').1 hr
      obtain ⟨s1, h1, h⟩ := Exec.bind_eq_ok.1 h
      have hnone : s1.exited = none ∧ evs = evs' ++ [.listening l] ∧ s = s1 := by
        split at h
        · rename_i hc
          simp only [Except.ok.injEq, Prod.mk.injEq, Option.some.injEq] at h
          obtain ⟨_, rfl⟩ := h
          rw [hx] at hc; simp at hc
        · rename_i hc
          split at h
          · simp only [Except.ok.injEq, Prod.mk.injEq, Option.some.injEq] at h
            obtain ⟨_, rfl⟩ := h
            simp [Capture.exit, Capture.call] at hx
          · split at h
            · simp only [Except.ok.injEq, Prod.mk.injEq, Option.some.injEq] at h
              obtain ⟨_, rfl⟩ := h
              simp [Capture.exit, Capture.call] at hx
            · simp only [Except.ok.injEq, Prod.mk.injEq, Option.some.injEq] at h
              exact ⟨by simpa using hc, h.1.symm, h.2.symm⟩
      obtain ⟨hx1, rfl, rfl⟩ := hnone
      have ha : s.args = o.args := by
        rcases RotInv.start h1 with h2 | h2
        · rw [h2] at hx1; cases hx1
        · exact h2.args
      rw [ha]
      refine ⟨hs, ⟨l, hn, by rw [he]⟩, ?_, ?_, rfl, by simp [CapOpts.args], rfl, rfl, h1⟩
      · intro ct hct; simp [CapOpts.args, hct]
      · intro w hw; simp [CapOpts.args, hw]

/-- **C81**, usable options: if the options make sense and name the address `l`, and the operating
system does what it is asked to, then the program runs and listens at `l`, and its output is
a file that so far contains the START frame with the given content type (of at most 256 bytes). -/
theorem capture_starts (o : CapOpts) (e : StartEnv) (env : CapEnv) (l : Listen) (ct : Bytes)
    (h0 : ∀ p, o.unix = some p → (0 : UInt8) ∉ p)
    (hs : Sensible o e.tty) (hn : Names e.pton o.unix o.tcp o.port l)
    (hct : o.contentType = some ct) (hlen : ct.length ≤ 256)
    (hos : e.removeOk = true ∧ e.bindOk = true ∧ e.signalsOk = true)
    (henv : (∀ k, env.openOk k = true) ∧ (∀ k, env.writeOk k = true) ∧ ∀ t, env.strftime t ≠ none) :
    ∃ s, captureMain o e env = .ok (toRemove e.present l ++ [.listening l], some s) ∧
      s.exited = none ∧ s.outputFile = some 0 ∧ s.files = [CFrame.wire ⟨.start, [ct]⟩] := by
  have hacc : o.parse e.tty = some o.args := (parse_iff _ _ _).2 ⟨hs, rfl⟩
  have hread : o.openRead e = some (l, toRemove e.present l) :=
    (openRead_iff o e h0 l _).2 ⟨hn, rfl, fun _ => hos.1⟩
  have hstart : ∃ s, Capture.start o.args env = .ok s ∧ s.exited = none ∧ s.outputFile = some 0 ∧
      s.files = [CFrame.wire ⟨.start, [ct]⟩] := by
    have hac : o.args.accepted = true := by
      unfold CapOpts.parse at hacc
      revert hacc
      cases o.args.accepted <;> simp
    unfold Capture.start
    dsimp only
    rw [hac]
    simp only [Bool.not_true, Bool.false_eq_true, if_false]
    generalize hs0 : (⟨o.args, env, none, 0, [], fun _ => none, 0, 0, 0, o.args.remaining, true,
      fun _ => none, none, 0, [], []⟩ : Capture) = s0
    have hop : ∃ s1, s0.openOutput = (true, s1) ∧ s1.args = o.args ∧ s1.env = env ∧
        s1.exited = none ∧ s1.outputFile = some 0 ∧ s1.files = [[]] := by
      rw [← hs0]
      unfold Capture.openOutput
      dsimp only
      split
      · exact ⟨_, rfl, rfl, rfl, rfl, rfl, rfl⟩
      · split
        · unfold Capture.updateFname
          dsimp only
          cases hf : env.strftime (env.time 0) with
          | none => exact absurd hf (henv.2.2 _)
          | some name =>
            simp only
            unfold Capture.openFile
            simp [Capture.emit, Capture.call, henv.1]
        · unfold Capture.openFile
          simp [Capture.emit, Capture.call, henv.1]
    obtain ⟨s1, e1, ha, he, hx, ho, hf⟩ := hop
    have hw : ∃ q, s1.openWriteStart = .ok (true, { s1 with
        nWrite := s1.nWrite + 1
        files := s1.files.modify 0 (· ++ CFrame.wire ⟨.start, [ct]⟩)
        io := q }) := by
      have hc : s1.args.contentType = ct := by rw [ha]; simp [CapOpts.args, hct]
      have e2 : s1.openWriteStart = (do
          match ← Capture.encodeFrame ⟨CType.start.code, [s1.args.contentType]⟩ with
          | none => .ok (false, s1)
          | some bs => s1.writeStart bs) := rfl
      rw [e2, hc, encodeFrame_eq]
      simp only [CType.visible, List.take_succ_cons, List.take_zero, List.mem_singleton, forall_eq]
      rw [if_pos ⟨hlen, by rw [length_wire1]; omega⟩]
      simp only [Exec.ok_bind]
      unfold Capture.writeStart Capture.fwrite
      rw [ho]
      dsimp only
      rw [if_pos (by rw [he]; simp [henv.2.1, CFrame.wire])]
      simp only [Exec.ok_bind, Bool.not_true, Bool.false_eq_true, if_false]
      unfold Capture.fflush Capture.call
      simp only [ho]
      exact ⟨_, rfl⟩
    obtain ⟨q, hw⟩ := hw
    unfold Capture.openWriteFile
    rw [e1]
    simp only
    rw [hw]
    simp only [Exec.ok_bind, Bool.not_true, Bool.false_eq_true, if_false]
    refine ⟨_, rfl, hx, ho, ?_⟩
    simp [hf]
  obtain ⟨s, e1, hx, ho, hf⟩ := hstart
  refine ⟨s, ?_, hx, ho, hf⟩
  unfold captureMain
  rw [hacc]
  simp only
  rw [hread]
  simp only
  rw [e1]
  simp [Exec.ok_bind, hx, hos.2.1, hos.2.2]

/-! ## Sample -/

/-- Options `-t a -u s -w b`. -/
def sampleOpts : CapOpts :=
  ⟨false, false, false, some [97], some [115], none, none, some [98], 0, 0, 0⟩

/-- `inet_pton` of a machine that knows one address "h". -/
def samplePton : Family → Bytes → Option Bytes
  | .inet6, [104] => some [0, 1]
  | _, _ => none

/-- An environment in which something of the given kind exists at the path "s". -/
def sampleEnv (kind : Option FileKind) (bind : Bool) : StartEnv :=
  ⟨false, samplePton, fun p => if p = [115] then kind else none, true, bind, true⟩

theorem sampleOpts_sensible : Sensible sampleOpts false := by
  refine ⟨rfl, ?_, ?_, ?_, ?_, ?_, ?_, ?_⟩ <;> decide +kernel

example : ∃ s, captureMain sampleOpts (sampleEnv (some .socket) true)
      ⟨fun k => k, fun _ => true, fun _ => true, fun t => some [UInt8.ofNat t]⟩ =
    .ok ([.removed [115] .socket, .listening (.unix [115])], some s) ∧ s.exited = none ∧
      s.outputFile = some 0 ∧ s.files = [CFrame.wire ⟨.start, [[97]]⟩] :=
  capture_starts sampleOpts (sampleEnv (some .socket) true) _ (.unix [115]) [97]
    (by intro p hp; cases hp; decide +kernel) sampleOpts_sensible ⟨rfl, by decide +kernel, by decide +kernel⟩ rfl
    (by decide +kernel) ⟨rfl, rfl, rfl⟩ ⟨fun _ => rfl, fun _ => rfl, by simp⟩

/-- The same over tcp: `-a h -p 0x10`. -/
example : Names samplePton none (some [104]) (some [48, 120, 49, 48]) (.tcp ⟨.inet6, [0, 1], 16⟩) :=
  ⟨rfl, [104], [48, 120, 49, 48], rfl, rfl,
    (port_accepted_iff _ _).1 (by decide +kernel), rfl, fun _ => rfl⟩

/-- Splitting without time in the file names makes no sense. -/
example : ¬ Sensible { sampleOpts with split := 60 } false := by
  intro h
  have := h.split (by decide +kernel)
  revert this
  decide +kernel

/-- A path of 108 characters names no address. -/
example : ∀ l, ¬ Names samplePton (some (List.replicate 108 47)) none none l := by
  intro l h
  cases l with
  | unix p => obtain ⟨h1, _, h2⟩ := h; cases h1; simp at h2
  | tcp sa => obtain ⟨h1, _⟩ := h; cases h1
  | unnamed => cases h
  | abstract n => exact h

/-! ## What is not true -/

/-- The environment of the samples below: files can be opened and written. -/
def fineEnv : CapEnv := ⟨fun k => k, fun _ => true, fun _ => true, fun t => some [UInt8.ofNat t]⟩

/-- **C81 is false** of a program that cannot listen: it exits with status 1 and never listened, but
it has removed what was at the path and opened (with truncation) the output file. -/
theorem failed_start_destroys : ∃ o e s, Sensible o e.tty ∧
    captureMain o e fineEnv = .ok ([.removed [115] .socket], some s) ∧ s.exited = some 1 ∧
      CapEv.opening [98] ∈ s.log := by
  have hr : sampleOpts.openRead (sampleEnv (some .socket) false) =
      some (.unix [115], [.removed [115] .socket]) := by decide +kernel
  have hp : sampleOpts.parse false = some sampleOpts.args := by decide +kernel
  have hst : (Capture.start sampleOpts.args fineEnv).map (fun s => (s.exited, s.log)) =
      .ok (none, [.opening [98], .opened 0]) := by decide +kernel
  cases hc : Capture.start sampleOpts.args fineEnv with
  | error x => rw [hc] at hst; cases hst
  | ok s =>
    rw [hc] at hst
    simp only [Except.map, Except.ok.injEq, Prod.mk.injEq] at hst
    refine ⟨sampleOpts, sampleEnv (some .socket) false, s.exit 1, sampleOpts_sensible, ?_, rfl, ?_⟩
    · unfold captureMain
      rw [show (sampleEnv (some .socket) false).tty = false from rfl, hp]
      simp only
      rw [hr]
      simp only
      rw [hc]
      simp [Exec.ok_bind, hst.1, sampleEnv]
    · rw [show (s.exit 1).log = s.log from rfl, hst.2]
      simp

/-- **C81 is false** of the removal: what is removed to make room for the socket need not be a
socket; an ordinary file at that path is removed as well. -/
theorem ordinary_file_removed : ∃ o e evs s, Sensible o e.tty ∧
    captureMain o e fineEnv = .ok (evs, some s) ∧ s.exited = none ∧
      StartEv.removed [115] .file ∈ evs := by
  obtain ⟨s, h, hx, _⟩ := capture_starts sampleOpts (sampleEnv (some .file) true) fineEnv
    (.unix [115]) [97] (by intro p hp; cases hp; decide +kernel) sampleOpts_sensible
    ⟨rfl, by decide +kernel, by decide +kernel⟩ rfl (by decide +kernel) ⟨rfl, rfl, rfl⟩
    ⟨fun _ => rfl, fun _ => rfl, by simp [fineEnv]⟩
  exact ⟨sampleOpts, sampleEnv (some .file) true, _, s, sampleOpts_sensible, h, hx, by decide +kernel⟩

/-- **C81, in part.** In every execution, at most one thing is removed, and only when the
options make sense: what was present at the unix path given. If something had to be removed but could
not be, then the output is not opened. Missing: it may not be a socket
(`ordinary_file_removed`), and the program may exit afterwards (`failed_start_destroys`). -/
theorem removal_partial (o : CapOpts) (e : StartEnv) (env : CapEnv)
    (h0 : ∀ p, o.unix = some p → (0 : UInt8) ∉ p) (evs : List StartEv) (s : Option Capture)
    (h : captureMain o e env = .ok (evs, s)) :
    (∀ p k, .removed p k ∈ evs → Sensible o e.tty ∧ o.unix = some p ∧ e.present p = some k) ∧
    evs.length ≤ 2 ∧
    (∀ p, o.unix = some p → p ≠ [] → e.present p ≠ none → e.removeOk = false → evs = [] ∧ s = none) := by
  have hbase : ∀ l, Names e.pton o.unix o.tcp o.port l → Sensible o e.tty → ∀ tail : List StartEv,
      (tail = [] ∨ tail = [.listening l]) →
      (∀ p k, StartEv.removed p k ∈ toRemove e.present l ++ tail →
        Sensible o e.tty ∧ o.unix = some p ∧ e.present p = some k) ∧
      (toRemove e.present l ++ tail).length ≤ 2 := by
    intro l hn hs tail ht
    constructor
    · intro p k hm
      rcases List.mem_append.1 hm with hm | hm
      · cases l with
        | unix path =>
          simp only [toRemove, List.mem_map, Option.mem_toList, Option.mem_def] at hm
          obtain ⟨k', hk, he⟩ := hm
          cases he
          exact ⟨hs, hn.1, hk⟩
        | _ => simp [toRemove] at hm
      · rcases ht with rfl | rfl <;> simp at hm
    · have h1 : (toRemove e.present l).length ≤ 1 := by
        cases l with
        | unix path => cases hp : e.present path <;> simp [toRemove, hp]
        | _ => simp [toRemove]
      have h2 : tail.length ≤ 1 := by rcases ht with rfl | rfl <;> simp
      rw [List.length_append]
      omega
  unfold captureMain at h
  cases hp : o.parse e.tty with
  | none => rw [hp] at h; cases h; simp
  | some a =>
    obtain ⟨hs, rfl⟩ := (parse_iff _ _ _).1 hp
    rw [hp] at h
    cases hr : o.openRead e with
    | none => rw [hr] at h; cases h; simp
    | some x =>
      obtain ⟨l, evs'⟩ := x
      rw [hr] at h
      simp only at h
      obtain ⟨hn, he, hok⟩ := (openRead_iff o e h0 l evs').1 hr
      obtain ⟨s1, h1, h⟩ := Exec.bind_eq_ok.1 h
      have hevs : ∃ tail, (tail = [] ∨ tail = [StartEv.listening l]) ∧
          evs = toRemove e.present l ++ tail := by
        subst he
        split at h
        · cases h; exact ⟨[], Or.inl rfl, by simp⟩
        · split at h
          · cases h; exact ⟨[], Or.inl rfl, by simp⟩
          · split at h <;> · cases h; exact ⟨_, Or.inr rfl, rfl⟩
      obtain ⟨tail, ht, rfl⟩ := hevs
      obtain ⟨b1, b2⟩ := hbase l hn hs tail ht
      refine ⟨b1, b2, ?_⟩
      intro p hu hpne hpres hrem
      exfalso
      have : evs' ≠ [] := by
        cases l with
        | unix path =>
          obtain ⟨h2, _⟩ := hn
          rw [hu] at h2
          cases h2
          rw [he]
          cases h3 : e.present p
          · exact absurd h3 hpres
          · simp [toRemove, h3]
        | tcp sa => obtain ⟨h2, _⟩ := hn; rw [hu] at h2; cases h2
        | unnamed => rw [hu] at hn; cases hn; exact absurd rfl hpne
        | abstract n => exact absurd hn (by simp [Names])
      rw [hok this] at hrem
      cases hrem

end Fstrm.Props
