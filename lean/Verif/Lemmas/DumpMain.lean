import Verif.Lemmas.DumpDash
import Verif.Lemmas.FileNoFail
import Verif.Props.FileRead

/-! The parts of `main` of `fstrm_dump` around its loop. -/

set_option autoImplicit false

namespace Fstrm

open Spec Props

/-! ### Before the loop -/

/-- What `fstrm_dump` prints about a START frame. -/
def startMsgs (ct : Option Bytes) : List DumpMsg := .start :: ct.toList.map .contentType

theorem DumpSt.processStartFrame_eq {s : DumpSt} {ct : Option Bytes} (wopt : Option WriterOptions)
    (hst : s.r.state = .opened) (hs : s.r.start = some ⟨T_START, ct.toList⟩)
    (hct : ∀ c, ct = some c → c.length ≤ 256) :
    s.processStartFrame wopt = .ok (.success, wopt.map (fun o => ⟨o.cts ++ ct.toList⟩),
      { s with stderr := s.stderr ++ startMsgs ct }) := by
  unfold DumpSt.processStartFrame
  have : s.r.getControl T_START = .ok (.success, some ⟨T_START, ct.toList⟩, s.r) := by
    unfold Reader.getControl Reader.maybeOpen
    rw [if_neg (by simp [hst]), Exec.ok_bind]
    simp [hs]
  rw [this, Exec.ok_bind]
  cases ct with
  | none =>
    cases wopt <;> simp [Control.numCt, DumpSt.say, startMsgs]
  | some c =>
    have hc := hct c rfl
    cases wopt with
    | none => simp [Control.numCt, Control.getCt, DumpSt.say, startMsgs, T_START, T_STOP, T_FINISH]
    | some o =>
      simp [Control.numCt, Control.getCt, DumpSt.say, startMsgs, WriterOptions.addCt, CT_LENGTH_MAX,
        T_START, T_STOP, T_FINISH]
      simp [show ¬ 256 < List.length c by omega]

/-- Standard output at the beginning. -/
abbrev sout0 (sout : List Io) : FileSt := FileSt.init true true (some []) sout

theorem sout0_live (sout : List Io) : SLive (sout0 sout) [] := ⟨rfl, rfl, rfl, rfl⟩

theorem sout0_exit (sout : List Io) : (sout0 sout).exit.disk.getD [] = [] :=
  List.prefix_nil.1 (sout0_live sout).exit.1

/-- The state of `fstrm_dump` when its loop begins. -/
structure DReady (dest : DumpDest) (sout : List Io) (ct : Option Bytes) (r : Reader FileSt)
    (s : DumpSt) : Prop where
  r_eq : s.r = r
  err_eq : s.stderr = startMsgs ct
  dash_eq : s.dash = decide (dest = .dash)
  w : (dest = .none ∧ s.w = none ∧ s.stdout = sout0 sout) ∨
    (∃ d sc w0 w1, dest = .file d sc ∧
      fileWriterInit .file (some ⟨ct.toList⟩) d sc = some w0 ∧ w0.open = .ok (.success, w1) ∧
      s.w = some w1 ∧ s.stdout = sout0 sout) ∨
    (dest = .dash ∧ ∃ w0 w1, fileWriterInit .dash (some ⟨ct.toList⟩) (some []) sout = some w0 ∧
      w0.open = .ok (.success, w1) ∧ s.w = some w1 ∧ s.stdout = w1.rdwr.obj)

/-- The writer that `openOutput` opens. -/
theorem dest_writer {dest : DumpDest} (hd : dest ≠ .none) (o : WriterOptions) (r : Reader FileSt)
    (sout : List Io) (err : List DumpMsg) :
    ∃ w w0, dest.writer (some o) = some w ∧
      DumpSt.attach ⟨r, none, decide (dest = .dash), sout0 sout, err⟩ w = w0 ∧
      ((dest = .dash ∧ fileWriterInit .dash (some o) (some []) sout = some w0) ∨
       ∃ d sc, dest = .file d sc ∧ fileWriterInit .file (some o) d sc = some w0) := by
  cases dest with
  | none => exact absurd rfl hd
  | dash => exact ⟨_, _, rfl, rfl, Or.inl ⟨rfl, rfl⟩⟩
  | file d sc => exact ⟨_, _, rfl, rfl, Or.inr ⟨d, sc, rfl, rfl⟩⟩

theorem DumpSt.openOutput_ok {dest : DumpDest} {sout : List Io} {ct : Option Bytes}
    {r : Reader FileSt} {ok : Bool} {s : DumpSt} {d : Option Bytes}
    (hst : r.state = .opened) (hs : r.start = some ⟨T_START, ct.toList⟩)
    (hct : ∀ c, ct = some c → c.length ≤ 256)
    (h : DumpSt.openOutput ⟨r, none, decide (dest = .dash), sout0 sout, []⟩ dest = .ok (ok, s, d)) :
    (ok = true ∧ DReady dest sout ct r s) ∨
    (ok = false ∧ s.r = r ∧ s.w = none ∧
      s.stdout.exit.disk.getD [] <+: CFrame.wire ⟨.start, ct.toList⟩ ∧
      (dest ≠ .dash → s.stdout.exit.disk.getD [] = [])) := by
  unfold DumpSt.openOutput at h
  by_cases hn : dest = .none
  · rw [if_pos hn] at h
    subst hn
    rw [processStartFrame_eq none hst hs hct, Exec.ok_bind] at h
    simp only [ne_eq, not_true_eq_false, if_false] at h
    cases h
    exact Or.inl ⟨rfl, rfl, by simp, rfl, Or.inl ⟨rfl, rfl, rfl⟩⟩
  · rw [if_neg hn] at h
    rw [processStartFrame_eq _ hst hs hct, Exec.ok_bind] at h
    simp only [ne_eq, not_true_eq_false, if_false, Option.map_some, WriterOptions.init,
      List.nil_append] at h
    obtain ⟨w, w0, hw, ha, hc⟩ := dest_writer hn ⟨ct.toList⟩ r sout (startMsgs ct)
    rw [hw] at h
    simp only at h
    rw [ha] at h
    obtain ⟨⟨res, w1⟩, h1, h⟩ := Exec.bind_eq_ok.1 h
    simp only at h
    rcases hc with ⟨rfl, hc⟩ | ⟨d0, sc, rfl, hc⟩
    · have hatt : ∀ (a : Reader FileSt) (b : Option (Writer FileSt)) (c : FileSt) (e : List DumpMsg),
          (DumpSt.detach ⟨a, b, true, c, e⟩ w1).attach w1 = w1 := fun _ _ _ _ => rfl
      rcases swriter_open hct hc h1 with ⟨rfl, h2⟩ | ⟨hne, hcl, b, h2⟩
      · simp only [ne_eq, not_true_eq_false, if_false] at h
        cases h
        exact Or.inl ⟨rfl, rfl, rfl, rfl, Or.inr (Or.inr ⟨rfl, w0, w1, hc, h1, rfl, rfl⟩)⟩
      · simp only [hne, not_false_eq_true, if_true] at h
        obtain ⟨⟨res2, rw2⟩, h3, h⟩ := Exec.bind_eq_ok.1 h
        rw [show (decide True) = true from rfl, hatt] at h3
        have h4 := sdestroy hcl h2 h3
        simp only [DumpSt.detach, DumpSt.say, decide_true, if_true] at h
        cases h
        refine Or.inr ⟨rfl, rfl, rfl, ?_, fun h => absurd rfl h⟩
        simp only [h4]
        exact h2.obj.exit.1
    · split at h
      · obtain ⟨⟨res2, rw2⟩, h2, h⟩ := Exec.bind_eq_ok.1 h
        simp only [DumpSt.detach, DumpSt.say, reduceCtorEq, decide_false, Bool.false_eq_true,
          if_false] at h
        cases h
        refine Or.inr ⟨rfl, rfl, rfl, ?_, fun _ => sout0_exit sout⟩
        rw [sout0_exit sout]; simp
      · rename_i he
        have he : res = .success := by simpa using he
        subst he
        cases h
        exact Or.inl ⟨rfl, rfl, rfl, rfl, Or.inr (Or.inl ⟨_, _, w0, w1, rfl, hc, h1, rfl, rfl⟩)⟩

/-! ### After the loop -/

theorem DumpSt.cleanup_ok {rv : Nat} {s : DumpSt} {d : Option Bytes} {o : DumpOut}
    (h : s.cleanup rv d = .ok o) (hd : s.dash = false) :
    o.stdout = s.stdout.exit.disk.getD [] ∧
    ((s.w = none ∧ o = ⟨rv, s.stdout.exit.disk.getD [], s.stderr, d⟩) ∨
     ∃ w res w', s.w = some w ∧ w.close = .ok (res, w') ∧ (o.status = rv ∨ o.status = 1) ∧
       (res ≠ .success → o.status = 1) ∧
       (res = .success → o.status = rv ∧ o.stderr = s.stderr ∧
         (w.rdwr.ops = fileOps true → o.output = w'.rdwr.obj.disk))) := by
  unfold DumpSt.cleanup at h
  obtain ⟨⟨a, b⟩, _, h⟩ := Exec.bind_eq_ok.1 h
  have hat : ∀ (s' : DumpSt) w, s'.dash = false → s'.attach w = w := by
    intro s' w h; unfold DumpSt.attach; rw [h]; rfl
  have hso : ∀ w, s.detach w = { s with w := some w } := by
    intro w; unfold DumpSt.detach; rw [hd]; rfl
  cases hw : s.w with
  | none =>
    rw [hw] at h
    simp only at h
    cases h
    exact ⟨rfl, Or.inl ⟨rfl, rfl⟩⟩
  | some w =>
    rw [hw] at h
    simp only at h
    rw [hat _ _ hd] at h
    obtain ⟨⟨res, w'⟩, h1, h⟩ := Exec.bind_eq_ok.1 h
    simp only [hso] at h
    by_cases hr : res = .success
    · subst hr
      simp only [ne_eq, not_true_eq_false, if_false] at h
      rw [hat _ _ (by exact hd)] at h
      obtain ⟨⟨res2, rw2⟩, h2, h⟩ := Exec.bind_eq_ok.1 h
      simp only [hd, Bool.false_eq_true, if_false] at h
      cases h
      refine ⟨rfl, Or.inr ⟨w, _, w', rfl, h1, Or.inl rfl, fun h => absurd rfl h, fun _ => ⟨rfl, rfl, ?_⟩⟩⟩
      intro ho
      have hc := (close_success h1).2.1
      unfold Writer.destroy at h2
      rw [if_neg (by simp [hc]), Exec.ok_bind] at h2
      unfold Rdwr.destroy at h2
      simp only at h2
      rw [(close_frame h1).2.1.ops, ho] at h2
      simp only [fileOps, Exec.ok_bind] at h2
      cases h2
      rfl
    · simp only [ne_eq, hr, not_false_eq_true, if_true] at h
      rw [hat _ _ (by exact hd)] at h
      obtain ⟨⟨res2, rw2⟩, h2, h⟩ := Exec.bind_eq_ok.1 h
      simp only [DumpSt.say, hd, Bool.false_eq_true, if_false] at h
      cases h
      exact ⟨rfl, Or.inr ⟨w, res, w', rfl, h1, Or.inr rfl, fun _ => rfl, fun h => absurd h hr⟩⟩

/-! ### When nothing fails -/

/-- Where printing and writing work, the loop processes every frame that is read. -/
theorem DumpSt.loop_complete (fuel : Nat) (Inv : DumpSt → Prop)
    (hr : ∀ s r, Inv s → Inv { s with r := r })
    (hp : ∀ s d, Inv s → ∃ s1, s.printDataFrame d = .ok (.success, s1) ∧ Inv s1)
    (hw : ∀ s w d, d ≠ [] → Inv s → s.w = some w →
      ∃ w', (s.attach w).write d = .ok (.success, w') ∧ Inv (s.detach w')) :
    ∀ (n : Nat) (s : DumpSt) (ds : List Bytes)
    (r1 : Reader FileSt), s.r.readLoop fuel n = .ok (ds.map some, some .stop, r1) →
    r1.state ≠ .opening → (∀ d ∈ ds, d ≠ []) → Inv s →
    ∃ s1, Body s ds true s1 ∧ Inv s1 ∧
      DumpSt.loop fuel n s = .ok (0, { s1 with r := r1, stderr := s1.stderr ++ [.stop] }) := by
  intro n
  induction n with
  | zero => intro s ds r1 h; simp [Reader.readLoop] at h
  | succ n ih =>
    intro s ds r1 h hst hne hi
    unfold Reader.readLoop at h
    obtain ⟨⟨res, d, r2⟩, h1, h⟩ := Exec.bind_eq_ok.1 h
    simp only at h
    unfold DumpSt.loop
    rw [h1, Exec.ok_bind]
    simp only
    split at h
    · rename_i hs
      obtain ⟨⟨ds2, last2, r3⟩, h2, h⟩ := Exec.bind_eq_ok.1 h
      cases ds with
      | nil => simp at h
      | cons x ds =>
        simp only [List.map_cons, Except.ok.injEq, Prod.mk.injEq, List.cons.injEq] at h
        obtain ⟨⟨hx, hds⟩, hl, hr3⟩ := h
        subst hx hds hl hr3
        rw [if_pos hs]
        obtain ⟨s1, p1, p2⟩ := hp _ x (hr s r2 hi)
        obtain ⟨-, -, -, h5⟩ := DumpSt.printDataFrame_ok p1
        have hr1 : s1.r = r2 := by rw [h5]
        simp only
        rw [p1, Exec.ok_bind]
        simp only [ne_eq, not_true_eq_false, if_false]
        cases hsw : s1.w with
        | none =>
          obtain ⟨s2, g1, g2, g3⟩ := ih s1 ds r3 (by rw [hr1]; exact h2) hst
            (fun d hd => hne d (by simp [hd])) p2
          exact ⟨s2, .quiet r2 p1 hsw g1, g2, g3⟩
        | some w =>
          obtain ⟨w', q1, q2⟩ := hw s1 w x (hne x (by simp)) p2 hsw
          simp only
          rw [q1, Exec.ok_bind]
          simp only [not_true_eq_false, if_false]
          obtain ⟨s2, g1, g2, g3⟩ := ih (s1.detach w') ds r3
            (by rw [show (s1.detach w').r = r2 from hr1]; exact h2) hst
            (fun d hd => hne d (by simp [hd])) q2
          exact ⟨s2, .copy r2 p1 hsw q1 g1, g2, g3⟩
    · rename_i hs
      cases ds with
      | cons x ds => simp at h
      | nil =>
        simp only [Except.ok.injEq, Prod.mk.injEq, Option.some.injEq, List.map_nil, true_and] at h
        obtain ⟨hl, h3⟩ := h
        subst hl h3
        rw [if_neg hs, if_pos rfl]
        have : r2.getControl T_STOP = .ok (.success, r2.stop, r2) := by
          unfold Reader.getControl Reader.maybeOpen
          rw [if_neg hst, Exec.ok_bind]
          simp
        unfold DumpSt.printStopFrame
        simp only
        rw [this, Exec.ok_bind]
        simp only [ne_eq, not_true_eq_false, if_false, Exec.ok_bind, DumpSt.say]
        exact ⟨s, .nil s, hi, rfl⟩

/-- The state of the loop when the output is not `-` and no write on the output file fails. -/
def FileReady (s : DumpSt) : Prop :=
  s.dash = false ∧ (∃ t, SLive s.stdout t) ∧ ∀ w, s.w = some w → FWriter w ∧ w.state = .opened

theorem FileReady.print {s : DumpSt} (d : Bytes) (h : FileReady s) :
    ∃ s1, s.printDataFrame d = .ok (.success, s1) ∧ FileReady s1 := by
  obtain ⟨h1, ⟨t, h2⟩, h3⟩ := h
  obtain ⟨s1, p1⟩ := DumpSt.printDataFrame_total h2 d
  obtain ⟨-, -, g, h5⟩ := DumpSt.printDataFrame_ok p1
  obtain ⟨u, -, g2, -⟩ := g t h2
  refine ⟨s1, p1, by rw [h5]; exact h1, ⟨_, g2⟩, by rw [h5]; exact h3⟩

theorem FileReady.write {s : DumpSt} {w : Writer FileSt} {d : Bytes} (hd : d ≠ []) (h : FileReady s)
    (hw : s.w = some w) :
    ∃ w', (s.attach w).write d = .ok (.success, w') ∧ FileReady (s.detach w') := by
  obtain ⟨h1, h2, h3⟩ := h
  obtain ⟨f1, f2⟩ := h3 w hw
  obtain ⟨w1, e1, e2, e3, e4, e5⟩ := f1.writev (iov := [d]) (Or.inr f2) (by simp) (by simpa using hd)
  have hat : s.attach w = w := by unfold DumpSt.attach; rw [h1]; rfl
  have hso : s.detach w1 = { s with w := some w1 } := by unfold DumpSt.detach; rw [h1]; rfl
  rw [hat]
  refine ⟨w1, e1, ?_⟩
  rw [hso]
  exact ⟨h1, h2, by rintro w' ⟨⟩; exact ⟨e2, e5 (by simp)⟩⟩

/-- The same when the output is `-` and nothing on standard output fails. -/
def DashReady (s : DumpSt) : Prop :=
  s.dash = true ∧ NoFail s.stdout.script ∧ ∃ w t, s.w = some w ∧ SW (s.attach w) t

theorem attach_dash {s : DumpSt} (hd : s.dash = true) (w : Writer FileSt) :
    s.attach w = { w with rdwr := { w.rdwr with obj := s.stdout } } := by
  unfold DumpSt.attach; rw [hd]; rfl

theorem detach_dash {s : DumpSt} (hd : s.dash = true) (w : Writer FileSt) :
    s.detach w = { s with w := some w, stdout := w.rdwr.obj } := by
  unfold DumpSt.detach; rw [hd]; rfl

theorem attach_detach {s : DumpSt} (hd : s.dash = true) (w : Writer FileSt) :
    (s.detach w).attach w = w := by
  rw [detach_dash hd, attach_dash (by exact hd)]

/-- Printing between two writes. -/
theorem SW.print {s s1 : DumpSt} {d t : Bytes} {w : Writer FileSt} {r : Reader FileSt} {res : Res}
    (hd : s.dash = true) (h : SW (s.attach w) t)
    (hp : { s with r := r }.printDataFrame d = .ok (res, s1)) :
    s1.dash = true ∧ s1.w = s.w ∧ ∃ u, u.Sublist (dumpLines [d]) ∧ SW (s1.attach w) (t ++ u) ∧
      (NoFail s.stdout.script → u = dumpLines [d] ∧ NoFail s1.stdout.script) := by
  obtain ⟨-, hfp, g, h5⟩ := DumpSt.printDataFrame_ok hp
  have hd1 : s1.dash = true := by rw [h5]; exact hd
  have hl : SOpen [] s.stdout t := by have := h.rdwr.obj; rw [attach_dash hd] at this; exact this
  obtain ⟨u, a1, a2, a3⟩ := g t hl.live
  refine ⟨hd1, by rw [h5], u, a1, ?_, a3⟩
  rw [attach_dash hd1]
  rw [attach_dash hd] at h
  exact ⟨h.st, h.rdwr.ops, h.rdwr.opened, a2.opened ((hfp t hl.live).trans hl.fp)⟩

theorem DashReady.print {s : DumpSt} (d : Bytes) (h : DashReady s) :
    ∃ s1, s.printDataFrame d = .ok (.success, s1) ∧ DashReady s1 := by
  obtain ⟨h1, h2, w, t, h3, h4⟩ := h
  have hl : SOpen [] s.stdout t := by have := h4.rdwr.obj; rw [attach_dash h1] at this; exact this
  obtain ⟨s1, p1⟩ := DumpSt.printDataFrame_total hl.live d
  obtain ⟨g1, g2, u, -, g3, g4⟩ := SW.print (r := s.r) h1 h4 p1
  exact ⟨s1, p1, g1, (g4 h2).2, w, _, g2.trans h3, g3⟩

theorem DashReady.write {s : DumpSt} {w : Writer FileSt} {d : Bytes} (hd : d ≠ []) (h : DashReady s)
    (hw : s.w = some w) :
    ∃ w', (s.attach w).write d = .ok (.success, w') ∧ DashReady (s.detach w') := by
  obtain ⟨h1, h2, w2, t, h3, h4⟩ := h
  rw [hw] at h3
  cases h3
  have hn : NoFail (s.attach w).rdwr.obj.script := by rw [attach_dash h1]; exact h2
  obtain ⟨rw', e1, e2⟩ := h4.rdwr.write_noFail (iov := [be32 d.length, d]) hn
    (by intro x hx; simp only [List.mem_cons, List.not_mem_nil, or_false] at hx
        rcases hx with rfl | rfl
        · simp [Spec.be32]
        · exact hd)
  have hwr : (s.attach w).write d = .ok (.success, { s.attach w with rdwr := rw' }) := by
    rw [write_opened h4.st, e1]; rfl
  refine ⟨_, hwr, ?_⟩
  obtain ⟨-, ⟨-, h5⟩ | ⟨h5, -⟩⟩ := h4.write hwr
  · exact ⟨h1, by rw [detach_dash h1]; exact e2, _, _, by rw [detach_dash h1], by rw [attach_detach h1]; exact h5⟩
  · cases h5

/-- What the loop leaves on standard output when the output is `-`. -/
theorem Body.mixed {s s' : DumpSt} {ds : List Bytes} {ok : Bool} (h : Body s ds ok s')
    (hd : s.dash = true) : ∀ {w : Writer FileSt} {t : Bytes}, s.w = some w → SW (s.attach w) t →
    ∃ u w', Mixed ds u ∧ s'.dash = true ∧ s'.w = some w' ∧
      (ok = true → SW (s'.attach w') (t ++ u) ∧ (NoFail s.stdout.script → 
        (∀ d ∈ ds, d ≠ []) → u = ds.flatMap (fun d => dumpLines [d] ++ dataFrame d) ∧
          NoFail s'.stdout.script)) ∧
      (ok = false → (s'.attach w').state = .opened ∧ SDead (s'.attach w').rdwr (t ++ u) false) := by
  induction h with
  | nil s =>
    intro w t hw h
    exact ⟨[], w, .nil, hd, hw, fun _ => ⟨by simpa using h, fun hn _ => ⟨rfl, hn⟩⟩, nofun⟩
  | quiet r hp hw' h ih =>
    intro w t hw h
    obtain ⟨-, g2, -⟩ := SW.print hd h hp
    rw [hw', hw] at g2; cases g2
  | copy r hp hw' hc h ih =>
    rename_i s s1 s2 d ds ok w0 w'
    intro w t hw h
    obtain ⟨g1, g2, u, g3, g4, g5⟩ := SW.print hd h hp
    rw [hw', hw] at g2; cases g2
    have hc0 := hc
    obtain ⟨-, ⟨-, h5⟩ | ⟨h5, -⟩⟩ := g4.write hc
    · obtain ⟨v, w2, k1, k2, k3, k4, k5⟩ := ih (by rw [detach_dash g1]; exact g1) (w := w')
        (t := t ++ u ++ (be32 d.length ++ d)) (by rw [detach_dash g1])
        (by rw [attach_detach g1]; exact h5)
      refine ⟨u ++ dataFrame d ++ v, w2, .cons g3 k1, k2, k3, fun hok => ?_, fun hok => ?_⟩
      · obtain ⟨k6, k7⟩ := k4 hok
        refine ⟨by simpa [dataFrame] using k6, fun hn hne => ?_⟩
        obtain ⟨g6, g7⟩ := g5 hn
        have hn2 : NoFail (s1.detach w').stdout.script := by
          have hr : DashReady s1 := ⟨g1, g7, _, _, hw', g4⟩
          obtain ⟨w3, e1, e2⟩ := hr.write (hne d (by simp)) hw'
          rw [hc0] at e1
          cases e1
          exact e2.2.1
        obtain ⟨k8, k9⟩ := k7 hn2 (fun x hx => hne x (by simp [hx]))
        exact ⟨by rw [g6, k8]; simp, k9⟩
      · obtain ⟨k6, k7⟩ := k5 hok
        exact ⟨k6, by simpa [dataFrame] using k7⟩
    · cases h5
  | bad r hp hw' hc hne =>
    rename_i s s1 d w0 w' res
    intro w t hw h
    obtain ⟨g1, g2, u, g3, g4, g5⟩ := SW.print hd h hp
    rw [hw', hw] at g2; cases g2
    obtain ⟨h6, ⟨h5, -⟩ | ⟨-, h5⟩⟩ := g4.write hc
    · exact absurd h5 hne
    · refine ⟨u ++ dataFrame d ++ [], w', .cons g3 .nil, by rw [detach_dash g1]; exact g1,
        by rw [detach_dash g1], nofun, fun _ => ?_⟩
      rw [attach_detach g1]
      exact ⟨h6, by simpa [dataFrame] using h5⟩

theorem DumpSt.cleanup_dash {rv : Nat} {s : DumpSt} {d : Option Bytes} {o : DumpOut}
    {w : Writer FileSt} {t : Bytes} {ok : Bool}
    (h : s.cleanup rv d = .ok o) (hd : s.dash = true) (hw : s.w = some w)
    (h1 : ok = true → SW (s.attach w) t)
    (h2 : ok = false → (s.attach w).state = .opened ∧ SDead (s.attach w).rdwr t false) :
    o.stdout <+: t ++ CFrame.wire ⟨.stop, []⟩ ∧ (o.status = rv ∨ o.status = 1) ∧
    (o.status = 0 → rv = 0 ∧ (ok = true → o.stdout = t ++ CFrame.wire ⟨.stop, []⟩) ∧
      o.stderr = s.stderr) := by
  unfold DumpSt.cleanup at h
  obtain ⟨⟨a, b⟩, _, h⟩ := Exec.bind_eq_ok.1 h
  rw [hw] at h
  simp only at h
  obtain ⟨⟨res, w'⟩, h3, h⟩ := Exec.bind_eq_ok.1 h
  have hcl : w'.state = .closed ∧ ∃ b, SDead w'.rdwr (t ++ CFrame.wire ⟨.stop, []⟩) b ∧
      (ok = true → res = .success → b = true) := by
    cases ok with
    | true =>
      obtain ⟨c1, c2⟩ := (h1 rfl).close h3
      exact ⟨c1, _, c2, fun _ h => by simpa using h⟩
    | false =>
      obtain ⟨c0, c1⟩ := h2 rfl
      obtain ⟨c2, c3, c4⟩ := c1.wclose c0 h3
      refine ⟨c3, false, ⟨c4.ops, c4.closed, ?_⟩, nofun⟩
      obtain ⟨x1, x2, x3, x4, y, y1, y2, -⟩ := c4.obj
      exact ⟨x1, x2, x3, x4, y, y1, y2.trans (List.prefix_append _ _), nofun⟩
  obtain ⟨c1, b, c2, c3⟩ := hcl
  have hns : w'.state ≠ .opened := by rw [c1]; decide
  simp only at h
  by_cases hr : res = .success
  · simp only [hr, ne_eq, not_true_eq_false, if_false] at h
    rw [attach_detach hd] at h
    obtain ⟨⟨res2, rw2⟩, h4, h⟩ := Exec.bind_eq_ok.1 h
    have h5 := sdestroy hns c2 h4
    simp only [detach_dash hd, hd, if_true] at h
    cases h
    simp only [DumpSt.finish, h5]
    obtain ⟨e1, e2⟩ := c2.obj.exit
    exact ⟨e1, Or.inl trivial, fun hz => ⟨hz, fun hok => e2 (c3 hok hr), by simp⟩⟩
  · simp only [hr, ne_eq, not_false_eq_true, if_true] at h
    have hat : ∀ m, ((s.detach w').say m).attach w' = w' := by
      intro m; rw [attach_dash (by exact hd), detach_dash hd]; rfl
    rw [hat] at h
    obtain ⟨⟨res2, rw2⟩, h4, h⟩ := Exec.bind_eq_ok.1 h
    have h5 := sdestroy hns c2 h4
    simp only [detach_dash hd, DumpSt.say, hd, if_true] at h
    cases h
    simp only [DumpSt.finish, h5]
    obtain ⟨e1, e2⟩ := c2.obj.exit
    exact ⟨e1, Or.inr trivial, nofun⟩

theorem DumpSt.openOutput_complete {dest : DumpDest} {sout : List Io} {ct : Option Bytes}
    {r : Reader FileSt} (hst : r.state = .opened) (hs : r.start = some ⟨T_START, ct.toList⟩)
    (hct : ∀ c, ct = some c → c.length ≤ 256) (hout : ∀ d sc, dest = .file d sc → NoFail sc)
    (hdash : dest = .dash → NoFail sout) :
    ∃ s d, DumpSt.openOutput ⟨r, none, decide (dest = .dash), sout0 sout, []⟩ dest = .ok (true, s, d) ∧
      (dest ≠ .dash → FileReady s) ∧ (dest = .dash → DashReady s) := by
  unfold DumpSt.openOutput
  by_cases hn : dest = .none
  · rw [if_pos hn]
    subst hn
    rw [processStartFrame_eq none hst hs hct, Exec.ok_bind]
    simp only [ne_eq, not_true_eq_false, if_false]
    exact ⟨_, _, rfl, fun _ => ⟨rfl, ⟨_, sout0_live sout⟩, by simp⟩, nofun⟩
  · rw [if_neg hn]
    rw [processStartFrame_eq _ hst hs hct, Exec.ok_bind]
    simp only [ne_eq, not_true_eq_false, if_false, Option.map_some, WriterOptions.init,
      List.nil_append]
    obtain ⟨w, w0, hw, ha, hc⟩ := dest_writer hn ⟨ct.toList⟩ r sout (startMsgs ct)
    rw [hw]
    simp only
    rw [ha]
    rcases hc with ⟨rfl, hc⟩ | ⟨d0, sc, rfl, hc⟩
    · have hop : ∃ w1, w0.open = .ok (.success, w1) ∧ NoFail w1.rdwr.obj.script := by
        have hc' := hc
        unfold fileWriterInit at hc
        rw [if_neg (by decide)] at hc
        obtain ⟨i1, i2, i3, _⟩ := init_some hc
        have hcts : w0.cts = ct.toList := by rw [i2]; rfl
        obtain ⟨c1, c2⟩ := startable (show ∀ c ∈ w0.cts, c.length ≤ 256 by
          rw [hcts]; intro c hc; exact hct c (by simpa using hc))
        obtain ⟨rw1, e1, hr1, hn1⟩ : ∃ rw1, w0.rdwr.open = .ok (.success, rw1) ∧ SR rw1 [] ∧
            NoFail rw1.obj.script := by
          rw [i3]
          exact ⟨_, rfl, ⟨rfl, rfl, rfl, rfl, rfl, rfl, [], rfl, rfl⟩, hdash rfl⟩
        obtain ⟨rw2, e2, hn2⟩ := hr1.write_noFail (iov := [CFrame.wire ⟨.start, w0.cts.head?.toList⟩]) hn1
          (by simp [CFrame.wire, Spec.be32])
        refine ⟨{ w0 with state := .opened, start := some ⟨CType.start.code, w0.cts.head?.toList⟩, rdwr := rw2 },
          ?_, hn2⟩
        unfold Writer.open
        rw [if_neg (by simp [i1]), e1, Exec.ok_bind]
        simp only [ne_eq, not_true_eq_false, if_false]
        have hrd : rw1.ops.rd = none := by rw [hr1.ops]; rfl
        rw [hrd]
        simp only [Option.isSome_none, Bool.false_eq_true, if_false]
        rw [openUnidirectional_eq, sendStart_eq]
        simp only
        rw [writeControlFrame_eq, visible_toList, if_pos ⟨c1, c2⟩, e2]
        simp [Exec.ok_bind]
      obtain ⟨w1, h1, h2⟩ := hop
      rcases swriter_open hct hc h1 with ⟨-, h3⟩ | ⟨h3, -⟩
      · rw [h1, Exec.ok_bind]
        simp only [not_true_eq_false, if_false]
        exact ⟨_, _, rfl, fun h => h.elim, fun _ => ⟨rfl, h2, w1, _, rfl, h3⟩⟩
      · exact absurd rfl h3
    · obtain ⟨i1, i2, i3, _⟩ := init_some (fileWriter_init hc)
      have fw : FWriter w0 := by
        refine ⟨⟨by rw [i3]; rfl, by rw [i3]; rfl, by rw [i3]; rfl, by rw [i3]; exact hout _ _ rfl,
          by rw [i3]; rfl⟩, ?_, ?_⟩
        · rw [i2]
          intro c hc
          exact hct c (by simpa [optCts] using hc)
        · rw [i3, i1]; rfl
      obtain ⟨w1, e1, e2, e3, e4⟩ := fw.open
      rw [e1, Exec.ok_bind]
      simp only [not_true_eq_false, if_false]
      exact ⟨_, _, rfl, fun _ => ⟨rfl, ⟨_, sout0_live sout⟩, by rintro w' ⟨⟩; exact ⟨e2, e3⟩⟩, nofun⟩

theorem Safe.of_ok {α : Type} {b : Bool} {a : α} {Q : α → Prop} {x : Exec α} (h : Safe b x Q)
    (he : x = .ok a) : Q a := by
  rcases h with ⟨a', h1, h2⟩ | ⟨_, h1⟩
  · rw [he] at h1; cases h1; exact h2
  · rw [he] at h1; cases h1

theorem Good.reach {σ : Type} {ops : Ops σ} {I : σ → Prop} (hw : WellBehaved ops I)
    (hp : Preserves ops I) {a b : Rdwr σ} (h : Good ops I a) (hr : Reach a b) : Good ops I b :=
  hr.inv h fun x y hx hxy => by
    cases hxy with
    | opn e => exact (hx.open (b := false) hw hp).of_ok e
    | cls e => exact (hx.close (b := false) hw hp).of_ok e
    | rd e => exact ((hx.read (b := false) hw hp _).of_ok e).1
    | wr e => exact (hx.write (b := false) hw hp _).of_ok e

theorem file_preserves_named : Preserves (fileOps false) Named where
  opn := by
    rintro f ⟨⟩ s r s' hs he
    obtain ⟨_, _, h, a, _⟩ := opOpen_total hs
    rw [h] at he; cases he; exact a
  cls := by
    rintro f ⟨⟩ s r s' hs he
    obtain ⟨_, _, h, a, _⟩ := opClose_total hs
    rw [h] at he; cases he; exact a
  wr := by rintro f ⟨⟩
  rd := by
    rintro f ⟨⟩ n s r bs s' hs he
    obtain ⟨_, _, _, h, _, a, _⟩ := opRead_total n hs
    rw [h] at he; cases he; exact a

theorem readLoop_kept {σ : Type} (fuel : Nat) : ∀ (n : Nat) {r r' : Reader σ}
    {ds : List (Option Bytes)} {last : Option Res}, 1 ≤ r.bufCap →
    r.readLoop fuel n = .ok (ds, last, r') → Kept r r' := by
  intro n
  induction n with
  | zero => intro r r' ds last _ h; cases h; exact .refl _
  | succ n ih =>
    intro r r' ds last hc h
    unfold Reader.readLoop at h
    obtain ⟨⟨res, d, r2⟩, h1, h⟩ := Exec.bind_eq_ok.1 h
    have k := reader_read_kept hc h1
    simp only at h
    split at h
    · obtain ⟨⟨ds2, last2, r3⟩, h2, h⟩ := Exec.bind_eq_ok.1 h
      cases h
      exact k.trans (ih (Nat.le_trans hc k.cap) h2)
    · cases h; exact k

/-- Destroying a reader of a named file. -/
theorem fileReader_destroy {r r' : Reader FileSt} (ho : r.rdwr.ops = fileOps false)
    (hs : r.rdwr.obj.isStd = false) (hc : 1 ≤ r.bufCap) (hr : Kept r r') :
    ∃ p, r'.destroy = .ok p := by
  have hg := Good.reach (file_wellBehaved false) file_preserves_named
    (show Good (fileOps false) Named r.rdwr from ⟨ho, hs⟩) hr.reach
  have := GoodR.destroy (b := false) (file_wellBehaved false) file_preserves_named (r := r')
    ⟨hg, Nat.le_trans hc hr.cap⟩
  rcases this with ⟨p, h, _⟩ | ⟨h, _⟩
  · exact ⟨p, h⟩
  · cases h

theorem DumpSt.cleanup_complete {rv : Nat} {s : DumpSt} {d : Option Bytes} {p : Res × Rdwr FileSt}
    (hr : s.r.destroy = .ok p) (hw : FileReady s) :
    ∃ o, s.cleanup rv d = .ok o ∧ o.status = rv := by
  obtain ⟨hd, -, hw⟩ := hw
  have hat : ∀ (s' : DumpSt) w, s'.dash = false → s'.attach w = w := by
    intro s' w h; unfold DumpSt.attach; rw [h]; rfl
  have hso : ∀ w, s.detach w = { s with w := some w } := by
    intro w; unfold DumpSt.detach; rw [hd]; rfl
  unfold DumpSt.cleanup
  rw [hr, Exec.ok_bind]
  obtain ⟨p1, p2⟩ := p
  cases hsw : s.w with
  | none => exact ⟨_, rfl, rfl⟩
  | some w =>
    obtain ⟨f1, f2⟩ := hw w hsw
    obtain ⟨w', e1, e2, e3, e4⟩ := f1.close f2
    simp only
    rw [hat _ _ hd, e1, Exec.ok_bind]
    simp only [ne_eq, not_true_eq_false, if_false, hso]
    rw [hat _ _ (by exact hd)]
    unfold Writer.destroy
    rw [if_neg (by simp [e3]), Exec.ok_bind]
    unfold Rdwr.destroy
    simp only
    rw [e2.fw.ops]
    simp only [fileOps, Exec.ok_bind, hd, Bool.false_eq_true, if_false]
    exact ⟨_, rfl, rfl⟩

theorem DumpSt.cleanup_complete_dash {rv : Nat} {s : DumpSt} {d : Option Bytes} {p : Res × Rdwr FileSt}
    (hr : s.r.destroy = .ok p) (hw : DashReady s) :
    ∃ o, s.cleanup rv d = .ok o ∧ o.status = rv := by
  obtain ⟨hd, hn, w, t, hsw, h⟩ := hw
  have hn' : NoFail (s.attach w).rdwr.obj.script := by rw [attach_dash hd]; exact hn
  obtain ⟨rw1, e1, n1⟩ := h.rdwr.write_noFail (iov := [CFrame.wire ⟨.stop, []⟩]) hn'
    (by simp [CFrame.wire, Spec.be32])
  obtain ⟨-, h1⟩ | ⟨h1, -⟩ := h.rdwr.write e1
  · obtain ⟨rw2, e2⟩ := h1.close_noFail n1
    have h2 := h1.close e2
    unfold DumpSt.cleanup
    rw [hr, Exec.ok_bind]
    obtain ⟨p1, p2⟩ := p
    rw [hsw]
    simp only
    rw [close_opened h.st h.rdwr.ops, e1]
    simp only [Exec.ok_bind]
    rw [e2]
    simp only [Exec.ok_bind, ne_eq, not_true_eq_false, if_false]
    rw [attach_detach hd]
    unfold Writer.destroy
    rw [if_neg (by simp), Exec.ok_bind]
    unfold Rdwr.destroy
    simp only
    rw [h2.ops]
    simp only [fileOps, Exec.ok_bind, detach_dash hd, hd, if_true]
    exact ⟨_, rfl, rfl⟩
  · cases h1

/-! ### The copy -/

theorem accepted_writes (acc : List Bytes) (ds : List Bytes) (rs : List Res)
    (hl : rs.length = ds.length) (hs : ∀ r ∈ rs, r = .success) :
    accepted acc ((ds.map WOp.write).zip rs) = acc ++ ds := by
  induction ds generalizing acc rs with
  | nil => simp [accepted]
  | cons d ds ih =>
    cases rs with
    | nil => simp at hl
    | cons x rs =>
      have hx := hs x (by simp)
      subst hx
      simp only [List.map_cons, List.zip_cons_cons, accepted]
      rw [ih _ rs (by simpa using hl) (fun r hr => hs r (by simp [hr]))]
      simp [WOp.frames]

theorem run_length {σ : Type} {ops : List WOp} {w w' : Writer σ} {rs : List Res}
    (h : w.run ops = .ok (rs, w')) : rs.length = ops.length := by
  induction ops generalizing w rs with
  | nil => cases h; rfl
  | cons op ops ih =>
    obtain ⟨⟨r, w1⟩, _, h⟩ := Exec.bind_eq_ok.1 h
    obtain ⟨⟨rs', w2⟩, g2, h⟩ := Exec.bind_eq_ok.1 h
    cases h
    simp [ih g2]

/-- A file writer opened, used for `ds` and closed. -/
theorem copied_disk {ct : Option Bytes} {d : Option Bytes} {sc : List Io} {w0 w1 w2 w3 : Writer FileSt}
    {ds : List Bytes} {rs : List Res} (hi : fileWriterInit .file (some ⟨ct.toList⟩) d sc = some w0)
    (hct : ∀ c, ct = some c → c.length ≤ 256) (ho : w0.open = .ok (.success, w1))
    (hr : w1.run (ds.map WOp.write) = .ok (rs, w2)) (hs : ∀ r ∈ rs, r = .success)
    (hc : w2.close = .ok (.success, w3)) : w3.rdwr.obj.disk = some (stream ct ds) := by
  have hrun : w0.run (.opn :: ds.map WOp.write) = .ok (.success :: rs, w2) := by
    simp only [Writer.run, Writer.step]
    rw [ho, Exec.ok_bind]
    simp only
    rw [hr, Exec.ok_bind]
  have key := file_close_durable w0 w2 w3 (some ⟨ct.toList⟩) d sc (.opn :: ds.map WOp.write)
    (.success :: rs) hi (by intro c hc; exact hct c (by simpa [optCts] using hc)) hrun hc
  rw [key]
  have hct : (optCts (some ⟨ct.toList⟩)).head? = ct := by cases ct <;> rfl
  simp only [List.zip_cons_cons, accepted, WOp.frames, List.append_nil]
  rw [hct, accepted_writes [] _ rs (by simpa using run_length hr) hs]
  simp

end Fstrm
