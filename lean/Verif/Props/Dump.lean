import Verif.Lemmas.DumpMain
import Verif.Props.PrintString

/-!
# fstrm_dump (C54, C55, C68, C103, C104)

`dump` is the program run on a given input file (or standard input), with given sequences of outcomes
of the stdio calls on the input, on the output file and on standard output. The output is
absent, a file, or `-` (standard output, where the lines are printed too). 1048576 is the
default maximum frame size of a reader, which `fstrm_dump` uses. `NoFail` says that a sequence of outcomes
has no failure in it.
-/

set_option autoImplicit false

namespace Fstrm.Props

open Fstrm.Spec

/-! ### Soundness: every input, every error -/

/-- The runs of the program, for every output. -/
theorem dump_cases {fuel : Nat} {path : FilePath} {input : Option Bytes}
    {script sout : List Io} {dest : DumpDest} {o : DumpOut}
    (h : dump fuel path input script dest sout = .ok o) :
    (o.status = 1 ∧ o.stdout = []) ∨
    ∃ (ct : Option Bytes) (rest : Bytes), (∀ c, ct = some c → c.length ≤ 256) ∧
      input.getD [] = CFrame.wire ⟨.start, ct.toList⟩ ++ rest ∧
      ((o.status = 1 ∧ o.stdout <+: CFrame.wire ⟨.start, ct.toList⟩ ∧
        (dest ≠ .dash → o.stdout = [])) ∨
       ∃ (items : List Item) (tail : Bytes) (r1 : Reader FileSt) (s s1 s2 : DumpSt)
          (disk : Option Bytes) (rv : Nat) (ok : Bool),
        rest = wires items ++ tail ∧ (∀ it ∈ items, it.Ok 1048576) ∧
        DReady dest sout ct r1 s ∧ Body s (datas items) ok s1 ∧
        s2.cleanup rv disk = .ok o ∧ (rv = 0 ∨ rv = 1) ∧
        s2.w = s1.w ∧ s2.stdout = s1.stdout ∧ s2.dash = s1.dash ∧
        (rv = 0 → (CFrame.wire ⟨.stop, []⟩ <+: tail ∨ Cut tail) ∧ ok = true ∧
          s2.stderr = s1.stderr ++ [.stop])) := by
  unfold dump at h
  simp only at h
  split at h
  · cases h; exact Or.inl ⟨rfl, rfl⟩
  · rename_i r hr
    obtain ⟨hf, _, hm⟩ := fileReader_fresh hr
    obtain ⟨⟨res, r1⟩, h1, h⟩ := Exec.bind_eq_ok.1 h
    simp only at h
    have early : ∀ {s : DumpSt} {d : Option Bytes}, s.cleanup 1 d = .ok o → s.w = none →
        o.status = 1 ∧ o.stdout = s.stdout.exit.disk.getD [] := by
      intro s d h hw
      unfold DumpSt.cleanup at h
      obtain ⟨⟨a, b⟩, _, h⟩ := Exec.bind_eq_ok.1 h
      rw [hw] at h
      cases h
      exact ⟨rfl, rfl⟩
    rcases hf.open h1 with ⟨rfl, ct, rest, h3⟩ | ⟨_, _, h3⟩
    · simp only [ne_eq, not_true_eq_false, if_false] at h
      obtain ⟨⟨ok, s, disk⟩, h2, h⟩ := Exec.bind_eq_ok.1 h
      simp only at h
      refine Or.inr ⟨ct, rest, h3.ct_le, h3.all_eq, ?_⟩
      rcases DumpSt.openOutput_ok h3.state h3.start h3.ct_le h2 with ⟨rfl, hd⟩ | ⟨rfl, hr1, hw, ho1, ho2⟩
      · simp only [Bool.not_true, Bool.false_eq_true, if_false] at h
        obtain ⟨⟨rv, s2⟩, h4, h⟩ := Exec.bind_eq_ok.1 h
        simp only at h
        obtain ⟨ds, last, r2, H⟩ := DumpSt.loop_reads _ _ _ _ _ h4
        obtain ⟨m, hm2⟩ := H.reads
        rw [hd.r_eq] at hm2
        obtain ⟨items, tail, L⟩ := h3.rd.readLoop fuel m h3.state h3.stop h3.cap hm2
        have hds : ds = datas items ∧ (last = some .stop → CFrame.wire ⟨.stop, []⟩ <+: tail ∨ Cut tail) := by
          rcases L.cases with ⟨h5, h6⟩ | ⟨h5, _⟩
          · refine ⟨?_, fun hl => ?_⟩
            · exact List.map_inj_right (fun _ _ h => Option.some.inj h) |>.1 h5
            · rcases h6 with h6 | ⟨_, h6, _⟩ | ⟨_, h6, _⟩ | ⟨h6, _⟩
              · rw [h6] at hl; cases hl
              · exact Or.inl h6
              · exact Or.inr h6
              · rw [h6] at hl; cases hl
          · exfalso
            have : (none : Option Bytes) ∈ ds.map some := by rw [h5]; simp
            simp at this
        obtain ⟨rfl, htail⟩ := hds
        obtain ⟨s1, ok, m', b1, b2, b3, b4, -⟩ := H.body
        refine Or.inr ⟨items, tail, r1, s, s1, s2, disk, rv, ok, L.rest_eq, ?_, hd, b1, h, H.rv_le,
          by rw [b2], by rw [b2], by rw [b2], fun hz => ⟨htail (H.good hz), b3 hz, by rw [b2, b4 hz]⟩⟩
        have := L.ok
        rw [h3.max, hm] at this
        exact this
      · simp only [Bool.not_false, if_true] at h
        obtain ⟨c1, c2⟩ := early h hw
        exact Or.inl ⟨c1, by rw [c2]; exact ho1, fun hn => by rw [c2]; exact ho2 hn⟩
    · have hne : res ≠ .success := by
        rcases h3 with ⟨rfl, _⟩ | rfl <;> decide
      rw [if_pos hne] at h
      obtain ⟨c1, c2⟩ := early h rfl
      exact Or.inl ⟨c1, by rw [c2]; exact sout0_exit sout⟩

/-- **C54**, **C55**, **C103**. For every input (valid or not) and every sequence of I/O errors: what is
printed belongs to the lines of the data frames at the beginning of the stream in the input, and is exactly
these lines if printing does not fail. If the exit
status is 0, then these are all frames up to the STOP frame, or up to the frame in
which the input ends; and the output file holds exactly one stream with the same content type and
the same frames.
`_partial` for three reasons: a successful exit does not exclude truncated input
(`dump_accepts_truncated`) or missing lines (`dump_print_failure_unnoticed`), and an oversized frame is
undefined behaviour (`dump_oversize_ub`), in which case `dump` has no outcome. -/
theorem dump_faithful_partial (fuel : Nat) (path : FilePath) (input : Option Bytes)
    (script sout : List Io) (dest : DumpDest) (hdest : dest ≠ .dash) (o : DumpOut)
    (h : dump fuel path input script dest sout = .ok o) :
    (o.status = 1 ∧ o.stdout = []) ∨
    ∃ (ct : Option Bytes) (items : List Item) (tail : Bytes),
      input.getD [] = CFrame.wire ⟨.start, ct.toList⟩ ++ (wires items ++ tail) ∧
      (∀ c, ct = some c → c.length ≤ 256) ∧ (∀ it ∈ items, it.Ok 1048576) ∧
      o.stdout.Sublist (dumpLines (datas items)) ∧
      (NoFail sout → o.stdout = dumpLines (datas items)) ∧ (o.status = 0 ∨ o.status = 1) ∧
      (o.status = 0 →
        (CFrame.wire ⟨.stop, []⟩ <+: tail ∨ Cut tail) ∧
        (dest ≠ .none → o.output = some (stream ct (datas items))) ∧
        o.stderr = .start :: ct.toList.map .contentType ++
          (datas items).map (fun d => .data d.length) ++ [.stop]) := by
  rcases dump_cases h with h | ⟨ct, rest, hct, hin, ⟨h1, -, h2⟩ | ⟨items, tail, r1, s, s1, s2, disk, rv, ok,
      rfl, hok, hd, hb, hc, hrv, hw, hso, hda, hz0⟩⟩
  · exact Or.inl h
  · exact Or.inl ⟨h1, h2 hdest⟩
  · have hds : s.dash = false := by rw [hd.dash_eq]; simpa using hdest
    have hd2 : s2.dash = false := by rw [hda, hb.stderr.2]; exact hds
    have hs0 : s.stdout = sout0 sout := by
      rcases hd.w with ⟨_, _, h⟩ | ⟨_, _, _, _, _, _, _, _, h⟩ | ⟨h, _⟩
      · exact h
      · exact h
      · exact absurd h hdest
    obtain ⟨hcp, hout⟩ := hb.copied hds
    obtain ⟨u, u1, u2, u3⟩ := hout [] (by rw [hs0]; exact sout0_live sout)
    obtain ⟨x1, x2⟩ := u2.exit
    obtain ⟨c1, c2⟩ := DumpSt.cleanup_ok hc hd2
    rw [hso] at c1
    refine Or.inr ⟨ct, items, tail, hin, hct, hok, ?_, ?_, ?_, ?_⟩
    · rw [c1]; exact x1.sublist.trans u1
    · intro hn
      obtain ⟨v1, v2⟩ := u3 (by rw [hs0]; exact hn)
      rw [c1, x2 v2, v1]; rfl
    · rcases c2 with ⟨_, rfl⟩ | ⟨_, _, _, _, _, c3 | c3, _⟩
      · exact hrv
      · rw [c3]; exact hrv
      · exact Or.inr c3
    · intro hz
      have hrv : rv = 0 := by
        rcases c2 with ⟨_, rfl⟩ | ⟨_, _, _, _, _, c3 | c3, _⟩
        · exact hz
        · rw [← c3]; exact hz
        · rw [c3] at hz; cases hz
      obtain ⟨z1, z2, z3⟩ := hz0 hrv
      refine ⟨z1, ?_, ?_⟩
      · intro hne
        rcases hd.w with ⟨h5, _⟩ | ⟨d0, sc, w0, w1, h5, h6, h7, h8, _⟩ | ⟨h5, _⟩
        · exact absurd h5 hne
        · rcases hcp with ⟨h9, _⟩ | ⟨a, b, rs, h9, h10, h11, h12⟩
          · rw [h8] at h9; cases h9
          · rw [h8] at h9
            have h9 : w1 = a := Option.some.inj h9
            subst h9
            rcases c2 with ⟨h13, _⟩ | ⟨w, res, w', h13, h14, _, h15, h16⟩
            · rw [hw, h10] at h13; cases h13
            · rw [hw, h10] at h13
              have h13 : b = w := Option.some.inj h13
              subst h13
              have hres : res = .success := by
                by_cases hx : res = .success
                · exact hx
                · rw [h15 hx] at hz; cases hz
              subst hres
              have hops : w0.rdwr.ops = fileOps true := by
                rw [(init_some (fileWriter_init h6)).2.2.1]; rfl
              have hops2 : b.rdwr.ops = fileOps true := by
                rw [(run_reach h11).ops, (open_frame h7).2.1.ops, hops]
              rw [(h16 rfl).2.2 hops2]
              exact copied_disk h6 hct h7 h11 (h12 z2) h14
        · exact absurd h5 hdest
      · have hst : o.stderr = s2.stderr := by
          rcases c2 with ⟨_, rfl⟩ | ⟨w, res, w', _, _, _, h15, h16⟩
          · rfl
          · have hres : res = .success := by
              by_cases hx : res = .success
              · exact hx
              · rw [h15 hx] at hz; cases hz
            exact (h16 hres).2.1
        rw [hst, z3, hb.stderr.1, hd.err_eq]
        simp [startMsgs]

/-- **C104**. For every input, every sequence of I/O errors and the output `-`: standard output is a
leading part of: a START frame, then for every data frame of the beginning of the input its line (or what is left of
the line where printing failed) followed by the frame, then a STOP frame. With exit
status 0 it is all of that.
`_partial`: this is not a valid stream unless there are no data frames (`dump_dash_unreadable`). -/
theorem dump_dash_partial (fuel : Nat) (path : FilePath) (input : Option Bytes)
    (script sout : List Io) (o : DumpOut)
    (h : dump fuel path input script .dash sout = .ok o) :
    (o.status = 1 ∧ o.stdout = []) ∨
    ∃ (ct : Option Bytes) (items : List Item) (tail t : Bytes),
      input.getD [] = CFrame.wire ⟨.start, ct.toList⟩ ++ (wires items ++ tail) ∧
      (∀ it ∈ items, it.Ok 1048576) ∧ Mixed (datas items) t ∧
      o.stdout <+: CFrame.wire ⟨.start, ct.toList⟩ ++ t ++ CFrame.wire ⟨.stop, []⟩ ∧
      (o.status = 0 ∨ o.status = 1) ∧
      (o.status = 0 →
        (CFrame.wire ⟨.stop, []⟩ <+: tail ∨ Cut tail) ∧
        o.stdout = CFrame.wire ⟨.start, ct.toList⟩ ++ t ++ CFrame.wire ⟨.stop, []⟩ ∧
        o.stderr = .start :: ct.toList.map .contentType ++
          (datas items).map (fun d => .data d.length) ++ [.stop]) := by
  rcases dump_cases h with h | ⟨ct, rest, hct, hin, ⟨h1, h2, -⟩ | ⟨items, tail, r1, s, s1, s2, disk, rv, ok,
      rfl, hok, hd, hb, hc, hrv, hw, hso, hda, hz0⟩⟩
  · exact Or.inl h
  · refine Or.inr ⟨ct, [], rest, [], hin, by simp, .nil, ?_, Or.inr h1, fun hz => by rw [h1] at hz; cases hz⟩
    rw [List.append_nil]
    exact h2.trans (List.prefix_append _ _)
  · have hds : s.dash = true := by rw [hd.dash_eq]; simp
    have hd2 : s2.dash = true := by rw [hda, hb.stderr.2]; exact hds
    rcases hd.w with ⟨h5, _⟩ | ⟨d0, sc, w0, w1, h5, _⟩ | ⟨_, w0, w1, h5, h6, h7, h8⟩
    · cases h5
    · cases h5
    · have hsw : SW (s.attach w1) (CFrame.wire ⟨.start, ct.toList⟩) := by
        rcases swriter_open hct h5 h6 with ⟨_, g⟩ | ⟨g, _⟩
        · rw [attach_dash hds, h8]; exact g
        · exact absurd rfl g
      obtain ⟨t, w', m1, m2, m3, m4, m5⟩ := hb.mixed hds h7 hsw
      have hat : s2.attach w' = s1.attach w' := by
        rw [attach_dash hd2, attach_dash m2, hso]
      obtain ⟨c1, c2, c3⟩ := DumpSt.cleanup_dash (ok := ok) hc hd2 (hw.trans m3)
        (fun hk => by rw [hat]; exact (m4 hk).1) (fun hk => by rw [hat]; exact m5 hk)
      refine Or.inr ⟨ct, items, tail, t, hin, hok, m1, c1, ?_, fun hz => ?_⟩
      · rcases c2 with c2 | c2
        · rw [c2]; exact hrv
        · exact Or.inr c2
      · obtain ⟨d1, d2, d3⟩ := c3 hz
        obtain ⟨z1, z2, z3⟩ := hz0 d1
        refine ⟨z1, d2 z2, ?_⟩
        rw [d3, z3, hb.stderr.1, hd.err_eq]
        simp [startMsgs]

/-! ### Completeness: no I/O errors -/

/-- The program on a reader that can be opened, when no I/O fails on the output. -/
theorem dump_runs {fuel : Nat} {input : Bytes} {dest : DumpDest} {sout : List Io}
    {r r1 r2 : Reader FileSt} {ct : Option Bytes} {ds : List Bytes}
    (hr : fileReaderInit .file none (some input) [] = some r)
    (ho : r.open = .ok (.success, r1)) (hst : r1.state = .opened)
    (hs : r1.start = some ⟨T_START, ct.toList⟩) (hct : ∀ c, ct = some c → c.length ≤ 256)
    (hl : r1.readLoop fuel fuel = .ok (ds.map some, some .stop, r2)) (hr2 : r2.state ≠ .opening)
    (hne : ∀ d ∈ ds, d ≠ [])
    (hout : ∀ d sc, dest = .file d sc → NoFail sc) (hdash : dest = .dash → NoFail sout) :
    ∃ o, dump fuel .file (some input) [] dest sout = .ok o ∧ o.status = 0 ∧
      (dest ≠ .dash → NoFail sout → o.stdout = dumpLines ds) ∧
      (dest ≠ .dash → dest ≠ .none → o.output = some (stream ct ds)) ∧
      (dest = .dash → o.stdout = CFrame.wire ⟨.start, ct.toList⟩ ++
        ds.flatMap (fun d => dumpLines [d] ++ dataFrame d) ++ CFrame.wire ⟨.stop, []⟩) := by
  obtain ⟨i1, _, _, i4, _, i5, _⟩ := reader_init_some (fileReader_init hr)
  obtain ⟨s, d, h1, h2, h3⟩ := DumpSt.openOutput_complete (sout := sout) hst hs hct hout hdash
  have hd : DReady dest sout ct r1 s := by
    rcases DumpSt.openOutput_ok hst hs hct h1 with ⟨_, h⟩ | ⟨h, _⟩
    · exact h
    · cases h
  rw [← hd.r_eq] at hl
  have hk : Kept r r2 := by
    have k1 := (reader_open_ok ho).1
    exact k1.trans (readLoop_kept fuel fuel (Nat.le_trans (by omega) k1.cap) (hd.r_eq ▸ hl))
  obtain ⟨p, hp⟩ := fileReader_destroy (by rw [i4]; rfl) (by rw [i4]; rfl) (by omega) hk
  have hrun : ∀ {s1 : DumpSt} {o : DumpOut},
      DumpSt.loop fuel fuel s = .ok (0, { s1 with r := r2, stderr := s1.stderr ++ [.stop] }) →
      DumpSt.cleanup 0 { s1 with r := r2, stderr := s1.stderr ++ [.stop] } d = .ok o →
      dump fuel .file (some input) [] dest sout = .ok o := by
    intro s1 o g1 c1
    unfold dump
    simp only
    rw [hr]
    simp only
    rw [ho, Exec.ok_bind]
    simp only [ne_eq, not_true_eq_false, if_false]
    rw [h1, Exec.ok_bind]
    simp only [Bool.not_true, Bool.false_eq_true, if_false]
    rw [g1, Exec.ok_bind]
    exact c1
  by_cases hda : dest = .dash
  · have hs1 : s.dash = true := by rw [hd.dash_eq, hda]; rfl
    obtain ⟨s1, g1, g2, g3⟩ := DumpSt.loop_complete fuel DashReady (fun s r h => h)
      (fun s d h => h.print d) (fun s w d hd h hw => h.write hd hw) fuel s ds r2 hl hr2 hne (h3 hda)
    obtain ⟨o, c1, c2⟩ := DumpSt.cleanup_complete_dash (rv := 0) (d := d)
      (s := { s1 with r := r2, stderr := s1.stderr ++ [.stop] }) hp g2
    refine ⟨o, hrun g3 c1, c2, fun h => absurd hda h, fun h => absurd hda h, fun _ => ?_⟩
    rcases hd.w with ⟨h5, _⟩ | ⟨d0, sc, w0, w1, h5, _⟩ | ⟨_, w0, w1, h5, h6, h7, h8⟩
    · rw [hda] at h5; cases h5
    · rw [hda] at h5; cases h5
    · have hsw : SW (s.attach w1) (CFrame.wire ⟨.start, ct.toList⟩) := by
        rcases swriter_open hct h5 h6 with ⟨_, g⟩ | ⟨g, _⟩
        · rw [attach_dash hs1, h8]; exact g
        · exact absurd rfl g
      obtain ⟨t, w', m1, m2, m3, m4, m5⟩ := g1.mixed hs1 h7 hsw
      obtain ⟨n1, n2⟩ := m4 rfl
      obtain ⟨n3, -⟩ := n2 (h3 hda).2.1 hne
      obtain ⟨e1, e2, e3⟩ := DumpSt.cleanup_dash (ok := true) c1 m2 m3 (fun _ => n1) nofun
      rw [(e3 c2).2.1 rfl, n3]
  · have hs1 : s.dash = false := by rw [hd.dash_eq]; simpa using hda
    obtain ⟨s1, g1, g2, g3⟩ := DumpSt.loop_complete fuel FileReady (fun s r h => h)
      (fun s d h => h.print d) (fun s w d hd h hw => h.write hd hw) fuel s ds r2 hl hr2 hne (h2 hda)
    obtain ⟨o, c1, c2⟩ := DumpSt.cleanup_complete (rv := 0) (d := d)
      (s := { s1 with r := r2, stderr := s1.stderr ++ [.stop] }) hp g2
    obtain ⟨e1, e2⟩ := DumpSt.cleanup_ok c1 g2.1
    obtain ⟨hcp, hso⟩ := g1.copied hs1
    refine ⟨o, hrun g3 c1, c2, fun _ hn => ?_, fun _ hne => ?_, fun h => absurd h hda⟩
    · have hs0 : s.stdout = sout0 sout := by
        rcases hd.w with ⟨_, _, h⟩ | ⟨_, _, _, _, _, _, _, _, h⟩ | ⟨h, _⟩
        · exact h
        · exact h
        · exact absurd h hda
      obtain ⟨u, u1, u2, u3⟩ := hso [] (by rw [hs0]; exact sout0_live sout)
      obtain ⟨v1, v2⟩ := u3 (by rw [hs0]; exact hn)
      rw [e1, u2.exit.2 v2, v1]; rfl
    · rcases hd.w with ⟨h, _⟩ | ⟨d0, sc, w0, w1, h5, h6, h7, h8, _⟩ | ⟨h, _⟩
      · exact absurd h hne
      · rcases hcp with ⟨h9, _⟩ | ⟨a, b, rs, h9, h10, h11, h12⟩
        · rw [h8] at h9; cases h9
        · rw [h8] at h9
          have h9 : w1 = a := Option.some.inj h9
          subst h9
          rcases e2 with ⟨e3, _⟩ | ⟨w, res, w2, e3, e4, _, e5, e6⟩
          · rw [h10] at e3; cases e3
          · rw [h10] at e3
            have e3 : b = w := Option.some.inj e3
            subst e3
            have hres : res = .success := by
              by_cases hx : res = .success
              · exact hx
              · rw [e5 hx] at c2; cases c2
            subst hres
            have hops : w0.rdwr.ops = fileOps true := by
              rw [(init_some (fileWriter_init h6)).2.2.1]; rfl
            have hops2 : b.rdwr.ops = fileOps true := by
              rw [(run_reach h11).ops, (open_frame h7).2.1.ops, hops]
            rw [(e6 rfl).2.2 hops2]
            exact copied_disk h6 hct h7 h11 (h12 rfl) e4
      · exact absurd h hda

theorem datas_length (items : List Item) : (datas items).length ≤ items.length := by
  induction items with
  | nil => simp [datas]
  | cons it items ih => cases it <;> simp [datas] <;> omega

/-- The first `k` bytes of a stream, `k` at least the length of the START frame. -/
theorem dump_prefix (ct : Option Bytes) (items : List Item) (rest : Bytes) (k fuel : Nat)
    (dest : DumpDest) (sout : List Io)
    (hct : ∀ c, ct = some c → c.length ≤ 256) (hitems : ∀ it ∈ items, it.Ok 1048576)
    (hk : (CFrame.wire ⟨.start, ct.toList⟩).length ≤ k) (hfuel : items.length + 2 ≤ fuel)
    (hout : ∀ d sc, dest = .file d sc → NoFail sc) (hdash : dest = .dash → NoFail sout) :
    ∃ o, dump fuel .file (some ((CFrame.wire ⟨.start, ct.toList⟩ ++
        (wires items ++ (CFrame.wire ⟨.stop, []⟩ ++ rest))).take k)) [] dest sout = .ok o ∧
      o.status = 0 ∧
      (dest ≠ .dash → NoFail sout →
        o.stdout = dumpLines (contained (k - (CFrame.wire ⟨.start, ct.toList⟩).length) items)) ∧
      (dest ≠ .dash → dest ≠ .none → o.output = some (stream ct
        (contained (k - (CFrame.wire ⟨.start, ct.toList⟩).length) items))) ∧
      (dest = .dash → o.stdout = CFrame.wire ⟨.start, ct.toList⟩ ++
        (contained (k - (CFrame.wire ⟨.start, ct.toList⟩).length) items).flatMap
          (fun d => dumpLines [d] ++ dataFrame d) ++ CFrame.wire ⟨.stop, []⟩) := by
  rw [take_append_ge (by omega)]
  have hinit : ∃ r, fileReaderInit .file none (some (CFrame.wire ⟨.start, ct.toList⟩ ++
      (wires items ++ (CFrame.wire ⟨.stop, []⟩ ++ rest)).take
        (k - (CFrame.wire ⟨.start, ct.toList⟩).length))) [] = some r := ⟨_, rfl⟩
  obtain ⟨r, hr⟩ := hinit
  obtain ⟨r1, a1, b1, b2, b3, b4, b5, b6, _⟩ := open_uni_at none r ct _ (fileReader_init hr)
    (file_serves _) rfl hct
  obtain ⟨c1, c2⟩ := b6 (Or.inl rfl)
  obtain ⟨fuel, rfl⟩ : ∃ m, fuel = m + 1 := ⟨fuel - 1, by omega⟩
  have hcl := contained_le (k - (CFrame.wire ⟨.start, ct.toList⟩).length) items
  have hdl := datas_length items
  obtain ⟨last, r2, e1, _, e3, e4⟩ := contLoop_items items
    (k - (CFrame.wire ⟨.start, ct.toList⟩).length) (fuel + 1) (fuel + 1) fuel rest r1 c1
    (by omega) (by rw [b3]; exact hitems) a1 (by omega) (by omega) (by omega)
  have hlast : last = .stop ∧ r2.state ≠ .opening := by
    by_cases hk2 : (wires items).length + 12 ≤ k - (CFrame.wire ⟨.start, ct.toList⟩).length
    · obtain ⟨f1, f2, _⟩ := e3 hk2
      exact ⟨f1, by rw [f2]; decide⟩
    · obtain ⟨f1, f2, _⟩ := e4 (by omega)
      exact ⟨f1, by rw [f2]; decide⟩
  obtain ⟨rfl, hst⟩ := hlast
  rw [← readLoop_opened (fuel + 1) fuel c1] at e1
  have hne : ∀ k, ∀ d ∈ contained k items, d ≠ [] := by
    clear hr hfuel e1 e3 e4 a1 hcl hdl
    induction items with
    | nil => simp [contained]
    | cons it items ih =>
      intro k d hd
      have ih := ih (fun x hx => hitems x (by simp [hx]))
      cases it with
      | data x =>
        have hx := hitems (.data x) (by simp)
        unfold contained at hd
        split at hd
        · rcases List.mem_cons.1 hd with rfl | hd
          · intro h; subst h; simp [Item.Ok] at hx
          · exact ih _ d hd
        · simp at hd
      | ctl f =>
        unfold contained at hd
        split at hd
        · exact ih _ d hd
        · simp at hd
  exact dump_runs hr c2 c1 b4 hct e1 hst (hne _) hout hdash

/-- **C54**. For every well-formed stream, if no I/O fails on input and output file, `fstrm_dump` succeeds
and the output file is one stream with the same content type and exactly the same frames; if no I/O fails on
standard output either, it prints every frame. With the output `-`, lines and frames alternate.
(`_partial`: frames above 1048576 bytes are undefined behaviour, `dump_oversize_ub`.) -/
theorem dump_copies_partial (ct : Option Bytes) (items : List Item) (rest : Bytes) (fuel : Nat)
    (dest : DumpDest) (sout : List Io)
    (hct : ∀ c, ct = some c → c.length ≤ 256) (hitems : ∀ it ∈ items, it.Ok 1048576)
    (hfuel : items.length + 2 ≤ fuel)
    (hout : ∀ d sc, dest = .file d sc → NoFail sc) (hdash : dest = .dash → NoFail sout) :
    ∃ o, dump fuel .file (some (CFrame.wire ⟨.start, ct.toList⟩ ++
        (wires items ++ (CFrame.wire ⟨.stop, []⟩ ++ rest)))) [] dest sout = .ok o ∧
      o.status = 0 ∧ (dest ≠ .dash → NoFail sout → o.stdout = dumpLines (datas items)) ∧
      (dest ≠ .dash → dest ≠ .none → o.output = some (stream ct (datas items))) ∧
      (dest = .dash → o.stdout = CFrame.wire ⟨.start, ct.toList⟩ ++
        (datas items).flatMap (fun d => dumpLines [d] ++ dataFrame d) ++ CFrame.wire ⟨.stop, []⟩) := by
  have h := dump_prefix ct items rest (CFrame.wire ⟨.start, ct.toList⟩ ++
        (wires items ++ (CFrame.wire ⟨.stop, []⟩ ++ rest))).length fuel dest sout hct hitems
        (by simp) hfuel hout hdash
  rw [List.take_length, contained_all items _ (by simp)] at h
  exact h

/-- **C55** is false: for every stream and every cut after its START frame and before the end of its
STOP frame, `fstrm_dump` exits with success, having copied the complete frames before the cut. -/
theorem dump_accepts_truncated (ct : Option Bytes) (items : List Item) (k fuel : Nat)
    (dest : DumpDest) (sout : List Io)
    (hct : ∀ c, ct = some c → c.length ≤ 256) (hitems : ∀ it ∈ items, it.Ok 1048576)
    (hk : (CFrame.wire ⟨.start, ct.toList⟩).length ≤ k) (hfuel : items.length + 2 ≤ fuel)
    (_ : k < (CFrame.wire ⟨.start, ct.toList⟩ ++ (wires items ++ CFrame.wire ⟨.stop, []⟩)).length)
    (hout : ∀ d sc, dest = .file d sc → NoFail sc) (hdash : dest = .dash → NoFail sout) :
    ∃ o, dump fuel .file (some ((CFrame.wire ⟨.start, ct.toList⟩ ++
        (wires items ++ CFrame.wire ⟨.stop, []⟩)).take k)) [] dest sout = .ok o ∧
      o.status = 0 ∧
      (dest ≠ .dash → dest ≠ .none → o.output = some (stream ct
        (contained (k - (CFrame.wire ⟨.start, ct.toList⟩).length) items))) := by
  obtain ⟨o, h1, h2, _, h3, _⟩ := dump_prefix ct items [] k fuel dest sout hct hitems hk hfuel hout hdash
  rw [List.append_nil] at h1
  exact ⟨o, h1, h2, h3⟩

/-- **C54** fails for oversized frames, whatever their length and contents: `fstrm_dump` then uses
an uninitialised pointer. -/
theorem dump_oversize_ub (ct : Option Bytes) (n fuel : Nat) (rest : Bytes) (sout : List Io)
    (hct : ∀ c, ct = some c → c.length ≤ 256) (hn : 1048576 < n) (hn2 : n < 2^32) :
    dump (fuel + 1) .file (some (CFrame.wire ⟨.start, ct.toList⟩ ++ (be32 n ++ rest))) [] .none sout =
      .error (.ub "uninitialised data pointer") := by
  have hinit : ∃ r, fileReaderInit .file none (some (CFrame.wire ⟨.start, ct.toList⟩ ++
      (be32 n ++ rest))) [] = some r := ⟨_, rfl⟩
  obtain ⟨r, hr⟩ := hinit
  obtain ⟨r1, a1, b1, b2, b3, b4, b5, b6, _⟩ := open_uni_at none r ct _ (fileReader_init hr)
    (file_serves _) rfl hct
  obtain ⟨c1, c2⟩ := b6 (Or.inl rfl)
  obtain ⟨s, d, h1, _, h3⟩ := DumpSt.openOutput_complete (dest := .none) (sout := sout) c1 b4 hct
    nofun nofun
  have hd : DReady .none sout ct r1 s := by
    rcases DumpSt.openOutput_ok c1 b4 hct h1 with ⟨_, h⟩ | ⟨h, _⟩
    · exact h
    · cases h
  obtain ⟨rw, e1, a2, o1⟩ := readBe32_at a1 hn2
  have hread : s.r.read (fuel+1) = .ok (.success, none, { r1 with rdwr := rw, state := .failed }) := by
    rw [hd.r_eq, read_opened _ c1]
    unfold Reader.nextData
    rw [e1, Exec.ok_bind]
    simp only [ne_eq, not_true_eq_false, if_false]
    rw [if_pos (by omega)]
    unfold Reader.dataFrame
    rw [if_pos (by simp only [b3]; exact hn)]
  unfold dump
  simp only
  rw [hr]
  simp only
  rw [c2, Exec.ok_bind]
  simp only [ne_eq, not_true_eq_false, if_false]
  rw [h1, Exec.ok_bind]
  simp only [Bool.not_true, Bool.false_eq_true, if_false]
  unfold DumpSt.loop
  rw [hread]
  rfl

/-! ### C68 -/

/-- The lines of `dumpLines` are printable, one per frame. -/
theorem dump_lines_printable (ds : List Bytes) :
    (dumpLines ds).count 10 = ds.length ∧ ∀ c ∈ dumpLines ds, c = 10 ∨ (32 ≤ c ∧ c ≤ 126) := by
  have key : ∀ d, ∀ c ∈ printString d, 32 ≤ c ∧ c ≤ 126 := by
    intro d c hc
    obtain ⟨body, h1, h2⟩ := print_printable d
    rw [h1] at hc
    simp only [List.mem_append, List.mem_singleton] at hc
    rcases hc with (rfl | hc) | rfl
    · decide
    · exact h2 c hc
    · decide
  induction ds with
  | nil => simp [dumpLines]
  | cons d ds ih =>
    have hd : dumpLines (d :: ds) = 32 :: (printString d ++ [10]) ++ dumpLines ds := by
      simp [dumpLines]
    have h0 : (printString d).count 10 = 0 := by
      rw [List.count_eq_zero]
      intro h
      have := (key d 10 h).1
      revert this; decide
    rw [hd]
    constructor
    · simp only [List.cons_append, List.count_cons, List.count_append, h0, ih.1, List.count_nil]
      simp; omega
    · intro c hc
      simp only [List.cons_append, List.mem_cons, List.mem_append, List.not_mem_nil, or_false] at hc
      rcases hc with rfl | (hc | rfl) | hc
      · exact Or.inr (by decide)
      · exact Or.inr (key d c hc)
      · exact Or.inl rfl
      · exact ih.2 c hc

/-- **C68**. Whatever the input and whatever fails (with no output, or an output other than `-`): what
`fstrm_dump` has printed when it ends are printable ASCII characters and newlines; if printing does not fail, one line
per data frame of the leading part of the input that it read, in order. (The newlines are exactly the line ends.) -/
theorem dump_prints_lines (fuel : Nat) (path : FilePath) (input : Option Bytes)
    (script sout : List Io) (dest : DumpDest) (hdest : dest ≠ .dash) (o : DumpOut)
    (h : dump fuel path input script dest sout = .ok o) :
    (∀ c ∈ o.stdout, c = 10 ∨ (32 ≤ c ∧ c ≤ 126)) ∧
    ((o.status = 1 ∧ o.stdout = []) ∨
      ∃ (ct : Option Bytes) (items : List Item) (tail : Bytes),
        input.getD [] = CFrame.wire ⟨.start, ct.toList⟩ ++ (wires items ++ tail) ∧
        (o.status = 0 → CFrame.wire ⟨.stop, []⟩ <+: tail ∨ Cut tail) ∧
        (NoFail sout → o.stdout.count 10 = (datas items).length ∧
          o.stdout = (datas items).flatMap fun d => 32 :: (printString d ++ [10]))) := by
  rcases dump_faithful_partial fuel path input script sout dest hdest o h with
    ⟨h1, h2⟩ | ⟨ct, items, tail, h1, _, _, h3, h4, _, h5⟩
  · exact ⟨by rw [h2]; simp, Or.inl ⟨h1, h2⟩⟩
  · obtain ⟨l1, l2⟩ := dump_lines_printable (datas items)
    refine ⟨fun c hc => l2 c (h3.subset hc), Or.inr ⟨ct, items, tail, h1, fun hz => (h5 hz).1, fun hn => ?_⟩⟩
    rw [← h4 hn] at l1
    exact ⟨l1, h4 hn⟩

/-! ### C103: printing can fail unnoticed -/

/-- **C103** is false: whatever happens on standard output, `fstrm_dump` without an output file exits with
success on every well-formed stream … -/
theorem dump_print_failure_unnoticed (ct : Option Bytes) (items : List Item) (rest : Bytes) (fuel : Nat)
    (sout : List Io) (hct : ∀ c, ct = some c → c.length ≤ 256) (hitems : ∀ it ∈ items, it.Ok 1048576)
    (hfuel : items.length + 2 ≤ fuel) :
    ∃ o, dump fuel .file (some (CFrame.wire ⟨.start, ct.toList⟩ ++
        (wires items ++ (CFrame.wire ⟨.stop, []⟩ ++ rest)))) [] .none sout = .ok o ∧ o.status = 0 := by
  obtain ⟨o, h1, h2, -⟩ := dump_copies_partial ct items rest fuel .none sout hct hitems hfuel nofun nofun
  exact ⟨o, h1, h2⟩

/-- … including when nothing at all could be printed. -/
theorem dump_prints_nothing :
    dump 9 .file (some (stream none [[1, 2], [65]])) [] .none (List.replicate 12 (.fail 0)) =
      .ok ⟨0, [], [.start, .data 2, .data 1, .stop], none⟩ := by decide +kernel

/-! ### C104: the copy on standard output -/

theorem line_start (d rest : Bytes) (hd : d ≠ []) :
    ∃ n rest', dumpLines [d] ++ dataFrame d ++ rest = be32 n ++ rest' ∧ 1048576 < n ∧ n < 2^32 := by
  obtain ⟨x, y, l, hl⟩ : ∃ x y l, dumpLines [d] = 32 :: 34 :: x :: y :: l := by
    cases d with
    | nil => exact absurd rfl hd
    | cons c d =>
      have : ∃ x m, printByte c = x :: m := by
        unfold printByte
        split
        · split <;> exact ⟨_, _, rfl⟩
        · exact ⟨_, _, rfl⟩
      obtain ⟨x, m, hm⟩ := this
      have h2 : ∃ y l, m ++ (d.flatMap printByte ++ [34, 10]) = y :: l := by
        cases m with
        | cons y m => exact ⟨_, _, rfl⟩
        | nil =>
          cases hf : d.flatMap printByte with
          | nil => exact ⟨_, _, rfl⟩
          | cons y l => exact ⟨_, _, rfl⟩
      obtain ⟨y, l, h2⟩ := h2
      refine ⟨x, y, l, ?_⟩
      rw [← h2]
      simp [dumpLines, printString, hm]
  have hx := x.toNat_lt
  have hy := y.toNat_lt
  refine ⟨ntohl [32, 34, x, y], l ++ dataFrame d ++ rest, ?_, ?_, ?_⟩
  · rw [hl, ← htonl_eq, htonl_ntohl rfl]; simp
  · show 1048576 < ((32 * 256 + 34) * 256 + x.toNat) * 256 + y.toNat
    omega
  · show ((32 * 256 + 34) * 256 + x.toNat) * 256 + y.toNat < 2^32
    omega

/-- **C104** is false: for every well-formed stream with a data frame, `fstrm_dump` with the
output `-` succeeds when no I/O fails; but what it has written is not a stream of any frames a reader accepts, and
running `fstrm_dump` on it is undefined behaviour. -/
theorem dump_dash_unreadable (ct : Option Bytes) (items : List Item) (rest : Bytes) (fuel : Nat)
    (sout : List Io) (hct : ∀ c, ct = some c → c.length ≤ 256) (hitems : ∀ it ∈ items, it.Ok 1048576)
    (hfuel : items.length + 2 ≤ fuel) (hdata : datas items ≠ []) (hout : NoFail sout) :
    ∃ o, dump fuel .file (some (CFrame.wire ⟨.start, ct.toList⟩ ++
        (wires items ++ (CFrame.wire ⟨.stop, []⟩ ++ rest)))) [] .dash sout = .ok o ∧ o.status = 0 ∧
      (∀ fuel' sout', dump (fuel' + 1) .file (some o.stdout) [] .none sout' =
        .error (.ub "uninitialised data pointer")) ∧
      ∀ ct' items' rest', (∀ c, ct' = some c → c.length ≤ 256) → (∀ it ∈ items', it.Ok 1048576) →
        o.stdout ≠ CFrame.wire ⟨.start, ct'.toList⟩ ++ (wires items' ++ (CFrame.wire ⟨.stop, []⟩ ++ rest')) := by
  obtain ⟨o, h1, h2, -, -, h3⟩ := dump_copies_partial ct items rest fuel .dash sout hct hitems hfuel nofun
    (fun _ => hout)
  have hub : ∀ fuel' sout', dump (fuel' + 1) .file (some o.stdout) [] .none sout' =
      .error (.ub "uninitialised data pointer") := by
    intro fuel' sout'
    rw [h3 rfl]
    cases hds : datas items with
    | nil => exact absurd hds hdata
    | cons d ds =>
      have hd : d ≠ [] := by
        have : ∀ (items : List Item), (∀ it ∈ items, it.Ok 1048576) → ∀ d ∈ datas items, d ≠ [] := by
          intro items
          induction items with
          | nil => simp [datas]
          | cons it items ih =>
            intro hok d hd
            have ih := ih (fun x hx => hok x (by simp [hx]))
            cases it with
            | ctl f => exact ih d hd
            | data x =>
              rcases List.mem_cons.1 hd with rfl | hd
              · intro h; subst h
                have := hok (.data []) (by simp)
                simp [Item.Ok] at this
              · exact ih d hd
        exact this items hitems d (by rw [hds]; simp)
      obtain ⟨n, rest', e1, e2, e3⟩ := line_start d
        (ds.flatMap (fun d => dumpLines [d] ++ dataFrame d) ++ CFrame.wire ⟨.stop, []⟩) hd
      have : CFrame.wire ⟨.start, ct.toList⟩ ++
          (d :: ds).flatMap (fun d => dumpLines [d] ++ dataFrame d) ++ CFrame.wire ⟨.stop, []⟩ =
          CFrame.wire ⟨.start, ct.toList⟩ ++ (be32 n ++ rest') := by
        rw [← e1]; simp
      rw [this]
      exact dump_oversize_ub ct n fuel' rest' sout' hct e2 e3
  refine ⟨o, h1, h2, hub, ?_⟩
  intro ct' items' rest' hct' hitems' he
  obtain ⟨o2, k1, -⟩ := dump_copies_partial ct' items' rest' (items'.length + 1 + 1) .none [] hct' hitems'
    (by omega) nofun nofun
  rw [← he, hub] at k1
  cases k1

/-- **C104**. Without data frames in the input, the copy is a valid stream if the exit status is 0. -/
theorem dump_dash_empty (fuel : Nat) (path : FilePath) (input : Option Bytes)
    (script sout : List Io) (o : DumpOut) (h : dump fuel path input script .dash sout = .ok o)
    (hz : o.status = 0) :
    ∃ (ct : Option Bytes) (items : List Item) (tail : Bytes),
      input.getD [] = CFrame.wire ⟨.start, ct.toList⟩ ++ (wires items ++ tail) ∧
      (∀ it ∈ items, it.Ok 1048576) ∧ (CFrame.wire ⟨.stop, []⟩ <+: tail ∨ Cut tail) ∧
      (datas items = [] → o.stdout = stream ct []) := by
  rcases dump_dash_partial fuel path input script sout o h with ⟨h1, -⟩ | ⟨ct, items, tail, t, h1, hk, h2, -, -, h3⟩
  · rw [h1] at hz; cases hz
  · refine ⟨ct, items, tail, h1, hk, (h3 hz).1, fun hd => ?_⟩
    obtain ⟨-, h4, -⟩ := h3 hz
    rw [hd] at h2
    cases h2
    rw [h4]
    simp [stream]

/-! ### The arguments -/

/-- With no argument or more than two, `fstrm_dump` only prints its usage and fails; otherwise the first argument is
the input and the second, if any, the output. -/
theorem dump_arguments (fuel : Nat) (args : List DumpArg) (sout : List Io) :
    (args.length ≠ 1 → args.length ≠ 2 →
      dumpMain fuel args sout = .ok ⟨1, [], [.error "Usage"], none⟩) ∧
    (∀ i, args = [i] → dumpMain fuel args sout = dump fuel i.path i.contents i.script .none sout) ∧
    (∀ i o, args = [i, o] → dumpMain fuel args sout = dump fuel i.path i.contents i.script
      (if o.path = .dash then .dash else .file o.contents o.script) sout) := by
  refine ⟨fun h1 h2 => ?_, ?_, ?_⟩
  · unfold dumpMain
    split
    · simp at h1
    · simp at h2
    · rfl
  · rintro i rfl; rfl
  · rintro i o rfl; rfl

/-! ### Examples -/

/-- Not vacuous: a stream with two frames, an ACCEPT frame in between and bytes after STOP,
copied to a file that existed before. -/
example : (dump 9 .file (some (CFrame.wire ⟨.start, [[116]]⟩ ++ (wires [.data [1, 2], .ctl ⟨.accept, [[7]]⟩,
      .data [65]] ++ (CFrame.wire ⟨.stop, []⟩ ++ [9, 9])))) [] (.file (some [5]) [.ok 3]) [.ok 2]) =
    .ok ⟨0, dumpLines [[1, 2], [65]], [.start, .contentType [116], .data 2, .data 1, .stop],
      some (stream (some [116]) [[1, 2], [65]])⟩ := by decide +kernel

example : ∀ it ∈ [Item.data [1, 2], .ctl ⟨.accept, [[7]]⟩, .data [65]], it.Ok 1048576 := by
  intro it hit
  simp only [List.mem_cons, List.not_mem_nil, or_false] at hit
  rcases hit with rfl | rfl | rfl
  · simp [Item.Ok]
  · refine ⟨⟨by simp, nofun⟩, by decide +kernel, by decide⟩
  · simp [Item.Ok]

/-- A failing write on the output and a failing read are both reported. -/
example : ((dump 9 .file (some (stream none [[1], [2]])) [] (.file none [.ok 0, .ok 0, .ok 0, .ok 0, .fail 0]) []).map
      (·.status)) = .ok 1 ∧
    ((dump 9 .file (some (stream none [[1], [2]])) [.ok 0, .ok 0, .ok 0, .ok 0, .ok 0, .fail 0] .none []).map
      (fun o => (o.status, o.stdout))) = .ok (1, dumpLines []) := by
  constructor <;> decide +kernel

/-- Lines and frames on one standard output; and when writing a frame fails. -/
example : (dump 9 .file (some (stream none [[65], [66]])) [] .dash [.ok 2]).map (·.stdout) =
      .ok (CFrame.wire ⟨.start, []⟩ ++ ([32, 34, 65, 34, 10] ++ [0, 0, 0, 1, 65]) ++
        ([32, 34, 66, 34, 10] ++ [0, 0, 0, 1, 66]) ++ CFrame.wire ⟨.stop, []⟩) ∧
    (dump 9 .file (some (stream none [[65], [66]])) [] .dash
        [.ok 0, .ok 0, .fail 0, .ok 0, .ok 0, .ok 0, .fail 2]).map (fun o => (o.status, o.stdout)) =
      .ok (1, CFrame.wire ⟨.start, []⟩ ++ [32, 65, 34, 10] ++ [0, 0]) := by
  constructor <;> decide +kernel

example : dumpMain 9 [⟨.dash, some (stream none [[65]]), []⟩, ⟨.file, some [7], []⟩] [.ok 5] =
    .ok ⟨0, dumpLines [[65]], [.start, .data 1, .stop], some (stream none [[65]])⟩ := by decide +kernel

end Fstrm.Props
