import Verif.Lemmas.DumpInPlace
import Verif.Props.Dump

/-!
# fstrm_dump with one file as input and output (C127)

`dumpInPlace fuel input ahead script oscript sout` is the program run with a file that holds `input` as both
arguments. `ahead` is how much of it the C library has read when the output is opened, at least the START frame.
-/

set_option autoImplicit false

namespace Fstrm.Props

open Fstrm.Spec

/-- A writer of a named file that has been opened. -/
theorem outOpen_start {ct d : Option Bytes} {sc : List Io} {w w1 : Writer FileSt}
    (hct : ∀ c, ct = some c → c.length ≤ 256)
    (hi : fileWriterInit .file (some ⟨ct.toList⟩) d sc = some w)
    (he : w.open = .ok (.success, w1)) : OutOpen w1 (CFrame.wire ⟨.start, ct.toList⟩) := by
  obtain ⟨i1, i2, i3, _⟩ := init_some (fileWriter_init hi)
  have hcts : w.cts = ct.toList := by rw [i2]; rfl
  obtain ⟨c1, c2⟩ := startable (show ∀ c ∈ w.cts, c.length ≤ 256 by
    rw [hcts]; intro c hc; exact hct c (by simpa using hc))
  have hh : ct.toList.head?.toList = ct.toList := by cases ct <;> rfl
  rw [hcts, hh] at c1 c2
  unfold Writer.open at he
  rw [if_neg (by simp [i1])] at he
  obtain ⟨⟨res, rw⟩, h1, he⟩ := Exec.bind_eq_ok.1 he
  simp only at he
  split at he
  · rename_i hne; cases he; exact absurd rfl hne
  rename_i hs
  have hs : res = .success := by simpa using hs
  subst hs
  have h1' : rw.ops = fileOps true ∧ rw.opened = true ∧ FOpen rw.obj [] := by
    unfold Rdwr.open at h1
    rw [i3] at h1
    simp only [Rdwr.init, fileOps] at h1
    obtain ⟨⟨res, obj⟩, h2, h1⟩ := Exec.bind_eq_ok.1 h1
    have hres : res = .success := by
      simp only at h1
      split at h1
      · assumption
      · cases h1; rfl
    subst hres
    simp only [if_true] at h1
    cases h1
    refine ⟨rfl, rfl, ?_⟩
    unfold FileSt.opOpen at h2
    cases hf : (FileSt.init true false d sc).fopen with
    | mk ok s2 =>
    have hfp : (FileSt.init true false d sc).fp = false := rfl
    have hstd : (FileSt.init true false d sc).isStd = false := rfl
    rw [hfp, hstd, hf] at h2
    simp only [Bool.not_false, if_true, Bool.false_eq_true, if_false] at h2
    obtain ⟨f1, f2, ⟨rfl, f4, f5, f6⟩ | ⟨rfl, -⟩⟩ := FileSt.fopen_write (s := FileSt.init true false d sc) rfl hf
    · simp only [Bool.not_true, Bool.false_eq_true, if_false] at h2
      cases h2
      exact ⟨f1, f2, f4, [], f5, by rw [f6]; rfl⟩
    · simp at h2
  obtain ⟨o1, o2, o3⟩ := h1'
  have hrd : rw.ops.rd = none := by rw [o1]; rfl
  rw [hrd] at he
  simp only [Option.isSome_none, Bool.false_eq_true, if_false] at he
  rw [openUnidirectional_eq, sendStart_eq] at he
  simp only at he
  rw [writeControlFrame_eq, visible_toList] at he
  simp only [hcts, hh] at he
  rw [if_pos ⟨c1, c2⟩] at he
  obtain ⟨⟨res2, w2⟩, h2, he⟩ := Exec.bind_eq_ok.1 he
  obtain ⟨⟨res3, rw3⟩, h3, h2⟩ := Exec.bind_eq_ok.1 h2
  simp only at he
  split at he
  · rename_i hne; cases he; exact absurd rfl hne
  rename_i hs
  have hs : res2 = .success := by simpa using hs
  subst hs
  cases he
  cases h2
  unfold Rdwr.write at h3
  rw [o2, o1] at h3
  simp only [fileOps, if_true, Bool.not_true, Bool.false_eq_true, if_false] at h3
  obtain ⟨⟨res, obj⟩, h4, h3⟩ := Exec.bind_eq_ok.1 h3
  unfold FileSt.opWrite at h4
  rw [o3.fp] at h4
  simp only [Bool.not_true, Bool.false_eq_true, if_false] at h4
  rcases FileSt.writeLoop_ok _ _ _ _ _ o3 h4 with ⟨rfl, f⟩ | ⟨rfl, f⟩
  · simp only [ne_eq, not_true_eq_false, if_false] at h3
    cases h3
    exact ⟨rfl, rfl, rfl, by simpa using f⟩
  · simp only [ne_eq, reduceCtorEq, not_false_eq_true, if_true] at h3
    obtain ⟨_, _, h3⟩ := Exec.bind_eq_ok.1 h3
    cases h3

theorem openOutput_onDisk {d : Option Bytes} {sc : List Io} {ct : Option Bytes} {r : Reader FileSt}
    {so : FileSt} (V : Bytes) (hst : r.state = .opened) (hs : r.start = some ⟨T_START, ct.toList⟩)
    (hct : ∀ c, ct = some c → c.length ≤ 256) :
    DumpSt.openOutput ⟨r.onDisk V, none, false, so, []⟩ (.file d sc) =
      (DumpSt.openOutput ⟨r, none, false, so, []⟩ (.file d sc)).map
        (fun p => (p.1, { p.2.1 with r := r.onDisk V }, p.2.2)) := by
  unfold DumpSt.openOutput
  rw [if_neg (by simp), if_neg (by simp)]
  rw [DumpSt.processStartFrame_eq _ (s := ⟨r.onDisk V, none, false, so, []⟩) hst hs hct, Exec.ok_bind]
  rw [DumpSt.processStartFrame_eq _ (s := ⟨r, none, false, so, []⟩) hst hs hct, Exec.ok_bind]
  simp only [ne_eq, not_true_eq_false, if_false, Option.map_some, WriterOptions.init, List.nil_append]
  cases DumpDest.writer (.file d sc) (some ⟨ct.toList⟩) with
  | none => rfl
  | some w =>
    simp only [DumpSt.attach, Bool.false_eq_true, if_false]
    cases w.open with
    | error e => rfl
    | ok p =>
      obtain ⟨res, w1⟩ := p
      rw [Exec.ok_bind, Exec.ok_bind]
      simp only [DumpSt.detach, Bool.false_eq_true, if_false]
      by_cases hr : res = .success
      · rw [if_neg (by simpa using hr), if_neg (by simpa using hr)]; rfl
      · rw [if_pos hr, if_pos hr]
        cases w1.destroy with
        | error e => rfl
        | ok p => rfl

theorem cleanup_onDisk {rv : Nat} {s : DumpSt} {d : Option Bytes} {r : Reader FileSt}
    {p q : Res × Rdwr FileSt} (h1 : s.r.destroy = .ok p) (h2 : r.destroy = .ok q) :
    { s with r := r }.cleanup rv d = s.cleanup rv d := by
  obtain ⟨r0, sw, dash, so, er⟩ := s
  simp only at h1
  unfold DumpSt.cleanup
  rw [h1, h2, Exec.ok_bind, Exec.ok_bind]
  obtain ⟨p1, p2⟩ := p
  obtain ⟨q1, q2⟩ := q
  cases sw with
  | none => rfl
  | some w =>
    have ha : DumpSt.attach ⟨r, some w, dash, so, er⟩ w = DumpSt.attach ⟨r0, some w, dash, so, er⟩ w := rfl
    simp only
    rw [ha]
    cases (DumpSt.attach ⟨r0, some w, dash, so, er⟩ w).close with
    | error e => rfl
    | ok p =>
      obtain ⟨res, w1⟩ := p
      rw [Exec.ok_bind, Exec.ok_bind]
      simp only
      by_cases hr : res = .success
      · rw [if_neg (by simpa using hr), if_neg (by simpa using hr)]
        simp only
        have ha : (DumpSt.detach ⟨r, some w, dash, so, er⟩ w1).attach w1 =
          (DumpSt.detach ⟨r0, some w, dash, so, er⟩ w1).attach w1 := rfl
        rw [ha]
        cases ((DumpSt.detach ⟨r0, some w, dash, so, er⟩ w1).attach w1).destroy <;> rfl
      · rw [if_pos hr, if_pos hr]
        simp only
        have ha : ((DumpSt.detach ⟨r, some w, dash, so, er⟩ w1).say (.error "fstrm_writer_close")).attach w1 =
          ((DumpSt.detach ⟨r0, some w, dash, so, er⟩ w1).say (.error "fstrm_writer_close")).attach w1 := rfl
        rw [ha]
        cases (((DumpSt.detach ⟨r0, some w, dash, so, er⟩ w1).say
          (.error "fstrm_writer_close")).attach w1).destroy <;> rfl

/-- The run with one file is the run with two files on what had been read of the input. -/
theorem dumpInPlace_eq {fuel ahead : Nat} {input rest : Bytes} {script oscript sout : List Io}
    {r r1 : Reader FileSt} {ct : Option Bytes}
    (hr : fileReaderInit .file none (some input) script = some r)
    (ho : r.open = .ok (.success, r1)) (hf : FReady input r ct rest r1) :
    dumpInPlace fuel input ahead script oscript sout =
      dump fuel .file (some (input.take (max ahead (CFrame.wire ⟨.start, ct.toList⟩).length))) script
        (.file (some input) oscript) sout := by
  obtain ⟨hfr, _, _⟩ := fileReader_fresh hr
  obtain ⟨_, _, _, i4, _, _, _⟩ := reader_init_some (fileReader_init hr)
  have hrecv : received r1.rdwr.log = CFrame.wire ⟨.start, ct.toList⟩ :=
    List.append_cancel_right (hf.rd.split.symm.trans hf.all_eq)
  have hS : 0 < (CFrame.wire ⟨.start, ct.toList⟩).length := by
    simp [CFrame.wire, Spec.be32]
  have hlen := congrArg List.length hf.all_eq
  have hpos := congrArg List.length hf.rd.pos
  rw [List.length_append] at hlen
  rw [List.length_drop] at hpos
  generalize hSd : CFrame.wire ⟨.start, ct.toList⟩ = S at *
  obtain ⟨k, hk, hkl, hkS⟩ : ∃ k, k = min input.length (max ahead r1.rdwr.obj.pos) ∧
      k ≤ input.length ∧ S.length ≤ k := ⟨_, rfl, by omega, by omega⟩
  have htake : input.take (max ahead S.length) = input.take k := by
    by_cases hp : r1.rdwr.obj.pos ≤ input.length
    · have : r1.rdwr.obj.pos = S.length := by omega
      rw [hk, this]
      by_cases ha : max ahead S.length ≤ input.length
      · rw [Nat.min_eq_right ha]
      · rw [Nat.min_eq_left (by omega), List.take_length, List.take_of_length_le (by omega)]
    · rw [hk, Nat.min_eq_left (by omega), List.take_length, List.take_of_length_le (by omega)]
  rw [htake]
  have hVlen : (input.take k).length = k := by rw [List.length_take]; omega
  have hne : input.take k ≠ [] := by
    intro h; rw [h] at hVlen; simp at hVlen; omega
  have hpre : received r1.rdwr.log <+: input.take k := by
    rw [hrecv, hf.all_eq, hSd, List.take_append, List.take_of_length_le hkS]
    exact List.prefix_append _ _
  obtain ⟨ho2, restV, hV⟩ := hfr.open_cut ho hpre
  have hr2 : fileReaderInit .file none (some (input.take k)) script = some (r.onDisk (input.take k)) := by
    have hh := hr
    simp only [fileReaderInit, Reader.init, reduceCtorEq, if_false] at hh ⊢
    simp only [Rdwr.init, fileOps, Bool.false_eq_true, if_false, Option.isNone_some, Option.some.injEq] at hh ⊢
    rw [← hh]
    rfl
  have hk1 := (reader_open_ok ho).1
  have hcap := hfr.cap
  have hdes : ∀ {r' : Reader FileSt}, Kept r r' → ∃ p, r'.destroy = .ok p := fun h =>
    fileReader_destroy (by rw [i4]; rfl) (by rw [i4]; rfl) hcap h
  have hdes2 : ∃ p, (r1.onDisk (input.take k)).destroy = .ok p :=
    fileReader_destroy (r := r.onDisk (input.take k)) hfr.ops (by show r.rdwr.obj.isStd = _; rw [i4]; rfl) hcap
      (reader_open_ok ho2).1
  obtain ⟨p1, hp1⟩ := hdes hk1
  obtain ⟨p2, hp2⟩ := hdes2
  have hrestV : S.length + restV.length = k := by
    have := congrArg List.length hV.split
    rw [List.length_append, hVlen] at this
    have h2 : received (r1.onDisk (input.take k)).rdwr.log = S := hrecv
    rw [h2] at this
    omega
  unfold dumpInPlace dump
  simp only
  rw [hr, hr2]
  simp only
  rw [ho, ho2, Exec.ok_bind, Exec.ok_bind]
  simp only [ne_eq, not_true_eq_false, if_false, reduceCtorEq, decide_false]
  rw [openOutput_onDisk _ hf.state hf.start hf.ct_le]
  cases hoo : DumpSt.openOutput ⟨r1, none, false, FileSt.init true true (some []) sout, []⟩
      (.file (some input) oscript) with
  | error e => rfl
  | ok p =>
    obtain ⟨ok, s, d⟩ := p
    rw [Exec.ok_bind]
    simp only [Except.map]
    rw [Exec.ok_bind]
    simp only
    rcases DumpSt.openOutput_ok (dest := .file (some input) oscript) (sout := sout) hf.state hf.start hf.ct_le
      (by simpa using hoo) with ⟨rfl, hd⟩ | ⟨rfl, hsr, hsw, -⟩
    · simp only [Bool.not_true, Bool.false_eq_true, if_false]
      rcases hd.w with ⟨h5, _⟩ | ⟨d0, sc, w0, w1, -, h6, h7, h8, _⟩ | ⟨h5, _⟩
      · cases h5
      · have hoo := outOpen_start hf.ct_le h6 h7
        rw [hSd] at hoo
        have hrefill : s.refill input k = { s with r := r1.onDisk (input.take k) } := by
          rw [refill_onDisk h8 hoo hkS, hd.r_eq]
        have hin : InPlace (input.take k) { s with r := r1.onDisk (input.take k) } :=
          ⟨by show s.dash = false; rw [hd.dash_eq]; rfl, hf.state, hf.cap, w1, S, restV, h8, hoo, hV,
            by rw [hVlen]; omega⟩
        have hloop : DumpSt.loopInPlace input k fuel fuel s =
            DumpSt.loopInPlace input k fuel fuel { s with r := r1.onDisk (input.take k) } := by
          cases fuel with
          | zero => rfl
          | succ n =>
            unfold DumpSt.loopInPlace
            rw [hrefill, hin.refill hkl hne]
        rw [← hk, hloop, DumpSt.loopInPlace_eq hkl hne fuel fuel _ hin]
      · cases h5
    · simp only [Bool.not_false, if_true]
      exact (cleanup_onDisk (by rw [hsr]; exact hp1) hp2).symm

/-- **C127**. For every input, every amount read ahead and all I/O errors: either the program fails before opening the
output and leaves the file as it is, or it does what it would do with another output if the input ended where the C library
had read to when the output was opened.
`_partial`: what lies behind is lost (`dump_in_place_loses`). -/
theorem dump_in_place_partial (fuel ahead : Nat) (input : Bytes) (script oscript sout : List Io) (o : DumpOut)
    (h : dumpInPlace fuel input ahead script oscript sout = .ok o) :
    (o.status = 1 ∧ o.stdout = [] ∧ o.output = some input) ∨
    ∃ (ct : Option Bytes) (rest : Bytes), (∀ c, ct = some c → c.length ≤ 256) ∧
      input = CFrame.wire ⟨.start, ct.toList⟩ ++ rest ∧
      dump fuel .file (some (input.take (max ahead (CFrame.wire ⟨.start, ct.toList⟩).length))) script
        (.file (some input) oscript) sout = .ok o := by
  obtain ⟨r, hr⟩ : ∃ r, fileReaderInit .file none (some input) script = some r := ⟨_, rfl⟩
  obtain ⟨hfr, _, _⟩ := fileReader_fresh hr
  have h0 := h
  unfold dumpInPlace at h
  simp only at h
  rw [hr] at h
  simp only at h
  obtain ⟨⟨res, r1⟩, h1, h⟩ := Exec.bind_eq_ok.1 h
  rcases hfr.open h1 with ⟨rfl, ct, rest, hf⟩ | ⟨_, _, h3⟩
  · exact Or.inr ⟨ct, rest, hf.ct_le, hf.all_eq, by rw [← dumpInPlace_eq (ahead := ahead) hr h1 hf]; exact h0⟩
  · have hne : res ≠ .success := by
      rcases h3 with ⟨rfl, _⟩ | rfl <;> decide
    simp only at h
    rw [if_pos hne] at h
    unfold DumpSt.cleanup at h
    obtain ⟨_, _, h⟩ := Exec.bind_eq_ok.1 h
    cases h
    exact Or.inl ⟨rfl, sout0_exit sout, rfl⟩

/-- What happens to a stream when no I/O fails. -/
theorem dump_in_place_exact (ct : Option Bytes) (items : List Item) (rest : Bytes) (ahead fuel : Nat)
    (oscript sout : List Io)
    (hct : ∀ c, ct = some c → c.length ≤ 256) (hitems : ∀ it ∈ items, it.Ok 1048576)
    (hfuel : items.length + 2 ≤ fuel) (hout : NoFail oscript) (hs : NoFail sout) :
    ∃ o, dumpInPlace fuel (CFrame.wire ⟨.start, ct.toList⟩ ++
        (wires items ++ (CFrame.wire ⟨.stop, []⟩ ++ rest))) ahead [] oscript sout = .ok o ∧
      o.status = 0 ∧
      o.stdout = dumpLines (contained (ahead - (CFrame.wire ⟨.start, ct.toList⟩).length) items) ∧
      o.output = some (stream ct
        (contained (ahead - (CFrame.wire ⟨.start, ct.toList⟩).length) items)) := by
  obtain ⟨r, hr⟩ : ∃ r, fileReaderInit .file none (some (CFrame.wire ⟨.start, ct.toList⟩ ++
        (wires items ++ (CFrame.wire ⟨.stop, []⟩ ++ rest)))) [] = some r := ⟨_, rfl⟩
  obtain ⟨hfr, _, _⟩ := fileReader_fresh hr
  obtain ⟨r1, a1, b1, b2, b3, b4, b5, b6, _⟩ := open_uni_at none r ct _ (fileReader_init hr)
    (file_serves _) rfl hct
  obtain ⟨c1, c2⟩ := b6 (Or.inl rfl)
  rcases hfr.open c2 with ⟨-, ct', rest', hf⟩ | ⟨_, _, ⟨h3, _⟩ | h3⟩
  · have hcc : ct' = ct := by
      have := hf.start
      rw [b4] at this
      simp only [Option.some.injEq, Control.mk.injEq, true_and] at this
      cases ct <;> cases ct' <;> simp_all
    subst hcc
    rw [dumpInPlace_eq hr c2 hf]
    obtain ⟨o, h1, h2, h3, h4, -⟩ := dump_prefix ct' items rest
      (max ahead (CFrame.wire ⟨.start, ct'.toList⟩).length) fuel
      (.file (some (CFrame.wire ⟨.start, ct'.toList⟩ ++
        (wires items ++ (CFrame.wire ⟨.stop, []⟩ ++ rest)))) oscript) sout hct hitems (by omega) hfuel
      (by rintro d sc ⟨⟩; exact hout) nofun
    have hk : max ahead (CFrame.wire ⟨.start, ct'.toList⟩).length - (CFrame.wire ⟨.start, ct'.toList⟩).length =
      ahead - (CFrame.wire ⟨.start, ct'.toList⟩).length := by omega
    rw [hk] at h3 h4
    exact ⟨o, h1, h2, h3 nofun hs, h4 nofun nofun⟩
  · cases h3
  · cases h3

theorem contained_prefix (pre post : List Item) (d : Bytes) (k : Nat)
    (h : k < (wires pre).length + (4 + d.length)) :
    contained k (pre ++ .data d :: post) <+: datas pre := by
  induction pre generalizing k with
  | nil =>
    rw [List.nil_append, contained, if_neg (by simp [wires] at h; omega)]
    exact List.nil_prefix
  | cons it pre ih =>
    have hw : (wires (it :: pre)).length = it.wire.length + (wires pre).length := by simp [wires]
    cases it with
    | data x =>
      have hl : (Item.wire (.data x)).length = 4 + x.length := by
        simp [Item.wire, Spec.dataFrame, length_be32]
      rw [List.cons_append, contained, datas]
      split
      · exact List.cons_prefix_cons.2 ⟨rfl, ih _ (by omega)⟩
      · exact List.nil_prefix
    | ctl f =>
      have hl : (Item.wire (.ctl f)).length = 8 + f.payload.length := length_item_ctl f
      rw [List.cons_append, contained, datas]
      split
      · exact ih _ (by omega)
      · exact List.nil_prefix

/-- **C127** is false: for every stream, every data frame of it that was not completely read ahead when the output was opened
is lost, with everything behind it; the program exits with success. -/
theorem dump_in_place_loses (ct : Option Bytes) (pre post : List Item) (d rest : Bytes) (ahead fuel : Nat)
    (oscript sout : List Io)
    (hct : ∀ c, ct = some c → c.length ≤ 256)
    (hitems : ∀ it ∈ pre ++ .data d :: post, it.Ok 1048576)
    (hfuel : (pre ++ .data d :: post).length + 2 ≤ fuel) (hout : NoFail oscript) (hs : NoFail sout)
    (hahead : ahead < (CFrame.wire ⟨.start, ct.toList⟩ ++ (wires pre ++ dataFrame d)).length) :
    ∃ o ds, dumpInPlace fuel (CFrame.wire ⟨.start, ct.toList⟩ ++
        (wires (pre ++ .data d :: post) ++ (CFrame.wire ⟨.stop, []⟩ ++ rest))) ahead [] oscript sout = .ok o ∧
      o.status = 0 ∧ o.output = some (stream ct ds) ∧ ds <+: datas pre := by
  obtain ⟨o, h1, h2, -, h4⟩ := dump_in_place_exact ct (pre ++ .data d :: post) rest ahead fuel oscript sout hct
    hitems hfuel hout hs
  refine ⟨o, _, h1, h2, h4, contained_prefix pre post d _ ?_⟩
  simp only [List.length_append, Spec.dataFrame, length_be32] at hahead
  omega

/-- **C127**. If everything up to the last frame was read ahead, the file afterwards holds the same frames. -/
theorem dump_in_place_keeps (ct : Option Bytes) (items : List Item) (rest : Bytes) (ahead fuel : Nat)
    (oscript sout : List Io)
    (hct : ∀ c, ct = some c → c.length ≤ 256) (hitems : ∀ it ∈ items, it.Ok 1048576)
    (hfuel : items.length + 2 ≤ fuel) (hout : NoFail oscript) (hs : NoFail sout)
    (hahead : (CFrame.wire ⟨.start, ct.toList⟩ ++ wires items).length ≤ ahead) :
    ∃ o, dumpInPlace fuel (CFrame.wire ⟨.start, ct.toList⟩ ++
        (wires items ++ (CFrame.wire ⟨.stop, []⟩ ++ rest))) ahead [] oscript sout = .ok o ∧
      o.status = 0 ∧ o.stdout = dumpLines (datas items) ∧ o.output = some (stream ct (datas items)) := by
  obtain ⟨o, h1, h2, h3, h4⟩ := dump_in_place_exact ct items rest ahead fuel oscript sout hct
    hitems hfuel hout hs
  rw [List.length_append] at hahead
  rw [contained_all items _ (by omega)] at h3 h4
  exact ⟨o, h1, h2, h3, h4⟩

/-! ### Examples -/

/-- Three frames, of which the first two had been read ahead; the third is lost. With everything read ahead none
is. -/
example :
    dumpInPlace 9 (stream none [[65], [66, 67], [68]]) 25 [] [.ok 3, .ok 1, .ok 40] [] =
      .ok ⟨0, dumpLines [[65], [66, 67]], [.start, .data 1, .data 2, .stop],
        some (stream none [[65], [66, 67]])⟩ ∧
    (dumpInPlace 9 (stream none [[65], [66, 67], [68]]) 4096 [] [.ok 3, .ok 1, .ok 40] []).map (·.output) =
      .ok (some (stream none [[65], [66, 67], [68]])) := by
  constructor <;> decide +kernel

/-- A write that fails, after the file was truncated; and a file that is not a stream. -/
example :
    (dumpInPlace 9 (stream none [[65], [66, 67], [68]]) 4096 [] [.ok 0, .ok 0, .ok 0, .fail 0] []).map
      (fun o => (o.status, o.output)) = .ok (1, some (CFrame.wire ⟨.start, []⟩ ++ [0, 0, 0, 1])) ∧
    (dumpInPlace 9 [1, 2, 3, 4, 5] 4096 [] [] []).map (fun o => (o.status, o.output)) =
      .ok (1, some [1, 2, 3, 4, 5]) := by
  constructor <;> decide +kernel

example : (∀ it ∈ [Item.data [65]] ++ .data [66, 67] :: [.ctl ⟨.accept, [[7]]⟩], it.Ok 1048576) ∧
    21 < (CFrame.wire ⟨.start, []⟩ ++ (wires [Item.data [65]] ++ dataFrame [66, 67])).length := by
  refine ⟨?_, by decide +kernel⟩
  intro it hit
  simp only [List.cons_append, List.nil_append, List.mem_cons, List.not_mem_nil, or_false] at hit
  rcases hit with rfl | rfl | rfl
  · simp [Item.Ok]
  · simp [Item.Ok]
  · refine ⟨⟨by simp, nofun⟩, by decide +kernel, by decide⟩

end Fstrm.Props
