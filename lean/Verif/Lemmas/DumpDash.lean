import Verif.Lemmas.Dump
import Verif.Lemmas.Stdout
import Verif.Props.Stdout

/-! `fstrm_dump` with `-` as output: the writer and the printed lines share standard output. -/

set_option autoImplicit false

namespace Fstrm

open Spec Props

theorem SOpen.live {s : FileSt} {t : Bytes} (h : SOpen [] s t) : SLive s t := by
  obtain ⟨d, h1, h2⟩ := h.cont
  exact ⟨h.write, h.std, h.alive, by rw [h1]; exact h2⟩

theorem SLive.opened {s : FileSt} {t : Bytes} (h : SLive s t) (hf : s.fp = true) : SOpen [] s t :=
  ⟨h.write, h.std, hf, h.alive, _, rfl, h.cont⟩

/-- The transport of the open writer. -/
structure SR (rw : Rdwr FileSt) (t : Bytes) : Prop where
  ops : rw.ops = fileOps true
  opened : rw.opened = true
  obj : SOpen [] rw.obj t

/-- The same after an error or closing, when `t` was to be written. -/
structure SDead (rw : Rdwr FileSt) (t : Bytes) (full : Bool) : Prop where
  ops : rw.ops = fileOps true
  closed : rw.opened = false
  obj : SClosed [] rw.obj t full

theorem SR.write {rw rw' : Rdwr FileSt} {t : Bytes} {iov : List Bytes} {r : Res} (h : SR rw t)
    (he : rw.write iov = .ok (r, rw')) :
    (r = .success ∧ SR rw' (t ++ iov.flatten)) ∨ (r = .failure ∧ SDead rw' (t ++ iov.flatten) false) := by
  unfold Rdwr.write at he
  rw [h.opened, h.ops] at he
  simp only [fileOps, if_true, Bool.not_true, Bool.false_eq_true, if_false] at he
  obtain ⟨⟨res, obj⟩, h1, he⟩ := Exec.bind_eq_ok.1 he
  unfold FileSt.opWrite at h1
  rw [h.obj.fp] at h1
  simp only [Bool.not_true, Bool.false_eq_true, if_false] at h1
  rcases SOpen.writeLoop iov _ _ _ _ h.obj h1 with ⟨rfl, h2⟩ | ⟨rfl, h2⟩
  · simp only [ne_eq, not_true_eq_false, if_false] at he
    cases he
    exact Or.inl ⟨rfl, rfl, rfl, h2⟩
  · simp only [ne_eq, reduceCtorEq, not_false_eq_true, if_true] at he
    obtain ⟨⟨r2, rw2⟩, h3, he⟩ := Exec.bind_eq_ok.1 he
    cases he
    unfold Rdwr.close at h3
    simp only [if_true] at h3
    obtain ⟨⟨r3, obj3⟩, h4, h3⟩ := Exec.bind_eq_ok.1 h3
    unfold FileSt.opClose at h4
    rw [h2.fp] at h4
    simp only [Bool.false_eq_true, if_false] at h4
    cases h4
    cases h3
    exact Or.inr ⟨rfl, rfl, rfl, h2⟩

theorem SR.close {rw rw' : Rdwr FileSt} {t : Bytes} {r : Res} (h : SR rw t)
    (he : rw.close = .ok (r, rw')) : SDead rw' t (decide (r = .success)) := by
  unfold Rdwr.close at he
  rw [h.opened, h.ops] at he
  simp only [fileOps, if_true] at he
  obtain ⟨⟨res, obj⟩, h1, he⟩ := Exec.bind_eq_ok.1 he
  cases he
  exact ⟨rfl, rfl, h.obj.close h1⟩

theorem SDead.close {rw rw' : Rdwr FileSt} {t : Bytes} {b : Bool} {r : Res} (h : SDead rw t b)
    (he : rw.close = .ok (r, rw')) : rw' = rw := by
  unfold Rdwr.close at he
  rw [h.closed, h.ops] at he
  simp only [fileOps, Bool.false_eq_true, if_false] at he
  cases he; rfl

/-! ### When nothing fails -/

theorem writeLoop_noFail : ∀ (iov : List Bytes) {s : FileSt} {t : Bytes}, SLive s t →
    NoFail s.script → (∀ d ∈ iov, d ≠ []) →
    ∃ s', FileSt.writeLoop iov s = .ok (.success, s') ∧ NoFail s'.script
  | [], s, t, _, hn, _ => ⟨s, rfl, hn⟩
  | d :: rest, s, t, ho, hn, hne => by
    obtain ⟨n, s1, h1⟩ := ho.fwrite_total d
    obtain ⟨-, u, -, a2, -, a4⟩ := ho.fwrite h1
    obtain ⟨rfl, -, hn1⟩ := a4 (hne d (by simp)) hn
    obtain ⟨s2, h2, hn2⟩ := writeLoop_noFail rest a2 hn1 (fun x hx => hne x (by simp [hx]))
    refine ⟨s2, ?_, hn2⟩
    unfold FileSt.writeLoop
    rw [h1, Exec.ok_bind]
    simp only [ne_eq, not_true_eq_false, if_false]
    exact h2

theorem SR.write_noFail {rw : Rdwr FileSt} {t : Bytes} {iov : List Bytes} (h : SR rw t)
    (hn : NoFail rw.obj.script) (hne : ∀ d ∈ iov, d ≠ []) :
    ∃ rw', rw.write iov = .ok (.success, rw') ∧ NoFail rw'.obj.script := by
  obtain ⟨s', h1, h2⟩ := writeLoop_noFail iov h.obj.live hn hne
  refine ⟨{ rw with obj := s', log := rw.log ++ [.wr iov .success] }, ?_, h2⟩
  unfold Rdwr.write
  rw [h.opened, h.ops]
  simp only [fileOps, if_true, Bool.not_true, Bool.false_eq_true, if_false]
  unfold FileSt.opWrite
  rw [h.obj.fp]
  simp only [Bool.not_true, Bool.false_eq_true, if_false]
  rw [h1, Exec.ok_bind]
  simp [h.ops, fileOps]

theorem SR.close_noFail {rw : Rdwr FileSt} {t : Bytes} (h : SR rw t)
    (hn : NoFail rw.obj.script) : ∃ rw', rw.close = .ok (.success, rw') := by
  obtain ⟨k, l, e, h2⟩ := FileSt.next_noFail
    (s := { rw.obj with fp := false, stdClosed := rw.obj.isStd }) hn
  unfold Rdwr.close
  rw [h.opened, h.ops]
  simp only [fileOps, if_true]
  unfold FileSt.opClose
  rw [if_pos h.obj.fp]
  unfold FileSt.fclose
  rw [if_neg (by simp [h.obj.alive])]
  simp only
  rw [e]
  exact ⟨_, rfl⟩

/-! ### The writer -/

theorem write_opened {w : Writer FileSt} (hs : w.state = .opened) (d : Bytes) :
    w.write d = (do
      let (res, rw) ← w.rdwr.write [be32 d.length, d]
      .ok (res, { w with rdwr := rw }) : Exec (Res × Writer FileSt)) := by
  unfold Writer.write Writer.writev Writer.maybeOpen
  rw [if_neg (by simp), if_neg (by simp [hs]), Exec.ok_bind]
  simp only [ne_eq, not_true_eq_false, if_false]
  rw [if_pos hs, if_neg (by simp [INT_MAX]), if_pos (by simp [WRITER_IOVEC_SIZE]), writeIov_eq _ _ (by simp)]
  rfl

theorem close_opened {w : Writer FileSt} (hs : w.state = .opened) (ho : w.rdwr.ops = fileOps true) :
    w.close = (do
      let (res, rw) ← w.rdwr.write [CFrame.wire ⟨.stop, []⟩]
      let (res', rw) ← rw.close
      .ok (if res ≠ .success then res else res', { w with state := .closed, rdwr := rw }) :
        Exec (Res × Writer FileSt)) := by
  unfold Writer.close
  rw [if_neg (by simp [hs])]
  simp only
  rw [writeControl_stop]
  cases hx : w.rdwr.write [CFrame.wire ⟨.stop, []⟩] with
  | error e => rfl
  | ok p =>
    obtain ⟨res, rw⟩ := p
    rw [Exec.ok_bind, Exec.ok_bind]
    have hops : rw.ops = fileOps true := (Rdwr.write_ok hx).1.trans ho
    simp only [hops, fileOps, if_true, Option.isSome_none, Bool.false_eq_true, if_false]
    by_cases hr : res = .success
    · simp [hr]
    · simp only [ne_eq, hr, not_false_eq_true, if_true]

/-- The open writer on standard output, on which are `t`. -/
structure SW (w : Writer FileSt) (t : Bytes) : Prop where
  st : w.state = .opened
  rdwr : SR w.rdwr t

theorem SW.write {w w' : Writer FileSt} {t d : Bytes} {r : Res} (h : SW w t)
    (he : w.write d = .ok (r, w')) : w'.state = .opened ∧
    ((r = .success ∧ SW w' (t ++ (be32 d.length ++ d))) ∨
      (r = .failure ∧ SDead w'.rdwr (t ++ (be32 d.length ++ d)) false)) := by
  rw [write_opened h.st] at he
  obtain ⟨⟨res, rw⟩, h1, he⟩ := Exec.bind_eq_ok.1 he
  cases he
  have := h.rdwr.write h1
  simp only [List.flatten_cons, List.flatten_nil, List.append_nil] at this
  refine ⟨h.st, ?_⟩
  rcases this with ⟨rfl, h2⟩ | ⟨rfl, h2⟩
  · exact Or.inl ⟨rfl, h.st, h2⟩
  · exact Or.inr ⟨rfl, h2⟩

theorem SW.close {w w' : Writer FileSt} {t : Bytes} {r : Res} (h : SW w t)
    (he : w.close = .ok (r, w')) : w'.state = .closed ∧
    SDead w'.rdwr (t ++ CFrame.wire ⟨.stop, []⟩) (decide (r = .success)) := by
  rw [close_opened h.st h.rdwr.ops] at he
  obtain ⟨⟨res, rw⟩, h1, he⟩ := Exec.bind_eq_ok.1 he
  obtain ⟨⟨res', rw'⟩, h2, he⟩ := Exec.bind_eq_ok.1 he
  cases he
  refine ⟨rfl, ?_⟩
  have := h.rdwr.write h1
  simp only [List.flatten_cons, List.flatten_nil, List.append_nil] at this
  rcases this with ⟨rfl, h3⟩ | ⟨rfl, h3⟩
  · have := h3.close h2
    simpa using this
  · rw [h3.close h2]
    simpa using h3

theorem SDead.wclose {w w' : Writer FileSt} {t : Bytes} {r : Res} (hs : w.state = .opened)
    (h : SDead w.rdwr t false) (he : w.close = .ok (r, w')) :
    r = .failure ∧ w'.state = .closed ∧ SDead w'.rdwr t false := by
  rw [close_opened hs h.ops] at he
  obtain ⟨⟨res, rw⟩, h1, he⟩ := Exec.bind_eq_ok.1 he
  obtain ⟨⟨res', rw'⟩, h2, he⟩ := Exec.bind_eq_ok.1 he
  cases he
  unfold Rdwr.write at h1
  rw [h.closed] at h1
  simp only [Bool.not_false, if_true] at h1
  cases h1
  rw [h.close h2]
  exact ⟨rfl, rfl, h⟩

theorem sdestroy {w : Writer FileSt} {t : Bytes} {b : Bool} {r : Res} {rw : Rdwr FileSt}
    (hs : w.state ≠ .opened) (h : SDead w.rdwr t b) (he : w.destroy = .ok (r, rw)) :
    rw.obj = w.rdwr.obj := by
  unfold Writer.destroy at he
  rw [if_neg hs, Exec.ok_bind] at he
  unfold Rdwr.destroy at he
  simp only at he
  rw [h.ops] at he
  simp only [fileOps, Exec.ok_bind] at he
  cases he
  rfl

theorem SClosed.exit {s : FileSt} {t : Bytes} {b : Bool} (h : SClosed [] s t b) :
    s.exit.disk.getD [] <+: t ∧ (b = true → s.exit.disk.getD [] = t) := by
  unfold FileSt.exit
  rw [if_pos h.dead]
  obtain ⟨d, h1, h2, h3⟩ := h.cont
  rw [h1]
  exact ⟨h2, h3⟩

theorem swriter_open {ct : Option Bytes} {out : List Io} {w w1 : Writer FileSt} {r : Res}
    (hct : ∀ c, ct = some c → c.length ≤ 256)
    (hi : fileWriterInit .dash (some ⟨ct.toList⟩) (some []) out = some w)
    (he : w.open = .ok (r, w1)) :
    (r = .success ∧ SW w1 (CFrame.wire ⟨.start, ct.toList⟩)) ∨
    (r ≠ .success ∧ w1.state ≠ .opened ∧
      ∃ b, SDead w1.rdwr (CFrame.wire ⟨.start, ct.toList⟩) b) := by
  unfold fileWriterInit at hi
  rw [if_neg (by decide)] at hi
  obtain ⟨i1, i2, i3, _⟩ := init_some hi
  have hcts : w.cts = ct.toList := by rw [i2]; rfl
  obtain ⟨c1, c2⟩ := startable (show ∀ c ∈ w.cts, c.length ≤ 256 by
    rw [hcts]; intro c hc; exact hct c (by simpa using hc))
  have hh : ct.toList.head?.toList = ct.toList := by cases ct <;> rfl
  rw [hcts, hh] at c1 c2
  unfold Writer.open at he
  rw [if_neg (by simp [i1]), i3] at he
  obtain ⟨⟨res, rw⟩, h1, he⟩ := Exec.bind_eq_ok.1 he
  have h1' : res = .success ∧ SR rw [] := by
    have h1 : (Except.ok (Res.success, _) : Exec (Res × Rdwr FileSt)) = .ok (res, rw) := h1
    cases h1
    exact ⟨rfl, rfl, rfl, rfl, rfl, rfl, rfl, [], rfl, rfl⟩
  obtain ⟨rfl, hr⟩ := h1'
  simp only [ne_eq, not_true_eq_false, if_false] at he
  have hrd : rw.ops.rd = none := by rw [hr.ops]; rfl
  rw [hrd] at he
  simp only [Option.isSome_none, Bool.false_eq_true, if_false] at he
  rw [openUnidirectional_eq, sendStart_eq] at he
  simp only at he
  rw [writeControlFrame_eq, visible_toList] at he
  simp only [hcts, hh] at he
  rw [if_pos ⟨c1, c2⟩] at he
  obtain ⟨⟨res2, w2⟩, h2, he⟩ := Exec.bind_eq_ok.1 he
  obtain ⟨⟨res3, rw3⟩, h3, h2⟩ := Exec.bind_eq_ok.1 h2
  cases h2
  have := hr.write h3
  simp only [List.flatten_cons, List.flatten_nil, List.append_nil, List.nil_append] at this
  rcases this with ⟨rfl, h4⟩ | ⟨rfl, h4⟩
  · simp only [ne_eq, not_true_eq_false, if_false] at he
    cases he
    exact Or.inl ⟨rfl, rfl, h4⟩
  · simp only [ne_eq, reduceCtorEq, not_false_eq_true, if_true] at he
    cases he
    exact Or.inr ⟨by decide, by simp [i1], _, h4⟩

end Fstrm
