import Verif.Lemmas.File

/-! A file writer whose stdio calls do not fail. -/

set_option autoImplicit false

namespace Fstrm

open Spec (CType CFrame)

/-- No stdio call will fail. -/
def NoFail (script : List Io) : Prop := ∀ o ∈ script, ∃ k, o = .ok k

theorem FileSt.next_noFail {s : FileSt} (h : NoFail s.script) :
    ∃ k l, s.next = (.ok k, { s with script := l }) ∧ NoFail l := by
  unfold FileSt.next
  split
  · exact ⟨0, s.script, rfl, h⟩
  · rename_i o rest e
    obtain ⟨k, rfl⟩ := h o (by rw [e]; simp)
    exact ⟨k, rest, rfl, fun x hx => h x (by rw [e]; simp [hx])⟩

/-- The transport of such a writer. -/
structure FW (rw : Rdwr FileSt) : Prop where
  ops : rw.ops = fileOps true
  std : rw.obj.isStd = false
  write : rw.obj.write = true
  script : NoFail rw.obj.script
  fp : rw.obj.fp = rw.opened

theorem FW.open {rw : Rdwr FileSt} (h : FW rw) (hc : rw.opened = false) :
    ∃ rw', rw.open = .ok (.success, rw') ∧ FW rw' ∧ rw'.opened = true := by
  obtain ⟨k, l, h1, h2⟩ := FileSt.next_noFail h.script
  have hfp : rw.obj.fp = false := h.fp.trans hc
  have : ∃ s', rw.obj.opOpen = .ok (.success, s') ∧ s'.isStd = false ∧ s'.write = true ∧
      NoFail s'.script ∧ s'.fp = true := by
    unfold FileSt.opOpen FileSt.fopen
    rw [h1]
    simp [hfp, h.std, h.write, h2]
  obtain ⟨s', g1, g2, g3, g4, g5⟩ := this
  refine ⟨{ rw with opened := true, obj := s', log := rw.log ++ [.opn .success] }, ?_,
    ⟨h.ops, g2, g3, g4, g5⟩, rfl⟩
  unfold Rdwr.open
  rw [h.ops]
  simp only [fileOps]
  rw [g1, Exec.ok_bind]
  simp [h.ops, fileOps]

theorem FW.writeLoop : ∀ (iov : List Bytes) (s : FileSt), s.isStd = false → s.write = true →
    NoFail s.script → (∀ d ∈ iov, d ≠ []) →
    ∃ s', FileSt.writeLoop iov s = .ok (.success, s') ∧ s'.isStd = false ∧ s'.write = true ∧
      NoFail s'.script ∧ s'.fp = s.fp
  | [], s, h1, h2, h3, _ => ⟨s, rfl, h1, h2, h3, rfl⟩
  | d :: rest, s, h1, h2, h3, hne => by
    obtain ⟨k, l, e1, e2⟩ := FileSt.next_noFail h3
    have hd : d.length ≠ 0 := by
      have := List.length_pos_iff.2 (hne d (by simp)); omega
    have : s.fwrite d = .ok (1, { { s with script := l } with buf := s.buf ++ d }.flush k) := by
      unfold FileSt.fwrite
      rw [if_neg (by simp [h1]), if_neg hd, e1]
    obtain ⟨s', g1, g2, g3, g4, g5⟩ := FW.writeLoop rest
      ({ { s with script := l } with buf := s.buf ++ d }.flush k) h1 h2 e2
      (fun x hx => hne x (by simp [hx]))
    refine ⟨s', ?_, g2, g3, g4, g5⟩
    unfold FileSt.writeLoop
    rw [this, Exec.ok_bind]
    simpa using g1

theorem FW.wr {rw : Rdwr FileSt} (h : FW rw) (ho : rw.opened = true) (iov : List Bytes)
    (hne : ∀ d ∈ iov, d ≠ []) :
    ∃ rw', rw.write iov = .ok (.success, rw') ∧ FW rw' ∧ rw'.opened = true := by
  obtain ⟨s', g1, g2, g3, g4, g5⟩ := FW.writeLoop iov rw.obj h.std h.write h.script hne
  refine ⟨{ rw with obj := s', log := rw.log ++ [.wr iov .success] }, ?_,
    ⟨h.ops, g2, g3, g4, g5.trans h.fp⟩, ho⟩
  unfold Rdwr.write
  rw [ho, h.ops]
  simp only [fileOps, if_true, Bool.not_true, Bool.false_eq_true, if_false]
  unfold FileSt.opWrite
  rw [if_neg (by simp [h.fp, ho]), g1, Exec.ok_bind]
  simp [h.ops, fileOps]

theorem FW.cls {rw : Rdwr FileSt} (h : FW rw) (ho : rw.opened = true) :
    ∃ rw', rw.close = .ok (.success, rw') ∧ FW rw' ∧ rw'.opened = false := by
  obtain ⟨k, l, e1, e2⟩ := FileSt.next_noFail (s := { rw.obj with fp := false, stdClosed := rw.obj.isStd })
    h.script
  have : ∃ s', rw.obj.opClose = .ok (.success, s') ∧ s'.isStd = false ∧ s'.write = true ∧
      NoFail s'.script ∧ s'.fp = false := by
    unfold FileSt.opClose
    rw [if_pos (h.fp.trans ho)]
    unfold FileSt.fclose
    rw [if_neg (by simp [h.std])]
    simp only
    rw [e1]
    simp only [h.write, if_true, Exec.ok_bind]
    refine ⟨_, rfl, h.std, ?_, e2, rfl⟩
    simp [FileSt.flush]
  obtain ⟨s', g1, g2, g3, g4, g5⟩ := this
  refine ⟨{ rw with opened := false, obj := s', log := rw.log ++ [.cls .success] }, ?_,
    ⟨h.ops, g2, g3, g4, g5⟩, rfl⟩
  unfold Rdwr.close
  rw [ho, h.ops]
  simp only [fileOps, if_true]
  rw [g1, Exec.ok_bind]

/-- A file writer none of whose stdio calls will fail. -/
structure FWriter (w : Writer FileSt) : Prop where
  fw : FW w.rdwr
  cts : ∀ c ∈ w.cts, c.length ≤ 256
  st : w.rdwr.opened = decide (w.state = .opened)

theorem FWriter.open {w : Writer FileSt} (h : FWriter w) :
    ∃ w', w.open = .ok (.success, w') ∧ FWriter w' ∧ w'.state = .opened ∧ w'.cts = w.cts := by
  by_cases hs : w.state = .opened
  · exact ⟨w, by unfold Writer.open; rw [if_pos hs], h, hs, rfl⟩
  have hc : w.rdwr.opened = false := by rw [h.st]; simp [hs]
  obtain ⟨rw1, e1, f1, o1⟩ := h.fw.open hc
  obtain ⟨c1, c2⟩ := startable h.cts
  obtain ⟨rw2, e2, f2, o2⟩ := f1.wr o1 [CFrame.wire ⟨.start, w.cts.head?.toList⟩]
    (by simp [CFrame.wire, Spec.be32])
  refine ⟨{ w with state := .opened, start := some ⟨CType.start.code, w.cts.head?.toList⟩, rdwr := rw2 }, ?_,
    ⟨f2, h.cts, by simp [o2]⟩, rfl, rfl⟩
  unfold Writer.open
  rw [if_neg hs, e1, Exec.ok_bind]
  simp only [ne_eq, not_true_eq_false, if_false]
  have hrd : rw1.ops.rd = none := by rw [f1.ops]; rfl
  rw [hrd]
  simp only [Option.isSome_none, Bool.false_eq_true, if_false]
  rw [openUnidirectional_eq, sendStart_eq]
  simp only
  rw [writeControlFrame_eq, visible_toList, if_pos ⟨c1, c2⟩, e2]
  simp [Exec.ok_bind]

theorem frameIovs_nonempty {iov : List Bytes} (h : ∀ d ∈ iov, d ≠ []) :
    ∀ d ∈ frameIovs iov, d ≠ [] := by
  intro d hd
  obtain ⟨x, hx, hd⟩ := List.mem_flatMap.1 hd
  rcases List.mem_cons.1 hd with rfl | hd
  · simp [Spec.be32]
  · have : d = x := by simpa using hd
    exact this ▸ h x hx

theorem FWriter.stupid : ∀ (fuel : Nat) (w : Writer FileSt) (iov : List Bytes), FWriter w →
    w.state = .opened → iov.length ≤ fuel → (∀ d ∈ iov, d ≠ []) →
    ∃ w', Writer.writeIovStupid fuel w iov = .ok (.success, w') ∧ FWriter w' ∧
      w'.state = .opened ∧ w'.cts = w.cts := by
  intro fuel
  induction fuel with
  | zero =>
    intro w iov h hs hl hne
    refine ⟨w, ?_, h, hs, rfl⟩
    unfold Writer.writeIovStupid
    rw [if_neg (by omega)]
  | succ fuel ih =>
    intro w iov h hs hl hne
    unfold Writer.writeIovStupid
    rw [stupidMax_eq]
    split
    · simp only
      generalize hk : (if 128 > iov.length then iov.length else 128) = k
      have hk2 : k ≤ 128 ∧ 0 < k := by subst hk; split <;> omega
      obtain ⟨rw1, e1, f1, o1⟩ := h.fw.wr (by rw [h.st]; simp [hs]) (frameIovs (iov.take k))
        (frameIovs_nonempty fun d hd => hne d (List.mem_of_mem_take hd))
      rw [writeIov_eq _ _ (by rw [List.length_take]; omega), e1, Exec.ok_bind, Exec.ok_bind]
      simp only [ne_eq, not_true_eq_false, if_false]
      exact ih { w with rdwr := rw1 } (iov.drop k) ⟨f1, h.cts, by simp [o1, hs]⟩ hs
        (by rw [List.length_drop]; omega) (fun d hd => hne d (List.mem_of_mem_drop hd))
    · exact ⟨w, rfl, h, hs, rfl⟩

theorem FWriter.writev {w : Writer FileSt} {iov : List Bytes} (h : FWriter w)
    (hs : w.state = .opening ∨ w.state = .opened) (hl : iov.length ≤ 1073741823)
    (hne : ∀ d ∈ iov, d ≠ []) :
    ∃ w', w.writev iov = .ok (.success, w') ∧ FWriter w' ∧
      (w'.state = .opening ∨ w'.state = .opened) ∧ w'.cts = w.cts ∧
      (iov ≠ [] → w'.state = .opened) := by
  unfold Writer.writev
  split
  · rename_i h0
    have : iov = [] := List.eq_nil_of_length_eq_zero (by omega)
    exact ⟨w, rfl, h, hs, rfl, fun h => absurd this h⟩
  · have hm : ∃ w1, w.maybeOpen = .ok (.success, w1) ∧ FWriter w1 ∧ w1.state = .opened ∧
        w1.cts = w.cts := by
      unfold Writer.maybeOpen
      split
      · exact h.open
      · rename_i hn
        rcases hs with hs | hs
        · exact absurd hs hn
        · exact ⟨w, rfl, h, hs, rfl⟩
    obtain ⟨w1, e1, f1, s1, c1⟩ := hm
    rw [e1, Exec.ok_bind]
    simp only [ne_eq, not_true_eq_false, if_false]
    rw [if_pos s1, if_neg (by simp only [INT_MAX]; omega)]
    split
    · rename_i hlt
      obtain ⟨rw2, e2, f2, o2⟩ := f1.fw.wr (by rw [f1.st]; simp [s1]) (frameIovs iov)
        (frameIovs_nonempty hne)
      refine ⟨{ w1 with rdwr := rw2 }, ?_, ⟨f2, f1.cts, by simp [o2, s1]⟩, Or.inr s1, c1, fun _ => s1⟩
      rw [writeIov_eq _ _ (by simp only [WRITER_IOVEC_SIZE] at hlt; omega), e2, Exec.ok_bind]
    · obtain ⟨w2, e2, f2, s2, c2⟩ := FWriter.stupid iov.length w1 iov f1 s1 (Nat.le_refl _) hne
      exact ⟨w2, e2, f2, Or.inr s2, c2.trans c1, fun _ => s2⟩

theorem FWriter.close {w : Writer FileSt} (h : FWriter w) (hs : w.state = .opened) :
    ∃ w', w.close = .ok (.success, w') ∧ FWriter w' ∧ w'.state = .closed ∧ w'.cts = w.cts := by
  obtain ⟨rw1, e1, f1, o1⟩ := h.fw.wr (by rw [h.st]; simp [hs]) [CFrame.wire ⟨.stop, []⟩]
    (by simp [CFrame.wire, Spec.be32])
  obtain ⟨rw2, e2, f2, o2⟩ := f1.cls o1
  refine ⟨{ w with state := .closed, rdwr := rw2 }, ?_, ⟨f2, h.cts, by simp [o2]⟩, rfl, rfl⟩
  unfold Writer.close
  rw [if_neg (by simp [hs])]
  simp only
  rw [writeControl_stop, e1, Exec.ok_bind]
  have hrd : rw1.ops.rd = none := by rw [f1.ops]; rfl
  simp only [ne_eq, not_true_eq_false, if_false, hrd, Option.isSome_none, Bool.false_eq_true]
  rw [e2, Exec.ok_bind]

end Fstrm
