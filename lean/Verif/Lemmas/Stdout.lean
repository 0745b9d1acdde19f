import Verif.Lemmas.File

/-! A file writer on standard output. -/

set_option autoImplicit false

namespace Fstrm

open Spec (sent)

/-- Standard output, on which `t` has been written after `base`. -/
structure SOpen (base : Bytes) (s : FileSt) (t : Bytes) : Prop where
  write : s.write = true
  std : s.isStd = true
  fp : s.fp = true
  alive : s.stdClosed = false
  cont : ∃ d, s.disk.getD [] = base ++ d ∧ d ++ s.buf = t

/-- Standard output is closed and holds a prefix of `t` after `base`, all of it if `full`. -/
structure SClosed (base : Bytes) (s : FileSt) (t : Bytes) (full : Bool) : Prop where
  write : s.write = true
  std : s.isStd = true
  fp : s.fp = false
  dead : s.stdClosed = true
  cont : ∃ d, s.disk.getD [] = base ++ d ∧ d <+: t ∧ (full = true → d = t)

theorem SOpen.close {base : Bytes} {s s' : FileSt} {t : Bytes} {r : Res} (h : SOpen base s t)
    (hc : s.opClose = .ok (r, s')) : SClosed base s' t (decide (r = .success)) := by
  unfold FileSt.opClose at hc
  rw [if_pos h.fp] at hc
  obtain ⟨⟨ok, s2⟩, h1, hc⟩ := Exec.bind_eq_ok.1 hc
  obtain ⟨d, hd, rfl⟩ := h.cont
  unfold FileSt.fclose at h1
  rw [if_neg (by simp [h.alive])] at h1
  simp only at h1
  obtain ⟨l, hl⟩ := FileSt.next_same { s with fp := false, stdClosed := s.isStd }
  split at h1
  · rename_i k s3 hk
    rw [hk] at hl
    simp only at hl
    subst hl
    rw [if_pos h.write] at h1
    cases h1
    cases hc
    refine ⟨h.write, h.std, rfl, h.std, d ++ s.buf, ?_, List.prefix_refl _, fun _ => rfl⟩
    simp [FileSt.flush, hd]
  · rename_i k s3 hk
    rw [hk] at hl
    simp only at hl
    subst hl
    rw [if_pos h.write] at h1
    cases h1
    cases hc
    refine ⟨h.write, h.std, rfl, h.std, d ++ s.buf.take k, ?_, ?_, nofun⟩
    · simp [FileSt.flush, hd]
    · exact (List.prefix_append_right_inj d).2 (List.take_prefix _ _)

theorem SOpen.fwrite {base : Bytes} {s s' : FileSt} {n : Nat} {d t : Bytes} (ho : SOpen base s t)
    (h : s.fwrite d = .ok (n, s')) :
    (n = 1 ∧ SOpen base s' (t ++ d)) ∨ (n = 0 ∧ ∃ k, SOpen base s' (t ++ d.take k)) := by
  unfold FileSt.fwrite at h
  rw [if_neg (by simp [ho.alive])] at h
  obtain ⟨c, hc, hb⟩ := ho.cont
  split at h
  · cases h; exact Or.inr ⟨rfl, 0, by simpa using ho⟩
  · obtain ⟨l, hl⟩ := FileSt.next_same s
    split at h
    · rename_i k s2 hk
      rw [hk] at hl
      simp only at hl
      subst hl
      cases h
      refine Or.inl ⟨rfl, ho.write, ho.std, ho.fp, ho.alive, c ++ (s.buf ++ d).take k, ?_, ?_⟩
      · simp [FileSt.flush, hc]
      · simp only [FileSt.flush, List.append_assoc, List.take_append_drop]
        rw [← List.append_assoc, hb]
    · rename_i k s2 hk
      rw [hk] at hl
      simp only at hl
      subst hl
      cases h
      exact Or.inr ⟨rfl, k, ho.write, ho.std, ho.fp, ho.alive, c, hc, by simp only [← hb, List.append_assoc]⟩

theorem SOpen.writeLoop {base : Bytes} : ∀ (iov : List Bytes) (s s' : FileSt) (t : Bytes) (r : Res),
    SOpen base s t → FileSt.writeLoop iov s = .ok (r, s') →
    (r = .success ∧ SOpen base s' (t ++ iov.flatten)) ∨
    (r = .failure ∧ SClosed base s' (t ++ iov.flatten) false)
  | [], s, s', t, r, ho, h => by cases h; exact Or.inl ⟨rfl, by simpa using ho⟩
  | d :: rest, s, s', t, r, ho, h => by
    unfold FileSt.writeLoop at h
    obtain ⟨⟨n, s2⟩, h1, h⟩ := Exec.bind_eq_ok.1 h
    simp only at h
    rcases ho.fwrite h1 with ⟨rfl, ho2⟩ | ⟨rfl, k, ho2⟩
    · rw [if_neg (by simp)] at h
      have := SOpen.writeLoop rest s2 s' (t ++ d) r ho2 h
      simpa using this
    · rw [if_pos (by simp)] at h
      obtain ⟨⟨rc, s3⟩, h2, h⟩ := Exec.bind_eq_ok.1 h
      cases h
      obtain ⟨a, b, c, c', d', e1, e2, _⟩ := ho2.close h2
      refine Or.inr ⟨rfl, a, b, c, c', d', e1, ?_, nofun⟩
      refine e2.trans ?_
      rw [List.flatten_cons, ← List.append_assoc]
      refine List.IsPrefix.trans ?_ (List.prefix_append _ _)
      exact (List.prefix_append_right_inj t).2 (List.take_prefix _ _)

/-- Invariant of the transport of a writer on standard output, which held `disk0` before. In
the last case the closed stream was opened again; nothing can be written then. -/
structure SInv (disk0 : Option Bytes) (rw : Rdwr FileSt) : Prop where
  ops : rw.ops = fileOps true
  cases : (rw.opened = true ∧ ∃ t, sent none rw.log = some t ∧ SOpen (disk0.getD []) rw.obj t) ∨
    (rw.opened = false ∧ ((sent none rw.log = none ∧ rw.obj = FileSt.init true true disk0 rw.obj.script ∧
        rw.log.getLast? ≠ some (.cls .success)) ∨
      ∃ t, sent none rw.log = some t ∧
        SClosed (disk0.getD []) rw.obj t (decide (rw.log.getLast? = some (.cls .success))))) ∨
    (rw.opened = true ∧ sent none rw.log = some [] ∧ rw.obj.fp = true ∧ rw.obj.isStd = true ∧
      rw.obj.stdClosed = true)

theorem SInv.init (disk0 : Option Bytes) (script : List Io) :
    SInv disk0 (Rdwr.init (fileOps true) (FileSt.init true true disk0 script)) :=
  ⟨rfl, Or.inr (Or.inl ⟨rfl, Or.inl ⟨rfl, rfl, by simp [Rdwr.init]⟩⟩)⟩

theorem SInv.close {disk0 : Option Bytes} {a b : Rdwr FileSt} {r : Res} (hi : SInv disk0 a)
    (h : a.close = .ok (r, b)) : SInv disk0 b := by
  obtain ⟨h1, h2⟩ := Rdwr.close_ok h
  have hsent := close_sent h
  have hops := h1.trans hi.ops
  rcases h2 with ⟨g, _⟩ | ⟨_, _, _, rfl⟩ | ⟨_, g1, g2, g3⟩
  · rw [hi.ops] at g; cases g
  · exact hi
  · unfold Rdwr.close at h
    rw [hi.ops] at h
    simp only [fileOps, g1, if_true] at h
    obtain ⟨⟨r', s'⟩, h5, h⟩ := Exec.bind_eq_ok.1 h
    rcases hi.cases with ⟨_, t, c1, c2⟩ | ⟨c, _⟩ | ⟨_, _, c1, c2, c3⟩
    · refine ⟨hops, Or.inr (Or.inl ⟨g2, Or.inr ⟨t, hsent.trans c1, ?_⟩⟩)⟩
      cases h
      have := c2.close h5
      simpa using this
    · rw [g1] at c; cases c
    · unfold FileSt.opClose at h5
      rw [if_pos c1] at h5
      unfold FileSt.fclose at h5
      rw [if_pos (by simp [c2, c3])] at h5
      cases h5

theorem SInv.prim {disk0 : Option Bytes} {a b : Rdwr FileSt} (hi : SInv disk0 a) (h : Prim a b) :
    SInv disk0 b := by
  cases h with
  | cls h => exact hi.close h
  | opn h =>
    rename_i r
    obtain ⟨h1, h2⟩ := Rdwr.open_ok h
    have hsent := open_sent h
    have hops := h1.trans hi.ops
    rcases h2 with ⟨g, _⟩ | ⟨g1, g2⟩
    · rw [hi.ops] at g; cases g
    · unfold Rdwr.open at h
      rw [hi.ops] at h
      simp only [fileOps] at h
      obtain ⟨⟨r', s'⟩, h5, h⟩ := Exec.bind_eq_ok.1 h
      have hb : b.obj = s' ∧ r' = r := by
        simp only at h
        split at h <;> (cases h; exact ⟨rfl, rfl⟩)
      obtain ⟨hb, rfl⟩ := hb
      clear h
      unfold FileSt.opOpen at h5
      rcases hi.cases with ⟨co, t, c1, c2⟩ | ⟨co, ⟨c1, c2, _⟩ | ⟨t, c1, c2⟩⟩ | ⟨co, c0, c1, c2, c3⟩
      · rw [c2.fp] at h5
        cases h5
        refine ⟨hops, Or.inl ⟨by rw [g2, co]; rfl, t, ?_, hb ▸ c2⟩⟩
        rw [hsent, if_neg (by simp)]; exact c1
      · rw [c2] at h5
        simp only [FileSt.init, Bool.not_false, if_true] at h5
        cases h5
        rw [if_pos rfl] at hsent
        refine ⟨hops, Or.inl ⟨by rw [g2]; simp, [], hsent, ?_⟩⟩
        rw [hb]
        exact ⟨rfl, rfl, rfl, rfl, [], by simp, rfl⟩
      · rw [c2.fp, c2.std] at h5
        simp only [Bool.not_false, if_true] at h5
        cases h5
        rw [if_pos rfl] at hsent
        refine ⟨hops, Or.inr (Or.inr ⟨by rw [g2]; simp, hsent, ?_⟩)⟩
        rw [hb]
        exact ⟨rfl, rfl, c2.dead⟩
      · rw [c1] at h5
        cases h5
        refine ⟨hops, Or.inr (Or.inr ⟨by rw [g2, co]; rfl, ?_, hb ▸ ⟨c1, c2, c3⟩⟩)⟩
        rw [hsent, if_neg (by simp)]; exact c0
  | rd h =>
    have hn : a.ops.rd = none := by rw [hi.ops]; rfl
    unfold Rdwr.read at h
    rw [hn] at h
    split at h <;> (cases h; exact hi)
  | wr h =>
    rename_i iov r
    by_cases ho : a.opened = true
    · have hs := (write_sent ho (by rw [hi.ops]; simp [fileOps]) (by rw [hi.ops]; simp [fileOps]) h).1
      unfold Rdwr.write at h
      rw [ho, hi.ops] at h
      simp only [fileOps, if_true, Bool.not_true, Bool.false_eq_true, if_false] at h
      obtain ⟨⟨r', s'⟩, h5, h⟩ := Exec.bind_eq_ok.1 h
      unfold FileSt.opWrite at h5
      rcases hi.cases with ⟨_, t, c1, c2⟩ | ⟨c, _⟩ | ⟨co, c0, c1, c2, c3⟩
      · rw [c1] at hs
        rw [c2.fp] at h5
        simp only [Bool.not_true, Bool.false_eq_true, if_false] at h5
        rcases SOpen.writeLoop _ _ _ _ _ c2 h5 with ⟨rfl, f⟩ | ⟨rfl, f⟩
        · simp only [ne_eq, not_true_eq_false, if_false] at h
          cases h
          exact ⟨rfl, Or.inl ⟨rfl, _, hs, f⟩⟩
        · simp only [ne_eq, reduceCtorEq, not_false_eq_true, if_true] at h
          obtain ⟨⟨rc, rw2⟩, h6, h⟩ := Exec.bind_eq_ok.1 h
          cases h
          unfold Rdwr.close at h6
          simp only [if_true] at h6
          obtain ⟨⟨rc', s3⟩, h7, h8⟩ := Exec.bind_eq_ok.1 h6
          unfold FileSt.opClose at h7
          rw [f.fp] at h7
          clear h6
          cases h7
          cases h8
          refine ⟨rfl, Or.inr (Or.inl ⟨rfl, Or.inr ⟨_, hs, ?_⟩⟩)⟩
          simpa using f
      · rw [ho] at c; cases c
      · rw [c1] at h5
        simp only [Bool.not_true, Bool.false_eq_true, if_false] at h5
        cases iov with
        | nil =>
          cases h5
          simp only [ne_eq, not_true_eq_false, if_false] at h
          cases h
          refine ⟨rfl, Or.inr (Or.inr ⟨rfl, ?_, c1, c2, c3⟩)⟩
          rw [hs, c0]; rfl
        | cons d rest =>
          exfalso
          unfold FileSt.writeLoop FileSt.fwrite at h5
          rw [if_pos (by simp [c2, c3])] at h5
          cases h5
    · have ho : a.opened = false := by simpa using ho
      obtain ⟨_, rfl⟩ := write_closed ho h
      exact hi

theorem SInv.reach {disk0 : Option Bytes} {a b : Rdwr FileSt} (hi : SInv disk0 a) (h : Reach a b) :
    SInv disk0 b := h.inv hi (fun _ _ => SInv.prim)

end Fstrm
