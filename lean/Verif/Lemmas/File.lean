import Verif.Lemmas.Sent
import Verif.Lemmas.Source
import Verif.Model.File

/-! Helper lemmas about `file.c`. -/

set_option autoImplicit false

namespace Fstrm

open Spec (sent CFrame CType ByteSource)

/-! ### Writing -/

/-- A file opened for writing on which `t` has been written so far. -/
structure FOpen (s : FileSt) (t : Bytes) : Prop where
  write : s.write = true
  std : s.isStd = false
  fp : s.fp = true
  cont : ∃ d, s.disk = some d ∧ d ++ s.buf = t

/-- A file that is closed and holds a prefix of `t`, all of it if `full`. -/
structure FClosed (s : FileSt) (t : Bytes) (full : Bool) : Prop where
  write : s.write = true
  std : s.isStd = false
  fp : s.fp = false
  cont : ∃ d, s.disk = some d ∧ d <+: t ∧ (full = true → d = t)

theorem FileSt.next_same (s : FileSt) : ∃ l, s.next.2 = { s with script := l } := by
  unfold FileSt.next
  split
  · exact ⟨s.script, rfl⟩
  · exact ⟨_, rfl⟩

theorem FileSt.fclose_ok {s s' : FileSt} {ok : Bool} {d : Bytes} (hw : s.write = true)
    (hs : s.isStd = false) (hd : s.disk = some d) (h : s.fclose = .ok (ok, s')) :
    s'.write = true ∧ s'.isStd = false ∧ s'.fp = s.fp ∧
      ∃ d', s'.disk = some d' ∧ d' <+: d ++ s.buf ∧ (ok = true → d' = d ++ s.buf) := by
  unfold FileSt.fclose at h
  rw [if_neg (by simp [hs])] at h
  simp only at h
  obtain ⟨l, hl⟩ := FileSt.next_same { s with stdClosed := s.isStd }
  split at h
  · rename_i k s2 hk
    rw [hk] at hl
    simp only at hl
    subst hl
    rw [if_pos hw] at h
    cases h
    refine ⟨hw, hs, rfl, d ++ s.buf, ?_, List.prefix_refl _, fun _ => rfl⟩
    simp [FileSt.flush, hd]
  · rename_i k s2 hk
    rw [hk] at hl
    simp only at hl
    subst hl
    rw [if_pos hw] at h
    cases h
    refine ⟨hw, hs, rfl, d ++ s.buf.take k, ?_, ?_, nofun⟩
    · simp [FileSt.flush, hd]
    · exact (List.prefix_append_right_inj d).2 (List.take_prefix _ _)

theorem FOpen.close {s s' : FileSt} {t : Bytes} {r : Res} (h : FOpen s t)
    (hc : s.opClose = .ok (r, s')) : FClosed s' t (decide (r = .success)) := by
  unfold FileSt.opClose at hc
  rw [if_pos h.fp] at hc
  obtain ⟨⟨ok, s2⟩, h1, hc⟩ := Exec.bind_eq_ok.1 hc
  obtain ⟨d, hd, rfl⟩ := h.cont
  obtain ⟨a, b, c, d', e1, e2, e3⟩ := FileSt.fclose_ok (s := { s with fp := false }) h.write h.std hd h1
  simp only at hc
  cases ok with
  | true => cases hc; exact ⟨a, b, c, d', e1, e2, fun _ => e3 rfl⟩
  | false => cases hc; exact ⟨a, b, c, d', e1, e2, nofun⟩

theorem FClosed.close {s s' : FileSt} {t : Bytes} {full : Bool} {r : Res} (h : FClosed s t full)
    (hc : s.opClose = .ok (r, s')) : r = .failure ∧ s' = s := by
  unfold FileSt.opClose at hc
  rw [h.fp] at hc
  cases hc; exact ⟨rfl, rfl⟩

theorem FileSt.fwrite_ok {s s' : FileSt} {n : Nat} {d t : Bytes} (ho : FOpen s t)
    (h : s.fwrite d = .ok (n, s')) :
    (n = 1 ∧ FOpen s' (t ++ d)) ∨ (n = 0 ∧ ∃ k, FOpen s' (t ++ d.take k)) := by
  unfold FileSt.fwrite at h
  rw [if_neg (by simp [ho.std])] at h
  obtain ⟨c, hc, hb⟩ := ho.cont
  split at h
  · cases h; exact Or.inr ⟨rfl, 0, by simpa using ho⟩
  · obtain ⟨l, hl⟩ := FileSt.next_same s
    split at h
    · rename_i k s2 hk
      rw [hk] at hl
      simp only at hl
      subst hl
      cases h
      refine Or.inl ⟨rfl, ho.write, ho.std, ho.fp, ?_⟩
      refine ⟨_, rfl, ?_⟩
      simp only [FileSt.flush, hc, Option.getD_some, List.append_assoc, List.take_append_drop]
      rw [← List.append_assoc, hb]
    · rename_i k s2 hk
      rw [hk] at hl
      simp only at hl
      subst hl
      cases h
      exact Or.inr ⟨rfl, k, ho.write, ho.std, ho.fp, c, hc, by simp only [← hb, List.append_assoc]⟩

theorem FileSt.writeLoop_ok : ∀ (iov : List Bytes) (s s' : FileSt) (t : Bytes) (r : Res), FOpen s t →
    FileSt.writeLoop iov s = .ok (r, s') →
    (r = .success ∧ FOpen s' (t ++ iov.flatten)) ∨
    (r = .failure ∧ FClosed s' (t ++ iov.flatten) false)
  | [], s, s', t, r, ho, h => by cases h; exact Or.inl ⟨rfl, by simpa using ho⟩
  | d :: rest, s, s', t, r, ho, h => by
    unfold FileSt.writeLoop at h
    obtain ⟨⟨n, s2⟩, h1, h⟩ := Exec.bind_eq_ok.1 h
    simp only at h
    rcases FileSt.fwrite_ok ho h1 with ⟨rfl, ho2⟩ | ⟨rfl, k, ho2⟩
    · rw [if_neg (by simp)] at h
      have := FileSt.writeLoop_ok rest s2 s' (t ++ d) r ho2 h
      simpa using this
    · rw [if_pos (by simp)] at h
      obtain ⟨⟨rc, s3⟩, h2, h⟩ := Exec.bind_eq_ok.1 h
      cases h
      obtain ⟨a, b, c, d', e1, e2, _⟩ := ho2.close h2
      refine Or.inr ⟨rfl, a, b, c, d', e1, ?_, nofun⟩
      refine e2.trans ?_
      rw [List.flatten_cons, ← List.append_assoc]
      refine List.IsPrefix.trans ?_ (List.prefix_append _ _)
      exact (List.prefix_append_right_inj t).2 (List.take_prefix _ _)

/-- Invariant of the transport of a file writer. `disk0` is what the file held
before. -/
structure FInv (disk0 : Option Bytes) (rw : Rdwr FileSt) : Prop where
  ops : rw.ops = fileOps true
  cases : (rw.opened = true ∧ ∃ t, sent none rw.log = some t ∧ FOpen rw.obj t) ∨
    (rw.opened = false ∧ ((sent none rw.log = none ∧ rw.obj.disk = disk0 ∧ rw.obj.write = true ∧
        rw.obj.isStd = false ∧ rw.obj.fp = false ∧ rw.log.getLast? ≠ some (.cls .success)) ∨
      ∃ t, sent none rw.log = some t ∧
        FClosed rw.obj t (decide (rw.log.getLast? = some (.cls .success)))))

theorem FInv.init (disk0 : Option Bytes) (script : List Io) :
    FInv disk0 (Rdwr.init (fileOps true) (FileSt.init true false disk0 script)) :=
  ⟨rfl, Or.inr ⟨rfl, Or.inl ⟨rfl, rfl, rfl, rfl, rfl, by simp [Rdwr.init]⟩⟩⟩

theorem FileSt.fopen_write {s s' : FileSt} {ok : Bool} (hw : s.write = true) (h : s.fopen = (ok, s')) :
    s'.write = true ∧ s'.isStd = s.isStd ∧
    ((ok = true ∧ s'.fp = true ∧ s'.disk = some [] ∧ s'.buf = []) ∨
     (ok = false ∧ s'.fp = s.fp ∧ s'.disk = s.disk)) := by
  unfold FileSt.fopen at h
  obtain ⟨l, hl⟩ := FileSt.next_same s
  split at h
  · rename_i k s2 hk
    rw [hk] at hl
    simp only at hl
    subst hl
    cases h
    exact ⟨hw, rfl, Or.inr ⟨rfl, rfl, rfl⟩⟩
  · rename_i k s2 hk
    rw [hk] at hl
    simp only at hl
    subst hl
    rw [if_pos hw] at h
    cases h
    exact ⟨hw, rfl, Or.inl ⟨rfl, rfl, rfl, rfl⟩⟩

theorem FClosed.weaken {s : FileSt} {t : Bytes} {full : Bool} (h : FClosed s t full) :
    FClosed s t false := by
  obtain ⟨a, b, c, d, e1, e2, _⟩ := h
  exact ⟨a, b, c, d, e1, e2, nofun⟩

theorem FInv.close {disk0 : Option Bytes} {a b : Rdwr FileSt} {r : Res} (hi : FInv disk0 a)
    (h : a.close = .ok (r, b)) : FInv disk0 b := by
  obtain ⟨h1, h2⟩ := Rdwr.close_ok h
  have hsent := close_sent h
  have hops := h1.trans hi.ops
  rcases h2 with ⟨g, _⟩ | ⟨_, _, _, rfl⟩ | ⟨_, g1, g2, g3⟩
  · rw [hi.ops] at g; cases g
  · exact hi
  · rcases hi.cases with ⟨_, t, c1, c2⟩ | ⟨c, _⟩
    · refine ⟨hops, Or.inr ⟨g2, Or.inr ⟨t, hsent.trans c1, ?_⟩⟩⟩
      unfold Rdwr.close at h
      rw [hi.ops] at h
      simp only [fileOps, g1, if_true] at h
      obtain ⟨⟨r', s'⟩, h5, h⟩ := Exec.bind_eq_ok.1 h
      cases h
      have := c2.close h5
      simpa using this
    · rw [g1] at c; cases c

theorem FInv.prim {disk0 : Option Bytes} {a b : Rdwr FileSt} (hi : FInv disk0 a) (h : Prim a b) :
    FInv disk0 b := by
  cases h with
  | cls h => exact hi.close h
  | opn h =>
    rename_i r
    obtain ⟨h1, h2⟩ := Rdwr.open_ok h
    have hsent := open_sent h
    have hops := h1.trans hi.ops
    rcases h2 with ⟨g, _⟩ | ⟨g1, g2⟩
    · rw [hi.ops] at g; cases g
    · unfold Rdwr.open at h
      rw [hi.ops] at h
      simp only [fileOps] at h
      obtain ⟨⟨r', s'⟩, h5, h⟩ := Exec.bind_eq_ok.1 h
      have hb : b.obj = s' ∧ r' = r := by
        simp only at h
        split at h <;> (cases h; exact ⟨rfl, rfl⟩)
      obtain ⟨hb, rfl⟩ := hb
      clear h
      unfold FileSt.opOpen at h5
      have hlast : b.log.getLast? ≠ some (.cls .success) := by rw [g1]; simp
      rcases hi.cases with ⟨co, t, c1, c2⟩ | ⟨co, hc⟩
      · rw [c2.fp] at h5
        cases h5
        refine ⟨hops, Or.inl ⟨by rw [g2, co]; rfl, t, ?_, hb ▸ c2⟩⟩
        rw [hsent, if_neg (by simp)]; exact c1
      · have hcl : a.obj.write = true ∧ a.obj.isStd = false ∧ a.obj.fp = false := by
          rcases hc with ⟨_, _, x, y, z, _⟩ | ⟨t, _, ⟨x, y, z, _⟩⟩ <;> exact ⟨x, y, z⟩
        obtain ⟨x, y, z⟩ := hcl
        rw [z, y] at h5
        simp only [Bool.not_false, if_true, Bool.false_eq_true, if_false] at h5
        cases hf : a.obj.fopen with
        | mk ok s2 =>
        obtain ⟨e1, e2, e3⟩ := FileSt.fopen_write x hf
        rw [hf] at h5
        simp only at h5
        rcases e3 with ⟨rfl, f1, f2, f3⟩ | ⟨rfl, f1, f2⟩
        · cases h5
          rw [if_pos rfl] at hsent
          refine ⟨hops, Or.inl ⟨by rw [g2]; simp, [], hsent, ?_⟩⟩
          rw [hb]
          exact ⟨e1, e2.trans y, f1, [], f2, by simp [f3]⟩
        · cases h5
          rw [if_neg (by simp)] at hsent
          refine ⟨hops, Or.inr ⟨by rw [g2, co]; rfl, ?_⟩⟩
          rw [hsent, hb]
          rcases hc with ⟨x1, x2, _, _, _, _⟩ | ⟨t, x1, x2⟩
          · exact Or.inl ⟨x1, f2.trans x2, e1, e2.trans y, f1.trans z, hlast⟩
          · refine Or.inr ⟨t, x1, ?_⟩
            rw [decide_eq_false hlast]
            obtain ⟨_, _, _, d, d1, d2, _⟩ := x2
            exact ⟨e1, e2.trans y, f1.trans z, d, f2.trans d1, d2, nofun⟩
  | rd h =>
    have hn : a.ops.rd = none := by rw [hi.ops]; rfl
    unfold Rdwr.read at h
    rw [hn] at h
    split at h <;> (cases h; exact hi)
  | wr h =>
    rename_i iov r
    by_cases ho : a.opened = true
    · have hs := (write_sent ho (by rw [hi.ops]; simp [fileOps]) (by rw [hi.ops]; simp [fileOps]) h).1
      rcases hi.cases with ⟨_, t, c1, c2⟩ | ⟨c, _⟩
      · rw [c1] at hs
        unfold Rdwr.write at h
        rw [ho, hi.ops] at h
        simp only [fileOps, if_true, Bool.not_true, Bool.false_eq_true, if_false] at h
        obtain ⟨⟨r', s'⟩, h5, h⟩ := Exec.bind_eq_ok.1 h
        unfold FileSt.opWrite at h5
        rw [c2.fp] at h5
        simp only [Bool.not_true, Bool.false_eq_true, if_false] at h5
        rcases FileSt.writeLoop_ok _ _ _ _ _ c2 h5 with ⟨rfl, f⟩ | ⟨rfl, f⟩
        · simp only [ne_eq, not_true_eq_false, if_false] at h
          cases h
          exact ⟨rfl, Or.inl ⟨rfl, _, hs, f⟩⟩
        · simp only [ne_eq, reduceCtorEq, not_false_eq_true, if_true] at h
          obtain ⟨⟨rc, rw2⟩, h6, h⟩ := Exec.bind_eq_ok.1 h
          cases h
          unfold Rdwr.close at h6
          simp only [if_true] at h6
          obtain ⟨⟨rc', s3⟩, h7, h8⟩ := Exec.bind_eq_ok.1 h6
          obtain ⟨rfl, rfl⟩ := f.close h7
          clear h6 h7
          cases h8
          refine ⟨rfl, Or.inr ⟨rfl, Or.inr ⟨_, hs, ?_⟩⟩⟩
          simpa using f
      · rw [ho] at c; cases c
    · have ho : a.opened = false := by simpa using ho
      obtain ⟨_, rfl⟩ := write_closed ho h
      exact hi

theorem FInv.reach {disk0 : Option Bytes} {a b : Rdwr FileSt} (hi : FInv disk0 a) (h : Reach a b) :
    FInv disk0 b := h.inv hi (fun _ _ => FInv.prim)

/-! ### Reading -/

/-- What is left to read from an open file, when no I/O error is to come. -/
def FileSt.left (s : FileSt) : Option Bytes :=
  if s.fp = true ∧ s.isStd = false ∧ s.write = false ∧ s.err = false ∧ s.script = [] then
    some ((s.disk.getD []).drop s.pos) else none

theorem FileSt.left_some {s : FileSt} {bs : Bytes} (h : s.left = some bs) :
    s.fp = true ∧ s.isStd = false ∧ s.write = false ∧ s.err = false ∧ s.script = [] ∧
      bs = (s.disk.getD []).drop s.pos := by
  unfold FileSt.left at h
  split at h
  · rename_i hc
    obtain ⟨a, b, c, d, e⟩ := hc
    cases h
    exact ⟨a, b, c, d, e, rfl⟩
  · cases h

theorem FileSt.left_closes {s : FileSt} (h1 : s.isStd = false) :
    ∃ r s', s.opClose = .ok (r, s') := by
  unfold FileSt.opClose
  split
  · unfold FileSt.fclose
    rw [if_neg (by simp [h1])]
    simp only
    split
    · simp only [Exec.ok_bind]; exact ⟨_, _, rfl⟩
    · simp only [Exec.ok_bind]; exact ⟨_, _, rfl⟩
  · exact ⟨_, _, rfl⟩

theorem file_source : ByteSource (fileOps false) FileSt.left .stop := by
  refine ⟨by simp, FileSt.opRead, rfl, ?_⟩
  intro n s bs hn hl
  obtain ⟨a, b, c, d, e, rfl⟩ := FileSt.left_some hl
  have hnx : s.next = (.ok 0, s) := by unfold FileSt.next; rw [e]
  have hfr : s.fread n = if s.pos + n ≤ (s.disk.getD []).length then
        .ok (1, ((s.disk.getD []).drop s.pos).take n, false, { s with pos := s.pos + n })
      else .ok (0, [], true, { s with pos := (s.disk.getD []).length }) := by
    unfold FileSt.fread
    rw [if_neg (by simp [b])]
    simp only
    rw [if_neg (by omega), hnx]
  by_cases h : n ≤ ((s.disk.getD []).drop s.pos).length
  · rw [if_pos h]
    have h' := h
    rw [List.length_drop] at h'
    refine ⟨{ s with pos := s.pos + n }, ?_, ?_⟩
    · unfold FileSt.opRead
      rw [if_pos a, hfr, if_pos (by omega), Exec.ok_bind]
      rfl
    · unfold FileSt.left
      rw [if_pos ⟨a, b, c, d, e⟩]
      simp only [List.drop_drop]
  · rw [if_neg h]
    rw [List.length_drop] at h
    refine ⟨{ s with pos := (s.disk.getD []).length }, ?_, ?_⟩
    · unfold FileSt.opRead
      rw [if_pos a, hfr, if_neg (by omega), Exec.ok_bind]
      simp [d]
    · intro g hg
      cases hg
      exact FileSt.left_closes b

theorem file_serves (bs : Bytes) :
    Spec.Serves (fileOps false) (FileSt.init false false (some bs) []) FileSt.left .stop bs := by
  refine ⟨file_source, FileSt.opOpen, { FileSt.init false false (some bs) [] with fp := true }, rfl, rfl, ?_⟩
  rfl

end Fstrm
