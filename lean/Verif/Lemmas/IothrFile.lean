import Verif.Spec.IothrFile
import Verif.Lemmas.IothrInv2
import Verif.Lemmas.Rdwr
import Verif.Lemmas.Writer
import Verif.Model.File

/-!
# Lemmas: files written by I/O threads
-/

set_option autoImplicit false

namespace Fstrm

open Spec

theorem Spec.FileKept.refl (a : Option Bytes) : FileKept a a := fun d h => ⟨d, h, List.prefix_rfl⟩

theorem Spec.FileKept.trans {a b c : Option Bytes} (h1 : FileKept a b) (h2 : FileKept b c) : FileKept a c := by
  intro d h
  obtain ⟨d1, e1, p1⟩ := h1 d h
  obtain ⟨d2, e2, p2⟩ := h2 d1 e1
  exact ⟨d2, e2, p1.trans p2⟩

theorem kept_next (s : FileSt) : s.next.2.disk = s.disk := by
  unfold FileSt.next; split <;> rfl

theorem kept_flush (s : FileSt) (k : Nat) : FileKept s.disk (s.flush k).disk := by
  intro d h
  refine ⟨d ++ s.buf.take k, ?_, List.prefix_append _ _⟩
  simp [FileSt.flush, h]

theorem kept_fwrite {s s' : FileSt} {d : Bytes} {n : Nat} (h : s.fwrite d = .ok (n, s')) :
    FileKept s.disk s'.disk := by
  unfold FileSt.fwrite at h
  split at h
  · cases h
  · split at h
    · cases h; exact .refl _
    · have hn := kept_next s
      split at h <;> rename_i k s1 he <;> rw [he] at hn <;> cases h
      · rw [← hn]; exact kept_flush { s1 with buf := s1.buf ++ d } k
      · rw [← hn]; exact .refl _

theorem kept_fclose {s s' : FileSt} {ok : Bool} (h : s.fclose = .ok (ok, s')) : FileKept s.disk s'.disk := by
  unfold FileSt.fclose at h
  split at h
  · cases h
  · simp only at h
    have hn := kept_next { s with stdClosed := s.isStd }
    split at h <;> rename_i k s1 he <;> rw [he] at hn <;> cases h
    · split
      · rw [← hn]; exact kept_flush s1 _
      · rw [← hn]; exact .refl _
    · split
      · rw [← hn]; exact kept_flush s1 k
      · rw [← hn]; exact .refl _

theorem kept_opClose {s s' : FileSt} {r : Res} (h : s.opClose = .ok (r, s')) : FileKept s.disk s'.disk := by
  unfold FileSt.opClose at h
  split at h
  · obtain ⟨⟨ok, s1⟩, h1, h⟩ := Exec.bind_eq_ok.1 h
    have : s' = s1 := by simp only at h; split at h <;> cases h <;> rfl
    subst this
    exact kept_fclose (s := { s with fp := false }) h1
  · cases h; exact .refl _

theorem kept_writeLoop : ∀ (iov : List Bytes) {s s' : FileSt} {r : Res},
    FileSt.writeLoop iov s = .ok (r, s') → FileKept s.disk s'.disk
  | [], s, s', r, h => by cases h; exact .refl _
  | d :: iov, s, s', r, h => by
    unfold FileSt.writeLoop at h
    obtain ⟨⟨n, s1⟩, h1, h⟩ := Exec.bind_eq_ok.1 h
    simp only at h
    split at h
    · obtain ⟨⟨r2, s2⟩, h2, h⟩ := Exec.bind_eq_ok.1 h
      cases h
      exact (kept_fwrite h1).trans (kept_opClose h2)
    · exact (kept_fwrite h1).trans (kept_writeLoop iov h)

/-- A file transport for writing, and its file has been kept. -/
def FileKeeps (a b : Rdwr FileSt) : Prop :=
  a.ops = fileOps true → b.ops = fileOps true ∧ FileKept a.obj.disk b.obj.disk

theorem FileKeeps.refl (a : Rdwr FileSt) : FileKeeps a a := fun h => ⟨h, .refl _⟩

theorem FileKeeps.trans {a b c : Rdwr FileSt} (h1 : FileKeeps a b) (h2 : FileKeeps b c) : FileKeeps a c := by
  intro h
  obtain ⟨e1, p1⟩ := h1 h
  obtain ⟨e2, p2⟩ := h2 e1
  exact ⟨e2, p1.trans p2⟩

theorem rclose_keeps {a b : Rdwr FileSt} {r : Res} (h : a.close = .ok (r, b)) : FileKeeps a b := by
  intro ho
  unfold Rdwr.close at h
  rw [ho] at h
  simp only [fileOps] at h
  split at h
  · obtain ⟨⟨r1, o1⟩, h1, h⟩ := Exec.bind_eq_ok.1 h
    cases h
    exact ⟨rfl, kept_opClose h1⟩
  · cases h; exact ⟨ho, .refl _⟩

theorem rwrite_keeps {a b : Rdwr FileSt} {iov : List Bytes} {r : Res} (h : a.write iov = .ok (r, b)) :
    FileKeeps a b := by
  intro ho
  unfold Rdwr.write at h
  rw [ho] at h
  simp only [fileOps, if_true] at h
  split at h
  · cases h; exact ⟨ho, .refl _⟩
  · obtain ⟨⟨r1, o1⟩, h1, h⟩ := Exec.bind_eq_ok.1 h
    have hk : FileKept a.obj.disk o1.disk := by
      unfold FileSt.opWrite at h1
      split at h1
      · cases h1; exact .refl _
      · exact kept_writeLoop _ h1
    simp only at h
    split at h
    · obtain ⟨⟨r2, b2⟩, h2, h⟩ := Exec.bind_eq_ok.1 h
      cases h
      obtain ⟨p1, p2⟩ := rclose_keeps h2 rfl
      exact ⟨p1, hk.trans p2⟩
    · cases h; exact ⟨rfl, hk⟩

theorem rread_keeps {a b : Rdwr FileSt} {n : Nat} {r : Res} {bs : Bytes} (h : a.read n = .ok (r, bs, b)) :
    FileKeeps a b := by
  intro ho
  unfold Rdwr.read at h
  rw [ho] at h
  simp only [fileOps, if_true] at h
  split at h <;> cases h <;> exact ⟨ho, .refl _⟩

theorem rdreach_keeps {a b : Rdwr FileSt} (h : RdReach a b) : FileKeeps a b := by
  induction h with
  | refl => exact .refl _
  | tail _ h ih => exact ih.trans (rread_keeps h)

theorem writeControlFrame_keeps {rw rw' : Rdwr FileSt} {c : Control} {r : Res}
    (h : rw.writeControlFrame c = .ok (r, rw')) : FileKeeps rw rw' := by
  unfold Rdwr.writeControlFrame at h
  split at h
  · cases h; exact .refl _
  · split at h
    · cases h
    · obtain ⟨⟨res, frame, len⟩, _, h⟩ := Exec.bind_eq_ok.1 h
      simp only at h
      split at h
      · cases h; exact .refl _
      · exact rwrite_keeps h

theorem writeControl_keeps {rw rw' : Rdwr FileSt} {c : Option Bytes} {r : Res} {t : Nat}
    (h : rw.writeControl t c = .ok (r, rw')) : FileKeeps rw rw' := by
  unfold Rdwr.writeControl at h
  simp only at h
  split at h
  · cases h; exact .refl _
  · split at h
    · exact writeControlFrame_keeps h
    · split at h
      · cases h; exact .refl _
      · exact writeControlFrame_keeps h

theorem wclose_keeps {w w' : Writer FileSt} {r : Res} (h : w.close = .ok (r, w')) :
    FileKeeps w.rdwr w'.rdwr := by
  unfold Writer.close at h
  split at h
  · cases h; exact .refl _
  · obtain ⟨⟨res, rw⟩, h1, h⟩ := Exec.bind_eq_ok.1 h
    have r1 : FileKeeps w.rdwr rw := writeControl_keeps h1
    simp only at h
    split at h
    · obtain ⟨⟨res, rw2⟩, h2, h⟩ := Exec.bind_eq_ok.1 h
      cases h
      exact r1.trans (rclose_keeps h2)
    · split at h
      · obtain ⟨⟨res, fin, rw2⟩, h2, h⟩ := Exec.bind_eq_ok.1 h
        have r2 := rdreach_keeps (readControl_rdreach h2)
        simp only at h
        split at h
        · obtain ⟨⟨res, rw3⟩, h3, h⟩ := Exec.bind_eq_ok.1 h
          cases h
          exact (r1.trans r2).trans (rclose_keeps h3)
        · obtain ⟨⟨res, rw3⟩, h3, h⟩ := Exec.bind_eq_ok.1 h
          cases h
          exact (r1.trans r2).trans (rclose_keeps h3)
      · obtain ⟨⟨res, rw3⟩, h3, h⟩ := Exec.bind_eq_ok.1 h
        cases h
        exact r1.trans (rclose_keeps h3)

theorem writeIov_keeps {w w' : Writer FileSt} {iov : List Bytes} {r : Res}
    (h : w.writeIov iov = .ok (r, w')) : FileKeeps w.rdwr w'.rdwr := by
  unfold Writer.writeIov at h
  obtain ⟨iovecs, _, h⟩ := Exec.bind_eq_ok.1 h
  obtain ⟨⟨res, rw⟩, h1, h⟩ := Exec.bind_eq_ok.1 h
  cases h
  exact rwrite_keeps h1

theorem writeIovStupid_keeps : ∀ (fuel : Nat) {w w' : Writer FileSt} {iov : List Bytes} {r : Res},
    Writer.writeIovStupid fuel w iov = .ok (r, w') → FileKeeps w.rdwr w'.rdwr := by
  intro fuel
  induction fuel with
  | zero =>
    intro w w' iov r h
    unfold Writer.writeIovStupid at h
    split at h
    · cases h
    · cases h; exact .refl _
  | succ fuel ih =>
    intro w w' iov r h
    unfold Writer.writeIovStupid at h
    split at h
    · simp only at h
      obtain ⟨⟨res, w1⟩, h1, h⟩ := Exec.bind_eq_ok.1 h
      simp only at h
      split at h
      · cases h; exact writeIov_keeps h1
      · exact (writeIov_keeps h1).trans (ih h)
    · cases h; exact .refl _

theorem writev_keeps {w w' : Writer FileSt} {iov : List Bytes} {r : Res} (ho : w.state = .opened)
    (h : w.writev iov = .ok (r, w')) : FileKeeps w.rdwr w'.rdwr := by
  unfold Writer.writev at h
  split at h
  · cases h; exact .refl _
  · have hm : w.maybeOpen = .ok (.success, w) := by
      unfold Writer.maybeOpen; rw [if_neg (by rw [ho]; simp)]
    rw [hm, Exec.ok_bind] at h
    simp only [ne_eq, not_true_eq_false, if_false, ho, if_true] at h
    split at h
    · cases h
    · split at h
      · exact writeIov_keeps h
      · exact writeIovStupid_keeps _ h

theorem wdestroy_keeps {w : Writer FileSt} {rw : Rdwr FileSt} {r : Res} (h : w.destroy = .ok (r, rw)) :
    FileKeeps w.rdwr rw := by
  intro ho
  unfold Writer.destroy at h
  obtain ⟨⟨r1, w1⟩, h1, h⟩ := Exec.bind_eq_ok.1 h
  obtain ⟨⟨r2, rw2⟩, h2, h⟩ := Exec.bind_eq_ok.1 h
  cases h
  have k1 : FileKeeps w.rdwr w1.rdwr := by
    split at h1
    · exact wclose_keeps h1
    · cases h1; exact .refl _
  refine k1.trans ?_ ho
  intro ho
  unfold Rdwr.destroy at h2
  rw [ho] at h2
  cases h2
  exact ⟨rfl, .refl _⟩

end Fstrm
