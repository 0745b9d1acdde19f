import Verif.Lemmas.Conns
import Verif.Lemmas.Sock

/-! The connections of a socket are those in the log of the transport. -/

set_option autoImplicit false

namespace Fstrm

open Spec (connectionsOf connStep)

/-- The socket and the log agree. -/
structure SockSync (rw : Rdwr Sock) : Prop where
  ops : rw.ops = sockOps
  noShort : NoShort rw.obj.sends
  same : rw.obj.connected = rw.opened
  conns : connectionsOf false rw.log = (rw.obj.history, if rw.obj.connected then rw.obj.out else [])

theorem SockSync.close {a b : Rdwr Sock} {r : Res} (h : SockSync a) (e : a.close = .ok (r, b)) :
    SockSync b := by
  unfold Rdwr.close at e
  rw [h.ops] at e
  simp only [sockOps] at e
  split at e
  · rename_i ho
    have hc : a.obj.connected = true := h.same.trans ho
    obtain ⟨⟨res, obj⟩, h1, e⟩ := Exec.bind_eq_ok.1 e
    unfold Sock.opClose at h1
    rw [if_pos hc] at h1
    cases e
    have hl := h.conns
    rw [if_pos hc] at hl
    simp only at h1
    split at h1 <;>
    · cases h1
      refine ⟨rfl, h.noShort, rfl, ?_⟩
      simp only [connections_append, hl]
      rfl
  · cases e; exact h

theorem SockSync.step {a b : Rdwr Sock} (h : SockSync a) (e : Prim a b) : SockSync b := by
  cases e with
  | opn e =>
    unfold Rdwr.open at e
    rw [h.ops] at e
    simp only [sockOps] at e
    obtain ⟨⟨res, obj⟩, h1, e⟩ := Exec.bind_eq_ok.1 e
    unfold Sock.opOpen at h1
    have hl := h.conns
    split at h1
    · rename_i hc
      cases h1
      simp only [if_true] at e
      cases e
      refine ⟨rfl, h.noShort, hc, ?_⟩
      simp only [connections_append, hl]
      rfl
    · rename_i hc
      rw [if_neg hc] at hl
      simp only at h1
      split at h1
      · cases h1
        simp only [if_true] at e
        cases e
        refine ⟨rfl, h.noShort, rfl, ?_⟩
        simp only [connections_append, hl]
        rfl
      · cases h1
        simp only [reduceCtorEq, if_false] at e
        cases e
        refine ⟨rfl, h.noShort, h.same, ?_⟩
        simp only [connections_append, hl, if_neg hc]
        rfl
  | cls e => exact h.close e
  | @rd n _ _ e =>
    unfold Rdwr.read at e
    rw [h.ops] at e
    simp only [sockOps] at e
    split at e
    · cases e; exact h
    · rename_i ho
      have hc : a.obj.connected = true := by rw [h.same]; simpa using ho
      obtain ⟨⟨res, bs, obj⟩, h1, e⟩ := Exec.bind_eq_ok.1 e
      have key : SockSync ⟨sockOps, obj, a.opened, a.log ++ [.rd n res bs]⟩ := by
        unfold Sock.opRead at h1
        rw [if_pos hc] at h1
        have hl := h.conns
        rw [if_pos hc] at hl
        simp only at h1
        split at h1 <;>
        · cases h1
          refine ⟨rfl, h.noShort, h.same, ?_⟩
          simp only [connections_append, hl, hc, if_true]
          rfl
      simp only at e
      split at e
      · obtain ⟨⟨rc, rw2⟩, h2, e⟩ := Exec.bind_eq_ok.1 e
        cases e
        exact key.close h2
      · split at e
        · cases e
        · cases e; exact key
  | @wr iov _ e =>
    unfold Rdwr.write at e
    rw [h.ops] at e
    simp only [sockOps] at e
    split at e
    · cases e; exact h
    · rename_i ho
      have hc : a.obj.connected = true := by rw [h.same]; simpa using ho
      obtain ⟨⟨res, obj⟩, h1, e⟩ := Exec.bind_eq_ok.1 e
      have key : SockSync ⟨sockOps, obj, a.opened, a.log ++ [.wr iov res]⟩ := by
        unfold Sock.opWrite at h1
        rw [if_neg (by simp [hc])] at h1
        simp only [← List.length_flatten] at h1
        obtain ⟨sc, h2, h3, h4⟩ := sendLoop_noShort a.obj.past iov a.obj.out (a.obj.sends.length + 2)
          a.obj.sends h.noShort (by omega)
        have hl := h.conns
        rw [if_pos hc] at hl
        rcases h4 with h4 | ⟨h4, _⟩
        · rw [h4] at h1
          cases h1
          refine ⟨rfl, h2, h.same, ?_⟩
          simp only [connections_append, hl, hc, if_true]
          rfl
        · rw [h4] at h1
          cases h1
          refine ⟨rfl, h2, h.same, ?_⟩
          simp only [connections_append, hl, hc, if_true]
          rfl
      simp only at e
      split at e
      · obtain ⟨⟨rc, rw2⟩, h2, e⟩ := Exec.bind_eq_ok.1 e
        cases e
        exact key.close h2
      · cases e; exact key

end Fstrm
