import Mathlib.Data.List.Perm.Subperm
import Verif.Lemmas.IothrQueuesLive
import Verif.Lemmas.QueueIa64Impl

/-!
# How much the input queues hold
-/

set_option autoImplicit false

namespace Fstrm

open Spec (QEv puts gots visibles freeds seen QOp QRes fifoStep fifoRun Call)

/-- At most `cap` insertions have been accepted and not removed, visible or not. -/
structure QImpl.Roomy (Q : QImpl) (R : Q.S → QGhost → Prop) (cap : Nat) : Prop where
  first : ∀ s g, R s g → g.fifo.length + ((g.wait 0).length - (g.calling 0).toNat) ≤ cap
  others : ∀ s g t, R s g → t ≠ 0 → (g.wait t).length ≤ (g.calling t).toNat

theorem tso_roomy {num sz : UInt32} : tsoQueue.Roomy (TsoR num sz) (num.toNat - 1) where
  first := by
    intro s g h
    have h1 := h.inv.room
    have h2 := h.inv.cbuf.le
    have h3 := h.inv.pbuf.le
    have h4 := h.inv.order
    have h5 := h.inv.size.ge
    rw [h.fifo, h.wait, h.calling]
    simp only [List.length_append, List.length_drop, List.length_take]
    cases s.p.item <;> simp <;> omega
  others := by
    intro s g t h ht
    rw [(h.others t ht).1]; simp

theorem ia64_roomy {num sz : UInt32} : ia64Queue.Roomy (Ia64R num sz) (num.toNat - 1) where
  first := by
    intro s g h
    obtain ⟨r, hr⟩ := h.rel
    have h1 := hr.inv.room
    have h2 := hr.inv.cbuf.le
    have h3 := hr.inv.pbuf.le
    have h4 := hr.inv.order
    have h5 := hr.inv.size.ge
    rw [hr.log] at h1 h2 h3 h4
    rw [h.fifo, h.wait, h.calling]
    simp only [List.length_append, List.length_drop, List.length_take]
    cases s.p <;> simp [PPc64.item] <;> omega
  others := by
    intro s g t h ht
    rw [(h.others t ht).1]; simp

theorem fifoRun_le {cap : Nat} (ops : List (QOp Bytes)) (xs : List Bytes) (h : xs.length ≤ cap) :
    (fifoRun cap xs ops).2.length ≤ cap := by
  induction ops generalizing xs with
  | nil => exact h
  | cons o ops ih =>
    simp only [fifoRun]
    refine ih _ ?_
    cases o with
    | ins x =>
      simp only [fifoStep]
      split
      · simp; omega
      · exact h
    | rem =>
      cases xs with
      | nil => exact h
      | cons x xs => simp only [fifoStep]; simp only [List.length_cons] at h; omega

theorem mutex_roomy {num sz : UInt32} : mutexQueue.Roomy (MtR num sz) (num.toNat - 1) where
  first := by
    intro s g h
    have h1 : (fifoOf (num.toNat - 1) s.log).length ≤ num.toNat - 1 := fifoRun_le _ _ (by simp)
    rw [h.fifo, h.wait, h.calling]
    cases (s.th (0 + 1)).item <;> simp <;> omega
  others := by
    intro s g t h ht
    rw [h.wait, h.calling]
    cases (s.th (t + 1)).item <;> simp

namespace IoQ

variable {σ : Type} {Q : QImpl} {num sz : UInt32} {R : Q.S → QGhost → Prop} {cap : Nat}

/-- Submissions accepted by queue `q` that are not visible to the I/O thread yet. -/
def unseen (s : IoQ σ Q) (q : Nat) : List Entry :=
  if (s.cur q 0).isSome then (s.wait q 0).dropLast else s.wait q 0

/-- In terms of lengths only: an accepted submission has taken effect or is unseen. -/
theorem Acct.accepted {s : IoQ σ Q} (h : s.Acct) (ho : ∀ q t, t ≠ 0 → (s.wait q t).length ≤ (s.cur q t).toList.length)
    {e : Entry} (he : e ∈ s.rets) : e ∈ submits s.io.log ∨ e ∈ s.unseen e.queue := by
  have hm := h.acct e.queue (s.who e.id)
  have hmem : ∀ l : List Entry, e ∈ s.mine e.queue (s.who e.id) l ↔ e ∈ l := by
    intro l
    simp [IoQ.mine, onQueue]
  have he' := (hmem _).2 he
  by_cases h1 : e ∈ submits s.io.log
  · exact Or.inl h1
  · refine Or.inr ?_
    have h2 : e ∉ s.mine e.queue (s.who e.id) (submits s.io.log) := fun h => h1 ((hmem _).1 h)
    generalize hw : s.who e.id = t at *
    cases hc : s.cur e.queue t with
    | none =>
      rw [hc] at hm
      simp only [Option.toList, List.append_nil] at hm
      have h3 : e ∈ s.wait e.queue t := by
        rw [← hm] at he'
        rcases List.mem_append.1 he' with h | h
        · exact absurd h h2
        · exact h
      by_cases ht : t = 0
      · subst ht
        unfold IoQ.unseen
        rw [hc]; exact h3
      · have := ho e.queue t ht
        rw [hc] at this
        have : s.wait e.queue t = [] := List.length_eq_zero_iff.1 (by simpa using this)
        rw [this] at h3; cases h3
    | some x =>
      rw [hc] at hm
      simp only [Option.toList] at hm
      rcases List.eq_nil_or_concat (s.wait e.queue t) with hnil | ⟨ws, y, hcat⟩
      · rw [hnil, List.append_nil] at hm
        exfalso
        exact h2 (by rw [hm]; exact List.mem_append_left _ he')
      · rw [hcat, List.concat_eq_append, ← List.append_assoc] at hm
        obtain ⟨h3, _⟩ := List.append_inj' hm rfl
        have h4 : e ∈ ws := by
          rw [← h3] at he'
          rcases List.mem_append.1 he' with h | h
          · exact absurd h h2
          · exact h
        by_cases ht : t = 0
        · subst ht
          unfold IoQ.unseen
          rw [hc, hcat]
          simpa using h4
        · have := ho e.queue t ht
          rw [hc, hcat] at this
          have : ws = [] := List.length_eq_zero_iff.1 (by simpa using this)
          rw [this] at h4; cases h4

/-- All that has been accepted and not been freed is in the queues. -/
theorem Link.held (hR : Q.Roomy R (num.toNat - 1)) {s : IoQ σ Q} (h : s.Link num R)
    (L : List Entry) (hn : L.Nodup) (hL : ∀ e ∈ L, e ∈ s.rets ∧ e.hasFree = true ∧ e ∉ frees s.io.log) :
    L.length ≤ s.io.outq.length + s.io.opt.numInputQueues * (s.io.opt.inputQueueSize - 1) := by
  have hsub : ∀ e ∈ submits s.io.log, e.hasFree = true → e ∉ frees s.io.log → e ∈ s.io.outq ∨ e ∈ s.io.queues.flatten := by
    intro e h1 h2 h3
    have := h.invA.cons e h2
    rw [List.count_eq_zero_of_not_mem h3] at this
    have h4 := List.count_pos_iff.2 h1
    by_cases h5 : e ∈ s.io.outq
    · exact Or.inl h5
    · rw [List.count_eq_zero_of_not_mem h5] at this
      exact Or.inr (List.count_pos_iff.1 (by omega))
  cases hd : s.io.destroyed with
  | true =>
    have hw := h.fin hd
    have he : L = [] := by
      rw [List.eq_nil_iff_forall_not_mem]
      intro e he
      obtain ⟨h1, h2, h3⟩ := hL e he
      rcases h.ac.accepted (fun q t _ => hw q t) h1 with h4 | h4
      · obtain ⟨d1, d2⟩ := h.invA.dest hd
        rcases hsub e h4 h2 h3 with h5 | h5
        · rw [h.invA.exit d1] at h5; cases h5
        · rw [d2] at h5; cases h5
      · have := hw e.queue 0
        unfold IoQ.unseen at h4
        split at h4
        · rename_i hs
          obtain ⟨x, hx⟩ := Option.isSome_iff_exists.1 hs
          rw [hx] at this
          have : (s.wait e.queue 0).dropLast = [] := List.length_eq_zero_iff.1 (by
            rw [List.length_dropLast]
            simp only [Option.toList, List.length_cons, List.length_nil] at this
            omega)
          rw [this] at h4; cases h4
        · rename_i hs
          have hc : s.cur e.queue 0 = none := by simpa using hs
          rw [hc] at this
          have : s.wait e.queue 0 = [] := List.length_eq_zero_iff.1 (by simpa using this)
          rw [this] at h4; cases h4
    rw [he]; simp
  | false =>
    obtain ⟨G, hG⟩ := h.live hd
    have hlen : s.qs.length = s.io.opt.numInputQueues := by rw [hG.len, h.invA.qlen]
    have hrel : ∀ q, q < s.io.opt.numInputQueues → ∃ c, s.qs[q]? = some c ∧ R c (G q) := by
      intro q hlt
      have hc : s.qs[q]? = some s.qs[q] := List.getElem?_eq_getElem (by omega)
      exact ⟨_, hc, hG.rel q _ hc⟩
    have hwait : ∀ q t, ((G q).wait t).length = (s.wait q t).length := by
      intro q t; rw [hG.g.wait, List.length_map]
    have hcall : ∀ q t, ((G q).calling t).toNat = (s.cur q t).toList.length := by
      intro q t; rw [hG.g.calling]; cases s.cur q t <;> rfl
    -- what the queues hold
    have hone : ∀ q, q < s.io.opt.numInputQueues →
        (s.io.queues[q]?.getD [] ++ s.unseen q).length ≤ s.io.opt.inputQueueSize - 1 := by
      intro q hlt
      obtain ⟨c, _, hr⟩ := hrel q hlt
      have h1 := hR.first _ _ hr
      have hql : q < s.io.queues.length := by rw [h.invA.qlen]; exact hlt
      have hes : s.io.queues[q]? = some s.io.queues[q] := List.getElem?_eq_getElem hql
      rw [hG.g.fifo q _ hes, List.length_map, hwait, hcall, hG.num] at h1
      rw [hes]
      simp only [Option.getD_some, List.length_append, IoQ.unseen]
      cases hc : s.cur q 0 with
      | none => rw [hc] at h1; simpa using h1
      | some x =>
        rw [hc] at h1
        simpa using h1
    have hoth : ∀ q t, t ≠ 0 → (s.wait q t).length ≤ (s.cur q t).toList.length := by
      intro q t ht
      by_cases hlt : q < s.io.opt.numInputQueues
      · obtain ⟨c, _, hr⟩ := hrel q hlt
        have := hR.others _ _ t hr ht
        rw [hwait, hcall] at this
        exact this
      · cases hw : s.wait q t with
        | nil => simp
        | cons x xs =>
          have hx : x ∈ s.wait q t := by rw [hw]; simp
          have h1 := (h.invA.plt _ _ (hG.g.pend q t x hx)).2.1
          rw [(h.ac.own q t x hx).1, h.invA.qlen] at h1
          exact absurd h1 hlt
    have hsubset : L ⊆ s.io.outq ++ (List.range s.io.opt.numInputQueues).flatMap
        fun q => s.io.queues[q]?.getD [] ++ s.unseen q := by
      intro e he
      obtain ⟨h1, h2, h3⟩ := hL e he
      rw [List.mem_append, List.mem_flatMap]
      rcases h.ac.accepted hoth h1 with h4 | h4
      · rcases hsub e h4 h2 h3 with h5 | h5
        · exact Or.inl h5
        · obtain ⟨es, h6, h7⟩ := List.mem_flatten.1 h5
          obtain ⟨q, h8⟩ := List.mem_iff_getElem?.1 h6
          have hlt := (List.getElem?_eq_some_iff.1 h8).1
          rw [h.invA.qlen] at hlt
          exact Or.inr ⟨q, List.mem_range.2 hlt, List.mem_append_left _ (by rw [h8]; exact h7)⟩
      · have h5 : e ∈ s.wait e.queue 0 := by
          unfold IoQ.unseen at h4
          split at h4
          · exact (List.dropLast_sublist _).subset h4
          · exact h4
        have h6 := (h.invA.plt _ _ (hG.g.pend _ _ _ h5)).2.1
        rw [h.invA.qlen] at h6
        exact Or.inr ⟨e.queue, List.mem_range.2 h6, List.mem_append_right _ h4⟩
    refine Nat.le_trans (hn.subperm hsubset).length_le ?_
    rw [List.length_append, List.length_flatMap]
    refine Nat.add_le_add_left ?_ _
    have hsum : ∀ (l : List Nat) (f : Nat → Nat) (b : Nat), (∀ q ∈ l, f q ≤ b) → (l.map f).sum ≤ l.length * b := by
      intro l f b
      induction l with
      | nil => intro _; simp
      | cons x l ih =>
        intro hb
        have h1 := hb x (by simp)
        have h2 := ih fun q hq => hb q (by simp [hq])
        simp only [List.map_cons, List.sum_cons, List.length_cons, Nat.add_mul, Nat.one_mul]
        omega
    have := hsum (List.range s.io.opt.numInputQueues) _ _ fun q hq => hone q (List.mem_range.1 hq)
    rw [List.length_range] at this
    exact this

end IoQ
end Fstrm
