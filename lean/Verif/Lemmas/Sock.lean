import Verif.Model.Sock
import Verif.Lemmas.Exec

/-! Lemmas about the socket transports. -/

set_option autoImplicit false

namespace Fstrm

/-- Whatever `read_bytes` does, it takes bytes from the front of the stream, in order. -/
theorem readBytes_prefix : ∀ (script : List KRead) (need : Nat) (inp acc : Bytes),
    let r := readBytes script need inp acc
    ∃ got, r.2.1 = acc ++ got ∧ inp = got ++ r.2.2.1 ∧ got.length ≤ need ∧
      (r.1 = true → got.length = need) ∧ r.2.2.2 <:+ script
  | script, 0, inp, acc => by
    unfold readBytes
    exact ⟨[], by simp⟩
  | [], need + 1, inp, acc => by
    unfold readBytes
    by_cases h : need + 1 ≤ inp.length
    · rw [if_pos h]
      exact ⟨inp.take (need + 1), rfl, by simp, by simp only [List.length_take]; omega,
        fun _ => by simp only [List.length_take]; omega, by simp⟩
    · rw [if_neg h]
      exact ⟨inp, rfl, by simp, by omega, fun h => by simp at h, by simp⟩
  | .intr :: script, need + 1, inp, acc => by
    unfold readBytes
    obtain ⟨got, h1, h2, h3, h4, h5⟩ := readBytes_prefix script (need + 1) inp acc
    exact ⟨got, h1, h2, h3, h4, h5.trans (List.suffix_cons _ _)⟩
  | .fail :: script, need + 1, inp, acc => by
    unfold readBytes
    exact ⟨[], by simp, by simp, by simp, fun h => by simp at h, List.suffix_cons _ _⟩
  | .data k :: script, need + 1, inp, acc => by
    unfold readBytes
    simp only
    generalize hg : min (max k 1) (min (need + 1) inp.length) = got
    by_cases h : got = 0
    · rw [if_pos h]
      exact ⟨[], by simp, by simp, by simp, fun h => by simp at h, List.suffix_cons _ _⟩
    · rw [if_neg h]
      obtain ⟨g2, h1, h2, h3, h4, h5⟩ :=
        readBytes_prefix script (need + 1 - got) (inp.drop got) (acc ++ inp.take got)
      have hle : got ≤ need + 1 ∧ got ≤ inp.length := by omega
      refine ⟨inp.take got ++ g2, by rw [h1, List.append_assoc], ?_, ?_, ?_,
        h5.trans (List.suffix_cons _ _)⟩
      · rw [List.append_assoc, ← h2, List.take_append_drop]
      · simp; omega
      · intro hs; have := h4 hs; simp; omega

/-- Without read errors, `read_bytes` succeeds exactly when the stream is long enough. -/
theorem readBytes_ok_iff : ∀ (script : List KRead) (need : Nat) (inp acc : Bytes),
    KRead.fail ∉ script →
    ((readBytes script need inp acc).1 = true ↔ need ≤ inp.length)
  | script, 0, inp, acc, _ => by unfold readBytes; simp
  | [], need + 1, inp, acc, _ => by
    unfold readBytes
    by_cases h : need + 1 ≤ inp.length
    · rw [if_pos h]; simp [h]
    · rw [if_neg h]; simp [h]
  | .intr :: script, need + 1, inp, acc, hf => by
    unfold readBytes
    exact readBytes_ok_iff script (need + 1) inp acc (fun h => hf (List.mem_cons_of_mem _ h))
  | .fail :: script, need + 1, inp, acc, hf => absurd List.mem_cons_self hf
  | .data k :: script, need + 1, inp, acc, hf => by
    unfold readBytes
    simp only
    generalize hg : min (max k 1) (min (need + 1) inp.length) = got
    by_cases h : got = 0
    · rw [if_pos h]
      have : inp.length = 0 := by omega
      simp [this]
    · rw [if_neg h, readBytes_ok_iff script _ _ _ (fun h => hf (List.mem_cons_of_mem _ h))]
      simp; omega

theorem skipIov_lt : ∀ (lens : List Nat) (w cur w' cur' : Nat),
    skipIov lens w cur = .ok (w', cur') → cur ≤ cur' ∧ cur' < cur + lens.length
  | [], _, _, _, _, h => by simp [skipIov] at h
  | l :: lens, w, cur, w', cur', h => by
    unfold skipIov at h
    split at h
    · have := skipIov_lt lens (w - l) (cur + 1) w' cur' h
      simp; omega
    · cases h; simp

/-- If the skipping loop stays at `cur` nothing was subtracted. -/
theorem skipIov_same {lens : List Nat} {w cur w' cur' : Nat}
    (h : skipIov lens w cur = .ok (w', cur')) (he : cur' = cur) :
    w' = w ∧ ∃ l ls, lens = l :: ls ∧ w < l := by
  cases lens with
  | nil => simp [skipIov] at h
  | cons l lens =>
    unfold skipIov at h
    split at h
    · have := skipIov_lt _ _ _ _ _ h
      omega
    · rename_i hlt
      cases h
      exact ⟨rfl, l, lens, rfl, by omega⟩

theorem amount_le (ev : KSend) (n : Nat) : ev.amount n ≤ n := by
  cases ev <;> simp [KSend.amount] <;> omega

theorem head_cases (script : List KSend) (P : KSend → Prop)
    (h1 : P .all) (h2 : ∀ k, P (.sent k)) (h3 : P .intr) (h4 : P .fail) :
    P (script.head?.getD .all) := by
  cases script with
  | nil => exact h1
  | cons e _ => cases e <;> simp_all

/-- One iteration of the sending loop. -/
theorem sendLoop_succ (past : List Nat) (nbytes fuel : Nat) (script : List KSend)
    (iov : List Bytes) (cur : Nat) (out : Bytes) :
    sendLoop past nbytes (fuel + 1) script iov cur out =
      if script.head?.getD .all = .intr then sendLoop past nbytes fuel script.tail iov cur out
      else if script.head?.getD .all = .fail then .ok (.failure, out, script.tail)
      else
        let written := (script.head?.getD .all).amount iov.flatten.length
        if cur = 0 ∧ written = nbytes then
          .ok (.success, out ++ iov.flatten.take written, script.tail)
        else skipIov ((iov.map List.length ++ past).drop cur) written cur >>= fun p =>
          if p.2 = iov.length then .ok (.success, out ++ iov.flatten.take written, script.tail)
          else if p.2 > iov.length then .error (.ub "write past the end of the iovec array")
          else sendLoop past nbytes fuel script.tail (iov.modify p.2 (·.drop p.1)) p.2
            (out ++ iov.flatten.take written) := by
  rw [sendLoop]
  cases hd : script.head?.getD KSend.all <;> simp

theorem modify_flatten_length (iov : List Bytes) (c w : Nat) :
    (iov.modify c (·.drop w)).flatten.length =
      iov.flatten.length - min w ((iov[c]?.getD []).length) := by
  induction iov generalizing c with
  | nil => cases c <;> simp [List.modify]
  | cons d iov ih =>
    cases c with
    | zero => simp; omega
    | succ c =>
      have hle : ∀ (l : List Bytes) (c : Nat), (l[c]?.getD []).length ≤ l.flatten.length := by
        intro l
        induction l with
        | nil => simp
        | cons d l ih =>
          intro c
          cases c with
          | zero => simp
          | succ c =>
            have := ih c
            simp only [List.getElem?_cons_succ, List.flatten_cons, List.length_append]; omega
      have := ih c
      have h2 := hle iov c
      simp only [List.modify_succ_cons, List.flatten_cons, List.length_append, this,
        List.getElem?_cons_succ]
      omega

/-- Strict reading of C: nothing may be read beyond the iovec array. Then the loop can only
succeed with one `sendmsg` call that takes everything. -/
theorem sendLoop_success (all : Bytes) (out0 : Bytes) (fuel : Nat) :
    ∀ (script script' : List KSend) (iov : List Bytes) (cur : Nat) (out out' : Bytes),
    iov.flatten.length ≤ all.length →
    ((iov.flatten = all ∧ cur = 0 ∧ out = out0) ∨ cur ≠ 0 ∨ iov.flatten.length < all.length) →
    sendLoop [] all.length fuel script iov cur out = .ok (.success, out', script') →
    out' = out0 ++ all ∧ cur = 0 ∧ out = out0 ∧ iov.flatten = all := by
  induction fuel with
  | zero => intro _ _ _ _ _ _ _ _ h; simp [sendLoop] at h
  | succ fuel ih =>
    intro script script' iov cur out out' hle hinv h
    rw [sendLoop_succ] at h
    split at h
    · exact ih _ _ _ _ _ _ hle hinv h
    · split at h
      · cases h
      · simp only at h
        have hw := amount_le (script.head?.getD .all) iov.flatten.length
        generalize hwd : (script.head?.getD KSend.all).amount iov.flatten.length = w at h hw
        split at h
        · rename_i hc
          obtain ⟨hc1, hc2⟩ := hc
          simp only [Except.ok.injEq, Prod.mk.injEq, true_and] at h
          rcases hinv with ⟨h1, h2, h3⟩ | h1 | h1
          · rw [← h.1, h1, h3, hc2]; simp [h2]
          · exact absurd hc1 h1
          · omega
        · rename_i hc
          obtain ⟨⟨w', c⟩, h1, h⟩ := Exec.bind_eq_ok.1 h
          have hlt := skipIov_lt _ _ _ _ _ h1
          simp only at h
          simp only [List.append_nil, List.length_drop, List.length_map] at hlt
          split at h
          · omega
          · split at h
            · cases h
            · have hlen := modify_flatten_length iov c w'
              have := ih _ _ _ _ _ _ (by rw [hlen]; omega) ?_ h
              · obtain ⟨a, b, o, d⟩ := this
                -- the previous call sent nothing and changed nothing
                subst b
                have hcur : cur = 0 := by omega
                subst hcur
                obtain ⟨rfl, l, ls, hl, hwl⟩ := skipIov_same h1 rfl
                have h0 : (iov[0]?.getD []).length = l := by
                  cases iov with
                  | nil => simp at hl
                  | cons d _ => simp at hl; simp [hl.1]
                have hd : (iov.modify 0 (·.drop w')).flatten.length = all.length := by rw [d]
                rw [hlen, h0] at hd
                have hw0 : w' = 0 := by omega
                subst hw0
                have hsame : iov.modify 0 (·.drop 0) = iov := by
                  cases iov <;> simp
                rw [hsame] at d
                simp at o
                exact ⟨a, rfl, o, d⟩
              · by_cases hc0 : c = 0
                · subst hc0
                  have hcur : cur = 0 := by omega
                  subst hcur
                  obtain ⟨rfl, l, ls, hl, hwl⟩ := skipIov_same h1 rfl
                  by_cases hw0 : w' = 0
                  · subst hw0
                    have hsame : iov.modify 0 (·.drop 0) = iov := by
                      cases iov <;> simp
                    rw [hsame]
                    rcases hinv with ⟨h1, h2, h3⟩ | h1 | h1
                    · left; exact ⟨h1, rfl, by simp [h3]⟩
                    · exact absurd rfl h1
                    · exact Or.inr (Or.inr h1)
                  · right; right
                    have h0 : (iov[0]?.getD []).length = l := by
                      cases iov with
                      | nil => simp at hl
                      | cons d _ => simp at hl; simp [hl.1]
                    rw [hlen, h0]; omega
                · exact Or.inr (Or.inl hc0)

/-- Kernels that never take only a part of what they are given. -/
def NoShort (script : List KSend) : Prop := ∀ e ∈ script, ∀ k, e ≠ .sent k

theorem NoShort.tail {script : List KSend} (h : NoShort script) : NoShort script.tail :=
  fun e he => h e (List.mem_of_mem_tail he)

/-- Without short sends the loop ends, and sends all or nothing. -/
theorem sendLoop_noShort (past : List Nat) (iov : List Bytes) (out : Bytes) (fuel : Nat) :
    ∀ (script : List KSend), NoShort script → script.length + 1 ≤ fuel →
    ∃ script', NoShort script' ∧ script' <:+ script ∧
      (sendLoop past iov.flatten.length fuel script iov 0 out =
          .ok (.success, out ++ iov.flatten, script') ∨
       sendLoop past iov.flatten.length fuel script iov 0 out = .ok (.failure, out, script') ∧
          .fail ∈ script) := by
  induction fuel with
  | zero => intro script _ h; omega
  | succ fuel ih =>
    intro script hs hf
    rw [sendLoop_succ]
    cases script with
    | nil => exact ⟨[], hs, by simp, Or.inl (by simp [KSend.amount, ← List.length_flatten])⟩
    | cons e script =>
      cases e with
      | all =>
        exact ⟨script, hs.tail, List.suffix_cons _ _, Or.inl (by simp [KSend.amount, ← List.length_flatten])⟩
      | sent k => exact absurd rfl (hs (.sent k) (by simp) k)
      | intr =>
        obtain ⟨s', h1, h2, h3⟩ := ih script hs.tail (by simp at hf; omega)
        refine ⟨s', h1, h2.trans (List.suffix_cons _ _), ?_⟩
        rcases h3 with h3 | ⟨h3, h4⟩
        · left; simpa using h3
        · right; exact ⟨by simpa using h3, by simp [h4]⟩
      | fail => exact ⟨script, hs.tail, List.suffix_cons _ _, Or.inr (by simp)⟩

end Fstrm
