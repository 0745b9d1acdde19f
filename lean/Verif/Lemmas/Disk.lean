import Verif.Lemmas.CaptureIo

/-! What buffered output leaves in the files. -/

set_option autoImplicit false

namespace Fstrm

open Spec (StdioCall CallResult Buffered Calls buffered onDisk)

/-- Induction from the end of a list. -/
@[elab_as_elim]
theorem snocRec {α : Type} {P : List α → Prop} (nil : P []) (snoc : ∀ l c, P l → P (l ++ [c]))
    (h : List α) : P h := by
  have : ∀ l : List α, P l.reverse := by
    intro l
    induction l with
    | nil => exact nil
    | cons c l ih => rw [List.reverse_cons]; exact snoc _ _ ih
  simpa using this h.reverse

theorem buffered_snoc (i : Nat) (h : Calls) (c : StdioCall × CallResult) :
    buffered i (h ++ [c]) = (buffered i h).after i c := by simp [buffered]

/-- All that is in a file and its buffer. -/
def held (b : Buffered) : Bytes := b.disk ++ b.buffer

theorem held_move (b : Buffered) (n : Nat) : held (b.move n) = held b := by
  simp [held, Buffered.move]

theorem disk_move (b : Buffered) (n : Nat) : b.disk <+: (b.move n).disk := by
  simp [Buffered.move]

theorem disk_held (b : Buffered) : b.disk <+: held b := List.prefix_append _ _

theorem held_flush_ok (b : Buffered) (r : CallResult) (h : r.ok = true) : held (b.flush r) = held b := by
  simp [held, Buffered.flush, h]

theorem disk_flush_ok (b : Buffered) (r : CallResult) (h : r.ok = true) : (b.flush r).disk = held b := by
  simp [held, Buffered.flush, h]

theorem disk_flush (b : Buffered) (r : CallResult) : b.disk <+: (b.flush r).disk := by
  unfold Buffered.flush
  split <;> simp

theorem held_flush (b : Buffered) (r : CallResult) : held (b.flush r) <+: held b := by
  unfold Buffered.flush held
  split
  · simp
  · simpa using List.take_prefix _ _

/-- A failing `fwrite` adds some of its bytes at most. -/
theorem held_fail (b : Buffered) (bs : Bytes) (r : CallResult) :
    held ({ b with buffer := b.buffer ++ bs.take r.took }.flush { r with ok := false }) <+:
      held b ++ bs := by
  refine (held_flush _ _).trans ?_
  unfold held
  simpa [List.append_assoc] using List.take_prefix _ _

/-- What is in a file grows, except when it is opened. -/
theorem disk_after (i : Nat) (b : Buffered) (c : StdioCall × CallResult) (h : c.1 ≠ .fopen i) :
    b.disk <+: (b.after i c).disk := by
  obtain ⟨c, r⟩ := c
  cases c with
  | fopen j =>
    have : j ≠ i := fun e => h (by rw [e])
    simp [Buffered.after, this]
  | fwrite j bs ok =>
    simp only [Buffered.after]
    split
    · split
      · exact disk_move { b with buffer := b.buffer ++ bs } r.moved
      · exact disk_flush { b with buffer := b.buffer ++ bs.take r.took } { r with ok := false }
    · exact List.prefix_refl _
  | fflush j => simp only [Buffered.after]; split <;> simp [disk_flush]
  | fclose j => simp only [Buffered.after]; split <;> simp [disk_flush]
  | exit => exact disk_flush _ _

theorem onDisk_mono (i : Nat) (h h' : Calls) (hn : ∀ c ∈ h', c.1 ≠ .fopen i) :
    onDisk i h <+: onDisk i (h ++ h') := by
  induction h' using snocRec with
  | nil => simp
  | snoc l c ih =>
    rw [← List.append_assoc]
    unfold onDisk
    rw [buffered_snoc]
    exact (ih fun c hc => hn c (List.mem_append_left _ hc)).trans
      (disk_after i _ c (hn c (by simp)))

/-- Every `fflush` succeeded. -/
def Flushed (h : Calls) : Prop := ∀ i r, (StdioCall.fflush i, r) ∈ h → r.ok = true

theorem CallsOk.init {ct : Bytes} {cs : List StdioCall} {c : StdioCall} (h : CallsOk ct (cs ++ [c])) :
    CallsOk ct cs :=
  ⟨fun pre i bs ok post e => h.disc pre i bs ok (post ++ [c]) (by simp [e]),
    fun pre hp i => h.good pre (hp.trans (List.prefix_append _ _)) i⟩

theorem CallsOk.of_prefix {ct : Bytes} {cs cs' : List StdioCall} (h : CallsOk ct cs') (hp : cs <+: cs') :
    CallsOk ct cs := by
  obtain ⟨t, rfl⟩ := hp
  exact ⟨fun pre i bs ok post e => h.disc pre i bs ok (post ++ t) (by simp [e]),
    fun pre hp i => h.good pre (hp.trans (List.prefix_append _ _)) i⟩

/-- As long as every `fflush` succeeds, a file and its buffer contain the beginning of what was
written, and all of it while the file can be written to. -/
theorem held_whole {ct : Bytes} (i : Nat) (h : Calls) (hc : CallsOk ct (h.map (·.1))) (hf : Flushed h) :
    held (buffered i h) <+: whole i (h.map (·.1)) ∧
      (writable i (h.map (·.1)) = true → held (buffered i h) = whole i (h.map (·.1))) := by
  induction h using snocRec with
  | nil => simp [buffered, held, whole, writable]
  | snoc l c ih =>
    rw [List.map_append] at hc
    simp only [List.map_cons, List.map_nil] at hc
    obtain ⟨h1, h2⟩ := ih hc.init fun j r hr => hf j r (List.mem_append_left _ hr)
    rw [List.map_append, buffered_snoc]
    simp only [List.map_cons, List.map_nil]
    rw [whole_snoc, writable_snoc]
    obtain ⟨c, r⟩ := c
    cases c with
    | fopen j =>
      simp only [Buffered.after, wholeStep, writableStep]
      split
      · simp [held]
      · exact ⟨h1, h2⟩
    | fwrite j bs ok =>
      simp only [Buffered.after, wholeStep, writableStep]
      by_cases hji : j = i
      · subst hji
        have hw := hc.disc _ j bs ok [] rfl
        simp only [if_true]
        cases ok with
        | true =>
          have e : held ({ buffered j l with buffer := (buffered j l).buffer ++ bs }.move r.moved) =
              whole j (l.map (·.1)) ++ bs := by
            rw [held_move, ← h2 hw]; simp [held]
          simp [e]
        | false =>
          refine ⟨?_, by simp⟩
          rw [← h2 hw]
          simpa using held_fail (buffered j l) bs r
      · simp only [hji, if_false]; exact ⟨h1, h2⟩
    | fflush j =>
      have hr : r.ok = true := hf j r (by simp)
      simp only [Buffered.after, wholeStep, writableStep]
      split
      · rw [held_flush_ok _ _ hr]; exact ⟨h1, h2⟩
      · exact ⟨h1, h2⟩
    | fclose j =>
      simp only [Buffered.after, wholeStep, writableStep]
      split
      · exact ⟨(held_flush _ _).trans h1, by simp⟩
      · exact ⟨h1, h2⟩
    | exit =>
      simp only [Buffered.after, wholeStep, writableStep]
      exact ⟨(held_flush _ _).trans h1, by simp⟩

/-- Whatever the last call is, and whether it succeeds. -/
theorem disk_whole {ct : Bytes} (i : Nat) (h : Calls) (hc : CallsOk ct (h.map (·.1)))
    (hf : Flushed h.dropLast) : onDisk i h <+: whole i (h.map (·.1)) := by
  rcases List.eq_nil_or_concat h with rfl | ⟨l, c, rfl⟩
  · simp [onDisk, buffered]
  · simp only [List.concat_eq_append] at hf hc ⊢
    rw [List.dropLast_concat] at hf
    rw [List.map_append] at hc
    simp only [List.map_cons, List.map_nil] at hc
    obtain ⟨c, r⟩ := c
    by_cases hff : ∃ j, c = .fflush j
    · obtain ⟨j, rfl⟩ := hff
      have h1 := (held_whole i l hc.init hf).1
      unfold onDisk
      rw [buffered_snoc, List.map_append]
      simp only [List.map_cons, List.map_nil]
      rw [whole_snoc]
      simp only [Buffered.after, wholeStep]
      split
      · exact ((disk_held _).trans (held_flush _ _)).trans h1
      · exact (disk_held _).trans h1
    · have hf' : Flushed (l ++ [(c, r)]) := by
        intro j r' hr
        rcases List.mem_append.1 hr with hr | hr
        · exact hf j r' hr
        · simp only [List.mem_singleton, Prod.mk.injEq] at hr
          exact absurd ⟨j, hr.1.symm⟩ hff
      exact (disk_held _).trans
        (held_whole (ct := ct) i _ (by rw [List.map_append]; exact hc) hf').1

/-- If every call succeeds, nothing is lost. -/
theorem held_all (i : Nat) (h : Calls) (hw : ∀ j bs, StdioCall.fwrite j bs false ∉ h.map (·.1))
    (hr : ∀ c r, (c, r) ∈ h → c.flushes = true → r.ok = true) :
    held (buffered i h) = whole i (h.map (·.1)) := by
  induction h using snocRec with
  | nil => simp [buffered, held, whole]
  | snoc l c ih =>
    have h1 := ih (fun j bs h' => hw j bs (by rw [List.map_append]; exact List.mem_append_left _ h'))
      (fun c r h' => hr c r (List.mem_append_left _ h'))
    rw [List.map_append, buffered_snoc]
    simp only [List.map_cons, List.map_nil]
    rw [whole_snoc]
    obtain ⟨c, r⟩ := c
    have hr' := hr c r (by simp)
    cases c with
    | fopen j =>
      simp only [Buffered.after, wholeStep]
      split
      · simp [held]
      · exact h1
    | fwrite j bs ok =>
      have hok : ok = true := by
        cases ok with
        | true => rfl
        | false => exact absurd (by simp) (hw j bs)
      subst hok
      simp only [Buffered.after, wholeStep, if_true]
      split
      · rw [held_move, ← h1]; simp [held]
      · exact h1
    | fflush j =>
      simp only [Buffered.after, wholeStep]
      split
      · rw [held_flush_ok _ _ (hr' rfl)]; exact h1
      · exact h1
    | fclose j =>
      simp only [Buffered.after, wholeStep]
      split
      · rw [held_flush_ok _ _ (hr' rfl)]; exact h1
      · exact h1
    | exit =>
      simp only [Buffered.after, wholeStep]
      rw [held_flush_ok _ _ (hr' rfl)]; exact h1

/-- After a successful exit of the library the files contain all. -/
theorem disk_all (i : Nat) (h : Calls) (r : CallResult)
    (hw : ∀ j bs, StdioCall.fwrite j bs false ∉ (h ++ [(StdioCall.exit, r)]).map (·.1))
    (hr : ∀ c r', (c, r') ∈ h ++ [(.exit, r)] → c.flushes = true → r'.ok = true) :
    onDisk i (h ++ [(.exit, r)]) = whole i ((h ++ [(StdioCall.exit, r)]).map (·.1)) := by
  rw [← held_all i _ hw hr]
  unfold onDisk
  rw [buffered_snoc]
  simp only [Buffered.after]
  have h0 := hr .exit r (by simp) rfl
  rw [disk_flush_ok _ _ h0, held_flush_ok _ _ h0]

/-- A successful `fflush` puts all in the file. -/
theorem disk_fflush {ct : Bytes} (i : Nat) (h : Calls) (r : CallResult)
    (hc : CallsOk ct ((h ++ [(StdioCall.fflush i, r)]).map (·.1)))
    (hf : Flushed (h ++ [(StdioCall.fflush i, r)]))
    (hw : writable i ((h ++ [(StdioCall.fflush i, r)]).map (·.1)) = true) :
    onDisk i (h ++ [(.fflush i, r)]) = whole i ((h ++ [(StdioCall.fflush i, r)]).map (·.1)) := by
  rw [← (held_whole i _ hc hf).2 hw]
  unfold onDisk
  rw [buffered_snoc]
  simp only [Buffered.after, if_true]
  have h0 := hf i r (by simp)
  rw [disk_flush_ok _ _ h0, held_flush_ok _ _ h0]

end Fstrm
