import Verif.Lemmas.ArgvGrids

/-! Invariants of the parsing of command lines. -/

set_option autoImplicit false

namespace Fstrm

theorem Cmd.bind_eq_ok {α β : Type} {x : Cmd α} {f : α → Cmd β} {b : β} :
    x.bind f = .ok b ↔ ∃ a, x = .ok a ∧ f a = .ok b := by
  cases x with
  | error e => simp [Except.bind]
  | ok a => simp [Except.bind]

/-- What has to be shown for a property to be preserved by `do_list`. -/
structure Preserved (c : ArgvCtx) (P : ArgvSt → Prop) : Prop where
  bad : ∀ st, P st → P st.bad
  arg : ∀ i close st st', i < c.grid.length → P st → c.doArg i close st = .ok st' → P st'
  null : ∀ st st', P st → st.enqueue c.cap none = .ok st' → P st'
  stdin : ∀ st, P st → P { st with stdin := [] }
  file : ∀ st, P st → st.tail < st.queue.length → st.queue.getD st.tail none = none →
    P { st with tail := st.tail + 1 }
  value : ∀ i a st st', P st → st.tail < st.queue.length → st.queue.getD st.tail none = some i →
    ({ st with tail := st.tail + 1 } : ArgvSt).store c.grid i (some a) = .ok st' → P st'
  noMand : ∀ used, c.grid.positional used ARGV_MAND = none
  noMaybe : ∀ used, c.grid.positional used ARGV_MAYBE = none

variable {c : ArgvCtx} {P : ArgvSt → Prop}

theorem store_tail {st st' : ArgvSt} {g : Grid} {i : Nat} {arg : Option Bytes}
    (h : st.store g i arg = .ok st') :
    ({ st with tail := st.tail + 1 } : ArgvSt).store g i arg = .ok { st' with tail := st.tail + 1 } ∧
      st'.tail = st.tail := by
  unfold ArgvSt.store at h ⊢
  obtain ⟨x, e1, h⟩ := Cmd.bind_eq_ok.1 h
  simp only
  rw [e1]
  cases x with
  | none => cases h; exact ⟨rfl, rfl⟩
  | some v => cases h; exact ⟨rfl, rfl⟩

theorem Preserved.fileArgs (hp : Preserved c P) {nested : List Bytes → ArgvSt → Cmd ArgvSt}
    (hn : ∀ args st st', P st → nested args st = .ok st' → P st') {path : Bytes} {st st' : ArgvSt}
    (h0 : P st) (h : c.fileArgs nested path st = .ok st') : P st' := by
  unfold ArgvCtx.fileArgs at h
  split at h
  · exact hn _ _ _ (hp.stdin st h0) h
  · split at h
    · cases h
    · exact hn _ _ _ h0 h

theorem matchLong_lt {g : Grid} {name : Bytes} {i : Nat} (h : g.matchLong name = [i]) : i < g.length := by
  have : i ∈ g.matchLong name := by rw [h]; simp
  unfold Grid.matchLong at this
  exact List.mem_range.1 (List.mem_filter.1 this).1

theorem Preserved.doLong (hp : Preserved c P) {nested : List Bytes → ArgvSt → Cmd ArgvSt}
    (hn : ∀ args st st', P st → nested args st = .ok st' → P st') {arg : Bytes} {st st' : ArgvSt}
    (h0 : P st) (h : c.doLong nested arg st = .ok st') : P st' := by
  unfold ArgvCtx.doLong at h
  dsimp only at h
  split at h
  · cases h; exact hp.bad st h0
  · split at h
    · cases h; exact hp.bad st h0
    · rename_i i hm
      exact hp.arg _ _ _ _ (matchLong_lt hm) h0 h
    · split at h
      · split at h
        · exact hp.fileArgs hn h0 h
        · exact hp.null _ _ h0 h
      · split at h
        · cases h
        · cases h; exact hp.bad st h0

theorem Preserved.doChars (hp : Preserved c P) {arg : Bytes} {close : Option Bytes} (cs : Bytes) :
    ∀ (first : Bool) (st st' : ArgvSt), P st → c.doChars arg close first cs st = .ok st' → P st' := by
  induction cs with
  | nil => intro first st st' h0 h; unfold ArgvCtx.doChars at h; cases h; exact h0
  | cons ch cs ih =>
    intro first st st' h0 h
    unfold ArgvCtx.doChars at h
    split at h
    · rename_i i hi
      obtain ⟨st1, e1, h⟩ := Cmd.bind_eq_ok.1 h
      exact ih _ _ _ (hp.arg _ _ _ _ (List.findIdx?_eq_some_iff_findIdx_eq.1 hi).1 h0 e1) h
    · split at h
      · cases h
      · split at h
        · rename_i hc
          simp only [Bool.and_eq_true, decide_eq_true_eq] at hc
          split at h
          · cases h
          · rename_i i hi
            split at h
            · obtain ⟨st1, e1, h⟩ := Cmd.bind_eq_ok.1 h
              cases h
              obtain ⟨e2, e3⟩ := store_tail e1
              rw [e3]
              exact hp.value _ _ _ _ h0 hc.2 hi e2
            · exact ih _ _ _ (hp.bad st h0) h
        · exact ih _ _ _ (hp.bad st h0) h

theorem Preserved.doShort (hp : Preserved c P) {arg : Bytes} {st st' : ArgvSt}
    (h0 : P st) (h : c.doShort arg st = .ok st') : P st' := by
  unfold ArgvCtx.doShort at h
  dsimp only at h
  split at h
  · cases h; exact hp.bad st h0
  · exact hp.doChars _ _ _ _ h0 h

theorem Preserved.doValue (hp : Preserved c P) {nested : List Bytes → ArgvSt → Cmd ArgvSt}
    (hn : ∀ args st st', P st → nested args st = .ok st' → P st') {arg : Bytes} {st st' : ArgvSt}
    (h0 : P st) (h : c.doValue nested arg st = .ok st') : P st' := by
  unfold ArgvCtx.doValue at h
  split at h
  · rename_i hc
    dsimp only at h
    split at h
    · rename_i hx
      exact hp.fileArgs hn (hp.file st h0 hc.2 hx) h
    · rename_i i hx
      exact hp.value _ _ _ _ h0 hc.2 hx h
  · rw [hp.noMand, hp.noMaybe] at h
    cases h
    exact hp.bad st h0

theorem Preserved.loop (hp : Preserved c P) {nested : List Bytes → ArgvSt → Cmd ArgvSt}
    (hn : ∀ args st st', P st → nested args st = .ok st' → P st') (args : List Bytes) :
    ∀ (last : Bool) (st st' : ArgvSt), P st → c.loop nested last args st = .ok st' → P st' := by
  induction args with
  | nil => intro last st st' h0 h; unfold ArgvCtx.loop at h; cases h; exact h0
  | cons arg args ih =>
    intro last st st' h0 h
    rw [loop_cons] at h
    split at h
    · exact ih _ _ _ h0 h
    · obtain ⟨st1, e1, h⟩ := Cmd.bind_eq_ok.1 h
      refine ih _ _ _ ?_ h
      unfold ArgvCtx.one at e1
      split at e1
      · exact hp.doLong hn h0 e1
      · split at e1
        · exact hp.doShort h0 e1
        · exact hp.doValue hn h0 e1

theorem Preserved.doList (hp : Preserved c P) (fuel : Nat) : ∀ (args : List Bytes) (st st' : ArgvSt),
    P st → c.doList fuel args st = .ok st' → P st' := by
  induction fuel with
  | zero => intro args st st' _ h; unfold ArgvCtx.doList at h; cases h
  | succ n ih =>
    intro args st st' h0 h
    unfold ArgvCtx.doList at h
    exact hp.loop ih args _ _ _ h0 h

/-- The end of `argv_process`: what has been checked. -/
theorem argvProcess_ok {fuel : Nat} {g : Grid} {os : ArgvOs} {argv : List Bytes} {st : ArgvSt}
    (h : argvProcess fuel g os argv = .ok st)
    (hP : ∀ set cap, Preserved ⟨g, set, cap, os.files⟩ P) (h0 : P (ArgvSt.init g os.stdin)) :
    P st ∧ st.ok = true ∧ checkMand g st.used = true ∧ st.queue.length ≤ st.tail ∧
      checkXor g st.used = true := by
  unfold argvProcess at h
  cases argv with
  | nil => cases h
  | cons program args =>
    dsimp only at h
    split at h
    · cases h
    · have henv : ∀ {set cap now env s s'}, P s →
          (⟨g, set, cap, os.files⟩ : ArgvCtx).doEnv fuel now env s = .ok s' → P s' := by
        intro set cap now env s s' hs e
        unfold ArgvCtx.doEnv at e
        split at e
        · exact (hP _ _).doList fuel _ _ _ hs e
        · cases e; exact hs
      obtain ⟨s1, e1, h⟩ := Cmd.bind_eq_ok.1 h
      obtain ⟨s2, e2, h⟩ := Cmd.bind_eq_ok.1 h
      obtain ⟨s3, e3, h⟩ := Cmd.bind_eq_ok.1 h
      have p3 : P s3 := henv ((hP _ _).doList fuel _ _ _ (henv h0 e1) e2) e3
      unfold ArgvSt.finish at h
      split at h
      · rename_i hc
        simp only [Bool.and_eq_true, decide_eq_true_eq] at hc
        cases h
        exact ⟨p3, hc.1.1.1, hc.1.1.2, hc.1.2, hc.2⟩
      · cases h

end Fstrm
