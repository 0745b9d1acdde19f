import Verif.Lemmas.Rotation
import Verif.Lemmas.Disk

/-! The output of `fstrm_capture` as long as no write is reported to fail, whatever the clients
do. -/

set_option autoImplicit false

namespace Fstrm

open Spec Props

/-- A file that was closed. -/
def complete (ct : Bytes) (l : List Bytes) : Bytes := startBytes ct ++ l.flatten ++ stopBytes

/-- No write has failed, and the program runs. -/
structure Core (s : Capture) : Prop where
  exited : s.exited = none
  nofail : ∀ i bs, StdioCall.fwrite i bs false ∉ s.io
  files : ∀ i, i < s.files.length → s.files[i]? = some (whole i s.io)
  lt : ∀ p ∈ sessions s.log, p.1 < s.files.length
  dir : ∀ n i, s.dir n = some i → i < s.files.length
  all : ∀ i, i < s.files.length → ∃ l, latest i (sessions s.log) = some l

/-- File `i` is open and contains `w`; the frames `l` have been recorded in it. -/
structure Mid (i : Nat) (l : List Bytes) (w : Bytes) (s : Capture) : Prop where
  core : Core s
  outputFile : s.outputFile = some i
  sess : ∃ rest, sessions s.log = (i, l) :: rest
  this : s.files[i]? = some w
  others : ∀ j l', j ≠ i → latest j (sessions s.log) = some l' →
    s.files[j]? = some (complete s.args.contentType l')

/-- No file is open. -/
structure Shut (s : Capture) : Prop where
  core : Core s
  outputFile : s.outputFile = none
  all : ∀ j l', latest j (sessions s.log) = some l' →
    s.files[j]? = some (complete s.args.contentType l')

/-- Things that do not concern the output. -/
theorem Mid.same {i : Nat} {l : List Bytes} {w : Bytes} {s s' : Capture} (h : Mid i l w s)
    (hx : s'.exited = s.exited) (hio : s'.io = s.io) (hf : s'.files = s.files)
    (hs : sessions s'.log = sessions s.log) (hd : s'.dir = s.dir) (ho : s'.outputFile = s.outputFile)
    (ha : s'.args = s.args) : Mid i l w s' := by
  obtain ⟨⟨c1, c2, c3, c4, c5, c6⟩, h2, h3, h4, h5⟩ := h
  refine ⟨⟨hx.trans c1, by rw [hio]; exact c2, by rw [hf, hio]; exact c3, by rw [hs, hf]; exact c4,
    by rw [hd, hf]; exact c5, by rw [hs, hf]; exact c6⟩, ho.trans h2, by rw [hs]; exact h3,
    by rw [hf]; exact h4, by rw [hs, hf, ha]; exact h5⟩

theorem lt_of_some {α : Type} {l : List α} {i : Nat} {a : α} (h : l[i]? = some a) : i < l.length :=
  (List.getElem?_eq_some_iff.1 h).1

theorem Mid.write {i : Nat} {l : List Bytes} {w bs : Bytes} {s s' : Capture} {vs : List Bytes}
    (h : Mid i l w s)
    (hv : vs.flatten = bs)
    (hx : s'.exited = s.exited) (hio : s'.io = s.io ++ writes i vs)
    (hf : s'.files = s.files.modify i (· ++ bs))
    (hs : s'.log = s.log) (hd : s'.dir = s.dir) (ho : s'.outputFile = s.outputFile)
    (ha : s'.args = s.args) : Mid i l (w ++ bs) s' := by
  obtain ⟨⟨c1, c2, c3, c4, c5, c6⟩, h2, h3, h4, h5⟩ := h
  have hl : s'.files.length = s.files.length := by rw [hf, List.length_modify]
  refine ⟨⟨hx.trans c1, ?_, ?_, by rw [hs, hl]; exact c4, by rw [hd, hl]; exact c5,
    by rw [hs, hl]; exact c6⟩, ho.trans h2, by rw [hs]; exact h3, ?_, ?_⟩
  · intro j bs' hm
    rw [hio, List.mem_append] at hm
    rcases hm with hm | hm
    · exact c2 j bs' hm
    · simp [writes] at hm
  · intro j hj
    rw [hl] at hj
    rw [hf, List.getElem?_modify, c3 j hj, hio, whole_writes, hv]
    by_cases e : i = j <;> simp [e]
  · rw [hf, List.getElem?_modify, h4]; simp
  · intro j l' hj hl'
    rw [hs] at hl'
    rw [hf, List.getElem?_modify, h5 j l' hj hl', ha]
    simp [Ne.symm hj]

theorem Mid.fwrite {i : Nat} {l : List Bytes} {w bs : Bytes} {s s' : Capture} (h : Mid i l w s)
    (e : s.fwrite bs = .ok (true, s')) : Mid i l (w ++ bs) s' := by
  rcases fwrite_some h.outputFile bs with e' | ⟨e', _⟩
  · rw [e'] at e; cases e
  · rw [e'] at e
    cases e
    exact h.write (vs := [bs]) (by simp) rfl rfl rfl rfl rfl rfl rfl

theorem Mid.fflush {i : Nat} {l : List Bytes} {w : Bytes} {s : Capture} (h : Mid i l w s) :
    Mid i l w s.fflush := by
  unfold Capture.fflush
  rw [h.outputFile]
  obtain ⟨⟨c1, c2, c3, c4, c5, c6⟩, h2, h3, h4, h5⟩ := h
  refine ⟨⟨c1, ?_, ?_, c4, c5, c6⟩, h2, h3, h4, h5⟩
  · intro j bs hm
    exact c2 j bs (by simpa [Capture.call] using hm)
  · intro j hj
    rw [show (s.call (.fflush i)).io = s.io ++ [.fflush i] from rfl, whole_snoc]
    exact c3 j hj

/-- Calls of `open` and `time`. -/
theorem Shut.opened {s s' : Capture} {i : Nat} (h : Shut s) (ho : Opened s s' i) :
    Mid i [] [] s' := by
  obtain ⟨⟨c1, c2, c3, c4, c5, c6⟩, h2, h3⟩ := h
  obtain ⟨es, hes, hcase⟩ := ho.case
  have hlen : s'.files.length = max s.files.length (i + 1) := by
    rcases hcase with ⟨e1, e2, _⟩ | ⟨e1, e2, _⟩
    · rw [e2]; simp; omega
    · rw [e2]; simp; omega
  have hsess : sessions s'.log = (i, []) :: sessions s.log := by
    rcases hcase with ⟨_, _, e, _⟩ | ⟨_, _, e, _⟩ <;> rw [e, sessions_append, sessions_ask hes] <;> rfl
  have hi : s'.files[i]? = some [] := by
    rcases hcase with ⟨e1, e2, _⟩ | ⟨e1, e2, _⟩
    · rw [e2, e1]; simp
    · rw [e2]; simp [e1]
  have hother : ∀ j, j ≠ i → s'.files[j]? = s.files[j]? := by
    intro j hj
    rcases hcase with ⟨e1, e2, _⟩ | ⟨e1, e2, _⟩
    · rw [e2]
      by_cases hl : j < s.files.length
      · rw [List.getElem?_append_left hl]
      · rw [List.getElem?_eq_none (by simp; omega), List.getElem?_eq_none (by omega)]
    · rw [e2, List.getElem?_set]
      rw [if_neg (fun h => hj h.symm)]
  have hlt : ∀ j, j < s'.files.length → j ≠ i → j < s.files.length := by
    intro j hj hji
    rw [hlen] at hj
    rcases hcase with ⟨e1, _⟩ | ⟨e1, _⟩ <;> omega
  refine ⟨⟨ho.exited.trans c1, ?_, ?_, ?_, ?_, ?_⟩, ho.outputFile, ⟨_, hsess⟩, hi, ?_⟩
  · intro j bs hm
    rw [ho.io] at hm
    exact c2 j bs (by simpa using hm)
  · intro j hj
    rw [ho.io, whole_snoc]
    unfold wholeStep
    by_cases hji : i = j
    · subst hji; rw [hi]; simp
    · rw [hother j (Ne.symm hji), c3 j (hlt j hj (Ne.symm hji))]; simp [hji]
  · intro p hp
    rw [hsess] at hp
    rw [hlen]
    rcases List.mem_cons.1 hp with rfl | hp
    · simp only; omega
    · have := c4 p hp; omega
  · intro n j hj
    rw [hlen]
    rcases hcase with ⟨e1, _, _, e4⟩ | ⟨e1, _, _, e4⟩
    · have := e4 n j hj; omega
    · rw [e4] at hj; have := c5 n j hj; omega
  · intro j hj
    rw [hsess]
    by_cases hji : i = j
    · subst hji; exact ⟨_, latest_cons_self _ _ _⟩
    · rw [latest_cons_ne _ _ hji]
      exact c6 j (hlt j hj (Ne.symm hji))
  · intro j l' hji hl'
    rw [hsess, latest_cons_ne _ _ (Ne.symm hji)] at hl'
    rw [hother j hji, ho.args]
    exact h3 j l' hl'

/-- The output file is open and has all that was recorded. -/
def Alive (s : Capture) : Prop := ∃ i l, Mid i l (startBytes s.args.contentType ++ l.flatten) s

theorem Shut.openWriteFile {s s' : Capture} (h : Shut s) (e : s.openWriteFile = .ok (true, s')) :
    Alive s' := by
  unfold Capture.openWriteFile at e
  rcases openOutput_spec s h.core.dir with ⟨s1, t, k, m, es, h1, _⟩ | ⟨s1, i, h1, h2⟩
  · rw [h1] at e; cases e
  · rw [h1] at e
    dsimp only at e
    have hm := h.opened h2
    rcases openWriteStart_eq h2.outputFile with e' | e' | ⟨e', _⟩ <;> rw [e'] at e <;>
      simp only [Exec.ok_bind] at e
    · cases e
    · cases e
    · cases e
      refine ⟨i, [], ?_⟩
      have h3 : Mid i [] ([] ++ startBytes s1.args.contentType) { s1 with
          nWrite := s1.nWrite + 1
          files := s1.files.modify i (· ++ startBytes s1.args.contentType)
          io := s1.io ++ [.fwrite i (startBytes s1.args.contentType) true] } :=
        hm.write (vs := [startBytes s1.args.contentType]) (by simp) rfl rfl rfl rfl rfl rfl rfl
      have h4 := h3.fflush
      unfold Capture.fflush at h4
      rw [h3.outputFile] at h4
      simpa [Capture.call, h2.outputFile] using h4

theorem Alive.closeWriteFile {s s' : Capture} (h : Alive s) (e : s.closeWriteFile = .ok (true, s')) :
    Shut s' := by
  obtain ⟨i, l, h⟩ := h
  unfold Capture.closeWriteFile at e
  rw [h.outputFile] at e
  dsimp only at e
  rcases closeWriteStop_eq h.outputFile with e' | e' <;> rw [e'] at e <;>
    simp only [Exec.ok_bind] at e
  · cases e
  · have h1 : Mid i l (startBytes s.args.contentType ++ l.flatten ++ stopBytes) { s with
        nWrite := s.nWrite + 1, files := s.files.modify i (· ++ stopBytes)
        io := s.io ++ [.fwrite i stopBytes true] } :=
      h.write (vs := [stopBytes]) (by simp) rfl rfl rfl rfl rfl rfl rfl
    have hf : s' = { s with
        nWrite := s.nWrite + 1, io := s.io ++ [.fwrite i stopBytes true] ++ [.fclose i]
        files := s.files.modify i (· ++ stopBytes)
        outputFile := none
        log := s.log ++ [.finished i] } := by
      simp only [Bool.not_true, Bool.false_eq_true, if_false] at e
      cases e
      unfold Capture.fclose
      simp only [h.outputFile]
      rfl
    have hs : sessions (s.log ++ [.finished i]) = sessions s.log := by
      rw [sessions_append]; rfl
    obtain ⟨⟨c1, c2, c3, c4, c5, c6⟩, _, ⟨rest, hr⟩, h4, h5⟩ := h1
    dsimp only at c2 c3 c4 c5 c6 hr h4 h5
    rw [hf]
    refine ⟨⟨c1, ?_, ?_, ?_, c5, ?_⟩, rfl, ?_⟩
    · intro j bs hm
      exact c2 j bs (by simpa using hm)
    · intro j hj
      dsimp only at hj ⊢
      rw [whole_snoc]
      exact c3 j hj
    · dsimp only; rw [hs]; exact c4
    · dsimp only; rw [hs]; exact c6
    · intro j l' hj
      dsimp only at hj ⊢
      rw [hs] at hj
      by_cases hji : j = i
      · subst hji
        rw [hr, latest_cons_self] at hj
        cases hj
        exact h4
      · exact h5 j l' hji hj

theorem Alive.rotateOutput {s s' : Capture} (h : Alive s) (e : s.rotateOutput = .ok s') :
    s'.exited = some 1 ∨ Alive s' := by
  unfold Capture.rotateOutput at e
  split at e
  · cases e; exact Or.inr h
  · obtain ⟨⟨ok, s1⟩, e1, e⟩ := Exec.bind_eq_ok.1 e
    dsimp only at e
    cases ok with
    | false => cases e; exact Or.inl rfl
    | true =>
      simp only [Bool.not_true, Bool.false_eq_true, if_false] at e
      obtain ⟨⟨ok, s2⟩, e2, e⟩ := Exec.bind_eq_ok.1 e
      cases ok with
      | false => cases e; exact Or.inl rfl
      | true => cases e; exact Or.inr ((h.closeWriteFile e1).openWriteFile e2)

theorem Alive.same {s s' : Capture} (h : Alive s)
    (hx : s'.exited = s.exited) (hio : s'.io = s.io) (hf : s'.files = s.files)
    (hs : sessions s'.log = sessions s.log) (hd : s'.dir = s.dir) (ho : s'.outputFile = s.outputFile)
    (ha : s'.args = s.args) : Alive s' := by
  obtain ⟨i, l, h⟩ := h
  exact ⟨i, l, by rw [ha]; exact h.same hx hio hf hs hd ho ha⟩

theorem sessions_skip (l : List CapEv) (e : CapEv)
    (h : ∀ ss, sessionStep ss e = ss) : sessions (l ++ [e]) = sessions l := by
  rw [sessions_append]; exact h _

theorem Alive.maybeRotate {s s' : Capture} (h : Alive s) (e : s.maybeRotateOutput = .ok s') :
    s'.exited = some 1 ∨ Alive s' := by
  unfold Capture.maybeRotateOutput at e
  split at e
  · dsimp only at e
    have h1 : Alive ({ s with nTime := s.nTime + 1 }.emit (.asked (s.env.time s.nTime))) :=
      h.same rfl rfl rfl (sessions_skip _ _ fun _ => rfl) rfl rfl rfl
    split at e
    · exact h1.rotateOutput e
    · cases e; exact Or.inr h1
  · cases e; exact Or.inr h

theorem Alive.data {s s' : Capture} {id total : Nat} {c c' : Conn} (h : Alive s)
    (hl : total ≤ evLength c.input) (e : s.processDataFrame id c total = .ok (c', s')) :
    s'.exited = some 1 ∨ Alive s' := by
  by_cases h0 : total = 0
  · subst h0
    unfold Capture.processDataFrame at e
    have : evPeek 0 c.input = [] := by cases c.input <;> simp [evPeek]
    dsimp only at e
    rw [if_pos this] at e
    cases e
  obtain ⟨i, l, h⟩ := h
  obtain ⟨k, vs, ⟨e', hv⟩ | ⟨w, v, e', _⟩⟩ :=
    processDataFrame_spec id c total h.outputFile (by omega) hl
  · rw [e'] at e
    cases e
    refine Or.inr ⟨i, l ++ [c.input.flatten.take total], ?_⟩
    have h1 := h.write (s' := { s with
        nWrite := k, files := s.files.modify i (· ++ c.input.flatten.take total)
        io := s.io ++ writes i vs }) hv rfl rfl rfl rfl rfl rfl rfl
    obtain ⟨⟨c1, c2, c3, c4, c5, c6⟩, h2, ⟨rest, hr⟩, h4, h5⟩ := h1
    dsimp only at c1 c2 c3 c4 c5 c6 h2 hr h4 h5
    have hs : sessions (s.log ++ [.recorded id (c.input.flatten.take total)]) =
        (i, l ++ [c.input.flatten.take total]) :: rest := by
      rw [sessions_append, hr]; rfl
    refine ⟨⟨c1, c2, c3, ?_, c5, ?_⟩, h2, ⟨rest, hs⟩, ?_, ?_⟩
    · intro p hp
      dsimp only at hp
      rw [hs] at hp
      rcases List.mem_cons.1 hp with rfl | hp
      · exact c4 (i, l) (by rw [hr]; exact List.mem_cons_self)
      · exact c4 p (by rw [hr]; exact List.mem_cons_of_mem _ hp)
    · intro j hj
      obtain ⟨l', hl'⟩ := c6 j hj
      dsimp only
      rw [hs]
      rw [hr] at hl'
      by_cases hji : i = j
      · subst hji; exact ⟨_, latest_cons_self _ _ _⟩
      · rw [latest_cons_ne _ _ hji] at hl' ⊢
        exact ⟨l', hl'⟩
    · dsimp only; rw [h4]; simp
    · intro j l' hji hl'
      dsimp only at hl' ⊢
      rw [hs, latest_cons_ne _ _ (Ne.symm hji)] at hl'
      exact h5 j l' hji (by rw [hr, latest_cons_ne _ _ (Ne.symm hji)]; exact hl')
  · rw [e'] at e
    cases e
    exact Or.inl rfl

theorem Alive.closeConn {s : Capture} (h : Alive s) (id : Nat) : Alive (s.closeConn id) := by
  unfold Capture.closeConn
  dsimp only
  split <;> exact h.same rfl rfl rfl (sessions_skip _ _ fun _ => rfl) rfl rfl rfl

theorem canRead_total {hw lenBuf payload total : Nat} {input : List Bytes}
    (h : Capture.canReadFullFrame hw lenBuf input = .yes payload total) : total ≤ lenBuf := by
  unfold Capture.canReadFullFrame at h
  dsimp only at h
  repeat' split at h
  all_goals first | (cases h; done) | (cases h; omega)

theorem Alive.loop (id : Nat) : ∀ (fuel : Nat) (c : Conn) (s s' : Capture), Alive s →
    Capture.cbReadLoop id fuel c s = .ok s' → s'.exited = some 1 ∨ Alive s' := by
  intro fuel
  induction fuel with
  | zero => intro c s s' h e; cases e
  | succ fuel ih =>
    intro c s s' h e
    unfold Capture.cbReadLoop at e
    dsimp only at e
    split at e
    · cases e; exact Or.inr (h.same rfl rfl rfl rfl rfl rfl rfl)
    · split at e
      · exact ih _ _ _ h e
      · split at e
        · cases e; exact Or.inr (h.same rfl rfl rfl rfl rfl rfl rfl)
        · cases e; exact Or.inr (h.closeConn id)
        · rename_i hy
          split at e
          · obtain ⟨⟨c1, s1⟩, e1, e⟩ := Exec.bind_eq_ok.1 e
            dsimp only at e
            have h1 := h.data (canRead_total hy) e1
            split at e
            · rename_i hx
              cases e
              exact h1
            · rename_i hx
              rcases h1 with h1 | h1
              · rw [h1] at hx; exact absurd rfl hx
              obtain ⟨s2, e2, e⟩ := Exec.bind_eq_ok.1 e
              have h2 := h1.maybeRotate e2
              split at e
              · cases e; exact h2
              · rename_i hx2
                rcases h2 with h2 | h2
                · rw [h2] at hx2; exact absurd rfl hx2
                · exact ih _ _ _ h2 e
          · obtain ⟨⟨ok, c1⟩, e1, e⟩ := Exec.bind_eq_ok.1 e
            dsimp only at e
            split at e
            · cases e; exact Or.inr (h.closeConn id)
            · obtain ⟨⟨ok, c2⟩, e2, e⟩ := Exec.bind_eq_ok.1 e
              dsimp only at e
              split at e
              · cases e; exact Or.inr (h.closeConn id)
              · exact ih _ _ _ h e

/-- The program has ended with success. -/
def Over (s : Capture) : Prop :=
  s.exited = some 0 ∧ ∃ s1, Shut s1 ∧ s = s1.exit 0

/-- The states of the program. -/
def Life (s : Capture) : Prop := s.exited = some 1 ∨ Alive s ∨ Over s

theorem Alive.exited {s : Capture} (h : Alive s) : s.exited = none := by
  obtain ⟨i, l, h⟩ := h
  exact h.core.exited

theorem Alive.dirs {s s' : Capture} (h : Alive s)
    (hx : s'.exited = s.exited) (hio : s'.io = s.io) (hf : s'.files = s.files)
    (hs : s'.log = s.log) (hd : ∀ n i, s'.dir n = some i → ∃ m, s.dir m = some i)
    (ho : s'.outputFile = s.outputFile) (ha : s'.args = s.args) : Alive s' := by
  obtain ⟨i, l, ⟨⟨c1, c2, c3, c4, c5, c6⟩, h2, h3, h4, h5⟩⟩ := h
  refine ⟨i, l, ⟨hx.trans c1, by rw [hio]; exact c2, by rw [hf, hio]; exact c3, by rw [hs, hf]; exact c4,
    ?_, by rw [hs, hf]; exact c6⟩, ho.trans h2, by rw [hs]; exact h3,
    by rw [hf, ha]; exact h4, by rw [hs, hf, ha]; exact h5⟩
  intro n j hj
  obtain ⟨m, hm⟩ := hd n j hj
  rw [hf]
  exact c5 m j hm

theorem Alive.step {s s' : Capture} (h : Alive s) {a : CapAct} (e : s.step a = .ok s') : Life s' := by
  unfold Capture.step at e
  rw [h.exited] at e
  simp only [Option.isSome_none, Bool.false_eq_true, if_false] at e
  have two : ∀ x : Capture, x.exited = some 1 ∨ Alive x → Life x := fun x hx => hx.imp_right Or.inl
  cases a with
  | accept =>
    refine two _ (Or.inr ?_)
    dsimp only at e
    split at e
    · cases e
      unfold Capture.cbAccept
      dsimp only
      split <;> exact h.same rfl rfl rfl (sessions_skip _ _ fun _ => rfl) rfl rfl rfl
    · cases e; exact h
  | recv id bs ch =>
    dsimp only at e
    split at e
    · cases e; exact two _ (Or.inr h)
    · split at e
      · have h1 : Alive (s.emit (.received id bs)) :=
          h.same rfl rfl rfl (sessions_skip _ _ fun _ => rfl) rfl rfl rfl
        exact two _ (Alive.loop id _ _ _ _ h1 e)
      · cases e; exact two _ (Or.inr h)
  | send id n =>
    refine two _ (Or.inr ?_)
    dsimp only at e
    split at e
    · cases e; exact h
    · rename_i c hc
      split at e
      · have h1 : Alive ((s.setConn id (some { c with output := c.output.drop n })).emit
            (.sent id (c.output.take n))) :=
          h.same rfl rfl rfl (sessions_skip _ _ fun _ => rfl) rfl rfl rfl
        split at e
        · cases e
          unfold Capture.cbWrite
          split
          · exact h1
          · exact h1.closeConn id
        · cases e; exact h1
      · cases e; exact h
  | hangup id =>
    refine two _ (Or.inr ?_)
    dsimp only at e
    split at e
    · cases e; exact h
    · cases e; exact h.closeConn id
  | sigusr1 =>
    dsimp only at e
    split at e
    · exact two _ (h.rotateOutput e)
    · cases e; exact two _ (Or.inr h)
  | sighup =>
    refine two _ (Or.inr ?_)
    cases e
    obtain ⟨i, l, h⟩ := h
    refine ⟨i, l, ?_⟩
    rw [(fflush_same s).args]
    exact h.fflush
  | term =>
    dsimp only at e
    unfold Capture.shutdown at e
    obtain ⟨⟨ok, s1⟩, e1, e⟩ := Exec.bind_eq_ok.1 e
    dsimp only at e
    cases ok with
    | false => cases e; exact Or.inl rfl
    | true =>
      cases e
      exact Or.inr (Or.inr ⟨rfl, s1, h.closeWriteFile e1, rfl⟩)
  | rename a b =>
    refine two _ (Or.inr ?_)
    dsimp only at e
    split at e
    · cases e; exact h
    · cases e
      refine h.dirs h.exited.symm rfl rfl rfl ?_ rfl rfl
      intro n i hn
      dsimp only at hn
      split at hn
      · exact ⟨_, hn⟩
      · split at hn
        · cases hn
        · exact ⟨_, hn⟩
  | remove a =>
    cases e
    refine two _ (Or.inr (h.dirs h.exited.symm rfl rfl rfl ?_ rfl rfl))
    intro n i hn
    dsimp only at hn
    split at hn
    · cases hn
    · exact ⟨_, hn⟩

theorem start_life {args : CapArgs} {env : CapEnv} {s : Capture}
    (e : Capture.start args env = .ok s) : Life s := by
  unfold Capture.start at e
  dsimp only at e
  split at e
  · cases e; exact Or.inl rfl
  · obtain ⟨⟨ok, s1⟩, e1, e⟩ := Exec.bind_eq_ok.1 e
    dsimp only at e
    cases ok with
    | false => cases e; exact Or.inl rfl
    | true =>
      cases e
      refine Or.inr (Or.inl (Shut.openWriteFile ?_ e1))
      exact ⟨⟨rfl, nofun, fun i hi => absurd hi (Nat.not_lt_zero i), nofun, nofun,
        fun i hi => absurd hi (Nat.not_lt_zero i)⟩, rfl, nofun⟩

theorem Life.run : ∀ (as : List CapAct) (s s' : Capture), Life s → s.run as = .ok s' → Life s' := by
  intro as
  induction as with
  | nil => intro s s' h e; cases e; exact h
  | cons a as ih =>
    intro s s' h e
    unfold Capture.run at e
    obtain ⟨s1, e1, e⟩ := Exec.bind_eq_ok.1 e
    refine ih s1 _ ?_ e
    rcases h with h | h | h
    · rw [step_exited (by rw [h]; rfl)] at e1
      cases e1
      exact Or.inl h
    · exact h.step e1
    · rw [step_exited (by rw [h.1]; rfl)] at e1
      cases e1
      exact Or.inr (Or.inr h)

theorem life_of_outcome {args : CapArgs} {env : CapEnv} {acts : List CapAct} {s : Capture}
    (e : outcome args env acts = .ok s) : Life s := by
  unfold outcome at e
  obtain ⟨s0, e0, e⟩ := Exec.bind_eq_ok.1 e
  exact Life.run acts s0 s (start_life e0) e

end Fstrm
