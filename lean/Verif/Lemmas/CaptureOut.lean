import Verif.Lemmas.CaptureItems
import Verif.Lemmas.CaptureIo
import Verif.Lemmas.Exec

/-! The output files of `fstrm_capture`. -/

set_option autoImplicit false

namespace Fstrm

open Spec (CapEv CFrame CType sessionStep sessions latest StdioCall)

/-- Events that concern output files only. -/
def isOut : CapEv → Bool
  | .opened _ => true
  | .clobbered _ => true
  | .finished _ => true
  | .failed _ => true
  | .asked _ => true
  | .opening _ => true
  | _ => false

/-- Events that come before an output file is opened. -/
def isAsk : CapEv → Bool
  | .asked _ => true
  | .opening _ => true
  | _ => false

/-- The bytes at the beginning and at the end of an output file. -/
def startBytes (ct : Bytes) : Bytes := CFrame.wire ⟨.start, [ct]⟩
@[inherit_doc startBytes] def stopBytes : Bytes := CFrame.wire ⟨.stop, []⟩

theorem sessions_append (a b : List CapEv) : sessions (a ++ b) = b.foldl sessionStep (sessions a) :=
  List.foldl_append

theorem isOut_of_isAsk {es : List CapEv} (h : ∀ e ∈ es, isAsk e = true) :
    ∀ e ∈ es, isOut e = true := by
  intro e he
  have := h e he
  cases e <;> first | rfl | cases this

theorem sessions_ask {es : List CapEv} (h : ∀ e ∈ es, isAsk e = true) (l : List CapEv) :
    sessions (l ++ es) = sessions l := by
  rw [sessions_append]
  induction es with
  | nil => rfl
  | cons e es ih =>
    rw [List.foldl_cons]
    have h0 := h e List.mem_cons_self
    have : sessionStep (sessions l) e = sessions l := by
      cases e <;> first | rfl | cases h0
    rw [this]
    exact ih fun x hx => h x (List.mem_cons_of_mem _ hx)

theorem mem_ask {es : List CapEv} (h : ∀ e ∈ es, isAsk e = true) (l : List CapEv) (j : Nat) :
    (.failed j ∈ l ++ es ↔ .failed j ∈ l) ∧ (.clobbered j ∈ l ++ es ↔ .clobbered j ∈ l) := by
  constructor <;> rw [List.mem_append] <;> refine ⟨fun h' => h'.resolve_right fun h' => ?_, Or.inl⟩ <;>
    exact absurd (h _ h') (by nofun)

/-- State of the output files. -/
structure OutInv (s : Capture) : Prop where
  cur : ∀ i, s.outputFile = some i → ∃ l rest, sessions s.log = (i, l) :: rest
  lt : ∀ p ∈ sessions s.log, p.1 < s.files.length
  all : ∀ i, i < s.files.length → ∃ l, latest i (sessions s.log) = some l
  file : ∀ i l, latest i (sessions s.log) = some l → .failed i ∉ s.log →
    s.files[i]? = some (startBytes s.args.contentType ++ l.flatten ++
      if s.outputFile = some i then [] else stopBytes)
  dir : ∀ n i, s.dir n = some i → i < s.files.length
  fresh : (∀ i, .clobbered i ∉ s.log) →
    (sessions s.log).reverse.map (·.1) = List.range s.files.length
  io : IoInv s

/-- The program exits. -/
theorem OutInv.exit {s : Capture} (h : OutInv s) (k : Nat) : OutInv (s.exit k) :=
  ⟨h.cur, h.lt, h.all, h.file, h.dir, h.fresh,
    h.io.quiet (c := .exit) rfl rfl rfl (Or.inr (Or.inr rfl)) (fun _ _ h => nomatch h) fun _ h => h⟩

/-- The output is flushed. -/
theorem OutInv.fflush {s : Capture} (h : OutInv s) : OutInv s.fflush := by
  unfold Capture.fflush
  split
  · exact h
  · rename_i i hi
    exact ⟨h.cur, h.lt, h.all, h.file, h.dir, h.fresh,
      h.io.quiet (c := .fflush i) rfl rfl rfl (Or.inl ⟨i, rfl⟩)
        (fun j h1 h2 => ⟨h1, h2, nofun, nofun⟩) fun _ h => h⟩

/-- What output functions leave alone. -/
structure OutFrame (s s' : Capture) : Prop where
  args : s'.args = s.args
  env : s'.env = s.env
  remaining : s'.remaining = s.remaining
  listening : s'.listening = s.listening
  conns : s'.conns = s.conns
  exited : s'.exited = s.exited
  nextId : s'.nextId = s.nextId
  log : ∃ es, s'.log = s.log ++ es ∧ ∀ e ∈ es, isOut e = true

theorem OutFrame.refl (s : Capture) : OutFrame s s :=
  ⟨rfl, rfl, rfl, rfl, rfl, rfl, rfl, [], by simp, by simp⟩

theorem OutFrame.trans {a b c : Capture} (h1 : OutFrame a b) (h2 : OutFrame b c) : OutFrame a c := by
  obtain ⟨e1, l1, o1⟩ := h1.log
  obtain ⟨e2, l2, o2⟩ := h2.log
  refine ⟨h2.args.trans h1.args, h2.env.trans h1.env, h2.remaining.trans h1.remaining,
    h2.listening.trans h1.listening, h2.conns.trans h1.conns, h2.exited.trans h1.exited,
    h2.nextId.trans h1.nextId, e1 ++ e2, by rw [l2, l1, List.append_assoc], ?_⟩
  intro e he
  rcases List.mem_append.1 he with h | h
  · exact o1 e h
  · exact o2 e h

theorem encodeFrame_eq (t : CType) (cts : List Bytes) :
    Capture.encodeFrame ⟨t.code, cts⟩ =
      if (∀ ct ∈ t.visible cts, ct.length ≤ 256) ∧ (CFrame.wire ⟨t, t.visible cts⟩).length ≤ 512 then
        .ok (some (CFrame.wire ⟨t, t.visible cts⟩)) else .ok none := by
  unfold Capture.encodeFrame
  rw [Props.encode_exact t cts _ _ true (by simp)]
  dsimp only [Spec.wireBytes]
  simp only [if_true, FRAME_LENGTH_MAX]
  by_cases h : (∀ ct ∈ t.visible cts, ct.length ≤ 256) ∧
      (CFrame.wire ⟨t, t.visible cts⟩).length ≤ 512
  · rw [if_pos ⟨h.1, h.2, h.2⟩, if_pos h]
    simp only [Exec.ok_bind]
    rw [if_neg (by decide), List.take_left]
  · rw [if_neg (fun h' => h ⟨h'.1, h'.2.1⟩), if_neg h]
    rfl

theorem length_wire1 (t : CType) (ct : Bytes) : (CFrame.wire ⟨t, [ct]⟩).length = 20 + ct.length := by
  simp [CFrame.wire, CFrame.payload, Spec.field, Spec.be32]
  omega

theorem fwrite_some {s : Capture} {i : Nat} (h : s.outputFile = some i) (bs : Bytes) :
    s.fwrite bs = .ok (false, { s with
      nWrite := s.nWrite + 1, io := s.io ++ [.fwrite i bs false] }) ∨
    (s.fwrite bs = .ok (true, { s with
      nWrite := s.nWrite + 1, files := s.files.modify i (· ++ bs)
      io := s.io ++ [.fwrite i bs true] }) ∧ bs ≠ []) := by
  unfold Capture.fwrite
  rw [h]
  dsimp only
  generalize hok : (s.env.writeOk s.nWrite && bs.length != 0) = ok
  cases ok with
  | true =>
    refine Or.inr ⟨rfl, ?_⟩
    rintro rfl
    simp at hok
  | false => exact Or.inl rfl

/-- `fwrite` changes the current file only. -/
theorem openWriteStart_eq {s : Capture} {i : Nat} (h : s.outputFile = some i) :
    s.openWriteStart = .ok (false, s) ∨
    s.openWriteStart = .ok (false, { s with
      nWrite := s.nWrite + 1, io := s.io ++ [.fwrite i (startBytes s.args.contentType) false] }) ∨
    (s.openWriteStart = .ok (true, { s with
      nWrite := s.nWrite + 1
      files := s.files.modify i (· ++ startBytes s.args.contentType)
      io := s.io ++ [.fwrite i (startBytes s.args.contentType) true] ++ [.fflush i] }) ∧
      s.args.contentType.length ≤ 256) := by
  have e : s.openWriteStart = (do
      match ← Capture.encodeFrame ⟨CType.start.code, [s.args.contentType]⟩ with
      | none => .ok (false, s)
      | some bs => s.writeStart bs) := rfl
  rw [e, encodeFrame_eq]
  simp only [CType.visible, List.take_succ_cons, List.take_zero, List.mem_singleton, forall_eq]
  rw [length_wire1]
  by_cases h1 : s.args.contentType.length ≤ 256 ∧ 20 + s.args.contentType.length ≤ 512
  · rw [if_pos h1]
    simp only [Exec.ok_bind, Capture.writeStart]
    rcases fwrite_some h (CFrame.wire ⟨.start, [s.args.contentType]⟩) with h2 | ⟨h2, _⟩
    · rw [h2]
      exact Or.inr (Or.inl rfl)
    · rw [h2]
      simp only [Exec.ok_bind, Bool.not_true, Bool.false_eq_true, if_false, Capture.fflush, h]
      exact Or.inr (Or.inr ⟨rfl, h1.1⟩)
  · rw [if_neg h1]
    exact Or.inl rfl

theorem closeWriteStop_eq {s : Capture} {i : Nat} (h : s.outputFile = some i) :
    s.closeWriteStop = .ok (false, { s with
      nWrite := s.nWrite + 1, io := s.io ++ [.fwrite i stopBytes false] }) ∨
    s.closeWriteStop = .ok (true, { s with
      nWrite := s.nWrite + 1, files := s.files.modify i (· ++ stopBytes)
      io := s.io ++ [.fwrite i stopBytes true] }) := by
  have e : s.closeWriteStop = (do
      match ← Capture.encodeFrame ⟨CType.stop.code, []⟩ with
      | none => .ok (false, s)
      | some bs => s.fwrite bs) := rfl
  rw [e, encodeFrame_eq]
  rw [if_pos (by constructor <;> simp [CType.visible, CFrame.wire, CFrame.payload, Spec.be32])]
  simp only [Exec.ok_bind]
  rcases fwrite_some h (CFrame.wire ⟨.stop, []⟩) with h2 | ⟨h2, _⟩
  · exact Or.inl h2
  · exact Or.inr h2

theorem latest_cons_self (i : Nat) (l : List Bytes) (ss : List (Nat × List Bytes)) :
    latest i ((i, l) :: ss) = some l := by simp [latest]

theorem latest_cons_ne {i j : Nat} (l : List Bytes) (ss : List (Nat × List Bytes)) (h : j ≠ i) :
    latest i ((j, l) :: ss) = latest i ss := by simp [latest, h]

theorem mem_of_latest {i : Nat} {l : List Bytes} : ∀ {ss : List (Nat × List Bytes)},
    latest i ss = some l → (i, l) ∈ ss := by
  intro ss
  induction ss with
  | nil => simp [latest]
  | cons p ss ih =>
    obtain ⟨j, m⟩ := p
    unfold latest
    split
    · subst i; intro h; cases h; exact List.mem_cons_self
    · intro h; exact List.mem_cons_of_mem _ (ih h)

/-- A freshly opened file, before START is written. -/
structure Opened (s s' : Capture) (i : Nat) : Prop where
  args : s'.args = s.args
  env : s'.env = s.env
  remaining : s'.remaining = s.remaining
  listening : s'.listening = s.listening
  conns : s'.conns = s.conns
  exited : s'.exited = s.exited
  nextId : s'.nextId = s.nextId
  outputFile : s'.outputFile = some i
  io : s'.io = s.io ++ [.fopen i]
  case : ∃ es, (∀ e ∈ es, isAsk e = true) ∧
    ((i = s.files.length ∧ s'.files = s.files ++ [[]] ∧ s'.log = s.log ++ es ++ [.opened i] ∧
      (∀ n j, s'.dir n = some j → j ≤ s.files.length)) ∨
    (i < s.files.length ∧ s'.files = s.files.set i [] ∧ s'.log = s.log ++ es ++ [.clobbered i] ∧
      s'.dir = s.dir))

theorem openFile_spec (s : Capture) (name : Bytes) (hd : ∀ n i, s.dir n = some i → i < s.files.length) :
    (∃ s', s.openFile name = (false, s') ∧ s' = { s with nOpen := s.nOpen + 1 }.emit (.opening name)) ∨
    (∃ s' i, s.openFile name = (true, s') ∧ Opened s s' i) := by
  unfold Capture.openFile
  dsimp only
  split
  · split
    · rename_i i hi
      exact Or.inr ⟨_, i, rfl, rfl, rfl, rfl, rfl, rfl, rfl, rfl, rfl, rfl,
        [.opening name], by simp [isAsk], Or.inr ⟨hd _ _ hi, rfl, rfl, rfl⟩⟩
    · refine Or.inr ⟨_, _, rfl, rfl, rfl, rfl, rfl, rfl, rfl, rfl, rfl, rfl,
        [.opening name], by simp [isAsk], Or.inl ⟨rfl, rfl, rfl, ?_⟩⟩
      intro n j hj
      simp only [Capture.emit, Capture.call] at hj
      split at hj
      · cases hj; exact Nat.le_refl _
      · exact Nat.le_of_lt (hd _ _ hj)
  · exact Or.inl ⟨_, rfl, rfl⟩

theorem openOutput_spec (s : Capture) (hd : ∀ n i, s.dir n = some i → i < s.files.length) :
    (∃ s' t k m es, s.openOutput = (false, s') ∧ (∀ e ∈ es, isAsk e = true) ∧
      s' = { s with nOpen := k, nTime := m, openTimestamp := t, log := s.log ++ es }) ∨
    (∃ s' i, s.openOutput = (true, s') ∧ Opened s s' i) := by
  unfold Capture.openOutput
  split
  · refine Or.inr ⟨_, _, rfl, rfl, rfl, rfl, rfl, rfl, rfl, rfl, rfl, rfl, [], by simp,
      Or.inl ⟨rfl, rfl, by simp [Capture.emit, Capture.call], ?_⟩⟩
    intro n j hj
    exact Nat.le_of_lt (hd _ _ hj)
  · split
    · unfold Capture.updateFname
      dsimp only
      split
      · rename_i h
        simp only [Prod.mk.injEq] at h
        obtain ⟨_, rfl⟩ := h
        exact Or.inl ⟨_, _, _, _, [.asked (s.env.time s.nTime)], rfl, by simp [isAsk], rfl⟩
      · rename_i name s1 h
        simp only [Prod.mk.injEq] at h
        obtain ⟨_, rfl⟩ := h
        rcases openFile_spec ({ s with nTime := s.nTime + 1, openTimestamp := s.env.time s.nTime }.emit
            (.asked (s.env.time s.nTime))) name hd with ⟨s', h1, h2⟩ | ⟨s', i, h1, h2⟩
        · refine Or.inl ⟨s', s.env.time s.nTime, s.nOpen + 1, s.nTime + 1,
            [.asked (s.env.time s.nTime), .opening name], h1,
            by simp [isAsk], ?_⟩
          rw [h2]
          simp [Capture.emit]
        · obtain ⟨es, he, hc⟩ := h2.case
          refine Or.inr ⟨s', i, h1, h2.args, h2.env, h2.remaining, h2.listening, h2.conns,
            h2.exited, h2.nextId, h2.outputFile, h2.io, .asked (s.env.time s.nTime) :: es, ?_, ?_⟩
          · intro e h'
            rcases List.mem_cons.1 h' with rfl | h'
            · rfl
            · exact he e h'
          · simpa [Capture.emit] using hc
    · rcases openFile_spec s s.args.path hd with ⟨s', h1, h2⟩ | ⟨s', i, h1, h2⟩
      · exact Or.inl ⟨s', _, _, _, [.opening s.args.path], h1, by simp [isAsk], h2⟩
      · exact Or.inr ⟨s', i, h1, h2⟩

/-- Opening the next output file. -/
theorem openWriteFile_spec {s : Capture} (h : OutInv s) (hn : s.outputFile = none) :
    ∃ ok s', s.openWriteFile = .ok (ok, s') ∧ OutInv s' ∧ OutFrame s s' ∧
      (ok = true → s'.outputFile.isSome ∧ s.args.contentType.length ≤ 256) ∧
      (ok = false → s'.outputFile = none) := by
  unfold Capture.openWriteFile
  rcases openOutput_spec s h.dir with ⟨s', t, k, m, es, h1, he, rfl⟩ | ⟨s', i, h1, h2⟩
  · rw [h1]
    refine ⟨_, _, rfl, ⟨?_, ?_, ?_, ?_, h.dir, ?_, h.io.congr rfl rfl rfl (fun _ h => h) (fun h => h)
      fun j hj => List.mem_append_left _ hj⟩,
      ⟨rfl, rfl, rfl, rfl, rfl, rfl, rfl, es, rfl, isOut_of_isAsk he⟩, nofun, fun _ => hn⟩
    · dsimp only; rw [sessions_ask he]; exact h.cur
    · dsimp only; rw [sessions_ask he]; exact h.lt
    · dsimp only; rw [sessions_ask he]; exact h.all
    · intro j l hj hnf
      dsimp only at hj hnf ⊢
      rw [sessions_ask he] at hj
      exact h.file j l hj fun h' => hnf ((mem_ask he _ j).1.2 h')
    · intro hc
      dsimp only at hc ⊢
      rw [sessions_ask he]
      exact h.fresh fun j hj => hc j ((mem_ask he _ j).2.2 hj)
  · rw [h1]
    dsimp only
    obtain ⟨es, hes, h2case⟩ := h2.case
    -- the sessions after opening
    have hlen : s'.files.length = max s.files.length (i + 1) := by
      rcases h2case with ⟨e1, e2, _⟩ | ⟨e1, e2, _⟩
      · rw [e2]; simp; omega
      · rw [e2]; simp; omega
    have hsess : sessions s'.log = (i, []) :: sessions s.log := by
      rcases h2case with ⟨_, _, e, _⟩ | ⟨_, _, e, _⟩ <;> rw [e, sessions_append, sessions_ask hes] <;> rfl
    have hlog : ∃ e0, s'.log = s.log ++ e0 ∧ ∀ e ∈ e0, isOut e = true := by
      have h0 := isOut_of_isAsk hes
      rcases h2case with ⟨_, _, e, _⟩ | ⟨_, _, e, _⟩ <;> rw [e, List.append_assoc] <;>
      · refine ⟨_, rfl, ?_⟩
        intro x hx
        rcases List.mem_append.1 hx with hx | hx
        · exact h0 x hx
        · cases List.mem_singleton.1 hx; rfl
    have hfail : ∀ j, .failed j ∈ s'.log ↔ .failed j ∈ s.log := by
      intro j
      rcases h2case with ⟨_, _, e, _⟩ | ⟨_, _, e, _⟩ <;>
        rw [e, List.mem_append, (mem_ask hes _ j).1] <;> simp
    have hi : s'.files[i]? = some [] := by
      rcases h2case with ⟨e1, e2, _⟩ | ⟨e1, e2, _⟩
      · rw [e2, e1]; simp
      · rw [e2]; simp [e1]
    have hother : ∀ j, j ≠ i → s'.files[j]? = s.files[j]? := by
      intro j hj
      rcases h2case with ⟨e1, e2, _⟩ | ⟨e1, e2, _⟩
      · rw [e2]
        by_cases hl : j < s.files.length
        · rw [List.getElem?_append_left hl]
        · rw [List.getElem?_eq_none (by simp; omega), List.getElem?_eq_none (by omega)]
      · rw [e2, List.getElem?_set]
        rw [if_neg (fun h => hj h.symm)]
    have hdir : ∀ n j, s'.dir n = some j → j < s'.files.length := by
      intro n j hj
      rw [hlen]
      rcases h2case with ⟨e1, _, _, e4⟩ | ⟨e1, _, _, e4⟩
      · have := e4 n j hj; omega
      · rw [e4] at hj; have := h.dir n j hj; omega
    have hlt : ∀ p ∈ sessions s'.log, p.1 < s'.files.length := by
      intro p hp
      rw [hsess] at hp
      rw [hlen]
      rcases List.mem_cons.1 hp with rfl | hp
      · simp only; omega
      · have := h.lt p hp; omega
    have hall : ∀ j, j < s'.files.length → ∃ l, latest j (sessions s'.log) = some l := by
      intro j hj
      rw [hsess]
      by_cases hji : i = j
      · subst hji; exact ⟨_, latest_cons_self _ _ _⟩
      · rw [latest_cons_ne _ _ hji]
        refine h.all j ?_
        rw [hlen] at hj
        rcases h2case with ⟨e1, _⟩ | ⟨e1, _⟩ <;> omega
    have hfresh : (∀ j, .clobbered j ∉ s'.log) →
        (sessions s'.log).reverse.map (·.1) = List.range s'.files.length := by
      intro hc
      rcases h2case with ⟨e1, e2, e3, _⟩ | ⟨e1, e2, e3, _⟩
      · have := h.fresh (fun j hj => hc j (by rw [e3]; simp [hj]))
        rw [hsess, List.reverse_cons, List.map_append, this, e2, e1]
        simp [List.range_succ]
      · exact absurd (by rw [e3]; simp : CapEv.clobbered i ∈ s'.log) (hc i)
    have hcur : ∀ j, s'.outputFile = some j → ∃ l rest, sessions s'.log = (j, l) :: rest := by
      intro j hj
      rw [h2.outputFile] at hj
      cases hj
      exact ⟨_, _, hsess⟩
    obtain ⟨e0, hl0, ho0⟩ := hlog
    have hframe : ∀ (x : Capture) (es : List CapEv), x.args = s'.args → x.env = s'.env →
        x.remaining = s'.remaining → x.listening = s'.listening → x.conns = s'.conns →
        x.exited = s'.exited → x.nextId = s'.nextId → x.log = s'.log ++ es →
        (∀ e ∈ es, isOut e = true) → OutFrame s x := by
      intro x es a1 a2 a3 a4 a5 a6 a7 a8 a9
      refine ⟨a1.trans h2.args, a2.trans h2.env, a3.trans h2.remaining, a4.trans h2.listening,
        a5.trans h2.conns, a6.trans h2.exited, a7.trans h2.nextId, e0 ++ es, ?_, ?_⟩
      · rw [a8, hl0]; simp
      · intro e he
        rcases List.mem_append.1 he with he | he
        · exact ho0 e he
        · exact a9 e he
    -- a failure to write START
    have hbad : ∀ (k : Nat) (q : List StdioCall),
        (q = s'.io ∨ q = s'.io ++ [.fwrite i (startBytes s'.args.contentType) false]) →
        OutInv ({ s' with nWrite := k, io := q } : Capture).failed.fclose := by
      intro k q hq
      have hf : ({ s' with nWrite := k, io := q } : Capture).failed.fclose =
          { s' with nWrite := k, log := s'.log ++ [.failed i], outputFile := none
                    io := q ++ [.fclose i] } := by
        unfold Capture.failed Capture.fclose
        simp only [h2.outputFile]
        simp only [Capture.emit, h2.outputFile]
        rfl
      rw [hf]
      have hs : sessions (s'.log ++ [.failed i]) = sessions s'.log := by
        rw [sessions_append]; rfl
      refine ⟨nofun, ?_, ?_, ?_, hdir, ?_, ?_⟩
      · dsimp only; rw [hs]; exact hlt
      · dsimp only; rw [hs]; exact hall
      · intro j l hj hnf
        dsimp only at hj hnf ⊢
        rw [hs] at hj
        simp only [List.mem_append, List.mem_singleton, CapEv.failed.injEq, not_or] at hnf
        have hji : j ≠ i := fun h => hnf.2 h
        rw [hsess, latest_cons_ne _ _ (Ne.symm hji)] at hj
        rw [hother j hji, h.file j l hj (fun h' => hnf.1 ((hfail j).2 h')), h2.args, hn]
      · intro hc
        dsimp only at hc ⊢
        rw [hs]
        exact hfresh (fun j hj => hc j (by simp [hj]))
      · refine ⟨?_, nofun, ?_, ?_⟩
        · dsimp only
          rw [h2.args] at hq ⊢
          rcases hq with rfl | rfl
          · rw [h2.io]
            exact (h.io.fine.fopen i).fclose i
          · rw [h2.io]
            refine ((h.io.fine.fopen i).fwrite ?_ ?_).fclose i
            · rw [writable_snoc]; simp [writableStep]
            · rw [whole_snoc]; simpa [wholeStep, startBytes] using begun_start _
        · intro j hj hnf
          dsimp only at hj hnf ⊢
          have hji : i ≠ j := by rintro rfl; exact hnf (by simp)
          have hw : whole j (q ++ [.fclose i]) = whole j s.io := by
            rcases hq with rfl | rfl <;> rw [h2.io] <;> simp only [whole_snoc, wholeStep, hji, if_false]
          rw [hw, hother j (Ne.symm hji)]
          have hlt' := (List.getElem?_eq_some_iff.1 ((hother j (Ne.symm hji)).symm.trans
            (List.getElem?_eq_getElem hj))).1
          exact h.io.files j hlt' fun h' => hnf (List.mem_append_left _ ((hfail j).2 h'))
        · intro j bs hj
          dsimp only at hj ⊢
          have hj' : .fwrite j bs false ∈ s.io ∨ j = i := by
            rcases hq with rfl | rfl <;> rw [h2.io] at hj <;> simp at hj
            · exact Or.inl hj
            · exact hj.imp_right (·.1)
          rcases hj' with hj' | rfl
          · exact List.mem_append_left _ ((hfail j).2 (h.io.fail j bs hj'))
          · simp
    have hbad' : ∀ (k : Nat) (q : List StdioCall), OutFrame s
        ({ s' with nWrite := k, io := q } : Capture).failed.fclose := by
      intro k q
      have hf : ({ s' with nWrite := k, io := q } : Capture).failed.fclose =
          { s' with nWrite := k, log := s'.log ++ [.failed i], outputFile := none
                    io := q ++ [.fclose i] } := by
        unfold Capture.failed Capture.fclose
        simp only [h2.outputFile]
        simp only [Capture.emit, h2.outputFile]
        rfl
      rw [hf]
      exact hframe _ [.failed i] rfl rfl rfl rfl rfl rfl rfl rfl (by simp [isOut])
    have hnone : ∀ (k : Nat) (q : List StdioCall),
        (({ s' with nWrite := k, io := q } : Capture).failed.fclose).outputFile = none := by
      intro k q
      unfold Capture.failed Capture.fclose
      simp only [h2.outputFile]
      simp only [Capture.emit, h2.outputFile]
      rfl
    rcases openWriteStart_eq h2.outputFile with e | e | ⟨e, hct⟩ <;> rw [e] <;>
      simp only [Exec.ok_bind]
    · refine ⟨_, _, rfl, hbad s'.nWrite s'.io (Or.inl rfl), hbad' s'.nWrite s'.io, nofun,
        fun _ => hnone s'.nWrite s'.io⟩
    · refine ⟨_, _, rfl, hbad _ _ (Or.inr rfl), hbad' _ _, nofun, fun _ => hnone _ _⟩
    · refine ⟨_, _, rfl, ?_, ?_, ?_, nofun⟩
      · have hw : ∀ j, whole j (s'.io ++ [.fwrite i (startBytes s'.args.contentType) true] ++
            [.fflush i]) = if i = j then startBytes s'.args.contentType else whole j s.io := by
          intro j
          rw [h2.io]
          by_cases hji : i = j <;> simp only [whole_snoc, wholeStep, hji, if_false, if_true, List.nil_append]
        refine ⟨hcur, ?_, ?_, ?_, ?_, ?_, ?_, ?_, ?_, ?_⟩
        · intro p hp; simpa using hlt p hp
        · intro j hj; exact hall j (by simpa using hj)
        · intro j l hj hnf
          dsimp only at hj hnf ⊢
          rw [h2.outputFile, hsess] at *
          rw [List.getElem?_modify]
          by_cases hji : i = j
          · subst hji
            rw [latest_cons_self] at hj
            cases hj
            rw [hi]
            simp
          · rw [latest_cons_ne _ _ hji] at hj
            simp only [hji, if_false]
            rw [hother j (Ne.symm hji), h.file j l hj (fun h' => hnf ((hfail j).2 h')), h2.args, hn]
            simp [hji]
        · intro n j hj; simpa using hdir n j hj
        · intro hc; simpa using hfresh hc
        · dsimp only
          rw [h2.io]
          refine ((h.io.fine.fopen i).fwrite ?_ ?_).fflush i |> fun x => by rw [h2.args]; exact x
          · rw [writable_snoc]; simp [writableStep]
          · rw [whole_snoc]; simpa [wholeStep, startBytes] using begun_start _
        · intro j hj _
          dsimp only at hj ⊢
          rw [h2.outputFile] at hj
          cases hj
          rw [hw, if_pos rfl]
          refine ⟨?_, ?_, [], by simp [startBytes]⟩
          · rw [h2.io]; simp only [writable_snoc, writableStep, if_true, Bool.and_self]
          · rw [List.getElem?_modify, hi]; simp
        · intro j hj hnf
          dsimp only at hj hnf ⊢
          rw [List.length_modify] at hj
          rw [hw, List.getElem?_modify]
          by_cases hji : i = j
          · subst hji; rw [hi]; simp
          · rw [if_neg hji]
            have hlt' := (List.getElem?_eq_some_iff.1 ((hother j (Ne.symm hji)).symm.trans
              (List.getElem?_eq_getElem hj))).1
            rw [hother j (Ne.symm hji), h.io.files j hlt' fun h' => hnf ((hfail j).2 h')]
            simp [hji]
        · intro j bs hj
          dsimp only at hj ⊢
          rw [h2.io] at hj
          exact (hfail j).2 (h.io.fail j bs (by simpa using hj))
      · exact hframe _ [] rfl rfl rfl rfl rfl rfl rfl (by simp) (by simp)
      · intro _
        exact ⟨by simp [h2.outputFile], by rw [← h2.args]; exact hct⟩

/-- Closing the output file. -/
theorem closeWriteFile_spec {s : Capture} {i : Nat} (h : OutInv s) (hn : s.outputFile = some i)
    (hx : s.exited = none) :
    ∃ ok s', s.closeWriteFile = .ok (ok, s') ∧ (∀ k, OutInv (s'.exit k)) ∧ OutFrame s s' ∧
      (ok = true → s'.outputFile = none ∧ OutInv s') := by
  obtain ⟨w1, w2, ds, w3⟩ := h.io.cur i hn hx
  unfold Capture.closeWriteFile
  rw [hn]
  dsimp only
  rcases closeWriteStop_eq hn with e | e <;> rw [e] <;> simp only [Exec.ok_bind]
  · generalize hs' : (Capture.failed _) = s'
    have hf : s' = { s with
        nWrite := s.nWrite + 1, io := s.io ++ [.fwrite i stopBytes false]
        log := s.log ++ [.failed i] } := by
      rw [← hs']
      unfold Capture.failed
      simp only [hn]
      rfl
    refine ⟨_, _, rfl, ?_, ?_, nofun⟩
    · intro k
      rw [hf]
      have hs : sessions (s.log ++ [.failed i]) = sessions s.log := by
        rw [sessions_append]; rfl
      refine ⟨?_, ?_, ?_, ?_, h.dir, ?_, ?_, nofun, ?_, ?_⟩
      · dsimp only [Capture.exit, Capture.call]; rw [hs]; exact h.cur
      · dsimp only [Capture.exit, Capture.call]; rw [hs]; exact h.lt
      · dsimp only [Capture.exit, Capture.call]; rw [hs]; exact h.all
      · intro j l hj hnf
        dsimp only [Capture.exit, Capture.call] at hj hnf ⊢
        rw [hs] at hj
        simp only [List.mem_append, List.mem_singleton, not_or] at hnf
        exact h.file j l hj hnf.1
      · intro hc
        dsimp only [Capture.exit, Capture.call] at hc ⊢
        rw [hs]
        exact h.fresh (fun j hj => hc j (by simp [hj]))
      · refine (h.io.fine.fwrite w1 ?_).exit
        rw [w3]
        exact begun_stop _ _
      · intro j hj hnf
        dsimp only [Capture.exit, Capture.call] at hj hnf ⊢
        simp only [List.mem_append, List.mem_singleton, not_or, CapEv.failed.injEq] at hnf
        rw [h.io.files j hj hnf.1, whole_snoc, whole_snoc]
        simp [wholeStep, Ne.symm hnf.2]
      · intro j bs hj
        dsimp only [Capture.exit, Capture.call] at hj ⊢
        simp only [List.mem_append, List.mem_singleton, StdioCall.fwrite.injEq, reduceCtorEq,
          or_false, and_true] at hj
        rcases hj with hj | ⟨rfl, _⟩
        · exact List.mem_append_left _ (h.io.fail j bs hj)
        · simp
    · rw [hf]
      exact ⟨rfl, rfl, rfl, rfl, rfl, rfl, rfl, [.failed i], rfl, by simp [isOut]⟩
  · generalize hs' : (Capture.emit _ _) = s'
    have hf : s' = { s with
        nWrite := s.nWrite + 1, io := s.io ++ [.fwrite i stopBytes true] ++ [.fclose i]
        files := s.files.modify i (· ++ stopBytes)
        outputFile := none
        log := s.log ++ [.finished i] } := by
      rw [← hs']
      unfold Capture.fclose
      simp only [hn]
      rfl
    have hio : CallsOk s.args.contentType (s.io ++ [.fwrite i stopBytes true] ++ [.fclose i]) := by
      refine (h.io.fine.fwrite w1 ?_).fclose i
      rw [w3]
      exact begun_stop _ _
    have hi : IoInv s' := by
      rw [hf]
      refine ⟨hio, nofun, ?_, fun j bs hj => List.mem_append_left _
        (h.io.fail j bs (by simpa using hj))⟩
      intro j hj hnf
      dsimp only at hj hnf ⊢
      rw [List.length_modify] at hj
      rw [whole_snoc, whole_snoc, List.getElem?_modify]
      by_cases hji : i = j
      · subst hji; rw [w2]; simp [wholeStep]
      · rw [h.io.files j hj fun h' => hnf (by simp [h'])]; simp [wholeStep, hji]
    have hok : OutInv s' := by
      have hs : sessions (s.log ++ [.finished i]) = sessions s.log := by
        rw [sessions_append]; rfl
      rw [hf] at hi ⊢
      refine ⟨nofun, ?_, ?_, ?_, ?_, ?_, hi⟩
      · dsimp only; rw [hs]; simpa using h.lt
      · dsimp only; rw [hs]; simpa using h.all
      · intro j l hj hnf
        dsimp only at hj hnf ⊢
        rw [hs] at hj
        simp only [List.mem_append, List.mem_singleton, not_or] at hnf
        have := h.file j l hj hnf.1
        rw [List.getElem?_modify, this, hn]
        by_cases hji : i = j
        · subst hji; simp
        · simp [hji]
      · intro n j hj; simpa using h.dir n j hj
      · intro hc
        dsimp only at hc ⊢
        rw [hs]
        simpa using h.fresh (fun j hj => hc j (by simp [hj]))
    refine ⟨_, _, rfl, fun k => hok.exit k, ?_, fun _ => ⟨by rw [hf], hok⟩⟩
    rw [hf]
    exact ⟨rfl, rfl, rfl, rfl, rfl, rfl, rfl, [.finished i], rfl, by simp [isOut]⟩

end Fstrm
