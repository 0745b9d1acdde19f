import Verif.Lemmas.CaptureOut

/-! One connection of `fstrm_capture`. -/

set_option autoImplicit false

namespace Fstrm

open Spec (CapEv CapItem CapPhase CFrame CType sessionStep sessions latest nextItem items serve
  serveItem dataFrame receivedFrom recordedFrom sentTo fits)

/-! ## Rotation -/

theorem rotateOutput_spec {s : Capture} (h : OutInv s) (hn : s.outputFile.isSome)
    (hx : s.exited = none) :
    ∃ s1 s', s.rotateOutput = .ok s' ∧ OutInv s' ∧ OutFrame s s1 ∧
      ((s' = s1 ∧ s'.outputFile.isSome) ∨ s' = s1.exit 1) := by
  unfold Capture.rotateOutput
  split
  · exact ⟨s, s, rfl, h, OutFrame.refl s, Or.inl ⟨rfl, hn⟩⟩
  · obtain ⟨i, hi⟩ := Option.isSome_iff_exists.1 hn
    obtain ⟨ok, s1, e1, i1, f1, g1⟩ := closeWriteFile_spec h hi hx
    rw [e1]
    simp only [Exec.ok_bind]
    cases ok with
    | false =>
      exact ⟨s1, _, rfl, i1 1, f1, Or.inr rfl⟩
    | true =>
      obtain ⟨ok, s2, e2, i2, f2, g2, _⟩ := openWriteFile_spec (g1 rfl).2 (g1 rfl).1
      simp only [Bool.not_true, Bool.false_eq_true, if_false]
      rw [e2]
      simp only [Exec.ok_bind]
      cases ok with
      | false =>
        exact ⟨s2, _, rfl, i2.exit 1, f1.trans f2, Or.inr rfl⟩
      | true => exact ⟨s2, _, rfl, i2, f1.trans f2, Or.inl ⟨rfl, (g2 rfl).1⟩⟩

theorem maybeRotateOutput_spec {s : Capture} (h : OutInv s) (hn : s.outputFile.isSome)
    (hx : s.exited = none) :
    ∃ s1 s', s.maybeRotateOutput = .ok s' ∧ OutInv s' ∧ OutFrame s s1 ∧
      ((s' = s1 ∧ s'.outputFile.isSome) ∨ s' = s1.exit 1) := by
  unfold Capture.maybeRotateOutput
  split
  · dsimp only
    have hes : ∀ e ∈ [CapEv.asked (s.env.time s.nTime)], isAsk e = true := by simp [isAsk]
    have h' : OutInv ({ s with nTime := s.nTime + 1 }.emit (.asked (s.env.time s.nTime))) := by
      unfold Capture.emit
      refine ⟨?_, ?_, ?_, ?_, h.dir, ?_, h.io.congr rfl rfl rfl (fun _ h => h) (fun h => h)
        fun j hj => List.mem_append_left _ hj⟩
      · dsimp only; rw [sessions_ask hes]; exact h.cur
      · dsimp only; rw [sessions_ask hes]; exact h.lt
      · dsimp only; rw [sessions_ask hes]; exact h.all
      · intro j l hj hnf
        dsimp only at hj hnf ⊢
        rw [sessions_ask hes] at hj
        exact h.file j l hj fun h' => hnf ((mem_ask hes _ j).1.2 h')
      · intro hc
        dsimp only at hc ⊢
        rw [sessions_ask hes]
        exact h.fresh fun j hj => hc j ((mem_ask hes _ j).2.2 hj)
    have hf : OutFrame s ({ s with nTime := s.nTime + 1 }.emit (.asked (s.env.time s.nTime))) :=
      ⟨rfl, rfl, rfl, rfl, rfl, rfl, rfl, _, rfl, isOut_of_isAsk hes⟩
    split
    · obtain ⟨s1, s', e, a, b, c⟩ := rotateOutput_spec h' hn hx
      exact ⟨s1, s', e, a, hf.trans b, c⟩
    · exact ⟨_, _, rfl, h', hf, Or.inl ⟨rfl, hn⟩⟩
  · exact ⟨s, s, rfl, h, OutFrame.refl s, Or.inl ⟨rfl, hn⟩⟩

/-! ## Data frames -/

theorem modify_modify {α : Type} (l : List α) (i : Nat) (f g : α → α) :
    (l.modify i f).modify i g = l.modify i (fun x => g (f x)) := by
  apply List.ext_getElem?
  intro j
  simp only [List.getElem?_modify]
  by_cases h : i = j
  · simp only [if_pos h, Option.map_eq_map, Option.map_map, Function.comp_def]
  · simp [h]

/-- The vector loop writes exactly the first bytes of the buffer. -/
theorem writeVecs_spec (total i : Nat) : ∀ (b : List Bytes) (br : Nat) (s : Capture),
    s.outputFile = some i → br ≤ total → total - br ≤ b.flatten.length →
    (∃ k vs, Capture.writeVecs total (evPeek (total - br) b) br s =
      .ok (some total, { s with
        nWrite := k, files := s.files.modify i (· ++ b.flatten.take (total - br))
        io := s.io ++ writes i vs }) ∧ vs.flatten = b.flatten.take (total - br)) ∨
    (∃ k w vs v, Capture.writeVecs total (evPeek (total - br) b) br s =
      .ok (none, { s with
        nWrite := k, files := s.files.modify i (· ++ w), exited := some 1
        io := s.io ++ writes i vs ++ [.fwrite i v false] ++ [.exit] }) ∧
      vs.flatten ++ v <+: b.flatten.take (total - br)) := by
  intro b
  induction b with
  | nil =>
    intro br s hs h1 h2
    simp at h2
    refine Or.inl ⟨s.nWrite, [], ?_, by simp⟩
    have : br = total := by omega
    subst this
    simp [evPeek, Capture.writeVecs, writes]
    have : s.files.modify i (fun x => x) = s.files := by
      apply List.ext_getElem?; intro j; rw [List.getElem?_modify]; simp
    rw [this]
  | cons v vs ih =>
    intro br s hs h1 h2
    unfold evPeek
    by_cases h0 : total - br = 0
    · rw [if_pos h0]
      have : br = total := by omega
      subst this
      refine Or.inl ⟨s.nWrite, [], ?_, by simp⟩
      simp [Capture.writeVecs, writes]
      have : s.files.modify i (fun x => x) = s.files := by
        apply List.ext_getElem?; intro j; rw [List.getElem?_modify]; simp
      rw [this]
    rw [if_neg h0]
    unfold Capture.writeVecs
    have hlen : ∀ len, len = (if br + v.length > total then total - br else v.length) →
        br + len ≤ total ∧ len = min (total - br) v.length := by
      intro len h; split at h <;> omega
    generalize hl : (if br + v.length > total then total - br else v.length) = len
    obtain ⟨hle, hmin⟩ := hlen len hl.symm
    dsimp only
    rcases fwrite_some hs (v.take len) with e | ⟨e, _⟩
    · rw [e]
      simp only [Exec.ok_bind]
      refine Or.inr ⟨s.nWrite + 1, [], [], v.take len, ?_, ?_⟩
      rotate_left
      · simp only [List.flatten_nil, List.nil_append, List.flatten_cons]
        have : v.take len = (v ++ vs.flatten).take len := by
          rw [List.take_append_of_le_length (by omega)]
        rw [this]
        exact List.take_prefix_take_left (by omega)
      have : s.files.modify i (fun x => x ++ []) = s.files := by
        apply List.ext_getElem?; intro j; rw [List.getElem?_modify]; simp
      rw [this]
      simp [writes, Capture.exit, Capture.call]
    · rw [e]
      simp only [Exec.ok_bind, Bool.not_true, Bool.false_eq_true, if_false]
      have hrest : total - br - v.length = total - (br + len) := by omega
      rw [hrest]
      have h2' : total - (br + len) ≤ vs.flatten.length := by
        simp only [List.flatten_cons, List.length_append] at h2
        omega
      have hcut : (v ++ vs.flatten).take (total - br) =
          v.take len ++ vs.flatten.take (total - (br + len)) := by
        rw [List.take_append]
        congr 1
        · rw [hmin, List.take_eq_take_iff]; omega
        · rw [← hrest]
      rcases ih (br + len) { s with
          nWrite := s.nWrite + 1, files := s.files.modify i (· ++ v.take len)
          io := s.io ++ [.fwrite i (v.take len) true] } hs hle h2' with
        ⟨k, ws, e, hv⟩ | ⟨k, w, ws, x, e, hv⟩
      · rw [e]
        refine Or.inl ⟨k, v.take len :: ws, ?_, ?_⟩
        · simp only [modify_modify, List.flatten_cons, List.append_assoc, writes, List.map_cons,
            List.cons_append, List.nil_append]
          rw [hcut]
        · rw [List.flatten_cons, List.flatten_cons, hcut, hv]
      · rw [e]
        refine Or.inr ⟨k, v.take len ++ w, v.take len :: ws, x, ?_, ?_⟩
        · simp only [modify_modify, List.append_assoc, writes, List.map_cons,
            List.cons_append, List.nil_append]
        · rw [List.flatten_cons, List.flatten_cons, hcut, List.append_assoc]
          exact List.prefix_append_right_inj _ |>.2 hv

/-- Bytes of a data frame are added to the current file. -/
theorem OutInv.record {s : Capture} {i k id : Nat} {d : Bytes} {vs : List Bytes} (h : OutInv s)
    (hi : s.outputFile = some i) (hx : s.exited = none) (hv : vs.flatten = dataFrame d) :
    OutInv { s with
      nWrite := k, files := s.files.modify i (· ++ dataFrame d)
      log := s.log ++ [.recorded id (dataFrame d)], io := s.io ++ writes i vs } := by
  have hio := h.io.record (s' := { s with
      nWrite := k, files := s.files.modify i (· ++ dataFrame d)
      log := s.log ++ [.recorded id (dataFrame d)], io := s.io ++ writes i vs }) hi hx hv rfl rfl rfl rfl
    (fun j hj => List.mem_append_left _ hj)
  generalize dataFrame d = bs at *
  obtain ⟨l, rest, hc⟩ := h.cur i hi
  have hs : sessions (s.log ++ [.recorded id bs]) = (i, l ++ [bs]) :: rest := by
    rw [sessions_append, hc]; rfl
  refine ⟨?_, ?_, ?_, ?_, ?_, ?_, hio⟩
  · intro j hj
    dsimp only at hj ⊢
    rw [hi] at hj
    cases hj
    exact ⟨_, _, hs⟩
  · intro p hp
    dsimp only at hp ⊢
    rw [hs] at hp
    rw [List.length_modify]
    rcases List.mem_cons.1 hp with rfl | hp
    · exact h.lt (i, l) (by rw [hc]; exact List.mem_cons_self)
    · exact h.lt p (by rw [hc]; exact List.mem_cons_of_mem _ hp)
  · intro j hj
    dsimp only at hj ⊢
    rw [List.length_modify] at hj
    rw [hs]
    obtain ⟨m, hm⟩ := h.all j hj
    by_cases hji : i = j
    · subst hji; exact ⟨_, latest_cons_self _ _ _⟩
    · rw [latest_cons_ne _ _ hji]
      rw [hc, latest_cons_ne _ _ hji] at hm
      exact ⟨m, hm⟩
  · intro j m hj hnf
    dsimp only at hj hnf ⊢
    have hnf' : .failed j ∉ s.log := fun h' => hnf (by simp [h'])
    rw [hs] at hj
    rw [List.getElem?_modify]
    by_cases hji : i = j
    · subst hji
      rw [latest_cons_self] at hj
      cases hj
      have := h.file i l (by rw [hc]; exact latest_cons_self _ _ _) hnf'
      rw [this]
      simp [hi]
    · rw [latest_cons_ne _ _ hji] at hj
      have := h.file j m (by rw [hc, latest_cons_ne _ _ hji]; exact hj) hnf'
      rw [this]
      simp [hji]
  · intro n j hj; simpa using h.dir n j hj
  · intro hcl
    dsimp only at hcl ⊢
    have := h.fresh (fun j hj => hcl j (by simp [hj]))
    rw [hc] at this
    rw [hs]
    simpa using this

/-- Writing to the current file fails; nothing is said about its contents any more. -/
theorem OutInv.giveUp {s : Capture} {i k : Nat} {w v d : Bytes} {vs : List Bytes} (h : OutInv s)
    (hi : s.outputFile = some i) (hx : s.exited = none) (hv : vs.flatten ++ v <+: dataFrame d) :
    OutInv { s with
      nWrite := k, files := s.files.modify i (· ++ w), exited := some 1, log := s.log ++ [.failed i]
      io := s.io ++ writes i vs ++ [.fwrite i v false] ++ [.exit] } := by
  have hs : sessions (s.log ++ [.failed i]) = sessions s.log := by
    rw [sessions_append]; rfl
  refine ⟨?_, ?_, ?_, ?_, ?_, ?_, h.io.giveUp hi hx hv rfl rfl rfl nofun
    (fun j hj => List.mem_append_left _ hj) (by simp)⟩
  · dsimp only; rw [hs]; exact h.cur
  · dsimp only; rw [hs]; simpa using h.lt
  · dsimp only; rw [hs]; simpa using h.all
  · intro j l hj hnf
    dsimp only at hj hnf ⊢
    rw [hs] at hj
    simp only [List.mem_append, List.mem_singleton, CapEv.failed.injEq, not_or] at hnf
    rw [List.getElem?_modify, h.file j l hj hnf.1]
    simp [Ne.symm hnf.2]
  · intro n j hj; simpa using h.dir n j hj
  · intro hc
    dsimp only at hc ⊢
    rw [hs]
    simpa using h.fresh (fun j hj => hc j (by simp [hj]))

theorem processDataFrame_spec {s : Capture} {i : Nat} (id : Nat) (c : Conn) (total : Nat)
    (hi : s.outputFile = some i) (h0 : 0 < total) (hl : total ≤ evLength c.input) :
    ∃ k vs,
    (s.processDataFrame id c total = .ok ({ c with input := evDrain total c.input }, { s with
        nWrite := k, files := s.files.modify i (· ++ c.input.flatten.take total)
        log := s.log ++ [.recorded id (c.input.flatten.take total)]
        io := s.io ++ writes i vs }) ∧ vs.flatten = c.input.flatten.take total) ∨
    (∃ w v, s.processDataFrame id c total = .ok (c, { s with
        nWrite := k, files := s.files.modify i (· ++ w), exited := some 1
        log := s.log ++ [.failed i]
        io := s.io ++ writes i vs ++ [.fwrite i v false] ++ [.exit] }) ∧
      vs.flatten ++ v <+: c.input.flatten.take total) := by
  unfold Capture.processDataFrame
  have hne : c.input ≠ [] := by
    intro h; rw [h] at hl; simp [evLength] at hl; omega
  dsimp only
  rw [if_neg (evPeek_ne_nil h0 hne)]
  rcases writeVecs_spec total i c.input 0 s hi (by omega) hl with
    ⟨k, vs, e, hv⟩ | ⟨k, w, vs, v, e, hv⟩
  · refine ⟨k, vs, Or.inl ⟨?_, hv⟩⟩
    rw [Nat.sub_zero] at e
    rw [e]
    simp only [Exec.ok_bind]
    simp [Capture.emit]
  · refine ⟨k, vs, Or.inr ⟨w, v, ?_, hv⟩⟩
    rw [Nat.sub_zero] at e
    rw [e]
    simp only [Exec.ok_bind]
    unfold Capture.failed
    simp only [hi, Capture.emit]

/-! ## Control frames -/

/-- A control frame payload is that of one frame only. -/
theorem payload_inj {f g : CFrame} (hf : f.WF) (hg : g.WF) (hl : f.payload.length ≤ 512)
    (h : f.payload = g.payload) : f = g := by
  have e1 := (Props.decode_iff Control.init f.payload f.payload.length false
    ⟨f.type.code, f.cts⟩ (Nat.le_refl _)).2 ⟨f, hf, hl, by simp [Spec.wireBytes], rfl⟩
  have e2 := (Props.decode_iff Control.init f.payload f.payload.length false
    ⟨g.type.code, g.cts⟩ (Nat.le_refl _)).2
      ⟨g, hg, by rw [← h]; exact hl, by simp [Spec.wireBytes, h], rfl⟩
  rw [e1] at e2
  simp only [Except.ok.injEq, Prod.mk.injEq, Control.mk.injEq, true_and] at e2
  obtain ⟨a, b⟩ := e2
  cases f; cases g
  simp only at a b
  rw [CType.code_inj a, b]

/-- Loading a control frame whose bytes are all there. -/
theorem loadControlFrame_spec (c : Conn) (b : Bytes) (hl : 8 + b.length ≤ evLength c.input)
    (hb : b.length ≤ 512)
    (ht : c.input.flatten.take (8 + b.length) = Spec.be32 0 ++ Spec.be32 b.length ++ b) :
    (∃ c', Capture.loadControlFrame c (8 + b.length) = .ok (false, c') ∧
      ¬ (8 + b.length < 512 ∧ ∃ f : CFrame, f.WF ∧ f.payload = b)) ∨
    (∃ (inp : List Bytes) (f : CFrame), Capture.loadControlFrame c (8 + b.length) =
        .ok (true, { c with input := inp, control := ⟨CType.code f.type, f.cts⟩ }) ∧
      8 + b.length < 512 ∧ f.WF ∧ f.payload = b ∧
      inp.flatten = c.input.flatten.drop (8 + b.length) ∧ ([] ∉ c.input → [] ∉ inp)) := by
  unfold Capture.loadControlFrame
  simp only [FRAME_LENGTH_MAX]
  split
  · exact Or.inl ⟨_, rfl, fun h => by omega⟩
  · rename_i hlt
    unfold evPullup
    rw [if_neg (by omega)]
    dsimp only
    rw [ht]
    generalize hm : Spec.be32 0 ++ Spec.be32 b.length ++ b = mem
    have hmem : mem.length = 8 + b.length := by rw [← hm]; simp [Spec.be32]; omega
    obtain ⟨r, c', e, hr⟩ := Props.decode_safe c.control mem (8 + b.length) true (by omega)
    rw [e]
    simp only [Exec.ok_bind]
    have hiff := Props.decode_iff c.control mem (8 + b.length) true c' (by omega)
    rcases hr with rfl | rfl
    · right
      obtain ⟨f, hf, hfl, hw, rfl⟩ := hiff.1 e
      rw [List.take_of_length_le (by omega)] at hw
      have hp : f.payload = b := by
        rw [← hm] at hw
        simp only [Spec.wireBytes, if_true, CFrame.wire, List.append_assoc] at hw
        have h1 := (List.append_inj hw (by simp [Spec.be32])).2
        exact (List.append_inj h1 (by simp [Spec.be32])).2.symm
      refine ⟨_, f, rfl, by omega, hf, hp, ?_, ?_⟩
      · rw [evDrain_flatten]
        simp only [List.flatten_cons]
        rw [evDrain_flatten, List.drop_append, hmem]
        simp [hmem]
      · intro hne
        apply evDrain_nonempty
        simp only [List.mem_cons, not_or]
        refine ⟨?_, evDrain_nonempty _ _ hne⟩
        intro h
        rw [← h] at hmem
        simp only [List.length_nil] at hmem
        omega
    · left
      refine ⟨_, rfl, ?_⟩
      rintro ⟨_, f, hf, hp⟩
      have : c.control.decode mem (8 + b.length) true = .ok (.success, ⟨f.type.code, f.cts⟩) := by
        rw [Props.decode_iff _ _ _ _ _ (by omega)]
        refine ⟨f, hf, by rw [hp]; exact hb, ?_, rfl⟩
        rw [List.take_of_length_le (by omega), ← hm]
        simp [Spec.wireBytes, CFrame.wire, hp]
      rw [e] at this
      cases this

/-- The specification's name for a connection state. -/
def phaseOf : ConnState → CapPhase
  | .readingControlReady => .ready
  | .readingControlStart => .start
  | .readingData => .data
  | .stopped => .stopped

theorem matchContentType_iff (s : Capture) (c : Conn) (f : CFrame) (hf : f.WF)
    (hc : c.control = ⟨f.type.code, f.cts⟩) (ht : f.type = .ready ∨ f.type = .start) :
    s.matchContentType c = true ↔ (f.cts = [] ∨ s.args.contentType ∈ f.cts) := by
  unfold Capture.matchContentType
  rw [hc, decide_eq_true_iff, Props.match_iff]
  have hv := visible_of_WF hf
  rcases ht with ht | ht <;> rw [ht] at hv <;> simp [ht, hv]

open Classical in
/-- Reacting to a control frame that was decoded. -/
theorem processControlFrame_spec (s : Capture) (c : Conn) (f : CFrame) (hf : f.WF)
    (hc : c.control = ⟨f.type.code, f.cts⟩) (hlen : 8 + f.payload.length < 512)
    (hct : s.args.contentType.length ≤ 256) (sv : Spec.Served)
    (hp : sv.phase = some (phaseOf c.state)) :
    (∃ c', s.processControlFrame c = .ok (false, c') ∧
      (serveItem s.args.contentType sv (.control f.payload)).phase = none ∧
      (serveItem s.args.contentType sv (.control f.payload)).replies = sv.replies ∧
      (serveItem s.args.contentType sv (.control f.payload)).recorded = sv.recorded) ∨
    (∃ st ctl rs, s.processControlFrame c = .ok (true,
        { c with state := st, control := ctl, output := c.output ++ rs.flatMap CFrame.wire }) ∧
      serveItem s.args.contentType sv (.control f.payload) =
        { sv with phase := some (phaseOf st), replies := sv.replies ++ rs }) := by
  have hfits : ∀ t, fits t s.args.contentType f.payload ↔
      (f.type = t ∧ (f.cts = [] ∨ s.args.contentType ∈ f.cts)) := by
    intro t
    unfold fits
    constructor
    · rintro ⟨_, cts, hw, he, hm⟩
      have := payload_inj hf hw (by omega) he
      rw [this]
      exact ⟨rfl, hm⟩
    · rintro ⟨rfl, hm⟩
      exact ⟨hlen, f.cts, hf, rfl, hm⟩
  have hstop : f.payload = CFrame.payload ⟨.stop, []⟩ ↔ f.type = .stop := by
    constructor
    · intro h
      have := payload_inj hf (g := ⟨.stop, []⟩) ⟨by simp, by intro m hm; cases hm; simp⟩ (by omega) h
      rw [this]
    · intro h
      have h2 := hf.2
      rw [h] at h2
      have := h2 0 rfl
      have h3 : f.cts = [] := List.length_eq_zero_iff.1 (by omega)
      cases f
      simp only at h h3
      rw [h, h3]
  have hgt : c.control.getType = (.success, some f.type.code) := by
    rw [hc]
    unfold Control.getType
    rw [if_pos ((knownType_iff _).2 ⟨_, rfl⟩)]
  unfold Capture.processControlFrame
  rw [hgt]
  dsimp only
  have hcode : ∀ t : CType, f.type.code ≠ t.code ↔ f.type ≠ t := fun t =>
    ⟨fun h h' => h (by rw [h']), fun h h' => h (CType.code_inj h')⟩
  cases hst : c.state with
  | readingControlReady =>
    rw [hst] at hp
    dsimp only
    have hsv : serveItem s.args.contentType sv (.control f.payload) =
        if fits .ready s.args.contentType f.payload then
          { sv with phase := some .start, replies := sv.replies ++ [⟨.accept, [s.args.contentType]⟩] }
        else { sv with phase := none } := by
      unfold serveItem; rw [hp]; rfl
    rw [hsv]
    by_cases ht : f.type = .ready
    · rw [if_neg (fun h => h (by rw [ht]; rfl))]
      unfold Capture.processReady
      have hany : (List.range c.control.numCt).any (fun i => (c.control.getCt i).isNone) = false := by
        rw [hc, ht]
        simp [Control.numCt, Control.getCt, CType.code, show (4:Nat) ≠ T_FINISH by decide, show (4:Nat) ≠ T_START by decide]
      rw [hany]
      simp only [Bool.false_eq_true, if_false]
      have hm := matchContentType_iff s c f hf hc (Or.inl ht)
      by_cases hmm : s.matchContentType c = true
      · rw [hmm]
        rw [if_pos ((hfits .ready).2 ⟨ht, hm.1 hmm⟩)]
        right
        have e : Capture.encodeFrame ⟨T_ACCEPT, [] ++ [s.args.contentType]⟩ =
            .ok (some (CFrame.wire ⟨.accept, [s.args.contentType]⟩)) := by
          have := encodeFrame_eq .accept [s.args.contentType]
          rw [if_pos] at this
          · exact this
          · refine ⟨?_, ?_⟩
            · intro x hx
              simp only [CType.visible, List.mem_singleton] at hx
              rw [hx]; exact hct
            · simp only [CType.visible]
              rw [length_wire1]; omega
        refine ⟨.readingControlStart, ⟨T_ACCEPT, [] ++ [s.args.contentType]⟩,
          [⟨.accept, [s.args.contentType]⟩], ?_, rfl⟩
        simp only [Bool.not_true, Bool.false_eq_true, if_false, Control.reset, Control.setType,
          Control.addCt, knownType, Capture.writeControlFrame]
        simp only [beq_self_eq_true, Bool.true_or, if_true]
        rw [if_neg (by decide), if_neg (by decide), e]
        simp [Exec.ok_bind]
      · rw [if_neg (fun h => hmm (hm.2 ((hfits .ready).1 h).2))]
        left
        simp only [Bool.not_eq_true] at hmm
        rw [hmm]
        exact ⟨_, rfl, rfl, rfl, rfl⟩
    · rw [if_pos (show f.type.code ≠ T_READY from (hcode .ready).2 ht), if_neg (fun h => ht ((hfits .ready).1 h).1)]
      exact Or.inl ⟨_, rfl, rfl, rfl, rfl⟩
  | readingControlStart =>
    rw [hst] at hp
    dsimp only
    have hsv : serveItem s.args.contentType sv (.control f.payload) =
        if fits .start s.args.contentType f.payload then
          { sv with phase := some .data }
        else { sv with phase := none } := by
      unfold serveItem; rw [hp]; rfl
    rw [hsv]
    by_cases ht : f.type = .start
    · rw [if_neg (fun h => h (by rw [ht]; rfl))]
      unfold Capture.processStart
      have hm := matchContentType_iff s c f hf hc (Or.inr ht)
      by_cases hmm : s.matchContentType c = true
      · rw [hmm, if_pos ((hfits .start).2 ⟨ht, hm.1 hmm⟩)]
        right
        refine ⟨.readingData, c.control, [], ?_, ?_⟩
        · simp
        · simp [phaseOf]
      · rw [if_neg (fun h => hmm (hm.2 ((hfits .start).1 h).2))]
        left
        simp only [Bool.not_eq_true] at hmm
        rw [hmm]
        exact ⟨_, rfl, rfl, rfl, rfl⟩
    · rw [if_pos (show f.type.code ≠ T_START from (hcode .start).2 ht), if_neg (fun h => ht ((hfits .start).1 h).1)]
      exact Or.inl ⟨_, rfl, rfl, rfl, rfl⟩
  | readingData =>
    rw [hst] at hp
    dsimp only
    have hsv : serveItem s.args.contentType sv (.control f.payload) =
        if f.payload = CFrame.payload ⟨.stop, []⟩ then
          { sv with phase := some .stopped, replies := sv.replies ++ [⟨.finish, []⟩] }
        else { sv with phase := none } := by
      unfold serveItem; rw [hp]; rfl
    rw [hsv]
    by_cases ht : f.type = .stop
    · rw [if_neg (fun h => h (by rw [ht]; rfl)), if_pos (hstop.2 ht)]
      right
      refine ⟨.stopped, ⟨T_FINISH, []⟩, [⟨.finish, []⟩], ?_, rfl⟩
      have e : Capture.encodeFrame ⟨T_FINISH, []⟩ = .ok (some (CFrame.wire ⟨.finish, []⟩)) := by
        have := encodeFrame_eq .finish []
        rw [if_pos] at this
        · exact this
        · constructor <;> simp [CType.visible, CFrame.wire, CFrame.payload, Spec.be32]
      unfold Capture.processStop
      simp only [Control.reset, Control.setType, knownType, Capture.writeControlFrame]
      simp only [beq_self_eq_true, Bool.or_true, if_true]
      rw [if_neg (by decide), e]
      simp [Exec.ok_bind]
    · rw [if_pos (show f.type.code ≠ T_STOP from (hcode .stop).2 ht), if_neg (fun h => ht (hstop.1 h))]
      exact Or.inl ⟨_, rfl, rfl, rfl, rfl⟩
  | stopped =>
    rw [hst] at hp
    dsimp only
    have hsv : serveItem s.args.contentType sv (.control f.payload) = { sv with phase := none } := by
      unfold serveItem; rw [hp]; rfl
    rw [hsv]
    exact Or.inl ⟨_, rfl, rfl, rfl, rfl⟩

/-! ## Finding the next frame -/

theorem canRead_spec {hw : Nat} {inp : List Bytes} (hl : evLength inp ≤ hw) (hhw : hw < 2 ^ 31)
    (sane : ∀ n, nextItem hw inp.flatten = some (.skipped n, n) → n < 2 ^ 32) :
    match nextItem hw inp.flatten with
    | none => Capture.canReadFullFrame hw (evLength inp) inp = .no 0
    | some (.data d, n) => Capture.canReadFullFrame hw (evLength inp) inp = .yes d.length n
    | some (.skipped n, _) => Capture.canReadFullFrame hw (evLength inp) inp = .no n
    | some (.bad, _) => Capture.canReadFullFrame hw (evLength inp) inp = .closed
    | some (.control _, n) => Capture.canReadFullFrame hw (evLength inp) inp = .yes 0 n := by
  revert sane
  unfold nextItem Capture.canReadFullFrame evCopyout
  have hlen : evLength inp = inp.flatten.length := rfl
  generalize inp.flatten = bs at *
  rw [hlen] at hl ⊢
  by_cases h4 : bs.length < 4
  · simp [h4]
  simp only [h4, if_false]
  have hn := number_take (bs := bs) (by omega)
  rw [hn]
  have hlt := ntohl_lt (bs.take 4)
  by_cases h0 : ntohl (bs.take 4) = 0
  · rw [h0]
    simp only [ne_eq, not_true_eq_false, if_false, if_true]
    by_cases h8 : bs.length < 8
    · simp [h8]
    simp only [h8, if_false]
    have hn2 := number_take (bs := bs.drop 4) (by simp; omega)
    rw [hn2]
    have e : (bs.take 8).drop 4 = (bs.drop 4).take 4 := by rw [List.drop_take]
    rw [e]
    generalize hm : ntohl ((bs.drop 4).take 4) = m at *
    simp only [FRAME_LENGTH_MAX]
    by_cases hb : m < 4 ∨ m > 512
    · simp [hb]
    simp only [if_neg hb]
    rw [show ((4 + 0) % 4294967296 + 4) % 4294967296 = 8 from rfl,
      Nat.mod_eq_of_lt (show 8 + m < 4294967296 by omega)]
    by_cases hs : 8 + m > hw
    · intro _
      simp only [if_pos hs]
      rw [if_pos (by omega)]
    simp only [if_neg hs]
    by_cases hl : bs.length < 8 + m
    · simp [hl]
    · simp [hl]
  · rw [if_pos h0]
    simp only [if_neg h0]
    generalize hm : ntohl (bs.take 4) = n at *
    by_cases hs : 4 + n > hw
    · intro sane
      simp only [if_pos hs] at sane ⊢
      have := sane _ rfl
      rw [Nat.mod_eq_of_lt (show 4 + n < 4294967296 by omega), if_pos hs, if_pos (by omega)]
    intro _
    simp only [if_neg hs]
    rw [Nat.mod_eq_of_lt (show 4 + n < 4294967296 by omega)]
    by_cases hl : bs.length < 4 + n
    · simp [hl, hs]
    · simp only [hl, if_false]
      rw [List.length_take, List.length_drop, Nat.min_eq_left (by omega)]

/-- A buffer that holds no complete frame has room left. -/
theorem nextItem_none_room {hw : Nat} {bs : Bytes} (h8 : 8 ≤ hw) (h : nextItem hw bs = none) :
    bs.length < hw := by
  unfold nextItem at h
  by_cases h4 : bs.length < 4
  · omega
  simp only [h4, if_false] at h
  split at h
  · split at h
    · cases h
    · split at h
      · omega
      · cases h
  · split at h
    · omega
    · split at h
      · cases h
      · split at h
        · cases h
        · split at h
          · omega
          · cases h

/-! ## The connection invariant -/

/-- `its` are the frames of client `id` that have been handled, `c` is its connection. -/
structure ConnPre (ct : Bytes) (hw id : Nat) (c : Conn) (log : List CapEv) (its : List CapItem) :
    Prop where
  cut : ∀ x, items hw (receivedFrom id log ++ x) =
    its ++ items hw ((c.input.flatten ++ x).drop c.bytesSkip)
  phase : (serve ct its).phase = some (phaseOf c.state)
  recorded : recordedFrom id log = (serve ct its).recorded.map dataFrame
  replies : sentTo id log ++ c.output = (serve ct its).replies.flatMap CFrame.wire
  chains : [] ∉ c.input
  skip : c.bytesSkip ≠ 0 → ∃ n, .skipped n ∈ its

/-- All frames received have been handled. -/
structure ConnRest (ct : Bytes) (hw id : Nat) (c : Conn) (log : List CapEv) : Prop where
  pre : ConnPre ct hw id c log (items hw (receivedFrom id log))
  calm : c.bytesSkip = 0 → nextItem hw c.input.flatten = none

/-- The server is about to close the connection. -/
structure ConnEnd (ct : Bytes) (hw id : Nat) (log : List CapEv) : Prop where
  phase : (serve ct (items hw (receivedFrom id log))).phase = none
  recorded : recordedFrom id log = (serve ct (items hw (receivedFrom id log))).recorded.map dataFrame
  replies : sentTo id log <+: (serve ct (items hw (receivedFrom id log))).replies.flatMap CFrame.wire

/-- What handling input of client `id` may change. -/
structure LoopFrame (id : Nat) (s s' : Capture) : Prop where
  args : s'.args = s.args
  env : s'.env = s.env
  remaining : s'.remaining = s.remaining
  listening : s'.listening = s.listening
  conns : s'.conns = s.conns
  nextId : s'.nextId = s.nextId
  log : ∃ es, s'.log = s.log ++ es ∧ ∀ e ∈ es, isOut e = true ∨
    ∃ d, e = .recorded id (dataFrame d) ∧ d ≠ [] ∧ 4 + d.length ≤ s.args.highwater

theorem LoopFrame.refl (id : Nat) (s : Capture) : LoopFrame id s s :=
  ⟨rfl, rfl, rfl, rfl, rfl, rfl, [], by simp, by simp⟩

theorem LoopFrame.trans {id : Nat} {s1 s2 s3 : Capture} (a : LoopFrame id s1 s2)
    (b : LoopFrame id s2 s3) : LoopFrame id s1 s3 := by
  obtain ⟨es, h1, h2⟩ := a.log
  obtain ⟨fs, h3, h4⟩ := b.log
  refine ⟨b.args.trans a.args, b.env.trans a.env, b.remaining.trans a.remaining,
    b.listening.trans a.listening, b.conns.trans a.conns, b.nextId.trans a.nextId, es ++ fs,
    by rw [h3, h1, List.append_assoc], ?_⟩
  intro e he
  rcases List.mem_append.1 he with he | he
  · exact h2 e he
  · rw [a.args] at h4
    exact h4 e he

theorem OutFrame.loop {s s' : Capture} (id : Nat) (a : OutFrame s s') : LoopFrame id s s' := by
  obtain ⟨es, h1, h2⟩ := a.log
  exact ⟨a.args, a.env, a.remaining, a.listening, a.conns, a.nextId, es, h1,
    fun e he => Or.inl (h2 e he)⟩

theorem receivedFrom_out {id : Nat} {log es : List CapEv}
    (h : ∀ e ∈ es, isOut e = true ∨ ∃ i bs, e = .recorded i bs) :
    receivedFrom id (log ++ es) = receivedFrom id log := by
  unfold receivedFrom
  rw [List.flatMap_append]
  suffices h : es.flatMap _ = [] by rw [h, List.append_nil]
  rw [List.flatMap_eq_nil_iff]
  intro e he
  rcases h e he with h | ⟨i, bs, rfl⟩
  · cases e <;> first | rfl | simp [isOut] at h
  · rfl

theorem sentTo_out {id : Nat} {log es : List CapEv}
    (h : ∀ e ∈ es, isOut e = true ∨ ∃ i bs, e = .recorded i bs) :
    sentTo id (log ++ es) = sentTo id log := by
  unfold sentTo
  rw [List.flatMap_append]
  suffices h : es.flatMap _ = [] by rw [h, List.append_nil]
  rw [List.flatMap_eq_nil_iff]
  intro e he
  rcases h e he with h | ⟨i, bs, rfl⟩
  · cases e <;> first | rfl | simp [isOut] at h
  · rfl

theorem recordedFrom_out {id : Nat} {log es : List CapEv}
    (h : ∀ e ∈ es, isOut e = true ∨ ∃ i bs, e = .recorded i bs ∧ i ≠ id) :
    recordedFrom id (log ++ es) = recordedFrom id log := by
  unfold recordedFrom
  rw [List.filterMap_append]
  suffices h : es.filterMap _ = [] by rw [h, List.append_nil]
  rw [List.filterMap_eq_nil_iff]
  intro e he
  rcases h e he with h | ⟨i, bs, rfl, hi⟩
  · cases e <;> first | rfl | simp [isOut] at h
  · simp [hi]

/-- The invariant does not depend on events of the output. -/
theorem ConnPre.out {ct : Bytes} {hw id : Nat} {c : Conn} {log es : List CapEv} {its : List CapItem}
    (h : ConnPre ct hw id c log its) (he : ∀ e ∈ es, isOut e = true) :
    ConnPre ct hw id c (log ++ es) its := by
  have h1 := receivedFrom_out (id := id) (log := log) (es := es) (fun e h => Or.inl (he e h))
  have h2 := sentTo_out (id := id) (log := log) (es := es) (fun e h => Or.inl (he e h))
  have h3 := recordedFrom_out (id := id) (log := log) (es := es) (fun e h => Or.inl (he e h))
  exact ⟨by rw [h1]; exact h.cut, h.phase, by rw [h3]; exact h.recorded,
    by rw [h2]; exact h.replies, h.chains, h.skip⟩

theorem serve_snoc (ct : Bytes) (its : List CapItem) (it : CapItem) :
    serve ct (its ++ [it]) = serveItem ct (serve ct its) it := by
  simp [serve]

/-- Nothing is done for a client whose connection the server has closed. -/
theorem serve_closed (ct : Bytes) : ∀ (its : List CapItem) (sv : Spec.Served), sv.phase = none →
    its.foldl (serveItem ct) sv = sv := by
  intro its
  induction its with
  | nil => intro sv _; rfl
  | cons a r ih =>
    intro sv h
    have : serveItem ct sv a = sv := by unfold serveItem; rw [h]
    rw [List.foldl_cons, this]
    exact ih sv h

theorem serveItem_recorded (ct : Bytes) (sv : Spec.Served) (it : CapItem) :
    sv.recorded <+: (serveItem ct sv it).recorded ∧ sv.replies <+: (serveItem ct sv it).replies := by
  unfold serveItem
  split <;> try split
  all_goals constructor <;> simp

/-- More frames only add to what is recorded and answered. -/
theorem serve_prefix (ct : Bytes) (its rest : List CapItem) :
    (serve ct its).recorded <+: (serve ct (its ++ rest)).recorded ∧
    (serve ct its).replies <+: (serve ct (its ++ rest)).replies := by
  unfold serve
  rw [List.foldl_append]
  generalize its.foldl (serveItem ct) ⟨some .ready, [], []⟩ = sv
  induction rest generalizing sv with
  | nil => exact ⟨List.prefix_refl _, List.prefix_refl _⟩
  | cons a r ih =>
    have h1 := serveItem_recorded ct sv a
    have h2 := ih (serveItem ct sv a)
    exact ⟨h1.1.trans h2.1, h1.2.trans h2.2⟩

theorem serve_append_closed {ct : Bytes} {its rest : List CapItem} (h : (serve ct its).phase = none) :
    serve ct (its ++ rest) = serve ct its := by
  unfold serve at h ⊢
  rw [List.foldl_append]
  exact serve_closed ct rest _ h

/-- The frame at the beginning of the buffer is one of the client's frames. -/
theorem ConnPre.next {ct : Bytes} {hw id : Nat} {c : Conn} {log : List CapEv} {its : List CapItem}
    (h : ConnPre ct hw id c log its) (h0 : c.bytesSkip = 0) {it : CapItem} {n : Nat}
    (hn : nextItem hw c.input.flatten = some (it, n)) (hb : it ≠ .bad) (x : Bytes) :
    items hw (receivedFrom id log ++ x) = (its ++ [it]) ++ items hw ((c.input.flatten ++ x).drop n) := by
  rw [h.cut x, h0, List.drop_zero, items_cons (nextItem_append x hn) hb]
  simp

end Fstrm
