import Verif.Model.Capture

/-! The calls of the C library made by `fstrm_capture`. -/

set_option autoImplicit false

namespace Fstrm

open Spec (StdioCall CapEv CFrame dataFrame stream)

/-- The bytes written to file `i` since it was opened; those of failing calls count in full. -/
def wholeStep (i : Nat) (w : Bytes) : StdioCall → Bytes
  | .fopen j => if j = i then [] else w
  | .fwrite j bs _ => if j = i then w ++ bs else w
  | _ => w

@[inherit_doc wholeStep]
def whole (i : Nat) (cs : List StdioCall) : Bytes := cs.foldl (wholeStep i) []

/-- Whether file `i` is open and no call for it has failed. -/
def writableStep (i : Nat) (w : Bool) : StdioCall → Bool
  | .fopen j => if j = i then true else w
  | .fwrite j _ ok => if j = i then w && ok else w
  | .fflush _ => w
  | .fclose j => if j = i then false else w
  | .exit => false

@[inherit_doc writableStep]
def writable (i : Nat) (cs : List StdioCall) : Bool := cs.foldl (writableStep i) false

/-- The beginning of an output file. -/
def Begun (ct : Bytes) (w : Bytes) : Prop := ∃ ds, w <+: stream (some ct) ds

/-- Only files that are open are written to, and at any time they contain the beginning of a
well-formed stream. -/
structure CallsOk (ct : Bytes) (cs : List StdioCall) : Prop where
  disc : ∀ pre i bs ok post, cs = pre ++ .fwrite i bs ok :: post → writable i pre = true
  good : ∀ pre, pre <+: cs → ∀ i, Begun ct (whole i pre)

theorem whole_snoc (i : Nat) (cs : List StdioCall) (c : StdioCall) :
    whole i (cs ++ [c]) = wholeStep i (whole i cs) c := by simp [whole]

theorem writable_snoc (i : Nat) (cs : List StdioCall) (c : StdioCall) :
    writable i (cs ++ [c]) = writableStep i (writable i cs) c := by simp [writable]

theorem begun_nil (ct : Bytes) : Begun ct [] := ⟨[], List.nil_prefix⟩

theorem CallsOk.nil (ct : Bytes) : CallsOk ct [] := by
  constructor
  · intro pre i bs ok post h; simp at h
  · intro pre h i
    have : pre = [] := List.prefix_nil.1 h
    subst this
    exact begun_nil ct

theorem CallsOk.snoc {ct : Bytes} {cs : List StdioCall} {c : StdioCall} (h : CallsOk ct cs)
    (h1 : ∀ i bs ok, c = .fwrite i bs ok → writable i cs = true)
    (h2 : ∀ i, Begun ct (wholeStep i (whole i cs) c)) : CallsOk ct (cs ++ [c]) := by
  constructor
  · intro pre i bs ok post e
    rcases List.eq_nil_or_concat post with rfl | ⟨p, x, rfl⟩
    · obtain ⟨e1, e2⟩ := List.append_inj' e rfl
      cases e2
      subst e1
      exact h1 _ _ _ rfl
    · have e' : cs ++ [c] = (pre ++ .fwrite i bs ok :: p) ++ [x] := by simpa using e
      obtain ⟨e1, _⟩ := List.append_inj' e' rfl
      exact h.disc _ _ _ _ _ e1
  · intro pre hp i
    rcases List.prefix_concat_iff.1 (by simpa using hp) with rfl | hp
    · rw [whole_snoc]; exact h2 i
    · exact h.good _ hp i

theorem CallsOk.here {ct : Bytes} {cs : List StdioCall} (h : CallsOk ct cs) (i : Nat) :
    Begun ct (whole i cs) := h.good _ (List.prefix_refl _) i

theorem CallsOk.fopen {ct : Bytes} {cs : List StdioCall} (h : CallsOk ct cs) (i : Nat) :
    CallsOk ct (cs ++ [.fopen i]) := by
  refine h.snoc (by nofun) fun j => ?_
  unfold wholeStep
  dsimp only
  split
  · exact begun_nil ct
  · exact h.here j

theorem CallsOk.fwrite {ct : Bytes} {cs : List StdioCall} (h : CallsOk ct cs) {i : Nat} {bs : Bytes} {ok : Bool}
    (hw : writable i cs = true) (hg : Begun ct (whole i cs ++ bs)) : CallsOk ct (cs ++ [.fwrite i bs ok]) := by
  refine h.snoc (by intro j bs' ok' e; cases e; exact hw) fun j => ?_
  unfold wholeStep
  dsimp only
  split
  · rename_i e; subst e; exact hg
  · exact h.here j

theorem CallsOk.fflush {ct : Bytes} {cs : List StdioCall} (h : CallsOk ct cs) (i : Nat) :
    CallsOk ct (cs ++ [.fflush i]) := h.snoc (by nofun) fun j => h.here j

theorem CallsOk.fclose {ct : Bytes} {cs : List StdioCall} (h : CallsOk ct cs) (i : Nat) :
    CallsOk ct (cs ++ [.fclose i]) := h.snoc (by nofun) fun j => h.here j

theorem CallsOk.exit {ct : Bytes} {cs : List StdioCall} (h : CallsOk ct cs) :
    CallsOk ct (cs ++ [.exit]) := h.snoc (by nofun) fun j => h.here j

theorem Begun.pre {ct : Bytes} {a b : Bytes} (h : Begun ct b) (hp : a <+: b) : Begun ct a := by
  obtain ⟨ds, h⟩ := h
  exact ⟨ds, hp.trans h⟩

/-- A part of a data frame after complete ones. -/
theorem begun_frame {ct : Bytes} {ds : List Bytes} {d w : Bytes} (h : w <+: dataFrame d) :
    Begun ct (CFrame.wire ⟨.start, [ct]⟩ ++ ds.flatMap dataFrame ++ w) := by
  refine ⟨ds ++ [d], ?_⟩
  obtain ⟨t, ht⟩ := h
  refine ⟨t ++ CFrame.wire ⟨.stop, []⟩, ?_⟩
  unfold stream
  simp [← ht]

theorem begun_start (ct : Bytes) : Begun ct (CFrame.wire ⟨.start, [ct]⟩) :=
  ⟨[], by simp [stream]⟩

theorem begun_stop (ct : Bytes) (ds : List Bytes) :
    Begun ct (CFrame.wire ⟨.start, [ct]⟩ ++ ds.flatMap dataFrame ++ CFrame.wire ⟨.stop, []⟩) :=
  ⟨ds, List.prefix_refl _⟩

/-- Successful writes. -/
def writes (i : Nat) (vs : List Bytes) : List StdioCall := vs.map (.fwrite i · true)

theorem whole_writes (i j : Nat) (vs : List Bytes) : ∀ (cs : List StdioCall),
    whole j (cs ++ writes i vs) = if i = j then whole j cs ++ vs.flatten else whole j cs := by
  induction vs with
  | nil => intro cs; simp [writes]
  | cons v vs ih =>
    intro cs
    have : cs ++ writes i (v :: vs) = (cs ++ [.fwrite i v true]) ++ writes i vs := by simp [writes]
    rw [this, ih, whole_snoc]
    unfold wholeStep
    by_cases h : i = j <;> simp [h]

theorem writable_writes (i j : Nat) (vs : List Bytes) : ∀ (cs : List StdioCall),
    writable j (cs ++ writes i vs) = writable j cs := by
  induction vs with
  | nil => intro cs; simp [writes]
  | cons v vs ih =>
    intro cs
    have : cs ++ writes i (v :: vs) = (cs ++ [.fwrite i v true]) ++ writes i vs := by simp [writes]
    rw [this, ih, writable_snoc]
    unfold writableStep
    simp

theorem CallsOk.writes {ct : Bytes} {i : Nat} (vs : List Bytes) : ∀ {cs : List StdioCall}, CallsOk ct cs →
    writable i cs = true → Begun ct (whole i cs ++ vs.flatten) → CallsOk ct (cs ++ writes i vs) := by
  induction vs with
  | nil => intro cs h _ _; simpa [Fstrm.writes] using h
  | cons v vs ih =>
    intro cs h hw hg
    have : cs ++ Fstrm.writes i (v :: vs) = (cs ++ [.fwrite i v true]) ++ Fstrm.writes i vs := by
      simp [Fstrm.writes]
    rw [this]
    have e : whole i (cs ++ [.fwrite i v true]) = whole i cs ++ v := by
      rw [whole_snoc]; simp [wholeStep]
    refine ih (h.fwrite hw (hg.pre ⟨vs.flatten, by simp⟩)) ?_ ?_
    · rw [writable_snoc, hw]; simp [writableStep]
    · rw [e]; simpa using hg

/-- How the calls made so far fit the state. -/
structure IoInv (s : Capture) : Prop where
  fine : CallsOk s.args.contentType s.io
  cur : ∀ i, s.outputFile = some i → s.exited = none → writable i s.io = true ∧
    s.files[i]? = some (whole i s.io) ∧
    ∃ ds : List Bytes, whole i s.io = CFrame.wire ⟨.start, [s.args.contentType]⟩ ++ ds.flatMap dataFrame
  files : ∀ i, i < s.files.length → .failed i ∉ s.log → s.files[i]? = some (whole i s.io)
  fail : ∀ i bs, .fwrite i bs false ∈ s.io → .failed i ∈ s.log

theorem IoInv.congr {s s' : Capture} (h : IoInv s) (ha : s'.args = s.args) (hf : s'.files = s.files)
    (hi : s'.io = s.io) (ho : ∀ i, s'.outputFile = some i → s.outputFile = some i)
    (hx : s'.exited = none → s.exited = none)
    (hl : ∀ i, .failed i ∈ s.log → .failed i ∈ s'.log) : IoInv s' := by
  refine ⟨by rw [ha, hi]; exact h.fine, ?_, ?_, fun i bs h' => hl i (h.fail i bs (hi ▸ h'))⟩
  · intro i h1 h2
    rw [ha, hi, hf]
    exact h.cur i (ho i h1) (hx h2)
  · intro i h1 h2
    rw [hf] at h1 ⊢
    rw [hi]
    exact h.files i h1 fun h' => h2 (hl i h')

/-- A call that neither opens nor writes. -/
theorem IoInv.quiet {s s' : Capture} {c : StdioCall} (h : IoInv s) (ha : s'.args = s.args)
    (hf : s'.files = s.files) (hi : s'.io = s.io ++ [c])
    (hc : (∃ i, c = .fflush i) ∨ (∃ i, c = .fclose i) ∨ c = .exit)
    (ho : ∀ i, s'.outputFile = some i → s'.exited = none →
      s.outputFile = some i ∧ s.exited = none ∧ (∀ j, c = .fclose j → i ≠ j) ∧ c ≠ .exit)
    (hl : ∀ i, .failed i ∈ s.log → .failed i ∈ s'.log) : IoInv s' := by
  have hw : ∀ i, whole i s'.io = whole i s.io := by
    intro i
    rw [hi, whole_snoc]
    rcases hc with ⟨j, rfl⟩ | ⟨j, rfl⟩ | rfl <;> rfl
  refine ⟨?_, ?_, ?_, ?_⟩
  · rw [ha, hi]
    rcases hc with ⟨j, rfl⟩ | ⟨j, rfl⟩ | rfl
    · exact h.fine.fflush j
    · exact h.fine.fclose j
    · exact h.fine.exit
  · intro i h1 h2
    obtain ⟨h3, h4, h5, h6⟩ := ho i h1 h2
    obtain ⟨r1, r2⟩ := h.cur i h3 h4
    rw [hw, hf, ha]
    refine ⟨?_, r2⟩
    rw [hi, writable_snoc, r1]
    rcases hc with ⟨j, rfl⟩ | ⟨j, rfl⟩ | rfl
    · rfl
    · simp [writableStep, Ne.symm (h5 j rfl)]
    · exact absurd rfl h6
  · intro i h1 h2
    rw [hf] at h1 ⊢
    rw [hw]
    exact h.files i h1 fun h' => h2 (hl i h')
  · intro i bs h'
    rw [hi, List.mem_append] at h'
    rcases h' with h' | h'
    · exact hl i (h.fail i bs h')
    · rcases hc with ⟨j, rfl⟩ | ⟨j, rfl⟩ | rfl <;> simp at h'

/-- A data frame was written. -/
theorem IoInv.record {s s' : Capture} {i : Nat} {vs : List Bytes} {d : Bytes} (h : IoInv s)
    (hi : s.outputFile = some i) (hx : s.exited = none)
    (hv : vs.flatten = dataFrame d) (ha : s'.args = s.args)
    (hf : s'.files = s.files.modify i (· ++ dataFrame d)) (hio : s'.io = s.io ++ writes i vs)
    (ho : s'.outputFile = s.outputFile)
    (hl : ∀ i, .failed i ∈ s.log → .failed i ∈ s'.log) : IoInv s' := by
  obtain ⟨r1, r2, ds, r3⟩ := h.cur i hi hx
  refine ⟨?_, ?_, ?_, ?_⟩
  · rw [ha, hio]
    refine h.fine.writes vs r1 ?_
    rw [hv, r3]
    exact begun_frame (List.prefix_refl _)
  · intro j h1 _
    rw [ho, hi] at h1
    cases h1
    rw [hio, writable_writes, whole_writes, if_pos rfl, hf, List.getElem?_modify, r2, hv]
    refine ⟨r1, by simp, ds ++ [d], ?_⟩
    rw [ha, r3]
    simp
  · intro j h1 h2
    rw [hf, List.length_modify] at h1
    rw [hf, List.getElem?_modify, hio, whole_writes, hv]
    by_cases e : i = j
    · subst e; rw [r2]; simp
    · rw [h.files j h1 fun h' => h2 (hl j h')]; simp [e]
  · intro j bs h'
    rw [hio, List.mem_append] at h'
    rcases h' with h' | h'
    · exact hl j (h.fail j bs h')
    · simp [writes] at h'

/-- Writing a data frame failed, and the program exits. -/
theorem IoInv.giveUp {s s' : Capture} {i : Nat} {vs : List Bytes} {v d w : Bytes} (h : IoInv s)
    (hi : s.outputFile = some i) (hx : s.exited = none)
    (hv : vs.flatten ++ v <+: dataFrame d) (ha : s'.args = s.args)
    (hf : s'.files = s.files.modify i (· ++ w))
    (hio : s'.io = s.io ++ writes i vs ++ [.fwrite i v false] ++ [.exit])
    (hx' : s'.exited ≠ none)
    (hl : ∀ i, .failed i ∈ s.log → .failed i ∈ s'.log) (hfi : .failed i ∈ s'.log) : IoInv s' := by
  obtain ⟨r1, r2, ds, r3⟩ := h.cur i hi hx
  refine ⟨?_, fun j _ h2 => absurd h2 hx', ?_, ?_⟩
  · rw [ha, hio]
    refine ((h.fine.writes vs r1 ?_).fwrite ?_ ?_).exit
    · rw [r3]
      exact begun_frame ((List.prefix_append _ _).trans hv)
    · rw [writable_writes]; exact r1
    · rw [whole_writes, if_pos rfl, r3, List.append_assoc]
      exact begun_frame hv
  · intro j h1 h2
    have e : i ≠ j := by rintro rfl; exact h2 hfi
    rw [hf, List.length_modify] at h1
    rw [hf, List.getElem?_modify, hio, whole_snoc, whole_snoc, whole_writes,
      h.files j h1 fun h' => h2 (hl j h')]
    simp [e, wholeStep]
  · intro j bs h'
    rw [hio] at h'
    simp only [List.mem_append, List.mem_singleton, writes, List.mem_map, StdioCall.fwrite.injEq,
      Bool.true_eq_false, and_false, exists_false, or_false, reduceCtorEq] at h'
    rcases h' with h' | ⟨rfl, _⟩
    · exact hl j (h.fail j bs h')
    · exact hfi

end Fstrm
