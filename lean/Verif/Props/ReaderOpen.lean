import Verif.Props.Reader

/-!
# Handshakes, safety and resource handling of readers and writers
(C12, C23-C26, C28, C29, C60)
-/

set_option autoImplicit false

namespace Fstrm.Props

open Fstrm
open Fstrm.Spec (CType CFrame Item be32 wires datas contained compatible common received wrote
  ByteSource ByteSink Serves Phase WellBehaved Preserves NoZeroPair Pipe pipeOps)

variable {σ : Type}

set_option synthInstance.maxSize 2000

/-! ### Memory safety -/

/-- The computation did not run into undefined behaviour. Running out of `fuel` stands for a
`read` call that is still skipping control frames after `fuel` of them. -/
def NoUB {α : Type} (x : Exec α) : Prop := ∀ s, x ≠ .error (.ub s)

theorem Safe.noUB {b : Bool} {α : Type} {x : Exec α} {Q : α → Prop} (h : Safe b x Q) : NoUB x := by
  rintro s rfl
  rcases h with ⟨a, h, _⟩ | ⟨_, h⟩ <;> cases h

/-- **C23** is false: a peer that sends an escape followed by a zero control frame length makes the
reader declare a variable length array of size zero. -/
theorem reader_zero_length_ub :
    (Reader.init none (Rdwr.init (pipeOps true false)
        ⟨CFrame.wire ⟨.start, []⟩ ++ (be32 0 ++ be32 0), [], false⟩)).map
      (fun r => (r.read 5).map (fun p => p.1)) =
    some (.error (.ub "zero length variable length array")) := by decide +kernel

/-- **C23**, `_partial`: whatever else the peer sends and however the transport
behaves, no sequence of calls on a reader, ended by destroying it, runs into
undefined behaviour. `I` is any invariant of the transport under which it never
delivers two four byte zeros in direct succession. -/
theorem reader_safe_partial (ops : Ops σ) (obj : σ) (I : σ → Prop) (ropt : Option ReaderOptions)
    (r : Reader σ) (fuel : Nat) (calls : List ROp)
    (hw : WellBehaved ops I) (hp : Preserves ops I) (hz : NoZeroPair ops I) (hI : I obj)
    (hinit : Reader.init ropt (Rdwr.init ops obj) = some r) :
    NoUB (do
      let (_, r) ← r.run fuel calls
      let (res, _) ← r.destroy
      Except.ok res : Exec Res) := by
  obtain ⟨_, _, _, h4, _, h6, _⟩ := reader_init_some hinit
  have hg : GoodR ops I r := ⟨⟨by rw [h4]; rfl, by rw [h4]; exact hI⟩, by omega⟩
  refine Safe.noUB (b := true) (Q := fun _ => True) (Safe.bind (hg.run hw hp hz fuel calls) ?_)
  rintro ⟨rs, r1⟩ h1
  refine Safe.bind (h1.destroy hw hp) ?_
  rintro ⟨res, rw⟩ _
  exact .ok trivial

/-- The concrete peer satisfies the hypotheses whenever its input does not contain eight zero
bytes in a row. -/
theorem pipe_wellBehaved (a b : Bool) (I : Pipe → Prop) : WellBehaved (pipeOps a b) I where
  opn := by rintro f ⟨⟩ s _; exact ⟨_, _, rfl⟩
  cls := by rintro f ⟨⟩ s _; exact ⟨_, _, rfl⟩
  destroy := by rintro f ⟨⟩
  wr := by
    intro f hf iov s _
    cases b <;> simp [pipeOps] at hf
    subst hf; exact ⟨_, _, rfl⟩
  rd := by
    intro f hf n s _
    cases a <;> simp [pipeOps] at hf
    subst hf
    simp only
    split
    · exact ⟨_, _, _, rfl, fun _ => by rw [List.length_take]; omega⟩
    · exact ⟨_, _, _, rfl, nofun⟩

theorem pipe_preserves (a b : Bool) (P : Bytes → Prop) (h : ∀ n bs, P bs → P (bs.drop n)) :
    Preserves (pipeOps a b) (fun s => P s.inp) where
  opn := by rintro f ⟨⟩ s r s' hi ⟨⟩; exact hi
  cls := by rintro f ⟨⟩ s r s' hi ⟨⟩; exact hi
  wr := by
    intro f hf iov s r s' hi he
    cases b <;> simp [pipeOps] at hf
    subst hf; cases he; exact hi
  rd := by
    intro f hf n s r bs s' hi he
    cases a <;> simp [pipeOps] at hf
    subst hf
    simp only at he
    split at he
    · cases he; exact h _ _ hi
    · cases he; exact hi

theorem pipe_noZeroPair (a b : Bool) :
    NoZeroPair (pipeOps a b) (fun s => ¬ ([0, 0, 0, 0, 0, 0, 0, 0] <:+: s.inp)) := by
  intro f hf s s1 s2 hi h1 h2
  cases a <;> simp [pipeOps] at hf
  subst hf
  simp only at h1 h2
  split at h1
  · split at h2
    · simp only [Except.ok.injEq, Prod.mk.injEq, true_and] at h1 h2
      obtain ⟨e1, rfl⟩ := h1
      obtain ⟨e2, _⟩ := h2
      apply hi
      refine ⟨[], s.inp.drop 8, ?_⟩
      simp only at e2
      have : s.inp = [0, 0, 0, 0] ++ ([0, 0, 0, 0] ++ s.inp.drop 8) := by
        conv => lhs; rw [← List.take_append_drop 4 s.inp, e1,
          ← List.take_append_drop 4 (s.inp.drop 4), e2, List.drop_drop]
      simpa using this.symm
    · cases h2
  · cases h1

/-- **C23** for that peer: any input without eight zero bytes in a row. -/
theorem reader_safe_pipe_partial (inp out : Bytes) (opened hasWr : Bool)
    (ropt : Option ReaderOptions)
    (r : Reader Pipe) (fuel : Nat) (calls : List ROp)
    (h8 : ¬ ([0, 0, 0, 0, 0, 0, 0, 0] <:+: inp))
    (hinit : Reader.init ropt (Rdwr.init (pipeOps true hasWr) ⟨inp, out, opened⟩) = some r) :
    NoUB (do
      let (_, r) ← r.run fuel calls
      let (res, _) ← r.destroy
      Except.ok res : Exec Res) := by
  refine reader_safe_partial _ _ (fun s => ¬ ([0, 0, 0, 0, 0, 0, 0, 0] <:+: s.inp)) ropt r fuel calls
    (pipe_wellBehaved true hasWr _) (pipe_preserves true hasWr (fun bs => ¬ ([0, 0, 0, 0, 0, 0, 0, 0] <:+: bs)) ?_) (pipe_noZeroPair true hasWr)
    h8 hinit
  intro n bs h h'
  exact h (h'.trans (List.drop_suffix n bs).isInfix)

example : ¬ ([0, 0, 0, 0, 0, 0, 0, 0] <:+: ([1, 0, 0, 255, 7] : Bytes)) ∧
    ∃ r, Reader.init none (Rdwr.init (pipeOps true true) ⟨[1, 0, 0, 255, 7], [], false⟩) = some r := by
  refine ⟨fun h => ?_, _, rfl⟩
  have := h.length_le
  simp at this

/-- **C60**. No sequence of calls on a writer, ended by destroying it, runs into
undefined behaviour, whatever the transport's callbacks return, for up to
2^30-1 frames per call; `_partial` because a bidirectional peer must again not
answer with a zero control frame length. -/
theorem writer_safe_partial (ops : Ops σ) (obj : σ) (I : σ → Prop) (wopt : Option WriterOptions)
    (w : Writer σ) (calls : List WOp)
    (hw : WellBehaved ops I) (hp : Preserves ops I) (hz : NoZeroPair ops I) (hI : I obj)
    (hlen : ∀ op ∈ calls, op.frames.length ≤ 1073741823)
    (hinit : Writer.init wopt (Rdwr.init ops obj) = some w) :
    ∃ r, (do
      let (_, w) ← w.run calls
      let (res, _) ← w.destroy
      Except.ok res : Exec Res) = .ok r := by
  obtain ⟨_, _, h3, _⟩ := init_some hinit
  have hg : Good ops I w.rdwr := ⟨by rw [h3]; rfl, by rw [h3]; exact hI⟩
  have : Safe false (do
      let (_, w) ← w.run calls
      let (res, _) ← w.destroy
      Except.ok res : Exec Res) (fun _ => True) := by
    refine Safe.bind (Good.wrun hw hp hz calls hg hlen) ?_
    rintro ⟨rs, w1⟩ h1
    refine Safe.bind (Good.wdestroy hw hp hz h1) ?_
    rintro ⟨res, rw⟩ _
    exact .ok trivial
  rcases this with ⟨a, h, _⟩ | ⟨h, _⟩
  · exact ⟨a, h⟩
  · cases h

/-- **C60** for unidirectional transports needs no assumption about the peer. -/
theorem writer_safe_uni (ops : Ops σ) (obj : σ) (I : σ → Prop) (wopt : Option WriterOptions)
    (w : Writer σ) (calls : List WOp) (hw : WellBehaved ops I) (hp : Preserves ops I) (hI : I obj)
    (huni : ops.rd = none)
    (hlen : ∀ op ∈ calls, op.frames.length ≤ 1073741823)
    (hinit : Writer.init wopt (Rdwr.init ops obj) = some w) :
    ∃ r, (do
      let (_, w) ← w.run calls
      let (res, _) ← w.destroy
      Except.ok res : Exec Res) = .ok r :=
  writer_safe_partial ops obj I wopt w calls hw hp
    (fun f hf => by rw [huni] at hf; cases hf) hI hlen hinit

example : ∃ w, Writer.init (some ⟨[[1]]⟩) (Rdwr.init (pipeOps false true) ⟨[], [], false⟩) = some w ∧
    WellBehaved (pipeOps false true) (fun _ => True) ∧
    Preserves (pipeOps false true) (fun _ => True) ∧ (pipeOps false true).rd = none :=
  ⟨_, rfl, pipe_wellBehaved _ _ _, pipe_preserves _ _ (fun _ => True) (fun _ _ _ => trivial), rfl⟩

/-- The writer has the same defect: an ACCEPT of length zero. -/
theorem writer_zero_length_ub :
    (Writer.init none (Rdwr.init (pipeOps true true) ⟨be32 0 ++ be32 0, [], false⟩)).map
      (fun w => w.open.map (fun p => p.1)) =
    some (.error (.ub "zero length variable length array")) := by decide +kernel

/-! ### Content types -/

/-- **C24**, soundness: whatever the transport does, if opening a reader succeeds then the peer's
START frame (the last frame received) carries a content type compatible with the
reader's list, and it is the START frame the reader exposes. -/
theorem reader_open_sound (r r' : Reader σ) (h : r.open = .ok (.success, r')) :
    ∃ cts pre, CFrame.WF ⟨.start, cts⟩ ∧ compatible r.cts cts ∧
      r'.start = some ⟨CType.start.code, cts⟩ ∧
      received r'.rdwr.log = pre ++ CFrame.wire ⟨.start, cts⟩ := by
  obtain ⟨_, _, _, h4, _, _⟩ := reader_open_ok h
  obtain ⟨_, _, _, f, f1, f2, f3, f4, f5, f6⟩ := h4 rfl
  obtain ⟨ft, fc⟩ := f
  simp only at f3; subst f3
  rcases f6 with ⟨_, f6, _⟩ | ⟨g, _, _, _, _, f6, _⟩
  · exact ⟨fc, _, f1, f4, f5, f6⟩
  · exact ⟨fc, _, f1, f4, f5, f6⟩

/-- **C24**, decision: a unidirectional reader on a transport whose first frame is a START frame
with content type `ct` (or none) opens exactly if that is compatible with its
list, and otherwise reports failure. -/
theorem reader_open_iff {ops : Ops σ} {obj : σ} {rem : σ → Option Bytes} {eof : Res}
    (ropt : Option ReaderOptions) (r : Reader σ) (ct : Option Bytes) (rest : Bytes)
    (hinit : Reader.init ropt (Rdwr.init ops obj) = some r)
    (hserves : Serves ops obj rem eof (CFrame.wire ⟨.start, ct.toList⟩ ++ rest))
    (huni : ops.wr = none) (hct : ∀ c, ct = some c → c.length ≤ 256) :
    (compatible (optR ropt).cts ct.toList → ∃ r', r.open = .ok (.success, r')) ∧
    (¬ compatible (optR ropt).cts ct.toList → ∃ r', r.open = .ok (.failure, r')) := by
  obtain ⟨r', _, _, _, _, _, _, b6, b7⟩ := open_uni_at ropt r ct rest hinit hserves huni hct
  exact ⟨fun h => ⟨r', (b6 h).2⟩, fun h => ⟨r', (b7 h).2⟩⟩

example : Serves (pipeOps true false) ⟨CFrame.wire ⟨.start, [[7]]⟩ ++ [1], [], false⟩ Pipe.left .stop
    (CFrame.wire ⟨.start, [[7]]⟩ ++ [1]) ∧ ¬ compatible [[9], [7, 7]] (some ([7] : Bytes)).toList := by
  refine ⟨pipe_serves false _, ?_⟩
  simp [compatible]

/-- Opening a bidirectional reader on a transport whose first two frames are READY and START. -/
theorem open_bi_at {ops : Ops σ} {obj : σ} {rem : σ → Option Bytes} {eof : Res}
    (ropt : Option ReaderOptions) (r : Reader σ) (offer : List Bytes) (ct : Option Bytes)
    (rest : Bytes)
    (hinit : Reader.init ropt (Rdwr.init ops obj) = some r)
    (hserves : Serves ops obj rem eof
      (CFrame.wire ⟨.ready, offer⟩ ++ (CFrame.wire ⟨.start, ct.toList⟩ ++ rest)))
    (hsink : ByteSink ops rem) (hct : ∀ c, ct = some c → c.length ≤ 256)
    (hoffer : ∀ c ∈ offer, c.length ≤ 256) (hol : (CFrame.payload ⟨.ready, offer⟩).length ≤ 512)
    (hown : ∀ c ∈ (optR ropt).cts, c.length ≤ 256)
    (hacc : (CFrame.wire ⟨.accept, common (optR ropt).cts offer⟩).length ≤ 512) :
    ∃ r', At rem eof r'.rdwr rest ∧ r'.bufCap = 512 ∧ r'.stop = none ∧
      r'.maxFrameSize = (optR ropt).maxFrameSize ∧ r'.start = some ⟨2, ct.toList⟩ ∧
      r'.ready = some ⟨4, offer⟩ ∧ r'.accept = some ⟨1, common (optR ropt).cts offer⟩ ∧
      r'.rdwr.ops = ops ∧
      (compatible (optR ropt).cts ct.toList → r'.state = .opened ∧ r.open = .ok (.success, r')) ∧
      (¬ compatible (optR ropt).cts ct.toList →
        r'.state = .opening ∧ r.open = .ok (.failure, r')) := by
  obtain ⟨h1, h2, h3, h4, h5, h6, h7⟩ := reader_init_some hinit
  obtain ⟨rw, o1, a1, o2⟩ := serves_open hserves
  obtain ⟨w1, w2⟩ := start_ok ct hct
  obtain ⟨r', b1, b2, b3, b4, b5, b6, b7⟩ := openBidirectional_at (r := { r with rdwr := rw })
    a1 (by rw [o2]; exact hsink) w1 w2 rfl ⟨hoffer, nofun⟩ hol rfl
    (by simp only [h2]; exact hown) (by simp only [h2]; exact hacc)
  have hs : r.state ≠ .opened := by rw [h1]; decide
  have ho : r.rdwr.open = .ok (.success, rw) := by rw [h4]; exact o1
  have hw : rw.ops.wr ≠ none := by
    obtain ⟨f, hf, _⟩ := hsink.wr
    rw [o2, hf]; nofun
  simp only at b5 b6 b7
  rw [h2] at b5
  refine ⟨r', b1, b2.cap.trans h6, b2.stop.trans h7, b2.max.trans h3, b3, b4, b5,
    b2.ops.trans o2, ?_, ?_⟩
  · intro hc
    obtain ⟨c1, c2⟩ := b6 (by rw [h2]; exact hc)
    refine ⟨c1, ?_⟩
    rw [open_of_bi hs ho hw c2, if_pos rfl, ← c1]
  · intro hc
    obtain ⟨c1, c2⟩ := b7 (by rw [h2]; exact hc)
    refine ⟨c1.trans h1, ?_⟩
    rw [open_of_bi hs ho hw c2, if_neg (by decide)]

/-- **C17/C24** for bidirectional readers: on a peer that sends READY, START, frames and STOP,
the reader opens if and only if START is compatible, and then returns exactly the
data frames. -/
theorem reader_reads_stream_bidir {ops : Ops σ} {obj : σ} {rem : σ → Option Bytes} {eof : Res}
    (ropt : Option ReaderOptions) (r : Reader σ) (offer : List Bytes) (ct : Option Bytes)
    (items : List Item) (rest : Bytes) (fuel n : Nat)
    (hinit : Reader.init ropt (Rdwr.init ops obj) = some r)
    (hserves : Serves ops obj rem eof
      (CFrame.wire ⟨.ready, offer⟩ ++ (CFrame.wire ⟨.start, ct.toList⟩ ++
        (wires items ++ (CFrame.wire ⟨.stop, []⟩ ++ rest)))))
    (hsink : ByteSink ops rem) (hct : ∀ c, ct = some c → c.length ≤ 256)
    (hoffer : ∀ c ∈ offer, c.length ≤ 256) (hol : (CFrame.payload ⟨.ready, offer⟩).length ≤ 512)
    (hown : ∀ c ∈ (optR ropt).cts, c.length ≤ 256)
    (hacc : (CFrame.wire ⟨.accept, common (optR ropt).cts offer⟩).length ≤ 512)
    (hitems : ∀ it ∈ items, it.Ok (optR ropt).maxFrameSize)
    (hfuel : items.length + 1 ≤ fuel) (hn : (datas items).length + 1 ≤ n) :
    (compatible (optR ropt).cts ct.toList →
      ∃ r', Reader.readLoop fuel n r = .ok ((datas items).map some, some .stop, r') ∧
        r'.stop = some ⟨CType.stop.code, []⟩) ∧
    (¬ compatible (optR ropt).cts ct.toList →
      ∃ r', Reader.readLoop fuel n r = .ok ([], some .failure, r')) := by
  obtain ⟨n, rfl⟩ : ∃ m, n = m + 1 := ⟨n - 1, by omega⟩
  have hs := (reader_init_some hinit).1
  obtain ⟨r1, a1, b1, b2, b3, _, _, _, b5, b6, b7⟩ := open_bi_at ropt r offer ct _ hinit hserves hsink
    hct hoffer hol hown hacc
  constructor
  · intro hc
    obtain ⟨c1, c2⟩ := b6 hc
    have hlen : (wires items ++ (CFrame.wire ⟨.stop, []⟩ ++ rest)).length =
        (wires items).length + (12 + rest.length) := by simp only [List.length_append]; rfl
    have hall := contained_all items
      (wires items ++ (CFrame.wire ⟨.stop, []⟩ ++ rest)).length (by omega)
    obtain ⟨last, r', e1, e2, e3, e4⟩ := contLoop_items items
      (wires items ++ (CFrame.wire ⟨.stop, []⟩ ++ rest)).length fuel fuel n rest r1 c1
      (by omega) (by rw [b3]; exact hitems) (by rw [List.take_length]; exact a1) hfuel hfuel
      (by rw [hall]; omega)
    obtain ⟨rfl, _, e6, _⟩ := e3 (by omega)
    rw [hall] at e1
    exact ⟨r', by rw [readLoop_opens fuel n hs c2 c1, readLoop_opened fuel n c1, e1], e6⟩
  · intro hc
    obtain ⟨c1, c2⟩ := b7 hc
    refine ⟨r1, ?_⟩
    unfold Reader.readLoop Reader.read Reader.maybeOpen
    rw [if_pos hs, c2, Exec.ok_bind]
    simp [Exec.ok_bind]

theorem pipe_sink' : ByteSink (pipeOps true true) Pipe.left :=
  ⟨_, rfl, fun _ _ _ h => ⟨_, rfl, h⟩⟩

example : Serves (pipeOps true true) ⟨CFrame.wire ⟨.ready, [[7], [8]]⟩ ++
      (CFrame.wire ⟨.start, (some ([7] : Bytes)).toList⟩ ++ (wires [.data [1]] ++
        (CFrame.wire ⟨.stop, []⟩ ++ []))), [], false⟩ Pipe.left .stop
      (CFrame.wire ⟨.ready, [[7], [8]]⟩ ++
        (CFrame.wire ⟨.start, (some ([7] : Bytes)).toList⟩ ++ (wires [.data [1]] ++
          (CFrame.wire ⟨.stop, []⟩ ++ [])))) ∧
    ByteSink (pipeOps true true) Pipe.left ∧ compatible [[9], [7]] (some ([7] : Bytes)).toList ∧
    (CFrame.wire ⟨.accept, common [[9], [7]] [[7], [8]]⟩).length ≤ 512 := by
  refine ⟨pipe_serves true _, pipe_sink', by simp [compatible], by decide +kernel⟩

/-- **C25**, `_partial`: whatever the transport does, opening a bidirectional reader sends nothing,
or answers a READY frame with exactly one ACCEPT frame that lists exactly those of
its own content types that READY offers (in the reader's order). Missing: when none is
common, that list is empty, which the protocol reads as "anything" (see
`empty_accept`). -/
theorem accept_common_partial (r r' : Reader σ) (res : Res) (h : r.open = .ok (res, r')) :
    wrote r'.rdwr.log = wrote r.rdwr.log ∨
      ∃ offer more, CFrame.WF ⟨.ready, offer⟩ ∧
        received r'.rdwr.log = received r.rdwr.log ++ CFrame.wire ⟨.ready, offer⟩ ++ more ∧
        wrote r'.rdwr.log = wrote r.rdwr.log ++
          CFrame.wire ⟨.accept, r.cts.filter fun ct => offer = [] ∨ ct ∈ offer⟩ := by
  obtain ⟨_, _, _, _, _, h6⟩ := reader_open_ok h
  rcases h6 with h6 | ⟨⟨gt, gc⟩, g1, g2, g3, g4, more, g5⟩
  · exact Or.inl h6
  · simp only at g3; subst g3
    exact Or.inr ⟨gc, more, g1, g5, g4⟩

/-- **C25** is false when nothing is common: a reader for type `[1]` answers an offer of `[2]`
with an ACCEPT frame that accepts anything. -/
theorem empty_accept :
    (Reader.init (some ⟨[[1]], 512⟩) (Rdwr.init (pipeOps true true)
        ⟨CFrame.wire ⟨.ready, [[2]]⟩ ++ CFrame.wire ⟨.start, [[2]]⟩, [], false⟩)).map
      (fun r => r.open.map (fun p => (p.1, p.2.rdwr.obj.out))) =
    some (.ok (.failure, CFrame.wire ⟨.accept, []⟩)) := by decide +kernel

/-! ### Unknown control frames -/

/-- **C26** is false for *every* control frame type outside the five known ones: such a frame, even
one that is otherwise well formed, makes the read fail for good instead of being
ignored. -/
theorem unknown_control_fatal {ops : Ops σ} {obj : σ} {rem : σ → Option Bytes} {eof : Res}
    (ropt : Option ReaderOptions) (r : Reader σ) (ct : Option Bytes) (type fuel : Nat)
    (body rest : Bytes)
    (hinit : Reader.init ropt (Rdwr.init ops obj) = some r)
    (hserves : Serves ops obj rem eof (CFrame.wire ⟨.start, ct.toList⟩ ++
      (be32 0 ++ (be32 (4 + body.length) ++ ((be32 type ++ body) ++ rest)))))
    (huni : ops.wr = none) (hct : ∀ c, ct = some c → c.length ≤ 256)
    (hcompat : compatible (optR ropt).cts ct.toList)
    (htype : type < 2^32) (hunknown : ∀ t : CType, t.code ≠ type) (hlen : body.length ≤ 508) :
    ∃ r', r.run (fuel+1) [.read, .read] = .ok ([(.failure, none), (.failure, none)], r') := by
  obtain ⟨r1, a1, b1, b2, b3, b4, b5, b6, _⟩ := open_uni_at ropt r ct _ hinit hserves huni hct
  obtain ⟨c1, c2⟩ := b6 hcompat
  obtain ⟨rw1, e1, a2, o1⟩ := readBe32_at a1 (by omega)
  obtain ⟨rw2, e2, a3, o2⟩ := a2.read (by simp [be32])
  obtain ⟨rw3, e3, a4, o3⟩ := a3.read (by simp [be32])
  have hbl : (be32 type ++ body).length = 4 + body.length := by
    rw [List.length_append, length_be32]
  have hdec : ∀ c : Control, ∃ c', c.decode (be32 type ++ body) (4 + body.length) false =
      .ok (.failure, c') := by
    intro c
    obtain ⟨r', c', h1, h2⟩ := decode_safe c (be32 type ++ body) (4 + body.length) false (by omega)
    rcases h2 with rfl | rfl
    · exfalso
      rw [decode_iff _ _ _ _ _ (by omega)] at h1
      obtain ⟨f, hf, _, h3, _⟩ := h1
      rw [← hbl, List.take_length] at h3
      simp only [Spec.wireBytes, Bool.false_eq_true, if_false, CFrame.payload] at h3
      have h4 := congrArg (List.take 4) h3
      rw [List.take_left' (length_be32 _), List.take_left' (length_be32 _)] at h4
      have h5 := congrArg ntohl h4
      rw [be32_zero_ne _ htype, be32_zero_ne _ (by cases f.type <;> decide)] at h5
      exact hunknown f.type h5.symm
    · exact ⟨c', h1⟩
  obtain ⟨c', hd⟩ := hdec (r1.tmp.getD Control.init)
  have hbody : rw1.readControlFrame (r1.tmp.getD Control.init) false =
      .ok (.failure, c', none, rw3) := by
    unfold Rdwr.readControlFrame
    rw [if_neg (by decide)]
    unfold Rdwr.readControlBody
    rw [show rw1.read 4 = _ from e2, Exec.ok_bind]
    simp only [ne_eq, not_true_eq_false, if_false, be32_zero_ne _ (by omega : 4 + body.length < 2^32)]
    rw [if_neg (by simp only [FRAME_LENGTH_MAX]; omega), if_neg (by omega)]
    rw [hbl] at e3
    rw [e3, Exec.ok_bind]
    simp [hd, Exec.ok_bind]
  have hread : r.read (fuel+1) = .ok (.failure, none,
      { r1 with rdwr := rw3, tmp := some c', state := .failed }) := by
    unfold Reader.read Reader.maybeOpen
    rw [if_pos (reader_init_some hinit).1, c2, Exec.ok_bind]
    simp only [ne_eq, not_true_eq_false, if_false, c1, if_true]
    unfold Reader.nextData
    rw [e1, Exec.ok_bind]
    simp only [ne_eq, not_true_eq_false, if_false]
    rw [hbody, Exec.ok_bind]
    simp [c1]
  refine ⟨{ r1 with rdwr := rw3, tmp := some c', state := .failed }, ?_⟩
  simp only [Reader.run, Reader.step, hread, Exec.ok_bind]
  unfold Reader.read Reader.maybeOpen
  simp [Exec.ok_bind]

example : (∀ t : CType, t.code ≠ 6) ∧ ∃ r, Reader.init none (Rdwr.init (pipeOps true false)
      ⟨CFrame.wire ⟨.start, []⟩ ++ (be32 0 ++ (be32 (4 + ([] : Bytes).length) ++
        ((be32 6 ++ []) ++ CFrame.wire ⟨.stop, []⟩))), [], false⟩) = some r := by
  refine ⟨fun t => by cases t <;> decide, _, rfl⟩

/-- **C26**, `_partial`: control frames of the known types other than STOP are skipped, whatever
they carry and however many there are: the same data frames come out with and
without them. -/
theorem known_control_ignored_partial {ops : Ops σ} {obj obj' : σ} {rem : σ → Option Bytes} {eof : Res}
    (ropt : Option ReaderOptions) (r q : Reader σ) (ct : Option Bytes) (items : List Item)
    (rest : Bytes) (fuel n : Nat)
    (hinit : Reader.init ropt (Rdwr.init ops obj) = some r)
    (hserves : Serves ops obj rem eof
      (CFrame.wire ⟨.start, ct.toList⟩ ++ (wires items ++ (CFrame.wire ⟨.stop, []⟩ ++ rest))))
    (hinit' : Reader.init ropt (Rdwr.init ops obj') = some q)
    (hserves' : Serves ops obj' rem eof
      (CFrame.wire ⟨.start, ct.toList⟩ ++ (wires ((datas items).map .data) ++
        (CFrame.wire ⟨.stop, []⟩ ++ rest))))
    (huni : ops.wr = none) (hct : ∀ c, ct = some c → c.length ≤ 256)
    (hcompat : compatible (optR ropt).cts ct.toList)
    (hitems : ∀ it ∈ items, it.Ok (optR ropt).maxFrameSize)
    (hfuel : items.length + 1 ≤ fuel) (hn : (datas items).length + 1 ≤ n) :
    (Reader.readLoop fuel n r).map (fun p => (p.1, p.2.1)) =
      (Reader.readLoop fuel n q).map (fun p => (p.1, p.2.1)) := by
  have hd : datas ((datas items).map .data) = datas items := by
    generalize datas items = l
    induction l with
    | nil => rfl
    | cons d l ih => simp [datas, ih]
  have hle : (datas items).length ≤ items.length := by
    clear hfuel hn hitems hserves hserves' hd
    induction items with
    | nil => exact Nat.le_refl _
    | cons it l ih => cases it <;> simp [datas] <;> omega
  have hok : ∀ it ∈ (datas items).map Item.data, it.Ok (optR ropt).maxFrameSize := by
    intro it hit
    obtain ⟨d, hm, rfl⟩ := List.mem_map.1 hit
    refine hitems _ ?_
    clear hfuel hn hitems hserves hserves' hit hle hd
    induction items with
    | nil => simp [datas] at hm
    | cons it l ih =>
      cases it with
      | data e =>
        simp only [datas, List.mem_cons] at hm
        rcases hm with rfl | hm
        · simp
        · exact List.mem_cons_of_mem _ (ih hm)
      | ctl f => exact List.mem_cons_of_mem _ (ih hm)
  obtain ⟨r', e1, _⟩ := reader_reads_stream ropt r ct items rest fuel n hinit hserves huni hct
    hcompat hitems hfuel hn
  obtain ⟨q', e2, _⟩ := reader_reads_stream ropt q ct _ rest fuel n hinit' hserves' huni hct
    hcompat hok (by rw [List.length_map]; omega) (by rw [hd]; exact hn)
  rw [e1, e2, hd]
  rfl

/-! ### Transport calls and release -/

/-- **C28** for readers: on every transport with a close callback and in every
history of calls, including a final destroy, the callbacks are called in a
legal order: reads and writes only between a successful open and the
close, never more than one close per open, nothing after destroy. -/
theorem reader_discipline (ops : Ops σ) (obj : σ) (ropt : Option ReaderOptions) (r r' : Reader σ)
    (fuel : Nat) (calls : List ROp) (rs : List (Res × Option Bytes)) (hcls : ops.cls ≠ none)
    (hinit : Reader.init ropt (Rdwr.init ops obj) = some r)
    (hrun : r.run fuel calls = .ok (rs, r')) :
    (∃ p, Phase.closed.run r'.rdwr.log = some p ∧ p ≠ .broken) ∧
    ∀ res rw, r'.destroy = .ok (res, rw) → ∃ p, Phase.closed.run rw.log = some p ∧ p ≠ .broken := by
  obtain ⟨_, _, _, h4, _, h6, _⟩ := reader_init_some hinit
  have hd : Disc r'.rdwr := (by rw [h4]; exact Disc.init hcls : Disc r.rdwr).reach
    (reader_run_kept (by omega) hrun).reach
  refine ⟨⟨_, hd.2, by split <;> simp⟩, ?_⟩
  intro res rw h
  unfold Reader.destroy at h
  obtain ⟨⟨res, w2⟩, h1, h⟩ := Exec.bind_eq_ok.1 h
  obtain ⟨⟨res2, rw2⟩, h2, h⟩ := Exec.bind_eq_ok.1 h
  cases h
  have hd2 : Disc w2.rdwr := by
    split at h1
    · exact hd.reach (reader_close_ok h1).1.reach
    · cases h1; exact hd
  unfold Rdwr.destroy at h2
  split at h2
  · cases h2; exact ⟨_, hd2.2, by split <;> simp⟩
  · obtain ⟨⟨res3, obj3⟩, _, h2⟩ := Exec.bind_eq_ok.1 h2
    cases h2
    refine ⟨.gone, ?_, by simp⟩
    simp only
    rw [Phase.run_append, hd2.2]
    cases w2.rdwr.opened <;> rfl

/-- A history with an open, reads past the end of the input and a close. -/
example : ((Reader.init none (Rdwr.init (pipeOps true true)
      ⟨CFrame.wire ⟨.ready, []⟩ ++ CFrame.wire ⟨.start, []⟩ ++ [0, 0], [], false⟩)).map
      fun r => ((r.run 5 [.opn, .read, .close]).map (fun p => p.1.map (·.1)))) =
    some (.ok [.success, .stop, .failure]) := by decide +kernel

/-- A transport that is open belongs to an opened or closing reader. -/
def RInv (r : Reader σ) : Prop :=
  1 ≤ r.bufCap ∧ r.rdwr.ops.cls ≠ none ∧
    (r.state = .opened ∨ r.state = .closing ∨ r.rdwr.opened = false)

theorem RInv.open {r r' : Reader σ} {res : Res} (hi : RInv r) (h : r.open = .ok (res, r'))
    (hr : res ≠ .failure) : RInv r' := by
  obtain ⟨i1, i2, i3⟩ := hi
  obtain ⟨k, _, _, k4, k5, _⟩ := reader_open_ok h
  refine ⟨Nat.le_trans i1 k.cap, by rw [k.reach.ops]; exact i2, ?_⟩
  by_cases hs : res = .success
  · exact Or.inl (k4 hs).2.1
  · obtain ⟨m1, m2⟩ := k5 hs
    rcases i3 with i3 | i3 | i3
    · exact Or.inl (m1.trans i3)
    · exact Or.inr (Or.inl (m1.trans i3))
    · rcases m2 with m2 | m2
      · exact absurd m2 hr
      · exact Or.inr (Or.inr (m2.2 i3 i2))

theorem RInv.maybeOpen {r r' : Reader σ} {res : Res} (hi : RInv r)
    (h : r.maybeOpen = .ok (res, r')) (hr : res ≠ .failure) : RInv r' := by
  rcases reader_maybeOpen_cases h with ⟨_, _, rfl⟩ | ⟨_, h⟩
  · exact hi
  · exact hi.open h hr

/-- The outcomes of a call after which the transport is not left behind: anything but
failure, and for `read` also not a success without data (C21). The result of
`close` is irrelevant. -/
def Fine : ROp → Res × Option Bytes → Prop
  | .close, _ => True
  | .read, (res, d) => res ≠ .failure ∧ ¬ (res = .success ∧ d = none)
  | _, (res, _) => res ≠ .failure

theorem RInv.step {fuel : Nat} {r r' : Reader σ} {op : ROp} {res : Res} {d : Option Bytes}
    (hi : RInv r) (h : r.step fuel op = .ok (res, d, r')) (hf : Fine op (res, d)) : RInv r' := by
  cases op with
  | opn =>
    obtain ⟨⟨res1, r1⟩, h1, h⟩ := Exec.bind_eq_ok.1 h
    cases h
    exact hi.open h1 hf
  | getControl t =>
    obtain ⟨⟨res1, c, r1⟩, h1, h⟩ := Exec.bind_eq_ok.1 h
    cases h
    obtain ⟨res2, h2, h3⟩ := reader_getControl_ok h1
    refine hi.maybeOpen h2 ?_
    by_cases hs : res2 = .success
    · rw [hs]; nofun
    · rw [← h3 hs]; exact hf
  | close =>
    obtain ⟨⟨res1, r1⟩, h1, h⟩ := Exec.bind_eq_ok.1 h
    cases h
    obtain ⟨i1, i2, i3⟩ := hi
    obtain ⟨k, _, _, _, k5, k6⟩ := reader_close_ok h1
    by_cases hs : r.state = .opened ∨ r.state = .closing
    · exact ⟨Nat.le_trans i1 k.cap, by rw [k.reach.ops]; exact i2, Or.inr (Or.inr ((k6 hs).2 i2))⟩
    · rw [(k5 ⟨fun h => hs (Or.inl h), fun h => hs (Or.inr h)⟩).1]
      exact ⟨i1, i2, i3⟩
  | read =>
    obtain ⟨res1, r1, h1, h⟩ := reader_read_cases (show r.read fuel = _ from h)
    obtain ⟨f1, f2⟩ : res ≠ .failure ∧ ¬ (res = .success ∧ d = none) := hf
    rcases h with ⟨_, rfl, _, rfl⟩ | ⟨rfl, hs, h⟩ | ⟨rfl, _, _, _, rfl⟩ | ⟨_, _, _, hff, _⟩
    · exact hi.maybeOpen h1 f1
    · obtain ⟨i1, i2, i3⟩ := hi.maybeOpen h1 nofun
      obtain ⟨_, _, hn, k, _⟩ := nextData_next fuel i1 h
      refine ⟨Nat.le_trans i1 k.cap, by rw [k.reach.ops]; exact i2, ?_⟩
      cases hn with
      | data b _ _ _ _ _ hst => exact Or.inl (hst.trans hs)
      | oversize => exact absurd ⟨rfl, rfl⟩ f2
      | stop _ hst => exact Or.inr (Or.inl hst)
      | fails _ _ _ _ hb =>
        rcases hb with hb | hb
        · exact absurd hb f1
        · exact Or.inr (Or.inr (hb.2 (by rw [k.reach.ops]; exact i2)))
    · exact hi.maybeOpen h1 nofun
    · exact absurd hff f1

/-- **C29** for readers, `_partial`: after a history in which no open or read failed (other than
by reporting stop or another code than failure) and no oversized frame was met,
destroying the reader leaves the transport closed. Missing: the other
histories, where it is false (`reader_destroy_leaks`). -/
theorem reader_destroy_closes_partial (ops : Ops σ) (obj : σ) (ropt : Option ReaderOptions)
    (r r' : Reader σ) (fuel : Nat) (calls : List ROp) (rs : List (Res × Option Bytes)) (res : Res)
    (rw : Rdwr σ) (hcls : ops.cls ≠ none)
    (hinit : Reader.init ropt (Rdwr.init ops obj) = some r)
    (hrun : r.run fuel calls = .ok (rs, r'))
    (hfine : ∀ x ∈ calls.zip rs, Fine x.1 x.2)
    (hd : r'.destroy = .ok (res, rw)) :
    ∃ l, (rw.log = l ∨ ∃ rd, rw.log = l ++ [.destroy rd]) ∧ Phase.closed.run l = some .closed := by
  obtain ⟨_, _, _, a4, _, a6, _⟩ := reader_init_some hinit
  have hgen : ∀ (calls : List ROp) (r : Reader σ) (rs : List (Res × Option Bytes)), RInv r →
      r.run fuel calls = .ok (rs, r') → (∀ x ∈ calls.zip rs, Fine x.1 x.2) → RInv r' := by
    intro calls
    induction calls with
    | nil => intro r rs hi h _; cases h; exact hi
    | cons op rest ih =>
      intro r rs hi h hf
      obtain ⟨⟨res, d, r1⟩, g1, h⟩ := Exec.bind_eq_ok.1 h
      obtain ⟨⟨rs', r2⟩, g2, h⟩ := Exec.bind_eq_ok.1 h
      cases h
      refine ih r1 rs' (hi.step g1 (hf (op, (res, d)) (by simp))) g2 ?_
      intro x hx
      exact hf x (by simp [hx])
  have hi' := hgen calls r rs ⟨by omega, by rw [a4]; exact hcls, Or.inr (Or.inr (by rw [a4]; rfl))⟩
    hrun hfine
  have hdisc : Disc r'.rdwr := (by rw [a4]; exact Disc.init hcls : Disc r.rdwr).reach
    (reader_run_kept (by omega) hrun).reach
  unfold Reader.destroy at hd
  obtain ⟨⟨res, w2⟩, h1, hd⟩ := Exec.bind_eq_ok.1 hd
  obtain ⟨⟨res2, rw2⟩, h2, hd⟩ := Exec.bind_eq_ok.1 hd
  cases hd
  have hd2 : Disc w2.rdwr ∧ w2.rdwr.opened = false := by
    split at h1
    · rename_i hs
      obtain ⟨k, _, _, _, _, k6⟩ := reader_close_ok h1
      exact ⟨hdisc.reach k.reach, (k6 hs).2 hi'.2.1⟩
    · rename_i hs
      cases h1
      refine ⟨hdisc, ?_⟩
      rcases hi'.2.2 with h | h | h
      · exact absurd (Or.inl h) hs
      · exact absurd (Or.inr h) hs
      · exact h
  have hrun2 := hd2.1.2
  rw [hd2.2] at hrun2
  unfold Rdwr.destroy at h2
  split at h2
  · cases h2; exact ⟨_, Or.inl rfl, by simpa using hrun2⟩
  · obtain ⟨⟨res3, obj3⟩, _, h2⟩ := Exec.bind_eq_ok.1 h2
    cases h2
    exact ⟨_, Or.inr ⟨_, rfl⟩, by simpa using hrun2⟩

/-- A history of only fine outcomes that includes data, the end of input and STOP. -/
example : ((Reader.init none (Rdwr.init (pipeOps true false)
      ⟨CFrame.wire ⟨.start, []⟩ ++ Spec.dataFrame [1] ++ CFrame.wire ⟨.stop, []⟩, [], false⟩)).map
      fun r => (do
        let (rs, r) ← r.run 5 [.read, .read]
        let (_, rw) ← r.destroy
        Except.ok (rs.map (·.1), rs.map (·.2), rw.obj.isOpen) :
          Exec (List Res × List (Option Bytes) × Bool))) =
    some (.ok ([.success, .stop], [some [1], none], false)) := by decide +kernel

/-- **C29** is false for readers: after a malformed first frame the transport stays open, and
destroying the reader does not close it. -/
theorem reader_destroy_leaks :
    ((Reader.init none (Rdwr.init (pipeOps true false)
        ⟨[0, 0, 0, 1, 9, 9, 9, 9], [], false⟩)).map fun r => (do
      let (rs, r) ← r.run 5 [.opn, .close]
      let (_, rw) ← r.destroy
      Except.ok (rs.map (·.1), rw.obj.isOpen) : Exec (List Res × Bool))) =
    some (.ok ([.failure, .failure], true)) := by decide +kernel

/-! ### Empty data frames -/

/-- What a reader returns for the stream that a writer produces from `frames` with one `writev` and a
close, both on the concrete transport. -/
def throughPipe (frames : List Bytes) : Option (Exec (List Res × List (Option Bytes) × Option Res)) := do
  let w ← Writer.init none (Rdwr.init (pipeOps false true) ⟨[], [], false⟩)
  match w.run [.writev frames, .close] with
  | .error e => some (.error e)
  | .ok (rs, w') =>
    let r ← Reader.init none (Rdwr.init (pipeOps true false) ⟨w'.rdwr.obj.out, [], false⟩)
    some ((Reader.readLoop 10 10 r).map fun p => (rs, p.1, p.2.1))

/-- **C12** is false: an empty data frame is written as the escape sequence. The calls succeed, but
a reader of the stream loses the frames after it and fails, or, when it is the last
frame before STOP, runs into undefined behaviour. -/
theorem empty_frame_corrupts :
    throughPipe [[1], [], [2], [3]] =
      some (.ok ([.success, .success], [some [1]], some .failure)) ∧
    throughPipe [[1], []] = some (.error (.ub "zero length variable length array")) := by
  decide +kernel

end Fstrm.Props
