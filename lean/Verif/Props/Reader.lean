import Verif.Lemmas.ReaderSound
import Verif.Lemmas.Safe
import Verif.Props.Writer

/-!
# Properties of readers (C12, C17, C19-C26, C28, C29)
-/

set_option autoImplicit false

namespace Fstrm.Props

open Fstrm
open Fstrm.Spec (CType CFrame Item be32 wires datas contained compatible common received wrote
  ByteSource ByteSink Serves Phase WellBehaved Pipe pipeOps)

variable {σ : Type}

/-- The configuration of a reader created with the given options. -/
def optR (ropt : Option ReaderOptions) : ReaderOptions := ropt.getD ReaderOptions.init

theorem reader_init_some {ropt : Option ReaderOptions} {rw : Rdwr σ} {r : Reader σ}
    (h : Reader.init ropt rw = some r) :
    r.state = .opening ∧ r.cts = (optR ropt).cts ∧ r.maxFrameSize = (optR ropt).maxFrameSize ∧
      r.rdwr = rw ∧ rw.ops.rd ≠ none ∧ r.bufCap = 512 ∧ r.stop = none := by
  unfold Reader.init at h
  simp only at h
  split at h
  · cases h
  · rename_i hr
    cases h
    refine ⟨rfl, ?_, ?_, rfl, ?_, rfl, rfl⟩
    · cases ropt <;> rfl
    · cases ropt <;> rfl
    · intro h; rw [h] at hr; simp at hr

theorem serves_open {ops : Ops σ} {obj : σ} {rem : σ → Option Bytes} {eof : Res} {bs : Bytes}
    (h : Serves ops obj rem eof bs) :
    ∃ rw, (Rdwr.init ops obj).open = .ok (.success, rw) ∧ At rem eof rw bs ∧ rw.ops = ops := by
  obtain ⟨h1, f, s, h2, h3, h4⟩ := h
  refine ⟨⟨ops, s, true, [.opn .success]⟩, ?_, ⟨h1, rfl, h4⟩, rfl⟩
  unfold Rdwr.open Rdwr.init
  simp only [h2, h3, Exec.ok_bind, if_true, List.nil_append]

/-- The first read of an unopened reader opens it. -/
theorem readLoop_opens (fuel n : Nat) {r r1 : Reader σ} (hs : r.state = .opening)
    (ho : r.open = .ok (.success, r1)) (h1 : r1.state = .opened) :
    Reader.readLoop fuel (n+1) r = Reader.readLoop fuel (n+1) r1 := by
  have : r.read fuel = r1.read fuel := by
    unfold Reader.read Reader.maybeOpen
    rw [if_pos hs, if_neg (by rw [h1]; decide), ho]
  unfold Reader.readLoop
  rw [this]

theorem start_ok (ct : Option Bytes) (h : ∀ c, ct = some c → c.length ≤ 256) :
    CFrame.WF ⟨.start, ct.toList⟩ ∧ (CFrame.payload ⟨.start, ct.toList⟩).length ≤ 512 := by
  constructor
  · refine ⟨fun c hc => h c (by simpa using hc), fun m hm => ?_⟩
    cases hm
    cases ct <;> simp
  · cases ct with
    | none => decide +kernel
    | some c =>
      have := h c rfl
      simp [CFrame.payload, length_field]; omega

/-- Opening a unidirectional reader on a transport whose first frame is START. -/
theorem open_uni_at {ops : Ops σ} {obj : σ} {rem : σ → Option Bytes} {eof : Res}
    (ropt : Option ReaderOptions) (r : Reader σ) (ct : Option Bytes) (rest : Bytes)
    (hinit : Reader.init ropt (Rdwr.init ops obj) = some r)
    (hserves : Serves ops obj rem eof (CFrame.wire ⟨.start, ct.toList⟩ ++ rest))
    (huni : ops.wr = none) (hct : ∀ c, ct = some c → c.length ≤ 256) :
    ∃ r', At rem eof r'.rdwr rest ∧ r'.bufCap = 512 ∧ r'.stop = none ∧
      r'.maxFrameSize = (optR ropt).maxFrameSize ∧ r'.start = some ⟨2, ct.toList⟩ ∧
      r'.rdwr.ops = ops ∧
      (compatible (optR ropt).cts ct.toList → r'.state = .opened ∧ r.open = .ok (.success, r')) ∧
      (¬ compatible (optR ropt).cts ct.toList →
        r'.state = .opening ∧ r.open = .ok (.failure, r')) := by
  obtain ⟨h1, h2, h3, h4, h5, h6, h7⟩ := reader_init_some hinit
  obtain ⟨rw, o1, a1, o2⟩ := serves_open hserves
  obtain ⟨w1, w2⟩ := start_ok ct hct
  obtain ⟨r', b1, b2, b3, b4, b5, b6, b7⟩ := openUnidirectional_at (r := { r with rdwr := rw })
    a1 w1 w2 rfl
  have hs : r.state ≠ .opened := by rw [h1]; decide
  have ho : r.rdwr.open = .ok (.success, rw) := by rw [h4]; exact o1
  have hw : rw.ops.wr = none := by rw [o2]; exact huni
  refine ⟨r', b1, b2.cap.trans h6, b2.stop.trans h7, b2.max.trans h3, b3, b2.ops.trans o2, ?_, ?_⟩
  · intro hc
    rw [← h2] at hc
    obtain ⟨c1, c2⟩ := b6 hc
    refine ⟨c1, ?_⟩
    rw [open_of_uni hs ho hw c2, if_pos rfl, ← c1]
  · intro hc
    rw [← h2] at hc
    obtain ⟨c1, c2⟩ := b7 hc
    refine ⟨c1.trans h1, ?_⟩
    rw [open_of_uni hs ho hw c2, if_neg (by decide)]

/-- Truncated input: a reader on the first `k` bytes of a stream. -/
theorem readLoop_truncated {ops : Ops σ} {obj : σ} {rem : σ → Option Bytes} {eof : Res}
    (ropt : Option ReaderOptions) (r : Reader σ) (ct : Option Bytes) (items : List Item)
    (rest : Bytes) (k fuel n : Nat)
    (hinit : Reader.init ropt (Rdwr.init ops obj) = some r)
    (hserves : Serves ops obj rem eof
      ((CFrame.wire ⟨.start, ct.toList⟩ ++ (wires items ++ (CFrame.wire ⟨.stop, []⟩ ++ rest))).take k))
    (huni : ops.wr = none) (hct : ∀ c, ct = some c → c.length ≤ 256)
    (hcompat : compatible (optR ropt).cts ct.toList)
    (hitems : ∀ it ∈ items, it.Ok (optR ropt).maxFrameSize)
    (hfuel : items.length + 1 ≤ fuel) (hn : (datas items).length + 1 ≤ n) :
    ∃ last r', Reader.readLoop fuel n r =
        .ok ((contained (k - (CFrame.wire ⟨.start, ct.toList⟩).length) items).map some,
             some last, r') ∧
      ((CFrame.wire ⟨.start, ct.toList⟩).length + (wires items).length + 12 ≤ k →
        last = .stop ∧ r'.state = .closing ∧ r'.stop = some ⟨3, []⟩) ∧
      (k < (CFrame.wire ⟨.start, ct.toList⟩).length + (wires items).length + 12 →
        last = eof ∧ r'.stop = none) := by
  obtain ⟨n, rfl⟩ : ∃ m, n = m + 1 := ⟨n - 1, by omega⟩
  obtain ⟨w1, w2⟩ := start_ok ct hct
  by_cases hk : k < (CFrame.wire ⟨.start, ct.toList⟩).length
  · rw [List.take_append_of_le_length (by omega)] at hserves
    obtain ⟨h1, h2, h3, h4, h5, h6, h7⟩ := reader_init_some hinit
    obtain ⟨rw, o1, a1, o2⟩ := serves_open hserves
    obtain ⟨c', rw', e1, o3⟩ := readControl_short r.start T_START a1 w2 hk
    have hs : r.state ≠ .opened := by rw [h1]; decide
    have ho : r.rdwr.open = .ok (.success, rw) := by rw [h4]; exact o1
    have hw : rw.ops.wr = none := by rw [o2]; exact huni
    have hne := a1.src.eof_ne
    have hop : r.open = .ok (eof, { r with rdwr := rw', start := c' }) := by
      have : ({ r with rdwr := rw } : Reader σ).openUnidirectional =
          .ok (eof, { r with rdwr := rw', start := c' }) := by
        unfold Reader.openUnidirectional
        simp only
        rw [e1, Exec.ok_bind]
        simp [hne]
      rw [open_of_uni hs ho hw this, if_neg hne]
    have hread : r.read fuel = .ok (eof, none, { r with rdwr := rw', start := c' }) := by
      unfold Reader.read Reader.maybeOpen
      rw [if_pos h1, hop, Exec.ok_bind]
      simp [hne]
    refine ⟨eof, { r with rdwr := rw', start := c' }, ?_, fun h => by omega,
      fun _ => ⟨rfl, h7⟩⟩
    have hz : contained (k - (CFrame.wire ⟨.start, ct.toList⟩).length) items = [] := by
      rw [show k - (CFrame.wire ⟨.start, ct.toList⟩).length = 0 by omega]
      cases items with
      | nil => rfl
      | cons it _ => cases it <;> simp [contained]
    unfold Reader.readLoop
    rw [hread, Exec.ok_bind, hz]
    simp [hne]
  · rw [take_append_ge (by omega)] at hserves
    obtain ⟨r1, a1, b1, b2, b3, b4, b5, b6, _⟩ := open_uni_at ropt r ct _ hinit hserves huni hct
    obtain ⟨c1, c2⟩ := b6 hcompat
    have hl := contained_le (k - (CFrame.wire ⟨.start, ct.toList⟩).length) items
    obtain ⟨last, r', e1, e2, e3, e4⟩ := contLoop_items items
      (k - (CFrame.wire ⟨.start, ct.toList⟩).length) fuel fuel n rest r1 c1
      (by omega) (by rw [b3]; exact hitems) a1 hfuel hfuel (by omega)
    refine ⟨last, r', ?_, ?_, ?_⟩
    · rw [readLoop_opens fuel n (reader_init_some hinit).1 c2 c1, readLoop_opened fuel n c1, e1]
    · intro hk2
      obtain ⟨f1, f2, f3, _⟩ := e3 (by omega)
      exact ⟨f1, f2, f3⟩
    · intro hk2
      obtain ⟨f1, _, f3⟩ := e4 (by omega)
      exact ⟨f1, f3.trans b2⟩

theorem contained_all (items : List Item) (k : Nat) (h : (wires items).length ≤ k) :
    contained k items = datas items := by
  induction items generalizing k with
  | nil => rfl
  | cons it rest ih =>
    have hw : (wires (it :: rest)).length = it.wire.length + (wires rest).length := by simp [wires]
    cases it with
    | data d =>
      have hl : (Item.wire (.data d)).length = 4 + d.length := by
        simp [Item.wire, Spec.dataFrame, length_be32]
      rw [contained, if_pos (by omega), datas, ih _ (by omega)]
    | ctl f =>
      have hl : (Item.wire (.ctl f)).length = 8 + f.payload.length := length_item_ctl f
      rw [contained, if_pos (by omega), datas, ih _ (by omega)]

/-- **C17**. A reader on any transport that delivers a well-formed stream (START with a
compatible content type, any mixture of non-empty data frames up to the maximum
size and well-formed control frames other than STOP, then STOP, then anything)
returns exactly the data frames in order and byte-exact, then stop, and exposes the
STOP frame. `eof` is arbitrary. -/
theorem reader_reads_stream {ops : Ops σ} {obj : σ} {rem : σ → Option Bytes} {eof : Res}
    (ropt : Option ReaderOptions) (r : Reader σ) (ct : Option Bytes) (items : List Item)
    (rest : Bytes) (fuel n : Nat)
    (hinit : Reader.init ropt (Rdwr.init ops obj) = some r)
    (hserves : Serves ops obj rem eof
      (CFrame.wire ⟨.start, ct.toList⟩ ++ (wires items ++ (CFrame.wire ⟨.stop, []⟩ ++ rest))))
    (huni : ops.wr = none) (hct : ∀ c, ct = some c → c.length ≤ 256)
    (hcompat : compatible (optR ropt).cts ct.toList)
    (hitems : ∀ it ∈ items, it.Ok (optR ropt).maxFrameSize)
    (hfuel : items.length + 1 ≤ fuel) (hn : (datas items).length + 1 ≤ n) :
    ∃ r', Reader.readLoop fuel n r = .ok ((datas items).map some, some .stop, r') ∧
      r'.stop = some ⟨CType.stop.code, []⟩ := by
  have hl : (CFrame.wire ⟨.start, ct.toList⟩ ++
      (wires items ++ (CFrame.wire ⟨.stop, []⟩ ++ rest))).length =
      (CFrame.wire ⟨.start, ct.toList⟩).length + ((wires items).length + (12 + rest.length)) := by
    simp only [List.length_append]
    rfl
  obtain ⟨last, r', e1, e2, _⟩ := readLoop_truncated ropt r ct items rest
    (CFrame.wire ⟨.start, ct.toList⟩ ++ (wires items ++ (CFrame.wire ⟨.stop, []⟩ ++ rest))).length
    fuel n hinit (by rw [List.take_length]; exact hserves) huni hct hcompat hitems hfuel hn
  obtain ⟨rfl, _, h3⟩ := e2 (by omega)
  refine ⟨r', ?_, h3⟩
  rw [e1, contained_all _ _ (by omega)]

theorem pipe_serves (hasWr : Bool) (bs : Bytes) :
    Serves (pipeOps true hasWr) ⟨bs, [], false⟩ Pipe.left .stop bs :=
  ⟨pipe_source hasWr, _, _, rfl, rfl, rfl⟩

/-- A concrete instance: two data frames with a READY frame in between. -/
example : ∃ r, Reader.init (some ⟨[[9], [7]], 512⟩) (Rdwr.init (pipeOps true false)
      ⟨CFrame.wire ⟨.start, [[7]]⟩ ++ (wires [.data [1, 2], .ctl ⟨.ready, [[5]]⟩, .data [3]] ++
        (CFrame.wire ⟨.stop, []⟩ ++ [99])), [], false⟩) = some r ∧
    compatible [[9], [7]] [[7]] ∧
    (∀ it ∈ [Item.data [1, 2], .ctl ⟨.ready, [[5]]⟩, .data [3]], it.Ok 512) ∧
    (Reader.readLoop 10 10 r).map (fun p => (p.1, p.2.1)) =
      .ok ([some [1, 2], some [3]], some .stop) := by
  refine ⟨_, rfl, Or.inr (Or.inr ⟨[7], by simp⟩), ?_, by decide +kernel⟩
  simp [Item.Ok, CFrame.WF, CFrame.payload, CType.maxCts, Spec.field, length_be32]

/-- **C19**. If a stream is cut after an arbitrary number `k` of bytes, the reader delivers exactly
the data frames wholly contained in what remains, unchanged and in order, and then
something other than success. -/
theorem reader_truncated {ops : Ops σ} {obj : σ} {rem : σ → Option Bytes} {eof : Res}
    (ropt : Option ReaderOptions) (r : Reader σ) (ct : Option Bytes) (items : List Item)
    (k fuel n : Nat)
    (hinit : Reader.init ropt (Rdwr.init ops obj) = some r)
    (hserves : Serves ops obj rem eof
      ((CFrame.wire ⟨.start, ct.toList⟩ ++ (wires items ++ CFrame.wire ⟨.stop, []⟩)).take k))
    (huni : ops.wr = none) (hct : ∀ c, ct = some c → c.length ≤ 256)
    (hcompat : compatible (optR ropt).cts ct.toList)
    (hitems : ∀ it ∈ items, it.Ok (optR ropt).maxFrameSize)
    (hfuel : items.length + 1 ≤ fuel) (hn : (datas items).length + 1 ≤ n) :
    ∃ last r', Reader.readLoop fuel n r =
        .ok ((contained (k - (CFrame.wire ⟨.start, ct.toList⟩).length) items).map some,
             some last, r') ∧ last ≠ .success ∧
        contained (k - (CFrame.wire ⟨.start, ct.toList⟩).length) items <+: datas items := by
  obtain ⟨last, r', e1, e2, e3⟩ := readLoop_truncated ropt r ct items [] k fuel n hinit
    (by simpa using hserves) huni hct hcompat hitems hfuel hn
  refine ⟨last, r', e1, ?_, ?_⟩
  · rcases Nat.lt_or_ge k ((CFrame.wire ⟨.start, ct.toList⟩).length + (wires items).length + 12) with h | h
    · rw [(e3 h).1]; exact hserves.1.eof_ne
    · rw [(e2 h).1]; decide
  · clear e1 e2 e3 hserves hitems hfuel hn
    generalize k - (CFrame.wire ⟨.start, ct.toList⟩).length = j
    induction items generalizing j with
    | nil => exact List.prefix_refl _
    | cons it rest ih =>
      cases it with
      | data d =>
        rw [contained]
        split
        · exact List.prefix_cons_inj d |>.2 (ih _)
        · exact List.nil_prefix
      | ctl f =>
        rw [contained]
        split
        · exact ih _
        · exact List.nil_prefix

/-- Cutting the stream of the previous example inside the second data frame. -/
example : (Reader.init none (Rdwr.init (pipeOps true false)
      ⟨(CFrame.wire ⟨.start, [[7]]⟩ ++ (wires [.data [1, 2], .data [3, 4]] ++
        CFrame.wire ⟨.stop, []⟩)).take 32, [], false⟩)).map
      (fun r => (Reader.readLoop 10 10 r).map (fun p => (p.1, p.2.1))) =
    some (.ok ([some [1, 2]], some .stop)) ∧
    contained (32 - (CFrame.wire ⟨.start, [[7]]⟩).length) [.data [1, 2], .data [3, 4]] = [[1, 2]] := by
  decide +kernel

/-- **C20** is false: over a transport that reports the end of its input as stop, as the file
transport does (file.c:100-103), *every* truncation of a stream is reported exactly
like a clean end. -/
theorem truncation_looks_clean {ops : Ops σ} {obj : σ} {rem : σ → Option Bytes}
    (ropt : Option ReaderOptions) (r : Reader σ) (ct : Option Bytes) (items : List Item)
    (k fuel n : Nat)
    (hinit : Reader.init ropt (Rdwr.init ops obj) = some r)
    (hserves : Serves ops obj rem .stop
      ((CFrame.wire ⟨.start, ct.toList⟩ ++ (wires items ++ CFrame.wire ⟨.stop, []⟩)).take k))
    (huni : ops.wr = none) (hct : ∀ c, ct = some c → c.length ≤ 256)
    (hcompat : compatible (optR ropt).cts ct.toList)
    (hitems : ∀ it ∈ items, it.Ok (optR ropt).maxFrameSize)
    (hfuel : items.length + 1 ≤ fuel) (hn : (datas items).length + 1 ≤ n) :
    ∃ ds r', Reader.readLoop fuel n r = .ok (ds, some .stop, r') ∧
      (k < (CFrame.wire ⟨.start, ct.toList⟩).length + (wires items).length + 12 →
        r'.stop = none) := by
  obtain ⟨last, r', e1, e2, e3⟩ := readLoop_truncated ropt r ct items [] k fuel n hinit
    (by simpa using hserves) huni hct hcompat hitems hfuel hn
  rcases Nat.lt_or_ge k ((CFrame.wire ⟨.start, ct.toList⟩).length + (wires items).length + 12) with h | h
  · obtain ⟨rfl, h2⟩ := e3 h
    exact ⟨_, r', e1, fun _ => h2⟩
  · obtain ⟨rfl, _⟩ := e2 h
    exact ⟨_, r', e1, fun h' => by omega⟩

/-- **C20**, `_partial`: on every transport and in every state other than closed, a read
reports stop only if a STOP frame was just received or some transport callback itself
reported stop. Missing: transports that report stop at the end of input. -/
theorem stop_means_stop_partial (fuel : Nat) (r r' : Reader σ) (d : Option Bytes)
    (hcap : 1 ≤ r.bufCap) (hs : r.state ≠ .closed)
    (h : r.read fuel = .ok (.stop, d, r')) :
    (∃ pre, received r'.rdwr.log = pre ++ CFrame.wire ⟨.stop, []⟩) ∨
    Ev.opn .stop ∈ r'.rdwr.log ∨ (∃ n bs, Ev.rd n .stop bs ∈ r'.rdwr.log) ∨
    (∃ iov, Ev.wr iov .stop ∈ r'.rdwr.log) := by
  obtain ⟨res1, r1, h1, h⟩ := reader_read_cases h
  have k1 := reader_maybeOpen_kept h1
  rcases h with ⟨hne, rfl, _, rfl⟩ | ⟨_, _, h⟩ | ⟨_, hc, _, _, _⟩ | ⟨_, _, _, hf, _⟩
  · rcases reader_maybeOpen_cases h1 with ⟨_, h2, _⟩ | ⟨_, h2⟩
    · cases h2
    · obtain ⟨_, _, _, _, h3, _⟩ := reader_open_ok h2
      rcases (h3 hne).2 with h3 | h3
      · cases h3
      · exact Or.inr h3.1
  · obtain ⟨sk, _, hn, _, _⟩ := nextData_next fuel (Nat.le_trans hcap k1.cap) h
    cases hn with
    | stop _ _ _ _ hrec =>
      left
      refine ⟨received r1.rdwr.log ++ wires (sk.map .ctl), ?_⟩
      rw [hrec, List.append_assoc]
    | fails _ _ _ _ hf =>
      rcases hf with hf | hf
      · cases hf
      · exact Or.inr (Or.inr (Or.inl hf.1))
  · exfalso
    rcases reader_maybeOpen_cases h1 with ⟨_, _, rfl⟩ | ⟨_, h2⟩
    · exact hs hc
    · have := (reader_open_ok h2).2.2.2.1 (by assumption)
      rw [this.2.1] at hc; cases hc
  · cases hf

/-- A read that reports stop after a real STOP frame. -/
example : ((Reader.init none (Rdwr.init (pipeOps true false)
      ⟨CFrame.wire ⟨.start, []⟩ ++ CFrame.wire ⟨.stop, []⟩, [], false⟩)).map
      (fun r => (r.read 5).map (fun p => (p.1, p.2.2.state)))) =
    some (.ok (.stop, .closing)) := by decide +kernel

/-- **C21** is false: a data frame longer than the maximum makes `read` report *success*
without setting the data pointer; only the following reads fail. This holds for every
maximum and every excessive length. -/
theorem oversize_reports_success {ops : Ops σ} {obj : σ} {rem : σ → Option Bytes} {eof : Res}
    (ropt : Option ReaderOptions) (r : Reader σ) (ct : Option Bytes) (n fuel : Nat) (rest : Bytes)
    (hinit : Reader.init ropt (Rdwr.init ops obj) = some r)
    (hserves : Serves ops obj rem eof (CFrame.wire ⟨.start, ct.toList⟩ ++ (be32 n ++ rest)))
    (huni : ops.wr = none) (hct : ∀ c, ct = some c → c.length ≤ 256)
    (hcompat : compatible (optR ropt).cts ct.toList)
    (hn : (optR ropt).maxFrameSize < n) (hn2 : n < 2^32) :
    ∃ r', r.run (fuel+1) [.read, .read] = .ok ([(.success, none), (.failure, none)], r') := by
  obtain ⟨r1, a1, b1, b2, b3, b4, b5, b6, _⟩ := open_uni_at ropt r ct _ hinit hserves huni hct
  obtain ⟨c1, c2⟩ := b6 hcompat
  obtain ⟨rw, e1, a2, o1⟩ := readBe32_at a1 hn2
  have hread : r.read (fuel+1) = .ok (.success, none, { r1 with rdwr := rw, state := .failed }) := by
    unfold Reader.read Reader.maybeOpen
    rw [if_pos (reader_init_some hinit).1, c2, Exec.ok_bind]
    simp only [ne_eq, not_true_eq_false, if_false, c1, if_true]
    unfold Reader.nextData
    rw [e1, Exec.ok_bind]
    simp only [ne_eq, not_true_eq_false, if_false]
    rw [if_pos (by omega)]
    unfold Reader.dataFrame
    rw [if_pos (by simp only; omega)]
  refine ⟨{ r1 with rdwr := rw, state := .failed }, ?_⟩
  simp only [Reader.run, Reader.step, hread, Exec.ok_bind]
  unfold Reader.read Reader.maybeOpen
  simp [Exec.ok_bind]

example : ∃ r, Reader.init (some ⟨[], 512⟩) (Rdwr.init (pipeOps true false)
      ⟨CFrame.wire ⟨.start, ([9] : Bytes) :: []⟩ ++ (be32 513 ++ [1, 2]), [], false⟩) = some r ∧
    Serves (pipeOps true false) ⟨CFrame.wire ⟨.start, [[9]]⟩ ++ (be32 513 ++ [1, 2]), [], false⟩
      Pipe.left .stop (CFrame.wire ⟨.start, [[9]]⟩ ++ (be32 513 ++ [1, 2])) :=
  ⟨_, rfl, pipe_serves false _⟩

/-- **C21**, `_partial`: an oversized frame is at least never delivered: whatever the
transport does, a successful read sets the data pointer to a frame of at most the
maximum size, or (oversized frame) does not set it at all and the reader fails from
then on. -/
theorem oversize_never_delivered_partial (fuel : Nat) (r r' : Reader σ) (d : Option Bytes)
    (hcap : 1 ≤ r.bufCap) (h : r.read fuel = .ok (.success, d, r')) :
    (∃ b, d = some b ∧ 1 ≤ b.length ∧ b.length ≤ r.maxFrameSize) ∨
    (d = none ∧ r'.state = .failed ∧
      ∃ pre n, r.maxFrameSize < n ∧ received r'.rdwr.log = pre ++ be32 n) := by
  obtain ⟨res1, r1, h1, h⟩ := reader_read_cases h
  have k1 := reader_maybeOpen_kept h1
  rcases h with ⟨hne, h, _, _⟩ | ⟨_, _, h⟩ | ⟨_, _, h, _, _⟩ | ⟨_, _, _, hf, _⟩
  · exact absurd h.symm hne
  · obtain ⟨sk, _, hn, _, _⟩ := nextData_next fuel (Nat.le_trans hcap k1.cap) h
    cases hn with
    | data b _ hb1 hb2 => exact Or.inl ⟨b, rfl, hb1, by rw [← k1.max]; exact hb2⟩
    | oversize n _ hn1 _ hst _ hrec =>
      refine Or.inr ⟨rfl, hst, received r1.rdwr.log ++ wires (sk.map .ctl), n,
        by rw [← k1.max]; exact hn1, ?_⟩
      rw [hrec, List.append_assoc]
    | fails _ _ hne => exact absurd rfl hne
  · cases h
  · cases hf

/-! ### Soundness on arbitrary transports -/

/-- The frames delivered by a sequence of calls. -/
def delivered (rs : List (Res × Option Bytes)) : List Bytes := rs.filterMap (·.2)

/-- **C22**. On every transport and for every history of calls, each delivered frame has
between 1 and `max_frame_size` bytes and is a contiguous slice of the received bytes,
preceded by its big endian length; the frame buffer never grows beyond
`max(512, 2 * max_frame_size)`. (That reads stay inside that buffer is part of
`reader_safe_partial`.) -/
theorem delivered_are_slices (ops : Ops σ) (obj : σ) (ropt : Option ReaderOptions)
    (r r' : Reader σ) (fuel : Nat) (calls : List ROp) (rs : List (Res × Option Bytes))
    (hinit : Reader.init ropt (Rdwr.init ops obj) = some r)
    (hrun : r.run fuel calls = .ok (rs, r')) :
    (∀ b ∈ delivered rs, 1 ≤ b.length ∧ b.length ≤ (optR ropt).maxFrameSize ∧
      (be32 b.length ++ b) <:+: received r'.rdwr.log) ∧
    r'.bufCap ≤ max 512 (2 * (optR ropt).maxFrameSize) := by
  obtain ⟨h1, h2, h3, h4, h5, h6, h7⟩ := reader_init_some hinit
  have hk := reader_run_kept (by omega) hrun
  constructor
  · have hgen : ∀ (calls : List ROp) (r : Reader σ) (rs : List (Res × Option Bytes)), 1 ≤ r.bufCap →
        r.run fuel calls = .ok (rs, r') → (∃ more, received r'.rdwr.log = received r.rdwr.log ++ more) ∧
        ∀ b ∈ delivered rs, 1 ≤ b.length ∧ b.length ≤ r.maxFrameSize ∧
          (be32 b.length ++ b) <:+: received r'.rdwr.log := by
      intro calls
      induction calls with
      | nil => intro r rs _ h; cases h; exact ⟨⟨[], by simp⟩, by simp [delivered]⟩
      | cons op rest ih =>
        intro r rs hcap h
        obtain ⟨⟨res, d, r1⟩, g1, h⟩ := Exec.bind_eq_ok.1 h
        obtain ⟨⟨rs', r2⟩, g2, h⟩ := Exec.bind_eq_ok.1 h
        cases h
        have k := reader_step_kept hcap g1
        obtain ⟨⟨more, m1⟩, m2⟩ := ih r1 rs' (Nat.le_trans hcap k.cap) g2
        have hmono : ∃ m, received r1.rdwr.log = received r.rdwr.log ++ m :=
          k.reach.received
        obtain ⟨m, hm⟩ := hmono
        refine ⟨⟨m ++ more, by rw [m1, hm, List.append_assoc]⟩, ?_⟩
        intro b hb
        unfold delivered at hb
        rw [List.filterMap_cons] at hb
        have hrest : b ∈ delivered rs' → 1 ≤ b.length ∧ b.length ≤ r.maxFrameSize ∧
            (be32 b.length ++ b) <:+: received r'.rdwr.log := by
          intro hb; rw [← k.max]; exact m2 b hb
        cases d with
        | none => exact hrest hb
        | some b' =>
          simp only [List.mem_cons] at hb
          rcases hb with hb | hb
          · subst hb
            cases op with
            | opn =>
              obtain ⟨⟨res1, r1⟩, _, h⟩ := Exec.bind_eq_ok.1 g1
              cases h
            | getControl t =>
              obtain ⟨⟨res1, c, r1⟩, _, h⟩ := Exec.bind_eq_ok.1 g1
              cases h
            | close =>
              obtain ⟨⟨res1, r1⟩, _, h⟩ := Exec.bind_eq_ok.1 g1
              cases h
            | read =>
              have g1 : r.read fuel = .ok (res, some b, r1) := g1
              obtain ⟨res0, r0, e1, e⟩ := reader_read_cases g1
              have k0 := reader_maybeOpen_kept e1
              rcases e with ⟨_, _, e, _⟩ | ⟨_, _, e⟩ | ⟨_, _, _, e, _⟩ | ⟨_, _, _, _, e, _⟩
              · cases e
              · obtain ⟨sk, _, hn, _, _⟩ := nextData_next fuel (Nat.le_trans hcap k0.cap) e
                cases hn with
                | data _ _ hb1 hb2 _ _ _ _ _ hrec =>
                  refine ⟨hb1, by rw [← k0.max]; exact hb2, ?_⟩
                  refine ⟨received r0.rdwr.log ++ wires (sk.map .ctl), more, ?_⟩
                  rw [m1, hrec]
                  simp only [Spec.dataFrame, List.append_assoc]
              · cases e
              · cases e
          · exact hrest hb
    intro b hb
    have := (hgen calls r rs (by omega) hrun).2 b hb
    rw [h3] at this
    exact this
  · have := hk.cap'
    rw [h6, h3] at this
    exact this

/-- **C22**, exactness: on every transport, what consecutive reads deliver after a
successful open is exactly the data frames of the received bytes, in order, with
only well-formed control frames in between. -/
theorem reads_parse_received (fuel n : Nat) (r r' : Reader σ) (rs : List (Res × Option Bytes))
    (hcap : 1 ≤ r.bufCap) (hst : r.state ≠ .opening)
    (hrun : r.run fuel (List.replicate n .read) = .ok (rs, r')) :
    ∃ items more, (∀ it ∈ items, it.Ok r.maxFrameSize ∨ it = .ctl ⟨.stop, []⟩) ∧
      datas items = delivered rs ∧
      received r'.rdwr.log = received r.rdwr.log ++ (wires items ++ more) := by
  induction n generalizing r rs with
  | zero => cases hrun; exact ⟨[], [], by simp, rfl, by simp [wires]⟩
  | succ n ih =>
    rw [List.replicate_succ] at hrun
    obtain ⟨⟨res, d, r1⟩, g1, h⟩ := Exec.bind_eq_ok.1 hrun
    obtain ⟨⟨rs', r2⟩, g2, h⟩ := Exec.bind_eq_ok.1 h
    cases h
    have k := reader_step_kept hcap g1
    have g1 : r.read fuel = .ok (res, d, r1) := g1
    have hm : r.maybeOpen = .ok (.success, r) := by
      unfold Reader.maybeOpen; rw [if_neg hst]
    obtain ⟨res0, r0, e1, e⟩ := reader_read_cases g1
    rw [hm] at e1
    cases e1
    have stuck : ∀ (m : Nat) (q q' : Reader σ) (rs : List (Res × Option Bytes)), q.state ≠ .opening → q.state ≠ .opened →
        q.run fuel (List.replicate m .read) = .ok (rs, q') → delivered rs = [] ∧ q' = q := by
      intro m
      induction m with
      | zero => intro q q' rs _ _ h; cases h; exact ⟨rfl, rfl⟩
      | succ m ihm =>
        intro q q' rs hq1 hq2 h
        rw [List.replicate_succ] at h
        obtain ⟨⟨res, d, q1⟩, g1, h⟩ := Exec.bind_eq_ok.1 h
        obtain ⟨⟨rs', q2⟩, g2, h⟩ := Exec.bind_eq_ok.1 h
        cases h
        obtain ⟨res0, q0, e1, e⟩ := reader_read_cases (show q.read fuel = _ from g1)
        rw [show q.maybeOpen = .ok (.success, q) by unfold Reader.maybeOpen; rw [if_neg hq1]] at e1
        cases e1
        rcases e with ⟨e, _⟩ | ⟨_, e, _⟩ | ⟨_, _, _, rfl, rfl⟩ | ⟨_, _, _, _, rfl, rfl⟩
        · exact absurd rfl e
        · exact absurd e hq2
        · exact ihm _ _ rs' hq1 hq2 g2
        · exact ihm _ _ rs' hq1 hq2 g2
    rcases e with ⟨e, _⟩ | ⟨_, _, e⟩ | ⟨_, he, _, rfl, rfl⟩ | ⟨_, he1, he2, _, rfl, rfl⟩
    · exact absurd rfl e
    · obtain ⟨sk, hsk, hn, _, _⟩ := nextData_next fuel hcap e
      have hskok : ∀ it ∈ sk.map Item.ctl, it.Ok r.maxFrameSize ∨ it = .ctl ⟨.stop, []⟩ := by
        intro it hit
        obtain ⟨f, hf, rfl⟩ := List.mem_map.1 hit
        exact Or.inl (hsk f hf)
      have hskd : datas (sk.map .ctl) = [] := by
        clear hsk hn hskok
        induction sk with
        | nil => rfl
        | cons f sk ih => exact ih
      have happ : ∀ a b : List Item, datas (a ++ b) = datas a ++ datas b := by
        intro a b
        induction a with
        | nil => rfl
        | cons it a ih => cases it <;> simp [datas, ih]
      cases hn with
      | data b _ hb1 hb2 h32 _ hst' _ _ hrec =>
        obtain ⟨items, more, i1, i2, i3⟩ := ih r1 rs' (Nat.le_trans hcap k.cap)
          (by rw [hst']; exact hst) g2
        refine ⟨sk.map .ctl ++ .data b :: items, more, ?_, ?_, ?_⟩
        · intro it hit
          rcases List.mem_append.1 hit with hit | hit
          · exact hskok it hit
          · rcases List.mem_cons.1 hit with rfl | hit
            · exact Or.inl ⟨hb1, hb2, h32⟩
            · rw [← k.max]; exact i1 it hit
        · rw [happ, hskd]
          simp only [datas, List.nil_append, i2]
          rfl
        · rw [i3, hrec]
          simp [wires, Item.wire]
      | oversize m _ _ _ hst' _ hrec =>
        obtain ⟨d1, rfl⟩ := stuck n r1 r' rs' (by rw [hst']; decide) (by rw [hst']; decide) g2
        exact ⟨sk.map .ctl, be32 m, hskok, hskd.trans d1.symm, hrec⟩
      | stop _ hst' _ _ hrec =>
        obtain ⟨d1, rfl⟩ := stuck n r1 r' rs' (by rw [hst']; decide) (by rw [hst']; decide) g2
        refine ⟨sk.map .ctl ++ [.ctl ⟨.stop, []⟩], [], ?_, ?_, ?_⟩
        · intro it hit
          rcases List.mem_append.1 hit with hit | hit
          · exact hskok it hit
          · exact Or.inr (by simpa using hit)
        · rw [happ, hskd]; exact d1.symm
        · rw [hrec]; simp [wires, Item.wire]
      | fails _ _ _ hst' _ =>
        obtain ⟨d1, rfl⟩ := stuck n r1 r' rs' (by rw [hst']; decide) (by rw [hst']; decide) g2
        obtain ⟨more, hmore⟩ := k.reach.received
        exact ⟨[], more, by simp, d1.symm, by simpa [wires] using hmore⟩
    · obtain ⟨d1, rfl⟩ := stuck n r1 r' rs' hst (by rw [he]; decide) g2
      exact ⟨[], [], by simp, d1.symm, by simp [wires]⟩
    · obtain ⟨d1, rfl⟩ := stuck n r1 r' rs' hst he1 g2
      exact ⟨[], [], by simp, d1.symm, by simp [wires]⟩

end Fstrm.Props
