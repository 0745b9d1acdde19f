import Verif.Lemmas.IothrInv

/-!
# Invariants of the I/O thread model: calls on the writer, limits, losslessness
-/

set_option autoImplicit false

namespace Fstrm

theorem wrun_snoc {σ : Type} {w w1 w2 : Writer σ} {ops : List WOp} {rs : List Res} {op : WOp} {r : Res}
    (h1 : w.run ops = .ok (rs, w1)) (h2 : w1.step op = .ok (r, w2)) :
    w.run (ops ++ [op]) = .ok (rs ++ [r], w2) := by
  induction ops generalizing w rs with
  | nil =>
    cases h1
    simp only [List.nil_append, Writer.run, h2, Exec.ok_bind]
  | cons o ops ih =>
    obtain ⟨⟨r', w'⟩, h3, h1⟩ := Exec.bind_eq_ok.1 h1
    obtain ⟨⟨rs', w''⟩, h4, h1⟩ := Exec.bind_eq_ok.1 h1
    cases h1
    simp only [List.cons_append, Writer.run, h3, Exec.ok_bind, ih h4]

theorem framedSize_append (a b : List Entry) : framedSize (a ++ b) = framedSize a + framedSize b := by
  simp [framedSize]

namespace Iothr

variable {σ : Type}

theorem Tr.log {s s' : Iothr σ} (t : Tr s s') : ∃ x, s'.log = s.log ++ x := by
  cases t <;> first | exact ⟨_, List.append_assoc _ _ _⟩ | exact ⟨_, rfl⟩ | exact ⟨[], (List.append_nil _).symm⟩

theorem Trs.log {s s' : Iothr σ} (t : Trs s s') : ∃ x, s'.log = s.log ++ x := by
  induction t with
  | refl => exact ⟨[], by simp⟩
  | snoc _ t ih =>
    obtain ⟨x, hx⟩ := ih
    obtain ⟨y, hy⟩ := t.log
    exact ⟨x ++ y, by rw [hy, hx, List.append_assoc]⟩

/-- No attempt to open an open output. -/
def OpnClosed (before : List IoEv) : IoEv → Prop
  | .opn _ _ => outputOpen false before = false
  | _ => True

/-- The writer is in the state its log of calls leads to, etc. -/
structure InvC (w0 : Writer σ) (opt : IothrOptions) (s : Iothr σ) : Prop where
  opts : s.opt = opt
  opn : s.opened = outputOpen false s.log
  att : (attempts s.log).Pairwise fun a b => a + opt.reopenInterval ≤ b
  last : ∀ a ∈ attempts s.log, a ≤ s.lastOpen
  first : ∀ a ∈ attempts s.log, opt.reopenInterval ≤ a
  closed : Each OpnClosed s.log
  got : ∃ k, gotQueues s.log = (List.range s.getIdx).map some ++ List.replicate k none ∧
    s.getIdx ≤ opt.numInputQueues ∧ (k ≠ 0 → s.getIdx = opt.numInputQueues)
  writer : ∃ w, w0.run ((calls s.log).map Prod.fst) = .ok ((calls s.log).map Prod.snd, w) ∧
    (s.destroyed = false → s.writer = w) ∧
    (s.destroyed = true → ∃ r rdwr, w.destroy = .ok (r, rdwr) ∧ s.writer.rdwr = rdwr)
  alive : s.destroyed = true → s.pc = .exited
  lim : s.outq.length ≤ opt.outputQueueSize

theorem InvC.init (opt : IothrOptions) (w0 : Writer σ) :
    InvC w0 (Iothr.init opt w0).opt (Iothr.init opt w0) := by
  refine ⟨rfl, rfl, by simp [Iothr.init, attempts], by simp [Iothr.init, attempts],
    by simp [Iothr.init, attempts], ?_, ⟨0, ?_⟩, ⟨w0, rfl, fun _ => rfl, nofun⟩, nofun, ?_⟩
  · intro l e rest h; simp [Iothr.init] at h
  · simp [Iothr.init, gotQueues]
  · simp [Iothr.init]

theorem each_opn_frees {a : List IoEv} (es : List Entry) (h : Each OpnClosed a) :
    Each OpnClosed (a ++ freeEvs es) := by
  refine each_append h ?_
  intro l e rest he
  have : e ∈ freeEvs es := by rw [he]; simp
  obtain ⟨e', _, _, rfl⟩ := mem_freeEvs this
  trivial

set_option maxHeartbeats 1000000 in
theorem InvC.tr {w0 : Writer σ} {opt : IothrOptions} {s s' : Iothr σ} (h : InvC w0 opt s) (t : Tr s s') :
    InvC w0 opt s' := by
  have ho := h.opts
  cases t with
  | refused r hd =>
    refine { h with opn := ?_, att := ?_, last := ?_, first := ?_, closed := ?_, got := ?_, writer := ?_ } <;>
      simp only [outputOpen_append, outputOpen, attempts_append, attempts, gotQueues_append, gotQueues,
        calls_append, calls, List.append_nil]
    · exact h.opn
    · exact h.att
    · exact h.last
    · exact h.first
    · exact each_single h.closed trivial
    · exact h.got
    · exact h.writer
  | began => exact { h with }
  | full =>
    refine { h with opn := ?_, att := ?_, last := ?_, first := ?_, closed := ?_, got := ?_, writer := ?_ } <;>
      simp only [outputOpen_append, outputOpen, attempts_append, attempts, gotQueues_append, gotQueues,
        calls_append, calls, List.append_nil]
    · exact h.opn
    · exact h.att
    · exact h.last
    · exact h.first
    · exact each_single h.closed trivial
    · exact h.got
    · exact h.writer
  | lost => exact { h with }
  | inserted t e q wk sig hd hp hq hl hsig =>
    have hsg : attempts sig = [] ∧ gotQueues sig = [] ∧ calls sig = [] ∧ ∀ b, outputOpen b sig = b := by
      rcases hsig with rfl | rfl <;> exact ⟨rfl, rfl, rfl, fun _ => rfl⟩
    refine { h with opn := ?_, att := ?_, last := ?_, first := ?_, closed := ?_, got := ?_, writer := ?_ } <;>
      simp only [outputOpen_append, outputOpen, attempts_append, attempts, gotQueues_append, gotQueues,
        calls_append, calls, List.append_nil, hsg]
    · exact h.opn
    · exact h.att
    · exact h.last
    · exact h.first
    · have h1 := each_single (x := .submitted e) h.closed trivial
      rcases hsig with rfl | rfl
      · simpa using h1
      · exact each_single h1 trivial
    · exact h.got
    · exact h.writer
  | signalled =>
    refine { h with opn := ?_, att := ?_, last := ?_, first := ?_, closed := ?_, got := ?_, writer := ?_ } <;>
      simp only [outputOpen_append, outputOpen, attempts_append, attempts, gotQueues_append, gotQueues,
        calls_append, calls, List.append_nil]
    · exact h.opn
    · exact h.att
    · exact h.last
    · exact h.first
    · exact each_single h.closed trivial
    · exact h.got
    · exact h.writer
  | gotSome hg =>
    refine { h with opn := ?_, att := ?_, last := ?_, first := ?_, closed := ?_, got := ?_, writer := ?_ } <;>
      simp only [outputOpen_append, outputOpen, attempts_append, attempts, gotQueues_append, gotQueues,
        calls_append, calls, List.append_nil]
    · exact h.opn
    · exact h.att
    · exact h.last
    · exact h.first
    · exact each_single h.closed trivial
    · obtain ⟨k, h1, h2, h3⟩ := h.got
      rw [ho] at hg
      have hk : k = 0 := by
        by_cases hk : k = 0
        · exact hk
        · have := h3 hk; omega
      subst hk
      refine ⟨0, ?_, by omega, by simp⟩
      rw [h1, List.range_succ]; simp
    · exact h.writer
  | gotNone hg =>
    refine { h with opn := ?_, att := ?_, last := ?_, first := ?_, closed := ?_, got := ?_, writer := ?_ } <;>
      simp only [outputOpen_append, outputOpen, attempts_append, attempts, gotQueues_append, gotQueues,
        calls_append, calls, List.append_nil]
    · exact h.opn
    · exact h.att
    · exact h.last
    · exact h.first
    · exact each_single h.closed trivial
    · obtain ⟨k, h1, h2, h3⟩ := h.got
      rw [ho] at hg
      refine ⟨k + 1, ?_, by omega, by omega⟩
      rw [h1, List.append_assoc, List.replicate_succ']
    · exact h.writer
  | shut wk hs =>
    refine { h with opn := ?_, att := ?_, last := ?_, first := ?_, closed := ?_, got := ?_, writer := ?_ } <;>
      simp only [outputOpen_append, outputOpen, attempts_append, attempts, gotQueues_append, gotQueues,
        calls_append, calls, List.append_nil]
    · exact h.opn
    · exact h.att
    · exact h.last
    · exact h.first
    · exact each_single h.closed trivial
    · exact h.got
    · exact h.writer
  | opn now r w hp hop hi hw =>
    have hd : s.destroyed = false := by
      cases hdd : s.destroyed with
      | false => rfl
      | true =>
        have := h.alive hdd
        rcases hp with hp | hp <;> rw [hp] at this <;> cases this
    refine { h with opn := ?_, att := ?_, last := ?_, first := ?_, closed := ?_, got := ?_, writer := ?_ } <;>
      simp only [outputOpen_append, outputOpen, attempts_append, attempts, gotQueues_append, gotQueues,
        calls_append, calls, List.append_nil]
    · rw [List.pairwise_append]
      refine ⟨h.att, by simp, ?_⟩
      intro a ha b hb
      simp only [List.mem_singleton] at hb
      subst hb
      have := h.last a ha
      rw [ho] at hi
      omega
    · intro a ha
      rw [List.mem_append] at ha
      rcases ha with ha | ha
      · have := h.last a ha; omega
      · simp only [List.mem_singleton] at ha; omega
    · intro a ha
      rw [List.mem_append] at ha
      rcases ha with ha | ha
      · exact h.first a ha
      · simp only [List.mem_singleton] at ha
        rw [ho] at hi; omega
    · refine each_single h.closed ?_
      show outputOpen false s.log = false
      rw [← h.opn, hop]
    · exact h.got
    · obtain ⟨w1, h1, h2, _⟩ := h.writer
      refine ⟨w, ?_, fun _ => rfl, fun hdd => by rw [hd] at hdd; cases hdd⟩
      simp only [List.map_append, List.map_cons, List.map_nil]
      exact wrun_snoc h1 (by rw [← h2 hd]; exact hw)
  | cls i r w hp hi hq hop hw =>
    have hd : s.destroyed = false := by
      cases hdd : s.destroyed with
      | false => rfl
      | true =>
        have := h.alive hdd
        rw [hp] at this; cases this
    refine { h with opn := ?_, att := ?_, last := ?_, first := ?_, closed := ?_, got := ?_, writer := ?_ } <;>
      simp only [outputOpen_append, outputOpen, attempts_append, attempts, gotQueues_append, gotQueues,
        calls_append, calls, List.append_nil]
    · exact h.att
    · exact h.last
    · exact h.first
    · exact each_single h.closed trivial
    · exact h.got
    · obtain ⟨w1, h1, h2, _⟩ := h.writer
      refine ⟨w, ?_, fun _ => rfl, fun hdd => by rw [hd] at hdd; cases hdd⟩
      simp only [List.map_append, List.map_cons, List.map_nil]
      exact wrun_snoc h1 (by rw [← h2 hd]; exact hw)
  | flushOk w hp hp' hop hne hw =>
    have hd : s.destroyed = false := by
      cases hdd : s.destroyed with
      | false => rfl
      | true => exact absurd (h.alive hdd) hp'
    refine { h with opn := ?_, att := ?_, last := ?_, first := ?_, closed := ?_, got := ?_, writer := ?_, lim := ?_ } <;>
      simp only [outputOpen_append, outputOpen, attempts_append, attempts, gotQueues_append, gotQueues,
        calls_append, calls, List.append_nil, attempts_freeEvs, gotQueues_freeEvs, calls_freeEvs,
        outputOpen_freeEvs]
    · exact h.opn
    · exact h.att
    · exact h.last
    · exact h.first
    · exact each_opn_frees _ (each_single h.closed trivial)
    · exact h.got
    · obtain ⟨w1, h1, h2, _⟩ := h.writer
      refine ⟨w, ?_, fun _ => rfl, fun hdd => by rw [hd] at hdd; cases hdd⟩
      simp only [List.map_append, List.map_cons, List.map_nil]
      exact wrun_snoc h1 (by rw [← h2 hd]; exact hw)
    · simp
  | flushFail r r2 w w2 hp hp' hop hne hw hr hw2 =>
    have hd : s.destroyed = false := by
      cases hdd : s.destroyed with
      | false => rfl
      | true => exact absurd (h.alive hdd) hp'
    refine { h with opn := ?_, att := ?_, last := ?_, first := ?_, closed := ?_, got := ?_, writer := ?_, lim := ?_ } <;>
      simp only [outputOpen_append, outputOpen, attempts_append, attempts, gotQueues_append, gotQueues,
        calls_append, calls, List.append_nil, attempts_freeEvs, gotQueues_freeEvs, calls_freeEvs,
        outputOpen_freeEvs]
    · exact h.att
    · exact h.last
    · exact h.first
    · have := each_single (x := .close r2) (each_single (x := .write s.outq r) h.closed trivial) trivial
      simp only [List.append_assoc, List.cons_append, List.nil_append] at this
      exact each_opn_frees _ this
    · exact h.got
    · obtain ⟨w1, h1, h2, _⟩ := h.writer
      refine ⟨w2, ?_, fun _ => rfl, fun hdd => by rw [hd] at hdd; cases hdd⟩
      have h3 := wrun_snoc (op := .writev (s.outq.map Entry.data)) h1 (by rw [← h2 hd]; exact hw)
      have h4 := wrun_snoc (op := .close) h3 hw2
      simpa using h4
    · simp
  | flushIdle hp hp' hop =>
    refine { h with opn := ?_, att := ?_, last := ?_, first := ?_, closed := ?_, got := ?_, writer := ?_, lim := ?_ } <;>
      simp only [outputOpen_append, outputOpen, attempts_append, attempts, gotQueues_append, gotQueues,
        calls_append, calls, List.append_nil, attempts_freeEvs, gotQueues_freeEvs, calls_freeEvs,
        outputOpen_freeEvs]
    · exact h.opn
    · exact h.att
    · exact h.last
    · exact h.first
    · exact each_opn_frees _ h.closed
    · exact h.got
    · exact h.writer
    · simp
  | push i e rest hat hq hl hb =>
    refine { h with lim := ?_ }
    rw [ho] at hl
    simp only [List.length_append, List.length_cons, List.length_nil]; omega
  | drop i e rest hat hq hop =>
    refine { h with opn := ?_, att := ?_, last := ?_, first := ?_, closed := ?_, got := ?_, writer := ?_ } <;>
      simp only [outputOpen_append, outputOpen, attempts_append, attempts, gotQueues_append, gotQueues,
        calls_append, calls, List.append_nil, attempts_freeEvs, gotQueues_freeEvs, calls_freeEvs,
        outputOpen_freeEvs]
    · exact h.opn
    · exact h.att
    · exact h.last
    · exact h.first
    · exact each_opn_frees _ h.closed
    · exact h.got
    · exact h.writer
  | pc p wk hp =>
    refine { h with alive := ?_ } <;> simp only
    intro hd
    have := h.alive hd
    cases hp <;> simp_all
  | finish r rdwr hs hp hd hw =>
    refine { h with opn := ?_, att := ?_, last := ?_, first := ?_, closed := ?_, got := ?_, writer := ?_, alive := ?_ } <;>
      simp only [outputOpen_append, outputOpen, attempts_append, attempts, gotQueues_append, gotQueues,
        calls_append, calls, List.append_nil, attempts_freeEvs, gotQueues_freeEvs, calls_freeEvs,
        outputOpen_freeEvs]
    · exact h.opn
    · exact h.att
    · exact h.last
    · exact h.first
    · exact each_single (each_opn_frees _ h.closed) trivial
    · exact h.got
    · obtain ⟨w1, h1, h2, _⟩ := h.writer
      exact ⟨w1, h1, nofun, fun _ => ⟨r, rdwr, by rw [← h2 hd]; exact hw, rfl⟩⟩
    · exact fun _ => hp

theorem InvC.trs {w0 : Writer σ} {opt : IothrOptions} {s s' : Iothr σ} (h : InvC w0 opt s)
    (t : Trs s s') : InvC w0 opt s' :=
  t.inv (fun _ _ h t => h.tr t) h

/-! ## The number of buffered bytes -/

/-- The byte counter is exact as long as no payload is within 4 bytes of 4 GiB. -/
def InvE (s : Iothr σ) : Prop :=
  (∀ e ∈ submits s.log, e.data.length < 4294967292) → s.outqBytes = framedSize s.outq ∧
    (2 ≤ s.outq.length → framedSize s.outq < s.opt.bufferHint)

theorem InvE.tr {s s' : Iothr σ} (hb : s.opt.bufferHint ≤ 4294967296) (ha : InvA s) (h : InvE s)
    (t : Tr s s') : InvE s' := by
  intro hsmall
  obtain ⟨x, hx⟩ := t.log
  have h0 := h (fun e he => hsmall e (by rw [hx, submits_append]; exact List.mem_append_left _ he))
  cases t with
  | flushOk => simp [framedSize]
  | flushFail => simp [framedSize]
  | flushIdle => simp [framedSize]
  | push i e rest hat hq hl hbb =>
    have hem : e ∈ submits s.log := ha.mem_queues (List.mem_flatten.2 ⟨_, List.mem_of_getElem? hq, by simp⟩)
    have hlen := hsmall e hem
    simp only [framedSize_append, List.length_append, List.length_cons, List.length_nil]
    have h1 : framedSize [e] = 4 + e.data.length := by simp [framedSize]
    rw [h1]
    rcases hbb with hz | hlt
    · rw [h0.1, hz]
      simp only [framedSize, List.map_nil, List.sum_nil, List.length_nil]
      refine ⟨?_, by omega⟩
      rw [Nat.mod_eq_of_lt (by omega)]
    · rw [h0.1] at hlt ⊢
      refine ⟨?_, fun _ => hlt⟩
      rw [Nat.mod_eq_of_lt (by omega)]
  | _ => exact h0

theorem Tr.opt {s s' : Iothr σ} (t : Tr s s') : s'.opt = s.opt := by cases t <;> rfl

theorem InvE.trs {s s' : Iothr σ} (hb : s.opt.bufferHint ≤ 4294967296) (ha : InvA s) (h : InvE s)
    (t : Trs s s') : InvE s' := by
  have : s'.opt.bufferHint ≤ 4294967296 ∧ InvA s' ∧ InvE s' :=
    t.inv (P := fun s => s.opt.bufferHint ≤ 4294967296 ∧ InvA s ∧ InvE s)
      (fun _ _ h t => ⟨by rw [t.opt]; exact h.1, h.2.1.tr t, h.2.2.tr h.1 h.2.1 t⟩) ⟨hb, ha, h⟩
  exact this.2.2

/-! ## Losslessness -/

/-- Before the I/O thread has started nothing is lost. -/
def InvS (s : Iothr σ) : Prop := s.pc = .start → ∀ q, s.lane q = onQueue q (submits s.log)

theorem InvS.tr {s s' : Iothr σ} (ha : InvA s) (h : InvS s) (t : Tr s s') : InvS s' := by
  intro hp q
  cases t with
  | refused =>
    have := h hp q
    simpa only [lane, submits_append, submits, handed_append, handed, List.append_nil] using this
  | began => exact h hp q
  | full =>
    have := h hp q
    simpa only [lane, submits_append, submits, handed_append, handed, List.append_nil] using this
  | lost => exact h hp q
  | inserted t e q0 wk sig hd hpp hqq hl hsig =>
    have hsg : submits sig = [] ∧ handed sig = [] := by
      rcases hsig with rfl | rfl <;> exact ⟨rfl, rfl⟩
    have := h hp q
    simp only [lane, submits_append, submits, handed_append, handed, List.append_nil, hsg] at this ⊢
    rw [lane_insert hqq, onQueue_append q (submits s.log), this]
  | signalled =>
    have := h hp q
    simpa only [lane, submits_append, submits, handed_append, handed, List.append_nil] using this
  | gotSome =>
    have := h hp q
    simpa only [lane, submits_append, submits, handed_append, handed, List.append_nil] using this
  | gotNone =>
    have := h hp q
    simpa only [lane, submits_append, submits, handed_append, handed, List.append_nil] using this
  | shut =>
    have := h hp q
    simpa only [lane, submits_append, submits, handed_append, handed, List.append_nil] using this
  | opn =>
    have := h hp q
    simpa only [lane, submits_append, submits, handed_append, handed, List.append_nil] using this
  | cls i r w hpp => simp only at hp; rw [hp] at hpp; cases hpp
  | flushOk w h1 => exact absurd hp h1
  | flushFail _ _ _ _ h1 => exact absurd hp h1
  | flushIdle h1 => exact absurd hp h1
  | push i e rest hat =>
    simp only at hp
    cases hat with
    | work t h => rw [hp] at h; cases h
    | drain t h => rw [hp] at h; cases h
  | drop i e rest hat =>
    simp only at hp
    cases hat with
    | work t h => rw [hp] at h; cases h
    | drain t h => rw [hp] at h; cases h
  | pc p wk hpp => simp only at hp; subst hp; cases hpp
  | finish _ _ _ h1 => simp only at hp; rw [hp] at h1; cases h1

/-- The payloads submitted before the shutdown. -/
def old (s : Iothr σ) : List Entry := submits (beforeShutdown s.log)

theorem beforeShutdown_of_not_mem {l : List IoEv} (h : IoEv.shutdown ∉ l) : beforeShutdown l = l := by
  induction l with
  | nil => rfl
  | cons a l ih =>
    unfold beforeShutdown at *
    rw [List.mem_cons, not_or] at h
    rw [List.takeWhile_cons, if_pos (by simpa using fun he => h.1 he.symm), ih h.2]

theorem beforeShutdown_append {l : List IoEv} (x : List IoEv) (h : IoEv.shutdown ∈ l) :
    beforeShutdown (l ++ x) = beforeShutdown l := by
  induction l with
  | nil => cases h
  | cons a l ih =>
    unfold beforeShutdown at *
    simp only [List.cons_append, List.takeWhile_cons]
    split
    · rename_i ha
      rcases List.mem_cons.1 h with h | h
      · subst h; simp at ha
      · rw [ih h]
    · rfl

theorem beforeShutdown_split (l : List IoEv) : ∃ x, l = beforeShutdown l ++ x :=
  ⟨_, (List.takeWhile_append_dropWhile (p := (· ≠ IoEv.shutdown))).symm⟩

/-- Draining visits every queue after the shutdown. -/
structure InvG (s : Iothr σ) : Prop where
  shut : s.shutting = true ↔ IoEv.shutdown ∈ s.log
  drain : ∀ i t, s.pc = .drain i t → s.shutting = true
  drained : ∀ i, s.pc = .drain i 0 → ∀ j, j < i → ∀ q, s.queues[j]? = some q → ∀ e ∈ q, e ∉ s.old
  exited : s.pc = .exited → s.shutting = true ∧ ∀ e ∈ s.queues.flatten, e ∉ s.old

theorem old_append {s : Iothr σ} (h : IoEv.shutdown ∈ s.log) (x : List IoEv) :
    submits (beforeShutdown (s.log ++ x)) = s.old := by
  rw [beforeShutdown_append x h]; rfl

theorem InvG.init (opt : IothrOptions) (w : Writer σ) : InvG (Iothr.init opt w) := by
  constructor
  · simp [Iothr.init]
  · intro i t h; cases h
  · intro i h; cases h
  · intro h; cases h

/-- Appending events other than `shutdown`, with the rest of the relevant state unchanged. -/
theorem InvG.emit {s s' : Iothr σ} (h : InvG s) (x : List IoEv) (hx : IoEv.shutdown ∉ x)
    (hl : s'.log = s.log ++ x) (hs : s'.shutting = s.shutting) (hp : s'.pc = s.pc)
    (hq : ∀ (i : Nat) (q' : List Entry), s'.queues[i]? = some q' → ∃ q : List Entry,
      s.queues[i]? = some q ∧ ∀ e ∈ q', e ∈ q) :
    InvG s' := by
  constructor
  · rw [hs, hl, h.shut]; simp [hx]
  · intro i t; rw [hp, hs]; exact h.drain i t
  · intro i hpi j hj q hqj e he
    rw [hp] at hpi
    obtain ⟨q0, h1, h2⟩ := hq j q hqj
    have h3 := h.shut.1 (h.drain i 0 hpi)
    unfold old
    rw [hl, old_append h3]
    exact h.drained i hpi j hj q0 h1 e (h2 e he)
  · intro hpe
    rw [hp] at hpe
    obtain ⟨h1, h2⟩ := h.exited hpe
    refine ⟨by rw [hs]; exact h1, ?_⟩
    intro e he
    unfold old
    rw [hl, old_append (h.shut.1 h1)]
    obtain ⟨q', hq', heq⟩ := List.mem_flatten.1 he
    obtain ⟨i, hi⟩ := List.mem_iff_getElem?.1 hq'
    obtain ⟨q0, h3, h4⟩ := hq i q' hi
    exact h2 e (List.mem_flatten.2 ⟨q0, List.mem_of_getElem? h3, h4 e heq⟩)

theorem shutdown_not_freeEvs (es : List Entry) : IoEv.shutdown ∉ freeEvs es := by
  intro h; obtain ⟨_, _, _, h⟩ := mem_freeEvs h; cases h

theorem InvG.tr {s s' : Iothr σ} (ha : InvA s) (h : InvG s) (t : Tr s s') : InvG s' := by
  have same : ∀ (i : Nat) (q' : List Entry), s.queues[i]? = some q' → ∃ q : List Entry,
      s.queues[i]? = some q ∧ ∀ e ∈ q', e ∈ q := fun i q' h => ⟨q', h, fun _ h => h⟩
  have popped : ∀ (i : Nat) (e : Entry) (rest : List Entry), s.queues[i]? = some (e :: rest) →
      ∀ (j : Nat) (q' : List Entry), (s.queues.set i rest)[j]? = some q' → ∃ q : List Entry,
      s.queues[j]? = some q ∧ ∀ e ∈ q', e ∈ q := by
    intro i e rest hq j q' hj
    rcases getElem?_set_cases hj with ⟨rfl, rfl⟩ | ⟨_, hj⟩
    · exact ⟨_, hq, fun x hx => List.mem_cons_of_mem _ hx⟩
    · exact ⟨q', hj, fun _ h => h⟩
  cases t with
  | refused r hd => exact h.emit [.refused s.nextId r] (by simp) rfl rfl rfl same
  | began => exact h.emit [] (by simp) (by simp) rfl rfl same
  | full t e => exact h.emit [.refused e.id .again] (by simp) rfl rfl rfl same
  | lost => exact h.emit [] (by simp) (by simp) rfl rfl same
  | inserted t e q wk sig hd hp hq hl hsig =>
    obtain ⟨pa, pb, pc, pd⟩ := ha.plt t e hp
    have hsg : IoEv.shutdown ∉ [IoEv.submitted e] ++ sig := by
      rcases hsig with rfl | rfl <;> simp
    have hnew : s.shutting = true → e ∉ s.old := by
      intro hs hm
      obtain ⟨x, hx⟩ := beforeShutdown_split s.log
      have : e ∈ submits s.log := by
        rw [hx, submits_append]; exact List.mem_append_left _ hm
      exact pc (List.mem_map_of_mem this)
    have hlog : s.log ++ [IoEv.submitted e] ++ sig = s.log ++ ([IoEv.submitted e] ++ sig) :=
      List.append_assoc _ _ _
    constructor <;> simp only [hlog]
    · rw [h.shut, List.mem_append, or_iff_left hsg]
    · exact h.drain
    · intro i hpi j hj q' hqj e' he'
      have h3 := h.shut.1 (h.drain i 0 hpi)
      unfold old
      simp only [hlog]
      rw [old_append h3]
      rcases getElem?_set_cases hqj with ⟨rfl, rfl⟩ | ⟨_, hqj⟩
      · rw [List.mem_append] at he'
        rcases he' with he' | he'
        · exact h.drained i hpi _ hj q hq e' he'
        · simp only [List.mem_singleton] at he'
          subst he'
          exact hnew (h.drain i 0 hpi)
      · exact h.drained i hpi j hj q' hqj e' he'
    · intro hpe
      obtain ⟨h1, h2⟩ := h.exited hpe
      refine ⟨h1, ?_⟩
      intro e' he'
      unfold old
      simp only [hlog]
      rw [old_append (h.shut.1 h1)]
      obtain ⟨q', hq', heq⟩ := List.mem_flatten.1 he'
      obtain ⟨i, hi⟩ := List.mem_iff_getElem?.1 hq'
      rcases getElem?_set_cases hi with ⟨rfl, rfl⟩ | ⟨_, hi⟩
      · rw [List.mem_append] at heq
        rcases heq with heq | heq
        · exact h2 e' (List.mem_flatten.2 ⟨q, List.mem_of_getElem? hq, heq⟩)
        · simp only [List.mem_singleton] at heq
          subst heq
          exact hnew h1
      · exact h2 e' (List.mem_flatten.2 ⟨q', List.mem_of_getElem? hi, heq⟩)
  | signalled => exact h.emit [.signal] (by simp) rfl rfl rfl same
  | gotSome => exact h.emit [.gotQueue (some s.getIdx)] (by simp) rfl rfl rfl same
  | gotNone => exact h.emit [.gotQueue none] (by simp) rfl rfl rfl same
  | shut wk hs =>
    constructor <;> simp only
    · simp
    · intros; trivial
    · intro i hpi
      have := h.drain i 0 hpi
      rw [hs] at this; cases this
    · intro hpe
      have := (h.exited hpe).1
      rw [hs] at this; cases this
  | opn now r => exact h.emit [.opn now r] (by simp) rfl rfl rfl same
  | cls i r => exact h.emit [.close r] (by simp) rfl rfl rfl same
  | flushOk =>
    exact h.emit ([.write s.outq .success] ++ freeEvs s.outq) (by simp [shutdown_not_freeEvs])
      (by simp) rfl rfl same
  | flushFail r r2 =>
    exact h.emit ([.write s.outq r, .close r2] ++ freeEvs s.outq) (by simp [shutdown_not_freeEvs])
      (by simp) rfl rfl same
  | flushIdle => exact h.emit (freeEvs s.outq) (shutdown_not_freeEvs _) rfl rfl rfl same
  | push i e rest hat hq => exact h.emit [] (by simp) (by simp) rfl rfl (popped i e rest hq)
  | drop i e rest hat hq =>
    exact h.emit (freeEvs [e]) (shutdown_not_freeEvs _) rfl rfl rfl (popped i e rest hq)
  | pc p wk hp =>
    constructor <;> simp only
    · exact h.shut
    · intro i t hpe
      subst hpe
      cases hp with
      | shut _ hs => exact hs
      | drainNext i t t' h1 => exact h.drain _ _ h1
      | drainAgain i t h1 => exact h.drain _ _ h1
    · intro i hpe j hj q hq e he
      subst hpe
      cases hp with
      | shut _ hs => omega
      | drainNext i t t' h1 h2 h3 =>
        obtain ⟨rfl, h4⟩ := h3 rfl
        by_cases hji : j = i
        · subst hji
          exact h4 q hq e he
        · exact h.drained i h1 j (by omega) q hq e he
      | drainAgain i t h1 => omega
    · intro hpe
      subst hpe
      cases hp with
      | exit i h1 h2 h3 h4 =>
        refine ⟨h.drain i 0 h1, ?_⟩
        intro e he
        obtain ⟨q', hq', heq⟩ := List.mem_flatten.1 he
        obtain ⟨j, hj⟩ := List.mem_iff_getElem?.1 hq'
        have hlt := (List.getElem?_eq_some_iff.1 hj).1
        rw [ha.qlen] at hlt
        exact h.drained i h1 j (by omega) q' hj e heq
  | finish =>
    refine h.emit (freeEvs s.queues.flatten ++ [.destroyed]) (by simp [shutdown_not_freeEvs])
      (by simp) rfl rfl ?_
    intro i q' hi
    simp only at hi
    rw [List.getElem?_map] at hi
    cases hq : s.queues[i]? with
    | none => rw [hq] at hi; cases hi
    | some q => rw [hq] at hi; cases hi; exact ⟨q, rfl, nofun⟩

/-- If no call on the writer fails, nothing is lost between the first successful opening and the
end. -/
def InvD (s : Iothr σ) : Prop :=
  (∀ c ∈ calls s.log, c.2 = Res.success) →
    s.pc ≠ .start ∧
    ((s.opened = true ∧ s.pc ≠ .exited) ∨ (s.opened = false ∧ s.outq = [] ∧
      (s.pc = .exited ∨ ∃ i, s.pc = .drain i 0 ∧ s.opt.numInputQueues ≤ i))) ∧
    (s.pc ≠ .exited → ∀ q, s.lane q = onQueue q (submits s.log)) ∧
    (s.pc = .exited → ∀ q, onQueue q s.old <+: onQueue q (handed s.log)) ∧
    ∃ ws : List (List Entry), ws.flatten = handed s.log ∧
      calls s.log = (WOp.opn, Res.success) :: ws.map (fun es => (WOp.writev (es.map Entry.data), Res.success)) ++
        (if s.opened then [] else [(WOp.close, Res.success)])

theorem prefix_of_disjoint {α : Type} {a b h t : List α} (h1 : a ++ b = h ++ t) (hd : ∀ e ∈ t, e ∉ a) :
    a <+: h := by
  rcases List.append_eq_append_iff.1 h1 with ⟨m, h2, _⟩ | ⟨m, h2, h3⟩
  · exact ⟨m, h2.symm⟩
  · cases m with
    | nil => rw [List.append_nil] at h2; exact ⟨[], by rw [h2]; simp⟩
    | cons x m =>
      exfalso
      refine hd x ?_ ?_
      · rw [h3]; simp
      · rw [h2]; simp

set_option maxHeartbeats 1000000 in
theorem InvD.tr {s s' : Iothr σ} (ha : InvA s) (hg : InvG s) (h : InvD s) (t : Tr s s') : InvD s' := by
  intro hok
  obtain ⟨x, hx⟩ := t.log
  obtain ⟨d1, d2, d3, d4, ws, d5, d6⟩ :=
    h (fun c hc => hok c (by rw [hx, calls_append]; exact List.mem_append_left _ hc))
  have old' : s.pc = .exited → ∀ y, submits (beforeShutdown (s.log ++ y)) = s.old := by
    intro hp y
    exact old_append (hg.shut.1 (hg.exited hp).1) y
  cases t with
  | refused r hd =>
    simp only [InvD, lane, old, submits_append, submits, handed_append, handed, calls_append, calls,
      List.append_nil] at *
    refine ⟨d1, d2, d3, ?_, ws, d5, d6⟩
    intro hp q; rw [old' hp]; exact d4 hp q
  | began => exact ⟨d1, d2, d3, d4, ws, d5, d6⟩
  | full =>
    simp only [InvD, lane, old, submits_append, submits, handed_append, handed, calls_append, calls,
      List.append_nil] at *
    refine ⟨d1, d2, d3, ?_, ws, d5, d6⟩
    intro hp q; rw [old' hp]; exact d4 hp q
  | lost => exact ⟨d1, d2, d3, d4, ws, d5, d6⟩
  | inserted t e q0 wk sig hd hp hqq hl hsig =>
    have hsg : submits sig = [] ∧ handed sig = [] ∧ calls sig = [] := by
      rcases hsig with rfl | rfl <;> exact ⟨rfl, rfl, rfl⟩
    simp only [InvD, lane, old, submits_append, submits, handed_append, handed, calls_append, calls,
      List.append_nil, hsg] at *
    refine ⟨d1, d2, ?_, ?_, ws, d5, d6⟩
    · intro hp q
      rw [lane_insert hqq, onQueue_append q (submits s.log), d3 hp q]
    · intro hp q; rw [List.append_assoc, old' hp]; exact d4 hp q
  | signalled =>
    simp only [InvD, lane, old, submits_append, submits, handed_append, handed, calls_append, calls,
      List.append_nil] at *
    refine ⟨d1, d2, d3, ?_, ws, d5, d6⟩
    intro hp q; rw [old' hp]; exact d4 hp q
  | gotSome =>
    simp only [InvD, lane, old, submits_append, submits, handed_append, handed, calls_append, calls,
      List.append_nil] at *
    refine ⟨d1, d2, d3, ?_, ws, d5, d6⟩
    intro hp q; rw [old' hp]; exact d4 hp q
  | gotNone =>
    simp only [InvD, lane, old, submits_append, submits, handed_append, handed, calls_append, calls,
      List.append_nil] at *
    refine ⟨d1, d2, d3, ?_, ws, d5, d6⟩
    intro hp q; rw [old' hp]; exact d4 hp q
  | shut =>
    simp only [InvD, lane, old, submits_append, submits, handed_append, handed, calls_append, calls,
      List.append_nil] at *
    refine ⟨d1, d2, d3, ?_, ws, d5, d6⟩
    intro hp q; rw [old' hp]; exact d4 hp q
  | opn now r w hp hop hi hw =>
    exfalso
    rcases d2 with ⟨h1, _⟩ | ⟨_, _, h1 | ⟨i, h1, _⟩⟩
    · rw [hop] at h1; cases h1
    · rcases hp with hp | hp <;> rw [hp] at h1 <;> cases h1
    · rcases hp with hp | hp <;> rw [hp] at h1 <;> cases h1
  | cls i r w hp hi hq hop hw =>
    have hr : r = .success := by
      apply hok (.close, r)
      simp [calls_append, calls]
    subst hr
    simp only [InvD, lane, old, submits_append, submits, handed_append, handed, calls_append, calls,
      List.append_nil] at *
    refine ⟨d1, Or.inr ⟨trivial, hq, Or.inr ⟨i, hp, hi⟩⟩, d3, ?_, ws, d5, ?_⟩
    · intro hp' q; rw [hp] at hp'; cases hp'
    · rw [d6, hop]; simp
  | flushOk w hp hp' hop hne hw =>
    simp only [InvD, lane, old, submits_append, submits, handed_append, handed, calls_append, calls,
      List.append_nil, submits_freeEvs, handed_freeEvs, calls_freeEvs] at *
    refine ⟨d1, Or.inl ⟨hop, hp'⟩, d3, ?_, ws ++ [s.outq], ?_, ?_⟩
    · intro hpe; exact absurd hpe hp'
    · simp [d5]
    · rw [d6, hop]; simp
  | flushFail r r2 w w2 hp hp' hop hne hw hr hw2 =>
    exfalso
    apply hr
    apply hok (.writev (s.outq.map Entry.data), r)
    simp [calls_append, calls]
  | flushIdle hp hp' hop =>
    have hz : s.outq = [] := by
      rcases hop with hop | hop
      · rcases d2 with ⟨h1, _⟩ | ⟨_, h1, _⟩
        · rw [hop] at h1; cases h1
        · exact h1
      · exact hop
    simp only [InvD, lane, old, submits_append, submits, handed_append, handed, calls_append, calls,
      List.append_nil, submits_freeEvs, handed_freeEvs, calls_freeEvs, hz] at *
    refine ⟨d1, ?_, d3, ?_, ws, d5, d6⟩
    · simpa using d2
    · intro hpe; exact absurd hpe hp'
  | push i e rest hat hqq hl hb =>
    have hpe : s.pc ≠ .exited := by
      cases hat with
      | work t h => rw [h]; nofun
      | drain t h => rw [h]; nofun
    have hop : s.opened = true := by
      rcases d2 with ⟨h1, _⟩ | ⟨_, _, h1 | ⟨j, h1, h2⟩⟩
      · exact h1
      · exact absurd h1 hpe
      · cases hat with
        | work t h => rw [h1] at h; cases h
        | drain t h hi => rw [h1] at h; cases h; omega
    simp only [InvD, lane, old] at *
    refine ⟨d1, Or.inl ⟨hop, hpe⟩, ?_, d4, ws, d5, d6⟩
    intro _ q
    rw [← List.append_assoc, lane_push hqq (ha.qid i _ hqq e (by simp))]
    exact d3 hpe q
  | drop i e rest hat hqq ho =>
    exfalso
    rcases d2 with ⟨h1, _⟩ | ⟨_, _, h1 | ⟨j, h1, h2⟩⟩
    · rw [ho] at h1; cases h1
    · cases hat with
      | work t h => rw [h1] at h; cases h
      | drain t h => rw [h1] at h; cases h
    · cases hat with
      | work t h => rw [h1] at h; cases h
      | drain t h hi => rw [h1] at h; cases h; omega
  | pc p wk hp =>
    have hs : p ≠ .start := by intro h; subst h; cases hp
    have hpe : s.pc ≠ .exited := by cases hp <;> simp_all
    refine ⟨hs, ?_, fun _ => d3 hpe, ?_, ws, d5, d6⟩
    · simp only
      rcases d2 with ⟨h1, _⟩ | ⟨h0, h00, h1 | ⟨j, h1, h2⟩⟩
      · refine Or.inl ⟨h1, ?_⟩
        intro h; subst h
        cases hp with
        | exit i _ _ _ h2 => rw [h1] at h2; cases h2
      · exact absurd h1 hpe
      · refine Or.inr ⟨h0, h00, ?_⟩
        cases hp with
        | exit => exact Or.inl rfl
        | drainNext i t t' hh hi => rw [h1] at hh; cases hh; omega
        | drainAgain i t hh ht => rw [h1] at hh; cases hh; exact absurd rfl ht
        | shut hh => rw [h1] at hh; cases hh
        | start hh => rw [h1] at hh; cases hh
        | work hh => rw [h1] at hh; cases hh
        | workNext i t t' hh => rw [h1] at hh; cases hh
        | workTop i t hh => rw [h1] at hh; cases hh
        | workSleep i t d hh => rw [h1] at hh; cases hh
        | wake d hh => rw [h1] at hh; cases hh
    · intro hpx q
      simp only at hpx
      subst hpx
      cases hp with
      | exit i h1 h2 h3 h4 =>
        have hl := d3 hpe q
        unfold lane at hl
        rw [h3, List.append_nil] at hl
        obtain ⟨x, hx⟩ := beforeShutdown_split s.log
        have h5 : onQueue q (submits s.log) = onQueue q s.old ++ onQueue q (submits x) := by
          rw [← onQueue_append]
          unfold old
          rw [← submits_append, ← hx]
        refine prefix_of_disjoint (h5.symm.trans hl.symm) ?_
        intro e he
        have hem : e ∉ s.old := by
          cases hq : s.queues[q]? with
          | none => rw [hq] at he; cases he
          | some qq =>
            rw [hq] at he
            have hlt := (List.getElem?_eq_some_iff.1 hq).1
            rw [ha.qlen] at hlt
            exact hg.drained i h1 q (by omega) qq hq e he
        intro hm
        exact hem (List.mem_filter.1 hm).1
  | finish r rdwr hs hp hd hw =>
    simp only [InvD, lane, old, submits_append, submits, handed_append, handed, calls_append, calls,
      List.append_nil, submits_freeEvs, handed_freeEvs, calls_freeEvs] at *
    refine ⟨d1, ?_, ?_, ?_, ws, d5, d6⟩
    · exact d2
    · intro h; exact absurd hp h
    · intro hp q; rw [List.append_assoc, old' hp]; exact d4 hp q

end Iothr

end Fstrm
