import Verif.Lemmas.IothrInv2
import Verif.Spec.IothrFair

/-!
# The I/O thread serves its queues in turn
-/

set_option autoImplicit false

namespace Fstrm

theorem beforeSubmit_append {l : List IoEv} {e : Entry} (x : List IoEv) (h : e ∈ submits l) :
    beforeSubmit (l ++ x) e = beforeSubmit l e := by
  induction l with
  | nil => cases h
  | cons a l ih =>
    unfold beforeSubmit at ih ⊢
    simp only [List.cons_append, List.takeWhile_cons]
    by_cases ha : a = .submitted e
    · simp [ha]
    · have : e ∈ submits l := by
        cases a with
        | submitted e' =>
          simp only [submits, List.mem_cons] at h
          rcases h with rfl | h
          · exact absurd rfl ha
          · exact h
        | _ => exact h
      simp only [ne_eq, ha, not_false_eq_true, decide_true, ↓reduceIte]
      rw [← ih this]

theorem beforeSubmit_new {l : List IoEv} {e : Entry} (x : List IoEv) (h : e ∉ submits l) :
    beforeSubmit (l ++ .submitted e :: x) e = l := by
  induction l with
  | nil => simp [beforeSubmit]
  | cons a l ih =>
    unfold beforeSubmit at ih ⊢
    simp only [List.cons_append, List.takeWhile_cons]
    by_cases ha : a = .submitted e
    · subst ha; simp [submits] at h
    · have : e ∉ submits l := by
        cases a with
        | submitted e' =>
          simp only [submits, List.mem_cons, not_or] at h
          exact h.2
        | _ => exact h
      simp only [ne_eq, ha, not_false_eq_true, decide_true, ↓reduceIte]
      rw [ih this]

theorem ahead_append {l : List IoEv} {e : Entry} (x : List IoEv) (h : e ∈ submits l) :
    ahead (l ++ x) e = ahead l e := by
  unfold ahead; rw [beforeSubmit_append x h]

theorem filter_pop {l : List Entry} (hl : l.Nodup) (x : Entry) (r : List Entry) :
    (l.filter (· ∉ r)).length ≤ (l.filter (· ∉ x :: r)).length + 1 := by
  induction l with
  | nil => simp
  | cons y l ih =>
    rw [List.nodup_cons] at hl
    have ih := ih hl.2
    by_cases hy : y = x
    · subst hy
      have h1 : (l.filter (· ∉ r)).length ≤ (l.filter (· ∉ y :: r)).length := by
        have : l.filter (· ∉ r) = l.filter (· ∉ y :: r) := by
          refine List.filter_congr fun z hz => ?_
          have : z ≠ y := fun h => hl.1 (h ▸ hz)
          simp [this]
        rw [this]; exact Nat.le_refl _
      have h2 : (y :: l).filter (· ∉ y :: r) = l.filter (· ∉ y :: r) := by simp
      rw [h2, List.filter_cons]
      split
      · simp only [List.length_cons]; omega
      · omega
    · by_cases hr : y ∈ r
      · simpa [List.filter_cons, hr] using ih
      · simpa [List.filter_cons, hr, hy] using ih

theorem length_le_of_subset {a b : List Entry} (hn : a.Nodup) (h : ∀ x ∈ a, x ∈ b) :
    a.length ≤ b.length := by
  induction a generalizing b with
  | nil => simp
  | cons x a ih =>
    rw [List.nodup_cons] at hn
    have hx : x ∈ b := h x (by simp)
    have := ih (b := b.erase x) hn.2 (fun y hy =>
      (List.mem_erase_of_ne (fun he => hn.1 (by rw [← he]; exact hy))).2 (h y (by simp [hy])))
    rw [List.length_erase_of_mem hx] at this
    have := List.length_pos_of_mem hx
    simp only [List.length_cons]; omega

/-- An element at the end of a longer list. -/
theorem split_snoc {α : Type} {l a b : List α} {x e : α} (h : l ++ [x] = a ++ e :: b) :
    (e = x ∧ b = [] ∧ a = l) ∨ ∃ b', b = b' ++ [x] ∧ l = a ++ e :: b' := by
  rcases List.eq_nil_or_concat b with rfl | ⟨b', y, rfl⟩
  · have := List.append_inj' h rfl
    simp only [List.cons.injEq, and_true] at this
    exact Or.inl ⟨this.2.symm, rfl, this.1.symm⟩
  · right
    rw [List.concat_eq_append, ← List.cons_append, ← List.append_assoc] at h
    have := List.append_inj' h rfl
    simp only [List.cons.injEq, and_true] at this
    exact ⟨b', by rw [this.2, List.concat_eq_append], this.1⟩

namespace Iothr

variable {σ : Type}

/-- The queue the thread is going to look at next. -/
def cursor : IoPc → Nat
  | .work i _ => i
  | .drain i _ => i
  | _ => 0

/-- What is waiting in a queue. -/
def waiting (s : Iothr σ) (q : Nat) : List Entry := (s.queues[q]?).getD []

/-- What has been taken to be handed to the writer. -/
def taken (s : Iothr σ) : List Entry := handed s.log ++ s.outq

/-- How the cursor moves when no queue changes. A queue is passed over if all that waits in it is
in `r`. -/
inductive Moves (r : List Entry) (s : Iothr σ) (c' : Nat) : Prop
  | same : c' = cursor s.pc → Moves r s c'
  | wrap : s.opt.numInputQueues ≤ cursor s.pc → c' = 0 → Moves r s c'
  | skip : (∀ e ∈ s.waiting (cursor s.pc), e ∈ r) → c' = cursor s.pc + 1 → Moves r s c'

/-- The effects of one step on the queues. `r` and `r'` are the payloads inserted since the current
look at a queue began, before and after the step; where a look is one step there are none. -/
inductive Eff (r r' : List Entry) (s s' : Iothr σ) : Prop
  | quiet : s'.queues = s.queues → submits s'.log = submits s.log → s'.taken <+: s.taken →
      Moves r s (cursor s'.pc) → (∀ e ∈ r', e ∈ r) → Eff r r' s s'
  | insert (e : Entry) (q : List Entry) (sig : List IoEv) : s.queues[e.queue]? = some q →
      q.length < s.opt.inputQueueSize - 1 → s'.queues = s.queues.set e.queue (q ++ [e]) →
      s'.log = s.log ++ .submitted e :: sig → submits sig = [] → handed sig = [] →
      s'.outq = s.outq → s'.pc = s.pc → (∀ x ∈ r', x = e ∨ x ∈ r) → Eff r r' s s'
  | take (e : Entry) (rest : List Entry) : s.queues[cursor s.pc]? = some (e :: rest) →
      s'.queues = s.queues.set (cursor s.pc) rest → submits s'.log = submits s.log →
      cursor s'.pc = cursor s.pc + 1 →
      (s'.taken <+: s.taken ∨ ∃ t, t <+: s.taken ∧ s'.taken = t ++ [e]) → r' = [] → Eff r r' s s'
  | finish : (∀ q, s'.waiting q = []) → submits s'.log = submits s.log →
      s'.taken <+: s.taken → Eff r r' s s'

theorem flush_taken {s s' : Iothr σ} (h : s.flush = .ok s') :
    s'.taken <+: s.taken ∧ submits s'.log = submits s.log := by
  unfold flush at h
  split at h
  · obtain ⟨⟨r, w⟩, h1, h⟩ := Exec.bind_eq_ok.1 h
    simp only at h
    split at h
    · obtain ⟨s1, h2, h⟩ := Exec.bind_eq_ok.1 h
      cases h
      rcases close_ok h2 with ⟨_, rfl⟩ | ⟨_, r2, w2, _, rfl⟩ <;>
      simp [freeOutq_eq, taken, emit, handed_append, handed, submits_append, submits,
        submits_freeEvs, handed_freeEvs]
    · cases h
      simp [freeOutq_eq, taken, emit, handed_append, handed, submits_append, submits,
        submits_freeEvs, handed_freeEvs]
  · cases h
    simp [freeOutq_eq, taken, handed_append, submits_append, submits_freeEvs, handed_freeEvs]

theorem processQueue_eff {s s' : Iothr σ} {i n : Nat} (h : s.processQueue i = .ok (n, s')) :
    (s' = s ∧ s.waiting i = []) ∨ ∃ e rest, s.queues[i]? = some (e :: rest) ∧
      s'.queues = s.queues.set i rest ∧ submits s'.log = submits s.log ∧
      (s'.taken <+: s.taken ∨ ∃ t, t <+: s.taken ∧ s'.taken = t ++ [e]) := by
  unfold processQueue at h
  split at h
  · rename_i e rest hq
    right
    obtain ⟨s1, h1, h⟩ := Exec.bind_eq_ok.1 h
    cases h
    refine ⟨e, rest, hq, ?_⟩
    unfold processEntry at h1
    split at h1
    · obtain ⟨s2, h2, h1⟩ := Exec.bind_eq_ok.1 h1
      split at h1
      · cases h1
      · cases h1
        unfold maybeFlush at h2
        split at h2
        · cases h2
        · split at h2
          · obtain ⟨f1, f2⟩ := flush_taken h2
            obtain ⟨_, _, f3, _⟩ := flush_frame h2
            refine ⟨f3, f2, Or.inr ⟨s2.taken, f1, ?_⟩⟩
            simp [taken]
          · cases h2
            refine ⟨rfl, rfl, Or.inr ⟨s.taken, List.prefix_rfl, ?_⟩⟩
            simp [taken]
    · cases h1
      rw [freeEntry_eq]
      refine ⟨rfl, by simp [submits_append, submits_freeEvs], Or.inl ?_⟩
      simp [taken, handed_append, handed_freeEvs]
  · rename_i hne
    cases h
    refine Or.inl ⟨rfl, ?_⟩
    unfold waiting
    cases hq : s.queues[i]? with
    | none => rfl
    | some q =>
      cases q with
      | nil => rfl
      | cons e r => exact absurd hq (hne e r)

theorem maybeOpen_eff {s s' : Iothr σ} {now : Nat} (h : s.maybeOpen now = .ok s') :
    s'.queues = s.queues ∧ submits s'.log = submits s.log ∧ s'.taken = s.taken ∧ s'.pc = s.pc := by
  unfold maybeOpen at h
  split at h
  · cases h; exact ⟨rfl, rfl, rfl, rfl⟩
  · split at h
    · cases h; exact ⟨rfl, rfl, rfl, rfl⟩
    · obtain ⟨⟨r, w⟩, h1, h⟩ := Exec.bind_eq_ok.1 h
      cases h
      simp [emit, taken, handed_append, handed, submits_append, submits]

theorem close_eff {s s' : Iothr σ} (h : s.close = .ok s') :
    s'.queues = s.queues ∧ submits s'.log = submits s.log ∧ s'.taken = s.taken := by
  rcases close_ok h with ⟨_, rfl⟩ | ⟨_, r2, w2, _, rfl⟩
  · exact ⟨rfl, rfl, rfl⟩
  · simp [taken, handed_append, handed, submits_append, submits]

theorem ioStep_eff {s s' : Iothr σ} {now : Nat} {wake : Wake} (h : s.ioStep now wake = .ok s') :
    Eff [] [] s s' := by
  unfold ioStep at h
  split at h
  · rename_i hp
    obtain ⟨s1, h1, h⟩ := Exec.bind_eq_ok.1 h
    cases h
    obtain ⟨a, b, c, d⟩ := maybeOpen_eff h1
    exact .quiet a b (c ▸ List.prefix_rfl) (.same (by rw [hp]; rfl)) nofun
  · rename_i hp
    split at h
    · cases h
      exact .quiet rfl rfl List.prefix_rfl (.same (by rw [hp]; rfl)) nofun
    · obtain ⟨s1, h1, h⟩ := Exec.bind_eq_ok.1 h
      cases h
      obtain ⟨a, b, c, d⟩ := maybeOpen_eff h1
      exact .quiet a b (c ▸ List.prefix_rfl) (.same (by rw [hp]; rfl)) nofun
  · rename_i i total hp
    have hc : cursor s.pc = i := by rw [hp]; rfl
    split at h
    · obtain ⟨⟨n, s1⟩, h1, h⟩ := Exec.bind_eq_ok.1 h
      cases h
      rcases processQueue_eff h1 with ⟨rfl, hw⟩ | ⟨e, rest, a, b, c, d⟩
      · exact .quiet rfl rfl List.prefix_rfl (.skip (by rw [hc, hw]; nofun) (by rw [hc]; rfl)) nofun
      · exact .take e rest (hc ▸ a) (hc ▸ b) c (by rw [hc]; rfl) d rfl
    · rename_i hi
      split at h
      · cases h
        exact .quiet rfl rfl List.prefix_rfl (.wrap (by omega) rfl) nofun
      · cases h
        exact .quiet rfl rfl List.prefix_rfl (.wrap (by omega) rfl) nofun
  · rename_i i total hp
    have hc : cursor s.pc = i := by rw [hp]; rfl
    split at h
    · obtain ⟨⟨n, s1⟩, h1, h⟩ := Exec.bind_eq_ok.1 h
      cases h
      rcases processQueue_eff h1 with ⟨rfl, hw⟩ | ⟨e, rest, a, b, c, d⟩
      · exact .quiet rfl rfl List.prefix_rfl (.skip (by rw [hc, hw]; nofun) (by rw [hc]; rfl)) nofun
      · exact .take e rest (hc ▸ a) (hc ▸ b) c (by rw [hc]; rfl) d rfl
    · rename_i hi
      split at h
      · cases h
        exact .quiet rfl rfl List.prefix_rfl (.wrap (by omega) rfl) nofun
      · obtain ⟨s1, h1, h⟩ := Exec.bind_eq_ok.1 h
        obtain ⟨s2, h2, h⟩ := Exec.bind_eq_ok.1 h
        cases h
        obtain ⟨f1, f2⟩ := flush_taken h1
        obtain ⟨_, _, f3, _⟩ := flush_frame h1
        obtain ⟨g1, g2, g3⟩ := close_eff h2
        exact .quiet (g1.trans f3) (g2.trans f2) (g3 ▸ f1 : s2.taken <+: s.taken) (.wrap (by omega) rfl) nofun
  · rename_i d hp
    have hc : cursor s.pc = 0 := by rw [hp]; rfl
    split at h
    · split at h
      · obtain ⟨s1, h1, h⟩ := Exec.bind_eq_ok.1 h
        cases h
        obtain ⟨f1, f2⟩ := flush_taken h1
        obtain ⟨_, _, f3, _⟩ := flush_frame h1
        exact .quiet f3 f2 f1 (.same hc.symm) nofun
      · cases h; exact .quiet rfl rfl List.prefix_rfl (.same rfl) nofun
    · split at h
      · cases h; exact .quiet rfl rfl List.prefix_rfl (.same hc.symm) nofun
      · cases h; exact .quiet rfl rfl List.prefix_rfl (.same rfl) nofun
    · cases h; exact .quiet rfl rfl List.prefix_rfl (.same hc.symm) nofun
  · cases h; exact .quiet rfl rfl List.prefix_rfl (.same rfl) nofun

theorem Eff.quiet' {r r' : List Entry} {s s' : Iothr σ} (h1 : s'.queues = s.queues)
    (h2 : ∃ x, s'.log = s.log ++ x ∧ submits x = [] ∧ handed x = []) (h3 : s'.outq = s.outq)
    (h4 : s'.pc = s.pc) (h5 : ∀ e ∈ r', e ∈ r) : Eff r r' s s' := by
  obtain ⟨x, hx, hs, hh⟩ := h2
  refine .quiet h1 (by rw [hx, submits_append, hs, List.append_nil]) ?_ (.same (by rw [h4])) h5
  unfold taken
  rw [hx, handed_append, hh, List.append_nil, h3]
  exact List.prefix_rfl

theorem step_eff {s s' : Iothr σ} {a : IoAct} (h : s.step a = .ok s') : Eff [] [] s s' := by
  have refl : ∀ s : Iothr σ, Eff [] [] s s := fun s => .quiet' rfl ⟨[], by simp, rfl, rfl⟩ rfl rfl nofun
  cases a with
  | submit t q data f =>
    simp only [step, submitCheck] at h
    split at h
    · cases h
    · split at h
      · cases h; exact refl _
      · split at h
        · cases h; exact .quiet' rfl ⟨_, rfl, rfl, rfl⟩ rfl rfl nofun
        · split at h
          · cases h; exact .quiet' rfl ⟨_, rfl, rfl, rfl⟩ rfl rfl nofun
          · split at h
            · cases h; exact .quiet' rfl ⟨_, rfl, rfl, rfl⟩ rfl rfl nofun
            · cases h; exact .quiet' rfl ⟨[], by simp, rfl, rfl⟩ rfl rfl nofun
  | insert t =>
    simp only [step, submitInsert] at h
    split at h
    · cases h; exact refl _
    · rename_i e hp
      split at h
      · cases h
      · split at h
        · cases h; exact .quiet' rfl ⟨[], by simp, rfl, rfl⟩ rfl rfl nofun
        · rename_i q hq
          split at h
          · rename_i hl
            split at h
            · cases h
              obtain ⟨wk, hwk⟩ := signal_eq (emit (emit { s with
                pending := fun t' => if t' = t then none else s.pending t'
                queues := s.queues.set e.queue (q ++ [e]) } (.submitted e)) .signal)
              rw [hwk]
              exact .insert e q [.signal] hq hl rfl (by simp [emit]) rfl rfl rfl rfl nofun
            · cases h
              exact .insert e q [] hq hl rfl (by simp [emit]) rfl rfl rfl rfl nofun
          · cases h; exact .quiet' rfl ⟨_, rfl, rfl, rfl⟩ rfl rfl nofun
  | getQueue =>
    simp only [step, getQueue] at h
    split at h
    · cases h
    · split at h
      · cases h; exact .quiet' rfl ⟨_, rfl, rfl, rfl⟩ rfl rfl nofun
      · cases h; exact .quiet' rfl ⟨_, rfl, rfl, rfl⟩ rfl rfl nofun
  | io now wake => exact ioStep_eff h
  | shutdown =>
    simp only [step, shutdown] at h
    split at h
    · cases h; exact refl _
    · cases h
      obtain ⟨wk, hwk⟩ := signal_eq ({ s with shutting := true }.emit .shutdown)
      rw [hwk]
      exact .quiet' rfl ⟨_, rfl, rfl, rfl⟩ rfl rfl nofun
  | finish =>
    simp only [step, finish] at h
    split at h
    · obtain ⟨⟨r, rdwr⟩, h1, h⟩ := Exec.bind_eq_ok.1 h
      cases h
      rw [freeAll_eq]
      refine .finish ?_ ?_ ?_
      · intro q
        simp only [waiting, emit, List.getElem?_map]
        cases s.queues[q]? <;> rfl
      · simp [emit, submits_append, submits, submits_freeEvs]
      · simp [taken, emit, handed_append, handed, handed_freeEvs]
    · cases h; exact refl _

/-- Between the last look at queue `q` and the next one, queue `q'` has not yet been looked at. -/
def Fresh (q' q c : Nat) : Prop := if q' < q then ¬ (q' < c ∧ c ≤ q) else q < c ∧ c ≤ q'

/-- Payloads of `q'` among `v` that are no longer waiting. -/
def gone (s : Iothr σ) (q' : Nat) (v : List Entry) : Nat :=
  ((onQueue q' v).filter (· ∉ s.waiting q')).length

/-- Nobody is overtaken too often; `r`: the payloads inserted since the current look at a queue
began. -/
def Fair (r : List Entry) (s : Iothr σ) : Prop :=
  ∀ (e : Entry) (u v : List Entry) (q' : Nat), submits s.log = u ++ e :: v → q' ≠ e.queue →
    ∃ p, p ≤ ahead s.log e ∧ p + 2 ≤ s.opt.inputQueueSize ∧
    (∀ l1 l2, s.waiting e.queue = l1 ++ e :: l2 →
      s.gone q' v + l1.length ≤ p + 1 ∧
      (Fresh q' e.queue (cursor s.pc) ∨ e ∈ r → s.gone q' v + l1.length ≤ p)) ∧
    (∀ a b, s.taken = a ++ e :: b → ((onQueue q' a).filter (· ∈ v)).length ≤ p + 1)

theorem InvA.taken_nodup {s : Iothr σ} (h : InvA s) : s.taken.Nodup := by
  refine nodup_iff_count.2 fun e => ?_
  have h1 := h.held e
  have h2 := count_le_one h.ids e
  unfold taken
  rw [List.count_append]
  omega

theorem mem_waiting {s : Iothr σ} {q : Nat} {e : Entry} (h : e ∈ s.waiting q) :
    ∃ l, s.queues[q]? = some l ∧ e ∈ l ∧ e ∈ s.queues.flatten := by
  unfold waiting at h
  cases hq : s.queues[q]? with
  | none => rw [hq] at h; cases h
  | some l =>
    rw [hq] at h
    exact ⟨l, rfl, h, List.mem_flatten.2 ⟨l, List.mem_of_getElem? hq, h⟩⟩

theorem InvA.taken_not_waiting {s : Iothr σ} (h : InvA s) {e : Entry} (he : e ∈ s.taken) (q : Nat) :
    e ∉ s.waiting q := by
  intro hw
  obtain ⟨_, _, _, hf⟩ := mem_waiting hw
  have h1 := h.held e
  have h2 := count_le_one h.ids e
  have h3 := List.count_pos_iff.2 hf
  have h4 := List.count_pos_iff.2 he
  unfold taken at h4
  rw [List.count_append] at h4
  omega

theorem InvA.taken_submitted {s : Iothr σ} (h : InvA s) {e : Entry} (he : e ∈ s.taken) :
    e ∈ submits s.log := by
  have h1 := h.held e
  have h4 := List.count_pos_iff.2 he
  unfold taken at h4
  rw [List.count_append] at h4
  exact List.count_pos_iff.1 (by omega)

/-- Moving the cursor. -/
theorem Fair.move {r r' : List Entry} {s s' : Iothr σ} {q' : Nat} {e : Entry}
    (hm : Moves r s (cursor s'.pc)) (hr : ∀ e ∈ r', e ∈ r) (hq : e.queue < s.opt.numInputQueues)
    (hw : e ∈ s.waiting e.queue) (N p : Nat)
    (h1 : N ≤ p + 1 ∧ (Fresh q' e.queue (cursor s.pc) ∨ e ∈ r → N ≤ p)) :
    N ≤ p + 1 ∧ (Fresh q' e.queue (cursor s'.pc) ∨ e ∈ r' → N ≤ p) := by
  refine ⟨h1.1, fun hf => ?_⟩
  rcases hf with hf | hf
  · by_cases her : e ∈ r
    · exact h1.2 (Or.inr her)
    refine h1.2 (Or.inl ?_)
    unfold Fresh at hf ⊢
    cases hm with
    | same h => rwa [h] at hf
    | wrap h h' => rw [h'] at hf; split <;> simp_all <;> omega
    | skip h h' =>
      rw [h'] at hf
      have : cursor s.pc ≠ e.queue := fun hc => her (h e (hc ▸ hw))
      split <;> simp_all <;> omega
  · exact h1.2 (Or.inr (hr e hf))

theorem waiting_set {s s' : Iothr σ} {i : Nat} {l r : List Entry} (h : s.queues[i]? = some l)
    (h' : s'.queues = s.queues.set i r) (q : Nat) :
    s'.waiting q = if i = q then r else s.waiting q := by
  have hi : i < s.queues.length := (List.getElem?_eq_some_iff.1 h).1
  unfold waiting
  rw [h', List.getElem?_set]
  split
  · simp
  · rfl

theorem Fair.step {r r' : List Entry} {s s' : Iothr σ} (hA : InvA s) (hA' : InvA s')
    (hopt : s'.opt = s.opt) (hlog : ∃ x, s'.log = s.log ++ x) (hE : Eff r r' s s') (hf : Fair r s) :
    Fair r' s' := by
  obtain ⟨x, hx⟩ := hlog
  -- how the second part is inherited
  have inh : ∀ {e : Entry} {v : List Entry} {q' p : Nat} {t a b : List Entry},
      (∀ a b, s.taken = a ++ e :: b → ((onQueue q' a).filter (· ∈ v)).length ≤ p + 1) →
      t <+: s.taken → t = a ++ e :: b → ((onQueue q' a).filter (· ∈ v)).length ≤ p + 1 := by
    intro e v q' p t a b hb ht hab
    obtain ⟨r, hr⟩ := ht
    exact hb a (b ++ r) (by rw [← hr, hab]; simp)
  have qlt : ∀ {e : Entry} {l1 l2 : List Entry}, s.waiting e.queue = l1 ++ e :: l2 →
      e.queue < s.opt.numInputQueues ∧ e ∈ s.waiting e.queue := by
    intro e l1 l2 hw
    obtain ⟨l, hl, _⟩ := mem_waiting (s := s) (q := e.queue) (e := e) (by rw [hw]; simp)
    exact ⟨hA.qlen ▸ (List.getElem?_eq_some_iff.1 hl).1, by rw [hw]; simp⟩
  intro e u v q' hs hne
  have nodup : (submits s'.log).Nodup := nodup_iff_count.2 (count_le_one hA'.ids)
  have vnodup : v.Nodup := by
    rw [hs] at nodup
    exact (List.nodup_cons.1 (List.nodup_append.1 nodup).2.1).2
  cases hE with
  | quiet hq hsub ht hm hr =>
    rw [hsub] at hs
    obtain ⟨p, h1, h2, h3, h4⟩ := hf e u v q' hs hne
    refine ⟨p, by rw [hx, ahead_append x (by rw [hs]; simp)]; exact h1, by rw [hopt]; exact h2, ?_, ?_⟩
    · intro l1 l2 hw
      have hwe : ∀ q, s'.waiting q = s.waiting q := by intro q; unfold waiting; rw [hq]
      rw [hwe] at hw
      have hg : s'.gone q' v = s.gone q' v := by unfold gone; rw [hwe]
      rw [hg]
      exact Fair.move hm hr (qlt hw).1 (qlt hw).2 _ p (h3 l1 l2 hw)
    · intro a b hab
      exact inh h4 ht hab
  | finish hw hsub ht =>
    rw [hsub] at hs
    obtain ⟨p, h1, h2, h3, h4⟩ := hf e u v q' hs hne
    refine ⟨p, by rw [hx, ahead_append x (by rw [hs]; simp)]; exact h1, by rw [hopt]; exact h2, ?_, ?_⟩
    · intro l1 l2 hh
      rw [hw] at hh
      simp at hh
    · intro a b hab
      exact inh h4 ht hab
  | take e' rest hq hqs hsub hcur ht hr =>
    subst hr
    rw [hsub] at hs
    obtain ⟨p, h1, h2, h3, h4⟩ := hf e u v q' hs hne
    have hwe := waiting_set hq hqs
    have hwc : s.waiting (cursor s.pc) = e' :: rest := by unfold waiting; rw [hq]; rfl
    refine ⟨p, by rw [hx, ahead_append x (by rw [hs]; simp)]; exact h1, by rw [hopt]; exact h2, ?_, ?_⟩
    · intro l1 l2 hw
      by_cases hc : cursor s.pc = e.queue
      · -- its own queue: one less in front
        have hg : s'.gone q' v = s.gone q' v := by
          unfold gone; rw [hwe, if_neg (by omega)]
        rw [hwe, if_pos hc] at hw
        have := (h3 (e' :: l1) l2 (by rw [← hc, hwc, hw]; rfl)).1
        simp only [List.length_cons] at this
        rw [hg]
        exact ⟨by omega, fun _ => by omega⟩
      · rw [hwe, if_neg hc] at hw
        obtain ⟨g1, g2⟩ := h3 l1 l2 hw
        by_cases hc' : cursor s.pc = q'
        · have hfr : Fresh q' e.queue (cursor s.pc) := by
            unfold Fresh; rw [hc']; split <;> omega
          have g2 := g2 (Or.inl hfr)
          have hp := filter_pop (l := onQueue q' v) (vnodup.filter _) e' rest
          have hg : s'.gone q' v ≤ s.gone q' v + 1 := by
            unfold gone
            rw [hwe, if_pos hc', ← hc', hwc, hc']
            exact hp
          refine ⟨by omega, fun hf' => ?_⟩
          replace hf' := hf'.resolve_right nofun
          rw [hcur, hc'] at hf'
          unfold Fresh at hf'
          split at hf' <;> omega
        · have hg : s'.gone q' v = s.gone q' v := by
            unfold gone; rw [hwe, if_neg hc']
          rw [hg]
          refine ⟨g1, fun hf' => g2 (Or.inl ?_)⟩
          replace hf' := hf'.resolve_right nofun
          rw [hcur] at hf'
          unfold Fresh at hf' ⊢
          split <;> simp_all <;> omega
    · intro a b hab
      rcases ht with ht | ⟨t, ht, hte⟩
      · exact inh h4 ht hab
      · rw [hte] at hab
        rcases split_snoc hab with ⟨rfl, rfl, rfl⟩ | ⟨b', _, hb'⟩
        · -- the entry taken is `e`
          have hqe : e.queue = cursor s.pc := hA.qid _ _ hq e (by simp)
          have := (h3 [] rest (by rw [hqe, hwc]; rfl)).1
          refine Nat.le_trans ?_ (Nat.le_trans (Nat.le_add_right _ _) this)
          unfold gone
          refine length_le_of_subset ?_ ?_
          · have := hA.taken_nodup
            exact ((this.sublist ht.sublist).filter _).filter _
          · intro y hy
            simp only [onQueue, List.mem_filter, decide_eq_true_eq] at hy ⊢
            refine ⟨⟨hy.2, hy.1.2⟩, ?_⟩
            exact hA.taken_not_waiting (ht.subset hy.1.1) q'
        · exact inh h4 ht hb'
  | insert e' q sig hq hl hqs hlog hsig hsigh hout hpc hr =>
    have hsub : submits s'.log = submits s.log ++ [e'] := by
      rw [hlog, submits_append]; simp [submits, hsig]
    have htk : s'.taken = s.taken := by
      unfold taken; rw [hlog, handed_append]; simp [handed, hsigh, hout]
    have hnew : e' ∉ submits s.log := by
      rw [hsub] at nodup
      intro hm
      exact (List.nodup_append.1 nodup).2.2 e' hm e' (by simp) rfl
    have hwe := waiting_set hq hqs
    have hwq : s.waiting e'.queue = q := by unfold waiting; rw [hq]; rfl
    rw [hsub] at hs
    rcases split_snoc hs with ⟨rfl, rfl, rfl⟩ | ⟨v', rfl, hs'⟩
    · -- `e` has just been submitted
      refine ⟨q.length, ?_, by rw [hopt]; omega, ?_, ?_⟩
      · rw [hlog]
        unfold ahead
        rw [beforeSubmit_new sig hnew]
        have hqn : q.Nodup := nodup_iff_count.2 fun y => by
          have h1 := hA.held y
          have h2 := count_le_one hA.ids y
          have h3 : q.count y ≤ s.queues.flatten.count y := by
            have : q.Sublist s.queues.flatten := List.sublist_flatten_of_mem (List.mem_of_getElem? hq)
            exact this.count_le _
          omega
        refine length_le_of_subset hqn ?_
        intro y hy
        have hyf : y ∈ s.queues.flatten := List.mem_flatten.2 ⟨q, List.mem_of_getElem? hq, hy⟩
        have hyw : y ∈ s.waiting e.queue := by rw [hwq]; exact hy
        simp only [onQueue, List.mem_filter, decide_eq_true_eq]
        refine ⟨⟨hA.mem_queues hyf, hA.qid _ _ hq y hy⟩, ?_, ?_⟩
        · intro hh
          exact hA.taken_not_waiting (by unfold taken; exact List.mem_append_left _ hh) _ hyw
        · intro hh
          have h1 := hA.cons y (hA.free y hh)
          have h2 := count_le_one hA.ids y
          have h3 := List.count_pos_iff.2 hyf
          have h4 := List.count_pos_iff.2 hh
          omega
      · intro l1 l2 hw
        rw [hwe, if_pos rfl] at hw
        have hl1 : l1.length ≤ q.length := by
          have := congrArg List.length hw
          simp at this
          omega
        have : s'.gone q' [] = 0 := by simp [gone, onQueue]
        rw [this]
        exact ⟨by omega, fun _ => by omega⟩
      · intro a b hab
        rw [htk] at hab
        exact absurd (hA.taken_submitted (e := e) (by rw [hab]; simp)) hnew
    · obtain ⟨p, h1, h2, h3, h4⟩ := hf e u v' q' hs' hne
      have hee : e ≠ e' := fun he => hnew (by rw [hs', ← he]; simp)
      refine ⟨p, by rw [hx, ahead_append x (by rw [hs']; simp)]; exact h1, by rw [hopt]; exact h2, ?_, ?_⟩
      · intro l1 l2 hw
        have hg : s'.gone q' (v' ++ [e']) = s.gone q' v' := by
          unfold gone
          rw [onQueue_append, List.filter_append, onQueue_single]
          have hnil : (if e'.queue = q' then [e'] else []).filter (· ∉ s'.waiting q') = [] := by
            split
            · rename_i hq'
              rw [hwe, if_pos hq']
              simp
            · rfl
          rw [hnil, List.append_nil]
          congr 1
          refine List.filter_congr fun y hy => ?_
          have hy' : y ∈ v' := (List.mem_filter.1 hy).1
          have : y ≠ e' := fun h => hnew (by rw [hs', ← h]; simp [hy'])
          rw [hwe]
          split
          · rename_i hq'
            rw [← hq', hwq]; simp [this]
          · rfl
        rw [hg, hpc]
        have weak : ∀ {N}, (N ≤ p + 1 ∧ (Fresh q' e.queue (cursor s.pc) ∨ e ∈ r → N ≤ p)) →
            N ≤ p + 1 ∧ (Fresh q' e.queue (cursor s.pc) ∨ e ∈ r' → N ≤ p) := fun h =>
          ⟨h.1, fun hf => h.2 (hf.imp_right fun h => (hr e h).resolve_left hee)⟩
        refine weak ?_
        rw [hwe] at hw
        split at hw
        · rename_i hq'
          rcases split_snoc hw with ⟨rfl, _⟩ | ⟨l2', rfl, hw'⟩
          · exact absurd rfl hee
          · exact h3 l1 l2' (by rw [← hq', hwq]; exact hw')
        · exact h3 l1 l2 hw
      · intro a b hab
        rw [htk] at hab
        have := h4 a b hab
        have heq : (onQueue q' a).filter (· ∈ v' ++ [e']) = (onQueue q' a).filter (· ∈ v') := by
          refine List.filter_congr fun y hy => ?_
          have hy' : y ∈ a := (List.mem_filter.1 hy).1
          have : y ≠ e' := fun h => hnew (h ▸ hA.taken_submitted (by rw [hab]; simp [hy']))
          simp [this]
        rw [heq]
        exact this

end Iothr
end Fstrm
