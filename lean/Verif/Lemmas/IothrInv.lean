import Verif.Lemmas.Iothr

/-!
# Invariants of the I/O thread model: what happens to payloads
-/

set_option autoImplicit false

namespace Fstrm

theorem submits_append (a b : List IoEv) : submits (a ++ b) = submits a ++ submits b := by
  induction a with
  | nil => rfl
  | cons e a ih => cases e <;> simp [submits, ih]

theorem handed_append (a b : List IoEv) : handed (a ++ b) = handed a ++ handed b := by
  induction a with
  | nil => rfl
  | cons e a ih => cases e <;> simp [handed, ih]

theorem frees_append (a b : List IoEv) : frees (a ++ b) = frees a ++ frees b := by
  induction a with
  | nil => rfl
  | cons e a ih => cases e <;> simp [frees, ih]

theorem refusals_append (a b : List IoEv) : refusals (a ++ b) = refusals a ++ refusals b := by
  induction a with
  | nil => rfl
  | cons e a ih => cases e <;> simp [refusals, ih]

theorem calls_append (a b : List IoEv) : calls (a ++ b) = calls a ++ calls b := by
  induction a with
  | nil => rfl
  | cons e a ih => cases e <;> simp [calls, ih]

theorem attempts_append (a b : List IoEv) : attempts (a ++ b) = attempts a ++ attempts b := by
  induction a with
  | nil => rfl
  | cons e a ih => cases e <;> simp [attempts, ih]

theorem gotQueues_append (a b : List IoEv) : gotQueues (a ++ b) = gotQueues a ++ gotQueues b := by
  induction a with
  | nil => rfl
  | cons e a ih => cases e <;> simp [gotQueues, ih]

theorem outputOpen_append (x : Bool) (a b : List IoEv) :
    outputOpen x (a ++ b) = outputOpen (outputOpen x a) b := by
  induction a generalizing x with
  | nil => rfl
  | cons e a ih => cases e <;> simp [outputOpen, ih]

theorem onQueue_append (q : Nat) (a b : List Entry) : onQueue q (a ++ b) = onQueue q a ++ onQueue q b := by
  simp [onQueue]

theorem each_append {C : List IoEv → IoEv → Prop} {a b : List IoEv} (ha : Each C a)
    (hb : ∀ l e rest, b = l ++ e :: rest → C (a ++ l) e) : Each C (a ++ b) := by
  intro l e rest h
  rcases List.append_eq_append_iff.1 h with ⟨m, h1, h2⟩ | ⟨m, h1, h2⟩
  · rw [h1]; exact hb m e rest h2
  · cases m with
    | nil =>
      simp only [List.append_nil] at h1
      rw [← h1]
      have := hb [] e rest (by simpa using h2.symm)
      simpa using this
    | cons x m =>
      simp only [List.cons_append, List.cons.injEq] at h2
      obtain ⟨rfl, h2⟩ := h2
      exact ha l e m h1

theorem each_single {C : List IoEv → IoEv → Prop} {a : List IoEv} {x : IoEv} (ha : Each C a)
    (hx : C a x) : Each C (a ++ [x]) := by
  refine each_append ha ?_
  intro l e rest h
  cases l with
  | nil => simp only [List.nil_append, List.cons.injEq] at h; obtain ⟨rfl, _⟩ := h; simpa using hx
  | cons y l => simp at h

theorem each_prefix {C : List IoEv → IoEv → Prop} {a b : List IoEv} (h : Each C (a ++ b)) :
    Each C a := by
  intro l e rest ha
  exact h l e (rest ++ b) (by rw [ha]; simp)

namespace Iothr

variable {σ : Type}

section freeEvs
variable (es : List Entry)

theorem submits_freeEvs : submits (freeEvs es) = [] := by
  unfold freeEvs
  induction es.filter (·.hasFree) with
  | nil => rfl
  | cons e l ih => simp [submits, ih]

theorem handed_freeEvs : handed (freeEvs es) = [] := by
  unfold freeEvs
  induction es.filter (·.hasFree) with
  | nil => rfl
  | cons e l ih => simp [handed, ih]

theorem refusals_freeEvs : refusals (freeEvs es) = [] := by
  unfold freeEvs
  induction es.filter (·.hasFree) with
  | nil => rfl
  | cons e l ih => simp [refusals, ih]

theorem calls_freeEvs : calls (freeEvs es) = [] := by
  unfold freeEvs
  induction es.filter (·.hasFree) with
  | nil => rfl
  | cons e l ih => simp [calls, ih]

theorem attempts_freeEvs : attempts (freeEvs es) = [] := by
  unfold freeEvs
  induction es.filter (·.hasFree) with
  | nil => rfl
  | cons e l ih => simp [attempts, ih]

theorem gotQueues_freeEvs : gotQueues (freeEvs es) = [] := by
  unfold freeEvs
  induction es.filter (·.hasFree) with
  | nil => rfl
  | cons e l ih => simp [gotQueues, ih]

theorem outputOpen_freeEvs (b : Bool) : outputOpen b (freeEvs es) = b := by
  unfold freeEvs
  induction es.filter (·.hasFree) with
  | nil => rfl
  | cons e l ih => simp [outputOpen, ih]

theorem frees_freeEvs : frees (freeEvs es) = es.filter (·.hasFree) := by
  unfold freeEvs
  induction es.filter (·.hasFree) with
  | nil => rfl
  | cons e l ih => simp [frees, ih]

end freeEvs

theorem mem_freeEvs {es : List Entry} {x : IoEv} (h : x ∈ freeEvs es) :
    ∃ e ∈ es, e.hasFree = true ∧ x = .freed e := by
  unfold freeEvs at h
  obtain ⟨e, he, rfl⟩ := List.mem_map.1 h
  rw [List.mem_filter] at he
  exact ⟨e, he.1, he.2, rfl⟩

theorem count_filter_free (e : Entry) (l : List Entry) :
    (l.filter (·.hasFree)).count e = if e.hasFree = true then l.count e else 0 := by
  split
  · rename_i h; exact List.count_filter (p := Entry.hasFree) h
  · rename_i h
    rw [List.count_eq_zero]
    intro hm
    rw [List.mem_filter] at hm
    exact h hm.2

theorem count_set {qs : List (List Entry)} {i : Nat} {q : List Entry} (q' : List Entry)
    (h : qs[i]? = some q) (e : Entry) :
    (qs.set i q').flatten.count e + q.count e = qs.flatten.count e + q'.count e := by
  induction qs generalizing i with
  | nil => simp at h
  | cons x qs ih =>
    cases i with
    | zero =>
      simp only [List.getElem?_cons_zero, Option.some.injEq] at h
      subst h
      simp only [List.set_cons_zero, List.flatten_cons, List.count_append]
      omega
    | succ i =>
      simp only [List.getElem?_cons_succ] at h
      have := ih h
      simp only [List.set_cons_succ, List.flatten_cons, List.count_append]
      omega

/-- What becomes of payloads. -/
structure InvA (s : Iothr σ) : Prop where
  qlen : s.queues.length = s.opt.numInputQueues
  qid : ∀ (i : Nat) (q : List Entry), s.queues[i]? = some q → ∀ e ∈ q, e.queue = i
  ids : ((submits s.log).map Entry.id).Nodup
  lt : ∀ e ∈ submits s.log, e.id < s.nextId
  plt : ∀ t e, s.pending t = some e → e.id < s.nextId ∧ e.queue < s.queues.length ∧
    e.id ∉ (submits s.log).map Entry.id ∧ e.id ∉ refusals s.log
  pinj : ∀ t t' e e', s.pending t = some e → s.pending t' = some e' → e.id = e'.id → t = t'
  ref : ∀ id ∈ refusals s.log, id < s.nextId ∧ id ∉ (submits s.log).map Entry.id
  free : ∀ e ∈ frees s.log, e.hasFree = true
  cons : ∀ e : Entry, e.hasFree = true →
    (frees s.log).count e + s.outq.count e + s.queues.flatten.count e = (submits s.log).count e
  held : ∀ e : Entry, (handed s.log).count e + s.outq.count e + s.queues.flatten.count e ≤
    (submits s.log).count e
  ord : Each Orderly s.log
  exit : s.pc = .exited → s.outq = []
  start : s.pc = .start → s.outq = []
  dest : s.destroyed = true → s.pc = .exited ∧ s.queues.flatten = []

theorem nodup_iff_count {α : Type} [BEq α] [LawfulBEq α] {l : List α} :
    l.Nodup ↔ ∀ a, l.count a ≤ 1 := by
  induction l with
  | nil => simp
  | cons x l ih =>
    rw [List.nodup_cons, ih]
    constructor
    · rintro ⟨h1, h2⟩ a
      rw [List.count_cons]
      split
      · rename_i hx
        have hx := eq_of_beq hx
        subst hx
        have := List.count_eq_zero.2 h1
        omega
      · exact h2 a
    · intro h
      refine ⟨?_, ?_⟩
      · have := h x
        rw [List.count_cons_self] at this
        exact List.count_eq_zero.1 (by omega)
      · intro a
        have := h a
        rw [List.count_cons] at this
        omega

theorem nodup_of_map {l : List Entry} (h : (l.map Entry.id).Nodup) : l.Nodup := by
  induction l with
  | nil => simp
  | cons e l ih =>
    rw [List.map_cons, List.nodup_cons] at h
    rw [List.nodup_cons]
    exact ⟨fun hm => h.1 (List.mem_map_of_mem hm), ih h.2⟩

theorem count_le_one {l : List Entry} (h : (l.map Entry.id).Nodup) (e : Entry) : l.count e ≤ 1 :=
  nodup_iff_count.1 (nodup_of_map h) e

theorem InvA.init (opt : IothrOptions) (w : Writer σ) : InvA (Iothr.init opt w) := by
  constructor
  · simp [Iothr.init]
  · intro i q h e he
    have := List.mem_of_getElem? h
    simp only [Iothr.init, List.mem_replicate] at this
    rw [this.2] at he; cases he
  · simp [Iothr.init, submits]
  · simp [Iothr.init, submits]
  · intro t e h; simp [Iothr.init] at h
  · intro t t' e e' h; simp [Iothr.init] at h
  · simp [Iothr.init, refusals]
  · simp [Iothr.init, frees]
  · intro e _; simp [Iothr.init, frees, submits]
  · intro e; simp [Iothr.init, submits, handed]
  · intro l e rest h; simp [Iothr.init] at h
  · intro _; rfl
  · intro _; rfl
  · intro h; simp [Iothr.init] at h

theorem orderly_frees {log : List IoEv} {es : List Entry}
    (hmem : ∀ e ∈ es, e ∈ submits log) (hc : ∀ e ∈ es, e.hasFree = true →
      (frees log).count e + es.count e ≤ 1) :
    ∀ l e rest, freeEvs es = l ++ e :: rest → Orderly (log ++ l) e := by
  intro l x rest h
  have hx : x ∈ freeEvs es := by rw [h]; simp
  obtain ⟨e, he, hf, rfl⟩ := mem_freeEvs hx
  have h2 : frees (freeEvs es) = frees l ++ e :: frees rest := by
    rw [h, frees_append]; rfl
  rw [frees_freeEvs] at h2
  have h3 := congrArg (List.count e) h2
  rw [count_filter_free, if_pos hf] at h3
  have := hc e he hf
  simp only [List.count_append, List.count_cons_self] at h3
  refine ⟨?_, ?_, hf⟩
  · rw [submits_append]; exact List.mem_append_left _ (hmem e he)
  · rw [frees_append, ← List.count_eq_zero, List.count_append]; omega

theorem orderly_write {log : List IoEv} {es : List Entry} (r : Res)
    (hmem : ∀ e ∈ es, e ∈ submits log)
    (hn : ((submits log).map Entry.id).Nodup)
    (hfree : ∀ e ∈ frees log, e.hasFree = true)
    (hc : ∀ e : Entry, e.hasFree = true → (frees log).count e + es.count e ≤ (submits log).count e)
    (hh : ∀ e : Entry, (handed log).count e + es.count e ≤ (submits log).count e) :
    Orderly log (.write es r) := by
  refine ⟨?_, ?_⟩
  · rw [nodup_iff_count]
    intro e
    have := hh e
    have := count_le_one hn e
    omega
  intro e he
  have h1 := count_le_one hn e
  have h2 := List.count_pos_iff.2 he
  have h4 := hh e
  refine ⟨hmem e he, ?_, ?_⟩
  · intro hf
    have h3 := hc e (hfree e hf)
    have h5 := List.count_pos_iff.2 hf
    omega
  · rw [← List.count_eq_zero]; omega

theorem orderly_trivial {x : IoEv} (l : List IoEv) (h1 : ∀ e, x ≠ .freed e) (h2 : ∀ es r, x ≠ .write es r)
    (h3 : ∀ e, x ≠ .submitted e) : Orderly l x := by
  cases x <;> first | trivial | exact absurd rfl (h1 _) | exact absurd rfl (h2 _ _) | exact absurd rfl (h3 _)

theorem InvA.mem_outq {s : Iothr σ} (h : InvA s) {e : Entry} (he : e ∈ s.outq) :
    e ∈ submits s.log := by
  have h1 := List.count_pos_iff.2 he
  have h2 := h.held e
  exact List.count_pos_iff.1 (by omega)

theorem InvA.mem_queues {s : Iothr σ} (h : InvA s) {e : Entry} (he : e ∈ s.queues.flatten) :
    e ∈ submits s.log := by
  have h1 := List.count_pos_iff.2 he
  have h2 := h.held e
  exact List.count_pos_iff.1 (by omega)

theorem getElem?_set_cases {qs : List (List Entry)} {i j : Nat} {q q' : List Entry}
    (h : (qs.set i q)[j]? = some q') : (j = i ∧ q' = q) ∨ (j ≠ i ∧ qs[j]? = some q') := by
  rw [List.getElem?_set] at h
  split at h
  · rename_i hij
    split at h
    · cases h; exact Or.inl ⟨hij.symm, rfl⟩
    · cases h
  · rename_i hij
    exact Or.inr ⟨fun h => hij h.symm, h⟩

set_option maxHeartbeats 1000000 in
theorem InvA.tr {s s' : Iothr σ} (h : InvA s) (t : Tr s s') : InvA s' := by
  have hone := count_le_one h.ids
  cases t with
  | refused r hd =>
    refine { h with ids := ?_, lt := ?_, plt := ?_, ref := ?_, free := ?_, cons := ?_, held := ?_, ord := ?_ } <;>
      simp only [submits_append, submits, frees_append, frees, handed_append, handed,
        refusals_append, refusals, List.append_nil]
    · exact h.ids
    · intro e he; have := h.lt e he; omega
    · intro t e hp
      obtain ⟨a, b, c, d⟩ := h.plt t e hp
      refine ⟨by omega, b, c, ?_⟩
      rw [List.mem_append, not_or]
      refine ⟨d, ?_⟩
      simp only [List.mem_singleton]; omega
    · intro id hid
      rw [List.mem_append] at hid
      rcases hid with hid | hid
      · obtain ⟨a, b⟩ := h.ref id hid; exact ⟨by omega, b⟩
      · simp only [List.mem_singleton] at hid
        subst hid
        refine ⟨by omega, ?_⟩
        intro hm
        obtain ⟨e, he, h1⟩ := List.mem_map.1 hm
        have := h.lt e he; omega
    · exact h.free
    · exact h.cons
    · exact h.held
    · exact each_single h.ord trivial
  | began t q d f hd hp hq hs h1 h2 =>
    refine { h with lt := ?_, plt := ?_, pinj := ?_, ref := ?_ }
    · intro e he; have := h.lt e he; simp only; omega
    · intro t' e
      simp only
      split
      · intro hpe
        cases hpe
        refine ⟨by simp only; omega, hq, ?_, ?_⟩
        · intro hm
          obtain ⟨e, he, h1⟩ := List.mem_map.1 hm
          have := h.lt e he
          simp only at h1; omega
        · intro hm
          have := (h.ref _ hm).1
          simp only at this; omega
      · intro hpe
        obtain ⟨a, b, c, d⟩ := h.plt t' e hpe
        exact ⟨by omega, b, c, d⟩
    · intro t1 t2 e e'
      simp only
      split
      · rename_i h3
        split
        · intro _ _ _; omega
        · intro ha hb hc
          cases ha
          have := (h.plt t2 e' hb).1
          simp only at hc; omega
      · split
        · intro ha hb hc
          cases hb
          have := (h.plt t1 e ha).1
          simp only at hc; omega
        · exact h.pinj t1 t2 e e'
    · intro id hid
      obtain ⟨a, b⟩ := h.ref id hid
      exact ⟨by simp only; omega, b⟩
  | full t e hd hp =>
    obtain ⟨pa, pb, pc, pd⟩ := h.plt t e hp
    refine { h with ids := ?_, lt := ?_, plt := ?_, pinj := ?_, ref := ?_, free := ?_, cons := ?_, held := ?_, ord := ?_ } <;>
      simp only [submits_append, submits, frees_append, frees, handed_append, handed,
        refusals_append, refusals, List.append_nil]
    · exact h.ids
    · exact h.lt
    · intro t' e'
      split
      · intro h; cases h
      · rename_i hne
        intro hp'
        obtain ⟨a, b, c, d⟩ := h.plt t' e' hp'
        refine ⟨a, b, c, ?_⟩
        rw [List.mem_append, not_or]
        refine ⟨d, ?_⟩
        simp only [List.mem_singleton]
        intro heq
        exact hne (h.pinj t' t e' e hp' hp heq)
    · intro t1 t2 e1 e2
      split
      · intro h; cases h
      · split
        · intro _ h; cases h
        · exact h.pinj t1 t2 e1 e2
    · intro id hid
      rw [List.mem_append] at hid
      rcases hid with hid | hid
      · exact h.ref id hid
      · simp only [List.mem_singleton] at hid
        subst hid
        exact ⟨pa, pc⟩
    · exact h.free
    · exact h.cons
    · exact h.held
    · exact each_single h.ord trivial
  | lost t e hd hp hq =>
    refine { h with plt := ?_, pinj := ?_ } <;> simp only
    · intro t' e'
      split
      · intro h; cases h
      · exact h.plt t' e'
    · intro t1 t2 e1 e2
      split
      · intro h; cases h
      · split
        · intro _ h; cases h
        · exact h.pinj t1 t2 e1 e2
  | inserted t e q wk sig hd hp hq hl hsig =>
    obtain ⟨pa, pb, pc, pd⟩ := h.plt t e hp
    have hnew : e ∉ submits s.log := fun hm => pc (List.mem_map_of_mem hm)
    have hc0 : ∀ e', (submits [IoEv.submitted e]).count e' = [e].count e' := fun _ => rfl
    have hsg : submits sig = [] ∧ frees sig = [] ∧ handed sig = [] ∧ refusals sig = [] := by
      rcases hsig with rfl | rfl <;> exact ⟨rfl, rfl, rfl, rfl⟩
    refine { h with qlen := ?_, qid := ?_, ids := ?_, lt := ?_, plt := ?_, pinj := ?_, ref := ?_, free := ?_, cons := ?_, held := ?_, ord := ?_, dest := ?_ } <;>
      simp only [submits_append, submits, frees_append, frees, handed_append, handed,
        refusals_append, refusals, List.append_nil, hsg]
    · rw [List.length_set]; exact h.qlen
    · intro i q' hi e' he'
      rcases getElem?_set_cases hi with ⟨rfl, rfl⟩ | ⟨_, hi⟩
      · rw [List.mem_append] at he'
        rcases he' with he' | he'
        · exact h.qid _ q hq e' he'
        · simp only [List.mem_singleton] at he'; rw [he']
      · exact h.qid i q' hi e' he'
    · rw [List.map_append, List.nodup_append]
      refine ⟨h.ids, by simp, ?_⟩
      intro a ha b hb
      simp only [List.map_cons, List.map_nil, List.mem_singleton] at hb
      subst hb
      intro heq
      exact pc (heq ▸ ha)
    · intro e' he'
      rw [List.mem_append] at he'
      rcases he' with he' | he'
      · exact h.lt e' he'
      · simp only [List.mem_singleton] at he'; subst he'; exact pa
    · intro t' e'
      split
      · intro h; cases h
      · rename_i hne
        intro hp'
        obtain ⟨a, b, c, d⟩ := h.plt t' e' hp'
        refine ⟨a, by rw [List.length_set]; exact b, ?_, d⟩
        rw [List.map_append, List.mem_append, not_or]
        refine ⟨c, ?_⟩
        simp only [List.map_cons, List.map_nil, List.mem_singleton]
        intro heq
        exact hne (h.pinj t' t e' e hp' hp heq)
    · intro t1 t2 e1 e2
      split
      · intro h; cases h
      · split
        · intro _ h; cases h
        · exact h.pinj t1 t2 e1 e2
    · intro id hid
      obtain ⟨a, b⟩ := h.ref id hid
      refine ⟨a, ?_⟩
      rw [List.map_append, List.mem_append, not_or]
      refine ⟨b, ?_⟩
      simp only [List.map_cons, List.map_nil, List.mem_singleton]
      intro heq
      exact pd (heq ▸ hid)
    · exact h.free
    · intro e' hf
      have h1 := h.cons e' hf
      have h2 := count_set (q ++ [e]) hq e'
      simp only [List.count_append] at h2 ⊢
      omega
    · intro e'
      have h1 := h.held e'
      have h2 := count_set (q ++ [e]) hq e'
      simp only [List.count_append] at h2 ⊢
      omega
    · have h1 : Each Orderly (s.log ++ [IoEv.submitted e]) := by
        refine each_single h.ord ?_
        intro e' he' heq
        exact pc (heq ▸ List.mem_map_of_mem he')
      rcases hsig with rfl | rfl
      · simpa using h1
      · exact each_single h1 trivial
    · intro hd'; simp only [hd] at hd'; cases hd'
  | signalled wk =>
    refine { h with ids := ?_, lt := ?_, plt := ?_, ref := ?_, free := ?_, cons := ?_, held := ?_, ord := ?_ } <;>
      simp only [submits_append, submits, frees_append, frees, handed_append, handed,
        refusals_append, refusals, List.append_nil]
    · exact h.ids
    · exact h.lt
    · exact h.plt
    · exact h.ref
    · exact h.free
    · exact h.cons
    · exact h.held
    · exact each_single h.ord trivial
  | gotSome hg =>
    refine { h with ids := ?_, lt := ?_, plt := ?_, ref := ?_, free := ?_, cons := ?_, held := ?_, ord := ?_ } <;>
      simp only [submits_append, submits, frees_append, frees, handed_append, handed,
        refusals_append, refusals, List.append_nil]
    · exact h.ids
    · exact h.lt
    · exact h.plt
    · exact h.ref
    · exact h.free
    · exact h.cons
    · exact h.held
    · exact each_single h.ord trivial
  | gotNone hg =>
    refine { h with ids := ?_, lt := ?_, plt := ?_, ref := ?_, free := ?_, cons := ?_, held := ?_, ord := ?_ } <;>
      simp only [submits_append, submits, frees_append, frees, handed_append, handed,
        refusals_append, refusals, List.append_nil]
    · exact h.ids
    · exact h.lt
    · exact h.plt
    · exact h.ref
    · exact h.free
    · exact h.cons
    · exact h.held
    · exact each_single h.ord trivial
  | shut wk hs =>
    refine { h with ids := ?_, lt := ?_, plt := ?_, ref := ?_, free := ?_, cons := ?_, held := ?_, ord := ?_ } <;>
      simp only [submits_append, submits, frees_append, frees, handed_append, handed,
        refusals_append, refusals, List.append_nil]
    · exact h.ids
    · exact h.lt
    · exact h.plt
    · exact h.ref
    · exact h.free
    · exact h.cons
    · exact h.held
    · exact each_single h.ord trivial
  | opn now r w hp ho hi hw =>
    refine { h with ids := ?_, lt := ?_, plt := ?_, ref := ?_, free := ?_, cons := ?_, held := ?_, ord := ?_ } <;>
      simp only [submits_append, submits, frees_append, frees, handed_append, handed,
        refusals_append, refusals, List.append_nil]
    · exact h.ids
    · exact h.lt
    · exact h.plt
    · exact h.ref
    · exact h.free
    · exact h.cons
    · exact h.held
    · exact each_single h.ord trivial
  | cls i r w hp hi hq ho hw =>
    refine { h with ids := ?_, lt := ?_, plt := ?_, ref := ?_, free := ?_, cons := ?_, held := ?_, ord := ?_ } <;>
      simp only [submits_append, submits, frees_append, frees, handed_append, handed,
        refusals_append, refusals, List.append_nil]
    · exact h.ids
    · exact h.lt
    · exact h.plt
    · exact h.ref
    · exact h.free
    · exact h.cons
    · exact h.held
    · exact each_single h.ord trivial
  | flushOk w hp hp' ho hne hw =>
    refine { h with ids := ?_, lt := ?_, plt := ?_, ref := ?_, free := ?_, cons := ?_, held := ?_, ord := ?_, exit := ?_, start := ?_ } <;>
      simp only [submits_append, submits, frees_append, frees, handed_append, handed,
        refusals_append, refusals, List.append_nil, submits_freeEvs, frees_freeEvs, handed_freeEvs,
        refusals_freeEvs]
    · exact h.ids
    · exact h.lt
    · exact h.plt
    · exact h.ref
    · intro e he
      rw [List.mem_append, List.mem_filter] at he
      rcases he with he | he
      · exact h.free e he
      · exact he.2
    · intro e hf
      have := h.cons e hf
      rw [List.count_append, count_filter_free, if_pos hf, List.count_nil]
      omega
    · intro e
      have := h.held e
      rw [List.count_append, List.count_nil]
      omega
    · have h1 : Each Orderly (s.log ++ [IoEv.write s.outq .success]) := by
        refine each_single h.ord (orderly_write _ (fun e he => h.mem_outq he) h.ids h.free ?_ ?_)
        · intro e hf; have := h.cons e hf; omega
        · intro e; have := h.held e; omega
      refine each_append h1 (orderly_frees ?_ ?_)
      · intro e he; rw [submits_append]; exact List.mem_append_left _ (h.mem_outq he)
      · intro e he hf
        have := h.cons e hf
        have := hone e
        simp only [frees_append, frees, List.append_nil]
        omega
    · intro _; trivial
    · intro _; trivial
  | flushFail r r2 w w2 hp hp' ho hne hw hr hw2 =>
    refine { h with ids := ?_, lt := ?_, plt := ?_, ref := ?_, free := ?_, cons := ?_, held := ?_, ord := ?_, exit := ?_, start := ?_ } <;>
      simp only [submits_append, submits, frees_append, frees, handed_append, handed,
        refusals_append, refusals, List.append_nil, submits_freeEvs, frees_freeEvs, handed_freeEvs,
        refusals_freeEvs]
    · exact h.ids
    · exact h.lt
    · exact h.plt
    · exact h.ref
    · intro e he
      rw [List.mem_append, List.mem_filter] at he
      rcases he with he | he
      · exact h.free e he
      · exact he.2
    · intro e hf
      have := h.cons e hf
      rw [List.count_append, count_filter_free, if_pos hf, List.count_nil]
      omega
    · intro e
      have := h.held e
      rw [List.count_append, List.count_nil]
      omega
    · have h1 : Each Orderly (s.log ++ [IoEv.write s.outq r]) := by
        refine each_single h.ord (orderly_write _ (fun e he => h.mem_outq he) h.ids h.free ?_ ?_)
        · intro e hf; have := h.cons e hf; omega
        · intro e; have := h.held e; omega
      have h2 : Each Orderly (s.log ++ [IoEv.write s.outq r] ++ [.close r2]) := each_single h1 trivial
      have h3 := each_append (b := freeEvs s.outq) h2 (orderly_frees ?_ ?_)
      · simpa using h3
      · intro e he
        rw [List.append_assoc, submits_append]; exact List.mem_append_left _ (h.mem_outq he)
      · intro e he hf
        have := h.cons e hf
        have := hone e
        simp only [frees_append, frees, List.append_nil]
        omega
    · intro _; trivial
    · intro _; trivial
  | flushIdle hp hp' ho =>
    refine { h with ids := ?_, lt := ?_, plt := ?_, ref := ?_, free := ?_, cons := ?_, held := ?_, ord := ?_, exit := ?_, start := ?_ } <;>
      simp only [submits_append, submits, frees_append, frees, handed_append, handed,
        refusals_append, refusals, List.append_nil, submits_freeEvs, frees_freeEvs, handed_freeEvs,
        refusals_freeEvs]
    · exact h.ids
    · exact h.lt
    · exact h.plt
    · exact h.ref
    · intro e he
      rw [List.mem_append, List.mem_filter] at he
      rcases he with he | he
      · exact h.free e he
      · exact he.2
    · intro e hf
      have := h.cons e hf
      rw [List.count_append, count_filter_free, if_pos hf, List.count_nil]
      omega
    · intro e
      have := h.held e
      rw [List.count_nil]
      omega
    · refine each_append h.ord (orderly_frees (fun e he => h.mem_outq he) ?_)
      intro e he hf
      have := h.cons e hf
      have := hone e
      omega
    · intro _; trivial
    · intro _; trivial
  | push i e rest hat hq hl hb =>
    have hpc : s.pc ≠ .start ∧ s.pc ≠ .exited := by
      cases hat with
      | work t h => rw [h]; exact ⟨nofun, nofun⟩
      | drain t h => rw [h]; exact ⟨nofun, nofun⟩
    have hd : s.destroyed = false := by
      cases hdd : s.destroyed with
      | false => rfl
      | true => exact absurd (h.dest hdd).1 hpc.2
    refine { h with qlen := ?_, qid := ?_, plt := ?_, cons := ?_, held := ?_, exit := ?_, start := ?_, dest := ?_ } <;> simp only
    · rw [List.length_set]; exact h.qlen
    · intro j q' hj e' he'
      rcases getElem?_set_cases hj with ⟨rfl, rfl⟩ | ⟨_, hj⟩
      · exact h.qid j _ hq e' (List.mem_cons_of_mem _ he')
      · exact h.qid j q' hj e' he'
    · intro t e' hp
      rw [List.length_set]; exact h.plt t e' hp
    · intro e' hf
      have h1 := h.cons e' hf
      have h2 := count_set rest hq e'
      simp only [List.count_append, List.count_cons, List.count_nil] at h2 ⊢
      omega
    · intro e'
      have h1 := h.held e'
      have h2 := count_set rest hq e'
      simp only [List.count_append, List.count_cons, List.count_nil] at h2 ⊢
      omega
    · intro hp; exact absurd hp hpc.2
    · intro hp; exact absurd hp hpc.1
    · intro hdd; rw [hd] at hdd; cases hdd
  | drop i e rest hat hq ho =>
    have hpc : s.pc ≠ .start ∧ s.pc ≠ .exited := by
      cases hat with
      | work t h => rw [h]; exact ⟨nofun, nofun⟩
      | drain t h => rw [h]; exact ⟨nofun, nofun⟩
    have hd : s.destroyed = false := by
      cases hdd : s.destroyed with
      | false => rfl
      | true => exact absurd (h.dest hdd).1 hpc.2
    have hem : e ∈ s.queues.flatten :=
      List.mem_flatten.2 ⟨e :: rest, List.mem_of_getElem? hq, by simp⟩
    refine { h with qlen := ?_, qid := ?_, ids := ?_, lt := ?_, plt := ?_, ref := ?_, free := ?_, cons := ?_, held := ?_, ord := ?_, dest := ?_ } <;>
      simp only [submits_append, submits, frees_append, frees, handed_append, handed,
        refusals_append, refusals, List.append_nil, submits_freeEvs, frees_freeEvs, handed_freeEvs,
        refusals_freeEvs]
    · rw [List.length_set]; exact h.qlen
    · intro j q' hj e' he'
      rcases getElem?_set_cases hj with ⟨rfl, rfl⟩ | ⟨_, hj⟩
      · exact h.qid j _ hq e' (List.mem_cons_of_mem _ he')
      · exact h.qid j q' hj e' he'
    · exact h.ids
    · exact h.lt
    · intro t e' hp
      rw [List.length_set]; exact h.plt t e' hp
    · exact h.ref
    · intro e' he'
      rw [List.mem_append, List.mem_filter] at he'
      rcases he' with he' | he'
      · exact h.free e' he'
      · exact he'.2
    · intro e' hf
      have h1 := h.cons e' hf
      have h2 := count_set rest hq e'
      rw [List.count_append, count_filter_free, if_pos hf]
      simp only [List.count_cons, List.count_nil] at h2 ⊢
      omega
    · intro e'
      have h1 := h.held e'
      have h2 := count_set rest hq e'
      simp only [List.count_cons] at h2
      omega
    · refine each_append h.ord (orderly_frees ?_ ?_)
      · intro e' he'
        simp only [List.mem_singleton] at he'
        rw [he']; exact h.mem_queues hem
      · intro e' he' hf
        simp only [List.mem_singleton] at he'
        subst he'
        have := h.cons e' hf
        have := hone e'
        have := List.count_pos_iff.2 hem
        simp only [List.count_cons_self, List.count_nil]
        omega
    · intro hdd; rw [hd] at hdd; cases hdd
  | pc p wk hp =>
    refine { h with exit := ?_, start := ?_, dest := ?_ } <;> simp only
    · intro hpe
      cases hp <;> first | (cases hpe; done) | assumption
    · intro hpe
      cases hp <;> cases hpe
    · intro hd
      have := (h.dest hd).1
      cases hp <;> simp_all
  | finish r rdwr hs hp hd hw =>
    have hfl : (s.queues.map fun _ => ([] : List Entry)).flatten = [] := by
      induction s.queues with
      | nil => rfl
      | cons _ _ ih => simpa using ih
    have ho := h.exit hp
    refine { h with qlen := ?_, qid := ?_, ids := ?_, lt := ?_, plt := ?_, ref := ?_, free := ?_, cons := ?_, held := ?_, ord := ?_, dest := ?_ } <;>
      simp only [submits_append, submits, frees_append, frees, handed_append, handed,
        refusals_append, refusals, List.append_nil, submits_freeEvs, frees_freeEvs, handed_freeEvs,
        refusals_freeEvs]
    · rw [List.length_map]; exact h.qlen
    · intro i q hi e he
      rw [List.getElem?_map] at hi
      cases hq : s.queues[i]? with
      | none => rw [hq] at hi; cases hi
      | some q' => rw [hq] at hi; cases hi; cases he
    · exact h.ids
    · exact h.lt
    · intro t e' hp
      rw [List.length_map]; exact h.plt t e' hp
    · exact h.ref
    · intro e' he'
      rw [List.mem_append, List.mem_filter] at he'
      rcases he' with he' | he'
      · exact h.free e' he'
      · exact he'.2
    · intro e hf
      have h1 := h.cons e hf
      rw [List.count_append, count_filter_free, if_pos hf, hfl, List.count_nil]
      omega
    · intro e
      have h1 := h.held e
      rw [hfl, List.count_nil]
      omega
    · refine each_single (each_append h.ord (orderly_frees (fun e he => h.mem_queues he) ?_)) trivial
      intro e he hf
      have := h.cons e hf
      have := hone e
      omega
    · intro _; exact ⟨hp, hfl⟩

theorem InvA.trs {s s' : Iothr σ} (h : InvA s) (t : Trs s s') : InvA s' :=
  t.inv (fun _ _ h t => h.tr t) h

/-! ## Order -/

/-- What remains of the payloads of one queue, in order. -/
def lane (s : Iothr σ) (q : Nat) : List Entry :=
  onQueue q (handed s.log ++ s.outq) ++ (s.queues[q]?).getD []

/-- Nothing is reordered. -/
def InvB (s : Iothr σ) : Prop := ∀ q, (s.lane q).Sublist (onQueue q (submits s.log))

theorem onQueue_single (q : Nat) (e : Entry) : onQueue q [e] = if e.queue = q then [e] else [] := by
  unfold onQueue
  by_cases h : e.queue = q <;> simp [h]

/-- Taking an entry from its queue and appending it to what has been taken does not change the lane. -/
theorem lane_push {qs : List (List Entry)} {i : Nat} {e : Entry} {rest : List Entry}
    (hq : qs[i]? = some (e :: rest)) (he : e.queue = i) (l : List Entry) (q : Nat) :
    onQueue q (l ++ [e]) ++ ((qs.set i rest)[q]?).getD [] = onQueue q l ++ (qs[q]?).getD [] := by
  have hi : i < qs.length := (List.getElem?_eq_some_iff.1 hq).1
  rw [onQueue_append, onQueue_single, List.getElem?_set]
  by_cases h : i = q
  · subst h
    rw [if_pos he, if_pos rfl, if_pos hi, hq]; simp
  · rw [if_neg (by omega), if_neg h]; simp

theorem lane_drop {qs : List (List Entry)} {i : Nat} {e : Entry} {rest : List Entry}
    (hq : qs[i]? = some (e :: rest)) (l : List Entry) (q : Nat) :
    (onQueue q l ++ ((qs.set i rest)[q]?).getD []).Sublist (onQueue q l ++ (qs[q]?).getD []) := by
  have hi : i < qs.length := (List.getElem?_eq_some_iff.1 hq).1
  rw [List.getElem?_set]
  by_cases h : i = q
  · subst h
    rw [if_pos rfl, if_pos hi, hq]; simp
  · rw [if_neg h]; exact List.Sublist.refl _

theorem lane_insert {qs : List (List Entry)} {e : Entry} {q0 : List Entry}
    (hq : qs[e.queue]? = some q0) (l : List Entry) (q : Nat) :
    onQueue q l ++ ((qs.set e.queue (q0 ++ [e]))[q]?).getD [] =
      onQueue q l ++ (qs[q]?).getD [] ++ onQueue q [e] := by
  have hi : e.queue < qs.length := (List.getElem?_eq_some_iff.1 hq).1
  rw [onQueue_single, List.getElem?_set]
  by_cases h : e.queue = q
  · subst h
    rw [if_pos rfl, if_pos rfl, if_pos hi, hq]; simp
  · rw [if_neg h, if_neg h]; simp

theorem InvB.init (opt : IothrOptions) (w : Writer σ) : InvB (Iothr.init opt w) := by
  intro q
  simp only [lane, Iothr.init, submits, handed, List.nil_append, onQueue, List.filter_nil]
  rw [List.getElem?_replicate]
  split <;> split <;> exact List.Sublist.refl _

theorem InvB.tr {s s' : Iothr σ} (ha : InvA s) (h : InvB s) (t : Tr s s') : InvB s' := by
  intro q
  have hq := h q
  unfold lane at hq
  cases t with
  | refused r hd =>
    simpa only [lane, submits_append, submits, handed_append, handed, List.append_nil] using hq
  | began => exact hq
  | full =>
    simpa only [lane, submits_append, submits, handed_append, handed, List.append_nil] using hq
  | lost => exact hq
  | inserted t e q0 wk sig hd hp hqq hl hsig =>
    have hsg : submits sig = [] ∧ handed sig = [] := by
      rcases hsig with rfl | rfl <;> exact ⟨rfl, rfl⟩
    simp only [lane, submits_append, submits, handed_append, handed, List.append_nil, hsg]
    rw [lane_insert hqq, onQueue_append q (submits s.log)]
    exact hq.append (List.Sublist.refl _)
  | signalled =>
    simpa only [lane, submits_append, submits, handed_append, handed, List.append_nil] using hq
  | gotSome =>
    simpa only [lane, submits_append, submits, handed_append, handed, List.append_nil] using hq
  | gotNone =>
    simpa only [lane, submits_append, submits, handed_append, handed, List.append_nil] using hq
  | shut =>
    simpa only [lane, submits_append, submits, handed_append, handed, List.append_nil] using hq
  | opn =>
    simpa only [lane, submits_append, submits, handed_append, handed, List.append_nil] using hq
  | cls =>
    simpa only [lane, submits_append, submits, handed_append, handed, List.append_nil] using hq
  | flushOk =>
    simpa only [lane, submits_append, submits, handed_append, handed, List.append_nil,
      submits_freeEvs, handed_freeEvs] using hq
  | flushFail =>
    simpa only [lane, submits_append, submits, handed_append, handed, List.append_nil,
      submits_freeEvs, handed_freeEvs] using hq
  | flushIdle =>
    simp only [lane, submits_append, handed_append, List.append_nil,
      submits_freeEvs, handed_freeEvs]
    refine List.Sublist.trans ?_ hq
    rw [onQueue_append]
    exact List.Sublist.append (List.sublist_append_left _ _) (List.Sublist.refl _)
  | push i e rest hat hqq hl hb =>
    simp only [lane]
    rw [← List.append_assoc, lane_push hqq (ha.qid i _ hqq e (by simp))]
    exact hq
  | drop i e rest hat hqq ho =>
    simp only [lane, submits_append, handed_append, List.append_nil,
      submits_freeEvs, handed_freeEvs]
    exact (lane_drop hqq _ _).trans hq
  | pc => exact hq
  | finish =>
    simp only [lane, submits_append, submits, handed_append, handed, List.append_nil,
      submits_freeEvs, handed_freeEvs]
    refine List.Sublist.trans ?_ hq
    refine List.Sublist.append (List.Sublist.refl _) ?_
    rw [List.getElem?_map]
    cases s.queues[q]? <;> simp

theorem InvAB.trs {s s' : Iothr σ} (h : InvA s ∧ InvB s) (t : Trs s s') : InvA s' ∧ InvB s' :=
  t.inv (P := fun s => InvA s ∧ InvB s) (fun _ _ h t => ⟨h.1.tr t, h.2.tr h.1 t⟩) h

end Iothr

end Fstrm
