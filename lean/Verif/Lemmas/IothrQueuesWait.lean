import Verif.Lemmas.IothrQueuesLive
import Verif.Lemmas.QueueIa64Impl

/-!
# How many accesses a submit call takes
-/

set_option autoImplicit false

namespace Fstrm

/-- `left t` is a bound on the accesses left in the insert call of thread `t`, at most `N`; an access
counts if `may t`. -/
structure QImpl.Bounded (Q : QImpl) (R : Q.S → QGhost → Prop) (N : Nat) (may : Nat → Q.S → Bool)
    (left : Nat → Q.S → Nat) : Prop where
  start : ∀ s g t x s', R s g → Q.insert s t x = some s' → left t s' ≤ N
  insert : ∀ s g t t' x s', R s g → t' ≠ t → Q.insert s t' x = some s' → left t s' = left t s
  pos : ∀ s g t, R s g → g.calling t = true → 0 < left t s
  own : ∀ s g t k s' os, R s g → g.calling t = true → Q.prod s t k = .ok (s', os) →
    left t s' ≤ left t s ∧ (may t s = true → left t s' < left t s)
  other : ∀ s g t t' k s' os, R s g → t' ≠ t → Q.prod s t' k = .ok (s', os) → left t s' = left t s
  flush : ∀ s g t b i s' os, R s g → Q.flush s b i = .ok (s', os) → left t s' = left t s
  remove : ∀ s g t s', R s g → Q.remove s = some s' → left t s' = left t s
  cons : ∀ s g t k s' r, R s g → Q.cons s k = .ok (s', r) → left t s' = left t s

/-- Accesses left in an insert call on the lock-free queue. -/
def PPc.togo (sz : Nat) : PPc → Nat
  | .idle => 0
  | .loadHead _ => sz + 3
  | .loadTail _ _ => sz + 2
  | .copy _ _ _ todo => todo.length + 1

theorem tso_bounded {num sz : UInt32} :
    tsoQueue.Bounded (TsoR num sz) (sz.toNat + 3) (fun _ _ => true)
      (fun t s => if t = 0 then PPc.togo sz.toNat (show Tso from s).p else 0) where
  start := by
    intro s g t x s' h hs
    simp only [tsoQueue] at hs
    split at hs
    · rename_i e
      cases hs; rw [if_pos e.1]; exact Nat.le_refl _
    · cases hs
  insert := by
    intro s g t t' x s' h ht hs
    simp only [tsoQueue] at hs
    split at hs
    · rename_i e
      cases hs
      rw [if_neg (by omega), if_neg (by omega)]
    · cases hs
  pos := by
    intro s g t h hc
    have ht : t = 0 := by
      by_cases h0 : t = 0
      · exact h0
      · rw [(h.others t h0).2] at hc; cases hc
    subst ht
    rw [h.calling] at hc
    rw [if_pos rfl]
    show 0 < PPc.togo sz.toNat (show Tso from s).p
    cases e : (show Tso from s).p with
    | idle => simp only [show s.p = .idle from e] at hc; cases hc
    | _ => simp only [PPc.togo]; omega
  own := by
    intro s g t k s' os h hc hs
    have ht : t = 0 := by
      by_cases h0 : t = 0
      · exact h0
      · rw [(h.others t h0).2] at hc; cases hc
    subst ht
    rw [h.calling] at hc
    simp only [tsoQueue, if_true] at hs
    obtain ⟨s1, h1, hs⟩ := Exec.bind_eq_ok.1 hs
    cases hs
    simp only [if_true]
    have key : PPc.togo sz.toNat s'.p < PPc.togo sz.toNat s.p := by
      simp only [Tso.step, Tso.pstep] at h1
      split at h1
      · rename_i e; rw [e] at hc; cases hc
      · rename_i e; cases h1; simp only [e, PPc.togo]; omega
      · rename_i e
        split at h1 <;> cases h1 <;> simp only [e, PPc.togo, List.length_range, h.inv.hsz] <;> omega
      · rename_i e; cases h1; simp only [e, PPc.togo, List.length_nil]; omega
      · rename_i t todo e
        split at h1
        · cases h1
        · cases h1; simp only [e, PPc.togo, erase_choose_length, List.length_cons]; omega
    exact ⟨Nat.le_of_lt key, fun _ => key⟩
  other := by
    intro s g t t' k s' os h ht hs
    simp only [tsoQueue] at hs
    split at hs
    · rw [if_neg (by omega), if_neg (by omega)]
    · cases hs; rfl
  flush := by
    intro s g t b i s' os h hs
    simp only [tsoQueue] at hs
    obtain ⟨s1, h1, hs⟩ := Exec.bind_eq_ok.1 hs
    cases hs
    have key : s'.p = s.p := by
      cases b
      · simp only [Bool.false_eq_true, if_false, Tso.step] at h1
        split at h1
        · cases h1; rfl
        · obtain ⟨q, h2, h1⟩ := Exec.bind_eq_ok.1 h1
          cases h1; rfl
      · simp only [if_true, Tso.step] at h1
        split at h1
        · cases h1; rfl
        · obtain ⟨q, h2, h1⟩ := Exec.bind_eq_ok.1 h1
          cases h1; rfl
    simp only [key]
  remove := by
    intro s g t s' h hs
    simp only [tsoQueue] at hs
    split at hs
    · cases hs; rfl
    · cases hs
  cons := by
    intro s g t k s' r h hs
    simp only [tsoQueue] at hs
    obtain ⟨s1, h1, hs⟩ := Exec.bind_eq_ok.1 hs
    cases hs
    have key : s'.p = s.p := by
      by_cases hc : s.c = .idle
      · simp only [Tso.step, Tso.cstep, hc] at h1
        cases h1; rfl
      · exact (Tso.cstep_left (by rw [h.inv.hsz]) hc h1).1
    simp only [key]

/-- Accesses and fences left in an insert call on ia64. -/
def PPc64.togo (sz : Nat) : PPc64 → Nat
  | .idle => 0
  | .loadHead _ => sz + 4
  | .loadTail _ _ => sz + 3
  | .copy _ _ _ todo => todo.length + 2
  | .fence _ => 1

/-- The producer is at a fence and its stores have not all reached memory. -/
def Ia64.fenced (s : Ia64) : Bool :=
  match s.p with
  | .copy _ _ _ [] => decide (s.pbuf ≠ [])
  | .fence _ => decide (s.pbuf ≠ [])
  | _ => false

theorem Ia64.pstep_togo {s s' : Ia64} {k sz : Nat} (hsz : s.q.sz.toNat = sz) (hp : s.p ≠ .idle)
    (h : s.pstep k = .ok s') : s'.p.togo sz ≤ s.p.togo sz ∧ (s.fenced = false → s'.p.togo sz < s.p.togo sz) := by
  unfold Ia64.pstep at h
  split at h
  · rename_i e; exact absurd e hp
  · rename_i e; cases h; simp only [e, PPc64.togo]; exact ⟨by omega, fun _ => by omega⟩
  · rename_i e
    simp only at h
    split at h <;> cases h <;> simp only [e, PPc64.togo, List.length_range, hsz] <;> exact ⟨by omega, fun _ => by omega⟩
  · rename_i e
    split at h
    · cases h; simp only [e, PPc64.togo, List.length_nil]; exact ⟨by omega, fun _ => by omega⟩
    · rename_i hb; cases h; exact ⟨Nat.le_refl _, fun hf => by simp [fenced, e, hb] at hf⟩
  · rename_i t todo e
    simp only at h
    split at h
    · cases h
    · cases h
      simp only [e, PPc64.togo, erase_choose_length, List.length_cons]
      exact ⟨by omega, fun _ => by omega⟩
  · rename_i e
    split at h
    · cases h; simp only [e, PPc64.togo]; exact ⟨by omega, fun _ => by omega⟩
    · rename_i hb; cases h; exact ⟨Nat.le_refl _, fun hf => by simp [fenced, e, hb] at hf⟩

theorem ia64_bounded {num sz : UInt32} :
    ia64Queue.Bounded (Ia64R num sz) (sz.toNat + 4) (fun _ s => !(show Ia64 from s).fenced)
      (fun t s => if t = 0 then PPc64.togo sz.toNat (show Ia64 from s).p else 0) where
  start := by
    intro s g t x s' h hs
    simp only [ia64Queue] at hs
    split at hs
    · rename_i e
      cases hs; rw [if_pos e.1]; exact Nat.le_refl _
    · cases hs
  insert := by
    intro s g t t' x s' h ht hs
    simp only [ia64Queue] at hs
    split at hs
    · rename_i e
      cases hs
      rw [if_neg (by omega), if_neg (by omega)]
    · cases hs
  pos := by
    intro s g t h hc
    have ht : t = 0 := by
      by_cases h0 : t = 0
      · exact h0
      · rw [(h.others t h0).2] at hc; cases hc
    subst ht
    rw [h.calling] at hc
    rw [if_pos rfl]
    show 0 < PPc64.togo sz.toNat (show Ia64 from s).p
    cases e : (show Ia64 from s).p with
    | idle => simp only [show s.p = .idle from e] at hc; cases hc
    | _ => simp only [PPc64.togo]; omega
  own := by
    intro s g t k s' os h hc hs
    have ht : t = 0 := by
      by_cases h0 : t = 0
      · exact h0
      · rw [(h.others t h0).2] at hc; cases hc
    subst ht
    rw [h.calling] at hc
    simp only [ia64Queue, if_true] at hs
    obtain ⟨s1, h1, hs⟩ := Exec.bind_eq_ok.1 hs
    cases hs
    simp only [if_true]
    obtain ⟨k1, k2⟩ := Ia64.pstep_togo (by rw [h.sz]) (by simpa using hc) (show s.pstep k = .ok s' from h1)
    exact ⟨k1, fun hm => k2 (by simpa using hm)⟩
  other := by
    intro s g t t' k s' os h ht hs
    simp only [ia64Queue] at hs
    split at hs
    · rw [if_neg (by omega), if_neg (by omega)]
    · cases hs; rfl
  flush := by
    intro s g t b i s' os h hs
    simp only [ia64Queue] at hs
    obtain ⟨s1, h1, hs⟩ := Exec.bind_eq_ok.1 hs
    cases hs
    have key : s'.p = s.p := by
      cases b
      · simp only [Bool.false_eq_true, if_false, Ia64.step] at h1
        split at h1
        · cases h1; rfl
        · obtain ⟨q, h2, h1⟩ := Exec.bind_eq_ok.1 h1
          cases h1; rfl
      · simp only [if_true, Ia64.step] at h1
        split at h1
        · cases h1; rfl
        · obtain ⟨q, h2, h1⟩ := Exec.bind_eq_ok.1 h1
          cases h1; rfl
    simp only [key]
  remove := by
    intro s g t s' h hs
    simp only [ia64Queue] at hs
    split at hs
    · cases hs; rfl
    · cases hs
  cons := by
    intro s g t k s' r h hs
    simp only [ia64Queue] at hs
    obtain ⟨s1, h1, hs⟩ := Exec.bind_eq_ok.1 hs
    cases hs
    have key : s'.p = s.p := by
      by_cases hc : s.c = .idle
      · simp only [Ia64.step, Ia64.cstep, hc] at h1
        cases h1; rfl
      · obtain ⟨r, hr⟩ := h.rel
        exact (Ia64.cstep_left (by rw [h.sz]) hc (Or.inr ⟨_, hr.c⟩) h1).1
    simp only [key]

/-- No other thread holds the mutex. -/
def Mt.may (t : Nat) (s : Mt) : Bool := decide (s.owner = none ∨ s.owner = some (t + 1))

theorem mutex_bounded {num sz : UInt32} :
    mutexQueue.Bounded (MtR num sz) (sz.toNat + 5) Mt.may
      (fun t s => MtPc.pleft sz.toNat ((show Mt from s).th (t + 1))) where
  start := by
    intro s g t x s' h hs
    simp only [mutexQueue] at hs
    split at hs
    · cases hs
      simp only [Mt.goto, if_true]
      exact Nat.le_refl _
    · cases hs
  insert := by
    intro s g t t' x s' h ht hs
    simp only [mutexQueue] at hs
    split at hs
    · cases hs
      simp only [Mt.goto]
      rw [if_neg (by omega)]
    · cases hs
  pos := by
    intro s g t h hc
    rw [h.calling] at hc
    show 0 < MtPc.pleft sz.toNat ((show Mt from s).th (t + 1))
    revert hc
    cases s.th (t + 1) <;> simp [MtPc.item, MtPc.pleft]
  own := by
    intro s g t k s' os h hc hs
    simp only [mutexQueue] at hs
    obtain ⟨s1, h1, hs⟩ := Exec.bind_eq_ok.1 hs
    cases hs
    obtain ⟨_, _, e3, _⟩ := Mt.access_left (sz := sz.toNat) (by rw [h.inv.hsz]) (show s.access (t + 1) k = .ok s' from h1)
    rcases e3 (by rw [← h.calling]; exact hc) with e | ⟨rfl, _, e1, e2⟩
    · exact ⟨Nat.le_of_lt e, fun _ => e⟩
    · refine ⟨Nat.le_refl _, fun hm => ?_⟩
      simp only [Mt.may, decide_eq_true_eq] at hm
      rcases hm with hm | hm
      · exact absurd hm e2
      · have hcr := h.inv.crit _ hm
        exfalso
        revert hcr e1
        cases s'.th (t + 1) <;> simp [Crit, MtPc.inside]
  other := by
    intro s g t t' k s' os h ht hs
    simp only [mutexQueue] at hs
    obtain ⟨s1, h1, hs⟩ := Exec.bind_eq_ok.1 hs
    cases hs
    obtain ⟨e1, _⟩ := Mt.access_left (sz := sz.toNat) (by rw [h.inv.hsz]) (show s.access (t' + 1) k = .ok s' from h1)
    simp only [e1 (t + 1) (by omega)]
  flush := by
    intro s g t b i s' os h hs
    simp only [mutexQueue] at hs
    cases hs; rfl
  remove := by
    intro s g t s' h hs
    simp only [mutexQueue] at hs
    split at hs
    · cases hs
      simp only [Mt.goto]
      rw [if_neg (by omega)]
    · cases hs
  cons := by
    intro s g t k s' r h hs
    simp only [mutexQueue] at hs
    obtain ⟨s1, h1, hs⟩ := Exec.bind_eq_ok.1 hs
    cases hs
    obtain ⟨e1, _⟩ := Mt.access_left (sz := sz.toNat) (by rw [h.inv.hsz]) (show s.access 0 k = .ok s' from h1)
    simp only [e1 (t + 1) (by omega)]

namespace IoQ

variable {σ : Type} {Q : QImpl} {num sz : UInt32} {R : Q.S → QGhost → Prop} {N : Nat}
  {may : Nat → Q.S → Bool} {left : Nat → Q.S → Nat}

theorem take_left (hB : Q.Bounded R N may left) {s s1 : IoQ σ Q} {G : Nat → QGhost} (h : s.QLink num R G)
    {i k : Nat} {r : Option Nat} (ht : s.take i k = .ok (r, s1)) :
    s1.cur = s.cur ∧ ∀ (q : Nat) (c : Q.S), s.qs[q]? = some c → ∃ c', s1.qs[q]? = some c' ∧ ∀ t, left t c' = left t c := by
  have key : ∀ (c c1 : Q.S), s.qs[i]? = some c → (∀ t, left t c1 = left t c) → ∀ (q : Nat) (c : Q.S), s.qs[q]? = some c →
      ∃ c', (s.qs.set i c1)[q]? = some c' ∧ ∀ t, left t c' = left t c := by
    intro c c1 hc hl q c2 hc2
    by_cases hq : i = q
    · subst hq
      rw [hc] at hc2; cases hc2
      exact ⟨c1, List.getElem?_set_self (List.getElem?_eq_some_iff.1 hc).1, hl⟩
    · exact ⟨c2, by rw [List.getElem?_set_ne hq]; exact hc2, fun _ => rfl⟩
  unfold IoQ.take at ht
  split at ht
  · cases ht
  · rename_i c hc
    have hr := h.rel i c hc
    split at ht
    · rename_i c' hrem
      cases ht
      exact ⟨rfl, key c c' hc fun t => hB.remove _ _ t _ hr hrem⟩
    · obtain ⟨⟨c', r'⟩, h1, ht⟩ := Exec.bind_eq_ok.1 ht
      have hk := key c c' hc fun t => hB.cons _ _ t _ _ _ hr h1
      simp only at ht
      split at ht
      · cases ht; exact ⟨rfl, hk⟩
      · cases ht; exact ⟨rfl, hk⟩
      · split at ht
        · split at ht
          · obtain ⟨io, h3, ht⟩ := Exec.bind_eq_ok.1 ht
            cases ht; exact ⟨rfl, hk⟩
          · cases ht
        · cases ht

/-- What a step does to the accesses left in a call of thread `t` for queue `q`. -/
theorem QLink.left_step (hQ : Q.Correct num sz R) (hB : Q.Bounded R N may left) {s s' : IoQ σ Q} {G : Nat → QGhost} (h : s.QLink num R G)
    {q t : Nat} {c : Q.S} (hc : s.qs[q]? = some c) {a : QAct} (ha : a ≠ .finish) (hs : s.step a = .ok s') :
    ∃ c', s'.qs[q]? = some c' ∧
      (s.cur q t ≠ none → left t c' ≤ left t c ∧ (∀ k, a = .prod q t k → may t c = true → left t c' < left t c)) ∧
      (s.cur q t = none → s'.cur q t ≠ none → left t c' ≤ N) := by
  have hcal : s.cur q t ≠ none → (G q).calling t = true := fun hn => by
    rw [h.g.calling, Option.isSome_iff_ne_none]; exact hn
  -- nothing happens to this queue
  have same : (∀ k, a ≠ .prod q t k) → (s.cur q t = none → s'.cur q t = none) → s'.qs[q]? = some c →
      ∃ c', s'.qs[q]? = some c' ∧
      (s.cur q t ≠ none → left t c' ≤ left t c ∧ (∀ k, a = .prod q t k → may t c = true → left t c' < left t c)) ∧
      (s.cur q t = none → s'.cur q t ≠ none → left t c' ≤ N) := fun h0 h1 h2 =>
    ⟨c, h2, fun _ => ⟨Nat.le_refl _, fun k e => absurd e (h0 k)⟩, fun e1 e2 => absurd (h1 e1) e2⟩
  cases a with
  | submit q' t' raw data f =>
    simp only [IoQ.step, IoQ.submit] at hs
    split at hs
    · cases hs
    · split at hs
      · cases hs; exact same nofun id hc
      · rename_i c1 hc1
        split at hs
        · cases hs; exact same nofun id hc
        · rename_i c2 hins
          have hr := h.rel q' c1 hc1
          obtain ⟨io, h1, hs⟩ := Exec.bind_eq_ok.1 hs
          split at hs
          · cases hs; exact same nofun id hc
          · cases hs
            by_cases hq : q' = q
            · subst hq
              rw [hc] at hc1; cases hc1
              refine ⟨c2, List.getElem?_set_self (List.getElem?_eq_some_iff.1 hc).1, ?_, ?_⟩
              · intro hn
                have hcal := hcal hn
                have htt : t' ≠ t := by
                  intro e; subst e
                  rw [(hQ.insert _ _ _ _ _ hr hins).1] at hcal; cases hcal
                exact ⟨Nat.le_of_eq (hB.insert _ _ t t' _ _ hr htt hins), nofun⟩
              · intro h2 h3
                by_cases htt : t' = t
                · subst htt; exact hB.start _ _ _ _ _ hr hins
                · simp only [upd2_ne (show ¬ (q' = q' ∧ t = t') by omega)] at h3
                  exact absurd h2 h3
            · refine same nofun ?_ (by simp only [List.getElem?_set_ne hq]; exact hc)
              intro h2
              simp only [upd2_ne (show ¬ (q = q' ∧ t = t') by omega)]; exact h2
  | prod q' t' k =>
    simp only [IoQ.step, IoQ.prod] at hs
    split at hs
    · cases hs
    · split at hs
      · rename_i e
        cases hs
        have hqq : q' ≠ q := by intro e2; subst e2; rw [hc] at e; cases e
        exact same (fun k => by intro e; cases e; exact hqq rfl) id hc
      · rename_i c1 hc1
        have hr := h.rel q' c1 hc1
        obtain ⟨⟨c2, os⟩, h1, hs⟩ := Exec.bind_eq_ok.1 hs
        have hqs := outs_qs os hs
        have hcu := outs_cur os hs q t
        by_cases hq : q' = q
        · subst hq
          rw [hc] at hc1; cases hc1
          refine ⟨c2, by rw [hqs]; exact List.getElem?_set_self (List.getElem?_eq_some_iff.1 hc).1, ?_,
            fun e1 e2 => absurd (hcu e1) e2⟩
          intro hn
          by_cases htt : t' = t
          · subst htt
            obtain ⟨l1, l2⟩ := hB.own _ _ _ _ _ _ hr (hcal hn) h1
            exact ⟨l1, fun _ _ => l2⟩
          · exact ⟨Nat.le_of_eq (hB.other _ _ t t' _ _ _ hr htt h1), fun k e => by cases e; exact absurd rfl htt⟩
        · exact same (fun k => by intro e; cases e; exact hq rfl) hcu
            (by rw [hqs]; simp only [List.getElem?_set_ne hq]; exact hc)
  | flush q' b i =>
    simp only [IoQ.step, IoQ.flush] at hs
    split at hs
    · cases hs; exact same nofun id hc
    · split at hs
      · cases hs; exact same nofun id hc
      · rename_i c1 hc1
        have hr := h.rel q' c1 hc1
        obtain ⟨⟨c2, os⟩, h1, hs⟩ := Exec.bind_eq_ok.1 hs
        have hqs := outs_qs os hs
        have hcu := outs_cur os hs q t
        by_cases hq : q' = q
        · subst hq
          rw [hc] at hc1; cases hc1
          refine ⟨c2, by rw [hqs]; exact List.getElem?_set_self (List.getElem?_eq_some_iff.1 hc).1, ?_,
            fun e1 e2 => absurd (hcu e1) e2⟩
          intro hn
          exact ⟨Nat.le_of_eq (hB.flush _ _ t _ _ _ _ hr h1), nofun⟩
        · exact same nofun hcu (by rw [hqs]; simp only [List.getElem?_set_ne hq]; exact hc)
  | getQueue =>
    obtain ⟨io, _, hs⟩ := Exec.bind_eq_ok.1 hs
    cases hs; exact same nofun id hc
  | shutdown =>
    obtain ⟨io, _, hs⟩ := Exec.bind_eq_ok.1 hs
    cases hs; exact same nofun id hc
  | io now wake k =>
    have taken : ∀ i r s1, s.take i k = .ok (r, s1) → s'.cur = s1.cur → s'.qs = s1.qs →
      ∃ c', s'.qs[q]? = some c' ∧
      (s.cur q t ≠ none → left t c' ≤ left t c ∧ (∀ k', QAct.io now wake k = .prod q t k' → may t c = true → left t c' < left t c)) ∧
      (s.cur q t = none → s'.cur q t ≠ none → left t c' ≤ N) := by
      intro i r s1 h1 h2 h3
      obtain ⟨e1, e2⟩ := take_left hB h h1
      obtain ⟨c', e3, e4⟩ := e2 q c hc
      exact ⟨c', by rw [h3]; exact e3, fun _ => ⟨Nat.le_of_eq (e4 t), nofun⟩,
        fun h5 h6 => absurd (by rw [h2, e1]; exact h5) h6⟩
    simp only [IoQ.step, IoQ.ioStep] at hs
    split at hs
    · split at hs
      · obtain ⟨⟨r, s1⟩, h1, hs⟩ := Exec.bind_eq_ok.1 hs
        cases r <;> cases hs <;> exact taken _ _ _ h1 rfl rfl
      · obtain ⟨io, _, hs⟩ := Exec.bind_eq_ok.1 hs
        cases hs; exact same nofun id hc
    · split at hs
      · obtain ⟨⟨r, s1⟩, h1, hs⟩ := Exec.bind_eq_ok.1 hs
        cases r <;> cases hs <;> exact taken _ _ _ h1 rfl rfl
      · obtain ⟨io, _, hs⟩ := Exec.bind_eq_ok.1 hs
        cases hs; exact same nofun id hc
    · obtain ⟨io, _, hs⟩ := Exec.bind_eq_ok.1 hs
      cases hs; exact same nofun id hc
  | finish => exact absurd rfl ha

/-- A call never has more than `N` accesses left. -/
def Short (N : Nat) (left : Nat → Q.S → Nat) (s : IoQ σ Q) : Prop :=
  ∀ (q t : Nat) (c : Q.S), s.qs[q]? = some c → s.cur q t ≠ none → left t c ≤ N

theorem alive_step {s s' : IoQ σ Q} (hQ : Q.Correct num sz R) {G : Nat → QGhost} (h : s.QLink num R G) {a : QAct} (ha : a ≠ .finish)
    (hs : s.step a = .ok s') : ∃ G', s'.QLink num R G' := by
  have client : ∀ {s'' : IoQ σ Q}, s.step a = .ok s'' → (∃ G', s''.QLink num R G') → ∃ G', s'.QLink num R G' := by
    intro s'' e1 e2
    rw [hs] at e1; cases e1
    exact e2
  cases a with
  | submit q t raw data f => obtain ⟨_, e1, e2, e3⟩ := h.submit hQ q t raw data f; exact client e1 e2
  | prod q t k => obtain ⟨_, e1, e2, e3⟩ := h.prod hQ q t k; exact client e1 e2
  | flush q b i => obtain ⟨_, e1, e2, e3⟩ := h.flush hQ q b i; exact client e1 e2
  | getQueue => obtain ⟨_, e1, e2, e3⟩ := h.getQueue; exact client e1 e2
  | shutdown => obtain ⟨_, e1, e2, e3⟩ := h.shutdown; exact client e1 e2
  | io now wake k => exact (h.ioStep hQ hs).1
  | finish => exact absurd rfl ha

theorem alive_run (hQ : Q.Correct num sz R) (as : List QAct) {s s' : IoQ σ Q} {G : Nat → QGhost} (h : s.QLink num R G)
    (ha : QAct.finish ∉ as) (hs : s.run as = .ok s') : ∃ G', s'.QLink num R G' := by
  induction as generalizing s G with
  | nil => cases hs; exact ⟨G, h⟩
  | cons a as ih =>
    obtain ⟨s1, h1, hs⟩ := Exec.bind_eq_ok.1 hs
    simp only [List.mem_cons, not_or] at ha
    obtain ⟨G1, h2⟩ := alive_step hQ h (Ne.symm ha.1) h1
    exact ih h2 ha.2 hs

theorem short_step (hQ : Q.Correct num sz R) (hB : Q.Bounded R N may left) {s s' : IoQ σ Q} {G : Nat → QGhost}
    (h : s.QLink num R G) (hn : s.Short N left) (hlen : s'.qs.length = s.qs.length) {a : QAct} (ha : a ≠ .finish) (hs : s.step a = .ok s') :
    s'.Short N left := by
  intro q t c' hc' hcur
  have hlt := (List.getElem?_eq_some_iff.1 hc').1
  obtain ⟨c, hc⟩ : ∃ c, s.qs[q]? = some c := ⟨_, List.getElem?_eq_getElem (by omega)⟩
  obtain ⟨c1, e1, e2, e3⟩ := h.left_step hQ hB (t := t) hc ha hs
  rw [hc'] at e1; cases e1
  by_cases h0 : s.cur q t = none
  · exact e3 h0 hcur
  · exact Nat.le_trans (e2 h0).1 (hn q t c hc h0)

theorem length_step (hQ : Q.Correct num sz R) {s s' : IoQ σ Q} {G : Nat → QGhost} (h : s.QLink num R G)
    {a : QAct} (ha : a ≠ .finish) (hs : s.step a = .ok s') : s'.qs.length = s.qs.length := by
  obtain ⟨G', h'⟩ := alive_step hQ h ha hs
  obtain ⟨_, ht⟩ := h.link.step hQ hs
  have ho : s'.io.opt = s.io.opt := by
    clear hs h'
    generalize hx : s.io = x at ht
    generalize s'.io = y at ht ⊢
    subst hx
    induction ht with
    | refl => rfl
    | snoc _ t ih => rw [t.opt, ih]
  rw [h'.len, h'.g.invA.qlen, ho, ← h.g.invA.qlen, h.len]

theorem short_run (hQ : Q.Correct num sz R) (hB : Q.Bounded R N may left) (as : List QAct) {s s' : IoQ σ Q}
    {G : Nat → QGhost} (h : s.QLink num R G) (hn : s.Short N left) (ha : QAct.finish ∉ as) (hs : s.run as = .ok s') :
    s'.Short N left := by
  induction as generalizing s G with
  | nil => cases hs; exact hn
  | cons a as ih =>
    obtain ⟨s1, h1, hs⟩ := Exec.bind_eq_ok.1 hs
    simp only [List.mem_cons, not_or] at ha
    have ha1 : a ≠ .finish := Ne.symm ha.1
    obtain ⟨G1, h2⟩ := alive_step hQ h ha1 h1
    exact ih h2 (short_step hQ hB h hn (length_step hQ h ha1 h1) ha1 h1) ha.2 hs

/-- `e` has been accepted or refused. -/
def Answered (s : IoQ σ Q) (e : Entry) : Prop :=
  e ∈ s.rets ∨ IoEv.refused e.id .again ∈ s.io.log

theorem signal_log (s : Iothr σ) : s.signal.log = s.log := by
  unfold Iothr.signal
  split <;> rfl

theorem out_answered {s s' : IoQ σ Q} {q' : Nat} {o : QOut} (h1 : s.out q' o = .ok s') {e : Entry}
    (hc : s.Answered e) : s'.Answered e := by
  have hlog : ∀ x, IoEv.refused e.id .again ∈ s.io.log → IoEv.refused e.id .again ∈ s.io.log ++ [x] :=
    fun x h => List.mem_append_left _ h
  cases o with
  | effect t' =>
    simp only [IoQ.out, IoQ.effect] at h1
    split at h1
    · cases h1
    · cases h1; exact hc.imp id (hlog _)
  | ins t' ok sp =>
    simp only [IoQ.out, IoQ.returned] at h1
    split at h1
    · cases h1
    · split at h1
      · split at h1 <;> cases h1
        · exact hc.imp (List.mem_append_left _) fun h => by
            simp only [signal_log]; exact hlog _ h
        · exact hc.imp (List.mem_append_left _) id
      · cases h1
        exact hc.imp id (hlog _)

theorem out_answer {s s' : IoQ σ Q} {q' : Nat} {o : QOut} (h1 : s.out q' o = .ok s') {q t : Nat} {e : Entry}
    (hc : s.cur q t = some e) : s'.cur q t = some e ∨ (s'.cur q t = none ∧ s'.Answered e) := by
  cases o with
  | effect t' =>
    simp only [IoQ.out, IoQ.effect] at h1
    split at h1
    · cases h1
    · cases h1; exact Or.inl hc
  | ins t' ok sp =>
    simp only [IoQ.out, IoQ.returned] at h1
    split at h1
    · cases h1
    · rename_i e1 he1
      by_cases hqt : q = q' ∧ t = t'
      · obtain ⟨rfl, rfl⟩ := hqt
        rw [he1] at hc; cases hc
        refine Or.inr ?_
        split at h1
        · split at h1 <;> cases h1 <;> exact ⟨upd2_same _ _ _ _, Or.inl (by simp)⟩
        · cases h1
          exact ⟨upd2_same _ _ _ _, Or.inr (by simp [Iothr.emit])⟩
      · have hcu : upd2 s.cur q' t' none q t = some e := by rw [upd2_ne hqt]; exact hc
        refine Or.inl ?_
        split at h1
        · split at h1 <;> cases h1 <;> exact hcu
        · cases h1; exact hcu

theorem outs_answered (os : List QOut) {s s' : IoQ σ Q} {q' : Nat} (h : s.outs q' os = .ok s') {e : Entry}
    (hc : s.Answered e) : s'.Answered e := by
  induction os generalizing s with
  | nil => cases h; exact hc
  | cons o os ih =>
    obtain ⟨s1, h1, h⟩ := Exec.bind_eq_ok.1 h
    exact ih h (out_answered h1 hc)

theorem outs_answer (os : List QOut) {s s' : IoQ σ Q} {q' : Nat} (h : s.outs q' os = .ok s') {q t : Nat} {e : Entry}
    (hc : s.cur q t = some e) : s'.cur q t = some e ∨ (s'.cur q t = none ∧ s'.Answered e) := by
  induction os generalizing s with
  | nil => cases h; exact Or.inl hc
  | cons o os ih =>
    obtain ⟨s1, h1, h⟩ := Exec.bind_eq_ok.1 h
    rcases out_answer h1 hc with h2 | h2
    · exact ih h h2
    · exact Or.inr ⟨outs_cur os h q t h2.1, outs_answered os h h2.2⟩

/-- A call in progress stays the same call until it returns. -/
theorem QLink.answer_step (hQ : Q.Correct num sz R) {s s' : IoQ σ Q} {G : Nat → QGhost} (h : s.QLink num R G)
    {q t : Nat} {e : Entry} (hc : s.cur q t = some e) {a : QAct} (ha : a ≠ .finish) (hs : s.step a = .ok s') :
    s'.cur q t = some e ∨ (s'.cur q t = none ∧ s'.Answered e) := by
  cases a with
  | submit q' t' raw data f =>
    simp only [IoQ.step, IoQ.submit] at hs
    split at hs
    · cases hs
    · split at hs
      · cases hs; exact Or.inl hc
      · rename_i c1 hc1
        split at hs
        · cases hs; exact Or.inl hc
        · rename_i c2 hins
          obtain ⟨io, h1, hs⟩ := Exec.bind_eq_ok.1 hs
          split at hs
          · cases hs; exact Or.inl hc
          · cases hs
            refine Or.inl ?_
            have hqt : ¬ (q = q' ∧ t = t') := by
              rintro ⟨rfl, rfl⟩
              have := (hQ.insert _ _ _ _ _ (h.rel q c1 hc1) hins).1
              rw [h.g.calling, hc] at this; cases this
            simp only [upd2_ne hqt]; exact hc
  | prod q' t' k =>
    simp only [IoQ.step, IoQ.prod] at hs
    split at hs
    · cases hs
    · split at hs
      · cases hs; exact Or.inl hc
      · obtain ⟨⟨c2, os⟩, h1, hs⟩ := Exec.bind_eq_ok.1 hs
        exact outs_answer os hs hc
  | flush q' b i =>
    simp only [IoQ.step, IoQ.flush] at hs
    split at hs
    · cases hs; exact Or.inl hc
    · split at hs
      · cases hs; exact Or.inl hc
      · obtain ⟨⟨c2, os⟩, h1, hs⟩ := Exec.bind_eq_ok.1 hs
        exact outs_answer os hs hc
  | getQueue =>
    obtain ⟨io, _, hs⟩ := Exec.bind_eq_ok.1 hs
    cases hs; exact Or.inl hc
  | shutdown =>
    obtain ⟨io, _, hs⟩ := Exec.bind_eq_ok.1 hs
    cases hs; exact Or.inl hc
  | io now wake k =>
    have taken : ∀ i r s1, s.take i k = .ok (r, s1) → s1.cur = s.cur := by
      intro i r s1 h1
      unfold IoQ.take at h1
      split at h1
      · cases h1
      · split at h1
        · cases h1; rfl
        · obtain ⟨⟨c, r⟩, h2, h1⟩ := Exec.bind_eq_ok.1 h1
          simp only at h1
          split at h1
          · cases h1; rfl
          · cases h1; rfl
          · split at h1
            · split at h1
              · obtain ⟨io, h3, h1⟩ := Exec.bind_eq_ok.1 h1
                cases h1; rfl
              · cases h1
            · cases h1
    simp only [IoQ.step, IoQ.ioStep] at hs
    split at hs
    · split at hs
      · obtain ⟨⟨r, s1⟩, h1, hs⟩ := Exec.bind_eq_ok.1 hs
        have e1 := taken _ _ _ h1
        cases r <;> cases hs <;> exact Or.inl (by simp only [e1]; exact hc)
      · obtain ⟨io, _, hs⟩ := Exec.bind_eq_ok.1 hs
        cases hs; exact Or.inl hc
    · split at hs
      · obtain ⟨⟨r, s1⟩, h1, hs⟩ := Exec.bind_eq_ok.1 hs
        have e1 := taken _ _ _ h1
        cases r <;> cases hs <;> exact Or.inl (by simp only [e1]; exact hc)
      · obtain ⟨io, _, hs⟩ := Exec.bind_eq_ok.1 hs
        cases hs; exact Or.inl hc
    · obtain ⟨io, _, hs⟩ := Exec.bind_eq_ok.1 hs
      cases hs; exact Or.inl hc
  | finish => exact absurd rfl ha

/-- For stating properties: how many accesses thread `t` makes for queue `q` in a run, counting only those
made while the queue is in a state that satisfies `may`. -/
def accesses (may : Q.S → Bool) (q t : Nat) (s : IoQ σ Q) : List QAct → Nat
  | [] => 0
  | a :: as =>
    (match a with
      | .prod q' t' _ => if q' = q ∧ t' = t ∧ s.qs[q]?.map may = some true then 1 else 0
      | _ => 0) +
    (match s.step a with
      | .ok s' => accesses may q t s' as
      | .error _ => 0)

/-- A call returns within as many accesses as it has left. -/
theorem QLink.returns (hQ : Q.Correct num sz R) (hB : Q.Bounded R N may left) (bs : List QAct) {s s' : IoQ σ Q} {G : Nat → QGhost}
    (h : s.QLink num R G) {q t : Nat} {e : Entry} {c : Q.S} (hc : s.qs[q]? = some c) (hcur : s.cur q t = some e)
    (hf : QAct.finish ∉ bs) (hs : s.run bs = .ok s') (hn : left t c ≤ s.accesses (may t) q t bs) :
    ∃ bs1 bs2 s1, bs = bs1 ++ bs2 ∧ s.run bs1 = .ok s1 ∧ s1.cur q t = none ∧ s1.Answered e := by
  induction bs generalizing s G c with
  | nil =>
    have := hB.pos _ _ t (h.rel q c hc) (by rw [h.g.calling, hcur]; rfl)
    simp only [accesses] at hn
    omega
  | cons a bs ih =>
    obtain ⟨s1, h1, hs⟩ := Exec.bind_eq_ok.1 hs
    simp only [List.mem_cons, not_or] at hf
    have ha1 : a ≠ .finish := Ne.symm hf.1
    rcases h.answer_step hQ hcur ha1 h1 with h2 | h2
    · obtain ⟨c1, e1, e2, e3⟩ := h.left_step hQ hB (t := t) hc ha1 h1
      obtain ⟨e4, e5⟩ := e2 (by rw [hcur]; simp)
      obtain ⟨G1, h3⟩ := alive_step hQ h ha1 h1
      have hn' : left t c1 ≤ s1.accesses (may t) q t bs := by
        simp only [accesses, h1] at hn
        split at hn
        · rename_i q' t' k
          split at hn
          · rename_i hqt
            obtain ⟨rfl, rfl, hm⟩ := hqt
            rw [hc] at hm
            have := e5 k rfl (by simpa using hm)
            omega
          · omega
        · omega
      obtain ⟨bs1, bs2, s2, k1, k2, k3⟩ := ih h3 e1 h2 hf.2 hs hn'
      exact ⟨a :: bs1, bs2, s2, by rw [k1]; rfl, by simp only [IoQ.run, h1, Exec.ok_bind]; exact k2, k3⟩
    · exact ⟨[a], bs, s1, rfl, by simp only [IoQ.run, h1, Exec.ok_bind], h2⟩

/-- For stating properties: is this an access of thread `t` for queue `q`? -/
def _root_.Fstrm.QAct.isProd (q t : Nat) : QAct → Bool
  | .prod q' t' _ => decide (q' = q) && decide (t' = t)
  | _ => false

/-- If all accesses count. -/
theorem accesses_all (may : Q.S → Bool) (q t : Nat) (bs : List QAct) {s s' : IoQ σ Q} (hs : s.run bs = .ok s')
    (hm : ∀ bs1 bs2 s1, bs = bs1 ++ bs2 → s.run bs1 = .ok s1 → s1.qs[q]?.map may = some true) :
    s.accesses may q t bs = bs.countP (QAct.isProd q t) := by
  induction bs generalizing s with
  | nil => rfl
  | cons a bs ih =>
    have h0 := hm [] (a :: bs) s rfl rfl
    obtain ⟨s1, h1, hs⟩ := Exec.bind_eq_ok.1 hs
    have h2 := ih hs fun bs1 bs2 s2 e1 e2 => hm (a :: bs1) bs2 s2 (by rw [e1]; rfl)
      (by simp only [IoQ.run, h1, Exec.ok_bind]; exact e2)
    simp only [accesses, h1, h2, List.countP_cons]
    cases a <;> simp only [QAct.isProd, h0, and_true, Bool.and_eq_true, decide_eq_true_eq, Bool.false_eq_true, if_false] <;> omega

/-! ## Holding the mutex -/

/-- What can happen to a queue in a step. -/
theorem qs_step {s s' : IoQ σ Q} {q : Nat} {c : Q.S} (hc : s.qs[q]? = some c) {a : QAct} (hs : s.step a = .ok s') :
    ∃ c', s'.qs[q]? = some c' ∧ (c' = c ∨ (∃ t x, Q.insert c t x = some c') ∨
      (∃ t k os, a = .prod q t k ∧ Q.prod c t k = .ok (c', os)) ∨ (∃ b i os, Q.flush c b i = .ok (c', os)) ∨
      (a.isIo = true ∧ (Q.remove c = some c' ∨ (Q.remove c = none ∧ ∃ k r, Q.cons c k = .ok (c', r))))) := by
  have set : ∀ (q' : Nat) (c1 c2 : Q.S), s.qs[q']? = some c1 → s'.qs = s.qs.set q' c2 →
      (q' = q ∧ c1 = c ∧ s'.qs[q]? = some c2) ∨ s'.qs[q]? = some c := by
    intro q' c1 c2 h1 h2
    by_cases hq : q' = q
    · subst hq
      rw [hc] at h1; cases h1
      exact Or.inl ⟨rfl, rfl, by rw [h2]; exact List.getElem?_set_self (List.getElem?_eq_some_iff.1 hc).1⟩
    · exact Or.inr (by rw [h2, List.getElem?_set_ne hq]; exact hc)
  cases a with
  | submit q' t' raw data f =>
    simp only [IoQ.step, IoQ.submit] at hs
    split at hs
    · cases hs
    · split at hs
      · cases hs; exact ⟨c, hc, Or.inl rfl⟩
      · rename_i c1 hc1
        split at hs
        · cases hs; exact ⟨c, hc, Or.inl rfl⟩
        · rename_i c2 hins
          obtain ⟨io, h1, hs⟩ := Exec.bind_eq_ok.1 hs
          split at hs
          · cases hs; exact ⟨c, hc, Or.inl rfl⟩
          · cases hs
            rcases set q' c1 c2 hc1 rfl with ⟨_, rfl, h2⟩ | h2
            · exact ⟨c2, h2, Or.inr (Or.inl ⟨_, _, hins⟩)⟩
            · exact ⟨c, h2, Or.inl rfl⟩
  | prod q' t' k =>
    simp only [IoQ.step, IoQ.prod] at hs
    split at hs
    · cases hs
    · split at hs
      · cases hs; exact ⟨c, hc, Or.inl rfl⟩
      · rename_i c1 hc1
        obtain ⟨⟨c2, os⟩, h1, hs⟩ := Exec.bind_eq_ok.1 hs
        rcases set q' c1 c2 hc1 (outs_qs os hs) with ⟨rfl, rfl, h2⟩ | h2
        · exact ⟨c2, h2, Or.inr (Or.inr (Or.inl ⟨_, _, _, rfl, h1⟩))⟩
        · exact ⟨c, h2, Or.inl rfl⟩
  | flush q' b i =>
    simp only [IoQ.step, IoQ.flush] at hs
    split at hs
    · cases hs; exact ⟨c, hc, Or.inl rfl⟩
    · split at hs
      · cases hs; exact ⟨c, hc, Or.inl rfl⟩
      · rename_i c1 hc1
        obtain ⟨⟨c2, os⟩, h1, hs⟩ := Exec.bind_eq_ok.1 hs
        rcases set q' c1 c2 hc1 (outs_qs os hs) with ⟨rfl, rfl, h2⟩ | h2
        · exact ⟨c2, h2, Or.inr (Or.inr (Or.inr (Or.inl ⟨_, _, _, h1⟩)))⟩
        · exact ⟨c, h2, Or.inl rfl⟩
  | getQueue =>
    obtain ⟨io, _, hs⟩ := Exec.bind_eq_ok.1 hs
    cases hs; exact ⟨c, hc, Or.inl rfl⟩
  | shutdown =>
    obtain ⟨io, _, hs⟩ := Exec.bind_eq_ok.1 hs
    cases hs; exact ⟨c, hc, Or.inl rfl⟩
  | finish =>
    simp only [IoQ.step, IoQ.finish] at hs
    split at hs
    · obtain ⟨xss, _, hs⟩ := Exec.bind_eq_ok.1 hs
      split at hs
      · obtain ⟨io, _, hs⟩ := Exec.bind_eq_ok.1 hs
        cases hs; exact ⟨c, hc, Or.inl rfl⟩
      · cases hs
    · cases hs; exact ⟨c, hc, Or.inl rfl⟩
  | io now wake k =>
    have taken : ∀ i r s1, s.take i k = .ok (r, s1) → s'.qs = s1.qs →
        ∃ c', s'.qs[q]? = some c' ∧ (c' = c ∨ (∃ t x, Q.insert c t x = some c') ∨
          (∃ t k1 os, QAct.io now wake k = .prod q t k1 ∧ Q.prod c t k1 = .ok (c', os)) ∨ (∃ b i os, Q.flush c b i = .ok (c', os)) ∨
          ((QAct.io now wake k).isIo = true ∧ (Q.remove c = some c' ∨ (Q.remove c = none ∧ ∃ k r, Q.cons c k = .ok (c', r))))) := by
      intro i r s1 h1 h3
      unfold IoQ.take at h1
      split at h1
      · cases h1
      · rename_i c1 hc1
        split at h1
        · rename_i c2 hrem
          cases h1
          rcases set i c1 c2 hc1 h3 with ⟨rfl, rfl, h2⟩ | h2
          · exact ⟨c2, h2, Or.inr (Or.inr (Or.inr (Or.inr ⟨rfl, Or.inl hrem⟩)))⟩
          · exact ⟨c, h2, Or.inl rfl⟩
        · rename_i hrem
          obtain ⟨⟨c2, r2⟩, h4, h1⟩ := Exec.bind_eq_ok.1 h1
          have done : s1.qs = s.qs.set i c2 → ∃ c', s'.qs[q]? = some c' ∧ (c' = c ∨ (∃ t x, Q.insert c t x = some c') ∨
              (∃ t k1 os, QAct.io now wake k = .prod q t k1 ∧ Q.prod c t k1 = .ok (c', os)) ∨ (∃ b i os, Q.flush c b i = .ok (c', os)) ∨
              ((QAct.io now wake k).isIo = true ∧ (Q.remove c = some c' ∨ (Q.remove c = none ∧ ∃ k r, Q.cons c k = .ok (c', r))))) := by
            intro h5
            rcases set i c1 c2 hc1 (h3.trans h5) with ⟨rfl, rfl, h2⟩ | h2
            · exact ⟨c2, h2, Or.inr (Or.inr (Or.inr (Or.inr ⟨rfl, Or.inr ⟨hrem, _, _, h4⟩⟩)))⟩
            · exact ⟨c, h2, Or.inl rfl⟩
          simp only at h1
          split at h1
          · cases h1; exact done rfl
          · cases h1; exact done rfl
          · split at h1
            · split at h1
              · obtain ⟨io, h3, h1⟩ := Exec.bind_eq_ok.1 h1
                cases h1; exact done rfl
              · cases h1
            · cases h1
    simp only [IoQ.step, IoQ.ioStep] at hs
    split at hs
    · split at hs
      · obtain ⟨⟨r, s1⟩, h1, hs⟩ := Exec.bind_eq_ok.1 hs
        cases r <;> cases hs <;> exact taken _ _ _ h1 rfl
      · obtain ⟨io, _, hs⟩ := Exec.bind_eq_ok.1 hs
        cases hs; exact ⟨c, hc, Or.inl rfl⟩
    · split at hs
      · obtain ⟨⟨r, s1⟩, h1, hs⟩ := Exec.bind_eq_ok.1 hs
        cases r <;> cases hs <;> exact taken _ _ _ h1 rfl
      · obtain ⟨io, _, hs⟩ := Exec.bind_eq_ok.1 hs
        cases hs; exact ⟨c, hc, Or.inl rfl⟩
    · obtain ⟨io, _, hs⟩ := Exec.bind_eq_ok.1 hs
      cases hs; exact ⟨c, hc, Or.inl rfl⟩

theorem qs_run (bs : List QAct) {s s' : IoQ σ Q} {q : Nat} {c : Q.S} (hc : s.qs[q]? = some c) (hs : s.run bs = .ok s') :
    ∃ c', s'.qs[q]? = some c' := by
  induction bs generalizing s c with
  | nil => cases hs; exact ⟨c, hc⟩
  | cons a bs ih =>
    obtain ⟨s1, h1, hs⟩ := Exec.bind_eq_ok.1 hs
    obtain ⟨c1, h2, _⟩ := qs_step hc h1
    exact ih h2 hs

end IoQ

/-- Who holds the mutex after an access. -/
theorem Mt.access_owner {num sz : UInt32} {s s' : Mt} {t k : Nat} (hi : s.Inv num sz) (h : s.access t k = .ok s') {u : Nat}
    (hu : s.owner = some u) : (s'.owner = some u ∨ (t = u ∧ s'.owner = none ∧ s'.th u = .idle)) := by
  have enter : ∀ pc, (s.enter t pc).owner = some u := by
    intro pc
    unfold Mt.enter
    rw [hi.locked, hu]
    exact hu
  rcases Mt.access_cases h with ⟨h1, h2⟩ | ⟨x, ok, sp, h1, rfl⟩ | ⟨r, ct, h1, rfl⟩
  · refine Or.inl ?_
    unfold Mt.access at h
    split at h
    · cases h; exact hu
    · cases h; exact enter _
    · cases h; exact hu
    · simp only at h; split at h <;> cases h <;> exact hu
    · cases h; exact hu
    · simp only at h
      split at h
      · cases h
      · split at h
        · cases h; exact hu
        · cases h
    · cases h
      rw [Mt.leave_log] at h1
      simp at h1
    · cases h; exact enter _
    · cases h; exact hu
    · simp only at h; split at h <;> cases h <;> exact hu
    · cases h; exact hu
    · simp only at h
      split at h
      · cases h
      · cases h; exact hu
    · cases h
      rw [Mt.leave_log] at h1
      simp at h1
  · have : t = u := by
      have := hi.excl t (by rw [h1]; rfl)
      rw [hu] at this; cases this; rfl
    subst this
    exact Or.inr ⟨rfl, by simp [Mt.leave, hi.locked], by rw [Mt.leave_th, if_pos rfl]⟩
  · have : t = u := by
      have := hi.excl t (by rw [h1]; rfl)
      rw [hu] at this; cases this; rfl
    subst this
    exact Or.inr ⟨rfl, by simp [Mt.leave, hi.locked], by rw [Mt.leave_th, if_pos rfl]⟩

namespace IoQ

variable {σ : Type} {num sz : UInt32}

/-- A remove call never has more accesses left than this. -/
def Brief (sz : Nat) (s : IoQ σ mutexQueue) : Prop :=
  ∀ (q : Nat) (c : Mt), s.qs[q]? = some c → (c.th 0).cleft sz ≤ sz + 6

theorem brief_step {s s' : IoQ σ mutexQueue} {G : Nat → QGhost} (h : s.QLink num (MtR num sz) G)
    (hb : s.Brief sz.toNat) (hlen : s'.qs.length = s.qs.length) {a : QAct} (hs : s.step a = .ok s') :
    s'.Brief sz.toNat := by
  intro q c' hc'
  have hlt := (List.getElem?_eq_some_iff.1 hc').1
  obtain ⟨c, hc⟩ : ∃ c, s.qs[q]? = some c := ⟨_, List.getElem?_eq_getElem (by omega)⟩
  have hbc := hb q c hc
  have hr : MtR num sz c (G q) := h.rel q c hc
  obtain ⟨c1, e1, e2⟩ := qs_step hc hs
  rw [hc'] at e1; cases e1
  rcases e2 with rfl | ⟨t, x, e⟩ | ⟨t, k, os, _, e⟩ | ⟨b, i, os, e⟩ | ⟨_, e | ⟨_, k, r, e⟩⟩
  · exact hbc
  · simp only [mutexQueue] at e
    split at e
    · cases e; simp only [Mt.goto]; rw [if_neg (by omega)]; exact hbc
    · cases e
  · simp only [mutexQueue] at e
    obtain ⟨s1, h1, e⟩ := Exec.bind_eq_ok.1 e
    cases e
    obtain ⟨e1, _⟩ := Mt.access_left (sz := sz.toNat) (by rw [hr.inv.hsz]) (show c.access (t + 1) k = .ok c' from h1)
    rw [e1 0 (by omega)]; exact hbc
  · simp only [mutexQueue] at e
    cases e; exact hbc
  · simp only [mutexQueue] at e
    split at e
    · cases e; simp only [Mt.goto, if_true, MtPc.cleft]; omega
    · cases e
  · simp only [mutexQueue] at e
    obtain ⟨s1, h1, e⟩ := Exec.bind_eq_ok.1 e
    cases e
    have h1 : c.access 0 k = .ok c' := h1
    rcases Mt.access_cases h1 with ⟨e1, e2⟩ | ⟨x, ok, sp, e1, rfl⟩ | ⟨r, ct, e1, rfl⟩
    · obtain ⟨_, e3, _, e4⟩ := Mt.access_left (sz := sz.toNat) (by rw [hr.inv.hsz]) h1
      by_cases hrm : (c.th 0).removing = true
      · rcases e4 hrm with e5 | ⟨rfl, _⟩ | ⟨c2, r, e5, _⟩
        · omega
        · exact hbc
        · rw [e1] at e5; simp at e5
      · have : c.th 0 = .idle := by
          have h2 := hr.role
          revert hrm h2
          cases c.th 0 <;> simp [MtPc.removing, MtPc.item]
        rw [e3 this]; exact hbc
    · show MtPc.cleft sz.toNat .idle ≤ _
      exact Nat.le_refl _
    · show MtPc.cleft sz.toNat .idle ≤ _
      exact Nat.le_refl _

theorem brief_run (hQ : mutexQueue.Correct num sz (MtR num sz)) (as : List QAct) {s s' : IoQ σ mutexQueue}
    {G : Nat → QGhost} (h : s.QLink num (MtR num sz) G) (hn : s.Brief sz.toNat) (ha : QAct.finish ∉ as) (hs : s.run as = .ok s') :
    s'.Brief sz.toNat := by
  induction as generalizing s G with
  | nil => cases hs; exact hn
  | cons a as ih =>
    obtain ⟨s1, h1, hs⟩ := Exec.bind_eq_ok.1 hs
    simp only [List.mem_cons, not_or] at ha
    have ha1 : a ≠ .finish := Ne.symm ha.1
    obtain ⟨G1, h2⟩ := alive_step hQ h ha1 h1
    exact ih h2 (brief_step h hn (length_step hQ h ha1 h1) h1) ha.2 hs

/-- A step of the I/O thread while it holds the mutex of a queue. -/
theorem QLink.hold_io {s s' : IoQ σ mutexQueue} {G : Nat → QGhost} (h : s.QLink num (MtR num sz) G)
    {q : Nat} {c : Mt} (hc : s.qs[q]? = some c) (ho : c.owner = some 0) {now : Nat} {wake : Wake} {k : Nat}
    (hs : s.step (.io now wake k) = .ok s') :
    ∃ c' : Mt, s'.qs[q]? = some c' ∧
      ((c'.owner = some 0 ∧ (c'.th 0).cleft sz.toNat < (c.th 0).cleft sz.toNat ∧ s'.io = s.io) ∨ c'.owner = none) := by
  have hr : MtR num sz c (G q) := h.rel q c hc
  have hcr := hr.inv.crit 0 ho
  have hin : (c.th 0).inside = true ∧ (c.th 0).removing = true := by
    have := hr.role
    revert hcr this
    cases c.th 0 <;> simp [Crit, MtPc.inside, MtPc.removing, MtPc.item]
  have htk : (G q).taking = true := by rw [hr.taking]; exact hin.2
  obtain ⟨hlt, tot, hpc⟩ := h.g.loc q htk
  have hrem : mutexQueue.remove c = none := by
    simp only [mutexQueue]
    rw [if_neg]
    intro e; rw [e] at hin; cases hin.1
  have hsz : c.q.sz.toNat = sz.toNat := by rw [hr.inv.hsz]
  have taken : ∀ r s1, s.take q k = .ok (r, s1) → s'.qs = s1.qs → (r = none → s'.io = s1.io) →
      ∃ c' : Mt, s'.qs[q]? = some c' ∧
        ((c'.owner = some 0 ∧ (c'.th 0).cleft sz.toNat < (c.th 0).cleft sz.toNat ∧ s'.io = s.io) ∨ c'.owner = none) := by
    intro r s1 h1 h2 h3
    simp only [IoQ.take, hc, hrem] at h1
    obtain ⟨⟨c2, r2⟩, h4, h1⟩ := Exec.bind_eq_ok.1 h1
    simp only [mutexQueue] at h4
    obtain ⟨c3, h5, h4⟩ := Exec.bind_eq_ok.1 h4
    have h5 : c.access 0 k = .ok c3 := h5
    have h7 : c3 = c2 := congrArg Prod.fst (Except.ok.inj h4)
    have h8 : ((c3.log.drop c.log.length).filterMap Spec.Call.ret).head? = r2 := congrArg Prod.snd (Except.ok.inj h4)
    subst h7
    have hset : (s.qs.set q c3)[q]? = some c3 := List.getElem?_set_self (List.getElem?_eq_some_iff.1 hc).1
    have hqs : s1.qs = s.qs.set q c3 := by
      simp only at h1
      split at h1
      · cases h1; rfl
      · cases h1; rfl
      · split at h1
        · split at h1
          · obtain ⟨io, h3, h1⟩ := Exec.bind_eq_ok.1 h1
            cases h1; rfl
          · cases h1
        · cases h1
    refine ⟨c3, by rw [h2, hqs]; exact hset, ?_⟩
    rcases Mt.access_owner hr.inv h5 ho with h6 | ⟨_, h6, _⟩
    · refine Or.inl ⟨h6, ?_⟩
      rcases Mt.access_cases h5 with ⟨e1, _⟩ | ⟨x, ok, sp, e1, rfl⟩ | ⟨x, ct, e1, rfl⟩
      · have hr2 : r2 = none := by rw [← h8, e1]; simp
        subst hr2
        simp only at h1
        cases h1
        refine ⟨?_, h3 rfl⟩
        obtain ⟨_, _, _, e4⟩ := Mt.access_left hsz h5
        rcases e4 hin.2 with e5 | ⟨_, _, e5, _⟩ | ⟨c2, r, e5, _⟩
        · exact e5
        · rw [hin.1] at e5; cases e5
        · rw [e1] at e5; simp at e5
      · simp [Mt.leave, hr.inv.locked] at h6
      · simp [Mt.leave, hr.inv.locked] at h6
    · exact Or.inr h6
  simp only [IoQ.step, IoQ.ioStep] at hs
  rcases hpc with hpc | hpc
  · simp only [hpc, if_pos hlt] at hs
    obtain ⟨⟨r, s1⟩, h1, hs⟩ := Exec.bind_eq_ok.1 hs
    cases r <;> cases hs
    · exact taken _ _ h1 rfl fun _ => rfl
    · exact taken _ _ h1 rfl nofun
  · simp only [hpc, if_pos hlt] at hs
    obtain ⟨⟨r, s1⟩, h1, hs⟩ := Exec.bind_eq_ok.1 hs
    cases r <;> cases hs
    · exact taken _ _ h1 rfl fun _ => rfl
    · exact taken _ _ h1 rfl nofun

/-- The steps of the others while the I/O thread holds the mutex. -/
theorem QLink.hold_other {s s' : IoQ σ mutexQueue} {G : Nat → QGhost} (h : s.QLink num (MtR num sz) G)
    {q : Nat} {c : Mt} (hc : s.qs[q]? = some c) (ho : c.owner = some 0) {a : QAct} (ha : a.isIo = false)
    (hs : s.step a = .ok s') :
    ∃ c' : Mt, s'.qs[q]? = some c' ∧ c'.owner = some 0 ∧ c'.th 0 = c.th 0 := by
  have hr : MtR num sz c (G q) := h.rel q c hc
  obtain ⟨c1, e1, e2⟩ := qs_step hc hs
  refine ⟨c1, e1, ?_⟩
  rcases e2 with rfl | ⟨t, x, e⟩ | ⟨t, k, os, _, e⟩ | ⟨b, i, os, e⟩ | ⟨e, _⟩
  · exact ⟨ho, rfl⟩
  · simp only [mutexQueue] at e
    split at e
    · cases e; exact ⟨ho, by simp only [Mt.goto]; rw [if_neg (by omega)]⟩
    · cases e
  · simp only [mutexQueue] at e
    obtain ⟨s1, h1, e⟩ := Exec.bind_eq_ok.1 e
    cases e
    have h1 : c.access (t + 1) k = .ok c1 := h1
    obtain ⟨e1, _⟩ := Mt.access_left (sz := sz.toNat) (by rw [hr.inv.hsz]) h1
    refine ⟨?_, e1 0 (by omega)⟩
    rcases Mt.access_owner hr.inv h1 ho with h2 | ⟨h2, _⟩
    · exact h2
    · omega
  · simp only [mutexQueue] at e
    cases e; exact ⟨ho, rfl⟩
  · rw [ha] at e; cases e

/-- The I/O thread does not hold the mutex for long. -/
theorem QLink.hold (hQ : mutexQueue.Correct num sz (MtR num sz)) (bs : List QAct) {s s' : IoQ σ mutexQueue} {G : Nat → QGhost}
    (h : s.QLink num (MtR num sz) G) {q : Nat} {c : Mt} (hc : s.qs[q]? = some c) (ho : c.owner = some 0)
    (hf : QAct.finish ∉ bs) (hs : s.run bs = .ok s') (hn : (c.th 0).cleft sz.toNat ≤ bs.countP QAct.isIo) :
    ∃ bs1 bs2 s1 c1, bs = bs1 ++ bs2 ∧ s.run bs1 = .ok s1 ∧ s1.qs[q]? = some c1 ∧ (show Mt from c1).owner = none := by
  induction bs generalizing s G c with
  | nil =>
    have : 0 < (c.th 0).cleft sz.toNat := by cases c.th 0 <;> simp [MtPc.cleft]
    simp only [List.countP_nil] at hn
    omega
  | cons a bs ih =>
    obtain ⟨s1, h1, hs⟩ := Exec.bind_eq_ok.1 hs
    simp only [List.mem_cons, not_or] at hf
    have ha1 : a ≠ .finish := Ne.symm hf.1
    obtain ⟨G1, h3⟩ := alive_step hQ h ha1 h1
    have more : ∀ c1 : Mt, s1.qs[q]? = some c1 → c1.owner = some 0 → (c1.th 0).cleft sz.toNat ≤ bs.countP QAct.isIo →
        ∃ bs1 bs2 s2 c2, a :: bs = bs1 ++ bs2 ∧ s.run bs1 = .ok s2 ∧ s2.qs[q]? = some c2 ∧ (show Mt from c2).owner = none := by
      intro c1 k1 k2 k3
      obtain ⟨bs1, bs2, s2, c2, e1, e2, e3, e4⟩ := ih h3 k1 k2 hf.2 hs k3
      exact ⟨a :: bs1, bs2, s2, c2, by rw [e1]; rfl, by simp only [IoQ.run, h1, Exec.ok_bind]; exact e2, e3, e4⟩
    rw [List.countP_cons] at hn
    cases hio : a.isIo with
    | false =>
      obtain ⟨c1, e1, e2, e3⟩ := h.hold_other hc ho hio h1
      rw [hio] at hn
      exact more c1 e1 e2 (by rw [e3]; simpa using hn)
    | true =>
      cases a with
      | io now wake k =>
        obtain ⟨c1, e1, ⟨e2, e3, _⟩ | e2⟩ := h.hold_io hc ho h1
        · rw [hio] at hn
          exact more c1 e1 e2 (by simp only [if_true] at hn; omega)
        · exact ⟨[.io now wake k], bs, s1, c1, rfl, by simp only [IoQ.run, h1, Exec.ok_bind], e1, e2⟩
      | _ => cases hio

end IoQ
end Fstrm
