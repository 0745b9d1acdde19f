import Verif.Lemmas.QueueIa64
import Verif.Model.QueuePayload

/-! Helper lemmas for C124. -/

set_option autoImplicit false

namespace Fstrm

open Spec

/-- The stores to `a`, each with the number of elements put into the queue before it; `n` for the first. -/
def storesTo (a n : Nat) : List (PayEv Bytes) → List (Nat × UInt8)
  | [] => []
  | .store a' b :: l => if a' = a then (n, b) :: storesTo a n l else storesTo a n l
  | .queue (.put _ _) :: l => storesTo a (n + 1) l
  | .queue _ :: l => storesTo a n l
  | .load _ _ _ :: l => storesTo a n l

/-- The value after these stores. -/
def afterStores (b : UInt8) : List (Nat × UInt8) → UInt8
  | [] => b
  | (_, b') :: l => afterStores b' l

theorem afterStores_append (b : UInt8) (l m : List (Nat × UInt8)) :
    afterStores b (l ++ m) = afterStores (afterStores b l) m := by
  induction l generalizing b with
  | nil => rfl
  | cons x l ih => obtain ⟨n, b'⟩ := x; exact ih b'

theorem queueEvents_append (a b : List (PayEv Bytes)) : queueEvents (a ++ b) = queueEvents a ++ queueEvents b := by
  induction a with
  | nil => rfl
  | cons e a ih => cases e <;> simp [queueEvents, ih]

theorem queueEvents_map (l : List (QEv Bytes)) : queueEvents (l.map .queue) = l := by
  induction l with
  | nil => rfl
  | cons e l ih => simp [queueEvents, ih]

theorem storesTo_append (a n : Nat) (l m : List (PayEv Bytes)) :
    storesTo a n (l ++ m) = storesTo a n l ++ storesTo a (n + (puts (queueEvents l)).length) m := by
  induction l generalizing n with
  | nil => rfl
  | cons e l ih =>
    cases e with
    | store a' b =>
      simp only [List.cons_append, storesTo, queueEvents, ih]
      split <;> rfl
    | load k a' b => simp only [List.cons_append, storesTo, queueEvents, ih]
    | queue e =>
      cases e with
      | put x s =>
        simp only [List.cons_append, storesTo, queueEvents, puts, List.length_cons, ih]
        rw [show n + 1 + (puts (queueEvents l)).length = n + ((puts (queueEvents l)).length + 1) by omega]
      | _ => simp only [List.cons_append, storesTo, queueEvents, puts, ih]

theorem storesTo_le (a : Nat) (l : List (PayEv Bytes)) (n : Nat) :
    ∀ x ∈ storesTo a n l, x.1 ≤ n + (puts (queueEvents l)).length := by
  induction l generalizing n with
  | nil => intro x hx; cases hx
  | cons e l ih =>
    intro x hx
    cases e with
    | store a' b =>
      simp only [storesTo] at hx
      split at hx
      · rcases List.mem_cons.1 hx with rfl | hx
        · simp
        · exact ih n x hx
      · exact ih n x hx
    | load k a' b => exact ih n x hx
    | queue e =>
      cases e with
      | put y s =>
        have := ih (n + 1) x hx
        simp only [queueEvents, puts, List.length_cons]
        omega
      | _ => exact ih n x hx

theorem storesTo_none (a : Nat) (l : List (PayEv Bytes)) (n : Nat) (h : ∀ b, PayEv.store a b ∉ l) :
    storesTo a n l = [] := by
  induction l generalizing n with
  | nil => rfl
  | cons e l ih =>
    have h' : ∀ b, PayEv.store a b ∉ l := fun b hb => h b (List.mem_cons_of_mem _ hb)
    cases e with
    | store a' b =>
      simp only [storesTo]
      rw [if_neg (by rintro rfl; exact h b (List.mem_cons_self ..))]
      exact ih n h'
    | load k a' b => exact ih n h'
    | queue e =>
      cases e with
      | put y s => exact ih (n + 1) h'
      | _ => exact ih n h'

theorem storesTo_last (a : Nat) (l : List (PayEv Bytes)) (n : Nat) (b : UInt8) :
    afterStores b (storesTo a n l) = lastStored a b l := by
  induction l generalizing n b with
  | nil => rfl
  | cons e l ih =>
    cases e with
    | store a' b' =>
      simp only [storesTo, lastStored]
      split
      · exact ih n b'
      · exact ih n b
    | load k a' b' => exact ih n b
    | queue e =>
      cases e with
      | put y s => exact ih (n + 1) b
      | _ => exact ih n b

theorem storesTo_queue (a n : Nat) (l : List (QEv Bytes)) : storesTo a n (l.map .queue) = [] := by
  refine storesTo_none a _ n fun b hb => ?_
  obtain ⟨e, _, h⟩ := List.mem_map.1 hb
  cases h

/-- Memory is ahead of the first `v` elements: what is pending was stored after them. -/
def Ahead (init mem : Nat → UInt8) (log : List (PayEv Bytes)) (v : Nat) : Prop :=
  ∀ a, ∃ done pend, storesTo a 0 log = done ++ pend ∧ mem a = afterStores (init a) done ∧ ∀ x ∈ pend, v ≤ x.1

theorem Ahead.load {init mem : Nat → UInt8} {log : List (PayEv Bytes)} {v : Nat} (h : Ahead init mem log v)
    {k a : Nat} {early late : List (PayEv Bytes)} {x : Bytes} {n : Nat} (hk : k ≤ v)
    (hl : log = early ++ .queue (.put x n) :: late) (he : (puts (queueEvents early)).length < k)
    (hs : ∀ b, PayEv.store a b ∉ late) : mem a = lastStored a (init a) early := by
  obtain ⟨done, pend, h1, h2, h3⟩ := h a
  rw [hl, storesTo_append, storesTo_none a (.queue (.put x n) :: late) _ (by
    intro b hb
    rcases List.mem_cons.1 hb with hb | hb
    · cases hb
    · exact hs b hb), List.append_nil] at h1
  have hp : pend = [] := by
    cases pend with
    | nil => rfl
    | cons y l =>
      have h4 := h3 y (List.mem_cons_self ..)
      have h5 := storesTo_le a early 0 y (by rw [h1]; simp)
      omega
  rw [hp, List.append_nil] at h1
  rw [h2, ← h1, storesTo_last]

theorem snoc_inj {α : Type} {l a b : List α} {e x : α} (h : l ++ [e] = a ++ x :: b) :
    (a = l ∧ x = e ∧ b = []) ∨ ∃ b', b = b' ++ [e] ∧ l = a ++ x :: b' := by
  rcases List.eq_nil_or_concat b with rfl | ⟨b', y, rfl⟩
  · obtain ⟨h1, h2⟩ := List.append_inj' h rfl
    cases h2
    exact Or.inl ⟨h1.symm, rfl, rfl⟩
  · rw [List.concat_eq_append, ← List.cons_append, ← List.append_assoc] at h
    obtain ⟨h1, h2⟩ := List.append_inj' h rfl
    cases h2
    exact Or.inr ⟨b', List.concat_eq_append .., h1⟩

theorem Spec.Published.snoc {init : Nat → UInt8} {log : List (PayEv Bytes)} {e : PayEv Bytes} (h : Published init log)
    (he : ∀ k a b, e = .load k a b → ∀ early x n late, log = early ++ .queue (.put x n) :: late →
      (puts (queueEvents early)).length < k → (∀ b', .store a b' ∉ late) → b = lastStored a (init a) early) :
    Published init (log ++ [e]) := by
  intro before k a b after early x n late h1 h2
  rcases snoc_inj h1 with ⟨rfl, h3, _⟩ | ⟨b', _, h3⟩
  · exact he k a b h3.symm early x n late h2
  · exact h before k a b b' early x n late h3 h2

theorem Spec.Taken.snoc {log : List (PayEv Bytes)} {e : PayEv Bytes} (h : Taken log)
    (he : ∀ k a b, e = .load k a b → (gots (queueEvents log)).length ≤ k ∧ k ≤ (gots (queueEvents log)).length + 1) :
    Taken (log ++ [e]) := by
  intro before k a b after h1
  rcases snoc_inj h1 with ⟨rfl, h3, _⟩ | ⟨b', _, h3⟩
  · exact he k a b h3.symm
  · exact h before k a b b' h3

theorem Spec.Published.queue {init : Nat → UInt8} {log : List (PayEv Bytes)} (h : Published init log) (es : List (QEv Bytes)) :
    Published init (log ++ es.map .queue) := by
  induction es generalizing log with
  | nil => simpa using h
  | cons e es ih =>
    rw [List.map_cons, List.append_cons]
    exact ih (h.snoc (fun _ _ _ h => nomatch h))

theorem Spec.Taken.queue {log : List (PayEv Bytes)} (h : Taken log) (es : List (QEv Bytes)) :
    Taken (log ++ es.map .queue) := by
  induction es generalizing log with
  | nil => simpa using h
  | cons e es ih =>
    rw [List.map_cons, List.append_cons]
    exact ih (h.snoc (fun _ _ _ h => nomatch h))

/-! ### x86-64 -/

/-- Does the store publish an element? -/
def Store.heads : Store → Nat
  | .head _ => 1
  | _ => 0

def headsOf : List Store → Nat
  | [] => 0
  | st :: l => st.heads + headsOf l

theorem headsOf_append (a b : List Store) : headsOf (a ++ b) = headsOf a + headsOf b := by
  induction a with
  | nil => simp [headsOf]
  | cons x a ih => simp only [List.cons_append, headsOf, ih]; omega

theorem drop_log {α : Type} (a b : List α) : (a ++ b).drop a.length = b := by simp

/-- What an action of the queue other than a store reaching memory adds. -/
theorem Tso.step_adds {num sz : UInt32} {t t' : Tso} (h : t.Inv num sz) {a : TsoAct} (ha : a ≠ .pflush)
    (hs : t.step a = .ok t') : ∃ new add, t'.log = t.log ++ new ∧ t'.pbuf = t.pbuf ++ add ∧
      (puts new).length = headsOf add ∧ visibles new = 0 := by
  cases a with
  | pflush => exact absurd rfl ha
  | insert item =>
    simp only [Tso.step] at hs
    split at hs <;> cases hs <;> exact ⟨[], [], by simp, by simp, rfl, rfl⟩
  | remove =>
    simp only [Tso.step] at hs
    split at hs <;> cases hs <;> exact ⟨[], [], by simp, by simp, rfl, rfl⟩
  | pstep i =>
    simp only [Tso.step, Tso.pstep] at hs
    split at hs
    · cases hs; exact ⟨[], [], by simp, by simp, rfl, rfl⟩
    · cases hs; exact ⟨[], [], by simp, by simp, rfl, rfl⟩
    · split at hs
      · cases hs; exact ⟨[], [], by simp, by simp, rfl, rfl⟩
      · cases hs; exact ⟨[_], [], rfl, by simp, rfl, rfl⟩
    · cases hs; exact ⟨[_], [_], rfl, rfl, rfl, rfl⟩
    · split at hs
      · cases hs
      · cases hs; exact ⟨[], [_], by simp, rfl, rfl, rfl⟩
  | cstep i =>
    simp only [Tso.step, Tso.cstep] at hs
    split at hs
    · cases hs; exact ⟨[], [], by simp, by simp, rfl, rfl⟩
    · cases hs; exact ⟨[_], [], rfl, by simp, rfl, rfl⟩
    · split at hs
      · cases hs; exact ⟨[], [], by simp, by simp, rfl, rfl⟩
      · cases hs; exact ⟨[_], [], rfl, by simp, rfl, rfl⟩
    · split at hs <;> cases hs <;> exact ⟨[], [], by simp, by simp, rfl, rfl⟩
    · split at hs
      · cases hs
      · cases hs; exact ⟨[], [], by simp, by simp, rfl, rfl⟩
    · cases hs; exact ⟨[_], [], rfl, by simp, rfl, rfl⟩
  | cflush =>
    have hb := h.cbuf
    simp only [Tso.step] at hs
    split at hs
    · cases hs; exact ⟨[], [], by simp, by simp, rfl, rfl⟩
    · rename_i st rest hst
      rw [hst] at hb
      obtain ⟨q, _, hs⟩ := Exec.bind_eq_ok.1 hs
      cases hs
      cases st with
      | tail v => exact ⟨[.freed], [], rfl, by simp, rfl, rfl⟩
      | data o b => exact hb.elim
      | head v => exact hb.elim

/-- What a store reaching memory does. -/
theorem Tso.pflush_eq {t t' : Tso} {st : Store} {rest : List Store} (hb : t.pbuf = st :: rest)
    (hs : t.step .pflush = .ok t') : ∃ new, t'.log = t.log ++ new ∧ t'.pbuf = rest ∧ puts new = [] ∧
      visibles new = st.heads ∧ gots new = [] := by
  simp only [Tso.step, hb] at hs
  obtain ⟨q, _, hs⟩ := Exec.bind_eq_ok.1 hs
  cases hs
  cases st <;> exact ⟨_, rfl, rfl, rfl, rfl, rfl⟩

/-- The pending stores to `a`, with the number of elements before each. -/
def pendTo (a : Nat) : Nat → List Store → List (Option (Nat × UInt8)) → List (Nat × UInt8)
  | _, _, [] => []
  | v, qs, some (a', b) :: l => if a' = a then (v, b) :: pendTo a v qs l else pendTo a v qs l
  | v, [], none :: l => pendTo a v [] l
  | v, st :: qs, none :: l => pendTo a (v + st.heads) qs l

/-- The number of stores to the queue. -/
def nones : List (Option (Nat × UInt8)) → Nat
  | [] => 0
  | none :: l => nones l + 1
  | some _ :: l => nones l

theorem nones_append (a b : List (Option (Nat × UInt8))) : nones (a ++ b) = nones a + nones b := by
  induction a with
  | nil => simp [nones]
  | cons x a ih => cases x <;> simp only [List.cons_append, nones, ih] <;> omega

theorem nones_replicate (n : Nat) : nones (List.replicate n none) = n := by
  induction n with
  | zero => rfl
  | succ n ih => simp only [List.replicate_succ, nones, ih]

theorem pendTo_ge (a : Nat) (l : List (Option (Nat × UInt8))) : ∀ (v : Nat) (qs : List Store),
    ∀ x ∈ pendTo a v qs l, v ≤ x.1 := by
  induction l with
  | nil => intro v qs x hx; simp [pendTo] at hx
  | cons e l ih =>
    intro v qs x hx
    cases e with
    | none =>
      cases qs with
      | nil => exact ih v [] x hx
      | cons st qs => have := ih _ qs x hx; omega
    | some y =>
      obtain ⟨a', b⟩ := y
      simp only [pendTo] at hx
      split at hx
      · rcases List.mem_cons.1 hx with rfl | hx
        · exact Nat.le_refl _
        · exact ih v qs x hx
      · exact ih v qs x hx

theorem pendTo_snoc (a : Nat) (l m : List (Option (Nat × UInt8))) : ∀ (v : Nat) (qs : List Store),
    nones l = qs.length → pendTo a v qs (l ++ m) = pendTo a v qs l ++ pendTo a (v + headsOf qs) [] m := by
  induction l with
  | nil =>
    intro v qs h
    have : qs = [] := List.length_eq_zero_iff.1 h.symm
    subst this
    simp [pendTo, headsOf]
  | cons e l ih =>
    intro v qs h
    cases e with
    | none =>
      cases qs with
      | nil => simp [nones] at h
      | cons st qs =>
        simp only [List.cons_append, pendTo, headsOf]
        rw [ih _ qs (by simpa [nones] using h), Nat.add_assoc]
    | some y =>
      obtain ⟨a', b⟩ := y
      simp only [List.cons_append, pendTo]
      rw [ih v qs h]
      split <;> rfl

theorem pendTo_more (a : Nat) (l : List (Option (Nat × UInt8))) : ∀ (v : Nat) (qs add : List Store),
    nones l = qs.length → pendTo a v (qs ++ add) l = pendTo a v qs l := by
  induction l with
  | nil => intros; simp [pendTo]
  | cons e l ih =>
    intro v qs add h
    cases e with
    | none =>
      cases qs with
      | nil => simp [nones] at h
      | cons st qs =>
        simp only [List.cons_append, pendTo]
        exact ih _ qs add (by simpa [nones] using h)
    | some y =>
      obtain ⟨a', b⟩ := y
      simp only [pendTo]
      rw [ih v qs add h]

theorem pendTo_nones (a : Nat) (n : Nat) : ∀ (v : Nat) (qs : List Store), pendTo a v qs (List.replicate n none) = [] := by
  induction n with
  | zero => intros; simp [pendTo]
  | succ n ih => intro v qs; cases qs <;> simp only [List.replicate_succ, pendTo, ih]

/-- The invariant. -/
structure PayTso.Inv (init : Nat → UInt8) (num sz : UInt32) (s : PayTso) : Prop where
  t : s.t.Inv num sz
  log : queueEvents s.log = s.t.log
  puts : (puts s.t.log).length = visibles s.t.log + headsOf s.t.pbuf
  nones : nones s.buf = s.t.pbuf.length
  mem : ∀ a, ∃ done, storesTo a 0 s.log = done ++ pendTo a (visibles s.t.log) s.t.pbuf s.buf ∧
    s.mem a = afterStores (init a) done
  published : Published init s.log
  taken : Taken s.log

theorem Tso.Inv.holds {num sz : UInt32} {t : Tso} (h : t.Inv num sz) :
    (gots t.log).length + t.c.holds ≤ visibles t.log := by
  have h1 := h.order
  have h2 := h.c
  cases hc : t.c with
  | store tl cnt b =>
    rw [hc] at h2
    have h3 := h2.2.1
    simp only [CPc.holds]
    omega
  | _ => simpa [CPc.holds] using h1

theorem PayTso.Inv.step {init : Nat → UInt8} {num sz : UInt32} {s : PayTso} (h : s.Inv init num sz)
    (a : PayAct TsoAct) : ∃ s', s.step a = .ok s' ∧ s'.Inv init num sz := by
  have other : ∀ act : TsoAct, act ≠ .pflush → ∃ s',
      (do let t ← s.t.step act
          .ok { s with
            t := t
            buf := s.buf ++ List.replicate (t.pbuf.length - s.t.pbuf.length) none
            log := s.log ++ (t.log.drop s.t.log.length).map .queue } : Exec PayTso) = .ok s' ∧ s'.Inv init num sz := by
    intro act hact
    obtain ⟨t', ht, hi⟩ := h.t.step act
    obtain ⟨new, add, h1, h2, h3, h4⟩ := Tso.step_adds h.t hact ht
    rw [ht, Exec.ok_bind]
    refine ⟨_, rfl, hi, ?_, ?_, ?_, ?_, ?_, ?_⟩
    · simp only [h1, drop_log]
      rw [queueEvents_append, queueEvents_map, h.log]
    · simp only [h1, h2, puts_append, visibles_append, headsOf_append, List.length_append, h.puts]
      omega
    · simp only [h2, nones_append, nones_replicate, List.length_append, h.nones]
      omega
    · intro a
      obtain ⟨done, g1, g2⟩ := h.mem a
      refine ⟨done, ?_, g2⟩
      simp only [h1, drop_log, h2, visibles_append, h4, Nat.add_zero]
      rw [storesTo_append, storesTo_queue, List.append_nil, g1]
      congr 1
      rw [← pendTo_more a s.buf (visibles s.t.log) s.t.pbuf add h.nones]
      generalize List.length (s.t.pbuf ++ add) - _ = n
      -- appending stores to the queue adds nothing
      have key : ∀ (l : List (Option (Nat × UInt8))) (v : Nat) (qs : List Store),
          pendTo a v qs (l ++ List.replicate n none) = pendTo a v qs l := by
        intro l
        induction l with
        | nil => intro v qs; rw [List.nil_append, pendTo_nones]; simp [pendTo]
        | cons e l ih =>
          intro v qs
          cases e with
          | none => cases qs <;> simp only [List.cons_append, pendTo, ih]
          | some y => obtain ⟨a', b⟩ := y; simp only [List.cons_append, pendTo, ih]
      rw [key]
    · exact h.published.queue _
    · exact h.taken.queue _
  cases a with
  | store a b =>
    simp only [PayTso.step]
    split
    · refine ⟨_, rfl, h.t, ?_, h.puts, ?_, ?_, h.published.snoc (fun _ _ _ h => nomatch h),
        h.taken.snoc (fun _ _ _ h => nomatch h)⟩
      · rw [queueEvents_append, h.log]; simp [queueEvents]
      · simp only [nones_append, h.nones]; rfl
      · intro a'
        obtain ⟨done, g1, g2⟩ := h.mem a'
        refine ⟨done, ?_, g2⟩
        rw [storesTo_append, g1, pendTo_snoc _ _ _ _ _ h.nones, List.append_assoc]
        congr 2
        rw [h.log, Nat.zero_add, h.puts]
        simp [storesTo, pendTo]
    · exact ⟨s, rfl, h⟩
  | reach i => exact ⟨s, rfl, h⟩
  | load a =>
    refine ⟨_, rfl, h.t, ?_, h.puts, h.nones, ?_, ?_, ?_⟩
    · rw [queueEvents_append, h.log]; simp [queueEvents]
    · intro a'
      obtain ⟨done, g1, g2⟩ := h.mem a'
      refine ⟨done, ?_, g2⟩
      rw [storesTo_append, g1]
      simp [storesTo]
    · refine h.published.snoc ?_
      intro k a' b he early x n late h1 h2 h3
      cases he
      refine Ahead.load (v := visibles s.t.log) ?_ h.t.holds h1 h2 h3
      intro a'
      obtain ⟨done, g1, g2⟩ := h.mem a'
      exact ⟨done, _, g1, g2, pendTo_ge a' _ _ _⟩
    · refine h.taken.snoc ?_
      intro k a' b he
      cases he
      rw [h.log]
      refine ⟨Nat.le_add_right _ _, Nat.add_le_add_left ?_ _⟩
      cases s.t.c <;> simp [CPc.holds]
  | queue act =>
    cases act with
    | pflush =>
      simp only [PayTso.step]
      cases hb : s.buf with
      | nil => exact ⟨s, rfl, h⟩
      | cons e rest =>
        cases e with
        | some y =>
          obtain ⟨a, b⟩ := y
          refine ⟨_, rfl, h.t, h.log, h.puts, ?_, ?_, h.published, h.taken⟩
          · have := h.nones; rw [hb] at this; exact this
          · intro a'
            obtain ⟨done, g1, g2⟩ := h.mem a'
            rw [hb] at g1
            simp only [pendTo] at g1
            simp only [setByte]
            by_cases ha : a' = a
            · subst ha
              rw [if_pos rfl] at g1
              refine ⟨done ++ [(visibles s.t.log, b)], by rw [g1]; simp, ?_⟩
              rw [if_pos rfl, afterStores_append]
              rfl
            · rw [if_neg fun h => ha h.symm] at g1
              exact ⟨done, g1, by rw [if_neg ha]; exact g2⟩
        | none =>
          obtain ⟨t', ht, hi⟩ := h.t.step .pflush
          have hn := h.nones
          rw [hb] at hn
          cases hq : s.t.pbuf with
          | nil => rw [hq] at hn; simp [Fstrm.nones] at hn
          | cons st qs =>
            obtain ⟨new, h1, h2, h3, h4, h5⟩ := Tso.pflush_eq hq ht
            simp only [ht, Exec.ok_bind]
            refine ⟨_, rfl, hi, ?_, ?_, ?_, ?_, ?_, ?_⟩
            · simp only [h1, drop_log]
              rw [queueEvents_append, queueEvents_map, h.log]
            · have := h.puts
              rw [hq] at this
              simp only [h1, h2, puts_append, h3, visibles_append, h4, List.append_nil, this, headsOf]
              omega
            · rw [hq] at hn
              rw [h2]
              simpa [Fstrm.nones] using hn
            · intro a'
              obtain ⟨done, g1, g2⟩ := h.mem a'
              refine ⟨done, ?_, g2⟩
              simp only [h1, drop_log, h2, visibles_append, h4]
              rw [storesTo_append, storesTo_queue, List.append_nil, g1, hb, hq]
              rfl
            · exact h.published.queue _
            · exact h.taken.queue _
    | insert item => exact other (.insert item) (by intro h; cases h)
    | pstep i => exact other (.pstep i) (by intro h; cases h)
    | remove => exact other .remove (by intro h; cases h)
    | cstep i => exact other (.cstep i) (by intro h; cases h)
    | cflush => exact other .cflush (by intro h; cases h)

theorem PayTso.Inv.run {init : Nat → UInt8} {num sz : UInt32} : ∀ (as : List (PayAct TsoAct)) {s : PayTso},
    s.Inv init num sz → ∃ s', s.run as = .ok s' ∧ s'.Inv init num sz
  | [], s, h => ⟨s, rfl, h⟩
  | a :: as, s, h => by
    obtain ⟨s1, h1, h2⟩ := h.step a
    obtain ⟨s', h3, h4⟩ := PayTso.Inv.run as h2
    exact ⟨s', by rw [PayTso.run, h1, Exec.ok_bind, h3], h4⟩

theorem Spec.Published.nil (init : Nat → UInt8) : Published init ([] : List (PayEv Bytes)) := by
  intro before k a b after early x n late h
  simp at h

theorem Spec.Taken.nil : Taken ([] : List (PayEv Bytes)) := by
  intro before k a b after h
  simp at h

theorem PayTso.Inv.start {num sz : UInt32} {q : Queue} (hq : Queue.init num sz = some q)
    (hs : QSize num.toNat) (hb : num.toNat * sz.toNat ≤ 2 ^ 32) (m : Nat → UInt8) :
    (PayTso.start q m).Inv m num sz :=
  ⟨Tso.Inv.start hq hs hb, rfl, rfl, rfl, fun _ => ⟨[], rfl, rfl⟩, Published.nil m, Taken.nil⟩

/-! ### ia64 -/

theorem commitEv_puts (st : Store) : puts (Tso.commitEv st) = [] := by cases st <;> rfl

/-- An element is put only at a fence. -/
theorem Ia64.step_adds {s s' : Ia64} {a : Ia64Act} (hs : s.step a = .ok s') :
    ∃ new, s'.log = s.log ++ new ∧ (puts new = [] ∨ s.p.atFence = true ∧ ∃ i, a = .pstep i) := by
  cases a with
  | insert item =>
    simp only [Ia64.step] at hs
    split at hs <;> cases hs <;> exact ⟨[], by simp, Or.inl rfl⟩
  | remove =>
    simp only [Ia64.step] at hs
    split at hs <;> cases hs <;> exact ⟨[], by simp, Or.inl rfl⟩
  | pstep i =>
    simp only [Ia64.step, Ia64.pstep] at hs
    split at hs
    · cases hs; exact ⟨[], by simp, Or.inl rfl⟩
    · cases hs; exact ⟨[], by simp, Or.inl rfl⟩
    · split at hs
      · cases hs; exact ⟨[], by simp, Or.inl rfl⟩
      · cases hs; exact ⟨[_], rfl, Or.inl rfl⟩
    · rename_i hp
      split at hs
      · cases hs; exact ⟨[_], rfl, Or.inr ⟨by rw [hp]; rfl, i, rfl⟩⟩
      · cases hs; exact ⟨[], by simp, Or.inl rfl⟩
    · split at hs
      · cases hs
      · cases hs; exact ⟨[], by simp, Or.inl rfl⟩
    · split at hs <;> cases hs <;> exact ⟨[], by simp, Or.inl rfl⟩
  | pflush i =>
    simp only [Ia64.step] at hs
    split at hs
    · cases hs; exact ⟨[], by simp, Or.inl rfl⟩
    · obtain ⟨q, _, hs⟩ := Exec.bind_eq_ok.1 hs
      cases hs
      exact ⟨_, rfl, Or.inl (commitEv_puts _)⟩
  | cflush i =>
    simp only [Ia64.step] at hs
    split at hs
    · cases hs; exact ⟨[], by simp, Or.inl rfl⟩
    · obtain ⟨q, _, hs⟩ := Exec.bind_eq_ok.1 hs
      cases hs
      exact ⟨_, rfl, Or.inl (commitEv_puts _)⟩
  | cstep i =>
    simp only [Ia64.step, Ia64.cstep] at hs
    split at hs
    · cases hs; exact ⟨[], by simp, Or.inl rfl⟩
    · cases hs; exact ⟨[_], rfl, Or.inl rfl⟩
    · split at hs
      · cases hs; exact ⟨[], by simp, Or.inl rfl⟩
      · cases hs; exact ⟨[_], rfl, Or.inl rfl⟩
    · split at hs <;> cases hs <;> exact ⟨[], by simp, Or.inl rfl⟩
    · obtain ⟨r, _, hs⟩ := Exec.bind_eq_ok.1 hs
      cases hs
      exact ⟨[], by simp, Or.inl rfl⟩
    · cases hs; exact ⟨[_], rfl, Or.inl rfl⟩
  | cearly i =>
    simp only [Ia64.step, Ia64.cearly] at hs
    split at hs
    · split at hs
      · cases hs; exact ⟨[], by simp, Or.inl rfl⟩
      · obtain ⟨r, _, hs⟩ := Exec.bind_eq_ok.1 hs
        cases hs
        exact ⟨[], by simp, Or.inl rfl⟩
    · cases hs; exact ⟨[], by simp, Or.inl rfl⟩

/-- The pending stores to `a`, after `n` elements. -/
def paysTo (a n : Nat) (l : List (Nat × UInt8)) : List (Nat × UInt8) :=
  (l.filter (fun x => x.1 = a)).map (fun x => (n, x.2))

theorem paysTo_append (a n : Nat) (l m : List (Nat × UInt8)) : paysTo a n (l ++ m) = paysTo a n l ++ paysTo a n m := by
  simp [paysTo]

theorem paysTo_none (a n : Nat) (l : List (Nat × UInt8)) (h : ∀ x ∈ l, x.1 ≠ a) : paysTo a n l = [] := by
  simp only [paysTo, List.map_eq_nil_iff, List.filter_eq_nil_iff]
  intro x hx
  simp [h x hx]

theorem pickPay_some {l : List (Nat × UInt8)} {i : Nat} {x : Nat × UInt8} (h : pickPay l i = some x) :
    ∃ l1 l2, l = l1 ++ x :: l2 ∧ l.eraseIdx i = l1 ++ l2 ∧ ∀ y ∈ l1, y.1 ≠ x.1 := by
  unfold pickPay at h
  split at h
  · cases h
  · rename_i y hy
    split at h
    · cases h
    · rename_i hn
      cases h
      obtain ⟨hi, hy⟩ := List.getElem?_eq_some_iff.1 hy
      refine ⟨l.take i, l.drop (i + 1), ?_, List.eraseIdx_eq_take_drop_succ .., ?_⟩
      · rw [← hy, List.getElem_cons_drop, List.take_append_drop]
      · intro z hz he
        exact hn (List.any_eq_true.2 ⟨z, hz, by simpa using he⟩)

/-- The invariant. -/
structure PayIa64.Inv (init : Nat → UInt8) (num sz : UInt32) (s : PayIa64) : Prop where
  rel : ∃ t, s.s.Rel num sz t
  log : queueEvents s.log = s.s.log
  mem : ∀ a, ∃ done, storesTo a 0 s.log = done ++ paysTo a (puts s.s.log).length s.pays ∧
    s.mem a = afterStores (init a) done
  published : Published init s.log
  taken : Taken s.log

theorem Ia64.Rel.holds {num sz : UInt32} {s : Ia64} {t : Tso} (h : s.Rel num sz t) :
    (gots s.log).length + s.c.holds ≤ (puts s.log).length := by
  have h1 := h.inv.holds
  have h2 := h.inv.pbuf.le
  have h3 := h.c
  rw [← h.log]
  cases hc : s.c with
  | store tl cnt b =>
    rw [hc] at h3
    rw [h3.1] at h1
    simp only [CPc.holds] at h1
    simp only [CPc64.holds]
    omega
  | _ => simp only [CPc64.holds]; omega

theorem PayIa64.Inv.step {init : Nat → UInt8} {num sz : UInt32} {s : PayIa64} (h : s.Inv init num sz)
    (a : PayAct Ia64Act) : ∃ s', s.step a = .ok s' ∧ s'.Inv init num sz := by
  obtain ⟨t, hr⟩ := h.rel
  have other : ∀ act : Ia64Act, ((∃ i, act = .pstep i) → s.s.p.atFence = true → s.pays = []) → ∃ s',
      (do let s' ← s.s.step act
          .ok { s with s := s', log := s.log ++ (s'.log.drop s.s.log.length).map .queue } : Exec PayIa64) = .ok s' ∧
        s'.Inv init num sz := by
    intro act hact
    obtain ⟨s', hs, acts, t', _, hi, _⟩ := hr.step act
    obtain ⟨new, h1, h2⟩ := Ia64.step_adds hs
    rw [hs, Exec.ok_bind]
    refine ⟨_, rfl, ⟨t', hi⟩, ?_, ?_, h.published.queue _, h.taken.queue _⟩
    · simp only [h1, drop_log]
      rw [queueEvents_append, queueEvents_map, h.log]
    · intro a
      obtain ⟨done, g1, g2⟩ := h.mem a
      refine ⟨done, ?_, g2⟩
      simp only [h1, drop_log]
      rw [storesTo_append, storesTo_queue, List.append_nil, g1, puts_append]
      rcases h2 with h2 | ⟨h2, h3⟩
      · rw [h2, List.append_nil]
      · rw [hact h3 h2]; rfl
  cases a with
  | store a b =>
    simp only [PayIa64.step]
    split
    · refine ⟨_, rfl, h.rel, ?_, ?_, h.published.snoc (fun _ _ _ h => nomatch h),
        h.taken.snoc (fun _ _ _ h => nomatch h)⟩
      · rw [queueEvents_append, h.log]; simp [queueEvents]
      · intro a'
        obtain ⟨done, g1, g2⟩ := h.mem a'
        refine ⟨done, ?_, g2⟩
        rw [storesTo_append, g1, paysTo_append, List.append_assoc, h.log, Nat.zero_add]
        congr 2
        by_cases ha : a = a' <;> simp [storesTo, paysTo, ha]
    · exact ⟨s, rfl, h⟩
  | reach i =>
    simp only [PayIa64.step]
    split
    · exact ⟨s, rfl, h⟩
    · rename_i a b hp
      obtain ⟨l1, l2, e1, e2, e3⟩ := pickPay_some hp
      refine ⟨_, rfl, h.rel, h.log, ?_, h.published, h.taken⟩
      intro a'
      obtain ⟨done, g1, g2⟩ := h.mem a'
      simp only [e2, setByte]
      rw [e1, List.append_cons, paysTo_append, paysTo_append] at g1
      rw [paysTo_append]
      by_cases ha : a' = a
      · subst ha
        rw [paysTo_none _ _ l1 e3] at g1 ⊢
        refine ⟨done ++ [((puts s.s.log).length, b)], by rw [g1]; simp [paysTo], ?_⟩
        rw [if_pos rfl, afterStores_append]
        rfl
      · rw [paysTo_none _ _ [(a, b)] (by intro x hx; simp at hx; subst hx; exact fun h => ha h.symm),
          List.append_nil] at g1
        exact ⟨done, g1, by rw [if_neg ha]; exact g2⟩
  | load a =>
    refine ⟨_, rfl, h.rel, ?_, ?_, ?_, ?_⟩
    · rw [queueEvents_append, h.log]; simp [queueEvents]
    · intro a'
      obtain ⟨done, g1, g2⟩ := h.mem a'
      refine ⟨done, ?_, g2⟩
      rw [storesTo_append, g1]
      simp [storesTo]
    · refine h.published.snoc ?_
      intro k a' b he early x n late h1 h2 h3
      cases he
      refine Ahead.load (v := (puts s.s.log).length) ?_ hr.holds h1 h2 h3
      intro a'
      obtain ⟨done, g1, g2⟩ := h.mem a'
      refine ⟨done, _, g1, g2, ?_⟩
      intro x hx
      simp only [paysTo, List.mem_map] at hx
      obtain ⟨y, _, rfl⟩ := hx
      exact Nat.le_refl _
    · refine h.taken.snoc ?_
      intro k a' b he
      cases he
      rw [h.log]
      refine ⟨Nat.le_add_right _ _, Nat.add_le_add_left ?_ _⟩
      cases s.s.c <;> simp [CPc64.holds]
  | queue act =>
    cases act with
    | pstep i =>
      simp only [PayIa64.step]
      split
      · exact ⟨s, rfl, h⟩
      · rename_i hn
        refine other (.pstep i) fun _ hf => ?_
        cases hp : s.pays with
        | nil => rfl
        | cons x l => exact absurd ⟨hf, by rw [hp]; simp⟩ hn
    | insert item => exact other (.insert item) (by rintro ⟨i, h⟩; cases h)
    | pflush i => exact other (.pflush i) (by rintro ⟨i, h⟩; cases h)
    | remove => exact other .remove (by rintro ⟨i, h⟩; cases h)
    | cstep i => exact other (.cstep i) (by rintro ⟨i, h⟩; cases h)
    | cearly i => exact other (.cearly i) (by rintro ⟨i, h⟩; cases h)
    | cflush i => exact other (.cflush i) (by rintro ⟨i, h⟩; cases h)

theorem PayIa64.Inv.run {init : Nat → UInt8} {num sz : UInt32} : ∀ (as : List (PayAct Ia64Act)) {s : PayIa64},
    s.Inv init num sz → ∃ s', s.run as = .ok s' ∧ s'.Inv init num sz
  | [], s, h => ⟨s, rfl, h⟩
  | a :: as, s, h => by
    obtain ⟨s1, h1, h2⟩ := h.step a
    obtain ⟨s', h3, h4⟩ := PayIa64.Inv.run as h2
    exact ⟨s', by rw [PayIa64.run, h1, Exec.ok_bind, h3], h4⟩

theorem PayIa64.Inv.start {num sz : UInt32} {q : Queue} (hq : Queue.init num sz = some q)
    (hs : QSize num.toNat) (hb : num.toNat * sz.toNat ≤ 2 ^ 32) (m : Nat → UInt8) :
    (PayIa64.start q m).Inv m num sz :=
  ⟨⟨_, Ia64.Rel.start hq hs hb⟩, rfl, fun _ => ⟨[], rfl, rfl⟩, Spec.Published.nil m, Spec.Taken.nil⟩

end Fstrm
