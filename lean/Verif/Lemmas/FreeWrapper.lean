import Verif.Spec.FreeWrapper
import Verif.Lemmas.IothrInv
import Mathlib.Data.List.Induction

/-!
# Lemmas: payloads from malloc
-/

set_option autoImplicit false

namespace Fstrm

open Spec

theorem serveAll_append (addr : Nat → Nat) (m : MallocBlocks) (a b : List IoEv) :
    serveAll addr m (a ++ b) = (serveAll addr m a).bind fun m => serveAll addr m b := by
  induction a generalizing m with
  | nil => rfl
  | cons x a ih =>
    simp only [List.cons_append, serveAll]
    cases serve addr m x with
    | error e => rfl
    | ok m' => exact ih m'

/-- Payloads with a free function that have not been freed. -/
def Owned (log : List IoEv) (e : Entry) : Prop := e ∈ submits log ∧ e.hasFree = true ∧ e ∉ frees log

/-- The blocks after some events. -/
structure Held (addr : Nat → Nat) (m0 : MallocBlocks) (log : List IoEv) (m : MallocBlocks) : Prop where
  own : ∀ e, Owned log e → m (addr e.id) = some e.data ∧ m0 (addr e.id) = none ∧ addr e.id ≠ 0
  inj : ∀ e e', Owned log e → Owned log e' → addr e.id = addr e'.id → e = e'
  rest : ∀ a, (∀ e, Owned log e → addr e.id ≠ a) → m a = m0 a
  stat : ∀ e ∈ submits log, e.hasFree = false → m0 (addr e.id) = some e.data

theorem Held.same {addr : Nat → Nat} {m0 m : MallocBlocks} {l : List IoEv} {x : IoEv} (h : Held addr m0 l m)
    (hs : submits [x] = []) (hf : frees [x] = []) : Held addr m0 (l ++ [x]) m := by
  have e1 : submits (l ++ [x]) = submits l := by rw [submits_append, hs, List.append_nil]
  have e2 : frees (l ++ [x]) = frees l := by rw [frees_append, hf, List.append_nil]
  have e3 : ∀ e, Owned (l ++ [x]) e ↔ Owned l e := by intro e; unfold Owned; rw [e1, e2]
  constructor
  · intro e he; exact h.own e ((e3 e).1 he)
  · intro e e' he he'; exact h.inj e e' ((e3 e).1 he) ((e3 e').1 he')
  · intro a ha; exact h.rest a fun e he => ha e ((e3 e).2 he)
  · rw [e1]; exact h.stat

theorem frees_sub {l : List IoEv} (h : Each Orderly l) : ∀ e ∈ frees l, e ∈ submits l := by
  induction l using List.reverseRecOn with
  | nil => simp [frees]
  | append_singleton l x ih =>
    intro e he
    rw [frees_append, List.mem_append] at he
    rw [submits_append, List.mem_append]
    rcases he with he | he
    · exact .inl (ih (each_prefix h) e he)
    · have ho := h l x [] rfl
      cases x <;> simp [frees] at he
      subst he
      exact .inl ho.1

theorem held_blocks (addr : Nat → Nat) (m0 : MallocBlocks) (log : List IoEv) (ho : Each Orderly log)
    (hm : FromMalloc addr m0 log) : ∃ m, serveAll addr m0 log = .ok m ∧ Held addr m0 log m := by
  induction log using List.reverseRecOn with
  | nil =>
    exact ⟨m0, rfl, by intro e he; exact absurd he.1 (by simp [submits]),
      by intro e _ he; exact absurd he.1 (by simp [submits]), fun _ _ => rfl, by simp [submits]⟩
  | append_singleton l x ih =>
    have hol := each_prefix ho
    obtain ⟨m, e1, hh⟩ := ih hol (by
      intro a e rest h
      exact hm a e (rest ++ [x]) (by rw [h]; simp))
    have hx := ho l x [] rfl
    have step : ∀ m', serve addr m x = .ok m' → serveAll addr m0 (l ++ [x]) = .ok m' := by
      intro m' h
      rw [serveAll_append, e1]
      simp only [Except.bind, serveAll, h, Exec.ok_bind]
    cases x with
    | submitted e =>
      have hc := hm l e [] rfl
      have eS : submits (l ++ [.submitted e]) = submits l ++ [e] := by rw [submits_append]; rfl
      have eF : frees (l ++ [.submitted e]) = frees l := by rw [frees_append]; simp [frees]
      have hnew : e ∉ frees l := fun hf => hx e (frees_sub hol e hf) rfl
      cases hf : e.hasFree with
      | false =>
        rw [hf] at hc
        have eO : ∀ e', Owned (l ++ [.submitted e]) e' ↔ Owned l e' := by
          intro e'
          unfold Owned
          rw [eS, eF, List.mem_append, List.mem_singleton]
          constructor
          · rintro ⟨h1 | h1, h2, h3⟩
            · exact ⟨h1, h2, h3⟩
            · rw [h1, hf] at h2; cases h2
          · rintro ⟨h1, h2, h3⟩; exact ⟨.inl h1, h2, h3⟩
        refine ⟨m, step m (by simp [serve, hf]), ?_, ?_, ?_, ?_⟩
        · intro e' he; exact hh.own e' ((eO e').1 he)
        · intro e' e'' he he'; exact hh.inj e' e'' ((eO e').1 he) ((eO e'').1 he')
        · intro a ha; exact hh.rest a fun e' he => ha e' ((eO e').2 he)
        · intro e' he hf'
          rw [eS, List.mem_append, List.mem_singleton] at he
          rcases he with he | rfl
          · exact hh.stat e' he hf'
          · simpa using hc
      | true =>
        rw [hf, if_pos rfl] at hc
        obtain ⟨hz, hc⟩ := hc
        have hfree := hc m e1
        have hne : ∀ e', Owned l e' → addr e'.id ≠ addr e.id := by
          intro e' he' h
          have := (hh.own e' he').1
          rw [h, hfree] at this
          cases this
        have eO : ∀ e', Owned (l ++ [.submitted e]) e' ↔ Owned l e' ∨ e' = e := by
          intro e'
          unfold Owned
          rw [eS, eF, List.mem_append, List.mem_singleton]
          constructor
          · rintro ⟨h1 | h1, h2, h3⟩
            · exact .inl ⟨h1, h2, h3⟩
            · exact .inr h1
          · rintro (⟨h1, h2, h3⟩ | rfl)
            · exact ⟨.inl h1, h2, h3⟩
            · exact ⟨.inr rfl, hf, hnew⟩
        refine ⟨m.set (addr e.id) (some e.data), step _ (by simp [serve, hf]), ?_, ?_, ?_, ?_⟩
        · intro e' he
          rcases (eO e').1 he with he | rfl
          · have := hh.own e' he
            exact ⟨by simp [MallocBlocks.set, hne e' he, this.1], this.2⟩
          · refine ⟨by simp [MallocBlocks.set], ?_, hz⟩
            rw [← hh.rest _ hne]; exact hfree
        · intro e' e'' he he' h
          rcases (eO e').1 he with h1 | h1 <;> rcases (eO e'').1 he' with h2 | h2
          · exact hh.inj _ _ h1 h2 h
          · exact absurd (h2 ▸ h) (hne _ h1)
          · exact absurd (h1 ▸ h).symm (hne _ h2)
          · rw [h1, h2]
        · intro a ha
          have h1 : a ≠ addr e.id := fun h => ha e ((eO e).2 (.inr rfl)) h.symm
          simp only [MallocBlocks.set, if_neg h1]
          exact hh.rest a fun e' he => ha e' ((eO e').2 (.inl he))
        · intro e' he hf'
          rw [eS, List.mem_append, List.mem_singleton] at he
          rcases he with he | rfl
          · exact hh.stat e' he hf'
          · rw [hf] at hf'; cases hf'
    | freed e =>
      obtain ⟨h1, h2, h3⟩ := hx
      have hown : Owned l e := ⟨h1, h3, h2⟩
      obtain ⟨o1, o2, o3⟩ := hh.own e hown
      have eS : submits (l ++ [.freed e]) = submits l := by rw [submits_append]; simp [submits]
      have eO : ∀ e', Owned (l ++ [.freed e]) e' ↔ Owned l e' ∧ e' ≠ e := by
        intro e'
        unfold Owned
        rw [eS, frees_append]
        simp only [frees, List.mem_append, List.mem_singleton, not_or]
        constructor
        · rintro ⟨a, b, c, d⟩; exact ⟨⟨a, b, c⟩, d⟩
        · rintro ⟨⟨a, b, c⟩, d⟩; exact ⟨a, b, c, d⟩
      refine ⟨m.set (addr e.id) none, step _ (by simp [serve, freeWrapper, o3, o1]), ?_, ?_, ?_, ?_⟩
      · intro e' he
        obtain ⟨he, hn⟩ := (eO e').1 he
        have hne : addr e'.id ≠ addr e.id := fun h => hn (hh.inj _ _ he hown h)
        have := hh.own e' he
        exact ⟨by simp [MallocBlocks.set, hne, this.1], this.2⟩
      · intro e' e'' he he'; exact hh.inj e' e'' ((eO e').1 he).1 ((eO e'').1 he').1
      · intro a ha
        by_cases h : a = addr e.id
        · subst h; simp [MallocBlocks.set, o2]
        · simp only [MallocBlocks.set, if_neg h]
          refine hh.rest a fun e' he hq => ?_
          by_cases hee : e' = e
          · subst hee; exact h hq.symm
          · exact ha e' ((eO e').2 ⟨he, hee⟩) hq
      · rw [eS]; exact hh.stat
    | write es r =>
      refine ⟨m, step m ?_, hh.same rfl rfl⟩
      simp only [serve]
      rw [if_pos]
      rw [List.all_eq_true]
      intro e he
      obtain ⟨h1, h2, _⟩ := hx.2 e he
      rw [beq_iff_eq]
      cases hf : e.hasFree with
      | true => exact (hh.own e ⟨h1, hf, h2⟩).1
      | false =>
        have hs := hh.stat e h1 hf
        rw [hh.rest, hs]
        intro e' he' h
        have := (hh.own e' he').2.1
        rw [h, hs] at this
        cases this
    | _ => exact ⟨m, step m rfl, hh.same rfl rfl⟩

/-- A computation of `FromMalloc`, for examples. -/
def checkMalloc (addr : Nat → Nat) (m0 : MallocBlocks) : MallocBlocks → List IoEv → Bool
  | _, [] => true
  | m, x :: l =>
    (match x with
      | .submitted e =>
        if e.hasFree then decide (addr e.id ≠ 0) && (m (addr e.id)).isNone else m0 (addr e.id) == some e.data
      | _ => true) &&
    match serve addr m x with
      | .ok m' => checkMalloc addr m0 m' l
      | .error _ => false

theorem check_from {addr : Nat → Nat} {m0 : MallocBlocks} : ∀ {log : List IoEv} {m : MallocBlocks},
    checkMalloc addr m0 m log = true → ∀ l e rest, log = l ++ .submitted e :: rest →
      if e.hasFree then addr e.id ≠ 0 ∧ ∀ m', serveAll addr m l = .ok m' → m' (addr e.id) = none
      else m0 (addr e.id) = some e.data
  | [], _, _, l, _, _, h => by cases l <;> cases h
  | x :: log, m, hc, [], e, rest, h => by
    simp only [List.nil_append, List.cons.injEq] at h
    obtain ⟨rfl, rfl⟩ := h
    simp only [checkMalloc, Bool.and_eq_true] at hc
    cases hf : e.hasFree with
    | true =>
      rw [if_pos rfl]
      simp only [hf, if_true, Bool.and_eq_true, decide_eq_true_eq, Option.isNone_iff_eq_none] at hc
      refine ⟨hc.1.1, fun m' h => ?_⟩
      cases h
      exact hc.1.2
    | false =>
      rw [if_neg (by simp)]
      simp only [hf, Bool.false_eq_true, if_false, beq_iff_eq] at hc
      exact hc.1
  | x :: log, m, hc, y :: l, e, rest, h => by
    simp only [List.cons_append, List.cons.injEq] at h
    obtain ⟨rfl, h⟩ := h
    simp only [checkMalloc, Bool.and_eq_true] at hc
    cases hs : serve addr m x with
    | error _ => rw [hs] at hc; cases hc.2
    | ok m1 =>
      rw [hs] at hc
      have := check_from hc.2 l e rest h
      simpa only [serveAll, hs, Exec.ok_bind] using this

theorem fromMalloc_of_check {addr : Nat → Nat} {m0 : MallocBlocks} {log : List IoEv}
    (h : checkMalloc addr m0 m0 log = true) : FromMalloc addr m0 log := check_from h

end Fstrm
