import Verif.Spec.Layout

/-!
# Lemmas about the layout of structures
-/

set_option autoImplicit false

namespace Fstrm

open CType Spec

theorem CType.pad_le {n a : Nat} (h : 0 < a) : n ≤ pad n a := by
  unfold pad
  have h1 := Nat.div_add_mod (n + a - 1) a
  have h2 := Nat.mod_lt (n + a - 1) h
  rw [Nat.mul_comm] at h1
  omega

theorem CType.pad_dvd (n a : Nat) : a ∣ pad n a := ⟨(n + a - 1) / a, by unfold pad; rw [Nat.mul_comm]⟩

theorem CType.alignOf_dvd {ts : List CType} {t : CType} (h : t ∈ ts) : t.align ∣ alignOf ts := by
  induction ts with
  | nil => cases h
  | cons x ts ih =>
    rcases List.mem_cons.1 h with rfl | h
    · exact Nat.dvd_lcm_left _ _
    · exact Nat.dvd_trans (ih h) (Nat.dvd_lcm_right _ _)

theorem CType.alignOf_of {A : Nat} {ts : List CType} (h : ∀ t ∈ ts, Plain A t) : 0 < alignOf ts ∧ alignOf ts ∣ A := by
  induction ts with
  | nil => exact ⟨Nat.one_pos, Nat.one_dvd _⟩
  | cons x ts ih =>
    obtain ⟨h1, h2⟩ := ih fun t ht => h t (List.mem_cons_of_mem _ ht)
    obtain ⟨h3, h4⟩ := h x (List.mem_cons_self ..)
    exact ⟨Nat.lcm_pos h3 h1, Nat.lcm_dvd h4 h2⟩

theorem CType.plain_struct {A : Nat} {ts : List CType} (h : ∀ t ∈ ts, Plain A t) : Plain A (struct ts) :=
  alignOf_of h

theorem CType.le_finish (ts : List CType) (n : Nat) (h : ∀ t ∈ ts, 0 < t.align) : n ≤ finish n ts := by
  induction ts generalizing n with
  | nil => exact Nat.le_refl _
  | cons x ts ih =>
    have h1 := pad_le (n := n) (h x (List.mem_cons_self ..))
    have h2 := ih (pad n x.align + x.size) fun t ht => h t (List.mem_cons_of_mem _ ht)
    unfold finish
    omega

/-- Where a member lies. -/
theorem CType.offset_spec (ts : List CType) (n : Nat) (h : ∀ t ∈ ts, 0 < t.align) {k : Nat} {t : CType} {o : Nat}
    (h1 : ts[k]? = some t) (h2 : (offsets n ts)[k]? = some o) :
    t.align ∣ o ∧ n ≤ o ∧ o + t.size ≤ finish n ts := by
  induction ts generalizing n k with
  | nil => cases h1
  | cons x ts ih =>
    have hx := pad_le (n := n) (h x (List.mem_cons_self ..))
    have h' : ∀ t ∈ ts, 0 < t.align := fun t ht => h t (List.mem_cons_of_mem _ ht)
    cases k with
    | zero =>
      simp only [offsets, List.getElem?_cons_zero, Option.some.injEq] at h1 h2
      subst h1; subst h2
      exact ⟨pad_dvd _ _, hx, le_finish ts _ h'⟩
    | succ k =>
      simp only [offsets, List.getElem?_cons_succ] at h1 h2
      obtain ⟨a, b, c⟩ := ih _ h' h1 h2
      exact ⟨a, by omega, c⟩

theorem CType.offsets_from (ts : List CType) (n : Nat) (h : ∀ t ∈ ts, 0 < t.align) {k o : Nat}
    (h2 : (offsets n ts)[k]? = some o) : n ≤ o := by
  have hl : ∀ (ts : List CType) (n : Nat), (offsets n ts).length = ts.length := by
    intro ts
    induction ts with
    | nil => intro n; rfl
    | cons x ts ih => intro n; simp only [offsets, List.length_cons, ih]
  have hk := (List.getElem?_eq_some_iff.1 h2).1
  rw [hl] at hk
  exact (offset_spec ts n h (List.getElem?_eq_getElem hk) h2).2.1

theorem CType.offsets_behind (ts : List CType) (n : Nat) (h : ∀ t ∈ ts, 0 < t.align) {k k' : Nat} {t : CType} {o o' : Nat}
    (hk : k < k') (h1 : ts[k]? = some t) (h2 : (offsets n ts)[k]? = some o) (h3 : (offsets n ts)[k']? = some o') :
    o + t.size ≤ o' := by
  induction ts generalizing n k k' with
  | nil => cases h1
  | cons x ts ih =>
    have h' : ∀ t ∈ ts, 0 < t.align := fun t ht => h t (List.mem_cons_of_mem _ ht)
    cases k' with
    | zero => omega
    | succ k' =>
      simp only [offsets, List.getElem?_cons_succ] at h3
      cases k with
      | zero =>
        simp only [offsets, List.getElem?_cons_zero, Option.some.injEq] at h1 h2
        subst h1; subst h2
        exact offsets_from ts _ h' h3
      | succ k =>
        simp only [offsets, List.getElem?_cons_succ] at h1 h2
        exact ih _ h' (by omega) h1 h2 h3

theorem CType.placed {A base n : Nat} {ts : List CType} (h : ∀ t ∈ ts, Plain A t) (hb : A ∣ base) : Placed base n ts := by
  have h' : ∀ t ∈ ts, 0 < t.align := fun t ht => (h t ht).1
  obtain ⟨p1, p2⟩ := alignOf_of h
  refine ⟨?_, ?_, ?_⟩
  · intro i _ k t o h1 h2
    have hm := List.mem_of_getElem? h1
    have ha := alignOf_dvd hm
    have hs : alignOf ts ∣ (struct ts).size := pad_dvd _ _
    exact Nat.dvd_add (Nat.dvd_add (Nat.dvd_trans (h t hm).2 hb)
      (Nat.dvd_trans ha (Nat.dvd_trans hs (Nat.dvd_mul_left _ _)))) (offset_spec ts 0 h' h1 h2).1
  · intro k t o h1 h2
    exact Nat.le_trans (offset_spec ts 0 h' h1 h2).2.2 (pad_le p1)
  · intro k k' t o o' hk h1 h2 h3
    exact offsets_behind ts 0 h' hk h1 h2 h3

end Fstrm
