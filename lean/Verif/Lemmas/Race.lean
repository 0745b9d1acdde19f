import Verif.Spec.Race

/-! What threads know of each other's accesses. -/

set_option autoImplicit false

namespace Fstrm.Spec

variable {L M : Type} {tr evs : List (ThreadEv L M)} {x : L} {u : Nat} {m : M}

theorem Before.mono {i j : Nat} (h : Before tr i j) (l : List (ThreadEv L M)) : Before (tr ++ l) i j := by
  have up : ∀ {k : Nat} {a : ThreadEv L M}, tr[k]? = some a → (tr ++ l)[k]? = some a := by
    intro k a h
    rw [List.getElem?_append_left (List.getElem?_eq_some_iff.1 h).1]; exact h
  induction h with
  | order h1 h2 h3 h4 => exact .order h1 (up h2) (up h3) h4
  | mutex h1 h2 h3 => exact .mutex h1 (up h2) (up h3)
  | join h1 h2 h3 => exact .join h1 (up h2) (up h3)
  | trans _ _ h1 h2 => exact .trans h1 h2

/-- Number `k` of the trace is, or happens before, one that satisfies `P`. -/
def Reaches (tr : List (ThreadEv L M)) (P : ThreadEv L M → Prop) (k : Nat) : Prop :=
  ∃ j a, tr[j]? = some a ∧ P a ∧ (k = j ∨ Before tr k j)

/-- All accesses to `x` reach one that satisfies `P`. -/
def Known (tr : List (ThreadEv L M)) (P : ThreadEv L M → Prop) (x : L) : Prop :=
  ∀ k a, tr[k]? = some a → a.At x → Reaches tr P k

/-- Thread `u` knows of all accesses to `x`. -/
abbrev Held (tr : List (ThreadEv L M)) (u : Nat) (x : L) : Prop := Known tr (fun a => a.thread = u) x

/-- Who locks the mutex `m` next will know of all accesses to `x`. -/
abbrev HeldM (tr : List (ThreadEv L M)) (m : M) (x : L) : Prop := Known tr (fun a => a.op = .unlock m) x

/-- Who joins thread `u` will know of all accesses to `x`. -/
abbrev HeldX (tr : List (ThreadEv L M)) (u : Nat) (x : L) : Prop :=
  Known tr (fun a => a = ⟨u, .exit⟩) x

/-- All accesses to `x` are in order. -/
def Ordered (tr : List (ThreadEv L M)) (x : L) : Prop :=
  ∀ k j a b, k < j → tr[k]? = some a → tr[j]? = some b → a.At x → b.At x → Before tr k j

theorem Ordered.no_race (h : Ordered tr x) : ¬ Race tr x := by
  rintro ⟨i, j, a, b, h1, h2, h3, h4, h5, _, h6, h7⟩
  rcases Nat.lt_trichotomy i j with hl | hl | hl
  · exact h6 (h i j a b hl h1 h2 h4 h5)
  · subst hl
    rw [h1] at h2; cases h2
    exact h3 rfl
  · exact h7 (h j i b a hl h2 h1 h5 h4)

theorem Reaches.mono {P : ThreadEv L M → Prop} {k : Nat} (h : Reaches tr P k) (l : List (ThreadEv L M)) :
    Reaches (tr ++ l) P k := by
  obtain ⟨j, a, h1, h2, h3⟩ := h
  refine ⟨j, a, ?_, h2, h3.imp id fun h => h.mono l⟩
  rw [List.getElem?_append_left (List.getElem?_eq_some_iff.1 h1).1]; exact h1

theorem mem_append_cases {k : Nat} {a : ThreadEv L M} (h : (tr ++ evs)[k]? = some a) :
    tr[k]? = some a ∨ tr.length ≤ k ∧ a ∈ evs := by
  by_cases hk : k < tr.length
  · rw [List.getElem?_append_left hk] at h; exact Or.inl h
  · have hk : tr.length ≤ k := by omega
    rw [List.getElem?_append_right hk] at h
    exact Or.inr ⟨hk, List.mem_of_getElem? h⟩

/-- Nobody has accessed `x`. -/
theorem Known.none {P : ThreadEv L M → Prop} (h : ∀ a ∈ tr, ¬ a.At x) : Known tr P x :=
  fun _ a ha hx => absurd hx (h a (List.mem_of_getElem? ha))

/-- Nobody accesses `x`, or only who is looked for. -/
theorem Known.append {P : ThreadEv L M → Prop} (h : Known tr P x) (he : ∀ a ∈ evs, a.At x → P a) : Known (tr ++ evs) P x := by
  intro k a ha hx
  rcases mem_append_cases ha with h1 | ⟨_, h1⟩
  · exact (h k a h1 hx).mono evs
  · exact ⟨k, a, ha, he a h1 hx, Or.inl rfl⟩

/-- One more: it is reached from everything that reaches something that happens before it. -/
theorem Known.step {P : ThreadEv L M → Prop} (h : Known tr P x) (b : ThreadEv L M)
    (hb : ∀ j a, tr[j]? = some a → P a → Before (tr ++ [b]) j tr.length) :
    ∀ k a, tr[k]? = some a → a.At x → Before (tr ++ [b]) k tr.length := by
  intro k a ha hx
  obtain ⟨j, c, h1, h2, h3⟩ := h k a ha hx
  have h4 := hb j c h1 h2
  rcases h3 with rfl | h3
  · exact h4
  · exact .trans (h3.mono [b]) h4

theorem Known.last {P : ThreadEv L M → Prop} {b : ThreadEv L M} (hP : P b) (hn : b.At x → P b)
    (h : ∀ k a, tr[k]? = some a → a.At x → Before (tr ++ [b]) k tr.length) : Known (tr ++ [b]) P x := by
  intro k a ha hx
  have hl : (tr ++ [b])[tr.length]? = some b := by simp
  rcases mem_append_cases ha with h1 | ⟨h2, h1⟩
  · exact ⟨tr.length, b, hl, hP, Or.inr (h k a h1 hx)⟩
  · simp only [List.mem_singleton] at h1; subst h1
    exact ⟨k, a, ha, hn hx, Or.inl rfl⟩

theorem held_before (h : Held tr u x) (o : ThreadOp L M) :
    ∀ k a, tr[k]? = some a → a.At x → Before (tr ++ [⟨u, o⟩]) k tr.length :=
  h.step _ fun j a h1 h2 => by
    have hj := (List.getElem?_eq_some_iff.1 h1).1
    exact .order hj (by rw [List.getElem?_append_left hj]; exact h1) (b := ⟨u, o⟩) (by simp) h2

/-- Locking. -/
theorem HeldM.lock (h : HeldM tr m x) : Held (tr ++ [⟨u, .lock m⟩]) u x :=
  Known.last rfl (fun _ => rfl) <| h.step _ fun j a h1 h2 => by
    have hj := (List.getElem?_eq_some_iff.1 h1).1
    obtain ⟨t, o⟩ := a
    simp only at h2; subst h2
    exact .mutex hj (by rw [List.getElem?_append_left hj]; exact h1) (u := u) (by simp)

/-- Unlocking. -/
theorem Held.unlock (h : Held tr u x) : HeldM (tr ++ [⟨u, .unlock m⟩]) m x :=
  Known.last rfl (fun _ => rfl) (held_before h _)

/-- The end of a thread. -/
theorem Held.exit (h : Held tr u x) : HeldX (tr ++ [⟨u, .exit⟩]) u x :=
  Known.last rfl (fun _ => rfl) (held_before h _)

/-- Joining a thread. -/
theorem HeldX.join {t : Nat} (h : HeldX tr t x) : Held (tr ++ [⟨u, .join t⟩]) u x :=
  Known.last rfl (fun _ => rfl) <| h.step _ fun j a h1 h2 => by
    have hj := (List.getElem?_eq_some_iff.1 h1).1
    subst h2
    exact .join hj (by rw [List.getElem?_append_left hj]; exact h1) (u := u) (by simp)

theorem Ordered.snoc (h : Ordered tr x) (b : ThreadEv L M) (hb : b.At x → Held tr b.thread x) : Ordered (tr ++ [b]) x := by
  intro k j a c hkj h1 h2 h3 h4
  rcases mem_append_cases h2 with h5 | ⟨h5, h6⟩
  · have hj := (List.getElem?_eq_some_iff.1 h5).1
    rw [List.getElem?_append_left (by omega)] at h1
    exact (h k j a c hkj h1 h5 h3 h4).mono _
  · simp only [List.mem_singleton] at h6; subst h6
    have hj : j < (tr ++ [c]).length := (List.getElem?_eq_some_iff.1 h2).1
    simp only [List.length_append, List.length_singleton] at hj
    have : j = tr.length := by omega
    subst this
    rw [List.getElem?_append_left hkj] at h1
    obtain ⟨t, o⟩ := c
    exact held_before (hb h4) o k a h1 h3

/-- A thread accesses `x` any number of times if it knows of all other accesses. -/
theorem Ordered.append (h : Ordered tr x) (ht : ∀ a ∈ evs, a.thread = u) (hb : (∃ a ∈ evs, a.At x) → Held tr u x) :
    Ordered (tr ++ evs) x := by
  induction evs generalizing tr with
  | nil => rw [List.append_nil]; exact h
  | cons b evs ih =>
    rw [show tr ++ b :: evs = (tr ++ [b]) ++ evs by simp]
    have e := ht b (by simp)
    refine ih (h.snoc b fun hx => e ▸ hb ⟨b, by simp, hx⟩) (fun a ha => ht a (by simp [ha])) ?_
    rintro ⟨a, ha, hx⟩
    refine (hb ⟨a, by simp [ha], hx⟩).append ?_
    intro c hc _
    simp only [List.mem_singleton] at hc; subst hc
    exact e

/-- Without synchronization only what a thread does itself is in order. -/
theorem before_same (h1 : ∀ a ∈ tr, ∀ m, a.op ≠ .unlock m) (h2 : ∀ a ∈ tr, a.op ≠ .exit) {i j : Nat}
    (h : Before tr i j) : ∃ a b, tr[i]? = some a ∧ tr[j]? = some b ∧ a.thread = b.thread := by
  induction h with
  | order _ e1 e2 e3 => exact ⟨_, _, e1, e2, e3⟩
  | mutex _ e1 _ => exact absurd rfl (h1 _ (List.mem_of_getElem? e1) _)
  | join _ e1 _ => exact absurd rfl (h2 _ (List.mem_of_getElem? e1))
  | trans _ _ i1 i2 =>
    obtain ⟨a, b, e1, e2, e3⟩ := i1
    obtain ⟨c, d, e4, e5, e6⟩ := i2
    rw [e2] at e4; cases e4
    exact ⟨a, d, e1, e5, e3.trans e6⟩

end Fstrm.Spec
