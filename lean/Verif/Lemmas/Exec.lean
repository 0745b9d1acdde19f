import Verif.Model.Basic

/-! Reasoning about `Exec` computations. -/

set_option autoImplicit false

namespace Fstrm

theorem Exec.bind_eq_ok {α β : Type} {x : Exec α} {f : α → Exec β} {b : β} :
    (x >>= f) = .ok b ↔ ∃ a, x = .ok a ∧ f a = .ok b := by
  cases x <;> simp [bind, Except.bind]

theorem Exec.ok_bind {α β : Type} (a : α) (f : α → Exec β) :
    ((Except.ok a : Exec α) >>= f) = f a := rfl

/-- Partial correctness: every normal outcome satisfies `Q`. -/
def Post {α : Type} (x : Exec α) (Q : α → Prop) : Prop := ∀ a, x = .ok a → Q a

theorem Post.bind {α β : Type} {x : Exec α} {f : α → Exec β} {P : α → Prop} {Q : β → Prop}
    (hx : Post x P) (hf : ∀ a, P a → Post (f a) Q) : Post (x >>= f) Q := by
  intro b hb
  obtain ⟨a, h1, h2⟩ := Exec.bind_eq_ok.1 hb
  exact hf a (hx a h1) b h2

theorem Post.ok {α : Type} {a : α} {Q : α → Prop} (h : Q a) : Post (.ok a) Q := by
  intro b hb; cases hb; exact h

theorem Post.error {α : Type} {e : Stuck} {Q : α → Prop} : Post (.error e) Q := by
  intro b hb; cases hb

theorem Post.mono {α : Type} {x : Exec α} {P Q : α → Prop} (hx : Post x P)
    (h : ∀ a, P a → Q a) : Post x Q := fun a ha => h a (hx a ha)

theorem Post.ite {α : Type} {c : Prop} [Decidable c] {x y : Exec α} {Q : α → Prop}
    (h1 : c → Post x Q) (h2 : ¬c → Post y Q) : Post (if c then x else y) Q := by
  split
  · exact h1 ‹_›
  · exact h2 ‹_›

/-- Total correctness: the computation ends normally and its outcome satisfies `Q`. -/
def Total {α : Type} (x : Exec α) (Q : α → Prop) : Prop := ∃ a, x = .ok a ∧ Q a

theorem Total.bind {α β : Type} {x : Exec α} {f : α → Exec β} {P : α → Prop} {Q : β → Prop}
    (hx : Total x P) (hf : ∀ a, P a → Total (f a) Q) : Total (x >>= f) Q := by
  obtain ⟨a, rfl, h⟩ := hx
  exact hf a h

theorem Total.ok {α : Type} {a : α} {Q : α → Prop} (h : Q a) : Total (.ok a) Q := ⟨a, rfl, h⟩

theorem Total.mono {α : Type} {x : Exec α} {P Q : α → Prop} (hx : Total x P)
    (h : ∀ a, P a → Q a) : Total x Q := by
  obtain ⟨a, h1, h2⟩ := hx; exact ⟨a, h1, h a h2⟩

theorem Total.ite {α : Type} {c : Prop} [Decidable c] {x y : Exec α} {Q : α → Prop}
    (h1 : c → Total x Q) (h2 : ¬c → Total y Q) : Total (if c then x else y) Q := by
  split
  · exact h1 ‹_›
  · exact h2 ‹_›

theorem Total.and_post {α : Type} {x : Exec α} {P Q : α → Prop} (h1 : Total x P)
    (h2 : Post x Q) : Total x (fun a => P a ∧ Q a) := by
  obtain ⟨a, h, hp⟩ := h1; exact ⟨a, h, hp, h2 a h⟩

theorem Total.post {α : Type} {x : Exec α} {P : α → Prop} (h1 : Total x P) : Post x P := by
  obtain ⟨a, h, hp⟩ := h1
  intro b hb; rw [h] at hb; cases hb; exact hp

end Fstrm
