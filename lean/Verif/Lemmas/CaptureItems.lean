import Verif.Model.Capture
import Verif.Props.Control

/-! Lemmas about cutting a byte stream into frames, and about libevent's buffers. -/

set_option autoImplicit false

namespace Fstrm

open Spec (CapItem nextItem itemsUpTo items number CFrame CType dataFrame)

/-! ## Frames -/

theorem number_take {bs : Bytes} (h : 4 ≤ bs.length) : number (bs.take 4) = ntohl (bs.take 4) := by
  match bs, h with
  | a :: b :: c :: d :: r, _ => simp [number, ntohl]

theorem take4_append {bs x : Bytes} (h : 4 ≤ bs.length) : (bs ++ x).take 4 = bs.take 4 := by
  rw [List.take_append_of_le_length h]

/-- What `nextItem` says, in one place. -/
theorem nextItem_cases (hw : Nat) (bs : Bytes) :
    (nextItem hw bs = none) ∨
    (∃ d, nextItem hw bs = some (.data d, 4 + d.length) ∧ 1 ≤ d.length ∧ 4 + d.length ≤ hw ∧
      d.length < 2 ^ 32 ∧ 4 + d.length ≤ bs.length ∧ bs.take (4 + d.length) = dataFrame d) ∨
    (∃ n, nextItem hw bs = some (.skipped n, n) ∧ hw < n ∧ 4 < n ∧ 4 ≤ bs.length) ∨
    (nextItem hw bs = some (.bad, 0) ∧ 8 ≤ bs.length) ∨
    (∃ b, nextItem hw bs = some (.control b, 8 + b.length) ∧ 4 ≤ b.length ∧ b.length ≤ 512 ∧
      8 + b.length ≤ hw ∧ 8 + b.length ≤ bs.length ∧
      bs.take (8 + b.length) = Spec.be32 0 ++ Spec.be32 b.length ++ b) := by
  unfold nextItem
  by_cases h4 : bs.length < 4
  · exact Or.inl (if_pos h4)
  simp only [h4, if_false]
  have hn := number_take (bs := bs) (by omega)
  rw [hn]
  have hlt := ntohl_lt (bs.take 4)
  have hbe : Spec.be32 (ntohl (bs.take 4)) = bs.take 4 := htonl_ntohl (by simp; omega)
  by_cases h0 : ntohl (bs.take 4) = 0
  · rw [if_neg (by simpa using h0)]
    by_cases h8 : bs.length < 8
    · exact Or.inl (if_pos h8)
    simp only [h8, if_false]
    have hn2 := number_take (bs := bs.drop 4) (by simp; omega)
    rw [hn2]
    have hlt2 := ntohl_lt ((bs.drop 4).take 4)
    have hbe2 : Spec.be32 (ntohl ((bs.drop 4).take 4)) = (bs.drop 4).take 4 :=
      htonl_ntohl (by simp; omega)
    generalize hm : ntohl ((bs.drop 4).take 4) = m at *
    by_cases hb : m < 4 ∨ m > 512
    · rw [if_pos hb]; exact Or.inr (Or.inr (Or.inr (Or.inl ⟨rfl, by omega⟩)))
    rw [if_neg hb]
    by_cases hs : 8 + m > hw
    · rw [if_pos hs]; exact Or.inr (Or.inr (Or.inl ⟨_, rfl, by omega, by omega, by omega⟩))
    rw [if_neg hs]
    by_cases hl : bs.length < 8 + m
    · rw [if_pos hl]; exact Or.inl rfl
    rw [if_neg hl]
    refine Or.inr (Or.inr (Or.inr (Or.inr ⟨(bs.drop 8).take m, ?_, ?_, ?_, ?_, ?_, ?_⟩)))
    · congr 2; simp; omega
    all_goals rw [List.length_take, List.length_drop, Nat.min_eq_left (by omega)]
    · omega
    · omega
    · omega
    · omega
    · rw [← h0, hbe, hbe2]
      have e1 : bs.take (8 + m) = bs.take 4 ++ (bs.drop 4).take (4 + m) := by
        rw [show 8 + m = 4 + (4 + m) by omega, List.take_add]
      rw [e1, List.take_add, List.drop_drop, List.append_assoc]
  · rw [if_pos (by simpa using h0)]
    generalize hm : ntohl (bs.take 4) = n at *
    by_cases hs : 4 + n > hw
    · rw [if_pos hs]; exact Or.inr (Or.inr (Or.inl ⟨_, rfl, by omega, by omega, by omega⟩))
    rw [if_neg hs]
    by_cases hl : bs.length < 4 + n
    · rw [if_pos hl]; exact Or.inl rfl
    rw [if_neg hl]
    refine Or.inr (Or.inl ⟨(bs.drop 4).take n, ?_, ?_, ?_, ?_, ?_, ?_⟩)
    · congr 2; simp; omega
    all_goals rw [List.length_take, List.length_drop, Nat.min_eq_left (by omega)]
    · omega
    · omega
    · omega
    · omega
    · rw [dataFrame, List.length_take, List.length_drop, Nat.min_eq_left (by omega), hbe,
        List.take_add]

/-- The first frame does not change when more bytes arrive. -/
theorem nextItem_append {hw : Nat} {bs : Bytes} {r : CapItem × Nat} (x : Bytes)
    (h : nextItem hw bs = some r) : nextItem hw (bs ++ x) = some r := by
  unfold nextItem at h ⊢
  by_cases h4 : bs.length < 4
  · simp [h4] at h
  have h4' : ¬ (bs ++ x).length < 4 := by simp; omega
  simp only [h4, h4', if_false] at h ⊢
  rw [take4_append (by omega), List.drop_append_of_le_length (by omega)]
  generalize number (bs.take 4) = n at *
  by_cases h0 : n ≠ 0
  · rw [if_pos h0] at h ⊢
    by_cases hs : 4 + n > hw
    · rw [if_pos hs] at h ⊢; exact h
    · rw [if_neg hs] at h ⊢
      by_cases hl : bs.length < 4 + n
      · simp [hl] at h
      · rw [if_neg hl] at h
        rw [if_neg (by simp; omega), ← h, List.take_append_of_le_length (by simp; omega)]
  · rw [if_neg h0] at h ⊢
    by_cases h8 : bs.length < 8
    · simp [h8] at h
    · rw [if_neg h8] at h
      rw [if_neg (by simp; omega), take4_append (by simp; omega)]
      generalize number ((bs.drop 4).take 4) = m at *
      by_cases hb : m < 4 ∨ m > 512
      · rw [if_pos hb] at h ⊢; exact h
      · rw [if_neg hb] at h ⊢
        by_cases hs : 8 + m > hw
        · rw [if_pos hs] at h ⊢; exact h
        · rw [if_neg hs] at h ⊢
          by_cases hl : bs.length < 8 + m
          · simp [hl] at h
          · rw [if_neg hl] at h
            rw [if_neg (by simp; omega), ← h, List.drop_append_of_le_length (by omega),
              List.take_append_of_le_length (by simp; omega)]

theorem nextItem_len {hw : Nat} {bs : Bytes} {it : CapItem} {len : Nat}
    (h : nextItem hw bs = some (it, len)) (hb : it ≠ .bad) : 4 ≤ len ∧ 4 ≤ bs.length := by
  rcases nextItem_cases hw bs with h1 | ⟨d, h1, _, _, _, h3, _⟩ | ⟨n, h1, _, h2, h3⟩ | ⟨h1, h3⟩ |
    ⟨b, h1, _, _, _, h3, _⟩ <;> rw [h1] at h <;> cases h
  · omega
  · omega
  · exact absurd rfl hb
  · omega

theorem itemsUpTo_mono (hw : Nat) : ∀ (n m : Nat) (bs : Bytes), bs.length ≤ n → bs.length ≤ m →
    itemsUpTo hw n bs = itemsUpTo hw m bs := by
  intro n
  induction n with
  | zero =>
    intro m bs h1 _
    have : bs = [] := List.length_eq_zero_iff.1 (by omega)
    subst this
    cases m <;> simp [itemsUpTo, nextItem]
  | succ n ih =>
    intro m bs h1 h2
    cases m with
    | zero =>
      have : bs = [] := List.length_eq_zero_iff.1 (by omega)
      subst this
      simp [itemsUpTo, nextItem]
    | succ m =>
      unfold itemsUpTo
      split
      · rfl
      · rfl
      · rename_i it len hb h
        have := nextItem_len h (by rintro rfl; exact hb rfl)
        rw [ih m (bs.drop len) (by simp; omega) (by simp; omega)]

theorem items_none {hw : Nat} {bs : Bytes} (h : nextItem hw bs = none) : items hw bs = [] := by
  unfold items
  cases bs with
  | nil => rfl
  | cons a r => rw [List.length_cons, itemsUpTo, h]

theorem items_bad {hw : Nat} {bs : Bytes} {n : Nat} (h : nextItem hw bs = some (.bad, n)) :
    items hw bs = [.bad] := by
  unfold items
  cases bs with
  | nil => simp [nextItem] at h
  | cons a r => rw [List.length_cons, itemsUpTo, h]

theorem items_cons {hw : Nat} {bs : Bytes} {it : CapItem} {len : Nat}
    (h : nextItem hw bs = some (it, len)) (hb : it ≠ .bad) :
    items hw bs = it :: items hw (bs.drop len) := by
  have hl := nextItem_len h hb
  unfold items
  cases bs with
  | nil => simp at hl
  | cons a r =>
    rw [List.length_cons, itemsUpTo, h]
    cases it with
    | bad => exact absurd rfl hb
    | _ =>
      dsimp only
      rw [itemsUpTo_mono hw _ _ _ (by simp; omega) (Nat.le_refl _)]

@[simp] theorem items_nil (hw : Nat) : items hw [] = [] := rfl

/-- More bytes only add frames. -/
theorem items_prefix (hw : Nat) : ∀ (n : Nat) (bs x : Bytes), bs.length ≤ n →
    items hw bs <+: items hw (bs ++ x) := by
  intro n
  induction n with
  | zero =>
    intro bs x h
    have : bs = [] := List.length_eq_zero_iff.1 (by omega)
    subst this
    exact List.nil_prefix
  | succ n ih =>
    intro bs x h
    cases hn : nextItem hw bs with
    | none => rw [items_none hn]; exact List.nil_prefix
    | some r =>
      obtain ⟨it, len⟩ := r
      by_cases hb : it = .bad
      · subst hb
        rw [items_bad hn, items_bad (nextItem_append x hn)]
        exact List.prefix_rfl
      · rw [items_cons hn hb, items_cons (nextItem_append x hn) hb]
        have hl := nextItem_len hn hb
        refine (List.prefix_cons_inj _).2 ?_
        rw [List.drop_append]
        exact ih _ _ (by simp; omega)

/-! ## Buffers -/

theorem evDrain_flatten : ∀ (b : List Bytes) (n : Nat),
    (evDrain n b).flatten = b.flatten.drop n := by
  intro b
  induction b with
  | nil => intro n; simp [evDrain]
  | cons c cs ih =>
    intro n
    unfold evDrain
    split
    · subst n; simp
    · split
      · simp only [List.flatten_cons]; rw [List.drop_append_of_le_length (by omega)]
      · have : c.drop n = [] := List.drop_eq_nil_of_le (by omega)
        rw [ih, List.flatten_cons, List.drop_append, this, List.nil_append]

theorem evDrain_nonempty : ∀ (b : List Bytes) (n : Nat), [] ∉ b → [] ∉ evDrain n b := by
  intro b
  induction b with
  | nil => intro n _; simp [evDrain]
  | cons c cs ih =>
    intro n h
    unfold evDrain
    split
    · exact h
    · split
      · simp only [List.mem_cons, not_or] at h ⊢
        refine ⟨fun h0 => ?_, h.2⟩
        have := congrArg List.length h0
        simp at this
        omega
      · exact ih _ (fun h1 => h (List.mem_cons_of_mem _ h1))

theorem evPeek_ne_nil {n : Nat} {b : List Bytes} (hn : 0 < n) (h : b ≠ []) : evPeek n b ≠ [] := by
  cases b with
  | nil => exact absurd rfl h
  | cons c cs => unfold evPeek; rw [if_neg (by omega)]; nofun

end Fstrm
