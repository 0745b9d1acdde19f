import Verif.Model.Addr
import Verif.Spec.Numeral

/-! Lemmas about the parsing of port numbers. -/

set_option autoImplicit false

namespace Fstrm

open Fstrm.Spec (digitVal IsDigit valueOf Numeral IsSpace)

theorem digit_iff {base : Nat} (hb : base ≤ 16) (c : UInt8) (v : Nat) :
    digit base c = some v ↔ digitVal c = some v ∧ v < base := by
  unfold digit digitVal
  simp only
  repeat' split
  all_goals simp_all
  all_goals try omega
  all_goals (intro h; omega)

theorem isSome_digit {base : Nat} (hb : base ≤ 16) (c : UInt8) :
    (digit base c).isSome = true ↔ IsDigit base c := by
  rw [Option.isSome_iff_exists]
  exact exists_congr fun v => digit_iff hb c v

theorem digits_nil_iff {base : Nat} (hb : base ≤ 16) (s : Bytes) : ∀ (n m : Nat),
    digits base n s = (m, []) ↔ (∀ c ∈ s, IsDigit base c) ∧
      m = s.foldl (fun n c => n * base + (digitVal c).getD 0) n := by
  induction s with
  | nil => intro n m; simp [digits, eq_comm]
  | cons c s ih =>
    intro n m
    unfold digits
    cases hd : digit base c with
    | none =>
      simp only [Prod.mk.injEq, reduceCtorEq, and_false, List.mem_cons, forall_eq_or_imp, false_iff]
      rintro ⟨⟨h, _⟩, _⟩
      rw [← isSome_digit hb, hd] at h
      cases h
    | some v =>
      have h1 := (digit_iff hb c v).1 hd
      simp only [ih, List.mem_cons, forall_eq_or_imp, List.foldl_cons, h1.1, Option.getD_some]
      have : IsDigit base c := ⟨v, h1⟩
      simp [this]

theorem isSpace_iff (c : UInt8) : isSpace c = true ↔ IsSpace c := by
  simp [isSpace, IsSpace]

/-- The numeral part of `strtoul`: everything is consumed exactly for numerals. -/
theorem number_iff (s : Bytes) (n : Nat) :
    (∃ c r, (strtoulBase s).2 = c :: r ∧ (digit (strtoulBase s).1 c).isSome = true ∧
      digits (strtoulBase s).1 0 (strtoulBase s).2 = (n, [])) ↔ Numeral s n := by
  have dec : ∀ s : Bytes, (∀ r, s ≠ 48 :: r) → strtoulBase s = (10, s) := by
    intro s h
    unfold strtoulBase
    split
    · exact absurd rfl (h _)
    · exact absurd rfl (h _)
    · rfl
  have oct : ∀ r : Bytes, (∀ x c t, r = x :: c :: t → ¬((x = 120 ∨ x = 88) ∧ IsDigit 16 c)) →
      strtoulBase (48 :: r) = (8, 48 :: r) := by
    intro r h
    unfold strtoulBase
    split
    · rename_i x c t heq
      simp only [List.cons.injEq, true_and] at heq
      rw [if_neg]
      · rw [heq]
      · rw [isSome_digit (by omega)]; exact h x c t heq
    · rename_i heq; simp only [List.cons.injEq, true_and] at heq; rw [heq]
    · rename_i h1; exact absurd rfl (h1 _)
  have hex : ∀ x c t, strtoulBase (48 :: x :: c :: t) =
      if (x = 120 ∨ x = 88) ∧ (digit 16 c).isSome = true then (16, c :: t)
      else (8, 48 :: x :: c :: t) := by
    intro x c t
    unfold strtoulBase
    split
    · rename_i heq; cases heq; rfl
    · rename_i h heq; cases heq; exact absurd rfl (h _ _ _)
    · rename_i h _; exact (h _ _ _ rfl).elim
  have z8 : (digit 8 48).isSome = true := by decide
  have d48 : digitVal 48 = some 0 := by decide
  constructor
  · rintro ⟨c, r, h1, h2, h3⟩
    cases s with
    | nil => rw [dec [] (by simp)] at h1; cases h1
    | cons a s =>
      by_cases ha : a = 48
      · subst ha
        by_cases hx : ∃ x c t, s = x :: c :: t ∧ (x = 120 ∨ x = 88) ∧ IsDigit 16 c
        · obtain ⟨x, d, t, rfl, hx, hd⟩ := hx
          have hb : strtoulBase (48 :: x :: d :: t) = (16, d :: t) := by
            rw [hex]; exact if_pos ⟨hx, (isSome_digit (by omega) d).2 hd⟩
          rw [hb] at h3
          obtain ⟨h4, rfl⟩ := (digits_nil_iff (by omega) _ _ _).1 h3
          exact .hex x _ hx (by simp) h4
        · rw [oct s (fun x c t h hh => hx ⟨x, c, t, h, hh⟩)] at h3
          obtain ⟨h4, rfl⟩ := (digits_nil_iff (by omega) _ _ _).1 h3
          have : valueOf 8 s = List.foldl (fun n c => n * 8 + (digitVal c).getD 0) 0 (48 :: s) := by
            simp [valueOf, d48]
          rw [← this]
          exact .oct s (fun d hd => h4 d (by simp [hd]))
      · rw [dec (a :: s) (by simp [ha])] at h3
        obtain ⟨h4, rfl⟩ := (digits_nil_iff (by omega) _ _ _).1 h3
        exact .dec a s ha h4
  · intro h
    cases h with
    | dec c ds hc h =>
      rw [dec (c :: ds) (by simp [hc])]
      exact ⟨c, ds, rfl, (isSome_digit (by omega) c).2 (h c (by simp)),
        (digits_nil_iff (by omega) _ _ _).2 ⟨h, rfl⟩⟩
    | oct ds h =>
      rw [oct ds]
      · refine ⟨48, ds, rfl, z8, (digits_nil_iff (by omega) _ _ _).2 ⟨?_, ?_⟩⟩
        · intro c hc
          rcases List.mem_cons.1 hc with rfl | hc
          · exact (isSome_digit (by omega) _).1 z8
          · exact h c hc
        · simp [valueOf, d48]
      · rintro x c t rfl ⟨hx, _⟩
        obtain ⟨v, hv, hl⟩ := h x (by simp)
        rcases hx with rfl | rfl <;> (revert hv; simp [digitVal])
    | hex x ds hx hne h =>
      cases ds with
      | nil => exact absurd rfl hne
      | cons d t =>
        have hd := h d (by simp)
        have hb : strtoulBase (48 :: x :: d :: t) = (16, d :: t) := by
          rw [hex]; exact if_pos ⟨hx, (isSome_digit (by omega) d).2 hd⟩
        rw [hb]
        exact ⟨d, t, rfl, (isSome_digit (by omega) d).2 hd,
          (digits_nil_iff (by omega) _ _ _).2 ⟨h, rfl⟩⟩

theorem digit_char {base : Nat} {c : UInt8} (h : IsDigit base c) :
    (48 ≤ c ∧ c ≤ 57) ∨ (97 ≤ c ∧ c ≤ 102) ∨ (65 ≤ c ∧ c ≤ 70) := by
  obtain ⟨v, hv, _⟩ := h
  unfold digitVal at hv
  split at hv
  · left; assumption
  · split at hv
    · right; left; assumption
    · split at hv
      · right; right; assumption
      · cases hv

/-- The first character of a numeral is a digit: no white space, no sign. -/
theorem numeral_head {s : Bytes} {n : Nat} (h : Numeral s n) :
    ∃ c r, s = c :: r ∧ isSpace c = false ∧ c ≠ 45 ∧ c ≠ 43 := by
  have key : ∀ c : UInt8, ((48 ≤ c ∧ c ≤ 57) ∨ (97 ≤ c ∧ c ≤ 102) ∨ (65 ≤ c ∧ c ≤ 70)) →
      isSpace c = false ∧ c ≠ 45 ∧ c ≠ 43 := by
    intro c hc
    simp only [UInt8.le_iff_toNat_le, UInt8.reduceToNat] at hc
    refine ⟨?_, ?_, ?_⟩
    · rw [Bool.eq_false_iff, Ne, isSpace_iff]
      rintro (h | h)
      · subst h; simp at hc
      · simp only [UInt8.le_iff_toNat_le, UInt8.reduceToNat] at h; omega
    · rintro rfl; simp at hc
    · rintro rfl; simp at hc
  cases h with
  | dec c ds hc h => exact ⟨c, ds, rfl, key c (digit_char (h c (by simp)))⟩
  | oct ds h => exact ⟨48, ds, rfl, key 48 (by decide)⟩
  | hex x ds hx hne h => exact ⟨48, x :: ds, rfl, key 48 (by decide)⟩

/-- Leading white space is skipped. -/
theorem dropWhile_space {ws rest : Bytes} (hws : ∀ c ∈ ws, IsSpace c)
    (hr : ∃ c r, rest = c :: r ∧ isSpace c = false) : (ws ++ rest).dropWhile isSpace = rest := by
  induction ws with
  | nil =>
    obtain ⟨c, r, rfl, hc⟩ := hr
    simp [hc]
  | cons c ws ih =>
    have := (isSpace_iff c).2 (hws c (by simp))
    simp only [List.cons_append, List.dropWhile_cons, this, if_true]
    exact ih (fun d hd => hws d (by simp [hd]))

/-- What `strtoul` does, in terms of numerals: it consumes the whole string and there were digits. -/
theorem strtoul_all (str : Bytes) (v : Nat) (hne : str ≠ []) :
    strtoul str = (v, []) ↔
      ∃ ws sign body n, str = ws ++ sign ++ body ∧ (∀ c ∈ ws, IsSpace c) ∧
        (sign = [] ∨ sign = [43] ∨ sign = [45]) ∧ Numeral body n ∧
        v = if n ≥ 2 ^ 64 then 2 ^ 64 - 1 else if sign = [45] then (2 ^ 64 - n) % 2 ^ 64 else n := by
  have hstep : ∀ neg s, strtoulSign (str.dropWhile isSpace) = (neg, s) →
      (strtoul str = (v, []) ↔ ∃ n, Numeral s n ∧
        v = if n ≥ 2 ^ 64 then 2 ^ 64 - 1 else if neg then (2 ^ 64 - n) % 2 ^ 64 else n) := by
    intro neg s hs
    unfold strtoul
    rw [hs]
    simp only
    have key := number_iff s
    generalize strtoulBase s = bs at *
    obtain ⟨base, t⟩ := bs
    simp only at key ⊢
    split
    · constructor
      · intro h; exact absurd (Prod.mk.inj h).2 hne
      · rintro ⟨n, hn, _⟩
        obtain ⟨c, r, h1, _⟩ := (key n).2 hn
        cases h1
    · rename_i c r
      split
      · rename_i hd
        constructor
        · intro h; exact absurd (Prod.mk.inj h).2 hne
        · rintro ⟨n, hn, _⟩
          obtain ⟨c', r', h1, h2, _⟩ := (key n).2 hn
          cases h1
          rw [Option.isSome_iff_ne_none] at h2
          rw [Option.isNone_iff_eq_none] at hd
          exact absurd hd h2
      · rename_i hd
        have hsome : (digit base c).isSome = true := by
          cases hh : digit base c with
          | none => simp [hh] at hd
          | some _ => rfl
        generalize hdig : digits base 0 (c :: r) = dr at *
        obtain ⟨n, rest⟩ := dr
        simp only
        have hk : ∀ m, Numeral s m ↔ (n, rest) = (m, ([] : Bytes)) := fun m =>
          ⟨fun h => by obtain ⟨_, _, _, _, h⟩ := (key m).2 h; exact h,
           fun h => (key m).1 ⟨c, r, rfl, hsome, h⟩⟩
        constructor
        · intro h
          split at h
          · rename_i hb
            cases h
            exact ⟨n, (hk n).2 rfl, by rw [if_pos hb]⟩
          · rename_i hb
            obtain ⟨h1, h2⟩ := Prod.mk.inj h
            subst h2
            exact ⟨n, (hk n).2 rfl, by rw [if_neg hb]; exact h1.symm⟩
        · rintro ⟨m, hm, hv⟩
          obtain ⟨rfl, rfl⟩ := Prod.mk.inj ((hk m).1 hm)
          rw [hv]
          split <;> rfl
  constructor
  · intro h
    have hsplit : str = str.takeWhile isSpace ++ str.dropWhile isSpace :=
      (List.takeWhile_append_dropWhile).symm
    have hws : ∀ c ∈ str.takeWhile isSpace, IsSpace c := fun c hc =>
      (isSpace_iff c).1 (List.all_eq_true.1 List.all_takeWhile c hc)
    generalize str.takeWhile isSpace = ws at *
    cases hs : strtoulSign (str.dropWhile isSpace) with
    | mk neg s =>
      obtain ⟨n, hn, hv⟩ := (hstep neg s hs).1 h
      unfold strtoulSign at hs
      split at hs
      · rename_i t heq
        cases hs
        exact ⟨ws, [45], s, n, by rw [hsplit, heq]; simp, hws, by simp, hn, by simpa using hv⟩
      · rename_i t heq
        cases hs
        exact ⟨ws, [43], s, n, by rw [hsplit, heq]; simp, hws, by simp, hn, by simpa using hv⟩
      · cases hs
        refine ⟨ws, [], _, n, by rw [List.append_nil]; exact hsplit, hws, by simp, hn, by simpa using hv⟩
  · rintro ⟨ws, sign, body, n, rfl, hws, hsign, hn, hv⟩
    obtain ⟨c, r, hb, hc1, hc2, hc3⟩ := numeral_head hn
    rcases hsign with rfl | rfl | rfl
    · refine (hstep false body ?_).2 ⟨n, hn, by simpa using hv⟩
      rw [List.append_nil, dropWhile_space hws ⟨c, r, hb, hc1⟩, hb]
      unfold strtoulSign
      split
      · rename_i h; cases h; exact absurd rfl hc2
      · rename_i h; cases h; exact absurd rfl hc3
      · rfl
    · refine (hstep false body ?_).2 ⟨n, hn, by simpa using hv⟩
      rw [List.append_assoc, dropWhile_space hws ⟨43, body, by rfl, by decide⟩]
      rfl
    · refine (hstep true body ?_).2 ⟨n, hn, by simpa using hv⟩
      rw [List.append_assoc, dropWhile_space hws ⟨45, body, by rfl, by decide⟩]
      rfl

end Fstrm
