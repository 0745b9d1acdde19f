import Verif.Model.PrintString

/-!
# Properties of printed strings (C57)
-/

set_option autoImplicit false

namespace Fstrm.Props

open Fstrm

theorem hexDigit_print : ∀ n, n < 16 → 32 ≤ hexDigit n ∧ hexDigit n ≤ 126 := by decide +kernel

theorem hexDigit_inj : ∀ a, a < 16 → ∀ b, b < 16 → hexDigit a = hexDigit b → a = b := by
  decide +kernel

/-- **C57**, first part: only printable ASCII characters are emitted, between quotation marks. -/
theorem print_printable (data : Bytes) :
    ∃ body, printString data = [34] ++ body ++ [34] ∧ ∀ c ∈ body, 32 ≤ c ∧ c ≤ 126 := by
  refine ⟨_, rfl, ?_⟩
  intro c hc
  obtain ⟨b, _, hb⟩ := List.mem_flatMap.1 hc
  unfold printByte at hb
  split at hb
  · rename_i hp
    split at hb
    · simp only [List.mem_cons, List.not_mem_nil, or_false] at hb
      rcases hb with rfl | rfl <;> decide
    · simp only [List.mem_cons, List.not_mem_nil, or_false] at hb
      subst hb
      simpa [isprint] using hp
  · simp only [List.mem_cons, List.not_mem_nil, or_false] at hb
    have hlt := b.toNat_lt
    rcases hb with rfl | rfl | rfl | rfl
    · decide
    · decide
    · exact hexDigit_print _ (by omega)
    · exact hexDigit_print _ (by omega)

example : printString [104, 34, 0, 10] =
    [34, 104, 92, 34, 92, 120, 48, 48, 92, 120, 48, 97, 34] := by decide +kernel

theorem printByte_cases (c : UInt8) :
    c = 34 ∧ printByte c = [92, 34] ∨ printByte c = [c] ∨
      printByte c = [92, 120, hexDigit (c.toNat / 16), hexDigit (c.toNat % 16)] := by
  unfold printByte
  repeat' split
  all_goals simp_all

/-- The encodings of different bytes other than backslash are not prefixes of one another. -/
theorem printByte_prefix {a b : UInt8} {s t : Bytes} (ha : a ≠ 92) (hb : b ≠ 92)
    (h : printByte a ++ s = printByte b ++ t) : a = b ∧ s = t := by
  have hla := a.toNat_lt
  have hlb := b.toNat_lt
  rcases printByte_cases a with ⟨qa, pa⟩ | pa | pa <;>
    rcases printByte_cases b with ⟨qb, pb⟩ | pb | pb <;>
    simp only [pa, pb, List.cons_append, List.nil_append, List.cons.injEq, true_and] at h
  · exact ⟨qa.trans qb.symm, h⟩
  · exact absurd h.1.symm hb
  · exact absurd h.1 (by decide)
  · exact absurd h.1 ha
  · exact h
  · exact absurd h.1 ha
  · exact absurd h.1 (by decide)
  · exact absurd h.1.symm hb
  · have h1 := hexDigit_inj _ (by omega) _ (by omega) h.1
    have h2 := hexDigit_inj _ (by omega) _ (by omega) h.2.1
    exact ⟨UInt8.toNat_inj.1 (by omega), h.2.2⟩

/-- **C57**, second part, as far as it is true: different byte strings without backslashes print
differently. -/
theorem print_injective_partial (a b : Bytes) (ha : (92 : UInt8) ∉ a) (hb : (92 : UInt8) ∉ b)
    (h : printString a = printString b) : a = b := by
  unfold printString at h
  simp only [List.append_cancel_left_eq, List.append_cancel_right_eq] at h
  have pos : ∀ c, printByte c ≠ [] := by
    intro c; unfold printByte; repeat' split
    all_goals simp
  induction a generalizing b with
  | nil =>
    cases b with
    | nil => rfl
    | cons y b =>
      have h := h.symm
      simp only [List.flatMap_cons, List.flatMap_nil, List.append_eq_nil_iff] at h
      exact absurd h.1 (pos y)
  | cons x a ih =>
    cases b with
    | nil =>
      simp only [List.flatMap_cons, List.flatMap_nil, List.append_eq_nil_iff] at h
      exact absurd h.1 (pos x)
    | cons y b =>
      simp only [List.flatMap_cons] at h
      have hx : x ≠ 92 := fun e => ha (by simp [e])
      have hy : y ≠ 92 := fun e => hb (by simp [e])
      obtain ⟨rfl, h2⟩ := printByte_prefix hx hy h
      rw [ih b (fun e => ha (by simp [e])) (fun e => hb (by simp [e])) h2]

/-- **C57** is false: backslashes are not escaped, so the four characters of a printed zero byte
print like the zero byte. -/
theorem print_not_injective : printString [92, 120, 48, 48] = printString [0] := by decide +kernel

/-- The sixteen digits "0123456789abcdef". -/
def hexDigits : List UInt8 := [48, 49, 50, 51, 52, 53, 54, 55, 56, 57, 97, 98, 99, 100, 101, 102]

/-- `Shows data text`: `text` is `data` as it would be written in C: printable characters as they
are, the quotation mark (34) after a backslash (92), other bytes as backslash, x (120) and two
hexadecimal digits. -/
inductive Shows : Bytes → Bytes → Prop where
  | nil : Shows [] []
  | quote {data text : Bytes} (h : Shows data text) : Shows (34 :: data) (92 :: 34 :: text)
  | plain {data text : Bytes} (c : UInt8) (h1 : 32 ≤ c ∧ c ≤ 126) (h2 : c ≠ 34) (h : Shows data text) :
      Shows (c :: data) (c :: text)
  | hex {data text : Bytes} (c h l : UInt8) (h1 : ¬ (32 ≤ c ∧ c ≤ 126))
      (hh : hexDigits[c.toNat / 16]? = some h) (hl : hexDigits[c.toNat % 16]? = some l)
      (hs : Shows data text) : Shows (c :: data) (92 :: 120 :: h :: l :: text)

theorem hexDigit_eq : ∀ n, n < 16 → hexDigits[n]? = some (hexDigit n) := by decide +kernel

/-- **C57**, first part, in full: what is printed for any bytes. -/
theorem print_exact (data : Bytes) :
    ∃ body, printString data = [34] ++ body ++ [34] ∧ Shows data body := by
  refine ⟨_, rfl, ?_⟩
  induction data with
  | nil => exact .nil
  | cons c data ih =>
    have hc := c.toNat_lt
    rw [List.flatMap_cons]
    unfold printByte
    split
    · rename_i hp
      have hp : 32 ≤ c ∧ c ≤ 126 := by simpa [isprint] using hp
      split
      · rename_i h34; subst h34; exact .quote ih
      · rename_i h34; exact .plain c hp h34 ih
    · rename_i hp
      exact .hex c _ _ (by simpa [isprint] using hp) (hexDigit_eq _ (by omega))
        (hexDigit_eq _ (by omega)) ih

example : Shows [104, 34, 171] [104, 92, 34, 92, 120, 97, 98] :=
  .plain 104 (by decide +kernel) (by decide +kernel)
    (.quote (.hex 171 97 98 (by decide +kernel) (by decide +kernel) (by decide +kernel) .nil))

end Fstrm.Props
