import Verif.Props.CommandLineAny

/-! Lemmas about argument files: lines, and that more memory and more depth change nothing. -/

set_option autoImplicit false

namespace Fstrm

open Fstrm.Spec (ArgLines)

/-! ## Lines -/

theorem fileLines_newline (n : Nat) (rest : Bytes) : fileLines (n + 1) (10 :: rest) = fileLines n rest := by
  simp only [fileLines]
  rfl

theorem takeWhile_all {p : UInt8 → Bool} {l : Bytes} (h : ∀ x ∈ l, p x = true) : l.takeWhile p = l := by
  have := List.takeWhile_append_of_pos (p := p) (l₁ := l) (l₂ := []) h
  simpa using this

theorem dropWhile_all {p : UInt8 → Bool} {l : Bytes} (h : ∀ x ∈ l, p x = true) : l.dropWhile p = [] := by
  have := List.dropWhile_append_of_pos (p := p) (l₁ := l) (l₂ := []) h
  simpa using this

theorem fileLines_line (n : Nat) (l rest : Bytes) (hne : l ≠ []) (hnl : 10 ∉ l) (h0 : 0 ∉ l)
    (hlen : l.length ≤ 1023) (hr : rest = [] ∨ rest.head? = some 10) :
    fileLines (n + 1) (l ++ rest) = l :: fileLines n rest ∨
    ∃ rest', rest = 10 :: rest' ∧ fileLines (n + 1) (l ++ rest) = l :: fileLines n rest' := by
  have h1 : ∀ x ∈ l, (x != 10) = true := by
    intro x hx
    simp only [bne_iff_ne, ne_eq]
    rintro rfl
    exact hnl hx
  have h2 : ∀ x ∈ l, (x != 10 && x != 0) = true := by
    intro x hx
    rw [h1 x hx]
    simp only [bne_iff_ne, ne_eq, Bool.true_and]
    rintro rfl
    exact h0 hx
  have unf : ∀ s : Bytes, s ≠ [] → fileLines (n + 1) s =
      let s1 := s.take 1023
      let chunk := s1.takeWhile (· != 10) ++ (s1.dropWhile (· != 10)).take 1
      let line := chunk.takeWhile fun ch => ch != 10 && ch != 0
      if line = [] then fileLines n (s.drop chunk.length)
      else line :: fileLines n (s.drop chunk.length) := by
    intro s hs
    cases s with
    | nil => exact absurd rfl hs
    | cons x s => rw [fileLines]; simp
  rcases hr with rfl | hr
  · left
    rw [List.append_nil, unf l hne]
    simp only
    rw [List.take_of_length_le hlen, takeWhile_all h1, dropWhile_all h1]
    simp only [List.take_nil, List.append_nil]
    rw [takeWhile_all h2, if_neg hne, List.drop_length]
  · cases rest with
    | nil => cases hr
    | cons x rest' =>
      have hx : x = 10 := by simpa using hr
      subst hx
      by_cases hl : l.length = 1023
      · left
        rw [unf _ (by simp)]
        simp only
        rw [List.take_append_of_le_length (by omega), List.take_of_length_le hlen, takeWhile_all h1, dropWhile_all h1]
        simp only [List.take_nil, List.append_nil]
        rw [takeWhile_all h2, if_neg hne, List.drop_left]
      · right
        refine ⟨rest', rfl, ?_⟩
        rw [unf _ (by simp)]
        simp only
        have ht : (l ++ 10 :: rest').take 1023 = l ++ 10 :: rest'.take (1023 - l.length - 1) := by
          rw [List.take_append, List.take_of_length_le hlen]
          congr 1
          have : 1023 - l.length = (1023 - l.length - 1) + 1 := by omega
          rw [this, List.take_succ_cons]
          rfl
        rw [ht, List.takeWhile_append_of_pos h1, List.dropWhile_append_of_pos h1]
        have e1 : (10 :: rest'.take (1023 - l.length - 1)).takeWhile (fun x : UInt8 => x != 10) = [] := by simp
        have e2 : (10 :: rest'.take (1023 - l.length - 1)).dropWhile (fun x : UInt8 => x != 10) =
          10 :: rest'.take (1023 - l.length - 1) := by simp
        rw [e1, e2, List.append_nil]
        have e3 : (l ++ (10 :: rest'.take (1023 - l.length - 1)).take 1).takeWhile
            (fun ch : UInt8 => ch != 10 && ch != 0) = l := by
          rw [List.takeWhile_append_of_pos h2]
          simp
        have e4 : (l ++ (10 :: rest'.take (1023 - l.length - 1)).take 1).length = (l ++ [10]).length := by simp
        rw [e3, if_neg hne, e4]
        congr 2
        have : l ++ 10 :: rest' = (l ++ [10]) ++ rest' := by simp
        rw [this, List.drop_left]

theorem fileLines_nil (n : Nat) : fileLines n [] = [] := by
  cases n <;> rfl

/-- The lines of a file are what is read. -/
theorem fileLines_eq {content : Bytes} {ls : List Bytes} (h : ArgLines content ls) :
    ∀ n, content.length < n → fileLines n content = ls := by
  induction h with
  | nil => intro n _; exact fileLines_nil n
  | newline rest ls h ih =>
    intro n hn
    cases n with
    | zero => omega
    | succ n =>
      rw [fileLines_newline]
      exact ih n (by simp at hn; omega)
  | line l rest ls hne hnl h0 hlen hr h ih =>
    intro n hn
    have hl : 0 < l.length := List.length_pos_iff.2 hne
    rw [List.length_append] at hn
    cases n with
    | zero => omega
    | succ n =>
      rcases fileLines_line n l rest hne hnl h0 hlen hr with h | ⟨rest', rfl, h⟩
      · rw [h, ih n (by omega)]
      · rw [h, ← fileLines_newline, ih (n + 1) (by simp at hn ⊢; omega)]

/-! ## Defined results do not depend on memory and depth -/

/-- If the first is defined, the second is the same. -/
def Refines {α : Type} (x y : Cmd α) : Prop := (∃ s, x = .error (.stuck s)) ∨ x = y

theorem Refines.refl {α : Type} (x : Cmd α) : Refines x x := .inr rfl

theorem Refines.bind {α β : Type} {x y : Cmd α} {f g : α → Cmd β} (h : Refines x y) (hf : ∀ a, Refines (f a) (g a)) :
    Refines (x.bind f) (y.bind g) := by
  rcases h with ⟨s, rfl⟩ | rfl
  · exact .inl ⟨s, rfl⟩
  · cases x with
    | error e => exact .inr rfl
    | ok a => exact hf a

/-- A parser with room for at least as many options that wait for values. -/
structure Roomier (c c' : ArgvCtx) : Prop where
  grid : c'.grid = c.grid
  set : c'.set = c.set
  files : c'.files = c.files
  cap : c.cap ≤ c'.cap

variable {c c' : ArgvCtx}

theorem Roomier.enqueue (h : Roomier c c') (st : ArgvSt) (x : Option Nat) :
    Refines (st.enqueue c.cap x) (st.enqueue c'.cap x) := by
  unfold ArgvSt.enqueue
  have := h.cap
  split
  · rw [if_pos (by omega)]; exact .inr rfl
  · exact .inl ⟨_, rfl⟩

theorem Roomier.doArg (h : Roomier c c') (i : Nat) (close : Option Bytes) (st : ArgvSt) :
    Refines (c.doArg i close st) (c'.doArg i close st) := by
  unfold ArgvCtx.doArg
  rw [h.grid, h.set]
  dsimp only
  split
  · exact .inr rfl
  · split
    · exact .inr rfl
    · exact h.enqueue _ _

theorem Roomier.splitClose (h : Roomier c c') (arg : Bytes) : c'.splitClose arg = c.splitClose arg := by
  unfold ArgvCtx.splitClose
  rw [h.set]

variable {nested nested' : List Bytes → ArgvSt → Cmd ArgvSt}

theorem Roomier.fileArgs (h : Roomier c c') (hn : ∀ args st, Refines (nested args st) (nested' args st))
    (path : Bytes) (st : ArgvSt) : Refines (c.fileArgs nested path st) (c'.fileArgs nested' path st) := by
  unfold ArgvCtx.fileArgs
  rw [h.files]
  split
  · exact hn _ _
  · split
    · exact .inr rfl
    · exact hn _ _

theorem Roomier.doLong (h : Roomier c c') (hn : ∀ args st, Refines (nested args st) (nested' args st))
    (arg : Bytes) (st : ArgvSt) : Refines (c.doLong nested arg st) (c'.doLong nested' arg st) := by
  unfold ArgvCtx.doLong
  rw [h.splitClose, h.grid]
  dsimp only
  split
  · exact .inr rfl
  · split
    · exact .inr rfl
    · exact h.doArg _ _ _
    · split
      · split
        · exact h.fileArgs hn _ _
        · exact h.enqueue _ _
      · split
        · exact .inr rfl
        · exact .inr rfl

theorem Roomier.doChars (h : Roomier c c') (arg : Bytes) (close : Option Bytes) (cs : Bytes) :
    ∀ (first : Bool) (st : ArgvSt), Refines (c.doChars arg close first cs st) (c'.doChars arg close first cs st) := by
  induction cs with
  | nil => intro first st; exact .inr (by unfold ArgvCtx.doChars; rfl)
  | cons ch cs ih =>
    intro first st
    unfold ArgvCtx.doChars
    rw [h.grid]
    split
    · exact (h.doArg _ _ _).bind (fun a => ih _ _)
    · split
      · exact .inr rfl
      · split
        · split
          · exact .inr rfl
          · split
            · exact .inr rfl
            · exact ih _ _
        · exact ih _ _

theorem Roomier.doShort (h : Roomier c c') (arg : Bytes) (st : ArgvSt) :
    Refines (c.doShort arg st) (c'.doShort arg st) := by
  unfold ArgvCtx.doShort
  rw [h.splitClose]
  dsimp only
  split
  · exact .inr rfl
  · exact h.doChars _ _ _ _ _

theorem Roomier.doValue (h : Roomier c c') (hn : ∀ args st, Refines (nested args st) (nested' args st))
    (arg : Bytes) (st : ArgvSt) : Refines (c.doValue nested arg st) (c'.doValue nested' arg st) := by
  unfold ArgvCtx.doValue
  rw [h.grid]
  split
  · dsimp only
    split
    · exact h.fileArgs hn _ _
    · exact .inr rfl
  · exact .inr rfl

theorem Roomier.one (h : Roomier c c') (hn : ∀ args st, Refines (nested args st) (nested' args st))
    (last : Bool) (arg : Bytes) (st : ArgvSt) : Refines (c.one nested last arg st) (c'.one nested' last arg st) := by
  unfold ArgvCtx.one
  split
  · exact h.doLong hn _ _
  · split
    · exact h.doShort _ _
    · exact h.doValue hn _ _

theorem Roomier.loop (h : Roomier c c') (hn : ∀ args st, Refines (nested args st) (nested' args st))
    (args : List Bytes) : ∀ (last : Bool) (st : ArgvSt),
      Refines (c.loop nested last args st) (c'.loop nested' last args st) := by
  induction args with
  | nil => intro last st; exact .inr (by unfold ArgvCtx.loop; rfl)
  | cons arg args ih =>
    intro last st
    rw [loop_cons, loop_cons, h.set]
    split
    · exact ih _ _
    · exact (h.one hn _ _ _).bind (fun a => ih _ _)

theorem Roomier.doList (h : Roomier c c') (fuel : Nat) : ∀ (fuel' : Nat), fuel ≤ fuel' → ∀ (args : List Bytes) (st : ArgvSt),
    Refines (c.doList fuel args st) (c'.doList fuel' args st) := by
  induction fuel with
  | zero => intro fuel' _ args st; exact .inl ⟨.fuel, by unfold ArgvCtx.doList; rfl⟩
  | succ n ih =>
    intro fuel' hf args st
    cases fuel' with
    | zero => omega
    | succ n' =>
      unfold ArgvCtx.doList
      exact h.loop (ih n' (by omega)) _ _ _

end Fstrm
