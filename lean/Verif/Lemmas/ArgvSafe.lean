import Verif.Lemmas.ArgvInv

/-! Command lines that are parsed without undefined behaviour. -/

set_option autoImplicit false

namespace Fstrm

open Fstrm.Spec (IsDigit digitVal)

/-- The program goes on with a state like `Q`, or exits. -/
def Cmd.Fine {α : Type} (x : Cmd α) (Q : α → Prop) : Prop :=
  match x with
  | .ok a => Q a
  | .error (.exit _) => True
  | .error (.stuck _) => False

theorem Cmd.Fine.bind {α β : Type} {x : Cmd α} {f : α → Cmd β} {Q : α → Prop} {R : β → Prop}
    (h : Cmd.Fine x Q) (hf : ∀ a, Q a → Cmd.Fine (f a) R) : Cmd.Fine (x.bind f) R := by
  cases x with
  | ok a => exact hf a h
  | error e => cases e with
    | exit s => trivial
    | stuck s => exact h

theorem Cmd.Fine.mono {α : Type} {x : Cmd α} {Q R : α → Prop} (h : Cmd.Fine x Q) (hq : ∀ a, Q a → R a) :
    Cmd.Fine x R := by
  cases x with
  | ok a => exact hq a h
  | error e => cases e with
    | exit s => trivial
    | stuck s => exact h

/-- No ten decimal digits in a row. -/
def ShortNumbers (a : Bytes) : Prop := ∀ d, d <:+: a → (∀ ch ∈ d, 48 ≤ ch ∧ ch ≤ 57) → d.length ≤ 9

theorem ShortNumbers.infix {a b : Bytes} (h : ShortNumbers a) (hb : b <:+: a) : ShortNumbers b :=
  fun d hd hall => h d (hd.trans hb) hall

theorem digit10 {ch : UInt8} {v : Nat} (h : digit 10 ch = some v) : (48 ≤ ch ∧ ch ≤ 57) ∧ v < 10 := by
  have h1 := (digit_iff (base := 10) (by omega) ch v).1 h
  exact ⟨isDigit10 ⟨v, h1⟩, h1.2⟩

theorem digits_bound (s : Bytes) : ∀ (n m : Nat),
    (∀ d, d <+: s → (∀ ch ∈ d, 48 ≤ ch ∧ ch ≤ 57) → d.length ≤ m) → (digits 10 n s).1 < (n + 1) * 10 ^ m := by
  induction s with
  | nil =>
    intro n m _
    have : 0 < 10 ^ m := Nat.pow_pos (by omega)
    simp only [digits]
    calc n < (n + 1) * 1 := by omega
      _ ≤ _ := Nat.mul_le_mul_left _ this
  | cons c s ih =>
    intro n m h
    rw [digits]
    cases hd : digit 10 c with
    | none =>
      have : 0 < 10 ^ m := Nat.pow_pos (by omega)
      calc n < (n + 1) * 1 := by omega
        _ ≤ _ := Nat.mul_le_mul_left _ this
    | some v =>
      obtain ⟨hc, hv⟩ := digit10 hd
      cases m with
      | zero =>
        have := h [c] ⟨s, rfl⟩ (by simpa using hc)
        simp at this
      | succ m =>
        have := ih (n * 10 + v) m (by
          intro d hd hall
          have := h (c :: d) (by obtain ⟨r, rfl⟩ := hd; exact ⟨r, rfl⟩) (by
            intro ch hch
            rcases List.mem_cons.1 hch with rfl | hch
            · exact hc
            · exact hall ch hch)
          simp at this
          exact this)
        simp only
        calc (digits 10 (n * 10 + v) s).1 < (n * 10 + v + 1) * 10 ^ m := this
          _ ≤ ((n + 1) * 10) * 10 ^ m := Nat.mul_le_mul_right _ (by omega)
          _ = (n + 1) * 10 ^ (m + 1) := by rw [Nat.pow_succ, Nat.mul_assoc, Nat.mul_comm 10]

theorem strtoulSign_suffix (s : Bytes) : (strtoulSign s).2 <:+ s := by
  unfold strtoulSign
  split
  · exact ⟨[45], rfl⟩
  · exact ⟨[43], rfl⟩
  · exact List.suffix_refl _

theorem atoi_short {a : Bytes} (h : ShortNumbers a) : ∃ v, atoi a = .ok v ∧ v < 1000000000 := by
  have hs : (strtoulSign (a.dropWhile isSpace)).2 <:+: a :=
    ((strtoulSign_suffix _).trans (List.dropWhile_suffix _)).isInfix
  have hb := digits_bound (strtoulSign (a.dropWhile isSpace)).2 0 9 (fun d hd hall =>
    (h.infix hs) d hd.isInfix hall)
  unfold atoi
  dsimp only
  generalize (digits 10 0 (strtoulSign (a.dropWhile isSpace)).2).1 = n at hb ⊢
  cases (strtoulSign (a.dropWhile isSpace)).1 with
  | true =>
    simp only [if_true]
    rw [if_neg (by omega)]
    exact ⟨_, rfl, by omega⟩
  | false =>
    simp only [Bool.false_eq_true, if_false]
    rw [if_neg (by omega)]
    exact ⟨_, rfl, by omega⟩

/-- What holds while arguments are parsed: at most `q` options have waited for a value, no file among them;
numbers are bounded. -/
structure SafeInv (q k : Nat) (st : ArgvSt) : Prop where
  queue : st.queue.length ≤ q
  noFile : none ∉ st.queue
  num : ∀ i, (st.vals i).toInt ≤ (1000000000 + k : Nat)

theorem SafeInv.mono {q k q' k' : Nat} {st : ArgvSt} (h : SafeInv q k st) (hq : q ≤ q') (hk : k ≤ k') :
    SafeInv q' k' st :=
  ⟨Nat.le_trans h.queue hq, h.noFile, fun i => by have := h.num i; omega⟩

theorem SafeInv.bad {q k : Nat} {st : ArgvSt} (h : SafeInv q k st) : SafeInv q k st.bad :=
  ⟨h.queue, h.noFile, h.num⟩

theorem SafeInv.store {q k : Nat} {st : ArgvSt} (h : SafeInv q k st) (hk : k < 1073741824) (g : Grid) (i : Nat)
    (arg : Option Bytes) (ha : ∀ a, arg = some a → ShortNumbers a)
    (hn : arg = none → (g.at i).type.hasArg = false) :
    Cmd.Fine (st.store g i arg) (SafeInv q (k + 1)) := by
  unfold ArgvSt.store
  have hset : ∀ v : ArgVal, v.toInt ≤ (1000000000 + (k + 1) : Nat) →
      SafeInv q (k + 1) { st with vals := fun j => if j = i then v else st.vals j } := by
    intro v hv
    refine ⟨h.queue, h.noFile, ?_⟩
    intro j
    simp only
    split
    · exact hv
    · have := h.num j; omega
  have hi := h.num i
  have hval : Cmd.Fine (stringToValue arg (g.at i) (st.vals i))
      (fun v => ∀ v', v = some v' → v'.toInt ≤ (1000000000 + (k + 1) : Nat)) := by
    unfold stringToValue
    have hatoi : ∀ a, ShortNumbers a → Cmd.Fine (do let i ← atoi a; .ok (some (.int i)) : Cmd (Option ArgVal))
        (fun v => ∀ v', v = some v' → v'.toInt ≤ (1000000000 + (k + 1) : Nat)) := by
      intro a hs
      obtain ⟨v, h1, h2⟩ := atoi_short hs
      rw [h1]
      intro v' hv'
      cases hv'
      show v ≤ _
      omega
    cases ht : (g.at i).type with
    | none => intro v' hv'; cases hv'
    | bool =>
      cases arg with
      | none => intro v' hv'; cases hv'; show (0 : Int) ≤ _; omega
      | some a => intro v' hv'; cases hv'; show (0 : Int) ≤ _; omega
    | charP =>
      cases arg with
      | none => exact absurd (hn rfl) (by rw [ht]; decide)
      | some a =>
        intro v' hv'
        cases hv'
        split <;> (show (0 : Int) ≤ _; omega)
    | int =>
      cases arg with
      | none => exact absurd (hn rfl) (by rw [ht]; decide)
      | some a => exact hatoi a (ha a rfl)
    | incr =>
      cases arg with
      | none =>
        simp only
        rw [if_neg (by omega)]
        intro v' hv'
        cases hv'
        show (st.vals i).toInt + 1 ≤ _
        omega
      | some a => exact hatoi a (ha a rfl)
  refine hval.bind ?_
  intro v hv
  cases v with
  | none => exact h.bad.mono (Nat.le_refl _) (by omega)
  | some v => exact hset v (hv v rfl)

/-- Whether option `i` will wait for a value. -/
def waits (g : Grid) (close : Option Bytes) (i : Nat) : Nat :=
  if close.isSome = true then 0 else if (g.at i).type.hasArg then 1 else 0

theorem SafeInv.doArg {q k : Nat} {st : ArgvSt} (h : SafeInv q k st) (hk : k < 1073741824) {c : ArgvCtx}
    (hset : c.set.close = true) (i : Nat) (close : Option Bytes)
    (hclose : ∀ a, close = some a → ShortNumbers a) (hcap : q + waits c.grid close i ≤ c.cap) :
    Cmd.Fine (c.doArg i close st) (SafeInv (q + waits c.grid close i) (k + 1)) := by
  unfold ArgvCtx.doArg
  dsimp only
  have hst : ∀ st1 : ArgvSt, st1.queue = st.queue → st1.vals = st.vals →
      Cmd.Fine (if (c.set.close && close.isSome) = true then st1.store c.grid i close
        else if (!(c.grid.at i).type.hasArg) = true then st1.store c.grid i none
        else st1.enqueue c.cap (some i)) (SafeInv (q + waits c.grid close i) (k + 1)) := by
    intro st1 e1 e2
    have h1 : SafeInv q k st1 := ⟨by rw [e1]; exact h.queue, by rw [e1]; exact h.noFile, by rw [e2]; exact h.num⟩
    rw [hset, Bool.true_and]
    split
    · rename_i hc
      refine (h1.store hk c.grid i close hclose (by rintro rfl; cases hc)).mono ?_
      intro s hs
      exact hs.mono (Nat.le_add_right _ _) (Nat.le_refl _)
    · rename_i hc
      split
      · rename_i hh
        refine (h1.store hk c.grid i none (by intro a ha; cases ha) (fun _ => by simpa using hh)).mono ?_
        intro s hs
        exact hs.mono (Nat.le_add_right _ _) (Nat.le_refl _)
      · rename_i hh
        have hw : waits c.grid close i = 1 := by
          unfold waits
          rw [if_neg hc, if_pos (by simpa using hh)]
        rw [hw] at hcap ⊢
        unfold ArgvSt.enqueue
        rw [if_pos (by have := h1.queue; omega)]
        refine ⟨?_, ?_, ?_⟩
        · have := h1.queue; simp only [List.length_append, List.length_singleton]; omega
        · simp only [List.mem_append, List.mem_singleton, reduceCtorEq, or_false]; exact h1.noFile
        · intro j; have := h1.num j; simp only; omega
  apply hst <;> (split <;> rfl)

/-- Whether a letter is an option with a value. -/
def takesValue (g : Grid) (ch : UInt8) : Bool :=
  match g.findIdx? (·.short == ch) with
  | some i => (g.at i).type.hasArg
  | none => false

/-- How many of the letters will wait for a value. -/
def takesCount (g : Grid) (close : Option Bytes) (cs : Bytes) : Nat :=
  if close.isSome = true then 0
  else cs.countP (takesValue g)

theorem SafeInv.doChars {c : ArgvCtx} (hset : c.set.close = true) (arg : Bytes) (close : Option Bytes)
    (harg : ShortNumbers arg) (hclose : ∀ a, close = some a → ShortNumbers a) (cs : Bytes) :
    ∀ (first : Bool) (q k : Nat) (st : ArgvSt), SafeInv q k st → k + cs.length ≤ 1073741824 →
      q + takesCount c.grid close cs ≤ c.cap →
      Cmd.Fine (c.doChars arg close first cs st) (SafeInv (q + takesCount c.grid close cs) (k + cs.length)) := by
  induction cs with
  | nil =>
    intro first q k st h hk hcap
    unfold ArgvCtx.doChars
    exact h.mono (Nat.le_add_right _ _) (Nat.le_add_right _ _)
  | cons ch cs ih =>
    intro first q k st h hk hcap
    simp only [List.length_cons] at hk ⊢
    have hcount : takesCount c.grid close cs ≤ takesCount c.grid close (ch :: cs) := by
      unfold takesCount
      split
      · exact Nat.le_refl _
      · rw [List.countP_cons]; omega
    have hrest : ∀ st, SafeInv q k st → Cmd.Fine (c.doChars arg close false cs st)
        (SafeInv (q + takesCount c.grid close (ch :: cs)) (k + (cs.length + 1))) := by
      intro st h
      refine (ih false q k st h (by omega) (by omega)).mono ?_
      intro s hs
      exact hs.mono (by omega) (by omega)
    unfold ArgvCtx.doChars
    split
    · rename_i i hi
      have hw : takesCount c.grid close (ch :: cs) = waits c.grid close i + takesCount c.grid close cs := by
        unfold takesCount waits
        split
        · rfl
        · rw [List.countP_cons, takesValue, hi]
          simp only
          omega
      rw [hw] at hcap ⊢
      refine (h.doArg (by omega) hset i close hclose (by omega)).bind ?_
      intro s hs
      refine (ih false _ _ s hs (by omega) (by omega)).mono ?_
      intro s hs
      exact hs.mono (by omega) (by omega)
    · split
      · trivial
      · split
        · rename_i hc
          simp only [Bool.and_eq_true, decide_eq_true_eq] at hc
          split
          · rename_i hx
            apply h.noFile
            rw [List.getD_eq_getElem?_getD, List.getElem?_eq_getElem hc.2] at hx
            simp only [Option.getD_some] at hx
            rw [← hx]
            exact List.getElem_mem hc.2
          · split
            · refine (h.store (by omega) c.grid _ (some arg) (by intro a ha; cases ha; exact harg)
                (by intro hn; cases hn)).bind ?_
              intro s hs
              exact ⟨Nat.le_trans hs.queue (Nat.le_add_right _ _), hs.noFile, fun i => by
                have := hs.num i; simp only; omega⟩
            · exact hrest _ h.bad
        · exact hrest _ h.bad

theorem splitClose_parts {c : ArgvCtx} (hset : c.set.close = true) (arg : Bytes) :
    (c.splitClose arg).1 <:+: arg ∧ (∀ a, (c.splitClose arg).2 = some a → a <:+: arg) ∧
      ((c.splitClose arg).2 = none → 61 ∉ arg ∧ (c.splitClose arg).1 = arg) ∧
      (c.splitClose arg).1 = arg.takeWhile (· != 61) := by
  unfold ArgvCtx.splitClose
  rw [if_pos hset]
  refine ⟨(List.takeWhile_prefix _).isInfix, ?_, ?_, rfl⟩
  · intro a ha
    simp only at ha
    split at ha
    · cases ha
      exact ((List.tail_suffix _).trans (List.dropWhile_suffix _)).isInfix
    · cases ha
  · intro h
    simp only at h
    split at h
    · cases h
    · rename_i hc
      have hn : 61 ∉ arg := by simpa using hc
      refine ⟨hn, ?_⟩
      simp only
      have := List.takeWhile_append_of_pos (p := fun x : UInt8 => x != 61) (l₁ := arg) (l₂ := [])
        (by intro x hx; simp only [bne_iff_ne, ne_eq]; rintro rfl; exact hn hx)
      simpa using this

/-- An argument that does not overrun the queue and names no file. -/
structure SimpleArg (g : Grid) (a : Bytes) : Prop where
  letters : a.head? = some 45 → ¬ [45, 45] <+: a → 61 ∉ a →
    a.tail.countP (takesValue g) ≤ 1
  noFile : ¬ [45, 45, 97] <+: a
  numbers : ShortNumbers a

theorem file_arg_prefix {name : Bytes} (hne : name ≠ []) (h : name.isPrefixOf FILE_ARG = true) :
    name.head? = some 97 := by
  cases name with
  | nil => exact absurd rfl hne
  | cons a l =>
    have : FILE_ARG = 97 :: asc ['r', 'g', 'v', '-', 'f', 'i', 'l', 'e'] := by decide
    rw [this, List.isPrefixOf_cons_cons] at h
    simp only [Bool.and_eq_true, beq_iff_eq] at h
    simp [h.1]

theorem SafeInv.one {c : ArgvCtx} (hset : c.set.close = true)
    (hm : ∀ used, c.grid.positional used ARGV_MAND = none)
    (hm' : ∀ used, c.grid.positional used ARGV_MAYBE = none)
    (nested : List Bytes → ArgvSt → Cmd ArgvSt) (last : Bool) (arg : Bytes) (ha : SimpleArg c.grid arg)
    {q k : Nat} {st : ArgvSt} (h : SafeInv q k st) (hk : k + arg.length < 1073741824) (hcap : q + 1 ≤ c.cap) :
    Cmd.Fine (c.one nested last arg st) (SafeInv (q + 1) (k + arg.length + 1)) := by
  have hbad : SafeInv (q + 1) (k + arg.length + 1) st.bad := h.bad.mono (by omega) (by omega)
  obtain ⟨hp1, hp2, hp3, hp4⟩ := splitClose_parts hset arg
  have hclose : ∀ a, (c.splitClose arg).2 = some a → ShortNumbers a := fun a e => ha.numbers.infix (hp2 a e)
  unfold ArgvCtx.one
  split
  · rename_i hl
    simp only [Bool.and_eq_true, Bool.not_eq_true', List.isPrefixOf_iff_prefix] at hl
    unfold ArgvCtx.doLong
    dsimp only
    split
    · exact hbad
    · rename_i hne
      split
      · exact hbad
      · rename_i i _
        have hw : waits c.grid (c.splitClose arg).2 i ≤ 1 := by
          unfold waits; split <;> (try split) <;> omega
        refine (h.doArg (by omega) hset i _ hclose (by omega)).mono ?_
        intro s hs
        exact hs.mono (by omega) (by omega)
      · split
        · rename_i hf
          exfalso
          have hd := file_arg_prefix hne hf
          apply ha.noFile
          rw [hp4] at hd
          obtain ⟨r, hr⟩ := hl.2
          rw [← hr] at hd ⊢
          cases r with
          | nil => simp at hd
          | cons x r =>
            simp only [List.cons_append, List.nil_append] at hd
            rw [List.takeWhile_cons_of_pos (by decide), List.takeWhile_cons_of_pos (by decide)] at hd
            simp only [List.drop_succ_cons, List.drop_zero] at hd
            rw [List.takeWhile_cons] at hd
            split at hd
            · simp at hd; subst hd; exact ⟨r, rfl⟩
            · cases hd
        · split
          · trivial
          · exact hbad
  · split
    · rename_i hl hs
      simp only [Bool.and_eq_true, Bool.not_eq_true', List.isPrefixOf_iff_prefix, bne_iff_ne, ne_eq] at hl hs
      unfold ArgvCtx.doShort
      dsimp only
      split
      · exact hbad
      · have hlen : ((c.splitClose arg).1.drop 1).length ≤ arg.length := by
          have := hp1.length_le
          simp only [List.length_drop]; omega
        have hcount : takesCount c.grid (c.splitClose arg).2 ((c.splitClose arg).1.drop 1) ≤ 1 := by
          unfold takesCount
          split
          · omega
          · rename_i hn
            obtain ⟨h1, h2⟩ := hp3 (by simpa using hn)
            rw [h2]
            have := ha.letters (by obtain ⟨r, rfl⟩ := hs.1.2; rfl) (by
              intro hpre; exact hl ⟨hs.1.1, hpre⟩) h1
            rw [List.drop_one]
            exact this
        refine (SafeInv.doChars hset _ _ (ha.numbers.infix hp1) hclose _ true q k st h (by omega) (by omega)).mono ?_
        intro s hs
        exact hs.mono (by omega) (by omega)
    · unfold ArgvCtx.doValue
      split
      · rename_i hc
        dsimp only
        split
        · rename_i hx
          exfalso
          apply h.noFile
          rw [List.getD_eq_getElem?_getD, List.getElem?_eq_getElem hc.2] at hx
          simp only [Option.getD_some] at hx
          rw [← hx]
          exact List.getElem_mem hc.2
        · refine (SafeInv.store (st := { st with tail := st.tail + 1 }) ⟨h.queue, h.noFile, h.num⟩ (by omega) c.grid _ (some arg)
            (by intro a e; cases e; exact ha.numbers) (by intro e; cases e)).mono ?_
          intro s hs
          exact hs.mono (by omega) (by omega)
      · rw [hm, hm']
        exact hbad

/-- The length of all arguments, with their ends. -/
def argsLength (args : List Bytes) : Nat := (args.map fun a => a.length + 1).sum

theorem SafeInv.loop {c : ArgvCtx} (hset : c.set.close = true)
    (hm : ∀ used, c.grid.positional used ARGV_MAND = none)
    (hm' : ∀ used, c.grid.positional used ARGV_MAYBE = none)
    (nested : List Bytes → ArgvSt → Cmd ArgvSt) (args : List Bytes) :
    ∀ (last : Bool) (q k : Nat) (st : ArgvSt), (∀ a ∈ args, SimpleArg c.grid a) → SafeInv q k st →
      k + argsLength args < 1073741824 → q + args.length ≤ c.cap →
      Cmd.Fine (c.loop nested last args st) (fun _ => True) := by
  induction args with
  | nil => intro last q k st _ _ _ _; unfold ArgvCtx.loop; trivial
  | cons a args ih =>
    intro last q k st hargs h hk hcap
    simp only [argsLength, List.map_cons, List.sum_cons, List.length_cons] at hk hcap
    have hk' : k + (a.length + 1 + argsLength args) < 1073741824 := hk
    rw [loop_cons]
    split
    · exact ih _ q k st (fun x hx => hargs x (by simp [hx])) h (by omega) (by omega)
    · refine (SafeInv.one hset hm hm' nested last a (hargs a (by simp)) h (by omega) (by omega)).bind ?_
      intro s hs
      exact ih _ (q + 1) (k + a.length + 1) s (fun x hx => hargs x (by simp [hx])) hs (by omega) (by omega)

/-- Arguments without undefined behaviour. -/
theorem argvProcess_fine {g : Grid} (hpre : preprocessGo false false none g = true)
    (hm : ∀ used, g.positional used ARGV_MAND = none) (hm' : ∀ used, g.positional used ARGV_MAYBE = none)
    (fuel : Nat) (os : ArgvOs) (program : Bytes) (args : List Bytes)
    (hg : os.getenv GLOBAL_NAME = none) (he : os.getenv (envName (baseName program)) = none)
    (hargs : ∀ a ∈ args, SimpleArg g a) (hlen : argsLength args < 1073741824)
    (hzero : ∀ i, ((g.at i).zero).toInt ≤ 1000000000) :
    Cmd.Fine (argvProcess (fuel + 1) g os (program :: args)) (fun _ => True) := by
  rw [argvProcess_eq (fuel + 1) g os program args hpre hg [] (by rw [he])]
  have h1 : ∀ c : ArgvCtx, c.doList (fuel + 1) [] (ArgvSt.init g os.stdin) = .ok (ArgvSt.init g os.stdin) :=
    fun c => rfl
  rw [h1]
  simp only [Except.bind]
  unfold ArgvCtx.doList
  refine (SafeInv.loop (c := ⟨g, {}, args.length + 1 + ([] : List Bytes).length, os.files⟩) rfl hm hm' _ args false
    0 0 (ArgvSt.init g os.stdin) hargs ⟨Nat.le_refl _, (by intro h; cases h), ?_⟩ (by omega) ?_).bind ?_
  · intro i; have := hzero i; show ((g.at i).zero).toInt ≤ _; omega
  · simp only [List.length_nil]; omega
  · intro s _
    unfold ArgvSt.finish
    split <;> trivial

end Fstrm
