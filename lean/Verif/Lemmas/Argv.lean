import Verif.Model.Argv
import Verif.Lemmas.Addr
import Verif.Spec.CommandLine

/-! Lemmas about the parsing of command lines. -/

set_option autoImplicit false

namespace Fstrm

open Fstrm.Spec (digitVal IsDigit valueOf IsSpace Kind Manual Setting Spelling StartsWithInt IntRange
  NegativeNumeral byteOf)

theorem digits_append {base : Nat} (hb : base ≤ 16) (ds rest : Bytes) (h : ∀ d ∈ ds, IsDigit base d)
    (hr : ∀ c, rest.head? = some c → ¬ IsDigit base c) : ∀ n,
    (digits base n (ds ++ rest)).1 = ds.foldl (fun n c => n * base + (digitVal c).getD 0) n := by
  induction ds with
  | nil =>
    intro n
    cases rest with
    | nil => rfl
    | cons c r =>
      have hc : digit base c = none := by
        cases hd : digit base c with
        | none => rfl
        | some v => exact absurd ⟨v, (digit_iff hb c v).1 hd⟩ (hr c rfl)
      simp [digits, hc]
  | cons c ds ih =>
    intro n
    obtain ⟨v, hv, hlt⟩ := h c (by simp)
    have hd : digit base c = some v := (digit_iff hb c v).2 ⟨hv, hlt⟩
    simp only [List.cons_append, digits, hd, List.foldl_cons, hv, Option.getD_some]
    exact ih (fun d hd => h d (by simp [hd])) _

theorem forall_u8 {P : UInt8 → Prop} (h : ∀ n : Fin 256, P (UInt8.ofNat n)) (c : UInt8) : P c := by
  have := h ⟨c.toNat, c.toNat_lt⟩
  simpa using this

theorem isDigit10 {c : UInt8} (h : IsDigit 10 c) : 48 ≤ c ∧ c ≤ 57 := by
  obtain ⟨v, hv, hlt⟩ := h
  have h1 : (digitVal c).any (· < 10) = true := by rw [hv]; simpa using hlt
  exact forall_u8 (P := fun c => (digitVal c).any (· < 10) = true → 48 ≤ c ∧ c ≤ 57) (by decide +kernel) c h1

theorem digit_not_space {c : UInt8} (h : IsDigit 10 c) : isSpace c = false ∧ c ≠ 45 ∧ c ≠ 43 ∧ c ≠ 61 := by
  exact forall_u8 (P := fun c => 48 ≤ c ∧ c ≤ 57 → isSpace c = false ∧ c ≠ 45 ∧ c ≠ 43 ∧ c ≠ 61)
    (by decide +kernel) c (isDigit10 h)

theorem atoi_eq {s : Bytes} {v : Int} (h : StartsWithInt s v) (hr : IntRange v) : atoi s = .ok v := by
  obtain ⟨ws, sign, ds, rest, rfl, hws, hsign, hne, hds, hrest, rfl⟩ := h
  cases ds with
  | nil => exact absurd rfl hne
  | cons d ds =>
  obtain ⟨hd1, hd2, hd3, _⟩ := digit_not_space (hds d (by simp))
  have hdrop : (ws ++ sign ++ (d :: ds) ++ rest).dropWhile isSpace = sign ++ (d :: ds) ++ rest := by
    rw [List.append_assoc, List.append_assoc]
    rw [dropWhile_space hws, List.append_assoc]
    rcases hsign with rfl | rfl | rfl
    · exact ⟨d, ds ++ rest, rfl, hd1⟩
    · exact ⟨43, _, rfl, by decide⟩
    · exact ⟨45, _, rfl, by decide⟩
  unfold atoi
  rw [hdrop]
  have hval := digits_append (base := 10) (by omega) (d :: ds) rest hds hrest 0
  have key : ∀ neg, (strtoulSign (sign ++ (d :: ds) ++ rest) = (neg, (d :: ds) ++ rest)) →
      (if neg = true then -(valueOf 10 (d :: ds) : Int) else valueOf 10 (d :: ds)) =
        (if sign = [45] then -(valueOf 10 (d :: ds) : Int) else valueOf 10 (d :: ds)) →
      (let (neg, s) := strtoulSign (sign ++ (d :: ds) ++ rest)
       let n := (digits 10 0 s).1
       let v : Int := if neg then -(n : Int) else n
       if v < -2147483648 ∨ v > 2147483647 then Cmd.ub "atoi out of range" else (.ok v : Cmd Int)) =
      .ok (if sign = [45] then -(valueOf 10 (d :: ds) : Int) else valueOf 10 (d :: ds)) := by
    intro neg h1 h2
    rw [h1]
    simp only
    rw [hval]
    change (let v : Int := if neg = true then -(valueOf 10 (d :: ds) : Int) else valueOf 10 (d :: ds)
      if v < -2147483648 ∨ v > 2147483647 then Cmd.ub "atoi out of range" else (.ok v : Cmd Int)) = _
    simp only
    rw [h2, if_neg]
    unfold IntRange at hr
    omega
  rcases hsign with rfl | rfl | rfl
  · refine key false ?_ ?_
    · simp only [List.nil_append, List.cons_append, strtoulSign]
      split
      · rename_i heq; exact absurd (List.cons.inj heq).1 hd2
      · rename_i heq; exact absurd (List.cons.inj heq).1 hd3
      · rfl
    · simp
  · exact key false rfl (by simp)
  · exact key true rfl (by simp)

variable {ι : Type}

/-- The type of the variable for a kind of option. -/
def typeOf : Kind → ArgType
  | .flag => .bool
  | .count => .incr
  | .text => .charP
  | .number => .int
  | .texts => .charP

/-- The array of options has the options of the manual, at the positions `pos`. -/
structure Fits (m : Manual ι) (g : Grid) (pos : ι → Nat) : Prop where
  lt : ∀ o, pos o < g.length
  inj : ∀ o o', pos o = pos o' → o = o'
  long : ∀ o, (g.at (pos o)).long = some (m.nameBytes o)
  onto : ∀ i, i < g.length → (g.at i).long ≠ none → ∃ o, pos o = i
  type : ∀ o, (g.at (pos o)).type = typeOf (m.kind o)
  array : ∀ o, (g.at (pos o)).array = (m.kind o == .texts)
  letter : ∀ o c, m.letter o = some c →
    g.findIdx? (·.short == byteOf c) = some (pos o) ∧ byteOf c ≠ 45 ∧ byteOf c ≠ 61
  name : ∀ o, m.nameBytes o ≠ [] ∧ 61 ∉ m.nameBytes o
  digit : ∀ c, IsDigit 10 c → g.findIdx? (·.short == c) = none

theorem typeOf_hasArg (k : Kind) : (typeOf k).hasArg = k.valued := by cases k <;> rfl

theorem filter_eq_singleton {α : Type} [DecidableEq α] (p : α → Bool) (l : List α) (hn : l.Nodup) (a : α)
    (ha : a ∈ l) (h : ∀ b ∈ l, p b = true ↔ b = a) : l.filter p = [a] := by
  induction l with
  | nil => cases ha
  | cons b l ih =>
    rw [List.nodup_cons] at hn
    rw [List.filter_cons]
    by_cases hb : b = a
    · subst hb
      rw [if_pos ((h b (by simp)).2 rfl)]
      congr 1
      rw [List.filter_eq_nil_iff]
      intro c hc hp
      have := (h c (by simp [hc])).1 hp
      subst this
      exact hn.1 hc
    · rw [if_neg (fun hp => hb ((h b (by simp)).1 hp))]
      refine ih hn.2 ?_ (fun c hc => h c (by simp [hc]))
      rcases List.mem_cons.1 ha with rfl | h'
      · exact absurd rfl hb
      · exact h'

theorem Fits.matchLong {m : Manual ι} {g : Grid} {pos : ι → Nat} (hf : Fits m g pos) (o : ι) (n : Nat)
    (h : ∀ o', (m.nameBytes o).take n <+: m.nameBytes o' → o' = o) :
    g.matchLong ((m.nameBytes o).take n) = [pos o] := by
  unfold Grid.matchLong
  refine filter_eq_singleton _ _ List.nodup_range (pos o) (List.mem_range.2 (hf.lt o)) ?_
  intro i hi
  rw [List.mem_range] at hi
  constructor
  · intro hp
    cases hl : (g.at i).long with
    | none => rw [hl] at hp; cases hp
    | some l =>
      rw [hl] at hp
      obtain ⟨o', rfl⟩ := hf.onto i hi (by rw [hl]; simp)
      rw [hf.long] at hl
      cases hl
      simp only [Option.any_some] at hp
      rw [h o' (List.isPrefixOf_iff_prefix.1 hp)]
  · rintro rfl
    rw [hf.long]
    simp only [Option.any_some]
    exact List.isPrefixOf_iff_prefix.2 (List.take_prefix _ _)

theorem splitClose_plain {c : ArgvCtx} {arg : Bytes} (h : 61 ∉ arg) : c.splitClose arg = (arg, none) := by
  unfold ArgvCtx.splitClose
  split
  · have h1 : arg.takeWhile (· != 61) = arg := by
      have := List.takeWhile_append_of_pos (p := (· != 61)) (l₁ := arg) (l₂ := []) (by
        intro x hx
        simp only [bne_iff_ne, ne_eq]
        rintro rfl
        exact h hx)
      simpa using this
    rw [h1, if_neg (by simpa using h)]
  · rfl

theorem splitClose_joined {c : ArgvCtx} (hc : c.set.close = true) {arg v : Bytes} (h : 61 ∉ arg) :
    c.splitClose (arg ++ [61] ++ v) = (arg, some v) := by
  unfold ArgvCtx.splitClose
  rw [if_pos hc, if_pos (by simp), List.append_assoc]
  have h1 : ∀ x ∈ arg, (x != 61) = true := by
    intro x hx
    simp only [bne_iff_ne, ne_eq]
    rintro rfl
    exact h hx
  congr 1
  · rw [List.takeWhile_append_of_pos h1]
    simp
  · rw [List.dropWhile_append_of_pos h1]
    simp

/-- The new value of the variable of an option. -/
def newVal (m : Manual ι) (num : Bytes → Int) (s : Setting ι) (old : ArgVal) : ArgVal :=
  match m.kind s.opt with
  | .flag => .bool true
  | .count => .int (old.toInt + 1)
  | .text => .str (some s.value)
  | .number => .int (num s.value)
  | .texts => .arr (old.toArr ++ [s.value])

/-- The option is used: flags, and what `check_or` finds. -/
def ArgvSt.use (st : ArgvSt) (g : Grid) (i : Nat) : ArgvSt :=
  { st with
    used := fun j => if j = i then true else st.used j
    ok := st.ok && !(checkOr g (fun j => if j = i then true else st.used j) i).1
    pastEnd := st.pastEnd || (checkOr g (fun j => if j = i then true else st.used j) i).2 }

/-- A variable has a new value. -/
def ArgvSt.setVal (st : ArgvSt) (i : Nat) (v : ArgVal) : ArgvSt :=
  { st with vals := fun j => if j = i then v else st.vals j }

/-- The state after a setting. -/
def ArgvSt.after (m : Manual ι) (num : Bytes → Int) (pos : ι → Nat) (g : Grid) (s : Setting ι) (st : ArgvSt) :
    ArgvSt :=
  let st1 := (st.use g (pos s.opt)).setVal (pos s.opt) (newVal m num s (st.vals (pos s.opt)))
  if (m.kind s.opt).valued && !s.joined then
    { st1 with queue := st.queue ++ [some (pos s.opt)], tail := st.tail + 1 }
  else st1

theorem doArg_eq {c : ArgvCtx} (hm : c.set.multiAccept = true) (i : Nat) (close : Option Bytes)
    (st : ArgvSt) : c.doArg i close st =
      (if c.set.close && close.isSome then (st.use c.grid i).store c.grid i close
       else if !(c.grid.at i).type.hasArg then (st.use c.grid i).store c.grid i none
       else (st.use c.grid i).enqueue c.cap (some i)) := by
  unfold ArgvCtx.doArg ArgvSt.use
  simp [hm]

theorem store_some {g : Grid} {i : Nat} {arg : Option Bytes} {st : ArgvSt} {v : ArgVal}
    (h : stringToValue arg (g.at i) (st.vals i) = .ok (some v)) :
    st.store g i arg = .ok (st.setVal i v) := by
  unfold ArgvSt.store
  rw [h]
  rfl

variable {m : Manual ι} {g : Grid} {pos : ι → Nat} {num : Bytes → Int}

/-- A value is stored for an option that takes one. -/
theorem Fits.value (hf : Fits m g pos) (s : Setting ι) (hl : m.Legible num s)
    (hv : (m.kind s.opt).valued = true) (old : ArgVal) :
    stringToValue (some s.value) (g.at (pos s.opt)) old = .ok (some (newVal m num s old)) := by
  unfold stringToValue newVal
  rw [hf.type, hf.array]
  cases hk : m.kind s.opt with
  | flag => rw [hk] at hv; cases hv
  | count => rw [hk] at hv; cases hv
  | text => rfl
  | texts => rfl
  | number =>
    obtain ⟨h1, h2⟩ := hl.number hk
    simp only [typeOf]
    rw [atoi_eq h1 h2]
    rfl

theorem Fits.noValue (hf : Fits m g pos) (s : Setting ι) (hv : (m.kind s.opt).valued = false) (old : ArgVal)
    (ho : old.toInt < 2147483647) :
    stringToValue none (g.at (pos s.opt)) old = .ok (some (newVal m num s old)) := by
  unfold stringToValue newVal
  rw [hf.type]
  cases hk : m.kind s.opt with
  | flag => rfl
  | count =>
    simp only [typeOf]
    rw [if_neg (by omega)]
  | text => rw [hk] at hv; cases hv
  | texts => rw [hk] at hv; cases hv
  | number => rw [hk] at hv; cases hv

theorem loop_cons (c : ArgvCtx) (nested : List Bytes → ArgvSt → Cmd ArgvSt) (last : Bool) (arg : Bytes)
    (args : List Bytes) (st : ArgvSt) :
    c.loop nested last (arg :: args) st =
      if arg = [45, 45] ∧ (!last || c.set.lastToggle) then c.loop nested (!last) args st
      else (c.one nested last arg st).bind (c.loop nested last args) := by
  rw [ArgvCtx.loop]
  rfl

/-- An option by its name or letter reaches `do_arg`. -/
theorem Fits.option (hf : Fits m g pos) {c : ArgvCtx} (hg : c.grid = g)
    (nested : List Bytes → ArgvSt → Cmd ArgvSt) (s : Setting ι) (hl : m.Legible num s)
    (arg : Bytes) (close : Option Bytes) (hs : c.splitClose arg = (m.spell s.opt s.spelling, close))
    (hpre : m.spell s.opt s.spelling <+: arg)
    (args : List Bytes) (st : ArgvSt) :
    c.loop nested false (arg :: args) st =
      (c.doArg (pos s.opt) close st).bind (c.loop nested false args) := by
  obtain ⟨t, rfl⟩ := hpre
  cases hsp : s.spelling with
  | letter =>
    rw [hsp] at hs
    obtain ⟨ch, hch⟩ := Option.ne_none_iff_exists'.1 (hl.letter hsp)
    obtain ⟨hidx, h45, h61⟩ := hf.letter s.opt ch hch
    simp only [Manual.spell, hch, Option.getD_some] at hs ⊢
    rw [loop_cons, if_neg (by rintro ⟨h, _⟩; simp only [List.cons_append, List.cons.injEq] at h; exact h45 h.2.1)]
    unfold ArgvCtx.one
    rw [if_neg (by simp [List.isPrefixOf, Ne.symm h45]), if_pos (by simp [List.isPrefixOf])]
    unfold ArgvCtx.doShort
    rw [hs]
    simp only [List.drop_succ_cons, List.drop_zero]
    rw [if_neg (by simp)]
    simp only [ArgvCtx.doChars, hg, hidx]
    cases c.doArg (pos s.opt) close st <;> rfl
  | name n =>
    rw [hsp] at hs
    obtain ⟨hn, hu⟩ := hl.name n hsp
    simp only [Manual.spell] at hs ⊢
    have hne : (m.nameBytes s.opt).take n ≠ [] := by
      intro h
      rw [List.take_eq_nil_iff] at h
      rcases h with h | h
      · omega
      · exact (hf.name s.opt).1 h
    rw [loop_cons, if_neg (by
      rintro ⟨h, _⟩
      simp only [List.cons_append, List.nil_append, List.cons.injEq, true_and, List.append_eq_nil_iff] at h
      exact hne h.1)]
    unfold ArgvCtx.one
    rw [if_pos (by simp [List.isPrefixOf])]
    unfold ArgvCtx.doLong
    rw [hs]
    simp only [List.cons_append, List.nil_append, List.drop_succ_cons, List.drop_zero]
    rw [if_neg hne, hg, hf.matchLong s.opt n hu]

theorem Fits.spell_eq (hf : Fits m g pos) (s : Setting ι) (hl : m.Legible num s) :
    61 ∉ m.spell s.opt s.spelling := by
  cases hsp : s.spelling with
  | letter =>
    obtain ⟨ch, hch⟩ := Option.ne_none_iff_exists'.1 (hl.letter hsp)
    have := (hf.letter s.opt ch hch).2.2
    simp [Manual.spell, hch, Ne.symm this]
  | name n =>
    simp only [Manual.spell, List.mem_append, not_or]
    exact ⟨by decide, fun h => (hf.name s.opt).2 (List.mem_of_mem_take h)⟩

/-- A value that is an argument of its own is stored for the option before. -/
theorem Fits.separate (hf : Fits m g pos) {c : ArgvCtx} (hg : c.grid = g)
    (nested : List Bytes → ArgvSt → Cmd ArgvSt) (s : Setting ι) (hl : m.Legible num s)
    (hv : (m.kind s.opt).valued = true) (hj : s.joined = false)
    (args : List Bytes) (st : ArgvSt) (hq : st.tail < st.queue.length)
    (hx : st.queue.getD st.tail none = some (pos s.opt)) :
    c.loop nested false (s.value :: args) st =
      c.loop nested false args
        { st.setVal (pos s.opt) (newVal m num s (st.vals (pos s.opt))) with tail := st.tail + 1 } := by
  have hgne : c.grid ≠ [] := by
    rw [hg]
    intro h
    have := hf.lt s.opt
    rw [h] at this
    simp at this
  have hval := hf.value s hl hv (st.vals (pos s.opt))
  have hdo : c.doValue nested s.value st =
      .ok { st.setVal (pos s.opt) (newVal m num s (st.vals (pos s.opt))) with tail := st.tail + 1 } := by
    unfold ArgvCtx.doValue
    rw [if_pos ⟨hgne, hq⟩]
    simp only [hx]
    rw [hg, store_some (st := { st with tail := st.tail + 1 }) hval]
    rfl
  have hplain : s.value.head? ≠ some 45 ∨ s.value = [45] →
      c.loop nested false (s.value :: args) st = c.loop nested false args
        { st.setVal (pos s.opt) (newVal m num s (st.vals (pos s.opt))) with tail := st.tail + 1 } := by
    intro h
    rw [loop_cons, if_neg (by rintro ⟨h', _⟩; rw [h'] at h; simp at h)]
    unfold ArgvCtx.one
    rw [if_neg, if_neg, hdo]
    · rfl
    · rcases h with h | h
      · cases hsv : s.value with
        | nil => simp [List.isPrefixOf]
        | cons a r =>
          rw [hsv] at h
          have : a ≠ 45 := by simpa using h
          simp [List.isPrefixOf, Ne.symm this]
      · rw [h]; simp
    · rcases h with h | h
      · cases hsv : s.value with
        | nil => simp [List.isPrefixOf]
        | cons a r =>
          rw [hsv] at h
          have : a ≠ 45 := by simpa using h
          simp [List.isPrefixOf, Ne.symm this]
      · rw [h]; simp [List.isPrefixOf]
  rcases hl.value hv hj with h | h | ⟨hk, ds, hsv, hne, hds⟩
  · exact hplain (Or.inl h)
  · exact hplain (Or.inr h)
  · cases ds with
    | nil => exact absurd rfl hne
    | cons d ds =>
      obtain ⟨_, h45, _, h61⟩ := digit_not_space (hds d (by simp))
      have hnum : isNumber s.value = true := by
        rw [hsv]
        have key : ∀ d, IsDigit 10 d → (asc ['0','1','2','3','4','5','6','7','8','9','+','-','.']).contains d = true := by
          intro d hd
          exact forall_u8 (P := fun d => 48 ≤ d ∧ d ≤ 57 →
            (asc ['0','1','2','3','4','5','6','7','8','9','+','-','.']).contains d = true)
            (by decide +kernel) d (isDigit10 hd)
        simp only [isNumber, List.all_cons, Bool.and_eq_true, bne_iff_ne, ne_eq, List.all_eq_true]
        refine ⟨by simp, by decide, key d (hds d (by simp)), fun x hx => key x (hds x (by simp [hx]))⟩
      have h61s : 61 ∉ s.value := by
        rw [hsv]
        intro h
        rcases List.mem_cons.1 h with h | h
        · exact absurd h (by decide)
        · exact (digit_not_space (hds 61 h)).2.2.2 rfl
      rw [loop_cons, if_neg (by
        rintro ⟨h', _⟩
        rw [hsv] at h'
        simp only [List.cons.injEq, true_and] at h'
        exact h45 h'.1)]
      unfold ArgvCtx.one
      rw [if_neg (by rw [hsv]; simp [List.isPrefixOf, Ne.symm h45]),
        if_pos (by rw [hsv]; simp [List.isPrefixOf])]
      unfold ArgvCtx.doShort
      rw [splitClose_plain h61s]
      have hdrop : s.value.drop 1 = d :: ds := by rw [hsv]; rfl
      simp only [hdrop]
      rw [if_neg (by simp)]
      simp only [ArgvCtx.doChars, hg, hf.digit d (hds d (by simp))]
      rw [if_neg (by
        intro h
        have := (digit_not_space (hds d (by simp))).1
        subst h
        obtain ⟨v, hv, hlt⟩ := hds 63 (by simp)
        simp [digitVal] at hv)]
      rw [if_pos (by simp [hnum, hq]), hx]
      simp only
      rw [if_pos (by rw [hf.type, hk]; rfl), store_some hval]
      rfl

/-- **One setting.** -/
theorem Fits.step (hf : Fits m g pos) {c : ArgvCtx} (hg : c.grid = g) (hset : c.set = {})
    (nested : List Bytes → ArgvSt → Cmd ArgvSt) (s : Setting ι) (hl : m.Legible num s)
    (args : List Bytes) (st : ArgvSt) (hq : st.tail = st.queue.length) (hcap : st.queue.length < c.cap)
    (hint : (st.vals (pos s.opt)).toInt < 2147483647 ∨ (m.kind s.opt).valued = true) :
    c.loop nested false (m.written s ++ args) st =
      c.loop nested false args (st.after m num pos g s) := by
  have hclose : c.set.close = true := by rw [hset]
  have hmulti : c.set.multiAccept = true := by rw [hset]
  have hspell := hf.spell_eq s hl
  unfold Manual.written
  cases hv : (m.kind s.opt).valued with
  | false =>
    simp only [Bool.not_false, if_true, List.cons_append, List.nil_append]
    rw [hf.option hg nested s hl _ none (splitClose_plain hspell) (List.prefix_refl _),
      doArg_eq hmulti]
    simp only [Option.isSome_none, Bool.and_false, Bool.false_eq_true, if_false]
    rw [hg, if_pos (by rw [hf.type, typeOf_hasArg, hv]; rfl)]
    rw [store_some (st := st.use g (pos s.opt))
      (hf.noValue (num := num) s hv (st.vals (pos s.opt)) (hint.resolve_right (by simp [hv])))]
    unfold ArgvSt.after
    rw [hv]
    rfl
  | true =>
    simp only [Bool.not_true, Bool.false_eq_true, if_false]
    cases hj : s.joined with
    | true =>
      simp only [if_true, List.cons_append, List.nil_append]
      have := hf.option hg nested s hl (m.spell s.opt s.spelling ++ [61] ++ s.value) (some s.value)
        (splitClose_joined hclose hspell) ⟨[61] ++ s.value, by simp⟩ args st
      rw [this, doArg_eq hmulti]
      simp only [hclose, Option.isSome_some, Bool.and_self, if_true]
      rw [hg, store_some (hf.value s hl hv _)]
      unfold ArgvSt.after
      rw [hv, hj]
      rfl
    | false =>
      simp only [Bool.false_eq_true, if_false, List.cons_append, List.nil_append]
      rw [hf.option hg nested s hl _ none (splitClose_plain hspell) (List.prefix_refl _),
        doArg_eq hmulti]
      simp only [Option.isSome_none, Bool.and_false, Bool.false_eq_true, if_false]
      rw [hg, if_neg (by rw [hf.type, typeOf_hasArg, hv]; simp)]
      unfold ArgvSt.enqueue
      rw [if_pos (by exact hcap)]
      simp only [Except.bind]
      rw [hf.separate hg nested s hl hv hj]
      · unfold ArgvSt.after
        rw [hv, hj]
        rfl
      · simp only [ArgvSt.use, List.length_append, List.length_singleton]; omega
      · simp only [ArgvSt.use]
        rw [hq, List.getD_eq_getElem?_getD, List.getElem?_append_right (Nat.le_refl _)]
        simp

theorem after_queue (s : Setting ι) (st : ArgvSt) (hq : st.tail = st.queue.length) :
    (st.after m num pos g s).tail = (st.after m num pos g s).queue.length ∧
      (st.after m num pos g s).queue.length < st.queue.length + (m.written s).length := by
  unfold ArgvSt.after Manual.written
  cases (m.kind s.opt).valued <;> cases s.joined <;>
    simp [ArgvSt.setVal, ArgvSt.use, hq]

theorem after_count (s : Setting ι) (st : ArgvSt) (o : ι) (hinj : ∀ o o', pos o = pos o' → o = o')
    (hv : (m.kind o).valued = false) (k : Int) (hk : 0 ≤ k)
    (h : (st.vals (pos o)).toInt ≤ k) : ((st.after m num pos g s).vals (pos o)).toInt ≤ k + 1 := by
  have e : (st.after m num pos g s).vals (pos o) =
      if pos o = pos s.opt then newVal m num s (st.vals (pos s.opt)) else st.vals (pos o) := by
    unfold ArgvSt.after
    dsimp only
    split <;> rfl
  rw [e]
  split
  · rename_i h1
    have ho := hinj _ _ h1
    rw [← ho]
    unfold newVal
    rw [← ho]
    revert hv
    cases m.kind o with
    | flag => intro _; simp [ArgVal.toInt]; omega
    | count => intro _; simp only [ArgVal.toInt] at h ⊢; omega
    | text => intro h; cases h
    | number => intro h; cases h
    | texts => intro h; cases h
  · omega

/-- **All settings.** -/
theorem Fits.loop (hf : Fits m g pos) {c : ArgvCtx} (hg : c.grid = g) (hset : c.set = {})
    (nested : List Bytes → ArgvSt → Cmd ArgvSt) :
    ∀ (l : List (Setting ι)) (k : Nat) (st : ArgvSt), (∀ s ∈ l, m.Legible num s) →
      st.tail = st.queue.length → st.queue.length + (l.flatMap m.written).length < c.cap →
      (∀ o, (m.kind o).valued = false → (st.vals (pos o)).toInt ≤ k) → k + l.length < 2147483647 →
      c.loop nested false (l.flatMap m.written) st =
        .ok (l.foldl (fun st s => st.after m num pos g s) st) := by
  intro l
  induction l with
  | nil => intro k st _ _ _ _ _; rfl
  | cons s l ih =>
    intro k st hl hq hcap hk hlen
    rw [List.flatMap_cons] at hcap ⊢
    rw [List.length_append] at hcap
    rw [List.length_cons] at hlen
    rw [hf.step hg hset nested s (hl s (by simp)) _ st hq (by omega)]
    · obtain ⟨h1, h2⟩ := after_queue (m := m) (num := num) (pos := pos) (g := g) s st hq
      rw [List.foldl_cons]
      refine ih (k + 1) _ (fun s' hs' => hl s' (by simp [hs'])) h1 (by omega) ?_ (by omega)
      intro o ho
      have := after_count (m := m) (num := num) (pos := pos) (g := g) s st o hf.inj ho k (by omega) (hk o ho)
      omega
    · cases hv : (m.kind s.opt).valued with
      | true => right; rfl
      | false => left; have := hk s.opt hv; omega

end Fstrm
