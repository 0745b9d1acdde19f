import Verif.Props.CommandLineAny

/-! Lemmas about command lines with mistakes. -/

set_option autoImplicit false

namespace Fstrm

open Fstrm.Spec (IsDigit Manual Setting Spelling byteOf libraryNames numberChar)
open Fstrm.Props (store_spec loop_append)

/-- The arrays of options have no arguments without an option. -/
structure NoPlain (g : Grid) : Prop where
  mand : ∀ used, g.positional used ARGV_MAND = none
  maybe : ∀ used, g.positional used ARGV_MAYBE = none

theorem store_bad {st st' : ArgvSt} {g : Grid} {i : Nat} {arg : Option Bytes} (h0 : st.ok = false)
    (h : st.store g i arg = .ok st') : st'.ok = false := by
  cases h1 : st'.ok with
  | false => rfl
  | true => rw [(store_spec h).2.2.2.1 h1] at h0; cases h0

/-- Nothing makes up for a mistake. -/
theorem bad_preserved {g : Grid} (hg : NoPlain g) (set : ArgvSettings) (cap : Nat)
    (files : Bytes → Option Bytes) : Preserved ⟨g, set, cap, files⟩ (fun st => st.ok = false) where
  bad _ _ := rfl
  arg i close st st' hi h e := by
    unfold ArgvCtx.doArg at e
    dsimp only at e
    generalize hst1 : (if (!set.multiAccept && (st.used i && !(g.at i).array && (g.at i).type != .incr)) = true
      then st.bad else st) = st1 at e
    have h1 : st1.ok = false := by
      rw [← hst1]
      split
      · rfl
      · exact h
    generalize hst2 : ({ st1 with
        used := fun j => if j = i then true else st1.used j
        ok := st1.ok && !(checkOr g (fun j => if j = i then true else st1.used j) i).1
        pastEnd := st1.pastEnd || (checkOr g (fun j => if j = i then true else st1.used j) i).2 } : ArgvSt) = st2 at e
    have h2 : st2.ok = false := by
      rw [← hst2]
      simp only
      rw [h1, Bool.false_and]
    split at e
    · exact store_bad h2 e
    · split at e
      · exact store_bad h2 e
      · unfold ArgvSt.enqueue at e
        split at e
        · cases e; exact h2
        · cases e
  null st st' h e := by
    unfold ArgvSt.enqueue at e
    split at e
    · cases e; exact h
    · cases e
  stdin _ h := h
  file _ h _ _ := h
  value i a st st' h _ _ e := by
    have h' : ({ st with tail := st.tail + 1 } : ArgvSt).ok = false := h
    exact store_bad h' e
  noMand := hg.mand
  noMaybe := hg.maybe

section
variable {ι : Type} {m : Manual ι} {g : Grid} {pos : ι → Nat} {num : Bytes → Int}

theorem prefix_of_append {a b c : Bytes} (h : a ++ b <+: c) : a <+: c :=
  (List.prefix_append a b).trans h

/-- What is no abbreviation of an option's name finds no option. -/
theorem Fits.matchLong_nil (hf : Fits m g pos) (name : Bytes) (h : ∀ o, ¬ name <+: m.nameBytes o) :
    g.matchLong name = [] := by
  unfold Grid.matchLong
  rw [List.filter_eq_nil_iff]
  intro i hi hp
  rw [List.mem_range] at hi
  cases hl : (g.at i).long with
  | none => rw [hl] at hp; cases hp
  | some l =>
    rw [hl] at hp
    obtain ⟨o', rfl⟩ := hf.onto i hi (by rw [hl]; simp)
    rw [hf.long] at hl
    cases hl
    simp only [Option.any_some] at hp
    exact h o' (List.isPrefixOf_iff_prefix.1 hp)

/-- An abbreviation of two names finds both. -/
theorem Fits.matchLong_two (hf : Fits m g pos) (name : Bytes) (o o' : ι) (ho : o ≠ o')
    (h : name <+: m.nameBytes o) (h' : name <+: m.nameBytes o') :
    ∃ i j l, g.matchLong name = i :: j :: l := by
  have mem : ∀ o, name <+: m.nameBytes o → pos o ∈ g.matchLong name := by
    intro o h
    unfold Grid.matchLong
    rw [List.mem_filter, List.mem_range]
    refine ⟨hf.lt o, ?_⟩
    rw [hf.long]
    simp only [Option.any_some]
    exact List.isPrefixOf_iff_prefix.2 h
  have h1 := mem o h
  have h2 := mem o' h'
  cases hl : g.matchLong name with
  | nil => rw [hl] at h1; cases h1
  | cons i l =>
    cases l with
    | cons j l => exact ⟨i, j, l, rfl⟩
    | nil =>
      rw [hl, List.mem_singleton] at h1 h2
      exact absurd (hf.inj _ _ (h1.trans h2.symm)) ho

theorem exit_library : ∀ n ∈ EXIT_ARGS, n ∈ libraryNames := by decide +kernel

/-- A long option without meaning. -/
theorem doLong_unknown (hf : Fits m g pos) {c : ArgvCtx} (hg : c.grid = g)
    (nested : List Bytes → ArgvSt → Cmd ArgvSt) (arg name : Bytes) (close : Option Bytes) (st : ArgvSt)
    (hs : c.splitClose arg = ([45, 45] ++ name, close)) (hm : ∀ o, ¬ name <+: m.nameBytes o)
    (hb : ∀ n ∈ libraryNames, ¬ name <+: n) : c.doLong nested arg st = .ok st.bad := by
  unfold ArgvCtx.doLong
  rw [hs]
  simp only [List.cons_append, List.nil_append, List.drop_succ_cons, List.drop_zero]
  split
  · rfl
  · rw [hg, hf.matchLong_nil name hm]
    simp only
    rw [if_neg (by
      intro h
      exact hb FILE_ARG (by decide +kernel) (List.isPrefixOf_iff_prefix.1 h)), if_neg (by
      intro h
      rw [List.any_eq_true] at h
      obtain ⟨n, hn, h⟩ := h
      exact hb n (exit_library n hn) (List.isPrefixOf_iff_prefix.1 h))]

theorem doLong_ambiguous (hf : Fits m g pos) {c : ArgvCtx} (hg : c.grid = g)
    (nested : List Bytes → ArgvSt → Cmd ArgvSt) (arg name : Bytes) (close : Option Bytes) (st : ArgvSt)
    (hs : c.splitClose arg = ([45, 45] ++ name, close)) (o o' : ι) (ho : o ≠ o')
    (h : name <+: m.nameBytes o) (h' : name <+: m.nameBytes o') : c.doLong nested arg st = .ok st.bad := by
  unfold ArgvCtx.doLong
  rw [hs]
  simp only [List.cons_append, List.nil_append, List.drop_succ_cons, List.drop_zero]
  split
  · rfl
  · obtain ⟨i, j, l, hl⟩ := hf.matchLong_two name o o' ho h h'
    rw [hg, hl]

theorem library_noEq : ∀ n ∈ libraryNames, 61 ∉ n := by decide +kernel

/-- The two ways in which a long argument is divided. -/
theorem splitClose_long (c : ArgvCtx) (name rest : Bytes) (hn : 61 ∉ name)
    (hr : rest = [] ∨ ∃ v, rest = 61 :: v) :
    (∃ close, c.splitClose ([45, 45] ++ name ++ rest) = ([45, 45] ++ name, close)) ∨
    (rest ≠ [] ∧ c.splitClose ([45, 45] ++ name ++ rest) = ([45, 45] ++ (name ++ rest), none)) := by
  have hn' : 61 ∉ [45, 45] ++ name := by
    simp only [List.mem_append, not_or]
    exact ⟨by decide, hn⟩
  rcases hr with rfl | ⟨v, rfl⟩
  · left
    rw [List.append_nil]
    exact ⟨none, splitClose_plain hn'⟩
  · cases hc : c.set.close with
    | true =>
      left
      refine ⟨some v, ?_⟩
      have := splitClose_joined hc (v := v) hn'
      rw [← this]
      congr 1
      simp
    | false =>
      right
      refine ⟨by simp, ?_⟩
      unfold ArgvCtx.splitClose
      rw [hc]
      simp

theorem not_prefix_eq {name rest n : Bytes} (hr : ∃ v, rest = 61 :: v) (hn : 61 ∉ n) : ¬ name ++ rest <+: n := by
  obtain ⟨v, rfl⟩ := hr
  rintro ⟨t, rfl⟩
  exact hn (by simp)

/-- A short option with a letter that no option has. -/
theorem doChars_bad {c : ArgvCtx} (hp : Preserved c (fun st => st.ok = false)) {arg : Bytes} {close : Option Bytes}
    {ch : UInt8} (hidx : c.grid.findIdx? (·.short == ch) = none) (h63 : ch ≠ 63) (hnum : isNumber arg = false)
    (pre post : Bytes) : ∀ (first : Bool) (st st' : ArgvSt),
      c.doChars arg close first (pre ++ ch :: post) st = .ok st' → st'.ok = false := by
  induction pre with
  | nil =>
    intro first st st' h
    rw [List.nil_append] at h
    unfold ArgvCtx.doChars at h
    rw [hidx] at h
    simp only [if_neg h63, hnum, Bool.and_false, Bool.false_and, Bool.false_eq_true, if_false] at h
    exact hp.doChars _ _ _ _ rfl h
  | cons x pre ih =>
    intro first st st' h
    rw [List.cons_append] at h
    unfold ArgvCtx.doChars at h
    split at h
    · obtain ⟨st1, e1, h⟩ := Cmd.bind_eq_ok.1 h
      exact ih _ _ _ h
    · split at h
      · cases h
      · simp only [hnum, Bool.and_false, Bool.false_and, Bool.false_eq_true, if_false] at h
        exact ih _ _ _ h

theorem isNumber_false {arg : Bytes} {ch : UInt8} (hm : ch ∈ arg) (h : ¬ numberChar ch) :
    isNumber arg = false := by
  have key : (asc ['0','1','2','3','4','5','6','7','8','9','+','-','.']).contains ch = false := by
    rw [Bool.eq_false_iff]
    intro h'
    apply h
    have := forall_u8 (P := fun ch => (asc ['0','1','2','3','4','5','6','7','8','9','+','-','.']).contains ch = true →
      (Spec.digitVal ch).any (· < 10) = true ∨ ch = 43 ∨ ch = 45 ∨ ch = 46) (by decide +kernel) ch h'
    rcases this with h1 | h1
    · left
      rw [Option.any_eq_true] at h1
      obtain ⟨v, hv, hlt⟩ := h1
      exact ⟨v, hv, by simpa using hlt⟩
    · right; exact h1
  unfold isNumber
  rw [Bool.and_eq_false_iff]
  right
  rw [List.all_eq_false]
  exact ⟨ch, hm, by rw [key]; simp⟩

/-- **An argument with a mistake.** -/
theorem one_mistaken (hf : Fits m g pos) {c : ArgvCtx} (hg : c.grid = g)
    (hp : Preserved c (fun st => st.ok = false)) (hlet : ∀ ch : UInt8, 0 < ch.toNat ∧ ch.toNat < 128 →
      (∀ o l, m.letter o = some l → byteOf l ≠ ch) → g.findIdx? (·.short == ch) = none)
    (nested : List Bytes → ArgvSt → Cmd ArgvSt) (arg : Bytes) (h : m.Mistaken arg) (st st' : ArgvSt)
    (e : c.one nested false arg st = .ok st') : st'.ok = false := by
  have long : ∀ x : Bytes, [45, 45].isPrefixOf ([45, 45] ++ x) = true := by
    intro x
    simp [List.isPrefixOf]
  cases h with
  | unknown name rest hn hr hm hb =>
    unfold ArgvCtx.one at e
    rw [List.append_assoc, long, if_pos (by rfl), ← List.append_assoc] at e
    rcases splitClose_long c name rest hn hr with ⟨close, hs⟩ | ⟨_, hs⟩
    · rw [doLong_unknown hf hg nested _ name close st hs hm hb] at e
      cases e; rfl
    · rw [doLong_unknown hf hg nested _ (name ++ rest) none st hs (fun o h => hm o (prefix_of_append h))
        (fun n hn h => hb n hn (prefix_of_append h))] at e
      cases e; rfl
  | ambiguous name rest o o' hn hr hne ho h h' =>
    unfold ArgvCtx.one at e
    rw [List.append_assoc, long, if_pos (by rfl), ← List.append_assoc] at e
    rcases splitClose_long c name rest hn hr with ⟨close, hs⟩ | ⟨hr', hs⟩
    · rw [doLong_ambiguous hf hg nested _ name close st hs o o' ho h h'] at e
      cases e; rfl
    · have hr : ∃ v, rest = 61 :: v := by
        rcases hr with h | h
        · exact absurd h hr'
        · exact h
      rw [doLong_unknown hf hg nested _ (name ++ rest) none st hs (fun o => not_prefix_eq hr (hf.name o).2)
        (fun n hn => not_prefix_eq hr (library_noEq n hn))] at e
      cases e; rfl
  | letter pre post ch hd hpre hascii h61 h63 hnum hm =>
    have hidx := hlet ch hascii hm
    unfold ArgvCtx.one at e
    rw [if_neg (by
      cases pre with
      | nil =>
        have : ch ≠ 45 := fun h => hnum (by rw [h]; right; right; left; rfl)
        simp [List.isPrefixOf, Ne.symm this]
      | cons x pre =>
        have : x ≠ 45 := by simpa using hd
        simp [List.isPrefixOf, Ne.symm this]), if_pos (by simp [List.isPrefixOf])] at e
    unfold ArgvCtx.doShort at e
    have hsp : ∃ post' close, c.splitClose (45 :: (pre ++ ch :: post)) = (45 :: (pre ++ ch :: post'), close) := by
      unfold ArgvCtx.splitClose
      split
      · have h1 : ∀ x ∈ 45 :: pre ++ [ch], (x != 61) = true := by
          intro x hx
          simp only [bne_iff_ne, ne_eq]
          rintro rfl
          simp only [List.mem_append, List.mem_cons, List.not_mem_nil, or_false] at hx
          rcases hx with (hx | hx) | hx
          · exact absurd hx (by decide)
          · exact hpre hx
          · exact h61 hx.symm
        have h2 : 45 :: (pre ++ ch :: post) = (45 :: pre ++ [ch]) ++ post := by simp
        rw [h2, List.takeWhile_append_of_pos h1]
        exact ⟨post.takeWhile (· != 61), _, Prod.ext (by simp) rfl⟩
      · exact ⟨post, none, rfl⟩
    obtain ⟨post', close, hs⟩ := hsp
    rw [hs] at e
    simp only [List.drop_succ_cons, List.drop_zero] at e
    rw [if_neg (by simp)] at e
    exact doChars_bad hp (by rw [hg]; exact hidx) h63 (isNumber_false (by simp) hnum) _ _ _ _ _ e

/-- A mistake among the arguments. -/
theorem argvProcess_mistaken (hf : Fits m g pos) (hn : NoPlain g) (hlet : ∀ ch : UInt8, 0 < ch.toNat ∧ ch.toNat < 128 →
      (∀ o l, m.letter o = some l → byteOf l ≠ ch) → g.findIdx? (·.short == ch) = none)
    (fuel : Nat) (os : ArgvOs) (program : Bytes) (pre post : List Bytes) (arg : Bytes) (hpre : [45, 45] ∉ pre)
    (h : m.Mistaken arg) (st : ArgvSt) : argvProcess fuel g os (program :: (pre ++ arg :: post)) ≠ .ok st := by
  intro e
  have hne : arg ≠ [45, 45] := by
    rintro rfl
    generalize ha : ([45, 45] : Bytes) = a at h
    cases h with
    | unknown name rest hn hr hm hb =>
      have : name ++ rest = [] := by simpa using ha
      rw [List.append_eq_nil_iff] at this
      rw [this.1] at hb
      exact hb FILE_ARG (by decide +kernel) (List.nil_prefix)
    | ambiguous name rest o o' hn hr hne ho h h' => exact hne (by simpa using ha)
    | letter p q ch hd hpre hascii h61 h63 hnum hm =>
      cases p with
      | nil =>
        simp only [List.nil_append, List.cons.injEq, true_and] at ha
        exact hnum (by rw [← ha.1]; right; right; left; rfl)
      | cons x p =>
        simp only [List.cons_append, List.cons.injEq, true_and] at ha
        exact hd (by rw [← ha.1]; rfl)
  unfold argvProcess at e
  dsimp only at e
  split at e
  · cases e
  · obtain ⟨s1, e1, e⟩ := Cmd.bind_eq_ok.1 e
    obtain ⟨s2, e2, e⟩ := Cmd.bind_eq_ok.1 e
    obtain ⟨s3, e3, e⟩ := Cmd.bind_eq_ok.1 e
    have h2 : s2.ok = false := by
      cases fuel with
      | zero => unfold ArgvCtx.doList at e2; cases e2
      | succ n =>
        unfold ArgvCtx.doList at e2
        rw [loop_append _ _ _ _ hpre] at e2
        obtain ⟨s4, _, e2⟩ := Cmd.bind_eq_ok.1 e2
        rw [loop_cons, if_neg (fun h => hne h.1)] at e2
        obtain ⟨s5, e4, e2⟩ := Cmd.bind_eq_ok.1 e2
        have h5 := one_mistaken hf rfl (bad_preserved hn _ _ _) hlet _ arg h s4 s5 e4
        exact (bad_preserved hn _ _ _).loop ((bad_preserved hn _ _ _).doList n) _ _ _ _ h5 e2
    have h3 : s3.ok = false := by
      unfold ArgvCtx.doEnv at e3
      split at e3
      · exact (bad_preserved hn _ _ _).doList fuel _ _ _ h2 e3
      · cases e3; exact h2
    unfold ArgvSt.finish at e
    rw [h3] at e
    simp at e

/-- Settings, with more arguments behind them. -/
theorem Fits.settings (hf : Fits m g pos) {c : ArgvCtx} (hg : c.grid = g) (hset : c.set = {})
    (nested : List Bytes → ArgvSt → Cmd ArgvSt) (args : List Bytes) :
    ∀ (l : List (Setting ι)) (k : Nat) (st : ArgvSt), (∀ s ∈ l, m.Legible num s) →
      st.tail = st.queue.length → st.queue.length + (l.flatMap m.written).length < c.cap →
      (∀ o, (m.kind o).valued = false → (st.vals (pos o)).toInt ≤ k) → k + l.length < 2147483647 →
      ∃ st', c.loop nested false (l.flatMap m.written ++ args) st = c.loop nested false args st' ∧
        st'.tail = st'.queue.length ∧ st'.queue.length ≤ st.queue.length + (l.flatMap m.written).length := by
  intro l
  induction l with
  | nil => intro k st _ hq _ _ _; exact ⟨st, rfl, hq, by simp⟩
  | cons s l ih =>
    intro k st hl hq hcap hk hlen
    rw [List.flatMap_cons] at hcap ⊢
    rw [List.length_append] at hcap
    rw [List.length_cons] at hlen
    rw [List.append_assoc, hf.step hg hset nested s (hl s (by simp)) _ st hq (by omega)]
    · obtain ⟨h1, h2⟩ := after_queue (m := m) (num := num) (pos := pos) (g := g) s st hq
      obtain ⟨st', e1, e2, e3⟩ := ih (k + 1) _ (fun s' hs' => hl s' (by simp [hs'])) h1 (by omega) (by
        intro o ho
        have := after_count (m := m) (num := num) (pos := pos) (g := g) s st o hf.inj ho k (by omega) (hk o ho)
        omega) (by omega)
      refine ⟨st', e1, e2, ?_⟩
      rw [List.length_append]
      omega
    · cases hv : (m.kind s.opt).valued with
      | true => right; rfl
      | false => left; have := hk s.opt hv; omega

theorem init_count (o : ι) (os : ArgvOs) : ((ArgvSt.init g os.stdin).vals (pos o)).toInt ≤ ((0 : Nat) : Int) := by
  simp only [ArgvSt.init, ArgEntry.zero]
  split <;> first | (simp [ArgVal.toInt]; done) | (split <;> simp [ArgVal.toInt])

/-- A word that belongs to no option. -/
theorem argvProcess_stray (hf : Fits m g pos) (hn : NoPlain g) (hpre : preprocessGo false false none g = true)
    (fuel : Nat) (os : ArgvOs) (program : Bytes) (l : List (Setting ι)) (word : Bytes) (post : List Bytes)
    (hg : os.getenv GLOBAL_NAME = none) (he : os.getenv (envName (baseName program)) = none)
    (hl : ∀ s ∈ l, m.Legible num s) (hlen : l.length < 2147483647)
    (hw : word.head? ≠ some 45 ∨ word = [45]) (st : ArgvSt) :
    argvProcess fuel g os (program :: (l.flatMap m.written ++ word :: post)) ≠ .ok st := by
  intro e
  rw [argvProcess_eq fuel g os program _ hpre hg [] (by rw [he])] at e
  obtain ⟨s1, e1, e⟩ := Cmd.bind_eq_ok.1 e
  obtain ⟨s2, e2, e6⟩ := Cmd.bind_eq_ok.1 e
  clear e
  cases fuel with
  | zero => unfold ArgvCtx.doList at e2; cases e2
  | succ n =>
    cases e1
    unfold ArgvCtx.doList at e2
    obtain ⟨s3, e3, e4, _⟩ := hf.settings (num := num) (c := ⟨g, {}, (l.flatMap m.written ++ word :: post).length + 1 + 0, os.files⟩)
      rfl rfl (ArgvCtx.doList _ n) (word :: post) l 0 (ArgvSt.init g os.stdin) hl rfl (by simp [ArgvSt.init]; omega) (fun o _ => init_count o os) (by omega)
    have e2 := e3.symm.trans e2
    have h45 : word ≠ [45, 45] := by
      rintro rfl
      rcases hw with hw | hw
      · exact hw rfl
      · cases hw
    rw [loop_cons, if_neg (fun h => h45 h.1)] at e2
    obtain ⟨s5, e5, e2⟩ := Cmd.bind_eq_ok.1 e2
    have h5 : s5.ok = false := by
      unfold ArgvCtx.one at e5
      rw [if_neg (by
        rcases hw with hw | rfl
        · cases word with
          | nil => simp [List.isPrefixOf]
          | cons x w =>
            have : x ≠ 45 := by simpa using hw
            simp [List.isPrefixOf, Ne.symm this]
        · decide), if_neg (by
        rcases hw with hw | rfl
        · cases word with
          | nil => simp [List.isPrefixOf]
          | cons x w =>
            have : x ≠ 45 := by simpa using hw
            simp [List.isPrefixOf, Ne.symm this]
        · decide)] at e5
      unfold ArgvCtx.doValue at e5
      rw [if_neg (by omega)] at e5
      simp only [hn.mand, hn.maybe] at e5
      cases e5
      rfl
    have h2 := (bad_preserved hn {} _ os.files).loop ((bad_preserved hn _ _ _).doList n) _ _ _ _ h5 e2
    unfold ArgvSt.finish at e6
    rw [h2] at e6
    simp at e6

/-- Anything behind `--`. -/
theorem argvProcess_behind (hf : Fits m g pos) (hn : NoPlain g) (hpre : preprocessGo false false none g = true)
    (fuel : Nat) (os : ArgvOs) (program : Bytes) (l : List (Setting ι)) (word : Bytes) (post : List Bytes)
    (hg : os.getenv GLOBAL_NAME = none) (he : os.getenv (envName (baseName program)) = none)
    (hl : ∀ s ∈ l, m.Legible num s) (hlen : l.length < 2147483647) (st : ArgvSt) :
    argvProcess fuel g os (program :: (l.flatMap m.written ++ [45, 45] :: word :: post)) ≠ .ok st := by
  intro e
  rw [argvProcess_eq fuel g os program _ hpre hg [] (by rw [he])] at e
  obtain ⟨s1, e1, e⟩ := Cmd.bind_eq_ok.1 e
  obtain ⟨s2, e2, e6⟩ := Cmd.bind_eq_ok.1 e
  clear e
  cases fuel with
  | zero => unfold ArgvCtx.doList at e2; cases e2
  | succ n =>
    cases e1
    unfold ArgvCtx.doList at e2
    obtain ⟨s3, e3, e4, _⟩ := hf.settings (num := num)
      (c := ⟨g, {}, (l.flatMap m.written ++ [45, 45] :: word :: post).length + 1 + 0, os.files⟩)
      rfl rfl (ArgvCtx.doList _ n) ([45, 45] :: word :: post) l 0 (ArgvSt.init g os.stdin) hl rfl
      (by simp [ArgvSt.init]; omega) (fun o _ => init_count o os) (by omega)
    have e2 := e3.symm.trans e2
    rw [loop_cons, if_pos ⟨rfl, rfl⟩] at e2
    unfold ArgvCtx.loop at e2
    rw [if_neg (by rintro ⟨_, h⟩; simp at h)] at e2
    obtain ⟨s5, e5, e2⟩ := Cmd.bind_eq_ok.1 e2
    have h5 : s5.ok = false := by
      unfold ArgvCtx.one at e5
      simp only [Bool.not_false, Bool.not_true, Bool.false_and, Bool.false_eq_true, if_false] at e5
      unfold ArgvCtx.doValue at e5
      rw [if_neg (by omega)] at e5
      simp only [hn.mand, hn.maybe] at e5
      cases e5
      rfl
    have h2 := (bad_preserved hn {} _ os.files).loop ((bad_preserved hn _ _ _).doList n) _ _ _ _ h5 e2
    unfold ArgvSt.finish at e6
    rw [h2] at e6
    simp at e6

/-- An option that lacks its value. -/
theorem argvProcess_missing (hf : Fits m g pos) (hpre : preprocessGo false false none g = true)
    (fuel : Nat) (os : ArgvOs) (program : Bytes) (l : List (Setting ι)) (o : ι) (sp : Spelling)
    (hg : os.getenv GLOBAL_NAME = none) (he : os.getenv (envName (baseName program)) = none)
    (hl : ∀ s ∈ l, m.Legible num s) (hlen : l.length < 2147483647) (hv : (m.kind o).valued = true)
    (h1 : sp = .letter → m.letter o ≠ none)
    (h2 : ∀ n, sp = .name n → 0 < n ∧ ∀ o', (m.nameBytes o).take n <+: m.nameBytes o' → o' = o) :
    argvProcess (fuel + 1) g os (program :: (l.flatMap m.written ++ [m.spell o sp])) = .error (.exit 1) := by
  have hlo : m.Legible (fun _ => 0) ⟨o, sp, false, [48]⟩ := by
    refine ⟨h1, h2, fun _ _ => .inl (by simp), fun _ => ⟨?_, by unfold Spec.IntRange; omega⟩⟩
    exact ⟨[], [], [48], [], rfl, by simp, .inl rfl, by simp, by
      intro d hd
      rw [List.mem_singleton] at hd
      subst hd
      exact ⟨0, rfl, by omega⟩, by simp, rfl⟩
  rw [argvProcess_eq (fuel + 1) g os program _ hpre hg [] (by rw [he])]
  have h0 : (⟨g, {}, (l.flatMap m.written ++ [m.spell o sp]).length + 1 + ([] : List Bytes).length, os.files⟩ : ArgvCtx).doList
      (fuel + 1) [] (ArgvSt.init g os.stdin) = .ok (ArgvSt.init g os.stdin) := rfl
  rw [h0]
  simp only [Except.bind]
  unfold ArgvCtx.doList
  obtain ⟨s3, e3, e4, e5⟩ := hf.settings (num := num)
    (c := ⟨g, {}, (l.flatMap m.written ++ [m.spell o sp]).length + 1 + ([] : List Bytes).length, os.files⟩)
    rfl rfl (ArgvCtx.doList _ fuel) [m.spell o sp] l 0 (ArgvSt.init g os.stdin) hl rfl (by simp [ArgvSt.init])
    (fun o _ => init_count o os) (by omega)
  have e5 : s3.queue.length ≤ (l.flatMap m.written).length := by simpa [ArgvSt.init] using e5
  rw [e3, hf.option rfl _ ⟨o, sp, false, [48]⟩ hlo _ none (splitClose_plain (hf.spell_eq _ hlo)) (List.prefix_refl _),
    doArg_eq rfl]
  simp only [Option.isSome_none, Bool.and_false, Bool.false_eq_true, if_false]
  rw [hf.type, typeOf_hasArg, hv]
  simp only [Bool.not_true, Bool.false_eq_true, if_false]
  unfold ArgvSt.enqueue
  rw [if_pos (by
    change s3.queue.length < _
    simp only [List.length_append, List.length_singleton, List.length_nil]
    omega)]
  simp only [Except.bind, ArgvCtx.loop]
  unfold ArgvSt.finish
  rw [if_neg]
  intro h
  simp only [Bool.and_eq_true, decide_eq_true_eq] at h
  have := h.1.2
  simp only [ArgvSt.use, List.length_append, List.length_singleton] at this
  omega

end

theorem capture_noPlain : NoPlain captureGrid := ⟨fun _ => rfl, fun _ => rfl⟩

theorem replay_noPlain : NoPlain replayGrid := ⟨fun _ => rfl, fun _ => rfl⟩

theorem letters_of {ι : Type} (m : Manual ι) (g : Grid) (ls : List UInt8)
    (h : ∀ l ∈ ls, ∃ o c, m.letter o = some c ∧ byteOf c = l)
    (hg : ∀ ch : UInt8, 0 < ch.toNat ∧ ch.toNat < 128 → ch ∉ ls → g.findIdx? (·.short == ch) = none) (ch : UInt8)
    (ha : 0 < ch.toNat ∧ ch.toNat < 128) (hm : ∀ o l, m.letter o = some l → byteOf l ≠ ch) :
    g.findIdx? (·.short == ch) = none := by
  refine hg ch ha ?_
  intro hin
  obtain ⟨o, c, h1, h2⟩ := h ch hin
  exact hm o c h1 h2

theorem capture_letters : ∀ ch : UInt8, 0 < ch.toNat ∧ ch.toNat < 128 →
    (∀ o l, Spec.captureManual.letter o = some l → byteOf l ≠ ch) → captureGrid.findIdx? (·.short == ch) = none := by
  refine letters_of Spec.captureManual captureGrid [104, 100, 116, 117, 97, 112, 98, 99, 119, 115] ?_ ?_
  · intro l hl
    simp only [List.mem_cons, List.not_mem_nil, or_false] at hl
    rcases hl with rfl | rfl | rfl | rfl | rfl | rfl | rfl | rfl | rfl | rfl
    · exact ⟨.help, _, rfl, rfl⟩
    · exact ⟨.debug, _, rfl, rfl⟩
    · exact ⟨.type, _, rfl, rfl⟩
    · exact ⟨.unix, _, rfl, rfl⟩
    · exact ⟨.tcp, _, rfl, rfl⟩
    · exact ⟨.port, _, rfl, rfl⟩
    · exact ⟨.buffersize, _, rfl, rfl⟩
    · exact ⟨.maxconns, _, rfl, rfl⟩
    · exact ⟨.write, _, rfl, rfl⟩
    · exact ⟨.split, _, rfl, rfl⟩
  · exact forall_u8 (P := fun ch => 0 < ch.toNat ∧ ch.toNat < 128 →
      ch ∉ ([104, 100, 116, 117, 97, 112, 98, 99, 119, 115] : List UInt8) →
        captureGrid.findIdx? (·.short == ch) = none) (by decide +kernel)

theorem replay_letters : ∀ ch : UInt8, 0 < ch.toNat ∧ ch.toNat < 128 →
    (∀ o l, Spec.replayManual.letter o = some l → byteOf l ≠ ch) → replayGrid.findIdx? (·.short == ch) = none := by
  refine letters_of Spec.replayManual replayGrid [104, 116, 117, 97, 112, 114] ?_ ?_
  · intro l hl
    simp only [List.mem_cons, List.not_mem_nil, or_false] at hl
    rcases hl with rfl | rfl | rfl | rfl | rfl | rfl
    · exact ⟨.help, _, rfl, rfl⟩
    · exact ⟨.type, _, rfl, rfl⟩
    · exact ⟨.unix, _, rfl, rfl⟩
    · exact ⟨.tcp, _, rfl, rfl⟩
    · exact ⟨.port, _, rfl, rfl⟩
    · exact ⟨.readFile, _, rfl, rfl⟩
  · exact forall_u8 (P := fun ch => 0 < ch.toNat ∧ ch.toNat < 128 →
      ch ∉ ([104, 116, 117, 97, 112, 114] : List UInt8) →
        replayGrid.findIdx? (·.short == ch) = none) (by decide +kernel)

end Fstrm
