import Verif.Lemmas.ArgvInv
import Verif.Props.CommandLine

/-!
# What holds for every command line (C90), and arguments from the environment (C91)
-/

set_option autoImplicit false

namespace Fstrm.Props

open Fstrm
open Fstrm.Spec (Words blank argvVariable upper)

theorem store_spec {st st' : ArgvSt} {g : Grid} {i : Nat} {arg : Option Bytes}
    (h : st.store g i arg = .ok st') :
    st'.used = st.used ∧ st'.queue = st.queue ∧ st'.tail = st.tail ∧ (st'.ok = true → st.ok = true) ∧
      (∀ j, j ≠ i → st'.vals j = st.vals j) ∧
      ((g.at i).type = .charP → ∃ a, arg = some a ∧
        st'.vals i = if (g.at i).array then .arr ((st.vals i).toArr ++ [a]) else .str (some a)) := by
  unfold ArgvSt.store at h
  obtain ⟨x, e1, h⟩ := Cmd.bind_eq_ok.1 h
  cases x with
  | none =>
    cases h
    refine ⟨rfl, rfl, rfl, (by intro h; cases h), fun _ _ => rfl, ?_⟩
    intro ht
    unfold stringToValue at e1
    rw [ht] at e1
    cases arg <;> cases e1
  | some v =>
    cases h
    refine ⟨rfl, rfl, rfl, id, fun j hj => if_neg hj, ?_⟩
    intro ht
    unfold stringToValue at e1
    rw [ht] at e1
    cases arg with
    | none => cases e1
    | some a =>
      refine ⟨a, rfl, ?_⟩
      cases e1
      exact if_pos rfl

/-- A text or a list of texts has been stored. -/
def IsSet (v : ArgVal) : Prop := v.toStr ≠ none ∨ v.toArr ≠ []

/-- What holds while fstrm_replay reads its arguments. -/
structure ReplayInv (st : ArgvSt) : Prop where
  tail : st.tail ≤ st.queue.length
  waiting : ∀ i, (replayGrid.at i).type = .charP → st.used i = true → IsSet (st.vals i) ∨
    some i ∈ st.queue.drop st.tail
  unused : ∀ i, st.used i = false → st.vals i = (replayGrid.at i).zero
  queue : ∀ i, some i ∈ st.queue → st.used i = true
  one : st.ok = true → ¬ (st.used 2 = true ∧ st.used 4 = true)
  shape : ∀ i, (replayGrid.at i).type = .charP →
    if (replayGrid.at i).array then ∃ l, st.vals i = .arr l else ∃ s, st.vals i = .str s

/-- Storing a value for an option that is used. -/
theorem ReplayInv.store {st st' : ArgvSt} {i : Nat} {arg : Option Bytes} (h : ReplayInv st)
    (hu : st.used i = true) (hs : st.store replayGrid i arg = .ok st') :
    ReplayInv st' ∧ ((replayGrid.at i).type = .charP → IsSet (st'.vals i)) := by
  obtain ⟨e1, e2, e3, e4, e5, e6⟩ := store_spec hs
  have hset : (replayGrid.at i).type = .charP → IsSet (st'.vals i) := by
    intro ht
    obtain ⟨a, _, h2⟩ := e6 ht
    rw [h2]
    split
    · right; simp [ArgVal.toArr]
    · left; simp [ArgVal.toStr]
  refine ⟨⟨by rw [e2, e3]; exact h.tail, ?_, ?_, by rw [e1, e2]; exact h.queue, ?_, ?_⟩, hset⟩
  · intro j hj huj
    rw [e1] at huj
    rw [e2, e3]
    by_cases hji : j = i
    · subst hji; left; exact hset hj
    · rw [e5 j hji]; exact h.waiting j hj huj
  · intro j huj
    rw [e1] at huj
    rw [e5 j (by rintro rfl; rw [hu] at huj; cases huj)]
    exact h.unused j huj
  · intro hok
    rw [e1]
    exact h.one (e4 hok)
  · intro j hj
    by_cases hji : j = i
    · subst hji
      obtain ⟨a, _, h2⟩ := e6 hj
      rw [h2]
      split <;> simp
    · rw [e5 j hji]; exact h.shape j hj

/-- The next value belongs to the first option in the queue. -/
theorem mem_drop_succ {α : Type} {l : List α} {n : Nat} {d x : α} (hn : n < l.length) (h : x ∈ l.drop n)
    (hne : l.getD n d ≠ x) : x ∈ l.drop (n + 1) := by
  rw [List.drop_eq_getElem_cons hn, List.mem_cons] at h
  rcases h with h | h
  · rw [List.getD_eq_getElem?_getD, List.getElem?_eq_getElem hn] at hne
    exact absurd h.symm hne
  · exact h

theorem replay_preserved (set : ArgvSettings) (cap : Nat) (files : Bytes → Option Bytes) :
    Preserved ⟨replayGrid, set, cap, files⟩ ReplayInv where
  bad st h := ⟨h.tail, h.waiting, h.unused, h.queue, (by intro h; cases h), h.shape⟩
  arg i close st st' hi h e := by
    unfold ArgvCtx.doArg at e
    dsimp only at e
    have hi7 : i < 7 := hi
    generalize hst1 : (if (!set.multiAccept && (st.used i && !(replayGrid.at i).array &&
      (replayGrid.at i).type != .incr)) = true then st.bad else st) = st1 at e
    have h1 : ReplayInv st1 := by
      rw [← hst1]
      split
      · exact ⟨h.tail, h.waiting, h.unused, h.queue, (by intro h; cases h), h.shape⟩
      · exact h
    generalize hst2 : ({ st1 with
        used := fun j => if j = i then true else st1.used j
        ok := st1.ok && !(checkOr replayGrid (fun j => if j = i then true else st1.used j) i).1
        pastEnd := st1.pastEnd ||
          (checkOr replayGrid (fun j => if j = i then true else st1.used j) i).2 } : ArgvSt) = st2 at e
    have hvals : st2.vals = st1.vals := by rw [← hst2]
    have hq : st2.queue = st1.queue := by rw [← hst2]
    have ht : st2.tail = st1.tail := by rw [← hst2]
    have hused : ∀ j, st2.used j = if j = i then true else st1.used j := by rw [← hst2]; exact fun _ => rfl
    have hone : st2.ok = true → ¬ (st2.used 2 = true ∧ st2.used 4 = true) := by
      intro hok
      rw [← hst2] at hok
      simp only [checkOr_replay _ i hi7, Bool.and_eq_true, Bool.not_eq_true', Bool.or_eq_false_iff,
        Bool.and_eq_false_iff] at hok
      obtain ⟨hok, h3, h4⟩ := hok
      have := h1.one hok
      rw [hused, hused]
      by_cases i2 : i = 2
      · subst i2; simp at h3; simp [h3]
      · by_cases i4 : i = 4
        · subst i4; simp at h4; simp [h4]
        · simp [Ne.symm i2, Ne.symm i4]; intro h5; simpa [h5] using this
    -- everything but that option `i` waits or has a value
    have hwait : ∀ j, j ≠ i → (replayGrid.at j).type = .charP → st2.used j = true →
        IsSet (st2.vals j) ∨ some j ∈ st2.queue.drop st2.tail := by
      intro j hji hj huj
      rw [hused, if_neg hji] at huj
      rw [hvals, hq, ht]
      exact h1.waiting j hj huj
    have hun : ∀ j, st2.used j = false → st2.vals j = (replayGrid.at j).zero := by
      intro j huj
      rw [hused] at huj
      split at huj
      · cases huj
      · rw [hvals]; exact h1.unused j huj
    have hqu : ∀ j, some j ∈ st2.queue → st2.used j = true := by
      intro j hj
      rw [hused]
      split
      · rfl
      · rw [hq] at hj; exact h1.queue j hj
    have htl : st2.tail ≤ st2.queue.length := by rw [hq, ht]; exact h1.tail
    have hsh : ∀ j, (replayGrid.at j).type = .charP →
        if (replayGrid.at j).array then ∃ l, st2.vals j = .arr l else ∃ s, st2.vals j = .str s := by
      rw [hvals]; exact h1.shape
    have hui : st2.used i = true := by rw [hused, if_pos rfl]
    have hstore : ∀ arg, st2.store replayGrid i arg = .ok st' → ReplayInv st' := by
      intro arg e
      obtain ⟨e1, e2, e3, e4, e5, e6⟩ := store_spec e
      refine ⟨by rw [e2, e3]; exact htl, ?_, ?_, by rw [e1, e2]; exact hqu, ?_, ?_⟩
      · intro j hj huj
        rw [e1] at huj
        rw [e2, e3]
        by_cases hji : j = i
        · subst hji
          left
          obtain ⟨a, _, h2⟩ := e6 hj
          rw [h2]
          split
          · right; simp [ArgVal.toArr]
          · left; simp [ArgVal.toStr]
        · rw [e5 j hji]; exact hwait j hji hj huj
      · intro j huj
        rw [e1] at huj
        rw [e5 j (by rintro rfl; rw [hui] at huj; cases huj)]
        exact hun j huj
      · intro hok
        rw [e1]
        exact hone (e4 hok)
      · intro j hj
        by_cases hji : j = i
        · subst hji
          obtain ⟨a, _, h2⟩ := e6 hj
          rw [h2]
          split <;> simp
        · rw [e5 j hji]; exact hsh j hj
    split at e
    · exact hstore _ e
    · split at e
      · exact hstore _ e
      · unfold ArgvSt.enqueue at e
        split at e
        · cases e
          refine ⟨?_, ?_, hun, ?_, hone, hsh⟩
          · simp only [List.length_append]; omega
          · intro j hj huj
            simp only
            rw [List.drop_append_of_le_length htl]
            by_cases hji : j = i
            · subst hji; right; simp
            · rcases hwait j hji hj huj with h5 | h5
              · left; exact h5
              · right; simp [h5]
          · intro j hj
            simp only [List.mem_append, List.mem_singleton, Option.some.injEq] at hj
            rcases hj with hj | rfl
            · exact hqu j hj
            · exact hui
        · cases e
  null st st' h e := by
    unfold ArgvSt.enqueue at e
    split at e
    · cases e
      refine ⟨?_, ?_, h.unused, ?_, h.one, h.shape⟩
      · have := h.tail; simp only [List.length_append]; omega
      · intro j hj huj
        simp only
        rw [List.drop_append_of_le_length h.tail]
        rcases h.waiting j hj huj with h5 | h5
        · left; exact h5
        · right; simp [h5]
      · intro j hj
        simp only [List.mem_append, List.mem_singleton, reduceCtorEq, or_false] at hj
        exact h.queue j hj
    · cases e
  stdin st h := ⟨h.tail, h.waiting, h.unused, h.queue, h.one, h.shape⟩
  file st h hq hx := by
    refine ⟨hq, ?_, h.unused, h.queue, h.one, h.shape⟩
    intro j hj huj
    rcases h.waiting j hj huj with h5 | h5
    · left; exact h5
    · right; exact mem_drop_succ hq h5 (by rw [hx]; simp)
  value i a st st' h hq hx e := by
    obtain ⟨e1, e2, e3, e4, e5, e6⟩ := store_spec e
    have hmem : some i ∈ st.queue := by
      rw [List.getD_eq_getElem?_getD, List.getElem?_eq_getElem hq] at hx
      simp only [Option.getD_some] at hx
      rw [← hx]
      exact List.getElem_mem hq
    have hui := h.queue i hmem
    refine ⟨by rw [e2, e3]; exact hq, ?_, ?_, by rw [e1, e2]; exact h.queue, ?_, ?_⟩
    · intro j hj huj
      rw [e1] at huj
      rw [e2, e3]
      by_cases hji : j = i
      · subst hji
        left
        obtain ⟨a, _, h2⟩ := e6 hj
        rw [h2]
        split
        · right; simp [ArgVal.toArr]
        · left; simp [ArgVal.toStr]
      · rw [e5 j hji]
        rcases h.waiting j hj huj with h5 | h5
        · left; exact h5
        · right
          exact mem_drop_succ hq h5 (by rw [hx]; intro h6; cases h6; exact hji rfl)
    · intro j huj
      rw [e1] at huj
      rw [e5 j (by rintro rfl; rw [hui] at huj; cases huj)]
      exact h.unused j huj
    · intro hok
      rw [e1]
      exact h.one (e4 hok)
    · intro j hj
      by_cases hji : j = i
      · subst hji
        obtain ⟨a, _, h2⟩ := e6 hj
        rw [h2]
        split <;> simp
      · rw [e5 j hji]; exact h.shape j hj
  noMand used := rfl
  noMaybe used := rfl

/-- **C90**: whatever the arguments, environment and files are: if fstrm_replay accepts its command line,
then it has been given a content type, exactly one of a unix path and an internet address, and at
least one file. -/
theorem replay_accepts (fuel : Nat) (os : ArgvOs) (argv : List Bytes) (o : ReplayOpts) (files : List Bytes)
    (h : replayOptions fuel os argv = .ok (o, files)) : Given o ∧ files ≠ [] := by
  unfold replayOptions at h
  obtain ⟨st, e, h⟩ := Cmd.bind_eq_ok.1 h
  obtain ⟨hi, hok, hm, hq, hx⟩ := argvProcess_ok (P := ReplayInv) e
    (fun set cap => replay_preserved set cap os.files) (by
      refine ⟨Nat.le_refl _, (by intro i _ h; cases h), fun _ _ => rfl, (by intro i h; cases h), ?_, ?_⟩
      · rintro _ ⟨h, _⟩; cases h
      · intro i hi
        simp only [ArgvSt.init, ArgEntry.zero]
        rw [hi]
        split <;> simp_all)
  cases h
  rw [checkMand_replay, Bool.and_eq_true] at hm
  rw [checkXor_replay, Bool.or_eq_true] at hx
  have hset : ∀ i, (replayGrid.at i).type = .charP → st.used i = true → IsSet (st.vals i) := by
    intro i h1 h2
    rcases hi.waiting i h1 h2 with h3 | h3
    · exact h3
    · rw [List.drop_eq_nil_of_le hq] at h3; cases h3
  have text : ∀ i, (replayGrid.at i).type = .charP → (replayGrid.at i).array = false → st.used i = true →
      (st.vals i).toStr ≠ none := by
    intro i h1 h2 h3
    have h4 := hi.shape i h1
    rw [h2] at h4
    obtain ⟨s, h4⟩ := h4
    rcases hset i h1 h3 with h5 | h5
    · exact h5
    · rw [h4] at h5; exact absurd rfl h5
  have none_ : ∀ i, (replayGrid.at i).zero = .str none → ¬ st.used i = true → (st.vals i).toStr = none := by
    intro i h1 h2
    rw [hi.unused i (by simpa using h2), h1]
    rfl
  refine ⟨⟨text 1 rfl rfl hm.1, ?_⟩, ?_⟩
  · by_cases h2 : st.used 2 = true
    · left
      exact ⟨text 2 rfl rfl h2, none_ 4 rfl (fun h4 => hi.one hok ⟨h2, h4⟩)⟩
    · right
      exact ⟨none_ 2 rfl h2, text 4 rfl rfl (hx.resolve_left h2)⟩
  · have h4 := hi.shape 6 rfl
    obtain ⟨l, h4⟩ := h4
    rcases hset 6 rfl hm.2 with h5 | h5
    · rw [h4] at h5; exact absurd rfl h5
    · exact h5

/-- **C90**, consequence: fstrm_replay does not use an option that was not given, whatever the arguments
are. (`strlen` in fstrm_replay.c:125 and `strtoul` in line 169 would be called with NULL.) -/
theorem replay_null_free (fuel : Nat) (os : ArgvOs) (argv : List Bytes) (o : ReplayOpts)
    (files : List Bytes) (h : replayOptions fuel os argv = .ok (o, files))
    (pton : Family → Bytes → Option Bytes) (sock : Sock) :
    (∃ r, o.parse = .ok r) ∧ ∀ ct, o.parse = .ok (some ct) → ∃ r, o.target pton ct sock = .ok r := by
  obtain ⟨⟨ht, hone⟩, _⟩ := replay_accepts fuel os argv o files h
  obtain ⟨ct, hct⟩ := Option.ne_none_iff_exists'.1 ht
  constructor
  · unfold ReplayOpts.parse
    rw [hct]
    split
    · exact ⟨_, rfl⟩
    · split <;> exact ⟨_, rfl⟩
  · intro ct' hp
    unfold ReplayOpts.target
    dsimp only
    split
    · exact ⟨_, rfl⟩
    · rcases hone with ⟨hu, _⟩ | ⟨hu, htcp⟩
      · obtain ⟨p, hp⟩ := Option.ne_none_iff_exists'.1 hu
        rw [hp]
        exact ⟨_, rfl⟩
      · obtain ⟨a, ha⟩ := Option.ne_none_iff_exists'.1 htcp
        have hport : o.port ≠ none := by
          intro hn
          unfold ReplayOpts.parse at hp
          split at hp
          · cases hp
          · rw [ha, hn] at hp
            simp at hp
        obtain ⟨p, hport⟩ := Option.ne_none_iff_exists'.1 hport
        rw [hu, ha, hport]
        dsimp only
        split
        · exact ⟨_, rfl⟩
        · split <;> exact ⟨_, rfl⟩

/-- A command line with arguments from the environment and from a file, which is accepted. -/
def trickyOs : ArgvOs where
  getenv name := if name = txt ['A', 'R', 'G', 'V', '_', 'P'] then some (txt ['-', 't', 'u', ' ', 'a']) else none
  files name := if name = txt ['f'] then some (txt ['-', '-', 'r', '=', 'x', '\n', '\n', '-', 'r']) else none
  stdin := []

/-- The hypotheses of `replay_accepts` are met by `p s --argv-file f -- y` with `ARGV_P="-tu a"` and a file
`f` with the lines `--r=x`, an empty one and `-r`. -/
example : (replayOptions 5 trickyOs [txt ['x', '/', 'p'], txt ['s'], txt ['-', '-', 'a', 'r', 'g', 'v', '-', 'f', 'i', 'l', 'e'],
      txt ['f'], txt ['-', '-'], txt ['y']]).map (fun r => (r.1.contentType, r.1.unix, r.2)) =
    .ok (some [97], some [115], [[120], [121]]) := by decide +kernel

/-! ## Arguments from the environment -/

/-- An environment without one of its variables. -/
def without (os : ArgvOs) (name : Bytes) : ArgvOs :=
  ⟨fun n => if n = name then none else os.getenv n, os.files, os.stdin⟩

theorem loop_append (c : ArgvCtx) (nested : List Bytes → ArgvSt → Cmd ArgvSt) (a b : List Bytes)
    (h : [45, 45] ∉ a) : ∀ st, c.loop nested false (a ++ b) st =
      (c.loop nested false a st).bind (c.loop nested false b) := by
  induction a with
  | nil => intro st; rfl
  | cons x a ih =>
    intro st
    simp only [List.mem_cons, not_or] at h
    rw [List.cons_append, loop_cons, loop_cons, if_neg (fun h' => h.1 h'.1.symm),
      if_neg (fun h' => h.1 h'.1.symm)]
    cases c.one nested false x st with
    | error e => rfl
    | ok st => exact ih h.2 st

theorem env_tokens (g : Grid) (hg : g = captureGrid ∨ g = replayGrid) (fuel : Nat) (os os' : ArgvOs)
    (program : Bytes) (args : List Bytes) (v : Bytes)
    (hglobal : os.getenv (asc ['G', 'L', 'O', 'B', 'A', 'L', '_', 'A', 'R', 'G', 'V']) = none)
    (hv : os.getenv (envName (baseName program)) = some v)
    (hos' : os' = without os (envName (baseName program)))
    (hdash : [45, 45] ∉ tokens (asc [' ', '\t']) v) :
    argvProcess fuel g os (program :: args) =
      argvProcess fuel g os' (program :: (tokens (asc [' ', '\t']) v ++ args)) := by
  have hpre : preprocessGo false false none g = true := by rcases hg with rfl | rfl <;> rfl
  rw [argvProcess_eq fuel g os program args hpre hglobal (tokens (asc [' ', '\t']) v) (by rw [hv])]
  rw [argvProcess_eq fuel g os' program _ hpre (by
    rw [hos', without]
    simp only
    split
    · rfl
    · exact hglobal) [] (by rw [hos']; simp [without])]
  have hfiles : os'.files = os.files := by rw [hos']; rfl
  have hstdin : os'.stdin = os.stdin := by rw [hos']; rfl
  rw [hfiles, hstdin]
  have hcap : (tokens (asc [' ', '\t']) v ++ args).length + 1 + ([] : List Bytes).length =
      args.length + 1 + (tokens (asc [' ', '\t']) v).length := by
    simp only [List.length_append, List.length_nil]; omega
  rw [hcap]
  cases fuel with
  | zero => rfl
  | succ n =>
    generalize (⟨g, {}, args.length + 1 + (tokens (asc [' ', '\t']) v).length, os.files⟩ : ArgvCtx) = c
    unfold ArgvCtx.doList
    have hnil : c.loop (c.doList n) false [] (ArgvSt.init g os.stdin) = .ok (ArgvSt.init g os.stdin) := rfl
    rw [hnil]
    simp only [Except.bind]
    rw [loop_append c _ _ args hdash]
    simp only [Except.bind]
    cases c.loop (c.doList n) false (tokens (asc [' ', '\t']) v) (ArgvSt.init g os.stdin) <;> rfl

theorem blank_sep (ch : UInt8) : (asc [' ', '\t']).contains ch = true ↔ blank ch := by
  have : asc [' ', '\t'] = [32, 9] := by decide
  rw [this]
  simp [blank]

theorem tokensGo_word : ∀ (x cur rest : Bytes), (∀ ch ∈ x, ¬ blank ch) →
    tokensGo (asc [' ', '\t']) cur (x ++ rest) = tokensGo (asc [' ', '\t']) (cur ++ x) rest := by
  intro x
  induction x with
  | nil => intro cur rest _; simp
  | cons a x ih =>
    intro cur rest h
    rw [List.cons_append]
    rw [tokensGo, if_neg (by rw [blank_sep]; exact h a (by simp)), ih _ _ (fun ch hc => h ch (by simp [hc]))]
    simp

theorem tokensGo_blank : ∀ (b rest : Bytes), (∀ ch ∈ b, blank ch) →
    tokensGo (asc [' ', '\t']) [] (b ++ rest) = tokensGo (asc [' ', '\t']) [] rest := by
  intro b
  induction b with
  | nil => intro rest _; rfl
  | cons a b ih =>
    intro rest h
    rw [List.cons_append, tokensGo, if_pos ((blank_sep a).2 (h a (by simp))), if_pos rfl]
    exact ih rest fun ch hc => h ch (by simp [hc])

/-- The program finds the words of a text. -/
theorem tokens_words {v : Bytes} {ws : List Bytes} (h : Words v ws) : tokens (asc [' ', '\t']) v = ws := by
  unfold tokens
  induction h with
  | none b hb =>
    have := tokensGo_blank b [] hb
    rw [List.append_nil] at this
    rw [this]; rfl
  | word b w rest ws hb hw hn hr h ih =>
    rw [List.append_assoc, tokensGo_blank b _ hb, tokensGo_word _ _ _ hn, List.nil_append]
    rcases hr with rfl | ⟨ch, r, hc, rfl⟩
    · rw [tokensGo, if_neg hw]
      rw [tokensGo, if_pos rfl] at ih
      rw [ih]
    · rw [tokensGo, if_pos ((blank_sep ch).2 hc), if_neg hw]
      rw [tokensGo, if_pos ((blank_sep ch).2 hc), if_pos rfl] at ih
      rw [ih]

/-- Every text has words. -/
theorem words_exist (v : Bytes) : ∃ ws, Words v ws := by
  have key : ∀ n (v : Bytes), v.length ≤ n → ∃ ws, Words v ws := by
    intro n
    induction n with
    | zero =>
      intro v hv
      have : v = [] := List.length_eq_zero_iff.1 (by omega)
      subst this
      exact ⟨[], .none [] (by simp)⟩
    | succ n ih =>
      intro v hv
      have h1 := List.takeWhile_append_dropWhile (p := (asc [' ', '\t']).contains) (l := v)
      generalize hb : v.takeWhile (asc [' ', '\t']).contains = b at h1
      generalize hr : v.dropWhile (asc [' ', '\t']).contains = r at h1
      have hbb : ∀ ch ∈ b, blank ch := by
        intro ch hc
        rw [← hb] at hc
        exact (blank_sep ch).1 (List.all_eq_true.1 List.all_takeWhile ch hc)
      have h2 := List.takeWhile_append_dropWhile (p := fun c => !(asc [' ', '\t']).contains c) (l := r)
      generalize hw : r.takeWhile (fun c => !(asc [' ', '\t']).contains c) = w at h2
      generalize hq : r.dropWhile (fun c => !(asc [' ', '\t']).contains c) = q at h2
      have hww : ∀ ch ∈ w, ¬ blank ch := by
        intro ch hc hbl
        rw [← hw] at hc
        have := List.all_eq_true.1 List.all_takeWhile ch hc
        rw [(blank_sep ch).2 hbl] at this
        cases this
      cases r with
      | nil => exact ⟨[], by rw [← h1, List.append_nil]; exact .none b hbb⟩
      | cons a r' =>
        have ha : (asc [' ', '\t']).contains a = false := by
          have := List.head?_dropWhile_not (asc [' ', '\t']).contains v
          rw [hr] at this
          simpa using this
        have hw0 : w ≠ [] := by
          intro h0
          rw [h0] at hw
          rw [List.takeWhile_cons, ha] at hw
          cases hw
        have hlen : q.length ≤ n := by
          have e1 : v.length = b.length + (a :: r').length := by rw [← h1]; simp
          have e2 : (a :: r').length = w.length + q.length := by rw [← h2]; simp
          have : 0 < w.length := List.length_pos_iff.2 hw0
          omega
        obtain ⟨ws, hws⟩ := ih q hlen
        refine ⟨w :: ws, ?_⟩
        have hv' : v = b ++ w ++ q := by rw [← h1, ← h2, List.append_assoc]
        rw [hv']
        refine .word b w q ws hbb hw0 hww ?_ hws
        cases q with
        | nil => exact Or.inl rfl
        | cons c q' =>
          refine Or.inr ⟨c, q', ?_, rfl⟩
          have := List.head?_dropWhile_not (fun c => !(asc [' ', '\t']).contains c) (a :: r')
          rw [hq] at this
          exact (blank_sep c).1 (by simpa using this)
  exact key _ v (Nat.le_refl _)

/-- The name of the variable. -/
theorem envName_variable (dir name : Bytes) (hd : dir = [] ∨ ∃ d, dir = d ++ [47]) (hn : 47 ∉ name)
    (hlen : name.length ≤ 256) : envName (baseName (dir ++ name)) = argvVariable name := by
  have hb : baseName (dir ++ name) = name := by
    unfold baseName
    have hne : ∀ ch ∈ name.reverse, (ch != 47) = true := by
      intro ch hc
      simp only [bne_iff_ne, ne_eq]
      rintro rfl
      exact hn (List.mem_reverse.1 hc)
    rw [List.reverse_append, List.takeWhile_append_of_pos hne]
    rcases hd with rfl | ⟨d, rfl⟩
    · simp
    · simp
  rw [hb]
  unfold envName argvVariable
  rw [List.take_of_length_le hlen, List.map_append]
  congr 1
  apply List.map_congr_left
  intro ch _
  unfold upper
  have e : (97 ≤ ch ∧ ch ≤ 122) ↔ (97 ≤ ch.toNat ∧ ch.toNat ≤ 122) := by
    rw [UInt8.le_iff_toNat_le, UInt8.le_iff_toNat_le]; rfl
  by_cases h : 97 ≤ ch ∧ ch ≤ 122
  · rw [if_pos h, if_pos (e.1 h)]
    apply UInt8.toNat.inj
    rw [UInt8.toNat_sub_of_le _ _ (by rw [UInt8.le_iff_toNat_le]; have := (e.1 h).1; show 32 ≤ _; omega)]
    have := ch.toNat_lt
    show ch.toNat - 32 = (ch.toNat - 32) % 256
    omega
  · rw [if_neg h, if_neg (fun h' => h (e.2 h'))]

/-- **C91**: the words in the environment variable named after the program (`ARGV_FSTRM_REPLAY` for
`fstrm_replay`, in whatever directory it is) count as if they had been given first on the command line,
unless one of them is `--` or `GLOBAL_ARGV` is set. `os'` is the same environment without that
variable. This holds for the options of both programs. -/
theorem env_arguments (g : Grid) (hg : g = captureGrid ∨ g = replayGrid) (fuel : Nat) (os os' : ArgvOs)
    (dir name : Bytes) (hd : dir = [] ∨ ∃ d, dir = d ++ [47]) (hn : 47 ∉ name)
    (hlen : name.length ≤ 256) (args : List Bytes) (v : Bytes) (ws : List Bytes)
    (hglobal : os.getenv (asc ['G', 'L', 'O', 'B', 'A', 'L', '_', 'A', 'R', 'G', 'V']) = none)
    (hv : os.getenv (argvVariable name) = some v) (hw : Words v ws)
    (hos' : os' = without os (argvVariable name)) (hdash : [45, 45] ∉ ws) :
    argvProcess fuel g os ((dir ++ name) :: args) =
      argvProcess fuel g os' ((dir ++ name) :: (ws ++ args)) := by
  rw [← tokens_words hw] at hdash ⊢
  rw [← envName_variable dir name hd hn hlen] at hv hos'
  exact env_tokens g hg fuel os os' (dir ++ name) args v hglobal hv hos' hdash

/-- The hypotheses of `env_arguments` are met by `ARGV_P="-tu a"` for the program `x/p`. -/
example : txt ['x', '/', 'p'] = txt ['x', '/'] ++ txt ['p'] ∧
    trickyOs.getenv (argvVariable (txt ['p'])) = some (txt ['-', 't', 'u', ' ', 'a']) ∧
    Words (txt ['-', 't', 'u', ' ', 'a']) [txt ['-', 't', 'u'], txt ['a']] := by
  refine ⟨by decide +kernel, by decide +kernel, ?_⟩
  exact .word [] (txt ['-', 't', 'u']) (txt [' ', 'a']) _ (by simp) (by decide)
    (by unfold blank; decide) (Or.inr ⟨32, _, Or.inl rfl, rfl⟩)
    (.word (txt [' ']) (txt ['a']) [] _ (by unfold blank; decide) (by decide) (by unfold blank; decide) (Or.inl rfl)
      (.none [] (by simp)))

/-- The variable is `ARGV_FSTRM_REPLAY`, wherever the program is. -/
example : envName (baseName (txt ['/', 'b', 'i', 'n', '/', 'f', 's', 't', 'r', 'm', '_', 'r', 'e', 'p', 'l', 'a', 'y'])) =
    txt ['A', 'R', 'G', 'V', '_', 'F', 'S', 'T', 'R', 'M', '_', 'R', 'E', 'P', 'L', 'A', 'Y'] := by decide +kernel

end Fstrm.Props
