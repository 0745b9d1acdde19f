import Verif.Model.ReplayMain

/-!
# Model of the command line of `fstrm_capture` and `fstrm_replay`: `/repo/libmy/argv.c`

Line numbers without a file name refer to that file. Strings are their characters without the
terminator. Only the types of variable that the two programs use are modelled (`bool`, `int`,
counter, string, array of strings), and the library as they use it: interactive, with an error
stream. Messages are left out, and so is the memory of the copied strings (allocation is
assumed to succeed).
-/

set_option autoImplicit false

namespace Fstrm

/-- Characters of a program text as bytes. String constants of argv.c. -/
def asc (l : List Char) : Bytes := l.map fun c => UInt8.ofNat c.toNat

/-- The type of the variable of an option, argv.h:153-178 (`ARGV_TYPE`); `none` is 0, the type of an
entry that is no option. -/
inductive ArgType where
  | none | bool | charP | int | incr
  deriving DecidableEq, Repr

/-- `argv_t`, argv.h:79-86, without the variable, the names for messages and the `USED` flag: the
variables and flags are in `ArgvSt`, by the position of the entry. `array` is `ARGV_FLAG_ARRAY`, `mand`
is `ARGV_FLAG_MAND`. -/
structure ArgEntry where
  short : UInt8
  long : Option Bytes
  type : ArgType
  array : Bool := false
  mand : Bool := false
  deriving DecidableEq, Repr

/-- `ARGV_LAST`, argv.h:115. -/
def ARGV_LAST : UInt8 := 255
/-- `ARGV_MAND`, argv.h:123. -/
def ARGV_MAND : UInt8 := 254
/-- `ARGV_MAYBE`, argv.h:129. -/
def ARGV_MAYBE : UInt8 := 253
/-- `ARGV_OR`, argv.h:137. -/
def ARGV_OR : UInt8 := 252
/-- `ARGV_XOR` and `ARGV_ONE_OF`, argv.h:146-147. -/
def ARGV_XOR : UInt8 := 251

/-- The array of options without its last entry, `ARGV_LAST`.
argv.h:79-86, 115; the arrays end at fstrm_capture.c:214 and fstrm_replay.c:98. -/
abbrev Grid := List ArgEntry

/-- The entry at a position; behind the options is the entry `ARGV_LAST`. (Only the position directly
behind the options is read this way.) argv.h:115. -/
def Grid.at (g : Grid) (i : Nat) : ArgEntry := g.getD i ⟨ARGV_LAST, none, .none, false, false⟩

/-- The value of a variable. `ar_variable`, argv.h:83. -/
inductive ArgVal where
  | bool (b : Bool)
  | int (i : Int)
  | str (s : Option Bytes)
  | arr (l : List Bytes)
  deriving DecidableEq, Repr

/-- Reading a variable of type `bool`. argv.h:83; fstrm_capture.c:123-139. -/
def ArgVal.toBool : ArgVal → Bool
  | .bool b => b
  | _ => false
/-- Reading a variable of type `int`. argv.h:83; fstrm_capture.c:123-139. -/
def ArgVal.toInt : ArgVal → Int
  | .int i => i
  | _ => 0
/-- Reading a variable of type `char *`. argv.h:83; fstrm_capture.c:123-139. -/
def ArgVal.toStr : ArgVal → Option Bytes
  | .str s => s
  | _ => none
/-- Reading a variable of type `argv_array_t`. argv.h:98-101; fstrm_replay.c:44-51. -/
def ArgVal.toArr : ArgVal → List Bytes
  | .arr l => l
  | _ => []

/-- The variables are static and initially zero (fstrm_capture.c:139, fstrm_replay.c:54). -/
def ArgEntry.zero (e : ArgEntry) : ArgVal :=
  match e.type with
  | .none => .str none
  | .bool => .bool false
  | .charP => if e.array then .arr [] else .str none
  | .int => .int 0
  | .incr => .int 0

/-- How processing stops: the program exits, or something undefined happens.
`exit` at argv.c:2188-2697, 3140-3246. -/
inductive ArgvStop where
  | exit (status : Nat)
  | stuck (s : Stuck)
  deriving DecidableEq, Repr

/-- Results of processing. argv.c:3119-3252. -/
abbrev Cmd (α : Type) := Except ArgvStop α

/-- Undefined behaviour. The outcomes of argv.c:3119-3252 that have no meaning in C. -/
def Cmd.ub {α : Type} (why : String) : Cmd α := .error (.stuck (.ub why))

/-- The settings that the environment variable `GLOBAL_ARGV` can change, lines 83-138 (those about
messages left out). -/
structure ArgvSettings where
  close : Bool := true
  lastToggle : Bool := false
  multiAccept : Bool := true
  processEnv : Bool := true
  envAfter : Bool := false
  deriving DecidableEq, Repr

/-- What `do_list` works with: the options, the settings, the number of elements of `queue_list` and
the files that can be read. Arguments of argv.c:2435-2438. -/
structure ArgvCtx where
  grid : Grid
  set : ArgvSettings
  cap : Nat
  files : Bytes → Option Bytes

/-- What `do_list` changes: the `USED` flags, the variables, `queue_list[0 .. queue_head)` (positions in
the array of options; `none` is NULL, for `--argv-file`), `queue_tail` and `okay_b`. `pastEnd`
remembers that memory behind the array of options has been read; `stdin` is what can still be
read from standard input. Arguments of argv.c:2435-2438. -/
structure ArgvSt where
  used : Nat → Bool
  vals : Nat → ArgVal
  queue : List (Option Nat)
  tail : Nat
  ok : Bool
  pastEnd : Bool
  stdin : Bytes

/-- `okay_b = ARGV_FALSE`. argv.c:2181, 2319, 2490, 2641, 3226 and others. -/
def ArgvSt.bad (st : ArgvSt) : ArgvSt := { st with ok := false }

/-- The C library's `atoi` (C11 7.22.1.2): white space, an optional sign, decimal digits; the rest of the
string is ignored. "If the value of the result cannot be represented, the behavior is undefined."
Called at argv.c:1306-1318, 1355. -/
def atoi (s : Bytes) : Cmd Int :=
  let (neg, s) := strtoulSign (s.dropWhile isSpace)
  let n := (digits 10 0 s).1
  let v : Int := if neg then -(n : Int) else n
  if v < -2147483648 ∨ v > 2147483647 then Cmd.ub "atoi out of range" else .ok v

/-- `string_to_value`, lines 1199-1463, for the modelled types; `none` is the result ERROR, for a type
that does not exist (lines 1208-1221). Arrays (lines 1223-1249) are modelled for strings only. -/
def stringToValue (arg : Option Bytes) (e : ArgEntry) (v : ArgVal) : Cmd (Option ArgVal) :=
  match e.type with
  | .none => .ok none
  | .bool =>
    match arg with
    | none => .ok (some (.bool true))
    | some a => .ok (some (.bool (a.head?.any fun c => asc ['t', 'T', 'y', 'Y', '1'] |>.contains c)))
  | .charP =>
    match arg with
    | none => Cmd.ub "copy of NULL"
    | some a => .ok (some (if e.array then .arr (v.toArr ++ [a]) else .str (some a)))
  | .int =>
    match arg with
    | none => Cmd.ub "atoi of NULL"
    | some a => do let i ← atoi a; .ok (some (.int i))
  | .incr =>
    match arg with
    | none =>
      if v.toInt ≥ 2147483647 then Cmd.ub "signed overflow" else .ok (some (.int (v.toInt + 1)))
    | some a => do let i ← atoi a; .ok (some (.int i))

/-- `string_to_value` for the variable of option `i`, with the check of its result as at lines
2346-2349 and 2779-2782. -/
def ArgvSt.store (st : ArgvSt) (g : Grid) (i : Nat) (arg : Option Bytes) : Cmd ArgvSt := do
  match ← stringToValue arg (g.at i) (st.vals i) with
  | some v => .ok { st with vals := fun j => if j = i then v else st.vals j }
  | none => .ok st.bad

/-- `ARGV_OR` or `ARGV_XOR`. argv.h:137, 147. -/
def ArgEntry.isOr (e : ArgEntry) : Bool := e.short == ARGV_OR || e.short == ARGV_XOR

/-- `check_or`, the loop below, lines 1868-1877: whether an alternative before option `i` is used.
(That the pointer may be moved before the array is not treated as undefined.) -/
def checkOrBelow (g : Grid) (used : Nat → Bool) : Nat → Bool
  | 0 => false
  | 1 => false
  | i + 2 => if !(g.at (i + 1)).isOr then false else used i || checkOrBelow g used i

/-- `check_or`, the loop above, lines 1882-1894, from option `i` on: whether an alternative behind it
is used, and whether memory behind the array has been read. If `i` is the last option, `arg_p` in
line 1883 points behind `ARGV_LAST`; whatever is found there, the loop ends, as line 1884 finds
`ARGV_LAST`. `n` bounds the number of rounds. -/
def checkOrAbove (g : Grid) (used : Nat → Bool) : Nat → Nat → Bool × Bool
  | 0, _ => (false, false)
  | n + 1, i =>
    if i + 1 ≥ g.length then (false, true)
    else if (g.at (i + 2)).short = ARGV_LAST then (false, false)
    else if !(g.at (i + 1)).isOr then (false, false)
    else if used (i + 2) then (true, false)
    else checkOrAbove g used n (i + 2)

/-- `check_or`, lines 1863-1931; the first component: ERROR; the second: memory behind the array has been
read. -/
def checkOr (g : Grid) (used : Nat → Bool) (i : Nat) : Bool × Bool :=
  if checkOrBelow g used i then (true, false) else checkOrAbove g used g.length i

/-- `HAS_ARG`, argv_loc.h:149-153. -/
def ArgType.hasArg : ArgType → Bool
  | .bool => false
  | .incr => false
  | _ => true

/-- `queue_list[*queue_head_p] = …; (*queue_head_p)++;`, lines 2359-2360 and 2544-2545. -/
def ArgvSt.enqueue (st : ArgvSt) (cap : Nat) (x : Option Nat) : Cmd ArgvSt :=
  if st.queue.length < cap then .ok { st with queue := st.queue ++ [x] }
  else Cmd.ub "write behind queue_list"

/-- `do_arg`, lines 2302-2362, for option `i`. -/
def ArgvCtx.doArg (c : ArgvCtx) (i : Nat) (close : Option Bytes) (st : ArgvSt) : Cmd ArgvSt :=
  let e := c.grid.at i
  let st := if !c.set.multiAccept && (st.used i && !e.array && e.type != .incr) then st.bad else st
  let st := { st with used := fun j => if j = i then true else st.used j }
  let (err, past) := checkOr c.grid st.used i
  let st := { st with ok := st.ok && !err, pastEnd := st.pastEnd || past }
  if c.set.close && close.isSome then st.store c.grid i close
  else if !e.type.hasArg then st.store c.grid i none
  else st.enqueue c.cap (some i)

/-- `is_number`, lines 2382-2402. -/
def isNumber (s : Bytes) : Bool :=
  s != [] && s.all fun ch => (asc ['0','1','2','3','4','5','6','7','8','9','+','-','.']).contains ch

/-- The search for `=`, lines 2472-2480 and 2656-2664: the name and the value. -/
def ArgvCtx.splitClose (c : ArgvCtx) (arg : Bytes) : Bytes × Option Bytes :=
  if c.set.close then
    (arg.takeWhile (· != 61), if arg.contains 61 then some (arg.dropWhile (· != 61)).tail else none)
  else (arg, none)

/-- The options with a long name that starts with `name`, lines 2498-2521 (`strncmp` over the length of
`name`). -/
def Grid.matchLong (g : Grid) (name : Bytes) : List Nat :=
  (List.range g.length).filter fun i => (g.at i).long.any (name.isPrefixOf ·)

/-- Lines 2183-2231: `fgets` into a buffer of 1024 bytes takes a line, or 1023 bytes of it; what
follows a zero byte is lost, and empty lines are skipped. `n` bounds the number of calls. -/
def fileLines : Nat → Bytes → List Bytes
  | 0, _ => []
  | _, [] => []
  | n + 1, s =>
    let s1 := s.take 1023
    let chunk := s1.takeWhile (· != 10) ++ (s1.dropWhile (· != 10)).take 1
    let line := chunk.takeWhile fun ch => ch != 10 && ch != 0
    if line = [] then fileLines n (s.drop chunk.length)
    else line :: fileLines n (s.drop chunk.length)

/-- `file_args`, lines 2164-2270; `nested` is `do_list`. -/
def ArgvCtx.fileArgs (c : ArgvCtx) (nested : List Bytes → ArgvSt → Cmd ArgvSt) (path : Bytes)
    (st : ArgvSt) : Cmd ArgvSt :=
  if path = [45] then nested (fileLines (st.stdin.length + 1) st.stdin) { st with stdin := [] }
  else
    match c.files path with
    | none => .error (.exit 1)
    | some content => nested (fileLines (content.length + 1) content) st

/-- `FILE_ARG`, argv_loc.h:119. -/
def FILE_ARG : Bytes := asc ['a', 'r', 'g', 'v', '-', 'f', 'i', 'l', 'e']

/-- The options that print something and exit, argv_loc.h:118-125, in the order of lines 2549-2638. -/
def EXIT_ARGS : List Bytes := [
  asc ['u', 's', 'a', 'g', 'e'],
  asc ['h', 'e', 'l', 'p'],
  asc ['u', 's', 'a', 'g', 'e', '-', 's', 'h', 'o', 'r', 't'],
  asc ['u', 's', 'a', 'g', 'e', '-', 'l', 'o', 'n', 'g'],
  asc ['u', 's', 'a', 'g', 'e', '-', 'a', 'l', 'l'],
  asc ['v', 'e', 'r', 's', 'i', 'o', 'n'],
  asc ['a', 'r', 'g', 'v', '-', 'd', 'i', 's', 'p', 'l', 'a', 'y']]

/-- A long option, lines 2465-2646. -/
def ArgvCtx.doLong (c : ArgvCtx) (nested : List Bytes → ArgvSt → Cmd ArgvSt) (arg : Bytes)
    (st : ArgvSt) : Cmd ArgvSt :=
  let (arg, close) := c.splitClose arg
  let name := arg.drop 2
  if name = [] then .ok st.bad
  else
    match c.grid.matchLong name with
    | _ :: _ :: _ => .ok st.bad
    | [i] => c.doArg i close st
    | [] =>
      if name.isPrefixOf FILE_ARG then
        match close with
        | some path => c.fileArgs nested path st
        | none => st.enqueue c.cap none
      else if EXIT_ARGS.any (name.isPrefixOf ·) then .error (.exit 0)
      else .ok st.bad

/-- The characters of a short option, lines 2679-2752; `first`: this is the first one; `arg` is the whole
argument. -/
def ArgvCtx.doChars (c : ArgvCtx) (arg : Bytes) (close : Option Bytes) :
    Bool → Bytes → ArgvSt → Cmd ArgvSt
  | _, [], st => .ok st
  | first, ch :: cs, st =>
    match c.grid.findIdx? (·.short == ch) with
    | some i => do
      let st ← c.doArg i close st
      c.doChars arg close false cs st
    | none =>
      if ch = 63 then .error (.exit 0)
      else if first && isNumber arg && decide (st.tail < st.queue.length) then
        match st.queue.getD st.tail none with
        | none => Cmd.ub "NULL dereference"
        | some i =>
          if (c.grid.at i).type = .int then do
            let st ← st.store c.grid i (some arg)
            .ok { st with tail := st.tail + 1 }
          else c.doChars arg close false cs st.bad
      else c.doChars arg close false cs st.bad

/-- A short option, lines 2648-2755. -/
def ArgvCtx.doShort (c : ArgvCtx) (arg : Bytes) (st : ArgvSt) : Cmd ArgvSt :=
  let (arg, close) := c.splitClose arg
  if arg.drop 1 = [] then .ok st.bad
  else c.doChars arg close true (arg.drop 1) st

/-- The next option of kind `kind` that can still take an argument, lines 2788-2794 and 2805-2811. -/
def Grid.positional (g : Grid) (used : Nat → Bool) (kind : UInt8) : Option Nat :=
  (List.range g.length).find? fun i => (g.at i).short == kind && (!used i || (g.at i).array)

/-- Anything else, lines 2757-2825. -/
def ArgvCtx.doValue (c : ArgvCtx) (nested : List Bytes → ArgvSt → Cmd ArgvSt) (arg : Bytes)
    (st : ArgvSt) : Cmd ArgvSt :=
  if c.grid ≠ [] ∧ st.tail < st.queue.length then
    let x := st.queue.getD st.tail none
    let st := { st with tail := st.tail + 1 }
    match x with
    | none => c.fileArgs nested arg st
    | some i => st.store c.grid i (some arg)
  else
    match (c.grid.positional st.used ARGV_MAND).or (c.grid.positional st.used ARGV_MAYBE) with
    | some i => do
      let st ← st.store c.grid i (some arg)
      .ok { st with used := fun j => if j = i then true else st.used j }
    | none => .ok st.bad

/-- One argument in `do_list`, lines 2465-2825: a long option, a short option or anything else; `last` is
`last_arg_b`. -/
def ArgvCtx.one (c : ArgvCtx) (nested : List Bytes → ArgvSt → Cmd ArgvSt) (last : Bool) (arg : Bytes)
    (st : ArgvSt) : Cmd ArgvSt :=
  if !last && [45, 45].isPrefixOf arg then c.doLong nested arg st
  else if !last && [45].isPrefixOf arg && arg.length != 1 then c.doShort arg st
  else c.doValue nested arg st

/-- The loop of `do_list`, lines 2435-2833, with `last_arg_b`. -/
def ArgvCtx.loop (c : ArgvCtx) (nested : List Bytes → ArgvSt → Cmd ArgvSt) :
    Bool → List Bytes → ArgvSt → Cmd ArgvSt
  | _, [], st => .ok st
  | last, arg :: args, st =>
    if arg = [45, 45] ∧ (!last || c.set.lastToggle) then c.loop nested (!last) args st
    else do
      let st ← c.one nested last arg st
      c.loop nested last args st

/-- `do_list`, lines 2435-2833; files may name further files, which `fuel` bounds. -/
def ArgvCtx.doList (c : ArgvCtx) : Nat → List Bytes → ArgvSt → Cmd ArgvSt
  | 0, _, _ => .error (.stuck .fuel)
  | fuel + 1, args, st => c.loop (c.doList fuel) false args st

/-- `check_mand`, lines 2047-2096: whether everything mandatory is used. -/
def checkMand (g : Grid) (used : Nat → Bool) : Bool :=
  (List.range g.length).all fun i => !((g.at i).short == ARGV_MAND || (g.at i).mand) || used i

/-- Where the loops of `check_xor` are: looking for an `ARGV_XOR`; at an alternative; behind one. The
flag: one of the alternatives so far is used. argv.c:1954-2037. -/
inductive XorMode where
  | outer (prev : Bool) | at (seen : Bool) | behind (seen : Bool)

/-- The loops of `check_xor`, lines 1959-1990: whether one of the alternatives is used, in each group. The
list consists of the first members and the `USED` flags of the options. -/
def checkXorGo : XorMode → List (UInt8 × Bool) → Bool
  | .outer _, [] => true
  | .outer prev, (s, u) :: l => if s ≠ ARGV_XOR then checkXorGo (.outer u) l else checkXorGo (.at prev) l
  | .at seen, [] => seen
  | .at seen, (_, u) :: l => checkXorGo (.behind (seen || u)) l
  | .behind seen, [] => seen
  | .behind seen, (s, u) :: l =>
    if s = ARGV_XOR then checkXorGo (.at seen) l else if seen then checkXorGo (.outer u) l else false

/-- `check_xor`, lines 1954-2026. -/
def checkXor (g : Grid) (used : Nat → Bool) : Bool :=
  checkXorGo (.outer false) ((List.range g.length).map fun i => ((g.at i).short, used i))

/-- `preprocess_array`, lines 1036-1176: whether the array of options is acceptable. An option without
type has no variable. The first two flags are `mand_array_b` and `maybe_field_b`, then the
character before; `rest` is what follows. -/
def preprocessGo : Bool → Bool → Option UInt8 → Grid → Bool
  | _, _, _, [] => true
  | mandArray, maybeField, prev, e :: rest =>
    if e.short = ARGV_MAND ∧ (mandArray ∨ maybeField) then false
    else if e.short = ARGV_MAYBE ∧ mandArray then false
    else if e.array ∧ (!e.type.hasArg) then false
    else if e.type = .none ∧ !e.isOr then false
    else if e.isOr ∧ (prev = none ∨ rest = [] ∨ prev = some ARGV_OR ∨ prev = some ARGV_XOR) then false
    else preprocessGo (mandArray || ((e.short == ARGV_MAND || e.short == ARGV_MAYBE) && e.array))
      (maybeField || e.short == ARGV_MAYBE) (some e.short) rest

/-- Splitting at separators, dropping empty parts: `strsep` and the tests for empty tokens, lines
358-419 and 2924-2932. -/
def tokensGo (seps : Bytes) : Bytes → Bytes → List Bytes
  | cur, [] => if cur = [] then [] else [cur]
  | cur, ch :: s =>
    if seps.contains ch then (if cur = [] then tokensGo seps [] s else cur :: tokensGo seps [] s)
    else tokensGo seps (cur ++ [ch]) s

/-- `vectorize`, lines 358-419. -/
def tokens (seps : Bytes) (s : Bytes) : List Bytes := tokensGo seps [] s

/-- "disable", "off", "no" or "0", lines 2937-2940. -/
def OFF : List Bytes := [asc ['d', 'i', 's', 'a', 'b', 'l', 'e'], asc ['o', 'f', 'f'], asc ['n', 'o'],
  asc ['0']]
/-- "enable", "on", "yes" or "1", lines 2943-2946. -/
def ON : List Bytes := [asc ['e', 'n', 'a', 'b', 'l', 'e'], asc ['o', 'n'], asc ['y', 'e', 's'],
  asc ['1']]

/-- One setting, lines 2934-3090; those about messages have no effect here. -/
def ArgvSettings.apply (s : ArgvSettings) (tok : Bytes) : ArgvSettings :=
  let close := asc ['c', 'l', 'o', 's', 'e', '=']
  let lasttog := asc ['l', 'a', 's', 't', 't', 'o', 'g', '=']
  let env := asc ['e', 'n', 'v', '=']
  let multi := asc ['m', 'u', 'l', 't', 'i', '=']
  if close.isPrefixOf tok then
    if OFF.contains (tok.drop close.length) then { s with close := false }
    else if ON.contains (tok.drop close.length) then { s with close := true }
    else s
  else if lasttog.isPrefixOf tok then
    if OFF.contains (tok.drop lasttog.length) then { s with lastToggle := false }
    else if ON.contains (tok.drop lasttog.length) then { s with lastToggle := true }
    else s
  else if env.isPrefixOf tok then
    if tok.drop env.length = asc ['n', 'o', 'n', 'e'] then { s with processEnv := false, envAfter := false }
    else if tok.drop env.length = asc ['b', 'e', 'f', 'o', 'r', 'e'] then
      { s with processEnv := true, envAfter := false }
    else if tok.drop env.length = asc ['a', 'f', 't', 'e', 'r'] then
      { s with processEnv := true, envAfter := true }
    else s
  else if multi.isPrefixOf tok then
    if tok.drop multi.length = asc ['r', 'e', 'j', 'e', 'c', 't'] then { s with multiAccept := false }
    else if tok.drop multi.length = asc ['a', 'c', 'c', 'e', 'p', 't'] then { s with multiAccept := true }
    else s
  else s

/-- `process_env`, lines 2896-3096, with the value of `GLOBAL_ARGV`. -/
def processEnv (val : Option Bytes) : ArgvSettings :=
  match val with
  | none => {}
  | some v => (tokens (asc [' ', '\t', ',', ':']) v).foldl ArgvSettings.apply {}

/-- What the operating system provides: environment variables, files and standard input.
`getenv`, argv.c:2861, 2910; `fopen`, argv.c:2178. -/
structure ArgvOs where
  getenv : Bytes → Option Bytes
  files : Bytes → Option Bytes
  stdin : Bytes

/-- `GLOBAL_NAME`, argv_loc.h:95. -/
def GLOBAL_NAME : Bytes := asc ['G', 'L', 'O', 'B', 'A', 'L', '_', 'A', 'R', 'G', 'V']

/-- The part of a path behind the last slash, lines 3157-3169. -/
def baseName (path : Bytes) : Bytes := (path.reverse.takeWhile (· != 47)).reverse

/-- The name of the environment variable with further arguments, lines 2848-2859: `ARGV_` and the
name of the program (at most 256 characters of it, line 3172) in upper case. -/
def envName (program : Bytes) : Bytes :=
  (asc ['A', 'R', 'G', 'V', '_'] ++ program.take 256).map fun ch =>
    if 97 ≤ ch ∧ ch ≤ 122 then ch - 32 else ch

/-- The arguments from the environment, lines 3199-3205 and 3212-3218, which are processed before or after
the others or not at all. -/
def ArgvCtx.doEnv (c : ArgvCtx) (fuel : Nat) (now : Bool) (env : List Bytes) (st : ArgvSt) : Cmd ArgvSt :=
  if now then c.doList fuel env st else .ok st

/-- The state at the start: nothing used (line 1045), the variables zero, the queue empty (lines
3123-3127). -/
def ArgvSt.init (g : Grid) (stdin : Bytes) : ArgvSt :=
  ⟨fun _ => false, fun i => (g.at i).zero, [], 0, true, false, stdin⟩

/-- The checks at the end, lines 3220-3250, with `check_opt`, lines 2113-2130. -/
def ArgvSt.finish (st : ArgvSt) (g : Grid) : Cmd ArgvSt :=
  if (st.ok && checkMand g st.used && decide (st.queue.length ≤ st.tail) && checkXor g st.used) = true
  then .ok st else .error (.exit 1)

/-- `argv_process`, lines 3274-3292, and `argv_process_no_env`, lines 3119-3251, with the arguments `argv`
(the first one is the program's name): the state at the end, if all is well. -/
def argvProcess (fuel : Nat) (g : Grid) (os : ArgvOs) (argv : List Bytes) : Cmd ArgvSt :=
  let set := processEnv (os.getenv GLOBAL_NAME)
  match argv with
  | [] => Cmd.ub "NULL dereference"
  | program :: args =>
    if !preprocessGo false false none g then .error (.exit 1)
    else do
      let env := match os.getenv (envName (baseName program)) with
        | none => []
        | some v => tokens (asc [' ', '\t']) v
      let c : ArgvCtx := ⟨g, set, argv.length + env.length, os.files⟩
      let st ← c.doEnv fuel (set.processEnv && !set.envAfter) env (ArgvSt.init g os.stdin)
      let st ← c.doList fuel args st
      let st ← c.doEnv fuel (set.processEnv && set.envAfter) env st
      st.finish g

/-- The options of fstrm_capture, fstrm_capture.c:141-213. -/
def captureGrid : Grid := [
  ⟨104, asc ['h', 'e', 'l', 'p'], .bool, false, false⟩,
  ⟨100, asc ['d', 'e', 'b', 'u', 'g'], .incr, false, false⟩,
  ⟨116, asc ['t', 'y', 'p', 'e'], .charP, false, false⟩,
  ⟨117, asc ['u', 'n', 'i', 'x'], .charP, false, false⟩,
  ⟨97, asc ['t', 'c', 'p'], .charP, false, false⟩,
  ⟨112, asc ['p', 'o', 'r', 't'], .charP, false, false⟩,
  ⟨98, asc ['b', 'u', 'f', 'f', 'e', 'r', 's', 'i', 'z', 'e'], .int, false, false⟩,
  ⟨99, asc ['m', 'a', 'x', 'c', 'o', 'n', 'n', 's'], .int, false, false⟩,
  ⟨119, asc ['w', 'r', 'i', 't', 'e'], .charP, false, false⟩,
  ⟨115, asc ['s', 'p', 'l', 'i', 't'], .int, false, false⟩,
  ⟨0, asc ['l', 'o', 'c', 'a', 'l', 't', 'i', 'm', 'e'], .bool, false, false⟩,
  ⟨0, asc ['g', 'm', 't', 'i', 'm', 'e'], .bool, false, false⟩]

/-- `g_program_args` of fstrm_capture, fstrm_capture.c:123-136 and 141-213. -/
def ArgvSt.capOpts (st : ArgvSt) : CapOpts where
  help := (st.vals 0).toBool
  contentType := (st.vals 2).toStr
  unix := (st.vals 3).toStr
  tcp := (st.vals 4).toStr
  port := (st.vals 5).toStr
  bufferSize := (st.vals 6).toInt
  countConnections := (st.vals 7).toInt
  write := (st.vals 8).toStr
  split := (st.vals 9).toInt
  localtime := (st.vals 10).toBool
  gmtime := (st.vals 11).toBool

/-- `parse_args` of fstrm_capture up to `argv_process`, fstrm_capture.c:310-316. -/
def captureOptions (fuel : Nat) (os : ArgvOs) (argv : List Bytes) : Cmd CapOpts := do
  let st ← argvProcess fuel captureGrid os argv
  .ok st.capOpts

/-- The options of fstrm_replay, fstrm_replay.c:56-99. -/
def replayGrid : Grid := [
  ⟨104, asc ['h', 'e', 'l', 'p'], .bool, false, false⟩,
  ⟨116, asc ['t', 'y', 'p', 'e'], .charP, false, true⟩,
  ⟨117, asc ['u', 'n', 'i', 'x'], .charP, false, false⟩,
  ⟨ARGV_XOR, none, .none, false, false⟩,
  ⟨97, asc ['t', 'c', 'p'], .charP, false, false⟩,
  ⟨112, asc ['p', 'o', 'r', 't'], .charP, false, false⟩,
  ⟨114, asc ['r', 'e', 'a', 'd', '-', 'f', 'i', 'l', 'e'], .charP, true, true⟩]

/-- `g_program_args` of fstrm_replay, fstrm_replay.c:44-51, without the files. -/
def ArgvSt.replayOpts (st : ArgvSt) : ReplayOpts where
  help := (st.vals 0).toBool
  contentType := (st.vals 1).toStr
  unix := (st.vals 2).toStr
  tcp := (st.vals 4).toStr
  port := (st.vals 5).toStr

/-- `parse_args` of fstrm_replay up to `argv_process`, fstrm_replay.c:111-115: the options, and the files. -/
def replayOptions (fuel : Nat) (os : ArgvOs) (argv : List Bytes) : Cmd (ReplayOpts × List Bytes) := do
  let st ← argvProcess fuel replayGrid os argv
  .ok (st.replayOpts, (st.vals 6).toArr)

/-- How a program ends that does not start its work: it exits with a status, or something undefined
happens. fstrm_capture.c:311-328, fstrm_replay.c:111-126. -/
def Cmd.orExit {α β : Type} (x : Cmd α) (exit : Nat → β) (k : α → Exec β) : Exec β :=
  match x with
  | .ok a => k a
  | .error (.exit status) => .ok (exit status)
  | .error (.stuck s) => .error s

/-- fstrm_capture with its arguments, fstrm_capture.c:1226-1265. The second component of the result is
the exit status if the program exits before it starts. -/
def captureProgram (fuel : Nat) (os : ArgvOs) (e : StartEnv) (env : CapEnv) (argv : List Bytes) :
    Exec (Nat ⊕ (List StartEv × Option Capture)) :=
  (captureOptions fuel os argv).orExit .inl fun o => do
    let r ← captureMain o e env
    .ok (.inr r)

/-- fstrm_replay with its arguments, fstrm_replay.c:267-292. `disk` tells the contents of files and `script`
the outcomes of reading, by the position among the arguments of `-r`. -/
def replayProgram (fuel : Nat) (os : ArgvOs) (pton : Family → Bytes → Option Bytes)
    (disk : Bytes → Option Bytes) (script : Nat → List Io) (sock : Sock) (argv : List Bytes) :
    Exec (Nat ⊕ (Option Listen × ReplayOut Sock)) :=
  (replayOptions fuel os argv).orExit .inl fun o => do
    let files := o.2.mapIdx fun k name =>
      (⟨if name = [45] then .dash else .file, disk name, script k⟩ : ReplayFile)
    let r ← replayMain fuel o.1 pton files sock
    .ok (.inr r)

end Fstrm
