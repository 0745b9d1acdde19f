import Verif.Model.ReplayMain
import Verif.Spec.Numeral

/-!
# What the command lines of fstrm_capture and fstrm_replay mean

After the manual pages `/repo/man/fstrm_capture.1` and `/repo/man/fstrm_replay.1`: each option has a name
and usually a letter; those with a value take it from the same argument (`-t=x`, `--type=x`) or from
the next one (`-t x`, `--type x`); names may be abbreviated (the manual writes `--read` for
`--read-file`). Independent of the model of the parser.
-/

set_option autoImplicit false

namespace Fstrm.Spec

/-- What an option is for: to be given or not, to be given several times, a text, a number, or
a text each time it is given. -/
inductive Kind where
  | flag | count | text | number | texts
  deriving DecidableEq, Repr

/-- Options with a value. -/
def Kind.valued : Kind → Bool
  | .flag => false
  | .count => false
  | _ => true

/-- The options of a program. -/
structure Manual (ι : Type) where
  letter : ι → Option Char
  name : ι → List Char
  kind : ι → Kind

/-- The byte of a character. -/
def byteOf (c : Char) : UInt8 := UInt8.ofNat c.toNat

/-- The bytes of a name. -/
def Manual.nameBytes {ι : Type} (m : Manual ι) (o : ι) : List UInt8 := (m.name o).map byteOf

/-- An option by its letter, or by the first `n` characters of its name. -/
inductive Spelling where
  | letter
  | name (n : Nat)
  deriving DecidableEq, Repr

/-- An option as it is given: how it is spelled, whether its value is joined to it with `=`, and the
value. -/
structure Setting (ι : Type) where
  opt : ι
  spelling : Spelling
  joined : Bool := false
  value : List UInt8 := []

variable {ι : Type}

/-- `-x` or `--name`. -/
def Manual.spell (m : Manual ι) (o : ι) : Spelling → List UInt8
  | .letter => [45, byteOf ((m.letter o).getD '?')]
  | .name n => [45, 45] ++ (m.nameBytes o).take n

/-- The arguments that a setting is written as. -/
def Manual.written (m : Manual ι) (s : Setting ι) : List (List UInt8) :=
  if !(m.kind s.opt).valued then [m.spell s.opt s.spelling]
  else if s.joined then [m.spell s.opt s.spelling ++ [61] ++ s.value]
  else [m.spell s.opt s.spelling, s.value]

/-- A string that starts with a decimal number: white space, a sign, digits, and then anything but a
digit. -/
def StartsWithInt (str : List UInt8) (v : Int) : Prop :=
  ∃ ws sign ds rest, str = ws ++ sign ++ ds ++ rest ∧ (∀ c ∈ ws, IsSpace c) ∧
    (sign = [] ∨ sign = [43] ∨ sign = [45]) ∧ ds ≠ [] ∧ (∀ d ∈ ds, IsDigit 10 d) ∧
    (∀ c, rest.head? = some c → ¬ IsDigit 10 c) ∧
    v = if sign = [45] then -(valueOf 10 ds : Int) else valueOf 10 ds

/-- The numbers of C's `int`. -/
def IntRange (v : Int) : Prop := -2147483648 ≤ v ∧ v ≤ 2147483647

/-- A negative number: a minus sign and digits. -/
def NegativeNumeral (str : List UInt8) : Prop :=
  ∃ ds, str = 45 :: ds ∧ ds ≠ [] ∧ ∀ d ∈ ds, IsDigit 10 d

/-- A setting that can be understood: the option has a letter if the letter is used; an abbreviation
is not empty and fits no other option; a value that is an argument of its own does not start
with `-`, unless it is just that, or a negative number for an option that takes a number; where a
number is wanted, there is one, within the range of `int`. -/
structure Manual.Legible (m : Manual ι) (num : List UInt8 → Int) (s : Setting ι) : Prop where
  letter : s.spelling = .letter → m.letter s.opt ≠ none
  name : ∀ n, s.spelling = .name n → 0 < n ∧ ∀ o, (m.nameBytes s.opt).take n <+: m.nameBytes o → o = s.opt
  value : (m.kind s.opt).valued = true → s.joined = false → s.value.head? ≠ some 45 ∨ s.value = [45] ∨
    (m.kind s.opt = .number ∧ NegativeNumeral s.value)
  number : m.kind s.opt = .number → StartsWithInt s.value (num s.value) ∧ IntRange (num s.value)

/-- The values given for an option, in order. -/
def given [DecidableEq ι] (l : List (Setting ι)) (o : ι) : List (List UInt8) :=
  (l.filter fun s => s.opt = o).map (·.value)

/-- The options of fstrm_capture. -/
inductive CaptureOption where
  | help | debug | type | unix | tcp | port | buffersize | maxconns | write | split | localtime | gmtime
  deriving DecidableEq, Repr

/-- The manual of fstrm_capture. -/
def captureManual : Manual CaptureOption where
  letter
    | .help => 'h' | .debug => 'd' | .type => 't' | .unix => 'u' | .tcp => 'a' | .port => 'p'
    | .buffersize => 'b' | .maxconns => 'c' | .write => 'w' | .split => 's'
    | .localtime => none | .gmtime => none
  name
    | .help => ['h', 'e', 'l', 'p']
    | .debug => ['d', 'e', 'b', 'u', 'g']
    | .type => ['t', 'y', 'p', 'e']
    | .unix => ['u', 'n', 'i', 'x']
    | .tcp => ['t', 'c', 'p']
    | .port => ['p', 'o', 'r', 't']
    | .buffersize => ['b', 'u', 'f', 'f', 'e', 'r', 's', 'i', 'z', 'e']
    | .maxconns => ['m', 'a', 'x', 'c', 'o', 'n', 'n', 's']
    | .write => ['w', 'r', 'i', 't', 'e']
    | .split => ['s', 'p', 'l', 'i', 't']
    | .localtime => ['l', 'o', 'c', 'a', 'l', 't', 'i', 'm', 'e']
    | .gmtime => ['g', 'm', 't', 'i', 'm', 'e']
  kind
    | .help => .flag | .debug => .count | .type => .text | .unix => .text | .tcp => .text
    | .port => .text | .buffersize => .number | .maxconns => .number | .write => .text
    | .split => .number | .localtime => .flag | .gmtime => .flag

/-- What settings mean to fstrm_capture: of several values for the same option the last one counts;
numbers not given are 0. -/
def captureMeaning (num : List UInt8 → Int) (l : List (Setting CaptureOption)) : CapOpts where
  help := given l .help ≠ []
  localtime := given l .localtime ≠ []
  gmtime := given l .gmtime ≠ []
  contentType := (given l .type).getLast?
  unix := (given l .unix).getLast?
  tcp := (given l .tcp).getLast?
  port := (given l .port).getLast?
  write := (given l .write).getLast?
  split := ((given l .split).getLast?.map num).getD 0
  bufferSize := ((given l .buffersize).getLast?.map num).getD 0
  countConnections := ((given l .maxconns).getLast?.map num).getD 0

/-- The options of fstrm_replay. -/
inductive ReplayOption where
  | help | type | unix | tcp | port | readFile
  deriving DecidableEq, Repr

/-- The manual of fstrm_replay. -/
def replayManual : Manual ReplayOption where
  letter
    | .help => 'h' | .type => 't' | .unix => 'u' | .tcp => 'a' | .port => 'p' | .readFile => 'r'
  name
    | .help => ['h', 'e', 'l', 'p']
    | .type => ['t', 'y', 'p', 'e']
    | .unix => ['u', 'n', 'i', 'x']
    | .tcp => ['t', 'c', 'p']
    | .port => ['p', 'o', 'r', 't']
    | .readFile => ['r', 'e', 'a', 'd', '-', 'f', 'i', 'l', 'e']
  kind
    | .help => .flag | .type => .text | .unix => .text | .tcp => .text | .port => .text
    | .readFile => .texts

/-- What settings mean to fstrm_replay: options and files. -/
def replayMeaning (l : List (Setting ReplayOption)) : ReplayOpts × List (List UInt8) :=
  (⟨given l .help ≠ [], (given l .type).getLast?, (given l .unix).getLast?, (given l .tcp).getLast?,
    (given l .port).getLast?⟩, given l .readFile)

/-- What fstrm_replay needs: a content type, files, and either a path or an internet address, "only one
of -u or -a". -/
def ReplayComplete (l : List (Setting ReplayOption)) : Prop :=
  given l .type ≠ [] ∧ given l .readFile ≠ [] ∧ (given l .unix ≠ [] ↔ given l .tcp = [])

instance (l : List (Setting ReplayOption)) : Decidable (ReplayComplete l) := by
  unfold ReplayComplete
  infer_instance

/-! ## The environment -/

/-- A letter in upper case. -/
def upper (ch : UInt8) : UInt8 := if 97 ≤ ch.toNat ∧ ch.toNat ≤ 122 then UInt8.ofNat (ch.toNat - 32) else ch

/-- The environment variable for the program `name`. -/
def argvVariable (name : List UInt8) : List UInt8 := [65, 82, 71, 86, 95] ++ name.map upper

/-- Whether a character is a space or a tab. -/
def blank (ch : UInt8) : Prop := ch = 32 ∨ ch = 9

/-- The words of a text: what is between blanks. -/
inductive Words : List UInt8 → List (List UInt8) → Prop where
  | none (b : List UInt8) (hb : ∀ ch ∈ b, blank ch) : Words b []
  | word (b w rest : List UInt8) (ws : List (List UInt8)) (hb : ∀ ch ∈ b, blank ch) (hw : w ≠ [])
    (hn : ∀ ch ∈ w, ¬ blank ch) (hr : rest = [] ∨ ∃ ch r, blank ch ∧ rest = ch :: r)
    (h : Words rest ws) : Words (b ++ w ++ rest) (w :: ws)

/-! ## Mistakes -/

/-- The names of the options that the library `argv` adds to those of the manual. -/
def libraryNames : List (List UInt8) := ([
  ['u', 's', 'a', 'g', 'e'], ['h', 'e', 'l', 'p'],
  ['u', 's', 'a', 'g', 'e', '-', 's', 'h', 'o', 'r', 't'],
  ['u', 's', 'a', 'g', 'e', '-', 'l', 'o', 'n', 'g'],
  ['u', 's', 'a', 'g', 'e', '-', 'a', 'l', 'l'],
  ['v', 'e', 'r', 's', 'i', 'o', 'n'],
  ['a', 'r', 'g', 'v', '-', 'd', 'i', 's', 'p', 'l', 'a', 'y'],
  ['a', 'r', 'g', 'v', '-', 'f', 'i', 'l', 'e']] : List (List Char)).map fun l => l.map byteOf

/-- The characters that numbers are made of: digits, `+`, `-`, `.`. -/
def numberChar (ch : UInt8) : Prop := IsDigit 10 ch ∨ ch = 43 ∨ ch = 45 ∨ ch = 46

/-- An argument that names no option, or does not tell which one it means. -/
inductive Manual.Mistaken (m : Manual ι) : List UInt8 → Prop where
  /-- `--name` or `--name=value`, where nothing is called so. -/
  | unknown (name rest : List UInt8) (hn : 61 ∉ name) (hr : rest = [] ∨ ∃ v, rest = 61 :: v)
    (hm : ∀ o, ¬ name <+: m.nameBytes o) (hb : ∀ n ∈ libraryNames, ¬ name <+: n) :
    m.Mistaken ([45, 45] ++ name ++ rest)
  /-- `--name` or `--name=value`, where the name fits two options. -/
  | ambiguous (name rest : List UInt8) (o o' : ι) (hn : 61 ∉ name) (hr : rest = [] ∨ ∃ v, rest = 61 :: v)
    (hne : name ++ rest ≠ []) (ho : o ≠ o') (h : name <+: m.nameBytes o) (h' : name <+: m.nameBytes o') :
    m.Mistaken ([45, 45] ++ name ++ rest)
  /-- Letters after one `-`, one of which no option has (`?` asks for help, and what looks like a number
  may be one). -/
  | letter (pre post : List UInt8) (ch : UInt8) (hd : pre.head? ≠ some 45) (hp : 61 ∉ pre)
    (hascii : 0 < ch.toNat ∧ ch.toNat < 128) (h61 : ch ≠ 61) (h63 : ch ≠ 63) (hnum : ¬ numberChar ch)
    (hm : ∀ o c, m.letter o = some c → byteOf c ≠ ch) :
    m.Mistaken (45 :: (pre ++ ch :: post))

/-! ## Argument files -/

/-- The lines of a file, without those that are empty. Each line is at most 1023 bytes long and has no
zero byte; the newline of the last line may be missing. -/
inductive ArgLines : List UInt8 → List (List UInt8) → Prop where
  | nil : ArgLines [] []
  | newline (rest : List UInt8) (ls : List (List UInt8)) (h : ArgLines rest ls) : ArgLines (10 :: rest) ls
  | line (l rest : List UInt8) (ls : List (List UInt8)) (hne : l ≠ []) (hnl : 10 ∉ l) (h0 : 0 ∉ l)
    (hlen : l.length ≤ 1023) (hr : rest = [] ∨ rest.head? = some 10) (h : ArgLines rest ls) :
    ArgLines (l ++ rest) (l :: ls)

end Fstrm.Spec
