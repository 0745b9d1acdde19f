/-!
# File descriptors of a process

The kernel's side of descriptors, and what the other threads of a process may do with theirs.
Nothing in this file models code of the repository.
-/

set_option autoImplicit false

namespace Fstrm

/-- An open descriptor: whether the writer under consideration created it, its close-on-exec flag,
and for sockets the option `SO_NOSIGPIPE`. -/
structure Descr where
  mine : Bool
  cloexec : Bool
  nosigpipe : Bool
  deriving DecidableEq, Repr

/-- The descriptors of a process; positions are descriptor numbers. -/
abbrev Descrs := List (Option Descr)

/-- What a number stands for. -/
def Descrs.at (t : Descrs) (fd : Int) : Option Descr :=
  if fd < 0 then none else t[fd.toNat]?.join

/-- A new descriptor gets the lowest number that is free (POSIX). -/
def Descrs.alloc (d : Descr) : Descrs → Nat × Descrs
  | [] => (0, [some d])
  | none :: t => (0, some d :: t)
  | some x :: t => ((Descrs.alloc d t).1 + 1, some x :: (Descrs.alloc d t).2)

/-- `close`. The number becomes free whatever `close` returns (this is so on Linux). -/
def Descrs.release (t : Descrs) (fd : Int) : Descrs :=
  if fd < 0 then t else t.set fd.toNat none

/-- The numbers of the writer's own open descriptors. -/
def Descrs.own (t : Descrs) : List Nat :=
  (List.range t.length).filter fun i => (t.at i).any (·.mine)

/-- What the rest of the process may do between two system calls of the writer: open a descriptor,
close one (of its own), or start another program. -/
inductive Other where
  | opens (cloexec : Bool)
  | closes (fd : Nat)
  | spawns
  deriving DecidableEq, Repr

/-- The system calls of the writer; all but `socket` are given a descriptor. `sendmsg` may be called
with the flag `MSG_NOSIGNAL`. -/
inductive Sys where
  | socket (cloexec : Bool)
  | getfd | setfd | setsockopt | connect | close | read
  | sendmsg (nosignal : Bool)
  deriving DecidableEq, Repr

/-- A process: its descriptors; for each program it started, the writer's descriptors which that
program got; and for each system call of the writer what the number it was given stood for. -/
structure Proc where
  descrs : Descrs
  inherited : List (List Nat)
  trail : List (Sys × Option Descr)
  deriving DecidableEq, Repr

/-- Steps of the rest of the process. A program that is started gets the descriptors without
close-on-exec flag. -/
def Proc.other (p : Proc) : Other → Proc
  | .opens c => { p with descrs := (Descrs.alloc ⟨false, c, false⟩ p.descrs).2 }
  | .closes n =>
    if (p.descrs.at n).any (·.mine) then p else { p with descrs := p.descrs.release n }
  | .spawns => { p with inherited := p.inherited ++
      [p.descrs.own.filter fun (i : Nat) => (p.descrs.at i).any fun d => !d.cloexec] }

/-- Several of them. -/
def Proc.others (p : Proc) (os : List Other) : Proc := os.foldl Proc.other p

/-- The writer makes a system call on a descriptor. -/
def Proc.call (p : Proc) (c : Sys) (fd : Int) : Proc :=
  { p with trail := p.trail ++ [(c, p.descrs.at fd)] }

/-- Whether a system call raises `SIGPIPE` if the peer has closed its end (POSIX `sendmsg`): it sends
without `MSG_NOSIGNAL` on a socket without `SO_NOSIGPIPE`. -/
def Sys.signals : Sys × Option Descr → Bool
  | (.sendmsg nosignal, some d) => !nosignal && !d.nosigpipe
  | _ => false

end Fstrm
