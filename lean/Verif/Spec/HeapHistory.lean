import Verif.Model.Heap
import Verif.Spec.History

/-!
# Client programs: any calls on any number of objects

A client holds a table of objects it created (`none`: destroyed, or handed over to another object).
A call creates an object or operates on the one at an index; a call on an index without an object of
the right kind is skipped, so that every list of calls is a program. `Prog.run` performs a program on
the models of values, `HProg.run` on those that manage memory.
-/

set_option autoImplicit false

namespace Fstrm

/-- Calls on a control object. -/
inductive COp where
  | reset
  | setType (t : Nat)
  | addCt (ct : Bytes)
  | decode (mem : Bytes) (len : Nat) (hdr : Bool)
  | getType
  | numCt
  | getCt (idx : Nat)
  | matchCt (m : Option Bytes)
  | encodedSize (hdr : Bool)
  | encode (mem : Bytes) (cap : Nat) (hdr : Bool)
  deriving DecidableEq, Repr

/-- A call on an object. -/
inductive ObjOp where
  | control (op : COp)
  | woptAddCt (ct : Bytes)
  | roptAddCt (ct : Bytes)
  | roptSetMax (n : Nat)
  | writer (op : WOp)
  | reader (fuel : Nat) (op : ROp)
  | destroy
  deriving DecidableEq, Repr

/-- The calls on a control object that end the life of pointers to its content types. -/
def ObjOp.endsCts : ObjOp → Prop
  | .control .reset => True
  | .control (.decode _ _ _) => True
  | .destroy => True
  | _ => False

/-- A call of a client program. `newRdwr` makes a transport with the given callbacks, object and
number of memory blocks of the object; `newWriter` and `newReader` take the transport at the first
index, and the options at the second, if given. -/
inductive Call (σ : Type) where
  | newControl
  | newWopt
  | newRopt
  | newRdwr (ops : Ops σ) (obj : σ) (n : Nat)
  | newWriter (rdwr : Nat) (wopt : Option Nat)
  | newReader (rdwr : Nat) (ropt : Option Nat)
  | on (i : Nat) (op : ObjOp)

/-- What a call returns to the client. -/
inductive Out where
  | skip
  | made (ok : Bool)
  | res (r : Res)
  | type (p : Res × Option Nat)
  | num (n : Nat)
  | ct (d : Option Bytes)
  | size (n : Option Nat)
  | enc (p : Res × Bytes × Nat)
  | frame (p : Res × Option Bytes)
  deriving DecidableEq, Repr

/-- An object of the client. -/
inductive Obj (σ : Type) where
  | control (c : Control)
  | wopt (o : WriterOptions)
  | ropt (o : ReaderOptions)
  | rdwr (r : Rdwr σ)
  | writer (w : Writer σ)
  | reader (r : Reader σ)

/-- An object of the client, with its memory. -/
inductive HObj (σ : Type) where
  | control (c : HControl)
  | wopt (o : HWriterOptions)
  | ropt (o : HReaderOptions)
  | rdwr (r : HRdwr σ)
  | writer (w : HWriter σ)
  | reader (r : HReader σ)

variable {σ : Type}

/-- The object without its memory. -/
def HObj.val : HObj σ → Obj σ
  | .control c => .control c.val
  | .wopt o => .wopt o.val
  | .ropt o => .ropt o.val
  | .rdwr r => .rdwr r.rw
  | .writer w => .writer w.val
  | .reader r => .reader r.val

/-- The blocks an object consists of. -/
def HObj.own : HObj σ → List Ptr
  | .control c => c.blocks
  | .wopt o => o.blocks
  | .ropt o => o.blocks
  | .rdwr r => r.blocks
  | .writer w => w.blocks
  | .reader r => r.blocks

/-- The blocks an object lost. -/
def HObj.lost : HObj σ → List Ptr
  | .reader r => r.lost
  | _ => []

/-- A call on a control object. -/
def Control.step (c : Control) : COp → Exec (Out × Control)
  | .reset => .ok (.res .success, c.reset)
  | .setType t => .ok (.res (c.setType t).1, (c.setType t).2)
  | .addCt ct => .ok (.res (c.addCt ct).1, (c.addCt ct).2)
  | .decode mem len hdr => do
    let (res, c) ← c.decode mem len hdr
    .ok (.res res, c)
  | .getType => .ok (.type c.getType, c)
  | .numCt => .ok (.num c.numCt, c)
  | .getCt idx => .ok (.ct (c.getCt idx), c)
  | .matchCt m => .ok (.res (c.matchCt m), c)
  | .encodedSize hdr => .ok (.size (c.encodedSize hdr), c)
  | .encode mem cap hdr => do
    let p ← c.encode mem cap hdr
    .ok (.enc p, c)

/-- A call on a control object. -/
def HControl.step (c : HControl) : COp → HExec (Out × HControl)
  | .reset => do
    let c ← c.reset
    pure (.res .success, c)
  | .setType t => do
    let (res, c) ← c.setType t
    pure (.res res, c)
  | .addCt ct => do
    let (res, c) ← c.addCt ct
    pure (.res res, c)
  | .decode mem len hdr => do
    let (res, c) ← c.decode mem len hdr
    pure (.res res, c)
  | .getType => do
    let p ← c.getType
    pure (.type p, c)
  | .numCt => do
    let n ← c.numCt
    pure (.num n, c)
  | .getCt idx => do
    let p ← c.getCt idx
    match p with
    | some (q, d) => do
      use q
      pure (.ct (some d), c)
    | none => pure (.ct none, c)
  | .matchCt m => do
    let res ← c.matchCt m
    pure (.res res, c)
  | .encodedSize hdr => do
    let n ← c.encodedSize hdr
    pure (.size n, c)
  | .encode mem cap hdr => do
    let p ← c.encode mem cap hdr
    pure (.enc p, c)

/-- A call on a writer. -/
def HWriter.step (w : HWriter σ) : WOp → HExec (Res × HWriter σ)
  | .opn => w.open
  | .write d => w.write d
  | .writev ds => w.writev ds
  | .getControl t => do
    let (res, _, w) ← w.getControl t
    pure (res, w)
  | .close => w.close

/-- A call on a reader. The client uses the control object and the data it gets. -/
def HReader.step (fuel : Nat) (r : HReader σ) : ROp → HExec (Res × Option Bytes × HReader σ)
  | .opn => do
    let (res, r) ← r.open
    pure (res, none, r)
  | .read => do
    let (res, d, r) ← r.read fuel
    match d with
    | some (q, d) => do
      use q
      pure (res, some d, r)
    | none => pure (res, none, r)
  | .getControl t => do
    let (res, _, r) ← r.getControl t
    pure (res, none, r)
  | .close => do
    let (res, r) ← r.close
    pure (res, none, r)

/-- A call on an object; `none` if there is no such call. The object is gone after `destroy`. -/
def Obj.step : Obj σ → ObjOp → Exec (Out × Option (Obj σ))
  | .control c, .control op => do
    let (out, c) ← c.step op
    .ok (out, some (.control c))
  | .wopt o, .woptAddCt ct => .ok (.res (o.addCt ct).1, some (.wopt (o.addCt ct).2))
  | .ropt o, .roptAddCt ct => .ok (.res (o.addCt ct).1, some (.ropt (o.addCt ct).2))
  | .ropt o, .roptSetMax n => .ok (.res (o.setMaxFrameSize n).1, some (.ropt (o.setMaxFrameSize n).2))
  | .writer w, .writer op => do
    let (res, w) ← w.step op
    .ok (.res res, some (.writer w))
  | .reader r, .reader fuel op => do
    let (res, d, r) ← r.step fuel op
    .ok (.frame (res, d), some (.reader r))
  | .control _, .destroy => .ok (.res .success, none)
  | .wopt _, .destroy => .ok (.res .success, none)
  | .ropt _, .destroy => .ok (.res .success, none)
  | .rdwr r, .destroy => do
    let (res, _) ← r.destroy
    .ok (.res res, none)
  | .writer w, .destroy => do
    let (res, _) ← w.destroy
    .ok (.res res, none)
  | .reader r, .destroy => do
    let (res, _) ← r.destroy
    .ok (.res res, none)
  | o, _ => .ok (.skip, some o)

/-- A call on an object, with the blocks that it lost. -/
def HObj.step : HObj σ → ObjOp → HExec (Out × Option (HObj σ) × List Ptr)
  | .control c, .control op => do
    let (out, c) ← c.step op
    pure (out, some (.control c), [])
  | .wopt o, .woptAddCt ct => do
    let (res, o) ← o.addCt ct
    pure (.res res, some (.wopt o), [])
  | .ropt o, .roptAddCt ct => do
    let (res, o) ← o.addCt ct
    pure (.res res, some (.ropt o), [])
  | .ropt o, .roptSetMax n => do
    let (res, o) ← o.setMaxFrameSize n
    pure (.res res, some (.ropt o), [])
  | .writer w, .writer op => do
    let (res, w) ← w.step op
    pure (.res res, some (.writer w), [])
  | .reader r, .reader fuel op => do
    let (res, d, r) ← r.step fuel op
    pure (.frame (res, d), some (.reader r), [])
  | .control c, .destroy => do
    HControl.destroy (some c)
    pure (.res .success, none, [])
  | .wopt o, .destroy => do
    o.destroy
    pure (.res .success, none, [])
  | .ropt o, .destroy => do
    o.destroy
    pure (.res .success, none, [])
  | .rdwr r, .destroy => do
    let (res, _) ← r.destroy
    pure (.res res, none, [])
  | .writer w, .destroy => do
    let (res, _) ← w.destroy
    pure (.res res, none, [])
  | .reader r, .destroy => do
    let (res, _) ← r.destroy
    pure (.res res, none, r.lost)
  | o, _ => pure (.skip, some o, [])

/-- The table of the client's objects. -/
abbrev Prog (σ : Type) := List (Option (Obj σ))

namespace Prog

/-- The transport at an index. -/
def rdwr? (t : Prog σ) (i : Nat) : Option (Rdwr σ) :=
  match t[i]? with
  | some (some (.rdwr r)) => some r
  | _ => none

/-- The writer options at an index; `some none` if no index is given. -/
def wopt? (t : Prog σ) : Option Nat → Option (Option WriterOptions)
  | none => some none
  | some i =>
    match t[i]? with
    | some (some (.wopt o)) => some (some o)
    | _ => none

/-- The reader options at an index; `some none` if no index is given. -/
def ropt? (t : Prog σ) : Option Nat → Option (Option ReaderOptions)
  | none => some none
  | some i =>
    match t[i]? with
    | some (some (.ropt o)) => some (some o)
    | _ => none

/-- One call. -/
def step (t : Prog σ) : Call σ → Exec (Out × Prog σ)
  | .newControl => .ok (.made true, t ++ [some (.control .init)])
  | .newWopt => .ok (.made true, t ++ [some (.wopt .init)])
  | .newRopt => .ok (.made true, t ++ [some (.ropt .init)])
  | .newRdwr ops obj _ => .ok (.made true, t ++ [some (.rdwr (.init ops obj))])
  | .newWriter i o =>
    match t.rdwr? i, t.wopt? o with
    | some r, some o =>
      match Writer.init o r with
      | some w => .ok (.made true, t.set i none ++ [some (.writer w)])
      | none => .ok (.made false, t)
    | _, _ => .ok (.skip, t)
  | .newReader i o =>
    match t.rdwr? i, t.ropt? o with
    | some r, some o =>
      match Reader.init o r with
      | some w => .ok (.made true, t.set i none ++ [some (.reader w)])
      | none => .ok (.made false, t)
    | _, _ => .ok (.skip, t)
  | .on i op =>
    match t[i]? with
    | some (some obj) => do
      let (out, obj) ← obj.step op
      .ok (out, t.set i obj)
    | _ => .ok (.skip, t)

/-- A program: what the calls return, and the table at the end. -/
def run (t : Prog σ) : List (Call σ) → Exec (List Out × Prog σ)
  | [] => .ok ([], t)
  | c :: cs => do
    let (out, t) ← t.step c
    let (outs, t) ← run t cs
    .ok (out :: outs, t)

end Prog

/-- The table of the client's objects, and the blocks that destroyed readers lost. -/
structure HProg (σ : Type) where
  objs : List (Option (HObj σ))
  lost : List Ptr

/-- Allocate `n` blocks. -/
def allocs : Nat → HExec (List Ptr)
  | 0 => pure []
  | n + 1 => do
    let p ← alloc
    let ps ← allocs n
    pure (p :: ps)

namespace HProg

/-- No objects. -/
def empty : HProg σ := ⟨[], []⟩

/-- The table without the memory. -/
def val (t : HProg σ) : Prog σ := t.objs.map (Option.map HObj.val)

/-- The blocks of all objects that exist. -/
def own (t : HProg σ) : List Ptr := t.objs.flatMap fun o => o.elim [] HObj.own

@[inherit_doc Prog.rdwr?]
def rdwr? (t : HProg σ) (i : Nat) : Option (HRdwr σ) :=
  match t.objs[i]? with
  | some (some (.rdwr r)) => some r
  | _ => none

@[inherit_doc Prog.wopt?]
def wopt? (t : HProg σ) : Option Nat → Option (Option HWriterOptions)
  | none => some none
  | some i =>
    match t.objs[i]? with
    | some (some (.wopt o)) => some (some o)
    | _ => none

@[inherit_doc Prog.ropt?]
def ropt? (t : HProg σ) : Option Nat → Option (Option HReaderOptions)
  | none => some none
  | some i =>
    match t.objs[i]? with
    | some (some (.ropt o)) => some (some o)
    | _ => none

/-- One call. A transport's object with a `destroy` method has `n` blocks; without, its memory belongs
to the client. -/
def step (t : HProg σ) : Call σ → HExec (Out × HProg σ)
  | .newControl => do
    let c ← HControl.init
    pure (.made true, { t with objs := t.objs ++ [some (.control c)] })
  | .newWopt => do
    let o ← HWriterOptions.init
    pure (.made true, { t with objs := t.objs ++ [some (.wopt o)] })
  | .newRopt => do
    let o ← HReaderOptions.init
    pure (.made true, { t with objs := t.objs ++ [some (.ropt o)] })
  | .newRdwr ops obj n => do
    let ps ← allocs (if ops.destroy.isSome then n else 0)
    let r ← HRdwr.init ops obj ps
    pure (.made true, { t with objs := t.objs ++ [some (.rdwr r)] })
  | .newWriter i o =>
    match t.rdwr? i, t.wopt? o with
    | some r, some o => do
      match ← HWriter.init o r with
      | some w => pure (.made true, { t with objs := t.objs.set i none ++ [some (.writer w)] })
      | none => pure (.made false, t)
    | _, _ => pure (.skip, t)
  | .newReader i o =>
    match t.rdwr? i, t.ropt? o with
    | some r, some o => do
      match ← HReader.init o r with
      | some w => pure (.made true, { t with objs := t.objs.set i none ++ [some (.reader w)] })
      | none => pure (.made false, t)
    | _, _ => pure (.skip, t)
  | .on i op =>
    match t.objs[i]? with
    | some (some obj) => do
      let (out, obj, ls) ← obj.step op
      pure (out, ⟨t.objs.set i obj, ls ++ t.lost⟩)
    | _ => pure (.skip, t)

@[inherit_doc Prog.run]
def run (t : HProg σ) : List (Call σ) → HExec (List Out × HProg σ)
  | [] => pure ([], t)
  | c :: cs => do
    let (out, t) ← t.step c
    let (outs, t) ← run t cs
    pure (out :: outs, t)

end HProg

/-- A heap as `malloc` maintains it. -/
structure Heap.Valid (h : Heap) : Prop where
  nodup : h.live.Nodup
  fresh : ∀ p ∈ h.live, p < h.next

/-- No reader is opened again after its `read` returned `stop`. -/
def NoReopen (hist : List (Call σ × Out)) : Prop :=
  hist.Pairwise fun a b => ∀ i fuel fuel' d,
    a = (.on i (.reader fuel .read), .frame (.stop, d)) → b.1 ≠ .on i (.reader fuel' .opn)

end Fstrm
