import Verif.Lemmas.HeapPointers
import Verif.Props.ReaderOpen

/-!
# Memory: no leak, no double free, no use after free (C86), and how long pointers stay valid (C87)
-/

set_option autoImplicit false

namespace Fstrm.Props

open Fstrm.Spec

variable {σ : Type}

/-- **C86**, the exact account. Whatever calls a client makes on whatever control objects, options,
transports, writers and readers, in whatever order and with whatever outcome of the callbacks: the
library behaves as in the model without memory, so it never touches or frees a block that is not
allocated; and at the end the allocated blocks are those that were there before, those of the
existing objects, and `leaked`, which is empty unless a reader was opened again after its stream
had ended. Or an allocation fails and the process is aborted (see C125). -/
theorem memory_accounted (cs : List (Call σ)) (h0 : Heap) (hv : h0.Valid) :
    (∃ outs t h leaked, HProg.run .empty cs h0 = .ok ((outs, t), h) ∧
      Prog.run [] cs = .ok (outs, t.val) ∧ h.Valid ∧ h.live.Perm (t.own ++ leaked ++ h0.live) ∧
      (NoReopen (cs.zip outs) → leaked = [])) ∨
    (∃ e, HProg.run .empty cs h0 = .error e ∧ Prog.run ([] : Prog σ) cs = .error e) ∨
    (HProg.run (.empty : HProg σ) cs h0 = .error outOfMemory ∧ h0.Scarce) := by
  have hown : Owns h0 ((HProg.empty : HProg σ).blocks ++ h0.live) := ⟨.refl _, hv.nodup, hv.fresh⟩
  rcases HProg.run_sim (HProg.empty : HProg σ) cs h0 h0.live hown with ⟨⟨outs, t⟩, h, e1, e2, e3, -⟩ | h
  · refine .inl ⟨outs, t, h, (t.objs.flatMap fun o => o.elim [] HObj.lost) ++ t.lost, e1, e2, ?_, ?_, ?_⟩
    · exact ⟨e3.perm.nodup_iff.2 e3.nodup, fun p hp => e3.fresh p (e3.perm.mem_iff.1 hp)⟩
    · refine e3.perm.trans (List.Perm.append_right _ ?_)
      show (t.objs.flatMap HProg.slot ++ t.lost).Perm _
      rw [← List.append_assoc]
      refine List.Perm.append_right _ ?_
      unfold HProg.own
      generalize t.objs = l
      induction l with
      | nil => exact .refl _
      | cons o l ih =>
        have ho : HProg.slot o = o.elim [] HObj.own ++ o.elim [] HObj.lost := by
          cases o with
          | none => rfl
          | some o => cases o <;> simp [HProg.slot, HObj.blocks, HObj.own, HObj.lost]
        simp only [List.flatMap_cons, ho]
        refine List.perm_iff_count.2 fun x => ?_
        have := List.perm_iff_count.1 ih x
        simp only [List.count_append] at this ⊢
        omega
    · intro hn
      obtain ⟨S, hw⟩ := HProg.run_whole (HProg.empty : HProg σ) cs (fun _ => False)
        ⟨rfl, fun i r hr => by simp [HProg.empty] at hr⟩ h0 _ h e1 hn (fun _ _ _ _ _ => not_false)
      rw [hw.lost, List.append_nil, List.flatMap_eq_nil_iff]
      intro o ho
      obtain ⟨i, hi⟩ := List.getElem?_of_mem ho
      cases o with
      | none => rfl
      | some o =>
        cases o with
        | reader r => exact (hw.reader i r hi).1.lost
        | _ => rfl
  · obtain ⟨e, e1, e2 | ⟨rfl, e2⟩⟩ := h
    · exact .inr (.inl ⟨e, e1, e2⟩)
    · exact .inr (.inr ⟨e1, e2⟩)

/-- **C86**: a client that destroys every object it made and opens no reader again after its stream
had ended gets all memory back. `_partial`: the restriction on readers; see `leak_on_reopen`. -/
theorem no_leak_partial (cs : List (Call σ)) (h0 h : Heap) (hv : h0.Valid) (outs : List Out)
    (t : HProg σ) (hrun : HProg.run .empty cs h0 = .ok ((outs, t), h))
    (hdone : ∀ o ∈ t.objs, o = none) (hn : NoReopen (cs.zip outs)) :
    h.live.Perm h0.live := by
  rcases memory_accounted cs h0 hv with ⟨outs', t', h', leaked, e1, -, -, hp, hl⟩ | ⟨e, e1, -⟩ | ⟨e1, -⟩
  · rw [hrun] at e1
    cases e1
    rw [hl hn, List.append_nil] at hp
    have : t.own = [] := by
      unfold HProg.own
      rw [List.flatMap_eq_nil_iff]
      intro o ho
      rw [hdone o ho]
      rfl
    rwa [this] at hp
  · rw [hrun] at e1
    cases e1
  · rw [hrun] at e1
    cases e1

/-- The peer sends the same stream again and again: one START and one STOP frame per connection. -/
def againOps : Ops Pipe :=
  { pipeOps true false with
    opn := some fun s => .ok (.success,
      { s with isOpen := true, inp := CFrame.wire ⟨.start, []⟩ ++ CFrame.wire ⟨.stop, []⟩ }) }

/-- A client that reads the stream twice with the same reader and then destroys it. -/
def reopenCalls : List (Call Pipe) :=
  [.newRdwr againOps ⟨[], [], false⟩ 0, .newReader 0 none,
    .on 1 (.reader 5 .read), .on 1 (.reader 5 .close),
    .on 1 (.reader 5 .opn), .on 1 (.reader 5 .read), .on 1 (.reader 5 .close), .on 1 .destroy]

/-- The restriction is needed: `fstrm__reader_next_data` overwrites the pointer to the STOP frame of
the previous connection. All calls go well (destroying a closed reader returns `failure`) and every
object is destroyed, yet three blocks are never freed. -/
theorem leak_on_reopen :
    (HProg.run .empty reopenCalls ⟨1, [], [], false⟩).map
      (fun p => (p.1.1, p.1.2.objs.map Option.isNone, p.2.live.length)) =
    .ok ([.made true, .made true, .frame (.stop, none), .frame (.success, none),
      .frame (.success, none), .frame (.stop, none), .frame (.success, none), .res .failure],
      [true, true], 3) := by decide +kernel

/-- A client with a bidirectional reader: options, two data frames, and a control object. -/
def exampleCalls : List (Call Pipe) :=
  [.newRdwr (pipeOps true true) ⟨CFrame.wire ⟨.ready, [[7], [8, 9]]⟩ ++ CFrame.wire ⟨.start, [[7]]⟩ ++
      (be32 2 ++ [1, 2]) ++ (be32 1 ++ [5]) ++ CFrame.wire ⟨.stop, []⟩, [], false⟩ 0,
    .newRopt, .on 1 (.roptAddCt [7]), .on 1 (.roptAddCt [8, 9]), .newReader 0 (some 1), .on 1 .destroy,
    .newControl, .on 3 (.control (.addCt [1])), .on 3 (.control (.addCt [2, 3])),
    .on 2 (.reader 5 .read), .on 2 (.reader 5 (.getControl T_ACCEPT)), .on 2 (.reader 5 .read),
    .on 2 (.reader 5 .read), .on 3 (.control .reset), .on 2 .destroy, .on 3 .destroy]

example : (HProg.run .empty exampleCalls ⟨1, [], [], false⟩).map
      (fun p => (p.1.1, p.1.2.objs.map Option.isNone, p.2.live)) =
    .ok ([.made true, .made true, .res .success, .res .success, .made true, .res .success,
      .made true, .res .success, .res .success,
      .frame (.success, some [1, 2]), .frame (.success, none), .frame (.success, some [5]),
      .frame (.stop, none), .res .success, .res .success, .res .success],
      [true, true, true, true], []) := by decide +kernel

example : (⟨1, [], [], false⟩ : Heap).Valid ∧ ¬(⟨1, [], [], false⟩ : Heap).Scarce :=
  ⟨⟨.nil, by simp⟩, by simp [Heap.Scarce]⟩

/-- **C87**: the pointer to a control frame that a writer or reader hands out stays valid, whatever
the client does, until that writer or reader is destroyed: at any later time there is a control
object at that address, all of whose memory is allocated. -/
theorem control_pointer_valid (cs cs' : List (Call σ)) (h0 h1 h2 h3 : Heap) (hv : h0.Valid)
    (outs outs' : List Out) (t t' : HProg σ) (i type : Nat) (c : HControl) (o : HObj σ)
    (hrun : HProg.run .empty cs h0 = .ok ((outs, t), h1))
    (hget : (∃ w w', t.objs[i]? = some (some (.writer w)) ∧ o = .writer w' ∧
        w.getControl type h1 = .ok ((.success, some c, w'), h2)) ∨
      (∃ r r', t.objs[i]? = some (some (.reader r)) ∧ o = .reader r' ∧
        r.getControl type h1 = .ok ((.success, some c, r'), h2)))
    (hrun' : HProg.run ⟨t.objs.set i (some o), t.lost⟩ cs' h2 = .ok ((outs', t'), h3))
    (hlive : .on i .destroy ∉ cs') :
    ∃ c' : HControl, c'.self = c.self ∧ ∀ p ∈ c'.blocks, p ∈ h3.live := by
  have hown : Owns h0 ((HProg.empty : HProg σ).blocks ++ h0.live) := ⟨.refl _, hv.nodup, hv.fresh⟩
  have ho1 : Owns h1 (t.blocks ++ h0.live) := by
    rcases HProg.run_sim (HProg.empty : HProg σ) cs h0 h0.live hown with ⟨a, h, e1, -, e3, -⟩ | ⟨e, e1, -⟩
    · rw [hrun] at e1; cases e1; exact e3
    · rw [hrun] at e1; cases e1
  obtain ⟨hlt, hhold, ho2⟩ : i < t.objs.length ∧ o.Holds c.self ∧
      Owns h2 ((⟨t.objs.set i (some o), t.lost⟩ : HProg σ).blocks ++ h0.live) := by
    rcases hget with ⟨w, w', hi, rfl, hg⟩ | ⟨r, r', hi, rfl, hg⟩
    · refine ⟨(List.getElem?_eq_some_iff.1 hi).1, ?_, ?_⟩
      · exact ⟨c, (HWriter.getControl_keep w type _ _ _ hg).2 c rfl, rfl⟩
      · have ho := ho1.of_perm ((HProg.blocks_at hi).append_right h0.live)
        rw [List.append_assoc] at ho
        rcases HWriter.getControl_sim w type h1 _ ho with ⟨a, h, e1, -, e3, -⟩ | ⟨e, e1, -⟩
        · rw [hg] at e1; cases e1
          refine e3.of_perm ?_
          have := (HProg.blocks_set hi (some (.writer w')) []).append_right h0.live
          rw [List.append_nil, List.append_assoc] at this
          exact this.symm
        · rw [hg] at e1; cases e1
    · refine ⟨(List.getElem?_eq_some_iff.1 hi).1, ?_, ?_⟩
      · exact ⟨c, rfl, .inl ((HReader.getControl_keep r type _ _ _ hg).2 c rfl)⟩
      · have ho := ho1.of_perm ((HProg.blocks_at hi).append_right h0.live)
        rw [List.append_assoc] at ho
        rcases HReader.getControl_sim r type h1 _ ho with ⟨a, h, e1, -, e3, -⟩ | ⟨e, e1, -⟩
        · rw [hg] at e1; cases e1
          refine e3.of_perm ?_
          have := (HProg.blocks_set hi (some (.reader r')) []).append_right h0.live
          rw [List.append_nil, List.append_assoc] at this
          exact this.symm
        · rw [hg] at e1; cases e1
  have ho3 : Owns h3 (t'.blocks ++ h0.live) := by
    rcases HProg.run_sim _ cs' h2 h0.live ho2 with ⟨a, h, e1, -, e3, -⟩ | ⟨e, e1, -⟩
    · rw [hrun'] at e1; cases e1; exact e3
    · rw [hrun'] at e1; cases e1
  obtain ⟨o', hi', hhold'⟩ := HProg.run_keep (HObj.Holds c.self) (· = .destroy)
    (fun o op hop h => HObj.step_holds _ o op hop h) (fun _ h => h) i cs' _ o
    (by simp [hlt]) hhold (fun op hop he => hlive (he ▸ hop)) h2 _ h3 hrun'
  have hsub : ∀ p ∈ o'.blocks, p ∈ h3.live := fun p hp => ho3.perm.mem_iff.2
    (List.mem_append_left _ ((HProg.blocks_at hi').mem_iff.2 (List.mem_append_left _ hp)))
  cases o' with
  | writer w =>
    obtain ⟨c', hc', he⟩ := hhold'
    exact ⟨c', he, fun p hp => hsub p (w.controls_blocks hc' hp)⟩
  | reader r =>
    obtain ⟨c', he, hc' | hc'⟩ := hhold'
    · refine ⟨c', he, fun p hp => hsub p (List.mem_append_left _ ?_)⟩
      simp only [HReader.controls, List.mem_append, Option.mem_toList] at hc'
      simp only [HReader.blocks, List.mem_append]
      rcases hc' with ((hc' | hc') | hc') | hc' <;> simp [HControl.optBlocks, hc', hp]
    · exact ⟨c', he, fun p hp => hsub p (List.mem_append_right _ (hc' hp))⟩
  | _ => exact hhold'.elim

/-- **C87**: the data a successful `read` hands out stay allocated, whatever the client does, until
the next `read` on that reader or its destruction. -/
theorem data_pointer_valid (cs cs' : List (Call σ)) (h0 h1 h2 h3 : Heap) (hv : h0.Valid)
    (outs outs' : List Out) (t t' : HProg σ) (i fuel : Nat) (q : Ptr) (d : Bytes) (r r' : HReader σ)
    (hrun : HProg.run .empty cs h0 = .ok ((outs, t), h1))
    (hi : t.objs[i]? = some (some (.reader r)))
    (hread : r.read fuel h1 = .ok ((.success, some (q, d), r'), h2))
    (hrun' : HProg.run ⟨t.objs.set i (some (.reader r')), t.lost⟩ cs' h2 = .ok ((outs', t'), h3))
    (hlive : .on i .destroy ∉ cs') (hnext : ∀ fuel', .on i (.reader fuel' .read) ∉ cs') :
    q ∈ h3.live := by
  have hown : Owns h0 ((HProg.empty : HProg σ).blocks ++ h0.live) := ⟨.refl _, hv.nodup, hv.fresh⟩
  have ho1 : Owns h1 (t.blocks ++ h0.live) := by
    rcases HProg.run_sim (HProg.empty : HProg σ) cs h0 h0.live hown with ⟨a, h, e1, -, e3, -⟩ | ⟨e, e1, -⟩
    · rw [hrun] at e1; cases e1; exact e3
    · rw [hrun] at e1; cases e1
  have hlt := (List.getElem?_eq_some_iff.1 hi).1
  have ho2 : Owns h2 ((⟨t.objs.set i (some (.reader r')), t.lost⟩ : HProg σ).blocks ++ h0.live) := by
    have ho := ho1.of_perm ((HProg.blocks_at hi).append_right h0.live)
    rw [List.append_assoc] at ho
    rcases HReader.read_sim fuel r h1 _ ho with ⟨a, h, e1, -, e3, -⟩ | ⟨e, e1, -⟩
    · rw [hread] at e1; cases e1
      refine e3.of_perm ?_
      have := (HProg.blocks_set hi (some (.reader r')) []).append_right h0.live
      rw [List.append_nil, List.append_assoc] at this
      exact this.symm
    · rw [hread] at e1; cases e1
  have ho3 : Owns h3 (t'.blocks ++ h0.live) := by
    rcases HProg.run_sim _ cs' h2 h0.live ho2 with ⟨a, h, e1, -, e3, -⟩ | ⟨e, e1, -⟩
    · rw [hrun'] at e1; cases e1; exact e3
    · rw [hrun'] at e1; cases e1
  have hq := (HReader.read_keep fuel r _ _ _ hread).data q d rfl
  obtain ⟨o', hi', r'', rfl, hr''⟩ := HProg.run_keep (fun o => ∃ r, o = .reader r ∧ r.bufArr = q)
    (fun op => op = .destroy ∨ ∃ fuel', op = .reader fuel' .read)
    (fun o op hop h => HObj.step_data q o op (fun h' => hop (.inl h')) (fun f h' => hop (.inr ⟨f, h'⟩)) h)
    (fun _ h => by obtain ⟨r, h, -⟩ := h; cases h) i cs' _ (.reader r')
    (by simp [hlt]) ⟨r', rfl, hq.symm⟩
    (fun op hop he => by
      rcases he with he | ⟨f, he⟩
      · exact hlive (he ▸ hop)
      · exact hnext f (he ▸ hop)) h2 _ h3 hrun'
  refine ho3.perm.mem_iff.2 (List.mem_append_left _ ((HProg.blocks_at hi').mem_iff.2
    (List.mem_append_left _ (List.mem_append_left _ ?_))))
  simp [HReader.blocks, hr'']

/-- **C87**: a content type obtained from a control object stays where it is, with the same bytes,
whatever the client does, until the object is reset, decoded into or destroyed. -/
theorem ct_pointer_valid (cs cs' : List (Call σ)) (h0 h1 h2 : Heap) (hv : h0.Valid)
    (outs outs' : List Out) (t t' : HProg σ) (i idx : Nat) (q : Ptr) (d : Bytes) (c : HControl)
    (hrun : HProg.run .empty cs h0 = .ok ((outs, t), h1))
    (hi : t.objs[i]? = some (some (.control c)))
    (hget : c.getCt idx h1 = .ok (some (q, d), h1))
    (hrun' : t.run cs' h1 = .ok ((outs', t'), h2))
    (hlive : ∀ op, .on i op ∈ cs' → ¬op.endsCts) :
    q ∈ h2.live ∧ ∃ c', t'.objs[i]? = some (some (.control c')) ∧ (q, d) ∈ c'.vec.elems := by
  have hown : Owns h0 ((HProg.empty : HProg σ).blocks ++ h0.live) := ⟨.refl _, hv.nodup, hv.fresh⟩
  have ho1 : Owns h1 (t.blocks ++ h0.live) := by
    rcases HProg.run_sim (HProg.empty : HProg σ) cs h0 h0.live hown with ⟨a, h, e1, -, e3, -⟩ | ⟨e, e1, -⟩
    · rw [hrun] at e1; cases e1; exact e3
    · rw [hrun] at e1; cases e1
  have ho2 : Owns h2 (t'.blocks ++ h0.live) := by
    rcases HProg.run_sim _ cs' h1 h0.live ho1 with ⟨a, h, e1, -, e3, -⟩ | ⟨e, e1, -⟩
    · rw [hrun'] at e1; cases e1; exact e3
    · rw [hrun'] at e1; cases e1
  have hmem : (q, d) ∈ c.vec.elems := by
    have : HPost (c.getCt idx) (fun x => ∀ y, x = some y → y ∈ c.vec.elems) :=
      .step fun _ => .step fun _ => .step fun _ => .pure fun y hy => List.mem_of_getElem? hy
    exact this _ _ _ hget _ rfl
  obtain ⟨o', hi', c', rfl, hc'⟩ := HProg.run_keep (fun o => ∃ c, o = .control c ∧ (q, d) ∈ c.vec.elems)
    ObjOp.endsCts (fun o op hop h => HObj.step_ct (q, d) o op hop h)
    (fun _ h => by obtain ⟨r, h, -⟩ := h; cases h) i cs' t (.control c) hi ⟨c, rfl, hmem⟩ hlive h1 _ h2 hrun'
  refine ⟨?_, c', hi', hc'⟩
  refine ho2.perm.mem_iff.2 (List.mem_append_left _ ((HProg.blocks_at hi').mem_iff.2
    (List.mem_append_left _ ?_)))
  simp only [HObj.blocks, HProg.slot, Option.elim_some, HControl.blocks, HVec.blocks, List.mem_cons,
    List.mem_map]
  exact .inr (.inr (.inr ⟨_, hc', rfl⟩))

/-- Run `cs`, get a pointer from object `i` with `get`, run `cs'`, and tell whether there was a pointer
and whether its block is allocated at the end. -/
def pointerTest {σ : Type} (cs cs' : List (Call σ)) (i : Nat)
    (get : HObj σ → HExec (Option Ptr × HObj σ)) : HExec (Bool × Bool) := do
  let (_, t) ← HProg.run .empty cs
  match t.objs[i]? with
  | some (some o) => do
    let (p, o) ← get o
    let _ ← HProg.run ⟨t.objs.set i (some o), t.lost⟩ cs'
    fun h => .ok ((p.isSome, p.elim false fun p => h.live.contains p), h)
  | _ => pure (false, false)

/-- The pointer to a control frame of a reader. -/
def getReaderControl (type : Nat) : HObj Pipe → HExec (Option Ptr × HObj Pipe)
  | .reader r => do
    let (_, c, r) ← r.getControl type
    pure (c.map HControl.self, .reader r)
  | o => pure (none, o)

/-- The pointer to the data of a `read`. -/
def getReaderData : HObj Pipe → HExec (Option Ptr × HObj Pipe)
  | .reader r => do
    let (_, d, r) ← r.read 5
    pure (d.map Prod.fst, .reader r)
  | o => pure (none, o)

/-- The pointer to a content type of a control object. -/
def getControlCt (idx : Nat) : HObj Pipe → HExec (Option Ptr × HObj Pipe)
  | .control c => do
    let d ← c.getCt idx
    pure (d.map Prod.fst, .control c)
  | o => pure (none, o)

/- The hypotheses of the three theorems are met, and the limits they state are real: the pointers are
dangling after the reader was destroyed, after the next `read`, or after the control object was reset. -/
example : (pointerTest (exampleCalls.take 10) ((exampleCalls.drop 11).take 3) 2
    (getReaderControl T_ACCEPT) ⟨1, [], [], false⟩).map Prod.fst = .ok (true, true) := by decide +kernel
example : (pointerTest (exampleCalls.take 10) ((exampleCalls.drop 11).take 4) 2
    (getReaderControl T_ACCEPT) ⟨1, [], [], false⟩).map Prod.fst = .ok (true, false) := by decide +kernel
example : (pointerTest (exampleCalls.take 9) [.on 2 (.reader 5 (.getControl T_START)), .on 3 .destroy,
    .on 2 (.reader 5 .close), .newControl] 2 getReaderData ⟨1, [], [], false⟩).map Prod.fst =
    .ok (true, true) := by decide +kernel
example : (pointerTest [.newRdwr (pipeOps true false) ⟨CFrame.wire ⟨.start, []⟩ ++ (be32 1 ++ [5]) ++
      (be32 1000 ++ List.replicate 1000 6), [], false⟩ 0, .newReader 0 none]
    [.on 1 (.reader 5 .read)] 1 getReaderData ⟨1, [], [], false⟩).map Prod.fst = .ok (true, false) := by decide +kernel
example : (pointerTest (exampleCalls.take 9) [.on 3 (.control (.addCt [4])), .on 2 .destroy] 3
    (getControlCt 1) ⟨1, [], [], false⟩).map Prod.fst = .ok (true, true) := by decide +kernel
example : (pointerTest (exampleCalls.take 9) [.on 3 (.control .reset)] 3
    (getControlCt 1) ⟨1, [], [], false⟩).map Prod.fst = .ok (true, false) := by decide +kernel

/-- The whole life of a writer: a transport whose object has `n` blocks, options with the given
content types, the writer, the options destroyed, the calls, and the writer destroyed. -/
def writerLife (ops : Ops σ) (obj : σ) (n : Nat) (cts : List Bytes) (calls : List WOp) :
    List (Call σ) :=
  [.newRdwr ops obj n, .newWopt] ++ cts.map (fun ct => .on 1 (.woptAddCt ct)) ++
    [.newWriter 0 (some 1), .on 1 .destroy] ++ calls.map (fun op => .on 2 (.writer op)) ++
    [.on 2 .destroy]

/-- **C86** for writers, together with C60: a writer over any transport whose callbacks return, used
in any way and destroyed, runs to the end and returns all memory, if there is enough of it. (The assumption on the peer of a
bidirectional transport is that of C60.) -/
theorem writer_life (ops : Ops σ) (obj : σ) (n : Nat) (cts : List Bytes) (calls : List WOp)
    (I : σ → Prop) (hw : WellBehaved ops I) (hp : Preserves ops I) (hz : NoZeroPair ops I) (hI : I obj)
    (hwr : ops.wr.isSome) (hlen : ∀ op ∈ calls, op.frames.length ≤ 1073741823)
    (h0 : Heap) (hv : h0.Valid) (ha : ¬h0.Scarce) :
    ∃ outs t h, HProg.run .empty (writerLife ops obj n cts calls) h0 = .ok ((outs, t), h) ∧
      h.live.Perm h0.live := by
  obtain ⟨outs, hval⟩ : ∃ outs, Prog.run [] (writerLife ops obj n cts calls) =
      .ok (outs, [none, none, none]) := by
    obtain ⟨o, w, ho, hinit, hrun⟩ : ∃ (o : WriterOptions) (w : Writer σ),
        (∃ outs, Prog.run [some (.rdwr (Rdwr.init ops obj)), some (.wopt .init)]
          (cts.map (fun ct => .on 1 (.woptAddCt ct))) =
          .ok (outs, [some (.rdwr (Rdwr.init ops obj)), some (.wopt o)])) ∧
        Writer.init (some o) (Rdwr.init ops obj) = some w ∧
        ∃ r, (do
          let (_, w) ← w.run calls
          let (res, _) ← w.destroy
          Except.ok res : Exec Res) = .ok r := by
      have key : ∀ (cts : List Bytes) (o : WriterOptions), ∃ o' outs,
          Prog.run [some (.rdwr (Rdwr.init ops obj)), some (.wopt o)]
            (cts.map (fun ct => .on 1 (.woptAddCt ct))) =
            .ok (outs, [some (.rdwr (Rdwr.init ops obj)), some (.wopt o')]) := by
        intro cts
        induction cts with
        | nil => exact fun o => ⟨o, [], rfl⟩
        | cons ct cts ih =>
          intro o
          obtain ⟨o', outs, h⟩ := ih (o.addCt ct).2
          refine ⟨o', .res (o.addCt ct).1 :: outs, ?_⟩
          simp only [List.map_cons, Prog.run, Prog.step, Obj.step, List.getElem?_cons_succ,
            List.getElem?_cons_zero, Exec.ok_bind, List.set_cons_succ, List.set_cons_zero]
          rw [h]
          rfl
      obtain ⟨o, outs, h⟩ := key cts .init
      obtain ⟨w, hinit⟩ : ∃ w, Writer.init (some o) (Rdwr.init ops obj) = some w := by
        unfold Writer.init
        rw [if_neg (by simp [Rdwr.init, Option.isSome_iff_ne_none.1 hwr])]
        exact ⟨_, rfl⟩
      exact ⟨o, w, ⟨outs, h⟩, hinit, writer_safe_partial ops obj I (some o) w calls hw hp hz hI hlen hinit⟩
    obtain ⟨outs1, ho⟩ := ho
    obtain ⟨r, hrun⟩ := hrun
    obtain ⟨⟨rs, w'⟩, e1, hrun⟩ := Exec.bind_eq_ok.1 hrun
    obtain ⟨⟨res, rw⟩, e2, -⟩ := Exec.bind_eq_ok.1 hrun
    have hcalls : ∀ (calls : List WOp) (w w' : Writer σ) (rs : List Res), w.run calls = .ok (rs, w') →
        Prog.run [none, none, some (.writer w)] (calls.map (fun op => .on 2 (.writer op))) =
          .ok (rs.map Out.res, [none, none, some (.writer w')]) := by
      intro calls
      induction calls with
      | nil => intro w w' rs h; cases h; rfl
      | cons op calls ih =>
        intro w w' rs h
        obtain ⟨⟨res, w1⟩, e1, h⟩ := Exec.bind_eq_ok.1 h
        obtain ⟨⟨rs1, w2⟩, e2, h⟩ := Exec.bind_eq_ok.1 h
        cases h
        simp only [List.map_cons, Prog.run, Prog.step, Obj.step, List.getElem?_cons_succ,
          List.getElem?_cons_zero, e1, Exec.ok_bind, List.set_cons_succ, List.set_cons_zero]
        rw [ih w1 w' rs1 e2]
        rfl
    have happ : ∀ (a b : List (Call σ)) (t t1 t2 : Prog σ) (o1 o2 : List Out),
        t.run a = .ok (o1, t1) → t1.run b = .ok (o2, t2) → t.run (a ++ b) = .ok (o1 ++ o2, t2) := by
      intro a b
      induction a with
      | nil => intro t t1 t2 o1 o2 h1 h2; cases h1; exact h2
      | cons c a ih =>
        intro t t1 t2 o1 o2 h1 h2
        obtain ⟨⟨out, t'⟩, e1, h⟩ := Exec.bind_eq_ok.1 h1
        obtain ⟨⟨outs, t''⟩, e2, h⟩ := Exec.bind_eq_ok.1 h
        cases h
        simp only [List.cons_append, Prog.run, e1, Exec.ok_bind, ih _ _ _ _ _ e2 h2]
    have hmake : Prog.run [some (.rdwr (Rdwr.init ops obj)), some (.wopt o)]
        [.newWriter 0 (some 1), .on 1 .destroy] =
        .ok ([.made true, .res .success], [none, none, some (.writer w)]) := by
      simp only [Prog.run, Prog.step, Prog.rdwr?, Prog.wopt?, List.getElem?_cons_zero,
        List.getElem?_cons_succ, hinit, Exec.ok_bind]
      rfl
    have hend : Prog.run [none, none, some (.writer w')] [.on 2 .destroy] =
        .ok ([.res res], [none, none, none]) := by
      simp only [Prog.run, Prog.step, Obj.step, List.getElem?_cons_zero,
        List.getElem?_cons_succ, e2, Exec.ok_bind]
      rfl
    exact ⟨_, happ _ _ _ _ _ _ _ (happ _ _ _ _ _ _ _ (happ _ _ _ _ _ _ _ (happ [_, _] _ _ _ _ _ _
      rfl ho) hmake) (hcalls calls w w' rs e1)) hend⟩
  rcases memory_accounted (writerLife ops obj n cts calls) h0 hv with
    ⟨outs', t, h, leaked, e1, e2, -, hperm, hl⟩ | ⟨e, -, e1⟩ | ⟨-, e1⟩
  · rw [hval] at e2
    obtain ⟨rfl, hobjs⟩ := Prod.mk.inj (Except.ok.inj e2)
    refine ⟨outs, t, h, e1, no_leak_partial _ h0 h hv outs t e1 ?_ ?_⟩
    · intro x hx
      have : x.map HObj.val ∈ t.val := List.mem_map_of_mem hx
      rw [← hobjs] at this
      cases x with
      | none => rfl
      | some x => simp at this
    · refine List.pairwise_iff_getElem.2 fun j k hj hk _ i fuel fuel' d _ hb => ?_
      have hmem := List.getElem_mem hk
      rw [show ((writerLife ops obj n cts calls).zip outs)[k] = (.on i (.reader fuel' .opn), _) from
        Prod.ext hb rfl] at hmem
      have := (List.of_mem_zip hmem).1
      simp [writerLife] at this
  · rw [hval] at e1
    cases e1
  · exact absurd e1 ha

example : (HProg.run .empty (writerLife (pipeOps true true) ⟨CFrame.wire ⟨.accept, [[7]]⟩ ++
      CFrame.wire ⟨.finish, []⟩, [], false⟩ 2 [[7], [8]] [.opn, .write [1], .getControl T_ACCEPT, .close])
      ⟨1, [], [], false⟩).map (fun p => (p.1.1.drop 6, p.2.live)) =
    .ok ([.res .success, .res .success, .res .success, .res .success, .res .failure], []) := by
  decide +kernel

end Fstrm.Props
