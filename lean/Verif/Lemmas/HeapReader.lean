import Verif.Lemmas.HeapWriter

/-! Memory management of readers. -/

set_option autoImplicit false

namespace Fstrm

namespace HReaderOptions

theorem init_sim : HSim init (.ok ReaderOptions.init) [] val blocks :=
  .alloc fun _ => .use (by simp) (.pure rfl (by perm))

theorem destroy_sim {γ δ : Type} {er : γ → δ} {blk : γ → List Ptr} {pre pre' : List Ptr}
    (o : HReaderOptions) {f : Unit → HExec γ} {w : Exec δ} (hp : pre'.Perm (o.blocks ++ pre))
    (hf : HSim (f ()) w pre er blk) : HSim (destroy o >>= f) w pre' er blk := by
  refine .perm hp ?_
  simp only [destroy, bind_assoc]
  refine .use (by simp [blocks]) ?_
  exact HVec.optDestroy_sim _ (pre := o.self :: pre) (by perm) (.free (.refl _) hf)

theorem addCt_sim (o : HReaderOptions) (ct : Bytes) :
    HSim (o.addCt ct) (.ok (o.val.addCt ct)) o.blocks (fun p => (p.1, p.2.val))
      (fun p => p.2.blocks) := by
  unfold addCt ReaderOptions.addCt
  split
  · exact .pure rfl (.refl _)
  · refine .use (by simp [blocks]) ?_
    refine .stepOk (HVec.getD_sim o.vec) (fr := [o.self]) (by perm) fun v hv => ?_
    refine .stepOk (HVec.addCopy_sim v ct) (.refl _) fun v' hv' => ?_
    exact .pure (by simp [val, HVec.optVals, hv', hv]) (by perm)

theorem setMaxFrameSize_sim (o : HReaderOptions) (m : Nat) :
    HSim (o.setMaxFrameSize m) (.ok (o.val.setMaxFrameSize m)) o.blocks (fun p => (p.1, p.2.val))
      (fun p => p.2.blocks) := by
  unfold setMaxFrameSize ReaderOptions.setMaxFrameSize
  split
  · exact .pure rfl (.refl _)
  · exact .use (by simp [blocks]) (.pure rfl (.refl _))

end HReaderOptions

namespace HReader

variable {σ : Type}

/-- The blocks of the options, if any. -/
def roptBlocks : Option HReaderOptions → List Ptr
  | none => []
  | some o => o.blocks

/-- The blocks of the object and those it lost. -/
def all (r : HReader σ) : List Ptr := r.blocks ++ r.lost

theorem init_sim (o : Option HReaderOptions) (rdwr : HRdwr σ) :
    HSim (init o rdwr) (.ok (Reader.init (o.map HReaderOptions.val) rdwr.rw))
      (rdwr.blocks ++ roptBlocks o) (fun w => w.map val)
      (fun w => (match w with | none => rdwr.blocks | some w => w.all) ++ roptBlocks o) := by
  refine .use (by simp [HRdwr.blocks]) ?_
  unfold Reader.init
  split
  · exact .pure rfl (.refl _)
  · refine .alloc fun self => ?_
    refine .stepOk HVec.init_sim' (fr := self :: (rdwr.blocks ++ roptBlocks o)) (.refl _) fun v hv => ?_
    refine .alloc fun p => .alloc fun q => ?_
    cases o with
    | none =>
      refine .pure ?_ ?_
      · simp [val, hv, ReaderOptions.init]
      · simp only [roptBlocks, all]; perm
    | some o =>
      refine .use (by simp [roptBlocks, HReaderOptions.blocks]) ?_
      refine .stepOk (HVec.copyOpt_sim v o.vec) (fr := q :: p :: self :: (rdwr.blocks ++ [o.self]))
        (by simp only [roptBlocks]; perm) fun v' hv' => ?_
      refine .pure ?_ ?_
      · simp [val, hv', hv, HReaderOptions.val]
      · simp only [roptBlocks, all]; perm

/-- The blocks other than those of the transport. -/
def others (r : HReader σ) : List Ptr :=
  HControl.optBlocks r.start ++ HControl.optBlocks r.stop ++
    HControl.optBlocks r.ready ++ HControl.optBlocks r.accept ++ HControl.optBlocks r.tmp ++
    [r.self, r.buf, r.bufArr] ++ r.vec.blocks ++ r.lost

theorem openUnidirectional_sim (r : HReader σ) :
    HSim r.openUnidirectional r.val.openUnidirectional r.all (fun p => (p.1, p.2.val))
      (fun p => p.2.all) := by
  unfold openUnidirectional Reader.openUnidirectional
  refine .use (by simp [all, blocks]) ?_
  refine .step (HRdwr.readControl_sim r.rdwr r.start T_START)
    (fr := ({ r with start := none } : HReader σ).others) (by simp only [all, others]; perm) ?_
  rintro ⟨res, start, rdwr⟩
  refine .ite (fun _ => .pure rfl (by simp only [all, others]; perm)) fun _ => ?_
  cases start with
  | none => exact .stuck _
  | some st =>
    refine .useAll ?_ (.useAll ?_ ?_)
    · intro p hp
      simp only [others, List.mem_append]
      exact .inr (.inl (.inr hp))
    · intro p hp
      simp only [HControl.optBlocks, List.mem_append]
      exact .inl (.inr hp)
    · exact .ite (fun _ => .pure rfl (by simp only [all, others]; perm)) fun _ =>
        .pure rfl (by simp only [all, others]; perm)

theorem acceptLoop_sim (ready : HControl) (xs : List (Ptr × Bytes)) (acc : HControl) (fr : List Ptr)
    (hx : ∀ x ∈ xs, x.1 ∈ fr) :
    HSim (acceptLoop ready xs acc) (.ok (Reader.acceptLoop ready.val (xs.map Prod.snd) acc.val))
      (acc.blocks ++ (ready.blocks ++ fr)) HControl.val (fun c => c.blocks ++ (ready.blocks ++ fr)) := by
  induction xs generalizing acc with
  | nil => exact .pure rfl (.refl _)
  | cons x xs ih =>
    refine .use (by simp [hx x]) ?_
    refine .stepOk (HControl.matchCt_sim ready (some x.2)) (fr := acc.blocks ++ fr) (by perm) ?_
    rintro res hres
    have hres : ready.val.matchCt (some x.2) = res := hres.symm
    simp only [Reader.acceptLoop, List.map_cons, hres]
    split
    · refine .stepOk (HControl.addCt_sim acc x.2) (fr := ready.blocks ++ fr) (by perm) ?_
      rintro ⟨r, acc'⟩ h
      rw [← h]
      exact ih acc' fun y hy => hx y (by simp [hy])
    · exact .perm (by perm) (ih acc fun y hy => hx y (by simp [hy]))

theorem openBidirectional_sim (r : HReader σ) :
    HSim r.openBidirectional r.val.openBidirectional r.all (fun p => (p.1, p.2.val))
      (fun p => p.2.all) := by
  unfold openBidirectional Reader.openBidirectional
  refine .use (by simp [all, blocks]) ?_
  refine .step (HRdwr.readControl_sim r.rdwr r.ready T_READY)
    (fr := ({ r with ready := none } : HReader σ).others) (by simp only [all, others]; perm) ?_
  rintro ⟨res, ready, rdwr⟩
  refine .ite (fun _ => .pure rfl (by simp only [all, others]; perm)) fun _ => ?_
  cases ready with
  | none => exact .stuck _
  | some rdy =>
    refine .stepOk (HControl.fresh_sim r.accept)
      (fr := rdwr.blocks ++ ({ r with ready := some rdy, accept := none } : HReader σ).others)
      (by simp only [others]; perm) fun acc hacc => ?_
    have hacc : freshControl r.val.accept = acc.val := hacc.symm
    simp only [Option.map_some]
    rw [hacc]
    refine .stepOk (HControl.setType_sim acc T_ACCEPT) (.refl _) ?_
    rintro ⟨res, acc⟩ h
    rw [← h]
    simp only
    refine .ite (fun _ => .pure rfl (by simp only [all, others]; perm)) fun _ =>
      .use (by simp [others, HVec.blocks]) (.use (by simp [others, HVec.blocks]) ?_)
    refine .stepOk (fr := []) (acceptLoop_sim rdy r.vec.elems acc
      (rdwr.blocks ++ ({ r with ready := none, accept := none } : HReader σ).others) ?_)
      (by simp only [others]; perm) fun acc' hacc' => ?_
    · intro x hx
      simp [others, HVec.blocks]
      grind
    have hacc' : Reader.acceptLoop rdy.val r.val.cts acc.val = acc'.val := hacc'.symm
    rw [hacc']
    refine .step (HRdwr.writeControlFrame_sim rdwr acc')
      (fr := ({ r with ready := some rdy, accept := none } : HReader σ).others)
      (by simp only [others]; perm) ?_
    rintro ⟨res, rdwr⟩
    refine .ite (fun _ => .pure rfl (by simp only [all, others]; perm)) fun _ => ?_
    exact .perm (by simp only [all, others]; perm) (openUnidirectional_sim _)

theorem open_sim (r : HReader σ) :
    HSim r.open r.val.open r.all (fun p => (p.1, p.2.val)) (fun p => p.2.all) := by
  unfold HReader.open Reader.open
  refine .use (by simp [all, blocks]) (.ite (fun _ => .pure rfl (.refl _)) fun _ => ?_)
  refine .step (HRdwr.open_sim r.rdwr) (fr := r.others) (by simp only [all, others]; perm) ?_
  rintro ⟨res, rdwr⟩
  refine .ite (fun _ => .pure rfl (by simp only [all, others]; perm)) fun _ => ?_
  have hb : HSim (if rdwr.rw.ops.wr.isSome then ({ r with rdwr := rdwr } : HReader σ).openBidirectional
        else ({ r with rdwr := rdwr } : HReader σ).openUnidirectional)
      (if rdwr.rw.ops.wr.isSome then ({ r with rdwr := rdwr } : HReader σ).val.openBidirectional
        else ({ r with rdwr := rdwr } : HReader σ).val.openUnidirectional)
      ({ r with rdwr := rdwr } : HReader σ).all (fun p => (p.1, p.2.val)) (fun p => p.2.all) :=
    .ite (fun _ => openBidirectional_sim _) fun _ => openUnidirectional_sim _
  refine .step hb (fr := []) (by simp only [all, others]; perm) ?_
  rintro ⟨res, r⟩
  exact .ite (fun _ => .pure rfl (by simp only [all]; perm)) fun _ =>
    .pure rfl (by simp only [all]; perm)

theorem maybeOpen_sim (r : HReader σ) :
    HSim r.maybeOpen r.val.maybeOpen r.all (fun p => (p.1, p.2.val)) (fun p => p.2.all) :=
  .use (by simp [all, blocks]) (.ite (fun _ => open_sim r) fun _ => .pure rfl (.refl _))

theorem close_sim (r : HReader σ) :
    HSim r.close r.val.close r.all (fun p => (p.1, p.2.val)) (fun p => p.2.all) := by
  unfold close Reader.close
  refine .use (by simp [all, blocks]) (.ite (fun _ => .pure rfl (.refl _)) fun _ =>
    .ite (fun _ => ?_) fun _ => ?_)
  · refine .step (HRdwr.writeControl_sim r.rdwr T_FINISH) (fr := r.others)
      (by simp only [all, others]; perm) ?_
    rintro ⟨res, rdwr⟩
    refine .ite (fun _ => ?_) fun _ => ?_
    · refine .step (HRdwr.close_sim rdwr) (.refl _) ?_
      rintro ⟨res, rdwr⟩
      exact .pure rfl (by simp only [all, others]; perm)
    · refine .step (HRdwr.close_sim rdwr) (.refl _) ?_
      rintro ⟨res, rdwr⟩
      exact .pure rfl (by simp only [all, others]; perm)
  · refine .step (HRdwr.close_sim r.rdwr) (fr := r.others) (by simp only [all, others]; perm) ?_
    rintro ⟨res, rdwr⟩
    exact .pure rfl (by simp only [all, others]; perm)

theorem readBe32_sim (r : HReader σ) :
    HSim r.readBe32 r.val.readBe32 r.all (fun p => (p.1, p.2.1, p.2.2.val))
      (fun p => p.2.2.all) := by
  refine .use (by simp [all, blocks]) ?_
  refine .step (HRdwr.read_sim r.rdwr 4) (fr := r.others) (by simp only [all, others]; perm) ?_
  rintro ⟨res, tmp, rdwr⟩
  exact .ite (fun _ => .pure rfl (by simp only [all, others]; perm)) fun _ =>
    .pure rfl (by simp only [all, others]; perm)

theorem growBuf_sim (arr : Ptr) (fuel alloced n need : Nat) :
    HSim (growBuf arr fuel alloced n need) (growCap fuel alloced n need) [arr] Prod.snd
      (fun p => [p.1]) := by
  induction fuel generalizing arr alloced with
  | zero => exact .stuck _
  | succ fuel ih =>
    exact .ite (fun _ => .realloc (.refl _) fun q => ih q _) fun _ => .pure rfl (.refl _)

theorem reserve_sim (r : HReader σ) (len : Nat) :
    HSim (r.reserve len) (r.val.reserve len) r.all val all := by
  refine .use (by simp [all, blocks]) (.use (by simp [all, blocks]) ?_)
  refine .step (growBuf_sim r.bufArr _ _ _ _) (fr := r.rdwr.blocks ++ HControl.optBlocks r.start ++
    HControl.optBlocks r.stop ++
    HControl.optBlocks r.ready ++ HControl.optBlocks r.accept ++ HControl.optBlocks r.tmp ++
    [r.self, r.buf] ++ r.vec.blocks ++ r.lost) (by simp only [all]; perm) ?_
  rintro ⟨arr, cap⟩
  exact .pure rfl (by simp only [all]; perm)

/-- The value of the result of a read. -/
def rdVal (p : Res × Option (Ptr × Bytes) × HReader σ) : Res × Option Bytes × Reader σ :=
  (p.1, p.2.1.map Prod.snd, p.2.2.val)

theorem dataFrame_sim (r : HReader σ) (len : Nat) :
    HSim (r.dataFrame len) (r.val.dataFrame len) r.all rdVal (fun p => p.2.2.all) := by
  refine .ite (fun _ => .pure rfl (.refl _)) fun _ => ?_
  refine .step (reserve_sim r len) (fr := []) (by simp) fun r => ?_
  refine .ite (fun _ => .stuck _) fun _ => .use (by simp [all, blocks]) ?_
  refine .step (HRdwr.read_sim r.rdwr len) (fr := r.others) (by simp only [all, others]; perm) ?_
  rintro ⟨res, bs, rdwr⟩
  exact .ite (fun _ => .pure rfl (by simp only [all, others]; perm)) fun _ =>
    .pure rfl (by simp only [all, others]; perm)

theorem nextData_sim (fuel : Nat) (r : HReader σ) :
    HSim (nextData fuel r) (Reader.nextData fuel r.val) r.all rdVal (fun p => p.2.2.all) := by
  induction fuel generalizing r with
  | zero => exact .stuck _
  | succ fuel ih =>
    unfold nextData Reader.nextData
    refine .step (readBe32_sim r) (fr := []) (by simp) ?_
    rintro ⟨res, len, r⟩
    simp only [List.append_nil]
    refine .ite (fun _ => .pure rfl (by simp only [all]; perm)) fun _ =>
      .ite (fun _ => dataFrame_sim r len) fun _ => ?_
    refine .stepOk (HControl.getD_sim r.tmp) (fr := r.rdwr.blocks ++
      ({ r with tmp := none } : HReader σ).others) (by simp only [all, others]; perm) fun tmp htmp => ?_
    have htmp : r.val.tmp.getD Control.init = tmp.val := htmp.symm
    rw [htmp]
    refine .step (HRdwr.readControlFrame_sim r.rdwr tmp false) (fr :=
      ({ r with tmp := none } : HReader σ).others) (by perm) ?_
    rintro ⟨res, tmp, type, rdwr⟩
    simp only [HRdwr.rcBlocks]
    refine .ite (fun _ => .pure rfl (by simp only [all, others]; perm)) fun _ =>
      .ite (fun _ => .pure rfl (by simp only [all, others]; perm)) fun _ => ?_
    exact .perm (by simp only [all, others]; perm) (ih _)

theorem read_sim (fuel : Nat) (r : HReader σ) :
    HSim (read fuel r) (Reader.read fuel r.val) r.all rdVal (fun p => p.2.2.all) := by
  refine .step (maybeOpen_sim r) (fr := []) (by simp) ?_
  rintro ⟨res, r⟩
  simp only [List.append_nil]
  exact .ite (fun _ => .pure rfl (.refl _)) fun _ => .use (by simp [all, blocks])
    (.ite (fun _ => nextData_sim fuel r) fun _ => .ite (fun _ => .pure rfl (.refl _)) fun _ =>
      .pure rfl (.refl _))

theorem getControl_sim (r : HReader σ) (t : Nat) :
    HSim (r.getControl t) (r.val.getControl t) r.all
      (fun p => (p.1, p.2.1.map HControl.val, p.2.2.val)) (fun p => p.2.2.all) := by
  refine .step (maybeOpen_sim r) (fr := []) (by simp) ?_
  rintro ⟨res, r⟩
  simp only [List.append_nil]
  refine .ite (fun _ => .pure rfl (.refl _)) fun _ => .use (by simp [all, blocks]) ?_
  exact .ite (fun _ => .pure rfl (.refl _)) fun _ => .ite (fun _ => .pure rfl (.refl _)) fun _ =>
    .ite (fun _ => .pure rfl (.refl _)) fun _ => .ite (fun _ => .pure rfl (.refl _)) fun _ =>
    .pure rfl (.refl _)

/-- `close` loses nothing. -/
theorem close_sim' (r : HReader σ) :
    HSim r.close r.val.close r.blocks (fun p => (p.1, p.2.val)) (fun p => p.2.blocks) := by
  unfold close Reader.close
  refine .use (by simp [blocks]) (.ite (fun _ => .pure rfl (.refl _)) fun _ =>
    .ite (fun _ => ?_) fun _ => ?_)
  · refine .step (HRdwr.writeControl_sim r.rdwr T_FINISH)
      (fr := ({ r with lost := [] } : HReader σ).others) (by simp only [others]; perm) ?_
    rintro ⟨res, rdwr⟩
    refine .ite (fun _ => ?_) fun _ => ?_
    · refine .step (HRdwr.close_sim rdwr) (.refl _) ?_
      rintro ⟨res, rdwr⟩
      exact .pure rfl (by simp only [others]; perm)
    · refine .step (HRdwr.close_sim rdwr) (.refl _) ?_
      rintro ⟨res, rdwr⟩
      exact .pure rfl (by simp only [others]; perm)
  · refine .step (HRdwr.close_sim r.rdwr) (fr := ({ r with lost := [] } : HReader σ).others)
      (by simp only [others]; perm) ?_
    rintro ⟨res, rdwr⟩
    exact .pure rfl (by simp only [others]; perm)

theorem destroy_sim (r : HReader σ) :
    HSim r.destroy r.val.destroy r.blocks id (fun _ => []) := by
  unfold destroy Reader.destroy
  refine .use (by simp [blocks]) ?_
  have hc : HSim (if r.state = .opened ∨ r.state = .closing then r.close else Pure.pure (.failure, r))
      (if r.state = .opened ∨ r.state = .closing then r.val.close else .ok (.failure, r.val)) r.blocks
      (fun p => (p.1, p.2.val)) (fun p => p.2.blocks) :=
    .ite (fun _ => close_sim' r) fun _ => .pure rfl (.refl _)
  refine .step hc (fr := []) (by perm) ?_
  rintro ⟨res, r⟩
  refine HControl.destroy_sim _ (pre := ({ r with tmp := none } : HReader σ).blocks) (by perm) ?_
  refine HControl.destroy_sim _
    (pre := ({ r with tmp := none, accept := none } : HReader σ).blocks) (by perm) ?_
  refine HControl.destroy_sim _
    (pre := ({ r with tmp := none, accept := none, ready := none } : HReader σ).blocks) (by perm) ?_
  refine HControl.destroy_sim _ 
    (pre := { r with tmp := none, accept := none, ready := none, stop := none }.blocks) (by perm) ?_
  refine HControl.destroy_sim _
    (pre := r.rdwr.blocks ++ ([r.buf, r.bufArr, r.self] ++ r.vec.blocks)) (by perm) ?_
  refine .step (HRdwr.destroy_sim r.rdwr) (.refl _) ?_
  rintro ⟨res', rw⟩
  refine .use (by simp) ?_
  refine .free (pre := [r.buf, r.self] ++ r.vec.blocks) (by perm) ?_
  refine .free (pre := [r.self] ++ r.vec.blocks) (by perm) ?_
  refine .perm (pre := r.vec.elems.map Prod.fst ++ [r.vec.self, r.vec.arr, r.self])
    (by perm) ?_
  refine HVec.freeElems_sim _ _ (by simp) (by simp) ?_
  refine HVec.destroy_sim _ (.refl _) ?_
  exact .free (.refl _) (.pure rfl (.refl _))

end HReader

end Fstrm
