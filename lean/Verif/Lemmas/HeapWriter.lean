import Verif.Lemmas.HeapControl
import Verif.Spec.History

/-! Memory management of writers. -/

set_option autoImplicit false

namespace Fstrm

theorem HVec.optDestroy_sim {γ δ : Type} {er : γ → δ} {blk : γ → List Ptr} {pre pre' : List Ptr}
    (v : Option HVec) {f : Unit → HExec γ} {w : Exec δ} (hp : pre'.Perm (HVec.optBlocks v ++ pre))
    (hf : HSim (f ()) w pre er blk) : HSim (HVec.optDestroy v >>= f) w pre' er blk := by
  refine .perm hp ?_
  cases v with
  | none => exact hf
  | some v =>
    simp only [HVec.optDestroy, bind_assoc]
    refine .perm (pre := v.elems.map Prod.fst ++ (v.self :: v.arr :: pre)) (by perm) ?_
    exact HVec.freeElems_sim _ _ (by simp) (by simp) (HVec.destroy_sim _ (.refl _) hf)

theorem HVec.getD_sim (v : Option HVec) :
    HSim (HVec.getD v) (.ok (HVec.optVals v)) (HVec.optBlocks v) (fun v => v.elems.map Prod.snd)
      HVec.blocks := by
  cases v with
  | none => exact HVec.init_sim'
  | some v => exact .pure rfl (.refl _)

theorem HVec.addCopy_sim (v : HVec) (ct : Bytes) :
    HSim (v.addCopy ct) (.ok (v.elems.map Prod.snd ++ [ct])) v.blocks
      (fun v => v.elems.map Prod.snd) HVec.blocks :=
  .malloc fun p => .use (by simp) (HVec.add_sim v p ct)

theorem HVec.copyFrom_sim (v src : HVec) (xs : List (Ptr × Bytes)) (hx : xs ⊆ src.elems) :
    HSim (v.copyFrom src xs) (.ok (v.elems.map Prod.snd ++ xs.map Prod.snd)) (v.blocks ++ src.blocks)
      (fun v => v.elems.map Prod.snd) (fun v => v.blocks ++ src.blocks) := by
  induction xs generalizing v with
  | nil => exact .pure (by simp) (.refl _)
  | cons x xs ih =>
    have hm : x.1 ∈ src.elems.map Prod.fst := List.mem_map.2 ⟨x, hx (by simp), rfl⟩
    refine .use (by simp [HVec.blocks]) (.use (by simp [HVec.blocks]) (.malloc fun p => ?_))
    refine .use ?_ (.use (by simp) ?_)
    · simp [HVec.blocks]
      grind
    · refine .stepOk (HVec.add_sim v p x.2) (fr := src.blocks) (by perm) fun v' hv => ?_
      have := ih v' fun y hy => hx (by simp [hy])
      rw [hv] at this
      simpa using this

theorem HVec.copyOpt_sim (v : HVec) (src : Option HVec) :
    HSim (v.copyOpt src) (.ok (v.elems.map Prod.snd ++ HVec.optVals src))
      (v.blocks ++ HVec.optBlocks src)
      (fun v => v.elems.map Prod.snd) (fun v => v.blocks ++ HVec.optBlocks src) := by
  cases src with
  | none => exact .pure (by simp [HVec.optVals]) (.refl _)
  | some src => exact HVec.copyFrom_sim v src _ (List.Subset.refl _)

namespace HWriterOptions

theorem init_sim : HSim init (.ok WriterOptions.init) [] val blocks :=
  .alloc fun _ => .pure rfl (by perm)

theorem destroy_sim {γ δ : Type} {er : γ → δ} {blk : γ → List Ptr} {pre pre' : List Ptr}
    (o : HWriterOptions) {f : Unit → HExec γ} {w : Exec δ} (hp : pre'.Perm (o.blocks ++ pre))
    (hf : HSim (f ()) w pre er blk) : HSim (destroy o >>= f) w pre' er blk := by
  refine .perm hp ?_
  simp only [destroy, bind_assoc]
  refine .use (by simp [blocks]) ?_
  exact HVec.optDestroy_sim _ (pre := o.self :: pre) (by perm) (.free (.refl _) hf)

theorem addCt_sim (o : HWriterOptions) (ct : Bytes) :
    HSim (o.addCt ct) (.ok (o.val.addCt ct)) o.blocks (fun p => (p.1, p.2.val))
      (fun p => p.2.blocks) := by
  unfold addCt WriterOptions.addCt
  split
  · exact .pure rfl (.refl _)
  · refine .use (by simp [blocks]) ?_
    refine .stepOk (HVec.getD_sim o.vec) (fr := [o.self]) (by perm) fun v hv => ?_
    refine .stepOk (HVec.addCopy_sim v ct) (.refl _) fun v' hv' => ?_
    exact .pure (by simp [val, HVec.optVals, hv', hv]) (by perm)

end HWriterOptions

namespace HWriter

variable {σ : Type}

/-- The blocks of the options, if any. -/
def woptBlocks : Option HWriterOptions → List Ptr
  | none => []
  | some o => o.blocks

theorem init_sim (o : Option HWriterOptions) (rdwr : HRdwr σ) :
    HSim (init o rdwr) (.ok (Writer.init (o.map HWriterOptions.val) rdwr.rw))
      (rdwr.blocks ++ woptBlocks o) (fun w => w.map val)
      (fun w => (match w with | none => rdwr.blocks | some w => w.blocks) ++ woptBlocks o) := by
  refine .use (by simp [HRdwr.blocks]) ?_
  unfold Writer.init
  split
  · exact .pure rfl (.refl _)
  · refine .alloc fun self => ?_
    refine .stepOk HVec.init_sim' (fr := self :: (rdwr.blocks ++ woptBlocks o)) (.refl _) fun v hv => ?_
    cases o with
    | none =>
      simp only [pure_bind]
      refine .alloc fun p => .alloc fun q => .pure ?_ ?_
      · simp [val, hv]
      · simp only [woptBlocks]; perm
    | some o =>
      simp only [bind_assoc]
      refine .use (by simp [woptBlocks, HWriterOptions.blocks]) ?_
      refine .stepOk (HVec.copyOpt_sim v o.vec) (fr := self :: (rdwr.blocks ++ [o.self]))
        (by simp only [woptBlocks]; perm) fun v' hv' => ?_
      refine .alloc fun p => .alloc fun q => .pure ?_ ?_
      · simp [val, hv', hv, HWriterOptions.val]
      · simp only [woptBlocks]; perm

theorem openUnidirectional_sim (w : HWriter σ) :
    HSim w.openUnidirectional w.val.openUnidirectional w.blocks (fun p => (p.1, p.2.val))
      (fun p => p.2.blocks) := by
  unfold openUnidirectional Writer.openUnidirectional
  refine .use (by simp [blocks]) ?_
  refine .stepOk (HControl.fresh_sim w.start)
    (fr := ({ w with start := none } : HWriter σ).blocks) (by perm) fun st hst => ?_
  have hst : freshControl w.val.start = st.val := hst.symm
  rw [hst]
  refine .stepOk (HControl.setType_sim st T_START) (.refl _) ?_
  rintro ⟨res, st⟩ h
  rw [← h]
  simp only
  refine .ite (fun _ => .pure rfl (by perm)) fun _ => .use (by simp [blocks, HVec.blocks]) ?_
  have key : ∀ st' : HControl,
      HSim (do
          let (res, rdwr) ← w.rdwr.writeControlFrame st'
          pure (res, { w with start := some st', rdwr := rdwr }))
        (do
          let (res, rdwr) ← w.val.rdwr.writeControlFrame st'.val
          Except.ok (res, { w.val with start := some st'.val, rdwr := rdwr }))
        (st'.blocks ++ ({ w with start := none } : HWriter σ).blocks) (fun p => (p.1, p.2.val))
        (fun p => p.2.blocks) := by
    intro st'
    refine .step (HRdwr.writeControlFrame_sim w.rdwr st')
      (fr := HControl.optBlocks w.ready ++ HControl.optBlocks w.accept ++
        HControl.optBlocks w.finish ++ [w.self, w.iovecs, w.lens] ++ w.vec.blocks) (by perm) ?_
    rintro ⟨res, rdwr⟩
    exact .pure rfl (by perm)
  cases he : w.vec.elems with
  | nil =>
    have : w.val.cts = [] := by simp [val, he]
    simp only [this, pure_bind]
    simpa only [this, pure_bind] using key st
  | cons x xs =>
    have : w.val.cts = x.2 :: xs.map Prod.snd := by simp [val, he]
    simp only [this, bind_assoc]
    refine .use (by simp [blocks, HVec.blocks]) (.use (by simp [blocks, HVec.blocks, he]) ?_)
    refine .stepOk (HControl.addCt_sim st x.2) (.refl _) ?_
    rintro ⟨r, st'⟩ h
    rw [← h]
    simpa only [this, pure_bind] using key st'

theorem sendStart_sim (w : HWriter σ) (ct : Option Bytes) :
    HSim (w.sendStart ct) (w.val.sendStart ct) w.blocks (fun p => (p.1, p.2.val))
      (fun p => p.2.blocks) := by
  unfold sendStart Writer.sendStart
  refine .stepOk (HControl.fresh_sim w.start)
    (fr := ({ w with start := none } : HWriter σ).blocks) (by perm) fun st hst => ?_
  have hst : freshControl w.val.start = st.val := hst.symm
  rw [hst]
  refine .stepOk (HControl.setType_sim st T_START) (.refl _) ?_
  rintro ⟨res, st⟩ h
  rw [← h]
  simp only
  refine .ite (fun _ => .pure rfl (by perm)) fun _ => .useAll ?_ ?_
  · intro p hp
    simp only [blocks, List.mem_append]
    exact .inr (.inr hp)
  have key : ∀ st' : HControl,
      HSim (do
          let (res, rdwr) ← w.rdwr.writeControlFrame st'
          pure (res, { w with start := some st', rdwr := rdwr }))
        (do
          let (res, rdwr) ← w.val.rdwr.writeControlFrame st'.val
          Except.ok (res, { w.val with start := some st'.val, rdwr := rdwr }))
        (st'.blocks ++ ({ w with start := none } : HWriter σ).blocks) (fun p => (p.1, p.2.val))
        (fun p => p.2.blocks) := by
    intro st'
    refine .step (HRdwr.writeControlFrame_sim w.rdwr st')
      (fr := HControl.optBlocks w.ready ++ HControl.optBlocks w.accept ++
        HControl.optBlocks w.finish ++ [w.self, w.iovecs, w.lens] ++ w.vec.blocks) (by perm) ?_
    rintro ⟨res, rdwr⟩
    exact .pure rfl (by perm)
  cases ct with
  | none =>
    simp only [pure_bind]
    exact key st
  | some ct =>
    simp only [bind_assoc]
    refine .stepOk (HControl.addCt_sim st ct) (.refl _) ?_
    rintro ⟨r, st'⟩ h
    rw [← h]
    exact key st'

theorem openBidirectional_sim (w : HWriter σ) :
    HSim w.openBidirectional w.val.openBidirectional w.blocks (fun p => (p.1, p.2.val))
      (fun p => p.2.blocks) := by
  unfold openBidirectional Writer.openBidirectional
  refine .use (by simp [blocks]) ?_
  refine .stepOk (HControl.fresh_sim w.ready)
    (fr := ({ w with ready := none } : HWriter σ).blocks) (by perm) fun rd hrd => ?_
  have hrd : freshControl w.val.ready = rd.val := hrd.symm
  rw [hrd]
  refine .stepOk (HControl.setType_sim rd T_READY) (.refl _) ?_
  rintro ⟨res, rd⟩ h
  rw [← h]
  simp only
  refine .ite (fun _ => .pure rfl (by perm)) fun _ =>
    .use (by simp [blocks, HVec.blocks]) (.use (by simp [blocks, HVec.blocks]) ?_)
  refine .stepOk (fr := []) (HControl.addAllCts_sim rd w.vec.elems
    ({ w with ready := none } : HWriter σ).blocks ?_) (by perm) fun rd' hrd' => ?_
  · intro x hx
    simp [blocks, HVec.blocks]
    grind
  have hrd' : addAllCts rd.val w.val.cts = rd'.val := hrd'.symm
  rw [hrd']
  refine .step (HRdwr.writeControlFrame_sim w.rdwr rd')
      (fr := HControl.optBlocks w.start ++ HControl.optBlocks w.accept ++
        HControl.optBlocks w.finish ++ [w.self, w.iovecs, w.lens] ++ w.vec.blocks) (by perm) ?_
  rintro ⟨res, rdwr⟩
  refine .ite (fun _ => .pure rfl (by perm)) fun _ => ?_
  refine .step (HRdwr.readControl_sim rdwr w.accept T_ACCEPT)
      (fr := HControl.optBlocks w.start ++ rd'.blocks ++
        HControl.optBlocks w.finish ++ [w.self, w.iovecs, w.lens] ++ w.vec.blocks) (by perm) ?_
  rintro ⟨res, accept, rdwr⟩
  refine .ite (fun _ => .pure rfl (by perm)) fun _ => ?_
  cases accept with
  | none => exact .stuck _
  | some acc =>
    refine .useAll ?_ (.useAll ?_ ?_)
    · intro p hp
      simp only [HControl.optBlocks, List.mem_append]
      exact .inl (.inr hp)
    · intro p hp
      simp only [List.mem_append]
      exact .inr (.inr hp)
    · simp only
      refine .ite (fun _ => .pure rfl (by perm)) fun _ => ?_
      exact .perm (by perm) (sendStart_sim _ _)

theorem open_sim (w : HWriter σ) :
    HSim w.open w.val.open w.blocks (fun p => (p.1, p.2.val)) (fun p => p.2.blocks) := by
  unfold HWriter.open Writer.open
  refine .use (by simp [blocks]) (.ite (fun _ => .pure rfl (.refl _)) fun _ => ?_)
  refine .step (HRdwr.open_sim w.rdwr) (fr := HControl.optBlocks w.ready ++ HControl.optBlocks w.accept ++
    HControl.optBlocks w.start ++ HControl.optBlocks w.finish ++
    [w.self, w.iovecs, w.lens] ++ w.vec.blocks) (by perm) ?_
  rintro ⟨res, rdwr⟩
  refine .ite (fun _ => .pure rfl (by perm)) fun _ => ?_
  have hb : HSim (if rdwr.rw.ops.rd.isSome then ({ w with rdwr := rdwr } : HWriter σ).openBidirectional
        else ({ w with rdwr := rdwr } : HWriter σ).openUnidirectional)
      (if rdwr.rw.ops.rd.isSome then ({ w with rdwr := rdwr } : HWriter σ).val.openBidirectional
        else ({ w with rdwr := rdwr } : HWriter σ).val.openUnidirectional)
      ({ w with rdwr := rdwr } : HWriter σ).blocks (fun p => (p.1, p.2.val)) (fun p => p.2.blocks) :=
    .ite (fun _ => openBidirectional_sim _) fun _ => openUnidirectional_sim _
  refine .step hb (fr := []) (by perm) ?_
  rintro ⟨res, w⟩
  exact .ite (fun _ => .pure rfl (by perm)) fun _ => .pure rfl (by perm)

theorem maybeOpen_sim (w : HWriter σ) :
    HSim w.maybeOpen w.val.maybeOpen w.blocks (fun p => (p.1, p.2.val)) (fun p => p.2.blocks) :=
  .use (by simp [blocks]) (.ite (fun _ => open_sim w) fun _ => .pure rfl (.refl _))

theorem close_sim (w : HWriter σ) :
    HSim w.close w.val.close w.blocks (fun p => (p.1, p.2.val)) (fun p => p.2.blocks) := by
  unfold close Writer.close
  refine .use (by simp [blocks]) (.ite (fun _ => .pure rfl (.refl _)) fun _ => ?_)
  refine .step (HRdwr.writeControl_sim w.rdwr T_STOP) (fr := HControl.optBlocks w.ready ++
    HControl.optBlocks w.accept ++ HControl.optBlocks w.start ++ HControl.optBlocks w.finish ++
    [w.self, w.iovecs, w.lens] ++ w.vec.blocks) (by perm) ?_
  rintro ⟨res, rdwr⟩
  refine .ite (fun _ => ?_) fun _ => .ite (fun _ => ?_) fun _ => ?_
  · refine .step (HRdwr.close_sim rdwr) (.refl _) ?_
    rintro ⟨res, rdwr⟩
    exact .pure rfl (by perm)
  · refine .step (HRdwr.readControl_sim rdwr w.finish T_FINISH) (fr := HControl.optBlocks w.ready ++
      HControl.optBlocks w.accept ++ HControl.optBlocks w.start ++
      [w.self, w.iovecs, w.lens] ++ w.vec.blocks) (by perm) ?_
    rintro ⟨res, fin, rdwr⟩
    refine .ite (fun _ => ?_) fun _ => ?_
    · refine .step (HRdwr.close_sim rdwr) (fr := HControl.optBlocks fin ++ (HControl.optBlocks w.ready ++
        HControl.optBlocks w.accept ++ HControl.optBlocks w.start ++
        [w.self, w.iovecs, w.lens] ++ w.vec.blocks)) (by perm) ?_
      rintro ⟨res, rdwr⟩
      exact .pure rfl (by perm)
    · refine .step (HRdwr.close_sim rdwr) (fr := HControl.optBlocks fin ++ (HControl.optBlocks w.ready ++
        HControl.optBlocks w.accept ++ HControl.optBlocks w.start ++
        [w.self, w.iovecs, w.lens] ++ w.vec.blocks)) (by perm) ?_
      rintro ⟨res, rdwr⟩
      exact .pure rfl (by perm)
  · refine .step (HRdwr.close_sim rdwr) (.refl _) ?_
    rintro ⟨res, rdwr⟩
    exact .pure rfl (by perm)

theorem writeIov_sim (w : HWriter σ) (iov : List Bytes) :
    HSim (w.writeIov iov) (w.val.writeIov iov) w.blocks (fun p => (p.1, p.2.val))
      (fun p => p.2.blocks) := by
  refine .use (by simp [blocks]) (.use (by simp [blocks]) (.use (by simp [blocks]) ?_))
  refine .stepLift fun iovecs => ?_
  refine .step (HRdwr.write_sim w.rdwr _) (fr := HControl.optBlocks w.ready ++
    HControl.optBlocks w.accept ++ HControl.optBlocks w.start ++ HControl.optBlocks w.finish ++
    [w.self, w.iovecs, w.lens] ++ w.vec.blocks) (by perm) ?_
  rintro ⟨res, rdwr⟩
  exact .pure rfl (by perm)

theorem writeIovStupid_sim (fuel : Nat) (w : HWriter σ) (iov : List Bytes) :
    HSim (writeIovStupid fuel w iov) (Writer.writeIovStupid fuel w.val iov) w.blocks
      (fun p => (p.1, p.2.val)) (fun p => p.2.blocks) := by
  induction fuel generalizing w iov with
  | zero => exact .ite (fun _ => .stuck _) fun _ => .pure rfl (.refl _)
  | succ fuel ih =>
    refine .ite (fun _ => ?_) fun _ => .pure rfl (.refl _)
    refine .step (writeIov_sim w _) (fr := []) (by perm) ?_
    rintro ⟨res, w⟩
    exact .ite (fun _ => .pure rfl (by perm)) fun _ => .perm (by perm) (ih _ _)

theorem writev_sim (w : HWriter σ) (iov : List Bytes) :
    HSim (w.writev iov) (w.val.writev iov) w.blocks (fun p => (p.1, p.2.val))
      (fun p => p.2.blocks) := by
  refine .ite (fun _ => .pure rfl (.refl _)) fun _ => ?_
  refine .step (maybeOpen_sim w) (fr := []) (by perm) ?_
  rintro ⟨res, w⟩
  refine .ite (fun _ => .pure rfl (by perm)) fun _ => .use (by simp [blocks]) ?_
  refine .perm (pre := w.blocks) (by perm) ?_
  exact .ite (fun _ => .ite (fun _ => .stuck _) fun _ => .ite (fun _ => writeIov_sim _ _)
    fun _ => writeIovStupid_sim _ _ _) fun _ => .pure rfl (.refl _)

theorem write_sim (w : HWriter σ) (d : Bytes) :
    HSim (w.write d) (w.val.write d) w.blocks (fun p => (p.1, p.2.val))
      (fun p => p.2.blocks) := writev_sim w [d]

theorem getControl_sim (w : HWriter σ) (t : Nat) :
    HSim (w.getControl t) (w.val.getControl t) w.blocks
      (fun p => (p.1, p.2.1.map HControl.val, p.2.2.val)) (fun p => p.2.2.blocks) := by
  refine .step (maybeOpen_sim w) (fr := []) (by perm) ?_
  rintro ⟨res, w⟩
  refine .ite (fun _ => .pure rfl (by perm)) fun _ => .use (by simp [blocks]) ?_
  refine .perm (pre := w.blocks) (by perm) ?_
  exact .ite (fun _ => .pure rfl (.refl _)) fun _ => .ite (fun _ => .pure rfl (.refl _)) fun _ =>
    .ite (fun _ => .pure rfl (.refl _)) fun _ => .ite (fun _ => .pure rfl (.refl _)) fun _ =>
    .pure rfl (.refl _)

theorem destroy_sim (w : HWriter σ) :
    HSim w.destroy w.val.destroy w.blocks id (fun _ => []) := by
  unfold destroy Writer.destroy
  refine .use (by simp [blocks]) ?_
  have hc : HSim (if w.state = .opened then w.close else Pure.pure (.failure, w))
      (if w.state = .opened then w.val.close else .ok (.failure, w.val)) w.blocks
      (fun p => (p.1, p.2.val)) (fun p => p.2.blocks) :=
    .ite (fun _ => close_sim w) fun _ => .pure rfl (.refl _)
  refine .step hc (fr := []) (by perm) ?_
  rintro ⟨res, w⟩
  refine HControl.destroy_sim _ (pre := ({ w with finish := none } : HWriter σ).blocks) (by perm) ?_
  refine HControl.destroy_sim _
    (pre := ({ w with finish := none, start := none } : HWriter σ).blocks) (by perm) ?_
  refine HControl.destroy_sim _
    (pre := ({ w with finish := none, start := none, accept := none } : HWriter σ).blocks) (by perm) ?_
  refine HControl.destroy_sim _
    (pre := w.rdwr.blocks ++ ([w.self, w.iovecs, w.lens] ++ w.vec.blocks)) (by perm) ?_
  refine .step (HRdwr.destroy_sim w.rdwr) (.refl _) ?_
  rintro ⟨res', rw⟩
  refine .perm (pre := w.vec.elems.map Prod.fst ++ [w.vec.self, w.vec.arr, w.iovecs, w.lens, w.self])
    (by perm) ?_
  refine HVec.freeElems_sim _ _ (by simp) (by simp) ?_
  refine HVec.destroy_sim _ (.refl _) ?_
  exact .free (.refl _) (.free (.refl _) (.free (.refl _) (.pure rfl (.refl _))))

end HWriter

end Fstrm
