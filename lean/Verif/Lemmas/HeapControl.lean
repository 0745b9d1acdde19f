import Verif.Lemmas.Heap

/-! Memory management of control objects and transports. -/

set_option autoImplicit false

namespace Fstrm

namespace HControl

theorem init_sim : HSim init (.ok Control.init) [] val blocks :=
  .alloc fun _ => .stepOk HVec.init_sim' (fr := [_]) (.refl _) fun v hv =>
    .pure (by simp [val, hv, Control.init]) (by perm)

theorem reset_sim (c : HControl) : HSim c.reset (.ok c.val.reset) c.blocks val blocks := by
  refine .use (by simp [blocks]) ?_
  refine .perm (pre := c.vec.elems.map Prod.fst ++ [c.self, c.vec.self, c.vec.arr]) (by perm) ?_
  refine HVec.freeElems_sim _ _ (by simp) (by simp) ?_
  refine .stepOk (HVec.reset_sim c.vec) (fr := [c.self]) (by perm) fun v hv => ?_
  exact .pure (by simp [val, Control.reset, hv]) (by perm)

theorem destroy_sim {γ δ : Type} {er : γ → δ} {blk : γ → List Ptr} {pre pre' : List Ptr}
    (c : Option HControl) {f : Unit → HExec γ} {w : Exec δ} (hp : pre'.Perm (optBlocks c ++ pre))
    (hf : HSim (f ()) w pre er blk) : HSim (destroy c >>= f) w pre' er blk := by
  refine .perm hp ?_
  cases c with
  | none => exact hf
  | some c =>
    simp only [destroy, bind_assoc]
    refine .stepOk (reset_sim c) (fr := pre) (.refl _) fun c' hc => ?_
    have he : c'.vec.elems = [] := by
      have := congrArg Control.cts hc
      simpa [val, Control.reset] using this
    refine HVec.destroy_sim (pre := c'.self :: pre) _ ?_ ?_
    · simp only [blocks, HVec.blocks, he]; perm
    · exact .free (.refl _) hf

theorem getType_sim (c : HControl) :
    HSim c.getType (.ok c.val.getType) c.blocks id (fun _ => c.blocks) :=
  .use (by simp [blocks]) (.pure rfl (.refl _))

theorem setType_sim (c : HControl) (t : Nat) :
    HSim (c.setType t) (.ok (c.val.setType t)) c.blocks (fun p => (p.1, p.2.val))
      (fun p => p.2.blocks) := by
  unfold setType Control.setType
  split
  · exact .use (by simp [blocks]) (.pure rfl (.refl _))
  · exact .pure rfl (.refl _)

theorem addCt_sim (c : HControl) (ct : Bytes) :
    HSim (c.addCt ct) (.ok (c.val.addCt ct)) c.blocks (fun p => (p.1, p.2.val))
      (fun p => p.2.blocks) := by
  refine .malloc fun p => .use (by simp) (.use (by simp [blocks]) ?_)
  refine .stepOk (HVec.add_sim c.vec p ct) (fr := [c.self]) (by perm) fun v hv => ?_
  exact .pure (by simp [val, Control.addCt, hv]) (by perm)

theorem matchCt_sim (c : HControl) (m : Option Bytes) :
    HSim (c.matchCt m) (.ok (c.val.matchCt m)) c.blocks id (fun _ => c.blocks) :=
  .useAll (fun _ h => h) (.pure rfl (.refl _))

theorem decodeFields_sim (fuel : Nat) (cur : RCur) (c : HControl) :
    HSim (decodeFields fuel cur c) (Control.decodeFields fuel cur c.val) c.blocks
      (fun p => (p.1, p.2.val)) (fun p => p.2.blocks) := by
  induction fuel generalizing cur c with
  | zero => exact .stuck _
  | succ fuel ih =>
    unfold decodeFields Control.decodeFields
    refine .ite (fun _ => .pure rfl (.refl _)) fun _ => .stepLift fun x => ?_
    rcases x with _ | ⟨v, cur⟩
    · exact .pure rfl (.refl _)
    · refine .ite (fun _ => .stepLift fun x => ?_) fun _ => .pure rfl (.refl _)
      rcases x with _ | ⟨n, cur⟩
      · exact .pure rfl (.refl _)
      · refine .ite (fun _ => .pure rfl (.refl _)) fun _ =>
          .ite (fun _ => .pure rfl (.refl _)) fun _ => .malloc fun p => .stepLift fun x => ?_
        rcases x with _ | ⟨bs, cur⟩
        · exact .free (.refl _) (.pure rfl (.refl _))
        · refine .use (by simp) (.use (by simp [blocks]) ?_)
          refine .stepOk (HVec.add_sim c.vec p bs) (fr := [c.self]) (by perm) fun v hv => ?_
          have : ({ c.val with cts := c.val.cts ++ [bs] } : Control) = ({ c with vec := v } : HControl).val := by
            simp [val, hv]
          simp only [this]
          exact .perm (by perm) (ih cur _)

theorem decodeBody_sim (cur : RCur) (c : HControl) :
    HSim (decodeBody cur c) (Control.decodeBody cur c.val) c.blocks
      (fun p => (p.1, p.2.val)) (fun p => p.2.blocks) := by
  refine .stepLift fun x => ?_
  rcases x with _ | ⟨v, cur⟩
  · exact .pure rfl (.refl _)
  · refine .ite (fun _ => .use (by simp [blocks]) ?_) fun _ => .pure rfl (.refl _)
    exact decodeFields_sim _ _ { c with type := v }

theorem decode_sim (c : HControl) (mem : Bytes) (len : Nat) (hdr : Bool) :
    HSim (c.decode mem len hdr) (c.val.decode mem len hdr) c.blocks
      (fun p => (p.1, p.2.val)) (fun p => p.2.blocks) := by
  unfold decode Control.decode
  refine .stepOk (reset_sim c) (fr := []) (by simp) fun c' hc => ?_
  rw [← hc, List.append_nil]
  simp only
  refine .ite (fun _ => .stepLift fun x => ?_) fun _ => ?_
  · rcases x with _ | ⟨v, cur⟩
    · exact .pure rfl (.refl _)
    · refine .ite (fun _ => .pure rfl (.refl _)) fun _ => .stepLift fun x => ?_
      rcases x with _ | ⟨v, cur⟩
      · exact .pure rfl (.refl _)
      · exact .ite (fun _ => .pure rfl (.refl _)) fun _ =>
          .ite (fun _ => .pure rfl (.refl _)) fun _ => decodeBody_sim _ _
  · exact .ite (fun _ => .pure rfl (.refl _)) fun _ => decodeBody_sim _ _

theorem encodedSize_sim (c : HControl) (hdr : Bool) :
    HSim (c.encodedSize hdr) (.ok (c.val.encodedSize hdr)) c.blocks id (fun _ => c.blocks) :=
  .useAll (fun _ h => h) (.pure rfl (.refl _))

theorem encode_sim (c : HControl) (mem : Bytes) (cap : Nat) (hdr : Bool) :
    HSim (c.encode mem cap hdr) (c.val.encode mem cap hdr) c.blocks id (fun _ => c.blocks) :=
  .useAll (fun _ h => h) (.last (fr := c.blocks) (.lift _) (.refl _) fun _ => .refl _)

theorem fresh_sim (c : Option HControl) :
    HSim (fresh c) (.ok (freshControl (c.map val))) (optBlocks c) val blocks := by
  cases c with
  | none => exact init_sim
  | some c => exact reset_sim c

theorem getD_sim (c : Option HControl) :
    HSim (getD c) (.ok ((c.map val).getD Control.init)) (optBlocks c) val blocks := by
  cases c with
  | none => exact init_sim
  | some c => exact .pure rfl (.refl _)

theorem addAllCts_sim (c : HControl) (xs : List (Ptr × Bytes)) (fr : List Ptr)
    (hx : ∀ x ∈ xs, x.1 ∈ fr) :
    HSim (c.addAllCts xs) (.ok (Fstrm.addAllCts c.val (xs.map Prod.snd))) (c.blocks ++ fr) val
      (fun c => c.blocks ++ fr) := by
  induction xs generalizing c with
  | nil => exact .pure rfl (.refl _)
  | cons x xs ih =>
    refine .use (by simp [hx x]) ?_
    refine .stepOk (addCt_sim c x.2) (fr := fr) (.refl _) ?_
    rintro ⟨res, c'⟩ hc
    simp only [Prod.ext_iff] at hc
    simp only [Fstrm.addAllCts, List.map_cons, List.foldl_cons, ← hc.2]
    exact ih c' fun y hy => hx y (by simp [hy])

end HControl

namespace HRdwr

variable {σ : Type}

theorem _root_.Fstrm.Rdwr.open_same (rw : Rdwr σ) : Post rw.open (fun p => p.2.ops = rw.ops) := by
  unfold Rdwr.open
  split
  · exact .ok rfl
  · refine Post.bind (P := fun _ => True) (fun _ _ => trivial) fun p _ => ?_
    exact .ite (fun _ => .ok rfl) fun _ => .ok rfl

theorem _root_.Fstrm.Rdwr.close_same (rw : Rdwr σ) : Post rw.close (fun p => p.2.ops = rw.ops) := by
  unfold Rdwr.close
  split
  · exact .ok rfl
  · refine .ite (fun _ => ?_) fun _ => .ok rfl
    exact Post.bind (P := fun _ => True) (fun _ _ => trivial) fun p _ => .ok rfl

theorem _root_.Fstrm.Rdwr.read_same (rw : Rdwr σ) (n : Nat) :
    Post (rw.read n) (fun p => p.2.2.ops = rw.ops) := by
  unfold Rdwr.read
  refine .ite (fun _ => .ok rfl) fun _ => ?_
  split
  · exact .ok rfl
  · refine Post.bind (P := fun _ => True) (fun _ _ => trivial) fun p _ => ?_
    refine .ite (fun _ => ?_) fun _ => .ite (fun _ => .error) fun _ => .ok rfl
    exact Post.bind (Rdwr.close_same _) fun p hp => .ok hp

theorem _root_.Fstrm.Rdwr.write_same (rw : Rdwr σ) (iov : List Bytes) :
    Post (rw.write iov) (fun p => p.2.ops = rw.ops) := by
  unfold Rdwr.write
  refine .ite (fun _ => .ok rfl) fun _ => ?_
  split
  · exact .ok rfl
  · refine Post.bind (P := fun _ => True) (fun _ _ => trivial) fun p _ => ?_
    refine .ite (fun _ => ?_) fun _ => .ok rfl
    exact Post.bind (Rdwr.close_same _) fun p hp => .ok hp

theorem blocks_same (r : HRdwr σ) {rw : Rdwr σ} (h : rw.ops = r.rw.ops) :
    r.blocks = ({ r with rw := rw } : HRdwr σ).blocks := by simp only [blocks, h]

theorem init_sim (ops : Ops σ) (obj : σ) (objs : List Ptr) :
    HSim (init ops obj objs) (.ok (Rdwr.init ops obj)) (if ops.destroy.isSome then objs else []) rw
      blocks := .alloc fun _ => .pure rfl (.refl _)

theorem destroy_sim (r : HRdwr σ) :
    HSim r.destroy r.rw.destroy r.blocks id (fun _ => []) := by
  refine .use (by simp [blocks]) (.ret (.stepLift fun p => ?_))
  unfold blocks
  split
  · exact .freeAll (pre := [r.self]) (by perm) (.free (.refl _) (.pure rfl (.refl _)))
  · exact .free (.refl _) (.pure rfl (.refl _))

theorem open_sim (r : HRdwr σ) :
    HSim r.open r.rw.open r.blocks (fun p => (p.1, p.2.rw)) (fun p => p.2.blocks) :=
  .useAll (fun _ h => h) (.ret (.stepLift' fun p hp => .pure rfl
    (by rw [blocks_same r (r.rw.open_same p hp)])))

theorem close_sim (r : HRdwr σ) :
    HSim r.close r.rw.close r.blocks (fun p => (p.1, p.2.rw)) (fun p => p.2.blocks) :=
  .useAll (fun _ h => h) (.ret (.stepLift' fun p hp => .pure rfl
    (by rw [blocks_same r (r.rw.close_same p hp)])))

theorem read_sim (r : HRdwr σ) (n : Nat) :
    HSim (r.read n) (r.rw.read n) r.blocks (fun p => (p.1, p.2.1, p.2.2.rw))
      (fun p => p.2.2.blocks) :=
  .useAll (fun _ h => h) (.ret (.stepLift' fun p hp => .pure rfl
    (by rw [blocks_same r (r.rw.read_same n p hp)])))

theorem write_sim (r : HRdwr σ) (iov : List Bytes) :
    HSim (r.write iov) (r.rw.write iov) r.blocks (fun p => (p.1, p.2.rw)) (fun p => p.2.blocks) :=
  .useAll (fun _ h => h) (.ret (.stepLift' fun p hp => .pure rfl
    (by rw [blocks_same r (r.rw.write_same iov p hp)])))

/-- The value of a result that contains a control object and a transport. -/
def rcVal (p : Res × HControl × Option Nat × HRdwr σ) : Res × Control × Option Nat × Rdwr σ :=
  (p.1, p.2.1.val, p.2.2.1, p.2.2.2.rw)

/-- Its blocks. -/
def rcBlocks (p : Res × HControl × Option Nat × HRdwr σ) : List Ptr :=
  p.2.2.2.blocks ++ p.2.1.blocks

theorem readControlBody_sim (r : HRdwr σ) (c : HControl) :
    HSim (r.readControlBody c) (r.rw.readControlBody c.val) (r.blocks ++ c.blocks) rcVal rcBlocks := by
  refine .step (read_sim r 4) (.refl _) ?_
  rintro ⟨res, tmp, r⟩
  refine .ite (fun _ => .pure rfl (.refl _)) fun _ => .ite (fun _ => .pure rfl (.refl _)) fun _ =>
    .ite (fun _ => .stuck _) fun _ => ?_
  refine .step (read_sim r _) (.refl _) ?_
  rintro ⟨res, frame, r⟩
  refine .ite (fun _ => .pure rfl (.refl _)) fun _ => ?_
  refine .step (HControl.decode_sim c _ _ _) List.perm_append_comm ?_
  rintro ⟨res, c⟩
  refine .ite (fun _ => .pure rfl List.perm_append_comm) fun _ => ?_
  refine .stepOk (HControl.getType_sim c) (.refl _) ?_
  rintro ⟨res, type⟩ ht
  have ht : c.val.getType = (res, type) := ht.symm
  rw [ht]
  exact .pure rfl List.perm_append_comm

theorem readControlFrame_sim (r : HRdwr σ) (c : HControl) (esc : Bool) :
    HSim (r.readControlFrame c esc) (r.rw.readControlFrame c.val esc) (r.blocks ++ c.blocks) rcVal
      rcBlocks := by
  refine .ite (fun _ => ?_) fun _ => readControlBody_sim r c
  refine .step (read_sim r 4) (.refl _) ?_
  rintro ⟨res, tmp, r⟩
  exact .ite (fun _ => .pure rfl (.refl _)) fun _ => .ite (fun _ => .pure rfl (.refl _)) fun _ =>
    readControlBody_sim r c

theorem readControl_sim (r : HRdwr σ) (c : Option HControl) (wanted : Nat) :
    HSim (r.readControl c wanted) (r.rw.readControl (c.map HControl.val) wanted)
      (r.blocks ++ HControl.optBlocks c) (fun p => (p.1, p.2.1.map HControl.val, p.2.2.rw))
      (fun p => p.2.2.blocks ++ HControl.optBlocks p.2.1) := by
  refine .stepOk (HControl.getD_sim c) List.perm_append_comm fun c' hc => ?_
  unfold Rdwr.readControl
  rw [← hc]
  refine .step (readControlFrame_sim r c' true) (fr := []) (by perm) ?_
  rintro ⟨res, c, type, r⟩
  exact .ite (fun _ => .pure rfl (by simp [rcBlocks]; rfl)) fun _ =>
    .ite (fun _ => .pure rfl (by simp [rcBlocks]; rfl)) fun _ => .pure rfl (by simp [rcBlocks]; rfl)

theorem writeControlFrame_sim (r : HRdwr σ) (c : HControl) :
    HSim (r.writeControlFrame c) (r.rw.writeControlFrame c.val) (r.blocks ++ c.blocks)
      (fun p => (p.1, p.2.rw)) (fun p => p.2.blocks ++ c.blocks) := by
  unfold writeControlFrame Rdwr.writeControlFrame
  refine .stepOk (HControl.encodedSize_sim c true) List.perm_append_comm fun o ho => ?_
  have ho : c.val.encodedSize true = o := ho.symm
  rw [ho]
  cases o with
  | none => exact .pure rfl List.perm_append_comm
  | some size =>
    refine .ite (fun _ => .stuck _) fun _ => ?_
    refine .step (HControl.encode_sim c _ _ _) (.refl _) ?_
    rintro ⟨res, frame, len⟩
    refine .ite (fun _ => .pure rfl List.perm_append_comm) fun _ => ?_
    exact .last (write_sim r _) List.perm_append_comm fun _ => .refl _

theorem writeControl_sim (r : HRdwr σ) (type : Nat) :
    HSim (r.writeControl type) (r.rw.writeControl type none) r.blocks (fun p => (p.1, p.2.rw))
      (fun p => p.2.blocks) := by
  unfold writeControl Rdwr.writeControl
  refine .stepOk HControl.init_sim (fr := r.blocks) (.refl _) fun c hc => ?_
  rw [← hc]
  refine .stepOk (HControl.setType_sim c type) (.refl _) ?_
  rintro ⟨res, c'⟩ h
  rw [← h]
  refine .ite (fun _ => HControl.destroy_sim (some c') (.refl _) (.pure rfl (.refl _))) fun _ => ?_
  refine .ret ?_
  refine .step (writeControlFrame_sim r c') (fr := []) (by perm) ?_
  rintro ⟨res, r⟩
  exact HControl.destroy_sim (some c') (pre := r.blocks) (by perm) (.pure rfl (.refl _))

end HRdwr

end Fstrm
