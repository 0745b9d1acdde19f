import Verif.Lemmas.HeapKeep
import Verif.Spec.HeapHistory

/-! Client programs own exactly the blocks of their objects. -/

set_option autoImplicit false

namespace Fstrm

variable {σ : Type}

/-- The blocks of an object; for a reader also those it lost. -/
def HObj.blocks : HObj σ → List Ptr
  | .control c => c.blocks
  | .wopt o => o.blocks
  | .ropt o => o.blocks
  | .rdwr r => r.blocks
  | .writer w => w.blocks
  | .reader r => r.blocks ++ r.lost

/-- The blocks of the object at one place of the table. -/
def HProg.slot (o : Option (HObj σ)) : List Ptr := o.elim [] HObj.blocks

/-- The blocks of all objects, and the lost ones. -/
def HProg.blocks (t : HProg σ) : List Ptr := t.objs.flatMap slot ++ t.lost

theorem HControl.step_sim (c : HControl) (op : COp) :
    HSim (c.step op) (c.val.step op) c.blocks (fun p => (p.1, p.2.val)) (fun p => p.2.blocks) := by
  cases op with
  | reset =>
    exact .stepOk (HControl.reset_sim c) (fr := []) (by simp) fun c' h =>
      .pure (by rw [h]) (by simp)
  | setType t =>
    exact .stepOk (HControl.setType_sim c t) (fr := []) (by simp) fun c' h =>
      .pure (by rw [← h]) (by simp)
  | addCt ct =>
    exact .stepOk (HControl.addCt_sim c ct) (fr := []) (by simp) fun c' h =>
      .pure (by rw [← h]) (by simp)
  | decode mem len hdr =>
    exact .step (HControl.decode_sim c mem len hdr) (fr := []) (by simp)
      fun c' => .pure rfl (by simp)
  | getType =>
    exact .stepOk (HControl.getType_sim c) (fr := []) (by simp) fun p h =>
      .pure (by rw [← h]; rfl) (by simp)
  | numCt =>
    exact .stepOk (β := Nat) (b := c.val.numCt) (er := id) (blk := fun _ => c.blocks)
      (.use (by simp [HControl.blocks]) (.use (by simp [HControl.blocks, HVec.blocks])
        (.pure rfl (.refl _)))) (fr := []) (by simp) fun p h => .pure (by rw [← h]; rfl) (by simp)
  | getCt idx =>
    simp only [HControl.step, HControl.getCt, bind_assoc, pure_bind]
    refine .use (by simp [HControl.blocks]) (.use (by simp [HControl.blocks, HVec.blocks])
        (.use (by simp [HControl.blocks, HVec.blocks]) ?_))
    show HSim (match c.vec.elems[idx]? with
      | some (q, d) => do
        use q
        pure (Out.ct (some d), c)
      | none => pure (Out.ct none, c)) _ _ _ _
    split
    · rename_i q d he
      refine .use ?_ (.pure ?_ (.refl _))
      · have := List.mem_of_getElem? he
        simp only [HControl.blocks, HVec.blocks, List.mem_cons, List.mem_map]
        exact .inr (.inr (.inr ⟨_, this, rfl⟩))
      · simp [HControl.val, Control.getCt, he]
    · rename_i he
      exact .pure (by simp [HControl.val, Control.getCt, he]) (.refl _)
  | matchCt m =>
    exact .stepOk (HControl.matchCt_sim c m) (fr := []) (by simp) fun p h =>
      .pure (by rw [← h]; rfl) (by simp)
  | encodedSize hdr =>
    exact .stepOk (HControl.encodedSize_sim c hdr) (fr := []) (by simp) fun p h =>
      .pure (by rw [← h]; rfl) (by simp)
  | encode mem cap hdr =>
    exact .step (HControl.encode_sim c mem cap hdr) (fr := []) (by simp)
      fun p => .pure rfl (by simp)

theorem HWriter.step_sim (w : HWriter σ) (op : WOp) :
    HSim (w.step op) (w.val.step op) w.blocks (fun p => (p.1, p.2.val)) (fun p => p.2.blocks) := by
  cases op with
  | opn =>
    exact HWriter.open_sim w
  | write d =>
    exact HWriter.write_sim w d
  | writev ds =>
    exact HWriter.writev_sim w ds
  | getControl t =>
    exact .step (HWriter.getControl_sim w t) (fr := []) (by simp) fun p =>
      .pure rfl (by simp)
  | close =>
    exact HWriter.close_sim w

theorem HReader.step_sim (fuel : Nat) (r : HReader σ) (op : ROp) :
    HSim (r.step fuel op) (r.val.step fuel op) r.all (fun p => (p.1, p.2.1, p.2.2.val))
      (fun p => p.2.2.all) := by
  cases op with
  | opn =>
    exact .step (HReader.open_sim r) (fr := []) (by simp) fun p => .pure rfl (by simp)
  | read =>
    refine .ret (.stepPost (HReader.read_sim fuel r) (HReader.read_keep fuel r) (fr := []) (by simp) ?_)
    rintro ⟨res, _ | ⟨q, d⟩, r⟩ hk
    · exact .pure rfl (by simp)
    · have := hk.data q d rfl
      refine .use ?_ (.pure rfl (by simp))
      rw [this]
      simp [HReader.all, HReader.blocks]
  | getControl t =>
    exact .step (HReader.getControl_sim r t) (fr := []) (by simp) fun p =>
      .pure rfl (by simp)
  | close =>
    exact .step (HReader.close_sim r) (fr := []) (by simp) fun p => .pure rfl (by simp)

/-- The value of the outcome of a call on an object. -/
def HObj.outVal (p : Out × Option (HObj σ) × List Ptr) : Out × Option (Obj σ) :=
  (p.1, p.2.1.map HObj.val)

theorem HObj.step_sim (o : HObj σ) (op : ObjOp) :
    HSim (o.step op) (o.val.step op) o.blocks HObj.outVal
      (fun p => HProg.slot p.2.1 ++ p.2.2) := by
  have hskip : HSim (pure (.skip, some o, [])) (.ok (.skip, some o.val)) o.blocks HObj.outVal
      (fun p => HProg.slot p.2.1 ++ p.2.2) := .pure rfl (by simp [HProg.slot])
  cases o with
  | control c =>
    cases op with
    | control op =>
      exact .step (HControl.step_sim c op) (fr := []) (by simp [HObj.blocks]) fun p =>
        .pure rfl (by simp [HProg.slot, HObj.blocks])
    | destroy =>
      exact HControl.destroy_sim _ (pre := []) (by simp [HObj.blocks, HControl.optBlocks])
        (.pure rfl (.refl _))
    | _ => exact hskip
  | wopt o =>
    cases op with
    | woptAddCt ct =>
      exact .stepOk (HWriterOptions.addCt_sim o ct) (fr := []) (by simp [HObj.blocks])
        fun p h => .pure (by simp [← h, outVal, val]) (by simp [HProg.slot, HObj.blocks])
    | destroy =>
      exact HWriterOptions.destroy_sim _ (pre := []) (by simp [HObj.blocks])
        (.pure rfl (.refl _))
    | _ => exact hskip
  | ropt o =>
    cases op with
    | roptAddCt ct =>
      exact .stepOk (HReaderOptions.addCt_sim o ct) (fr := []) (by simp [HObj.blocks])
        fun p h => .pure (by simp [← h, outVal, val]) (by simp [HProg.slot, HObj.blocks])
    | roptSetMax ct =>
      exact .stepOk (HReaderOptions.setMaxFrameSize_sim o ct) (fr := [])
        (by simp [HObj.blocks])
        fun p h => .pure (by simp [← h, outVal, val]) (by simp [HProg.slot, HObj.blocks])
    | destroy =>
      exact HReaderOptions.destroy_sim _ (pre := []) (by simp [HObj.blocks])
        (.pure rfl (.refl _))
    | _ => exact hskip
  | rdwr r =>
    cases op with
    | destroy =>
      exact .step (HRdwr.destroy_sim r) (fr := []) (by simp [HObj.blocks]) fun p =>
        .pure rfl (.refl _)
    | _ => exact hskip
  | writer w =>
    cases op with
    | writer op =>
      exact .step (HWriter.step_sim w op) (fr := []) (by simp [HObj.blocks]) fun p =>
        .pure rfl (by simp [HProg.slot, HObj.blocks])
    | destroy =>
      exact .step (HWriter.destroy_sim w) (fr := []) (by simp [HObj.blocks]) fun p =>
        .pure rfl (.refl _)
    | _ => exact hskip
  | reader r =>
    cases op with
    | reader fuel op =>
      exact .step (HReader.step_sim fuel r op) (fr := [])
        (by simp [HObj.blocks, HReader.all]) fun p =>
        .pure rfl (by simp [HProg.slot, HObj.blocks, HReader.all])
    | destroy =>
      exact .step (HReader.destroy_sim r) (fr := r.lost) (by simp [HObj.blocks]) fun p =>
        .pure rfl (.refl _)
    | _ => exact hskip

/-! ## The table -/

theorem flatMap_perm_eraseIdx {α β : Type} (f : α → List β) (l : List α) (i : Nat) (h : i < l.length) :
    (l.flatMap f).Perm (f l[i] ++ (l.eraseIdx i).flatMap f) := by
  have := ((List.getElem_cons_eraseIdx_perm h).flatMap_right f).symm
  simpa using this

theorem flatMap_set_perm {α β : Type} (f : α → List β) (l : List α) (i : Nat) (y : α)
    (h : i < l.length) : ((l.set i y).flatMap f).Perm (f y ++ (l.eraseIdx i).flatMap f) := by
  have := flatMap_perm_eraseIdx f (l.set i y) i (by simpa using h)
  simpa [List.eraseIdx_set_eq] using this

theorem flatMap_perm_mem {α β : Type} (f : α → List β) (l : List α) (x : α) (h : x ∈ l) :
    ∃ R, (l.flatMap f).Perm (f x ++ R) := by
  obtain ⟨s, t, rfl⟩ := List.append_of_mem h
  refine ⟨s.flatMap f ++ t.flatMap f, ?_⟩
  simp only [List.flatMap_append, List.flatMap_cons]
  rw [← List.append_assoc, ← List.append_assoc]
  exact List.perm_append_comm.append_right _

namespace HProg

theorem allocs_sim (n : Nat) : HSim (allocs n) (.ok n) [] List.length id := by
  induction n with
  | zero => exact .pure rfl (.refl _)
  | succ n ih =>
    refine .alloc fun p => .stepOk ih (fr := [p]) (.refl _) fun ps h => .pure (by simp [h]) ?_
    exact List.perm_append_comm

theorem slot_rdwr {t : HProg σ} {i : Nat} {r : HRdwr σ} (h : t.rdwr? i = some r) :
    t.objs[i]? = some (some (.rdwr r)) := by
  unfold rdwr? at h
  split at h
  · rename_i r' he; cases h; exact he
  · cases h

theorem slot_wopt {t : HProg σ} {i : Nat} {o : Option HWriterOptions} (h : t.wopt? (some i) = some o) :
    ∃ o', o = some o' ∧ t.objs[i]? = some (some (.wopt o')) := by
  simp only [wopt?] at h
  split at h
  · rename_i r' he; cases h; exact ⟨_, rfl, he⟩
  · cases h

theorem slot_ropt {t : HProg σ} {i : Nat} {o : Option HReaderOptions} (h : t.ropt? (some i) = some o) :
    ∃ o', o = some o' ∧ t.objs[i]? = some (some (.ropt o')) := by
  simp only [ropt?] at h
  split at h
  · rename_i r' he; cases h; exact ⟨_, rfl, he⟩
  · cases h

theorem val_get (t : HProg σ) (i : Nat) : t.val[i]? = t.objs[i]?.map (Option.map HObj.val) := by
  simp [val]

theorem val_rdwr (t : HProg σ) (i : Nat) : t.val.rdwr? i = (t.rdwr? i).map HRdwr.rw := by
  unfold Prog.rdwr? rdwr?
  rw [val_get]
  rcases t.objs[i]? with _ | _ | o
  · rfl
  · rfl
  · cases o <;> rfl

theorem val_wopt (t : HProg σ) (i : Option Nat) :
    t.val.wopt? i = (t.wopt? i).map (Option.map HWriterOptions.val) := by
  cases i with
  | none => rfl
  | some i =>
    unfold Prog.wopt? wopt?
    simp only
    rw [val_get]
    rcases t.objs[i]? with _ | _ | o
    · rfl
    · rfl
    · cases o <;> rfl

theorem val_ropt (t : HProg σ) (i : Option Nat) :
    t.val.ropt? i = (t.ropt? i).map (Option.map HReaderOptions.val) := by
  cases i with
  | none => rfl
  | some i =>
    unfold Prog.ropt? ropt?
    simp only
    rw [val_get]
    rcases t.objs[i]? with _ | _ | o
    · rfl
    · rfl
    · cases o <;> rfl

theorem blocks_snoc (t : HProg σ) (o : Option (HObj σ)) :
    ({ t with objs := t.objs ++ [o] } : HProg σ).blocks.Perm (slot o ++ t.blocks) := by
  unfold blocks
  simp only [List.flatMap_append, List.flatMap_cons, List.flatMap_nil, List.append_nil]
  rw [← List.append_assoc]
  exact List.perm_append_comm.append_right _

theorem val_snoc (t : HProg σ) (o : Option (HObj σ)) :
    ({ t with objs := t.objs ++ [o] } : HProg σ).val = t.val ++ [o.map HObj.val] := by
  simp [val]

theorem val_set (t : HProg σ) (i : Nat) (o : Option (HObj σ)) (ls : List Ptr) :
    (⟨t.objs.set i o, ls⟩ : HProg σ).val = t.val.set i (o.map HObj.val) := by
  simp [val, List.map_set]

/-- The blocks of all objects but one, and the lost ones. -/
def rest (t : HProg σ) (i : Nat) : List Ptr := (t.objs.eraseIdx i).flatMap slot ++ t.lost

theorem blocks_at {t : HProg σ} {i : Nat} {o : Option (HObj σ)} (h : t.objs[i]? = some o) :
    t.blocks.Perm (slot o ++ t.rest i) := by
  obtain ⟨hi, rfl⟩ := List.getElem?_eq_some_iff.1 h
  unfold blocks rest
  rw [← List.append_assoc]
  exact (flatMap_perm_eraseIdx slot t.objs i hi).append_right _

theorem blocks_set {t : HProg σ} {i : Nat} {o : Option (HObj σ)} (h : t.objs[i]? = some o)
    (o' : Option (HObj σ)) (ls : List Ptr) :
    (⟨t.objs.set i o', ls ++ t.lost⟩ : HProg σ).blocks.Perm (slot o' ++ ls ++ t.rest i) := by
  obtain ⟨hi, rfl⟩ := List.getElem?_eq_some_iff.1 h
  have := (flatMap_set_perm slot t.objs i o' hi).append_right (ls ++ t.lost)
  refine this.trans ?_
  unfold rest
  refine List.perm_iff_count.2 fun _ => ?_
  simp only [List.count_append]
  omega

/-- The options at another index are among the remaining blocks. -/
theorem rest_wopt {t : HProg σ} {i : Nat} {r : HRdwr σ} (hr : t.objs[i]? = some (some (.rdwr r)))
    {j : Option Nat} {o : Option HWriterOptions} (h : t.wopt? j = some o) :
    ∃ R, (t.rest i).Perm (HWriter.woptBlocks o ++ R) := by
  cases j with
  | none => cases h; exact ⟨_, .refl _⟩
  | some j =>
    obtain ⟨o', rfl, hj⟩ := slot_wopt h
    have hm : some (.wopt o') ∈ t.objs.eraseIdx i := by
      rw [List.mem_eraseIdx_iff_getElem?]
      refine ⟨j, ?_, hj⟩
      rintro rfl
      rw [hr] at hj
      cases hj
    obtain ⟨R, hR⟩ := flatMap_perm_mem slot _ _ hm
    exact ⟨R ++ t.lost, by rw [← List.append_assoc]; exact hR.append_right _⟩

theorem rest_ropt {t : HProg σ} {i : Nat} {r : HRdwr σ} (hr : t.objs[i]? = some (some (.rdwr r)))
    {j : Option Nat} {o : Option HReaderOptions} (h : t.ropt? j = some o) :
    ∃ R, (t.rest i).Perm (HReader.roptBlocks o ++ R) := by
  cases j with
  | none => cases h; exact ⟨_, .refl _⟩
  | some j =>
    obtain ⟨o', rfl, hj⟩ := slot_ropt h
    have hm : some (.ropt o') ∈ t.objs.eraseIdx i := by
      rw [List.mem_eraseIdx_iff_getElem?]
      refine ⟨j, ?_, hj⟩
      rintro rfl
      rw [hr] at hj
      cases hj
    obtain ⟨R, hR⟩ := flatMap_perm_mem slot _ _ hm
    exact ⟨R ++ t.lost, by rw [← List.append_assoc]; exact hR.append_right _⟩

/-- The value of the outcome of a call. -/
def outVal {α : Type} (p : α × HProg σ) : α × Prog σ := (p.1, p.2.val)

theorem newWriter_sim (t : HProg σ) (i : Nat) (j : Option Nat) :
    HSim (t.step (.newWriter i j)) (t.val.step (.newWriter i j)) t.blocks outVal
      (fun p => p.2.blocks) := by
  unfold step Prog.step
  simp only [val_rdwr, val_wopt]
  cases hr : t.rdwr? i with
  | none => exact .pure rfl (.refl _)
  | some r =>
    cases hj : t.wopt? j with
    | none => exact .pure rfl (.refl _)
    | some o =>
      have hr := slot_rdwr hr
      obtain ⟨R, hR⟩ := rest_wopt hr hj
      refine .stepOk (HWriter.init_sim o r) (fr := R) ((blocks_at hr).trans ?_) fun w hw => ?_
      · rw [List.append_assoc]
        exact hR.append_left _
      · simp only [Option.map_some]
        rw [← hw]
        cases w with
        | none =>
          refine .pure rfl ?_
          rw [List.append_assoc]
          exact (hR.symm.append_left _).trans (blocks_at hr).symm
        | some w =>
          refine .pure ?_ ?_
          · simp [outVal, val, HObj.val, List.map_set]
          · have h1 := blocks_snoc (⟨t.objs.set i none, t.lost⟩ : HProg σ) (some (.writer w))
            have h2 := blocks_set hr none []
            refine .trans ?_ h1.symm
            rw [List.append_assoc]
            exact ((hR.symm.append_left _).trans (h2.symm.append_left _))

theorem newReader_sim (t : HProg σ) (i : Nat) (j : Option Nat) :
    HSim (t.step (.newReader i j)) (t.val.step (.newReader i j)) t.blocks outVal
      (fun p => p.2.blocks) := by
  unfold step Prog.step
  simp only [val_rdwr, val_ropt]
  cases hr : t.rdwr? i with
  | none => exact .pure rfl (.refl _)
  | some r =>
    cases hj : t.ropt? j with
    | none => exact .pure rfl (.refl _)
    | some o =>
      have hr := slot_rdwr hr
      obtain ⟨R, hR⟩ := rest_ropt hr hj
      refine .stepOk (HReader.init_sim o r) (fr := R) ((blocks_at hr).trans ?_) fun w hw => ?_
      · rw [List.append_assoc]
        exact hR.append_left _
      · simp only [Option.map_some]
        rw [← hw]
        cases w with
        | none =>
          refine .pure rfl ?_
          rw [List.append_assoc]
          exact (hR.symm.append_left _).trans (blocks_at hr).symm
        | some w =>
          refine .pure ?_ ?_
          · simp [outVal, val, HObj.val, List.map_set]
          · have h1 := blocks_snoc (⟨t.objs.set i none, t.lost⟩ : HProg σ) (some (.reader w))
            have h2 := blocks_set hr none []
            refine .trans ?_ h1.symm
            rw [List.append_assoc]
            exact ((hR.symm.append_left _).trans (h2.symm.append_left _))

theorem step_sim (t : HProg σ) (c : Call σ) :
    HSim (t.step c) (t.val.step c) t.blocks outVal (fun p => p.2.blocks) := by
  cases c with
  | newControl =>
    refine .stepOk HControl.init_sim (fr := t.blocks) (.refl _) fun c h => .pure ?_ ?_
    · simp [outVal, val_snoc, HObj.val, h]
    · exact (blocks_snoc t (some (.control c))).symm
  | newWopt =>
    refine .stepOk HWriterOptions.init_sim (fr := t.blocks) (.refl _) fun c h => .pure ?_ ?_
    · simp [outVal, val_snoc, HObj.val, h]
    · exact (blocks_snoc t (some (.wopt c))).symm
  | newRopt =>
    refine .stepOk HReaderOptions.init_sim (fr := t.blocks) (.refl _) fun c h => .pure ?_ ?_
    · simp [outVal, val_snoc, HObj.val, h]
    · exact (blocks_snoc t (some (.ropt c))).symm
  | newRdwr ops obj n =>
    refine .stepOk (allocs_sim _) (fr := t.blocks) (.refl _) fun ps hps => ?_
    refine .stepOk (HRdwr.init_sim ops obj ps) (fr := t.blocks) ?_ fun r hr => .pure ?_ ?_
    · refine .append_right _ ?_
      split
      · exact .refl _
      · rename_i hd
        rw [if_neg hd] at hps
        rw [List.length_eq_zero_iff.1 hps]
        exact .refl _
    · simp [outVal, val_snoc, HObj.val, hr]
    · exact (blocks_snoc t (some (.rdwr r))).symm
  | newWriter i j => exact newWriter_sim t i j
  | newReader i j => exact newReader_sim t i j
  | on i op =>
    unfold step Prog.step
    simp only [val_get]
    cases hi : t.objs[i]? with
    | none => exact .pure rfl (.refl _)
    | some o =>
      cases o with
      | none => exact .pure rfl (.refl _)
      | some o =>
        refine .step (HObj.step_sim o op) (fr := t.rest i) (blocks_at hi) ?_
        rintro ⟨out, o', ls⟩
        refine .pure ?_ (blocks_set hi o' ls).symm
        simp [outVal, val_set, HObj.outVal]

theorem run_sim (t : HProg σ) (cs : List (Call σ)) :
    HSim (t.run cs) (t.val.run cs) t.blocks outVal (fun p => p.2.blocks) := by
  induction cs generalizing t with
  | nil => exact .pure rfl (.refl _)
  | cons c cs ih =>
    refine .step (step_sim t c) (fr := []) (by simp) ?_
    rintro ⟨out, t⟩
    refine .step (ih t) (fr := []) (by simp) ?_
    rintro ⟨outs, t⟩
    exact .pure rfl (by simp)

end HProg

end Fstrm
