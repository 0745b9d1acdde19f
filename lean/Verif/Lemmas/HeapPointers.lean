import Verif.Lemmas.HeapLost

/-! How long pointers handed to the client stay valid. -/

set_option autoImplicit false

namespace Fstrm

variable {σ : Type}

/-- A property of the object at an index that the allowed calls on it preserve holds after any
program. -/
theorem HProg.run_keep (P : HObj σ → Prop) (bad : ObjOp → Prop)
    (hstep : ∀ o op, ¬bad op → P o → HPost (o.step op) (fun q => ∃ o', q.2.1 = some o' ∧ P o'))
    (hrd : ∀ r, ¬P (.rdwr r)) (i : Nat) (cs : List (Call σ)) (t : HProg σ) (o : HObj σ)
    (ho : t.objs[i]? = some (some o)) (hP : P o) (hb : ∀ op, .on i op ∈ cs → ¬bad op) :
    HPost (t.run cs) (fun p => ∃ o', p.2.objs[i]? = some (some o') ∧ P o') := by
  induction cs generalizing t o with
  | nil => exact .pure ⟨o, ho, hP⟩
  | cons c cs ih =>
    have hlt : i < t.objs.length := (List.getElem?_eq_some_iff.1 ho).1
    have key : HPost (t.step c) (fun p => ∃ o', p.2.objs[i]? = some (some o') ∧ P o') := by
      have hsnoc : ∀ x, ∃ o', (t.objs ++ [x])[i]? = some (some o') ∧ P o' := fun x =>
        ⟨o, by rw [List.getElem?_append_left hlt]; exact ho, hP⟩
      have hset : ∀ j x r, t.rdwr? j = some r →
          ∃ o', (t.objs.set j none ++ [x])[i]? = some (some o') ∧ P o' := by
        intro j x r hr
        have hr := HProg.slot_rdwr hr
        refine ⟨o, ?_, hP⟩
        rw [List.getElem?_append_left (by simpa using hlt), List.getElem?_set_ne]
        · exact ho
        · rintro rfl
          rw [hr] at ho
          cases ho
          exact hrd r hP
      cases c with
      | newControl => exact .step fun c => .pure (hsnoc _)
      | newWopt => exact .step fun c => .pure (hsnoc _)
      | newRopt => exact .step fun c => .pure (hsnoc _)
      | newRdwr ops obj n => exact .step fun _ => .step fun c => .pure (hsnoc _)
      | newWriter j k =>
        unfold HProg.step
        simp only
        split
        · rename_i r _ hr _
          refine .step fun w => ?_
          cases w with
          | none => exact .pure ⟨o, ho, hP⟩
          | some w => exact .pure (hset j _ r hr)
        · exact .pure ⟨o, ho, hP⟩
      | newReader j k =>
        unfold HProg.step
        simp only
        split
        · rename_i r _ hr _
          refine .step fun w => ?_
          cases w with
          | none => exact .pure ⟨o, ho, hP⟩
          | some w => exact .pure (hset j _ r hr)
        · exact .pure ⟨o, ho, hP⟩
      | on j op =>
        unfold HProg.step
        simp only
        split
        · rename_i oj hj
          by_cases hij : j = i
          · subst hij
            rw [hj] at ho
            cases ho
            refine .bind (hstep o op (hb op (by simp)) hP) fun q hq => ?_
            obtain ⟨o', h1, h2⟩ := hq
            refine .pure ⟨o', ?_, h2⟩
            simp [h1, hlt]
          · refine .step fun q => .pure ⟨o, ?_, hP⟩
            simp only
            rw [List.getElem?_set_ne hij]
            exact ho
        · exact .pure ⟨o, ho, hP⟩
    intro h p h' he
    obtain ⟨out, t1, h1, outs, e1, e2, e3⟩ := HProg.run_cons_inv he
    obtain ⟨o', ho', hP'⟩ := key _ _ _ e1
    exact ih t1 o' ho' hP' (fun op hop => hb op (by simp [hop])) h1 (outs, p.2) h' e2

/-- The client can use a control object at the address `p` that belongs to the writer or reader. -/
def HObj.Holds (p : Ptr) : HObj σ → Prop
  | .writer w => ∃ c ∈ w.controls, c.self = p
  | .reader r => ∃ c, c.self = p ∧ (c ∈ r.controls ∨ c.blocks ⊆ r.lost)
  | _ => False

theorem HReader.Kept.holds {r r' : HReader σ} (h : HReader.Kept r r') {p : Ptr}
    (hc : ∃ c, c.self = p ∧ (c ∈ r.controls ∨ c.blocks ⊆ r.lost)) :
    ∃ c, c.self = p ∧ (c ∈ r'.controls ∨ c.blocks ⊆ r'.lost) := by
  obtain ⟨c, rfl, hc | hc⟩ := hc
  · simp only [HReader.controls, List.mem_append, Option.mem_toList] at hc ⊢
    rcases hc with ((hc | hc) | hc) | hc
    · obtain ⟨c', h1, h2⟩ := h.start c hc; exact ⟨c', h2, by simp [h1]⟩
    · exact ⟨c, rfl, by simp [h.stop, hc]⟩
    · obtain ⟨c', h1, h2⟩ := h.ready c hc; exact ⟨c', h2, by simp [h1]⟩
    · obtain ⟨c', h1, h2⟩ := h.accept c hc; exact ⟨c', h2, by simp [h1]⟩
  · exact ⟨c, rfl, .inr (by rw [h.lost]; exact hc)⟩

theorem HReader.ReadKept.holds {r : HReader σ} {q : Res × Option (Ptr × Bytes) × HReader σ}
    (h : HReader.ReadKept r q) {p : Ptr}
    (hc : ∃ c, c.self = p ∧ (c ∈ r.controls ∨ c.blocks ⊆ r.lost)) :
    ∃ c, c.self = p ∧ (c ∈ q.2.2.controls ∨ c.blocks ⊆ q.2.2.lost) := by
  have hl : r.lost ⊆ q.2.2.lost := by
    rcases h.stop with ⟨-, h2⟩ | ⟨-, -, h2⟩ <;> rw [h2] <;> simp
  obtain ⟨c, rfl, hc | hc⟩ := hc
  · simp only [HReader.controls, List.mem_append, Option.mem_toList] at hc ⊢
    rcases hc with ((hc | hc) | hc) | hc
    · obtain ⟨c', h1, h2⟩ := h.start c hc; exact ⟨c', h2, by simp [h1]⟩
    · rcases h.stop with ⟨h1, -⟩ | ⟨-, -, h2⟩
      · exact ⟨c, rfl, by simp [h1, hc]⟩
      · exact ⟨c, rfl, .inr (by rw [h2, hc]; simp [HControl.optBlocks])⟩
    · obtain ⟨c', h1, h2⟩ := h.ready c hc; exact ⟨c', h2, by simp [h1]⟩
    · obtain ⟨c', h1, h2⟩ := h.accept c hc; exact ⟨c', h2, by simp [h1]⟩
  · exact ⟨c, rfl, .inr fun x hx => hl (hc hx)⟩

theorem HWriter.step_keep (w : HWriter σ) (op : WOp) : HPost (w.step op) (fun p => Kept w p.2) := by
  cases op with
  | opn => exact open_keep w
  | write d => exact writev_keep w [d]
  | writev ds => exact writev_keep w ds
  | getControl t => exact .bind (getControl_keep w t) fun p hp => .pure hp.1
  | close => exact close_keep w

theorem HObj.step_holds (p : Ptr) (o : HObj σ) (op : ObjOp) (hop : op ≠ .destroy) (h : o.Holds p) :
    HPost (o.step op) (fun q => ∃ o', q.2.1 = some o' ∧ o'.Holds p) := by
  have hskip : HPost (pure (.skip, some o, []) : HExec (Out × Option (HObj σ) × List Ptr))
      (fun q => ∃ o', q.2.1 = some o' ∧ o'.Holds p) := .pure ⟨o, rfl, h⟩
  cases o with
  | writer w =>
    cases op with
    | writer op =>
      refine .bind (HWriter.step_keep w op) fun q hq => .pure ⟨_, rfl, ?_⟩
      obtain ⟨c, hc, rfl⟩ := h
      obtain ⟨c', hc', he⟩ := hq.controls hc
      exact ⟨c', hc', he⟩
    | destroy => exact absurd rfl hop
    | _ => exact hskip
  | reader r =>
    cases op with
    | reader fuel op =>
      refine .bind (P := fun q => HObj.Holds p (.reader q.2.2)) ?_ fun q hq => .pure ⟨_, rfl, hq⟩
      cases op with
      | opn => exact .bind (HReader.open_keep r) fun q hq => .pure (hq.holds h)
      | read =>
        refine .bind (HReader.read_keep fuel r) fun q hq => ?_
        have := hq.holds h
        obtain ⟨res, d, r'⟩ := q
        rcases d with _ | ⟨x, d⟩
        · exact .pure this
        · exact .step fun _ => .pure this
      | getControl t => exact .bind (HReader.getControl_keep r t) fun q hq => .pure (hq.1.holds h)
      | close => exact .bind (HReader.close_keep r) fun q hq => .pure (hq.holds h)
    | destroy => exact absurd rfl hop
    | _ => exact hskip
  | _ => exact h.elim

theorem HObj.step_data (p : Ptr) (o : HObj σ) (op : ObjOp) (hop : op ≠ .destroy)
    (hrd : ∀ fuel, op ≠ .reader fuel .read) (h : ∃ r, o = .reader r ∧ r.bufArr = p) :
    HPost (o.step op) (fun q => ∃ o', q.2.1 = some o' ∧ ∃ r, o' = .reader r ∧ r.bufArr = p) := by
  obtain ⟨r, rfl, rfl⟩ := h
  have hskip : HPost (pure (.skip, some (.reader r), []) : HExec (Out × Option (HObj σ) × List Ptr))
      (fun q => ∃ o', q.2.1 = some o' ∧ ∃ r', o' = .reader r' ∧ r'.bufArr = r.bufArr) :=
    .pure ⟨_, rfl, r, rfl, rfl⟩
  cases op with
  | reader fuel op =>
    refine .bind (P := fun q => q.2.2.bufArr = r.bufArr) ?_ fun q hq => .pure ⟨_, rfl, _, rfl, hq⟩
    cases op with
    | opn => exact .bind (HReader.open_keep r) fun q hq => .pure hq.bufArr
    | read => exact absurd rfl (hrd fuel)
    | getControl t => exact .bind (HReader.getControl_keep r t) fun q hq => .pure hq.1.bufArr
    | close => exact .bind (HReader.close_keep r) fun q hq => .pure hq.bufArr
  | destroy => exact absurd rfl hop
  | _ => exact hskip

theorem HVec.add_elems (v : HVec) (x : Ptr × Bytes) :
    HPost (v.add x) (fun v' => v'.elems = v.elems ++ [x]) :=
  .step fun _ => .ite (fun _ => .step fun _ => .step fun _ => .pure rfl) fun _ =>
    .step fun _ => .pure rfl

theorem HObj.step_ct (x : Ptr × Bytes) (o : HObj σ) (op : ObjOp) (hop : ¬op.endsCts)
    (h : ∃ c, o = .control c ∧ x ∈ c.vec.elems) :
    HPost (o.step op) (fun q => ∃ o', q.2.1 = some o' ∧ ∃ c, o' = .control c ∧ x ∈ c.vec.elems) := by
  obtain ⟨c, rfl, hx⟩ := h
  have hskip : HPost (pure (.skip, some (.control c), []) : HExec (Out × Option (HObj σ) × List Ptr))
      (fun q => ∃ o', q.2.1 = some o' ∧ ∃ c, o' = .control c ∧ x ∈ c.vec.elems) :=
    .pure ⟨_, rfl, c, rfl, hx⟩
  cases op with
  | control op =>
    refine .bind (P := fun q => x ∈ q.2.vec.elems) ?_ fun q hq => .pure ⟨_, rfl, _, rfl, hq⟩
    cases op with
    | reset => exact absurd trivial hop
    | setType t =>
      refine .bind (P := fun q => q.2.vec = c.vec) ?_ fun q hq => .pure (by rw [hq]; exact hx)
      exact .ite (fun _ => .step fun _ => .pure rfl) fun _ => .pure rfl
    | addCt ct =>
      refine .bind (P := fun q => x ∈ q.2.vec.elems) ?_ fun q hq => .pure hq
      refine .step fun _ => .step fun _ => .step fun _ => .bind (HVec.add_elems _ _) fun v hv => ?_
      exact .pure (by simp [hv, hx])
    | decode => exact absurd trivial hop
    | getType => exact .step fun _ => .pure hx
    | numCt => exact .step fun _ => .pure hx
    | getCt idx =>
      refine .step fun q => ?_
      rcases q with _ | ⟨q, d⟩
      · exact .pure hx
      · exact .step fun _ => .pure hx
    | matchCt m => exact .step fun _ => .pure hx
    | encodedSize hdr => exact .step fun _ => .pure hx
    | encode => exact .step fun _ => .pure hx
  | destroy => exact absurd trivial hop
  | _ => exact hskip

end Fstrm
