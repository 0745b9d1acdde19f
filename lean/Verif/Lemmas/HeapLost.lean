import Verif.Lemmas.HeapProg

/-! No blocks are lost as long as no reader is opened again after its stream ended. -/

set_option autoImplicit false

namespace Fstrm

variable {σ : Type}

namespace HReader

/-- The state of a reader that lost nothing. -/
structure Whole (r : HReader σ) : Prop where
  lost : r.lost = []
  stop : r.stop.isSome → r.state ≠ .opening ∧ r.state ≠ .opened

theorem maybeOpen_idle (r : HReader σ) (h : r.state ≠ .opening) :
    HPost r.maybeOpen (fun p => p.2 = r) :=
  .step fun _ => .ite (fun h' => absurd h' h) fun _ => .pure rfl

theorem getControl_idle (r : HReader σ) (t : Nat) (h : r.state ≠ .opening) :
    HPost (r.getControl t) (fun p => p.2.2 = r) := by
  refine .bind (maybeOpen_idle r h) fun p hp => .ite (fun _ => .pure hp) fun _ =>
    .step fun _ => ?_
  exact .ite (fun _ => .pure hp) fun _ => .ite (fun _ => .pure hp) fun _ =>
    .ite (fun _ => .pure hp) fun _ => .ite (fun _ => .pure hp) fun _ => .pure hp

theorem close_state (r : HReader σ) : HPost r.close (fun p => p.2 = r ∨ p.2.state = .closed) := by
  refine .step fun _ => .ite (fun _ => .pure (.inl rfl)) fun _ => .ite (fun _ => .step fun q =>
    .ite (fun _ => .step fun _ => .pure (.inr rfl)) fun _ => .step fun _ => .pure (.inr rfl)) fun _ =>
    .step fun _ => .pure (.inr rfl)

theorem Kept.whole_of_none {r r' : HReader σ} (h : Kept r r') (hw : Whole r) (hs : r.stop = none) :
    Whole r' ∧ r'.stop = none :=
  ⟨⟨by rw [h.lost, hw.lost], by rw [h.stop, hs]; simp⟩, by rw [h.stop, hs]⟩

/-- A call that is not a reopening: nothing is lost, and only a `read` that returned `stop` sets
`control_stop`. -/
theorem step_whole (fuel : Nat) (r : HReader σ) (op : ROp) (hw : Whole r)
    (ho : op = .opn → r.stop = none) :
    HPost (r.step fuel op) (fun p => Whole p.2.2 ∧
      (p.2.2.stop.isSome → r.stop.isSome ∨ (op = .read ∧ p.1 = .stop))) := by
  cases op with
  | opn =>
    refine .bind (open_keep r) fun p hp => .pure ?_
    obtain ⟨h1, h2⟩ := hp.whole_of_none hw (ho rfl)
    exact ⟨h1, by simp [h2]⟩
  | read =>
    cases hs : r.stop with
    | none =>
      refine .bind (read_keep fuel r) fun p hp => ?_
      have hgoal : Whole p.2.2 ∧ (p.2.2.stop.isSome → p.1 = .stop) := by
        rcases hp.stop with ⟨h1, h2⟩ | ⟨h1, h2, h3⟩
        · exact ⟨⟨by rw [h2, hw.lost], by rw [h1, hs]; simp⟩, by rw [h1, hs]; simp⟩
        · refine ⟨⟨by rw [h3, hw.lost, hs]; rfl, fun _ => ?_⟩, fun _ => h1⟩
          rw [h2]
          exact ⟨by simp, by simp⟩
      obtain ⟨res, d, r'⟩ := p
      rcases d with _ | ⟨q, d⟩
      · exact .pure ⟨hgoal.1, fun h => .inr ⟨rfl, hgoal.2 h⟩⟩
      · exact .step fun _ => .pure ⟨hgoal.1, fun h => .inr ⟨rfl, hgoal.2 h⟩⟩
    | some c =>
      have hst := hw.stop (by simp [hs])
      refine .bind (read_idle fuel r hst.1 hst.2) fun p hp => ?_
      obtain ⟨res, d, r'⟩ := p
      cases hp
      exact .pure ⟨hw, fun _ => .inl (by simp)⟩
  | getControl t =>
    cases hs : r.stop with
    | none =>
      refine .bind (getControl_keep r t) fun p hp => .pure ?_
      obtain ⟨h1, h2⟩ := hp.1.whole_of_none hw hs
      exact ⟨h1, by simp [h2]⟩
    | some c =>
      have hst := hw.stop (by simp [hs])
      refine .bind (getControl_idle r t hst.1) fun p hp => .pure ?_
      simp only [hp]
      exact ⟨hw, fun _ => .inl (by simp)⟩
  | close =>
    refine .bind (fun h a h' he => And.intro (close_keep r h a h' he) (close_state r h a h' he))
      fun p hp => .pure ⟨⟨by rw [hp.1.lost, hw.lost], ?_⟩, ?_⟩
    · intro h
      rcases hp.2 with h2 | h2
      · rw [h2]; rw [h2] at h; exact hw.stop h
      · rw [h2]; exact ⟨by simp, by simp⟩
    · intro h
      rw [hp.1.stop] at h
      exact .inl h

end HReader

namespace HProg

/-- Nothing was lost; `S` are the readers whose stream ended. -/
structure Whole (t : HProg σ) (S : Nat → Prop) : Prop where
  lost : t.lost = []
  reader : ∀ i r, t.objs[i]? = some (some (.reader r)) → r.Whole ∧ (r.stop.isSome → S i)

/-- The readers whose stream has ended after a call. -/
def ended (S : Nat → Prop) (c : Call σ) (out : Out) (i : Nat) : Prop :=
  S i ∨ ∃ fuel d, c = .on i (.reader fuel .read) ∧ out = .frame (.stop, d)

theorem Whole.mono {t : HProg σ} {S S' : Nat → Prop} (h : Whole t S) (hs : ∀ i, S i → S' i) :
    Whole t S' := ⟨h.lost, fun i r hr => ⟨(h.reader i r hr).1, fun h' => hs i ((h.reader i r hr).2 h')⟩⟩

/-- The table after a new object. -/
theorem Whole.snoc {t : HProg σ} {S : Nat → Prop} (h : Whole t S) (o : Option (HObj σ))
    (ho : ∀ r, o = some (.reader r) → r.lost = [] ∧ r.stop = none) :
    Whole { t with objs := t.objs ++ [o] } S := by
  refine ⟨h.lost, fun i r hr => ?_⟩
  simp only [List.getElem?_append] at hr
  split at hr
  · exact h.reader i r hr
  · rw [List.getElem?_singleton] at hr
    split at hr
    · obtain ⟨h1, h2⟩ := ho r (Option.some.inj hr)
      exact ⟨⟨h1, by simp [h2]⟩, by simp [h2]⟩
    · cases hr

theorem Whole.set {t : HProg σ} {S : Nat → Prop} (h : Whole t S) (i : Nat) (o : Option (HObj σ))
    (ho : ∀ r, o = some (.reader r) → r.Whole ∧ (r.stop.isSome → S i)) :
    Whole ⟨t.objs.set i o, t.lost⟩ S := by
  refine ⟨h.lost, fun j r hr => ?_⟩
  simp only [List.getElem?_set] at hr
  split at hr
  · rename_i hij
    subst hij
    split at hr
    · exact ho r (Option.some.inj hr)
    · cases hr
  · exact h.reader j r hr

theorem init_whole (o : Option HReaderOptions) (rdwr : HRdwr σ) :
    HPost (HReader.init o rdwr) (fun r => ∀ r', r = some r' → r'.lost = [] ∧ r'.stop = none) := by
  refine .step fun _ => .ite (fun _ => .pure (by simp)) fun _ => .step fun _ => .step fun _ =>
    .step fun _ => .step fun _ => ?_
  cases o with
  | none => exact .pure (by rintro _ ⟨⟩; exact ⟨rfl, rfl⟩)
  | some o => exact .step fun _ => .step fun _ => .pure (by rintro _ ⟨⟩; exact ⟨rfl, rfl⟩)

theorem obj_step_whole (o : HObj σ) (op : ObjOp)
    (hw : ∀ r, o = .reader r → r.Whole) (ho : ∀ r, o = .reader r → ∀ f, op = .reader f .opn → r.stop = none) :
    HPost (o.step op) (fun p => p.2.2 = [] ∧ ∀ r', p.2.1 = some (.reader r') → r'.Whole ∧
      (r'.stop.isSome → (∃ r, o = .reader r ∧ r.stop.isSome) ∨
        ∃ f d, op = .reader f .read ∧ p.1 = .frame (.stop, d))) := by
  have hskip : HPost (pure (.skip, some o, []) : HExec (Out × Option (HObj σ) × List Ptr))
      (fun p => p.2.2 = [] ∧ ∀ r', p.2.1 = some (.reader r') → r'.Whole ∧
      (r'.stop.isSome → (∃ r, o = .reader r ∧ r.stop.isSome) ∨
        ∃ f d, op = .reader f .read ∧ p.1 = .frame (.stop, d))) := by
    refine .pure ⟨rfl, fun r' hr' => ?_⟩
    have hr' := Option.some.inj hr'
    exact ⟨hw r' hr', fun h => .inl ⟨r', hr', h⟩⟩
  cases o with
  | control c =>
    cases op with
    | control op => exact .step fun _ => .pure ⟨rfl, fun _ h => by cases h⟩
    | destroy => exact .step fun _ => .pure ⟨rfl, fun _ h => by cases h⟩
    | _ => exact hskip
  | wopt o =>
    cases op with
    | woptAddCt ct => exact .step fun _ => .pure ⟨rfl, fun _ h => by cases h⟩
    | destroy => exact .step fun _ => .pure ⟨rfl, fun _ h => by cases h⟩
    | _ => exact hskip
  | ropt o =>
    cases op with
    | roptAddCt ct => exact .step fun _ => .pure ⟨rfl, fun _ h => by cases h⟩
    | roptSetMax n => exact .step fun _ => .pure ⟨rfl, fun _ h => by cases h⟩
    | destroy => exact .step fun _ => .pure ⟨rfl, fun _ h => by cases h⟩
    | _ => exact hskip
  | rdwr r =>
    cases op with
    | destroy => exact .step fun _ => .pure ⟨rfl, fun _ h => by cases h⟩
    | _ => exact hskip
  | writer w =>
    cases op with
    | writer op => exact .step fun _ => .pure ⟨rfl, fun _ h => by cases h⟩
    | destroy => exact .step fun _ => .pure ⟨rfl, fun _ h => by cases h⟩
    | _ => exact hskip
  | reader r =>
    cases op with
    | reader fuel op =>
      refine .bind (HReader.step_whole fuel r op (hw r rfl) (by rintro rfl; exact ho r rfl fuel rfl))
        fun p hp => ?_
      obtain ⟨res, d, r'⟩ := p
      refine .pure ⟨rfl, fun r'' hr'' => ?_⟩
      cases hr''
      refine ⟨hp.1, fun h => ?_⟩
      rcases hp.2 h with h1 | ⟨h1, h2⟩
      · exact .inl ⟨r, rfl, h1⟩
      · subst h1
        exact .inr ⟨fuel, d, rfl, by rw [show res = .stop from h2]⟩
    | destroy => exact .step fun _ => .pure ⟨(hw r rfl).lost, fun _ h => by cases h⟩
    | _ => exact hskip

theorem step_whole (t : HProg σ) (c : Call σ) (S : Nat → Prop) (hw : t.Whole S)
    (ho : ∀ i f, c = .on i (.reader f .opn) → ¬S i) :
    HPost (t.step c) (fun p => p.2.Whole (ended S c p.1)) := by
  have hm : ∀ out i, S i → ended S c out i := fun _ _ h => .inl h
  cases c with
  | newControl =>
    exact .step fun c => .pure ((hw.snoc (some (.control c)) fun _ h => by cases h).mono (hm _))
  | newWopt => exact .step fun c => .pure ((hw.snoc (some (.wopt c)) fun _ h => by cases h).mono (hm _))
  | newRopt => exact .step fun c => .pure ((hw.snoc (some (.ropt c)) fun _ h => by cases h).mono (hm _))
  | newRdwr ops obj n =>
    exact .step fun _ => .step fun c =>
      .pure ((hw.snoc (some (.rdwr c)) fun _ h => by cases h).mono (hm _))
  | newWriter i j =>
    unfold step
    simp only
    split
    · refine .step fun w => ?_
      cases w with
      | none => exact .pure (hw.mono (hm _))
      | some w =>
        exact .pure (((hw.set i none fun _ h => by cases h).snoc (some (.writer w))
          fun _ h => by cases h).mono (hm _))
    · exact .pure (hw.mono (hm _))
  | newReader i j =>
    unfold step
    simp only
    split
    · refine .bind (init_whole _ _) fun w hw' => ?_
      cases w with
      | none => exact .pure (hw.mono (hm _))
      | some w =>
        refine .pure (((hw.set i none fun _ h => by cases h).snoc (some (.reader w)) ?_).mono (hm _))
        rintro r ⟨⟩
        exact hw' w rfl
    · exact .pure (hw.mono (hm _))
  | on i op =>
    unfold step
    simp only
    split
    · rename_i o hi
      refine .bind (obj_step_whole o op ?_ ?_) fun p hp => ?_
      · rintro r rfl
        exact (hw.reader i r hi).1
      · rintro r rfl f rfl
        have := (hw.reader i r hi).2
        cases hs : r.stop with
        | none => rfl
        | some c => exact absurd (this (by simp [hs])) (ho i f rfl)
      · obtain ⟨out, o', ls⟩ := p
        obtain ⟨h1, h2⟩ := hp
        cases h1
        refine .pure ((hw.mono (hm out)).set i o' fun r' hr' => ⟨(h2 r' hr').1, fun h => ?_⟩)
        rcases (h2 r' hr').2 h with ⟨r, rfl, hr⟩ | ⟨f, d, rfl, h4⟩
        · exact .inl ((hw.reader i r hi).2 hr)
        · exact .inr ⟨f, d, rfl, h4⟩
    · exact .pure (hw.mono (hm _))

theorem run_cons_inv {t : HProg σ} {c : Call σ} {cs : List (Call σ)} {h h2 : Heap} {p : List Out × HProg σ}
    (he : t.run (c :: cs) h = .ok (p, h2)) :
    ∃ out t1 h1 outs, t.step c h = .ok ((out, t1), h1) ∧ t1.run cs h1 = .ok ((outs, p.2), h2) ∧
      p.1 = out :: outs := by
  obtain ⟨⟨out, t1⟩, h1, e1, he⟩ := HExec.bind_inv he
  obtain ⟨⟨outs, t2⟩, h3, e2, he⟩ := HExec.bind_inv he
  cases he
  exact ⟨out, t1, h1, outs, e1, e2, rfl⟩

theorem run_length {t : HProg σ} {cs : List (Call σ)} {h h2 : Heap} {p : List Out × HProg σ}
    (he : t.run cs h = .ok (p, h2)) : p.1.length = cs.length := by
  induction cs generalizing t h p with
  | nil => cases he; rfl
  | cons c cs ih =>
    obtain ⟨out, t1, h1, outs, -, e2, e3⟩ := run_cons_inv he
    rw [e3, List.length_cons, List.length_cons, ← ih e2]

theorem run_whole (t : HProg σ) (cs : List (Call σ)) (S : Nat → Prop) (hw : t.Whole S) :
    HPost (t.run cs) (fun p => NoReopen (cs.zip p.1) →
      (∀ c ∈ cs, ∀ i f, c = .on i (.reader f .opn) → ¬S i) → ∃ S', p.2.Whole S') := by
  induction cs generalizing t S with
  | nil => exact .pure fun _ _ => ⟨S, hw⟩
  | cons c cs ih =>
    intro h p h' he hn ho
    obtain ⟨out, t1, h1, outs, e1, e2, e3⟩ := run_cons_inv he
    rw [e3] at hn
    have hn' := List.pairwise_cons.1 (show List.Pairwise _ ((c, out) :: cs.zip outs) from hn)
    have hw1 := step_whole t c S hw (fun i f => ho c (by simp) i f) h _ h1 e1
    have hlen := run_length e2
    refine ih t1 _ hw1 h1 (outs, p.2) h' e2 hn'.2 ?_
    rintro c' hc' i f rfl (hS | ⟨fuel, d, h3, h4⟩)
    · exact ho _ (by simp [hc']) i f rfl hS
    · obtain ⟨k, hk, hke⟩ := List.getElem_of_mem hc'
      have hk' : k < outs.length := by rw [hlen]; exact hk
      refine hn'.1 (cs[k], outs[k]) ?_ i fuel f d (by rw [h3]; exact congrArg _ h4) hke
      have hz : k < (cs.zip outs).length := by
        rw [List.length_zip]
        exact Nat.lt_min.2 ⟨hk, hk'⟩
      rw [← List.getElem_zip (h := hz)]
      exact List.getElem_mem _

end HProg

end Fstrm
