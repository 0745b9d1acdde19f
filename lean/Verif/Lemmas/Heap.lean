import Verif.Lemmas.Exec
import Verif.Model.Heap
import Mathlib.Data.List.Perm.Basic

/-!
# Reasoning about memory management

`HSim m v pre er blk`: started with the blocks `pre` allocated (and any others), the heap computation
`m` does what the computation `v` on values does, and at the end exactly the blocks `blk` and the
others are allocated; or memory runs out.
-/

set_option autoImplicit false

namespace Fstrm

theorem HExec.bind_ok {α β : Type} {m : HExec α} {f : α → HExec β} {h h' : Heap} {a : α}
    (h1 : m h = .ok (a, h')) : (m >>= f) h = f a h' := by
  simp only [Bind.bind, h1]

theorem HExec.bind_error {α β : Type} {m : HExec α} {f : α → HExec β} {h : Heap} {e : Stuck}
    (h1 : m h = .error e) : (m >>= f) h = .error e := by
  simp only [Bind.bind, h1]

instance : LawfulMonad HExec := LawfulMonad.mk'
  (id_map := by
    intro α x; funext h
    cases hx : x h with
    | ok p => exact HExec.bind_ok hx
    | error e => exact HExec.bind_error hx)
  (pure_bind := by intros; rfl)
  (bind_assoc := by
    intro α β γ x f g; funext h
    cases hx : x h with
    | ok p => rw [HExec.bind_ok hx]; simp only [Bind.bind, hx]
    | error e => rw [HExec.bind_error hx]; simp only [Bind.bind, hx])

/-- The allocated blocks are exactly those of `l`. -/
structure Owns (h : Heap) (l : List Ptr) : Prop where
  perm : h.live.Perm l
  nodup : l.Nodup
  fresh : ∀ p ∈ l, p < h.next

theorem Owns.of_perm {h : Heap} {l l' : List Ptr} (ho : Owns h l) (hp : l.Perm l') : Owns h l' :=
  ⟨ho.perm.trans hp, hp.nodup_iff.1 ho.nodup, fun p hm => ho.fresh p (hp.mem_iff.2 hm)⟩

/-- The outcome of a computation that began with the heap `h`. -/
def HSim.Out {α β : Type} (r : Exec (α × Heap)) (v : Exec β) (rest : List Ptr) (er : α → β)
    (blk : α → List Ptr) (h : Heap) : Prop :=
  (∃ a h', r = .ok (a, h') ∧ v = .ok (er a) ∧ Owns h' (blk a ++ rest) ∧ (h'.Scarce → h.Scarce)) ∨
  (∃ e, r = .error e ∧ (v = .error e ∨ e = outOfMemory ∧ h.Scarce))

/-- See the head of the file. -/
def HSim {α β : Type} (m : HExec α) (v : Exec β) (pre : List Ptr) (er : α → β) (blk : α → List Ptr) :
    Prop := ∀ h rest, Owns h (pre ++ rest) → HSim.Out (m h) v rest er blk h

theorem HSim.Out.via {α β : Type} {r : Exec (α × Heap)} {v : Exec β} {rest : List Ptr} {er : α → β}
    {blk : α → List Ptr} {h h1 : Heap} (ho : HSim.Out r v rest er blk h1) (hs : h1.Scarce → h.Scarce) :
    HSim.Out r v rest er blk h := by
  rcases ho with ⟨a, h', e1, e2, e3, e4⟩ | ⟨e, e1, e2 | e2⟩
  · exact .inl ⟨a, h', e1, e2, e3, fun h => hs (e4 h)⟩
  · exact .inr ⟨e, e1, .inl e2⟩
  · exact .inr ⟨e, e1, .inr ⟨e2.1, hs e2.2⟩⟩

/-- One if the numbers are equal. -/
def one (a x : Ptr) : Nat := if a = x then 1 else 0

theorem count_cons_one (a x : Ptr) (l : List Ptr) : (a :: l).count x = one a x + l.count x := by
  rw [List.count_cons, one]
  by_cases h : a = x <;> simp [h]
  omega

/-- Proves that two lists of blocks are permutations of each other, looking into the objects. -/
syntax "perm" : tactic

macro_rules
  | `(tactic| perm) => `(tactic| (
      refine List.perm_iff_count.2 fun _ => ?_
      simp only [HReader.blocks, HWriter.blocks, HReaderOptions.blocks, HWriterOptions.blocks,
        HControl.optBlocks, HControl.blocks, HVec.blocks, HVec.optBlocks,
        List.map_append, List.map_cons, List.map_nil, List.count_append, count_cons_one,
        List.count_nil, List.append_nil, List.nil_append]
      try omega))

namespace HSim

variable {α β γ δ : Type} {pre pre' fr : List Ptr} {er : α → β} {blk : α → List Ptr}
variable {er' : γ → δ} {blk' : γ → List Ptr}

theorem perm {m : HExec α} {v : Exec β} (hp : pre'.Perm pre) (h : HSim m v pre er blk) :
    HSim m v pre' er blk := fun hp' rest ho => h hp' rest (ho.of_perm (hp.append_right rest))

theorem frame {m : HExec α} {v : Exec β} (fr : List Ptr) (h : HSim m v pre er blk) :
    HSim m v (pre ++ fr) er (fun a => blk a ++ fr) := by
  intro hp rest ho
  rw [List.append_assoc] at ho
  rcases h hp (fr ++ rest) ho with ⟨a, h', h1, h2, h3, h4⟩ | h1
  · exact .inl ⟨a, h', h1, h2, by rw [List.append_assoc]; exact h3, h4⟩
  · exact .inr h1

theorem bind {m : HExec α} {v : Exec β} {f : α → HExec γ} {g : β → Exec δ}
    (hm : HSim m v pre er blk) (hf : ∀ a, HSim (f a) (g (er a)) (blk a) er' blk') :
    HSim (m >>= f) (v >>= g) pre er' blk' := by
  intro hp rest ho
  rcases hm hp rest ho with ⟨a, h', h1, h2, h3, h4⟩ | ⟨e, h1, h2⟩
  · subst h2
    rw [HExec.bind_ok h1]
    exact (hf a h' rest h3).via h4
  · rcases h2 with h2 | h2
    · subst h2
      exact .inr ⟨e, HExec.bind_error h1, .inl rfl⟩
    · exact .inr ⟨e, HExec.bind_error h1, .inr h2⟩

/-- A step on a part of the blocks. -/
theorem step {m : HExec α} {v : Exec β} {f : α → HExec γ} {g : β → Exec δ}
    (hm : HSim m v pre er blk) (hp : pre'.Perm (pre ++ fr))
    (hf : ∀ a, HSim (f a) (g (er a)) (blk a ++ fr) er' blk') :
    HSim (m >>= f) (v >>= g) pre' er' blk' := perm hp (bind (frame fr hm) hf)

/-- A step on a part of the blocks whose value is computed without leaving normally. -/
theorem stepOk {m : HExec α} {b : β} {f : α → HExec γ} {v : Exec δ}
    (hm : HSim m (.ok b) pre er blk) (hp : pre'.Perm (pre ++ fr))
    (hf : ∀ a, er a = b → HSim (f a) v (blk a ++ fr) er' blk') :
    HSim (m >>= f) v pre' er' blk' := by
  refine perm hp ?_
  intro hp rest ho
  rcases frame fr hm hp rest ho with ⟨a, h', h1, h2, h3, h4⟩ | ⟨e, h1, h2⟩
  · rw [HExec.bind_ok h1]
    exact (hf a (Except.ok.inj h2).symm h' rest h3).via h4
  · rcases h2 with h2 | h2
    · cases h2
    · exact .inr ⟨e, HExec.bind_error h1, .inr h2⟩

theorem pure {a : α} {b : β} (he : er a = b) (hp : pre.Perm (blk a)) :
    HSim (Pure.pure a) (.ok b) pre er blk := by
  intro h rest ho
  exact .inl ⟨a, h, rfl, by rw [he], ho.of_perm (hp.append_right rest), id⟩

theorem stuck (e : Stuck) : HSim (HExec.stuck e : HExec α) (.error e) pre er blk :=
  fun _ _ _ => .inr ⟨e, rfl, .inl rfl⟩

theorem lift (x : Exec α) : HSim (HExec.lift x) x [] id (fun _ => []) := by
  intro h rest ho
  cases x with
  | ok a => exact .inl ⟨a, h, rfl, rfl, ho, id⟩
  | error e => exact .inr ⟨e, rfl, .inl rfl⟩

/-- A step that does not use the heap. -/
theorem stepLift {x : Exec α} {f : α → HExec γ} {g : α → Exec δ}
    (hf : ∀ a, HSim (f a) (g a) pre er' blk') :
    HSim (HExec.lift x >>= f) (x >>= g) pre er' blk' :=
  step (fr := pre) (lift x) (.refl _) hf

/-- A step that does not use the heap, with its outcome. -/
theorem stepLift' {x : Exec α} {f : α → HExec γ} {g : α → Exec δ}
    (hf : ∀ a, x = .ok a → HSim (f a) (g a) pre er' blk') :
    HSim (HExec.lift x >>= f) (x >>= g) pre er' blk' := by
  cases x with
  | ok a => exact hf a rfl
  | error e => exact fun _ _ _ => .inr ⟨e, rfl, .inl rfl⟩

theorem use {p : Ptr} {f : Unit → HExec γ} {v : Exec δ} (hm : p ∈ pre)
    (hf : HSim (f ()) v pre er' blk') : HSim (use p >>= f) v pre er' blk' := by
  intro h rest ho
  rw [HExec.bind_ok (a := ()) (h' := h)
    (if_pos (ho.perm.mem_iff.2 (List.mem_append_left _ hm)))]
  exact hf h rest ho

theorem useAll {ps : List Ptr} {f : Unit → HExec γ} {v : Exec δ} (hm : ∀ p ∈ ps, p ∈ pre)
    (hf : HSim (f ()) v pre er' blk') : HSim (useAll ps >>= f) v pre er' blk' := by
  induction ps with
  | nil => exact hf
  | cons p ps ih =>
    rw [Fstrm.useAll, bind_assoc]
    exact use (hm p (by simp)) (ih fun q hq => hm q (by simp [hq]))

theorem malloc {n : Nat} {f : Ptr → HExec γ} {v : Exec δ}
    (hf : ∀ p, HSim (f p) v (p :: pre) er' blk') : HSim (malloc n >>= f) v pre er' blk' := by
  intro h rest ho
  by_cases hd : h.next ∈ h.denied ∨ (n = 0 ∧ h.zeroNull = true)
  · refine .inr ⟨outOfMemory, HExec.bind_error (if_pos hd), .inr ⟨rfl, ?_⟩⟩
    rcases hd with hd | hd
    · exact .inl (by intro h; rw [h] at hd; cases hd)
    · exact .inr hd.2
  rw [HExec.bind_ok (a := h.next) (h' := { h with next := h.next + 1, live := h.next :: h.live }) (if_neg hd)]
  refine HSim.Out.via (hf h.next { h with next := h.next + 1, live := h.next :: h.live } rest
    ⟨ho.perm.cons _, ?_, ?_⟩) id
  · exact List.nodup_cons.2 ⟨fun hm => absurd (ho.fresh _ hm) (Nat.lt_irrefl _), ho.nodup⟩
  · intro p hp
    rcases List.mem_cons.1 hp with rfl | hp
    · exact Nat.lt_succ_self _
    · exact Nat.lt_succ_of_lt (ho.fresh p hp)

theorem alloc {f : Ptr → HExec γ} {v : Exec δ}
    (hf : ∀ p, HSim (f p) v (p :: pre) er' blk') : HSim (alloc >>= f) v pre er' blk' := malloc hf

theorem free {p : Ptr} {f : Unit → HExec γ} {v : Exec δ} (hp : pre'.Perm (p :: pre))
    (hf : HSim (f ()) v pre er' blk') : HSim (free p >>= f) v pre' er' blk' := by
  refine perm hp ?_
  intro h rest ho
  have hm : p ∈ h.live := ho.perm.mem_iff.2 (by simp)
  rw [HExec.bind_ok (a := ()) (h' := { h with live := h.live.erase p }) (if_pos hm)]
  refine hf _ rest ⟨?_, (List.nodup_cons.1 ho.nodup).2, fun q hq => ho.fresh q (List.mem_cons_of_mem _ hq)⟩
  have := ho.perm.erase p
  rwa [List.cons_append, List.erase_cons_head] at this

theorem freeAll {ps : List Ptr} {f : Unit → HExec γ} {v : Exec δ} (hp : pre'.Perm (ps ++ pre))
    (hf : HSim (f ()) v pre er' blk') : HSim (freeAll ps >>= f) v pre' er' blk' := by
  refine perm hp ?_
  clear hp
  induction ps with
  | nil => exact hf
  | cons p ps ih =>
    rw [Fstrm.freeAll, bind_assoc]
    exact free (.refl _) ih

theorem realloc {p : Ptr} {f : Ptr → HExec γ} {v : Exec δ} (hp : pre'.Perm (p :: pre))
    (hf : ∀ q, HSim (f q) v (q :: pre) er' blk') : HSim (realloc p >>= f) v pre' er' blk' := by
  rw [Fstrm.realloc, bind_assoc]
  exact free hp (alloc hf)

theorem ite {c : Prop} [Decidable c] {m n : HExec α} {v w : Exec β}
    (h1 : c → HSim m v pre er blk) (h2 : ¬c → HSim n w pre er blk) :
    HSim (if c then m else n) (if c then v else w) pre er blk := by
  split
  · exact h1 ‹_›
  · exact h2 ‹_›

/-- The other blocks may differ in order at the end. -/
theorem post {m : HExec α} {v : Exec β} {blk' : α → List Ptr} (h : HSim m v pre er blk)
    (hp : ∀ a, (blk a).Perm (blk' a)) : HSim m v pre er blk' := by
  intro hp' rest ho
  rcases h hp' rest ho with ⟨a, h', h1, h2, h3, h4⟩ | h1
  · exact .inl ⟨a, h', h1, h2, h3.of_perm ((hp a).append_right rest), h4⟩
  · exact .inr h1

/-- A last call on a part of the blocks. -/
theorem last {m : HExec α} {v : Exec β} {blk' : α → List Ptr} (h : HSim m v pre er blk)
    (hp : pre'.Perm (pre ++ fr)) (hp' : ∀ a, (blk a ++ fr).Perm (blk' a)) :
    HSim m v pre' er blk' := post (perm hp (frame fr h)) hp'

theorem ret {m : HExec α} {v : Exec β} (h : HSim m (v >>= fun b => .ok b) pre er blk) :
    HSim m v pre er blk := by
  have : (v >>= fun b => .ok b) = v := by cases v <;> rfl
  rwa [this] at h

end HSim

/-! ## Vectors -/

theorem HVec.init_sim : HSim HVec.init (.ok ()) [] (fun _ => ()) HVec.blocks :=
  .alloc fun _ => .alloc fun _ => .pure rfl (by perm)

/-- `v` is a fresh vector. -/
theorem HVec.init_sim' : HSim HVec.init (.ok []) [] (fun v => v.elems.map Prod.snd) HVec.blocks :=
  .alloc fun _ => .alloc fun _ => .pure rfl (by perm)

theorem HVec.add_sim (v : HVec) (p : Ptr) (bs : Bytes) :
    HSim (v.add (p, bs)) (.ok (v.elems.map Prod.snd ++ [bs])) (p :: v.blocks)
      (fun v => v.elems.map Prod.snd) HVec.blocks := by
  refine .use (by simp [HVec.blocks]) ?_
  split
  · refine .realloc (pre := p :: v.self :: v.elems.map Prod.fst) (by perm) fun q => ?_
    exact .use (by simp) (.pure (by simp) (by perm))
  · exact .use (by simp [HVec.blocks]) (.pure (by simp) (by perm))

theorem HVec.reset_sim (v : HVec) :
    HSim v.reset (.ok []) [v.self, v.arr] (fun v => v.elems.map Prod.snd) HVec.blocks := by
  refine .use (by simp) ?_
  split
  · exact .realloc (pre := [v.self]) (by perm) fun q => .pure rfl (by perm)
  · exact .pure rfl (by perm)

theorem HVec.freeElems_sim {γ δ : Type} {er : γ → δ} {blk : γ → List Ptr} {pre : List Ptr} (v : HVec)
    (xs : List (Ptr × Bytes)) {f : Unit → HExec γ} {w : Exec δ}
    (h1 : v.self ∈ pre) (h2 : v.arr ∈ pre) (hf : HSim (f ()) w pre er blk) :
    HSim (v.freeElems xs >>= f) w (xs.map Prod.fst ++ pre) er blk := by
  induction xs with
  | nil => exact hf
  | cons x xs ih =>
    simp only [HVec.freeElems, bind_assoc]
    refine .use (by simp [h1]) (.use (by simp [h2]) (.free (.refl _) ih))

theorem HVec.destroy_sim {γ δ : Type} {er : γ → δ} {blk : γ → List Ptr} {pre pre' : List Ptr} (v : HVec)
    {f : Unit → HExec γ} {w : Exec δ} (hp : pre'.Perm (v.self :: v.arr :: pre))
    (hf : HSim (f ()) w pre er blk) : HSim (v.destroy >>= f) w pre' er blk := by
  simp only [HVec.destroy, bind_assoc]
  refine .perm hp (.use (by simp) (.free (pre := v.self :: pre) (by perm) (.free (.refl _) hf)))

end Fstrm
