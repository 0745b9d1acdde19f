import Verif.Lemmas.HeapReader

/-! Which objects stay where they are: control objects of writers and readers are not moved, and a
reader loses a control object only when it reads a second STOP frame. -/

set_option autoImplicit false

namespace Fstrm

theorem HExec.bind_inv {α β : Type} {m : HExec α} {f : α → HExec β} {h h' : Heap} {b : β}
    (he : (m >>= f) h = .ok (b, h')) : ∃ a h1, m h = .ok (a, h1) ∧ f a h1 = .ok (b, h') := by
  cases hx : m h with
  | error e => rw [HExec.bind_error hx] at he; cases he
  | ok p => rw [HExec.bind_ok hx] at he; exact ⟨p.1, p.2, rfl, he⟩

/-- Every normal outcome satisfies `P`. -/
def HPost {α : Type} (m : HExec α) (P : α → Prop) : Prop := ∀ h a h', m h = .ok (a, h') → P a

namespace HPost

variable {α β : Type}

theorem bind {m : HExec α} {f : α → HExec β} {P : α → Prop} {Q : β → Prop} (hm : HPost m P)
    (hf : ∀ a, P a → HPost (f a) Q) : HPost (m >>= f) Q := by
  intro h b h' hb
  cases hx : m h with
  | error e => rw [HExec.bind_error hx] at hb; cases hb
  | ok p => rw [HExec.bind_ok hx] at hb; exact hf p.1 (hm h p.1 p.2 hx) _ _ _ hb

theorem step {m : HExec α} {f : α → HExec β} {Q : β → Prop} (hf : ∀ a, HPost (f a) Q) :
    HPost (m >>= f) Q := bind (P := fun _ => True) (fun _ _ _ _ => trivial) fun a _ => hf a

theorem pure {a : α} {P : α → Prop} (h : P a) : HPost (Pure.pure a) P := by
  intro _ _ _ hb; cases hb; exact h

theorem stuck {e : Stuck} {P : α → Prop} : HPost (HExec.stuck e) P := by
  intro _ _ _ hb; cases hb

theorem ite {c : Prop} [Decidable c] {m n : HExec α} {P : α → Prop} (h1 : c → HPost m P)
    (h2 : ¬c → HPost n P) : HPost (if c then m else n) P := by
  split
  · exact h1 ‹_›
  · exact h2 ‹_›

theorem mono {m : HExec α} {P Q : α → Prop} (h : HPost m P) (hi : ∀ a, P a → Q a) : HPost m Q :=
  fun _ _ _ he => hi _ (h _ _ _ he)

end HPost

/-- The outcome of a step satisfies `P`. -/
theorem HSim.stepPost {α β γ δ : Type} {pre pre' fr : List Ptr} {er : α → β} {blk : α → List Ptr}
    {er' : γ → δ} {blk' : γ → List Ptr} {m : HExec α} {v : Exec β} {f : α → HExec γ} {g : β → Exec δ}
    {P : α → Prop} (hm : HSim m v pre er blk) (hP : HPost m P) (hp : pre'.Perm (pre ++ fr))
    (hf : ∀ a, P a → HSim (f a) (g (er a)) (blk a ++ fr) er' blk') :
    HSim (m >>= f) (v >>= g) pre' er' blk' := by
  refine .perm hp ?_
  intro h rest ho
  rcases HSim.frame fr hm h rest ho with ⟨a, h', h1, h2, h3, h4⟩ | ⟨e, h1, h2⟩
  · subst h2
    rw [HExec.bind_ok h1]
    exact (hf a (hP _ _ _ h1) h' rest h3).via h4
  · rcases h2 with h2 | h2
    · subst h2
      exact .inr ⟨e, HExec.bind_error h1, .inl rfl⟩
    · exact .inr ⟨e, HExec.bind_error h1, .inr h2⟩

/-- If there was an object, it is still at its address. -/
def Keep (o o' : Option HControl) : Prop := ∀ c, o = some c → ∃ c', o' = some c' ∧ c'.self = c.self

theorem Keep.refl (o : Option HControl) : Keep o o := fun c h => ⟨c, h, rfl⟩

theorem Keep.trans {a b c : Option HControl} (h1 : Keep a b) (h2 : Keep b c) : Keep a c := by
  intro x hx
  obtain ⟨y, hy, e⟩ := h1 x hx
  obtain ⟨z, hz, e'⟩ := h2 y hy
  exact ⟨z, hz, e'.trans e⟩

theorem Keep.of_self {o : Option HControl} {c c' : HControl} (h : Keep o (some c))
    (hs : c'.self = c.self) : Keep o (some c') := by
  intro x hx
  obtain ⟨y, hy, e⟩ := h x hx
  cases hy
  exact ⟨c', rfl, hs.trans e⟩

namespace HControl

theorem reset_keep (c : HControl) : HPost c.reset (fun c' => c'.self = c.self) :=
  .step fun _ => .step fun _ => .step fun _ => .pure rfl

theorem setType_keep (c : HControl) (t : Nat) : HPost (c.setType t) (fun p => p.2.self = c.self) :=
  .ite (fun _ => .step fun _ => .pure rfl) fun _ => .pure rfl

theorem addCt_keep (c : HControl) (ct : Bytes) : HPost (c.addCt ct) (fun p => p.2.self = c.self) :=
  .step fun _ => .step fun _ => .step fun _ => .step fun _ => .pure rfl

theorem decodeFields_keep (fuel : Nat) (cur : RCur) (c : HControl) :
    HPost (decodeFields fuel cur c) (fun p => p.2.self = c.self) := by
  induction fuel generalizing cur c with
  | zero => exact .stuck
  | succ fuel ih =>
    refine .ite (fun _ => .pure rfl) fun _ => .step fun x => ?_
    rcases x with _ | ⟨val, cur⟩
    · exact .pure rfl
    refine .ite (fun _ => .step fun x => ?_) fun _ => .pure rfl
    rcases x with _ | ⟨len, cur⟩
    · exact .pure rfl
    refine .ite (fun _ => .pure rfl) fun _ => .ite (fun _ => .pure rfl) fun _ =>
      .step fun p => .step fun x => ?_
    rcases x with _ | ⟨bs, cur⟩
    · exact .step fun _ => .pure rfl
    · exact .step fun _ => .step fun _ => .step fun _ => ih _ _

theorem decodeBody_keep (cur : RCur) (c : HControl) :
    HPost (decodeBody cur c) (fun p => p.2.self = c.self) := by
  refine .step fun x => ?_
  rcases x with _ | ⟨val, cur⟩
  · exact .pure rfl
  · exact .ite (fun _ => .step fun _ => decodeFields_keep _ _ _) fun _ => .pure rfl

theorem decode_keep (c : HControl) (mem : Bytes) (len : Nat) (hdr : Bool) :
    HPost (c.decode mem len hdr) (fun p => p.2.self = c.self) := by
  refine .bind (reset_keep c) fun c' hc => ?_
  refine .ite (fun _ => .step fun x => ?_) fun _ => .ite (fun _ => .pure hc) fun _ =>
    (decodeBody_keep _ _).mono fun _ h => h.trans hc
  rcases x with _ | ⟨val, cur⟩
  · exact .pure hc
  refine .ite (fun _ => .pure hc) fun _ => .step fun x => ?_
  rcases x with _ | ⟨val, cur⟩
  · exact .pure hc
  exact .ite (fun _ => .pure hc) fun _ => .ite (fun _ => .pure hc) fun _ =>
    (decodeBody_keep _ _).mono fun _ h => h.trans hc

theorem fresh_keep (c : Option HControl) : HPost (fresh c) (fun c' => Keep c (some c')) := by
  cases c with
  | none => exact fun _ _ _ _ _ h => by cases h
  | some c => exact (reset_keep c).mono fun c' h => (Keep.refl _).of_self h

theorem getD_keep (c : Option HControl) : HPost (getD c) (fun c' => Keep c (some c')) := by
  cases c with
  | none => exact fun _ _ _ _ _ h => by cases h
  | some c => exact .pure (Keep.refl _)

theorem addAllCts_keep (c : HControl) (xs : List (Ptr × Bytes)) :
    HPost (c.addAllCts xs) (fun c' => c'.self = c.self) := by
  induction xs generalizing c with
  | nil => exact .pure rfl
  | cons x xs ih =>
    exact .step fun _ => .bind (addCt_keep c x.2) fun p hp => (ih p.2).mono fun _ h => h.trans hp

end HControl

namespace HRdwr

variable {σ : Type}

theorem readControlBody_keep (r : HRdwr σ) (c : HControl) :
    HPost (r.readControlBody c) (fun p => p.2.1.self = c.self) := by
  refine .step fun p => .ite (fun _ => .pure rfl) fun _ => .ite (fun _ => .pure rfl) fun _ =>
    .ite (fun _ => .stuck) fun _ => .step fun p => .ite (fun _ => .pure rfl) fun _ => ?_
  refine .bind (HControl.decode_keep c _ _ _) fun p hp => ?_
  exact .ite (fun _ => .pure hp) fun _ => .step fun _ => .pure hp

theorem readControlFrame_keep (r : HRdwr σ) (c : HControl) (esc : Bool) :
    HPost (r.readControlFrame c esc) (fun p => p.2.1.self = c.self) :=
  .ite (fun _ => .step fun p => .ite (fun _ => .pure rfl) fun _ => .ite (fun _ => .pure rfl) fun _ =>
    readControlBody_keep _ c) fun _ => readControlBody_keep r c

theorem readControl_keep (r : HRdwr σ) (c : Option HControl) (wanted : Nat) :
    HPost (r.readControl c wanted) (fun p => Keep c p.2.1) := by
  refine .bind (HControl.getD_keep c) fun c' hc => .bind (readControlFrame_keep r c' true) fun p hp => ?_
  exact .ite (fun _ => .pure (hc.of_self hp)) fun _ => .ite (fun _ => .pure (hc.of_self hp)) fun _ =>
    .pure (hc.of_self hp)

end HRdwr

namespace HWriter

variable {σ : Type}

/-- The control objects of a writer stay where they are. -/
structure Kept (w w' : HWriter σ) : Prop where
  ready : Keep w.ready w'.ready
  accept : Keep w.accept w'.accept
  start : Keep w.start w'.start
  finish : Keep w.finish w'.finish

theorem Kept.refl (w : HWriter σ) : Kept w w := ⟨.refl _, .refl _, .refl _, .refl _⟩

theorem Kept.trans {a b c : HWriter σ} (h1 : Kept a b) (h2 : Kept b c) : Kept a c :=
  ⟨h1.ready.trans h2.ready, h1.accept.trans h2.accept, h1.start.trans h2.start,
    h1.finish.trans h2.finish⟩

theorem openUnidirectional_keep (w : HWriter σ) :
    HPost w.openUnidirectional (fun p => Kept w p.2) := by
  refine .step fun _ => .bind (HControl.fresh_keep w.start) fun st hst =>
    .bind (HControl.setType_keep st _) fun p hp => ?_
  refine .ite (fun _ => .pure ⟨.refl _, .refl _, hst.of_self hp, .refl _⟩) fun _ => .step fun _ => ?_
  refine .bind (P := fun c => c.self = p.2.self) ?_ fun c hc =>
    .step fun q => .pure ⟨.refl _, .refl _, (hst.of_self hp).of_self hc, .refl _⟩
  split
  · exact .pure rfl
  · exact .step fun _ => .step fun _ => .bind (HControl.addCt_keep _ _) fun q hq => .pure hq

theorem sendStart_keep (w : HWriter σ) (ct : Option Bytes) :
    HPost (w.sendStart ct) (fun p => Kept w p.2) := by
  refine .bind (HControl.fresh_keep w.start) fun st hst =>
    .bind (HControl.setType_keep st _) fun p hp => ?_
  refine .ite (fun _ => .pure ⟨.refl _, .refl _, hst.of_self hp, .refl _⟩) fun _ => .step fun _ => ?_
  refine .bind (P := fun c => c.self = p.2.self) ?_ fun c hc =>
    .step fun q => .pure ⟨.refl _, .refl _, (hst.of_self hp).of_self hc, .refl _⟩
  split
  · exact .pure rfl
  · exact .bind (HControl.addCt_keep _ _) fun q hq => .pure hq

theorem openBidirectional_keep (w : HWriter σ) :
    HPost w.openBidirectional (fun p => Kept w p.2) := by
  refine .step fun _ => .bind (HControl.fresh_keep w.ready) fun st hst =>
    .bind (HControl.setType_keep st _) fun p hp => ?_
  refine .ite (fun _ => .pure ⟨hst.of_self hp, .refl _, .refl _, .refl _⟩) fun _ =>
    .step fun _ => .step fun _ => .bind (HControl.addAllCts_keep _ _) fun rdy hr => ?_
  have hrdy := (hst.of_self hp).of_self hr
  refine .step fun q => .ite (fun _ => .pure ⟨hrdy, .refl _, .refl _, .refl _⟩) fun _ => ?_
  refine .bind (HRdwr.readControl_keep _ w.accept _) fun q hq => ?_
  obtain ⟨res, accept, rdwr⟩ := q
  have hk : Kept w { w with ready := some rdy, rdwr := rdwr, accept := accept } :=
    ⟨hrdy, hq, .refl _, .refl _⟩
  refine .ite (fun _ => .pure hk) fun _ => ?_
  cases accept with
  | none => exact .stuck
  | some acc =>
    exact .step fun _ => .step fun _ => .ite (fun _ => .pure hk) fun _ =>
      (sendStart_keep _ _).mono fun _ h => hk.trans h

theorem open_keep (w : HWriter σ) : HPost w.open (fun p => Kept w p.2) := by
  refine .step fun _ => .ite (fun _ => .pure (.refl _)) fun _ => .step fun q =>
    .ite (fun _ => .pure ⟨.refl _, .refl _, .refl _, .refl _⟩) fun _ => ?_
  refine .bind (P := fun p => Kept w p.2) ?_ fun p hp =>
    .ite (fun _ => .pure hp) fun _ => .pure ⟨hp.ready, hp.accept, hp.start, hp.finish⟩
  refine .ite (fun _ => (openBidirectional_keep _).mono fun p hp => ?_) fun _ =>
    (openUnidirectional_keep _).mono fun p hp => ?_
  · exact ⟨hp.ready, hp.accept, hp.start, hp.finish⟩
  · exact ⟨hp.ready, hp.accept, hp.start, hp.finish⟩

theorem maybeOpen_keep (w : HWriter σ) : HPost w.maybeOpen (fun p => Kept w p.2) :=
  .step fun _ => .ite (fun _ => open_keep w) fun _ => .pure (.refl _)

theorem close_keep (w : HWriter σ) : HPost w.close (fun p => Kept w p.2) := by
  refine .step fun _ => .ite (fun _ => .pure (.refl _)) fun _ => .step fun q =>
    .ite (fun _ => .step fun _ => .pure ⟨.refl _, .refl _, .refl _, .refl _⟩) fun _ =>
    .ite (fun _ => ?_) fun _ => .step fun _ => .pure ⟨.refl _, .refl _, .refl _, .refl _⟩
  refine .bind (HRdwr.readControl_keep _ w.finish _) fun q hq => ?_
  exact .ite (fun _ => .step fun _ => .pure ⟨.refl _, .refl _, .refl _, hq⟩) fun _ =>
    .step fun _ => .pure ⟨.refl _, .refl _, .refl _, hq⟩

theorem writeIov_keep (w : HWriter σ) (iov : List Bytes) :
    HPost (w.writeIov iov) (fun p => Kept w p.2) :=
  .step fun _ => .step fun _ => .step fun _ => .step fun _ => .step fun _ =>
    .pure ⟨.refl _, .refl _, .refl _, .refl _⟩

theorem writeIovStupid_keep (fuel : Nat) (w : HWriter σ) (iov : List Bytes) :
    HPost (writeIovStupid fuel w iov) (fun p => Kept w p.2) := by
  induction fuel generalizing w iov with
  | zero => exact .ite (fun _ => .stuck) fun _ => .pure (.refl _)
  | succ fuel ih =>
    refine .ite (fun _ => ?_) fun _ => .pure (.refl _)
    refine .bind (writeIov_keep w _) fun p hp => .ite (fun _ => .pure hp) fun _ => ?_
    exact (ih _ _).mono fun _ h => hp.trans h

theorem writev_keep (w : HWriter σ) (iov : List Bytes) :
    HPost (w.writev iov) (fun p => Kept w p.2) := by
  refine .ite (fun _ => .pure (.refl _)) fun _ => .bind (maybeOpen_keep w) fun p hp =>
    .ite (fun _ => .pure hp) fun _ => .step fun _ => .ite (fun _ => ?_) fun _ => .pure hp
  exact .ite (fun _ => .stuck) fun _ => .ite
    (fun _ => (writeIov_keep _ _).mono fun _ h => hp.trans h)
    fun _ => (writeIovStupid_keep _ _ _).mono fun _ h => hp.trans h

/-- The control objects of a writer. -/
def controls (w : HWriter σ) : List HControl :=
  w.ready.toList ++ w.accept.toList ++ w.start.toList ++ w.finish.toList

theorem getControl_keep (w : HWriter σ) (t : Nat) :
    HPost (w.getControl t) (fun p => Kept w p.2.2 ∧ ∀ c, p.2.1 = some c → c ∈ p.2.2.controls) := by
  refine .bind (maybeOpen_keep w) fun p hp => .ite (fun _ => .pure ⟨hp, by simp⟩) fun _ =>
    .step fun _ => ?_
  refine .ite (fun _ => .pure ⟨hp, ?_⟩) fun _ => .ite (fun _ => .pure ⟨hp, ?_⟩) fun _ =>
    .ite (fun _ => .pure ⟨hp, ?_⟩) fun _ => .ite (fun _ => .pure ⟨hp, ?_⟩) fun _ =>
    .pure ⟨hp, by simp⟩ <;> intro c hc <;> dsimp only at hc <;> simp [controls, hc]

theorem Kept.controls {w w' : HWriter σ} (h : Kept w w') {c : HControl} (hc : c ∈ w.controls) :
    ∃ c' ∈ w'.controls, c'.self = c.self := by
  simp only [HWriter.controls, List.mem_append, Option.mem_toList, Option.mem_def] at hc ⊢
  rcases hc with ((hc | hc) | hc) | hc
  · obtain ⟨c', h1, h2⟩ := h.ready c hc; exact ⟨c', by simp [h1], h2⟩
  · obtain ⟨c', h1, h2⟩ := h.accept c hc; exact ⟨c', by simp [h1], h2⟩
  · obtain ⟨c', h1, h2⟩ := h.start c hc; exact ⟨c', by simp [h1], h2⟩
  · obtain ⟨c', h1, h2⟩ := h.finish c hc; exact ⟨c', by simp [h1], h2⟩

theorem controls_blocks (w : HWriter σ) {c : HControl} (hc : c ∈ w.controls) : c.blocks ⊆ w.blocks := by
  intro p hp
  simp only [HWriter.controls, List.mem_append, Option.mem_toList, Option.mem_def] at hc
  simp only [blocks, List.mem_append]
  rcases hc with ((hc | hc) | hc) | hc <;> simp [HControl.optBlocks, hc, hp]

end HWriter

namespace HReader

variable {σ : Type}

/-- The control objects of a reader and its frame buffer stay where they are. -/
structure Kept (r r' : HReader σ) : Prop where
  start : Keep r.start r'.start
  stop : r'.stop = r.stop
  ready : Keep r.ready r'.ready
  accept : Keep r.accept r'.accept
  lost : r'.lost = r.lost
  bufArr : r'.bufArr = r.bufArr

theorem Kept.refl (r : HReader σ) : Kept r r := ⟨.refl _, rfl, .refl _, .refl _, rfl, rfl⟩

theorem Kept.trans {a b c : HReader σ} (h1 : Kept a b) (h2 : Kept b c) : Kept a c :=
  ⟨h1.start.trans h2.start, h2.stop.trans h1.stop, h1.ready.trans h2.ready,
    h1.accept.trans h2.accept, h2.lost.trans h1.lost, h2.bufArr.trans h1.bufArr⟩

theorem openUnidirectional_keep (r : HReader σ) :
    HPost r.openUnidirectional (fun p => Kept r p.2) := by
  refine .step fun _ => .bind (HRdwr.readControl_keep _ r.start _) fun q hq => ?_
  obtain ⟨res, start, rdwr⟩ := q
  have hk : Kept r { r with rdwr := rdwr, start := start } :=
    ⟨hq, rfl, .refl _, .refl _, rfl, rfl⟩
  refine .ite (fun _ => .pure hk) fun _ => ?_
  cases start with
  | none => exact .stuck
  | some st =>
    exact .step fun _ => .step fun _ => .ite (fun _ => .pure hk) fun _ =>
      .pure ⟨hq, rfl, .refl _, .refl _, rfl, rfl⟩

theorem acceptLoop_keep (ready : HControl) (xs : List (Ptr × Bytes)) (acc : HControl) :
    HPost (acceptLoop ready xs acc) (fun c => c.self = acc.self) := by
  induction xs generalizing acc with
  | nil => exact .pure rfl
  | cons x xs ih =>
    exact .step fun _ => .step fun _ => .ite (fun _ => .bind (HControl.addCt_keep acc _) fun p hp =>
      (ih p.2).mono fun _ h => h.trans hp) fun _ => ih acc

theorem openBidirectional_keep (r : HReader σ) :
    HPost r.openBidirectional (fun p => Kept r p.2) := by
  refine .step fun _ => .bind (HRdwr.readControl_keep _ r.ready _) fun q hq => ?_
  obtain ⟨res, ready, rdwr⟩ := q
  have hk : Kept r { r with rdwr := rdwr, ready := ready } :=
    ⟨.refl _, rfl, hq, .refl _, rfl, rfl⟩
  refine .ite (fun _ => .pure hk) fun _ => ?_
  cases ready with
  | none => exact .stuck
  | some rdy =>
    refine .bind (HControl.fresh_keep _) fun acc hacc => .bind (HControl.setType_keep _ _) fun q hq' =>
      .ite (fun _ => .pure ⟨.refl _, rfl, hq, hacc.of_self hq', rfl, rfl⟩) fun _ =>
      .step fun _ => .step fun _ => .bind (acceptLoop_keep _ _ _) fun acc' hacc' => .step fun q => ?_
    have hk : Kept r { r with rdwr := q.2, ready := some rdy, accept := some acc' } :=
      ⟨.refl _, rfl, hq, (hacc.of_self hq').of_self hacc', rfl, rfl⟩
    exact .ite (fun _ => .pure hk) fun _ => (openUnidirectional_keep _).mono fun _ h => hk.trans h

theorem open_keep (r : HReader σ) : HPost r.open (fun p => Kept r p.2) := by
  refine .step fun _ => .ite (fun _ => .pure (.refl _)) fun _ => .step fun q => ?_
  have hk : Kept r { r with rdwr := q.2 } := ⟨.refl _, rfl, .refl _, .refl _, rfl, rfl⟩
  refine .ite (fun _ => .pure hk) fun _ => ?_
  refine .bind (P := fun p => Kept r p.2) ?_ fun p hp =>
    .ite (fun _ => .pure hp) fun _ => .pure ⟨hp.start, hp.stop, hp.ready, hp.accept, hp.lost, hp.bufArr⟩
  exact .ite (fun _ => (openBidirectional_keep _).mono fun p hp => hk.trans hp) fun _ =>
    (openUnidirectional_keep _).mono fun p hp => hk.trans hp

theorem maybeOpen_keep (r : HReader σ) : HPost r.maybeOpen (fun p => Kept r p.2) :=
  .step fun _ => .ite (fun _ => open_keep r) fun _ => .pure (.refl _)

theorem close_keep (r : HReader σ) : HPost r.close (fun p => Kept r p.2) := by
  refine .step fun _ => .ite (fun _ => .pure (.refl _)) fun _ => .ite (fun _ => .step fun q =>
    .ite (fun _ => .step fun _ => .pure ⟨.refl _, rfl, .refl _, .refl _, rfl, rfl⟩) fun _ =>
      .step fun _ => .pure ⟨.refl _, rfl, .refl _, .refl _, rfl, rfl⟩) fun _ =>
    .step fun _ => .pure ⟨.refl _, rfl, .refl _, .refl _, rfl, rfl⟩

/-- The control objects of a reader that can be obtained. -/
def controls (r : HReader σ) : List HControl :=
  r.start.toList ++ r.stop.toList ++ r.ready.toList ++ r.accept.toList

theorem getControl_keep (r : HReader σ) (t : Nat) :
    HPost (r.getControl t) (fun p => Kept r p.2.2 ∧ ∀ c, p.2.1 = some c → c ∈ p.2.2.controls) := by
  refine .bind (maybeOpen_keep r) fun p hp => .ite (fun _ => .pure ⟨hp, by simp⟩) fun _ =>
    .step fun _ => ?_
  refine .ite (fun _ => .pure ⟨hp, ?_⟩) fun _ => .ite (fun _ => .pure ⟨hp, ?_⟩) fun _ =>
    .ite (fun _ => .pure ⟨hp, ?_⟩) fun _ => .ite (fun _ => .pure ⟨hp, ?_⟩) fun _ =>
    .pure ⟨hp, by simp⟩ <;> intro c hc <;> dsimp only at hc <;> simp [controls, hc]

/-- What a read does to the objects: like `Kept`, but a STOP frame may replace an earlier one, whose
blocks are lost then. -/
structure ReadKept (r : HReader σ) (p : Res × Option (Ptr × Bytes) × HReader σ) : Prop where
  start : Keep r.start p.2.2.start
  ready : Keep r.ready p.2.2.ready
  accept : Keep r.accept p.2.2.accept
  stop : (p.2.2.stop = r.stop ∧ p.2.2.lost = r.lost) ∨
    (p.1 = .stop ∧ p.2.2.state = .closing ∧ p.2.2.lost = r.lost ++ HControl.optBlocks r.stop)
  data : ∀ q d, p.2.1 = some (q, d) → q = p.2.2.bufArr

theorem Kept.read {r r' : HReader σ} {p : Res × Option (Ptr × Bytes) × HReader σ} (h : Kept r r')
    (h' : ReadKept r' p) : ReadKept r p :=
  ⟨h.start.trans h'.start, h.ready.trans h'.ready, h.accept.trans h'.accept, by
    have := h'.stop; rw [h.stop, h.lost] at this; exact this, h'.data⟩

theorem dataFrame_keep (r : HReader σ) (len : Nat) : HPost (r.dataFrame len) (ReadKept r) := by
  refine .ite (fun _ => .pure ⟨.refl _, .refl _, .refl _, .inl ⟨rfl, rfl⟩, by simp⟩) fun _ => ?_
  refine .bind (P := fun r' => r'.start = r.start ∧ r'.ready = r.ready ∧ r'.accept = r.accept ∧
    r'.stop = r.stop ∧ r'.lost = r.lost) ?_ fun r' hr' => ?_
  · exact .step fun _ => .step fun _ => .step fun _ => .pure ⟨rfl, rfl, rfl, rfl, rfl⟩
  obtain ⟨h1, h2, h3, h4, h5⟩ := hr'
  refine .ite (fun _ => .stuck) fun _ => .step fun _ => .step fun q => ?_
  refine .ite (fun _ => .pure ⟨?_, ?_, ?_, .inl ⟨h4, h5⟩, by simp⟩) fun _ =>
    .pure ⟨?_, ?_, ?_, .inl ⟨h4, h5⟩, by simp⟩ <;> simp only [h1, h2, h3] <;> exact .refl _

theorem readBe32_keep (r : HReader σ) : HPost r.readBe32 (fun p => Kept r p.2.2) :=
  .step fun _ => .step fun _ => .ite (fun _ => .pure ⟨.refl _, rfl, .refl _, .refl _, rfl, rfl⟩)
    fun _ => .pure ⟨.refl _, rfl, .refl _, .refl _, rfl, rfl⟩

theorem nextData_keep (fuel : Nat) (r : HReader σ) : HPost (nextData fuel r) (ReadKept r) := by
  induction fuel generalizing r with
  | zero => exact .stuck
  | succ fuel ih =>
    refine .bind (readBe32_keep r) fun p hp => ?_
    obtain ⟨res, len, r'⟩ := p
    refine .ite (fun _ => .pure (hp.read ⟨.refl _, .refl _, .refl _, .inl ⟨rfl, rfl⟩, by simp⟩)) fun _ =>
      .ite (fun _ => (dataFrame_keep r' len).mono fun _ h => hp.read h) fun _ =>
      .step fun tmp => .step fun q => ?_
    obtain ⟨res, tmp, type, rdwr⟩ := q
    have hk : Kept r' { r' with rdwr := rdwr, tmp := some tmp } :=
      ⟨.refl _, rfl, .refl _, .refl _, rfl, rfl⟩
    refine .ite (fun _ => .pure (hp.read ⟨.refl _, .refl _, .refl _, .inl ⟨rfl, rfl⟩, by simp⟩)) fun _ =>
      .ite (fun _ => .pure (hp.read ⟨.refl _, .refl _, .refl _, .inr ⟨rfl, rfl, rfl⟩, by simp⟩)) fun _ =>
      (ih _).mono fun _ h => hp.read (hk.read h)

theorem read_keep (fuel : Nat) (r : HReader σ) : HPost (read fuel r) (ReadKept r) := by
  refine .bind (maybeOpen_keep r) fun p hp => ?_
  have hk : ∀ res, ReadKept r (res, none, p.2) := fun res =>
    hp.read ⟨.refl _, .refl _, .refl _, .inl ⟨rfl, rfl⟩, by simp⟩
  exact .ite (fun _ => .pure (hk _)) fun _ => .step fun _ => .ite
    (fun _ => (nextData_keep fuel _).mono fun _ h => hp.read h) fun _ =>
    .ite (fun _ => .pure (hk _)) fun _ => .pure (hk _)

/-- A reader that is neither new nor open reads nothing. -/
theorem read_idle (fuel : Nat) (r : HReader σ) (h1 : r.state ≠ .opening) (h2 : r.state ≠ .opened) :
    HPost (read fuel r) (fun p => p.2 = (none, r)) := by
  refine .bind (P := fun p => p.2 = r) ?_ fun p hp => ?_
  · exact .step fun _ => .ite (fun h => absurd h h1) fun _ => .pure rfl
  · refine .ite (fun _ => .pure (by rw [hp])) fun _ => .step fun _ => .ite (fun h => ?_) fun _ =>
      .ite (fun _ => .pure (by rw [hp])) fun _ => .pure (by rw [hp])
    rw [hp] at h
    exact absurd h h2

end HReader

end Fstrm
