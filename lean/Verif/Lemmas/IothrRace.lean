import Verif.Lemmas.Race
import Verif.Lemmas.IothrQueues
import Verif.Model.IothrAccess

/-! What the threads of an I/O thread object know of each other's accesses, with the queue that has a mutex. -/

set_option autoImplicit false

namespace Fstrm

open Spec
open QGhost (upd upd_same upd_ne)

abbrev Evs := List (ThreadEv Place Mutex)

theorem Spec.Known.frame {L M : Type} {tr evs : List (ThreadEv L M)} {P : ThreadEv L M → Prop} {x : L}
    (h : Known tr P x) (he : ∀ a ∈ evs, ¬ a.At x) : Known (tr ++ evs) P x :=
  h.append fun a ha hx => absurd hx (he a ha)

/-- Who knows of all accesses to what queue `i` protects: the owner of its mutex, or who will be the next. -/
def InQ (tr : Evs) (i : Nat) (o : Option Nat) (x : Place) : Prop :=
  (o = none → HeldM tr (.queue i) x) ∧ ∀ u, o = some u → Held tr u x

/-- What queue `i` protects; `Q i id`: payload `id` is in it. -/
def Guarded (Q : Nat → Nat → Prop) (i : Nat) (x : Place) : Prop :=
  (∃ p, x = .queue i p) ∨ ∃ id, x = .payload id ∧ Q i id

/-- `O`: owners of the mutexes of the queues; `Q`: the payloads in the queues; `G`: those the I/O thread has taken out;
`W`: those that threads are about to put in; from number `N` on there are none; `X`: the I/O thread is at its end. -/
structure RInv (tr : Evs) (O : Nat → Option Nat) (Q : Nat → Nat → Prop) (G : Nat → Prop) (W : Nat → Nat → Prop)
    (N : Nat) (X : Prop) : Prop where
  ord : ∀ x, x ≠ .shutting → Ordered tr x
  q : ∀ i x, Guarded Q i x → InQ tr i (O i) x
  gone : ∀ id, G id → Held tr 0 (.payload id)
  wait : ∀ t id, W t id → Held tr (t + 1) (.payload id)
  new : ∀ id, N ≤ id → ∀ a ∈ tr, ¬ a.At (.payload id)
  idx : HeldM tr .getQueue .getIdx
  own : Held tr 0 .own
  exited : X → HeldX tr 0 .own

namespace RInv

variable {tr evs : Evs} {O : Nat → Option Nat} {Q Q' : Nat → Nat → Prop} {G G' : Nat → Prop} {W W' : Nat → Nat → Prop}
  {N N' : Nat} {X X' : Prop} {u i : Nat}

theorem start : RInv [] (fun _ => none) (fun _ _ => False) (fun _ => False) (fun _ _ => False) 0 False :=
  ⟨fun _ _ => nofun, fun _ _ _ => ⟨fun _ => .none nofun, nofun⟩, nofun, nofun, nofun, .none nofun, .none nofun, nofun⟩

theorem mono (h : RInv tr O Q G W N X) (hQ : ∀ i id, Q' i id → Q i id) (hG : ∀ id, G' id → G id)
    (hW : ∀ t id, W' t id → W t id) (hN : N ≤ N') (hX : X' → X) : RInv tr O Q' G' W' N' X' :=
  ⟨h.ord, fun i x hx => h.q i x (hx.imp id fun ⟨j, e, hj⟩ => ⟨j, e, hQ i j hj⟩), fun id hi => h.gone id (hG id hi),
    fun t id hi => h.wait t id (hW t id hi), fun id hi => h.new id (by omega), h.idx, h.own, fun hx => h.exited (hX hx)⟩

theorem _root_.Fstrm.InQ.frame {o : Option Nat} {x : Place} (h : InQ tr i o x) (he : ∀ a ∈ evs, ¬ a.At x) : InQ (tr ++ evs) i o x :=
  ⟨fun ho => (h.1 ho).frame he, fun u hu => (h.2 u hu).frame he⟩

/-- Nothing is accessed but `shutting_down`. -/
theorem frame (h : RInv tr O Q G W N X) (ht : ∀ a ∈ evs, a.thread = u) (he : ∀ a ∈ evs, ∀ x, x ≠ .shutting → ¬ a.At x) :
    RInv (tr ++ evs) O Q G W N X := by
  refine ⟨fun x hx => (h.ord x hx).append ht ?_, fun i x hx => (h.q i x hx).frame fun a ha => he a ha x ?_,
    fun id hi => (h.gone id hi).frame fun a ha => he a ha _ (by intro h; cases h),
    fun t id hi => (h.wait t id hi).frame fun a ha => he a ha _ (by intro h; cases h), ?_,
    h.idx.frame fun a ha => he a ha _ (by intro h; cases h), h.own.frame fun a ha => he a ha _ (by intro h; cases h),
    fun hx => (h.exited hx).frame fun a ha => he a ha _ (by intro h; cases h)⟩
  · rintro ⟨a, ha, hat⟩; exact absurd hat (he a ha x hx)
  · rcases hx with ⟨p, rfl⟩ | ⟨id, rfl, _⟩ <;> (intro h; cases h)
  · intro id hi a ha
    rcases List.mem_append.1 ha with ha | ha
    · exact h.new id hi a ha
    · exact he a ha _ (by intro h; cases h)

theorem one {o : ThreadOp Place Mutex} {P : ThreadEv Place Mutex → Prop} (h : P ⟨u, o⟩) :
    ∀ a ∈ ([⟨u, o⟩] : Evs), P a := by
  intro a ha
  simp only [List.mem_singleton] at ha
  exact ha ▸ h

theorem not_at_lock {m : Mutex} {x : Place} : ¬ ThreadEv.At x (⟨u, .lock m⟩ : ThreadEv Place Mutex) := by
  rintro (h | h) <;> cases h

theorem not_at_unlock {m : Mutex} {x : Place} : ¬ ThreadEv.At x (⟨u, .unlock m⟩ : ThreadEv Place Mutex) := by
  rintro (h | h) <;> cases h

/-- Locking a queue. -/
theorem lock (h : RInv tr O Q G W N X) (ho : O i = none) :
    RInv (tr ++ [⟨u, .lock (.queue i)⟩]) (upd O i (some u)) Q G W N X := by
  have hf := h.frame (u := u) (evs := [⟨u, .lock (.queue i)⟩]) (one rfl) (one fun x _ => not_at_lock)
  refine { hf with q := fun j x hx => ?_ }
  by_cases hj : j = i
  · subst hj
    rw [upd_same]
    refine ⟨nofun, fun v hv => ?_⟩
    cases hv
    exact ((h.q j x hx).1 ho).lock
  · rw [upd_ne hj]; exact hf.q j x hx

/-- Unlocking a queue: what the thread was about to put in may be in now. -/
theorem unlockPut {t : Nat} (h : RInv tr O Q G W N X) (ho : O i = some (t + 1)) :
    RInv (tr ++ [⟨t + 1, .unlock (.queue i)⟩]) (upd O i none) (fun j id => Q j id ∨ j = i ∧ W t id) G W N X := by
  have hf := h.frame (u := t + 1) (evs := [⟨t + 1, .unlock (.queue i)⟩]) (one rfl) (one fun x _ => not_at_unlock)
  refine { hf with q := fun j x hx => ?_ }
  by_cases hj : j = i
  · subst hj
    rw [upd_same]
    refine ⟨fun _ => ?_, nofun⟩
    rcases hx with hx | ⟨id, rfl, hx | ⟨_, hx⟩⟩
    · exact ((h.q j x (Or.inl hx)).2 _ ho).unlock
    · exact ((h.q j _ (Or.inr ⟨id, rfl, hx⟩)).2 _ ho).unlock
    · exact (h.wait t id hx).unlock
  · rw [upd_ne hj]
    refine hf.q j x ?_
    rcases hx with hx | ⟨id, rfl, hx | ⟨hx, _⟩⟩
    · exact Or.inl hx
    · exact Or.inr ⟨id, rfl, hx⟩
    · exact absurd hx hj

/-- Unlocking a queue: the I/O thread may have taken out what was in. -/
theorem unlockTake (h : RInv tr O Q G W N X) (ho : O i = some 0) :
    RInv (tr ++ [⟨0, .unlock (.queue i)⟩]) (upd O i none) Q (fun id => G id ∨ Q i id) W N X := by
  have hf := h.frame (u := 0) (evs := [⟨0, .unlock (.queue i)⟩]) (one rfl) (one fun x _ => not_at_unlock)
  refine { hf with q := fun j x hx => ?_, gone := fun id hi => ?_ }
  · by_cases hj : j = i
    · subst hj
      rw [upd_same]
      exact ⟨fun _ => ((h.q j x hx).2 _ ho).unlock, nofun⟩
    · rw [upd_ne hj]; exact hf.q j x hx
  · rcases hi with hi | hi
    · exact hf.gone id hi
    · exact ((h.q i _ (Or.inr ⟨id, rfl, hi⟩)).2 _ ho).frame (one not_at_unlock)

/-- Unlocking without having done anything but looking. -/
theorem unlock (h : RInv tr O Q G W N X) (ho : O i = some u) :
    RInv (tr ++ [⟨u, .unlock (.queue i)⟩]) (upd O i none) Q G W N X := by
  cases u with
  | zero => exact (h.unlockTake ho).mono (fun _ _ h => h) (fun _ h => Or.inl h) (fun _ _ h => h) (Nat.le_refl _) id
  | succ t => exact (h.unlockPut ho).mono (fun _ _ h => Or.inl h) (fun _ h => h) (fun _ _ h => h) (Nat.le_refl _) id

/-- A thread accesses places it knows all about. `P` are the places. -/
theorem touch (h : RInv tr O Q G W N X) {P : Place → Prop} (ht : ∀ a ∈ evs, a.thread = u)
    (hP : ∀ a ∈ evs, ∀ x, a.At x → P x) (hk : ∀ x, P x → Held tr u x)
    (hq : ∀ i x, Guarded Q i x → P x → O i = some u) (hg : ∀ id, G id → P (.payload id) → u = 0)
    (hw : ∀ t id, W t id → P (.payload id) → u = t + 1) (hn : ∀ id, N ≤ id → ¬ P (.payload id))
    (hi : ¬ P .getIdx) (ho : P .own → u = 0) (hx : P .own → ¬ X) : RInv (tr ++ evs) O Q G W N X := by
  have keep : ∀ {R : ThreadEv Place Mutex → Prop} {x : Place}, Known tr R x → ¬ P x → Known (tr ++ evs) R x :=
    fun h hx => h.frame fun a ha hat => hx (hP a ha _ hat)
  have more : ∀ {x : Place}, P x → Held (tr ++ evs) u x := fun hx => (hk _ hx).append fun a ha _ => ht a ha
  refine ⟨fun x hx => (h.ord x hx).append ht fun ⟨a, ha, hat⟩ => hk x (hP a ha x hat), fun i x hx => ?_, fun id hi => ?_,
    fun t id hi => ?_, ?_, keep h.idx hi, ?_, fun hX => keep (h.exited hX) fun hp => hx hp hX⟩
  · by_cases hp : P x
    · have := hq i x hx hp
      rw [this]
      exact ⟨nofun, fun v hv => by cases hv; exact more hp⟩
    · exact ⟨fun h1 => keep ((h.q i x hx).1 h1) hp, fun v hv => keep ((h.q i x hx).2 v hv) hp⟩
  · by_cases hp : P (.payload id)
    · exact hg id hi hp ▸ more hp
    · exact keep (h.gone id hi) hp
  · by_cases hp : P (.payload id)
    · exact hw t id hi hp ▸ more hp
    · exact keep (h.wait t id hi) hp
  · intro id hi a ha hat
    rcases List.mem_append.1 ha with ha | ha
    · exact h.new id hi a ha hat
    · exact hn id hi (hP a ha _ hat)
  · by_cases hp : P .own
    · exact ho hp ▸ more hp
    · exact keep h.own hp

/-- `fstrm_iothr_get_input_queue`. -/
theorem getQueue (h : RInv tr O Q G W N X) (mid : List (ThreadOp Place Mutex)) (hm : ∀ o ∈ mid, o = .read .getIdx ∨ o = .write .getIdx) :
    RInv (tr ++ ([ThreadOp.lock Mutex.getQueue] ++ mid ++ [ThreadOp.unlock Mutex.getQueue]).map (fun o => (⟨u, o⟩ : ThreadEv Place Mutex))) O Q G W N X := by
  have h1 := h.frame (u := u) (evs := [⟨u, .lock .getQueue⟩]) (one rfl) (one fun x _ => not_at_lock)
  have k1 : Held (tr ++ [⟨u, .lock .getQueue⟩]) u .getIdx := h.idx.lock
  have hat : ∀ a ∈ mid.map (fun o => (⟨u, o⟩ : ThreadEv Place Mutex)), ∀ x, a.At x → x = .getIdx := by
    intro a ha x hx
    obtain ⟨o, ho, rfl⟩ := List.mem_map.1 ha
    rcases hm o ho with rfl | rfl <;> rcases hx with hx | hx <;> cases hx <;> rfl
  have ht : ∀ a ∈ mid.map (fun o => (⟨u, o⟩ : ThreadEv Place Mutex)), a.thread = u := by
    intro a ha
    obtain ⟨o, ho, rfl⟩ := List.mem_map.1 ha
    rfl
  have k2 : Held (tr ++ [⟨u, .lock .getQueue⟩] ++ mid.map (fun o => (⟨u, o⟩ : ThreadEv Place Mutex))) u .getIdx :=
    k1.append fun a ha _ => ht a ha
  have other : ∀ x, x ≠ .getIdx → ∀ a ∈ mid.map (fun o => (⟨u, o⟩ : ThreadEv Place Mutex)), ¬ a.At x :=
    fun x hx a ha h => hx (hat a ha x h)
  have un : ∀ x, ∀ a ∈ ([⟨u, .unlock .getQueue⟩] : Evs), ¬ a.At x := fun x => one not_at_unlock
  have e : tr ++ ([ThreadOp.lock Mutex.getQueue] ++ mid ++ [ThreadOp.unlock Mutex.getQueue]).map (fun o => (⟨u, o⟩ : ThreadEv Place Mutex)) =
      tr ++ [⟨u, .lock .getQueue⟩] ++ mid.map (fun o => (⟨u, o⟩ : ThreadEv Place Mutex)) ++ [⟨u, .unlock .getQueue⟩] := by simp
  rw [e]
  refine ⟨fun x hx => ((h1.ord x hx).append ht ?_).append (u := u) (one rfl) ?_, fun i x hx => ((h1.q i x hx).frame (other x ?_)).frame (un x),
    fun id hi => ((h1.gone id hi).frame (other _ (by intro h; cases h))).frame (un _),
    fun t id hi => ((h1.wait t id hi).frame (other _ (by intro h; cases h))).frame (un _), ?_, k2.unlock,
    (h1.own.frame (other _ (by intro h; cases h))).frame (un _),
    fun hX => ((h1.exited hX).frame (other _ (by intro h; cases h))).frame (un _)⟩
  · rintro ⟨a, ha, hx⟩
    exact hat a ha x hx ▸ k1
  · rintro ⟨a, ha, hx⟩
    exact absurd hx (un x a ha)
  · rcases hx with ⟨p, rfl⟩ | ⟨id, rfl, _⟩ <;> (intro h; cases h)
  · intro id hi a ha
    rcases List.mem_append.1 ha with ha | ha
    · rcases List.mem_append.1 ha with ha | ha
      · exact h1.new id hi a ha
      · exact other _ (by intro h; cases h) a ha
    · exact un _ a ha

end RInv

/-! ## Accesses to a queue -/

/-- What an access of thread `t` can be. -/
theorem Mt.touch_cases {num sz : UInt32} {s s' : Mt} (h : s.Inv num sz) {t k : Nat} (ha : s.access t k = .ok s') :
    (s.touch t k = [] ∧ s'.owner = s.owner ∧ s'.log = s.log) ∨
    (s.touch t k = [.lock ()] ∧ s.owner = none ∧ s'.owner = some t ∧ s'.log = s.log) ∨
    ((∃ p, s.touch t k = [.read p] ∨ s.touch t k = [.write p]) ∧ s.owner = some t ∧ s'.owner = s.owner ∧ s'.log = s.log) ∨
    (s.touch t k = [.unlock ()] ∧ s.owner = some t ∧ s'.owner = none ∧ ∃ c, s'.log = s.log ++ [c] ∧ c.thread = t) := by
  have hex := h.excl t
  unfold Mt.access at ha
  unfold Mt.touch
  split at ha
  · cases ha
    rename_i hp
    simp only [hp]
    exact Or.inl ⟨trivial, trivial, trivial⟩
  · cases ha
    rename_i hp
    simp only [hp, Mt.enter, h.locked, if_true]
    cases ho : s.owner with
    | none => exact Or.inr (Or.inl ⟨by simp, rfl, rfl, rfl⟩)
    | some v => exact Or.inl ⟨by simp, ho, rfl⟩
  · cases ha
    rename_i hp
    rw [hp] at hex
    simp only [hp]
    exact Or.inr (Or.inr (Or.inl ⟨⟨_, Or.inl rfl⟩, hex rfl, rfl, rfl⟩))
  · rename_i hp
    rw [hp] at hex
    simp only [hp]
    simp only at ha
    split at ha <;> cases ha <;> exact Or.inr (Or.inr (Or.inl ⟨⟨_, Or.inl rfl⟩, hex rfl, rfl, rfl⟩))
  · cases ha
    rename_i hp
    rw [hp] at hex
    simp only [hp]
    exact Or.inr (Or.inr (Or.inl ⟨⟨_, Or.inr rfl⟩, hex rfl, rfl, rfl⟩))
  · rename_i hp
    rw [hp] at hex
    simp only [hp]
    simp only at ha
    split at ha
    · cases ha
    · split at ha
      · cases ha
        exact Or.inr (Or.inr (Or.inl ⟨⟨_, Or.inr rfl⟩, hex rfl, rfl, rfl⟩))
      · cases ha
  · cases ha
    rename_i hp
    rw [hp] at hex
    simp only [hp]
    refine Or.inr (Or.inr (Or.inr ⟨trivial, hex rfl, ?_, _, rfl, rfl⟩))
    show (if s.locked then none else s.owner) = none
    rw [h.locked]; rfl
  · cases ha
    rename_i hp
    simp only [hp, Mt.enter, h.locked, if_true]
    cases ho : s.owner with
    | none => exact Or.inr (Or.inl ⟨by simp, rfl, rfl, rfl⟩)
    | some v => exact Or.inl ⟨by simp, ho, rfl⟩
  · cases ha
    rename_i hp
    rw [hp] at hex
    simp only [hp]
    exact Or.inr (Or.inr (Or.inl ⟨⟨_, Or.inl rfl⟩, hex rfl, rfl, rfl⟩))
  · rename_i hp
    rw [hp] at hex
    simp only [hp]
    simp only at ha
    split at ha <;> cases ha <;> exact Or.inr (Or.inr (Or.inl ⟨⟨_, Or.inl rfl⟩, hex rfl, rfl, rfl⟩))
  · cases ha
    rename_i hp
    rw [hp] at hex
    simp only [hp]
    exact Or.inr (Or.inr (Or.inl ⟨⟨_, Or.inr rfl⟩, hex rfl, rfl, rfl⟩))
  · rename_i hp
    rw [hp] at hex
    simp only [hp]
    simp only at ha
    split at ha
    · cases ha
    · cases ha
      exact Or.inr (Or.inr (Or.inl ⟨⟨_, Or.inl rfl⟩, hex rfl, rfl, rfl⟩))
  · cases ha
    rename_i hp
    rw [hp] at hex
    simp only [hp]
    refine Or.inr (Or.inr (Or.inr ⟨trivial, hex rfl, ?_, _, rfl, rfl⟩))
    show (if s.locked then none else s.owner) = none
    rw [h.locked]; rfl

/-- What thread `u` does at queue `i`. -/
def qEvs (u i : Nat) (l : List (ThreadOp QPlace Unit)) : Evs :=
  (l.map (ThreadOp.ofQueue i)).map fun o => ⟨u, o⟩

theorem RInv.access {num sz : UInt32} {c c' : Mt} (hi : c.Inv num sz) {u k i : Nat} (ha : c.access u k = .ok c')
    {tr : Evs} {O : Nat → Option Nat} {Q : Nat → Nat → Prop} {G : Nat → Prop} {W : Nat → Nat → Prop} {N : Nat} {X : Prop}
    (h : RInv tr O Q G W N X) (ho : O i = c.owner) :
    RInv (tr ++ qEvs u i (c.touch u k)) (upd O i c'.owner) Q G W N X ∧
    (c'.log ≠ c.log →
      (∀ t, u = t + 1 → RInv (tr ++ qEvs u i (c.touch u k)) (upd O i c'.owner) (fun j id => Q j id ∨ j = i ∧ W t id) G W N X) ∧
      (u = 0 → RInv (tr ++ qEvs u i (c.touch u k)) (upd O i c'.owner) Q (fun id => G id ∨ Q i id) W N X)) := by
  have same : c'.owner = c.owner → upd O i c'.owner = O := by
    intro he
    funext j
    by_cases hj : j = i
    · subst hj; rw [upd_same, he, ho]
    · exact upd_ne hj
  rcases Mt.touch_cases hi ha with ⟨e1, e2, e3⟩ | ⟨e1, e2, e3, e4⟩ | ⟨⟨p, e1⟩, e2, e3, e4⟩ | ⟨e1, e2, e3, _⟩
  · rw [e1, same e2]
    refine ⟨?_, fun hl => absurd e3 hl⟩
    show RInv (tr ++ []) O Q G W N X
    rw [List.append_nil]; exact h
  · rw [e1, e3]
    exact ⟨h.lock (ho.trans e2), fun hl => absurd e4 hl⟩
  · rw [same e3]
    refine ⟨?_, fun hl => absurd e4 hl⟩
    have hP : ∀ a ∈ qEvs u i (c.touch u k), a.thread = u ∧ ∀ x, a.At x → x = .queue i p := by
      intro a ha
      rcases e1 with e1 | e1 <;>
      · rw [e1] at ha
        simp only [qEvs, List.map_cons, List.map_nil, List.mem_singleton, ThreadOp.ofQueue] at ha
        subst ha
        refine ⟨rfl, ?_⟩
        rintro x (hx | hx) <;> cases hx <;> rfl
    have hg : Guarded Q i (.queue i p) := Or.inl ⟨p, rfl⟩
    refine h.touch (u := u) (P := fun x => x = .queue i p) (fun a ha => (hP a ha).1) (fun a ha => (hP a ha).2) ?_ ?_
      (by intro _ _ h; cases h) (by intro _ _ _ h; cases h) (by intro _ _ h; cases h) (by intro h; cases h)
      (by intro h; cases h) (by intro h; cases h)
    · rintro x rfl
      exact (h.q i _ hg).2 u (ho.trans e2)
    · rintro j x hx rfl
      rcases hx with ⟨p', hx⟩ | ⟨id, hx, _⟩
      · cases hx; exact ho.trans e2
      · cases hx
  · rw [e1, e3]
    refine ⟨h.unlock (ho.trans e2), fun _ => ⟨?_, ?_⟩⟩
    · rintro t rfl; exact h.unlockPut (ho.trans e2)
    · rintro rfl; exact h.unlockTake (ho.trans e2)

end Fstrm
