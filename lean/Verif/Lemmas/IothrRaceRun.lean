import Verif.Lemmas.IothrRace

/-! No step of a run has a data race, except on `shutting_down`. -/

set_option autoImplicit false

namespace Fstrm

open Spec Iothr
open QGhost (upd upd_same upd_ne)

variable {σ : Type}

namespace IoQ

/-- The owners of the mutexes. -/
def owners (qs : List Mt) (i : Nat) : Option Nat :=
  match qs[i]? with
  | some c => c.owner
  | none => none

/-- Payload `id` is in queue `i`. -/
def inQ (io : Iothr σ) (i id : Nat) : Prop := ∃ es e, io.queues[i]? = some es ∧ e ∈ es ∧ e.id = id

/-- Payload `id` has been taken out of its queue. -/
def isGone (io : Iothr σ) (id : Nat) : Prop := ∃ e ∈ submits io.log, e ∉ io.queues.flatten ∧ e.id = id

/-- Thread `t` is about to put in payload `id`. -/
def waits (w : Nat → Nat → List Entry) (t id : Nat) : Prop := ∃ q e, e ∈ w q t ∧ e.id = id

/-- What threads know of each other in state `s` after `tr`. -/
def Known (s : IoQ σ mutexQueue) (tr : Evs) : Prop :=
  RInv tr (owners s.qs) (inQ s.io) (isGone s.io) (waits s.wait) s.io.nextId (s.io.pc = .exited)

theorem owners_set {qs : List Mt} {i : Nat} (hi : i < qs.length) (c : Mt) : owners (qs.set i c) = upd (owners qs) i c.owner := by
  funext j
  by_cases hj : j = i
  · subst hj; rw [upd_same]; simp [owners, hi]
  · rw [upd_ne hj]
    simp only [owners]
    rw [List.getElem?_set_ne (fun h => hj h.symm)]

theorem owners_same {qs : List Mt} {i : Nat} {c c' : Mt} (hc : qs[i]? = some c) (ho : c'.owner = c.owner) :
    owners (qs.set i c') = owners qs := by
  rw [owners_set (List.getElem?_eq_some_iff.1 hc).1]
  funext j
  by_cases hj : j = i
  · subst hj; rw [upd_same, ho]; simp [owners, hc]
  · exact upd_ne hj

theorem owners_at {qs : List Mt} {i : Nat} {c : Mt} (hc : qs[i]? = some c) : owners qs i = c.owner := by
  simp [owners, hc]

variable {num sz : UInt32}

theorem inQ.mem {io : Iothr σ} {i id : Nat} (h : inQ io i id) (ha : InvA io) :
    ∃ e ∈ submits io.log, e ∈ io.queues.flatten ∧ e.id = id ∧ e.queue = i := by
  obtain ⟨es, e, h1, h2, h3⟩ := h
  have hf : e ∈ io.queues.flatten := List.mem_flatten.2 ⟨es, List.mem_of_getElem? h1, h2⟩
  exact ⟨e, ha.mem_queues hf, hf, h3, ha.qid i es h1 e h2⟩

theorem same_id {io : Iothr σ} (ha : InvA io) {e e' : Entry} (h : e ∈ submits io.log) (h' : e' ∈ submits io.log)
    (hid : e.id = e'.id) : e = e' := by
  have := ha.ids
  generalize submits io.log = l at *
  induction l with
  | nil => cases h
  | cons x l ih =>
    simp only [List.map_cons, List.nodup_cons] at this
    rcases List.mem_cons.1 h with rfl | h1
    · rcases List.mem_cons.1 h' with rfl | h2
      · rfl
      · exact absurd (List.mem_map.2 ⟨e', h2, hid.symm⟩) this.1
    · rcases List.mem_cons.1 h' with rfl | h2
      · exact absurd (List.mem_map.2 ⟨e, h1, hid⟩) this.1
      · exact ih h1 h2 this.2

theorem gone_not_inQ {io : Iothr σ} (ha : InvA io) {i id : Nat} (h : isGone io id) : ¬ inQ io i id := by
  intro hq
  obtain ⟨e, h1, h2, h3⟩ := h
  obtain ⟨e', g1, g2, g3, _⟩ := hq.mem ha
  have := same_id ha h1 g1 (h3.trans g3.symm)
  subst this
  exact h2 g2

theorem gone_lt {io : Iothr σ} (ha : InvA io) {id : Nat} (h : isGone io id) : id < io.nextId := by
  obtain ⟨e, h1, _, rfl⟩ := h
  exact ha.lt e h1

theorem waits_pend {s : IoQ σ mutexQueue} {G : Nat → QGhost} (hl : s.GLink G) {t id : Nat} (h : waits s.wait t id) :
    id < s.io.nextId ∧ ¬ isGone s.io id := by
  obtain ⟨q, e, h1, rfl⟩ := h
  obtain ⟨p1, _, p3, _⟩ := hl.invA.plt _ _ (hl.pend q t e h1)
  refine ⟨p1, ?_⟩
  rintro ⟨e', g1, _, g3⟩
  exact p3 (List.mem_map.2 ⟨e', g1, g3⟩)

/-- What happens to the queues in a step. -/
theorem Known.congr {s s' : IoQ σ mutexQueue} {tr : Evs} (h : s.Known tr) (h1 : owners s'.qs = owners s.qs)
    (h2 : s'.io.queues = s.io.queues) (h3 : submits s'.io.log = submits s.io.log)
    (h4 : ∀ q t e, e ∈ s'.wait q t → e ∈ s.wait q t) (h5 : s.io.nextId ≤ s'.io.nextId) (h6 : s'.io.pc = s.io.pc) :
    s'.Known tr := by
  unfold Known at h ⊢
  rw [h1]
  refine h.mono ?_ ?_ ?_ h5 (by rw [h6]; exact id)
  · rintro i id ⟨es, e, g1, g2, g3⟩
    exact ⟨es, e, h2 ▸ g1, g2, g3⟩
  · rintro id ⟨e, g1, g2, g3⟩
    exact ⟨e, h3 ▸ g1, h2 ▸ g2, g3⟩
  · rintro t id ⟨q, e, g1, g2⟩
    exact ⟨q, e, h4 q t e g1, g2⟩

end IoQ

/-- A client submits a payload it has written. -/
theorem RInv.submit {tr : Evs} {O : Nat → Option Nat} {Q : Nat → Nat → Prop} {G : Nat → Prop} {W : Nat → Nat → Prop} {N : Nat}
    {X : Prop} (h : RInv tr O Q G W N X) (t : Nat) (hQ : ∀ i, ¬ Q i N) (hG : ¬ G N) (hW : ∀ t, ¬ W t N) :
    RInv (tr ++ [⟨t + 1, .write (.payload N)⟩, ⟨t + 1, .read .shutting⟩]) O Q G (fun t' id => W t' id ∨ t' = t ∧ id = N) (N + 1) X := by
  have hN : Held tr (t + 1) (.payload N) := .none (h.new N (Nat.le_refl _))
  have h1 : RInv (tr ++ [⟨t + 1, .write (.payload N)⟩]) O Q G W (N + 1) X := by
    refine (h.mono (fun _ _ h => h) (fun _ h => h) (fun _ _ h => h) (Nat.le_succ N) id).touch (u := t + 1) (P := fun x => x = .payload N)
      (RInv.one rfl) (RInv.one ?_) ?_ ?_ ?_ ?_ ?_ (by intro h; cases h) (by intro h; cases h) (by intro h; cases h)
    · rintro x (hx | hx) <;> cases hx; rfl
    · rintro x rfl; exact hN
    · rintro i x hx rfl
      rcases hx with ⟨p, hx⟩ | ⟨id, hx, hq⟩ <;> cases hx
      exact absurd hq (hQ i)
    · intro id hg hx
      cases hx
      exact absurd hg hG
    · intro t' id hg hx
      cases hx
      exact absurd hg (hW t')
    · intro id hi hx
      cases hx
      omega
  have h2 := h1.frame (u := t + 1) (evs := [⟨t + 1, .read .shutting⟩]) (RInv.one rfl)
    (RInv.one fun x hx => by rintro (h | h) <;> cases h; exact hx rfl)
  rw [show tr ++ [⟨t + 1, .write (.payload N)⟩, ⟨t + 1, .read .shutting⟩] =
    tr ++ [⟨t + 1, .write (.payload N)⟩] ++ [⟨t + 1, .read .shutting⟩] by simp]
  refine { h2 with wait := fun t' id hi => ?_ }
  rcases hi with hi | ⟨rfl, rfl⟩
  · exact h2.wait t' id hi
  · refine (hN.append (RInv.one fun _ => rfl)).frame (RInv.one ?_)
    rintro (h | h) <;> cases h

namespace IoQ

variable {num sz : UInt32}

theorem Known.submit {s s' : IoQ σ mutexQueue} {G : Nat → QGhost} (hl : s.QLink num (MtR num sz) G) {tr : Evs} (h : s.Known tr)
    {q t : Nat} {raw : Bytes} {data : Option Bytes} {f : Bool} (hs : s.submit q t raw data f = .ok s') :
    s'.Known (tr ++ (s.touch mutexTouch s' (.submit q t raw data f)).map fun o => ⟨t + 1, o⟩) := by
  unfold IoQ.submit at hs
  rw [if_neg (by simp [hl.g.alive])] at hs
  unfold IoQ.touch
  split at hs
  · rename_i hn
    cases hs
    simp only [hn, List.map_nil, List.append_nil]
    exact h
  · rename_i c hc
    simp only [hc]
    split at hs
    · rename_i hi
      cases hs
      simp only [hi, Option.isSome_none, Bool.false_eq_true, if_false, List.map_nil, List.append_nil]
      exact h
    · rename_i c' hi
      simp only [hi, Option.isSome_some, if_true, List.map_cons, List.map_nil]
      have hq : ∀ i, ¬ inQ s.io i s.io.nextId := by
        intro i hx
        obtain ⟨e, g1, _, g3, _⟩ := hx.mem hl.g.invA
        have := hl.g.invA.lt e g1
        omega
      have hg : ¬ isGone s.io s.io.nextId := fun hx => by have := gone_lt hl.g.invA hx; omega
      have hw : ∀ t, ¬ waits s.wait t s.io.nextId := fun t hx => by have := (waits_pend hl.g hx).1; omega
      have hk := RInv.submit h t hq hg hw
      have hql : q < s.io.queues.length := by
        rw [← hl.len]; exact (List.getElem?_eq_some_iff.1 hc).1
      have hpn : s.io.pending s.io.nextId = none := by
        cases hp : s.io.pending s.io.nextId with
        | none => rfl
        | some e =>
          have h1 := hl.g.key _ _ hp
          have h2 := (hl.g.invA.plt _ _ hp).1
          omega
      rcases submitCheck_cases s.io s.io.nextId q data f hl.g.alive hpn hql with ⟨r, hck⟩ | ⟨d, _, _, _, hck⟩
      · simp only [hck, Exec.ok_bind, hpn] at hs
        cases hs
        refine hk.mono (fun _ _ h => h) ?_ (fun _ _ h => Or.inl h) (Nat.le_refl _) id
        rintro id ⟨e, g1, g2, g3⟩
        simp only [submits_append, submits, List.append_nil] at g1
        exact ⟨e, g1, g2, g3⟩
      · simp only [hck, Exec.ok_bind, if_true] at hs
        cases hs
        unfold IoQ.Known
        have ho : Mt.owner c' = Mt.owner c := by
          simp only [mutexQueue] at hi
          split at hi
          · cases hi; rfl
          · cases hi
        rw [show owners (s.qs.set q c') = owners s.qs from owners_same hc ho]
        refine hk.mono (fun _ _ h => h) (fun _ h => h) ?_ (Nat.le_refl _) id
        rintro t' id ⟨q', e, g1, g2⟩
        simp only at g1
        by_cases hqt : q' = q ∧ t' = t
        · obtain ⟨rfl, rfl⟩ := hqt
          rw [upd2_same] at g1
          rcases List.mem_append.1 g1 with g1 | g1
          · exact Or.inl ⟨_, e, g1, g2⟩
          · simp only [List.mem_singleton] at g1
            subst g1
            exact Or.inr ⟨rfl, g2.symm⟩
        · rw [upd2_ne hqt] at g1
          exact Or.inl ⟨_, e, g1, g2⟩

/-- A submit call returns. -/
theorem Known.returned {s s' : IoQ σ mutexQueue} {tr : Evs} (h : s.Known tr) {q t sp : Nat} {ok : Bool}
    (hs : s.returned q t ok sp = .ok s') : s'.Known tr := by
  unfold IoQ.returned at hs
  split at hs
  · cases hs
  · simp only at hs
    split at hs
    · split at hs
      · cases hs
        obtain ⟨wk, hwk⟩ := signal_eq (s.io.emit .signal)
        refine h.congr rfl ?_ ?_ (fun _ _ _ h => h) ?_ ?_
        · show (s.io.emit .signal).signal.queues = _
          rw [hwk]; rfl
        · show submits (s.io.emit .signal).signal.log = _
          rw [hwk]; simp [emit, submits_append, submits]
        · show _ ≤ (s.io.emit .signal).signal.nextId
          rw [hwk]; exact Nat.le_refl _
        · show (s.io.emit .signal).signal.pc = _
          rw [hwk]; rfl
      · cases hs
        exact h.congr rfl rfl rfl (fun _ _ _ h => h) (Nat.le_refl _) rfl
    · cases hs
      refine h.congr rfl rfl (by simp [emit, submits_append, submits]) ?_ (Nat.le_refl _) rfl
      intro q' t' e he
      simp only at he
      by_cases hqt : q' = q ∧ t' = t
      · obtain ⟨rfl, rfl⟩ := hqt
        rw [upd2_same] at he
        exact (List.dropLast_sublist _).subset he
      · rw [upd2_ne hqt] at he; exact he

theorem mem_modify {qs : List (List Entry)} {i j : Nat} {e : Entry} {es : List Entry} (h : (qs.modify i (· ++ [e]))[j]? = some es) :
    ∃ es0, qs[j]? = some es0 ∧ (es = es0 ∨ j = i ∧ es = es0 ++ [e]) := by
  rw [List.getElem?_modify] at h
  cases hj : qs[j]? with
  | none => rw [hj] at h; simp at h
  | some es0 =>
    rw [hj] at h
    simp only [Option.map_eq_map, Option.map_some, Option.some.injEq] at h
    refine ⟨es0, rfl, ?_⟩
    split at h
    · rename_i hij; exact Or.inr ⟨hij.symm, h.symm⟩
    · exact Or.inl h.symm

/-- A producer's access. -/
theorem Known.prod {s s' : IoQ σ mutexQueue} {G : Nat → QGhost} (hl : s.QLink num (MtR num sz) G) {tr : Evs} (h : s.Known tr)
    {q t k : Nat} (hs : s.prod q t k = .ok s') :
    s'.Known (tr ++ (s.touch mutexTouch s' (.prod q t k)).map fun o => ⟨t + 1, o⟩) := by
  unfold IoQ.prod at hs
  rw [if_neg (by simp [hl.g.alive])] at hs
  unfold IoQ.touch
  split at hs
  · rename_i hn
    cases hs
    simp only [hn, List.map_nil, List.append_nil]
    exact h
  · rename_i c hc
    simp only [hc]
    obtain ⟨⟨c', os⟩, h1, hs⟩ := Exec.bind_eq_ok.1 hs
    obtain ⟨c'', h2, h1⟩ := Exec.bind_eq_ok.1 h1
    cases h1
    change Mt.access c (t + 1) k = .ok c' at h2
    have hinv : Mt.Inv num sz c := (hl.rel q c hc).inv
    have hlt := (List.getElem?_eq_some_iff.1 hc).1
    obtain ⟨k1, k2⟩ := RInv.access hinv h2 h (owners_at hc)
    rw [← owners_set (qs := s.qs) hlt c'] at k1 k2
    change IoQ.outs { s with qs := s.qs.set q c' } q (((Mt.log c').drop (Mt.log c).length).flatMap Spec.Call.out) = .ok s' at hs
    change s'.Known (tr ++ qEvs (t + 1) q (Mt.touch c (t + 1) k))
    have k1 : Known { s with qs := s.qs.set q c' } (tr ++ qEvs (t + 1) q (Mt.touch c (t + 1) k)) := k1
    rcases Mt.access_cases h2 with ⟨e1, _⟩ | ⟨x, ok, sp, _, e1⟩ | ⟨r, ct, _, e1⟩
    · rw [e1] at hs
      simp only [List.drop_length, List.flatMap_nil, IoQ.outs] at hs
      cases hs
      exact k1
    · have e2 : Mt.log c' = Mt.log c ++ [⟨t + 1, .ins x, .ins ok sp.toNat⟩] := by rw [e1]; rfl
      rw [e2, drop_append_self] at hs
      cases ok with
      | false =>
        simp only [List.flatMap_cons, List.flatMap_nil, List.append_nil, Spec.Call.out, IoQ.outs, IoQ.out] at hs
        obtain ⟨s2, h3, hs⟩ := Exec.bind_eq_ok.1 hs
        cases hs
        exact k1.returned h3
      | true =>
        simp only [List.flatMap_cons, List.flatMap_nil, List.append_nil, Spec.Call.out, IoQ.outs, IoQ.out] at hs
        obtain ⟨s1, h3, hs⟩ := Exec.bind_eq_ok.1 hs
        obtain ⟨s2, h4, hs⟩ := Exec.bind_eq_ok.1 hs
        cases hs
        refine Known.returned (s := s1) ?_ h4
        have k2 := (k2 (by rw [e2]; intro hx; simpa using congrArg List.length hx)).1 t rfl
        simp only [IoQ.effect, Nat.add_sub_cancel] at h3
        split at h3
        · cases h3
        · rename_i e rest hw
          cases h3
          have hm : e ∈ s.wait q t := by rw [hw]; simp
          obtain ⟨hown, hwho⟩ := hl.g.ac.own q t e hm
          have hp := hl.g.invA.plt _ _ (hl.g.pend q t e hm)
          refine RInv.mono k2 ?_ ?_ ?_ (Nat.le_refl _) id
          · rintro i id ⟨es, e', g1, g2, g3⟩
            obtain ⟨es0, g4, g5 | ⟨g5, g6⟩⟩ := mem_modify g1
            · subst g5; exact Or.inl ⟨es, e', g4, g2, g3⟩
            · subst g6
              rcases List.mem_append.1 g2 with g2 | g2
              · exact Or.inl ⟨es0, e', g4, g2, g3⟩
              · simp only [List.mem_singleton] at g2
                subst g2
                exact Or.inr ⟨g5.trans hown, q, e', hm, g3⟩
          · rintro id ⟨e', g1, g2, g3⟩
            have g0 : ∀ es, es ∈ s.io.queues.modify e.queue (· ++ [e]) → e' ∉ es :=
              fun es hes he => g2 (List.mem_flatten.2 ⟨es, hes, he⟩)
            simp only [emit, submits_append, submits] at g1
            rcases List.mem_append.1 g1 with g1 | g1
            · refine ⟨e', g1, ?_, g3⟩
              intro hf
              obtain ⟨es, hes, he⟩ := List.mem_flatten.1 hf
              obtain ⟨j, hj⟩ := List.getElem?_of_mem hes
              by_cases hje : e.queue = j
              · refine g0 (es ++ [e]) (List.mem_of_getElem? (i := j) ?_) (by simp [he])
                rw [List.getElem?_modify, hj]; simp [hje]
              · refine g0 es (List.mem_of_getElem? (i := j) ?_) he
                rw [List.getElem?_modify, hj]; simp [hje]
            · simp only [List.mem_singleton] at g1
              subst g1
              refine absurd ?_ (g0 (s.io.queues[e'.queue]'hp.2.1 ++ [e']) (List.mem_of_getElem? (i := e'.queue) ?_))
              · simp
              · rw [List.getElem?_modify, List.getElem?_eq_getElem hp.2.1]; simp
          · rintro t' id ⟨q', e', g1, g2⟩
            refine ⟨q', e', ?_, g2⟩
            simp only at g1
            by_cases hqt : q' = q ∧ t' = t
            · obtain ⟨rfl, rfl⟩ := hqt
              rw [upd2_same] at g1
              rw [hw]; simp [g1]
            · rw [upd2_ne hqt] at g1; exact g1
    · have e2 : Mt.log c' = Mt.log c ++ [⟨t + 1, .rem, .rem r ct.toNat⟩] := by rw [e1]; rfl
      rw [e2, drop_append_self] at hs
      simp only [List.flatMap_cons, List.flatMap_nil, List.append_nil, Spec.Call.out, IoQ.outs] at hs
      cases hs
      exact k1

/-! ### The I/O thread -/

theorem nextId_trs {s s' : Iothr σ} (h : Trs s s') : s.nextId ≤ s'.nextId := by
  refine h.inv (P := fun x => s.nextId ≤ x.nextId) (fun a b hab t => ?_) (Nat.le_refl _)
  cases t <;> simp only <;> omega

/-- What a step of the I/O thread at the queues means: `Known` but for the end of the thread. -/
def Known0 (s : IoQ σ mutexQueue) (tr : Evs) : Prop :=
  RInv tr (owners s.qs) (inQ s.io) (isGone s.io) (waits s.wait) s.io.nextId False

theorem Known.known0 {s : IoQ σ mutexQueue} {tr : Evs} (h : s.Known tr) : s.Known0 tr :=
  RInv.mono h (fun _ _ h => h) (fun _ h => h) (fun _ _ h => h) (Nat.le_refl _) False.elim

theorem Known0.congr {s s' : IoQ σ mutexQueue} {tr : Evs} (h : s.Known0 tr) (h1 : owners s'.qs = owners s.qs)
    (h2 : s'.io.queues = s.io.queues) (h3 : submits s'.io.log = submits s.io.log)
    (h4 : s'.wait = s.wait) (h5 : s.io.nextId ≤ s'.io.nextId) :
    s'.Known0 tr := by
  unfold Known0 at h ⊢
  rw [h1, h4]
  refine h.mono ?_ ?_ (fun _ _ h => h) h5 id
  · rintro i id ⟨es, e, g1, g2, g3⟩
    exact ⟨es, e, h2 ▸ g1, g2, g3⟩
  · rintro id ⟨e, g1, g2, g3⟩
    exact ⟨e, h3 ▸ g1, h2 ▸ g2, g3⟩

/-- The I/O thread's access to queue `i`. -/
theorem Known.take {s : IoQ σ mutexQueue} {G : Nat → QGhost} (hl : s.QLink num (MtR num sz) G) {tr : Evs} (h : s.Known tr)
    {i k : Nat} {r : Option Nat × IoQ σ mutexQueue} (hs : s.take i k = .ok r) (hn : s.io.nextId ≤ r.2.io.nextId) :
    r.2.Known0 (tr ++ (s.takeTouch mutexTouch i k).map fun o => ⟨0, o⟩) := by
  unfold IoQ.take at hs
  unfold IoQ.takeTouch
  split at hs
  · cases hs
  · rename_i c hc
    simp only [hc]
    split at hs
    · rename_i c' hr
      cases hs
      simp only [hr, Option.isSome_some, if_true, List.map_nil, List.append_nil]
      refine h.known0.congr ?_ rfl rfl rfl (Nat.le_refl _)
      have ho : Mt.owner c' = Mt.owner c := by
        simp only [mutexQueue] at hr
        split at hr
        · cases hr; rfl
        · cases hr
      exact owners_same hc ho
    · rename_i hr
      simp only [hr, Option.isSome_none, Bool.false_eq_true, if_false]
      obtain ⟨⟨c', r1⟩, h1, hs⟩ := Exec.bind_eq_ok.1 hs
      obtain ⟨c'', h2, h1⟩ := Exec.bind_eq_ok.1 h1
      cases h1
      change Mt.access c 0 k = .ok c' at h2
      have hinv : Mt.Inv num sz c := (hl.rel i c hc).inv
      have hlt := (List.getElem?_eq_some_iff.1 hc).1
      obtain ⟨k1, k2⟩ := RInv.access hinv h2 h.known0 (owners_at hc)
      rw [← owners_set (qs := s.qs) hlt c'] at k1 k2
      change r.2.Known0 (tr ++ qEvs 0 i (Mt.touch c 0 k))
      have k1 : Known0 { s with qs := s.qs.set i c' } (tr ++ qEvs 0 i (Mt.touch c 0 k)) := k1
      simp only at hs
      split at hs
      · cases hs; exact k1
      · cases hs; exact k1
      · rename_i x hx
        have hlog : Mt.log c' ≠ Mt.log c := by
          intro hx'
          rw [hx', List.drop_length] at hx
          cases hx
        have k2 := (k2 hlog).2 rfl
        split at hs
        · rename_i e rest hq
          split at hs
          · obtain ⟨io, h3, hs⟩ := Exec.bind_eq_ok.1 hs
            cases hs
            have hsame := processEntry_sameQ h3
            have hqs : io.queues = s.io.queues.set i rest := hsame.queues
            have hsub : submits io.log = submits s.io.log := hsame.submits
            refine RInv.mono k2 ?_ ?_ (fun _ _ h => h) hn id
            · rintro j id ⟨es, e', g1, g2, g3⟩
              simp only [hqs] at g1
              by_cases hj : i = j
              · subst hj
                have hi : i < s.io.queues.length := (List.getElem?_eq_some_iff.1 hq).1
                rw [List.getElem?_set_self hi] at g1
                cases g1
                exact ⟨_, e', hq, by simp [g2], g3⟩
              · rw [List.getElem?_set_ne hj] at g1
                exact ⟨es, e', g1, g2, g3⟩
            · rintro id ⟨e', g1, g2, g3⟩
              simp only [hsub] at g1
              simp only [hqs] at g2
              by_cases hf : e' ∈ s.io.queues.flatten
              · obtain ⟨es, hes, he⟩ := List.mem_flatten.1 hf
                obtain ⟨j, hj⟩ := List.getElem?_of_mem hes
                by_cases hij : i = j
                · subst hij
                  exact Or.inr ⟨es, e', hj, he, g3⟩
                · refine absurd (List.mem_flatten.2 ⟨es, List.mem_of_getElem? (i := j) ?_, he⟩) g2
                  rw [List.getElem?_set_ne hij]; exact hj
              · exact Or.inl ⟨e', g1, hf, g3⟩
          · cases hs
        · cases hs

/-- The rest of a step of the I/O thread: what it has for itself and payloads it has taken out. -/
theorem Known0.rest {s : IoQ σ mutexQueue} {G : Nat → QGhost} (hl : s.GLink G) {tr : Evs} (h : s.Known0 tr)
    {evs : List IoEv} (hev : ∀ ev ∈ evs, ∀ o ∈ ev.touch, ∃ id, (o = .read (.payload id) ∨ o = .write (.payload id)) ∧ isGone s.io id) :
    s.Known (tr ++ ([ThreadOp.write Place.own] ++ evs.flatMap IoEv.touch ++ if s.io.pc = IoPc.exited then [ThreadOp.exit] else []).map
      fun o => (⟨0, o⟩ : ThreadEv Place Mutex)) := by
  have hat : ∀ a ∈ ([ThreadOp.write Place.own] ++ evs.flatMap IoEv.touch).map fun o => (⟨0, o⟩ : ThreadEv Place Mutex),
      a.thread = 0 ∧ ∀ x, a.At x → x = .own ∨ ∃ id, x = .payload id ∧ isGone s.io id := by
    intro a ha
    obtain ⟨o, ho, rfl⟩ := List.mem_map.1 ha
    refine ⟨rfl, ?_⟩
    rcases List.mem_append.1 ho with ho | ho
    · simp only [List.mem_singleton] at ho
      subst ho
      rintro x (hx | hx) <;> cases hx
      exact Or.inl rfl
    · obtain ⟨ev, h1, h2⟩ := List.mem_flatMap.1 ho
      obtain ⟨id, h3, h4⟩ := hev ev h1 o h2
      rintro x hx
      refine Or.inr ⟨id, ?_, h4⟩
      rcases h3 with rfl | rfl <;> rcases hx with hx | hx <;> cases hx <;> rfl
  have h1 := RInv.touch (u := 0) (P := fun x => x = .own ∨ ∃ id, x = .payload id ∧ isGone s.io id) h
    (fun a ha => (hat a ha).1) (fun a ha => (hat a ha).2) ?_ ?_ (fun _ _ _ => rfl) ?_ ?_ ?_ (fun _ => rfl) (fun _ => id)
  · unfold Known
    split
    · rename_i hp
      rw [List.map_append, ← List.append_assoc]
      have h2 := h1.frame (u := 0) (evs := [⟨0, .exit⟩]) (RInv.one rfl)
        (RInv.one fun x _ => by rintro (h | h) <;> cases h)
      exact { h2 with exited := fun _ => Held.exit h1.own }
    · rename_i hp
      rw [List.append_nil]
      exact { h1 with exited := fun hx => absurd hx hp }
  · rintro x (rfl | ⟨id, rfl, hg⟩)
    · exact RInv.own h
    · exact RInv.gone h id hg
  · rintro i x hx (rfl | ⟨id, rfl, hg⟩)
    · rcases hx with ⟨p, hx⟩ | ⟨id, hx, _⟩ <;> cases hx
    · rcases hx with ⟨p, hx⟩ | ⟨id', hx, hq⟩ <;> cases hx
      exact absurd hq (gone_not_inQ hl.invA hg)
  · rintro t id hw (hx | ⟨id', hx, hg⟩)
    · cases hx
    · cases hx
      exact absurd hg (waits_pend hl hw).2
  · rintro id hi (hx | ⟨id', hx, hg⟩)
    · cases hx
    · cases hx
      have := gone_lt hl.invA hg
      omega
  · rintro (hx | ⟨id', hx, hg⟩) <;> cases hx

theorem mem_handed {log : List IoEv} {es : List Entry} {r : Res} (h : IoEv.write es r ∈ log) {e : Entry} (he : e ∈ es) :
    e ∈ handed log := by
  obtain ⟨a, b, rfl⟩ := List.append_of_mem h
  simp [handed_append, handed, he]

theorem mem_frees {log : List IoEv} {e : Entry} (h : IoEv.freed e ∈ log) : e ∈ frees log := by
  obtain ⟨a, b, rfl⟩ := List.append_of_mem h
  simp [frees_append, frees]

/-- What is handed to the writer or freed has been taken out. -/
theorem touched_gone {io : Iothr σ} (ha : InvA io) {ev : IoEv} (hev : ev ∈ io.log) {o : ThreadOp Place Mutex} (ho : o ∈ ev.touch) :
    ∃ id, (o = .read (.payload id) ∨ o = .write (.payload id)) ∧ isGone io id := by
  have key : ∀ e : Entry, io.queues.flatten.count e + 1 ≤ (submits io.log).count e → isGone io e.id := by
    intro e he
    have h1 := count_le_one ha.ids e
    exact ⟨e, List.count_pos_iff.1 (by omega), List.count_eq_zero.1 (by omega), rfl⟩
  cases ev <;> simp only [IoEv.touch, List.not_mem_nil] at ho
  · rename_i es r
    obtain ⟨e, he, rfl⟩ := List.mem_map.1 ho
    have h1 := List.count_pos_iff.2 (mem_handed hev he)
    have h2 := ha.held e
    exact ⟨_, Or.inl rfl, key e (by omega)⟩
  · rename_i e
    simp only [List.mem_singleton] at ho
    subst ho
    have h1 := List.count_pos_iff.2 (mem_frees hev)
    have h2 := ha.cons e (ha.free e (mem_frees hev))
    exact ⟨_, Or.inr rfl, key e (by omega)⟩

/-- A step of the I/O thread. -/
theorem Known.ioStep (hQ : mutexQueue.Correct num sz (MtR num sz)) {s s' : IoQ σ mutexQueue} {G : Nat → QGhost}
    (hl : s.QLink num (MtR num sz) G) {tr : Evs} (h : s.Known tr)
    {now : Nat} {wake : Wake} {k : Nat} (hs : s.ioStep now wake k = .ok s') :
    s'.Known (tr ++ (s.touch mutexTouch s' (.io now wake k)).map fun o => ⟨0, o⟩) := by
  obtain ⟨⟨G', hl'⟩, htrs⟩ := hl.ioStep hQ hs
  unfold IoQ.touch IoQ.ioTouch
  by_cases hp : s.io.pc = .exited
  · simp only [hp, if_true, List.map_nil, List.append_nil]
    simp only [IoQ.ioStep, hp, Iothr.ioStep, Exec.ok_bind] at hs
    cases hs
    exact h
  · simp only [hp, if_false]
    have hn := nextId_trs htrs
    have other : (∀ i t, s.io.pc = .work i t ∨ s.io.pc = .drain i t → ¬ i < s.io.opt.numInputQueues) →
        ∀ io, s.io.ioStep now wake = .ok io → s' = { s with io := io } →
        s'.Known0 (tr ++ (s.pcTouch mutexTouch k).map fun o => ⟨0, o⟩) := by
      intro hni io hio e
      subst e
      have hsame := ioStep_sameQ hio hni
      have h1 : s.Known (tr ++ (s.pcTouch mutexTouch k).map fun o => (⟨0, o⟩ : ThreadEv Place Mutex)) := by
        refine RInv.frame (u := 0) h ?_ ?_
        · intro a ha
          obtain ⟨o, _, rfl⟩ := List.mem_map.1 ha
          rfl
        · intro a ha
          obtain ⟨o, ho, rfl⟩ := List.mem_map.1 ha
          unfold IoQ.pcTouch at ho
          split at ho
          · cases ho
          · simp only [List.mem_singleton] at ho
            subst ho
            rintro x hx (hx' | hx') <;> cases hx'
            exact hx rfl
          · rename_i i t hpc
            rw [if_neg (hni i t (Or.inl hpc))] at ho; cases ho
          · rename_i i t hpc
            rw [if_neg (hni i t (Or.inr hpc))] at ho; cases ho
          · cases ho
          · cases ho
      exact h1.known0.congr rfl hsame.queues hsame.submits rfl hn
    have h0 : s'.Known0 (tr ++ (s.pcTouch mutexTouch k).map fun o => ⟨0, o⟩) := by
      unfold IoQ.ioStep at hs
      split at hs
      · rename_i i total hpc
        split at hs
        · rename_i hi
          obtain ⟨⟨r, s1⟩, h1, hs⟩ := Exec.bind_eq_ok.1 hs
          have hpt : s.pcTouch mutexTouch k = s.takeTouch mutexTouch i k := by
            simp only [IoQ.pcTouch, hpc, hi, if_true]
          rw [hpt]
          cases r with
          | none =>
            cases hs
            exact h.take hl h1 hn
          | some n =>
            cases hs
            exact (h.take hl h1 hn).congr rfl rfl rfl rfl (Nat.le_refl _)
        · rename_i hi
          obtain ⟨io, h1, hs⟩ := Exec.bind_eq_ok.1 hs
          cases hs
          refine other ?_ io h1 rfl
          intro j t hj
          rw [hpc] at hj
          rcases hj with hj | hj
          · cases hj; exact hi
          · cases hj
      · rename_i i total hpc
        split at hs
        · rename_i hi
          obtain ⟨⟨r, s1⟩, h1, hs⟩ := Exec.bind_eq_ok.1 hs
          have hpt : s.pcTouch mutexTouch k = s.takeTouch mutexTouch i k := by
            simp only [IoQ.pcTouch, hpc, hi, if_true]
          rw [hpt]
          cases r with
          | none =>
            cases hs
            exact h.take hl h1 hn
          | some n =>
            cases hs
            exact (h.take hl h1 hn).congr rfl rfl rfl rfl (Nat.le_refl _)
        · rename_i hi
          obtain ⟨io, h1, hs⟩ := Exec.bind_eq_ok.1 hs
          cases hs
          refine other ?_ io h1 rfl
          intro j t hj
          rw [hpc] at hj
          rcases hj with hj | hj
          · cases hj
          · cases hj; exact hi
      · rename_i hp1 hp2
        obtain ⟨io, h1, hs⟩ := Exec.bind_eq_ok.1 hs
        cases hs
        refine other ?_ io h1 rfl
        intro j t hj
        rcases hj with hj | hj
        · exact absurd hj (hp1 j t)
        · exact absurd hj (hp2 j t)
    have h1 := h0.rest hl'.g (evs := s'.io.log.drop s.io.log.length)
      fun ev hev o ho => touched_gone hl'.g.invA (List.mem_of_mem_drop hev) ho
    rw [List.append_assoc, ← List.map_append] at h1
    simpa only [List.append_assoc] using h1

/-! ### The end of destroy -/

/-- The operation reads or writes `x`. -/
def OpAt (x : Place) (o : ThreadOp Place Mutex) : Prop := o = .read x ∨ o = .write x

theorem freeTouch_eq (c : Mt) (i : Nat) (es : List Entry) :
    ∃ tl, freeTouch mutexTouch c i es = .lock (.queue i) :: tl := by
  cases es with
  | nil => exact ⟨_, rfl⟩
  | cons e es => exact ⟨_, rfl⟩

theorem whole_at {c : Mt} {i : Nat} {x : Place} {o : ThreadOp Place Mutex} (ho : o ∈ (mutexTouch.whole c).map (ThreadOp.ofQueue i))
    (hx : OpAt x o) : ∃ p, x = .queue i p := by
  obtain ⟨o', _, rfl⟩ := List.mem_map.1 ho
  cases o' <;> rcases hx with hx | hx <;> cases hx <;> exact ⟨_, rfl⟩

theorem freeTouch_at {c : Mt} {i : Nat} {es : List Entry} {x : Place} {o : ThreadOp Place Mutex}
    (ho : o ∈ freeTouch mutexTouch c i es) (hx : OpAt x o) : (∃ p, x = .queue i p) ∨ ∃ e ∈ es, x = .payload e.id := by
  unfold freeTouch at ho
  rcases List.mem_append.1 ho with ho | ho
  · rcases List.mem_append.1 ho with ho | ho
    · obtain ⟨e, he, ho⟩ := List.mem_flatMap.1 ho
      rcases List.mem_append.1 ho with ho | ho
      · exact Or.inl (whole_at ho hx)
      · split at ho
        · simp only [List.mem_singleton] at ho
          subst ho
          rcases hx with hx | hx <;> cases hx
          exact Or.inr ⟨e, he, rfl⟩
        · cases ho
    · exact Or.inl (whole_at ho hx)
  · obtain ⟨p, _, rfl⟩ := List.mem_map.1 ho
    rcases hx with hx | hx <;> cases hx
    exact Or.inl ⟨p, rfl⟩

/-- What is accessed when queue after queue is freed, before and after the mutex of a queue is locked. -/
theorem freeAll_split (cs : List mutexQueue.S) (ess : List (List Entry)) (k : Nat) {x : Place} {o : ThreadOp Place Mutex}
    (ho : o ∈ freeAllTouch mutexTouch k cs ess) (hx : OpAt x o) :
    ∃ j c es pre post, cs[j]? = some c ∧ ess[j]? = some es ∧
      freeAllTouch mutexTouch k cs ess = pre ++ .lock (.queue (k + j)) :: post ∧
      ((∃ p, x = .queue (k + j) p) ∨ ∃ e ∈ es, x = .payload e.id) ∧
      ∀ y, ∀ o ∈ pre, OpAt y o → (∃ j' p, j' < k + j ∧ y = .queue j' p) ∨
        ∃ j' es' e, j' < j ∧ ess[j']? = some es' ∧ e ∈ es' ∧ y = .payload e.id := by
  induction cs generalizing ess k with
  | nil => cases ho
  | cons c cs ih =>
    cases ess with
    | nil => cases ho
    | cons es ess =>
      have heq : freeAllTouch mutexTouch k (c :: cs) (es :: ess) =
          freeTouch mutexTouch c k es ++ freeAllTouch mutexTouch (k + 1) cs ess := rfl
      rw [heq] at ho
      by_cases hf : ∃ o ∈ freeTouch mutexTouch c k es, OpAt x o
      · obtain ⟨o, ho, hx⟩ := hf
        obtain ⟨tl, htl⟩ := freeTouch_eq c k es
        refine ⟨0, c, es, [], tl ++ freeAllTouch mutexTouch (k + 1) cs ess, rfl, rfl, ?_, freeTouch_at ho hx, nofun⟩
        rw [heq, htl]; rfl
      · rcases List.mem_append.1 ho with ho | ho
        · exact absurd ⟨o, ho, hx⟩ hf
        · obtain ⟨j, c', es', pre, post, h1, h2, h3, h4, h5⟩ := ih ess (k + 1) ho
          refine ⟨j + 1, c', es', freeTouch mutexTouch c k es ++ pre, post, h1, h2, ?_, ?_, ?_⟩
          · rw [heq, h3, List.append_assoc, show k + (j + 1) = k + 1 + j by omega]
          · rw [show k + (j + 1) = k + 1 + j by omega]; exact h4
          · intro y o ho hy
            rcases List.mem_append.1 ho with ho | ho
            · rcases freeTouch_at ho hy with ⟨p, rfl⟩ | ⟨e, he, rfl⟩
              · exact Or.inl ⟨k, p, by omega, rfl⟩
              · exact Or.inr ⟨0, es, e, by omega, rfl, he, rfl⟩
            · rcases h5 y o ho hy with ⟨j', p, g1, g2⟩ | ⟨j', es', e, g1, g2, g3, g4⟩
              · exact Or.inl ⟨j', p, by omega, g2⟩
              · exact Or.inr ⟨j' + 1, es', e, by omega, g2, g3, g4⟩

/-- A thread that locks the mutex before it accesses `x`. -/
theorem _root_.Fstrm.Spec.Ordered.locked {tr : Evs} {x : Place} {m : Mutex} {u : Nat} (h : Ordered tr x) (hm : HeldM tr m x)
    {pre post : List (ThreadOp Place Mutex)} (hp : ∀ o ∈ pre, ¬ OpAt x o) :
    Ordered (tr ++ (pre ++ .lock m :: post).map fun o => (⟨u, o⟩ : ThreadEv Place Mutex)) x := by
  have th : ∀ l : List (ThreadOp Place Mutex), ∀ a ∈ l.map (fun o => (⟨u, o⟩ : ThreadEv Place Mutex)), a.thread = u := by
    intro l a ha
    obtain ⟨o, _, rfl⟩ := List.mem_map.1 ha
    rfl
  have hn : ∀ a ∈ pre.map (fun o => (⟨u, o⟩ : ThreadEv Place Mutex)), ¬ a.At x := by
    intro a ha
    obtain ⟨o, ho, rfl⟩ := List.mem_map.1 ha
    exact hp o ho
  have h1 : Ordered (tr ++ pre.map fun o => (⟨u, o⟩ : ThreadEv Place Mutex)) x :=
    h.append (th pre) fun ⟨a, ha, hx⟩ => absurd hx (hn a ha)
  have h2 : HeldM (tr ++ pre.map fun o => (⟨u, o⟩ : ThreadEv Place Mutex)) m x := Spec.Known.frame hm hn
  have h3 := h1.append (u := u) (evs := [⟨u, .lock m⟩]) (RInv.one rfl)
    (by rintro ⟨a, ha, hx⟩; simp only [List.mem_singleton] at ha; subst ha; exact absurd hx RInv.not_at_lock)
  have h4 := h3.append (th post) fun _ => h2.lock
  simpa only [List.map_append, List.map_cons, List.append_assoc, List.cons_append, List.nil_append] using h4

theorem Known.finish {s : IoQ σ mutexQueue} {G : Nat → QGhost} (hl : s.QLink num (MtR num sz) G) {tr : Evs} (h : s.Known tr)
    (hp : s.io.pc = .exited) (hq : s.qs.all mutexQueue.quiet = true) {u : Nat} {x : Place} (hx : x ≠ .shutting) :
    Ordered (tr ++ ([ThreadOp.join 0, ThreadOp.write Place.own] ++ freeAllTouch mutexTouch 0 s.qs s.io.queues).map
      fun o => (⟨u, o⟩ : ThreadEv Place Mutex)) x := by
  have th : ∀ l : List (ThreadOp Place Mutex), ∀ a ∈ l.map (fun o => (⟨u, o⟩ : ThreadEv Place Mutex)), a.thread = u := by
    intro l a ha
    obtain ⟨o, _, rfl⟩ := List.mem_map.1 ha
    rfl
  by_cases ho : x = .own
  · subst ho
    have h1 := (RInv.ord h _ hx).append (u := u) (evs := [⟨u, .join 0⟩]) (RInv.one rfl)
      (by rintro ⟨a, ha, hx⟩; simp only [List.mem_singleton] at ha; subst ha; rcases hx with hx | hx <;> cases hx)
    have h2 := h1.append (th (.write .own :: freeAllTouch mutexTouch 0 s.qs s.io.queues)) fun _ => (RInv.exited h hp).join
    simpa only [List.map_append, List.map_cons, List.append_assoc, List.cons_append, List.nil_append] using h2
  · by_cases ha : ∃ o ∈ freeAllTouch mutexTouch 0 s.qs s.io.queues, OpAt x o
    · obtain ⟨o, ho', hat⟩ := ha
      obtain ⟨j, c, es, pre, post, h1, h2, h3, h4, h5⟩ := freeAll_split s.qs s.io.queues 0 ho' hat
      rw [h3, Nat.zero_add] at *
      have hown : owners s.qs j = none := by
        have := List.all_eq_true.1 hq c (List.mem_of_getElem? h1)
        simp only [mutexQueue, Bool.and_eq_true, decide_eq_true_eq] at this
        rw [owners_at h1]; exact this.1
      have hg : Guarded (inQ s.io) j x := by
        rcases h4 with ⟨p, rfl⟩ | ⟨e, he, rfl⟩
        · exact Or.inl ⟨p, rfl⟩
        · exact Or.inr ⟨e.id, rfl, es, e, h2, he, rfl⟩
      have hm := (RInv.q h j x hg).1 hown
      rw [← List.append_assoc]
      refine (RInv.ord h x hx).locked hm ?_
      intro o hm' hat'
      rcases List.mem_append.1 hm' with hm' | hm'
      · simp only [List.mem_cons, List.not_mem_nil, or_false] at hm'
        rcases hm' with rfl | rfl <;> rcases hat' with hat' | hat' <;> cases hat'
        exact ho rfl
      · rcases h5 x o hm' hat' with ⟨j', p, g1, rfl⟩ | ⟨j', es', e', g1, g2, g3, rfl⟩
        · rcases h4 with ⟨p', h4⟩ | ⟨e, _, h4⟩ <;> cases h4
          omega
        · rcases h4 with ⟨p', h4⟩ | ⟨e, he, h4⟩
          · cases h4
          · have hid : e'.id = e.id := by injection h4
            have hi := hl.g.invA
            have m1 := hi.mem_queues (List.mem_flatten.2 ⟨es', List.mem_of_getElem? g2, g3⟩)
            have m2 := hi.mem_queues (List.mem_flatten.2 ⟨es, List.mem_of_getElem? h2, he⟩)
            have := same_id hi m1 m2 hid
            subst this
            have := (hi.qid _ _ g2 _ g3).symm.trans (hi.qid _ _ h2 _ he)
            omega
    · refine (RInv.ord h x hx).append (th _) ?_
      rintro ⟨a, ha', hat⟩
      obtain ⟨o, ho', rfl⟩ := List.mem_map.1 ha'
      rcases List.mem_append.1 ho' with ho' | ho'
      · simp only [List.mem_cons, List.not_mem_nil, or_false] at ho'
        rcases ho' with rfl | rfl <;> rcases hat with hat | hat <;> cases hat
        exact absurd rfl ho
      · exact absurd ⟨o, ho', hat⟩ ha

/-! ### Runs -/

/-- All accesses are in order so far, and it is known who knows of them as long as the object exists. -/
structure Race0 (num sz : UInt32) (s : IoQ σ mutexQueue) (tr : Evs) : Prop where
  link : s.Link num (MtR num sz)
  ord : ∀ x, x ≠ .shutting → Ordered tr x
  known : s.io.destroyed = false → s.Known tr

theorem Race0.step (hQ : mutexQueue.Correct num sz (MtR num sz)) {s s' : IoQ σ mutexQueue} {tr : Evs} (h : Race0 num sz s tr)
    {a : QAct} (hs : s.step a = .ok s') (b : Nat) :
    Race0 num sz s' (tr ++ (s.touch mutexTouch s' a).map fun o => ⟨a.thread b, o⟩) := by
  have hlink := (h.link.step hQ hs).1
  cases hd : s.io.destroyed with
  | true =>
    have e := h.link.dead hd hs
    subst e
    have : s'.touch mutexTouch s' a = [] := by
      have hp := (h.link.invA.dest hd).1
      have hsh := (h.link.invG.exited hp).1
      cases a with
      | submit q t raw data f => simp [IoQ.step, IoQ.submit, hd] at hs
      | prod q t k => simp [IoQ.step, IoQ.prod, hd] at hs
      | flush q b i => rfl
      | getQueue =>
        simp only [IoQ.step, Iothr.getQueue, hd, if_true] at hs
        cases hs
      | io now wake k => simp [IoQ.touch, IoQ.ioTouch, hp]
      | shutdown => simp [IoQ.touch, hsh]
      | finish => simp [IoQ.touch, hd]
    rw [this]
    simp only [List.map_nil, List.append_nil]
    exact h
  | false =>
    obtain ⟨G, hl⟩ := h.link.live hd
    have hk := h.known hd
    have done : s'.Known (tr ++ (s.touch mutexTouch s' a).map fun o => ⟨a.thread b, o⟩) →
        Race0 num sz s' (tr ++ (s.touch mutexTouch s' a).map fun o => ⟨a.thread b, o⟩) :=
      fun hk' => ⟨hlink, hk'.ord, fun _ => hk'⟩
    cases a with
    | submit q t raw data f => exact done (hk.submit hl hs)
    | prod q t k => exact done (hk.prod hl hs)
    | flush q fb fi =>
      refine done ?_
      simp only [IoQ.touch, List.map_nil, List.append_nil]
      simp only [IoQ.step, IoQ.flush, hd, Bool.false_eq_true, if_false] at hs
      split at hs
      · cases hs; exact hk
      · rename_i c hc
        change IoQ.outs { s with qs := s.qs.set q c } q [] = .ok s' at hs
        cases hs
        exact hk.congr (owners_same hc rfl) rfl rfl (fun _ _ _ h => h) (Nat.le_refl _) rfl
    | getQueue =>
      refine done ?_
      have h1 : s.Known (tr ++ (s.touch mutexTouch s' .getQueue).map fun o => ⟨QAct.thread b .getQueue, o⟩) := by
        have := RInv.getQueue (u := b + 1) hk
          ([.read .getIdx] ++ if s.io.getIdx < s.io.opt.numInputQueues then [.write .getIdx] else []) ?_
        · simpa only [List.append_assoc, List.cons_append, List.nil_append, IoQ.touch, QAct.thread, IoQ.Known] using this
        · intro o ho
          rcases List.mem_append.1 ho with ho | ho
          · simp only [List.mem_singleton] at ho
            exact Or.inl ho
          · split at ho
            · simp only [List.mem_singleton] at ho
              exact Or.inr ho
            · cases ho
      obtain ⟨io, h2, hs⟩ := Exec.bind_eq_ok.1 hs
      cases hs
      unfold Iothr.getQueue at h2
      rw [hd] at h2
      simp only [Bool.false_eq_true, if_false] at h2
      split at h2 <;> cases h2 <;>
        exact h1.congr rfl rfl (by simp [emit, submits_append, submits]) (fun _ _ _ h => h) (Nat.le_refl _) rfl
    | io now wake k => exact done (hk.ioStep hQ hl hs)
    | shutdown =>
      refine done ?_
      have h1 : s.Known (tr ++ (s.touch mutexTouch s' .shutdown).map fun o => ⟨QAct.thread b .shutdown, o⟩) := by
        refine RInv.frame (u := b + 1) hk ?_ ?_
        · intro a ha
          obtain ⟨o, _, rfl⟩ := List.mem_map.1 ha
          rfl
        · intro a ha
          obtain ⟨o, ho, rfl⟩ := List.mem_map.1 ha
          unfold IoQ.touch at ho
          simp only at ho
          split at ho
          · cases ho
          · simp only [List.mem_singleton] at ho
            subst ho
            rintro x hx (hx' | hx') <;> cases hx'
            exact hx rfl
      obtain ⟨io, h2, hs⟩ := Exec.bind_eq_ok.1 hs
      cases hs
      unfold Iothr.shutdown at h2
      split at h2
      · cases h2; exact h1
      · cases h2
        obtain ⟨wk, hwk⟩ := signal_eq (({ s.io with shutting := true }.emit .shutdown))
        refine h1.congr rfl ?_ ?_ (fun _ _ _ h => h) ?_ ?_
        · show (({ s.io with shutting := true }.emit .shutdown).signal).queues = _
          rw [hwk]; rfl
        · show submits (({ s.io with shutting := true }.emit .shutdown).signal).log = _
          rw [hwk]; simp [emit, submits_append, submits]
        · show _ ≤ (({ s.io with shutting := true }.emit .shutdown).signal).nextId
          rw [hwk]; exact Nat.le_refl _
        · show (({ s.io with shutting := true }.emit .shutdown).signal).pc = _
          rw [hwk]; rfl
    | finish =>
      by_cases hc : s.io.shutting = true ∧ s.io.pc = .exited ∧ s.io.destroyed = false ∧ s.qs.all mutexQueue.quiet = true
      · cases hd' : s'.io.destroyed with
        | false =>
          exfalso
          simp only [IoQ.step, IoQ.finish] at hs
          rw [if_pos hc] at hs
          obtain ⟨xss, _, hs⟩ := Exec.bind_eq_ok.1 hs
          split at hs
          · obtain ⟨io, e1, hs⟩ := Exec.bind_eq_ok.1 hs
            unfold Iothr.finish at e1
            rw [if_pos ⟨hc.1, hc.2.1, hc.2.2.1⟩] at e1
            obtain ⟨⟨r, rdwr⟩, _, e1⟩ := Exec.bind_eq_ok.1 e1
            cases e1
            cases hs
            simp [emit] at hd'
          · cases hs
        | true =>
          refine ⟨hlink, fun x hx => ?_, fun h => by rw [hd'] at h; cases h⟩
          have := hk.finish hl hc.2.1 hc.2.2.2 (u := b + 1) hx
          simp only [IoQ.touch, hd, hd', and_self, if_true]
          exact this
      · simp only [IoQ.step, IoQ.finish] at hs
        rw [if_neg hc] at hs
        cases hs
        refine done ?_
        simp only [IoQ.touch, hd, Bool.false_eq_true, and_false, if_false, List.map_nil, List.append_nil]
        exact hk

theorem Race0.trace (hQ : mutexQueue.Correct num sz (MtR num sz)) (as : List (Nat × QAct)) {s : IoQ σ mutexQueue} {tr : Evs}
    (h : Race0 num sz s tr) {s' : IoQ σ mutexQueue} {tr' : Evs} (hs : s.trace mutexTouch as = .ok (s', tr')) :
    Race0 num sz s' (tr ++ tr') := by
  induction as generalizing s tr tr' with
  | nil =>
    cases hs
    rw [List.append_nil]; exact h
  | cons a as ih =>
    obtain ⟨b, a⟩ := a
    obtain ⟨s1, h1, hs⟩ := Exec.bind_eq_ok.1 hs
    obtain ⟨⟨s2, tr2⟩, h2, hs⟩ := Exec.bind_eq_ok.1 hs
    cases hs
    rw [← List.append_assoc]
    exact ih (h.step hQ h1 b) h2

theorem Race0.init (hQ : mutexQueue.Correct num sz (MtR num sz)) {opt : IothrOptions} (hn : num.toNat = opt.inputQueueSize)
    {w : Writer σ} {s : IoQ σ mutexQueue} (hs : IoQ.init mutexQueue sz opt w = some s) : Race0 num sz s [] := by
  obtain ⟨s0, h1, h2, h3⟩ := Link.init hQ hn w
  rw [hs] at h1
  cases h1
  have hk : s.Known [] := by
    unfold IoQ.init at hs
    obtain ⟨c, hc, rfl⟩ := Option.map_eq_some_iff.1 hs
    have hoc : Mt.owner c = none := by
      simp only [mutexQueue] at hc
      obtain ⟨q, _, rfl⟩ := Option.map_eq_some_iff.1 hc
      rfl
    have : owners (List.replicate opt.numInputQueues c) = fun _ => none := by
      funext i
      unfold owners
      split
      · rename_i c' h'
        rw [(List.mem_replicate.1 (List.mem_of_getElem? h')).2]; exact hoc
      · rfl
    show RInv [] (owners (List.replicate opt.numInputQueues c)) _ _ _ _ _
    rw [this]
    refine RInv.start.mono ?_ ?_ ?_ (Nat.zero_le _) (by intro h; cases h)
    · rintro i id ⟨es, e, g1, g2, _⟩
      have : (Iothr.init opt w).queues = List.replicate opt.numInputQueues [] := by
        simp only [Iothr.init]; split <;> rfl
      simp only [this] at g1
      rw [(List.mem_replicate.1 (List.mem_of_getElem? g1)).2] at g2
      cases g2
    · rintro id ⟨e, g1, _⟩
      cases g1
    · rintro t id ⟨q, e, g1, _⟩
      cases g1
  exact ⟨h2, hk.ord, fun _ => hk⟩

end IoQ
end Fstrm
