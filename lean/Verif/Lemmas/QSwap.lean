import Verif.Lemmas.IothrQueues
import Verif.Lemmas.IothrSwap

/-!
The I/O thread over its queues in memory looks at nothing of the writer but the results of its calls.
-/

set_option autoImplicit false

namespace Fstrm

open Iothr

variable {σ τ : Type} {Q : QImpl}

/-- The same I/O thread and queues with another writer. -/
def IoQ.swap (s : IoQ σ Q) (w : Writer τ) : IoQ τ Q :=
  { io := s.io.swap w, qs := s.qs, raw := s.raw, who := s.who, wait := s.wait, cur := s.cur, rets := s.rets }

/-- The step from `s` to `s'` is done in the same way with any other writer. -/
def QSim (s s' : IoQ σ Q) (g : Writer τ → Exec (IoQ τ Q)) : Prop :=
  ∃ cs : List WOp, calls s'.io.log = calls s.io.log ++ cs.map (·, .success) ∧
    ∀ w : Writer τ, allOk w cs ≠ .error .fuel → g w = (allOk w cs).map s'.swap

theorem QSim.pure {s s' : IoQ σ Q} {g : Writer τ → Exec (IoQ τ Q)} (hl : calls s'.io.log = calls s.io.log)
    (hg : ∀ w, g w = .ok (s'.swap w)) : QSim s s' g :=
  ⟨[], by simp [hl], fun w _ => by rw [hg]; rfl⟩

theorem QSim.bind {s s1 s2 : IoQ σ Q} {g : Writer τ → Exec (IoQ τ Q)} {f : IoQ τ Q → Exec (IoQ τ Q)}
    (h1 : QSim s s1 g) (h2 : QSim s1 s2 fun w => f (s1.swap w)) : QSim s s2 fun w => g w >>= f := by
  obtain ⟨c1, l1, e1⟩ := h1
  obtain ⟨c2, l2, e2⟩ := h2
  refine ⟨c1 ++ c2, by rw [l2, l1]; simp, ?_⟩
  intro w hw
  rw [allOk_append] at hw ⊢
  have h1 := e1 w (by intro h; rw [h] at hw; exact hw rfl)
  show (g w >>= f) = _
  rw [h1]
  cases h : allOk w c1 with
  | error e => rfl
  | ok w1 =>
    rw [h, Exec.ok_bind] at hw
    exact e2 w1 hw

theorem QSim.log {s s' : IoQ σ Q} {g : Writer τ → Exec (IoQ τ Q)} (h : QSim s s' g) :
    calls s.io.log <+: calls s'.io.log := by
  obtain ⟨c, l, _⟩ := h
  rw [l]
  exact List.prefix_append _ _

/-- A step of the I/O thread alone. -/
theorem QSim.of {s : IoQ σ Q} {io0 io' : Iothr σ} {s' : IoQ σ Q} {g : Writer τ → Exec (Iothr τ)}
    {f : Iothr τ → Exec (IoQ τ Q)} (h : Sim io0 io' g) (h0 : calls io0.log = calls s.io.log)
    (hl : calls s'.io.log = calls io'.log)
    (hf : ∀ w, f (io'.swap w) = .ok (s'.swap w)) : QSim s s' fun w => g w >>= f := by
  obtain ⟨cs, l, e⟩ := h
  refine ⟨cs, by rw [hl, l, h0], fun w hw => ?_⟩
  show (g w >>= f) = _
  rw [e w hw]
  cases allOk w cs with
  | error x => rfl
  | ok w' => exact hf w'

namespace IoQ

theorem swap_effect {s s' : IoQ σ Q} {q t : Nat} (h : s.effect q t = .ok s') (w : Writer τ) :
    (s.swap w).effect q t = .ok (s'.swap w) ∧ calls s'.io.log = calls s.io.log := by
  unfold effect at h ⊢
  rw [show (s.swap w).wait = s.wait from rfl]
  cases hw : s.wait q t with
  | nil => rw [hw] at h; cases h
  | cons e rest =>
    rw [hw] at h
    cases h
    exact ⟨rfl, by simp [emit, calls_append, calls]⟩

theorem swap_returned {s s' : IoQ σ Q} {q t sp : Nat} {ok : Bool} (h : s.returned q t ok sp = .ok s')
    (w : Writer τ) : (s.swap w).returned q t ok sp = .ok (s'.swap w) ∧ calls s'.io.log = calls s.io.log := by
  unfold returned at h ⊢
  rw [show (s.swap w).cur = s.cur from rfl]
  cases hc : s.cur q t with
  | none => rw [hc] at h; cases h
  | some e =>
    rw [hc] at h
    dsimp only at h ⊢
    cases ok with
    | false =>
      cases h
      exact ⟨rfl, by simp [emit, calls_append, calls]⟩
    | true =>
      simp only [if_true] at h ⊢
      by_cases hs : sp = s.io.opt.notifyThreshold
      · rw [if_pos hs] at h
        cases h
        refine ⟨?_, by simp [log_signal, emit, calls_append, calls]⟩
        refine (if_pos hs).trans ?_
        unfold IoQ.swap
        dsimp only
        rw [← swap_signal]
        rfl
      · rw [if_neg hs] at h
        cases h
        exact ⟨(if_neg hs).trans rfl, rfl⟩

theorem swap_outs : ∀ (os : List QOut) {s s' : IoQ σ Q} {q : Nat}, s.outs q os = .ok s' → ∀ w : Writer τ,
    (s.swap w).outs q os = .ok (s'.swap w) ∧ calls s'.io.log = calls s.io.log
  | [], s, s', q, h, w => by cases h; exact ⟨rfl, rfl⟩
  | o :: os, s, s', q, h, w => by
    obtain ⟨s1, h1, h⟩ := Exec.bind_eq_ok.1 h
    obtain ⟨e2, l2⟩ := swap_outs os h w
    have : (s.swap w).out q o = .ok (s1.swap w) ∧ calls s1.io.log = calls s.io.log := by
      cases o with
      | effect t => exact swap_effect h1 w
      | ins t ok sp => exact swap_returned h1 w
    refine ⟨?_, l2.trans this.2⟩
    show ((s.swap w).out q o >>= fun s => s.outs q os) = _
    rw [this.1]
    exact e2

theorem sim_prod {s s' : IoQ σ Q} {q t k : Nat} (h : s.prod q t k = .ok s') :
    QSim (τ := τ) s s' fun w => (s.swap w).prod q t k := by
  unfold prod at h ⊢
  simp only [show ∀ w : Writer τ, (s.swap w).io.destroyed = s.io.destroyed from fun _ => rfl,
    show ∀ w : Writer τ, (s.swap w).qs = s.qs from fun _ => rfl]
  split at h
  · cases h
  · rename_i hd
    simp only [if_neg hd]
    cases hq : s.qs[q]? with
    | none => rw [hq] at h; cases h; exact .pure rfl fun _ => rfl
    | some c =>
      rw [hq] at h
      obtain ⟨⟨c', os⟩, h1, h⟩ := Exec.bind_eq_ok.1 h
      have h3 := swap_outs (τ := σ) os h s.io.writer
      refine .pure h3.2 fun w => ?_
      dsimp only
      rw [h1]
      exact (swap_outs os h w).1

theorem sim_flush {s s' : IoQ σ Q} {q : Nat} {b : Bool} {i : Nat} (h : s.flush q b i = .ok s') :
    QSim (τ := τ) s s' fun w => (s.swap w).flush q b i := by
  unfold flush at h ⊢
  simp only [show ∀ w : Writer τ, (s.swap w).io.destroyed = s.io.destroyed from fun _ => rfl,
    show ∀ w : Writer τ, (s.swap w).qs = s.qs from fun _ => rfl]
  split at h
  · rename_i hd
    cases h
    simp only [if_pos hd]
    exact .pure rfl fun _ => rfl
  · rename_i hd
    simp only [if_neg hd]
    cases hq : s.qs[q]? with
    | none => rw [hq] at h; cases h; exact .pure rfl fun _ => rfl
    | some c =>
      rw [hq] at h
      obtain ⟨⟨c', os⟩, h1, h⟩ := Exec.bind_eq_ok.1 h
      have h3 := swap_outs (τ := σ) os h s.io.writer
      refine .pure h3.2 fun w => ?_
      dsimp only
      rw [h1]
      exact (swap_outs os h w).1

theorem sim_submit {s s' : IoQ σ Q} {q t : Nat} {raw : Bytes} {data : Option Bytes} {f : Bool}
    (h : s.submit q t raw data f = .ok s') (hok : ∀ c ∈ calls s'.io.log, c.2 = .success) :
    QSim (τ := τ) s s' fun w => (s.swap w).submit q t raw data f := by
  unfold submit at h ⊢
  simp only [show ∀ w : Writer τ, (s.swap w).io.destroyed = s.io.destroyed from fun _ => rfl,
    show ∀ w : Writer τ, (s.swap w).qs = s.qs from fun _ => rfl]
  split at h
  · cases h
  · rename_i hd
    simp only [if_neg hd]
    cases hq : s.qs[q]? with
    | none => rw [hq] at h; cases h; exact .pure rfl fun _ => rfl
    | some c =>
      rw [hq] at h
      dsimp only at h ⊢
      cases hi : Q.insert c t raw with
      | none => rw [hi] at h; cases h; exact .pure rfl fun _ => rfl
      | some c' =>
        rw [hi] at h
        dsimp only at h ⊢
        obtain ⟨io, h1, h⟩ := Exec.bind_eq_ok.1 h
        have hsim := fun hok => Iothr.sim_step (τ := τ) (a := .submit s.io.nextId q data f) h1 (by intro h; cases h) hok
        cases hp : io.pending s.io.nextId with
        | none =>
          rw [hp] at h
          cases h
          have := QSim.of (τ := τ) (s := s) (s' := { s with io := io })
            (f := fun io => match io.pending s.io.nextId with
              | none => .ok ⟨io, s.qs, s.raw, s.who, s.wait, s.cur, s.rets⟩
              | some e => .ok ⟨io, s.qs.set q c', fun id' => if id' = s.io.nextId then raw else s.raw id',
                fun id' => if id' = s.io.nextId then t else s.who id', upd2 s.wait q t (s.wait q t ++ [e]),
                upd2 s.cur q t (some e), s.rets⟩) (hsim hok) rfl rfl
            (fun w => by
              rw [show (io.swap w).pending s.io.nextId = none from hp]
              rfl)
          exact this
        | some e =>
          rw [hp] at h
          cases h
          have := QSim.of (τ := τ) (s := s) (s' := ⟨io, s.qs.set q c', fun id' => if id' = s.io.nextId then raw else s.raw id',
                fun id' => if id' = s.io.nextId then t else s.who id', upd2 s.wait q t (s.wait q t ++ [e]),
                upd2 s.cur q t (some e), s.rets⟩)
            (f := fun io => match io.pending s.io.nextId with
              | none => .ok ⟨io, s.qs, s.raw, s.who, s.wait, s.cur, s.rets⟩
              | some e => .ok ⟨io, s.qs.set q c', fun id' => if id' = s.io.nextId then raw else s.raw id',
                fun id' => if id' = s.io.nextId then t else s.who id', upd2 s.wait q t (s.wait q t ++ [e]),
                upd2 s.cur q t (some e), s.rets⟩) (hsim hok) rfl rfl
            (fun w => by
              rw [show (io.swap w).pending s.io.nextId = some e from hp]
              rfl)
          exact this

/-- What the I/O thread does after looking at a queue. -/
@[reducible] def goOn (F : Nat → IoPc) (s : IoQ σ Q) : Option Nat → IoQ σ Q
  | none => s
  | some n => { s with io := { s.io with pc := F n } }

theorem sim_take {s s1 : IoQ σ Q} {i k : Nat} {r : Option Nat} (F : Nat → IoPc) (h : s.take i k = .ok (r, s1))
    (hok : ∀ c ∈ calls s1.io.log, c.2 = .success) :
    QSim (τ := τ) s (goOn F s1 r) fun w =>
      (s.swap w).take i k >>= fun p => match p.1 with
        | none => .ok p.2
        | some n => .ok { p.2 with io := { p.2.io with pc := F n } } := by
  unfold take at h ⊢
  simp only [show ∀ w : Writer τ, (s.swap w).qs = s.qs from fun _ => rfl]
  cases hq : s.qs[i]? with
  | none => rw [hq] at h; cases h
  | some c =>
    rw [hq] at h
    dsimp only at h ⊢
    cases hr : Q.remove c with
    | some c' =>
      rw [hr] at h
      cases h
      exact .pure rfl fun _ => rfl
    | none =>
      rw [hr] at h
      obtain ⟨⟨c', x⟩, h1, h⟩ := Exec.bind_eq_ok.1 h
      dsimp only at h ⊢
      simp only [h1, Exec.ok_bind]
      cases x with
      | none => cases h; exact .pure rfl fun _ => rfl
      | some x =>
        cases x with
        | none => cases h; exact .pure rfl fun _ => rfl
        | some x =>
          dsimp only at h ⊢
          simp only [show ∀ w : Writer τ, (s.swap w).io.queues = s.io.queues from fun _ => rfl,
            show ∀ w : Writer τ, (s.swap w).raw = s.raw from fun _ => rfl]
          cases hs : s.io.queues[i]? with
          | none => rw [hs] at h; cases h
          | some es =>
            rw [hs] at h
            cases es with
            | nil => cases h
            | cons ent rest =>
              dsimp only at h ⊢
              split at h
              · rename_i hx
                obtain ⟨io, h2, h⟩ := Exec.bind_eq_ok.1 h
                cases h
                simp only [if_pos hx]
                have hsim := sim_processEntry (τ := τ) h2 hok
                obtain ⟨cs, l, e⟩ := QSim.of (τ := τ) (s := s)
                  (s' := { s with qs := s.qs.set i c', io := { io with pc := F 1 } })
                  (f := fun io => .ok ⟨{ io with pc := F 1 }, s.qs.set i c', s.raw, s.who, s.wait, s.cur, s.rets⟩)
                  hsim rfl rfl (fun _ => rfl)
                refine ⟨cs, l, fun w hw => ?_⟩
                rw [← e w hw]
                show _ = (((({ s.io with queues := s.io.queues.set i rest } : Iothr σ).swap w).processEntry ent) >>= _)
                show (((({ s.io with queues := s.io.queues.set i rest } : Iothr σ).swap w).processEntry ent >>= _) >>= _) = _
                cases (({ s.io with queues := s.io.queues.set i rest } : Iothr σ).swap w).processEntry ent <;> rfl
              · cases h

theorem sim_ioStep {s s' : IoQ σ Q} {now k : Nat} {wk : Wake} (h : s.ioStep now wk k = .ok s')
    (hok : ∀ c ∈ calls s'.io.log, c.2 = .success) :
    QSim (τ := τ) s s' fun w => (s.swap w).ioStep now wk k := by
  have hio : ∀ {s' : IoQ σ Q}, (s.io.ioStep now wk >>= fun io => (Except.ok { s with io := io } : Exec (IoQ σ Q))) =
      .ok s' → (∀ c ∈ calls s'.io.log, c.2 = .success) →
      QSim (τ := τ) s s' fun w => (s.io.swap w).ioStep now wk >>= fun io => .ok { s.swap w with io := io } := by
    intro s' h hok
    obtain ⟨io, h1, h⟩ := Exec.bind_eq_ok.1 h
    cases h
    have := QSim.of (τ := τ) (s := s) (s' := { s with io := io })
      (f := fun io => .ok ⟨io, s.qs, s.raw, s.who, s.wait, s.cur, s.rets⟩)
      (Iothr.sim_ioStep (τ := τ) h1 hok) rfl rfl (fun _ => rfl)
    exact this
  unfold ioStep at h ⊢
  simp only [show ∀ w : Writer τ, (s.swap w).io = s.io.swap w from fun _ => rfl,
    show ∀ w : Writer τ, (s.io.swap w).pc = s.io.pc from fun _ => rfl,
    show ∀ w : Writer τ, (s.io.swap w).opt = s.io.opt from fun _ => rfl]
  cases hp : s.io.pc with
  | work i total =>
    rw [hp] at h
    dsimp only at h ⊢
    split at h
    · rename_i hi
      simp only [if_pos hi]
      obtain ⟨⟨r, s1⟩, h1, h⟩ := Exec.bind_eq_ok.1 h
      have key := fun hok => sim_take (τ := τ) (fun n => .work (i + 1) (total + n)) h1 hok
      cases r with
      | none => cases h; exact key hok
      | some n => cases h; exact key hok
    · rename_i hi
      simp only [if_neg hi]
      exact hio h hok
  | drain i total =>
    rw [hp] at h
    dsimp only at h ⊢
    split at h
    · rename_i hi
      simp only [if_pos hi]
      obtain ⟨⟨r, s1⟩, h1, h⟩ := Exec.bind_eq_ok.1 h
      have key := fun hok => sim_take (τ := τ) (fun n => .drain (i + 1) (total + n)) h1 hok
      cases r with
      | none => cases h; exact key hok
      | some n => cases h; exact key hok
    · rename_i hi
      simp only [if_neg hi]
      exact hio h hok
  | start => rw [hp] at h; exact hio h hok
  | top => rw [hp] at h; exact hio h hok
  | sleep d => rw [hp] at h; exact hio h hok
  | exited => rw [hp] at h; exact hio h hok

theorem sim_step {s s' : IoQ σ Q} {a : QAct} (h : s.step a = .ok s') (ha : a ≠ .finish)
    (hok : ∀ c ∈ calls s'.io.log, c.2 = .success) : QSim (τ := τ) s s' fun w => (s.swap w).step a := by
  cases a with
  | submit q t raw data f => exact sim_submit h hok
  | prod q t k => exact sim_prod h
  | flush q b i => exact sim_flush h
  | io now wk k => exact sim_ioStep h hok
  | finish => exact absurd rfl ha
  | getQueue =>
    obtain ⟨io, h1, h⟩ := Exec.bind_eq_ok.1 h
    cases h
    exact QSim.of (τ := τ) (s := s) (s' := { s with io := io })
      (f := fun io => .ok ⟨io, s.qs, s.raw, s.who, s.wait, s.cur, s.rets⟩)
      (Iothr.sim_step (τ := τ) (a := .getQueue) h1 (by intro h; cases h) hok) rfl rfl (fun _ => rfl)
  | shutdown =>
    obtain ⟨io, h1, h⟩ := Exec.bind_eq_ok.1 h
    cases h
    exact QSim.of (τ := τ) (s := s) (s' := { s with io := io })
      (f := fun io => .ok ⟨io, s.qs, s.raw, s.who, s.wait, s.cur, s.rets⟩)
      (Iothr.sim_step (τ := τ) (a := .shutdown) h1 (by intro h; cases h) hok) rfl rfl (fun _ => rfl)

theorem sim_run (as : List QAct) : ∀ {s s' : IoQ σ Q}, s.run as = .ok s' → QAct.finish ∉ as →
    (∀ c ∈ calls s'.io.log, c.2 = .success) → QSim (τ := τ) s s' fun w => (s.swap w).run as := by
  induction as with
  | nil => intro s s' e _ _; cases e; exact .pure rfl fun _ => rfl
  | cons a as ih =>
    intro s s' e ha hok
    unfold run at e
    obtain ⟨s1, e1, e⟩ := Exec.bind_eq_ok.1 e
    have h2 := ih e (fun h => ha (by simp [h])) hok
    have h1 := sim_step (τ := τ) e1 (fun h => ha (by simp [h])) fun c hc => hok c (h2.log.subset hc)
    exact h1.bind h2

end IoQ
end Fstrm
