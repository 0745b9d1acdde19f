import Verif.Props.Reader
import Verif.Spec.Trace

/-!
# After the end of a stream or an error a reader delivers nothing more (C136)
-/

set_option autoImplicit false

namespace Fstrm.Props

open Fstrm
open Fstrm.Spec (CType CFrame pipeOps)

variable {σ : Type}

/-- A reader that was opened and is not open any more. -/
def Ended (r : Reader σ) : Prop := r.state ≠ .opening ∧ r.state ≠ .opened

theorem nextData_none : ∀ (fuel : Nat) {r r' : Reader σ} {res : Res} {d : Option Bytes},
    Reader.nextData fuel r = .ok (res, d, r') →
    (d = none ∧ Ended r') ∨ (res = .success ∧ d ≠ none ∧ r'.state = r.state) := by
  intro fuel
  induction fuel with
  | zero => intro r r' res d h; cases h
  | succ fuel ih =>
    intro r r' res d h
    unfold Reader.nextData at h
    obtain ⟨⟨res1, len, r1⟩, h1, h⟩ := Exec.bind_eq_ok.1 h
    have hr1 : r1.state = r.state := by
      unfold Reader.readBe32 at h1
      obtain ⟨⟨res2, tmp, rw⟩, h2, h3⟩ := Exec.bind_eq_ok.1 h1
      simp only at h3
      split at h3 <;> cases h3 <;> rfl
    simp only at h
    split at h
    · cases h; exact Or.inl ⟨rfl, by simp [Ended]⟩
    · split at h
      · unfold Reader.dataFrame at h
        split at h
        · cases h; exact Or.inl ⟨rfl, by simp [Ended]⟩
        · obtain ⟨r2, h2, h⟩ := Exec.bind_eq_ok.1 h
          have hr2 : r2.state = r1.state := by
            unfold Reader.reserve at h2
            simp only at h2
            obtain ⟨cap, _, h3⟩ := Exec.bind_eq_ok.1 h2
            cases h3; rfl
          split at h
          · cases h
          · obtain ⟨⟨res3, bs, rw⟩, h3, h⟩ := Exec.bind_eq_ok.1 h
            simp only at h
            split at h
            · cases h; exact Or.inl ⟨rfl, by simp [Ended]⟩
            · cases h; exact Or.inr ⟨rfl, by simp, hr2.trans hr1⟩
      · obtain ⟨⟨res2, tmp, type, rw⟩, h2, h⟩ := Exec.bind_eq_ok.1 h
        simp only at h
        split at h
        · cases h; exact Or.inl ⟨rfl, by simp [Ended]⟩
        · split at h
          · cases h; exact Or.inl ⟨rfl, by simp [Ended]⟩
          · rcases ih h with h3 | ⟨h3, h4, h5⟩
            · exact Or.inl h3
            · exact Or.inr ⟨h3, h4, h5.trans hr1⟩

theorem maybeOpen_past {r : Reader σ} (h : r.state ≠ .opening) :
    r.maybeOpen = .ok (.success, r) := by
  unfold Reader.maybeOpen; rw [if_neg h]

/-- A read on a reader that was opened before. -/
theorem read_past {fuel : Nat} {r r' : Reader σ} {res : Res} {d : Option Bytes}
    (hp : r.state ≠ .opening) (h : r.read fuel = .ok (res, d, r')) :
    r'.state ≠ .opening ∧ (d = none → Ended r') ∧
    (Ended r → d = none ∧ r' = r ∧ res = (if r.state = .closed then .stop else .failure)) := by
  unfold Reader.read at h
  rw [maybeOpen_past hp, Exec.ok_bind] at h
  simp only [ne_eq, not_true_eq_false, if_false] at h
  split at h
  · rename_i ho
    rcases nextData_none fuel h with ⟨h1, h2⟩ | ⟨_, h2, h3⟩
    · exact ⟨h2.1, fun _ => h2, fun he => absurd ho he.2⟩
    · exact ⟨by rw [h3]; exact hp, fun hd => absurd hd h2, fun he => absurd ho he.2⟩
  · rename_i ho
    split at h
    · rename_i hc
      cases h
      exact ⟨hp, fun _ => ⟨hp, ho⟩, fun _ => ⟨rfl, rfl, by rw [if_pos hc]⟩⟩
    · rename_i hc
      cases h
      exact ⟨hp, fun _ => ⟨hp, ho⟩, fun _ => ⟨rfl, rfl, by rw [if_neg hc]⟩⟩

theorem close_past {r r' : Reader σ} {res : Res} (hp : r.state ≠ .opening)
    (h : r.close = .ok (res, r')) : Ended r' := by
  unfold Reader.close at h
  split at h
  · rename_i hs
    cases h
    exact ⟨hp, hs.1⟩
  · simp only at h
    split at h
    · obtain ⟨⟨res1, rw⟩, _, h⟩ := Exec.bind_eq_ok.1 h
      simp only at h
      split at h
      · obtain ⟨⟨res2, rw2⟩, _, h⟩ := Exec.bind_eq_ok.1 h
        cases h; exact ⟨by simp, by simp⟩
      · obtain ⟨⟨res2, rw2⟩, _, h⟩ := Exec.bind_eq_ok.1 h
        cases h; exact ⟨by simp, by simp⟩
    · obtain ⟨⟨res1, rw⟩, _, h⟩ := Exec.bind_eq_ok.1 h
      cases h; exact ⟨by simp, by simp⟩

theorem getControl_past {r r' : Reader σ} {res : Res} {t : Nat} {c : Option Control}
    (hp : r.state ≠ .opening) (h : r.getControl t = .ok (res, c, r')) : r' = r := by
  unfold Reader.getControl at h
  rw [maybeOpen_past hp, Exec.ok_bind] at h
  simp only [ne_eq, not_true_eq_false, if_false] at h
  split at h
  · cases h; rfl
  · split at h
    · cases h; rfl
    · split at h
      · cases h; rfl
      · split at h <;> cases h <;> rfl

/-- A call other than open keeps a reader that was opened from being as new. -/
theorem step_past {fuel : Nat} {r r' : Reader σ} {op : ROp} {res : Res} {d : Option Bytes}
    (hp : r.state ≠ .opening) (hop : op ≠ .opn) (h : r.step fuel op = .ok (res, d, r')) :
    r'.state ≠ .opening ∧ (Ended r → Ended r' ∧ d = none ∧
      (op = .read → r' = r ∧ res ≠ .success)) := by
  cases op with
  | opn => exact absurd rfl hop
  | read =>
    obtain ⟨h1, h2, h3⟩ := read_past hp h
    refine ⟨h1, fun he => ?_⟩
    obtain ⟨h4, h5, h6⟩ := h3 he
    refine ⟨h5 ▸ he, h4, fun _ => ⟨h5, ?_⟩⟩
    rw [h6]; split <;> simp
  | getControl t =>
    obtain ⟨⟨res1, c, r1⟩, h1, h⟩ := Exec.bind_eq_ok.1 h
    cases h
    have := getControl_past hp h1
    subst this
    exact ⟨hp, fun he => ⟨he, rfl, fun h => by cases h⟩⟩
  | close =>
    obtain ⟨⟨res1, r1⟩, h1, h⟩ := Exec.bind_eq_ok.1 h
    cases h
    have := close_past hp h1
    exact ⟨this.1, fun _ => ⟨this, rfl, fun h => by cases h⟩⟩

theorem run_past {fuel : Nat} : ∀ (calls : List ROp) {r r' : Reader σ}
    {rs : List (Res × Option Bytes)}, r.state ≠ .opening → ROp.opn ∉ calls →
    r.run fuel calls = .ok (rs, r') → r'.state ≠ .opening ∧
      (Ended r → Ended r' ∧ ∀ x ∈ rs, x.2 = none) := by
  intro calls
  induction calls with
  | nil => intro r r' rs hp _ h; cases h; exact ⟨hp, fun he => ⟨he, by simp⟩⟩
  | cons op rest ih =>
    intro r r' rs hp hc h
    simp only [List.mem_cons, not_or] at hc
    obtain ⟨⟨res, d, r1⟩, h1, h⟩ := Exec.bind_eq_ok.1 h
    obtain ⟨⟨rs', r2⟩, h2, h⟩ := Exec.bind_eq_ok.1 h
    cases h
    obtain ⟨a1, a2⟩ := step_past hp (fun h => hc.1 h.symm) h1
    obtain ⟨b1, b2⟩ := ih a1 hc.2 h2
    refine ⟨b1, fun he => ?_⟩
    obtain ⟨c1, c2⟩ := b2 (a2 he).1
    refine ⟨c1, ?_⟩
    intro x hx
    rcases List.mem_cons.1 hx with rfl | hx
    · exact (a2 he).2.1
    · exact c2 x hx

theorem reader_open_success {r r' : Reader σ} (h : r.open = .ok (.success, r')) :
    r'.state = .opened := by
  unfold Reader.open at h
  split at h
  · cases h
  · obtain ⟨⟨res, rw⟩, h1, h⟩ := Exec.bind_eq_ok.1 h
    simp only at h
    split at h
    · rename_i hn; cases h; exact absurd rfl hn
    · obtain ⟨⟨res2, w2⟩, h2, h⟩ := Exec.bind_eq_ok.1 h
      simp only at h
      split at h
      · rename_i hn; cases h; exact absurd rfl hn
      · cases h; rfl

theorem read_some_opened {fuel : Nat} {r r' : Reader σ} {res : Res} {b : Bytes}
    (h : r.read fuel = .ok (res, some b, r')) : r'.state = .opened := by
  unfold Reader.read at h
  obtain ⟨⟨res1, r1⟩, h1, h⟩ := Exec.bind_eq_ok.1 h
  simp only at h
  split at h
  · cases h
  · split at h
    · rename_i ho
      rcases nextData_none fuel h with ⟨h2, _⟩ | ⟨_, _, h2⟩
      · cases h2
      · rw [h2, ho]
    · split at h <;> cases h

/-- **C136**. Take any transport and any history of calls on a reader in which, at some point, an
open succeeded or a read delivered a payload, and in which `fstrm_reader_open` is not called after
that. Once a read has then returned without a payload, be it at the end of the stream, for an error
or for a frame that is too long, no call delivers a payload, and a further read does not report
success and does not touch the transport. -/
theorem reader_end_is_final (ops : Ops σ) (obj : σ) (ropt : Option ReaderOptions) (fuel : Nat)
    (r0 r1 r2 r3 r4 r5 : Reader σ) (before mid later : List ROp) (op : ROp) (res res' : Res)
    (d : Option Bytes) (rs1 rs2 rs3 : List (Res × Option Bytes))
    (_hinit : Reader.init ropt (Rdwr.init ops obj) = some r0)
    (_hbefore : r0.run fuel before = .ok (rs1, r1))
    (hop : r1.step fuel op = .ok (res, d, r2))
    (hopen : (op = .opn ∧ res = .success) ∨ (op = .read ∧ d ≠ none))
    (hmid : r2.run fuel mid = .ok (rs2, r3)) (hmo : ROp.opn ∉ mid)
    (hend : r3.step fuel .read = .ok (res', none, r4))
    (hlater : r4.run fuel later = .ok (rs3, r5)) (hlo : ROp.opn ∉ later) :
    (∀ x ∈ rs3, x.2 = none) ∧
    ∃ res'', r5.step fuel .read = .ok (res'', none, r5) ∧ res'' ≠ .success := by
  have h2 : r2.state ≠ .opening := by
    have : r2.state = .opened := by
      rcases hopen with ⟨rfl, rfl⟩ | ⟨rfl, hd⟩
      · obtain ⟨⟨res1, r6⟩, h1, h⟩ := Exec.bind_eq_ok.1 hop
        cases h
        exact reader_open_success h1
      · cases d with
        | none => exact absurd rfl hd
        | some b => exact read_some_opened hop
    rw [this]; simp
  have h3 := (run_past mid h2 hmo hmid).1
  obtain ⟨_, h4, _⟩ := read_past h3 hend
  have h4 := h4 rfl
  obtain ⟨h5, h6⟩ := (run_past later h4.1 hlo hlater).2 h4
  refine ⟨h6, if r5.state = .closed then .stop else .failure, ?_, by split <;> simp⟩
  show r5.read fuel = _
  unfold Reader.read
  rw [maybeOpen_past h5.1, Exec.ok_bind]
  simp only [ne_eq, not_true_eq_false, if_false, if_neg h5.2]
  split <;> rfl

/-- The hypotheses are met, and complete frames follow: a stream with a frame that is too long, one
that has ended, and one that continues after STOP. -/
example :
    let go := fun (bs : Bytes) (mid later : List ROp) =>
      (Reader.init (some ⟨[], 3⟩) (Rdwr.init (pipeOps true false) ⟨bs, [], false⟩)).map fun r0 =>
        (do
          let (res, _, r2) ← r0.step 9 .opn
          let (_, r3) ← r2.run 9 mid
          let (res', d, r4) ← r3.step 9 .read
          let (rs, r5) ← r4.run 9 later
          let (res'', d', _) ← r5.step 9 .read
          Except.ok (res, (res', d), rs.map (·.2), (res'', d')) :
          Exec (Res × (Res × Option Bytes) × List (Option Bytes) × (Res × Option Bytes)))
    let long := CFrame.wire ⟨.start, []⟩ ++ Spec.dataFrame [1] ++ Spec.dataFrame [0, 0, 0, 1, 1] ++
      Spec.dataFrame [2]
    let ended := Spec.stream none [[1], [2, 3]] ++ Spec.dataFrame [2]
    go long [.read] [.read, .getControl T_START, .close, .read] =
      some (.ok (.success, (.success, none), [none, none, none, none], (.failure, none))) ∧
    go ended [.read, .read] [.read, .close] =
      some (.ok (.success, (.stop, none), [none, none], (.stop, none))) := by
  refine ⟨?_, ?_⟩ <;> rfl

end Fstrm.Props
