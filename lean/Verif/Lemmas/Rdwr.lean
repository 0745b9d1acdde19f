import Verif.Lemmas.Exec
import Verif.Lemmas.Control
import Verif.Props.Control
import Verif.Spec.Trace

/-! Helper lemmas about `rdwr.c`. -/

set_option autoImplicit false

namespace Fstrm

open Spec (wrote received iovs Phase CType CFrame)

variable {σ : Type}

/-! ### The log projections -/

theorem wrote_append (a b : List Ev) : wrote (a ++ b) = wrote a ++ wrote b := by
  induction a with
  | nil => rfl
  | cons e a ih =>
    cases e with
    | wr iov r => cases r <;> simp [wrote, ih]
    | rd n r bs => cases r <;> simp [wrote, ih]
    | _ => simp [wrote, ih]

theorem received_append (a b : List Ev) : received (a ++ b) = received a ++ received b := by
  induction a with
  | nil => rfl
  | cons e a ih =>
    cases e with
    | wr iov r => cases r <;> simp [received, ih]
    | rd n r bs => cases r <;> simp [received, ih]
    | _ => simp [received, ih]

theorem iovs_append (a b : List Ev) : iovs (a ++ b) = iovs a ++ iovs b := by
  induction a with
  | nil => rfl
  | cons e a ih =>
    cases e with
    | wr iov r => cases r <;> simp [iovs, ih]
    | rd n r bs => cases r <;> simp [iovs, ih]
    | _ => simp [iovs, ih]

theorem Phase.run_append (p : Phase) (a b : List Ev) :
    p.run (a ++ b) = (p.run a).bind (·.run b) := by
  induction a generalizing p with
  | nil => rfl
  | cons e a ih =>
    simp only [List.cons_append, Phase.run]
    cases p.next e with
    | none => rfl
    | some q => exact ih q

/-! ### The primitive operations, as relations on transports -/

/-- `b` results from `a` by one of the four primitive transport operations. -/
inductive Prim : Rdwr σ → Rdwr σ → Prop
  | opn {a b r} : a.open = .ok (r, b) → Prim a b
  | cls {a b r} : a.close = .ok (r, b) → Prim a b
  | rd {a b n r bs} : a.read n = .ok (r, bs, b) → Prim a b
  | wr {a b iov r} : a.write iov = .ok (r, b) → Prim a b

/-- Reachability through primitive operations. -/
inductive Reach : Rdwr σ → Rdwr σ → Prop
  | refl {a} : Reach a a
  | tail {a b c} : Reach a b → Prim b c → Reach a c

theorem Reach.trans {a b c : Rdwr σ} (h1 : Reach a b) (h2 : Reach b c) : Reach a c := by
  induction h2 with
  | refl => exact h1
  | tail _ h ih => exact .tail ih h

theorem Reach.opn {a b : Rdwr σ} {r} (h : a.open = .ok (r, b)) : Reach a b := .tail .refl (.opn h)
theorem Reach.cls {a b : Rdwr σ} {r} (h : a.close = .ok (r, b)) : Reach a b := .tail .refl (.cls h)
theorem Reach.rd {a b : Rdwr σ} {n r bs} (h : a.read n = .ok (r, bs, b)) : Reach a b :=
  .tail .refl (.rd h)
theorem Reach.wr {a b : Rdwr σ} {iov r} (h : a.write iov = .ok (r, b)) : Reach a b :=
  .tail .refl (.wr h)

theorem Reach.inv {a b : Rdwr σ} {P : Rdwr σ → Prop} (h : Reach a b) (ha : P a)
    (hs : ∀ x y, P x → Prim x y → P y) : P b := by
  induction h with
  | refl => exact ha
  | tail _ h ih => exact hs _ _ ih h

/-! ### Exact effects of the primitives -/

theorem Rdwr.open_ok {a b : Rdwr σ} {r : Res} (h : a.open = .ok (r, b)) :
    b.ops = a.ops ∧
    ((a.ops.opn = none ∧ r = .failure ∧ b = a) ∨
     (b.log = a.log ++ [.opn r] ∧ b.opened = (a.opened || decide (r = .success)))) := by
  unfold Rdwr.open at h
  split at h
  · simp_all
  · rename_i f hf
    obtain ⟨⟨res, obj⟩, _, h⟩ := Exec.bind_eq_ok.1 h
    simp only at h
    split at h
    · simp only [Except.ok.injEq, Prod.mk.injEq] at h
      obtain ⟨rfl, rfl⟩ := h
      simp_all
    · simp only [Except.ok.injEq, Prod.mk.injEq] at h
      obtain ⟨rfl, rfl⟩ := h
      simp_all

theorem Rdwr.close_ok {a b : Rdwr σ} {r : Res} (h : a.close = .ok (r, b)) :
    b.ops = a.ops ∧
    ((a.ops.cls = none ∧ r = .failure ∧ b = a) ∨
     (a.ops.cls ≠ none ∧ a.opened = false ∧ r = .success ∧ b = a) ∨
     (a.ops.cls ≠ none ∧ a.opened = true ∧ b.opened = false ∧ b.log = a.log ++ [.cls r])) := by
  unfold Rdwr.close at h
  split at h
  · simp_all
  · rename_i f hf
    split at h
    · obtain ⟨⟨res, obj⟩, _, h⟩ := Exec.bind_eq_ok.1 h
      simp only [Except.ok.injEq, Prod.mk.injEq] at h
      obtain ⟨rfl, rfl⟩ := h
      simp_all
    · simp only [Except.ok.injEq, Prod.mk.injEq] at h
      obtain ⟨rfl, rfl⟩ := h
      simp_all

theorem Rdwr.read_ok {a b : Rdwr σ} {n : Nat} {r : Res} {bs : Bytes}
    (h : a.read n = .ok (r, bs, b)) :
    b.ops = a.ops ∧
    (((a.opened = false ∨ a.ops.rd = none) ∧ r = .failure ∧ bs = [] ∧ b = a) ∨
     (a.opened = true ∧ r = .success ∧ bs.length = n ∧ b.opened = true ∧
        b.log = a.log ++ [.rd n .success bs]) ∨
     (a.opened = true ∧ r ≠ .success ∧ bs = [] ∧ ∃ bs',
        ((a.ops.cls = none ∧ b.opened = true ∧ b.log = a.log ++ [.rd n r bs']) ∨
         (a.ops.cls ≠ none ∧ b.opened = false ∧
            ∃ rc, b.log = a.log ++ [.rd n r bs', .cls rc])))) := by
  unfold Rdwr.read at h
  split at h
  · simp_all
  · rename_i ho
    split at h
    · simp_all
    · rename_i f hf
      obtain ⟨⟨res, bs', obj⟩, _, h⟩ := Exec.bind_eq_ok.1 h
      simp only at h
      split at h
      · obtain ⟨⟨rc, rw2⟩, hc, h⟩ := Exec.bind_eq_ok.1 h
        simp only [Except.ok.injEq, Prod.mk.injEq] at h
        obtain ⟨rfl, rfl, rfl⟩ := h
        obtain ⟨h1, h2⟩ := Rdwr.close_ok hc
        simp only at h1 h2
        refine ⟨h1, Or.inr (Or.inr ⟨by simp_all, by assumption, rfl, bs', ?_⟩)⟩
        rcases h2 with ⟨h3, h4, h5⟩ | ⟨h3, h4, h5, h6⟩ | ⟨h3, h4, h5, h6⟩
        · left; subst h5; simp_all
        · simp_all
        · right; simp_all
      · split at h
        · cases h
        · simp only [Except.ok.injEq, Prod.mk.injEq] at h
          obtain ⟨rfl, rfl, rfl⟩ := h
          simp_all

theorem Rdwr.write_ok {a b : Rdwr σ} {iov : List Bytes} {r : Res}
    (h : a.write iov = .ok (r, b)) :
    b.ops = a.ops ∧
    (((a.opened = false ∨ a.ops.wr = none) ∧ r = .failure ∧ b = a) ∨
     (a.opened = true ∧ r = .success ∧ b.opened = true ∧
        b.log = a.log ++ [.wr iov .success]) ∨
     (a.opened = true ∧ r ≠ .success ∧
        ((a.ops.cls = none ∧ b.opened = true ∧ b.log = a.log ++ [.wr iov r]) ∨
         (a.ops.cls ≠ none ∧ b.opened = false ∧
            ∃ rc, b.log = a.log ++ [.wr iov r, .cls rc])))) := by
  unfold Rdwr.write at h
  split at h
  · simp_all
  · rename_i ho
    split at h
    · simp_all
    · rename_i f hf
      obtain ⟨⟨res, obj⟩, _, h⟩ := Exec.bind_eq_ok.1 h
      simp only at h
      split at h
      · obtain ⟨⟨rc, rw2⟩, hc, h⟩ := Exec.bind_eq_ok.1 h
        simp only [Except.ok.injEq, Prod.mk.injEq] at h
        obtain ⟨rfl, rfl⟩ := h
        obtain ⟨h1, h2⟩ := Rdwr.close_ok hc
        simp only at h1 h2
        refine ⟨h1, Or.inr (Or.inr ⟨by simp_all, by assumption, ?_⟩)⟩
        rcases h2 with ⟨h3, h4, h5⟩ | ⟨h3, h4, h5, h6⟩ | ⟨h3, h4, h5, h6⟩
        · left; subst h5; simp_all
        · simp_all
        · right; simp_all
      · simp only [Except.ok.injEq, Prod.mk.injEq] at h
        obtain ⟨rfl, rfl⟩ := h
        simp_all

theorem Prim.ops {a b : Rdwr σ} (h : Prim a b) : b.ops = a.ops := by
  cases h with
  | opn h => exact (Rdwr.open_ok h).1
  | cls h => exact (Rdwr.close_ok h).1
  | rd h => exact (Rdwr.read_ok h).1
  | wr h => exact (Rdwr.write_ok h).1

theorem Reach.ops {a b : Rdwr σ} (h : Reach a b) : b.ops = a.ops :=
  h.inv (P := fun x => x.ops = a.ops) rfl (fun _ _ h1 h2 => h2.ops.trans h1)

/-! ### Control frames -/

/-- Writing a control frame is writing its wire form, or failing without touching
the transport when it cannot be encoded. -/
theorem writeControlFrame_eq (rw : Rdwr σ) (t : CType) (cts : List Bytes) :
    rw.writeControlFrame ⟨t.code, cts⟩ =
      if (∀ ct ∈ t.visible cts, ct.length ≤ 256) ∧ (CFrame.wire ⟨t, t.visible cts⟩).length ≤ 512
      then rw.write [CFrame.wire ⟨t, t.visible cts⟩] else .ok (.failure, rw) := by
  unfold Rdwr.writeControlFrame
  rw [encodedSize_eq]
  by_cases h : (∀ ct ∈ t.visible cts, ct.length ≤ 256) ∧
      (CFrame.wire ⟨t, t.visible cts⟩).length ≤ 512
  · have hne : (CFrame.wire ⟨t, t.visible cts⟩).length ≠ 0 := by
      simp [CFrame.wire]
    rw [if_pos h]
    have h' : (∀ ct ∈ t.visible cts, ct.length ≤ 256) ∧
      (Spec.wireBytes ⟨t, t.visible cts⟩ true).length ≤ 512 := h
    rw [if_pos h']
    simp only [Spec.wireBytes, if_true]
    rw [if_neg hne, Props.encode_exact _ _ _ _ _ (by simp)]
    simp only [Spec.wireBytes, if_true]
    have h2 : (∀ ct ∈ t.visible cts, ct.length ≤ 256) ∧
        (CFrame.wire ⟨t, t.visible cts⟩).length ≤ 512 ∧
        (CFrame.wire ⟨t, t.visible cts⟩).length ≤ (CFrame.wire ⟨t, t.visible cts⟩).length :=
      ⟨h.1, h.2, Nat.le_refl _⟩
    rw [if_pos h2, Exec.ok_bind]
    simp
  · rw [if_neg h]
    have h' : ¬((∀ ct ∈ t.visible cts, ct.length ≤ 256) ∧
      (Spec.wireBytes ⟨t, t.visible cts⟩ true).length ≤ 512) := h
    rw [if_neg h']

theorem writeControl_stop (rw : Rdwr σ) :
    rw.writeControl T_STOP none = rw.write [CFrame.wire ⟨.stop, []⟩] := by
  have := writeControlFrame_eq rw .stop []
  rw [if_pos (by decide +kernel)] at this
  exact this

theorem writeControl_finish (rw : Rdwr σ) :
    rw.writeControl T_FINISH none = rw.write [CFrame.wire ⟨.finish, []⟩] := by
  have := writeControlFrame_eq rw .finish []
  rw [if_pos (by decide +kernel)] at this
  exact this

theorem writeControlFrame_reach {rw rw' : Rdwr σ} {c : Control} {r : Res}
    (h : rw.writeControlFrame c = .ok (r, rw')) : Reach rw rw' := by
  unfold Rdwr.writeControlFrame at h
  split at h
  · cases h; exact .refl
  · split at h
    · cases h
    · obtain ⟨⟨res, frame, len⟩, _, h⟩ := Exec.bind_eq_ok.1 h
      simp only at h
      split at h
      · cases h; exact .refl
      · exact .wr h

/-- Reachability through reads only. -/
inductive RdReach : Rdwr σ → Rdwr σ → Prop
  | refl {a} : RdReach a a
  | tail {a b c n r bs} : RdReach a b → b.read n = .ok (r, bs, c) → RdReach a c

theorem RdReach.reach {a b : Rdwr σ} (h : RdReach a b) : Reach a b := by
  induction h with
  | refl => exact .refl
  | tail _ h ih => exact ih.tail (.rd h)

theorem RdReach.trans {a b c : Rdwr σ} (h1 : RdReach a b) (h2 : RdReach b c) : RdReach a c := by
  induction h2 with
  | refl => exact h1
  | tail _ h ih => exact ih.tail h

theorem RdReach.rd {a b : Rdwr σ} {n r bs} (h : a.read n = .ok (r, bs, b)) : RdReach a b :=
  .tail .refl h

theorem readControlBody_rdreach {rw rw' : Rdwr σ} {c c' : Control} {r : Res} {t : Option Nat}
    (h : rw.readControlBody c = .ok (r, c', t, rw')) : RdReach rw rw' := by
  unfold Rdwr.readControlBody at h
  obtain ⟨⟨res, tmp, rw1⟩, h1, h⟩ := Exec.bind_eq_ok.1 h
  simp only at h
  split at h
  · cases h; exact .rd h1
  · split at h
    · cases h; exact .rd h1
    · split at h
      · cases h
      · obtain ⟨⟨res, frame, rw2⟩, h2, h⟩ := Exec.bind_eq_ok.1 h
        simp only at h
        have h12 := (RdReach.rd h1).trans (.rd h2)
        split at h
        · cases h; exact h12
        · obtain ⟨⟨res, c2⟩, _, h⟩ := Exec.bind_eq_ok.1 h
          simp only at h
          split at h <;> (cases h; exact h12)

theorem readControlFrame_rdreach {rw rw' : Rdwr σ} {c c' : Control} {e : Bool} {r : Res}
    {t : Option Nat} (h : rw.readControlFrame c e = .ok (r, c', t, rw')) : RdReach rw rw' := by
  unfold Rdwr.readControlFrame at h
  split at h
  · obtain ⟨⟨res, tmp, rw1⟩, h1, h⟩ := Exec.bind_eq_ok.1 h
    simp only at h
    split at h
    · cases h; exact .rd h1
    · split at h
      · cases h; exact .rd h1
      · exact (RdReach.rd h1).trans (readControlBody_rdreach h)
  · exact readControlBody_rdreach h

theorem readControl_rdreach {rw rw' : Rdwr σ} {c c' : Option Control} {r : Res} {t : Nat}
    (h : rw.readControl c t = .ok (r, c', rw')) : RdReach rw rw' := by
  unfold Rdwr.readControl at h
  obtain ⟨⟨res, c1, t1, rw1⟩, h1, h⟩ := Exec.bind_eq_ok.1 h
  simp only at h
  have := readControlFrame_rdreach h1
  split at h
  · cases h; exact this
  · split at h <;> (cases h; exact this)

theorem readControlFrame_reach {rw rw' : Rdwr σ} {c c' : Control} {e : Bool} {r : Res}
    {t : Option Nat} (h : rw.readControlFrame c e = .ok (r, c', t, rw')) : Reach rw rw' :=
  (readControlFrame_rdreach h).reach

theorem readControl_reach {rw rw' : Rdwr σ} {c c' : Option Control} {r : Res} {t : Nat}
    (h : rw.readControl c t = .ok (r, c', rw')) : Reach rw rw' :=
  (readControl_rdreach h).reach

theorem read_success {a b : Rdwr σ} {n : Nat} {bs : Bytes} (h : a.read n = .ok (.success, bs, b)) :
    b.ops = a.ops ∧ a.opened = true ∧ b.opened = true ∧ bs.length = n ∧
      b.log = a.log ++ [.rd n .success bs] := by
  obtain ⟨h1, h2⟩ := Rdwr.read_ok h
  rcases h2 with ⟨_, h2, _⟩ | h2 | ⟨_, h2, _⟩
  · cases h2
  · exact ⟨h1, h2.1, h2.2.2.2.1, h2.2.2.1, h2.2.2.2.2⟩
  · exact absurd rfl h2

theorem received_rd (l : List Ev) (n : Nat) (bs : Bytes) :
    received (l ++ [.rd n .success bs]) = received l ++ bs := by
  rw [received_append]; simp [received]

theorem wrote_rd (l : List Ev) (n : Nat) (bs : Bytes) :
    wrote (l ++ [.rd n .success bs]) = wrote l := by
  rw [wrote_append]; simp [wrote]

/-- A successfully read control frame body. -/
theorem readControlBody_success {rw rw' : Rdwr σ} {c c' : Control} {t : Option Nat}
    (h : rw.readControlBody c = .ok (.success, c', t, rw')) :
    rw.opened = true ∧ rw'.opened = true ∧ rw'.ops = rw.ops ∧ wrote rw'.log = wrote rw.log ∧
    ∃ f : CFrame, f.WF ∧ f.payload.length ≤ 512 ∧ c' = ⟨f.type.code, f.cts⟩ ∧
      t = some f.type.code ∧
      received rw'.log = received rw.log ++ (Spec.be32 f.payload.length ++ f.payload) := by
  unfold Rdwr.readControlBody at h
  obtain ⟨⟨res, tmp, rw1⟩, h1, h⟩ := Exec.bind_eq_ok.1 h
  simp only at h
  split at h
  · rename_i hne; cases h; exact absurd rfl hne
  · rename_i hs
    have hs : res = .success := by simpa using hs
    subst hs
    obtain ⟨o1, p1, p1', l1, g1⟩ := read_success h1
    split at h
    · cases h
    · split at h
      · cases h
      · obtain ⟨⟨res, frame, rw2⟩, h2, h⟩ := Exec.bind_eq_ok.1 h
        simp only at h
        split at h
        · rename_i hne; cases h; exact absurd rfl hne
        · rename_i hs
          have hs : res = .success := by simpa using hs
          subst hs
          obtain ⟨o2, p2, p2', l2, g2⟩ := read_success h2
          obtain ⟨⟨res, c2⟩, hd, h⟩ := Exec.bind_eq_ok.1 h
          simp only at h
          split at h
          · rename_i hne; cases h; exact absurd rfl hne
          · rename_i hs
            have hs : res = .success := by simpa using hs
            subst hs
            rw [Props.decode_iff _ _ _ _ _ (by omega)] at hd
            obtain ⟨f, w1, w2, w3, rfl⟩ := hd
            have ht : Control.getType ⟨f.type.code, f.cts⟩ = (.success, some f.type.code) := by
              unfold Control.getType; rw [if_pos (knownType_code _)]
            rw [ht] at h
            simp only [Except.ok.injEq, Prod.mk.injEq, true_and] at h
            obtain ⟨rfl, rfl, rfl⟩ := h
            have hf : frame = f.payload := by
              rw [← l2, List.take_length] at w3; exact w3
            have htmp : tmp = Spec.be32 f.payload.length := by
              rw [← htonl_eq, ← hf, l2, htonl_ntohl l1]
            refine ⟨p1, p2', o2.trans o1, ?_, f, w1, w2, rfl, rfl, ?_⟩
            · rw [g2, g1, wrote_rd, wrote_rd]
            · rw [g2, g1, received_rd, received_rd, htmp, hf, List.append_assoc]

/-- A successfully awaited control frame. -/
theorem readControl_success {rw rw' : Rdwr σ} {c c' : Option Control} {t : Nat}
    (h : rw.readControl c t = .ok (.success, c', rw')) :
    rw.opened = true ∧ rw'.opened = true ∧ rw'.ops = rw.ops ∧ wrote rw'.log = wrote rw.log ∧
    ∃ f : CFrame, f.WF ∧ f.payload.length ≤ 512 ∧ f.type.code = t ∧
      c' = some ⟨f.type.code, f.cts⟩ ∧
      received rw'.log = received rw.log ++ f.wire := by
  unfold Rdwr.readControl at h
  obtain ⟨⟨res, c1, t1, rw1⟩, h1, h⟩ := Exec.bind_eq_ok.1 h
  simp only at h
  split at h
  · rename_i hne; cases h; exact absurd rfl hne
  · rename_i hs
    have hs : res = .success := by simpa using hs
    subst hs
    split at h
    · cases h
    · rename_i ht
      have ht : t1 = some t := by simpa using ht
      simp only [Except.ok.injEq, Prod.mk.injEq, true_and] at h
      obtain ⟨rfl, rfl⟩ := h
      unfold Rdwr.readControlFrame at h1
      rw [if_pos rfl] at h1
      obtain ⟨⟨res, tmp, rw2⟩, h2, h1⟩ := Exec.bind_eq_ok.1 h1
      simp only at h1
      split at h1
      · rename_i hne; cases h1; exact absurd rfl hne
      · rename_i hs
        have hs : res = .success := by simpa using hs
        subst hs
        obtain ⟨o2, p2, p2', l2, g2⟩ := read_success h2
        split at h1
        · cases h1
        · rename_i hz
          have hz : ntohl tmp = 0 := by simpa using hz
          obtain ⟨a1, a2, a3, a4, f, b1, b2, b3, b4, b5⟩ := readControlBody_success h1
          refine ⟨p2, a2, a3.trans o2, ?_, f, b1, b2, ?_, by rw [b3], ?_⟩
          · rw [a4, g2, wrote_rd]
          · rw [b4] at ht; simpa using ht
          · rw [b5, g2, received_rd]
            have : tmp = Spec.be32 0 := by rw [← htonl_eq, ← hz, htonl_ntohl l2]
            rw [this, CFrame.wire]
            simp only [List.append_assoc]

theorem writeControl_reach {rw rw' : Rdwr σ} {c : Option Bytes} {r : Res} {t : Nat}
    (h : rw.writeControl t c = .ok (r, rw')) : Reach rw rw' := by
  unfold Rdwr.writeControl at h
  simp only at h
  split at h
  · cases h; exact .refl
  · split at h
    · exact writeControlFrame_reach h
    · split at h
      · cases h; exact .refl
      · exact writeControlFrame_reach h

end Fstrm
