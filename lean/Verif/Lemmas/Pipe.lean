import Verif.Lemmas.Chan
import Verif.Spec.Pipe

/-!
# What a program does over a pipe of limited capacity

It does what it does over an unlimited pipe, up to the point where the pipe is full.
-/

set_option autoImplicit false

namespace Fstrm

/-- Something that contains an end of the pipes. -/
class Pipe (α : Type) where
  out : α → Bytes
  lim : Nat → α → α
  ok : α → Prop

instance : Pipe (Rdwr Chan) where
  out rw := rw.obj.out
  lim c rw := { rw with ops := pipeOps c }
  ok rw := rw.ops = chanOps

instance : Pipe (Writer Chan) where
  out w := w.rdwr.obj.out
  lim c w := { w with rdwr := Pipe.lim c w.rdwr }
  ok w := w.rdwr.ops = chanOps

instance : Pipe (Reader Chan) where
  out r := r.rdwr.obj.out
  lim c r := { r with rdwr := Pipe.lim c r.rdwr }
  ok r := r.rdwr.ops = chanOps

instance {β α : Type} [Pipe α] : Pipe (β × α) where
  out p := Pipe.out p.2
  lim c p := (p.1, Pipe.lim c p.2)
  ok p := Pipe.ok p.2

/-- `x` is what happens over an unlimited pipe after `o` has been sent, `y` what happens if the pipe
takes `c` bytes: what was sent stays sent; and `y` is `x` unless more than `c` bytes are sent in `x`,
in which case `y` blocks after the first `c` of them. -/
structure Cut {α : Type} [Pipe α] (c : Nat) (o : Bytes) (x y : Exec α) : Prop where
  okGrow : ∀ a, x = .ok a → Pipe.ok a ∧ o <+: Pipe.out a
  waitGrow : ∀ p, x = .error (.wait p) → o <+: p
  ok : o.length ≤ c → ∀ a, x = .ok a →
    y = if (Pipe.out a).length ≤ c then .ok (Pipe.lim c a) else .error (.full ((Pipe.out a).take c))
  wait : o.length ≤ c → ∀ p, x = .error (.wait p) →
    y = if p.length ≤ c then .error (.wait p) else .error (.full (p.take c))

/-- The computation does not block. -/
def Inert {α : Type} (x : Exec α) : Prop := ∀ o, x ≠ .error (.wait o)

theorem Inert.ok {α : Type} (a : α) : Inert (.ok a : Exec α) := fun _ h => by cases h

theorem Inert.ub {α : Type} (s : String) : Inert (.error (.ub s) : Exec α) := fun _ h => by cases h

theorem Inert.fuel {α : Type} : Inert (.error .fuel : Exec α) := fun _ h => by cases h

theorem Inert.bind {α β : Type} {x : Exec α} {f : α → Exec β} (hx : Inert x)
    (hf : ∀ a, Inert (f a)) : Inert (x >>= f) := by
  intro o h
  cases x with
  | ok a => exact hf a o h
  | error e => cases h; exact hx o rfl

theorem prefix_take_eq {c : Nat} {p q : Bytes} (h : p <+: q) (hp : c ≤ p.length) :
    p.take c = q.take c := by
  obtain ⟨t, rfl⟩ := h
  rw [List.take_append_of_le_length hp]

namespace Cut

variable {α β : Type} [Pipe α] [Pipe β] {c : Nat} {o : Bytes}

theorem pure (a : α) (h : Pipe.ok a) : Cut c (Pipe.out a) (.ok a) (.ok (Pipe.lim c a)) := by
  refine ⟨fun b hb => ?_, fun _ h => (by cases h), fun ho b hb => ?_, fun _ _ h => (by cases h)⟩
  · cases hb; exact ⟨h, List.prefix_refl _⟩
  · cases hb; rw [if_pos ho]

theorem same (a : α) (ho : o = Pipe.out a) (h : Pipe.ok a) : Cut c o (.ok a) (.ok (Pipe.lim c a)) := by
  subst ho; exact pure a h

theorem stuck (e : Stuck) (he : ∀ p, e ≠ .wait p) (y : Exec α) : Cut c o (.error e : Exec α) y := by
  refine ⟨fun _ h => (by cases h), fun p h => ?_, fun _ _ h => (by cases h), fun _ p h => ?_⟩ <;>
  · cases h; exact absurd rfl (he p)

theorem bind {x y : Exec α} {f g : α → Exec β} (h : Cut c o x y)
    (hf : ∀ a, x = .ok a → Pipe.ok a → Cut c (Pipe.out a) (f a) (g (Pipe.lim c a))) :
    Cut c o (x >>= f) (y >>= g) := by
  cases x with
  | error e =>
    refine ⟨fun _ h => (by cases h), fun p hp => ?_, fun _ _ h => (by cases h), fun ho p hp => ?_⟩
    · cases hp; exact h.waitGrow p rfl
    · cases hp
      rw [h.wait ho p rfl]
      split <;> rfl
  | ok a =>
    obtain ⟨h1, h2⟩ := h.okGrow a rfl
    have h3 := hf a rfl h1
    refine ⟨fun b hb => ?_, fun p hp => ?_, fun ho b hb => ?_, fun ho p hp => ?_⟩
    · obtain ⟨h4, h5⟩ := h3.okGrow b hb
      exact ⟨h4, h2.trans h5⟩
    · exact h2.trans (h3.waitGrow p hp)
    · have hb' : f a = .ok b := hb
      rw [h.ok ho a rfl]
      split
      · rename_i hle
        exact h3.ok hle b hb'
      · rename_i hgt
        obtain ⟨-, h5⟩ := h3.okGrow b hb'
        have := h5.length_le
        rw [if_neg (by omega), ← prefix_take_eq h5 (by omega)]
        rfl
    · have hp' : f a = .error (.wait p) := hp
      rw [h.ok ho a rfl]
      split
      · rename_i hle
        exact h3.wait hle p hp'
      · rename_i hgt
        have h5 := h3.waitGrow p hp'
        have := h5.length_le
        rw [if_neg (by omega), ← prefix_take_eq h5 (by omega)]
        rfl

theorem inert {γ : Type} {z : Exec γ} {f g : γ → Exec β} (hz : Inert z)
    (hf : ∀ a, z = .ok a → Cut c o (f a) (g a)) : Cut c o (z >>= f) (z >>= g) := by
  cases z with
  | error e => exact stuck e (fun p h => hz p (by rw [h])) _
  | ok a => exact hf a rfl

end Cut

/-! ### Control frames -/

theorem memRead_inert (mem : Bytes) (n : Nat) : Inert (memRead mem n) := by
  unfold memRead
  split
  · exact .ub _
  · exact .ok _

theorem fsLoadBe32_inert (cur : RCur) : Inert (fsLoadBe32 cur) := by
  unfold fsLoadBe32
  split
  · exact .ok _
  · exact (memRead_inert _ _).bind fun _ => .ok _

theorem fsLoadBytes_inert (n : Nat) (cur : RCur) : Inert (fsLoadBytes n cur) := by
  unfold fsLoadBytes
  split
  · exact .ok _
  · exact (memRead_inert _ _).bind fun _ => .ok _

theorem fsStoreBytes_inert (cur : WCur) (bs : Bytes) : Inert (fsStoreBytes cur bs) := by
  unfold fsStoreBytes
  split
  · exact .ok _
  · split
    · exact .ub _
    · exact .ok _

theorem fsStoreBe32_inert (cur : WCur) (v : Nat) : Inert (fsStoreBe32 cur v) := by
  unfold fsStoreBe32
  exact fsStoreBytes_inert _ _

theorem decodeFields_inert (fuel : Nat) (cur : RCur) (ct : Control) :
    Inert (Control.decodeFields fuel cur ct) := by
  induction fuel generalizing cur ct with
  | zero => exact .fuel
  | succ fuel ih =>
    unfold Control.decodeFields
    split
    · exact .ok _
    · refine (fsLoadBe32_inert _).bind fun r => ?_
      cases r with
      | none => exact .ok _
      | some r =>
        dsimp only
        split
        · refine (fsLoadBe32_inert _).bind fun r => ?_
          cases r with
          | none => exact .ok _
          | some r =>
            dsimp only
            split
            · exact .ok _
            · split
              · exact .ok _
              · refine (fsLoadBytes_inert _ _).bind fun r => ?_
                cases r with
                | none => exact .ok _
                | some r => exact ih _ _
        · exact .ok _

theorem decodeBody_inert (cur : RCur) (ct : Control) : Inert (Control.decodeBody cur ct) := by
  unfold Control.decodeBody
  refine (fsLoadBe32_inert _).bind fun r => ?_
  cases r with
  | none => exact .ok _
  | some r =>
    dsimp only
    split
    · exact decodeFields_inert _ _ _
    · exact .ok _

theorem decode_inert (ct : Control) (mem : Bytes) (len : Nat) :
    Inert (ct.decode mem len false) := by
  unfold Control.decode
  dsimp only
  rw [if_neg (by decide)]
  split
  · exact .ok _
  · exact decodeBody_inert _ _

theorem encodeFields_inert (type : Nat) (cts : List Bytes) (cur : WCur) :
    Inert (Control.encodeFields type cts cur) := by
  induction cts generalizing cur with
  | nil => exact .ok _
  | cons ct rest ih =>
    unfold Control.encodeFields
    split
    · exact .ok _
    · refine (fsStoreBe32_inert _ _).bind fun r => ?_
      cases r with
      | none => exact .ok _
      | some r =>
        refine (fsStoreBe32_inert _ _).bind fun r => ?_
        cases r with
        | none => exact .ok _
        | some r =>
          refine (fsStoreBytes_inert _ _).bind fun r => ?_
          cases r with
          | none => exact .ok _
          | some r =>
            dsimp only
            split
            · exact .ok _
            · exact ih _

theorem encodeBody_inert (ct : Control) (cur : WCur) : Inert (ct.encodeBody cur) := by
  unfold Control.encodeBody
  refine (fsStoreBe32_inert _ _).bind fun r => ?_
  cases r with
  | none => exact .ok _
  | some r => exact encodeFields_inert _ _ _

theorem encode_inert (ct : Control) (mem : Bytes) (cap : Nat) (hdr : Bool) :
    Inert (ct.encode mem cap hdr) := by
  unfold Control.encode
  split
  · exact .ok _
  · split
    · exact .ok _
    · refine Inert.bind ?_ fun r => ?_
      · unfold Control.encodeAll
        split
        · refine (fsStoreBe32_inert _ _).bind fun r => ?_
          cases r with
          | none => exact .ok _
          | some r =>
            refine (fsStoreBe32_inert _ _).bind fun r => ?_
            cases r with
            | none => exact .ok _
            | some r => exact encodeBody_inert _ _
        · exact encodeBody_inert _ _
      · obtain ⟨b, cur⟩ := r
        dsimp only
        split <;> exact .ok _

/-! ### The transport -/

section
variable {c : Nat}

theorem Rdwr.open_cut (rw : Rdwr Chan) (h : rw.ops = chanOps) :
    Cut c rw.obj.out rw.open (Rdwr.open (Pipe.lim c rw)) := by
  have e1 : rw.open = .ok (.success, { rw with opened := true, log := rw.log ++ [.opn .success] }) := by
    unfold Rdwr.open; rw [h]; simp [chanOps, Exec.ok_bind]
  have e2 : Rdwr.open (Pipe.lim c rw) =
      .ok (.success, Pipe.lim c { rw with opened := true, log := rw.log ++ [.opn .success] }) := by
    unfold Rdwr.open
    simp [Pipe.lim, pipeOps, chanOps, Exec.ok_bind]
  rw [e1, e2]
  exact Cut.same _ rfl h

theorem Rdwr.close_cut (rw : Rdwr Chan) (h : rw.ops = chanOps) :
    Cut c rw.obj.out rw.close (Rdwr.close (Pipe.lim c rw)) := by
  cases ho : rw.opened with
  | false =>
    have e1 : rw.close = .ok (.success, rw) := by
      unfold Rdwr.close; rw [h]; simp [chanOps, ho]
    have e2 : Rdwr.close (Pipe.lim c rw) = .ok (.success, Pipe.lim c rw) := by
      unfold Rdwr.close
      simp [Pipe.lim, pipeOps, chanOps, ho]
    rw [e1, e2]
    exact Cut.same _ rfl h
  | true =>
    have e1 : rw.close = .ok (.success, { rw with opened := false, log := rw.log ++ [.cls .success] }) := by
      unfold Rdwr.close; rw [h]; simp [chanOps, Exec.ok_bind, ho]
    have e2 : Rdwr.close (Pipe.lim c rw) =
        .ok (.success, Pipe.lim c { rw with opened := false, log := rw.log ++ [.cls .success] }) := by
      unfold Rdwr.close
      simp [Pipe.lim, pipeOps, chanOps, Exec.ok_bind, ho]
    rw [e1, e2]
    exact Cut.same _ rfl h

theorem Rdwr.read_cut (rw : Rdwr Chan) (h : rw.ops = chanOps) (n : Nat) :
    Cut c rw.obj.out (rw.read n) (Rdwr.read (Pipe.lim c rw) n) := by
  cases ho : rw.opened with
  | false =>
    have e1 : rw.read n = .ok (.failure, [], rw) := by
      unfold Rdwr.read; simp [ho]
    have e2 : Rdwr.read (Pipe.lim c rw) n = .ok (.failure, [], Pipe.lim c rw) := by
      unfold Rdwr.read
      simp [Pipe.lim, ho]
    rw [e1, e2]
    exact Cut.same _ rfl h
  | true =>
    by_cases hn : n ≤ rw.obj.inp.length
    · have e1 : rw.read n = .ok (.success, rw.obj.inp.take n, { rw with
          obj := { rw.obj with inp := rw.obj.inp.drop n }
          log := rw.log ++ [.rd n .success (rw.obj.inp.take n)] }) := by
        unfold Rdwr.read; rw [h]; simp [chanOps, Exec.ok_bind, ho, hn]
      have e2 : Rdwr.read (Pipe.lim c rw) n =
          .ok (.success, rw.obj.inp.take n, Pipe.lim c { rw with
            obj := { rw.obj with inp := rw.obj.inp.drop n }
            log := rw.log ++ [.rd n .success (rw.obj.inp.take n)] }) := by
        unfold Rdwr.read
        simp [Pipe.lim, pipeOps, chanOps, Exec.ok_bind, ho, hn]
      rw [e1, e2]
      exact Cut.same _ rfl h
    · have e1 : rw.read n = .error (.wait rw.obj.out) := by
        unfold Rdwr.read; rw [h]
        simp only [chanOps, ho, Bool.not_true, Bool.false_eq_true, if_false, if_neg hn]
        rfl
      have e2 : Rdwr.read (Pipe.lim c rw) n = .error (.wait rw.obj.out) := by
        unfold Rdwr.read
        simp only [Pipe.lim, pipeOps, chanOps, ho, Bool.not_true, Bool.false_eq_true, if_false, if_neg hn]
        rfl
      rw [e1, e2]
      refine ⟨fun _ h => (by cases h), fun p hp => ?_, fun _ _ h => (by cases h), fun hl p hp => ?_⟩
      · cases hp; exact List.prefix_refl _
      · cases hp; rw [if_pos hl]

theorem Rdwr.write_cut (rw : Rdwr Chan) (h : rw.ops = chanOps) (iov : List Bytes) :
    Cut c rw.obj.out (rw.write iov) (Rdwr.write (Pipe.lim c rw) iov) := by
  cases ho : rw.opened with
  | false =>
    have e1 : rw.write iov = .ok (.failure, rw) := by
      unfold Rdwr.write; simp [ho]
    have e2 : Rdwr.write (Pipe.lim c rw) iov = .ok (.failure, Pipe.lim c rw) := by
      unfold Rdwr.write
      simp [Pipe.lim, ho]
    rw [e1, e2]
    exact Cut.same _ rfl h
  | true =>
    have e1 : rw.write iov = .ok (.success, { rw with
        obj := { rw.obj with out := rw.obj.out ++ iov.flatten }
        log := rw.log ++ [.wr iov .success] }) := by
      unfold Rdwr.write; rw [h]; simp [chanOps, Exec.ok_bind, ho]
    have e2 : Rdwr.write (Pipe.lim c rw) iov =
        if (rw.obj.out ++ iov.flatten).length ≤ c then
          .ok (.success, Pipe.lim c { rw with
            obj := { rw.obj with out := rw.obj.out ++ iov.flatten }
            log := rw.log ++ [.wr iov .success] })
        else .error (.full ((rw.obj.out ++ iov.flatten).take c)) := by
      unfold Rdwr.write
      by_cases hc : (rw.obj.out ++ iov.flatten).length ≤ c
      · rw [if_pos hc]
        simp only [Pipe.lim, pipeOps, chanOps, ho, Bool.not_true, Bool.false_eq_true, if_false, if_pos hc,
          Exec.ok_bind, ne_eq, not_true_eq_false]
      · rw [if_neg hc]
        simp only [Pipe.lim, pipeOps, chanOps, ho, Bool.not_true, Bool.false_eq_true, if_false, if_neg hc]
        rfl
    rw [e1, e2]
    refine ⟨fun a ha => ?_, fun _ h => (by cases h), fun hl a ha => ?_, fun _ _ h => (by cases h)⟩
    · cases ha; exact ⟨h, List.prefix_append _ _⟩
    · cases ha; rfl

theorem Rdwr.readControlBody_cut (rw : Rdwr Chan) (h : rw.ops = chanOps) (ct : Control) :
    Cut c rw.obj.out (rw.readControlBody ct) (Rdwr.readControlBody (Pipe.lim c rw) ct) := by
  unfold Rdwr.readControlBody
  refine (rw.read_cut h 4).bind fun ⟨res, tmp, rw⟩ _ h => ?_
  dsimp only [Pipe.lim]
  split
  · exact .same _ rfl h
  split
  · exact .same _ rfl h
  split
  · exact .stuck _ (by simp) _
  refine (rw.read_cut h _).bind fun ⟨res, frame, rw⟩ _ h => ?_
  dsimp only [Pipe.lim]
  split
  · exact .same _ rfl h
  refine .inert (decode_inert _ _ _) fun ⟨res, ct⟩ _ => ?_
  dsimp only [Pipe.lim]
  split
  · exact .same _ rfl h
  · exact .same _ rfl h

theorem Rdwr.readControlFrame_cut (rw : Rdwr Chan) (h : rw.ops = chanOps) (ct : Control) (e : Bool) :
    Cut c rw.obj.out (rw.readControlFrame ct e) (Rdwr.readControlFrame (Pipe.lim c rw) ct e) := by
  unfold Rdwr.readControlFrame
  split
  · refine (rw.read_cut h 4).bind fun ⟨res, tmp, rw⟩ _ h => ?_
    dsimp only [Pipe.lim]
    split
    · exact .same _ rfl h
    split
    · exact .same _ rfl h
    exact rw.readControlBody_cut h ct
  · exact rw.readControlBody_cut h ct

theorem Rdwr.readControl_cut (rw : Rdwr Chan) (h : rw.ops = chanOps) (ct : Option Control) (t : Nat) :
    Cut c rw.obj.out (rw.readControl ct t) (Rdwr.readControl (Pipe.lim c rw) ct t) := by
  unfold Rdwr.readControl
  refine (rw.readControlFrame_cut h _ _).bind fun ⟨res, ct, ty, rw⟩ _ h => ?_
  dsimp only [Pipe.lim]
  split
  · exact .same _ rfl h
  split
  · exact .same _ rfl h
  · exact .same _ rfl h

theorem Rdwr.writeControlFrame_cut (rw : Rdwr Chan) (h : rw.ops = chanOps) (ct : Control) :
    Cut c rw.obj.out (rw.writeControlFrame ct) (Rdwr.writeControlFrame (Pipe.lim c rw) ct) := by
  unfold Rdwr.writeControlFrame
  split
  · exact .same _ rfl h
  split
  · exact .stuck _ (by simp) _
  refine .inert (encode_inert _ _ _ _) fun ⟨res, frame, len⟩ _ => ?_
  dsimp only [Pipe.lim]
  split
  · exact .same _ rfl h
  · exact rw.write_cut h _

theorem Rdwr.writeControl_cut (rw : Rdwr Chan) (h : rw.ops = chanOps) (t : Nat) (ct : Option Bytes) :
    Cut c rw.obj.out (rw.writeControl t ct) (Rdwr.writeControl (Pipe.lim c rw) t ct) := by
  unfold Rdwr.writeControl
  dsimp only [Pipe.lim]
  split
  · exact .same _ rfl h
  split
  · exact rw.writeControlFrame_cut h _
  · split
    · exact .same _ rfl h
    · exact rw.writeControlFrame_cut h _

/-! ### The writer -/

theorem Writer.openBidirectional_cut (w : Writer Chan) (h : w.rdwr.ops = chanOps) :
    Cut c w.rdwr.obj.out w.openBidirectional (Writer.openBidirectional (Pipe.lim c w)) := by
  unfold Writer.openBidirectional
  dsimp only [Pipe.lim]
  split
  · exact .same _ rfl h
  refine (w.rdwr.writeControlFrame_cut h _).bind fun ⟨res, rw⟩ _ h => ?_
  dsimp only [Pipe.lim]
  split
  · exact .same _ rfl h
  refine (rw.readControl_cut h _ _).bind fun ⟨res, acc, rw⟩ _ h => ?_
  dsimp only [Pipe.lim]
  split
  · exact .same _ rfl h
  cases acc with
  | none => exact .stuck _ (by simp) _
  | some acc =>
    dsimp only
    split
    · exact .same _ rfl h
    · unfold Writer.sendStart
      dsimp only
      split
      · exact .same _ rfl h
      refine (rw.writeControlFrame_cut h _).bind fun ⟨res, rw⟩ _ h => ?_
      exact .same _ rfl h

theorem Writer.open_cut (w : Writer Chan) (h : w.rdwr.ops = chanOps) :
    Cut c w.rdwr.obj.out w.open (Writer.open (Pipe.lim c w)) := by
  unfold Writer.open
  dsimp only [Pipe.lim]
  split
  · exact .same _ rfl h
  refine (w.rdwr.open_cut h).bind fun ⟨res, rw⟩ _ h => ?_
  have h : rw.ops = chanOps := h
  dsimp only [Pipe.lim]
  split
  · exact .same _ rfl h
  rw [h, if_pos (by rfl), if_pos (by rfl)]
  refine (Writer.openBidirectional_cut { w with rdwr := rw } h).bind fun ⟨res, w⟩ _ h => ?_
  dsimp only [Pipe.lim]
  split
  · exact .same _ rfl h
  · exact .same _ rfl h

theorem Writer.maybeOpen_cut (w : Writer Chan) (h : w.rdwr.ops = chanOps) :
    Cut c w.rdwr.obj.out w.maybeOpen (Writer.maybeOpen (Pipe.lim c w)) := by
  unfold Writer.maybeOpen
  dsimp only [Pipe.lim]
  split
  · exact w.open_cut h
  · exact .same _ rfl h

theorem Writer.close_cut (w : Writer Chan) (h : w.rdwr.ops = chanOps) :
    Cut c w.rdwr.obj.out w.close (Writer.close (Pipe.lim c w)) := by
  unfold Writer.close
  dsimp only [Pipe.lim]
  split
  · exact .same _ rfl h
  refine (w.rdwr.writeControl_cut h _ _).bind fun ⟨res, rw⟩ _ h => ?_
  have h : rw.ops = chanOps := h
  dsimp only [Pipe.lim]
  split
  · refine (rw.close_cut h).bind fun ⟨res, rw⟩ _ h => ?_
    exact .same _ rfl h
  rw [h, if_pos (by rfl), if_pos (by rfl)]
  refine (rw.readControl_cut h _ _).bind fun ⟨res, fin, rw⟩ _ h => ?_
  dsimp only [Pipe.lim]
  split <;>
  · refine (rw.close_cut h).bind fun ⟨res, rw⟩ _ h => ?_
    exact .same _ rfl h

theorem iovLoop_inert (iov : List Bytes) (i idx : Nat) (acc : List Bytes) :
    Inert (Writer.iovLoop iov i idx acc) := by
  induction iov generalizing i idx acc with
  | nil => exact .ok _
  | cons d rest ih =>
    unfold Writer.iovLoop
    split
    · exact .ub _
    split
    · exact .ub _
    · exact ih _ _ _

theorem Writer.writeIov_cut (w : Writer Chan) (h : w.rdwr.ops = chanOps) (iov : List Bytes) :
    Cut c w.rdwr.obj.out (w.writeIov iov) (Writer.writeIov (Pipe.lim c w) iov) := by
  unfold Writer.writeIov
  refine .inert (iovLoop_inert _ _ _ _) fun iov _ => ?_
  refine (w.rdwr.write_cut h iov).bind fun ⟨res, rw⟩ _ h => ?_
  exact .same _ rfl h

theorem Writer.writeIovStupid_cut (fuel : Nat) (w : Writer Chan) (h : w.rdwr.ops = chanOps)
    (iov : List Bytes) :
    Cut c w.rdwr.obj.out (Writer.writeIovStupid fuel w iov)
      (Writer.writeIovStupid fuel (Pipe.lim c w) iov) := by
  induction fuel generalizing w iov with
  | zero =>
    unfold Writer.writeIovStupid
    split
    · exact .stuck _ (by simp) _
    · exact .same _ rfl h
  | succ fuel ih =>
    unfold Writer.writeIovStupid
    split
    · refine (w.writeIov_cut h _).bind fun ⟨res, w⟩ _ h => ?_
      dsimp only [Pipe.lim]
      split
      · exact .same _ rfl h
      · exact ih w h _
    · exact .same _ rfl h

theorem Writer.writev_cut (w : Writer Chan) (h : w.rdwr.ops = chanOps) (iov : List Bytes) :
    Cut c w.rdwr.obj.out (w.writev iov) (Writer.writev (Pipe.lim c w) iov) := by
  unfold Writer.writev
  split
  · exact .same _ rfl h
  refine (w.maybeOpen_cut h).bind fun ⟨res, w⟩ _ h => ?_
  dsimp only [Pipe.lim]
  split
  · exact .same _ rfl h
  split
  · split
    · exact .stuck _ (by simp) _
    split
    · exact w.writeIov_cut h iov
    · exact w.writeIovStupid_cut _ h iov
  · exact .same _ rfl h

theorem Writer.step_cut (w : Writer Chan) (h : w.rdwr.ops = chanOps) (op : WOp) :
    Cut c w.rdwr.obj.out (w.step op) (Writer.step (Pipe.lim c w) op) := by
  cases op with
  | opn => exact w.open_cut h
  | write d => exact w.writev_cut h [d]
  | writev ds => exact w.writev_cut h ds
  | close => exact w.close_cut h
  | getControl t =>
    unfold Writer.step Writer.getControl
    refine Cut.bind (α := Res × Option Control × Writer Chan) ?_ fun ⟨res, _, w⟩ _ h => .same _ rfl h
    refine (w.maybeOpen_cut h).bind fun ⟨res, w⟩ _ h => ?_
    dsimp only [Pipe.lim]
    repeat' split
    all_goals exact .same _ rfl h

theorem Writer.run_cut (ops : List WOp) (w : Writer Chan) (h : w.rdwr.ops = chanOps) :
    Cut c w.rdwr.obj.out (w.run ops) (Writer.run (Pipe.lim c w) ops) := by
  induction ops generalizing w with
  | nil => exact .same _ rfl h
  | cons op ops ih =>
    unfold Writer.run
    refine (w.step_cut h op).bind fun ⟨res, w⟩ _ h => ?_
    dsimp only [Pipe.lim]
    refine (ih w h).bind fun ⟨rs, w⟩ _ h => ?_
    exact .same _ rfl h

/-! ### The reader -/

theorem Reader.openUnidirectional_cut (r : Reader Chan) (h : r.rdwr.ops = chanOps) :
    Cut c r.rdwr.obj.out r.openUnidirectional (Reader.openUnidirectional (Pipe.lim c r)) := by
  unfold Reader.openUnidirectional
  refine (r.rdwr.readControl_cut h _ _).bind fun ⟨res, st, rw⟩ _ h => ?_
  dsimp only [Pipe.lim]
  split
  · exact .same _ rfl h
  cases st with
  | none => exact .stuck _ (by simp) _
  | some st =>
    dsimp only
    split
    · exact .same _ rfl h
    · exact .same _ rfl h

theorem Reader.openBidirectional_cut (r : Reader Chan) (h : r.rdwr.ops = chanOps) :
    Cut c r.rdwr.obj.out r.openBidirectional (Reader.openBidirectional (Pipe.lim c r)) := by
  unfold Reader.openBidirectional
  refine (r.rdwr.readControl_cut h _ _).bind fun ⟨res, rdy, rw⟩ _ h => ?_
  dsimp only [Pipe.lim]
  split
  · exact .same _ rfl h
  cases rdy with
  | none => exact .stuck _ (by simp) _
  | some rdy =>
    dsimp only
    split
    · exact .same _ rfl h
    refine (rw.writeControlFrame_cut h _).bind fun ⟨res, rw⟩ _ h => ?_
    dsimp only [Pipe.lim]
    split
    · exact .same _ rfl h
    · exact Reader.openUnidirectional_cut { r with
        rdwr := rw, ready := some rdy
        accept := some (acceptLoop rdy r.cts ((freshControl r.accept).setType T_ACCEPT).snd) } h

theorem Reader.open_cut (r : Reader Chan) (h : r.rdwr.ops = chanOps) :
    Cut c r.rdwr.obj.out r.open (Reader.open (Pipe.lim c r)) := by
  unfold Reader.open
  dsimp only [Pipe.lim]
  split
  · exact .same _ rfl h
  refine (r.rdwr.open_cut h).bind fun ⟨res, rw⟩ _ h => ?_
  have h : rw.ops = chanOps := h
  dsimp only [Pipe.lim]
  split
  · exact .same _ rfl h
  rw [h, if_pos (by rfl), if_pos (by rfl)]
  refine (Reader.openBidirectional_cut { r with rdwr := rw } h).bind fun ⟨res, r⟩ _ h => ?_
  dsimp only [Pipe.lim]
  split
  · exact .same _ rfl h
  · exact .same _ rfl h

theorem growCap_inert (fuel a n need : Nat) : Inert (growCap fuel a n need) := by
  induction fuel generalizing a with
  | zero => exact .fuel
  | succ fuel ih =>
    unfold growCap
    split
    · exact ih _
    · exact .ok _

theorem Reader.dataFrame_cut (r : Reader Chan) (h : r.rdwr.ops = chanOps) (len : Nat) :
    Cut c r.rdwr.obj.out (r.dataFrame len) (Reader.dataFrame (Pipe.lim c r) len) := by
  unfold Reader.dataFrame
  dsimp only [Pipe.lim]
  split
  · exact .same _ rfl h
  have e : ∀ rw : Rdwr Chan, Reader.reserve { r with rdwr := rw } len =
      (growCap (len + (if 0 < r.bufN then 0 else r.bufN) + 1) r.bufCap (if 0 < r.bufN then 0 else r.bufN)
        len).bind fun cap => .ok { r with
          rdwr := rw, bufN := (if 0 < r.bufN then 0 else r.bufN), bufCap := cap } := fun _ => rfl
  have e1 := e r.rdwr
  have e2 := e { r.rdwr with ops := pipeOps c }
  rw [e2]
  rw [show r.reserve len = _ from e1]
  generalize (if 0 < r.bufN then 0 else r.bufN) = b
  generalize hg : growCap _ _ _ _ = g
  have hi : Inert g := hg ▸ growCap_inert _ _ _ _
  cases g with
  | error e => exact .stuck e (fun p hp => hi p (by rw [hp])) _
  | ok cap =>
    simp only [Except.bind, Exec.ok_bind]
    split
    · exact .stuck _ (by simp) _
    refine (r.rdwr.read_cut h len).bind fun ⟨res, bs, rw⟩ _ h => ?_
    dsimp only [Pipe.lim]
    split
    · exact .same _ rfl h
    · exact .same _ rfl h

theorem Reader.nextData_cut (fuel : Nat) (r : Reader Chan) (h : r.rdwr.ops = chanOps) :
    Cut c r.rdwr.obj.out (Reader.nextData fuel r) (Reader.nextData fuel (Pipe.lim c r)) := by
  induction fuel generalizing r with
  | zero => exact .stuck _ (by simp) _
  | succ fuel ih =>
    unfold Reader.nextData
    refine Cut.bind (α := Res × Nat × Reader Chan) ?_ fun ⟨res, len, r⟩ _ h => ?_
    · unfold Reader.readBe32
      refine (r.rdwr.read_cut h 4).bind fun ⟨res, tmp, rw⟩ _ h => ?_
      dsimp only [Pipe.lim]
      split
      · exact .same _ rfl h
      · exact .same _ rfl h
    dsimp only [Pipe.lim]
    split
    · exact .same _ rfl h
    split
    · exact r.dataFrame_cut h len
    refine (r.rdwr.readControlFrame_cut h _ _).bind fun ⟨res, tmp, ty, rw⟩ _ h => ?_
    dsimp only [Pipe.lim]
    split
    · exact .same _ rfl h
    split
    · exact .same _ rfl h
    · exact ih { r with rdwr := rw, tmp := tmp } h

theorem Reader.read_cut (fuel : Nat) (r : Reader Chan) (h : r.rdwr.ops = chanOps) :
    Cut c r.rdwr.obj.out (Reader.read fuel r) (Reader.read fuel (Pipe.lim c r)) := by
  unfold Reader.read
  refine Cut.bind (α := Res × Reader Chan) ?_ fun ⟨res, r⟩ _ h => ?_
  · unfold Reader.maybeOpen
    dsimp only [Pipe.lim]
    split
    · exact r.open_cut h
    · exact .same _ rfl h
  dsimp only [Pipe.lim]
  split
  · exact .same _ rfl h
  split
  · exact r.nextData_cut fuel h
  split
  · exact .same _ rfl h
  · exact .same _ rfl h

theorem Reader.readLoop_cut (fuel n : Nat) (r : Reader Chan) (h : r.rdwr.ops = chanOps) :
    Cut c r.rdwr.obj.out (Reader.readLoop fuel n r) (Reader.readLoop fuel n (Pipe.lim c r)) := by
  induction n generalizing r with
  | zero => exact .same _ rfl h
  | succ n ih =>
    unfold Reader.readLoop
    refine (r.read_cut fuel h).bind fun ⟨res, d, r⟩ _ h => ?_
    dsimp only [Pipe.lim]
    split
    · refine (ih r h).bind fun ⟨ds, last, r⟩ _ h => ?_
      exact .same _ rfl h
    · exact .same _ rfl h

theorem Reader.close_cut (r : Reader Chan) (h : r.rdwr.ops = chanOps) :
    Cut c r.rdwr.obj.out r.close (Reader.close (Pipe.lim c r)) := by
  unfold Reader.close
  dsimp only [Pipe.lim]
  split
  · exact .same _ rfl h
  rw [h, if_pos (by rfl), if_pos (by rfl)]
  refine (r.rdwr.writeControl_cut h _ _).bind fun ⟨res, rw⟩ _ h => ?_
  dsimp only [Pipe.lim]
  split <;>
  · refine (rw.close_cut h).bind fun ⟨res, rw⟩ _ h => ?_
    exact .same _ rfl h

end

end Fstrm
