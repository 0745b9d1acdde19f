import Verif.Spec.PeerMemory
import Verif.Spec.History
import Verif.Lemmas.ReaderSound

/-!
# Helper lemmas for C133
-/

set_option autoImplicit false

namespace Fstrm

open Spec

variable {σ : Type}

/-- Every result of the computation satisfies `P`. -/
def EachOk {α : Type} (P : α → Prop) (x : Exec α) : Prop := ∀ a, x = .ok a → P a

theorem EachOk.ok {α : Type} {P : α → Prop} {a : α} (h : P a) : EachOk P (.ok a) := by
  intro b e; cases e; exact h

theorem EachOk.error {α : Type} {P : α → Prop} {e : Stuck} : EachOk P (.error e) := by
  intro b e; cases e

theorem EachOk.bind {α β : Type} {P : α → Prop} {Q : β → Prop} {x : Exec α} {f : α → Exec β}
    (hx : EachOk P x) (hf : ∀ a, P a → EachOk Q (f a)) : EachOk Q (x >>= f) := by
  intro b e
  obtain ⟨a, e1, e2⟩ := Exec.bind_eq_ok.1 e
  exact hf a (hx a e1) b e2

theorem EachOk.any {α : Type} (x : Exec α) : EachOk (fun _ => True) x := fun _ _ => trivial

theorem typeBytes_append (a b : List Bytes) : typeBytes (a ++ b) = typeBytes a + typeBytes b := by
  simp [typeBytes]

theorem typeBytes_cons (a : Bytes) (b : List Bytes) :
    typeBytes (a :: b) = 8 + a.length + typeBytes b := by
  simp [typeBytes]

theorem loadBe32_post (cur : RCur) :
    EachOk (fun o => ∀ v c, o = some (v, c) → c.len + 4 = cur.len) (fsLoadBe32 cur) := by
  unfold fsLoadBe32
  split
  · exact .ok (by intro v c e; cases e)
  · refine (EachOk.any _).bind fun r _ => .ok ?_
    intro v c e
    cases e
    show cur.len - 4 + 4 = cur.len
    omega

theorem loadBytes_post (n : Nat) (cur : RCur) :
    EachOk (fun o => ∀ bs c, o = some (bs, c) → c.len + bs.length ≤ cur.len) (fsLoadBytes n cur) := by
  unfold fsLoadBytes
  split
  · exact .ok (by intro v c e; cases e)
  · refine EachOk.bind (P := fun r : Bytes × Bytes => r.1.length ≤ n) ?_ fun r hr => .ok ?_
    · unfold memRead
      intro r e
      split at e
      · cases e
      · cases e; simp only [List.length_take]; omega
    · intro v c e
      cases e
      show cur.len - n + r.1.length ≤ cur.len
      omega

theorem decodeFields_post (fuel : Nat) (cur : RCur) (c : Control) :
    EachOk (fun r => typeBytes r.2.cts ≤ typeBytes c.cts + cur.len)
      (Control.decodeFields fuel cur c) := by
  induction fuel generalizing cur c with
  | zero => exact .error
  | succ fuel ih =>
    unfold Control.decodeFields
    split
    · exact .ok (Nat.le_add_right _ _)
    · refine (loadBe32_post _).bind fun o ho => ?_
      cases o with
      | none => exact .ok (Nat.le_add_right _ _)
      | some o =>
        have h1 := ho _ _ rfl
        dsimp only
        split
        · refine (loadBe32_post _).bind fun o2 ho2 => ?_
          cases o2 with
          | none => exact .ok (Nat.le_add_right _ _)
          | some o2 =>
            have h2 := ho2 _ _ rfl
            dsimp only
            split
            · exact .ok (Nat.le_add_right _ _)
            · split
              · exact .ok (Nat.le_add_right _ _)
              · refine (loadBytes_post _ _).bind fun o3 ho3 => ?_
                cases o3 with
                | none => exact .ok (Nat.le_add_right _ _)
                | some o3 =>
                  have h3 := ho3 _ _ rfl
                  intro r e
                  have h4 := ih _ _ r e
                  simp only [typeBytes_append, typeBytes_cons] at h4
                  have h5 : typeBytes [] = 0 := rfl
                  omega
        · exact .ok (Nat.le_add_right _ _)

theorem decode_post (c : Control) (mem : Bytes) (len : Nat) :
    EachOk (fun r => typeBytes r.2.cts ≤ 508) (c.decode mem len false) := by
  have h0 : typeBytes c.reset.cts = 0 := rfl
  unfold Control.decode
  dsimp only
  rw [if_neg (by decide)]
  split
  · exact .ok (by rw [h0]; omega)
  · rename_i hl
    unfold Control.decodeBody
    refine (loadBe32_post _).bind fun o ho => ?_
    cases o with
    | none => exact .ok (by rw [h0]; omega)
    | some o =>
      have h1 := ho _ _ rfl
      dsimp only at h1 ⊢
      split
      · intro r e
        have h2 := decodeFields_post _ _ _ r e
        dsimp only at h2
        unfold FRAME_LENGTH_MAX at hl
        omega
      · exact .ok (by rw [h0]; omega)

theorem readControlBody_post (rw : Rdwr σ) (c : Control) (h : typeBytes c.cts ≤ 508) :
    EachOk (fun r => typeBytes r.2.1.cts ≤ 508) (rw.readControlBody c) := by
  unfold Rdwr.readControlBody
  refine (EachOk.any _).bind fun r _ => ?_
  dsimp only
  split
  · exact .ok h
  · split
    · exact .ok h
    · split
      · exact .error
      · refine (EachOk.any _).bind fun r _ => ?_
        obtain ⟨res, frame, rw⟩ := r
        dsimp only
        split
        · exact .ok h
        · refine (decode_post _ _ _).bind fun r hr => ?_
          obtain ⟨res, c2⟩ := r
          dsimp only
          split
          · exact .ok hr
          · exact .ok hr

theorem readControlFrame_post (rw : Rdwr σ) (c : Control) (b : Bool) (h : typeBytes c.cts ≤ 508) :
    EachOk (fun r => typeBytes r.2.1.cts ≤ 508) (rw.readControlFrame c b) := by
  unfold Rdwr.readControlFrame
  split
  · refine (EachOk.any _).bind fun r _ => ?_
    dsimp only
    split
    · exact .ok h
    · split
      · exact .ok h
      · exact readControlBody_post _ _ h
  · exact readControlBody_post _ _ h

theorem keptBytes_getD (c : Option Control) : typeBytes (c.getD Control.init).cts = keptBytes c := by
  cases c <;> rfl

theorem readControl_post (rw : Rdwr σ) (c : Option Control) (t : Nat) (h : keptBytes c ≤ 508) :
    EachOk (fun r => keptBytes r.2.1 ≤ 508) (rw.readControl c t) := by
  unfold Rdwr.readControl
  refine (readControlFrame_post rw _ true (by rw [keptBytes_getD]; exact h)).bind fun r hr => ?_
  dsimp only
  split
  · exact .ok hr
  · split
    · exact .ok hr
    · exact .ok hr

/-! ### Readers -/

/-- The control objects of a reader are small. -/
structure SmallR (cts : List Bytes) (r : Reader σ) : Prop where
  own : r.cts = cts
  start : keptBytes r.start ≤ 508
  stop : keptBytes r.stop ≤ 508
  ready : keptBytes r.ready ≤ 508
  tmp : keptBytes r.tmp ≤ 508
  accept : keptBytes r.accept ≤ typeBytes cts

variable {cts : List Bytes}

theorem SmallR.openUnidirectional {r : Reader σ} (h : SmallR cts r) :
    EachOk (fun x => SmallR cts x.2) r.openUnidirectional := by
  unfold Reader.openUnidirectional
  refine (readControl_post _ _ _ h.start).bind fun x hx => ?_
  have h' : ∀ st (rd : Rdwr σ), SmallR cts { r with rdwr := rd, start := x.2.1, state := st } :=
    fun _ _ => ⟨h.own, hx, h.stop, h.ready, h.tmp, h.accept⟩
  obtain ⟨res, start, rw⟩ := x
  dsimp only at h' ⊢
  split
  · exact .ok (h' r.state _)
  · split
    · exact .error
    · split
      · exact .ok (h' r.state _)
      · exact .ok (h' _ _)

theorem acceptLoop_bytes (ready : Control) (cts : List Bytes) (acc : Control) :
    typeBytes (Reader.acceptLoop ready cts acc).cts ≤ typeBytes acc.cts + typeBytes cts := by
  induction cts generalizing acc with
  | nil => exact Nat.le_add_right _ _
  | cons ct rest ih =>
    unfold Reader.acceptLoop
    rw [typeBytes_cons]
    split
    · have := ih (acc.addCt ct).2
      have e : typeBytes (acc.addCt ct).2.cts = typeBytes acc.cts + (8 + ct.length) := by
        simp [Control.addCt, typeBytes]
      omega
    · have := ih acc
      omega

theorem freshControl_cts (c : Option Control) : (freshControl c).cts = [] := by
  cases c <;> rfl

theorem setType_cts (c : Control) (t : Nat) : (c.setType t).2.cts = c.cts := by
  unfold Control.setType; split <;> rfl

theorem SmallR.openBidirectional {r : Reader σ} (h : SmallR cts r) :
    EachOk (fun x => SmallR cts x.2) r.openBidirectional := by
  unfold Reader.openBidirectional
  refine (readControl_post _ _ _ h.ready).bind fun x hx => ?_
  obtain ⟨res, ready, rw⟩ := x
  have h' : ∀ (rd : Rdwr σ), SmallR cts { r with rdwr := rd, ready := ready } :=
    fun _ => ⟨h.own, h.start, h.stop, hx, h.tmp, h.accept⟩
  dsimp only at h' ⊢
  split
  · exact .ok (h' _)
  · split
    · exact .error
    · rename_i rdy
      have e : typeBytes ((freshControl r.accept).setType T_ACCEPT).2.cts = 0 := by
        rw [setType_cts, freshControl_cts]; rfl
      have h2 : ∀ (rd : Rdwr σ) (acc : Control), typeBytes acc.cts ≤ typeBytes cts →
          SmallR cts { r with rdwr := rd, ready := some rdy, accept := some acc } :=
        fun _ acc ha => ⟨h.own, h.start, h.stop, hx, h.tmp, ha⟩
      split
      · exact .ok (h2 _ _ (by omega))
      · have e2 := acceptLoop_bytes rdy r.cts ((freshControl r.accept).setType T_ACCEPT).2
        have e3 : typeBytes r.cts = typeBytes cts := by rw [h.own]
        refine (EachOk.any _).bind fun y _ => ?_
        obtain ⟨res2, rw2⟩ := y
        have h3 := h2 rw2 _ (show typeBytes (Reader.acceptLoop rdy r.cts
          ((freshControl r.accept).setType T_ACCEPT).2).cts ≤ typeBytes cts by omega)
        dsimp only
        split
        · exact .ok h3
        · exact h3.openUnidirectional

theorem SmallR.open {r : Reader σ} (h : SmallR cts r) : EachOk (fun x => SmallR cts x.2) r.open := by
  unfold Reader.open
  split
  · exact .ok h
  · refine (EachOk.any _).bind fun y _ => ?_
    obtain ⟨res, rw⟩ := y
    have h1 : SmallR cts { r with rdwr := rw } :=
      ⟨h.own, h.start, h.stop, h.ready, h.tmp, h.accept⟩
    dsimp only
    split
    · exact .ok h1
    · refine EachOk.bind (P := fun x => SmallR cts x.2) ?_ fun x hx => ?_
      · split
        · exact h1.openBidirectional
        · exact h1.openUnidirectional
      · obtain ⟨res2, r2⟩ := x
        dsimp only at hx ⊢
        split
        · exact .ok hx
        · exact .ok ⟨hx.own, hx.start, hx.stop, hx.ready, hx.tmp, hx.accept⟩

theorem SmallR.maybeOpen {r : Reader σ} (h : SmallR cts r) :
    EachOk (fun x => SmallR cts x.2) r.maybeOpen := by
  unfold Reader.maybeOpen
  split
  · exact h.open
  · exact .ok h

theorem SmallR.dataFrame {r : Reader σ} (h : SmallR cts r) (len : Nat) :
    EachOk (fun x => SmallR cts x.2.2) (r.dataFrame len) := by
  unfold Reader.dataFrame
  split
  · exact .ok ⟨h.own, h.start, h.stop, h.ready, h.tmp, h.accept⟩
  · refine EachOk.bind (P := SmallR cts) ?_ fun r2 h2 => ?_
    · unfold Reader.reserve
      exact (EachOk.any _).bind fun _ _ => .ok ⟨h.own, h.start, h.stop, h.ready, h.tmp, h.accept⟩
    · split
      · exact .error
      · refine (EachOk.any _).bind fun y _ => ?_
        dsimp only
        split <;> exact .ok ⟨h2.own, h2.start, h2.stop, h2.ready, h2.tmp, h2.accept⟩

theorem SmallR.nextData (fuel : Nat) {r : Reader σ} (h : SmallR cts r) :
    EachOk (fun x => SmallR cts x.2.2) (Reader.nextData fuel r) := by
  induction fuel generalizing r with
  | zero => exact .error
  | succ fuel ih =>
    unfold Reader.nextData
    refine EachOk.bind (P := fun x => SmallR cts x.2.2) ?_ fun x hx => ?_
    · unfold Reader.readBe32
      refine (EachOk.any _).bind fun y _ => ?_
      dsimp only
      split <;> exact .ok ⟨h.own, h.start, h.stop, h.ready, h.tmp, h.accept⟩
    · obtain ⟨res, len, r1⟩ := x
      dsimp only at hx ⊢
      split
      · exact .ok ⟨hx.own, hx.start, hx.stop, hx.ready, hx.tmp, hx.accept⟩
      · split
        · exact hx.dataFrame _
        · refine (readControlFrame_post _ _ _ (by rw [keptBytes_getD]; exact hx.tmp)).bind
            fun y hy => ?_
          obtain ⟨res2, tmp, type, rw⟩ := y
          dsimp only at hy ⊢
          split
          · exact .ok ⟨hx.own, hx.start, hx.stop, hx.ready, hy, hx.accept⟩
          · split
            · exact .ok ⟨hx.own, hx.start, hy, hx.ready, Nat.zero_le _, hx.accept⟩
            · exact ih ⟨hx.own, hx.start, hx.stop, hx.ready, hy, hx.accept⟩

theorem SmallR.close {r : Reader σ} (h : SmallR cts r) : EachOk (fun x => SmallR cts x.2) r.close := by
  have h' : ∀ st (rd : Rdwr σ), SmallR cts { r with rdwr := rd, state := st } :=
    fun _ _ => ⟨h.own, h.start, h.stop, h.ready, h.tmp, h.accept⟩
  unfold Reader.close
  split
  · exact .ok h
  · dsimp only
    split
    · refine (EachOk.any _).bind fun y _ => ?_
      obtain ⟨res, rw⟩ := y
      dsimp only
      split
      · exact (EachOk.any _).bind fun y _ => .ok (h' _ _)
      · exact (EachOk.any _).bind fun y _ => .ok (h' _ _)
    · exact (EachOk.any _).bind fun y _ => .ok (h' _ _)

theorem SmallR.step (fuel : Nat) {r : Reader σ} (h : SmallR cts r) (op : ROp) :
    EachOk (fun x => SmallR cts x.2.2) (r.step fuel op) := by
  cases op with
  | opn => exact h.open.bind fun x hx => .ok hx
  | read =>
    refine h.maybeOpen.bind fun x hx => ?_
    obtain ⟨res, r1⟩ := x
    dsimp only at hx ⊢
    split
    · exact .ok hx
    · split
      · exact hx.nextData _
      · split <;> exact .ok hx
  | getControl t =>
    refine EachOk.bind (P := fun x : Res × Option Control × Reader σ => SmallR cts x.2.2) ?_
      fun x hx => .ok hx
    refine h.maybeOpen.bind fun x hx => ?_
    obtain ⟨res, r1⟩ := x
    dsimp only at hx ⊢
    repeat' split
    all_goals exact .ok hx
  | close => exact h.close.bind fun x hx => .ok hx

theorem SmallR.run (fuel : Nat) (ops : List ROp) {r : Reader σ} (h : SmallR cts r) :
    EachOk (fun x => SmallR cts x.2) (r.run fuel ops) := by
  induction ops generalizing r with
  | nil => exact .ok h
  | cons op rest ih =>
    exact (h.step fuel op).bind fun x hx => (ih hx).bind fun y hy => .ok hy

/-! ### Writers -/

/-- The control objects of a writer are small. -/
structure SmallW (cts : List Bytes) (w : Writer σ) : Prop where
  own : w.cts = cts
  accept : keptBytes w.accept ≤ 508
  finish : keptBytes w.finish ≤ 508
  ready : keptBytes w.ready ≤ typeBytes cts
  start : keptBytes w.start ≤ typeBytes cts

theorem typeBytes_mem {a : Bytes} {l : List Bytes} (h : a ∈ l) : 8 + a.length ≤ typeBytes l := by
  induction l with
  | nil => cases h
  | cons b l ih =>
    rw [typeBytes_cons]
    cases h with
    | head => omega
    | tail _ h => have := ih h; omega

theorem addAllCts_cts (c : Control) (cts : List Bytes) : (addAllCts c cts).cts = c.cts ++ cts := by
  induction cts generalizing c with
  | nil => simp [addAllCts]
  | cons ct rest ih =>
    have := ih (c.addCt ct).2
    simp only [addAllCts, List.foldl_cons, Control.addCt] at this ⊢
    rw [this]; simp

theorem startTypes (c : Option Control) (ct : Option Bytes) :
    keptBytes (some (match ct with
      | none => ((freshControl c).setType T_START).2
      | some ct => (((freshControl c).setType T_START).2.addCt ct).2)) =
      typeBytes ct.toList := by
  cases ct <;> simp [keptBytes, Control.addCt, setType_cts, freshControl_cts]

theorem SmallW.sendStart {w : Writer σ} (h : SmallW cts w) (ct : Option Bytes)
    (hct : ∀ x, ct = some x → x ∈ cts) : EachOk (fun x => SmallW cts x.2) (w.sendStart ct) := by
  have e0 : keptBytes (some ((freshControl w.start).setType T_START).2) = 0 := by
    simp [keptBytes, setType_cts, freshControl_cts, typeBytes]
  have e1 := startTypes w.start ct
  have e2 : typeBytes ct.toList ≤ typeBytes cts := by
    cases ct with
    | none => exact Nat.zero_le _
    | some x => have := typeBytes_mem (hct x rfl); simpa [typeBytes] using this
  unfold Writer.sendStart
  dsimp only
  split
  · exact .ok ⟨h.own, h.accept, h.finish, h.ready, by rw [e0]; omega⟩
  · refine (EachOk.any _).bind fun y _ => .ok ⟨h.own, h.accept, h.finish, h.ready, ?_⟩
    rw [← e1] at e2
    cases ct <;> exact e2

theorem SmallW.openUnidirectional {w : Writer σ} (h : SmallW cts w) :
    EachOk (fun x => SmallW cts x.2) w.openUnidirectional := by
  have hs := h.sendStart (w.cts.head?) (by
    intro x e; rw [← h.own]; exact List.mem_of_mem_head? e)
  have e : w.openUnidirectional = w.sendStart w.cts.head? := by
    unfold Writer.openUnidirectional Writer.sendStart
    cases w.cts <;> rfl
  rw [e]; exact hs

theorem writer_matchLoop_mem (acc : Control) (cts : List Bytes) (m : Bool) (x : Bytes)
    (h : (Writer.matchLoop acc cts m).2 = some x) : x ∈ cts := by
  induction cts generalizing m with
  | nil => cases h
  | cons ct rest ih =>
    unfold Writer.matchLoop at h
    split at h
    · cases h; exact List.mem_cons_self
    · exact List.mem_cons_of_mem _ (ih _ h)

theorem SmallW.openBidirectional {w : Writer σ} (h : SmallW cts w) :
    EachOk (fun x => SmallW cts x.2) w.openBidirectional := by
  unfold Writer.openBidirectional
  dsimp only
  have e0 : ((freshControl w.ready).setType T_READY).2.cts = [] := by
    rw [setType_cts, freshControl_cts]
  have e1 : keptBytes (some (addAllCts ((freshControl w.ready).setType T_READY).2 w.cts)) =
      typeBytes cts := by
    simp only [keptBytes, Option.map_some, Option.getD_some, addAllCts_cts, e0, h.own, List.nil_append]
  split
  · exact .ok ⟨h.own, h.accept, h.finish, by simp [keptBytes, e0, typeBytes], h.start⟩
  · refine (EachOk.any _).bind fun y _ => ?_
    obtain ⟨res, rw⟩ := y
    dsimp only
    split
    · exact .ok ⟨h.own, h.accept, h.finish, Nat.le_of_eq e1, h.start⟩
    · refine (readControl_post _ _ _ h.accept).bind fun z hz => ?_
      obtain ⟨res, acc, rw⟩ := z
      dsimp only at hz ⊢
      have h2 : SmallW cts { w with
          ready := some (addAllCts ((freshControl w.ready).setType T_READY).2 w.cts)
          rdwr := rw
          accept := acc } := ⟨h.own, hz, h.finish, Nat.le_of_eq e1, h.start⟩
      split
      · exact .ok h2
      · split
        · exact .error
        · split
          · exact .ok h2
          · refine h2.sendStart _ ?_
            intro x e
            rw [← h.own]
            exact writer_matchLoop_mem _ _ _ x e

theorem SmallW.open {w : Writer σ} (h : SmallW cts w) : EachOk (fun x => SmallW cts x.2) w.open := by
  unfold Writer.open
  split
  · exact .ok h
  · refine (EachOk.any _).bind fun y _ => ?_
    obtain ⟨res, rw⟩ := y
    have h1 : SmallW cts { w with rdwr := rw } := ⟨h.own, h.accept, h.finish, h.ready, h.start⟩
    dsimp only
    split
    · exact .ok h1
    · refine EachOk.bind (P := fun x => SmallW cts x.2) ?_ fun x hx => ?_
      · split
        · exact h1.openBidirectional
        · exact h1.openUnidirectional
      · obtain ⟨res2, r2⟩ := x
        dsimp only at hx ⊢
        split
        · exact .ok hx
        · exact .ok ⟨hx.own, hx.accept, hx.finish, hx.ready, hx.start⟩

theorem SmallW.maybeOpen {w : Writer σ} (h : SmallW cts w) :
    EachOk (fun x => SmallW cts x.2) w.maybeOpen := by
  unfold Writer.maybeOpen
  split
  · exact h.open
  · exact .ok h

theorem SmallW.close {w : Writer σ} (h : SmallW cts w) : EachOk (fun x => SmallW cts x.2) w.close := by
  have h' : ∀ st (rd : Rdwr σ), SmallW cts { w with rdwr := rd, state := st } :=
    fun _ _ => ⟨h.own, h.accept, h.finish, h.ready, h.start⟩
  unfold Writer.close
  split
  · exact .ok h
  · dsimp only
    refine (EachOk.any _).bind fun y _ => ?_
    obtain ⟨res, rw⟩ := y
    dsimp only
    split
    · exact (EachOk.any _).bind fun y _ => .ok (h' _ _)
    · split
      · refine (readControl_post _ _ _ h.finish).bind fun z hz => ?_
        obtain ⟨res, fin, rw2⟩ := z
        have h2 : ∀ st (rd : Rdwr σ), SmallW cts { w with rdwr := rd, state := st, finish := fin } :=
          fun _ _ => ⟨h.own, h.accept, hz, h.ready, h.start⟩
        dsimp only
        split
        · exact (EachOk.any _).bind fun y _ => .ok (h2 _ _)
        · exact (EachOk.any _).bind fun y _ => .ok (h2 _ _)
      · exact (EachOk.any _).bind fun y _ => .ok (h' _ _)

theorem SmallW.writeIov {w : Writer σ} (h : SmallW cts w) (iov : List Bytes) :
    EachOk (fun x => SmallW cts x.2) (w.writeIov iov) := by
  unfold Writer.writeIov
  exact (EachOk.any _).bind fun _ _ => (EachOk.any _).bind fun _ _ =>
    .ok ⟨h.own, h.accept, h.finish, h.ready, h.start⟩

theorem SmallW.writeIovStupid (fuel : Nat) {w : Writer σ} (h : SmallW cts w) (iov : List Bytes) :
    EachOk (fun x => SmallW cts x.2) (Writer.writeIovStupid fuel w iov) := by
  induction fuel generalizing w iov with
  | zero =>
    unfold Writer.writeIovStupid
    split
    · exact .error
    · exact .ok h
  | succ fuel ih =>
    unfold Writer.writeIovStupid
    split
    · refine (h.writeIov _).bind fun x hx => ?_
      obtain ⟨res, w1⟩ := x
      dsimp only at hx ⊢
      split
      · exact .ok hx
      · exact ih hx _
    · exact .ok h

theorem SmallW.writev {w : Writer σ} (h : SmallW cts w) (iov : List Bytes) :
    EachOk (fun x => SmallW cts x.2) (w.writev iov) := by
  unfold Writer.writev
  split
  · exact .ok h
  · refine h.maybeOpen.bind fun x hx => ?_
    obtain ⟨res, w1⟩ := x
    dsimp only at hx ⊢
    split
    · exact .ok hx
    · split
      · split
        · exact .error
        · split
          · exact hx.writeIov _
          · exact hx.writeIovStupid _ _
      · exact .ok hx

theorem SmallW.step {w : Writer σ} (h : SmallW cts w) (op : WOp) :
    EachOk (fun x => SmallW cts x.2) (w.step op) := by
  cases op with
  | opn => exact h.open
  | write d => exact h.writev [d]
  | writev ds => exact h.writev _
  | getControl t =>
    refine EachOk.bind (P := fun x : Res × Option Control × Writer σ => SmallW cts x.2.2) ?_
      fun x hx => .ok hx
    refine h.maybeOpen.bind fun x hx => ?_
    obtain ⟨res, r1⟩ := x
    dsimp only at hx ⊢
    repeat' split
    all_goals exact .ok hx
  | close => exact h.close

theorem SmallW.run (ops : List WOp) {w : Writer σ} (h : SmallW cts w) :
    EachOk (fun x => SmallW cts x.2) (w.run ops) := by
  induction ops generalizing w with
  | nil => exact .ok h
  | cons op rest ih =>
    exact (h.step op).bind fun x hx => (ih hx).bind fun y hy => .ok hy

end Fstrm
