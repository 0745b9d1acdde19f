import Verif.Props.Handshake

/-!
# The control frames a writer or reader keeps
-/

set_option autoImplicit false

namespace Fstrm

open Spec (wrote received CType CFrame Item wires)

variable {σ : Type}

/-! ### Writer -/

/-- The frames a writer keeps while it is open are those of the last handshake. -/
def WKeeps (w : Writer σ) : Prop :=
  ∃ (pre : Bytes) (ct : Option Bytes) (ds : List Bytes), w.start = some ⟨T_START, ct.toList⟩ ∧
    (w.rdwr.ops.rd = none → ct = w.cts.head? ∧
      wrote w.rdwr.log = pre ++ CFrame.wire ⟨.start, ct.toList⟩ ++ ds.flatMap Spec.dataFrame) ∧
    (w.rdwr.ops.rd ≠ none → w.ready = some ⟨T_READY, w.cts⟩ ∧
      wrote w.rdwr.log = pre ++ CFrame.wire ⟨.ready, w.cts⟩ ++ CFrame.wire ⟨.start, ct.toList⟩ ++
        ds.flatMap Spec.dataFrame ∧
      ∃ acts, CFrame.WF ⟨.accept, acts⟩ ∧ w.accept = some ⟨T_ACCEPT, acts⟩ ∧
        CFrame.wire ⟨.accept, acts⟩ <:+ received w.rdwr.log)

/-- What holds between calls on a writer. -/
structure WKInv (w : Writer σ) : Prop where
  uni : w.rdwr.ops.rd = none → w.ready = none ∧ w.accept = none ∧ w.finish = none
  keeps : w.state = .opened → WKeeps w

theorem open_uni_null {w w' : Writer σ} {r : Res} (hu : w.rdwr.ops.rd = none)
    (h : w.open = .ok (r, w')) :
    w'.ready = w.ready ∧ w'.accept = w.accept ∧ w'.finish = w.finish := by
  unfold Writer.open at h
  split at h
  · cases h; exact ⟨rfl, rfl, rfl⟩
  · obtain ⟨⟨res, rw⟩, h1, h⟩ := Exec.bind_eq_ok.1 h
    have ho := (Rdwr.open_ok h1).1
    simp only at h
    split at h
    · cases h; exact ⟨rfl, rfl, rfl⟩
    · rw [ho, hu] at h
      simp only [Option.isSome_none, Bool.false_eq_true, if_false] at h
      obtain ⟨⟨res, w2⟩, h2, h⟩ := Exec.bind_eq_ok.1 h
      rw [openUnidirectional_eq] at h2
      obtain ⟨rw2, _, rfl⟩ := sendStart_ok h2
      simp only at h
      split at h <;> (cases h; exact ⟨rfl, rfl, rfl⟩)

theorem WKInv.open {w w' : Writer σ} {r : Res} (hw : WKInv w) (h : w.open = .ok (r, w')) : WKInv w' := by
  obtain ⟨f1, f2, f3, f4⟩ := open_frame h
  refine ⟨fun hu => ?_, fun hs => ?_⟩
  · rw [f2.ops] at hu
    obtain ⟨a, b, c⟩ := open_uni_null hu h
    rw [a, b, c]; exact hw.uni hu
  · by_cases hst : w.state = .opened
    · have : w' = w := by
        unfold Writer.open at h; rw [if_pos hst] at h; cases h; rfl
      subst this; exact hw.keeps hst
    · have hr : r = .success := by
        by_cases hr : r = .success
        · exact hr
        · rw [f4 hr] at hs; exact absurd hs hst
      subst hr
      by_cases hu : w.rdwr.ops.rd = none
      · obtain ⟨a, b, _⟩ := open_uni_success hu hst h
        refine ⟨wrote w.rdwr.log, w.cts.head?, [], b, fun _ => ⟨by rw [f1], by simp [a]⟩, fun hn => ?_⟩
        rw [f2.ops] at hn; exact absurd hu hn
      · obtain ⟨f, g1, _, g3, g4, g5, _, g7, g8, _, g10⟩ := open_bi_success hu hst h
        refine ⟨wrote w.rdwr.log, (Writer.matchLoop ⟨CType.accept.code, f.cts⟩ w.cts true).2, [], g8,
          fun hn => ?_, fun _ => ⟨by rw [f1]; exact g7, by rw [f1, g10]; simp, f.cts, ?_, g4, ?_⟩⟩
        · rw [f2.ops] at hn; exact absurd hn hu
        · obtain ⟨t, cts⟩ := f; cases g3; exact g1
        · obtain ⟨t, cts⟩ := f; cases g3; rw [g5]; exact ⟨_, rfl⟩

theorem WKInv.maybeOpen {w w' : Writer σ} {r : Res} (hw : WKInv w) (h : w.maybeOpen = .ok (r, w')) :
    WKInv w' := by
  rcases maybeOpen_cases h with ⟨rfl, _⟩ | ⟨_, h⟩
  · exact hw
  · exact hw.open h

theorem WKInv.writev_opened {w w' : Writer σ} {r : Res} {iov : List Bytes} (hw : WKInv w)
    (hs : w.state = .opened) (h : w.writev iov = .ok (r, w')) : WKInv w' := by
  obtain ⟨_, k, _, _, hk⟩ := _root_.Fstrm.writev_opened hs h
  have ho := (writev_frame h).2.ops
  obtain ⟨rw, rfl, hrec⟩ := writev_rest hs h
  simp only at hk ho
  refine ⟨fun hu => hw.uni (by rw [← ho]; exact hu), fun _ => ?_⟩
  obtain ⟨pre, ct, ds, h1, h2, h3⟩ := hw.keeps hs
  refine ⟨pre, ct, ds ++ iov.take k, h1, fun hu => ?_, fun hb => ?_⟩
  · obtain ⟨a, b⟩ := h2 (by rw [← ho]; exact hu)
    exact ⟨a, by rw [hk, b]; simp⟩
  · obtain ⟨a, b, acts, c, d, e⟩ := h3 (by rw [← ho]; exact hb)
    exact ⟨a, by rw [hk, b]; simp, acts, c, d, by simp only [hrec]; exact e⟩

theorem WKInv.writev {w w' : Writer σ} {r : Res} {iov : List Bytes} (hw : WKInv w)
    (h : w.writev iov = .ok (r, w')) : WKInv w' := by
  by_cases hs : w.state = .opened
  · exact hw.writev_opened hs h
  · have h0 := h
    unfold Writer.writev at h
    split at h
    · cases h; exact hw
    · rename_i hlen
      obtain ⟨⟨res, w1⟩, h1, h⟩ := Exec.bind_eq_ok.1 h
      have hw1 := hw.maybeOpen h1
      simp only at h
      split at h
      · cases h; exact hw1
      · split at h
        · rename_i hst
          refine hw1.writev_opened (iov := iov) (r := r) hst ?_
          unfold Writer.writev
          have : w1.maybeOpen = .ok (.success, w1) := by
            unfold Writer.maybeOpen; rw [if_neg (by rw [hst]; simp)]
          rw [if_neg hlen, this, Exec.ok_bind]
          simp only [ne_eq, not_true_eq_false, if_false]
          rw [if_pos hst]; exact h
        · cases h; exact hw1

theorem WKInv.close {w w' : Writer σ} {r : Res} (hw : WKInv w) (h : w.close = .ok (r, w')) : WKInv w' := by
  obtain ⟨_, f2, f3, f4⟩ := close_frame h
  by_cases hs : w.state = .opened
  · refine ⟨fun hu => ?_, fun h5 => ?_⟩
    · rw [f2.ops] at hu
      have h0 := hw.uni hu
      unfold Writer.close at h
      rw [if_neg (by simp [hs])] at h
      obtain ⟨⟨res, rw⟩, h1, h⟩ := Exec.bind_eq_ok.1 h
      rw [writeControl_stop] at h1
      have ho := (Rdwr.write_ok h1).1
      simp only at h
      split at h
      · obtain ⟨⟨res2, rw2⟩, h2, h⟩ := Exec.bind_eq_ok.1 h
        cases h; exact h0
      · rw [ho, hu] at h
        simp only [Option.isSome_none, Bool.false_eq_true, if_false] at h
        obtain ⟨⟨res2, rw2⟩, h2, h⟩ := Exec.bind_eq_ok.1 h
        cases h; exact h0
    · rw [f4 hs] at h5; cases h5
  · rw [(f3 hs).2]; exact hw

theorem WKInv.step {w w' : Writer σ} {r : Res} {op : WOp} (hw : WKInv w)
    (h : w.step op = .ok (r, w')) : WKInv w' := by
  cases op with
  | opn => exact hw.open h
  | write d => exact hw.writev (iov := [d]) h
  | writev ds => exact hw.writev h
  | getControl t =>
    obtain ⟨⟨res, c, w1⟩, h1, h⟩ := Exec.bind_eq_ok.1 h
    cases h
    obtain ⟨r', h2, _⟩ := getControl_maybeOpen h1
    exact hw.maybeOpen h2
  | close => exact hw.close h

theorem WKInv.run {w w' : Writer σ} {rs : List Res} {ops : List WOp} (hw : WKInv w)
    (h : w.run ops = .ok (rs, w')) : WKInv w' := by
  induction ops generalizing w rs with
  | nil => cases h; exact hw
  | cons op rest ih =>
    obtain ⟨⟨res, w1⟩, h1, h⟩ := Exec.bind_eq_ok.1 h
    obtain ⟨⟨rs', w2⟩, h2, h⟩ := Exec.bind_eq_ok.1 h
    cases h
    exact ih (hw.step h1) h2

theorem Writer.init_keeps {wopt : Option WriterOptions} {rdwr : Rdwr σ} {w : Writer σ}
    (h : Writer.init wopt rdwr = some w) : WKInv w := by
  unfold Writer.init at h
  split at h
  · cases h
  · cases h
    exact ⟨fun _ => ⟨rfl, rfl, rfl⟩, nofun⟩

theorem step_frame {w w' : Writer σ} {r : Res} {op : WOp} (h : w.step op = .ok (r, w')) :
    w'.cts = w.cts ∧ Reach w.rdwr w'.rdwr := by
  cases op with
  | opn => exact ⟨(open_frame h).1, (open_frame h).2.1⟩
  | write d => exact writev_frame (iov := [d]) h
  | writev ds => exact writev_frame h
  | getControl t =>
    obtain ⟨⟨res, c, w1⟩, h1, h⟩ := Exec.bind_eq_ok.1 h
    cases h
    exact getControl_frame h1
  | close => exact ⟨(close_frame h).1, (close_frame h).2.1⟩

theorem run_frame {w w' : Writer σ} {rs : List Res} {ops : List WOp}
    (h : w.run ops = .ok (rs, w')) : w'.cts = w.cts ∧ Reach w.rdwr w'.rdwr := by
  induction ops generalizing w rs with
  | nil => cases h; exact ⟨rfl, .refl⟩
  | cons op rest ih =>
    obtain ⟨⟨res, w1⟩, h1, h⟩ := Exec.bind_eq_ok.1 h
    obtain ⟨⟨rs', w2⟩, h2, h⟩ := Exec.bind_eq_ok.1 h
    cases h
    have a := step_frame h1
    have b := ih h2
    exact ⟨b.1.trans a.1, a.2.trans b.2⟩

/-! ### Reader -/

/-- The frames a reader keeps while it is open are those of the last handshake. -/
def RKeeps (r : Reader σ) : Prop :=
  ∃ (pre : Bytes) (sct : List Bytes) (items : List Item), CFrame.WF ⟨.start, sct⟩ ∧
    r.start = some ⟨T_START, sct⟩ ∧
    (r.rdwr.ops.wr = none →
      received r.rdwr.log = pre ++ CFrame.wire ⟨.start, sct⟩ ++ wires items) ∧
    (r.rdwr.ops.wr ≠ none → ∃ offer, CFrame.WF ⟨.ready, offer⟩ ∧
      r.ready = some ⟨T_READY, offer⟩ ∧
      received r.rdwr.log = pre ++ CFrame.wire ⟨.ready, offer⟩ ++ CFrame.wire ⟨.start, sct⟩ ++
        wires items ∧
      r.accept = some ⟨T_ACCEPT, Spec.common r.cts offer⟩ ∧
      CFrame.wire ⟨.accept, Spec.common r.cts offer⟩ <:+ wrote r.rdwr.log)

/-- What holds between calls on a reader. -/
structure RKInv (r : Reader σ) : Prop where
  cap : 1 ≤ r.bufCap
  uni : r.rdwr.ops.wr = none → r.ready = none ∧ r.accept = none
  keeps : r.state = .opened → RKeeps r

/-- What an open does to the kept frames. -/
theorem reader_open_keeps {r r' : Reader σ} {res : Res} (h : r.open = .ok (res, r')) :
    (r.rdwr.ops.wr = none → r'.ready = r.ready ∧ r'.accept = r.accept) ∧
    (res = .success → RKeeps r') := by
  have hcts := (reader_open_ok h).1.cts
  have hops := (reader_open_ok h).1.reach.ops
  unfold Reader.open at h
  split at h
  · cases h; exact ⟨fun _ => ⟨rfl, rfl⟩, nofun⟩
  · obtain ⟨⟨res1, rw⟩, h1, h⟩ := Exec.bind_eq_ok.1 h
    have ho := (Rdwr.open_ok h1).1
    simp only at h
    split at h
    · rename_i hne; cases h; exact ⟨fun _ => ⟨rfl, rfl⟩, fun h => absurd h hne⟩
    · obtain ⟨⟨res2, r2⟩, h2, h⟩ := Exec.bind_eq_ok.1 h
      simp only at h
      have hr' : (r'.ready = r2.ready ∧ r'.accept = r2.accept ∧ r'.start = r2.start ∧
          r'.rdwr = r2.rdwr ∧ r'.cts = r2.cts) ∧ res = res2 := by
        split at h
        · cases h; exact ⟨⟨rfl, rfl, rfl, rfl, rfl⟩, rfl⟩
        · rename_i hs
          have hs : res2 = .success := by simpa using hs
          cases h; exact ⟨⟨rfl, rfl, rfl, rfl, rfl⟩, hs.symm⟩
      obtain ⟨⟨d1, d2, d3, d4, d5⟩, rfl⟩ := hr'
      split at h2
      · rename_i hw
        obtain ⟨k1, k2, k3, k4, k5⟩ := openBidirectional_ok h2
        simp only at k4
        have hw' : r.rdwr.ops.wr ≠ none := by
          rw [ho] at hw; intro hn; rw [hn] at hw; simp at hw
        refine ⟨fun hn => absurd hn hw', fun hs => ?_⟩
        rcases k4 with ⟨_, k4⟩ | ⟨g, g1, g2, g3, g4, g5, g6, g7, g8⟩
        · exact absurd hs k4
        · obtain ⟨_, _, f, m3, m4, m5, m6, m7, m8⟩ := g8 hs
          obtain ⟨gt, offer⟩ := g; cases g3
          obtain ⟨ft, sct⟩ := f; cases m5
          refine ⟨received rw.log, sct, [], m3, by rw [d3]; exact m7, fun hn => ?_,
            fun _ => ⟨offer, g1, by rw [d1]; exact g4, ?_, by rw [d2, hcts]; exact g5, ?_⟩⟩
          · rw [hops] at hn; exact absurd hn hw'
          · rw [d4, m8]; simp [wires]
          · rw [d4, g6, hcts]; exact ⟨_, rfl⟩
      · rename_i hw
        obtain ⟨k1, k2, k3, k4, k5, k6, k7, k8⟩ := openUnidirectional_ok h2
        simp only at k4 k5 k7
        have hw' : r.rdwr.ops.wr = none := by
          rw [ho] at hw; cases hh : r.rdwr.ops.wr <;> simp_all
        refine ⟨fun _ => ⟨d1.trans k4, d2.trans k5⟩, fun hs => ?_⟩
        obtain ⟨_, _, f, m3, m4, m5, m6, m7, m8⟩ := k7 hs
        obtain ⟨ft, sct⟩ := f; cases m5
        refine ⟨received rw.log, sct, [], m3, by rw [d3]; exact m7, fun _ => by rw [d4, m8]; simp [wires],
          fun hn => ?_⟩
        rw [hops] at hn; exact absurd hw' hn

theorem RKInv.open {r r' : Reader σ} {res : Res} (hr : RKInv r) (h : r.open = .ok (res, r')) :
    RKInv r' := by
  obtain ⟨k1, k2, _, k4, k5, _⟩ := reader_open_ok h
  obtain ⟨a, b⟩ := reader_open_keeps h
  refine ⟨by rw [k2]; exact hr.cap, fun hn => ?_, fun hs => ?_⟩
  · rw [k1.reach.ops] at hn
    obtain ⟨c, d⟩ := a hn
    rw [c, d]; exact hr.uni hn
  · by_cases hres : res = .success
    · exact b hres
    · have hst : r.state = .opened := by rw [← (k5 hres).1]; exact hs
      unfold Reader.open at h
      rw [if_pos hst] at h
      cases h
      exact hr.keeps hst

theorem RKInv.maybeOpen {r r' : Reader σ} {res : Res} (hr : RKInv r) (h : r.maybeOpen = .ok (res, r')) :
    RKInv r' := by
  rcases reader_maybeOpen_cases h with ⟨_, _, rfl⟩ | ⟨_, h⟩
  · exact hr
  · exact hr.open h

theorem nextData_kept_frames (fuel : Nat) {r r' : Reader σ} {res : Res} {d : Option Bytes}
    (h : Reader.nextData fuel r = .ok (res, d, r')) :
    r'.start = r.start ∧ r'.ready = r.ready ∧ r'.accept = r.accept := by
  induction fuel generalizing r with
  | zero => cases h
  | succ fuel ih =>
    unfold Reader.nextData at h
    obtain ⟨⟨res1, len, r2⟩, h1, h⟩ := Exec.bind_eq_ok.1 h
    simp only at h
    have e2 : r2.start = r.start ∧ r2.ready = r.ready ∧ r2.accept = r.accept := by
      unfold Reader.readBe32 at h1
      obtain ⟨⟨res2, tmp, rw⟩, h2, h1⟩ := Exec.bind_eq_ok.1 h1
      simp only at h1
      split at h1 <;> (cases h1; exact ⟨rfl, rfl, rfl⟩)
    rw [← e2.1, ← e2.2.1, ← e2.2.2]
    split at h
    · cases h; exact ⟨rfl, rfl, rfl⟩
    · split at h
      · unfold Reader.dataFrame at h
        split at h
        · cases h; exact ⟨rfl, rfl, rfl⟩
        · obtain ⟨r3, h3, h⟩ := Exec.bind_eq_ok.1 h
          unfold Reader.reserve at h3
          obtain ⟨cap, _, h3⟩ := Exec.bind_eq_ok.1 h3
          have e3 : r3.start = r2.start ∧ r3.ready = r2.ready ∧ r3.accept = r2.accept := by
            cases h3; exact ⟨rfl, rfl, rfl⟩
          rw [← e3.1, ← e3.2.1, ← e3.2.2]
          split at h
          · cases h
          · obtain ⟨⟨res4, bs, rw4⟩, h4, h⟩ := Exec.bind_eq_ok.1 h
            simp only at h
            split at h <;> (cases h; exact ⟨rfl, rfl, rfl⟩)
      · obtain ⟨⟨res3, c, t, rw3⟩, h3, h⟩ := Exec.bind_eq_ok.1 h
        simp only at h
        split at h
        · cases h; exact ⟨rfl, rfl, rfl⟩
        · split at h
          · cases h; exact ⟨rfl, rfl, rfl⟩
          · have := ih h; exact this

/-- Reading on keeps the frames of the handshake. -/
theorem RKeeps.extend {r r' : Reader σ} (h : RKeeps r) (hc : r'.cts = r.cts)
    (ho : r'.rdwr.ops = r.rdwr.ops)
    (hf : r'.start = r.start ∧ r'.ready = r.ready ∧ r'.accept = r.accept)
    (hw : wrote r'.rdwr.log = wrote r.rdwr.log) (items : List Item)
    (hrec : received r'.rdwr.log = received r.rdwr.log ++ wires items) : RKeeps r' := by
  obtain ⟨pre, sct, its, h1, h2, h3, h4⟩ := h
  refine ⟨pre, sct, its ++ items, h1, by rw [hf.1]; exact h2, fun hn => ?_, fun hn => ?_⟩
  · rw [ho] at hn; rw [hrec, h3 hn]; simp [wires]
  · rw [ho] at hn
    obtain ⟨offer, g1, g2, g3, g4, g5⟩ := h4 hn
    exact ⟨offer, g1, by rw [hf.2.1]; exact g2, by rw [hrec, g3]; simp [wires],
      by rw [hf.2.2, hc]; exact g4, by rw [hw, hc]; exact g5⟩

theorem RKInv.read {fuel : Nat} {r r' : Reader σ} {res : Res} {d : Option Bytes} (hr : RKInv r)
    (h : r.read fuel = .ok (res, d, r')) : RKInv r' := by
  obtain ⟨res1, r1, h1, h⟩ := reader_read_cases h
  have k := hr.maybeOpen h1
  rcases h with ⟨_, _, _, rfl⟩ | ⟨_, hst, h⟩ | ⟨_, _, _, _, rfl⟩ | ⟨_, _, _, _, _, rfl⟩
  · exact k
  · obtain ⟨skipped, hsk, hn, hk, hw⟩ := nextData_next fuel k.cap h
    have hf := nextData_kept_frames fuel h
    refine ⟨Nat.le_trans k.cap hk.cap, fun hu => ?_, fun hs => ?_⟩
    · rw [hk.reach.ops] at hu; rw [hf.2.1, hf.2.2]; exact k.uni hu
    · cases hn with
      | data b _ _ _ _ _ _ _ _ hrec =>
        refine (k.keeps hst).extend hk.cts hk.reach.ops hf hw (skipped.map .ctl ++ [.data b]) ?_
        rw [hrec]; simp [wires, Item.wire]
      | oversize n _ _ _ h5 => rw [h5] at hs; cases hs
      | stop _ h5 => rw [h5] at hs; cases hs
      | fails _ _ _ h5 => rw [h5] at hs; cases hs
  · exact k
  · exact k

theorem reader_close_frames {r r' : Reader σ} {res : Res} (h : r.close = .ok (res, r')) :
    r'.ready = r.ready ∧ r'.accept = r.accept ∧ r'.start = r.start ∧ r'.stop = r.stop := by
  unfold Reader.close at h
  split at h
  · cases h; exact ⟨rfl, rfl, rfl, rfl⟩
  · simp only at h
    split at h
    · obtain ⟨⟨res1, rw1⟩, _, h⟩ := Exec.bind_eq_ok.1 h
      simp only at h
      split at h
      all_goals
        obtain ⟨⟨rc, rw2⟩, h2, h⟩ := Exec.bind_eq_ok.1 h
        cases h; exact ⟨rfl, rfl, rfl, rfl⟩
    · obtain ⟨⟨rc, rw2⟩, h2, h⟩ := Exec.bind_eq_ok.1 h
      cases h; exact ⟨rfl, rfl, rfl, rfl⟩

theorem RKInv.close {r r' : Reader σ} {res : Res} (hr : RKInv r) (h : r.close = .ok (res, r')) :
    RKInv r' := by
  obtain ⟨k1, k2, _, _, k5, k6⟩ := reader_close_ok h
  obtain ⟨a, b, _, _⟩ := reader_close_frames h
  refine ⟨by rw [k2]; exact hr.cap, fun hu => ?_, fun hs => ?_⟩
  · rw [k1.reach.ops] at hu; rw [a, b]; exact hr.uni hu
  · by_cases hst : r.state = .opened ∨ r.state = .closing
    · rw [(k6 hst).1] at hs; cases hs
    · rw [(k5 ⟨fun h => hst (Or.inl h), fun h => hst (Or.inr h)⟩).1] at hs
      exact absurd (Or.inl hs) hst

theorem RKInv.step {fuel : Nat} {r r' : Reader σ} {res : Res} {d : Option Bytes} {op : ROp} (hr : RKInv r)
    (h : r.step fuel op = .ok (res, d, r')) : RKInv r' := by
  cases op with
  | opn =>
    obtain ⟨⟨res1, r1⟩, h1, h⟩ := Exec.bind_eq_ok.1 h
    cases h; exact hr.open h1
  | read => exact hr.read h
  | getControl t =>
    obtain ⟨⟨res1, c, r1⟩, h1, h⟩ := Exec.bind_eq_ok.1 h
    cases h
    obtain ⟨_, h2, _⟩ := reader_getControl_ok h1
    exact hr.maybeOpen h2
  | close =>
    obtain ⟨⟨res1, r1⟩, h1, h⟩ := Exec.bind_eq_ok.1 h
    cases h; exact hr.close h1

theorem RKInv.run {fuel : Nat} {r r' : Reader σ} {ops : List ROp} {rs : List (Res × Option Bytes)}
    (hr : RKInv r) (h : r.run fuel ops = .ok (rs, r')) : RKInv r' := by
  induction ops generalizing r rs with
  | nil => cases h; exact hr
  | cons op rest ih =>
    obtain ⟨⟨res, d, r1⟩, h1, h⟩ := Exec.bind_eq_ok.1 h
    obtain ⟨⟨rs', r2⟩, h2, h⟩ := Exec.bind_eq_ok.1 h
    cases h
    exact ih (hr.step h1) h2

theorem Reader.init_keeps {ropt : Option ReaderOptions} {rdwr : Rdwr σ} {r : Reader σ}
    (h : Reader.init ropt rdwr = some r) : RKInv r := by
  unfold Reader.init at h
  simp only at h
  split at h
  · cases h
  · cases h
    exact ⟨by simp [FRAME_LENGTH_MAX], fun _ => ⟨rfl, rfl⟩, nofun⟩

end Fstrm
