import Verif.Lemmas.WriterStream
import Verif.Spec.History

/-! What a unidirectional writer puts on one connection. -/

set_option autoImplicit false

namespace Fstrm

open Spec (sent CFrame CType)

variable {σ : Type}

theorem sent_append (acc : Option Bytes) (a b : List Ev) :
    sent acc (a ++ b) = sent (sent acc a) b := by
  induction a generalizing acc with
  | nil => rfl
  | cons e a ih =>
    cases e with
    | opn r => cases r <;> simp [sent, ih]
    | _ => simp [sent, ih]

theorem open_sent {a b : Rdwr σ} {r : Res} (h : a.open = .ok (r, b)) :
    sent none b.log = if r = .success then some [] else sent none a.log := by
  rcases (Rdwr.open_ok h).2 with ⟨_, rfl, rfl⟩ | ⟨h1, _⟩
  · simp
  · rw [h1, sent_append]
    cases r <;> simp [sent]

theorem close_sent {a b : Rdwr σ} {r : Res} (h : a.close = .ok (r, b)) :
    sent none b.log = sent none a.log := by
  rcases (Rdwr.close_ok h).2 with ⟨_, _, rfl⟩ | ⟨_, _, _, rfl⟩ | ⟨_, _, _, h1⟩
  · rfl
  · rfl
  · rw [h1, sent_append]; rfl

theorem write_sent {a b : Rdwr σ} {iov : List Bytes} {r : Res} (ho : a.opened = true)
    (hw : a.ops.wr ≠ none) (hc : a.ops.cls ≠ none) (h : a.write iov = .ok (r, b)) :
    sent none b.log = (sent none a.log).map (· ++ iov.flatten) ∧
      b.opened = decide (r = .success) := by
  rcases (Rdwr.write_ok h).2 with ⟨h1, _⟩ | ⟨_, rfl, h2, h3⟩ | ⟨_, hr, ⟨h1, _⟩ | ⟨_, h2, rc, h3⟩⟩
  · rcases h1 with h1 | h1
    · rw [ho] at h1; cases h1
    · exact absurd h1 hw
  · rw [h3, sent_append]; simp [sent, h2]
  · exact absurd h1 hc
  · rw [h3, sent_append]; simp [sent, h2, hr]

theorem write_closed {a b : Rdwr σ} {iov : List Bytes} {r : Res} (ho : a.opened = false)
    (h : a.write iov = .ok (r, b)) : r = .failure ∧ b = a := by
  rcases (Rdwr.write_ok h).2 with ⟨_, h1, h2⟩ | ⟨h1, _⟩ | ⟨h1, _⟩
  · exact ⟨h1, h2⟩
  · rw [ho] at h1; cases h1
  · rw [ho] at h1; cases h1

theorem writeIovStupid_sent : ∀ (fuel : Nat) (w w' : Writer σ) (iov : List Bytes) (r : Res),
    w.rdwr.opened = true → w.rdwr.ops.wr ≠ none → w.rdwr.ops.cls ≠ none →
    Writer.writeIovStupid fuel w iov = .ok (r, w') →
    ∃ k, k ≤ iov.length ∧ (r = .success → k = iov.length) ∧
      sent none w'.rdwr.log =
        (sent none w.rdwr.log).map (· ++ (iov.take k).flatMap Spec.dataFrame) ∧
      w'.rdwr.opened = decide (r = .success) := by
  intro fuel
  induction fuel with
  | zero =>
    intro w w' iov r ho hw hc h
    unfold Writer.writeIovStupid at h
    split at h
    · cases h
    · cases h; exact ⟨0, by omega, fun _ => by omega, by simp, by simp [ho]⟩
  | succ fuel ih =>
    intro w w' iov r ho hw hc h
    unfold Writer.writeIovStupid at h
    rw [stupidMax_eq] at h
    split at h
    · rename_i hpos
      simp only at h
      generalize hk : (if 128 > iov.length then iov.length else 128) = k at h
      have hk1 : k ≤ iov.length := by subst hk; split <;> omega
      have hk2 : k ≤ 128 := by subst hk; split <;> omega
      obtain ⟨⟨res, w2⟩, h1, h⟩ := Exec.bind_eq_ok.1 h
      obtain ⟨rw, h2, rfl⟩ := writeIov_ok (by rw [List.length_take]; omega) h1
      obtain ⟨s1, s2⟩ := write_sent ho hw hc h2
      simp only at h
      split at h
      · rename_i hne
        cases h
        refine ⟨k, hk1, fun h => absurd h hne, ?_, s2⟩
        simp only [s1, frameIovs_flatten]
      · rename_i hs
        have hs : res = .success := by simpa using hs
        subst hs
        have hops := (Rdwr.write_ok h2).1
        obtain ⟨j, hj1, hj2, hj3, hj4⟩ := ih _ _ _ _ (by simpa using s2) (by simpa [hops] using hw)
          (by simpa [hops] using hc) h
        rw [List.length_drop] at hj1 hj2
        refine ⟨k + j, by omega, fun hr => by have := hj2 hr; omega, ?_, hj4⟩
        rw [hj3]
        simp only [s1, frameIovs_flatten, Option.map_map]
        congr 1
        funext x
        simp only [Function.comp]
        rw [List.append_assoc, take_flatMap_append]
    · rename_i h0
      cases h; exact ⟨0, by omega, fun _ => by omega, by simp, by simp [ho]⟩

theorem writeIovStupid_closed {fuel : Nat} {w w' : Writer σ} {iov : List Bytes} {r : Res}
    (ho : w.rdwr.opened = false) (hne : iov ≠ [])
    (h : Writer.writeIovStupid fuel w iov = .ok (r, w')) : r = .failure ∧ w' = w := by
  have hpos := List.length_pos_iff.2 hne
  cases fuel with
  | zero =>
    unfold Writer.writeIovStupid at h
    rw [if_pos hpos] at h; cases h
  | succ fuel =>
    unfold Writer.writeIovStupid at h
    rw [stupidMax_eq, if_pos hpos] at h
    simp only at h
    generalize hk : (if 128 > iov.length then iov.length else 128) = k at h
    have hk2 : k ≤ 128 := by subst hk; split <;> omega
    obtain ⟨⟨res, w2⟩, h1, h⟩ := Exec.bind_eq_ok.1 h
    obtain ⟨rw, h2, rfl⟩ := writeIov_ok (by rw [List.length_take]; omega) h1
    obtain ⟨rfl, rfl⟩ := write_closed ho h2
    simp only [ne_eq, reduceCtorEq, not_false_eq_true, if_true] at h
    cases h; exact ⟨rfl, rfl⟩

/-- The bytes of an opened stream before STOP. -/
def openStream (ct : Option Bytes) (ds : List Bytes) : Bytes :=
  CFrame.wire ⟨.start, ct.toList⟩ ++ ds.flatMap Spec.dataFrame

theorem stream_eq (ct : Option Bytes) (ds : List Bytes) :
    Spec.stream ct ds = openStream ct ds ++ CFrame.wire ⟨.stop, []⟩ := by
  simp [Spec.stream, openStream]

/-- Invariant of a unidirectional writer: `sub` are the frames submitted so far, `acc`
those accepted since the last close. -/
structure CInv (ct : Option Bytes) (w : Writer σ) (sub acc : List Bytes) : Prop where
  ct_eq : w.cts.head? = ct
  uni : w.rdwr.ops.rd = none
  wr : w.rdwr.ops.wr ≠ none
  cls : w.rdwr.ops.cls ≠ none
  small : ∀ c ∈ w.cts, c.length ≤ 256
  cases :
    (w.rdwr.opened = true ∧ w.state = .opened ∧
      sent none w.rdwr.log = some (openStream ct acc) ∧ acc <:+ sub) ∨
    (w.rdwr.opened = false ∧ (w.state ≠ .opened → acc = []) ∧
      (sent none w.rdwr.log = none ∨
        ∃ t fs, sent none w.rdwr.log = some t ∧ t <+: Spec.stream ct fs ∧ fs <:+: sub))

theorem CInv.mono {ct : Option Bytes} {w : Writer σ} {sub acc more : List Bytes}
    (h : CInv ct w sub acc) (hc : w.rdwr.opened = false) : CInv ct w (sub ++ more) acc := by
  refine { h with cases := ?_ }
  rcases h.cases with ⟨h1, _⟩ | ⟨h1, h2, h3⟩
  · rw [h1] at hc; cases hc
  · refine Or.inr ⟨h1, h2, ?_⟩
    rcases h3 with h3 | ⟨t, fs, h3, h4, h5⟩
    · exact Or.inl h3
    · exact Or.inr ⟨t, fs, h3, h4, h5.trans ⟨[], more, by simp⟩⟩

theorem startable {cts : List Bytes} (h4 : ∀ c ∈ cts, c.length ≤ 256) :
    (∀ c ∈ cts.head?.toList, c.length ≤ 256) ∧
    (CFrame.wire ⟨.start, cts.head?.toList⟩).length ≤ 512 := by
  have hcl : ∀ c ∈ cts.head?.toList, c.length ≤ 256 := by
    intro c hc
    have : cts.head? = some c := by simpa using hc
    exact h4 c (List.mem_of_mem_head? this)
  refine ⟨hcl, ?_⟩
  cases hh : cts.head? with
  | none => decide +kernel
  | some c =>
    have := hcl c (by simp [hh])
    simp [CFrame.wire, CFrame.payload, length_field]; omega

theorem CInv.open {ct : Option Bytes} {w w' : Writer σ} {sub acc : List Bytes} {r : Res}
    (hi : CInv ct w sub acc) (h : w.open = .ok (r, w')) :
    CInv ct w' sub acc ∧ (r = .success → w'.state = .opened) ∧
      (r ≠ .success → w'.rdwr.opened = false ∧ w'.state ≠ .opened) := by
  unfold Writer.open at h
  split at h
  · rename_i hs
    cases h
    exact ⟨hi, fun _ => hs, fun h => absurd rfl h⟩
  · rename_i hns
    rcases hi.cases with ⟨_, h1, _⟩ | ⟨hcl, hacc, hsent⟩
    · exact absurd h1 hns
    have hacc := hacc hns
    subst hacc
    obtain ⟨⟨res, rw⟩, g1, h⟩ := Exec.bind_eq_ok.1 h
    obtain ⟨go, g2⟩ := Rdwr.open_ok g1
    have gs := open_sent g1
    simp only at h
    split at h
    · rename_i hne
      cases h
      rw [if_neg hne] at gs
      have hno : rw.opened = false := by
        rcases g2 with ⟨_, _, rfl⟩ | ⟨_, g3⟩
        · exact hcl
        · rw [g3, hcl]; simpa using hne
      refine ⟨⟨hi.ct_eq, go ▸ hi.uni, go ▸ hi.wr, go ▸ hi.cls, hi.small,
        Or.inr ⟨hno, fun _ => rfl, ?_⟩⟩, fun h => absurd h hne, fun _ => ⟨hno, hns⟩⟩
      simp only [gs]; exact hsent
    · rename_i hsu
      have hsu : res = .success := by simpa using hsu
      subst hsu
      rw [if_pos rfl] at gs
      have hop : rw.opened = true := by
        rcases g2 with ⟨_, hf, _⟩ | ⟨_, g3⟩
        · cases hf
        · simp [g3]
      rw [go, hi.uni] at h
      simp only [Option.isSome_none, Bool.false_eq_true, if_false] at h
      obtain ⟨⟨res, w2⟩, g3, h⟩ := Exec.bind_eq_ok.1 h
      rw [openUnidirectional_eq] at g3
      obtain ⟨rw3, g4, rfl⟩ := sendStart_ok g3
      simp only at g4
      rw [writeControlFrame_eq, visible_toList, if_pos (startable hi.small)] at g4
      obtain ⟨s1, s2⟩ := write_sent hop (go ▸ hi.wr) (go ▸ hi.cls) g4
      have gops := ((Rdwr.write_ok g4).1).trans go
      rw [gs, hi.ct_eq] at s1
      simp only [Option.map_some, List.nil_append, List.flatten_cons, List.flatten_nil,
        List.append_nil] at s1
      simp only at h
      split at h
      · rename_i hne
        cases h
        have hno : rw3.opened = false := by rw [s2]; simpa using hne
        refine ⟨⟨hi.ct_eq, by simpa [gops] using hi.uni, by simpa [gops] using hi.wr,
          by simpa [gops] using hi.cls, hi.small, Or.inr ⟨hno, fun _ => rfl, Or.inr
            ⟨_, [], s1, ?_, List.nil_infix⟩⟩⟩,
          fun h => absurd h hne, fun _ => ⟨hno, hns⟩⟩
        simp [Spec.stream]
      · rename_i hsu
        have hsu : res = .success := by simpa using hsu
        subst hsu
        cases h
        refine ⟨⟨hi.ct_eq, by simpa [gops] using hi.uni, by simpa [gops] using hi.wr,
          by simpa [gops] using hi.cls, hi.small, Or.inl ⟨by simpa using s2, rfl, ?_, List.nil_suffix⟩⟩,
          fun _ => rfl, fun h => absurd rfl h⟩
        simp [s1, openStream]

theorem CInv.maybeOpen {ct : Option Bytes} {w w' : Writer σ} {sub acc : List Bytes} {r : Res}
    (hi : CInv ct w sub acc) (h : w.maybeOpen = .ok (r, w')) :
    CInv ct w' sub acc ∧ (r ≠ .success → w'.rdwr.opened = false ∧ w'.state ≠ .opened) := by
  unfold Writer.maybeOpen at h
  split at h
  · exact ⟨(hi.open h).1, (hi.open h).2.2⟩
  · cases h; exact ⟨hi, fun h => absurd rfl h⟩

theorem openStream_append (ct : Option Bytes) (a b : List Bytes) :
    openStream ct (a ++ b) = openStream ct a ++ b.flatMap Spec.dataFrame := by
  simp [openStream]

/-- From what one batch of writes did on an opened writer. -/
theorem CInv.wrote {ct : Option Bytes} {w w' : Writer σ} {sub acc iov : List Bytes} {r : Res}
    (hi : CInv ct w sub acc) (ho : w.rdwr.opened = true) {k : Nat}
    (hk1 : r = .success → k = iov.length) (hcts : w'.cts = w.cts) (hst : w'.state = w.state)
    (hops : w'.rdwr.ops = w.rdwr.ops)
    (hs : sent none w'.rdwr.log =
        (sent none w.rdwr.log).map (· ++ (iov.take k).flatMap Spec.dataFrame))
    (hop : w'.rdwr.opened = decide (r = .success)) :
    CInv ct w' (sub ++ iov) (if r = .success then acc ++ iov else acc) := by
  refine ⟨hcts ▸ hi.ct_eq, hops ▸ hi.uni, hops ▸ hi.wr, hops ▸ hi.cls, hcts ▸ hi.small, ?_⟩
  rcases hi.cases with ⟨_, h1, h2, h3⟩ | ⟨h1, _⟩
  · rw [h2] at hs
    by_cases hr : r = .success
    · left
      rw [if_pos hr]
      rw [hk1 hr, List.take_length] at hs
      refine ⟨by rw [hop]; simpa using hr, hst.trans h1, by simpa [openStream_append] using hs, ?_⟩
      obtain ⟨p, rfl⟩ := h3
      exact ⟨p, by simp⟩
    · right
      rw [if_neg hr]
      refine ⟨by rw [hop]; simpa using hr, fun h => absurd (hst.trans h1) h, Or.inr
        ⟨_, acc ++ iov.take k, hs, ?_, ?_⟩⟩
      · rw [stream_eq, openStream_append]; exact ⟨_, rfl⟩
      · obtain ⟨p, rfl⟩ := h3
        exact ⟨p, iov.drop k, by simp⟩
  · rw [ho] at h1; cases h1

theorem CInv.writev {ct : Option Bytes} {w w' : Writer σ} {sub acc iov : List Bytes} {r : Res}
    (hi : CInv ct w sub acc) (h : w.writev iov = .ok (r, w')) :
    CInv ct w' (sub ++ iov) (if r = .success then acc ++ iov else acc) := by
  unfold Writer.writev at h
  split at h
  · rename_i hl
    have : iov = [] := List.eq_nil_of_length_eq_zero (by omega)
    subst this
    cases h
    simpa using hi
  · rename_i hl
    have hne : iov ≠ [] := by rintro rfl; simp at hl
    obtain ⟨⟨res, w1⟩, g1, h⟩ := Exec.bind_eq_ok.1 h
    obtain ⟨f1, f2⟩ := hi.maybeOpen g1
    simp only at h
    split at h
    · rename_i hne; cases h
      rw [if_neg hne]; exact f1.mono (f2 hne).1
    · split at h
      · rename_i hst
        split at h
        · cases h
        · by_cases ho : w1.rdwr.opened = true
          · split at h
            · rename_i hl
              simp only [WRITER_IOVEC_SIZE] at hl
              obtain ⟨rw, g2, rfl⟩ := writeIov_ok (by omega) h
              obtain ⟨s1, s2⟩ := write_sent ho f1.wr f1.cls g2
              refine f1.wrote ho (k := iov.length) (fun _ => rfl) rfl rfl (Rdwr.write_ok g2).1 ?_ s2
              simp only [s1, frameIovs_flatten, List.take_length]
            · obtain ⟨a, b, c⟩ := writeIovStupid_frame _ _ _ _ _ h
              obtain ⟨k, _, k2, k3, k4⟩ := writeIovStupid_sent _ _ _ _ _ ho f1.wr f1.cls h
              exact f1.wrote ho k2 a b c.ops k3 k4
          · have ho : w1.rdwr.opened = false := by simpa using ho
            have : r = .failure ∧ w' = w1 := by
              split at h
              · rename_i hl
                simp only [WRITER_IOVEC_SIZE] at hl
                obtain ⟨rw, g2, rfl⟩ := writeIov_ok (by omega) h
                obtain ⟨rfl, rfl⟩ := write_closed ho g2
                exact ⟨rfl, rfl⟩
              · exact writeIovStupid_closed ho hne h
            obtain ⟨rfl, rfl⟩ := this
            rw [if_neg (by simp)]; exact f1.mono ho
      · rename_i hst
        cases h
        rw [if_neg (by simp)]
        refine f1.mono ?_
        rcases f1.cases with ⟨_, h1, _⟩ | ⟨h1, _⟩
        · exact absurd h1 hst
        · exact h1

theorem CInv.close {ct : Option Bytes} {w w' : Writer σ} {sub acc : List Bytes} {r : Res}
    (hi : CInv ct w sub acc) (h : w.close = .ok (r, w')) :
    CInv ct w' sub [] ∧ (r = .success → sent none w'.rdwr.log = some (Spec.stream ct acc) ∧
      w'.rdwr.log.getLast? = some (.cls .success)) := by
  unfold Writer.close at h
  split at h
  · rename_i hns
    cases h
    refine ⟨{ hi with cases := ?_ }, nofun⟩
    rcases hi.cases with ⟨_, h1, _⟩ | ⟨h1, _, h3⟩
    · exact absurd h1 hns
    · exact Or.inr ⟨h1, fun _ => rfl, h3⟩
  · rename_i hs
    obtain ⟨⟨res, rw⟩, g1, h⟩ := Exec.bind_eq_ok.1 h
    rw [writeControl_stop] at g1
    simp only at h g1
    have gops := (Rdwr.write_ok g1).1
    have fin : ∀ {rw' : Rdwr σ} {rc : Res}, rw.close = .ok (rc, rw') →
        CInv ct { w with state := .closed, rdwr := rw' } sub [] ∧
        (res = .success → rc = .success →
          sent none rw'.log = some (Spec.stream ct acc) ∧
          rw'.log.getLast? = some (.cls .success)) := by
      intro rw' rc hc
      obtain ⟨c1, c2⟩ := Rdwr.close_ok hc
      have cs := close_sent hc
      have cops := c1.trans gops
      have hcl' : rw'.opened = false := by
        rcases c2 with ⟨h, _⟩ | ⟨_, h, _, rfl⟩ | ⟨_, _, h, _⟩
        · rw [gops] at h; exact absurd h hi.cls
        · exact h
        · exact h
      rcases hi.cases with ⟨ho, _, h2, h3⟩ | ⟨ho, _, h3⟩
      · obtain ⟨s1, s2⟩ := write_sent ho hi.wr hi.cls g1
        rw [h2] at s1
        simp only [Option.map_some, List.flatten_cons, List.flatten_nil, List.append_nil,
          ← stream_eq] at s1
        refine ⟨⟨hi.ct_eq, by simpa [cops] using hi.uni, by simpa [cops] using hi.wr,
          by simpa [cops] using hi.cls, hi.small, Or.inr ⟨hcl', fun _ => rfl, Or.inr
          ⟨_, acc, by simp only; rw [cs, s1], List.prefix_refl _, h3.isInfix⟩⟩⟩, ?_⟩
        rintro rfl rfl
        refine ⟨by rw [cs, s1], ?_⟩
        rcases c2 with ⟨h, _⟩ | ⟨_, h, _, rfl⟩ | ⟨_, _, _, h⟩
        · rw [gops] at h; exact absurd h hi.cls
        · rw [s2] at h; simp at h
        · rw [h]; simp
      · obtain ⟨rfl, rfl⟩ := write_closed ho g1
        refine ⟨⟨hi.ct_eq, by simpa [cops] using hi.uni, by simpa [cops] using hi.wr,
          by simpa [cops] using hi.cls, hi.small, Or.inr ⟨hcl', fun _ => rfl, ?_⟩⟩, nofun⟩
        simp only [cs]; exact h3
    split at h
    · rename_i hne
      obtain ⟨⟨rc, rw'⟩, g2, h⟩ := Exec.bind_eq_ok.1 h
      cases h
      exact ⟨(fin g2).1, fun h => absurd h hne⟩
    · rename_i hsu
      have hsu : res = .success := by simpa using hsu
      rw [gops, hi.uni] at h
      simp only [Option.isSome_none, Bool.false_eq_true, if_false] at h
      obtain ⟨⟨rc, rw'⟩, g2, h⟩ := Exec.bind_eq_ok.1 h
      cases h
      exact ⟨(fin g2).1, (fin g2).2 hsu⟩

theorem CInv.step {ct : Option Bytes} {w w' : Writer σ} {sub acc : List Bytes} {op : WOp} {r : Res}
    (hi : CInv ct w sub acc) (h : w.step op = .ok (r, w')) :
    CInv ct w' (sub ++ op.frames) (accepted acc [(op, r)]) := by
  cases op with
  | opn =>
    have := (hi.open h).1
    cases r <;> simpa [accepted, WOp.frames] using this
  | write d =>
    have := CInv.writev (iov := [d]) hi h
    cases r <;> simpa [accepted, WOp.frames] using this
  | writev ds =>
    have := hi.writev h
    cases r <;> simpa [accepted, WOp.frames] using this
  | getControl t =>
    obtain ⟨⟨res, c, w2⟩, h3, h4⟩ := Exec.bind_eq_ok.1 h
    cases h4
    obtain ⟨r', h5, _⟩ := getControl_maybeOpen h3
    have := (hi.maybeOpen h5).1
    cases r <;> simpa [accepted, WOp.frames] using this
  | close =>
    have := (hi.close h).1
    simpa [accepted, WOp.frames] using this

theorem accepted_append (acc : List Bytes) (a b : List (WOp × Res)) :
    accepted acc (a ++ b) = accepted (accepted acc a) b := by
  induction a generalizing acc with
  | nil => rfl
  | cons e a ih =>
    obtain ⟨op, r⟩ := e
    cases op <;> cases r <;> simp [accepted, ih]

theorem CInv.run {ct : Option Bytes} {w w' : Writer σ} {sub acc : List Bytes} {calls : List WOp}
    {rs : List Res} (hi : CInv ct w sub acc) (h : w.run calls = .ok (rs, w')) :
    CInv ct w' (sub ++ calls.flatMap WOp.frames) (accepted acc (calls.zip rs)) := by
  induction calls generalizing w rs sub acc with
  | nil => cases h; simpa [accepted] using hi
  | cons op rest ih =>
    obtain ⟨⟨r, w1⟩, h1, h⟩ := Exec.bind_eq_ok.1 h
    obtain ⟨⟨rs', w2⟩, h2, h⟩ := Exec.bind_eq_ok.1 h
    cases h
    have := ih (hi.step h1) h2
    rw [← accepted_append] at this
    simpa using this

end Fstrm
