import Verif.Lemmas.Reader

/-! The reader on an arbitrary transport: what is delivered, reported and called. -/

set_option autoImplicit false

namespace Fstrm

open Spec (CType CFrame be32 Item wires received wrote)

variable {σ : Type}

/-- A read callback reported `r`, and the transport was closed (if it can be). -/
def Broke (r : Res) (rw : Rdwr σ) : Prop :=
  (∃ n bs, Ev.rd n r bs ∈ rw.log) ∧ (rw.ops.cls ≠ none → rw.opened = false)

theorem read_fail_ev {a b : Rdwr σ} {n : Nat} {r : Res} {bs : Bytes}
    (h : a.read n = .ok (r, bs, b)) (hr : r ≠ .success) :
    r = .failure ∨ Broke r b := by
  obtain ⟨ho, h⟩ := Rdwr.read_ok h
  rcases h with ⟨_, h, _⟩ | ⟨_, h, _⟩ | ⟨_, _, _, bs', h⟩
  · exact Or.inl h
  · exact absurd h hr
  · right
    rcases h with ⟨h1, _, h⟩ | ⟨_, h2, rc, h⟩
    · exact ⟨⟨n, bs', by rw [h]; simp⟩, fun h => absurd h1 (by rw [← ho]; exact h)⟩
    · exact ⟨⟨n, bs', by rw [h]; simp⟩, fun _ => h2⟩

theorem readControlBody_fail {rw rw' : Rdwr σ} {c c' : Control} {r : Res} {t : Option Nat}
    (h : rw.readControlBody c = .ok (r, c', t, rw')) (hr : r ≠ .success) :
    r = .failure ∨ Broke r rw' := by
  unfold Rdwr.readControlBody at h
  obtain ⟨⟨res, tmp, rw1⟩, h1, h⟩ := Exec.bind_eq_ok.1 h
  simp only at h
  split at h
  · rename_i hne; cases h
    exact read_fail_ev h1 hne
  · split at h
    · cases h; exact Or.inl rfl
    · split at h
      · cases h
      · obtain ⟨⟨res, frame, rw2⟩, h2, h⟩ := Exec.bind_eq_ok.1 h
        simp only at h
        split at h
        · rename_i hne; cases h
          exact read_fail_ev h2 hne
        · rename_i hs
          have hs : res = .success := by simpa using hs
          subst hs
          obtain ⟨⟨res, c2⟩, hd, h⟩ := Exec.bind_eq_ok.1 h
          simp only at h
          split at h
          · rename_i hne; cases h
            have hl := (read_success h2).2.2.2.1
            obtain ⟨r', c'', h3, h4⟩ := Props.decode_safe c frame (ntohl tmp) false (by omega)
            rw [h3] at hd; cases hd
            rcases h4 with h4 | h4
            · exact absurd h4 hr
            · exact Or.inl h4
          · cases h
            left
            revert hr
            unfold Control.getType
            split <;> simp

/-- What one pass of the reader's data loop can do. -/
inductive Next (r : Reader σ) (skipped : List CFrame) : Res → Option Bytes → Reader σ → Prop
  | data (b : Bytes) (r' : Reader σ) : 1 ≤ b.length → b.length ≤ r.maxFrameSize → b.length < 2^32 →
      b.length ≤ r'.bufCap → r'.state = r.state → r'.stop = r.stop → r'.rdwr.opened = true →
      received r'.rdwr.log =
        received r.rdwr.log ++ (wires (skipped.map .ctl) ++ Spec.dataFrame b) →
      Next r skipped .success (some b) r'
  | oversize (n : Nat) (r' : Reader σ) : r.maxFrameSize < n → n < 2^32 → r'.state = .failed →
      r'.rdwr.opened = true →
      received r'.rdwr.log = received r.rdwr.log ++ (wires (skipped.map .ctl) ++ be32 n) →
      Next r skipped .success none r'
  | stop (r' : Reader σ) : r'.state = .closing → r'.stop = some ⟨T_STOP, []⟩ →
      r'.rdwr.opened = true →
      received r'.rdwr.log = received r.rdwr.log ++
        (wires (skipped.map .ctl) ++ CFrame.wire ⟨.stop, []⟩) →
      Next r skipped .stop none r'
  | fails (res : Res) (r' : Reader σ) : res ≠ .success → r'.state = .failed →
      (res = .failure ∨ Broke res r'.rdwr) →
      Next r skipped res none r'

/-- Configuration kept, buffer bounded. -/
structure Kept (r r' : Reader σ) : Prop where
  cts : r'.cts = r.cts
  max : r'.maxFrameSize = r.maxFrameSize
  reach : Reach r.rdwr r'.rdwr
  cap : r.bufCap ≤ r'.bufCap
  cap' : r'.bufCap ≤ Nat.max r.bufCap (2 * r.maxFrameSize)

theorem Kept.refl (r : Reader σ) : Kept r r := ⟨rfl, rfl, .refl, Nat.le_refl _, Nat.le_max_left _ _⟩

theorem Kept.trans {a b c : Reader σ} (h1 : Kept a b) (h2 : Kept b c) : Kept a c where
  cts := h2.cts.trans h1.cts
  max := h2.max.trans h1.max
  reach := h1.reach.trans h2.reach
  cap := Nat.le_trans h1.cap h2.cap
  cap' := by
    have e2 := h2.cap'; have e1 := h1.cap'; rw [h1.max] at e2
    simp only [Nat.max_def] at *; split at e1 <;> split at e2 <;> split <;> omega

theorem dataFrame_next {r r' : Reader σ} {len : Nat} {res : Res} {d : Option Bytes}
    (hcap : 1 ≤ r.bufCap) (hpos : 1 ≤ len) (hlen : len < 2^32) (hop : r.rdwr.opened = true)
    (h : r.dataFrame len = .ok (res, d, r')) (r0 : Reader σ) (skipped : List CFrame)
    (hmax : r.maxFrameSize = r0.maxFrameSize) (hst : r.state = r0.state) (hsp : r.stop = r0.stop)
    (hrec : received r.rdwr.log = received r0.rdwr.log ++ (wires (skipped.map .ctl) ++ be32 len)) :
    Next r0 skipped res d r' ∧ Kept r r' ∧ wrote r'.rdwr.log = wrote r.rdwr.log := by
  unfold Reader.dataFrame at h
  split at h
  · cases h
    exact ⟨.oversize len _ (by omega) hlen rfl hop hrec, ⟨rfl, rfl, .refl, Nat.le_refl _, Nat.le_max_left _ _⟩, rfl⟩
  · rename_i hle
    obtain ⟨cap, e, c1, c2, c3⟩ := reserve_ok r len hcap
    rw [e, Exec.ok_bind] at h
    simp only at h
    rw [if_neg (by omega)] at h
    obtain ⟨⟨res1, bs, rw⟩, h1, h⟩ := Exec.bind_eq_ok.1 h
    simp only at h
    have hk : ∀ st, Kept r { r with rdwr := rw, bufN := 0, bufCap := cap, state := st } := fun st =>
      ⟨rfl, rfl, .rd h1, c2, by simp only [Nat.max_def]; split <;> omega⟩
    split at h
    · rename_i hne
      cases h
      refine ⟨.fails _ _ hne rfl ?_, hk _, ?_⟩
      · exact read_fail_ev h1 hne
      · obtain ⟨_, h2⟩ := Rdwr.read_ok h1
        rcases h2 with ⟨_, _, _, h2⟩ | ⟨_, h2, _⟩ | ⟨_, _, _, bs', ⟨_, _, h2⟩ | ⟨_, _, rc, h2⟩⟩
        · simp only [h2]
        · exact absurd h2 hne
        · simp only [h2, wrote_append]; simp [wrote]
        · simp only [h2, wrote_append]; simp [wrote]
    · rename_i hs
      have hs : res1 = .success := by simpa using hs
      subst hs
      cases h
      obtain ⟨o1, o2, o3, o4, o5⟩ := read_success h1
      refine ⟨.data bs _ (by omega) (by omega) (by omega) (by simp only; omega) hst hsp o3 ?_, hk _, ?_⟩
      · simp only [o5, received_rd, hrec, Spec.dataFrame, o4, List.append_assoc]
      · simp only [o5, wrote_rd]

theorem rd_wrote {a b : Rdwr σ} {n : Nat} {r : Res} {bs : Bytes}
    (h : a.read n = .ok (r, bs, b)) : wrote b.log = wrote a.log := by
  obtain ⟨_, h2⟩ := Rdwr.read_ok h
  rcases h2 with ⟨_, _, _, h2⟩ | ⟨_, h2, _, _, h3⟩ | ⟨_, _, _, bs', ⟨_, _, h2⟩ | ⟨_, _, rc, h2⟩⟩
  · rw [h2]
  · rw [h3, wrote_rd]
  · rw [h2, wrote_append]; simp [wrote]
  · rw [h2, wrote_append]; simp [wrote]

theorem RdReach.wrote {a b : Rdwr σ} (h : RdReach a b) : wrote b.log = wrote a.log := by
  induction h with
  | refl => rfl
  | tail _ h ih => exact (rd_wrote h).trans ih

theorem rd_received {a b : Rdwr σ} {n : Nat} {r : Res} {bs : Bytes}
    (h : a.read n = .ok (r, bs, b)) : ∃ more, received b.log = received a.log ++ more := by
  obtain ⟨_, h2⟩ := Rdwr.read_ok h
  rcases h2 with ⟨_, _, _, h2⟩ | ⟨_, h2, _, _, h3⟩ | ⟨_, _, _, bs', ⟨_, _, h2⟩ | ⟨_, _, rc, h2⟩⟩
  · rw [h2]; exact ⟨[], by simp⟩
  · rw [h3, received_rd]; exact ⟨_, rfl⟩
  · rw [h2, received_append]; exact ⟨_, rfl⟩
  · rw [h2, received_append]; exact ⟨_, rfl⟩

theorem RdReach.received {a b : Rdwr σ} (h : RdReach a b) :
    ∃ more, received b.log = received a.log ++ more := by
  induction h with
  | refl => exact ⟨[], by simp⟩
  | tail _ h ih =>
    obtain ⟨m1, e1⟩ := ih
    obtain ⟨m2, e2⟩ := rd_received h
    exact ⟨m1 ++ m2, by rw [e2, e1, List.append_assoc]⟩

theorem nextData_next (fuel : Nat) {r r' : Reader σ} {res : Res} {d : Option Bytes}
    (hcap : 1 ≤ r.bufCap) (h : Reader.nextData fuel r = .ok (res, d, r')) :
    ∃ skipped : List CFrame, (∀ f ∈ skipped, f.WF ∧ f.payload.length ≤ 512 ∧ f.type ≠ .stop) ∧
      Next r skipped res d r' ∧ Kept r r' ∧ wrote r'.rdwr.log = wrote r.rdwr.log := by
  suffices H : ∀ (fuel : Nat) (r1 : Reader σ) (skipped : List CFrame),
      (∀ f ∈ skipped, f.WF ∧ f.payload.length ≤ 512 ∧ f.type ≠ .stop) → Kept r r1 →
      r1.state = r.state → r1.stop = r.stop →
      received r1.rdwr.log = received r.rdwr.log ++ wires (skipped.map .ctl) →
      wrote r1.rdwr.log = wrote r.rdwr.log →
      Reader.nextData fuel r1 = .ok (res, d, r') →
      ∃ skipped : List CFrame, (∀ f ∈ skipped, f.WF ∧ f.payload.length ≤ 512 ∧ f.type ≠ .stop) ∧
        Next r skipped res d r' ∧ Kept r r' ∧ wrote r'.rdwr.log = wrote r.rdwr.log from
    H fuel r [] (by simp) (.refl r) rfl rfl (by simp [wires]) rfl h
  clear h fuel
  intro fuel
  induction fuel with
  | zero => intro _ _ _ _ _ _ _ _ h; cases h
  | succ fuel ih =>
    intro r1 skipped hsk hk hst hsp hrec hwr h
    unfold Reader.nextData at h
    obtain ⟨⟨res1, len, r2⟩, h1, h⟩ := Exec.bind_eq_ok.1 h
    simp only at h
    unfold Reader.readBe32 at h1
    obtain ⟨⟨res2, tmp, rw⟩, h2, h1⟩ := Exec.bind_eq_ok.1 h1
    simp only at h1
    have hk2 : ∀ st t sp, Kept r1 { r1 with rdwr := rw, state := st, tmp := t, stop := sp } := fun _ _ _ =>
      ⟨rfl, rfl, .rd h2, Nat.le_refl _, Nat.le_max_left _ _⟩
    split at h1
    · rename_i hne
      cases h1
      rw [if_pos hne] at h
      cases h
      refine ⟨skipped, hsk, .fails _ _ hne rfl ?_, hk.trans (hk2 _ _ _), ?_⟩
      · exact read_fail_ev h2 hne
      · exact (rd_wrote h2).trans hwr
    · rename_i hs
      have hs : res2 = .success := by simpa using hs
      subst hs
      cases h1
      obtain ⟨o1, o2, o3, o4, o5⟩ := read_success h2
      simp only [ne_eq, not_true_eq_false, if_false] at h
      have htmp : be32 (ntohl tmp) = tmp := by rw [← htonl_eq, htonl_ntohl o4]
      split at h
      · rename_i hz
        have := dataFrame_next (r0 := r) (skipped := skipped)
          (r := { r1 with rdwr := rw }) (Nat.le_trans hcap hk.cap)
          (by omega) (ntohl_lt _) o3 h hk.max hst hsp
          (by simp only [o5, received_rd, hrec, htmp, List.append_assoc])
        refine ⟨skipped, hsk, this.1, hk.trans ((hk2 r1.state r1.tmp r1.stop).trans this.2.1), ?_⟩
        rw [this.2.2]; exact (rd_wrote h2).trans hwr
      · rename_i hz
        have hz : ntohl tmp = 0 := by simpa using hz
        obtain ⟨⟨res3, c, t, rw3⟩, h3, h⟩ := Exec.bind_eq_ok.1 h
        simp only at h
        have h3' : rw.readControlBody (r1.tmp.getD Control.init) = .ok (res3, c, t, rw3) := h3
        have hreach := readControlBody_rdreach h3'
        have hw3 : wrote rw3.log = wrote r.rdwr.log :=
          hreach.wrote.trans ((rd_wrote h2).trans hwr)
        have hk3 : ∀ st t sp, Kept r1 { r1 with rdwr := rw3, state := st, tmp := t, stop := sp } :=
          fun _ _ _ => ⟨rfl, rfl, (Reach.rd h2).trans hreach.reach, Nat.le_refl _, Nat.le_max_left _ _⟩
        split at h
        · rename_i hne
          cases h
          exact ⟨skipped, hsk, .fails _ _ hne rfl (readControlBody_fail h3' hne),
            hk.trans (hk3 _ _ _), hw3⟩
        · rename_i hs
          have hs : res3 = .success := by simpa using hs
          subst hs
          obtain ⟨p1, p2, p3, p4, f, q1, q2, q3, q4, q5⟩ := readControlBody_success h3'
          have hrec3 : received rw3.log = received r.rdwr.log ++
              (wires (skipped.map .ctl) ++ f.wire) := by
            rw [q5, o5, received_rd, hrec, ← htmp, hz]
            simp only [CFrame.wire, List.append_assoc]
          split at h
          · rename_i hstop
            rw [q4] at hstop
            have hft : f.type = .stop := CType.code_inj (Option.some.inj hstop)
            have hcts : f.cts = [] := by
              have := q1.2 0 (by rw [hft]; rfl)
              simpa using this
            have hfe : f = ⟨.stop, []⟩ := by
              cases f; simp_all
            cases h
            refine ⟨skipped, hsk, .stop _ rfl ?_ p2 ?_, hk.trans (hk3 _ _ _), hw3⟩
            · simp only [q3, hfe]; rfl
            · simp only [hrec3, hfe]
          · rename_i hns
            refine ih _ (skipped ++ [f]) ?_ (hk.trans (hk3 _ _ _)) hst hsp ?_ hw3 h
            · intro g hg
              rcases List.mem_append.1 hg with hg | hg
              · exact hsk g hg
              · have : g = f := by simpa using hg
                subst this
                refine ⟨q1, q2, fun he => hns ?_⟩
                rw [q4, he]; rfl
            · simp only [hrec3, wires, List.map_append, List.flatMap_append]
              simp [Item.wire]

/-! ### Opening -/

theorem readControl_fail {rw rw' : Rdwr σ} {c c' : Option Control} {t : Nat} {r : Res}
    (h : rw.readControl c t = .ok (r, c', rw')) (hr : r ≠ .success) :
    r = .failure ∨ Broke r rw' := by
  unfold Rdwr.readControl at h
  obtain ⟨⟨res, c1, t1, rw1⟩, h1, h⟩ := Exec.bind_eq_ok.1 h
  simp only at h
  split at h
  · rename_i hne
    cases h
    unfold Rdwr.readControlFrame at h1
    rw [if_pos rfl] at h1
    obtain ⟨⟨res, tmp, rw2⟩, h2, h1⟩ := Exec.bind_eq_ok.1 h1
    simp only at h1
    split at h1
    · rename_i hne; cases h1; exact read_fail_ev h2 hne
    · split at h1
      · cases h1; exact Or.inl rfl
      · exact readControlBody_fail h1 hne
  · split at h
    · cases h; exact Or.inl rfl
    · cases h; exact absurd rfl hr

theorem reader_compat {f : CFrame} (hf : f.WF) (ht : f.type = .start) (own : List Bytes) :
    Reader.matchLoop ⟨f.type.code, f.cts⟩ own true = true ↔ Spec.compatible own f.cts := by
  rw [ht, reader_matchLoop (Or.inl rfl) (visible_start hf ht)]
  unfold Spec.compatible
  constructor
  · rintro (⟨h, _⟩ | ⟨ct, h1, h2⟩)
    · exact Or.inl h
    · rcases h2 with h2 | h2
      · exact Or.inr (Or.inl h2)
      · exact Or.inr (Or.inr ⟨ct, h1, h2⟩)
  · rintro (h | h | ⟨ct, h1, h2⟩)
    · exact Or.inl ⟨h, rfl⟩
    · cases hr : own with
      | nil => exact Or.inl ⟨rfl, rfl⟩
      | cons ct _ => exact Or.inr ⟨ct, by simp, Or.inl h⟩
    · exact Or.inr ⟨ct, h1, Or.inr h2⟩

theorem openUnidirectional_ok {r r' : Reader σ} {res : Res}
    (h : r.openUnidirectional = .ok (res, r')) :
    Kept r r' ∧ r'.bufCap = r.bufCap ∧ r'.stop = r.stop ∧ r'.ready = r.ready ∧
    r'.accept = r.accept ∧ RdReach r.rdwr r'.rdwr ∧
    (res = .success → r'.state = .opened ∧ r'.rdwr.opened = true ∧
      ∃ f : CFrame, f.WF ∧ f.payload.length ≤ 512 ∧ f.type = .start ∧
        Spec.compatible r.cts f.cts ∧ r'.start = some ⟨T_START, f.cts⟩ ∧
        received r'.rdwr.log = received r.rdwr.log ++ f.wire) ∧
    (res ≠ .success → r'.state = r.state ∧ (res = .failure ∨ Broke res r'.rdwr)) := by
  unfold Reader.openUnidirectional at h
  obtain ⟨⟨res1, c, rw⟩, h1, h⟩ := Exec.bind_eq_ok.1 h
  simp only at h
  have hr := readControl_rdreach h1
  have hk : ∀ st s, Kept r { r with rdwr := rw, start := s, state := st } := fun _ _ =>
    ⟨rfl, rfl, hr.reach, Nat.le_refl _, Nat.le_max_left _ _⟩
  split at h
  · rename_i hne
    cases h
    exact ⟨hk _ _, rfl, rfl, rfl, rfl, hr, fun h => absurd h hne, fun _ => ⟨rfl, readControl_fail h1 hne⟩⟩
  · rename_i hs
    have hs : res1 = .success := by simpa using hs
    subst hs
    obtain ⟨p1, p2, p3, p4, f, q1, q2, q3, rfl, q5⟩ := readControl_success h1
    have hft : f.type = .start := CType.code_inj q3
    simp only at h
    split at h
    · cases h
      exact ⟨hk _ _, rfl, rfl, rfl, rfl, hr, nofun, fun _ => ⟨rfl, Or.inl rfl⟩⟩
    · rename_i hm
      cases h
      refine ⟨hk _ _, rfl, rfl, rfl, rfl, hr, fun _ => ⟨rfl, p2, f, q1, q2, hft, ?_, ?_, q5⟩,
        fun h => absurd rfl h⟩
      · rw [← reader_compat q1 hft]; simpa using hm
      · rw [hft]; rfl

/-- A callback of any kind reported `r`. -/
def Reported (r : Res) (rw : Rdwr σ) : Prop :=
  Ev.opn r ∈ rw.log ∨ (∃ n bs, Ev.rd n r bs ∈ rw.log) ∨ (∃ iov, Ev.wr iov r ∈ rw.log)

theorem writeControlFrame_fail {rw rw' : Rdwr σ} {t : CType} {cts : List Bytes} {r : Res}
    (h : rw.writeControlFrame ⟨t.code, cts⟩ = .ok (r, rw')) (hr : r ≠ .success) :
    (r = .failure ∨ (∃ iov, Ev.wr iov r ∈ rw'.log) ∧ (rw'.ops.cls ≠ none → rw'.opened = false)) ∧
    wrote rw'.log = wrote rw.log ∧ received rw'.log = received rw.log := by
  rw [writeControlFrame_eq] at h
  split at h
  · obtain ⟨ho, h2⟩ := Rdwr.write_ok h
    rcases h2 with ⟨_, h2, h3⟩ | ⟨_, h2, _⟩ | ⟨_, _, ⟨h3, _, h2⟩ | ⟨_, h3, rc, h2⟩⟩
    · rw [h3]; exact ⟨Or.inl h2, rfl, rfl⟩
    · exact absurd h2 hr
    · refine ⟨Or.inr ⟨⟨[CFrame.wire ⟨t, t.visible cts⟩], by rw [h2]; simp⟩, fun h => absurd h3 (by rw [← ho]; exact h)⟩, ?_, ?_⟩
      · rw [h2, wrote_append]; cases r <;> simp_all [wrote]
      · rw [h2, received_append]; simp [received]
    · refine ⟨Or.inr ⟨⟨[CFrame.wire ⟨t, t.visible cts⟩], by rw [h2]; simp⟩, fun _ => h3⟩, ?_, ?_⟩
      · rw [h2, wrote_append]; cases r <;> simp_all [wrote]
      · rw [h2, received_append]; simp [received]
  · cases h; exact ⟨Or.inl rfl, rfl, rfl⟩

theorem openBidirectional_ok {r r' : Reader σ} {res : Res}
    (h : r.openBidirectional = .ok (res, r')) :
    Kept r r' ∧ r'.bufCap = r.bufCap ∧ r'.stop = r.stop ∧
    (wrote r'.rdwr.log = wrote r.rdwr.log ∧ res ≠ .success ∨
      ∃ g : CFrame, g.WF ∧ g.payload.length ≤ 512 ∧ g.type = .ready ∧
        r'.ready = some ⟨T_READY, g.cts⟩ ∧
        r'.accept = some ⟨T_ACCEPT, Spec.common r.cts g.cts⟩ ∧
        wrote r'.rdwr.log = wrote r.rdwr.log ++
          CFrame.wire ⟨.accept, Spec.common r.cts g.cts⟩ ∧
        (∃ more, received r'.rdwr.log = received r.rdwr.log ++ g.wire ++ more) ∧
        (res = .success → r'.state = .opened ∧ r'.rdwr.opened = true ∧
          ∃ f : CFrame, f.WF ∧ f.payload.length ≤ 512 ∧ f.type = .start ∧
          Spec.compatible r.cts f.cts ∧ r'.start = some ⟨T_START, f.cts⟩ ∧
          received r'.rdwr.log = received r.rdwr.log ++ g.wire ++ f.wire)) ∧
    (res ≠ .success → r'.state = r.state ∧ (res = .failure ∨ Reported res r'.rdwr ∧
      (r'.rdwr.ops.cls ≠ none → r'.rdwr.opened = false))) := by
  unfold Reader.openBidirectional at h
  obtain ⟨⟨res1, c, rw⟩, h1, h⟩ := Exec.bind_eq_ok.1 h
  simp only at h
  have hr := readControl_rdreach h1
  split at h
  · rename_i hne
    cases h
    refine ⟨⟨rfl, rfl, hr.reach, Nat.le_refl _, Nat.le_max_left _ _⟩, rfl, rfl,
      Or.inl ⟨hr.wrote, hne⟩, fun _ => ⟨rfl, ?_⟩⟩
    rcases readControl_fail h1 hne with h | h
    · exact Or.inl h
    · exact Or.inr ⟨Or.inr (Or.inl h.1), h.2⟩
  · rename_i hs
    have hs : res1 = .success := by simpa using hs
    subst hs
    obtain ⟨p1, p2, p3, p4, g, q1, q2, q3, rfl, q5⟩ := readControl_success h1
    have hgt : g.type = .ready := CType.code_inj q3
    have hfc : (freshControl r.accept).setType T_ACCEPT = (.success, ⟨T_ACCEPT, []⟩) := by
      unfold freshControl
      cases r.accept <;> rfl
    simp only [hfc, hgt, acceptLoop_eq, List.nil_append, ne_eq, not_true_eq_false, if_false] at h
    obtain ⟨⟨res2, rw2⟩, h2, h⟩ := Exec.bind_eq_ok.1 h
    simp only at h
    have h2' : rw.writeControlFrame ⟨CType.accept.code, Spec.common r.cts g.cts⟩ = .ok (res2, rw2) :=
      h2
    have hr2 := hr.reach.trans (writeControlFrame_reach h2')
    split at h
    · rename_i hne
      cases h
      obtain ⟨e1, e2, _⟩ := writeControlFrame_fail h2' hne
      refine ⟨⟨rfl, rfl, hr2, Nat.le_refl _, Nat.le_max_left _ _⟩, rfl, rfl,
        Or.inl ⟨e2.trans hr.wrote, hne⟩, fun _ => ⟨rfl, ?_⟩⟩
      rcases e1 with e1 | e1
      · exact Or.inl e1
      · exact Or.inr ⟨Or.inr (Or.inr e1.1), e1.2⟩
    · rename_i hs
      have hs : res2 = .success := by simpa using hs
      subst hs
      obtain ⟨e1, e2, e3, e4⟩ := writeControlFrame_success h2'
      obtain ⟨k1, k2, k3, k4, k5, k6, k7, k8⟩ := openUnidirectional_ok h
      simp only at k1 k2 k3 k4 k5 k6 k7 k8
      have hrec : received rw2.log = received r.rdwr.log ++ g.wire := by
        rw [← q5]; simp only [e4, received_append]; simp [received]
      refine ⟨⟨k1.cts, k1.max, hr2.trans k1.reach, k1.cap, k1.cap'⟩, k2, k3, Or.inr
        ⟨g, q1, q2, hgt, k4, k5, ?_, ?_, ?_⟩, ?_⟩
      · rw [k6.wrote]; simp only [e4, wrote_append]; simp [wrote, p4, CType.visible]
      · obtain ⟨more, hm⟩ := RdReach.received k6
        exact ⟨more, by rw [hm, hrec]⟩
      · intro hs
        obtain ⟨m1, m2, f, m3, m4, m5, m6, m7, m8⟩ := k7 hs
        exact ⟨m1, m2, f, m3, m4, m5, m6, m7, by rw [m8, hrec]⟩
      · intro hs
        obtain ⟨m1, m2⟩ := k8 hs
        refine ⟨m1, ?_⟩
        rcases m2 with m2 | m2
        · exact Or.inl m2
        · exact Or.inr ⟨Or.inr (Or.inl m2.1), m2.2⟩

/-- What a successful open has exchanged. -/
def Handshake (r r' : Reader σ) : Prop :=
  ∃ f : CFrame, f.WF ∧ f.payload.length ≤ 512 ∧ f.type = .start ∧
    Spec.compatible r.cts f.cts ∧ r'.start = some ⟨T_START, f.cts⟩ ∧
    ((r.rdwr.ops.wr = none ∧ received r'.rdwr.log = received r.rdwr.log ++ f.wire ∧
        wrote r'.rdwr.log = wrote r.rdwr.log) ∨
     ∃ g : CFrame, r.rdwr.ops.wr ≠ none ∧ g.WF ∧ g.payload.length ≤ 512 ∧ g.type = .ready ∧
        received r'.rdwr.log = received r.rdwr.log ++ g.wire ++ f.wire ∧
        wrote r'.rdwr.log = wrote r.rdwr.log ++ CFrame.wire ⟨.accept, Spec.common r.cts g.cts⟩)

theorem open_log {a b : Rdwr σ} {r : Res} (h : a.open = .ok (r, b)) :
    wrote b.log = wrote a.log ∧ received b.log = received a.log ∧ (r ≠ .success →
      r = .failure ∨ Ev.opn r ∈ b.log) := by
  obtain ⟨_, h⟩ := Rdwr.open_ok h
  rcases h with ⟨_, hf, rfl⟩ | ⟨h, _⟩
  · exact ⟨rfl, rfl, fun _ => Or.inl hf⟩
  · rw [h, wrote_append, received_append]
    exact ⟨by simp [wrote], by simp [received], fun _ => Or.inr (by simp)⟩

theorem reader_open_ok {r r' : Reader σ} {res : Res} (h : r.open = .ok (res, r')) :
    Kept r r' ∧ r'.bufCap = r.bufCap ∧ r'.stop = r.stop ∧
    (res = .success → r.state ≠ .opened ∧ r'.state = .opened ∧ r'.rdwr.opened = true ∧
      Handshake r r') ∧
    (res ≠ .success → r'.state = r.state ∧ (res = .failure ∨ Reported res r'.rdwr ∧
      (r.rdwr.opened = false → r.rdwr.ops.cls ≠ none → r'.rdwr.opened = false))) ∧
    (wrote r'.rdwr.log = wrote r.rdwr.log ∨
      ∃ g : CFrame, g.WF ∧ g.payload.length ≤ 512 ∧ g.type = .ready ∧
        wrote r'.rdwr.log = wrote r.rdwr.log ++
          CFrame.wire ⟨.accept, Spec.common r.cts g.cts⟩ ∧
        ∃ more, received r'.rdwr.log = received r.rdwr.log ++ g.wire ++ more) := by
  unfold Reader.open at h
  split at h
  · cases h
    exact ⟨.refl _, rfl, rfl, nofun, fun _ => ⟨rfl, Or.inl rfl⟩, Or.inl rfl⟩
  · rename_i hns
    obtain ⟨⟨res1, rw⟩, h1, h⟩ := Exec.bind_eq_ok.1 h
    simp only at h
    obtain ⟨ow, oc, of⟩ := open_log h1
    have hops := (Rdwr.open_ok h1).1
    split at h
    · rename_i hne
      cases h
      refine ⟨⟨rfl, rfl, .opn h1, Nat.le_refl _, Nat.le_max_left _ _⟩, rfl, rfl,
        fun h => absurd h hne, fun _ => ⟨rfl, ?_⟩, Or.inl ow⟩
      rcases of hne with h | h
      · exact Or.inl h
      · refine Or.inr ⟨Or.inl h, fun ho _ => ?_⟩
        obtain ⟨_, h3⟩ := Rdwr.open_ok h1
        rcases h3 with ⟨_, _, rfl⟩ | ⟨_, h3⟩
        · exact ho
        · rw [h3]; simp [ho, hne]
    · obtain ⟨⟨res2, r2⟩, h2, h⟩ := Exec.bind_eq_ok.1 h
      simp only at h
      have hr' : r' = (if res2 = .success then { r2 with state := .opened } else r2) ∧ res = res2 := by
        split at h
        · rename_i hne; cases h; exact ⟨by rw [if_neg hne], rfl⟩
        · rename_i hs
          have hs : res2 = .success := by simpa using hs
          subst hs; cases h; exact ⟨by simp, rfl⟩
      obtain ⟨hr', rfl⟩ := hr'
      have hrd : r'.rdwr = r2.rdwr ∧ r'.cts = r2.cts ∧ r'.maxFrameSize = r2.maxFrameSize ∧
          r'.bufCap = r2.bufCap ∧ r'.stop = r2.stop ∧ r'.start = r2.start ∧
          (res = .success → r'.state = .opened) ∧ (res ≠ .success → r'.state = r2.state) := by
        rw [hr']
        split <;> simp_all
      obtain ⟨d1, d2, d3, d4, d5, d6, d7, d8⟩ := hrd
      split at h2
      · rename_i hw
        obtain ⟨k1, k2, k3, k4, k5⟩ := openBidirectional_ok h2
        simp only at k1 k2 k3 k4 k5
        refine ⟨⟨by rw [d2]; exact k1.cts, by rw [d3]; exact k1.max,
          by rw [d1]; exact (Reach.opn h1).trans k1.reach, by rw [d4]; exact k1.cap,
          by rw [d4]; exact k1.cap'⟩, by rw [d4]; exact k2, by rw [d5]; exact k3, ?_, ?_, ?_⟩
        · intro hs
          rcases k4 with ⟨_, k4⟩ | ⟨g, g1, g2, g3, g4, g5, g6, g7, g8⟩
          · exact absurd hs k4
          · obtain ⟨m1, m2, f, m3, m4, m5, m6, m7, m8⟩ := g8 hs
            refine ⟨hns, d7 hs, by rw [d1]; exact m2, f, m3, m4, m5, m6, by rw [d6]; exact m7,
              Or.inr ⟨g, ?_, g1, g2, g3, ?_, ?_⟩⟩
            · rw [hops] at hw; intro hn; rw [hn] at hw; simp at hw
            · rw [d1, m8, oc]
            · rw [d1, g6, ow]
        · intro hs
          obtain ⟨m1, m2⟩ := k5 hs
          refine ⟨by rw [d8 hs, m1], ?_⟩
          rw [d1]
          rcases m2 with m2 | m2
          · exact Or.inl m2
          · exact Or.inr ⟨m2.1, fun _ hc => m2.2 (by rw [k1.reach.ops, hops]; exact hc)⟩
        · rw [d1]
          rcases k4 with ⟨k4, _⟩ | ⟨g, g1, g2, g3, g4, g5, g6, ⟨more, g7⟩, g8⟩
          · exact Or.inl (k4.trans ow)
          · exact Or.inr ⟨g, g1, g2, g3, by rw [g6, ow], more, by rw [g7, oc]⟩
      · rename_i hw
        obtain ⟨k1, k2, k3, k4, k5, k6, k7, k8⟩ := openUnidirectional_ok h2
        simp only at k1 k2 k3 k4 k5 k6 k7 k8
        refine ⟨⟨by rw [d2]; exact k1.cts, by rw [d3]; exact k1.max,
          by rw [d1]; exact (Reach.opn h1).trans k1.reach, by rw [d4]; exact k1.cap,
          by rw [d4]; exact k1.cap'⟩, by rw [d4]; exact k2, by rw [d5]; exact k3, ?_, ?_, ?_⟩
        · intro hs
          obtain ⟨m1, m2, f, m3, m4, m5, m6, m7, m8⟩ := k7 hs
          refine ⟨hns, d7 hs, by rw [d1]; exact m2, f, m3, m4, m5, m6, by rw [d6]; exact m7,
            Or.inl ⟨?_, ?_, ?_⟩⟩
          · rw [hops] at hw; cases hh : r.rdwr.ops.wr <;> simp_all
          · rw [d1, m8, oc]
          · rw [d1, k6.wrote, ow]
        · intro hs
          obtain ⟨m1, m2⟩ := k8 hs
          refine ⟨by rw [d8 hs, m1], ?_⟩
          rw [d1]
          rcases m2 with m2 | m2
          · exact Or.inl m2
          · exact Or.inr ⟨Or.inr (Or.inl m2.1),
              fun _ hc => m2.2 (by rw [k1.reach.ops, hops]; exact hc)⟩
        · rw [d1, k6.wrote]; exact Or.inl ow

theorem reader_maybeOpen_cases {r r' : Reader σ} {res : Res} (h : r.maybeOpen = .ok (res, r')) :
    (r.state ≠ .opening ∧ res = .success ∧ r' = r) ∨ (r.state = .opening ∧ r.open = .ok (res, r')) := by
  unfold Reader.maybeOpen at h
  split at h
  · exact Or.inr ⟨‹_›, h⟩
  · cases h; exact Or.inl ⟨‹_›, rfl, rfl⟩

theorem reader_close_ok {r r' : Reader σ} {res : Res} (h : r.close = .ok (res, r')) :
    Kept r r' ∧ r'.bufCap = r.bufCap ∧ r'.stop = r.stop ∧ received r'.rdwr.log = received r.rdwr.log ∧
    (r.state ≠ .opened ∧ r.state ≠ .closing → r' = r ∧ res = .failure) ∧
    (r.state = .opened ∨ r.state = .closing → r'.state = .closed ∧
      (r.rdwr.ops.cls ≠ none → r'.rdwr.opened = false)) := by
  have closed : ∀ (a b : Rdwr σ) (rc : Res), a.close = .ok (rc, b) →
      received b.log = received a.log ∧ b.ops = a.ops ∧ (a.ops.cls ≠ none → b.opened = false) := by
    intro a b rc hc
    obtain ⟨ho, hc⟩ := Rdwr.close_ok hc
    rcases hc with ⟨h1, _, rfl⟩ | ⟨_, h2, _, rfl⟩ | ⟨_, _, h2, h3⟩
    · exact ⟨rfl, ho, fun h => absurd h1 h⟩
    · exact ⟨rfl, ho, fun _ => h2⟩
    · rw [h3, received_append]; exact ⟨by simp [received], ho, fun _ => h2⟩
  unfold Reader.close at h
  split at h
  · rename_i hns
    cases h
    exact ⟨.refl _, rfl, rfl, rfl, fun _ => ⟨rfl, rfl⟩, fun h => by
      rcases h with h | h
      · exact absurd h hns.1
      · exact absurd h hns.2⟩
  · rename_i hns
    have hn1 : ¬(r.state ≠ .opened ∧ r.state ≠ .closing) := hns
    simp only at h
    split at h
    · rename_i hw
      rw [writeControl_finish] at h
      obtain ⟨⟨res1, rw1⟩, h1, h⟩ := Exec.bind_eq_ok.1 h
      have hrec1 : received rw1.log = received r.rdwr.log := by
        obtain ⟨_, h2⟩ := Rdwr.write_ok h1
        rcases h2 with ⟨_, _, h2⟩ | ⟨_, _, _, h2⟩ | ⟨_, _, ⟨_, _, h2⟩ | ⟨_, _, rc, h2⟩⟩
        · rw [h2]
        all_goals rw [h2, received_append]; simp [received]
      have hops1 := (Rdwr.write_ok h1).1
      simp only at h
      obtain ⟨rc, rw2, h2, hr'⟩ : ∃ rc rw2, rw1.close = .ok (rc, rw2) ∧
          r' = { r with state := .closed, rdwr := rw2 } := by
        split at h
        · obtain ⟨⟨rc, rw2⟩, h2, h⟩ := Exec.bind_eq_ok.1 h
          cases h; exact ⟨_, _, h2, rfl⟩
        · obtain ⟨⟨rc, rw2⟩, h2, h⟩ := Exec.bind_eq_ok.1 h
          cases h; exact ⟨_, _, h2, rfl⟩
      obtain ⟨c1, c2, c3⟩ := closed _ _ _ h2
      subst hr'
      refine ⟨⟨rfl, rfl, (Reach.wr h1).trans (.cls h2), Nat.le_refl _, Nat.le_max_left _ _⟩, rfl, rfl,
        c1.trans hrec1, fun h => absurd h hn1, fun _ => ⟨rfl, fun h => c3 ?_⟩⟩
      rw [hops1]; exact h
    · obtain ⟨⟨rc, rw2⟩, h2, h⟩ := Exec.bind_eq_ok.1 h
      cases h
      obtain ⟨c1, c2, c3⟩ := closed _ _ _ h2
      exact ⟨⟨rfl, rfl, .cls h2, Nat.le_refl _, Nat.le_max_left _ _⟩, rfl, rfl, c1,
        fun h => absurd h hn1, fun _ => ⟨rfl, c3⟩⟩

theorem reader_getControl_ok {r r' : Reader σ} {t : Nat} {c : Option Control} {res : Res}
    (h : r.getControl t = .ok (res, c, r')) : ∃ res1, r.maybeOpen = .ok (res1, r') ∧
      (res1 ≠ .success → res = res1) := by
  unfold Reader.getControl at h
  obtain ⟨⟨res1, r1⟩, h1, h⟩ := Exec.bind_eq_ok.1 h
  simp only at h
  have : r' = r1 ∧ (res1 ≠ .success → res = res1) := by
    split at h
    · cases h; exact ⟨rfl, fun _ => rfl⟩
    · rename_i hs
      have hs : res1 = .success := by simpa using hs
      refine ⟨?_, fun h => absurd hs h⟩
      split at h
      · cases h; rfl
      · split at h
        · cases h; rfl
        · split at h
          · cases h; rfl
          · split at h
            · cases h; rfl
            · cases h; rfl
  obtain ⟨rfl, h2⟩ := this
  exact ⟨res1, h1, h2⟩

theorem reader_read_cases {fuel : Nat} {r r' : Reader σ} {d : Option Bytes} {res : Res}
    (h : r.read fuel = .ok (res, d, r')) :
    ∃ res1 r1, r.maybeOpen = .ok (res1, r1) ∧
      ((res1 ≠ .success ∧ res = res1 ∧ d = none ∧ r' = r1) ∨
       (res1 = .success ∧ r1.state = .opened ∧ Reader.nextData fuel r1 = .ok (res, d, r')) ∨
       (res1 = .success ∧ r1.state = .closed ∧ res = .stop ∧ d = none ∧ r' = r1) ∨
       (res1 = .success ∧ r1.state ≠ .opened ∧ r1.state ≠ .closed ∧ res = .failure ∧ d = none ∧
        r' = r1)) := by
  unfold Reader.read at h
  obtain ⟨⟨res1, r1⟩, h1, h⟩ := Exec.bind_eq_ok.1 h
  simp only at h
  refine ⟨res1, r1, h1, ?_⟩
  split at h
  · rename_i hne; cases h; exact Or.inl ⟨hne, rfl, rfl, rfl⟩
  · rename_i hs
    have hs : res1 = .success := by simpa using hs
    split at h
    · exact Or.inr (Or.inl ⟨hs, ‹_›, h⟩)
    · split at h
      · cases h; exact Or.inr (Or.inr (Or.inl ⟨hs, ‹_›, rfl, rfl, rfl⟩))
      · cases h; exact Or.inr (Or.inr (Or.inr ⟨hs, ‹_›, ‹_›, rfl, rfl, rfl⟩))

theorem reader_maybeOpen_kept {r r' : Reader σ} {res : Res} (h : r.maybeOpen = .ok (res, r')) :
    Kept r r' := by
  rcases reader_maybeOpen_cases h with ⟨_, _, rfl⟩ | ⟨_, h⟩
  · exact .refl _
  · exact (reader_open_ok h).1

theorem reader_read_kept {fuel : Nat} {r r' : Reader σ} {d : Option Bytes} {res : Res}
    (hcap : 1 ≤ r.bufCap) (h : r.read fuel = .ok (res, d, r')) : Kept r r' := by
  obtain ⟨res1, r1, h1, h⟩ := reader_read_cases h
  have k := reader_maybeOpen_kept h1
  rcases h with ⟨_, _, _, rfl⟩ | ⟨_, _, h⟩ | ⟨_, _, _, _, rfl⟩ | ⟨_, _, _, _, _, rfl⟩
  · exact k
  · obtain ⟨_, _, _, k2, _⟩ := nextData_next fuel (Nat.le_trans hcap k.cap) h
    exact k.trans k2
  · exact k
  · exact k

theorem reader_step_kept {fuel : Nat} {r r' : Reader σ} {op : ROp} {d : Option Bytes} {res : Res}
    (hcap : 1 ≤ r.bufCap) (h : r.step fuel op = .ok (res, d, r')) : Kept r r' := by
  cases op with
  | opn =>
    obtain ⟨⟨res1, r1⟩, h1, h⟩ := Exec.bind_eq_ok.1 h
    cases h; exact (reader_open_ok h1).1
  | read => exact reader_read_kept hcap h
  | getControl t =>
    obtain ⟨⟨res1, c, r1⟩, h1, h⟩ := Exec.bind_eq_ok.1 h
    cases h
    obtain ⟨_, h2, _⟩ := reader_getControl_ok h1
    exact reader_maybeOpen_kept h2
  | close =>
    obtain ⟨⟨res1, r1⟩, h1, h⟩ := Exec.bind_eq_ok.1 h
    cases h; exact (reader_close_ok h1).1

theorem reader_run_kept {fuel : Nat} {r r' : Reader σ} {ops : List ROp}
    {rs : List (Res × Option Bytes)}
    (hcap : 1 ≤ r.bufCap) (h : r.run fuel ops = .ok (rs, r')) : Kept r r' := by
  induction ops generalizing r rs with
  | nil => cases h; exact .refl _
  | cons op rest ih =>
    obtain ⟨⟨res, d, r1⟩, h1, h⟩ := Exec.bind_eq_ok.1 h
    obtain ⟨⟨rs', r2⟩, h2, h⟩ := Exec.bind_eq_ok.1 h
    cases h
    have k := reader_step_kept hcap h1
    exact k.trans (ih (Nat.le_trans hcap k.cap) h2)

theorem Reach.received {a b : Rdwr σ} (h : Reach a b) :
    ∃ more, received b.log = received a.log ++ more := by
  refine h.inv (P := fun x => ∃ more, Spec.received x.log = Spec.received a.log ++ more)
    ⟨[], by simp⟩ ?_
  rintro x y ⟨m, hm⟩ hp
  cases hp with
  | opn h => exact ⟨m, by rw [(open_log h).2.1, hm]⟩
  | cls h =>
    refine ⟨m, ?_⟩
    rcases (Rdwr.close_ok h).2 with ⟨_, _, rfl⟩ | ⟨_, _, _, rfl⟩ | ⟨_, _, _, h3⟩
    · exact hm
    · exact hm
    · rw [h3, received_append, hm]; simp [Spec.received]
  | rd h =>
    obtain ⟨m2, e2⟩ := rd_received h
    exact ⟨m ++ m2, by rw [e2, hm, List.append_assoc]⟩
  | wr h =>
    refine ⟨m, ?_⟩
    rcases (Rdwr.write_ok h).2 with ⟨_, _, h2⟩ | ⟨_, _, _, h2⟩ | ⟨_, _, ⟨_, _, h2⟩ | ⟨_, _, rc, h2⟩⟩
    · rw [h2, hm]
    all_goals rw [h2, received_append, hm]; simp [Spec.received]

end Fstrm
