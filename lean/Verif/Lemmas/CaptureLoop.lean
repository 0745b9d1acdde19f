import Verif.Lemmas.CaptureConn

/-! The read callback of `fstrm_capture`. -/

set_option autoImplicit false

namespace Fstrm

open Spec (CapEv CapItem CapPhase CFrame CType nextItem items serve serveItem dataFrame receivedFrom
  recordedFrom sentTo)

/-- No frame of 2^32 bytes or more in total. -/
def Sane (hw : Nat) (bs : Bytes) : Prop := ∀ n, .skipped n ∈ items hw bs → n < 2 ^ 32

/-- The server runs. -/
structure Up (s : Capture) : Prop where
  out : OutInv s
  file : s.outputFile.isSome
  running : s.exited = none
  ct : s.args.contentType.length ≤ 256
  hw : s.args.highwater < 2 ^ 31
  pos : 0 < s.args.highwater

/-- How the input buffer of `c` compares with that of `c'`, which is what it became: bytes were
taken out, or it is unchanged. -/
def Left (hw : Nat) (c c' : Conn) : Prop :=
  evLength c'.input < evLength c.input ∨ (c'.input = c.input ∧ (evLength c.input = 0 ∨
    (c.bytesSkip = 0 ∧ (nextItem hw c.input.flatten = none ∨
      ∃ n, nextItem hw c.input.flatten = some (.skipped n, n)))))

theorem Left.shorter {hw : Nat} {c c1 c' : Conn} (h : evLength c1.input < evLength c.input)
    (h1 : Left hw c1 c') : Left hw c c' := by
  left
  rcases h1 with h1 | ⟨h1, _⟩
  · omega
  · rw [h1]; exact h

/-- What the read callback does. -/
def LoopPost (id : Nat) (c : Conn) (s : Capture) (r : Exec Capture) : Prop :=
  ∃ s1 s', r = .ok s' ∧ LoopFrame id s s1 ∧ OutInv s1 ∧
    ((Up s1 ∧ ∃ c', s' = s1.setConn id (some c') ∧
        ConnRest s.args.contentType s.args.highwater id c' s1.log ∧ Left s.args.highwater c c') ∨
     (Up s1 ∧ s' = s1.closeConn id ∧ ConnEnd s.args.contentType s.args.highwater id s1.log) ∨
     (s1.exited = some 1 ∧ s' = s1 ∧ recordedFrom id s1.log <+:
        (serve s.args.contentType (items s.args.highwater (receivedFrom id s1.log))).recorded.map dataFrame ∧
        sentTo id s1.log <+:
        (serve s.args.contentType (items s.args.highwater (receivedFrom id s1.log))).replies.flatMap
          CFrame.wire))

theorem LoopPost.trans {id : Nat} {c c1 : Conn} {s s1 : Capture} {r : Exec Capture}
    (h : LoopFrame id s s1) (hc : evLength c1.input < evLength c.input)
    (p : LoopPost id c1 s1 r) : LoopPost id c s r := by
  obtain ⟨s2, s', e, f, o, p⟩ := p
  rw [h.args] at p
  refine ⟨s2, s', e, h.trans f, o, ?_⟩
  rcases p with ⟨u, c', e', r, l⟩ | p | p
  · exact Or.inl ⟨u, c', e', r, l.shorter hc⟩
  · exact Or.inr (Or.inl p)
  · exact Or.inr (Or.inr p)

theorem Up.of_out {s s1 : Capture} (h : Up s) (f : OutFrame s s1) (o : OutInv s1)
    (hf : s1.outputFile.isSome) : Up s1 :=
  ⟨o, hf, f.exited.trans h.running, by rw [f.args]; exact h.ct, by rw [f.args]; exact h.hw,
    by rw [f.args]; exact h.pos⟩

theorem serve_data {ct : Bytes} {its : List CapItem} {d : Bytes} {p : CapPhase}
    (h : (serve ct its).phase = some p) : serve ct (its ++ [.data d]) =
      { serve ct its with recorded := (serve ct its).recorded ++ [d] } := by
  rw [serve_snoc]
  cases hs : serve ct its with
  | mk ph r rp =>
    rw [hs] at h
    dsimp only at h
    subst h
    rfl

/-- What was recorded and sent so far is part of what the received bytes call for. -/
theorem ConnPre.sofar {ct : Bytes} {hw id : Nat} {c : Conn} {log : List CapEv} {its : List CapItem}
    (h : ConnPre ct hw id c log its) :
    recordedFrom id log <+:
        (serve ct (items hw (receivedFrom id log))).recorded.map dataFrame ∧
    sentTo id log <+: (serve ct (items hw (receivedFrom id log))).replies.flatMap CFrame.wire := by
  have := h.cut []
  rw [List.append_nil] at this
  rw [this]
  have hp := serve_prefix ct its (items hw ((c.input.flatten ++ []).drop c.bytesSkip))
  constructor
  · rw [h.recorded]
    exact hp.1.map _
  · obtain ⟨t, ht⟩ := hp.2
    rw [← ht, List.flatMap_append, ← h.replies, List.append_assoc]
    exact List.prefix_append _ _

theorem exit_of_outFrame {s s1 : Capture} (id : Nat) (f : OutFrame s s1) :
    LoopFrame id s (s1.exit 1) := by
  have := f.loop id
  exact ⟨this.args, this.env, this.remaining, this.listening, this.conns, this.nextId, this.log⟩

theorem cbReadLoop_spec (id : Nat) : ∀ (fuel : Nat) (c : Conn) (s : Capture) (its : List CapItem),
    Up s → evLength c.input < fuel → evLength c.input ≤ s.args.highwater →
    ConnPre s.args.contentType s.args.highwater id c s.log its →
    Sane s.args.highwater (receivedFrom id s.log) →
    LoopPost id c s (Capture.cbReadLoop id fuel c s) := by
  intro fuel
  induction fuel with
  | zero => intro c s its _ h; omega
  | succ fuel ih =>
    intro c s its up hfuel hcap pre sane
    unfold Capture.cbReadLoop
    dsimp only
    by_cases h0 : evLength c.input = 0
    · rw [if_pos h0]
      have hnil : c.input.flatten = [] := List.length_eq_zero_iff.1 h0
      have hits : items s.args.highwater (receivedFrom id s.log) = its := by
        have := pre.cut []
        simpa [hnil] using this
      exact ⟨s, _, rfl, LoopFrame.refl id s, up.out, Or.inl ⟨up, c, rfl, ⟨by rw [hits]; exact pre,
        fun _ => by rw [hnil]; rfl⟩, Or.inr ⟨rfl, Or.inl h0⟩⟩⟩
    rw [if_neg h0]
    by_cases hs : c.bytesSkip > 0
    · rw [if_pos hs]
      generalize hk : (if c.bytesSkip > evLength c.input then evLength c.input else c.bytesSkip) = k
      have hk1 : 0 < k ∧ k ≤ evLength c.input ∧ k ≤ c.bytesSkip ∧
          (k = c.bytesSkip ∨ k = evLength c.input) := by
        split at hk <;> omega
      have hlen : evLength (evDrain k c.input) = evLength c.input - k := by
        simp [evLength, evDrain_flatten]
      refine LoopPost.trans (c1 := { c with
        input := evDrain k c.input, bytesSkip := c.bytesSkip - k }) (LoopFrame.refl id s)
        (by rw [hlen]; omega) ?_
      apply ih _ _ its up
      · rw [hlen]; omega
      · rw [hlen]; omega
      · refine ⟨?_, pre.phase, pre.recorded, pre.replies, evDrain_nonempty _ _ pre.chains,
          fun h => pre.skip (by dsimp only at h; omega)⟩
        intro x
        rw [pre.cut x]
        dsimp only
        congr 2
        rw [evDrain_flatten, ← List.drop_append_of_le_length hk1.2.1, List.drop_drop]
        congr 1
        omega
      · exact sane
    rw [if_neg hs]
    have hz : c.bytesSkip = 0 := by omega
    have hitems : ∀ {it : CapItem} {n : Nat},
        nextItem s.args.highwater c.input.flatten = some (it, n) → it ≠ .bad →
        it ∈ items s.args.highwater (receivedFrom id s.log) := by
      intro it n hn hb
      have := pre.next hz hn hb []
      rw [List.append_nil] at this
      rw [this]
      simp
    have hcan := canRead_spec hcap up.hw
      (fun n hn => sane n (hitems hn (by nofun)))
    rcases nextItem_cases s.args.highwater c.input.flatten with hn | ⟨d, hn, hd1, hd2, hd3, hd4, hd5⟩ |
      ⟨n, hn, hn1, hn2, hn3⟩ | ⟨hn, hn1⟩ | ⟨b, hn, hb1, hb2, hb3, hb4, hb5⟩
    · -- more bytes are needed
      rw [hn] at hcan
      dsimp only at hcan
      rw [hcan]
      have hits : items s.args.highwater (receivedFrom id s.log) = its := by
        have := pre.cut []
        rw [List.append_nil, List.append_nil, hz, List.drop_zero, items_none hn,
          List.append_nil] at this
        exact this
      have hce : { c with bytesSkip := 0 } = c := by rw [← hz]
      dsimp only
      rw [hce]
      exact ⟨s, _, rfl, LoopFrame.refl id s, up.out, Or.inl ⟨up, c, rfl, ⟨by rw [hits]; exact pre,
        fun _ => hn⟩, Or.inr ⟨rfl, Or.inr ⟨hz, Or.inl hn⟩⟩⟩⟩
    · -- a data frame
      rw [hn] at hcan
      dsimp only at hcan
      rw [hcan]
      dsimp only
      rw [if_pos (by omega)]
      obtain ⟨i, hi⟩ := Option.isSome_iff_exists.1 up.file
      obtain ⟨k, vs, ⟨e, hv⟩ | ⟨w, v, e, hv⟩⟩ := processDataFrame_spec id c (4 + d.length) hi (by omega) hd4
      · rw [hd5] at e hv
        rw [e]
        simp only [Exec.ok_bind, up.running, Option.isSome_none, Bool.false_eq_true, if_false]
        generalize hs1 : ({ s with
          nWrite := k, files := s.files.modify i (· ++ dataFrame d)
          log := s.log ++ [.recorded id (dataFrame d)], io := s.io ++ writes i vs } : Capture) = s1
        have out1 : OutInv s1 := by rw [← hs1]; exact up.out.record hi up.running hv
        have fr1 : LoopFrame id s s1 := by
          rw [← hs1]
          refine ⟨rfl, rfl, rfl, rfl, rfl, rfl, _, rfl, ?_⟩
          intro e he
          rw [List.mem_singleton] at he
          exact Or.inr ⟨d, he, fun h => by simp [h] at hd1, hd2⟩
        have file1 : s1.outputFile.isSome := by rw [← hs1]; exact up.file
        have run1 : s1.exited = none := by rw [← hs1]; exact up.running
        have up1 : Up s1 := ⟨out1, file1, run1, by rw [fr1.args]; exact up.ct,
          by rw [fr1.args]; exact up.hw, by rw [fr1.args]; exact up.pos⟩
        obtain ⟨s2, s', e2, o2, f2, g2⟩ := maybeRotateOutput_spec out1 file1 run1
        rw [show ({ s with
          nWrite := k, files := s.files.modify i (· ++ dataFrame d)
          log := s.log ++ [.recorded id (dataFrame d)], io := s.io ++ writes i vs
          exited := none } : Capture) = s1 by
            rw [← hs1, ← up.running]]
        rw [e2]
        simp only [Exec.ok_bind]
        have hR : receivedFrom id s1.log = receivedFrom id s.log := by
          obtain ⟨es, h1, h2⟩ := fr1.log
          rw [h1]
          exact receivedFrom_out (fun e he => (h2 e he).imp (fun h => h) (fun ⟨d, hb, _⟩ => ⟨id, _, hb⟩))
        have pre1 : ConnPre s.args.contentType s.args.highwater id
            { c with input := evDrain (4 + d.length) c.input } s1.log (its ++ [.data d]) := by
          have hsv := serve_data (d := d) pre.phase
          refine ⟨?_, ?_, ?_, ?_, evDrain_nonempty _ _ pre.chains, fun h => absurd hz h⟩
          · intro x
            rw [hR, pre.next hz hn (by nofun) x]
            dsimp only
            rw [hz, List.drop_zero, evDrain_flatten, List.drop_append_of_le_length hd4]
          · rw [hsv]; exact pre.phase
          · rw [hsv, ← hs1]
            simp only [recordedFrom, List.filterMap_append, List.map_append]
            have := pre.recorded
            unfold recordedFrom at this
            rw [this]
            simp
          · rw [hsv, ← hs1]
            have := pre.replies
            simp only [sentTo, List.flatMap_append] at this ⊢
            simpa using this
        rcases g2 with ⟨rfl, hf⟩ | rfl
        · have hx : s'.exited = none := f2.exited.trans run1
          rw [hx]
          simp only [Option.isSome_none, Bool.false_eq_true, if_false]
          have up2 : Up s' := up1.of_out f2 o2 hf
          have hargs : s'.args = s.args := f2.args.trans fr1.args
          have hlen : evLength (evDrain (4 + d.length) c.input) = evLength c.input - (4 + d.length) := by
            simp [evLength, evDrain_flatten]
          refine LoopPost.trans (c1 := { c with input := evDrain (4 + d.length) c.input })
            (fr1.trans (f2.loop id)) (by rw [hlen]; omega) ?_
          have hR2 : receivedFrom id s'.log = receivedFrom id s.log := by
            obtain ⟨es, h1, h2⟩ := f2.log
            rw [h1, ← hR]
            exact receivedFrom_out (fun e he => Or.inl (h2 e he))
          apply ih _ _ (its ++ [.data d]) up2
          · rw [hlen]; omega
          · rw [hlen, hargs]; omega
          · rw [hargs]
            obtain ⟨es, h1, h2⟩ := f2.log
            rw [h1]
            exact pre1.out h2
          · rw [hargs, hR2]; exact sane
        · refine ⟨s2.exit 1, _, rfl, ?_, o2, Or.inr (Or.inr ⟨rfl, ?_, ?_⟩)⟩
          · exact fr1.trans (exit_of_outFrame id f2)
          · simp [Capture.exit]
          · obtain ⟨es, h1, h2⟩ := f2.log
            have := (pre1.out h2).sofar
            rw [← h1] at this
            exact this
      · rw [e]
        simp only [Exec.ok_bind, Option.isSome_some, if_true]
        have hout : ∀ e ∈ [CapEv.failed i], isOut e = true := by simp [isOut]
        refine ⟨_, _, rfl, ?_, up.out.giveUp (k := k) (w := w) hi up.running
          (by rw [hd5] at hv; exact hv),
          Or.inr (Or.inr ⟨rfl, rfl, (pre.out hout).sofar⟩)⟩
        exact ⟨rfl, rfl, rfl, rfl, rfl, rfl, _, rfl, fun e he => Or.inl (hout e he)⟩
    · -- a frame that does not fit
      rw [hn] at hcan
      dsimp only at hcan
      rw [hcan]
      dsimp only
      have hlt : evLength c.input < n := by omega
      have hsv : serve s.args.contentType (its ++ [.skipped n]) = serve s.args.contentType its := by
        rw [serve_snoc]
        unfold serveItem
        rw [pre.phase]
      have hits : items s.args.highwater (receivedFrom id s.log) = its ++ [.skipped n] := by
        have := pre.next hz hn (by nofun) []
        rw [List.append_nil, List.append_nil, List.drop_of_length_le (by exact Nat.le_of_lt hlt), items_nil,
          List.append_nil] at this
        exact this
      refine ⟨s, _, rfl, LoopFrame.refl id s, up.out, Or.inl ⟨up, _, rfl, ⟨?_,
        fun h => by dsimp only at h; omega⟩, Or.inr ⟨rfl, Or.inr ⟨hz, Or.inr ⟨n, hn⟩⟩⟩⟩⟩
      rw [hits]
      exact ⟨fun x => pre.next hz hn (by nofun) x, by rw [hsv]; exact pre.phase,
        by rw [hsv]; exact pre.recorded, by rw [hsv]; exact pre.replies, pre.chains,
        fun _ => ⟨n, by simp⟩⟩
    · -- a control frame with an impossible length
      rw [hn] at hcan
      dsimp only at hcan
      rw [hcan]
      dsimp only
      have hits : items s.args.highwater (receivedFrom id s.log) = its ++ [.bad] := by
        have := pre.cut []
        rw [List.append_nil, List.append_nil, hz, List.drop_zero, items_bad hn] at this
        exact this
      have hsv : serve s.args.contentType (its ++ [.bad]) =
          { serve s.args.contentType its with phase := none } := by
        rw [serve_snoc]
        unfold serveItem
        rw [pre.phase]
      refine ⟨s, _, rfl, LoopFrame.refl id s, up.out, Or.inr (Or.inl ⟨up, rfl, ?_, ?_, ?_⟩)⟩ <;>
        rw [hits, hsv]
      · exact pre.recorded
      · exact ⟨_, pre.replies⟩
    · -- a control frame
      rw [hn] at hcan
      dsimp only at hcan
      rw [hcan]
      dsimp only
      rw [if_neg (by omega)]
      have hnext := fun x => pre.next hz hn (by nofun) x
      -- the server closes the connection
      have closing : ∀ sv, serve s.args.contentType (its ++ [.control b]) = sv → sv.phase = none →
          sv.replies = (serve s.args.contentType its).replies →
          sv.recorded = (serve s.args.contentType its).recorded →
          LoopPost id c s (.ok (s.closeConn id)) := by
        intro sv e h1 h2 h3
        have hall : serve s.args.contentType (items s.args.highwater (receivedFrom id s.log)) = sv := by
          have := hnext []
          rw [List.append_nil] at this
          rw [this, serve_append_closed (by rw [e]; exact h1), e]
        refine ⟨s, _, rfl, LoopFrame.refl id s, up.out, Or.inr (Or.inl ⟨up, rfl, ?_, ?_, ?_⟩)⟩ <;>
          rw [hall]
        · exact h1
        · rw [h3]; exact pre.recorded
        · rw [h2]; exact ⟨_, pre.replies⟩
      rcases loadControlFrame_spec c b hb4 hb2 hb5 with ⟨c', e, hno⟩ | ⟨inp, f, e, hf1, hf2, hf3, hf4, hf5⟩
      · rw [e]
        simp only [Exec.ok_bind, Bool.not_false, if_true]
        have hnfit : ∀ t, ¬ Spec.fits t s.args.contentType b := by
          rintro t ⟨h1, cts, h2, h3, _⟩
          exact hno ⟨h1, _, h2, h3.symm⟩
        have hnstop : b ≠ CFrame.payload ⟨.stop, []⟩ := by
          intro h
          refine hno ⟨?_, _, ⟨by simp, by intro m hm; cases hm; simp⟩, h.symm⟩
          rw [h]; simp [CFrame.payload, Spec.be32]
        have hsv : serve s.args.contentType (its ++ [.control b]) =
            { serve s.args.contentType its with phase := none } := by
          rw [serve_snoc]
          unfold serveItem
          rw [pre.phase]
          cases c.state <;> simp [phaseOf, hnfit, hnstop]
        exact closing _ hsv rfl rfl rfl
      · rw [e]
        simp only [Exec.ok_bind, Bool.not_true, Bool.false_eq_true, if_false]
        subst hf3
        rcases processControlFrame_spec s { c with input := inp, control := ⟨f.type.code, f.cts⟩ } f
            hf2 rfl hf1 up.ct (serve s.args.contentType its) pre.phase with
          ⟨c', e2, h1, h2, h3⟩ | ⟨st, ctl, rs, e2, hsv⟩
        · rw [e2]
          simp only [Exec.ok_bind, Bool.not_false, if_true]
          exact closing _ (serve_snoc _ _ _) h1 h2 h3
        · rw [e2]
          simp only [Exec.ok_bind, Bool.not_true, Bool.false_eq_true, if_false]
          have hlen : evLength inp = evLength c.input - (8 + f.payload.length) := by
            simp [evLength, hf4]
          refine LoopPost.trans (LoopFrame.refl id s) (c1 := { c with
            input := inp, state := st, control := ctl, output := c.output ++ rs.flatMap CFrame.wire })
            (by show evLength inp < _; omega) ?_
          apply ih _ _ (its ++ [.control f.payload]) up
          · show evLength inp < fuel
            omega
          · show evLength inp ≤ _
            omega
          · refine ⟨?_, ?_, ?_, ?_, hf5 pre.chains, fun h => absurd hz h⟩
            · intro x
              rw [hnext x]
              dsimp only
              rw [hz, List.drop_zero, hf4, List.drop_append_of_le_length hb4]
            · rw [serve_snoc, hsv]
            · rw [serve_snoc, hsv]; exact pre.recorded
            · rw [serve_snoc, hsv]
              simp only [List.flatMap_append]
              rw [← pre.replies, List.append_assoc]
          · exact sane

end Fstrm
