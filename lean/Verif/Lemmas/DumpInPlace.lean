import Verif.Model.DumpInPlace
import Verif.Lemmas.DumpMain

/-! Lemmas on `fstrm_dump` with one file as input and output: the run is that on an input which ends where the
C library had read to. -/

set_option autoImplicit false

namespace Fstrm

open Spec Props

/-! ### A reader whose file is replaced by a leading part of it -/

/-- The same transport on other file contents. -/
def Rdwr.onDisk (V : Bytes) (rw : Rdwr FileSt) : Rdwr FileSt :=
  { rw with obj := { rw.obj with disk := some V } }

/-- The same reader on other file contents. -/
def Reader.onDisk (V : Bytes) (r : Reader FileSt) : Reader FileSt :=
  { r with rdwr := r.rdwr.onDisk V }

theorem FRd.read_cut {all V rest restV bs : Bytes} {a b : Rdwr FileSt} {n : Nat} (h : FRd all a rest)
    (hV : FRd V (a.onDisk V) restV) (he : a.read n = .ok (.success, bs, b))
    (hp : received b.log <+: V) :
    (a.onDisk V).read n = .ok (.success, bs, b.onDisk V) ∧
      ∃ rest' restV', FRd all b rest' ∧ FRd V (b.onDisk V) restV' := by
  have key : (a.onDisk V).read n = .ok (.success, bs, b.onDisk V) := by
    obtain ⟨-, -, -, hl, hlog⟩ := read_success he
    obtain ⟨rv, hrv⟩ := hp
    have hsp : V = received a.log ++ restV := hV.split
    have hpos : restV = V.drop a.obj.pos := hV.pos
    rw [hlog, received_rd, List.append_assoc] at hrv
    have hrest : restV = bs ++ rv := by
      have := hrv.trans hsp
      exact (List.append_cancel_left this).symm
    unfold Rdwr.read at he ⊢
    have ho : (a.onDisk V).opened = true := h.opened
    have hops : (a.onDisk V).ops = fileOps false := h.ops
    rw [h.opened, h.ops] at he
    rw [ho, hops]
    simp only [fileOps, Bool.not_true, Bool.false_eq_true, if_false] at he ⊢
    obtain ⟨⟨res, bs1, s1⟩, h1, he⟩ := Exec.bind_eq_ok.1 he
    have hfp : (a.onDisk V).obj.fp = true := h.fp
    unfold FileSt.opRead at h1 ⊢
    rw [if_pos h.fp] at h1
    rw [if_pos hfp]
    obtain ⟨⟨k, bs2, eof, s2⟩, h2, h1⟩ := Exec.bind_eq_ok.1 h1
    have hres : res = .success := by
      simp only at he
      split at he
      · rename_i hne
        obtain ⟨_, _, he⟩ := Exec.bind_eq_ok.1 he
        cases he; exact absurd rfl hne
      · rename_i hne; simpa using hne
    subst hres
    simp only [ne_eq, not_true_eq_false, if_false] at he
    split at he
    · cases he
    rename_i hlen
    cases he
    have hk : k = 1 := by
      simp only at h1
      split at h1
      · assumption
      · split at h1
        · cases h1
        · split at h1 <;> cases h1
    subst hk
    simp only [if_true] at h1
    cases h1
    unfold FileSt.fread at h2 ⊢
    have hstd : ((a.onDisk V).obj.isStd && (a.onDisk V).obj.stdClosed) =
        (a.obj.isStd && a.obj.stdClosed) := rfl
    rw [hstd]
    split at h2
    · cases h2
    rename_i hs
    rw [if_neg hs]
    simp only at h2 ⊢
    split at h2
    · cases h2
    rename_i hn
    rw [if_neg hn]
    obtain ⟨l, hnl⟩ := FileSt.next_same a.obj
    have hnx : (a.onDisk V).obj.next = (a.obj.next.1, (Rdwr.onDisk V { a with obj := a.obj.next.2 }).obj) := by
      unfold FileSt.next
      have : (a.onDisk V).obj.script = a.obj.script := rfl
      rw [this]
      split <;> rfl
    rw [hnx]
    split at h2
    · cases h2
    rename_i k' s3 hk
    rw [hk] at hnl
    simp only at hnl
    rw [hk]
    subst hnl
    simp only at h2 ⊢
    split at h2
    · cases h2
      have hd : (a.onDisk V).obj.disk.getD [] = V := rfl
      have hle : a.obj.pos + n ≤ V.length := by
        have := congrArg List.length (hpos.symm.trans hrest)
        simp only [List.length_drop, List.length_append] at this
        omega
      simp only [hd]
      rw [if_pos (by simpa [Rdwr.onDisk] using hle)]
      have hbs : (V.drop a.obj.pos).take n = ((a.obj.disk.getD []).drop a.obj.pos).take n := by
        rw [← hpos, hrest, List.take_left' hl]
      simp only [Rdwr.onDisk, hbs, Exec.ok_bind, if_true]
      rw [if_neg (by simp), if_neg (by rw [hl]; simp)]
      rfl
    · cases h2
  refine ⟨key, ?_⟩
  rcases h.read he with ⟨-, -, rest', -, g⟩ | ⟨g, -⟩ | g
  · rcases hV.read key with ⟨-, -, restV', -, g'⟩ | ⟨g', -⟩ | g'
    · exact ⟨rest', restV', g, g'⟩
    · cases g'
    · cases g'
  · cases g
  · cases g

theorem FRd.readControl_cut {all V rest restV : Bytes} {a b : Rdwr FileSt} {c c' : Option Control}
    {t : Nat} (h : FRd all a rest) (hV : FRd V (a.onDisk V) restV)
    (he : a.readControl c t = .ok (.success, c', b)) (hp : received b.log <+: V) :
    (a.onDisk V).readControl c t = .ok (.success, c', b.onDisk V) ∧
      ∃ restV', FRd V (b.onDisk V) restV' := by
  unfold Rdwr.readControl at he
  obtain ⟨⟨res, c1, t1, rw1⟩, h1, he⟩ := Exec.bind_eq_ok.1 he
  simp only at he
  split at he
  · rename_i hne; cases he; exact absurd rfl hne
  rename_i hs
  have hs : res = .success := by simpa using hs
  subst hs
  split at he
  · cases he
  rename_i ht
  cases he
  unfold Rdwr.readControlFrame at h1
  rw [if_pos rfl] at h1
  obtain ⟨⟨res, tmp, rw2⟩, h2, h1⟩ := Exec.bind_eq_ok.1 h1
  simp only at h1
  split at h1
  · rename_i hne; cases h1; exact absurd rfl hne
  rename_i hs
  have hs : res = .success := by simpa using hs
  subst hs
  split at h1
  · cases h1
  rename_i hz
  unfold Rdwr.readControlBody at h1
  obtain ⟨⟨res, tmp3, rw3⟩, h3, h1⟩ := Exec.bind_eq_ok.1 h1
  simp only at h1
  split at h1
  · rename_i hne; cases h1; exact absurd rfl hne
  rename_i hs
  have hs : res = .success := by simpa using hs
  subst hs
  split at h1
  · cases h1
  rename_i hmax
  split at h1
  · cases h1
  rename_i hlen
  obtain ⟨⟨res, frame, rw4⟩, h4, h1⟩ := Exec.bind_eq_ok.1 h1
  simp only at h1
  split at h1
  · rename_i hne; cases h1; exact absurd rfl hne
  rename_i hs
  have hs : res = .success := by simpa using hs
  subst hs
  obtain ⟨⟨res, c5⟩, h5, h1⟩ := Exec.bind_eq_ok.1 h1
  simp only at h1
  split at h1
  · rename_i hne; cases h1; exact absurd rfl hne
  rename_i hdec
  simp only [Except.ok.injEq, Prod.mk.injEq] at h1
  obtain ⟨e1, e2, e3, rfl⟩ := h1
  have g4 : received rw4.log = received rw3.log ++ frame := by
    rw [(read_success h4).2.2.2.2, received_rd]
  have g3 : received rw3.log = received rw2.log ++ tmp3 := by
    rw [(read_success h3).2.2.2.2, received_rd]
  have p3 : received rw3.log <+: V := List.IsPrefix.trans (by rw [g4]; exact List.prefix_append _ _) hp
  have p2 : received rw2.log <+: V := List.IsPrefix.trans (by rw [g3]; exact List.prefix_append _ _) p3
  obtain ⟨k2, _, _, m2, n2⟩ := h.read_cut hV h2 p2
  obtain ⟨k3, _, _, m3, n3⟩ := m2.read_cut n2 h3 p3
  obtain ⟨k4, _, rv, m4, n4⟩ := m3.read_cut n3 h4 hp
  refine ⟨?_, rv, n4⟩
  unfold Rdwr.readControl Rdwr.readControlFrame
  rw [if_pos rfl, k2, Exec.ok_bind]
  simp only
  rw [if_neg (by simp), if_neg hz]
  unfold Rdwr.readControlBody
  rw [k3, Exec.ok_bind]
  simp only
  rw [if_neg (by simp), if_neg hmax, if_neg hlen, k4, Exec.ok_bind]
  simp only
  rw [if_neg (by simp), h5, Exec.ok_bind]
  simp only
  rw [if_neg hdec]
  rw [Exec.ok_bind, e1, e3]
  simp only [e2]
  rw [if_neg (by simp), if_neg ht]

theorem FFresh.rdwr_open_cut {all V : Bytes} {r : Reader FileSt} {rw : Rdwr FileSt}
    (h : FFresh all r) (he : r.rdwr.open = .ok (.success, rw)) :
    (r.onDisk V).rdwr.open = .ok (.success, rw.onDisk V) := by
  unfold Rdwr.open at he ⊢
  have ho : (r.onDisk V).rdwr.ops = fileOps false := h.ops
  rw [h.ops] at he
  rw [ho]
  simp only [fileOps] at he ⊢
  obtain ⟨⟨res1, s1⟩, h1, he⟩ := Exec.bind_eq_ok.1 he
  have hres : res1 = .success := by
    simp only at he
    split at he
    · assumption
    · cases he; rfl
  subst hres
  simp only [if_true] at he
  cases he
  unfold FileSt.opOpen at h1 ⊢
  have hfp : (r.onDisk V).rdwr.obj.fp = r.rdwr.obj.fp := rfl
  have hstd : (r.onDisk V).rdwr.obj.isStd = r.rdwr.obj.isStd := rfl
  rw [hfp, hstd]
  split at h1
  · rename_i h2
    rw [if_pos h2]
    split at h1
    · rename_i h3
      rw [if_pos h3]
      cases h1
      rfl
    · rename_i h3
      rw [if_neg h3]
      unfold FileSt.fopen at h1 ⊢
      have hnx : (r.onDisk V).rdwr.obj.next =
          (r.rdwr.obj.next.1, { r.rdwr.obj.next.2 with disk := some V }) := by
        unfold FileSt.next
        have : (r.onDisk V).rdwr.obj.script = r.rdwr.obj.script := rfl
        rw [this]
        split <;> rfl
      rw [hnx]
      obtain ⟨l, hnl⟩ := FileSt.next_same r.rdwr.obj
      cases hx : r.rdwr.obj.next with
      | mk x y =>
      rw [hx] at h1 hnl
      simp only at hnl
      subst hnl
      cases x with
      | fail k => simp at h1
      | ok k =>
        simp only [h.rd, Bool.false_eq_true, if_false] at h1 ⊢
        split at h1
        · simp only [Bool.not_true, Bool.false_eq_true, if_false] at h1
          cases h1
          simp only [Option.isSome_some, if_true, Bool.not_true, Bool.false_eq_true, if_false, Exec.ok_bind]
          rfl
        · simp at h1
  · cases h1

theorem FFresh.open_cut {all V : Bytes} {r r1 : Reader FileSt} (h : FFresh all r)
    (he : r.open = .ok (.success, r1)) (hp : received r1.rdwr.log <+: V) :
    (r.onDisk V).open = .ok (.success, r1.onDisk V) ∧ ∃ restV, FRd V (r1.onDisk V).rdwr restV := by
  unfold Reader.open at he ⊢
  have hst : (r.onDisk V).state = r.state := rfl
  rw [hst]
  rw [if_neg (by rw [h.state]; decide)] at he ⊢
  obtain ⟨⟨res1, rw1⟩, h1, he⟩ := Exec.bind_eq_ok.1 he
  simp only at he
  split at he
  · rename_i hne; cases he; exact absurd rfl hne
  rename_i hs
  have hs : res1 = .success := by simpa using hs
  subst hs
  have hop : rw1.ops.wr = none := by rw [(Rdwr.open_ok h1).1, h.ops]; rfl
  have k1 := h.rdwr_open_cut (V := V) h1
  rcases h.rdwr_open h1 with ⟨-, m1⟩ | m1
  · have n1 : FRd V (rw1.onDisk V) V := by
      rcases FFresh.rdwr_open (all := V) (r := r.onDisk V)
        ⟨h.state, h.ops, h.log, h.closed, h.rd, rfl, h.pos, h.cap, h.stop⟩ k1 with ⟨-, g⟩ | g
      · exact g
      · cases g
    simp only [hop, Option.isSome_none, Bool.false_eq_true, if_false] at he
    obtain ⟨⟨res2, r2⟩, h2, he⟩ := Exec.bind_eq_ok.1 he
    simp only at he
    split at he
    · rename_i hne; cases he; exact absurd rfl hne
    rename_i hs
    have hs : res2 = .success := by simpa using hs
    subst hs
    cases he
    unfold Reader.openUnidirectional at h2
    obtain ⟨⟨res3, c3, rw3⟩, h3, h2⟩ := Exec.bind_eq_ok.1 h2
    simp only at h2
    split at h2
    · rename_i hne; cases h2; exact absurd rfl hne
    rename_i hs
    have hs : res3 = .success := by simpa using hs
    subst hs
    split at h2
    · cases h2
    rename_i st
    split at h2
    · cases h2
    rename_i hm
    cases h2
    obtain ⟨k3, rv, n3⟩ := m1.readControl_cut n1 h3 hp
    refine ⟨?_, rv, n3⟩
    rw [k1, Exec.ok_bind]
    simp only
    rw [if_neg (by simp)]
    have hop' : (rw1.onDisk V).ops.wr = none := hop
    simp only [hop', Option.isSome_none, Bool.false_eq_true, if_false]
    unfold Reader.openUnidirectional
    simp only
    have hrs : (r.onDisk V).start = r.start := rfl
    rw [hrs, k3, Exec.ok_bind]
    simp only
    rw [if_neg (by simp)]
    have hcts : (r.onDisk V).cts = r.cts := rfl
    rw [hcts, if_neg hm, Exec.ok_bind]
    simp only
    rw [if_neg (by simp)]
    rfl
  · cases m1

/-! ### The loop -/

/-- An open writer of a named file on which `t` was written. -/
structure OutOpen (w : Writer FileSt) (t : Bytes) : Prop where
  st : w.state = .opened
  ops : w.rdwr.ops = fileOps true
  opened : w.rdwr.opened = true
  obj : FOpen w.rdwr.obj t

theorem OutOpen.write {w w' : Writer FileSt} {t d : Bytes} (h : OutOpen w t)
    (he : w.write d = .ok (.success, w')) : OutOpen w' (t ++ (be32 d.length ++ d)) := by
  rw [write_opened h.st] at he
  obtain ⟨⟨res, rw⟩, h1, he⟩ := Exec.bind_eq_ok.1 he
  cases he
  unfold Rdwr.write at h1
  rw [h.opened, h.ops] at h1
  simp only [fileOps, if_true, Bool.not_true, Bool.false_eq_true, if_false] at h1
  obtain ⟨⟨res, obj⟩, h2, h1⟩ := Exec.bind_eq_ok.1 h1
  unfold FileSt.opWrite at h2
  rw [h.obj.fp] at h2
  simp only [Bool.not_true, Bool.false_eq_true, if_false] at h2
  rcases FileSt.writeLoop_ok _ _ _ _ _ h.obj h2 with ⟨rfl, f⟩ | ⟨rfl, f⟩
  · simp only [ne_eq, not_true_eq_false, if_false] at h1
    cases h1
    refine ⟨h.st, rfl, rfl, ?_⟩
    simpa using f
  · simp only [ne_eq, reduceCtorEq, not_false_eq_true, if_true] at h1
    obtain ⟨_, _, h1⟩ := Exec.bind_eq_ok.1 h1
    cases h1

/-- No more has been written on the output than was read from the input's leading part `V`. -/
structure InPlace (V : Bytes) (s : DumpSt) : Prop where
  dash : s.dash = false
  st : s.r.state = .opened
  cap : 1 ≤ s.r.bufCap
  io : ∃ w t rest, s.w = some w ∧ OutOpen w t ∧ FRd V s.r.rdwr rest ∧ t.length + rest.length ≤ V.length

theorem refill_onDisk {input : Bytes} {k : Nat} {s : DumpSt} {w : Writer FileSt} {t : Bytes}
    (hw : s.w = some w) (ho : OutOpen w t) (ht : t.length ≤ k) :
    s.refill input k = { s with r := s.r.onDisk (input.take k) } := by
  unfold DumpSt.refill
  rw [hw]
  simp only
  obtain ⟨d, hd, hb⟩ := ho.obj.cont
  have hdl : d.length ≤ k := by
    rw [← hb, List.length_append] at ht; omega
  rw [hd, Option.getD_some, List.drop_eq_nil_of_le hdl, List.append_nil]
  rfl

theorem onDisk_same {V rest : Bytes} {r : Reader FileSt} (hne : V ≠ []) (h : FRd V r.rdwr rest) :
    r.onDisk V = r := by
  have : r.rdwr.obj.disk = some V := by
    have hd := h.disk
    cases hx : r.rdwr.obj.disk with
    | none => rw [hx] at hd; exact absurd hd.symm hne
    | some x => rw [hx] at hd; rw [← hd]; rfl
  obtain ⟨_, _, _, ⟨_, obj, _, _⟩, _⟩ := r
  obtain ⟨⟩ := obj
  simp only at this
  subst this
  rfl

theorem InPlace.refill {input : Bytes} {k : Nat} {s : DumpSt} (hk : k ≤ input.length)
    (hne : input.take k ≠ []) (h : InPlace (input.take k) s) : s.refill input k = s := by
  obtain ⟨w, t, rest, h1, h2, h3, h4⟩ := h.io
  rw [refill_onDisk h1 h2 (by rw [List.length_take] at h4; omega), onDisk_same hne h3]

theorem datas_one_length {items : List Item} {b : Bytes} (h : datas items = [b]) :
    4 + b.length ≤ (wires items).length := by
  induction items with
  | nil => cases h
  | cons it items ih =>
    have hw : (wires (it :: items)).length = it.wire.length + (wires items).length := by simp [wires]
    cases it with
    | data d =>
      have hd : d = b := by simp only [datas, List.cons.injEq] at h; exact h.1
      subst hd
      have hl : (Item.wire (.data d)).length = 4 + d.length := by
        simp [Item.wire, Spec.dataFrame, length_be32]
      omega
    | ctl f => have := ih h; omega

theorem DumpSt.loopInPlace_eq {input : Bytes} {k : Nat} (hk : k ≤ input.length)
    (hne : input.take k ≠ []) (fuel : Nat) : ∀ (n : Nat) (s : DumpSt), InPlace (input.take k) s →
    DumpSt.loopInPlace input k fuel n s = DumpSt.loop fuel n s := by
  intro n
  induction n with
  | zero => intro s _; rfl
  | succ n ih =>
    intro s hi
    unfold DumpSt.loopInPlace DumpSt.loop
    rw [hi.refill hk hne]
    simp only
    cases hrd : s.r.read fuel with
    | error e => rfl
    | ok p =>
      obtain ⟨res, data, r⟩ := p
      rw [Exec.ok_bind, Exec.ok_bind]
      simp only
      by_cases hs : res = .success
      · rw [if_pos hs, if_pos hs]
        subst hs
        cases data with
        | none => rfl
        | some b =>
          simp only
          cases hpr : { s with r := r }.printDataFrame b with
          | error e => rfl
          | ok p =>
            obtain ⟨res1, s1⟩ := p
            rw [Exec.ok_bind, Exec.ok_bind]
            simp only
            obtain ⟨hres, -, -, h5⟩ := DumpSt.printDataFrame_ok hpr
            obtain ⟨w, t, rest, h1, h2, h3, h4⟩ := hi.io
            have hw1 : s1.w = some w := by rw [h5]; exact h1
            have hd1 : s1.dash = false := by rw [h5]; exact hi.dash
            have hr1 : s1.r = r := by rw [h5]
            subst hres
            rw [if_neg (by simp), if_neg (by simp), hw1]
            simp only
            have hat : s1.attach w = w := by unfold DumpSt.attach; rw [hd1]; rfl
            rw [hat]
            cases hwr : w.write b with
            | error e => rfl
            | ok p =>
              obtain ⟨res2, w'⟩ := p
              rw [Exec.ok_bind, Exec.ok_bind]
              simp only
              by_cases hs2 : res2 = .success
              · rw [if_neg (by simpa using hs2), if_neg (by simpa using hs2)]
                subst hs2
                refine ih _ ?_
                have hdet : s1.detach w' = { s1 with w := some w' } := by
                  unfold DumpSt.detach; rw [hd1]; rfl
                rw [hdet]
                have hn : FNext (input.take k) rest s.r .success (some b) r := by
                  have : Reader.nextData fuel s.r = .ok (.success, some b, r) := by
                    unfold Reader.read Reader.maybeOpen at hrd
                    rw [if_neg (by rw [hi.st]; decide), Exec.ok_bind] at hrd
                    simp only [ne_eq, not_true_eq_false, if_false] at hrd
                    rw [if_pos hi.st] at hrd
                    exact hrd
                  exact h3.nextData fuel hi.st hi.cap this
                have hcap := (reader_read_kept hi.cap hrd).cap
                cases hn with
                | data items _ rest' _ a1 a2 a3 a4 a5 a6 =>
                  refine ⟨hd1, ?_, ?_, w', _, rest', rfl, h2.write hwr, ?_, ?_⟩
                  · show s1.r.state = _; rw [hr1]; exact a5
                  · show 1 ≤ s1.r.bufCap; rw [hr1]; exact Nat.le_trans hi.cap hcap
                  · show FRd _ s1.r.rdwr _; rw [hr1]; exact a4
                  · have := datas_one_length a2
                    rw [a3, List.length_append] at h4
                    simp only [List.length_append, length_be32]
                    omega
              · rw [if_pos hs2, if_pos hs2]
      · rw [if_neg hs, if_neg hs]

end Fstrm
