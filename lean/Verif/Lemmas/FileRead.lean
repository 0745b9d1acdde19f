import Verif.Lemmas.File
import Verif.Lemmas.ReaderSound

/-! What a file reader makes of arbitrary file contents, with arbitrary read errors. -/

set_option autoImplicit false

namespace Fstrm

open Spec (CType CFrame be32 Item wires datas received wrote Cut compatible)

/-- An open file reader: of the contents `all`, the part `rest` has not been read yet. -/
structure FRd (all : Bytes) (rw : Rdwr FileSt) (rest : Bytes) : Prop where
  ops : rw.ops = fileOps false
  opened : rw.opened = true
  fp : rw.obj.fp = true
  disk : rw.obj.disk.getD [] = all
  split : all = received rw.log ++ rest
  pos : rest = all.drop rw.obj.pos

theorem FRd.unique {all rest rest' : Bytes} {rw : Rdwr FileSt} (h : FRd all rw rest)
    (h' : FRd all rw rest') : rest = rest' := h.pos.trans h'.pos.symm

theorem FRd.read {all rest bs : Bytes} {a b : Rdwr FileSt} {n : Nat} {r : Res} (h : FRd all a rest)
    (he : a.read n = .ok (r, bs, b)) :
    (r = .success ∧ bs.length = n ∧ ∃ rest', rest = bs ++ rest' ∧ FRd all b rest') ∨
    (r = .stop ∧ rest.length < n) ∨ r = .failure := by
  unfold Rdwr.read at he
  rw [h.opened, h.ops] at he
  simp only [fileOps, Bool.not_true, Bool.false_eq_true, if_false] at he
  obtain ⟨⟨res, bs1, s1⟩, h1, he⟩ := Exec.bind_eq_ok.1 he
  unfold FileSt.opRead at h1
  rw [if_pos h.fp] at h1
  obtain ⟨⟨k, bs2, eof, s2⟩, h2, h1⟩ := Exec.bind_eq_ok.1 h1
  have h3 : (k = 0 ∧ eof = false) ∨ (k = 0 ∧ eof = true ∧ rest.length < n) ∨
      (k = 1 ∧ bs2 = (all.drop a.obj.pos).take n ∧ bs2.length = n ∧ s2.fp = true ∧
        s2.disk = a.obj.disk ∧ s2.pos = a.obj.pos + n) := by
    unfold FileSt.fread at h2
    split at h2
    · cases h2
    · simp only at h2
      obtain ⟨l, hl⟩ := FileSt.next_same a.obj
      split at h2
      · cases h2; exact Or.inl ⟨rfl, rfl⟩
      · split at h2
        · cases h2; exact Or.inl ⟨rfl, rfl⟩
        · rename_i k' s3 hk
          rw [hk] at hl
          simp only at hl
          subst hl
          simp only [h.disk] at h2
          split at h2
          · rename_i hle
            cases h2
            refine Or.inr (Or.inr ⟨rfl, rfl, ?_, h.fp, rfl, rfl⟩)
            rw [List.length_take, List.length_drop]; omega
          · rename_i hle
            cases h2
            refine Or.inr (Or.inl ⟨rfl, rfl, ?_⟩)
            rw [h.pos, List.length_drop]; omega
  have hclose : ∀ {x : Res} {bs' : Bytes} {y : Rdwr FileSt}, x ≠ .success →
      (if x ≠ .success then do
        let (_, rw) ← ({ a with obj := s1, log := a.log ++ [.rd n x bs'] } : Rdwr FileSt).close
        Except.ok (x, ([] : Bytes), rw)
      else if bs'.length ≠ n then .error (.ub "read callback did not fill the buffer")
      else .ok (x, bs', y) : Exec _) = .ok (r, bs, b) → r = x := by
    intro x bs' y hx he
    rw [if_pos hx] at he
    obtain ⟨_, _, he⟩ := Exec.bind_eq_ok.1 he
    cases he; rfl
  rcases h3 with ⟨rfl, rfl⟩ | ⟨rfl, rfl, hlt⟩ | ⟨rfl, g1, g2, g3, g4, g5⟩
  · have : res = .failure := by
      simp only [Nat.zero_ne_one, Bool.false_eq_true, if_false] at h1
      split at h1 <;> (cases h1; rfl)
    subst this
    right; right
    exact hclose (bs' := bs1) (y := b) (by simp) (by simpa [h.ops, h.opened, fileOps] using he)
  · simp only [Nat.zero_ne_one, if_false, if_true] at h1
    split at h1
    · cases h1
      right; right
      exact hclose (bs' := []) (y := b) (by simp) (by simpa [h.ops, h.opened, fileOps] using he)
    · cases h1
      right; left
      exact ⟨hclose (bs' := []) (y := b) (by simp) (by simpa [h.ops, h.opened, fileOps] using he), hlt⟩
  · simp only [if_true] at h1
    cases h1
    simp only [ne_eq, not_true_eq_false, if_false] at he
    rw [if_neg (by simp [g2])] at he
    cases he
    left
    refine ⟨rfl, g2, rest.drop n, ?_, ?_⟩
    · rw [g1, h.pos, List.take_append_drop]
    · refine ⟨rfl, rfl, g3, by rw [g4]; exact h.disk, ?_, ?_⟩
      · simp only [received_rd, List.append_assoc]
        rw [g1, ← h.pos, List.take_append_drop]
        exact h.split
      · rw [h.pos, List.drop_drop, g5]

theorem FRd.rdreach {all rest : Bytes} {a b : Rdwr FileSt} (h : FRd all a rest) (hr : RdReach a b)
    (ho : b.opened = true) : ∃ rest', FRd all b rest' := by
  induction hr with
  | refl => exact ⟨rest, h⟩
  | tail h1 h2 ih =>
    rename_i b' c' n r bs
    have hb : b'.opened = true := by
      rcases (Rdwr.read_ok h2).2 with ⟨_, _, _, rfl⟩ | ⟨h3, _⟩ | ⟨h3, _⟩
      · exact ho
      · exact h3
      · exact h3
    obtain ⟨rest1, h4⟩ := ih hb
    rcases h4.read h2 with ⟨_, _, rest', _, h5⟩ | ⟨rfl, _⟩ | rfl
    · exact ⟨rest', h5⟩
    all_goals
      exfalso
      rcases (Rdwr.read_ok h2).2 with ⟨h3, _⟩ | ⟨_, h3, _⟩ | ⟨_, _, _, _, ⟨h3, _⟩ | ⟨_, h3, _⟩⟩
      · rw [h4.opened, h4.ops] at h3; simp [fileOps] at h3
      · cases h3
      · rw [h4.ops] at h3; simp [fileOps] at h3
      · rw [ho] at h3; cases h3

/-- Reading a control frame after its escape. -/
theorem FRd.readControlBody {all rest : Bytes} {a b : Rdwr FileSt} {c c' : Control} {r : Res}
    {t : Option Nat} (h : FRd all a rest) (he : a.readControlBody c = .ok (r, c', t, b)) :
    (r = .success ∧ ∃ f : CFrame, f.WF ∧ f.payload.length ≤ 512 ∧ c' = ⟨f.type.code, f.cts⟩ ∧
      t = some f.type.code ∧ ∃ rest', rest = be32 f.payload.length ++ f.payload ++ rest' ∧
        FRd all b rest') ∨
    (r = .stop ∧ Cut (be32 0 ++ rest)) ∨ r = .failure := by
  by_cases hr : r = .success
  · subst hr
    obtain ⟨_, ho, _, _, f, f1, f2, f3, f4, f5⟩ := readControlBody_success he
    obtain ⟨rest', h'⟩ := h.rdreach (readControlBody_rdreach he) ho
    refine Or.inl ⟨rfl, f, f1, f2, f3, f4, rest', ?_, h'⟩
    have e := h.split.symm.trans h'.split
    rw [f5, List.append_assoc] at e
    exact List.append_cancel_left e
  · right
    by_cases hf : r = .failure
    · exact Or.inr hf
    left
    unfold Rdwr.readControlBody at he
    obtain ⟨⟨res, tmp, rw1⟩, h1, he⟩ := Exec.bind_eq_ok.1 he
    simp only at he
    split at he
    · rename_i hne
      cases he
      rcases h.read h1 with ⟨h2, _⟩ | ⟨h2, h3⟩ | h2
      · exact absurd h2 hr
      · exact ⟨h2, .ctlLength _ h3⟩
      · exact absurd h2 hf
    · rename_i hs
      have hs : res = .success := by simpa using hs
      subst hs
      rcases h.read h1 with ⟨_, hl, rest1, e1, h1'⟩ | ⟨h2, _⟩ | h2
      · have htmp : be32 (ntohl tmp) = tmp := by rw [← htonl_eq, htonl_ntohl hl]
        split at he
        · cases he; exact absurd rfl hf
        · rename_i hle
          split at he
          · cases he
          · obtain ⟨⟨res, frame, rw2⟩, h2, he⟩ := Exec.bind_eq_ok.1 he
            simp only at he
            split at he
            · rename_i hne
              cases he
              rcases h1'.read h2 with ⟨h3, _⟩ | ⟨h3, h4⟩ | h3
              · exact absurd h3 hr
              · refine ⟨h3, ?_⟩
                rw [e1, ← htmp]
                exact .ctl _ _ (by simpa using hle) h4
              · exact absurd h3 hf
            · rename_i hs
              have hs : res = .success := by simpa using hs
              subst hs
              obtain ⟨⟨res, c2⟩, hd, he⟩ := Exec.bind_eq_ok.1 he
              simp only at he
              split at he
              · rename_i hne
                cases he
                have hl := (read_success h2).2.2.2.1
                obtain ⟨r', c'', h3, h4⟩ := Props.decode_safe c frame (ntohl tmp) false (by omega)
                rw [h3] at hd; cases hd
                rcases h4 with h4 | h4
                · exact absurd h4 hr
                · exact absurd h4 hf
              · cases he
                exfalso
                revert hr hf
                unfold Control.getType
                split <;> simp
      · cases h2
      · cases h2

/-- Outcomes of reading the next data frame from a file. -/
inductive FNext (all rest : Bytes) (r : Reader FileSt) : Res → Option Bytes → Reader FileSt → Prop
  | data (items : List Item) (b rest' : Bytes) (r' : Reader FileSt) :
      (∀ it ∈ items, it.Ok r.maxFrameSize) → datas items = [b] → rest = wires items ++ rest' →
      FRd all r'.rdwr rest' → r'.state = .opened → r'.stop = r.stop →
      FNext all rest r .success (some b) r'
  | oversize (items : List Item) (n : Nat) (tail : Bytes) (r' : Reader FileSt) :
      (∀ it ∈ items, it.Ok r.maxFrameSize) → datas items = [] → rest = wires items ++ (be32 n ++ tail) →
      r.maxFrameSize < n → n < 2^32 → r'.state = .failed →
      FNext all rest r .success none r'
  | stop (items : List Item) (tail : Bytes) (r' : Reader FileSt) :
      (∀ it ∈ items, it.Ok r.maxFrameSize) → datas items = [] →
      rest = wires items ++ (CFrame.wire ⟨.stop, []⟩ ++ tail) →
      r'.stop = some ⟨T_STOP, []⟩ → r'.state = .closing → FNext all rest r .stop none r'
  | cut (items : List Item) (tail : Bytes) (r' : Reader FileSt) :
      (∀ it ∈ items, it.Ok r.maxFrameSize) → datas items = [] →
      rest = wires items ++ tail → Cut tail → r'.stop = r.stop → r'.state = .failed →
      FNext all rest r .stop none r'
  | fails (items : List Item) (tail : Bytes) (r' : Reader FileSt) :
      (∀ it ∈ items, it.Ok r.maxFrameSize) → datas items = [] →
      rest = wires items ++ tail → r'.stop = r.stop → r'.state = .failed →
      FNext all rest r .failure none r'

theorem FNext.skip {all rest rest' : Bytes} {r r1 r' : Reader FileSt} {f : CFrame} {res : Res}
    {d : Option Bytes} (h : FNext all rest' r1 res d r') (hm : r1.maxFrameSize = r.maxFrameSize)
    (hs : r1.stop = r.stop) (hf : Item.Ok r.maxFrameSize (.ctl f)) (he : rest = f.wire ++ rest') :
    FNext all rest r res d r' := by
  have hok : ∀ items : List Item, (∀ it ∈ items, it.Ok r1.maxFrameSize) →
      ∀ it ∈ (.ctl f :: items), it.Ok r.maxFrameSize := by
    intro items h it hit
    rcases List.mem_cons.1 hit with rfl | hit
    · exact hf
    · rw [← hm]; exact h it hit
  have hw : ∀ (items : List Item) (x : Bytes), rest' = wires items ++ x →
      rest = wires (.ctl f :: items) ++ x := by
    intro items x hx
    rw [he, hx]; simp [wires, Item.wire]
  cases h with
  | data items b rest' r' a1 a2 a3 a4 a5 a6 =>
    exact .data (.ctl f :: items) b _ r' (hok _ a1) a2 (hw _ _ a3) a4 a5 (a6.trans hs)
  | oversize items n tail r' a1 a2 a3 a4 a5 a6 =>
    exact .oversize (.ctl f :: items) n tail r' (hok _ a1) a2 (hw _ _ a3) (by omega) a5 a6
  | stop items tail r' a1 a2 a3 a4 a5 =>
    exact .stop (.ctl f :: items) tail r' (hok _ a1) a2 (hw _ _ a3) a4 a5
  | cut items tail r' a1 a2 a3 a4 a5 a6 =>
    exact .cut (.ctl f :: items) tail r' (hok _ a1) a2 (hw _ _ a3) a4 (a5.trans hs) a6
  | fails items tail r' a1 a2 a3 a4 a5 =>
    exact .fails (.ctl f :: items) tail r' (hok _ a1) a2 (hw _ _ a3) (a4.trans hs) a5

theorem FRd.nextData {all : Bytes} : ∀ (fuel : Nat) {rest : Bytes} {r r' : Reader FileSt} {res : Res}
    {d : Option Bytes}, FRd all r.rdwr rest → r.state = .opened → 1 ≤ r.bufCap →
    Reader.nextData fuel r = .ok (res, d, r') → FNext all rest r res d r' := by
  intro fuel
  induction fuel with
  | zero => intro rest r r' res d _ _ _ h; cases h
  | succ fuel ih =>
    intro rest r r' res d hrd hst hcap h
    unfold Reader.nextData at h
    obtain ⟨⟨res1, len, r2⟩, h1, h⟩ := Exec.bind_eq_ok.1 h
    simp only at h
    unfold Reader.readBe32 at h1
    obtain ⟨⟨res2, tmp, rw⟩, h2, h1⟩ := Exec.bind_eq_ok.1 h1
    simp only at h1
    rcases hrd.read h2 with ⟨rfl, hl, rest1, e1, hrd1⟩ | ⟨rfl, hlt⟩ | rfl
    · simp only [ne_eq, not_true_eq_false, if_false] at h1
      cases h1
      simp only [ne_eq, not_true_eq_false, if_false] at h
      have htmp : be32 (ntohl tmp) = tmp := by rw [← htonl_eq, htonl_ntohl hl]
      split at h
      · rename_i hz
        unfold Reader.dataFrame at h
        split at h
        · rename_i hgt
          cases h
          exact .oversize [] (ntohl tmp) rest1 _ (by simp) rfl (by rw [htmp]; simp [wires, e1]) hgt
            (ntohl_lt _) rfl
        · rename_i hle
          obtain ⟨cap, e, c1, c2, c3⟩ := reserve_ok { r with rdwr := rw } (ntohl tmp) hcap
          rw [e, Exec.ok_bind] at h
          simp only at h
          split at h
          · cases h
          · obtain ⟨⟨res3, bs, rw3⟩, h3, h⟩ := Exec.bind_eq_ok.1 h
            simp only at h
            rcases hrd1.read h3 with ⟨rfl, hl3, rest3, e3, hrd3⟩ | ⟨rfl, hlt⟩ | rfl
            · simp only [ne_eq, not_true_eq_false, if_false] at h
              cases h
              refine .data [.data bs] bs rest3 _ ?_ rfl ?_ hrd3 hst rfl
              · intro it hit
                have : it = .data bs := by simpa using hit
                subst this
                refine ⟨by omega, by simp at hle; omega, ?_⟩
                rw [hl3]; exact ntohl_lt _
              · rw [e1, e3]
                simp [wires, Item.wire, Spec.dataFrame, hl3, htmp]
            · simp only [ne_eq, reduceCtorEq, not_false_eq_true, if_true] at h
              cases h
              refine .cut [] rest _ (by simp) rfl (by simp [wires]) ?_ rfl rfl
              rw [e1, ← htmp]
              exact .data _ _ (by omega) (ntohl_lt _) hlt
            · simp only [ne_eq, reduceCtorEq, not_false_eq_true, if_true] at h
              cases h
              exact .fails [] rest _ (by simp) rfl (by simp [wires]) rfl rfl
      · rename_i hz
        have hz : ntohl tmp = 0 := by simpa using hz
        obtain ⟨⟨res3, c, t, rw3⟩, h3, h⟩ := Exec.bind_eq_ok.1 h
        simp only at h
        have h3' : rw.readControlBody (r.tmp.getD Control.init) = .ok (res3, c, t, rw3) := h3
        rw [hz] at htmp
        rcases hrd1.readControlBody h3' with ⟨rfl, f, f1, f2, f3, f4, rest3, e3, hrd3⟩ | ⟨rfl, hc⟩ | rfl
        · simp only [ne_eq, not_true_eq_false, if_false] at h
          have hw : rest = f.wire ++ rest3 := by
            rw [e1, e3, ← htmp]; simp [CFrame.wire]
          split at h
          · rename_i hstop
            rw [f4] at hstop
            have hft : f.type = .stop := CType.code_inj (Option.some.inj hstop)
            have hcts : f.cts = [] := by
              have := f1.2 0 (by rw [hft]; rfl)
              simpa using this
            have hfe : f = ⟨.stop, []⟩ := by
              cases f; simp_all
            cases h
            refine .stop [] rest3 _ (by simp) rfl ?_ ?_ rfl
            · rw [hw, hfe]; simp [wires]
            · simp only [f3, hfe]; rfl
          · rename_i hns
            refine (ih (r := { r with rdwr := rw3, tmp := some c }) hrd3 hst hcap h).skip rfl rfl ?_ hw
            refine ⟨f1, f2, fun he => hns ?_⟩
            rw [f4, he]; rfl
        · simp only [ne_eq, reduceCtorEq, not_false_eq_true, if_true] at h
          cases h
          refine .cut [] rest _ (by simp) rfl (by simp [wires]) ?_ rfl rfl
          rw [e1, ← htmp]; exact hc
        · simp only [ne_eq, reduceCtorEq, not_false_eq_true, if_true] at h
          cases h
          exact .fails [] rest _ (by simp) rfl (by simp [wires]) rfl rfl
    · simp only [ne_eq, reduceCtorEq, not_false_eq_true, if_true] at h1
      cases h1
      simp only [ne_eq, reduceCtorEq, not_false_eq_true, if_true] at h
      cases h
      exact .cut [] rest _ (by simp) rfl (by simp [wires]) (.length _ hlt) rfl rfl
    · simp only [ne_eq, reduceCtorEq, not_false_eq_true, if_true] at h1
      cases h1
      simp only [ne_eq, reduceCtorEq, not_false_eq_true, if_true] at h
      cases h
      exact .fails [] rest _ (by simp) rfl (by simp [wires]) rfl rfl

/-! ### Opening -/

/-- Reading a control frame of the wanted type, escape included. -/
theorem FRd.readControl {all rest : Bytes} {a b : Rdwr FileSt} {c c' : Option Control} {r : Res}
    {t : CType} (h : FRd all a rest) (he : a.readControl c t.code = .ok (r, c', b)) :
    (r = .success ∧ ∃ f : CFrame, f.WF ∧ f.payload.length ≤ 512 ∧ f.type = t ∧
      c' = some ⟨f.type.code, f.cts⟩ ∧ ∃ rest', rest = f.wire ++ rest' ∧ FRd all b rest') ∨
    (r = .stop ∧ Cut rest) ∨ r = .failure := by
  unfold Rdwr.readControl at he
  obtain ⟨⟨res, c1, t1, rw1⟩, h1, he⟩ := Exec.bind_eq_ok.1 he
  simp only at he
  unfold Rdwr.readControlFrame at h1
  rw [if_pos rfl] at h1
  obtain ⟨⟨res0, tmp, rw0⟩, h0, h1⟩ := Exec.bind_eq_ok.1 h1
  simp only at h1
  rcases h.read h0 with ⟨rfl, hl, rest0, e0, hr0⟩ | ⟨rfl, hlt⟩ | rfl
  · simp only [ne_eq, not_true_eq_false, if_false] at h1
    split at h1
    · cases h1
      rw [if_pos (by simp)] at he
      cases he; exact Or.inr (Or.inr rfl)
    · rename_i hz
      have hz : ntohl tmp = 0 := by simpa using hz
      have htmp : be32 (ntohl tmp) = tmp := by rw [← htonl_eq, htonl_ntohl hl]
      rw [hz] at htmp
      rcases hr0.readControlBody h1 with ⟨rfl, f, f1, f2, f3, f4, rest3, e3, hrd3⟩ | ⟨rfl, hc⟩ | rfl
      · simp only [ne_eq, not_true_eq_false, if_false] at he
        split at he
        · cases he; exact Or.inr (Or.inr rfl)
        · rename_i ht
          have ht : t1 = some t.code := Classical.not_not.1 ht
          rw [f4] at ht
          cases he
          refine Or.inl ⟨rfl, f, f1, f2, CType.code_inj (Option.some.inj ht), by rw [f3], rest3, ?_, hrd3⟩
          rw [e0, e3, ← htmp]; simp [CFrame.wire]
      · rw [if_pos (by simp)] at he
        cases he
        refine Or.inr (Or.inl ⟨rfl, ?_⟩)
        rw [e0, ← htmp]; exact hc
      · rw [if_pos (by simp)] at he
        cases he; exact Or.inr (Or.inr rfl)
  · rw [if_pos (by simp)] at h1
    cases h1
    rw [if_pos (by simp)] at he
    cases he
    exact Or.inr (Or.inl ⟨rfl, .length _ hlt⟩)
  · rw [if_pos (by simp)] at h1
    cases h1
    rw [if_pos (by simp)] at he
    cases he; exact Or.inr (Or.inr rfl)

/-- A fresh file reader. -/
structure FFresh (all : Bytes) (r : Reader FileSt) : Prop where
  state : r.state = .opening
  ops : r.rdwr.ops = fileOps false
  log : r.rdwr.log = []
  closed : r.rdwr.opened = false
  rd : r.rdwr.obj.write = false
  disk : r.rdwr.obj.disk.getD [] = all
  pos : r.rdwr.obj.pos = 0
  cap : 1 ≤ r.bufCap
  stop : r.stop = none

/-- A file reader that has read its START frame. -/
structure FReady (all : Bytes) (r : Reader FileSt) (ct : Option Bytes) (rest : Bytes)
    (r' : Reader FileSt) : Prop where
  state : r'.state = .opened
  all_eq : all = CFrame.wire ⟨.start, ct.toList⟩ ++ rest
  ct_le : ∀ c, ct = some c → c.length ≤ 256
  compat : compatible r.cts ct.toList
  start : r'.start = some ⟨T_START, ct.toList⟩
  rd : FRd all r'.rdwr rest
  max : r'.maxFrameSize = r.maxFrameSize
  cap : 1 ≤ r'.bufCap
  stop : r'.stop = none

theorem FFresh.rdwr_open {all : Bytes} {r : Reader FileSt} {res : Res} {rw : Rdwr FileSt}
    (h : FFresh all r) (he : r.rdwr.open = .ok (res, rw)) :
    (res = .success ∧ FRd all rw all) ∨ res = .failure := by
  unfold Rdwr.open at he
  rw [h.ops] at he
  simp only [fileOps] at he
  obtain ⟨⟨res1, s1⟩, h1, he⟩ := Exec.bind_eq_ok.1 he
  have key : (res1 = .success ∧ s1.fp = true ∧ s1.disk.getD [] = all ∧ s1.pos = 0) ∨
      res1 = .failure := by
    unfold FileSt.opOpen at h1
    split at h1
    · split at h1
      · cases h1; exact Or.inl ⟨rfl, rfl, h.disk, h.pos⟩
      · simp only at h1
        cases hf : r.rdwr.obj.fopen with
        | mk ok s2 =>
        rw [hf] at h1
        simp only at h1
        unfold FileSt.fopen at hf
        obtain ⟨l, hl⟩ := FileSt.next_same r.rdwr.obj
        split at hf
        · cases hf
          simp only [Bool.not_false, if_true] at h1
          cases h1; exact Or.inr rfl
        · rename_i k s3 hk
          rw [hk] at hl
          simp only at hl
          subst hl
          rw [if_neg (by simp [h.rd])] at hf
          split at hf
          · cases hf
            simp only [Bool.not_true, Bool.false_eq_true, if_false] at h1
            cases h1
            exact Or.inl ⟨rfl, rfl, h.disk, rfl⟩
          · cases hf
            simp only [Bool.not_false, if_true] at h1
            cases h1; exact Or.inr rfl
    · cases h1; exact Or.inr rfl
  rcases key with ⟨rfl, k1, k2, k3⟩ | rfl
  · simp only [if_true] at he
    cases he
    refine Or.inl ⟨rfl, rfl, rfl, k1, k2, ?_, ?_⟩
    · simp [h.log, received]
    · simp [k3]
  · simp only [reduceCtorEq, if_false] at he
    cases he; exact Or.inr rfl

theorem FFresh.open {all : Bytes} {r r' : Reader FileSt} {res : Res} (h : FFresh all r)
    (he : r.open = .ok (res, r')) :
    (res = .success ∧ ∃ ct rest, FReady all r ct rest r') ∨
    (r'.state = .opening ∧ r'.stop = none ∧ (res = .stop ∧ Cut all ∨ res = .failure)) := by
  have hk := reader_open_ok he
  unfold Reader.open at he
  rw [if_neg (by rw [h.state]; decide)] at he
  obtain ⟨⟨res1, rw1⟩, h1, he⟩ := Exec.bind_eq_ok.1 he
  simp only at he
  have hop : rw1.ops.wr = none := by rw [(Rdwr.open_ok h1).1, h.ops]; rfl
  rcases h.rdwr_open h1 with ⟨rfl, hrd⟩ | rfl
  · simp only [ne_eq, not_true_eq_false, if_false, hop, Option.isSome_none, Bool.false_eq_true] at he
    obtain ⟨⟨res2, r2⟩, h2, he⟩ := Exec.bind_eq_ok.1 he
    simp only at he
    unfold Reader.openUnidirectional at h2
    obtain ⟨⟨res3, c3, rw3⟩, h3, h2⟩ := Exec.bind_eq_ok.1 h2
    simp only at h2
    rcases hrd.readControl (t := .start) h3 with ⟨rfl, f, f1, f2, f3, f4, rest3, e3, hrd3⟩ | ⟨rfl, hc⟩ | rfl
    · subst f4
      simp only [ne_eq, not_true_eq_false, if_false] at h2
      by_cases hs : res2 = .success
      · subst hs
        simp only [ne_eq, not_true_eq_false, if_false] at he
        cases he
        left
        refine ⟨rfl, ?_⟩
        obtain ⟨f', g1, g2, g3, g4, g5, g6⟩ := (hk.2.2.2.1 rfl).2.2.2
        split at h2
        · cases h2
        · cases h2
          have hff : f'.cts = f.cts := by
            simp only [Option.some.injEq, Control.mk.injEq] at g5
            exact g5.2.symm
          have hlen : f.cts.length ≤ 1 := f1.2 1 (by rw [f3]; rfl)
          have hcts : f.cts = f.cts.head?.toList := by
            cases hc : f.cts with
            | nil => rfl
            | cons x xs =>
              rw [hc] at hlen
              have : xs = [] := List.eq_nil_of_length_eq_zero (by simpa using hlen)
              simp [this]
          have hfe : f = ⟨.start, f.cts.head?.toList⟩ := by
            rw [← hcts]; obtain ⟨ft, fc⟩ := f; cases f3; rfl
          refine ⟨f.cts.head?, rest3, rfl, ?_, ?_, ?_, ?_, hrd3, rfl, h.cap, h.stop⟩
          · rw [← hfe]; exact e3
          · intro c hc
            exact f1.1 c (List.mem_of_mem_head? hc)
          · rw [← hcts, ← hff]; exact g4
          · simp only [f3, ← hcts]; rfl
      · rw [if_pos hs] at he
        cases he
        right
        split at h2
        · cases h2; exact ⟨h.state, h.stop, Or.inr rfl⟩
        · cases h2; exact absurd rfl hs
    · rw [if_pos (by simp)] at h2
      cases h2
      rw [if_pos (by simp)] at he
      cases he
      exact Or.inr ⟨h.state, h.stop, Or.inl ⟨rfl, hc⟩⟩
    · rw [if_pos (by simp)] at h2
      cases h2
      rw [if_pos (by simp)] at he
      cases he
      exact Or.inr ⟨h.state, h.stop, Or.inr rfl⟩
  · rw [if_pos (by simp)] at he
    cases he
    exact Or.inr ⟨h.state, h.stop, Or.inr rfl⟩

/-! ### Reading until something other than success -/

/-- What the read loop says about the part of the file after the START frame. -/
structure FLoop (max : Nat) (rest : Bytes) (ds : List (Option Bytes)) (last : Option Res)
    (r' : Reader FileSt) (items : List Item) (tail : Bytes) : Prop where
  ok : ∀ it ∈ items, it.Ok max
  rest_eq : rest = wires items ++ tail
  cases :
    (ds = (datas items).map some ∧
      (last = none ∨
       (last = some .stop ∧ CFrame.wire ⟨.stop, []⟩ <+: tail ∧ r'.stop = some ⟨T_STOP, []⟩ ∧
          r'.state = .closing) ∨
       (last = some .stop ∧ Cut tail ∧ r'.stop = none ∧ r'.state = .failed) ∨
       (last = some .failure ∧ r'.stop = none ∧ r'.state = .failed))) ∨
    (ds = (datas items).map some ++ [none] ∧ (last = none ∨ last = some .failure) ∧
      ∃ n x, tail = be32 n ++ x ∧ max < n ∧ n < 2^32)

theorem datas_append (a b : List Item) : datas (a ++ b) = datas a ++ datas b := by
  induction a with
  | nil => rfl
  | cons it a ih => cases it <;> simp [datas, ih]

theorem wires_append (a b : List Item) : wires (a ++ b) = wires a ++ wires b := by
  simp [wires]

theorem FRd.readLoop {all : Bytes} (fuel : Nat) : ∀ (n : Nat) {rest : Bytes} {r r' : Reader FileSt}
    {ds : List (Option Bytes)} {last : Option Res}, FRd all r.rdwr rest → r.state = .opened →
    r.stop = none → 1 ≤ r.bufCap → r.readLoop fuel n = .ok (ds, last, r') →
    ∃ items tail, FLoop r.maxFrameSize rest ds last r' items tail := by
  intro n
  induction n with
  | zero =>
    intro rest r r' ds last _ _ _ _ h
    cases h
    exact ⟨[], rest, by simp, by simp [wires], Or.inl ⟨rfl, Or.inl rfl⟩⟩
  | succ n ih =>
    intro rest r r' ds last hrd hst hsp hcap h
    unfold Reader.readLoop at h
    obtain ⟨⟨res, d, r1⟩, h1, h⟩ := Exec.bind_eq_ok.1 h
    simp only at h
    have h1' : Reader.nextData fuel r = .ok (res, d, r1) := by
      unfold Reader.read Reader.maybeOpen at h1
      rw [if_neg (by rw [hst]; decide), Exec.ok_bind] at h1
      simpa [hst] using h1
    obtain ⟨_, _, _, hk, _⟩ := nextData_next fuel hcap h1'
    cases hrd.nextData fuel hst hcap h1' with
    | data items b rest' _ a1 a2 a3 a4 a5 a6 =>
      rw [if_pos rfl] at h
      obtain ⟨⟨ds2, last2, r2⟩, h2, h⟩ := Exec.bind_eq_ok.1 h
      cases h
      obtain ⟨items2, tail, k1, k2, k3⟩ := ih a4 a5 (a6.trans hsp) (Nat.le_trans hcap hk.cap) h2
      refine ⟨items ++ items2, tail, ?_, ?_, ?_⟩
      · intro it hit
        rcases List.mem_append.1 hit with hit | hit
        · exact a1 it hit
        · rw [← hk.max]; exact k1 it hit
      · rw [a3, k2, wires_append, List.append_assoc]
      · rw [hk.max] at k3
        rcases k3 with ⟨rfl, k3⟩ | ⟨rfl, k3⟩
        · exact Or.inl ⟨by simp [datas_append, a2], k3⟩
        · exact Or.inr ⟨by simp [datas_append, a2], k3⟩
    | oversize items m tail _ a1 a2 a3 a4 a5 a6 =>
      rw [if_pos rfl] at h
      obtain ⟨⟨ds2, last2, r2⟩, h2, h⟩ := Exec.bind_eq_ok.1 h
      cases h
      refine ⟨items, be32 m ++ tail, a1, a3, Or.inr ⟨?_, ?_, m, tail, rfl, a4, a5⟩⟩
      · cases n with
        | zero => cases h2; simp [a2]
        | succ n =>
          unfold Reader.readLoop Reader.read Reader.maybeOpen at h2
          rw [if_neg (by rw [a6]; decide), Exec.ok_bind] at h2
          simp [a6, Exec.ok_bind] at h2
          cases h2.1; simp [a2]
      · cases n with
        | zero => cases h2; exact Or.inl rfl
        | succ n =>
          unfold Reader.readLoop Reader.read Reader.maybeOpen at h2
          rw [if_neg (by rw [a6]; decide), Exec.ok_bind] at h2
          simp [a6, Exec.ok_bind] at h2
          exact Or.inr h2.2.1.symm
    | stop items tail _ a1 a2 a3 a4 a5 =>
      rw [if_neg (by simp)] at h
      cases h
      exact ⟨items, _, a1, a3, Or.inl ⟨by simp [a2],
        Or.inr (Or.inl ⟨rfl, List.prefix_append _ _, a4, a5⟩)⟩⟩
    | cut items tail _ a1 a2 a3 a4 a5 a6 =>
      rw [if_neg (by simp)] at h
      cases h
      exact ⟨items, _, a1, a3, Or.inl ⟨by simp [a2],
        Or.inr (Or.inr (Or.inl ⟨rfl, a4, a5.trans hsp, a6⟩))⟩⟩
    | fails items tail _ a1 a2 a3 a4 a5 =>
      rw [if_neg (by simp)] at h
      cases h
      exact ⟨items, _, a1, a3, Or.inl ⟨by simp [a2],
        Or.inr (Or.inr (Or.inr ⟨rfl, a4.trans hsp, a5⟩))⟩⟩

end Fstrm
