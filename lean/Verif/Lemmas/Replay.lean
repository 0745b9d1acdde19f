import Verif.Spec.Replay
import Verif.Props.Dump

/-! The loops of `fstrm_replay` as sequences of reads and writes. -/

set_option autoImplicit false

namespace Fstrm

open Spec Props

variable {σ : Type}

/-- The writer was used to write `ds`, always with success. -/
def Wrote (w : Writer σ) (ds : List Bytes) (w' : Writer σ) : Prop :=
  ∃ rs, w.run (ds.map WOp.write) = .ok (rs, w') ∧ ∀ r ∈ rs, r = .success

theorem Wrote.append {w w1 w2 : Writer σ} {a b : List Bytes} (h1 : Wrote w a w1) (h2 : Wrote w1 b w2) :
    Wrote w (a ++ b) w2 := by
  obtain ⟨ra, e1, s1⟩ := h1
  obtain ⟨rb, e2, s2⟩ := h2
  refine ⟨ra ++ rb, ?_, ?_⟩
  · rw [List.map_append, run_append]
    exact ⟨ra, w1, rb, e1, e2, rfl⟩
  · intro r hr
    rcases List.mem_append.1 hr with h | h
    · exact s1 r h
    · exact s2 r h

theorem replayLoop_reads (fuel : Nat) : ∀ (n : Nat) (r r' : Reader FileSt) (w w' : Writer σ)
    (msgs : List ReplayMsg), replayLoop fuel n r w = .ok (.returned, msgs, r', w') →
    ∃ ds last r1, r.readLoop fuel n = .ok (ds.map some, some last, r1) ∧ Wrote w ds w' ∧
      (msgs = [] → last = .stop) ∧ (last = .stop → r1.state ≠ .opening → msgs = []) := by
  intro n
  induction n with
  | zero => intro r r' w w' msgs h; cases h
  | succ n ih =>
    intro r r' w w' msgs h
    unfold replayLoop at h
    obtain ⟨⟨res, data, r1⟩, h1, h⟩ := Exec.bind_eq_ok.1 h
    simp only at h
    unfold Reader.readLoop
    by_cases hs : res = .success
    · rw [if_pos hs] at h
      cases data with
      | none => cases h
      | some d =>
        simp only at h
        obtain ⟨⟨res2, w2⟩, h2, h⟩ := Exec.bind_eq_ok.1 h
        simp only at h
        split at h
        · cases h
        · rename_i he
          have he : res2 = .success := by simpa using he
          subst he
          obtain ⟨ds, last, r2, g1, g2, g3⟩ := ih _ _ _ _ _ h
          refine ⟨d :: ds, last, r2, ?_, ?_, g3⟩
          · rw [h1, Exec.ok_bind]
            simp only
            rw [if_pos hs, g1, Exec.ok_bind]
            rfl
          · refine Wrote.append (a := [d]) ⟨[.success], ?_, by simp⟩ g2
            simp [Writer.run, Writer.step, h2, Exec.ok_bind]
    · rw [if_neg hs] at h
      rw [h1, Exec.ok_bind]
      simp only
      rw [if_neg hs]
      refine ⟨[], res, r1, rfl, ?_, ?_, ?_⟩
      · split at h
        · obtain ⟨⟨res3, c3, r3⟩, h3, h⟩ := Exec.bind_eq_ok.1 h
          simp only at h
          split at h <;> cases h <;> exact ⟨[], rfl, by simp⟩
        · cases h; exact ⟨[], rfl, by simp⟩
      · intro hm
        split at h
        · assumption
        · cases h; cases hm
      · intro hl hr1
        rw [if_pos hl] at h
        have : r1.getControl T_STOP = .ok (.success, r1.stop, r1) := by
          unfold Reader.getControl Reader.maybeOpen
          rw [if_neg hr1, Exec.ok_bind]
          simp
        rw [this, Exec.ok_bind] at h
        simp only [ne_eq, not_true_eq_false, if_false] at h
        cases h; rfl

theorem getControl_start {r r' : Reader FileSt} {res : Res} {c : Option Control}
    (hs : r.state = .opening) (h : r.getControl T_START = .ok (res, c, r')) :
    r.open = .ok (res, r') ∧ (res = .success → c = r'.start) := by
  unfold Reader.getControl Reader.maybeOpen at h
  rw [if_pos hs] at h
  obtain ⟨⟨res1, r1⟩, h1, h⟩ := Exec.bind_eq_ok.1 h
  simp only at h
  split at h
  · rename_i hne
    cases h; exact ⟨h1, fun h => absurd h hne⟩
  · rename_i he
    have he : res1 = .success := by simpa using he
    subst he
    simp only [if_true] at h
    cases h; exact ⟨h1, fun _ => rfl⟩

theorem matchCt_start (fct : Option Bytes) (ct : Bytes) :
    Control.matchCt ⟨T_START, fct.toList⟩ (some ct) = .success ↔ fct = none ∨ fct = some ct := by
  have := matchCt_code (t := .start) (Or.inl rfl) (cts := fct.toList) ct
    (by cases fct <;> rfl)
  rw [show T_START = CType.start.code from rfl]
  cases fct with
  | none => simp at this ⊢; exact this
  | some c =>
    simp at this ⊢
    rw [this]; exact eq_comm

theorem processFile_ok {fuel : Nat} {ct : Bytes} {f : ReplayFile} {w w' : Writer σ}
    {msgs : List ReplayMsg}
    (h : processFile fuel ct f.path f.disk f.script w = .ok (.returned, msgs, w')) :
    ∃ part, Sends ct f (msgs ≠ []) part ∧ Wrote w part w' := by
  have nothing : ∀ m : ReplayMsg, Sends ct f ([m] ≠ []) [] := fun m => Or.inl ⟨by simp, rfl⟩
  have none' : Wrote w [] w := ⟨[], rfl, by simp⟩
  unfold processFile at h
  split at h
  · cases h; exact ⟨[], nothing _, none'⟩
  · rename_i r hr
    obtain ⟨hf, _, hm⟩ := fileReader_fresh hr
    obtain ⟨⟨res, c, r1⟩, h1, h⟩ := Exec.bind_eq_ok.1 h
    simp only at h
    obtain ⟨ho, hc⟩ := getControl_start hf.state h1
    split at h
    · obtain ⟨⟨_, _⟩, _, h⟩ := Exec.bind_eq_ok.1 h
      cases h; exact ⟨[], nothing _, none'⟩
    · rename_i he
      have he : res = .success := by simpa using he
      subst he
      rcases hf.open ho with ⟨_, fct, rest, h3⟩ | ⟨_, _, ⟨h3, _⟩ | h3⟩
      · rw [hc rfl, h3.start] at h
        simp only at h
        split at h
        · obtain ⟨⟨_, _⟩, _, h⟩ := Exec.bind_eq_ok.1 h
          cases h; exact ⟨[], nothing _, none'⟩
        · rename_i hmatch
          have hmatch : Control.matchCt ⟨T_START, fct.toList⟩ (some ct) = .success := by
            simpa using hmatch
          rw [matchCt_start] at hmatch
          obtain ⟨⟨flow, msgs1, r2, w2⟩, h4, h⟩ := Exec.bind_eq_ok.1 h
          simp only at h
          split at h
          · rename_i hfl
            subst hfl
            cases h
          · rename_i hfl
            have hfl : flow = .returned := by cases flow <;> simp_all
            subst hfl
            obtain ⟨⟨_, _⟩, _, h⟩ := Exec.bind_eq_ok.1 h
            cases h
            obtain ⟨ds, last, r3, g1, g2, g3, _⟩ := replayLoop_reads _ _ _ _ _ _ _ h4
            obtain ⟨items, tail, L⟩ := h3.rd.readLoop fuel fuel h3.state h3.stop h3.cap g1
            have hok := L.ok
            rw [h3.max, hm] at hok
            rcases L.cases with ⟨h5, h6⟩ | ⟨h5, _⟩
            · have h5 : ds = datas items :=
                List.map_inj_right (fun _ _ h => Option.some.inj h) |>.1 h5
              subst h5
              refine ⟨_, Or.inr ⟨fct, items, tail, by rw [h3.all_eq, L.rest_eq], hmatch, hok, rfl, ?_⟩, g2⟩
              by_cases hmsg : msgs = []
              · right
                have hl := g3 hmsg
                subst hl
                rcases h6 with h6 | ⟨_, h6, _⟩ | ⟨_, h6, _⟩ | ⟨h6, _⟩
                · cases h6
                · exact Or.inl h6
                · exact Or.inr h6
                · cases h6
              · exact Or.inl hmsg
            · exfalso
              have : (none : Option Bytes) ∈ ds.map some := by rw [h5]; simp
              simp at this
      · cases h3
      · cases h3

/-- The reads on a complete stream. -/
theorem valid_reads (fuel : Nat) (fct : Option Bytes) (items : List Item) (rest : Bytes)
    (r : Reader FileSt)
    (hr : fileReaderInit .file none (some (CFrame.wire ⟨.start, fct.toList⟩ ++
      (wires items ++ (CFrame.wire ⟨.stop, []⟩ ++ rest)))) [] = some r)
    (hct : ∀ c, fct = some c → c.length ≤ 256) (hitems : ∀ it ∈ items, it.Ok 1048576)
    (hfuel : items.length + 2 ≤ fuel) :
    ∃ r1 r2, r.open = .ok (.success, r1) ∧ r1.state = .opened ∧ r1.start = some ⟨T_START, fct.toList⟩ ∧
      r1.readLoop fuel fuel = .ok ((datas items).map some, some .stop, r2) ∧
      r2.state ≠ .opening := by
  obtain ⟨r1, a1, b1, b2, b3, b4, b5, b6, _⟩ := open_uni_at none r fct _ (fileReader_init hr)
    (file_serves _) rfl hct
  obtain ⟨c1, c2⟩ := b6 (Or.inl rfl)
  obtain ⟨fuel, rfl⟩ : ∃ m, fuel = m + 1 := ⟨fuel - 1, by omega⟩
  have hdl := datas_length items
  have hall := contained_all items (wires items ++ (CFrame.wire ⟨.stop, []⟩ ++ rest)).length
    (by simp)
  obtain ⟨last, r2, e1, _, e3, e4⟩ := contLoop_items items
    (wires items ++ (CFrame.wire ⟨.stop, []⟩ ++ rest)).length (fuel + 1) (fuel + 1) fuel rest r1 c1
    (by omega) (by rw [b3]; exact hitems) (by rw [List.take_length]; exact a1) (by omega) (by omega)
    (by rw [hall]; omega)
  have h12 : (CFrame.wire ⟨.stop, []⟩).length = 12 := by decide +kernel
  obtain ⟨f1, f2, _⟩ := e3 (by simp [h12])
  rw [hall, f1] at e1
  rw [← readLoop_opened (fuel + 1) fuel c1] at e1
  exact ⟨r1, r2, c2, c1, b4, e1, by rw [f2]; decide⟩

theorem processFile_valid {fuel : Nat} {ct : Bytes} {f : ReplayFile} {w w' : Writer σ}
    {msgs : List ReplayMsg} {part : List Bytes} {items : List Item} {fct : Option Bytes} {rest : Bytes}
    (hp : f.path = .file) (hsc : f.script = [])
    (hdisk : f.disk = some (CFrame.wire ⟨.start, fct.toList⟩ ++
      (wires items ++ (CFrame.wire ⟨.stop, []⟩ ++ rest))))
    (hfct : fct = none ∨ fct = some ct) (hct : ct.length ≤ 256)
    (hitems : ∀ it ∈ items, it.Ok 1048576) (hpart : part = datas items)
    (hfuel : items.length + 2 ≤ fuel)
    (h : processFile fuel ct f.path f.disk f.script w = .ok (.returned, msgs, w')) :
    msgs = [] ∧ Wrote w part w' := by
  rw [hp, hsc, hdisk] at h
  subst hpart
  unfold processFile at h
  have hinit : ∃ r, fileReaderInit .file none (some (CFrame.wire ⟨.start, fct.toList⟩ ++
      (wires items ++ (CFrame.wire ⟨.stop, []⟩ ++ rest)))) [] = some r := ⟨_, rfl⟩
  obtain ⟨r, hr⟩ := hinit
  rw [hr] at h
  simp only at h
  obtain ⟨hf, _, _⟩ := fileReader_fresh hr
  obtain ⟨r1, r2, g1, g2, g3, g4, g5⟩ := valid_reads fuel fct items rest r hr
    (by rintro c rfl; rcases hfct with h | h; · cases h
        · cases h; exact hct) hitems hfuel
  have hgc : r.getControl T_START = .ok (.success, some ⟨T_START, fct.toList⟩, r1) := by
    unfold Reader.getControl Reader.maybeOpen
    rw [if_pos hf.state, g1, Exec.ok_bind]
    simp [g3]
  rw [hgc, Exec.ok_bind] at h
  simp only [ne_eq, not_true_eq_false, if_false] at h
  rw [if_neg (by rw [(matchCt_start fct ct).2 hfct]; simp)] at h
  obtain ⟨⟨flow, msgs1, r3, w3⟩, h4, h⟩ := Exec.bind_eq_ok.1 h
  simp only at h
  split at h
  · rename_i hfl
    subst hfl
    cases h
  · rename_i hfl
    have hfl : flow = .returned := by cases flow <;> simp_all
    subst hfl
    obtain ⟨⟨_, _⟩, _, h⟩ := Exec.bind_eq_ok.1 h
    cases h
    obtain ⟨ds, last, r4, k1, k2, _, k4⟩ := replayLoop_reads _ _ _ _ _ _ _ h4
    rw [g4] at k1
    simp only [Except.ok.injEq, Prod.mk.injEq, Option.some.injEq] at k1
    obtain ⟨k5, k6, k7⟩ := k1
    have k5 : datas items = ds := List.map_inj_right (fun _ _ h => Option.some.inj h) |>.1 k5
    subst k5 k6 k7
    exact ⟨k4 rfl g5, k2⟩

theorem replayFiles_ok {fuel : Nat} {ct : Bytes} : ∀ (files : List ReplayFile) (w w' : Writer σ)
    (msgs : List ReplayMsg), replayFiles fuel ct files w = .ok (.returned, msgs, w') →
    ∃ parts, SendsAll ct files msgs parts ∧ Wrote w parts.flatten w' := by
  intro files
  induction files with
  | nil =>
    intro w w' msgs h
    cases h
    exact ⟨[], .nil, [], rfl, by simp⟩
  | cons f files ih =>
    intro w w' msgs h
    unfold replayFiles at h
    obtain ⟨⟨flow, m, w1⟩, h1, h⟩ := Exec.bind_eq_ok.1 h
    simp only at h
    split at h
    · rename_i hfl
      subst hfl
      cases h
    · rename_i hfl
      have hfl : flow = .returned := by cases flow <;> simp_all
      subst hfl
      obtain ⟨⟨flow2, m2, w2⟩, h2, h⟩ := Exec.bind_eq_ok.1 h
      cases h
      obtain ⟨part, p1, p2⟩ := processFile_ok h1
      obtain ⟨parts, q1, q2⟩ := ih _ _ _ h2
      exact ⟨part :: parts, .cons p1 q1, by simpa using p2.append q2⟩

theorem replayFiles_valid {fuel : Nat} {ct : Bytes} (hct : ct.length ≤ 256) :
    ∀ (files : List (ReplayFile × List Item)) (w w' : Writer σ) (msgs : List ReplayMsg),
    (∀ p ∈ files, ValidFile ct p.1 p.2 ∧ p.2.length + 2 ≤ fuel) →
    replayFiles fuel ct (files.map (·.1)) w = .ok (.returned, msgs, w') →
    msgs = [] ∧ Wrote w (files.flatMap fun p => datas p.2) w' := by
  intro files
  induction files with
  | nil =>
    intro w w' msgs _ h
    cases h
    exact ⟨rfl, [], rfl, by simp⟩
  | cons f files ih =>
    intro w w' msgs hv h
    rw [List.map_cons] at h
    unfold replayFiles at h
    obtain ⟨⟨flow, m, w1⟩, h1, h⟩ := Exec.bind_eq_ok.1 h
    simp only at h
    split at h
    · rename_i hfl
      subst hfl
      cases h
    · rename_i hfl
      have hfl : flow = .returned := by cases flow <;> simp_all
      subst hfl
      obtain ⟨⟨flow2, m2, w2⟩, h2, h⟩ := Exec.bind_eq_ok.1 h
      cases h
      obtain ⟨⟨v1, v2, v3, fct, rest, v5, v6⟩, v4⟩ := hv f (by simp)
      obtain ⟨p1, p2⟩ := processFile_valid v1 v2 v6 v5 hct v3 rfl v4 h1
      obtain ⟨q1, q2⟩ := ih _ _ _ (fun p hp => hv p (by simp [hp])) h2
      exact ⟨by simp [p1, q1], by simpa using p2.append q2⟩

/-! ### When nothing fails -/

theorem Wrote.split {w w2 : Writer σ} {a b : List Bytes} (h : Wrote w (a ++ b) w2) :
    ∃ w1, Wrote w a w1 ∧ Wrote w1 b w2 := by
  obtain ⟨rs, h1, h2⟩ := h
  rw [List.map_append, run_append] at h1
  obtain ⟨r1, w1, r2, g1, g2, rfl⟩ := h1
  exact ⟨w1, ⟨r1, g1, fun r hr => h2 r (by simp [hr])⟩, ⟨r2, g2, fun r hr => h2 r (by simp [hr])⟩⟩

theorem Wrote.one {w w1 : Writer σ} {d : Bytes} (h : Wrote w [d] w1) :
    w.write d = .ok (.success, w1) := by
  obtain ⟨rs, h1, h2⟩ := h
  simp only [List.map_cons, List.map_nil, Writer.run, Writer.step] at h1
  obtain ⟨⟨r, w2⟩, g1, h1⟩ := Exec.bind_eq_ok.1 h1
  rw [Exec.ok_bind] at h1
  cases h1
  have : r = .success := h2 r (by simp)
  rw [g1, this]

theorem replayLoop_complete (fuel : Nat) : ∀ (n : Nat) (r r1 : Reader FileSt) (w w' : Writer σ)
    (ds : List Bytes), r.readLoop fuel n = .ok (ds.map some, some .stop, r1) →
    r1.state ≠ .opening → Wrote w ds w' →
    replayLoop fuel n r w = .ok (.returned, [], r1, w') := by
  intro n
  induction n with
  | zero => intro r r1 w w' ds h; simp [Reader.readLoop] at h
  | succ n ih =>
    intro r r1 w w' ds h hr hw
    unfold Reader.readLoop at h
    obtain ⟨⟨res, d, r2⟩, h1, h⟩ := Exec.bind_eq_ok.1 h
    simp only at h
    unfold replayLoop
    rw [h1, Exec.ok_bind]
    simp only
    split at h
    · rename_i hs
      obtain ⟨⟨ds2, last2, r3⟩, h2, h⟩ := Exec.bind_eq_ok.1 h
      cases ds with
      | nil => simp at h
      | cons x ds =>
        simp only [List.map_cons, Except.ok.injEq, Prod.mk.injEq, List.cons.injEq] at h
        obtain ⟨⟨hx, hds⟩, hl, hr3⟩ := h
        subst hx hds hl hr3
        rw [if_pos hs]
        obtain ⟨w1, g1, g2⟩ := Wrote.split (a := [x]) (b := ds) hw
        simp only
        rw [g1.one, Exec.ok_bind]
        simp only [ne_eq, not_true_eq_false, if_false]
        exact ih _ _ _ _ _ h2 hr g2
    · rename_i hs
      cases ds with
      | cons x ds => simp at h
      | nil =>
        simp only [Except.ok.injEq, Prod.mk.injEq, Option.some.injEq, List.map_nil, true_and] at h
        obtain ⟨hl, h3⟩ := h
        subst hl h3
        rw [if_neg hs, if_pos rfl]
        have : r2.getControl T_STOP = .ok (.success, r2.stop, r2) := by
          unfold Reader.getControl Reader.maybeOpen
          rw [if_neg hr, Exec.ok_bind]
          simp
        rw [this, Exec.ok_bind]
        obtain ⟨rs, k1, _⟩ := hw
        cases k1
        simp

theorem processFile_complete {fuel : Nat} {ct : Bytes} {f : ReplayFile} {w w' : Writer σ}
    {items : List Item} (hv : ValidFile ct f items) (hct : ct.length ≤ 256)
    (hfuel : items.length + 2 ≤ fuel) (hw : Wrote w (datas items) w') :
    processFile fuel ct f.path f.disk f.script w = .ok (.returned, [], w') := by
  obtain ⟨hp, hsc, hitems, fct, rest, hfct, hdisk⟩ := hv
  rw [hp, hsc, hdisk]
  unfold processFile
  have hinit : ∃ r, fileReaderInit .file none (some (CFrame.wire ⟨.start, fct.toList⟩ ++
      (wires items ++ (CFrame.wire ⟨.stop, []⟩ ++ rest)))) [] = some r := ⟨_, rfl⟩
  obtain ⟨r, hr⟩ := hinit
  rw [hr]
  simp only
  obtain ⟨hf, _, _⟩ := fileReader_fresh hr
  obtain ⟨r1, r2, g1, g2, g3, g4, g5⟩ := valid_reads fuel fct items rest r hr
    (by rintro c rfl; rcases hfct with h | h; · cases h
        · cases h; exact hct) hitems hfuel
  have hgc : r.getControl T_START = .ok (.success, some ⟨T_START, fct.toList⟩, r1) := by
    unfold Reader.getControl Reader.maybeOpen
    rw [if_pos hf.state, g1, Exec.ok_bind]
    simp [g3]
  rw [hgc, Exec.ok_bind]
  simp only [ne_eq, not_true_eq_false, if_false]
  rw [if_neg (by rw [(matchCt_start fct ct).2 hfct]; simp),
    replayLoop_complete fuel fuel r1 r2 w w' _ g4 g5 hw, Exec.ok_bind]
  simp only
  rw [if_neg (by decide)]
  obtain ⟨i1, _, _, i4, _, i5, _⟩ := reader_init_some (fileReader_init hr)
  have hk : Kept r r2 := by
    have k1 := (reader_open_ok g1).1
    exact k1.trans (readLoop_kept fuel fuel (Nat.le_trans (by omega) k1.cap) g4)
  obtain ⟨p, hp⟩ := fileReader_destroy (by rw [i4]; rfl) (by rw [i4]; rfl) (by omega) hk
  rw [hp, Exec.ok_bind]

theorem replayFiles_complete {fuel : Nat} {ct : Bytes} (hct : ct.length ≤ 256) :
    ∀ (files : List (ReplayFile × List Item)) (w w' : Writer σ),
    (∀ p ∈ files, ValidFile ct p.1 p.2 ∧ p.2.length + 2 ≤ fuel) →
    Wrote w (files.flatMap fun p => datas p.2) w' →
    replayFiles fuel ct (files.map (·.1)) w = .ok (.returned, [], w') := by
  intro files
  induction files with
  | nil =>
    intro w w' _ h
    obtain ⟨rs, h1, _⟩ := h
    cases h1
    rfl
  | cons f files ih =>
    intro w w' hv h
    rw [List.flatMap_cons] at h
    obtain ⟨w1, h1, h2⟩ := h.split
    obtain ⟨v1, v2⟩ := hv f (by simp)
    rw [List.map_cons]
    unfold replayFiles
    rw [processFile_complete v1 hct v2 h1, Exec.ok_bind]
    simp only
    rw [if_neg (by decide), ih _ _ (fun p hp => hv p (by simp [hp])) h2, Exec.ok_bind]
    rfl

/-! ### `main` -/

/-- A run that ended with status 0. -/
theorem replay_ok {fuel : Nat} {ct : Bytes} {files : List ReplayFile} {ops : Ops σ} {obj : σ}
    {o : ReplayOut σ} (h : replay fuel ct files ops obj = .ok o) (hs : o.status = 0) :
    ∃ w0 w1 w2 w3 res msgs rdwr, ct.length ≤ 256 ∧
      Writer.init (some ⟨[ct]⟩) (Rdwr.init ops obj) = some w0 ∧
      w0.open = .ok (.success, w1) ∧ replayFiles fuel ct files w1 = .ok (.returned, msgs, w2) ∧
      w2.close = .ok (res, w3) ∧ o.rdwr = some rdwr ∧
      (res = .success → o.msgs = msgs ∧ wrote rdwr.log = wrote w3.rdwr.log) ∧
      (res ≠ .success → o.msgs = msgs ++ [.error "fstrm_writer_close"]) := by
  unfold replay at h
  obtain ⟨⟨w, m0⟩, h1, h⟩ := Exec.bind_eq_ok.1 h
  simp only at h
  cases w with
  | none => cases h; cases hs
  | some w1 =>
    simp only at h
    obtain ⟨⟨flow, msgs, w2⟩, h2, h⟩ := Exec.bind_eq_ok.1 h
    simp only at h
    split at h
    · cases h; cases hs
    · rename_i hfl
      have hfl : flow = .returned := by cases flow <;> simp_all
      subst hfl
      obtain ⟨⟨res, w3⟩, h3, h⟩ := Exec.bind_eq_ok.1 h
      simp only at h
      obtain ⟨⟨res4, rw4⟩, h4, h⟩ := Exec.bind_eq_ok.1 h
      cases h
      unfold initWriter at h1
      simp only [WriterOptions.addCt, WriterOptions.init, CT_LENGTH_MAX] at h1
      split at h1
      · simp at h1
      · rename_i hlen
        simp only [ne_eq, not_true_eq_false, if_false, List.nil_append] at h1
        split at h1
        · cases h1
        · rename_i w0 hw0
          obtain ⟨⟨res5, w5⟩, h5, h1⟩ := Exec.bind_eq_ok.1 h1
          simp only at h1
          split at h1
          · obtain ⟨⟨_, _⟩, _, h1⟩ := Exec.bind_eq_ok.1 h1
            cases h1
          · rename_i he
            have he : res5 = .success := by simpa using he
            subst he
            cases h1
            refine ⟨w0, w1, w2, w3, res, msgs, rw4, by omega, hw0, h5, h2, h3, rfl, ?_, ?_⟩
            · rintro rfl
              refine ⟨by simp, ?_⟩
              have hc := (close_success h3).2.1
              unfold Writer.destroy at h4
              rw [if_neg (by simp [hc]), Exec.ok_bind] at h4
              simp only at h4
              obtain ⟨⟨res6, rw6⟩, h6, h4⟩ := Exec.bind_eq_ok.1 h4
              cases h4
              unfold Rdwr.destroy at h6
              split at h6
              · cases h6; rfl
              · obtain ⟨⟨res7, s7⟩, h7, h6⟩ := Exec.bind_eq_ok.1 h6
                cases h6
                simp [wrote_append, wrote]
            · intro hne; simp [hne]

end Fstrm
