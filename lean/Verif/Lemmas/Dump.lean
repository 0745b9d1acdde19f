import Verif.Model.Dump
import Verif.Spec.Dump
import Verif.Lemmas.FileRead
import Verif.Lemmas.FileNoFail

/-! The loop of `fstrm_dump` as a loop of reads together with a sequence of writes. -/

set_option autoImplicit false

namespace Fstrm

open Spec (dumpLines)

theorem dumpLines_append (a b : List Bytes) : dumpLines (a ++ b) = dumpLines a ++ dumpLines b := by
  simp [dumpLines]

/-! ### Printing -/

theorem printPieces_flatten (data : Bytes) :
    ([[32]] ++ printPieces data ++ [[10]]).flatten = dumpLines [data] := by
  simp [printPieces, printString, dumpLines, List.flatMap]

theorem printPieces_ne (data : Bytes) : ∀ x ∈ [[32]] ++ printPieces data ++ [[10]], x ≠ [] := by
  intro x hx
  simp only [printPieces, List.mem_append, List.mem_singleton, List.mem_map] at hx
  rcases hx with (rfl | (rfl | ⟨c, -, rfl⟩) | rfl) | rfl
  · simp
  · simp
  · unfold printByte; split
    · split <;> simp
    · simp
  · simp
  · simp

/-- Standard output is open, and `t` was printed on it. -/
structure SLive (s : FileSt) (t : Bytes) : Prop where
  write : s.write = true
  std : s.isStd = true
  alive : s.stdClosed = false
  cont : s.disk.getD [] ++ s.buf = t

theorem SLive.fwrite {s s' : FileSt} {n : Nat} {d t : Bytes} (ho : SLive s t)
    (h : s.fwrite d = .ok (n, s')) : s'.fp = s.fp ∧
    ∃ u, u <+: d ∧ SLive s' (t ++ u) ∧ (n = 1 → u = d) ∧
      (d ≠ [] → NoFail s.script → n = 1 ∧ u = d ∧ NoFail s'.script) := by
  unfold FileSt.fwrite at h
  rw [if_neg (by simp [ho.alive])] at h
  split at h
  · rename_i h0
    cases h
    refine ⟨rfl, [], by simp, by simpa using ho, nofun, fun hd => ?_⟩
    exact absurd (List.eq_nil_of_length_eq_zero h0) hd
  · obtain ⟨l, hl⟩ := FileSt.next_same s
    split at h
    · rename_i k s2 hk
      rw [hk] at hl
      simp only at hl
      subst hl
      cases h
      refine ⟨rfl, d, List.prefix_refl _, ⟨ho.write, ho.std, ho.alive, ?_⟩, fun _ => rfl,
        fun _ hn => ⟨rfl, rfl, ?_⟩⟩
      · simp only [FileSt.flush, Option.getD_some, List.append_assoc, List.take_append_drop]
        rw [← List.append_assoc, ho.cont]
      · obtain ⟨k', l', e, h2⟩ := FileSt.next_noFail hn
        rw [hk] at e
        simp only [Prod.mk.injEq, FileSt.mk.injEq, and_true, true_and] at e
        simp only [FileSt.flush]
        rw [e.2]; exact h2
    · rename_i k s2 hk
      rw [hk] at hl
      simp only at hl
      subst hl
      cases h
      refine ⟨rfl, d.take k, List.take_prefix _ _, ⟨ho.write, ho.std, ho.alive, ?_⟩, nofun,
        fun _ hn => ?_⟩
      · simp only [← ho.cont, List.append_assoc]
      · obtain ⟨k', l', e, h2⟩ := FileSt.next_noFail hn
        rw [hk] at e
        cases (Prod.mk.inj e).1

theorem SLive.fwrite_total {s : FileSt} {t : Bytes} (ho : SLive s t) (d : Bytes) :
    ∃ n s', s.fwrite d = .ok (n, s') := by
  unfold FileSt.fwrite
  rw [if_neg (by simp [ho.alive])]
  split
  · exact ⟨_, _, rfl⟩
  · split <;> exact ⟨_, _, rfl⟩

theorem SLive.print {ps : List Bytes} : ∀ {s s' : FileSt} {t : Bytes}, SLive s t →
    FileSt.print ps s = .ok s' → s'.fp = s.fp ∧
    ∃ u, u.Sublist ps.flatten ∧ SLive s' (t ++ u) ∧
      ((∀ d ∈ ps, d ≠ []) → NoFail s.script → u = ps.flatten ∧ NoFail s'.script) := by
  induction ps with
  | nil =>
    intro s s' t ho h
    cases h
    exact ⟨rfl, [], by simp, by simpa using ho, fun _ hn => ⟨rfl, hn⟩⟩
  | cons d ps ih =>
    intro s s' t ho h
    unfold FileSt.print at h
    obtain ⟨⟨n, s1⟩, h1, h⟩ := Exec.bind_eq_ok.1 h
    obtain ⟨f1, u, a1, a2, -, a4⟩ := ho.fwrite h1
    obtain ⟨f2, v, b1, b2, b3⟩ := ih a2 h
    refine ⟨f2.trans f1, u ++ v, ?_, by simpa using b2, fun hne hn => ?_⟩
    · rw [List.flatten_cons]
      exact a1.sublist.append b1
    · obtain ⟨-, c1, c2⟩ := a4 (hne d (by simp)) hn
      obtain ⟨c3, c4⟩ := b3 (fun x hx => hne x (by simp [hx])) c2
      exact ⟨by rw [c1, c3]; rfl, c4⟩

theorem SLive.print_total {ps : List Bytes} : ∀ {s : FileSt} {t : Bytes}, SLive s t →
    ∃ s', FileSt.print ps s = .ok s' := by
  induction ps with
  | nil => intro s t _; exact ⟨s, rfl⟩
  | cons d ps ih =>
    intro s t ho
    obtain ⟨n, s1, h1⟩ := ho.fwrite_total d
    obtain ⟨-, u, -, a2, -⟩ := ho.fwrite h1
    obtain ⟨s2, h2⟩ := ih a2
    exact ⟨s2, by unfold FileSt.print; rw [h1, Exec.ok_bind]; exact h2⟩

theorem SLive.exit {s : FileSt} {t : Bytes} (ho : SLive s t) :
    s.exit.disk.getD [] <+: t ∧ (NoFail s.script → s.exit.disk.getD [] = t) := by
  unfold FileSt.exit
  rw [if_neg (by simp [ho.alive])]
  obtain ⟨l, hl⟩ := FileSt.next_same s
  split
  · rename_i k s2 hk
    rw [hk] at hl
    simp only at hl
    subst hl
    have : ({ s with script := l }.flush s.buf.length).disk.getD [] = t := by
      simp [FileSt.flush, ho.cont]
    exact ⟨by rw [this]; exact List.prefix_refl _, fun _ => this⟩
  · rename_i k s2 hk
    rw [hk] at hl
    simp only at hl
    subst hl
    refine ⟨?_, fun hn => ?_⟩
    · simp only [FileSt.flush, Option.getD_some, ← ho.cont]
      exact (List.prefix_append_right_inj _).2 (List.take_prefix _ _)
    · obtain ⟨k', l', e, h2⟩ := FileSt.next_noFail hn
      rw [hk] at e
      cases (Prod.mk.inj e).1

/-- A state after printing a frame. -/
theorem DumpSt.printDataFrame_ok {s s' : DumpSt} {d : Bytes} {res : Res}
    (h : s.printDataFrame d = .ok (res, s')) : res = .success ∧
    (∀ t, SLive s.stdout t → s'.stdout.fp = s.stdout.fp) ∧
    (∀ t, SLive s.stdout t → ∃ u, u.Sublist (dumpLines [d]) ∧ SLive s'.stdout (t ++ u) ∧
      (NoFail s.stdout.script → u = dumpLines [d] ∧ NoFail s'.stdout.script)) ∧
    s' = { s with stdout := s'.stdout, stderr := s.stderr ++ [.data d.length] } := by
  unfold DumpSt.printDataFrame at h
  dsimp only at h
  obtain ⟨o, h1, h⟩ := Exec.bind_eq_ok.1 h
  cases h
  refine ⟨rfl, fun t ht => (ht.print h1).1, fun t ht => ?_, rfl⟩
  obtain ⟨-, u, a1, a2, a3⟩ := ht.print h1
  rw [printPieces_flatten] at a1 a3
  exact ⟨u, a1, a2, a3 (printPieces_ne d)⟩

theorem DumpSt.printDataFrame_total {s : DumpSt} {t : Bytes} (ht : SLive s.stdout t) (d : Bytes) :
    ∃ s', s.printDataFrame d = .ok (.success, s') := by
  obtain ⟨o, ho⟩ := ht.print_total (ps := [[32]] ++ printPieces d ++ [[10]])
  refine ⟨{ s with stdout := o, stderr := s.stderr ++ [.data d.length] }, ?_⟩
  unfold DumpSt.printDataFrame
  dsimp only
  rw [show (s.say (.data d.length)).stdout = s.stdout from rfl, ho]
  rfl

/-! ### The loop -/

/-- What the loop does with the frames it reads; false if the last of them could not be written. -/
inductive Body : DumpSt → List Bytes → Bool → DumpSt → Prop where
  | nil (s : DumpSt) : Body s [] true s
  | quiet {s s1 s2 : DumpSt} {d : Bytes} {ds : List Bytes} {ok : Bool} (r : Reader FileSt)
      (hp : { s with r := r }.printDataFrame d = .ok (.success, s1)) (hw : s1.w = none)
      (h : Body s1 ds ok s2) : Body s (d :: ds) ok s2
  | copy {s s1 s2 : DumpSt} {d : Bytes} {ds : List Bytes} {ok : Bool} (r : Reader FileSt)
      {w w' : Writer FileSt}
      (hp : { s with r := r }.printDataFrame d = .ok (.success, s1)) (hw : s1.w = some w)
      (hc : (s1.attach w).write d = .ok (.success, w'))
      (h : Body (s1.detach w') ds ok s2) : Body s (d :: ds) ok s2
  | bad {s s1 : DumpSt} {d : Bytes} (r : Reader FileSt) {w w' : Writer FileSt} {res : Res}
      (hp : { s with r := r }.printDataFrame d = .ok (.success, s1)) (hw : s1.w = some w)
      (hc : (s1.attach w).write d = .ok (res, w')) (hne : res ≠ .success) :
      Body s [d] false (s1.detach w')

structure DLoop (fuel : Nat) (s s' : DumpSt) (rv : Nat) (ds : List Bytes) (last : Option Res)
    (r1 : Reader FileSt) : Prop where
  reads : ∃ m, s.r.readLoop fuel m = .ok (ds.map some, last, r1)
  body : ∃ s1 ok m, Body s ds ok s1 ∧
    s' = { s1 with r := s'.r, stderr := s1.stderr ++ [m] } ∧ (rv = 0 → ok = true) ∧
    (rv = 0 → m = .stop) ∧ (rv = 1 → ∃ e, m = .error e)
  rv_le : rv = 0 ∨ rv = 1
  good : rv = 0 → last = some .stop
  fin : (∃ res c, last = some .stop ∧ r1.getControl T_STOP = .ok (res, c, s'.r) ∧
      (rv = 0 ↔ res = .success)) ∨ (last ≠ some .stop ∧ s'.r = r1 ∧ rv = 1)

theorem DumpSt.loop_reads (fuel : Nat) : ∀ (n : Nat) (s s' : DumpSt) (rv : Nat),
    DumpSt.loop fuel n s = .ok (rv, s') → ∃ ds last r1, DLoop fuel s s' rv ds last r1 := by
  intro n
  induction n with
  | zero => intro s s' rv h; cases h
  | succ n ih =>
    intro s s' rv h
    unfold DumpSt.loop at h
    obtain ⟨⟨res, data, r1⟩, h1, h⟩ := Exec.bind_eq_ok.1 h
    simp only at h
    have last1 : res ≠ .success → s.r.readLoop fuel 1 = .ok (([] : List Bytes).map some, some res, r1) := by
      intro hne
      unfold Reader.readLoop
      rw [h1, Exec.ok_bind]
      simp [hne]
    by_cases hs : res = .success
    · rw [if_pos hs] at h
      cases data with
      | none => cases h
      | some d =>
        simp only at h
        obtain ⟨⟨res0, s1⟩, h0, h⟩ := Exec.bind_eq_ok.1 h
        obtain ⟨rfl, -, -, h5⟩ := DumpSt.printDataFrame_ok h0
        simp only [ne_eq, not_true_eq_false, if_false] at h
        have hr1 : s1.r = r1 := by rw [h5]
        have more : ∀ m ds last r2, r1.readLoop fuel m = .ok (ds, last, r2) →
            s.r.readLoop fuel (m + 1) = .ok (some d :: ds, last, r2) := by
          intro m ds last r2 hm
          unfold Reader.readLoop
          rw [h1, Exec.ok_bind]
          simp only
          rw [if_pos hs, hm, Exec.ok_bind]
        cases hw : s1.w with
        | none =>
          rw [hw] at h
          simp only at h
          obtain ⟨ds, last, r2, H⟩ := ih _ _ _ h
          refine ⟨d :: ds, last, r2, ?_⟩
          obtain ⟨m, hm⟩ := H.reads
          obtain ⟨s2, ok, e, hb, he⟩ := H.body
          rw [hr1] at hm
          exact ⟨⟨m + 1, more _ _ _ _ hm⟩, ⟨s2, ok, e, .quiet r1 h0 hw hb, he⟩, H.rv_le, H.good,
            H.fin⟩
        | some w =>
          rw [hw] at h
          simp only at h
          obtain ⟨⟨res2, w2⟩, h2, h⟩ := Exec.bind_eq_ok.1 h
          simp only at h
          split at h
          · rename_i hne
            cases h
            exact ⟨[d], none, r1, ⟨1, more 0 [] none r1 rfl⟩,
              ⟨_, _, .error "write_data_frame", .bad r1 h0 hw h2 hne, rfl, nofun, nofun,
                fun _ => ⟨_, rfl⟩⟩, Or.inr rfl, nofun, Or.inr ⟨nofun, hr1, rfl⟩⟩
          · rename_i he0
            have he0 : res2 = .success := by simpa using he0
            subst he0
            obtain ⟨ds, last, r2, H⟩ := ih _ _ _ h
            refine ⟨d :: ds, last, r2, ?_⟩
            obtain ⟨m, hm⟩ := H.reads
            obtain ⟨s2, ok, e, hb, he⟩ := H.body
            rw [show (s1.detach w2).r = r1 from hr1] at hm
            exact ⟨⟨m + 1, more _ _ _ _ hm⟩, ⟨s2, ok, e, .copy r1 h0 hw h2 hb, he⟩, H.rv_le, H.good,
              H.fin⟩
    · rw [if_neg hs] at h
      split at h
      · rename_i hst
        subst hst
        obtain ⟨⟨res2, s2⟩, h2, h⟩ := Exec.bind_eq_ok.1 h
        unfold DumpSt.printStopFrame at h2
        obtain ⟨⟨res3, c3, r3⟩, h3, h2⟩ := Exec.bind_eq_ok.1 h2
        simp only [DumpSt.say] at h2 h
        split at h2
        · rename_i hne
          cases h2
          rw [if_pos hne] at h
          cases h
          refine ⟨[], some .stop, r1, ⟨1, last1 hs⟩, ⟨s, true, .error "unable to read STOP frame",
            .nil s, rfl, nofun, nofun, fun _ => ⟨_, rfl⟩⟩, Or.inr rfl,
            fun _ => rfl, Or.inl ⟨_, _, rfl, h3, ?_⟩⟩
          simp [hne]
        · rename_i he
          cases h2
          simp only [ne_eq, not_true_eq_false, if_false] at h
          cases h
          refine ⟨[], some .stop, r1, ⟨1, last1 hs⟩, ⟨s, true, .stop, .nil s, rfl, fun _ => rfl,
            fun _ => rfl, nofun⟩, Or.inl rfl, fun _ => rfl, Or.inl ⟨_, _, rfl, h3, ?_⟩⟩
          simpa using he
      · rename_i hst
        cases h
        refine ⟨[], some res, r1, ⟨1, last1 hs⟩, ⟨s, true, .error "fstrm_reader_read", .nil s, rfl,
          nofun, nofun, fun _ => ⟨_, rfl⟩⟩, Or.inr rfl, nofun, Or.inr ⟨?_, rfl, rfl⟩⟩
        intro h; exact hst (Option.some.inj h)

/-! ### The output is not `-` -/

/-- The writer of `fstrm_dump` after frames `ds`. -/
def Copied (w w' : Option (Writer FileSt)) (ds : List Bytes) (good : Prop) : Prop :=
  (w = none ∧ w' = none) ∨
  ∃ a b rs, w = some a ∧ w' = some b ∧ a.run (ds.map WOp.write) = .ok (rs, b) ∧
    (good → ∀ r ∈ rs, r = .success)

theorem Body.stderr {s s' : DumpSt} {ds : List Bytes} {ok : Bool} (h : Body s ds ok s') :
    s'.stderr = s.stderr ++ ds.map (fun d => .data d.length) ∧ s'.dash = s.dash := by
  induction h with
  | nil s => simp
  | quiet r hp hw h ih =>
    obtain ⟨-, -, -, h5⟩ := DumpSt.printDataFrame_ok hp
    rw [ih.1, ih.2, h5]; simp
  | copy r hp hw hc h ih =>
    obtain ⟨-, -, -, h5⟩ := DumpSt.printDataFrame_ok hp
    rw [ih.1, ih.2, h5]; simp [DumpSt.detach]
  | bad r hp hw hc hne =>
    obtain ⟨-, -, -, h5⟩ := DumpSt.printDataFrame_ok hp
    rw [h5]; simp [DumpSt.detach]

theorem Body.copied {s s' : DumpSt} {ds : List Bytes} {ok : Bool} (h : Body s ds ok s')
    (hd : s.dash = false) :
    Copied s.w s'.w ds (ok = true) ∧
    ∀ t, SLive s.stdout t → ∃ u, u.Sublist (dumpLines ds) ∧ SLive s'.stdout (t ++ u) ∧
      (NoFail s.stdout.script → u = dumpLines ds ∧ NoFail s'.stdout.script) := by
  have step : ∀ {s s1 s2 : DumpSt} {d : Bytes} {ds : List Bytes} {r : Reader FileSt},
      { s with r := r }.printDataFrame d = .ok (.success, s1) →
      (∀ t, SLive s1.stdout t → ∃ u, u.Sublist (dumpLines ds) ∧ SLive s2.stdout (t ++ u) ∧
        (NoFail s1.stdout.script → u = dumpLines ds ∧ NoFail s2.stdout.script)) →
      ∀ t, SLive s.stdout t → ∃ u, u.Sublist (dumpLines (d :: ds)) ∧ SLive s2.stdout (t ++ u) ∧
        (NoFail s.stdout.script → u = dumpLines (d :: ds) ∧ NoFail s2.stdout.script) := by
    intro s s1 s2 d ds r hp hb t ht
    obtain ⟨-, -, g, -⟩ := DumpSt.printDataFrame_ok hp
    obtain ⟨u, a1, a2, a3⟩ := g t ht
    obtain ⟨v, b1, b2, b3⟩ := hb _ a2
    have hl : dumpLines (d :: ds) = dumpLines [d] ++ dumpLines ds := dumpLines_append [d] ds
    refine ⟨u ++ v, by rw [hl]; exact a1.append b1, by simpa using b2, fun hn => ?_⟩
    obtain ⟨c1, c2⟩ := a3 hn
    obtain ⟨c3, c4⟩ := b3 c2
    exact ⟨by rw [c1, c3, hl], c4⟩
  induction h with
  | nil s =>
    refine ⟨?_, fun t ht => ⟨[], by simp, by simpa using ht, fun hn => ⟨rfl, hn⟩⟩⟩
    cases hw : s.w with
    | none => exact Or.inl ⟨rfl, rfl⟩
    | some w => exact Or.inr ⟨w, w, [], rfl, rfl, rfl, by simp⟩
  | quiet r hp hw h ih =>
    obtain ⟨-, -, -, h5⟩ := DumpSt.printDataFrame_ok hp
    obtain ⟨i1, i2⟩ := ih (by rw [h5]; exact hd)
    refine ⟨?_, step hp i2⟩
    rcases i1 with ⟨_, h2⟩ | ⟨a, b, rs, h2, _⟩
    · exact Or.inl ⟨by rw [← hw, h5], h2⟩
    · rw [hw] at h2; cases h2
  | copy r hp hw hc h ih =>
    rename_i s s1 s2 d ds ok w w'
    obtain ⟨-, -, -, h5⟩ := DumpSt.printDataFrame_ok hp
    have hd1 : s1.dash = false := by rw [h5]; exact hd
    obtain ⟨i1, i2⟩ := ih hd1
    have hat : s1.attach w = w := by unfold DumpSt.attach; rw [hd1]; rfl
    have hso : (s1.detach w').stdout = s1.stdout := by unfold DumpSt.detach; rw [hd1]; rfl
    rw [hso] at i2
    rw [hat] at hc
    refine ⟨?_, step hp i2⟩
    rcases i1 with ⟨h3, _⟩ | ⟨a, b, rs, h3, h4, h5', h6⟩
    · cases h3
    · have h3 : w' = a := Option.some.inj h3
      subst h3
      refine Or.inr ⟨w, b, .success :: rs, by rw [← hw, h5], h4, ?_, ?_⟩
      · simp only [List.map_cons, Writer.run, Writer.step]
        rw [hc, Exec.ok_bind]
        simp only
        rw [h5', Exec.ok_bind]
      · intro hg x hx
        rcases List.mem_cons.1 hx with rfl | hx
        · rfl
        · exact h6 hg x hx
  | bad r hp hw hc hne =>
    rename_i s s1 d w w' res
    obtain ⟨-, -, -, h5⟩ := DumpSt.printDataFrame_ok hp
    have hd1 : s1.dash = false := by rw [h5]; exact hd
    have hat : s1.attach w = w := by unfold DumpSt.attach; rw [hd1]; rfl
    have hso : (s1.detach w').stdout = s1.stdout := by unfold DumpSt.detach; rw [hd1]; rfl
    rw [hat] at hc
    refine ⟨Or.inr ⟨w, w', [res], by rw [← hw, h5], rfl, ?_, nofun⟩, ?_⟩
    · simp [Writer.run, Writer.step, hc, Exec.ok_bind]
    · rw [hso]
      exact step hp (s2 := s1) fun t ht => ⟨[], by simp, by simpa using ht, fun hn => ⟨rfl, hn⟩⟩

end Fstrm
