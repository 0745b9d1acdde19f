import Verif.Lemmas.IothrQueues
import Verif.Lemmas.IothrFair

/-!
# The I/O thread serves its queues in turn, access by access
-/

set_option autoImplicit false

namespace Fstrm

open Iothr
open QGhost (upd upd_same upd_ne)

namespace IoQ

variable {σ : Type} {Q : QImpl} {num sz : UInt32} {R : Q.S → QGhost → Prop}

/-- The payloads that were inserted into the queue the I/O thread is looking at since it began to
look. -/
def recs (s : IoQ σ Q) (G : Nat → QGhost) : List Entry :=
  if (G (cursor s.io.pc)).taking then
    (s.io.waiting (cursor s.io.pc)).drop
      ((s.io.waiting (cursor s.io.pc)).length - (G (cursor s.io.pc)).recent)
  else []

theorem mem_recs {s : IoQ σ Q} {G : Nat → QGhost} {x : Entry} : x ∈ s.recs G ↔
    (G (cursor s.io.pc)).taking = true ∧ x ∈ (s.io.waiting (cursor s.io.pc)).drop
      ((s.io.waiting (cursor s.io.pc)).length - (G (cursor s.io.pc)).recent) := by
  unfold recs
  split
  · rename_i h; exact ⟨fun hx => ⟨h, hx⟩, fun hx => hx.2⟩
  · rename_i h; exact ⟨nofun, fun hx => absurd hx.1 h⟩

theorem recs_none {s : IoQ σ Q} {G : Nat → QGhost} (h : ∀ q, (G q).taking = false) : s.recs G = [] := by
  unfold recs
  rw [if_neg (by rw [h]; nofun)]

theorem recs_same {s s' : IoQ σ Q} {G G' : Nat → QGhost} (h1 : s'.io.pc = s.io.pc)
    (h2 : s'.io.queues = s.io.queues)
    (h3 : ∀ q, (G' q).taking = (G q).taking ∧ (G' q).recent = (G q).recent) : s'.recs G' = s.recs G := by
  have : ∀ q, s'.io.waiting q = s.io.waiting q := by intro q; unfold waiting; rw [h2]
  unfold recs
  rw [h1, (h3 _).1, (h3 _).2, this]

theorem recs_sub {s s' : IoQ σ Q} {G G' : Nat → QGhost} (h1 : s'.io.pc = s.io.pc)
    (h2 : s'.io.queues = s.io.queues)
    (h3 : ∀ q, (G' q).taking = (G q).taking ∧ (G' q).recent = (G q).recent) :
    ∀ e ∈ s'.recs G', e ∈ s.recs G := by
  rw [recs_same h1 h2 h3]; exact fun _ h => h

theorem Trs.fair {r r' : List Entry} {s s' : Iothr σ} (t : Trs s s') (hA : InvA s) (hE : Eff r r' s s')
    (hf : Fair r s) : Fair r' s' :=
  hf.step hA (hA.trs t) (t.inv (P := fun x => x.opt = s.opt) (fun _ _ h t => t.opt.trans h) rfl) t.log hE

theorem GLink.fair_effect {s s' : IoQ σ Q} {G : Nat → QGhost} (h : s.GLink G) {q t : Nat} {g' : QGhost}
    (hg : (G q).out (s.io.opt.inputQueueSize - 1) (.effect t) = some g') (hs : s.effect q t = .ok s') :
    Eff (s.recs G) (s'.recs (upd G q g')) s.io s'.io := by
  have hw := h.wait q t
  unfold IoQ.effect at hs
  simp only [QGhost.out] at hg
  cases hwt : s.wait q t with
  | nil => rw [hwt] at hs; cases hs
  | cons e rest =>
    rw [hwt] at hw hs
    simp only [List.map_cons] at hw
    rw [hw] at hg
    simp only at hg hs
    split at hg
    · rename_i hlt
      simp only [Option.some.injEq] at hg
      have hm : e ∈ s.wait q t := by rw [hwt]; simp
      have hp := h.pend q t e hm
      obtain ⟨hown, hwho⟩ := h.ac.own q t e hm
      obtain ⟨p1, p2, p3, p4⟩ := h.invA.plt _ _ hp
      obtain ⟨es, hes⟩ : ∃ es, s.io.queues[e.queue]? = some es := ⟨_, List.getElem?_eq_getElem p2⟩
      have hlen : es.length < s.io.opt.inputQueueSize - 1 := by
        rw [h.fifo q es (hown ▸ hes)] at hlt; simpa using hlt
      have hmod : s.io.queues.modify e.queue (· ++ [e]) = s.io.queues.set e.queue (es ++ [e]) := by
        refine List.ext_getElem? fun j => ?_
        rw [List.getElem?_modify, List.getElem?_set]
        by_cases hj : e.queue = j
        · subst hj; rw [hes]; simp [p2]
        · simp [hj]
      cases hs
      have hwait := waiting_set (s := s.io) (s' := { s.io with queues := s.io.queues.set e.queue (es ++ [e]) }) hes rfl
      refine .insert e es [] hes hlen (by simp only [emit]; exact hmod) (by simp [emit]) rfl rfl rfl rfl ?_
      intro x hx
      have hwait' : ∀ c, Iothr.waiting ({ s.io with
          pending := fun id => if id = e.id then none else s.io.pending id
          queues := s.io.queues.modify e.queue (· ++ [e]) }.emit (.submitted e)) c =
          if e.queue = c then es ++ [e] else s.io.waiting c := by
        intro c
        rw [← hwait c]
        simp only [waiting, emit, hmod]
      rw [mem_recs] at hx
      obtain ⟨htk, hx⟩ := hx
      replace htk : (upd G q g' (cursor s.io.pc)).taking = true := htk
      rw [hwait'] at hx
      replace hx : x ∈ List.drop ((if e.queue = cursor s.io.pc then es ++ [e] else s.io.waiting (cursor s.io.pc)).length -
          (upd G q g' (cursor s.io.pc)).recent)
        (if e.queue = cursor s.io.pc then es ++ [e] else s.io.waiting (cursor s.io.pc)) := hx
      rw [mem_recs]
      by_cases hc : cursor s.io.pc = q
      · rw [hc, upd_same, ← hg] at htk
        rw [hc, upd_same, ← hg, hown, if_pos rfl] at hx
        have hes' : s.io.waiting q = es := by unfold waiting; rw [← hown, hes]; rfl
        rw [hc, hes']
        simp only [List.length_append, List.length_singleton] at hx
        rw [show es.length + 1 - ((G q).recent + 1) = es.length - (G q).recent by omega,
          List.drop_append_of_le_length (by omega)] at hx
        rcases List.mem_append.1 hx with hx | hx
        · exact Or.inr ⟨htk, hx⟩
        · exact Or.inl (by simpa using hx)
      · rw [upd_ne hc] at htk
        rw [upd_ne hc, if_neg (by rw [hown]; exact fun h => hc h.symm)] at hx
        exact Or.inr ⟨htk, hx⟩
    · cases hg

theorem GLink.fair_returned {s s' : IoQ σ Q} {G : Nat → QGhost} {q t : Nat} {ok : Bool}
    {sp : Nat} {g' : QGhost}
    (hg : (G q).out (s.io.opt.inputQueueSize - 1) (.ins t ok sp) = some g')
    (hs : s.returned q t ok sp = .ok s') :
    Eff (s.recs G) (s'.recs (upd G q g')) s.io s'.io := by
  have hG : ∀ q', ((upd G q g') q').taking = (G q').taking ∧ ((upd G q g') q').recent = (G q').recent := by
    have : g'.taking = (G q).taking ∧ g'.recent = (G q).recent := by
      simp only [QGhost.out] at hg
      split at hg
      · split at hg
        · cases hg; exact ⟨rfl, rfl⟩
        · split at hg
          · cases hg
          · cases hg; exact ⟨rfl, rfl⟩
      · cases hg
    intro q'
    by_cases hq : q' = q
    · subst hq; rw [upd_same]; exact this
    · rw [upd_ne hq]; exact ⟨rfl, rfl⟩
  unfold IoQ.returned at hs
  split at hs
  · cases hs
  · rename_i e hcur
    simp only at hs
    split at hs
    · split at hs
      · cases hs
        obtain ⟨wk, hwk⟩ := signal_eq (s.io.emit .signal)
        simp only [hwk]
        exact .quiet' rfl ⟨[.signal], rfl, rfl, rfl⟩ rfl rfl (recs_sub rfl rfl hG)
      · cases hs
        exact .quiet' rfl ⟨[], by simp, rfl, rfl⟩ rfl rfl (recs_sub rfl rfl hG)
    · cases hs
      exact .quiet' rfl ⟨[.refused e.id .again], rfl, rfl, rfl⟩ rfl rfl
        (recs_sub rfl rfl hG)

theorem GLink.fair_outs (os : List QOut) {s s' : IoQ σ Q} {G : Nat → QGhost} (h : s.GLink G) {q : Nat}
    {g' : QGhost} (hg : (G q).outs (s.io.opt.inputQueueSize - 1) os = some g')
    (hs : s.outs q os = .ok s') (hf : Fair (s.recs G) s.io) : Fair (s'.recs (upd G q g')) s'.io := by
  induction os generalizing s G with
  | nil =>
    cases hg; cases hs
    have : upd G q (G q) = G := by funext x; simp only [upd]; split <;> simp_all
    rw [this]; exact hf
  | cons o os ih =>
    obtain ⟨g1, h1, h2⟩ := Option.bind_eq_some_iff.1 hg
    obtain ⟨s1, e1, hs⟩ := Exec.bind_eq_ok.1 hs
    have step : s1.GLink (upd G q g1) ∧ Trs s.io s1.io ∧ Fair (s1.recs (upd G q g1)) s1.io := by
      cases o with
      | effect t =>
        obtain ⟨s2, a, b, c, _⟩ := h.effect h1
        have e1' : s.effect q t = .ok s1 := e1
        rw [e1'] at a; cases a
        exact ⟨b, c.trs, Trs.fair c.trs h.invA (h.fair_effect h1 e1) hf⟩
      | ins t ok sp =>
        obtain ⟨s2, a, b, c, _⟩ := h.returned h1
        have e1' : s.returned q t ok sp = .ok s1 := e1
        rw [e1'] at a; cases a
        exact ⟨b, c, Trs.fair c h.invA (fair_returned h1 e1) hf⟩
    obtain ⟨a1, a2, a3⟩ := step
    have ho : s1.io.opt = s.io.opt :=
      a2.inv (P := fun x => x.opt = s.io.opt) (fun _ _ h t => t.opt.trans h) rfl
    have := ih a1 (by rw [upd_same, ho]; exact h2) hs a3
    have hu : upd (upd G q g1) q g' = upd G q g' := by funext x; simp only [upd]; split <;> rfl
    rwa [hu] at this

/-- The queues agree with their contents, and nobody has been overtaken too often. -/
structure FLink (num : UInt32) (R : Q.S → QGhost → Prop) (s : IoQ σ Q) : Prop where
  link : s.Link num R
  live : s.io.destroyed = false → ∃ G, s.QLink num R G ∧ Fair (s.recs G) s.io
  dead : s.io.destroyed = true → Fair [] s.io

theorem FLink.fair {s : IoQ σ Q} (h : s.FLink num R) : ∃ r, Fair r s.io := by
  cases hd : s.io.destroyed with
  | true => exact ⟨_, h.dead hd⟩
  | false =>
    obtain ⟨G, _, hf⟩ := h.live hd
    exact ⟨_, hf⟩

theorem QLink.fair_prod (hQ : Q.Correct num sz R) {s s' : IoQ σ Q} {G : Nat → QGhost}
    (h : s.QLink num R G) {q : Nat} {c c' : Q.S} {os : List QOut} {g' : QGhost}
    (h2 : (G q).outs (num.toNat - 1) os = some g') (h3 : R c' g')
    (hs : { s with qs := s.qs.set q c' }.outs q os = .ok s') (hf : Fair (s.recs G) s.io) :
    ∃ G', s'.QLink num R G' ∧ Fair (s'.recs G') s'.io := by
  rw [h.num] at h2
  have hg : GLink { s with qs := s.qs.set q c' } G :=
    ⟨h.g.invA, h.g.invG, ⟨h.g.ac.acct, h.g.ac.own, h.g.ac.curs⟩, h.g.alive, h.g.fifo, h.g.wait, h.g.calling,
      h.g.pend, h.g.key, h.g.nodup, h.g.loc, h.g.recent⟩
  obtain ⟨s1, a1, a2, a3, a4, a5⟩ := hg.outs os h2
  rw [hs] at a1; cases a1
  exact ⟨_, h.set a2 a4 h3 a3, hg.fair_outs os h2 hs hf⟩

/-- A step of the I/O thread. -/
theorem QLink.fair_io (hQ : Q.Correct num sz R) {s s' : IoQ σ Q} {G : Nat → QGhost} (h : s.QLink num R G)
    {now : Nat} {wake : Wake} {k : Nat} (hs : s.ioStep now wake k = .ok s') (hf : Fair (s.recs G) s.io) :
    ∃ G', s'.QLink num R G' ∧ Fair (s'.recs G') s'.io := by
  have other : (∀ i t, s.io.pc = .work i t ∨ s.io.pc = .drain i t → ¬ i < s.io.opt.numInputQueues) →
      ∀ io, s.io.ioStep now wake = .ok io →
        ∃ G', QLink num R { s with io := io } G' ∧ Fair (IoQ.recs { s with io := io } G') io := by
    intro hn io hio
    have t := ioStep_trs hio
    have hno : ∀ q, (G q).taking = false := by
      intro q
      cases ht : (G q).taking with
      | false => rfl
      | true =>
        obtain ⟨h1, t, h2⟩ := h.g.loc q ht
        exact absurd h1 (hn q t h2)
    refine ⟨G, h.frame t (ioStep_sameQ hio hn) (Or.inr hno), ?_⟩
    rw [recs_none hno]
    rw [recs_none hno] at hf
    exact Trs.fair t h.g.invA (ioStep_eff hio) hf
  -- the looks at queue `i`, followed by a move of the program counter to `pc n`
  have look : ∀ {i : Nat} (pc : Nat → IoPc), Iothr.At s.io i → cursor s.io.pc = i →
      (∀ n, cursor (pc n) = i + 1) →
      (∀ c G', s.take i k = .ok (some 0, { s with qs := s.qs.set i c }) →
        QLink num R { s with qs := s.qs.set i c } G' → (∀ q, (G' q).taking = false) →
        (∀ t, s.io.pc = .drain i t → ∀ es, s.io.queues[i]? = some es → ∀ e ∈ es, e ∉ s.io.old) →
        PcStep s.io (pc 0)) →
      (∀ io : Iothr σ, io.pc = s.io.pc → io.opt = s.io.opt → PcStep io (pc 1)) →
      ∀ r s1, s.take i k = .ok (r, s1) →
      (r = none → ∃ G', s1.QLink num R G' ∧ Fair (s1.recs G') s1.io) ∧
      (∀ n, r = some n → ∃ G', QLink num R { s1 with io := { s1.io with pc := pc n } } G' ∧
        Fair (IoQ.recs { s1 with io := { s1.io with pc := pc n } } G') { s1.io with pc := pc n }) := by
    intro i pc hat hc hpc hp0 hp1 r s1 h1
    rcases h.take hQ hat k with ⟨c, e1, G', e2, e3⟩ | ⟨c, G', e1, e2, e3, e4, e5⟩ | ⟨c, G', e1, e2⟩
    · rw [e1] at h1; cases h1
      refine ⟨fun _ => ⟨G', e2, ?_⟩, nofun⟩
      refine Trs.fair (.refl _) h.g.invA (.quiet' rfl ⟨[], by simp, rfl, rfl⟩ rfl rfl ?_) hf
      intro e he
      rcases e3 with e3 | rfl
      · unfold recs at he
        simp only [hc, e3] at he
        split at he
        · simp at he
        · cases he
      · exact he
    · rw [e1] at h1; cases h1
      refine ⟨nofun, fun n hn => ?_⟩
      cases hn
      have hstep := hp0 c G' e1 e2 e3 e5
      refine ⟨G', e2.setPc _ hstep e3, ?_⟩
      rw [recs_none e3]
      refine Trs.fair (s := s.io) (Tr.trs (Tr.pc s.io _ s.io.woken hstep)) h.g.invA
        (.quiet rfl rfl List.prefix_rfl (.skip ?_ ?_) nofun) hf
      · intro e he
        unfold recs
        rw [hc] at he ⊢
        rw [if_pos e4.1]
        obtain ⟨es, hes, _⟩ := mem_waiting he
        have hw : s.io.waiting i = es := by unfold waiting; rw [hes]; rfl
        rw [hw, Nat.sub_eq_zero_of_le (e4.2 es hes), List.drop_zero, ← hw]
        exact he
      · rw [hc]; exact hpc 0
    · rw [e1] at h1
      obtain ⟨⟨n, io⟩, h2, h1⟩ := Exec.bind_eq_ok.1 h1
      cases h1
      refine ⟨nofun, fun n' hn => ?_⟩
      cases hn
      obtain ⟨rfl, e3, e4⟩ := e2 n io h2
      obtain ⟨t1, t2, t3, t4, _, _⟩ := processQueue_ok h2 hat
      have hstep := hp1 io t2 t3
      refine ⟨G', e3.setPc _ hstep e4, ?_⟩
      rw [recs_none e4]
      refine Trs.fair (s := s.io) (.snoc t1 (Tr.pc io _ io.woken hstep)) h.g.invA ?_ hf
      rcases processQueue_eff h2 with ⟨rfl, hw⟩ | ⟨e, rest, a, b, c, d⟩
      · exact .quiet rfl rfl List.prefix_rfl (.skip (by rw [hc, hw]; nofun) (by rw [hc]; exact hpc 1)) nofun
      · exact .take e rest (hc ▸ a) (hc ▸ b) c (by rw [hc]; exact hpc 1) d rfl
  unfold IoQ.ioStep at hs
  split at hs
  · rename_i i total hp
    split at hs
    · rename_i hi
      obtain ⟨⟨r, s1⟩, h1, hs⟩ := Exec.bind_eq_ok.1 hs
      simp only at hs
      obtain ⟨l1, l2⟩ := look (fun n => .work (i + 1) (total + n)) (.work total hp hi) (by rw [hp]; rfl)
        (fun _ => rfl) (fun _ _ _ _ _ _ => PcStep.workNext (s := s.io) i total (total + 0) hp)
        (fun io h1 _ => PcStep.workNext (s := io) i total (total + 1) (h1.trans hp)) r s1 h1
      cases r with
      | none => cases hs; exact l1 rfl
      | some n => cases hs; exact l2 n rfl
    · rename_i hi
      obtain ⟨io, h1, hs⟩ := Exec.bind_eq_ok.1 hs
      cases hs
      refine other ?_ io h1
      intro j t hj
      rw [hp] at hj
      rcases hj with hj | hj
      · cases hj; exact hi
      · cases hj
  · rename_i i total hp
    split at hs
    · rename_i hi
      obtain ⟨⟨r, s1⟩, h1, hs⟩ := Exec.bind_eq_ok.1 hs
      simp only at hs
      obtain ⟨l1, l2⟩ := look (fun n => .drain (i + 1) (total + n)) (.drain total hp hi) (by rw [hp]; rfl)
        (fun _ => rfl) (fun _ _ _ _ _ e5 => PcStep.drainNext (s := s.io) i total (total + 0) hp hi fun h0 =>
            ⟨by omega, fun es hes e he => e5 total hp es hes e he⟩)
        (fun io h1 h2 => PcStep.drainNext (s := io) i total (total + 1) (h1.trans hp) (h2 ▸ hi)
          fun h0 => absurd h0 (by omega)) r s1 h1
      cases r with
      | none => cases hs; exact l1 rfl
      | some n => cases hs; exact l2 n rfl
    · rename_i hi
      obtain ⟨io, h1, hs⟩ := Exec.bind_eq_ok.1 hs
      cases hs
      refine other ?_ io h1
      intro j t hj
      rw [hp] at hj
      rcases hj with hj | hj
      · cases hj
      · cases hj; exact hi
  · rename_i hp1 hp2
    obtain ⟨io, h1, hs⟩ := Exec.bind_eq_ok.1 hs
    cases hs
    refine other ?_ io h1
    intro j t hj
    rcases hj with hj | hj
    · exact absurd hj (hp1 j t)
    · exact absurd hj (hp2 j t)

/-- Every step keeps it so. -/
theorem FLink.step (hQ : Q.Correct num sz R) {s s' : IoQ σ Q} (h : s.FLink num R) {a : QAct}
    (hs : s.step a = .ok s') : s'.FLink num R := by
  cases hd : s.io.destroyed with
  | true => rw [h.link.dead hd hs]; exact h
  | false =>
    obtain ⟨G, hl, hf⟩ := h.live hd
    obtain ⟨hlink, htr⟩ := h.link.step hQ hs
    have alive : (∃ G', s'.QLink num R G' ∧ Fair (s'.recs G') s'.io) → s'.FLink num R := by
      intro ⟨G', e1, e2⟩
      exact ⟨hlink, fun _ => ⟨G', e1, e2⟩, fun hd => by rw [e1.g.alive] at hd; cases hd⟩
    cases a with
    | submit q t raw data f =>
      obtain ⟨s1, e1, ⟨G', e2, e3, e4, e5⟩, e6⟩ := hl.submit' hQ q t raw data f
      have hs' : s.submit q t raw data f = .ok s' := hs
      rw [hs'] at e1; cases e1
      refine alive ⟨G', e2, Trs.fair htr hl.g.invA (.quiet e4 e5 ?_ (.same (by rw [e6.io.pc])) ?_) hf⟩
      · unfold taken; rw [e6.io.handed, e6.io.outq]; exact List.prefix_rfl
      · rw [recs_same e6.io.pc e4 e3]; exact fun _ h => h
    | prod q t k =>
      simp only [IoQ.step, IoQ.prod, hd, Bool.false_eq_true, if_false] at hs
      split at hs
      · cases hs; exact h
      · rename_i c hc
        obtain ⟨c', os, g', h1, h2, h3⟩ := hQ.prod _ _ t k (hl.rel q c hc)
        rw [h1] at hs
        exact alive (hl.fair_prod hQ (c := c) h2 h3 hs hf)
    | flush q b i =>
      simp only [IoQ.step, IoQ.flush, hd, Bool.false_eq_true, if_false] at hs
      split at hs
      · cases hs; exact h
      · rename_i c hc
        obtain ⟨c', os, g', h1, h2, h3⟩ := hQ.flush _ _ b i (hl.rel q c hc)
        rw [h1] at hs
        exact alive (hl.fair_prod hQ (c := c) h2 h3 hs hf)
    | getQueue =>
      simp only [IoQ.step] at hs
      obtain ⟨io, h1, hs⟩ := Exec.bind_eq_ok.1 hs
      cases hs
      have hq : io.queues = s.io.queues ∧ io.pc = s.io.pc ∧ submits io.log = submits s.io.log ∧
          io.taken = s.io.taken ∧ SameQ s.io io := by
        unfold Iothr.getQueue at h1
        split at h1
        · cases h1
        · split at h1 <;> cases h1 <;>
          simp [emit, taken, submits_append, submits, handed_append, handed] <;>
          exact ⟨rfl, rfl, rfl, by simp [submits_append, submits]⟩
      obtain ⟨q1, q2, q3, q4, q5⟩ := hq
      refine alive ⟨G, hl.frame htr q5 (Or.inl q2), Trs.fair htr hl.g.invA (.quiet q1 q3 (by rw [q4]; exact List.prefix_rfl) (.same (by rw [q2])) ?_) hf⟩
      exact recs_sub q2 q1 fun _ => ⟨rfl, rfl⟩
    | shutdown =>
      simp only [IoQ.step] at hs
      obtain ⟨io, h1, hs⟩ := Exec.bind_eq_ok.1 hs
      cases hs
      have hq : io.queues = s.io.queues ∧ io.pc = s.io.pc ∧ submits io.log = submits s.io.log ∧
          io.taken = s.io.taken ∧ SameQ s.io io := by
        unfold Iothr.shutdown at h1
        split at h1
        · cases h1; exact ⟨rfl, rfl, rfl, rfl, .refl _⟩
        · cases h1
          obtain ⟨wk, hwk⟩ := signal_eq ({ s.io with shutting := true }.emit .shutdown)
          rw [hwk]
          simp [emit, taken, submits_append, submits, handed_append, handed]
          exact ⟨rfl, rfl, rfl, by simp [submits_append, submits]⟩
      obtain ⟨q1, q2, q3, q4, q5⟩ := hq
      refine alive ⟨G, hl.frame htr q5 (Or.inl q2), Trs.fair htr hl.g.invA (.quiet q1 q3 (by rw [q4]; exact List.prefix_rfl) (.same (by rw [q2])) ?_) hf⟩
      exact recs_sub q2 q1 fun _ => ⟨rfl, rfl⟩
    | io now wake k => exact alive (hl.fair_io hQ hs hf)
    | finish =>
      simp only [IoQ.step] at hs
      rcases hl.finish hQ with e | ⟨hq, e⟩
      · rw [e] at hs; cases hs; exact h
      · rw [e] at hs
        obtain ⟨io, h1, hs⟩ := Exec.bind_eq_ok.1 hs
        cases hs
        have hE : Eff [] [] s.io io := step_eff (a := .finish) h1
        unfold Iothr.finish at h1
        split at h1
        · rename_i hcond
          have hno : ∀ q, (G q).taking = false := by
            intro q
            cases ht : (G q).taking with
            | false => rfl
            | true =>
              obtain ⟨_, t, h2⟩ := hl.g.loc q ht
              rw [hcond.2.1] at h2
              rcases h2 with h2 | h2 <;> cases h2
          rw [recs_none hno] at hf
          have hfin := Trs.fair htr hl.g.invA hE hf
          obtain ⟨⟨r, rdwr⟩, _, h1⟩ := Exec.bind_eq_ok.1 h1
          cases h1
          exact ⟨hlink, fun hd' => by simp [emit] at hd', fun _ => hfin⟩
        · cases h1; exact h

theorem FLink.run (hQ : Q.Correct num sz R) (as : List QAct) {s s' : IoQ σ Q} (h : s.FLink num R)
    (hs : s.run as = .ok s') : s'.FLink num R := by
  induction as generalizing s with
  | nil => cases hs; exact h
  | cons a as ih =>
    obtain ⟨s1, h1, hs⟩ := Exec.bind_eq_ok.1 hs
    exact ih (h.step hQ h1) hs

end IoQ
end Fstrm
