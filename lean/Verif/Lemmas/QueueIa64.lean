import Verif.Lemmas.QueueTso
import Verif.Model.QueueIa64

/-!
# The ia64 queue does what the x86-64 queue can do

With acquire loads every run of `Ia64` is matched by a run of `Tso` with the same log and the same
memory: a byte that is pending on ia64 is, on x86-64, one that has not been copied yet.
-/

set_option autoImplicit false

namespace Fstrm

/-- The x86-64 producer that matches. -/
def PMatch (sz : UInt32) (pbuf : List Store) (tbuf : List Store) (tp : PPc) : PPc64 → Prop
  | .idle => tp = .idle ∧ pbuf = [] ∧ tbuf = []
  | .loadHead item => tp = .loadHead item ∧ pbuf = [] ∧ tbuf = []
  | .loadTail item head => tp = .loadTail item head ∧ pbuf = [] ∧ tbuf = []
  | .copy item head space todo => ∃ todo' pend, tp = .copy item head space todo' ∧ tbuf = [] ∧
      pbuf = pend.map (fun k => .data ((head * sz).toNat + k) (item[k]?.getD 0)) ∧
      (∀ k ∈ pend, k < item.length) ∧ todo'.Perm (pend ++ todo)
  | .fence _ => tp = .idle ∧ pbuf = tbuf ∧ pbuf.length ≤ 1

/-- The x86-64 consumer that matches. -/
def CMatch (cbuf : List Store) (tc : CPc) : CPc64 → Prop
  | .idle => tc = .idle ∧ cbuf.length ≤ 1
  | .loadHead pre => tc = .loadHead ∧ pre = none ∧ cbuf.length ≤ 1
  | .loadTail head pre => tc = .loadTail head ∧ pre = none ∧ cbuf.length ≤ 1
  | .copy tail count buf todo => tc = .copy tail count buf todo ∧ cbuf.length ≤ 1
  | .store tail count buf => tc = .store tail count buf ∧ cbuf = []

/-- The two match. -/
structure Ia64.Rel (num sz : UInt32) (s : Ia64) (t : Tso) : Prop where
  acq : s.acq = true
  q : t.q = s.q
  log : t.log = s.log
  cbuf : t.cbuf = s.cbuf
  p : PMatch s.q.sz s.pbuf t.pbuf t.p s.p
  c : CMatch s.cbuf t.c s.c
  inv : t.Inv num sz

theorem Tso.run_append {t t' : Tso} {as bs : List TsoAct} (h : t.run as = .ok t') :
    t.run (as ++ bs) = t'.run bs := by
  induction as generalizing t with
  | nil => cases h; rfl
  | cons a as ih =>
    rw [Tso.run] at h
    obtain ⟨t1, h1, h⟩ := Exec.bind_eq_ok.1 h
    rw [List.cons_append, Tso.run, h1, Exec.ok_bind]
    exact ih h

theorem Tso.run_one (t : Tso) (a : TsoAct) : t.run [a] = t.step a := by
  rw [Tso.run]
  cases h : t.step a with
  | error e => rfl
  | ok t' => rfl

/-- The conclusion about one action. -/
def Ia64.Follows (num sz : UInt32) (s : Ia64) (t : Tso) (r : Exec Ia64) : Prop :=
  ∃ s', r = .ok s' ∧ ∃ acts t', t.run acts = .ok t' ∧ Ia64.Rel num sz s' t' ∧ s'.q.sz = s.q.sz

theorem commit_sz {q q' : Queue} {st : Store} (h : Tso.commit q st = .ok q') : q'.sz = q.sz := by
  unfold Tso.commit at h
  split at h
  · split at h
    · cases h; rfl
    · cases h
  · cases h; rfl
  · cases h; rfl

theorem mod_idx {i n : Nat} (h : i < n + 1) : i % (n + 1) = i := Nat.mod_eq_of_lt h

theorem map_eraseIdx {α β : Type} (f : α → β) (l : List α) (i : Nat) :
    (l.map f).eraseIdx i = (l.eraseIdx i).map f := by
  induction l generalizing i with
  | nil => rfl
  | cons a l ih =>
    cases i with
    | zero => rfl
    | succ i => simp only [List.map_cons, List.eraseIdx_cons_succ, ih]

theorem cons_eraseIdx_perm {α : Type} (l : List α) (i : Nat) (h : i < l.length) :
    (l[i] :: l.eraseIdx i).Perm l := by
  induction l generalizing i with
  | nil => cases h
  | cons a l ih =>
    cases i with
    | zero => exact List.Perm.refl _
    | succ i =>
      simp only [List.getElem_cons_succ, List.eraseIdx_cons_succ]
      exact (List.Perm.swap _ _ _).trans ((ih i (by simpa using h)).cons a)

/-- The x86-64 producer copies the byte `k`. -/
theorem Tso.pick {t : Tso} {item : Bytes} {head space : UInt32} {todo : List Nat} {k : Nat}
    (hp : t.p = .copy item head space todo) (hk : k ∈ todo) (b : UInt8) (hb : item[k]? = some b) :
    ∃ i, t.step (.pstep i) = .ok { t with
      pbuf := t.pbuf ++ [.data ((head * t.q.sz).toNat + k) b]
      p := .copy item head space (todo.erase k) } := by
  cases todo with
  | nil => cases hk
  | cons a todo =>
    obtain ⟨i, hi, hik⟩ := List.getElem_of_mem hk
    refine ⟨i, ?_⟩
    have h1 : i % (todo.length + 1) = i := mod_idx (by simpa using hi)
    have h2 : (a :: todo)[i % (todo.length + 1)]?.getD a = k := by
      rw [h1, List.getElem?_eq_getElem hi, Option.getD_some, hik]
    simp only [Tso.step, Tso.pstep, hp, h2, hb]

theorem pickStore_some {buf : List Store} {i : Nat} {st : Store} (h : pickStore buf i = some st) :
    ∃ hi : i < buf.length, buf[i] = st := by
  unfold pickStore at h
  split at h
  · cases h
  · rename_i st' he
    split at h
    · cases h
    · cases h
      exact List.getElem?_eq_some_iff.1 he

theorem Ia64.Rel.pstep {num sz : UInt32} {s : Ia64} {t : Tso} (h : s.Rel num sz t) (i : Nat) :
    Ia64.Follows num sz s t (s.pstep i) := by
  obtain ⟨hacq, hq, hlog, hcbuf, hp, hc, hinv⟩ := h
  have same : ∀ {tp}, t.p = tp → Ia64.Rel num sz s t := fun _ =>
    ⟨hacq, hq, hlog, hcbuf, hp, hc, hinv⟩
  unfold Ia64.pstep
  cases hpc : s.p with
  | idle => exact ⟨s, rfl, [], t, rfl, same rfl, rfl⟩
  | loadHead item =>
    rw [hpc] at hp
    obtain ⟨p1, p2, p3⟩ := hp
    obtain ⟨t', e, hinv'⟩ := hinv.step (.pstep 0)
    have e' : t.step (.pstep 0) =
        .ok { t with p := .loadTail item ((fwdHead t.pbuf).getD t.q.head) } := by
      simp only [Tso.step, Tso.pstep, p1]
    rw [e'] at e; cases e
    refine ⟨_, rfl, [.pstep 0], _, (Tso.run_one _ _).trans e', ⟨hacq, hq, hlog, hcbuf, ?_, hc, hinv'⟩, rfl⟩
    refine ⟨?_, p2, p3⟩
    rw [p2, p3, hq]
  | loadTail item head =>
    rw [hpc] at hp
    obtain ⟨p1, p2, p3⟩ := hp
    obtain ⟨t', e, hinv'⟩ := hinv.step (.pstep 0)
    have e' := e
    simp only [Tso.step, Tso.pstep, p1] at e
    simp only [p2]
    rw [p3, hq] at e
    simp only [hlog] at e
    split at e
    · rename_i hsp
      cases e
      refine ⟨_, if_pos hsp, [.pstep 0], _, (Tso.run_one _ _).trans e',
        ⟨hacq, by rfl, by rfl, hcbuf, ?_, hc, hinv'⟩, rfl⟩
      exact ⟨_, [], rfl, rfl, rfl, (by intro k hk; cases hk), List.Perm.refl _⟩
    · rename_i hsp
      cases e
      refine ⟨_, if_neg hsp, [.pstep 0], _, (Tso.run_one _ _).trans e',
        ⟨hacq, by rfl, by rfl, hcbuf, ⟨rfl, rfl, rfl⟩, hc, hinv'⟩, rfl⟩
  | copy item head space todo =>
    rw [hpc] at hp
    obtain ⟨todo', pend, p1, p2, p3, p4, p5⟩ := hp
    cases todo with
    | nil =>
      simp only
      by_cases hb : s.pbuf = []
      · rw [if_pos hb]
        have hpend : pend = [] := by
          rw [hb] at p3; exact List.map_eq_nil_iff.1 p3.symm
        have ht : todo' = [] := by
          rw [hpend] at p5; exact List.perm_nil.1 p5
        obtain ⟨t', e, hinv'⟩ := hinv.step (.pstep 0)
        have e' := e
        simp only [Tso.step, Tso.pstep, p1, ht] at e
        cases e
        refine ⟨_, rfl, [.pstep 0], _, (Tso.run_one _ _).trans e',
          ⟨hacq, hq, by simp only [hlog], hcbuf, ⟨rfl, ?_, ?_⟩, hc, hinv'⟩, rfl⟩
        · simp only [hb, p2, hq]
        · simp [hb]
      · rw [if_neg hb]
        exact ⟨s, rfl, [], t, rfl, same rfl, rfl⟩
    | cons a todo =>
      simp only
      generalize hk : (a :: todo)[i % (todo.length + 1)]?.getD a = k
      have hmem : k ∈ a :: todo := hk ▸ choose_mem a todo i
      have hlt : k < item.length := by
        have hp := hinv.p
        rw [p1] at hp
        obtain ⟨h1, -, h2, -⟩ := hp
        rw [h1]
        exact h2 k (p5.mem_iff.2 (List.mem_append_right _ hmem))
      rw [List.getElem?_eq_getElem hlt]
      refine ⟨_, rfl, [], t, rfl, ⟨hacq, hq, hlog, hcbuf, ?_, hc, hinv⟩, rfl⟩
      refine ⟨todo', pend ++ [k], p1, p2, ?_, ?_, ?_⟩
      · simp only [p3, List.map_append, List.map_cons, List.map_nil]
        rw [List.getElem?_eq_getElem hlt, Option.getD_some]
      · intro j hj
        rcases List.mem_append.1 hj with hj | hj
        · exact p4 j hj
        · rw [List.mem_singleton.1 hj]; exact hlt
      · refine p5.trans ?_
        rw [List.append_assoc]
        exact (List.perm_cons_erase hmem).append_left pend
  | fence space =>
    simp only
    by_cases hb : s.pbuf = []
    · rw [if_pos hb]
      rw [hpc] at hp
      obtain ⟨p1, p2, p3⟩ := hp
      exact ⟨_, rfl, [], t, rfl, ⟨hacq, hq, hlog, hcbuf, ⟨p1, hb, p2 ▸ hb⟩, hc, hinv⟩, rfl⟩
    · rw [if_neg hb]
      exact ⟨s, rfl, [], t, rfl, same rfl, rfl⟩

theorem Ia64.Rel.pflush {num sz : UInt32} {s : Ia64} {t : Tso} (h : s.Rel num sz t) (i : Nat) :
    Ia64.Follows num sz s t (s.step (.pflush i)) := by
  have hrel := h
  obtain ⟨hacq, hq, hlog, hcbuf, hp, hc, hinv⟩ := h
  unfold Ia64.step
  simp only
  cases hpick : pickStore s.pbuf i with
  | none => exact ⟨s, rfl, [], t, rfl, hrel, rfl⟩
  | some st =>
    simp only
    obtain ⟨hi, hst⟩ := pickStore_some hpick
    have hne : s.pbuf ≠ [] := by intro hb; rw [hb] at hi; cases hi
    cases hpc : s.p with
    | idle => rw [hpc] at hp; exact absurd hp.2.1 hne
    | loadHead item => rw [hpc] at hp; exact absurd hp.2.1 hne
    | loadTail item head => rw [hpc] at hp; exact absurd hp.2.1 hne
    | copy item head space todo =>
      rw [hpc] at hp
      obtain ⟨todo', pend, p1, p2, p3, p4, p5⟩ := hp
      have hi' : i < pend.length := by rw [p3, List.length_map] at hi; exact hi
      have hst' : st = .data ((head * s.q.sz).toNat + pend[i]) (item[pend[i]]?.getD 0) := by
        rw [← hst]; simp only [p3, List.getElem_map]
      have hmem : pend[i] ∈ pend := List.getElem_mem hi'
      have hlt := p4 _ hmem
      have hmem' : pend[i] ∈ todo' := p5.mem_iff.2 (List.mem_append_left _ hmem)
      obtain ⟨j, hj⟩ := Tso.pick p1 hmem' (item[pend[i]]) (List.getElem?_eq_getElem hlt)
      rw [p2, List.nil_append, hq] at hj
      obtain ⟨t1, e1, hinv1⟩ := hinv.step (.pstep j)
      rw [hj] at e1
      cases e1
      obtain ⟨t2, e2, hinv2⟩ := hinv1.step .pflush
      have e2' := e2
      simp only [Tso.step] at e2
      obtain ⟨q', e3, e2⟩ := Exec.bind_eq_ok.1 e2
      cases e2
      have hst2 : st = .data ((head * s.q.sz).toNat + pend[i]) item[pend[i]] := by
        rw [hst', List.getElem?_eq_getElem hlt, Option.getD_some]
      rw [← hst2] at e3
      rw [e3, Exec.ok_bind]
      have hsz' : q'.sz = s.q.sz := commit_sz e3
      have e4 := e2'
      rw [← Tso.run_one] at e4
      have e5 := (Tso.run_append (bs := [.pflush]) ((Tso.run_one _ _).trans hj)).trans e4
      refine ⟨_, rfl, [.pstep j] ++ [.pflush], _, e5, ?_, hsz'⟩
      refine ⟨hacq, rfl, ?_, hcbuf, ?_, hc, hinv2⟩
      · simp only [hlog, hst2]
      · refine ⟨todo'.erase pend[i], pend.eraseIdx i, rfl, rfl, ?_, ?_, ?_⟩
        · simp only [p3, hsz', map_eraseIdx]
        · intro k hk; exact p4 k (List.mem_of_mem_eraseIdx hk)
        · have h1 : (pend[i] :: todo'.erase pend[i]).Perm (pend[i] :: (pend.eraseIdx i ++ todo)) := by
            refine (List.perm_cons_erase hmem').symm.trans (p5.trans ?_)
            rw [← List.cons_append]
            exact (cons_eraseIdx_perm pend i hi').symm.append_right todo
          exact h1.cons_inv
    | fence space =>
      rw [hpc] at hp
      obtain ⟨p1, p2, p3⟩ := hp
      have hone : s.pbuf = [st] ∧ i = 0 := by
        match hb : s.pbuf, hi, hst, p3 with
        | [x], hi, hst, _ =>
          have : i = 0 := by simp only [List.length_singleton] at hi; omega
          subst this
          have hx : x = st := by simpa [hb] using hst
          exact ⟨by rw [hx], rfl⟩
        | _ :: _ :: _, _, _, p3 => simp at p3
      obtain ⟨hb, h0⟩ := hone
      obtain ⟨t2, e2, hinv2⟩ := hinv.step .pflush
      have e2' := e2
      simp only [Tso.step] at e2
      rw [← p2, hb] at e2
      simp only [] at e2
      obtain ⟨q', e3, e2⟩ := Exec.bind_eq_ok.1 e2
      cases e2
      rw [hq] at e3
      rw [e3, Exec.ok_bind]
      refine ⟨_, rfl, [.pflush], _, (Tso.run_one _ _).trans e2',
        ⟨hacq, rfl, by simp only [hlog], hcbuf, ?_, hc, hinv2⟩, commit_sz e3⟩
      simp only [hb, h0]
      exact ⟨p1, rfl, by simp⟩

theorem Ia64.Rel.cflush {num sz : UInt32} {s : Ia64} {t : Tso} (h : s.Rel num sz t) (i : Nat) :
    Ia64.Follows num sz s t (s.step (.cflush i)) := by
  have hrel := h
  obtain ⟨hacq, hq, hlog, hcbuf, hp, hc, hinv⟩ := h
  unfold Ia64.step
  simp only
  cases hpick : pickStore s.cbuf i with
  | none => exact ⟨s, rfl, [], t, rfl, hrel, rfl⟩
  | some st =>
    simp only
    obtain ⟨hi, hst⟩ := pickStore_some hpick
    have hlen : s.cbuf.length ≤ 1 := by
      cases hcc : s.c with
      | idle => rw [hcc] at hc; exact hc.2
      | loadHead pre => rw [hcc] at hc; exact hc.2.2
      | loadTail head pre => rw [hcc] at hc; exact hc.2.2
      | copy tail count buf todo => rw [hcc] at hc; exact hc.2
      | store tail count buf => rw [hcc] at hc; rw [hc.2]; simp
    have hone : s.cbuf = [st] ∧ i = 0 := by
      match hb : s.cbuf, hi, hst, hlen with
      | [x], hi, hst, _ =>
        have : i = 0 := by simp only [List.length_singleton] at hi; omega
        subst this
        have hx : x = st := by simpa [hb] using hst
        exact ⟨by rw [hx], rfl⟩
      | _ :: _ :: _, _, _, p3 => simp at p3
    obtain ⟨hb, h0⟩ := hone
    obtain ⟨t2, e2, hinv2⟩ := hinv.step .cflush
    have e2' := e2
    simp only [Tso.step] at e2
    rw [hcbuf, hb] at e2
    simp only [] at e2
    obtain ⟨q', e3, e2⟩ := Exec.bind_eq_ok.1 e2
    cases e2
    rw [hq] at e3
    rw [e3, Exec.ok_bind]
    have hsz' := commit_sz e3
    refine ⟨_, rfl, [.cflush], _, (Tso.run_one _ _).trans e2',
      ⟨hacq, rfl, by simp only [hlog], by simp [hb, h0], by rw [hsz']; exact hp, ?_, hinv2⟩, hsz'⟩
    simp only [hb, h0, List.eraseIdx_cons_zero]
    cases hcc : s.c with
    | idle => rw [hcc] at hc; exact ⟨hc.1, by simp⟩
    | loadHead pre => rw [hcc] at hc; exact ⟨hc.1, hc.2.1, by simp⟩
    | loadTail head pre => rw [hcc] at hc; exact ⟨hc.1, hc.2.1, by simp⟩
    | copy tail count buf todo => rw [hcc] at hc; exact ⟨hc.1, by simp⟩
    | store tail count buf => rw [hcc] at hc; exact ⟨hc.1, rfl⟩

theorem Ia64.Rel.cstep {num sz : UInt32} {s : Ia64} {t : Tso} (h : s.Rel num sz t) (i : Nat) :
    Ia64.Follows num sz s t (s.cstep i) := by
  have hrel := h
  obtain ⟨hacq, hq, hlog, hcbuf, hp, hc, hinv⟩ := h
  obtain ⟨t', e, hinv'⟩ := hinv.step (.cstep i)
  have e' := e
  have run1 : t.run [.cstep i] = .ok t' := (Tso.run_one _ _).trans e'
  unfold Ia64.cstep
  simp only [Tso.step, Tso.cstep] at e
  cases hcc : s.c with
  | idle => exact ⟨s, rfl, [], t, rfl, hrel, rfl⟩
  | loadHead pre =>
    rw [hcc] at hc
    obtain ⟨c1, c2, c3⟩ := hc
    simp only [c1] at e
    cases e
    refine ⟨_, rfl, [.cstep i], _, run1, ⟨hacq, hq, by simp only [hlog], hcbuf, hp, ?_, hinv'⟩, rfl⟩
    exact ⟨by rw [hcbuf, hq], c2, c3⟩
  | loadTail head pre =>
    rw [hcc] at hc
    obtain ⟨c1, c2, c3⟩ := hc
    simp only [c1, hcbuf, hq] at e
    simp only [c2, Option.getD_none]
    split at e
    · rename_i hct
      cases e
      rw [if_pos hct]
      exact ⟨_, rfl, [.cstep i], _, run1, ⟨hacq, rfl, hlog, rfl, hp, ⟨rfl, c3⟩, hinv'⟩, rfl⟩
    · rename_i hct
      cases e
      rw [if_neg hct]
      exact ⟨_, rfl, [.cstep i], _, run1, ⟨hacq, rfl, by simp only [hlog], rfl, hp, ⟨rfl, c3⟩, hinv'⟩,
        rfl⟩
  | copy tail count buf todo =>
    rw [hcc] at hc
    obtain ⟨c1, c3⟩ := hc
    cases todo with
    | nil =>
      simp only [c1, hcbuf] at e
      simp only
      split at e
      · rename_i hb
        cases e
        rw [if_pos hb]
        exact ⟨_, rfl, [.cstep i], _, run1, ⟨hacq, hq, hlog, rfl, hp, ⟨rfl, hb⟩, hinv'⟩, rfl⟩
      · rename_i hb
        rw [if_neg hb]
        exact ⟨s, rfl, [], t, rfl, hrel, rfl⟩
    | cons a todo =>
      simp only [c1, hcbuf, hq] at e
      simp only [Ia64.readByte]
      split at e
      · cases e
      · rename_i b hb
        cases e
        rw [hb]
        exact ⟨_, rfl, [.cstep i], _, run1, ⟨hacq, rfl, hlog, rfl, hp, ⟨rfl, c3⟩, hinv'⟩, rfl⟩
  | store tail count buf =>
    rw [hcc] at hc
    obtain ⟨c1, c3⟩ := hc
    simp only [c1] at e
    cases e
    refine ⟨_, rfl, [.cstep i], _, run1,
      ⟨hacq, hq, by simp only [hlog], by simp only [hcbuf, hq], hp, ⟨rfl, by simp [c3]⟩, hinv'⟩, rfl⟩

theorem Ia64.Rel.step {num sz : UInt32} {s : Ia64} {t : Tso} (h : s.Rel num sz t) (a : Ia64Act) :
    Ia64.Follows num sz s t (s.step a) := by
  cases a with
  | pstep i => exact h.pstep i
  | pflush i => exact h.pflush i
  | cstep i => exact h.cstep i
  | cflush i => exact h.cflush i
  | cearly i =>
    refine ⟨s, ?_, [], t, rfl, h, rfl⟩
    simp only [Ia64.step, Ia64.cearly, h.acq]
  | insert item =>
    have hrel := h
    obtain ⟨hacq, hq, hlog, hcbuf, hp, hc, hinv⟩ := h
    simp only [Ia64.step]
    split
    · rename_i hi
      rw [hi.1] at hp
      obtain ⟨p1, p2, p3⟩ := hp
      obtain ⟨t', e, hinv'⟩ := hinv.step (.insert item)
      have e' := e
      have hi' : t.p = .idle ∧ item.length = t.q.sz.toNat := ⟨p1, by rw [hq]; exact hi.2⟩
      simp only [Tso.step, if_pos hi'] at e
      cases e
      exact ⟨_, rfl, [.insert item], _, (Tso.run_one _ _).trans e',
        ⟨hacq, hq, hlog, hcbuf, ⟨rfl, p2, p3⟩, hc, hinv'⟩, rfl⟩
    · exact ⟨s, rfl, [], t, rfl, hrel, rfl⟩
  | remove =>
    have hrel := h
    obtain ⟨hacq, hq, hlog, hcbuf, hp, hc, hinv⟩ := h
    simp only [Ia64.step]
    split
    · rename_i hi
      rw [hi] at hc
      obtain ⟨c1, c2⟩ := hc
      obtain ⟨t', e, hinv'⟩ := hinv.step .remove
      have e' := e
      simp only [Tso.step, if_pos c1] at e
      cases e
      exact ⟨_, rfl, [.remove], _, (Tso.run_one _ _).trans e',
        ⟨hacq, hq, hlog, hcbuf, hp, ⟨rfl, rfl, c2⟩, hinv'⟩, rfl⟩
    · exact ⟨s, rfl, [], t, rfl, hrel, rfl⟩

theorem Ia64.Rel.run {num sz : UInt32} {s : Ia64} {t : Tso} (h : s.Rel num sz t)
    (as : List Ia64Act) : ∃ s', s.run as = .ok s' ∧ ∃ acts t', t.run acts = .ok t' ∧
      Ia64.Rel num sz s' t' := by
  induction as generalizing s t with
  | nil => exact ⟨s, rfl, [], t, rfl, h⟩
  | cons a as ih =>
    obtain ⟨s1, h1, acts1, t1, h2, h3, -⟩ := h.step a
    obtain ⟨s', h4, acts2, t', h5, h6⟩ := ih h3
    exact ⟨s', by rw [Ia64.run, h1, Exec.ok_bind, h4], acts1 ++ acts2, t',
      by rw [Tso.run_append h2, h5], h6⟩

theorem Ia64.Rel.start {num sz : UInt32} {q : Queue} (hq : Queue.init num sz = some q)
    (hs : QSize num.toNat) (hb : num.toNat * sz.toNat ≤ 2 ^ 32) :
    (Ia64.start true q).Rel num sz (Tso.start q) :=
  ⟨rfl, rfl, rfl, rfl, ⟨rfl, rfl, rfl⟩, ⟨rfl, Nat.zero_le _⟩, Tso.Inv.start hq hs hb⟩

end Fstrm
