import Verif.Lemmas.Sent
import Verif.Lemmas.WriterTrace

/-! What a bidirectional writer puts on each connection. -/

set_option autoImplicit false

namespace Fstrm

open Spec (connectionsOf connStep Delivered CFrame CType wrote)

variable {σ : Type}

theorem connections_append (all : Bool) (a b : List Ev) :
    connectionsOf all (a ++ b) = b.foldl (connStep all) (connectionsOf all a) := by
  simp [connectionsOf]

theorem wrote_connections (log : List Ev) :
    wrote log = (connectionsOf false log).1.flatten ++ (connectionsOf false log).2 := by
  suffices H : ∀ (log : List Ev) (s : List Bytes × Bytes),
      s.1.flatten ++ s.2 ++ wrote log =
        (log.foldl (connStep false) s).1.flatten ++ (log.foldl (connStep false) s).2 by
    simpa [connectionsOf] using H log ([], [])
  intro log
  induction log with
  | nil => intro s; simp [wrote]
  | cons e log ih =>
    intro s
    rw [List.foldl_cons, ← ih]
    cases e with
    | wr iov r => cases r <;> simp [wrote, connStep]
    | rd n r bs => cases r <;> simp [wrote, connStep]
    | _ => simp [wrote, connStep]

/-- The bytes of READY, `k` times. -/
def readies (cts : List Bytes) (k : Nat) : Bytes :=
  (List.replicate k (CFrame.wire ⟨.ready, cts⟩)).flatten

theorem readies_succ (cts : List Bytes) (k : Nat) :
    readies cts (k + 1) = readies cts k ++ CFrame.wire ⟨.ready, cts⟩ := by
  simp [readies, List.replicate_succ']

theorem _root_.Fstrm.Spec.Delivered.mono {cts conns sub : List Bytes} (h : Delivered cts conns sub)
    (more : List Bytes) : Delivered cts conns (sub ++ more) := by
  cases h with
  | nil gap => exact .nil _
  | snoc bs k fs gap h1 h2 =>
    rw [List.append_assoc]
    exact .snoc bs k fs _ h1 h2

/-- The state of the connections of a transport: those closed carried `done`, the present one
satisfies `P`. -/
structure ConnAs (all : Bool) (cts sub : List Bytes) (done : List Bytes) (rw : Rdwr σ) (P : Bytes → Prop) : Prop where
  cls : rw.ops.cls ≠ none
  wr : rw.ops.wr ≠ none
  past : Delivered cts done sub
  now : ∃ cur, connectionsOf all rw.log = (done, cur) ∧ (rw.opened = true → P cur) ∧
    (rw.opened = false → cur = [])

section
variable {all : Bool} {cts sub done : List Bytes} {a b : Rdwr σ} {P Q : Bytes → Prop} {r : Res}

theorem ConnAs.ofClosed (h : ConnAs all cts sub done a P) (ho : a.opened = false) :
    ConnAs all cts sub done a Q := by
  obtain ⟨cur, h1, _, h3⟩ := h.now
  exact ⟨h.cls, h.wr, h.past, cur, h1, by rw [ho]; nofun, h3⟩

theorem ConnAs.imp (h : ConnAs all cts sub done a P) (hpq : ∀ x, P x → Q x) :
    ConnAs all cts sub done a Q := by
  obtain ⟨cur, h1, h2, h3⟩ := h.now
  exact ⟨h.cls, h.wr, h.past, cur, h1, fun ho => hpq _ (h2 ho), h3⟩

theorem ConnAs.mono (h : ConnAs all cts sub done a P) (more : List Bytes) :
    ConnAs all cts (sub ++ more) done a P :=
  ⟨h.cls, h.wr, h.past.mono more, h.now⟩

/-- Closing an open connection. -/
theorem ConnAs.ended {f : Bytes → Bytes} (h : ConnAs all cts sub done a P)
    (hP : ∀ x, P x → Delivered cts (done ++ [f x]) sub)
    (ho : a.opened = true) (hops : b.ops = a.ops) (hb : b.opened = false) {es : List Ev} {rc : Res}
    (hl : b.log = a.log ++ es ++ [.cls rc]) (hes : ∀ d x, es.foldl (connStep all) (d, x) = (d, f x)) :
    ∃ d, ConnAs all cts sub (done ++ [d]) b Q := by
  obtain ⟨cur, h1, h2, _⟩ := h.now
  refine ⟨f cur, hops ▸ h.cls, hops ▸ h.wr, hP _ (h2 ho), [], ?_, by rw [hb]; nofun, fun _ => rfl⟩
  rw [hl, connections_append, connections_append, h1, hes]
  simp [connStep]

theorem ConnAs.write {iov : List Bytes} (h : ConnAs all cts sub done a P)
    (hP : ∀ x, P x → Delivered cts (done ++ [x]) sub) (hQ : ∀ x, P x → Q (x ++ iov.flatten))
    (hQ' : ∀ x, Q x → Delivered cts (done ++ [x]) sub)
    (hw : a.write iov = .ok (r, b)) :
    (r = .success → ConnAs all cts sub done b Q ∧ b.opened = true) ∧
    (r ≠ .success → b.opened = false ∧ ∃ done', ∀ Q', ConnAs all cts sub done' b Q') := by
  obtain ⟨ho, hw⟩ := Rdwr.write_ok hw
  rcases hw with ⟨h1, h2, h3⟩ | ⟨h1, h2, h4, h5⟩ | ⟨h1, h2, ⟨h4, _⟩ | ⟨h4, h5, rc, h6⟩⟩
  · subst h2; subst h3
    have hc : b.opened = false := by
      rcases h1 with h1 | h1
      · exact h1
      · exact absurd h1 h.wr
    exact ⟨nofun, fun _ => ⟨hc, done, fun _ => h.ofClosed hc⟩⟩
  · subst h2
    obtain ⟨cur, c1, c2, _⟩ := h.now
    refine ⟨fun _ => ⟨⟨ho ▸ h.cls, ho ▸ h.wr, h.past, cur ++ iov.flatten, ?_, fun _ => hQ _ (c2 h1),
      by rw [h4]; nofun⟩, h4⟩, fun h => absurd rfl h⟩
    rw [h5, connections_append, c1]
    simp [connStep]
  · exact absurd h4 h.cls
  · refine ⟨fun h => absurd h h2, fun _ => ⟨h5, ?_⟩⟩
    obtain ⟨d, hd⟩ := h.ended (b := b) (Q := fun _ => True)
      (f := fun x => if all then x ++ iov.flatten else x)
      (by
        intro x hx
        split
        · exact hQ' _ (hQ x hx)
        · exact hP x hx) h1 ho h5 (es := [.wr iov r]) (rc := rc)
      (by rw [h6]; simp) (by
        intro d x
        simp only [List.foldl_cons, List.foldl_nil, connStep, h2, decide_false, Bool.or_false]
        split <;> rfl)
    exact ⟨_, fun _ => hd.ofClosed h5⟩

theorem ConnAs.read {n : Nat} {bs : Bytes} (h : ConnAs all cts sub done a P)
    (hP : ∀ x, P x → Delivered cts (done ++ [x]) sub) (hw : a.read n = .ok (r, bs, b)) :
    ConnAs all cts sub done b P ∨ (b.opened = false ∧ ∃ done', ∀ Q, ConnAs all cts sub done' b Q) := by
  obtain ⟨ho, hw⟩ := Rdwr.read_ok hw
  rcases hw with ⟨_, _, _, rfl⟩ | ⟨h1, h2, h3, h4, h5⟩ |
      ⟨h1, h2, h3, bs', ⟨h4, _⟩ | ⟨h4, h5, rc, h6⟩⟩
  · exact .inl h
  · obtain ⟨cur, c1, c2, _⟩ := h.now
    refine .inl ⟨ho ▸ h.cls, ho ▸ h.wr, h.past, cur, ?_, fun _ => c2 h1, by rw [h4]; nofun⟩
    rw [h5, connections_append, c1]
    rfl
  · exact absurd h4 h.cls
  · obtain ⟨d, hd⟩ := h.ended (b := b) (Q := P) hP h1 ho h5 (es := [.rd n r bs']) (rc := rc)
      (by rw [h6]; simp) (f := id) (by intro d x; rfl)
    exact .inr ⟨h5, _, fun _ => hd.ofClosed h5⟩

theorem Rdwr.read_closed {n : Nat} {bs : Bytes} (ha : a.opened = false)
    (hw : a.read n = .ok (r, bs, b)) : b = a := by
  obtain ⟨ho, hw⟩ := Rdwr.read_ok hw
  rcases hw with ⟨_, _, _, rfl⟩ | ⟨h1, _⟩ | ⟨h1, _⟩
  · rfl
  · rw [ha] at h1; cases h1
  · rw [ha] at h1; cases h1

theorem ConnAs.reads (h : ConnAs all cts sub done a P)
    (hP : ∀ x, P x → Delivered cts (done ++ [x]) sub) (hr : RdReach a b) :
    ConnAs all cts sub done b P ∨ (b.opened = false ∧ ∃ done', ∀ Q, ConnAs all cts sub done' b Q) := by
  induction hr with
  | refl => exact .inl h
  | tail _ h2 ih =>
    rcases ih with h3 | ⟨h3, d, h4⟩
    · exact h3.read hP h2
    · obtain rfl := Rdwr.read_closed h3 h2
      exact .inr ⟨h3, d, h4⟩

theorem ConnAs.open (h : ConnAs all cts sub done a P) (hP : P []) (hw : a.open = .ok (r, b)) :
    ConnAs all cts sub done b P := by
  obtain ⟨ho, hw⟩ := Rdwr.open_ok hw
  rcases hw with ⟨_, _, rfl⟩ | ⟨h1, h2⟩
  · exact h
  · obtain ⟨cur, c1, c2, c3⟩ := h.now
    refine ⟨ho ▸ h.cls, ho ▸ h.wr, h.past, cur, ?_, fun hb => ?_, fun hb => ?_⟩
    · rw [h1, connections_append, c1]; rfl
    · cases hao : a.opened with
      | true => exact c2 hao
      | false => rw [c3 hao]; exact hP
    · rw [h2] at hb
      exact c3 (by revert hb; cases a.opened <;> simp)

theorem ConnAs.close (h : ConnAs all cts sub done a P)
    (hP : ∀ x, P x → Delivered cts (done ++ [x]) sub) (hw : a.close = .ok (r, b)) :
    b.opened = false ∧
      ∃ done', (∀ Q, ConnAs all cts sub done' b Q) ∧ (a.opened = true → ∃ d, done' = done ++ [d]) := by
  obtain ⟨ho, hw⟩ := Rdwr.close_ok hw
  rcases hw with ⟨h1, _⟩ | ⟨_, h1, _, rfl⟩ | ⟨_, h1, h2, h3⟩
  · exact absurd h1 h.cls
  · exact ⟨h1, done, fun _ => h.ofClosed h1, by rw [h1]; nofun⟩
  · obtain ⟨d, hd⟩ := h.ended (b := b) (Q := P) hP h1 ho h2 (es := []) (rc := r)
      (by rw [h3]; simp) (f := id) (by intro d x; rfl)
    exact ⟨h2, _, fun _ => hd.ofClosed h2, fun _ => ⟨d, rfl⟩⟩

theorem ConnAs.writeControlFrame {t : CType} {l : List Bytes} (h : ConnAs all cts sub done a P)
    (hP : ∀ x, P x → Delivered cts (done ++ [x]) sub)
    (hQ : ∀ x, P x → Q (x ++ CFrame.wire ⟨t, t.visible l⟩))
    (hQ' : ∀ x, Q x → Delivered cts (done ++ [x]) sub)
    (hw : a.writeControlFrame ⟨t.code, l⟩ = .ok (r, b)) :
    (r = .success → ConnAs all cts sub done b Q ∧ b.opened = true) ∧
    (r ≠ .success → ConnAs all cts sub done b P ∨ ∃ done', ∀ Q', ConnAs all cts sub done' b Q') := by
  rw [writeControlFrame_eq] at hw
  split at hw
  · obtain ⟨h1, h2⟩ := h.write (Q := Q) hP (by intro x hx; simpa using hQ x hx) hQ' hw
    exact ⟨h1, fun hr => .inr (h2 hr).2⟩
  · cases hw; exact ⟨nofun, fun _ => .inl h⟩

end

/-! ### Phases of a connection -/

/-- During the handshake. -/
def InHandshake (cts : List Bytes) (x : Bytes) : Prop := ∃ k, x = readies cts k

/-- In a stream with frames `fs`. -/
def InStream (cts fs : List Bytes) (x : Bytes) : Prop :=
  ∃ k, x = readies cts k ++ openStream cts.head? fs

/-- In a stream with the latest frames of `sub`; the connections `done` were given earlier ones. -/
def Streaming (cts sub done : List Bytes) (x : Bytes) : Prop :=
  ∃ old fs, sub = old ++ fs ∧ Delivered cts done old ∧ InStream cts fs x

theorem InHandshake.one {cts sub done : List Bytes} {x : Bytes} (h : InHandshake cts x)
    (hd : Delivered cts done sub) : Delivered cts (done ++ [x]) sub := by
  obtain ⟨k, rfl⟩ := h
  have := Delivered.snoc (readies cts k) k [] [] hd (List.prefix_append _ _)
  simpa using this

theorem InStream.one {cts fs old done more : List Bytes} {x : Bytes} (h : InStream cts fs x)
    (hd : Delivered cts done old) : Delivered cts (done ++ [x]) (old ++ fs ++ more) := by
  obtain ⟨k, rfl⟩ := h
  refine .snoc _ k fs more hd ?_
  rw [stream_eq, ← List.append_assoc]
  exact List.prefix_append _ _

theorem Streaming.one {cts sub done : List Bytes} {x : Bytes} (h : Streaming cts sub done x) :
    Delivered cts (done ++ [x]) sub := by
  obtain ⟨old, fs, rfl, h1, h2⟩ := h
  have := h2.one (more := []) h1
  simpa using this

/-- Invariant of a bidirectional writer. -/
structure BInv (all : Bool) (cts sub done : List Bytes) (w : Writer σ) : Prop where
  cts_eq : w.cts = cts
  rd : w.rdwr.ops.rd ≠ none
  conn : ConnAs all cts sub done w.rdwr
    (if w.state = .opened then Streaming cts sub done else InHandshake cts)

section
variable {all : Bool} {cts sub done : List Bytes} {w w' : Writer σ} {r : Res}

theorem sendStart_conn (h : ConnAs all cts sub done w.rdwr (InHandshake cts))
    {ct : Option Bytes} (hct : ct = cts.head?) (e : w.sendStart ct = .ok (r, w')) :
    (r = .success → ConnAs all cts sub done w'.rdwr (InStream cts [])) ∧
    (r ≠ .success → ∃ done', ConnAs all cts sub done' w'.rdwr (InHandshake cts)) := by
  obtain ⟨rw, h1, rfl⟩ := sendStart_ok e
  obtain ⟨h2, h3⟩ := h.writeControlFrame (Q := InStream cts []) (fun _ hx => hx.one h.past) (by
    rintro x ⟨k, rfl⟩
    exact ⟨k, by rw [visible_toList, hct]; simp [openStream]⟩)
    (fun _ hx => by simpa using hx.one (more := []) h.past) h1
  refine ⟨fun hr => (h2 hr).1, fun hr => ?_⟩
  rcases h3 hr with h | ⟨d, h⟩
  · exact ⟨done, h⟩
  · exact ⟨d, h _⟩

theorem matchLoop_head (acc : Control) (cts : List Bytes)
    (h : (Writer.matchLoop acc cts true).1 = true) : (Writer.matchLoop acc cts true).2 = cts.head? := by
  cases cts with
  | nil => rfl
  | cons c rest =>
    unfold Writer.matchLoop at h ⊢
    split at h
    · rename_i hm; rw [if_pos hm]; rfl
    · exfalso
      revert h
      have : ∀ l, (Writer.matchLoop acc l false).1 = false := by
        intro l
        induction l with
        | nil => rfl
        | cons c rest ih =>
          unfold Writer.matchLoop
          split
          · rfl
          · exact ih
      rw [this]
      nofun

theorem openBidirectional_conn (hc : w.cts = cts) (h : ConnAs all cts sub done w.rdwr (InHandshake cts))
    (e : w.openBidirectional = .ok (r, w')) :
    (r = .success → ConnAs all cts sub done w'.rdwr (InStream cts [])) ∧
    (r ≠ .success → ∃ done', ConnAs all cts sub done' w'.rdwr (InHandshake cts)) := by
  rw [openBidirectional_eq] at e
  simp only at e
  obtain ⟨⟨res, rw⟩, h1, e⟩ := Exec.bind_eq_ok.1 e
  obtain ⟨h2, h3⟩ := h.writeControlFrame (Q := InHandshake cts) (fun _ hx => hx.one h.past) (by
    rintro x ⟨k, rfl⟩
    exact ⟨k + 1, by rw [readies_succ, hc]; rfl⟩) (fun _ hx => hx.one h.past) h1
  simp only at e
  split at e
  · rename_i hne
    cases e
    refine ⟨fun h => absurd h hne, fun hr => ?_⟩
    rcases h3 hr with h | ⟨d, h⟩
    · exact ⟨done, h⟩
    · exact ⟨d, h _⟩
  · rename_i hs
    have hs : res = .success := by simpa using hs
    obtain ⟨⟨res, acc, rw2⟩, h4, e⟩ := Exec.bind_eq_ok.1 e
    have h5 := (h2 hs).1.reads (fun _ hx => hx.one h.past) (readControl_rdreach h4)
    simp only at e
    split at e
    · rename_i hne
      cases e
      refine ⟨fun h => absurd h hne, fun _ => ?_⟩
      rcases h5 with h5 | ⟨_, d, h5⟩
      · exact ⟨done, h5⟩
      · exact ⟨d, h5 _⟩
    · rename_i hs2
      have hs2 : res = .success := by simpa using hs2
      subst hs2
      have h5 : ConnAs all cts sub done rw2 (InHandshake cts) := by
        rcases h5 with h5 | ⟨h6, _⟩
        · exact h5
        · rw [(readControl_success h4).2.1] at h6; cases h6
      split at e
      · cases e
      · split at e
        · cases e; exact ⟨nofun, fun _ => ⟨done, h5⟩⟩
        · rename_i acc' hm
          simp only [Bool.not_eq_true, Bool.not_eq_false'] at hm
          exact sendStart_conn (w := { w with ready := _, rdwr := rw2, accept := _ }) h5
            (by rw [← hc]; exact matchLoop_head acc' w.cts (by simpa using hm)) e

theorem BInv.open (hi : BInv all cts sub done w) (e : w.open = .ok (r, w')) :
    ∃ done', BInv all cts sub done' w' ∧ (r = .success → done' = done ∧ w'.state = .opened) := by
  have hf := open_frame e
  have hrd : w'.rdwr.ops.rd ≠ none := by rw [hf.2.1.ops]; exact hi.rd
  unfold Writer.open at e
  split at e
  · rename_i hs; cases e; exact ⟨done, hi, fun _ => ⟨rfl, hs⟩⟩
  · rename_i hns
    have h := hi.conn
    rw [if_neg hns] at h
    obtain ⟨⟨res, rw⟩, h1, e⟩ := Exec.bind_eq_ok.1 e
    have h2 := h.open ⟨0, rfl⟩ h1
    simp only at e
    split at e
    · rename_i hne
      cases e
      refine ⟨done, ⟨hi.cts_eq, hrd, ?_⟩, fun h => absurd h hne⟩
      simp only [hns, if_false]
      exact h2
    · obtain ⟨⟨res, w2⟩, h3, e⟩ := Exec.bind_eq_ok.1 e
      rw [if_pos (by
        have := hi.rd
        rw [← (Rdwr.open_ok h1).1] at this
        exact Option.isSome_iff_ne_none.2 this)] at h3
      obtain ⟨h4, h5⟩ := openBidirectional_conn (w := { w with rdwr := rw }) hi.cts_eq h2 h3
      simp only at e
      split at e
      · rename_i hne
        cases e
        obtain ⟨d, h6⟩ := h5 hne
        refine ⟨d, ⟨hf.1.trans hi.cts_eq, hrd, ?_⟩, fun h => absurd h hne⟩
        rw [hf.2.2.2 hne, if_neg hns]
        exact h6
      · rename_i hs
        have hs : res = .success := by simpa using hs
        cases e
        refine ⟨done, ⟨hf.1.trans hi.cts_eq, hrd, ?_⟩, fun _ => ⟨rfl, rfl⟩⟩
        simp only [if_true]
        exact (h4 hs).imp fun x hx => ⟨sub, [], by simp, (h4 hs).past, hx⟩

theorem BInv.maybeOpen (hi : BInv all cts sub done w) (e : w.maybeOpen = .ok (r, w')) :
    ∃ done', BInv all cts sub done' w' ∧ (r = .success → done' = done) := by
  unfold Writer.maybeOpen at e
  split at e
  · obtain ⟨d, h1, h2⟩ := hi.open e
    exact ⟨d, h1, fun hr => (h2 hr).1⟩
  · cases e; exact ⟨done, hi, fun _ => rfl⟩

theorem BInv.close (hi : BInv all cts sub done w) (e : w.close = .ok (r, w')) :
    ∃ done', BInv all cts sub done' w' ∧
      (r = .success → w'.rdwr.opened = false ∧ ∃ d, done' = done ++ [d]) := by
  have hf := close_frame e
  by_cases hns : w.state ≠ .opened
  · have hne : r ≠ .success := by
      unfold Writer.close at e
      rw [if_pos hns] at e
      cases e
      nofun
    rw [(hf.2.2.1 hns).2]
    exact ⟨done, hi, fun h => absurd h hne⟩
  · have hst : w.state = .opened := by simpa using hns
    have hcl := hf.2.2.2 hst
    have hrd : w'.rdwr.ops.rd ≠ none := by rw [hf.2.1.ops]; exact hi.rd
    have h := hi.conn
    rw [if_pos hst] at h
    unfold Writer.close at e
    rw [if_neg hns] at e
    obtain ⟨⟨res, rw⟩, h1, e⟩ := Exec.bind_eq_ok.1 e
    rw [writeControl_stop] at h1
    obtain ⟨h2, h3⟩ := h.write (Q := fun x => Delivered cts (done ++ [x]) sub)
      (fun _ hx => hx.one) (by
        rintro x ⟨old, fs, rfl, hd, k, rfl⟩
        have := Delivered.snoc (gap := []) (readies cts k ++ openStream cts.head? fs ++
          [CFrame.wire ⟨.stop, []⟩].flatten) k fs hd
          (by rw [stream_eq]; simp [readies])
        simpa using this) (fun _ h => h) h1
    suffices hg : w'.rdwr.opened = false ∧ ∃ done', (∀ Q, ConnAs all cts sub done' w'.rdwr Q) ∧
        (r = .success → ∃ d, done' = done ++ [d]) by
      obtain ⟨g1, d, g2, g3⟩ := hg
      exact ⟨d, ⟨hf.1.trans hi.cts_eq, hrd, g2 _⟩, fun hr => ⟨g1, g3 hr⟩⟩
    simp only at e
    split at e
    · rename_i hne
      obtain ⟨⟨res2, rw2⟩, h4, e⟩ := Exec.bind_eq_ok.1 e
      cases e
      obtain ⟨_, d, h5⟩ := h3 hne
      obtain ⟨c1, d', c2, _⟩ := (h5 (fun x => Delivered cts (d ++ [x]) sub)).close (fun _ h => h) h4
      exact ⟨c1, d', c2, fun h => absurd h hne⟩
    · rename_i hs
      have hs : res = .success := by simpa using hs
      obtain ⟨h5, h5o⟩ := h2 hs
      split at e
      · obtain ⟨⟨res2, fin, rw2⟩, h4, e⟩ := Exec.bind_eq_ok.1 e
        have h6 := h5.reads (fun _ h => h) (readControl_rdreach h4)
        simp only at e
        split at e
        · rename_i hne
          obtain ⟨⟨res3, rw3⟩, h7, e⟩ := Exec.bind_eq_ok.1 e
          cases e
          rcases h6 with h6 | ⟨_, d1, h6⟩
          · obtain ⟨c1, d', c2, _⟩ := h6.close (fun _ h => h) h7
            exact ⟨c1, d', c2, fun h => absurd h hne⟩
          · obtain ⟨c1, d', c2, _⟩ := (h6 (fun x => Delivered cts (d1 ++ [x]) sub)).close
              (fun _ h => h) h7
            exact ⟨c1, d', c2, fun h => absurd h hne⟩
        · rename_i hs3
          have hs3 : res2 = .success := by simpa using hs3
          subst hs3
          have ho := (readControl_success h4).2.1
          obtain ⟨⟨res3, rw3⟩, h7, e⟩ := Exec.bind_eq_ok.1 e
          cases e
          rcases h6 with h6 | ⟨h8, _⟩
          · obtain ⟨c1, d', c2, c3⟩ := h6.close (fun _ h => h) h7
            exact ⟨c1, d', c2, fun _ => c3 ho⟩
          · rw [ho] at h8; cases h8
      · obtain ⟨⟨res3, rw3⟩, h7, e⟩ := Exec.bind_eq_ok.1 e
        cases e
        obtain ⟨c1, d', c2, c3⟩ := h5.close (fun _ h => h) h7
        exact ⟨c1, d', c2, fun _ => c3 h5o⟩

end

theorem writeIovStupid_conn {all : Bool} {cts old : List Bytes} : ∀ (fuel : Nat) (w w' : Writer σ)
    (done fs iov : List Bytes) (r : Res), Delivered cts done old →
    ConnAs all cts (old ++ (fs ++ iov)) done w.rdwr (InStream cts fs) →
    Writer.writeIovStupid fuel w iov = .ok (r, w') →
    (r = .success → ConnAs all cts (old ++ (fs ++ iov)) done w'.rdwr (InStream cts (fs ++ iov))) ∧
    (r ≠ .success → w'.rdwr.opened = false ∧
      ∃ done', ∀ Q, ConnAs all cts (old ++ (fs ++ iov)) done' w'.rdwr Q) := by
  intro fuel
  induction fuel with
  | zero =>
    intro w w' done fs iov r hs h e
    unfold Writer.writeIovStupid at e
    split at e
    · cases e
    · rename_i hl
      cases e
      have : iov = [] := List.eq_nil_of_length_eq_zero (by omega)
      subst this
      exact ⟨fun _ => by simpa using h, fun h => absurd rfl h⟩
  | succ fuel ih =>
    intro w w' done fs iov r hs h e
    unfold Writer.writeIovStupid at e
    rw [stupidMax_eq] at e
    split at e
    · simp only at e
      generalize hk : (if 128 > iov.length then iov.length else 128) = k at e
      have hk2 : k ≤ 128 := by subst hk; split <;> omega
      obtain ⟨⟨res, w2⟩, h1, e⟩ := Exec.bind_eq_ok.1 e
      obtain ⟨rw, h2, rfl⟩ := writeIov_ok (by rw [List.length_take]; omega) h1
      obtain ⟨g1, g2⟩ := h.write (Q := InStream cts (fs ++ iov.take k))
        (fun _ hx => by rw [← List.append_assoc]; exact hx.one hs) (by
        rintro x ⟨j, rfl⟩
        exact ⟨j, by rw [openStream_append, frameIovs_flatten]; simp⟩)
        (fun _ hx => by
          have := hx.one (more := iov.drop k) hs
          simpa only [List.append_assoc, List.take_append_drop] using this) h2
      simp only at e
      split at e
      · rename_i hne
        cases e
        exact ⟨fun h => absurd h hne, g2⟩
      · rename_i hsu
        have hsu : res = .success := by simpa using hsu
        have heq : fs ++ iov.take k ++ iov.drop k = fs ++ iov := by
          rw [List.append_assoc, List.take_append_drop]
        have := ih _ _ _ (fs ++ iov.take k) (iov.drop k) _ hs (by
          rw [heq]; exact (g1 hsu).1) e
        rw [heq] at this
        exact this
    · rename_i hl
      cases e
      have : iov = [] := List.eq_nil_of_length_eq_zero (by omega)
      subst this
      exact ⟨fun _ => by simpa using h, fun h => absurd rfl h⟩

section
variable {all : Bool} {cts sub done : List Bytes} {w w' : Writer σ} {r : Res}

theorem BInv.mono (hi : BInv all cts sub done w) (hc : w.state ≠ .opened ∨ w.rdwr.opened = false)
    (more : List Bytes) : BInv all cts (sub ++ more) done w := by
  refine ⟨hi.cts_eq, hi.rd, ?_⟩
  have h := hi.conn
  rcases hc with hc | hc
  · rw [if_neg hc] at h ⊢
    exact h.mono more
  · exact (h.mono more).ofClosed hc

theorem BInv.writev {iov : List Bytes} (hi : BInv all cts sub done w) (e : w.writev iov = .ok (r, w')) :
    ∃ done', BInv all cts (sub ++ iov) done' w' ∧ (r = .success → done' = done) := by
  unfold Writer.writev at e
  split at e
  · rename_i hl
    have : iov = [] := List.eq_nil_of_length_eq_zero (by omega)
    subst this
    cases e
    exact ⟨done, by simpa using hi, fun _ => rfl⟩
  · obtain ⟨⟨res, w1⟩, h1, e⟩ := Exec.bind_eq_ok.1 e
    obtain ⟨d1, f1, f2⟩ := hi.maybeOpen h1
    simp only at e
    split at e
    · rename_i hne
      cases e
      have hno : w'.state ≠ .opened := by
        unfold Writer.maybeOpen at h1
        split at h1
        · rename_i hs
          rw [(open_frame h1).2.2.2 hne, hs]
          nofun
        · cases h1; exact absurd rfl hne
      exact ⟨d1, f1.mono (Or.inl hno) iov, fun h => absurd h hne⟩
    · rename_i hsu
      have hsu : res = .success := by simpa using hsu
      have hd := f2 hsu
      subst hd
      split at e
      · rename_i hst
        have h := f1.conn
        rw [if_pos hst] at h
        obtain ⟨cur, c1, c2, c3⟩ := h.now
        cases ho : w1.rdwr.opened with
        | false =>
          split at e
          · cases e
          · have key : w'.rdwr = w1.rdwr ∧ w'.state = w1.state ∧ w'.cts = w1.cts := by
              split at e
              · rename_i hl
                simp only [WRITER_IOVEC_SIZE] at hl
                obtain ⟨rw, g2, rfl⟩ := writeIov_ok (by omega) e
                obtain ⟨rfl, rfl⟩ := write_closed ho g2
                exact ⟨rfl, rfl, rfl⟩
              · rename_i hl
                obtain ⟨rfl, rfl⟩ := writeIovStupid_closed ho (by rintro rfl; simp at hl) e
                exact ⟨rfl, rfl, rfl⟩
            obtain ⟨k2, k3, k4⟩ := key
            refine ⟨d1, ?_, fun _ => rfl⟩
            have := f1.mono (Or.inr ho) iov
            exact ⟨k4.trans this.cts_eq, by rw [k2]; exact this.rd, by rw [k2, k3]; exact this.conn⟩
        | true =>
          obtain ⟨old, fs, hsub, hold, hin⟩ := c2 ho
          have heq : sub ++ iov = old ++ (fs ++ iov) := by rw [hsub, List.append_assoc]
          have h' : ConnAs all cts (old ++ (fs ++ iov)) d1 w1.rdwr (InStream cts fs) :=
            ⟨h.cls, h.wr, by rw [← heq]; exact h.past.mono iov, cur, c1, fun _ => hin, c3⟩
          rw [heq]
          split at e
          · cases e
          · have key : (r = .success →
                  ConnAs all cts (old ++ (fs ++ iov)) d1 w'.rdwr (InStream cts (fs ++ iov))) ∧
                (r ≠ .success → w'.rdwr.opened = false ∧
                  ∃ done', ∀ Q, ConnAs all cts (old ++ (fs ++ iov)) done' w'.rdwr Q) ∧
                w'.state = w1.state ∧ w'.cts = w1.cts ∧ w'.rdwr.ops = w1.rdwr.ops := by
              split at e
              · rename_i hl
                simp only [WRITER_IOVEC_SIZE] at hl
                obtain ⟨rw, g2, rfl⟩ := writeIov_ok (by omega) e
                obtain ⟨g3, g4⟩ := h'.write (Q := InStream cts (fs ++ iov))
                  (fun _ hx => by rw [← List.append_assoc]; exact hx.one hold) (by
                    rintro x ⟨j, rfl⟩
                    exact ⟨j, by rw [openStream_append, frameIovs_flatten]; simp⟩)
                  (fun _ hx => by simpa using hx.one (more := []) hold) g2
                exact ⟨fun hr => (g3 hr).1, g4, rfl, rfl, (Rdwr.write_ok g2).1⟩
              · obtain ⟨a, b, c⟩ := writeIovStupid_frame _ _ _ _ _ e
                obtain ⟨g3, g4⟩ := writeIovStupid_conn _ _ _ _ _ _ _ hold h' e
                exact ⟨g3, g4, b, a, c.ops⟩
            obtain ⟨k1, k2, k3, k4, k5⟩ := key
            by_cases hr : r = .success
            · refine ⟨d1, ⟨k4.trans f1.cts_eq, by rw [k5]; exact f1.rd, ?_⟩, fun _ => rfl⟩
              rw [k3, if_pos hst]
              exact (k1 hr).imp fun x hx => ⟨old, _, rfl, hold, hx⟩
            · obtain ⟨_, d, k6⟩ := k2 hr
              exact ⟨d, ⟨k4.trans f1.cts_eq, by rw [k5]; exact f1.rd, k6 _⟩, fun h => absurd h hr⟩
      · rename_i hst
        cases e
        exact ⟨d1, f1.mono (Or.inl hst) iov, fun _ => rfl⟩

theorem BInv.step {op : WOp} (hi : BInv all cts sub done w) (e : w.step op = .ok (r, w')) :
    ∃ done', BInv all cts (sub ++ op.frames) done' w' ∧
      (r = .success → op ≠ .close → done' = done) ∧
      (r = .success → op = .close → w'.rdwr.opened = false ∧ ∃ d, done' = done ++ [d]) := by
  cases op with
  | opn =>
    obtain ⟨d, h1, h2⟩ := hi.open e
    exact ⟨d, by simpa [WOp.frames] using h1, fun hr _ => (h2 hr).1, nofun⟩
  | write d =>
    obtain ⟨d, h1, h2⟩ := BInv.writev (iov := [d]) hi e
    exact ⟨_, h1, fun hr _ => h2 hr, nofun⟩
  | writev ds =>
    obtain ⟨d, h1, h2⟩ := hi.writev e
    exact ⟨d, h1, fun hr _ => h2 hr, nofun⟩
  | getControl t =>
    obtain ⟨⟨res, c, w2⟩, h3, h4⟩ := Exec.bind_eq_ok.1 e
    cases h4
    obtain ⟨r', h5, h6⟩ := getControl_maybeOpen h3
    obtain ⟨d, h1, h2⟩ := hi.maybeOpen h5
    exact ⟨d, by simpa [WOp.frames] using h1, fun hr _ => h2 (h6 hr), nofun⟩
  | close =>
    obtain ⟨d, h1, h2⟩ := hi.close e
    exact ⟨d, by simpa [WOp.frames] using h1, fun _ h => absurd rfl h, fun hr _ => h2 hr⟩

theorem BInv.run {calls : List WOp} {rs : List Res} (hi : BInv all cts sub done w)
    (e : w.run calls = .ok (rs, w')) :
    ∃ done', BInv all cts (sub ++ calls.flatMap WOp.frames) done' w' ∧
      ((∀ r ∈ rs, r = .success) → .close ∉ calls → done' = done) := by
  induction calls generalizing w rs sub done with
  | nil => cases e; exact ⟨done, by simpa using hi, fun _ _ => rfl⟩
  | cons op rest ih =>
    obtain ⟨⟨r, w1⟩, h1, e⟩ := Exec.bind_eq_ok.1 e
    obtain ⟨⟨rs', w2⟩, h2, e⟩ := Exec.bind_eq_ok.1 e
    cases e
    obtain ⟨d1, a1, a2, _⟩ := hi.step h1
    obtain ⟨d2, b1, b2⟩ := ih a1 h2
    refine ⟨d2, by simpa using b1, fun hr hc => ?_⟩
    simp only [List.mem_cons, not_or] at hc
    rw [b2 (fun r hr' => hr r (by simp [hr'])) hc.2]
    exact a2 (hr _ (by simp)) (fun h => hc.1 h.symm)

end

end Fstrm
