import Verif.Spec.Fleet
import Verif.Lemmas.Net
import Verif.Lemmas.CaptureListen
import Verif.Lemmas.CaptureSpec

/-! Clients with the library's writer and `fstrm_capture`. -/

set_option autoImplicit false

namespace Fstrm

open Spec

/-! ### Frames in the beginning of a client's stream -/

/-- The number of bytes of a frame. -/
def itemSize : CapItem → Nat
  | .data d => 4 + d.length
  | .control b => 8 + b.length
  | .skipped _ => 0
  | .bad => 0

theorem items_size (hw : Nat) : ∀ (n : Nat) (bs : Bytes), bs.length ≤ n →
    (∀ k, .skipped k ∉ items hw bs) → ((items hw bs).map itemSize).sum ≤ bs.length := by
  intro n
  induction n with
  | zero =>
    intro bs h _
    have : bs = [] := List.length_eq_zero_iff.1 (by omega)
    subst this
    simp
  | succ n ih =>
    intro bs h hs
    rcases nextItem_cases hw bs with hn | ⟨d, hn, hd1, hd2, hd3, hd4, hd5⟩ |
      ⟨k, hn, hn1, hn2, hn3⟩ | ⟨hn, hn1⟩ | ⟨b, hn, hb1, hb2, hb3, hb4, hb5⟩
    · rw [items_none hn]; simp
    · rw [items_cons hn (by nofun)] at hs ⊢
      have := ih (bs.drop (4 + d.length)) (by simp; omega) (fun k hk => hs k (by simp [hk]))
      simp only [List.map_cons, List.sum_cons, itemSize, List.length_drop] at this ⊢
      omega
    · rw [items_cons hn (by nofun)] at hs
      exact absurd List.mem_cons_self (hs k)
    · rw [items_bad hn]; simp [itemSize]
    · rw [items_cons hn (by nofun)] at hs ⊢
      have := ih (bs.drop (8 + b.length)) (by simp; omega) (fun k hk => hs k (by simp [hk]))
      simp only [List.map_cons, List.sum_cons, itemSize, List.length_drop] at this ⊢
      omega

theorem prefix_app {α : Type} {l a b : List α} (h : l <+: a ++ b) :
    l <+: a ∨ ∃ u, l = a ++ u ∧ u <+: b := by
  rcases Nat.le_total l.length a.length with hl | hl
  · exact Or.inl (List.prefix_of_prefix_length_le h (List.prefix_append a b) hl)
  · obtain ⟨u, hu⟩ := List.prefix_of_prefix_length_le (List.prefix_append a b) h hl
    subst hu
    exact Or.inr ⟨u, rfl, (List.prefix_append_right_inj a).1 h⟩

section
variable {ct : Bytes} {hw : Nat} {p : Client}

/-- The reader the server amounts to for the writer. -/
abbrev capR (ct : Bytes) (hw : Nat) : Option ReaderOptions := some ⟨[ct], hw⟩

theorem types_eq (p : Client) : Props.optCts p.wopt = p.types := rfl

theorem _root_.Fstrm.Spec.Suits.common (h : Suits ct hw p) :
    common (Props.optR (capR ct hw)).cts (Props.optCts p.wopt) = [ct] := by
  rw [types_eq]
  simp only [Props.optR, capR, Option.getD_some, Spec.common]
  cases hc : p.types with
  | nil => simp
  | cons c r =>
    have := h.first c (by rw [hc]; rfl)
    simp [this]

theorem _root_.Fstrm.Spec.Suits.net (h : Suits ct hw p) : NetOk p.wopt (capR ct hw) p.batches := by
  refine ⟨h.types, by have := h.ready; rw [types_eq]; omega, ?_, ?_, ?_, h.count, ?_⟩
  · simp only [Props.optR, capR, Option.getD_some, List.mem_singleton]
    rintro c rfl; exact h.server
  · rw [h.common, length_wire1]; have := h.server; omega
  · intro c hc
    right
    simp [Props.optR, capR, h.first c hc]
  · intro b hb d hd
    have := h.fits d (List.mem_flatten.2 ⟨b, hb, hd⟩)
    have h1 := List.length_pos_iff.2 this.1
    have h2 := h.buffer
    simp only [Props.optR, capR, Option.getD_some]
    omega

theorem _root_.Fstrm.Spec.Suits.offered (h : Suits ct hw p) :
    p.types = [] ∨ ct ∈ p.types := by
  cases hc : p.types with
  | nil => exact Or.inl rfl
  | cons c r =>
    have := h.first c (by rw [hc]; rfl)
    exact Or.inr (by simp [this])

theorem _root_.Fstrm.Spec.Suits.started (h : Suits ct hw p) :
    (p.types).head?.toList = [] ∨ (p.types).head?.toList = [ct] := by
  cases hc : (p.types).head? with
  | none => exact Or.inl rfl
  | some c => exact Or.inr (by rw [h.first c hc]; rfl)

/-- Everything the client sends. -/
abbrev _root_.Fstrm.Spec.Client.all (p : Client) : Bytes :=
  CFrame.wire ⟨.ready, p.types⟩ ++ stream p.types.head? p.frames

theorem all_eq (p : Client) : netX p.wopt p.batches = p.all := rfl

/-- Everything it is sent. -/
abbrev replyAll (ct : Bytes) : Bytes := CFrame.wire ⟨.accept, [ct]⟩ ++ CFrame.wire ⟨.finish, []⟩

theorem _root_.Fstrm.Spec.Suits.replyAll (h : Suits ct hw p) : netY p.wopt (capR ct hw) = replyAll ct := by
  unfold netY netA; rw [h.common]

private theorem wire_len (f : CFrame) : f.wire.length = 8 + f.payload.length := by
  simp [CFrame.wire, Spec.be32]; omega

/-- The frames of a whole session. -/
abbrev _root_.Fstrm.Spec.Client.items (p : Client) : List CapItem :=
  .control (CFrame.payload ⟨.ready, p.types⟩) ::
    .control (CFrame.payload ⟨.start, (p.types).head?.toList⟩) ::
    (p.frames.map CapItem.data ++ [.control (CFrame.payload ⟨.stop, []⟩)])

theorem _root_.Fstrm.Spec.Suits.startLen (h : Suits ct hw p) :
    (CFrame.wire ⟨.start, (p.types).head?.toList⟩).length ≤
      (CFrame.wire ⟨.start, [ct]⟩).length := by
  rcases h.started with h0 | h0 <;> rw [h0]
  · simp [CFrame.wire, CFrame.payload, Spec.be32, Spec.field]
  · exact Nat.le_refl _

theorem _root_.Fstrm.Spec.Suits.stopFits (h : Suits ct hw p) : 12 ≤ hw := by
  have := h.startFits
  rw [length_wire1] at this
  omega

theorem _root_.Fstrm.Spec.Suits.items (h : Suits ct hw p) : items hw p.all = p.items := by
  have h1 := h.readyFits
  have h2 := h.ready
  have h3 := h.startFits
  have h4 := h.startLen
  have h5 := h.stopFits
  have h6 : (CFrame.wire ⟨.start, [ct]⟩).length ≤ 512 := by rw [length_wire1]; have := h.server; omega
  rw [wire_len] at h1 h2
  unfold Client.all stream
  rw [items_control _ (payload_ge _) (by omega) (by omega), List.append_assoc,
    items_control _ (payload_ge _) (by rw [wire_len] at h4; omega)
      (by rw [wire_len] at h4; omega),
    items_datas _ _ (fun d hd => ⟨(h.fits d hd).1, by have := (h.fits d hd).2; have := h.buffer; omega⟩)]
  have hstop := items_control (hw := hw) (f := ⟨.stop, []⟩) [] (payload_ge _)
    (by decide +kernel) (by show 12 ≤ hw; exact h5)
  rw [List.append_nil, items_nil] at hstop
  rw [hstop]
  have hm : p.frames.map (fun d => if 4 + d.length ≤ hw then CapItem.data d
      else .skipped (4 + d.length)) = p.frames.map CapItem.data := by
    apply List.map_congr_left
    intro d hd
    rw [if_pos (h.fits d hd).2]
  rw [hm]

theorem _root_.Fstrm.Spec.Suits.size (h : Suits ct hw p) : (p.items.map itemSize).sum = p.all.length := by
  unfold Client.items Client.all stream
  simp only [List.map_cons, List.sum_cons, List.map_append, List.sum_append, List.map_map, itemSize,
    List.length_append, wire_len, List.map_nil, List.sum_nil]
  have : (p.frames.map (itemSize ∘ CapItem.data)).sum = (p.frames.flatMap dataFrame).length := by
    rw [List.length_flatMap]
    congr 1
    apply List.map_congr_left
    intro d _
    simp [itemSize, dataFrame, Spec.be32]; omega
  omega

open Classical in
theorem serveItem_stop {sv : Served} (hp : sv.phase = some .data) :
    serveItem ct sv (.control (CFrame.payload ⟨.stop, []⟩)) =
      { sv with phase := some .stopped, replies := sv.replies ++ [⟨.finish, []⟩] } := by
  cases sv with
  | mk ph r rp =>
    dsimp only at hp
    subst hp
    simp [serveItem]

theorem serve_all (ct : Bytes) : ∀ (ds : List Bytes) (sv : Served), sv.phase ≠ none →
    (ds.map CapItem.data).foldl (serveItem ct) sv = { sv with recorded := sv.recorded ++ ds } := by
  intro ds
  induction ds with
  | nil => intro sv _; simp
  | cons d r ih =>
    intro sv h
    obtain ⟨ph, hp⟩ := Option.ne_none_iff_exists'.1 h
    rw [List.map_cons, List.foldl_cons]
    have e : serveItem ct sv (.data d) = { sv with recorded := sv.recorded ++ [d] } := by
      cases sv with
      | mk ph r rp => dsimp only at hp; subst hp; rfl
    rw [e, ih { sv with recorded := sv.recorded ++ [d] } h]
    simp

/-- What the server makes of a beginning of a session. -/
theorem _root_.Fstrm.Spec.Suits.served (h : Suits ct hw p) {x : Bytes} (hx : x <+: p.all) :
    (∀ k, .skipped k ∉ Spec.items hw x) ∧
    ((x.length < (CFrame.wire ⟨.ready, p.types⟩).length ∧
      serve ct (Spec.items hw x) = ⟨some .ready, [], []⟩) ∨
     ((CFrame.wire ⟨.ready, p.types⟩).length ≤ x.length ∧ x ≠ p.all ∧
      ∃ ph ds, serve ct (Spec.items hw x) = ⟨some ph, ds, [⟨.accept, [ct]⟩]⟩ ∧ ds <+: p.frames ∧
        ph ≠ .stopped) ∨
     (x = p.all ∧ serve ct (Spec.items hw x) =
      ⟨some .stopped, p.frames, [⟨.accept, [ct]⟩, ⟨.finish, []⟩]⟩)) := by
  obtain ⟨y, hy⟩ := hx
  have hpre : Spec.items hw x <+: p.items := by
    rw [← h.items, ← hy]; exact items_prefix hw x.length x y (Nat.le_refl _)
  have hns : ∀ k, .skipped k ∉ Spec.items hw x := by
    intro k hk
    have := hpre.subset hk
    simp [Client.items] at this
  refine ⟨hns, ?_⟩
  have hsz := items_size hw x.length x (Nat.le_refl _) hns
  have hwf : CFrame.WF ⟨.ready, p.types⟩ := ⟨h.types, by nofun⟩
  have hready : ∀ sv : Served, sv.phase = some .ready → serveItem ct sv
      (.control (CFrame.payload ⟨.ready, p.types⟩)) =
      { sv with phase := some .start, replies := sv.replies ++ [⟨.accept, [ct]⟩] } :=
    fun sv hp => serveItem_ready hp hwf (by have := h.ready; rw [wire_len] at this; omega) h.offered
  have hstart : ∀ sv : Served, sv.phase = some .start → serveItem ct sv
      (.control (CFrame.payload ⟨.start, (p.types).head?.toList⟩)) =
      { sv with phase := some .data } :=
    fun sv hp => serveItem_start hp (startWF h.types) (by
        have h4 := h.startLen
        rw [wire_len, length_wire1] at h4
        have := h.server
        omega)
      (by rcases h.started with h0 | h0 <;> rw [h0] <;> simp)
  -- no items iff READY is not there
  by_cases h0 : x.length < (CFrame.wire ⟨.ready, p.types⟩).length
  · left
    refine ⟨h0, ?_⟩
    have : Spec.items hw x = [] := by
      rcases List.prefix_cons_iff.1 hpre with he | ⟨t, he, _⟩
      · exact he
      · exfalso
        rw [he] at hsz
        rw [wire_len] at h0
        simp only [List.map_cons, List.sum_cons, itemSize] at hsz
        omega
    rw [this]; rfl
  · right
    have h0 : (CFrame.wire ⟨.ready, p.types⟩).length ≤ x.length := by omega
    have hxr : CFrame.wire ⟨.ready, p.types⟩ <+: x := by
      have h1 : CFrame.wire ⟨.ready, p.types⟩ <+: p.all := List.prefix_append _ _
      exact List.prefix_of_prefix_length_le h1 ⟨y, hy⟩ h0
    obtain ⟨z, hz⟩ := hxr
    have hi : Spec.items hw x = .control (CFrame.payload ⟨.ready, p.types⟩) ::
        Spec.items hw z := by
      rw [← hz]
      have h1 := h.ready
      have h2 := h.readyFits
      rw [wire_len] at h1 h2
      exact items_control _ (payload_ge _) (by omega) (by omega)
    rw [hi] at hpre
    have hpre2 := (List.cons_prefix_cons.1 hpre).2
    by_cases hxa : x = p.all
    · right
      refine ⟨hxa, ?_⟩
      rw [hxa, h.items]
      unfold serve
      rw [Client.items, List.foldl_cons, hready _ rfl, List.foldl_cons, hstart _ rfl, List.foldl_append,
        serve_all _ _ _ (by nofun)]
      rw [List.foldl_cons, serveItem_stop rfl]
      rfl
    · left
      refine ⟨h0, hxa, ?_⟩
      rw [hi]
      unfold serve
      rw [List.foldl_cons, hready _ rfl]
      rcases List.prefix_cons_iff.1 hpre2 with he | ⟨t, he, ht⟩
      · rw [he]
        exact ⟨.start, [], rfl, List.nil_prefix, by nofun⟩
      · rw [he, List.foldl_cons, hstart _ rfl]
        rcases prefix_app ht with ht | ⟨u, hu, hu2⟩
        · obtain ⟨l, hl1, hl2⟩ := List.prefix_map_iff.1 ht
          rw [hl2, serve_all _ _ _ (by nofun)]
          exact ⟨.data, l, rfl, hl1, by nofun⟩
        · rcases List.prefix_cons_iff.1 hu2 with hn | ⟨v, hv, hv2⟩
          · rw [hn, List.append_nil] at hu
            rw [hu, serve_all _ _ _ (by nofun)]
            exact ⟨.data, p.frames, rfl, List.prefix_refl _, by nofun⟩
          · exfalso
            have hv3 : v = [] := List.prefix_nil.1 hv2
            rw [hv3] at hv
            rw [hi, he, hu, hv] at hsz
            have h1 := h.size
            unfold Client.items at h1
            rw [h1] at hsz
            exact hxa (List.IsPrefix.eq_of_length_le ⟨y, hy⟩ hsz)

end

/-! ### Steps of the server -/

theorem receivedFrom_append (id : Nat) (a b : List CapEv) :
    receivedFrom id (a ++ b) = receivedFrom id a ++ receivedFrom id b := by simp [receivedFrom]

theorem sentTo_append (id : Nat) (a b : List CapEv) :
    sentTo id (a ++ b) = sentTo id a ++ sentTo id b := by simp [sentTo]

theorem recordedFrom_append (id : Nat) (a b : List CapEv) :
    recordedFrom id (a ++ b) = recordedFrom id a ++ recordedFrom id b := by simp [recordedFrom]

theorem quiet_events {id : Nat} {es : List CapEv} (h : ∀ e ∈ es, quiet e) :
    receivedFrom id es = [] ∧ sentTo id es = [] := by
  constructor
  · unfold receivedFrom
    rw [List.flatMap_eq_nil_iff]
    intro e he
    obtain ⟨_, _, h3, _⟩ := h e he
    cases e <;> first | rfl | exact absurd rfl (h3 _ _)
  · unfold sentTo
    rw [List.flatMap_eq_nil_iff]
    intro e he
    obtain ⟨_, _, _, h4⟩ := h e he
    cases e <;> first | rfl | exact absurd rfl (h4 _ _)

theorem start_quiet {args : CapArgs} {env : CapEnv} {s : Capture}
    (e : Capture.start args env = .ok s) : ∀ e ∈ s.log, quiet e := by
  unfold Capture.start at e
  dsimp only at e
  generalize hs0 : (⟨args, env, none, 0, [], fun _ => none, 0, 0, 0, args.remaining, true,
    fun _ => none, none, 0, [], []⟩ : Capture) = s0 at e
  have h0 : s0.log = [] := by rw [← hs0]
  have key : LF s0 s → ∀ e ∈ s.log, quiet e := by
    intro f
    obtain ⟨es, l, he⟩ := f.log
    rw [l, h0, List.nil_append]
    exact he
  split at e
  · cases e; exact key (exit_lf _ _)
  · obtain ⟨⟨ok, s1⟩, e1, e⟩ := Exec.bind_eq_ok.1 e
    have f := openWriteFile_lf e1
    cases ok <;> cases e
    · exact key (f.trans (exit_lf _ 1))
    · exact key f

/-- What a step adds to the log. -/
structure StepLog (s s' : Capture) (a : CapAct) (es : List CapEv) : Prop where
  log : s'.log = s.log ++ es
  recv : ∀ id, receivedFrom id es = [] ∨ ∃ bs ch, a = .recv id bs ch ∧ receivedFrom id es = bs
  sent : ∀ id, sentTo id es = [] ∨
    (s'.exited = none ∧ ∃ k, a = .send id k ∧ (sentTo id es).length ≤ k)
  acc : ∀ id, .accepted id ∈ es → (s'.conns id).isSome

theorem StepLog.lf {s s' : Capture} {a : CapAct} (f : LF s s') : ∃ es, StepLog s s' a es := by
  obtain ⟨es, l, he⟩ := f.log
  exact ⟨es, l, fun id => Or.inl (quiet_events he).1, fun id => Or.inl (quiet_events he).2,
    fun id hm => absurd rfl ((he _ hm).1 id)⟩

theorem StepLog.same {s : Capture} {a : CapAct} : ∃ es, StepLog s s a es := StepLog.lf (LF.refl s)

theorem step_log {s s' : Capture} {a : CapAct} (e : s.step a = .ok s') : ∃ es, StepLog s s' a es := by
  unfold Capture.step at e
  split at e
  · cases e; exact StepLog.same
  rename_i hx
  have hx : s.exited = none := by simpa using hx
  cases a with
  | accept =>
    dsimp only at e
    split at e
    · cases e
      obtain ⟨f1, _, _, _, _, f6, f7, f8, _⟩ := accept_fields s
      refine ⟨_, f7, fun id => Or.inl (by simp [receivedFrom]), fun id => Or.inl (by simp [sentTo]), ?_⟩
      intro id hid
      rw [List.mem_singleton] at hid
      cases hid
      rw [f8]; simp
    · cases e; exact StepLog.same
  | recv j bs chains =>
    dsimp only at e
    cases hc : s.conns j with
    | none => rw [hc] at e; cases e; exact StepLog.same
    | some c =>
      rw [hc] at e
      dsimp only at e
      split at e
      · obtain ⟨s1, f, hr⟩ := cbReadLoop_lf _ _ _ _ _ e
        obtain ⟨es, l, he⟩ := f.log
        have l1 : s1.log = s.log ++ (.received j bs :: es) := by
          rw [l]; simp [Capture.emit]
        have key : ∀ t : List CapEv, (t = [] ∨ t = [.hungup j]) → s'.log = s1.log ++ t →
            ∃ es, StepLog s s' (.recv j bs chains) es := by
          intro t ht hl
          have t1 : ∀ id, receivedFrom id t = [] ∧ sentTo id t = [] := by
            intro id; rcases ht with rfl | rfl <;> simp [receivedFrom, sentTo]
          refine ⟨.received j bs :: (es ++ t), by rw [hl, l1]; simp, ?_, ?_, ?_⟩
          · intro id
            by_cases hi : id = j
            · subst hi
              right
              refine ⟨bs, chains, rfl, ?_⟩
              have h1 := (quiet_events (id := id) he).1
              have : receivedFrom id (.received id bs :: (es ++ t)) =
                  bs ++ (receivedFrom id es ++ receivedFrom id t) := by
                simp [receivedFrom]
              rw [this, h1, (t1 id).1]; simp
            · left
              have h1 := (quiet_events (id := id) he).1
              have : receivedFrom id (.received j bs :: (es ++ t)) =
                  receivedFrom id es ++ receivedFrom id t := by
                simp [receivedFrom, Ne.symm hi]
              rw [this, h1, (t1 id).1]; rfl
          · intro id
            left
            have h1 := (quiet_events (id := id) he).2
            have : sentTo id (.received j bs :: (es ++ t)) = sentTo id es ++ sentTo id t := by
              simp [sentTo]
            rw [this, h1, (t1 id).2]; rfl
          · intro id hm
            simp only [List.mem_cons, List.mem_append, reduceCtorEq, false_or] at hm
            rcases hm with hm | hm
            · exact absurd rfl ((he _ hm).1 id)
            · rcases ht with rfl | rfl <;> simp at hm
        rcases hr with ⟨c', rfl⟩ | rfl | rfl
        · exact key [] (Or.inl rfl) (by simp [Capture.setConn])
        · exact key [.hungup j] (Or.inr rfl) (closeConn_fields s1 j).2.2.2.2.2.2.1
        · exact key [] (Or.inl rfl) (by simp)
      · cases e; exact StepLog.same
  | send j k =>
    dsimp only at e
    cases hc : s.conns j with
    | none => rw [hc] at e; cases e; exact StepLog.same
    | some c =>
      rw [hc] at e
      dsimp only at e
      split at e
      · have key : ∀ t : List CapEv, (t = [] ∨ t = [.hungup j]) →
            s'.log = s.log ++ (.sent j (c.output.take k) :: t) → s'.exited = s.exited →
            ∃ es, StepLog s s' (.send j k) es := by
          intro t ht hl hex
          refine ⟨_, hl, ?_, ?_, ?_⟩
          · intro id; left
            rcases ht with rfl | rfl <;> simp [receivedFrom]
          · intro id
            by_cases hi : id = j
            · right
              subst hi
              refine ⟨by rw [hex]; exact hx, k, rfl, ?_⟩
              rcases ht with rfl | rfl <;> simp [sentTo, Nat.min_le_left]
            · left; rcases ht with rfl | rfl <;> simp [sentTo, Ne.symm hi]
          · intro id hm
            rcases ht with rfl | rfl <;> simp at hm
        split at e
        · unfold Capture.cbWrite at e
          split at e <;> cases e
          · exact key [] (Or.inl rfl) rfl rfl
          · exact key [.hungup j] (Or.inr rfl) (by
              rw [(closeConn_fields _ j).2.2.2.2.2.2.1]; simp [Capture.emit, Capture.setConn])
              (by unfold Capture.closeConn; dsimp only; split <;> rfl)
        · cases e; exact key [] (Or.inl rfl) rfl rfl
      · cases e; exact StepLog.same
  | hangup j =>
    dsimp only at e
    cases hc : s.conns j with
    | none => rw [hc] at e; cases e; exact StepLog.same
    | some c =>
      rw [hc] at e
      cases e
      exact ⟨_, (closeConn_fields s j).2.2.2.2.2.2.1, fun id => Or.inl (by simp [receivedFrom]),
        fun id => Or.inl (by simp [sentTo]), fun id hm => by simp at hm⟩
  | sigusr1 =>
    dsimp only at e
    split at e
    · exact StepLog.lf (rotateOutput_lf e)
    · cases e; exact StepLog.same
  | sighup =>
    cases e
    exact StepLog.lf (fflush_lf s)
  | term =>
    dsimp only at e
    unfold Capture.shutdown at e
    obtain ⟨⟨ok, s1⟩, e1, e⟩ := Exec.bind_eq_ok.1 e
    have f := closeWriteFile_lf e1
    cases ok <;> cases e
    · exact StepLog.lf (f.trans (exit_lf _ 1))
    · exact StepLog.lf (f.trans (exit_lf _ 0))
  | rename x y =>
    dsimp only at e
    split at e <;> cases e
    · exact StepLog.same
    · exact StepLog.lf ⟨rfl, rfl, rfl, rfl, rfl, [], by simp, by simp⟩
  | remove x =>
    cases e
    exact StepLog.lf ⟨rfl, rfl, rfl, rfl, rfl, [], by simp, by simp⟩

/-- Moves of the network that are not refused move bytes. -/
theorem step_moves {s s' : Capture} {a : CapAct} (e : s.step a = .ok s') (hne : s' ≠ s) :
    (∀ id bs ch, a = .recv id bs ch →
      (receivedFrom id s.log).length < (receivedFrom id s'.log).length) ∧
    (∀ id k, a = .send id k → (sentTo id s.log).length < (sentTo id s'.log).length) := by
  unfold Capture.step at e
  split at e
  · cases e; exact absurd rfl hne
  constructor
  · rintro id bs ch rfl
    dsimp only at e
    cases hc : s.conns id with
    | none => rw [hc] at e; cases e; exact absurd rfl hne
    | some c =>
      rw [hc] at e
      dsimp only at e
      split at e
      · rename_i hcond
        obtain ⟨s1, f, hr⟩ := cbReadLoop_lf _ _ _ _ _ e
        obtain ⟨es, l, he⟩ := f.log
        have key : ∃ t, s'.log = s1.log ++ t := by
          rcases hr with ⟨c', rfl⟩ | rfl | rfl
          · exact ⟨[], by simp [Capture.setConn]⟩
          · exact ⟨_, (closeConn_fields s1 id).2.2.2.2.2.2.1⟩
          · exact ⟨[], by simp⟩
        obtain ⟨t, ht⟩ := key
        have hp := List.length_pos_iff.2 hcond.1
        have : receivedFrom id (s.emit (.received id bs)).log = receivedFrom id s.log ++ bs := by
          simp [Capture.emit, receivedFrom]
        rw [ht, l, receivedFrom_append, receivedFrom_append, this]
        simp only [List.length_append]
        omega
      · cases e; exact absurd rfl hne
  · rintro id k rfl
    dsimp only at e
    cases hc : s.conns id with
    | none => rw [hc] at e; cases e; exact absurd rfl hne
    | some c =>
      rw [hc] at e
      dsimp only at e
      split at e
      · rename_i hcond
        have key : ∃ t, s'.log = s.log ++ (.sent id (c.output.take k) :: t) := by
          split at e
          · unfold Capture.cbWrite at e
            split at e <;> cases e
            · exact ⟨[], rfl⟩
            · exact ⟨[.hungup id], by
                rw [(closeConn_fields _ id).2.2.2.2.2.2.1]; simp [Capture.emit, Capture.setConn]⟩
          · cases e; exact ⟨[], rfl⟩
        obtain ⟨t, ht⟩ := key
        have : sentTo id (.sent id (c.output.take k) :: t) = c.output.take k ++ sentTo id t := by
          simp [sentTo]
        rw [ht, sentTo_append, this]
        simp only [List.length_append, List.length_take]
        omega
      · cases e; exact absurd rfl hne

end Fstrm
