import Verif.Lemmas.CaptureListen

/-! Facts about the specification of a capture server, and a check for polite clients. -/

set_option autoImplicit false

namespace Fstrm

open Spec (CapEv CapItem CapPhase CFrame CType nextItem items serve serveItem dataFrame receivedFrom
  recordedFrom sentTo sessions sessionStep recordedAll latest)

/-! ## Sessions -/

theorem tally_out : ∀ (es : List CapEv) (ss : List (Nat × List Bytes)), (∀ e ∈ es, isOut e = true) →
    (es.foldl sessionStep ss).reverse.flatMap (·.2) = ss.reverse.flatMap (·.2) := by
  intro es
  induction es with
  | nil => intro ss _; rfl
  | cons e r ih =>
    intro ss h
    rw [List.foldl_cons, ih _ (fun e he => h e (List.mem_cons_of_mem _ he))]
    have := h e List.mem_cons_self
    cases e <;> simp [isOut] at this <;> simp [sessionStep]

theorem tally_run : ∀ (es : List CapEv) (ss : List (Nat × List Bytes)), ss ≠ [] →
    (es.foldl sessionStep ss).reverse.flatMap (·.2) =
      ss.reverse.flatMap (·.2) ++ recordedAll es := by
  intro es
  induction es with
  | nil => intro ss _; simp [recordedAll]
  | cons e r ih =>
    intro ss h
    rw [List.foldl_cons]
    obtain ⟨⟨j, l⟩, rest, rfl⟩ := List.exists_cons_of_ne_nil h
    cases e with
    | recorded id bs =>
      rw [ih _ (by simp [sessionStep])]
      simp [sessionStep, recordedAll]
    | _ =>
      rw [ih _ (by simp [sessionStep])]
      simp [sessionStep, recordedAll]

theorem recordedAll_out : ∀ (es : List CapEv), (∀ e ∈ es, isOut e = true) → recordedAll es = [] := by
  intro es h
  unfold recordedAll
  rw [List.filterMap_eq_nil_iff]
  intro e he
  have := h e he
  cases e <;> simp [isOut] at this <;> rfl

/-- The sessions, oldest first, contain all that was recorded, in order. -/
theorem tally {log : List CapEv} (h : Headed log) :
    (sessions log).reverse.flatMap (·.2) = recordedAll log := by
  rcases h with h | ⟨pre, r, rfl, h1, h2⟩
  · rw [recordedAll_out log h]
    exact tally_out log [] h
  · rw [sessions_append, tally_run _ _ h2]
    have h3 := tally_out pre [] h1
    have h4 : (sessions pre).reverse.flatMap (·.2) = [] := h3
    rw [h4]
    unfold recordedAll
    rw [List.filterMap_append]
    congr 1
    exact (recordedAll_out pre h1).symm

theorem mem_session_recorded : ∀ (es : List CapEv) (ss : List (Nat × List Bytes)) (p : Nat × List Bytes)
    (bs : Bytes), p ∈ es.foldl sessionStep ss → bs ∈ p.2 →
    (∃ id, .recorded id bs ∈ es) ∨ ∃ q ∈ ss, bs ∈ q.2 := by
  intro es
  induction es with
  | nil => intro ss p bs h1 h2; exact Or.inr ⟨p, h1, h2⟩
  | cons e r ih =>
    intro ss p bs h1 h2
    rw [List.foldl_cons] at h1
    rcases ih _ p bs h1 h2 with ⟨id, h⟩ | ⟨q, hq, hb⟩
    · exact Or.inl ⟨id, List.mem_cons_of_mem _ h⟩
    · cases e with
      | recorded id b =>
        cases ss with
        | nil => simp [sessionStep] at hq
        | cons x rest =>
          simp only [sessionStep, List.mem_cons] at hq
          rcases hq with rfl | hq
          · dsimp only at hb
            rcases List.mem_append.1 hb with hb | hb
            · exact Or.inr ⟨x, List.mem_cons_self, hb⟩
            · rw [List.mem_singleton] at hb
              exact Or.inl ⟨id, by rw [hb]; exact List.mem_cons_self⟩
          · exact Or.inr ⟨q, List.mem_cons_of_mem _ hq, hb⟩
      | opened i =>
        simp only [sessionStep, List.mem_cons] at hq
        rcases hq with rfl | hq
        · cases hb
        · exact Or.inr ⟨q, hq, hb⟩
      | clobbered i =>
        simp only [sessionStep, List.mem_cons] at hq
        rcases hq with rfl | hq
        · cases hb
        · exact Or.inr ⟨q, hq, hb⟩
      | _ => exact Or.inr ⟨q, hq, hb⟩

/-- Every session consists of data frames. -/
theorem session_frames {s : Capture} (h : CapInv s) {p : Nat × List Bytes} (hp : p ∈ sessions s.log) :
    ∃ ds : List Bytes, p.2 = ds.map dataFrame ∧ ∀ d ∈ ds, d ≠ [] ∧ 4 + d.length ≤ s.args.highwater := by
  have hall : ∀ bs ∈ p.2, ∃ d, bs = dataFrame d ∧ d ≠ [] ∧ 4 + d.length ≤ s.args.highwater := by
    intro bs hbs
    rcases mem_session_recorded s.log [] p bs hp hbs with ⟨id, h'⟩ | ⟨q, hq, _⟩
    · exact h.frames id bs h'
    · cases hq
  generalize p.2 = l at hall
  induction l with
  | nil => exact ⟨[], rfl, by simp⟩
  | cons b r ih =>
    obtain ⟨ds, e, hd⟩ := ih (fun bs h' => hall bs (List.mem_cons_of_mem _ h'))
    obtain ⟨d, e1, h1⟩ := hall b List.mem_cons_self
    refine ⟨d :: ds, by rw [e, e1]; rfl, ?_⟩
    intro x hx
    rcases List.mem_cons.1 hx with rfl | hx
    · exact h1
    · exact hd x hx

/-! ## Frames at the beginning of a byte stream -/

theorem number_be32 {n : Nat} (h : n < 2 ^ 32) : Spec.number (Spec.be32 n) = n := by
  have h1 := number_take (bs := Spec.be32 n) (by simp [Spec.be32])
  rw [List.take_of_length_le (by simp [Spec.be32])] at h1
  rw [h1]
  exact ntohl_htonl h

theorem items_data {hw : Nat} {d : Bytes} (x : Bytes) (h0 : d ≠ []) (h : d.length < 2 ^ 32) :
    items hw (dataFrame d ++ x) =
      (if 4 + d.length ≤ hw then .data d else .skipped (4 + d.length)) :: items hw x := by
  have hl : 0 < d.length := List.length_pos_iff.2 h0
  have hlen : (dataFrame d ++ x).length = 4 + d.length + x.length := by
    simp [dataFrame, Spec.be32]
    omega
  have h4 : (dataFrame d ++ x).take 4 = Spec.be32 d.length := by
    unfold dataFrame
    rw [List.append_assoc]
    exact List.take_left' (by simp [Spec.be32])
  have hd : (dataFrame d ++ x).drop 4 = d ++ x := by
    unfold dataFrame
    rw [List.append_assoc]
    exact List.drop_left' (by simp [Spec.be32])
  have hdd : (dataFrame d ++ x).drop (4 + d.length) = x :=
    List.drop_left' (by simp [dataFrame, Spec.be32]; omega)
  have hn : nextItem hw (dataFrame d ++ x) =
      some (if 4 + d.length ≤ hw then .data d else .skipped (4 + d.length), 4 + d.length) := by
    unfold nextItem
    rw [if_neg (by omega)]
    dsimp only
    rw [h4, number_be32 h, if_pos (by omega), hd, List.take_left]
    by_cases hs : 4 + d.length ≤ hw
    · rw [if_neg (by omega), if_neg (by omega), if_pos hs]
    · rw [if_pos (by omega), if_neg hs]
  rw [items_cons hn (by split <;> nofun), hdd]

theorem items_control {hw : Nat} {f : CFrame} (x : Bytes) (h4 : 4 ≤ f.payload.length)
    (h : f.payload.length ≤ 512) (hh : 8 + f.payload.length ≤ hw) :
    items hw (f.wire ++ x) = .control f.payload :: items hw x := by
  have e : f.wire ++ x = Spec.be32 0 ++ (Spec.be32 f.payload.length ++ (f.payload ++ x)) := by
    simp [CFrame.wire]
  have hlen : (f.wire ++ x).length = 8 + f.payload.length + x.length := by
    rw [e]; simp [Spec.be32]; omega
  have t4 : (f.wire ++ x).take 4 = Spec.be32 0 := by
    rw [e]; exact List.take_left' (by simp [Spec.be32])
  have d4 : (f.wire ++ x).drop 4 = Spec.be32 f.payload.length ++ (f.payload ++ x) := by
    rw [e]; exact List.drop_left' (by simp [Spec.be32])
  have d8 : (f.wire ++ x).drop 8 = f.payload ++ x := by
    rw [show 8 = 4 + 4 from rfl, ← List.drop_drop, d4]
    exact List.drop_left' (by simp [Spec.be32])
  have hdd : (f.wire ++ x).drop (8 + f.payload.length) = x := by
    rw [← List.drop_drop, d8, List.drop_left]
  have hn : nextItem hw (f.wire ++ x) = some (.control f.payload, 8 + f.payload.length) := by
    unfold nextItem
    rw [if_neg (by omega)]
    dsimp only
    rw [t4, number_be32 (by omega), if_neg (by simp), if_neg (by omega), d4,
      List.take_left' (by simp [Spec.be32]), number_be32 (by omega), if_neg (by omega),
      if_neg (by omega), if_neg (by omega), d8, List.take_left]
  rw [items_cons hn (by nofun), hdd]

theorem items_datas {hw : Nat} (x : Bytes) : ∀ (ds : List Bytes), (∀ d ∈ ds, d ≠ [] ∧ d.length < 2 ^ 32) →
    items hw (ds.flatMap dataFrame ++ x) =
      ds.map (fun d => if 4 + d.length ≤ hw then CapItem.data d else .skipped (4 + d.length)) ++
        items hw x := by
  intro ds
  induction ds with
  | nil => intro _; rfl
  | cons d r ih =>
    intro h
    have h1 := h d List.mem_cons_self
    rw [List.flatMap_cons, List.append_assoc, items_data _ h1.1 h1.2,
      ih (fun d hd => h d (List.mem_cons_of_mem _ hd))]
    simp

theorem serve_datas (ct : Bytes) (hw : Nat) : ∀ (ds : List Bytes) (sv : Spec.Served), sv.phase ≠ none →
    (ds.map (fun d => if 4 + d.length ≤ hw then CapItem.data d else .skipped (4 + d.length))).foldl
      (serveItem ct) sv =
      { sv with recorded := sv.recorded ++ ds.filter (fun d => 4 + d.length ≤ hw) } := by
  intro ds
  induction ds with
  | nil => intro sv _; simp
  | cons d r ih =>
    intro sv h
    obtain ⟨p, hp⟩ := Option.ne_none_iff_exists'.1 h
    rw [List.map_cons, List.foldl_cons]
    by_cases hd : 4 + d.length ≤ hw
    · rw [if_pos hd]
      have e : serveItem ct sv (.data d) = { sv with recorded := sv.recorded ++ [d] } := by
        cases sv with
        | mk ph r rp => dsimp only at hp; subst hp; rfl
      rw [e, ih { sv with recorded := sv.recorded ++ [d] } h]
      simp [hd]
    · rw [if_neg hd]
      have e : serveItem ct sv (.skipped (4 + d.length)) = sv := by
        cases sv with
        | mk ph r rp => dsimp only at hp; subst hp; rfl
      rw [e, ih _ h]
      simp [hd]

theorem payload_ge (f : CFrame) : 4 ≤ f.payload.length := by
  unfold CFrame.payload
  rw [List.length_append]
  have : (Spec.be32 f.type.code).length = 4 := rfl
  omega

open Classical in
theorem serveItem_ready {ct : Bytes} {sv : Spec.Served} {cts : List Bytes} (hp : sv.phase = some .ready)
    (hw : CFrame.WF ⟨.ready, cts⟩) (hl : 8 + (CFrame.payload ⟨.ready, cts⟩).length < 512)
    (hm : cts = [] ∨ ct ∈ cts) :
    serveItem ct sv (.control (CFrame.payload ⟨.ready, cts⟩)) =
      { sv with phase := some .start, replies := sv.replies ++ [⟨.accept, [ct]⟩] } := by
  cases sv with
  | mk ph r rp =>
    dsimp only at hp
    subst hp
    have : Spec.fits .ready ct (CFrame.payload ⟨.ready, cts⟩) := ⟨hl, cts, hw, rfl, hm⟩
    simp [serveItem, this]

open Classical in
theorem serveItem_start {ct : Bytes} {sv : Spec.Served} {cts : List Bytes} (hp : sv.phase = some .start)
    (hw : CFrame.WF ⟨.start, cts⟩) (hl : 8 + (CFrame.payload ⟨.start, cts⟩).length < 512)
    (hm : cts = [] ∨ ct ∈ cts) :
    serveItem ct sv (.control (CFrame.payload ⟨.start, cts⟩)) = { sv with phase := some .data } := by
  cases sv with
  | mk ph r rp =>
    dsimp only at hp
    subst hp
    have : Spec.fits .start ct (CFrame.payload ⟨.start, cts⟩) := ⟨hl, cts, hw, rfl, hm⟩
    simp [serveItem, this]

/-! ## Polite clients -/

/-- Checks that no client announces a frame of 2^32 bytes or more. -/
def politeB (hw : Nat) : Capture → List CapAct → Bool
  | _, [] => true
  | s, a :: r =>
    (match a with
      | .recv id bs _ => (items hw (receivedFrom id s.log ++ bs)).all fun it => match it with
          | .skipped n => n < 4294967296
          | _ => true
      | _ => true) &&
    match s.step a with
    | .ok s' => politeB hw s' r
    | .error _ => true

theorem politeB_sound (hw : Nat) : ∀ (acts : List CapAct) (s : Capture), politeB hw s acts = true →
    ∀ as1 id bs ch as2 s1, acts = as1 ++ .recv id bs ch :: as2 → s.run as1 = .ok s1 →
      Sane hw (receivedFrom id s1.log ++ bs) := by
  intro acts
  induction acts with
  | nil => intro s _ as1 id bs ch as2 s1 h; simp at h
  | cons a r ih =>
    intro s hb as1 id bs ch as2 s1 h hr
    unfold politeB at hb
    rw [Bool.and_eq_true] at hb
    cases as1 with
    | nil =>
      cases h
      cases hr
      intro n hn
      have := List.all_eq_true.1 hb.1 _ hn
      simpa using this
    | cons a1 r1 =>
      cases h
      unfold Capture.run at hr
      obtain ⟨s2, e2, hr⟩ := Exec.bind_eq_ok.1 hr
      rw [e2] at hb
      exact ih s2 hb.2 r1 id bs ch as2 s1 rfl hr

end Fstrm
