import Verif.Lemmas.CaptureLoop

/-! Invariants of runs of `fstrm_capture`. -/

set_option autoImplicit false

namespace Fstrm

open Spec (CapEv CapItem CapPhase CFrame CType nextItem items serve serveItem dataFrame receivedFrom
  recordedFrom sentTo active sessions latest sessionStep)

/-- The client an event is about. -/
def evId : CapEv → Option Nat
  | .accepted id => some id
  | .received id _ => some id
  | .sent id _ => some id
  | .hungup id => some id
  | .recorded id _ => some id
  | _ => none

theorem evId_out {e : CapEv} (h : isOut e = true) : evId e = none := by
  cases e <;> first | rfl | simp [isOut] at h

/-- Events about other clients do not matter. -/
theorem other_events {id : Nat} {log es : List CapEv} (h : ∀ e ∈ es, evId e ≠ some id) :
    receivedFrom id (log ++ es) = receivedFrom id log ∧ sentTo id (log ++ es) = sentTo id log ∧
    recordedFrom id (log ++ es) = recordedFrom id log := by
  unfold receivedFrom sentTo recordedFrom
  simp only [List.flatMap_append, List.filterMap_append]
  refine ⟨?_, ?_, ?_⟩
  · suffices h : es.flatMap _ = [] by rw [h, List.append_nil]
    rw [List.flatMap_eq_nil_iff]
    intro e he
    have := h e he
    cases e <;> simp_all [evId]
  · suffices h : es.flatMap _ = [] by rw [h, List.append_nil]
    rw [List.flatMap_eq_nil_iff]
    intro e he
    have := h e he
    cases e <;> simp_all [evId]
  · suffices h : es.filterMap _ = [] by rw [h, List.append_nil]
    rw [List.filterMap_eq_nil_iff]
    intro e he
    have := h e he
    cases e <;> simp_all [evId]

/-- Events that are not about the output do not matter to it. -/
theorem OutInv.congr {s s' : Capture} {es : List CapEv} (h : OutInv s) (ha : s'.args = s.args)
    (ho : s'.outputFile = s.outputFile) (hf : s'.files = s.files)
    (hd : ∀ n i, s'.dir n = some i → ∃ m, s.dir m = some i)
    (hl : s'.log = s.log ++ es)
    (he : ∀ e ∈ es, isOut e = false ∧ ∀ id bs, e ≠ .recorded id bs)
    (hi : s'.io = s.io) (hx : s'.exited = s.exited) : OutInv s' := by
  have hs : sessions s'.log = sessions s.log := by
    rw [hl, sessions_append]
    generalize sessions s.log = ss
    clear hl
    induction es with
    | nil => rfl
    | cons e r ih =>
      rw [List.foldl_cons]
      have : sessionStep ss e = ss := by
        have := he e List.mem_cons_self
        cases e <;> simp [isOut] at this <;> rfl
      rw [this]
      exact ih (fun e h => he e (List.mem_cons_of_mem _ h))
  refine ⟨?_, ?_, ?_, ?_, ?_, ?_, h.io.congr ha hf hi (fun j hj => ho ▸ hj) (fun h => hx ▸ h)
    fun j hj => by rw [hl]; exact List.mem_append_left _ hj⟩
  · rw [hs, ho]; exact h.cur
  · rw [hs, hf]; exact h.lt
  · rw [hs, hf]; exact h.all
  · rw [hs, hf, ha, ho]
    intro i l h1 h2
    exact h.file i l h1 (fun h' => h2 (by rw [hl]; simp [h']))
  · intro n i hn
    obtain ⟨m, hm⟩ := hd n i hn
    rw [hf]
    exact h.dir m i hm
  · intro h'
    rw [hs, hf]
    exact h.fresh (fun i hi => h' i (by rw [hl]; simp [hi]))

/-- Everything received from client `id` has been dealt with. -/
def IdInv (s : Capture) (id : Nat) : Prop :=
  match s.conns id with
  | some c => ConnRest s.args.contentType s.args.highwater id c s.log
  | none => recordedFrom id s.log = (serve s.args.contentType
      (items s.args.highwater (receivedFrom id s.log))).recorded.map dataFrame

/-- What was recorded for and sent to client `id` is part of what it asked for. -/
def SoFar (s : Capture) (id : Nat) : Prop :=
  recordedFrom id s.log <+: (serve s.args.contentType
    (items s.args.highwater (receivedFrom id s.log))).recorded.map dataFrame ∧
  sentTo id s.log <+: (serve s.args.contentType
    (items s.args.highwater (receivedFrom id s.log))).replies.flatMap CFrame.wire

/-- The listener follows the number of clients. -/
structure ListenInv (s : Capture) : Prop where
  nodup : (active s.log).Nodup
  mem : ∀ id, id ∈ active s.log ↔ (s.conns id).isSome
  count : s.remaining = s.args.remaining - (active s.log).length
  limit : s.args.countConnections > 0 → ((active s.log).length : Int) ≤ s.args.countConnections
  listening : s.listening = true ↔
    (s.args.countConnections > 0 → ((active s.log).length : Int) < s.args.countConnections)

/-- The log begins with the opening of a file, or the server did not come up. -/
def Headed (log : List CapEv) : Prop :=
  (∀ e ∈ log, isOut e = true) ∨
  ∃ pre r, log = pre ++ r ∧ (∀ e ∈ pre, isOut e = true) ∧ sessions pre ≠ []

/-- Invariant of the server. -/
structure CapInv (s : Capture) : Prop where
  out : OutInv s
  up : s.exited = none → Up s
  ids : s.exited ≠ some 1 → ∀ id, IdInv s id
  sofar : ∀ id, SoFar s id
  new : ∀ id, s.nextId ≤ id → s.conns id = none ∧ receivedFrom id s.log = [] ∧
    sentTo id s.log = [] ∧ recordedFrom id s.log = []
  frames : ∀ id bs, .recorded id bs ∈ s.log →
    ∃ d, bs = dataFrame d ∧ d ≠ [] ∧ 4 + d.length ≤ s.args.highwater
  listen : ListenInv s
  head : Headed s.log
  hw : s.args.highwater < 2 ^ 31

theorem IdInv.congr {s s' : Capture} {id : Nat} {es : List CapEv} (h : IdInv s id)
    (ha : s'.args = s.args) (hc : s'.conns id = s.conns id) (hl : s'.log = s.log ++ es)
    (he : ∀ e ∈ es, evId e ≠ some id) : IdInv s' id := by
  obtain ⟨h1, h2, h3⟩ := other_events (log := s.log) he
  unfold IdInv at h ⊢
  rw [hc, ha, hl]
  split
  · rename_i c hcc
    rw [hcc] at h
    dsimp only at h
    refine ⟨?_, h.calm⟩
    rw [h1]
    exact ⟨by rw [h1]; exact h.pre.cut, h.pre.phase, by rw [h3]; exact h.pre.recorded,
      by rw [h2]; exact h.pre.replies, h.pre.chains, h.pre.skip⟩
  · rename_i hcc
    rw [hcc] at h
    rw [h1, h3]
    exact h

theorem SoFar.congr {s s' : Capture} {id : Nat} {es : List CapEv} (h : SoFar s id)
    (ha : s'.args = s.args) (hl : s'.log = s.log ++ es)
    (he : ∀ e ∈ es, evId e ≠ some id) : SoFar s' id := by
  obtain ⟨h1, h2, h3⟩ := other_events (log := s.log) he
  unfold SoFar at h ⊢
  rw [ha, hl, h1, h2, h3]
  exact h

theorem IdInv.sofar {s : Capture} {id : Nat} {c : Conn} (h : IdInv s id) (hc : s.conns id = some c) :
    SoFar s id := by
  unfold IdInv at h
  rw [hc] at h
  exact h.pre.sofar

theorem active_append_other {log es : List CapEv}
    (h : ∀ e ∈ es, (∀ id, e ≠ .accepted id) ∧ ∀ id, e ≠ .hungup id) :
    active (log ++ es) = active log := by
  unfold active
  rw [List.foldl_append]
  generalize log.foldl _ [] = l
  induction es with
  | nil => rfl
  | cons e r ih =>
    rw [List.foldl_cons]
    have h1 := h e List.mem_cons_self
    have h2 := ih (fun e he => h e (List.mem_cons_of_mem _ he))
    cases e <;> first | exact h2 | (exact absurd rfl (h1.1 _)) | (exact absurd rfl (h1.2 _))

theorem ListenInv.congr {s s' : Capture} {es : List CapEv} (h : ListenInv s) (ha : s'.args = s.args)
    (hc : ∀ id, (s'.conns id).isSome = (s.conns id).isSome) (hr : s'.remaining = s.remaining)
    (hl : s'.listening = s.listening) (hlog : s'.log = s.log ++ es)
    (he : ∀ e ∈ es, (∀ id, e ≠ .accepted id) ∧ ∀ id, e ≠ .hungup id) : ListenInv s' := by
  have := active_append_other (log := s.log) he
  constructor
  · rw [hlog, this]; exact h.nodup
  · intro id; rw [hlog, this, hc]; exact h.mem id
  · rw [hlog, this, hr, ha]; exact h.count
  · rw [hlog, this, ha]; exact h.limit
  · rw [hlog, this, ha, hl]; exact h.listening

theorem active_nodup_step {l : List Nat} {id : Nat} (h : l.Nodup) (hid : id ∈ l) :
    (l.filter (· ≠ id)).length + 1 = l.length := by
  have := List.Nodup.erase_eq_filter h id
  have h2 : (l.erase id).length = l.length - 1 := List.length_erase_of_mem hid
  have h3 : 0 < l.length := List.length_pos_of_mem hid
  have h4 : l.filter (· ≠ id) = l.erase id := by
    rw [this]; congr 1; funext x; by_cases hx : x = id <;> simp [hx]
  rw [h4]; omega

theorem head_append {log es : List CapEv} (h : Headed log) (hn : sessions log ≠ []) :
    Headed (log ++ es) := by
  rcases h with h | ⟨pre, r, h, h1, h2⟩
  · exact Or.inr ⟨log, es, rfl, h, hn⟩
  · exact Or.inr ⟨pre, r ++ es, by rw [h, List.append_assoc], h1, h2⟩

theorem Up.log_ne {s : Capture} (h : Up s) : sessions s.log ≠ [] := by
  intro hl
  obtain ⟨i, hi⟩ := Option.isSome_iff_exists.1 h.file
  obtain ⟨l, rest, e⟩ := h.out.cur i hi
  rw [hl] at e
  cases e

/-- Something happens that concerns the output only. -/
theorem CapInv.output {s s' : Capture} {es : List CapEv} (h : CapInv s) (ha : s'.args = s.args)
    (hc : s'.conns = s.conns) (hr : s'.remaining = s.remaining) (hl : s'.listening = s.listening)
    (hn : s'.nextId = s.nextId) (hlog : s'.log = s.log ++ es) (he : ∀ e ∈ es, isOut e = true)
    (out : OutInv s') (up : s'.exited = none → Up s') (hx : s'.exited ≠ some 1 → s.exited ≠ some 1)
    (hne : sessions s.log ≠ []) : CapInv s' := by
  have hev : ∀ id, ∀ e ∈ es, evId e ≠ some id := by
    intro id e h'
    rw [evId_out (he e h')]
    nofun
  constructor
  · exact out
  · exact up
  · intro h1 id
    exact (h.ids (hx h1) id).congr ha (by rw [hc]) hlog (hev id)
  · intro id
    exact (h.sofar id).congr ha hlog (hev id)
  · intro id hid
    obtain ⟨h1, h2, h3⟩ := other_events (log := s.log) (hev id)
    rw [hn] at hid
    rw [hc, hlog, h1, h2, h3]
    exact h.new id hid
  · intro id bs hm
    rw [ha]
    rw [hlog, List.mem_append] at hm
    rcases hm with hm | hm
    · exact h.frames id bs hm
    · have := he _ hm
      simp [isOut] at this
  · refine h.listen.congr ha (fun id => by rw [hc]) hr hl hlog (fun e h' => ?_)
    have := he e h'
    constructor <;> (rintro id rfl; simp [isOut] at this)
  · rw [hlog]; exact head_append h.head hne
  · rw [ha]; exact h.hw

/-- Something happens that concerns client `id`, and possibly the output. -/
theorem CapInv.client {s s' : Capture} {es : List CapEv} (id : Nat) (h : CapInv s) (hup : Up s)
    (ha : s'.args = s.args) (hc : ∀ i, i ≠ id → s'.conns i = s.conns i)
    (hid : id < s'.nextId) (hn : s.nextId ≤ s'.nextId) (hlog : s'.log = s.log ++ es)
    (he : ∀ e ∈ es, evId e = none ∨ evId e = some id)
    (hfr : ∀ i bs, .recorded i bs ∈ es →
      ∃ d, bs = dataFrame d ∧ d ≠ [] ∧ 4 + d.length ≤ s.args.highwater)
    (out : OutInv s') (up : s'.exited = none → Up s') (listen : ListenInv s')
    (sofar : SoFar s' id) (ids : s'.exited ≠ some 1 → IdInv s' id) : CapInv s' := by
  have hev : ∀ i, i ≠ id → ∀ e ∈ es, evId e ≠ some i := by
    intro i hi e h' h2
    rcases he e h' with h3 | h3 <;> rw [h3] at h2 <;> cases h2
    exact hi rfl
  have hrun : s.exited ≠ some 1 := by rw [hup.running]; nofun
  constructor
  · exact out
  · exact up
  · intro h1 i
    by_cases hi : i = id
    · rw [hi]; exact ids h1
    · exact (h.ids hrun i).congr ha (hc i hi) hlog (hev i hi)
  · intro i
    by_cases hi : i = id
    · rw [hi]; exact sofar
    · exact (h.sofar i).congr ha hlog (hev i hi)
  · intro i hi
    have hne : i ≠ id := by omega
    obtain ⟨h1, h2, h3⟩ := other_events (log := s.log) (hev i hne)
    rw [hc i hne, hlog, h1, h2, h3]
    exact h.new i (by omega)
  · intro i bs hm
    rw [ha]
    rw [hlog, List.mem_append] at hm
    rcases hm with hm | hm
    · exact h.frames i bs hm
    · exact hfr i bs hm
  · exact listen
  · rw [hlog]; exact head_append h.head hup.log_ne
  · rw [ha]; exact h.hw

theorem Up.congr {s s' : Capture} (h : Up s) (ha : s'.args = s.args) (out : OutInv s')
    (hf : s'.outputFile = s.outputFile) (hx : s'.exited = s.exited) : Up s' :=
  ⟨out, by rw [hf]; exact h.file, by rw [hx]; exact h.running, by rw [ha]; exact h.ct,
    by rw [ha]; exact h.hw, by rw [ha]; exact h.pos⟩

/-! ## Closing a connection -/

theorem closeConn_fields (s : Capture) (id : Nat) :
    (s.closeConn id).args = s.args ∧ (s.closeConn id).outputFile = s.outputFile ∧
    (s.closeConn id).files = s.files ∧ (s.closeConn id).dir = s.dir ∧
    (s.closeConn id).exited = s.exited ∧ (s.closeConn id).nextId = s.nextId ∧
    (s.closeConn id).log = s.log ++ [.hungup id] ∧
    (s.closeConn id).conns = (fun i => if i = id then none else s.conns i) ∧
    (s.closeConn id).remaining = s.remaining + 1 ∧
    (s.closeConn id).listening = (if s.remaining + 1 = 1 then true else s.listening) := by
  unfold Capture.closeConn
  dsimp only [Capture.setConn]
  split <;> simp [Capture.emit]

theorem closeConn_io (s : Capture) (id : Nat) : (s.closeConn id).io = s.io := by
  unfold Capture.closeConn
  dsimp only [Capture.setConn]
  split <;> simp [Capture.emit]

theorem closeConn_out {s : Capture} (h : OutInv s) (id : Nat) : OutInv (s.closeConn id) := by
  obtain ⟨h1, h2, h3, h4, h5, _, h7, _⟩ := closeConn_fields s id
  exact h.congr h1 h2 h3 (fun n i hn => ⟨n, by rw [← h4]; exact hn⟩) h7 (by simp [isOut])
    (closeConn_io s id) h5

theorem closeConn_listen {s : Capture} (h : ListenInv s) {id : Nat} (hid : (s.conns id).isSome) :
    ListenInv (s.closeConn id) := by
  obtain ⟨h1, _, _, _, _, _, h7, h8, h9, h10⟩ := closeConn_fields s id
  have ha : active (s.closeConn id).log = (active s.log).filter (· ≠ id) := by
    rw [h7]; unfold active; rw [List.foldl_append]; rfl
  have hlen := active_nodup_step h.nodup ((h.mem id).2 hid)
  have hl := h.limit
  have hli := h.listening
  have hcnt := h.count
  constructor
  · rw [ha]; exact h.nodup.filter _
  · intro i
    rw [ha, h8, List.mem_filter, h.mem i]
    by_cases hi : i = id <;> simp [hi]
  · rw [h9, h1, ha, hcnt]; omega
  · rw [h1, ha]; intro hp; have := hl hp; omega
  · rw [h10, h1, ha, hcnt]
    unfold CapArgs.remaining
    by_cases hp : s.args.countConnections > 0
    · rw [if_pos hp]
      have := hl hp
      split
      · exact ⟨fun _ _ => by omega, fun _ => rfl⟩
      · rw [hli]
        constructor
        · intro h' _; have := h' hp; omega
        · intro h' _; have := h' hp; omega
    · rw [if_neg hp]
      split
      · simp [hp]
      · rw [hli]; simp [hp]

/-- The server closes a connection that is up to date, or the client does. -/
theorem closeConn_id {s : Capture} {id : Nat}
    (h : recordedFrom id s.log = (serve s.args.contentType
      (items s.args.highwater (receivedFrom id s.log))).recorded.map dataFrame)
    (h2 : sentTo id s.log <+: (serve s.args.contentType
      (items s.args.highwater (receivedFrom id s.log))).replies.flatMap CFrame.wire) :
    IdInv (s.closeConn id) id ∧ SoFar (s.closeConn id) id := by
  obtain ⟨f1, _, _, _, _, _, f7, f8, f9, f10⟩ := closeConn_fields s id
  have e : receivedFrom id (s.log ++ [.hungup id]) = receivedFrom id s.log ∧
      sentTo id (s.log ++ [.hungup id]) = sentTo id s.log ∧
      recordedFrom id (s.log ++ [.hungup id]) = recordedFrom id s.log := by
    simp [receivedFrom, sentTo, recordedFrom]
  unfold IdInv SoFar
  rw [f8, f1, f7, e.1, e.2.1, e.2.2]
  simp only [if_true]
  exact ⟨h, by rw [h]; exact ⟨List.prefix_refl _, h2⟩⟩

/-! ## Steps -/

theorem setConn_out {s : Capture} (h : OutInv s) (id : Nat) (c : Option Conn) :
    OutInv (s.setConn id c) :=
  h.congr (es := []) rfl rfl rfl (fun n _ hn => ⟨n, hn⟩) (by simp [Capture.setConn]) (by simp) rfl rfl

theorem accept_fields (s : Capture) :
    s.cbAccept.args = s.args ∧ s.cbAccept.outputFile = s.outputFile ∧
      s.cbAccept.files = s.files ∧ s.cbAccept.dir = s.dir ∧ s.cbAccept.exited = s.exited ∧
      s.cbAccept.nextId = s.nextId + 1 ∧ s.cbAccept.log = s.log ++ [.accepted s.nextId] ∧
      s.cbAccept.conns = (fun i => if i = s.nextId then some Conn.init else s.conns i) ∧
      s.cbAccept.remaining = s.remaining - 1 ∧
      s.cbAccept.listening = (if s.remaining - 1 = 0 then false else s.listening) := by
  unfold Capture.cbAccept
  dsimp only [Capture.setConn]
  split <;> simp [Capture.emit]

theorem accept_listen {s : Capture} (h : ListenInv s) (n1 : s.conns s.nextId = none)
    (hl : s.listening = true) : ListenInv s.cbAccept := by
  obtain ⟨f1, _, _, _, _, _, f7, f8, f9, f10⟩ := accept_fields s
  have hact : active s.cbAccept.log = active s.log ++ [s.nextId] := by
    rw [f7]; unfold active; rw [List.foldl_append]; rfl
  have hnot : s.nextId ∉ active s.log := by
    rw [h.mem, n1]; simp
  have hcnt := h.count
  have hlim := h.limit
  have hli := h.listening.1 hl
  constructor
  · rw [hact, List.nodup_append]
    refine ⟨h.nodup, by simp, ?_⟩
    intro a ha b hb
    rw [List.mem_singleton] at hb
    rw [hb]
    rintro rfl
    exact hnot ha
  · intro i
    rw [hact, f8, List.mem_append, h.mem i]
    by_cases hi : i = s.nextId <;> simp [hi]
  · rw [f9, f1, hact, hcnt, List.length_append, List.length_singleton]; omega
  · rw [f1, hact, List.length_append, List.length_singleton]
    intro hp; have := hli hp; omega
  · rw [f10, f1, hact, hcnt, List.length_append, List.length_singleton, hl]
    unfold CapArgs.remaining
    by_cases hp : s.args.countConnections > 0
    · have := hli hp
      rw [if_pos hp]
      split
      · constructor
        · nofun
        · intro h'; have := h' hp; omega
      · exact ⟨fun _ _ => by omega, fun _ => rfl⟩
    · rw [if_neg hp, if_neg (by omega)]
      exact ⟨fun _ h' => absurd h' hp, fun _ => rfl⟩

theorem step_accept {s : Capture} (h : CapInv s) (up : Up s) (hl : s.listening = true) :
    CapInv s.cbAccept := by
  obtain ⟨n1, n2, n3, n4⟩ := h.new s.nextId (Nat.le_refl _)
  obtain ⟨f1, f2, f3, f4, f5, f6, f7, f8, f9, f10⟩ := accept_fields s
  have out : OutInv s.cbAccept :=
    h.out.congr f1 f2 f3 (fun n i hn => ⟨n, by rw [← f4]; exact hn⟩) f7 (by simp [isOut]) (by
      unfold Capture.cbAccept
      dsimp only [Capture.setConn]
      split <;> simp [Capture.emit]) f5
  have e : receivedFrom s.nextId s.cbAccept.log = [] ∧ sentTo s.nextId s.cbAccept.log = [] ∧
      recordedFrom s.nextId s.cbAccept.log = [] := by
    rw [f7, ← n2]
    refine ⟨?_, ?_, ?_⟩
    · rw [n2, ← n2]; simp [receivedFrom]
    · rw [n2, ← n3]; simp [sentTo]
    · rw [← n4]; simp [recordedFrom]
  have rest : ConnRest s.args.contentType s.args.highwater s.nextId Conn.init s.cbAccept.log := by
    refine ⟨?_, fun _ => rfl⟩
    rw [e.1]
    refine ⟨?_, rfl, ?_, ?_, ?_, fun h => absurd rfl h⟩
    · intro x; rw [e.1]; simp [Conn.init]
    · rw [e.2.2]; rfl
    · rw [e.2.1]; rfl
    · simp [Conn.init]
  refine h.client s.nextId up f1 ?_ (by omega) (by omega) f7 ?_ ?_ out
    (fun _ => up.congr f1 out f2 f5) ?_ ?_ ?_
  · intro i hi; rw [f8]; simp [hi]
  · intro e he; rw [List.mem_singleton] at he; rw [he]; exact Or.inr rfl
  · intro i bs hm; simp at hm
  · exact accept_listen h.listen n1 hl
  · unfold SoFar; rw [e.1, e.2.1, e.2.2]; exact ⟨List.nil_prefix, List.nil_prefix⟩
  · intro _
    unfold IdInv
    rw [f8, f1]
    simpa using rest

theorem lt_nextId {s : Capture} (h : CapInv s) {id : Nat} {c : Conn} (hc : s.conns id = some c) :
    id < s.nextId := by
  apply Classical.byContradiction
  intro h'
  have := (h.new id (by omega)).1
  rw [hc] at this
  cases this

theorem step_hangup {s : Capture} (h : CapInv s) (up : Up s) {id : Nat} {c : Conn}
    (hc : s.conns id = some c) : CapInv (s.closeConn id) := by
  obtain ⟨f1, f2, f3, f4, f5, f6, f7, f8, f9, f10⟩ := closeConn_fields s id
  have hid := h.ids (by rw [up.running]; nofun) id
  unfold IdInv at hid
  rw [hc] at hid
  have := closeConn_id (s := s) hid.pre.recorded (h.sofar id).2
  refine h.client id up f1 ?_ (by rw [f6]; exact lt_nextId h hc) (by omega) f7 ?_ ?_
    (closeConn_out h.out id) (fun _ => up.congr f1 (closeConn_out h.out id) f2 f5)
    (closeConn_listen h.listen (by rw [hc]; rfl)) this.2 (fun _ => this.1)
  · intro i hi; rw [f8]; simp [hi]
  · intro e he; rw [List.mem_singleton] at he; rw [he]; exact Or.inr rfl
  · intro i bs hm; simp at hm

theorem step_sent {s : Capture} (h : CapInv s) (up : Up s) {id : Nat} {c : Conn}
    (hc : s.conns id = some c) (k : Nat) :
    CapInv ((s.setConn id (some { c with output := c.output.drop k })).emit
      (.sent id (c.output.take k))) := by
  have hid := h.ids (by rw [up.running]; nofun) id
  unfold IdInv at hid
  rw [hc] at hid
  generalize hs' : (s.setConn id (some { c with output := c.output.drop k })).emit
      (.sent id (c.output.take k)) = s'
  have hlog : s'.log = s.log ++ [.sent id (c.output.take k)] := by rw [← hs']; rfl
  have hargs : s'.args = s.args := by rw [← hs']; rfl
  have hconns : s'.conns = fun i => if i = id then some { c with output := c.output.drop k }
      else s.conns i := by rw [← hs']; rfl
  have out : OutInv s' := h.out.congr hargs (by rw [← hs']; rfl) (by rw [← hs']; rfl)
    (fun n i hn => ⟨n, by rw [← hs'] at hn; exact hn⟩) hlog (by simp [isOut])
    (by rw [← hs']; rfl) (by rw [← hs']; rfl)
  have e1 : receivedFrom id s'.log = receivedFrom id s.log := by rw [hlog]; simp [receivedFrom]
  have e2 : recordedFrom id s'.log = recordedFrom id s.log := by rw [hlog]; simp [recordedFrom]
  have e3 : sentTo id s'.log = sentTo id s.log ++ c.output.take k := by rw [hlog]; simp [sentTo]
  have hid' : IdInv s' id := by
    unfold IdInv
    rw [hconns, hargs]
    simp only [if_true]
    refine ⟨?_, hid.calm⟩
    rw [e1]
    refine ⟨by rw [e1]; exact hid.pre.cut, hid.pre.phase, by rw [e2]; exact hid.pre.recorded, ?_,
      hid.pre.chains, hid.pre.skip⟩
    rw [e3, ← hid.pre.replies]
    simp
  refine h.client id up hargs ?_ (by rw [← hs']; exact lt_nextId h hc)
    (by rw [← hs']; exact Nat.le_refl _) hlog ?_ ?_ out
    (fun _ => up.congr hargs out (by rw [← hs']; rfl) (by rw [← hs']; rfl)) ?_
    (hid'.sofar (c := { c with output := c.output.drop k }) (by rw [hconns]; simp)) (fun _ => hid')
  · intro i hi; rw [hconns]; simp [hi]
  · intro e he; rw [List.mem_singleton] at he; rw [he]; exact Or.inr rfl
  · intro i bs hm; simp at hm
  · refine h.listen.congr hargs ?_ (by rw [← hs']; rfl) (by rw [← hs']; rfl) hlog (by simp)
    intro i
    rw [hconns]
    by_cases hi : i = id <;> simp [hi, hc]

theorem step_recv {s : Capture} (h : CapInv s) (up : Up s) {id : Nat} {c : Conn}
    (hc : s.conns id = some c) {bs : Bytes} {chains : List Bytes}
    (h1 : chains.flatten = c.input.flatten ++ bs) (h2 : [] ∉ chains)
    (h3 : evLength chains ≤ s.args.highwater)
    (sane : Sane s.args.highwater (receivedFrom id s.log ++ bs)) :
    ∃ s', (s.emit (.received id bs)).cbRead id { c with input := chains } = .ok s' ∧ (CapInv s' ∧
      s'.args = s.args) ∧ (s'.exited = none →
        receivedFrom id s'.log = receivedFrom id s.log ++ bs ∧
        (∀ c', s'.conns id = some c' → Left s.args.highwater { c with input := chains } c') ∧
        ((s'.conns id).isSome ↔ (serve s.args.contentType
          (items s.args.highwater (receivedFrom id s.log ++ bs))).phase ≠ none)) ∧
      ∀ i, i ≠ id → s'.conns i = s.conns i := by
  have hid := h.ids (by rw [up.running]; nofun) id
  unfold IdInv at hid
  rw [hc] at hid
  generalize hs0 : s.emit (.received id bs) = s0
  have a0 : s0.args = s.args := by rw [← hs0]; rfl
  have l0 : s0.log = s.log ++ [.received id bs] := by rw [← hs0]; rfl
  have c0 : s0.conns = s.conns := by rw [← hs0]; rfl
  have out0 : OutInv s0 := h.out.congr a0 (by rw [← hs0]; rfl) (by rw [← hs0]; rfl)
    (fun n i hn => ⟨n, by rw [← hs0] at hn; exact hn⟩) l0 (by simp [isOut])
    (by rw [← hs0]; rfl) (by rw [← hs0]; rfl)
  have up0 : Up s0 := up.congr a0 out0 (by rw [← hs0]; rfl) (by rw [← hs0]; rfl)
  have e1 : receivedFrom id s0.log = receivedFrom id s.log ++ bs := by rw [l0]; simp [receivedFrom]
  have e2 : recordedFrom id s0.log = recordedFrom id s.log := by rw [l0]; simp [recordedFrom]
  have e3 : sentTo id s0.log = sentTo id s.log := by rw [l0]; simp [sentTo]
  have pre0 : ConnPre s0.args.contentType s0.args.highwater id { c with input := chains } s0.log
      (items s.args.highwater (receivedFrom id s.log)) := by
    rw [a0]
    refine ⟨?_, hid.pre.phase, by rw [e2]; exact hid.pre.recorded, by rw [e3]; exact hid.pre.replies, h2,
      hid.pre.skip⟩
    intro x
    rw [e1, List.append_assoc, hid.pre.cut (bs ++ x)]
    dsimp only
    rw [h1, List.append_assoc]
  unfold Capture.cbRead
  have post := cbReadLoop_spec id (evLength chains + 1) { c with input := chains } s0 _ up0
    (by dsimp only; omega) (by dsimp only; rw [a0]; exact h3) pre0 (by rw [a0, e1]; exact sane)
  obtain ⟨s1, s', er, fr, out1, hr⟩ := post
  refine ⟨s', er, ?_⟩
  obtain ⟨es, le, hes⟩ := fr.log
  have r1 : receivedFrom id s1.log = receivedFrom id s.log ++ bs := by
    rw [← e1, le]
    exact receivedFrom_out (fun e he => (hes e he).imp (fun h => h) (fun ⟨d, hd, _⟩ => ⟨id, _, hd⟩))
  have a1 : s1.args = s.args := fr.args.trans a0
  have l1 : s1.log = s.log ++ (.received id bs :: es) := by rw [le, l0]; simp
  have hlt : id < s.nextId := lt_nextId h hc
  have n1 : s1.nextId = s.nextId := by rw [fr.nextId, ← hs0]; rfl
  have c1 : s1.conns = s.conns := fr.conns.trans c0
  have hev1 : ∀ e ∈ CapEv.received id bs :: es, evId e = none ∨ evId e = some id := by
    intro e he
    rcases List.mem_cons.1 he with rfl | he
    · exact Or.inr rfl
    · rcases hes e he with h' | ⟨d, rfl, _⟩
      · exact Or.inl (evId_out h')
      · exact Or.inr rfl
  have hfr1 : ∀ i b, .recorded i b ∈ CapEv.received id bs :: es →
      ∃ d, b = dataFrame d ∧ d ≠ [] ∧ 4 + d.length ≤ s.args.highwater := by
    intro i b hm
    rcases List.mem_cons.1 hm with hm | hm
    · cases hm
    · rcases hes _ hm with h' | ⟨d, h', hd⟩
      · simp [isOut] at h'
      · cases h'
        rw [a0] at hd
        exact ⟨d, rfl, hd⟩
  have listen1 : ListenInv s1 := by
    refine h.listen.congr a1 (fun i => by rw [c1]) (by rw [fr.remaining, ← hs0]; rfl)
      (by rw [fr.listening, ← hs0]; rfl) l1 ?_
    intro e he
    rcases List.mem_cons.1 he with rfl | he
    · constructor <;> nofun
    · rcases hes e he with h' | ⟨d, rfl, _⟩
      · constructor <;> (rintro i rfl; simp [isOut] at h')
      · constructor <;> nofun
  rcases hr with ⟨up1, c', rfl, rest, left⟩ | ⟨up1, rfl, fin⟩ | ⟨hx, rfl, hp⟩
  · rw [a0] at rest
    have hid' : IdInv (s1.setConn id (some c')) id := by
      unfold IdInv
      simp only [Capture.setConn, if_true]
      rw [a1]
      exact rest
    refine ⟨⟨?_, a1⟩, fun _ => ⟨r1, ?_, ?_⟩, fun i hi => by simp [Capture.setConn, hi, c1]⟩
    rotate_left
    · intro c'' hc''
      simp only [Capture.setConn, if_true, Option.some.injEq] at hc''
      rw [← hc'', ← a0]; exact left
    · have := rest.pre.phase
      rw [r1] at this
      rw [this]
      simp [Capture.setConn]
    refine h.client id up (s' := s1.setConn id (some c')) a1 ?_ (by show id < s1.nextId; omega)
      (by show s.nextId ≤ s1.nextId; omega) l1 hev1 hfr1 (setConn_out out1 _ _)
      (fun _ => up1.congr rfl (setConn_out out1 _ _) rfl rfl) ?_
      (hid'.sofar (c := c') (by simp [Capture.setConn])) (fun _ => hid')
    · intro i hi; simp [Capture.setConn, hi, c1]
    · refine listen1.congr (es := []) rfl ?_ rfl rfl (by simp [Capture.setConn]) (by simp)
      intro i
      by_cases hi : i = id <;> simp [Capture.setConn, hi, c1, hc]
  · rw [a0] at fin
    obtain ⟨f1, f2, f3, f4, f5, f6, f7, f8, f9, f10⟩ := closeConn_fields s1 id
    have := closeConn_id (s := s1) (id := id) (by rw [a1]; exact fin.recorded)
      (by rw [a1]; exact fin.replies)
    refine ⟨⟨?_, f1.trans a1⟩, fun _ => ⟨?_, ?_, ?_⟩, fun i hi => by rw [f8]; simp [hi, c1]⟩
    rotate_left
    · rw [f7, ← r1]; simp [receivedFrom]
    · intro c'' hc''; rw [f8] at hc''; simp at hc''
    · have := fin.phase
      rw [r1] at this
      rw [this, f8]
      simp
    refine h.client (es := .received id bs :: es ++ [.hungup id]) id up (f1.trans a1) ?_
      (by rw [f6]; omega) (by rw [f6]; omega) (by rw [f7, l1]; simp) ?_ ?_
      (closeConn_out out1 id) (fun _ => up1.congr f1 (closeConn_out out1 id) f2 f5)
      (closeConn_listen listen1 (by rw [c1, hc]; rfl)) this.2 (fun _ => this.1)
    · intro i hi; rw [f8]; simp [hi, c1]
    · intro e he
      rcases List.mem_append.1 he with he | he
      · exact hev1 e he
      · rw [List.mem_singleton] at he; rw [he]; exact Or.inr rfl
    · intro i b hm
      rcases List.mem_append.1 hm with hm | hm
      · exact hfr1 i b hm
      · simp at hm
  · rw [a0] at hp
    refine ⟨⟨?_, a1⟩, fun h' => by rw [hx] at h'; (cases h'), fun i _ => by rw [c1]⟩
    refine h.client id up a1 (fun i _ => by rw [c1]) (by omega) (by omega) l1 hev1 hfr1 out1
      (fun h' => by rw [hx] at h'; cases h') listen1 ?_ (fun h' => absurd hx h')
    unfold SoFar
    rw [a1]
    exact hp

theorem step_inv {s : Capture} {a : CapAct} (h : CapInv s)
    (sane : ∀ id bs ch, a = .recv id bs ch → Sane s.args.highwater (receivedFrom id s.log ++ bs)) :
    ∃ s', s.step a = .ok s' ∧ CapInv s' ∧ s'.args = s.args := by
  unfold Capture.step
  by_cases hx : s.exited.isSome
  · rw [if_pos hx]; exact ⟨s, rfl, h, rfl⟩
  rw [if_neg hx]
  have hrun : s.exited = none := by simpa using hx
  have up := h.up hrun
  have hx1 : s.exited ≠ some 1 := by rw [hrun]; nofun
  cases a with
  | accept =>
    dsimp only
    split
    · rename_i hl
      refine ⟨_, rfl, step_accept h up hl, ?_⟩
      unfold Capture.cbAccept
      dsimp only [Capture.setConn]
      split <;> rfl
    · exact ⟨s, rfl, h, rfl⟩
  | recv id bs chains =>
    dsimp only
    cases hc : s.conns id with
    | none => exact ⟨s, rfl, h, rfl⟩
    | some c =>
      dsimp only
      split
      · rename_i hcond
        obtain ⟨s', e, h', _⟩ :=
          step_recv h up hc hcond.2.1 hcond.2.2.1 hcond.2.2.2 (sane id bs chains rfl)
        exact ⟨s', e, h'⟩
      · exact ⟨s, rfl, h, rfl⟩
  | send id k =>
    dsimp only
    cases hc : s.conns id with
    | none => exact ⟨s, rfl, h, rfl⟩
    | some c =>
      dsimp only
      split
      · have hs := step_sent h up hc k
        split
        · unfold Capture.cbWrite
          split
          · exact ⟨_, rfl, hs, rfl⟩
          · refine ⟨_, rfl, step_hangup hs (hs.up hrun) (c := { c with output := c.output.drop k }) ?_,
              (closeConn_fields _ _).1⟩
            simp [Capture.setConn, Capture.emit]
        · exact ⟨_, rfl, hs, rfl⟩
      · exact ⟨s, rfl, h, rfl⟩
  | hangup id =>
    dsimp only
    cases hc : s.conns id with
    | none => exact ⟨s, rfl, h, rfl⟩
    | some c => exact ⟨_, rfl, step_hangup h up hc, (closeConn_fields s id).1⟩
  | sigusr1 =>
    dsimp only
    rw [if_pos up.file]
    obtain ⟨s1, s', e, o, f, g⟩ := rotateOutput_spec h.out up.file hrun
    obtain ⟨es, l, hes⟩ := f.log
    refine ⟨s', e, ?_⟩
    rcases g with ⟨rfl, hf⟩ | rfl
    · exact ⟨h.output f.args f.conns f.remaining f.listening f.nextId l hes o
        (fun _ => up.of_out f o hf) (fun _ => hx1) up.log_ne, f.args⟩
    · exact ⟨h.output (s' := s1.exit 1) f.args f.conns f.remaining f.listening f.nextId l hes o
        (by nofun) (fun h' => absurd rfl h') up.log_ne, f.args⟩
  | sighup =>
    dsimp only
    have o := h.out.fflush
    obtain ⟨i, hi⟩ := Option.isSome_iff_exists.1 up.file
    have e : s.fflush = s.call (.fflush i) := by unfold Capture.fflush; rw [hi]
    rw [e] at o ⊢
    exact ⟨_, rfl, h.output (es := []) rfl rfl rfl rfl rfl (by simp [Capture.call]) (by simp) o
      (fun _ => up.congr rfl o rfl rfl) (fun _ => hx1) up.log_ne, rfl⟩
  | term =>
    dsimp only
    unfold Capture.shutdown
    obtain ⟨i, hi⟩ := Option.isSome_iff_exists.1 up.file
    obtain ⟨ok, s1, e1, o, f, _⟩ := closeWriteFile_spec h.out hi hrun
    obtain ⟨es, l, hes⟩ := f.log
    rw [e1]
    simp only [Exec.ok_bind]
    cases ok with
    | false =>
      exact ⟨_, rfl, h.output (s' := s1.exit 1) f.args f.conns f.remaining f.listening f.nextId l hes
        (o 1) (by nofun) (fun h' => absurd rfl h') up.log_ne, f.args⟩
    | true =>
      exact ⟨_, rfl, h.output (s' := s1.exit 0) f.args f.conns f.remaining f.listening f.nextId l hes
        (o 0) (by nofun) (fun _ => hx1) up.log_ne, f.args⟩
  | rename a b =>
    dsimp only
    split
    · exact ⟨s, rfl, h, rfl⟩
    · have o : OutInv { s with dir := fun n => if n = b then s.dir a else if n = a then none else s.dir n } := by
        refine h.out.congr (es := []) rfl rfl rfl ?_ (by simp) (by simp) rfl rfl
        intro n i hn
        dsimp only at hn
        split at hn
        · exact ⟨a, hn⟩
        · split at hn
          · cases hn
          · exact ⟨n, hn⟩
      exact ⟨_, rfl, h.output (es := []) rfl rfl rfl rfl rfl (by simp) (by simp) o
        (fun _ => up.congr rfl o rfl rfl) (fun _ => hx1) up.log_ne, rfl⟩
  | remove a =>
    dsimp only
    have o : OutInv { s with dir := fun n => if n = a then none else s.dir n } := by
      refine h.out.congr (es := []) rfl rfl rfl ?_ (by simp) (by simp) rfl rfl
      intro n i hn
      dsimp only at hn
      split at hn
      · cases hn
      · exact ⟨n, hn⟩
    exact ⟨_, rfl, h.output (es := []) rfl rfl rfl rfl rfl (by simp) (by simp) o
      (fun _ => up.congr rfl o rfl rfl) (fun _ => hx1) up.log_ne, rfl⟩

/-! ## Runs -/

theorem start_inv (args : CapArgs) (env : CapEnv) (hb : args.bufferSize < 2 ^ 31) :
    ∃ s, Capture.start args env = .ok s ∧ CapInv s ∧ s.args = args ∧
      ∀ id, s.conns id = none := by
  have hhw : args.highwater < 2 ^ 31 ∧ 0 < args.highwater := by
    unfold CapArgs.highwater; split <;> omega
  unfold Capture.start
  generalize hs0 : (⟨args, env, none, 0, [], fun _ => none, 0, 0, 0, args.remaining, true,
    fun _ => none, none, 0, [], []⟩ : Capture) = s0
  have out0 : OutInv s0 := by
    rw [← hs0]
    refine ⟨?_, ?_, ?_, ?_, ?_, ?_, ⟨CallsOk.nil _, nofun,
      fun i hi => absurd hi (Nat.not_lt_zero i), nofun⟩⟩
    · intro i hi; cases hi
    · intro p hp; cases hp
    · intro i hi; cases hi
    · intro i l hi; cases hi
    · intro n i hi; cases hi
    · intro _; rfl
  have inv : ∀ (s : Capture) (es : List CapEv), OutInv s → s.args = args → s.conns = (fun _ => none) →
      s.nextId = 0 → s.log = es → (∀ e ∈ es, isOut e = true) → s.remaining = args.remaining →
      s.listening = true → (s.exited = none → Up s) → CapInv s := by
    intro s es out ha hc hn hl he hr hli up
    have hev : ∀ id, ∀ e ∈ es, evId e ≠ some id := by
      intro id e h'
      rw [evId_out (he e h')]
      nofun
    have hR : ∀ id, receivedFrom id s.log = [] ∧ sentTo id s.log = [] ∧ recordedFrom id s.log = [] := by
      intro id
      have := other_events (log := []) (hev id)
      rw [List.nil_append] at this
      rw [hl]
      exact this
    have hact : active s.log = [] := by
      rw [hl]
      have := active_append_other (log := []) (es := es) (fun e h' => by
        have := he e h'
        constructor <;> (rintro id rfl; simp [isOut] at this))
      exact this
    constructor
    · exact out
    · exact up
    · intro _ id
      unfold IdInv
      rw [hc, (hR id).1, (hR id).2.2]
      rfl
    · intro id
      unfold SoFar
      rw [(hR id).1, (hR id).2.2, (hR id).2.1]
      exact ⟨List.nil_prefix, List.nil_prefix⟩
    · intro id _
      exact ⟨by rw [hc], hR id⟩
    · intro id bs hm
      rw [hl] at hm
      have := he _ hm
      simp [isOut] at this
    · constructor
      · rw [hact]; exact List.nodup_nil
      · intro id; rw [hact, hc]; simp
      · rw [hr, ha, hact]; simp
      · rw [hact]; intro h; simp; omega
      · rw [hact, hli]; simp
    · exact Or.inl (by rw [hl]; exact he)
    · rw [ha]; exact hhw.1
  split
  · exact ⟨_, rfl, inv (s0.exit 1) [] (out0.exit 1)
      (by rw [← hs0]; rfl) (by rw [← hs0]; rfl) (by rw [← hs0]; rfl) (by rw [← hs0]; rfl) (by simp)
      (by rw [← hs0]; rfl) (by rw [← hs0]; rfl) (by nofun), by rw [← hs0]; rfl,
      fun id => by rw [← hs0]; rfl⟩
  · obtain ⟨ok, s1, e, o, f, g, _⟩ := openWriteFile_spec out0 (by rw [← hs0])
    obtain ⟨es, l, hes⟩ := f.log
    have hl : s1.log = es := by rw [l, ← hs0]; rfl
    have a1 : s1.args = args := by rw [f.args, ← hs0]
    have c1 : s1.conns = fun _ => none := by rw [f.conns, ← hs0]
    dsimp only
    rw [e]
    simp only [Exec.ok_bind]
    cases ok with
    | false =>
      exact ⟨_, rfl, inv (s1.exit 1) es (o.exit 1) a1 c1
        (by show s1.nextId = 0; rw [f.nextId, ← hs0]) hl hes
        (by show s1.remaining = _; rw [f.remaining, ← hs0])
        (by show s1.listening = _; rw [f.listening, ← hs0]) (by nofun), a1,
        fun id => by show s1.conns id = none; rw [c1]⟩
    | true =>
      refine ⟨_, rfl, inv s1 es o a1 c1 (by rw [f.nextId, ← hs0]) hl hes
        (by rw [f.remaining, ← hs0]) (by rw [f.listening, ← hs0]) (fun hx => ?_), a1,
        fun id => by show s1.conns id = none; rw [c1]⟩
      have hct := (g rfl).2
      rw [← hs0] at hct
      exact ⟨o, (g rfl).1, hx, by rw [a1]; exact hct, by rw [a1]; exact hhw.1, by rw [a1]; exact hhw.2⟩

theorem run_inv : ∀ (acts : List CapAct) (s : Capture), CapInv s →
    (∀ as1 id bs ch as2 s1, acts = as1 ++ .recv id bs ch :: as2 → s.run as1 = .ok s1 →
      Sane s.args.highwater (receivedFrom id s1.log ++ bs)) →
    ∃ s', s.run acts = .ok s' ∧ CapInv s' ∧ s'.args = s.args := by
  intro acts
  induction acts with
  | nil => intro s h _; exact ⟨s, rfl, h, rfl⟩
  | cons a r ih =>
    intro s h hp
    obtain ⟨s1, e, h1, a1⟩ := step_inv (a := a) h (fun id bs ch ha => by
      subst ha
      exact hp [] id bs ch r s rfl rfl)
    obtain ⟨s2, e2, h2, a2⟩ := ih s1 h1 (fun as1 id bs ch as2 s' hr hs' => by
      rw [a1]
      refine hp (a :: as1) id bs ch as2 s' (by rw [hr]; rfl) ?_
      unfold Capture.run
      rw [e]
      exact hs')
    refine ⟨s2, ?_, h2, a2.trans a1⟩
    unfold Capture.run
    rw [e]
    exact e2

/-- Every buffer has room. -/
def Roomy (s : Capture) : Prop := ∀ id c, s.conns id = some c → evLength c.input < s.args.highwater

/-- What the first eight bytes say does not change. -/
theorem nextItem_not_skipped {hw : Nat} {bs x : Bytes} (h8 : 8 ≤ bs.length)
    (h : nextItem hw bs = none) (n : Nat) : nextItem hw (bs ++ x) ≠ some (.skipped n, n) := by
  intro h2
  unfold nextItem at h h2
  have h4 : ¬ bs.length < 4 := by omega
  have h4' : ¬ (bs ++ x).length < 4 := by simp; omega
  have h8' : ¬ bs.length < 8 := by omega
  have h8'' : ¬ (bs ++ x).length < 8 := by simp; omega
  rw [if_neg h4] at h
  rw [if_neg h4'] at h2
  rw [take4_append (by omega)] at h2
  have ed : (bs ++ x).drop 4 = bs.drop 4 ++ x := List.drop_append_of_le_length (by omega)
  rw [ed, take4_append (by simp; omega)] at h2
  dsimp only at h h2
  split at h
  · rename_i h0
    rw [if_pos h0] at h2
    split at h
    · cases h
    · rename_i hs
      rw [if_neg hs] at h2
      split at h2 <;> cases h2
  · rename_i h0
    rw [if_neg h0, if_neg h8''] at h2
    split at h
    · cases h
    · rename_i hb
      rw [if_neg hb] at h2
      split at h
      · cases h
      · rename_i hs
        rw [if_neg hs] at h2
        split at h2 <;> cases h2

theorem step_roomy {s s' : Capture} {a : CapAct} (h : CapInv s) (hr : Roomy s) (e : s.step a = .ok s')
    (sane : ∀ id bs ch, a = .recv id bs ch → Sane s.args.highwater (receivedFrom id s.log ++ bs))
    (small : ∀ id bs ch, a = .recv id bs ch → bs.length + 8 ≤ s.args.highwater)
    (hx' : s'.exited = none) : Roomy s' := by
  have mono : s'.args = s.args → (∀ i c', s'.conns i = some c' → ∃ c, s.conns i = some c ∧
      c'.input = c.input) → Roomy s' := by
    intro ha hm i c' hc'
    obtain ⟨c, h1, h2⟩ := hm i c' hc'
    rw [h2, ha]
    exact hr i c h1
  obtain ⟨s'', e', _, ha⟩ := step_inv h sane
  rw [e] at e'
  cases e'
  unfold Capture.step at e
  by_cases hx : s.exited.isSome
  · rw [if_pos hx] at e; cases e; exact hr
  rw [if_neg hx] at e
  have hrun : s.exited = none := by simpa using hx
  have up := h.up hrun
  cases a with
  | accept =>
    dsimp only at e
    split at e
    · cases e
      intro i c' hc'
      rw [ha]
      have : s.cbAccept.conns = (fun i => if i = s.nextId then some Conn.init else s.conns i) := by
        unfold Capture.cbAccept
        dsimp only [Capture.setConn]
        split <;> simp [Capture.emit]
      rw [this] at hc'
      dsimp only at hc'
      split at hc'
      · cases hc'; exact up.pos
      · exact hr i c' hc'
    · cases e; exact hr
  | recv id bs chains =>
    dsimp only at e
    cases hc : s.conns id with
    | none => rw [hc] at e; cases e; exact hr
    | some c =>
      rw [hc] at e
      dsimp only at e
      split at e
      · rename_i hcond
        obtain ⟨s'', e', _, hpost, hoth⟩ :=
          step_recv h up hc hcond.2.1 hcond.2.2.1 hcond.2.2.2 (sane id bs chains rfl)
        rw [e] at e'
        cases e'
        intro i c' hc'
        rw [ha]
        by_cases hi : i = id
        · subst hi
          have hl := (hpost hx').2.1 c' hc'
          have hcap := hcond.2.2.2
          rcases hl with hl | ⟨hin, hl⟩
          · dsimp only at hl; omega
          · rw [hin]
            dsimp only at hl ⊢
            rcases hl with hl | ⟨hz, hl | ⟨n, hl⟩⟩
            · rw [hl]; exact up.pos
            · have := small i bs chains rfl
              exact nextItem_none_room (by omega) hl
            · have hid := h.ids (by rw [hrun]; nofun) i
              unfold IdInv at hid
              rw [hc] at hid
              have hcalm := hid.calm hz
              have hsm := small i bs chains rfl
              by_cases h8 : 8 ≤ c.input.flatten.length
              · rw [hcond.2.1] at hl
                exact absurd hl (nextItem_not_skipped h8 hcalm n)
              · unfold evLength
                rw [hcond.2.1, List.length_append]
                omega
        · rw [hoth i hi] at hc'
          exact hr i c' hc'
      · cases e; exact hr
  | send id k =>
    dsimp only at e
    cases hc : s.conns id with
    | none => rw [hc] at e; cases e; exact hr
    | some c =>
      rw [hc] at e
      dsimp only at e
      refine mono ha ?_
      intro i c' hc'
      split at e
      · have hset : ((s.setConn id (some { c with output := c.output.drop k })).emit
            (.sent id (c.output.take k))).conns i = some c' → ∃ c, s.conns i = some c ∧
              c'.input = c.input := by
          intro h'
          simp only [Capture.emit, Capture.setConn] at h'
          split at h'
          · rename_i hi
            cases h'
            exact ⟨c, by rw [hi]; exact hc, rfl⟩
          · exact ⟨c', h', rfl⟩
        split at e
        · unfold Capture.cbWrite at e
          split at e
          · cases e; exact hset hc'
          · cases e
            rw [(closeConn_fields _ _).2.2.2.2.2.2.2.1] at hc'
            dsimp only at hc'
            split at hc'
            · cases hc'
            · exact hset hc'
        · cases e; exact hset hc'
      · cases e; exact ⟨c', hc', rfl⟩
  | hangup id =>
    dsimp only at e
    cases hc : s.conns id with
    | none => rw [hc] at e; cases e; exact hr
    | some c =>
      rw [hc] at e
      cases e
      refine mono ha ?_
      intro i c' hc'
      rw [(closeConn_fields _ _).2.2.2.2.2.2.2.1] at hc'
      dsimp only at hc'
      split at hc'
      · cases hc'
      · exact ⟨c', hc', rfl⟩
  | sigusr1 =>
    dsimp only at e
    rw [if_pos up.file] at e
    obtain ⟨s1, s'', e', o, f, g⟩ := rotateOutput_spec h.out up.file hrun
    rw [e] at e'
    cases e'
    refine mono ha ?_
    intro i c' hc'
    rcases g with ⟨rfl, _⟩ | rfl
    · rw [f.conns] at hc'; exact ⟨c', hc', rfl⟩
    · cases hx'
  | sighup =>
    dsimp only at e
    obtain ⟨i, hi⟩ := Option.isSome_iff_exists.1 up.file
    have e' : s.fflush = s.call (.fflush i) := by unfold Capture.fflush; rw [hi]
    rw [e'] at e
    cases e
    exact hr
  | term =>
    dsimp only at e
    unfold Capture.shutdown at e
    obtain ⟨⟨ok, s1⟩, _, e⟩ := Exec.bind_eq_ok.1 e
    cases ok <;> (cases e; cases hx')
  | rename a b =>
    dsimp only at e
    split at e <;> cases e <;> exact hr
  | remove a =>
    cases e
    exact hr

theorem step_exited {s : Capture} {a : CapAct} (h : s.exited.isSome) : s.step a = .ok s := by
  unfold Capture.step; rw [if_pos h]

theorem run_exited : ∀ (acts : List CapAct) {s : Capture}, s.exited.isSome → s.run acts = .ok s := by
  intro acts
  induction acts with
  | nil => intro s _; rfl
  | cons a r ih =>
    intro s h
    unfold Capture.run
    rw [step_exited h]
    exact ih h

theorem run_roomy : ∀ (acts : List CapAct) (s s' : Capture), CapInv s → Roomy s →
    (∀ as1 id bs ch as2 s1, acts = as1 ++ .recv id bs ch :: as2 → s.run as1 = .ok s1 →
      Sane s.args.highwater (receivedFrom id s1.log ++ bs)) →
    (∀ id bs ch, .recv id bs ch ∈ acts → bs.length + 8 ≤ s.args.highwater) →
    s.run acts = .ok s' → s'.exited = none → Roomy s' := by
  intro acts
  induction acts with
  | nil => intro s s' _ hr _ _ e _; cases e; exact hr
  | cons a r ih =>
    intro s s' h hr hp hsm e hx
    have hsane : ∀ id bs ch, a = .recv id bs ch →
        Sane s.args.highwater (receivedFrom id s.log ++ bs) := fun id bs ch ha => by
      subst ha
      exact hp [] id bs ch r s rfl rfl
    obtain ⟨s1, e1, h1, a1⟩ := step_inv (a := a) h hsane
    unfold Capture.run at e
    rw [e1] at e
    simp only [Exec.ok_bind] at e
    by_cases hx1 : s1.exited.isSome
    · rw [run_exited r hx1] at e
      cases e
      rw [hx] at hx1
      cases hx1
    · have hr1 := step_roomy h hr e1 hsane (fun id bs ch ha => hsm id bs ch (by rw [ha]; simp))
        (by simpa using hx1)
      refine ih s1 s' h1 hr1 ?_ ?_ e hx
      · intro as1 id bs ch as2 s'' hreq hs''
        rw [a1]
        refine hp (a :: as1) id bs ch as2 s'' (by rw [hreq]; rfl) ?_
        unfold Capture.run
        rw [e1]
        exact hs''
      · intro id bs ch hm
        rw [a1]
        exact hsm id bs ch (List.mem_cons_of_mem _ hm)

end Fstrm
