import Verif.Model.FdSock
import Verif.Lemmas.WriterTrace

/-! Descriptors of socket writers. -/

set_option autoImplicit false

namespace Fstrm

theorem Descrs.at_nat (t : Descrs) (n : Nat) : t.at (n : Int) = t[n]?.join := by
  unfold Descrs.at
  rw [if_neg (by omega)]
  rfl

theorem Descrs.at_neg (t : Descrs) {i : Int} (h : i < 0) : t.at i = none := by
  unfold Descrs.at; rw [if_pos h]

theorem Descrs.alloc_free (d : Descr) (t : Descrs) : t[(Descrs.alloc d t).1]?.join = none := by
  induction t with
  | nil => rfl
  | cons x t ih =>
    cases x with
    | none => rfl
    | some x => simpa [Descrs.alloc] using ih

theorem Descrs.alloc_get (d : Descr) (t : Descrs) (n : Nat) :
    (Descrs.alloc d t).2[n]?.join =
      if n = (Descrs.alloc d t).1 then some d else t[n]?.join := by
  induction t generalizing n with
  | nil => cases n <;> simp [Descrs.alloc]
  | cons x t ih =>
    cases x with
    | none => cases n <;> simp [Descrs.alloc]
    | some x =>
      cases n with
      | zero => simp [Descrs.alloc]
      | succ n => simpa [Descrs.alloc] using ih n

theorem Descrs.at_alloc (d : Descr) (t : Descrs) (i : Int) :
    Descrs.at (Descrs.alloc d t).2 i =
      if i = ((Descrs.alloc d t).1 : Int) then some d else t.at i := by
  rcases Int.lt_or_le i 0 with h | h
  · rw [Descrs.at_neg _ h, Descrs.at_neg _ h, if_neg (by omega)]
  · obtain ⟨n, rfl⟩ := Int.eq_ofNat_of_zero_le h
    rw [Descrs.at_nat, Descrs.at_nat, Descrs.alloc_get]
    by_cases e : n = (Descrs.alloc d t).1
    · rw [if_pos e, if_pos (by exact_mod_cast e)]
    · rw [if_neg e, if_neg (by exact_mod_cast e)]

theorem Descrs.alloc_at (d : Descr) (t : Descrs) : t.at ((Descrs.alloc d t).1 : Int) = none := by
  rw [Descrs.at_nat]; exact Descrs.alloc_free d t

theorem Descrs.at_release (t : Descrs) (fd i : Int) :
    (t.release fd).at i = if i = fd then none else t.at i := by
  unfold Descrs.release
  rcases Int.lt_or_le i 0 with h | h
  · rw [Descrs.at_neg _ h, Descrs.at_neg _ h]; simp
  · obtain ⟨n, rfl⟩ := Int.eq_ofNat_of_zero_le h
    split
    · rw [if_neg (by omega)]
    · rename_i hf
      rw [Descrs.at_nat, Descrs.at_nat, List.getElem?_set]
      by_cases e : fd.toNat = n
      · have e' : (n : Int) = fd := by omega
        rw [if_pos e, if_pos e']
        split <;> rfl
      · have e' : ¬ (n : Int) = fd := by omega
        rw [if_neg e, if_neg e']

theorem Descrs.at_set (t : Descrs) (fd i : Int) (x y : Descr) (h : t.at fd = some y) :
    Descrs.at (t.set fd.toNat (some x)) i = if i = fd then some x else t.at i := by
  have hf : 0 ≤ fd := by
    rcases Int.lt_or_le fd 0 with h' | h'
    · rw [Descrs.at_neg _ h'] at h; exact absurd h (by simp)
    · exact h'
  obtain ⟨m, rfl⟩ := Int.eq_ofNat_of_zero_le hf
  rw [Descrs.at_nat] at h
  rcases Int.lt_or_le i 0 with h' | h'
  · rw [Descrs.at_neg _ h', Descrs.at_neg _ h', if_neg (by omega)]
  · obtain ⟨n, rfl⟩ := Int.eq_ofNat_of_zero_le h'
    rw [Descrs.at_nat, Descrs.at_nat, List.getElem?_set]
    have hm : m < t.length := by
      by_cases hm : m < t.length
      · exact hm
      · rw [List.getElem?_eq_none (by omega)] at h; exact absurd h (by simp)
    by_cases e : m = n
    · subst e
      simp [hm]
    · simp only [Int.toNat_natCast]
      rw [if_neg e, if_neg (by omega)]

/-- A number stands for a descriptor of the writer. -/
def Descrs.mineAt (t : Descrs) (i : Int) : Bool := (t.at i).any (·.mine)

theorem Descrs.mem_own (t : Descrs) (i : Nat) : i ∈ t.own ↔ t.mineAt i = true := by
  unfold Descrs.own Descrs.mineAt
  rw [List.mem_filter, List.mem_range]
  constructor
  · exact fun h => h.2
  · intro h
    refine ⟨?_, h⟩
    by_cases hi : i < t.length
    · exact hi
    · rw [Descrs.at_nat, List.getElem?_eq_none (by omega)] at h
      exact absurd h (by simp)

theorem Descrs.own_nodup (t : Descrs) : t.own.Nodup := List.nodup_range.sublist List.filter_sublist

/-- Exactly the numbers satisfying `P` are the writer's, and each satisfies `F`. -/
structure Mine (p : Proc) (P : Int → Prop) (F : Descr → Prop) : Prop where
  iff : ∀ i, p.descrs.mineAt i = true ↔ P i
  flag : ∀ i d, p.descrs.at i = some d → d.mine = true → F d

/-- Calls have been made on own descriptors only. -/
def OwnCalls (p : Proc) : Prop :=
  ∀ e ∈ p.trail, (∃ c, e.1 = .socket c) ∨ ∃ d, e.2 = some d ∧ d.mine = true

theorem Mine.other {p : Proc} {P : Int → Prop} {F : Descr → Prop} (h : Mine p P F) (o : Other) :
    Mine (p.other o) P F := by
  cases o with
  | opens c =>
    constructor
    · intro i
      rw [← h.iff i]
      simp only [Proc.other, Descrs.mineAt, Descrs.at_alloc]
      split
      · rename_i e; rw [e, Descrs.alloc_at]; simp
      · rfl
    · intro i d hd hm
      simp only [Proc.other, Descrs.at_alloc] at hd
      split at hd
      · cases hd; exact absurd hm (by simp)
      · exact h.flag i d hd hm
  | closes n =>
    simp only [Proc.other]
    split
    · exact h
    · rename_i hn
      constructor
      · intro i
        rw [← h.iff i]
        simp only [Descrs.mineAt, Descrs.at_release]
        split
        · rename_i e; subst e
          simp only [Bool.not_eq_true] at hn
          rw [hn]; simp
        · rfl
      · intro i d hd hm
        simp only [Descrs.at_release] at hd
        split at hd
        · exact absurd hd (by simp)
        · exact h.flag i d hd hm
  | spawns => exact ⟨h.iff, h.flag⟩

theorem Mine.others {p : Proc} {P : Int → Prop} {F : Descr → Prop} (h : Mine p P F)
    (os : List Other) : Mine (p.others os) P F := by
  induction os generalizing p with
  | nil => exact h
  | cons o os ih => exact ih (h.other o)

theorem trail_others (p : Proc) (os : List Other) : (p.others os).trail = p.trail := by
  induction os generalizing p with
  | nil => rfl
  | cons o os ih =>
    refine (ih (p.other o)).trans ?_
    cases o with
    | opens c => rfl
    | closes n => simp only [Proc.other]; split <;> rfl
    | spawns => rfl

/-- If all own descriptors have the close-on-exec flag, nothing is inherited. -/
theorem inherited_others {p : Proc} {P : Int → Prop} (h : Mine p P fun d => d.cloexec = true)
    (os : List Other) : ∀ l ∈ (p.others os).inherited, l ∈ p.inherited ∨ l = [] := by
  induction os generalizing p with
  | nil => exact fun l hl => Or.inl hl
  | cons o os ih =>
    intro l hl
    rcases ih (h.other o) l hl with h1 | h1
    · cases o with
      | opens c => exact Or.inl h1
      | closes n =>
        simp only [Proc.other] at h1
        split at h1 <;> exact Or.inl h1
      | spawns =>
        simp only [Proc.other, List.mem_append, List.mem_singleton] at h1
        rcases h1 with h1 | h1
        · exact Or.inl h1
        · refine Or.inr (h1.trans ?_)
          rw [List.filter_eq_nil_iff]
          intro i hi
          rw [Descrs.mem_own] at hi
          simp only [Descrs.mineAt] at hi
          cases hd : p.descrs.at (i : Int) with
          | none => simp
          | some d =>
            rw [hd] at hi
            have := h.flag i d hd (by simpa using hi)
            simp [this]
    · exact Or.inr h1

/-- Programs started without `spawns` do not exist. -/
theorem inherited_same {p : Proc} {os : List Other} (h : Other.spawns ∉ os) :
    (p.others os).inherited = p.inherited := by
  induction os generalizing p with
  | nil => rfl
  | cons o os ih =>
    refine (ih fun hm => h (by simp [hm])).trans ?_
    cases o with
    | opens c => rfl
    | closes n => simp only [Proc.other]; split <;> rfl
    | spawns => exact absurd (by simp) h

/-! ### The writer's calls -/

variable {s s' : FdSock} {P : Int → Prop} {F : Descr → Prop}

theorem Mine.none_socket {c : Bool} {k : KSocket} {os : List Other}
    (h : Mine s.proc (fun _ => False) F) :
    (k = .ok ∧ (∀ d : Descr, d.cloexec = c → F d) →
      Mine (s.socket c k os).proc (fun i => i = (s.socket c k os).fd) F) ∧
    (k ≠ .ok → (s.socket c k os).fd < 0 ∧ Mine (s.socket c k os).proc (fun _ => False) F) := by
  have h1 := h.others os
  constructor
  · rintro ⟨rfl, hF⟩
    constructor
    · intro i
      simp only [FdSock.socket, Descrs.mineAt, Descrs.at_alloc]
      split
      · rename_i e; simp [e]
      · rename_i e
        simp only [e, iff_false]
        intro hm
        exact (h1.iff i).1 hm
    · intro i d hd hm
      simp only [FdSock.socket, Descrs.at_alloc] at hd
      split at hd
      · cases hd; exact hF _ rfl
      · exact h1.flag i d hd hm
  · intro hk
    cases k with
    | ok => exact absurd rfl hk
    | inval => exact ⟨by simp [FdSock.socket], ⟨h1.iff, h1.flag⟩⟩
    | fail => exact ⟨by simp [FdSock.socket], ⟨h1.iff, h1.flag⟩⟩

theorem OwnCalls.socket (h : OwnCalls s.proc) (c : Bool) (k : KSocket) (os : List Other) :
    OwnCalls (s.socket c k os).proc := by
  have : (s.socket c k os).proc.trail = s.proc.trail ++ [(.socket c, none)] := by
    cases k <;> simp [FdSock.socket, trail_others]
  intro e he
  rw [this, List.mem_append, List.mem_singleton] at he
  rcases he with he | rfl
  · exact h e he
  · exact Or.inl ⟨c, rfl⟩

theorem Mine.call (h : Mine s.proc P F) (c : Sys) (os : List Other) :
    Mine (s.call c os).proc P F :=
  ⟨(h.others os).iff, (h.others os).flag⟩

theorem OwnCalls.call (h : OwnCalls s.proc) (hm : Mine s.proc P F) (hp : P s.fd) (c : Sys)
    (os : List Other) : OwnCalls (s.call c os).proc := by
  intro e he
  simp only [FdSock.call, Proc.call, trail_others, List.mem_append, List.mem_singleton] at he
  rcases he with he | rfl
  · exact h e he
  · right
    have := ((hm.others os).iff s.fd).2 hp
    simp only [Descrs.mineAt] at this
    cases hd : (s.proc.others os).descrs.at s.fd with
    | none => rw [hd] at this; exact absurd this (by simp)
    | some d => rw [hd] at this; exact ⟨d, rfl, by simpa using this⟩

theorem Mine.setFlag (h : Mine s.proc P F) (hF : ∀ d, d.cloexec = true → F d) :
    Mine s.setFlag.proc P F := by
  unfold FdSock.setFlag
  split
  · rename_i d hd
    constructor
    · intro i
      rw [← h.iff i]
      simp only [Descrs.mineAt]
      rw [Descrs.at_set _ _ _ _ _ hd]
      split
      · rename_i e; rw [e, hd]; rfl
      · rfl
    · intro i d' hd' hm
      simp only at hd'
      rw [Descrs.at_set _ _ _ _ _ hd] at hd'
      split at hd'
      · cases hd'; exact hF _ rfl
      · exact h.flag i d' hd' hm
  · exact h

theorem setFlag_rest (s : FdSock) : s.setFlag.fd = s.fd ∧ s.setFlag.sock = s.sock ∧
    s.setFlag.proc.trail = s.proc.trail ∧ s.setFlag.proc.inherited = s.proc.inherited ∧
    s.setFlag.opens = s.opens ∧ s.setFlag.closes = s.closes := by
  unfold FdSock.setFlag
  split <;> exact ⟨rfl, rfl, rfl, rfl, rfl, rfl⟩

theorem nosigpipe_rest (s : FdSock) (k : KOpen) : (s.nosigpipe k).fd = s.fd ∧
    (s.nosigpipe k).sock = s.sock ∧
    (s.nosigpipe k).proc.trail = (s.call .setsockopt (k.before 4)).proc.trail ∧
    (s.nosigpipe k).proc.inherited = (s.call .setsockopt (k.before 4)).proc.inherited ∧
    (s.nosigpipe k).opens = s.opens ∧ (s.nosigpipe k).closes = s.closes := by
  unfold FdSock.nosigpipe
  dsimp only
  split <;> exact ⟨rfl, rfl, rfl, rfl, rfl, rfl⟩

theorem Mine.nosigpipe (h : Mine s.proc P F) (k : KOpen)
    (hF : ∀ d : Descr, F d → F { d with nosigpipe := true }) :
    Mine (s.nosigpipe k).proc P F := by
  have h := h.call .setsockopt (k.before 4)
  unfold FdSock.nosigpipe
  dsimp only
  split
  · rename_i d hk hd
    constructor
    · intro i
      rw [← h.iff i]
      simp only [Descrs.mineAt]
      rw [Descrs.at_set _ _ _ _ _ hd]
      split
      · rename_i e; rw [e, hd]; rfl
      · rfl
    · intro i d' hd' hm
      simp only at hd'
      rw [Descrs.at_set _ _ _ _ _ hd] at hd'
      split at hd'
      · rename_i e
        cases hd'; exact hF _ (h.flag _ d hd hm)
      · exact h.flag i d' hd' hm
  · exact h

theorem OwnCalls.nosigpipe (h : OwnCalls s.proc) (hm : Mine s.proc P F) (hp : P s.fd)
    (k : KOpen) : OwnCalls (s.nosigpipe k).proc := by
  unfold OwnCalls
  rw [(nosigpipe_rest s k).2.2.1]
  exact h.call hm hp .setsockopt (k.before 4)

theorem Mine.closeFd (h : Mine s.proc (fun i => i = s.fd) F) (os : List Other) :
    Mine (s.closeFd os).proc (fun _ => False) F := by
  have h1 := h.call .close os
  constructor
  · intro i
    simp only [FdSock.closeFd, Descrs.mineAt, Descrs.at_release, FdSock.call]
    split
    · simp
    · rename_i e
      exact (h1.iff i).trans (by simpa [FdSock.call] using e)
  · intro i d hd hm
    simp only [FdSock.closeFd, Descrs.at_release] at hd
    split at hd
    · exact absurd hd (by simp)
    · exact h1.flag i d hd hm

/-- Any flags. -/
abbrev AnyFlag : Descr → Prop := fun _ => True

theorem socket_rest (s : FdSock) (c : Bool) (k : KSocket) (os : List Other) :
    (s.socket c k os).sock = s.sock ∧ (s.socket c k os).opens = s.opens ∧
    (s.socket c k os).closes = s.closes := by
  cases k <;> exact ⟨rfl, rfl, rfl⟩

theorem socket_fd (s : FdSock) (c : Bool) (k : KSocket) (os : List Other) :
    (s.socket c k os).fd < 0 ↔ k ≠ .ok := by
  cases k with
  | ok => simp only [FdSock.socket]; constructor
          · intro h; omega
          · intro h; exact absurd rfl h
  | inval => simp [FdSock.socket]
  | fail => simp [FdSock.socket]

theorem sockets_rest (p : Platform) (s : FdSock) (k : KOpen) :
    (s.sockets p k).sock = s.sock ∧ (s.sockets p k).opens = s.opens ∧
    (s.sockets p k).closes = s.closes := by
  unfold FdSock.sockets
  split
  · dsimp only
    split
    · obtain ⟨a, b, c⟩ := socket_rest s true k.first (k.before 0)
      obtain ⟨a', b', c'⟩ := socket_rest (s.socket true k.first (k.before 0)) false k.second (k.before 1)
      exact ⟨a'.trans a, b'.trans b, c'.trans c⟩
    · exact socket_rest _ _ _ _
  · exact socket_rest _ _ _ _

theorem sockets_own {p : Platform} {k : KOpen} (h : Mine s.proc (fun _ => False) AnyFlag)
    (ho : OwnCalls s.proc) :
    OwnCalls (s.sockets p k).proc ∧
    ((s.sockets p k).fd < 0 → Mine (s.sockets p k).proc (fun _ => False) AnyFlag) ∧
    (¬ (s.sockets p k).fd < 0 →
      Mine (s.sockets p k).proc (fun i => i = (s.sockets p k).fd) AnyFlag) := by
  have one : ∀ (s : FdSock) (c : Bool) (r : KSocket) (os : List Other),
      Mine s.proc (fun _ => False) AnyFlag → OwnCalls s.proc →
      OwnCalls (s.socket c r os).proc ∧
      ((s.socket c r os).fd < 0 → Mine (s.socket c r os).proc (fun _ => False) AnyFlag) ∧
      (¬ (s.socket c r os).fd < 0 →
        Mine (s.socket c r os).proc (fun i => i = (s.socket c r os).fd) AnyFlag) := by
    intro s c r os h ho
    refine ⟨ho.socket c r os, ?_, ?_⟩
    · intro hf
      exact (h.none_socket.2 ((socket_fd _ _ _ _).1 hf)).2
    · intro hf
      rw [socket_fd] at hf
      cases r with
      | ok => exact h.none_socket.1 ⟨rfl, fun _ _ => trivial⟩
      | inval => exact absurd (by simp) hf
      | fail => exact absurd (by simp) hf
  unfold FdSock.sockets
  split
  · dsimp only
    split
    · rename_i hf
      obtain ⟨a, b, _⟩ := one s true k.first (k.before 0) h ho
      exact one _ _ _ _ (b hf.1) a
    · exact one _ _ _ _ h ho
  · exact one _ _ _ _ h ho

theorem fcntl_rest (s : FdSock) (k : KOpen) :
    (s.fcntl k).sock = s.sock ∧ (s.fcntl k).opens = s.opens ∧ (s.fcntl k).closes = s.closes ∧
    (s.fcntl k).fd = s.fd := by
  unfold FdSock.fcntl
  dsimp only
  split
  · split
    · obtain ⟨a, b, _, _, c, d⟩ := setFlag_rest ((s.call .getfd (k.before 2)).call .setfd (k.before 3))
      exact ⟨b, c, d, a⟩
    · exact ⟨rfl, rfl, rfl, rfl⟩
  · exact ⟨rfl, rfl, rfl, rfl⟩

theorem fcntl_own {k : KOpen} (h : Mine s.proc P F) (hp : P s.fd) (ho : OwnCalls s.proc)
    (hF : ∀ d, d.cloexec = true → F d) :
    OwnCalls (s.fcntl k).proc ∧ Mine (s.fcntl k).proc P F := by
  unfold FdSock.fcntl
  dsimp only
  have h1 := h.call .getfd (k.before 2)
  have o1 := ho.call h hp .getfd (k.before 2)
  split
  · have h2 := h1.call .setfd (k.before 3)
    have o2 := o1.call h1 hp .setfd (k.before 3)
    split
    · refine ⟨?_, h2.setFlag hF⟩
      have := (setFlag_rest ((s.call .getfd (k.before 2)).call .setfd (k.before 3))).2.2.1
      unfold OwnCalls
      rw [this]
      exact o2
    · exact ⟨o2, h2⟩
  · exact ⟨o1, h1⟩

theorem OwnCalls.closeFd (h : OwnCalls s.proc) (hm : Mine s.proc P F) (hp : P s.fd)
    (os : List Other) : OwnCalls (s.closeFd os).proc :=
  h.call hm hp .close os

/-- A socket writer has exactly the descriptor of its connection, and has only ever used its own. -/
structure FdInv (s : FdSock) : Prop where
  mine : Mine s.proc (fun i => s.sock.connected = true ∧ i = s.fd) AnyFlag
  calls : OwnCalls s.proc

theorem Mine.congr {p : Proc} {P Q : Int → Prop} {F : Descr → Prop} (h : Mine p P F)
    (e : ∀ i, P i ↔ Q i) : Mine p Q F := ⟨fun i => (h.iff i).trans (e i), h.flag⟩

theorem FdInv.opOpen {p : Platform} {r : Res} (h : FdInv s) (e : s.opOpen p = .ok (r, s')) :
    FdInv s' ∧ s'.sock.connected = (decide (r = .success)) := by
  unfold FdSock.opOpen at e
  split at e
  · rename_i hc
    cases e; exact ⟨h, by simpa using hc⟩
  · rename_i hc
    generalize hk : (s.opens.head?.getD {} : KOpen) = k at e
    generalize hs0 : ({ s with opens := s.opens.tail } : FdSock) = s0 at e
    have m0 : Mine s0.proc (fun _ => False) AnyFlag := by
      rw [← hs0]; exact h.mine.congr fun i => by simp [hc]
    have o0 : OwnCalls s0.proc := by rw [← hs0]; exact h.calls
    have c0 : s0.sock.connected = false := by rw [← hs0]; simpa using hc
    obtain ⟨o1, n1, m1⟩ := sockets_own (p := p) (k := k) m0 o0
    have c1 : (s0.sockets p k).sock.connected = false := by rw [(sockets_rest p s0 k).1]; exact c0
    dsimp only at e
    generalize s0.sockets p k = s1 at e o1 n1 m1 c1
    split at e
    · rename_i hf
      cases e
      exact ⟨⟨(n1 hf).congr fun i => by simp [c1], o1⟩, by simp [c1]⟩
    · rename_i hf
      replace m1 := m1 hf
      have x2 : ∃ s2, (if p.fdCloexec = true then s1.fcntl k else s1) = s2 ∧
          Mine s2.proc (fun i => i = s2.fd) AnyFlag ∧ OwnCalls s2.proc ∧
          s2.sock.connected = false := by
        refine ⟨_, rfl, ?_⟩
        split
        · obtain ⟨a, b⟩ := fcntl_own (k := k) m1 rfl o1 fun _ _ => trivial
          obtain ⟨q, _, _, q'⟩ := fcntl_rest s1 k
          exact ⟨b.congr fun i => by rw [q'], a, by rw [q]; exact c1⟩
        · exact ⟨m1, o1, c1⟩
      obtain ⟨s2, e2, m2, o2, c2⟩ := x2
      rw [e2] at e
      have x3 : ∃ s3, (if p.soNosigpipe = true then s2.nosigpipe k else s2) = s3 ∧
          Mine s3.proc (fun i => i = s3.fd) AnyFlag ∧ OwnCalls s3.proc ∧
          s3.sock.connected = false := by
        refine ⟨_, rfl, ?_⟩
        split
        · obtain ⟨q, q', _⟩ := nosigpipe_rest s2 k
          exact ⟨(m2.nosigpipe k fun _ h => h).congr fun i => by rw [q], o2.nosigpipe m2 rfl k,
            by rw [q']; exact c2⟩
        · exact ⟨m2, o2, c2⟩
      obtain ⟨s3, e3, m3, o3, c3⟩ := x3
      rw [e3] at e
      split at e
      · cases e
        refine ⟨⟨(m3.closeFd _).congr fun i => ?_, o3.closeFd m3 rfl _⟩, ?_⟩
        · show False ↔ s3.sock.connected = true ∧ _
          simp [c3]
        · show s3.sock.connected = _
          simp [c3]
      · have m4 := m3.call .connect (k.before 6)
        have o4 := o3.call m3 rfl .connect (k.before 6)
        split at e
        · cases e
          refine ⟨⟨(Mine.closeFd (s := s3.call .connect (k.before 6)) m4 _).congr fun i => ?_,
            o4.closeFd m4 rfl _⟩, ?_⟩
          · show False ↔ s3.sock.connected = true ∧ _
            simp [c3]
          · show s3.sock.connected = _
            simp [c3]
        · cases e
          refine ⟨⟨m4.congr fun i => ?_, o4⟩, rfl⟩
          show i = s3.fd ↔ true = true ∧ i = s3.fd
          simp

theorem FdInv.opClose {r : Res} (h : FdInv s) (e : s.opClose = .ok (r, s')) :
    FdInv s' ∧ s'.sock.connected = false := by
  unfold FdSock.opClose at e
  split at e
  · rename_i hc
    have m : Mine s.proc (fun i => i = s.fd) AnyFlag := h.mine.congr fun i => by simp [hc]
    have m' := m.closeFd (s.closes.head?.getD {}).others
    have o' := h.calls.closeFd m rfl (s.closes.head?.getD {}).others
    dsimp only at e
    split at e <;>
    · cases e
      refine ⟨⟨?_, o'⟩, rfl⟩
      refine Mine.congr (P := fun _ => False) m' fun i => ?_
      show False ↔ false = true ∧ _
      simp
  · rename_i hc
    cases e; exact ⟨h, by simpa using hc⟩

theorem opRead_connected {k k' : Sock} {n : Nat} {r : Res} {bs : Bytes}
    (e : k.opRead n = .ok (r, bs, k')) : k'.connected = k.connected := by
  unfold Sock.opRead at e
  split at e
  · dsimp only at e
    split at e <;> (cases e; rfl)
  · cases e; rfl

theorem opWrite_connected {k k' : Sock} {iov : List Bytes} {r : Res}
    (e : k.opWrite iov = .ok (r, k')) : k'.connected = k.connected := by
  unfold Sock.opWrite at e
  split at e
  · cases e; rfl
  · obtain ⟨⟨a, b, c⟩, _, e⟩ := Exec.bind_eq_ok.1 e
    cases e; rfl

theorem FdInv.use {s2 : FdSock} {c : Sys} (h : FdInv s)
    (e : s2 = if s.sock.connected
      then { (s.call c (s.uses.head?.getD [])) with uses := s.uses.tail } else s) : FdInv s2 := by
  subst e
  split
  · rename_i hc
    exact ⟨h.mine.call c _, h.calls.call h.mine ⟨hc, rfl⟩ c _⟩
  · exact h

theorem FdInv.opRead {n : Nat} {r : Res} {bs : Bytes} (h : FdInv s)
    (e : s.opRead n = .ok (r, bs, s')) : FdInv s' := by
  unfold FdSock.opRead at e
  dsimp only at e
  obtain ⟨⟨a, b, k⟩, e1, e⟩ := Exec.bind_eq_ok.1 e
  have h2 := h.use (c := .read) rfl
  cases e
  have := opRead_connected e1
  refine ⟨h2.mine.congr fun i => ?_, h2.calls⟩
  simp only [this]

theorem FdInv.opWrite {p : Platform} {iov : List Bytes} {r : Res} (h : FdInv s)
    (e : s.opWrite p iov = .ok (r, s')) : FdInv s' := by
  unfold FdSock.opWrite at e
  dsimp only at e
  obtain ⟨⟨a, k⟩, e1, e⟩ := Exec.bind_eq_ok.1 e
  have h2 := h.use (c := .sendmsg p.msgNosignal) rfl
  cases e
  have := opWrite_connected e1
  refine ⟨h2.mine.congr fun i => ?_, h2.calls⟩
  simp only [this]

end Fstrm
