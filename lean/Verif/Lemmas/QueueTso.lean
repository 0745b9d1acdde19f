import Verif.Model.QueueTso
import Verif.Lemmas.Queue

/-! Invariant of the two-thread TSO machine. -/

set_option autoImplicit false

namespace Fstrm

open Spec (QEv puts gots visibles freeds seen seenFrom)

section Log
variable {α : Type}

theorem puts_append (a b : List (QEv α)) : puts (a ++ b) = puts a ++ puts b := by
  induction a with
  | nil => rfl
  | cons e a ih => cases e <;> simp [puts, ih]

theorem gots_append (a b : List (QEv α)) : gots (a ++ b) = gots a ++ gots b := by
  induction a with
  | nil => rfl
  | cons e a ih => cases e <;> simp [gots, ih]

theorem visibles_append (a b : List (QEv α)) : visibles (a ++ b) = visibles a + visibles b := by
  induction a with
  | nil => simp [visibles]
  | cons e a ih => cases e <;> simp [visibles, ih] ; omega

theorem freeds_append (a b : List (QEv α)) : freeds (a ++ b) = freeds a + freeds b := by
  induction a with
  | nil => simp [freeds]
  | cons e a ih => cases e <;> simp [freeds, ih] ; omega

theorem seenFrom_append (v s : Nat) (a b : List (QEv α)) :
    seenFrom v s (a ++ b) = seenFrom (v + visibles a) (seenFrom v s a) b := by
  induction a generalizing v s with
  | nil => simp [seenFrom, visibles]
  | cons e a ih =>
    cases e <;> simp [seenFrom, visibles, ih]
    congr 1; omega

theorem seen_append (a b : List (QEv α)) :
    seen (a ++ b) = seenFrom (visibles a) (seen a) b := by
  unfold seen; rw [seenFrom_append, Nat.zero_add]

/-- `Q` holds of what precedes every event that satisfies `P`. -/
def AtEvery (P : QEv α → Prop) (Q : QEv α → List (QEv α) → Prop) (l : List (QEv α)) : Prop :=
  ∀ a e b, l = a ++ e :: b → P e → Q e a

theorem AtEvery.nil {P : QEv α → Prop} {Q} : AtEvery P Q [] := by
  intro a e b h; simp at h

theorem AtEvery.snoc {P : QEv α → Prop} {Q} {l : List (QEv α)} {x : QEv α} (h : AtEvery P Q l)
    (hx : P x → Q x l) : AtEvery P Q (l ++ [x]) := by
  intro a e b hl he
  rcases List.eq_nil_or_concat b with rfl | ⟨b', y, rfl⟩
  · obtain ⟨h1, h2⟩ := List.append_inj' hl rfl
    subst h1; cases h2; exact hx he
  · rw [List.concat_eq_append, ← List.cons_append, ← List.append_assoc] at hl
    obtain ⟨h1, h2⟩ := List.append_inj' hl rfl
    exact h a e b' h1 he

end Log

/-- The producer's buffered stores, given memory `mem` in which the first `v` insertions are
visible: each insertion still to become visible first stores its bytes in its own slot, then the
new head index. `P` are all insertions; `cur` is the item being copied and the bytes missing. -/
def GoodBuf (n sz : Nat) (P : List Bytes) (cur : Option (Bytes × List Nat)) (mem : Bytes) (v : Nat) :
    List Store → Prop
  | [] => v = P.length ∧ ∀ x todo, cur = some (x, todo) → ∀ i, i < sz → i ∉ todo →
      mem[(v % n) * sz + i]? = x[i]?
  | .data off b :: rest => (∃ i, i < sz ∧ off = (v % n) * sz + i) ∧
      GoodBuf n sz P cur (mem.set off b) v rest
  | .head h :: rest => h.toNat = (v + 1) % n ∧ v < P.length ∧
      (∀ x, P[v]? = some x → ∀ i, i < sz → mem[(v % n) * sz + i]? = x[i]?) ∧
      GoodBuf n sz P cur mem (v + 1) rest
  | .tail _ :: _ => False

/-- The consumer's buffered stores: tail indices `u + 1, ..., T`. -/
def TailBuf (n T u : Nat) : List Store → Prop
  | [] => u = T
  | .tail t :: rest => t.toNat = (u + 1) % n ∧ TailBuf n T (u + 1) rest
  | _ :: _ => False

section Buf
variable {n sz : Nat} {P : List Bytes} {cur : Option (Bytes × List Nat)}

theorem GoodBuf.le {mem : Bytes} {v : Nat} {buf : List Store} (h : GoodBuf n sz P cur mem v buf) :
    v ≤ P.length := by
  induction buf generalizing mem v with
  | nil => exact Nat.le_of_eq h.1
  | cons s buf ih =>
    cases s with
    | data off b => exact ih h.2
    | head h' => exact Nat.le_of_lt h.2.1
    | tail t => exact h.elim

theorem GoodBuf.fwdTail {mem : Bytes} {v : Nat} {buf : List Store}
    (h : GoodBuf n sz P cur mem v buf) : fwdTail buf = none := by
  induction buf generalizing mem v with
  | nil => rfl
  | cons s buf ih =>
    cases s with
    | data off b => exact ih h.2
    | head h' => exact ih h.2.2.2
    | tail t => exact h.elim

theorem GoodBuf.fwdHead {mem : Bytes} {v : Nat} {buf : List Store} {h0 : UInt32}
    (h : GoodBuf n sz P cur mem v buf) (hh : h0.toNat = v % n) :
    ((fwdHead buf).getD h0).toNat = P.length % n := by
  induction buf generalizing mem v h0 with
  | nil => simp [Fstrm.fwdHead, hh, h.1]
  | cons s buf ih =>
    cases s with
    | data off b => exact ih h.2 hh
    | head h' =>
      have := ih h.2.2.2 h.1
      simp only [Fstrm.fwdHead]
      cases hb : Fstrm.fwdHead buf <;> simp [hb] at this ⊢ <;> exact this
    | tail t => exact h.elim

/-- With nothing being copied, the `cur` argument can be changed. -/
theorem GoodBuf.start {mem : Bytes} {v : Nat} {buf : List Store} (x : Bytes)
    (h : GoodBuf n sz P none mem v buf) :
    GoodBuf n sz P (some (x, List.range sz)) mem v buf := by
  induction buf generalizing mem v with
  | nil =>
    refine ⟨h.1, fun y todo hy i hi ht => ?_⟩
    cases hy
    exact absurd (List.mem_range.2 hi) ht
  | cons s buf ih =>
    cases s with
    | data off b => exact ⟨h.1, ih h.2⟩
    | head h' => exact ⟨h.1, h.2.1, h.2.2.1, ih h.2.2.2⟩
    | tail t => exact h.elim

/-- Storing one more byte of the current item. -/
theorem GoodBuf.byte {mem : Bytes} {v : Nat} {buf : List Store} {x : Bytes} {todo : List Nat}
    {k : Nat} {b : UInt8} (hlen : mem.length = n * sz) (hn : 0 < n)
    (h : GoodBuf n sz P (some (x, todo)) mem v buf) (hk : k < sz) (hb : x[k]? = some b) :
    GoodBuf n sz P (some (x, todo.erase k)) mem v
      (buf ++ [.data ((P.length % n) * sz + k) b]) := by
  induction buf generalizing mem v with
  | nil =>
    have hv := h.1
    subst hv
    refine ⟨⟨k, hk, rfl⟩, rfl, fun y td hy i hi ht => ?_⟩
    cases hy
    by_cases hik : i = k
    · subst hik
      rw [List.getElem?_set_self (by rw [hlen]; exact slot_fits (Nat.mod_lt _ hn) hi), hb]
    · rw [List.getElem?_set_ne (by omega)]
      refine h.2 x todo rfl i hi (fun hm => ht ?_)
      exact (List.mem_erase_of_ne hik).2 hm
  | cons s buf ih =>
    cases s with
    | data off b' => exact ⟨h.1, ih (by rw [List.length_set]; exact hlen) h.2⟩
    | head h' => exact ⟨h.1, h.2.1, h.2.2.1, ih hlen h.2.2.2⟩
    | tail t => exact h.elim

/-- Storing the head index once everything is copied. -/
theorem GoodBuf.publish {mem : Bytes} {v : Nat} {buf : List Store} {x : Bytes} {hd : UInt32}
    (h : GoodBuf n sz P (some (x, [])) mem v buf) (hh : hd.toNat = (P.length + 1) % n) :
    GoodBuf n sz (P ++ [x]) none mem v (buf ++ [.head hd]) := by
  induction buf generalizing mem v with
  | nil =>
    have hv := h.1
    subst hv
    refine ⟨hh, by simp, fun y hy i hi => ?_, by simp, fun _ _ h => by cases h⟩
    simp at hy; subst hy
    exact h.2 x [] rfl i hi (by simp)
  | cons s buf ih =>
    cases s with
    | data off b' => exact ⟨h.1, ih h.2⟩
    | head h' =>
      refine ⟨h.1, ?_, fun y hy => ?_, ih h.2.2.2⟩
      · have := h.2.1; simp; omega
      · rw [List.getElem?_append_left h.2.1] at hy
        exact h.2.2.1 y hy
    | tail t => exact h.elim

theorem TailBuf.le {T u : Nat} {buf : List Store} (h : TailBuf n T u buf) : u ≤ T := by
  induction buf generalizing u with
  | nil => exact Nat.le_of_eq h
  | cons s buf ih =>
    cases s with
    | tail t => have := ih h.2; omega
    | data => exact h.elim
    | head => exact h.elim

theorem TailBuf.fwdHead {T u : Nat} {buf : List Store} (h : TailBuf n T u buf) :
    fwdHead buf = none := by
  induction buf generalizing u with
  | nil => rfl
  | cons s buf ih =>
    cases s with
    | tail t => exact ih h.2
    | data => exact h.elim
    | head => exact h.elim

theorem TailBuf.fwdData {T u off : Nat} {buf : List Store} (h : TailBuf n T u buf) :
    fwdData off buf = none := by
  induction buf generalizing u with
  | nil => rfl
  | cons s buf ih =>
    cases s with
    | tail t => exact ih h.2
    | data => exact h.elim
    | head => exact h.elim

theorem TailBuf.fwdTail {T u : Nat} {buf : List Store} {t0 : UInt32} (h : TailBuf n T u buf)
    (hh : t0.toNat = u % n) : ((fwdTail buf).getD t0).toNat = T % n := by
  induction buf generalizing u t0 with
  | nil => have : u = T := h; simp [Fstrm.fwdTail, hh, this]
  | cons s buf ih =>
    cases s with
    | tail t =>
      have := ih h.2 h.1
      simp only [Fstrm.fwdTail]
      cases hb : Fstrm.fwdTail buf <;> simp [hb] at this ⊢ <;> exact this
    | data => exact h.elim
    | head => exact h.elim

theorem TailBuf.push {T u : Nat} {buf : List Store} {t : UInt32} (h : TailBuf n T u buf)
    (ht : t.toNat = (T + 1) % n) : TailBuf n (T + 1) u (buf ++ [.tail t]) := by
  induction buf generalizing u with
  | nil =>
    have : u = T := h
    subst this
    exact ⟨ht, rfl⟩
  | cons s buf ih =>
    cases s with
    | tail t' => exact ⟨h.1, ih h.2⟩
    | data => exact h.elim
    | head => exact h.elim

end Buf

/-- The item being copied. -/
def PPc.cur : PPc → Option (Bytes × List Nat)
  | .copy item _ _ todo => some (item, todo)
  | _ => none

/-- One if a slot is being filled. -/
def PPc.busy : PPc → Nat
  | .copy .. => 1
  | _ => 0

/-- What the producer knows. -/
def PGood (n sz U : Nat) (P : List Bytes) : PPc → Prop
  | .idle => True
  | .loadHead item => item.length = sz
  | .loadTail item head => item.length = sz ∧ head.toNat = P.length % n
  | .copy item head space todo => item.length = sz ∧ head.toNat = P.length % n ∧
      (∀ k ∈ todo, k < sz) ∧ P.length + 1 + space.toNat + 1 ≤ n + U

/-- What the consumer knows. -/
def CGood (n sz T V S : Nat) (P : List Bytes) : CPc → Prop
  | .idle => True
  | .loadHead => True
  | .loadTail head => head.toNat = S % n ∧ T ≤ S ∧ S ≤ V
  | .copy tail count buf todo => tail.toNat = T % n ∧ T + count.toNat + 1 ≤ V ∧ buf.length = sz ∧
      (∀ k ∈ todo, k < sz) ∧
      ∀ x, P[T]? = some x → ∀ i, i < sz → i ∉ todo → buf[i]? = x[i]?
  | .store tail count buf => tail.toNat = T % n ∧ T + count.toNat + 1 ≤ V ∧ P[T]? = some buf

/-- The invariant. -/
structure Tso.Inv (num sz : UInt32) (s : Tso) : Prop where
  hnum : s.q.num = num
  hsz : s.q.sz = sz
  size : QSize num.toNat
  small : num.toNat * sz.toNat ≤ 2 ^ 32
  mem : s.q.data.length = num.toNat * sz.toNat
  lens : ∀ x ∈ puts s.log, x.length = sz.toNat
  head : s.q.head.toNat = visibles s.log % num.toNat
  tail : s.q.tail.toNat = freeds s.log % num.toNat
  order : (gots s.log).length ≤ visibles s.log
  pbuf : GoodBuf num.toNat sz.toNat (puts s.log) s.p.cur s.q.data (visibles s.log) s.pbuf
  cbuf : TailBuf num.toNat (gots s.log).length (freeds s.log) s.cbuf
  room : (puts s.log).length + s.p.busy < num.toNat + freeds s.log
  taken : gots s.log = (puts s.log).take (gots s.log).length
  slots : ∀ j x, (gots s.log).length ≤ j → j < visibles s.log → (puts s.log)[j]? = some x →
    ∀ i, i < sz.toNat → s.q.data[(j % num.toNat) * sz.toNat + i]? = x[i]?
  p : PGood num.toNat sz.toNat (freeds s.log) (puts s.log) s.p
  c : CGood num.toNat sz.toNat (gots s.log).length (visibles s.log) (seen s.log) (puts s.log) s.c
  empties : AtEvery (fun e => ∃ k, e = .empty k)
    (fun e a => e = .empty 0 ∧ (gots a).length = seen a) s.log
  fulls : AtEvery (fun e => ∃ k, e = .full k)
    (fun e a => e = .full 0 ∧ (puts a).length = freeds a + (num.toNat - 1)) s.log
  spaces : AtEvery (fun e => ∃ x k, e = .put x k)
    (fun e a => ∀ x k, e = .put x k →
      (puts a).length + 1 + k ≤ (gots a).length + (num.toNat - 1)) s.log
  counts : AtEvery (fun e => ∃ x k, e = .got x k)
    (fun e a => ∀ x k, e = .got x k → (gots a).length + 1 + k ≤ visibles a) s.log

theorem Tso.Inv.start {num sz : UInt32} {q : Queue} (hq : Queue.init num sz = some q)
    (hs : QSize num.toNat) (hb : num.toNat * sz.toNat ≤ 2 ^ 32) : (Tso.start q).Inv num sz := by
  obtain ⟨q', h1, h2, h3, h4⟩ := Queue.init_rep hb hs
  rw [hq] at h1; cases h1
  have hh := h2.head
  have ht := h2.tail
  rw [h3] at hh ht
  have hg := hs.ge
  exact {
    hnum := h3, hsz := h4, size := hs, small := hb
    mem := by have := h2.mem; rw [h3, h4] at this; exact this
    lens := by intro x hx; cases hx
    head := hh, tail := ht
    order := Nat.le_refl _
    pbuf := ⟨rfl, fun _ _ h => by cases h⟩
    cbuf := rfl
    room := by simp [Tso.start, PPc.busy, puts, freeds]; omega
    taken := rfl
    slots := by intro j x h1 h2; simp [Tso.start, visibles] at h2
    p := trivial, c := trivial
    empties := .nil, fulls := .nil, spaces := .nil, counts := .nil }

theorem qidx_lt {n : Nat} (hs : QSize n) {i : UInt32} {I : Nat} (h : i.toNat = I % n) :
    i.toNat < n := by
  rw [h]; exact Nat.mod_lt _ (by have := hs.ge; omega)

theorem choose_mem (t : Nat) (todo : List Nat) (i : Nat) :
    (t :: todo)[i % (todo.length + 1)]?.getD t ∈ t :: todo := by
  have h : i % (todo.length + 1) < (t :: todo).length := by
    simp only [List.length_cons]; exact Nat.mod_lt _ (by omega)
  rw [List.getElem?_eq_getElem h, Option.getD_some]
  exact List.getElem_mem h

theorem Tso.Inv.pstep {num sz : UInt32} {s : Tso} (h : s.Inv num sz) (i : Nat) :
    ∃ s', s.pstep i = .ok s' ∧ s'.Inv num sz := by
  obtain ⟨hnum, hsz, hsize, hsmall, hmem, hlens, hhead, htail, horder, hpbuf, hcbuf, hroom, htaken,
    hslots, hp, hc, hemp, hful, hspa, hcnt⟩ := h
  have hg := hsize.ge
  have hfT := hcbuf.le
  have hvP := hpbuf.le
  unfold Tso.pstep
  split
  · rename_i hpc
    rw [hpc] at hpbuf hroom hp
    exact ⟨s, rfl, ⟨hnum, hsz, hsize, hsmall, hmem, hlens, hhead, htail, horder, hpc ▸ hpbuf, hcbuf,
      hpc ▸ hroom, htaken, hslots, hpc ▸ hp, hc, hemp, hful, hspa, hcnt⟩⟩
  · rename_i item hpc
    rw [hpc] at hpbuf hroom hp
    exact ⟨_, rfl, ⟨hnum, hsz, hsize, hsmall, hmem, hlens, hhead, htail, horder, hpbuf, hcbuf,
      hroom, htaken, hslots, ⟨hp, hpbuf.fwdHead hhead⟩, hc, hemp, hful, hspa, hcnt⟩⟩
  · rename_i item head hpc
    rw [hpc] at hpbuf hroom hp
    simp only [PPc.busy, PPc.cur] at hroom hpbuf
    simp only [hpbuf.fwdTail, Option.getD_none]
    have hsp : (qSpace head s.q.tail s.q.num).toNat =
        num.toNat - 1 - ((puts s.log).length - freeds s.log) := by
      have := qSpace_toNat (head := head) (tail := s.q.tail) (size := num) (U := freeds s.log)
        (d := (puts s.log).length - freeds s.log) hsize
        (by rw [hp.2]; congr 1; omega) htail (by omega)
      rw [hnum]; exact this
    simp only [UInt32.ge_one_iff, hsp]
    split
    · refine ⟨_, rfl, ⟨hnum, hsz, hsize, hsmall, hmem, hlens, hhead, htail, horder, ?_, hcbuf,
        ?_, htaken, hslots, ⟨hp.1, hp.2, ?_, ?_⟩, hc, hemp, hful, hspa, hcnt⟩⟩
      · simp only [PPc.cur, hsz]; exact hpbuf.start item
      · simp only [PPc.busy]; omega
      · rw [hsz]; exact fun k hk => List.mem_range.1 hk
      · rw [UInt32.sub_one_toNat (by omega), hsp]; simp only; omega
    · refine ⟨_, rfl, ?_⟩
      have e1 : puts (s.log ++ [.full (num.toNat - 1 - ((puts s.log).length - freeds s.log))]) =
        puts s.log := by rw [puts_append]; simp [puts]
      have e2 : gots (s.log ++ [.full (num.toNat - 1 - ((puts s.log).length - freeds s.log))]) =
        gots s.log := by rw [gots_append]; simp [gots]
      have e3 : visibles (s.log ++
        [.full (num.toNat - 1 - ((puts s.log).length - freeds s.log))]) = visibles s.log := by
        rw [visibles_append]; simp [visibles]
      have e4 : freeds (s.log ++ [.full (num.toNat - 1 - ((puts s.log).length - freeds s.log))]) =
        freeds s.log := by rw [freeds_append]; simp [freeds]
      have e5 : seen (s.log ++ [.full (num.toNat - 1 - ((puts s.log).length - freeds s.log))]) =
        seen s.log := by rw [seen_append]; simp [seenFrom]
      refine ⟨hnum, hsz, hsize, hsmall, hmem, ?_, ?_, ?_, ?_, ?_, ?_, ?_, ?_, ?_, trivial, ?_,
        hemp.snoc (by rintro ⟨k, hk⟩; cases hk), hful.snoc ?_,
        hspa.snoc (by rintro ⟨x, k, hk⟩; cases hk), hcnt.snoc (by rintro ⟨x, k, hk⟩; cases hk)⟩ <;>
        try simp only [e1, e2, e3, e4, e5, PPc.busy, PPc.cur]
      all_goals first
        | assumption
        | skip
      rintro -
      refine ⟨by congr 1; omega, by omega⟩
  · rename_i item head space hpc
    rw [hpc] at hpbuf hroom hp
    simp only [PPc.busy, PPc.cur] at hroom hpbuf
    obtain ⟨p1, p2, -, p4⟩ := hp
    refine ⟨_, rfl, ?_⟩
    have e1 : puts (s.log ++ [.put item space.toNat]) = puts s.log ++ [item] := by
      rw [puts_append]; simp [puts]
    have e2 : gots (s.log ++ [.put item space.toNat]) = gots s.log := by
      rw [gots_append]; simp [gots]
    have e3 : visibles (s.log ++ [.put item space.toNat]) = visibles s.log := by
      rw [visibles_append]; simp [visibles]
    have e4 : freeds (s.log ++ [.put item space.toNat]) = freeds s.log := by
      rw [freeds_append]; simp [freeds]
    have e5 : seen (s.log ++ [.put item space.toNat]) = seen s.log := by
      rw [seen_append]; simp [seenFrom]
    refine ⟨hnum, hsz, hsize, hsmall, hmem, ?_, ?_, ?_, ?_, ?_, ?_, ?_, ?_, ?_, trivial, ?_,
      hemp.snoc (by rintro ⟨k, hk⟩; cases hk), hful.snoc (by rintro ⟨k, hk⟩; cases hk),
      hspa.snoc ?_, hcnt.snoc (by rintro ⟨x, k, hk⟩; cases hk)⟩ <;>
      try simp only [e1, e2, e3, e4, e5, PPc.busy, PPc.cur]
    · intro x hx
      rcases List.mem_append.1 hx with hx | hx
      · exact hlens x hx
      · rw [List.mem_singleton.1 hx]; exact p1
    · exact hhead
    · exact htail
    · exact horder
    · rw [hnum]; exact hpbuf.publish (qNext_toNat hsize p2)
    · exact hcbuf
    · simp; omega
    · rw [List.take_append_of_le_length (by omega)]; exact htaken
    · intro j x hj1 hj2 hx
      rw [List.getElem?_append_left (by omega)] at hx
      exact hslots j x hj1 hj2 hx
    · revert hc
      cases s.c with
      | idle => exact id
      | loadHead => exact id
      | loadTail => exact id
      | copy tail count buf todo =>
        rintro ⟨c1, c2, c3, c4, c5⟩
        refine ⟨c1, c2, c3, c4, fun x hx => c5 x ?_⟩
        rwa [List.getElem?_append_left (by omega)] at hx
      | store tail count buf =>
        rintro ⟨c1, c2, c3⟩
        exact ⟨c1, c2, by rwa [List.getElem?_append_left (by omega)]⟩
    · rintro - x k hk
      cases hk
      omega
  · rename_i item head space t todo hpc
    rw [hpc] at hpbuf hroom hp
    simp only [PPc.busy, PPc.cur] at hroom hpbuf
    obtain ⟨p1, p2, p3, p4⟩ := hp
    have hk := choose_mem t todo i
    generalize (t :: todo)[i % (todo.length + 1)]?.getD t = k at hk
    have hks := p3 k hk
    simp only [List.getElem?_eq_getElem (show k < item.length by omega)]
    refine ⟨_, rfl, ⟨hnum, hsz, hsize, hsmall, hmem, hlens, hhead, htail, horder, ?_, hcbuf,
        hroom, htaken, hslots, ⟨p1, p2, ?_, p4⟩, hc, hemp, hful, hspa, hcnt⟩⟩
    · simp only [PPc.cur, hsz]
      rw [offset_any (qidx_lt hsize p2) hsmall, p2]
      exact hpbuf.byte hmem (by omega) hks (List.getElem?_eq_getElem _)
    · exact fun k' hk' => p3 k' (List.mem_of_mem_erase hk')

theorem Tso.Inv.cstep {num sz : UInt32} {s : Tso} (h : s.Inv num sz) (i : Nat) :
    ∃ s', s.cstep i = .ok s' ∧ s'.Inv num sz := by
  obtain ⟨hnum, hsz, hsize, hsmall, hmem, hlens, hhead, htail, horder, hpbuf, hcbuf, hroom, htaken,
    hslots, hp, hc, hemp, hful, hspa, hcnt⟩ := h
  have hg := hsize.ge
  have hfT := hcbuf.le
  have hvP := hpbuf.le
  unfold Tso.cstep
  split
  · exact ⟨s, rfl, ⟨hnum, hsz, hsize, hsmall, hmem, hlens, hhead, htail, horder, hpbuf, hcbuf,
      hroom, htaken, hslots, hp, hc, hemp, hful, hspa, hcnt⟩⟩
  · rename_i hpc
    refine ⟨_, rfl, ?_⟩
    have e1 : puts (s.log ++ [.look]) = puts s.log := by rw [puts_append]; simp [puts]
    have e2 : gots (s.log ++ [.look]) = gots s.log := by rw [gots_append]; simp [gots]
    have e3 : visibles (s.log ++ [.look]) = visibles s.log := by
      rw [visibles_append]; simp [visibles]
    have e4 : freeds (s.log ++ [.look]) = freeds s.log := by rw [freeds_append]; simp [freeds]
    have e5 : seen (s.log ++ [.look]) = visibles s.log := by rw [seen_append]; simp [seenFrom]
    refine ⟨hnum, hsz, hsize, hsmall, hmem, ?_, ?_, ?_, ?_, ?_, ?_, ?_, ?_, ?_, ?_, ?_,
      hemp.snoc (by rintro ⟨k, hk⟩; cases hk), hful.snoc (by rintro ⟨k, hk⟩; cases hk),
      hspa.snoc (by rintro ⟨x, k, hk⟩; cases hk), hcnt.snoc (by rintro ⟨x, k, hk⟩; cases hk)⟩ <;>
      try simp only [e1, e2, e3, e4, e5]
    all_goals first
      | assumption
      | skip
    rw [hcbuf.fwdHead]
    exact ⟨hhead, horder, Nat.le_refl _⟩
  · rename_i head hpc
    rw [hpc] at hc
    obtain ⟨c1, c2, c3⟩ := hc
    generalize ht : (fwdTail s.cbuf).getD s.q.tail = tl
    have htl : tl.toNat = (gots s.log).length % num.toNat := by
      rw [← ht]; exact hcbuf.fwdTail htail
    have hct : (qCount head tl s.q.num).toNat = seen s.log - (gots s.log).length := by
      rw [hnum]
      exact qCount_toNat hsize (by rw [c1]; congr 1; omega) htl (by omega)
    simp only [UInt32.ge_one_iff, hct]
    split
    · refine ⟨_, rfl, ⟨hnum, hsz, hsize, hsmall, hmem, hlens, hhead, htail, horder, hpbuf, hcbuf,
        hroom, htaken, hslots, hp, ⟨htl, ?_, ?_, ?_, ?_⟩, hemp, hful, hspa, hcnt⟩⟩
      · rw [UInt32.sub_one_toNat (by omega), hct]; simp only; omega
      · simp [hsz]
      · rw [hsz]; exact fun k hk => List.mem_range.1 hk
      · rw [hsz]; intro x hx i hi hn
        exact absurd (List.mem_range.2 hi) hn
    · refine ⟨_, rfl, ?_⟩
      generalize hz : seen s.log - (gots s.log).length = z
      have e1 : puts (s.log ++ [.empty z]) = puts s.log := by rw [puts_append]; simp [puts]
      have e2 : gots (s.log ++ [.empty z]) = gots s.log := by rw [gots_append]; simp [gots]
      have e3 : visibles (s.log ++ [.empty z]) = visibles s.log := by
        rw [visibles_append]; simp [visibles]
      have e4 : freeds (s.log ++ [.empty z]) = freeds s.log := by
        rw [freeds_append]; simp [freeds]
      have e5 : seen (s.log ++ [.empty z]) = seen s.log := by
        rw [seen_append]; simp [seenFrom]
      refine ⟨hnum, hsz, hsize, hsmall, hmem, ?_, ?_, ?_, ?_, ?_, ?_, ?_, ?_, ?_, ?_, trivial,
        hemp.snoc ?_, hful.snoc (by rintro ⟨k, hk⟩; cases hk),
        hspa.snoc (by rintro ⟨x, k, hk⟩; cases hk), hcnt.snoc (by rintro ⟨x, k, hk⟩; cases hk)⟩ <;>
        try simp only [e1, e2, e3, e4]
      all_goals first
        | assumption
        | skip
      rintro -
      refine ⟨by congr 1; omega, by omega⟩
  · rename_i tail count buf hpc
    rw [hpc] at hc
    obtain ⟨c1, c2, c3, c4, c5⟩ := hc
    split
    · refine ⟨_, rfl, ⟨hnum, hsz, hsize, hsmall, hmem, hlens, hhead, htail, horder, hpbuf, hcbuf,
        hroom, htaken, hslots, hp, ⟨c1, c2, ?_⟩, hemp, hful, hspa, hcnt⟩⟩
      have hT : (gots s.log).length < (puts s.log).length := by omega
      rw [List.getElem?_eq_getElem hT]
      have hl := hlens _ (List.getElem_mem hT)
      have hx := c5 _ (List.getElem?_eq_getElem hT)
      congr 1
      apply List.ext_getElem?
      intro j
      by_cases hj : j < sz.toNat
      · exact (hx j hj (by simp)).symm
      · rw [List.getElem?_eq_none (by omega), List.getElem?_eq_none (by omega)]
    · exact ⟨s, rfl, ⟨hnum, hsz, hsize, hsmall, hmem, hlens, hhead, htail, horder, hpbuf, hcbuf,
        hroom, htaken, hslots, hp, hpc ▸ ⟨c1, c2, c3, c4, c5⟩, hemp, hful, hspa, hcnt⟩⟩
  · rename_i tail count buf t todo hpc
    rw [hpc] at hc
    obtain ⟨c1, c2, c3, c4, c5⟩ := hc
    have hk := choose_mem t todo i
    generalize (t :: todo)[i % (todo.length + 1)]?.getD t = k at hk
    have hks := c4 k hk
    simp only [hcbuf.fwdData, Option.none_or, hsz]
    rw [offset_any (qidx_lt hsize c1) hsmall, c1]
    have hT : (gots s.log).length < (puts s.log).length := by omega
    have hl := hlens _ (List.getElem_mem hT)
    have hx := List.getElem?_eq_getElem hT
    have hread := hslots _ _ (Nat.le_refl _) (by omega) hx k hks
    rw [List.getElem?_eq_getElem (l := (puts s.log)[(gots s.log).length]) (i := k) (by omega)]
      at hread
    rw [hread]
    refine ⟨_, rfl, ⟨hnum, hsz, hsize, hsmall, hmem, hlens, hhead, htail, horder, hpbuf, hcbuf,
        hroom, htaken, hslots, hp, ⟨c1, c2, by simp [c3], ?_, ?_⟩, hemp, hful, hspa, hcnt⟩⟩
    · exact fun k' hk' => c4 k' (List.mem_of_mem_erase hk')
    · intro x hx' j hj hn
      simp only at hx'
      rw [hx] at hx'; cases hx'
      by_cases hjk : j = k
      · subst hjk
        rw [List.getElem?_set_self (by omega), List.getElem?_eq_getElem (by omega)]
      · rw [List.getElem?_set_ne (by omega)]
        exact c5 _ hx j hj (fun hm => hn ((List.mem_erase_of_ne hjk).2 hm))
  · rename_i tail count buf hpc
    rw [hpc] at hc
    obtain ⟨c1, c2, c3⟩ := hc
    refine ⟨_, rfl, ?_⟩
    have e1 : puts (s.log ++ [.got buf count.toNat]) = puts s.log := by
      rw [puts_append]; simp [puts]
    have e2 : gots (s.log ++ [.got buf count.toNat]) = gots s.log ++ [buf] := by
      rw [gots_append]; simp [gots]
    have e3 : visibles (s.log ++ [.got buf count.toNat]) = visibles s.log := by
      rw [visibles_append]; simp [visibles]
    have e4 : freeds (s.log ++ [.got buf count.toNat]) = freeds s.log := by
      rw [freeds_append]; simp [freeds]
    have hT : (gots s.log).length < (puts s.log).length := by omega
    refine ⟨hnum, hsz, hsize, hsmall, hmem, ?_, ?_, ?_, ?_, ?_, ?_, ?_, ?_, ?_, ?_, trivial,
      hemp.snoc (by rintro ⟨k, hk⟩; cases hk), hful.snoc (by rintro ⟨k, hk⟩; cases hk),
      hspa.snoc (by rintro ⟨x, k, hk⟩; cases hk), hcnt.snoc ?_⟩ <;>
      try simp only [e1, e2, e3, e4, List.length_append, List.length_singleton]
    all_goals first
      | assumption
      | skip
    · omega
    · rw [hnum]; exact hcbuf.push (qNext_toNat hsize c1)
    · rw [List.take_succ, ← htaken, c3]; rfl
    · intro j x hj1 hj2 hx
      exact hslots j x (by omega) hj2 hx
    · rintro - x k hk
      cases hk
      omega

theorem Tso.Inv.pflush {num sz : UInt32} {s : Tso} (h : s.Inv num sz) :
    ∃ s', s.step .pflush = .ok s' ∧ s'.Inv num sz := by
  have h' := h
  obtain ⟨hnum, hsz, hsize, hsmall, hmem, hlens, hhead, htail, horder, hpbuf, hcbuf, hroom, htaken,
    hslots, hp, hc, hemp, hful, hspa, hcnt⟩ := h
  have hg := hsize.ge
  have hfT := hcbuf.le
  have hvP := hpbuf.le
  unfold Tso.step
  simp only
  split
  · exact ⟨s, rfl, h'⟩
  · rename_i st rest hb
    rw [hb] at hpbuf
    cases st with
    | data off b =>
      obtain ⟨⟨i, hi, rfl⟩, hrest⟩ := hpbuf
      have hfit := slot_fits (a := visibles s.log % num.toNat) (n := num.toNat) (i := i)
        (Nat.mod_lt _ (by omega)) hi
      simp only [Tso.commit, if_pos (by omega : visibles s.log % num.toNat * sz.toNat + i <
        s.q.data.length), Exec.ok_bind, Tso.commitEv, List.append_nil]
      refine ⟨_, rfl, ⟨hnum, hsz, hsize, hsmall, by simp [hmem], hlens, hhead, htail, horder, hrest,
        hcbuf, hroom, htaken, ?_, hp, hc, hemp, hful, hspa, hcnt⟩⟩
      intro j x hj1 hj2 hx i' hi'
      have hj1 : (gots s.log).length ≤ j := hj1
      have hj2 : j < visibles s.log := hj2
      simp only
      rw [List.getElem?_set_ne, hslots j x hj1 hj2 hx i' hi']
      intro he
      obtain ⟨e1, -⟩ := slot_inj hi hi' he
      have := mod_inj_of_close (n := num.toNat) (a := j) (b := visibles s.log) (by omega)
        (by omega) e1.symm
      omega
    | head v =>
      obtain ⟨g1, g2, g3, hrest⟩ := hpbuf
      simp only [Tso.commit, Exec.ok_bind, Tso.commitEv]
      have e1 : puts (s.log ++ [.visible]) = puts s.log := by rw [puts_append]; simp [puts]
      have e2 : gots (s.log ++ [.visible]) = gots s.log := by rw [gots_append]; simp [gots]
      have e3 : visibles (s.log ++ [.visible]) = visibles s.log + 1 := by
        rw [visibles_append]; simp [visibles]
      have e4 : freeds (s.log ++ [.visible]) = freeds s.log := by
        rw [freeds_append]; simp [freeds]
      have e5 : seen (s.log ++ [.visible]) = seen s.log := by rw [seen_append]; simp [seenFrom]
      refine ⟨_, rfl, ?_⟩
      refine ⟨hnum, hsz, hsize, hsmall, hmem, ?_, ?_, ?_, ?_, ?_, ?_, ?_, ?_, ?_, ?_, ?_,
        hemp.snoc (by rintro ⟨k, hk⟩; cases hk), hful.snoc (by rintro ⟨k, hk⟩; cases hk),
        hspa.snoc (by rintro ⟨x, k, hk⟩; cases hk), hcnt.snoc (by rintro ⟨x, k, hk⟩; cases hk)⟩ <;>
        try simp only [e1, e2, e3, e4, e5]
      all_goals first
        | assumption
        | skip
      · omega
      · intro j x hj1 hj2 hx
        by_cases hj : j < visibles s.log
        · exact hslots j x hj1 hj hx
        · have : j = visibles s.log := by omega
          subst this
          exact g3 x hx
      · revert hc
        cases s.c with
        | idle => exact id
        | loadHead => exact id
        | loadTail => rintro ⟨c1, c2, c3⟩; exact ⟨c1, c2, by omega⟩
        | copy tail count buf todo =>
          rintro ⟨c1, c2, c3, c4, c5⟩
          exact ⟨c1, by omega, c3, c4, c5⟩
        | store tail count buf =>
          rintro ⟨c1, c2, c3⟩
          exact ⟨c1, by omega, c3⟩
    | tail t => exact hpbuf.elim

theorem Tso.Inv.cflush {num sz : UInt32} {s : Tso} (h : s.Inv num sz) :
    ∃ s', s.step .cflush = .ok s' ∧ s'.Inv num sz := by
  have h' := h
  obtain ⟨hnum, hsz, hsize, hsmall, hmem, hlens, hhead, htail, horder, hpbuf, hcbuf, hroom, htaken,
    hslots, hp, hc, hemp, hful, hspa, hcnt⟩ := h
  have hg := hsize.ge
  have hfT := hcbuf.le
  have hvP := hpbuf.le
  unfold Tso.step
  simp only
  split
  · exact ⟨s, rfl, h'⟩
  · rename_i st rest hb
    rw [hb] at hcbuf
    cases st with
    | data off b => exact hcbuf.elim
    | head v => exact hcbuf.elim
    | tail t =>
      obtain ⟨g1, hrest⟩ := hcbuf
      simp only [Tso.commit, Exec.ok_bind, Tso.commitEv]
      have e1 : puts (s.log ++ [.freed]) = puts s.log := by rw [puts_append]; simp [puts]
      have e2 : gots (s.log ++ [.freed]) = gots s.log := by rw [gots_append]; simp [gots]
      have e3 : visibles (s.log ++ [.freed]) = visibles s.log := by
        rw [visibles_append]; simp [visibles]
      have e4 : freeds (s.log ++ [.freed]) = freeds s.log + 1 := by
        rw [freeds_append]; simp [freeds]
      have e5 : seen (s.log ++ [.freed]) = seen s.log := by rw [seen_append]; simp [seenFrom]
      refine ⟨_, rfl, ?_⟩
      refine ⟨hnum, hsz, hsize, hsmall, hmem, ?_, ?_, ?_, ?_, ?_, ?_, ?_, ?_, ?_, ?_, ?_,
        hemp.snoc (by rintro ⟨k, hk⟩; cases hk), hful.snoc (by rintro ⟨k, hk⟩; cases hk),
        hspa.snoc (by rintro ⟨x, k, hk⟩; cases hk), hcnt.snoc (by rintro ⟨x, k, hk⟩; cases hk)⟩ <;>
        try simp only [e1, e2, e3, e4, e5]
      all_goals first
        | assumption
        | skip
      · omega
      · revert hp
        cases s.p with
        | idle => exact id
        | loadHead => exact id
        | loadTail => exact id
        | copy item head space todo =>
          rintro ⟨p1, p2, p3, p4⟩
          exact ⟨p1, p2, p3, by omega⟩

theorem Tso.Inv.step {num sz : UInt32} {s : Tso} (h : s.Inv num sz) (a : TsoAct) :
    ∃ s', s.step a = .ok s' ∧ s'.Inv num sz := by
  cases a with
  | insert item =>
    have h' := h
    obtain ⟨hnum, hsz, hsize, hsmall, hmem, hlens, hhead, htail, horder, hpbuf, hcbuf, hroom,
      htaken, hslots, hp, hc, hemp, hful, hspa, hcnt⟩ := h
    unfold Tso.step
    simp only
    split
    · rename_i hi
      rw [hi.1] at hpbuf hroom
      exact ⟨_, rfl, ⟨hnum, hsz, hsize, hsmall, hmem, hlens, hhead, htail, horder, hpbuf, hcbuf,
        hroom, htaken, hslots, by rw [← hsz]; exact hi.2, hc, hemp, hful, hspa, hcnt⟩⟩
    · exact ⟨s, rfl, h'⟩
  | pstep i => exact h.pstep i
  | pflush => exact h.pflush
  | remove =>
    have h' := h
    obtain ⟨hnum, hsz, hsize, hsmall, hmem, hlens, hhead, htail, horder, hpbuf, hcbuf, hroom,
      htaken, hslots, hp, hc, hemp, hful, hspa, hcnt⟩ := h
    unfold Tso.step
    simp only
    split
    · exact ⟨_, rfl, ⟨hnum, hsz, hsize, hsmall, hmem, hlens, hhead, htail, horder, hpbuf, hcbuf,
        hroom, htaken, hslots, hp, trivial, hemp, hful, hspa, hcnt⟩⟩
    · exact ⟨s, rfl, h'⟩
  | cstep i => exact h.cstep i
  | cflush => exact h.cflush

theorem Tso.Inv.run {num sz : UInt32} {s : Tso} (h : s.Inv num sz) (as : List TsoAct) :
    ∃ s', s.run as = .ok s' ∧ s'.Inv num sz := by
  induction as generalizing s with
  | nil => exact ⟨s, rfl, h⟩
  | cons a as ih =>
    obtain ⟨s1, h1, h2⟩ := h.step a
    obtain ⟨s', h3, h4⟩ := ih h2
    exact ⟨s', by rw [Tso.run, h1, Exec.ok_bind, h3], h4⟩

end Fstrm
