import Verif.Spec.Wire
import Verif.Model.Control

/-! Helper lemmas about bytes and the control frame codec. -/

set_option autoImplicit false

namespace Fstrm

open Spec (be32 CType CFrame field wireBytes)

theorem htonl_eq (n : Nat) : htonl n = be32 n := rfl

@[simp] theorem length_htonl (n : Nat) : (htonl n).length = 4 := rfl
@[simp] theorem length_be32 (n : Nat) : (be32 n).length = 4 := rfl

theorem ntohl_htonl {n : Nat} (h : n < 2^32) : ntohl (htonl n) = n := by
  simp only [ntohl, htonl, UInt8.toNat_ofNat']
  omega

theorem ntohl_lt (bs : Bytes) : ntohl bs < 2^32 := by
  match bs with
  | [a, b, c, d] =>
    have := a.toNat_lt; have := b.toNat_lt; have := c.toNat_lt; have := d.toNat_lt
    simp only [ntohl]; omega
  | [] => simp [ntohl]
  | [_] => simp [ntohl]
  | [_, _] => simp [ntohl]
  | [_, _, _] => simp [ntohl]
  | _ :: _ :: _ :: _ :: _ :: _ => simp [ntohl]

theorem htonl_ntohl {bs : Bytes} (h : bs.length = 4) : htonl (ntohl bs) = bs := by
  match bs, h with
  | [a, b, c, d], _ =>
    have := a.toNat_lt; have := b.toNat_lt; have := c.toNat_lt; have := d.toNat_lt
    simp only [htonl, ntohl, List.cons.injEq, and_true]
    refine ⟨?_, ?_, ?_, ?_⟩ <;>
      (apply UInt8.toNat_inj.mp; simp only [UInt8.toNat_ofNat']; omega)

theorem htonl_inj {m n : Nat} (hm : m < 2^32) (hn : n < 2^32) (h : htonl m = htonl n) : m = n := by
  have := congrArg ntohl h
  rwa [ntohl_htonl hm, ntohl_htonl hn] at this

theorem length_field (ct : Bytes) : (field ct).length = 8 + ct.length := by
  simp [field]; omega

theorem CType.code_lt (t : CType) : t.code < 2^32 := by cases t <;> simp [CType.code]

theorem knownType_iff (n : Nat) : knownType n = true ↔ ∃ t : CType, t.code = n := by
  constructor
  · intro h
    simp only [knownType, T_ACCEPT, T_START, T_STOP, T_READY, T_FINISH, Bool.or_eq_true,
      beq_iff_eq] at h
    rcases h with (((h | h) | h) | h) | h
    · exact ⟨.accept, h.symm⟩
    · exact ⟨.start, h.symm⟩
    · exact ⟨.stop, h.symm⟩
    · exact ⟨.ready, h.symm⟩
    · exact ⟨.finish, h.symm⟩
  · rintro ⟨t, rfl⟩; cases t <;> rfl

@[simp] theorem knownType_code (t : CType) : knownType t.code = true := (knownType_iff _).2 ⟨t, rfl⟩

theorem CType.code_inj {s t : CType} (h : s.code = t.code) : s = t := by
  cases s <;> cases t <;> simp_all [CType.code]

theorem visible_of_WF {f : CFrame} (h : f.WF) : f.type.visible f.cts = f.cts := by
  obtain ⟨t, cts⟩ := f
  have h2 := h.2
  cases t
  · rfl
  · exact List.take_of_length_le (h2 1 rfl)
  · exact (List.eq_nil_of_length_eq_zero (Nat.le_zero.1 (h2 0 rfl))).symm
  · rfl
  · exact (List.eq_nil_of_length_eq_zero (Nat.le_zero.1 (h2 0 rfl))).symm

/-! ### Loads and stores -/

theorem fsLoadBe32_eq {mem : Bytes} {len : Nat} (h : len ≤ mem.length) :
    fsLoadBe32 ⟨mem, len⟩ =
      if len < 4 then .ok none
      else .ok (some (ntohl (mem.take 4), ⟨mem.drop 4, len - 4⟩)) := by
  unfold fsLoadBe32 memRead
  split
  · rfl
  · rw [if_neg (by simp_all; omega)]; rfl

theorem fsLoadBytes_eq {mem : Bytes} {n len : Nat} (h : len ≤ mem.length) :
    fsLoadBytes n ⟨mem, len⟩ =
      if len < n then .ok none
      else .ok (some (mem.take n, ⟨mem.drop n, len - n⟩)) := by
  unfold fsLoadBytes memRead
  split
  · rfl
  · rw [if_neg (by simp_all; omega)]; rfl

theorem fsStoreBytes_eq {d mem bs : Bytes} {len : Nat} (h : len ≤ mem.length) :
    fsStoreBytes ⟨d, mem, len⟩ bs =
      if len < bs.length then .ok none
      else .ok (some ⟨d ++ bs, mem.drop bs.length, len - bs.length⟩) := by
  unfold fsStoreBytes
  split
  · rfl
  · rw [if_neg (by simp_all; omega)]

/-! ### Decoding -/

/-- Splitting off a 4-byte word. -/
theorem take_four_add {mem : Bytes} {len : Nat} (h4 : 4 ≤ len) (h : len ≤ mem.length) :
    mem.take len = htonl (ntohl (mem.take 4)) ++ (mem.drop 4).take (len - 4) := by
  rw [htonl_ntohl (by simp; omega)]
  have : len = 4 + (len - 4) := by omega
  conv => lhs; rw [this]
  rw [List.take_add]

theorem checkCount_success (c : Control) (t : CType) (ht : c.type = t.code) :
    c.checkCount = .success ↔ ∀ m, t.maxCts = some m → c.cts.length ≤ m := by
  cases t <;>
    simp [Control.checkCount, CType.code, CType.maxCts, ht, T_START, T_STOP, T_FINISH]

theorem checkCount_cases (c : Control) : c.checkCount = .success ∨ c.checkCount = .failure := by
  unfold Control.checkCount; split <;> (try split) <;> (try split) <;> simp

/-- The field loop terminates normally, with success or failure. -/
theorem decodeFields_ok : ∀ (fuel : Nat) (mem : Bytes) (len : Nat) (c : Control),
    len ≤ mem.length → len < fuel →
    ∃ r c', Control.decodeFields fuel ⟨mem, len⟩ c = .ok (r, c') ∧
      (r = .success ∨ r = .failure) := by
  intro fuel
  induction fuel with
  | zero => intro mem len c _ h; omega
  | succ fuel ih =>
    intro mem len c hl hf
    unfold Control.decodeFields
    by_cases h0 : len = 0
    · simp only [h0, if_true]
      exact ⟨_, _, rfl, checkCount_cases c⟩
    · simp only [h0, if_false, fsLoadBe32_eq hl]
      by_cases h4 : len < 4
      · simp only [h4, if_true, bind, Except.bind]; exact ⟨_, _, rfl, Or.inr rfl⟩
      · simp only [h4, if_false, bind, Except.bind]
        split
        · have hl2 : len - 4 ≤ (mem.drop 4).length := by simp; omega
          rw [fsLoadBe32_eq hl2]
          by_cases h8 : len - 4 < 4
          · simp only [h8, if_true]; exact ⟨_, _, rfl, Or.inr rfl⟩
          · simp only [h8, if_false]
            split
            · exact ⟨_, _, rfl, Or.inr rfl⟩
            · split
              · exact ⟨_, _, rfl, Or.inr rfl⟩
              · rename_i hn _
                have hl3 : len - 4 - 4 ≤ ((mem.drop 4).drop 4).length := by simp; omega
                rw [fsLoadBytes_eq hl3, if_neg (by omega)]
                simp only
                apply ih
                · simp; omega
                · omega
        · exact ⟨_, _, rfl, Or.inr rfl⟩

theorem field_append_inj {a b : Bytes} {s t : Bytes} (ha : a.length < 2^32) (hb : b.length < 2^32)
    (h : field a ++ s = field b ++ t) : a = b ∧ s = t := by
  simp only [field, List.append_assoc, ← htonl_eq] at h
  have h1 := (List.append_inj h (by simp)).2
  have h2 := List.append_inj h1 (by simp)
  have h3 := htonl_inj ha hb h2.1
  exact List.append_inj h2.2 h3

/-- The field loop succeeds exactly on a concatenation of fields. -/
theorem decodeFields_iff : ∀ (fuel : Nat) (mem : Bytes) (len : Nat) (c c' : Control),
    len ≤ mem.length → len < fuel →
    (Control.decodeFields fuel ⟨mem, len⟩ c = .ok (.success, c') ↔
      ∃ l : List Bytes, mem.take len = l.flatMap field ∧ (∀ ct ∈ l, ct.length ≤ 256) ∧
        c' = ⟨c.type, c.cts ++ l⟩ ∧ c'.checkCount = .success) := by
  intro fuel
  induction fuel with
  | zero => intro mem len c c' _ h; omega
  | succ fuel ih =>
    intro mem len c c' hl hf
    unfold Control.decodeFields
    by_cases h0 : len = 0
    · subst h0
      simp only [if_true, List.take_zero]
      constructor
      · intro h
        simp only [Except.ok.injEq, Prod.mk.injEq] at h
        refine ⟨[], rfl, by simp, ?_, ?_⟩
        · rw [← h.2]; simp
        · rw [← h.2]; exact h.1
      · rintro ⟨l, h1, _, h3, h4⟩
        have : l = [] := by
          cases l with
          | nil => rfl
          | cons a l => simp [field, be32] at h1
        subst this
        simp only [List.append_nil] at h3
        subst h3
        simp only [Except.ok.injEq, Prod.mk.injEq, and_true]
        exact h4
    · have hne : ∀ l : List Bytes, mem.take len = l.flatMap field → ∃ a l', l = a :: l' := by
        intro l h
        cases l with
        | nil =>
          have := congrArg List.length h
          rw [List.length_take, Nat.min_eq_left hl] at this
          exact absurd this h0
        | cons a l' => exact ⟨a, l', rfl⟩
      simp only [h0, if_false, fsLoadBe32_eq hl]
      have hlen : ∀ a (l' : List Bytes), mem.take len = (a :: l').flatMap field → 8 + a.length ≤ len := by
        intro a l' h
        have := congrArg List.length h
        simp [length_field] at this; omega
      by_cases h4 : len < 4
      · simp only [h4, if_true, bind, Except.bind]
        constructor
        · intro h; simp at h
        · rintro ⟨l, h1, _⟩
          obtain ⟨a, l', rfl⟩ := hne l h1
          have := hlen _ _ h1; omega
      · simp only [h4, if_false, bind, Except.bind]
        have ht := take_four_add (by omega : 4 ≤ len) hl
        have hl2 : len - 4 ≤ (mem.drop 4).length := by simp; omega
        by_cases hv : ntohl (mem.take 4) = F_CONTENT_TYPE
        · simp only [hv, if_true]
          rw [fsLoadBe32_eq hl2]
          by_cases h8 : len - 4 < 4
          · simp only [h8, if_true]
            constructor
            · intro h; simp at h
            · rintro ⟨l, h1, _⟩
              obtain ⟨a, l', rfl⟩ := hne l h1
              have := hlen _ _ h1; omega
          · simp only [h8, if_false]
            have ht2 := take_four_add (by omega : 4 ≤ len - 4) hl2
            generalize hn : ntohl ((mem.drop 4).take 4) = n at *
            -- what any decomposition looks like
            have hdec : ∀ a (l' : List Bytes), mem.take len = (a :: l').flatMap field →
                a.length < 2^32 → n = a.length ∧
                ((mem.drop 4).drop 4).take (len - 4 - 4) = a ++ l'.flatMap field := by
              intro a l' h ha
              rw [ht, ht2, hv] at h
              simp only [List.flatMap_cons, field, List.append_assoc, ← htonl_eq] at h
              have h1 := (List.append_inj h (by simp)).2
              have h2 := List.append_inj h1 (by simp)
              have hnlt : n < 2^32 := by rw [← hn]; exact ntohl_lt _
              exact ⟨htonl_inj hnlt ha h2.1, h2.2⟩
            by_cases hn1 : n > len - 4 - 4
            · simp only [hn1, if_true]
              constructor
              · intro h; simp at h
              · rintro ⟨l, h1, h2, _⟩
                obtain ⟨a, l', rfl⟩ := hne l h1
                have h5 := hlen _ _ h1
                have h6 := h2 a (by simp)
                have h7 := (hdec a l' h1 (by omega)).1
                omega
            · simp only [hn1, if_false]
              by_cases hn2 : n > CT_LENGTH_MAX
              · simp only [hn2, if_true]
                constructor
                · intro h; simp at h
                · rintro ⟨l, h1, h2, _⟩
                  obtain ⟨a, l', rfl⟩ := hne l h1
                  have h6 := h2 a (by simp)
                  have h7 := (hdec a l' h1 (by omega)).1
                  simp only [CT_LENGTH_MAX] at hn2
                  omega
              · simp only [hn2, if_false]
                have hl3 : len - 4 - 4 ≤ ((mem.drop 4).drop 4).length := by simp; omega
                rw [fsLoadBytes_eq hl3, if_neg (by omega)]
                simp only
                rw [ih _ _ _ _ (by simp; omega) (by omega)]
                generalize hm : (mem.drop 4).drop 4 = m at *
                have hsplit : m.take (len - 4 - 4) = m.take n ++ (m.drop n).take (len - 4 - 4 - n) := by
                  have : len - 4 - 4 = n + (len - 4 - 4 - n) := by omega
                  conv => lhs; rw [this]
                  rw [List.take_add]
                have hnl : (m.take n).length = n := by simp; omega
                constructor
                · rintro ⟨l, h1, h2, h3, h5⟩
                  refine ⟨m.take n :: l, ?_, ?_, ?_, h5⟩
                  · rw [ht, ht2, hv, hsplit, h1]
                    simp only [List.flatMap_cons, field, hnl, ← htonl_eq, F_CONTENT_TYPE,
                      List.append_assoc]
                  · intro ct hct
                    simp only [List.mem_cons] at hct
                    rcases hct with rfl | hct
                    · simp only [CT_LENGTH_MAX] at hn2; omega
                    · exact h2 ct hct
                  · simpa using h3
                · rintro ⟨l, h1, h2, h3, h5⟩
                  obtain ⟨a, l', rfl⟩ := hne l h1
                  have h6 := h2 a (by simp)
                  obtain ⟨h7, h8⟩ := hdec a l' h1 (by omega)
                  rw [hsplit] at h8
                  have h9 := List.append_inj h8 (by omega)
                  refine ⟨l', h9.2, fun ct hct => h2 ct (by simp [hct]), ?_, h5⟩
                  rw [h9.1]; simpa using h3
        · simp only [hv, if_false]
          constructor
          · intro h; simp at h
          · rintro ⟨l, h1, _⟩
            exfalso
            obtain ⟨a, l', rfl⟩ := hne l h1
            rw [ht] at h1
            simp only [List.flatMap_cons, field, List.append_assoc, ← htonl_eq] at h1
            exact hv (htonl_inj (ntohl_lt _) (by decide) (List.append_inj h1 (by simp)).1)

theorem decodeBody_ok (mem : Bytes) (len : Nat) (c : Control) (hl : len ≤ mem.length) :
    ∃ r c', Control.decodeBody ⟨mem, len⟩ c = .ok (r, c') ∧ (r = .success ∨ r = .failure) := by
  unfold Control.decodeBody
  rw [fsLoadBe32_eq hl]
  by_cases h4 : len < 4
  · simp only [h4, if_true, bind, Except.bind]; exact ⟨_, _, rfl, Or.inr rfl⟩
  · simp only [h4, if_false, bind, Except.bind]
    split
    · apply decodeFields_ok
      · simp; omega
      · simp
    · exact ⟨_, _, rfl, Or.inr rfl⟩

theorem decodeBody_iff (mem : Bytes) (len : Nat) (c' : Control) (hl : len ≤ mem.length) :
    Control.decodeBody ⟨mem, len⟩ ⟨0, []⟩ = .ok (.success, c') ↔
      ∃ f : CFrame, f.WF ∧ mem.take len = f.payload ∧ c' = ⟨f.type.code, f.cts⟩ := by
  unfold Control.decodeBody
  rw [fsLoadBe32_eq hl]
  by_cases h4 : len < 4
  · simp only [h4, if_true, bind, Except.bind]
    constructor
    · intro h; simp at h
    · rintro ⟨f, _, h, _⟩
      have := congrArg List.length h
      simp [CFrame.payload] at this; omega
  · simp only [h4, if_false, bind, Except.bind]
    have ht := take_four_add (by omega : 4 ≤ len) hl
    have hl2 : len - 4 ≤ (mem.drop 4).length := by simp; omega
    split
    · rename_i hk
      obtain ⟨t, hkt⟩ := (knownType_iff _).1 hk
      rw [← hkt]
      rw [decodeFields_iff _ _ _ _ _ hl2 (by omega)]
      constructor
      · rintro ⟨l, h1, h2, h3, h5⟩
        refine ⟨⟨t, l⟩, ⟨h2, ?_⟩, ?_, ?_⟩
        · have := (checkCount_success c' t (by rw [h3])).1 h5
          intro m hm
          have := this m hm
          rw [h3] at this
          simpa using this
        · rw [ht, h1, CFrame.payload, ← htonl_eq, hkt]
        · simpa using h3
      · rintro ⟨f, ⟨hw1, hw2⟩, h1, h2⟩
        rw [ht, CFrame.payload, ← htonl_eq, ← hkt] at h1
        have h3 := List.append_inj h1 (by simp)
        have h5 := CType.code_inj (htonl_inj (CType.code_lt t) (CType.code_lt _) h3.1)
        refine ⟨f.cts, h3.2, hw1, ?_, ?_⟩
        · simp [h2, h5]
        · rw [checkCount_success c' f.type (by rw [h2])]
          intro m hm
          rw [h2]; exact hw2 m hm
    · rename_i hk
      constructor
      · intro h; simp at h
      · rintro ⟨f, _, h1, _⟩
        exfalso
        rw [ht, CFrame.payload, ← htonl_eq] at h1
        have := htonl_inj (ntohl_lt _) (CType.code_lt _) (List.append_inj h1 (by simp)).1
        rw [this] at hk
        simp at hk

/-! ### Encoding -/

theorem sizeFields_eq (t : CType) : ∀ (cts : List Bytes) (len : Nat),
    Control.sizeFields t.code cts len =
      if ∀ ct ∈ t.visible cts, ct.length ≤ 256 then
        some (len + ((t.visible cts).flatMap field).length) else none := by
  intro cts
  induction cts with
  | nil => intro len; cases t <;> simp [Control.sizeFields, CType.visible]
  | cons ct rest ih =>
    intro len
    unfold Control.sizeFields
    by_cases hct : ct.length ≤ 256
    · cases t
      case accept =>
        simp only [CType.visible] at ih
        simp [CType.visible, CType.code, T_STOP, T_FINISH, T_START, CT_LENGTH_MAX, length_field, hct] at ih ⊢
        rw [if_neg (by omega), ih]
        congr 1; simp; omega
      case ready =>
        simp only [CType.visible] at ih
        simp [CType.visible, CType.code, T_STOP, T_FINISH, T_START, CT_LENGTH_MAX, length_field, hct] at ih ⊢
        rw [if_neg (by omega), ih]
        congr 1; simp; omega
      case start =>
        simp [CType.visible, CType.code, T_STOP, T_FINISH, T_START, CT_LENGTH_MAX, length_field, hct]
        omega
      all_goals simp [CType.visible, CType.code, T_STOP, T_FINISH]
    · cases t <;>
        simp [CType.visible, CType.code, T_STOP, T_FINISH, T_START, CT_LENGTH_MAX, hct] <;> omega

theorem encodedSize_eq (t : CType) (cts : List Bytes) (hdr : Bool) :
    Control.encodedSize ⟨t.code, cts⟩ hdr =
      if (∀ ct ∈ t.visible cts, ct.length ≤ 256) ∧ (wireBytes ⟨t, t.visible cts⟩ hdr).length ≤ 512
      then some (wireBytes ⟨t, t.visible cts⟩ hdr).length else none := by
  unfold Control.encodedSize
  simp only [sizeFields_eq]
  by_cases h : ∀ ct ∈ t.visible cts, ct.length ≤ 256
  · have hl : (wireBytes ⟨t, t.visible cts⟩ hdr).length =
        (if hdr then 4 + 4 else 0) + 4 + ((t.visible cts).flatMap field).length := by
      cases hdr <;> simp [wireBytes, CFrame.wire, CFrame.payload] <;> omega
    rw [if_pos h, hl]
    simp only [FRAME_LENGTH_MAX]
    by_cases h2 : (if hdr = true then 4 + 4 else 0) + 4 + (List.flatMap field (t.visible cts)).length > 512
    · rw [if_pos h2, if_neg]
      rintro ⟨_, h3⟩; omega
    · rw [if_neg h2]
      exact (if_pos ⟨h, by omega⟩).symm
  · rw [if_neg h, if_neg (fun h2 => h h2.1)]

theorem encodeFields_eq (t : CType) : ∀ (cts : List Bytes) (d mem : Bytes) (len : Nat),
    len ≤ mem.length → ((t.visible cts).flatMap field).length ≤ len →
    Control.encodeFields t.code cts ⟨d, mem, len⟩ =
      .ok (true, ⟨d ++ (t.visible cts).flatMap field,
        mem.drop ((t.visible cts).flatMap field).length,
        len - ((t.visible cts).flatMap field).length⟩) := by
  intro cts
  induction cts with
  | nil => intro d mem len _ _; cases t <;> simp [Control.encodeFields, CType.visible]
  | cons ct rest ih =>
    intro d mem len hl hs
    unfold Control.encodeFields
    by_cases hsf : t.code = T_STOP ∨ t.code = T_FINISH
    · rw [if_pos hsf]
      cases t <;> simp [CType.code, T_STOP, T_FINISH] at hsf <;> simp [CType.visible]
    · rw [if_neg hsf]
      have hv : t.visible (ct :: rest) = ct :: (if t.code = T_START then [] else t.visible rest) := by
        cases t <;> simp [CType.visible, CType.code, T_START, T_STOP, T_FINISH] at *
      rw [hv] at hs ⊢
      simp only [List.flatMap_cons, List.length_append, length_field] at hs ⊢
      simp only [fsStoreBe32, bind, Except.bind]
      rw [fsStoreBytes_eq hl, if_neg (by simp; omega)]
      simp only
      rw [fsStoreBytes_eq (by simp; omega), if_neg (by simp; omega)]
      simp only
      rw [fsStoreBytes_eq (by simp; omega), if_neg (by simp; omega)]
      simp only
      by_cases hst : t.code = T_START
      · simp [hst, field, htonl_eq, F_CONTENT_TYPE]
        omega
      · rw [if_neg hst, ih]
        · rw [if_neg hst] at hs ⊢
          simp only [field, htonl_eq, F_CONTENT_TYPE, List.drop_drop, List.append_assoc, length_be32]
          congr 3 <;> first | omega | (congr 1; omega)
        · simp; omega
        · rw [if_neg hst] at hs; simp only [length_htonl]; omega

theorem encodeBody_eq (t : CType) (cts : List Bytes) (d mem : Bytes) (len : Nat)
    (hl : len ≤ mem.length) (hs : (CFrame.payload ⟨t, t.visible cts⟩).length ≤ len) :
    Control.encodeBody ⟨t.code, cts⟩ ⟨d, mem, len⟩ =
      .ok (true, ⟨d ++ CFrame.payload ⟨t, t.visible cts⟩,
        mem.drop (CFrame.payload ⟨t, t.visible cts⟩).length,
        len - (CFrame.payload ⟨t, t.visible cts⟩).length⟩) := by
  unfold Control.encodeBody
  simp only [fsStoreBe32, bind, Except.bind]
  simp only [CFrame.payload, List.length_append, length_be32] at hs ⊢
  rw [fsStoreBytes_eq hl, if_neg (by simp; omega)]
  simp only
  rw [encodeFields_eq]
  · simp only [htonl_eq, List.drop_drop, List.append_assoc, length_be32]
    congr 3; omega
  · simp; omega
  · simp only [length_htonl]; omega

theorem encodeAll_eq (t : CType) (cts : List Bytes) (mem : Bytes) (hdr : Bool)
    (hs : (wireBytes ⟨t, t.visible cts⟩ hdr).length ≤ mem.length) :
    Control.encodeAll ⟨t.code, cts⟩ ⟨[], mem, (wireBytes ⟨t, t.visible cts⟩ hdr).length⟩
        (wireBytes ⟨t, t.visible cts⟩ hdr).length hdr =
      .ok (true, ⟨wireBytes ⟨t, t.visible cts⟩ hdr,
        mem.drop (wireBytes ⟨t, t.visible cts⟩ hdr).length, 0⟩) := by
  unfold Control.encodeAll
  cases hdr
  · simp only [wireBytes, Bool.false_eq_true, if_false] at hs ⊢
    rw [encodeBody_eq _ _ _ _ _ hs (Nat.le_refl _)]
    simp
  · simp only [wireBytes, if_true, CFrame.wire, List.length_append, length_be32] at hs ⊢
    simp only [fsStoreBe32, bind, Except.bind]
    rw [fsStoreBytes_eq hs, if_neg (by simp; omega)]
    simp only
    rw [fsStoreBytes_eq (by simp; omega), if_neg (by simp; omega)]
    simp only
    rw [encodeBody_eq]
    · simp only [htonl_eq, List.drop_drop, List.append_assoc, length_be32, List.nil_append]
      congr 3
      · congr 3; omega
      · omega
    · simp; omega
    · simp only [length_htonl]; omega

end Fstrm
