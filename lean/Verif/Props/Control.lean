import Verif.Lemmas.Control

/-!
# Properties C01-C09: the control frame codec

`Spec.CFrame`, `Spec.CFrame.wire`, `Spec.CFrame.payload` and
`Spec.CType.visible` are the independent specification (`Verif/Spec/Wire.lean`).
-/

set_option autoImplicit false

namespace Fstrm.Props

open Fstrm.Spec (CType CFrame wireBytes)

/-- **C03** (exact encoder). For a control object with type `t` and content types
`cts`, `fstrm_control_encode` into a buffer `mem` of which the caller declares
`cap` bytes succeeds exactly when every emitted content type is at most 256
bytes, the encoding is at most 512 bytes and it fits; then the buffer starts
with exactly the wire bytes, the rest of it is untouched and the reported
length is exact. Otherwise buffer and length are unchanged. -/
theorem encode_exact (t : CType) (cts : List Bytes) (mem : Bytes) (cap : Nat) (hdr : Bool)
    (hcap : cap ≤ mem.length) :
    Control.encode ⟨t.code, cts⟩ mem cap hdr =
      let f : CFrame := ⟨t, t.visible cts⟩
      let out := wireBytes f hdr
      if (∀ ct ∈ f.cts, ct.length ≤ 256) ∧ out.length ≤ 512 ∧ out.length ≤ cap then
        .ok (.success, out ++ mem.drop out.length, out.length)
      else .ok (.failure, mem, cap) := by
  dsimp only
  unfold Control.encode
  rw [encodedSize_eq]
  by_cases h1 : (∀ ct ∈ t.visible cts, ct.length ≤ 256) ∧
      (wireBytes ⟨t, t.visible cts⟩ hdr).length ≤ 512
  · rw [if_pos h1]
    dsimp only
    by_cases h2 : cap < (wireBytes ⟨t, t.visible cts⟩ hdr).length
    · rw [if_pos h2]
      refine (if_neg ?_).symm
      rintro ⟨_, _, h3⟩; omega
    · rw [if_neg h2, encodeAll_eq _ _ _ _ (by omega)]
      refine Eq.trans ?_ (if_pos ⟨h1.1, h1.2, by omega⟩).symm
      rfl
  · rw [if_neg h1]
    refine (if_neg ?_).symm
    rintro ⟨h2, h3, _⟩; exact h1 ⟨h2, h3⟩

/-- Instance of the success case of `encode_exact`. -/
example : Control.encode ⟨2, [[0x61, 0x62], [0x63]]⟩ (List.replicate 30 0xff) 30 true =
    .ok (.success,
      [0,0,0,0, 0,0,0,14, 0,0,0,2, 0,0,0,1, 0,0,0,2, 0x61,0x62] ++ List.replicate 8 0xff, 22) := by
  decide +kernel

/-- **C03**, second part: the size reported by `fstrm_control_encoded_size` is the
length of what `fstrm_control_encode` produces, and it fails in the same cases
(given a large enough buffer). -/
theorem encodedSize_exact (t : CType) (cts : List Bytes) (hdr : Bool) :
    Control.encodedSize ⟨t.code, cts⟩ hdr =
      let f : CFrame := ⟨t, t.visible cts⟩
      if (∀ ct ∈ f.cts, ct.length ≤ 256) ∧ (wireBytes f hdr).length ≤ 512 then
        some (wireBytes f hdr).length else none :=
  encodedSize_eq t cts hdr

example : Control.encodedSize ⟨4, [[1, 2], [3]]⟩ true = some 31 := by decide +kernel

/-- **C04** (decoder safety). On every buffer, every claimed length within it, every
flag and every previous object state, `fstrm_control_decode` terminates without
undefined behaviour and reports success or failure. -/
theorem decode_safe (c : Control) (mem : Bytes) (len : Nat) (hdr : Bool) (h : len ≤ mem.length) :
    ∃ r c', c.decode mem len hdr = .ok (r, c') ∧ (r = .success ∨ r = .failure) := by
  unfold Control.decode
  cases hdr
  · simp only [Bool.false_eq_true, if_false]
    split
    · exact ⟨_, _, rfl, Or.inr rfl⟩
    · exact decodeBody_ok _ _ _ h
  · simp only [if_true]
    rw [fsLoadBe32_eq h]
    by_cases h4 : len < 4
    · simp only [h4, if_true, bind, Except.bind]; exact ⟨_, _, rfl, Or.inr rfl⟩
    · simp only [h4, if_false, bind, Except.bind]
      split
      · exact ⟨_, _, rfl, Or.inr rfl⟩
      · have h2 : len - 4 ≤ (mem.drop 4).length := by simp; omega
        rw [fsLoadBe32_eq h2]
        by_cases h8 : len - 4 < 4
        · simp only [h8, if_true]; exact ⟨_, _, rfl, Or.inr rfl⟩
        · simp only [h8, if_false]
          split
          · exact ⟨_, _, rfl, Or.inr rfl⟩
          · split
            · exact ⟨_, _, rfl, Or.inr rfl⟩
            · apply decodeBody_ok; simp; omega

/-- The bound on `len` in `decode_safe` is needed and sufficient at the boundary:
claiming one byte more than the object has is undefined behaviour. -/
example : Control.decode Control.init [0, 0, 0] 4 false =
    .error (.ub "read past the end of the buffer") := by decide +kernel

example : Control.decode Control.init [0, 0, 0, 3] 4 false = .ok (.success, ⟨3, []⟩) := by decide +kernel

/-- **C04** (encoder safety): with a buffer at least as large as declared, encoding any
object with any flags never writes outside the buffer, and the buffer keeps its
size. -/
theorem encode_safe (t : CType) (cts : List Bytes) (mem : Bytes) (cap : Nat) (hdr : Bool)
    (hcap : cap ≤ mem.length) :
    ∃ r mem' cap', Control.encode ⟨t.code, cts⟩ mem cap hdr = .ok (r, mem', cap') ∧
      mem'.length = mem.length ∧ cap' ≤ cap := by
  rw [encode_exact t cts mem cap hdr hcap]
  dsimp only
  split
  · rename_i h
    refine ⟨_, _, _, rfl, ?_, h.2.2⟩
    rw [List.length_append, List.length_drop]
    have := h.2.2
    omega
  · exact ⟨_, _, _, rfl, rfl, Nat.le_refl _⟩

example : Control.encode ⟨3, [[1]]⟩ [9, 9, 9, 9, 9] 5 false = .ok (.success, [0, 0, 0, 3, 9], 4) := by
  decide +kernel

/-- **C02** (decoder soundness and completeness). `fstrm_control_decode` succeeds on
the `len` bytes at `mem` if and only if they are the wire form of a well-formed
control frame with at most 512 bytes of payload, and then the object holds
exactly that frame's type and content types. -/
theorem decode_iff (c : Control) (mem : Bytes) (len : Nat) (hdr : Bool) (c' : Control)
    (h : len ≤ mem.length) :
    c.decode mem len hdr = .ok (.success, c') ↔
      ∃ f : CFrame, f.WF ∧ f.payload.length ≤ 512 ∧ mem.take len = wireBytes f hdr ∧
        c' = ⟨f.type.code, f.cts⟩ := by
  unfold Control.decode wireBytes
  simp only [Control.reset]
  cases hdr
  · simp only [Bool.false_eq_true, if_false]
    split
    · constructor
      · intro h; simp at h
      · rename_i hbig
        rintro ⟨f, _, h1, h2, _⟩
        have := congrArg List.length h2
        rw [List.length_take, Nat.min_eq_left h] at this
        simp only [FRAME_LENGTH_MAX] at hbig
        omega
    · rename_i hbig
      simp only [FRAME_LENGTH_MAX] at hbig
      rw [decodeBody_iff _ _ _ h]
      constructor
      · rintro ⟨f, h1, h2, h3⟩
        refine ⟨f, h1, ?_, h2, h3⟩
        rw [← h2, List.length_take]; omega
      · rintro ⟨f, h1, _, h2, h3⟩; exact ⟨f, h1, h2, h3⟩
  · simp only [if_true]
    rw [fsLoadBe32_eq h]
    have hlen : ∀ f : CFrame, mem.take len = f.wire → len = 8 + f.payload.length := by
      intro f hf
      have := congrArg List.length hf
      rw [List.length_take, Nat.min_eq_left h] at this
      simp only [CFrame.wire, List.length_append, length_be32] at this
      omega
    by_cases h4 : len < 4
    · simp only [h4, if_true, bind, Except.bind]
      constructor
      · intro h; simp at h
      · rintro ⟨f, _, _, h2, _⟩
        have := hlen f h2; omega
    · simp only [h4, if_false, bind, Except.bind]
      have ht := take_four_add (by omega : 4 ≤ len) h
      have h2 : len - 4 ≤ (mem.drop 4).length := by simp; omega
      by_cases hz : ntohl (mem.take 4) = 0
      · rw [if_neg (by simpa using hz), fsLoadBe32_eq h2]
        by_cases h8 : len - 4 < 4
        · simp only [h8, if_true]
          constructor
          · intro h; simp at h
          · rintro ⟨f, _, _, h2, _⟩
            have := hlen f h2; omega
        · simp only [h8, if_false]
          have ht2 := take_four_add (by omega : 4 ≤ len - 4) h2
          have hdec : ∀ f : CFrame, f.payload.length ≤ 512 → mem.take len = f.wire →
              ntohl ((mem.drop 4).take 4) = f.payload.length ∧
              ((mem.drop 4).drop 4).take (len - 4 - 4) = f.payload := by
            intro f hf hw
            rw [ht, ht2, hz, CFrame.wire] at hw
            simp only [List.append_assoc, ← htonl_eq] at hw
            have h1 := (List.append_inj hw (by simp)).2
            have h2 := List.append_inj h1 (by simp)
            exact ⟨htonl_inj (ntohl_lt _) (by omega) h2.1, h2.2⟩
          split
          · constructor
            · intro h; simp at h
            · rename_i hbig
              rintro ⟨f, _, h5, h6, _⟩
              have := (hdec f h5 h6).1
              simp only [FRAME_LENGTH_MAX] at hbig
              omega
          · split
            · constructor
              · intro h; simp at h
              · rintro ⟨f, _, h5, h6, _⟩
                have h7 := (hdec f h5 h6).1
                have h9 := hlen f h6
                rename_i hne
                omega
            · rename_i hbig heq
              have hl3 : len - 4 - 4 ≤ ((mem.drop 4).drop 4).length := by simp; omega
              rw [decodeBody_iff _ _ _ hl3]
              simp only [FRAME_LENGTH_MAX] at hbig
              have heq' : ntohl ((mem.drop 4).take 4) = len - 4 - 4 := by omega
              constructor
              · rintro ⟨f, h5, h6, h7⟩
                have hpl : f.payload.length = len - 4 - 4 := by
                  rw [← h6, List.length_take]; omega
                refine ⟨f, h5, by omega, ?_, h7⟩
                rw [ht, ht2, hz, h6, heq', CFrame.wire, hpl]
                simp only [htonl_eq, List.append_assoc]
              · rintro ⟨f, h5, h6, h7, h9⟩
                exact ⟨f, h5, (hdec f h6 h7).2, h9⟩
      · rw [if_pos (by simpa using hz)]
        constructor
        · intro h; simp at h
        · rintro ⟨f, _, _, h2, _⟩
          exfalso
          rw [ht, CFrame.wire] at h2
          simp only [List.append_assoc, ← htonl_eq] at h2
          exact hz (htonl_inj (ntohl_lt _) (by decide) (List.append_inj h2 (by simp)).1)

/-- A START frame with one content type is accepted … -/
example : Control.decode ⟨5, [[7]]⟩ [0,0,0,0, 0,0,0,14, 0,0,0,2, 0,0,0,1, 0,0,0,2, 0x61,0x62] 22 true =
    .ok (.success, ⟨2, [[0x61, 0x62]]⟩) := by decide +kernel
/-- … and the same fields in a STOP frame are not. -/
example : (Control.decode ⟨5, [[7]]⟩ [0,0,0,3, 0,0,0,1, 0,0,0,2, 0x61,0x62] 14 false).map (·.1) =
    .ok .failure := by decide +kernel

/-- The frames that exist are as the grammar says: the hypotheses of `decode_iff`'s
right-hand side are met by this READY frame with two content types. -/
example : (⟨.ready, [[1], []]⟩ : CFrame).WF ∧ (CFrame.payload ⟨.ready, [[1], []]⟩).length ≤ 512 := by
  refine ⟨⟨?_, ?_⟩, by decide +kernel⟩
  · intro ct h; simp at h; rcases h with rfl | rfl <;> simp
  · intro m h; cases h

/-- **C01** (round trip). If encoding an object of type `t` succeeds, decoding exactly the
bytes produced, with the same flag and into any object, succeeds and gives back
the type and the visible content types. -/
theorem control_roundtrip (t : CType) (cts : List Bytes) (mem : Bytes) (cap : Nat) (hdr : Bool)
    (hcap : cap ≤ mem.length) (mem' : Bytes) (n : Nat)
    (henc : Control.encode ⟨t.code, cts⟩ mem cap hdr = .ok (.success, mem', n))
    (c0 : Control) :
    c0.decode mem' n hdr = .ok (.success, ⟨t.code, t.visible cts⟩) := by
  rw [encode_exact t cts mem cap hdr hcap] at henc
  dsimp only at henc
  split at henc
  · rename_i h
    simp only [Except.ok.injEq, Prod.mk.injEq, true_and] at henc
    obtain ⟨rfl, rfl⟩ := henc
    rw [decode_iff _ _ _ _ _ (by simp)]
    refine ⟨⟨t, t.visible cts⟩, ⟨h.1, ?_⟩, ?_, ?_, rfl⟩
    · intro m hm
      cases t <;> simp [CType.maxCts] at hm <;> subst hm <;> simp [CType.visible]
      omega
    · have := h.2.1
      cases hdr
      · exact this
      · simp only [wireBytes, if_true, CFrame.wire, List.length_append] at this; omega
    · simp
  · simp at henc

example : Control.encode ⟨4, [[1,2,3],[]]⟩ (List.replicate 64 0) 64 true =
    .ok (.success, (CFrame.wire ⟨.ready, [[1,2,3],[]]⟩) ++ List.replicate 33 0, 31) := by decide +kernel

/-- **C05**: the outcome of decoding, including the final object state and including
failures, does not depend on what the object held before. -/
theorem decode_history_independent (c₁ c₂ : Control) (mem : Bytes) (len : Nat) (hdr : Bool) :
    c₁.decode mem len hdr = c₂.decode mem len hdr := rfl

example : Control.decode ⟨1, [[1], [2]]⟩ [0,0,0,9] 4 false =
    Control.decode Control.init [0,0,0,9] 4 false ∧
    Control.decode Control.init [0,0,0,9] 4 false = .ok (.failure, ⟨0, []⟩) := by decide +kernel

/-- **C07** (canonical encoding without header): every accepted payload re-encodes to exactly
the same bytes. -/
theorem decode_encode_canonical (c : Control) (mem : Bytes) (len : Nat) (c' : Control)
    (h : len ≤ mem.length) (hd : c.decode mem len false = .ok (.success, c'))
    (buf : Bytes) (cap : Nat) (hcap : cap ≤ buf.length) (hfit : len ≤ cap) :
    c'.encode buf cap false = .ok (.success, mem.take len ++ buf.drop len, len) := by
  obtain ⟨f, ⟨hw1, hw2⟩, h1, h2, rfl⟩ := (decode_iff _ _ _ _ _ h).1 hd
  have hv : f.type.visible f.cts = f.cts := visible_of_WF ⟨hw1, hw2⟩
  have hl : (wireBytes f false).length = len := by
    rw [← h2, List.length_take, Nat.min_eq_left h]
  rw [encode_exact _ _ _ _ _ hcap]
  dsimp only
  rw [hv]
  change (if _ ∧ (wireBytes f false).length ≤ _ ∧ (wireBytes f false).length ≤ _ then
    Except.ok (_, wireBytes f false ++ List.drop (wireBytes f false).length _,
      (wireBytes f false).length) else _) = _
  rw [hl]
  refine Eq.trans (if_pos ?_) ?_
  rotate_left
  · rw [h2]
  · refine ⟨hw1, ?_, hfit⟩
    have : (wireBytes f false).length ≤ 512 := h1
    omega

/-- **C07**, second part: two accepted payloads that decode to the same object are equal. -/
theorem decode_injective (c : Control) (m₁ m₂ : Bytes) (c' : Control)
    (h₁ : c.decode m₁ m₁.length false = .ok (.success, c'))
    (h₂ : c.decode m₂ m₂.length false = .ok (.success, c')) : m₁ = m₂ := by
  obtain ⟨f, _, _, e1, rfl⟩ := (decode_iff _ _ _ _ _ (Nat.le_refl _)).1 h₁
  obtain ⟨g, _, _, e2, e3⟩ := (decode_iff _ _ _ _ _ (Nat.le_refl _)).1 h₂
  have : f = g := by
    cases f; cases g
    simp only [Control.mk.injEq] at e3
    have := CType.code_inj e3.1
    simp_all
  subst this
  rw [List.take_length] at e1 e2
  rw [e1, e2]

example : Control.decode Control.init [0,0,0,1, 0,0,0,1, 0,0,0,1, 5] 13 false =
    .ok (.success, ⟨1, [[5]]⟩) := by decide +kernel

/-- **C06** is false as stated: there is a byte string that `fstrm_control_decode` accepts with
header, whose object `fstrm_control_encode` refuses to encode with header no
matter how large the buffer is (the encoder counts the 8 header bytes against
the 512 byte limit, the decoder does not). -/
theorem header_limits_disagree :
    ∃ (mem : Bytes) (c' : Control),
      Control.init.decode mem mem.length true = .ok (.success, c') ∧
      ∀ (buf : Bytes) (cap : Nat), cap ≤ buf.length →
        c'.encode buf cap true = .ok (.failure, buf, cap) := by
  let f : CFrame := ⟨.ready, [List.replicate 246 0, List.replicate 246 0]⟩
  have hp : f.payload.length = 512 := by
    simp only [f, CFrame.payload, Spec.field, List.flatMap_cons, List.flatMap_nil, List.length_append,
      length_be32, List.length_replicate, List.length_nil]
  refine ⟨f.wire, ⟨f.type.code, f.cts⟩, ?_, ?_⟩
  · rw [decode_iff _ _ _ _ _ (Nat.le_refl _)]
    refine ⟨f, ⟨?_, ?_⟩, by omega, by simp [wireBytes], rfl⟩
    · intro ct h
      have : ct = List.replicate 246 0 := by
        simpa only [f, List.mem_cons, List.not_mem_nil, or_false, or_self] using h
      rw [this, List.length_replicate]; decide
    · intro m h; cases h
  · intro buf cap hcap
    rw [encode_exact _ _ _ _ _ hcap]
    dsimp only
    rw [if_neg]
    rintro ⟨_, h, _⟩
    have : (wireBytes ⟨f.type, f.type.visible f.cts⟩ true).length = 8 + f.payload.length := by
      show (CFrame.wire f).length = _
      simp only [CFrame.wire, List.length_append, length_be32]
    omega

/-- **C06** (partial): re-encoding with header does reproduce the bytes when the payload has at
most 504 bytes. Missing: payloads of 505 to 512 bytes, for which the claim is
false (`header_limits_disagree`). -/
theorem decode_encode_header_partial (c : Control) (mem : Bytes) (len : Nat) (c' : Control)
    (h : len ≤ mem.length) (hd : c.decode mem len true = .ok (.success, c'))
    (hsize : len ≤ 512)
    (buf : Bytes) (cap : Nat) (hcap : cap ≤ buf.length) (hfit : len ≤ cap) :
    c'.encode buf cap true = .ok (.success, mem.take len ++ buf.drop len, len) := by
  obtain ⟨f, ⟨hw1, hw2⟩, h1, h2, rfl⟩ := (decode_iff _ _ _ _ _ h).1 hd
  have hv : f.type.visible f.cts = f.cts := visible_of_WF ⟨hw1, hw2⟩
  have hl : (wireBytes f true).length = len := by
    rw [← h2, List.length_take, Nat.min_eq_left h]
  rw [encode_exact _ _ _ _ _ hcap]
  dsimp only
  rw [hv]
  change (if _ ∧ (wireBytes f true).length ≤ _ ∧ (wireBytes f true).length ≤ _ then
    Except.ok (_, wireBytes f true ++ List.drop (wireBytes f true).length _,
      (wireBytes f true).length) else _) = _
  rw [hl]
  refine Eq.trans (if_pos ?_) ?_
  rotate_left
  · rw [h2]
  · exact ⟨hw1, hsize, hfit⟩

example : Control.decode Control.init [0,0,0,0, 0,0,0,4, 0,0,0,5] 12 true =
    .ok (.success, ⟨5, []⟩) := by decide +kernel

/-- An object whose type was never set encodes successfully, but the result is not
decodable; this is why C01 requires the type to be set. -/
theorem unset_type_encodes_garbage :
    Control.encode Control.init (List.replicate 4 9) 4 false = .ok (.success, [0,0,0,0], 4) ∧
    Control.decode Control.init [0,0,0,0] 4 false = .ok (.failure, Control.init) := by decide +kernel

theorem matchLoop_iff (c : Control) (m : Bytes) : ∀ n idx, idx + n ≤ c.cts.length →
    (c.matchLoop m n idx = .success ↔ m ∈ (c.cts.drop idx).take n) := by
  intro n
  induction n with
  | zero => intro idx _; simp [Control.matchLoop]
  | succ n ih =>
    intro idx h
    have hlt : idx < c.cts.length := by omega
    unfold Control.matchLoop
    simp only [Control.getCt, List.getElem?_eq_getElem hlt]
    rw [List.drop_eq_getElem_cons hlt, List.take_succ_cons, List.mem_cons]
    split
    · rename_i he; simp [he]
    · rename_i he
      rw [ih (idx+1) (by omega)]
      constructor
      · exact Or.inr
      · rintro (h | h)
        · exact absurd h.symm he
        · exact h

/-- **C08** (matching rule): a frame of type `t` with content types `cts` matches the content type
`m` (`none` is NULL) iff it is not STOP/FINISH and either shows no content type
or shows exactly `m`. -/
theorem match_iff (t : CType) (cts : List Bytes) (m : Option Bytes) :
    Control.matchCt ⟨t.code, cts⟩ m = .success ↔
      t ≠ .stop ∧ t ≠ .finish ∧
      (t.visible cts = [] ∨ ∃ b, m = some b ∧ b ∈ t.visible cts) := by
  have hnum : t ≠ .stop → t ≠ .finish →
      t.visible cts = cts.take (Control.numCt ⟨t.code, cts⟩) ∧
      Control.numCt ⟨t.code, cts⟩ ≤ cts.length := by
    intro h1 h2
    cases t <;> simp [Control.numCt, CType.visible, CType.code, T_STOP, T_START, T_FINISH] at *
    constructor
    · split
      · rfl
      · omega
    · split <;> omega
  by_cases h1 : t = .stop
  · subst h1; simp [Control.matchCt, CType.code, T_STOP]
  by_cases h2 : t = .finish
  · subst h2; simp [Control.matchCt, CType.code, T_FINISH]
  obtain ⟨hv, hn⟩ := hnum h1 h2
  have hc : ¬ (t.code = T_STOP ∨ t.code = T_FINISH) := by
    cases t <;> simp [CType.code, T_STOP, T_FINISH] at *
  unfold Control.matchCt
  rw [if_neg hc, hv]
  simp only [ne_eq, h1, not_false_eq_true, h2, true_and]
  by_cases h0 : Control.numCt ⟨t.code, cts⟩ = 0
  · rw [if_pos h0, h0]; simp
  · rw [if_neg h0]
    have hne : cts.take (Control.numCt ⟨t.code, cts⟩) ≠ [] := by
      intro he
      have := congrArg List.length he
      rw [List.length_take] at this
      simp only [List.length_nil] at this
      omega
    cases m with
    | none => simp only [hne, false_or, reduceCtorEq, false_and, exists_false]
    | some b =>
      simp only
      rw [matchLoop_iff _ _ _ _ (by simpa using hn)]
      simp only [hne, false_or, List.drop_zero, Option.some.injEq]
      constructor
      · intro h; exact ⟨b, rfl, h⟩
      · rintro ⟨b', rfl, h⟩; exact h

example : Control.matchCt ⟨1, [[1,2],[1,2,3]]⟩ (some [1,2,3]) = .success ∧
    Control.matchCt ⟨2, [[1,2],[1,2,3]]⟩ (some [1,2,3]) = .failure ∧
    Control.matchCt ⟨1, []⟩ none = .success ∧ Control.matchCt ⟨1, [[]]⟩ none = .failure := by decide +kernel

/-- The calls that change a control object. -/
inductive CtlOp where
  | setType (t : Nat)
  | addCt (ct : Bytes)
  | reset
  | decode (mem : Bytes) (hdr : Bool)

/-- Effect of one call (the result code is dropped). -/
def CtlOp.apply (c : Control) : CtlOp → Exec Control
  | .setType t => .ok (c.setType t).2
  | .addCt ct => .ok (c.addCt ct).2
  | .reset => .ok c.reset
  | .decode mem hdr => (c.decode mem mem.length hdr).map (·.2)

/-- What a caller can see: the number of content types and each of them. -/
def shows (c : Control) (l : List Bytes) : Prop :=
  c.numCt = l.length ∧ ∀ i, i < c.numCt → c.getCt i = l[i]?

theorem shows_visible (t : CType) (cts : List Bytes) : shows ⟨t.code, cts⟩ (t.visible cts) := by
  have key : (Control.numCt ⟨t.code, cts⟩) = (t.visible cts).length := by
    cases t <;> simp [Control.numCt, CType.visible, CType.code, T_STOP, T_START, T_FINISH]
    split <;> omega
  refine ⟨key, ?_⟩
  intro i hi
  rw [key] at hi
  cases t <;> simp [CType.visible, Control.getCt] at hi ⊢
  rw [List.getElem?_take_of_lt (by omega)]

/-- **C09** (after building an object): whatever happened to the object before (`hist`), after
a reset, setting a type and adding the content types `cts` one by one, the
accessors show exactly the type and its visible content types in order. -/
theorem accessors_after_build (hist : List CtlOp) (c : Control)
    (_hh : hist.foldlM CtlOp.apply Control.init = .ok c) (t : CType) (cts : List Bytes) :
    ∃ c', ([CtlOp.reset, .setType t.code] ++ cts.map CtlOp.addCt).foldlM CtlOp.apply c = .ok c' ∧
      c'.getType = (.success, some t.code) ∧ shows c' (t.visible cts) := by
  have hfold : ∀ (l : List Bytes) (c : Control),
      (l.map CtlOp.addCt).foldlM CtlOp.apply c = .ok ⟨c.type, c.cts ++ l⟩ := by
    intro l
    induction l with
    | nil => intro c; simp [pure, Except.pure]
    | cons a l ih =>
      intro c
      simp only [List.map_cons, List.foldlM_cons, CtlOp.apply, Control.addCt, bind, Except.bind]
      rw [ih]; simp
  refine ⟨⟨t.code, cts⟩, ?_, ?_, shows_visible t cts⟩
  · simp only [List.cons_append, List.nil_append, List.foldlM_cons, CtlOp.apply, bind, Except.bind,
      Control.reset, Control.setType, knownType_code, if_true]
    rw [hfold]; simp
  · simp [Control.getType]

/-- The valid type a call asks for. -/
def CtlOp.typeSet : CtlOp → Option CType
  | .setType n => [CType.accept, .start, .stop, .ready, .finish].find? (·.code = n)
  | _ => none

/-- The content type a call adds. -/
def CtlOp.ctAdded : CtlOp → Option Bytes
  | .addCt ct => some ct
  | _ => none

/-- A call other than reset and decode. -/
def CtlOp.builds : CtlOp → Bool
  | .setType _ => true
  | .addCt _ => true
  | _ => false

theorem typeSet_setType (c : Control) (n : Nat) :
    c.setType n = match (CtlOp.setType n).typeSet with
      | some t => (.success, { c with type := t.code })
      | none => (.failure, c) := by
  unfold Control.setType
  by_cases h : knownType n = true
  · obtain ⟨t, rfl⟩ := (knownType_iff n).1 h
    rw [if_pos h]
    cases t <;> rfl
  · rw [if_neg h]
    have : (CtlOp.setType n).typeSet = none := by
      unfold CtlOp.typeSet
      rw [List.find?_eq_none]
      intro t _ ht
      simp only [decide_eq_true_eq] at ht
      exact h ((knownType_iff n).2 ⟨t, ht⟩)
    rw [this]

/-- **C09** (after any calls): whatever happened to the object before (`hist`), after a reset and
any further calls that set types, valid or not, and add content types, in any order, the object
has the last valid type that was set, none if there was none, and exactly the content types added since
the reset; setting a type succeeds exactly for the five valid types. -/
theorem accessors_after_calls (hist : List CtlOp) (c : Control)
    (_hh : hist.foldlM CtlOp.apply Control.init = .ok c) (ops : List CtlOp) (hb : ∀ o ∈ ops, o.builds = true) :
    ∃ c', (CtlOp.reset :: ops).foldlM CtlOp.apply c = .ok c' ∧
      (∀ n, (c'.setType n).1 = .success ↔ (CtlOp.setType n).typeSet ≠ none) ∧
      match (ops.filterMap CtlOp.typeSet).getLast? with
      | none => c'.getType = (.failure, none) ∧ shows c' (ops.filterMap CtlOp.ctAdded)
      | some t => c'.getType = (.success, some t.code) ∧ shows c' (t.visible (ops.filterMap CtlOp.ctAdded)) := by
  have key : ∀ (l : List CtlOp) (c : Control), (∀ o ∈ l, o.builds = true) →
      l.foldlM CtlOp.apply c = .ok ⟨((l.filterMap CtlOp.typeSet).getLast?.map CType.code).getD c.type,
        c.cts ++ l.filterMap CtlOp.ctAdded⟩ := by
    intro l
    induction l with
    | nil => intro c _; simp [pure, Except.pure]
    | cons o l ih =>
      intro c h
      have hl : ∀ o ∈ l, o.builds = true := fun o ho => h o (by simp [ho])
      simp only [List.foldlM_cons, bind, Except.bind]
      cases o with
      | setType n =>
        simp only [CtlOp.apply, typeSet_setType, List.filterMap_cons, CtlOp.ctAdded]
        cases ht : (CtlOp.setType n).typeSet with
        | none => simp only [ih c hl]
        | some t =>
          simp only [ih _ hl, List.getLast?_cons]
          cases (List.filterMap CtlOp.typeSet l).getLast? <;> rfl
      | addCt ct =>
        simp only [CtlOp.apply, Control.addCt, List.filterMap_cons, CtlOp.ctAdded, CtlOp.typeSet, ih _ hl]
        simp
      | reset => exact absurd (h .reset (by simp)) (by simp [CtlOp.builds])
      | decode m d => exact absurd (h (.decode m d) (by simp)) (by simp [CtlOp.builds])
  refine ⟨⟨((ops.filterMap CtlOp.typeSet).getLast?.map CType.code).getD 0, ops.filterMap CtlOp.ctAdded⟩,
    ?_, ?_, ?_⟩
  · simp only [List.foldlM_cons, CtlOp.apply, bind, Except.bind, Control.reset, key ops _ hb]
    simp
  · intro n
    rw [typeSet_setType]
    cases (CtlOp.setType n).typeSet <;> simp
  · cases (List.filterMap CtlOp.typeSet ops).getLast? with
    | none =>
      refine ⟨by simp [Control.getType, knownType], ?_⟩
      simp [shows, Control.numCt, Control.getCt]
    | some t => exact ⟨by simp [Control.getType], shows_visible t _⟩

example : [CtlOp.addCt [1], .setType 2, .setType 77, .addCt [2]].filterMap CtlOp.typeSet = [CType.start] ∧
    (CtlOp.reset :: [CtlOp.addCt [1], .setType 2, .setType 77, .addCt [2]]).foldlM CtlOp.apply ⟨4, [[9]]⟩ =
      .ok ⟨2, [[1], [2]]⟩ := by decide +kernel

/-- **C09** (after decoding): after any history, a successful decode of the wire form of a
well-formed frame shows exactly that frame. -/
theorem accessors_after_decode (hist : List CtlOp) (c : Control)
    (_hh : hist.foldlM CtlOp.apply Control.init = .ok c)
    (f : CFrame) (hf : f.WF) (hl : f.payload.length ≤ 512) (hdr : Bool) :
    ∃ c', (CtlOp.decode (wireBytes f hdr) hdr).apply c = .ok c' ∧
      c'.getType = (.success, some f.type.code) ∧ shows c' f.cts := by
  refine ⟨⟨f.type.code, f.cts⟩, ?_, by simp [Control.getType], ?_⟩
  · have := (decode_iff c (wireBytes f hdr) (wireBytes f hdr).length hdr
      ⟨f.type.code, f.cts⟩ (Nat.le_refl _)).2 ⟨f, hf, hl, by simp, rfl⟩
    simp only [CtlOp.apply, this]; rfl
  · have hv : f.type.visible f.cts = f.cts := visible_of_WF hf
    have := shows_visible f.type f.cts
    rwa [hv] at this

/-- A history with a failed decode in it, followed by a rebuild. -/
example : [CtlOp.addCt [1], .setType 77, .decode [0,0,0,1, 0] false].foldlM CtlOp.apply Control.init =
    .ok ⟨1, []⟩ ∧
    ([CtlOp.reset, .setType 2] ++ [[5],[6]].map CtlOp.addCt).foldlM CtlOp.apply ⟨1, []⟩ =
      .ok ⟨2, [[5],[6]]⟩ := by decide +kernel

/-- The index accessor is not limited by the frame type: for a START object with two
content types the count is 1 but index 1 is still served. -/
theorem getCt_ignores_type :
    ∃ c : Control, c.numCt = 1 ∧ c.getCt 1 = some [6] := ⟨⟨2, [[5],[6]]⟩, by decide +kernel, by decide +kernel⟩

/-- **C09, what the object contains.** `Contents h ty cts`: after the calls `h` on a new object its
type is `ty` (none: not set) and its content types are `cts`.  Nothing is said between a failed decode and
the next reset or successful decode. -/
inductive Contents : List CtlOp → Option CType → List Bytes → Prop
  | init : Contents [] none []
  | reset (h : List CtlOp) : Contents (h ++ [.reset]) none []
  | setValid {h ty cts} (t : CType) : Contents h ty cts → Contents (h ++ [.setType t.code]) (some t) cts
  | setInvalid {h ty cts} (n : Nat) : Contents h ty cts → (∀ t : CType, t.code ≠ n) →
      Contents (h ++ [.setType n]) ty cts
  | add {h ty cts} (b : Bytes) : Contents h ty cts → Contents (h ++ [.addCt b]) ty (cts ++ [b])
  | decoded (h : List CtlOp) (f : CFrame) (hdr : Bool) : f.WF → f.payload.length ≤ 512 →
      Contents (h ++ [.decode (wireBytes f hdr) hdr]) (some f.type) f.cts

/-- A decode of something that is not the wire form of a well-formed frame of at most 512 bytes. -/
def CtlOp.malformed (o : CtlOp) : Prop :=
  ∃ m hdr, o = .decode m hdr ∧ ∀ f : CFrame, f.WF → f.payload.length ≤ 512 → m ≠ wireBytes f hdr

/-- Every history of calls is defined: none of them has undefined behaviour. -/
theorem ctl_history_defined (h : List CtlOp) (c : Control) : ∃ c', h.foldlM CtlOp.apply c = .ok c' := by
  induction h generalizing c with
  | nil => exact ⟨c, rfl⟩
  | cons o l ih =>
    have : ∃ c1, o.apply c = .ok c1 := by
      cases o with
      | setType n => exact ⟨_, rfl⟩
      | addCt b => exact ⟨_, rfl⟩
      | reset => exact ⟨_, rfl⟩
      | decode m hdr =>
        obtain ⟨r, c1, hd, _⟩ := decode_safe c m m.length hdr (Nat.le_refl _)
        exact ⟨c1, by simp only [CtlOp.apply, hd]; rfl⟩
    obtain ⟨c1, e1⟩ := this
    obtain ⟨c', e'⟩ := ih c1
    exact ⟨c', by simp only [List.foldlM_cons, bind, Except.bind, e1, e']⟩

/-- **C09** (any history): after any history of calls on a new object — types set, valid or not, content
types added, resets, decodes of any bytes, in any order — the accessors show what the object contains: the
type, or a failure when none is set, and as many content types as the type allows, namely the first ones.
Setting a type succeeds exactly for the five valid types. -/
theorem accessors_any_history (h : List CtlOp) (ty : Option CType) (cts : List Bytes) (hc : Contents h ty cts) :
    ∃ c, h.foldlM CtlOp.apply Control.init = .ok c ∧
      c.getType = (match ty with | none => (.failure, none) | some t => (.success, some t.code)) ∧
      shows c (match ty with | none => cts | some t => t.visible cts) ∧
      (∀ i, c.getCt i = cts[i]?) ∧
      ∀ n, (c.setType n).1 = .success ↔ ∃ t : CType, t.code = n := by
  have key : ∀ h ty cts, Contents h ty cts →
      h.foldlM CtlOp.apply Control.init = .ok ⟨(ty.map CType.code).getD 0, cts⟩ := by
    intro h ty cts hc
    have snoc : ∀ (h : List CtlOp) (o : CtlOp) (c c' : Control), h.foldlM CtlOp.apply Control.init = .ok c →
        o.apply c = .ok c' → (h ++ [o]).foldlM CtlOp.apply Control.init = .ok c' := by
      intro h o c c' e1 e2
      simp only [List.foldlM_append, e1, List.foldlM_cons, List.foldlM_nil, bind, Except.bind, e2]
      rfl
    induction hc with
    | init => rfl
    | reset h =>
      obtain ⟨c, e⟩ := ctl_history_defined h Control.init
      exact snoc h _ c _ e rfl
    | setValid t _ ih =>
      refine snoc _ _ _ _ ih ?_
      simp only [CtlOp.apply, Control.setType]
      rw [if_pos ((knownType_iff _).2 ⟨t, rfl⟩)]
      rfl
    | setInvalid n _ hn ih =>
      refine snoc _ _ _ _ ih ?_
      simp only [CtlOp.apply, Control.setType]
      rw [if_neg (fun hk => by obtain ⟨t, ht⟩ := (knownType_iff n).1 hk; exact hn t ht)]
    | add b _ ih => exact snoc _ _ _ _ ih rfl
    | decoded h f hdr hf hl =>
      obtain ⟨c, e⟩ := ctl_history_defined h Control.init
      refine snoc h _ c _ e ?_
      have := (decode_iff c (wireBytes f hdr) (wireBytes f hdr).length hdr
        ⟨f.type.code, f.cts⟩ (Nat.le_refl _)).2 ⟨f, hf, hl, by simp, rfl⟩
      simp only [CtlOp.apply, this]; rfl
  refine ⟨_, key h ty cts hc, ?_, ?_, ?_, ?_⟩
  · cases ty with
    | none => simp [Control.getType, knownType]
    | some t => simp [Control.getType]
  · cases ty with
    | none => simp [shows, Control.numCt, Control.getCt]
    | some t => exact shows_visible t _
  · intro i; rfl
  · intro n
    unfold Control.setType
    by_cases hk : knownType n = true
    · rw [if_pos hk]; exact ⟨fun _ => (knownType_iff n).1 hk, fun _ => rfl⟩
    · rw [if_neg hk]
      exact ⟨fun h => by simp at h, fun h => absurd ((knownType_iff n).2 h) hk⟩

/-- `Contents` speaks about every history but those in which the last call that is a reset or a decode is
a decode of malformed bytes. -/
theorem contents_total (h : List CtlOp) :
    (∃ ty cts, Contents h ty cts) ∨
      ∃ before o after, h = before ++ o :: after ∧ o.malformed ∧ ∀ o' ∈ after, o'.builds = true := by
  suffices hs : ∀ r : List CtlOp, (∃ ty cts, Contents r.reverse ty cts) ∨
      ∃ before o after, r.reverse = before ++ o :: after ∧ o.malformed ∧ ∀ o' ∈ after, o'.builds = true by
    have := hs h.reverse
    rwa [List.reverse_reverse] at this
  intro r
  induction r with
  | nil => exact .inl ⟨_, _, .init⟩
  | cons o r ih =>
    rw [List.reverse_cons]
    cases o with
    | reset => exact .inl ⟨_, _, .reset _⟩
    | decode m hdr =>
      by_cases hm : (CtlOp.decode m hdr).malformed
      · exact .inr ⟨r.reverse, _, [], rfl, hm, by simp⟩
      · left
        have : ∃ f : CFrame, f.WF ∧ f.payload.length ≤ 512 ∧ m = wireBytes f hdr :=
          Classical.byContradiction fun hn => hm ⟨m, hdr, rfl, fun f hf hl he => hn ⟨f, hf, hl, he⟩⟩
        obtain ⟨f, hf, hl, rfl⟩ := this
        exact ⟨_, _, .decoded _ f hdr hf hl⟩
    | setType n =>
      rcases ih with ⟨ty, cts, hc⟩ | ⟨b, o, a, e, hm, ha⟩
      · left
        by_cases hk : ∃ t : CType, t.code = n
        · obtain ⟨t, rfl⟩ := hk
          exact ⟨_, _, .setValid t hc⟩
        · exact ⟨_, _, .setInvalid n hc (fun t ht => hk ⟨t, ht⟩)⟩
      · refine .inr ⟨b, o, a ++ [.setType n], by rw [e]; simp, hm, ?_⟩
        intro o' ho'
        rcases List.mem_append.1 ho' with h1 | h1
        · exact ha o' h1
        · rw [List.mem_singleton.1 h1]; rfl
    | addCt ct =>
      rcases ih with ⟨ty, cts, hc⟩ | ⟨b, o, a, e, hm, ha⟩
      · exact .inl ⟨_, _, .add ct hc⟩
      · refine .inr ⟨b, o, a ++ [.addCt ct], by rw [e]; simp, hm, ?_⟩
        intro o' ho'
        rcases List.mem_append.1 ho' with h1 | h1
        · exact ha o' h1
        · rw [List.mem_singleton.1 h1]; rfl

/-- A frame is decoded, then a second content type is added and the type changed. -/
example : Contents ([] ++ [CtlOp.decode (wireBytes ⟨.start, [[5]]⟩ true) true] ++ [.addCt [6]] ++
    [.setType CType.ready.code]) (some .ready) [[5], [6]] :=
  .setValid .ready (.add [6] (.decoded [] ⟨.start, [[5]]⟩ true (by simp [CFrame.WF, CType.maxCts]) (by decide +kernel)))

end Fstrm.Props
