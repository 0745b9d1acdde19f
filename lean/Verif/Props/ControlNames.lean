import Verif.Model.ControlNames
import Verif.Spec.Wire

/-! C114: the names of control frame types and fields. -/

set_option autoImplicit false

namespace Fstrm.Props

open Fstrm Fstrm.Spec

/-- The names in control.h. -/
def typeName : CType → String
  | .accept => "FSTRM_CONTROL_ACCEPT"
  | .start => "FSTRM_CONTROL_START"
  | .stop => "FSTRM_CONTROL_STOP"
  | .ready => "FSTRM_CONTROL_READY"
  | .finish => "FSTRM_CONTROL_FINISH"

/-- **C114**: the name of a type is the one it has in the protocol, every other value is "unknown",
and these are exactly the values that a control frame cannot be given; so the name tells the type. -/
theorem control_type_names (c : Control) :
    (∀ t : CType, controlTypeToStr t.code = typeName t) ∧
    (∀ v, (∀ t : CType, t.code ≠ v) → controlTypeToStr v = "FSTRM_CONTROL_UNKNOWN") ∧
    (∀ v, controlTypeToStr v = "FSTRM_CONTROL_UNKNOWN" ↔ (c.setType v).1 = .failure) ∧
    (∀ v w, controlTypeToStr v = controlTypeToStr w →
      v = w ∨ ((c.setType v).1 = .failure ∧ (c.setType w).1 = .failure)) := by
  have known : ∀ v, (∃ t : CType, t.code = v ∧ knownType v = true ∧
      controlTypeToStr v = typeName t) ∨
      ((∀ t : CType, t.code ≠ v) ∧ knownType v = false ∧
        controlTypeToStr v = "FSTRM_CONTROL_UNKNOWN") := by
    intro v
    by_cases h1 : v = 1
    · exact .inl ⟨.accept, h1.symm, by subst h1; rfl, by subst h1; rfl⟩
    by_cases h2 : v = 2
    · exact .inl ⟨.start, h2.symm, by subst h2; rfl, by subst h2; rfl⟩
    by_cases h3 : v = 3
    · exact .inl ⟨.stop, h3.symm, by subst h3; rfl, by subst h3; rfl⟩
    by_cases h4 : v = 4
    · exact .inl ⟨.ready, h4.symm, by subst h4; rfl, by subst h4; rfl⟩
    by_cases h5 : v = 5
    · exact .inl ⟨.finish, h5.symm, by subst h5; rfl, by subst h5; rfl⟩
    refine .inr ⟨?_, ?_, ?_⟩
    · intro t; cases t <;> simp only [CType.code] <;> omega
    · simp [knownType, h1, h2, h3, h4, h5]
    · simp only [controlTypeToStr, h1, h2, h3, h4, h5, if_false]
  have inj : ∀ t u : CType, typeName t = typeName u → t = u := by
    intro t u; cases t <;> cases u <;> decide +kernel
  have nunk : ∀ t : CType, typeName t ≠ "FSTRM_CONTROL_UNKNOWN" := by
    intro t; cases t <;> decide +kernel
  have hset : ∀ v, (c.setType v).1 = .failure ↔ knownType v = false := by
    intro v
    unfold Control.setType
    cases knownType v
    · exact ⟨fun _ => rfl, fun _ => rfl⟩
    · exact ⟨(fun h => by cases h), (fun h => by cases h)⟩
  refine ⟨?_, ?_, ?_, ?_⟩
  · intro t; cases t <;> rfl
  · intro v hv
    rcases known v with ⟨t, h, -⟩ | ⟨-, -, h⟩
    · exact absurd h (hv t)
    · exact h
  · intro v
    rw [hset]
    rcases known v with ⟨t, -, hk, hn⟩ | ⟨-, hk, hn⟩
    · rw [hk, hn]
      exact ⟨fun h => absurd h (nunk t), fun h => by cases h⟩
    · rw [hk, hn]; exact ⟨fun _ => rfl, fun _ => rfl⟩
  · intro v w h
    rw [hset, hset]
    rcases known v with ⟨t, ht, hk, hn⟩ | ⟨-, hk, hn⟩ <;>
      rcases known w with ⟨u, hu, hk', hn'⟩ | ⟨-, hk', hn'⟩
    · rw [hn, hn'] at h
      have := inj t u h
      subst this
      exact .inl (ht.symm.trans hu)
    · rw [hn, hn'] at h; exact absurd h (nunk t)
    · rw [hn, hn'] at h; exact absurd h.symm (nunk u)
    · exact .inr ⟨hk, hk'⟩

/-- **C114**, fields: 1 is the only field type with a name, as it is the only one on the wire. -/
theorem control_field_names (v : Nat) :
    controlFieldTypeToStr v =
      if be32 v = (field []).take 4 ∧ v < 2 ^ 32 then "FSTRM_CONTROL_FIELD_CONTENT_TYPE"
      else "FSTRM_CONTROL_FIELD_UNKNOWN" := by
  unfold controlFieldTypeToStr
  by_cases h : v = 1
  · subst h; rfl
  · rw [if_neg h, if_neg]
    rintro ⟨h1, h2⟩
    apply h
    simp only [field, be32, List.length_nil, List.append_nil, List.cons_append, List.nil_append,
      List.take, List.cons.injEq, and_true] at h1
    obtain ⟨a, b, c, d⟩ := h1
    have a := congrArg UInt8.toNat a
    have b := congrArg UInt8.toNat b
    have c := congrArg UInt8.toNat c
    have d := congrArg UInt8.toNat d
    simp only [UInt8.toNat_ofNat'] at a b c d
    omega

example : controlTypeToStr 4 = "FSTRM_CONTROL_READY" ∧ controlTypeToStr 0 = "FSTRM_CONTROL_UNKNOWN" ∧
    controlTypeToStr 4294967295 = "FSTRM_CONTROL_UNKNOWN" := by decide +kernel

end Fstrm.Props
