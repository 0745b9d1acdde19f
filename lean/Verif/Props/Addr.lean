import Verif.Lemmas.Addr

/-!
# Properties of the socket addresses accepted by unix and tcp writers (C59)
-/

set_option autoImplicit false

namespace Fstrm.Props

open Fstrm
open Fstrm.Spec (Numeral IsSpace)

/-- What strings a tcp writer accepts as port, and what port it uses: the empty string (port 0), or
white space, an optional sign and a C numeral; a minus sign negates modulo 2^64; and in
each case the resulting number has to be below 65536. -/
theorem port_accepted_iff (str : Bytes) (port : Nat) :
    parsePort str = some port ↔
      port < 65536 ∧ (str = [] ∧ port = 0 ∨
        ∃ ws sign body n, str = ws ++ sign ++ body ∧ (∀ c ∈ ws, IsSpace c) ∧
          (sign = [] ∨ sign = [43] ∨ sign = [45]) ∧ Numeral body n ∧
          n < 2 ^ 64 ∧ port = if sign = [45] then (2 ^ 64 - n) % 2 ^ 64 else n) := by
  by_cases hs : str = []
  · subst hs
    have h0 : parsePort [] = some 0 := by decide +kernel
    rw [h0]
    constructor
    · intro h; cases h; exact ⟨by omega, Or.inl ⟨rfl, rfl⟩⟩
    · rintro ⟨_, ⟨_, rfl⟩ | ⟨ws, sign, body, n, h, _, _, hn, _⟩⟩
      · rfl
      · obtain ⟨c, r, hb, _⟩ := numeral_head hn
        rw [hb] at h
        simp at h
  · unfold parsePort
    have key := strtoul_all str
    generalize strtoul str = pr at *
    obtain ⟨v, rest⟩ := pr
    simp only at key ⊢
    constructor
    · intro h
      split at h
      · cases h
      · rename_i hc
        simp only [Option.some.injEq] at h
        subst h
        have hr : rest = [] := by
          by_cases hr : rest = []
          · exact hr
          · exact absurd (Or.inl hr) hc
        have hv : ¬ v > 65535 := fun h => hc (Or.inr h)
        subst hr
        refine ⟨by omega, Or.inr ?_⟩
        obtain ⟨ws, sign, body, n, h1, h2, h3, h4, h5⟩ := (key v hs).1 rfl
        by_cases hb : n ≥ 2 ^ 64
        · rw [if_pos hb] at h5; omega
        · rw [if_neg hb] at h5
          exact ⟨ws, sign, body, n, h1, h2, h3, h4, by omega, h5⟩
    · rintro ⟨hp, ⟨h, _⟩ | ⟨ws, sign, body, n, h1, h2, h3, h4, h5, h6⟩⟩
      · exact absurd h hs
      · have := (key port hs).2 ⟨ws, sign, body, n, h1, h2, h3, h4, by rw [if_neg (by omega)]; exact h6⟩
        cases this
        rw [if_neg (by simp; omega)]

/-- **C59**, tcp, as far as it is true: for a port string that is not empty and has no minus sign, a
tcp writer is created only if the string is a numeral (after white space and an optional
plus sign) denoting a number below 65536, and it connects to that port; conversely every
such numeral is accepted. -/
theorem tcp_port_partial (str : Bytes) (port : Nat) (hne : str ≠ []) (hm : (45 : UInt8) ∉ str) :
    parsePort str = some port ↔
      port < 65536 ∧ ∃ ws sign body, str = ws ++ sign ++ body ∧ (∀ c ∈ ws, IsSpace c) ∧
        (sign = [] ∨ sign = [43]) ∧ Numeral body port := by
  rw [port_accepted_iff]
  constructor
  · rintro ⟨hp, ⟨h, _⟩ | ⟨ws, sign, body, n, rfl, h2, h3, h4, h5, h6⟩⟩
    · exact absurd h hne
    · have hs : sign ≠ [45] := by rintro rfl; simp at hm
      rw [if_neg hs] at h6
      subst h6
      refine ⟨hp, ws, sign, body, rfl, h2, ?_, h4⟩
      rcases h3 with h | h | h
      · exact Or.inl h
      · exact Or.inr h
      · exact absurd h hs
  · rintro ⟨hp, ws, sign, body, h1, h2, h3, h4⟩
    refine ⟨hp, Or.inr ⟨ws, sign, body, port, h1, h2, ?_, h4, by omega, ?_⟩⟩
    · rcases h3 with h | h
      · exact Or.inl h
      · exact Or.inr (Or.inl h)
    · rw [if_neg]
      rcases h3 with rfl | rfl <;> decide

/-- "53", " +0x35" and "065" all denote port 53; "65536" and "53a" are refused. -/
example : parsePort [53, 51] = some 53 ∧ parsePort [32, 43, 48, 120, 51, 53] = some 53 ∧
    parsePort [48, 54, 53] = some 53 ∧ parsePort [54, 53, 53, 51, 54] = none ∧
    parsePort [53, 51, 97] = none := by decide +kernel

/-- **C59**, the whole initialisation: a tcp writer is created exactly if both options are set, the
address is a numeric IPv4 or IPv6 address and the port is accepted (`port_accepted_iff`);
the address it connects to is the one given, IPv4 being tried first. -/
theorem tcp_writer_created (pton : Family → Bytes → Option Bytes) (address port : Option Bytes)
    (wopt : Option WriterOptions) (sock : Sock) (sa : SockAddr) :
    (∃ w, tcpWriterInit pton address port wopt sock = some (sa, w)) ↔
      ∃ a p, address = some a ∧ port = some p ∧ parsePort p = some sa.port ∧
        pton sa.family a = some sa.addr ∧ (sa.family = .inet6 → pton .inet a = none) := by
  unfold tcpWriterInit
  cases address with
  | none => simp
  | some a =>
    cases port with
    | none => simp
    | some p =>
      simp only [Option.some.injEq, exists_and_left, exists_eq_left']
      unfold fillAddr
      obtain ⟨fam, addr, po⟩ := sa
      cases h4 : pton .inet a with
      | some a4 =>
        cases hp : parsePort p with
        | none => simp
        | some q =>
          simp only [Writer.init, Rdwr.init, sockOps, Option.isNone_some, Bool.false_eq_true, if_false,
            Option.map_some, Option.some.injEq, Prod.mk.injEq, SockAddr.mk.injEq]
          constructor
          · rintro ⟨w, ⟨rfl, rfl, rfl⟩, _⟩; simp [h4]
          · rintro ⟨rfl, h1, h2⟩
            cases fam with
            | inet => rw [h4] at h1; cases h1; exact ⟨_, ⟨rfl, rfl, rfl⟩, rfl⟩
            | inet6 => have := h2 rfl; cases this
      | none =>
        cases h6 : pton .inet6 a with
        | none =>
          simp only [reduceCtorEq, exists_false, false_iff]
          rintro ⟨_, h1, _⟩
          cases fam
          · rw [h4] at h1; cases h1
          · rw [h6] at h1; cases h1
        | some a6 =>
          cases hp : parsePort p with
          | none => simp
          | some q =>
            simp only [Writer.init, Rdwr.init, sockOps, Option.isNone_some, Bool.false_eq_true,
              if_false, Option.map_some, Option.some.injEq, Prod.mk.injEq, SockAddr.mk.injEq]
            constructor
            · rintro ⟨w, ⟨rfl, rfl, rfl⟩, _⟩; simp [h6]
            · rintro ⟨rfl, h1, h2⟩
              cases fam with
              | inet => rw [h4] at h1; cases h1
              | inet6 => rw [h6] at h1; cases h1; exact ⟨_, ⟨rfl, rfl, rfl⟩, rfl⟩

/-- **C59** is false: a tcp writer is created for the empty port string, and for
"-18446744073709551615", which becomes port 1. -/
theorem tcp_port_quirks :
    parsePort [] = some 0 ∧
    parsePort [45, 49, 56, 52, 52, 54, 55, 52, 52, 48, 55, 51, 55, 48, 57, 53, 53, 49, 54, 49, 53] =
      some 1 ∧
    (∀ wopt sock, (tcpWriterInit (fun _ _ => some [127, 0, 0, 1]) (some []) (some []) wopt sock).isSome
      = true) := by
  refine ⟨by decide +kernel, by decide +kernel, fun wopt sock => rfl⟩

/-- **C59**, unix: a writer is created exactly if the path and its terminator fit the address, and
the address then holds the whole path, followed by a terminator. -/
theorem unix_writer_created (path : Option Bytes) (wopt : Option WriterOptions) (sock : Sock)
    (sun : Bytes) :
    (∃ w, unixWriterInit path wopt sock = some (sun, w)) ↔
      ∃ p, path = some p ∧ p.length + 1 ≤ 108 ∧ sun = p ++ List.replicate (108 - p.length) 0 := by
  unfold unixWriterInit
  cases path with
  | none => simp
  | some p =>
    simp only [Option.some.injEq, exists_eq_left', SUN_PATH_SIZE]
    by_cases h : p.length + 1 > 108
    · rw [if_pos h]; simp; omega
    · rw [if_neg h]
      have htake : p.take 107 = p := List.take_of_length_le (by omega)
      simp only [Writer.init, Rdwr.init, sockOps, Option.isNone_some, Bool.false_eq_true, if_false,
        Option.map_some, Option.some.injEq, Prod.mk.injEq, strncpyZeroed, htake,
        show 108 - 1 = 107 from rfl]
      constructor
      · rintro ⟨w, h1, _⟩; exact ⟨by omega, h1.symm⟩
      · rintro ⟨_, h1⟩; exact ⟨_, h1.symm, rfl⟩

/-- Boundary: 107 characters fit, 108 do not. -/
example : (unixWriterInit (some (List.replicate 107 97)) none (Sock.init [] [] [] [] [] [])).isSome = true ∧
    (unixWriterInit (some (List.replicate 108 97)) none (Sock.init [] [] [] [] [] [])).isSome = false := by
  decide +kernel

end Fstrm.Props
