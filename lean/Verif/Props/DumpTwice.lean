import Verif.Props.Dump

/-!
# C129: copying a copy changes nothing
-/

set_option autoImplicit false

namespace Fstrm.Props

open Spec

theorem wires_datas (ds : List Bytes) : wires (ds.map .data) = ds.flatMap dataFrame := by
  unfold wires
  induction ds with
  | nil => rfl
  | cons d ds ih => simp only [List.map_cons, List.flatMap_cons, ih]; rfl

theorem datas_datas (ds : List Bytes) : datas (ds.map .data) = ds := by
  induction ds with
  | nil => rfl
  | cons d ds ih => simp only [List.map_cons, datas, ih]

theorem mem_datas {items : List Item} {d : Bytes} (h : d ∈ datas items) : Item.data d ∈ items := by
  induction items with
  | nil => cases h
  | cons it items ih =>
    cases it with
    | data d' =>
      simp only [datas, List.mem_cons] at h
      rcases h with rfl | h
      · simp
      · exact List.mem_cons_of_mem _ (ih h)
    | ctl f => exact List.mem_cons_of_mem _ (ih h)

theorem frames_length (ds : List Bytes) : ds.length ≤ (ds.flatMap dataFrame).length := by
  induction ds with
  | nil => simp
  | cons d ds ih =>
    simp only [List.flatMap_cons, List.length_append, List.length_cons]
    have : 1 ≤ (dataFrame d).length := by simp [dataFrame]; omega
    omega

/-- **C129** Whatever the input was and whatever failed on the way: if `fstrm_dump` with an output file
exits with success, then the output file is a stream that `fstrm_dump` accepts. Running it on that
file, with no I/O error on the two files, succeeds and produces an identical file;
it also prints the same lines if no output to standard output is lost. -/
theorem dump_of_dump (fuel : Nat) (path : FilePath) (input : Option Bytes) (script oscript sout : List Io)
    (before : Option Bytes) (o : DumpOut)
    (h : dump fuel path input script (.file before oscript) sout = .ok o) (h0 : o.status = 0) :
    ∃ out, o.output = some out ∧
      ∀ (fuel' : Nat) (before' : Option Bytes) (oscript' sout' : List Io), NoFail oscript' →
        out.length ≤ fuel' →
        ∃ o', dump fuel' .file (some out) [] (.file before' oscript') sout' = .ok o' ∧
          o'.status = 0 ∧ o'.output = some out ∧
          (NoFail sout → NoFail sout' → o'.stdout = o.stdout) := by
  rcases dump_faithful_partial fuel path input script sout _ (by intro h; cases h) o h with
    ⟨h1, _⟩ | ⟨ct, items, tail, _, hct, hok, _, h4, _, h5⟩
  · rw [h0] at h1; cases h1
  · obtain ⟨_, h6, _⟩ := h5 h0
    have h6 := h6 (by intro h; cases h)
    refine ⟨_, h6, ?_⟩
    intro fuel' before' oscript' sout' hn hl
    have hs : stream ct (datas items) = CFrame.wire ⟨.start, ct.toList⟩ ++
        (wires ((datas items).map .data) ++ (CFrame.wire ⟨.stop, []⟩ ++ [])) := by
      rw [wires_datas]; simp [stream]
    have hlen : ((datas items).map Item.data).length + 2 ≤ fuel' := by
      refine Nat.le_trans ?_ hl
      have h1 := frames_length (datas items)
      have h2 : 2 ≤ (CFrame.wire ⟨.stop, []⟩).length := by decide +kernel
      simp only [List.length_map, stream, List.length_append]
      omega
    obtain ⟨o', e1, e2, e3, e4, _⟩ := dump_copies_partial ct ((datas items).map .data) [] fuel'
      (.file before' oscript') sout' hct (by
        intro it hit
        obtain ⟨d, hd, rfl⟩ := List.mem_map.1 hit
        exact hok _ (mem_datas hd)) hlen (by intro d sc hd; cases hd; exact hn) (by intro h; cases h)
    rw [← hs] at e1
    rw [datas_datas] at e3 e4
    refine ⟨o', e1, e2, e4 (by intro h; cases h) (by intro h; cases h), fun hn1 hn2 => ?_⟩
    rw [e3 (by intro h; cases h) hn2, h4 hn1]

/-- An input with a foreign control frame, cut in its last frame: the copy differs from the input, and
the copy of the copy is the copy. -/
example :
    let input := CFrame.wire ⟨.start, [[116]]⟩ ++
      (wires [.data [1, 2], .ctl ⟨.accept, [[7]]⟩, .data [65]] ++ [0, 0, 0, 9, 1, 2])
    let out := stream (some [116]) [[1, 2], [65]]
    (dump 9 .file (some input) [.ok 1] (.file none [.ok 3]) [.ok 2]).map (fun o => (o.status, o.output)) =
      .ok (0, some out) ∧ out ≠ input ∧
    (dump 99 .file (some out) [] (.file (some [5]) [.ok 3]) [.ok 2]).map (fun o => (o.status, o.output)) =
      .ok (0, some out) := by
  decide +kernel

end Fstrm.Props
