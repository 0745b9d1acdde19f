import Verif.Lemmas.FileRead
import Verif.Props.Reader
import Verif.Props.File

/-!
# C67: what a file reader delivers, for arbitrary contents

The statements use the specification `Verif.Spec.Stream` (frames of a stream, `Cut`).
-/

set_option autoImplicit false

namespace Fstrm.Props

open Fstrm.Spec

/-! ### Helpers -/

theorem fileReader_fresh {path : FilePath} {ropt : Option ReaderOptions} {disk : Option Bytes}
    {script : List Io} {r : Reader FileSt} (h : fileReaderInit path ropt disk script = some r) :
    FFresh (disk.getD []) r ∧ r.cts = (optR ropt).cts ∧
      r.maxFrameSize = (optR ropt).maxFrameSize := by
  unfold fileReaderInit at h
  split at h
  · cases h
  · obtain ⟨h1, h2, h3, h4, _, h5, h6⟩ := reader_init_some h
    refine ⟨⟨h1, ?_, ?_, ?_, ?_, ?_, ?_, by omega, h6⟩, h2, h3⟩ <;> rw [h4] <;> rfl

/-- A loop of reads on a reader that has not been opened, in terms of `open`. -/
theorem readLoop_open {σ : Type} {fuel n : Nat} {r r' : Reader σ} {ds : List (Option Bytes)}
    {last : Option Res} (hs : r.state = .opening)
    (h : Reader.readLoop fuel (n + 1) r = .ok (ds, last, r')) :
    ∃ res r1, r.open = .ok (res, r1) ∧
      ((res = .success ∧ (r1.state = .opened → Reader.readLoop fuel (n + 1) r1 = .ok (ds, last, r'))) ∨
       (res ≠ .success ∧ ds = [] ∧ last = some res ∧ r' = r1)) := by
  unfold Reader.readLoop at h
  obtain ⟨⟨res, d, r2⟩, h1, h⟩ := Exec.bind_eq_ok.1 h
  unfold Reader.read Reader.maybeOpen at h1
  rw [if_pos hs] at h1
  obtain ⟨⟨res1, r1⟩, h2, h1⟩ := Exec.bind_eq_ok.1 h1
  refine ⟨res1, r1, h2, ?_⟩
  simp only at h1
  split at h1
  · rename_i hne
    cases h1
    simp only at h
    rw [if_neg hne] at h
    cases h
    exact Or.inr ⟨hne, rfl, rfl, rfl⟩
  · rename_i he
    have he : res1 = .success := by simpa using he
    refine Or.inl ⟨he, fun ho => ?_⟩
    rw [if_pos ho] at h1
    unfold Reader.readLoop
    have : r1.read fuel = .ok (res, d, r2) := by
      unfold Reader.read Reader.maybeOpen
      rw [if_neg (by simp [ho]), Exec.ok_bind]
      simp [ho, h1]
    rw [this, Exec.ok_bind]
    exact h

/-! ### C67 -/

/-- **C67**. For every file contents (valid or not), every sequence of stdio outcomes, every reader
configuration and every number of reads: the data delivered are exactly the data frames at the
beginning of the stream in the file, after a START frame of a compatible content type. If the
loop ends with `stop`, then the frames delivered are all up to the STOP frame or up to the frame in
which the file ends. (The last case is C21: an oversized frame is reported as success without
data.) -/
theorem file_reader_exact (path : FilePath) (ropt : Option ReaderOptions) (disk : Option Bytes)
    (script : List Io) (r r' : Reader FileSt) (fuel n : Nat) (ds : List (Option Bytes))
    (last : Option Res)
    (hinit : fileReaderInit path ropt disk script = some r)
    (hrun : Reader.readLoop fuel (n + 1) r = .ok (ds, last, r')) :
    (ds = [] ∧ (last = some .stop ∧ Cut (disk.getD []) ∨ last = some .failure)) ∨
    ∃ (ct : Option Bytes) (items : List Item) (tail : Bytes),
      disk.getD [] = CFrame.wire ⟨.start, ct.toList⟩ ++ (wires items ++ tail) ∧
      compatible (optR ropt).cts ct.toList ∧
      (∀ it ∈ items, it.Ok (optR ropt).maxFrameSize) ∧
      ((ds = (datas items).map some ∧
          (last = some .stop → CFrame.wire ⟨.stop, []⟩ <+: tail ∨ Cut tail)) ∨
       (ds = (datas items).map some ++ [none] ∧ last ≠ some .stop ∧
          ∃ m x, tail = be32 m ++ x ∧ (optR ropt).maxFrameSize < m ∧ m < 2^32)) := by
  obtain ⟨hf, hc, hm⟩ := fileReader_fresh hinit
  obtain ⟨res, r1, h1, h2⟩ := readLoop_open hf.state hrun
  rcases hf.open h1 with ⟨rfl, ct, rest, h3⟩ | ⟨_, _, h3⟩
  · rcases h2 with ⟨_, h2⟩ | ⟨h2, _⟩
    · obtain ⟨items, tail, h4⟩ := h3.rd.readLoop fuel (n + 1) h3.state h3.stop h3.cap (h2 h3.state)
      refine Or.inr ⟨ct, items, tail, by rw [h3.all_eq, h4.rest_eq], hc ▸ h3.compat, ?_, ?_⟩
      · rw [← hm, ← h3.max]; exact h4.ok
      · rw [← hm, ← h3.max]
        rcases h4.cases with ⟨h5, h6⟩ | ⟨h5, h6, h7⟩
        · refine Or.inl ⟨h5, fun hl => ?_⟩
          rcases h6 with h6 | ⟨_, h6, _⟩ | ⟨_, h6, _⟩ | ⟨h6, _⟩
          · rw [h6] at hl; cases hl
          · exact Or.inl h6
          · exact Or.inr h6
          · rw [h6] at hl; cases hl
        · exact Or.inr ⟨h5, by rcases h6 with h6 | h6 <;> simp [h6], h7⟩
    · exact absurd rfl h2
  · rcases h2 with ⟨h2, _⟩ | ⟨_, h4, h5, _⟩
    · rcases h3 with ⟨h3, _⟩ | h3 <;> rw [h2] at h3 <;> cases h3
    · refine Or.inl ⟨h4, ?_⟩
      rcases h3 with ⟨h3, h6⟩ | h3
      · exact Or.inl ⟨h5.trans (by rw [h3]), h6⟩
      · exact Or.inr (h5.trans (by rw [h3]))

/-- Not vacuous: a file that ends inside its second frame. -/
example : ∃ r ds last r', fileReaderInit .file none
      (some ((CFrame.wire ⟨.start, []⟩ ++ dataFrame [1, 2]) ++ [0, 0, 0, 9, 5])) [] = some r ∧
    Reader.readLoop 5 5 r = .ok (ds, last, r') ∧ ds = [some [1, 2]] ∧ last = some .stop := by
  refine ⟨_, _, _, _, rfl, rfl, ?_, ?_⟩ <;> decide +kernel

end Fstrm.Props
