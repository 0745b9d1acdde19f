import Verif.Props.HeapInit

/-! Memory runs out (C125), and `malloc(0)` returns NULL (C126). -/

set_option autoImplicit false

namespace Fstrm

variable {σ : Type}

theorem Heap.Valid.ample {h : Heap} (hv : h.Valid) : h.ample.Valid := ⟨hv.nodup, hv.fresh⟩

theorem Heap.ample_not_scarce (h : Heap) : ¬h.ample.Scarce := by simp [Heap.Scarce, Heap.ample]

theorem EndsWith.same {α : Type} {m : HExec α} {v : Exec α} {h0 : Heap} {after after' : List Ptr}
    (h1 : EndsWith m v h0 after) (h2 : EndsWith m v h0.ample after') :
    m h0 = .error outOfMemory ∨ (m h0).map Prod.fst = (m h0.ample).map Prod.fst := by
  rcases h1 with ⟨a, h, e1, e2, -, -⟩ | ⟨e, e1, e2⟩ | ⟨e1, -⟩
  · rcases h2 with ⟨a', h', e1', e2', -, -⟩ | ⟨e', e1', e2'⟩ | ⟨-, hs⟩
    · rw [e2] at e2'; cases e2'
      rw [e1, e1']; exact .inr rfl
    · rw [e2] at e2'; cases e2'
    · exact absurd hs h0.ample_not_scarce
  · rcases h2 with ⟨a', h', e1', e2', -, -⟩ | ⟨e', e1', e2'⟩ | ⟨-, hs⟩
    · rw [e2] at e2'; cases e2'
    · rw [e2] at e2'; cases e2'
      rw [e1, e1']; exact .inr rfl
    · exact absurd hs h0.ample_not_scarce
  · exact .inl e1

namespace Props

open Fstrm.Spec Iothr

/-- C125: whatever a client does with whatever control objects, options, transports, writers and
readers, and whichever allocations fail: the process is aborted by the assertion behind the
allocation, or all calls return what they would have returned with enough memory. There is no other
outcome: no access through NULL, no failing call, no lost data. -/
theorem out_of_memory (cs : List (Call σ)) (h0 : Heap) (hv : h0.Valid) :
    HProg.run (.empty : HProg σ) cs h0 = .error outOfMemory ∨
    (HProg.run .empty cs h0).map (fun p => p.1.1) = (HProg.run .empty cs h0.ample).map (fun p => p.1.1) := by
  rcases memory_accounted cs h0.ample hv.ample with ⟨o', t', h', l', e1', e2', -⟩ | ⟨e', e1', e2'⟩ | ⟨-, hs⟩
  · rcases memory_accounted cs h0 hv with ⟨o, t, h, l, e1, e2, -⟩ | ⟨e, e1, e2⟩ | ⟨e1, -⟩
    · rw [e2'] at e2
      obtain ⟨rfl, -⟩ := Prod.mk.inj (Except.ok.inj e2)
      rw [e1, e1']; exact .inr rfl
    · rw [e2'] at e2; cases e2
    · exact .inl e1
  · rcases memory_accounted cs h0 hv with ⟨o, t, h, l, e1, e2, -⟩ | ⟨e, e1, e2⟩ | ⟨e1, -⟩
    · rw [e2'] at e2; cases e2
    · rw [e2'] at e2; cases e2
      rw [e1, e1']; exact .inr rfl
    · exact .inl e1
  · exact absurd hs h0.ample_not_scarce

/-- C125 for writers and readers made from file, unix socket and TCP options. -/
theorem out_of_memory_constructors (h0 : Heap) (rest : List Ptr) (hv : h0.Valid) :
    (∀ paths wopt disk script calls, h0.live.Perm (HWriter.woptBlocks wopt ++ rest) →
      fileWriterLife paths wopt disk script calls h0 = .error outOfMemory ∨
      (fileWriterLife paths wopt disk script calls h0).map Prod.fst =
        (fileWriterLife paths wopt disk script calls h0.ample).map Prod.fst) ∧
    (∀ paths wopt sock calls, h0.live.Perm (HWriter.woptBlocks wopt ++ rest) →
      unixWriterLife paths wopt sock calls h0 = .error outOfMemory ∨
      (unixWriterLife paths wopt sock calls h0).map Prod.fst =
        (unixWriterLife paths wopt sock calls h0.ample).map Prod.fst) ∧
    (∀ pton sets wopt sock calls, h0.live.Perm (HWriter.woptBlocks wopt ++ rest) →
      tcpWriterLife pton sets wopt sock calls h0 = .error outOfMemory ∨
      (tcpWriterLife pton sets wopt sock calls h0).map Prod.fst =
        (tcpWriterLife pton sets wopt sock calls h0.ample).map Prod.fst) :=
  ⟨fun _ _ _ _ _ hp => (file_writer_memory _ _ _ _ _ h0 rest hv hp).same
      (file_writer_memory _ _ _ _ _ h0.ample rest hv.ample hp),
    fun _ _ _ _ hp => (unix_writer_memory _ _ _ _ h0 rest hv hp).same
      (unix_writer_memory _ _ _ _ h0.ample rest hv.ample hp),
    fun _ _ _ _ _ hp => (tcp_writer_memory _ _ _ _ _ h0 rest hv hp).same
      (tcp_writer_memory _ _ _ _ _ h0.ample rest hv.ample hp)⟩

/-- C125 for the I/O thread: in any execution that ends with the return of `fstrm_iothr_destroy`, the
calls on the writer and the results are those of the model without memory, or the process is aborted;
with enough memory it is not. -/
theorem out_of_memory_iothr (o : Option IothrOptions) (opt : IothrOptions) (qs : List Queue)
    (w0 : HWriter σ) (acts : List IoAct) (s : Iothr σ) (h0 : Heap) (rest : List Ptr)
    (hv : h0.Valid) (hp : h0.live.Perm (w0.blocks ++ rest))
    (hinit : iothrInit o true = .ok (some (opt, qs)))
    (hrun : (Iothr.init opt w0.val).run acts = .ok s) (hd : s.destroyed = true) :
    (iothrLife o w0 ((calls s.log).map Prod.fst) h0 = .error outOfMemory ∨
      (iothrLife o w0 ((calls s.log).map Prod.fst) h0).map Prod.fst =
        .ok (opt, (calls s.log).map Prod.snd, s.writer.rdwr)) ∧
    (iothrLife o w0 ((calls s.log).map Prod.fst) h0.ample).map Prod.fst =
      .ok (opt, (calls s.log).map Prod.snd, s.writer.rdwr) := by
  constructor
  · rcases iothr_memory o opt qs w0 acts s h0 rest hv hp hinit hrun hd with ⟨h, e, -⟩ | ⟨e, -⟩
    · rw [e]; exact .inr rfl
    · exact .inl e
  · rcases iothr_memory o opt qs w0 acts s h0.ample rest hv.ample hp hinit hrun hd with ⟨h, e, -⟩ | ⟨-, hs⟩
    · rw [e]; rfl
    · exact absurd hs h0.ample_not_scarce

/-- The client of `exampleCalls` makes 46 allocations. If one of them fails, the process is aborted;
failures after that do not matter. -/
example : (List.range 50).map (fun k => decide ((HProg.run .empty exampleCalls ⟨1, [], [k + 1], false⟩).map
      (fun p => p.1.1) = .error outOfMemory)) = List.replicate 46 true ++ List.replicate 4 false := by
  decide +kernel

/-- A client that adds an empty content type to a control object. -/
def emptyTypeCalls : List (Call Pipe) :=
  [.newControl, .on 0 (.control (.addCt [])), .on 0 .destroy]

/-- A client that opens a bidirectional writer; the peer accepts everything, with an empty content type
in the list. -/
def emptyAcceptCalls : List (Call Pipe) :=
  [.newRdwr (pipeOps true true) ⟨CFrame.wire ⟨.accept, [[]]⟩, [], false⟩ 0, .newWriter 0 none,
    .on 1 (.writer .opn)]

/-- C126, proved part: on systems where `malloc(0)` returns a block, and with enough memory, no call
of the library aborts because of a content type, empty or not: each client program does what the
model without memory does. `_partial`: see `empty_type_aborts`. -/
theorem empty_type_partial (cs : List (Call σ)) (h0 : Heap) (hv : h0.Valid) (hz : h0.zeroNull = false)
    (hd : h0.denied = []) :
    (HProg.run .empty cs h0).map (fun p => p.1.1) = (Prog.run ([] : Prog σ) cs).map (fun p => p.1) := by
  rcases memory_accounted cs h0 hv with ⟨o, t, h, l, e1, e2, -⟩ | ⟨e, e1, e2⟩ | ⟨-, hs⟩
  · rw [e1, e2]; rfl
  · rw [e1, e2]; rfl
  · rcases hs with hs | hs
    · exact absurd hd hs
    · rw [hz] at hs; cases hs

/-- C126 is false of the code where `malloc(0)` returns NULL, as C allows: adding an empty content type
to a control object aborts the process, and a peer can abort it by sending a control frame with an
empty content type. Elsewhere both succeed. -/
theorem empty_type_aborts :
    (HProg.run .empty emptyTypeCalls ⟨1, [], [], true⟩).map (fun p => p.1.1) = .error outOfMemory ∧
    (HProg.run .empty emptyAcceptCalls ⟨1, [], [], true⟩).map (fun p => p.1.1) = .error outOfMemory ∧
    (HProg.run .empty emptyTypeCalls ⟨1, [], [], false⟩).map (fun p => p.1.1) =
      .ok [.made true, .res .success, .res .success] ∧
    (HProg.run .empty emptyAcceptCalls ⟨1, [], [], false⟩).map (fun p => p.1.1) =
      .ok [.made true, .made true, .res .success] := by
  decide +kernel

end Props

end Fstrm
