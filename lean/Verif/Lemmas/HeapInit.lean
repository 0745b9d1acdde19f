import Verif.Model.HeapInit
import Verif.Lemmas.HeapProg

/-!
# Memory management of transports and of the I/O thread: the lemmas
-/

set_option autoImplicit false

namespace Fstrm

/-- Proves that two lists of blocks are permutations of each other, without looking into objects. -/
macro "perm'" : tactic => `(tactic| (
      refine List.perm_iff_count.2 fun _ => ?_
      simp only [List.count_append, count_cons_one, List.count_nil]
      try omega))

theorem HStr.free_sim {γ δ : Type} {er : γ → δ} {blk : γ → List Ptr} {pre pre' : List Ptr} (s : HStr)
    {f : Unit → HExec γ} {w : Exec δ} (hp : pre'.Perm (s.blocks ++ pre))
    (hf : HSim (f ()) w pre er blk) : HSim (s.free >>= f) w pre' er blk := by
  cases s with
  | none => exact .perm hp hf
  | some s => exact .free hp hf

theorem HStr.set_sim (s : HStr) (str : Option Bytes) :
    HSim (s.set str) (.ok str) s.blocks HStr.val HStr.blocks := by
  refine HStr.free_sim s (pre := []) (by simp) ?_
  cases str with
  | none => exact .pure rfl (.refl _)
  | some str => exact .alloc fun p => .pure rfl (.refl _)

namespace HPathOptions

theorem init_sim : HSim init (.ok none) [] (fun o => o.path.val) blocks :=
  .alloc fun _ => .pure rfl (.refl _)

theorem setPath_sim (o : HPathOptions) (str : Option Bytes) :
    HSim (o.setPath str) (.ok str) o.blocks (fun o => o.path.val) blocks := by
  refine .use (by simp [blocks]) ?_
  refine .stepOk (HStr.set_sim o.path str) (fr := [o.self])
    (List.perm_append_comm (l₁ := [o.self])) fun s hs => ?_
  exact .pure hs (List.perm_append_comm (l₂ := [o.self]))

theorem destroy_sim {γ δ : Type} {er : γ → δ} {blk : γ → List Ptr} {pre pre' : List Ptr}
    (o : HPathOptions) {f : Unit → HExec γ} {w : Exec δ} (hp : pre'.Perm (o.blocks ++ pre))
    (hf : HSim (f ()) w pre er blk) : HSim (destroy o >>= f) w pre' er blk := by
  refine .perm hp ?_
  simp only [destroy, bind_assoc]
  refine .use (by simp [blocks]) ?_
  refine HStr.free_sim _ (pre := o.self :: pre) ?_ (.free (.refl _) hf)
  rw [blocks]
  exact (List.perm_middle (a := o.self)).symm

end HPathOptions

namespace HTcpOptions

theorem init_sim : HSim init (.ok (none, none)) [] (fun o => (o.address.val, o.port.val)) blocks :=
  .alloc fun _ => .pure rfl (.refl _)

theorem setAddress_sim (o : HTcpOptions) (str : Option Bytes) :
    HSim (o.setAddress str) (.ok (str, o.port.val)) o.blocks (fun o => (o.address.val, o.port.val))
      blocks := by
  refine .use (by simp [blocks]) ?_
  refine .stepOk (HStr.set_sim o.address str) (fr := o.self :: o.port.blocks)
    (List.perm_middle (a := o.self)).symm fun s hs => ?_
  exact .pure (by rw [hs]) (List.perm_middle (a := o.self))

theorem setPort_sim (o : HTcpOptions) (str : Option Bytes) :
    HSim (o.setPort str) (.ok (o.address.val, str)) o.blocks (fun o => (o.address.val, o.port.val))
      blocks := by
  refine .use (by simp [blocks]) ?_
  refine .stepOk (HStr.set_sim o.port str) (fr := o.self :: o.address.blocks)
    (List.perm_append_comm (l₁ := o.self :: o.address.blocks)) fun s hs => ?_
  exact .pure (by rw [hs]) (List.perm_append_comm (l₂ := o.self :: o.address.blocks))

theorem destroy_sim {γ δ : Type} {er : γ → δ} {blk : γ → List Ptr} {pre pre' : List Ptr}
    (o : HTcpOptions) {f : Unit → HExec γ} {w : Exec δ} (hp : pre'.Perm (o.blocks ++ pre))
    (hf : HSim (f ()) w pre er blk) : HSim (destroy o >>= f) w pre' er blk := by
  refine .perm hp ?_
  simp only [destroy, bind_assoc]
  refine .use (by simp [blocks]) ?_
  refine HStr.free_sim o.address (pre := o.port.blocks ++ o.self :: pre) ?_
    (HStr.free_sim o.port (pre := o.self :: pre) (.refl _) (.free (.refl _) hf))
  refine List.perm_iff_count.2 fun x => ?_
  simp only [blocks, List.count_append, count_cons_one]
  omega

end HTcpOptions

theorem hFileInit_sim (o : HPathOptions) (write : Bool) (disk : Option Bytes) (script : List Io) :
    HSim (hFileInit o write disk script)
      (.ok (if filePath o.path.val = .null then none else some (Rdwr.init (fileOps write)
        (FileSt.init write (filePath o.path.val = .dash) disk script)))) o.blocks
      (fun r => r.map HRdwr.rw) (fun r => r.elim [] HRdwr.blocks ++ o.blocks) := by
  unfold hFileInit
  refine .use (by simp [HPathOptions.blocks]) ?_
  split
  · next h => exact .pure (by simp [h, HStr.val, filePath]) (.refl _)
  · next p str h =>
    have hne : filePath (some str) ≠ .null := by
      simp only [filePath]; split <;> simp
    refine .alloc fun f => .use (by simp [HPathOptions.blocks, HStr.blocks, h]) (.alloc fun path =>
      .use (by simp) ?_)
    refine .stepOk (HRdwr.init_sim _ _ _) (fr := o.blocks) (.refl _) fun r hr => ?_
    refine .pure ?_ (.refl _)
    simp only [h, HStr.val, Option.map_some]
    rw [if_neg hne, hr]

theorem hFileWriterInit_sim (o : HPathOptions) (wopt : Option HWriterOptions) (disk : Option Bytes)
    (script : List Io) :
    HSim (hFileWriterInit o wopt disk script)
      (.ok (fileWriterInit (filePath o.path.val) (wopt.map HWriterOptions.val) disk script))
      (o.blocks ++ HWriter.woptBlocks wopt) (fun w => w.map HWriter.val)
      (fun w => w.elim [] HWriter.blocks ++ (o.blocks ++ HWriter.woptBlocks wopt)) := by
  unfold hFileWriterInit fileWriterInit
  refine .stepOk (hFileInit_sim o true disk script) (fr := HWriter.woptBlocks wopt) (.refl _) fun r hr => ?_
  cases r with
  | none =>
    split at hr
    · next h => rw [if_pos h]; exact .pure rfl (by simp)
    · simp at hr
  | some r =>
    split at hr
    · simp at hr
    · next h =>
      rw [if_neg h]
      have hr : r.rw = _ := Option.some.inj hr
      rw [← hr]
      have hsome : ∃ v, Writer.init (wopt.map HWriterOptions.val) r.rw = some v := by
        unfold Writer.init
        rw [if_neg (by rw [hr]; simp [Rdwr.init, fileOps])]
        exact ⟨_, rfl⟩
      obtain ⟨v, hv⟩ := hsome
      intro hp rest ho
      have hsim := HSim.last (HWriter.init_sim wopt r) (fr := o.blocks)
        (blk' := fun w => (match w with | none => r.blocks | some w => w.blocks) ++
          (o.blocks ++ HWriter.woptBlocks wopt))
        (pre' := r.blocks ++ o.blocks ++ HWriter.woptBlocks wopt) (by perm') (by intro a; cases a <;> perm')
      rcases hsim hp rest ho with ⟨a, h', h1, h2, h3, h4⟩ | h1
      · refine .inl ⟨a, h', h1, h2, ?_, h4⟩
        cases a with
        | none => rw [hv] at h2; cases h2
        | some a => exact h3
      · exact .inr h1

theorem hFileReaderInit_sim (o : HPathOptions) (ropt : Option HReaderOptions) (disk : Option Bytes)
    (script : List Io) :
    HSim (hFileReaderInit o ropt disk script)
      (.ok (fileReaderInit (filePath o.path.val) (ropt.map HReaderOptions.val) disk script))
      (o.blocks ++ HReader.roptBlocks ropt) (fun w => w.map HReader.val)
      (fun w => w.elim [] HReader.all ++ (o.blocks ++ HReader.roptBlocks ropt)) := by
  unfold hFileReaderInit fileReaderInit
  refine .stepOk (hFileInit_sim o false disk script) (fr := HReader.roptBlocks ropt) (.refl _) fun r hr => ?_
  cases r with
  | none =>
    split at hr
    · next h => rw [if_pos h]; exact .pure rfl (by simp)
    · simp at hr
  | some r =>
    split at hr
    · simp at hr
    · next h =>
      rw [if_neg h]
      have hr : r.rw = _ := Option.some.inj hr
      rw [← hr]
      have hsome : ∃ v, Reader.init (ropt.map HReaderOptions.val) r.rw = some v := by
        unfold Reader.init
        rw [if_neg (by rw [hr]; simp [Rdwr.init, fileOps])]
        exact ⟨_, rfl⟩
      obtain ⟨v, hv⟩ := hsome
      intro hp rest ho
      have hsim := HSim.last (HReader.init_sim ropt r) (fr := o.blocks)
        (blk' := fun w => (match w with | none => r.blocks | some w => w.all) ++
          (o.blocks ++ HReader.roptBlocks ropt))
        (pre' := r.blocks ++ o.blocks ++ HReader.roptBlocks ropt) (by perm') (by intro a; cases a <;> perm')
      rcases hsim hp rest ho with ⟨a, h', h1, h2, h3, h4⟩ | h1
      · refine .inl ⟨a, h', h1, h2, ?_, h4⟩
        cases a with
        | none => rw [hv] at h2; cases h2
        | some a => exact h3
      · exact .inr h1

/-- Making a socket writer, once the object of the transport is there. -/
theorem sockWriter_sim {β : Type} (x : β) (uw : Ptr) (fr : List Ptr) (wopt : Option HWriterOptions)
    (sock : Sock) :
    HSim (do
      let rdwr ← HRdwr.init sockOps sock [uw]
      let w ← HWriter.init wopt rdwr
      pure (w.map fun w => (x, w)))
      (.ok ((Writer.init (wopt.map HWriterOptions.val) (Rdwr.init sockOps sock)).map fun w => (x, w)))
      (uw :: (fr ++ HWriter.woptBlocks wopt)) (fun w => w.map fun w => (w.1, w.2.val))
      (fun w => w.elim [] (fun w => w.2.blocks) ++ (fr ++ HWriter.woptBlocks wopt)) := by
  refine .stepOk (HRdwr.init_sim _ _ _) (fr := fr ++ HWriter.woptBlocks wopt) (.refl _) fun r hr => ?_
  refine .stepOk (HWriter.init_sim wopt r) (fr := fr) (by perm') fun w hw => ?_
  rw [hr] at hw
  have hsome : ∃ v, Writer.init (wopt.map HWriterOptions.val) (Rdwr.init sockOps sock) = some v := by
    unfold Writer.init
    rw [if_neg (by simp [Rdwr.init, sockOps])]
    exact ⟨_, rfl⟩
  obtain ⟨v, hv⟩ := hsome
  rw [hv] at hw ⊢
  cases w with
  | none => cases hw
  | some w => exact .pure (by simp [← Option.some.inj hw]) (by show List.Perm _ (w.blocks ++ _); perm')

theorem hUnixWriterInit_sim (o : HPathOptions) (wopt : Option HWriterOptions) (sock : Sock) :
    HSim (hUnixWriterInit o wopt sock)
      (.ok (unixWriterInit o.path.val (wopt.map HWriterOptions.val) sock))
      (o.blocks ++ HWriter.woptBlocks wopt) (fun w => w.map fun w => (w.1, w.2.val))
      (fun w => w.elim [] (fun w => w.2.blocks) ++ (o.blocks ++ HWriter.woptBlocks wopt)) := by
  unfold hUnixWriterInit unixWriterInit
  refine .use (by simp [HPathOptions.blocks]) ?_
  split
  · next h => simp only [h]; exact .pure rfl (.refl _)
  · next p path h =>
    have hm : p ∈ o.blocks := by simp [HPathOptions.blocks, HStr.blocks, h]
    simp only [h, HStr.val, Option.map_some]
    refine .use (by simp [hm]) ?_
    split
    · exact .pure rfl (.refl _)
    · refine .alloc fun uw => .use (by simp) (.use (by simp [hm]) (sockWriter_sim _ uw _ wopt sock))

theorem hTcpWriterInit_sim (pton : Family → Bytes → Option Bytes) (o : HTcpOptions)
    (wopt : Option HWriterOptions) (sock : Sock) :
    HSim (hTcpWriterInit pton o wopt sock)
      (.ok (tcpWriterInit pton o.address.val o.port.val (wopt.map HWriterOptions.val) sock))
      (o.blocks ++ HWriter.woptBlocks wopt) (fun w => w.map fun w => (w.1, w.2.val))
      (fun w => w.elim [] (fun w => w.2.blocks) ++ (o.blocks ++ HWriter.woptBlocks wopt)) := by
  unfold hTcpWriterInit tcpWriterInit
  refine .use (by simp [HTcpOptions.blocks]) ?_
  split
  · next pa address pp port ha hp =>
    have hma : pa ∈ o.blocks := by simp [HTcpOptions.blocks, HStr.blocks, ha]
    have hmp : pp ∈ o.blocks := by simp [HTcpOptions.blocks, HStr.blocks, hp]
    simp only [ha, hp, HStr.val, Option.map_some]
    refine .alloc fun tw => .use (by simp [hma]) (.use (by simp) ?_)
    cases hf : fillAddr pton address with
    | none => exact .free (.refl _) (.pure rfl (.refl _))
    | some fa =>
      refine .use (by simp [hmp]) ?_
      cases hpp : parsePort port with
      | none => exact .free (.refl _) (.pure rfl (.refl _))
      | some port => exact sockWriter_sim _ tw _ wopt sock
  · next h =>
    cases ha : o.address with
    | none => exact .pure rfl (.refl _)
    | some a =>
      cases hp : o.port with
      | none => exact .pure rfl (.refl _)
      | some b => exact absurd hp (h _ _ _ _ ha)

namespace HIothr

variable {σ : Type}

/-- The blocks of input queues. -/
def qBlocks (qs : List (Ptr × Ptr)) : List Ptr := qs.flatMap fun q => [q.1, q.2]

theorem initQueues_sim (size n : Nat) (qs : List Queue) (h : makeQueues size n = some qs) :
    HSim (initQueues size n) (.ok true) [] Option.isSome
      (fun qs => match qs with | none => [] | some qs => qBlocks qs) := by
  induction n generalizing qs with
  | zero => exact .pure rfl (.refl _)
  | succ n ih =>
    unfold initQueues
    unfold makeQueues at h
    split at h
    · cases h
    · next q hq =>
      obtain ⟨qs', h', -⟩ := Option.map_eq_some_iff.1 h
      simp only [hq]
      refine .alloc fun q => .alloc fun data => ?_
      refine .stepOk (ih qs' h') (fr := [data, q]) (.refl _) fun x hx => ?_
      cases x with
      | none => cases hx
      | some x => exact .pure rfl (by
          refine List.perm_iff_count.2 fun _ => ?_
          simp only [qBlocks, List.flatMap_cons, List.count_append, count_cons_one, List.count_nil]
          omega)

/-- The block of the options. -/
def optBlocks (o : Option (Ptr × IothrOptions)) : List Ptr := (o.map Prod.fst).toList

theorem fetch_sim (o : Option (Ptr × IothrOptions)) :
    HSim (fetch o) (.ok ((o.map Prod.snd).getD .init)) (optBlocks o) id (fun _ => optBlocks o) := by
  cases o with
  | none => exact .pure rfl (.refl _)
  | some o => exact .use (by simp [optBlocks]) (.pure rfl (.refl _))

theorem init_sim (o : Option (Ptr × IothrOptions)) (w : HWriter σ) (opt : IothrOptions)
    (qs : List Queue) (h : iothrInit (o.map Prod.snd) true = .ok (some (opt, qs))) :
    HSim (init o true w) (.ok (opt, w.val)) (w.blocks ++ optBlocks o)
      (fun p => (p.1, p.2.writer.val)) (fun p => p.2.blocks ++ optBlocks o) := by
  obtain ⟨hopt, hqs⟩ : opt = (if ((o.map Prod.snd).getD .init).outputQueueSize > IOV_MAX then
      { (o.map Prod.snd).getD .init with outputQueueSize := IOV_MAX } else (o.map Prod.snd).getD .init) ∧
      makeQueues opt.inputQueueSize opt.numInputQueues = some qs := by
    unfold iothrInit at h
    simp only [Bool.not_true, Bool.false_eq_true, if_false] at h
    split at h
    · cases h
    · next qs' hq =>
      cases h
      exact ⟨rfl, hq⟩
  unfold init
  refine .alloc fun self => ?_
  refine .stepOk (fetch_sim o) (fr := self :: w.blocks)
    (List.perm_append_comm (l₁ := self :: w.blocks)) fun o' ho' => ?_
  have ho' : o' = (o.map Prod.snd).getD .init := ho'
  rw [← ho'] at hopt
  simp only [Bool.not_true, Bool.false_eq_true, if_false]
  rw [← hopt]
  refine .alloc fun queues => ?_
  refine .stepOk (initQueues_sim _ _ qs hqs) (fr := queues :: (optBlocks o ++ self :: w.blocks)) (.refl _)
    fun x hx => ?_
  cases x with
  | none => cases hx
  | some x =>
    refine .use (by simp) (.alloc fun iov => .alloc fun entries => .use (by simp) (.pure rfl ?_))
    refine List.perm_iff_count.2 fun _ => ?_
    simp only [blocks, qBlocks, List.count_append, count_cons_one, List.count_nil]
    omega

theorem call_sim (t : HIothr σ) (op : WOp) :
    HSim (t.call (·.step op)) (t.writer.val.step op) t.blocks
      (fun p => (p.1, p.2.writer.val)) (fun p => p.2.blocks) := by
  refine .ret (.use (by simp [blocks]) (.useAll (by simp [blocks]) ?_))
  refine .step (HWriter.step_sim t.writer op) (fr := [t.self, t.queues, t.iov, t.entries] ++ qBlocks t.qs)
    (by rw [blocks, List.append_assoc]; exact .refl _) ?_
  rintro ⟨res, w⟩
  exact .pure rfl (by simp only [blocks, List.append_assoc]; exact .refl _)

theorem freeQueues_sim {γ δ : Type} {er : γ → δ} {blk : γ → List Ptr} {pre : List Ptr} (t : HIothr σ)
    (qs : List (Ptr × Ptr)) {f : Unit → HExec γ} {w : Exec δ}
    (h1 : t.self ∈ pre) (h2 : t.queues ∈ pre) (hf : HSim (f ()) w pre er blk) :
    HSim (t.freeQueues qs >>= f) w (qBlocks qs ++ pre) er blk := by
  induction qs with
  | nil => exact hf
  | cons q qs ih =>
    simp only [freeQueues, bind_assoc]
    refine .use (by simp [h1]) (.use (by simp [h2]) (.use (by simp [qBlocks]) (.use (by simp [qBlocks]) ?_)))
    refine .free (pre := q.1 :: (qBlocks qs ++ pre)) ?_ (.free (.refl _) ih)
    exact .swap _ _ _

theorem destroy_sim (t : HIothr σ) :
    HSim t.destroy (t.writer.val.destroy >>= fun p => .ok p.2) t.blocks id (fun _ => []) := by
  refine .use (by simp [blocks]) ?_
  refine .step (HWriter.destroy_sim t.writer) (fr := [t.self, t.queues, t.iov, t.entries] ++ qBlocks t.qs)
    (by rw [blocks, List.append_assoc]; exact .refl _) ?_
  rintro ⟨res, rw⟩
  refine .perm (pre := qBlocks t.qs ++ [t.self, t.queues, t.iov, t.entries])
    (List.perm_append_comm (l₁ := [t.self, t.queues, t.iov, t.entries])) ?_
  refine freeQueues_sim t t.qs (by simp) (by simp) ?_
  refine .use (by simp) (.free (pre := [t.self, t.iov, t.entries]) (by perm)
    (.free (pre := [t.self, t.entries]) (by perm) (.free (pre := [t.self]) (by perm)
      (.free (pre := []) (.refl _) (.pure rfl (.refl _))))))

end HIothr

end Fstrm
