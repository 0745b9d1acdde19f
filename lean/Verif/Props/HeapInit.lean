import Verif.Lemmas.HeapInit
import Verif.Lemmas.HeapLost
import Verif.Spec.HeapLife
import Verif.Props.Iothr
import Verif.Props.Heap

/-!
# Memory of transports, of their options and of the I/O thread (C88)
-/

set_option autoImplicit false

namespace Fstrm

variable {σ : Type}

theorem HSim.endsWith {α : Type} {m : HExec α} {v : Exec α} {pre : List Ptr} {blk : α → List Ptr}
    {after : List Ptr} (h : HSim m v pre id blk) (hb : ∀ a, (blk a).Perm after) (h0 : Heap) (rest : List Ptr)
    (hv : h0.Valid) (hp : h0.live.Perm (pre ++ rest)) : EndsWith m v h0 (after ++ rest) := by
  have ho : Owns h0 (pre ++ rest) :=
    ⟨hp, hp.nodup_iff.1 hv.nodup, fun p hm => hv.fresh p (hp.mem_iff.2 hm)⟩
  rcases h h0 rest ho with ⟨a, h', e1, e2, e3, -⟩ | h
  · exact .inl ⟨a, h', e1, e2, ⟨e3.perm.nodup_iff.2 e3.nodup, fun p hp => e3.fresh p (e3.perm.mem_iff.1 hp)⟩,
      e3.perm.trans ((hb a).append_right rest)⟩
  · obtain ⟨e, e1, e2 | ⟨rfl, e2⟩⟩ := h
    · exact .inr (.inl ⟨e, e1, e2⟩)
    · exact .inr (.inr ⟨e1, e2⟩)

/-- A step whose value is known and whose outcome satisfies `P`. -/
theorem HSim.stepOkPost {α β γ δ : Type} {pre pre' fr : List Ptr} {er : α → β} {blk : α → List Ptr}
    {er' : γ → δ} {blk' : γ → List Ptr} {m : HExec α} {b : β} {f : α → HExec γ} {v : Exec δ}
    {P : α → Prop} (hm : HSim m (.ok b) pre er blk) (hP : HPost m P) (hp : pre'.Perm (pre ++ fr))
    (hf : ∀ a, er a = b → P a → HSim (f a) v (blk a ++ fr) er' blk') :
    HSim (m >>= f) v pre' er' blk' := by
  refine .perm hp ?_
  intro h rest ho
  rcases HSim.frame fr hm h rest ho with ⟨a, h', h1, h2, h3, h4⟩ | ⟨e, h1, h2⟩
  · rw [HExec.bind_ok h1]
    cases h2
    exact (hf a rfl (hP h a h' h1) h' rest h3).via h4
  · rcases h2 with h2 | h2
    · cases h2
    · exact .inr ⟨e, HExec.bind_error h1, .inr h2⟩

theorem HWriter.run_sim (w : HWriter σ) (ops : List WOp) :
    HSim (w.run ops) (w.val.run ops) w.blocks (fun p => (p.1, p.2.val)) (fun p => p.2.blocks) := by
  induction ops generalizing w with
  | nil => exact .pure rfl (.refl _)
  | cons op ops ih =>
    refine .bind (HWriter.step_sim w op) ?_
    rintro ⟨r, w⟩
    refine .bind (ih w) ?_
    rintro ⟨rs, w⟩
    exact .pure rfl (.refl _)

theorem HIothr.run_sim (t : HIothr σ) (ops : List WOp) :
    HSim (t.run ops) (t.writer.val.run ops) t.blocks (fun p => (p.1, p.2.writer.val))
      (fun p => p.2.blocks) := by
  induction ops generalizing t with
  | nil => exact .pure rfl (.refl _)
  | cons op ops ih =>
    refine .bind (HIothr.call_sim t op) ?_
    rintro ⟨r, t⟩
    refine .bind (ih t) ?_
    rintro ⟨rs, t⟩
    exact .pure rfl (.refl _)

theorem HReader.run_sim (fuel : Nat) (r : HReader σ) (ops : List ROp) :
    HSim (r.run fuel ops) (r.val.run fuel ops) r.all (fun p => (p.1, p.2.val)) (fun p => p.2.all) := by
  induction ops generalizing r with
  | nil => exact .pure rfl (.refl _)
  | cons op ops ih =>
    refine .bind (HReader.step_sim fuel r op) ?_
    rintro ⟨res, d, r⟩
    refine .bind (ih r) ?_
    rintro ⟨rs, r⟩
    exact .pure rfl (.refl _)

theorem lastSet_cons (s : Option Bytes) (l : List (Option Bytes)) (x : Option Bytes) :
    (s :: l).getLast?.getD x = l.getLast?.getD s := by
  cases l <;> simp [List.getLast?_cons]

theorem HPathOptions.setPaths_sim (o : HPathOptions) (l : List (Option Bytes)) :
    HSim (o.setPaths l) (.ok (l.getLast?.getD o.path.val)) o.blocks (fun o => o.path.val) blocks := by
  induction l generalizing o with
  | nil => exact .pure rfl (.refl _)
  | cons s l ih =>
    refine .stepOk (HPathOptions.setPath_sim o s) (fr := []) (by simp) fun o ho => ?_
    rw [lastSet_cons, ← ho, List.append_nil]
    exact ih o

theorem HTcpOptions.sets_sim (o : HTcpOptions) (l : List (Option Bytes ⊕ Option Bytes)) :
    HSim (o.sets l)
      (.ok ((addresses l).getLast?.getD o.address.val, (ports l).getLast?.getD o.port.val)) o.blocks
      (fun o => (o.address.val, o.port.val)) blocks := by
  induction l generalizing o with
  | nil => exact .pure rfl (.refl _)
  | cons s l ih =>
    cases s with
    | inl s =>
      refine .stepOk (HTcpOptions.setAddress_sim o s) (fr := []) (by simp) fun o ho => ?_
      have h1 : addresses (.inl s :: l) = s :: addresses l := rfl
      have h2 : ports (.inl s :: l) = ports l := rfl
      rw [h1, h2, lastSet_cons, ← (Prod.mk.inj ho).1, ← (Prod.mk.inj ho).2, List.append_nil]
      exact ih o
    | inr s =>
      refine .stepOk (HTcpOptions.setPort_sim o s) (fr := []) (by simp) fun o ho => ?_
      have h1 : addresses (.inr s :: l) = addresses l := rfl
      have h2 : ports (.inr s :: l) = s :: ports l := rfl
      rw [h1, h2, lastSet_cons, ← (Prod.mk.inj ho).1, ← (Prod.mk.inj ho).2, List.append_nil]
      exact ih o

theorem HWriter.useUp_sim (w : Option (HWriter σ)) (calls : List WOp) :
    HSim (HWriter.useUp w calls) (Writer.useUp (w.map HWriter.val) calls) (w.elim [] HWriter.blocks) id
      (fun _ => []) := by
  cases w with
  | none => exact .pure rfl (.refl _)
  | some w =>
    refine .bind (HWriter.run_sim w calls) ?_
    rintro ⟨rs, w⟩
    refine .bind (HWriter.destroy_sim w) ?_
    rintro ⟨r, rw⟩
    exact .pure rfl (.refl _)

theorem HReader.run_length (fuel : Nat) (r : HReader σ) (ops : List ROp) :
    HPost (r.run fuel ops) (fun p => p.1.length = ops.length) := by
  induction ops generalizing r with
  | nil => exact .pure rfl
  | cons op ops ih => exact .step fun p => .bind (ih p.2.2) fun q hq => .pure (by simp [hq])

theorem HReader.run_whole (fuel : Nat) (r : HReader σ) (ops : List ROp) (hw : r.Whole) :
    HPost (r.run fuel ops) (fun p => p.1.length = ops.length ∧ (NoReopen1 (ops.zip p.1) →
      (r.stop.isSome → ROp.opn ∉ ops) → p.2.lost = [])) := by
  induction ops generalizing r with
  | nil => exact .pure ⟨rfl, fun _ _ => hw.lost⟩
  | cons op ops ih =>
    intro h p h' he
    obtain ⟨⟨res, d, r1⟩, h1, e1, he⟩ := HExec.bind_inv he
    obtain ⟨⟨rs, r2⟩, h2, e2, he⟩ := HExec.bind_inv he
    obtain ⟨rfl, rfl⟩ : p = ((res, d) :: rs, r2) ∧ h' = h2 := by cases he; exact ⟨rfl, rfl⟩
    have hlen := HReader.run_length fuel r1 ops h1 _ h' e2
    dsimp only at hlen
    refine ⟨by simp [hlen], fun hn ho => ?_⟩
    have hn' := List.pairwise_cons.1 (show List.Pairwise _ ((op, res, d) :: ops.zip rs) from hn)
    obtain ⟨hw1, hs1⟩ := HReader.step_whole fuel r op hw
      (fun h => Option.not_isSome_iff_eq_none.1 fun h' => ho h' (by simp [h])) h _ h1 e1
    refine (ih r1 hw1 h1 _ h' e2).2 hn'.2 fun hs hm => ?_
    rcases hs1 hs with hs | ⟨h3, h4⟩
    · exact ho hs (by simp [hm])
    · obtain ⟨k, hk, hke⟩ := List.getElem_of_mem hm
      have hk' : k < rs.length := by rw [hlen]; exact hk
      refine hn'.1 (ops[k], rs[k]) ?_ h3 h4 hke
      have hz : k < (ops.zip rs).length := by
        rw [List.length_zip]
        exact Nat.lt_min.2 ⟨hk, hk'⟩
      rw [← List.getElem_zip (h := hz)]
      exact List.getElem_mem _

theorem HReader.useUp_sim (fuel : Nat) (r : Option (HReader σ)) (calls : List ROp)
    (hw : ∀ r', r = some r' → r'.lost = [] ∧ r'.stop = none)
    (hn : ∀ r' rs r'', r = some r' → r'.val.run fuel calls = .ok (rs, r'') → NoReopen1 (calls.zip rs)) :
    HSim (HReader.useUp fuel r calls) (Reader.useUp fuel (r.map HReader.val) calls)
      (r.elim [] HReader.all) id (fun _ => []) := by
  cases r with
  | none => exact .pure rfl (.refl _)
  | some r =>
    obtain ⟨hl, hs⟩ := hw r rfl
    intro h rest ho
    unfold HReader.useUp Reader.useUp
    simp only [Option.elim, Option.map]
    rcases HReader.run_sim fuel r calls h rest ho with ⟨⟨rs, r'⟩, h', e1, e2, e3, e4⟩ | ⟨e, e1, e2⟩
    · rw [HExec.bind_ok e1, e2]
      have hl' : r'.lost = [] := (HReader.run_whole fuel r calls ⟨hl, by simp [hs]⟩ h _ h' e1).2
        (hn r rs _ rfl e2) (by simp [hs])
      have hk : HSim (do
          let (res, rw) ← r'.destroy
          pure (some (rs, res, rw)))
          (do
          let (res, rw) ← r'.val.destroy
          .ok (some (rs, res, rw))) r'.all id (fun _ => []) := by
        rw [HReader.all, hl', List.append_nil]
        refine .bind (HReader.destroy_sim r') ?_
        rintro ⟨res, rw⟩
        exact .pure rfl (.refl _)
      exact (hk h' rest e3).via e4
    · rcases e2 with e2 | e2
      · exact .inr ⟨e, HExec.bind_error e1, .inl (by rw [e2]; rfl)⟩
      · exact .inr ⟨e, HExec.bind_error e1, .inr e2⟩

theorem hFileReaderInit_whole (o : HPathOptions) (ropt : Option HReaderOptions) (disk : Option Bytes)
    (script : List Io) : HPost (hFileReaderInit o ropt disk script)
      (fun r => ∀ r', r = some r' → r'.lost = [] ∧ r'.stop = none) := by
  refine .step fun rdwr => ?_
  cases rdwr with
  | none => exact .pure (by simp)
  | some rdwr => exact HProg.init_whole ropt rdwr

namespace Props

open Fstrm.Spec Iothr

theorem filePath_eq (p : Option Bytes) : filePath p = pathNamed p := by
  cases p with
  | none => rfl
  | some s =>
    have : [45] = ['-'].map (fun c => UInt8.ofNat c.toNat) := by decide
    simp only [filePath, pathNamed, this]

/-- **C88**, file writers: whatever paths are set, whether or not there are writer options, whatever
the file system does and whatever calls are made, everything allocated since is freed. Only blocks
that are allocated are touched; otherwise the program behaves as the one without memory, or memory
runs out. The path is the one set last. -/
theorem file_writer_memory (paths : List (Option Bytes)) (wopt : Option HWriterOptions)
    (disk : Option Bytes) (script : List Io) (calls : List WOp) (h0 : Heap) (rest : List Ptr)
    (hv : h0.Valid) (hp : h0.live.Perm (HWriter.woptBlocks wopt ++ rest)) :
    EndsWith (fileWriterLife paths wopt disk script calls)
      (Writer.useUp (fileWriterInit (pathNamed (lastSet paths)) (wopt.map HWriterOptions.val) disk script) calls)
      h0 (HWriter.woptBlocks wopt ++ rest) := by
  refine HSim.endsWith (pre := HWriter.woptBlocks wopt) (blk := fun _ => HWriter.woptBlocks wopt) ?_
    (fun _ => .refl _) h0 rest hv hp
  refine .stepOk HPathOptions.init_sim (fr := HWriter.woptBlocks wopt) (.refl _) fun o ho => ?_
  refine .stepOk (HPathOptions.setPaths_sim o paths) (.refl _) fun o' ho' => ?_
  rw [ho] at ho'
  refine .stepOk (hFileWriterInit_sim o' wopt disk script) (fr := []) (by simp) fun w hw => ?_
  rw [← filePath_eq, lastSet, ← ho', ← hw]
  refine HPathOptions.destroy_sim o' (pre := w.elim [] HWriter.blocks ++ HWriter.woptBlocks wopt)
    (by perm') ?_
  exact .last (HWriter.useUp_sim w calls) (.refl _) fun _ => .refl _

/-- **C88**, unix socket writers. -/
theorem unix_writer_memory (paths : List (Option Bytes)) (wopt : Option HWriterOptions)
    (sock : Sock) (calls : List WOp) (h0 : Heap) (rest : List Ptr)
    (hv : h0.Valid) (hp : h0.live.Perm (HWriter.woptBlocks wopt ++ rest)) :
    EndsWith (unixWriterLife paths wopt sock calls)
      (Writer.useUp ((unixWriterInit (lastSet paths) (wopt.map HWriterOptions.val) sock).map Prod.snd) calls)
      h0 (HWriter.woptBlocks wopt ++ rest) := by
  refine HSim.endsWith (pre := HWriter.woptBlocks wopt) (blk := fun _ => HWriter.woptBlocks wopt) ?_
    (fun _ => .refl _) h0 rest hv hp
  refine .stepOk HPathOptions.init_sim (fr := HWriter.woptBlocks wopt) (.refl _) fun o ho => ?_
  refine .stepOk (HPathOptions.setPaths_sim o paths) (.refl _) fun o' ho' => ?_
  rw [ho] at ho'
  refine .stepOk (hUnixWriterInit_sim o' wopt sock) (fr := []) (by simp) fun w hw => ?_
  rw [lastSet, ← ho', ← hw]
  refine HPathOptions.destroy_sim o' (pre := w.elim [] (fun w => w.2.blocks) ++ HWriter.woptBlocks wopt)
    (by perm') ?_
  have e1 : (w.map fun w => (w.1, w.2.val)).map Prod.snd = (w.map Prod.snd).map HWriter.val := by
    cases w <;> rfl
  have e2 : w.elim [] (fun w => w.2.blocks) = (w.map Prod.snd).elim [] HWriter.blocks := by
    cases w <;> rfl
  rw [e1, e2]
  exact .last (HWriter.useUp_sim _ calls) (.refl _) fun _ => .refl _

/-- **C88**, TCP socket writers. -/
theorem tcp_writer_memory (pton : Family → Bytes → Option Bytes)
    (sets : List (Option Bytes ⊕ Option Bytes)) (wopt : Option HWriterOptions)
    (sock : Sock) (calls : List WOp) (h0 : Heap) (rest : List Ptr)
    (hv : h0.Valid) (hp : h0.live.Perm (HWriter.woptBlocks wopt ++ rest)) :
    EndsWith (tcpWriterLife pton sets wopt sock calls)
      (Writer.useUp ((tcpWriterInit pton (lastSet (addresses sets)) (lastSet (ports sets))
        (wopt.map HWriterOptions.val) sock).map Prod.snd) calls)
      h0 (HWriter.woptBlocks wopt ++ rest) := by
  refine HSim.endsWith (pre := HWriter.woptBlocks wopt) (blk := fun _ => HWriter.woptBlocks wopt) ?_
    (fun _ => .refl _) h0 rest hv hp
  refine .stepOk HTcpOptions.init_sim (fr := HWriter.woptBlocks wopt) (.refl _) fun o ho => ?_
  refine .stepOk (HTcpOptions.sets_sim o sets) (.refl _) fun o' ho' => ?_
  rw [(Prod.mk.inj ho).1, (Prod.mk.inj ho).2] at ho'
  refine .stepOk (hTcpWriterInit_sim pton o' wopt sock) (fr := []) (by simp) fun w hw => ?_
  rw [lastSet, lastSet, ← (Prod.mk.inj ho').1, ← (Prod.mk.inj ho').2, ← hw]
  refine HTcpOptions.destroy_sim o' (pre := w.elim [] (fun w => w.2.blocks) ++ HWriter.woptBlocks wopt)
    (by perm') ?_
  have e1 : (w.map fun w => (w.1, w.2.val)).map Prod.snd = (w.map Prod.snd).map HWriter.val := by
    cases w <;> rfl
  have e2 : w.elim [] (fun w => w.2.blocks) = (w.map Prod.snd).elim [] HWriter.blocks := by
    cases w <;> rfl
  rw [e1, e2]
  exact .last (HWriter.useUp_sim _ calls) (.refl _) fun _ => .refl _

/-- **C88**, file readers, which are not opened again after their stream has ended (see C86). -/
theorem file_reader_memory (paths : List (Option Bytes)) (ropt : Option HReaderOptions)
    (disk : Option Bytes) (script : List Io) (fuel : Nat) (calls : List ROp) (h0 : Heap) (rest : List Ptr)
    (hv : h0.Valid) (hp : h0.live.Perm (HReader.roptBlocks ropt ++ rest))
    (hn : ∀ r rs r', fileReaderInit (pathNamed (lastSet paths)) (ropt.map HReaderOptions.val) disk script =
      some r → r.run fuel calls = .ok (rs, r') → NoReopen1 (calls.zip rs)) :
    EndsWith (fileReaderLife paths ropt disk script fuel calls)
      (Reader.useUp fuel
        (fileReaderInit (pathNamed (lastSet paths)) (ropt.map HReaderOptions.val) disk script) calls)
      h0 (HReader.roptBlocks ropt ++ rest) := by
  refine HSim.endsWith (pre := HReader.roptBlocks ropt) (blk := fun _ => HReader.roptBlocks ropt) ?_
    (fun _ => .refl _) h0 rest hv hp
  refine .stepOk HPathOptions.init_sim (fr := HReader.roptBlocks ropt) (.refl _) fun o ho => ?_
  refine .stepOk (HPathOptions.setPaths_sim o paths) (.refl _) fun o' ho' => ?_
  rw [ho] at ho'
  rw [← filePath_eq, lastSet, ← ho'] at hn ⊢
  refine .stepOkPost (hFileReaderInit_sim o' ropt disk script) (fr := [])
    (hFileReaderInit_whole o' ropt disk script) (by simp) fun r hr hw => ?_
  rw [← hr] at hn ⊢
  refine HPathOptions.destroy_sim o' (pre := r.elim [] HReader.all ++ HReader.roptBlocks ropt)
    (by perm') ?_
  refine .last (HReader.useUp_sim fuel r calls hw fun r' rs r'' h1 h2 => ?_) (.refl _) fun _ => .refl _
  exact hn r'.val rs r'' (by rw [h1]; rfl) h2

/-- **C88**, the I/O thread: in any execution that ends with the return of `fstrm_iothr_destroy`,
making the thread (with options that are destroyed afterwards, or with none), the calls it made on the
writer, and its destruction touch and free only what is allocated, and give back all of it: the
blocks of the writer, which was handed over, and everything allocated since. Or memory runs out. -/
theorem iothr_memory (o : Option IothrOptions) (opt : IothrOptions) (qs : List Queue) (w0 : HWriter σ)
    (acts : List IoAct) (s : Iothr σ) (h0 : Heap) (rest : List Ptr)
    (hv : h0.Valid) (hp : h0.live.Perm (w0.blocks ++ rest))
    (hinit : iothrInit o true = .ok (some (opt, qs)))
    (hrun : (Iothr.init opt w0.val).run acts = .ok s)
    (hd : s.destroyed = true) :
    (∃ h, iothrLife o w0 ((calls s.log).map Prod.fst) h0 =
        .ok ((opt, (calls s.log).map Prod.snd, s.writer.rdwr), h) ∧
      h.Valid ∧ h.live.Perm rest) ∨
    (iothrLife o w0 ((calls s.log).map Prod.fst) h0 = .error outOfMemory ∧ h0.Scarce) := by
  obtain ⟨w, hw, -, hdw⟩ := (iothr_invC hrun).writer
  obtain ⟨r, rdwr, hd1, hd2⟩ := hdw hd
  have key : EndsWith (iothrLife o w0 ((calls s.log).map Prod.fst))
      (.ok (opt, (calls s.log).map Prod.snd, s.writer.rdwr)) h0 ([] ++ rest) := by
    refine HSim.endsWith (pre := w0.blocks) (blk := fun _ => []) ?_ (fun _ => .refl _) h0 rest hv hp
    have hmk : HSim (o.elim (pure none) fun o => do
        let p ← alloc
        use p
        pure (some (p, o))) (.ok o) [] (fun p => p.map Prod.snd) HIothr.optBlocks := by
      cases o with
      | none => exact .pure rfl (.refl _)
      | some o => exact .alloc fun p => .use (by simp) (.pure rfl (.refl _))
    refine .stepOk hmk (fr := w0.blocks) (.refl _) fun po hpo => ?_
    rw [← hpo] at hinit
    refine .stepOk (HIothr.init_sim po w0 opt qs hinit) (fr := []) (by perm') ?_
    rintro ⟨opt', t⟩ ht
    obtain ⟨rfl, htw⟩ : opt' = opt ∧ t.writer.val = w0.val := Prod.mk.inj ht
    have hfree : ∀ {γ δ : Type} {er : γ → δ} {blk : γ → List Ptr} {f : Unit → HExec γ} {v : Exec δ},
        HSim (f ()) v t.blocks er blk →
        HSim (freeOpt (po.map Prod.fst) >>= f) v (t.blocks ++ HIothr.optBlocks po ++ []) er blk := by
      intro γ δ er blk f v hf
      cases po with
      | none => exact .perm (by simp [HIothr.optBlocks]) hf
      | some p => exact .free (by simp [HIothr.optBlocks]) hf
    refine hfree ?_
    have h1 := HIothr.run_sim t ((calls s.log).map Prod.fst)
    rw [htw, hw] at h1
    refine .stepOk h1 (fr := []) (by simp) ?_
    rintro ⟨rs, t'⟩ ht'
    obtain ⟨h2, h3⟩ := Prod.mk.inj ht'
    have h4 := HIothr.destroy_sim t'
    dsimp only at h2 h3
    rw [h3, hd1] at h4
    refine .stepOk h4 (fr := []) (by simp) fun rw hrw => ?_
    refine .pure ?_ (.refl _)
    simp only [id] at hrw ⊢
    rw [h2, hrw, hd2]
  rcases key with ⟨a, h, e1, e2, e3, e4⟩ | ⟨e, -, e2⟩ | h
  · cases e2
    exact .inl ⟨h, e1, e3, e4⟩
  · cases e2
  · exact .inr h

/- The hypotheses are met: with writer options, three paths set one after another, the last one
"-" or none at all; all memory but that of the options is free at the end. -/
def fileExample (paths : List (Option Bytes)) : HExec (Option (List Res × Res) × List Ptr × List Ptr) := do
  let wo ← HWriterOptions.init
  let (_, wo) ← wo.addCt [7]
  let r ← fileWriterLife paths (some wo) none [] [.opn, .write [1, 2], .writev [[3], [4, 4]], .close]
  let after ← fun h => .ok (h.live, h)
  pure (r.map fun r => (r.1, r.2.1), after, HWriter.woptBlocks (some wo))

example : (fileExample [some [97], none, some [98]] ⟨1, [], [], false⟩).map
      (fun p => (p.1.1, p.1.2.1.isPerm p.1.2.2)) =
    .ok (some ([.success, .success, .success, .success], .failure), true) := by decide +kernel
example : (fileExample [some [97], none] ⟨1, [], [], false⟩).map (fun p => (p.1.1, p.1.2.1.isPerm p.1.2.2)) =
    .ok (none, true) := by decide +kernel

/- A unix socket path that is too long, and an address that cannot be parsed: NULL, and nothing is
left behind. -/
example : (unixWriterLife [some [97], some (List.replicate 200 97)] none (Sock.init [] [] [] [] [] []) [] ⟨1, [], [], false⟩).map
      (fun p => (p.1.isNone, p.2.live)) = .ok (true, []) := by decide +kernel
example : (tcpWriterLife (fun _ _ => none) [.inl (some [49]), .inr (some [56, 48])] none (Sock.init [] [] [] [] [] []) []
      ⟨1, [], [], false⟩).map (fun p => (p.1.isNone, p.2.live)) = .ok (true, []) := by decide +kernel
example : (tcpWriterLife (fun _ a => some a) [.inr none, .inl (some [49]), .inr (some [56, 48])] none
      (Sock.init [] [] [] [] [] []) [.opn, .close] ⟨1, [], [], false⟩).map (fun p => (p.1.isSome, p.2.live)) = .ok (true, []) := by
  decide +kernel

/-- A file reader reading one data frame. -/
example : (fileReaderLife [some [97]] none (some (CFrame.wire ⟨.start, []⟩ ++ (be32 1 ++ [5]) ++
      CFrame.wire ⟨.stop, []⟩)) [] 5 [.read, .read, .close] ⟨1, [], [], false⟩).map
      (fun p => ((p.1.elim [] (fun q => q.1)).map Prod.fst, (p.1.elim [] (fun q => q.1)).map Prod.snd, p.2.live)) =
    .ok ([.success, .stop, .success], [some [5], none, none], []) := by decide +kernel
example : NoReopen1 [(.read, .success, some [5]), (.read, .stop, none), (.close, .success, none)] := by
  simp [NoReopen1]

/-- An I/O thread with two queues: the execution of `Verif/Props/Iothr.lean`. -/
def iothrExample : HExec (Bool × List Res × List Ptr) := do
  let rdwr ← HRdwr.init (pipeOps false true) ⟨[], [], false⟩ []
  let wo ← HWriterOptions.init
  let (_, wo) ← wo.addCt [7]
  let w ← HWriter.init (some wo) rdwr
  wo.destroy
  w.elim (HExec.stuck (.abort "no writer")) fun w => do
    let (o, rs, _) ← iothrLife (some twoQueues) w
      [.opn, .writev [[1], [2, 2]], .writev [[3], [5], [4]], .close]
    let after ← fun h => .ok (h.live, h)
    pure (decide (o = twoQueues), rs, after)

example : (iothrExample ⟨1, [], [], false⟩).map Prod.fst =
    .ok (true, [.success, .success, .success, .success], []) := by decide +kernel
example : ((iothrInit (some twoQueues) true).map fun o => o.map Prod.fst) = .ok (some twoQueues) ∧
    ((Iothr.init twoQueues pipeWriter).run (demoPre ++ .io 9 .timeout :: demoPost)).map
      (fun s => (s.destroyed, calls s.log)) =
    .ok (true, [(.opn, .success), (.writev [[1], [2, 2]], .success), (.writev [[3], [5], [4]], .success),
      (.close, .success)]) := by decide +kernel

end Props

end Fstrm
