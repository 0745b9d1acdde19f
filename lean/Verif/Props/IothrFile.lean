import Verif.Lemmas.IothrFile
import Verif.Props.IothrThread
import Verif.Props.IothrQueues

/-!
# C139: what an I/O thread has written to a file
-/

set_option autoImplicit false

namespace Fstrm.Props

open Fstrm.Spec (FileKept wrote stream)
open Iothr

theorem trs_kept {s s' : Iothr FileSt} (h : Trs s s') (ho : s.opened = true ↔ s.writer.state = .opened)
    (hops : s.writer.rdwr.ops = fileOps true) (hno : attempts s'.log = attempts s.log) :
    (s'.opened = true ↔ s'.writer.state = .opened) ∧ s'.writer.rdwr.ops = fileOps true ∧
      FileKept s.writer.rdwr.obj.disk s'.writer.rdwr.obj.disk := by
  induction h with
  | refl => exact ⟨ho, hops, .refl _⟩
  | @snoc s1 s2 h t ih =>
    obtain ⟨x, hx⟩ := h.log
    obtain ⟨y, hy⟩ := t.log
    rw [hy, hx, attempts_append, attempts_append, List.append_assoc] at hno
    have hxy := List.append_right_eq_self.1 hno
    rw [List.append_eq_nil_iff] at hxy
    obtain ⟨o1, p1, k1⟩ := ih (by rw [hx, attempts_append, hxy.1, List.append_nil])
    refine ⟨opened_iff_tr o1 t, ?_⟩
    have hk : FileKeeps s1.writer.rdwr s2.writer.rdwr := by
      cases t with
      | opn now r w _ _ _ e =>
        have := List.append_cancel_left hy
        rw [← this] at hxy
        simp [attempts] at hxy
      | cls i r w _ _ _ _ e => exact wclose_keeps e
      | flushOk w _ _ o _ e => exact writev_keeps (o1.1 o) e
      | flushFail r r2 w w2 _ _ o _ e _ e2 => exact (writev_keeps (o1.1 o) e).trans (wclose_keeps e2)
      | finish r rdwr _ _ _ e => exact wdestroy_keeps e
      | _ => exact .refl _
    obtain ⟨p2, k2⟩ := hk p1
    exact ⟨p2, k1.trans k2⟩

/-- As long as no call on the writer fails the output is opened once. -/
theorem trs_opened_once {σ : Type} {s s' : Iothr σ} (h : Trs s s') (ho : s.opened = true)
    (hok : ∀ c ∈ (calls s'.log).drop (calls s.log).length, c.2 = .success) :
    attempts s'.log = attempts s.log ∧
      (s'.opened = true ∨ (∃ i, s'.pc = .drain i 0 ∧ s'.opt.numInputQueues ≤ i) ∨ s'.pc = .exited) := by
  induction h with
  | refl => exact ⟨rfl, .inl ho⟩
  | @snoc s1 s2 h t ih =>
    obtain ⟨x, hx⟩ := h.log
    obtain ⟨y, hy⟩ := t.log
    have hd : (calls s2.log).drop (calls s.log).length = calls x ++ calls y := by
      rw [hy, hx, calls_append, calls_append, List.append_assoc, List.drop_left]
    have hd1 : (calls s1.log).drop (calls s.log).length = calls x := by
      rw [hx, calls_append, List.drop_left]
    rw [hd] at hok
    obtain ⟨a1, h1⟩ := ih (by rw [hd1]; exact fun c hc => hok c (List.mem_append_left _ hc))
    have ha : ∀ z, s2.log = s1.log ++ z → attempts z = [] → attempts s2.log = attempts s.log := by
      intro z hz hn; rw [hz, attempts_append, hn, List.append_nil, a1]
    have hok2 : ∀ z, s2.log = s1.log ++ z → ∀ c ∈ calls z, c.2 = .success := by
      intro z hz c hc
      have : y = z := List.append_cancel_left (hy.symm.trans hz)
      subst this
      exact hok c (List.mem_append_right _ hc)
    cases t with
    | opn now r w hp hn _ e =>
      rcases h1 with h1 | ⟨i, h1, _⟩ | h1
      · rw [h1] at hn; cases hn
      · rw [h1] at hp; rcases hp with hp | hp <;> cases hp
      · rw [h1] at hp; rcases hp with hp | hp <;> cases hp
    | cls i r w hp hi _ _ _ => exact ⟨ha _ rfl rfl, .inr (.inl ⟨i, hp, hi⟩)⟩
    | flushOk w _ _ o _ e =>
      exact ⟨ha _ (List.append_assoc _ _ _) (by simp [attempts, attempts_freeEvs]), .inl o⟩
    | flushFail r r2 w w2 _ _ o _ e hr _ =>
      exact absurd (hok2 _ (List.append_assoc _ _ _) (.writev (s1.outq.map Entry.data), r) (by simp [calls])) hr
    | flushIdle => exact ⟨ha _ rfl (attempts_freeEvs _), h1⟩
    | drop i e rest => exact ⟨ha _ rfl (attempts_freeEvs _), h1⟩
    | finish r rdwr =>
      exact ⟨ha _ (List.append_assoc _ _ _) (by simp [attempts_append, attempts_freeEvs, attempts]), h1⟩
    | inserted t e q wk sig _ _ _ _ hs =>
      refine ⟨ha _ (List.append_assoc _ _ _) ?_, h1⟩
      rcases hs with rfl | rfl <;> rfl
    | pc p wk hp =>
      refine ⟨a1, ?_⟩
      rcases h1 with h1 | ⟨i, h1, h2⟩ | h1
      · exact .inl h1
      · cases hp with
        | drainNext j t t' e hj =>
          rw [h1] at e; cases e; exact absurd h2 (by omega)
        | drainAgain j t e hj => rw [h1] at e; cases e; exact absurd rfl hj
        | exit => exact .inr (.inr rfl)
        | _ => simp_all
      · cases hp <;> simp_all
    | began => exact ⟨a1, h1⟩
    | lost => exact ⟨a1, h1⟩
    | push => exact ⟨a1, h1⟩
    | _ => exact ⟨ha _ rfl rfl, h1⟩

/-- What is in the file of a writer for files when it is given to an I/O thread. -/
theorem file_start {w : Writer FileSt} {path : FilePath} {wopt : Option WriterOptions} {disk : Option Bytes}
    {script : List Io} (hinit : fileWriterInit path wopt disk script = some w) :
    w.rdwr.ops = fileOps true ∧ w.state ≠ .opened := by
  unfold fileWriterInit at hinit
  split at hinit
  · cases hinit
  · obtain ⟨i1, _, i3, _⟩ := init_some hinit
    exact ⟨by rw [i3]; rfl, by rw [i1]; simp⟩

theorem trs_file {w : Writer FileSt} {path : FilePath} {wopt : Option WriterOptions} {disk : Option Bytes}
    {script : List Io} {opt : IothrOptions} {s : Iothr FileSt}
    (hinit : fileWriterInit path wopt disk script = some w)
    (h : Trs (Iothr.init opt w) s) :
    s.writer.rdwr.ops = fileOps true ∧ (s.opened = true ↔ s.writer.state = .opened) := by
  obtain ⟨f1, f2⟩ := file_start hinit
  refine h.inv (P := fun s => s.writer.rdwr.ops = fileOps true ∧ (s.opened = true ↔ s.writer.state = .opened)) ?_
    ⟨f1, by simp [Iothr.init, f2]⟩
  intro a b ⟨p, o⟩ t
  refine ⟨?_, opened_iff_tr o t⟩
  cases t with
  | opn now r w _ _ _ e => exact (open_frame e).2.1.ops.trans p
  | cls i r w _ _ _ _ e => exact ((wclose_keeps e) p).1
  | flushOk w _ _ ho _ e => exact ((writev_keeps (o.1 ho) e) p).1
  | flushFail r r2 w w2 _ _ ho _ e _ e2 => exact (((writev_keeps (o.1 ho) e).trans (wclose_keeps e2)) p).1
  | finish r rdwr _ _ _ e => exact ((wdestroy_keeps e) p).1
  | _ => exact p

theorem trs_file_kept {w : Writer FileSt} {wopt : Option WriterOptions} {disk : Option Bytes} {script : List Io}
    {opt : IothrOptions} {s s' : Iothr FileSt} (hinit : fileWriterInit .file wopt disk script = some w)
    (h : Trs (Iothr.init opt w) s) (h' : Trs s s')
    (hor : attempts s'.log = attempts s.log ∨
      (outputOpen false s.log = true ∧
        ∀ c ∈ (calls s'.log).drop (calls s.log).length, c.2 = .success)) :
    FileKept s.writer.rdwr.obj.disk s'.writer.rdwr.obj.disk := by
  obtain ⟨p, o⟩ := trs_file hinit h
  refine (trs_kept h' o p ?_).2.2
  rcases hor with hor | ⟨ho, hok⟩
  · exact hor
  · exact (trs_opened_once h' ((trs_invC h).opn.trans ho) hok).1

/-- **C139**, what holds of the last part. The I/O thread writes to a file. As long as no call on the writer
fails once the file has been opened, what is in the file stays there; whatever fails, it stays there
until the next attempt of the I/O thread to open the file. Missing: after a failure the I/O thread opens
the file again, and its contents are lost (`reopen_loses`). -/
theorem iothr_file_kept_partial (w : Writer FileSt) (wopt : Option WriterOptions) (disk : Option Bytes)
    (script : List Io) (opt : IothrOptions) (pre post : List IoAct) (s s' : Iothr FileSt)
    (hinit : fileWriterInit .file wopt disk script = some w)
    (h : (Iothr.init opt w).run pre = .ok s) (h' : s.run post = .ok s')
    (hor : attempts s'.log = attempts s.log ∨
      (outputOpen false s.log = true ∧
        ∀ c ∈ (calls s'.log).drop (calls s.log).length, c.2 = .success)) :
    FileKept s.writer.rdwr.obj.disk s'.writer.rdwr.obj.disk :=
  trs_file_kept hinit (run_trs pre h) (run_trs post h') hor

/-- **C139**, the same in every interleaving of memory accesses. -/
theorem queues_file_kept_partial (w : Writer FileSt) (wopt : Option WriterOptions) (disk : Option Bytes)
    (script : List Io) (opt : IothrOptions) (hr : Reached opt) (hpow : ∃ k, opt.inputQueueSize = 2 ^ k)
    (m : Machine) (pre post : List QAct) (s0 s s' : IoQ FileSt (opt.queueImpl m))
    (hinit : fileWriterInit .file wopt disk script = some w)
    (hi : IoQ.init (opt.queueImpl m) ENTRY_SIZE opt w = some s0)
    (h : s0.run pre = .ok s) (h' : s.run post = .ok s')
    (hor : attempts s'.io.log = attempts s.io.log ∨
      (outputOpen false s.io.log = true ∧
        ∀ c ∈ (calls s'.io.log).drop (calls s.io.log).length, c.2 = .success)) :
    FileKept s.io.writer.rdwr.obj.disk s'.io.writer.rdwr.obj.disk := by
  obtain ⟨ht, num, R, hQ, hl, _⟩ := queues_link hr hpow hi h
  exact trs_file_kept hinit ht (hl.run hQ post h').2 hor

theorem infix_map {α β : Type} {f : α → β} {l : List α} {m : List β} (h : m <:+: l.map f) :
    ∃ k, k <:+: l ∧ m = k.map f := by
  obtain ⟨a, b, h⟩ := h
  obtain ⟨x, z, rfl, h1, rfl⟩ := List.map_eq_append_iff.1 h.symm
  obtain ⟨x, y, rfl, rfl, rfl⟩ := List.map_eq_append_iff.1 h1
  exact ⟨y, ⟨x, z, rfl⟩, rfl⟩

theorem handed_frames (log : List IoEv) :
    ((calls log).map Prod.fst).flatMap WOp.frames = (handed log).map Entry.data := by
  induction log with
  | nil => rfl
  | cons e l ih => cases e <;> simp [calls, handed, ih, WOp.frames]

/-- Destroying the I/O thread leaves the file as it is. -/
theorem trs_disk {w : Writer FileSt} {path : FilePath} {wopt : Option WriterOptions} {disk : Option Bytes}
    {script : List Io} {opt : IothrOptions} {s : Iothr FileSt}
    (hinit : fileWriterInit path wopt disk script = some w)
    (h : Trs (Iothr.init opt w) s) :
    ∃ w', w.run ((calls s.log).map Prod.fst) = .ok ((calls s.log).map Prod.snd, w') ∧
      s.writer.rdwr.obj.disk = w'.rdwr.obj.disk := by
  suffices hd : s.destroyed = true → ∃ w', w.run ((calls s.log).map Prod.fst) =
      .ok ((calls s.log).map Prod.snd, w') ∧ s.writer.rdwr.obj.disk = w'.rdwr.obj.disk by
    cases hs : s.destroyed with
    | true => exact hd hs
    | false =>
      obtain ⟨w', hw, ha, _⟩ := (trs_invC h).writer
      exact ⟨w', hw, by rw [ha hs]⟩
  have key : ∀ i s, i = Iothr.init opt w → Trs i s → s.destroyed = true → ∃ w', w.run ((calls s.log).map Prod.fst) =
      .ok ((calls s.log).map Prod.snd, w') ∧ s.writer.rdwr.obj.disk = w'.rdwr.obj.disk := by
    intro i s hi h
    induction h with
    | refl => intro hd; rw [hi] at hd; simp [Iothr.init] at hd
    | @snoc s1 s2 h t ih =>
      subst hi
      intro hd
      have hx : s1.destroyed = true → s1.pc = .exited := (trs_invC h).alive
      cases t with
      | finish r rdwr _ hp hdd e =>
        obtain ⟨w', hw, ha, _⟩ := (trs_invC h).writer
        obtain ⟨p, o⟩ := trs_file hinit h
        have he : s1.opened = false := h.inv (P := fun s => s.pc = .exited → s.opened = false)
          (fun _ _ h t => exited_tr h t) (fun _ => rfl) hp
        refine ⟨w', ?_, ?_⟩
        · simpa only [calls_append, calls_freeEvs, calls, List.append_nil] using hw
        · rw [← ha hdd]
          unfold Writer.destroy at e
          rw [if_neg (by rw [← o, he]; simp)] at e
          obtain ⟨⟨r1, w1⟩, h1, e⟩ := Exec.bind_eq_ok.1 e
          cases h1
          obtain ⟨⟨r2, rw2⟩, h2, e⟩ := Exec.bind_eq_ok.1 e
          cases e
          unfold Rdwr.destroy at h2
          rw [p] at h2
          cases h2
          rfl
      | opn now r w hp => rw [hx hd] at hp; rcases hp with hp | hp <;> cases hp
      | cls i r w hp => rw [hx hd] at hp; cases hp
      | flushOk w _ hp => exact absurd (hx hd) hp
      | flushFail r r2 w w2 _ hp => exact absurd (hx hd) hp
      | inserted t e q wk sig _ _ _ _ hs =>
        obtain ⟨w', hw, he⟩ := ih hd
        refine ⟨w', ?_, he⟩
        rcases hs with rfl | rfl <;> simpa only [calls_append, calls, List.append_nil] using hw
      | _ =>
        obtain ⟨w', hw, he⟩ := ih hd
        refine ⟨w', ?_, he⟩
        first
          | exact hw
          | simpa only [calls_append, calls_freeEvs, calls, List.append_nil] using hw
  exact key _ s rfl h

theorem trs_file_prefix {w : Writer FileSt} {wopt : Option WriterOptions} {disk : Option Bytes} {script : List Io}
    {opt : IothrOptions} {s : Iothr FileSt} (hinit : fileWriterInit .file wopt disk script = some w)
    (hct : ∀ c ∈ optCts wopt, c.length ≤ 256) (h : Trs (Iothr.init opt w) s) :
    s.writer.rdwr.obj.disk = disk ∨
    ∃ d es, s.writer.rdwr.obj.disk = some d ∧ d <+: stream (optCts wopt).head? (es.map Entry.data) ∧
      (∀ q, (onQueue q es).Sublist (onQueue q (submits s.log))) ∧ es.Nodup := by
  obtain ⟨w', hw, hdisk⟩ := trs_disk hinit h
  rw [hdisk]
  rcases file_always_prefix w w' wopt disk script _ _ hinit hct hw with ⟨_, h1⟩ | ⟨d, fs, h1, h2, h3⟩
  · exact .inl h1
  · rw [handed_frames] at h3
    obtain ⟨es, h4, rfl⟩ := infix_map h3
    obtain ⟨o1, o2⟩ := trs_order h
    exact .inr ⟨d, es, h1, h2, fun q => ((h4.sublist.filter _).trans (o1 q)), h4.sublist.nodup o2⟩

/-- **C139**, first part. An I/O thread writes to a file. At every moment, also when the program is killed
then, whatever has failed and however much the C library has buffered: the file is as it was before,
or it is a beginning of one well-formed stream whose payloads have all been accepted; those of each queue
are in the order of submission, and none is there twice. -/
theorem iothr_file_prefix (w : Writer FileSt) (wopt : Option WriterOptions) (disk : Option Bytes)
    (script : List Io) (opt : IothrOptions) (as : List IoAct) (s : Iothr FileSt)
    (hinit : fileWriterInit .file wopt disk script = some w)
    (hct : ∀ c ∈ optCts wopt, c.length ≤ 256)
    (h : (Iothr.init opt w).run as = .ok s) :
    s.writer.rdwr.obj.disk = disk ∨
    ∃ d es, s.writer.rdwr.obj.disk = some d ∧ d <+: stream (optCts wopt).head? (es.map Entry.data) ∧
      (∀ q, (onQueue q es).Sublist (onQueue q (submits s.log))) ∧ es.Nodup :=
  trs_file_prefix hinit hct (run_trs as h)

/-- **C139**, first part, in every interleaving of memory accesses. A payload counts as accepted here when its
entry can be seen in the queue. -/
theorem queues_file_prefix (w : Writer FileSt) (wopt : Option WriterOptions) (disk : Option Bytes)
    (script : List Io) (opt : IothrOptions) (hr : Reached opt) (hpow : ∃ k, opt.inputQueueSize = 2 ^ k)
    (m : Machine) (as : List QAct) (s0 s : IoQ FileSt (opt.queueImpl m))
    (hinit : fileWriterInit .file wopt disk script = some w)
    (hct : ∀ c ∈ optCts wopt, c.length ≤ 256)
    (hi : IoQ.init (opt.queueImpl m) ENTRY_SIZE opt w = some s0) (h : s0.run as = .ok s) :
    s.io.writer.rdwr.obj.disk = disk ∨
    ∃ d es, s.io.writer.rdwr.obj.disk = some d ∧ d <+: stream (optCts wopt).head? (es.map Entry.data) ∧
      (∀ q, (onQueue q es).Sublist (onQueue q (submits s.io.log))) ∧ es.Nodup := by
  obtain ⟨ht, _⟩ := queues_link hr hpow hi h
  exact trs_file_prefix hinit hct ht

/-! Where the last part fails. -/

/-- The file is opened, START and the first frame are written and reach the file; then the disk is full once. -/
def fullScript : List Io := [.ok 0, .ok 99, .ok 99, .ok 99, .fail 0]

/-- One payload is written to the file. -/
def lossPre : List IoAct := [.getQueue, .submit 0 0 (some [1]) true, .insert 0] ++ ioTimes 12 9 ++ ioTimes 8 11

/-- Writing the second fails; the file is opened again when `reopen_interval` has passed, a third payload is
written, and the I/O thread is destroyed. -/
def lossPost : List IoAct :=
  [.submit 0 0 (some [2]) true, .insert 0] ++ ioTimes 12 12 ++ ioTimes 9 20 ++
  [.submit 0 0 (some [3]) true, .insert 0, .shutdown] ++ ioTimes 30 21 ++ [.finish]

/-- **C139**, the last part is false: after a failed write the I/O thread opens its file again, which
truncates it. Here the first payload has been written with success and is in the file; when destroy has
returned, the file is a complete stream with nothing but the third payload, and the last calls on the
writer have all reported success. -/
theorem reopen_loses : ∃ w s s', fileWriterInit .file (some ⟨[[7]]⟩) none fullScript = some w ∧
    (Iothr.init twoQueues w).run lossPre = .ok s ∧ s.run lossPost = .ok s' ∧
    calls s.log = [(.opn, .success), (.writev [[1]], .success)] ∧
    (∃ d, s.writer.rdwr.obj.disk = some d ∧ d ++ Spec.CFrame.wire ⟨.stop, []⟩ = stream (some [7]) [[1]]) ∧
    calls s'.log = calls s.log ++ [(.writev [[2]], .failure), (.close, .failure), (.opn, .success),
      (.writev [[3]], .success), (.close, .success)] ∧
    s'.writer.rdwr.obj.disk = some (stream (some [7]) [[3]]) ∧
    ¬ FileKept s.writer.rdwr.obj.disk s'.writer.rdwr.obj.disk := by
  have h1 : ((fileWriterInit .file (some ⟨[[7]]⟩) none fullScript).map fun w =>
      ((Iothr.init twoQueues w).run lossPre).map fun s => (calls s.log, s.writer.rdwr.obj.disk)) =
      some (.ok ([(.opn, .success), (.writev [[1]], .success)],
        some [0, 0, 0, 0, 0, 0, 0, 13, 0, 0, 0, 2, 0, 0, 0, 1, 0, 0, 0, 1, 7, 0, 0, 0, 1, 1])) := by decide +kernel
  have h2 : ((fileWriterInit .file (some ⟨[[7]]⟩) none fullScript).map fun w =>
      ((Iothr.init twoQueues w).run lossPre).bind fun s => (s.run lossPost).map fun s' =>
        (calls s'.log, s'.writer.rdwr.obj.disk)) =
      some (.ok ([(.opn, .success), (.writev [[1]], .success), (.writev [[2]], .failure), (.close, .failure),
          (.opn, .success), (.writev [[3]], .success), (.close, .success)],
        some (stream (some [7]) [[3]]))) := by decide +kernel
  cases hi : fileWriterInit .file (some ⟨[[7]]⟩) none fullScript with
  | none => rw [hi] at h1; cases h1
  | some w =>
    rw [hi] at h1 h2
    simp only [Option.map_some, Option.some.injEq] at h1 h2
    cases hr : (Iothr.init twoQueues w).run lossPre with
    | error e => rw [hr] at h1; cases h1
    | ok s =>
      rw [hr] at h1 h2
      simp only [Except.bind] at h2
      cases hr' : s.run lossPost with
      | error e => rw [hr'] at h2; cases h2
      | ok s' =>
        rw [hr'] at h2
        simp only [Except.map, Except.ok.injEq, Prod.mk.injEq] at h1 h2
        obtain ⟨h1, h3⟩ := h1
        obtain ⟨h2, h4⟩ := h2
        refine ⟨w, s, s', rfl, hr, hr', h1, ⟨_, h3, by decide +kernel⟩, ?_, h4, ?_⟩
        · rw [h2, h1]; rfl
        · intro hk
          obtain ⟨d', e, hp⟩ := hk _ h3
          rw [h4] at e
          cases e
          exact absurd hp (by decide +kernel)

/-! Non-vacuity of the rest: the beginning of the same execution, and one without failures. -/

example : ((fileWriterInit .file (some ⟨[[7]]⟩) none fullScript).map fun w =>
    ((Iothr.init twoQueues w).run lossPre).bind fun s => (s.run (lossPost.take 15)).map fun s' =>
      (attempts s.log, attempts s'.log, (calls s'.log).map Prod.snd)) =
    some (.ok ([9], [9], [.success, .success, .failure, .failure])) := by decide +kernel

example : ((fileWriterInit .file (some ⟨[[7]]⟩) none [.ok 0, .ok 9]).map fun w =>
    ((Iothr.init twoQueues w).run lossPre).bind fun s => (s.run lossPost).map fun s' =>
      (outputOpen false s.log, (calls s'.log).map Prod.snd, s.writer.rdwr.obj.disk.map List.length)) =
    some (.ok (true, [.success, .success, .success, .success, .success], some 9)) ∧
    ((fileWriterInit .file (some ⟨[[7]]⟩) none [.ok 0, .ok 9]).map fun w =>
      ((Iothr.init twoQueues w).run (lossPre ++ lossPost)).map fun s' => s'.writer.rdwr.obj.disk) =
    some (.ok (some (stream (some [7]) [[1], [2], [3]]))) ∧
    (∀ c ∈ optCts (some ⟨[[7]]⟩), c.length ≤ 256) := by decide +kernel

/-- For interleavings: an I/O thread with a file, its queues and the steps of C80. -/
def startFileQueues (as : List QAct) : Exec (IoQ FileSt (twoQueues.queueImpl .x86_64)) :=
  match fileWriterInit .file (some ⟨[[7]]⟩) none [.ok 0, .ok 9] with
  | none => .error .fuel
  | some w =>
    match IoQ.init (twoQueues.queueImpl .x86_64) ENTRY_SIZE twoQueues w with
    | none => .error .fuel
    | some s => s.run as

example : ((startFileQueues (qPre ++ [QAct.io 9 .timeout 0])).map fun s =>
      (outputOpen false s.io.log, s.io.writer.rdwr.obj.disk.map List.length)) = .ok (true, some 9) ∧
    ((startFileQueues (qPre ++ QAct.io 9 .timeout 0 :: qMid 0 ++ qRace)).map fun s =>
      ((calls s.io.log).map Prod.snd, s.io.writer.rdwr.obj.disk)) =
      .ok ([.success, .success, .success], some (stream (some [7]) [[1], [2, 2], [3], [5]])) := by decide +kernel

end Fstrm.Props
