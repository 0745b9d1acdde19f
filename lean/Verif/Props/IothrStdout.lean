import Verif.Lemmas.IothrStdout
import Verif.Props.IothrFile
import Verif.Props.Stdout

/-!
# C140: an I/O thread that writes to standard output
-/

set_option autoImplicit false

namespace Fstrm.Props

open Fstrm.Spec (FileKept stream)
open Iothr

theorem trs_stdout_appends {w : Writer FileSt} {wopt : Option WriterOptions} {disk : Option Bytes} {script : List Io}
    {opt : IothrOptions} {s : Iothr FileSt} (hinit : fileWriterInit .dash wopt disk script = some w)
    (hct : ∀ c ∈ optCts wopt, c.length ≤ 256) (h : Trs (Iothr.init opt w) s) :
    s.writer.rdwr.obj.disk = disk ∨
    ∃ d es, s.writer.rdwr.obj.disk.getD [] = disk.getD [] ++ d ∧
      d <+: stream (optCts wopt).head? (es.map Entry.data) ∧
      (∀ q, (onQueue q es).Sublist (onQueue q (submits s.log))) ∧ es.Nodup := by
  obtain ⟨w', hw, hdisk⟩ := trs_disk hinit h
  rw [hdisk]
  rcases stdout_appends w w' wopt disk script _ _ hinit hct hw with ⟨_, h1⟩ | ⟨d, fs, h1, h2, h3⟩
  · exact .inl h1
  · rw [handed_frames] at h3
    obtain ⟨es, h4, rfl⟩ := infix_map h3
    obtain ⟨o1, o2⟩ := trs_order h
    exact .inr ⟨d, es, h1, h2, fun q => ((h4.sublist.filter _).trans (o1 q)), h4.sublist.nodup o2⟩

/-- **C140**, first part. An I/O thread writes to "-". In every state reached, whatever has failed and however
much the C library has buffered: what was on standard output before is still there, followed by a
beginning of one well-formed stream whose payloads have all been accepted; those of each queue are in the
order of submission, and none is there twice. -/
theorem iothr_stdout_appends (w : Writer FileSt) (wopt : Option WriterOptions) (disk : Option Bytes)
    (script : List Io) (opt : IothrOptions) (as : List IoAct) (s : Iothr FileSt)
    (hinit : fileWriterInit .dash wopt disk script = some w)
    (hct : ∀ c ∈ optCts wopt, c.length ≤ 256)
    (h : (Iothr.init opt w).run as = .ok s) :
    s.writer.rdwr.obj.disk = disk ∨
    ∃ d es, s.writer.rdwr.obj.disk.getD [] = disk.getD [] ++ d ∧
      d <+: stream (optCts wopt).head? (es.map Entry.data) ∧
      (∀ q, (onQueue q es).Sublist (onQueue q (submits s.log))) ∧ es.Nodup :=
  trs_stdout_appends hinit hct (run_trs as h)

/-- **C140**, first part, in every interleaving of memory accesses. -/
theorem queues_stdout_appends (w : Writer FileSt) (wopt : Option WriterOptions) (disk : Option Bytes)
    (script : List Io) (opt : IothrOptions) (hr : Reached opt) (hpow : ∃ k, opt.inputQueueSize = 2 ^ k)
    (m : Machine) (as : List QAct) (s0 s : IoQ FileSt (opt.queueImpl m))
    (hinit : fileWriterInit .dash wopt disk script = some w)
    (hct : ∀ c ∈ optCts wopt, c.length ≤ 256)
    (hi : IoQ.init (opt.queueImpl m) ENTRY_SIZE opt w = some s0) (h : s0.run as = .ok s) :
    s.io.writer.rdwr.obj.disk = disk ∨
    ∃ d es, s.io.writer.rdwr.obj.disk.getD [] = disk.getD [] ++ d ∧
      d <+: stream (optCts wopt).head? (es.map Entry.data) ∧
      (∀ q, (onQueue q es).Sublist (onQueue q (submits s.io.log))) ∧ es.Nodup := by
  obtain ⟨ht, _⟩ := queues_link hr hpow hi h
  exact trs_stdout_appends hinit hct ht

theorem safe_ok {α : Type} {x : Exec α} {a : α} {Q : α → Prop} (h : Safe false x Q) (he : x = .ok a) : Q a := by
  rcases h with ⟨a', h1, h2⟩ | ⟨h1, _⟩
  · rw [he] at h1; cases h1; exact h2
  · cases h1

/-- As long as no call on the writer has failed, standard output has not been closed before the last
close. -/
theorem trs_dash {s s' : Iothr FileSt} (h : Trs s s') (hs : DashOk s.writer.rdwr) (hf : DashFirst s)
    (hop : s.opened = true ↔ s.writer.state = .opened) (hlim : s.outq.length ≤ s.opt.outputQueueSize)
    (hiov : s.opt.outputQueueSize ≤ 1024) (hok : ∀ c ∈ calls s'.log, c.2 = .success) :
    DashOk s'.writer.rdwr ∧ (s'.opened = true ↔ s'.writer.state = .opened) ∧
      s'.outq.length ≤ s'.opt.outputQueueSize ∧ s'.opt = s.opt ∧
      (DashFirst s' ∨ (∃ i, s'.pc = .drain i 0 ∧ s'.opt.numInputQueues ≤ i) ∨ s'.pc = .exited) := by
  induction h with
  | refl => exact ⟨hs, hop, hlim, rfl, .inl hf⟩
  | @snoc s1 s2 h t ih =>
    have hok1 : ∀ z, s2.log = s1.log ++ z →
        (∀ c ∈ calls s1.log, c.2 = .success) ∧ ∀ c ∈ calls z, c.2 = .success := by
      intro z hz
      rw [hz, calls_append] at hok
      exact ⟨fun c hc => hok c (List.mem_append_left _ hc), fun c hc => hok c (List.mem_append_right _ hc)⟩
    obtain ⟨y, hy⟩ := t.log
    obtain ⟨g, o1, l, p, k⟩ := ih (hok1 y hy).1
    have o := opened_iff_tr o1 t
    cases t with
    | opn now r w hp hn _ e =>
      obtain rfl : r = .success := (hok1 _ rfl).2 (.opn, r) (by simp [calls])
      have hk : DashFirst s1 := by
        rcases k with k | ⟨i, k, _⟩ | k
        · exact k
        · rw [k] at hp; rcases hp with hp | hp <;> cases hp
        · rw [k] at hp; rcases hp with hp | hp <;> cases hp
      rcases hk with hk | ⟨k1, k2⟩
      · rw [hn] at hk; cases hk
      · have := safe_ok (dash_wopen g k1 k2) e
        exact ⟨this, o, l, p, .inl (.inl rfl)⟩
    | cls i r w hp hi _ _ e =>
      have := safe_ok (dash_wclose g) e
      exact ⟨this, o, l, p, .inr (.inl ⟨i, hp, hi⟩)⟩
    | flushOk w _ _ ho _ e =>
      have := safe_ok (dash_writev g (o1.1 ho) _ (by rw [p] at l; rw [List.length_map]; omega)) e
      exact ⟨this, o, by simp, p, .inl (.inl ho)⟩
    | flushFail r r2 w w2 _ _ ho _ e hr _ =>
      exact absurd ((hok1 _ (List.append_assoc _ _ _)).2 (.writev (s1.outq.map Entry.data), r) (by simp [calls])) hr
    | flushIdle => exact ⟨g, o, by simp, p, k⟩
    | finish r rdwr hsh hp hdd e =>
      have := safe_ok (dash_wdestroy g) e
      exact ⟨this, o, l, p, .inr (.inr hp)⟩
    | push i e rest _ _ hlt => exact ⟨g, o, by simp only [List.length_append, List.length_cons, List.length_nil]; omega, p, k⟩
    | pc q wk hp =>
      refine ⟨g, o, l, p, ?_⟩
      rcases k with k | ⟨i, h1, h2⟩ | h1
      · exact .inl k
      · cases hp with
        | drainNext j t t' e hj =>
          rw [h1] at e; cases e; exact absurd h2 (by omega)
        | drainAgain j t e hj => rw [h1] at e; cases e; exact absurd rfl hj
        | exit => exact .inr (.inr rfl)
        | _ => simp_all
      · cases hp <;> simp_all
    | _ => exact ⟨g, o, l, p, k⟩

theorem trs_destroyed {opt : IothrOptions} {w : Writer FileSt} {s : Iothr FileSt} (h : Trs (Iothr.init opt w) s)
    (hd : s.destroyed = true) : IoEv.destroyed ∈ s.log := by
  refine h.inv (P := fun s => s.destroyed = true → IoEv.destroyed ∈ s.log) ?_ (by simp [Iothr.init]) hd
  intro a b ih t hb
  obtain ⟨y, hy⟩ := t.log
  cases t with
  | finish => simp
  | _ => rw [hy]; exact List.mem_append_left _ (ih hb)

theorem trs_dash_fine {w : Writer FileSt} {wopt : Option WriterOptions} {disk : Option Bytes}
    {script : List Io} {opt : IothrOptions} {s : Iothr FileSt} (hr : Reached opt)
    (hinit : fileWriterInit .dash wopt disk script = some w) (ht : Trs (Iothr.init opt w) s)
    (hd : IoEv.destroyed ∉ s.log) (hok : ∀ c ∈ calls s.log, c.2 = .success) :
    DashFine s ∧ (s.pc = .start ∨ s.pc = .top → DashFirst s) ∧ s.destroyed = false := by
  have hl := reached_limits hr
  have ho : (Iothr.init opt w).opt = opt := by
    simp only [Iothr.init]
    rw [if_neg (by omega)]
  obtain ⟨f1, f2⟩ := file_start hinit
  have hobj : w.rdwr.obj = FileSt.init true true disk script := by
    unfold fileWriterInit at hinit
    rw [if_neg (by decide)] at hinit
    rw [(init_some hinit).2.2.1]; rfl
  obtain ⟨g, o, l, p, k⟩ := trs_dash ht ⟨f1, by simp only [Iothr.init, hobj]; exact nofun⟩
    (.inr (by simp only [Iothr.init, hobj]; exact ⟨rfl, rfl⟩)) (by simp [Iothr.init, f2]) (by simp [Iothr.init])
    (by rw [ho]; exact hl.2.2.2.1) hok
  refine ⟨⟨g, o.1, l, by rw [p, ho]; omega, by rw [p, ho]; exact hl.2.2.2.1⟩, ?_, ?_⟩
  · intro hp
    rcases k with k | ⟨i, k, _⟩ | k
    · exact k
    · rw [k] at hp; rcases hp with hp | hp <;> cases hp
    · rw [k] at hp; rcases hp with hp | hp <;> cases hp
  · cases hs : s.destroyed with
    | false => rfl
    | true => exact absurd (trs_destroyed ht hs) hd

/-- **C140**, what holds of the last part. As long as every call of the I/O thread on its writer has reported
success, no further step of the I/O thread or of a client of the object runs into undefined behaviour or
aborts; destroy included. Missing: after a failed call the I/O thread opens standard output again, which it
has closed (`iothr_stdout_ub`). -/
theorem iothr_stdout_safe_partial (w : Writer FileSt) (wopt : Option WriterOptions) (disk : Option Bytes)
    (script : List Io) (opt : IothrOptions) (hr : Reached opt) (as : List IoAct) (a : IoAct) (s : Iothr FileSt)
    (hinit : fileWriterInit .dash wopt disk script = some w)
    (h : (Iothr.init opt w).run as = .ok s) (hd : IoEv.destroyed ∉ s.log)
    (hok : ∀ c ∈ calls s.log, c.2 = .success) :
    ∃ s', s.step a = .ok s' := by
  obtain ⟨hfine, hfirst, hdd⟩ := trs_dash_fine hr hinit (run_trs as h) hd hok
  rcases hfine.step (b := false) hfirst hdd a with ⟨s', h1, _⟩ | ⟨h1, _⟩
  · exact ⟨s', h1⟩
  · cases h1

/-- **C140**, the same in every interleaving of memory accesses. -/
theorem queues_stdout_safe_partial (w : Writer FileSt) (wopt : Option WriterOptions) (disk : Option Bytes)
    (script : List Io) (opt : IothrOptions) (hr : Reached opt) (hpow : ∃ k, opt.inputQueueSize = 2 ^ k)
    (m : Machine) (as : List QAct) (a : QAct) (s0 s : IoQ FileSt (opt.queueImpl m))
    (hinit : fileWriterInit .dash wopt disk script = some w)
    (hi : IoQ.init (opt.queueImpl m) ENTRY_SIZE opt w = some s0) (h : s0.run as = .ok s)
    (hd : IoEv.destroyed ∉ s.io.log) (hok : ∀ c ∈ calls s.io.log, c.2 = .success) :
    ∃ s', s.step a = .ok s' := by
  obtain ⟨ht, num, R, hQ, hl, _⟩ := queues_link hr hpow hi h
  obtain ⟨hfine, hfirst, hdd⟩ := trs_dash_fine hr hinit ht hd hok
  exact hl.dash_step hQ hfine hfirst hdd a

theorem file_no_zero_pair : Spec.NoZeroPair (fileOps true) Named := fun f hf => by simp [fileOps] at hf

/-- **C140**, the last part for a named file: whatever fails, and however often the I/O thread opens the file
again, no execution runs into undefined behaviour; nor does destroy. -/
theorem iothr_file_safe (w : Writer FileSt) (wopt : Option WriterOptions) (disk : Option Bytes)
    (script : List Io) (opt : IothrOptions) (hr : Reached opt)
    (hinit : fileWriterInit .file wopt disk script = some w) (as : List IoAct) (has : IoAct.finish ∉ as) :
    ∃ s, (Iothr.init opt w).run as = .ok s ∧ ∃ s', s.step .finish = .ok s' :=
  iothr_safe (fileOps true) Named (file_wellBehaved true) file_preserves file_no_zero_pair _
    (show Named (FileSt.init true false disk script) from rfl) wopt opt hr w (fileWriter_init hinit) as has

/-- **C140**, the same in every interleaving of memory accesses. -/
theorem queues_file_safe (w : Writer FileSt) (wopt : Option WriterOptions) (disk : Option Bytes)
    (script : List Io) (opt : IothrOptions) (hr : Reached opt) (hpow : ∃ k, opt.inputQueueSize = 2 ^ k)
    (m : Machine) (hinit : fileWriterInit .file wopt disk script = some w) :
    ∃ s0, IoQ.init (opt.queueImpl m) ENTRY_SIZE opt w = some s0 ∧
      ∀ as, QAct.finish ∉ as → ∃ s, s0.run as = .ok s ∧ ∃ s', s.step .finish = .ok s' :=
  queues_safe (fileOps true) Named (file_wellBehaved true) file_preserves file_no_zero_pair _
    (show Named (FileSt.init true false disk script) from rfl) wopt opt hr hpow m w (fileWriter_init hinit)

/-- Standard output cannot take the second frame: a full disk, or a pipe that nobody reads any more. -/
def dashScript : List Io := [.ok 99, .ok 99, .ok 99, .fail 0]

/-- **C140**, the last part is false. One payload is written to standard output; writing the second fails, and
the I/O thread closes standard output. When `reopen_interval` has passed and the next payload is there, it writes
to the closed stream. All that the program has done is to submit payloads. -/
theorem iothr_stdout_ub : ∃ w, fileWriterInit .dash (some ⟨[[7]]⟩) (some []) dashScript = some w ∧
    ((Iothr.init twoQueues w).run (lossPre ++ lossPost.take 15)).map (fun s => calls s.log) =
      .ok [(.opn, .success), (.writev [[1]], .success), (.writev [[2]], .failure), (.close, .failure)] ∧
    ((Iothr.init twoQueues w).run (lossPre ++ lossPost)).map (fun s => calls s.log) =
      .error (.ub "use of a closed stream") :=
  ⟨_, rfl, by decide +kernel, by decide +kernel⟩

/-! Non-vacuity: an execution without failures. -/

example : ((fileWriterInit .dash (some ⟨[[7]]⟩) (some [9]) [.ok 0, .ok 9]).map fun w =>
      ((Iothr.init twoQueues w).run (lossPre ++ lossPost)).map fun s' => s'.writer.rdwr.obj.disk) =
    some (.ok (some (9 :: stream (some [7]) [[1], [2], [3]]))) ∧
    (∀ c ∈ optCts (some ⟨[[7]]⟩), c.length ≤ 256) := by decide +kernel

example : Reached twoQueues ∧ twoQueues.inputQueueSize = 2 ^ 2 ∧
    (∃ w, fileWriterInit .file (some ⟨[[7]]⟩) none fullScript = some w) ∧
    IoAct.finish ∉ lossPre ++ lossPost.dropLast ∧ ((fileWriterInit .dash (some ⟨[[7]]⟩) (some [9]) [.ok 0, .ok 9]).map fun w =>
      ((Iothr.init twoQueues w).run (lossPre ++ lossPost.dropLast)).map fun s =>
        ((calls s.log).map Prod.snd, decide (IoEv.destroyed ∈ s.log))) =
    some (.ok ([.success, .success, .success, .success, .success], false)) :=
  ⟨.set .numInputQueues _ 2 (.set .inputQueueSize _ 4 .init), rfl, ⟨_, rfl⟩, by decide +kernel, by decide +kernel⟩

/-- For interleavings: as in C139, with "-". -/
def startDashQueues (as : List QAct) : Exec (IoQ FileSt (twoQueues.queueImpl .x86_64)) :=
  match fileWriterInit .dash (some ⟨[[7]]⟩) (some [9]) [.ok 0, .ok 9] with
  | none => .error .fuel
  | some w =>
    match IoQ.init (twoQueues.queueImpl .x86_64) ENTRY_SIZE twoQueues w with
    | none => .error .fuel
    | some s => s.run as

example : ((startDashQueues (qPre ++ QAct.io 9 .timeout 0 :: qMid 0 ++ qRace)).map fun s =>
      ((calls s.io.log).map Prod.snd, s.io.writer.rdwr.obj.disk)) =
      .ok ([.success, .success, .success], some (9 :: stream (some [7]) [[1], [2, 2], [3], [5]])) ∧
    ((startDashQueues (qPre ++ QAct.io 9 .timeout 0 :: qMid 0 ++ qRace)).map fun s =>
      decide (IoEv.destroyed ∈ s.io.log)) = .ok true ∧
    ((startDashQueues (qPre ++ QAct.io 9 .timeout 0 :: qMid 0)).map fun s =>
      (decide (IoEv.destroyed ∈ s.io.log), (calls s.io.log).map Prod.snd)) = .ok (false, [.success]) := by
  refine ⟨?_, ?_, ?_⟩ <;> decide +kernel

end Fstrm.Props
