import Verif.Lemmas.Reconnect
import Verif.Lemmas.IoNet
import Verif.Props.Capture
import Verif.Props.IothrConns

/-!
# C78: an I/O thread that reconnects, and `fstrm_capture`

The I/O thread opens its writer again after failures, so its payloads travel on several
connections. Here `fstrm_capture` is at the other end of them. Nothing is assumed about when
connections break and how much of what was written arrives, except that what the server receives
on a connection is a beginning of what was written on it. There may be other clients.
-/

set_option autoImplicit false

namespace Fstrm.Props

open Iothr Spec

variable {σ : Type}

/-- A payload that an I/O thread accepted. -/
theorem submits_valid {opt : IothrOptions} {w : Writer σ} {as : List IoAct} {s : Iothr σ}
    (h : (Iothr.init opt w).run as = .ok s) :
    ∀ e ∈ submits s.log, 1 ≤ e.data.length ∧ e.data.length < 4294967295 :=
  (Iothr.submits_from (Q := fun d => 1 ≤ d.length ∧ d.length < 4294967295) as
    (s := Iothr.init opt w) ⟨nofun, nofun⟩ h (fun _ _ _ _ _ h1 h2 => ⟨h1, h2⟩)).sub

/-- Lists chosen one by one below given ones. -/
theorem choose_below {α : Type} (l : List (List α)) (P : Nat → List α → Prop)
    (h : ∀ i x, l[i]? = some x → ∃ y, y.Sublist x ∧ P i y) :
    ∃ m : List (List α), m.length = l.length ∧ m.flatten.Sublist l.flatten ∧
      ∀ i x, l[i]? = some x → ∃ y, m[i]? = some y ∧ P i y := by
  induction l generalizing P with
  | nil => exact ⟨[], rfl, by simp, by simp⟩
  | cons a l ih =>
    obtain ⟨y, hy, hp⟩ := h 0 a rfl
    obtain ⟨m, h1, h2, h3⟩ := ih (fun i => P (i + 1)) (fun i x hx => h (i + 1) x (by simpa using hx))
    refine ⟨y :: m, by simp [h1], by simpa using hy.append h2, ?_⟩
    intro i x hx
    cases i with
    | zero => exact ⟨y, rfl, hp⟩
    | succ i => exact h3 i x (by simpa using hx)

/-- **C78.** An I/O thread with a bidirectional writer, for every schedule, every behaviour of the
transport and every failure; and `fstrm_capture`, for everything that can happen to it (no client
announcing a frame of 2^32 bytes or more, C51). `link i` is the number under which the server knows
the `i`-th connection of the I/O thread (`none` if it never saw it), on which it received a
beginning of what was written, `all` meaning that writes that failed may have been transmitted in
part. Then what the server records for connection `i` are payloads `got[i]`, such that on all
connections together the payloads of one input queue are in the order in which they were submitted
and no payload is recorded twice. -/
theorem reconnect_once (all : Bool) (ops : Ops σ) (obj : σ) (wopt : Option WriterOptions)
    (opt : IothrOptions) (w : Writer σ) (as : List IoAct) (s : Iothr σ)
    (hrd : ops.rd ≠ none) (hcls : ops.cls ≠ none)
    (hinit : Writer.init wopt (Rdwr.init ops obj) = some w)
    (hready : (CFrame.wire ⟨.ready, optCts wopt⟩).length < 2 ^ 32)
    (h : (Iothr.init opt w).run as = .ok s)
    (args : CapArgs) (env : CapEnv) (acts : List CapAct) (c : Capture)
    (hb : args.bufferSize < 2 ^ 31) (hp : Polite args env acts)
    (hc : outcome args env acts = .ok c)
    (link : Nat → Option Nat)
    (hlink : ∀ i id, link i = some id → ∃ bs, (allConns all s.writer.rdwr)[i]? = some bs ∧
      receivedFrom id c.log <+: bs) :
    ∃ got : List (List Entry), got.length = (allConns all s.writer.rdwr).length ∧
      (∀ i id, link i = some id → ∃ es, got[i]? = some es ∧
        recordedFrom id c.log = es.map fun e => dataFrame e.data) ∧
      (∀ q, (onQueue q got.flatten).Sublist (onQueue q (submits s.log))) ∧
      got.flatten.Nodup := by
  obtain ⟨car, c1, c2, c3, c4⟩ := iothr_conns all ops obj wopt opt w as s hrd hcls hinit h
  have hval : ∀ e ∈ car.flatten, e.data ≠ [] ∧ e.data.length < 2 ^ 32 := by
    intro e he
    have h2 := (c3 e.queue).subset (List.mem_filter.2 ⟨he, by simp⟩)
    have h3 := submits_valid h e (List.mem_filter.1 h2).1
    exact ⟨List.length_pos_iff.1 h3.1, by omega⟩
  have hwl : ∀ f : CFrame, f.wire.length = 8 + f.payload.length := by
    intro f; simp [CFrame.wire, Spec.be32]; omega
  have hr : (CFrame.payload ⟨.ready, optCts wopt⟩).length < 2 ^ 32 := by
    rw [hwl] at hready; omega
  have hs : (CFrame.payload ⟨.start, (optCts wopt).head?.toList⟩).length < 2 ^ 32 := by
    refine Nat.lt_of_le_of_lt ?_ hr
    cases optCts wopt with
    | nil => simp [CFrame.payload, Spec.be32]
    | cons a l => simp [CFrame.payload, Spec.be32, Spec.field]
  obtain ⟨m, m1, m2, m3⟩ := choose_below car
    (fun i es => ∀ id, link i = some id → recordedFrom id c.log = es.map fun e => dataFrame e.data)
    (by
      intro i x hx
      cases hl : link i with
      | none => exact ⟨[], List.nil_sublist _, nofun⟩
      | some id =>
        obtain ⟨bs, b1, b2⟩ := hlink i id hl
        obtain ⟨k, fs, f1, f2⟩ := c2 i bs b1
        obtain rfl : x = fs := Option.some.inj (hx.symm.trans f1)
        have hmem : ∀ d ∈ x.map Entry.data, d ≠ [] ∧ d.length < 2 ^ 32 := by
          intro d hd
          obtain ⟨e, he, rfl⟩ := List.mem_map.1 hd
          exact hval e (List.mem_flatten.2 ⟨x, List.mem_of_getElem? hx, he⟩)
        have h5 := serve_beginning (ct := args.contentType) (hw := args.highwater) (b2.trans f2) hr hs
          hmem
        have h6 := (capture_sofar_partial args env acts c hb hp hc id).1.sublist
        have h7 := h6.trans (h5.map dataFrame)
        rw [List.map_map] at h7
        obtain ⟨es, g1, g2⟩ := List.sublist_map_iff.1 h7
        refine ⟨es, g1, ?_⟩
        rintro id' ⟨⟩
        exact g2)
  refine ⟨m, m1.trans c1, ?_, fun q => (m2.filter _).trans (c3 q), m2.nodup c4⟩
  intro i id hl
  obtain ⟨bs, b1, _⟩ := hlink i id hl
  obtain ⟨_, fs, f1, _⟩ := c2 i bs b1
  obtain ⟨es, g1, g2⟩ := m3 i fs f1
  exact ⟨es, g1, g2 id hl⟩

/-- **C78** for unix and tcp writers, in terms of what the kernel took on each connection.
`_partial`: there must be no short sends (`sock_write_duplicates`). -/
theorem reconnect_sock_partial (wopt : Option WriterOptions) (opt : IothrOptions)
    (w : Writer Sock) (peers : List Bytes) (conn close : List Bool) (reads : List KRead)
    (sends : List KSend) (past : List Nat) (as : List IoAct) (s : Iothr Sock)
    (hinit : Writer.init wopt (Rdwr.init sockOps
      (Sock.init peers conn close reads sends past)) = some w)
    (hsends : NoShort sends)
    (hready : (CFrame.wire ⟨.ready, optCts wopt⟩).length < 2 ^ 32)
    (h : (Iothr.init opt w).run as = .ok s)
    (args : CapArgs) (env : CapEnv) (acts : List CapAct) (c : Capture)
    (hb : args.bufferSize < 2 ^ 31) (hp : Polite args env acts)
    (hc : outcome args env acts = .ok c)
    (link : Nat → Option Nat)
    (hlink : ∀ i id, link i = some id → ∃ bs, (kernelConns s.writer.rdwr.obj)[i]? = some bs ∧
      receivedFrom id c.log <+: bs) :
    ∃ got : List (List Entry), got.length = (kernelConns s.writer.rdwr.obj).length ∧
      (∀ i id, link i = some id → ∃ es, got[i]? = some es ∧
        recordedFrom id c.log = es.map fun e => dataFrame e.data) ∧
      (∀ q, (onQueue q got.flatten).Sublist (onQueue q (submits s.log))) ∧
      got.flatten.Nodup := by
  rw [← sync_allConns (iothr_sockSync hinit hsends h)] at hlink ⊢
  exact reconnect_once false sockOps _ wopt opt w as s (by simp [sockOps]) (by simp [sockOps]) hinit
    hready h args env acts c hb hp hc link hlink

/-- Payloads are submitted around a failure: the batch with payload `[3]`
cannot be sent, and the writer is opened again. -/
def againActs : List IoAct :=
  demoPre ++ ioTimes 12 10 ++ [.submit 0 0 (some [3]) true, .insert 0] ++ ioTimes 12 20 ++
    [.submit 0 0 (some [4]) true, .insert 0] ++ ioTimes 12 30 ++
    [.submit 0 0 (some [5]) true, .insert 0, .shutdown] ++ ioTimes 30 40 ++ [.finish]

/-- What travels on the two connections of `againActs`. -/
def againConns : List Bytes :=
  [CFrame.wire ⟨.ready, [[7]]⟩ ++ CFrame.wire ⟨.start, [[7]]⟩ ++ dataFrame [1] ++ dataFrame [2, 2],
    CFrame.wire ⟨.ready, [[7]]⟩ ++ stream (some [7]) [[4], [5]]]

/-- The first connection breaks before its last byte has arrived. -/
def againServer : List CapAct :=
  let a := (againConns.headD []).dropLast
  let b := againConns.getLastD []
  [.accept, .recv 0 a [a], .hangup 0, .accept, .recv 1 b [b], .send 1 33]

/-- Options `-t 7 -w b`. -/
def againArgs : CapArgs := { easyArgs 0 with contentType := [7] }

/-- The hypotheses are met, with failures: `[3]` and the cut-off `[2, 2]` are lost, the other payloads
are recorded. -/
example : ((Iothr.init twoQueues (demoSockWriter [.all, .all, .all, .fail])).run againActs).map
      (fun s => (kernelConns s.writer.rdwr.obj, (submits s.log).map Entry.data)) =
        .ok (againConns, [[2, 2], [1], [3], [4], [5]]) ∧
    (outcome againArgs easyEnv againServer).map (fun c =>
      ([receivedFrom 0 c.log, receivedFrom 1 c.log], recordedFrom 0 c.log, recordedFrom 1 c.log)) =
        .ok ([(againConns.headD []).dropLast, againConns.getLastD []], [dataFrame [1]],
          [dataFrame [4], dataFrame [5]]) ∧
    Polite againArgs easyEnv againServer := by
  refine ⟨by decide +kernel, by decide +kernel, polite_of_check (by decide +kernel)⟩

end Fstrm.Props
