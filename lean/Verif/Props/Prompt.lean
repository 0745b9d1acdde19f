import Verif.Lemmas.Arrive
import Verif.Props.Reader

/-!
# A reader takes no more from its transport than what it returns (C134)
-/

set_option autoImplicit false

namespace Fstrm.Props

open Fstrm
open Fstrm.Spec (CType CFrame be32 Arrived Answers Happening ctls Skippable InTime play)

variable {σ : Type}

/-- The open reader `r`, with the bytes `buf` there to be read, returns each payload of the stream
as soon as the last byte of its frame has arrived, and the end of the stream as soon as the last
byte of the STOP frame has; it leaves on the transport whatever follows. -/
def Prompt (rem : σ → Option Bytes) (put : Bytes → σ → σ) (r : Reader σ) (buf : Bytes) : Prop :=
  ∀ evs ds left, InTime r.maxFrameSize evs buf ds left →
    ∃ N, ∀ fuel, N ≤ fuel → ∃ r', play fuel put evs r = .ok (ds, r') ∧
      rem r'.rdwr.obj = some left ∧
      ∀ skip tail, Skippable skip →
        left = ctls skip ++ (CFrame.wire ⟨.stop, []⟩ ++ tail) →
        ∀ fuel', skip.length < fuel' → ∃ r'', r'.read fuel' = .ok (.stop, none, r'') ∧
          rem r''.rdwr.obj = some tail

theorem nextData_skips {rem : σ → Option Bytes} (skip : List CFrame) (hs : Skippable skip) :
    ∀ {r : Reader σ} {rest : Bytes},
      Arrive.At rem r.rdwr (ctls skip ++ rest) →
      ∃ r', Arrive.At rem r'.rdwr rest ∧ Same r r' ∧ r'.bufCap = r.bufCap ∧ r'.state = r.state ∧
        ∀ fuel, Reader.nextData (fuel + skip.length) r = Reader.nextData fuel r' := by
  induction skip with
  | nil => intro r rest h; exact ⟨r, h, Same.refl r, rfl, rfl, fun _ => rfl⟩
  | cons f fs ih =>
    intro r rest h
    obtain ⟨hf, hl, ht⟩ := hs f (by simp)
    have h' : Arrive.At rem r.rdwr (f.wire ++ (ctls fs ++ rest)) := by
      simpa [ctls, List.append_assoc] using h
    obtain ⟨r1, a1, s1, c1, k1, _⟩ := Arrive.nextData_ctl h' hf hl
    obtain ⟨st1, _, e1⟩ := k1 ht
    obtain ⟨r2, a2, s2, c2, st2, e2⟩ :=
      ih (fun g hg => hs g (List.mem_cons_of_mem _ hg)) a1
    exact ⟨r2, a2, s1.trans s2, c2.trans c1, st2.trans st1, fun fuel => by
      rw [← e2, ← e1, List.length_cons, Nat.add_assoc]⟩

theorem prompt_of_at {rem : σ → Option Bytes} {put : Bytes → σ → σ}
    (hput : ∀ bs s buf, rem s = some buf → rem (put bs s) = some (buf ++ bs))
    {r : Reader σ} {buf : Bytes} (hst : r.state = .opened) (hcap : 1 ≤ r.bufCap)
    (hat : Arrive.At rem r.rdwr buf) : Prompt rem put r buf := by
  intro evs ds left hin
  generalize hm : r.maxFrameSize = m at hin
  induction hin generalizing r with
  | done buf =>
    refine ⟨0, fun fuel _ => ⟨r, rfl, hat.left, ?_⟩⟩
    intro skip tail hs he fuel' hf
    subst he
    obtain ⟨f, rfl⟩ : ∃ f, fuel' = f + 1 + skip.length := ⟨fuel' - 1 - skip.length, by omega⟩
    obtain ⟨r1, a1, s1, c1, st1, e1⟩ := nextData_skips skip hs hat
    obtain ⟨r2, a2, _, _, _, k⟩ := Arrive.nextData_ctl a1
      (by refine ⟨by simp, ?_⟩; intro n _; simp) (by decide)
    obtain ⟨_, _, e2⟩ := k rfl
    exact ⟨r2, by rw [read_opened _ hst, e1, e2], a2.left⟩
  | @arrive evs buf bs ds left _ ih =>
    exact ih (r := { r with rdwr := { r.rdwr with obj := put bs r.rdwr.obj } }) hst hcap
      ⟨hat.src, hat.op, hput bs _ _ hat.left⟩ hm
  | @read evs skip d tail ds left hs h1 h2 h3 _ ih =>
    obtain ⟨r1, a1, s1, c1, st1, e1⟩ := nextData_skips skip hs hat
    have key : ∃ r2 : Reader σ, Arrive.At rem r2.rdwr tail ∧ r2.state = .opened ∧ 1 ≤ r2.bufCap ∧
        r2.maxFrameSize = m ∧
        ∀ fuel, skip.length + 1 ≤ fuel → r.read fuel = .ok (.success, some d, r2) := by
      have h2' : d.length ≤ r1.maxFrameSize := by rw [s1.max, hm]; exact h2
      obtain ⟨r2, e2, a2, s2, st2, c2, _⟩ := Arrive.nextData_data a1 (by omega) h1 h2' h3
      refine ⟨r2, a2, by rw [st2, st1, hst], c2, by rw [s2.max, s1.max, hm], ?_⟩
      intro fuel hf
      rw [read_opened _ hst]
      obtain ⟨k, rfl⟩ : ∃ k, fuel = k + 1 + skip.length := ⟨fuel - 1 - skip.length, by omega⟩
      rw [e1, e2]
    obtain ⟨r2, a2, st2, c2, m2, e2⟩ := key
    obtain ⟨N, hN⟩ := ih st2 c2 a2 m2
    refine ⟨max N (skip.length + 1), fun fuel hf => ?_⟩
    obtain ⟨r3, e3, l3, k3⟩ := hN fuel (by omega)
    refine ⟨r3, ?_, l3, k3⟩
    unfold play
    rw [e2 fuel (by omega), Exec.ok_bind]
    simp only
    rw [e3, Exec.ok_bind]

theorem rdwr_open_at {rem : σ → Option Bytes} {ops : Ops σ} {obj s : σ} {f : σ → Exec (Res × σ)}
    {buf : Bytes} (ha : Arrived ops rem) (hf : ops.opn = some f) (hs : f obj = .ok (.success, s))
    (hb : rem s = some buf) :
    ∃ rw, (Rdwr.init ops obj).open = .ok (.success, rw) ∧ Arrive.At rem rw buf ∧ rw.ops = ops := by
  refine ⟨⟨ops, s, true, [.opn .success]⟩, ?_, ⟨ha, rfl, hb⟩, rfl⟩
  unfold Rdwr.open Rdwr.init
  simp only [hf, hs, Exec.ok_bind, if_true, List.nil_append]

/-- **C134**: a reader on a transport without a write callback. If the START frame has arrived,
opening the reader succeeds and takes just that frame; then every payload is returned as soon as
its frame has arrived, the end of the stream as soon as the STOP frame has, and no byte beyond the
frame is taken, whatever follows and however the bytes arrive. -/
theorem reader_prompt (ops : Ops σ) (obj s : σ) (rem : σ → Option Bytes) (put : Bytes → σ → σ)
    (opn : σ → Exec (Res × σ)) (ropt : Option ReaderOptions) (r : Reader σ) (start : CFrame)
    (buf : Bytes) (ha : Arrived ops rem) (hwr : ops.wr = none)
    (hput : ∀ bs s buf, rem s = some buf → rem (put bs s) = some (buf ++ bs))
    (hinit : Reader.init ropt (Rdwr.init ops obj) = some r)
    (hopn : ops.opn = some opn) (hs : opn obj = .ok (.success, s))
    (hst : start.WF ∧ start.payload.length ≤ 512 ∧ start.type = .start)
    (hc : Spec.compatible r.cts start.cts)
    (hb : rem s = some (start.wire ++ buf)) :
    ∃ r', r.open = .ok (.success, r') ∧ r'.maxFrameSize = r.maxFrameSize ∧
      rem r'.rdwr.obj = some buf ∧ Prompt rem put r' buf := by
  obtain ⟨h3, _, _, h4, _, h6, _⟩ := reader_init_some hinit
  obtain ⟨rw, e1, a1, o1⟩ := rdwr_open_at ha hopn hs hb
  obtain ⟨r1, a2, c2, _, _, _, k, _⟩ := Arrive.openUnidirectional_at (r := { r with rdwr := rw })
    a1 hst.1 hst.2.1 hst.2.2
  obtain ⟨st, e2⟩ := k hc
  have e := open_of_uni (r := r) (by rw [h3]; decide) (by rw [h4]; exact e1) (by rw [o1]; exact hwr)
    e2
  rw [if_pos rfl] at e
  refine ⟨_, e, c2.max, a2.left, ?_⟩
  refine prompt_of_at hput rfl ?_ a2
  show 1 ≤ r1.bufCap
  rw [c2.cap]; show 1 ≤ r.bufCap; omega

/-- **C134**: a reader on a transport with a write callback. If the READY frame has arrived, and
nothing else, and the peer answers the ACCEPT frame by START, opening the reader succeeds and takes
just these two frames; from then on as in `reader_prompt`. -/
theorem reader_prompt_bidirectional (ops : Ops σ) (obj s : σ) (rem : σ → Option Bytes)
    (put : Bytes → σ → σ) (opn : σ → Exec (Res × σ)) (ropt : Option ReaderOptions) (r : Reader σ)
    (ready start : CFrame) (buf : Bytes) (ha : Arrived ops rem)
    (hput : ∀ bs s buf, rem s = some buf → rem (put bs s) = some (buf ++ bs))
    (hinit : Reader.init ropt (Rdwr.init ops obj) = some r)
    (hopn : ops.opn = some opn) (hs : opn obj = .ok (.success, s))
    (hrd : ready.WF ∧ ready.payload.length ≤ 512 ∧ ready.type = .ready)
    (hst : start.WF ∧ start.payload.length ≤ 512 ∧ start.type = .start)
    (hc : Spec.compatible r.cts start.cts)
    (hct : ∀ ct ∈ r.cts, ct.length ≤ 256)
    (hacc : (CFrame.wire ⟨.accept, Spec.common r.cts ready.cts⟩).length ≤ 512)
    (hans : Answers ops rem (CFrame.wire ⟨.accept, Spec.common r.cts ready.cts⟩)
      (start.wire ++ buf))
    (hb : rem s = some ready.wire) :
    ∃ r', r.open = .ok (.success, r') ∧ r'.maxFrameSize = r.maxFrameSize ∧
      rem r'.rdwr.obj = some buf ∧ Prompt rem put r' buf := by
  obtain ⟨h3, _, _, h4, _, h6, _⟩ := reader_init_some hinit
  obtain ⟨rw, e1, a1, o1⟩ := rdwr_open_at ha hopn hs hb
  obtain ⟨r1, a2, c2, _, _, _, k, _⟩ := Arrive.openBidirectional_at (r := { r with rdwr := rw })
    a1 (by show Answers rw.ops _ _ _; rw [o1]; exact hans) hst.1 hst.2.1 hst.2.2 hrd.1 hrd.2.1
    hrd.2.2 hct hacc
  obtain ⟨st, e2⟩ := k hc
  have hw : rw.ops.wr ≠ none := by
    obtain ⟨f, hf, _⟩ := hans.wr
    rw [o1, hf]; simp
  have e := open_of_bi (r := r) (by rw [h3]; decide) (by rw [h4]; exact e1) hw e2
  rw [if_pos rfl] at e
  refine ⟨_, e, c2.max, a2.left, ?_⟩
  refine prompt_of_at hput rfl ?_ a2
  show 1 ≤ r1.bufCap
  rw [c2.cap]; show 1 ≤ r.bufCap; omega

/-- A transport whose read callback blocks for ever when fewer bytes than wanted have arrived; with
`a = some (q, a')` it also has a write callback, to a peer that answers `q` by `a'`. -/
def blocking (a : Option (Bytes × Bytes)) : Ops Bytes where
  destroy := none
  opn := some fun s => .ok (.success, s)
  cls := none
  rd := some fun n s => if n ≤ s.length then .ok (.success, s.take n, s.drop n) else .error (.wait [])
  wr := a.map fun qa iov s => .ok (.success, if iov = [qa.1] then s ++ qa.2 else s)

theorem blocking_arrived (a : Option (Bytes × Bytes)) : Arrived (blocking a) some := by
  refine ⟨_, rfl, ?_⟩
  intro n s bs _ hn hs
  cases hs
  exact ⟨s.drop n, by rw [if_pos hn], rfl⟩

/-- The payloads `[7]` and `[8, 9]` arrive in pieces, a READY frame in between; the STOP frame is
followed by further bytes. -/
def pieces : List Happening :=
  [.arrive [0, 0], .arrive [0, 1, 7, 0, 0], .read,
   .arrive [0, 0, 0, 0, 0, 4, 0, 0, 0, 4, 0, 0, 0], .arrive [2, 8, 9], .read,
   .arrive (CFrame.wire ⟨.stop, []⟩ ++ [1, 2, 3])]

theorem pieces_inTime (max : Nat) (h : 2 ≤ max) :
    InTime max pieces [] [[7], [8, 9]] (CFrame.wire ⟨.stop, []⟩ ++ [1, 2, 3]) := by
  refine .arrive (.arrive ?_)
  refine InTime.read (skip := []) (d := [7]) (tail := [0, 0]) (by intro f hf; cases hf)
    (by decide) (by simp; omega) (by decide) ?_
  refine .arrive (.arrive ?_)
  refine InTime.read (skip := [⟨.ready, []⟩]) (d := [8, 9]) (tail := []) ?_
    (by decide) (by simpa using h) (by decide) (.arrive (.done _))
  intro f hf
  rw [List.mem_singleton] at hf
  subst hf
  exact ⟨⟨by simp, by intro n hn; simp⟩, by decide, by decide⟩

example : ∃ r r' : Reader Bytes,
    Reader.init none (Rdwr.init (blocking none) (CFrame.wire ⟨.start, []⟩)) = some r ∧
    r.open = .ok (.success, r') ∧
    ∃ N, ∀ fuel, N ≤ fuel → ∃ r2,
      play fuel (fun bs s => s ++ bs) pieces r' = .ok ([[7], [8, 9]], r2) ∧
      ∃ r3, r2.read 1 = .ok (.stop, none, r3) ∧ r3.rdwr.obj = [1, 2, 3] := by
  obtain ⟨r', h1, h2, h3, h4⟩ := reader_prompt (blocking none) (CFrame.wire ⟨.start, []⟩)
    (CFrame.wire ⟨.start, []⟩) some (fun bs s => s ++ bs) _ none _ ⟨.start, []⟩ []
    (blocking_arrived none) rfl (by intro bs s buf h; cases h; rfl) rfl rfl rfl
    ⟨⟨by simp, by intro n hn; simp⟩, by decide, rfl⟩ (Or.inl rfl)
    (by rw [List.append_nil])
  refine ⟨_, r', rfl, h1, ?_⟩
  obtain ⟨N, hN⟩ := h4 pieces _ _ (pieces_inTime _ (by rw [h2]; decide))
  refine ⟨N, fun fuel hf => ?_⟩
  obtain ⟨r2, e2, _, k⟩ := hN fuel hf
  obtain ⟨r3, e3, l3⟩ := k [] [1, 2, 3] (by intro f hf; cases hf) rfl 1 (by decide)
  exact ⟨r2, e2, r3, e3, Option.some.inj l3⟩

example : ∃ r r' : Reader Bytes,
    Reader.init none (Rdwr.init (blocking (some (CFrame.wire ⟨.accept, []⟩,
      CFrame.wire ⟨.start, []⟩))) (CFrame.wire ⟨.ready, [[97]]⟩)) = some r ∧
    r.open = .ok (.success, r') ∧
    ∃ N, ∀ fuel, N ≤ fuel → ∃ r2,
      play fuel (fun bs s => s ++ bs) pieces r' = .ok ([[7], [8, 9]], r2) := by
  obtain ⟨r', h1, h2, h3, h4⟩ := reader_prompt_bidirectional
    (blocking (some (CFrame.wire ⟨.accept, []⟩, CFrame.wire ⟨.start, []⟩)))
    (CFrame.wire ⟨.ready, [[97]]⟩) (CFrame.wire ⟨.ready, [[97]]⟩) some (fun bs s => s ++ bs) _
    none _ ⟨.ready, [[97]]⟩ ⟨.start, []⟩ []
    (blocking_arrived _) (by intro bs s buf h; cases h; rfl) rfl rfl rfl
    ⟨⟨by simp, by intro n hn; cases hn⟩, by decide, rfl⟩
    ⟨⟨by simp, by intro n hn; simp⟩, by decide, rfl⟩ (Or.inl rfl)
    (by intro ct h; cases h) (by decide)
    ⟨_, rfl, by intro s hs; cases hs; exact ⟨_, rfl, by rfl⟩⟩
    rfl
  refine ⟨_, r', rfl, h1, ?_⟩
  obtain ⟨N, hN⟩ := h4 pieces _ _ (pieces_inTime _ (by rw [h2]; decide))
  refine ⟨N, fun fuel hf => ?_⟩
  obtain ⟨r2, e2, _, _⟩ := hN fuel hf
  exact ⟨r2, e2⟩

end Fstrm.Props
