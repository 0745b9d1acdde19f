import Verif.Lemmas.Fleet

/-! What a capture server takes out of a beginning of a client's stream. -/

set_option autoImplicit false

namespace Fstrm

open Spec

/-- The payloads of the data frames among items. -/
def dataItems (its : List CapItem) : List Bytes :=
  its.filterMap fun it => match it with
    | .data d => some d
    | _ => none

theorem serveItem_adds (ct : Bytes) (sv : Served) (it : CapItem) :
    (serveItem ct sv it).recorded <+: sv.recorded ++ dataItems [it] := by
  unfold serveItem
  split <;> try split
  all_goals simp [dataItems]

/-- The server records data frames only, in their order. -/
theorem serve_recorded (ct : Bytes) : ∀ (its : List CapItem) (sv : Served),
    (its.foldl (serveItem ct) sv).recorded.Sublist (sv.recorded ++ dataItems its) := by
  intro its
  induction its with
  | nil => intro sv; simp
  | cons it rest ih =>
    intro sv
    rw [List.foldl_cons]
    refine (ih _).trans ?_
    have h1 := (serveItem_adds ct sv it).sublist
    have h2 : dataItems (it :: rest) = dataItems [it] ++ dataItems rest := by
      simp only [dataItems, ← List.filterMap_append, List.singleton_append]
    rw [h2, ← List.append_assoc]
    exact h1.append (List.Sublist.refl _)

theorem dataItems_mono {a b : List CapItem} (h : a <+: b) : (dataItems a).Sublist (dataItems b) :=
  h.sublist.filterMap _

/-- A control frame is no data. -/
theorem dataItems_wire {hw : Nat} {f : CFrame} (x : Bytes) (h4 : 4 ≤ f.payload.length)
    (h : f.payload.length < 2 ^ 32) :
    (dataItems (items hw (f.wire ++ x))).Sublist (dataItems (items hw x)) := by
  have e : f.wire ++ x = Spec.be32 0 ++ (Spec.be32 f.payload.length ++ (f.payload ++ x)) := by
    simp [CFrame.wire]
  have hlen : (f.wire ++ x).length = 8 + f.payload.length + x.length := by
    rw [e]; simp [Spec.be32]; omega
  have t4 : (f.wire ++ x).take 4 = Spec.be32 0 := by
    rw [e]; exact List.take_left' (by simp [Spec.be32])
  have d4 : (f.wire ++ x).drop 4 = Spec.be32 f.payload.length ++ (f.payload ++ x) := by
    rw [e]; exact List.drop_left' (by simp [Spec.be32])
  have d8 : (f.wire ++ x).drop 8 = f.payload ++ x := by
    rw [show 8 = 4 + 4 from rfl, ← List.drop_drop, d4]
    exact List.drop_left' (by simp [Spec.be32])
  have hdd : (f.wire ++ x).drop (8 + f.payload.length) = x := by
    rw [← List.drop_drop, d8, List.drop_left]
  have hn : nextItem hw (f.wire ++ x) = if f.payload.length > 512 then some (.bad, 0)
      else if 8 + f.payload.length > hw then
        some (.skipped (8 + f.payload.length), 8 + f.payload.length)
      else some (.control f.payload, 8 + f.payload.length) := by
    unfold nextItem
    rw [if_neg (by omega)]
    dsimp only
    rw [t4, number_be32 (by omega), if_neg (by simp), if_neg (by omega), d4,
      List.take_left' (by simp [Spec.be32]), number_be32 (by omega), d8, List.take_left]
    by_cases h5 : f.payload.length > 512
    · rw [if_pos (Or.inr h5), if_pos h5]
    · rw [if_neg (by omega), if_neg h5]
      split
      · rfl
      · rw [if_neg (by omega)]
  split at hn
  · rw [items_bad hn]; simp [dataItems]
  · split at hn <;>
    · rw [items_cons hn (by nofun), hdd]; simp [dataItems]

theorem dataItems_readies {hw k : Nat} {cts : List Bytes} (x : Bytes)
    (h : (CFrame.payload ⟨.ready, cts⟩).length < 2 ^ 32) :
    (dataItems (items hw (readies cts k ++ x))).Sublist (dataItems (items hw x)) := by
  induction k with
  | zero => simp [readies]
  | succ k ih =>
    have : readies cts (k + 1) = CFrame.wire ⟨.ready, cts⟩ ++ readies cts k := by
      simp [readies, List.replicate_succ]
    rw [this, List.append_assoc]
    exact (dataItems_wire _ (payload_ge _) h).trans ih

/-- **The main lemma**: of a beginning of READY (repeated) and a stream, the server records some of
the stream's frames, each at most once and in their order. -/
theorem serve_beginning {ct : Bytes} {hw k : Nat} {cts fs : List Bytes} {bs : Bytes}
    (h : bs <+: readies cts k ++ stream cts.head? fs)
    (hr : (CFrame.payload ⟨.ready, cts⟩).length < 2 ^ 32)
    (hs : (CFrame.payload ⟨.start, cts.head?.toList⟩).length < 2 ^ 32)
    (hf : ∀ d ∈ fs, d ≠ [] ∧ d.length < 2 ^ 32) :
    (serve ct (items hw bs)).recorded.Sublist fs := by
  obtain ⟨x, hx⟩ := h
  have h1 := serve_recorded ct (items hw bs) ⟨some .ready, [], []⟩
  refine h1.trans ?_
  rw [List.nil_append]
  refine (dataItems_mono (items_prefix hw _ bs x (Nat.le_refl _))).trans ?_
  rw [hx]
  refine (dataItems_readies _ hr).trans ?_
  unfold stream
  rw [List.append_assoc]
  refine (dataItems_wire _ (payload_ge _) hs).trans ?_
  rw [items_datas _ _ hf]
  have hstop := dataItems_wire (hw := hw) (f := ⟨.stop, []⟩) [] (payload_ge _) (by decide +kernel)
  rw [List.append_nil, items_nil] at hstop
  have e0 : dataItems (items hw (CFrame.wire ⟨.stop, []⟩)) = [] := List.sublist_nil.1 hstop
  have e1 : ∀ a b, dataItems (a ++ b) = dataItems a ++ dataItems b := by
    intro a b; simp [dataItems]
  rw [e1, e0, List.append_nil]
  clear hf hx
  induction fs with
  | nil => simp [dataItems]
  | cons d r ih =>
    rw [List.map_cons]
    split
    · exact ih.cons_cons d
    · exact ih.cons d

end Fstrm
