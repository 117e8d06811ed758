import Verif.Proofs.MsgPack
/-!
# C43, C68: the bytes of a transaction
-/
namespace Verif.Props
open Verif Verif.Spec Verif.MsgPack

/-- C43, for values in which no dict is reached through two lists in a row
(`Regular`): equal values give the same bytes, or the same refusal, whatever the
insertion order of their fields at any depth.

Missing: `MsgPackSerializer` does not look for dicts inside a list that is an item
of a list, nor inside a list that is serialized on its own. There the claim is
false, see `txn_bytes_depend_on_order`. -/
theorem txn_bytes_order_partial (a b : Val) (ha : WF a) (hb : WF b) (hr : Regular a) (h : Same a b) :
    serialize a = serialize b := by
  unfold serialize
  rw [sortDict_same hr ha hb h]

private def k (s : String) : Bytes := ascii s
private def txnA : Val := .dict [(k "type", .str (k "1")), (k "data", .dict [(k "b", .int 2), (k "a", .list [.dict [(k "y", .none), (k "x", .bool true)]])])]
private def txnB : Val := .dict [(k "data", .dict [(k "a", .list [.dict [(k "x", .bool true), (k "y", .none)]]), (k "b", .int 2)]), (k "type", .str (k "1"))]

example : txnA ≠ txnB ∧ serialize txnA = serialize txnB := by decide +kernel

/-- The whole claim C43 is false: two equal transactions, with a dict inside a list
inside a list, have different bytes. -/
theorem txn_bytes_depend_on_order :
    ∃ a b, WF a ∧ WF b ∧ Same a b ∧ serialize a ≠ serialize b := by
  let p : Val := .dict [(k "a", .list [.list [.dict [(k "x", .int 1), (k "y", .int 2)]]])]
  let q : Val := .dict [(k "a", .list [.list [.dict [(k "y", .int 2), (k "x", .int 1)]]])]
  have wl : ∀ v, WF v → WF (.list [v]) := fun v h => .list _ (fun u hu => by
    rw [List.mem_singleton] at hu; rw [hu]; exact h)
  have wd : ∀ s v, WF v → WF (.dict [(s, v)]) := fun s v h => .dict _ (by simp) (fun u hu => by
    rw [List.mem_singleton] at hu; rw [hu]; exact h)
  have sl : ∀ v w, Same v w → Same (.list [v]) (.list [w]) := fun v w h => .list _ _ rfl (fun i a b h1 h2 => by
    cases i with
    | zero => cases h1; cases h2; exact h
    | succ i => cases h1)
  have sd : ∀ s v w, Same v w → Same (.dict [(s, v)]) (.dict [(s, w)]) := fun s v w h =>
    .dict _ _ (fun _ => Iff.rfl) (fun j a b h1 h2 => by
      simp only [List.mem_singleton, Prod.mk.injEq] at h1 h2
      rw [h1.2, h2.2]; exact h)
  have leaf : ∀ (d : List (Bytes × Val)), (d.map Prod.fst).Nodup → (∀ e ∈ d, ∃ n, e.2 = .int n) → WF (.dict d) :=
    fun d h1 h2 => .dict d h1 (fun e he => by obtain ⟨n, hn⟩ := h2 e he; rw [hn]; exact .int n)
  refine ⟨p, q, wd _ _ (wl _ (wl _ (leaf _ (by decide +kernel) (by simp)))),
    wd _ _ (wl _ (wl _ (leaf _ (by decide +kernel) (by simp)))), sd _ _ _ (sl _ _ (sl _ _ ?_)), by decide +kernel⟩
  refine .dict _ _ (fun j => ?_) (fun j v w h1 h2 => ?_)
  · simp [or_comm]
  · have hne : k "x" ≠ k "y" := by decide +kernel
    simp only [List.mem_cons, Prod.mk.injEq, List.not_mem_nil, or_false] at h1 h2
    rcases h1 with ⟨rfl, rfl⟩ | ⟨rfl, rfl⟩ <;> rcases h2 with ⟨h2, rfl⟩ | ⟨h2, rfl⟩
    · exact absurd h2 hne
    · exact .refl _
    · exact .refl _
    · exact absurd h2.symm hne

/-- C68: a transaction read back from its bytes equals the one that was written.
`serialize` fails only on integers beyond 64 bits and on sizes of 2^32 and more. -/
theorem txn_roundtrip (v : Val) (h : WF v) (b : Bytes) (e : serialize v = .ok b) :
    ∃ w, deserialize b = .ok w ∧ Same v w := by
  obtain ⟨hw, hs⟩ := wf_sortDict v h
  exact ⟨sortDict v, unpackb_packb _ b hw e, hs⟩

/-- C68: different transactions have different bytes. -/
theorem txn_bytes_injective (v w : Val) (hv : WF v) (hw : WF w) (b : Bytes)
    (ev : serialize v = .ok b) (ew : serialize w = .ok b) : Same v w := by
  obtain ⟨x, hx, h1⟩ := txn_roundtrip v hv b ev
  obtain ⟨y, hy, h2⟩ := txn_roundtrip w hw b ew
  rw [hx] at hy
  cases hy
  exact Same.trans h1 (Same.symm h2)

/-- C68: bytes with anything added at their end are refused, so no transaction is read
from a damaged entry as if it was whole. -/
theorem txn_bytes_exact (v : Val) (h : WF v) (b c : Bytes) (hc : c ≠ []) (e : serialize v = .ok b) :
    deserialize (b ++ c) = .error .malformed := by
  obtain ⟨hw, _⟩ := wf_sortDict v h
  unfold deserialize unpackb
  rw [unpack_pack _ b hw e _ (by simp only [List.length_append]; omega) c]
  cases c with
  | nil => exact absurd rfl hc
  | cons x r => rfl

example : serialize txnA = .ok [130, 164, 100, 97, 116, 97, 130, 161, 97, 145, 130, 161, 120, 195, 161, 121, 192, 161,
    98, 2, 164, 116, 121, 112, 101, 161, 49] := by decide +kernel
example : (serialize txnA).bind deserialize = .ok txnB := by decide +kernel
example : serialize (.int (-33)) = .ok [0xd0, 0xdf] ∧ deserialize [0xd0, 0xdf] = .ok (.int (-33)) := by decide +kernel
example : serialize (.int (2 ^ 64)) = .error .overflow := by decide +kernel

end Verif.Props
