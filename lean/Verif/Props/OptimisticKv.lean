import Verif.Model.OptimisticKv
import Verif.Spec.OptimisticKv
import Verif.Proofs.Count
/-!
# C41: uncommitted batches of a key-value store
-/
namespace Verif.Props
open Verif.OptKv
open Verif.Spec.OptKv (Abs Act write)

variable {I K V : Type} [DecidableEq K]

/-- The meaning of the calls, in order; uncommitted removals have none. -/
def optActs : List (Event I K V) → List (Act I K V)
  | [] => []
  | .set k v true :: h => .setCommitted [(k, v)] :: optActs h
  | .set k v false :: h => .set k v :: optActs h
  | .setBatch l true :: h => .setCommitted l :: optActs h
  | .setBatch l false :: h => l.map (fun e => .set e.1 e.2) ++ optActs h
  | .remove k true :: h => .removeCommitted k :: optActs h
  | .remove _ false :: h => optActs h
  | .create i :: h => .create i :: optActs h
  | .commit :: h => .commit :: optActs h
  | .reject :: h => .reject :: optActs h

/-- The specification run over the calls. -/
def optSpec (d : Dict K V) (h : List (Event I K V)) : Abs I K V :=
  (optActs h).foldl Abs.act ⟨d.get?, [], []⟩

/-- The newest write of a key, if any. -/
theorem write_eq (m : K → Option V) (l : List (K × V)) (k : K) : write m l k = (newest k l).or (m k) := by
  induction l using snoc_induction with
  | nil => simp [write, newest]
  | snoc l e ih =>
    have : write m (l ++ [e]) k = if k = e.1 then some e.2 else write m l k := by simp [Spec.OptKv.write, List.foldl_append]
    rw [this, ih]
    unfold newest
    rw [List.reverse_append, List.reverse_singleton, List.singleton_append, List.find?_cons]
    by_cases hk : k = e.1
    · simp [hk]
    · have : ¬ e.1 = k := fun h => hk h.symm
      simp [hk, this]

theorem get?_foldl_set (d : Dict K V) (l : List (K × V)) (k : K) :
    Dict.get? (l.foldl (fun d e => d.set e.1 e.2) d) k = write d.get? l k := by
  induction l using snoc_induction with
  | nil => rfl
  | snoc l e ih =>
    have : write d.get? (l ++ [e]) k = if k = e.1 then some e.2 else write d.get? l k := by
      simp [Spec.OptKv.write, List.foldl_append]
    rw [List.foldl_append, this, ← ih]
    simp only [List.foldl_cons, List.foldl_nil, Dict.get?_set, eq_comm]

/-- Writing the entries of a dictionary with no key twice has the effect of its lookups. -/
theorem write_dict (m : K → Option V) {d : Dict K V} (hd : d.keys.Nodup) (k : K) :
    write m d k = (d.get? k).or (m k) := by
  rw [write_eq]
  congr 1
  unfold newest
  cases hg : d.get? k with
  | none =>
    have : d.reverse.find? (fun e => decide (e.1 = k)) = none := by
      rw [List.find?_eq_none]
      intro e he h
      have hm : e.1 ∈ d.keys := List.mem_map_of_mem (List.mem_reverse.1 he)
      rw [Dict.mem_keys] at hm
      obtain ⟨v, hv⟩ := hm
      rw [of_decide_eq_true h, hg] at hv
      cases hv
    rw [this]; rfl
  | some v =>
    cases hf : d.reverse.find? (fun e => decide (e.1 = k)) with
    | none =>
      rw [List.find?_eq_none] at hf
      exact absurd (by simp) (hf (k, v) (List.mem_reverse.2 (Dict.mem_of_get? hg)))
    | some e =>
      have h1 := List.mem_reverse.1 (List.mem_of_find?_eq_some hf)
      have h2 : e.1 = k := by simpa using List.find?_some hf
      have := Dict.get?_of_mem hd (k := e.1) (v := e.2) h1
      rw [h2, hg] at this
      cases this; rfl

theorem nodup_foldl_set (d : Dict K V) (hd : d.keys.Nodup) (l : List (K × V)) :
    (Dict.keys (l.foldl (fun d e => d.set e.1 e.2) d)).Nodup := by
  induction l generalizing d with
  | nil => exact hd
  | cons e l ih => exact ih _ (Dict.nodup_keys_set hd _ _)

/-- Batches as dictionaries and as lists of writes. -/
inductive SameBatches : List (I × Dict K V) → List (I × List (K × V)) → Prop
  | nil : SameBatches [] []
  | snoc {a b} (i : I) (d : Dict K V) (w : List (K × V)) : SameBatches a b → d.keys.Nodup →
      (∀ m k, write m d k = write m w k) → SameBatches (a ++ [(i, d)]) (b ++ [(i, w)])

theorem sameBatches_length {a : List (I × Dict K V)} {b : List (I × List (K × V))} (h : SameBatches a b) :
    a.length = b.length := by
  induction h with
  | nil => rfl
  | snoc i d w h _ _ ih => simp [ih]

theorem sameBatches_cons {a : List (I × Dict K V)} {b : List (I × List (K × V))} (h : SameBatches a b) :
    (a = [] ∧ b = []) ∨ ∃ i d w a' b', a = (i, d) :: a' ∧ b = (i, w) :: b' ∧ (∀ m k, write m d k = write m w k) ∧
      SameBatches a' b' := by
  induction h with
  | nil => exact .inl ⟨rfl, rfl⟩
  | snoc i d w h h1 h2 ih =>
    rcases ih with ⟨rfl, rfl⟩ | ⟨i', d', w', a', b', rfl, rfl, h3, h4⟩
    · exact .inr ⟨i, d, w, [], [], rfl, rfl, h2, .nil⟩
    · exact .inr ⟨i', d', w', a' ++ [(i, d)], b' ++ [(i, w)], rfl, rfl, h3, .snoc i d w h4 h1 h2⟩

theorem sameBatches_dropLast {a : List (I × Dict K V)} {b : List (I × List (K × V))} (h : SameBatches a b) :
    SameBatches a.dropLast b.dropLast := by
  cases h with
  | nil => exact .nil
  | snoc i d w h h1 h2 => simpa using h

theorem write_append (m : K → Option V) (a b : List (K × V)) : write m (a ++ b) = write (write m a) b := by
  simp [Spec.OptKv.write, List.foldl_append]

theorem inBatches_eq {a : List (I × Dict K V)} {b : List (I × List (K × V))} (h : SameBatches a b) (m : K → Option V) (k : K) :
    (inBatches k a).or (m k) = write m (b.flatMap Prod.snd) k := by
  induction h with
  | nil => simp [inBatches, write]
  | snoc i d w h h1 h2 ih =>
    rw [List.flatMap_append, write_append]
    simp only [List.flatMap_cons, List.flatMap_nil, List.append_nil]
    rw [← h2, write_dict _ h1, ← ih]
    unfold inBatches
    rw [List.reverse_append, List.reverse_singleton, List.singleton_append, List.findSome?_cons]
    cases Dict.get? d k <;> simp

/-- The store stands for the specification's state. -/
structure OptRel (s : State I K V) (a : Abs I K V) : Prop where
  committed : ∀ k, s.store.get? k = a.committed k
  batches : SameBatches s.unCommitted a.batches
  current : s.currentBatchOps = a.current

theorem optRel_setBatch {s : State I K V} {a : Abs I K V} (h : OptRel s a) (l : List (K × V)) :
    OptRel (l.foldl (fun s e => set s e.1 e.2 false) s) ((l.map (fun e => Act.set e.1 e.2)).foldl Abs.act a) := by
  induction l generalizing s a with
  | nil => exact h
  | cons e l ih =>
    refine ih ⟨h.committed, h.batches, ?_⟩
    show s.currentBatchOps ++ _ = a.current ++ _
    rw [h.current]

theorem optRel_step {s : State I K V} {a : Abs I K V} (h : OptRel s a) (e : Event I K V)
    (he : ∀ k, e ≠ .remove k false) : OptRel (step s e) ((optActs [e]).foldl Abs.act a) := by
  cases e with
  | set k v c =>
    cases c with
    | true =>
      refine ⟨fun j => ?_, h.batches, h.current⟩
      show (s.store.set k v).get? j = if j = k then some v else a.committed j
      rw [Dict.get?_set, ← h.committed]
      simp only [eq_comm]
    | false =>
      refine ⟨h.committed, h.batches, ?_⟩
      show s.currentBatchOps ++ _ = a.current ++ _
      rw [h.current]
  | setBatch l c =>
    cases c with
    | true =>
      refine ⟨fun j => ?_, h.batches, h.current⟩
      show (storeBatch s.store l).get? j = write a.committed l j
      unfold storeBatch
      rw [get?_foldl_set, write_eq, write_eq, h.committed]
    | false =>
      have : optActs [(.setBatch l false : Event I K V)] = l.map (fun e => .set e.1 e.2) := by simp [optActs]
      rw [this]
      exact optRel_setBatch h l
  | remove k c =>
    cases c with
    | true =>
      refine ⟨fun j => ?_, h.batches, h.current⟩
      show (s.store.erase k).get? j = if j = k then none else a.committed j
      rw [Dict.get?_erase, ← h.committed]
      simp only [eq_comm]
    | false => exact absurd rfl (he k)
  | create i =>
    refine ⟨h.committed, ?_, rfl⟩
    show SameBatches (s.unCommitted ++ [(i, orderedDict s.currentBatchOps)]) (a.batches ++ [(i, a.current)])
    rw [← h.current]
    refine .snoc i _ _ h.batches (nodup_foldl_set [] List.nodup_nil _) (fun m k => ?_)
    unfold orderedDict
    rw [write_dict _ (nodup_foldl_set [] List.nodup_nil _), get?_foldl_set, write_eq, write_eq]
    simp
  | commit =>
    show OptRel (step s .commit) (Abs.act a .commit)
    simp only [step]
    rcases sameBatches_cons h.batches with ⟨h1, h2⟩ | ⟨i, d, w, a', b', h1, h2, h3, h4⟩
    · have e1 : commitBatch s = .error .value := by unfold commitBatch; rw [h1]
      have e2 : Abs.act a .commit = a := by simp only [Spec.OptKv.Abs.act]; rw [h2]
      rw [e1, e2]; exact h
    · have e1 : commitBatch s = .ok (i, { s with store := storeBatch s.store d, unCommitted := a' }) := by
        unfold commitBatch; rw [h1]
      have e2 : Abs.act a .commit = { a with committed := write a.committed w, batches := b' } := by
        simp only [Spec.OptKv.Abs.act]; rw [h2]
      rw [e1, e2]
      refine ⟨fun k => ?_, h4, h.current⟩
      show (storeBatch s.store d).get? k = write a.committed w k
      unfold storeBatch
      rw [get?_foldl_set, h3, write_eq, write_eq, h.committed]
  | reject =>
    show OptRel (step s .reject) (Abs.act a .reject)
    simp only [step]
    have hl := sameBatches_length h.batches
    unfold rejectBatch
    by_cases h0 : s.unCommitted.length = 0
    · rw [if_pos h0]
      have h2 : a.batches = [] := List.length_eq_zero_iff.1 (by omega)
      have e2 : Abs.act a .reject = a := by simp only [Spec.OptKv.Abs.act]; rw [h2]
      rw [e2]; exact h
    · rw [if_neg h0]
      have e2 : Abs.act a .reject = { a with batches := a.batches.dropLast, current := [] } := by
        simp only [Spec.OptKv.Abs.act]
        cases hb : a.batches with
        | nil => rw [hb] at hl; exact absurd hl h0
        | cons => rfl
      rw [e2]
      exact ⟨h.committed, sameBatches_dropLast h.batches, rfl⟩

omit [DecidableEq K] in
theorem optActs_append (a b : List (Event I K V)) : optActs (a ++ b) = optActs a ++ optActs b := by
  induction a with
  | nil => rfl
  | cons e a ih =>
    cases e with
    | set k v c => cases c <;> simp [optActs, ih]
    | setBatch l c => cases c <;> simp [optActs, ih]
    | remove k c => cases c <;> simp [optActs, ih]
    | _ => simp [optActs, ih]

theorem optRel_run (d : Dict K V) (h : List (Event I K V)) (hr : ∀ k, Event.remove k false ∉ h) :
    OptRel (run d h) (optSpec d h) := by
  induction h using snoc_induction with
  | nil => exact ⟨fun _ => rfl, .nil, rfl⟩
  | snoc h e ih =>
    have e1 : run d (h ++ [e]) = step (run d h) e := by simp [run, List.foldl_append]
    have e2 : optSpec d (h ++ [e]) = (optActs [e]).foldl Abs.act (optSpec d h) := by
      simp [optSpec, optActs_append, List.foldl_append]
    rw [e1, e2]
    exact optRel_step (ih (fun k hk => hr k (List.mem_append_left _ hk))) e
      (fun k hk => hr k (by rw [hk]; simp))

/-- The value, or `KeyError`. -/
def optResult : Option V → Except OptKv.Err V
  | some v => .ok v
  | none => .error .key

/-- **C41**, for every interleaving of the calls except uncommitted removals: an uncommitted read gives the newest
of the writes made and not rejected, a committed read the value of the committed batches. -/
theorem optimistic_reads_partial (d : Dict K V) (h : List (Event I K V)) (hr : ∀ k, Event.remove k false ∉ h) (k : K) :
    get (run d h) k true = optResult ((optSpec d h).committed k) ∧
    get (run d h) k false = optResult ((optSpec d h).visible k) := by
  have r := optRel_run d h hr
  have hs : ∀ k, storeGet (run d h).store k = optResult ((optSpec d h).committed k) := by
    intro k
    unfold storeGet
    rw [r.committed]
    cases (optSpec d h).committed k <;> rfl
  refine ⟨hs k, ?_⟩
  unfold OptKv.get
  rw [if_neg (by simp), hs]
  show _ = optResult (write (write (optSpec d h).committed _) (optSpec d h).current k)
  rw [write_eq, ← r.current, ← inBatches_eq r.batches]
  cases newest k (run d h).currentBatchOps with
  | some v => rfl
  | none =>
    cases inBatches k (run d h).unCommitted with
    | some v => rfl
    | none => simp

/-- **C41.** Committing reports and makes permanent the oldest batch, and fails exactly when there is none. -/
theorem optimistic_commit_partial (d : Dict K V) (h : List (Event I K V)) (hr : ∀ k, Event.remove k false ∉ h) :
    match (optSpec d h).batches, commitBatch (run d h) with
    | [], .error e => e = .value ∧ firstBatchIdr (run d h) = none
    | (i, w) :: _, .ok (j, s) => i = j ∧ firstBatchIdr (run d h) = some i ∧
        ∀ k, get s k true = optResult (write (optSpec d h).committed w k)
    | _, _ => False := by
  have r := optRel_run d h hr
  rcases sameBatches_cons r.batches with ⟨h1, h2⟩ | ⟨i, dd, w, a', b', h1, h2, h3, h4⟩
  · have e1 : commitBatch (run d h) = .error .value := by unfold commitBatch; rw [h1]
    rw [h2, e1]
    exact ⟨rfl, by unfold firstBatchIdr; rw [h1]⟩
  · have e1 : commitBatch (run d h) =
        .ok (i, { (run d h) with store := storeBatch (run d h).store dd, unCommitted := a' }) := by
      unfold commitBatch; rw [h1]
    rw [h2, e1]
    refine ⟨rfl, by unfold firstBatchIdr; rw [h1], fun k => ?_⟩
    show storeGet (storeBatch (run d h).store dd) k = _
    unfold storeGet storeBatch
    rw [get?_foldl_set, h3, write_eq, write_eq, r.committed]
    cases (newest k w).or ((optSpec d h).committed k) <;> rfl

/-- Rejecting fails exactly when there is no batch. -/
theorem optimistic_reject_partial (d : Dict K V) (h : List (Event I K V)) (hr : ∀ k, Event.remove k false ∉ h) :
    rejectBatch (run d h) = .error .logic ↔ (optSpec d h).batches = [] := by
  have r := optRel_run d h hr
  have hl := sameBatches_length r.batches
  unfold rejectBatch
  split
  · next h0 => exact ⟨fun _ => List.length_eq_zero_iff.1 (by omega), fun _ => rfl⟩
  · next h0 => exact ⟨fun h => (by cases h), fun h => (by rw [h] at hl; exact absurd hl h0)⟩

/-- Two batches over a committed value, one of them rejected after more writes, one committed. -/
def sampleCalls : List (Event Nat Nat Nat) :=
  [.set 1 10 false, .set 2 20 false, .set 1 11 false, .create 7, .setBatch [(1, 12), (3, 30)] false, .create 8,
   .set 3 31 false, .reject, .set 2 21 false, .remove 5 true, .commit]

example : ∀ k, Event.remove k false ∉ sampleCalls := by intro k h; simp [sampleCalls] at h
example : [1, 2, 3, 4, 5].map (fun k => get (run [(4, 40), (5, 50)] sampleCalls) k false)
    = [.ok 11, .ok 21, .error .key, .ok 40, .error .key] := by decide
example : [1, 2, 3, 4, 5].map (fun k => get (run [(4, 40), (5, 50)] sampleCalls) k true)
    = [.ok 11, .ok 20, .error .key, .ok 40, .error .key] := by decide
example : (optSpec [(4, 40), (5, 50)] (sampleCalls.take 6)).batches.length = 2 := by decide

/-- **C41 fails for uncommitted removals**: the call forgets the writes of every other key and keeps those of the
key it names. -/
theorem optimistic_remove_keeps_key :
    ∃ h : List (Event Nat Nat Nat), h = [.set 1 10 false, .set 2 20 false, .remove 1 false] ∧
      get (run [] h) 1 false = .ok 10 ∧ get (run [] h) 2 false = .error .key :=
  ⟨_, rfl, by decide, by decide⟩

end Verif.Props
