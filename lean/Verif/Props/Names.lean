import Verif.Model.Names
import Verif.Proofs.Count
/-!
# C95: whose votes are counted

Nodes are known by their aliases in the pool ledger. Quorums count the names of
replicas.
-/
namespace Verif.Props
open Verif Verif.Names

theorem digits_no_colon (n : Nat) : colon ∉ digits n := by
  intro h
  obtain ⟨c, hc, h⟩ := List.mem_map.1 h
  have hd := Nat.isDigit_of_mem_toDigits (by decide) (by decide) hc
  simp only [Char.isDigit, Bool.and_eq_true, decide_eq_true_eq] at hd
  have h1 : 48 ≤ c.toNat := by simpa [Char.le_def, UInt32.le_iff_toNat_le] using hd.1
  have h2 : c.toNat ≤ 57 := by simpa [Char.le_def, UInt32.le_iff_toNat_le] using hd.2
  have := congrArg UInt8.toNat h
  simp only [UInt8.toNat_ofNat', colon] at this
  have h3 : c.toNat % 256 = c.toNat := Nat.mod_eq_of_lt (by omega)
  have h4 : (58 : UInt8).toNat = 58 := rfl
  omega

theorem map_inj_of {f : Char → UInt8} : ∀ {l l' : List Char}, (∀ a ∈ l, ∀ b ∈ l', f a = f b → a = b) → l.map f = l'.map f → l = l' := by
  intro l
  induction l with
  | nil => intro l' _ h; cases l' <;> simp_all
  | cons a l ih =>
    intro l' hf h
    cases l' with
    | nil => simp at h
    | cons b l' =>
      simp only [List.map_cons, List.cons.injEq] at h
      rw [hf a (by simp) b (by simp) h.1, ih (fun x hx y hy => hf x (by simp [hx]) y (by simp [hy])) h.2]

theorem digits_inj {m n : Nat} (h : digits m = digits n) : m = n := by
  have hb : ∀ k, ∀ c ∈ Nat.toDigits 10 k, c.toNat < 256 := by
    intro k c hc
    have hd := Nat.isDigit_of_mem_toDigits (by decide) (by decide) hc
    simp only [Char.isDigit, Bool.and_eq_true, decide_eq_true_eq] at hd
    have h2 : c.toNat ≤ 57 := by simpa [Char.le_def, UInt32.le_iff_toNat_le] using hd.2
    omega
  have : Nat.toDigits 10 m = Nat.toDigits 10 n := by
    refine map_inj_of (fun a ha b hb' he => ?_) h
    have h1 := congrArg UInt8.toNat he
    simp only [UInt8.toNat_ofNat'] at h1
    rw [Nat.mod_eq_of_lt (hb m a ha), Nat.mod_eq_of_lt (hb n b hb')] at h1
    exact Char.toNat_inj.1 h1
  rw [← Nat.ofDigitChars_ten_toDigits (n := m), this, Nat.ofDigitChars_ten_toDigits]

theorem nodeName_replicaName {a : Bytes} (ha : colon ∉ a) (i : Nat) : nodeName (replicaName a i) = a := by
  have h1 : a.contains colon = false := by simpa using ha
  unfold replicaName nodeName
  rw [h1]
  simp only [Bool.false_eq_true, if_false]
  rw [if_pos (by simp)]
  rw [List.reverse_append, List.reverse_cons, List.append_assoc, List.dropWhile_append_of_pos]
  · simp
  · intro c hc
    have : c ≠ colon := fun h => digits_no_colon i (h ▸ List.mem_reverse.1 hc)
    simp [this]

/-- **C95**, for aliases without `:`: a message is counted for the node that sent
it, as a vote in the instance it is for. Missing for the full claim: other
aliases (`C95_counted_for_another`). -/
theorem C95_sender_partial (a b : Bytes) (ha : colon ∉ a) (hb : colon ∉ b) (i j : Nat) :
    nodeName (voter i a) = a ∧ (voter i a = voter j b → a = b ∧ i = j) := by
  refine ⟨nodeName_replicaName ha i, fun h => ?_⟩
  have hab : a = b := by
    rw [← nodeName_replicaName ha i, ← nodeName_replicaName hb j]
    exact congrArg nodeName h
  subst hab
  refine ⟨rfl, digits_inj ?_⟩
  have h1 : a.contains colon = false := by simpa using ha
  simp only [voter, replicaName, h1, Bool.false_eq_true, if_false] at h
  simpa using List.append_cancel_left h

/-- **C95**, quorums, for aliases without `:`: the votes of `k` different nodes
are `k` votes. -/
theorem C95_votes_partial (l : List Bytes) (hl : l.Nodup) (h : ∀ a ∈ l, colon ∉ a) (i : Nat) : (l.map (voter i)).Nodup := by
  induction l with
  | nil => exact List.nodup_nil
  | cons a l ih =>
    rw [List.nodup_cons] at hl
    rw [List.map_cons, List.nodup_cons]
    refine ⟨fun hm => ?_, ih hl.2 fun b hb => h b (List.mem_cons_of_mem _ hb)⟩
    obtain ⟨b, hb, he⟩ := List.mem_map.1 hm
    have := ((C95_sender_partial b a (h b (List.mem_cons_of_mem _ hb)) (h a List.mem_cons_self) i i).2 he).1
    subst this
    exact hl.1 hb

/-- A pool that takes every alias the code takes. -/
def namesEnv : NodeTxn.Env := ⟨fun _ => true, fun _ => true, fun _ => true, isAlias, none⟩

/-- **C95 does not hold of the code.** `generateName` leaves a name with `:` as it
is. For every node and instance there is another alias, which the pool takes if
it is not too long, under which a node's messages are counted as those of the
first node: as its votes in the instance, its votes for view changes and, when it
is the primary, its batches. -/
theorem C95_counted_for_another (a : Bytes) (ha : colon ∉ a) (i : Nat) :
    ∃ b, b ≠ a ∧ voter i b = voter i a ∧ nodeName (voter i b) = a ∧ (a.length + (digits i).length < 256 → isAlias b = true) := by
  have h1 : a.contains colon = false := by simpa using ha
  have hb : voter i a = a ++ colon :: digits i := by simp only [voter, replicaName, h1, Bool.false_eq_true, if_false]
  have h2 : (voter i a).contains colon = true := by rw [hb]; simp
  have h3 : voter i (voter i a) = voter i a := by
    show replicaName (voter i a) i = _
    unfold replicaName
    rw [if_pos h2]
  refine ⟨voter i a, fun h => ha ?_, h3, by rw [h3]; exact nodeName_replicaName ha i, fun hlen => ?_⟩
  · rw [← h, hb]; simp
  · rw [hb]; simp [isAlias]; omega

/-- A node with such an alias votes in no other instance under its own name. -/
theorem C95_same_in_all (b : Bytes) (hb : colon ∈ b) (i j : Nat) : voter i b = voter j b := by
  have : b.contains colon = true := by simpa using hb
  simp only [voter, replicaName, this, if_true]

/-- The requests of two stewards that add nodes `Alpha` and `Alpha:0`. -/
def namesReqs : List NodeTxn.Ev :=
  [.request ⟨[1], [11], none, [(.nodeIp, .str [10, 0, 0, 1]), (.nodePort, .int 9701), (.clientIp, .str [10, 0, 0, 1]),
      (.clientPort, .int 9702), (.alias, .str (ascii "Alpha"))], true⟩,
   .request ⟨[2], [12], none, [(.nodeIp, .str [10, 0, 0, 2]), (.nodePort, .int 9701), (.clientIp, .str [10, 0, 0, 2]),
      (.clientPort, .int 9702), (.alias, .str (ascii "Alpha:0"))], true⟩]

/-- **C95 does not hold of the code**, the pool: NODE transactions add two nodes,
each with its own alias, whose votes are one. -/
theorem C95_pool_takes_both : ∃ (p : NodeTxn.Pool) (a b : Bytes), p = (NodeTxn.run namesEnv ⟨[], []⟩ namesReqs).cur ∧
    (p.get? [11]).bind (·.get? .alias) = some (.str a) ∧ (p.get? [12]).bind (·.get? .alias) = some (.str b) ∧ a ≠ b ∧
    voter 0 a = voter 0 b ∧ nodeName (voter 0 b) = a :=
  ⟨_, ascii "Alpha", ascii "Alpha:0", rfl, by decide +kernel, by decide +kernel, by decide +kernel, by decide +kernel, by decide +kernel⟩

example : nodeName (voter 1 (ascii "Alpha")) = ascii "Alpha" :=
  (C95_sender_partial (ascii "Alpha") (ascii "Beta") (by decide +kernel) (by decide +kernel) 1 0).1
example : voter 10 (ascii "Alpha") = ascii "Alpha:10" := by decide +kernel
example : ([ascii "Alpha", ascii "Beta", ascii "Gamma"].map (voter 0)).Nodup :=
  C95_votes_partial _ (by decide +kernel) (by decide +kernel) 0

end Verif.Props
