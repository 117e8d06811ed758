import Verif.Proofs.ChunkedStore
import Verif.Model.OptimisticKv
/-!
# C40: records in chunks of files
-/
namespace Verif.Props
open Verif.Chunked
variable {V : Type}

/-- The values appended, in order. -/
def appended : List (Event V) → List V
  | [] => []
  | .put v :: h => v :: appended h
  | _ :: h => appended h

/-- No read is for a position past the records there are at that point, `n` of them at first. -/
def ReadsWithin : Nat → List (Event V) → Prop
  | _, [] => True
  | n, .put _ :: h => ReadsWithin (n + 1) h
  | n, .get k :: h => k ≤ n ∧ ReadsWithin n h
  | n, .range _ stop :: h => (∀ e, stop = some e → e ≤ n) ∧ ReadsWithin n h
  | n, .reopen :: h => ReadsWithin n h

theorem iterator_store {c : Nat} {vals : List V} {s : Store V} (h : Holds c vals s) (start stop : Option Nat)
    (hb : ∀ e, stop = some e → e ≤ vals.length) : (iterator s start stop).2 = s := by
  unfold iterator
  split
  · unfold getRange
    split
    · next a b _ =>
      have hb := hb b rfl
      split
      · rfl
      · split
        · rfl
        · split
          · next hab =>
            have := get_store h (k := a) (by omega)
            generalize get s a = g at this
            obtain ⟨r, s'⟩ := g
            cases r <;> exact this
          · exact getRangeBetween_store h hb
    · next hn =>
      split
      · rfl
      · refine getRangeBetween_store h ?_
        cases stop with
        | none => rw [Option.getD_none, size_eq h]; exact Nat.le_refl _
        | some b => exact hb b rfl
  · rfl

theorem holds_foldl {c : Nat} (h : List (Event V)) {vals : List V} {s : Store V} (hs : Holds c vals s)
    (hr : ReadsWithin vals.length h) : Holds c (vals ++ appended h) (h.foldl step s) := by
  induction h generalizing vals s with
  | nil => simpa [appended] using hs
  | cons e h ih =>
    rw [List.foldl_cons]
    cases e with
    | put v =>
      have := ih (holds_put hs v) (by simpa [ReadsWithin] using hr)
      simpa [appended, step] using this
    | get k =>
      obtain ⟨h1, h2⟩ := hr
      have : step s (.get k) = s := get_store hs h1
      rw [this]; exact ih hs h2
    | range a b =>
      obtain ⟨h1, h2⟩ := hr
      have : step s (.range a b) = s := iterator_store hs a b h1
      rw [this]; exact ih hs h2
    | reopen =>
      have : Holds c vals (step s .reopen) := by
        show Holds c vals (openStore s.chunkSize s.files)
        rw [hs.cs, hs.files]
        exact holds_open hs.pos vals
      exact ih this hr

theorem holds_run {c : Nat} (hc : 0 < c) (h : List (Event V)) (hr : ReadsWithin 0 h) :
    Holds c (appended h) (run c h) := by
  simpa [run] using holds_foldl h (holds_new hc) hr

/-- Records numbered from 1, the way the store gives them. -/
def numberedFrom1 (vals : List V) : List (Nat × V) := (vals.zipIdx 1).map (fun e => (e.2, e.1))

theorem numberedFrom1_eq (vals : List V) (s : Nat) : (vals.zipIdx s).map (fun e => (e.2, e.1)) = lineIter none none s vals := by
  induction vals generalizing s with
  | nil => rfl
  | cons v r ih => rw [List.zipIdx_cons, List.map_cons, ih]; simp [lineIter]

/-- **C40.** For every chunk size and every history of appends, reopenings and reads at existing positions: the
size is the number of values appended. -/
theorem chunked_size_partial {c : Nat} (hc : 0 < c) (h : List (Event V)) (hr : ReadsWithin 0 h) :
    size (run c h) = (appended h).length := size_eq (holds_run hc h hr)

/-- **C40.** Reading a position gives the value appended there, and fails past the end. -/
theorem chunked_get_partial {c : Nat} (hc : 0 < c) (h : List (Event V)) (hr : ReadsWithin 0 h) (k : Nat) (hk : 1 ≤ k) :
    (get (run c h) k).1 = match (appended h)[k - 1]? with
      | some v => .ok v
      | none => .error .key := get_eq (holds_run hc h hr) hk

/-- **C40.** A range gives exactly the records at its positions, in order; one past the end gives those there are. -/
theorem chunked_range_partial {c : Nat} (hc : 0 < c) (h : List (Event V)) (hr : ReadsWithin 0 h) (a b : Nat)
    (ha : 1 ≤ a) (hab : a < b ∨ (a = b ∧ b ≤ (appended h).length)) :
    (iterator (run c h) (some a) (some b)).1 =
      .ok ((numberedFrom1 (appended h)).filter (fun e => a ≤ e.1 ∧ e.1 ≤ b)) := by
  have hh := holds_run hc h hr
  unfold numberedFrom1
  rw [numberedFrom1_eq]
  show _ = Except.ok (between (appended h) a b)
  unfold iterator
  rw [if_pos (.inl (by simp; omega))]
  unfold getRange
  dsimp only
  rw [if_neg (by omega), size_eq hh]
  split
  · next h0 =>
    symm
    show Except.ok (between (appended h) a b) = Except.ok []
    congr 1
    rw [List.eq_nil_iff_forall_not_mem]
    rintro ⟨i, v⟩ hi
    have := ((mem_between _ _ _ _ _).1 hi).1
    rw [List.length_eq_zero_iff.1 h0] at this
    simp at this
  · next h0 =>
    split
    · next he =>
      subst he
      have hg := get_eq hh ha
      obtain ⟨v, hv⟩ : ∃ v, (appended h)[a - 1]? = some v := ⟨(appended h)[a - 1], List.getElem?_eq_getElem (by omega)⟩
      rw [hv] at hg
      generalize get (run c h) a = g at hg
      obtain ⟨r, s'⟩ := g
      subst hg
      show Except.ok [(a, v)] = _
      congr 1
      refine Kv.sorted_ext lawful_nat ⟨fun _ _ => trivial, List.pairwise_singleton _ _⟩ (sorted_between _ _ _) ?_
      rintro ⟨i, w⟩
      rw [mem_between]
      simp only [List.mem_singleton, Prod.mk.injEq]
      constructor
      · rintro ⟨rfl, rfl⟩; exact ⟨⟨ha, hv⟩, by omega, by omega⟩
      · rintro ⟨⟨-, h2⟩, h3, h4⟩
        have : i = a := by omega
        subst this
        rw [hv] at h2; cases h2; exact ⟨rfl, rfl⟩
    · exact getRangeBetween_eq hh ha (by omega)

/-- **C40.** With a bound left out, the range reaches to that end. -/
theorem chunked_open_range_partial {c : Nat} (hc : 0 < c) (h : List (Event V)) (hr : ReadsWithin 0 h) (a b : Nat)
    (ha : 1 ≤ a ∧ a ≤ (appended h).length) (hb : 1 ≤ b) :
    (iterator (run c h) (some a) none).1 = .ok ((numberedFrom1 (appended h)).filter (fun e => a ≤ e.1)) ∧
    (iterator (run c h) none (some b)).1 = .ok ((numberedFrom1 (appended h)).filter (fun e => e.1 ≤ b)) := by
  have hh := holds_run hc h hr
  have hlen : ∀ e ∈ lineIter none none 1 (appended h), 1 ≤ e.1 ∧ e.1 ≤ (appended h).length := by
    rintro ⟨i, v⟩ he
    obtain ⟨⟨h1, h2⟩, -⟩ := (mem_lineIter _ _ _ _ _ _).1 he
    have := (List.getElem?_eq_some_iff.1 h2).1
    exact ⟨h1, by omega⟩
  unfold numberedFrom1
  rw [numberedFrom1_eq]
  have hs : size (run c h) ≠ 0 := by rw [size_eq hh]; omega
  constructor
  · unfold iterator
    rw [if_pos (.inl (by simp; omega))]
    unfold getRange
    dsimp only
    rw [if_neg hs, Option.getD_some, Option.getD_none, size_eq hh, getRangeBetween_eq hh ha.1 ha.2]
    congr 1
    apply List.filter_congr
    intro e he
    have := hlen e he
    simp only [decide_eq_decide]
    omega
  · unfold iterator
    rw [if_pos (.inr (by simp; omega))]
    unfold getRange
    dsimp only
    rw [if_neg hs, Option.getD_some, Option.getD_none, getRangeBetween_eq hh (by omega) hb]
    congr 1
    apply List.filter_congr
    intro e he
    have := hlen e he
    simp only [decide_eq_decide]
    omega

theorem flatMap_chunks {c : Nat} (vals : List V) (m : Nat) :
    (List.range m).flatMap (chunk c vals) = vals.take (m * c) := by
  induction m with
  | zero => simp
  | succ m ih =>
    rw [List.range_succ, List.flatMap_append, ih]
    simp only [List.flatMap_cons, List.flatMap_nil, List.append_nil, chunk]
    rw [Nat.add_mul, Nat.one_mul, List.take_add]

/-- **C40.** Iterating over everything gives every record, in order. -/
theorem chunked_all_partial {c : Nat} (hc : 0 < c) (h : List (Event V)) (hr : ReadsWithin 0 h) :
    (iterator (run c h) none none).1 = .ok (numberedFrom1 (appended h)) := by
  have hh := holds_run hc h hr
  have e : allLines (run c h) = appended h := by
    unfold allLines
    rw [hh.files, list_layout, List.flatMap_map]
    have : (fun j => lines (layout c (appended h)) (j * c + 1)) = chunk c (appended h) := by
      funext j; exact lines_layout hc _ j
    rw [this, flatMap_chunks, List.take_of_length_le]
    have h1 := Nat.div_add_mod ((appended h).length - 1) c
    have h2 := Nat.mod_lt ((appended h).length - 1) hc
    rw [Nat.mul_comm] at h1
    rw [Nat.add_mul]
    omega
  unfold iterator
  rw [if_neg (by simp), e]
  unfold numberedFrom1
  rw [numberedFrom1_eq]

/-- Seven records in chunks of three, with reads and reopenings between. -/
def sampleAppends : List (Event Nat) :=
  [.put 11, .put 12, .get 2, .reopen, .put 13, .put 14, .range (some 2) (some 4), .put 15, .put 16, .reopen, .put 17, .get 7]

example : ReadsWithin 0 sampleAppends := by simp [sampleAppends, ReadsWithin]
example : (run 3 sampleAppends).files = [(1, [11, 12, 13]), (4, [14, 15, 16]), (7, [17])] := by decide
example : (iterator (run 3 sampleAppends) (some 2) (some 7)).1 =
    .ok [(2, 12), (3, 13), (4, 14), (5, 15), (6, 16), (7, 17)] := by decide
example : (iterator (run 3 sampleAppends) (some 4) (some 5)).1 = .ok [(4, 14), (5, 15)] := by decide

/-- **C40 fails after a read past the end**: the read creates a file, the size is wrong from then on, and after a
reopening the next value appended is not found at its position. -/
theorem chunked_read_past_end : ∃ h : List (Event Nat),
    h = [.put 11, .get 10] ∧ size (run 3 h) = 3 ∧
    (get (run 3 (h ++ [.reopen, .put 12])) 2).1 = .error .key := ⟨_, rfl, by decide, by decide⟩

/-- A range from 0 gives the right values under wrong positions. -/
theorem chunked_range_from_zero : ∃ h : List (Event Nat), h = [.put 11, .put 12, .put 13] ∧
    (iterator (run 3 h) (some 0) (some 2)).1 = .ok [(0, 11), (1, 12)] := ⟨_, rfl, by decide⟩

end Verif.Props
