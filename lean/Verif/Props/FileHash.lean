import Verif.Spec.FileHash
/-!
# C108: the hash store in files
-/
namespace Verif.Props
open Verif.FileHash Verif.FileHash.Spec

/-- Entries of one size, and what is left of one that was not written to its end. -/
structure FileHolds (size : Nat) (file : Verif.FileHash.Bytes) (xs : List Verif.FileHash.Bytes)
    (torn : Verif.FileHash.Bytes) : Prop where
  file : file = xs.flatten ++ torn
  sizes : ∀ x ∈ xs, x.length = size
  torn : torn.length < size

theorem flatten_entries_length {size : Nat} {xs : List Verif.FileHash.Bytes} (h : ∀ x ∈ xs, x.length = size) :
    xs.flatten.length = xs.length * size := by
  induction xs with
  | nil => simp
  | cons x xs ih =>
    rw [List.flatten_cons, List.length_append, h x (List.mem_cons_self ..),
      ih (fun y hy => h y (List.mem_cons_of_mem _ hy)), List.length_cons, Nat.succ_mul, Nat.add_comm]

theorem FileHolds.read {size : Nat} {file : Verif.FileHash.Bytes} {xs : List Verif.FileHash.Bytes}
    {torn : Verif.FileHash.Bytes} (h : FileHolds size file xs torn) (pos : Nat) :
    readEntry file size pos = entry xs pos := by
  unfold readEntry Verif.FileHash.read entry
  by_cases hp : pos = 0
  · simp [hp]
  · simp only [hp, if_false]
    obtain ⟨k, rfl⟩ : ∃ k, pos = k + 1 := ⟨pos - 1, by omega⟩
    simp only [Nat.add_sub_cancel]
    rw [h.file]
    have hlen := flatten_entries_length h.sizes
    by_cases hk : k < xs.length
    · have hsplit : xs = xs.take k ++ xs[k] :: xs.drop (k + 1) := by
        rw [List.getElem_cons_drop, List.take_append_drop]
      have hx : xs[k].length = size := h.sizes _ (List.getElem_mem hk)
      have htake : (xs.take k).flatten.length = k * size := by
        rw [flatten_entries_length (fun x hx => h.sizes x (List.mem_of_mem_take hx)), List.length_take]
        rw [Nat.min_eq_left (by omega)]
      have hdrop : (xs.flatten ++ torn).drop (k * size) = xs[k] ++ ((xs.drop (k + 1)).flatten ++ torn) := by
        have hf : xs.flatten = (xs.take k).flatten ++ (xs[k] ++ (xs.drop (k + 1)).flatten) := by
          have := congrArg List.flatten hsplit
          rw [List.flatten_append, List.flatten_cons] at this
          exact this
        rw [hf, ← htake, List.append_assoc, List.drop_left, List.append_assoc]
      rw [hdrop, ← hx, List.take_left, List.getElem?_eq_getElem hk]
      simp
    · have hge : xs.length * size ≤ k * size := Nat.mul_le_mul_right _ (by omega)
      have hshort : (((xs.flatten ++ torn).drop (k * size)).take size).length < size := by
        rw [List.length_take, List.length_drop, List.length_append, hlen]
        have := h.torn
        omega
      rw [if_pos hshort, List.getElem?_eq_none (by omega)]

theorem FileHolds.count {size : Nat} {file : Verif.FileHash.Bytes} {xs : List Verif.FileHash.Bytes}
    {torn : Verif.FileHash.Bytes} (h : FileHolds size file xs torn) : Verif.FileHash.count file size = xs.length := by
  unfold Verif.FileHash.count
  rw [h.file, List.length_append, flatten_entries_length h.sizes]
  have := h.torn
  rw [Nat.mul_comm, Nat.mul_add_div (by omega), Nat.div_eq_of_lt this, Nat.add_zero]

theorem leaves_snoc (size : Nat) (ops : List Op) (op : Op) :
    leaves size (ops ++ [op]) = (match op with
      | .writeLeaf d => if d.length = size then leaves size ops ++ [d] else leaves size ops
      | .reset => []
      | _ => leaves size ops) := by
  simp only [leaves, List.foldl_append, List.foldl_cons, List.foldl_nil]
  cases op <;> rfl

theorem nodes_snoc (size : Nat) (ops : List Op) (op : Op) :
    nodes size (ops ++ [op]) = (match op with
      | .writeNode _ _ d => if d.length = size then nodes size ops ++ [d] else nodes size ops
      | .reset => []
      | _ => nodes size ops) := by
  simp only [nodes, List.foldl_append, List.foldl_cons, List.foldl_nil]
  cases op <;> rfl

theorem FileHolds.write {size : Nat} {file : Verif.FileHash.Bytes} {xs : List Verif.FileHash.Bytes}
    (h : FileHolds size file xs []) {d : Verif.FileHash.Bytes} (hd : d.length = size) :
    FileHolds size (file ++ d) (xs ++ [d]) [] := by
  refine ⟨by rw [h.file]; simp, ?_, h.torn⟩
  intro x hx
  rcases List.mem_append.1 hx with hx | hx
  · exact h.sizes x hx
  · rw [List.mem_singleton.1 hx]; exact hd

theorem fileHash_holds (ls ns : Nat) (hl : 0 < ls) (hn : 0 < ns) (ops : List Op) (h : noCrash ops) :
    let s := Store.run { leafSize := ls, nodeSize := ns } ops
    s.leafSize = ls ∧ s.nodeSize = ns ∧
    FileHolds ls s.leaves (leaves ls ops) [] ∧ FileHolds ns s.nodes (nodes ns ops) [] := by
  suffices H : ∀ (rops : List Op), noCrash rops.reverse →
      let s := Store.run { leafSize := ls, nodeSize := ns } rops.reverse
      s.leafSize = ls ∧ s.nodeSize = ns ∧
      FileHolds ls s.leaves (leaves ls rops.reverse) [] ∧ FileHolds ns s.nodes (nodes ns rops.reverse) [] by
    have := H ops.reverse (by rw [List.reverse_reverse]; exact h)
    rwa [List.reverse_reverse] at this
  intro rops
  induction rops with
  | nil =>
    intro _
    exact ⟨rfl, rfl, ⟨rfl, by intro x hx; simp [leaves] at hx, hl⟩, ⟨rfl, by intro x hx; simp [nodes] at hx, hn⟩⟩
  | cons op rops ih =>
    intro h
    rw [List.reverse_cons] at h ⊢
    obtain ⟨h1, h2, h3, h4⟩ := ih (fun o ho => h o (List.mem_append_left _ ho))
    have hop := h op (List.mem_append_right _ (List.mem_singleton.2 rfl))
    have hrun : Store.run { leafSize := ls, nodeSize := ns } (rops.reverse ++ [op])
        = (Store.run { leafSize := ls, nodeSize := ns } rops.reverse).step op := by
      simp [Store.run]
    rw [hrun, leaves_snoc, nodes_snoc]
    generalize Store.run { leafSize := ls, nodeSize := ns } rops.reverse = s at h1 h2 h3 h4 ⊢
    cases op with
    | writeLeaf d =>
      simp only [Store.step, Verif.FileHash.write, h1]
      by_cases hd : d.length = ls
      · simp only [hd, ne_eq, not_true_eq_false, if_false, if_true]
        exact ⟨trivial, h2, h3.write hd, h4⟩
      · simp only [hd, ne_eq, not_false_eq_true, if_true, if_false]
        exact ⟨h1, h2, h3, h4⟩
    | writeNode a b d =>
      simp only [Store.step, Verif.FileHash.write, h2]
      by_cases hd : d.length = ns
      · simp only [hd, ne_eq, not_true_eq_false, if_false, if_true]
        exact ⟨h1, trivial, h3, h4.write hd⟩
      · simp only [hd, ne_eq, not_false_eq_true, if_true, if_false]
        exact ⟨h1, h2, h3, h4⟩
    | reset =>
      exact ⟨h1, h2, ⟨rfl, by intro x hx; simp at hx, hl⟩, ⟨rfl, by intro x hx; simp at hx, hn⟩⟩
    | reopen => exact ⟨h1, h2, h3, h4⟩
    | crashAtLeaf d k => exact hop.elim
    | crashAtNode d k => exact hop.elim

/-- What is read at a position is what was written there since the last reset, and the counts are right,
after any history of writes, refused writes, resets and restarts. -/
theorem C108_reads (ls ns : Nat) (hl : 0 < ls) (hn : 0 < ns) (ops : List Op) (h : noCrash ops) (pos : Nat) :
    let s := Store.run { leafSize := ls, nodeSize := ns } ops
    s.readLeaf pos = entry (leaves ls ops) pos ∧ s.readNode pos = entry (nodes ns ops) pos ∧
    s.leafCount = (leaves ls ops).length ∧ s.nodeCount = (nodes ns ops).length := by
  obtain ⟨h1, h2, h3, h4⟩ := fileHash_holds ls ns hl hn ops h
  simp only [Store.readLeaf, Store.readNode, Store.leafCount, Store.nodeCount, h1, h2]
  exact ⟨h3.read pos, h4.read pos, h3.count, h4.count⟩

/-- Two leaves, a refused one and a node. -/
example :
    let ops : List Op := [.writeLeaf [9, 9], .reset, .writeLeaf [1, 2], .writeLeaf [3], .reopen, .writeLeaf [4, 5],
      .writeNode 1 1 [7, 8, 9]]
    noCrash ops ∧ leaves 2 ops = [[1, 2], [4, 5]] ∧
    let s := Store.run { leafSize := 2, nodeSize := 3 } ops
    s.readLeaf 2 = some [4, 5] ∧ s.readLeaf 3 = none ∧ s.readLeaf 0 = none ∧ s.readNode 1 = some [7, 8, 9] := by
  refine ⟨?_, by decide, by decide, by decide, by decide, by decide⟩
  intro op ho
  simp at ho
  rcases ho with rfl | rfl | rfl | rfl | rfl | rfl | rfl <;> trivial

/-- A crash while a leaf or a node is written: what was written before can be read, and the entry that was not
written to its end is not counted. -/
theorem C108_crash (ls ns : Nat) (hl : 0 < ls) (hn : 0 < ns) (ops : List Op) (h : noCrash ops)
    (d : Verif.FileHash.Bytes) (k : Nat) (pos : Nat) :
    (k < ls →
      let s := Store.run { leafSize := ls, nodeSize := ns } (ops ++ [.crashAtLeaf d k, .reopen])
      s.readLeaf pos = entry (leaves ls ops) pos ∧ s.readNode pos = entry (nodes ns ops) pos ∧
      s.leafCount = (leaves ls ops).length ∧ s.nodeCount = (nodes ns ops).length) ∧
    (k < ns →
      let s := Store.run { leafSize := ls, nodeSize := ns } (ops ++ [.crashAtNode d k, .reopen])
      s.readLeaf pos = entry (leaves ls ops) pos ∧ s.readNode pos = entry (nodes ns ops) pos ∧
      s.leafCount = (leaves ls ops).length ∧ s.nodeCount = (nodes ns ops).length) := by
  obtain ⟨h1, h2, h3, h4⟩ := fileHash_holds ls ns hl hn ops h
  have hrun : ∀ op, Store.run { leafSize := ls, nodeSize := ns } (ops ++ [op, .reopen])
      = (Store.run { leafSize := ls, nodeSize := ns } ops).step op := by
    intro op; simp [Store.run, Store.step]
  rw [hrun, hrun]
  generalize Store.run { leafSize := ls, nodeSize := ns } ops = s at h1 h2 h3 h4 ⊢
  have hlt : (d.take k).length ≤ k := by rw [List.length_take]; omega
  constructor
  · intro hk
    have h3' : FileHolds ls (s.leaves ++ d.take k) (leaves ls ops) (d.take k) :=
      ⟨by rw [h3.file]; simp, h3.sizes, by omega⟩
    simp only [Store.step, Store.readLeaf, Store.readNode, Store.leafCount, Store.nodeCount, h1, h2]
    exact ⟨h3'.read pos, h4.read pos, h3'.count, h4.count⟩
  · intro hk
    have h4' : FileHolds ns (s.nodes ++ d.take k) (nodes ns ops) (d.take k) :=
      ⟨by rw [h4.file]; simp, h4.sizes, by omega⟩
    simp only [Store.step, Store.readLeaf, Store.readNode, Store.leafCount, Store.nodeCount, h1, h2]
    exact ⟨h3.read pos, h4'.read pos, h3.count, h4'.count⟩

/-- Such a crash. -/
example : noCrash [.writeLeaf [1, 2]] ∧
    (Store.run { leafSize := 2, nodeSize := 2 } [.writeLeaf [1, 2], .crashAtLeaf [3, 4] 1, .reopen]).leaves
      = [1, 2, 3] := by
  refine ⟨?_, by decide⟩
  intro op ho
  rw [List.mem_singleton.1 ho]
  trivial

/-- Nothing is repaired when the store is opened after a crash: the next leaf is put behind the bytes that are
left, and what is read in its place is those bytes and the first part of it. -/
theorem C108_after_crash (ls ns : Nat) (hl : 0 < ls) (hn : 0 < ns) (ops : List Op) (h : noCrash ops)
    (d x : Verif.FileHash.Bytes) (k : Nat) (hd : d.length = ls) (hx : x.length = ls) (hk : k < ls) :
    let s := Store.run { leafSize := ls, nodeSize := ns } (ops ++ [.crashAtLeaf d k, .reopen, .writeLeaf x])
    s.readLeaf ((leaves ls ops).length + 1) = some (d.take k ++ x.take (ls - k)) := by
  obtain ⟨h1, h2, h3, h4⟩ := fileHash_holds ls ns hl hn ops h
  have hrun : Store.run { leafSize := ls, nodeSize := ns } (ops ++ [.crashAtLeaf d k, .reopen, .writeLeaf x])
      = ((Store.run { leafSize := ls, nodeSize := ns } ops).step (.crashAtLeaf d k)).step (.writeLeaf x) := by
    simp [Store.run, Store.step]
  rw [hrun]
  generalize Store.run { leafSize := ls, nodeSize := ns } ops = s at h1 h2 h3 h4 ⊢
  simp only [Store.step, Verif.FileHash.write, h1, hx, ne_eq, not_true_eq_false, if_false, Store.readLeaf]
  have hone : (d.take k).length = k := by rw [List.length_take]; omega
  have hH : FileHolds ls (s.leaves ++ d.take k ++ x) (leaves ls ops ++ [d.take k ++ x.take (ls - k)])
      (x.drop (ls - k)) := by
    refine ⟨?_, ?_, ?_⟩
    · rw [h3.file]
      simp [List.take_append_drop]
    · intro y hy
      rcases List.mem_append.1 hy with hy | hy
      · exact h3.sizes y hy
      · rw [List.mem_singleton.1 hy, List.length_append, hone, List.length_take]
        omega
    · rw [List.length_drop]; omega
  rw [hH.read]
  simp [entry]

/-- It is not the leaf that was written. -/
theorem C108_after_crash_wrong : ∃ (ops : List Op) (d x : Verif.FileHash.Bytes) (k : Nat),
    noCrash ops ∧ d.length = 32 ∧ x.length = 32 ∧ k < 32 ∧
    let s := Store.run {} (ops ++ [.crashAtLeaf d k, .reopen, .writeLeaf x])
    s.leafCount = (leaves 32 ops).length + 1 ∧ s.readLeaf s.leafCount ≠ some x :=
  ⟨[], List.replicate 32 1, List.replicate 32 2, 1, by intro o ho; simp at ho, by decide, by decide, by decide,
    by decide +kernel⟩

/-- After a reset, as recovery from the transaction log makes it, all is as in a new store, whatever happened
before. -/
theorem C108_reset (ls ns : Nat) (hl : 0 < ls) (hn : 0 < ns) (before after : List Op) (h : noCrash after)
    (pos : Nat) :
    let s := Store.run { leafSize := ls, nodeSize := ns } (before ++ .reset :: after)
    s.readLeaf pos = entry (leaves ls after) pos ∧ s.readNode pos = entry (nodes ns after) pos ∧
    s.leafCount = (leaves ls after).length ∧ s.nodeCount = (nodes ns after).length := by
  have hsz : ∀ (ops : List Op) (s : Store), (s.run ops).leafSize = s.leafSize ∧ (s.run ops).nodeSize = s.nodeSize := by
    intro ops
    induction ops with
    | nil => intro s; exact ⟨rfl, rfl⟩
    | cons op ops ih =>
      intro s
      have : s.run (op :: ops) = (s.step op).run ops := rfl
      rw [this, (ih _).1, (ih _).2]
      cases op <;> simp only [Store.step, and_self]
      all_goals split <;> exact ⟨rfl, rfl⟩
  have hb := hsz before { leafSize := ls, nodeSize := ns }
  have hrun : Store.run { leafSize := ls, nodeSize := ns } (before ++ .reset :: after)
      = Store.run { leafSize := ls, nodeSize := ns } after := by
    simp only [Store.run, List.foldl_append, List.foldl_cons]
    congr 1
    simp only [Store.run] at hb
    simp only [Store.step, hb]
  rw [hrun]
  exact C108_reads ls ns hl hn after h pos

example : noCrash [.writeLeaf [1, 2], .writeNode 1 0 [3]] := by
  intro op ho
  simp at ho
  rcases ho with rfl | rfl <;> trivial

/-- Reading a range gives its first entry only, if it has more than one. -/
theorem C108_range (ls ns : Nat) (hl : 0 < ls) (hn : 0 < ns) (ops : List Op) (h : noCrash ops) (a b : Nat)
    (ha : 1 ≤ a) (hab : a < b) (hb : b ≤ (leaves ls ops).length) :
    let s := Store.run { leafSize := ls, nodeSize := ns } ops
    ∃ x, entry (leaves ls ops) a = some x ∧ readRange s.leaves s.leafSize a b = ([x], false) := by
  obtain ⟨h1, h2, h3, h4⟩ := fileHash_holds ls ns hl hn ops h
  have he : entry (leaves ls ops) a = some (leaves ls ops)[a - 1] := by
    unfold entry
    rw [if_neg (by omega), List.getElem?_eq_getElem (by omega)]
  refine ⟨_, he, ?_⟩
  simp only [readRange, dataGen, h1, h3.read a, he]
  rw [if_pos (by omega)]

/-- Reading a range of one entry gives it, all that follow it, and then an exception. -/
theorem C108_range_one (ls ns : Nat) (hl : 0 < ls) (hn : 0 < ns) (ops : List Op) (h : noCrash ops) (a : Nat)
    (ha : 1 ≤ a) :
    let s := Store.run { leafSize := ls, nodeSize := ns } ops
    readRange s.leaves s.leafSize a a = ((leaves ls ops).drop (a - 1), true) := by
  obtain ⟨h1, h2, h3, h4⟩ := fileHash_holds ls ns hl hn ops h
  generalize Store.run { leafSize := ls, nodeSize := ns } ops = s at h1 h2 h3 h4 ⊢
  have hlen : (leaves ls ops).length ≤ s.leaves.length := by
    have := flatten_entries_length h3.sizes
    have hf := congrArg List.length h3.file
    rw [List.append_nil, this] at hf
    rw [hf]
    exact Nat.le_mul_of_pos_right _ hl
  have H : ∀ (fuel i : Nat), 1 ≤ i → a ≤ i → (leaves ls ops).length + 1 ≤ fuel + (i - 1) →
      dataGen s.leaves ls a fuel i = ((leaves ls ops).drop (i - 1), true) := by
    intro fuel
    induction fuel with
    | zero =>
      intro i hi _ hf
      rw [List.drop_eq_nil_of_le (by omega)]
      rfl
    | succ fuel ih =>
      intro i hi hai hf
      simp only [dataGen, h3.read i]
      by_cases hlt : i - 1 < (leaves ls ops).length
      · have he : entry (leaves ls ops) i = some (leaves ls ops)[i - 1] := by
          unfold entry
          rw [if_neg (by omega), List.getElem?_eq_getElem hlt]
        simp only [he]
        rw [if_neg (by omega), ih (i + 1) (by omega) (by omega) (by omega)]
        simp only [Nat.add_sub_cancel]
        rw [List.drop_eq_getElem_cons hlt]
        have : i - 1 + 1 = i := by omega
        rw [this]
      · have he : entry (leaves ls ops) i = none := by
          unfold entry
          rw [if_neg (by omega), List.getElem?_eq_none (by omega)]
        simp only [he]
        rw [List.drop_eq_nil_of_le (by omega)]
  show readRange s.leaves s.leafSize a a = _
  unfold readRange
  rw [h1]
  exact H _ a ha (Nat.le_refl _) (by omega)

/-- Four leaves. -/
example :
    let s := Store.run { leafSize := 1, nodeSize := 1 } [.writeLeaf [1], .writeLeaf [2], .writeLeaf [3], .writeLeaf [4]]
    readRange s.leaves s.leafSize 1 3 = ([[1]], false) ∧
    readRange s.leaves s.leafSize 2 2 = ([[2], [3], [4]], true) := by decide

end Verif.Props
