import Verif.Model.Primary
/-! # C23: primary selection -/
namespace Verif.Primary

theorem mod_inj {n v i j : Nat} (hi : i < n) (hj : j < n) (h : (v + i) % n = (v + j) % n) : i = j := by
  rw [Nat.add_mod v i, Nat.add_mod v j, Nat.mod_eq_of_lt hi, Nat.mod_eq_of_lt hj] at h
  have hr := Nat.mod_lt v (Nat.lt_of_le_of_lt (Nat.zero_le _) hi)
  generalize v % n = r at h hr
  have key : ∀ k, k < n → (r + k) % n = if r + k < n then r + k else r + k - n := by
    intro k hk
    split
    · next h => exact Nat.mod_eq_of_lt h
    · next h => rw [Nat.mod_eq_sub_mod (by omega)]; exact Nat.mod_eq_of_lt (by omega)
  rw [key i hi, key j hj] at h
  split at h <;> split at h <;> omega

theorem mod_surj {n k : Nat} (v : Nat) (hk : k < n) : ∃ i, i < n ∧ (v + i) % n = k := by
  have hr := Nat.mod_lt v (Nat.lt_of_le_of_lt (Nat.zero_le _) hk)
  rcases Nat.lt_or_ge k (v % n) with h | h
  · refine ⟨k + n - v % n, by omega, ?_⟩
    rw [Nat.add_mod, Nat.mod_eq_of_lt (by omega : k + n - v % n < n), show v % n + (k + n - v % n) = k + n by omega,
      Nat.add_mod_right, Nat.mod_eq_of_lt hk]
  · refine ⟨k - v % n, by omega, ?_⟩
    rw [Nat.add_mod, Nat.mod_eq_of_lt (by omega : k - v % n < n), show v % n + (k - v % n) = k by omega,
      Nat.mod_eq_of_lt hk]

/-- The validators in the order in which the loop looks at them. -/
def rotated (viewNo : Nat) (vs : List Node) (i fuel : Nat) : List Node :=
  (List.range' i fuel).map (fun j => vs.getD ((viewNo + j) % vs.length) 0)

theorem backupLoop_eq (viewNo : Nat) (vs : List Node) (count : Nat) (m : Node) (fuel i : Nat) (acc : List Node) :
    count ≤ acc.length + ((rotated viewNo vs i fuel).filter (· ≠ m)).length →
    backupLoop viewNo vs count m fuel i acc =
      some (acc ++ ((rotated viewNo vs i fuel).filter (· ≠ m)).take (count - acc.length)) := by
  induction fuel generalizing i acc with
  | zero =>
    intro h
    simp only [rotated, List.range'_zero, List.map_nil, List.filter_nil, List.length_nil] at h ⊢
    simp only [backupLoop]
    rw [if_neg (by omega)]
    simp
  | succ fuel ih =>
    intro h
    simp only [backupLoop]
    by_cases hc : acc.length < count
    · rw [if_pos hc]
      simp only [rotated, List.range'_succ, List.map_cons] at h ⊢
      by_cases hm : vs.getD ((viewNo + i) % vs.length) 0 = m
      · simp only [hm, ne_eq, not_true, if_false]
        simp only [List.filter_cons, hm, ne_eq, not_true, decide_false, Bool.false_eq_true, if_false] at h ⊢
        exact ih (i + 1) acc h
      · simp only [ne_eq, hm, not_false_iff, if_true]
        simp only [List.filter_cons, ne_eq, hm, not_false_iff, decide_true, if_true, List.length_cons] at h ⊢
        rw [ih (i + 1) (acc ++ [_]) (by simp only [List.length_append, List.length_singleton]; simp only [rotated]; simp only [ne_eq]; omega)]
        obtain ⟨d, hd⟩ : ∃ d, count - acc.length = d + 1 := ⟨count - acc.length - 1, by omega⟩
        simp only [List.length_append, List.length_singleton, hd, List.take_succ_cons, List.append_assoc,
          List.singleton_append, rotated, show count - (acc.length + 1) = d by omega, ne_eq]
    · rw [if_neg hc]
      simp [show count - acc.length = 0 by omega]

theorem getD_inj {vs : List Node} (hd : vs.Nodup) {i j : Nat} (hi : i < vs.length) (hj : j < vs.length)
    (h : vs.getD i 0 = vs.getD j 0) : i = j := by
  rw [List.getD_eq_getElem?_getD, List.getD_eq_getElem?_getD, List.getElem?_eq_getElem hi, List.getElem?_eq_getElem hj] at h
  exact (List.getElem_inj hd).1 h

theorem rotated_nodup (viewNo : Nat) {vs : List Node} (hd : vs.Nodup) (i : Nat) :
    (rotated viewNo vs i vs.length).Nodup := by
  unfold rotated
  refine List.pairwise_map.2 ?_
  have : (List.range' i vs.length).Pairwise (· < ·) := List.pairwise_lt_range'
  refine List.Pairwise.imp_of_mem ?_ this
  intro a b ha hb hab e
  rw [List.mem_range'_1] at ha hb
  have hl : 0 < vs.length := by omega
  have e := getD_inj hd (Nat.mod_lt _ hl) (Nat.mod_lt _ hl) e
  have := mod_inj (n := vs.length) (v := viewNo + i) (i := a - i) (j := b - i) (by omega) (by omega)
    (by rw [show viewNo + i + (a - i) = viewNo + a by omega, show viewNo + i + (b - i) = viewNo + b by omega]; exact e)
  omega

theorem rotated_sub (viewNo : Nat) {vs : List Node} (i fuel : Nat) (h : 0 < vs.length) :
    ∀ x ∈ rotated viewNo vs i fuel, x ∈ vs := by
  intro x hx
  obtain ⟨j, -, rfl⟩ := List.mem_map.1 hx
  have := Nat.mod_lt (viewNo + j) h
  rw [List.getD_eq_getElem?_getD, List.getElem?_eq_getElem this]
  exact List.getElem_mem _

theorem length_filter_ne {l : List Node} (hd : l.Nodup) (m : Node) : l.length ≤ (l.filter (· ≠ m)).length + 1 := by
  induction l with
  | nil => simp
  | cons a l ih =>
    obtain ⟨h1, h2⟩ := List.nodup_cons.1 hd
    by_cases e : a = m
    · subst e
      have : l.filter (· ≠ a) = l := List.filter_eq_self.2 (fun b hb => by
        simp only [ne_eq, decide_eq_true_eq]; exact fun e => h1 (e ▸ hb))
      simp only [List.filter_cons, ne_eq, not_true, decide_false, Bool.false_eq_true, if_false, List.length_cons]
      simp only [ne_eq] at this
      rw [this]
      omega
    · have := ih h2
      simp only [List.filter_cons, ne_eq, e, not_false_iff, decide_true, if_true, List.length_cons] at this ⊢
      omega

end Verif.Primary

namespace Verif.Props

open Verif.Primary

/-- **C23**, rotation: in any `n` consecutive views each validator is the master
primary in exactly one. -/
theorem C23_rotation (validators : List Node) (hd : validators.Nodup) (viewNo : Nat) (x : Node)
    (hx : x ∈ validators) :
    ∃ i, i < validators.length ∧ masterOf validators (viewNo + i) = some x ∧
      ∀ j, j < validators.length → masterOf validators (viewNo + j) = some x → j = i := by
  obtain ⟨k, hk, rfl⟩ := List.mem_iff_getElem.1 hx
  obtain ⟨i, hi, hv⟩ := mod_surj viewNo hk
  refine ⟨i, hi, ?_, fun j hj h => ?_⟩
  · rw [masterOf, hv, List.getElem?_eq_getElem hk]
  · rw [masterOf] at h
    obtain ⟨hlt, h⟩ := List.getElem?_eq_some_iff.1 h
    have := (List.getElem_inj hd).1 h
    exact mod_inj (v := viewNo) hj hi (by omega)

/-- **C23**, backups: among distinct validators, whichever node is the master
primary (a validator or not), as many backup primaries as asked for are found, in
at most one round; they are distinct validators other than the master primary. -/
theorem C23_backups_distinct (viewNo : Nat) (validators : List Node) (hd : validators.Nodup) (count : Nat)
    (hc : count + 1 ≤ validators.length) (master : Node) :
    ∃ bs, backups viewNo validators count master = some bs ∧ bs.length = count ∧
      (master :: bs).Nodup ∧ ∀ b ∈ bs, b ∈ validators := by
  have hn := rotated_nodup viewNo hd 1
  have hl := length_filter_ne hn master
  have hlen : (rotated viewNo validators 1 validators.length).length = validators.length := by simp [rotated]
  refine ⟨_, backupLoop_eq viewNo validators count master _ 1 [] (by simp only [List.length_nil]; omega), ?_, ?_, ?_⟩
  · simp only [List.nil_append, List.length_nil, Nat.sub_zero, List.length_take]
    omega
  · refine List.nodup_cons.2 ⟨fun hm => ?_, ?_⟩
    · have := (List.mem_filter.1 (List.mem_of_mem_take hm)).2
      simp at this
    · exact ((hn.filter _).sublist (List.take_sublist _ _))
  · intro b hb
    exact rotated_sub viewNo _ _ (by omega) b (List.mem_filter.1 (List.mem_of_mem_take hb)).1

/-- **C23**, all primaries of a view: one master primary, `f` backups, all
distinct validators. -/
theorem C23_primaries_distinct (validators : List Node) (hd : validators.Nodup) (hn : validators ≠ []) (viewNo : Nat) :
    ∃ ps, primariesOf validators viewNo = some ps ∧ ps.length = (validators.length - 1) / 3 + 1 ∧ ps.Nodup ∧
      (∀ p ∈ ps, p ∈ validators) ∧ ps.head? = masterOf validators viewNo := by
  have hl : 0 < validators.length := List.length_pos_iff.2 hn
  have hm : masterOf validators viewNo = some (validators[viewNo % validators.length]'(Nat.mod_lt _ hl)) :=
    List.getElem?_eq_getElem _
  obtain ⟨bs, h1, h2, h3, h4⟩ := C23_backups_distinct viewNo validators hd ((validators.length - 1) / 3) (by omega)
    (validators[viewNo % validators.length]'(Nat.mod_lt _ hl))
  refine ⟨_ :: bs, by unfold primariesOf; rw [hm, Option.bind_eq_bind, Option.bind_some, h1]; rfl, by simp [h2], h3, ?_, by simp [hm]⟩
  intro p hp
  rcases List.mem_cons.1 hp with rfl | hp
  · exact List.getElem_mem _
  · exact h4 p hp

/-- **C23**, agreement: two nodes that recorded the same node registries for the
views before `viewNo` (for view 0 and 1, that of view 0) choose the same master
primary, whatever they recorded for later views. -/
theorem C23_agreement (reg reg' : Dict Nat (List Node)) (viewNo : Nat)
    (h : ∀ v, v < viewNo ∨ v = 0 → reg.get? v = reg'.get? v) : selectMaster reg viewNo = selectMaster reg' viewNo := by
  have key : ∀ v, (v < viewNo ∨ v = 0) → viewForSelection reg v = viewForSelection reg' v := by
    intro v
    induction v with
    | zero => intro hv; exact h 0 hv
    | succ v ih =>
      intro hv
      simp only [viewForSelection]
      rw [h (v + 1) hv, ih (by omega)]
  unfold selectMaster
  rw [key]
  split <;> omega

/-- **C23**, the registry used: a master primary of view `viewNo` is found if the
registry of view 0 was recorded and no recorded registry is empty, and it is the
`viewNo`-th, cyclically, of the registry recorded for the last view before
`viewNo` that has one. -/
theorem C23_registry_used (reg : Dict Nat (List Node)) (viewNo : Nat) (h0 : reg.has 0 = true)
    (hne : ∀ v r, reg.get? v = some r → r ≠ []) :
    ∃ v r p, (v < viewNo ∨ v = 0) ∧ reg.get? v = some r ∧ (∀ w, v < w → w < viewNo → reg.get? w = none) ∧
      selectMaster reg viewNo = some p ∧ masterOf r viewNo = some p := by
  have key : ∀ m, ∃ v r, v ≤ m ∧ viewForSelection reg m = some r ∧ reg.get? v = some r ∧
      ∀ w, v < w → w ≤ m → reg.get? w = none := by
    intro m
    induction m with
    | zero =>
      obtain ⟨r, hr⟩ := Option.isSome_iff_exists.1 h0
      exact ⟨0, r, Nat.le_refl _, hr, hr, by omega⟩
    | succ m ih =>
      simp only [viewForSelection]
      cases hr : reg.get? (m + 1) with
      | some r => exact ⟨m + 1, r, Nat.le_refl _, rfl, hr, by omega⟩
      | none =>
        obtain ⟨v, r, a, b, c, d⟩ := ih
        refine ⟨v, r, by omega, b, c, fun w h1 h2 => ?_⟩
        rcases Nat.lt_or_ge m w with h | h
        · rw [show w = m + 1 by omega]; exact hr
        · exact d w h1 h
  obtain ⟨v, r, a, b, c, d⟩ := key (if viewNo > 1 then viewNo - 1 else 0)
  have hr := hne v r c
  have hl : 0 < r.length := List.length_pos_iff.2 hr
  refine ⟨v, r, r[viewNo % r.length]'(Nat.mod_lt _ hl), ?_, c, ?_, ?_, List.getElem?_eq_getElem _⟩
  · split at a <;> omega
  · intro w h1 h2
    refine d w h1 ?_
    split <;> omega
  · unfold selectMaster
    rw [b]
    exact List.getElem?_eq_getElem _

/-- Seven validators: three primaries; and a registry with a gap, where a demoted
node is master primary and the backups come from the active nodes. -/
example : primariesOf [10, 11, 12, 13, 14, 15, 16] 9 = some [12, 13, 14] := by decide
example : selectPrimaries [(0, [10, 11, 12, 13]), (2, [13, 10, 11, 12])] [10, 11, 12, 14, 15, 16, 17] 5 =
    some [10, 17, 11] := by decide
example : selectPrimaries [(0, [10, 11, 12, 13]), (2, [13, 10, 11, 12])] [10, 11, 12, 14] 4 = some [13, 11] := by decide
example : ∃ ps, primariesOf [10, 11, 12, 13, 14, 15, 16] 9 = some ps ∧ ps.Nodup :=
  let ⟨ps, a, _, b, _⟩ := C23_primaries_distinct [10, 11, 12, 13, 14, 15, 16] (by decide) (by decide) 9
  ⟨ps, a, b⟩

end Verif.Props
