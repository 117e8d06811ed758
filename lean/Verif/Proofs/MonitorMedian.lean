import Verif.Model.Monitor
/-! # Medians -/
namespace Verif.Monitor
open Verif

theorem insertUp_countP (p : Rat → Bool) (x : Rat) (l : List Rat) : (insertUp x l).countP p = (x :: l).countP p := by
  induction l with
  | nil => rfl
  | cons y l ih =>
    unfold insertUp
    split
    · rfl
    · rw [List.countP_cons, ih]
      simp only [List.countP_cons]
      omega

theorem sortUp_countP (p : Rat → Bool) (l : List Rat) : (sortUp l).countP p = l.countP p := by
  induction l with
  | nil => rfl
  | cons x l ih =>
    show (insertUp x (sortUp l)).countP p = _
    rw [insertUp_countP, List.countP_cons, List.countP_cons, ih]

theorem insertUp_length (x : Rat) (l : List Rat) : (insertUp x l).length = l.length + 1 := by
  induction l with
  | nil => rfl
  | cons y l ih =>
    unfold insertUp
    split
    · rfl
    · rw [List.length_cons, ih, List.length_cons]

theorem sortUp_length (l : List Rat) : (sortUp l).length = l.length := by
  induction l with
  | nil => rfl
  | cons x l ih =>
    show (insertUp x (sortUp l)).length = _
    rw [insertUp_length, ih, List.length_cons]

theorem insertUp_mem {x y : Rat} {l : List Rat} (h : y ∈ insertUp x l) : y = x ∨ y ∈ l := by
  induction l with
  | nil => exact Or.inl (List.mem_singleton.mp h)
  | cons z l ih =>
    unfold insertUp at h
    split at h
    · exact List.mem_cons.mp h
    · rcases List.mem_cons.mp h with h | h
      · exact Or.inr (h ▸ List.mem_cons_self ..)
      · rcases ih h with h | h
        · exact Or.inl h
        · exact Or.inr (List.mem_cons_of_mem _ h)

theorem insertUp_sorted {x : Rat} {l : List Rat} (h : l.Pairwise (· ≤ ·)) : (insertUp x l).Pairwise (· ≤ ·) := by
  induction l with
  | nil => exact List.pairwise_singleton _ _
  | cons y l ih =>
    rw [List.pairwise_cons] at h
    unfold insertUp
    split
    · rename_i hxy
      rw [List.pairwise_cons]
      refine ⟨fun z hz => ?_, List.pairwise_cons.mpr h⟩
      rcases List.mem_cons.mp hz with hz | hz
      · exact hz ▸ hxy
      · exact Rat.le_trans hxy (h.1 z hz)
    · rename_i hxy
      rw [List.pairwise_cons]
      refine ⟨fun z hz => ?_, ih h.2⟩
      rcases insertUp_mem hz with hz | hz
      · rw [hz]
        grind
      · exact h.1 z hz

theorem sortUp_sorted (l : List Rat) : (sortUp l).Pairwise (· ≤ ·) := by
  induction l with
  | nil => exact List.Pairwise.nil
  | cons x l ih => exact insertUp_sorted ih

theorem nth_ge {l : List Rat} (h : l.Pairwise (· ≤ ·)) {x : Rat} {i : Nat} (hi : i < l.length) (hc : l.countP (fun y => decide (y < x)) ≤ i) :
    x ≤ l.getD i 0 := by
  induction l generalizing i with
  | nil => nomatch hi
  | cons y l ih =>
    rw [List.pairwise_cons] at h
    rw [List.countP_cons] at hc
    by_cases hy : y < x
    · simp only [hy, decide_true, if_true] at hc
      cases i with
      | zero => omega
      | succ i => exact ih h.2 (Nat.lt_of_succ_lt_succ hi) (by omega)
    · have hyx : x ≤ y := by grind
      cases i with
      | zero => exact hyx
      | succ i =>
        have hlt : i < l.length := Nat.lt_of_succ_lt_succ hi
        have e : l.getD i 0 = l[i] := by simp [List.getD, hlt]
        show x ≤ l.getD i 0
        rw [e]
        exact Rat.le_trans hyx (h.1 _ (List.getElem_mem hlt))

theorem nth_le {l : List Rat} (h : l.Pairwise (· ≤ ·)) {x : Rat} {i : Nat} (hc : i < l.countP (fun y => decide (y ≤ x))) : l.getD i 0 ≤ x := by
  induction l generalizing i with
  | nil => nomatch hc
  | cons y l ih =>
    rw [List.pairwise_cons] at h
    rw [List.countP_cons] at hc
    by_cases hy : y ≤ x
    · cases i with
      | zero => exact hy
      | succ i =>
        simp only [hy, decide_true, if_true] at hc
        exact ih h.2 (by omega)
    · have : l.countP (fun y => decide (y ≤ x)) = 0 := by
        rw [List.countP_eq_zero]
        intro z hz hzx
        have h1 := h.1 z hz
        have h2 : z ≤ x := by simpa using hzx
        exact hy (Rat.le_trans h1 h2)
      simp [hy, this] at hc

theorem medianLow_ge {l : List Rat} {x : Rat} (hl : 0 < l.length) (hc : l.countP (fun y => decide (y < x)) ≤ (l.length - 1) / 2) : x ≤ medianLow l := by
  apply nth_ge (sortUp_sorted l)
  · rw [sortUp_length]
    omega
  · rwa [sortUp_countP]

theorem medianLow_le {l : List Rat} {x : Rat} (hc : (l.length - 1) / 2 < l.countP (fun y => decide (y ≤ x))) : medianLow l ≤ x := by
  apply nth_le (sortUp_sorted l)
  rwa [sortUp_countP]

theorem medianHigh_le {l : List Rat} {x : Rat} (hc : l.length / 2 < l.countP (fun y => decide (y ≤ x))) : medianHigh l ≤ x := by
  apply nth_le (sortUp_sorted l)
  rwa [sortUp_countP]

theorem medianHigh_ge {l : List Rat} {x : Rat} (hl : 0 < l.length) (hc : l.countP (fun y => decide (y < x)) ≤ l.length / 2) : x ≤ medianHigh l := by
  apply nth_ge (sortUp_sorted l)
  · rw [sortUp_length]
    omega
  · rwa [sortUp_countP]

end Verif.Monitor
