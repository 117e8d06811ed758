import Verif.Proofs.MonitorVerdict
/-! # The verdict on a backup -/
namespace Verif.Monitor
open Verif Verif.Spec.Monitor

theorem median_ge {l : List Rat} {x : Rat} (hl : 0 < l.length) (h : ∀ y ∈ l, x ≤ y) : x ≤ median l := by
  have hc : l.countP (fun y => decide (y < x)) = 0 := by
    rw [List.countP_eq_zero]
    intro y hy hlt
    have := h y hy
    have : y < x := by simpa using hlt
    grind
  have h1 := medianLow_ge hl (x := x) (by omega)
  have h2 := medianHigh_ge hl (x := x) (by omega)
  unfold median
  split
  · exact h2
  · grind

theorem median_le {l : List Rat} {x : Rat} (hl : 0 < l.length) (h : ∀ y ∈ l, y ≤ x) : median l ≤ x := by
  have hc : l.countP (fun y => decide (y ≤ x)) = l.length := by
    rw [List.countP_eq_length]
    intro y hy
    simpa using h y hy
  have h1 := medianLow_le (l := l) (x := x) (by omega)
  have h2 := medianHigh_le (l := l) (x := x) (by omega)
  unfold median
  split
  · exact h2
  · grind

theorem mem_otherThrs {c : Cfg} {t : Nat} {s : Mon} {i : Inst} {y : Rat} :
    y ∈ otherThrs c t s i ↔ ∃ j, s.insts.has j = true ∧ j ≠ i ∧ getThr c t s j = some y := by
  unfold otherThrs
  rw [List.mem_filterMap]
  constructor
  · rintro ⟨j, hj, e⟩
    have := List.mem_filter.mp hj
    exact ⟨j, (Dict.has_iff _ _).mpr ((Dict.mem_keys _ _).mp this.1), by simpa using this.2, e⟩
  · rintro ⟨j, h1, h2, e⟩
    exact ⟨j, List.mem_filter.mpr ⟨(Dict.mem_keys _ _).mpr ((Dict.has_iff _ _).mp h1), by simpa using h2⟩, e⟩

theorem two_insts {s : Mon} {i j : Inst} (hi : s.insts.has i = true) (hj : s.insts.has j = true) (h : j ≠ i) : 1 < s.insts.length := by
  have hi' := (Dict.mem_keys _ _).mpr ((Dict.has_iff _ _).mp hi)
  have hj' := (Dict.mem_keys _ _).mpr ((Dict.has_iff _ _).mp hj)
  have : [i, j].length ≤ s.insts.keys.length := length_le_of_subset (by simp [Ne.symm h]) (by
    intro x hx
    rcases List.mem_cons.mp hx with e | hx
    · exact e ▸ hi'
    · exact (List.mem_singleton.mp hx) ▸ hj')
  have e : s.insts.keys.length = s.insts.length := by simp [Dict.keys]
  rw [e] at this
  exact this

/-- The number the code compares a backup with. -/
theorem backup_throughputs {c : Cfg} {t : Nat} {s : Mon} {i : Inst} (hi : s.insts.has i = true) (hi0 : i ≠ 0)
    {x : Rat} (hx : getThr c t s i = some x) (hnum : s.insts.length < otherNum s i) {j : Inst} (hj : s.insts.has j = true) (hji : j ≠ i)
    {z : Rat} (hz : getThr c t s j = some z) :
    getThroughputs c t s i = (some x, some (median (otherThrs c t s i))) ∧ 0 < (otherThrs c t s i).length := by
  have hpos : 0 < (otherThrs c t s i).length := List.length_pos_of_mem (mem_otherThrs.mpr ⟨j, hj, hji, hz⟩)
  refine ⟨?_, hpos⟩
  have he : (otherThrs c t s i).isEmpty = false := by
    rw [List.isEmpty_eq_false_iff]
    exact List.ne_nil_of_length_pos hpos
  have hfar : decide (otherNum s i ≤ s.insts.length) = false := by simpa using hnum
  unfold getThroughputs
  dsimp only
  rw [hx, if_pos (two_insts hi hj hji), he, hfar]
  simp [hi0]

theorem backup_degraded {c : Cfg} {t : Nat} {s : Mon} {i : Inst} (hi : s.insts.has i = true) (hi0 : i ≠ 0) {x Y : Rat} (hx : getThr c t s i = some x)
    (hnum : s.insts.length < otherNum s i) {j : Inst} (hj : s.insts.has j = true) (hji : j ≠ i) {z : Rat} (hz : getThr c t s j = some z)
    (hY : 0 < Y) (hd : 0 ≤ c.delta) (hall : ∀ j y, s.insts.has j = true → j ≠ i → getThr c t s j = some y → Y ≤ y) (hlt : x < c.delta * Y) :
    i ∈ backupsDegraded c t s := by
  obtain ⟨hT, hpos⟩ := backup_throughputs hi hi0 hx hnum hj hji hz
  have hmed : Y ≤ median (otherThrs c t s i) := median_ge hpos fun y hy => by
    obtain ⟨k, h1, h2, h3⟩ := mem_otherThrs.mp hy
    exact hall k y h1 h2 h3
  refine List.mem_filter.mpr ⟨List.mem_filter.mpr ⟨(Dict.mem_keys _ _).mpr ((Dict.has_iff _ _).mp hi), by simpa using hi0⟩, ?_⟩
  revert hmed hT
  generalize median (otherThrs c t s i) = B
  intro hT hmed
  have hB : 0 < B := by grind
  unfold tooLow ratio
  rw [hT]
  dsimp only
  rw [if_neg (by grind)]
  simp only [decide_eq_true_eq]
  rw [Rat.div_lt_iff hB]
  have := Rat.mul_le_mul_of_nonneg_left hmed hd
  grind

theorem backup_fine {c : Cfg} (h : c.Ok) {t : Nat} {s : Mon} (hg : Good c s) {i : Inst} (hi0 : i ≠ 0) {x Y : Rat} (hx : getThr c t s i = some x)
    (hd : 0 ≤ c.delta) (hall : ∀ j y, s.insts.has j = true → j ≠ i → getThr c t s j = some y → y ≤ Y) (hle : c.delta * Y ≤ x) :
    i ∉ backupsDegraded c t s := by
  intro hm
  have hlow := (List.mem_filter.mp hm).2
  have hx0 := getThr_nonneg h hg hx
  unfold tooLow at hlow
  split at hlow
  · nomatch hlow
  · rename_i r hr
    unfold ratio at hr
    split at hr
    · rename_i a b hab
      split at hr
      · nomatch hr
      · rename_i hb0
        have hr' := Option.some.inj hr
        unfold getThroughputs at hab
        dsimp only at hab
        rw [hx, Prod.mk.injEq] at hab
        obtain ⟨ha, hb⟩ := hab
        split at ha
        · nomatch ha
        · have ha' := Option.some.inj ha
          split at hb
          · split at hb
            · nomatch hb
            · rename_i hne
              have hb' := Option.some.inj hb
              have hpos : 0 < (otherThrs c t s i).length :=
                List.length_pos_iff.mpr (List.isEmpty_eq_false_iff.mp (by simpa using hne))
              have hmed : median (otherThrs c t s i) ≤ Y := median_le hpos fun y hy => by
                obtain ⟨k, h1, h2, h3⟩ := mem_otherThrs.mp hy
                exact hall k y h1 h2 h3
              have hmed0 : 0 ≤ median (otherThrs c t s i) := median_ge hpos fun y hy => by
                obtain ⟨k, h1, h2, h3⟩ := mem_otherThrs.mp hy
                exact getThr_nonneg h hg h3
              subst ha'
              rw [hb'] at hmed hmed0
              have hlt : r < c.delta := by simpa using hlow
              rw [← hr', Rat.div_lt_iff (by grind)] at hlt
              have m1 := Rat.mul_le_mul_of_nonneg_left hmed hd
              grind
          · nomatch hb
    · nomatch hr

end Verif.Monitor
