/-! Counting with duplicate-free lists. -/
namespace Verif

variable {α : Type} [DecidableEq α]

theorem length_le_of_subset {A B : List α} (hA : A.Nodup) (h : ∀ x ∈ A, x ∈ B) : A.length ≤ B.length := by
  induction A generalizing B with
  | nil => simp
  | cons a A ih =>
    have ha : a ∈ B := h a List.mem_cons_self
    have hn := List.nodup_cons.1 hA
    have := ih (B := B.erase a) hn.2 (by
      intro x hx
      have hne : x ≠ a := fun e => hn.1 (e ▸ hx)
      exact (List.mem_erase_of_ne hne).2 (h x (List.mem_cons_of_mem _ hx)))
    rw [List.length_erase_of_mem ha] at this
    have : 0 < B.length := List.length_pos_of_mem ha
    simp; omega

theorem mem_of_length_lt {A B : List α} (hA : A.Nodup) (h : B.length < A.length) : ∃ x ∈ A, x ∉ B := by
  apply Classical.byContradiction
  intro hc
  have : ∀ x ∈ A, x ∈ B := by
    intro x hx
    apply Classical.byContradiction
    intro hb
    exact hc ⟨x, hx, hb⟩
  have := length_le_of_subset hA this
  omega

/-- Inclusion-exclusion as an existence statement: two duplicate-free lists over
a universe of size `n` whose lengths exceed `n + f` share an element outside any
set of `f` elements. -/
theorem intersect_outside {U A B F : List α} (hA : A.Nodup) (hB : B.Nodup)
    (hAU : ∀ x ∈ A, x ∈ U) (hBU : ∀ x ∈ B, x ∈ U) (hlen : U.length + F.length < A.length + B.length) :
    ∃ x, x ∈ A ∧ x ∈ B ∧ x ∉ F := by
  -- elements of `A` not in `B`, then all of `B`, form a duplicate-free list over `U`
  have h1 : ((A.filter (fun x => x ∉ B)) ++ B).Nodup := by
    refine List.nodup_append.2 ⟨hA.sublist List.filter_sublist, hB, ?_⟩
    intro a ha b hb e
    simp at ha
    exact ha.2 (e ▸ hb)
  have h2 := length_le_of_subset (B := U) h1 (by
    intro x hx
    rcases List.mem_append.1 hx with h | h
    · exact hAU x (List.mem_filter.1 h).1
    · exact hBU x h)
  have h3 : (A.filter (fun x => x ∈ B)).length + (A.filter (fun x => x ∉ B)).length = A.length := by
    clear h1 h2 hlen hA hAU
    induction A with
    | nil => rfl
    | cons a A ih => by_cases h : a ∈ B <;> simp [h] at * <;> omega
  simp only [List.length_append] at h2
  obtain ⟨x, hx, hf⟩ := mem_of_length_lt (A := A.filter (fun x => x ∈ B)) (B := F)
    (hA.sublist List.filter_sublist) (by omega)
  have := List.mem_filter.1 hx
  exact ⟨x, this.1, by simpa using this.2, hf⟩

/-- Induction over a list from its end. -/
theorem snoc_induction {β : Type} {P : List β → Prop} (nil : P [])
    (snoc : ∀ l a, P l → P (l ++ [a])) (l : List β) : P l := by
  have h : ∀ l : List β, P l.reverse := by
    intro l
    induction l with
    | nil => exact nil
    | cons a l ih => rw [List.reverse_cons]; exact snoc _ _ ih
  have := h l.reverse
  rwa [List.reverse_reverse] at this

theorem length_filter_split {β : Type} (l : List β) (p : β → Bool) :
    (l.filter p).length + (l.filter (fun x => !p x)).length = l.length := by
  induction l with
  | nil => rfl
  | cons a l ih => cases h : p a <;> simp [h] <;> omega

end Verif
