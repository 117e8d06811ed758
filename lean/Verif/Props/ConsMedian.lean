import Verif.Props.ConsTimers
/-!
# C106: which size is asked for at the timeout
-/
namespace Verif.Props
open Verif.ConsAsk

/-- No proof of the one growth was sent by more nodes than some proof of the other. -/
def noMoreSent (a b : Dict ConsProof.Key Nat) : Prop := ∀ p ∈ a, ∃ q ∈ b, p.2 ≤ q.2

theorem le_foldl_max (l : List Nat) : ∀ (m : Nat), m ≤ l.foldl max m ∧ (∀ x ∈ l, x ≤ l.foldl max m) ∧
    (l.foldl max m = m ∨ l.foldl max m ∈ l) := by
  induction l with
  | nil => intro m; exact ⟨Nat.le_refl _, (by intro x hx; cases hx), .inl rfl⟩
  | cons y l ih =>
    intro m
    obtain ⟨h1, h2, h3⟩ := ih (max m y)
    simp only [List.foldl_cons]
    refine ⟨by omega, ?_, ?_⟩
    · intro x hx
      rcases List.mem_cons.1 hx with rfl | hx
      · omega
      · exact h2 x hx
    · rcases h3 with h3 | h3
      · rcases Nat.le_total m y with hm | hm
        · right; rw [h3, Nat.max_eq_right hm]; exact List.mem_cons_self
        · left; rw [h3, Nat.max_eq_left hm]
      · exact .inr (List.mem_cons_of_mem _ h3)

theorem noMoreSent_of_most {a b : Dict ConsProof.Key Nat} (hb : b ≠ []) (h : most a ≤ most b) :
    noMoreSent a b := by
  intro p hp
  obtain ⟨_, h2, _⟩ := le_foldl_max (a.map Prod.snd) 0
  have hpa : p.2 ≤ most a := h2 p.2 (List.mem_map.2 ⟨p, hp, rfl⟩)
  obtain ⟨_, _, h3⟩ := le_foldl_max (b.map Prod.snd) 0
  rcases h3 with h3 | h3
  · obtain ⟨q, hq⟩ := List.exists_mem_of_ne_nil b hb
    refine ⟨q, hq, ?_⟩
    have : most b = 0 := h3
    omega
  · obtain ⟨q, hq, he⟩ := List.mem_map.1 h3
    refine ⟨q, hq, ?_⟩
    have : q.2 = most b := he
    omega

theorem insertGroup_perm (e : (Nat × Nat) × Dict ConsProof.Key Nat) : ∀ l, (insertBy e l).Perm (e :: l)
  | [] => List.Perm.refl _
  | y :: l => by
    simp only [insertBy]
    split
    · exact List.Perm.refl _
    · exact ((insertGroup_perm e l).cons y).trans (List.Perm.swap e y l)

theorem sortGroups_perm : ∀ l, (sortBy l).Perm l
  | [] => List.Perm.refl _
  | e :: l => (insertGroup_perm e _).trans ((sortGroups_perm l).cons e)

theorem insertGroup_sorted (e : (Nat × Nat) × Dict ConsProof.Key Nat) : ∀ l,
    l.Pairwise (fun x y => most x.2 ≤ most y.2) → (insertBy e l).Pairwise (fun x y => most x.2 ≤ most y.2)
  | [], _ => by simp [insertBy]
  | y :: l, h => by
    simp only [insertBy]
    have hy := List.pairwise_cons.1 h
    split
    · rename_i hle
      refine List.pairwise_cons.2 ⟨?_, h⟩
      intro z hz
      rcases List.mem_cons.1 hz with rfl | hz
      · exact hle
      · exact Nat.le_trans hle (hy.1 z hz)
    · rename_i hle
      refine List.pairwise_cons.2 ⟨?_, insertGroup_sorted e l hy.2⟩
      intro z hz
      rcases List.mem_cons.1 ((insertGroup_perm e l).mem_iff.1 hz) with rfl | hz
      · omega
      · exact hy.1 z hz

theorem sortGroups_sorted : ∀ l, (sortBy l).Pairwise (fun x y => most x.2 ≤ most y.2)
  | [] => List.Pairwise.nil
  | e :: l => insertGroup_sorted e _ (sortGroups_sorted l)

/-- **C106** (which one is asked for at the timeout). Half of the growths that were claimed, rounded down, are
claimed by no more nodes than the one that is asked for, and the others by no fewer. Sizes do not count. -/
theorem C106_median (g : Dict (Nat × Nat) (Dict ConsProof.Key Nat)) (hg : g ≠ []) (hne : ∀ e ∈ g, e.2 ≠ []) :
    ∃ fewer x more, (fewer ++ x :: more).Perm g ∧ fewer.length = g.length / 2 ∧
      (∀ y ∈ fewer, noMoreSent y.2 x.2) ∧ (∀ y ∈ more, noMoreSent x.2 y.2) ∧
      requestEnd g = some x.1.2 := by
  have hp := sortGroups_perm g
  have hs := sortGroups_sorted g
  have hlen := hp.length_eq
  have hpos : 0 < g.length := List.length_pos_iff.2 hg
  have hlt : (sortBy g).length / 2 < (sortBy g).length := by omega
  have hsplit : sortBy g = (sortBy g).take ((sortBy g).length / 2) ++
      (sortBy g)[(sortBy g).length / 2] :: (sortBy g).drop ((sortBy g).length / 2 + 1) := by
    rw [List.getElem_cons_drop, List.take_append_drop]
  have hmem : ∀ y ∈ sortBy g, y.2 ≠ [] := fun y hy => hne y (hp.mem_iff.1 hy)
  have hs' := hs
  rw [hsplit] at hs'
  obtain ⟨_, h2, h3⟩ := List.pairwise_append.1 hs'
  refine ⟨(sortBy g).take ((sortBy g).length / 2), (sortBy g)[(sortBy g).length / 2],
    (sortBy g).drop ((sortBy g).length / 2 + 1), ?_, ?_, ?_, ?_, ?_⟩
  · rw [← hsplit]; exact hp
  · rw [List.length_take, hlen]; omega
  · intro y hy
    exact noMoreSent_of_most (hmem _ (List.getElem_mem hlt)) (h3 y hy _ List.mem_cons_self)
  · intro y hy
    exact noMoreSent_of_most (hmem y (List.mem_of_mem_drop hy)) ((List.pairwise_cons.1 h2).1 y hy)
  · unfold requestEnd
    rw [List.getElem?_eq_getElem hlt]
    rfl

/-- Two growths, claimed by three nodes and by one. -/
example : requestEnd (ConsProof.group
    [(1, some (growth 12)), (2, some (growth 12)), (3, some (growth 12)), (4, some (growth 10))]) = some 12 := by
  decide

end Verif.Props
