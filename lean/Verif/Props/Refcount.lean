import Verif.Spec.Refcount
/-!
# C119: a store that counts references
-/
namespace Verif.Props
open Verif.Refcount Verif.Spec.Refcount

theorem rcd_snoc {α : Type} {P : List α → Prop} (h0 : P []) (h1 : ∀ l a, P l → P (l ++ [a])) (l : List α) : P l := by
  suffices H : ∀ k, ∀ l : List α, l.length = k → P l from H _ l rfl
  intro k
  induction k with
  | zero => intro l hl; rw [List.length_eq_zero_iff.1 hl]; exact h0
  | succ k ih =>
    intro l hl
    rcases List.eq_nil_or_concat l with rfl | ⟨l', a, h⟩
    · simp at hl
    · rw [List.concat_eq_append] at h
      subst h
      exact h1 _ _ (ih l' (by simpa using hl))

theorem rcd_refs_snoc (h : List Op) (o : Op) (k : Key) : refs (h ++ [o]) k = refStep k (refs h k) o := by
  simp [refs, List.foldl_append]

theorem rcd_run_snoc (h : List Op) (o : Op) : run (h ++ [o]) = (run h).step o := by
  simp [run, List.foldl_append]

theorem rcd_refs_le (h : List Op) (k : Key) : (refs h k).1 ≤ h.length := by
  induction h using rcd_snoc with
  | h0 => exact Nat.le_refl _
  | h1 h o ih =>
    rw [rcd_refs_snoc, List.length_append]
    rw [List.length_singleton]
    cases o with
    | put j v =>
      simp only [refStep]
      split
      · exact Nat.succ_le_succ ih
      · exact Nat.le_succ_of_le ih
    | del j =>
      simp only [refStep]
      split
      · exact Nat.le_trans (Nat.sub_le _ _) (Nat.le_succ_of_le ih)
      · exact Nat.le_succ_of_le ih
    | commit e => exact Nat.le_succ_of_le ih
    | cleanup e => exact Nat.le_succ_of_le ih

/-- How what is kept at a key stands to the references. -/
def rcd_ok (n : Nat × Val) : Option (Nat × Val) → Prop
  | none => n.1 = 0
  | some (r, v) => v = n.2 ∧ (r = n.1 ∨ (n.1 = 0 ∧ offset ≤ r))

theorem rcd_prune (e : Nat) (q : List Key) (f : Key → Option (Nat × Val)) (k : Key) :
    q.foldl (pruneOne e) f k = (if k ∈ q ∧ (f k).map Prod.fst = some (offset + e) then none else f k) := by
  induction q generalizing f with
  | nil => simp
  | cons j q ih =>
    rw [List.foldl_cons, ih]
    have hj : pruneOne e f j k = if k = j ∧ (f k).map Prod.fst = some (offset + e) then none else f k := by
      unfold pruneOne
      by_cases hk : k = j
      · subst hk
        cases hf : f k with
        | none => simp [hf]
        | some p =>
          obtain ⟨r, v⟩ := p
          by_cases hr : r = offset + e
          · simp [hr, upd]
          · simp [hr, hf]
      · rw [if_neg (fun h => hk h.1)]
        cases hf : f j with
        | none => rfl
        | some p =>
          simp only
          split
          · simp [upd, hk]
          · rfl
    rw [hj]
    by_cases h1 : k = j ∧ (f k).map Prod.fst = some (offset + e)
    · rw [if_pos h1, if_neg (by simp), if_pos ⟨by simp [h1.1], h1.2⟩]
    · rw [if_neg h1]
      by_cases h2 : k ∈ q ∧ (f k).map Prod.fst = some (offset + e)
      · rw [if_pos h2, if_pos ⟨by simp [h2.1], h2.2⟩]
      · rw [if_neg h2, if_neg]
        rintro ⟨h3, h4⟩
        rcases List.mem_cons.1 h3 with h | h
        · exact h1 ⟨h, h4⟩
        · exact h2 ⟨h, h4⟩

theorem rcd_offset_pos : 0 < offset := by decide

theorem rcd_mark (e : Nat) (q : List Key) (f : Key → Option (Nat × Val)) (k : Key) :
    q.foldl (markOne e) f k =
      match f k with
      | some (r, v) => if r = 0 ∧ k ∈ q then some (offset + e, v) else some (r, v)
      | none => none := by
  induction q generalizing f with
  | nil => simp only [List.foldl_nil]; cases f k <;> simp
  | cons j q ih =>
    rw [List.foldl_cons, ih]
    have hpos := rcd_offset_pos
    by_cases hk : k = j
    · subst hk
      unfold markOne
      cases hf : f k with
      | none => simp [hf]
      | some p =>
        obtain ⟨r, v⟩ := p
        simp only
        by_cases hr : r = 0
        · rw [if_pos hr]
          simp only [upd, if_true]
          rw [if_neg (by omega), if_pos ⟨hr, by simp⟩]
        · rw [if_neg hr, hf]
          simp [hr]
    · have : markOne e f j k = f k := by
        unfold markOne
        cases hf : f j with
        | none => rfl
        | some p =>
          simp only
          split
          · simp [upd, hk]
          · rfl
      rw [this]
      cases f k with
      | none => rfl
      | some p => simp [hk]

theorem rcd_fair_snoc (h : List Op) (o : Op) (hf : Fair (h ++ [o])) : Fair h ∧ ∀ k, o = .del k → 0 < (refs h k).1 :=
  ⟨fun h1 k h2 e => hf h1 k (h2 ++ [o]) (by rw [e]; simp), fun k e => hf h k [] (by rw [e])⟩

theorem rcd_inv (h : List Op) (hf : Fair h) (hl : h.length < offset) (k : Key) : rcd_ok (refs h k) ((run h).nodes k) := by
  induction h using rcd_snoc with
  | h0 => exact rfl
  | h1 h o ih =>
    obtain ⟨hf1, hf2⟩ := rcd_fair_snoc h o hf
    rw [List.length_append, List.length_singleton] at hl
    have ih := ih hf1 (by omega)
    have hle := rcd_refs_le h k
    rw [rcd_refs_snoc, rcd_run_snoc]
    generalize run h = s at *
    cases o with
    | put j v =>
      simp only [State.step, State.put, refStep]
      by_cases hj : j = k
      · subst hj
        rw [if_pos rfl]
        cases hn : s.nodes j with
        | none =>
          rw [hn] at ih
          simp only [rcd_ok] at ih
          simp [upd, rcd_ok, ih]
        | some p =>
          obtain ⟨r, w⟩ := p
          rw [hn] at ih
          simp only [rcd_ok] at ih
          simp only [upd, if_true, rcd_ok, true_and]
          left
          split <;> omega
      · rw [if_neg hj]
        have hkj : k ≠ j := fun e => hj e.symm
        cases hn : s.nodes j with
        | none => simpa [upd, hkj] using ih
        | some p => simpa [upd, hkj] using ih
    | del j =>
      have hpos := hf2 j rfl
      simp only [State.step, State.del, refStep]
      by_cases hj : j = k
      · subst hj
        rw [if_pos rfl]
        cases hn : s.nodes j with
        | none =>
          rw [hn] at ih
          simp only [rcd_ok] at ih
          simp [rcd_ok, hn, ih]
        | some p =>
          obtain ⟨r, w⟩ := p
          rw [hn] at ih
          simp only [rcd_ok] at ih
          by_cases hr : r > 0
          · simp only [if_pos hr, Option.getD_some, upd, if_true, rcd_ok]
            refine ⟨ih.1, ?_⟩
            rcases ih.2 with h | h
            · left; rw [h]
            · omega
          · omega
      · rw [if_neg hj]
        have hkj : k ≠ j := fun e => hj e.symm
        cases hn : s.nodes j with
        | none => simpa using ih
        | some p =>
          obtain ⟨r, w⟩ := p
          simp only
          split
          · simpa [upd, hkj] using ih
          · simpa using ih
    | commit e =>
      simp only [State.step, State.commit, refStep]
      rw [rcd_mark]
      cases hn : s.nodes k with
      | none => rw [hn] at ih; exact ih
      | some p =>
        obtain ⟨r, w⟩ := p
        rw [hn] at ih
        simp only
        split
        · next h =>
          simp only [rcd_ok] at ih ⊢
          have := rcd_offset_pos
          exact ⟨ih.1, .inr ⟨by omega, by omega⟩⟩
        · exact ih
    | cleanup e =>
      simp only [State.step, State.cleanup, refStep]
      rw [rcd_prune]
      split
      · next h =>
        cases hn : s.nodes k with
        | none => rw [hn] at h; simp at h
        | some p =>
          obtain ⟨r, w⟩ := p
          rw [hn] at ih h
          simp only [Option.map_some, Option.some.injEq] at h
          simp only [rcd_ok] at ih ⊢
          omega
      · exact ih

/-- A key that is referred to is there, with the value last put; whatever is committed and cleaned up. -/
theorem C119_kept_partial (h : List Op) (hf : Fair h) (hl : h.length < offset) (k : Key) (hk : 0 < (refs h k).1) :
    (run h).get k = some (refs h k).2 ∧ (run h).nodes k = some (refs h k) := by
  have hi := rcd_inv h hf hl k
  have hle := rcd_refs_le h k
  cases hn : (run h).nodes k with
  | none => rw [hn] at hi; simp only [rcd_ok] at hi; omega
  | some p =>
    obtain ⟨r, v⟩ := p
    rw [hn] at hi
    simp only [rcd_ok] at hi
    have hr : r = (refs h k).1 := by omega
    unfold State.get
    rw [hn, hi.1, hr]
    exact ⟨rfl, rfl⟩

/-- A delete of what is referred to succeeds. -/
theorem C119_del_ok (h : List Op) (hf : Fair h) (hl : h.length < offset) (k : Key) (hk : 0 < (refs h k).1) :
    ((run h).del k).isSome := by
  have := (C119_kept_partial h hf hl k hk).2
  unfold State.del
  rw [this]
  simp only
  rw [if_pos hk]
  rfl

/-- When the last reference goes, the key is marked for the epoch that is `ttl` after the one committed: there it is removed, and
cleaning up for any other epoch leaves it. -/
theorem C119_pruned (h : List Op) (k : Key) (e e' : Nat) (hf : Fair h) (hl : h.length < offset) (hk : (refs h k).1 = 1) :
    (run (h ++ [.del k, .commit e, .cleanup e'])).get k = if e' = e + ttl then none else some (refs h k).2 := by
  have hn := (C119_kept_partial h hf hl k (by omega)).2
  have hpair : refs h k = (1, (refs h k).2) := by rw [← hk]
  rw [hpair] at hn
  have hrun : run (h ++ [.del k, .commit e, .cleanup e']) = (((run h).step (.del k)).step (.commit e)).step (.cleanup e') := by
    simp [run, List.foldl_append]
  rw [hrun]
  generalize run h = s at *
  generalize (refs h k).2 = v at *
  have hd : s.step (.del k) =
      { s with journal := s.journal ++ [(1, k)], nodes := upd s.nodes k (some (0, v)), deathRow := s.deathRow ++ [k] } := by
    simp [State.step, State.del, hn]
  rw [hd]
  simp only [State.step, State.commit, State.cleanup, State.get]
  have hm : (s.deathRow ++ [k]).foldl (markOne (e + ttl)) (upd s.nodes k (some (0, v))) k = some (offset + (e + ttl), v) := by
    rw [rcd_mark]
    simp [upd]
  rw [rcd_prune, hm]
  by_cases he : e' = e + ttl
  · subst he
    rw [if_pos ⟨by simp [upd], rfl⟩, if_pos rfl]
    rfl
  · rw [if_neg, if_neg he]
    · rfl
    · rintro ⟨_, h2⟩
      simp only [Option.map_some, Option.some.injEq] at h2
      omega

/-- Puts and deletes. -/
def rcd_change : Op → Prop
  | .put _ _ => True
  | .del _ => True
  | _ => False

/-- The use does not put or delete the key. -/
def rcd_other (k : Key) : Op → Prop
  | .put j _ => j ≠ k
  | .del j => j ≠ k
  | _ => True

theorem rcd_prune_other (e : Nat) (s : State) (k : Key) (r : Nat) (v : Val) (hn : s.nodes k = some (r, v)) (hr : r ≠ offset + e) :
    (s.cleanup e).nodes k = some (r, v) := by
  simp only [State.cleanup]
  rw [rcd_prune, hn, if_neg]
  rintro ⟨_, h⟩
  simp only [Option.map_some, Option.some.injEq] at h
  exact hr h

theorem rcd_step_other (s : State) (k : Key) (o : Op) (ho : rcd_other k o) (hc : rcd_change o) :
    (s.step o).nodes k = s.nodes k ∧ (s.step o).dead = s.dead ∧ (k ∈ s.deathRow → k ∈ (s.step o).deathRow) := by
  cases o with
  | commit e => cases hc
  | cleanup e => cases hc
  | put j v =>
    have hkj : k ≠ j := fun e => ho e.symm
    simp only [State.step, State.put]
    cases s.nodes j with
    | none => exact ⟨if_neg hkj, rfl, id⟩
    | some p => exact ⟨if_neg hkj, rfl, id⟩
  | del j =>
    have hkj : k ≠ j := fun e => ho e.symm
    simp only [State.step, State.del]
    cases s.nodes j with
    | none => exact ⟨rfl, rfl, id⟩
    | some p =>
      obtain ⟨r, w⟩ := p
      simp only
      split
      · refine ⟨if_neg hkj, rfl, fun h => ?_⟩
        simp only [Option.getD_some]
        split
        · exact List.mem_append_left _ h
        · exact h
      · exact ⟨rfl, rfl, id⟩

/-- The same whatever else happens: until the commit there may be any use but of this key and other commits, and after it any use
but of this key and the clean-up of that epoch. -/
theorem C119_pruned_later (h m1 m2 : List Op) (k : Key) (e : Nat) (hf : Fair h) (hl : h.length < offset)
    (hk : (refs h k).1 = 1) (h1 : ∀ o ∈ m1, rcd_other k o ∧ ∀ e', o ≠ .commit e')
    (h2 : ∀ o ∈ m2, rcd_other k o ∧ o ≠ .cleanup (e + ttl)) :
    (run (h ++ [.del k] ++ m1 ++ [.commit e] ++ m2)).get k = some (refs h k).2 ∧
      (run (h ++ [.del k] ++ m1 ++ [.commit e] ++ m2 ++ [.cleanup (e + ttl)])).get k = none := by
  have hn := (C119_kept_partial h hf hl k (by omega)).2
  have hpair : refs h k = (1, (refs h k).2) := by rw [← hk]
  rw [hpair] at hn
  have hpos := rcd_offset_pos
  generalize (refs h k).2 = v at *
  -- until the commit
  have a1 : (run (h ++ [.del k] ++ m1)).nodes k = some (0, v) ∧ k ∈ (run (h ++ [.del k] ++ m1)).deathRow := by
    induction m1 using rcd_snoc with
    | h0 =>
      rw [List.append_nil, rcd_run_snoc]
      simp [State.step, State.del, hn, upd]
    | h1 m o ih =>
      obtain ⟨i1, i2⟩ := ih (fun o ho => h1 o (by simp [ho]))
      obtain ⟨ho1, ho2⟩ := h1 o (by simp)
      rw [← List.append_assoc, rcd_run_snoc]
      generalize run (h ++ [.del k] ++ m) = s at *
      cases o with
      | commit e' => exact absurd rfl (ho2 e')
      | cleanup e' => exact ⟨rcd_prune_other e' s k 0 v i1 (by omega), i2⟩
      | put j w =>
        obtain ⟨k1, _, k3⟩ := rcd_step_other s k (.put j w) ho1 trivial
        exact ⟨k1.trans i1, k3 i2⟩
      | del j =>
        obtain ⟨k1, _, k3⟩ := rcd_step_other s k (.del j) ho1 trivial
        exact ⟨k1.trans i1, k3 i2⟩
  -- after it
  have a2 : (run (h ++ [.del k] ++ m1 ++ [.commit e] ++ m2)).nodes k = some (offset + (e + ttl), v) ∧
      k ∈ ((run (h ++ [.del k] ++ m1 ++ [.commit e] ++ m2)).dead (e + ttl)).getD [] := by
    induction m2 using rcd_snoc with
    | h0 =>
      rw [List.append_nil, rcd_run_snoc]
      simp only [State.step, State.commit]
      rw [rcd_mark, a1.1]
      refine ⟨if_pos ⟨rfl, a1.2⟩, ?_⟩
      rw [show ∀ x : Option (List Key), upd (run (h ++ [.del k] ++ m1)).dead (e + ttl) x (e + ttl) = x from fun x => if_pos rfl]
      exact List.mem_append_right _ a1.2
    | h1 m o ih =>
      obtain ⟨i1, i2⟩ := ih (fun o ho => h2 o (by simp [ho]))
      obtain ⟨ho1, ho2⟩ := h2 o (by simp)
      rw [← List.append_assoc, rcd_run_snoc]
      generalize run (h ++ [.del k] ++ m1 ++ [.commit e] ++ m) = s at *
      cases o with
      | commit e' =>
        simp only [State.step, State.commit]
        refine ⟨?_, ?_⟩
        · rw [rcd_mark, i1]
          simp only
          rw [if_neg (by omega)]
        · unfold upd
          split
          · next he => rw [← he]; simp [i2]
          · exact i2
      | cleanup e' =>
        have he : e' ≠ e + ttl := fun h => ho2 (by rw [h])
        refine ⟨rcd_prune_other e' s k _ v i1 (by omega), ?_⟩
        simp only [State.step, State.cleanup, upd]
        rw [if_neg (fun h => he h.symm)]
        exact i2
      | put j w =>
        obtain ⟨k1, k2, _⟩ := rcd_step_other s k (.put j w) ho1 trivial
        rw [k1, k2]
        exact ⟨i1, i2⟩
      | del j =>
        obtain ⟨k1, k2, _⟩ := rcd_step_other s k (.del j) ho1 trivial
        rw [k1, k2]
        exact ⟨i1, i2⟩
  refine ⟨by unfold State.get; rw [a2.1]; rfl, ?_⟩
  rw [rcd_run_snoc]
  simp only [State.step, State.cleanup, State.get]
  rw [rcd_prune, a2.1, if_pos ⟨a2.2, rfl⟩]
  rfl

/-! ### Taking an epoch back -/

def rcd_first (j : List (Nat × Key)) (k : Key) : Option Nat := (j.find? (fun e => e.2 = k)).map Prod.fst

theorem rcd_back (j : List (Nat × Key)) (f : Key → Option (Nat × Val)) (k : Key) :
    j.reverse.foldl backOne f k =
      match f k with
      | some (r, v) => some ((rcd_first j k).getD r, v)
      | none => none := by
  induction j with
  | nil => simp only [List.reverse_nil, List.foldl_nil, rcd_first]; cases f k <;> simp
  | cons x j ih =>
    rw [List.reverse_cons, List.foldl_append, List.foldl_cons, List.foldl_nil]
    generalize j.reverse.foldl backOne f = g at *
    obtain ⟨r0, k0⟩ := x
    unfold backOne
    by_cases hk : k0 = k
    · subst hk
      cases hf : f k0 with
      | none => rw [hf] at ih; simp only at ih; simp [ih]
      | some p =>
        rw [hf] at ih
        simp only at ih
        simp [ih, upd, rcd_first]
    · have hkk : k ≠ k0 := fun e => hk e.symm
      have h1 : rcd_first ((r0, k0) :: j) k = rcd_first j k := by simp [rcd_first, hk]
      rw [h1, ← ih]
      cases g k0 with
      | none => rfl
      | some p => simp [upd, hkk]

/-- What a run of changes leaves behind. -/
theorem rcd_changes (s : State) (hj : s.journal = []) (hd : s.deathRow = []) (ops : List Op) (ho : ∀ o ∈ ops, rcd_change o)
    (k : Key) :
    (rcd_first (ops.foldl State.step s).journal k = none → (ops.foldl State.step s).nodes k = s.nodes k ∧
        k ∉ (ops.foldl State.step s).deathRow) ∧
      (∀ r, rcd_first (ops.foldl State.step s).journal k = some r →
        r = ((s.nodes k).map Prod.fst).getD 0 ∧ ((ops.foldl State.step s).nodes k).isSome) ∧
      (ops.foldl State.step s).journals = s.journals ∧ ((s.nodes k).isSome → ((ops.foldl State.step s).nodes k).isSome) := by
  induction ops using rcd_snoc with
  | h0 => simp [hj, hd, rcd_first]
  | h1 ops o ih =>
    obtain ⟨i1, i2, i3, i4⟩ := ih (fun o ho' => ho o (by simp [ho']))
    have hoo := ho o (by simp)
    rw [List.foldl_append, List.foldl_cons, List.foldl_nil]
    generalize ops.foldl State.step s = t at *
    have hfirst : ∀ (r : Nat) (j : Key), rcd_first (t.journal ++ [(r, j)]) k =
        (rcd_first t.journal k).or (if j = k then some r else none) := by
      intro r j
      unfold rcd_first
      rw [List.find?_append]
      cases t.journal.find? (fun e => e.2 = k) with
      | some p => simp
      | none => by_cases h : j = k <;> simp [h]
    -- one change of the key `j`, that had `r` before
    have key : ∀ (t' : State) (r : Nat) (j : Key), t'.journal = t.journal ++ [(r, j)] → t'.journals = t.journals →
        (j ≠ k → t'.nodes k = t.nodes k ∧ (k ∈ t'.deathRow → k ∈ t.deathRow)) →
        (j = k → (t'.nodes k).isSome ∧ r = ((t.nodes k).map Prod.fst).getD 0) →
        (rcd_first t'.journal k = none → t'.nodes k = s.nodes k ∧ k ∉ t'.deathRow) ∧
        (∀ r, rcd_first t'.journal k = some r → r = ((s.nodes k).map Prod.fst).getD 0 ∧ (t'.nodes k).isSome) ∧
        t'.journals = s.journals ∧ ((s.nodes k).isSome → (t'.nodes k).isSome) := by
      intro t' r j e1 e2 e3 e4
      rw [e1, e2, hfirst]
      by_cases hjk : j = k
      · obtain ⟨k1, k2⟩ := e4 hjk
        rw [if_pos hjk]
        refine ⟨fun h => ?_, fun r' h => ?_, i3, fun _ => k1⟩
        · cases hq : rcd_first t.journal k <;> rw [hq] at h <;> cases h
        · cases hq : rcd_first t.journal k with
          | none =>
            rw [hq] at h
            cases h
            rw [(i1 hq).1] at k2
            exact ⟨k2, k1⟩
          | some r0 =>
            rw [hq] at h
            cases h
            exact ⟨(i2 _ hq).1, k1⟩
      · obtain ⟨k1, k2⟩ := e3 hjk
        rw [if_neg hjk, Option.or_none, k1]
        exact ⟨fun h => ⟨(i1 h).1, fun hm => (i1 h).2 (k2 hm)⟩, i2, i3, i4⟩
    cases o with
    | commit e => cases hoo
    | cleanup e => cases hoo
    | put j v =>
      simp only [State.step, State.put]
      cases hn : t.nodes j with
      | none =>
        refine key _ 0 j rfl rfl (fun h => ⟨?_, id⟩) (fun h => ?_)
        · exact if_neg (fun e : k = j => h e.symm)
        · subst h; simp [upd, hn]
      | some p =>
        obtain ⟨r, w⟩ := p
        refine key _ r j rfl rfl (fun h => ⟨?_, id⟩) (fun h => ?_)
        · exact if_neg (fun e : k = j => h e.symm)
        · subst h; simp [upd, hn]
    | del j =>
      simp only [State.step, State.del]
      cases hn : t.nodes j with
      | none => exact ⟨i1, i2, i3, i4⟩
      | some p =>
        obtain ⟨r, w⟩ := p
        simp only
        by_cases hr : r > 0
        · rw [if_pos hr]
          refine key _ r j rfl rfl (fun h => ⟨?_, ?_⟩) (fun h => ?_)
          · exact if_neg (fun e : k = j => h e.symm)
          · simp only [Option.getD_some]
            split
            · intro hm
              rcases List.mem_append.1 hm with hm | hm
              · exact hm
              · exact absurd (List.mem_singleton.1 hm).symm h
            · exact id
          · subst h; simp [upd, hn]
        · rw [if_neg hr]
          exact ⟨i1, i2, i3, i4⟩

/-- Taking an epoch back gives every key the count it had before the epoch; a key that was new is left with the count 0. -/
theorem C119_reverted (s : State) (hj : s.journal = []) (hd : s.deathRow = []) (e : Nat) (he : s.journals e = none)
    (ops : List Op) (ho : ∀ o ∈ ops, rcd_change o) (k : Key) :
    (∀ r v, s.nodes k = some (r, v) → ∃ w, (((ops.foldl State.step s).commit e).revert e).nodes k = some (r, w)) ∧
      (s.nodes k = none → (((ops.foldl State.step s).commit e).revert e).nodes k = none ∨
        ∃ w, (((ops.foldl State.step s).commit e).revert e).nodes k = some (0, w)) := by
  obtain ⟨i1, i2, i3, i4⟩ := rcd_changes s hj hd ops ho k
  generalize ops.foldl State.step s = t at *
  have hj' : ((t.commit e).journals e).getD [] = t.journal := by
    simp [State.commit, upd, i3, he]
  simp only [State.revert]
  rw [hj', rcd_back]
  simp only [State.commit]
  rw [rcd_mark]
  cases hq : rcd_first t.journal k with
  | none =>
    obtain ⟨k1, k2⟩ := i1 hq
    rw [k1]
    constructor
    · intro r v hv
      rw [hv]
      simp [k2]
    · intro hv
      rw [hv]
      exact .inl rfl
  | some r0 =>
    obtain ⟨k1, k2⟩ := i2 r0 hq
    cases hn : t.nodes k with
    | none => rw [hn] at k2; cases k2
    | some p =>
      obtain ⟨r1, w⟩ := p
      constructor
      · intro r v hv
        rw [hv] at k1
        simp only [Option.map_some, Option.getD_some] at k1
        subst k1
        refine ⟨w, ?_⟩
        simp only
        by_cases hc : r1 = 0 ∧ k ∈ t.deathRow
        · rw [if_pos hc]; rfl
        · rw [if_neg hc]; rfl
      · intro hv
        rw [hv] at k1
        simp only [Option.map_none, Option.getD_none] at k1
        subst k1
        refine .inr ⟨w, ?_⟩
        simp only
        by_cases hc : r1 = 0 ∧ k ∈ t.deathRow
        · rw [if_pos hc]; rfl
        · rw [if_neg hc]; rfl

/-- What the epoch marked is no longer up for removal. -/
theorem C119_reverted_kept (s : State) (e : Nat) (k : Key) : ((s.revert e).cleanup (e + ttl)).get k = (s.revert e).get k := by
  have : (s.revert e).dead (e + ttl) = none := by
    simp only [State.revert, upd, if_true]
  simp only [State.get, State.cleanup, this]
  rfl

theorem rcd_no_journal (h : List Op) (e : Nat) (he : Op.commit e ∉ h) : (run h).journals e = none := by
  induction h using rcd_snoc with
  | h0 => rfl
  | h1 h o ih =>
    have ih := ih (fun hm => he (by simp [hm]))
    rw [rcd_run_snoc]
    generalize run h = s at *
    cases o with
    | put j v =>
      simp only [State.step, State.put]
      cases s.nodes j <;> exact ih
    | del j =>
      simp only [State.step, State.del]
      cases s.nodes j with
      | none => exact ih
      | some p =>
        simp only
        split <;> exact ih
    | commit e' =>
      simp only [State.step, State.commit, upd]
      rw [if_neg (fun h => he (by simp [h]))]
      exact ih
    | cleanup e' =>
      simp only [State.step, State.cleanup]
      split
      · simp only [upd]
        split
        · rfl
        · exact ih
      · exact ih

/-- So after any history that ends with a commit, an epoch that was not committed before can be taken back. -/
theorem C119_reverted_run (h ops : List Op) (e0 e : Nat) (he : Op.commit e ∉ h ++ [.commit e0]) (ho : ∀ o ∈ ops, rcd_change o)
    (k : Key) (r : Nat) (v : Val) (hk : (run (h ++ [.commit e0])).nodes k = some (r, v)) :
    ∃ w, ((run (h ++ [.commit e0] ++ ops ++ [.commit e])).revert e).nodes k = some (r, w) := by
  have hr : run (h ++ [.commit e0] ++ ops ++ [.commit e]) = (ops.foldl State.step (run (h ++ [.commit e0]))).commit e := by
    rw [rcd_run_snoc]
    unfold run
    rw [List.foldl_append (l' := ops)]
    rfl
  rw [hr]
  have hc : (run (h ++ [.commit e0])).journal = [] ∧ (run (h ++ [.commit e0])).deathRow = [] := by
    rw [rcd_run_snoc]
    exact ⟨rfl, rfl⟩
  exact (C119_reverted _ hc.1 hc.2 e (rcd_no_journal _ e he) ops ho k).1 r v hk

/-- Two references of which one goes; another key goes and is removed. -/
def rcd_hist : List Op := [.put 1 10, .put 1 10, .put 2 20, .del 1, .del 2, .commit 3, .cleanup 503]

example : (run rcd_hist).get 1 = some 10 ∧ (run rcd_hist).get 2 = none := by decide

example : (refs rcd_hist 1).1 = 1 ∧ (refs rcd_hist 2).1 = 0 ∧ rcd_hist.length < offset := by decide

example : Fair [.put 1 10, .put 1 10, .del 1] := by
  intro h1 k h2 e
  match h1, e with
  | [], e => cases e
  | [_], e => cases e
  | [_, _], e => cases e; decide
  | [_, _, _], e => cases e
  | _ :: _ :: _ :: _ :: _, e => simp at e

/-- The count of references that a user is told is 0 also for what is referred to. -/
theorem C119_count_told : (refs [.put 1 10] 1).1 = 1 ∧ (run [.put 1 10]).getRefcount 1 = 0 := by decide

/-- A delete without a reference, which is refused before the commit, is carried out after it. -/
theorem C119_del_marked :
    ∃ h k e, (refs h k).1 = 0 ∧ ((run h).del k).isNone ∧ ((run (h ++ [.commit e])).del k).isSome :=
  ⟨[.put 1 10, .del 1], 1, 3, by decide, by decide, by decide⟩

/-- A key so deleted is no longer removed. -/
theorem C119_del_leaks :
    ∃ h k e, (refs h k).1 = 0 ∧ (run (h ++ [.cleanup (e + ttl)])).get k = none ∧
      (run (h ++ [.del k, .cleanup (e + ttl)])).get k ≠ none :=
  ⟨[.put 1 10, .del 1, .commit 3], 1, 3, by decide, by decide, by decide⟩

end Verif.Props
