import Verif.Spec.LastPp
/-!
# C79: the numbers of batches of backup instances
-/
namespace Verif.Props
open Verif Verif.LastPp Verif.Spec.LastPp

/-- What an instance becomes when it is restored. -/
def lpRestored (l : Dict Nat (Nat × Nat)) (j : Nat) (o : Option Inst) : Option Inst :=
  if j = 0 then o else
  match l.get? j with
  | none => o
  | some p => o.map fun x => ⟨max x.lastPp p.2, p⟩

theorem lp_restoreOne (d : Dict Nat Inst) (i : Nat) (p : Nat × Nat) (j : Nat) :
    (restoreOne d i p).get? j = if i = j then (d.get? j).map fun x => ⟨max x.lastPp p.2, p⟩ else d.get? j := by
  unfold restoreOne
  cases h : d.get? i with
  | none =>
    by_cases hij : i = j
    · subst hij; simp [h]
    · simp [hij]
  | some x =>
    simp only [Dict.get?_set]
    by_cases hij : i = j
    · subst hij; simp [h]
    · simp [hij]

theorem lp_restoreOne_has (d : Dict Nat Inst) (i : Nat) (p : Nat × Nat) (j : Nat) :
    (restoreOne d i p).has j = d.has j := by
  unfold Dict.has
  rw [lp_restoreOne]
  by_cases hij : i = j
  · subst hij; simp
  · simp [hij]

theorem lp_loop : ∀ (l : Dict Nat (Nat × Nat)) (s : Node) (b : Bool), l.keys.Nodup →
    ∃ d', restoreLoop l s b = ({ s with insts := d' }, b || l.any (fun e => canRestore s e.1)) ∧
      ∀ j, d'.get? j = lpRestored l j (s.insts.get? j)
  | [], s, b, _ => ⟨s.insts, by simp [restoreLoop], fun j => by simp [lpRestored]⟩
  | (i, p) :: l, s, b, h => by
    have hn : i ∉ Dict.keys l ∧ (Dict.keys l).Nodup := by simpa [Dict.keys] using h
    have hnone : Dict.get? l i = none := by
      cases hg : Dict.get? l i with
      | none => rfl
      | some v => exact absurd ((Dict.mem_keys l i).2 ⟨v, hg⟩) hn.1
    unfold restoreLoop
    by_cases hc : canRestore s i = true
    · rw [if_pos hc]
      obtain ⟨d', h1, h2⟩ := lp_loop l { s with insts := restoreOne s.insts i p } true hn.2
      refine ⟨d', ?_, fun j => ?_⟩
      · rw [h1]; simp [hc]
      · rw [h2 j]
        show lpRestored l j ((restoreOne s.insts i p).get? j) = _
        have hi0 : i ≠ 0 := by
          unfold canRestore at hc; simp at hc; exact hc.2
        rw [lp_restoreOne]
        by_cases hij : i = j
        · subst hij
          simp [lpRestored, hi0, hnone, Dict.get?_cons]
        · simp [lpRestored, hij, Dict.get?_cons]
    · rw [if_neg hc]
      obtain ⟨d', h1, h2⟩ := lp_loop l s b hn.2
      refine ⟨d', ?_, fun j => ?_⟩
      · rw [h1]; simp [hc]
      · rw [h2 j]
        by_cases hij : i = j
        · subst hij
          have : i = 0 ∨ s.insts.get? i = none := by
            unfold canRestore Dict.has at hc
            simp at hc
            cases hg : s.insts.get? i with
            | none => exact Or.inr rfl
            | some x => rw [hg] at hc; exact Or.inl (hc rfl)
          rcases this with h0 | h0
          · simp [lpRestored, h0]
          · simp [lpRestored, h0, Dict.get?_cons, hnone]
        · simp [lpRestored, hij, Dict.get?_cons]

theorem lp_fill (d : Dict Nat Inst) (j : Nat) : ∀ (l : List Nat),
    ((l.foldl (fun d i => if d.has i then d else d.set i {}) d).get? j) =
      if j ∈ l then some ((d.get? j).getD {}) else d.get? j := by
  intro l
  induction l generalizing d with
  | nil => simp
  | cons a l ih =>
    rw [List.foldl_cons, ih]
    by_cases ha : d.has a = true
    · rw [if_pos ha]
      by_cases hj : j = a
      · subst hj
        obtain ⟨v, hv⟩ := (Dict.has_iff d j).1 ha
        simp [hv]
      · simp [hj]
    · rw [if_neg ha]
      have hg := (Dict.has_false_iff d a).1 (by simpa using ha)
      rw [Dict.get?_set]
      by_cases hj : j = a
      · subst hj; simp [hg]
      · have : ¬ a = j := fun h => hj h.symm
        simp [hj, this]

theorem lp_filled (s : Node) (j : Nat) :
    (restoreReplicas s).insts.get? j = if j < s.n then some ((s.insts.get? j).getD {}) else s.insts.get? j := by
  unfold restoreReplicas
  simp only [lp_fill, List.mem_range]

theorem lp_init (n j : Nat) : (LastPp.init n).insts.get? j = if j < n then some {} else none := by
  unfold LastPp.init
  show Dict.get? ((List.range n).map fun i => (i, ({} : Inst))) j = _
  have : ∀ l : List Nat, Dict.get? (l.map fun i => (i, ({} : Inst))) j = if j ∈ l then some {} else none := by
    intro l
    induction l with
    | nil => rfl
    | cons a l ih =>
      rw [List.map_cons, Dict.get?_cons, ih]
      by_cases h : a = j
      · subst h; simp
      · have : ¬ j = a := fun h' => h h'.symm
        simp [h, this]
  rw [this]; simp

theorem lp_reset (v : Nat) (d : Dict Nat Inst) (j : Nat) :
    (resetNumbers v d).get? j = if j = 0 then d.get? j else (d.get? j).map fun _ => ⟨0, (v, 0)⟩ := by
  unfold resetNumbers
  induction d with
  | nil => simp
  | cons e d ih =>
    rw [List.map_cons, Dict.get?_cons, ih]
    rw [Dict.get?_cons]
    by_cases he : e.1 = 0
    · by_cases hj : e.1 = j
      · have : j = 0 := by omega
        simp [he, this]
      · simp [he]
        by_cases h0 : j = 0
        · omega
        · have : ¬ 0 = j := fun h => h0 h.symm
          simp [h0, this]
    · simp only [he, if_false]
      by_cases hj : e.1 = j
      · have : j ≠ 0 := by omega
        simp [hj, this]
      · simp [hj]

/-- How many numbers the instance has used in the current view. -/
def lpCnt (s : Node) (i : Nat) : Nat := (numbers s.used i s.view).length

/-- What holds in a regular history. -/
structure LpInv (s : Node) (lost gone : Bool) : Prop where
  cons : Consecutive s.used
  later : ∀ e ∈ s.used, e.2.1 ≤ s.view
  small : ∀ e ∈ s.used, e.1 < s.n
  last : ∀ i x, i ≠ 0 → s.insts.get? i = some x → x.lastPp = lpCnt s i
  bound : ∀ i x, s.insts.get? i = some x → i < s.n
  all : gone = false → ∀ i, i < s.n → ∃ x, s.insts.get? i = some x
  keys : ∀ l, s.store = some l → l.keys.Nodup ∧ ∀ i p, l.get? i = some p → i ≠ 0 ∧ i < s.n
  stored : lost = false → ∀ i, i ≠ 0 →
    (lpCnt s i = 0 ∧ (s.store.getD []).get? i = none) ∨
    (lpCnt s i ≠ 0 ∧ (s.store.getD []).get? i = some (s.view, lpCnt s i))
  nonempty : ∀ l, s.store = some l → l ≠ []

theorem lp_numbers_snoc (u : List (Nat × Nat × Nat)) (i v j w k : Nat) :
    numbers (u ++ [(j, w, k)]) i v = numbers u i v ++ if j = i ∧ w = v then [k] else [] := by
  unfold numbers
  rw [List.filter_append, List.map_append]
  by_cases h : j = i ∧ w = v
  · simp [h]
  · rw [if_neg h]; simp [h]

theorem lp_numbers_none {u : List (Nat × Nat × Nat)} {v : Nat} (h : ∀ e ∈ u, e.2.1 ≤ v) {w : Nat} (hw : v < w) (i : Nat) :
    numbers u i w = [] := by
  unfold numbers
  rw [List.map_eq_nil_iff, List.filter_eq_nil_iff]
  intro e he
  have := h e he
  simp only [decide_eq_true_eq, not_and]
  omega

theorem LpInv.preprepare {s : Node} {lost gone : Bool} (h : LpInv s lost gone) (i : Nat) :
    LpInv (preprepare s i) lost gone := by
  unfold LastPp.preprepare use
  cases hg : s.insts.get? i with
  | none => exact h
  | some x =>
    have hlt := h.bound i x hg
    simp only
    have hcount : ∀ j, (numbers (s.used ++ [(i, s.view, x.lastPp + 1)]) j s.view).length =
        lpCnt s j + if i = j then 1 else 0 := by
      intro j
      rw [lp_numbers_snoc]
      by_cases hij : i = j
      · simp [hij, lpCnt]
      · simp [hij, lpCnt]
    have hcons : Consecutive (s.used ++ [(i, s.view, x.lastPp + 1)]) := by
      intro j v hj
      rw [lp_numbers_snoc]
      by_cases hij : i = j ∧ s.view = v
      · obtain ⟨rfl, rfl⟩ := hij
        simp only [and_self, if_true, List.length_append, List.length_singleton]
        rw [List.range'_concat, ← h.cons i s.view hj, h.last i x hj hg]
        simp [lpCnt, Nat.add_comm]
      · simp only [hij, if_false, List.append_nil]
        exact h.cons j v hj
    have hlater : ∀ e ∈ s.used ++ [(i, s.view, x.lastPp + 1)], e.2.1 ≤ s.view := by
      intro e he
      rcases List.mem_append.1 he with he | he
      · exact h.later e he
      · rw [List.mem_singleton] at he; subst he; exact Nat.le_refl _
    have hsmall : ∀ e ∈ s.used ++ [(i, s.view, x.lastPp + 1)], e.1 < s.n := by
      intro e he
      rcases List.mem_append.1 he with he | he
      · exact h.small e he
      · rw [List.mem_singleton] at he; subst he; exact hlt
    have hlast : ∀ j y, j ≠ 0 → (s.insts.set i { x with lastPp := x.lastPp + 1 }).get? j = some y →
        y.lastPp = lpCnt s j + if i = j then 1 else 0 := by
      intro j y hj hy
      rw [Dict.get?_set] at hy
      by_cases hij : i = j
      · subst hij
        simp only [if_true, Option.some.injEq] at hy
        subst hy
        simp [h.last i x hj hg]
      · simp only [hij, if_false] at hy
        simp [hij, h.last j y hj hy]
    have hbound : ∀ j y, (s.insts.set i { x with lastPp := x.lastPp + 1 }).get? j = some y → j < s.n := by
      intro j y hy
      rw [Dict.get?_set] at hy
      by_cases hij : i = j
      · subst hij; exact hlt
      · simp only [hij, if_false] at hy
        exact h.bound j y hy
    have hall : gone = false → ∀ j, j < s.n →
        ∃ y, (s.insts.set i { x with lastPp := x.lastPp + 1 }).get? j = some y := by
      intro hgo j hj
      rw [Dict.get?_set]
      by_cases hij : i = j
      · exact ⟨_, by rw [if_pos hij]⟩
      · rw [if_neg hij]; exact h.all hgo j hj
    by_cases hi : i = 0
    · rw [if_pos hi]
      refine ⟨hcons, hlater, hsmall, fun j y hj hy => (hlast j y hj hy).trans (hcount j).symm, hbound, hall, h.keys, ?_,
        h.nonempty⟩
      intro hl j hj
      have : lpCnt ({ s with insts := s.insts.set i { x with lastPp := x.lastPp + 1 }
                             used := s.used ++ [(i, s.view, x.lastPp + 1)] }) j = lpCnt s j := by
        refine (hcount j).trans ?_
        have : ¬ i = j := by omega
        simp [this]
      rw [this]
      exact h.stored hl j hj
    · rw [if_neg hi]
      unfold storePp
      refine ⟨hcons, hlater, hsmall, fun j y hj hy => (hlast j y hj hy).trans (hcount j).symm, hbound, hall, ?_, ?_, ?_⟩
      · intro l hl
        simp only [Option.some.injEq] at hl
        subst hl
        have hk : (s.store.getD []).keys.Nodup ∧ ∀ j p, (s.store.getD []).get? j = some p → j ≠ 0 ∧ j < s.n := by
          cases hs : s.store with
          | none => exact ⟨List.nodup_nil, fun j p hp => by simp at hp⟩
          | some l => exact h.keys l hs
        refine ⟨Dict.nodup_keys_set hk.1 _ _, fun j p hp => ?_⟩
        rw [Dict.get?_set] at hp
        by_cases hij : i = j
        · subst hij; exact ⟨hi, hlt⟩
        · rw [if_neg hij] at hp; exact hk.2 j p hp
      · intro hl j hj
        have hc := hcount j
        show ((numbers (s.used ++ [(i, s.view, x.lastPp + 1)]) j s.view).length = 0 ∧ _) ∨
          ((numbers (s.used ++ [(i, s.view, x.lastPp + 1)]) j s.view).length ≠ 0 ∧
            _ = some (s.view, (numbers (s.used ++ [(i, s.view, x.lastPp + 1)]) j s.view).length))
        rw [hc]
        simp only [Option.getD_some, Dict.get?_set]
        by_cases hij : i = j
        · subst hij
          right
          simp [h.last i x hi hg]
        · simp only [hij, if_false, Nat.add_zero]
          exact h.stored hl j hj
      · intro l hl
        simp only [Option.some.injEq] at hl
        subst hl
        intro hnil
        have := Dict.mem_set_self (s.store.getD []) i (s.view, x.lastPp + 1)
        rw [hnil] at this
        cases this

theorem LpInv.remove {s : Node} {lost gone : Bool} (h : LpInv s lost gone) (i : Nat) :
    LpInv (LastPp.step s (.remove i)) lost true := by
  unfold LastPp.step
  by_cases hi : i = 0
  · simp only [hi, if_true]
    exact { h with all := fun h' => (by cases h') }
  · simp only [hi, if_false]
    refine ⟨h.cons, h.later, h.small, fun j x hj hx => ?_, fun j x hx => ?_, fun h' => (by cases h'), h.keys, h.stored, h.nonempty⟩
    · rw [Dict.get?_erase] at hx
      by_cases hij : i = j
      · simp [hij] at hx
      · simp only [hij, if_false] at hx; exact h.last j x hj hx
    · rw [Dict.get?_erase] at hx
      by_cases hij : i = j
      · simp [hij] at hx
      · simp only [hij, if_false] at hx; exact h.bound j x hx

theorem LpInv.viewChange {s : Node} {lost gone : Bool} (h : LpInv s lost gone) {v : Nat} (hv : ¬ v ≤ s.view) :
    LpInv (viewChange s v) false false := by
  unfold LastPp.viewChange
  rw [if_neg hv]
  have hz : ∀ i, numbers s.used i v = [] := fun i => lp_numbers_none h.later (by omega) i
  have hget : ∀ j, (resetNumbers v (erase (restoreReplicas s)).insts).get? j =
      if j = 0 then (restoreReplicas s).insts.get? j else ((restoreReplicas s).insts.get? j).map fun _ => ⟨0, (v, 0)⟩ :=
    fun j => lp_reset v _ j
  refine ⟨h.cons, fun e he => ?_, h.small, fun i x hi hx => ?_, fun i x hx => ?_, fun _ i hi => ?_, ?_, fun _ i _ => ?_, ?_⟩
  · have : e.2.1 ≤ s.view := h.later e he
    exact Nat.le_trans this (by show s.view ≤ v; omega)
  · replace hx := (hget i).symm.trans hx
    rw [if_neg hi] at hx
    cases hg : (restoreReplicas s).insts.get? i with
    | none => rw [hg] at hx; cases hx
    | some y =>
      rw [hg] at hx
      simp only [Option.map_some, Option.some.injEq] at hx
      subst hx
      show 0 = (numbers s.used i v).length
      rw [hz i]; rfl
  · replace hx := (hget i).symm.trans hx
    show i < s.n
    apply Classical.byContradiction
    intro hlt
    rw [lp_filled, if_neg hlt] at hx
    cases hg : s.insts.get? i with
    | none => rw [hg] at hx; simp at hx
    | some y => exact hlt (h.bound i y hg)
  · have hi' : i < s.n := hi
    show ∃ x, (resetNumbers v (erase (restoreReplicas s)).insts).get? i = some x
    rw [hget i, lp_filled, if_pos hi']
    by_cases h0 : i = 0
    · exact ⟨_, by rw [if_pos h0]⟩
    · exact ⟨_, by rw [if_neg h0]; rfl⟩
  · intro l hl; cases hl
  · left
    exact ⟨by show (numbers s.used i v).length = 0; rw [hz i]; rfl, rfl⟩
  · intro l hl; cases hl

/-- A catchup that restores the numbers. -/
theorem LpInv.restored {s t : Node} {lost gone : Bool} (h : LpInv s lost gone) (hl : lost = false)
    (hn : t.n = s.n) (hs : t.store = s.store) (hu : t.used = s.used)
    (hi : ∀ i x, t.insts.get? i = some x → i < s.n ∧ (i ≠ 0 → x.lastPp = lpCnt s i ∨ x.lastPp = 0))
    (hz : t.view = 0) : LpInv (catchupDone t (some s.view)) false false := by
  have hfill : ∀ j, (restoreReplicas t).insts.get? j = if j < s.n then some ((t.insts.get? j).getD {}) else none := by
    intro j
    rw [lp_filled, hn]
    by_cases hj : j < s.n
    · simp [hj]
    · simp only [hj, if_false]
      cases hg : t.insts.get? j with
      | none => rfl
      | some x => exact absurd (hi j x hg).1 hj
  have hlast0 : ∀ j x, j ≠ 0 → (restoreReplicas t).insts.get? j = some x → x.lastPp = lpCnt s j ∨ x.lastPp = 0 := by
    intro j x hj hx
    rw [hfill] at hx
    by_cases hlt : j < s.n
    · rw [if_pos hlt] at hx
      simp only [Option.some.injEq] at hx
      cases hg : t.insts.get? j with
      | none => rw [hg] at hx; subst hx; exact Or.inr rfl
      | some y =>
        rw [hg] at hx
        simp only [Option.getD_some] at hx
        subst hx
        exact (hi j y hg).2 hj
    · rw [if_neg hlt] at hx; cases hx
  have hview : (restoreReplicas t).view = 0 := hz
  unfold catchupDone restoreNumbers takeView
  simp only [hview, if_true]
  unfold tryRestore
  have hstore : (restoreReplicas t).store = s.store := hs
  have hused : (restoreReplicas t).used = s.used := hu
  have hnn : (restoreReplicas t).n = s.n := hn
  simp only [hstore]
  cases hst : s.store with
  | none =>
    simp only
    have hcnt : ∀ i, i ≠ 0 → lpCnt s i = 0 := by
      intro i hi0
      rcases h.stored hl i hi0 with h1 | h1
      · exact h1.1
      · rw [hst] at h1; simp at h1
    unfold erase
    refine ⟨by rw [hused]; exact h.cons, by rw [hused]; exact h.later, by rw [hused]; simp only [hnn]; exact h.small,
      fun i x hi0 hx => ?_, fun i x hx => ?_, fun _ i hlt => ?_, fun l hl => (by cases hl), fun _ i hi0 => ?_,
      fun l hl => (by cases hl)⟩
    · show x.lastPp = (numbers (restoreReplicas t).used i s.view).length
      rw [hused]
      rcases hlast0 i x hi0 hx with h1 | h1
      · exact h1
      · rw [h1]; exact (hcnt i hi0).symm
    · replace hx : (restoreReplicas t).insts.get? i = some x := hx
      rw [hfill] at hx
      simp only [hnn]
      apply Classical.byContradiction
      intro hlt
      rw [if_neg hlt] at hx; cases hx
    · replace hlt : i < (restoreReplicas t).n := hlt
      rw [hnn] at hlt
      exact ⟨_, by show (restoreReplicas t).insts.get? i = _; rw [hfill, if_pos hlt]⟩
    · left
      refine ⟨?_, rfl⟩
      show (numbers (restoreReplicas t).used i s.view).length = 0
      rw [hused]; exact hcnt i hi0
  | some l =>
    simp only
    obtain ⟨hk1, hk2⟩ := h.keys l hst
    obtain ⟨d', h1, h2⟩ := lp_loop l { restoreReplicas t with prevView := some 0, view := s.view } false hk1
    have hany : (false || l.any fun e => canRestore { restoreReplicas t with prevView := some 0, view := s.view } e.1) = true := by
      cases hl' : l with
      | nil => exact absurd hl' (h.nonempty l hst)
      | cons e l' =>
        have hm : l.get? e.1 = some e.2 := by rw [hl', Dict.get?_cons, if_pos rfl]
        obtain ⟨h3, h4⟩ := hk2 _ _ hm
        have : canRestore { restoreReplicas t with prevView := some 0, view := s.view } e.1 = true := by
          unfold canRestore Dict.has
          simp only
          rw [hfill, if_pos h4]
          simp [h3]
        simp [this]
    rw [hany] at h1
    simp only [hstore, hst] at h1
    simp only [h1]
    refine ⟨by show Consecutive (restoreReplicas t).used; rw [hused]; exact h.cons,
      by show ∀ e ∈ (restoreReplicas t).used, _; rw [hused]; exact h.later,
      by show ∀ e ∈ (restoreReplicas t).used, e.1 < (restoreReplicas t).n; rw [hused, hnn]; exact h.small,
      fun i x hi0 hx => ?_, fun i x hx => ?_, fun _ i hlt => ?_, fun l' hl' => ?_, fun _ i hi0 => ?_,
      fun l' hl' => ?_⟩
    · show x.lastPp = (numbers (restoreReplicas t).used i s.view).length
      rw [hused]
      replace hx : d'.get? i = some x := hx
      rw [h2 i] at hx
      unfold lpRestored at hx
      rw [if_neg hi0] at hx
      simp only at hx
      have hst' := h.stored hl i hi0
      rw [hst] at hst'
      simp only [Option.getD_some] at hst'
      rcases hst' with ⟨hc, hn'⟩ | ⟨hc, hn'⟩
      · rw [hn'] at hx
        rcases hlast0 i x hi0 hx with h5 | h5
        · exact h5
        · rw [h5]; exact hc.symm
      · rw [hn'] at hx
        simp only at hx
        cases hg : (restoreReplicas t).insts.get? i with
        | none => rw [hg] at hx; cases hx
        | some y =>
          rw [hg] at hx
          simp only [Option.map_some, Option.some.injEq] at hx
          subst hx
          show max y.lastPp (lpCnt s i) = lpCnt s i
          rcases hlast0 i y hi0 hg with h5 | h5 <;> rw [h5] <;> simp
    · replace hx : d'.get? i = some x := hx
      rw [h2 i] at hx
      show i < (restoreReplicas t).n
      rw [hnn]
      apply Classical.byContradiction
      intro hlt
      simp only at hx
      rw [hfill, if_neg hlt] at hx
      unfold lpRestored at hx
      split at hx
      · cases hx
      · split at hx <;> cases hx
    · replace hlt : i < (restoreReplicas t).n := hlt
      rw [hnn] at hlt
      show ∃ x, d'.get? i = some x
      rw [h2 i]
      simp only
      rw [hfill, if_pos hlt]
      unfold lpRestored
      split
      · exact ⟨_, rfl⟩
      · split <;> exact ⟨_, rfl⟩
    · replace hl' : some l = some l' := hl'
      simp only [Option.some.injEq] at hl'
      subst hl'
      refine ⟨hk1, fun i p hp => ?_⟩
      show i ≠ 0 ∧ i < (restoreReplicas t).n
      rw [hnn]; exact hk2 i p hp
    · show ((numbers (restoreReplicas t).used i s.view).length = 0 ∧ ((some l).getD []).get? i = none) ∨
        ((numbers (restoreReplicas t).used i s.view).length ≠ 0 ∧
          ((some l).getD []).get? i = some (s.view, (numbers (restoreReplicas t).used i s.view).length))
      rw [hused, ← hst]
      exact h.stored hl i hi0
    · replace hl' : some l = some l' := hl'
      exact h.nonempty l' (hst.trans hl')

/-- A catchup in another view. -/
theorem LpInv.erased {s : Node} {lost : Bool} (h : LpInv s lost false) (hv : s.view ≠ 0) :
    LpInv (catchupDone s (some s.view)) true false := by
  have hfill : ∀ j, (restoreReplicas s).insts.get? j = s.insts.get? j := by
    intro j
    rw [lp_filled]
    by_cases hj : j < s.n
    · obtain ⟨x, hx⟩ := h.all rfl j hj
      simp [hj, hx]
    · simp [hj]
  unfold catchupDone restoreNumbers takeView
  have hview : (restoreReplicas s).view = s.view := rfl
  simp only [hview]
  rw [if_neg (by intro h'; exact hv (Option.some.inj h'))]
  refine ⟨h.cons, h.later, h.small, fun i x hi hx => h.last i x hi ((hfill i).symm.trans hx),
    fun i x hx => h.bound i x ((hfill i).symm.trans hx), fun _ i hi => ?_, fun l hl => (by cases hl),
    fun h' => (by cases h'), fun l hl => (by cases hl)⟩
  obtain ⟨x, hx⟩ := h.all rfl i hi
  exact ⟨x, (hfill i).trans hx⟩

/-- The view of the node never depends on anything but the events. -/
theorem lp_run (evs : List LastPp.Ev) : ∀ (s : Node) (lost gone : Bool), LpInv s lost gone → (s.view = 0 → lost = false) →
    Regular s.view lost gone evs → Consecutive (run s evs).used := by
  induction evs with
  | nil => intro s lost gone h _ _; exact h.cons
  | cons e es ih =>
    intro s lost gone h hl0 hr
    show Consecutive (run (LastPp.step s e) es).used
    cases e with
    | preprepare i =>
      have hv : (preprepare s i).view = s.view := by
        unfold LastPp.preprepare use
        cases hg : s.insts.get? i with
        | none => rfl
        | some x => simp only; split <;> rfl
      refine ih _ lost gone (h.preprepare i) ?_ ?_
      · show (preprepare s i).view = 0 → _
        rw [hv]; exact hl0
      · show Regular (preprepare s i).view lost gone es
        rw [hv]; exact hr
    | remove i =>
      have hv : (LastPp.step s (.remove i)).view = s.view := by
        unfold LastPp.step
        simp only
        split <;> rfl
      refine ih _ lost true (h.remove i) ?_ ?_
      · rw [hv]; exact hl0
      · rw [hv]; exact hr
    | viewChange v =>
      unfold Regular at hr
      by_cases hv : v ≤ s.view
      · rw [if_pos hv] at hr
        have : LastPp.step s (.viewChange v) = s := by
          show LastPp.viewChange s v = s
          unfold LastPp.viewChange; rw [if_pos hv]
        rw [this]
        exact ih s lost gone h hl0 hr
      · rw [if_neg hv] at hr
        have hv' : (LastPp.viewChange s v).view = v := by
          unfold LastPp.viewChange; rw [if_neg hv]
        refine ih _ false false (h.viewChange hv) (fun _ => rfl) ?_
        show Regular (LastPp.viewChange s v).view false false es
        rw [hv']; exact hr
    | catchup a =>
      obtain ⟨ha, hr⟩ := hr
      subst ha
      have hv' : (catchupDone s (some s.view)).view = s.view := by
        unfold catchupDone restoreNumbers takeView
        simp only
        split
        · unfold tryRestore
          cases hst : (restoreReplicas s).store with
          | none => rfl
          | some l =>
            have hk := (h.keys l hst).1
            obtain ⟨d', h1, _⟩ := lp_loop l { restoreReplicas s with prevView := some (restoreReplicas s).view, view := s.view } false hk
            simp only [hst] at h1 ⊢
            rw [h1]
            cases (false || l.any _) <;> rfl
        · rfl
      rcases hr with ⟨hz, hr⟩ | ⟨hz, hg, hr⟩
      · have hl := hl0 hz
        refine ih _ false false (h.restored hl rfl rfl rfl (fun i x hx => ⟨h.bound i x hx, fun hi => Or.inl (h.last i x hi hx)⟩) hz)
          (fun _ => rfl) ?_
        show Regular (catchupDone s (some s.view)).view false false es
        rw [hv']; rw [hl] at hr; exact hr
      · subst hg
        refine ih _ true false (h.erased hz) ?_ ?_
        · intro h0
          exact absurd (hv'.symm.trans h0) hz
        · show Regular (catchupDone s (some s.view)).view true false es
          rw [hv']; exact hr
    | restart a =>
      obtain ⟨ha, hl, hr⟩ := hr
      subst ha
      have hinv : LpInv (catchupDone (restart s) (some s.view)) false false :=
        h.restored (t := restart s) hl rfl rfl rfl (fun i x hx => by
          replace hx : (LastPp.init s.n).insts.get? i = some x := hx
          rw [lp_init] at hx
          by_cases hi : i < s.n
          · rw [if_pos hi] at hx
            simp only [Option.some.injEq] at hx
            subst hx
            exact ⟨hi, fun _ => Or.inr rfl⟩
          · rw [if_neg hi] at hx; cases hx) rfl
      have hv' : (catchupDone (restart s) (some s.view)).view = s.view := by
        unfold catchupDone restoreNumbers takeView
        simp only
        split
        · unfold tryRestore
          cases hst : s.store with
          | none =>
            have : (restoreReplicas (restart s)).store = none := hst
            simp only [this]; rfl
          | some l =>
            have hk := (h.keys l hst).1
            have : (restoreReplicas (restart s)).store = some l := hst
            obtain ⟨d', h1, _⟩ := lp_loop l { restoreReplicas (restart s) with prevView := some (restoreReplicas (restart s)).view, view := s.view } false hk
            simp only [this] at h1 ⊢
            rw [h1]
            cases (false || l.any _) <;> rfl
        · rfl
      refine ih _ false false hinv (fun _ => rfl) ?_
      show Regular (catchupDone (restart s) (some s.view)).view false false es
      rw [hv']; exact hr

theorem lp_init_inv (n : Nat) : LpInv (LastPp.init n) false false := by
  refine ⟨fun i v _ => rfl, fun e he => (by cases he), fun e he => (by cases he), fun i x _ hx => ?_, fun i x hx => ?_,
    fun _ i hi => ?_, fun l hl => (by cases hl), fun _ i _ => Or.inl ⟨rfl, rfl⟩, fun l hl => (by cases hl)⟩
  · rw [lp_init] at hx
    by_cases hi : i < n
    · rw [if_pos hi] at hx
      simp only [Option.some.injEq] at hx
      subst hx; rfl
    · rw [if_neg hi] at hx; cases hx
  · rw [lp_init] at hx
    apply Classical.byContradiction
    intro hlt
    rw [if_neg (show ¬ i < n from hlt)] at hx; cases hx
  · exact ⟨_, by rw [lp_init, if_pos (show i < n from hi)]⟩

/-- **C79 (part).** A backup instance numbers its batches 1, 2, 3 and so on in each view, whatever
starts, catchups, removals of instances and view changes there are, provided that the audit ledger
knows the view, and that there is no start after a catchup of the running node in a view other than 0.
Without these conditions it is false: see the theorems below. -/
theorem backup_numbers_partial (n : Nat) (evs : List LastPp.Ev) (h : Regular 0 false false evs) :
    Consecutive (run (LastPp.init n) evs).used :=
  lp_run evs _ false false (lp_init_inv n) (fun _ => rfl) h

/-- So no number is used twice. -/
theorem backup_numbers_once_partial (n : Nat) (evs : List LastPp.Ev) (h : Regular 0 false false evs) (i v : Nat) (hi : i ≠ 0) :
    (numbers (run (LastPp.init n) evs).used i v).Nodup := by
  rw [backup_numbers_partial n evs h i v hi]
  exact List.nodup_range'

/-- Not vacuous: starts, a removal, catchups and a change of the view. -/
def lpEvents : List LastPp.Ev :=
  [.preprepare 1, .preprepare 2, .preprepare 1, .restart (some 0), .preprepare 1, .remove 1, .catchup (some 0), .preprepare 1,
   .viewChange 3, .preprepare 1, .preprepare 1, .restart (some 3), .preprepare 1, .catchup (some 3), .preprepare 1, .preprepare 2]

example : Regular 0 false false lpEvents := by simp [lpEvents, Regular]
example : numbers (run (LastPp.init 3) lpEvents).used 1 0 = [1, 2, 3, 4] ∧
    numbers (run (LastPp.init 3) lpEvents).used 1 3 = [1, 2, 3, 4] ∧
    numbers (run (LastPp.init 3) lpEvents).used 2 3 = [1] := by decide +kernel

/-- A catchup of a running node in a view other than 0 forgets the numbers: after a start the
primary of a backup instance gives the same number again. -/
theorem number_reused_after_catchup : ∃ evs, evs = [Ev.viewChange 1, .preprepare 1, .catchup (some 1), .restart (some 1), .preprepare 1] ∧
    numbers (run (LastPp.init 2) evs).used 1 1 = [1, 1] := ⟨_, rfl, by decide +kernel⟩

/-- So does a start before anything is in the audit ledger. -/
theorem number_reused_without_audit : ∃ evs, evs = [Ev.preprepare 1, .restart none, .preprepare 1] ∧
    numbers (run (LastPp.init 2) evs).used 1 0 = [1, 1] := ⟨_, rfl, by decide +kernel⟩

/-- An instance that was removed and is made anew after a catchup in a view other than 0 starts
with 1 again. -/
theorem number_reused_after_removal : ∃ evs, evs = [Ev.viewChange 1, .preprepare 1, .remove 1, .catchup (some 1), .preprepare 1] ∧
    numbers (run (LastPp.init 2) evs).used 1 1 = [1, 1] := ⟨_, rfl, by decide +kernel⟩

/-- When the view changed while the node was down, the stored numbers are of another view, and the
primary of a backup instance goes on from them: the others wait for number 1. -/
theorem numbers_of_other_view : ∃ evs, evs = [Ev.preprepare 1, .preprepare 1, .restart (some 1), .preprepare 1] ∧
    numbers (run (LastPp.init 2) evs).used 1 1 = [3] := ⟨_, rfl, by decide +kernel⟩

end Verif.Props
