import Verif.Model.Catchup
import Verif.Spec.Catchup
import Verif.Props.Merkle
/-!
# Proofs about the catchup reply service
-/
namespace Verif.Catchup
open Verif.Merkle

section
variable {τ : Type} (E : Env τ)

/-! ## Numbers -/

theorem consecutive_spec : ∀ (l : List (Int × τ)) (a : Int × τ), consecutive (a :: l) = true →
    (∀ n : Int, n ∈ (a :: l).map Prod.fst ↔ a.1 ≤ n ∧ n ≤ a.1 + l.length) ∧
    (a :: l).Pairwise (fun x y => x.1 < y.1)
  | [], a, _ => by
    constructor
    · intro n; simp; omega
    · simp
  | b :: l, a, h => by
    simp only [consecutive, Bool.and_eq_true, beq_iff_eq] at h
    obtain ⟨h1, h2⟩ := h
    obtain ⟨i1, i2⟩ := consecutive_spec l b h2
    have i1' : ∀ n : Int, n ∈ (b :: l).map Prod.fst ↔ a.1 + 1 ≤ n ∧ n ≤ a.1 + 1 + l.length := by
      intro n; rw [i1 n, h1]
    constructor
    · intro n
      rw [List.map_cons, List.mem_cons, i1' n]
      simp only [List.length_cons]; omega
    · rw [List.pairwise_cons]
      refine ⟨fun x hx => ?_, i2⟩
      have := (i1' x.1).1 (List.mem_map_of_mem hx)
      omega

theorem le_trans' (a b c : Int × τ) (h1 : le a b = true) (h2 : le b c = true) : le a c = true := by
  simp only [le, decide_eq_true_eq] at *; omega

theorem le_total' (a b : Int × τ) : (le a b || le b a) = true := by
  simp only [le, Bool.or_eq_true, decide_eq_true_eq]; omega

/-- What an accepted reply looks like once sorted. -/
theorem interesting_spec (size : Nat) (ns : List (Int × τ)) (h : interesting size ns ≠ []) :
    (interesting size ns).Perm ns ∧ (interesting size ns).Pairwise (fun x y => x.1 < y.1) ∧
    ∃ a b : Int, ∀ n, n ∈ ns.map Prod.fst ↔ a ≤ n ∧ n ≤ b := by
  unfold interesting at h ⊢
  simp only at h ⊢
  split at h
  · exact absurd rfl h
  · rename_i h1
    split at h
    · exact absurd rfl h
    · rename_i h2
      rw [if_neg h1, if_neg h2]
      have hp := List.mergeSort_perm ns (le (τ := τ))
      cases hm : ns.mergeSort le with
      | nil => rw [hm] at h; exact absurd rfl h
      | cons a l =>
        rw [hm] at hp h2
        have := consecutive_spec l a (by simpa using h2)
        refine ⟨hp, this.2, a.1, a.1 + l.length, fun n => ?_⟩
        rw [← this.1 n]
        exact ⟨fun x => (hp.map Prod.fst).mem_iff.2 x, fun x => (hp.map Prod.fst).mem_iff.1 x⟩

/-- Every key of the reply is the way Python writes an integer. -/
def Rep.Canonical (r : Rep τ) : Prop := ∀ e ∈ r.txns, ∃ n, e.1 = E.toStr n

/-- The numbers under which the reply has a transaction are an interval. -/
def Rep.Interval (r : Rep τ) : Prop := ∃ a b : Int, ∀ n, r.holds E n = true ↔ a ≤ n ∧ n ≤ b

variable {E}

theorem numbered_mem : ∀ {d : Dict (List Char) τ} {ns : List (Int × τ)}, numbered E d = some ns →
    ∀ n t, (n, t) ∈ ns ↔ ∃ k, (k, t) ∈ d ∧ E.toInt k = some n
  | [], ns, h, n, t => by
    simp only [numbered, List.mapM_nil, Option.pure_def, Option.some.injEq] at h
    subst h; simp
  | e :: d, ns, h, n, t => by
    simp only [numbered, List.mapM_cons, Option.pure_def, Option.bind_eq_bind] at h
    cases h1 : E.toInt e.1 with
    | none => rw [h1] at h; simp at h
    | some m =>
      rw [h1] at h
      simp only [Option.map_some, Option.bind_some] at h
      cases h2 : numbered E d with
      | none => rw [numbered] at h2; rw [h2] at h; simp at h
      | some ms =>
        have h3 := h2
        rw [numbered] at h2; rw [h2] at h
        simp only [Option.bind_some, Option.some.injEq] at h
        subst h
        have ih := numbered_mem h3 n t
        rw [List.mem_cons, ih]
        constructor
        · rintro (heq | ⟨k, hk, hk'⟩)
          · injection heq with e1 e2
            exact ⟨e.1, by rw [e2]; exact List.mem_cons_self, by rw [h1, e1]⟩
          · exact ⟨k, List.mem_cons_of_mem _ hk, hk'⟩
        · rintro ⟨k, hk, hk'⟩
          rcases List.mem_cons.1 hk with heq | hk
          · left
            have e1 : k = e.1 := congrArg Prod.fst heq
            have e2 : t = e.2 := congrArg Prod.snd heq
            rw [e1, h1] at hk'
            injection hk' with e3
            rw [e2, e3]
          · exact .inr ⟨k, hk, hk'⟩

theorem holds_iff (r : Rep τ) (n : Int) : r.holds E n = true ↔ ∃ t, (E.toStr n, t) ∈ r.txns := by
  unfold Rep.holds
  rw [Dict.has_iff, ← Dict.mem_keys]
  unfold Dict.keys
  constructor
  · intro h
    obtain ⟨e, he, h⟩ := List.mem_map.1 h
    exact ⟨e.2, by rw [← h]; exact he⟩
  · rintro ⟨t, h⟩
    exact List.mem_map_of_mem (f := Prod.fst) h

theorem holds_numbered (hE : E.Sound) {r : Rep τ} (hc : r.Canonical E) {ns : List (Int × τ)}
    (h : numbered E r.txns = some ns) (n : Int) : r.holds E n = true ↔ n ∈ ns.map Prod.fst := by
  rw [holds_iff]
  constructor
  · rintro ⟨t, ht⟩
    exact List.mem_map.2 ⟨(n, t), (numbered_mem h n t).2 ⟨_, ht, hE n⟩, rfl⟩
  · intro hn
    obtain ⟨⟨m, t⟩, hm, he⟩ := List.mem_map.1 hn
    simp only at he; subst he
    obtain ⟨k, hk, hk'⟩ := (numbered_mem h m t).1 hm
    obtain ⟨j, hj⟩ := hc _ hk
    simp only at hj
    rw [hj, hE] at hk'
    injection hk' with hk'
    subst hk'
    exact ⟨t, by rw [← hj]; exact hk⟩

theorem interval_of_interesting (hE : E.Sound) {r : Rep τ} (hc : r.Canonical E) {ns : List (Int × τ)}
    (h : numbered E r.txns = some ns) (size : Nat) (hi : interesting size ns ≠ []) : r.Interval E := by
  obtain ⟨_, _, a, b, hab⟩ := interesting_spec size ns hi
  exact ⟨a, b, fun n => by rw [holds_numbered hE hc h, hab]⟩

/-! ## Sorted lists -/

/-- Strictly increasing sequence numbers. -/
abbrev Sorted (l : List (Int × τ)) : Prop := l.Pairwise (fun x y => x.1 < y.1)

theorem merge_sorted {l₁ l₂ : List (Int × τ)} (h1 : Sorted l₁) (h2 : Sorted l₂) :
    Sorted (mergeTxns l₁ l₂) := by
  have hle : (mergeTxns l₁ l₂).Pairwise (fun x y => le x y = true) := by
    unfold mergeTxns
    apply List.pairwise_merge (le := le) le_trans' le_total'
    · exact h1.imp (fun h => by simp only [le, decide_eq_true_eq]; omega)
    · exact (h2.sublist List.filter_sublist).imp (fun h => by simp only [le, decide_eq_true_eq]; omega)
  have hnd : ((mergeTxns l₁ l₂).map Prod.fst).Nodup := by
    have hp : ((mergeTxns l₁ l₂).map Prod.fst).Perm
        ((l₁ ++ l₂.filter (fun e => ¬ l₁.any (fun x => x.1 == e.1))).map Prod.fst) :=
      (List.merge_perm_append (le := le)).map _
    rw [hp.nodup_iff, List.map_append, List.nodup_append]
    refine ⟨?_, ?_, ?_⟩
    · exact List.pairwise_map.2 (h1.imp (fun h => by omega))
    · exact List.pairwise_map.2 ((h2.sublist List.filter_sublist).imp (fun h => by omega))
    · intro a ha b hb hab
      subst hab
      obtain ⟨x, hx, rfl⟩ := List.mem_map.1 ha
      obtain ⟨y, hy, hyx⟩ := List.mem_map.1 hb
      have := (List.mem_filter.1 hy).2
      simp only [Bool.not_eq_true, decide_eq_true_eq, List.any_eq_false, beq_iff_eq] at this
      exact this x hx hyx.symm
  have hne := List.pairwise_map.1 hnd
  exact (hle.and hne).imp (fun h => by
    obtain ⟨h1, h2⟩ := h
    simp only [le, decide_eq_true_eq] at h1
    omega)

theorem mem_mergeTxns {l₁ l₂ : List (Int × τ)} {e : Int × τ} :
    e ∈ mergeTxns l₁ l₂ ↔ e ∈ l₁ ∨ (e ∈ l₂ ∧ ∀ x ∈ l₁, x.1 ≠ e.1) := by
  unfold mergeTxns
  rw [List.mem_merge, List.mem_filter]
  simp [List.any_eq_false]

theorem filter_le_prefix (b : Int) : ∀ (l : List (Int × τ)), Sorted l →
    l.filter (fun e => decide (e.1 ≤ b)) <+: l
  | [], _ => by simp
  | e :: l, h => by
    have h := List.pairwise_cons.1 h
    by_cases he : e.1 ≤ b
    · rw [List.filter_cons_of_pos (by simpa using he)]
      exact (List.prefix_cons_inj e).2 (filter_le_prefix b l h.2)
    · rw [List.filter_cons_of_neg (by simpa using he)]
      have : l.filter (fun e => decide (e.1 ≤ b)) = [] := by
        rw [List.filter_eq_nil_iff]
        intro x hx
        have := h.1 x hx
        simp; omega
      rw [this]; exact List.nil_prefix

/-- The transactions checked are the first ones of the list. -/
theorem toCheck_prefix {rep : Rep τ} (hi : rep.Interval E) {n : Int} {x : τ} {rest : List (Int × τ)}
    (hs : Sorted ((n, x) :: rest)) (hh : rep.holds E n = true) :
    toCheck E rep ((n, x) :: rest) = ((n, x) :: rest).take (toCheck E rep ((n, x) :: rest)).length := by
  obtain ⟨a, b, hab⟩ := hi
  have ha : a ≤ n := ((hab n).1 hh).1
  have hge : ∀ e ∈ ((n, x) :: rest), n ≤ e.1 := by
    intro e he
    rcases List.mem_cons.1 he with he | he
    · subst he; simp
    · have := (List.pairwise_cons.1 hs).1 e he
      simp only at this; omega
  have : toCheck E rep ((n, x) :: rest) <+: ((n, x) :: rest) := by
    unfold toCheck
    have hs' : Sorted (((n, x) :: rest).take rep.txns.length) := hs.sublist (List.take_sublist _ _)
    have e : (((n, x) :: rest).take rep.txns.length).filter (fun e => rep.holds E e.1)
        = (((n, x) :: rest).take rep.txns.length).filter (fun e => decide (e.1 ≤ b)) := by
      apply List.filter_congr
      intro e he
      have h1 := hge e (List.mem_of_mem_take he)
      rw [Bool.eq_iff_iff, hab, decide_eq_true_eq]
      omega
    rw [e]
    exact (filter_le_prefix b _ hs').trans (List.take_prefix _ _)
  exact List.prefix_iff_eq_take.1 this

theorem toCheck_pos {rep : Rep τ} {n : Int} {x : τ} {rest : List (Int × τ)}
    (hh : rep.holds E n = true) : 0 < (toCheck E rep ((n, x) :: rest)).length := by
  have hl : rep.txns ≠ [] := by
    intro h
    unfold Rep.holds at hh
    rw [h] at hh
    simp [Dict.has] at hh
  unfold toCheck
  cases hr : rep.txns with
  | nil => exact absurd hr hl
  | cons e l =>
    rw [List.length_cons, List.take_succ_cons, List.filter_cons_of_pos (by simpa using hh)]
    simp

theorem findReply_some {replies : Dict Name (List (Rep τ))} {n : Int} {node : Name} {rep : Rep τ}
    (h : findReply E replies n = some (node, rep)) :
    rep.holds E n = true ∧ ∃ reps, (node, reps) ∈ replies ∧ reps.find? (fun r => r.holds E n) = some rep := by
  unfold findReply at h
  obtain ⟨e, he, h⟩ := List.exists_of_findSome?_eq_some h
  rw [Option.map_eq_some_iff] at h
  obtain ⟨r, hr, h⟩ := h
  injection h with h1 h2
  subst h1; subst h2
  exact ⟨by simpa using List.find?_some hr, e.2, he, hr⟩

theorem mapM_some_length {β γ : Type} {f : β → Option γ} : ∀ {l : List β} {r : List γ},
    l.mapM f = some r → r.length = l.length
  | [], r, h => by simp at h; subst h; rfl
  | a :: l, r, h => by
    simp only [List.mapM_cons, Option.pure_def, Option.bind_eq_bind] at h
    cases h1 : f a with
    | none => rw [h1] at h; simp at h
    | some b =>
      cases h2 : l.mapM f with
      | none => rw [h1, h2] at h; simp at h
      | some bs =>
        rw [h1, h2] at h
        simp at h
        subst h
        simp [mapM_some_length h2]

/-! ## Safety -/

/-- Every reply kept has an interval of numbers. -/
def Kept (s : State τ) : Prop := ∀ e ∈ s.replies, ∀ r ∈ e.2, r.Interval E

theorem removeReply_kept {replies : Dict Name (List (Rep τ))} (node : Name) (n : Int)
    (h : ∀ e ∈ replies, ∀ r ∈ e.2, r.Interval E) :
    ∀ e ∈ removeReply E replies node n, ∀ r ∈ e.2, r.Interval E := by
  unfold removeReply
  split
  · exact h
  · rename_i reps hg
    intro e he r hr
    rcases Dict.mem_set he with he | he
    · exact h e he r hr
    · subst he
      exact h _ (Dict.mem_of_get? hg) r (List.mem_of_mem_eraseP hr)

theorem collision_mono' {H : Bytes → Bytes} {S T S' T' : List Bytes} (h : Spec.Collision H S T)
    (h1 : ∀ x ∈ S, x ∈ S') (h2 : ∀ x ∈ T, x ∈ T') : Spec.Collision H S' T' := by
  obtain ⟨x, hx, y, hy, h⟩ := h
  exact ⟨x, h1 x hx, y, h2 y hy, h⟩

/-- The ledger is part of the agreed log, unless strings hashed show a collision. -/
def Good (E : Env τ) (D : List Bytes) (s : State τ) : Prop :=
  s.ledger.map E.ser <+: D ∨ Spec.Collision E.H s.hashed (s.hashed ++ Spec.logInputs E.H D)

theorem verified_sound {d : Nat} (hd : ∀ x, (E.H x).length = d) {t : Till} {D : List Bytes}
    (hD : D.length = t.finalSize) (hroot : Spec.mth E.H D = t.finalHash) {leaves : List Bytes}
    {proof : List Bytes} (h : verified E t leaves proof = true) :
    leaves <+: D ∨ Spec.Collision E.H (hashedBy E t leaves proof)
      (hashedBy E t leaves proof ++ Spec.logInputs E.H D) := by
  unfold verified at h
  split at h
  · rename_i b hv
    subst h
    rw [← hD, ← hroot] at hv
    rcases Props.C05_consistency_sound E.H d hd leaves D proof hv with h | h
    · exact .inl h
    · right
      apply collision_mono' h
      · intro x hx
        unfold hashedBy
        rw [← hD]; exact hx
      · intro x hx
        simp only [List.mem_append] at hx
        unfold hashedBy
        simp only [List.mem_append]
        rcases hx with (hx | hx) | hx
        · exact .inl (.inr hx)
        · right
          unfold Spec.logInputs
          rw [List.mem_flatMap]
          exact ⟨D.length, by simp, by simpa using hx⟩
        · right
          unfold Spec.logInputs
          rw [List.mem_flatMap]
          by_cases hl : leaves.length ≤ D.length
          · exact ⟨leaves.length, by simp; omega, hx⟩
          · refine ⟨D.length, by simp, ?_⟩
            rw [List.take_of_length_le (by omega)] at hx
            simpa using hx
  · cases h

theorem addTxns_ledger {D : List Bytes} (hfill : ∀ n t, E.ser t ∈ D → E.fill n t = t) :
    ∀ (txns : List τ) (l : List τ), (∀ t ∈ txns, E.ser t ∈ D) →
      txns.foldl (fun l t => l ++ [E.fill (l.length + 1) t]) l = l ++ txns
  | [], l, _ => by simp
  | t :: txns, l, h => by
    rw [List.foldl_cons, hfill _ t (h t List.mem_cons_self),
      addTxns_ledger hfill txns _ (fun t ht => h t (List.mem_cons_of_mem _ ht))]
    simp

theorem processLoop_safe {d : Nat} (hd : ∀ x, (E.H x).length = d) {t : Till} {D : List Bytes}
    (hD : D.length = t.finalSize) (hroot : Spec.mth E.H D = t.finalHash)
    (hfill : ∀ n x, E.ser x ∈ D → E.fill n x = x) :
    ∀ (m : Nat) (txns : List (Int × τ)) (s : State τ) (done : Nat), txns.length = m → Sorted txns →
      Kept (E := E) s →
      Kept (E := E) (processLoop E s t txns done).1 ∧
      (∃ x, (processLoop E s t txns done).1.hashed = s.hashed ++ x) ∧
      ((processLoop E s t txns done).1.ledger = s.ledger ∨ Good E D (processLoop E s t txns done).1) := by
  intro m
  induction m using Nat.strongRecOn with
  | ind m ih =>
    intro txns s done hm hs hk
    rw [processLoop.eq_def]
    split
    · exact ⟨hk, ⟨[], by simp⟩, .inl rfl⟩
    · rename_i n x rest
      split
      · exact ⟨hk, ⟨[], by simp⟩, .inl rfl⟩
      · split
        · exact ⟨hk, ⟨[], by simp⟩, .inl rfl⟩
        · rename_i node rep hf
          obtain ⟨hh, reps, hm1, hf2⟩ := findReply_some hf
          have hri : rep.Interval E := hk _ hm1 _ (List.mem_of_find?_eq_some hf2)
          simp only
          split
          · exact ⟨hk, ⟨[], by simp⟩, .inl rfl⟩
          · rename_i checked hc
            have hlen := mapM_some_length hc
            have hpos := toCheck_pos (x := x) (rest := rest) hh
            have htk : List.mapM (fun e => E.transform e.2) (((n, x) :: rest).take checked.length) = some checked := by
              rw [hlen, ← toCheck_prefix hri hs hh, hc]
            split
            · rename_i hv
              rw [htk]
              simp only [addTxns]
              rw [if_neg (by omega)]
              have hsound := verified_sound hd hD hroot hv
              have ih1 := ih (((n, x) :: rest).drop checked.length).length
                (by rw [List.length_drop, ← hm]; simp only [List.length_cons]; omega)
                (((n, x) :: rest).drop checked.length)
                { s with
                    ledger := checked.foldl (fun l t => l ++ [E.fill (l.length + 1) t]) s.ledger
                    replies := removeReply E s.replies node n
                    hashed := s.hashed ++ hashedBy E t (tempLeaves E s checked) rep.proof }
                (done + checked.length) rfl (hs.sublist (List.drop_sublist _ _))
                (removeReply_kept node n hk)
              refine ⟨ih1.1, ?_, ?_⟩
              · obtain ⟨y, hy⟩ := ih1.2.1
                exact ⟨hashedBy E t (tempLeaves E s checked) rep.proof ++ y, by rw [← List.append_assoc]; exact hy⟩
              · right
                rcases ih1.2.2 with he | he
                · rcases hsound with hp | hcol
                  · left
                    rw [he]
                    have : ∀ t ∈ checked, E.ser t ∈ D := by
                      intro t ht
                      exact hp.subset (by
                        unfold tempLeaves
                        exact List.mem_map_of_mem (List.mem_append_right _ ht))
                    rw [addTxns_ledger hfill _ _ this]
                    exact hp
                  · right
                    obtain ⟨y, hy⟩ := ih1.2.1
                    rw [hy]
                    apply collision_mono' hcol
                    · intro z hz; simp only [List.mem_append]; exact .inl (.inr hz)
                    · intro z hz
                      simp only [List.mem_append] at hz ⊢
                      rcases hz with hz | hz
                      · exact .inl (.inl (.inr hz))
                      · exact .inr hz
                · exact he
            · refine ⟨?_, ⟨_, rfl⟩, .inl rfl⟩
              exact removeReply_kept node n hk

/-- The replies kept are intervals and the pending transactions are sorted. -/
structure SInv (E : Env τ) (s : State τ) : Prop where
  kept : Kept (E := E) s
  sorted : Sorted s.pending

theorem SInv.finish {s : State τ} : SInv E s.finish := by
  constructor
  · intro e he; simp [State.finish] at he
  · simp [State.finish]

theorem sorted_drop_le {l : List (Int × τ)} (h : Sorted l) (k : Nat) : Sorted (l.drop k) :=
  h.sublist (List.drop_sublist _ _)

theorem processLoop_kept : ∀ (m : Nat) (t : Till) (txns : List (Int × τ)) (s : State τ) (done : Nat),
    txns.length = m → Kept (E := E) s →
      Kept (E := E) (processLoop E s t txns done).1 ∧
      (processLoop E s t txns done).1.pending = s.pending ∧
      (processLoop E s t txns done).1.working = s.working ∧
      (processLoop E s t txns done).1.till = s.till ∧
      (processLoop E s t txns done).1.completed = s.completed ∧
      ∃ x, (processLoop E s t txns done).1.hashed = s.hashed ++ x := by
  intro m
  induction m using Nat.strongRecOn with
  | ind m ih =>
    intro t txns s done hm hk
    rw [processLoop.eq_def]
    split
    · exact ⟨hk, rfl, rfl, rfl, rfl, [], by simp⟩
    · rename_i n x rest
      split
      · exact ⟨hk, rfl, rfl, rfl, rfl, [], by simp⟩
      · split
        · exact ⟨hk, rfl, rfl, rfl, rfl, [], by simp⟩
        · rename_i node rep hf
          simp only
          split
          · exact ⟨hk, rfl, rfl, rfl, rfl, [], by simp⟩
          · rename_i checked hc
            split
            · split
              · exact ⟨hk, rfl, rfl, rfl, rfl, _, rfl⟩
              · rename_i added ha
                split
                · exact ⟨removeReply_kept node n hk, rfl, rfl, rfl, rfl, _, rfl⟩
                · rename_i hne
                  have ih1 := ih (((n, x) :: rest).drop checked.length).length
                    (by rw [List.length_drop, ← hm]; simp only [List.length_cons]; omega) t
                    (((n, x) :: rest).drop checked.length)
                    ({ addTxns E { s with hashed := s.hashed ++ hashedBy E t (tempLeaves E s checked) rep.proof } added with
                        replies := removeReply E s.replies node n })
                    (done + checked.length) rfl (removeReply_kept node n hk)
                  obtain ⟨i1, i2, i3, i4, i5, y, i6⟩ := ih1
                  exact ⟨i1, i2, i3, i4, i5, hashedBy E t (tempLeaves E s checked) rep.proof ++ y,
                    by rw [← List.append_assoc]; exact i6⟩
            · exact ⟨removeReply_kept node n hk, rfl, rfl, rfl, rfl, _, rfl⟩

/-- The state in which the loop of a reply from `frm` starts. -/
def State.noted (s : State τ) (r : Rep τ) (frm : Name) : State τ :=
  { s with waiting := s.waiting.filter (· ≠ frm)
           replies := s.replies.set frm ((s.replies.get? frm).getD [] ++ [r]) }

/-- Everything a reply can do. -/
theorem processRep_cases (s : State τ) (r : Rep τ) (frm : Name) :
    (∃ w, (s.processRep E r frm).1 = { s with waiting := w }) ∨
    ∃ t ns M done s' o, s.working = true ∧ s.till = some t ∧ numbered E r.txns = some ns ∧
      interesting s.ledger.length ns ≠ [] ∧ M = mergeTxns s.pending (interesting s.ledger.length ns) ∧
      processLoop E (s.noted r frm) t (M.drop done) done = (s', o) ∧
      ((∃ e, o = .error e ∧ (s.processRep E r frm).1 = s') ∨
       (∃ n, o = .ok n ∧ s'.ledger.length ≥ t.finalSize ∧
          (s.processRep E r frm).1 = ({ s' with pending := M.drop n } : State τ).finish) ∨
       (∃ n, o = .ok n ∧ s'.ledger.length < t.finalSize ∧
          (s.processRep E r frm).1 = { s' with pending := M.drop n })) := by
  cases hp : s.processRep E r frm with
  | mk s1 err =>
  unfold State.processRep at hp
  split at hp
  · rename_i t hw ht
    simp only at hp
    cases hn : numbered E r.txns with
    | none => rw [hn] at hp; injection hp with h1 h2; exact .inl ⟨_, h1.symm⟩
    | some ns =>
      rw [hn] at hp
      simp only at hp
      by_cases hne : (interesting s.ledger.length ns).isEmpty = true
      · rw [if_pos hne] at hp; injection hp with h1 h2; exact .inl ⟨_, h1.symm⟩
      · rw [if_neg hne] at hp
        right
        rw [processTxns] at hp
        cases hq : processLoop E (s.noted r frm) t
            ((mergeTxns s.pending (interesting s.ledger.length ns)).drop
              ((mergeTxns s.pending (interesting s.ledger.length ns)).filter
                (fun e => decide (e.1 ≤ (s.ledger.length : Int)))).length)
            ((mergeTxns s.pending (interesting s.ledger.length ns)).filter
                (fun e => decide (e.1 ≤ (s.ledger.length : Int)))).length with
        | mk s' o =>
          refine ⟨t, ns, _, _, s', o, hw, ht, rfl, by simpa using hne, rfl, hq, ?_⟩
          simp only [State.noted] at hq
          rw [hq] at hp
          cases o with
          | error e => injection hp with h1 h2; exact .inl ⟨e, rfl, h1.symm⟩
          | ok n =>
            simp only at hp
            injection hp with h1 h2
            right
            by_cases hf : s'.ledger.length ≥ t.finalSize
            · rw [if_pos hf] at h1
              exact .inl ⟨n, rfl, hf, h1.symm⟩
            · rw [if_neg hf] at h1
              exact .inr ⟨n, rfl, by omega, h1.symm⟩
  · injection hp with h1 h2; exact .inl ⟨s.waiting, h1.symm⟩

/-- An event whose reply, if it is one, has only canonical keys. -/
def Event.Canonical (E : Env τ) : Event τ → Prop
  | .start _ => True
  | .rep r _ => r.Canonical E

theorem kept_add {s : State τ} (hk : Kept (E := E) s) {r : Rep τ} (hr : r.Interval E) (frm : Name) :
    Kept (E := E) { s with replies := s.replies.set frm ((s.replies.get? frm).getD [] ++ [r]) } := by
  intro e he r' hr'
  rcases Dict.mem_set he with he | he
  · exact hk e he r' hr'
  · subst he
    rcases List.mem_append.1 hr' with h | h
    · cases hg : s.replies.get? frm with
      | none => rw [hg] at h; simp at h
      | some reps =>
        rw [hg] at h
        exact hk _ (Dict.mem_of_get? hg) r' (by simpa using h)
    · rw [List.mem_singleton] at h
      rw [h]; exact hr

theorem SInv.step (hE : E.Sound) {s : State τ} (h : SInv E s) {e : Event τ} (hc : e.Canonical E) :
    SInv E (s.step E e) := by
  cases e with
  | start till =>
    cases till with
    | none => exact SInv.finish
    | some t =>
      simp only [State.step, State.start]
      split
      · exact SInv.finish
      · exact ⟨h.kept, h.sorted⟩
  | rep r frm =>
    simp only [State.step, State.processRep]
    split
    · rename_i t hw ht
      split
      · exact ⟨h.kept, h.sorted⟩
      · rename_i ns hn
        split
        · exact ⟨h.kept, h.sorted⟩
        · rename_i hne
          have hne' : interesting s.ledger.length ns ≠ [] := by simpa using hne
          obtain ⟨_, hso, _⟩ := interesting_spec _ _ hne'
          have hiv := interval_of_interesting hE hc hn _ hne'
          have hk := kept_add (s := { s with waiting := s.waiting.filter (· ≠ frm) }) h.kept hiv frm
          have hms := merge_sorted h.sorted hso
          have := processLoop_kept _ t ((mergeTxns s.pending (interesting s.ledger.length ns)).drop
            ((mergeTxns s.pending (interesting s.ledger.length ns)).filter
              (fun e => decide (e.1 ≤ (s.ledger.length : Int)))).length) _
            ((mergeTxns s.pending (interesting s.ledger.length ns)).filter
              (fun e => decide (e.1 ≤ (s.ledger.length : Int)))).length rfl hk
          split
          · rename_i s' e hp
            rw [processTxns] at hp
            rw [hp] at this
            exact ⟨this.1, by rw [this.2.1]; exact h.sorted⟩
          · rename_i s' done hp
            rw [processTxns] at hp
            rw [hp] at this
            simp only
            split
            · exact SInv.finish
            · exact ⟨this.1, sorted_drop_le hms _⟩
    · exact h

theorem SInv.run (hE : E.Sound) {s : State τ} (h : SInv E s) : ∀ (es : List (Event τ)),
    (∀ e ∈ es, e.Canonical E) → SInv E (s.run E es) := by
  intro es
  induction es generalizing s with
  | nil => intro _; exact h
  | cons e es ih =>
    intro hc
    exact ih (h.step hE (hc e List.mem_cons_self)) (fun e he => hc e (List.mem_cons_of_mem _ he))

end
end Verif.Catchup
