import Verif.Spec.Freshness
import Verif.Proofs.Count
/-!
# C54: freshness checks
-/
namespace Verif.Props
open Verif Verif.Freshness Verif.Spec.Freshness

theorem mem_insertBy (le : Nat × Int → Nat × Int → Bool) (x z : Nat × Int) (l : List (Nat × Int)) :
    z ∈ insertBy le x l ↔ z = x ∨ z ∈ l := by
  induction l with
  | nil => simp [insertBy]
  | cons y r ih =>
    unfold insertBy
    split
    · simp
    · simp only [List.mem_cons, ih]
      constructor
      · rintro (h | h | h)
        · exact .inr (.inl h)
        · exact .inl h
        · exact .inr (.inr h)
      · rintro (h | h | h)
        · exact .inr (.inl h)
        · exact .inl h
        · exact .inr (.inr h)

theorem mem_sortBy (le : Nat × Int → Nat × Int → Bool) (z : Nat × Int) (l : List (Nat × Int)) :
    z ∈ sortBy le l ↔ z ∈ l := by
  induction l with
  | nil => simp [sortBy]
  | cons x r ih => simp [sortBy, mem_insertBy, ih]

theorem pairwise_insertBy (le : Nat × Int → Nat × Int → Bool) (R : Nat × Int → Nat × Int → Prop)
    (h1 : ∀ a b, le a b = true → R a b) (h2 : ∀ a b, le a b = false → R b a)
    (ht : ∀ a b c, R a b → R b c → R a c) (x : Nat × Int) (l : List (Nat × Int)) (hl : l.Pairwise R) :
    (insertBy le x l).Pairwise R := by
  induction l with
  | nil => exact List.pairwise_singleton _ _
  | cons y r ih =>
    have hr := List.pairwise_cons.1 hl
    unfold insertBy
    split
    · next h =>
      refine List.pairwise_cons.2 ⟨?_, hl⟩
      intro z hz
      rcases List.mem_cons.1 hz with hz | hz
      · rw [hz]; exact h1 _ _ h
      · exact ht _ _ _ (h1 _ _ h) (hr.1 z hz)
    · next h =>
      refine List.pairwise_cons.2 ⟨?_, ih hr.2⟩
      intro z hz
      rcases (mem_insertBy le x z r).1 hz with hz | hz
      · rw [hz]; exact h2 _ _ (by simpa using h)
      · exact hr.1 z hz

theorem pairwise_sortBy (le : Nat × Int → Nat × Int → Bool) (R : Nat × Int → Nat × Int → Prop)
    (h1 : ∀ a b, le a b = true → R a b) (h2 : ∀ a b, le a b = false → R b a)
    (ht : ∀ a b c, R a b → R b c → R a c) (l : List (Nat × Int)) : (sortBy le l).Pairwise R := by
  induction l with
  | nil => exact List.Pairwise.nil
  | cons x r ih => exact pairwise_insertBy le R h1 h2 ht x _ ih

theorem perm_insertBy (le : Nat × Int → Nat × Int → Bool) (x : Nat × Int) (l : List (Nat × Int)) :
    List.Perm (insertBy le x l) (x :: l) := by
  induction l with
  | nil => exact List.Perm.refl _
  | cons y r ih =>
    unfold insertBy
    split
    · exact List.Perm.refl _
    · exact (List.Perm.cons y ih).trans (List.Perm.swap x y r)

theorem perm_sortBy (le : Nat × Int → Nat × Int → Bool) (l : List (Nat × Int)) : List.Perm (sortBy le l) l := by
  induction l with
  | nil => exact List.Perm.refl _
  | cons x r ih => exact (perm_insertBy le x _).trans (List.Perm.cons x ih)

/-- The recorded times are those of the history. -/
structure FreshOk (timeout : Int) (h : List Event) (c : Checker) : Prop where
  timeout : c.freshnessTimeout = timeout
  nodup : c.ledgerFreshness.keys.Nodup
  upd : ∀ lid, (c.ledgerFreshness.get? lid).map (·.lastUpdated) = lastUpdate lid h
  rep : ∀ lid, (c.ledgerFreshness.get? lid).map (·.lastMarkedAsOutdated) = lastReport lid h

theorem foldl_erase_get (ls : List Nat) (d : Dict Nat FreshnessState) (lid : Nat) :
    (ls.foldl Dict.erase d).get? lid = if lid ∈ ls then none else d.get? lid := by
  induction ls generalizing d with
  | nil => simp
  | cons x r ih =>
    rw [List.foldl_cons, ih, Dict.get?_erase]
    by_cases h1 : x = lid
    · subst h1; simp
    · have : lid ≠ x := fun e => h1 e.symm
      simp [h1, this]

theorem foldl_erase_nodup (ls : List Nat) (d : Dict Nat FreshnessState) (h : d.keys.Nodup) :
    (ls.foldl Dict.erase d).keys.Nodup := by
  induction ls generalizing d with
  | nil => exact h
  | cons x r ih => exact ih _ (Dict.nodup_keys_erase h x)

theorem mark_get (p : FreshnessState → Bool) (f : FreshnessState → FreshnessState) (d : Dict Nat FreshnessState) (lid : Nat) :
    Dict.get? (d.map (fun e => if p e.2 then (e.1, f e.2) else e)) lid =
      (Dict.get? d lid).map (fun s => if p s then f s else s) := by
  induction d with
  | nil => rfl
  | cons e d ih =>
    rw [List.map_cons, Dict.get?_cons, Dict.get?_cons, ih]
    cases hp : p e.2 <;> simp <;> split <;> simp [hp]

theorem mark_keys (p : FreshnessState → Bool) (f : FreshnessState → FreshnessState) (d : Dict Nat FreshnessState) :
    Dict.keys (d.map (fun e => if p e.2 then (e.1, f e.2) else e)) = Dict.keys d := by
  unfold Dict.keys
  rw [List.map_map]
  refine List.map_congr_left ?_
  intro e _
  cases hp : p e.2 <;> simp [hp]

theorem mem_check {c : Checker} (hn : c.ledgerFreshness.keys.Nodup) (ts : Int) (lid : Nat) (age : Int) :
    (lid, age) ∈ (c.checkFreshness ts).1 ↔
      ∃ s, c.ledgerFreshness.get? lid = some s ∧ isOutdated c.freshnessTimeout ts s = true ∧ age = ts - s.lastUpdated := by
  unfold Checker.checkFreshness
  simp only [mem_sortBy, List.mem_map, List.mem_filter]
  constructor
  · rintro ⟨e, ⟨he, ho⟩, heq⟩
    cases heq
    exact ⟨e.2, Dict.get?_of_mem hn he, ho, rfl⟩
  · rintro ⟨s, hs, ho, rfl⟩
    exact ⟨(lid, s), ⟨Dict.mem_of_get? hs, ho⟩, rfl⟩

theorem mem_check_keys {c : Checker} (hn : c.ledgerFreshness.keys.Nodup) (ts : Int) (lid : Nat) :
    lid ∈ (c.checkFreshness ts).1.map Prod.fst ↔
      ∃ s, c.ledgerFreshness.get? lid = some s ∧ isOutdated c.freshnessTimeout ts s = true := by
  constructor
  · intro h
    obtain ⟨e, he, rfl⟩ := List.mem_map.1 h
    obtain ⟨s, h1, h2, _⟩ := (mem_check hn ts e.1 e.2).1 he
    exact ⟨s, h1, h2⟩
  · rintro ⟨s, h1, h2⟩
    exact List.mem_map.2 ⟨(lid, ts - s.lastUpdated), (mem_check hn ts lid _).2 ⟨s, h1, h2, rfl⟩, rfl⟩

theorem fresh_step {timeout : Int} {h : List Event} {c : Checker} (hc : FreshOk timeout h c) (o : Op) :
    FreshOk timeout (h ++ [(step c o).1]) (step c o).2 := by
  have hu : ∀ lid e, lastUpdate lid (h ++ [e]) = (match e with
    | .register l t => if l = lid then some t else lastUpdate lid h
    | .remove ls => if lid ∈ ls then none else lastUpdate lid h
    | .update l t => if l = lid then (lastUpdate lid h).map (fun _ => t) else lastUpdate lid h
    | .check _ _ => lastUpdate lid h) := by
    intro lid e; unfold lastUpdate; rw [List.foldl_append]; cases e <;> rfl
  have hr : ∀ lid e, lastReport lid (h ++ [e]) = (match e with
    | .register l t => if l = lid then some t else lastReport lid h
    | .remove ls => if lid ∈ ls then none else lastReport lid h
    | .update _ _ => lastReport lid h
    | .check t r => if lid ∈ r.map Prod.fst then some t else lastReport lid h) := by
    intro lid e; unfold lastReport; rw [List.foldl_append]; cases e <;> rfl
  cases o with
  | register l t =>
    refine ⟨hc.timeout, Dict.nodup_keys_set hc.nodup _ _, ?_, ?_⟩ <;> intro lid
    · rw [hu]; simp only [step, Checker.registerLedger, Dict.get?_set]
      split
      · rfl
      · exact hc.upd lid
    · rw [hr]; simp only [step, Checker.registerLedger, Dict.get?_set]
      split
      · rfl
      · exact hc.rep lid
  | remove ls =>
    refine ⟨hc.timeout, foldl_erase_nodup _ _ hc.nodup, ?_, ?_⟩ <;> intro lid
    · rw [hu]; simp only [step, Checker.removeLedgers, foldl_erase_get]
      split
      · rfl
      · exact hc.upd lid
    · rw [hr]; simp only [step, Checker.removeLedgers, foldl_erase_get]
      split
      · rfl
      · exact hc.rep lid
  | update l t =>
    have hg := hc.upd l
    have hcase : (step c (.update l t)).2 = c.updateFreshness l t := rfl
    unfold Checker.updateFreshness at hcase
    cases hl : c.ledgerFreshness.get? l with
    | none =>
      rw [hl] at hcase hg
      rw [hcase]
      refine ⟨hc.timeout, hc.nodup, ?_, ?_⟩ <;> intro lid
      · rw [hu]; simp only [step]
        split
        · next e => subst e; rw [← hg, hl]; rfl
        · exact hc.upd lid
      · rw [hr]; exact hc.rep lid
    | some s =>
      rw [hl] at hcase hg
      rw [hcase]
      refine ⟨hc.timeout, Dict.nodup_keys_set hc.nodup _ _, ?_, ?_⟩ <;> intro lid
      · rw [hu]; simp only [step, Dict.get?_set]
        split
        · next e => subst e; rw [← hg]; rfl
        · exact hc.upd lid
      · rw [hr]; simp only [step, Dict.get?_set]
        split
        · next e => subst e; rw [← hc.rep, hl]; rfl
        · exact hc.rep lid
  | check t =>
    have hd : (step c (.check t)).2.ledgerFreshness = c.ledgerFreshness.map (fun e =>
        if isOutdated c.freshnessTimeout t e.2 then (e.1, { e.2 with lastMarkedAsOutdated := t }) else e) := rfl
    refine ⟨hc.timeout, ?_, ?_, ?_⟩
    · rw [hd, mark_keys (fun s => isOutdated c.freshnessTimeout t s) (fun s => { s with lastMarkedAsOutdated := t })]
      exact hc.nodup
    · intro lid
      rw [hu, hd, mark_get (fun s => isOutdated c.freshnessTimeout t s) (fun s => { s with lastMarkedAsOutdated := t })]
      simp only [step]
      rw [← hc.upd lid]
      cases c.ledgerFreshness.get? lid with
      | none => rfl
      | some s => simp only [Option.map_some]; split <;> rfl
    · intro lid
      rw [hr, hd, mark_get (fun s => isOutdated c.freshnessTimeout t s) (fun s => { s with lastMarkedAsOutdated := t })]
      simp only [step]
      rw [← hc.rep lid]
      have hm := mem_check_keys hc.nodup t lid
      cases hl : c.ledgerFreshness.get? lid with
      | none =>
        rw [if_neg]
        · rfl
        · rw [hm, hl]; rintro ⟨s, h1, _⟩; cases h1
      | some s =>
        simp only [Option.map_some]
        cases ho : isOutdated c.freshnessTimeout t s with
        | true => rw [if_pos (hm.2 ⟨s, hl, ho⟩)]; rfl
        | false =>
          have hn : ¬ lid ∈ (c.checkFreshness t).1.map Prod.fst := by
            rw [hm, hl]; rintro ⟨s', h1, h2⟩; cases h1; rw [ho] at h2; cases h2
          rw [if_neg hn]
          rfl

theorem fresh_run_append (c : Checker) (a b : List Op) :
    run c (a ++ b) = ((run c a).1 ++ (run (run c a).2 b).1, (run (run c a).2 b).2) := by
  induction a generalizing c with
  | nil => rfl
  | cons x r ih => simp only [List.cons_append, run, ih]

theorem fresh_run (timeout : Int) (ops : List Op) :
    FreshOk timeout (run ⟨timeout, []⟩ ops).1 (run ⟨timeout, []⟩ ops).2 := by
  induction ops using snoc_induction with
  | nil => exact ⟨rfl, List.nodup_nil, fun _ => rfl, fun _ => rfl⟩
  | snoc l a ih =>
    rw [fresh_run_append]
    exact fresh_step ih a

/-- A check returns exactly the ledgers that were neither updated nor returned for more
than the timeout, with the time since their update, oldest first, by id if equal. Any
history of calls and any times. -/
theorem freshness_check (timeout : Int) (ops : List Op) (ts : Int) :
    let h := (run ⟨timeout, []⟩ ops).1
    let result := ((run ⟨timeout, []⟩ ops).2.checkFreshness ts).1
    (∀ lid, lid ∈ result.map Prod.fst ↔ Due timeout ts h lid) ∧
    (∀ lid age, (lid, age) ∈ result → ∃ u, lastUpdate lid h = some u ∧ age = ts - u) ∧
    (result.map Prod.fst).Nodup ∧
    result.Pairwise (fun a b => a.2 > b.2 ∨ (a.2 = b.2 ∧ a.1 < b.1)) := by
  intro h result
  have hc := fresh_run timeout ops
  have hout : ∀ s, isOutdated (run ⟨timeout, []⟩ ops).2.freshnessTimeout ts s = true ↔
      ts - s.lastUpdated > timeout ∧ ts - s.lastMarkedAsOutdated > timeout := by
    intro s; rw [hc.timeout]; unfold isOutdated; simp
  have hnd : (result.map Prod.fst).Nodup := by
    have hp := (perm_sortBy before (((run ⟨timeout, []⟩ ops).2.ledgerFreshness.filter
      (fun e => isOutdated (run ⟨timeout, []⟩ ops).2.freshnessTimeout ts e.2)).map
        (fun e => (e.1, ts - e.2.lastUpdated)))).map Prod.fst
    refine hp.nodup_iff.2 ?_
    rw [List.map_map]
    exact Dict.nodup_keys_filter hc.nodup _
  refine ⟨?_, ?_, hnd, ?_⟩
  · intro lid
    rw [mem_check_keys hc.nodup]
    unfold Due
    rw [← hc.upd lid, ← hc.rep lid]
    constructor
    · rintro ⟨s, hs, ho⟩
      rw [hs]
      exact ⟨_, _, rfl, rfl, ((hout s).1 ho).1, ((hout s).1 ho).2⟩
    · rintro ⟨u, r, h1, h2, h3, h4⟩
      cases hl : (run ⟨timeout, []⟩ ops).2.ledgerFreshness.get? lid with
      | none => rw [hl] at h1; cases h1
      | some s =>
        rw [hl] at h1 h2
        cases h1; cases h2
        exact ⟨s, rfl, (hout s).2 ⟨h3, h4⟩⟩
  · intro lid age hm
    obtain ⟨s, hs, _, ha⟩ := (mem_check hc.nodup ts lid age).1 hm
    exact ⟨s.lastUpdated, by rw [← hc.upd lid, hs]; rfl, ha⟩
  · have hs : result.Pairwise (fun a b => a.2 > b.2 ∨ (a.2 = b.2 ∧ a.1 ≤ b.1)) := by
      refine pairwise_sortBy before _ ?_ ?_ ?_ _
      · intro a b h; unfold before at h; simp at h; omega
      · intro a b h; unfold before at h; simp at h; omega
      · intro a b c h1 h2; omega
    refine List.Pairwise.imp₂ ?_ hs (List.pairwise_map.1 hnd)
    intro a b h1 h2
    rcases h1 with h1 | h1
    · exact .inl h1
    · exact .inr ⟨h1.1, Nat.lt_of_le_of_ne h1.2 h2⟩

/-- The ledgers with the times of their latest updates, oldest first. -/
theorem freshness_times (timeout : Int) (ops : List Op) :
    let h := (run ⟨timeout, []⟩ ops).1
    let result := (run ⟨timeout, []⟩ ops).2.getLastUpdateTime
    (∀ lid u, (lid, u) ∈ result ↔ lastUpdate lid h = some u) ∧
    result.Pairwise (fun a b => a.2 < b.2 ∨ (a.2 = b.2 ∧ a.1 ≤ b.1)) := by
  intro h result
  have hc := fresh_run timeout ops
  constructor
  · intro lid u
    rw [← hc.upd lid]
    show (lid, u) ∈ sortBy earlier _ ↔ _
    rw [mem_sortBy, List.mem_map]
    constructor
    · rintro ⟨e, he, heq⟩
      cases heq
      rw [Dict.get?_of_mem hc.nodup he]; rfl
    · intro hg
      cases hl : (run ⟨timeout, []⟩ ops).2.ledgerFreshness.get? lid with
      | none => rw [hl] at hg; cases hg
      | some s =>
        rw [hl] at hg
        cases hg
        exact ⟨_, Dict.mem_of_get? hl, rfl⟩
  · refine pairwise_sortBy earlier _ ?_ ?_ ?_ _
    · intro a b h; unfold earlier at h; simp at h; omega
    · intro a b h; unfold earlier at h; simp at h; omega
    · intro a b c h1 h2; omega

theorem lastReport_after (lid : Nat) (h1 h2 : List Event) (t : Int)
    (hlast : lastReport lid h1 = some t)
    (hmono : ∀ e ∈ h2, ∀ t' r, e = .check t' r → t ≤ t')
    (hreg : ∀ e ∈ h2, ∀ t', e ≠ Event.register lid t') :
    ∀ r, lastReport lid (h1 ++ h2) = some r → t ≤ r := by
  induction h2 using snoc_induction with
  | nil => intro r hr; rw [List.append_nil, hlast] at hr; cases hr; omega
  | snoc l a ih =>
    intro r hr
    have ih' := ih (fun e he => hmono e (List.mem_append_left _ he)) (fun e he => hreg e (List.mem_append_left _ he))
    rw [← List.append_assoc] at hr
    have hm := hmono a (List.mem_append_right _ (List.mem_singleton.2 rfl))
    have hg := hreg a (List.mem_append_right _ (List.mem_singleton.2 rfl))
    unfold lastReport at hr
    rw [List.foldl_append] at hr
    cases a with
    | register l' t' =>
      simp only [List.foldl_cons, List.foldl_nil] at hr
      split at hr
      · next e => exact absurd (by rw [e]) (hg t')
      · exact ih' r hr
    | remove ls =>
      simp only [List.foldl_cons, List.foldl_nil] at hr
      split at hr
      · cases hr
      · exact ih' r hr
    | update l' t' => exact ih' r hr
    | check t' res =>
      simp only [List.foldl_cons, List.foldl_nil] at hr
      split at hr
      · have := hm _ res rfl; cases hr; exact this
      · exact ih' r hr

/-- A ledger returned by one check is not returned again within the timeout, unless it
is registered again, by any clock that does not go back. -/
theorem freshness_once (timeout : Int) (ops1 ops2 : List Op) (t1 t2 : Int) (lid : Nat)
    (hfirst : lid ∈ ((run ⟨timeout, []⟩ ops1).2.checkFreshness t1).1.map Prod.fst)
    (hmono : ∀ t, .check t ∈ ops2 → t1 ≤ t) (hreg : ∀ t, Op.register lid t ∉ ops2)
    (hsecond : lid ∈ ((run ⟨timeout, []⟩ (ops1 ++ .check t1 :: ops2)).2.checkFreshness t2).1.map Prod.fst) :
    t2 - t1 > timeout := by
  obtain ⟨_, r, _, hr, _, hgt⟩ := ((freshness_check timeout (ops1 ++ .check t1 :: ops2) t2).1 lid).1 hsecond
  rw [show ops1 ++ Op.check t1 :: ops2 = (ops1 ++ [.check t1]) ++ ops2 from by simp, fresh_run_append] at hr
  have h1 : lastReport lid (run ⟨timeout, []⟩ (ops1 ++ [.check t1])).1 = some t1 := by
    rw [fresh_run_append]
    unfold lastReport
    rw [List.foldl_append]
    simp only [run, step, List.foldl_cons, List.foldl_nil]
    rw [if_pos hfirst]
  have hev : ∀ (ops : List Op) (c : Checker), (∀ e ∈ (run c ops).1, ∀ t' r, e = Event.check t' r → .check t' ∈ ops) ∧
      (∀ e ∈ (run c ops).1, ∀ l t', e = Event.register l t' → .register l t' ∈ ops) := by
    intro ops
    induction ops with
    | nil => intro c; exact ⟨by simp [run], by simp [run]⟩
    | cons o r ih =>
      intro c
      constructor
      · intro e he t' r' heq
        rcases List.mem_cons.1 he with he | he
        · subst heq; cases o <;> simp [step] at he
          rw [he.1]; exact List.mem_cons_self
        · exact List.mem_cons_of_mem _ ((ih _).1 e he t' r' heq)
      · intro e he l t' heq
        rcases List.mem_cons.1 he with he | he
        · subst heq; cases o <;> simp [step] at he
          rw [he.1, he.2]; exact List.mem_cons_self
        · exact List.mem_cons_of_mem _ ((ih _).2 e he l t' heq)
  have := lastReport_after lid _ (run (run ⟨timeout, []⟩ (ops1 ++ [.check t1])).2 ops2).1 t1 h1
    (fun e he t' r' heq => hmono t' ((hev ops2 _).1 e he t' r' heq))
    (fun e he t' heq => hreg t' ((hev ops2 _).2 e he lid t' heq)) r hr
  omega

/-- Two ledgers go stale, are returned once each, oldest first, and again only later. -/
example : (run ⟨10, []⟩ [.register 0 0, .register 1 0, .update 0 5, .check 16, .check 20, .check 27]).1 =
    [.register 0 0, .register 1 0, .update 0 5, .check 16 [(1, 16), (0, 11)], .check 20 [], .check 27 [(1, 27), (0, 22)]] := by
  decide +kernel

/-- The hypotheses of `freshness_once` are met. -/
example : 0 ∈ ((run ⟨10, []⟩ [.register 0 0]).2.checkFreshness 11).1.map Prod.fst ∧
    0 ∈ ((run ⟨10, []⟩ ([.register 0 0] ++ .check 11 :: [])).2.checkFreshness 22).1.map Prod.fst := by decide +kernel

end Verif.Props
