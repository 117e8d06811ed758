import Verif.Proofs.MonitorRun
/-! # Which requests are counted, and which are reported as late -/
namespace Verif.Monitor
open Verif Verif.Spec.Monitor

/-! ## The tracker -/

/-- A request after an instance has ordered it. -/
def Tracked.by (r : Tracked) (i : Inst) : Tracked := if r.ordered.has i then { r with ordered := r.ordered.set i true } else r

theorem trackOrder_reqs (i : Inst) (k : Key) (r : Tracked) (s : Mon) :
    (trackOrder i k r s).reqs = if (r.by i).all then s.reqs.erase k else s.reqs.set k (r.by i) := by
  unfold trackOrder
  dsimp only
  show (if (r.by i).all = true then _ else _ : Mon).reqs = _
  split <;> split <;> rfl

theorem trackOrder_other {i : Inst} {k k' : Key} {r : Tracked} {s : Mon} (h : k' ≠ k) : (trackOrder i k r s).reqs.get? k' = s.reqs.get? k' := by
  rw [trackOrder_reqs]
  split
  · rw [Dict.get?_erase, if_neg (Ne.symm h)]
  · rw [Dict.get?_set, if_neg (Ne.symm h)]

theorem trackOrder_self {i : Inst} {k : Key} {r q : Tracked} {s : Mon} (h : (trackOrder i k r s).reqs.get? k = some q) : q = r.by i := by
  rw [trackOrder_reqs] at h
  split at h
  · rw [Dict.get?_erase, if_pos rfl] at h
    nomatch h
  · rw [Dict.get?_set, if_pos rfl] at h
    exact (Option.some.inj h).symm

theorem by_since (r : Tracked) (i : Inst) : (r.by i).since = r.since := by
  unfold Tracked.by
  split <;> rfl

theorem by_handled (r : Tracked) (i : Inst) : (r.by i).handled = r.handled := by
  unfold Tracked.by
  split <;> rfl

theorem by_other {r : Tracked} {i j : Inst} (h : j ≠ i) : (r.by i).ordered.get? j = r.ordered.get? j := by
  unfold Tracked.by
  split
  · show (r.ordered.set i true).get? j = _
    rw [Dict.get?_set, if_neg (Ne.symm h)]
  · rfl

theorem by_self {r : Tracked} {i : Inst} : (r.by i).ordered.get? i ≠ some false := by
  unfold Tracked.by
  split
  · show (r.ordered.set i true).get? i ≠ _
    rw [Dict.get?_set, if_pos rfl]
    nofun
  · rename_i h
    rw [(Dict.has_false_iff _ _).mp (by simpa using h)]
    nofun

theorem all_false {r : Tracked} {j : Inst} (h : r.ordered.get? j = some false) : r.all = false := by
  unfold Tracked.all
  rw [List.all_eq_false]
  exact ⟨_, Dict.mem_of_get? h, by simp⟩

/-- The requests after a batch. -/
def afterBatch (i : Inst) : Mon → List Key → Mon
  | s, [] => s
  | s, k :: ks =>
    match s.reqs.get? k with
    | none => afterBatch i s ks
    | some r => afterBatch i (trackOrder i k r s) ks

theorem batch_mon (c : Cfg) (known : Key → Bool) (t : Nat) (i : Inst) (ks : List Key) (s : Mon) (r : Rec) (d : Dict Key Nat) :
    (ks.foldl (orderOne c known t i) (s, r, d)).1 = afterBatch i s ks := by
  induction ks generalizing s r d with
  | nil => rfl
  | cons k ks ih =>
    rw [List.foldl_cons]
    unfold afterBatch
    cases hk : s.reqs.get? k with
    | none =>
      rw [orderOne_none hk]
      exact ih s r d
    | some q =>
      rw [orderOne_some hk]
      exact ih _ _ _

theorem afterBatch_other {i : Inst} {ks : List Key} {k : Key} {s : Mon} (h : k ∉ ks) : (afterBatch i s ks).reqs.get? k = s.reqs.get? k := by
  induction ks generalizing s with
  | nil => rfl
  | cons k' ks ih =>
    have hk : k ≠ k' := fun e => h (e ▸ List.mem_cons_self ..)
    have hks : k ∉ ks := fun e => h (List.mem_cons_of_mem _ e)
    unfold afterBatch
    split
    · exact ih hks
    · rw [ih hks, trackOrder_other hk]

/-- What ordering by an instance can do to a request. -/
theorem afterBatch_some {i : Inst} {ks : List Key} {k : Key} {s : Mon} {q : Tracked} (h : (afterBatch i s ks).reqs.get? k = some q) :
    ∃ r, s.reqs.get? k = some r ∧ q.since = r.since ∧ q.handled = r.handled ∧ (∀ j, j ≠ i → q.ordered.get? j = r.ordered.get? j) ∧
      (k ∈ ks → q.ordered.get? i ≠ some false) ∧ (q.ordered.get? i = some false → r.ordered.get? i = some false) := by
  induction ks generalizing s with
  | nil => exact ⟨q, h, rfl, rfl, fun _ _ => rfl, nofun, id⟩
  | cons k' ks ih =>
    unfold afterBatch at h
    split at h
    · rename_i hn
      obtain ⟨r, hr, h1, h2, h3, h4, h5⟩ := ih h
      refine ⟨r, hr, h1, h2, h3, fun hk => ?_, h5⟩
      rcases List.mem_cons.mp hk with hk | hk
      · rw [hk, hn] at hr
        nomatch hr
      · exact h4 hk
    · rename_i r0 hr0
      obtain ⟨r, hr, h1, h2, h3, h4, h5⟩ := ih h
      by_cases hk : k = k'
      · subst hk
        have e := trackOrder_self hr
        subst e
        refine ⟨r0, hr0, h1.trans (by_since ..), h2.trans (by_handled ..), fun j hj => (h3 j hj).trans (by_other hj), fun _ hf => by_self (h5 hf),
          fun hf => absurd (h5 hf) by_self⟩
      · rw [trackOrder_other hk] at hr
        refine ⟨r, hr, h1, h2, h3, fun hk' => ?_, h5⟩
        rcases List.mem_cons.mp hk' with hk' | hk'
        · exact absurd hk' hk
        · exact h4 hk'

/-- A request which another instance still has to order stays. -/
theorem afterBatch_stays {i j : Inst} {ks : List Key} {k : Key} {s : Mon} {r : Tracked} (hr : s.reqs.get? k = some r)
    (hj : r.ordered.get? j = some false) (hji : j ≠ i ∨ k ∉ ks) :
    ∃ q, (afterBatch i s ks).reqs.get? k = some q ∧ q.since = r.since ∧ q.handled = r.handled ∧ q.ordered.get? j = some false := by
  induction ks generalizing s r with
  | nil => exact ⟨r, hr, rfl, rfl, hj⟩
  | cons k' ks ih =>
    have hji' : j ≠ i ∨ k ∉ ks := hji.imp id fun h e => h (List.mem_cons_of_mem _ e)
    unfold afterBatch
    split
    · exact ih hr hj hji'
    · rename_i r0 hr0
      by_cases hk : k = k'
      · subst hk
        have hne : j ≠ i := hji.resolve_right fun h => h (List.mem_cons_self ..)
        rw [hr] at hr0
        have e := Option.some.inj hr0
        subst e
        have hb := by_other (r := r) hne
        have hr1 : (trackOrder i k r s).reqs.get? k = some (r.by i) := by
          rw [trackOrder_reqs, if_neg (by rw [all_false (hb.trans hj)]; nofun), Dict.get?_set, if_pos rfl]
        obtain ⟨q, hq, h1, h2, h3⟩ := ih hr1 (hb.trans hj) hji'
        exact ⟨q, hq, h1.trans (by_since ..), h2.trans (by_handled ..), h3⟩
      · exact ih (by rw [trackOrder_other hk]; exact hr) hj hji'

/-! ## Dropping and reporting -/

theorem drops_get {ks : List Key} {k : Key} {s : Mon} : (ks.foldl drop s).reqs.get? k = if k ∈ ks then none else s.reqs.get? k := by
  induction ks generalizing s with
  | nil => rfl
  | cons k' ks ih =>
    rw [List.foldl_cons, ih]
    show (if k ∈ ks then none else (s.reqs.erase k').get? k) = _
    rw [Dict.get?_erase]
    by_cases h : k' = k <;> by_cases h' : k ∈ ks <;> simp [h, h']
    intro e
    exact absurd e.symm h

theorem handle_get {k k' : Key} {s : Mon} :
    (handle s k').reqs.get? k = if k' = k then (s.reqs.get? k).map fun r => { r with handled := true } else s.reqs.get? k := by
  unfold handle
  split
  · rename_i h
    split
    · rename_i e
      rw [← e, h]
      rfl
    · rfl
  · rename_i r h
    show (s.reqs.set k' _).get? k = _
    rw [Dict.get?_set]
    split
    · rename_i e
      rw [← e, h]
      rfl
    · rfl

theorem handles_get {ks : List Key} {k : Key} {s : Mon} :
    (ks.foldl handle s).reqs.get? k = if k ∈ ks then (s.reqs.get? k).map fun r => { r with handled := true } else s.reqs.get? k := by
  induction ks generalizing s with
  | nil => rfl
  | cons k' ks ih =>
    rw [List.foldl_cons, ih, handle_get]
    by_cases h : k' = k
    · subst h
      by_cases h' : k' ∈ ks
      · rw [if_pos h', if_pos rfl, if_pos (List.mem_cons_self ..)]
        cases s.reqs.get? k' <;> rfl
      · rw [if_neg h', if_pos rfl, if_pos (List.mem_cons_self ..)]
    · by_cases h' : k ∈ ks <;> simp [h, h', Ne.symm h]

theorem lates_sub {c : Cfg} {t : Nat} {d : Dict Key Tracked} {ks : List Key} (h : lates c t d = some ks) : ks.Sublist d.keys := by
  induction d generalizing ks with
  | nil =>
    cases h
    exact List.Sublist.refl _
  | cons e d ih =>
    unfold lates at h
    split at h
    · rename_i b l _ hl
      cases h
      split
      · exact (ih hl).cons_cons _
      · exact (ih hl).cons _
    · nomatch h

theorem lates_mem {c : Cfg} {t : Nat} {d : Dict Key Tracked} {ks : List Key} (hd : d.keys.Nodup) (h : lates c t d = some ks) {k : Key} {r : Tracked}
    (hr : d.get? k = some r) : k ∈ ks ↔ (r.ordered.get? 0 = some false ∧ r.handled = false ∧ t - r.since > c.freq) := by
  induction d generalizing ks with
  | nil => nomatch hr
  | cons e d ih =>
    have hd' : e.1 ∉ Dict.keys d ∧ (Dict.keys d).Nodup := List.nodup_cons.mp hd
    unfold lates at h
    split at h
    · rename_i b l hb hl
      cases h
      rw [Dict.get?_cons] at hr
      split at hr
      · rename_i hk
        have hk' : e.1 = k := by simpa using hk
        have er := Option.some.inj hr
        have hnot : k ∉ l := fun hm => hd'.1 (hk' ▸ (lates_sub hl).subset hm)
        have hm : (k ∈ if b = true then e.1 :: l else l) ↔ b = true := by
          split
          · rename_i hbt
            rw [hk']
            exact ⟨fun _ => hbt, fun _ => List.mem_cons_self ..⟩
          · rename_i hbt
            exact ⟨fun hm => absurd hm hnot, fun hh => absurd hh hbt⟩
        rw [hm]
        unfold late at hb
        split at hb
        · nomatch hb
        · rename_i o ho
          rw [er] at ho
          rw [← Option.some.inj hb, ho, er]
          cases o <;> cases r.handled <;> simp
      · rename_i hk
        have hk' : k ≠ e.1 := fun e' => hk (by simp [e'])
        rw [← ih hd'.2 hl hr]
        split
        · exact ⟨fun hm => (List.mem_cons.mp hm).resolve_left hk', List.mem_cons_of_mem _⟩
        · exact Iff.rfl
    · nomatch h

theorem lates_some {c : Cfg} {t : Nat} {d : Dict Key Tracked} (h : ∀ e ∈ d, e.2.ordered.has 0 = true) : ∃ ks, lates c t d = some ks := by
  induction d with
  | nil => exact ⟨[], rfl⟩
  | cons e d ih =>
    obtain ⟨ks, hks⟩ := ih fun x hx => h x (List.mem_cons_of_mem _ hx)
    obtain ⟨o, ho⟩ := (Dict.has_iff _ _).mp (h e (List.mem_cons_self ..))
    unfold lates late
    rw [ho, hks]
    exact ⟨_, rfl⟩

/-! ## A request which waits -/

/-- The event does not end the waiting of instance `i` for the request. -/
def Ev.leaves (i : Inst) (k : Key) : Ev → Bool
  | .remove j => decide (j ≠ i)
  | .reset _ => false
  | .came _ k' => decide (k' ≠ k)
  | .ordered _ j ks _ => decide (j ≠ i) || decide (k ∉ ks)
  | .dropped k' => decide (k' ≠ k)
  | _ => true

/-- Instance `i` still has to order the request that came at `t`. -/
def Waits (s : Mon) (i : Inst) (k : Key) (t : Nat) (said : Bool) : Prop :=
  ∃ r, s.reqs.get? k = some r ∧ r.since = t ∧ r.ordered.get? i = some false ∧ r.handled = said

theorem came_waits {s : Mon} {i : Inst} {k : Key} {t : Nat} (h : s.insts.has i = true) : Waits (came t k s) i k t false := by
  refine ⟨_, (Dict.get?_set ..).trans (if_pos rfl), rfl, ?_, rfl⟩
  show Dict.get? (s.insts.map fun e => (e.1, false)) i = some false
  obtain ⟨v, hv⟩ := (Dict.has_iff _ _).mp h
  clear h
  generalize s.insts = d at hv
  induction d with
  | nil => nomatch hv
  | cons e d ih =>
    rw [List.map_cons, Dict.get?_cons]
    rw [Dict.get?_cons] at hv
    split at hv
    · rename_i he
      rw [if_pos he]
    · rename_i he
      rw [if_neg he]
      exact ih hv

theorem without_get (j : Inst) (d : Dict Key Tracked) (k : Key) : (without j d).get? k = (d.get? k).map (Tracked.without j) := by
  induction d with
  | nil => rfl
  | cons e d ih =>
    show Dict.get? ((e.1, e.2.without j) :: without j d) k = _
    rw [Dict.get?_cons, Dict.get?_cons]
    split
    · rfl
    · exact ih

theorem mem_keys_filter {d : Dict Key Tracked} (hd : d.keys.Nodup) {k : Key} {r : Tracked} (hr : d.get? k = some r) {p : Key × Tracked → Bool}
    (hm : k ∈ Dict.keys (List.filter p d)) : p (k, r) = true := by
  obtain ⟨e, he, hk⟩ := List.mem_map.mp hm
  obtain ⟨h1, h2⟩ := List.mem_filter.mp he
  have h3 := Dict.get?_of_mem hd (k := e.1) (v := e.2) h1
  rw [hk, hr] at h3
  have : e = (k, r) := Prod.ext hk (Option.some.inj h3).symm
  rw [← this]
  exact h2

theorem without_keys (j : Inst) (d : Dict Key Tracked) : (without j d).keys = d.keys := by
  unfold without Dict.keys
  rw [List.map_map]
  rfl

theorem reqs_nodup_drops {ks : List Key} {s : Mon} (h : s.reqs.keys.Nodup) : (ks.foldl drop s).reqs.keys.Nodup := by
  induction ks generalizing s with
  | nil => exact h
  | cons k ks ih => exact ih (Dict.nodup_keys_erase h k)

theorem reqs_nodup_handles {ks : List Key} {s : Mon} (h : s.reqs.keys.Nodup) : (ks.foldl handle s).reqs.keys.Nodup := by
  induction ks generalizing s with
  | nil => exact h
  | cons k ks ih =>
    apply ih
    unfold handle
    split
    · exact h
    · exact Dict.nodup_keys_set h _ _

theorem reqs_nodup_batch {i : Inst} {ks : List Key} {s : Mon} (h : s.reqs.keys.Nodup) : (afterBatch i s ks).reqs.keys.Nodup := by
  induction ks generalizing s with
  | nil => exact h
  | cons k ks ih =>
    unfold afterBatch
    split
    · exact ih h
    · apply ih
      rw [trackOrder_reqs]
      split
      · exact Dict.nodup_keys_erase h k
      · exact Dict.nodup_keys_set h _ _

/-- An ordered batch, as far as requests are concerned. -/
theorem ordered_reqs {c : Cfg} {s s' : Mon} {out : List Key} {t : Nat} {j : Inst} {ks : List Key} {known : Key → Bool}
    (h : step c s (.ordered t j ks known) = some (s', out)) : s'.reqs = (afterBatch j s ks).reqs ∧ out = [] := by
  replace h : (ordered c known t j ks s).map (fun x => (x.1, ([] : List Key))) = some (s', out) := h
  unfold ordered at h
  split at h
  · nomatch h
  · cases h
    refine ⟨?_, rfl⟩
    dsimp only
    rw [batch_mon]

theorem reqs_nodup_step {c : Cfg} {s s' : Mon} {out : List Key} {e : Ev} (hs : step c s e = some (s', out)) (h : s.reqs.keys.Nodup) : s'.reqs.keys.Nodup := by
  cases e with
  | add t j =>
    cases hs
    exact h
  | remove j =>
    replace hs : (removeInstance j s).map (fun s => (s, ([] : List Key))) = some (s', out) := hs
    unfold removeInstance at hs
    split at hs
    · cases hs
      exact h
    · split at hs
      · cases hs
        apply reqs_nodup_drops
        show (without j s.reqs).keys.Nodup
        rw [without_keys]
        exact h
      · nomatch hs
  | reset t =>
    cases hs
    exact List.Pairwise.nil
  | came t k =>
    cases hs
    exact Dict.nodup_keys_set h _ _
  | dropped k =>
    cases hs
    exact Dict.nodup_keys_erase h k
  | check t =>
    replace hs : checkUnordered c t s = some (s', out) := hs
    unfold checkUnordered at hs
    split at hs
    · nomatch hs
    · cases hs
      exact reqs_nodup_handles h
  | ordered t j ks known =>
    rw [(ordered_reqs hs).1]
    exact reqs_nodup_batch h

/-- A request goes on waiting; after a report it has been said. -/
theorem step_waits {c : Cfg} {s s' : Mon} {out : List Key} {e : Ev} {i : Inst} {k : Key} {t : Nat} {said : Bool} (hd : s.reqs.keys.Nodup)
    (hs : step c s e = some (s', out)) (hl : e.leaves i k = true) (h : Waits s i k t said) : Waits s' i k t (said || decide (k ∈ out)) := by
  obtain ⟨r, hr, h1, h2, h3⟩ := h
  cases e with
  | add t' j =>
    cases hs
    exact ⟨r, hr, h1, h2, by simpa using h3⟩
  | remove j =>
    have hj : j ≠ i := by simpa [Ev.leaves] using hl
    replace hs : (removeInstance j s).map (fun s => (s, ([] : List Key))) = some (s', out) := hs
    unfold removeInstance at hs
    split at hs
    · cases hs
      exact ⟨r, hr, h1, h2, by simpa using h3⟩
    · split at hs
      · cases hs
        have h4 : (r.without j).ordered.get? i = some false := by
          show (r.ordered.erase j).get? i = _
          rw [Dict.get?_erase, if_neg hj]
          exact h2
        have hg : (without j s.reqs).get? k = some (r.without j) := by
          rw [without_get, hr]
          rfl
        refine ⟨r.without j, ?_, h1, h4, by simpa using (show (r.without j).handled = said from h3)⟩
        rw [drops_get, if_neg]
        · exact hg
        · intro hm
          have := mem_keys_filter (by rw [without_keys]; exact hd) hg hm
          replace this : (r.without j).all = true := this
          rw [all_false h4] at this
          nomatch this
      · nomatch hs
  | reset t' => nomatch hl
  | came t' k' =>
    cases hs
    have hk : k' ≠ k := by simpa [Ev.leaves] using hl
    refine ⟨r, ?_, h1, h2, by simpa using h3⟩
    show (s.reqs.set k' _).get? k = _
    rw [Dict.get?_set, if_neg hk]
    exact hr
  | dropped k' =>
    cases hs
    have hk : k' ≠ k := by simpa [Ev.leaves] using hl
    refine ⟨r, ?_, h1, h2, by simpa using h3⟩
    show (s.reqs.erase k').get? k = _
    rw [Dict.get?_erase, if_neg hk]
    exact hr
  | check t' =>
    replace hs : checkUnordered c t' s = some (s', out) := hs
    unfold checkUnordered at hs
    split at hs
    · nomatch hs
    · rename_i ks hks
      cases hs
      unfold Waits
      rw [handles_get]
      by_cases hm : k ∈ out
      · rw [if_pos hm, hr]
        exact ⟨_, rfl, h1, h2, by simp [hm]⟩
      · rw [if_neg hm]
        exact ⟨r, hr, h1, h2, by simpa [hm] using h3⟩
  | ordered t' j ks known =>
    obtain ⟨e1, e2⟩ := ordered_reqs hs
    subst e2
    have hj : i ≠ j ∨ k ∉ ks := by
      have : j ≠ i ∨ k ∉ ks := by simpa [Ev.leaves] using hl
      exact this.imp Ne.symm id
    obtain ⟨q, hq, q1, q2, q3⟩ := afterBatch_stays hr h2 hj
    refine ⟨q, by rw [e1]; exact hq, q1.trans h1, q3, ?_⟩
    rw [q2, h3]
    simp

theorem run_cons {c : Cfg} {s s' : Mon} {e : Ev} {es : List Ev} {out : List Key} (h : run c s (e :: es) = some (s', out)) :
    ∃ s1 o1 o2, step c s e = some (s1, o1) ∧ run c s1 es = some (s', o2) ∧ out = o1 ++ o2 := by
  unfold run at h
  split at h
  · nomatch h
  · rename_i x hx
    split at h
    · nomatch h
    · rename_i y hy
      cases h
      exact ⟨x.1, x.2, y.2, hx, hy, rfl⟩

theorem run_waits {c : Cfg} {es : List Ev} {s s' : Mon} {out : List Key} {i : Inst} {k : Key} {t : Nat} {said : Bool} (hd : s.reqs.keys.Nodup)
    (hs : run c s es = some (s', out)) (hl : ∀ e ∈ es, e.leaves i k = true) (h : Waits s i k t said) :
    Waits s' i k t (said || decide (k ∈ out)) := by
  induction es generalizing s out said with
  | nil =>
    cases hs
    simpa using h
  | cons e es ih =>
    obtain ⟨s1, o1, o2, h1, h2, rfl⟩ := run_cons hs
    have := ih (reqs_nodup_step h1 hd) h2 (fun x hx => hl x (List.mem_cons_of_mem _ hx)) (step_waits hd h1 (hl e (List.mem_cons_self ..)) h)
    simpa [Bool.or_assoc, List.mem_append] using this

theorem reqs_nodup_run {c : Cfg} {es : List Ev} {s s' : Mon} {out : List Key} (hs : run c s es = some (s', out)) (h : s.reqs.keys.Nodup) : s'.reqs.keys.Nodup := by
  induction es generalizing s out with
  | nil =>
    cases hs
    exact h
  | cons e es ih =>
    obtain ⟨s1, o1, o2, h1, h2, rfl⟩ := run_cons hs
    exact ih h2 (reqs_nodup_step h1 h)

/-- A request which waits for the master for too long is reported at the next check, if it was not before. -/
theorem waits_reported {c : Cfg} {s s' : Mon} {out : List Key} {k : Key} {t0 t : Nat} (hd : s.reqs.keys.Nodup) (h : Waits s 0 k t0 false)
    (hs : step c s (.check t) = some (s', out)) : k ∈ out ↔ t - t0 > c.freq := by
  obtain ⟨r, hr, h1, h2, h3⟩ := h
  replace hs : checkUnordered c t s = some (s', out) := hs
  unfold checkUnordered at hs
  split at hs
  · nomatch hs
  · rename_i ks hks
    cases hs
    rw [lates_mem hd hks hr, ← h1]
    simp [h2, h3]

/-- A request is counted when an instance orders it which it was waiting for. -/
theorem waits_counted {s : Mon} {i : Inst} {k : Key} {t0 t : Nat} {said : Bool} {known : Key → Bool} {ks : List Key} (h : Waits s i k t0 said)
    (hk : k ∈ ks) : (⟨t, t - t0, known k⟩ : Entry) ∈ batchLog known t i s ks := by
  induction ks generalizing s with
  | nil => nomatch hk
  | cons k' ks ih =>
    obtain ⟨r, hr, h1, h2, h3⟩ := h
    by_cases hkk : k = k'
    · subst hkk
      unfold batchLog
      rw [hr]
      dsimp only
      rw [h1]
      exact List.mem_cons_self ..
    · have hk' := (List.mem_cons.mp hk).resolve_left hkk
      unfold batchLog
      split
      · exact ih ⟨r, hr, h1, h2, h3⟩ hk'
      · exact List.mem_cons_of_mem _ (ih ⟨r, by rw [trackOrder_other hkk]; exact hr, h1, h2, h3⟩ hk')

/-- For different requests the log is as it should be. -/
theorem batchLog_eq {known : Key → Bool} {t : Nat} {i : Inst} {s : Mon} {ks : List Key} (hn : ks.Nodup) :
    batchLog known t i s ks = ks.filterMap fun k => (s.reqs.get? k).map fun r => ⟨t, t - r.since, known k⟩ := by
  induction ks generalizing s with
  | nil => rfl
  | cons k ks ih =>
    rw [List.nodup_cons] at hn
    unfold batchLog
    rw [List.filterMap_cons]
    cases hk : s.reqs.get? k with
    | none => exact ih hn.2
    | some r =>
      dsimp only [Option.map]
      rw [ih hn.2]
      congr 1
      have : ∀ l : List Key, k ∉ l → (l.filterMap fun x => ((trackOrder i k r s).reqs.get? x).map fun r => (⟨t, t - r.since, known x⟩ : Entry)) =
          l.filterMap fun x => (s.reqs.get? x).map fun r => ⟨t, t - r.since, known x⟩ := by
        intro l hl
        induction l with
        | nil => rfl
        | cons x l ihl =>
          rw [List.filterMap_cons, List.filterMap_cons, trackOrder_other (fun e : x = k => hl (e ▸ List.mem_cons_self ..)),
            ihl fun e => hl (List.mem_cons_of_mem _ e)]
      exact this ks hn.1

/-! ## What is reported has waited -/

/-- The master has not ordered the request in these events. -/
def untouched (k : Key) (es : List Ev) : Prop := ∀ e ∈ es, ∀ t ks known, e = .ordered t 0 ks known → k ∉ ks

/-- A request which is tracked has come, and what is said of the master is right. -/
def Came (es : List Ev) (s : Mon) : Prop :=
  ∀ k r, s.reqs.get? k = some r → ∃ es1 es2, es = es1 ++ .came r.since k :: es2 ∧ (r.ordered.get? 0 = some false → untouched k es2)

theorem untouched_snoc {k : Key} {es : List Ev} {e : Ev} (h : untouched k es) (he : ∀ t ks known, e = .ordered t 0 ks known → k ∉ ks) :
    untouched k (es ++ [e]) := by
  intro x hx
  rcases List.mem_append.mp hx with hx | hx
  · exact h x hx
  · rw [List.mem_singleton.mp hx]
    exact he

/-- Requests which stay as they are, as far as this is concerned. -/
theorem came_keep {es : List Ev} {s s' : Mon} {e : Ev} (h : Came es s)
    (hk : ∀ k q, s'.reqs.get? k = some q → ∃ r, s.reqs.get? k = some r ∧ q.since = r.since ∧
      (q.ordered.get? 0 = some false → r.ordered.get? 0 = some false ∧ ∀ t ks known, e = .ordered t 0 ks known → k ∉ ks)) : Came (es ++ [e]) s' := by
  intro k q hq
  obtain ⟨r, hr, h1, h2⟩ := hk k q hq
  obtain ⟨es1, es2, e1, e2⟩ := h k r hr
  refine ⟨es1, es2 ++ [e], by rw [e1, h1]; simp, fun hf => ?_⟩
  obtain ⟨h3, h4⟩ := h2 hf
  exact untouched_snoc (e2 h3) h4

theorem came_step {c : Cfg} {es : List Ev} {s s' : Mon} {out : List Key} {e : Ev} (hs : step c s e = some (s', out)) (h : Came es s) :
    Came (es ++ [e]) s' := by
  cases e with
  | add t j =>
    cases hs
    exact came_keep h fun k q hq => ⟨q, hq, rfl, fun hf => ⟨hf, nofun⟩⟩
  | remove j =>
    replace hs : (removeInstance j s).map (fun s => (s, ([] : List Key))) = some (s', out) := hs
    unfold removeInstance at hs
    split at hs
    · cases hs
      exact came_keep h fun k q hq => ⟨q, hq, rfl, fun hf => ⟨hf, nofun⟩⟩
    · split at hs
      · cases hs
        refine came_keep h fun k q hq => ?_
        rw [drops_get] at hq
        split at hq
        · nomatch hq
        · replace hq : (without j s.reqs).get? k = some q := hq
          rw [without_get] at hq
          obtain ⟨r, hr, rfl⟩ := Option.map_eq_some_iff.mp hq
          refine ⟨r, hr, rfl, fun hf => ⟨?_, nofun⟩⟩
          replace hf : (r.ordered.erase j).get? 0 = some false := hf
          rw [Dict.get?_erase] at hf
          split at hf
          · nomatch hf
          · exact hf
      · nomatch hs
  | reset t =>
    cases hs
    intro k r hr
    nomatch hr
  | came t k' =>
    cases hs
    intro k q hq
    replace hq : (s.reqs.set k' _).get? k = some q := hq
    rw [Dict.get?_set] at hq
    split at hq
    · rename_i e
      subst e
      rw [← Option.some.inj hq]
      exact ⟨es, [], rfl, fun _ => nofun⟩
    · obtain ⟨es1, es2, e1, e2⟩ := h k q hq
      refine ⟨es1, es2 ++ [.came t k'], by rw [e1]; simp, fun hf => untouched_snoc (e2 hf) nofun⟩
  | dropped k' =>
    cases hs
    refine came_keep h fun k q hq => ?_
    replace hq : (s.reqs.erase k').get? k = some q := hq
    rw [Dict.get?_erase] at hq
    split at hq
    · nomatch hq
    · exact ⟨q, hq, rfl, fun hf => ⟨hf, nofun⟩⟩
  | check t =>
    replace hs : checkUnordered c t s = some (s', out) := hs
    unfold checkUnordered at hs
    split at hs
    · nomatch hs
    · rename_i ks hks
      cases hs
      refine came_keep h fun k q hq => ?_
      rw [handles_get] at hq
      split at hq
      · obtain ⟨r, hr, rfl⟩ := Option.map_eq_some_iff.mp hq
        exact ⟨r, hr, rfl, fun hf => ⟨hf, nofun⟩⟩
      · exact ⟨q, hq, rfl, fun hf => ⟨hf, nofun⟩⟩
  | ordered t j ks known =>
    refine came_keep h fun k q hq => ?_
    rw [(ordered_reqs hs).1] at hq
    obtain ⟨r, hr, h1, _, h3, h4, h5⟩ := afterBatch_some hq
    refine ⟨r, hr, h1, fun hf => ?_⟩
    by_cases hj : j = 0
    · subst hj
      refine ⟨h5 hf, fun t' ks' known' e hk => ?_⟩
      cases e
      exact h4 hk hf
    · refine ⟨by rw [← h3 0 (Ne.symm hj)]; exact hf, fun t' ks' known' e => ?_⟩
      cases e
      exact absurd rfl hj

theorem came_run {c : Cfg} {es es0 : List Ev} {s s' : Mon} {out : List Key} (hd : s.reqs.keys.Nodup) (hs : run c s es = some (s', out)) (h : Came es0 s) :
    Came (es0 ++ es) s' := by
  induction es generalizing s out es0 with
  | nil =>
    cases hs
    simpa using h
  | cons e es ih =>
    obtain ⟨s1, o1, o2, h1, h2, rfl⟩ := run_cons hs
    have := ih (reqs_nodup_step h1 hd) h2 (came_step h1 h)
    simpa using this

/-- What a check reports has come long ago, and the master has not ordered it since. -/
theorem reported_came {c : Cfg} {es : List Ev} {s s' : Mon} {out : List Key} {k : Key} {t : Nat} (hd : s.reqs.keys.Nodup) (h : Came es s)
    (hs : step c s (.check t) = some (s', out)) (hk : k ∈ out) : ∃ es1 t0 es2, es = es1 ++ .came t0 k :: es2 ∧ t - t0 > c.freq ∧ untouched k es2 := by
  replace hs : checkUnordered c t s = some (s', out) := hs
  unfold checkUnordered at hs
  split at hs
  · nomatch hs
  · rename_i ks hks
    cases hs
    have hm : k ∈ s.reqs.keys := (lates_sub hks).subset hk
    obtain ⟨r, hr⟩ := (Dict.mem_keys _ _).mp hm
    obtain ⟨h1, h2, h3⟩ := (lates_mem hd hks hr).mp hk
    obtain ⟨es1, es2, e1, e2⟩ := h k r hr
    exact ⟨es1, r.since, es2, e1, h3, e2 h1⟩

/-! ## Not twice -/

/-- The request comes. -/
def Ev.isCame (k : Key) : Ev → Bool
  | .came _ k' => decide (k' = k)
  | _ => false

/-- How often the request came. -/
def cameCount (k : Key) (es : List Ev) : Nat := es.countP (Ev.isCame k)

/-- A report which is still possible. -/
def open? (s : Mon) (k : Key) : Nat :=
  match s.reqs.get? k with
  | none => 0
  | some r => if r.handled then 0 else 1

theorem open_le_of {s s' : Mon} {k : Key} (h : ∀ q, s'.reqs.get? k = some q → ∃ r, s.reqs.get? k = some r ∧ q.handled = r.handled) : open? s' k ≤ open? s k := by
  unfold open?
  cases hq : s'.reqs.get? k with
  | none => exact Nat.zero_le _
  | some q =>
    obtain ⟨r, hr, e⟩ := h q hq
    rw [hr]
    dsimp only
    rw [e]
    exact Nat.le_refl _

theorem step_open {c : Cfg} {s s' : Mon} {out : List Key} {e : Ev} (hd : s.reqs.keys.Nodup) (hs : step c s e = some (s', out)) (k : Key) :
    out.count k + open? s' k ≤ open? s k + cameCount k [e] := by
  cases e with
  | add t j =>
    cases hs
    simp [cameCount]
    exact Nat.le_refl _
  | remove j =>
    replace hs : (removeInstance j s).map (fun s => (s, ([] : List Key))) = some (s', out) := hs
    unfold removeInstance at hs
    split at hs
    · cases hs
      simp [cameCount]
    · split at hs
      · cases hs
        simp only [List.count_nil, Nat.zero_add]
        refine Nat.le_trans (open_le_of (s := s) fun q hq => ?_) (Nat.le_add_right _ _)
        rw [drops_get] at hq
        split at hq
        · nomatch hq
        · replace hq : (without j s.reqs).get? k = some q := hq
          rw [without_get] at hq
          obtain ⟨r, hr, rfl⟩ := Option.map_eq_some_iff.mp hq
          exact ⟨r, hr, rfl⟩
      · nomatch hs
  | reset t =>
    cases hs
    simp only [List.count_nil, Nat.zero_add]
    exact Nat.le_trans (open_le_of (s := s) fun q hq => nomatch hq) (Nat.le_add_right _ _)
  | came t k' =>
    cases hs
    simp only [List.count_nil, Nat.zero_add]
    by_cases hk : k' = k
    · have h1 : cameCount k [.came t k'] = 1 := by simp [cameCount, Ev.isCame, hk]
      rw [h1]
      have : ∀ s', open? s' k ≤ 1 := by
        intro s'
        unfold open?
        split
        · exact Nat.zero_le _
        · split
          · exact Nat.zero_le _
          · exact Nat.le_refl _
      have := this (came t k' s)
      omega
    · refine Nat.le_trans (open_le_of (s := s) fun q hq => ?_) (Nat.le_add_right _ _)
      replace hq : (s.reqs.set k' _).get? k = some q := hq
      rw [Dict.get?_set, if_neg hk] at hq
      exact ⟨q, hq, rfl⟩
  | dropped k' =>
    cases hs
    simp only [List.count_nil, Nat.zero_add]
    refine Nat.le_trans (open_le_of (s := s) fun q hq => ?_) (Nat.le_add_right _ _)
    replace hq : (s.reqs.erase k').get? k = some q := hq
    rw [Dict.get?_erase] at hq
    split at hq
    · nomatch hq
    · exact ⟨q, hq, rfl⟩
  | check t =>
    replace hs : checkUnordered c t s = some (s', out) := hs
    unfold checkUnordered at hs
    split at hs
    · nomatch hs
    · rename_i ks hks
      cases hs
      have hnd : out.Nodup := (lates_sub hks).nodup hd
      show out.count k + open? (out.foldl handle s) k ≤ open? s k + 0
      unfold open?
      rw [handles_get]
      by_cases hm : k ∈ out
      · obtain ⟨r, hr⟩ := (Dict.mem_keys _ _).mp ((lates_sub hks).subset hm)
        have := (lates_mem hd hks hr).mp hm
        have hc : out.count k ≤ 1 := List.nodup_iff_count.mp hnd k
        rw [if_pos hm, hr]
        simp [this.2.1]
        exact hc
      · rw [if_neg hm, List.count_eq_zero.mpr hm, Nat.zero_add]
        exact Nat.le_refl _
  | ordered t j ks known =>
    obtain ⟨e1, e2⟩ := ordered_reqs hs
    subst e2
    simp only [List.count_nil, Nat.zero_add]
    refine Nat.le_trans (open_le_of (s := s) fun q hq => ?_) (Nat.le_add_right _ _)
    rw [e1] at hq
    obtain ⟨r, hr, _, h2, _⟩ := afterBatch_some hq
    exact ⟨r, hr, h2⟩

theorem run_open {c : Cfg} {es : List Ev} {s s' : Mon} {out : List Key} (hd : s.reqs.keys.Nodup) (hs : run c s es = some (s', out)) (k : Key) :
    out.count k + open? s' k ≤ open? s k + cameCount k es := by
  induction es generalizing s out with
  | nil =>
    cases hs
    simp [cameCount]
  | cons e es ih =>
    obtain ⟨s1, o1, o2, h1, h2, rfl⟩ := run_cons hs
    have a := step_open hd h1 k
    have b := ih (reqs_nodup_step h1 hd) h2
    have e' : cameCount k (e :: es) = cameCount k [e] + cameCount k es := by
      show List.countP _ ([e] ++ es) = _
      rw [List.countP_append]
      rfl
    rw [List.count_append, e']
    omega

/-! ## No exception -/

/-- What the node does: it only takes away backups which are there, and only instances which are there order. -/
def Fits : List Inst → List Ev → Prop
  | _, [] => True
  | l, .add _ i :: es => Fits (i :: l) es
  | l, .remove i :: es => i ∈ l ∧ i ≠ 0 ∧ Fits (l.filter (· ≠ i)) es
  | l, .ordered _ i _ _ :: es => i ∈ l ∧ Fits l es
  | l, _ :: es => Fits l es

/-- All requests wait for the master, or did. -/
def Tracks0 (s : Mon) : Prop := ∀ k r, s.reqs.get? k = some r → r.ordered.has 0 = true

theorem tracks_run {c : Cfg} {es : List Ev} {s : Mon} {l : List Inst} (hd : s.reqs.keys.Nodup) (h0 : s.insts.has 0 = true)
    (hl : ∀ i ∈ l, s.insts.has i = true) (ht : Tracks0 s) (hf : Fits l es) : ∃ s' out, run c s es = some (s', out) := by
  induction es generalizing s l with
  | nil => exact ⟨s, [], rfl⟩
  | cons e es ih =>
    have fin : ∀ (s1 : Mon) (o1 : List Key) (l1 : List Inst), step c s e = some (s1, o1) → s1.insts.has 0 = true →
        (∀ i ∈ l1, s1.insts.has i = true) → Tracks0 s1 → Fits l1 es → ∃ s' out, run c s (e :: es) = some (s', out) := by
      intro s1 o1 l1 hs a b d f
      obtain ⟨s', o2, hr⟩ := ih (reqs_nodup_step hs hd) a b d f
      refine ⟨s', o1 ++ o2, ?_⟩
      unfold run
      rw [hs]
      dsimp only
      rw [hr]
    cases e with
    | add t j =>
      have hh : ∀ i, s.insts.has i = true ∨ i = j → (addInstance t j s).insts.has i = true := by
        intro i hi
        show (s.insts.set j _).has i = true
        rw [Dict.has_iff]
        rw [Dict.has_iff] at hi
        by_cases hji : j = i
        · exact ⟨_, (Dict.get?_set ..).trans (if_pos hji)⟩
        · rcases hi with ⟨v, hv⟩ | hi
          · exact ⟨v, (Dict.get?_set ..).trans ((if_neg hji).trans hv)⟩
          · exact absurd hi.symm hji
      refine fin _ [] (j :: l) rfl (hh 0 (Or.inl h0)) (fun i hi => ?_) ht hf
      rcases List.mem_cons.mp hi with hi | hi
      · exact hh i (Or.inr hi)
      · exact hh i (Or.inl (hl i hi))
    | remove j =>
      obtain ⟨h1, h2, h3⟩ := hf
      have hj := hl j h1
      have hne : s.insts.isEmpty = false := by
        cases hi : s.insts with
        | nil =>
          rw [hi] at h0
          nomatch h0
        | cons a b => rfl
      have hs : step c s (.remove j) = some ((Dict.keys (List.filter (fun e : Key × Tracked => e.2.all) (without j s.reqs))).foldl drop
          { s with insts := s.insts.erase j, reqs := without j s.reqs }, []) := by
        show (removeInstance j s).map _ = _
        unfold removeInstance
        rw [hne, if_neg (by nofun), if_pos hj]
        rfl
      have hh : ∀ i, s.insts.has i = true → i ≠ j → (s.insts.erase j).has i = true := by
        intro i hi hij
        rw [Dict.has_iff] at hi ⊢
        obtain ⟨v, hv⟩ := hi
        exact ⟨v, (Dict.get?_erase ..).trans ((if_neg (Ne.symm hij)).trans hv)⟩
      refine fin _ _ (l.filter (· ≠ j)) hs ?_ (fun i hi => ?_) (fun k r hr => ?_) h3
      · rw [drop_insts]
        exact hh 0 h0 (Ne.symm h2)
      · rw [drop_insts]
        have := List.mem_filter.mp hi
        exact hh i (hl i this.1) (by simpa using this.2)
      · rw [drops_get] at hr
        split at hr
        · nomatch hr
        · replace hr : (without j s.reqs).get? k = some r := hr
          rw [without_get] at hr
          obtain ⟨q, hq, rfl⟩ := Option.map_eq_some_iff.mp hr
          have := ht k q hq
          show (q.ordered.erase j).has 0 = true
          rw [Dict.has_iff] at this ⊢
          obtain ⟨v, hv⟩ := this
          exact ⟨v, (Dict.get?_erase ..).trans ((if_neg h2).trans hv)⟩
    | reset t =>
      have hh : ∀ i, s.insts.has i = true → (reset t s).insts.has i = true := by
        intro i hi
        rw [Dict.has_iff] at hi ⊢
        rw [← Dict.mem_keys] at hi ⊢
        unfold reset Dict.keys
        rw [List.map_map]
        exact hi
      exact fin _ [] l rfl (hh 0 h0) (fun i hi => hh i (hl i hi)) nofun hf
    | came t k =>
      refine fin _ [] l rfl h0 hl (fun k' r hr => ?_) hf
      replace hr : (s.reqs.set k _).get? k' = some r := hr
      rw [Dict.get?_set] at hr
      split at hr
      · obtain ⟨r0, hr0, _, h2, _⟩ := came_waits (t := t) (k := k) h0
        replace hr0 : (s.reqs.set k _).get? k = some r0 := hr0
        rw [Dict.get?_set, if_pos rfl, hr] at hr0
        rw [Option.some.inj hr0]
        exact (Dict.has_iff _ _).mpr ⟨_, h2⟩
      · exact ht k' r hr
    | dropped k =>
      refine fin _ [] l rfl h0 hl (fun k' r hr => ?_) hf
      replace hr : (s.reqs.erase k).get? k' = some r := hr
      rw [Dict.get?_erase] at hr
      split at hr
      · nomatch hr
      · exact ht k' r hr
    | check t =>
      obtain ⟨ks, hks⟩ := lates_some (c := c) (t := t) (d := s.reqs) fun e he => ht e.1 e.2 (Dict.get?_of_mem hd he)
      have hs : step c s (.check t) = some (ks.foldl handle s, ks) := by
        show checkUnordered c t s = _
        unfold checkUnordered
        rw [hks]
      refine fin _ _ l hs (by rw [handles_insts]; exact h0) (fun i hi => by rw [handles_insts]; exact hl i hi) (fun k r hr => ?_) hf
      rw [handles_get] at hr
      split at hr
      · obtain ⟨q, hq, rfl⟩ := Option.map_eq_some_iff.mp hr
        exact ht k q hq
      · exact ht k r hr
    | ordered t j ks known =>
      obtain ⟨h1, h2⟩ := hf
      obtain ⟨q, hq⟩ := (Dict.has_iff _ _).mp (hl j h1)
      obtain ⟨s1, hs⟩ : ∃ s1, step c s (.ordered t j ks known) = some (s1, []) := by
        obtain ⟨x, hx⟩ : ∃ x, ordered c known t j ks s = some x := by
          unfold ordered
          rw [hq]
          exact ⟨_, rfl⟩
        refine ⟨x.1, ?_⟩
        show (ordered c known t j ks s).map _ = _
        rw [hx]
        rfl
      have hh : ∀ i, s.insts.has i = true → s1.insts.has i = true := by
        intro i hi
        obtain ⟨r, hr⟩ := (Dict.has_iff _ _).mp hi
        obtain ⟨r', hr', _⟩ := step_rec hs (i := i) rfl hr
        exact (Dict.has_iff _ _).mpr ⟨r', hr'⟩
      refine fin _ _ l hs (hh 0 h0) (fun i hi => hh i (hl i hi)) (fun k r hr => ?_) h2
      rw [(ordered_reqs hs).1] at hr
      have hall : ∀ (ks : List Key) (s : Mon), Tracks0 s → Tracks0 (afterBatch j s ks) := by
        intro ks
        induction ks with
        | nil => exact fun _ h => h
        | cons k ks ih =>
          intro s h
          unfold afterBatch
          split
          · exact ih s h
          · rename_i r0 hr0
            apply ih
            intro k' r' hr'
            by_cases hk : k' = k
            · subst hk
              rw [trackOrder_self hr']
              have := h k' r0 hr0
              unfold Tracked.by
              split
              · show (r0.ordered.set j true).has 0 = true
                rw [Dict.has_iff] at this ⊢
                obtain ⟨v, hv⟩ := this
                by_cases hj : j = 0
                · exact ⟨_, (Dict.get?_set ..).trans (if_pos hj)⟩
                · exact ⟨v, (Dict.get?_set ..).trans ((if_neg hj).trans hv)⟩
              · exact this
            · rw [trackOrder_other hk] at hr'
              exact h k' r' hr'
      exact hall ks s ht k r hr

end Verif.Monitor
