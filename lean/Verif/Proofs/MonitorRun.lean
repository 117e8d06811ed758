import Verif.Proofs.MonitorMeas
/-! # What the monitor knows of an instance is what happened to it -/
namespace Verif.Monitor
open Verif Verif.Spec.Monitor

theorem drop_insts (s : Mon) (ks : List Key) : (ks.foldl drop s).insts = s.insts := by
  induction ks generalizing s with
  | nil => rfl
  | cons k ks ih => exact (ih _).trans rfl

theorem handle_insts (s : Mon) (k : Key) : (handle s k).insts = s.insts := by
  unfold handle
  split <;> rfl

theorem handles_insts (s : Mon) (ks : List Key) : (ks.foldl handle s).insts = s.insts := by
  induction ks generalizing s with
  | nil => rfl
  | cons k ks ih => exact (ih _).trans (handle_insts s k)

theorem trackOrder_insts (i : Inst) (k : Key) (r : Tracked) (s : Mon) : (trackOrder i k r s).insts = s.insts := by
  unfold trackOrder
  dsimp only
  repeat' split
  all_goals rfl

theorem orderOne_none {c : Cfg} {known : Key → Bool} {t : Nat} {i : Inst} {s : Mon} {r : Rec} {d : Dict Key Nat} {k : Key}
    (h : s.reqs.get? k = none) : orderOne c known t i (s, r, d) k = (s, r, d) := by
  unfold orderOne
  dsimp only
  rw [h]

theorem orderOne_some {c : Cfg} {known : Key → Bool} {t : Nat} {i : Inst} {s : Mon} {r : Rec} {d : Dict Key Nat} {k : Key} {q : Tracked}
    (h : s.reqs.get? k = some q) : orderOne c known t i (s, r, d) k =
      (trackOrder i k q s,
       { r with meas := addRequest c t r.meas, lat := if known k then r.lat.add c (t - q.since) else r.lat },
       d.set k (t - q.since)) := by
  unfold orderOne
  dsimp only
  rw [h]

/-- One request of a batch for the record of the instance. -/
def Rec.count (c : Cfg) (r : Rec) (e : Entry) : Rec :=
  { r with meas := addRequest c e.time r.meas, lat := if e.known then r.lat.add c e.dur else r.lat }

theorem batch_rec (c : Cfg) (known : Key → Bool) (t : Nat) (i : Inst) (ks : List Key) (s : Mon) (r : Rec) (d : Dict Key Nat) :
    (ks.foldl (orderOne c known t i) (s, r, d)).2.1 = (batchLog known t i s ks).foldl (Rec.count c) r ∧
    (ks.foldl (orderOne c known t i) (s, r, d)).1.insts = s.insts := by
  induction ks generalizing s r d with
  | nil => exact ⟨rfl, rfl⟩
  | cons k ks ih =>
    rw [List.foldl_cons]
    unfold batchLog
    cases hk : s.reqs.get? k with
    | none =>
      rw [orderOne_none hk]
      exact ih s r d
    | some q =>
      rw [orderOne_some hk]
      refine ⟨(ih _ _ _).1, ?_⟩
      rw [(ih _ _ _).2, trackOrder_insts]

theorem set_length (d : Dict Key Nat) (k : Key) (v : Nat) : d.length ≤ (d.set k v).length ∧ 1 ≤ (d.set k v).length := by
  induction d with
  | nil => exact ⟨Nat.zero_le _, Nat.le_refl _⟩
  | cons e d ih =>
    unfold Dict.set
    split
    · simp
    · simp only [List.length_cons]
      omega

theorem batch_durs (c : Cfg) (known : Key → Bool) (t : Nat) (i : Inst) (ks : List Key) (s : Mon) (r : Rec) (d : Dict Key Nat) :
    d.length ≤ (ks.foldl (orderOne c known t i) (s, r, d)).2.2.length ∧
    (batchLog known t i s ks ≠ [] → 1 ≤ (ks.foldl (orderOne c known t i) (s, r, d)).2.2.length) := by
  induction ks generalizing s r d with
  | nil => exact ⟨Nat.le_refl _, fun h => absurd rfl h⟩
  | cons k ks ih =>
    rw [List.foldl_cons]
    unfold batchLog
    cases hk : s.reqs.get? k with
    | none =>
      rw [orderOne_none hk]
      exact ih s r d
    | some q =>
      rw [orderOne_some hk]
      have h2 := set_length d k (t - q.since)
      exact ⟨Nat.le_trans h2.1 (ih _ _ _).1, fun _ => Nat.le_trans h2.2 (ih _ _ _).1⟩

/-- What an event does to the record of an instance which it does not start or end. -/
theorem step_rec {c : Cfg} {s s' : Mon} {out : List Key} {e : Ev} {i : Inst} {r : Rec} (h : step c s e = some (s', out))
    (hq : e.quiet i = true) (hr : s.insts.get? i = some r) :
    ∃ r', s'.insts.get? i = some r' ∧ r'.meas = ((evLog s i e).foldl (Rec.count c) r).meas ∧
      r'.lat = ((evLog s i e).foldl (Rec.count c) r).lat ∧ r.num.1 + (if evLog s i e = [] then 0 else 1) ≤ r'.num.1 := by
  cases e with
  | add t j =>
    cases h
    have hj : j ≠ i := by simpa [Ev.quiet] using hq
    refine ⟨r, ?_, rfl, rfl, Nat.le_refl _⟩
    show (s.insts.set j _).get? i = _
    rw [Dict.get?_set, if_neg hj]
    exact hr
  | remove j =>
    have hj : j ≠ i := by simpa [Ev.quiet] using hq
    replace h : (removeInstance j s).map (fun s => (s, ([] : List Key))) = some (s', out) := h
    unfold removeInstance at h
    split at h
    · cases h
      exact ⟨r, hr, rfl, rfl, Nat.le_refl _⟩
    · split at h
      · cases h
        refine ⟨r, ?_, rfl, rfl, Nat.le_refl _⟩
        rw [drop_insts]
        show (s.insts.erase j).get? i = _
        rw [Dict.get?_erase, if_neg hj]
        exact hr
      · nomatch h
  | reset t => nomatch hq
  | came t k =>
    cases h
    exact ⟨r, hr, rfl, rfl, Nat.le_refl _⟩
  | dropped k =>
    cases h
    exact ⟨r, hr, rfl, rfl, Nat.le_refl _⟩
  | check t =>
    replace h : checkUnordered c t s = some (s', out) := h
    unfold checkUnordered at h
    split at h
    · nomatch h
    · cases h
      refine ⟨r, ?_, rfl, rfl, Nat.le_refl _⟩
      rw [handles_insts]
      exact hr
  | ordered t j ks known =>
    replace h : (ordered c known t j ks s).map (fun x => (x.1, ([] : List Key))) = some (s', out) := h
    unfold ordered at h
    split at h
    · nomatch h
    · rename_i q hj
      cases h
      have hb := batch_rec c known t j ks s q []
      have hd := batch_durs c known t j ks s q []
      dsimp only
      by_cases hji : j = i
      · subst hji
        have e' : evLog s j (.ordered t j ks known) = batchLog known t j s ks := if_pos rfl
        rw [hr] at hj
        have hrq := Option.some.inj hj
        subst hrq
        have hn : ((batchLog known t j s ks).foldl (Rec.count c) r).num = r.num := by
          generalize batchLog known t j s ks = l
          have : ∀ r : Rec, (l.foldl (Rec.count c) r).num = r.num := by
            induction l with
            | nil => exact fun _ => rfl
            | cons x l ih => exact fun r => (ih _).trans rfl
          exact this r
        rw [e', ← hb.1]
        rw [← hb.1] at hn
        refine ⟨_, (Dict.get?_set ..).trans (if_pos rfl), rfl, rfl, ?_⟩
        dsimp only
        rw [hn]
        split
        · omega
        · rename_i hne
          have := hd.2 hne
          omega
      · have e' : evLog s i (.ordered t j ks known) = [] := if_neg hji
        rw [e']
        refine ⟨r, ?_, rfl, rfl, Nat.le_refl _⟩
        rw [Dict.get?_set, if_neg hji, hb.2]
        exact hr

theorem foldl_meas (c : Cfg) (l : List Entry) (r : Rec) : (l.foldl (Rec.count c) r).meas = addAll c r.meas (l.map Entry.time) := by
  induction l generalizing r with
  | nil => rfl
  | cons e l ih => exact ih _

/-- How long the requests took which the node still had. -/
def durs (l : List Entry) : List Nat := (l.filter Entry.known).map Entry.dur

theorem foldl_lat (c : Cfg) (l : List Entry) (r : Rec) : (l.foldl (Rec.count c) r).lat = (durs l).foldl (fun a d => a.add c d) r.lat := by
  induction l generalizing r with
  | nil => rfl
  | cons e l ih =>
    rw [List.foldl_cons, ih]
    unfold durs Rec.count
    dsimp only
    rw [List.filter_cons]
    split <;> rfl

/-- The number of batches with a counted request. -/
def batches (c : Cfg) (i : Inst) : Mon → List Ev → List Nat
  | _, [] => []
  | s, e :: es =>
    match step c s e with
    | none => []
    | some x => (if evLog s i e = [] then [] else (evLog s i e).map Entry.time |>.take 1) ++ batches c i x.1 es

theorem run_rec {c : Cfg} {es : List Ev} {s s' : Mon} {out : List Key} {i : Inst} {r : Rec} (h : run c s es = some (s', out))
    (hq : ∀ e ∈ es, e.quiet i = true) (hr : s.insts.get? i = some r) :
    ∃ r', s'.insts.get? i = some r' ∧ r'.meas = addAll c r.meas (times c i s es) ∧
      r'.lat = (durs (log c i s es)).foldl (fun a d => a.add c d) r.lat ∧ r.num.1 + (batches c i s es).length ≤ r'.num.1 := by
  induction es generalizing s r out with
  | nil =>
    cases h
    exact ⟨r, hr, rfl, rfl, Nat.le_refl _⟩
  | cons e es ih =>
    unfold run at h
    unfold times log batches
    cases hx : step c s e with
    | none =>
      rw [hx] at h
      nomatch h
    | some x =>
      rw [hx] at h
      dsimp only at h ⊢
      cases hy : run c x.1 es with
      | none =>
        rw [hy] at h
        nomatch h
      | some y =>
        rw [hy] at h
        cases h
        obtain ⟨r1, g1, m1, l1, n1⟩ := step_rec hx (hq e (List.mem_cons_self ..)) hr
        obtain ⟨r2, g2, m2, l2, n2⟩ := ih hy (fun e' he => hq e' (List.mem_cons_of_mem _ he)) g1
        refine ⟨r2, g2, ?_, ?_, ?_⟩
        · rw [m2, m1, foldl_meas, List.map_append]
          unfold addAll times
          rw [List.foldl_append]
        · rw [l2, l1, foldl_lat]
          unfold durs
          rw [List.filter_append, List.map_append, List.foldl_append]
        · rw [List.length_append]
          refine Nat.le_trans ?_ n2
          split at n1
          · rename_i he
            rw [if_pos he]
            simp
            omega
          · rename_i he
            rw [if_neg he]
            have : ((evLog s i e).map Entry.time |>.take 1).length ≤ 1 := List.length_take_le ..
            omega

/-- The clock does not go back. -/
def Clock (t0 : Nat) (es : List Ev) (t : Nat) : Prop := Ascending t0 (es.flatMap Ev.time) t

theorem batchLog_time {known : Key → Bool} {t : Nat} {i : Inst} {s : Mon} {ks : List Key} : ∀ e ∈ batchLog known t i s ks, e.time = t := by
  induction ks generalizing s with
  | nil => nofun
  | cons k ks ih =>
    unfold batchLog
    cases s.reqs.get? k with
    | none => exact ih
    | some r =>
      intro e he
      rcases List.mem_cons.mp he with he | he
      · rw [he]
      · exact ih e he

theorem evLog_time {s : Mon} {i : Inst} {e : Ev} : ∀ x ∈ evLog s i e, e.time = [x.time] := by
  intro x hx
  cases e with
  | ordered t j ks known =>
    replace hx : x ∈ if j = i then batchLog known t i s ks else [] := hx
    split at hx
    · rw [batchLog_time x hx]
      rfl
    · nomatch hx
  | _ => nomatch hx

theorem times_ascending {c : Cfg} {i : Inst} {es : List Ev} {s : Mon} {t0 t : Nat} (h : Clock t0 es t) : Ascending t0 (times c i s es) t := by
  induction es generalizing s t0 with
  | nil => exact ⟨List.Pairwise.nil, nofun⟩
  | cons e es ih =>
    obtain ⟨hp, hb⟩ := h
    rw [List.flatMap_cons, List.pairwise_append] at hp
    rw [List.flatMap_cons] at hb
    have hrest : Clock t0 es t := ⟨hp.2.1, fun x hx => hb x (List.mem_append_right _ hx)⟩
    unfold times log
    cases hx : step c s e with
    | none => exact ⟨List.Pairwise.nil, nofun⟩
    | some x =>
      dsimp only
      obtain ⟨q1, q2⟩ := ih (s := x.1) hrest
      rw [List.map_append]
      have e1 : ∀ y ∈ (evLog s i e).map Entry.time, e.time = [y] := by
        intro y hy
        obtain ⟨z, hz, rfl⟩ := List.mem_map.mp hy
        exact evLog_time z hz
      refine ⟨?_, fun y hy => ?_⟩
      · rw [List.pairwise_append]
        refine ⟨?_, q1, fun y hy z hz => ?_⟩
        · rw [List.pairwise_iff_forall_sublist]
          intro y z hyz
          have h1 := e1 y (hyz.subset (List.mem_cons_self ..))
          have h2 := e1 z (hyz.subset (List.mem_cons_of_mem _ (List.mem_cons_self ..)))
          rw [h1] at h2
          have := (List.cons.inj h2).1
          omega
        · have h1 := e1 y hy
          rw [h1] at hp
          exact (ih (s := x.1) (t0 := y) ⟨hp.2.1, fun w hw => ⟨hp.2.2 y (List.mem_cons_self ..) w hw, (hb w (List.mem_append_right _ hw)).2⟩⟩).2 z hz |>.1
      · rcases List.mem_append.mp hy with hy | hy
        · have h1 := e1 y hy
          rw [h1] at hb
          exact hb y (List.mem_append_left _ (List.mem_cons_self ..))
        · exact q2 y hy

/-- Every time is the time of a batch. -/
theorem times_batches {c : Cfg} {i : Inst} {es : List Ev} {s : Mon} : ∀ t ∈ times c i s es, t ∈ batches c i s es := by
  induction es generalizing s with
  | nil => nofun
  | cons e es ih =>
    unfold times log batches
    cases hx : step c s e with
    | none => nofun
    | some x =>
      dsimp only
      intro t ht
      rw [List.map_append] at ht
      rcases List.mem_append.mp ht with ht | ht
      · apply List.mem_append_left
        obtain ⟨z, hz, rfl⟩ := List.mem_map.mp ht
        have hne : evLog s i e ≠ [] := by
          intro he
          rw [he] at hz
          nomatch hz
        rw [if_neg hne]
        cases hl : evLog s i e with
        | nil => exact absurd hl hne
        | cons a l =>
          have h1 := evLog_time z hz
          have h2 := evLog_time a (by rw [hl]; exact List.mem_cons_self ..)
          rw [h1] at h2
          rw [(List.cons.inj h2).1]
          exact List.mem_cons_self ..
      · exact List.mem_append_right _ (ih t ht)

end Verif.Monitor
