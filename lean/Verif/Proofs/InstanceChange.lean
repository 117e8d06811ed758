import Verif.Model.InstanceChange
import Verif.Proofs.Count
/-! Invariants of the votes for a view change. -/
namespace Verif.IC

/-! ### Reading the database back -/

/-- No view twice, no voter twice, no view without votes. -/
structure WF (c : Dict Nat Votes) : Prop where
  nodup : c.keys.Nodup
  inner : ∀ e ∈ c, e.2.keys.Nodup
  nonempty : ∀ e ∈ c, e.2 ≠ []

theorem set_append {κ α : Type} [DecidableEq κ] (c : Dict κ α) (k : κ) (x y : α) (h : k ∉ c.keys) :
    Dict.set (c ++ [(k, x)]) k y = c ++ [(k, y)] := by
  induction c with
  | nil => simp [Dict.set]
  | cons a c ih =>
    simp only [Dict.keys, List.map_cons, List.mem_cons, not_or] at h
    simp only [List.cons_append, Dict.set]
    rw [if_neg (fun e => h.1 e.symm), ih h.2]

theorem set_new {κ α : Type} [DecidableEq κ] (c : Dict κ α) (k : κ) (y : α) (h : k ∉ c.keys) :
    Dict.set c k y = c ++ [(k, y)] := by
  induction c with
  | nil => simp [Dict.set]
  | cons a c ih =>
    simp only [Dict.keys, List.map_cons, List.mem_cons, not_or] at h
    simp only [List.cons_append, Dict.set]
    rw [if_neg (fun e => h.1 e.symm), ih h.2]

theorem get?_append_self {κ α : Type} [DecidableEq κ] (c : Dict κ α) (k : κ) (x : α) (h : k ∉ c.keys) :
    Dict.get? (c ++ [(k, x)]) k = some x := by
  induction c with
  | nil => simp [Dict.get?]
  | cons a c ih =>
    simp only [Dict.keys, List.map_cons, List.mem_cons, not_or] at h
    rw [List.cons_append, Dict.get?_cons, if_neg (fun e => h.1 e.symm), ih h.2]

theorem fill_inner (c : Dict Nat Votes) (v : Nat) (hv : v ∉ c.keys) (votes pre : Votes)
    (hn : (Dict.keys (pre ++ votes)).Nodup) :
    votes.foldl (fun c w => cacheAdd c v w.1 w.2) (c ++ [(v, pre)]) = c ++ [(v, pre ++ votes)] := by
  induction votes generalizing pre with
  | nil => simp
  | cons w votes ih =>
    have hw : w.1 ∉ Dict.keys pre := by
      simp only [Dict.keys, List.map_append, List.map_cons] at hn
      intro hm
      exact (List.nodup_append.1 hn).2.2 w.1 hm w.1 (by simp) rfl
    rw [List.foldl_cons, cacheAdd, get?_append_self c v pre hv, Option.getD_some, set_append c v _ _ hv,
      set_new pre w.1 w.2 hw, ih (pre ++ [(w.1, w.2)]) (by simpa using hn)]
    simp

theorem fillCache_eq {db : Dict Nat Votes} (h : WF db) : fillCache db = db := by
  unfold fillCache
  have : ∀ (suf pre : Dict Nat Votes), WF (pre ++ suf) →
      suf.foldl (fun c e => e.2.foldl (fun c w => cacheAdd c e.1 w.1 w.2) c) pre = pre ++ suf := by
    intro suf
    induction suf with
    | nil => intro pre _; simp
    | cons e suf ih =>
      intro pre h
      have he : e ∈ pre ++ e :: suf := by simp
      have hv : e.1 ∉ Dict.keys pre := by
        have hn := h.nodup
        simp only [Dict.keys, List.map_append, List.map_cons] at hn
        intro hm
        exact (List.nodup_append.1 hn).2.2 e.1 hm e.1 (by simp) rfl
      rw [List.foldl_cons]
      have : e.2.foldl (fun c w => cacheAdd c e.1 w.1 w.2) pre = pre ++ [e] := by
        have hi := h.inner e he
        have hne := h.nonempty e he
        obtain ⟨v, votes⟩ := e
        cases votes with
        | nil => exact absurd rfl hne
        | cons w votes =>
          have hg : pre.get? v = none := by
            cases hg : pre.get? v with
            | none => rfl
            | some x => exact absurd ((Dict.mem_keys _ _).2 ⟨x, hg⟩) hv
          simp only [List.foldl_cons, cacheAdd, hg, Option.getD_none, Dict.set]
          rw [set_new pre v _ hv]
          exact fill_inner pre v hv votes [(w.1, w.2)] hi
      rw [this]
      rw [ih (pre ++ [e]) (by simpa using h)]
      simp
  simpa using this db [] (by simpa using h)

/-! ### Cache and database agree -/

structure Sync (c db : Dict Nat Votes) : Prop where
  cache : WF c
  wdb : WF db
  eq : ∀ v, db.get? v = c.get? v

theorem WF.set {c : Dict Nat Votes} (h : WF c) (v : Nat) {votes : Votes} (hn : votes.keys.Nodup) (hne : votes ≠ []) :
    WF (c.set v votes) where
  nodup := Dict.nodup_keys_set h.nodup _ _
  inner e he := by
    rcases Dict.mem_set he with he | rfl
    · exact h.inner e he
    · exact hn
  nonempty e he := by
    rcases Dict.mem_set he with he | rfl
    · exact h.nonempty e he
    · exact hne

theorem WF.filter {c : Dict Nat Votes} (h : WF c) (p : Nat × Votes → Bool) : WF (c.filter p) where
  nodup := Dict.nodup_keys_filter h.nodup _
  inner e he := h.inner e (List.mem_filter.1 he).1
  nonempty e he := h.nonempty e (List.mem_filter.1 he).1

theorem WF.erase {c : Dict Nat Votes} (h : WF c) (v : Nat) : WF (c.erase v) := h.filter _

theorem set_ne_nil {κ α : Type} [DecidableEq κ] (d : Dict κ α) (k : κ) (v : α) : d.set k v ≠ [] :=
  List.ne_nil_of_mem (Dict.mem_set_self d k v)

theorem WF.add {c : Dict Nat Votes} (h : WF c) (v : Nat) (w : Node) (x : Vote) : WF (cacheAdd c v w x) := by
  refine h.set v (Dict.nodup_keys_set ?_ _ _) (set_ne_nil _ _ _)
  cases hg : c.get? v with
  | none => simp [Dict.keys]
  | some l => exact h.inner (v, l) (Dict.mem_of_get? hg)

theorem WF.get_ne {c : Dict Nat Votes} (h : WF c) (v : Nat) : c.get? v ≠ some [] :=
  fun e => h.nonempty _ (Dict.mem_of_get? e) rfl

/-- After the write for a view, the database holds what the cache holds for it. -/
theorem get?_applyWrite {c : Dict Nat Votes} (h : WF c) (db : Dict Nat Votes) (v j : Nat) :
    (applyWrite db (dbFromCache c v)).get? j = if v = j then c.get? v else db.get? j := by
  unfold dbFromCache
  cases hg : c.get? v with
  | none => simp only [applyWrite, Dict.get?_erase]
  | some l =>
    cases l with
    | nil => exact absurd hg (h.get_ne v)
    | cons a l => simp only [applyWrite, Dict.get?_set]

theorem WF.applyWrite {c db : Dict Nat Votes} (h : WF c) (hdb : WF db) (v : Nat) : WF (applyWrite db (dbFromCache c v)) := by
  unfold dbFromCache
  cases hg : c.get? v with
  | none => exact hdb.erase v
  | some l =>
    cases l with
    | nil => exact hdb.erase v
    | cons a l => exact hdb.set v (h.inner _ (Dict.mem_of_get? hg)) (by simp)

/-- An operation that changes the cache at one view only, and writes that view. -/
theorem Sync.write {c c' db : Dict Nat Votes} (h : Sync c db) (hc : WF c') (v : Nat)
    (ho : ∀ j, v ≠ j → c'.get? j = c.get? j) : Sync c' (IC.applyWrite db (dbFromCache c' v)) where
  cache := hc
  wdb := hc.applyWrite h.wdb v
  eq j := by
    rw [get?_applyWrite hc]
    split
    · next e => subst e; rfl
    · next e => rw [ho j e]; exact h.eq j

theorem updateVotes_cases (c : Dict Nat Votes) (interval now v : Nat) :
    (updateVotes c interval now v = ⟨c, []⟩) ∨
    ∃ votes, c.get? v = some votes ∧
      (updateVotes c interval now v).writes = [dbFromCache (updateVotes c interval now v).cache v] ∧
      (updateVotes c interval now v).cache =
        (if (votes.filter (fun e => !outdated interval now e.2)).isEmpty then c.erase v
        else c.set v (votes.filter (fun e => !outdated interval now e.2))) := by
  unfold updateVotes
  cases hg : c.get? v with
  | none => exact .inl rfl
  | some votes =>
    simp only
    by_cases h1 : interval = 0
    · rw [if_pos h1]; exact .inl rfl
    · rw [if_neg h1]
      split
      · exact .inr ⟨votes, rfl, rfl, rfl⟩
      · exact .inl rfl

theorem updateVotes_other (c : Dict Nat Votes) (interval now v j : Nat) (hj : v ≠ j) :
    (updateVotes c interval now v).cache.get? j = c.get? j := by
  rcases updateVotes_cases c interval now v with h | ⟨votes, -, -, h⟩
  · rw [h]
  · rw [h]
    split
    · rw [Dict.get?_erase, if_neg hj]
    · rw [Dict.get?_set, if_neg hj]

/-- At the view itself: the votes not outdated, if any. -/
theorem updateVotes_self {c : Dict Nat Votes} (interval now v : Nat) {votes' : Votes}
    (h : (updateVotes c interval now v).cache.get? v = some votes') :
    ∃ votes, c.get? v = some votes ∧ (∀ e ∈ votes', e ∈ votes) ∧ (0 < interval → ∀ e ∈ votes', outdated interval now e.2 = false) := by
  unfold updateVotes at h
  cases hg : c.get? v with
  | none => rw [hg] at h; simp only at h; rw [hg] at h; cases h
  | some votes =>
    rw [hg] at h
    simp only at h
    refine ⟨votes, rfl, ?_⟩
    by_cases h1 : interval = 0
    · rw [if_pos h1] at h
      simp only [hg] at h
      cases h
      exact ⟨fun e he => he, fun h => by omega⟩
    · rw [if_neg h1] at h
      split at h
      · simp only at h
        split at h
        · rw [Dict.get?_erase, if_pos rfl] at h; cases h
        · rw [Dict.get?_set, if_pos rfl] at h
          cases h
          exact ⟨fun e he => (List.mem_filter.1 he).1, fun _ e he => by simpa using (List.mem_filter.1 he).2⟩
      · next ha =>
        simp only [hg] at h
        cases h
        refine ⟨fun e he => he, fun _ e he => ?_⟩
        cases ho : outdated interval now e.2 with
        | false => rfl
        | true => exact absurd (List.any_eq_true.2 ⟨e, he, ho⟩) ha

theorem WF.updateVotes {c : Dict Nat Votes} (h : WF c) (interval now v : Nat) : WF (updateVotes c interval now v).cache := by
  rcases updateVotes_cases c interval now v with e | ⟨votes, hg, -, e⟩
  · rw [e]; exact h
  · rw [e]
    split
    · exact h.erase v
    · next hne =>
      exact h.set v (Dict.nodup_keys_filter (h.inner _ (Dict.mem_of_get? hg)) _) (by simpa using hne)

theorem Sync.updateVotes {c db : Dict Nat Votes} (h : Sync c db) (interval now v : Nat) :
    Sync (updateVotes c interval now v).cache ((updateVotes c interval now v).writes.foldl IC.applyWrite db) := by
  rcases updateVotes_cases c interval now v with e | ⟨votes, hg, hw, -⟩
  · rw [e]; exact h
  · rw [hw]
    exact h.write (h.cache.updateVotes interval now v) v (fun j hj => updateVotes_other c interval now v j hj)

theorem Sync.addVote {c db : Dict Nat Votes} (h : Sync c db) (now v r : Nat) (w : Node) :
    Sync (addVote c now v r w).cache ((addVote c now v r w).writes.foldl IC.applyWrite db) :=
  h.write (h.cache.add v w _) v (fun j hj => by unfold cacheAdd; rw [Dict.get?_set, if_neg hj])

theorem get?_eraseAll (vs : List Nat) (db : Dict Nat Votes) (j : Nat) :
    ((vs.map (fun v => ((v, none) : Write))).foldl applyWrite db).get? j = if j ∈ vs then none else db.get? j := by
  induction vs generalizing db with
  | nil => simp
  | cons v vs ih =>
    simp only [List.map_cons, List.foldl_cons, ih, applyWrite, Dict.get?_erase, List.mem_cons]
    by_cases h1 : j ∈ vs
    · simp [h1]
    · by_cases h2 : v = j
      · simp [h2]
      · simp [h1, h2, show ¬ j = v from fun e => h2 e.symm]

theorem WF.eraseAll (vs : List Nat) {db : Dict Nat Votes} (h : WF db) :
    WF ((vs.map (fun v => ((v, none) : Write))).foldl IC.applyWrite db) := by
  induction vs generalizing db with
  | nil => exact h
  | cons v vs ih => exact ih (h.erase v)

theorem Sync.removeView {c db : Dict Nat Votes} (h : Sync c db) (v : Nat) :
    Sync (removeView c v).cache ((removeView c v).writes.foldl IC.applyWrite db) where
  cache := h.cache.filter _
  wdb := WF.eraseAll _ h.wdb
  eq j := by
    unfold IC.removeView
    simp only
    rw [get?_eraseAll, Dict.get?_filter c (fun k => !decide (k ≤ v)) j, h.eq j]
    simp only [List.mem_filter, decide_eq_true_eq, Bool.not_eq_true']
    by_cases hj : j ≤ v
    · simp only [hj, and_true, decide_true, Bool.true_eq_false, if_false]
      split
      · rfl
      · next hk =>
        cases hg : c.get? j with
        | none => rfl
        | some x => exact absurd ((Dict.mem_keys _ _).2 ⟨x, hg⟩) hk
    · simp [hj]

theorem Sync.restart {c db : Dict Nat Votes} (h : Sync c db) : Sync (fillCache db) db where
  cache := by rw [fillCache_eq h.wdb]; exact h.wdb
  wdb := h.wdb
  eq v := by rw [fillCache_eq h.wdb]

/-! ### Where votes come from -/

/-- Every vote in the cache satisfies `P view voter timestamp`. -/
def All (P : Nat → Node → Nat → Prop) (c : Dict Nat Votes) : Prop :=
  ∀ v votes, c.get? v = some votes → ∀ e ∈ votes, P v e.1 e.2.ts

theorem All.updateVotes {P c} (h : All P c) (interval now v : Nat) : All P (updateVotes c interval now v).cache := by
  intro j votes hj e he
  by_cases hv : v = j
  · subst hv
    obtain ⟨vs, a, b, -⟩ := updateVotes_self interval now v hj
    exact h _ vs a e (b e he)
  · rw [updateVotes_other c interval now v j hv] at hj
    exact h j votes hj e he

theorem All.addVote {P c} (h : All P c) {now v r : Nat} {w : Node} (hP : P v w now) : All P (addVote c now v r w).cache := by
  intro j votes hj e he
  simp only [IC.addVote, cacheAdd] at hj
  rw [Dict.get?_set] at hj
  split at hj
  · next e' =>
    subst e'
    cases hj
    rcases Dict.mem_set he with he | rfl
    · cases hg : c.get? v with
      | none => rw [hg] at he; cases he
      | some vs => rw [hg] at he; exact h v vs hg e he
    · exact hP
  · exact h j votes hj e he

theorem All.removeView {P c} (h : All P c) (v : Nat) : All P (removeView c v).cache := by
  intro j votes hj e he
  unfold IC.removeView at hj
  simp only at hj
  rw [Dict.get?_filter c (fun k => !decide (k ≤ v)) j] at hj
  split at hj
  · exact h j votes hj e he
  · cases hj

/-- What the service has when it starts a view change to `v`. -/
def Emit (P : Nat → Node → Nat → Prop) (cfg : Cfg) (clock v : Nat) : Prop :=
  ∃ Q : List Node, Q.Nodup ∧ cfg.n - getMaxFailures cfg.n ≤ Q.length ∧
    ∀ w ∈ Q, ∃ ts, P v w ts ∧ (0 < cfg.interval → clock ≤ ts + cfg.interval)

/-- What handling a message keeps, and what it may start. -/
structure Kept (P : Nat → Node → Nat → Prop) (cfg : Cfg) (s s' : State) : Prop where
  sync : Sync s'.cache s'.db
  all : All P s'.cache
  clock : s'.clock = s.clock
  sent : s'.sent = s.sent
  started : ∃ l, s'.started = s.started ++ l ∧ ∀ v ∈ l, Emit P cfg s.clock v

theorem Kept.refl {P cfg s} (h : Sync s.cache s.db) (ha : All P s.cache) : Kept P cfg s s :=
  ⟨h, ha, rfl, rfl, [], by simp, by simp⟩

theorem Kept.trans {P cfg s s' s''} (h : Kept P cfg s s') (h' : Kept P cfg s' s'') : Kept P cfg s s'' := by
  obtain ⟨l, a, b⟩ := h.started
  obtain ⟨l', a', b'⟩ := h'.started
  refine ⟨h'.sync, h'.all, h'.clock.trans h.clock, h'.sent.trans h.sent, l ++ l', by rw [a', a, List.append_assoc], ?_⟩
  intro v hv
  rcases List.mem_append.1 hv with hv | hv
  · exact b v hv
  · have := b' v hv
    rwa [h.clock] at this

theorem Kept.hasFrom {P cfg s} (h : Sync s.cache s.db) (ha : All P s.cache) (v : Nat) (w : Node) :
    Kept P cfg s (s.hasFrom cfg v w).1 :=
  ⟨h.updateVotes _ _ _, ha.updateVotes _ _ _, rfl, rfl, [], by simp [State.hasFrom, State.effect], by simp⟩

theorem Kept.tryStart {P cfg s} (h : Sync s.cache s.db) (ha : All P s.cache) (v : Nat) :
    Kept P cfg s (s.tryStart cfg v) := by
  unfold State.tryStart State.hasQuorum
  simp only
  have hs := h.updateVotes cfg.interval s.clock v
  have hA := ha.updateVotes cfg.interval s.clock v
  have stay : Kept P cfg s (s.effect (updateVotes s.cache cfg.interval s.clock v)) :=
    ⟨hs, hA, rfl, rfl, [], by simp [State.effect], by simp⟩
  cases hg : (s.effect (updateVotes s.cache cfg.interval s.clock v)).cache.get? v with
  | none => simpa using stay
  | some votes =>
    simp only
    split
    · next hc =>
      simp only [Bool.and_eq_true, decide_eq_true_eq] at hc
      refine ⟨hs, hA, rfl, rfl, [v], rfl, ?_⟩
      intro v' hv'
      cases List.mem_singleton.1 hv'
      refine ⟨votes.keys, hs.cache.inner _ (Dict.mem_of_get? hg), ?_, ?_⟩
      · simpa [Dict.keys, Quorums.ofN] using hc.1
      · intro w hw
        obtain ⟨e, he, rfl⟩ := List.mem_map.1 hw
        refine ⟨e.2.ts, hA v votes hg e he, fun hi => ?_⟩
        obtain ⟨-, -, -, ho⟩ := updateVotes_self _ _ _ hg
        have := ho hi e he
        simp only [outdated, decide_eq_false_iff_not] at this
        omega
    · exact stay

theorem Kept.onVerified {P cfg s} (h : Sync s.cache s.db) (ha : All P s.cache) (v r : Nat) (w : Node)
    (hP : P v w s.clock) : Kept P cfg s (s.onVerified cfg v r w) := by
  have k := Kept.hasFrom (cfg := cfg) h ha v w
  unfold State.onVerified
  simp only
  split
  · exact k
  · have k2 : Kept P cfg (s.hasFrom cfg v w).1
        ((s.hasFrom cfg v w).1.effect (addVote (s.hasFrom cfg v w).1.cache (s.hasFrom cfg v w).1.clock v r w)) :=
      ⟨k.sync.addVote _ _ _ _, k.all.addVote (by rw [k.clock]; exact hP), rfl, rfl, [], by simp [State.effect], by simp⟩
    split
    · exact (k.trans k2).trans (Kept.tryStart k2.sync k2.all v)
    · exact k.trans k2


/-! ### Runs -/

theorem run_snoc (cfg : Cfg) (evs : List Event) (e : Event) : run cfg (evs ++ [e]) = (run cfg evs).step cfg e := by
  simp [run]

/-- The node's clock never goes back at a restart. -/
def ClockOk (cfg : Cfg) (evs : List Event) : Prop :=
  ∀ pre c post, evs = pre ++ .restart c :: post → (run cfg pre).clock ≤ c

/-- `w` voted for `v` with the event `e`: an InstanceChange of `w` arrived, or
the node, which is `w`, sent one. -/
def Cast (cfg : Cfg) (pre : List Event) (e : Event) (v : Nat) (w : Node) : Prop :=
  (∃ r, e = .ic v r w) ∨ (w = cfg.name ∧ (run cfg (pre ++ [e])).sent = (run cfg pre).sent ++ [v])

def Origin (cfg : Cfg) (evs : List Event) (clock v : Nat) (w : Node) (ts : Nat) : Prop :=
  ∃ pre e post, evs = pre ++ e :: post ∧ Cast cfg pre e v w ∧ (ClockOk cfg evs → ts + elapsed post ≤ clock)

theorem elapsed_append (a b : List Event) : elapsed (a ++ b) = elapsed a + elapsed b := by
  induction a with
  | nil => simp [elapsed]
  | cons x a ih => cases x <;> simp only [List.cons_append, elapsed, ih] <;> omega

theorem ClockOk.init {cfg : Cfg} {evs : List Event} {e : Event} (h : ClockOk cfg (evs ++ [e])) : ClockOk cfg evs :=
  fun pre c post he => h pre c (post ++ [e]) (by rw [he]; simp)

/-- An old vote, after one more event that moves the clock at least as much as time passes. -/
theorem Origin.later {cfg : Cfg} {evs : List Event} {clock clock' v : Nat} {w : Node} {ts : Nat} (e : Event)
    (h : Origin cfg evs clock v w ts) (hc : ClockOk cfg (evs ++ [e]) → clock + elapsed [e] ≤ clock') :
    Origin cfg (evs ++ [e]) clock' v w ts := by
  obtain ⟨pre, x, post, he, hx, ht⟩ := h
  refine ⟨pre, x, post ++ [e], by rw [he]; simp, hx, fun ok => ?_⟩
  have := ht ok.init
  have := hc ok
  rw [elapsed_append]
  omega

structure RInv (cfg : Cfg) (evs : List Event) (s : State) : Prop where
  sync : Sync s.cache s.db
  all : All (Origin cfg evs s.clock) s.cache

theorem All.imp {P P' : Nat → Node → Nat → Prop} {c} (h : All P c) (hp : ∀ v w ts, P v w ts → P' v w ts) : All P' c :=
  fun v votes hv e he => hp _ _ _ (h v votes hv e he)

/-- One event: the invariant is kept, and a view change is started only with a quorum. -/
theorem RInv.step {cfg : Cfg} {evs : List Event} (i : RInv cfg evs (run cfg evs)) (e : Event) :
    RInv cfg (evs ++ [e]) (run cfg (evs ++ [e])) ∧
    ∃ l, (run cfg (evs ++ [e])).started = (run cfg evs).started ++ l ∧
      ∀ v ∈ l, Emit (Origin cfg (evs ++ [e]) (run cfg (evs ++ [e])).clock) cfg (run cfg (evs ++ [e])).clock v := by
  obtain ⟨s, hs⟩ : ∃ s, s = run cfg evs := ⟨_, rfl⟩
  have old : (elapsed [e] = 0) → All (Origin cfg (evs ++ [e]) s.clock) s.cache := fun h =>
    (hs ▸ i.all : All (Origin cfg evs s.clock) s.cache).imp (fun v w ts ho => ho.later e (fun _ => by omega))
  have here : ∀ v w, Cast cfg evs e v w → Origin cfg (evs ++ [e]) s.clock v w s.clock := fun v w hc =>
    ⟨evs, e, [], rfl, hc, fun _ => by simp [elapsed]⟩
  have fin : ∀ s', run cfg (evs ++ [e]) = s' → Kept (Origin cfg (evs ++ [e]) s.clock) cfg s s' →
      RInv cfg (evs ++ [e]) (run cfg (evs ++ [e])) ∧
      ∃ l, (run cfg (evs ++ [e])).started = (run cfg evs).started ++ l ∧
        ∀ v ∈ l, Emit (Origin cfg (evs ++ [e]) (run cfg (evs ++ [e])).clock) cfg (run cfg (evs ++ [e])).clock v := by
    intro s' h k
    rw [h, k.clock]
    obtain ⟨l, a, b⟩ := k.started
    exact ⟨⟨k.sync, by rw [k.clock]; exact k.all⟩, l, by rw [a, hs], b⟩
  have hsy : Sync s.cache s.db := hs ▸ i.sync
  -- sending an InstanceChange
  have sending : elapsed [e] = 0 → ∀ (s1 : State) v r,
      Kept (Origin cfg (evs ++ [e]) s.clock) cfg s s1 → run cfg (evs ++ [e]) = s1.sendIC cfg v r →
      RInv cfg (evs ++ [e]) (run cfg (evs ++ [e])) ∧
      ∃ l, (run cfg (evs ++ [e])).started = (run cfg evs).started ++ l ∧
        ∀ v ∈ l, Emit (Origin cfg (evs ++ [e]) (run cfg (evs ++ [e])).clock) cfg (run cfg (evs ++ [e])).clock v := by
    intro h0 s1 v r k hrun
    have hsent : (s1.sendIC cfg v r).sent = s1.sent ++ [v] :=
      (Kept.onVerified (P := fun _ _ _ => True) (cfg := cfg) (s := { s1 with sent := s1.sent ++ [v] })
        k.sync (fun _ _ _ _ _ => trivial) v r cfg.name trivial).sent
    have hP : Origin cfg (evs ++ [e]) s.clock v cfg.name s1.clock := by
      rw [k.clock]
      refine here v cfg.name (.inr ⟨rfl, ?_⟩)
      rw [hrun, hsent, k.sent, hs]
    have k2 := Kept.onVerified (cfg := cfg) (s := { s1 with sent := s1.sent ++ [v] }) k.sync k.all v r cfg.name hP
    obtain ⟨l, a, b⟩ := k.started
    obtain ⟨l', a', b'⟩ := k2.started
    have hc : (run cfg (evs ++ [e])).clock = s.clock := by rw [hrun]; exact k2.clock.trans k.clock
    refine ⟨⟨by rw [hrun]; exact k2.sync, by rw [hc, hrun]; exact k2.all⟩, l ++ l', ?_, ?_⟩
    · rw [hrun, ← hs, ← List.append_assoc, ← a]; exact a'
    · rw [hc]
      intro x hx
      rcases List.mem_append.1 hx with hx | hx
      · exact b x hx
      · have h := b' x hx
        rw [show ({ s1 with sent := s1.sent ++ [v] } : State).clock = s.clock from k.clock] at h
        exact h
  cases e with
  | ic v r w =>
    have h0 : elapsed [.ic v r w] = 0 := rfl
    have hA := old h0
    have r1 : run cfg (evs ++ [.ic v r w]) = s.processIC cfg v r w := by rw [run_snoc, ← hs]; rfl
    unfold State.processIC at r1
    by_cases c1 : w ∉ s.connected
    · rw [if_pos c1] at r1; exact fin _ r1 (Kept.refl hsy hA)
    · rw [if_neg c1] at r1
      by_cases c2 : (!s.participating) = true
      · rw [if_pos c2] at r1; exact fin _ r1 (Kept.refl hsy hA)
      · rw [if_neg c2] at r1
        by_cases c3 : v ≤ s.view
        · rw [if_pos c3] at r1; exact fin _ r1 (Kept.refl hsy hA)
        · rw [if_neg c3] at r1
          simp only at r1
          have k1 := Kept.onVerified (cfg := cfg) hsy hA v r w (here v w (.inl ⟨r, rfl⟩))
          have k2 := k1.trans (Kept.hasFrom k1.sync k1.all v cfg.name)
          split at r1
          · exact fin _ r1 k2
          · split at r1
            · exact fin _ r1 k2
            · exact sending h0 _ v 25 k2 r1
  | vote st r v =>
    have h0 : elapsed [.vote st r v] = 0 := rfl
    refine sending h0 s (v.getD (if !st || !s.waiting then s.view + 1 else s.view)) r (Kept.refl hsy (old h0)) ?_
    rw [run_snoc, ← hs]; rfl
  | newViewAccepted =>
    have r1 : run cfg (evs ++ [.newViewAccepted]) = _ := run_snoc cfg evs _
    rw [← hs] at r1
    exact fin _ r1 ⟨hsy.removeView _, (old rfl).removeView _, rfl, rfl, [], by simp [State.step, State.effect], by simp⟩
  | tick d =>
    have r1 : run cfg (evs ++ [.tick d]) = _ := run_snoc cfg evs _
    rw [← hs] at r1
    rw [r1]
    refine ⟨⟨hsy, ?_⟩, [], by simp [State.step, hs], by simp⟩
    exact (hs ▸ i.all : All (Origin cfg evs s.clock) s.cache).imp (fun v w ts ho => ho.later _ (fun _ => by
      simp [elapsed, State.step]))
  | restart c =>
    have r1 : run cfg (evs ++ [.restart c]) = _ := run_snoc cfg evs _
    rw [← hs] at r1
    rw [r1]
    refine ⟨⟨hsy.restart, ?_⟩, [], by simp [State.step, hs], by simp⟩
    intro v votes hv x hx
    have hv : s.cache.get? v = some votes := by
      rw [← hsy.eq v, ← fillCache_eq hsy.wdb]; exact hv
    have ho : Origin cfg evs s.clock v x.1 x.2.ts := hs ▸ i.all v votes (hs ▸ hv) x hx
    refine ho.later _ (fun ok => ?_)
    have := ok evs c [] rfl
    rw [← hs] at this
    simpa [elapsed, State.step] using this
  | setView v w =>
    have r1 : run cfg (evs ++ [.setView v w]) = _ := run_snoc cfg evs _
    rw [← hs] at r1
    exact fin _ r1 ⟨hsy, old rfl, rfl, rfl, [], by simp [State.step], by simp⟩
  | setMode p =>
    have r1 : run cfg (evs ++ [.setMode p]) = _ := run_snoc cfg evs _
    rw [← hs] at r1
    exact fin _ r1 ⟨hsy, old rfl, rfl, rfl, [], by simp [State.step], by simp⟩
  | setConnected l =>
    have r1 : run cfg (evs ++ [.setConnected l]) = _ := run_snoc cfg evs _
    rw [← hs] at r1
    exact fin _ r1 ⟨hsy, old rfl, rfl, rfl, [], by simp [State.step], by simp⟩
  | setDegraded b =>
    have r1 : run cfg (evs ++ [.setDegraded b]) = _ := run_snoc cfg evs _
    rw [← hs] at r1
    exact fin _ r1 ⟨hsy, old rfl, rfl, rfl, [], by simp [State.step], by simp⟩

theorem RInv.run (cfg : Cfg) (evs : List Event) : RInv cfg evs (run cfg evs) := by
  induction evs using snoc_induction with
  | nil =>
    have w : WF [] := ⟨by simp [Dict.keys], by simp, by simp⟩
    exact ⟨⟨w, w, fun v => rfl⟩, fun v votes hv => by cases hv⟩
  | snoc evs e ih => exact (ih.step e).1

end Verif.IC
