import Verif.Proofs.Suspect
/-!
# Suspicions in a pool: proofs
-/
namespace Verif.Suspect

open Verif.TPC (Replica PrePrepare)
open Verif.Spec.Suspect

/-! ## Runs -/

theorem su_run_append (p : Pool) (s : State) (a b : List (Node × Ev)) : run p s (a ++ b) = run p (run p s a) b := by
  unfold run
  rw [List.foldl_append]

/-- The events of one node. -/
def eventsOf (j : Node) (es : List (Node × Ev)) : List Ev := es.filterMap (fun e => if e.1 = j then some e.2 else none)

theorem su_run_at (p : Pool) (j : Node) : ∀ (es : List (Node × Ev)) (s : State),
    run p s es j = (eventsOf j es).foldl (Nd.step p j) (s j) := by
  intro es
  induction es with
  | nil => intro s; rfl
  | cons e es ih =>
    intro s
    show run p (step p s e) es j = _
    rw [ih]
    unfold eventsOf step
    by_cases h : e.1 = j
    · rw [List.filterMap_cons_some (b := e.2) (by simp [h])]
      simp [h]
    · rw [List.filterMap_cons_none (by simp [h])]
      rw [if_neg (fun h' => h h'.symm)]

theorem su_allowed_append (F : Node → Prop) (p : Pool) : ∀ (a b : List (Node × Ev)) (s : State),
    AllowedRun F p s (a ++ b) ↔ AllowedRun F p s a ∧ AllowedRun F p (run p s a) b := by
  intro a
  induction a with
  | nil => intro b s; exact ⟨fun h => ⟨trivial, h⟩, fun h => h.2⟩
  | cons e a ih =>
    intro b s
    show (Allowed F s e ∧ AllowedRun F p (step p s e) (a ++ b)) ↔ _
    rw [ih]
    exact ⟨fun ⟨h1, h2, h3⟩ => ⟨⟨h1, h2⟩, h3⟩, fun ⟨⟨h1, h2⟩, h3⟩ => ⟨h1, h2, h3⟩⟩

/-- For each node of a list, some events. -/
def phase (l : List Node) (g : Node → List Ev) : List (Node × Ev) := l.flatMap (fun i => (g i).map (Prod.mk i))

theorem su_eventsOf_append (j : Node) (a b : List (Node × Ev)) : eventsOf j (a ++ b) = eventsOf j a ++ eventsOf j b :=
  List.filterMap_append

theorem su_eventsOf_map (j i : Node) (l : List Ev) : eventsOf j (l.map (Prod.mk i)) = if i = j then l else [] := by
  induction l with
  | nil => simp [eventsOf]
  | cons e l ih =>
    unfold eventsOf at ih ⊢
    rw [List.map_cons]
    by_cases h : i = j
    · rw [List.filterMap_cons_some (b := e) (by simp [h]), ih]; simp [h]
    · rw [List.filterMap_cons_none (by simp [h]), ih]; simp [h]

theorem su_phase_at (g : Node → List Ev) (j : Node) : ∀ (l : List Node), l.Nodup →
    eventsOf j (phase l g) = if j ∈ l then g j else [] := by
  intro l
  induction l with
  | nil => intro _; rfl
  | cons i l ih =>
    intro hn
    obtain ⟨h1, h2⟩ := List.nodup_cons.1 hn
    have e : phase (i :: l) g = (g i).map (Prod.mk i) ++ phase l g := rfl
    rw [e, su_eventsOf_append, su_eventsOf_map, ih h2]
    by_cases h : i = j
    · subst h; simp [h1]
    · have : j ≠ i := fun h' => h h'.symm
      simp [h, this]

theorem su_mem_phase {l : List Node} {g : Node → List Ev} {e : Node × Ev} (h : e ∈ phase l g) : e.1 ∈ l ∧ e.2 ∈ g e.1 := by
  obtain ⟨i, hi, he⟩ := List.mem_flatMap.1 h
  obtain ⟨x, hx, rfl⟩ := List.mem_map.1 he
  exact ⟨hi, hx⟩

/-! ## What the trigger sends -/

theorem su_onVerified_same (cfg : IC.Cfg) (s : IC.State) (u r : Nat) (w : Node) :
    (s.onVerified cfg u r w).sent = s.sent ∧ (s.onVerified cfg u r w).degraded = s.degraded ∧
      ((s.onVerified cfg u r w).view = s.view ∧ (s.onVerified cfg u r w).started = s.started ∨
       (s.onVerified cfg u r w).started = s.started ++ [u]) := by
  unfold IC.State.onVerified IC.State.hasFrom IC.State.tryStart IC.State.hasQuorum IC.State.effect
  dsimp only
  repeat' split
  all_goals simp

theorem su_sendIC_sent (cfg : IC.Cfg) (s : IC.State) (u r : Nat) : (s.sendIC cfg u r).sent = s.sent ++ [u] :=
  (su_onVerified_same cfg _ u r cfg.name).1

theorem su_sent_keeps (cfg : IC.Cfg) (s : IC.State) (e : IC.Event) (x : Nat) (h : x ∈ s.sent) : x ∈ (s.step cfg e).sent := by
  cases e with
  | ic v r w =>
    show x ∈ (s.processIC cfg v r w).sent
    unfold IC.State.processIC
    split
    · exact h
    split
    · exact h
    split
    · exact h
    have h1 : x ∈ (s.onVerified cfg v r w).sent := by rw [(su_onVerified_same cfg s v r w).1]; exact h
    have h2 : x ∈ ((s.onVerified cfg v r w).hasFrom cfg v cfg.name).1.sent := h1
    dsimp only
    split
    · exact h2
    split
    · exact h2
    · rw [su_sendIC_sent]; exact List.mem_append.2 (.inl h2)
  | vote st r v =>
    show x ∈ (s.sendIC cfg _ r).sent
    rw [su_sendIC_sent]; exact List.mem_append.2 (.inl h)
  | newViewAccepted => exact h
  | tick d => exact h
  | restart c => exact h
  | setView v w => exact h
  | setMode p => exact h
  | setConnected l => exact h
  | setDegraded b => exact h

/-! ## The votes of one node in a round -/

theorem su_not_outdated (interval clock : Nat) (votes : IC.Votes) (h : ∀ e ∈ votes, e.2.ts = clock) :
    votes.any (fun e => IC.outdated interval clock e.2) = false := by
  rw [List.any_eq_false]
  intro e he
  simp only [IC.outdated, decide_eq_true_eq, h e he]
  omega

/-- Votes for one view only, none too old: nothing is dropped. -/
theorem su_update (interval clock u : Nat) (votes : IC.Votes) (h : ∀ e ∈ votes, e.2.ts = clock) :
    IC.updateVotes [(u, votes)] interval clock u = ⟨[(u, votes)], []⟩ := by
  unfold IC.updateVotes
  simp only [Dict.get?_cons, if_true]
  split
  · rfl
  · rw [su_not_outdated interval clock votes h]
    rfl

theorem su_hasFrom (cfg : IC.Cfg) (s : IC.State) (u : Nat) (w : Node) (votes : IC.Votes) (hc : s.cache = [(u, votes)])
    (h : ∀ e ∈ votes, e.2.ts = s.clock) : s.hasFrom cfg u w = (s, votes.has w) := by
  unfold IC.State.hasFrom IC.State.effect
  rw [hc, su_update _ _ _ _ h]
  simp only [Dict.get?_cons, if_true, List.foldl_nil]
  rw [← hc]

theorem su_hasQuorum (cfg : IC.Cfg) (s : IC.State) (u q : Nat) (votes : IC.Votes) (hc : s.cache = [(u, votes)])
    (h : ∀ e ∈ votes, e.2.ts = s.clock) : s.hasQuorum cfg u q = (s, decide (votes.length ≥ q)) := by
  unfold IC.State.hasQuorum IC.State.effect
  rw [hc, su_update _ _ _ _ h]
  simp only [Dict.get?_cons, if_true, List.foldl_nil]
  rw [← hc]

/-- A state of the trigger with the votes `votes` for the view `u`, and for no other. -/
structure Only (s : IC.State) (u : Nat) (votes : IC.Votes) : Prop where
  cache : s.cache = [(u, votes)]
  db : s.db = [(u, votes)]
  fresh : ∀ e ∈ votes, e.2.ts = s.clock
  ne : votes ≠ []

/-- What one more vote does. -/
theorem su_onVerified (cfg : IC.Cfg) (s : IC.State) (u r : Nat) (w : Node) (votes : IC.Votes) (h : Only s u votes)
    (hw : votes.has w = false) (hv : s.view < u) :
    ∃ s', s.onVerified cfg u r w = s' ∧ Only s' u (votes ++ [(w, ⟨s.clock, r⟩)]) ∧ s'.sent = s.sent ∧
      s'.connected = s.connected ∧ s'.participating = s.participating ∧ s'.degraded = s.degraded ∧ s'.clock = s.clock ∧
      (if cfg.n - getMaxFailures cfg.n ≤ votes.length + 1
       then s'.view = u ∧ s'.waiting = true ∧ s'.started = s.started ++ [u]
       else s'.view = s.view ∧ s'.waiting = s.waiting ∧ s'.started = s.started) := by
  refine ⟨_, rfl, ?_⟩
  have hk : w ∉ Dict.keys votes := by
    intro hm
    rw [Dict.mem_keys] at hm
    rw [(Dict.has_iff _ _).2 hm] at hw
    exact (nomatch hw)
  have hset : Dict.set votes w (⟨s.clock, r⟩ : IC.Vote) = votes ++ [(w, ⟨s.clock, r⟩)] := IC.set_new votes w _ hk
  unfold IC.State.onVerified
  rw [su_hasFrom cfg s u w votes h.cache h.fresh, hw]
  simp only [Bool.false_eq_true, if_false]
  let t : IC.State := s.effect (IC.addVote s.cache s.clock u r w)
  have et : t = { s with cache := [(u, votes ++ [(w, ⟨s.clock, r⟩)])], db := [(u, votes ++ [(w, ⟨s.clock, r⟩)])] } := by
    show s.effect _ = _
    unfold IC.State.effect IC.addVote IC.cacheAdd IC.dbFromCache
    rw [h.cache, h.db]
    simp only [Dict.get?_cons, if_true, Option.getD_some, hset, Dict.set, List.foldl_cons, List.foldl_nil]
    cases hvv : votes ++ [(w, (⟨s.clock, r⟩ : IC.Vote))] with
    | nil => simp at hvv
    | cons a l => simp [IC.applyWrite, Dict.set]
  have ht : Only t u (votes ++ [(w, ⟨s.clock, r⟩)]) := by
    rw [et]
    refine ⟨rfl, rfl, fun e he => ?_, by simp⟩
    rcases List.mem_append.1 he with he | he
    · exact h.fresh e he
    · simp only [List.mem_singleton] at he; subst he; rfl
  have htv : t.view = s.view := by rw [et]
  have hst : t.started = s.started := by rw [et]
  show Only (if u > t.view then t.tryStart cfg u else t) _ _ ∧ _
  rw [if_pos (by rw [htv]; exact hv)]
  unfold IC.State.tryStart
  rw [su_hasQuorum cfg t u _ _ ht.cache ht.fresh]
  have hq : (Quorums.ofN cfg.n).viewChange.value = cfg.n - getMaxFailures cfg.n := rfl
  rw [hq]
  have hl : (votes ++ [(w, (⟨s.clock, r⟩ : IC.Vote))]).length = votes.length + 1 := by simp
  rw [hl]
  by_cases hc : cfg.n - getMaxFailures cfg.n ≤ votes.length + 1
  · have hb : (decide (votes.length + 1 ≥ cfg.n - getMaxFailures cfg.n) && decide (u > t.view)) = true := by
      simp [hc, htv, hv]
    simp only [hb, if_true, if_pos hc]
    refine ⟨⟨ht.cache, ht.db, ht.fresh, ht.ne⟩, ?_⟩
    rw [et]
    simp
  · have hb : (decide (votes.length + 1 ≥ cfg.n - getMaxFailures cfg.n) && decide (u > t.view)) = false := by
      simp [hc]
    simp only [hb, Bool.false_eq_true, if_false, if_neg hc]
    refine ⟨ht, ?_⟩
    rw [et]
    simp

/-- The InstanceChange of another node. -/
theorem su_ic (cfg : IC.Cfg) (s : IC.State) (u r : Nat) (w : Node) (votes : IC.Votes) (h : Only s u votes)
    (hw : votes.has w = false) (hself : votes.has cfg.name = true) (hv : s.view < u) (hcon : w ∈ s.connected)
    (hp : s.participating = true) :
    ∃ s', s.processIC cfg u r w = s' ∧ Only s' u (votes ++ [(w, ⟨s.clock, r⟩)]) ∧ s'.sent = s.sent ∧
      s'.connected = s.connected ∧ s'.participating = s.participating ∧ s'.degraded = s.degraded ∧ s'.clock = s.clock ∧
      (if cfg.n - getMaxFailures cfg.n ≤ votes.length + 1
       then s'.view = u ∧ s'.waiting = true ∧ s'.started = s.started ++ [u]
       else s'.view = s.view ∧ s'.waiting = s.waiting ∧ s'.started = s.started) := by
  obtain ⟨s', hs', h'⟩ := su_onVerified cfg s u r w votes h hw hv
  refine ⟨s', ?_, h'⟩
  unfold IC.State.processIC
  rw [if_neg (fun hn => hn hcon), hp]
  simp only [Bool.not_true, Bool.false_eq_true, if_false]
  rw [if_neg (by omega), hs', su_hasFrom cfg s' u cfg.name _ h'.1.cache h'.1.fresh]
  have : Dict.has (votes ++ [(w, (⟨s.clock, r⟩ : IC.Vote))]) cfg.name = true := by
    rw [Dict.has_iff] at hself ⊢
    rw [← Dict.mem_keys] at hself ⊢
    unfold Dict.keys at hself ⊢
    rw [List.map_append]
    exact List.mem_append.2 (.inl hself)
  rw [this]
  simp

/-- After the view change has begun the rest is ignored. -/
theorem su_ic_late (cfg : IC.Cfg) (s : IC.State) (u r : Nat) (w : Node) (hv : u ≤ s.view) : s.processIC cfg u r w = s := by
  unfold IC.State.processIC
  split
  · rfl
  split
  · rfl
  rfl

theorem su_ics_late (cfg : IC.Cfg) (u r : Nat) : ∀ (J : List Node) (s : IC.State), u ≤ s.view →
    J.foldl (fun s w => s.processIC cfg u r w) s = s := by
  intro J
  induction J with
  | nil => intro s _; rfl
  | cons w J ih =>
    intro s hv
    rw [List.foldl_cons, su_ic_late cfg s u r w hv]
    exact ih s hv

/-- The InstanceChange messages of the others, enough of them. -/
theorem su_ics (cfg : IC.Cfg) (u r : Nat) : ∀ (J : List Node) (s : IC.State) (votes : IC.Votes), Only s u votes →
    J.Nodup → (∀ w ∈ J, votes.has w = false ∧ w ∈ s.connected) → votes.has cfg.name = true → s.view < u →
    s.participating = true → votes.length < cfg.n - getMaxFailures cfg.n →
    cfg.n - getMaxFailures cfg.n ≤ votes.length + J.length →
    ∃ votes', Only (J.foldl (fun s w => s.processIC cfg u r w) s) u votes' ∧
      ∃ s', J.foldl (fun s w => s.processIC cfg u r w) s = s' ∧ s'.sent = s.sent ∧
      s'.connected = s.connected ∧ s'.participating = s.participating ∧ s'.degraded = s.degraded ∧ s'.clock = s.clock ∧
      s'.view = u ∧ s'.waiting = true ∧ s'.started = s.started ++ [u] := by
  intro J
  induction J with
  | nil =>
    intro s votes _ _ _ _ _ _ hlt hge
    simp at hge
    omega
  | cons w J ih =>
    intro s votes ho hn hJ hself hv hp hlt hge
    obtain ⟨hwJ, hn'⟩ := List.nodup_cons.1 hn
    obtain ⟨hw, hcon⟩ := hJ w (List.mem_cons_self ..)
    obtain ⟨s1, e1, ho1, a1, a2, a3, a4, a5, a6⟩ := su_ic cfg s u r w votes ho hw hself hv hcon hp
    rw [List.foldl_cons, e1]
    by_cases hc : cfg.n - getMaxFailures cfg.n ≤ votes.length + 1
    · rw [if_pos hc] at a6
      rw [su_ics_late cfg u r J s1 (by omega)]
      exact ⟨_, ho1, s1, rfl, a1, a2, a3, a4, a5, a6⟩
    · rw [if_neg hc] at a6
      have hkeys : ∀ x, Dict.has (votes ++ [(w, (⟨s.clock, r⟩ : IC.Vote))]) x = true ↔ votes.has x = true ∨ w = x := by
        intro x
        rw [Dict.has_iff, Dict.has_iff, ← Dict.mem_keys, ← Dict.mem_keys]
        unfold Dict.keys
        rw [List.map_append]
        simp [eq_comm]
      obtain ⟨votes', h', s', e', b1, b2, b3, b4, b5, b6⟩ := ih s1 _ ho1 hn'
        (fun x hx => by
          refine ⟨?_, by rw [a2]; exact (hJ x (List.mem_cons_of_mem _ hx)).2⟩
          rw [Bool.eq_false_iff]
          intro hc'
          rcases (hkeys x).1 hc' with h1 | h1
          · rw [(hJ x (List.mem_cons_of_mem _ hx)).1] at h1; exact (nomatch h1)
          · subst h1; exact hwJ hx)
        ((hkeys _).2 (.inl hself)) (by rw [a6.1]; exact hv) (by rw [a3]; exact hp) (by simp; omega) (by simp at hge ⊢; omega)
      refine ⟨votes', h', s', e', b1.trans a1, b2.trans a2, b3.trans a3, b4.trans a4, b5.trans a5, b6.1, b6.2.1, ?_⟩
      rw [b6.2.2, a6.2.2]

/-- The trigger between two rounds. -/
def calm (n v : Nat) (l : List Nat) : IC.State := { view := v, connected := List.range n, started := l, sent := l }

/-- The vote of the node itself. -/
theorem su_vote (cfg : IC.Cfg) (v c : Nat) (l : List Nat) (hn : 1 < cfg.n - getMaxFailures cfg.n) :
    (calm cfg.n v l).processVote cfg false c none =
      { calm cfg.n v l with cache := [(v + 1, [(cfg.name, ⟨0, c⟩)])], db := [(v + 1, [(cfg.name, ⟨0, c⟩)])], sent := l ++ [v + 1] } := by
  have hq : (Quorums.ofN cfg.n).viewChange.value = cfg.n - getMaxFailures cfg.n := rfl
  have h1 : ¬ cfg.n - getMaxFailures cfg.n ≤ 1 := by omega
  simp [IC.State.processVote, IC.State.sendIC, IC.State.onVerified, IC.State.hasFrom, IC.State.effect, IC.updateVotes,
    IC.addVote, IC.cacheAdd, IC.dbFromCache, IC.State.tryStart, IC.State.hasQuorum, calm, Dict.set, Dict.get?, IC.applyWrite,
    IC.outdated, hq, h1]

/-- The whole round of one node: its own vote, those of enough others, the new view. -/
theorem su_round (cfg : IC.Cfg) (v c : Nat) (l : List Nat) (J : List Node) (hn : 1 < cfg.n - getMaxFailures cfg.n)
    (hJ : J.Nodup) (hj : ∀ w ∈ J, w ≠ cfg.name ∧ w < cfg.n) (hlen : cfg.n - getMaxFailures cfg.n ≤ J.length + 1) :
    ((J.foldl (fun s w => s.processIC cfg (v + 1) c w) ((calm cfg.n v l).processVote cfg false c none)).step cfg
      .newViewAccepted) = calm cfg.n (v + 1) (l ++ [v + 1]) := by
  rw [su_vote cfg v c l hn]
  obtain ⟨votes', ho, s', e', b1, b2, b3, b4, b5, b6, b7, b8⟩ := su_ics cfg (v + 1) c J
    { calm cfg.n v l with cache := [(v + 1, [(cfg.name, ⟨0, c⟩)])], db := [(v + 1, [(cfg.name, ⟨0, c⟩)])], sent := l ++ [v + 1] }
    [(cfg.name, ⟨0, c⟩)]
    ⟨rfl, rfl, fun e he => by simp at he; subst he; rfl, by simp⟩ hJ
    (fun w hw => ⟨by
      have : ¬ cfg.name = w := fun h => (hj w hw).1 h.symm
      simp [Dict.has, Dict.get?, this], List.mem_range.2 (hj w hw).2⟩)
    (by simp [Dict.has, Dict.get?]) (by simp [calm]) rfl (by simp; omega) (by simp; omega)
  rw [e'] at ho ⊢
  obtain ⟨o1, o2, _, _⟩ := ho
  cases s'
  simp only [calm] at b1 b2 b3 b4 b5 b6 b7 b8 o1 o2 ⊢
  subst b1 b2 b3 b4 b5 b6 b7 b8 o1 o2
  simp [IC.State.step, IC.State.effect, IC.removeView, Dict.keys, IC.applyWrite, Dict.erase]

/-! ## The attack -/

/-- A PRE-PREPARE whose digest is wrong, for the first batch of a view. -/
def wrong (p : Pool) (v : Nat) : PrePrepare :=
  { viewNo := v, seqNo := 1, origView := v, time := 0, reqs := [], ledger := 1, poolRoot := 0,
    content := ⟨p.digest [] v 0 + 1, 0, 0, 0⟩ }

/-- The nodes but one. -/
def honest (p : Pool) (b : Node) : List Node := (List.range p.n).filter (fun i => i ≠ b)

theorem su_honest {p : Pool} {b i : Node} : i ∈ honest p b ↔ i < p.n ∧ i ≠ b := by simp [honest]

theorem su_honest_nodup (p : Pool) (b : Node) : (honest p b).Nodup := List.nodup_range.filter _

/-- The first part of a round: `b` sends the PRE-PREPARE to all. -/
def accuse (p : Pool) (b : Node) (v : Nat) : List (Node × Ev) :=
  phase (honest p b) (fun _ => [.pp true (wrong p v) b {}])

/-- The second: the nodes hear the votes of each other. -/
def hear (p : Pool) (b : Node) (v : Nat) : List (Node × Ev) :=
  phase (honest p b) (fun i => ((honest p b).filter (fun w => w ≠ i)).map (fun w => .other (.ic (v + 1) 11 w)))

/-- The third: the view change ends. -/
def settle (p : Pool) (b : Node) : List (Node × Ev) := phase (honest p b) (fun _ => [.other .newViewAccepted])

def round (p : Pool) (b : Node) (v : Nat) : List (Node × Ev) := accuse p b v ++ (hear p b v ++ settle p b)

/-- The state of a node in a run of the attack. -/
def quiet (p : Pool) (v : Nat) (l : List Nat) : Nd := { ic := calm p.n v l }

theorem su_wrong_vote (p : Pool) (i b : Node) (v : Nat) (l : List Nat) :
    report true (suspicion (p.tpc i) (quiet p v l).replica (wrong p v) b {}) = some 11 := by
  have hc : Current (quiet p v l).replica (wrong p v) :=
    ⟨rfl, ⟨rfl, rfl⟩, Nat.zero_lt_one, (by decide : (1 : Nat) ≤ 300), Nat.zero_lt_one, .inr (.inl (Nat.le_refl 1))⟩
  obtain ⟨ha, ho⟩ := (su_current _ _).2 hc
  unfold suspicion
  rw [ha]
  unfold whyNot
  rw [ho]
  have : (p.tpc i).digest (wrong p v).reqs (wrong p v).origView (wrong p v).time ≠ (wrong p v).content.digest := by
    show p.digest [] v 0 ≠ p.digest [] v 0 + 1
    omega
  rw [if_neg (by simp), if_pos this]
  simp [codeOf, report, primarySuspicions]

theorem su_others (p : Pool) (b i : Node) (hi : i ∈ honest p b) (hb : b < p.n) :
    ((honest p b).filter (fun w => w ≠ i)).length + 2 = p.n := by
  have h1 : ((honest p b).filter (fun w => w ≠ i)).length + 1 = (honest p b).length := by
    have := (su_honest_nodup p b).erase_eq_filter i
    have e : (honest p b).filter (fun w => w ≠ i) = (honest p b).erase i := by
      rw [this]
      apply List.filter_congr
      intro x _
      by_cases h : x = i <;> simp [h]
    rw [e, List.length_erase_of_mem hi]
    have : 0 < (honest p b).length := List.length_pos_of_mem hi
    omega
  have h2 : (honest p b).length + 1 = p.n := by
    have := List.nodup_range (n := p.n) |>.erase_eq_filter b
    have e : honest p b = (List.range p.n).erase b := by
      rw [this]
      apply List.filter_congr
      intro x _
      by_cases h : x = b <;> simp [h]
    rw [e, List.length_erase_of_mem (List.mem_range.2 hb), List.length_range]
    have : 0 < p.n := Nat.lt_of_le_of_lt (Nat.zero_le b) hb
    exact Nat.succ_pred_eq_of_pos this
  rw [← h2, ← h1]

theorem su_fold_other (p : Pool) (i : Node) (u c : Nat) : ∀ (J : List Node) (d : Nd),
    (J.map (fun w => Ev.other (.ic u c w))).foldl (Nd.step p i) d =
      { d with ic := J.foldl (fun s w => s.processIC (p.ic i) u c w) d.ic } := by
  intro J
  induction J with
  | nil => intro d; rfl
  | cons w J ih =>
    intro d
    rw [List.map_cons, List.foldl_cons, ih]
    rfl

theorem su_round_node (p : Pool) (b i : Node) (v : Nat) (l : List Nat) (hn : 4 ≤ p.n) (hb : b < p.n) (hi : i ∈ honest p b) :
    (eventsOf i (round p b v)).foldl (Nd.step p i) (quiet p v l) = quiet p (v + 1) (l ++ [v + 1]) := by
  unfold round accuse hear settle
  rw [su_eventsOf_append, su_eventsOf_append, su_phase_at _ _ _ (su_honest_nodup p b), su_phase_at _ _ _ (su_honest_nodup p b),
    su_phase_at _ _ _ (su_honest_nodup p b), if_pos hi, if_pos hi, if_pos hi, List.foldl_append, List.foldl_append,
    su_fold_other p i]
  have e1 : ([.pp true (wrong p v) b {}] : List Ev).foldl (Nd.step p i) (quiet p v l) =
      { quiet p v l with ic := (calm p.n v l).processVote (p.ic i) false 11 none } := by
    show (quiet p v l).step p i (.pp true (wrong p v) b {}) = _
    unfold Nd.step
    dsimp only
    rw [su_wrong_vote]
    rfl
  rw [e1]
  have hf : 1 < p.n - getMaxFailures p.n ∧ p.n - getMaxFailures p.n + 1 ≤ p.n := by
    unfold getMaxFailures
    rw [if_pos hn]
    omega
  have ho := su_others p b i hi hb
  have := su_round (p.ic i) v 11 l ((honest p b).filter (fun w => w ≠ i)) hf.1 ((su_honest_nodup p b).filter _)
    (fun w hw => by
      obtain ⟨h1, h2⟩ := List.mem_filter.1 hw
      exact ⟨of_decide_eq_true h2, (su_honest.1 h1).1⟩)
    (by show p.n - getMaxFailures p.n ≤ _; omega)
  exact congrArg (fun x => ({ ic := x } : Nd)) this

theorem su_round_pool (p : Pool) (b : Node) (v : Nat) (l : List Nat) (hn : 4 ≤ p.n) (hb : b < p.n) (s : State)
    (hs : ∀ i ∈ honest p b, s i = quiet p v l) :
    (∀ i ∈ honest p b, run p s (round p b v) i = quiet p (v + 1) (l ++ [v + 1])) ∧
      AllowedRun (fun i => i = b) p s (round p b v) := by
  constructor
  · intro i hi
    rw [su_run_at, hs i hi]
    exact su_round_node p b i v l hn hb hi
  · unfold round
    rw [su_allowed_append, su_allowed_append]
    have triv : ∀ (es : List (Node × Ev)) (s : State), (∀ e ∈ es, ∀ s, Allowed (fun i => i = b) s e) →
        AllowedRun (fun i => i = b) p s es := by
      intro es
      induction es with
      | nil => intro _ _; trivial
      | cons e es ih =>
        intro s h
        exact ⟨h e (List.mem_cons_self ..) s, ih _ (fun x hx => h x (List.mem_cons_of_mem _ hx))⟩
    refine ⟨triv _ _ ?_, ?_, triv _ _ ?_⟩
    · intro e he s
      obtain ⟨_, h⟩ := su_mem_phase he
      obtain ⟨i, x⟩ := e
      simp only [List.mem_singleton] at h
      subst h
      trivial
    · have hsent : ∀ w ∈ honest p b, v + 1 ∈ (run p s (accuse p b v) w).ic.sent := by
        intro w hw
        rw [su_run_at, hs w hw]
        unfold accuse
        rw [su_phase_at _ _ _ (su_honest_nodup p b), if_pos hw]
        show v + 1 ∈ ((quiet p v l).step p w (.pp true (wrong p v) b {})).ic.sent
        unfold Nd.step
        dsimp only
        rw [su_wrong_vote]
        have hf : 1 < p.n - getMaxFailures p.n := by unfold getMaxFailures; rw [if_pos hn]; omega
        show v + 1 ∈ ((calm p.n v l).processVote (p.ic w) false 11 none).sent
        rw [show p.n = (p.ic w).n from rfl, su_vote (p.ic w) v 11 l hf]
        simp
      have key : ∀ (es : List (Node × Ev)) (s : State),
          (∀ e ∈ es, ∃ w ∈ honest p b, e.2 = .other (.ic (v + 1) 11 w)) →
          (∀ w ∈ honest p b, v + 1 ∈ (s w).ic.sent) → AllowedRun (fun i => i = b) p s es := by
        intro es
        induction es with
        | nil => intro _ _ _; trivial
        | cons e es ih =>
          intro s he hw
          obtain ⟨w, hwm, e2⟩ := he e (List.mem_cons_self ..)
          obtain ⟨i, x⟩ := e
          simp only at e2
          subst e2
          refine ⟨.inr (hw w hwm), ih _ (fun x hx => he x (List.mem_cons_of_mem _ hx)) ?_⟩
          intro j hj
          unfold step
          by_cases hji : j = i
          · rw [if_pos hji]
            exact su_sent_keeps (p.ic j) (s j).ic (.ic (v + 1) 11 w) (v + 1) (hw j hj)
          · rw [if_neg hji]
            exact hw j hj
      refine key _ _ ?_ hsent
      intro e he
      obtain ⟨_, h⟩ := su_mem_phase he
      obtain ⟨w, hw, ew⟩ := List.mem_map.1 h
      exact ⟨w, (List.mem_filter.1 hw).1, ew.symm⟩
    · intro e he s
      obtain ⟨_, h⟩ := su_mem_phase he
      obtain ⟨i, x⟩ := e
      simp only [List.mem_singleton] at h
      subst h
      trivial

/-- Any number of rounds. -/
def rounds (p : Pool) (b : Node) (v : Nat) : Nat → List (Node × Ev)
  | 0 => []
  | k + 1 => rounds p b v k ++ round p b (v + k)

theorem su_rounds (p : Pool) (b : Node) (v : Nat) (hn : 4 ≤ p.n) (hb : b < p.n) (k : Nat) :
    (∀ i ∈ honest p b, run p (start v p) (rounds p b v k) i = quiet p (v + k) ((List.range k).map (fun j => v + j + 1))) ∧
      AllowedRun (fun i => i = b) p (start v p) (rounds p b v k) := by
  induction k with
  | zero => exact ⟨fun i _ => rfl, trivial⟩
  | succ k ih =>
    obtain ⟨h1, h2⟩ := su_round_pool p b (v + k) _ hn hb _ ih.1
    refine ⟨fun i hi => ?_, (su_allowed_append _ _ _ _ _).2 ⟨ih.2, h2⟩⟩
    show run p (start v p) (rounds p b v k ++ round p b (v + k)) i = _
    rw [su_run_append, h1 i hi, List.range_succ, List.map_append]
    rfl

theorem su_mem_rounds (p : Pool) (b : Node) (v k : Nat) (e : Node × Ev) (h : e ∈ rounds p b v k) :
    (∃ u, e.2 = .pp true (wrong p u) b {}) ∨ (∃ u w, w ≠ b ∧ e.2 = .other (.ic u 11 w)) ∨ e.2 = .other .newViewAccepted := by
  induction k with
  | zero => exact (nomatch h)
  | succ k ih =>
    rcases List.mem_append.1 h with h | h
    · exact ih h
    · unfold round at h
      rcases List.mem_append.1 h with h | h
      · obtain ⟨_, h⟩ := su_mem_phase h
        exact .inl ⟨v + k, List.mem_singleton.1 h⟩
      · rcases List.mem_append.1 h with h | h
        · obtain ⟨_, h⟩ := su_mem_phase h
          obtain ⟨w, hw, e⟩ := List.mem_map.1 h
          exact .inr (.inl ⟨_, w, (su_honest.1 (List.mem_filter.1 hw).1).2, e.symm⟩)
        · obtain ⟨_, h⟩ := su_mem_phase h
          exact .inr (.inr (List.mem_singleton.1 h))

/-! ## Pools without wrong digests -/

/-- Events that leave what the trigger sent and its monitor alone. -/
def Harmless : IC.Event → Prop
  | .vote _ _ _ => False
  | .setView _ _ => False
  | .setDegraded b => b = false
  | _ => True

theorem su_harmless (cfg : IC.Cfg) (s : IC.State) (e : IC.Event) (he : Harmless e) (hd : s.degraded = false) :
    (s.step cfg e).sent = s.sent ∧ (s.step cfg e).degraded = false ∧
      ((s.step cfg e).started = s.started → (s.step cfg e).view = s.view) := by
  cases e with
  | ic v r w =>
    show (s.processIC cfg v r w).sent = _ ∧ (s.processIC cfg v r w).degraded = _ ∧ ((s.processIC cfg v r w).started = _ → (s.processIC cfg v r w).view = _)
    unfold IC.State.processIC
    split
    · exact ⟨rfl, hd, fun _ => rfl⟩
    split
    · exact ⟨rfl, hd, fun _ => rfl⟩
    split
    · exact ⟨rfl, hd, fun _ => rfl⟩
    obtain ⟨h1, h2, h3⟩ := su_onVerified_same cfg s v r w
    have k1 : ((s.onVerified cfg v r w).hasFrom cfg v cfg.name).1.sent = s.sent := h1
    have k2 : ((s.onVerified cfg v r w).hasFrom cfg v cfg.name).1.degraded = false := by rw [← hd, ← h2]; rfl
    have k3 : ((s.onVerified cfg v r w).hasFrom cfg v cfg.name).1.started = s.started →
        ((s.onVerified cfg v r w).hasFrom cfg v cfg.name).1.view = s.view := by
      intro hs
      rcases h3 with h3 | h3
      · exact h3.1
      · have : (s.onVerified cfg v r w).started = s.started := hs
        rw [this] at h3
        have := congrArg List.length h3
        simp at this
    dsimp only
    split
    · exact ⟨k1, k2, k3⟩
    · rw [k2]
      exact ⟨k1, k2, k3⟩
  | vote st r v => exact he.elim
  | newViewAccepted => exact ⟨rfl, hd, fun _ => rfl⟩
  | tick d => exact ⟨rfl, hd, fun _ => rfl⟩
  | restart c => exact ⟨rfl, hd, fun _ => rfl⟩
  | setView v w => exact he.elim
  | setMode p => exact ⟨rfl, hd, fun _ => rfl⟩
  | setConnected l => exact ⟨rfl, hd, fun _ => rfl⟩
  | setDegraded b => exact ⟨rfl, he, fun _ => rfl⟩

/-- How a node of the pool got its start. -/
def opening (n v : Nat) : List IC.Event := [.setConnected (List.range n), .setView v false]

/-- What is known of a node that is not faulty: its trigger has seen votes of faulty nodes only. -/
structure Calm (p : Pool) (v : Nat) (F : List Node) (i : Node) (d : Nd) : Prop where
  hist : ∃ evs, d.ic = IC.run (p.ic i) (opening p.n v ++ evs) ∧ (∀ u r w, IC.Event.ic u r w ∈ evs → w ∈ F) ∧
    ∀ pre post, opening p.n v ++ evs = pre ++ post → (IC.run (p.ic i) pre).sent = []
  degraded : d.ic.degraded = false
  view : d.ic.view = v
  started : d.ic.started = []

theorem Calm.start (p : Pool) (v : Nat) (F : List Node) (i : Node) : Calm p v F i (Verif.Suspect.start v p i) where
  hist := by
    refine ⟨[], rfl, fun _ _ _ h => (nomatch h), ?_⟩
    intro pre post h
    match pre, h with
    | [], _ => rfl
    | [_], h => simp [opening] at h; obtain ⟨rfl, _⟩ := h; rfl
    | [_, _], h => simp [opening] at h; obtain ⟨rfl, rfl, _⟩ := h; rfl
    | _ :: _ :: _ :: _, h => simp [opening] at h
  degraded := rfl
  view := rfl
  started := rfl

theorem Calm.sent {p : Pool} {v : Nat} {F : List Node} {i : Node} {d : Nd} (h : Calm p v F i d) : d.ic.sent = [] := by
  obtain ⟨evs, h1, _, h3⟩ := h.hist
  rw [h1]
  exact h3 _ [] (by simp)

theorem Calm.other {p : Pool} {v : Nat} {F : List Node} {i : Node} {d : Nd} (h : Calm p v F i d) (e : IC.Event)
    (he : Harmless e) (hic : ∀ u r w, e = .ic u r w → w ∈ F) (hn : 0 < p.n) (hF : F.length ≤ getMaxFailures p.n) :
    Calm p v F i { d with ic := d.ic.step (p.ic i) e } := by
  obtain ⟨evs, h1, h2, h3⟩ := h.hist
  obtain ⟨a1, a2, a3⟩ := su_harmless (p.ic i) d.ic e he h.degraded
  have hrun : d.ic.step (p.ic i) e = IC.run (p.ic i) (opening p.n v ++ evs ++ [e]) := by rw [IC.run_snoc, ← h1]
  have hsent : (IC.run (p.ic i) (opening p.n v ++ evs ++ [e])).sent = [] := by rw [← hrun, a1]; exact h.sent
  have hpre : ∀ pre post, opening p.n v ++ (evs ++ [e]) = pre ++ post → (IC.run (p.ic i) pre).sent = [] := by
    intro pre post hp
    rw [← List.append_assoc] at hp
    rcases List.eq_nil_or_concat post with hpo | ⟨post', x, hpo⟩
    · subst hpo
      rw [List.append_nil] at hp
      rw [← hp]
      exact hsent
    · subst hpo
      rw [List.concat_eq_append, ← List.append_assoc] at hp
      exact h3 pre post' (List.append_inj_left' hp (by simp))
  have hst : (d.ic.step (p.ic i) e).started = [] := by
    obtain ⟨l, hl, hq⟩ := (IC.RInv.run (p.ic i) (opening p.n v ++ evs)).step e |>.2
    have hs0 : (IC.run (p.ic i) (opening p.n v ++ evs)).started = [] := by rw [← h1]; exact h.started
    cases l with
    | nil => rw [hrun, hl, hs0]; rfl
    | cons u l =>
      exfalso
      obtain ⟨Q, q1, q2, q3⟩ := hq u (List.mem_cons_self ..)
      have hsub : ∀ w ∈ Q, w ∈ F := by
        intro w hw
        obtain ⟨ts, ⟨pre, x, post, hx, hcase, _⟩, _⟩ := q3 w hw
        have hmem : x ∈ opening p.n v ++ evs ++ [e] := by rw [hx]; simp
        rcases hcase with ⟨r, hr⟩ | ⟨_, hsn⟩
        · subst hr
          rcases List.mem_append.1 hmem with hm | hm
          · rcases List.mem_append.1 hm with hm | hm
            · simp [opening] at hm
            · exact h2 _ _ _ hm
          · exact hic _ _ _ (List.mem_singleton.1 hm).symm
        · exfalso
          have e1 := hpre (pre ++ [x]) post (by rw [← List.append_assoc, hx]; simp)
          rw [e1] at hsn
          simp at hsn
      have hle := length_le_of_subset q1 hsub
      have hq2 : p.n - getMaxFailures p.n ≤ Q.length := q2
      have : getMaxFailures p.n < p.n - getMaxFailures p.n := by
        unfold getMaxFailures
        split <;> omega
      omega
  refine ⟨⟨evs ++ [e], by rw [← List.append_assoc]; exact hrun, ?_, hpre⟩, a2, ?_, hst⟩
  · intro u r w hm
    rcases List.mem_append.1 hm with hm | hm
    · exact h2 _ _ _ hm
    · exact hic _ _ _ (List.mem_singleton.1 hm).symm
  · show (d.ic.step (p.ic i) e).view = v
    rw [a3 (by rw [hst, h.started]), h.view]

/-- A PRE-PREPARE against which nothing can be said brings no vote. -/
theorem su_no_vote (p : Pool) (i : Node) (d : Nd) (m : Bool) (pp : PrePrepare) (sender : Node) (env : Env)
    (hd : DigestRight p pp) (hf : sender = p.primary d.ic.view → Fine env pp) :
    report m (suspicion (p.tpc i) d.replica pp sender env) = none := by
  cases hr : report m (suspicion (p.tpc i) d.replica pp sender env) with
  | none => rfl
  | some c =>
    exfalso
    cases m with
    | false =>
      unfold report at hr
      split at hr
      · exact (nomatch hr)
      · simp at hr
    | true =>
      obtain ⟨_, hc⟩ := (su_exact p i d pp sender env).1 ⟨c, hr⟩
      rcases hc with hc | ⟨hs, _, hc⟩
      · exact hc hd
      · obtain ⟨f1, f2, f3, f4⟩ := hf hs
        rcases hc with hc | ⟨_, hc⟩
        · rw [f1] at hc; exact (nomatch hc)
        · rcases hc with ⟨_, hc⟩ | ⟨_, _, _, hc⟩
          · exact f4 hc
          · rcases hc with hc | hc
            · rw [f2] at hc; exact (nomatch hc)
            · exact f3 hc

theorem su_stable (p : Pool) (v : Nat) (F : List Node) (hn : 0 < p.n) (hF : F.length ≤ getMaxFailures p.n)
    (es : List (Node × Ev)) : ∀ (s : State), (∀ i, i ∉ F → Calm p v F i (s i)) → AllowedRun (fun i => i ∈ F) p s es →
    (∀ i m pp sender env, (i, Ev.pp m pp sender env) ∈ es → DigestRight p pp ∧ (sender = p.primary v → Fine env pp)) →
    ∀ i, i ∉ F → Calm p v F i (run p s es i) := by
  induction es with
  | nil => intro s h _ _; exact h
  | cons e es ih =>
    intro s h hal hpp
    refine ih _ ?_ hal.2 (fun i m pp x env hm => hpp i m pp x env (List.mem_cons_of_mem _ hm))
    intro i hi
    unfold step
    obtain ⟨j, e⟩ := e
    by_cases hj : i = j
    · rw [if_pos hj]
      subst hj
      have hc := h i hi
      cases e with
      | pp m pp sender env =>
        obtain ⟨h1, h2⟩ := hpp i m pp sender env (List.mem_cons_self ..)
        show Calm p v F i ((s i).step p i (.pp m pp sender env))
        unfold Nd.step
        dsimp only
        rw [su_no_vote p i (s i) m pp sender env h1 (by rw [hc.view]; exact h2)]
        exact hc
      | rep r => exact ⟨hc.hist, hc.degraded, hc.view, hc.started⟩
      | other x =>
        have ha := hal.1
        refine hc.other x ?_ ?_ hn hF
        · cases x <;> first | exact trivial | exact ha
        · intro u r w hx
          subst hx
          rcases ha with ha | ha
          · exact ha
          · by_cases hw : w ∈ F
            · exact hw
            · rw [(h w hw).sent] at ha
              exact (nomatch ha)
    · rw [if_neg hj]
      exact h i hi

end Verif.Suspect
