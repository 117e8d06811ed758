import Verif.Proofs.InstanceChange
/-! Enough votes start a view change. -/
namespace Verif.IC

/-- The votes known for a view. -/
def kn (c : Dict Nat Votes) (v : Nat) : Votes := (c.get? v).getD []

/-- The vote counts. -/
def fresh (cfg : Cfg) (clock : Nat) (x : Vote) : Prop := cfg.interval = 0 ∨ clock ≤ x.ts + cfg.interval

theorem kn_updateVotes (c : Dict Nat Votes) (interval now v u : Nat) : ∃ p : Node × Vote → Bool,
    kn (updateVotes c interval now v).cache u = (kn c u).filter p ∧
    ∀ e, (interval = 0 ∨ now ≤ e.2.ts + interval) → p e = true := by
  by_cases hv : v = u
  · subst hv
    unfold updateVotes kn
    cases hg : c.get? v with
    | none => exact ⟨fun _ => true, by dsimp only; rw [hg, List.filter_eq_self.mpr (fun _ _ => rfl)], fun _ _ => rfl⟩
    | some votes =>
      dsimp only
      split
      · exact ⟨fun _ => true, by dsimp only; rw [hg, List.filter_eq_self.mpr (fun _ _ => rfl)], fun _ _ => rfl⟩
      · rename_i hi
        split
        · refine ⟨fun e => !outdated interval now e.2, ?_, fun e he => ?_⟩
          · dsimp only
            split
            · rename_i hk
              rw [Dict.get?_erase, if_pos rfl]
              simpa using hk
            · rw [Dict.get?_set, if_pos rfl]; rfl
          · have := he.resolve_left hi
            simp [outdated]
            omega
        · exact ⟨fun _ => true, by dsimp only; rw [hg, List.filter_eq_self.mpr (fun _ _ => rfl)], fun _ _ => rfl⟩
  · exact ⟨fun _ => true, by rw [List.filter_eq_self.mpr (fun _ _ => rfl)]; unfold kn; rw [updateVotes_other c interval now v u hv], fun _ _ => rfl⟩

theorem length_set_le {κ α : Type} [DecidableEq κ] (d : Dict κ α) (k : κ) (v : α) : (d.set k v).length ≤ d.length + 1 := by
  induction d with
  | nil => simp [Dict.set]
  | cons a d ih =>
    simp only [Dict.set]
    split
    · simp
    · simp only [List.length_cons]; omega

theorem mem_set_of_ne {κ α : Type} [DecidableEq κ] {d : Dict κ α} {k : κ} {v : α} {e : κ × α} (h : e ∈ d) (hne : e.1 ≠ k) :
    e ∈ d.set k v := by
  induction d with
  | nil => exact (nomatch h)
  | cons a d ih =>
    simp only [Dict.set]
    split
    · rename_i ha
      rcases List.mem_cons.mp h with rfl | h
      · exact absurd ha hne
      · exact List.mem_cons_of_mem _ h
    · rcases List.mem_cons.mp h with rfl | h
      · exact List.mem_cons_self ..
      · exact List.mem_cons_of_mem _ (ih h)

theorem kn_add_self (c : Dict Nat Votes) (now v r : Nat) (w : Node) :
    kn (addVote c now v r w).cache v = (kn c v).set w ⟨now, r⟩ := by
  simp [kn, addVote, cacheAdd, Dict.get?_set]

theorem kn_add_other (c : Dict Nat Votes) (now v r u : Nat) (w : Node) (h : v ≠ u) :
    kn (addVote c now v r w).cache u = kn c u := by
  simp [kn, addVote, cacheAdd, Dict.get?_set, h]

/-- No quorum for a later view. -/
def Under (cfg : Cfg) (s : State) : Prop :=
  ∀ u, s.view < u → (kn s.cache u).length < cfg.n - getMaxFailures cfg.n

/-- What handling of a message does to the votes. -/
structure Rel (cfg : Cfg) (s s' : State) : Prop where
  clock : s'.clock = s.clock
  view : s.view ≤ s'.view
  under : Under cfg s → Under cfg s'
  keep : ∀ u e, e ∈ kn s.cache u → fresh cfg s.clock e.2 → e ∈ kn s'.cache u
  new : ∀ u e, e ∈ kn s'.cache u → e ∈ kn s.cache u ∨ e.2.ts = s.clock

theorem Rel.refl (cfg : Cfg) (s : State) : Rel cfg s s :=
  ⟨rfl, Nat.le_refl _, id, fun _ _ h _ => h, fun _ _ h => .inl h⟩

theorem Rel.trans {cfg : Cfg} {s s' s'' : State} (h : Rel cfg s s') (h' : Rel cfg s' s'') : Rel cfg s s'' where
  clock := h'.clock.trans h.clock
  view := Nat.le_trans h.view h'.view
  under := h'.under ∘ h.under
  keep u e he hf := h'.keep u e (h.keep u e he hf) (by rw [h.clock]; exact hf)
  new u e he := by
    rcases h'.new u e he with he | he
    · exact h.new u e he
    · exact .inr (by rw [he, h.clock])

theorem Rel.update (cfg : Cfg) (s : State) (v : Nat) : Rel cfg s (s.effect (updateVotes s.cache cfg.interval s.clock v)) where
  clock := rfl
  view := Nat.le_refl _
  under h u hu := by
    obtain ⟨p, hp, _⟩ := kn_updateVotes s.cache cfg.interval s.clock v u
    show (kn (updateVotes s.cache cfg.interval s.clock v).cache u).length < _
    rw [hp]
    exact Nat.lt_of_le_of_lt (List.length_filter_le ..) (h u hu)
  keep u e he hf := by
    obtain ⟨p, hp, hk⟩ := kn_updateVotes s.cache cfg.interval s.clock v u
    show e ∈ kn (updateVotes s.cache cfg.interval s.clock v).cache u
    rw [hp]
    exact List.mem_filter.mpr ⟨he, hk e hf⟩
  new u e he := by
    obtain ⟨p, hp, hk⟩ := kn_updateVotes s.cache cfg.interval s.clock v u
    replace he : e ∈ kn (updateVotes s.cache cfg.interval s.clock v).cache u := he
    rw [hp] at he
    exact .inl (List.mem_filter.mp he).1

theorem Rel.hasFrom (cfg : Cfg) (s : State) (v : Nat) (w : Node) : Rel cfg s (s.hasFrom cfg v w).1 := Rel.update cfg s v

theorem hasFrom_true {cfg : Cfg} {s : State} {v : Nat} {w : Node} (h : (s.hasFrom cfg v w).2 = true) :
    ∃ x, (w, x) ∈ kn (s.hasFrom cfg v w).1.cache v ∧ fresh cfg s.clock x := by
  unfold State.hasFrom at h ⊢
  dsimp only at h ⊢
  split at h
  · cases h
  · rename_i votes hg
    obtain ⟨x, hx⟩ := (Dict.has_iff _ _).mp h
    refine ⟨x, by unfold kn; rw [hg]; exact Dict.mem_of_get? hx, ?_⟩
    obtain ⟨_, _, _, ho⟩ := updateVotes_self _ _ _ hg
    by_cases hi : cfg.interval = 0
    · exact .inl hi
    · have := ho (by omega) (w, x) (Dict.mem_of_get? hx)
      simp only [outdated, decide_eq_false_iff_not] at this
      exact .inr (by omega)

theorem hasFrom_false {cfg : Cfg} {s : State} {v : Nat} {w : Node} (hs : Sync s.cache s.db) (h : (s.hasFrom cfg v w).2 = false) :
    ∀ x, (w, x) ∉ kn (s.hasFrom cfg v w).1.cache v := by
  have hs' : Sync (s.hasFrom cfg v w).1.cache (s.hasFrom cfg v w).1.db := hs.updateVotes _ _ _
  intro x hx
  unfold State.hasFrom at h hx hs'
  dsimp only at h hx hs'
  unfold kn at hx
  split at h
  · rename_i hg
    rw [hg] at hx; exact (nomatch hx)
  · rename_i votes hg
    rw [hg] at hx
    have hn := hs'.cache.inner _ (Dict.mem_of_get? hg)
    rw [(Dict.has_iff _ _).mpr ⟨x, Dict.get?_of_mem hn hx⟩] at h
    cases h

/-- The message of a vote: it counts then, and a view change is started when there is a quorum. -/
theorem Rel.onVerified {cfg : Cfg} {s : State} (hs : Sync s.cache s.db) (v r : Nat) (w : Node) :
    Rel cfg s (s.onVerified cfg v r w) ∧ ∃ x, (w, x) ∈ kn (s.onVerified cfg v r w).cache v ∧ fresh cfg s.clock x := by
  have r1 := Rel.hasFrom cfg s v w
  have s1 : Sync (s.hasFrom cfg v w).1.cache (s.hasFrom cfg v w).1.db := hs.updateVotes _ _ _
  unfold State.onVerified
  dsimp only
  split
  · rename_i hh
    exact ⟨r1, hasFrom_true hh⟩
  · rename_i hh
    have hf := hasFrom_false hs (by simpa using hh : (s.hasFrom cfg v w).2 = false)
    have hcl : (s.hasFrom cfg v w).1.clock = s.clock := rfl
    generalize (s.hasFrom cfg v w).1 = t at r1 s1 hf hcl
    have hfr : fresh cfg s.clock ⟨t.clock, r⟩ := .inr (by rw [hcl]; exact Nat.le_add_right ..)
    have hmem : ((w, ⟨t.clock, r⟩) : Node × Vote) ∈ kn (t.effect (addVote t.cache t.clock v r w)).cache v := by
      show _ ∈ kn (addVote t.cache t.clock v r w).cache v
      rw [kn_add_self]
      exact Dict.mem_set_self _ _ _
    have keep2 : ∀ u e, e ∈ kn t.cache u → e ∈ kn (t.effect (addVote t.cache t.clock v r w)).cache u := by
      intro u e he
      show e ∈ kn (addVote t.cache t.clock v r w).cache u
      by_cases hv : v = u
      · subst hv
        rw [kn_add_self]
        exact mem_set_of_ne he (fun h => hf e.2 (by rw [← h]; exact he))
      · rw [kn_add_other _ _ _ _ _ _ hv]; exact he
    have new2 : ∀ u e, e ∈ kn (t.effect (addVote t.cache t.clock v r w)).cache u → e ∈ kn t.cache u ∨ e.2.ts = t.clock := by
      intro u e he
      replace he : e ∈ kn (addVote t.cache t.clock v r w).cache u := he
      by_cases hv : v = u
      · subst hv
        rw [kn_add_self] at he
        rcases Dict.mem_set he with he | rfl
        · exact .inl he
        · exact .inr rfl
      · rw [kn_add_other _ _ _ _ _ _ hv] at he; exact .inl he
    split
    · rename_i hvw
      unfold State.tryStart State.hasQuorum
      dsimp only
      have r3 := Rel.update cfg (t.effect (addVote t.cache t.clock v r w)) v
      generalize hq : (t.effect (addVote t.cache t.clock v r w)).effect
        (updateVotes (t.effect (addVote t.cache t.clock v r w)).cache cfg.interval
          (t.effect (addVote t.cache t.clock v r w)).clock v) = q at r3
      have hview : q.view = t.view := by rw [← hq]; rfl
      have hclock : q.clock = t.clock := by rw [← hq]; rfl
      have keep3 : ∀ u e, e ∈ kn t.cache u → fresh cfg t.clock e.2 → e ∈ kn q.cache u :=
        fun u e he hfr => r3.keep u e (keep2 u e he) hfr
      have new3 : ∀ u e, e ∈ kn q.cache u → e ∈ kn t.cache u ∨ e.2.ts = t.clock := by
        intro u e he
        rcases r3.new u e he with he | he
        · exact new2 u e he
        · exact .inr he
      have hm3 : ∃ x, (w, x) ∈ kn q.cache v ∧ fresh cfg s.clock x :=
        ⟨_, r3.keep v _ hmem (by unfold fresh; right; exact Nat.le_add_right ..), hfr⟩
      have other : Under cfg t → ∀ u, u ≠ v → t.view < u → (kn q.cache u).length < cfg.n - getMaxFailures cfg.n := by
        intro hu u hne hlt
        have : kn q.cache u = kn t.cache u := by
          rw [← hq]
          unfold kn
          show ((updateVotes (addVote t.cache t.clock v r w).cache cfg.interval t.clock v).cache.get? u).getD [] = _
          rw [updateVotes_other _ _ _ _ _ (fun h => hne h.symm)]
          exact kn_add_other t.cache t.clock v r u w (fun h => hne h.symm)
        rw [this]
        exact hu u hlt
      cases hg : q.cache.get? v with
      | none =>
        obtain ⟨x, hx, _⟩ := hm3
        unfold kn at hx
        rw [hg] at hx
        exact (nomatch hx)
      | some votes =>
        dsimp only
        split
        · refine ⟨r1.trans ⟨hclock, ?_, ?_, keep3, new3⟩, hm3⟩
          · show t.view ≤ v
            have : v > t.view := hvw
            omega
          · intro hu u hlt
            replace hlt : v < u := hlt
            have hvt : v > t.view := hvw
            exact other hu u (by omega) (by omega)
        · rename_i hc
          refine ⟨r1.trans ⟨hclock, Nat.le_of_eq hview.symm, ?_, keep3, new3⟩, hm3⟩
          intro hu u hlt
          rw [hview] at hlt
          by_cases hne : u = v
          · subst hne
            have : ¬ (cfg.n - getMaxFailures cfg.n ≤ (kn q.cache u).length) := by
              intro hle
              refine hc ?_
              rw [Bool.and_eq_true]
              unfold kn at hle
              rw [hg] at hle
              exact ⟨by simpa [Quorums.ofN] using hle, by simpa [hview] using hlt⟩
            omega
          · exact other hu u hne hlt
    · rename_i hvw
      refine ⟨r1.trans ⟨rfl, Nat.le_refl _, ?_, fun u e he _ => keep2 u e he, new2⟩, _, hmem, hfr⟩
      intro hu u hlt
      have hlt' : t.view < u := hlt
      have hle : ¬ v > t.view := hvw
      show (kn (addVote t.cache t.clock v r w).cache u).length < _
      rw [kn_add_other _ _ _ _ _ _ (by omega)]
      exact hu u hlt'

/-- An event is a vote of `w` for `v` which the node takes: an INSTANCE_CHANGE of a connected node, in time; or the node
sends its own. -/
def Takes (cfg : Cfg) (s : State) (e : Event) (v : Nat) (w : Node) : Prop :=
  (∃ r, e = .ic v r w ∧ w ∈ s.connected ∧ s.participating = true ∧ s.view < v) ∨
  (w = cfg.name ∧ (s.step cfg e).sent = s.sent ++ [v])

theorem onVerified_sent {cfg : Cfg} {s : State} (hs : Sync s.cache s.db) (v r : Nat) (w : Node) :
    (s.onVerified cfg v r w).sent = s.sent ∧ Sync (s.onVerified cfg v r w).cache (s.onVerified cfg v r w).db := by
  have := Kept.onVerified (P := fun _ _ _ => True) (cfg := cfg) hs (fun _ _ _ _ _ => trivial) v r w trivial
  exact ⟨this.sent, this.sync⟩

theorem sendIC_rel {cfg : Cfg} {s : State} (hs : Sync s.cache s.db) (v r : Nat) :
    Rel cfg s (s.sendIC cfg v r) ∧ (∃ x, (cfg.name, x) ∈ kn (s.sendIC cfg v r).cache v ∧ fresh cfg s.clock x) ∧ (s.sendIC cfg v r).sent = s.sent ++ [v] := by
  unfold State.sendIC
  have hs' : Sync ({ s with sent := s.sent ++ [v] } : State).cache ({ s with sent := s.sent ++ [v] } : State).db := hs
  obtain ⟨a, b⟩ := Rel.onVerified (cfg := cfg) hs' v r cfg.name
  refine ⟨⟨a.clock, a.view, a.under, a.keep, a.new⟩, b, (onVerified_sent hs' v r cfg.name).1⟩

/-- One event that does not set the view back. -/
structure Next (cfg : Cfg) (s : State) (e : Event) : Prop where
  view : s.view ≤ (s.step cfg e).view
  under : Under cfg s → Under cfg (s.step cfg e)
  keep : ∀ u x, s.view < u → x ∈ kn s.cache u → fresh cfg s.clock x.2 → x ∈ kn (s.step cfg e).cache u
  new : ∀ u x, x ∈ kn (s.step cfg e).cache u → x ∈ kn s.cache u ∨ x.2.ts = s.clock
  clock : (∀ c, e = .restart c → c ≤ s.clock) → (s.step cfg e).clock ≤ s.clock + elapsed [e]
  taken : ∀ v w, Takes cfg s e v w → ∃ x, (w, x) ∈ kn (s.step cfg e).cache v

theorem next {cfg : Cfg} {s : State} (hs : Sync s.cache s.db) (e : Event) (hv : ∀ x b, e = .setView x b → s.view ≤ x) : Next cfg s e := by
  have same : ∀ l : List Nat, ∀ v : Nat, l = l ++ [v] → False := by
    intro l v h
    have := congrArg List.length h
    simp at this
  have of : ∀ t, s.step cfg e = t → Rel cfg s t → (∀ v w, Takes cfg s e v w → ∃ x, (w, x) ∈ kn t.cache v) → Next cfg s e := by
    intro t ht r hk
    refine ⟨by rw [ht]; exact r.view, by rw [ht]; exact r.under, fun u x _ => by rw [ht]; exact r.keep u x,
      by rw [ht]; exact r.new, fun _ => by rw [ht, r.clock]; omega, by rw [ht]; exact hk⟩
  have quiet : ∀ t, s.step cfg e = t → t.sent = s.sent → (∀ v r w, e ≠ .ic v r w) →
      ∀ v w, Takes cfg s e v w → ∃ x, (w, x) ∈ kn t.cache v := by
    intro t ht hse hne v w hk
    rcases hk with ⟨r, h, _⟩ | ⟨_, h⟩
    · exact absurd h (hne v r w)
    · rw [ht, hse] at h
      exact (same _ _ h).elim
  cases e with
  | ic v r w =>
    have hstep : s.step cfg (.ic v r w) = s.processIC cfg v r w := rfl
    by_cases hc : w ∈ s.connected ∧ s.participating = true ∧ s.view < v
    · obtain ⟨c1, c2, c3⟩ := hc
      unfold State.processIC at hstep
      rw [if_neg (by simp [c1]), if_neg (by simp [c2]), if_neg (by omega)] at hstep
      dsimp only at hstep
      obtain ⟨r1, x, hx, hxf⟩ := Rel.onVerified (cfg := cfg) hs v r w
      obtain ⟨se, sy⟩ := onVerified_sent (cfg := cfg) hs v r w
      generalize s.onVerified cfg v r w = t at hstep r1 hx se sy
      have r2 := Rel.hasFrom cfg t v cfg.name
      have hx2 := r2.keep v _ hx (by rw [r1.clock]; exact hxf)
      have se2 : (t.hasFrom cfg v cfg.name).1.sent = s.sent := se
      have sy2 : Sync (t.hasFrom cfg v cfg.name).1.cache (t.hasFrom cfg v cfg.name).1.db := sy.updateVotes _ _ _
      have r3 := r1.trans r2
      have tk : ∀ q, s.step cfg (.ic v r w) = q → (w, x) ∈ kn q.cache v → (q.sent = s.sent ∨
          (q.sent = s.sent ++ [v] ∧ ∃ y, (cfg.name, y) ∈ kn q.cache v)) →
          ∀ v' w', Takes cfg s (.ic v r w) v' w' → ∃ y, (w', y) ∈ kn q.cache v' := by
        intro q hq hmem hse v' w' hk
        rcases hk with ⟨r', h, _⟩ | ⟨rfl, h⟩
        · cases h; exact ⟨x, hmem⟩
        · rw [hq] at h
          rcases hse with hse | ⟨hse, hy⟩
          · rw [hse] at h; exact (same _ _ h).elim
          · rw [hse] at h
            have := List.append_cancel_left h
            cases this
            exact hy
      split at hstep
      · exact of _ hstep r3 (tk _ hstep hx2 (.inl se2))
      · split at hstep
        · exact of _ hstep r3 (tk _ hstep hx2 (.inl se2))
        · obtain ⟨r4, ⟨y, hy, _⟩, se4⟩ := sendIC_rel (cfg := cfg) sy2 v 25
          refine of _ hstep (r3.trans r4) (tk _ hstep (r4.keep v _ hx2 (by rw [r3.clock]; exact hxf)) (.inr ⟨?_, y, hy⟩))
          rw [se4, se2]
    · have h0 : s.step cfg (.ic v r w) = s := by
        rw [hstep]
        unfold State.processIC
        by_cases c1 : w ∉ s.connected
        · rw [if_pos c1]
        · rw [if_neg c1]
          by_cases c2 : (!s.participating) = true
          · rw [if_pos c2]
          · rw [if_neg c2]
            by_cases c3 : v ≤ s.view
            · rw [if_pos c3]
            · exact absurd ⟨by simpa using c1, by simpa using c2, by omega⟩ hc
      refine of _ h0 (Rel.refl cfg s) ?_
      intro v' w' hk
      rcases hk with ⟨r', h, h1, h2, h3⟩ | ⟨_, h⟩
      · cases h; exact absurd ⟨h1, h2, h3⟩ hc
      · rw [h0] at h; exact (same _ _ h).elim
  | vote st r v =>
    obtain ⟨r4, ⟨y, hy, _⟩, se4⟩ := sendIC_rel (cfg := cfg) hs (v.getD (if !st || !s.waiting then s.view + 1 else s.view)) r
    have hstep : s.step cfg (.vote st r v) = s.sendIC cfg (v.getD (if !st || !s.waiting then s.view + 1 else s.view)) r := rfl
    refine of _ hstep r4 ?_
    intro v' w' hk
    rcases hk with ⟨r', h, _⟩ | ⟨rfl, h⟩
    · cases h
    · rw [hstep, se4] at h
      have := List.append_cancel_left h
      rw [List.cons.injEq] at this
      exact ⟨y, by rw [← this.1]; exact hy⟩
  | newViewAccepted =>
    have hk : ∀ u, kn (removeView s.cache s.view).cache u = if s.view < u then kn s.cache u else [] := by
      intro u
      unfold kn removeView
      dsimp only
      rw [Dict.get?_filter s.cache (fun k => !decide (k ≤ s.view)) u]
      by_cases hu : s.view < u
      · rw [if_pos hu, if_pos (by simpa using hu)]
      · rw [if_neg hu, if_neg (by simpa using Nat.le_of_not_lt hu)]; rfl
    have hcache : (s.step cfg .newViewAccepted).cache = (removeView s.cache s.view).cache := rfl
    refine ⟨Nat.le_refl _, fun h u hu => ?_, fun u x hu hx _ => ?_, fun u x hx => .inl ?_, fun _ => Nat.le_add_right .., ?_⟩
    · rw [hcache, hk]
      split
      · exact h u hu
      · rename_i hn; exact absurd hu hn
    · rw [hcache, hk, if_pos hu]; exact hx
    · rw [hcache, hk] at hx
      split at hx
      · exact hx
      · exact (nomatch hx)
    · exact quiet _ rfl rfl (fun _ _ _ h => (nomatch h))
  | tick d =>
    exact ⟨Nat.le_refl _, id, fun _ _ _ h _ => h, fun _ _ h => .inl h, fun _ => by simp [State.step, elapsed],
      quiet _ rfl rfl (fun _ _ _ h => (nomatch h))⟩
  | restart c =>
    have hk : ∀ u, kn (fillCache s.db) u = kn s.cache u := by
      intro u
      unfold kn
      rw [fillCache_eq hs.wdb, hs.eq u]
    refine ⟨Nat.le_refl _, fun h u hu => ?_, fun u x _ hx _ => ?_, fun u x hx => .inl ?_, fun h => ?_, ?_⟩
    · show (kn (fillCache s.db) u).length < _
      rw [hk]; exact h u hu
    · show x ∈ kn (fillCache s.db) u
      rw [hk]; exact hx
    · rw [← hk]; exact hx
    · exact Nat.le_trans (h c rfl) (Nat.le_add_right ..)
    · exact quiet _ rfl rfl (fun _ _ _ h => (nomatch h))
  | setView x b =>
    refine ⟨hv x b rfl, fun h u hu => h u (Nat.lt_of_le_of_lt (hv x b rfl) hu), fun _ _ _ h _ => h, fun _ _ h => .inl h,
      fun _ => Nat.le_add_right .., quiet _ rfl rfl (fun _ _ _ h => (nomatch h))⟩
  | setMode p => exact of _ rfl ⟨rfl, Nat.le_refl _, id, fun _ _ h _ => h, fun _ _ h => .inl h⟩ (quiet _ rfl rfl (fun _ _ _ h => (nomatch h)))
  | setConnected l => exact of _ rfl ⟨rfl, Nat.le_refl _, id, fun _ _ h _ => h, fun _ _ h => .inl h⟩ (quiet _ rfl rfl (fun _ _ _ h => (nomatch h)))
  | setDegraded b => exact of _ rfl ⟨rfl, Nat.le_refl _, id, fun _ _ h _ => h, fun _ _ h => .inl h⟩ (quiet _ rfl rfl (fun _ _ _ h => (nomatch h)))

/-! ### Runs -/

/-- The view is never set back. -/
def ViewOk (cfg : Cfg) (evs : List Event) : Prop :=
  ∀ pre x b post, evs = pre ++ .setView x b :: post → (run cfg pre).view ≤ x

theorem under_run (cfg : Cfg) (hn : 0 < cfg.n) (evs : List Event) (h : ViewOk cfg evs) : Under cfg (run cfg evs) := by
  induction evs using snoc_induction with
  | nil =>
    intro u _
    show 0 < _
    unfold getMaxFailures
    split <;> omega
  | snoc evs e ih =>
    rw [run_snoc]
    have i := RInv.run cfg evs
    refine (next i.sync e (fun x b hx => h evs x b [] (by rw [hx]))).under (ih ?_)
    intro pre x b post hp
    exact h pre x b (post ++ [e]) (by rw [hp]; simp)

theorem enough (cfg : Cfg) (hn : 0 < cfg.n) (evs more : List Event) (v : Nat) (Q : List Node) (hQ : Q.Nodup)
    (hlen : cfg.n - getMaxFailures cfg.n ≤ Q.length) (hview : ViewOk cfg (evs ++ more))
    (hclock : ∀ pre c post, more = pre ++ .restart c :: post → c ≤ (run cfg (evs ++ pre)).clock)
    (htime : cfg.interval = 0 ∨ elapsed more ≤ cfg.interval)
    (hnew : ∀ w ∈ Q, ∀ x, (w, x) ∉ kn (run cfg evs).cache v)
    (hvotes : ∀ w ∈ Q, ∃ pre e post, more = pre ++ e :: post ∧ Takes cfg (run cfg (evs ++ pre)) e v w) :
    v ≤ (run cfg (evs ++ more)).view := by
  have key : ∀ a b, more = a ++ b → v ≤ (run cfg (evs ++ a)).view ∨ ∀ w ∈ Q,
      (∀ x, (w, x) ∈ kn (run cfg (evs ++ a)).cache v → (run cfg (evs ++ a)).clock ≤ x.ts + elapsed a) ∧
      ((∃ pre e post, a = pre ++ e :: post ∧ Takes cfg (run cfg (evs ++ pre)) e v w) →
        ∃ x, (w, x) ∈ kn (run cfg (evs ++ a)).cache v) := by
    intro a
    induction a using snoc_induction with
    | nil =>
      intro b _
      refine .inr (fun w hw => ⟨fun x hx => ?_, ?_⟩)
      · rw [List.append_nil] at hx
        exact absurd hx (hnew w hw x)
      · rintro ⟨pre, e, post, h, _⟩
        have := congrArg List.length h
        simp at this
    | snoc a e ih =>
      intro b hab
      have i := RInv.run cfg (evs ++ a)
      have nx := next (cfg := cfg) i.sync e (fun x bb hx => hview (evs ++ a) x bb b (by rw [hab, hx]; simp))
      rw [← List.append_assoc, run_snoc]
      rcases ih (e :: b) (by rw [hab]; simp) with h | h
      · exact .inl (Nat.le_trans h nx.view)
      · by_cases hv : v ≤ (run cfg (evs ++ a)).view
        · exact .inl (Nat.le_trans hv nx.view)
        · refine .inr (fun w hw => ?_)
          obtain ⟨h1, h2⟩ := h w hw
          have hcl := nx.clock (fun c hc => hclock a c b (by rw [hab, hc]; simp))
          have hel : elapsed (a ++ [e]) = elapsed a + elapsed [e] := elapsed_append ..
          have hm : elapsed (a ++ [e]) ≤ elapsed more := by rw [hab, elapsed_append (a ++ [e])]; omega
          refine ⟨fun x hx => ?_, ?_⟩
          · rcases nx.new v _ hx with hx | hx
            · have := h1 x hx; omega
            · simp only at hx; omega
          · rintro ⟨pre, e', post, hp, ht⟩
            rcases List.eq_nil_or_concat post with rfl | ⟨post', y, rfl⟩
            · obtain ⟨rfl, hy⟩ := List.append_inj' hp rfl
              cases hy
              exact nx.taken v w ht
            · rw [List.concat_eq_append, ← List.cons_append, ← List.append_assoc] at hp
              obtain ⟨hp, hy⟩ := List.append_inj' hp rfl
              obtain ⟨x, hx⟩ := h2 ⟨pre, e', post', hp, ht⟩
              refine ⟨x, nx.keep v _ (by omega) hx ?_⟩
              have := h1 x hx
              exact htime.imp id (fun ht => by simp only; omega)
  rcases key more [] (by simp) with h | h
  · exact h
  · refine Nat.le_of_not_lt (fun hlt => ?_)
    have hu := under_run cfg hn (evs ++ more) hview v hlt
    have hsub : ∀ w ∈ Q, w ∈ (kn (run cfg (evs ++ more)).cache v).keys := by
      intro w hw
      obtain ⟨x, hx⟩ := (h w hw).2 (hvotes w hw)
      exact List.mem_map.mpr ⟨(w, x), hx, rfl⟩
    have := length_le_of_subset hQ hsub
    have hk : (kn (run cfg (evs ++ more)).cache v).keys.length = (kn (run cfg (evs ++ more)).cache v).length := by
      simp [Dict.keys]
    omega

end Verif.IC
