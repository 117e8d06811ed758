import Verif.Proofs.ViewChange
/-! Invariants of the view change service. -/
namespace Verif.VC

/-! ### The checkpoint chosen -/

theorem highest_mem {m : Option Checkpoint} {l : List Checkpoint} {c : Checkpoint} (h : highest m l = some c) :
    m = some c ∨ c ∈ l := by
  induction l generalizing m with
  | nil => cases m <;> simp_all [highest]
  | cons a l ih =>
    cases m with
    | none =>
      simp only [highest] at h
      rcases ih h with h | h
      · cases h; exact .inr List.mem_cons_self
      · exact .inr (List.mem_cons_of_mem _ h)
    | some b =>
      simp only [highest] at h
      rcases ih h with h | h
      · split at h
        · cases h; exact .inr List.mem_cons_self
        · cases h; exact .inl rfl
      · exact .inr (List.mem_cons_of_mem _ h)

/-- Nothing above the result. -/
theorem highest_max {m : Option Checkpoint} {l : List Checkpoint} {c : Checkpoint} (h : highest m l = some c) :
    (∀ a, m = some a → a.seqNoEnd ≤ c.seqNoEnd) ∧ ∀ a ∈ l, a.seqNoEnd ≤ c.seqNoEnd := by
  induction l generalizing m with
  | nil => cases m <;> simp_all [highest]
  | cons a l ih =>
    cases m with
    | none =>
      simp only [highest] at h
      obtain ⟨h1, h2⟩ := ih h
      refine ⟨by simp, fun x hx => ?_⟩
      rcases List.mem_cons.1 hx with hx | hx
      · subst hx; exact h1 _ rfl
      · exact h2 x hx
    | some b =>
      simp only [highest] at h
      obtain ⟨h1, h2⟩ := ih h
      by_cases hc : a.seqNoEnd > b.seqNoEnd
      · rw [if_pos hc] at h1
        have := h1 _ rfl
        refine ⟨fun x hx => by cases hx; omega, fun x hx => ?_⟩
        rcases List.mem_cons.1 hx with hx | hx
        · subst hx; exact this
        · exact h2 x hx
      · rw [if_neg hc] at h1
        have := h1 _ rfl
        refine ⟨fun x hx => by cases hx; omega, fun x hx => ?_⟩
        rcases List.mem_cons.1 hx with hx | hx
        · subst hx; omega
        · exact h2 x hx

theorem calcCheckpoint_some {q : Quorums} {vcs : List ViewChange} {cp : Checkpoint} (h : calcCheckpoint q vcs = some cp) :
    cpCandidate q vcs cp = true ∧ ∃ vc ∈ vcs, cp ∈ vc.checkpoints := by
  rcases highest_mem h with h | h
  · cases h
  · obtain ⟨h1, h2⟩ := List.mem_filter.1 h
    exact ⟨h2, List.mem_flatMap.1 h1⟩

theorem calcCheckpoint_length {n : Nat} {vcs : List ViewChange} {cp : Checkpoint}
    (h : calcCheckpoint (Quorums.ofN n) vcs = some cp) : n - getMaxFailures n ≤ vcs.length := by
  have h := (calcCheckpoint_some h).1
  unfold cpCandidate at h
  simp only [Bool.and_eq_true, Quorum.isReached, Quorums.ofN, ge_iff_le, decide_eq_true_eq] at h
  exact Nat.le_trans h.1 (List.length_filter_le _ _)

/-! ### Sorting votes -/

theorem insertVote_perm (v : Node × Nat) (l : List (Node × Nat)) : (insertVote v l).Perm (v :: l) := by
  induction l with
  | nil => exact .refl _
  | cons c l ih =>
    unfold insertVote
    split
    · exact .refl _
    · exact (ih.cons c).trans (.swap _ _ _)

theorem sortVotes_perm (l : List (Node × Nat)) : (sortVotes l).Perm l := by
  induction l with
  | nil => exact .refl _
  | cons v l ih => exact (insertVote_perm v _).trans (ih.cons v)

/-! ### The invariant -/

variable (cfg : Cfg)

/-- The node has the VIEW_CHANGE `vc` of node `w`: received from it, or its
own. -/
def HasVC (evs : List Event) (sent : List ViewChange) (w : Node) (vc : ViewChange) : Prop :=
  .viewChange vc w ∈ evs ∨ (w = cfg.name ∧ vc ∈ sent)

/-- The node has the NEW_VIEW `nv` of node `w`. -/
def HasNV (evs : List Event) (sent : List NewView) (w : Node) (nv : NewView) : Prop :=
  .newView nv w ∈ evs ∨ (w = cfg.name ∧ nv ∈ sent)

/-- The checkpoint and the batches of `nv` are those computed from VIEW_CHANGEs
for its view, one per entry of its list, each of the node named. -/
def Justified (evs : List Event) (sent : List ViewChange) (nv : NewView) : Prop :=
  ∃ nvs : List (Node × ViewChange),
    (nvs.map Prod.fst).Perm (nv.viewChanges.map Prod.fst) ∧
    (∀ e ∈ nvs, e.2.viewNo = nv.viewNo ∧ HasVC cfg evs sent e.1 e.2) ∧
    calcCheckpoint (Quorums.ofN cfg.n) (nvs.map Prod.snd) = some nv.checkpoint ∧
    calcBatches (Quorums.ofN cfg.n) cfg.logSize nv.checkpoint (nvs.map Prod.snd) = some nv.batches

/-- `n - f` distinct nodes sent `nv`. -/
def Quorumed (evs : List Event) (sent : List NewView) (nv : NewView) : Prop :=
  ∃ Q : List Node, Q.Nodup ∧ cfg.n - getMaxFailures cfg.n ≤ Q.length ∧ ∀ w ∈ Q, HasNV cfg evs sent w nv

structure SInv (evs : List Event) (s : Service) : Prop where
  vkeys : (Dict.keys s.votes).Nodup
  votes : ∀ e ∈ s.votes, ∀ vc, e.2.vc = some vc → vc.viewNo = s.viewNo ∧ HasVC cfg evs s.sentVC e.1 vc
  nvs : ∀ e ∈ s.newViews.votes, e.1.viewNo = s.viewNo ∧ e.2.Nodup ∧ ∀ w ∈ e.2, HasNV cfg evs s.sentNV w e.1
  nv : ∀ nv, s.newViews.newView = some nv → nv.viewNo = s.viewNo ∧ Quorumed cfg evs s.sentNV nv
  sentNV : ∀ nv ∈ s.sentNV, Justified cfg evs s.sentVC nv ∧ (nv.viewChanges.map Prod.fst).Nodup
  acc : ∀ nv ∈ s.accepted, Justified cfg evs s.sentVC nv ∨
    (cfg.primary nv.viewNo = cfg.name ∧ Quorumed cfg evs s.sentNV nv)
  prim : s.waiting = true → s.primaryName = cfg.primary s.viewNo

variable {cfg}

theorem HasVC.mono {evs evs' : List Event} {a b : List ViewChange} (h1 : ∀ x ∈ evs, x ∈ evs') (h2 : ∀ x ∈ a, x ∈ b)
    {w vc} (h : HasVC cfg evs a w vc) : HasVC cfg evs' b w vc :=
  h.imp (h1 _) (fun x => ⟨x.1, h2 _ x.2⟩)

theorem HasNV.mono {evs evs' : List Event} {a b : List NewView} (h1 : ∀ x ∈ evs, x ∈ evs') (h2 : ∀ x ∈ a, x ∈ b)
    {w vc} (h : HasNV cfg evs a w vc) : HasNV cfg evs' b w vc :=
  h.imp (h1 _) (fun x => ⟨x.1, h2 _ x.2⟩)

theorem Justified.mono {evs evs' : List Event} {a b : List ViewChange} (h1 : ∀ x ∈ evs, x ∈ evs') (h2 : ∀ x ∈ a, x ∈ b)
    {nv} (h : Justified cfg evs a nv) : Justified cfg evs' b nv := by
  obtain ⟨l, a, b, c, d⟩ := h
  exact ⟨l, a, fun e he => ⟨(b e he).1, (b e he).2.mono h1 h2⟩, c, d⟩

theorem Quorumed.mono {evs evs' : List Event} {a b : List NewView} (h1 : ∀ x ∈ evs, x ∈ evs') (h2 : ∀ x ∈ a, x ∈ b)
    {nv} (h : Quorumed cfg evs a nv) : Quorumed cfg evs' b nv := by
  obtain ⟨l, a, b, c⟩ := h
  exact ⟨l, a, b, fun w hw => (c w hw).mono h1 h2⟩

theorem SInv.mono {evs evs' : List Event} {s : Service} (h : SInv cfg evs s) (h1 : ∀ x ∈ evs, x ∈ evs') :
    SInv cfg evs' s where
  vkeys := h.vkeys
  votes := fun e he vc hv => ⟨(h.votes e he vc hv).1, (h.votes e he vc hv).2.mono h1 (fun _ h => h)⟩
  nvs := fun e he => ⟨(h.nvs e he).1, (h.nvs e he).2.1, fun w hw => ((h.nvs e he).2.2 w hw).mono h1 (fun _ h => h)⟩
  nv := fun nv hn => ⟨(h.nv nv hn).1, (h.nv nv hn).2.mono h1 (fun _ h => h)⟩
  sentNV := fun nv hn => ⟨(h.sentNV nv hn).1.mono h1 (fun _ h => h), (h.sentNV nv hn).2⟩
  acc := fun nv hn => (h.acc nv hn).imp (·.mono h1 (fun _ h => h)) (fun x => ⟨x.1, x.2.mono h1 (fun _ h => h)⟩)
  prim := h.prim

theorem mem_of_of {v : Votes} {w : Node} {vc : ViewChange} (h : (v.of w).vc = some vc) :
    ∃ e ∈ v, e.1 = w ∧ e.2.vc = some vc := by
  unfold Votes.of at h
  cases hg : Dict.get? v w with
  | none => rw [hg] at h; cases h
  | some x => rw [hg] at h; exact ⟨(w, x), Dict.mem_of_get? hg, rfl, h⟩

theorem getViewChange_some {vd : ViewChange → Nat} {v : Votes} {w : Node} {d : Nat} {vc : ViewChange}
    (h : v.getViewChange vd w d = some vc) : (v.of w).vc = some vc := by
  unfold Votes.getViewChange at h
  split at h
  · next x hx => split at h
                 · rw [hx]; exact h
                 · cases h
  · cases h

/-- The NEW_VIEW the service works with. -/
theorem SInv.get {evs : List Event} {s : Service} (h : SInv cfg evs s) {p : Node} {nv : NewView}
    (hg : s.newViews.get p = some nv) :
    nv.viewNo = s.viewNo ∧ (Quorumed cfg evs s.sentNV nv ∨ HasNV cfg evs s.sentNV p nv) := by
  unfold NewViewVotes.get at hg
  split at hg
  · next x hx => cases hg; exact ⟨(h.nv _ hx).1, .inl (h.nv _ hx).2⟩
  · obtain ⟨e, he, rfl⟩ := Option.map_eq_some_iff.1 hg
    have h1 := List.mem_of_find?_eq_some he
    have h2 := List.find?_some he
    simp only [Bool.and_eq_true, beq_iff_eq] at h2
    refine ⟨(h.nvs e h1).1, .inr ((h.nvs e h1).2.2 p ?_)⟩
    rw [h2.1]; exact List.mem_singleton.2 rfl

theorem SInv.finish {evs : List Event} {s : Service} (h : SInv cfg evs s)
    (hj : ∀ nv, s.newViews.get s.primaryName = some nv → Justified cfg evs s.sentVC nv ∨
      (cfg.primary nv.viewNo = cfg.name ∧ Quorumed cfg evs s.sentNV nv)) :
    SInv cfg evs s.finish := by
  unfold Service.finish
  split
  · exact { h with }
  · next nv hg =>
    exact { h with
      acc := by
        intro x hx
        rcases List.mem_append.1 hx with hx | hx
        · exact h.acc x hx
        · rw [List.mem_singleton.1 hx]; exact hj nv hg
      prim := by intro hw; cases hw }

theorem SInv.finishIfNeeded {evs : List Event} {s : Service} (h : SInv cfg evs s) :
    SInv cfg evs (s.finishIfNeeded cfg) := by
  unfold Service.finishIfNeeded
  split
  · exact h
  · next nv hg =>
    split
    · exact h
    · next vcs hm =>
      simp only
      split
      · exact h
      · next cp hcp =>
        split
        · exact h
        · next hne =>
          split
          · exact h
          · next hb =>
            refine h.finish (fun nv' hg' => ?_)
            rw [hg] at hg'; cases hg'
            have hne : cp = nv.checkpoint := Classical.byContradiction hne
            have hb : calcBatches (Quorums.ofN cfg.n) cfg.logSize cp vcs = some nv.batches := Classical.byContradiction hb
            subst hne
            -- pair the names with the messages
            have key : ∀ (l : List (Node × Nat)) (vcs : List ViewChange),
                l.mapM (fun e => s.votes.getViewChange cfg.vd e.1 e.2) = some vcs →
                ∃ nvs : List (Node × ViewChange), nvs.map Prod.fst = l.map Prod.fst ∧ nvs.map Prod.snd = vcs ∧
                  ∀ e ∈ nvs, (s.votes.of e.1).vc = some e.2 := by
              intro l
              induction l with
              | nil => intro vcs hv; simp at hv; subst hv; exact ⟨[], rfl, rfl, by simp⟩
              | cons a l ih =>
                intro vcs hv
                rw [List.mapM_cons] at hv
                simp only [Option.bind_eq_bind, Option.bind_eq_some_iff, Option.pure_def, Option.some.injEq] at hv
                obtain ⟨x, hx, ys, hys, rfl⟩ := hv
                obtain ⟨nvs, e1, e2, e3⟩ := ih ys hys
                refine ⟨(a.1, x) :: nvs, by simp [e1], by simp [e2], ?_⟩
                intro e he
                rcases List.mem_cons.1 he with he | he
                · subst he; exact getViewChange_some hx
                · exact e3 e he
            obtain ⟨nvs, e1, e2, e3⟩ := key _ _ hm
            refine .inl ⟨nvs, by rw [e1], fun e he => ?_, by rw [e2]; exact hcp, by rw [e2]; exact hb⟩
            obtain ⟨x, x1, x2, x3⟩ := mem_of_of (e3 e he)
            have := h.votes x x1 e.2 x3
            rw [(h.get hg).1, ← x2]
            exact this

theorem SInv.addNewView {evs : List Event} {s : Service} (h : SInv cfg evs s) (nv : NewView) (w : Node)
    (hv : nv.viewNo = s.viewNo) (hw : HasNV cfg evs s.sentNV w nv) :
    SInv cfg evs { s with newViews := s.newViews.add (Quorums.ofN cfg.n) nv w } := by
  have old : ((s.newViews.votes.get? nv).getD []).Nodup ∧
      ∀ x ∈ (s.newViews.votes.get? nv).getD [], HasNV cfg evs s.sentNV x nv := by
    cases hg : s.newViews.votes.get? nv with
    | none => simp
    | some l => exact (h.nvs _ (Dict.mem_of_get? hg)).2
  have hvs : ∀ vs, vs = (if w ∈ (s.newViews.votes.get? nv).getD [] then (s.newViews.votes.get? nv).getD []
      else (s.newViews.votes.get? nv).getD [] ++ [w]) → vs.Nodup ∧ ∀ x ∈ vs, HasNV cfg evs s.sentNV x nv := by
    intro vs e
    split at e
    · subst e; exact old
    · next hn =>
      subst e
      refine ⟨?_, fun x hx => ?_⟩
      · rw [List.nodup_append]
        refine ⟨old.1, by simp, fun a ha b hb => ?_⟩
        rw [List.mem_singleton.1 hb]; intro e; subst e; exact hn ha
      · rcases List.mem_append.1 hx with hx | hx
        · exact old.2 x hx
        · rw [List.mem_singleton.1 hx]; exact hw
  exact { h with
    nvs := by
      intro e he
      rcases Dict.mem_set he with he | he
      · exact h.nvs e he
      · subst he; exact ⟨hv, hvs _ rfl⟩
    nv := by
      intro x hx
      simp only [NewViewVotes.add] at hx
      obtain ⟨vs, e⟩ : ∃ vs, vs = (if w ∈ (s.newViews.votes.get? nv).getD [] then (s.newViews.votes.get? nv).getD []
        else (s.newViews.votes.get? nv).getD [] ++ [w]) := ⟨_, rfl⟩
      rw [← e] at hx
      split at hx
      · next hq =>
        cases hx
        simp only [Quorum.isReached, Quorums.ofN, ge_iff_le, decide_eq_true_eq] at hq
        exact ⟨hv, vs, (hvs _ e).1, hq, (hvs _ e).2⟩
      · exact h.nv x hx }

theorem confirmed_vote {q : Quorums} {vd : ViewChange → Nat} {v : Votes} {e : Node × Nat} (h : e ∈ v.confirmed q vd) :
    ∃ x ∈ v, ∃ vc, x.1 = e.1 ∧ x.2.vc = some vc ∧ vd vc = e.2 := by
  unfold Votes.confirmed at h
  obtain ⟨x, hx, h⟩ := List.mem_filterMap.1 h
  split at h
  · obtain ⟨vc, h1, h2⟩ := Option.map_eq_some_iff.1 h
    exact ⟨x, hx, vc, by rw [← h2], h1, by rw [← h2]⟩
  · cases h

theorem confirmed_nodup {q : Quorums} {vd : ViewChange → Nat} {v : Votes} (h : (Dict.keys v).Nodup) :
    ((v.confirmed q vd).map Prod.fst).Nodup := by
  have : ((v.confirmed q vd).map Prod.fst).Sublist (Dict.keys v) := by
    unfold Votes.confirmed Dict.keys
    clear h
    induction v with
    | nil => exact .slnil
    | cons e v ih =>
      rw [List.filterMap_cons]
      split
      · exact .cons _ ih
      · next b hb =>
        split at hb
        · obtain ⟨vc, h1, h2⟩ := Option.map_eq_some_iff.1 hb
          simp only [List.map_cons, ← h2]
          exact ih.cons_cons e.1
        · cases hb
  exact h.sublist this

theorem SInv.sendNewView {evs : List Event} {s : Service} (h : SInv cfg evs s) (hp : s.primaryName = cfg.name)
    (hw : s.waiting = true) (hself : ∀ nv, .newView nv cfg.name ∉ evs) : SInv cfg evs (s.sendNewViewIfNeeded cfg) := by
  unfold Service.sendNewViewIfNeeded
  simp only
  split
  · exact h
  · split
    · exact h
    · next cp hcp =>
      split
      · exact h
      · next batches hb =>
        split
        · exact h
        · -- the VIEW_CHANGEs of the confirmed votes, by name
          have key : ∀ l : List (Node × Nat), (∀ e ∈ l, e ∈ s.votes.confirmed (Quorums.ofN cfg.n) cfg.vd) →
              ∃ nvs : List (Node × ViewChange), nvs.map Prod.fst = l.map Prod.fst ∧
                nvs.map Prod.snd = l.filterMap (fun e => s.votes.getViewChange cfg.vd e.1 e.2) ∧
                ∀ e ∈ nvs, e.2.viewNo = s.viewNo ∧ HasVC cfg evs s.sentVC e.1 e.2 := by
            intro l
            induction l with
            | nil => intro _; exact ⟨[], rfl, rfl, by simp⟩
            | cons a l ih =>
              intro hl
              obtain ⟨nvs, e1, e2, e3⟩ := ih (fun e he => hl e (List.mem_cons_of_mem _ he))
              obtain ⟨x, x1, vc, x2, x3, x4⟩ := confirmed_vote (hl a List.mem_cons_self)
              have hof : (s.votes.of a.1).vc = some vc := by
                unfold Votes.of
                rw [Dict.get?_of_mem h.vkeys (v := x.2) (k := a.1) (by rw [← x2]; exact x1)]
                exact x3
              have hget : s.votes.getViewChange cfg.vd a.1 a.2 = some vc := by
                unfold Votes.getViewChange
                rw [hof]; simp [x4]
              refine ⟨(a.1, vc) :: nvs, by simp [e1], by simp [e2, hget], ?_⟩
              intro e he
              rcases List.mem_cons.1 he with he | he
              · subst he
                have := h.votes x x1 vc x3
                rw [x2] at this
                exact this
              · exact e3 e he
          obtain ⟨nvs, e1, e2, e3⟩ := key _ (fun _ h => h)
          have hj : Justified cfg evs s.sentVC ⟨s.viewNo, sortVotes (s.votes.confirmed (Quorums.ofN cfg.n) cfg.vd), cp, batches, none⟩ := by
            refine ⟨nvs, ?_, e3, by rw [e2]; exact hcp, by rw [e2]; exact hb⟩
            rw [e1]
            exact ((sortVotes_perm _).map Prod.fst).symm
          have hnd : ((sortVotes (s.votes.confirmed (Quorums.ofN cfg.n) cfg.vd)).map Prod.fst).Nodup :=
            ((sortVotes_perm _).map Prod.fst).symm.nodup (confirmed_nodup h.vkeys)
          have h1 : SInv cfg evs { s with sentNV := s.sentNV ++
              [⟨s.viewNo, sortVotes (s.votes.confirmed (Quorums.ofN cfg.n) cfg.vd), cp, batches, none⟩] } := { h with
            nvs := fun e he => ⟨(h.nvs e he).1, (h.nvs e he).2.1, fun w hw =>
              ((h.nvs e he).2.2 w hw).mono (fun _ h => h) (fun _ h => List.mem_append_left _ h)⟩
            nv := fun nv hn => ⟨(h.nv nv hn).1, (h.nv nv hn).2.mono (fun _ h => h) (fun _ h => List.mem_append_left _ h)⟩
            sentNV := by
              intro x hx
              rcases List.mem_append.1 hx with hx | hx
              · exact h.sentNV x hx
              · rw [List.mem_singleton.1 hx]; exact ⟨hj, hnd⟩
            acc := fun nv hn => (h.acc nv hn).imp id (fun x => ⟨x.1, x.2.mono (fun _ h => h) (fun _ h => List.mem_append_left _ h)⟩) }
          have h2 := h1.addNewView ⟨s.viewNo, sortVotes (s.votes.confirmed (Quorums.ofN cfg.n) cfg.vd), cp, batches, none⟩
            cfg.name rfl (.inr ⟨rfl, by simp⟩)
          refine h2.finish (fun nv hg => ?_)
          rcases (h2.get hg).2 with x | x
          · refine .inr ⟨?_, x⟩
            rw [(h2.get hg).1]
            exact (h.prim hw).symm.trans hp
          · rcases x with x | x
            · rw [show (_ : Node) = cfg.name from hp] at x; exact (hself _ x).elim
            · exact .inl (h2.sentNV _ x.2).1

theorem validate_process {s : Service} {v : Nat} (h : s.validate v = .process) : v = s.viewNo ∧ s.waiting = true := by
  unfold Service.validate at h
  repeat' split at h
  all_goals first | cases h | skip
  next h1 h2 h3 h4 =>
    have e : v = s.viewNo := by omega
    exact ⟨e, by simpa [e] using h2⟩

theorem SInv.step {evs : List Event} {s : Service} (h : SInv cfg evs s) (hself : ∀ nv, .newView nv cfg.name ∉ evs)
    (e : Event) (he : e ∈ evs) : SInv cfg evs (s.step cfg e) := by
  unfold Service.step
  split
  · exact h
  unfold Service.handle
  cases e with
  | need v p pp =>
    simp only
    split
    · exact h
    · unfold Service.needViewChange Service.buildViewChange
      simp only
      have hs : ∀ (vc : ViewChange) (x : ViewChange), x ∈ s.sentVC → x ∈ s.sentVC ++ [vc] :=
        fun _ _ h => List.mem_append_left _ h
      exact {
        vkeys := by simp [Votes.addViewChange, Dict.set, Dict.keys]
        votes := by
          intro e he vc hvc
          simp only [Votes.addViewChange, Dict.set, List.mem_singleton] at he
          subst he
          simp only [Votes.of, Dict.get?_nil, Option.getD_none, NodeVotes.addViewChange, Option.some.injEq] at hvc
          subst hvc
          exact ⟨rfl, .inr ⟨rfl, by simp⟩⟩
        nvs := by intro e he; simp at he
        nv := by intro e he; simp at he
        sentNV := fun nv hn => ⟨(h.sentNV nv hn).1.mono (fun _ h => h) (hs _), (h.sentNV nv hn).2⟩
        acc := fun nv hn => (h.acc nv hn).imp (·.mono (fun _ h => h) (hs _)) id
        prim := fun _ => rfl }
  | viewChange vc w =>
    unfold Service.processViewChange
    simp only
    split
    · exact h
    · next hv =>
      obtain ⟨hv, hwt⟩ := validate_process (Classical.byContradiction hv)
      have h1 : SInv cfg evs { s with votes := (s.votes.addViewChange vc w).addAck w (cfg.vd vc) cfg.name } := { h with
        vkeys := Dict.nodup_keys_set (Dict.nodup_keys_set h.vkeys _ _) _ _
        votes := by
          have h0 : ∀ e ∈ s.votes.addViewChange vc w, ∀ x, e.2.vc = some x → x.viewNo = s.viewNo ∧ HasVC cfg evs s.sentVC e.1 x := by
            intro e he x hx
            rcases Dict.mem_set he with he | he
            · exact h.votes e he x hx
            · subst he
              simp only [NodeVotes.addViewChange] at hx
              split at hx
              · cases hx; exact ⟨hv, .inl ‹_›⟩
              · obtain ⟨y, y1, y2, y3⟩ := mem_of_of hx
                have := h.votes y y1 x y3
                rw [y2] at this; exact this
          intro e he x hx
          rcases Dict.mem_set he with he | he
          · exact h0 e he x hx
          · subst he
            simp only [NodeVotes.addAck] at hx
            obtain ⟨y, y1, y2, y3⟩ := mem_of_of hx
            have := h0 y y1 x y3
            rw [y2] at this; exact this }
      split
      · next hp => exact h1.sendNewView hp hwt hself
      · exact h1.finishIfNeeded
  | ack v name d w =>
    unfold Service.processAck
    simp only
    split
    · exact h
    · next hv =>
      obtain ⟨-, hwt⟩ := validate_process (Classical.byContradiction hv)
      split
      · exact h
      · next hp =>
        have hp : s.primaryName = cfg.name := Classical.byContradiction hp
        have h1 : SInv cfg evs { s with votes := s.votes.addAck name d w } := { h with
          vkeys := Dict.nodup_keys_set h.vkeys _ _
          votes := by
            intro e he x hx
            rcases Dict.mem_set he with he | he
            · exact h.votes e he x hx
            · subst he
              simp only [NodeVotes.addAck] at hx
              obtain ⟨y, y1, y2, y3⟩ := mem_of_of hx
              have := h.votes y y1 x y3
              rw [y2] at this; exact this }
        exact h1.sendNewView hp hwt hself
  | newView nv w =>
    unfold Service.processNewView
    simp only
    split
    · exact h
    · next hv =>
      obtain ⟨hv, hwt⟩ := validate_process (Classical.byContradiction hv)
      exact (h.addNewView nv w hv (.inl he)).finishIfNeeded
  | shared p st cps => exact { h with }

theorem SInv.run (evs : List Event) (hself : ∀ nv, .newView nv cfg.name ∉ evs) : SInv cfg evs (run cfg evs) := by
  have base : SInv cfg evs ({} : Service) := {
    vkeys := by simp [Dict.keys]
    votes := by simp
    nvs := by simp
    nv := by simp
    sentNV := by simp
    acc := by simp
    prim := by intro h; cases h }
  have fold : ∀ (l : List Event) (s : Service), SInv cfg evs s → (∀ e ∈ l, e ∈ evs) →
      SInv cfg evs (l.foldl (Service.step cfg) s) := by
    intro l
    induction l with
    | nil => intro s h _; exact h
    | cons e l ih =>
      intro s h hl
      exact ih _ (h.step hself e (hl e List.mem_cons_self)) (fun x hx => hl x (List.mem_cons_of_mem _ hx))
  exact fold evs _ base (fun _ h => h)

end Verif.VC

namespace Verif.VC

/-! ### Order of the VIEW_CHANGEs -/

theorem witnesses_perm {a b : List ViewChange} (h : a.Perm b) (check : ViewChange → Bool) :
    witnesses a check = witnesses b check := (h.filter check).length_eq

theorem find?_congr {α : Type} {p : α → Bool} {l l' : List α} (hm : ∀ x, x ∈ l ↔ x ∈ l')
    (hu : ∀ a ∈ l, ∀ b ∈ l, p a = true → p b = true → a = b) : l.find? p = l'.find? p := by
  cases h : l.find? p with
  | none =>
    symm
    rw [List.find?_eq_none] at h ⊢
    exact fun x hx => h x ((hm x).2 hx)
  | some a =>
    have ha := List.mem_of_find?_eq_some h
    have hp := List.find?_some h
    cases h' : l'.find? p with
    | none => rw [List.find?_eq_none] at h'; exact (h' a ((hm a).1 ha) hp).elim
    | some b =>
      have hb := List.mem_of_find?_eq_some h'
      have hq := List.find?_some h'
      rw [hu a ha b ((hm b).2 hb) hp hq]

/-- With exactly a strong quorum of VIEW_CHANGEs at most one batch per sequence
number can be selected. -/
theorem candidate_unique {n : Nat} {vcs : List ViewChange} (hl : vcs.length = n - getMaxFailures n) {a b : BatchID}
    (ha : ∃ vc ∈ vcs, a ∈ vc.prepared) (hb : ∃ vc ∈ vcs, b ∈ vc.prepared) (hs : a.ppSeqNo = b.ppSeqNo)
    (pa : isBatchPrepared (Quorums.ofN n) vcs a = true) (pb : isBatchPrepared (Quorums.ofN n) vcs b = true) : a = b := by
  have all : ∀ {check : ViewChange → Bool},
      (Quorums.ofN n).strong.isReached (witnesses vcs check) = true → ∀ vc ∈ vcs, check vc = true := by
    intro check h
    simp only [Quorum.isReached, Quorums.ofN, ge_iff_le, decide_eq_true_eq] at h
    have h2 : (vcs.filter check).length = vcs.length := by
      have := List.length_filter_le check vcs
      unfold witnesses at h
      omega
    exact List.length_filter_eq_length_iff.1 h2
  obtain ⟨va, va1, va2⟩ := ha
  obtain ⟨vb, vb1, vb2⟩ := hb
  have h1 := all pa vb vb1
  have h2 := all pb va va1
  simp only [Bool.and_eq_true, List.all_eq_true] at h1 h2
  have h1 := h1.2 b vb2
  have h2 := h2.2 a va2
  simp only [hs, ne_eq, not_true, if_false, gt_iff_lt] at h1 h2
  have e : a.viewNo = b.viewNo := by
    apply Classical.byContradiction
    intro hne
    rcases Nat.lt_or_gt_of_ne hne with h | h
    · rw [if_pos h] at h1; cases h1
    · rw [if_pos h] at h2; cases h2
  have hd : a.ppDigest = b.ppDigest := by
    apply Classical.byContradiction
    intro hne
    simp [e, hne] at h2
  have hv : a.ppViewNo = b.ppViewNo := by
    apply Classical.byContradiction
    intro hne
    simp [e, hne] at h2
  cases a; cases b; simp_all

theorem tryFindBatch_perm {n : Nat} {vcs vcs' : List ViewChange} (hl : vcs.length = n - getMaxFailures n)
    (hp : vcs.Perm vcs') (s : Nat) :
    tryFindBatch (Quorums.ofN n) vcs s = tryFindBatch (Quorums.ofN n) vcs' s := by
  have e : ∀ bid, isBatchPrepared (Quorums.ofN n) vcs bid = isBatchPrepared (Quorums.ofN n) vcs' bid := fun bid => by
    unfold isBatchPrepared; rw [witnesses_perm hp]
  have e' : ∀ bid, isBatchPreprepared (Quorums.ofN n) vcs bid = isBatchPreprepared (Quorums.ofN n) vcs' bid := fun bid => by
    unfold isBatchPreprepared; rw [witnesses_perm hp]
  unfold tryFindBatch
  simp only [← e, ← e']
  refine find?_congr ?_ ?_
  · intro x
    simp only [List.mem_flatMap, hp.mem_iff]
  · intro a ha b hb pa pb
    simp only [Bool.and_eq_true, decide_eq_true_eq] at pa pb
    exact candidate_unique hl (List.mem_flatMap.1 ha) (List.mem_flatMap.1 hb) (by rw [pa.1.1, pb.1.1]) pa.1.2 pb.1.2

theorem batchLoop_perm {n : Nat} {vcs vcs' : List ViewChange} (hl : vcs.length = n - getMaxFailures n)
    (hp : vcs.Perm vcs') (k s : Nat) (acc : List BatchID) :
    batchLoop (Quorums.ofN n) vcs k s acc = batchLoop (Quorums.ofN n) vcs' k s acc := by
  have e : ∀ s, checkNullBatch (Quorums.ofN n) vcs s = checkNullBatch (Quorums.ofN n) vcs' s := fun s => by
    unfold checkNullBatch; rw [witnesses_perm hp]
  induction k generalizing s acc with
  | zero => rfl
  | succ k ih =>
    unfold batchLoop
    rw [tryFindBatch_perm hl hp, e]
    split
    · exact ih _ _
    · rfl

/-! ### Sorted batches -/

theorem bidLe_total (a b : BatchID) : bidLe a b = true ∨ bidLe b a = true := by
  unfold bidLe
  simp only [Bool.or_eq_true, Bool.and_eq_true, decide_eq_true_eq, beq_iff_eq]
  omega

theorem bidLe_trans {a b c : BatchID} (h1 : bidLe a b = true) (h2 : bidLe b c = true) : bidLe a c = true := by
  unfold bidLe at *
  simp only [Bool.or_eq_true, Bool.and_eq_true, decide_eq_true_eq, beq_iff_eq] at *
  omega

theorem insertBid_pairwise {b : BatchID} {l : List BatchID} (h : l.Pairwise (fun a b => bidLe a b = true)) :
    (insertBid b l).Pairwise (fun a b => bidLe a b = true) := by
  induction l with
  | nil => simp [insertBid]
  | cons c l ih =>
    unfold insertBid
    have hc := List.pairwise_cons.1 h
    split
    · next hb =>
      refine List.pairwise_cons.2 ⟨fun x hx => ?_, h⟩
      rcases List.mem_cons.1 hx with hx | hx
      · subst hx; exact hb
      · exact bidLe_trans hb (hc.1 x hx)
    · next hb =>
      refine List.pairwise_cons.2 ⟨fun x hx => ?_, ih hc.2⟩
      rcases mem_insertBid.1 hx with hx | hx
      · subst hx; exact (bidLe_total _ _).resolve_left hb
      · exact hc.1 x hx

theorem sortBids_pairwise (l : List BatchID) : (sortBids l).Pairwise (fun a b => bidLe a b = true) := by
  induction l with
  | nil => exact .nil
  | cons b l ih => exact insertBid_pairwise ih

end Verif.VC
