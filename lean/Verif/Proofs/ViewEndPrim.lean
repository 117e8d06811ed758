import Verif.Proofs.ViewEnd
/-! The primary of the new view. -/
namespace Verif.VC

variable {cfg : Cfg}

/-- The confirmed VIEW_CHANGEs by name. -/
def confirmedVCs (cfg : Cfg) (votes : Votes) : List (Node × ViewChange) :=
  votes.filterMap (fun e => if e.2.isConfirmed (Quorums.ofN cfg.n) cfg.vd then e.2.vc.map (fun vc => (e.1, vc)) else none)

theorem confirmed_eq (votes : Votes) :
    votes.confirmed (Quorums.ofN cfg.n) cfg.vd = (confirmedVCs cfg votes).map (fun e => (e.1, cfg.vd e.2)) := by
  unfold Votes.confirmed confirmedVCs
  rw [List.map_filterMap]
  apply congrArg (List.filterMap · votes)
  funext e
  split
  · cases e.2.vc <;> rfl
  · rfl

theorem confirmedVCs_mem {votes : Votes} (hk : (Dict.keys votes).Nodup) {j : Node} {y : ViewChange} :
    (j, y) ∈ confirmedVCs cfg votes ↔ (votes.of j).vc = some y ∧ (votes.of j).isConfirmed (Quorums.ofN cfg.n) cfg.vd = true := by
  unfold confirmedVCs
  rw [List.mem_filterMap]
  constructor
  · rintro ⟨e, he, h⟩
    split at h
    · next hc =>
      obtain ⟨vc, h1, h2⟩ := Option.map_eq_some_iff.1 h
      cases h2
      have : votes.of e.1 = e.2 := by
        unfold Votes.of
        rw [Dict.get?_of_mem hk (v := e.2) (k := e.1) he]; rfl
      rw [this]; exact ⟨h1, hc⟩
    · cases h
  · rintro ⟨h1, h2⟩
    unfold Votes.of at h1 h2
    cases hg : Dict.get? votes j with
    | none => rw [hg] at h1; cases h1
    | some x =>
      rw [hg] at h1 h2
      refine ⟨(j, x), Dict.mem_of_get? hg, ?_⟩
      simp only [Option.getD_some] at h1 h2
      simp [h1, h2]

theorem confirmedVCs_nodup {votes : Votes} (hk : (Dict.keys votes).Nodup) : ((confirmedVCs cfg votes).map Prod.fst).Nodup := by
  have := confirmed_nodup (q := Quorums.ofN cfg.n) (vd := cfg.vd) hk
  rw [confirmed_eq, List.map_map] at this
  exact this

theorem confirmed_msgs {votes : Votes} (hk : (Dict.keys votes).Nodup) :
    (votes.confirmed (Quorums.ofN cfg.n) cfg.vd).filterMap (fun e => votes.getViewChange cfg.vd e.1 e.2) =
      msgs (confirmedVCs cfg votes) := by
  rw [confirmed_eq, List.filterMap_map]
  have h : ∀ e ∈ confirmedVCs cfg votes, votes.getViewChange cfg.vd e.1 (cfg.vd e.2) = some e.2 := by
    intro e he
    have := ((confirmedVCs_mem hk).1 (show (e.1, e.2) ∈ confirmedVCs cfg votes from he)).1
    unfold Votes.getViewChange
    rw [this]; simp
  unfold msgs
  generalize confirmedVCs cfg votes = l at h
  induction l with
  | nil => rfl
  | cons e l ih =>
    rw [List.filterMap_cons, List.map_cons]
    simp only [Function.comp, h e List.mem_cons_self]
    rw [← ih (fun x hx => h x (List.mem_cons_of_mem _ hx))]

/-- A NEW_VIEW as the primary makes it from the VIEW_CHANGEs `nvs`. -/
structure Made (cfg : Cfg) (v : Nat) (nvs : List (Node × ViewChange)) (nv : NewView) : Prop where
  view : nv.viewNo = v
  prim : nv.primary = none
  many : cfg.n - getMaxFailures cfg.n ≤ nvs.length
  nodup : (nvs.map Prod.fst).Nodup
  named : nv.viewChanges = sortVotes (nvs.map (fun e => (e.1, cfg.vd e.2)))
  cp : calcCheckpoint (Quorums.ofN cfg.n) (msgs nvs) = some nv.checkpoint
  bs : calcBatches (Quorums.ofN cfg.n) cfg.logSize nv.checkpoint (msgs nvs) = some nv.batches

/-- A NEW_VIEW can be made from `nvs`. -/
def Sendable (cfg : Cfg) (cps : List Checkpoint) (nvs : List (Node × ViewChange)) : Prop :=
  cfg.n - getMaxFailures cfg.n ≤ nvs.length ∧ ∃ cp bs, calcCheckpoint (Quorums.ofN cfg.n) (msgs nvs) = some cp ∧
    calcBatches (Quorums.ofN cfg.n) cfg.logSize cp (msgs nvs) = some bs ∧ cp ∈ cps

theorem send_cases {s : Service} (hk : (Dict.keys s.votes).Nodup) (hn : s.newViews = {}) (hp : s.primaryName = cfg.name) :
    (s.sendNewViewIfNeeded cfg = s ∧ ¬ Sendable cfg s.checkpoints (confirmedVCs cfg s.votes)) ∨
    ∃ nv, Made cfg s.viewNo (confirmedVCs cfg s.votes) nv ∧ (s.sendNewViewIfNeeded cfg).crashed = s.crashed ∧
      (s.sendNewViewIfNeeded cfg).waiting = false ∧ (s.sendNewViewIfNeeded cfg).viewNo = s.viewNo ∧
      (s.sendNewViewIfNeeded cfg).accepted = s.accepted ++ [nv] ∧ (s.sendNewViewIfNeeded cfg).sentNV = s.sentNV ++ [nv] ∧
      (s.sendNewViewIfNeeded cfg).sentVC = s.sentVC := by
  unfold Service.sendNewViewIfNeeded
  dsimp only
  rw [confirmed_msgs hk]
  have hl : (s.votes.confirmed (Quorums.ofN cfg.n) cfg.vd).length = (confirmedVCs cfg s.votes).length := by
    rw [confirmed_eq, List.length_map]
  rw [hl]
  split
  · next h =>
    left
    refine ⟨rfl, fun hs => ?_⟩
    have := hs.1
    simp only [Quorum.isReached, Quorums.ofN, ge_iff_le, Bool.not_eq_true', decide_eq_false_iff_not] at h
    omega
  next h =>
  split
  · next hcp =>
    left
    refine ⟨rfl, ?_⟩
    rintro ⟨-, cp, bs, h1, -⟩
    rw [hcp] at h1; cases h1
  next cp hcp =>
  split
  · next hb =>
    left
    refine ⟨rfl, ?_⟩
    rintro ⟨-, cp', bs, h1, h2, -⟩
    rw [hcp] at h1; cases h1
    rw [hb] at h2; cases h2
  next bs hb =>
  split
  · next hc =>
    left
    refine ⟨rfl, ?_⟩
    rintro ⟨-, cp', bs', h1, h2, h3⟩
    rw [hcp] at h1; cases h1
    simp [h3] at hc
  · right
    have h : cfg.n - getMaxFailures cfg.n ≤ (confirmedVCs cfg s.votes).length := by
      simp only [Quorum.isReached, Quorums.ofN, ge_iff_le, Bool.not_eq_true', decide_eq_false_iff_not] at h
      omega
    refine ⟨⟨s.viewNo, sortVotes (s.votes.confirmed (Quorums.ofN cfg.n) cfg.vd), cp, bs, none⟩, ?_⟩
    have hg : (s.newViews.add (Quorums.ofN cfg.n)
        ⟨s.viewNo, sortVotes (s.votes.confirmed (Quorums.ofN cfg.n) cfg.vd), cp, bs, none⟩ cfg.name).get s.primaryName =
        some ⟨s.viewNo, sortVotes (s.votes.confirmed (Quorums.ofN cfg.n) cfg.vd), cp, bs, none⟩ := by
      rw [hn, hp]
      unfold NewViewVotes.add NewViewVotes.get
      simp only [Dict.get?_nil, Option.getD_none, List.not_mem_nil, if_false, List.nil_append, Dict.set]
      by_cases h : (Quorums.ofN cfg.n).strong.isReached [cfg.name].length = true
      · simp only [h, if_true]
      · simp only [h]
        simp
    refine ⟨⟨rfl, rfl, h, confirmedVCs_nodup hk, by rw [confirmed_eq], hcp, hb⟩, ?_⟩
    unfold Service.finish
    dsimp only
    rw [hg]
    exact ⟨rfl, rfl, rfl, rfl, rfl, rfl⟩

/-- The primary while it has not sent its NEW_VIEW. -/
structure PrimWaits (cfg : Cfg) (v : Nat) (own : ViewChange) (s0 : Service) (evs : List Event) (s : Service) : Prop where
  wait : Waits cfg v s
  kept : Kept cfg v own evs s.votes
  acks : ∀ k d i, Event.ack v k d i ∈ evs → i ∈ (s.votes.of k).acksFor d
  noNV : s.newViews = {}
  acc : s.accepted = s0.accepted
  sentNV : s.sentNV = s0.sentNV
  sentVC : s.sentVC = s0.sentVC
  cps : ∀ c ∈ own.checkpoints, c ∈ s.checkpoints
  cannot : ¬ Sendable cfg own.checkpoints (confirmedVCs cfg s.votes)

/-- The primary when it has. -/
structure PrimSent (cfg : Cfg) (v : Nat) (own : ViewChange) (s0 : Service) (evs : List Event) (s : Service) (nv : NewView) : Prop where
  over : Over v s
  acc : s.accepted = s0.accepted ++ [nv]
  sentNV : s.sentNV = s0.sentNV ++ [nv]
  sentVC : s.sentVC = s0.sentVC
  made : ∃ nvs, Made cfg v nvs nv ∧ ∀ e ∈ nvs, (e.1 = cfg.name ∧ e.2 = own) ∨ (.viewChange e.2 e.1 ∈ evs ∧ e.2.viewNo = v)

theorem sendable_mono {cps cps' : List Checkpoint} {nvs : List (Node × ViewChange)} (h : ∀ c ∈ cps, c ∈ cps')
    (hs : Sendable cfg cps nvs) : Sendable cfg cps' nvs := by
  obtain ⟨a, cp, bs, b, c, d⟩ := hs
  exact ⟨a, cp, bs, b, c, h _ d⟩

/-- Votes taken in, the primary tries to send. -/
theorem prim_try {v : Nat} {own : ViewChange} {s0 s : Service} {evs : List Event} (hme : cfg.primary v = cfg.name)
    (wait : Waits cfg v s) (kept : Kept cfg v own evs s.votes)
    (acks : ∀ k d i, Event.ack v k d i ∈ evs → i ∈ (s.votes.of k).acksFor d)
    (noNV : s.newViews = {}) (acc : s.accepted = s0.accepted) (sentNV : s.sentNV = s0.sentNV) (sentVC : s.sentVC = s0.sentVC)
    (cps : ∀ c ∈ own.checkpoints, c ∈ s.checkpoints) :
    PrimWaits cfg v own s0 evs (s.sendNewViewIfNeeded cfg) ∨ ∃ nv, PrimSent cfg v own s0 evs (s.sendNewViewIfNeeded cfg) nv := by
  rcases send_cases kept.keys noNV (wait.prim.trans hme) with ⟨h1, h2⟩ | ⟨nv, h1, h2, h3, h4, h5, h6, h7⟩
  · left
    rw [h1]
    exact ⟨wait, kept, acks, noNV, acc, sentNV, sentVC, cps, fun h => h2 (sendable_mono cps h)⟩
  · right
    refine ⟨nv, ⟨h2.trans wait.alive, h3, h4.trans wait.view⟩, by rw [h5, acc], by rw [h6, sentNV], by rw [h7, sentVC],
      confirmedVCs cfg s.votes, ?_, ?_⟩
    · rw [← wait.view]; exact h1
    · intro e he
      exact kept.from' e.1 e.2 ((confirmedVCs_mem kept.keys).1 he).1

theorem PrimWaits.step {v : Nat} {own : ViewChange} {s0 s : Service} {evs : List Event} (h : PrimWaits cfg v own s0 evs s)
    (hme : cfg.primary v = cfg.name) (e : Event) (hn : ∀ w p pp, e ≠ .need w p pp)
    (hnv : ∀ nv j, e = .newView nv j → nv.viewNo ≠ v)
    (hsh : ∀ pt st cps, e = .shared pt st cps → pt = true ∧ ∀ c ∈ own.checkpoints, c ∈ cps) :
    PrimWaits cfg v own s0 (evs ++ [e]) (s.step cfg e) ∨ ∃ nv, PrimSent cfg v own s0 (evs ++ [e]) (s.step cfg e) nv := by
  have keep : (∀ x j, e = .viewChange x j → x.viewNo ≠ v) → (∀ k d i, e ≠ .ack v k d i) →
      PrimWaits cfg v own s0 (evs ++ [e]) s := by
    intro h1 h2
    refine ⟨h.wait, h.kept.mono e h1, fun k d i hm => ?_, h.noNV, h.acc, h.sentNV, h.sentVC, h.cps, h.cannot⟩
    rcases List.mem_append.1 hm with hm | hm
    · exact h.acks k d i hm
    · exact absurd (List.mem_singleton.1 hm).symm (h2 k d i)
  unfold Service.step
  rw [if_neg (by simp [h.wait.alive])]
  cases e with
  | need w p pp => exact absurd rfl (hn w p pp)
  | viewChange x j =>
    simp only [Service.handle, Service.processViewChange]
    by_cases hx : x.viewNo = v
    · rw [hx, h.wait.validate]
      simp only [ne_eq, not_true, if_false]
      rw [if_pos (h.wait.prim.trans hme)]
      refine prim_try hme ⟨h.wait.alive, h.wait.waiting, h.wait.part, h.wait.view, h.wait.prim⟩ (h.kept.addVC x j hx) ?_
        h.noNV h.acc h.sentNV h.sentVC h.cps
      intro k d i hm
      have := h.acks k d i (by simpa using hm)
      dsimp only
      rw [votesOf_addAck]
      split
      · next e =>
        subst e
        apply acksFor_mem
        rw [votesOf_addVC, if_pos rfl, acksFor_addVC]
        exact this
      · next e => rw [votesOf_addVC, if_neg e]; exact this
    · rw [if_pos (h.wait.other hx)]
      exact .inl (keep (fun y k e => by cases e; exact hx) (fun k d i e => by cases e))
  | ack w k d i =>
    simp only [Service.handle, Service.processAck]
    by_cases hw : w = v
    · subst hw
      rw [h.wait.validate]
      simp only [ne_eq, not_true, if_false]
      rw [if_neg (fun x => x (h.wait.prim.trans hme))]
      refine prim_try hme ⟨h.wait.alive, h.wait.waiting, h.wait.part, h.wait.view, h.wait.prim⟩
        ((h.kept.mono _ (fun y k e => by cases e)).addAck k d i) ?_
        h.noNV h.acc h.sentNV h.sentVC h.cps
      intro k' d' i' hm
      dsimp only
      rw [votesOf_addAck]
      rcases List.mem_append.1 hm with hm | hm
      · have := h.acks k' d' i' hm
        split
        · next e => subst e; exact acksFor_mem _ _ _ this
        · exact this
      · cases List.mem_singleton.1 hm
        rw [if_pos rfl]
        exact acksFor_self _ _ _
    · rw [if_pos (h.wait.other hw)]
      exact .inl (keep (fun y k e => by cases e) (fun k d i e => by cases e; exact hw rfl))
  | newView nv j =>
    simp only [Service.handle, Service.processNewView]
    rw [if_pos (h.wait.other (hnv nv j rfl))]
    exact .inl (keep (fun y k e => by cases e) (fun k d i e => by cases e))
  | shared pt st cps =>
    obtain ⟨h1, h2⟩ := hsh pt st cps rfl
    have := keep (fun y k e => by cases e) (fun k d i e => by cases e)
    exact .inl ⟨⟨this.wait.alive, this.wait.waiting, h1, this.wait.view, this.wait.prim⟩, this.kept, this.acks, this.noNV, this.acc,
      this.sentNV, this.sentVC, h2, this.cannot⟩

theorem PrimSent.step {v : Nat} {own : ViewChange} {s0 s : Service} {evs : List Event} {nv : NewView}
    (h : PrimSent cfg v own s0 evs s nv) (e : Event) (hn : ∀ w p pp, e ≠ .need w p pp) :
    PrimSent cfg v own s0 (evs ++ [e]) (s.step cfg e) nv := by
  obtain ⟨h1, h2, h3, h4⟩ := h.over.step (cfg := cfg) e hn
  obtain ⟨nvs, m1, m2⟩ := h.made
  exact ⟨h1, h2.trans h.acc, h3.trans h.sentNV, h4.trans h.sentVC, nvs, m1, fun e he => (m2 e he).imp id
    (fun x => ⟨List.mem_append_left _ x.1, x.2⟩)⟩

/-- The primary waits or has sent, whatever happens. -/
theorem prim_run {v : Nat} {own : ViewChange} {s0 : Service} (hme : cfg.primary v = cfg.name)
    (h0 : PrimWaits cfg v own s0 [] s0) (evs : List Event) (hn : ∀ w p pp, Event.need w p pp ∉ evs)
    (hnv : ∀ nv j, Event.newView nv j ∈ evs → nv.viewNo ≠ v)
    (hsh : ∀ pt st cps, Event.shared pt st cps ∈ evs → pt = true ∧ ∀ c ∈ own.checkpoints, c ∈ cps) :
    PrimWaits cfg v own s0 evs (evs.foldl (Service.step cfg) s0) ∨
      ∃ nv, PrimSent cfg v own s0 evs (evs.foldl (Service.step cfg) s0) nv := by
  induction evs using snoc_induction with
  | nil => exact .inl h0
  | snoc evs e ih =>
    rw [List.foldl_append]
    have he : e ∈ evs ++ [e] := by simp
    have hn' : ∀ w p pp, e ≠ .need w p pp := fun w p pp x => hn w p pp (x ▸ he)
    rcases ih (fun w p pp x => hn w p pp (List.mem_append_left _ x)) (fun nv j x => hnv nv j (List.mem_append_left _ x))
      (fun pt st cps x => hsh pt st cps (List.mem_append_left _ x)) with h | ⟨nv, h⟩
    · exact h.step hme e hn' (fun nv j x => hnv nv j (x ▸ he)) (fun pt st cps x => hsh pt st cps (x ▸ he))
    · exact .inr ⟨nv, h.step e hn'⟩

end Verif.VC
