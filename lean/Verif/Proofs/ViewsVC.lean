import Verif.Proofs.ViewChangeService
/-! What one message does to the view change service. -/
namespace Verif.VC

/-- What `_finish_view_change` takes for the certificate of the view. -/
def NewView.cert (nv : NewView) : Nat :=
  match nv.batches.getLast? with
  | some b => b.ppSeqNo
  | none => nv.checkpoint.seqNoEnd

variable {cfg : Cfg}

structure Same (s s' : Service) : Prop where
  viewNo : s'.viewNo = s.viewNo
  stable : s'.stableCheckpoint = s.stableCheckpoint
  cps : s'.checkpoints = s.checkpoints
  oldP : s'.oldPrepared = s.oldPrepared
  oldPP : s'.oldPreprepared = s.oldPreprepared
  sentVC : s'.sentVC = s.sentVC

theorem Same.refl (s : Service) : Same s s := ⟨rfl, rfl, rfl, rfl, rfl, rfl⟩

theorem Same.trans {a b c : Service} (h : Same a b) (g : Same b c) : Same a c :=
  ⟨g.1.trans h.1, g.2.trans h.2, g.3.trans h.3, g.4.trans h.4, g.5.trans h.5, g.6.trans h.6⟩

/-- Where a NEW_VIEW a view change is finished with came from. -/
def Prov (cfg : Cfg) (evs : List Event) (sent : List NewView) (p : Node) (nv : NewView) : Prop :=
  Quorumed cfg evs sent nv ∨ (HasNV cfg evs sent p nv ∧ nv.primary = none)

/-- At most one NEW_VIEW, of the current view, was sent. -/
def SentOne (cfg : Cfg) (s s' : Service) : Prop :=
  ∃ x : NewView, s'.sentNV = s.sentNV ++ [x] ∧ x.viewNo = s.viewNo ∧ s.primaryName = cfg.name ∧ x.primary = none

inductive Effect (cfg : Cfg) (evs : List Event) (s s' : Service) : Prop
  | quiet (same : Same s s') (wt : s'.waiting = s.waiting) (acc : s'.accepted = s.accepted) (sent : s'.sentNV = s.sentNV)
      (pn : s'.primaryName = s.primaryName) (pc : s'.prevViewPrepareCert = s.prevViewPrepareCert)
      (cr : s'.crashed = s.crashed)
  | finished (nv : NewView) (same : Same s s') (wt0 : s.waiting = true) (wt : s'.waiting = false)
      (acc : s'.accepted = s.accepted ++ [nv]) (view : nv.viewNo = s.viewNo) (pc : s'.prevViewPrepareCert = nv.cert)
      (pn : s'.primaryName = nv.primary.getD s.primaryName) (cr : s'.crashed = s.crashed)
      (sent : s'.sentNV = s.sentNV ∨ SentOne cfg s s') (prov : Prov cfg evs s'.sentNV s.primaryName nv)
  | stopped (same : Same s s') (wt0 : s.waiting = true) (wt : s'.waiting = true)
      (acc : s'.accepted = s.accepted) (pn : s'.primaryName = s.primaryName)
      (pc : s'.prevViewPrepareCert = s.prevViewPrepareCert) (cr : s'.crashed = true)
      (sent : s'.sentNV = s.sentNV ∨ SentOne cfg s s')

theorem SInv.get' {evs : List Event} {s : Service} (h : SInv cfg evs s) {p : Node} {nv : NewView}
    (hg : s.newViews.get p = some nv) : nv.viewNo = s.viewNo ∧ Prov cfg evs s.sentNV p nv := by
  unfold NewViewVotes.get at hg
  split at hg
  · next x hx => cases hg; exact ⟨(h.nv _ hx).1, .inl (h.nv _ hx).2⟩
  · obtain ⟨e, he, rfl⟩ := Option.map_eq_some_iff.1 hg
    have h1 := List.mem_of_find?_eq_some he
    have h2 := List.find?_some he
    simp only [Bool.and_eq_true, beq_iff_eq, Option.isNone_iff_eq_none] at h2
    refine ⟨(h.nvs e h1).1, .inr ⟨(h.nvs e h1).2.2 p ?_, h2.2⟩⟩
    rw [h2.1]; exact List.mem_singleton.2 rfl

/-- Finishing, from a state `t` that may differ from `s` in votes and in one
NEW_VIEW sent. -/
theorem effect_finish {evs : List Event} {s t : Service} (h : SInv cfg evs t) (hst : Same s t)
    (hw : s.waiting = true) (ht : t.waiting = s.waiting) (ha : t.accepted = s.accepted) (hp : t.primaryName = s.primaryName)
    (hpc : t.prevViewPrepareCert = s.prevViewPrepareCert) (hcr : t.crashed = s.crashed)
    (hs : t.sentNV = s.sentNV ∨ SentOne cfg s t) : Effect cfg evs s t.finish := by
  unfold Service.finish
  split
  · exact .stopped ⟨hst.1, hst.2, hst.3, hst.4, hst.5, hst.6⟩ hw (ht.trans hw) ha hp hpc rfl hs
  · next nv hg =>
    obtain ⟨g1, g2⟩ := h.get' hg
    rw [hp] at g2
    refine .finished nv ⟨hst.1, hst.2, hst.3, hst.4, hst.5, hst.6⟩ hw rfl (by simp only [ha]) (g1.trans hst.1) rfl
      (by simp only [hp]) hcr hs g2

theorem effect_finishIfNeeded {evs : List Event} {s t : Service} (h : SInv cfg evs t) (hst : Same s t)
    (hw : s.waiting = true) (ht : t.waiting = s.waiting) (ha : t.accepted = s.accepted) (hp : t.primaryName = s.primaryName)
    (hpc : t.prevViewPrepareCert = s.prevViewPrepareCert) (hcr : t.crashed = s.crashed)
    (hs : t.sentNV = s.sentNV) : Effect cfg evs s (t.finishIfNeeded cfg) := by
  have q : Effect cfg evs s t := .quiet hst ht ha hs hp hpc hcr
  unfold Service.finishIfNeeded
  repeat' split
  all_goals first | exact q | skip
  simp only
  repeat' split
  all_goals first | exact q | exact effect_finish h hst hw ht ha hp hpc hcr (.inl hs)

theorem effect_sendNewView {evs : List Event} {s t : Service} (h : SInv cfg evs t) (hst : Same s t)
    (hw : s.waiting = true) (ht : t.waiting = s.waiting) (ha : t.accepted = s.accepted) (hp : t.primaryName = s.primaryName)
    (hpc : t.prevViewPrepareCert = s.prevViewPrepareCert) (hcr : t.crashed = s.crashed)
    (hs : t.sentNV = s.sentNV) (hpr : s.primaryName = cfg.name) (hself : ∀ nv, .newView nv cfg.name ∉ evs) :
    Effect cfg evs s (t.sendNewViewIfNeeded cfg) := by
  have q : Effect cfg evs s t := .quiet hst ht ha hs hp hpc hcr
  have hS := h.sendNewView (hp.trans hpr) (ht.trans hw) hself
  unfold Service.sendNewViewIfNeeded at hS ⊢
  simp only at hS ⊢
  split at hS
  · next hc => rw [if_pos hc]; exact q
  · next hc =>
    rw [if_neg hc]
    cases hcc : calcCheckpoint (Quorums.ofN cfg.n) ((t.votes.confirmed (Quorums.ofN cfg.n) cfg.vd).filterMap
        (fun e => t.votes.getViewChange cfg.vd e.1 e.2)) with
    | none => exact q
    | some cp =>
      simp only [hcc] at hS ⊢
      cases hcb : calcBatches (Quorums.ofN cfg.n) cfg.logSize cp ((t.votes.confirmed (Quorums.ofN cfg.n) cfg.vd).filterMap
        (fun e => t.votes.getViewChange cfg.vd e.1 e.2)) with
      | none => exact q
      | some batches =>
        simp only [hcb] at hS ⊢
        split
        · exact q
        · next hcp =>
          rw [if_neg hcp] at hS
          -- undo `finish` in the invariant
          generalize hnv : (⟨t.viewNo, sortVotes (t.votes.confirmed (Quorums.ofN cfg.n) cfg.vd), cp, batches, none⟩ : NewView) = nv at hS ⊢
          have e1 : nv.viewNo = t.viewNo := by rw [← hnv]
          have e2 : nv.primary = none := by rw [← hnv]
          have hso : SentOne cfg s { t with sentNV := t.sentNV ++ [nv], newViews := t.newViews.add (Quorums.ofN cfg.n) nv cfg.name } :=
            ⟨nv, by simp only [hs], e1.trans hst.viewNo, hpr, e2⟩
          unfold Service.finish
          split
          · exact .stopped ⟨hst.1, hst.2, hst.3, hst.4, hst.5, hst.6⟩ hw (ht.trans hw) ha hp hpc rfl (.inr hso)
          · next nv' hg =>
            have hS' : SInv cfg evs { t with sentNV := t.sentNV ++ [nv], newViews := t.newViews.add (Quorums.ofN cfg.n) nv cfg.name } := by
              unfold Service.finish at hS
              simp only [hg] at hS
              exact { h with
                nvs := hS.nvs
                nv := hS.nv
                sentNV := hS.sentNV
                acc := fun x hx => hS.acc x (List.mem_append_left _ hx) }
            obtain ⟨g1, g2⟩ := hS'.get' hg
            refine .finished nv' ⟨hst.1, hst.2, hst.3, hst.4, hst.5, hst.6⟩ hw rfl (by simp only [ha]) (g1.trans hst.1) rfl
              (by simp only [hp]) hcr (.inr hso) ?_
            rw [← hp]; exact g2

/-- Nothing but an outside event happens while no view change is on. -/
theorem handle_not_waiting {s : Service} (hw : s.waiting = false) :
    (∀ vc frm, s.handle cfg (.viewChange vc frm) = s) ∧ (∀ v nm d frm, s.handle cfg (.ack v nm d frm) = s) ∧
    ∀ nv frm, s.handle cfg (.newView nv frm) = s := by
  have hv : ∀ v, s.validate v ≠ .process := fun v h => by rw [(validate_process h).2] at hw; cases hw
  refine ⟨fun vc frm => ?_, fun v nm d frm => ?_, fun nv frm => ?_⟩
  · show s.processViewChange cfg vc frm = s
    unfold Service.processViewChange; rw [if_pos (hv _)]
  · show s.processAck cfg v nm d frm = s
    unfold Service.processAck; rw [if_pos (hv _)]
  · show s.processNewView cfg nv frm = s
    unfold Service.processNewView; rw [if_pos (hv _)]

theorem SInv.votes_upd {evs : List Event} {s : Service} (h : SInv cfg evs s) {vc : ViewChange} {w : Node}
    (he : .viewChange vc w ∈ evs) (hv : vc.viewNo = s.viewNo) (d : Nat) (x : Node) :
    SInv cfg evs { s with votes := (s.votes.addViewChange vc w).addAck w d x } := { h with
  vkeys := Dict.nodup_keys_set (Dict.nodup_keys_set h.vkeys _ _) _ _
  votes := by
    have h0 : ∀ e ∈ s.votes.addViewChange vc w, ∀ x, e.2.vc = some x → x.viewNo = s.viewNo ∧ HasVC cfg evs s.sentVC e.1 x := by
      intro e he x hx
      rcases Dict.mem_set he with he | he
      · exact h.votes e he x hx
      · subst he
        simp only [NodeVotes.addViewChange] at hx
        split at hx
        · cases hx; exact ⟨hv, .inl ‹_›⟩
        · obtain ⟨y, y1, y2, y3⟩ := mem_of_of hx
          have := h.votes y y1 x y3
          rw [y2] at this; exact this
    intro e he x hx
    rcases Dict.mem_set he with he | he
    · exact h0 e he x hx
    · subst he
      simp only [NodeVotes.addAck] at hx
      obtain ⟨y, y1, y2, y3⟩ := mem_of_of hx
      have := h0 y y1 x y3
      rw [y2] at this; exact this }

theorem SInv.ack_upd {evs : List Event} {s : Service} (h : SInv cfg evs s) (name : Node) (d : Nat) (x : Node) :
    SInv cfg evs { s with votes := s.votes.addAck name d x } := { h with
  vkeys := Dict.nodup_keys_set h.vkeys _ _
  votes := by
    intro e he x hx
    rcases Dict.mem_set he with he | he
    · exact h.votes e he x hx
    · subst he
      simp only [NodeVotes.addAck] at hx
      obtain ⟨y, y1, y2, y3⟩ := mem_of_of hx
      have := h.votes y y1 x y3
      rw [y2] at this; exact this }

/-- The effect of a message. -/
theorem effect {evs : List Event} {s : Service} (h : SInv cfg evs s) (hself : ∀ nv, .newView nv cfg.name ∉ evs)
    (e : Event) (he : e ∈ evs) (h1 : ∀ v p pp, e ≠ .need v p pp) (h2 : ∀ a b c, e ≠ .shared a b c) :
    Effect cfg evs s (s.handle cfg e) := by
  have q : Effect cfg evs s s := .quiet (.refl s) rfl rfl rfl rfl rfl rfl
  unfold Service.handle
  cases e with
  | need v p pp => exact (h1 v p pp rfl).elim
  | shared a b c => exact (h2 a b c rfl).elim
  | viewChange vc w =>
    unfold Service.processViewChange
    simp only
    split
    · exact q
    · next hv =>
      obtain ⟨hv, hwt⟩ := validate_process (Classical.byContradiction hv)
      have hi := h.votes_upd he hv (cfg.vd vc) cfg.name
      split
      · next hp => exact effect_sendNewView hi ⟨rfl, rfl, rfl, rfl, rfl, rfl⟩ hwt rfl rfl rfl rfl rfl rfl hp hself
      · exact effect_finishIfNeeded hi ⟨rfl, rfl, rfl, rfl, rfl, rfl⟩ hwt rfl rfl rfl rfl rfl rfl
  | ack v name d w =>
    unfold Service.processAck
    simp only
    split
    · exact q
    · next hv =>
      obtain ⟨-, hwt⟩ := validate_process (Classical.byContradiction hv)
      split
      · exact q
      · next hp =>
        have hp : s.primaryName = cfg.name := Classical.byContradiction hp
        exact effect_sendNewView (h.ack_upd name d w) ⟨rfl, rfl, rfl, rfl, rfl, rfl⟩ hwt rfl rfl rfl rfl rfl rfl hp hself
  | newView nv w =>
    unfold Service.processNewView
    simp only
    split
    · exact q
    · next hv =>
      obtain ⟨hv, hwt⟩ := validate_process (Classical.byContradiction hv)
      exact effect_finishIfNeeded (h.addNewView nv w hv (.inl he)) ⟨rfl, rfl, rfl, rfl, rfl, rfl⟩ hwt rfl rfl rfl rfl rfl rfl

/-! ### What was sent or accepted stays so -/

structure Grow (s s' : Service) : Prop where
  vc : ∀ x ∈ s.sentVC, x ∈ s'.sentVC
  nv : ∀ x ∈ s.sentNV, x ∈ s'.sentNV
  acc : ∀ x ∈ s.accepted, x ∈ s'.accepted

theorem Grow.refl (s : Service) : Grow s s := ⟨fun _ h => h, fun _ h => h, fun _ h => h⟩

theorem Grow.trans {a b c : Service} (h : Grow a b) (g : Grow b c) : Grow a c :=
  ⟨fun x hx => g.1 x (h.1 x hx), fun x hx => g.2 x (h.2 x hx), fun x hx => g.3 x (h.3 x hx)⟩

theorem Grow.after {a b c : Service} (g : Grow b c) (h : Grow a b) : Grow a c := h.trans g

theorem grow_finish (s : Service) : Grow s s.finish := by
  unfold Service.finish
  split
  · exact ⟨fun _ h => h, fun _ h => h, fun _ h => h⟩
  · exact ⟨fun _ h => h, fun _ h => h, fun _ h => List.mem_append_left _ h⟩

theorem grow_finishIfNeeded (s : Service) : Grow s (s.finishIfNeeded cfg) := by
  unfold Service.finishIfNeeded
  repeat' split
  all_goals first | exact .refl s | skip
  simp only
  repeat' split
  all_goals first | exact .refl s | exact grow_finish s

theorem grow_send (s : Service) : Grow s (s.sendNewViewIfNeeded cfg) := by
  unfold Service.sendNewViewIfNeeded
  simp only
  repeat' split
  all_goals first
    | exact .refl s
    | exact Grow.after (grow_finish _) ⟨fun _ h => h, fun _ h => List.mem_append_left _ h, fun _ h => h⟩

theorem grow_step (s : Service) (e : Event) : Grow s (s.step cfg e) := by
  unfold Service.step
  split
  · exact .refl s
  · unfold Service.handle
    cases e with
    | need v p pp =>
      simp only
      split
      · exact .refl s
      · unfold Service.needViewChange Service.buildViewChange
        exact ⟨fun _ h => List.mem_append_left _ h, fun _ h => h, fun _ h => h⟩
    | shared a b c => exact ⟨fun _ h => h, fun _ h => h, fun _ h => h⟩
    | viewChange vc w =>
      unfold Service.processViewChange
      simp only
      repeat' split
      all_goals first
        | exact .refl s
        | exact Grow.after (grow_send _) ⟨fun _ h => h, fun _ h => h, fun _ h => h⟩
        | exact Grow.after (grow_finishIfNeeded _) ⟨fun _ h => h, fun _ h => h, fun _ h => h⟩
    | ack v name d w =>
      unfold Service.processAck
      simp only
      repeat' split
      all_goals first
        | exact .refl s
        | exact Grow.after (grow_send _) ⟨fun _ h => h, fun _ h => h, fun _ h => h⟩
    | newView nv w =>
      unfold Service.processNewView
      simp only
      repeat' split
      all_goals first
        | exact .refl s
        | exact Grow.after (grow_finishIfNeeded _) ⟨fun _ h => h, fun _ h => h, fun _ h => h⟩

end Verif.VC
