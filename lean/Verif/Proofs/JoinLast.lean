import Verif.Proofs.Join
/-! The message that made a node join a view change is not looked at. -/
namespace Verif.VC

variable (cfg : Cfg)

theorem finish_votes (s : Service) : s.finish.votes = s.votes ∧ s.finish.sentVC = s.sentVC ∧ s.finish.viewNo = s.viewNo := by
  unfold Service.finish; split <;> exact ⟨rfl, rfl, rfl⟩

theorem sendNV_votes (s : Service) : (s.sendNewViewIfNeeded cfg).votes = s.votes ∧
    (s.sendNewViewIfNeeded cfg).sentVC = s.sentVC ∧ (s.sendNewViewIfNeeded cfg).viewNo = s.viewNo := by
  unfold Service.sendNewViewIfNeeded
  dsimp only
  split
  · exact ⟨rfl, rfl, rfl⟩
  split
  · exact ⟨rfl, rfl, rfl⟩
  split
  · exact ⟨rfl, rfl, rfl⟩
  split
  · exact ⟨rfl, rfl, rfl⟩
  · exact finish_votes _

theorem finishIf_votes (s : Service) : (s.finishIfNeeded cfg).votes = s.votes ∧
    (s.finishIfNeeded cfg).sentVC = s.sentVC ∧ (s.finishIfNeeded cfg).viewNo = s.viewNo := by
  unfold Service.finishIfNeeded
  dsimp only
  split
  · exact ⟨rfl, rfl, rfl⟩
  split
  · exact ⟨rfl, rfl, rfl⟩
  split
  · exact ⟨rfl, rfl, rfl⟩
  split
  · exact ⟨rfl, rfl, rfl⟩
  split
  · exact ⟨rfl, rfl, rfl⟩
  · exact finish_votes _

theorem votesOf_addVC (v : Votes) (vc : ViewChange) (frm x : Node) :
    (v.addViewChange vc frm).of x = if frm = x then (v.of frm).addViewChange vc else v.of x := by
  unfold Votes.addViewChange Votes.of
  rw [Dict.get?_set]
  split <;> rfl

theorem votesOf_addAck (v : Votes) (name : Node) (d : Nat) (frm x : Node) :
    (v.addAck name d frm).of x = if name = x then (v.of name).addAck d frm else v.of x := by
  unfold Votes.addAck Votes.of
  rw [Dict.get?_set]
  split <;> rfl

/-- A message changes the VIEW_CHANGE of a node only if it is one of that node,
and neither the view nor what was sent. -/
theorem msg_votes (s : Service) (m : VMsg) (frm x : Node) :
    (s.handle cfg (m.event frm)).sentVC = s.sentVC ∧ (s.handle cfg (m.event frm)).viewNo = s.viewNo ∧
    ((∀ vc, m = .viewChange vc → frm ≠ x) → ((s.handle cfg (m.event frm)).votes.of x).vc = (s.votes.of x).vc) := by
  cases m with
  | viewChange vc =>
    simp only [VMsg.event, Service.handle]
    unfold Service.processViewChange
    split
    · exact ⟨rfl, rfl, fun _ => rfl⟩
    · have key : (∀ v, VMsg.viewChange vc = .viewChange v → frm ≠ x) →
          (((s.votes.addViewChange vc frm).addAck frm (cfg.vd vc) cfg.name).of x).vc = (s.votes.of x).vc := by
        intro h
        have := h vc rfl
        rw [votesOf_addAck, if_neg this, votesOf_addVC, if_neg this]
      dsimp only
      split
      · obtain ⟨h1, h2, h3⟩ := sendNV_votes cfg { s with votes := (s.votes.addViewChange vc frm).addAck frm (cfg.vd vc) cfg.name }
        exact ⟨h2, h3, fun h => by rw [h1]; exact key h⟩
      · obtain ⟨h1, h2, h3⟩ := finishIf_votes cfg { s with votes := (s.votes.addViewChange vc frm).addAck frm (cfg.vd vc) cfg.name }
        exact ⟨h2, h3, fun h => by rw [h1]; exact key h⟩
  | ack v name d =>
    simp only [VMsg.event, Service.handle]
    unfold Service.processAck
    split
    · exact ⟨rfl, rfl, fun _ => rfl⟩
    split
    · exact ⟨rfl, rfl, fun _ => rfl⟩
    · obtain ⟨h1, h2, h3⟩ := sendNV_votes cfg { s with votes := s.votes.addAck name d frm }
      refine ⟨h2, h3, fun _ => ?_⟩
      rw [h1]
      show ((s.votes.addAck name d frm).of x).vc = _
      rw [votesOf_addAck]
      split
      · next h => rw [h]; rfl
      · rfl
  | newView nv =>
    simp only [VMsg.event, Service.handle]
    unfold Service.processNewView
    split
    · exact ⟨rfl, rfl, fun _ => rfl⟩
    · obtain ⟨h1, h2, h3⟩ := finishIf_votes cfg { s with newViews := s.newViews.add (Quorums.ofN cfg.n) nv frm }
      exact ⟨h2, h3, fun _ => by rw [h1]⟩

/-- The VIEW_CHANGE of node `x` for the current view is still to be looked at
when another view change starts, and no other one of it is there. -/
structure Unused (j : Joiner) (m : VMsg) (x : Node) : Prop where
  msg : isFor j.svc.viewNo (m, x) = true
  later : (m, x) ∈ j.later
  only : j.kept.countP (fun y => isFor j.svc.viewNo y && y.2 == x) ≤ 1
  vote : (j.svc.votes.of x).vc = none

theorem sent_grows (j : Joiner) (e : JEvent) : j.svc.sentVC.length ≤ (j.step cfg e).svc.sentVC.length := by
  have nd : ∀ (i : Joiner) v p pp, i.svc.sentVC.length ≤ (i.need cfg v p pp).svc.sentVC.length := by
    intro i v p pp
    have := (need_view cfg i.svc v p pp).2.2.2.2
    show _ ≤ (i.svc.needViewChange cfg v p pp).sentVC.length
    omega
  have look : ∀ (i : Joiner) m w p pp, i.svc.sentVC.length ≤ (i.process cfg m w p pp).svc.sentVC.length := by
    intro i m w p pp
    unfold Joiner.process
    split
    · exact Nat.le_refl _
    · exact Nat.le_of_eq (congrArg List.length (msg_votes cfg i.svc m w 0).1.symm)
    · split
      · exact Nat.le_refl _
      · cases m with
        | viewChange vc =>
          dsimp only
          rcases countLater_cases cfg i vc.viewNo p pp with ⟨h, -⟩ | ⟨h, -, -⟩ <;> rw [h]
          · exact Nat.le_refl _
          · exact nd { i with counts := _ } vc.viewNo p pp
        | ack => exact Nat.le_refl _
        | newView => exact Nat.le_refl _
  unfold Joiner.step
  split
  · exact Nat.le_refl _
  · cases e with
    | deliver m w p pp => exact look j m w p pp
    | next p pp =>
      simp only [Joiner.handle]
      split
      · exact Nat.le_refl _
      · next m w rest hin => exact look { j with inbox := rest } m w p pp
    | need v p pp =>
      simp only [Joiner.handle]
      split
      · exact Nat.le_refl _
      · exact nd j v p pp
    | shared b st cps => exact Nat.le_refl _
    | caughtUp => exact Nat.le_refl _

theorem Unused.look {j i : Joiner} {m m' : VMsg} {x w : Node} {p pp : List BatchID} (h : Unused j m x)
    (hs : i.svc = j.svc) (hl : i.later = j.later)
    (hk : ∀ q, i.kept.countP q + (if q (m', w) then 1 else 0) ≤ j.kept.countP q ∨
      (i = j ∧ (isFor j.svc.viewNo (m', w) && w == x) = false))
    (hsent : (i.process cfg m' w p pp).svc.sentVC.length = j.svc.sentVC.length) :
    Unused (i.process cfg m' w p pp) m x := by
  have hpos : 0 < j.later.countP (fun y => isFor j.svc.viewNo y && y.2 == x) :=
    List.countP_pos_iff.2 ⟨(m, x), h.later, by simp [h.msg]⟩
  have notIt : (isFor j.svc.viewNo (m', w) && w == x) = false := by
    rcases hk (fun y => isFor j.svc.viewNo y && y.2 == x) with hk | hk
    · cases hb : (isFor j.svc.viewNo (m', w) && w == x) with
      | false => rfl
      | true =>
        exfalso
        have := h.only
        dsimp only at hk
        rw [if_pos hb] at hk
        have : j.later.countP (fun y => isFor j.svc.viewNo y && y.2 == x) ≤ i.kept.countP (fun y => isFor j.svc.viewNo y && y.2 == x) := by
          rw [← hl]; simp only [Joiner.kept, List.countP_append]; omega
        omega
    · exact hk.2
  have hko : i.kept.countP (fun y => isFor j.svc.viewNo y && y.2 == x) ≤ 1 := by
    rcases hk (fun y => isFor j.svc.viewNo y && y.2 == x) with hk | hk
    · have := h.only; omega
    · rw [hk.1]; exact h.only
  have base : Unused i m x := ⟨by rw [hs]; exact h.msg, by rw [hl]; exact h.later, by rw [hs]; exact hko, by rw [hs]; exact h.vote⟩
  unfold Joiner.process at hsent ⊢
  split
  · exact base
  · next hpr =>
    have mv := msg_votes cfg i.svc m' w x
    have hview : m'.viewNo = j.svc.viewNo := by
      rw [hs] at hpr
      unfold Service.validate at hpr
      by_cases h1 : m'.viewNo < j.svc.viewNo
      · rw [if_pos h1] at hpr; cases hpr
      · by_cases h2 : m'.viewNo = j.svc.viewNo
        · exact h2
        · exfalso
          rw [if_neg h1, if_neg (by simp [h2])] at hpr
          split at hpr
          · cases hpr
          · rw [if_pos (by omega)] at hpr; cases hpr
    refine ⟨?_, base.later, ?_, ?_⟩
    · show isFor (i.svc.handle cfg (m'.event w)).viewNo _ = true; rw [mv.2.1]; exact base.msg
    · show i.kept.countP (fun y => isFor (i.svc.handle cfg (m'.event w)).viewNo y && y.2 == x) ≤ 1
      rw [mv.2.1]; exact base.only
    · show ((i.svc.handle cfg (m'.event w)).votes.of x).vc = none
      rw [mv.2.2]
      · exact base.vote
      · intro vc hm hw
        subst hm hw
        have hview : vc.viewNo = j.svc.viewNo := hview
        simp [isFor, hview] at notIt
  · next hst =>
    rw [hst] at hsent
    split
    · refine ⟨base.msg, base.later, ?_, base.vote⟩
      have := kept_catching i (m', w) (fun y => isFor i.svc.viewNo y && y.2 == x)
      show ({ i with catching := i.catching ++ [(m', w)] } : Joiner).kept.countP (fun y => isFor i.svc.viewNo y && y.2 == x) ≤ 1
      rw [this, hs, if_neg (by simp only [notIt]; simp)]
      exact hko
    · next hp =>
      simp only [hp] at hsent
      have stay : ∀ i' : Joiner, i'.svc = i.svc → i'.later = i.later → i'.catching = i.catching → i'.inbox = i.inbox →
          Unused { i' with later := i'.later ++ [(m', w)] } m x := by
        intro i' e1 e2 e3 e4
        refine ⟨?_, ?_, ?_, ?_⟩
        · show isFor i'.svc.viewNo _ = true; rw [e1]; exact base.msg
        · show _ ∈ i'.later ++ _; rw [e2]; exact List.mem_append_left _ base.later
        · show ({ i' with later := i'.later ++ [(m', w)] } : Joiner).kept.countP (fun y => isFor i'.svc.viewNo y && y.2 == x) ≤ 1
          rw [kept_later, e1, hs, if_neg (by simp only [notIt]; simp)]
          have : i'.kept = i.kept := by simp only [Joiner.kept, e2, e3, e4]
          rw [this]
          exact hko
        · show (i'.svc.votes.of x).vc = none; rw [e1]; exact base.vote
      cases m' with
      | viewChange vc =>
        dsimp only at hsent ⊢
        rcases countLater_cases cfg i vc.viewNo p pp with ⟨hc, -⟩ | ⟨hc, -, -⟩
        · rw [hc]; exact stay _ rfl rfl rfl rfl
        · exfalso
          rw [hc] at hsent
          have h1 := (need_view cfg i.svc vc.viewNo p pp).2.2.2.2
          have h2 : (i.svc.needViewChange cfg vc.viewNo p pp).sentVC.length = j.svc.sentVC.length := hsent
          rw [h2, hs] at h1
          omega
      | ack a b d => exact stay i rfl rfl rfl rfl
      | newView nv => exact stay i rfl rfl rfl rfl

theorem Unused.step {j : Joiner} {m : VMsg} {x : Node} (h : Unused j m x) (e : JEvent)
    (hnew : ∀ p pp m', e = .deliver m' x p pp → isFor j.svc.viewNo (m', x) = false)
    (hsent : (j.step cfg e).svc.sentVC.length = j.svc.sentVC.length) : Unused (j.step cfg e) m x := by
  unfold Joiner.step at hsent ⊢
  split
  · exact h
  · next hc =>
    rw [if_neg hc] at hsent
    cases e with
    | deliver m' w p pp =>
      refine h.look cfg rfl rfl (fun q => .inr ⟨rfl, ?_⟩) hsent
      by_cases hw : w = x
      · subst hw; rw [hnew p pp m' rfl]; rfl
      · simp [hw]
    | next p pp =>
      simp only [Joiner.handle] at hsent ⊢
      split
      · exact h
      · next m' w rest hin =>
        simp only [hin] at hsent
        refine h.look cfg (i := { j with inbox := rest }) rfl rfl (fun q => .inl ?_) hsent
        simp only [Joiner.kept, hin, List.countP_append, List.countP_cons]
        omega
    | need v p pp =>
      simp only [Joiner.handle] at hsent ⊢
      split
      · exact h
      · next hv =>
        rw [if_neg hv] at hsent
        have h1 := (need_view cfg j.svc v p pp).2.2.2.2
        have h2 : (j.svc.needViewChange cfg v p pp).sentVC.length = j.svc.sentVC.length := hsent
        rw [h2] at h1
        omega
    | shared b st cps => exact ⟨h.msg, h.later, h.only, h.vote⟩
    | caughtUp =>
      refine ⟨h.msg, h.later, ?_, h.vote⟩
      have := h.only
      simp only [Joiner.handle, Joiner.kept, List.countP_append, List.countP_nil] at *
      omega

end Verif.VC
