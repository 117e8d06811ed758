import Verif.Spec.ViewEnd
import Verif.Proofs.ViewEndCalc
import Verif.Proofs.JoinLast
/-! The service during one view change. -/
namespace Verif.VC

variable (cfg : Cfg)

theorem acksFrom_append (s : Service) (a b : List Event) :
    acksFrom cfg s (a ++ b) = acksFrom cfg s a ++ acksFrom cfg (a.foldl (Service.step cfg) s) b := by
  induction a generalizing s with
  | nil => rfl
  | cons e a ih => simp only [List.cons_append, acksFrom, ih, List.foldl_cons, List.append_assoc]

/-- The node waits for the NEW_VIEW of view `v`. -/
structure Waits (v : Nat) (s : Service) : Prop where
  alive : s.crashed = false
  waiting : s.waiting = true
  part : s.participating = true
  view : s.viewNo = v
  prim : s.primaryName = cfg.primary v

/-- The view change is over. -/
structure Over (v : Nat) (s : Service) : Prop where
  alive : s.crashed = false
  waiting : s.waiting = false
  view : s.viewNo = v

variable {cfg}

theorem Waits.validate {v : Nat} {s : Service} (h : Waits cfg v s) : s.validate v = .process := by
  unfold Service.validate
  rw [if_neg (by have := h.view; omega), if_neg (by simp [h.waiting]), if_neg (by simp [h.part]), if_neg (by have := h.view; omega)]

theorem Waits.other {v w : Nat} {s : Service} (h : Waits cfg v s) (hw : w ≠ v) : s.validate w ≠ .process := by
  intro hp
  have := (validate_process hp).1
  exact hw (this.trans h.view)

theorem Over.not {v w : Nat} {s : Service} (h : Over v s) : s.validate w ≠ .process := by
  intro hp
  have := (validate_process hp).2
  rw [h.waiting] at this
  cases this

/-- After its end nothing more happens, until another view change. -/
theorem Over.step {v : Nat} {s : Service} (h : Over v s) (e : Event) (hn : ∀ w p pp, e ≠ .need w p pp) :
    Over v (s.step cfg e) ∧ (s.step cfg e).accepted = s.accepted ∧ (s.step cfg e).sentNV = s.sentNV ∧
      (s.step cfg e).sentVC = s.sentVC := by
  unfold Service.step
  rw [if_neg (by simp [h.alive])]
  cases e with
  | need w p pp => exact absurd rfl (hn w p pp)
  | viewChange x j =>
    simp only [Service.handle, Service.processViewChange, if_pos h.not]
    exact ⟨h, trivial, trivial, trivial⟩
  | ack w k d j =>
    simp only [Service.handle, Service.processAck, if_pos h.not]
    exact ⟨h, trivial, trivial, trivial⟩
  | newView nv j =>
    simp only [Service.handle, Service.processNewView, if_pos h.not]
    exact ⟨h, trivial, trivial, trivial⟩
  | shared pt st cps => exact ⟨⟨h.alive, h.waiting, h.view⟩, rfl, rfl, rfl⟩

/-- What the votes hold: the first VIEW_CHANGE of each node, and every
acknowledgement. -/
structure Kept (cfg : Cfg) (v : Nat) (own : ViewChange) (evs : List Event) (votes : Votes) : Prop where
  keys : (Dict.keys votes).Nodup
  mine : (votes.of cfg.name).vc = some own
  got : ∀ x j, Event.viewChange x j ∈ evs → x.viewNo = v → ∃ y, (votes.of j).vc = some y
  self : ∀ x j, Event.viewChange x j ∈ evs → x.viewNo = v → cfg.name ∈ (votes.of j).acksFor (cfg.vd x)
  from' : ∀ j y, (votes.of j).vc = some y → (j = cfg.name ∧ y = own) ∨ (.viewChange y j ∈ evs ∧ y.viewNo = v)

theorem acksFor_add (nv : NodeVotes) (d : Nat) (w : Node) (d' : Nat) :
    (nv.addAck d w).acksFor d' = if d = d' then (if w ∈ nv.acksFor d then nv.acksFor d else nv.acksFor d ++ [w]) else nv.acksFor d' := by
  unfold NodeVotes.addAck NodeVotes.acksFor
  dsimp only
  rw [Dict.get?_set]
  split <;> rfl

theorem acksFor_mem (nv : NodeVotes) (d : Nat) (w : Node) {d' : Nat} {x : Node} (h : x ∈ nv.acksFor d') :
    x ∈ (nv.addAck d w).acksFor d' := by
  rw [acksFor_add]
  split
  · next e =>
    subst e
    split
    · exact h
    · exact List.mem_append_left _ h
  · exact h

theorem acksFor_self (nv : NodeVotes) (d : Nat) (w : Node) : w ∈ (nv.addAck d w).acksFor d := by
  rw [acksFor_add, if_pos rfl]
  split
  · next h => exact h
  · simp

theorem acksFor_addVC (nv : NodeVotes) (x : ViewChange) (d : Nat) : (nv.addViewChange x).acksFor d = nv.acksFor d := by
  unfold NodeVotes.addViewChange
  split <;> rfl

theorem vc_addVC (nv : NodeVotes) (x : ViewChange) : (nv.addViewChange x).vc = some (nv.vc.getD x) := by
  unfold NodeVotes.addViewChange
  split
  · next h => rw [h]; rfl
  · next y h => rw [h]; rfl

/-- An acknowledgement taken in. -/
theorem Kept.addAck {v : Nat} {own : ViewChange} {evs : List Event} {votes : Votes} (h : Kept cfg v own evs votes)
    (k : Node) (d : Nat) (w : Node) : Kept cfg v own evs (votes.addAck k d w) := by
  have hv : ∀ j, ((votes.addAck k d w).of j).vc = (votes.of j).vc := by
    intro j; rw [votesOf_addAck]; split
    · next e => rw [e]; rfl
    · rfl
  refine ⟨Dict.nodup_keys_set h.keys _ _, by rw [hv]; exact h.mine, fun x j hx hw => by rw [hv]; exact h.got x j hx hw,
    fun x j hx hw => ?_, fun j y hy => h.from' j y (by rw [← hv]; exact hy)⟩
  have := h.self x j hx hw
  rw [votesOf_addAck]; split
  · next e => rw [e]; exact acksFor_mem _ _ _ this
  · exact this

theorem Kept.mono {v : Nat} {own : ViewChange} {evs : List Event} {votes : Votes} (h : Kept cfg v own evs votes) (e : Event)
    (he : ∀ x j, e = .viewChange x j → x.viewNo ≠ v) : Kept cfg v own (evs ++ [e]) votes := by
  have hm : ∀ x j, Event.viewChange x j ∈ evs ++ [e] → x.viewNo = v → Event.viewChange x j ∈ evs := by
    intro x j hx hw
    rcases List.mem_append.1 hx with hx | hx
    · exact hx
    · exact absurd hw (he x j (List.mem_singleton.1 hx).symm)
  exact ⟨h.keys, h.mine, fun x j hx hw => h.got x j (hm x j hx hw) hw, fun x j hx hw => h.self x j (hm x j hx hw) hw,
    fun j y hy => (h.from' j y hy).imp id (fun x => ⟨List.mem_append_left _ x.1, x.2⟩)⟩

/-- A VIEW_CHANGE taken in. -/
theorem Kept.addVC {v : Nat} {own : ViewChange} {evs : List Event} {votes : Votes} (h : Kept cfg v own evs votes)
    (x : ViewChange) (j : Node) (hx : x.viewNo = v) :
    Kept cfg v own (evs ++ [.viewChange x j]) ((votes.addViewChange x j).addAck j (cfg.vd x) cfg.name) := by
  have hof : ∀ k, ((votes.addViewChange x j).addAck j (cfg.vd x) cfg.name).of k =
      if j = k then ((votes.of j).addViewChange x).addAck (cfg.vd x) cfg.name else votes.of k := by
    intro k
    rw [votesOf_addAck]
    split
    · rw [votesOf_addVC, if_pos rfl]
    · next e => rw [votesOf_addVC, if_neg e]
  have hv : ∀ k, (((votes.addViewChange x j).addAck j (cfg.vd x) cfg.name).of k).vc =
      if j = k then some ((votes.of j).vc.getD x) else (votes.of k).vc := by
    intro k; rw [hof]; split
    · exact vc_addVC _ _
    · rfl
  refine ⟨Dict.nodup_keys_set (Dict.nodup_keys_set h.keys _ _) _ _, ?_, ?_, ?_, ?_⟩
  · rw [hv]; split
    · next e => rw [e, h.mine]; rfl
    · exact h.mine
  · intro y k hy hw
    rw [hv]; split
    · exact ⟨_, rfl⟩
    · next e =>
      rcases List.mem_append.1 hy with hy | hy
      · exact h.got y k hy hw
      · cases List.mem_singleton.1 hy; exact absurd rfl e
  · intro y k hy hw
    rw [hof]
    rcases List.mem_append.1 hy with hy | hy
    · have := h.self y k hy hw
      split
      · next e =>
        subst e
        exact acksFor_mem _ _ _ (by rw [acksFor_addVC]; exact this)
      · exact this
    · cases List.mem_singleton.1 hy
      rw [if_pos rfl]
      exact acksFor_self _ _ _
  · intro k y hy
    rw [hv] at hy
    split at hy
    · next e =>
      subst e
      cases hg : (votes.of j).vc with
      | none =>
        rw [hg] at hy
        cases hy
        exact .inr ⟨by simp, hx⟩
      | some z =>
        rw [hg] at hy
        cases hy
        exact (h.from' j z hg).imp id (fun x => ⟨List.mem_append_left _ x.1, x.2⟩)
    · exact (h.from' k y hy).imp id (fun x => ⟨List.mem_append_left _ x.1, x.2⟩)

/-- The start of a view change. -/
theorem need_starts (s : Service) (v : Nat) (p pp : List BatchID) (ha : s.crashed = false) (hp : s.participating = true) :
    ∃ own, (s.needViewChange cfg v p pp).sentVC = s.sentVC ++ [own] ∧ own.viewNo = v ∧ own.checkpoints = s.checkpoints ∧
      own = (({ s with
        oldPrepared := s.oldPrepared.filter (fun e => !(e.1 ≤ s.stableCheckpoint))
        oldPreprepared := s.oldPreprepared.filter (fun e => !(e.1 ≤ s.stableCheckpoint))
        viewNo := v } : Service).buildViewChange p pp).2 ∧
      Waits cfg v (s.needViewChange cfg v p pp) ∧ Kept cfg v own [] (s.needViewChange cfg v p pp).votes ∧
      (s.needViewChange cfg v p pp).newViews = {} ∧ (s.needViewChange cfg v p pp).accepted = s.accepted ∧
      (s.needViewChange cfg v p pp).sentNV = s.sentNV ∧ (s.needViewChange cfg v p pp).checkpoints = s.checkpoints := by
  refine ⟨_, rfl, rfl, rfl, rfl, ⟨ha, rfl, hp, rfl, rfl⟩, ?_, rfl, rfl, rfl, rfl⟩
  refine ⟨?_, ?_, fun x j h => by simp at h, fun x j h => by simp at h, ?_⟩
  · exact Dict.nodup_keys_set (d := []) List.nodup_nil _ _
  · show (Votes.of (Votes.addViewChange [] _ _) _).vc = _
    rw [votesOf_addVC, if_pos rfl, vc_addVC]; rfl
  · intro j y hy
    change (Votes.of (Votes.addViewChange [] _ _) _).vc = _ at hy
    rw [votesOf_addVC] at hy
    split at hy
    · next e =>
      rw [vc_addVC] at hy
      cases hy
      exact .inl ⟨e.symm, rfl⟩
    · cases hy

end Verif.VC
