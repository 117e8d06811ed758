import Verif.Proofs.ViewEndPrim
import Verif.Props.VcEquiv
/-! The other nodes in a view change. -/
namespace Verif.VC

variable {cfg : Cfg}

/-- Where a NEW_VIEW the node works with came from: the primary, or `n - f`
nodes. -/
def Came (cfg : Cfg) (v : Nat) (evs : List Event) (nv : NewView) : Prop :=
  .newView nv (cfg.primary v) ∈ evs ∨
    ∃ Q : List Node, Q.Nodup ∧ cfg.n - getMaxFailures cfg.n ≤ Q.length ∧ ∀ w ∈ Q, .newView nv w ∈ evs

theorem Came.mono {v : Nat} {evs : List Event} {nv : NewView} (h : Came cfg v evs nv) (e : Event) : Came cfg v (evs ++ [e]) nv := by
  rcases h with h | ⟨Q, q1, q2, q3⟩
  · exact .inl (List.mem_append_left _ h)
  · exact .inr ⟨Q, q1, q2, fun w hw => List.mem_append_left _ (q3 w hw)⟩

/-- The NEW_VIEWs taken in. -/
structure KeptNV (cfg : Cfg) (v : Nat) (evs : List Event) (nvs : NewViewVotes) : Prop where
  votes : ∀ e ∈ nvs.votes, e.1.viewNo = v ∧ e.2.Nodup ∧ ∀ w ∈ e.2, .newView e.1 w ∈ evs
  chosen : ∀ nv, nvs.newView = some nv → nv.viewNo = v ∧
    ∃ Q : List Node, Q.Nodup ∧ cfg.n - getMaxFailures cfg.n ≤ Q.length ∧ ∀ w ∈ Q, .newView nv w ∈ evs
  got : ∀ nv w, .newView nv w ∈ evs → nv.viewNo = v → ∃ l, Dict.get? nvs.votes nv = some l ∧ w ∈ l

theorem KeptNV.get {v : Nat} {evs : List Event} {nvs : NewViewVotes} (h : KeptNV cfg v evs nvs) {nv : NewView}
    (hg : nvs.get (cfg.primary v) = some nv) : nv.viewNo = v ∧ Came cfg v evs nv := by
  unfold NewViewVotes.get at hg
  split at hg
  · next x hx => cases hg; exact ⟨(h.chosen _ hx).1, .inr (h.chosen _ hx).2⟩
  · obtain ⟨e, he, rfl⟩ := Option.map_eq_some_iff.1 hg
    have h1 := List.mem_of_find?_eq_some he
    have h2 := List.find?_some he
    simp only [Bool.and_eq_true, beq_iff_eq] at h2
    refine ⟨(h.votes e h1).1, .inl ((h.votes e h1).2.2 _ ?_)⟩
    rw [h2.1]; exact List.mem_singleton.2 rfl

theorem KeptNV.mono {v : Nat} {evs : List Event} {nvs : NewViewVotes} (h : KeptNV cfg v evs nvs) (e : Event)
    (he : ∀ nv j, e = .newView nv j → nv.viewNo ≠ v) : KeptNV cfg v (evs ++ [e]) nvs := by
  refine ⟨fun x hx => ⟨(h.votes x hx).1, (h.votes x hx).2.1, fun w hw => List.mem_append_left _ ((h.votes x hx).2.2 w hw)⟩, ?_, ?_⟩
  · intro nv hx
    obtain ⟨a, Q, q1, q2, q3⟩ := h.chosen nv hx
    exact ⟨a, Q, q1, q2, fun w hw => List.mem_append_left _ (q3 w hw)⟩
  · intro nv w hm hv
    rcases List.mem_append.1 hm with hm | hm
    · exact h.got nv w hm hv
    · exact absurd hv (he nv w (List.mem_singleton.1 hm).symm)

theorem KeptNV.add {v : Nat} {evs : List Event} {nvs : NewViewVotes} (h : KeptNV cfg v evs nvs) (nv : NewView) (w : Node)
    (hv : nv.viewNo = v) : KeptNV cfg v (evs ++ [.newView nv w]) (nvs.add (Quorums.ofN cfg.n) nv w) := by
  have hmem : ∀ x, x ∈ evs → x ∈ evs ++ [Event.newView nv w] := fun x hx => List.mem_append_left _ hx
  have hold : ((Dict.get? nvs.votes nv).getD []).Nodup ∧ ∀ x ∈ (Dict.get? nvs.votes nv).getD [], .newView nv x ∈ evs := by
    cases hg : Dict.get? nvs.votes nv with
    | none => simp
    | some l => exact (h.votes _ (Dict.mem_of_get? hg)).2
  generalize hvs : (if w ∈ (Dict.get? nvs.votes nv).getD [] then (Dict.get? nvs.votes nv).getD []
      else (Dict.get? nvs.votes nv).getD [] ++ [w]) = vs
  have hadd : nvs.add (Quorums.ofN cfg.n) nv w =
      { votes := nvs.votes.set nv vs, newView := if (Quorums.ofN cfg.n).strong.isReached vs.length then some nv else nvs.newView } := by
    unfold NewViewVotes.add
    simp only [hvs]
  have h1 : vs.Nodup ∧ (∀ x ∈ vs, .newView nv x ∈ evs ++ [Event.newView nv w]) ∧ w ∈ vs ∧
      ∀ x ∈ (Dict.get? nvs.votes nv).getD [], x ∈ vs := by
    rw [← hvs]
    split
    · next hw => exact ⟨hold.1, fun x hx => hmem _ (hold.2 x hx), hw, fun _ h => h⟩
    · next hw =>
      refine ⟨?_, ?_, by simp, fun x hx => List.mem_append_left _ hx⟩
      · rw [List.nodup_append]
        refine ⟨hold.1, by simp, fun a ha b hb => ?_⟩
        rw [List.mem_singleton.1 hb]; intro e; subst e; exact hw ha
      · intro x hx
        rcases List.mem_append.1 hx with hx | hx
        · exact hmem _ (hold.2 x hx)
        · rw [List.mem_singleton.1 hx]; simp
  rw [hadd]
  refine ⟨?_, ?_, ?_⟩
  · intro e he
    rcases Dict.mem_set he with he | he
    · exact ⟨(h.votes e he).1, (h.votes e he).2.1, fun x hx => hmem _ ((h.votes e he).2.2 x hx)⟩
    · subst he; exact ⟨hv, h1.1, h1.2.1⟩
  · intro x hx
    dsimp only at hx
    split at hx
    · next hq =>
      cases hx
      simp only [Quorum.isReached, Quorums.ofN, ge_iff_le, decide_eq_true_eq] at hq
      exact ⟨hv, vs, h1.1, hq, h1.2.1⟩
    · obtain ⟨a, Q, q1, q2, q3⟩ := h.chosen x hx
      exact ⟨a, Q, q1, q2, fun w hw => hmem _ (q3 w hw)⟩
  · intro x u hm hx
    dsimp only
    rw [Dict.get?_set]
    split
    · next e =>
      subst e
      refine ⟨vs, rfl, ?_⟩
      rcases List.mem_append.1 hm with hm | hm
      · obtain ⟨l, l1, l2⟩ := h.got _ u hm hx
        exact h1.2.2.2 u (by rw [l1]; exact l2)
      · cases List.mem_singleton.1 hm
        exact h1.2.2.1
    · next e =>
      rcases List.mem_append.1 hm with hm | hm
      · exact h.got x u hm hx
      · cases List.mem_singleton.1 hm; exact absurd rfl e

/-- A node while it has not finished. -/
structure BackWaits (cfg : Cfg) (v : Nat) (own : ViewChange) (s0 : Service) (evs : List Event) (s : Service) : Prop where
  wait : Waits cfg v s
  kept : Kept cfg v own evs s.votes
  acked : ∀ x j, Event.viewChange x j ∈ evs → x.viewNo = v → (v, j, cfg.vd x) ∈ acksFrom cfg s0 evs
  nvs : KeptNV cfg v evs s.newViews
  acc : s.accepted = s0.accepted
  sentNV : s.sentNV = s0.sentNV
  sentVC : s.sentVC = s0.sentVC
  idle : (s.finishIfNeeded cfg).waiting = true

/-- A node when it has. -/
structure BackOver (cfg : Cfg) (v : Nat) (s0 : Service) (evs : List Event) (s : Service) (nv : NewView) : Prop where
  over : Over v s
  acc : s.accepted = s0.accepted ++ [nv]
  sentNV : s.sentNV = s0.sentNV
  sentVC : s.sentVC = s0.sentVC
  came : nv.viewNo = v ∧ Came cfg v evs nv

theorem finish_some {s : Service} {nv : NewView} (h : s.newViews.get s.primaryName = some nv) :
    s.finish.crashed = s.crashed ∧ s.finish.waiting = false ∧ s.finish.viewNo = s.viewNo ∧
      s.finish.accepted = s.accepted ++ [nv] ∧ s.finish.sentNV = s.sentNV ∧ s.finish.sentVC = s.sentVC := by
  unfold Service.finish
  rw [h]
  exact ⟨rfl, rfl, rfl, rfl, rfl, rfl⟩

theorem back_try {v : Nat} {own : ViewChange} {s0 s : Service} {evs : List Event}
    (wait : Waits cfg v s) (kept : Kept cfg v own evs s.votes)
    (acked : ∀ x j, Event.viewChange x j ∈ evs → x.viewNo = v → (v, j, cfg.vd x) ∈ acksFrom cfg s0 evs)
    (nvs : KeptNV cfg v evs s.newViews) (acc : s.accepted = s0.accepted) (sentNV : s.sentNV = s0.sentNV) (sentVC : s.sentVC = s0.sentVC) :
    BackWaits cfg v own s0 evs (s.finishIfNeeded cfg) ∨ ∃ nv, BackOver cfg v s0 evs (s.finishIfNeeded cfg) nv := by
  have same : s.finishIfNeeded cfg = s → BackWaits cfg v own s0 evs (s.finishIfNeeded cfg) := by
    intro h
    rw [h]
    exact ⟨wait, kept, acked, nvs, acc, sentNV, sentVC, by rw [h]; exact wait.waiting⟩
  cases hg : s.newViews.get s.primaryName with
  | none =>
    refine .inl (same ?_)
    unfold Service.finishIfNeeded
    rw [hg]
  | some nv =>
    rcases Props.finishIfNeeded_cases cfg s with h | h
    · exact .inl (same h)
    · right
      obtain ⟨h1, h2, h3, h4, h5, h6⟩ := finish_some hg
      rw [wait.prim] at hg
      rw [h]
      exact ⟨nv, ⟨h1.trans wait.alive, h2, h3.trans wait.view⟩, by rw [h4, acc], h5.trans sentNV, h6.trans sentVC, nvs.get hg⟩

theorem BackWaits.step {v : Nat} {own : ViewChange} {s0 s : Service} {evs : List Event} (h : BackWaits cfg v own s0 evs s)
    (hs : s = evs.foldl (Service.step cfg) s0)
    (hme : cfg.primary v ≠ cfg.name) (e : Event) (hn : ∀ w p pp, e ≠ .need w p pp)
    (hsh : ∀ pt st cps, e = .shared pt st cps → pt = true) :
    BackWaits cfg v own s0 (evs ++ [e]) (s.step cfg e) ∨ ∃ nv, BackOver cfg v s0 (evs ++ [e]) (s.step cfg e) nv := by
  have hacks : acksFrom cfg s0 (evs ++ [e]) = acksFrom cfg s0 evs ++ s.ackFor cfg e := by
    rw [acksFrom_append, ← hs]
    simp [acksFrom]
  have acked' : (∀ x j, e = .viewChange x j → x.viewNo ≠ v) →
      ∀ x j, Event.viewChange x j ∈ evs ++ [e] → x.viewNo = v → (v, j, cfg.vd x) ∈ acksFrom cfg s0 (evs ++ [e]) := by
    intro h1 x j hx hv
    rw [hacks]
    rcases List.mem_append.1 hx with hx | hx
    · exact List.mem_append_left _ (h.acked x j hx hv)
    · exact absurd hv (h1 x j (List.mem_singleton.1 hx).symm)
  have keep : (∀ x j, e = .viewChange x j → x.viewNo ≠ v) → (∀ nv j, e = .newView nv j → nv.viewNo ≠ v) →
      BackWaits cfg v own s0 (evs ++ [e]) s := fun h1 h2 =>
    ⟨h.wait, h.kept.mono e h1, acked' h1, h.nvs.mono e h2, h.acc, h.sentNV, h.sentVC, h.idle⟩
  have hne : s.primaryName ≠ cfg.name := by rw [h.wait.prim]; exact hme
  unfold Service.step
  rw [if_neg (by simp [h.wait.alive])]
  cases e with
  | need w p pp => exact absurd rfl (hn w p pp)
  | viewChange x j =>
    simp only [Service.handle, Service.processViewChange]
    by_cases hx : x.viewNo = v
    · rw [hx, h.wait.validate]
      simp only [ne_eq, not_true, if_false]
      rw [if_neg hne]
      refine back_try ⟨h.wait.alive, h.wait.waiting, h.wait.part, h.wait.view, h.wait.prim⟩ (h.kept.addVC x j hx) ?_
        (h.nvs.mono _ (fun y k e => by cases e)) h.acc h.sentNV h.sentVC
      intro y k hm hv
      rw [hacks]
      rcases List.mem_append.1 hm with hm | hm
      · exact List.mem_append_left _ (h.acked y k hm hv)
      · cases List.mem_singleton.1 hm
        apply List.mem_append_right
        unfold Service.ackFor
        dsimp only
        rw [if_neg (by simp [h.wait.alive]), hx, h.wait.validate]
        simp [hne]
    · rw [if_pos (h.wait.other hx)]
      exact .inl (keep (fun y k e => by cases e; exact hx) (fun k d e => by cases e))
  | ack w k d i =>
    simp only [Service.handle, Service.processAck]
    have := keep (fun y k e => by cases e) (fun k d e => by cases e)
    rw [if_pos hne]
    split
    · exact .inl this
    · exact .inl this
  | newView nv j =>
    simp only [Service.handle, Service.processNewView]
    by_cases hx : nv.viewNo = v
    · rw [hx, h.wait.validate]
      simp only [ne_eq, not_true, if_false]
      exact back_try ⟨h.wait.alive, h.wait.waiting, h.wait.part, h.wait.view, h.wait.prim⟩
        (h.kept.mono _ (fun y k e => by cases e)) (acked' (fun y k e => by cases e)) (h.nvs.add nv j hx) h.acc h.sentNV h.sentVC
    · rw [if_pos (h.wait.other hx)]
      exact .inl (keep (fun y k e => by cases e) (fun k d e => by cases e; exact hx))
  | shared pt st cps =>
    have h1 := hsh pt st cps rfl
    have := keep (fun y k e => by cases e) (fun k d e => by cases e)
    refine .inl ⟨⟨this.wait.alive, this.wait.waiting, h1, this.wait.view, this.wait.prim⟩, this.kept, this.acked, this.nvs, this.acc,
      this.sentNV, this.sentVC, ?_⟩
    have hi := this.idle
    simp only [Service.handle]
    unfold Service.finishIfNeeded at hi ⊢
    dsimp only at hi ⊢
    revert hi
    split
    · exact fun x => x
    split
    · exact fun x => x
    split
    · exact fun x => x
    split
    · exact fun x => x
    split
    · exact fun x => x
    · intro hi
      unfold Service.finish at hi ⊢
      dsimp only
      split at hi
      · exact this.wait.waiting
      · cases hi

theorem BackOver.step {v : Nat} {s0 s : Service} {evs : List Event} {nv : NewView}
    (h : BackOver cfg v s0 evs s nv) (e : Event) (hn : ∀ w p pp, e ≠ .need w p pp) :
    BackOver cfg v s0 (evs ++ [e]) (s.step cfg e) nv := by
  obtain ⟨h1, h2, h3, h4⟩ := h.over.step (cfg := cfg) e hn
  exact ⟨h1, h2.trans h.acc, h3.trans h.sentNV, h4.trans h.sentVC, h.came.1, h.came.2.mono e⟩

/-- A node waits or has finished, whatever happens. -/
theorem back_run {v : Nat} {own : ViewChange} {s0 : Service} (hme : cfg.primary v ≠ cfg.name)
    (h0 : BackWaits cfg v own s0 [] s0) (evs : List Event) (hn : ∀ w p pp, Event.need w p pp ∉ evs)
    (hsh : ∀ pt st cps, Event.shared pt st cps ∈ evs → pt = true) :
    BackWaits cfg v own s0 evs (evs.foldl (Service.step cfg) s0) ∨
      ∃ nv, BackOver cfg v s0 evs (evs.foldl (Service.step cfg) s0) nv := by
  induction evs using snoc_induction with
  | nil => exact .inl h0
  | snoc evs e ih =>
    rw [List.foldl_append]
    have he : e ∈ evs ++ [e] := by simp
    have hn' : ∀ w p pp, e ≠ .need w p pp := fun w p pp x => hn w p pp (x ▸ he)
    rcases ih (fun w p pp x => hn w p pp (List.mem_append_left _ x))
      (fun pt st cps x => hsh pt st cps (List.mem_append_left _ x)) with h | ⟨nv, h⟩
    · exact h.step rfl hme e hn' (fun pt st cps x => hsh pt st cps (x ▸ he))
    · exact .inr ⟨nv, h.step e hn'⟩

end Verif.VC
