import Verif.Model.ViewChange
/-!
# C76: a NEW_VIEW and the VIEW_CHANGEs it names
-/
namespace Verif.Props
open Verif Verif.VC

variable (cfg : Cfg)

theorem of_set (v : Votes) (k x : Node) (nv : NodeVotes) : Votes.of (Dict.set v k nv) x = if k = x then nv else v.of x := by
  unfold Votes.of
  rw [Dict.get?_set]
  split <;> rfl

/-- The votes after a VIEW_CHANGE. -/
theorem of_processed (v : Votes) (vc : ViewChange) (frm x : Node) (d : Nat) (me : Node) :
    (((v.addViewChange vc frm).addAck frm d me).of x).vc = if frm = x then some (((v.of x).vc).getD vc) else (v.of x).vc := by
  unfold Votes.addAck Votes.addViewChange
  rw [of_set]
  split
  · next e =>
    subst e
    rw [of_set, if_pos rfl]
    simp only [NodeVotes.addAck, NodeVotes.addViewChange]
    cases h : (v.of frm).vc with
    | none => rfl
    | some x => exact h
  · next e => rw [of_set, if_neg e]

theorem finish_waiting {s : Service} {nv : NewView} (h : s.newViews.get s.primaryName = some nv) : s.finish.waiting = false := by
  unfold Service.finish
  rw [h]

/-- A view change that can be finished, with the named VIEW_CHANGEs of `got` at hand. -/
structure Ready (s : Service) (nv : NewView) (L got : List (Node × ViewChange)) : Prop where
  alive : s.crashed = false
  waiting : s.waiting = true
  part : s.participating = true
  view : s.viewNo = nv.viewNo
  backup : s.primaryName ≠ cfg.name
  newView : s.newViews.get s.primaryName = some nv
  named : nv.viewChanges = L.map (fun e => (e.1, cfg.vd e.2))
  views : ∀ e ∈ L, e.2.viewNo = nv.viewNo
  nodup : (L.map Prod.fst).Nodup
  stored : ∀ e ∈ L, (s.votes.of e.1).vc = none ∨ (s.votes.of e.1).vc = some e.2
  got : ∀ e ∈ got, e ∈ L ∧ (s.votes.of e.1).vc = some e.2

theorem mapM_named {vd : ViewChange → Nat} {v : Votes} (L : List (Node × ViewChange))
    (h : ∀ e ∈ L, (v.of e.1).vc = some e.2) :
    (L.map (fun e => (e.1, vd e.2))).mapM (fun e => v.getViewChange vd e.1 e.2) = some (L.map Prod.snd) := by
  induction L with
  | nil => rfl
  | cons e L ih =>
    rw [List.map_cons, List.mapM_cons, ih fun x hx => h x (List.mem_cons_of_mem _ hx)]
    have : v.getViewChange vd e.1 (vd e.2) = some e.2 := by
      unfold Votes.getViewChange
      rw [h e List.mem_cons_self]
      simp
    rw [this]
    rfl

theorem finishIfNeeded_cases (s : Service) : s.finishIfNeeded cfg = s ∨ s.finishIfNeeded cfg = s.finish := by
  unfold Service.finishIfNeeded
  split
  · exact .inl rfl
  · split
    · exact .inl rfl
    · simp only
      split
      · exact .inl rfl
      · split
        · exact .inl rfl
        · split
          · exact .inl rfl
          · exact .inr rfl

/-- A late VIEW_CHANGE for a finished view change has no effect. -/
theorem processVC_done {s : Service} (vc : ViewChange) (frm : Node) (h : s.waiting = false) (hv : vc.viewNo = s.viewNo) :
    s.processViewChange cfg vc frm = s := by
  unfold Service.processViewChange
  have : s.validate vc.viewNo = .discard := by
    unfold Service.validate
    rw [if_neg (by omega), if_pos (by simp [h, hv])]
  rw [this]
  rfl

theorem finish_view (s : Service) : s.finish.viewNo = s.viewNo := by
  unfold Service.finish
  split <;> rfl

theorem completes_aux (nv : NewView) (L : List (Node × ViewChange))
    (hcp : calcCheckpoint (Quorums.ofN cfg.n) (L.map Prod.snd) = some nv.checkpoint)
    (hb : calcBatches (Quorums.ofN cfg.n) cfg.logSize nv.checkpoint (L.map Prod.snd) = some nv.batches) (rest : List (Node × ViewChange)) :
    ∀ (s : Service) (got : List (Node × ViewChange)), Ready cfg s nv L got → got ++ rest = L → rest ≠ [] →
      (rest.foldl (fun s e => Service.step cfg s (.viewChange e.2 e.1)) s).waiting = false := by
  induction rest with
  | nil => intro s got _ _ h; exact absurd rfl h
  | cons e rest ih =>
    intro s got hr hL _
    rw [List.foldl_cons]
    have heL : e ∈ L := by rw [← hL]; simp
    have hval : s.validate e.2.viewNo = .process := by
      have h1 := hr.views e heL
      have h2 := hr.view
      unfold Service.validate
      rw [if_neg (by omega), if_neg (by simp [hr.waiting]), if_neg (by simp [hr.part]), if_neg (by omega)]
    have hstep : Service.step cfg s (.viewChange e.2 e.1) =
        ({ s with votes := (s.votes.addViewChange e.2 e.1).addAck e.1 (cfg.vd e.2) cfg.name } : Service).finishIfNeeded cfg := by
      rw [Service.step, if_neg (by simp [hr.alive])]
      show s.processViewChange cfg e.2 e.1 = _
      unfold Service.processViewChange
      rw [hval]
      simp only [ne_eq, not_true, if_false]
      rw [if_neg hr.backup]
    rw [hstep]
    generalize hs' : ({ s with votes := (s.votes.addViewChange e.2 e.1).addAck e.1 (cfg.vd e.2) cfg.name } : Service) = s'
    have hvotes : ∀ x, (s'.votes.of x).vc = if e.1 = x then some (((s.votes.of x).vc).getD e.2) else (s.votes.of x).vc := by
      intro x; rw [← hs']; exact of_processed _ _ _ _ _ _
    have huniq : ∀ x ∈ L, x.1 = e.1 → x = e := by
      intro x hx hxe
      have : ∀ l : List (Node × ViewChange), (l.map Prod.fst).Nodup → x ∈ l → e ∈ l → x = e := by
        intro l
        induction l with
        | nil => intro _ h; simp at h
        | cons a l ih' =>
          intro hn h1 h2
          rw [List.map_cons, List.nodup_cons] at hn
          rcases List.mem_cons.1 h1 with h1 | h1 <;> rcases List.mem_cons.1 h2 with h2 | h2
          · rw [h1, h2]
          · exact absurd (List.mem_map.2 ⟨e, h2, by rw [← hxe, h1]⟩) hn.1
          · exact absurd (List.mem_map.2 ⟨x, h1, by rw [hxe, h2]⟩) hn.1
          · exact ih' hn.2 h1 h2
      exact this L hr.nodup hx heL
    have hr' : Ready cfg s' nv L (got ++ [e]) := by
      refine ⟨?_, ?_, ?_, ?_, ?_, ?_, hr.named, hr.views, hr.nodup, ?_, ?_⟩
      · rw [← hs']; exact hr.alive
      · rw [← hs']; exact hr.waiting
      · rw [← hs']; exact hr.part
      · rw [← hs']; exact hr.view
      · rw [← hs']; exact hr.backup
      · rw [← hs']; exact hr.newView
      · intro x hx
        rw [hvotes]
        split
        · next hxe =>
          have := huniq x hx hxe.symm
          subst this
          right
          rcases hr.stored x hx with h | h <;> rw [h] <;> rfl
        · exact hr.stored x hx
      · intro x hx
        rw [hvotes]
        rcases List.mem_append.1 hx with hx | hx
        · refine ⟨(hr.got x hx).1, ?_⟩
          rw [(hr.got x hx).2]
          split <;> rfl
        · rw [List.mem_singleton] at hx
          subst hx
          refine ⟨heL, ?_⟩
          rw [if_pos rfl]
          rcases hr.stored x heL with h | h <;> rw [h] <;> rfl
    rcases finishIfNeeded_cases cfg s' with h | h
    · by_cases hrest : rest = []
      · exfalso
        subst hrest
        have hall : ∀ x ∈ L, (s'.votes.of x.1).vc = some x.2 := by
          intro x hx; rw [← hL] at hx; exact (hr'.got x hx).2
        have hfin : s'.finishIfNeeded cfg = s'.finish := by
          unfold Service.finishIfNeeded
          simp only [hr'.newView, hr'.named, mapM_named L hall, hcp, hb, ne_eq, not_true, if_false]
        rw [hfin] at h
        have := finish_waiting hr'.newView
        rw [h, hr'.waiting] at this
        cases this
      · rw [h]
        exact ih s' (got ++ [e]) hr' (by simpa using hL) hrest
    · rw [h]
      have hw : ∀ (l : List (Node × ViewChange)) (t : Service), t.waiting = false → t.viewNo = nv.viewNo → (∀ x ∈ l, x.2.viewNo = nv.viewNo) →
          (l.foldl (fun s e => Service.step cfg s (.viewChange e.2 e.1)) t).waiting = false := by
        intro l
        induction l with
        | nil => intro t h _ _; exact h
        | cons a l ih' =>
          intro t ht hv hl
          rw [List.foldl_cons]
          have : Service.step cfg t (.viewChange a.2 a.1) = t := by
            rw [Service.step]
            split
            · rfl
            · exact processVC_done cfg _ _ ht (by rw [hv]; exact hl a List.mem_cons_self)
          rw [this]
          exact ih' t ht hv fun x hx => hl x (List.mem_cons_of_mem _ hx)
      refine hw rest _ (finish_waiting hr'.newView) ?_ fun x hx => hr.views x (by rw [← hL]; simp [hx])
      rw [finish_view, hr'.view]

/-- **C76**, in part: a node which has a NEW_VIEW of the primary, agreeing with the
VIEW_CHANGEs it names, finishes the view change once these VIEW_CHANGEs arrive, provided it has
no other VIEW_CHANGE from any of the named nodes. What is missing is shown by
`vc_equivocation_blocks`. -/
theorem new_view_completes_partial (s : Service) (nv : NewView) (L : List (Node × ViewChange)) (hne : L ≠ [])
    (ha : s.crashed = false) (hw : s.waiting = true) (hp : s.participating = true) (hv : s.viewNo = nv.viewNo) (hb : s.primaryName ≠ cfg.name)
    (hnv : s.newViews.get s.primaryName = some nv) (hL : nv.viewChanges = L.map (fun e => (e.1, cfg.vd e.2)))
    (hviews : ∀ e ∈ L, e.2.viewNo = nv.viewNo) (hn : (L.map Prod.fst).Nodup)
    (hcp : calcCheckpoint (Quorums.ofN cfg.n) (L.map Prod.snd) = some nv.checkpoint)
    (hbs : calcBatches (Quorums.ofN cfg.n) cfg.logSize nv.checkpoint (L.map Prod.snd) = some nv.batches)
    (hstored : ∀ e ∈ L, (s.votes.of e.1).vc = none ∨ (s.votes.of e.1).vc = some e.2) :
    (L.foldl (fun s e => Service.step cfg s (.viewChange e.2 e.1)) s).waiting = false :=
  completes_aux cfg nv L hcp hbs L s []
    ⟨ha, hw, hp, hv, hb, hnv, hL, hviews, hn, hstored, fun e he => by simp at he⟩ rfl hne

/-! ## A node that sends two VIEW_CHANGEs -/

/-- The node has a VIEW_CHANGE of `bad` other than the one every NEW_VIEW names. -/
structure Blocked (bad : Node) (d : Nat) (s : Service) : Prop where
  waiting : s.waiting = true
  backup : s.primaryName ≠ cfg.name
  other : ∃ vc, (s.votes.of bad).vc = some vc ∧ cfg.vd vc ≠ d
  named : ∀ e ∈ s.newViews.votes, (bad, d) ∈ e.1.viewChanges
  chosen : ∀ nv, s.newViews.newView = some nv → (bad, d) ∈ nv.viewChanges

theorem get_named {nvs : NewViewVotes} {bad : Node} {d : Nat} (h : ∀ e ∈ nvs.votes, (bad, d) ∈ e.1.viewChanges)
    (h2 : ∀ nv, nvs.newView = some nv → (bad, d) ∈ nv.viewChanges) {p : Node} {nv : NewView} (hg : nvs.get p = some nv) :
    (bad, d) ∈ nv.viewChanges := by
  unfold NewViewVotes.get at hg
  split at hg
  · next x hx => cases hg; exact h2 _ hx
  · rw [Option.map_eq_some_iff] at hg
    obtain ⟨e, he, rfl⟩ := hg
    exact h e (List.mem_of_find?_eq_some he)

theorem mapM_none {α β : Type} (f : α → Option β) (l : List α) (x : α) (hx : x ∈ l) (hf : f x = none) : l.mapM f = none := by
  induction l with
  | nil => simp at hx
  | cons a l ih =>
    rw [List.mapM_cons]
    rcases List.mem_cons.1 hx with e | hx
    · subst e; rw [hf]; rfl
    · rw [ih hx]; cases f a <;> rfl

theorem blocked_finish {bad : Node} {d : Nat} {s : Service} (h : Blocked cfg bad d s) : s.finishIfNeeded cfg = s := by
  unfold Service.finishIfNeeded
  cases hg : s.newViews.get s.primaryName with
  | none => rfl
  | some nv =>
    obtain ⟨vc, hvc, hd⟩ := h.other
    have hm := mapM_none (fun e => s.votes.getViewChange cfg.vd e.1 e.2) nv.viewChanges (bad, d)
      (get_named h.named h.chosen hg) (by simp [Votes.getViewChange, hvc, hd])
    simp only [hm]

/-- **C76**, negation: a node that has taken in a VIEW_CHANGE of a faulty node other than the one
named by the NEW_VIEW does not finish the view change, whatever arrives: not even the named
VIEW_CHANGE, from f+1 nodes. Only another view change ends it. -/
theorem vc_equivocation_blocks (bad : Node) (d : Nat) (evs : List Event)
    (hneed : ∀ v p q, Event.need v p q ∉ evs) (hnv : ∀ nv frm, Event.newView nv frm ∈ evs → (bad, d) ∈ nv.viewChanges) :
    ∀ s : Service, Blocked cfg bad d s → (evs.foldl (Service.step cfg) s).waiting = true := by
  induction evs with
  | nil => intro s h; exact h.waiting
  | cons e evs ih =>
    intro s h
    rw [List.foldl_cons]
    refine ih (fun v p q hm => hneed v p q (List.mem_cons_of_mem _ hm)) (fun nv frm hm => hnv nv frm (List.mem_cons_of_mem _ hm)) _ ?_
    rw [Service.step]
    split
    · exact h
    cases e with
    | need v p q => exact absurd List.mem_cons_self (hneed v p q)
    | viewChange vc frm =>
      show Blocked cfg bad d (s.processViewChange cfg vc frm)
      unfold Service.processViewChange
      split
      · exact h
      · rw [if_neg h.backup]
        have hb : Blocked cfg bad d { s with votes := (s.votes.addViewChange vc frm).addAck frm (cfg.vd vc) cfg.name } := by
          refine ⟨h.waiting, h.backup, ?_, h.named, h.chosen⟩
          obtain ⟨x, hx, hd⟩ := h.other
          refine ⟨x, ?_, hd⟩
          simp only
          rw [of_processed]
          split
          · rw [hx]; rfl
          · exact hx
        rw [blocked_finish cfg hb]
        exact hb
    | ack v name dg frm =>
      show Blocked cfg bad d (s.processAck cfg v name dg frm)
      unfold Service.processAck
      split
      · exact h
      · rw [if_pos h.backup]; exact h
    | newView nv frm =>
      show Blocked cfg bad d (s.processNewView cfg nv frm)
      unfold Service.processNewView
      split
      · exact h
      · have hm := hnv nv frm List.mem_cons_self
        have hb : Blocked cfg bad d { s with newViews := s.newViews.add (Quorums.ofN cfg.n) nv frm } := by
          refine ⟨h.waiting, h.backup, h.other, fun e he => ?_, fun x hx => ?_⟩
          · rcases Dict.mem_set he with he | e'
            · exact h.named e he
            · rw [e']; exact hm
          · have hx' : (s.newViews.add (Quorums.ofN cfg.n) nv frm).newView = some nv ∨
                (s.newViews.add (Quorums.ofN cfg.n) nv frm).newView = s.newViews.newView := by
              unfold NewViewVotes.add
              simp only
              by_cases hq : (Quorums.ofN cfg.n).strong.isReached (if frm ∈ (s.newViews.votes.get? nv).getD [] then
                (s.newViews.votes.get? nv).getD [] else (s.newViews.votes.get? nv).getD [] ++ [frm]).length = true
              · rw [if_pos hq]; exact .inl rfl
              · rw [if_neg hq]; exact .inr rfl
            rcases hx' with e' | e'
            · rw [e'] at hx; cases hx; exact hm
            · rw [e'] at hx; exact h.chosen x hx
        rw [blocked_finish cfg hb]
        exact hb
    | shared p st cps => exact ⟨h.waiting, h.backup, h.other, h.named, h.chosen⟩

/-! ## Concrete runs -/

/-- Four nodes; node 0 is a backup, node 1 the primary of all views. The digest of a
VIEW_CHANGE is its stable checkpoint. -/
def eqCfg : Cfg := ⟨0, 4, fun _ => 1, fun vc => vc.stableCheckpoint, 100⟩

/-- A VIEW_CHANGE for view 1; `x` tells them apart. -/
def eqVC (x : Nat) : ViewChange := ⟨1, x, [], [], [⟨0, 5, none⟩]⟩

/-- The NEW_VIEW of the primary, naming the second VIEW_CHANGE of node 3. -/
def eqNV : NewView := ⟨1, [(1, 0), (2, 0), (3, 4)], ⟨0, 5, none⟩, [], none⟩

/-- Node 3 sends one VIEW_CHANGE to node 0 and another one to the rest. -/
def eqRun (first : Nat) : Service :=
  run eqCfg [.need 1 [] [], .viewChange (eqVC first) 3, .viewChange (eqVC 0) 1, .viewChange (eqVC 0) 2, .newView eqNV 1]

example : Blocked eqCfg 3 4 (eqRun 2) := by
  refine ⟨by decide +kernel, by decide +kernel, ⟨eqVC 2, by decide +kernel, by decide⟩, by decide +kernel, fun nv h => ?_⟩
  rw [show (eqRun 2).newViews.newView = none by decide +kernel] at h
  cases h
example : (eqRun 4).waiting = false := by decide +kernel
example : ([(1, eqVC 0), (2, eqVC 0), (3, eqVC 4)].foldl (fun s e => Service.step eqCfg s (.viewChange e.2 e.1))
    (run eqCfg [.need 1 [] [], .newView eqNV 1])).waiting = false := by
  refine new_view_completes_partial eqCfg _ eqNV _ (by simp) ?_ ?_ ?_ ?_ ?_ ?_ ?_ ?_ ?_ ?_ ?_ ?_ <;> decide +kernel

end Verif.Props
