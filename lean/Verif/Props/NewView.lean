import Verif.Proofs.ViewChangeService
/-!
# C21, C60, C61, C62: accepting a NEW_VIEW

All statements are about runs of the view change service of one honest node,
on any list of events; messages of other nodes are arbitrary.
-/
namespace Verif.Props

open Verif.VC

/-! ## C21 -/

/-- **C21**, for NEW_VIEWs that name no node twice. Whatever happened to the node
(own messages are not delivered to it), a NEW_VIEW it finished a view change
with has the checkpoint and the batches computed from VIEW_CHANGEs for its view
of at least `n - f` distinct nodes, each received from the node named or the
node's own; or the node is itself the primary of that view, and `n - f` distinct
nodes sent it the NEW_VIEW. Missing for the full claim: the code does not check
that the names are distinct (`C21_repeated_names`). -/
theorem C21_new_view_justified_partial (cfg : Cfg) (evs : List Event) (hself : ∀ nv, .newView nv cfg.name ∉ evs)
    (nv : NewView) (h : nv ∈ (run cfg evs).accepted) (hd : (nv.viewChanges.map Prod.fst).Nodup) :
    (∃ nvs : List (Node × ViewChange), (nvs.map Prod.fst).Nodup ∧ cfg.n - getMaxFailures cfg.n ≤ nvs.length ∧
      (∀ e ∈ nvs, e.2.viewNo = nv.viewNo ∧
        (.viewChange e.2 e.1 ∈ evs ∨ (e.1 = cfg.name ∧ e.2 ∈ (run cfg evs).sentVC))) ∧
      calcCheckpoint (Quorums.ofN cfg.n) (nvs.map Prod.snd) = some nv.checkpoint ∧
      calcBatches (Quorums.ofN cfg.n) cfg.logSize nv.checkpoint (nvs.map Prod.snd) = some nv.batches) ∨
    (cfg.primary nv.viewNo = cfg.name ∧
      ∃ Q : List Node, Q.Nodup ∧ cfg.n - getMaxFailures cfg.n ≤ Q.length ∧
        ∀ w ∈ Q, .newView nv w ∈ evs ∨ (w = cfg.name ∧ nv ∈ (run cfg evs).sentNV)) := by
  rcases (SInv.run (cfg := cfg) evs hself).acc nv h with ⟨nvs, a, b, c, d⟩ | h
  · refine .inl ⟨nvs, a.symm.nodup hd, ?_, b, c, d⟩
    have := calcCheckpoint_length c
    simpa using this
  · exact .inr h

/-- **C21**, of the NEW_VIEW an honest primary sends: it names `n - f` distinct
nodes, and is computed from what these sent. -/
theorem C21_honest_new_view (cfg : Cfg) (evs : List Event) (hself : ∀ nv, .newView nv cfg.name ∉ evs)
    (nv : NewView) (h : nv ∈ (run cfg evs).sentNV) :
    (nv.viewChanges.map Prod.fst).Nodup ∧ cfg.n - getMaxFailures cfg.n ≤ nv.viewChanges.length ∧
    ∃ nvs : List (Node × ViewChange), (nvs.map Prod.fst).Perm (nv.viewChanges.map Prod.fst) ∧
      (∀ e ∈ nvs, e.2.viewNo = nv.viewNo ∧
        (.viewChange e.2 e.1 ∈ evs ∨ (e.1 = cfg.name ∧ e.2 ∈ (run cfg evs).sentVC))) ∧
      calcCheckpoint (Quorums.ofN cfg.n) (nvs.map Prod.snd) = some nv.checkpoint ∧
      calcBatches (Quorums.ofN cfg.n) cfg.logSize nv.checkpoint (nvs.map Prod.snd) = some nv.batches := by
  obtain ⟨⟨nvs, a, b, c, d⟩, h2⟩ := (SInv.run (cfg := cfg) evs hself).sentNV nv h
  refine ⟨h2, ?_, nvs, a, b, c, d⟩
  have := calcCheckpoint_length c
  have e := a.length_eq
  simp only [List.length_map] at this e
  omega

namespace Repeated

def cfg : Cfg where
  name := 0
  n := 4
  primary := fun v => v % 4
  vd := fun vc => vc.prepared.length
  logSize := 300

/-- What node 0 prepared in view 0. -/
def b : BatchID := ⟨0, 0, 1, 7⟩
/-- The VIEW_CHANGE of the Byzantine primary of view 1, and its NEW_VIEW. -/
def vc : ViewChange := ⟨1, 0, [], [], [⟨0, 0, none⟩]⟩
def nv : NewView := ⟨1, [(1, 0), (1, 0), (1, 0)], ⟨0, 0, none⟩, [], none⟩
def evs : List Event := [.need 1 [b] [b], .viewChange vc 1, .newView nv 1]

/-- VIEW_CHANGEs of two more nodes, and the NEW_VIEW of an honest primary. -/
def vc2 : ViewChange := ⟨1, 0, [b], [b], [⟨0, 0, none⟩]⟩
def good : NewView := ⟨1, [(0, 1), (1, 0), (2, 1)], ⟨0, 0, none⟩, [b], none⟩
def evs2 : List Event := [.need 1 [b] [b], .viewChange vc 1, .newView good 1, .viewChange vc2 2]

/-- The honest primary's own run. -/
def cfg1 : Cfg := { cfg with name := 1 }
def evs1 : List Event := [.need 1 [] [], .viewChange vc2 2, .viewChange vc2 0, .ack 1 1 0 0, .ack 1 0 1 2, .ack 1 2 1 0,
  .ack 1 1 0 2]

end Repeated

/-- **C21 does not hold of the code.** `NewView.viewChanges` may name one node
several times and each mention counts as a vote: an honest node that reported a
prepared batch finishes the view change with a NEW_VIEW without it, although the
only VIEW_CHANGE it has from another node is the Byzantine primary's. -/
theorem C21_repeated_names : ∃ (cfg : Cfg) (evs : List Event) (nv : NewView), cfg.n = 4 ∧
    nv ∈ (run cfg evs).accepted ∧ (run cfg evs).waiting = false ∧
    (∃ b, nv.batches = [] ∧ ∀ vc ∈ (run cfg evs).sentVC, b ∈ vc.prepared) ∧
    (∀ vc w, .viewChange vc w ∈ evs → w = cfg.primary nv.viewNo) ∧
    nv.viewChanges.map Prod.fst = [1, 1, 1] := by
  refine ⟨Repeated.cfg, Repeated.evs, Repeated.nv, rfl, by decide, by decide, ⟨Repeated.b, rfl, by decide⟩, ?_, rfl⟩
  intro vc w h
  simp only [Repeated.evs, List.mem_cons, List.not_mem_nil, or_false, reduceCtorEq, false_or,
    Event.viewChange.injEq] at h
  rw [h.2]; rfl

example : Repeated.good ∈ (run Repeated.cfg Repeated.evs2).accepted := by decide

open Repeated in
example : (∃ nvs : List (Node × ViewChange), (nvs.map Prod.fst).Nodup ∧ 4 - getMaxFailures 4 ≤ nvs.length ∧
      (∀ e ∈ nvs, e.2.viewNo = 1 ∧ (.viewChange e.2 e.1 ∈ evs2 ∨ (e.1 = 0 ∧ e.2 ∈ (run cfg evs2).sentVC))) ∧
      calcCheckpoint (Quorums.ofN 4) (nvs.map Prod.snd) = some ⟨0, 0, none⟩ ∧
      calcBatches (Quorums.ofN 4) 300 ⟨0, 0, none⟩ (nvs.map Prod.snd) = some [b]) ∨
    (1 = 0 ∧ ∃ Q : List Node, Q.Nodup ∧ 4 - getMaxFailures 4 ≤ Q.length ∧
        ∀ w ∈ Q, .newView good w ∈ evs2 ∨ (w = 0 ∧ good ∈ (run cfg evs2).sentNV)) :=
  C21_new_view_justified_partial cfg evs2 (by simp [evs2, cfg]) good (by decide) (by decide)

open Repeated in
example : 3 ≤ good.viewChanges.length :=
  (C21_honest_new_view cfg1 evs1 (by simp [evs1]) good (by decide)).2.1

/-! ## C60 -/

/-- **C60**, if the batches are of one view: the prepared certificate set on
accepting a NEW_VIEW, taken from its last batch, is the highest sequence number
among the batches. Missing for the full claim: batches of several views
(`C60_certificate_below_batch`). -/
theorem C60_certificate_highest_partial (q : Quorums) (logSize : Nat) (cp : Checkpoint) (vcs : List ViewChange)
    (batches : List BatchID) (h : calcBatches q logSize cp vcs = some batches)
    (v p : Nat) (hv : ∀ b ∈ batches, b.viewNo = v ∧ b.ppViewNo = p) (last : BatchID) (hl : batches.getLast? = some last) :
    ∀ b ∈ batches, b.ppSeqNo ≤ last.ppSeqNo := by
  unfold calcBatches at h
  obtain ⟨l, -, rfl⟩ := Option.map_eq_some_iff.1 h
  have hp := sortBids_pairwise l
  intro b hb
  have hlm : last ∈ sortBids l := List.mem_of_getLast? hl
  obtain ⟨i, hi, rfl⟩ := List.mem_iff_getElem.1 hb
  rw [List.getLast?_eq_getElem?] at hl
  obtain ⟨hj, hl⟩ := List.getElem?_eq_some_iff.1 hl
  rcases Nat.lt_or_ge i ((sortBids l).length - 1) with hij | hij
  · have := List.pairwise_iff_getElem.1 hp i _ hi hj hij
    rw [hl] at this
    have a := hv _ hb
    have c := hv _ hlm
    unfold bidLe at this
    simp only [Bool.or_eq_true, Bool.and_eq_true, decide_eq_true_eq, beq_iff_eq, a.1, a.2, c.1, c.2] at this
    omega
  · have : i = (sortBids l).length - 1 := by omega
    subst this
    rw [hl]
    exact Nat.le_refl _

namespace TwoViews

/-- Batches 1 and 2 were prepared in view 0; in view 1 only batch 1 was prepared
again before the view was left. -/
def vc : ViewChange := ⟨2, 0, sortBids [⟨1, 0, 1, 7⟩, ⟨0, 0, 2, 8⟩], sortBids [⟨1, 0, 1, 7⟩, ⟨1, 0, 2, 8⟩], [⟨0, 0, none⟩]⟩
def nv : NewView := ⟨2, [(0, 2), (2, 2), (3, 2)], ⟨0, 0, none⟩, [⟨0, 0, 2, 8⟩, ⟨1, 0, 1, 7⟩], none⟩
def cfg : Cfg := { Repeated.cfg with name := 0 }
def evs : List Event := [.need 1 [⟨0, 0, 1, 7⟩, ⟨0, 0, 2, 8⟩] [⟨0, 0, 1, 7⟩, ⟨0, 0, 2, 8⟩],
  .need 2 [⟨1, 0, 1, 7⟩] [⟨1, 0, 1, 7⟩, ⟨1, 0, 2, 8⟩], .viewChange vc 2, .viewChange vc 3, .newView nv 2]

end TwoViews

/-- **C60 does not hold of the code.** `calc_batches` sorts by view first, so the
last batch need not have the highest sequence number: a NEW_VIEW with batches 1
and 2 is accepted and the prepared certificate is set to 1. All VIEW_CHANGEs are
honest. -/
theorem C60_certificate_below_batch : ∃ (cfg : Cfg) (evs : List Event) (nv : NewView),
    (run cfg evs).accepted = [nv] ∧ ∃ b ∈ nv.batches, (run cfg evs).prevViewPrepareCert < b.ppSeqNo :=
  ⟨TwoViews.cfg, TwoViews.evs, TwoViews.nv, by decide, ⟨0, 0, 2, 8⟩, by decide, by decide⟩

example : (2 : Nat) ≤ 2 :=
  C60_certificate_highest_partial (Quorums.ofN 4) 300 ⟨0, 0, none⟩
    (List.replicate 3 ⟨1, 0, [⟨0, 0, 1, 7⟩, ⟨0, 0, 2, 8⟩], [⟨0, 0, 1, 7⟩, ⟨0, 0, 2, 8⟩], [⟨0, 0, none⟩]⟩)
    [⟨0, 0, 1, 7⟩, ⟨0, 0, 2, 8⟩] (by decide) 0 0 (by decide) ⟨0, 0, 2, 8⟩ rfl ⟨0, 0, 2, 8⟩ (by decide)

/-! ## C61 -/

/-- **C61**, for exactly `n - f` VIEW_CHANGEs: the batches computed do not depend
on the order in which they came. Missing for the full claim: with more of them
the order matters (`C61_order_matters`). -/
theorem C61_order_irrelevant_partial (n logSize : Nat) (cp : Checkpoint) (vcs vcs' : List ViewChange)
    (hl : vcs.length = n - getMaxFailures n) (hp : vcs.Perm vcs') :
    calcBatches (Quorums.ofN n) logSize cp vcs = calcBatches (Quorums.ofN n) logSize cp vcs' := by
  unfold calcBatches
  rw [batchLoop_perm hl hp]

namespace Order

def d0 : BatchID := ⟨0, 0, 1, 7⟩
def d1 : BatchID := ⟨1, 0, 1, 7⟩

def mk (name : Node) : Cfg where
  name := name
  n := 4
  primary := fun v => v % 4
  vd := fun vc => (vc.prepared.map (fun b => b.viewNo + 1)).sum
  logSize := 300

/-- Node 0 prepared the batch again in view 1, node 3 only pre-prepared it
again; nodes 1 (Byzantine) and 2 did neither. -/
def vcA : ViewChange := ⟨2, 0, [d1], [d1], [⟨0, 0, none⟩]⟩
def vcB : ViewChange := ⟨2, 0, [d0], [d0], [⟨0, 0, none⟩]⟩
def vcD : ViewChange := ⟨2, 0, [d0], [d1], [⟨0, 0, none⟩]⟩

/-- The run of node 2, the honest primary of view 2. -/
def evsP : List Event := [.need 2 [d0] [d0], .ack 2 2 1 0, .ack 2 2 1 3,
  .viewChange vcA 0, .ack 2 0 2 3, .viewChange vcB 1, .ack 2 1 1 0, .viewChange vcD 3, .ack 2 3 1 0]

def nv : NewView := ⟨2, [(0, 2), (1, 1), (2, 1), (3, 1)], ⟨0, 0, none⟩, [d0], none⟩

/-- The run of node 0. -/
def evs0 : List Event := [.need 2 [d1] [d1], .viewChange vcB 1, .viewChange vcB 2, .viewChange vcD 3, .newView nv 2]

end Order

/-- **C61 does not hold of the code.** The primary computes the batches from the
VIEW_CHANGEs in their order of arrival but lists them by name, and the others
compute in the order listed. One Byzantine node of four, the primary is honest:
node 0 has all the VIEW_CHANGEs the primary used, and does not accept its
NEW_VIEW. -/
theorem C61_order_matters : ∃ (p x : Cfg) (evsP evsX : List Event) (nv : NewView),
    p.name = p.primary nv.viewNo ∧ p.name ≠ x.name ∧ x.n = p.n ∧ x.primary = p.primary ∧ x.vd = p.vd ∧ x.logSize = p.logSize ∧
    nv ∈ (run p evsP).sentNV ∧ .newView nv p.name ∈ evsX ∧
    (∀ e ∈ nv.viewChanges, ((run p evsP).votes.getViewChange p.vd e.1 e.2).isSome ∧
      (run x evsX).votes.getViewChange x.vd e.1 e.2 = (run p evsP).votes.getViewChange p.vd e.1 e.2) ∧
    (run x evsX).accepted = [] ∧ (run x evsX).waiting = true :=
  ⟨Order.mk 2, Order.mk 0, Order.evsP, Order.evs0, Order.nv, rfl, by decide, rfl, rfl, rfl, rfl, by decide,
    by simp [Order.evs0, Order.mk], by decide, by decide, by decide⟩

example : calcBatches (Quorums.ofN 4) 300 ⟨0, 0, none⟩ [Order.vcA, Order.vcD, Order.vcB] =
    calcBatches (Quorums.ofN 4) 300 ⟨0, 0, none⟩ [Order.vcB, Order.vcD, Order.vcA] :=
  C61_order_irrelevant_partial 4 300 ⟨0, 0, none⟩ _ _ rfl (by decide)

example : calcBatches (Quorums.ofN 4) 300 ⟨0, 0, none⟩ [Order.vcA, Order.vcD, Order.vcB] = some [Order.d1] := by decide

/-! ## C62 -/

/-- **C62**, if no other node sends the primary's NEW_VIEW too: the first NEW_VIEW
of the primary, found valid, is accepted as soon as the VIEW_CHANGEs it names are
there. Missing for the full claim: copies sent by other nodes
(`C62_copy_blocks`). -/
theorem C62_finishes_partial (cfg : Cfg) (s : Service) (nv : NewView) (vcs : List ViewChange)
    (hw : s.validate nv.viewNo = .process) (hn : s.newViews.newView = none) (hv : s.newViews.votes = [])
    (hp : nv.primary = none)
    (hm : nv.viewChanges.mapM (fun e => s.votes.getViewChange cfg.vd e.1 e.2) = some vcs)
    (hc : calcCheckpoint (Quorums.ofN cfg.n) vcs = some nv.checkpoint)
    (hb : calcBatches (Quorums.ofN cfg.n) cfg.logSize nv.checkpoint vcs = some nv.batches) :
    (s.processNewView cfg nv s.primaryName).waiting = false ∧
    (s.processNewView cfg nv s.primaryName).accepted = s.accepted ++ [nv] := by
  have hg : (s.newViews.add (Quorums.ofN cfg.n) nv s.primaryName).get s.primaryName = some nv := by
    unfold NewViewVotes.add NewViewVotes.get
    simp only [hv, hn, Dict.get?_nil, Option.getD_none, List.not_mem_nil, if_false, List.nil_append, Dict.set]
    by_cases h : (Quorums.ofN cfg.n).strong.isReached [s.primaryName].length = true
    · simp only [h, if_true]
    · simp only [h]
      simp [hp]
  unfold Service.processNewView Service.finishIfNeeded Service.finish
  simp only [hw, ne_eq, not_true, if_false, hg, hm, hc, hb, and_self]

namespace Copy

open Repeated

def evs1 : List Event := [.need 1 [b] [b], .viewChange vc 1]
def evs2 : List Event := [.newView good 1, .viewChange vc2 2, .viewChange vc2 3]

end Copy

/-- **C62 does not hold of the code.** `get_new_view` takes a NEW_VIEW from the
primary only if nobody else sent the same one (or `n - f` nodes did): a copy
sent by one Byzantine node keeps an honest node from accepting a valid NEW_VIEW
that it otherwise accepts. -/
theorem C62_copy_blocks : ∃ (cfg : Cfg) (evs1 evs2 : List Event) (nv : NewView) (w : Node), cfg.n = 4 ∧
    w ≠ cfg.primary nv.viewNo ∧
    nv ∈ (run cfg (evs1 ++ evs2)).accepted ∧
    (run cfg (evs1 ++ [.newView nv w] ++ evs2)).accepted = [] ∧
    (run cfg (evs1 ++ [.newView nv w] ++ evs2)).waiting = true :=
  ⟨Repeated.cfg, Copy.evs1, Copy.evs2, Repeated.good, 3, rfl, by decide, by decide, by decide, by decide⟩

open Repeated in
example : ((run cfg [.need 1 [b] [b], .viewChange vc 1, .viewChange vc2 2]).processNewView cfg good 1).waiting = false :=
  (C62_finishes_partial cfg (run cfg [.need 1 [b] [b], .viewChange vc 1, .viewChange vc2 2]) good
    [vc2, vc, vc2] (by decide) (by decide) (by decide) rfl (by decide) (by decide) (by decide)).1

/-! ## C63 -/

/-- What a view may start from: `n - f` VIEW_CHANGEs list the checkpoint, and
`n - f` have not stabilized a later one. -/
def Startable (n : Nat) (vcs : List ViewChange) (cp : Checkpoint) : Prop :=
  n - getMaxFailures n ≤ vcs.countP (fun vc => vc.stableCheckpoint ≤ cp.seqNoEnd) ∧
  n - getMaxFailures n ≤ vcs.countP (fun vc => cp ∈ vc.checkpoints)

theorem cpCandidate_iff (n : Nat) (vcs : List ViewChange) (cp : Checkpoint) :
    cpCandidate (Quorums.ofN n) vcs cp = true ↔ Startable n vcs cp := by
  unfold cpCandidate Startable
  simp only [Bool.and_eq_true, Quorum.isReached, Quorums.ofN, ge_iff_le, decide_eq_true_eq, witnesses,
    List.countP_eq_length_filter]
  simp

theorem highest_isSome {m : Option Checkpoint} {l : List Checkpoint} (h : m.isSome ∨ l ≠ []) :
    (highest m l).isSome := by
  induction l generalizing m with
  | nil => cases m <;> simp_all [highest]
  | cons a l ih =>
    cases m with
    | none => exact ih (.inl rfl)
    | some b => exact ih (.inl (by split <;> rfl))

/-- **C63.** The checkpoint computed from VIEW_CHANGEs is listed by `n - f` of
them, not below the stable checkpoint of `n - f` of them, and no other such
checkpoint ends later; and if there is such a checkpoint at all, one is found. -/
theorem C63_checkpoint_chosen (n : Nat) (hn : 0 < n) (vcs : List ViewChange) :
    (∀ cp, calcCheckpoint (Quorums.ofN n) vcs = some cp →
      Startable n vcs cp ∧ ∀ cp', Startable n vcs cp' → cp'.seqNoEnd ≤ cp.seqNoEnd) ∧
    ((∃ cp, Startable n vcs cp) → ∃ cp, calcCheckpoint (Quorums.ofN n) vcs = some cp) := by
  have key : ∀ cp', Startable n vcs cp' →
      cp' ∈ (vcs.flatMap (·.checkpoints)).filter (cpCandidate (Quorums.ofN n) vcs) := by
    intro cp' h
    refine List.mem_filter.2 ⟨?_, (cpCandidate_iff n vcs cp').2 h⟩
    have hp : 0 < n - getMaxFailures n := by unfold getMaxFailures; split <;> omega
    obtain ⟨vc, hvc, hc⟩ := List.countP_pos_iff.1 (Nat.lt_of_lt_of_le hp h.2)
    exact List.mem_flatMap.2 ⟨vc, hvc, of_decide_eq_true hc⟩
  refine ⟨fun cp h => ⟨(cpCandidate_iff n vcs cp).1 (calcCheckpoint_some h).1, fun cp' h' => ?_⟩, fun ⟨cp, h⟩ => ?_⟩
  · exact (highest_max h).2 cp' (key cp' h')
  · exact Option.isSome_iff_exists.1 (highest_isSome (.inr (List.ne_nil_of_mem (key cp h))))

/-- **C63**, seen from the honest nodes: if at most `f` of the VIEW_CHANGEs are
not from honest nodes, at least `n - 2f` honest nodes hold the checkpoint. -/
theorem C63_honest_holders (n : Nat) (nvs : List (Node × ViewChange)) (honest : Node → Bool)
    (hf : nvs.countP (fun e => !honest e.1) ≤ getMaxFailures n) (cp : Checkpoint)
    (h : calcCheckpoint (Quorums.ofN n) (nvs.map Prod.snd) = some cp) :
    n - 2 * getMaxFailures n ≤ nvs.countP (fun e => honest e.1 && decide (cp ∈ e.2.checkpoints)) := by
  have h2 := ((cpCandidate_iff n _ cp).1 (calcCheckpoint_some h).1).2
  rw [List.countP_map] at h2
  have : ∀ l : List (Node × ViewChange), l.countP ((fun vc : ViewChange => decide (cp ∈ vc.checkpoints)) ∘ Prod.snd) ≤
      l.countP (fun e => honest e.1 && decide (cp ∈ e.2.checkpoints)) + l.countP (fun e => !honest e.1) := by
    intro l
    induction l with
    | nil => simp
    | cons e l ih =>
      simp only [List.countP_cons, Function.comp_apply]
      cases honest e.1 <;> by_cases hc : cp ∈ e.2.checkpoints <;> simp [hc] <;> omega
  have := this nvs
  omega

/-- Three of four nodes hold a checkpoint at 100, one also a later one. -/
example : calcCheckpoint (Quorums.ofN 4) [⟨1, 0, [], [], [⟨0, 0, none⟩, ⟨0, 100, some 5⟩]⟩,
    ⟨1, 0, [], [], [⟨0, 0, none⟩, ⟨0, 100, some 5⟩]⟩, ⟨1, 100, [], [], [⟨0, 100, some 5⟩, ⟨0, 200, some 6⟩]⟩] =
    some ⟨0, 100, some 5⟩ := by decide

example : Startable 4 [⟨1, 0, [], [], [⟨0, 0, none⟩, ⟨0, 100, some 5⟩]⟩,
    ⟨1, 0, [], [], [⟨0, 0, none⟩, ⟨0, 100, some 5⟩]⟩, ⟨1, 100, [], [], [⟨0, 100, some 5⟩, ⟨0, 200, some 6⟩]⟩]
    ⟨0, 100, some 5⟩ := by unfold Startable; decide

end Verif.Props
