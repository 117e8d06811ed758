import Verif.Spec.MsgReq
import Verif.Proofs.Count
/-!
# Messages obtained by request (C52, C59, C75)
-/
namespace Verif.Props
open Verif Verif.MsgReq Verif.Spec.MsgReq

variable {Vc : Type}

theorem mr_run_snoc (digest : Vc → Nat) (sfx : Bytes) (d : Data) (evs : List (Ev Vc)) (e : Ev Vc) :
    run digest sfx d (evs ++ [e]) = (step digest sfx (run digest sfx d evs) e).1 := by
  unfold run; rw [List.foldl_append]; rfl

theorem current_snoc (evs : List (Ev Vc)) {e : Ev Vc} (h : e ≠ .viewChangeStarted) : current (evs ++ [e]) = current evs ++ [e] := by
  unfold current
  rw [List.foldl_append]
  simp only [List.foldl_cons, List.foldl_nil]

theorem current_vc (evs : List (Ev Vc)) : current (evs ++ [Ev.viewChangeStarted]) = [] := by
  unfold current
  rw [List.foldl_append]; rfl

/-- The events behind what is stored. -/
structure MrInv (digest : Vc → Nat) (sfx : Bytes) (evs : List (Ev Vc)) (s : State) : Prop where
  req : ∀ k key stash, (s.req k).get? key = some stash → Ev.missing3pc k key stash ∈ evs
  vc : ∀ name d, (name, d) ∈ s.reqVC → Ev.missingVC name d ∈ evs
  nv : ∀ v, v ∈ s.reqNV → Ev.missingNV v ∈ evs
  received : ∀ name d l, s.received.get? (name, d) = some l → l.Nodup ∧ ∀ frm ∈ l, ∃ node vc,
    frm = replicaName sfx node ∧ digest vc = d ∧ Ev.reply node (.viewChange (some name) (some d) (some vc)) ∈ evs

theorem MrInv.mono {digest : Vc → Nat} {sfx : Bytes} {evs : List (Ev Vc)} {s : State} (h : MrInv digest sfx evs s) (e : Ev Vc) :
    MrInv digest sfx (evs ++ [e]) s := by
  refine ⟨fun k key st hg => ?_, fun n d hg => ?_, fun v hg => ?_, fun n d l hg => ?_⟩
  · exact List.mem_append_left _ (h.req k key st hg)
  · exact List.mem_append_left _ (h.vc n d hg)
  · exact List.mem_append_left _ (h.nv v hg)
  · obtain ⟨h1, h2⟩ := h.received n d l hg
    refine ⟨h1, fun frm hf => ?_⟩
    obtain ⟨node, vc, a, b, c⟩ := h2 frm hf
    exact ⟨node, vc, a, b, List.mem_append_left _ c⟩

/-- Fewer requests are as good. -/
theorem MrInv.shrink {digest : Vc → Nat} {sfx : Bytes} {evs : List (Ev Vc)} {s s' : State} (h : MrInv digest sfx evs s)
    (h1 : ∀ k key st, (s'.req k).get? key = some st → (s.req k).get? key = some st) (h2 : ∀ x ∈ s'.reqVC, x ∈ s.reqVC)
    (h3 : ∀ x ∈ s'.reqNV, x ∈ s.reqNV) (h4 : s'.received = s.received) : MrInv digest sfx evs s' := by
  refine ⟨fun k key st hg => h.req k key st (h1 k key st hg), fun n d hg => h.vc n d (h2 _ hg), fun v hg => h.nv v (h3 _ hg), ?_⟩
  rw [h4]; exact h.received

theorem addReceived_inv {digest : Vc → Nat} {sfx : Bytes} {evs : List (Ev Vc)} {s : State} (h : MrInv digest sfx evs s)
    {name : Bytes} {node : Bytes} {vc : Vc} (hm : Ev.reply node (.viewChange (some name) (some (digest vc)) (some vc)) ∈ evs) :
    MrInv digest sfx evs (addReceived s (name, digest vc) (replicaName sfx node)) := by
  refine ⟨?_, h.vc, h.nv, ?_⟩
  · intro k key st hg
    refine h.req k key st ?_
    cases k <;> exact hg
  · intro n d l hg
    unfold addReceived at hg
    simp only [Dict.get?_set] at hg
    split at hg
    · next he =>
      cases he
      cases hg
      have hold : ((s.received.get? (name, digest vc)).getD []).Nodup ∧ ∀ frm ∈ (s.received.get? (name, digest vc)).getD [], ∃ node vc',
          frm = replicaName sfx node ∧ digest vc' = digest vc ∧
            Ev.reply node (.viewChange (some name) (some (digest vc)) (some vc')) ∈ evs := by
        cases hr : s.received.get? (name, digest vc) with
        | none => exact ⟨List.nodup_nil, fun frm hf => by simp at hf⟩
        | some l => exact h.received _ _ _ hr
      split
      · exact hold
      · next hc =>
        refine ⟨?_, fun frm hf => ?_⟩
        · rw [List.nodup_append]
          refine ⟨hold.1, by simp, ?_⟩
          intro a ha b hb e
          subst e
          rw [List.mem_singleton] at hb
          subst hb
          exact hc (by simpa using ha)
        · rcases List.mem_append.1 hf with hf | hf
          · exact hold.2 frm hf
          · rw [List.mem_singleton] at hf
            exact ⟨node, vc, hf, rfl, hm⟩
    · exact h.received n d l hg

theorem reply_inv {digest : Vc → Nat} {sfx : Bytes} {evs : List (Ev Vc)} {s : State} (h : MrInv digest sfx evs s)
    (node : Bytes) (rep : Rep Vc) (hm : Ev.reply node rep ∈ evs) :
    MrInv digest sfx evs (reply digest s (replicaName sfx node) rep).1 := by
  unfold reply
  split
  · split
    · exact h
    · split <;> exact h
  · exact h
  · next name d vc =>
    split
    · exact h
    · next hd =>
      have hd : some (digest vc) = d := Classical.not_not.1 hd
      subst hd
      unfold extractVC
      split
      · exact h
      · simp only
        have h1 := addReceived_inv h hm
        split
        · exact h1
        · refine h1.shrink (fun k key st hg => ?_) (fun x hx => (List.mem_filter.1 hx).1) (fun x hx => hx) rfl
          cases k <;> exact hg
  · exact h
  · split
    · exact h
    · split <;> exact h
  · exact h

theorem request_req (s : State) (k : Kind) (key : Key) (stash : Option Stash) (k' : Kind) (key' : Key) (st : Option Stash)
    (h : ((request3pc s k key stash).req k').get? key' = some st) :
    (s.req k').get? key' = some st ∨ k' = k ∧ key' = key ∧ st = stash := by
  unfold request3pc at h
  split at h
  · exact .inl h
  · cases k <;> cases k' <;> simp only [State.setReq, State.req] at h ⊢ <;>
      first
      | exact .inl h
      | (rw [Dict.get?_set] at h
         split at h
         · next e => cases h; exact .inr ⟨by trivial, e.symm, by trivial⟩
         · exact .inl h)

theorem mr_step_inv {digest : Vc → Nat} {sfx : Bytes} {evs : List (Ev Vc)} {s : State} (h : MrInv digest sfx (current evs) s)
    (e : Ev Vc) : MrInv digest sfx (current (evs ++ [e])) (step digest sfx s e).1 := by
  cases e with
  | missing3pc k key stash =>
    rw [current_snoc _ (by simp)]
    have hm := h.mono (.missing3pc k key stash)
    have hother : (request3pc s k key stash).reqVC = s.reqVC ∧ (request3pc s k key stash).reqNV = s.reqNV ∧
        (request3pc s k key stash).received = s.received := by
      unfold request3pc
      split
      · exact ⟨rfl, rfl, rfl⟩
      · cases k <;> exact ⟨rfl, rfl, rfl⟩
    refine ⟨fun k' key' st hg => ?_, fun n d hg => ?_, fun v hg => ?_, fun n d l hg => ?_⟩
    · rcases request_req s k key stash k' key' st hg with h1 | ⟨h1, h2, h3⟩
      · exact hm.req k' key' st h1
      · subst h1; subst h2; subst h3; simp
    · exact hm.vc n d (hother.1 ▸ hg)
    · exact hm.nv v (hother.2.1 ▸ hg)
    · exact hm.received n d l (hother.2.2 ▸ hg)
  | missingVC name d =>
    rw [current_snoc _ (by simp)]
    have hm := h.mono (.missingVC name d)
    unfold step
    simp only
    split
    · exact hm
    · refine ⟨fun k' key' st hg => hm.req k' key' st (by cases k' <;> exact hg), fun n d' hg => ?_, hm.nv, hm.received⟩
      rcases List.mem_append.1 hg with hg | hg
      · exact hm.vc n d' hg
      · rw [List.mem_singleton] at hg; cases hg; simp
  | missingNV v =>
    rw [current_snoc _ (by simp)]
    have hm := h.mono (.missingNV v)
    unfold step
    simp only
    split
    · exact hm
    · refine ⟨fun k' key' st hg => hm.req k' key' st (by cases k' <;> exact hg), hm.vc, fun v' hg => ?_, hm.received⟩
      rcases List.mem_append.1 hg with hg | hg
      · exact hm.nv v' hg
      · rw [List.mem_singleton] at hg; subst hg; simp
  | reply node rep =>
    rw [current_snoc _ (by simp)]
    exact reply_inv (h.mono _) node rep (by simp)
  | ordered key =>
    rw [current_snoc _ (by simp)]
    refine (h.mono _).shrink (fun k key' st hg => ?_) (fun x hx => hx) (fun x hx => hx) rfl
    cases k <;> simp only [step, State.mapReq, State.req, Dict.get?_erase] at hg ⊢ <;> split at hg <;>
      first | cases hg | exact hg
  | viewChangeStarted =>
    rw [current_vc]
    refine ⟨fun k key st hg => ?_, fun n d hg => ?_, fun v hg => ?_, fun n d l hg => ?_⟩
    · cases k <;> cases hg
    · cases hg
    · cases hg
    · cases hg
  | stable key =>
    rw [current_snoc _ (by simp)]
    refine (h.mono _).shrink (fun k key' st hg => ?_) (fun x hx => hx) (fun x hx => hx) rfl
    cases k <;> simp only [step, State.mapReq, State.req] at hg ⊢ <;>
      (rw [Dict.get?_filter _ (fun x => !notLess x key)] at hg
       split at hg
       · exact hg
       · cases hg)
  | data d =>
    rw [current_snoc _ (by simp)]
    exact (h.mono _).shrink (fun k key' st hg => by cases k <;> exact hg) (fun x hx => hx) (fun x hx => hx) rfl

theorem mr_inv (digest : Vc → Nat) (sfx : Bytes) (d : Data) (evs : List (Ev Vc)) :
    MrInv digest sfx (current evs) (run digest sfx d evs) := by
  induction evs using snoc_induction with
  | nil =>
    refine ⟨fun k key st hg => ?_, fun n d hg => ?_, fun v hg => ?_, fun n d l hg => ?_⟩
    · cases k <;> cases hg
    · cases hg
    · cases hg
    · cases hg
  | snoc evs e ih => rw [mr_run_snoc]; exact mr_step_inv ih e

theorem replicaName_inj {sfx a b : Bytes} (h : replicaName sfx a = replicaName sfx b) : a = b :=
  List.append_cancel_right h

/-- The nodes behind distinct replica names. -/
theorem nodes_of {sfx : Bytes} {P : Bytes → Prop} (l : List Bytes) (hn : l.Nodup) (h : ∀ frm ∈ l, ∃ node, frm = replicaName sfx node ∧ P node) :
    ∃ S : List Bytes, S.Nodup ∧ S.length = l.length ∧ ∀ x ∈ S, replicaName sfx x ∈ l ∧ P x := by
  induction l with
  | nil => exact ⟨[], List.nodup_nil, rfl, fun x hx => by simp at hx⟩
  | cons a l ih =>
    rw [List.nodup_cons] at hn
    obtain ⟨S, h1, h2, h3⟩ := ih hn.2 fun frm hf => h frm (List.mem_cons_of_mem _ hf)
    obtain ⟨node, e, hp⟩ := h a List.mem_cons_self
    refine ⟨node :: S, ?_, by simp [h2], fun x hx => ?_⟩
    · rw [List.nodup_cons]
      exact ⟨fun hm => hn.1 (e ▸ (h3 node hm).1), h1⟩
    · rcases List.mem_cons.1 hx with hx | hx
      · subst hx; exact ⟨by rw [e]; exact List.mem_cons_self, hp⟩
      · exact ⟨List.mem_cons_of_mem _ (h3 x hx).1, (h3 x hx).2⟩

/-- Only a matching reply brings a VIEW_CHANGE. -/
theorem reply_vc {digest : Vc → Nat} {s : State} {frm : Bytes} {rep : Rep Vc} {vc : Vc} {name : Bytes}
    (h : (reply digest s frm rep).2 = some (.viewChange vc name)) :
    rep = .viewChange (some name) (some (digest vc)) (some vc) ∧ (extractVC s name (digest vc) vc frm).2 = some (.viewChange vc name) := by
  unfold reply at h
  split at h
  · split at h
    · cases h
    · split at h <;> cases h
  · cases h
  · next name' d vc' =>
    split at h
    · cases h
    · next hd =>
      have hd : some (digest vc') = d := Classical.not_not.1 hd
      subst hd
      have h0 := h
      unfold extractVC at h
      split at h
      · cases h
      · simp only at h
        split at h
        · cases h
        · cases h; exact ⟨rfl, h0⟩
  · cases h
  · split at h
    · cases h
    · split at h <;> cases h
  · cases h

/-- **C52**. Whatever happened before, if a reply makes a node process a VIEW_CHANGE as
sent by `name`, then it had asked for it since the view change started; and the reply is
by `name` itself, or f+1 different nodes replied with the message in that time. -/
theorem vc_attribution (digest : Vc → Nat) (sfx : Bytes) (d : Data) (evs : List (Ev Vc)) (node : Bytes) (rep : Rep Vc) (vc : Vc)
    (name : Bytes) (h : (step digest sfx (run digest sfx d evs) (.reply node rep)).2 = some (.viewChange vc name)) :
    Ev.missingVC name (digest vc) ∈ current evs ∧
    (name = node ++ 58 :: sfx ∧ RepliedVC digest (current (evs ++ [.reply node rep])) node name vc ∨
     ∃ S : List Bytes, S.Nodup ∧ S.length ≥ getMaxFailures (run digest sfx d evs).data.n + 1 ∧
       ∀ x ∈ S, RepliedVC digest (current (evs ++ [.reply node rep])) x name vc) := by
  have hinv := mr_inv digest sfx d evs
  obtain ⟨hrep, hx⟩ := reply_vc (s := run digest sfx d evs) (frm := replicaName sfx node) h
  have hcur : current (evs ++ [Ev.reply node rep]) = current evs ++ [Ev.reply node rep] := current_snoc _ (by simp)
  have hlast : Ev.reply node (.viewChange (some name) (some (digest vc)) (some vc)) ∈ current (evs ++ [Ev.reply node rep]) := by
    rw [hcur, hrep]; simp
  unfold extractVC at hx
  split at hx
  · cases hx
  · next hreq =>
    have hreq : (name, digest vc) ∈ (run digest sfx d evs).reqVC := by simpa using hreq
    refine ⟨hinv.vc _ _ hreq, ?_⟩
    simp only at hx
    split at hx
    · cases hx
    · next hq =>
      rw [Bool.and_eq_true] at hq
      by_cases hname : replicaName sfx node = name
      · exact .inl ⟨hname.symm, vc, hlast, .inl rfl⟩
      · right
        have hreach : (Quorums.ofN (addReceived (run digest sfx d evs) (name, digest vc) (replicaName sfx node)).data.n).weak.isReached
            (((addReceived (run digest sfx d evs) (name, digest vc) (replicaName sfx node)).received.get? (name, digest vc)).getD []).length = true := by
          cases hr : (Quorums.ofN (addReceived (run digest sfx d evs) (name, digest vc) (replicaName sfx node)).data.n).weak.isReached
            (((addReceived (run digest sfx d evs) (name, digest vc) (replicaName sfx node)).received.get? (name, digest vc)).getD []).length with
          | true => rfl
          | false => exact absurd ⟨by rw [hr]; rfl, by simpa using hname⟩ hq
        have hinv2 : MrInv digest sfx (current (evs ++ [Ev.reply node rep]))
            (addReceived (run digest sfx d evs) (name, digest vc) (replicaName sfx node)) := by
          refine addReceived_inv ?_ hlast
          rw [hcur]; exact hinv.mono _
        cases hl : (addReceived (run digest sfx d evs) (name, digest vc) (replicaName sfx node)).received.get? (name, digest vc) with
        | none =>
          rw [hl] at hreach
          simp [Quorum.isReached, Quorums.ofN] at hreach
        | some l =>
          rw [hl] at hreach
          obtain ⟨hn, hb⟩ := hinv2.received _ _ _ hl
          obtain ⟨S, h1, h2, h3⟩ := nodes_of (P := fun x => RepliedVC digest (current (evs ++ [.reply node rep])) x name vc) l hn
            (fun frm hf => by
              obtain ⟨x, vc', e1, e2, e3⟩ := hb frm hf
              refine ⟨x, e1, vc', e3, ?_⟩
              by_cases e : vc' = vc
              · exact .inl e
              · exact .inr ⟨e, e2⟩)
          refine ⟨S, h1, ?_, fun x hx => (h3 x hx).2⟩
          rw [h2]
          simpa [Quorum.isReached, Quorums.ofN, addReceived] using hreach

/-- **C75**, three-phase messages: a reply brings one only if it was asked for since the
view change started and not received since, with the digest and roots asked for, if
any, and not yet ordered. It is processed as sent by the replica that replied. -/
theorem reply_3pc_requested (digest : Vc → Nat) (sfx : Bytes) (d : Data) (evs : List (Ev Vc)) (node : Bytes) (rep : Rep Vc) (k : Kind)
    (m : Msg) (frm : Bytes) (h : (step digest sfx (run digest sfx d evs) (.reply node rep)).2 = some (.threePc k m frm)) :
    frm = node ++ 58 :: sfx ∧ rep = .threePc k (some m.inst) (some m.viewNo) (some m.seqNo) (some m) ∧
    (∃ stash, Ev.missing3pc k (m.viewNo, m.seqNo) stash ∈ current evs ∧ Fits m stash) ∧
    (run digest sfx d evs).data.lastOrdered.2 < m.seqNo ∧
    (k = .prePrepare → (m.viewNo, m.seqNo) ∉ (run digest sfx d evs).data.preprepared) := by
  have hinv := mr_inv digest sfx d evs
  revert h
  generalize run digest sfx d evs = s at hinv
  intro h
  unfold step reply at h
  simp only at h
  split at h
  · next k' inst v q m' =>
    split at h
    · cases h
    · next hp =>
      split at h
      · next hv =>
        cases h
        have hp : some m.inst = inst ∧ some m.viewNo = v ∧ some m.seqNo = q := by
          refine ⟨Classical.not_not.1 fun e => hp (.inl e), Classical.not_not.1 fun e => hp (.inr (.inl e)),
            Classical.not_not.1 fun e => hp (.inr (.inr e))⟩
        refine ⟨rfl, by rw [hp.1, hp.2.1, hp.2.2], ?_⟩
        unfold valid3pc at hv
        split at hv
        · cases hv
        · next stash hs =>
          rw [Bool.and_eq_true, Bool.and_eq_true] at hv
          refine ⟨⟨stash, hinv.req _ _ _ hs, ?_⟩, ?_, fun hk => ?_⟩
          · have := hv.1.2
            split at this
            · exact trivial
            · next st =>
              rw [Bool.and_eq_true] at this
              obtain ⟨a, b, c⟩ := st
              have := of_decide_eq_true this.2
              simp only [Prod.mk.injEq] at this
              exact this
          · have := hv.1.1
            simp only [notLess, Bool.not_eq_true', decide_eq_false_iff_not] at this
            omega
          · have := hv.2
            simpa [hk] using this
      · cases h
  · cases h
  · split at h
    · cases h
    · unfold extractVC at h
      split at h
      · cases h
      · simp only at h
        split at h <;> cases h
  · cases h
  · split at h
    · cases h
    · split at h <;> cases h
  · cases h

/-- **C75**, NEW_VIEW: a reply brings one only if it was asked for since the view change
started, there is none yet, and its view is not over. -/
theorem reply_nv_requested (digest : Vc → Nat) (sfx : Bytes) (d : Data) (evs : List (Ev Vc)) (node : Bytes) (rep : Rep Vc) (nv : Nv)
    (frm : Bytes) (h : (step digest sfx (run digest sfx d evs) (.reply node rep)).2 = some (.newView nv frm)) :
    frm = node ++ 58 :: sfx ∧ rep = .newView (some nv.viewNo) (some nv) ∧ Ev.missingNV nv.viewNo ∈ current evs ∧
    (run digest sfx d evs).data.newView = false ∧ (run digest sfx d evs).data.viewNo ≤ nv.viewNo := by
  have hinv := mr_inv digest sfx d evs
  revert h
  generalize run digest sfx d evs = s at hinv
  intro h
  unfold step reply at h
  simp only at h
  split at h
  · split at h
    · cases h
    · split at h <;> cases h
  · cases h
  · split at h
    · cases h
    · unfold extractVC at h
      split at h
      · cases h
      · simp only at h
        split at h <;> cases h
  · cases h
  · next v nv' =>
    split at h
    · cases h
    · next hp =>
      split at h
      · next hv =>
        cases h
        have hp : some nv.viewNo = v := Classical.not_not.1 hp
        subst hp
        unfold validNV at hv
        rw [Bool.and_eq_true, Bool.and_eq_true] at hv
        refine ⟨rfl, rfl, hinv.nv _ (by simpa using hv.1.2), by simpa using hv.1.1, by simpa using hv.2⟩
      · cases h
  · cases h

/-- The converse for three-phase messages: what was asked for is taken. -/
theorem reply_3pc_taken (digest : Vc → Nat) (sfx : Bytes) (s : State) (node : Bytes) (k : Kind) (m : Msg) (stash : Option Stash)
    (hs : (s.req k).get? (m.viewNo, m.seqNo) = some stash) (hf : Fits m stash) (hk : k = .commit → stash = none)
    (ho : s.data.lastOrdered.2 < m.seqNo) (hp : k = .prePrepare → (m.viewNo, m.seqNo) ∉ s.data.preprepared) :
    (step digest sfx s (.reply node (.threePc k (some m.inst) (some m.viewNo) (some m.seqNo) (some m)))).2 =
      some (Out.threePc k m (node ++ 58 :: sfx) : Out Vc) := by
  unfold step reply
  have hv : valid3pc s k m = true := by
    unfold valid3pc
    rw [hs]
    simp only
    rw [Bool.and_eq_true, Bool.and_eq_true]
    refine ⟨⟨?_, ?_⟩, ?_⟩
    · simp only [notLess, Bool.not_eq_true', decide_eq_false_iff_not]; omega
    · cases stash with
      | none => rfl
      | some st =>
        obtain ⟨a, b, c⟩ := st
        obtain ⟨h1, h2, h3⟩ := hf
        have : k ≠ .commit := fun e => by cases hk e
        simp [this, h1, h2, h3]
    · by_cases e : k = .prePrepare
      · simpa [e] using hp e
      · simp [e]
  simp only [hv, ne_eq, not_true, or_self, if_false, if_true]
  rfl

theorem addReceived_mem (s : State) (key : Bytes × Nat) (frm : Bytes) :
    frm ∈ ((addReceived s key frm).received.get? key).getD [] ∧
    ∀ x ∈ (s.received.get? key).getD [], x ∈ ((addReceived s key frm).received.get? key).getD [] := by
  unfold addReceived
  simp only [Dict.get?_set, if_true, Option.getD_some]
  split
  · next h => exact ⟨by simpa using h, fun x hx => hx⟩
  · exact ⟨by simp, fun x hx => List.mem_append_left _ hx⟩

theorem vc_delivered_aux (digest : Vc → Nat) (sfx : Bytes) (name : Bytes) (vc : Vc) (rest : List Bytes) :
    ∀ (s : State) (done : List Bytes), (name, digest vc) ∈ s.reqVC →
      (∀ x ∈ done, replicaName sfx x ∈ (s.received.get? (name, digest vc)).getD []) → (done ++ rest).Nodup →
      (done ++ rest).length ≥ getMaxFailures s.data.n + 1 → rest ≠ [] →
      Out.viewChange vc name ∈
        outputs digest sfx s (rest.map fun x => Ev.reply x (.viewChange (some name) (some (digest vc)) (some vc))) := by
  induction rest with
  | nil => intro s done _ _ _ _ h; exact absurd rfl h
  | cons x rest ih =>
    intro s done hreq hdone hn hlen _
    simp only [List.map_cons, outputs]
    rw [List.mem_append]
    have hstep : step digest sfx s (.reply x (.viewChange (some name) (some (digest vc)) (some vc))) =
        extractVC s name (digest vc) vc (replicaName sfx x) := by
      unfold step reply; simp
    rw [hstep]
    obtain ⟨hm1, hm2⟩ := addReceived_mem s (name, digest vc) (replicaName sfx x)
    have hcontains : s.reqVC.contains (name, digest vc) = true := by simpa using hreq
    unfold extractVC
    rw [hcontains]
    simp only [Bool.not_true, Bool.false_eq_true, if_false]
    split
    · next hq =>
      right
      simp only
      rw [Bool.and_eq_true] at hq
      have hdone' : ∀ y ∈ done ++ [x], replicaName sfx y ∈
          ((addReceived s (name, digest vc) (replicaName sfx x)).received.get? (name, digest vc)).getD [] := by
        intro y hy
        rcases List.mem_append.1 hy with hy | hy
        · exact hm2 _ (hdone y hy)
        · rw [List.mem_singleton] at hy; subst hy; exact hm1
      refine ih _ (done ++ [x]) hreq hdone' (by simpa using hn) ?_ ?_
      · show _ ≥ getMaxFailures s.data.n + 1
        simpa using hlen
      intro hr
      subst hr
      have hnn : ((done ++ [x]).map (replicaName sfx)).Nodup :=
        List.Pairwise.map _ (fun a b hab e => hab (replicaName_inj e)) hn
      have hle := length_le_of_subset hnn (B := ((addReceived s (name, digest vc) (replicaName sfx x)).received.get? (name, digest vc)).getD [])
        (fun y hy => by obtain ⟨z, hz, e⟩ := List.mem_map.1 hy; subst e; exact hdone' z hz)
      rw [List.length_map] at hle
      have h1 := hq.1
      simp only [Quorum.isReached, Quorums.ofN, Bool.not_eq_true', decide_eq_false_iff_not, ge_iff_le] at h1
      have h2 : (addReceived s (name, digest vc) (replicaName sfx x)).data.n = s.data.n := rfl
      rw [h2] at h1
      exact h1 (Nat.le_trans hlen hle)
    · left
      simp

/-- A VIEW_CHANGE that was asked for is processed, if f+1 different nodes reply with
it. -/
theorem vc_delivered (digest : Vc → Nat) (sfx : Bytes) (s : State) (name : Bytes) (vc : Vc) (h : (name, digest vc) ∈ s.reqVC)
    (nodes : List Bytes) (hn : nodes.Nodup) (hl : nodes.length ≥ getMaxFailures s.data.n + 1) :
    Out.viewChange vc name ∈
      outputs digest sfx s (nodes.map fun x => Ev.reply x (.viewChange (some name) (some (digest vc)) (some vc))) := by
  refine vc_delivered_aux digest sfx name vc nodes s [] h (by simp) hn hl ?_
  intro e; subst e; simp at hl

/-- The case of a node that replies with its own VIEW_CHANGE does not arise: the name in
the request is the node's, the name of the sender is its replica's. Its reply counts as
any other. -/
theorem vc_own_reply_no_shortcut (digest : Vc → Nat) (sfx : Bytes) (s : State) (node : Bytes) (vc : Vc)
    (hr : s.received.get? (node, digest vc) = none) (hf : getMaxFailures s.data.n ≥ 1) :
    (step digest sfx s (.reply node (.viewChange (some node) (some (digest vc)) (some vc)))).2 = none := by
  unfold step reply
  simp only [ne_eq, not_true, if_false]
  unfold extractVC
  split
  · rfl
  · simp only
    rw [if_pos]
    rw [Bool.and_eq_true]
    constructor
    · unfold addReceived
      simp only [Dict.get?_set, if_true, Option.getD_some, hr, Option.getD_none, Quorum.isReached, Quorums.ofN]
      simp
      omega
    · simp only [decide_eq_true_eq]
      intro e
      have := congrArg List.length e
      simp [replicaName] at this

/-! ## Answers to requests for COMMITs -/

theorem addCommit_other (d : Dict Key Votes) (c : Cm) (v : Nat) (key : Key) (h : (c.viewNo, c.seqNo) ≠ key) :
    (addCommit d c v).get? key = d.get? key := by
  unfold addCommit
  split <;> rw [Dict.get?_set, if_neg h]

theorem commitsOf_snoc (l : List (Cm × Nat)) (e : Cm × Nat) : commitsOf (l ++ [e]) = addCommit (commitsOf l) e.1 e.2 := by
  unfold commitsOf; rw [List.foldl_append]; rfl

/-- What is stored for a key: the first COMMIT for it, and its voters. -/
theorem commitsOf_get (l : List (Cm × Nat)) (key : Key) :
    ((commitsOf l).get? key = none ∧ ∀ e ∈ l, (e.1.viewNo, e.1.seqNo) ≠ key) ∨
    ∃ v, (commitsOf l).get? key = some v ∧ (l.find? (fun e => (e.1.viewNo, e.1.seqNo) = key)).map (·.1) = some v.msg ∧
      ∀ x, x ∈ v.voters ↔ ∃ e ∈ l, (e.1.viewNo, e.1.seqNo) = key ∧ e.2 = x := by
  induction l using snoc_induction with
  | nil => exact .inl ⟨rfl, by simp⟩
  | snoc l e ih =>
    rw [commitsOf_snoc]
    by_cases h : (e.1.viewNo, e.1.seqNo) = key
    · right
      subst h
      rcases ih with ⟨h1, h2⟩ | ⟨v, h1, h2, h3⟩
      · refine ⟨⟨[e.2], e.1⟩, ?_, ?_, ?_⟩
        · unfold addCommit; rw [h1]; simp only [Dict.get?_set, if_true]
        · have : l.find? (fun e' => decide ((e'.1.viewNo, e'.1.seqNo) = (e.1.viewNo, e.1.seqNo))) = none := by
            rw [List.find?_eq_none]; intro x hx; simpa using h2 x hx
          rw [List.find?_append, this]; simp
        · intro x
          constructor
          · intro hx; rw [List.mem_singleton] at hx; exact ⟨e, by simp, rfl, hx.symm⟩
          · rintro ⟨y, hy, e1, e2⟩
            rcases List.mem_append.1 hy with hy | hy
            · exact absurd e1 (h2 y hy)
            · rw [List.mem_singleton] at hy; subst hy; subst e2; exact List.mem_singleton.2 rfl
      · refine ⟨{ v with voters := if v.voters.contains e.2 then v.voters else v.voters ++ [e.2] }, ?_, ?_, ?_⟩
        · unfold addCommit; rw [h1]; simp only [Dict.get?_set, if_true]
        · rw [List.find?_append]
          cases hf : l.find? (fun e' => decide ((e'.1.viewNo, e'.1.seqNo) = (e.1.viewNo, e.1.seqNo))) with
          | none => rw [hf] at h2; cases h2
          | some y => rw [hf] at h2; exact h2
        · intro x
          have hx : x ∈ (if v.voters.contains e.2 then v.voters else v.voters ++ [e.2]) ↔ x ∈ v.voters ∨ x = e.2 := by
            split
            · next hc =>
              constructor
              · exact .inl
              · rintro (h | h)
                · exact h
                · subst h; simpa using hc
            · simp
          simp only
          rw [hx, h3]
          constructor
          · rintro (⟨y, hy, e1, e2⟩ | h)
            · exact ⟨y, List.mem_append_left _ hy, e1, e2⟩
            · exact ⟨e, by simp, rfl, h.symm⟩
          · rintro ⟨y, hy, e1, e2⟩
            rcases List.mem_append.1 hy with hy | hy
            · exact .inl ⟨y, hy, e1, e2⟩
            · rw [List.mem_singleton] at hy; subst hy; exact .inr e2.symm
    · rw [addCommit_other _ _ _ _ h]
      rcases ih with ⟨h1, h2⟩ | ⟨v, h1, h2, h3⟩
      · refine .inl ⟨h1, fun x hx => ?_⟩
        rcases List.mem_append.1 hx with hx | hx
        · exact h2 x hx
        · rw [List.mem_singleton] at hx; subst hx; exact h
      · refine .inr ⟨v, h1, ?_, fun x => ?_⟩
        · rw [List.find?_append]
          cases hf : l.find? (fun e' => decide ((e'.1.viewNo, e'.1.seqNo) = key)) with
          | none => rw [hf] at h2; cases h2
          | some y => rw [hf] at h2; exact h2
        · rw [h3]
          constructor
          · rintro ⟨y, hy, e1, e2⟩; exact ⟨y, List.mem_append_left _ hy, e1, e2⟩
          · rintro ⟨y, hy, e1, e2⟩
            rcases List.mem_append.1 hy with hy | hy
            · exact ⟨y, hy, e1, e2⟩
            · rw [List.mem_singleton] at hy; subst hy; exact absurd e1 h

/-- **C59**, in part: a node answers a request for a COMMIT only if it sent one for this
batch; the answer is the first COMMIT it took in for the batch. If that is its own, it
answers with its own. What is missing is shown by `commit_reply_not_own`. -/
theorem commit_reply_partial (l : List (Cm × Nat)) (me : Nat) (key : Key) (c : Cm) (h : commitReply (commitsOf l) me key = some c) :
    (∃ own, (own, me) ∈ l ∧ (own.viewNo, own.seqNo) = key) ∧
    (l.find? (fun e => (e.1.viewNo, e.1.seqNo) = key)).map (·.1) = some c ∧
    ((l.find? (fun e => (e.1.viewNo, e.1.seqNo) = key)).map (·.2) = some me → (c, me) ∈ l) := by
  unfold commitReply at h
  rcases commitsOf_get l key with ⟨h1, _⟩ | ⟨v, h1, h2, h3⟩
  · rw [h1] at h; cases h
  · rw [h1] at h
    simp only at h
    split at h
    · next hc =>
      cases h
      obtain ⟨e, he, e1, e2⟩ := (h3 me).1 (by simpa using hc)
      refine ⟨⟨e.1, by rw [← e2]; exact he, e1⟩, h2, fun hm => ?_⟩
      cases hf : l.find? (fun e => decide ((e.1.viewNo, e.1.seqNo) = key)) with
      | none => rw [hf] at hm; cases hm
      | some y =>
        rw [hf] at hm h2
        simp only [Option.map_some, Option.some.injEq] at hm h2
        rw [← hm, ← h2]
        exact List.mem_of_find?_eq_some hf
    · cases h

/-- And it does answer, if it sent one. -/
theorem commit_reply_given (l : List (Cm × Nat)) (me : Nat) (own : Cm) (h : (own, me) ∈ l) :
    ∃ c, commitReply (commitsOf l) me (own.viewNo, own.seqNo) = some c ∧ (c.viewNo, c.seqNo) = (own.viewNo, own.seqNo) := by
  unfold commitReply
  rcases commitsOf_get l (own.viewNo, own.seqNo) with ⟨_, h2⟩ | ⟨v, h1, h2, h3⟩
  · exact absurd rfl (h2 _ h)
  · rw [h1]
    simp only
    have : v.voters.contains me = true := by simpa using (h3 me).2 ⟨_, h, rfl, rfl⟩
    rw [this, if_pos rfl]
    refine ⟨_, rfl, ?_⟩
    cases hf : l.find? (fun e => decide ((e.1.viewNo, e.1.seqNo) = (own.viewNo, own.seqNo))) with
    | none => rw [hf] at h2; cases h2
    | some y =>
      rw [hf] at h2
      have := List.find?_some hf
      simp only [Option.map_some, Option.some.injEq] at h2
      rw [← h2]
      simpa using this

/-- A pool where the signature of a node under a value is its own number, by its key. -/
def mrEnv (me : Nat) : Bls.Env :=
  { me := me, isMaster := true, canSign := true, keyOf := fun _ x => some x, sign := fun _ => me
    verify := fun sig _ key => sig = key, verifyMulti := fun _ _ _ => true, aggregate := fun _ => 0 }

/-- **C59**, negation: a node that took in the COMMIT of node 2 before it sent its own
answers with the COMMIT of node 2. The receiver takes it for one of node 1, finds the
signature wrong, and so reports node 1. Node 1's own COMMIT is right. -/
theorem commit_reply_not_own : ∃ (l : List (Cm × Nat)) (own c : Cm) (pp : Bls.PrePrepare) (audit : List Bls.AuditTxn),
    (own, 1) ∈ l ∧ commitReply (commitsOf l) 1 (own.viewNo, own.seqNo) = some c ∧
    Bls.validateCommit (mrEnv 3) audit pp 1 own.sigs = true ∧ Bls.validateCommit (mrEnv 3) audit pp 2 c.sigs = true ∧
    Bls.validateCommit (mrEnv 3) audit pp 1 c.sigs = false :=
  ⟨[(⟨0, 5, some [(⟨1, 0⟩, 2)]⟩, 2), (⟨0, 5, some [(⟨1, 0⟩, 1)]⟩, 1)], ⟨0, 5, some [(⟨1, 0⟩, 1)]⟩, ⟨0, 5, some [(⟨1, 0⟩, 2)]⟩,
    ⟨0, 5, 100, 7, []⟩, [⟨5, [(1, 10)], [(1, 20)]⟩], by simp, by decide +kernel, by decide +kernel, by decide +kernel,
    by decide +kernel⟩

/-! ## Concrete histories -/

/-- Node 9's VIEW_CHANGE 7 is asked for, and two nodes reply. -/
def mrHistory : List (Ev Nat) :=
  [.missingVC [9] 7, .viewChangeStarted, .missingVC [9] 7, .missing3pc .prepare (0, 5) (some (1, 2, 3)), .missingNV 1,
   .reply [1] (.viewChange (some [9]) (some 7) (some 7))]

example : (step id [48] (run id [48] { n := 4 } mrHistory) (.reply [2] (.viewChange (some [9]) (some 7) (some 7)))).2 =
    some (.viewChange 7 [9]) := rfl
example : ∃ S : List Bytes, S.Nodup ∧ S.length ≥ 2 ∧
    ∀ x ∈ S, RepliedVC id (current (mrHistory ++ [.reply [2] (.viewChange (some [9]) (some 7) (some 7))])) x [9] 7 := by
  rcases (vc_attribution id [48] { n := 4 } mrHistory [2] (.viewChange (some [9]) (some 7) (some 7)) 7 [9] rfl).2 with h | h
  · exact absurd h.1 (by decide)
  · exact h
example : (step id [48] (run id [48] { n := 4 } mrHistory)
    (.reply [2] (.threePc .prepare (some 0) (some 0) (some 5) (some ⟨0, 0, 5, 1, 2, 3, 0⟩)))).2 =
    some (.threePc .prepare ⟨0, 0, 5, 1, 2, 3, 0⟩ [2, 58, 48]) :=
  reply_3pc_taken id [48] _ [2] .prepare ⟨0, 0, 5, 1, 2, 3, 0⟩ (some (1, 2, 3)) rfl ⟨rfl, rfl, rfl⟩ (by simp) (by decide) (by simp)
example : (step id [48] (run id [48] { n := 4 } mrHistory) (.reply [2] (.newView (some 1) (some ⟨1, 4⟩)))).2 =
    some (.newView ⟨1, 4⟩ [2, 58, 48]) := rfl
example : (Out.viewChange 7 [9] : Out Nat) ∈ outputs id [48] (run id [48] { n := 4 } (mrHistory.take 3))
    ([[3], [2]].map fun x => Ev.reply x (.viewChange (some [9]) (some 7) (some 7))) :=
  vc_delivered id [48] _ [9] 7 (by decide) [[3], [2]] (by decide) (by decide)
example : (step id [48] (run id [48] { n := 4 } (mrHistory.take 3)) (.reply [9] (.viewChange (some [9]) (some 7) (some 7)))).2 = none :=
  vc_own_reply_no_shortcut id [48] _ [9] 7 rfl (by decide)
example : ∃ c, commitReply (commitsOf [(⟨0, 5, none⟩, 2), (⟨0, 5, none⟩, 1)]) 1 (0, 5) = some c ∧ (c.viewNo, c.seqNo) = (0, 5) :=
  commit_reply_given _ 1 ⟨0, 5, none⟩ (by simp)
example : commitReply (commitsOf [(⟨0, 5, some []⟩, 1), (⟨0, 5, none⟩, 2)]) 1 (0, 5) = some ⟨0, 5, some []⟩ := by decide +kernel

end Verif.Props
