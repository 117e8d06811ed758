import Verif.Spec.BackupFaulty
import Verif.Proofs.Count
/-!
# C56: removal of backup instances
-/
namespace Verif.Props
open Verif Verif.Bif Verif.Spec.Bif

/-- The sum of the own votes. -/
def ownTotal (name view inst : Nat) (l : List Event) : Nat := (l.map (ownVotes name view inst)).sum

/-- Each recorded vote was given, in this view, or is among those being counted:
voter `x` with the instances `is`. -/
structure Counted (cfg : Cfg) (l : List Event) (x : Nat) (done : List Nat) (s : State) : Prop where
  nodup : ∀ inst d, s.faulty.get? inst = some d → d.keys.Nodup
  voted : ∀ inst d y, s.faulty.get? inst = some d → y ∈ d.keys →
    (∃ e ∈ l, Votes cfg.name s.viewNo inst y e) ∨ (y = x ∧ inst ∈ done)
  own : ∀ inst d k, s.faulty.get? inst = some d → d.get? cfg.name = some k →
    k ≤ ownTotal cfg.name s.viewNo inst l + (if x = cfg.name then done.count inst else 0)

/-- `inst` may be dropped. -/
def Enough (cfg : Cfg) (n view inst : Nat) (l : List Event) : Prop :=
  (∃ S : List Nat, S.Nodup ∧ getMaxFailures n + 1 ≤ S.length ∧ ∀ y ∈ S, ∃ e ∈ l, Votes cfg.name view inst y e) ∨
  getMaxFailures n + 1 ≤ ownTotal cfg.name view inst l

theorem bif_quorum (n k : Nat) : (Quorums.ofN n).backupInstanceFaulty.isReached k = true ↔ getMaxFailures n + 1 ≤ k := by
  unfold Quorum.isReached; simp [Quorums.ofN]

theorem mem_remove {s : State} {i j : Nat} : i ∈ (removeReplica s j).replicas ↔ i ∈ s.replicas ∧ i ≠ j := by
  simp [removeReplica]

theorem voteOne_frame (cfg : Cfg) (x : Nat) (s : State) (i : Nat) :
    (voteOne cfg x s i).viewNo = s.viewNo ∧ (voteOne cfg x s i).n = s.n ∧
    (∀ j ∈ (voteOne cfg x s i).replicas, j ∈ s.replicas) := by
  unfold voteOne
  split
  · exact ⟨rfl, rfl, fun _ h => h⟩
  · simp only
    split
    · exact ⟨rfl, rfl, fun j h => (mem_remove.1 h).1⟩
    · exact ⟨rfl, rfl, fun _ h => h⟩

/-- The votes after one more is counted. -/
def addVote (s : State) (x i : Nat) : Dict Nat Nat :=
  ((s.faulty.get? i).getD []).set x (((Dict.get? ((s.faulty.get? i).getD []) x).getD 0) + 1)

theorem keys_set_mem {d : Dict Nat Nat} {k v y : Nat} : y ∈ (d.set k v).keys ↔ y = k ∨ y ∈ d.keys := by
  rw [Dict.mem_keys, Dict.mem_keys]
  simp only [Dict.get?_set]
  constructor
  · rintro ⟨w, hw⟩
    split at hw
    · next e => exact .inl e.symm
    · exact .inr ⟨w, hw⟩
  · rintro (rfl | ⟨w, hw⟩)
    · exact ⟨v, by simp⟩
    · by_cases e : k = y
      · exact ⟨v, by simp [e]⟩
      · exact ⟨w, by simp [e, hw]⟩

theorem addVote_ok {cfg : Cfg} {l : List Event} {x : Nat} {done : List Nat} {s : State} (h : Counted cfg l x done s) (i : Nat) :
    (addVote s x i).keys.Nodup ∧
    (∀ y ∈ (addVote s x i).keys, (∃ e ∈ l, Votes cfg.name s.viewNo i y e) ∨ (y = x ∧ i ∈ done ++ [i])) ∧
    (∀ k, (addVote s x i).get? cfg.name = some k →
      k ≤ ownTotal cfg.name s.viewNo i l + (if x = cfg.name then (done ++ [i]).count i else 0)) := by
  have hc : (done ++ [i]).count i = done.count i + 1 := by simp [List.count_append]
  unfold addVote
  cases hg : s.faulty.get? i with
  | none =>
    simp only [Option.getD_none]
    refine ⟨by simp [Dict.set, Dict.keys], ?_, ?_⟩
    · intro y hy
      simp [Dict.set, Dict.keys] at hy
      exact .inr ⟨hy, by simp⟩
    · intro k hk
      simp only [Dict.set, Dict.get?_cons, Dict.get?_nil] at hk
      split at hk
      · next e => cases hk; rw [if_pos e, hc]; simp; omega
      · cases hk
  | some d =>
    simp only [Option.getD_some]
    refine ⟨Dict.nodup_keys_set (h.nodup i d hg) _ _, ?_, ?_⟩
    · intro y hy
      rcases keys_set_mem.1 hy with rfl | hy
      · exact .inr ⟨rfl, by simp⟩
      · exact (h.voted i d y hg hy).imp id (fun hh => ⟨hh.1, by simp⟩)
    · intro k hk
      rw [Dict.get?_set] at hk
      split at hk
      · next e =>
        cases hk
        rw [if_pos e, hc]
        cases hv : d.get? x with
        | none => simp; omega
        | some w =>
          have := h.own i d w hg (e ▸ hv)
          rw [if_pos e] at this
          simp; omega
      · next e =>
        have := h.own i d k hg hk
        rw [if_neg e] at this ⊢
        exact this

theorem voteOne_faulty {cfg : Cfg} {x : Nat} {s : State} {i j : Nat} {d : Dict Nat Nat}
    (h : (voteOne cfg x s i).faulty.get? j = some d) : s.faulty.get? j = some d ∨ (j = i ∧ d = addVote s x i) := by
  unfold voteOne at h
  split at h
  · exact .inl h
  · simp only at h
    split at h
    · simp only [Dict.get?_erase] at h
      split at h
      · cases h
      · exact .inl h
    · simp only [Dict.get?_set] at h
      split at h
      · next e => cases h; exact .inr ⟨e.symm, rfl⟩
      · exact .inl h

theorem voteOne_counted {cfg : Cfg} {l : List Event} {x : Nat} {done : List Nat} {s : State}
    (h : Counted cfg l x done s) (i : Nat) : Counted cfg l x (done ++ [i]) (voteOne cfg x s i) := by
  have hf := voteOne_frame cfg x s i
  have ha := addVote_ok h i
  have hcnt : ∀ j, done.count j ≤ (done ++ [i]).count j := by intro j; simp [List.count_append]
  refine ⟨?_, ?_, ?_⟩
  · intro j d hd
    rcases voteOne_faulty hd with hd | ⟨rfl, rfl⟩
    · exact h.nodup j d hd
    · exact ha.1
  · intro j d y hd hy
    rw [hf.1]
    rcases voteOne_faulty hd with hd | ⟨rfl, rfl⟩
    · exact (h.voted j d y hd hy).imp id (fun hh => ⟨hh.1, by simp [hh.2]⟩)
    · exact ha.2.1 y hy
  · intro j d k hd hk
    rw [hf.1]
    rcases voteOne_faulty hd with hd | ⟨rfl, rfl⟩
    · have := h.own j d k hd hk
      split
      · next e => rw [if_pos e] at this; have := hcnt j; omega
      · next e => rw [if_neg e] at this; omega
    · exact ha.2.2 k hk

/-- What dropping an instance during the loop rests on. -/
def LoopEnough (cfg : Cfg) (l : List Event) (x : Nat) (is : List Nat) (n view inst : Nat) : Prop :=
  (∃ S : List Nat, S.Nodup ∧ getMaxFailures n + 1 ≤ S.length ∧
    ∀ y ∈ S, (∃ e ∈ l, Votes cfg.name view inst y e) ∨ (y = x ∧ inst ∈ is)) ∨
  getMaxFailures n + 1 ≤ ownTotal cfg.name view inst l + (if x = cfg.name then is.count inst else 0)

theorem voteOne_drop {cfg : Cfg} {l : List Event} {x : Nat} {done : List Nat} {s : State} (h : Counted cfg l x done s)
    (i inst : Nat) (hin : inst ∈ s.replicas) (hout : inst ∉ (voteOne cfg x s i).replicas) :
    LoopEnough cfg l x (done ++ [i]) s.n s.viewNo inst := by
  have ha := addVote_ok h i
  unfold voteOne at hout
  split at hout
  · exact absurd hin hout
  · simp only at hout
    split at hout
    · next hq =>
      have hi : inst = i := by
        apply Classical.byContradiction
        intro hne
        exact hout (mem_remove.2 ⟨hin, hne⟩)
      subst hi
      rw [Bool.or_eq_true] at hq
      rcases hq with hq | hq
      · left
        refine ⟨(addVote s x inst).keys, ha.1, ?_, ha.2.1⟩
        exact (bif_quorum _ _).1 hq
      · right
        unfold thisNodeCondition at hq
        split at hq
        · next k hk =>
          have := ha.2.2 k hk
          have := (bif_quorum _ _).1 hq
          omega
        · cases hq
    · exact absurd hin hout

theorem voteLoop {cfg : Cfg} {l : List Event} {x : Nat} (is : List Nat) :
    ∀ {done : List Nat} {s : State}, Counted cfg l x done s →
    Counted cfg l x (done ++ is) (is.foldl (voteOne cfg x) s) ∧
    (is.foldl (voteOne cfg x) s).viewNo = s.viewNo ∧ (is.foldl (voteOne cfg x) s).n = s.n ∧
    (∀ j, j ∈ (is.foldl (voteOne cfg x) s).replicas → j ∈ s.replicas) ∧
    (∀ inst ∈ s.replicas, inst ∉ (is.foldl (voteOne cfg x) s).replicas →
      inst ∈ is ∧ LoopEnough cfg l x (done ++ is) s.n s.viewNo inst) := by
  induction is with
  | nil => intro done s h; exact ⟨by simpa using h, rfl, rfl, fun _ h => h, fun inst h1 h2 => absurd h1 h2⟩
  | cons i r ih =>
    intro done s h
    have hf := voteOne_frame cfg x s i
    obtain ⟨k1, k2, k3, k4, k5⟩ := ih (voteOne_counted h i)
    have e : done ++ [i] ++ r = done ++ i :: r := by simp
    rw [e] at k1 k5
    refine ⟨k1, k2.trans hf.1, k3.trans hf.2.1, fun j hj => hf.2.2 j (k4 j hj), ?_⟩
    intro inst hin hout
    by_cases hm : inst ∈ (voteOne cfg x s i).replicas
    · have := k5 inst hm hout
      rw [hf.1, hf.2.1] at this
      exact ⟨List.mem_cons_of_mem _ this.1, this.2⟩
    · have hd := voteOne_drop h i inst hin hm
      refine ⟨?_, ?_⟩
      · apply Classical.byContradiction
        intro hne
        have hne' : inst ≠ i := fun e => hne (by simp [e])
        apply hm
        unfold voteOne
        split
        · exact hin
        · simp only
          split
          · exact mem_remove.2 ⟨hin, hne'⟩
          · exact hin
      · rcases hd with ⟨S, s1, s2, s3⟩ | hd
        · exact .inl ⟨S, s1, s2, fun y hy => (s3 y hy).imp id (fun hh => ⟨hh.1, by
            rcases List.mem_append.1 hh.2 with hh2 | hh2
            · exact List.mem_append_left _ hh2
            · exact List.mem_append_right _ (by simp [List.mem_singleton.1 hh2])⟩)⟩
        · right
          have : (done ++ [i]).count inst ≤ (done ++ i :: r).count inst := by
            rw [← e, List.count_append (l₁ := done ++ [i])]; omega
          split at hd
          · next ex => rw [if_pos ex]; omega
          · next ex => rw [if_neg ex]; omega

/-- The invariant of a history. -/
structure BifInv (cfg : Cfg) (n : Nat) (h : List Event) (s : State) : Prop where
  view : s.viewNo = viewOf h
  n : s.n = nOf n h
  counted : Counted cfg (thisView h) cfg.name [] s

theorem viewOf_snoc (h : List Event) (e : Event) :
    viewOf (h ++ [e]) = match e with | .newView v' _ => v' | _ => viewOf h := by
  unfold viewOf; rw [List.foldl_append]; cases e <;> rfl
theorem nOf_snoc (n : Nat) (h : List Event) (e : Event) :
    nOf n (h ++ [e]) = match e with | .pool n' => n' | _ => nOf n h := by
  unfold nOf; rw [List.foldl_append]; cases e <;> rfl
theorem thisView_snoc (h : List Event) (e : Event) :
    thisView (h ++ [e]) = match e with | .newView _ _ => [] | e => thisView h ++ [e] := by
  unfold thisView; rw [List.foldl_append]; cases e <;> rfl

theorem ownTotal_snoc (name view inst : Nat) (l : List Event) (e : Event) :
    ownTotal name view inst (l ++ [e]) = ownTotal name view inst l + ownVotes name view inst e := by
  simp [ownTotal]

theorem counted_mono {cfg : Cfg} {l : List Event} {x : Nat} {s s' : State} {e : Event} (h : Counted cfg l x [] s)
    (hv : s'.viewNo = s.viewNo) (hf : s'.faulty = s.faulty) : Counted cfg (l ++ [e]) cfg.name [] s' := by
  refine ⟨?_, ?_, ?_⟩
  · intro i d hd; rw [hf] at hd; exact h.nodup i d hd
  · intro i d y hd hy
    rw [hf] at hd; rw [hv]
    rcases h.voted i d y hd hy with ⟨e', he', hv'⟩ | ⟨_, hm⟩
    · exact .inl ⟨e', List.mem_append_left _ he', hv'⟩
    · simp at hm
  · intro i d k hd hk
    rw [hf] at hd; rw [hv, ownTotal_snoc]
    have := h.own i d k hd hk
    simp at this ⊢
    omega

theorem processMsg_inv {cfg : Cfg} {l : List Event} {s : State} (h : Counted cfg l cfg.name [] s)
    (v : Nat) (is : List Nat) (r : Reason) (x : Nat) (e : Event)
    (hvotes : v = s.viewNo → ∀ inst ∈ is, Votes cfg.name s.viewNo inst x e)
    (hown : v = s.viewNo → x = cfg.name → ∀ inst, is.count inst ≤ ownVotes cfg.name s.viewNo inst e) :
    Counted cfg (l ++ [e]) cfg.name [] (processMsg cfg s v is r x) ∧
    (processMsg cfg s v is r x).viewNo = s.viewNo ∧ (processMsg cfg s v is r x).n = s.n ∧
    (∀ inst ∈ s.replicas, inst ∉ (processMsg cfg s v is r x).replicas →
      inst ≠ 0 ∧ Enough cfg s.n s.viewNo inst (l ++ [e])) := by
  unfold processMsg
  split
  · exact ⟨counted_mono h rfl rfl, rfl, rfl, fun _ a b => absurd a b⟩
  · next hv0 =>
    simp only [Bool.or_eq_true, decide_eq_true_eq, not_or, Bool.not_eq_true] at hv0
    obtain ⟨hv, h0⟩ := hv0
    have hv := Classical.not_not.1 hv
    split
    · exact ⟨counted_mono h rfl rfl, rfl, rfl, fun _ a b => absurd a b⟩
    · have h' : Counted cfg l x [] s := by
        refine ⟨h.nodup, ?_, ?_⟩
        · intro i d y hd hy
          rcases h.voted i d y hd hy with hh | ⟨_, hm⟩
          · exact .inl hh
          · simp at hm
        · intro i d k hd hk
          have := h.own i d k hd hk
          simp at this ⊢; exact this
      obtain ⟨k1, k2, k3, k4, k5⟩ := voteLoop (cfg := cfg) (l := l) (x := x) is h'
      rw [List.nil_append] at k1 k5
      refine ⟨⟨k1.nodup, ?_, ?_⟩, k2, k3, ?_⟩
      · intro i d y hd hy
        left
        rcases k1.voted i d y hd hy with ⟨e', he', hv'⟩ | ⟨rfl, hm⟩
        · exact ⟨e', List.mem_append_left _ he', hv'⟩
        · rw [k2]; exact ⟨e, by simp, hvotes hv i hm⟩
      · intro i d k hd hk
        have := k1.own i d k hd hk
        rw [ownTotal_snoc]
        rw [k2] at this ⊢
        split at this
        · next ex => have := hown hv ex i; simp; omega
        · simp; omega
      · intro inst hin hout
        obtain ⟨hm, hl⟩ := k5 inst hin hout
        refine ⟨?_, ?_⟩
        · rintro rfl
          rw [List.contains_eq_mem] at h0
          simp at h0
          exact h0 hm
        · rcases hl with ⟨S, s1, s2, s3⟩ | hl
          · left
            refine ⟨S, s1, s2, fun y hy => ?_⟩
            rcases s3 y hy with ⟨e', he', hv'⟩ | ⟨rfl, _⟩
            · exact ⟨e', List.mem_append_left _ he', hv'⟩
            · exact ⟨e, by simp, hvotes hv inst hm⟩
          · right
            rw [ownTotal_snoc]
            split at hl
            · next ex => have := hown hv ex inst; omega
            · omega

theorem removeAll_frame (is : List Nat) (s : State) :
    (is.foldl removeReplica s).viewNo = s.viewNo ∧ (is.foldl removeReplica s).n = s.n ∧
    (is.foldl removeReplica s).faulty = s.faulty := by
  induction is generalizing s with
  | nil => exact ⟨rfl, rfl, rfl⟩
  | cons i r ih => exact ih _

theorem bif_step {cfg : Cfg} {n : Nat} {h : List Event} {s : State} (hi : BifInv cfg n h s) (e : Event) :
    BifInv cfg n (h ++ [e]) (step cfg s e) ∧
    (IsVote cfg e → ∀ inst ∈ s.replicas, inst ∉ (step cfg s e).replicas →
      inst ≠ 0 ∧ Enough cfg (nOf n h) (viewOf h) inst (thisView (h ++ [e]))) := by
  have own : ∀ (is : List Nat) (r : Reason) (st : Strategy) (e : Event), thisView (h ++ [e]) = thisView h ++ [e] →
      viewOf (h ++ [e]) = viewOf h → nOf n (h ++ [e]) = nOf n h →
      (∀ inst ∈ is, Votes cfg.name s.viewNo inst cfg.name e) →
      (∀ inst, is.count inst ≤ ownVotes cfg.name s.viewNo inst e) →
      BifInv cfg n (h ++ [e]) (removeReplicas cfg s is r st) ∧
      (st = .quorum → ∀ inst ∈ s.replicas, inst ∉ (removeReplicas cfg s is r st).replicas →
        inst ≠ 0 ∧ Enough cfg (nOf n h) (viewOf h) inst (thisView (h ++ [e]))) := by
    intro is r st e ht hv hn h1 h2
    unfold removeReplicas
    cases st with
    | quorum =>
      obtain ⟨k1, k2, k3, k4⟩ := processMsg_inv hi.counted s.viewNo is r cfg.name e (fun _ => h1) (fun _ _ => h2)
      refine ⟨⟨by rw [hv, ← hi.view]; exact k2, by rw [hn, ← hi.n]; exact k3, by rw [ht]; exact k1⟩, ?_⟩
      intro _ inst ha hb
      rw [ht, ← hi.view, ← hi.n]
      exact k4 inst ha hb
    | «local» =>
      have f := removeAll_frame is s
      refine ⟨⟨by rw [hv, ← hi.view]; exact f.1, by rw [hn, ← hi.n]; exact f.2.1, ?_⟩, fun hc => by cases hc⟩
      rw [ht]; exact counted_mono hi.counted f.1 f.2.2
    | none =>
      refine ⟨⟨by rw [hv]; exact hi.view, by rw [hn]; exact hi.n, ?_⟩, fun hc => by cases hc⟩
      rw [ht]; exact counted_mono hi.counted rfl rfl
  cases e with
  | received v is r frm =>
    obtain ⟨k1, k2, k3, k4⟩ := processMsg_inv hi.counted v is r frm (.received v is r frm)
      (fun hv inst hm => ⟨rfl, hv, hm⟩) (fun hv hx inst => by simp [ownVotes, hv, hx])
    refine ⟨⟨by rw [viewOf_snoc]; exact k2.trans hi.view, by rw [nOf_snoc]; exact k3.trans hi.n, by rw [thisView_snoc]; exact k1⟩, ?_⟩
    intro _ inst ha hb
    rw [thisView_snoc, ← hi.view, ← hi.n]
    exact k4 inst ha hb
  | degradation is =>
    have := own is .degraded cfg.onDegraded (.degradation is) (thisView_snoc _ _) (viewOf_snoc _ _) (nOf_snoc _ _ _)
      (fun inst hm => ⟨rfl, hm⟩) (fun inst => Nat.le_refl _)
    exact ⟨this.1, this.2⟩
  | primaryDisconnected is =>
    have := own is .disconnected cfg.onDisconnected (.primaryDisconnected is) (thisView_snoc _ _) (viewOf_snoc _ _) (nOf_snoc _ _ _)
      (fun inst hm => ⟨rfl, hm⟩) (fun inst => Nat.le_refl _)
    exact ⟨this.1, this.2⟩
  | newView v req =>
    refine ⟨⟨by rw [viewOf_snoc]; rfl, by rw [nOf_snoc]; exact hi.n, ?_⟩, fun hc => hc.elim⟩
    rw [thisView_snoc]
    exact ⟨fun i d hd => (by cases hd), fun i d y hd => (by cases hd), fun i d k hd => (by cases hd)⟩
  | pool m =>
    refine ⟨⟨by rw [viewOf_snoc]; exact hi.view, by rw [nOf_snoc]; rfl, ?_⟩, fun hc => hc.elim⟩
    rw [thisView_snoc]; exact counted_mono hi.counted rfl rfl
  | adjust rs =>
    refine ⟨⟨by rw [viewOf_snoc]; exact hi.view, by rw [nOf_snoc]; exact hi.n, ?_⟩, fun hc => hc.elim⟩
    rw [thisView_snoc]; exact counted_mono hi.counted rfl rfl

theorem bif_inv (cfg : Cfg) (n : Nat) (rs : List Nat) (h : List Event) : BifInv cfg n h (run cfg (init n rs) h) := by
  induction h using snoc_induction with
  | nil => exact ⟨rfl, rfl, ⟨fun i d hd => (by cases hd), fun i d y hd => (by cases hd), fun i d k hd => (by cases hd)⟩⟩
  | snoc l a ih =>
    unfold run; rw [List.foldl_append]
    exact (bif_step ih a).1

/-- C56: after any history, a vote drops an instance only if, in this view, at least
f+1 different nodes voted against it or the node itself did so at least f+1 times. The
master instance is never dropped. -/
theorem bif_removal (cfg : Cfg) (n : Nat) (rs : List Nat) (h : List Event) (e : Event) (he : IsVote cfg e) (inst : Nat)
    (hin : inst ∈ (run cfg (init n rs) h).replicas) (hout : inst ∉ (run cfg (init n rs) (h ++ [e])).replicas) :
    inst ≠ 0 ∧
    ((∃ S : List Nat, S.Nodup ∧ getMaxFailures (nOf n h) + 1 ≤ S.length ∧
        ∀ y ∈ S, ∃ e' ∈ thisView (h ++ [e]), Votes cfg.name (viewOf h) inst y e') ∨
      getMaxFailures (nOf n h) + 1 ≤ ((thisView (h ++ [e])).map (ownVotes cfg.name (viewOf h) inst)).sum) := by
  unfold run at hout
  rw [List.foldl_append] at hout
  exact (bif_step (bif_inv cfg n rs h) e).2 he inst hin hout

/-! ## Enough votes do drop the instance -/

theorem keys_length_of_subset {d : Dict Nat Nat} {S : List Nat} (hS : S.Nodup) (h : ∀ y ∈ S, y ∈ d.keys) :
    S.length ≤ d.keys.length := length_le_of_subset hS h

/-- All of `V` are recorded against `inst`, and do not reach the quorum. -/
structure BifPending (f : Nat) (V : List Nat) (inst : Nat) (s : State) : Prop where
  fs : getMaxFailures s.n = f
  some : V ≠ [] → ∃ d, s.faulty.get? inst = Option.some d ∧ (∀ y ∈ V, y ∈ d.keys) ∧ d.keys.length < f + 1
  less : ∀ d, s.faulty.get? inst = Option.some d → d.keys.length < f + 1

theorem voteOne_pending {cfg : Cfg} {f : Nat} {V : List Nat} {inst : Nat} {s : State} (x i : Nat)
    (h : inst ∈ s.replicas → BifPending f V inst s)
    (hin : inst ∈ (voteOne cfg x s i).replicas) :
    BifPending f (if i = inst then x :: V else V) inst (voteOne cfg x s i) := by
  have hr := voteOne_frame cfg x s i
  have hm := hr.2.2 inst hin
  have hp := h hm
  by_cases hi : i = inst
  · subst hi
    rw [if_pos rfl]
    have hc : ¬ ((!s.replicas.contains i) = true) := by
      rw [List.contains_eq_mem]; simp [hm]
    unfold voteOne at hin ⊢
    rw [if_neg hc] at hin ⊢
    simp only at hin ⊢
    split
    · next hq =>
      rw [if_pos hq] at hin
      exact absurd rfl (mem_remove.1 hin).2
    · next hq =>
      have hlt : (addVote s x i).keys.length < f + 1 := by
        apply Classical.byContradiction
        intro hge
        apply hq
        rw [Bool.or_eq_true]
        left
        exact (bif_quorum _ _).2 (by rw [hp.fs]; exact Nat.not_lt.1 hge)
      have hself : Dict.get? (Dict.set s.faulty i (addVote s x i)) i = some (addVote s x i) := by
        rw [Dict.get?_set, if_pos rfl]
      refine ⟨hp.fs, fun _ => ⟨addVote s x i, hself, ?_, hlt⟩, ?_⟩
      · intro y hy
        unfold addVote
        rw [keys_set_mem]
        rcases List.mem_cons.1 hy with hy | hy
        · exact .inl hy
        · right
          obtain ⟨d, hd, hv, _⟩ := hp.some (by intro e; rw [e] at hy; simp at hy)
          rw [hd]; exact hv y hy
      · intro d hd
        have : some d = some (addVote s x i) := hd.symm.trans hself
        cases this
        exact hlt
  · rw [if_neg hi]
    have hg : (voteOne cfg x s i).faulty.get? inst = s.faulty.get? inst := by
      unfold voteOne
      split
      · rfl
      · simp only
        split
        · simp only [Dict.get?_erase, if_neg hi]
        · simp only [Dict.get?_set, if_neg hi]
    exact ⟨by rw [hr.2.1]; exact hp.fs, by rw [hg]; exact hp.some, by rw [hg]; exact hp.less⟩

theorem voteLoop_pending {cfg : Cfg} {f : Nat} {inst : Nat} (x : Nat) (is : List Nat) :
    ∀ {V : List Nat} {s : State}, (inst ∈ s.replicas → BifPending f V inst s) →
    inst ∈ (is.foldl (voteOne cfg x) s).replicas →
    ∃ V', BifPending f V' inst (is.foldl (voteOne cfg x) s) ∧ (∀ y ∈ V, y ∈ V') ∧ (inst ∈ is → x ∈ V') := by
  induction is with
  | nil => intro V s h hin; exact ⟨V, h hin, fun _ h => h, by simp⟩
  | cons i r ih =>
    intro V s h hin
    obtain ⟨V', k1, k2, k3⟩ := ih (fun hm => voteOne_pending (cfg := cfg) x i h hm) hin
    refine ⟨V', k1, ?_, ?_⟩
    · intro y hy
      apply k2
      split
      · exact List.mem_cons_of_mem _ hy
      · exact hy
    · intro hm
      rcases List.mem_cons.1 hm with rfl | hm
      · exact k2 x (by simp)
      · exact k3 hm

/-- A vote of node `x` that is counted: of this view, not against the master, with a
reason for which votes are used. -/
def Valid (cfg : Cfg) (view inst x : Nat) : Event → Prop
  | .received v is r frm => frm = x ∧ v = view ∧ inst ∈ is ∧ 0 ∉ is ∧
      (r = .disconnected → cfg.onDisconnected = .quorum) ∧ (r = .degraded → cfg.onDegraded = .quorum)
  | _ => False

theorem voteFold_frame (cfg : Cfg) (x : Nat) (is : List Nat) (u : State) :
    (is.foldl (voteOne cfg x) u).viewNo = u.viewNo ∧ ∀ j ∈ (is.foldl (voteOne cfg x) u).replicas, j ∈ u.replicas := by
  induction is generalizing u with
  | nil => exact ⟨rfl, fun _ h => h⟩
  | cons i t ih =>
    have hf := voteOne_frame cfg x u i
    exact ⟨(ih _).1.trans hf.1, fun j h => hf.2.2 j ((ih _).2 j h)⟩

theorem pending_votes (cfg : Cfg) (inst view f : Nat) (votes : List Event) (s : State)
    (hall : ∀ e ∈ votes, ∃ v is r frm, e = Event.received v is r frm) (hview : s.viewNo = view)
    (h0 : BifPending f [] inst s) (hin : inst ∈ (run cfg s votes).replicas) :
    (run cfg s votes).viewNo = view ∧
    ∃ V, BifPending f V inst (run cfg s votes) ∧ ∀ x, (∃ e ∈ votes, Valid cfg view inst x e) → x ∈ V := by
  have key : ∀ votes : List Event, (∀ e ∈ votes, ∃ v is r frm, e = Event.received v is r frm) →
      (run cfg s votes).viewNo = view ∧ (inst ∈ (run cfg s votes).replicas →
      ∃ V, BifPending f V inst (run cfg s votes) ∧ ∀ x, (∃ e ∈ votes, Valid cfg view inst x e) → x ∈ V) := by
    intro votes
    induction votes using snoc_induction with
    | nil => intro _; exact ⟨hview, fun _ => ⟨[], h0, by simp⟩⟩
    | snoc l a ih =>
      intro hall
      obtain ⟨iv, ip⟩ := ih (fun e he => hall e (List.mem_append_left _ he))
      obtain ⟨v, is, r, frm, rfl⟩ := hall a (by simp)
      have hrun : run cfg s (l ++ [.received v is r frm]) = processMsg cfg (run cfg s l) v is r frm := by
        unfold run; rw [List.foldl_append]; rfl
      rw [hrun]
      unfold processMsg
      have last : ∀ x, (∃ e ∈ l ++ [Event.received v is r frm], Valid cfg view inst x e) →
          (∃ e ∈ l, Valid cfg view inst x e) ∨ Valid cfg view inst x (.received v is r frm) := by
        rintro x ⟨e, he, hv⟩
        rcases List.mem_append.1 he with he | he
        · exact .inl ⟨e, he, hv⟩
        · rw [List.mem_singleton.1 he] at hv; exact .inr hv
      split
      · next hc =>
        refine ⟨iv, fun hm => ?_⟩
        obtain ⟨V, hp, hV⟩ := ip hm
        refine ⟨V, hp, fun x hx => ?_⟩
        rcases last x hx with hx | hx
        · exact hV x hx
        · exfalso
          simp only [Valid] at hx
          rw [iv, List.contains_eq_mem] at hc
          simp [hx.2.1, hx.2.2.2.1] at hc
      · split
        · next hc =>
          refine ⟨iv, fun hm => ?_⟩
          obtain ⟨V, hp, hV⟩ := ip hm
          refine ⟨V, hp, fun x hx => ?_⟩
          rcases last x hx with hx | hx
          · exact hV x hx
          · exfalso
            simp only [Valid] at hx
            unfold ignored at hc
            cases r <;> simp [hx.2.2.2.2.1, hx.2.2.2.2.2] at hc
        · have vf := (voteFold_frame cfg frm is (run cfg s l)).1
          refine ⟨vf.trans iv, fun hm => ?_⟩
          have rsub := (voteFold_frame cfg frm is (run cfg s l)).2 inst hm
          obtain ⟨V, hp, hV⟩ := ip rsub
          obtain ⟨V', k1, k2, k3⟩ := voteLoop_pending (cfg := cfg) frm is (fun _ => hp) hm
          refine ⟨V', k1, fun x hx => ?_⟩
          rcases last x hx with hx | hx
          · exact k2 x (hV x hx)
          · simp only [Valid] at hx
            rw [← hx.1]; exact k3 hx.2.2.1
  exact ⟨(key votes hall).1, (key votes hall).2 hin⟩

/-- Valid votes of f+1 different nodes after a view began drop the instance. -/
theorem bif_quorum_suffices (cfg : Cfg) (n : Nat) (rs : List Nat) (h : List Event) (v req : Nat) (votes : List Event)
    (hall : ∀ e ∈ votes, ∃ v is r frm, e = Event.received v is r frm) (inst : Nat) (S : List Nat) (hS : S.Nodup)
    (hlen : getMaxFailures (nOf n h) + 1 ≤ S.length) (hv : ∀ x ∈ S, ∃ e ∈ votes, Valid cfg v inst x e) :
    inst ∉ (run cfg (init n rs) (h ++ [.newView v req] ++ votes)).replicas := by
  intro hin
  unfold run at hin
  rw [List.foldl_append, List.foldl_append] at hin
  have hn := (bif_inv cfg n rs h).n
  obtain ⟨_, V, hp, hV⟩ := pending_votes cfg inst v (getMaxFailures (nOf n h)) votes
    (step cfg (run cfg (init n rs) h) (.newView v req)) hall rfl
    ⟨by show getMaxFailures (run cfg (init n rs) h).n = _; rw [hn], fun hc => absurd rfl hc, fun d hd => by cases hd⟩ hin
  have hsub : ∀ x ∈ S, x ∈ V := fun x hx => hV x (hv x hx)
  have hne : V ≠ [] := by
    intro e
    cases S with
    | nil => simp at hlen
    | cons a t => have := hsub a (by simp); rw [e] at this; simp at this
  obtain ⟨d, _, h2, h3⟩ := hp.some hne
  have := keys_length_of_subset hS (fun y hy => h2 y (hsub y hy))
  omega

private def bifCfg : Cfg := ⟨0, .quorum, .quorum⟩
/-- Seven nodes, f = 2: two votes of one node and one of another do not drop instance
1, a third node's vote does; three own votes drop instance 2. -/
example : let h : List Event := [.newView 4 3, .received 4 [1] .degraded 5, .received 4 [1] .degraded 5, .received 4 [1, 2] .degraded 6]
    (run bifCfg (init 7 [0, 1, 2]) h).replicas = [0, 1, 2] ∧
    (run bifCfg (init 7 [0, 1, 2]) (h ++ [.received 4 [1] .other 3])).replicas = [0, 2] ∧
    (run bifCfg (init 7 [0, 1, 2]) [.degradation [2], .degradation [2]]).replicas = [0, 1, 2] ∧
    (run bifCfg (init 7 [0, 1, 2]) [.degradation [2], .degradation [2], .degradation [2]]).replicas = [0, 1] := by
  decide +kernel

end Verif.Props
