import Verif.Spec.Join
import Verif.Proofs.Count
/-! Invariants of joining a view change. -/
namespace Verif.VC

variable (cfg : Cfg)

theorem runJ_snoc (evs : List JEvent) (e : JEvent) : runJ cfg (evs ++ [e]) = (runJ cfg evs).step cfg e := by
  simp [runJ]

theorem arrived_snoc (evs : List JEvent) (e : JEvent) : arrived (evs ++ [e]) = arrived evs ++ arrived [e] := by
  simp [arrived]

/-- All messages a node keeps. -/
def Joiner.kept (j : Joiner) : List (VMsg × Node) := j.later ++ j.catching ++ j.inbox

/-- A view change is started because of message `(m, w)`. -/
structure Joins (j j' : Joiner) (m : VMsg) (w : Node) (v : Nat) : Prop where
  msg : isFor v (m, w) = true
  joined : j'.joined = j.joined ++ [v]
  enough : cfg.n - getMaxFailures cfg.n ≤ j.count v + 1
  idle : j.svc.waiting = false
  part : j.svc.participating = true
  view : j.svc.viewNo < v
  view' : j'.svc.viewNo = v
  waiting' : j'.svc.waiting = true
  last : (m, w) ∈ j'.later
  votes : ∀ x, x ≠ cfg.name → (j'.svc.votes.of x).vc = none

theorem need_view (s : Service) (v : Nat) (p pp : List BatchID) :
    (s.needViewChange cfg v p pp).viewNo = v ∧ (s.needViewChange cfg v p pp).waiting = true ∧
    (s.needViewChange cfg v p pp).participating = s.participating ∧ (s.needViewChange cfg v p pp).crashed = s.crashed ∧
    (s.needViewChange cfg v p pp).sentVC.length = s.sentVC.length + 1 := by
  refine ⟨rfl, rfl, rfl, rfl, ?_⟩
  simp [Service.needViewChange, Service.buildViewChange]

theorem need_votes (s : Service) (v : Nat) (p pp : List BatchID) (x : Node) (hx : x ≠ cfg.name) :
    ((s.needViewChange cfg v p pp).votes.of x).vc = none := by
  simp only [Service.needViewChange, Service.buildViewChange, Votes.addViewChange, Votes.of]
  rw [Dict.get?_set, if_neg (Ne.symm hx)]
  rfl

theorem count_set (j : Joiner) (v c x : Nat) :
    ({ j with counts := j.counts.set v c } : Joiner).count x = if v = x then c else j.count x := by
  unfold Joiner.count
  rw [Dict.get?_set]
  split <;> rfl

theorem vc_reached (n c : Nat) : (Quorums.ofN n).viewChange.isReached c = true ↔ n - getMaxFailures n ≤ c := by
  simp [Quorums.ofN, Quorum.isReached]

/-- The count and what it does. -/
theorem countLater_cases (j : Joiner) (v : Nat) (p pp : List BatchID) :
    (j.countLater cfg v p pp = { j with counts := j.counts.set v (j.count v + 1) } ∧
      (j.count v + 1 < cfg.n - getMaxFailures cfg.n ∨ j.svc.waiting = true)) ∨
    (j.countLater cfg v p pp =
      { ({ j with counts := j.counts.set v (j.count v + 1) } : Joiner).need cfg v p pp with joined := j.joined ++ [v] } ∧
      cfg.n - getMaxFailures cfg.n ≤ j.count v + 1 ∧ j.svc.waiting = false) := by
  have hc : ({ j with counts := j.counts.set v (j.count v + 1) } : Joiner).count v = j.count v + 1 := by
    rw [count_set, if_pos rfl]
  unfold Joiner.countLater
  dsimp only
  rw [hc]
  split
  · next h =>
    rw [Bool.and_eq_true, vc_reached, Bool.not_eq_true'] at h
    exact .inr ⟨rfl, h.1, h.2⟩
  · next h =>
    rw [Bool.and_eq_true, vc_reached, Bool.not_eq_true'] at h
    refine .inl ⟨rfl, ?_⟩
    rcases Nat.lt_or_ge (j.count v + 1) (cfg.n - getMaxFailures cfg.n) with h1 | h1
    · exact .inl h1
    · exact .inr (by cases hw : j.svc.waiting <;> simp_all)

theorem validate_stash {s : Service} {v : Nat} (h : s.validate v = .stash) (hp : s.participating = true) : s.viewNo < v := by
  unfold Service.validate at h
  by_cases h1 : v < s.viewNo
  · simp [h1] at h
  by_cases h2 : (decide (v = s.viewNo) && !s.waiting) = true
  · simp only [h1, h2] at h; simp at h
  simp only [h1, h2, hp] at h
  simp only [Bool.not_true, if_false] at h
  by_cases h3 : v > s.viewNo
  · exact h3
  · simp [h3] at h

/-- Looking at a message: what is kept, what is counted, which view is joined. -/
structure Looked (j j' : Joiner) (m : VMsg) (w : Node) : Prop where
  kept : ∀ q, j'.kept.countP q ≤ j.kept.countP q + (if q (m, w) then 1 else 0)
  counts : (∀ v, j.count v ≤ j.later.countP (isFor v)) → ∀ v, j'.count v ≤ j'.later.countP (isFor v)
  joined : j'.joined = j.joined ∨ ∃ v, Joins cfg j j' m w v

theorem kept_later (j : Joiner) (x : VMsg × Node) (q : VMsg × Node → Bool) :
    ({ j with later := j.later ++ [x] } : Joiner).kept.countP q = j.kept.countP q + (if q x then 1 else 0) := by
  simp only [Joiner.kept, List.countP_append, List.countP_singleton]; omega

theorem kept_catching (j : Joiner) (x : VMsg × Node) (q : VMsg × Node → Bool) :
    ({ j with catching := j.catching ++ [x] } : Joiner).kept.countP q = j.kept.countP q + (if q x then 1 else 0) := by
  simp only [Joiner.kept, List.countP_append, List.countP_singleton]; omega

theorem kept_need (j : Joiner) (v : Nat) (p pp : List BatchID) (q : VMsg × Node → Bool) :
    (j.need cfg v p pp).kept.countP q = j.kept.countP q := by
  simp only [Joiner.kept, Joiner.need, List.countP_append, List.countP_nil]; omega

theorem looked (j : Joiner) (m : VMsg) (w : Node) (p pp : List BatchID) : Looked cfg j (j.process cfg m w p pp) m w := by
  have le0 : ∀ q : VMsg × Node → Bool, ∀ a : Nat, a ≤ a + (if q (m, w) then 1 else 0) := fun q a => Nat.le_add_right _ _
  unfold Joiner.process
  split
  · exact ⟨fun q => le0 q _, fun h => h, .inl rfl⟩
  · exact ⟨fun q => le0 q _, fun h => h, .inl rfl⟩
  · next hst =>
    split
    · exact ⟨fun q => Nat.le_of_eq (kept_catching j (m, w) q), fun h => h, .inl rfl⟩
    · next hp =>
      have hp : j.svc.participating = true := by simpa using hp
      have hv := validate_stash hst hp
      have other : ∀ (c : ∀ v, isFor v (m, w) = false), Looked cfg j { j with later := j.later ++ [(m, w)] } m w := by
        intro c
        refine ⟨fun q => Nat.le_of_eq (kept_later j (m, w) q), fun h v => ?_, .inl rfl⟩
        show j.count v ≤ (j.later ++ [(m, w)]).countP (isFor v)
        rw [List.countP_append]
        exact Nat.le_trans (h v) (Nat.le_add_right _ _)
      cases m with
      | ack v n d => exact other fun _ => rfl
      | newView nv => exact other fun _ => rfl
      | viewChange vc =>
        dsimp only
        have hv : j.svc.viewNo < vc.viewNo := hv
        rcases countLater_cases cfg j vc.viewNo p pp with ⟨h, -⟩ | ⟨h, h1, h2⟩
        · rw [h]
          refine ⟨fun q => Nat.le_of_eq ?_, fun hc v => ?_, .inl rfl⟩
          · exact kept_later _ (.viewChange vc, w) q
          · show ({ j with counts := j.counts.set vc.viewNo (j.count vc.viewNo + 1) } : Joiner).count v ≤
              (j.later ++ [(VMsg.viewChange vc, w)]).countP (isFor v)
            rw [count_set, List.countP_append, List.countP_singleton]
            have := hc v
            by_cases hvv : vc.viewNo = v
            · subst hvv; simp [isFor]; omega
            · rw [if_neg hvv]; omega
        · rw [h]
          refine ⟨fun q => Nat.le_of_eq ?_, fun hc v => ?_, .inr ⟨vc.viewNo, ?_⟩⟩
          · have := kept_later ({ j with counts := j.counts.set vc.viewNo (j.count vc.viewNo + 1) }.need cfg vc.viewNo p pp) (.viewChange vc, w) q
            rw [kept_need] at this
            exact this
          · exact Nat.zero_le _
          · exact ⟨by simp [isFor], rfl, h1, h2, hp, hv, rfl, rfl, by simp, fun x hx => need_votes cfg _ _ _ _ x hx⟩

/-- What the queues hold is bounded by what arrived, the counts by what is kept
for later. -/
structure JInv (j : Joiner) (arr : List (VMsg × Node)) : Prop where
  kept : ∀ q, j.kept.countP q ≤ arr.countP q
  counts : ∀ v, j.count v ≤ j.later.countP (isFor v)

/-- One event: a message joins a view change, or no view is joined. -/
theorem JInv.step {j : Joiner} {arr : List (VMsg × Node)} (h : JInv j arr) (e : JEvent) :
    JInv (j.step cfg e) (arr ++ arrived [e]) ∧
    ((j.step cfg e).joined = j.joined ∨ ∃ m w v j0, Joins cfg j0 (j.step cfg e) m w v ∧ j0.joined = j.joined ∧
      j0.later = j.later ∧ j0.count v ≤ j.later.countP (isFor v) ∧ j0.svc = j.svc ∧
      (∀ q, (j.later ++ [(m, w)]).countP q ≤ (arr ++ arrived [e]).countP q)) := by
  have mono : ∀ q, arr.countP q ≤ (arr ++ arrived [e]).countP q := by
    intro q; rw [List.countP_append]; exact Nat.le_add_right _ _
  have same : JInv j (arr ++ arrived [e]) := ⟨fun q => Nat.le_trans (h.kept q) (mono q), h.counts⟩
  unfold Joiner.step
  split
  · exact ⟨same, .inl rfl⟩
  · cases e with
    | deliver m w p pp =>
      have ha : arrived [.deliver m w p pp] = [(m, w)] := rfl
      have L := looked cfg j m w p pp
      rw [ha]
      refine ⟨⟨fun q => ?_, L.counts h.counts⟩, ?_⟩
      · rw [List.countP_append, List.countP_singleton]
        exact Nat.le_trans (L.kept q) (by have := h.kept q; omega)
      · rcases L.joined with hj | ⟨v, hj⟩
        · exact .inl hj
        · refine .inr ⟨m, w, v, j, hj, rfl, rfl, h.counts v, rfl, fun q => ?_⟩
          have := h.kept q
          simp only [Joiner.kept, List.countP_append, List.countP_singleton] at *
          omega
    | next p pp =>
      have ha : arr ++ arrived [.next p pp] = arr := by simp [arrived]
      simp only [Joiner.handle]
      rw [ha] at same ⊢
      split
      · exact ⟨same, .inl rfl⟩
      · next m w rest hin =>
        have L := looked cfg { j with inbox := rest } m w p pp
        have hk : ∀ q, ({ j with inbox := rest } : Joiner).kept.countP q + (if q (m, w) then 1 else 0) = j.kept.countP q := by
          intro q
          simp only [Joiner.kept, hin, List.countP_append, List.countP_cons]
          omega
        refine ⟨⟨fun q => ?_, L.counts h.counts⟩, ?_⟩
        · have := L.kept q; rw [hk] at this; exact Nat.le_trans this (h.kept q)
        · rcases L.joined with hj | ⟨v, hj⟩
          · exact .inl hj
          · refine .inr ⟨m, w, v, _, hj, rfl, rfl, h.counts v, rfl, fun q => ?_⟩
            have := h.kept q
            rw [← hk q] at this
            simp only [Joiner.kept, List.countP_append, List.countP_singleton] at *
            omega
    | need v p pp =>
      simp only [Joiner.handle]
      split
      · exact ⟨same, .inl rfl⟩
      · exact ⟨⟨fun q => by rw [kept_need]; exact same.kept q, fun v => Nat.zero_le _⟩, .inl rfl⟩
    | shared b st cps => exact ⟨⟨same.kept, same.counts⟩, .inl rfl⟩
    | caughtUp =>
      refine ⟨⟨fun q => ?_, same.counts⟩, .inl rfl⟩
      have := same.kept q
      simp only [Joiner.handle, Joiner.kept, List.countP_append, List.countP_nil] at *
      omega

theorem JInv.run (evs : List JEvent) : JInv (runJ cfg evs) (arrived evs) := by
  induction evs using snoc_induction with
  | nil => exact ⟨fun q => by simp [runJ, Joiner.kept], fun v => by simp [runJ, Joiner.count]⟩
  | snoc evs e ih => rw [runJ_snoc, arrived_snoc]; exact (ih.step cfg e).1

theorem nodup_senders : ∀ {l : List (VMsg × Node)}, (∀ w, l.countP (fun x => x.2 == w) ≤ 1) → (l.map Prod.snd).Nodup := by
  intro l
  induction l with
  | nil => intro _; exact List.nodup_nil
  | cons a l ih =>
    intro h
    rw [List.map_cons, List.nodup_cons]
    refine ⟨fun hm => ?_, ih fun w => ?_⟩
    · obtain ⟨b, hb, hab⟩ := List.mem_map.1 hm
      have h1 := h a.2
      rw [List.countP_cons] at h1
      have h2 : 0 < l.countP (fun x => x.2 == a.2) := List.countP_pos_iff.2 ⟨b, hb, by simp [hab]⟩
      rw [if_pos (by simp)] at h1
      omega
    · have h1 := h w
      rw [List.countP_cons] at h1
      omega

theorem mem_arrived {evs : List JEvent} {m : VMsg} {w : Node} (h : (m, w) ∈ arrived evs) : ∃ p pp, .deliver m w p pp ∈ evs := by
  obtain ⟨e, he, h⟩ := List.mem_filterMap.1 h
  split at h
  · cases h; exact ⟨_, _, he⟩
  · cases h

/-- Outside view changes, an event that starts none leaves the view, and the
counts only grow. -/
theorem idle_step {j : Joiner} {e : JEvent} (hc : j.svc.crashed = false) (hp : j.svc.participating = true)
    (hw : j.svc.waiting = false) (hw' : (j.step cfg e).svc.waiting = false) (v : Nat) (hv : j.svc.viewNo < v) :
    (j.step cfg e).svc.viewNo = j.svc.viewNo ∧ j.count v + (arrived [e]).countP (isFor v) ≤ (j.step cfg e).count v ∧
    (j.count v < (j.step cfg e).count v → (j.step cfg e).count v < cfg.n - getMaxFailures cfg.n) := by
  have look : ∀ (i : Joiner) (m : VMsg) (w : Node) (p pp : List BatchID), i.svc = j.svc → i.counts = j.counts →
      (i.process cfg m w p pp).svc.waiting = false →
      (i.process cfg m w p pp).svc.viewNo = j.svc.viewNo ∧
      j.count v + [(m, w)].countP (isFor v) ≤ (i.process cfg m w p pp).count v ∧
      (j.count v < (i.process cfg m w p pp).count v → (i.process cfg m w p pp).count v < cfg.n - getMaxFailures cfg.n) := by
    intro i m w p pp hs hct h'
    have hic : ∀ x, i.count x = j.count x := fun x => by unfold Joiner.count; rw [hct]
    have notFor : ∀ x, m.viewNo ≠ x → [(m, w)].countP (isFor x) = 0 := by
      intro x hx
      rw [List.countP_singleton]
      cases m <;> simp_all [isFor, VMsg.viewNo]
    unfold Joiner.process at h' ⊢
    split
    · next hd =>
      have : m.viewNo ≠ v := by
        intro hm
        rw [hs, hm] at hd
        unfold Service.validate at hd
        rw [if_neg (by omega), if_neg (by simp; omega), if_neg (by simp [hp]), if_pos hv] at hd
        cases hd
      rw [notFor v this, hic, hs]
      exact ⟨rfl, Nat.le_refl _, fun h => absurd h (Nat.lt_irrefl _)⟩
    · next hd =>
      exfalso
      rw [hs] at hd
      unfold Service.validate at hd
      by_cases h1 : m.viewNo < j.svc.viewNo
      · rw [if_pos h1] at hd; cases hd
      · by_cases h2 : m.viewNo = j.svc.viewNo
        · rw [if_neg h1, if_pos (by simp [h2, hw])] at hd; cases hd
        · rw [if_neg h1, if_neg (by simp [h2]), if_neg (by simp [hp]), if_pos (by omega)] at hd; cases hd
    · next hd =>
      rw [hd, hs] at h'
      simp only [hp, Bool.not_true, Bool.false_eq_true, if_false] at h'
      rw [hs]
      simp only [hp, Bool.not_true, Bool.false_eq_true, if_false]
      cases m with
      | ack a b d => exact ⟨by rw [hs], Nat.le_of_eq (hic v).symm, fun h => absurd ((hic v) ▸ h) (Nat.lt_irrefl _)⟩
      | newView nv => exact ⟨by rw [hs], Nat.le_of_eq (hic v).symm, fun h => absurd ((hic v) ▸ h) (Nat.lt_irrefl _)⟩
      | viewChange vc =>
        dsimp only at h' ⊢
        rcases countLater_cases cfg i vc.viewNo p pp with ⟨h, hlt⟩ | ⟨h, -, -⟩
        · rw [h]
          have hlt : i.count vc.viewNo + 1 < cfg.n - getMaxFailures cfg.n := by
            rcases hlt with hlt | hlt
            · exact hlt
            · rw [hs, hw] at hlt; cases hlt
          have hcv : ({ i with counts := i.counts.set vc.viewNo (i.count vc.viewNo + 1), later := i.later ++ [(.viewChange vc, w)] } : Joiner).count v =
              if vc.viewNo = v then i.count vc.viewNo + 1 else i.count v := count_set i _ _ _
          refine ⟨by rw [← hs], ?_, ?_⟩
          · show _ ≤ ({ i with counts := i.counts.set vc.viewNo (i.count vc.viewNo + 1), later := i.later ++ [(.viewChange vc, w)] } : Joiner).count v
            rw [hcv, List.countP_singleton]
            by_cases hx : vc.viewNo = v
            · subst hx; simp [isFor, hic]
            · simp [isFor, hx, hic]
          · show _ < ({ i with counts := i.counts.set vc.viewNo (i.count vc.viewNo + 1), later := i.later ++ [(.viewChange vc, w)] } : Joiner).count v → _ <
              cfg.n - getMaxFailures cfg.n
            intro hgt
            have hgt : j.count v < ({ i with counts := i.counts.set vc.viewNo (i.count vc.viewNo + 1), later := i.later ++ [(.viewChange vc, w)] } : Joiner).count v := hgt
            show ({ i with counts := i.counts.set vc.viewNo (i.count vc.viewNo + 1), later := i.later ++ [(.viewChange vc, w)] } : Joiner).count v < _
            rw [hcv] at hgt ⊢
            by_cases hx : vc.viewNo = v
            · rw [if_pos hx]; exact hlt
            · rw [if_neg hx, hic] at hgt; exact absurd hgt (Nat.lt_irrefl _)
        · rw [h] at h'; cases h'
  unfold Joiner.step at hw' ⊢
  simp only [hc, Bool.false_eq_true, if_false] at hw' ⊢
  cases e with
  | deliver m w p pp => exact look j m w p pp rfl rfl hw'
  | next p pp =>
    simp only [Joiner.handle] at hw' ⊢
    have ha : (arrived [.next p pp]).countP (isFor v) = 0 := rfl
    rw [ha]
    split at hw'
    · exact ⟨rfl, Nat.le_refl _, fun h => absurd h (Nat.lt_irrefl _)⟩
    · next m w rest hin =>
      obtain ⟨h1, h2, h3⟩ := look { j with inbox := rest } m w p pp rfl rfl hw'
      exact ⟨h1, Nat.le_trans (Nat.le_add_right _ _) h2, h3⟩
  | need x p pp =>
    simp only [Joiner.handle] at hw' ⊢
    split
    · exact ⟨rfl, Nat.le_refl _, fun h => absurd h (Nat.lt_irrefl _)⟩
    · next hx => rw [if_neg hx] at hw'; cases hw'
  | shared b st cps => exact ⟨rfl, Nat.le_refl _, fun h => absurd h (Nat.lt_irrefl _)⟩
  | caughtUp => exact ⟨rfl, Nat.le_refl _, fun h => absurd h (Nat.lt_irrefl _)⟩

end Verif.VC
