import Verif.Proofs.AnswersCount
/-!
# A request that is acknowledged has been passed on
-/
namespace Verif.Propagator

variable (cfg : Cfg)

/-- Only requests with a digest in `A` are recorded as propagated by the node itself. -/
def Own (A : Key → Prop) (p : State) : Prop :=
  ∀ k st, p.requests.get? k = some st → st.propagates.has (.str cfg.name) = true → A k

variable {cfg} {A : Key → Prop} {p : State}

theorem Own.update (h : Own cfg A p) (k : Key) (f : ReqState → ReqState)
    (hf : ∀ st, (f st).propagates.has (.str cfg.name) = true → A k ∨ st.propagates.has (.str cfg.name) = true) :
    Own cfg A (p.update k f) := by
  unfold State.update
  split
  · exact h
  · rename_i st hst
    intro j st' hj hh
    replace hj : (p.requests.set k (f st)).get? j = some st' := hj
    rw [Dict.get?_set] at hj
    split at hj
    · rename_i e
      subst e
      cases hj
      rcases hf st hh with h' | h'
      · exact h'
      · exact h k st hst h'
    · exact h j st' hj hh

theorem Own.of_eq {q : State} (h : Own cfg A p) (e : q.requests = p.requests) : Own cfg A q := by
  unfold Own; rw [e]; exact h

theorem Own.erase {q : State} (h : Own cfg A p) (k : Key) (e : q.requests = p.requests.erase k) : Own cfg A q := by
  intro j st hj hh
  rw [e, Dict.get?_erase] at hj
  split at hj
  · cases hj
  · exact h j st hj hh

theorem Own.add (h : Own cfg A p) (r : Req) : Own cfg A (p.add cfg r) := by
  unfold State.add
  split
  · exact h
  · intro j st hj hh
    replace hj : (p.requests.set (cfg.digest r) { request := r }).get? j = some st := hj
    rw [Dict.get?_set] at hj
    split at hj
    · cases hj; cases hh
    · exact h j st hj hh

theorem has_set_ne {d : Dict Sender Req} {a b : Sender} {r : Req} (hne : a ≠ b) (h : (d.set a r).has b = true) :
    d.has b = true := by
  unfold Dict.has at h ⊢
  rw [Dict.get?_set, if_neg hne] at h
  exact h

theorem Own.addPropagate (h : Own cfg A p) (r : Req) (f : Sender) (hf : f ≠ .str cfg.name ∨ A (cfg.digest r)) :
    Own cfg A (p.addPropagate cfg r f) := by
  refine (h.add r).update _ _ ?_
  intro st hh
  rcases hf with hf | hf
  · exact .inr (has_set_ne hf hh)
  · exact .inl hf

theorem Own.propagate (h : Own cfg A p) (r : Req) (hA : p.hasPropagated cfg r (.str cfg.name) = true ∨ A (cfg.digest r)) :
    Own cfg A (p.propagate cfg r) := by
  unfold State.propagate
  split
  · exact h
  · rename_i hn
    rcases hA with hA | hA
    · exact absurd hA hn
    · exact (h.addPropagate r _ (.inr hA)).of_eq rfl

theorem Own.tryForwarding (h : Own cfg A p) (r : Req) : Own cfg A (p.tryForwarding cfg r) := by
  unfold State.tryForwarding
  split
  · exact h
  · unfold State.forward State.setFinalised
    dsimp only
    refine Own.update ?_ _ _ (fun st hh => .inr hh)
    refine Own.of_eq (p := p.update _ _) ?_ rfl
    exact h.update _ _ (fun st hh => .inr hh)

theorem Own.clean (h : Own cfg A p) (k : Key) : Own cfg A (p.clean k) := by
  unfold State.clean
  split
  · exact h
  · split
    · exact h.erase k rfl
    · exact h

theorem Own.markExecuted (h : Own cfg A p) (k : Key) : Own cfg A (p.markExecuted k) := by
  unfold State.markExecuted
  split
  · refine Own.clean ?_ k
    refine Own.update ?_ _ _ (fun st hh => .inr hh)
    exact Own.of_eq h rfl
  · exact h

theorem Own.orderedBy (h : Own cfg A p) (k : Key) : Own cfg A (p.orderedBy k) :=
  h.update _ _ (fun _ hh => .inr hh)

theorem Own.free (h : Own cfg A p) (i : Inst) (k : Key) : Own cfg A (p.free i k) := by
  unfold State.free
  split
  · refine Own.clean ?_ k
    refine Own.update ?_ _ _ (fun st hh => .inr hh)
    exact Own.of_eq h rfl
  · exact h

theorem Own.forceFree (h : Own cfg A p) (k : Key) : Own cfg A (p.forceFree k) := by
  unfold State.forceFree
  split
  · exact h.erase k rfl
  · exact h

/-! ## The node's own PROPAGATE is recorded -/

theorem hasPropagated_update {k : Key} {f : ReqState → ReqState} {r : Req} {v : Sender}
    (hf : ∀ st, st.propagates.has v = true → (f st).propagates.has v = true)
    (h : p.hasPropagated cfg r v = true) : (p.update k f).hasPropagated cfg r v = true := by
  unfold State.hasPropagated at h ⊢
  unfold State.update
  cases hk : p.requests.get? k with
  | none => exact h
  | some st =>
    dsimp only
    rw [Dict.get?_set]
    by_cases e : k = cfg.digest r
    · rw [if_pos e]
      dsimp only
      rw [← e, hk] at h
      exact hf st h
    · rw [if_neg e]; exact h

theorem add_has (r : Req) : (p.add cfg r).requests.has (cfg.digest r) = true := by
  unfold State.add
  split
  · assumption
  · unfold Dict.has
    dsimp only
    rw [Dict.get?_set, if_pos rfl]; rfl

theorem hasPropagated_propagate (r : Req) : (p.propagate cfg r).hasPropagated cfg r (.str cfg.name) = true := by
  unfold State.propagate
  split
  · assumption
  · show State.hasPropagated cfg (p.addPropagate cfg r (.str cfg.name)) r _ = true
    obtain ⟨st, hst⟩ := Option.isSome_iff_exists.mp (add_has (cfg := cfg) (p := p) r)
    unfold State.addPropagate State.update
    rw [hst]
    unfold State.hasPropagated
    dsimp only
    rw [Dict.get?_set, if_pos rfl]
    dsimp only
    unfold Dict.has
    rw [Dict.get?_set, if_pos rfl]; rfl

theorem hasPropagated_tryForwarding {r : Req} {v : Sender} (q : Req) (h : p.hasPropagated cfg r v = true) :
    (p.tryForwarding cfg q).hasPropagated cfg r v = true := by
  unfold State.tryForwarding
  split
  · exact h
  · unfold State.forward State.setFinalised
    dsimp only
    refine hasPropagated_update (fun st hh => hh) ?_
    exact hasPropagated_update (p := p) (fun st hh => hh) h

end Verif.Propagator

namespace Verif.Answers
open Verif.Propagator (Key Req Sender Own)

variable (cfg : Cfg)

/-- A PROPAGATE for the digest is among the messages. -/
def passedOn (outs : List Out) (k : Key) : Prop := ∃ r c, .propagate r c ∈ outs ∧ cfg.prop.digest r = k

/-- The record of a request whose PROPAGATE the node has sent. -/
def Recorded (s : State) (k : Key) : Prop :=
  ∃ st, s.prop.requests.get? k = some st ∧ st.propagates.has (.str cfg.prop.name) = true

theorem own_mono {A B : Key → Prop} {p : Propagator.State} (h : Own cfg.prop A p) (hAB : ∀ k, A k → B k) :
    Own cfg.prop B p := fun k st hk hh => hAB k (h k st hk hh)

theorem passedOn_left {a b : List Out} (k : Key) (h : passedOn cfg a k) : passedOn cfg (a ++ b) k := by
  obtain ⟨r, c, h, e⟩ := h
  exact ⟨r, c, List.mem_append_left _ h, e⟩

/-- Sending the node's own PROPAGATE and noting it. -/
theorem own_propagate {s : State} {outs more : List Out} (h : Own cfg.prop (passedOn cfg outs) s.prop) (r : Req)
    (c : Option Client) (hm : ∀ o ∈ s.propagated cfg r c, o ∈ more) :
    Own cfg.prop (passedOn cfg (outs ++ more)) (s.prop.propagate cfg.prop r) := by
  refine (own_mono cfg h (passedOn_left cfg)).propagate r ?_
  unfold State.propagated at hm
  split at hm
  · rename_i hp; exact .inl hp
  · right
    exact ⟨r, c, List.mem_append_right _ (hm _ (by simp)), rfl⟩

theorem own_markAll {A : Key → Prop} (l : List (Req × Bool)) {p : Propagator.State} (h : Own cfg.prop A p) :
    Own cfg.prop A (l.foldl (fun p e => p.markExecuted (cfg.prop.digest e.1)) p) := by
  induction l generalizing p with
  | nil => exact h
  | cons e l ih => exact ih (h.markExecuted _)

theorem rejectOne_prop (s : State) (r : Req) : (s.rejectOne cfg r).1.prop = s.prop := by
  unfold State.rejectOne; split <;> rfl
theorem rejectAll_prop (s : State) (rs : List Req) : (s.rejectAll cfg rs).1.prop = s.prop := by
  induction rs generalizing s with
  | nil => rfl
  | cons r rs ih => exact (ih _).trans (rejectOne_prop cfg s r)
theorem replyOne_prop (s : State) (t : Req) (l n : Nat) : (s.replyOne cfg t l n).1.prop = s.prop := by
  unfold State.replyOne; split <;> rfl
theorem replyAll_prop (s : State) (l n : Nat) (ts : List Req) : (s.replyAll cfg l n ts).1.prop = s.prop := by
  induction ts generalizing s n with
  | nil => rfl
  | cons t ts ih => exact (ih _ _).trans (replyOne_prop cfg s t l n)
theorem updateDb_prop (s : State) (l : Nat) (ts : List (Req × Nat)) : (s.updateDb cfg l ts).prop = s.prop := by
  unfold State.updateDb; split <;> rfl
theorem learn_prop (s : State) (k : Key) (c : Option Client) : (s.learn k c).prop = s.prop := by
  unfold State.learn; split <;> rfl

theorem own_record {s : State} {outs : List Out} (h : Own cfg.prop (passedOn cfg outs) s.prop) (r : Req)
    (c : Option Client) : Own cfg.prop (passedOn cfg (outs ++ (s.record cfg r c).2)) (s.record cfg r c).1.prop :=
  (own_propagate cfg (s := { s with prop := s.prop.add cfg.prop r }) (h.add r) r c (fun _ ho => ho)).tryForwarding r

theorem own_addProp {s : State} {outs : List Out} (h : Own cfg.prop (passedOn cfg outs) s.prop) (r : Req) (f : Sender)
    (hf : f ≠ .str cfg.prop.name) (c : Option Client) :
    Own cfg.prop (passedOn cfg (outs ++ (s.addProp cfg r f c).2)) (s.addProp cfg r f c).1.prop :=
  (own_propagate cfg (s := { s with prop := s.prop.addPropagate cfg.prop r f }) (h.addPropagate r f (.inl hf)) r c
    (fun _ ho => ho)).tryForwarding r

theorem own_processPropagate {s : State} {outs : List Out} (h : Own cfg.prop (passedOn cfg outs) s.prop) (r : Req)
    (f : Sender) (hf : f ≠ .str cfg.prop.name) (c : Option Client) :
    Own cfg.prop (passedOn cfg (outs ++ (s.processPropagate cfg r f c).2)) (s.processPropagate cfg r f c).1.prop := by
  unfold State.processPropagate
  dsimp only
  split
  · exact own_addProp cfg (s := s.learn (cfg.prop.digest r) c) (by rw [learn_prop]; exact h) r f hf c
  · split
    · exact own_mono cfg h (passedOn_left cfg)
    · split
      · exact own_addProp cfg (s := s.start (cfg.prop.digest r) c) h r f hf c
      · exact own_mono cfg h (passedOn_left cfg)

theorem own_step {s : State} {outs : List Out} (h : Own cfg.prop (passedOn cfg outs) s.prop) (e : Ev)
    (he : e.fromOther cfg = true) : Own cfg.prop (passedOn cfg (outs ++ (s.step cfg e).2)) (s.step cfg e).1.prop := by
  have keep : ∀ x : State × List Out, Own cfg.prop (passedOn cfg outs) x.1.prop →
      Own cfg.prop (passedOn cfg (outs ++ x.2)) x.1.prop := fun x hx => own_mono cfg hx (passedOn_left cfg)
  cases e with
  | came r c =>
    show Own cfg.prop (passedOn cfg (outs ++ (s.came cfg r c).2)) (s.came cfg r c).1.prop
    unfold State.came
    split
    · exact keep (s, _) h
    · split
      · exact keep (s, _) h
      · exact keep (s, _) h
      · split
        · exact keep (s, _) h
        · unfold State.write
          dsimp only
          split
          · exact keep (s, _) h
          · split
            · rw [← List.append_assoc]
              exact own_mono cfg (own_record cfg h r (some c)) (passedOn_left cfg)
            · split
              · rw [← List.append_assoc]
                exact own_mono cfg (own_record cfg (s := s.start (cfg.prop.digest r) (some c)) h r (some c))
                  (passedOn_left cfg)
              · exact own_mono cfg h (passedOn_left cfg)
  | propagate r f d =>
    have hf : f ≠ .str cfg.prop.name := by simpa [Ev.fromOther] using he
    by_cases ha : cfg.prop.authentic r = true
    · have hs : s.step cfg (.propagate r f d) = s.processPropagate cfg r f d := if_pos ha
      rw [hs]; exact own_processPropagate cfg h r f hf d
    · have hs : s.step cfg (.propagate r f d) = (s, []) := if_neg ha
      rw [hs]; exact keep (s, _) h
  | propRep r f d =>
    have hf : f ≠ .str cfg.prop.name := by simpa [Ev.fromOther] using he
    exact own_processPropagate cfg h r f hf d
  | apply l ks =>
    refine keep (s.apply cfg l ks) ?_
    unfold State.apply
    split
    · exact h
    · split
      · split
        · exact h
        · rw [rejectAll_prop]; exact h
      · exact h
  | order =>
    refine keep (s.order cfg) ?_
    unfold State.order
    split
    · exact h
    · dsimp only
      rename_i b bs hp
      exact own_markAll cfg b.reqs (by rw [replyAll_prop, updateDb_prop]; exact h)
  | caughtUp r =>
    refine keep (s.caughtUp cfg r, []) ?_
    show Own cfg.prop (passedOn cfg outs) (s.caughtUp cfg r).prop
    unfold State.caughtUp
    split
    · dsimp only
      generalize hs : (s.append (cfg.ledgerOf r) [r]).updateDb cfg (cfg.ledgerOf r)
        [(r, (s.ledger (cfg.ledgerOf r)).length + 1)] = s'
      have h' : Own cfg.prop (passedOn cfg outs) s'.prop := by
        rw [← hs, updateDb_prop]; exact h
      unfold State.clear
      split
      · exact h'
      · dsimp only
        split <;> split
        · exact (((h'.markExecuted _).orderedBy _).free 0 _).forceFree _
        · exact h'.forceFree _
        · exact ((h'.markExecuted _).orderedBy _).free 0 _
        · exact h'
    · exact h
  | outdated k =>
    refine keep (s.outdated k, []) ?_
    show Own cfg.prop (passedOn cfg outs) (s.outdated k).prop
    unfold State.outdated
    split
    · exact h.forceFree k
    · exact h
  | revert n => exact keep ({ s with pending := s.pending.take n }, []) h
  | ordered k => exact keep ({ s with prop := s.prop.orderedBy k }, []) (h.orderedBy k)
  | released i k => exact keep ({ s with prop := (s.prop.orderedBy k).free i k }, []) ((h.orderedBy k).free i k)
  | replicas n => exact keep ({ s with prop := { s.prop with numReplicas := n } }, []) (h.of_eq rfl)
  | viewChange b => exact keep ({ s with viewChange := b }, []) h
  | restart =>
    intro k st hk
    exact (nomatch hk)

theorem own_run (es : List Ev) (he : ∀ e ∈ es, e.fromOther cfg = true) :
    Own cfg.prop (passedOn cfg (State.run cfg {} es).2) (State.run cfg {} es).1.prop := by
  induction es using snoc_induction with
  | nil => intro k st hk; exact (nomatch hk)
  | snoc es e ih =>
    rw [run_snoc]
    exact own_step cfg (ih (fun e h => he e (List.mem_append_left _ h))) e (he e (by simp))

theorem recorded_record (s : State) (r : Req) (c : Option Client) :
    Recorded cfg (s.record cfg r c).1 (cfg.prop.digest r) := by
  have h : ((s.prop.add cfg.prop r).propagate cfg.prop r |>.tryForwarding cfg.prop r).hasPropagated cfg.prop r
      (.str cfg.prop.name) = true :=
    Propagator.hasPropagated_tryForwarding r (Propagator.hasPropagated_propagate r)
  unfold Propagator.State.hasPropagated at h
  split at h
  · cases h
  · rename_i st hst
    exact ⟨st, hst, h⟩

/-- The node's answer to a write which it acknowledges. -/
theorem ack_recorded {s : State} {r : Req} {c d : Client} (hk : cfg.kind r = .write)
    (h : .client d (.ack r) ∈ (s.came cfg r c).2) : Recorded cfg (s.came cfg r c).1 (cfg.prop.digest r) := by
  unfold State.came at h ⊢
  split at h
  · have := List.mem_singleton.mp h; cases this
  · rename_i hv
    rw [if_neg hv]
    rw [hk] at h ⊢
    dsimp only at h ⊢
    split at h
    · exact (nomatch h)
    · rename_i hvc
      rw [if_neg hvc]
      unfold State.write at h ⊢
      dsimp only at h ⊢
      split at h
      · rename_i a ha
        have := List.mem_singleton.mp h
        cases this
        rcases fromLedger_cases cfg ha with h | ⟨_, _, _, h, _⟩ <;> cases h
      · split at h
        · rename_i hh; rw [if_pos hh]
          exact recorded_record cfg s r (some c)
        · rename_i hh
          rw [if_neg hh]
          split at h
          · rename_i hf; rw [if_pos hf]
            exact recorded_record cfg (s.start (cfg.prop.digest r) (some c)) r (some c)
          · have := List.mem_singleton.mp h; cases this

end Verif.Answers
