import Verif.Proofs.Answers
/-!
# Which answers are sent
-/
namespace Verif.Answers
open Verif.Propagator (Key Req Sender)

variable (cfg : Cfg)

/-! ## From the ledger -/

theorem fromLedger_reply {s : State} (g : Good cfg s) {r : Req} (hp : s.byPayload.has (cfg.prop.payload r) = true)
    (hf : cfg.prop.digest r ∈ s.byFull) :
    ∃ t l m, s.fromLedger cfg r = some (.reply t l (m + 1)) ∧ (s.ledger l)[m]? = some t ∧
      cfg.prop.payload t = cfg.prop.payload r := by
  obtain ⟨⟨l, n⟩, hv⟩ := Option.isSome_iff_exists.mp hp
  obtain ⟨m, t, rfl, hm, ht⟩ := g.found _ l n hv
  refine ⟨t, l, m, ?_, hm, ht⟩
  unfold State.fromLedger
  rw [hv]
  dsimp only
  rw [if_pos hf, hm]
  rfl

theorem fromLedger_nack {s : State} {r : Req} (hp : s.byPayload.has (cfg.prop.payload r) = true)
    (hf : cfg.prop.digest r ∉ s.byFull) : s.fromLedger cfg r = some (.nack r) := by
  obtain ⟨⟨l, n⟩, hv⟩ := Option.isSome_iff_exists.mp hp
  unfold State.fromLedger
  rw [hv]
  dsimp only
  rw [if_neg hf]

/-- What is found in the ledger. -/
theorem fromLedger_cases {s : State} {r : Req} {a : Answer} (h : s.fromLedger cfg r = some a) :
    a = .nack r ∨ ∃ t l m, a = .reply t l (m + 1) ∧ (s.ledger l)[m]? = some t := by
  unfold State.fromLedger at h
  split at h
  · cases h
  · split at h
    · split at h
      · cases h
      · obtain ⟨t, ht, rfl⟩ := Option.map_eq_some_iff.mp h
        exact .inr ⟨t, _, _, rfl, ht⟩
    · cases h; exact .inl rfl

theorem fromLedger_none {s : State} (g : Good cfg s) {r : Req} (h : s.fromLedger cfg r = none) :
    s.byPayload.has (cfg.prop.payload r) = false := by
  cases hp : s.byPayload.has (cfg.prop.payload r) with
  | false => rfl
  | true =>
    exfalso
    by_cases hf : cfg.prop.digest r ∈ s.byFull
    · obtain ⟨t, l, m, e, _⟩ := fromLedger_reply cfg g hp hf
      rw [e] at h; cases h
    · rw [fromLedger_nack cfg hp hf] at h; cases h

/-! ## The senders of requests -/

theorem record_sender (s : State) (r : Req) (c : Option Client) : (s.record cfg r c).1.sender = s.sender := rfl
theorem addProp_sender (s : State) (r : Req) (f : Sender) (c : Option Client) :
    (s.addProp cfg r f c).1.sender = s.sender := rfl

theorem learn_get? (s : State) (j : Key) (c : Option Client) (k : Key) :
    (s.learn j c).sender.get? k = s.sender.get? k ∨
      (j = k ∧ s.sender.get? k = some none ∧ ∃ d, c = some d ∧ (s.learn j c).sender.get? k = some (some d)) := by
  unfold State.learn
  split
  · rename_i d hd
    by_cases e : j = k
    · subst e
      exact .inr ⟨rfl, hd, d, rfl, by simp [State.start, Dict.get?_set]⟩
    · left
      simp [State.start, Dict.get?_set, e]
  · exact .inl rfl

theorem done_get? (s : State) (j k : Key) :
    (s.done j).sender.get? k = if j = k then none else s.sender.get? k := by
  simp only [State.done, Dict.get?_erase]

theorem start_get? (s : State) (j : Key) (c : Option Client) (k : Key) :
    (s.start j c).sender.get? k = if j = k then some c else s.sender.get? k := by
  simp only [State.start, Dict.get?_set]

theorem has_eq (d : Dict Key (Option Client)) (k : Key) : d.has k = (d.get? k).isSome := rfl

/-- The sender after a message of a client: it stays, or is the client if there was none. -/
theorem came_sender (s : State) (r : Req) (c : Client) (k : Key) :
    (s.came cfg r c).1.sender.get? k = s.sender.get? k ∨
      (cfg.prop.digest r = k ∧ s.sender.get? k = none ∧ (s.came cfg r c).1.sender.get? k = some (some c)) := by
  unfold State.came
  split
  · exact .inl rfl
  · split
    · exact .inl rfl
    · exact .inl rfl
    · split
      · exact .inl rfl
      · unfold State.write
        dsimp only
        split
        · exact .inl rfl
        · split
          · exact .inl rfl
          · rename_i hn
            have hnone : s.sender.get? (cfg.prop.digest r) = none := by
              simpa [has_eq] using hn
            split
            · by_cases e : cfg.prop.digest r = k
              · subst e
                refine .inr ⟨rfl, hnone, ?_⟩
                rw [record_sender, start_get?, if_pos rfl]
              · left
                rw [record_sender, start_get?, if_neg e]
            · left
              rw [done_get?, start_get?]
              split
              · rename_i e; subst e; exact hnone.symm
              · rfl

/-- The same for a PROPAGATE. -/
theorem processPropagate_sender (s : State) (r : Req) (f : Sender) (c : Option Client) (k : Key) :
    (s.processPropagate cfg r f c).1.sender.get? k = s.sender.get? k ∨
      (cfg.prop.digest r = k ∧ (s.sender.get? k = none ∨ s.sender.get? k = some none) ∧
        (s.processPropagate cfg r f c).1.sender.get? k = some c) := by
  unfold State.processPropagate
  dsimp only
  split
  · rw [addProp_sender]
    rcases learn_get? s (cfg.prop.digest r) c k with h | ⟨h1, h2, d, rfl, h3⟩
    · exact .inl h
    · exact .inr ⟨h1, .inr h2, h3⟩
  · rename_i hn
    have hnone : s.sender.get? (cfg.prop.digest r) = none := by
      simpa [has_eq] using hn
    split
    · exact .inl rfl
    · split
      · by_cases e : cfg.prop.digest r = k
        · subst e
          refine .inr ⟨rfl, .inl hnone, ?_⟩
          rw [addProp_sender, start_get?, if_pos rfl]
        · left
          rw [addProp_sender, start_get?, if_neg e]
      · left
        rw [done_get?, start_get?]
        split
        · rename_i e; subst e; exact hnone.symm
        · rfl

theorem rejectOne_sender (s : State) (r : Req) (k : Key) :
    (s.rejectOne cfg r).1.sender.get? k = if cfg.prop.digest r = k then none else s.sender.get? k := by
  unfold State.rejectOne
  split
  · rename_i h
    split
    · rename_i e; subst e; exact h
    · rfl
  · exact done_get? _ _ _

theorem replyOne_sender (s : State) (t : Req) (l n : Nat) (k : Key) :
    (s.replyOne cfg t l n).1.sender.get? k = if cfg.prop.digest t = k then none else s.sender.get? k := by
  unfold State.replyOne
  split
  · rename_i h
    split
    · rename_i e; subst e; exact h
    · rfl
  · exact done_get? _ _ _

theorem rejectAll_sender (s : State) (rs : List Req) (k : Key) :
    (s.rejectAll cfg rs).1.sender.get? k =
      if rs.any (fun r => cfg.prop.digest r = k) then none else s.sender.get? k := by
  induction rs generalizing s with
  | nil => rfl
  | cons r rs ih =>
    rw [State.rejectAll]
    dsimp only
    rw [ih, rejectOne_sender, List.any_cons]
    by_cases h : cfg.prop.digest r = k <;> simp [h]

theorem replyAll_sender (s : State) (l n : Nat) (ts : List Req) (k : Key) :
    (s.replyAll cfg l n ts).1.sender.get? k =
      if ts.any (fun t => cfg.prop.digest t = k) then none else s.sender.get? k := by
  induction ts generalizing s n with
  | nil => rfl
  | cons r rs ih =>
    rw [State.replyAll]
    dsimp only
    rw [ih, replyOne_sender, List.any_cons]
    by_cases h : cfg.prop.digest r = k <;> simp [h]

/-! ## Which messages are sent -/

theorem rejectAll_out {s : State} {rs : List Req} {o : Out} (h : o ∈ (s.rejectAll cfg rs).2) :
    ∃ r ∈ rs, ∃ c, o = .client c (.reject r) ∧ s.sender.get? (cfg.prop.digest r) = some (some c) := by
  induction rs generalizing s with
  | nil => exact (nomatch h)
  | cons r rs ih =>
    rw [State.rejectAll] at h
    rcases List.mem_append.mp h with h | h
    · unfold State.rejectOne at h
      split at h
      · exact (nomatch h)
      · rename_i c hc
        cases c with
        | none => exact (nomatch h)
        | some c =>
          cases List.mem_singleton.mp h
          exact ⟨r, List.mem_cons_self, c, rfl, hc⟩
    · obtain ⟨q, hq, c, rfl, hs⟩ := ih h
      rw [rejectOne_sender] at hs
      split at hs
      · cases hs
      · exact ⟨q, List.mem_cons_of_mem _ hq, c, rfl, hs⟩

theorem replyAll_out {s : State} {l n : Nat} {ts : List Req} {o : Out} (h : o ∈ (s.replyAll cfg l n ts).2) :
    ∃ i t c, ts[i]? = some t ∧ o = .client c (.reply t l (n + i)) ∧
      s.sender.get? (cfg.prop.digest t) = some (some c) := by
  induction ts generalizing s n with
  | nil => exact (nomatch h)
  | cons r rs ih =>
    rw [State.replyAll] at h
    rcases List.mem_append.mp h with h | h
    · unfold State.replyOne at h
      split at h
      · exact (nomatch h)
      · rename_i c hc
        cases c with
        | none => exact (nomatch h)
        | some c =>
          cases List.mem_singleton.mp h
          exact ⟨0, r, c, rfl, rfl, hc⟩
    · obtain ⟨i, t, c, hi, rfl, hs⟩ := ih h
      rw [replyOne_sender] at hs
      split at hs
      · cases hs
      · exact ⟨i + 1, t, c, hi, by simp only [Nat.add_assoc, Nat.add_comm 1], hs⟩

theorem propagated_out {s : State} {r : Req} {c : Option Client} {o : Out} (h : o ∈ s.propagated cfg r c) :
    o = .propagate r c := by
  unfold State.propagated at h
  split at h
  · exact (nomatch h)
  · exact List.mem_singleton.mp h

theorem toClient_out {c : Option Client} {a : Answer} {o : Out} (h : o ∈ toClient c a) :
    ∃ d, c = some d ∧ o = .client d a := by
  unfold toClient at h
  split at h
  · exact (nomatch h)
  · exact ⟨_, rfl, List.mem_singleton.mp h⟩

theorem processPropagate_out {s : State} {r : Req} {f : Sender} {c : Option Client} {o : Out}
    (h : o ∈ (s.processPropagate cfg r f c).2) :
    o = .propagate r c ∨ ∃ d, c = some d ∧ o = .client d (.nack r) := by
  unfold State.processPropagate at h
  dsimp only at h
  split at h
  · exact .inl (propagated_out cfg h)
  · split at h
    · exact (nomatch h)
    · split at h
      · exact .inl (propagated_out cfg h)
      · exact .inr (toClient_out h)

/-- What the order of a batch sends. -/
theorem order_out {s : State} {o : Out} (h : o ∈ (s.order cfg).2) :
    ∃ l m t c, o = .client c (.reply t l (m + 1)) ∧ (((s.order cfg).1.ledger l)[m]? = some t) ∧
      s.sender.get? (cfg.prop.digest t) = some (some c) ∧ t ∈ s.uncommitted := by
  unfold State.order at h ⊢
  split at h
  · exact (nomatch h)
  · rename_i b bs hp
    dsimp only at h
    obtain ⟨i, t, c, hi, rfl, hs⟩ := replyAll_out cfg h
    refine ⟨b.ledger, (s.ledger b.ledger).length + i, t, c, ?_, ?_, ?_, ?_⟩
    · congr 1
      congr 1
      omega
    · dsimp only
      rw [(same_replyAll cfg _ b.ledger _ b.valid).ledger, updateDb_ledger]
      exact get_append_new (s := { s with pending := bs }) hi
    · have : ((({ s with pending := bs } : State).append b.ledger b.valid).updateDb cfg b.ledger
        (numbered ((s.ledger b.ledger).length + 1) b.valid)).sender = s.sender := by
        unfold State.updateDb
        split <;> rfl
      rw [this] at hs
      exact hs
    · unfold State.uncommitted
      rw [hp, List.flatMap_cons]
      exact List.mem_append_left _ (List.mem_of_getElem? hi)

theorem apply_out {s : State} {l : Nat} {ks : List Key} {o : Out} (h : o ∈ (s.apply cfg l ks).2) :
    ∃ r c, o = .client c (.reject r) ∧ s.sender.get? (cfg.prop.digest r) = some (some c) := by
  unfold State.apply at h
  split at h
  · exact (nomatch h)
  · split at h
    · split at h
      · exact (nomatch h)
      · obtain ⟨r, _, c, e, hs⟩ := rejectAll_out cfg h
        exact ⟨r, c, e, hs⟩
    · exact (nomatch h)

/-- Every REPLY with a transaction is the answer to a request sent again, or sent when the batch is ordered. -/
theorem step_reply {s : State} {e : Ev} {c : Client} {t : Req} {l n : Nat}
    (h : .client c (.reply t l n) ∈ (s.step cfg e).2) :
    (∃ m, n = m + 1 ∧ ((s.step cfg e).1.ledger l)[m]? = some t) ∧
    ((∃ r, e = .came r c ∧ s.fromLedger cfg r = some (.reply t l n)) ∨
      (e = .order ∧ s.sender.get? (cfg.prop.digest t) = some (some c) ∧ t ∈ s.uncommitted)) := by
  cases e with
  | came r d =>
    replace h : .client c (.reply t l n) ∈ (s.came cfg r d).2 := h
    have key : d = c ∧ s.fromLedger cfg r = some (.reply t l n) := by
      unfold State.came at h
      split at h
      · have := List.mem_singleton.mp h; cases this
      · split at h
        · unfold action at h
          split at h <;> simp at h
        · unfold query at h
          split at h <;> simp at h
        · split at h
          · exact (nomatch h)
          · unfold State.write at h
            dsimp only at h
            split at h
            · rename_i a ha
              cases List.mem_singleton.mp h
              exact ⟨rfl, ha⟩
            · split at h
              · rcases List.mem_append.mp h with h | h
                · have := propagated_out cfg h; cases this
                · have := List.mem_singleton.mp h; cases this
              · split at h
                · rcases List.mem_append.mp h with h | h
                  · have := propagated_out cfg h; cases this
                  · have := List.mem_singleton.mp h; cases this
                · have := List.mem_singleton.mp h; cases this
    obtain ⟨rfl, hl⟩ := key
    refine ⟨?_, .inl ⟨r, rfl, hl⟩⟩
    rcases fromLedger_cases cfg hl with h | ⟨t', l', m, h, hm⟩
    · cases h
    · cases h
      exact ⟨m, rfl, by rw [show (s.step cfg (.came r d)).1.ledger = s.ledger from (same_came cfg s r d).ledger]; exact hm⟩
  | propagate r f d =>
    replace h : .client c (.reply t l n) ∈ (if cfg.prop.authentic r then s.processPropagate cfg r f d else (s, [])).2 := h
    split at h
    · rcases processPropagate_out cfg h with h | ⟨_, _, h⟩ <;> cases h
    · exact (nomatch h)
  | propRep r f d =>
    rcases processPropagate_out cfg h with h | ⟨_, _, h⟩ <;> cases h
  | apply j ks =>
    obtain ⟨r, d, h, _⟩ := apply_out cfg h
    cases h
  | order =>
    obtain ⟨l', m, t', c', h, hm, hs, hu⟩ := order_out cfg h
    cases h
    exact ⟨⟨m, rfl, hm⟩, .inr ⟨rfl, hs, hu⟩⟩
  | revert n => exact (nomatch h)
  | caughtUp r => exact (nomatch h)
  | outdated k => exact (nomatch h)
  | ordered k => exact (nomatch h)
  | released i k => exact (nomatch h)
  | replicas n => exact (nomatch h)
  | viewChange b => exact (nomatch h)
  | restart => exact (nomatch h)

theorem clear_sender (s : State) (j k : Key) :
    (s.clear j).sender.get? k = s.sender.get? k ∨ (j = k ∧ (s.clear j).sender.get? k = none) := by
  by_cases e : j = k
  · subst e
    unfold State.clear
    split
    · exact .inl rfl
    · dsimp only
      split <;> split
      · exact .inr ⟨rfl, by rw [done_get?, if_pos rfl]⟩
      · exact .inr ⟨rfl, by rw [done_get?, if_pos rfl]⟩
      · exact .inr ⟨rfl, by rw [done_get?, if_pos rfl]⟩
      · exact .inl rfl
  · left
    unfold State.clear
    split
    · rfl
    · dsimp only
      split <;> split <;> simp only [done_get?, if_neg e]

theorem updateDb_sender (s : State) (l : Nat) (ts : List (Req × Nat)) :
    (s.updateDb cfg l ts).sender = s.sender := by
  unfold State.updateDb
  split <;> rfl

/-- How the sender of a key changes at an event. -/
theorem step_sender (s : State) (e : Ev) (k : Key) :
    (s.step cfg e).1.sender.get? k = s.sender.get? k ∨ (s.step cfg e).1.sender.get? k = none ∨
      (∃ r c, cfg.prop.digest r = k ∧ (s.step cfg e).1.sender.get? k = some (some c) ∧ e.names r c) ∨
      (e.brings cfg k = true ∧ (s.step cfg e).1.sender.get? k = some none) := by
  have pp : ∀ r f d, e.names r = (fun c => (r = r ∧ d = some c)) → e.brings cfg k = decide (cfg.prop.digest r = k) →
      ((s.processPropagate cfg r f d).1.sender.get? k = s.sender.get? k ∨
        (s.processPropagate cfg r f d).1.sender.get? k = none ∨
        (∃ r' c, cfg.prop.digest r' = k ∧ (s.processPropagate cfg r f d).1.sender.get? k = some (some c) ∧ e.names r' c) ∨
        (e.brings cfg k = true ∧ (s.processPropagate cfg r f d).1.sender.get? k = some none)) := by
    intro r f d hn hb
    rcases processPropagate_sender cfg s r f d k with h | ⟨h1, _, h3⟩
    · exact .inl h
    · cases d with
      | none => exact .inr (.inr (.inr ⟨by simp [hb, h1], h3⟩))
      | some d => exact .inr (.inr (.inl ⟨r, d, h1, h3, by rw [hn]; exact ⟨rfl, rfl⟩⟩))
  cases e with
  | came r c =>
    rcases came_sender cfg s r c k with h | ⟨h1, _, h3⟩
    · exact .inl h
    · exact .inr (.inr (.inl ⟨r, c, h1, h3, rfl, rfl⟩))
  | propagate r f d =>
    have := pp r f d (by funext c; rfl) rfl
    by_cases ha : cfg.prop.authentic r = true
    · have hs : s.step cfg (.propagate r f d) = s.processPropagate cfg r f d := if_pos ha
      rw [hs]; exact this
    · have hs : s.step cfg (.propagate r f d) = (s, []) := if_neg ha
      rw [hs]; exact .inl rfl
  | propRep r f d => exact pp r f d (by funext c; rfl) rfl
  | apply l ks =>
    show (s.apply cfg l ks).1.sender.get? k = _ ∨ (s.apply cfg l ks).1.sender.get? k = _ ∨ _
    unfold State.apply
    split
    · exact .inl rfl
    · split
      · split
        · exact .inl rfl
        · rw [rejectAll_sender]
          split
          · exact .inr (.inl rfl)
          · exact .inl rfl
      · exact .inl rfl
  | order =>
    show (s.order cfg).1.sender.get? k = _ ∨ (s.order cfg).1.sender.get? k = _ ∨ _
    unfold State.order
    split
    · exact .inl rfl
    · dsimp only
      rw [replyAll_sender, updateDb_sender]
      split
      · exact .inr (.inl rfl)
      · exact .inl rfl
  | caughtUp r =>
    show (s.caughtUp cfg r).sender.get? k = _ ∨ (s.caughtUp cfg r).sender.get? k = _ ∨ _
    unfold State.caughtUp
    split
    · dsimp only
      rcases clear_sender ((s.append (cfg.ledgerOf r) [r]).updateDb cfg (cfg.ledgerOf r)
        [(r, (s.ledger (cfg.ledgerOf r)).length + 1)]) (cfg.prop.digest r) k with h | ⟨_, h⟩
      · left; rw [h, updateDb_sender]; rfl
      · exact .inr (.inl h)
    · exact .inl rfl
  | outdated j =>
    show (s.outdated j).sender.get? k = _ ∨ (s.outdated j).sender.get? k = _ ∨ _
    unfold State.outdated
    split
    · rw [done_get?]
      split
      · exact .inr (.inl rfl)
      · exact .inl rfl
    · exact .inl rfl
  | revert n => exact .inl rfl
  | ordered j => exact .inl rfl
  | released i j => exact .inl rfl
  | replicas n => exact .inl rfl
  | viewChange b => exact .inl rfl
  | restart => exact .inr (.inl rfl)

/-- A client known as the sender of a request was named with it. -/
theorem sender_named (es : List Ev) (k : Key) (c : Client)
    (h : (State.run cfg {} es).1.sender.get? k = some (some c)) :
    ∃ e ∈ es, ∃ r, cfg.prop.digest r = k ∧ e.names r c := by
  induction es using snoc_induction with
  | nil => exact (nomatch h)
  | snoc es e ih =>
    rw [run_snoc] at h
    dsimp only at h
    rcases step_sender cfg (State.run cfg {} es).1 e k with g | g | ⟨r, d, hr, g, hn⟩ | ⟨_, g⟩
    · rw [g] at h
      obtain ⟨e', he', x⟩ := ih h
      exact ⟨e', List.mem_append_left _ he', x⟩
    · rw [g] at h; cases h
    · rw [g] at h
      cases h
      exact ⟨e, by simp, r, hr, hn⟩
    · rw [g] at h; cases h

/-- A request being processed was brought. -/
theorem sender_brought (es : List Ev) (k : Key) (h : ∀ e ∈ es, e.brings cfg k = false) :
    (State.run cfg {} es).1.sender.get? k = none := by
  induction es using snoc_induction with
  | nil => rfl
  | snoc es e ih =>
    rw [run_snoc]
    dsimp only
    have he := h e (by simp)
    have := ih (fun e he => h e (List.mem_append_left _ he))
    rcases step_sender cfg (State.run cfg {} es).1 e k with g | g | ⟨r, d, hr, g, hn⟩ | ⟨hb, g⟩
    · rw [g, this]
    · exact g
    · cases e <;> simp_all [Ev.names, Ev.brings]
    · rw [hb] at he; cases he

theorem reply_true (es : List Ev) {c : Client} {t : Req} {l n : Nat}
    (h : .client c (.reply t l n) ∈ (State.run cfg {} es).2) :
    (∃ m, n = m + 1 ∧ ((State.run cfg {} es).1.ledger l)[m]? = some t) ∧
    ∃ e ∈ es, ∃ r, e.names r c ∧ (cfg.prop.digest r = cfg.prop.digest t ∨ cfg.prop.payload r = cfg.prop.payload t) := by
  induction es using snoc_induction with
  | nil => exact (nomatch h)
  | snoc es e ih =>
    rw [run_snoc] at h ⊢
    dsimp only at h ⊢
    rcases List.mem_append.mp h with h | h
    · obtain ⟨⟨m, rfl, hm⟩, e', he', x⟩ := ih h
      refine ⟨⟨m, rfl, ?_⟩, e', List.mem_append_left _ he', x⟩
      have := get_of_run cfg (es := [e]) hm
      rw [run_single] at this
      exact this
    · obtain ⟨hm, hx⟩ := step_reply cfg h
      refine ⟨hm, ?_⟩
      rcases hx with ⟨r, rfl, hl⟩ | ⟨rfl, hs, _⟩
      · refine ⟨.came r c, by simp, r, ⟨rfl, rfl⟩, .inr ?_⟩
        have g := good_run cfg es
        unfold State.fromLedger at hl
        split at hl
        · cases hl
        · rename_i l' n' hv
          split at hl
          · split at hl
            · cases hl
            · obtain ⟨t', ht', e'⟩ := Option.map_eq_some_iff.mp hl
              cases e'
              obtain ⟨m', t'', hmm, hm', hp⟩ := g.found _ _ _ hv
              cases hmm
              rw [ht'] at hm'
              cases hm'
              exact hp.symm
          · cases hl
      · obtain ⟨e', he', r, hr, hn⟩ := sender_named cfg es _ c hs
        exact ⟨e', List.mem_append_left _ he', r, hn, .inl hr⟩

end Verif.Answers
