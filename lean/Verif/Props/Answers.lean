import Verif.Proofs.AnswersAck
import Verif.Proofs.AnswersReject
import Verif.Proofs.AnswersHistory
/-!
# C90: each request of a client is answered

Every request is answered at once, and only to the one who sent it; an acknowledged write has been passed on
to the other nodes; what a REPLY shows is in the ledger; when the request is ordered its client is told,
once. The last is partly false: see the counterexamples.
-/
namespace Verif.Props
open Verif.Answers
open Verif.Propagator (Key Req Sender)

/-- The answers among the messages, with their receivers. -/
def answersIn (o : List Out) : List (Client × Answer) :=
  o.filterMap (fun x => match x with
    | .client c a => some (c, a)
    | .propagate _ _ => none)

/-- Four nodes. A request is a number; the last digit stands for the signatures. Requests 10 and 20 exclude one
another; the requests of 90 to 99 are badly formed, 80 to 89 are forced and not allowed, 300 to 399 reads and 400 to
499 actions, of which those from 450 on fail. -/
def ansCfg : Verif.Answers.Cfg :=
  { prop := { name := 0, quorums := Quorums.ofN 4, digest := id, payload := (· / 10), authentic := (· ≠ 17),
              forcedOk := fun r => r / 10 ≠ 8 }
    kind := fun r => if r / 100 = 3 then .query else if r / 100 = 4 then .action else .write
    wellFormed := fun r => r / 10 ≠ 9
    readOk := fun _ => true
    actionOk := fun r => r < 450
    reqId := fun r => r + 1
    ledgerOf := fun _ => 1
    valid := fun h r => (r ≠ 20 || 10 ∉ h) && (r ≠ 10 || 20 ∉ h) }

/-- A run of the example. -/
def ansRun (es : List Ev) : Verif.Answers.State × List Out := State.run ansCfg {} es

/-! ## At once -/

/-- C90: in every state, a request is answered at once, to the client that sent it and to nobody else: with a REQNACK
if it is not well formed or not signed; an action with a REQACK and its result, or a REJECT; a read with a REQACK and
its result; a write with a REQACK, a REQNACK or a REPLY, one of them - or with nothing at all, in a view change. -/
theorem C90_answered (cfg : Verif.Answers.Cfg) (s : Verif.Answers.State) (r : Req) (c : Client) :
    ((cfg.wellFormed r && cfg.prop.authentic r) = false → answersIn (s.step cfg (.came r c)).2 = [(c, .nack r)]) ∧
    ((cfg.wellFormed r && cfg.prop.authentic r) = true →
      (cfg.kind r = .action → answersIn (s.step cfg (.came r c)).2 =
        [(c, .ack r), (c, if cfg.actionOk r then .result r else .reject r)]) ∧
      (cfg.kind r = .query → answersIn (s.step cfg (.came r c)).2 =
        [(c, if cfg.readOk r then .ack r else .nack r), (c, .result r)]) ∧
      (cfg.kind r = .write → s.viewChange = true → (s.step cfg (.came r c)).2 = []) ∧
      (cfg.kind r = .write → s.viewChange = false → ∃ a, answersIn (s.step cfg (.came r c)).2 = [(c, a)] ∧
        (a = .ack r ∨ a = .nack r ∨ ∃ t l n, a = .reply t l n))) := by
  have hstep : s.step cfg (.came r c) = s.came cfg r c := rfl
  have hprop : ∀ (s : Verif.Answers.State) c, answersIn (s.propagated cfg r c) = [] := by
    intro s c
    unfold State.propagated
    split <;> rfl
  rw [hstep]
  constructor
  · intro h
    unfold State.came
    rw [if_pos (by simp [h])]
    rfl
  · intro h
    have hn : ¬ (!(cfg.wellFormed r && cfg.prop.authentic r)) = true := by simp [h]
    refine ⟨?_, ?_, ?_, ?_⟩
    · intro hk; unfold State.came; rw [if_neg hn, hk]; rfl
    · intro hk; unfold State.came; rw [if_neg hn, hk]; rfl
    · intro hk hv; unfold State.came; rw [if_neg hn, hk]; dsimp only; rw [if_pos hv]
    · intro hk hv
      unfold State.came
      rw [if_neg hn, hk]
      dsimp only
      rw [if_neg (by simp [hv])]
      unfold State.write
      dsimp only
      split
      · rename_i a ha
        refine ⟨a, rfl, ?_⟩
        rcases fromLedger_cases cfg ha with h | ⟨t, l, m, h, _⟩
        · exact .inr (.inl h)
        · exact .inr (.inr ⟨t, l, m + 1, h⟩)
      · split
        · refine ⟨.ack r, ?_, .inl rfl⟩
          show answersIn (State.propagated cfg _ r (some c) ++ _) = _
          unfold answersIn at hprop ⊢
          rw [List.filterMap_append, hprop]
          rfl
        · split
          · refine ⟨.ack r, ?_, .inl rfl⟩
            show answersIn (State.propagated cfg _ r (some c) ++ _) = _
            unfold answersIn at hprop ⊢
            rw [List.filterMap_append, hprop]
            rfl
          · exact ⟨.nack r, rfl, .inr (.inl rfl)⟩

-- a write, a badly formed one, one with a wrong signature, a forced one which is not allowed, a read, an action, one that fails
example : (ansRun [.came 70 5, .came 91 5, .came 17 5, .came 80 5, .came 300 6, .came 400 6, .came 450 6]).2 =
    [.propagate 70 (some 5), .client 5 (.ack 70), .client 5 (.nack 91), .client 5 (.nack 17), .client 5 (.nack 80),
      .client 6 (.ack 300), .client 6 (.result 300), .client 6 (.ack 400), .client 6 (.result 400),
      .client 6 (.ack 450), .client 6 (.reject 450)] := by decide +kernel

/-- C90: a request is left without any answer exactly if it is a correct write and there is a view change. The comment of
`unpackClientMsg` says that a REQNACK is sent then. -/
theorem C90_silent_partial (cfg : Verif.Answers.Cfg) (s : Verif.Answers.State) (r : Req) (c : Client) :
    answersIn (s.step cfg (.came r c)).2 = [] ↔
      (cfg.wellFormed r && cfg.prop.authentic r) = true ∧ cfg.kind r = .write ∧ s.viewChange = true := by
  obtain ⟨h1, h2⟩ := C90_answered cfg s r c
  constructor
  · intro h
    cases hv : (cfg.wellFormed r && cfg.prop.authentic r) with
    | false => rw [h1 hv] at h; cases h
    | true =>
      obtain ⟨ha, hq, _, hw⟩ := h2 hv
      cases hk : cfg.kind r with
      | action => rw [ha hk] at h; cases h
      | query => rw [hq hk] at h; cases h
      | write =>
        cases hvc : s.viewChange with
        | true => exact ⟨rfl, rfl, rfl⟩
        | false =>
          obtain ⟨a, h', _⟩ := hw hk hvc
          rw [h'] at h; cases h
  · rintro ⟨hv, hk, hvc⟩
    rw [(h2 hv).2.2.1 hk hvc]; rfl

/-- C90 fails as stated: during a view change a client gets no answer to a correct request. -/
theorem C90_view_change_silent : (ansRun [.viewChange true, .came 70 5, .viewChange false]).2 = [] := by decide +kernel

/-! ## What the answers mean -/

/-- C90: when a node acknowledges a write it has a record of the request, which holds its own PROPAGATE, and has sent
a PROPAGATE for this digest to all nodes - in any run, unless someone sends PROPAGATEs in the name of this node. -/
theorem C90_ack_means (cfg : Verif.Answers.Cfg) (es : List Ev) (he : ∀ e ∈ es, e.fromOther cfg = true) (r : Req)
    (c : Client) (hk : cfg.kind r = .write)
    (h : .client c (.ack r) ∈ ((State.run cfg {} es).1.step cfg (.came r c)).2) :
    (∃ st, ((State.run cfg {} es).1.step cfg (.came r c)).1.prop.requests.get? (cfg.prop.digest r) = some st ∧
      st.propagates.has (.str cfg.prop.name) = true) ∧
    ∃ q d, .propagate q d ∈ (State.run cfg {} (es ++ [.came r c])).2 ∧ cfg.prop.digest q = cfg.prop.digest r := by
  have hr := ack_recorded cfg (s := (State.run cfg {} es).1) hk h
  refine ⟨hr, ?_⟩
  obtain ⟨st, hst, hh⟩ := hr
  have ho := own_run cfg (es ++ [.came r c]) (by
    intro e he'
    rcases List.mem_append.mp he' with h | h
    · exact he e h
    · rw [List.mem_singleton.mp h]; rfl)
  refine ho _ st ?_ hh
  rw [run_snoc]
  exact hst

example : .client 5 (.ack 70) ∈ ((ansRun [.propagate 70 (.str 2) none]).1.step ansCfg (.came 70 5)).2 ∧
    (ansRun [.propagate 70 (.str 2) none, .came 70 5]).2 = [.propagate 70 none, .client 5 (.ack 70)] := by decide +kernel

/-- C90: every REPLY with a transaction, at any time, shows a transaction of the ledger, with its number, and it stays
there; it goes to a client that sent a request with the same digest or the same payload, or that a node said had sent one. -/
theorem C90_reply_true (cfg : Verif.Answers.Cfg) (es : List Ev) (c : Client) (t : Req) (l n : Nat)
    (h : .client c (.reply t l n) ∈ (State.run cfg {} es).2) :
    (n ≠ 0 ∧ ((State.run cfg {} es).1.ledger l)[n - 1]? = some t) ∧
    ∃ e ∈ es, ∃ r, e.names r c ∧ (cfg.prop.digest r = cfg.prop.digest t ∨ cfg.prop.payload r = cfg.prop.payload t) := by
  obtain ⟨⟨m, rfl, hm⟩, hx⟩ := reply_true cfg es h
  exact ⟨⟨by omega, hm⟩, hx⟩

/-- C90: a transaction never leaves its place in a ledger. -/
theorem C90_reply_stays (cfg : Verif.Answers.Cfg) (es more : List Ev) (l i : Nat) (t : Req)
    (h : ((State.run cfg {} es).1.ledger l)[i]? = some t) : ((State.run cfg {} (es ++ more)).1.ledger l)[i]? = some t := by
  rw [run_append]
  exact get_of_run cfg h

-- an ordered request, after another one
example : (ansRun [.came 60 4, .came 70 5, .apply 1 [60, 70], .order]).2 =
    [.propagate 60 (some 4), .client 4 (.ack 60), .propagate 70 (some 5), .client 5 (.ack 70),
      .client 4 (.reply 60 1 1), .client 5 (.reply 70 1 2)] := by decide +kernel

/-! ## Sending again -/

/-- C90: whatever happened - other clients, wrong names, timeouts, catchups, restarts -, a client that sends again a request
whose transaction is in a ledger gets the transaction, at once and alone; nothing else changes. -/
theorem C90_sent_again (cfg : Verif.Answers.Cfg) (es : List Ev)
    (hid : ∀ l t, t ∈ (State.run cfg {} es).1.ledger l → cfg.reqId t ≠ 0) (r : Req) (c : Client) (l : Nat) (t : Req)
    (ht : t ∈ (State.run cfg {} es).1.ledger l) (hd : cfg.prop.digest r = cfg.prop.digest t)
    (hp : cfg.prop.payload r = cfg.prop.payload t) (hv : (cfg.wellFormed r && cfg.prop.authentic r) = true)
    (hk : cfg.kind r = .write) (hvc : (State.run cfg {} es).1.viewChange = false) :
    ∃ t' l' n, (State.run cfg {} es).1.step cfg (.came r c) = ((State.run cfg {} es).1, [.client c (.reply t' l' n)]) ∧
      n ≠ 0 ∧ ((State.run cfg {} es).1.ledger l')[n - 1]? = some t' ∧ cfg.prop.payload t' = cfg.prop.payload r := by
  have g := good_run cfg es
  obtain ⟨h1, h2⟩ := g.known hid l t ht
  rw [← hp] at h1
  rw [← hd] at h2
  obtain ⟨t', l', m, hf, hm, hp'⟩ := fromLedger_reply cfg g h1 h2
  refine ⟨t', l', m + 1, ?_, by omega, hm, hp'⟩
  show State.came cfg _ r c = _
  unfold State.came
  rw [if_neg (by simp [hv]), hk]
  dsimp only
  rw [if_neg (by simp [hvc])]
  unfold State.write
  rw [hf]

/-- C90: a request whose payload is in a ledger, and which has other signatures than all transactions there, is refused,
and changes nothing: it is not executed a second time. -/
theorem C90_other_signatures (cfg : Verif.Answers.Cfg) (es : List Ev)
    (hid : ∀ l t, t ∈ (State.run cfg {} es).1.ledger l → cfg.reqId t ≠ 0) (r : Req) (c : Client) (l : Nat) (t : Req)
    (ht : t ∈ (State.run cfg {} es).1.ledger l) (hp : cfg.prop.payload r = cfg.prop.payload t)
    (hd : ∀ j u, u ∈ (State.run cfg {} es).1.ledger j → cfg.prop.digest u ≠ cfg.prop.digest r)
    (hv : (cfg.wellFormed r && cfg.prop.authentic r) = true)
    (hk : cfg.kind r = .write) (hvc : (State.run cfg {} es).1.viewChange = false) :
    (State.run cfg {} es).1.step cfg (.came r c) = ((State.run cfg {} es).1, [.client c (.nack r)]) := by
  have g := good_run cfg es
  obtain ⟨h1, _⟩ := g.known hid l t ht
  rw [← hp] at h1
  have h2 : cfg.prop.digest r ∉ (State.run cfg {} es).1.byFull := by
    intro h
    obtain ⟨j, u, hu, e⟩ := g.full _ h
    exact hd j u hu e
  show State.came cfg _ r c = _
  unfold State.came
  rw [if_neg (by simp [hv]), hk]
  dsimp only
  rw [if_neg (by simp [hvc])]
  unfold State.write
  rw [fromLedger_nack cfg h1 h2]

-- 71 has the payload of 70; a transaction that was caught up, and one that was ordered, are found after a restart
example : (ansRun [.caughtUp 60, .came 70 5, .apply 1 [70], .order, .restart, .came 70 9, .came 60 9, .came 71 9]).2 =
    [.propagate 70 (some 5), .client 5 (.ack 70), .client 5 (.reply 70 1 2),
      .client 9 (.reply 70 1 2), .client 9 (.reply 60 1 1), .client 9 (.nack 71)] := by decide +kernel

/-! ## The end is told -/

/-- C90, in part: if a node first hears of a request from a client and acknowledges it, and has not told how it ended, has
not been started again, nor found the request outdated, nor caught up its transaction, then, when a batch is ordered
that puts a transaction with its digest into a ledger, this client gets a REPLY with such a transaction and its number.
Missing: the requests for which one of this is not so, see below. -/
theorem C90_replied_partial (cfg : Verif.Answers.Cfg) (es fs : List Ev) (r : Req) (c : Client) (hk : cfg.kind r = .write)
    (hnew : ∀ e ∈ es, e.brings cfg (cfg.prop.digest r) = false)
    (hack : .client c (.ack r) ∈ ((State.run cfg {} es).1.step cfg (.came r c)).2)
    (hf : ∀ e ∈ fs, e.forgets cfg (cfg.prop.digest r) = false)
    (hend : ∀ o ∈ (((State.run cfg {} es).1.step cfg (.came r c)).1.run cfg fs).2, o.ends cfg (cfg.prop.digest r) = false)
    (l : Nat) (ts : List Req) (t : Req)
    (hl : (((State.run cfg {} (es ++ .came r c :: fs)).1.step cfg .order).1).ledger l =
      (State.run cfg {} (es ++ .came r c :: fs)).1.ledger l ++ ts) (ht : t ∈ ts)
    (hd : cfg.prop.digest t = cfg.prop.digest r) :
    ∃ t' n, .client c (.reply t' l n) ∈ ((State.run cfg {} (es ++ .came r c :: fs)).1.step cfg .order).2 ∧
      cfg.prop.digest t' = cfg.prop.digest r ∧ n ≠ 0 ∧
      ((((State.run cfg {} (es ++ .came r c :: fs)).1.step cfg .order).1).ledger l)[n - 1]? = some t' := by
  have h2 := known_after cfg es fs r c hk hnew hack hf hend
  generalize (State.run cfg {} (es ++ .came r c :: fs)).1 = u at h2 hl ⊢
  replace hl : (u.order cfg).1.ledger l = u.ledger l ++ ts := hl
  show ∃ t' n, _ ∈ (u.order cfg).2 ∧ _ ∧ _ ∧ ((u.order cfg).1.ledger l)[n - 1]? = some t'
  cases hp : u.pending with
  | nil =>
    have : (u.order cfg).1.ledger l = u.ledger l := by unfold State.order; rw [hp]
    rw [this] at hl
    have := List.self_eq_append_right.mp hl
    rw [this] at ht; exact (nomatch ht)
  | cons b bs =>
    have hled : (u.order cfg).1.ledger l = if l = b.ledger then u.ledger b.ledger ++ b.valid else u.ledger l := by
      unfold State.order
      rw [hp]
      dsimp only
      rw [(same_replyAll cfg _ b.ledger _ b.valid).ledger, updateDb_ledger, append_ledger]
    by_cases e : l = b.ledger
    · subst e
      rw [hled, if_pos rfl] at hl ⊢
      have hts : b.valid = ts := List.append_cancel_left hl
      subst hts
      obtain ⟨i, t', hi, hdt, hm⟩ := order_told cfg hp h2 (List.any_eq_true.mpr ⟨t, ht, by simpa using hd⟩)
      refine ⟨t', _, hm, hdt, by omega, ?_⟩
      rw [show (u.ledger b.ledger).length + 1 + i - 1 = (u.ledger b.ledger).length + i by omega,
        List.getElem?_append_right (by omega)]
      simpa using hi
    · rw [hled, if_neg e] at hl
      have := List.self_eq_append_right.mp hl
      rw [this] at ht; exact (nomatch ht)

-- the hypotheses are met: other requests and PROPAGATEs with other names come in between, a batch is reverted
example :
    (∀ e ∈ [Ev.came 60 4], e.brings ansCfg 70 = false) ∧
    .client 5 (.ack 70) ∈ ((ansRun [.came 60 4]).1.step ansCfg (.came 70 5)).2 ∧
    (∀ e ∈ [Ev.propagate 70 (.str 2) (some 8), .came 70 9, .apply 1 [60, 70], .revert 0, .outdated 60, .apply 1 [70]],
      e.forgets ansCfg 70 = false) ∧
    (ansRun [.came 60 4, .came 70 5, .propagate 70 (.str 2) (some 8), .came 70 9, .apply 1 [60, 70], .revert 0,
      .outdated 60, .apply 1 [70], .order]).2 =
      [.propagate 60 (some 4), .client 4 (.ack 60), .propagate 70 (some 5), .client 5 (.ack 70), .client 9 (.ack 70),
        .client 5 (.reply 70 1 1)] := by decide +kernel

/-- C90, in part: under the same conditions, when a batch is applied in which a request with its digest is found to be
invalid, this client gets a REJECT. Missing: as above. -/
theorem C90_rejected_partial (cfg : Verif.Answers.Cfg) (es fs : List Ev) (r : Req) (c : Client) (hk : cfg.kind r = .write)
    (hnew : ∀ e ∈ es, e.brings cfg (cfg.prop.digest r) = false)
    (hack : .client c (.ack r) ∈ ((State.run cfg {} es).1.step cfg (.came r c)).2)
    (hf : ∀ e ∈ fs, e.forgets cfg (cfg.prop.digest r) = false)
    (hend : ∀ o ∈ (((State.run cfg {} es).1.step cfg (.came r c)).1.run cfg fs).2, o.ends cfg (cfg.prop.digest r) = false)
    (l : Nat) (ks : List Key) (b : Batch) (t : Req)
    (hb : ((State.run cfg {} (es ++ .came r c :: fs)).1.step cfg (.apply l ks)).1.pending =
      (State.run cfg {} (es ++ .came r c :: fs)).1.pending ++ [b]) (ht : (t, false) ∈ b.reqs)
    (hd : cfg.prop.digest t = cfg.prop.digest r) :
    ∃ t', cfg.prop.digest t' = cfg.prop.digest r ∧
      .client c (.reject t') ∈ ((State.run cfg {} (es ++ .came r c :: fs)).1.step cfg (.apply l ks)).2 :=
  apply_told cfg hb (known_after cfg es fs r c hk hnew hack hf hend) ht hd

example : ((ansRun [.caughtUp 10, .came 20 5, .came 60 4]).1.step ansCfg (.apply 1 [20, 60])).2 = [.client 5 (.reject 20)] := by
  decide +kernel

/-- C90: in a batch that is applied each request has the verdict of the dynamic validation on all that was ordered, or applied,
before it: in this batch those found valid. The requests are those of the digests in the PRE-PREPARE. -/
theorem C90_verdicts (cfg : Verif.Answers.Cfg) (s : Verif.Answers.State) (l : Nat) (ks : List Key) (b : Batch)
    (h : (s.step cfg (.apply l ks)).1.pending = s.pending ++ [b]) :
    ks.map (fun k => (s.prop.requests.get? k).map (·.request)) = b.reqs.map (fun x => some x.1) ∧
    ∀ v1 r ok v2, b.reqs = v1 ++ (r, ok) :: v2 →
      ok = cfg.valid (s.history ++ s.pending.flatMap Batch.valid ++ (v1.filter Prod.snd).map Prod.fst) r :=
  (apply_batch cfg h).2

example : (ansRun [.came 10 5, .came 20 5, .came 60 4, .apply 1 [60], .apply 1 [10, 20]]).1.pending =
    [{ ledger := 1, reqs := [(60, true)] }, { ledger := 1, reqs := [(10, true), (20, false)] }] := by decide +kernel

/-- C90: what the verdicts look at is what was ordered: each ledger is the part of the history that belongs to it, in the
same order, and what was ordered stays in it, before what comes later. -/
theorem C90_history (cfg : Verif.Answers.Cfg) (es : List Ev) (l : Nat) :
    (State.run cfg {} es).1.history.filter (fun r => cfg.ledgerOf r = l) = (State.run cfg {} es).1.ledger l ∧
    ∀ e, ∃ ts, ((State.run cfg {} es).1.step cfg e).1.history = (State.run cfg {} es).1.history ++ ts :=
  ⟨(tied_run es).tied l, fun e => history_step _ e⟩

example : (ansRun [.caughtUp 10, .came 60 4, .apply 1 [60], .order]).1.history = [10, 60] := by decide +kernel

/-- C90: a REJECT of a write is sent only when a batch is applied in which the request is found to be invalid, to a client
that sent it, or that a node said had sent it. -/
theorem C90_reject_true (cfg : Verif.Answers.Cfg) (es : List Ev) (c : Client) (r : Req) (hk : cfg.kind r ≠ .action)
    (h : .client c (.reject r) ∈ (State.run cfg {} es).2) :
    ∃ pre l ks post, es = pre ++ .apply l ks :: post ∧
      (∃ b, ((State.run cfg {} pre).1.step cfg (.apply l ks)).1.pending = (State.run cfg {} pre).1.pending ++ [b] ∧
        (r, false) ∈ b.reqs) ∧
      ∃ e ∈ pre, ∃ q, e.names q c ∧ cfg.prop.digest q = cfg.prop.digest r := by
  obtain ⟨pre, l, ks, post, rfl, hx⟩ := run_reject cfg es h hk
  obtain ⟨hs, hb⟩ := apply_reject cfg hx
  obtain ⟨e, he, q, hq, hn⟩ := sender_named cfg pre _ c hs
  exact ⟨pre, l, ks, post, rfl, hb, e, he, q, hn, hq⟩

/-- C90: what a node tells of its own accord about the end of a request - in a REPLY or a REJECT - it tells at most as often
as the request was brought to it, by clients or in PROPAGATEs. -/
theorem C90_ends (cfg : Verif.Answers.Cfg) (es : List Ev) (k : Key) :
    (pushed (State.trace cfg {} es)).countP (Out.ends cfg k) ≤ es.countP (fun e => e.brings cfg k) := by
  have := pushed_ends cfg {} es k
  have h0 : held ({} : Verif.Answers.State) k = 0 := rfl
  omega

/-- C90: nor, in any state, more than once until it is brought again. -/
theorem C90_end_once (cfg : Verif.Answers.Cfg) (s : Verif.Answers.State) (es : List Ev) (k : Key)
    (h : ∀ e ∈ es, e.brings cfg k = false) : (pushed (s.trace cfg es)).countP (Out.ends cfg k) ≤ 1 := by
  have := pushed_ends cfg s es k
  have h0 := held_le s k
  have h1 : es.countP (fun e => e.brings cfg k) = 0 := by
    rw [List.countP_eq_zero]; intro e he; simp [h e he]
  omega

-- the REPLY is told once, though two PROPAGATEs are received
example : (pushed (State.trace ansCfg {} [.propagate 70 (.str 1) (some 5), .propagate 70 (.str 2) (some 5), .apply 1 [70], .order])) =
    [.propagate 70 (some 5), .client 5 (.reply 70 1 1)] := by decide +kernel

/-- C90: over a whole run, at most one REPLY for a payload is sent when a batch is ordered, if requests have a `reqId` and
those with the same payload are for the same ledger. -/
theorem C90_once (cfg : Verif.Answers.Cfg) (hid : ∀ r, cfg.reqId r ≠ 0)
    (hl : ∀ r q, cfg.prop.payload r = cfg.prop.payload q → cfg.ledgerOf r = cfg.ledgerOf q) (es : List Ev) (p : Key) :
    (pushed (State.trace cfg {} es)).countP (Out.replies cfg p) ≤ 1 := by
  have h := pushed_seen cfg hl hid (s := {}) ⟨List.nodup_nil, fun u hu => (nomatch hu)⟩ es p
  have : seen (State.run cfg {} es).1 p ≤ 1 := by unfold seen; split <;> omega
  omega

example : (∀ r, ansCfg.reqId r ≠ 0) ∧ (∀ r q, ansCfg.prop.payload r = ansCfg.prop.payload q → ansCfg.ledgerOf r = ansCfg.ledgerOf q) :=
  ⟨fun r => by simp [ansCfg], fun _ _ _ => rfl⟩

/-! ## Where it fails -/

/-- C90 fails as stated: the second client that sends a request - or the same client with a new connection - is acknowledged
and is never told the end, though the request is ordered. -/
theorem C90_second_client : (ansRun [.came 70 5, .came 70 6, .apply 1 [70], .order]).2 =
    [.propagate 70 (some 5), .client 5 (.ack 70), .client 6 (.ack 70), .client 5 (.reply 70 1 1)] := by decide +kernel

/-- C90 fails as stated: one faulty node which sends the PROPAGATE before the client's message arrives, and names another client,
makes this node send the REPLY to that one. The client that sent the request is acknowledged and told nothing. -/
theorem C90_wrong_name : (ansRun [.propagate 70 (.str 3) (some 6), .came 70 5, .apply 1 [70], .order]).2 =
    [.propagate 70 (some 6), .client 5 (.ack 70), .client 6 (.reply 70 1 1)] := by decide +kernel

/-- C90 fails as stated: if the PROPAGATE names no client, the client that sends the request then is not taken as its sender,
and nobody gets the REPLY. -/
theorem C90_no_name : (ansRun [.propagate 70 (.str 3) none, .came 70 5, .apply 1 [70], .order]).2 =
    [.propagate 70 none, .client 5 (.ack 70)] := by decide +kernel

/-- C90 fails as stated: a REJECT is sent when a batch is applied, not when it is ordered. After a view change the request may
be ordered all the same: it is in the ledger, and its client was told only that it was rejected. -/
theorem C90_reject_not_final :
    (ansRun [.came 20 5, .came 10 6, .apply 1 [10], .apply 1 [20], .viewChange true, .revert 0, .viewChange false,
      .apply 1 [20], .order]).2 =
      [.propagate 20 (some 5), .client 5 (.ack 20), .propagate 10 (some 6), .client 6 (.ack 10), .client 5 (.reject 20)] ∧
    (ansRun [.came 20 5, .came 10 6, .apply 1 [10], .apply 1 [20], .viewChange true, .revert 0, .viewChange false,
      .apply 1 [20], .order]).1.ledger 1 = [20] := by decide +kernel

/-- C90 fails as stated: a request that is acknowledged and then outdated, or caught up, ends without a word. -/
theorem C90_no_word :
    (ansRun [.came 70 5, .outdated 70]).2 = [.propagate 70 (some 5), .client 5 (.ack 70)] ∧
    (ansRun [.came 70 5, .caughtUp 70]).2 = [.propagate 70 (some 5), .client 5 (.ack 70)] ∧
    (ansRun [.came 70 5, .caughtUp 70]).1.ledger 1 = [70] := by decide +kernel

/-- C90 fails as stated: a request that was rejected and is sent again is acknowledged, but not passed to the instances while there is
a record of it: nothing more is said, whatever becomes of the record. -/
theorem C90_rejected_again :
    (ansRun [.replicas 1, .caughtUp 10, .came 20 5, .propagate 20 (.str 1) (some 5), .apply 1 [20], .order,
      .came 20 5, .released 0 20]).2 =
      [.propagate 20 (some 5), .client 5 (.ack 20), .client 5 (.reject 20), .client 5 (.ack 20)] ∧
    (ansRun [.replicas 1, .caughtUp 10, .came 20 5, .propagate 20 (.str 1) (some 5), .apply 1 [20], .order,
      .came 20 5, .released 0 20]).1.prop.requests = [] ∧
    (ansRun [.replicas 1, .caughtUp 10, .came 20 5, .propagate 20 (.str 1) (some 5), .apply 1 [20], .order,
      .came 20 5, .released 0 20]).1.prop.log =
      [.added 20, .forwarded 20 1, .executed 20, .freed 0 20, .cleaned 20] := by decide +kernel

end Verif.Props
