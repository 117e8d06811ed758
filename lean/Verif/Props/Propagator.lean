import Verif.Proofs.Propagator
/-!
# C26, C27: a request is ordered when f+1 nodes vouch for it; records are kept as long as needed
-/
namespace Verif.Props
open Verif.Propagator

/-- C26. A request is handed to the instances only when `f+1` distinct nodes
(this one included) vouched for its digest. -/
theorem C26_quorum (cfg : Cfg) (N : Nat) (hq : cfg.quorums = Quorums.ofN N) (evs : List Event)
    (k : Key) (n : Nat) (h : Act.forwarded k n ∈ (run cfg evs).log) :
    ∃ vs : List Nat, vs.Nodup ∧ vs.length ≥ getMaxFailures N + 1 ∧ ∀ v ∈ vs, Vouched cfg evs k (.str v) := by
  obtain ⟨vs, h1, h2, h3⟩ := (vinv_run cfg evs).log _ h
  rw [hq] at h2
  exact ⟨vs, h1, h2, h3⟩

/-- C26. What is given to ordering under a digest is a request with this digest which came
from a node or a client, and for which `f+1` nodes vouched. -/
theorem C26_finalised (cfg : Cfg) (N : Nat) (hq : cfg.quorums = Quorums.ofN N) (evs : List Event)
    (k : Key) (st : ReqState) (hst : (run cfg evs).requests.get? k = some st) (hf : st.forwarded = true) :
    ∃ r, st.finalised = some r ∧ cfg.digest r = k ∧ Came cfg evs r ∧
      ∃ vs : List Nat, vs.Nodup ∧ vs.length ≥ getMaxFailures N + 1 ∧ ∀ v ∈ vs, Vouched cfg evs k (.str v) := by
  have hv := (vinv_run cfg evs).recs k st hst
  have := hv.fwd hf
  cases hr : st.finalised with
  | none => rw [hr] at this; simp at this
  | some r =>
    obtain ⟨h1, h2, vs, h3, h4, h5⟩ := hv.fin r hr
    rw [hq] at h4
    exact ⟨r, rfl, h1, h2, vs, h3, h4, h5⟩

theorem came_authentic {cfg : Cfg} {evs : List Event} {r : Req} (h : Came cfg evs r)
    (hn : ∀ v, Event.reply r v ∉ evs) : cfg.authentic r = true := by
  rcases h with h | ⟨w, h | h⟩
  · exact h.2
  · exact h.2
  · exact absurd h (hn w)

/-- C26, partial: what is given to ordering is a request whose signatures this node verified,
and each of the `f+1` nodes vouched with such a request. Missing: a node which received a reply
(a MESSAGE_RESPONSE with a PROPAGATE) for this digest (`C26_reply_unsigned`). -/
theorem C26_authentic_partial (cfg : Cfg) (N : Nat) (hq : cfg.quorums = Quorums.ofN N) (evs : List Event)
    (k : Key) (hn : ∀ r v, Event.reply r v ∈ evs → cfg.digest r ≠ k)
    (st : ReqState) (hst : (run cfg evs).requests.get? k = some st) (hf : st.forwarded = true) :
    ∃ r, st.finalised = some r ∧ cfg.digest r = k ∧ cfg.authentic r = true ∧
      ∃ vs : List Nat, vs.Nodup ∧ vs.length ≥ getMaxFailures N + 1 ∧
        ∀ v ∈ vs, ∃ r', cfg.digest r' = k ∧ cfg.authentic r' = true ∧
          (Event.propagate r' (.str v) ∈ evs ∨ (v = cfg.name ∧
            (Event.client r' ∈ evs ∨ ∃ w, Event.propagate r' w ∈ evs))) := by
  obtain ⟨r, h1, h2, h3, vs, h4, h5, h6⟩ := C26_finalised cfg N hq evs k st hst hf
  have hr : ∀ r', cfg.digest r' = k → ∀ v, Event.reply r' v ∉ evs := fun r' e v hv => hn r' v hv e
  refine ⟨r, h1, h2, came_authentic h3 (hr r h2), vs, h4, h5, fun v hv => ?_⟩
  obtain ⟨r', h7, h8⟩ := h6 v hv
  rcases h8 with (h8 | h8) | ⟨h8, h9⟩
  · exact ⟨r', h7, h8.2, .inl h8.1⟩
  · exact absurd h8 (hr r' h7 _)
  · refine ⟨r', h7, came_authentic h9 (hr r' h7), .inr ⟨by simpa using h8, ?_⟩⟩
    rcases h9 with h9 | ⟨w, h9 | h9⟩
    · exact .inl h9.1
    · exact .inr ⟨w, h9.1⟩
    · exact absurd h9 (hr r' h7 _)

/-- C26. What is applied under a digest which a PRE-PREPARE names is a request with this
digest which came from a node or a client; nothing is said about how many nodes vouched for it
(`C26_applied_unvouched`). -/
theorem C26_applied (cfg : Cfg) (evs : List Event) (k : Key) (r : Req)
    (h : Act.applied k r ∈ (run cfg evs).log) : cfg.digest r = k ∧ Came cfg evs r :=
  (vinv_run cfg evs).log _ h

/-- C26. A request is handed over only while it is tracked, and not if this was
already done since it is tracked. -/
theorem C26_once (cfg : Cfg) (evs : List Event) (k : Key) (n : Nat) (pre post : List Act)
    (h : (run cfg evs).log = pre ++ Act.forwarded k n :: post) :
    ∃ l, life k pre = some l ∧ ∀ m, Act.forwarded k m ∉ l :=
  (inv_run cfg evs).good pre _ post h

/-- C26. A request executed with a transaction is never handed over again,
whatever is received afterwards, provided no other payload shares its digest. -/
theorem C26_not_again (cfg : Cfg) (evs evs' : List Event) (k p : Key)
    (hp : ∀ r, cfg.digest r = k → cfg.payload r = p) :
    ((run cfg (evs ++ Event.executed k (some p) :: evs')).log.filter
        (fun a => match a with | .forwarded j _ => j = k | _ => false)).length =
    ((run cfg evs).log.filter
        (fun a => match a with | .forwarded j _ => j = k | _ => false)).length := by
  obtain ⟨s, hs⟩ : ∃ s, s = run cfg evs := ⟨_, rfl⟩
  have e : run cfg (evs ++ Event.executed k (some p) :: evs') =
      evs'.foldl (State.step cfg) (s.step cfg (.executed k (some p))) := by
    simp [run, hs, List.foldl_append]
  rw [e, ← hs]
  have h0 : Shut cfg k p (s.log.filter (fun a => match a with | .forwarded j _ => j = k | _ => false)).length
      (({ s with known := p :: s.known } : State).done k) :=
    ⟨by simp [State.done], by simp [State.done], rfl⟩
  exact ((h0.markExecuted k).run hp evs').count

/-- A pool of four nodes; the digest and the payload digest of a request are its
own number. -/
def cfgDemo : Cfg :=
  { name := 0, quorums := Quorums.ofN 4, digest := id, payload := id, authentic := fun r => r < 100
    forcedOk := fun _ => true }

-- the hypotheses are met: a PROPAGATE and the node's own vote suffice in a pool of four
example : (run cfgDemo [.replicas 2, .propagate 7 (.str 1)]).log = [.added 7, .forwarded 7 2] := by decide

-- a request which is not authentic is not counted, nor is the node's own vote twice
example : (run cfgDemo [.propagate 700 (.str 1), .propagate 700 (.str 2), .client 8, .client 8]).log =
    [.added 8] := by decide

-- after the execution, PROPAGATEs arriving late are ignored
example : (run cfgDemo [.replicas 1, .propagate 7 (.str 1), .executed 7 (some 7), .released 0 7,
    .propagate 7 (.str 2), .propagate 7 (.str 3), .client 7]).log =
    [.added 7, .forwarded 7 1, .executed 7, .freed 0 7, .cleaned 7] := by decide

-- so is one whose digest came only in PROPAGATEs and not in replies
example : ∀ r v, Event.reply r v ∈ [Event.replicas 2, .reply 9 (.str 3), .propagate 7 (.str 1)] →
    cfgDemo.digest r ≠ 7 := by
  intro r v h
  simp at h
  simp [cfgDemo, h]

/-- C26 fails as stated: one reply of a faulty node, which nobody asked for, makes this node
vouch for a request with wrong signatures, and with its own vote and that of the faulty
node it is handed to the instances. -/
theorem C26_reply_unsigned : ∃ evs : List Event, ∃ k n,
    Act.forwarded k n ∈ (run cfgDemo evs).log ∧ (∀ r, cfgDemo.digest r = k → cfgDemo.authentic r = false) ∧
    ∀ r v, Event.propagate r v ∈ evs ∨ Event.reply r v ∈ evs → v = .str 1 := by
  refine ⟨[.reply 700 (.str 1)], 700, 1, by decide, ?_, ?_⟩
  · intro r (h : r = 700); subst h; decide
  · intro r v h; simp at h; exact h.2

/-- C26 fails as stated: a request is applied when a PRE-PREPARE names it although only one
of `f+1 = 3` nodes and this one vouched for it; it was not handed to the instances. -/
theorem C26_applied_unvouched : ∃ cfg : Cfg, cfg.quorums = Quorums.ofN 7 ∧ ∃ evs : List Event,
    Act.applied 7 7 ∈ (run cfg evs).log ∧ (∀ n, Act.forwarded 7 n ∉ (run cfg evs).log) ∧
    ∀ v, Vouched cfg evs 7 v → v = .str 1 ∨ v = .str 0 := by
  refine ⟨{ cfgDemo with quorums := Quorums.ofN 7 }, rfl, [.propagate 7 (.str 1), .proposed 7], by decide, ?_, ?_⟩
  · intro n h
    have : (run { cfgDemo with quorums := Quorums.ofN 7 } [.propagate 7 (.str 1), .proposed 7]).log =
        [.added 7, .applied 7 7] := by decide
    rw [this] at h
    simp at h
  · rintro v ⟨r, -, (h | h) | ⟨h, -⟩⟩
    · left; have h := h.1; simp at h; exact h.2
    · simp at h
    · right; simpa [cfgDemo] using h

-- a PRE-PREPARE which names a request without a record waits
example : (run cfgDemo [.proposed 7]).log = [] := by decide

/-- C26, a limit: a request which was rejected (it made no transaction) may be
handed over again once its record is gone. -/
theorem C26_rejected_again : ∃ evs : List Event,
    (run cfgDemo evs).log = [.added 7, .forwarded 7 1, .executed 7, .freed 0 7, .cleaned 7,
      .added 7, .forwarded 7 1] :=
  ⟨[.propagate 7 (.str 1), .executed 7 none, .released 0 7, .propagate 7 (.str 2)], by decide⟩

/-- C27. A record is removed by bookkeeping only after the request was executed
and after as many releases as there were instances it was handed to. -/
theorem C27_removed_when_done (cfg : Cfg) (evs : List Event) (k : Key) (pre post : List Act)
    (h : (run cfg evs).log = pre ++ Act.cleaned k :: post) :
    ∃ l, life k pre = some l ∧ Act.executed k ∈ l ∧
      ∀ a n b, l = a ++ Act.forwarded k n :: b → n ≤ (b.filter (isFree k)).length :=
  (inv_run cfg evs).good pre _ post h

/-- The instances which released `k`, in order. -/
def releasers (k : Key) (b : List Act) : List Inst :=
  b.filterMap (fun a => match a with | .freed i j => if j = k then some i else none | _ => none)

theorem releasers_length (k : Key) (b : List Act) : (releasers k b).length = (b.filter (isFree k)).length := by
  induction b with
  | nil => rfl
  | cons a b ih =>
    unfold releasers at ih ⊢
    cases a with
    | freed i j => by_cases e : j = k <;> simp [e, isFree, ih]
    | _ => simpa [isFree] using ih

/-- C27, partial: every instance the request was handed to has released it.
Missing: the releases are counted, not attributed; that no instance releases a
request twice is assumed, and the code does not ensure it (`C27_released_twice`). -/
theorem C27_every_instance_partial (cfg : Cfg) (evs : List Event) (k : Key) (pre post : List Act)
    (h : (run cfg evs).log = pre ++ Act.cleaned k :: post) :
    ∃ l, life k pre = some l ∧ Act.executed k ∈ l ∧
      ∀ a n b, l = a ++ Act.forwarded k n :: b →
        (releasers k b).Nodup → (∀ i ∈ releasers k b, i < n) → ∀ i < n, Act.freed i k ∈ b := by
  obtain ⟨l, h1, h2, h3⟩ := C27_removed_when_done cfg evs k pre post h
  refine ⟨l, h1, h2, fun a n b e hn hlt i hi => ?_⟩
  have hlen := h3 a n b e
  rw [← releasers_length] at hlen
  have hmem : i ∈ releasers k b := by
    apply Classical.byContradiction
    intro hni
    have h4 : (i :: releasers k b).Nodup := List.nodup_cons.2 ⟨hni, hn⟩
    have h5 := length_le_of_subset (B := List.range n) h4 (by
      intro x hx
      rcases List.mem_cons.1 hx with hx | hx
      · subst hx; exact List.mem_range.2 hi
      · exact List.mem_range.2 (hlt x hx))
    simp at h5
    omega
  unfold releasers at hmem
  obtain ⟨x, hx, hx2⟩ := List.mem_filterMap.1 hmem
  cases x with
  | freed i' j =>
    by_cases e : j = k
    · simp only [e, if_true, Option.some.injEq] at hx2
      rw [← hx2, ← e]; exact hx
    · simp [e] at hx2
  | _ => simp at hx2

/-- C27 fails as stated: the master's release is counted when the transaction is
caught up and again at its next stable checkpoint; the record goes although the
backup instance has not released the request. -/
theorem C27_released_twice : ∃ evs : List Event, ∃ pre,
    (run cfgDemo evs).log = pre ++ [.cleaned 7] ∧ Act.forwarded 7 2 ∈ pre ∧ Act.freed 1 7 ∉ pre :=
  ⟨[.replicas 2, .propagate 7 (.str 1), .caughtUp 7 7, .released 0 7],
    [.added 7, .forwarded 7 2, .executed 7, .freed 0 7, .freed 0 7], by decide⟩

-- the usual course: executed, then released by both instances
example : (run cfgDemo [.replicas 2, .propagate 7 (.str 1), .executed 7 (some 7), .released 1 7, .released 0 7]).log =
    [.added 7, .forwarded 7 2, .executed 7, .freed 1 7, .freed 0 7, .cleaned 7] := by decide

end Verif.Props
