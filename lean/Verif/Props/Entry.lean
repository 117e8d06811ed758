import Verif.Proofs.Entry
import Verif.Model.Asked
/-!
# C83: a node survives what is sent to it

The full property: no bytes that a peer or a client sends make a node stop, and every
message of a client is queued or answered.

It is false. The exact set of messages that stop a node before they are queued is given for
both stacks, with the MESSAGE_REQUESTs that stop it afterwards; every other message is
survived, in every history.
-/
namespace Verif.Props

open Verif (Val ascii)
open Verif.Entry

/-- The request is refused by an exception without arguments, and calls itself a
LEDGER_STATUS. -/
def BareLedgerStatus (cfg : Cfg) (d : Items) : Prop :=
  Spec.Field d (ascii "op") (.str (ascii "LEDGER_STATUS")) ∧
  (∃ v, Spec.Field d (ascii "operation") v ∧ ¬ Spec.Falsy v) ∧
  (∃ v, Spec.Field d (ascii "reqId") v ∧ ¬ Spec.Falsy v) ∧
  (∃ i, idr d = some i ∧ ¬ Spec.Falsy i) ∧
  (cfg.request d = some .noArgs ∨ (cfg.request d = none ∧ authFault cfg d = some .noArgs))

/-- The JSON values with which a client stops a node. -/
def FatalForClient (cfg : Cfg) (v : Val) : Prop :=
  ((∀ d, v ≠ .dict d) ∧ v ≠ .str [] ∧ v ≠ .list []) ∨
  ∃ d, v = .dict d ∧ (Spec.BadSigs d ∨ BareLedgerStatus cfg d)

theorem get_field (d : Items) (k : Bytes) : truthy (Entry.get d k) = true ↔ ∃ v, Spec.Field d k v ∧ ¬ Spec.Falsy v := by
  unfold Entry.get
  cases h : lookup d k with
  | none =>
    simp [truthy]
    intro v hv
    rw [← lookup_some_iff, h] at hv; cases hv
  | some v =>
    rw [Option.getD_some]
    constructor
    · intro h2
      exact ⟨v, (lookup_some_iff _ _ _).1 h, by rw [← truthy_false_iff, h2]; simp⟩
    · rintro ⟨w, hw, h2⟩
      rw [← lookup_some_iff, h] at hw
      cases hw
      rw [← truthy_false_iff] at h2
      simpa using h2

theorem get_str (d : Items) (k s : Bytes) : Entry.get d k = .str s ↔ Spec.Field d k (.str s) := by
  unfold Entry.get
  rw [← lookup_some_iff]
  cases lookup d k <;> simp

theorem bare_iff (cfg : Cfg) (d : Items) : (Entry.get d OP = .str LEDGER_STATUS ∧ truthy (Entry.get d OPERATION) = true ∧
    truthy (Entry.get d REQ_ID) = true ∧ (∃ i, idr d = some i ∧ truthy i = true) ∧ bareRefusal cfg d) ↔
    BareLedgerStatus cfg d := by
  have hi : (∃ i, idr d = some i ∧ truthy i = true) ↔ ∃ i, idr d = some i ∧ ¬ Spec.Falsy i := by
    constructor <;> rintro ⟨i, h1, h2⟩ <;> refine ⟨i, h1, ?_⟩
    · rw [← truthy_false_iff, h2]; simp
    · rw [← truthy_false_iff] at h2; simpa using h2
  rw [get_str, get_field, get_field, hi]
  rfl

theorem noObject_fatal (cfg : Cfg) (v : Val) (h : Spec.NoObject v) : FatalForClient cfg v := by
  refine .inl ⟨?_, ?_, ?_⟩
  · rintro d rfl; exact h
  · rintro rfl
    obtain ⟨a, b, h⟩ := h
    have := congrArg List.length h
    simp [ascii] at this
  · rintro rfl; cases h

/-- **C83, clients.** Exactly which messages stop a node when it takes them from its client
port, where anyone can connect: those that are not JSON objects (but for the empty text and
the empty array), objects with signatures of another kind, and requests refused without
arguments that call themselves a LEDGER_STATUS. A blacklisted client can still use the
numbers, `null` and the texts and arrays with "op" in them. -/
theorem C83_client_stops_iff (cfg : Cfg) (env : Env) (s : St) (t i : Bytes) (v : Val)
    (hs : s.stopped = false) (ht : t ∉ PINGS) (hl : cfg.loads t = some v) :
    (clientOne cfg env s t i).stopped = true ↔
      Spec.NoObject v ∨ (env.clientBlacklisted i = false ∧ FatalForClient cfg v) := by
  have ht' : PINGS.contains t = false := by simpa using ht
  unfold clientOne
  rw [hl]
  simp only [ht', Bool.false_eq_true, if_false]
  have hsc := scanRaises_iff v
  cases h1 : scanRaises v with
  | true => simp [hsc.1 h1]
  | false =>
    have hno : ¬ Spec.NoObject v := fun h => by rw [hsc.2 h] at h1; cases h1
    simp only [Bool.false_eq_true, if_false, hno, false_or]
    cases h2 : truthy v with
    | false =>
      simp only [Bool.false_eq_true, if_false, hs, false_iff, not_and]
      intro _
      rw [truthy_false_iff] at h2
      rintro (⟨h3, h4, h5⟩ | ⟨d, rfl, h3⟩)
      · rcases h2 with rfl | rfl | rfl | rfl | rfl | rfl | rfl | rfl | rfl
        · exact hno trivial
        · exact hno trivial
        · exact hno trivial
        · exact hno trivial
        · exact hno trivial
        · exact h4 rfl
        · exact hno trivial
        · exact h5 rfl
        · exact h3 _ rfl
      · have hd : d = [] := by
          rcases h2 with h | h | h | h | h | h | h | h | h <;> cases h
          rfl
        subst hd
        rcases h3 with ⟨_, v, ⟨a, b, h, _⟩, _⟩ | ⟨⟨a, b, h, _⟩, _⟩ <;> simp at h
    | true =>
      simp only [if_true, after, handleClient_stopped, hs, Bool.false_or]
      rw [handleClient_raised]
      constructor
      · rintro ⟨hb, h⟩
        refine ⟨hb, ?_⟩
        rcases h with h | ⟨d, rfl, h⟩
        · exact .inl ⟨h, by rintro rfl; simp [truthy] at h2, by rintro rfl; simp [truthy] at h2⟩
        · refine .inr ⟨d, rfl, ?_⟩
          rcases h with h | h
          · exact .inl ((idr_none_iff d).1 h)
          · exact .inr ((bare_iff cfg d).1 h)
      · rintro ⟨hb, h⟩
        refine ⟨hb, ?_⟩
        rcases h with ⟨h, _⟩ | ⟨d, rfl, h⟩
        · exact .inl h
        · refine .inr ⟨d, rfl, ?_⟩
          rcases h with h | h
          · exact .inl ((idr_none_iff d).2 h)
          · exact .inr ((bare_iff cfg d).2 h)

/-- **C83, peers.** Exactly which messages stop a node when it takes them from a peer:
numbers, `true`, `false`, `null`, texts with "op" in them and arrays with the element "op". -/
theorem C83_peer_stops_iff (cfg : Cfg) (env : Env) (s : St) (t i : Bytes) (v : Val)
    (hs : s.stopped = false) (ht : t ∉ PINGS) (hk : env.known i = true) (hl : cfg.loads t = some v) :
    (nodeOne cfg env s t i).stopped = true ↔ Spec.NoObject v := by
  have ht' : PINGS.contains t = false := by simpa using ht
  unfold nodeOne
  rw [hl]
  simp only [ht', hk, Bool.not_true, Bool.false_eq_true, if_false]
  rw [← scanRaises_iff]
  cases h1 : scanRaises v with
  | true => simp
  | false =>
    simp only [Bool.false_eq_true, if_false, iff_false]
    split
    · simp [hs]
    · split
      · simp [after, handleNode_stopped, handleNode_raised, hs]
      · simp [hs]

/-- Everything else that arrives is survived: what is not known, not JSON, or a ping. -/
theorem C83_rest_survived (cfg : Cfg) (env : Env) (s : St) (t i : Bytes) (hs : s.stopped = false)
    (h : t ∈ PINGS ∨ cfg.loads t = none) :
    (nodeOne cfg env s t i).stopped = false ∧ (clientOne cfg env s t i).stopped = false := by
  unfold nodeOne clientOne
  rcases h with h | h
  · simp [h, hs]
  · rw [h]
    constructor
    · split
      · exact hs
      · split
        · split <;> exact hs
        · exact hs
    · split <;> exact hs

/-! ### Routes -/

/-- Whatever `validateNodeMsg` lets through, other than a batch, has a route. -/
theorem validated_routed {cfg : Cfg} {env : Env} {v : Val} {frm : Bytes} {m : NodeMsg}
    (h : validateNode cfg env v frm = some m) (hb : m.op ≠ BATCH) : m.op ∈ ROUTES := by
  have hw : ∀ op ∈ WHITELIST, op ≠ BATCH → op ∈ ROUTES := by decide +kernel
  unfold validateNode at h
  split at h
  · cases h
  · split at h
    · split at h
      · rename_i op ho
        split at h
        · split at h
          · rename_i hc
            cases h
            simp only [Bool.or_eq_true, Bool.and_eq_true] at hc
            rcases hc with h | ⟨h, _⟩
            · exact hw _ (by simpa using h) hb
            · have : op = PROPAGATE := by simpa using h
              simp only [this]
              decide +kernel
          · cases h
        · cases h
      · cases h
    · cases h

/-- What is in the inboxes has a handler. -/
def Routed (s : St) : Prop :=
  (∀ e ∈ s.nodeIn, e.1.op ∈ ROUTES) ∧
  ∀ e ∈ s.clientIn, ∀ m, e.1 = .node m → m.op = LEDGER_STATUS ∨ m.op = CATCHUP_REQ

theorem Routed.node {cfg : Cfg} {env : Env} {frm : Bytes} {n : Nat} {s : St} {v : Val} (h : Routed s) :
    Routed (handleNode cfg env frm n s v).1 := by
  refine handleNode_keeps (Q := Routed) cfg env frm ?_ n s v h
  intro s v m hs hv hb
  refine ⟨?_, hs.2⟩
  intro e he
  rcases List.mem_append.1 he with he | he
  · exact hs.1 e he
  · rw [List.mem_singleton.1 he]
    exact validated_routed hv hb

theorem Routed.client {cfg : Cfg} {env : Env} {frm : Bytes} {n : Nat} {s : St} {v : Val} (h : Routed s) :
    Routed (handleClient cfg env frm n s v).1 := by
  refine handleClient_keeps (Q := Routed) cfg env frm (fun _ _ h => h) ?_ ?_ n s v h
  · intro s d hs
    refine ⟨hs.1, ?_⟩
    intro e he m hm
    rcases List.mem_append.1 he with he | he
    · exact hs.2 e he m hm
    · rw [List.mem_singleton.1 he] at hm; cases hm
  · intro s v m hs hv
    refine ⟨hs.1, ?_⟩
    intro e he m' hm
    rcases List.mem_append.1 he with he | he
    · exact hs.2 e he m' hm
    · rw [List.mem_singleton.1 he] at hm
      cases hm
      unfold validateClient at hv
      split at hv
      · cases hv
      · split at hv
        · split at hv
          · cases hv
          · split at hv
            · exact absurd hv (validateRequest_not_node _ _ _)
            · exact validateOp_node hv
        · cases hv

theorem Routed.step {cfg : Cfg} {s : St} (h : Routed s) (e : Ev) : Routed (Entry.step cfg s e) := by
  cases e with
  | arrive c m i =>
    show Routed (arrive cfg c s m i)
    unfold arrive
    split
    · exact h
    · split
      · exact h
      · split
        · split <;> exact h
        · split <;> exact h
  | nodeOne env =>
    unfold Entry.step
    simp only
    split
    · exact h
    · split
      · exact h
      · unfold nodeOne
        split
        · exact h
        · split
          · split <;> exact h
          · split
            · exact h
            · split
              · exact h
              · split
                · exact h
                · split
                  · exact Routed.node (cfg := cfg) (env := env) (s := { s with nodeRx := _ }) h
                  · exact h
  | clientOne env =>
    unfold Entry.step
    simp only
    split
    · exact h
    · split
      · exact h
      · unfold clientOne
        split
        · exact h
        · split
          · exact h
          · split
            · exact h
            · split
              · exact Routed.client (cfg := cfg) (env := env) (s := { s with clientRx := _ }) h
              · exact h
  | route raises =>
    show Routed (if s.stopped then s else routeOne raises s)
    unfold routeOne
    split
    · exact h
    · split
      · exact h
      · rename_i hs
        exact ⟨fun e he => h.1 e (by rw [hs]; exact List.mem_cons_of_mem _ he), h.2⟩

theorem Routed.foldl {cfg : Cfg} : ∀ (l : List Ev) (s : St), Routed s → Routed (l.foldl (Entry.step cfg) s)
  | [], _, h => h
  | e :: l, s, h => Routed.foldl l _ (h.step e)

/-- **C83, routes.** In every history, every message that reaches an inbox has a handler: the
routers never meet a type they do not know, although the factory builds thirteen such types. -/
theorem C83_routed (cfg : Cfg) (l : List Ev) :
    (∀ e ∈ (run cfg l).nodeIn, e.1.op ∈ ROUTES) ∧
    ∀ e ∈ (run cfg l).clientIn, ∀ m, e.1 = .node m → m.op = LEDGER_STATUS ∨ m.op = CATCHUP_REQ :=
  Routed.foldl l {} ⟨by simp, by simp⟩

/-! ### Histories -/

/-- Nothing fatal arrives, and the handlers of what is routed do not raise. -/
def Harmless (cfg : Cfg) : Ev → Prop
  | .arrive true m _ => ∀ v, cfg.loads m = some v → ¬ FatalForClient cfg v
  | .arrive false m _ => ∀ v, cfg.loads m = some v → ¬ Spec.NoObject v
  | .route raises => ∀ m, raises m = false
  | _ => True

structure UpAndCalm (cfg : Cfg) (s : St) : Prop where
  up : s.stopped = false
  routed : Routed s
  node : ∀ e ∈ s.nodeRx, ∀ v, cfg.loads e.1 = some v → ¬ Spec.NoObject v
  client : ∀ e ∈ s.clientRx, ∀ v, cfg.loads e.1 = some v → ¬ FatalForClient cfg v

theorem rx_kept (cfg : Cfg) (env : Env) (s : St) (t i : Bytes) :
    ((nodeOne cfg env s t i).nodeRx = s.nodeRx ∧ (nodeOne cfg env s t i).clientRx = s.clientRx) ∧
    ((clientOne cfg env s t i).nodeRx = s.nodeRx ∧ (clientOne cfg env s t i).clientRx = s.clientRx) := by
  constructor
  · unfold nodeOne
    split
    · exact ⟨rfl, rfl⟩
    · split
      · split <;> exact ⟨rfl, rfl⟩
      · split
        · exact ⟨rfl, rfl⟩
        · split
          · exact ⟨rfl, rfl⟩
          · split
            · exact ⟨rfl, rfl⟩
            · split
              · exact handleNode_keeps (Q := fun x => x.nodeRx = s.nodeRx ∧ x.clientRx = s.clientRx)
                  cfg env i (fun _ _ _ h _ _ => h) _ _ _ ⟨rfl, rfl⟩
              · exact ⟨rfl, rfl⟩
  · unfold clientOne
    split
    · exact ⟨rfl, rfl⟩
    · split
      · exact ⟨rfl, rfl⟩
      · split
        · exact ⟨rfl, rfl⟩
        · split
          · exact handleClient_keeps (Q := fun x => x.nodeRx = s.nodeRx ∧ x.clientRx = s.clientRx)
              cfg env i (fun _ _ h => h) (fun _ _ h => h) (fun _ _ _ h _ => h) _ _ _ ⟨rfl, rfl⟩
          · exact ⟨rfl, rfl⟩

theorem node_up (cfg : Cfg) (env : Env) (s : St) (t i : Bytes) (hs : s.stopped = false)
    (h : ∀ v, cfg.loads t = some v → ¬ Spec.NoObject v) : (nodeOne cfg env s t i).stopped = false := by
  by_cases ht : t ∈ PINGS
  · exact (C83_rest_survived cfg env s t i hs (.inl ht)).1
  · cases hl : cfg.loads t with
    | none => exact (C83_rest_survived cfg env s t i hs (.inr hl)).1
    | some v =>
      cases hk : env.known i with
      | true =>
        have := C83_peer_stops_iff cfg env s t i v hs ht hk hl
        cases hx : (nodeOne cfg env s t i).stopped with
        | false => rfl
        | true => exact absurd (this.1 hx) (h v hl)
      | false =>
        have ht' : PINGS.contains t = false := by simpa using ht
        unfold nodeOne
        simp only [ht', hk, Bool.false_eq_true, if_false, Bool.not_false, if_true]
        split <;> exact hs

theorem client_up (cfg : Cfg) (env : Env) (s : St) (t i : Bytes) (hs : s.stopped = false)
    (h : ∀ v, cfg.loads t = some v → ¬ FatalForClient cfg v) : (clientOne cfg env s t i).stopped = false := by
  by_cases ht : t ∈ PINGS
  · exact (C83_rest_survived cfg env s t i hs (.inl ht)).2
  · cases hl : cfg.loads t with
    | none => exact (C83_rest_survived cfg env s t i hs (.inr hl)).2
    | some v =>
      have := C83_client_stops_iff cfg env s t i v hs ht hl
      cases hx : (clientOne cfg env s t i).stopped with
      | false => rfl
      | true =>
        rcases this.1 hx with h2 | h2
        · exact absurd (noObject_fatal cfg v h2) (h v hl)
        · exact absurd h2.2 (h v hl)

theorem UpAndCalm.step {cfg : Cfg} {s : St} (h : UpAndCalm cfg s) (e : Ev) (he : Harmless cfg e) :
    UpAndCalm cfg (Entry.step cfg s e) := by
  have hup : ¬ (s.stopped = true) := by simp [h.up]
  have hr := h.routed.step (cfg := cfg) e
  cases e with
  | arrive c m i =>
    show UpAndCalm cfg (arrive cfg c s m i)
    unfold arrive
    rw [if_neg hup]
    split
    · exact h
    · split
      · cases c
        · simp only [Bool.false_eq_true, if_false]
          refine ⟨h.up, h.routed, ?_, h.client⟩
          intro e hm
          rcases List.mem_append.1 hm with hm | hm
          · exact h.node e hm
          · rw [List.mem_singleton.1 hm]; exact he
        · simp only [if_true]
          refine ⟨h.up, h.routed, h.node, ?_⟩
          intro e hm
          rcases List.mem_append.1 hm with hm | hm
          · exact h.client e hm
          · rw [List.mem_singleton.1 hm]; exact he
      · split <;> exact ⟨h.up, h.routed, h.node, h.client⟩
  | nodeOne env =>
    unfold Entry.step at hr ⊢
    simp only [if_neg hup] at hr ⊢
    cases hx : s.nodeRx with
    | nil => exact h
    | cons p r =>
      rw [hx] at hr
      show UpAndCalm cfg (nodeOne cfg env { s with nodeRx := r } p.1 p.2)
      have hk := (rx_kept cfg env { s with nodeRx := r } p.1 p.2).1
      refine ⟨node_up cfg env _ p.1 p.2 h.up (h.node p (by rw [hx]; exact List.mem_cons_self ..)), hr, ?_, ?_⟩
      · intro e hm
        have hm := hk.1 ▸ hm
        exact h.node e (by rw [hx]; exact List.mem_cons_of_mem _ hm)
      · intro e hm
        exact h.client e (hk.2 ▸ hm)
  | clientOne env =>
    unfold Entry.step at hr ⊢
    simp only [if_neg hup] at hr ⊢
    cases hx : s.clientRx with
    | nil => exact h
    | cons p r =>
      rw [hx] at hr
      show UpAndCalm cfg (clientOne cfg env { s with clientRx := r } p.1 p.2)
      have hk := (rx_kept cfg env { s with clientRx := r } p.1 p.2).2
      refine ⟨client_up cfg env _ p.1 p.2 h.up (h.client p (by rw [hx]; exact List.mem_cons_self ..)), hr, ?_, ?_⟩
      · intro e hm
        exact h.node e (hk.1 ▸ hm)
      · intro e hm
        have hm := hk.2 ▸ hm
        exact h.client e (by rw [hx]; exact List.mem_cons_of_mem _ hm)
  | route raises =>
    unfold Entry.step at hr ⊢
    simp only [if_neg hup] at hr ⊢
    unfold routeOne at hr ⊢
    cases hx : s.nodeIn with
    | nil => exact h
    | cons p r =>
      rw [hx] at hr
      have h1 : p.1.op ∈ ROUTES := h.routed.1 p (by rw [hx]; exact List.mem_cons_self ..)
      exact ⟨by simp [h.up, h1, he p.1], hr, h.node, h.client⟩

theorem UpAndCalm.foldl {cfg : Cfg} : ∀ (l : List Ev) (s : St), (∀ e ∈ l, Harmless cfg e) → UpAndCalm cfg s →
    UpAndCalm cfg (l.foldl (Entry.step cfg) s)
  | [], _, _, h => h
  | e :: l, s, hl, h =>
    UpAndCalm.foldl l _ (fun x hx => hl x (by simp [hx])) (h.step e (hl e (by simp)))

/-- **C83, what holds.** In every history in which no fatal message arrives, and in which the
handlers behind the inboxes do not raise, the node stays up: no batch, however nested, no
message of an unknown type, no bad signature, no oversized message and no text that is not
JSON stops it. What is missing: the fatal messages of `C83_client_stops_iff` and
`C83_peer_stops_iff` can be sent by anyone, and handlers do raise, see
`C83_request_stops`. -/
theorem C83_survives_partial (cfg : Cfg) (l : List Ev) (h : ∀ e ∈ l, Harmless cfg e) :
    (run cfg l).stopped = false :=
  (UpAndCalm.foldl l {} h ⟨rfl, ⟨by simp, by simp⟩, by simp, by simp⟩).up

/-- **C83, answers.** An object that a client sends, that is no batch and does not stop the
node, is queued, or answered with a REQNACK to its sender, or dropped because a view change is in
progress. -/
theorem C83_answered_partial (cfg : Cfg) (env : Env) (s : St) (t i : Bytes) (d : Items)
    (ht : t ∉ PINGS) (hl : cfg.loads t = some (.dict d)) (hd : d ≠ [])
    (hb : ¬ Spec.Field d (ascii "op") (.str (ascii "BATCH"))) (hbl : env.clientBlacklisted i = false)
    (hf : ¬ FatalForClient cfg (.dict d)) :
    (∃ n, (clientOne cfg env s t i).nacks = s.nacks ++ [n] ∧ n.to = i ∧
      (clientOne cfg env s t i).clientIn = s.clientIn) ∨
    (∃ m, (clientOne cfg env s t i).clientIn = s.clientIn ++ [(m, i)] ∧
      (clientOne cfg env s t i).nacks = s.nacks) ∨
    env.busy d = true := by
  have ht' : PINGS.contains t = false := by simpa using ht
  have hsc : scanRaises (.dict d) = false := by
    cases h : scanRaises (.dict d) with
    | false => rfl
    | true => exact absurd (noObject_fatal cfg _ ((scanRaises_iff _).1 h)) hf
  have htr : truthy (.dict d) = true := by simp [truthy, hd]
  have hi : ∃ j, idr d = some j := by
    cases h : idr d with
    | none => exact absurd (.inr ⟨d, rfl, .inl ((idr_none_iff d).1 h)⟩) hf
    | some j => exact ⟨j, rfl⟩
  obtain ⟨j, hi⟩ := hi
  unfold clientOne
  rw [hl]
  simp only [ht', hsc, htr, Bool.false_eq_true, if_false, if_true, after]
  unfold handleClient
  have hv : ∀ x, validateClient cfg env (.dict d) i = .batch x → False := by
    intro x hx
    unfold validateClient at hx
    simp only [hbl, Bool.false_eq_true, if_false, hi] at hx
    split at hx
    · exact absurd hx (validateRequest_not_batch _ _ _)
    · exact hb ((lookup_some_iff _ _ _).1 (validateOp_batch hx))
  cases hc : validateClient cfg env (.dict d) i with
  | ignored =>
    unfold validateClient at hc
    simp only [hbl, Bool.false_eq_true, if_false, hi] at hc
    split at hc
    · unfold validateRequest at hc
      split at hc
      · cases hc
      · split at hc <;> cases hc
    · unfold validateOp at hc
      split at hc
      · split at hc
        · split at hc
          · split at hc <;> cases hc
          · cases hc
        · cases hc
      · cases hc
  | raised f =>
    refine .inl ⟨⟨j, if truthy (Entry.get d REQ_ID) then Entry.get d REQ_ID else .int 1, i⟩, ?_, rfl, ?_⟩ <;>
      simp only [refuse, hi]
  | request d' =>
    have hd' : d' = d := by
      unfold validateClient at hc
      simp only [hbl, Bool.false_eq_true, if_false, hi] at hc
      split at hc
      · unfold validateRequest at hc
        split at hc
        · cases hc
        · split at hc <;> cases hc
          rfl
      · unfold validateOp at hc
        split at hc
        · split at hc
          · split at hc
            · split at hc <;> cases hc
            · cases hc
          · cases hc
        · cases hc
    subst hd'
    cases hbu : env.busy d' with
    | true => exact .inr (.inr rfl)
    | false => exact .inr (.inl ⟨.request d', by simp [hbu], by simp [hbu]⟩)
  | node m => exact .inr (.inl ⟨.node m, rfl, rfl⟩)
  | batch x => exact (hv x hc).elim

/-! ### Batches of peers -/

theorem each_node {cfg : Cfg} {env : Env} {frm : Bytes} {n : Nat} {t : Bytes} {w : Val} {m : NodeMsg}
    (hl : cfg.loads t = some w) (hw : validateNode cfg env w frm = some m) (hb : m.op ≠ BATCH) :
    ∀ (l : List Bytes) (s : St), t ∈ l →
      (m, frm) ∈ (each (nodeText cfg (handleNode cfg env frm (n + 1))) s l).1.nodeIn
  | [], _, h => by cases h
  | x :: l, s, h => by
    have hmono : ∀ (s : St) (x : Bytes), (m, frm) ∈ s.nodeIn →
        (m, frm) ∈ (nodeText cfg (handleNode cfg env frm (n + 1)) s x).1.nodeIn := by
      intro s x hs
      unfold nodeText
      split
      · exact hs
      · exact handleNode_keeps (Q := fun y => (m, frm) ∈ y.nodeIn) cfg env frm
          (fun _ _ _ h _ _ => List.mem_append_left _ h) _ _ _ hs
    have hx : (nodeText cfg (handleNode cfg env frm (n + 1)) s x).2 = false := by
      unfold nodeText
      split
      · rfl
      · exact handleNode_raised ..
    unfold each
    rw [hx]
    simp only [Bool.false_eq_true, if_false]
    rcases List.mem_cons.1 h with rfl | h
    · refine each_keeps (Q := fun y => (m, frm) ∈ y.nodeIn) hmono l _ ?_
      have hbb : (m.op == BATCH) = false := by simpa using hb
      simp [nodeText, hl, handleNode, hw, hbb]
    · exact each_node hl hw hb l _ h

/-- **C83, batches.** A message in a batch of a peer is queued whatever else is in the batch:
texts that are not JSON, messages that fail validation, batches in batches. -/
theorem C83_batch_apart (cfg : Cfg) (env : Env) (frm t : Bytes) (s : St) (n : Nat) (v w : Val) (b m : NodeMsg)
    (hv : validateNode cfg env v frm = some b) (hb : b.op = BATCH)
    (ht : ∃ l, batchTexts b.body = some l ∧ t ∈ l)
    (hl : cfg.loads t = some w) (hw : validateNode cfg env w frm = some m) (hm : m.op ≠ BATCH) :
    (m, frm) ∈ (handleNode cfg env frm (n + 2) s v).1.nodeIn := by
  obtain ⟨l, h1, h2⟩ := ht
  unfold handleNode
  rw [hv]
  have hbb : (b.op == BATCH) = true := by simpa using hb
  simp only [hbb, if_true, h1, Option.getD_some]
  exact each_node hl hw hm l s h2

/-! ### What a peer can ask for -/

/-- The parameters with which a MESSAGE_REQUEST makes a handler raise. -/
def FatalAsk (F : Facts) (typ : Val) (p : Items) : Prop :=
  (typ = .str (ascii "LEDGER_STATUS") ∧
    ∃ b, Spec.Field p (ascii "ledgerId") (.float b) ∧ ∃ l ∈ F.ledgers, F.floatEq b l.1 = true) ∨
  (typ = .str (ascii "PROPAGATE") ∧
    ∃ v, Spec.Field p (ascii "digest") v ∧ ((∃ l, v = .list l) ∨ ∃ e, v = .dict e)) ∨
  (typ = .str (ascii "VIEW_CHANGE") ∧
    (∃ i, Spec.Field p (ascii "instId") i ∧ ∃ n ∈ F.insts, eqInt F i n = true) ∧
    ∃ v, Spec.Field p (ascii "name") v ∧ ((∃ l, v = .list l) ∨ ∃ e, v = .dict e))

theorem unhashable_get (p : Items) (k : Bytes) : unhashable (Entry.get p k) = true ↔
    ∃ v, Spec.Field p k v ∧ ((∃ l, v = .list l) ∨ ∃ e, v = .dict e) := by
  unfold Entry.get
  cases h : lookup p k with
  | none =>
    simp only [Option.getD_none, unhashable, Bool.false_eq_true, false_iff]
    rintro ⟨v, hv, _⟩
    rw [← lookup_some_iff, h] at hv; cases hv
  | some v =>
    rw [Option.getD_some]
    have hf := (lookup_some_iff _ _ _).1 h
    constructor
    · intro h2
      refine ⟨v, hf, ?_⟩
      cases v <;> simp [unhashable] at h2 ⊢
    · rintro ⟨w, hw, h2⟩
      rw [← lookup_some_iff, h] at hw
      cases hw
      rcases h2 with ⟨l, rfl⟩ | ⟨e, rfl⟩ <;> rfl

/-- **C83, requests.** Exactly which requests for messages, other than for consistency proofs,
stop the node that gets them. -/
theorem C83_request_stops (cfg : Cfg) (F : Facts) (s : St) (typ : Val) (p b : Items) (frm : Bytes) (r : List (NodeMsg × Bytes))
    (hs : s.stopped = false) (hq : s.nodeIn = (⟨MESSAGE_REQUEST, b⟩, frm) :: r)
    (ht : Spec.Field b (ascii "msg_type") typ) (hp : Spec.Field b (ascii "params") (.dict p))
    (hc : typ ≠ .str (ascii "CONSISTENCY_PROOF")) :
    (step cfg s (.route (handlerRaises F))).stopped = true ↔ FatalAsk F typ p := by
  have h1 : Entry.get b (ascii "msg_type") = typ := by
    rw [Entry.get, (lookup_some_iff _ _ _).2 ht]; rfl
  have h2 : Entry.get b (ascii "params") = .dict p := by
    rw [Entry.get, (lookup_some_iff _ _ _).2 hp]; rfl
  have e : (step cfg s (.route (handlerRaises F))).stopped = askedRaises F ⟨MESSAGE_REQUEST, b⟩ := by
    simp [step, hs, routeOne, hq, handlerRaises]
    intro h; exact absurd (by decide +kernel) h
  rw [e]
  unfold askedRaises
  rw [h2]
  simp only [h1]
  have hne : (typ == .str (ascii "CONSISTENCY_PROOF")) = false := by simpa using hc
  have d1 : LEDGER_STATUS ≠ PROPAGATE := by decide +kernel
  have d2 : LEDGER_STATUS ≠ ascii "VIEW_CHANGE" := by decide +kernel
  have d3 : PROPAGATE ≠ ascii "VIEW_CHANGE" := by decide +kernel
  unfold FatalAsk
  by_cases c1 : typ = .str LEDGER_STATUS
  · subst c1
    simp only [beq_self_eq_true, if_true]
    constructor
    · intro h
      unfold ledgerStatusRaises at h
      simp only [Bool.and_eq_true, List.any_eq_true] at h
      obtain ⟨⟨l, hl, he⟩, hf⟩ := h
      cases hg : lookup p (ascii "ledgerId") with
      | none => simp [Entry.get, hg, isFloat] at hf
      | some v =>
        simp only [Entry.get, hg, Option.getD_some] at hf he
        cases v <;> simp [isFloat] at hf
        rename_i bits
        exact .inl ⟨rfl, bits, (lookup_some_iff _ _ _).1 hg, l, hl, he⟩
    · rintro (⟨_, bits, hf, l, hl, he⟩ | ⟨h, _⟩ | ⟨h, _⟩)
      · have hf := (lookup_some_iff _ _ _).2 hf
        unfold ledgerStatusRaises
        simp only [Entry.get, hf, Option.getD_some, isFloat, Bool.and_true, List.any_eq_true]
        exact ⟨l, hl, he⟩
      · injection h with h; exact absurd h d1
      · injection h with h; exact absurd h d2
  · have c1' : (typ == .str LEDGER_STATUS) = false := by simpa using c1
    simp only [c1', hne, Bool.false_eq_true, if_false]
    by_cases c2 : typ = .str PROPAGATE
    · subst c2
      simp only [beq_self_eq_true, if_true, propagateRaises]
      rw [unhashable_get]
      constructor
      · exact fun h => .inr (.inl ⟨rfl, h⟩)
      · rintro (⟨h, _⟩ | ⟨_, h⟩ | ⟨h, _⟩)
        · exact absurd h c1
        · exact h
        · injection h with h; exact absurd h d3
    · have c2' : (typ == .str PROPAGATE) = false := by simpa using c2
      simp only [c2', Bool.false_eq_true, if_false]
      by_cases c3 : typ = .str (ascii "VIEW_CHANGE")
      · subst c3
        simp only [beq_self_eq_true, if_true, viewChangeRaises, Bool.and_eq_true]
        rw [unhashable_get]
        constructor
        · rintro ⟨h, h3⟩
          refine .inr (.inr ⟨trivial, ?_, h3⟩)
          obtain ⟨n, hn, he⟩ := List.any_eq_true.1 h
          cases hg : lookup p (ascii "instId") with
          | none => simp [Entry.get, hg, eqInt] at he
          | some v =>
            simp only [Entry.get, hg, Option.getD_some] at he
            exact ⟨v, (lookup_some_iff _ _ _).1 hg, n, hn, he⟩
        · rintro (⟨h, _⟩ | ⟨h, _⟩ | ⟨_, ⟨i, hi, n, hn, he⟩, h⟩)
          · exact absurd h c1
          · exact absurd h c2
          · refine ⟨List.any_eq_true.2 ⟨n, hn, ?_⟩, h⟩
            have hi := (lookup_some_iff _ _ _).2 hi
            simpa only [Entry.get, hi, Option.getD_some] using he
      · have c3' : (typ == .str (ascii "VIEW_CHANGE")) = false := by simpa using c3
        simp only [c3', Bool.false_eq_true, if_false, false_iff]
        rintro (⟨h, _⟩ | ⟨h, _⟩ | ⟨h, _⟩)
        · exact absurd h c1
        · exact absurd h c2
        · exact absurd h c3

/-- **C83 is false.** Four bytes, `null`, sent to the client port by anyone who can connect to
it, stop any node that is up. -/
theorem C83_null_stops (cfg : Cfg) (env : Env) (s : St) (t i : Bytes) (hs : s.stopped = false)
    (he : s.clientRx = []) (ht : t ∉ PINGS) (hl : cfg.loads t = some .none)
    (hu : cfg.utf8 t = true) (hi : cfg.utf8 i = true) (hm : t.length ≤ cfg.maxLen) :
    (step cfg (step cfg s (.arrive true t i)) (.clientOne env)).stopped = true := by
  have h1 : step cfg s (.arrive true t i) = { s with clientRx := [(t, i)] } := by
    simp [step, arrive, hs, hi, hm, hu, he]
  rw [h1]
  show (if s.stopped then _ else clientOne cfg env { s with clientRx := [] } t i).stopped = true
  rw [if_neg (by simp [hs])]
  exact (C83_client_stops_iff cfg env { s with clientRx := [] } t i .none hs ht hl).2 (.inl trivial)

namespace EntryX

/-- JSON texts of the examples. -/
def loads (t : Bytes) : Option Val :=
  if t = ascii "null" then some .none
  else if t = ascii "\"top\"" then some (.str (ascii "top"))
  else if t = ascii "[1]" then some (.list [.int 1])
  else if t = ascii "sigs" then some (.dict [(ascii "signatures", .int 5)])
  else if t = ascii "status" then some (.dict [(ascii "op", .str (ascii "LEDGER_STATUS")),
    (ascii "operation", .dict [(ascii "type", .str (ascii "1"))]), (ascii "reqId", .int 7),
    (ascii "identifier", .str (ascii "A"))])
  else if t = ascii "write" then some (.dict [
    (ascii "operation", .dict [(ascii "type", .str (ascii "1"))]), (ascii "reqId", .int 7),
    (ascii "identifier", .str (ascii "A")), (ascii "signature", .str (ascii "s"))])
  else if t = ascii "unsigned" then some (.dict [
    (ascii "operation", .dict [(ascii "type", .str (ascii "1"))]), (ascii "reqId", .int 7),
    (ascii "identifier", .str (ascii "A"))])
  else if t = ascii "prepare" then some (.dict [(ascii "op", .str (ascii "PREPARE")), (ascii "viewNo", .int 0)])
  else if t = ascii "ack" then some (.dict [(ascii "op", .str (ascii "REQACK"))])
  else if t = ascii "batch" then some (.dict [(ascii "op", .str (ascii "BATCH")), (ascii "messages",
    .list [.str (ascii "pi"), .str (ascii "null"), .str (ascii "x"), .str (ascii "ack"), .str (ascii "prepare")]),
    (ascii "signature", .none)])
  else if t = ascii "ask" then some (.dict [(ascii "op", .str (ascii "MESSAGE_REQUEST")),
    (ascii "msg_type", .str (ascii "PROPAGATE")), (ascii "params", .dict [(ascii "digest", .list [])])])
  else none

def cfg : Cfg where
  loads := loads
  utf8 := fun _ => true
  maxLen := 100
  fits := fun _ _ => true
  request := fun _ => none
  needsSig := fun _ => true
  verify := fun _ => none
  propagated := fun _ => true
  depth := 3

def env : Env := ⟨fun _ => true, true, fun _ => false, fun _ => false, fun _ => false⟩

def F : Facts := ⟨[(0, 4), (1, 9), (2, 1), (3, 5)], [0, 1], fun _ _ => false⟩

/-- One message of a client, from the bytes to the inbox. -/
def client (t : String) : St := run cfg [.arrive true (ascii t) (ascii "C"), .clientOne env]

/-- One message of a peer, from the bytes through the router. -/
def peer (t : String) : St :=
  run cfg [.arrive false (ascii t) (ascii "P"), .nodeOne env, .route (handlerRaises F)]

/-- Each kind of fatal message of a client. -/
example : (client "null").stopped = true ∧ (client "\"top\"").stopped = true ∧ (client "[1]").stopped = true ∧
    (client "sigs").stopped = true ∧ (client "status").stopped = true := by decide +kernel

/-- A signed request is queued, an unsigned one is answered, and what is not JSON is dropped. -/
example : (client "write").stopped = false ∧ (client "write").clientIn.length = 1 ∧
    (client "unsigned").stopped = false ∧ (client "unsigned").nacks.length = 1 ∧
    (client "unsigned").clientIn.length = 0 ∧ (client "{").stopped = false := by decide +kernel

/-- Peers: arrays without "op" do not stop the node, texts with it do. -/
example : (peer "null").stopped = true ∧ (peer "\"top\"").stopped = true ∧ (peer "[1]").stopped = false ∧
    (peer "ack").stopped = false ∧ (peer "prepare").stopped = false ∧ (peer "batch").stopped = false ∧
    (peer "ask").stopped = true := by decide +kernel

/-- The PREPARE of the batch is queued, although a ping, `null`, a text that is no JSON and a message
of a type nodes do not take are before it. -/
example : ((run cfg [.arrive false (ascii "batch") (ascii "P"), .nodeOne env]).nodeIn.map (fun e => e.1.op)) =
    [ascii "PREPARE"] := by decide +kernel

/-- The hypotheses of `C83_null_stops` are met in the initial state. -/
example : (step cfg (step cfg {} (.arrive true (ascii "null") (ascii "C"))) (.clientOne env)).stopped = true :=
  C83_null_stops cfg env {} _ _ rfl rfl (by decide +kernel) (by decide +kernel) rfl rfl (by decide +kernel)

/-- A harmless history with a batch, a bad message, a request and a routed message. -/
example : (run cfg [.arrive false (ascii "batch") (ascii "P"), .arrive true (ascii "{") (ascii "C"),
    .nodeOne env, .clientOne env, .route (fun _ => false)]).stopped = false := by
  have hb : ∀ v, cfg.loads (ascii "batch") = some v → ¬ Spec.NoObject v := by
    intro v h
    have : cfg.loads (ascii "batch") = some (.dict [(ascii "op", .str (ascii "BATCH")), (ascii "messages",
      .list [.str (ascii "pi"), .str (ascii "null"), .str (ascii "x"), .str (ascii "ack"), .str (ascii "prepare")]),
      (ascii "signature", .none)]) := by decide +kernel
    rw [this] at h
    cases h
    exact fun h => h
  have hj : ∀ v, cfg.loads (ascii "{") = some v → ¬ FatalForClient cfg v := by
    intro v h
    have : cfg.loads (ascii "{") = none := by decide +kernel
    rw [this] at h
    cases h
  refine C83_survives_partial cfg _ ?_
  intro e he
  simp only [List.mem_cons, List.not_mem_nil, or_false] at he
  rcases he with rfl | rfl | rfl | rfl | rfl
  · exact hb
  · exact hj
  · trivial
  · trivial
  · exact fun _ => rfl

end EntryX

end Verif.Props
