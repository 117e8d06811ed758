import Verif.Proofs.StackConn
/-!
# C92: the connections of a node, and whom its messages are from

In words: a message the node gets as one of a node came in with that node's key, no more often and in no other order than it
came in; what comes in with the key of a known node is handed on; the remotes are the nodes of the pool, with the addresses and
keys of the ledger; who counts as connected was heard, who is lost is noticed, and the replicas are told.

The runs start with a node that starts (`State.start`), and go through any events in any order.
-/
namespace Verif.Props
open Verif.Stack

/-- A pool of three, seen by node 0. -/
def stCfg : Cfg := { name := 0, localIps := [], stashMax := 1, retryConnect := true, retrySocket := true, maxRetry := 1, pause := 6 }

def stPool : State :=
  { registry := [(0, (1, 1)), (1, (1, 2)), (2, (1, 3))], disk := [(1, 11), (2, 12)], nyms := [(1, 11), (2, 12)] }

theorem stPool_start : stPool.start := rfl

/-- Node 1 is connected, and a message of it is handed on. -/
def stRun : List Ev :=
  [.maintain true, .recv 11 11 .pong, .process, .checkConns, .recv 11 11 (.data 5), .process]

/-! ## Whom a message is from -/

/-- **C92, partial**: a message is handed on as one of node `n` only when it is its turn, after it came in with an identity that
is the key of the remote `n` then, and that the ledger gave to `n` at some time.

Missing: that whoever sent it holds the key. The identity is what the other side announced; see `C92_spoof`. -/
theorem C92_attribution_partial (cfg : Cfg) (s : State) (hs : s.start) (es : List Ev) (n : Name) (d : Nat) (k : Key)
    (h : (n, d, k) ∈ (s.run cfg es).handed) :
    ∃ pre post, es = pre ++ .process :: post
      ∧ (s.run cfg pre).rx.head? = some (.data d, k) ∧ (.data d, k) ∈ frames pre
      ∧ (∃ r, (s.run cfg pre).remotes.get? n = some r ∧ r.key = k)
      ∧ (s.run cfg pre).registry.has n = true ∧ n ≠ cfg.name
      ∧ Given s pre n k := by
  obtain ⟨pre, post, h1, h2, r, h3, h4⟩ := run_named hs es h
  have hp := run_inPool (cfg := cfg) hs pre n r h3
  refine ⟨pre, post, h1, h2, rx_came hs pre h2, ⟨r, h3, h4⟩, hp.2.1, hp.1, ?_⟩
  have := (run_given (cfg := cfg) hs pre).2 n r h3
  rw [h4] at this
  exact this

example : (1, 5, 11) ∈ (stPool.run stCfg stRun).handed := by decide +kernel

/-- The key a connection is encrypted with plays no role: the same run with other keys of the connections does the same. -/
theorem C92_spoof (cfg : Cfg) (s : State) (es : List Ev) (f : Key → Key) :
    s.run cfg (es.map (fun e => match e with
      | .recv c k m => .recv (f c) k m
      | e => e)) = s.run cfg es := by
  induction es generalizing s with
  | nil => rfl
  | cons e es ih =>
    show State.run cfg (State.step cfg s _) _ = (s.step cfg e).run cfg es
    rw [← ih]
    cases e <;> rfl

/-- Without the library's own check of the keys, one who holds the key 99 is taken for node 1. -/
theorem C92_impersonated : ∃ (cfg : Cfg) (s : State), s.start ∧ s.disk.get? 1 = some 11 ∧
    (1, 6, 11) ∈ (s.run cfg [.maintain true, .recv 99 11 (.data 6), .process]).handed :=
  ⟨stCfg, stPool, stPool_start, by decide +kernel⟩

/-! ## How often, and in which order -/

/-- **C92**: a message is handed on no more often than it came in. -/
theorem C92_once (cfg : Cfg) (s : State) (hs : s.start) (es : List Ev) (d : Nat) (k : Key) :
    ((s.run cfg es).handed.map (fun x => (x.2.1, x.2.2))).count (d, k) ≤ (contents (frames es)).count (d, k) := by
  have := run_count (cfg := cfg) hs es (d, k)
  unfold State.taken at this
  omega

/-- **C92, partial**: messages are handed on in the order in which they came in.

Missing: after the messages kept for unknown nodes are put back; see `C92_order_lost`. -/
theorem C92_order_partial (cfg : Cfg) (s : State) (hs : s.start) (es : List Ev) (hu : Ev.unknown ∉ es) :
    ((s.run cfg es).handed.map (fun x => (x.2.1, x.2.2))).Sublist (contents (frames es)) :=
  (List.sublist_append_left ..).trans (run_order (cfg := cfg) hs es hu)

example : ((stPool.run stCfg (stRun ++ [.recv 11 11 (.data 6), .process])).handed.map (fun x => (x.2.1, x.2.2))) = [(5, 11), (6, 11)] := by
  decide +kernel

/-- Two messages of one node, of which the second is handed on first: the first came before the node was known. -/
theorem C92_order_lost : ∃ (cfg : Cfg) (s : State) (es : List Ev), s.start ∧
    contents (frames es) = [(1, 13), (2, 13)] ∧ (s.run cfg es).handed = [(3, 2, 13), (3, 1, 13)] :=
  ⟨stCfg, stPool, [.recv 13 13 (.data 1), .process, .connectNew 3 (1, 4) 13, .recv 13 13 (.data 2), .process, .unknown, .process],
    stPool_start, by decide +kernel⟩

/-! ## What comes in is handed on -/

/-- **C92**: what comes in with the key of a known node is handed on as its message as soon as those before it are processed, as
long as no other node gets in or out. -/
theorem C92_handed (cfg : Cfg) (s : State) (d : Nat) (c k : Key) (n : Name) (hk : s.byKeys.get? k = some n) (es : List Ev)
    (hq : ∀ e ∈ es, e.quiet = true) (hc : s.rx.length < es.count .process) :
    (n, d, k) ∈ (s.run cfg (.recv c k (.data d) :: es)).handed := by
  refine served (s.step cfg (.recv c k (.data d))) s.rx.length d k n ?_ hk es hq hc
  show (s.rx ++ [(Msg.data d, k)])[s.rx.length]? = _
  simp

example : (stPool.run stCfg [.maintain true]).byKeys.get? 11 = some 1
    ∧ (stPool.run stCfg [.maintain true]).rx.length < [Ev.tick 1, .process].count .process := by decide +kernel

/-- **C92, partial**: a message with an identity nobody has, in a node that does not take part yet, waits; when the node is known
by the time the waiting messages are put back, it is handed on.

Missing: when the node takes part already (`C92_dropped`); when more messages of unknown nodes come than there is room for
(`C92_flooded`); when the process is started again in between. -/
theorem C92_waits_partial (cfg : Cfg) (s : State) (d : Nat) (k : Key) (n : Name)
    (hh : s.rx.head? = some (.data d, k)) (hk : s.byKeys.get? k = none) (hp : s.participating = false)
    (es : List Ev) (hu : Ev.unknown ∉ es) (hr : Ev.restart ∉ es)
    (hn : strange cfg (s.step cfg .process) es < cfg.stashMax)
    (fs : List Ev) (hq : ∀ e ∈ fs, e.quiet = true) :
    let t := (s.step cfg .process).run cfg es
    t.byKeys.get? k = some n → t.rx.length + t.stash.length ≤ fs.count .process →
    (n, d, k) ∈ (t.run cfg (.unknown :: fs)).handed := by
  intro t ht hc
  have hw := waits (cfg := cfg) (s.step cfg .process) (.data d, k) 0 es (stashed s d k hh hk hp (by omega)) hu hr (by omega)
  obtain ⟨i, hi⟩ := List.getElem?_of_mem (recent_mem hw)
  have hl : i < t.stash.length := (List.getElem?_eq_some_iff.mp hi).1
  refine served (t.step cfg .unknown) (t.rx.length + i) d k n ?_ ht fs hq (by omega)
  show (t.rx ++ t.stash)[t.rx.length + i]? = _
  rw [List.getElem?_append_right (by omega), Nat.add_sub_cancel_left]
  exact hi

example : let s := stPool.run stCfg [.maintain true, .recv 13 13 (.data 1)]
    let es := [Ev.recv 12 12 (.data 2), .process, .connectNew 3 (1, 4) 13]
    let t := (s.step stCfg .process).run stCfg es
    s.rx.head? = some (.data 1, 13) ∧ s.byKeys.get? 13 = none ∧ s.participating = false
    ∧ strange stCfg (s.step stCfg .process) es < stCfg.stashMax ∧ t.byKeys.get? 13 = some 3
    ∧ t.rx.length + t.stash.length ≤ [Ev.process].count .process := by decide +kernel

/-- In a node that takes part, the message of one it does not know yet is lost. -/
theorem C92_dropped : ∃ (cfg : Cfg) (s : State) (es : List Ev), s.start ∧ 0 < cfg.stashMax ∧
    (.data 1, 13) ∈ frames es ∧ (s.run cfg es).byKeys.get? 13 = some 3 ∧
    (s.run cfg es).handed = [] ∧ (s.run cfg es).rx = [] ∧ (s.run cfg es).stash = [] :=
  ⟨stCfg, stPool, [.setMode true, .recv 13 13 (.data 1), .process, .connectNew 3 (1, 4) 13, .unknown, .process], stPool_start,
    by decide +kernel⟩

/-- Messages with an identity of nobody push out the ones that wait. -/
theorem C92_flooded : ∃ (cfg : Cfg) (s : State) (es : List Ev), s.start ∧ 0 < cfg.stashMax ∧
    (.data 1, 13) ∈ frames es ∧ (s.run cfg es).byKeys.get? 13 = some 3 ∧
    (s.run cfg es).handed = [] ∧ (s.run cfg es).rx = [] ∧ (.data 1, 13) ∉ (s.run cfg es).stash :=
  ⟨stCfg, stPool, [.recv 13 13 (.data 1), .process, .recv 99 99 (.data 7), .process, .connectNew 3 (1, 4) 13, .unknown, .process],
    stPool_start, by decide +kernel⟩

/-- **C92, partial**: a remote is found by its key, if no two nodes were given one key.

Missing: with two nodes of one key; see `C92_shared`. -/
theorem C92_known_partial (cfg : Cfg) (s : State) (hs : s.start) (es : List Ev)
    (hu : ∀ n m k, Given s es n k → Given s es m k → n = m) (n : Name) (r : Remote)
    (h : (s.run cfg es).remotes.get? n = some r) : (s.run cfg es).byKeys.get? r.key = some n :=
  run_found hs es hu n r h

example : ((stPool.run stCfg [.maintain true]).remotes.get? 1).map (fun r => r.key) = some 11 := by decide +kernel

/-- When another node is given the key of node 1, and is put out of the pool, the messages of node 1 are not handed on. -/
theorem C92_shared : ∃ (cfg : Cfg) (s : State) (es : List Ev), s.start ∧ s.disk.get? 1 = some 11 ∧
    (s.run cfg es).remotes.has 1 = true ∧ (s.run cfg es).registry.has 3 = false ∧ (s.run cfg es).byKeys.get? 11 = none :=
  ⟨stCfg, stPool, [.maintain true, .connectNew 3 (1, 4) 11, .demote 3], stPool_start, by decide +kernel⟩

/-- A ping of a known node is answered at once. -/
theorem C92_ping (cfg : Cfg) (s : State) (hs : s.start) (es : List Ev) (k : Key) (n : Name) (rest : List (Msg × Key))
    (h : (s.run cfg es).rx = (.ping, k) :: rest) (hk : (s.run cfg es).byKeys.get? k = some n) :
    (s.run cfg (es ++ [.process])).out = (s.run cfg es).out ++ [.pong n] := by
  obtain ⟨r, h1, _⟩ := run_keyed (cfg := cfg) hs es k n hk
  have h2 := (run_inPool (cfg := cfg) hs es n r h1).2.2
  rw [run_snoc]
  show ((s.run cfg es).process cfg).out = _
  generalize s.run cfg es = t at h hk h1
  replace h1 : t.remotes.get? n = some r := h1
  unfold State.process
  rw [h]
  dsimp only
  rw [hk]
  dsimp only
  have c : ∀ u : State, u.out = t.out → u.canSend n = true → (u.sendPong n).out = t.out ++ [.pong n] := by
    intro u hu hc
    unfold State.sendPong
    rw [if_pos hc]
    show u.out ++ _ = _
    rw [hu]
  split
  · refine c _ rfl ?_
    unfold State.canSend
    dsimp only
    rw [h1]; exact h2
  · refine c _ ?_ ?_
    · unfold State.setLive; dsimp only; rw [h1]
    · unfold State.setLive State.canSend
      dsimp only
      rw [h1]
      dsimp only
      rw [Verif.Dict.get?_set, if_pos rfl]
      exact h2

example : (stPool.run stCfg [.maintain true, .recv 11 11 .ping]).rx = [(.ping, 11)]
    ∧ (stPool.run stCfg [.maintain true, .recv 11 11 .ping]).byKeys.get? 11 = some 1 := by decide +kernel

/-! ## The remotes are the nodes of the pool -/

/-- **C92**: there are remotes for nodes of the registry only, not for this one, and all have sockets. -/
theorem C92_only (cfg : Cfg) (s : State) (hs : s.start) (es : List Ev) (n : Name) (r : Remote)
    (h : (s.run cfg es).remotes.get? n = some r) :
    n ≠ cfg.name ∧ (s.run cfg es).registry.has n = true ∧ r.socket = true :=
  run_inPool hs es n r h

/-- **C92**: after a forced look at the connections each node of the registry whose key is on the disk has a remote. -/
theorem C92_connects (cfg : Cfg) (s : State) (hs : s.start) (es : List Ev) (n : Name) (ha : Ha) (k : Key) (hn : n ≠ cfg.name)
    (hr : (s.run cfg es).registry.get? n = some ha) (hd : (s.run cfg es).disk.get? n = some k) :
    ∃ r, (s.run cfg (es ++ [.maintain true])).remotes.get? n = some r ∧ r.socket = true := by
  have h := maintain_has (s.run cfg es) hn hr hd
  have e : s.run cfg (es ++ [.maintain true]) = (s.run cfg es).maintain cfg true := run_snoc ..
  obtain ⟨r, h⟩ := (Verif.Dict.has_iff _ _).mp h
  rw [← e] at h
  exact ⟨r, h, (run_inPool hs _ n r h).2.2⟩

example : (stPool.run stCfg []).registry.get? 2 = some (1, 3) ∧ (stPool.run stCfg []).disk.get? 2 = some 12 := by decide +kernel

/-- **C92, partial**: a remote has the address of the registry and the key that is on the disk.

Missing: when a node that has a remote is put into the pool again; see `C92_stale`. -/
theorem C92_current_partial (cfg : Cfg) (s : State) (hs : s.start) (es : List Ev)
    (hf : Along cfg (fun t e => t.again e = false) s es) (n : Name) (r : Remote)
    (h : (s.run cfg es).remotes.get? n = some r) :
    (s.run cfg es).registry.get? n = some r.ha ∧ (s.run cfg es).disk.get? n = some r.key :=
  And.symm (run_current hs es hf n r h)

example : Along stCfg (fun t e => t.again e = false) stPool [.maintain true, .haChanged 1 (1, 7)] := by
  intro a e b h
  match a with
  | [] => cases h; decide +kernel
  | [_] => cases h; decide +kernel
  | [_, _] => cases h
  | _ :: _ :: _ :: _ => cases h

/-- A node that is put in again with another address keeps the old one, and is dialled there. -/
theorem C92_stale : ∃ (cfg : Cfg) (s : State) (es : List Ev), s.start ∧
    (s.run cfg es).registry.get? 1 = some (1, 9) ∧ (s.run cfg es).disk.get? 1 = some 21
    ∧ ((s.run cfg es).remotes.get? 1).map (fun r => (r.ha, r.key)) = some ((1, 2), 11)
    ∧ (s.run cfg es).out.count (.dial 1 (1, 2) 11) = 3 ∧ Out.dial 1 (1, 9) 21 ∉ (s.run cfg es).out :=
  ⟨stCfg, stPool, [.maintain true, .connectNew 1 (1, 9) 21, .tick 100, .maintain false], stPool_start, by decide +kernel⟩

/-- **C92, partial**: after a node of the pool got a new key, the remote has that one.

Missing: after the process is started again, and after the node is put in again, with no new key in the ledger; see
`C92_old_key` and `C92_old_key_again`. -/
theorem C92_new_key_partial (cfg : Cfg) (s : State) (pre es : List Ev) (n : Name) (k : Key) (hn : n ≠ cfg.name)
    (hr : (s.run cfg pre).registry.has n = true) (he : ∀ e ∈ es, (∀ j, ¬ e.gives n j) ∧ e ≠ .restart) (r : Remote)
    (h : (s.run cfg (pre ++ .keysChanged n k :: es)).remotes.get? n = some r) : r.key = k := by
  have := rotated (s.run cfg pre) n k hn hr es he
  rw [run_append] at h
  exact this.2 r h

example : (stPool.run stCfg [.maintain true]).registry.has 1 = true
    ∧ ((stPool.run stCfg [.maintain true, .keysChanged 1 21]).remotes.get? 1).map (fun r => r.key) = some 21 := by decide +kernel

/-- A node that is started again uses the old key of a node that has a new one: messages with the new key are not handed on, those with
the old one are. -/
theorem C92_old_key : ∃ (cfg : Cfg) (s : State) (pre es : List Ev), s.start ∧ pre = [.maintain true, .keysChanged 1 21] ∧
    ((s.run cfg pre).remotes.get? 1).map (fun r => r.key) = some 21 ∧ (∀ e ∈ es, ∀ j, ¬ e.gives 1 j) ∧
    ((s.run cfg (pre ++ es)).remotes.get? 1).map (fun r => r.key) = some 11 ∧
    (s.run cfg (pre ++ es ++ [.recv 21 21 (.data 5), .process, .recv 11 11 (.data 6), .process])).handed = [(1, 6, 11)] :=
  ⟨stCfg, stPool, _, [.restart, .setMode true, .maintain true], stPool_start, rfl, by decide +kernel,
    (by
      intro e he j h
      simp only [List.mem_cons, List.not_mem_nil, or_false] at he
      rcases he with rfl | rfl | rfl <;> exact h),
    by decide +kernel, by decide +kernel⟩

/-- So does one that takes the node in again, with the key of its name. -/
theorem C92_old_key_again : ∃ (cfg : Cfg) (s : State), s.start ∧ s.disk.get? 1 = some 11 ∧
    ((s.run cfg [.maintain true, .keysChanged 1 21, .demote 1, .connectNew 1 (1, 2) 11]).remotes.get? 1).map (fun r => r.key)
      = some 11 :=
  ⟨stCfg, stPool, stPool_start, by decide +kernel⟩

/-! ## Who is connected -/

/-- **C92**: who counts as connected was heard: a message with the key of the remote was processed as one of it — a pong, if connections
are looked after by pings. -/
theorem C92_heard (cfg : Cfg) (s : State) (hs : s.start) (es : List Ev) (n : Name) (r : Remote)
    (h : (s.run cfg es).remotes.get? n = some r) (hl : r.live = true) :
    ∃ pre post m, es = pre ++ .process :: post ∧ (s.run cfg pre).rx.head? = some (m, r.key)
      ∧ (s.run cfg pre).byKeys.get? r.key = some n ∧ (cfg.retryConnect = true → m = .pong) :=
  run_heard hs es h hl

example : ((stPool.run stCfg stRun).remotes.get? 1).map (fun r => r.live) = some true := by decide +kernel

/-- **C92, partial**: when the socket of a node reports that the connection is lost, the next check of the connections puts the node
out of the connected, whatever comes in and whatever other sockets report until then.

Missing: a loss before the first check, when the socket has no monitor yet; see `C92_unnoticed`. -/
theorem C92_noticed_partial (cfg : Cfg) (s : State) (hs : s.start) (pre es : List Ev) (n : Name) (r : Remote) (l : List Mon)
    (x : Mon) (hx : x = .disconnected ∨ x = .closed)
    (hr : (s.run cfg pre).remotes.get? n = some r) (hm : r.monitor = some l)
    (hq : ∀ e ∈ es, e.quiet = true ∨ ∃ m y, e = .mon m y ∧ (m ≠ n ∨ y = .other)) :
    let t := s.run cfg (pre ++ .mon n x :: es ++ [.checkConns])
    n ∉ t.conns ∧ ∀ r, t.remotes.get? n = some r → r.live = false := by
  have e : s.run cfg (pre ++ .mon n x :: es ++ [.checkConns])
      = (((s.run cfg pre).step cfg (.mon n x)).run cfg es).step cfg .checkConns := by
    rw [run_snoc, run_append]; rfl
  have e' : s.run cfg (pre ++ .mon n x :: es) = ((s.run cfg pre).step cfg (.mon n x)).run cfg es := by
    rw [run_append]; rfl
  intro t
  have := noticed (cfg := cfg) hr (run_inPool hs pre n r hr).2.2 hm hx es hq
    (by have := run_once (cfg := cfg) hs (pre ++ .mon n x :: es); rw [e'] at this; exact this)
  show n ∉ (s.run cfg (pre ++ .mon n x :: es ++ [.checkConns])).conns ∧ ∀ r, (s.run cfg (pre ++ .mon n x :: es ++ [.checkConns])).remotes.get? n = some r → _
  rw [e]
  exact this

example : (((stPool.run stCfg stRun).remotes.get? 1).bind (fun r => r.monitor)) = some [] ∧ 1 ∈ (stPool.run stCfg stRun).conns := by
  decide +kernel

/-- A connection that is lost before the first check counts as one for good. -/
theorem C92_unnoticed : ∃ (cfg : Cfg) (s : State) (pre : List Ev), s.start ∧
    ((s.run cfg pre).remotes.get? 1).map (fun r => r.live) = some true ∧
    1 ∈ (s.run cfg (pre ++ [.mon 1 .disconnected, .checkConns, .tick 100, .maintain false, .checkConns])).told :=
  ⟨stCfg, stPool, [.maintain true, .recv 11 11 .pong, .process], stPool_start, by decide +kernel⟩

/-- **C92, partial**: if addresses are different, no check stops the node.

Missing: with nodes of one address; see `C92_stops`. -/
theorem C92_goes_partial (cfg : Cfg) (s : State) (hs : s.start) (es : List Ev)
    (hf : Along cfg (fun t e => t.again e = false) s es) (hd : Along cfg (fun t _ => t.distinct) s es) :
    (s.run cfg es).stopped = false :=
  run_goes hs es hf hd

/-- **C92, partial**: if addresses are different, what the replicas are told is who is connected, and after a check it is all of them.

Missing: with nodes of one address, and after the process is started again, when the replicas are new. -/
theorem C92_told_partial (cfg : Cfg) (s : State) (hs : s.start) (es : List Ev)
    (hf : Along cfg (fun t e => t.again e = false) s es) (hd : Along cfg (fun t _ => t.distinct) s es)
    (hd' : (s.run cfg es).distinct) (hr : Ev.restart ∉ es) (n : Name) :
    n ∈ (s.run cfg (es ++ [.checkConns])).told ↔
      ∃ r, (s.run cfg (es ++ [.checkConns])).remotes.get? n = some r ∧ r.live = true := by
  have := check_told (run_once (cfg := cfg) hs es) (run_apart hs es hf hd') (run_goes hs es hf hd) (run_told hs es hf hd hr)
  rw [run_snoc]
  show n ∈ (s.run cfg es).checkConns.told ↔ _
  rw [this.1]
  exact this.2 n

theorem stDistinct {s : State} (h : ∀ e ∈ s.registry, ∀ f ∈ s.registry, e.2 = f.2 → e.1 = f.1) : s.distinct :=
  fun n m ha hn hm => h (n, ha) (Verif.Dict.mem_of_get? hn) (m, ha) (Verif.Dict.mem_of_get? hm) rfl

/-- The hypotheses: a run in which node 1 is connected. -/
example : Along stCfg (fun t e => t.again e = false) stPool [.maintain true, .recv 11 11 .pong, .process]
    ∧ Along stCfg (fun t _ => t.distinct) stPool [.maintain true, .recv 11 11 .pong, .process]
    ∧ (stPool.run stCfg [.maintain true, .recv 11 11 .pong, .process]).distinct
    ∧ (stPool.run stCfg ([.maintain true, .recv 11 11 .pong, .process] ++ [.checkConns])).told = [1] := by
  refine ⟨?_, ?_, stDistinct (by decide +kernel), by decide +kernel⟩
  · intro a e b h
    match a with
    | [] => cases h; rfl
    | [_] => cases h; rfl
    | [_, _] => cases h; rfl
    | [_, _, _] => cases h
    | _ :: _ :: _ :: _ :: _ => cases h
  · intro a e b h
    match a with
    | [] => cases h; exact stDistinct (by decide +kernel)
    | [_] => cases h; exact stDistinct (by decide +kernel)
    | [_, _] => cases h; exact stDistinct (by decide +kernel)
    | [_, _, _] => cases h
    | _ :: _ :: _ :: _ :: _ => cases h

/-- Two nodes of one address which are connected between two checks stop the node. -/
theorem C92_stops : ∃ (cfg : Cfg) (s : State) (es : List Ev), s.start ∧ Along cfg (fun t e => t.again e = false) s es ∧
    (s.run cfg es).stopped = true :=
  ⟨stCfg, stPool, [.connectNew 3 (1, 2) 13, .recv 11 11 .pong, .process, .recv 13 13 .pong, .process, .checkConns], stPool_start, (by
    intro a e b h
    match a with
    | [] => cases h; decide +kernel
    | [_] => cases h; rfl
    | [_, _] => cases h; rfl
    | [_, _, _] => cases h; rfl
    | [_, _, _, _] => cases h; rfl
    | [_, _, _, _, _] => cases h; rfl
    | [_, _, _, _, _, _] => cases h
    | _ :: _ :: _ :: _ :: _ :: _ :: _ :: _ => cases h), by decide +kernel⟩

end Verif.Props
