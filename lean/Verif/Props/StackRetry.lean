import Verif.Proofs.StackRetry
import Verif.Props.Stack
/-!
# C92: connections are made, looked after and made again
-/
namespace Verif.Props
open Verif.Stack

/-! ## Nodes that are not connected are tried again -/

/-- **C92**: a node of the pool which is not connected is sent a ping at each forced look. -/
theorem C92_pinged (cfg : Cfg) (s : State) (hs : s.start) (es : List Ev) (n : Name) (r : Remote) (hc : cfg.retryConnect = true)
    (hr : (s.run cfg es).remotes.get? n = some r) (hl : r.live = false) :
    ∃ l, (s.run cfg (es ++ [.maintain true])).out = (s.run cfg es).out ++ l ∧ .ping n ∈ l := by
  have hp := run_inPool (cfg := cfg) hs es n r hr
  obtain ⟨ha, hn⟩ := (Verif.Dict.has_iff _ _).mp hp.2.1
  rw [run_snoc]
  exact (maintain_did _ (run_once (cfg := cfg) hs es) hn hr hl hp.2.2 hc).1

/-- **C92**: and its address is dialled again after at most `MAX_RECONNECT_RETRY_ON_SAME_SOCKET` looks that did not help. -/
theorem C92_redialled (cfg : Cfg) (s : State) (hs : s.start) (es : List Ev) (n : Name) (r : Remote) (hc : cfg.retryConnect = true)
    (hc' : cfg.retrySocket = true) (hr : (s.run cfg es).remotes.get? n = some r) (hl : r.live = false) :
    ∃ i, i ≤ cfg.maxRetry + 1 ∧
      ∃ l, (s.run cfg (es ++ List.replicate i (.maintain true))).out = (s.run cfg es).out ++ l ∧ .dial n r.ha r.key ∈ l := by
  have hp := run_inPool (cfg := cfg) hs es n r hr
  obtain ⟨ha, hn⟩ := (Verif.Dict.has_iff _ _).mp hp.2.1
  by_cases h : cfg.maxRetry < ((s.run cfg es).retries.get? n).getD 0
  · refine ⟨1, by omega, ?_⟩
    rw [show es ++ List.replicate 1 (Ev.maintain true) = es ++ [.maintain true] from rfl, run_snoc]
    rcases (maintain_did _ (run_once (cfg := cfg) hs es) hn hr hl hp.2.2 hc).2 hc' with x | ⟨x, _⟩
    · exact x
    · omega
  · refine ⟨cfg.maxRetry + 1, Nat.le_refl _, ?_⟩
    rw [run_append]
    rcases redialled (cfg.maxRetry + 1) _ (run_once (cfg := cfg) hs es) hn hr hl hp.2.2 hc hc' (by omega) with x | x
    · exact x
    · exact (h x).elim

example : ((stPool.run stCfg [.maintain true]).remotes.get? 1).map (fun r => r.live) = some false
    ∧ (stPool.run stCfg [.maintain true]).out.count (.dial 1 (1, 2) 11) = 1
    ∧ (stPool.run stCfg [.maintain true, .maintain true, .maintain true]).out.count (.dial 1 (1, 2) 11) = 2 := by decide +kernel

/-- **C92**: a node that is connected, at its address, is left alone: no ping, no new connection. -/
theorem C92_left_alone (cfg : Cfg) (s : State) (hs : s.start) (es : List Ev) (hf : Along cfg (fun t e => t.again e = false) s es)
    (n : Name) (r : Remote) (f : Bool) (hr : (s.run cfg es).remotes.get? n = some r) (hl : r.live = true)
    (hm : ∀ l, r.monitor = some l → .disconnected ∉ l ∧ .closed ∉ l) :
    (s.run cfg (es ++ [.maintain f])).out.filter (fun o => o.about = some n) = (s.run cfg es).out.filter (fun o => o.about = some n)
    ∧ ∃ q, (s.run cfg (es ++ [.maintain f])).remotes.get? n = some q ∧ q.live = true := by
  have hp := run_inPool (cfg := cfg) hs es n r hr
  have hc := (run_current (cfg := cfg) hs es hf n r hr).2
  rw [run_snoc]
  refine maintain_aside _ (run_once (cfg := cfg) hs es) hc hr (by unfold sameAddr; simp) ?_ f
  unfold Remote.look
  rw [hl, hp.2.2]
  have : lost (r.monitor.getD []) = false := by
    cases h : r.monitor with
    | none => rfl
    | some l =>
      obtain ⟨h1, h2⟩ := hm l h
      show lost l = false
      unfold lost
      split
      · rename_i e
        exact (h1 (List.mem_filter.mp (List.mem_of_getLast? e)).1).elim
      · rename_i e
        exact (h2 (List.mem_filter.mp (List.mem_of_getLast? e)).1).elim
      · rfl
  rw [this]
  rfl

example : ((stPool.run stCfg stRun).remotes.get? 1).map (fun r => (r.live, r.monitor)) = some (true, some []) := by decide +kernel

/-- **C92**: a look that is not forced happens when a pause has passed since the last one, and not before. -/
theorem C92_pause (cfg : Cfg) (s : State) (hs : s.start) (es : List Ev) (d : Nat) :
    (cfg.pause ≤ d → s.run cfg (es ++ [.tick d, .maintain false]) = s.run cfg (es ++ [.tick d, .maintain true]))
    ∧ (d < cfg.pause → s.run cfg (es ++ [.maintain true, .tick d, .maintain false]) = s.run cfg (es ++ [.maintain true, .tick d])) := by
  constructor
  · intro h
    rw [run_append, run_append]
    have hn := run_near (cfg := cfg) hs es
    refine maintain_due _ ?_
    show (s.run cfg es).nextCheck ≤ (s.run cfg es).now + d
    unfold Near at hn
    omega
  · intro h
    rw [run_append, run_append]
    have := maintain_clock (cfg := cfg) (s.run cfg es)
    refine maintain_early _ ?_
    show ((s.run cfg es).maintain cfg true).now + d < ((s.run cfg es).maintain cfg true).nextCheck
    omega

example : (stPool.run stCfg ([.maintain true] ++ [.tick 6, .maintain false])).out ≠ (stPool.run stCfg ([.maintain true] ++ [.tick 6])).out := by
  decide +kernel

/-! ## Changes of the pool -/

/-- **C92**: a node that gets into the pool, and has no remote, is dialled at its address with its key, and pinged. -/
theorem C92_joins (cfg : Cfg) (s : State) (es : List Ev) (n : Name) (ha : Ha) (k : Key) (hn : n ≠ cfg.name)
    (h0 : (s.run cfg es).remotes.get? n = none) :
    (∃ l, (s.run cfg (es ++ [.connectNew n ha k])).out = (s.run cfg es).out ++ l ∧ .dial n ha k ∈ l ∧ .ping n ∈ l)
    ∧ (s.run cfg (es ++ [.connectNew n ha k])).remotes.has n = true := by
  have hr : ∃ r, (s.run cfg (es ++ [.connectNew n ha k])).remotes.get? n = some r := by
    rw [run_snoc]
    show ∃ r, ((s.run cfg es).connectNew cfg n ha k).remotes.get? n = some r
    unfold State.connectNew
    rw [if_neg hn]
    exact (Verif.Dict.has_iff _ _).mp (maintain_has _ (ha := ha) (k := k) hn
      (by show Verif.Dict.get? (Verif.Dict.set _ _ _) _ = _; rw [Verif.Dict.get?_set, if_pos rfl])
      (by show Verif.Dict.get? (Verif.Dict.set _ _ _) _ = _; rw [Verif.Dict.get?_set, if_pos rfl]))
  refine ⟨?_, (Verif.Dict.has_iff _ _).mpr hr⟩
  rw [run_snoc]
  show ∃ l, ((s.run cfg es).connectNew cfg n ha k).out = _ ∧ _
  unfold State.connectNew
  rw [if_neg hn]
  have := maintain_new (cfg := cfg) { (s.run cfg es) with disk := (s.run cfg es).disk.set n k, nyms := (s.run cfg es).nyms.set n k, registry := (s.run cfg es).registry.set n ha }
    (n := n) (ha := ha) (k := k) hn
    (by show Verif.Dict.get? (Verif.Dict.set _ _ _) _ = _; rw [Verif.Dict.get?_set, if_pos rfl])
    (by show Verif.Dict.get? (Verif.Dict.set _ _ _) _ = _; rw [Verif.Dict.get?_set, if_pos rfl]) h0
  obtain ⟨⟨l, h1, h2⟩, ⟨l', h3, h4⟩, _⟩ := this
  have e : l = l' := List.append_cancel_left (h1.symm.trans h3)
  subst e
  exact ⟨l, h1, h2, h4⟩

example : (stPool.run stCfg [.maintain true]).remotes.get? 3 = none := by decide +kernel

/-- **C92**: a node of the pool that gets another address is dialled there, with its key. -/
theorem C92_moves (cfg : Cfg) (s : State) (es : List Ev) (n : Name) (ha : Ha) (k : Key) (hn : n ≠ cfg.name)
    (hr : (s.run cfg es).registry.has n = true) (hd : (s.run cfg es).disk.get? n = some k) :
    (∃ l, (s.run cfg (es ++ [.haChanged n ha])).out = (s.run cfg es).out ++ l ∧ .dial n ha k ∈ l)
    ∧ ∃ r, (s.run cfg (es ++ [.haChanged n ha])).remotes.get? n = some r ∧ r.live = false := by
  rw [run_snoc]
  have e : (s.run cfg es).step cfg (.haChanged n ha)
      = State.maintain cfg { (s.run cfg es).removeRemote n with registry := ((s.run cfg es).removeRemote n).registry.set n ha } true := by
    show (s.run cfg es).haChanged cfg n ha = _
    unfold State.haChanged
    rw [hr, if_neg (by simp), if_neg hn]
  rw [e]
  have ho : ((s.run cfg es).removeRemote n).out = (s.run cfg es).out := by unfold State.removeRemote; split <;> rfl
  have h0 : ((s.run cfg es).removeRemote n).remotes.get? n = none := by rw [get?_removeRemote]; exact if_pos rfl
  have hd' : ((s.run cfg es).removeRemote n).disk.get? n = some k := by rw [removeRemote_disk]; exact hd
  generalize (s.run cfg es).removeRemote n = t at ho h0 hd'
  have hreg : Verif.Dict.get? (State.registry { t with registry := t.registry.set n ha }) n = some ha := by
    show Verif.Dict.get? (Verif.Dict.set _ _ _) _ = _; rw [Verif.Dict.get?_set, if_pos rfl]
  have := maintain_new (cfg := cfg) { t with registry := t.registry.set n ha } (n := n) (ha := ha) (k := k) hn hreg hd' h0
  refine ⟨?_, ?_⟩
  · obtain ⟨⟨l, h1, h2⟩, _⟩ := this
    exact ⟨l, by rw [h1, ← ho], h2⟩
  · obtain ⟨r, hx⟩ := (Verif.Dict.has_iff _ _).mp (maintain_has (cfg := cfg) { t with registry := t.registry.set n ha } (m := n) (ha := ha) (k := k) hn hreg hd')
    refine ⟨r, hx, ?_⟩
    cases hl : r.live with
    | false => rfl
    | true =>
      rcases (kept_maintain (cfg := cfg) (a := nobody) (b := true) { t with registry := t.registry.set n ha } true).core.live hx hl with ⟨q, x, _⟩ | x
      · replace x : t.remotes.get? n = some q := x
        rw [h0] at x; cases x
      · cases x

example : (stPool.run stCfg stRun).registry.has 1 = true ∧ (stPool.run stCfg stRun).disk.get? 1 = some 11 := by decide +kernel

/-- **C92**: a node of the pool that gets another key is dialled with that one. -/
theorem C92_rekeyed (cfg : Cfg) (s : State) (es : List Ev) (n : Name) (ha : Ha) (k : Key) (hn : n ≠ cfg.name)
    (hr : (s.run cfg es).registry.get? n = some ha) :
    ∃ l, (s.run cfg (es ++ [.keysChanged n k])).out = (s.run cfg es).out ++ l ∧ .dial n ha k ∈ l := by
  rw [run_snoc]
  have e : (s.run cfg es).step cfg (.keysChanged n k)
      = State.maintain cfg { (s.run cfg es).removeRemote n with disk := ((s.run cfg es).removeRemote n).disk.set n k } true := by
    show (s.run cfg es).keysChanged cfg n k = _
    unfold State.keysChanged
    rw [(Verif.Dict.has_iff _ _).mpr ⟨ha, hr⟩, if_neg (by simp [hn])]
  rw [e]
  have ho : ((s.run cfg es).removeRemote n).out = (s.run cfg es).out := by unfold State.removeRemote; split <;> rfl
  have h0 : ((s.run cfg es).removeRemote n).remotes.get? n = none := by rw [get?_removeRemote]; exact if_pos rfl
  have hr' : ((s.run cfg es).removeRemote n).registry.get? n = some ha := by rw [removeRemote_registry]; exact hr
  generalize (s.run cfg es).removeRemote n = t at ho h0 hr'
  obtain ⟨⟨l, h1, h2⟩, _⟩ := maintain_new (cfg := cfg) { t with disk := t.disk.set n k } (n := n) (ha := ha) (k := k) hn hr'
    (by show Verif.Dict.get? (Verif.Dict.set _ _ _) _ = _; rw [Verif.Dict.get?_set, if_pos rfl]) h0
  exact ⟨l, by rw [h1, ← ho], h2⟩

/-- **C92**: a node that gets out of the pool has no remote any more, and no key leads to it. -/
theorem C92_leaves (cfg : Cfg) (s : State) (hs : s.start) (es : List Ev) (n : Name) (hn : n ≠ cfg.name) :
    (s.run cfg (es ++ [.demote n])).registry.get? n = none ∧ (s.run cfg (es ++ [.demote n])).remotes.get? n = none
    ∧ ∀ k, (s.run cfg (es ++ [.demote n])).byKeys.get? k ≠ some n := by
  have h : (s.run cfg (es ++ [.demote n])).remotes.get? n = none := by
    rw [run_snoc]
    show ((s.run cfg es).demote cfg n).remotes.get? n = none
    unfold State.demote
    rw [if_neg hn, get?_removeRemote]
    exact if_pos rfl
  refine ⟨?_, h, ?_⟩
  · rw [run_snoc]
    show ((s.run cfg es).demote cfg n).registry.get? n = none
    unfold State.demote
    rw [if_neg hn, removeRemote_registry]
    show Verif.Dict.get? (Verif.Dict.erase _ _) _ = _
    rw [Verif.Dict.get?_erase, if_pos rfl]
  · intro k hk
    obtain ⟨r, h1, _⟩ := run_keyed (cfg := cfg) hs (es ++ [Ev.demote n]) k n hk
    replace h1 : (s.run cfg (es ++ [.demote n])).remotes.get? n = some r := h1
    rw [h] at h1; cases h1

/-- **C92**: an address or a key for one that is not in the pool changes nothing. -/
theorem C92_strangers (cfg : Cfg) (s : State) (n : Name) (ha : Ha) (k : Key) (hn : s.registry.get? n = none) :
    s.step cfg (.haChanged n ha) = s ∧ s.step cfg (.keysChanged n k) = s := by
  have : s.registry.has n = false := by
    cases h : s.registry.has n with
    | false => rfl
    | true => obtain ⟨x, h⟩ := (Verif.Dict.has_iff _ _).mp h; rw [hn] at h; cases h
  constructor
  · show s.haChanged cfg n ha = s
    unfold State.haChanged; rw [this]; rfl
  · show s.keysChanged cfg n k = s
    unfold State.keysChanged; rw [this]; rfl

/-! ## Being heard -/

/-- **C92**: a pong of a known node makes it connected; without pings any message of it does. -/
theorem C92_hears (cfg : Cfg) (s : State) (hs : s.start) (es : List Ev) (k : Key) (m : Msg) (n : Name)
    (h : (s.run cfg es).rx.head? = some (m, k)) (hk : (s.run cfg es).byKeys.get? k = some n)
    (hm : m = .pong ∨ cfg.retryConnect = false) :
    ∃ r, (s.run cfg (es ++ [.process])).remotes.get? n = some r ∧ r.live = true := by
  obtain ⟨r, h1, _⟩ := run_keyed (cfg := cfg) hs es k n hk
  rw [run_snoc]
  obtain ⟨rest, hx⟩ : ∃ rest, (s.run cfg es).rx = (m, k) :: rest := by
    cases he : (s.run cfg es).rx with
    | nil => rw [he] at h; cases h
    | cons x l => rw [he] at h; cases h; exact ⟨l, rfl⟩
  exact pong_live _ hx hk ⟨r, h1⟩ hm

example : (stPool.run stCfg [.maintain true, .recv 11 11 .pong]).rx.head? = some (.pong, 11)
    ∧ (stPool.run stCfg [.maintain true, .recv 11 11 .pong]).byKeys.get? 11 = some 1 := by decide +kernel

/-- **C92**: who is connected at a check is watched from then on, so that a loss is noticed (`C92_noticed_partial`). -/
theorem C92_watched (cfg : Cfg) (s : State) (hs : s.start) (es : List Ev) (n : Name) (r : Remote)
    (h : (s.run cfg (es ++ [.checkConns])).remotes.get? n = some r) (hl : r.live = true) : r.monitor = some [] := by
  rw [run_snoc] at h
  exact check_watched _ (fun n r hr => (run_inPool (cfg := cfg) hs es n r hr).2.2) h hl

example : ((stPool.run stCfg ([.maintain true, .recv 11 11 .pong, .process] ++ [.checkConns])).remotes.get? 1).map (fun r => r.live) = some true := by
  decide +kernel

/-- **C92**: a ping of a node that is not known yet is answered when the node gets into the pool. -/
theorem C92_ping_later (cfg : Cfg) (s : State) (pre es : List Ev) (n : Name) (ha : Ha) (k : Key) (rest : List (Msg × Key))
    (h : (s.run cfg pre).rx = (.ping, k) :: rest) (hk : (s.run cfg pre).byKeys.get? k = none)
    (hq : ∀ e ∈ es, e.quiet = true) (hn : n ≠ cfg.name)
    (h0 : (s.run cfg (pre ++ .process :: es)).remotes.get? n = none)
    (hu : ∀ m, m ≠ n → (s.run cfg (pre ++ .process :: es)).disk.get? m ≠ some k) :
    ∃ l, (s.run cfg (pre ++ .process :: es ++ [.connectNew n ha k])).out = (s.run cfg (pre ++ .process :: es)).out ++ l ∧ .pong n ∈ l := by
  have hp : k ∈ (s.run cfg (pre ++ .process :: es)).pongs := by
    rw [run_append]
    exact quiet_pongs_run _ es hq (ping_due _ h hk)
  rw [run_snoc]
  generalize s.run cfg (pre ++ .process :: es) = t at h0 hu hp
  show ∃ l, (t.connectNew cfg n ha k).out = _ ∧ _
  unfold State.connectNew
  rw [if_neg hn]
  have := (maintain_new (cfg := cfg) { t with disk := t.disk.set n k, nyms := t.nyms.set n k, registry := t.registry.set n ha }
    (n := n) (ha := ha) (k := k) hn
    (by show Verif.Dict.get? (Verif.Dict.set _ _ _) _ = _; rw [Verif.Dict.get?_set, if_pos rfl])
    (by show Verif.Dict.get? (Verif.Dict.set _ _ _) _ = _; rw [Verif.Dict.get?_set, if_pos rfl]) h0).2.2 hp
  refine this ?_
  intro m hm
  show Verif.Dict.get? (Verif.Dict.set _ _ _) _ ≠ _
  rw [Verif.Dict.get?_set, if_neg (fun e => hm e.symm)]
  exact hu m hm

example : (stPool.run stCfg [.maintain true, .recv 13 13 .ping]).rx = [(.ping, 13)]
    ∧ (stPool.run stCfg [.maintain true, .recv 13 13 .ping]).byKeys.get? 13 = none
    ∧ (stPool.run stCfg ([.maintain true, .recv 13 13 .ping] ++ .process :: [.tick 1])).remotes.get? 3 = none
    ∧ .pong 3 ∈ (stPool.run stCfg ([.maintain true, .recv 13 13 .ping] ++ .process :: [.tick 1] ++ [.connectNew 3 (1, 4) 13])).out := by
  decide +kernel

/-- **C92**: what comes in on the connection this node made to a known one is handed on, too. -/
theorem C92_handed_back (cfg : Cfg) (s : State) (hs : s.start) (pre : List Ev) (d : Nat) (k : Key) (n : Name)
    (hk : (s.run cfg pre).byKeys.get? k = some n) (es : List Ev) (hq : ∀ e ∈ es, e.quiet = true)
    (hc : (s.run cfg pre).rx.length < es.count .process) :
    (n, d, k) ∈ (s.run cfg (pre ++ .recvRemote k (.data d) :: es)).handed := by
  obtain ⟨r, h1, _⟩ := run_keyed (cfg := cfg) hs pre k n hk
  have h2 := (run_inPool (cfg := cfg) hs pre n r h1).2.2
  rw [run_append]
  generalize s.run cfg pre = t at hk h1 hc
  replace h1 : t.remotes.get? n = some r := h1
  have e : t.step cfg (.recvRemote k (.data d)) = { t with rx := t.rx ++ [(.data d, k)] } := by
    show t.recvRemote k (.data d) = _
    unfold State.recvRemote
    rw [hk]
    dsimp only
    have hs : t.canSend n = true := by unfold State.canSend; rw [h1]; exact h2
    rw [if_pos hs]
  show (n, d, k) ∈ ((t.step cfg (.recvRemote k (.data d))).run cfg es).handed
  rw [e]
  refine served { t with rx := t.rx ++ [(.data d, k)] } t.rx.length d k n ?_ hk es hq hc
  show (t.rx ++ [(Msg.data d, k)])[t.rx.length]? = _
  simp

example : (stPool.run stCfg [.maintain true]).byKeys.get? 12 = some 2 := by decide +kernel

/-- **C92**: messages of nodes not known take no more room than there is for them. -/
theorem C92_room (cfg : Cfg) (s : State) (hs : s.start) (es : List Ev) : (s.run cfg es).stash.length ≤ cfg.stashMax :=
  run_room hs es

end Verif.Props
