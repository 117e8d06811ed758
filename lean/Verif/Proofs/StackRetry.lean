import Verif.Proofs.StackConn
/-!
# Connections are made, and made again
-/
namespace Verif.Stack

variable {cfg : Cfg}

/-- Nothing happens to node `n`, but others may be served. -/
structure Aside (n : Name) (s t : State) : Prop where
  remote : t.remotes.get? n = s.remotes.get? n
  retry : t.retries.get? n = s.retries.get? n
  out : t.out.filter (fun o => o.about = some n) = s.out.filter (fun o => o.about = some n)

theorem Aside.refl (n : Name) (s : State) : Aside n s s := ⟨rfl, rfl, rfl⟩

theorem Aside.trans {n : Name} {s t u : State} (h : Aside n s t) (g : Aside n t u) : Aside n s u :=
  ⟨g.remote.trans h.remote, g.retry.trans h.retry, g.out.trans h.out⟩

theorem aside_say {n : Name} (s : State) (o : Out) (h : o.about ≠ some n) : Aside n s (s.say o) :=
  ⟨rfl, rfl, by simp [State.say, h]⟩

theorem aside_ping {n m : Name} (s : State) (h : m ≠ n) : Aside n s (s.sendPing m) := by
  unfold State.sendPing; split
  · exact aside_say s _ (fun e => h (Option.some.inj e))
  · exact .refl n s

theorem aside_pong {n m : Name} (s : State) (h : m ≠ n) : Aside n s (s.sendPong m) := by
  unfold State.sendPong; split
  · exact aside_say s _ (fun e => h (Option.some.inj e))
  · exact .refl n s

theorem aside_set {n m : Name} (s : State) (r : Remote) (h : m ≠ n) : Aside n s { s with remotes := s.remotes.set m r } :=
  ⟨by show Dict.get? (Dict.set _ _ _) _ = _; rw [Dict.get?_set, if_neg h], rfl, rfl⟩

theorem aside_connect {n m : Name} (s : State) (ha : Ha) (h : m ≠ n) : Aside n s (s.connect m ha) := by
  have hd : ∀ (t : State) (a : Ha) (k : Key), Aside n t (t.say (.dial m a k)) := fun t a k =>
    aside_say t _ (fun e => h (Option.some.inj e))
  unfold State.connect
  split
  · rename_i r _
    exact ((aside_set s _ h).trans (hd _ _ _)).trans (aside_ping _ h)
  · split
    · exact .refl n s
    · rename_i k _
      dsimp only
      have h1 : Aside n s { s with remotes := s.remotes.set m { ha := ha, key := k, socket := true }, byKeys := s.byKeys.set k m } :=
        ⟨(aside_set s _ h).remote, rfl, rfl⟩
      have h2 := (h1.trans (hd _ ha k)).trans (aside_ping _ h)
      generalize (State.sendPing (State.say { s with remotes := s.remotes.set m { ha := ha, key := k, socket := true }, byKeys := s.byKeys.set k m }
        (.dial m ha k)) m) = t at h2
      split
      · have h3 : Aside n t { t with pongs := t.pongs.filter (· ≠ k) } := ⟨rfl, rfl, rfl⟩
        exact (h2.trans h3).trans (aside_pong _ h)
      · exact h2

theorem aside_connectTo {n : Name} (l : List Name) (h : n ∉ l) (s : State) : Aside n s (s.connectTo l) := by
  induction l generalizing s with
  | nil => exact .refl n s
  | cons m l ih =>
    rw [connectTo_cons]
    refine Aside.trans ?_ (ih (fun x => h (List.mem_cons_of_mem _ x)) _)
    split
    · exact .refl n s
    · exact aside_connect s _ (fun e => h (by rw [e]; exact List.mem_cons_self))

theorem aside_reconnect {n m : Name} (s : State) (h : m ≠ n) : Aside n s (s.reconnect m) := by
  unfold State.reconnect
  split
  · exact .refl n s
  · rename_i r _
    have hd : ∀ (t : State) (a : Ha) (k : Key), Aside n t (t.say (.dial m a k)) := fun t a k =>
      aside_say t _ (fun e => h (Option.some.inj e))
    exact ((aside_set s _ h).trans (hd _ _ _)).trans (aside_ping _ h)

theorem aside_retryOne {n m : Name} (ex : List Name) (s : State) (h : m ≠ n) : Aside n s (s.retryOne cfg ex m) := by
  have he : ∀ t : State, Aside n t { t with retries := t.retries.erase m } := fun t =>
    ⟨rfl, by show Dict.get? (Dict.erase _ _) _ = _; rw [Dict.get?_erase, if_neg h], rfl⟩
  have hs : ∀ (t : State) (c : Nat), Aside n t { t with retries := t.retries.set m c } := fun t c =>
    ⟨rfl, by show Dict.get? (Dict.set _ _ _) _ = _; rw [Dict.get?_set, if_neg h], rfl⟩
  unfold State.retryOne
  split
  · exact .refl n s
  · rename_i r _
    split
    · exact he s
    · dsimp only
      have h1 := aside_set s r.look.1 h
      split
      · exact h1.trans (he _)
      · split
        · exact h1.trans (aside_ping _ h)
        · split
          · exact (h1.trans (he _)).trans (aside_reconnect _ h)
          · exact (h1.trans (hs _ _)).trans (aside_ping _ h)

theorem aside_retry {n : Name} (ex l : List Name) (h : n ∉ l) (s : State) : Aside n s (l.foldl (State.retryOne cfg ex) s) := by
  induction l generalizing s with
  | nil => exact .refl n s
  | cons m l ih =>
    exact (aside_retryOne ex s (fun e => h (by rw [e]; exact List.mem_cons_self))).trans
      (ih (fun x => h (List.mem_cons_of_mem _ x)) _)

/-! ## What is done for one node -/

/-- Something is in what was done since. -/
def Did (s t : State) (o : Out) : Prop := ∃ l, t.out = s.out ++ l ∧ o ∈ l

theorem Did.kept {a : Name → Prop} {b : Bool} {s t u : State} {o : Out} (h : Did s t o) (g : Kept cfg a b t u) : Did s u o := by
  obtain ⟨l, h1, h2⟩ := h
  obtain ⟨m, g1, _⟩ := g.out
  exact ⟨l ++ m, by rw [g1, h1, List.append_assoc], List.mem_append_left _ h2⟩

theorem Kept.did {a : Name → Prop} {b : Bool} {s t u : State} {o : Out} (g : Kept cfg a b s t) (h : Did t u o) : Did s u o := by
  obtain ⟨l, h1, h2⟩ := h
  obtain ⟨m, g1, _⟩ := g.out
  exact ⟨m ++ l, by rw [h1, g1, List.append_assoc], List.mem_append_right _ h2⟩

theorem did_say (s : State) (o : Out) : Did s (s.say o) o := ⟨[o], rfl, List.mem_cons_self⟩

theorem did_ping (s : State) (n : Name) (h : s.canSend n = true) : Did s (s.sendPing n) (.ping n) := by
  unfold State.sendPing; rw [if_pos h]; exact did_say s _

theorem did_pong (s : State) (n : Name) (h : s.canSend n = true) : Did s (s.sendPong n) (.pong n) := by
  unfold State.sendPong; rw [if_pos h]; exact did_say s _

theorem canSend_set (s : State) (n : Name) (r : Remote) (h : r.socket = true) :
    State.canSend { s with remotes := s.remotes.set n r } n = true := by
  unfold State.canSend
  dsimp only
  rw [Dict.get?_set, if_pos rfl]
  exact h

theorem kept_refl_did {s t : State} {o : Out} (h : Did s t o) {u : State} (hu : u.out = s.out) : Did u t o := by
  obtain ⟨l, h1, h2⟩ := h
  exact ⟨l, by rw [h1, hu], h2⟩

/-- A remote that is there is dialled at its address and pinged; one that is not, at the one given. -/
theorem connect_did (cfg : Cfg) (s : State) (n : Name) (ha : Ha) :
    (∀ r, s.remotes.get? n = some r → Did s (s.connect n ha) (.dial n r.ha r.key) ∧ Did s (s.connect n ha) (.ping n))
    ∧ (∀ k, s.remotes.get? n = none → s.disk.get? n = some k →
      Did s (s.connect n ha) (.dial n ha k) ∧ Did s (s.connect n ha) (.ping n)
        ∧ (k ∈ s.pongs → Did s (s.connect n ha) (.pong n))) := by
  constructor
  · intro r hr
    unfold State.connect
    rw [hr]
    dsimp only
    have hc : ∀ o, State.canSend (State.say { s with remotes := s.remotes.set n { r with socket := true, monitor := none } } o) n = true :=
      fun o => canSend_set s n { r with socket := true, monitor := none } rfl
    constructor
    · exact kept_refl_did ((did_say _ _).kept (cfg := cfg) (a := nobody) (b := true) (kept_sendPing _ n)) rfl
    · exact kept_refl_did ((kept_say (cfg := cfg) (a := nobody) (b := true) _ _ rfl (fun _ => rfl)).did (did_ping _ n (hc _))) rfl
  · intro k hr hd
    unfold State.connect
    rw [hr, hd]
    dsimp only
    have hc : ∀ o, State.canSend (State.say { s with remotes := s.remotes.set n { ha := ha, key := k, socket := true }, byKeys := s.byKeys.set k n } o) n = true :=
      fun o => canSend_set s n { ha := ha, key := k, socket := true } rfl
    have hp : (State.sendPing (State.say { s with remotes := s.remotes.set n { ha := ha, key := k, socket := true }, byKeys := s.byKeys.set k n }
        (.dial n ha k)) n).pongs = s.pongs := by
      unfold State.sendPing; split <;> rfl
    have h1 : Did s (State.sendPing (State.say { s with remotes := s.remotes.set n { ha := ha, key := k, socket := true }, byKeys := s.byKeys.set k n }
        (.dial n ha k)) n) (.dial n ha k) :=
      kept_refl_did ((did_say _ _).kept (cfg := cfg) (a := nobody) (b := true) (kept_sendPing _ n)) rfl
    have h2 : Did s (State.sendPing (State.say { s with remotes := s.remotes.set n { ha := ha, key := k, socket := true }, byKeys := s.byKeys.set k n }
        (.dial n ha k)) n) (.ping n) :=
      kept_refl_did ((kept_say (cfg := cfg) (a := nobody) (b := true) _ _ rfl (fun _ => rfl)).did (did_ping _ n (hc _))) rfl
    have hs : State.canSend (State.sendPing (State.say { s with remotes := s.remotes.set n { ha := ha, key := k, socket := true }, byKeys := s.byKeys.set k n }
        (.dial n ha k)) n) n = true := by
      unfold State.canSend
      rw [sendPing_remotes]
      exact hc (.dial n ha k)
    generalize (State.sendPing (State.say { s with remotes := s.remotes.set n { ha := ha, key := k, socket := true }, byKeys := s.byKeys.set k n }
        (.dial n ha k)) n) = t at hp h1 h2 hs
    split
    · have hk : Kept cfg nobody true t (State.sendPong { t with pongs := t.pongs.filter (· ≠ k) } n) :=
        Kept.trans (t := { t with pongs := t.pongs.filter (· ≠ k) })
          ⟨.refl _, rfl, rfl, rfl, rfl, fun _ => ⟨rfl, rfl, rfl⟩, [], (List.append_nil _).symm, rfl⟩ (kept_sendPong _ n)
      refine ⟨h1.kept hk, h2.kept hk, fun _ => ?_⟩
      obtain ⟨l, x1, _⟩ := h1
      obtain ⟨l', y1, y2⟩ := did_pong { t with pongs := t.pongs.filter (· ≠ k) } n hs
      exact ⟨l ++ l', by rw [y1]; show t.out ++ l' = _; rw [x1, List.append_assoc], List.mem_append_right _ y2⟩
    · rename_i hx
      exact ⟨h1, h2, fun hk => (hx (by rw [hp]; exact hk)).elim⟩

/-- The list up to the first time. -/
theorem split_first {l : List Name} {n : Name} (h : n ∈ l) : ∃ a b, l = a ++ n :: b ∧ n ∉ a := by
  induction l with
  | nil => cases h
  | cons m l ih =>
    by_cases e : m = n
    · exact ⟨[], l, by rw [e]; rfl, by simp⟩
    · rcases List.mem_cons.mp h with h | h
      · exact (e h.symm).elim
      · obtain ⟨a, b, h1, h2⟩ := ih h
        exact ⟨m :: a, b, by rw [h1]; rfl, by
          intro x
          rcases List.mem_cons.mp x with x | x
          · exact e x.symm
          · exact h2 x⟩

theorem connectTo_append (s : State) (a b : List Name) : s.connectTo (a ++ b) = (s.connectTo a).connectTo b :=
  List.foldl_append ..

/-- What is done for a node whose remote is to be connected. -/
theorem connectTo_did (l : List Name) (hl : ∀ m ∈ l, m ≠ cfg.name) (s : State) {n : Name} {ha : Ha} (hn : n ∈ l)
    (hr : s.registry.get? n = some ha) (o : Out) (ho : ∀ t : State, Kept cfg nobody true s t → Aside n s t →
      (∀ k, k ∈ s.pongs → (∀ m, m ≠ n → s.disk.get? m ≠ some k) → k ∈ t.pongs) → Did t (t.connect n ha) o) :
    Did s (s.connectTo l) o := by
  obtain ⟨a, b, rfl, hna⟩ := split_first hn
  have ha' : ∀ m ∈ a, m ≠ cfg.name := fun m hm => hl m (List.mem_append_left _ hm)
  have hk := kept_connectTo (cfg := cfg) (a := nobody) (b := true) a ha' s
  rw [connectTo_append, connectTo_cons]
  have hreg : (s.connectTo a).registry.get? n = some ha := by
    have := hk.core.registry
    exact (congrArg (fun d => Dict.get? d n) this).trans hr
  rw [hreg]
  dsimp only
  refine Did.kept (hk.did ?_) (kept_connectTo (cfg := cfg) (a := nobody) (b := true) b (fun m hm => hl m (by simp [hm])) _)
  refine ho _ hk (aside_connectTo a hna s) ?_
  -- pongs due for the key stay
  intro k hk0 hu
  clear hreg hk ho hr hn hl
  revert hu hk0
  induction a generalizing s with
  | nil => intro h _; exact h
  | cons m a ih =>
    intro h hu
    rw [connectTo_cons]
    have hm : m ≠ n := fun e => hna (by rw [e]; exact List.mem_cons_self)
    have hmc := ha' m List.mem_cons_self
    refine ih _ (fun x => hna (List.mem_cons_of_mem _ x)) (fun j hj => ha' j (List.mem_cons_of_mem _ hj)) ?_ ?_
    · split
      · exact h
      · have pp : ∀ t : State, (t.sendPing m).pongs = t.pongs := fun t => by unfold State.sendPing; split <;> rfl
        have pq : ∀ t : State, (t.sendPong m).pongs = t.pongs := fun t => by unfold State.sendPong; split <;> rfl
        unfold State.connect
        split
        · rw [pp]; exact h
        · split
          · exact h
          · rename_i j hj
            dsimp only
            split
            · rw [pq]
              show k ∈ List.filter _ _
              rw [List.mem_filter]
              refine ⟨by rw [pp]; exact h, ?_⟩
              simp only [ne_eq, decide_not, Bool.not_eq_eq_eq_not, Bool.not_true, decide_eq_false_iff_not]
              intro e
              exact hu m hm (by rw [e]; exact hj)
            · rw [pp]; exact h
    · split
      · exact hu
      · rename_i ha2 hr2
        have := (kept_connect (cfg := cfg) (a := nobody) (b := true) s m ha2 hmc hr2).core.disk
        intro j hj
        show ((core (s.connect m ha2)).disk).get? j ≠ _
        rw [this]; exact hu j hj

/-- One try: a ping, and after enough of them a new connection. -/
theorem retryOne_did (ex : List Name) (s : State) (n : Name) {r : Remote} (hx : n ∉ ex) (hr : s.remotes.get? n = some r)
    (hl : r.live = false) (hs : r.socket = true) :
    Did s (s.retryOne cfg ex n) (.ping n)
    ∧ (cfg.retrySocket = true → Did s (s.retryOne cfg ex n) (.dial n r.ha r.key)
      ∨ ((s.retries.get? n).getD 0 < cfg.maxRetry ∧ (s.retryOne cfg ex n).retries.get? n = some ((s.retries.get? n).getD 0 + 1))) := by
  have hk : r.look = (r, false) := by unfold Remote.look; rw [hl]; rfl
  unfold State.retryOne
  rw [hr]
  dsimp only
  rw [if_neg hx, hk]
  dsimp only
  rw [if_neg (by simp)]
  have hc : State.canSend { s with remotes := s.remotes.set n r } n = true := canSend_set s n r hs
  by_cases hc1 : cfg.retrySocket = true
  · rw [hc1]
    rw [if_neg (by simp), hs]
    split
    · rename_i h2
      unfold State.reconnect
      dsimp only
      rw [Dict.get?_set, if_pos rfl]
      dsimp only
      have hc2 : ∀ o, State.canSend (State.say { s with remotes := (s.remotes.set n r).set n { r with socket := true, monitor := none, live := false }, retries := s.retries.erase n } o) n = true := by
        intro o
        unfold State.canSend State.say
        dsimp only
        rw [Dict.get?_set, if_pos rfl]
      refine ⟨?_, fun _ => .inl ?_⟩
      · exact kept_refl_did ((kept_say (cfg := cfg) (a := nobody) (b := true) _ _ rfl (fun _ => rfl)).did (did_ping _ n (hc2 _))) rfl
      · exact kept_refl_did ((did_say _ _).kept (cfg := cfg) (a := nobody) (b := true) (kept_sendPing _ n)) rfl
    · rename_i h2
      refine ⟨?_, fun _ => .inr ⟨?_, ?_⟩⟩
      · exact kept_refl_did (did_ping { s with remotes := s.remotes.set n r, retries := s.retries.set n ((s.retries.get? n).getD 0 + 1) } n hc) rfl
      · have : ¬ ((s.retries.get? n).getD 0 ≥ cfg.maxRetry) := fun h => h2 (by simp [h])
        omega
      · unfold State.sendPing
        split
        · show Dict.get? (Dict.set _ _ _) _ = _
          rw [Dict.get?_set, if_pos rfl]
        · show Dict.get? (Dict.set _ _ _) _ = _
          rw [Dict.get?_set, if_pos rfl]
  · rw [if_pos (by simpa using hc1)]
    exact ⟨kept_refl_did (did_ping { s with remotes := s.remotes.set n r } n hc) rfl, fun h => (hc1 h).elim⟩

/-- What a forced look does for a node that is not connected. -/
theorem maintain_did (s : State) (o : s.remotes.keys.Nodup) {n : Name} {r : Remote} {ha : Ha} (hn : s.registry.get? n = some ha)
    (hr : s.remotes.get? n = some r) (hl : r.live = false) (hs : r.socket = true) (hc : cfg.retryConnect = true) :
    Did s (s.maintain cfg true) (.ping n)
    ∧ (cfg.retrySocket = true → Did s (s.maintain cfg true) (.dial n r.ha r.key)
      ∨ ((s.retries.get? n).getD 0 < cfg.maxRetry ∧ (s.maintain cfg true).retries.get? n = some ((s.retries.get? n).getD 0 + 1))) := by
  unfold State.maintain
  rw [if_neg (by simp)]
  dsimp only
  have hl0 : ∀ m ∈ State.missing cfg { s with nextCheck := s.now + cfg.pause }, m ≠ cfg.name := fun m hm => missing_ne hm
  by_cases hx : n ∈ State.missing cfg { s with nextCheck := s.now + cfg.pause }
  · have key : ∀ o', (∀ t : State, t.remotes.get? n = some r → Did t (t.connect n ha) o') →
        Did s (State.retryDisconnected cfg ({ s with nextCheck := s.now + cfg.pause }.connectTo
          (State.missing cfg { s with nextCheck := s.now + cfg.pause })) (State.missing cfg { s with nextCheck := s.now + cfg.pause })) o' := by
      intro o' ho'
      refine Did.kept (cfg := cfg) (a := nobody) (b := true) ?_ (kept_retryDisconnected _ _)
      have := connectTo_did (cfg := cfg) _ hl0 { s with nextCheck := s.now + cfg.pause } hx hn o' (fun t _ ht _ => ho' t (ht.remote.trans hr))
      exact kept_refl_did this rfl
    exact ⟨key _ (fun t ht => ((connect_did cfg t n ha).1 r ht).2),
      fun _ => .inl (key _ (fun t ht => ((connect_did cfg t n ha).1 r ht).1))⟩
  · generalize hm : State.missing cfg { s with nextCheck := s.now + cfg.pause } = l at hx hl0
    have h1 := aside_connectTo l hx { s with nextCheck := s.now + cfg.pause }
    have k1 := kept_connectTo (cfg := cfg) (a := nobody) (b := true) l hl0 { s with nextCheck := s.now + cfg.pause }
    have o1 : (State.connectTo { s with nextCheck := s.now + cfg.pause } l).remotes.keys.Nodup :=
      once_stable.change nobody _ _ k1.core o
    generalize State.connectTo { s with nextCheck := s.now + cfg.pause } l = t at h1 k1 o1
    have hr1 : t.remotes.get? n = some r := h1.remote.trans hr
    unfold State.retryDisconnected
    rw [hc]
    rw [if_neg (by simp)]
    have hin : n ∈ t.remotes.keys := (Dict.mem_keys _ _).mpr ⟨r, hr1⟩
    obtain ⟨a, b, hab, hna⟩ := split_first hin
    rw [hab] at o1 ⊢
    have hnb : n ∉ b := by
      have := (List.nodup_append.mp o1).2.1
      exact (List.nodup_cons.mp this).1
    rw [List.foldl_append, List.foldl_cons]
    have h2 := aside_retry (cfg := cfg) l a hna t
    have k2 : Kept cfg nobody true t (a.foldl (State.retryOne cfg l) t) := kept_foldl (kept_retryOne l) a t
    generalize a.foldl (State.retryOne cfg l) t = u at h2 k2
    have hd := retryOne_did (cfg := cfg) l u n hx (h2.remote.trans hr1) hl hs
    have h3 := aside_retry (cfg := cfg) l b hnb (u.retryOne cfg l n)
    have k3 : Kept cfg nobody true (u.retryOne cfg l n) (b.foldl (State.retryOne cfg l) (u.retryOne cfg l n)) :=
      kept_foldl (kept_retryOne l) b _
    have hret : u.retries.get? n = s.retries.get? n := h2.retry.trans h1.retry
    refine ⟨?_, ?_⟩
    · exact kept_refl_did (k1.did (k2.did (hd.1.kept k3))) rfl
    · intro hs'
      rcases hd.2 hs' with x | ⟨x, y⟩
      · exact .inl (kept_refl_did (k1.did (k2.did (x.kept k3))) rfl)
      · rw [hret] at x y
        exact .inr ⟨x, h3.retry.trans y⟩

/-- A new remote is dialled, pinged, and sent a pong that was due. -/
theorem maintain_new (s : State) {n : Name} {ha : Ha} {k : Key} (hn : n ≠ cfg.name) (hr : s.registry.get? n = some ha)
    (hd : s.disk.get? n = some k) (h0 : s.remotes.get? n = none) :
    Did s (s.maintain cfg true) (.dial n ha k) ∧ Did s (s.maintain cfg true) (.ping n)
    ∧ (k ∈ s.pongs → (∀ m, m ≠ n → s.disk.get? m ≠ some k) → Did s (s.maintain cfg true) (.pong n)) := by
  unfold State.maintain
  rw [if_neg (by simp)]
  dsimp only
  have hl0 : ∀ m ∈ State.missing cfg { s with nextCheck := s.now + cfg.pause }, m ≠ cfg.name := fun m hm => missing_ne hm
  have hx : n ∈ State.missing cfg { s with nextCheck := s.now + cfg.pause } := by
    unfold State.missing
    rw [List.mem_filter]
    refine ⟨(Dict.mem_keys _ _).mpr ⟨ha, hr⟩, ?_⟩
    dsimp only
    rw [h0]
    simp [hn]
  have key : ∀ o', (∀ t : State, t.remotes.get? n = none → t.disk.get? n = some k →
        (∀ j, j ∈ s.pongs → (∀ m, m ≠ n → s.disk.get? m ≠ some j) → j ∈ t.pongs) → Did t (t.connect n ha) o') →
      Did s (State.retryDisconnected cfg ({ s with nextCheck := s.now + cfg.pause }.connectTo
        (State.missing cfg { s with nextCheck := s.now + cfg.pause })) (State.missing cfg { s with nextCheck := s.now + cfg.pause })) o' := by
    intro o' ho'
    refine Did.kept (cfg := cfg) (a := nobody) (b := true) ?_ (kept_retryDisconnected _ _)
    have := connectTo_did (cfg := cfg) _ hl0 { s with nextCheck := s.now + cfg.pause } hx hr o'
      (fun t hk ht hp => ho' t (ht.remote.trans h0)
        ((congrArg (fun d => Dict.get? d n) hk.core.disk).trans hd) hp)
    exact kept_refl_did this rfl
  refine ⟨key _ (fun t h1 h2 _ => ((connect_did cfg t n ha).2 k h1 h2).1),
    key _ (fun t h1 h2 _ => ((connect_did cfg t n ha).2 k h1 h2).2.1), ?_⟩
  intro hk hu
  exact key _ (fun t h1 h2 h3 => ((connect_did cfg t n ha).2 k h1 h2).2.2 (h3 k hk hu))

/-- A node that is connected at the right address is left alone. -/
theorem maintain_aside (s : State) (o : s.remotes.keys.Nodup) {n : Name} {r : Remote} {ha : Ha}
    (hn : s.registry.get? n = some ha) (hr : s.remotes.get? n = some r) (ha' : sameAddr cfg r.ha ha = true) (hl : r.look.2 = true)
    (f : Bool) :
    (s.maintain cfg f).out.filter (fun o => o.about = some n) = s.out.filter (fun o => o.about = some n)
    ∧ ∃ q, (s.maintain cfg f).remotes.get? n = some q ∧ q.live = true := by
  have hlive : r.live = true := look_live' r hl
  unfold State.maintain
  split
  · exact ⟨rfl, r, hr, hlive⟩
  · dsimp only
    have hx : n ∉ State.missing cfg { s with nextCheck := s.now + cfg.pause } := by
      unfold State.missing
      rw [List.mem_filter]
      rintro ⟨_, h⟩
      dsimp only at h
      rw [hr, hn] at h
      simp [ha'] at h
    have hl0 : ∀ m ∈ State.missing cfg { s with nextCheck := s.now + cfg.pause }, m ≠ cfg.name := fun m hm => missing_ne hm
    generalize hm : State.missing cfg { s with nextCheck := s.now + cfg.pause } = l at hx hl0
    have h1 := aside_connectTo l hx { s with nextCheck := s.now + cfg.pause }
    have k1 := kept_connectTo (cfg := cfg) (a := nobody) (b := true) l hl0 { s with nextCheck := s.now + cfg.pause }
    have o1 : (State.connectTo { s with nextCheck := s.now + cfg.pause } l).remotes.keys.Nodup :=
      once_stable.change nobody _ _ k1.core o
    generalize State.connectTo { s with nextCheck := s.now + cfg.pause } l = t at h1 k1 o1
    have hr1 : t.remotes.get? n = some r := h1.remote.trans hr
    unfold State.retryDisconnected
    split
    · exact ⟨h1.out, r, hr1, hlive⟩
    · have hin : n ∈ t.remotes.keys := (Dict.mem_keys _ _).mpr ⟨r, hr1⟩
      obtain ⟨a, b, hab, hna⟩ := split_first hin
      rw [hab] at o1 ⊢
      have hnb : n ∉ b := by
        have := (List.nodup_append.mp o1).2.1
        exact (List.nodup_cons.mp this).1
      rw [List.foldl_append, List.foldl_cons]
      have h2 := aside_retry (cfg := cfg) l a hna t
      generalize a.foldl (State.retryOne cfg l) t = u at h2
      have h3 := aside_retry (cfg := cfg) l b hnb (u.retryOne cfg l n)
      have hr2 : u.remotes.get? n = some r := h2.remote.trans hr1
      have e : u.retryOne cfg l n = { u with remotes := u.remotes.set n r.look.1, retries := u.retries.erase n } := by
        unfold State.retryOne
        rw [hr2]
        dsimp only
        rw [if_neg hx, if_pos hl]
      refine ⟨?_, r.look.1, ?_, by rw [look_live]; exact hl⟩
      · rw [h3.out, e]
        exact h2.out.trans h1.out
      · rw [h3.remote, e]
        show Dict.get? (Dict.set _ _ _) _ = _
        rw [Dict.get?_set, if_pos rfl]

/-! ## Again and again -/

/-- A look at the connections does not make a node connected, and its address and key stay. -/
theorem maintain_remote (s : State) {n : Name} {r : Remote} (hr : s.remotes.get? n = some r) (hl : r.live = false)
    (hs : r.socket = true) :
    ∃ q, (s.maintain cfg true).remotes.get? n = some q ∧ q.live = false ∧ q.socket = true ∧ q.ha = r.ha ∧ q.key = r.key := by
  have k := kept_maintain (cfg := cfg) (a := nobody) (b := true) s true
  have hh : (s.maintain cfg true).remotes.has n = true := by
    unfold State.maintain
    rw [if_neg (by simp)]
    dsimp only
    exact retryDisconnected_has _ _ (connectTo_has _ _ ((Dict.has_iff _ _).mpr ⟨r, hr⟩))
  obtain ⟨q, hq⟩ := (Dict.has_iff _ _).mp hh
  refine ⟨q, hq, ?_⟩
  have hq' : q.live = false := by
    cases hv : q.live with
    | false => rfl
    | true =>
      rcases k.core.live hq hv with ⟨p, h1, h2, _⟩ | x
      · replace h1 : s.remotes.get? n = some p := h1
        rw [hr] at h1; cases h1
        rw [hl] at h2; cases h2
      · cases x
  refine ⟨hq', ?_⟩
  -- nothing is taken out
  have : ∀ (l : List Name) (s : State), (∃ p, s.remotes.get? n = some p ∧ p.socket = true ∧ p.ha = r.ha ∧ p.key = r.key) →
      ∃ p, (s.connectTo l).remotes.get? n = some p ∧ p.socket = true ∧ p.ha = r.ha ∧ p.key = r.key := by
    intro l
    induction l with
    | nil => intro s h; exact h
    | cons m l ih =>
      intro s h
      rw [connectTo_cons]
      apply ih
      split
      · exact h
      · rename_i ha _
        by_cases e : m = n
        · subst e
          obtain ⟨p, h1, h2, h3, h4⟩ := h
          unfold State.connect
          rw [h1]
          dsimp only
          rw [sendPing_remotes]
          exact ⟨{ p with socket := true, monitor := none },
            by show Dict.get? (Dict.set _ _ _) _ = _; rw [Dict.get?_set, if_pos rfl], rfl, h3, h4⟩
        · rw [(aside_connect (n := n) s ha e).remote]; exact h
  have hc := this (State.missing cfg { s with nextCheck := s.now + cfg.pause }) { s with nextCheck := s.now + cfg.pause } ⟨r, hr, hs, rfl, rfl⟩
  have hf : ∀ (ex l : List Name) (s : State), (∃ p, s.remotes.get? n = some p ∧ p.socket = true ∧ p.ha = r.ha ∧ p.key = r.key) →
      ∃ p, (l.foldl (State.retryOne cfg ex) s).remotes.get? n = some p ∧ p.socket = true ∧ p.ha = r.ha ∧ p.key = r.key := by
    intro ex l
    induction l with
    | nil => intro s h; exact h
    | cons m l ih =>
      intro s h
      apply ih
      by_cases e : m = n
      · subst e
        obtain ⟨p, h1, h2, h3, h4⟩ := h
        unfold State.retryOne
        rw [h1]
        dsimp only
        have z : ∀ (t : State), t.remotes = s.remotes.set m p.look.1 →
            ∃ p, t.remotes.get? m = some p ∧ p.socket = true ∧ p.ha = r.ha ∧ p.key = r.key := by
          intro t ht
          exact ⟨p.look.1, by rw [ht, Dict.get?_set, if_pos rfl], by rw [look_socket]; exact h2, by rw [look_ha]; exact h3,
            by rw [look_key]; exact h4⟩
        split
        · exact ⟨p, h1, h2, h3, h4⟩
        · split
          · exact z _ rfl
          · split
            · exact z _ (sendPing_remotes _ _)
            · split
              · unfold State.reconnect
                dsimp only
                rw [Dict.get?_set, if_pos rfl]
                dsimp only
                rw [sendPing_remotes]
                exact ⟨{ p.look.1 with socket := true, monitor := none, live := false },
                  by show Dict.get? (Dict.set _ _ _) _ = _; rw [Dict.get?_set, if_pos rfl], rfl, by
                  show p.look.1.ha = _; rw [look_ha]; exact h3, by show p.look.1.key = _; rw [look_key]; exact h4⟩
              · exact z _ (sendPing_remotes _ _)
      · rw [(aside_retryOne (cfg := cfg) (n := n) ex s e).remote]; exact h
  have hg : ∃ p, (s.maintain cfg true).remotes.get? n = some p ∧ p.socket = true ∧ p.ha = r.ha ∧ p.key = r.key := by
    unfold State.maintain
    rw [if_neg (by simp)]
    dsimp only
    unfold State.retryDisconnected
    split
    · exact hc
    · exact hf _ _ _ hc
  obtain ⟨p, h1, h2⟩ := hg
  rw [hq] at h1; cases h1
  exact h2

/-- A node that is not connected is dialled again at last. -/
theorem redialled (i : Nat) : ∀ (s : State), s.remotes.keys.Nodup → ∀ {n : Name} {r : Remote} {ha : Ha},
    s.registry.get? n = some ha → s.remotes.get? n = some r → r.live = false → r.socket = true →
    cfg.retryConnect = true → cfg.retrySocket = true → cfg.maxRetry < (s.retries.get? n).getD 0 + i →
    Did s (s.run cfg (List.replicate i (.maintain true))) (.dial n r.ha r.key) ∨ cfg.maxRetry < (s.retries.get? n).getD 0 := by
  induction i with
  | zero => intro s _ n r ha _ _ _ _ _ _ h; exact .inr (by omega)
  | succ i ih =>
    intro s o n r ha hn hr hl hs hc hc' h
    have hrun : s.run cfg (List.replicate (i + 1) (.maintain true)) = (s.maintain cfg true).run cfg (List.replicate i (.maintain true)) := rfl
    have hk : ∀ (i : Nat) (t : State), Kept cfg nobody true t (t.run cfg (List.replicate i (.maintain true))) := by
      intro i
      induction i with
      | zero => intro t; exact .refl _ _ t
      | succ i ih => intro t; exact (kept_maintain t true).trans (ih _)
    have km := kept_maintain (cfg := cfg) (a := nobody) (b := true) s true
    rcases (maintain_did s o hn hr hl hs hc).2 hc' with x | ⟨x, y⟩
    · exact .inl (x.kept (hk i _))
    · obtain ⟨q, h1, h2, h3, h4, h5⟩ := maintain_remote (cfg := cfg) s hr hl hs
      have hreg : (s.maintain cfg true).registry.get? n = some ha := (congrArg (fun d => Dict.get? d n) km.core.registry).trans hn
      have := ih (s.maintain cfg true) (once_stable.change nobody _ _ km.core o) hreg h1 h2 h3 hc hc'
        (by rw [y]; show _ < (_ + 1) + i; omega)
      rw [h4, h5] at this
      rcases this with z | z
      · exact .inl (km.did z)
      · rw [y] at z
        have : (some ((s.retries.get? n).getD 0 + 1)).getD 0 = (s.retries.get? n).getD 0 + 1 := rfl
        omega

/-! ## The time of the next look -/

/-- The time and that of the next look stay. -/
def Clock (s t : State) : Prop := t.now = s.now ∧ t.nextCheck = s.nextCheck

theorem Clock.trans {s t u : State} (h : Clock s t) (g : Clock t u) : Clock s u := ⟨g.1.trans h.1, g.2.trans h.2⟩

theorem clock_ping (s : State) (n : Name) : Clock s (s.sendPing n) := by
  unfold State.sendPing; split <;> exact ⟨rfl, rfl⟩

theorem clock_pong (s : State) (n : Name) : Clock s (s.sendPong n) := by
  unfold State.sendPong; split <;> exact ⟨rfl, rfl⟩

theorem clock_connect (s : State) (n : Name) (ha : Ha) : Clock s (s.connect n ha) := by
  unfold State.connect
  split
  · exact Clock.trans ⟨rfl, rfl⟩ (clock_ping _ n)
  · split
    · exact ⟨rfl, rfl⟩
    · rename_i k _
      dsimp only
      have h : Clock s (State.sendPing (State.say { s with remotes := s.remotes.set n { ha := ha, key := k, socket := true }, byKeys := s.byKeys.set k n }
        (.dial n ha k)) n) := Clock.trans ⟨rfl, rfl⟩ (clock_ping _ n)
      generalize (State.sendPing (State.say { s with remotes := s.remotes.set n { ha := ha, key := k, socket := true }, byKeys := s.byKeys.set k n }
        (.dial n ha k)) n) = t at h
      split
      · have h' : Clock t { t with pongs := t.pongs.filter (· ≠ k) } := ⟨rfl, rfl⟩
        exact (h.trans h').trans (clock_pong _ n)
      · exact h

theorem clock_connectTo (l : List Name) (s : State) : Clock s (s.connectTo l) := by
  induction l generalizing s with
  | nil => exact ⟨rfl, rfl⟩
  | cons m l ih =>
    rw [connectTo_cons]
    refine Clock.trans ?_ (ih _)
    split
    · exact ⟨rfl, rfl⟩
    · exact clock_connect s m _

theorem clock_reconnect (s : State) (n : Name) : Clock s (s.reconnect n) := by
  unfold State.reconnect
  split
  · exact ⟨rfl, rfl⟩
  · exact Clock.trans ⟨rfl, rfl⟩ (clock_ping _ n)

theorem clock_retryOne (ex : List Name) (s : State) (n : Name) : Clock s (s.retryOne cfg ex n) := by
  unfold State.retryOne
  split
  · exact ⟨rfl, rfl⟩
  · split
    · exact ⟨rfl, rfl⟩
    · dsimp only
      split
      · exact ⟨rfl, rfl⟩
      · split
        · exact Clock.trans ⟨rfl, rfl⟩ (clock_ping _ n)
        · split
          · exact Clock.trans ⟨rfl, rfl⟩ (clock_reconnect _ n)
          · exact Clock.trans ⟨rfl, rfl⟩ (clock_ping _ n)

theorem clock_foldl {f : State → Name → State} (h : ∀ s n, Clock s (f s n)) (l : List Name) (s : State) : Clock s (l.foldl f s) := by
  induction l generalizing s with
  | nil => exact ⟨rfl, rfl⟩
  | cons m l ih => exact (h s m).trans (ih _)

theorem clock_retry (s : State) (ex : List Name) : Clock s (s.retryDisconnected cfg ex) := by
  unfold State.retryDisconnected
  split
  · exact ⟨rfl, rfl⟩
  · exact clock_foldl (clock_retryOne ex) _ s

theorem clock_remove (s : State) (n : Name) : Clock s (s.removeRemote n) := by
  unfold State.removeRemote; split <;> exact ⟨rfl, rfl⟩

theorem clock_drop (s : State) (i : Name) : Clock s (s.dropSame i) := by
  unfold State.dropSame
  split
  · exact ⟨rfl, rfl⟩
  · split
    · exact ⟨rfl, rfl⟩
    · exact clock_foldl clock_remove _ s

theorem clock_check (s : State) : Clock s s.checkConns := by
  unfold State.checkConns
  dsimp only
  split
  · exact ⟨rfl, rfl⟩
  · have h : Clock s (List.foldl State.dropSame { s.connecteds.1 with conns := s.connecteds.2 } (s.connecteds.2.filter (· ∉ s.conns))) :=
      Clock.trans (t := { s.connecteds.1 with conns := s.connecteds.2 }) ⟨rfl, rfl⟩ (clock_foldl clock_drop _ _)
    split
    · exact h
    · exact h.trans ⟨rfl, rfl⟩

theorem clock_live (s : State) (n : Name) : Clock s (s.setLive n) := by
  unfold State.setLive; split <;> exact ⟨rfl, rfl⟩

theorem clock_process (s : State) : Clock s (s.process cfg) := by
  unfold State.process
  split
  · exact ⟨rfl, rfl⟩
  · rename_i m k rest _
    dsimp only
    split
    · rename_i n _
      have h0 : Clock s (if cfg.retryConnect = true then { s with rx := rest } else State.setLive { s with rx := rest } n) := by
        split
        · exact ⟨rfl, rfl⟩
        · exact Clock.trans (t := { s with rx := rest }) ⟨rfl, rfl⟩ (clock_live _ n)
      generalize (if cfg.retryConnect = true then { s with rx := rest } else State.setLive { s with rx := rest } n) = t at h0
      split
      · exact h0.trans (clock_pong t n)
      · exact h0.trans (clock_live t n)
      · exact h0.trans ⟨rfl, rfl⟩
    · split
      · exact ⟨rfl, rfl⟩
      · exact ⟨rfl, rfl⟩
      · split <;> exact ⟨rfl, rfl⟩

/-- The next look is at most a pause away. -/
def Near (cfg : Cfg) (s : State) : Prop := s.nextCheck ≤ s.now + cfg.pause

theorem Clock.near {s t : State} (h : Clock s t) (n : Near cfg s) : Near cfg t := by
  unfold Near at n ⊢
  rw [h.1, h.2]; exact n

theorem near_maintain (s : State) (f : Bool) (n : Near cfg s) : Near cfg (s.maintain cfg f) := by
  unfold State.maintain
  split
  · exact n
  · dsimp only
    refine Clock.near (s := { s with nextCheck := s.now + cfg.pause }) ((clock_connectTo _ _).trans (clock_retry _ _)) ?_
    exact Nat.le_refl _

theorem run_near {s : State} (h : s.start) (es : List Ev) : Near cfg (s.run cfg es) := by
  induction es using snoc_induction with
  | nil => rw [h]; exact Nat.zero_le _
  | snoc es e ih =>
    rw [run_snoc]
    generalize s.run cfg es = s at ih
    cases e with
    | recv c k m => exact ih
    | recvRemote k m =>
      show Near cfg (s.recvRemote k m)
      unfold State.recvRemote
      split
      · exact ih
      · split <;> exact ih
    | process => exact (clock_process s).near ih
    | unknown => exact ih
    | setMode b => exact ih
    | maintain f => exact near_maintain s f ih
    | checkConns => exact (clock_check s).near ih
    | mon n m =>
      show Near cfg (s.mon n m)
      unfold State.mon
      split <;> exact ih
    | tick d =>
      show s.nextCheck ≤ s.now + d + cfg.pause
      unfold Near at ih
      omega
    | connectNew n ha k =>
      show Near cfg (s.connectNew cfg n ha k)
      unfold State.connectNew
      split
      · exact ih
      · exact near_maintain _ _ ih
    | haChanged n ha =>
      show Near cfg (s.haChanged cfg n ha)
      unfold State.haChanged
      split
      · exact ih
      · split
        · exact ih
        · exact near_maintain _ _ ((clock_remove s n).near ih)
    | keysChanged n k =>
      show Near cfg (s.keysChanged cfg n k)
      unfold State.keysChanged
      split
      · exact ih
      · exact near_maintain _ _ ((clock_remove s n).near ih)
    | demote n =>
      show Near cfg (s.demote cfg n)
      unfold State.demote
      dsimp only
      split
      · exact ih
      · exact (clock_remove { s with registry := s.registry.erase n } n).near ih
    | restart => exact Nat.zero_le _

theorem maintain_due (s : State) (h : s.nextCheck ≤ s.now) : s.maintain cfg false = s.maintain cfg true := by
  unfold State.maintain
  rw [if_neg (by simp; omega), if_neg (by simp)]

theorem maintain_early (s : State) (h : s.now < s.nextCheck) : s.maintain cfg false = s := by
  unfold State.maintain
  rw [if_pos (by simp; exact h)]

theorem maintain_clock (s : State) : (s.maintain cfg true).now = s.now ∧ (s.maintain cfg true).nextCheck = s.now + cfg.pause := by
  unfold State.maintain
  rw [if_neg (by simp)]
  exact (clock_connectTo _ _).trans (clock_retry (cfg := cfg) (State.connectTo { s with nextCheck := s.now + cfg.pause } _) _)

/-! ## After a check there are monitors -/

theorem look_monitor (r : Remote) (h : r.look.1.live = true) (hs : r.socket = true) : r.look.1.monitor = some [] := by
  unfold Remote.look at h ⊢
  split
  · rename_i x
    rw [if_pos x] at h
    rw [h] at x; cases x
  · rename_i x
    rw [if_neg x] at h
    rw [hs] at h ⊢
    rw [if_neg (by simp)] at h ⊢
    split
    · rename_i y; rw [if_pos y] at h; cases h
    · rfl

theorem check_watched (s : State) (hs : ∀ n r, s.remotes.get? n = some r → r.socket = true) {n : Name} {r : Remote}
    (hr : s.checkConns.remotes.get? n = some r) (hl : r.live = true) : r.monitor = some [] := by
  have look : ∀ (t : State), (∀ n r, t.remotes.get? n = some r → r.socket = true) → ∀ r, t.connecteds.1.remotes.get? n = some r →
      r.live = true → r.monitor = some [] := by
    intro t ht r hr hl
    replace hr : Dict.get? (List.map _ t.remotes) n = some r := hr
    rw [get?_map_look] at hr
    cases hq : t.remotes.get? n with
    | none => rw [hq] at hr; cases hr
    | some q =>
      rw [hq] at hr; cases hr
      exact look_monitor q hl (ht n q hq)
  unfold State.checkConns at hr
  dsimp only at hr
  split at hr
  · exact look s hs r hr hl
  · split at hr
    · exact look s hs r (drop_back _ { s.connecteds.1 with conns := s.connecteds.2 } hr) hl
    · refine look _ ?_ r hr hl
      intro m q hq
      have hq := drop_back _ { s.connecteds.1 with conns := s.connecteds.2 } hq
      replace hq : Dict.get? (List.map _ s.remotes) m = some q := hq
      rw [get?_map_look] at hq
      cases hp : s.remotes.get? m with
      | none => rw [hp] at hq; cases hq
      | some p =>
        rw [hp] at hq; cases hq
        rw [look_socket]; exact hs m p hp

/-! ## The room for messages of nodes not known -/

theorem run_room {s : State} (h : s.start) (es : List Ev) : (s.run cfg es).stash.length ≤ cfg.stashMax := by
  induction es using snoc_induction with
  | nil => rw [h]; exact Nat.zero_le _
  | snoc es e ih =>
    rw [run_snoc]
    generalize s.run cfg es = s at ih
    cases e with
    | recv c k m => exact ih
    | recvRemote k m =>
      show (s.recvRemote k m).stash.length ≤ _
      unfold State.recvRemote
      split
      · exact ih
      · split <;> exact ih
    | process =>
      show (s.process cfg).stash.length ≤ _
      cases processed (cfg := cfg) s with
      | idle h ht => rw [ht]; exact ih
      | known m k rest n h hk c hrx hst hm hn hp ho => rw [hst]; exact ih
      | unknown m k rest h hk c hrx hm hn hp hst ho =>
        rw [hst]
        split
        · split
          · exact ih
          · unfold push
            simp only [List.length_drop, List.length_append, List.length_cons, List.length_nil]
            omega
        · exact ih
    | unknown => exact Nat.zero_le _
    | setMode b => exact ih
    | maintain f => rw [show (s.step cfg (.maintain f)).stash = s.stash from (kept_maintain (cfg := cfg) (a := nobody) (b := true) s f).stash]; exact ih
    | checkConns => rw [show (s.step cfg .checkConns).stash = s.stash from (kept_checkConns (cfg := cfg) (a := nobody) s).stash]; exact ih
    | mon n m => rw [show (s.step cfg (.mon n m)).stash = s.stash from (kept_mon (cfg := cfg) (a := nobody) (b := true) s n m).stash]; exact ih
    | tick d => exact ih
    | connectNew n ha k =>
      show (s.connectNew cfg n ha k).stash.length ≤ _
      unfold State.connectNew
      split
      · exact ih
      · rw [(kept_maintain (cfg := cfg) (a := nobody) (b := true)
          { s with disk := s.disk.set n k, nyms := s.nyms.set n k, registry := s.registry.set n ha } true).stash]
        exact ih
    | haChanged n ha =>
      show (s.haChanged cfg n ha).stash.length ≤ _
      unfold State.haChanged
      split
      · exact ih
      · split
        · exact ih
        · rw [(kept_maintain (cfg := cfg) (a := nobody) (b := true)
            { s.removeRemote n with registry := (s.removeRemote n).registry.set n ha } true).stash]
          show (s.removeRemote n).stash.length ≤ _
          rw [(kept_removeRemote (cfg := cfg) (a := nobody) (b := true) s n).stash]
          exact ih
    | keysChanged n k =>
      show (s.keysChanged cfg n k).stash.length ≤ _
      unfold State.keysChanged
      split
      · exact ih
      · rw [(kept_maintain (cfg := cfg) (a := nobody) (b := true)
          { s.removeRemote n with disk := (s.removeRemote n).disk.set n k } true).stash]
        show (s.removeRemote n).stash.length ≤ _
        rw [(kept_removeRemote (cfg := cfg) (a := nobody) (b := true) s n).stash]
        exact ih
    | demote n =>
      show (s.demote cfg n).stash.length ≤ _
      unfold State.demote
      dsimp only
      split
      · exact ih
      · rw [(kept_removeRemote (cfg := cfg) (a := nobody) (b := true) { s with registry := s.registry.erase n } n).stash]
        exact ih
    | restart => exact Nat.zero_le _

/-! ## A pong that is due -/

theorem process_pongs (s : State) {k : Key} (h : k ∈ s.pongs) : k ∈ (s.process cfg).pongs := by
  have hl : ∀ (t : State) (n : Name), (t.setLive n).pongs = t.pongs := fun t n => by unfold State.setLive; split <;> rfl
  have hp : ∀ (t : State) (n : Name), (t.sendPong n).pongs = t.pongs := fun t n => by unfold State.sendPong; split <;> rfl
  unfold State.process
  split
  · exact h
  · rename_i m j rest _
    dsimp only
    split
    · rename_i n _
      have h0 : k ∈ (if cfg.retryConnect = true then { s with rx := rest } else State.setLive { s with rx := rest } n).pongs := by
        split
        · exact h
        · rw [hl]; exact h
      generalize (if cfg.retryConnect = true then { s with rx := rest } else State.setLive { s with rx := rest } n) = t at h0
      split
      · rw [hp]; exact h0
      · rw [hl]; exact h0
      · exact h0
    · split
      · dsimp only
        split
        · exact h
        · exact List.mem_append_left _ h
      · exact h
      · split <;> exact h

theorem quiet_pongs (s : State) (e : Ev) (q : e.quiet = true) {k : Key} (h : k ∈ s.pongs) : k ∈ (s.step cfg e).pongs := by
  cases e with
  | recv c j m => exact h
  | recvRemote j m =>
    show k ∈ (s.recvRemote j m).pongs
    unfold State.recvRemote
    split
    · exact h
    · split <;> exact h
  | process => exact process_pongs s h
  | unknown => exact h
  | setMode b => exact h
  | tick d => exact h
  | maintain f => cases q
  | checkConns => cases q
  | mon n m => cases q
  | connectNew n ha k => cases q
  | haChanged n ha => cases q
  | keysChanged n k => cases q
  | demote n => cases q
  | restart => cases q

theorem quiet_pongs_run (s : State) (es : List Ev) (q : ∀ e ∈ es, e.quiet = true) {k : Key} (h : k ∈ s.pongs) :
    k ∈ (s.run cfg es).pongs := by
  induction es generalizing s with
  | nil => exact h
  | cons e es ih =>
    exact ih _ (fun x hx => q x (List.mem_cons_of_mem _ hx)) (quiet_pongs s e (q e List.mem_cons_self) h)

theorem ping_due (s : State) {k : Key} {rest : List (Msg × Key)} (h : s.rx = (.ping, k) :: rest) (hk : s.byKeys.get? k = none) :
    k ∈ (s.process cfg).pongs := by
  unfold State.process
  rw [h]
  dsimp only
  rw [hk]
  dsimp only
  split
  · assumption
  · exact List.mem_append_right _ List.mem_cons_self

theorem pong_live (s : State) {k : Key} {m : Msg} {rest : List (Msg × Key)} {n : Name} (h : s.rx = (m, k) :: rest)
    (hk : s.byKeys.get? k = some n) (hr : ∃ r, s.remotes.get? n = some r) (hm : m = .pong ∨ cfg.retryConnect = false) :
    ∃ r, (s.process cfg).remotes.get? n = some r ∧ r.live = true := by
  have hl : ∀ (t : State), (∃ r, t.remotes.get? n = some r) → ∃ r, (t.setLive n).remotes.get? n = some r ∧ r.live = true := by
    rintro t ⟨r, hr⟩
    unfold State.setLive
    rw [hr]
    exact ⟨{ r with live := true }, by show Dict.get? (Dict.set _ _ _) _ = _; rw [Dict.get?_set, if_pos rfl], rfl⟩
  unfold State.process
  rw [h]
  dsimp only
  rw [hk]
  dsimp only
  rcases hm with rfl | hm
  · refine hl _ ?_
    split
    · exact hr
    · obtain ⟨r, h1, _⟩ := hl { s with rx := rest } hr
      exact ⟨r, h1⟩
  · rw [hm]
    rw [if_neg (by simp)]
    have := hl { s with rx := rest } hr
    cases m with
    | ping => dsimp only; rw [sendPong_remotes]; exact this
    | pong => obtain ⟨r, h1, _⟩ := this; exact hl _ ⟨r, h1⟩
    | data d => exact this

end Verif.Stack
