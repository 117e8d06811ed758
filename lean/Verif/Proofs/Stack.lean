import Verif.Spec.Stack
import Verif.Proofs.Count
/-!
# How the connections of a node change
-/
namespace Verif.Stack

variable (cfg : Cfg)

/-- The part of the state that says who is who. -/
structure Core where
  registry : Dict Name Ha
  disk : Dict Name Key
  nyms : Dict Name Key
  remotes : Dict Name Remote
  byKeys : Dict Key Name

def core (s : State) : Core := ⟨s.registry, s.disk, s.nyms, s.remotes, s.byKeys⟩

/-- Changes of remotes. Those of names in `a` may become connected. -/
inductive Change (a : Name → Prop) : Core → Core → Prop
  | refl (c) : Change a c c
  | upd {c d} (n : Name) (r r' : Remote) (h : d.remotes.get? n = some r) (hh : r'.ha = r.ha) (hk : r'.key = r.key)
      (hs : r.socket = true → r'.socket = true) (hl : r'.live = true → r.live = true ∨ a n) (g : Change a c d) :
      Change a c { d with remotes := d.remotes.set n r' }
  | add {c d} (n : Name) (ha : Ha) (k : Key) (h : d.remotes.get? n = none) (hn : n ≠ cfg.name) (hr : d.registry.get? n = some ha)
      (hd : d.disk.get? n = some k) (g : Change a c d) :
      Change a c { d with remotes := d.remotes.set n { ha := ha, key := k, socket := true }, byKeys := d.byKeys.set k n }
  | look {c d} (g : Change a c d) : Change a c { d with remotes := d.remotes.map (fun e => (e.1, e.2.look.1)) }
  | rem {c d} (n : Name) (r : Remote) (h : d.remotes.get? n = some r) (g : Change a c d) :
      Change a c { d with remotes := d.remotes.erase n, byKeys := d.byKeys.erase r.key }

variable {cfg}

theorem Change.trans {a : Name → Prop} {c d e : Core} (h : Change cfg a c d) (g : Change cfg a d e) : Change cfg a c e := by
  induction g with
  | refl => exact h
  | upd n r r' x hh hk hs hl _ ih => exact .upd n r r' x hh hk hs hl ih
  | add n ha k x hn hr hd _ ih => exact .add n ha k x hn hr hd ih
  | look _ ih => exact .look ih
  | rem n r x _ ih => exact .rem n r x ih

theorem Change.mono {a b : Name → Prop} (hab : ∀ n, a n → b n) {c d : Core} (h : Change cfg a c d) : Change cfg b c d := by
  induction h with
  | refl => exact .refl _
  | upd n r r' x hh hk hs hl _ ih => exact .upd n r r' x hh hk hs (fun y => (hl y).imp id (hab n)) ih
  | add n ha k x hn hr hd _ ih => exact .add n ha k x hn hr hd ih
  | look _ ih => exact .look ih
  | rem n r x _ ih => exact .rem n r x ih

theorem Change.registry {a : Name → Prop} {c d : Core} (h : Change cfg a c d) : d.registry = c.registry := by
  induction h with
  | refl => rfl
  | upd => assumption
  | add => assumption
  | look => assumption
  | rem => assumption

theorem Change.disk {a : Name → Prop} {c d : Core} (h : Change cfg a c d) : d.disk = c.disk := by
  induction h with
  | refl => rfl
  | upd => assumption
  | add => assumption
  | look => assumption
  | rem => assumption

/-- No one is made connected. -/
def nobody : Name → Prop := fun _ => False

/-- The stack does not stop, and nobody is told who is connected. -/
def Still (s t : State) : Prop := t.stopped = s.stopped ∧ t.conns = s.conns ∧ t.told = s.told

theorem Still.trans {s t u : State} (h : Still s t) (g : Still t u) : Still s u :=
  ⟨g.1.trans h.1, g.2.1.trans h.2.1, g.2.2.trans h.2.2⟩

theorem still_rfl (s : State) : Still s s := ⟨rfl, rfl, rfl⟩

variable (cfg)

/-- Connections change, and the node gets no message; with `b`, the stack does not stop. -/
structure Kept (a : Name → Prop) (b : Bool) (s t : State) : Prop where
  core : Change cfg a (core s) (core t)
  rx : t.rx = s.rx
  stash : t.stash = s.stash
  mode : t.participating = s.participating
  now : t.now = s.now
  stop : b = true → Still s t
  out : ∃ l, t.out = s.out ++ l ∧ l.filterMap Out.hand = []

variable {cfg}

theorem Kept.refl (a : Name → Prop) (b : Bool) (s : State) : Kept cfg a b s s :=
  ⟨.refl _, rfl, rfl, rfl, rfl, fun _ => ⟨rfl, rfl, rfl⟩, [], (List.append_nil _).symm, rfl⟩

theorem Kept.trans {a : Name → Prop} {b : Bool} {s t u : State} (h : Kept cfg a b s t) (g : Kept cfg a b t u) : Kept cfg a b s u := by
  obtain ⟨l, h1, h2⟩ := h.out
  obtain ⟨m, g1, g2⟩ := g.out
  exact ⟨h.core.trans g.core, g.rx.trans h.rx, g.stash.trans h.stash, g.mode.trans h.mode, g.now.trans h.now, fun x => (h.stop x).trans (g.stop x),
    l ++ m, by rw [g1, h1, List.append_assoc], by rw [List.filterMap_append, h2, g2]; rfl⟩

theorem Kept.mono {a a' : Name → Prop} {b : Bool} (hab : ∀ n, a n → a' n) {s t : State} (h : Kept cfg a b s t) : Kept cfg a' b s t :=
  ⟨h.core.mono hab, h.rx, h.stash, h.mode, h.now, h.stop, h.out⟩

theorem Kept.handed {a : Name → Prop} {b : Bool} {s t : State} (h : Kept cfg a b s t) : t.handed = s.handed := by
  obtain ⟨l, h1, h2⟩ := h.out
  unfold State.handed
  rw [h1, List.filterMap_append, h2, List.append_nil]

theorem kept_say {a : Name → Prop} {b : Bool} (s : State) (o : Out) (ho : o.hand = none) (ht : b = true → o.told = none) :
    Kept cfg a b s (s.say o) :=
  ⟨.refl _, rfl, rfl, rfl, rfl, fun h => ⟨rfl, rfl, by simp [State.told, State.say, ht h]⟩, [o], rfl, by simp [ho]⟩

theorem kept_sendPing {a : Name → Prop} {b : Bool} (s : State) (n : Name) : Kept cfg a b s (s.sendPing n) := by
  unfold State.sendPing
  split
  · exact kept_say s _ rfl (fun _ => rfl)
  · exact .refl a b s

theorem kept_sendPong {a : Name → Prop} {b : Bool} (s : State) (n : Name) : Kept cfg a b s (s.sendPong n) := by
  unfold State.sendPong
  split
  · exact kept_say s _ rfl (fun _ => rfl)
  · exact .refl a b s

theorem kept_upd {a : Name → Prop} {b : Bool} {s : State} {n : Name} {r : Remote} (r' : Remote) (h : s.remotes.get? n = some r)
    (hh : r'.ha = r.ha) (hk : r'.key = r.key) (hs : r.socket = true → r'.socket = true) (hl : r'.live = true → r.live = true ∨ a n) :
    Kept cfg a b s { s with remotes := s.remotes.set n r' } :=
  ⟨.upd n r r' h hh hk hs hl (.refl _), rfl, rfl, rfl, rfl, fun _ => ⟨rfl, rfl, rfl⟩, [], (List.append_nil _).symm, rfl⟩

theorem kept_connect {a : Name → Prop} {b : Bool} (s : State) (n : Name) (ha : Ha) (hn : n ≠ cfg.name) (hr : s.registry.get? n = some ha) :
    Kept cfg a b s (s.connect n ha) := by
  unfold State.connect
  split
  · rename_i r h
    exact ((kept_upd { r with socket := true, monitor := none } h rfl rfl (fun _ => rfl) .inl).trans (kept_say _ _ rfl (fun _ => rfl))).trans
      (kept_sendPing _ _)
  · rename_i h
    split
    · exact .refl a b s
    · rename_i k hd
      dsimp only
      have h0 : Kept cfg a b s { s with remotes := s.remotes.set n { ha := ha, key := k, socket := true }, byKeys := s.byKeys.set k n } :=
        ⟨.add (d := core s) n ha k h hn hr hd (.refl _), rfl, rfl, rfl, rfl, fun _ => ⟨rfl, rfl, rfl⟩, [], (List.append_nil _).symm, rfl⟩
      have h1 := (h0.trans (kept_say _ (.dial n ha k) rfl (fun _ => rfl))).trans (kept_sendPing _ n)
      split
      · refine h1.trans (Kept.trans ?_ (kept_sendPong _ n))
        exact ⟨.refl _, rfl, rfl, rfl, rfl, fun _ => ⟨rfl, rfl, rfl⟩, [], (List.append_nil _).symm, rfl⟩
      · exact h1

theorem kept_connectTo {a : Name → Prop} {b : Bool} (l : List Name) (hl : ∀ n ∈ l, n ≠ cfg.name) (s : State) :
    Kept cfg a b s (s.connectTo l) := by
  unfold State.connectTo
  induction l generalizing s with
  | nil => exact .refl a b s
  | cons n l ih =>
    rw [List.foldl_cons]
    refine Kept.trans ?_ (ih (fun m hm => hl m (List.mem_cons_of_mem _ hm)) _)
    split
    · exact .refl a b s
    · rename_i ha hr
      exact kept_connect s n ha (hl n List.mem_cons_self) hr

theorem kept_reconnect {a : Name → Prop} {b : Bool} (s : State) (n : Name) : Kept cfg a b s (s.reconnect n) := by
  unfold State.reconnect
  split
  · exact .refl a b s
  · rename_i r h
    exact ((kept_upd { r with socket := true, monitor := none, live := false } h rfl rfl (fun _ => rfl)
      (fun e => nomatch e)).trans (kept_say _ _ rfl (fun _ => rfl))).trans (kept_sendPing _ _)

theorem look_ha (r : Remote) : r.look.1.ha = r.ha := by
  unfold Remote.look; split
  · rfl
  · split
    · rfl
    · split <;> rfl

theorem look_key (r : Remote) : r.look.1.key = r.key := by
  unfold Remote.look; split
  · rfl
  · split
    · rfl
    · split <;> rfl

theorem look_socket (r : Remote) : r.look.1.socket = r.socket := by
  unfold Remote.look; split
  · rfl
  · split
    · rfl
    · split <;> rfl

theorem look_live (r : Remote) : r.look.1.live = r.look.2 := by
  unfold Remote.look; split
  · rename_i h; simpa using h
  · rename_i h
    have hr : r.live = true := by simpa using h
    split
    · exact hr
    · split
      · rfl
      · exact hr

theorem look_live' (r : Remote) (h : r.look.2 = true) : r.live = true := by
  unfold Remote.look at h; split at h
  · cases h
  · rename_i h'; simpa using h'

theorem kept_retryOne {a : Name → Prop} {b : Bool} (ex : List Name) (s : State) (n : Name) : Kept cfg a b s (s.retryOne cfg ex n) := by
  unfold State.retryOne
  split
  · exact .refl a b s
  · rename_i r h
    have hr : ∀ (t : State) (d : Dict Name Nat), Kept cfg a b t { t with retries := d } :=
      fun t d => ⟨.refl _, rfl, rfl, rfl, rfl, fun _ => ⟨rfl, rfl, rfl⟩, [], (List.append_nil _).symm, rfl⟩
    split
    · exact hr s _
    · dsimp only
      have h0 : Kept cfg a b s { s with remotes := s.remotes.set n r.look.1 } :=
        kept_upd r.look.1 h (look_ha r) (look_key r) (fun e => by rw [look_socket]; exact e)
          (fun e => .inl (look_live' r (by rw [← look_live]; exact e)))
      split
      · exact h0.trans (hr _ _)
      · split
        · exact h0.trans (kept_sendPing _ n)
        · split
          · exact (h0.trans (hr _ _)).trans (kept_reconnect _ n)
          · exact (h0.trans (hr _ _)).trans (kept_sendPing _ n)

theorem kept_foldl {a : Name → Prop} {b : Bool} {f : State → Name → State} (h : ∀ s n, Kept cfg a b s (f s n)) (l : List Name) (s : State) :
    Kept cfg a b s (l.foldl f s) := by
  induction l generalizing s with
  | nil => exact .refl a b s
  | cons n l ih => exact (h s n).trans (ih _)

theorem kept_retryDisconnected {a : Name → Prop} {b : Bool} (s : State) (ex : List Name) : Kept cfg a b s (s.retryDisconnected cfg ex) := by
  unfold State.retryDisconnected
  split
  · exact .refl a b s
  · exact kept_foldl (kept_retryOne ex) _ s

theorem missing_ne {s : State} {n : Name} (h : n ∈ s.missing cfg) : n ≠ cfg.name := by
  have := (List.mem_filter.mp h).2
  simp only [Bool.and_eq_true, decide_eq_true_eq] at this
  exact this.1

theorem kept_maintain {a : Name → Prop} {b : Bool} (s : State) (force : Bool) : Kept cfg a b s (s.maintain cfg force) := by
  unfold State.maintain
  split
  · exact .refl a b s
  · dsimp only
    refine Kept.trans ?_ (kept_retryDisconnected _ _)
    refine Kept.trans ?_ (kept_connectTo _ (fun n hn => missing_ne hn) _)
    exact ⟨.refl _, rfl, rfl, rfl, rfl, fun _ => ⟨rfl, rfl, rfl⟩, [], (List.append_nil _).symm, rfl⟩

theorem kept_removeRemote {a : Name → Prop} {b : Bool} (s : State) (n : Name) : Kept cfg a b s (s.removeRemote n) := by
  unfold State.removeRemote
  split
  · exact .refl a b s
  · rename_i r h
    exact ⟨.rem (d := core s) n r h (.refl _), rfl, rfl, rfl, rfl, fun _ => ⟨rfl, rfl, rfl⟩, [], (List.append_nil _).symm, rfl⟩

theorem kept_connecteds {a : Name → Prop} {b : Bool} (s : State) : Kept cfg a b s s.connecteds.1 :=
  ⟨.look (d := core s) (.refl _), rfl, rfl, rfl, rfl, fun _ => ⟨rfl, rfl, rfl⟩, [], (List.append_nil _).symm, rfl⟩

theorem kept_dropSame {a : Name → Prop} (s : State) (i : Name) : Kept cfg a false s (s.dropSame i) := by
  unfold State.dropSame
  split
  · exact .refl a false s
  · split
    · exact ⟨.refl _, rfl, rfl, rfl, rfl, fun h => (nomatch h), [], (List.append_nil _).symm, rfl⟩
    · exact kept_foldl (fun s n => kept_removeRemote s n) _ s

theorem kept_checkConns {a : Name → Prop} (s : State) : Kept cfg a false s s.checkConns := by
  unfold State.checkConns
  dsimp only
  split
  · exact kept_connecteds s
  · have h1 : Kept cfg a false s { s.connecteds.1 with conns := s.connecteds.2 } :=
      (kept_connecteds s).trans ⟨.refl _, rfl, rfl, rfl, rfl, fun h => (nomatch h), [], (List.append_nil _).symm, rfl⟩
    have h2 := h1.trans (kept_foldl (a := a) (cfg := cfg) kept_dropSame (s.connecteds.2.filter (· ∉ s.conns)) _)
    split
    · exact h2
    · exact (h2.trans (kept_connecteds _)).trans (kept_say _ _ rfl (fun h => (nomatch h)))

theorem kept_mon {a : Name → Prop} {b : Bool} (s : State) (n : Name) (e : Mon) : Kept cfg a b s (s.mon n e) := by
  unfold State.mon
  split
  · exact .refl a b s
  · rename_i r h
    exact kept_upd { r with monitor := r.monitor.map (· ++ [e]) } h rfl rfl id .inl

theorem kept_setLive {a : Name → Prop} {b : Bool} (s : State) (n : Name) (hn : a n) : Kept cfg a b s (s.setLive n) := by
  unfold State.setLive
  split
  · exact .refl a b s
  · rename_i r h
    exact kept_upd { r with live := true } h rfl rfl id (fun _ => .inr hn)

theorem run_append (s : State) (x y : List Ev) : s.run cfg (x ++ y) = (s.run cfg x).run cfg y := List.foldl_append ..
theorem run_snoc (s : State) (x : List Ev) (e : Ev) : s.run cfg (x ++ [e]) = (s.run cfg x).step cfg e := by
  rw [run_append]; rfl

/-- What processing a message does to the connections and the queues. -/
inductive Processed (cfg : Cfg) (s t : State) : Prop
  | idle (h : s.rx = []) (ht : t = s)
  /-- one of a known node: it is connected, or answered, or the message is handed on -/
  | known (m : Msg) (k : Key) (rest : List (Msg × Key)) (n : Name) (h : s.rx = (m, k) :: rest) (hk : s.byKeys.get? k = some n)
      (c : Change cfg (fun j => j = n ∧ (cfg.retryConnect = false ∨ m = .pong)) (core s) (core t)) (hrx : t.rx = rest)
      (hst : t.stash = s.stash) (hm : t.participating = s.participating) (hn : t.now = s.now) (hp : Still s t)
      (ho : t.handed = s.handed ++ (match m with | .data d => [(n, d, k)] | _ => []))
  /-- one nobody known sent -/
  | unknown (m : Msg) (k : Key) (rest : List (Msg × Key)) (h : s.rx = (m, k) :: rest) (hk : s.byKeys.get? k = none)
      (c : core t = core s) (hrx : t.rx = rest) (hm : t.participating = s.participating) (hn : t.now = s.now) (hp : Still s t)
      (hst : t.stash = (match m with
        | .data d => if s.participating then s.stash else push cfg.stashMax s.stash (.data d, k)
        | _ => s.stash))
      (ho : t.handed = s.handed)

theorem processed (s : State) : Processed cfg s (s.process cfg) := by
  unfold State.process
  split
  · rename_i h; exact .idle h rfl
  · rename_i m k rest h
    dsimp only
    split
    · rename_i n hk
      have h0 : Kept cfg (fun j => j = n ∧ (cfg.retryConnect = false ∨ m = .pong)) true { s with rx := rest }
          (if cfg.retryConnect then { s with rx := rest } else State.setLive { s with rx := rest } n) := by
        split
        · exact .refl _ _ _
        · rename_i hc
          exact kept_setLive _ n ⟨rfl, .inl (by simpa using hc)⟩
      cases m with
      | ping =>
        have h1 := h0.trans (kept_sendPong _ n)
        exact .known .ping k rest n h hk h1.core h1.rx h1.stash h1.mode h1.now (h1.stop rfl)
          (by rw [h1.handed]; exact (List.append_nil _).symm)
      | pong =>
        have h1 := h0.trans (kept_setLive _ n ⟨rfl, .inr rfl⟩)
        exact .known .pong k rest n h hk h1.core h1.rx h1.stash h1.mode h1.now (h1.stop rfl)
          (by rw [h1.handed]; exact (List.append_nil _).symm)
      | data d =>
        have hp : ∀ t : State, Still t (t.say (.handed n k d)) := fun t => ⟨rfl, rfl, by simp [State.told, State.say, Out.told]⟩
        refine .known (.data d) k rest n h hk h0.core h0.rx h0.stash h0.mode h0.now
          (Still.trans (t := (if cfg.retryConnect then { s with rx := rest } else State.setLive { s with rx := rest } n))
            (h0.stop rfl) (hp _)) ?_
        have := h0.handed
        unfold State.handed at this ⊢
        show (_ ++ [Out.handed n k d]).filterMap _ = _
        rw [List.filterMap_append, this]
        rfl
    · rename_i hk
      cases m with
      | ping => exact .unknown .ping k rest h hk rfl rfl rfl rfl (still_rfl _) rfl rfl
      | pong => exact .unknown .pong k rest h hk rfl rfl rfl rfl (still_rfl _) rfl rfl
      | data d =>
        refine .unknown (.data d) k rest h hk ?_ ?_ ?_ ?_ ?_ ?_ ?_
        · dsimp only; split <;> rfl
        · dsimp only; split <;> rfl
        · dsimp only; split <;> rfl
        · dsimp only; split <;> rfl
        · dsimp only; split <;> exact ⟨rfl, rfl, rfl⟩
        · dsimp only; split <;> rfl
        · dsimp only; split <;> rfl

end Verif.Stack
