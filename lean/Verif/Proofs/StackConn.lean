import Verif.Proofs.StackMsgs
/-!
# Who is connected
-/
namespace Verif.Stack

variable {cfg : Cfg}

/-! ## All of the pool have a connection -/

theorem has_set {d : Dict Name Remote} {n m : Name} {r : Remote} (h : d.has m = true) : (d.set n r).has m = true := by
  rw [Dict.has_iff, Dict.get?_set]
  split
  · exact ⟨_, rfl⟩
  · exact (Dict.has_iff _ _).mp h

theorem sendPing_remotes (s : State) (n : Name) : (s.sendPing n).remotes = s.remotes := by
  unfold State.sendPing; split <;> rfl

theorem sendPong_remotes (s : State) (n : Name) : (s.sendPong n).remotes = s.remotes := by
  unfold State.sendPong; split <;> rfl

theorem sendPing_disk (s : State) (n : Name) : (s.sendPing n).disk = s.disk := by
  unfold State.sendPing; split <;> rfl

theorem connect_has (s : State) (n : Name) (ha : Ha) {m : Name} (h : s.remotes.has m = true) :
    (s.connect n ha).remotes.has m = true := by
  unfold State.connect
  split
  · rw [sendPing_remotes]; exact has_set h
  · split
    · exact h
    · dsimp only
      split
      · rw [sendPong_remotes]
        show Dict.has (State.sendPing _ _).remotes m = true
        rw [sendPing_remotes]; exact has_set h
      · rw [sendPing_remotes]; exact has_set h

theorem connect_self (s : State) (n : Name) (ha : Ha) (k : Key) (hd : s.disk.get? n = some k) :
    (s.connect n ha).remotes.has n = true := by
  have hs : ∀ (d : Dict Name Remote) (r : Remote), (d.set n r).has n = true := by
    intro d r; rw [Dict.has_iff, Dict.get?_set]; exact ⟨_, if_pos rfl⟩
  unfold State.connect
  split
  · rw [sendPing_remotes]; exact hs _ _
  · rw [hd]
    dsimp only
    split
    · rw [sendPong_remotes]
      show Dict.has (State.sendPing _ _).remotes n = true
      rw [sendPing_remotes]; exact hs _ _
    · rw [sendPing_remotes]; exact hs _ _

theorem connectTo_cons (s : State) (n : Name) (l : List Name) : s.connectTo (n :: l) =
    State.connectTo (match s.registry.get? n with | none => s | some ha => s.connect n ha) l := rfl

theorem connectTo_has (l : List Name) (s : State) {m : Name} (h : s.remotes.has m = true) :
    (s.connectTo l).remotes.has m = true := by
  induction l generalizing s with
  | nil => exact h
  | cons n l ih =>
    rw [connectTo_cons]
    apply ih
    split
    · exact h
    · exact connect_has s n _ h

theorem connectTo_self (l : List Name) (hl : ∀ n ∈ l, n ≠ cfg.name) (s : State) {m : Name} {ha : Ha} {k : Key} (hm : m ∈ l)
    (hr : s.registry.get? m = some ha) (hd : s.disk.get? m = some k) : (s.connectTo l).remotes.has m = true := by
  induction l generalizing s with
  | nil => cases hm
  | cons n l ih =>
    rw [connectTo_cons]
    rcases List.mem_cons.mp hm with e | hm'
    · subst e
      apply connectTo_has
      rw [hr]
      exact connect_self s m ha k hd
    · have hc : Kept cfg nobody true s (match s.registry.get? n with | none => s | some ha => s.connect n ha) := by
        split
        · exact .refl _ _ s
        · rename_i ha' hr'
          exact kept_connect s n ha' (hl n List.mem_cons_self) hr'
      refine ih (fun x hx => hl x (List.mem_cons_of_mem _ hx)) _ hm' ?_ ?_
      · have := hc.core.registry
        exact (congrArg (fun d => Dict.get? d m) this).trans hr
      · have := hc.core.disk
        exact (congrArg (fun d => Dict.get? d m) this).trans hd

theorem reconnect_has (s : State) (n : Name) {m : Name} (h : s.remotes.has m = true) : (s.reconnect n).remotes.has m = true := by
  unfold State.reconnect
  split
  · exact h
  · rw [sendPing_remotes]; exact has_set h

theorem retryOne_has (ex : List Name) (s : State) (n : Name) {m : Name} (h : s.remotes.has m = true) :
    (s.retryOne cfg ex n).remotes.has m = true := by
  unfold State.retryOne
  split
  · exact h
  · split
    · exact h
    · dsimp only
      split
      · exact has_set h
      · split
        · rw [sendPing_remotes]; exact has_set h
        · split
          · exact reconnect_has _ _ (has_set h)
          · rw [sendPing_remotes]; exact has_set h

theorem retryDisconnected_has (s : State) (ex : List Name) {m : Name} (h : s.remotes.has m = true) :
    (s.retryDisconnected cfg ex).remotes.has m = true := by
  unfold State.retryDisconnected
  split
  · exact h
  · generalize s.remotes.keys = l
    induction l generalizing s with
    | nil => exact h
    | cons n l ih => exact ih _ (retryOne_has ex s n h)

/-- After a forced look at the connections each node of the registry whose key is known has a remote. -/
theorem maintain_has (s : State) {m : Name} {ha : Ha} {k : Key} (hm : m ≠ cfg.name) (hr : s.registry.get? m = some ha)
    (hd : s.disk.get? m = some k) : (s.maintain cfg true).remotes.has m = true := by
  unfold State.maintain
  rw [if_neg (by simp)]
  dsimp only
  apply retryDisconnected_has
  by_cases hx : m ∈ State.missing cfg { s with nextCheck := s.now + cfg.pause }
  · exact connectTo_self _ (fun n hn => missing_ne hn) _ hx hr hd
  · apply connectTo_has
    unfold State.missing at hx
    rw [List.mem_filter] at hx
    have hk : m ∈ s.registry.keys := (Dict.mem_keys _ _).mpr ⟨ha, hr⟩
    have : ¬ _ := fun h => hx ⟨hk, h⟩
    dsimp only at this
    rw [hr] at this
    cases hg : s.remotes.get? m with
    | none =>
      rw [hg] at this
      exact (this (by simp [hm])).elim
    | some r => exact (Dict.has_iff _ _).mpr ⟨r, hg⟩

/-! ## Who counts as connected was heard -/

theorem Change.live {a : Name → Prop} {c d : Core} (h : Change cfg a c d) {n : Name} {r : Remote}
    (hr : d.remotes.get? n = some r) (hl : r.live = true) :
    (∃ q, c.remotes.get? n = some q ∧ q.live = true ∧ q.key = r.key) ∨ a n := by
  induction h generalizing r with
  | refl => exact .inl ⟨r, hr, hl, rfl⟩
  | @upd d m q q' h hh hk hs hl' g ih =>
    replace hr : Dict.get? (Dict.set d.remotes m q') n = some r := hr
    rw [Dict.get?_set] at hr
    split at hr
    · rename_i e; cases hr; subst e
      rcases hl' hl with x | x
      · rcases ih h x with ⟨p, h1, h2, h3⟩ | y
        · exact .inl ⟨p, h1, h2, h3.trans hk.symm⟩
        · exact .inr y
      · exact .inr x
    · exact ih hr hl
  | @add d m ha k h hn hr' hd g ih =>
    replace hr : Dict.get? (Dict.set d.remotes m { ha := ha, key := k, socket := true }) n = some r := hr
    rw [Dict.get?_set] at hr
    split at hr
    · cases hr; cases hl
    · exact ih hr hl
  | @look d g ih =>
    replace hr : Dict.get? (List.map _ d.remotes) n = some r := hr
    rw [get?_map_look] at hr
    cases hq : d.remotes.get? n with
    | none => rw [hq] at hr; cases hr
    | some q =>
      rw [hq] at hr; cases hr
      have := look_live' q (by rw [← look_live]; exact hl)
      rcases ih hq this with ⟨p, h1, h2, h3⟩ | y
      · exact .inl ⟨p, h1, h2, h3.trans (look_key q).symm⟩
      · exact .inr y
  | @rem d m q h g ih =>
    replace hr : Dict.get? (Dict.erase d.remotes m) n = some r := hr
    rw [Dict.get?_erase] at hr
    split at hr
    · cases hr
    · exact ih hr hl

theorem removeRemote_back (s : State) (n m : Name) {r : Remote} (h : (s.removeRemote n).remotes.get? m = some r) :
    s.remotes.get? m = some r := by
  rw [get?_removeRemote] at h
  split at h
  · cases h
  · exact h

/-- Only a message makes a node connected. -/
theorem step_live (s : State) (e : Ev) (he : e ≠ .process) {n : Name} {r : Remote}
    (hr : (s.step cfg e).remotes.get? n = some r) (hl : r.live = true) :
    ∃ q, s.remotes.get? n = some q ∧ q.live = true ∧ q.key = r.key := by
  have no : ∀ {t u : State} {b : Bool}, Kept cfg nobody b t u → u.remotes.get? n = some r →
      ∃ q, t.remotes.get? n = some q ∧ q.live = true ∧ q.key = r.key := by
    intro t u b h hu
    rcases h.core.live hu hl with h | h
    · exact h
    · cases h
  cases e with
  | recv c k m => exact ⟨r, hr, hl, rfl⟩
  | recvRemote k m =>
    refine ⟨r, ?_, hl, rfl⟩
    rw [← hr]
    show _ = (s.recvRemote k m).remotes.get? n
    unfold State.recvRemote
    split
    · rfl
    · split <;> rfl
  | process => exact (he rfl).elim
  | unknown => exact ⟨r, hr, hl, rfl⟩
  | setMode b => exact ⟨r, hr, hl, rfl⟩
  | maintain f => exact no (kept_maintain (b := true) s f) hr
  | checkConns => exact no (kept_checkConns s) hr
  | mon m x => exact no (kept_mon (b := true) s m x) hr
  | tick d => exact ⟨r, hr, hl, rfl⟩
  | connectNew m ha k =>
    replace hr : (s.connectNew cfg m ha k).remotes.get? n = some r := hr
    unfold State.connectNew at hr
    split at hr
    · exact ⟨r, hr, hl, rfl⟩
    · exact no (t := { s with disk := s.disk.set m k, nyms := s.nyms.set m k, registry := s.registry.set m ha })
        (kept_maintain (b := true) _ _) hr
  | haChanged m ha =>
    replace hr : (s.haChanged cfg m ha).remotes.get? n = some r := hr
    unfold State.haChanged at hr
    split at hr
    · exact ⟨r, hr, hl, rfl⟩
    · split at hr
      · exact ⟨r, hr, hl, rfl⟩
      · obtain ⟨q, h1, h2⟩ := no (kept_maintain (b := true) _ _) hr
        exact ⟨q, removeRemote_back s m n h1, h2⟩
  | keysChanged m k =>
    replace hr : (s.keysChanged cfg m k).remotes.get? n = some r := hr
    unfold State.keysChanged at hr
    split at hr
    · exact ⟨r, hr, hl, rfl⟩
    · obtain ⟨q, h1, h2⟩ := no (kept_maintain (b := true) _ _) hr
      exact ⟨q, removeRemote_back s m n h1, h2⟩
  | demote m =>
    replace hr : (s.demote cfg m).remotes.get? n = some r := hr
    unfold State.demote at hr
    dsimp only at hr
    split at hr
    · exact ⟨r, hr, hl, rfl⟩
    · have := removeRemote_back { s with registry := s.registry.erase m } m n hr
      exact ⟨r, this, hl, rfl⟩
  | restart => cases hr

theorem run_heard {s : State} (h : s.start) (es : List Ev) {n : Name} {r : Remote}
    (hr : (s.run cfg es).remotes.get? n = some r) (hl : r.live = true) :
    ∃ pre post m, es = pre ++ .process :: post ∧ (s.run cfg pre).rx.head? = some (m, r.key)
      ∧ (s.run cfg pre).byKeys.get? r.key = some n ∧ (cfg.retryConnect = true → m = .pong) := by
  induction es using snoc_induction generalizing r with
  | nil =>
    have : (s.run cfg []).remotes = [] := by rw [h]; rfl
    rw [this] at hr; cases hr
  | snoc es e ih =>
    have old : ∀ q, (s.run cfg es).remotes.get? n = some q → q.live = true → q.key = r.key →
        ∃ pre post m, es ++ [e] = pre ++ .process :: post ∧ (s.run cfg pre).rx.head? = some (m, r.key)
          ∧ (s.run cfg pre).byKeys.get? r.key = some n ∧ (cfg.retryConnect = true → m = .pong) := by
      intro q h1 h2 h3
      obtain ⟨pre, post, m, x1, x2⟩ := ih h1 h2
      rw [h3] at x2
      exact ⟨pre, post ++ [e], m, by rw [x1]; simp, x2⟩
    rw [run_snoc] at hr
    by_cases he : e = .process
    · have hr0 := hr
      rw [he] at hr
      replace hr : ((s.run cfg es).process cfg).remotes.get? n = some r := hr
      cases processed (cfg := cfg) (s.run cfg es) with
      | idle h ht => rw [ht] at hr; exact old r hr hl rfl
      | known m k rest n' h' hk c hrx hst hm hn hp ho =>
        rcases c.live hr hl with ⟨q, h1, h2, h3⟩ | ⟨h1, h2⟩
        · exact old q h1 h2 h3
        · subst h1
          have hb : (s.run cfg (es ++ [e])).byKeys.get? k = some n := by
            rw [run_snoc, he]
            show ((s.run cfg es).process cfg).byKeys.get? k = some n
            rw [process_byKeys]; exact hk
          obtain ⟨q, x1, x2⟩ := run_keyed h (es ++ [e]) k n hb
          replace x1 : (s.run cfg (es ++ [e])).remotes.get? n = some q := x1
          rw [run_snoc, hr0] at x1
          cases x1
          subst x2
          refine ⟨es, [], m, by rw [he], by rw [h']; rfl, hk, ?_⟩
          intro hc
          rcases h2 with x | x
          · rw [hc] at x; cases x
          · exact x
      | unknown m k rest h' hk c hrx hm hn hp hst ho =>
        have : ((s.run cfg es).process cfg).remotes = (s.run cfg es).remotes := congrArg Core.remotes c
        rw [this] at hr
        exact old r hr hl rfl
    · obtain ⟨q, h1, h2, h3⟩ := step_live _ e he hr hl
      exact old q h1 h2 h3

/-! ## A loss the socket reports is noticed -/

theorem lost_snoc (l : List Mon) {x : Mon} (h : x = .disconnected ∨ x = .closed) : lost (l ++ [x]) = true := by
  unfold lost
  rw [List.filter_append]
  rcases h with rfl | rfl
  · show (match (_ ++ [Mon.disconnected]).getLast? with | some .disconnected => true | some .closed => true | _ => false) = true
    rw [List.getLast?_append]
    rfl
  · show (match (_ ++ [Mon.closed]).getLast? with | some .disconnected => true | some .closed => true | _ => false) = true
    rw [List.getLast?_append]
    rfl

/-- Other events do not hide a loss. -/
theorem lost_other (l : List Mon) (h : lost l = true) : lost (l ++ [.other]) = true := by
  unfold lost at h ⊢
  rw [List.filter_append]
  show (match (_ ++ ([] : List Mon)).getLast? with | some .disconnected => true | some .closed => true | _ => false) = true
  rw [List.append_nil]
  exact h

/-- The monitor of a node has a loss. -/
def Broken (s : State) (n : Name) : Prop :=
  ∀ r, s.remotes.get? n = some r → r.socket = true ∧ lost (r.monitor.getD []) = true

theorem setLive_broken {s : State} {n m : Name} (h : Broken s n) : Broken (s.setLive m) n := by
  unfold State.setLive
  split
  · exact h
  · rename_i r hr
    intro q hq
    replace hq : Dict.get? (Dict.set s.remotes m { r with live := true }) n = some q := hq
    rw [Dict.get?_set] at hq
    split at hq
    · rename_i e; cases hq; subst e
      exact h r hr
    · exact h q hq

theorem process_broken {s : State} {n : Name} (h : Broken s n) : Broken (s.process cfg) n := by
  have say : ∀ (t : State) (o : Out), Broken t n → Broken (t.say o) n := fun t o h => h
  unfold State.process
  split
  · exact h
  · dsimp only
    split
    · rename_i k rest _ m _
      have h0 : ∀ t : State, Broken t n → Broken (if cfg.retryConnect = true then t else t.setLive m) n := by
        intro t ht; split
        · exact ht
        · exact setLive_broken ht
      split
      · intro r hr
        rw [sendPong_remotes] at hr
        exact h0 { s with rx := k } h r hr
      · exact setLive_broken (h0 _ h)
      · exact h0 _ h
    · split
      · exact h
      · exact h
      · split <;> exact h

theorem quiet_broken {s : State} {n : Name} (h : Broken s n) (e : Ev) (q : e.quiet = true) : Broken (s.step cfg e) n := by
  cases e with
  | recv c k m => exact h
  | recvRemote k m =>
    show Broken (s.recvRemote k m) n
    unfold State.recvRemote
    split
    · exact h
    · split <;> exact h
  | process => exact process_broken h
  | unknown => exact h
  | setMode b => exact h
  | tick d => exact h
  | maintain f => cases q
  | checkConns => cases q
  | mon n m => cases q
  | connectNew n ha k => cases q
  | haChanged n ha => cases q
  | keysChanged n k => cases q
  | demote n => cases q
  | restart => cases q

theorem broken_look {r : Remote} (h : r.socket = true ∧ lost (r.monitor.getD []) = true) :
    r.look.2 = false ∧ r.look.1.live = false := by
  rw [look_live]
  have : r.look.2 = false := by
    unfold Remote.look
    split
    · rfl
    · rw [h.1, h.2]
      rfl
  exact ⟨this, this⟩

theorem removeRemote_conns (s : State) (n : Name) : (s.removeRemote n).conns = s.conns := by
  unfold State.removeRemote; split <;> rfl

theorem removeAll_conns (l : List Name) (s : State) : (l.foldl State.removeRemote s).conns = s.conns := by
  induction l generalizing s with
  | nil => rfl
  | cons n l ih => exact (ih _).trans (removeRemote_conns s n)

theorem removeAll_back (l : List Name) (s : State) {m : Name} {r : Remote}
    (h : (l.foldl State.removeRemote s).remotes.get? m = some r) : s.remotes.get? m = some r := by
  induction l generalizing s with
  | nil => exact h
  | cons n l ih => exact removeRemote_back s n m (ih _ h)

theorem dropSame_conns (s : State) (i : Name) : (s.dropSame i).conns = s.conns := by
  unfold State.dropSame
  split
  · rfl
  · split
    · rfl
    · exact removeAll_conns _ s

theorem dropSame_back (s : State) (i : Name) {m : Name} {r : Remote} (h : (s.dropSame i).remotes.get? m = some r) :
    s.remotes.get? m = some r := by
  unfold State.dropSame at h
  split at h
  · exact h
  · split at h
    · exact h
    · exact removeAll_back _ s h

theorem drop_conns (l : List Name) (s : State) : (l.foldl State.dropSame s).conns = s.conns := by
  induction l generalizing s with
  | nil => rfl
  | cons n l ih => exact (ih _).trans (dropSame_conns s n)

theorem drop_back (l : List Name) (s : State) {m : Name} {r : Remote}
    (h : (l.foldl State.dropSame s).remotes.get? m = some r) : s.remotes.get? m = some r := by
  induction l generalizing s with
  | nil => exact h
  | cons n l ih => exact dropSame_back s n (ih _ h)

theorem mem_connecteds {s : State} (o : s.remotes.keys.Nodup) {n : Name} :
    n ∈ s.connecteds.2 ↔ ∃ r, s.remotes.get? n = some r ∧ r.look.2 = true := by
  unfold State.connecteds
  dsimp only
  rw [List.mem_map]
  constructor
  · rintro ⟨⟨m, r⟩, h, rfl⟩
    rw [List.mem_filter] at h
    exact ⟨r, Dict.get?_of_mem o h.1, h.2⟩
  · rintro ⟨r, h1, h2⟩
    exact ⟨(n, r), List.mem_filter.mpr ⟨Dict.mem_of_get? h1, h2⟩, rfl⟩

/-- Who is not connected at a check is not among the connected after it. -/
theorem check_out {s : State} (o : s.remotes.keys.Nodup) {n : Name}
    (h : ∀ r, s.remotes.get? n = some r → r.look.2 = false) :
    n ∉ s.checkConns.conns ∧ ∀ r, s.checkConns.remotes.get? n = some r → r.live = false := by
  have hn : n ∉ s.connecteds.2 := by
    intro x
    obtain ⟨r, h1, h2⟩ := (mem_connecteds o).mp x
    rw [h r h1] at h2; cases h2
  have h1 : ∀ r, s.connecteds.1.remotes.get? n = some r → r.live = false := by
    intro r hr
    replace hr : Dict.get? (List.map _ s.remotes) n = some r := hr
    rw [get?_map_look] at hr
    cases hq : s.remotes.get? n with
    | none => rw [hq] at hr; cases hr
    | some q =>
      rw [hq] at hr; cases hr
      rw [look_live]; exact h q hq
  unfold State.checkConns
  dsimp only
  split
  · rename_i hs
    simp only [Bool.and_eq_true, List.all_eq_true, decide_eq_true_eq] at hs
    exact ⟨fun x => hn (hs.2 n x), h1⟩
  · have h2 : ∀ r, (List.foldl State.dropSame { s.connecteds.1 with conns := s.connecteds.2 }
        (s.connecteds.2.filter (· ∉ s.conns))).remotes.get? n = some r → r.live = false :=
      fun r hr => h1 r (drop_back _ { s.connecteds.1 with conns := s.connecteds.2 } hr)
    split
    · refine ⟨?_, h2⟩
      rw [drop_conns]; exact hn
    · refine ⟨?_, ?_⟩
      · show n ∉ (List.foldl State.dropSame { s.connecteds.1 with conns := s.connecteds.2 } _).conns
        rw [drop_conns]; exact hn
      · intro r hr
        replace hr : Dict.get? (List.map _ (List.foldl State.dropSame { s.connecteds.1 with conns := s.connecteds.2 } _).remotes) n = some r := hr
        rw [get?_map_look] at hr
        cases hq : (List.foldl State.dropSame { s.connecteds.1 with conns := s.connecteds.2 }
          (s.connecteds.2.filter (· ∉ s.conns))).remotes.get? n with
        | none => rw [hq] at hr; cases hr
        | some q =>
          rw [hq] at hr; cases hr
          have hl := h2 q hq
          rw [look_live]
          cases hx : q.look.2 with
          | false => rfl
          | true => rw [look_live' q hx] at hl; cases hl

/-- Events of other sockets, and those that say nothing about the connection, change nothing. -/
theorem mon_broken {s : State} {n m : Name} {x : Mon} (h : Broken s n) (hx : m ≠ n ∨ x = .other) : Broken (s.mon m x) n := by
  unfold State.mon
  split
  · exact h
  · rename_i r hr
    intro q hq
    replace hq : Dict.get? (Dict.set s.remotes m { r with monitor := r.monitor.map (· ++ [x]) }) n = some q := hq
    rw [Dict.get?_set] at hq
    split at hq
    · rename_i e
      cases hq; subst e
      rcases hx with hx | hx
      · exact (hx rfl).elim
      · subst hx
        obtain ⟨h1, h2⟩ := h r hr
        refine ⟨h1, ?_⟩
        cases hm : r.monitor with
        | none => rw [hm] at h2; exact h2
        | some l => rw [hm] at h2; exact lost_other l h2
    · exact h q hq

theorem noticed {s : State} {n : Name} {r : Remote} {l : List Mon} (hr : s.remotes.get? n = some r) (hs : r.socket = true)
    (hm : r.monitor = some l) {x : Mon} (hx : x = .disconnected ∨ x = .closed) (es : List Ev)
    (hq : ∀ e ∈ es, e.quiet = true ∨ ∃ m y, e = .mon m y ∧ (m ≠ n ∨ y = .other))
    (o' : ((s.step cfg (.mon n x)).run cfg es).remotes.keys.Nodup) :
    let t := ((s.step cfg (.mon n x)).run cfg es).step cfg .checkConns
    n ∉ t.conns ∧ ∀ r, t.remotes.get? n = some r → r.live = false := by
  have h0 : Broken (s.step cfg (.mon n x)) n := by
    show Broken (s.mon n x) n
    unfold State.mon
    rw [hr]
    intro q hq
    replace hq : Dict.get? (Dict.set s.remotes n { r with monitor := r.monitor.map (· ++ [x]) }) n = some q := hq
    rw [Dict.get?_set, if_pos rfl] at hq
    cases hq
    refine ⟨hs, ?_⟩
    rw [hm]
    exact lost_snoc l hx
  have h1 : ∀ (es : List Ev) (t : State), (∀ e ∈ es, e.quiet = true ∨ ∃ m y, e = .mon m y ∧ (m ≠ n ∨ y = .other)) → Broken t n → Broken (t.run cfg es) n := by
    intro es
    induction es with
    | nil => intro t _ h; exact h
    | cons e es ih =>
      intro t hq h
      refine ih _ (fun x hx => hq x (List.mem_cons_of_mem _ hx)) ?_
      rcases hq e List.mem_cons_self with h' | ⟨m, y, rfl, h'⟩
      · exact quiet_broken h e h'
      · exact mon_broken h h'
  have h2 := h1 es _ hq h0
  exact check_out o' (fun r hr => (broken_look (h2 r hr)).1)

/-! ## The stack does not stop when addresses are different -/

/-- Two remotes do not have one address. -/
def Apart (d : Dict Name Remote) : Prop :=
  ∀ n m r q, d.get? n = some r → d.get? m = some q → r.ha = q.ha → n = m

theorem dropSame_apart {s : State} (o : s.remotes.keys.Nodup) (a : Apart s.remotes) {i : Name} {r : Remote}
    (h : s.remotes.get? i = some r) : s.dropSame i = s := by
  unfold State.dropSame
  split
  · rfl
  · rw [h]
    dsimp only
    have : s.remotes.filter (fun e => e.2.ha = r.ha && e.1 ≠ i) = [] := by
      rw [List.filter_eq_nil_iff]
      rintro ⟨m, q⟩ hm
      intro x
      simp only [Bool.and_eq_true, decide_eq_true_eq] at x
      exact x.2 (a m i q r (Dict.get?_of_mem o hm) h x.1)
    rw [this]
    rfl

theorem drop_apart (l : List Name) {s : State} (o : s.remotes.keys.Nodup) (a : Apart s.remotes)
    (h : ∀ i ∈ l, ∃ r, s.remotes.get? i = some r) : l.foldl State.dropSame s = s := by
  induction l with
  | nil => rfl
  | cons i l ih =>
    obtain ⟨r, hr⟩ := h i List.mem_cons_self
    rw [List.foldl_cons, dropSame_apart o a hr]
    exact ih (fun j hj => h j (List.mem_cons_of_mem _ hj))

theorem apart_look {s : State} (a : Apart s.remotes) : Apart s.connecteds.1.remotes := by
  intro n m r q hr hq he
  replace hr : Dict.get? (List.map _ s.remotes) n = some r := hr
  replace hq : Dict.get? (List.map _ s.remotes) m = some q := hq
  rw [get?_map_look] at hr hq
  cases h1 : s.remotes.get? n with
  | none => rw [h1] at hr; cases hr
  | some r' =>
    cases h2 : s.remotes.get? m with
    | none => rw [h2] at hq; cases hq
    | some q' =>
      rw [h1] at hr; rw [h2] at hq; cases hr; cases hq
      rw [look_ha, look_ha] at he
      exact a n m r' q' h1 h2 he

theorem checkConns_apart {s : State} (o : s.remotes.keys.Nodup) (a : Apart s.remotes) :
    s.checkConns.stopped = s.stopped := by
  have o' : s.connecteds.1.remotes.keys.Nodup := by
    show (Dict.keys (List.map _ s.remotes)).Nodup
    rw [keys_map_look]; exact o
  have a' : Apart s.connecteds.1.remotes := apart_look a
  have h : ∀ i ∈ s.connecteds.2.filter (· ∉ s.conns), ∃ r, s.connecteds.1.remotes.get? i = some r := by
    intro i hi
    obtain ⟨r, h1, _⟩ := (mem_connecteds o).mp (List.mem_filter.mp hi).1
    exact ⟨r.look.1, by show Dict.get? (List.map _ s.remotes) i = _; rw [get?_map_look, h1]; rfl⟩
  unfold State.checkConns
  dsimp only
  split
  · rfl
  · have hd := drop_apart (s.connecteds.2.filter (· ∉ s.conns)) (s := { s.connecteds.1 with conns := s.connecteds.2 }) o' a' h
    rw [hd]
    split <;> rfl

theorem step_still (s : State) (e : Ev) (he : e ≠ .checkConns) (hr : e ≠ .restart) : Still s (s.step cfg e) := by
  cases e with
  | recv c k m => exact still_rfl s
  | recvRemote k m =>
    show Still s (s.recvRemote k m)
    unfold State.recvRemote
    split
    · exact still_rfl s
    · split <;> exact still_rfl s
  | process =>
    show Still s (s.process cfg)
    cases processed (cfg := cfg) s with
    | idle h' ht => rw [ht]; exact still_rfl s
    | known m k rest n h' hk c hrx hst hm hn hp ho => exact hp
    | unknown m k rest h' hk c hrx hm hn hp hst ho => exact hp
  | unknown => exact still_rfl s
  | setMode b => exact still_rfl s
  | maintain f => exact (kept_maintain (cfg := cfg) (a := nobody) (b := true) s f).stop rfl
  | checkConns => exact (he rfl).elim
  | mon n m => exact (kept_mon (cfg := cfg) (a := nobody) (b := true) s n m).stop rfl
  | tick d => exact still_rfl s
  | connectNew n ha k =>
    show Still s (s.connectNew cfg n ha k)
    unfold State.connectNew
    split
    · exact still_rfl s
    · exact (kept_maintain (cfg := cfg) (a := nobody) (b := true)
        { s with disk := s.disk.set n k, nyms := s.nyms.set n k, registry := s.registry.set n ha } _).stop rfl
  | haChanged n ha =>
    show Still s (s.haChanged cfg n ha)
    unfold State.haChanged
    split
    · exact still_rfl s
    · split
      · exact still_rfl s
      · exact ((kept_removeRemote (cfg := cfg) (a := nobody) (b := true) s n).stop rfl).trans
          ((kept_maintain (cfg := cfg) (a := nobody) (b := true)
            { s.removeRemote n with registry := (s.removeRemote n).registry.set n ha } _).stop rfl)
  | keysChanged n k =>
    show Still s (s.keysChanged cfg n k)
    unfold State.keysChanged
    split
    · exact still_rfl s
    · exact ((kept_removeRemote (cfg := cfg) (a := nobody) (b := true) s n).stop rfl).trans
        ((kept_maintain (cfg := cfg) (a := nobody) (b := true)
          { s.removeRemote n with disk := (s.removeRemote n).disk.set n k } _).stop rfl)
  | demote n =>
    show Still s (s.demote cfg n)
    unfold State.demote
    dsimp only
    split
    · exact still_rfl s
    · exact (kept_removeRemote (cfg := cfg) (a := nobody) (b := true) { s with registry := s.registry.erase n } n).stop rfl
  | restart => exact (hr rfl).elim

theorem run_apart {s : State} (h : s.start) (es : List Ev) (f : Along cfg Fresh s es) (d : (s.run cfg es).distinct) :
    Apart (s.run cfg es).remotes := by
  intro n m r q hr hq hh
  have c := run_current h es f
  have x := (c n r hr).2
  have y := (c m q hq).2
  exact d n m r.ha x (by rw [hh]; exact y)

theorem run_goes {s : State} (h : s.start) (es : List Ev) (f : Along cfg Fresh s es)
    (d : Along cfg (fun t _ => t.distinct) s es) : (s.run cfg es).stopped = false := by
  induction es using snoc_induction with
  | nil => rw [h]; rfl
  | snoc es e ih =>
    have f' : Along cfg Fresh s es := fun a e' b h => f a e' (b ++ [e]) (by rw [h]; simp)
    have := ih f' (fun a e' b h => d a e' (b ++ [e]) (by rw [h]; simp))
    rw [run_snoc]
    by_cases he : e = .checkConns
    · subst he
      show (s.run cfg es).checkConns.stopped = false
      rw [checkConns_apart (run_once h es), this]
      exact run_apart h es f' (d es .checkConns [] rfl)
    · by_cases hr : e = .restart
      · subst hr; rfl
      · exact (step_still _ e he hr).1.trans this

/-! ## The replicas know who is connected -/

theorem look_again (r : Remote) : r.look.1.look.2 = r.look.2 := by
  unfold Remote.look
  cases h1 : r.live with
  | false => simp [h1]
  | true =>
    cases h2 : r.socket with
    | false => simp [h1, h2]
    | true =>
      cases h3 : lost (r.monitor.getD []) with
      | true => simp
      | false => simp [lost]

theorem connecteds_again (s : State) (t : State) (h : t.remotes = s.connecteds.1.remotes) : t.connecteds.2 = s.connecteds.2 := by
  unfold State.connecteds at h ⊢
  dsimp only at h ⊢
  rw [h]
  generalize s.remotes = l
  induction l with
  | nil => rfl
  | cons e l ih =>
    rw [List.map_cons, List.filter_cons, List.filter_cons]
    dsimp only
    rw [look_again]
    split
    · rw [List.map_cons, List.map_cons, ih]
    · exact ih

/-- After a check the connected are those, and the replicas know. -/
theorem check_told {s : State} (o : s.remotes.keys.Nodup) (a : Apart s.remotes) (hs : s.stopped = false) (ht : s.told = s.conns) :
    s.checkConns.told = s.checkConns.conns ∧ ∀ n, n ∈ s.checkConns.conns ↔ ∃ r, s.checkConns.remotes.get? n = some r ∧ r.live = true := by
  have o' : s.connecteds.1.remotes.keys.Nodup := by
    show (Dict.keys (List.map _ s.remotes)).Nodup
    rw [keys_map_look]; exact o
  have live : ∀ t : State, t.remotes = s.connecteds.1.remotes → ∀ n, n ∈ s.connecteds.2 ↔ ∃ r, t.remotes.get? n = some r ∧ r.live = true := by
    intro t ht n
    rw [mem_connecteds o, ht]
    constructor
    · rintro ⟨r, h1, h2⟩
      refine ⟨r.look.1, ?_, by rw [look_live]; exact h2⟩
      show Dict.get? (List.map _ s.remotes) n = _
      rw [get?_map_look, h1]; rfl
    · rintro ⟨r, h1, h2⟩
      replace h1 : Dict.get? (List.map _ s.remotes) n = _ := h1
      rw [get?_map_look] at h1
      cases hq : s.remotes.get? n with
      | none => rw [hq] at h1; cases h1
      | some q =>
        rw [hq] at h1; cases h1
        exact ⟨q, rfl, by rw [look_live] at h2; exact h2⟩
  have a' : Apart s.connecteds.1.remotes := apart_look a
  have h : ∀ i ∈ s.connecteds.2.filter (· ∉ s.conns), ∃ r, s.connecteds.1.remotes.get? i = some r := by
    intro i hi
    obtain ⟨r, h1, _⟩ := (live s.connecteds.1 rfl i).mp (List.mem_filter.mp hi).1
    exact ⟨r, h1⟩
  unfold State.checkConns
  dsimp only
  split
  · rename_i hx
    simp only [Bool.and_eq_true, List.all_eq_true, decide_eq_true_eq] at hx
    refine ⟨ht, ?_⟩
    intro n
    rw [← live s.connecteds.1 rfl n]
    exact ⟨hx.2 n, hx.1 n⟩
  · have hd := drop_apart (s.connecteds.2.filter (· ∉ s.conns)) (s := { s.connecteds.1 with conns := s.connecteds.2 }) o' a' h
    rw [hd]
    rw [if_neg (by show ¬ s.stopped = true; rw [hs]; simp)]
    have hc := connecteds_again s { s.connecteds.1 with conns := s.connecteds.2 } rfl
    refine ⟨?_, ?_⟩
    · show ((s.out ++ [Out.conns (State.connecteds { s.connecteds.1 with conns := s.connecteds.2 }).2]).filterMap Out.told).getLast?.getD [] = s.connecteds.2
      rw [hc, List.filterMap_append]
      show (_ ++ [s.connecteds.2]).getLast?.getD [] = _
      rw [List.getLast?_append]
      rfl
    · intro n
      show n ∈ s.connecteds.2 ↔ ∃ r, Dict.get? (List.map _ s.connecteds.1.remotes) n = some r ∧ _
      rw [← hc]
      rw [mem_connecteds (s := { s.connecteds.1 with conns := s.connecteds.2 }) o']
      constructor
      · rintro ⟨r, h1, h2⟩
        refine ⟨r.look.1, ?_, by rw [look_live]; exact h2⟩
        rw [get?_map_look]
        replace h1 : s.connecteds.1.remotes.get? n = some r := h1
        rw [h1]; rfl
      · rintro ⟨r, h1, h2⟩
        rw [get?_map_look] at h1
        cases hq : s.connecteds.1.remotes.get? n with
        | none => rw [hq] at h1; cases h1
        | some q =>
          rw [hq] at h1; cases h1
          exact ⟨q, rfl, by rw [look_live] at h2; exact h2⟩

theorem run_told {s : State} (h : s.start) (es : List Ev) (f : Along cfg Fresh s es)
    (d : Along cfg (fun t _ => t.distinct) s es) (hr : Ev.restart ∉ es) : (s.run cfg es).told = (s.run cfg es).conns := by
  induction es using snoc_induction with
  | nil => rw [h]; rfl
  | snoc es e ih =>
    have f' : Along cfg Fresh s es := fun a e' b h => f a e' (b ++ [e]) (by rw [h]; simp)
    have d' : Along cfg (fun t _ => t.distinct) s es := fun a e' b h => d a e' (b ++ [e]) (by rw [h]; simp)
    have := ih f' d' (fun x => hr (by simp [x]))
    rw [run_snoc]
    by_cases he : e = .checkConns
    · subst he
      exact (check_told (run_once h es) (run_apart h es f' (d es _ [] rfl)) (run_goes h es f' d') this).1
    · have x := step_still (cfg := cfg) (s.run cfg es) e he (fun x => hr (by simp [x]))
      rw [x.2.1, x.2.2, this]

/-! ## A new key -/

/-- All that is known of `n` is the key `k`. -/
def Pinned (n : Name) (k : Key) (c : Core) : Prop :=
  c.disk.get? n = some k ∧ ∀ r, c.remotes.get? n = some r → r.key = k

theorem pinned_stable (n : Name) (k : Key) :
    Stable cfg (Pinned n k) (fun _ e => (∀ j, ¬ e.gives n j) ∧ e ≠ .restart) where
  change := by
    intro a c d h
    induction h with
    | refl => exact id
    | @upd d m r r' h hh hk hs hl g ih =>
      intro p
      refine ⟨(ih p).1, ?_⟩
      intro q hm
      replace hm : Dict.get? (Dict.set d.remotes m r') n = some q := hm
      rw [Dict.get?_set] at hm
      split at hm
      · rename_i e; cases hm; subst e
        rw [hk]; exact (ih p).2 r h
      · exact (ih p).2 q hm
    | @add d m ha j h hn hr hd g ih =>
      intro p
      refine ⟨(ih p).1, ?_⟩
      intro q hm
      replace hm : Dict.get? (Dict.set d.remotes m { ha := ha, key := j, socket := true }) n = some q := hm
      rw [Dict.get?_set] at hm
      split at hm
      · rename_i e; cases hm; subst e
        have := (ih p).1
        rw [hd] at this; cases this; rfl
      · exact (ih p).2 q hm
    | @look d g ih =>
      intro p
      refine ⟨(ih p).1, ?_⟩
      intro q hm
      replace hm : Dict.get? (List.map _ d.remotes) n = some q := hm
      rw [get?_map_look] at hm
      cases hr : d.remotes.get? n with
      | none => rw [hr] at hm; cases hm
      | some r =>
        rw [hr] at hm; cases hm
        rw [look_key]; exact (ih p).2 r hr
    | @rem d m r h g ih =>
      intro p
      refine ⟨(ih p).1, ?_⟩
      intro q hm
      replace hm : Dict.get? (Dict.erase d.remotes m) n = some q := hm
      rw [Dict.get?_erase] at hm
      split at hm
      · cases hm
      · exact (ih p).2 q hm
  new := by
    intro s m ha j o hn p
    refine ⟨?_, p.2⟩
    show (s.disk.set m j).get? n = some k
    rw [Dict.get?_set, if_neg]
    · exact p.1
    · intro e; exact o.1 j ⟨e, rfl⟩
  self := fun _ _ p => p
  addr := fun _ _ _ _ _ _ p => p
  key := by
    intro s m j o hn _ p
    refine ⟨?_, p.2⟩
    show (s.disk.set m j).get? n = some k
    rw [Dict.get?_set, if_neg]
    · exact p.1
    · intro e; exact o.1 j ⟨e, rfl⟩
  out := fun _ _ _ p => p
  restart := fun _ o _ => (o.2 rfl).elim

theorem rotated (s : State) (n : Name) (k : Key) (hn : n ≠ cfg.name) (hr : s.registry.has n = true) (es : List Ev)
    (hg : ∀ e ∈ es, (∀ j, ¬ e.gives n j) ∧ e ≠ .restart) :
    Pinned n k (core ((s.step cfg (.keysChanged n k)).run cfg es)) := by
  refine (pinned_stable n k).run (fun _ _ _ o => o) es (fun a e b h => hg e (by rw [h]; simp)) ?_
  show Pinned n k (core (s.keysChanged cfg n k))
  unfold State.keysChanged
  rw [if_neg (by simp [hn, hr])]
  refine (pinned_stable (cfg := cfg) n k).kept (kept_maintain (a := nobody) (b := true) _ _) ?_
  refine ⟨?_, ?_⟩
  · show ((s.removeRemote n).disk.set n k).get? n = some k
    rw [Dict.get?_set, if_pos rfl]
  · intro r hr
    replace hr : (s.removeRemote n).remotes.get? n = some r := hr
    rw [get?_removeRemote, if_pos rfl] at hr
    cases hr

end Verif.Stack
