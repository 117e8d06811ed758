import Verif.Proofs.StackWho
/-!
# Where the messages go
-/
namespace Verif.Stack

variable {cfg : Cfg}

/-- What an event does to the messages. -/
inductive Flow (cfg : Cfg) (s : State) (e : Ev) (t : State) : Prop
  | same (h : e.frame = none ∨ ∃ k m, e = .recvRemote k m) (hrx : t.rx = s.rx) (hst : t.stash = s.stash)
      (ho : t.handed = s.handed)
  | come (m : Msg) (k : Key) (h : e.frame = some (m, k)) (hrx : t.rx = s.rx ++ [(m, k)]) (hst : t.stash = s.stash)
      (ho : t.handed = s.handed)
  | proc (h : e = .process) (ht : t = s.process cfg)
  | back (h : e = .unknown) (hrx : t.rx = s.rx ++ s.stash) (hst : t.stash = []) (ho : t.handed = s.handed)
  | gone (h : e = .restart) (hrx : t.rx = []) (hst : t.stash = []) (ho : t.handed = s.handed)

theorem Kept.flow {a : Name → Prop} {b : Bool} {s t : State} {e : Ev} (h : Kept cfg a b s t) (he : e.frame = none) :
    Flow cfg s e t := .same (.inl he) h.rx h.stash h.handed

theorem flow (s : State) (e : Ev) : Flow cfg s e (s.step cfg e) := by
  cases e with
  | recv c k m => exact .come m k rfl rfl rfl rfl
  | recvRemote k m =>
    by_cases h : ∃ n, s.byKeys.get? k = some n ∧ s.canSend n = true
    · obtain ⟨n, h1, h2⟩ := h
      have : s.step cfg (.recvRemote k m) = { s with rx := s.rx ++ [(m, k)] } := by
        show s.recvRemote k m = _
        unfold State.recvRemote
        rw [h1]; exact if_pos h2
      rw [this]
      exact .come m k rfl rfl rfl rfl
    · have : s.step cfg (.recvRemote k m) = s := by
        show s.recvRemote k m = _
        unfold State.recvRemote
        split
        · rfl
        · rename_i n hn
          exact if_neg (fun h' => h ⟨n, hn, h'⟩)
      rw [this]
      exact .same (.inr ⟨k, m, rfl⟩) rfl rfl rfl
  | process => exact .proc rfl rfl
  | unknown => exact .back rfl rfl rfl rfl
  | setMode b => exact .same (.inl rfl) rfl rfl rfl
  | maintain f => exact (kept_maintain (a := nobody) (b := true) s f).flow rfl
  | checkConns => exact (kept_checkConns (a := nobody) s).flow rfl
  | mon n m => exact (kept_mon (a := nobody) (b := true) s n m).flow rfl
  | tick d => exact .same (.inl rfl) rfl rfl rfl
  | connectNew n ha k =>
    show Flow cfg s _ (s.connectNew cfg n ha k)
    unfold State.connectNew
    split
    · exact .same (.inl rfl) rfl rfl rfl
    · have := kept_maintain (cfg := cfg) (a := nobody) (b := true)
        { s with disk := s.disk.set n k, nyms := s.nyms.set n k, registry := s.registry.set n ha } true
      exact .same (.inl rfl) this.rx this.stash this.handed
  | haChanged n ha =>
    show Flow cfg s _ (s.haChanged cfg n ha)
    unfold State.haChanged
    split
    · exact .same (.inl rfl) rfl rfl rfl
    · split
      · exact .same (.inl rfl) rfl rfl rfl
      · have h0 := kept_removeRemote (cfg := cfg) (a := nobody) (b := true) s n
        have := kept_maintain (cfg := cfg) (a := nobody) (b := true)
          { s.removeRemote n with registry := (s.removeRemote n).registry.set n ha } true
        exact .same (.inl rfl) (this.rx.trans h0.rx) (this.stash.trans h0.stash) (this.handed.trans h0.handed)
  | keysChanged n k =>
    show Flow cfg s _ (s.keysChanged cfg n k)
    unfold State.keysChanged
    split
    · exact .same (.inl rfl) rfl rfl rfl
    · have h0 := kept_removeRemote (cfg := cfg) (a := nobody) (b := true) s n
      have := kept_maintain (cfg := cfg) (a := nobody) (b := true)
        { s.removeRemote n with disk := (s.removeRemote n).disk.set n k } true
      exact .same (.inl rfl) (this.rx.trans h0.rx) (this.stash.trans h0.stash) (this.handed.trans h0.handed)
  | demote n =>
    show Flow cfg s _ (s.demote cfg n)
    unfold State.demote
    dsimp only
    split
    · exact .same (.inl rfl) rfl rfl rfl
    · have h0 := kept_removeRemote (cfg := cfg) (a := nobody) (b := true) { s with registry := s.registry.erase n } n
      exact .same (.inl rfl) h0.rx h0.stash h0.handed
  | restart => exact .gone rfl rfl rfl rfl

/-! ## Nothing is handed on more often than it came -/

theorem contents_append (x y : List (Msg × Key)) : contents (x ++ y) = contents x ++ contents y := List.filterMap_append ..

theorem frames_snoc (es : List Ev) (e : Ev) : frames (es ++ [e]) = frames es ++ e.frame.toList := by
  unfold frames
  rw [List.filterMap_append]
  cases h : e.frame <;> simp [h]

theorem push_sublist (m : Nat) (l : List (Msg × Key)) (x : Msg × Key) : (push m l x).Sublist (l ++ [x]) :=
  List.drop_sublist ..

theorem count_contents_push (m : Nat) (l : List (Msg × Key)) (x : Msg × Key) (y : Nat × Key) :
    (contents (push m l x)).count y ≤ (contents l).count y + (contents [x]).count y := by
  rw [← List.count_append, ← contents_append]
  exact ((push_sublist m l x).filterMap _).count_le y

/-- What was handed on, as messages with identities. -/
def State.taken (s : State) : List (Nat × Key) := s.handed.map (fun x => (x.2.1, x.2.2))

theorem run_count {s : State} (h : s.start) (es : List Ev) (y : Nat × Key) :
    (s.run cfg es).taken.count y + (contents (s.run cfg es).rx).count y + (contents (s.run cfg es).stash).count y
      ≤ (contents (frames es)).count y := by
  induction es using snoc_induction with
  | nil =>
    have e : s.run cfg [] = s := rfl
    rw [e]
    have h1 : s.rx = [] := by rw [h]
    have h2 : s.stash = [] := by rw [h]
    have h3 : s.taken = [] := by rw [h]; rfl
    rw [h1, h2, h3]
    simp [contents]
  | snoc es e ih =>
    rw [run_snoc, frames_snoc, contents_append, List.count_append]
    generalize s.run cfg es = t at ih ⊢
    have tk : ∀ u : State, u.handed = t.handed → u.taken = t.taken := fun u hu => by unfold State.taken; rw [hu]
    cases flow (cfg := cfg) t e with
    | same h hrx hst ho => rw [hrx, hst, tk _ ho]; omega
    | come m k h hrx hst ho =>
      rw [hrx, hst, tk _ ho, contents_append, List.count_append, h]
      simp only [Option.toList]
      omega
    | proc he ht =>
      rw [ht]
      subst he
      simp only [Ev.frame, Option.toList, contents, List.filterMap_nil, List.count_nil, Nat.add_zero] at *
      cases processed (cfg := cfg) t with
      | idle h ht => rw [ht]; exact ih
      | known m k rest n h hk c hrx hst hm hn hp ho =>
        rw [h] at ih
        rw [hrx, hst]
        unfold State.taken at ih ⊢
        rw [ho]
        cases m with
        | ping => simpa using ih
        | pong => simpa using ih
        | data d =>
          simp only [List.map_append, List.map_cons, List.map_nil, List.count_append, List.filterMap_cons,
            List.count_cons, List.count_nil] at ih ⊢
          omega
      | unknown m k rest h hk c hrx hm hn hp hst ho =>
        rw [h] at ih
        rw [hrx, hst, tk _ ho]
        cases m with
        | ping => simpa using ih
        | pong => simpa using ih
        | data d =>
          simp only [List.filterMap_cons, List.count_cons] at ih
          dsimp only
          split
          · omega
          · have := count_contents_push cfg.stashMax t.stash (.data d, k) y
            simp only [contents, List.filterMap_cons, List.filterMap_nil, List.count_cons, List.count_nil] at this
            omega
    | back he hrx hst ho =>
      subst he
      rw [hrx, hst, tk _ ho, contents_append, List.count_append]
      simp only [contents, List.filterMap_nil, List.count_nil] at *
      omega
    | gone he hrx hst ho =>
      rw [hrx, hst, tk _ ho]
      simp only [contents, List.filterMap_nil, List.count_nil] at *
      omega

/-! ## Order -/

theorem run_order {s : State} (h : s.start) (es : List Ev) (hu : Ev.unknown ∉ es) :
    ((s.run cfg es).taken ++ contents (s.run cfg es).rx).Sublist (contents (frames es)) := by
  induction es using snoc_induction with
  | nil =>
    have e : s.run cfg [] = s := rfl
    rw [e]
    have h1 : s.rx = [] := by rw [h]
    have h3 : s.taken = [] := by rw [h]; rfl
    rw [h1, h3]
    exact List.Sublist.refl _
  | snoc es e ih =>
    replace ih := ih (fun h => hu (by simp [h]))
    rw [run_snoc, frames_snoc, contents_append]
    generalize s.run cfg es = t at ih ⊢
    have tk : ∀ u : State, u.handed = t.handed → u.taken = t.taken := fun u hu => by unfold State.taken; rw [hu]
    cases flow (cfg := cfg) t e with
    | same h hrx hst ho =>
      rw [hrx, tk _ ho]
      exact ih.trans (List.sublist_append_left ..)
    | come m k h hrx hst ho =>
      rw [hrx, tk _ ho, contents_append, ← List.append_assoc, h]
      exact ih.append (List.Sublist.refl _)
    | proc he ht =>
      rw [ht]
      refine List.Sublist.trans ?_ (ih.trans (List.sublist_append_left ..))
      cases processed (cfg := cfg) t with
      | idle h ht => rw [ht]; exact List.Sublist.refl _
      | known m k rest n h hk c hrx hst hm hn hp ho =>
        rw [hrx, h]
        unfold State.taken
        rw [ho]
        cases m with
        | ping => simp [contents]
        | pong => simp [contents]
        | data d => simp [contents]
      | unknown m k rest h hk c hrx hm hn hp hst ho =>
        rw [hrx, h, tk _ ho]
        refine (List.Sublist.refl _).append ?_
        exact (List.sublist_cons_self ..).filterMap _
    | back he hrx hst ho => exact (hu (by simp [he])).elim
    | gone he hrx hst ho =>
      rw [hrx, tk _ ho]
      refine List.Sublist.trans ?_ (ih.trans (List.sublist_append_left ..))
      exact (List.Sublist.refl _).append (List.nil_sublist _)

/-! ## Who is named -/

/-- Something handed on was at the head of the queue, and its identity was the key of the remote named. -/
theorem run_named {s : State} (h : s.start) (es : List Ev) {n : Name} {d : Nat} {k : Key}
    (hm : (n, d, k) ∈ (s.run cfg es).handed) :
    ∃ pre post, es = pre ++ .process :: post ∧ (s.run cfg pre).rx.head? = some (.data d, k)
      ∧ (∃ r, (s.run cfg pre).remotes.get? n = some r ∧ r.key = k) := by
  induction es using snoc_induction with
  | nil =>
    have : (s.run cfg []).handed = [] := by rw [h]; rfl
    rw [this] at hm; cases hm
  | snoc es e ih =>
    have old : (n, d, k) ∈ (s.run cfg es).handed → ∃ pre post, es ++ [e] = pre ++ .process :: post
        ∧ (s.run cfg pre).rx.head? = some (.data d, k) ∧ (∃ r, (s.run cfg pre).remotes.get? n = some r ∧ r.key = k) := by
      intro x
      obtain ⟨pre, post, h1, h2⟩ := ih x
      exact ⟨pre, post ++ [e], by rw [h1]; simp, h2⟩
    rw [run_snoc] at hm
    cases flow (cfg := cfg) (s.run cfg es) e with
    | same h hrx hst ho => rw [ho] at hm; exact old hm
    | come m k h hrx hst ho => rw [ho] at hm; exact old hm
    | proc he ht =>
      rw [ht] at hm
      cases processed (cfg := cfg) (s.run cfg es) with
      | idle h ht => rw [ht] at hm; exact old hm
      | known m k' rest n' h' hk c hrx hst hm' hn hp ho =>
        rw [ho] at hm
        rcases List.mem_append.mp hm with hm | hm
        · exact old hm
        · cases m with
          | ping => cases hm
          | pong => cases hm
          | data d' =>
            dsimp only at hm
            rw [List.mem_singleton] at hm
            cases hm
            refine ⟨es, [], by rw [he], by rw [h']; rfl, ?_⟩
            exact run_keyed h es k n hk
      | unknown m k rest h hk c hrx hm' hn hp hst ho => rw [ho] at hm; exact old hm
    | back he hrx hst ho => rw [ho] at hm; exact old hm
    | gone he hrx hst ho => rw [ho] at hm; exact old hm

/-- What is in the queue came in. -/
theorem rx_came {s : State} (h : s.start) (es : List Ev) {d : Nat} {k : Key} (hm : (s.run cfg es).rx.head? = some (.data d, k)) :
    (.data d, k) ∈ frames es := by
  have h1 : (d, k) ∈ contents (s.run cfg es).rx := by
    cases hr : (s.run cfg es).rx with
    | nil => rw [hr] at hm; cases hm
    | cons x l =>
      rw [hr] at hm; cases hm
      exact List.mem_cons_self
  have h2 := run_count (cfg := cfg) h es (d, k)
  have h3 : 0 < (contents (frames es)).count (d, k) := by
    have := List.count_pos_iff.mpr h1
    omega
  have h4 := List.count_pos_iff.mp h3
  unfold contents at h4
  obtain ⟨x, hx, hy⟩ := List.mem_filterMap.mp h4
  obtain ⟨m, j⟩ := x
  cases m with
  | ping => cases hy
  | pong => cases hy
  | data d' => cases hy; exact hx

/-! ## What comes is handed on -/

theorem setLive_byKeys (s : State) (n : Name) : (s.setLive n).byKeys = s.byKeys := by
  unfold State.setLive; split <;> rfl

theorem sendPong_byKeys (s : State) (n : Name) : (s.sendPong n).byKeys = s.byKeys := by
  unfold State.sendPong; split <;> rfl

theorem process_byKeys (s : State) : (s.process cfg).byKeys = s.byKeys := by
  unfold State.process
  split
  · rfl
  · dsimp only
    split
    · rename_i k _ _ n _
      have h0 : ∀ t : State, (if cfg.retryConnect = true then t else t.setLive n).byKeys = t.byKeys := by
        intro t; split
        · rfl
        · exact setLive_byKeys t n
      split
      · rw [sendPong_byKeys]; exact h0 _
      · rw [setLive_byKeys]; exact h0 _
      · exact h0 _
    · split
      · rfl
      · rfl
      · split <;> rfl

theorem process_rx (s : State) : (s.process cfg).rx = s.rx.tail := by
  cases processed (cfg := cfg) s with
  | idle h ht => rw [ht, h]; rfl
  | known m k rest n h hk c hrx hst hm hn hp ho => rw [hrx, h]; rfl
  | unknown m k rest h hk c hrx hm hn hp hst ho => rw [hrx, h]; rfl

theorem handed_mono (s : State) (e : Ev) {x : Name × Nat × Key} (h : x ∈ s.handed) : x ∈ (s.step cfg e).handed := by
  cases flow (cfg := cfg) s e with
  | same _ hrx hst ho => rw [ho]; exact h
  | come m k _ hrx hst ho => rw [ho]; exact h
  | proc he ht =>
    rw [ht]
    cases processed (cfg := cfg) s with
    | idle _ ht => rw [ht]; exact h
    | known m k rest n _ hk c hrx hst hm hn hp ho => rw [ho]; exact List.mem_append_left _ h
    | unknown m k rest _ hk c hrx hm hn hp hst ho => rw [ho]; exact h
  | back he hrx hst ho => rw [ho]; exact h
  | gone he hrx hst ho => rw [ho]; exact h

theorem handed_mono_run (s : State) (es : List Ev) {x : Name × Nat × Key} (h : x ∈ s.handed) : x ∈ (s.run cfg es).handed := by
  induction es generalizing s with
  | nil => exact h
  | cons e es ih => exact ih _ (handed_mono s e h)

/-- A quiet event that is no processing leaves the keys, and adds to the queue at most. -/
theorem quiet_other (s : State) (e : Ev) (q : e.quiet = true) (hp : e ≠ .process) :
    (s.step cfg e).byKeys = s.byKeys ∧ ∃ l, (s.step cfg e).rx = s.rx ++ l := by
  cases e with
  | recv c k m => exact ⟨rfl, _, rfl⟩
  | recvRemote k m =>
    show (s.recvRemote k m).byKeys = _ ∧ ∃ l, (s.recvRemote k m).rx = _
    unfold State.recvRemote
    split
    · exact ⟨rfl, [], (List.append_nil _).symm⟩
    · split
      · exact ⟨rfl, _, rfl⟩
      · exact ⟨rfl, [], (List.append_nil _).symm⟩
  | process => exact (hp rfl).elim
  | unknown => exact ⟨rfl, _, rfl⟩
  | setMode b => exact ⟨rfl, [], (List.append_nil _).symm⟩
  | tick d => exact ⟨rfl, [], (List.append_nil _).symm⟩
  | maintain f => cases q
  | checkConns => cases q
  | mon n m => cases q
  | connectNew n ha k => cases q
  | haChanged n ha => cases q
  | keysChanged n k => cases q
  | demote n => cases q
  | restart => cases q

/-- A message from a known node is handed on when it is its turn. -/
theorem served (s : State) (i : Nat) (d : Nat) (k : Key) (n : Name) (hi : s.rx[i]? = some (.data d, k))
    (hk : s.byKeys.get? k = some n) (es : List Ev) (hq : ∀ e ∈ es, e.quiet = true) (hc : i < es.count .process) :
    (n, d, k) ∈ (s.run cfg es).handed := by
  induction es generalizing s i with
  | nil => cases hc
  | cons e es ih =>
    show (n, d, k) ∈ ((s.step cfg e).run cfg es).handed
    have hq' := fun x hx => hq x (List.mem_cons_of_mem _ hx)
    by_cases he : e = .process
    · subst he
      rw [List.count_cons_self] at hc
      cases i with
      | zero =>
        refine handed_mono_run _ _ ?_
        show (n, d, k) ∈ (s.process cfg).handed
        cases processed (cfg := cfg) s with
        | idle h ht => rw [h] at hi; cases hi
        | known m k' rest n' h hk' c hrx hst hm hn hp ho =>
          rw [h] at hi
          simp only [List.getElem?_cons_zero, Option.some.injEq, Prod.mk.injEq] at hi
          obtain ⟨rfl, rfl⟩ := hi
          rw [hk] at hk'; cases hk'
          rw [ho]; simp
        | unknown m k' rest h hk' c hrx hm hn hp hst ho =>
          rw [h] at hi
          simp only [List.getElem?_cons_zero, Option.some.injEq, Prod.mk.injEq] at hi
          obtain ⟨rfl, rfl⟩ := hi
          rw [hk] at hk'; cases hk'
      | succ i =>
        refine ih (s.process cfg) i ?_ (by rw [process_byKeys]; exact hk) hq' (by omega)
        rw [process_rx]
        cases hr : s.rx with
        | nil => rw [hr] at hi; cases hi
        | cons x l => rw [hr] at hi; exact hi
    · obtain ⟨h1, l, h2⟩ := quiet_other (cfg := cfg) s e (hq e List.mem_cons_self) he
      rw [List.count_cons_of_ne he] at hc
      refine ih _ i ?_ (by rw [h1]; exact hk) hq' hc
      rw [h2, List.getElem?_append_left]
      · exact hi
      · exact (List.getElem?_eq_some_iff.mp hi).1

/-! ## What waits -/

theorem process_mode (s : State) : (s.process cfg).participating = s.participating := by
  cases processed (cfg := cfg) s with
  | idle h ht => rw [ht]
  | known m k rest n h hk c hrx hst hm hn hp ho => exact hm
  | unknown m k rest h hk c hrx hm hn hp hst ho => exact hm

/-- At most `j` messages came after `x` into the stash. -/
def Recent (x : Msg × Key) (j : Nat) (l : List (Msg × Key)) : Prop :=
  ∃ a b, l = a ++ x :: b ∧ b.length ≤ j

theorem recent_push {x : Msg × Key} {j m : Nat} {l : List (Msg × Key)} (h : Recent x j l) (hj : j + 1 < m) (y : Msg × Key) :
    Recent x (j + 1) (push m l y) := by
  obtain ⟨a, b, h1, h2⟩ := h
  refine ⟨a.drop (l.length + 1 - m), b ++ [y], ?_, by simp; omega⟩
  unfold push
  have : l.length = a.length + b.length + 1 := by rw [h1]; simp; omega
  rw [h1, List.append_assoc, List.drop_append_of_le_length]
  · simp
  · rw [← h1]; omega

/-- A message that waits still waits after fewer others than there is room for. -/
theorem waits (s : State) (x : Msg × Key) (j : Nat) (es : List Ev) (hx : Recent x j s.stash)
    (hu : Ev.unknown ∉ es) (hr : Ev.restart ∉ es) (hn : j + strange cfg s es < cfg.stashMax) :
    Recent x (j + strange cfg s es) (s.run cfg es).stash := by
  induction es generalizing s j with
  | nil => exact hx
  | cons e es ih =>
    have hu' : Ev.unknown ∉ es := fun h => hu (List.mem_cons_of_mem _ h)
    have hr' : Ev.restart ∉ es := fun h => hr (List.mem_cons_of_mem _ h)
    show Recent x _ ((s.step cfg e).run cfg es).stash
    have key : Recent x (j + s.odd e) (s.step cfg e).stash := by
      cases flow (cfg := cfg) s e with
      | same h hrx hst ho =>
        rw [hst]
        obtain ⟨a, b, h1, h2⟩ := hx
        exact ⟨a, b, h1, by omega⟩
      | come m k h hrx hst ho =>
        rw [hst]
        obtain ⟨a, b, h1, h2⟩ := hx
        exact ⟨a, b, h1, by omega⟩
      | proc he ht =>
        rw [ht]
        subst he
        cases processed (cfg := cfg) s with
        | idle h ht => rw [ht]; obtain ⟨a, b, h1, h2⟩ := hx; exact ⟨a, b, h1, by omega⟩
        | known m k rest n h hk c hrx hst hm hn hp ho =>
          rw [hst]; obtain ⟨a, b, h1, h2⟩ := hx; exact ⟨a, b, h1, by omega⟩
        | unknown m k rest h hk c hrx hm hn' hp hst ho =>
          rw [hst]
          have hb : s.byKeys.has k = false := (Dict.has_false_iff _ _).mpr hk
          cases m with
          | ping => dsimp only; obtain ⟨a, b, h1, h2⟩ := hx; exact ⟨a, b, h1, by omega⟩
          | pong => dsimp only; obtain ⟨a, b, h1, h2⟩ := hx; exact ⟨a, b, h1, by omega⟩
          | data d =>
            have ho : s.odd .process = 1 := by
              show (match s.rx with | (.data _, k) :: _ => if s.byKeys.has k then 0 else 1 | _ => 0) = 1
              rw [h]
              show (if s.byKeys.has k = true then 0 else 1) = 1
              rw [hb]; rfl
            rw [ho]
            dsimp only
            split
            · obtain ⟨a, b, h1, h2⟩ := hx; exact ⟨a, b, h1, by omega⟩
            · refine recent_push hx ?_ _
              simp only [strange, ho] at hn
              omega
      | back he hrx hst ho => exact (hu (by rw [he]; exact List.mem_cons_self)).elim
      | gone he hrx hst ho => exact (hr (by rw [he]; exact List.mem_cons_self)).elim
    have := ih (s.step cfg e) _ key hu' hr' (by simp only [strange] at hn; omega)
    simp only [strange]
    rw [← Nat.add_assoc]
    exact this

theorem recent_mem {x : Msg × Key} {j : Nat} {l : List (Msg × Key)} (h : Recent x j l) : x ∈ l := by
  obtain ⟨a, b, h1, _⟩ := h
  rw [h1]; simp

/-- A message nobody known sent, in a node that does not take part. -/
theorem stashed (s : State) (d : Nat) (k : Key) (hh : s.rx.head? = some (.data d, k)) (hk : s.byKeys.get? k = none)
    (hp : s.participating = false) (hm : 0 < cfg.stashMax) : Recent (.data d, k) 0 (s.step cfg .process).stash := by
  show Recent _ _ (s.process cfg).stash
  cases processed (cfg := cfg) s with
  | idle h ht => rw [h] at hh; cases hh
  | known m k' rest n' h hk' c hrx hst hm hn hp ho =>
    rw [h] at hh; cases hh
    rw [hk] at hk'; cases hk'
  | unknown m k' rest h hk' c hrx hm' hn hp' hst ho =>
    rw [h] at hh; cases hh
    rw [hst]
    dsimp only
    rw [hp]
    refine ⟨s.stash.drop (s.stash.length + 1 - cfg.stashMax), [], ?_, Nat.le_refl _⟩
    simp only [push]
    rw [if_neg (by simp), List.drop_append_of_le_length (by omega)]

end Verif.Stack
