import Verif.Proofs.Stack
/-!
# Who is who: the remotes, the keys and the registry
-/
namespace Verif.Stack

variable {cfg : Cfg}

/-! ## What an event does to the registry, the keys and the remotes -/

/-- A node is out of the remotes. -/
theorem get?_removeRemote (s : State) (n m : Name) :
    (s.removeRemote n).remotes.get? m = if n = m then none else s.remotes.get? m := by
  unfold State.removeRemote
  split
  · rename_i h
    split
    · rename_i e; rw [← e]; exact h
    · rfl
  · exact Dict.get?_erase (κ := Name) _ _ _

theorem removeRemote_registry (s : State) (n : Name) : (s.removeRemote n).registry = s.registry := by
  unfold State.removeRemote; split <;> rfl

theorem removeRemote_disk (s : State) (n : Name) : (s.removeRemote n).disk = s.disk := by
  unfold State.removeRemote; split <;> rfl

/-- The invariants: a predicate that changes keep, and what it takes that all events keep it. -/
structure Stable (cfg : Cfg) (P : Core → Prop) (ok : State → Ev → Prop) : Prop where
  change : ∀ a c d, Change cfg a c d → P c → P d
  new : ∀ s n ha k, ok s (.connectNew n ha k) → n ≠ cfg.name → P (core s) →
    P (core { s with disk := s.disk.set n k, nyms := s.nyms.set n k, registry := s.registry.set n ha })
  self : ∀ s ha, P (core s) → P (core { s with registry := s.registry.set cfg.name ha })
  addr : ∀ s n ha, n ≠ cfg.name → s.remotes.get? n = none → s.registry.has n = true → P (core s) →
    P (core { s with registry := s.registry.set n ha })
  key : ∀ s n k, ok s (.keysChanged n k) → n ≠ cfg.name → s.remotes.get? n = none → P (core s) →
    P (core { s with disk := s.disk.set n k })
  out : ∀ s n, (n ≠ cfg.name → s.remotes.get? n = none) → P (core s) →
    P (core { s with registry := s.registry.erase n })
  restart : ∀ s, ok s .restart → P (core s) → P ⟨s.registry, s.nyms, s.nyms, [], []⟩

theorem Stable.kept {P : Core → Prop} {ok : State → Ev → Prop} (st : Stable cfg P ok) {a : Name → Prop} {b : Bool} {s t : State}
    (h : Kept cfg a b s t) (p : P (core s)) : P (core t) := st.change a _ _ h.core p

/-- Taking a remote out and then a node out of the registry is the same in both orders. -/
theorem demote_core (s : State) (n : Name) : core (s.demote cfg n) =
    core (if n = cfg.name then { s with registry := s.registry.erase n }
      else { s.removeRemote n with registry := s.registry.erase n }) := by
  unfold State.demote
  dsimp only
  split
  · rfl
  · unfold State.removeRemote
    dsimp only
    split <;> rfl

theorem Stable.step {P : Core → Prop} {ok : State → Ev → Prop} (st : Stable cfg P ok) (s : State) (e : Ev) (o : ok s e)
    (ok' : ∀ s n k, ok s (.keysChanged n k) → ok (s.removeRemote n) (.keysChanged n k))
    (p : P (core s)) : P (core (s.step cfg e)) := by
  cases e with
  | recv c k m => exact p
  | recvRemote k m =>
    show P (core (s.recvRemote k m))
    unfold State.recvRemote
    split
    · exact p
    · split <;> exact p
  | process =>
    show P (core (s.process cfg))
    cases processed (cfg := cfg) s with
    | idle h ht => rw [ht]; exact p
    | known m k rest n h hk c hrx hst hm hn hp ho => exact st.change _ _ _ c p
    | unknown m k rest h hk c hrx hm hn hp hst ho => rw [c]; exact p
  | unknown => exact p
  | setMode b => exact p
  | maintain f => exact st.kept (kept_maintain (a := nobody) (b := true) s f) p
  | checkConns => exact st.kept (kept_checkConns (a := nobody) s) p
  | mon n m => exact st.kept (kept_mon (a := nobody) (b := true) s n m) p
  | tick d => exact p
  | connectNew n ha k =>
    show P (core (s.connectNew cfg n ha k))
    unfold State.connectNew
    split
    · rename_i e; rw [e]; exact st.self s ha p
    · rename_i e
      exact st.kept (kept_maintain (a := nobody) (b := true) _ _) (st.new s n ha k o e p)
  | haChanged n ha =>
    show P (core (s.haChanged cfg n ha))
    unfold State.haChanged
    split
    · exact p
    · rename_i hr
      split
      · rename_i e; rw [e]; exact st.self s ha p
      · rename_i e
        refine st.kept (kept_maintain (a := nobody) (b := true) _ _) ?_
        refine st.addr (s.removeRemote n) n ha e (by rw [get?_removeRemote]; exact if_pos rfl) ?_
          (st.kept (kept_removeRemote (a := nobody) (b := true) s n) p)
        rw [removeRemote_registry]
        simpa using hr
  | keysChanged n k =>
    show P (core (s.keysChanged cfg n k))
    unfold State.keysChanged
    split
    · exact p
    · rename_i h
      refine st.kept (kept_maintain (a := nobody) (b := true) _ _) ?_
      refine st.key (s.removeRemote n) n k (ok' s n k o) (fun e => h (by simp [e])) (by rw [get?_removeRemote]; exact if_pos rfl)
        (st.kept (kept_removeRemote (a := nobody) (b := true) s n) p)
  | demote n =>
    show P (core (s.demote cfg n))
    rw [demote_core]
    split
    · rename_i e; exact st.out s n (fun h => (h e).elim) p
    · have := st.out (s.removeRemote n) n (fun _ => by rw [get?_removeRemote]; exact if_pos rfl)
        (st.kept (kept_removeRemote (a := nobody) (b := true) s n) p)
      rw [removeRemote_registry] at this
      exact this
  | restart => exact st.restart s o p

theorem Stable.run {P : Core → Prop} {ok : State → Ev → Prop} (st : Stable cfg P ok)
    (ok' : ∀ s n k, ok s (.keysChanged n k) → ok (s.removeRemote n) (.keysChanged n k)) {s : State} (es : List Ev)
    (o : Along cfg ok s es) (p : P (core s)) : P (core (s.run cfg es)) := by
  induction es using snoc_induction with
  | nil => exact p
  | snoc es e ih =>
    rw [run_snoc]
    refine st.step _ _ (o es e [] rfl) ok' (ih (fun a e' b h => o a e' (b ++ [e]) (by rw [h]; simp)))

/-! ## Invariants -/

/-- Each name once. -/
def Once (c : Core) : Prop := c.remotes.keys.Nodup

theorem keys_map_look (d : Dict Name Remote) : Dict.keys (d.map (fun e => (e.1, e.2.look.1))) = d.keys := by
  unfold Dict.keys
  rw [List.map_map]
  rfl

theorem get?_map_look (d : Dict Name Remote) (n : Name) :
    Dict.get? (d.map (fun e => (e.1, e.2.look.1))) n = (d.get? n).map (fun r => r.look.1) := by
  induction d with
  | nil => rfl
  | cons e d ih =>
    rw [List.map_cons, Dict.get?_cons, Dict.get?_cons]
    dsimp only
    split
    · rfl
    · exact ih

theorem once_stable : Stable cfg Once (fun _ _ => True) where
  change := by
    intro a c d h
    induction h with
    | refl => exact id
    | upd n r r' h hh hk hs hl g ih => exact fun p => Dict.nodup_keys_set (ih p) _ _
    | add n ha k h hn hr hd g ih => exact fun p => Dict.nodup_keys_set (ih p) _ _
    | look g ih => exact fun p => (by show (Dict.keys (List.map _ _)).Nodup; rw [keys_map_look]; exact ih p)
    | rem n r h g ih => exact fun p => Dict.nodup_keys_erase (ih p) _
  new := fun _ _ _ _ _ _ p => p
  self := fun _ _ p => p
  addr := fun _ _ _ _ _ _ p => p
  key := fun _ _ _ _ _ _ p => p
  out := fun _ _ _ p => p
  restart := fun _ _ _ => List.nodup_nil

/-- A key belongs to a remote that has it. -/
def Keyed (c : Core) : Prop := ∀ k n, c.byKeys.get? k = some n → ∃ r, c.remotes.get? n = some r ∧ r.key = k

theorem keyed_stable : Stable cfg Keyed (fun _ _ => True) where
  change := by
    intro a c d h
    induction h with
    | refl => exact id
    | upd n r r' h hh hk hs hl g ih =>
      intro p k m hm
      obtain ⟨q, h1, h2⟩ := ih p k m hm
      by_cases e : m = n
      · subst e
        rw [h] at h1; cases h1
        exact ⟨r', by rw [Dict.get?_set]; exact if_pos rfl, hk.trans h2⟩
      · exact ⟨q, by show Dict.get? (Dict.set _ _ _) _ = _; rw [Dict.get?_set, if_neg (fun x => e x.symm)]; exact h1, h2⟩
    | @add d n ha k h hn hr hd g ih =>
      intro p j m hm
      replace hm : Dict.get? (Dict.set d.byKeys k n) j = some m := hm
      rw [Dict.get?_set] at hm
      show ∃ r, Dict.get? (Dict.set d.remotes _ _) m = some r ∧ _
      split at hm
      · rename_i e; cases hm
        exact ⟨_, by rw [Dict.get?_set]; exact if_pos rfl, e⟩
      · obtain ⟨q, h1, h2⟩ := ih p j m hm
        have e : m ≠ n := fun e => by rw [e, h] at h1; cases h1
        exact ⟨q, by rw [Dict.get?_set, if_neg (Ne.symm e)]; exact h1, h2⟩
    | look g ih =>
      intro p k m hm
      obtain ⟨q, h1, h2⟩ := ih p k m hm
      exact ⟨q.look.1, by show Dict.get? (List.map _ _) _ = _; rw [get?_map_look, h1]; rfl, by rw [look_key]; exact h2⟩
    | @rem d n r h g ih =>
      intro p k m hm
      replace hm : Dict.get? (Dict.erase d.byKeys r.key) k = some m := hm
      rw [Dict.get?_erase] at hm
      split at hm
      · cases hm
      · rename_i e
        obtain ⟨q, h1, h2⟩ := ih p k m hm
        refine ⟨q, ?_, h2⟩
        show Dict.get? (Dict.erase d.remotes _) m = some q
        rw [Dict.get?_erase, if_neg]
        · exact h1
        · intro x
          rw [← x, h] at h1
          cases h1
          exact e h2
  new := fun _ _ _ _ _ _ p => p
  self := fun _ _ p => p
  addr := fun _ _ _ _ _ _ p => p
  key := fun _ _ _ _ _ _ p => p
  out := fun _ _ _ p => p
  restart := fun _ _ _ _ _ h => (nomatch h)

/-- Remotes are nodes of the registry other than this one, with a socket. -/
def InPool (cfg : Cfg) (c : Core) : Prop :=
  ∀ n r, c.remotes.get? n = some r → n ≠ cfg.name ∧ c.registry.has n = true ∧ r.socket = true

theorem inPool_stable : Stable cfg (InPool cfg) (fun _ _ => True) where
  change := by
    intro a c d h
    induction h with
    | refl => exact id
    | @upd d n r r' h hh hk hs hl g ih =>
      intro p m q hm
      replace hm : Dict.get? (Dict.set d.remotes n r') m = some q := hm
      rw [Dict.get?_set] at hm
      split at hm
      · rename_i e; cases hm; replace e := e.symm; subst e
        have := ih p m r h
        exact ⟨this.1, this.2.1, hs this.2.2⟩
      · exact ih p m q hm
    | @add d n ha k h hn hr hd g ih =>
      intro p m q hm
      replace hm : Dict.get? (Dict.set d.remotes n { ha := ha, key := k, socket := true }) m = some q := hm
      rw [Dict.get?_set] at hm
      split at hm
      · rename_i e; cases hm; replace e := e.symm; subst e
        exact ⟨hn, (Dict.has_iff _ _).mpr ⟨ha, hr⟩, rfl⟩
      · exact ih p m q hm
    | @look d g ih =>
      intro p m q hm
      replace hm : Dict.get? (List.map _ d.remotes) m = some q := hm
      rw [get?_map_look] at hm
      cases hr : d.remotes.get? m with
      | none => rw [hr] at hm; cases hm
      | some r =>
        rw [hr] at hm; cases hm
        have := ih p m r hr
        exact ⟨this.1, this.2.1, by rw [look_socket]; exact this.2.2⟩
    | @rem d n r h g ih =>
      intro p m q hm
      replace hm : Dict.get? (Dict.erase d.remotes n) m = some q := hm
      rw [Dict.get?_erase] at hm
      split at hm
      · cases hm
      · exact ih p m q hm
  new := by
    intro s n ha k _ _ p m q hm
    refine ⟨(p m q hm).1, ?_, (p m q hm).2.2⟩
    show (s.registry.set n ha).has m = true
    rw [Dict.has_iff]
    rw [Dict.get?_set]
    split
    · exact ⟨_, rfl⟩
    · exact (Dict.has_iff _ _).mp (p m q hm).2.1
  self := by
    intro s ha p m q hm
    refine ⟨(p m q hm).1, ?_, (p m q hm).2.2⟩
    show (s.registry.set cfg.name ha).has m = true
    rw [Dict.has_iff]
    rw [Dict.get?_set]
    split
    · exact ⟨_, rfl⟩
    · exact (Dict.has_iff _ _).mp (p m q hm).2.1
  addr := by
    intro s n ha _ _ _ p m q hm
    refine ⟨(p m q hm).1, ?_, (p m q hm).2.2⟩
    show (s.registry.set n ha).has m = true
    rw [Dict.has_iff]
    rw [Dict.get?_set]
    split
    · exact ⟨_, rfl⟩
    · exact (Dict.has_iff _ _).mp (p m q hm).2.1
  key := fun _ _ _ _ _ _ p => p
  out := by
    intro s n h p m q hm
    refine ⟨(p m q hm).1, ?_, (p m q hm).2.2⟩
    show (s.registry.erase n).has m = true
    rw [Dict.has_iff]
    rw [Dict.get?_erase, if_neg]
    · exact (Dict.has_iff _ _).mp (p m q hm).2.1
    · intro e
      have hn := (p m q hm).1
      rw [← e] at hn
      have := h hn
      have hm' : s.remotes.get? m = some q := hm
      rw [← e, this] at hm'
      cases hm'
  restart := fun _ _ _ _ _ h => (nomatch h)

/-- A remote has the key that is on the disk and the address of the registry. -/
def Current (c : Core) : Prop :=
  ∀ n r, c.remotes.get? n = some r → c.disk.get? n = some r.key ∧ c.registry.get? n = some r.ha

/-- No node that has a remote is put into the pool again. -/
def Fresh (s : State) (e : Ev) : Prop := s.again e = false

theorem current_stable : Stable cfg (fun c => InPool cfg c ∧ Current c) Fresh where
  change := by
    intro a c d h p
    refine ⟨inPool_stable.change a c d h p.1, ?_⟩
    replace p := p.2
    revert p
    induction h with
    | refl => exact id
    | @upd d n r r' h hh hk hs hl g ih =>
      intro p m q hm
      replace hm : Dict.get? (Dict.set d.remotes n r') m = some q := hm
      rw [Dict.get?_set] at hm
      split at hm
      · rename_i e; cases hm; replace e := e.symm; subst e
        have := ih p m r h
        rw [hh, hk]; exact this
      · exact ih p m q hm
    | @add d n ha k h hn hr hd g ih =>
      intro p m q hm
      replace hm : Dict.get? (Dict.set d.remotes n { ha := ha, key := k, socket := true }) m = some q := hm
      rw [Dict.get?_set] at hm
      split at hm
      · rename_i e; cases hm; replace e := e.symm; subst e
        exact ⟨hd, hr⟩
      · exact ih p m q hm
    | @look d g ih =>
      intro p m q hm
      replace hm : Dict.get? (List.map _ d.remotes) m = some q := hm
      rw [get?_map_look] at hm
      cases hr : d.remotes.get? m with
      | none => rw [hr] at hm; cases hm
      | some r =>
        rw [hr] at hm; cases hm
        have := ih p m r hr
        rw [look_key, look_ha]; exact this
    | @rem d n r h g ih =>
      intro p m q hm
      replace hm : Dict.get? (Dict.erase d.remotes n) m = some q := hm
      rw [Dict.get?_erase] at hm
      split at hm
      · cases hm
      · exact ih p m q hm
  new := by
    intro s n ha k o hn p
    refine ⟨inPool_stable.new s n ha k trivial hn p.1, ?_⟩
    intro m q hm
    have e : m ≠ n := by
      intro e; subst e
      have : s.remotes.get? m = none := (Dict.has_false_iff _ _).mp o
      have hm' : s.remotes.get? m = some q := hm
      rw [this] at hm'; cases hm'
    show (s.disk.set n k).get? m = _ ∧ (s.registry.set n ha).get? m = _
    rw [Dict.get?_set, Dict.get?_set, if_neg (Ne.symm e), if_neg (Ne.symm e)]
    exact p.2 m q hm
  self := by
    intro s ha p
    refine ⟨inPool_stable.self s ha p.1, ?_⟩
    intro m q hm
    refine ⟨(p.2 m q hm).1, ?_⟩
    show (s.registry.set _ ha).get? m = _
    rw [Dict.get?_set, if_neg (Ne.symm (p.1 m q hm).1)]
    exact (p.2 m q hm).2
  addr := by
    intro s n ha hn hr hh p
    refine ⟨inPool_stable.addr s n ha hn hr hh p.1, ?_⟩
    intro m q hm
    refine ⟨(p.2 m q hm).1, ?_⟩
    have e : m ≠ n := by
      intro e; subst e
      have hm' : s.remotes.get? m = some q := hm
      rw [hr] at hm'; cases hm'
    show (s.registry.set _ ha).get? m = _
    rw [Dict.get?_set, if_neg (Ne.symm e)]
    exact (p.2 m q hm).2
  key := by
    intro s n k _ hn hr p
    refine ⟨p.1, ?_⟩
    intro m q hm
    refine ⟨?_, (p.2 m q hm).2⟩
    have e : m ≠ n := by
      intro e; subst e
      have hm' : s.remotes.get? m = some q := hm
      rw [hr] at hm'; cases hm'
    show (s.disk.set _ k).get? m = _
    rw [Dict.get?_set, if_neg (Ne.symm e)]
    exact (p.2 m q hm).1
  out := by
    intro s n h p
    refine ⟨inPool_stable.out s n h p.1, ?_⟩
    intro m q hm
    refine ⟨(p.2 m q hm).1, ?_⟩
    show (s.registry.erase n).get? m = _
    rw [Dict.get?_erase, if_neg]
    · exact (p.2 m q hm).2
    · intro e
      have hn := (p.1 m q hm).1
      rw [← e] at hn
      have := h hn
      have hm' : s.remotes.get? m = some q := hm
      rw [← e, this] at hm'
      cases hm'
  restart := fun _ _ _ => ⟨fun _ _ h => (nomatch h), fun _ _ h => (nomatch h)⟩

/-- The keys are such as `G` allows. -/
def Allowed (G : Name → Key → Prop) (c : Core) : Prop :=
  ((∀ n k, c.disk.get? n = some k → G n k) ∧ ∀ n k, c.nyms.get? n = some k → G n k) ∧ ∀ n r, c.remotes.get? n = some r → G n r.key

theorem allowed_stable (G : Name → Key → Prop) : Stable cfg (Allowed G) (fun _ e => ∀ n k, e.gives n k → G n k) where
  change := by
    intro a c d h
    induction h with
    | refl => exact id
    | @upd d n r r' h hh hk hs hl g ih =>
      intro p
      refine ⟨(ih p).1, ?_⟩
      intro m q hm
      replace hm : Dict.get? (Dict.set d.remotes n r') m = some q := hm
      rw [Dict.get?_set] at hm
      split at hm
      · rename_i e; cases hm; replace e := e.symm; subst e
        rw [hk]; exact (ih p).2 m r h
      · exact (ih p).2 m q hm
    | @add d n ha k h hn hr hd g ih =>
      intro p
      refine ⟨(ih p).1, ?_⟩
      intro m q hm
      replace hm : Dict.get? (Dict.set d.remotes n { ha := ha, key := k, socket := true }) m = some q := hm
      rw [Dict.get?_set] at hm
      split at hm
      · rename_i e; cases hm; replace e := e.symm; subst e
        exact (ih p).1.1 m k hd
      · exact (ih p).2 m q hm
    | @look d g ih =>
      intro p
      refine ⟨(ih p).1, ?_⟩
      intro m q hm
      replace hm : Dict.get? (List.map _ d.remotes) m = some q := hm
      rw [get?_map_look] at hm
      cases hr : d.remotes.get? m with
      | none => rw [hr] at hm; cases hm
      | some r =>
        rw [hr] at hm; cases hm
        rw [look_key]; exact (ih p).2 m r hr
    | @rem d n r h g ih =>
      intro p
      refine ⟨(ih p).1, ?_⟩
      intro m q hm
      replace hm : Dict.get? (Dict.erase d.remotes n) m = some q := hm
      rw [Dict.get?_erase] at hm
      split at hm
      · cases hm
      · exact (ih p).2 m q hm
  new := by
    intro s n ha k o hn p
    refine ⟨⟨?_, ?_⟩, p.2⟩
    · intro m j hm
      replace hm : (s.disk.set n k).get? m = some j := hm
      rw [Dict.get?_set] at hm
      split at hm
      · rename_i e; cases hm; replace e := e.symm; subst e; exact o m k ⟨rfl, rfl⟩
      · exact p.1.1 m j hm
    · intro m j hm
      replace hm : (s.nyms.set n k).get? m = some j := hm
      rw [Dict.get?_set] at hm
      split at hm
      · rename_i e; cases hm; replace e := e.symm; subst e; exact o m k ⟨rfl, rfl⟩
      · exact p.1.2 m j hm
  self := fun _ _ p => p
  addr := fun _ _ _ _ _ _ p => p
  key := by
    intro s n k o hn _ p
    refine ⟨⟨?_, p.1.2⟩, p.2⟩
    intro m j hm
    replace hm : (s.disk.set n k).get? m = some j := hm
    rw [Dict.get?_set] at hm
    split at hm
    · rename_i e; cases hm; replace e := e.symm; subst e; exact o m k ⟨rfl, rfl⟩
    · exact p.1.1 m j hm
  out := fun _ _ _ p => p
  restart := fun _ _ p => ⟨⟨p.1.2, p.1.2⟩, fun _ _ h => (nomatch h)⟩

/-- Each remote is found by its key. -/
def Found (c : Core) : Prop := ∀ n r, c.remotes.get? n = some r → c.byKeys.get? r.key = some n

/-- With keys of one node each, a remote is found by its key. -/
theorem found_stable (G : Name → Key → Prop) (hG : ∀ n m k, G n k → G m k → n = m) :
    Stable cfg (fun c => Allowed G c ∧ Found c) (fun _ e => ∀ n k, e.gives n k → G n k) where
  change := by
    intro a c d h
    induction h with
    | refl => exact id
    | @upd d n r r' h hh hk hs hl g ih =>
      intro p
      refine ⟨(allowed_stable G).change a c _ (.upd n r r' h hh hk hs hl g) p.1, ?_⟩
      intro m q hm
      replace hm : Dict.get? (Dict.set d.remotes n r') m = some q := hm
      rw [Dict.get?_set] at hm
      split at hm
      · rename_i e; cases hm; replace e := e.symm; subst e
        rw [hk]; exact (ih p).2 m r h
      · exact (ih p).2 m q hm
    | @add d n ha k h hn hr hd g ih =>
      intro p
      refine ⟨(allowed_stable G).change a c _ (.add n ha k h hn hr hd g) p.1, ?_⟩
      intro m q hm
      replace hm : Dict.get? (Dict.set d.remotes n { ha := ha, key := k, socket := true }) m = some q := hm
      rw [Dict.get?_set] at hm
      show (d.byKeys.set k n).get? q.key = some m
      rw [Dict.get?_set]
      split at hm
      · rename_i e; cases hm; replace e := e.symm; subst e
        rw [if_pos rfl]
      · rename_i e
        rw [if_neg]
        · exact (ih p).2 m q hm
        · intro x
          exact e (hG n m q.key (by rw [← x]; exact (ih p).1.1.1 n k hd) ((ih p).1.2 m q hm))
    | @look d g ih =>
      intro p
      refine ⟨(allowed_stable G).change a c _ (.look g) p.1, ?_⟩
      intro m q hm
      replace hm : Dict.get? (List.map _ d.remotes) m = some q := hm
      rw [get?_map_look] at hm
      cases hr : d.remotes.get? m with
      | none => rw [hr] at hm; cases hm
      | some r =>
        rw [hr] at hm; cases hm
        rw [look_key]; exact (ih p).2 m r hr
    | @rem d n r h g ih =>
      intro p
      refine ⟨(allowed_stable G).change a c _ (.rem n r h g) p.1, ?_⟩
      intro m q hm
      replace hm : Dict.get? (Dict.erase d.remotes n) m = some q := hm
      rw [Dict.get?_erase] at hm
      split at hm
      · cases hm
      · rename_i e
        show (d.byKeys.erase r.key).get? q.key = some m
        rw [Dict.get?_erase, if_neg]
        · exact (ih p).2 m q hm
        · intro x
          exact e (hG n m q.key (by rw [← x]; exact (ih p).1.2 n r h) ((ih p).1.2 m q hm))
  new := fun s n ha k o hn p => ⟨(allowed_stable (cfg := cfg) G).new s n ha k o hn p.1, p.2⟩
  self := fun s ha p => ⟨p.1, p.2⟩
  addr := fun s n ha hn hr hh p => ⟨p.1, p.2⟩
  key := fun s n k o hn hr p => ⟨(allowed_stable (cfg := cfg) G).key s n k o hn hr p.1, p.2⟩
  out := fun s n h p => ⟨p.1, p.2⟩
  restart := fun s o p => ⟨(allowed_stable (cfg := cfg) G).restart s o p.1, fun _ _ h => (nomatch h)⟩

/-! ## Along runs -/

theorem start_core {s : State} (h : s.start) : core s = ⟨s.registry, s.disk, s.disk, [], []⟩ := by
  rw [State.start] at h; rw [h]; rfl

theorem run_once {s : State} (h : s.start) (es : List Ev) : Once (core (s.run cfg es)) :=
  once_stable.run (fun _ _ _ _ => trivial) es (fun _ _ _ _ => trivial) (by rw [start_core h]; exact List.nodup_nil)

theorem run_keyed {s : State} (h : s.start) (es : List Ev) : Keyed (core (s.run cfg es)) :=
  keyed_stable.run (fun _ _ _ _ => trivial) es (fun _ _ _ _ => trivial) (by rw [start_core h]; exact fun _ _ h => (nomatch h))

theorem run_inPool {s : State} (h : s.start) (es : List Ev) : InPool cfg (core (s.run cfg es)) :=
  inPool_stable.run (fun _ _ _ _ => trivial) es (fun _ _ _ _ => trivial) (by rw [start_core h]; exact fun _ _ h => (nomatch h))

theorem run_current {s : State} (h : s.start) (es : List Ev) (f : Along cfg Fresh s es) :
    Current (core (s.run cfg es)) :=
  (current_stable.run (fun _ _ _ _ => rfl) es f
    (by rw [start_core h]; exact ⟨fun _ _ h => (nomatch h), fun _ _ h => (nomatch h)⟩)).2

theorem gives_along (s : State) (es : List Ev) :
    Along cfg (fun _ e => ∀ n k, e.gives n k → Given s es n k) s es := by
  intro a e b h n k g
  exact .inr ⟨e, by rw [h]; simp, g⟩

theorem run_given {s : State} (h : s.start) (es : List Ev) : Allowed (Given s es) (core (s.run cfg es)) :=
  (allowed_stable (Given s es)).run (fun _ _ _ o => o) es (gives_along s es)
    (by rw [start_core h]; exact ⟨⟨fun _ _ h => .inl h, fun _ _ h => .inl h⟩, fun _ _ h => (nomatch h)⟩)

theorem run_found {s : State} (h : s.start) (es : List Ev) (u : ∀ n m k, Given s es n k → Given s es m k → n = m) :
    Found (core (s.run cfg es)) :=
  ((found_stable (Given s es) u).run (fun _ _ _ o => o) es (gives_along s es)
    (by rw [start_core h]; exact ⟨⟨⟨fun _ _ h => .inl h, fun _ _ h => .inl h⟩, fun _ _ h => (nomatch h)⟩, fun _ _ h => (nomatch h)⟩)).2

end Verif.Stack
