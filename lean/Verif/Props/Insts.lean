import Verif.Proofs.Insts
/-!
# C100: the protocol instances of a node
-/
namespace Verif.Props
open Verif Verif.Primary Verif.Insts

/-- Replicas that were there are there, with all they were given. -/
def ReplicaKept (s t : State) (i : Nat) : Prop :=
  ∀ r, s.replicas.get? i = some r → ∃ r', t.replicas.get? i = some r' ∧ r'.serial = r.serial ∧ r.inbox <+: r'.inbox

theorem in_kept_refl (s : State) (i : Nat) : ReplicaKept s s i := fun r h => ⟨r, h, rfl, List.prefix_rfl⟩

theorem in_kept_trans {s t u : State} {i : Nat} (h1 : ReplicaKept s t i) (h2 : ReplicaKept t u i) : ReplicaKept s u i := by
  intro r h
  obtain ⟨r', a1, a2, a3⟩ := h1 r h
  obtain ⟨r'', b1, b2, b3⟩ := h2 r' a1
  exact ⟨r'', b1, b2.trans a2, a3.trans b3⟩

theorem in_has {s : State} {i : Nat} {r : Replica} (h : s.replicas.get? i = some r) : s.replicas.has i = true := by
  rw [Dict.has, h]; rfl

theorem in_has_iff {s t : State} {i : Nat} (h : t.replicas.keys = s.replicas.keys) :
    t.replicas.has i = true ↔ s.replicas.has i = true := by
  rw [← mem_keys_has, ← mem_keys_has, h]

/-- Changing one replica that is there, but for its number. -/
theorem in_set_wf {s : State} (hs : Wf s) {i : Nat} {r r' : Replica} (h : s.replicas.get? i = some r)
    (he : r'.serial = r.serial) : Wf { s with replicas := s.replicas.set i r' } := by
  refine ⟨by rw [keys_set_has (in_has h)]; exact hs.nodup, hs.stash, fun j q hq => ?_⟩
  simp only [Dict.get?_set] at hq
  by_cases e : i = j
  · rw [if_pos e] at hq; cases hq; rw [he]; exact hs.serial i r h
  · rw [if_neg e] at hq; exact hs.serial j q hq

theorem in_set_kept {s : State} {i : Nat} {r r' : Replica} (h : s.replicas.get? i = some r)
    (he : r'.serial = r.serial) (hx : r.inbox <+: r'.inbox) (j : Nat) :
    ReplicaKept s { s with replicas := s.replicas.set i r' } j := by
  intro q hq
  simp only [Dict.get?_set]
  by_cases e : i = j
  · subst e; rw [h] at hq; cases hq; exact ⟨r', by rw [if_pos rfl], he, hx⟩
  · exact ⟨q, by rw [if_neg e]; exact hq, rfl, List.prefix_rfl⟩

/-- Changing all replicas, but for their numbers. -/
theorem in_map_wf {s : State} (hs : Wf s) (f : Replica → Replica) (hf : ∀ r, (f r).serial = r.serial) :
    Wf { s with replicas := s.replicas.map (fun e => (e.1, f e.2)) } := by
  refine ⟨by rw [keys_mapv]; exact hs.nodup, hs.stash, fun j q hq => ?_⟩
  rw [get?_mapv] at hq
  obtain ⟨r, hr, rfl⟩ := Option.map_eq_some_iff.1 hq
  rw [hf]; exact hs.serial j r hr

theorem in_map_kept {s : State} (f : Replica → Replica) (hf : ∀ r, (f r).serial = r.serial)
    (hx : ∀ r, r.inbox <+: (f r).inbox) (j : Nat) :
    ReplicaKept s { s with replicas := s.replicas.map (fun e => (e.1, f e.2)) } j := by
  intro q hq
  exact ⟨f q, by rw [get?_mapv, hq]; rfl, hf q, hx q⟩

/-- What an event that sends no replica away does. -/
structure Mild (s t : State) : Prop where
  wf : Wf t
  keys : t.replicas.keys = s.replicas.keys
  kept : ∀ j, ReplicaKept s t j
  required : t.required = s.required
  crashed : t.crashed = s.crashed

theorem in_send {s : State} (hs : Wf s) (h0 : s.replicas.has 0 = true) (m : Msg) (given : Option Nat)
    (hp : Proper (.msg m given)) : Mild s (sendToReplica s m given) := by
  unfold sendToReplica
  cases ht : target m given with
  | none =>
    exact ⟨in_map_wf hs (fun r => { r with inbox := r.inbox ++ [m] }) (fun _ => rfl), keys_mapv _ (fun r => { r with inbox := r.inbox ++ [m] }),
      in_map_kept (fun r => { r with inbox := r.inbox ++ [m] }) (fun _ => rfl) (fun r => List.prefix_append _ _), rfl, rfl⟩
  | some i =>
    dsimp only
    by_cases hi : s.replicas.has i = true
    · rw [if_pos hi]
      obtain ⟨r, hr⟩ := (Dict.has_iff _ _).1 hi
      simp only [passMessage, hr]
      exact ⟨in_set_wf hs hr rfl, keys_set_has hi _, in_set_kept hr rfl (List.prefix_append _ _), rfl, rfl⟩
    · rw [if_neg hi]
      unfold stashIfNeeded
      by_cases hr : s.required ≤ i
      · rw [if_pos hr]
        refine ⟨⟨hs.nodup, ?_, hs.serial⟩, rfl, fun j => in_kept_refl _ j, rfl, rfl⟩
        intro k l hl x hx
        simp only [Dict.get?_set] at hl
        by_cases e : i = k
        · subst e
          rw [if_pos rfl] at hl
          cases hl
          rcases List.mem_append.1 hx with hx | hx
          · cases hg : s.stash.get? i with
            | none => rw [hg] at hx; cases hx
            | some l => rw [hg] at hx; exact hs.stash i l hg x hx
          · cases List.mem_singleton.1 hx
            cases hk : m.kind with
            | other => exact .inl rfl
            | instanceChange =>
              simp only [target, hk, if_true, Option.some.injEq] at ht
              rw [← ht] at hi; exact absurd h0 hi
            | threePhase =>
              refine .inr ⟨rfl, ?_⟩
              have : given = none := hp (by rw [hk]; decide)
              subst this
              simpa [target, hk] using ht
        · rw [if_neg e] at hl; exact hs.stash k l hl x hx
      · rw [if_neg hr]; exact ⟨hs, rfl, fun j => in_kept_refl _ j, rfl, rfl⟩

theorem in_gp_mild {s : State} (hs : Wf s) (ps : List Node) (i : Nat) :
    let t := givePrimary ps s i
    Wf t ∧ t.replicas.keys = s.replicas.keys ∧ (∀ j, ReplicaKept s t j) ∧ t.required = s.required := by
  intro t
  have hself : t = s → Wf t ∧ t.replicas.keys = s.replicas.keys ∧ (∀ j, ReplicaKept s t j) ∧ t.required = s.required := by
    intro e; rw [e]; exact ⟨hs, rfl, in_kept_refl s, rfl⟩
  have hid : ∀ b, t = { s with crashed := b } → Wf t ∧ t.replicas.keys = s.replicas.keys ∧ (∀ j, ReplicaKept s t j) ∧
      t.required = s.required := by
    intro b e; rw [e]; exact ⟨⟨hs.nodup, hs.stash, hs.serial⟩, rfl, fun j r h => ⟨r, h, rfl, List.prefix_rfl⟩, rfl⟩
  by_cases hc : s.crashed = true
  · exact hself (by simp [t, givePrimary, hc])
  cases hr : s.replicas.get? i with
  | none => exact hself (by simp [t, givePrimary, hc, hr])
  | some r =>
    cases hp : r.primary with
    | some p => exact hself (by simp [t, givePrimary, hc, hr, hp])
    | none =>
      cases hx : ps[i]? with
      | none => exact hid true (by simp [t, givePrimary, hc, hr, hp, hx])
      | some p =>
        have e : t = { s with replicas := s.replicas.set i { r with primary := some p } } := by
          simp [t, givePrimary, hc, hr, hp, hx]
        rw [e]
        exact ⟨in_set_wf hs hr rfl, keys_set_has (in_has hr) _, in_set_kept hr rfl List.prefix_rfl, rfl⟩

theorem in_gps_mild (ps : List Node) (l : List Nat) {s : State} (hs : Wf s) :
    let t := l.foldl (givePrimary ps) s
    Wf t ∧ t.replicas.keys = s.replicas.keys ∧ (∀ j, ReplicaKept s t j) ∧ t.required = s.required := by
  induction l generalizing s with
  | nil => exact ⟨hs, rfl, in_kept_refl s, rfl⟩
  | cons i l ih =>
    obtain ⟨a1, a2, a3, a4⟩ := in_gp_mild hs ps i
    obtain ⟨b1, b2, b3, b4⟩ := ih a1
    exact ⟨b1, b2.trans a2, fun j => in_kept_trans (a3 j) (b3 j), b4.trans a4⟩

theorem in_adjusted {s : State} (hs : Wf s) (active : List Node) :
    Wf (adjusted s active) ∧ (adjusted s active).required = wanted active.length ∧
    s.nextSerial ≤ (adjusted s active).nextSerial ∧ (adjusted s active).now = s.now ∧
    (adjusted s active).crashed = s.crashed ∧
    (∀ j, (adjusted s active).replicas.get? j =
      if s.replicas.length ≤ j ∧ j < wanted active.length
      then some (fresh (s.nextSerial + (j - s.replicas.length)) s.now (s.stash.get? j))
      else if wanted active.length ≤ j ∧ j < s.replicas.length then none else s.replicas.get? j) ∧
    ∀ j, (adjusted s active).stash.get? j = if j < wanted active.length then none else s.stash.get? j := by
  have hs' : Wf { s with required := wanted active.length } := ⟨hs.nodup, hs.stash, hs.serial⟩
  exact adjust_spec hs' s.replicas.length (wanted active.length)

theorem in_wanted_pos (n : Nat) : 0 < wanted n := Nat.succ_pos _

/-- The state after new parameters of the pool, whatever happened. -/
theorem in_params {s : State} (hs : Wf s) {reg : Dict Nat (List Node)} {active : List Node} (h : PoolOk reg active)
    (v : Nat) :
    let t := setPoolParams s reg active v
    Wf t ∧ t.replicas.keys = (adjusted s active).replicas.keys ∧ (∀ j, ReplicaKept (adjusted s active) t j) ∧
    t.required = wanted active.length := by
  obtain ⟨ps, hps, _⟩ := select_some h v
  obtain ⟨a1, a2, _⟩ := in_adjusted hs active
  intro t
  have e : t = _ := params_eq h v hps
  by_cases hl : (adjusted s active).replicas.length ≠ ps.length
  · rw [if_pos hl] at e
    rw [e]
    exact ⟨⟨a1.nodup, a1.stash, a1.serial⟩, rfl, fun j r h => ⟨r, h, rfl, List.prefix_rfl⟩, a2⟩
  · rw [if_neg hl] at e
    rw [e]
    obtain ⟨b1, b2, b3, b4⟩ := in_gps_mild ps (sortedIds (adjusted s active).replicas) a1
    exact ⟨b1, b2, b3, b4.trans a2⟩

/-- The master is never put in the place of another or sent away. -/
theorem in_params_master {s : State} (hs : Wf s) (h0 : s.replicas.has 0 = true) {reg : Dict Nat (List Node)}
    {active : List Node} (h : PoolOk reg active) (v : Nat) :
    ReplicaKept s (setPoolParams s reg active v) 0 ∧ (setPoolParams s reg active v).replicas.has 0 = true := by
  obtain ⟨b1, b2, b3, b4⟩ := in_params hs h v
  obtain ⟨r, hr⟩ := (Dict.has_iff _ _).1 h0
  have hlen : 0 < s.replicas.length := by
    cases hd : s.replicas with
    | nil => rw [hd] at hr; cases hr
    | cons _ _ => simp
  have hg : (adjusted s active).replicas.get? 0 = s.replicas.get? 0 := by
    rw [(in_adjusted hs active).2.2.2.2.2.1 0, if_neg (by omega),
      if_neg (by have := in_wanted_pos active.length; omega)]
  refine ⟨fun q hq => b3 0 q (hg.trans hq), ?_⟩
  obtain ⟨r', h', _⟩ := b3 0 r (hg.trans hr)
  exact in_has h'

theorem in_restoreOne {s : State} (hs : Wf s) (i : Nat) :
    let t := restoreOne s i
    Wf t ∧ t.required = s.required ∧ t.crashed = s.crashed ∧ t.now = s.now ∧ t.stash = s.stash ∧
    (∀ j r, s.replicas.get? j = some r → t.replicas.get? j = some r) ∧
    (∀ j, t.replicas.has j = true ↔ s.replicas.has j = true ∨ j = i) ∧
    ∀ j r, s.replicas.has j = false → t.replicas.get? j = some r → r.inbox = [] ∧ r.primary = none := by
  intro t
  by_cases hi : s.replicas.has i = true
  · have e : t = s := by simp [t, restoreOne, hi]
    rw [e]
    refine ⟨hs, rfl, rfl, rfl, rfl, fun _ _ h => h, fun j => ⟨.inl, ?_⟩, ?_⟩
    · rintro (h | rfl) <;> assumption
    · intro j r h1 h2; rw [in_has h2] at h1; cases h1
  · have e : t = addReplica s i := by simp only [t, restoreOne, if_neg hi]
    rw [e]
    have hn : s.replicas.get? i = none := (Dict.has_false_iff _ _).1 (by simpa using hi)
    refine ⟨⟨Dict.nodup_keys_set hs.nodup _ _, hs.stash, ?_⟩, rfl, rfl, rfl, rfl, ?_, ?_, ?_⟩
    · intro j r h
      simp only [addReplica, Dict.get?_set] at h ⊢
      by_cases e : i = j
      · rw [if_pos e] at h; cases h; exact Nat.lt_succ_self _
      · rw [if_neg e] at h; exact Nat.lt_succ_of_lt (hs.serial j r h)
    · intro j r h
      simp only [addReplica, Dict.get?_set]
      rw [if_neg (by rintro rfl; rw [hn] at h; cases h)]; exact h
    · intro j
      rw [addReplica, has_set]
      exact ⟨fun h => h.elim (fun h => .inr h.symm) .inl, fun h => h.elim .inr (fun h => .inl h.symm)⟩
    · intro j r h1 h2
      simp only [addReplica, Dict.get?_set] at h2
      by_cases e : i = j
      · rw [if_pos e] at h2; cases h2; exact ⟨rfl, rfl⟩
      · rw [if_neg e] at h2; rw [in_has h2] at h1; cases h1

theorem in_restores (l : List Nat) {s : State} (hs : Wf s) :
    let t := l.foldl restoreOne s
    Wf t ∧ t.required = s.required ∧ t.crashed = s.crashed ∧ t.now = s.now ∧ t.stash = s.stash ∧
    (∀ j r, s.replicas.get? j = some r → t.replicas.get? j = some r) ∧
    (∀ j, t.replicas.has j = true ↔ s.replicas.has j = true ∨ j ∈ l) ∧
    ∀ j r, s.replicas.has j = false → t.replicas.get? j = some r → r.inbox = [] ∧ r.primary = none := by
  induction l generalizing s with
  | nil =>
    refine ⟨hs, rfl, rfl, rfl, rfl, fun _ _ h => h, fun j => by simp, ?_⟩
    intro j r h1 h2; rw [in_has (s := s) h2] at h1; cases h1
  | cons i l ih =>
    obtain ⟨a1, a2, a3, a4, a5, a6, a7, a8⟩ := in_restoreOne hs i
    obtain ⟨b1, b2, b3, b4, b5, b6, b7, b8⟩ := ih a1
    refine ⟨b1, b2.trans a2, b3.trans a3, b4.trans a4, b5.trans a5, fun j r h => b6 j r (a6 j r h), ?_, ?_⟩
    · intro j
      rw [List.foldl_cons, b7 j, a7 j, List.mem_cons, or_assoc]
    · intro j r h1 h2
      by_cases hj : (restoreOne s i).replicas.has j = true
      · obtain ⟨q, hq⟩ := (Dict.has_iff _ _).1 hj
        have := b6 j q hq
        have e : q = r := Option.some.inj (this.symm.trans h2)
        subst e
        exact a8 j q h1 hq
      · exact b8 j r (by simpa using hj) h2

theorem in_restore {s : State} (hs : Wf s) :
    let t := restoreReplicas s
    Wf t ∧ t.required = s.required ∧ t.crashed = s.crashed ∧ t.now = s.now ∧ t.stash = s.stash ∧
    (∀ j r, s.replicas.get? j = some r → t.replicas.get? j = some r) ∧
    (∀ j, t.replicas.has j = true ↔ s.replicas.has j = true ∨ j < s.required) ∧
    ∀ j r, s.replicas.has j = false → t.replicas.get? j = some r → r.inbox = [] ∧ r.primary = none := by
  obtain ⟨b1, b2, b3, b4, b5, b6, b7, b8⟩ := in_restores (List.range s.required) hs
  refine ⟨b1, b2, b3, b4, b5, b6, fun j => ?_, b8⟩
  rw [restoreReplicas, b7 j, List.mem_range]

theorem in_drop {s : State} (hs : Wf s) : Mild s (dropPrimaries s) :=
  ⟨in_map_wf hs (fun r => { r with primary := none }) (fun _ => rfl), keys_mapv _ (fun r => { r with primary := none }),
    in_map_kept (fun r => { r with primary := none }) (fun _ => rfl) (fun _ => List.prefix_rfl), rfl, rfl⟩

theorem in_newView {s : State} (hs : Wf s) (master : Option Node) : Mild s (newViewPrimaries s master) := by
  have hd := in_drop hs
  unfold newViewPrimaries
  dsimp only
  cases hr : (dropPrimaries s).replicas.get? 0 with
  | none => exact hd
  | some r =>
    dsimp only
    exact ⟨in_set_wf hd.wf hr rfl, (keys_set_has (in_has hr) _).trans hd.keys,
      fun j => in_kept_trans (hd.kept j) (in_set_kept (r' := { r with primary := master }) hr rfl List.prefix_rfl j), hd.required, hd.crashed⟩

/-- One event keeps a state well-formed, and the master. -/
theorem in_step {s : State} (hs : Wf s) (h0 : s.replicas.has 0 = true) (e : Ev) (hp : Proper e) :
    Wf (step s e) ∧ (step s e).replicas.has 0 = true ∧ ReplicaKept s (step s e) 0 := by
  have mild : ∀ t, Mild s t → Wf t ∧ t.replicas.has 0 = true ∧ ReplicaKept s t 0 :=
    fun t h => ⟨h.wf, (in_has_iff h.keys).2 h0, h.kept 0⟩
  have rem : ∀ i, i ≠ 0 → Wf (removeReplica s i) ∧ (removeReplica s i).replicas.has 0 = true ∧
      ReplicaKept s (removeReplica s i) 0 := by
    intro i hi
    have hg : (removeReplica s i).replicas.get? 0 = s.replicas.get? 0 := by
      simp only [removeReplica, Dict.get?_erase, if_neg hi]
    exact ⟨erase_wf hs i, by rw [Dict.has, hg]; exact h0, fun r h => ⟨r, hg.trans h, rfl, List.prefix_rfl⟩⟩
  by_cases hc : s.crashed = true
  · have e : step s e = s := by simp only [step, hc, if_true]
    rw [e]; exact ⟨hs, h0, in_kept_refl s 0⟩
  obtain ⟨a1, a2, a3, a4, a5, a6, a7, a8⟩ := in_restore hs
  have hr0 : (restoreReplicas s).replicas.has 0 = true := (a7 0).2 (.inl h0)
  have hrk : ReplicaKept s (restoreReplicas s) 0 := fun r h => ⟨r, a6 0 r h, rfl, List.prefix_rfl⟩
  cases e with
  | msg m given =>
    have e : step s (.msg m given) = sendToReplica s m given := by simp only [step, if_neg hc]
    rw [e]; exact mild _ (in_send hs h0 m given hp)
  | viewChange reg v =>
    have e : step s (.viewChange reg v) = newViewPrimaries (restoreReplicas s) (selectMaster reg v) := by
      simp only [step, if_neg hc]
    rw [e]
    have := in_newView a1 (selectMaster reg v)
    exact ⟨this.wf, (in_has_iff this.keys).2 hr0, in_kept_trans hrk (this.kept 0)⟩
  | firstBatch reg active v =>
    have e : step s (.firstBatch reg active v) = setPoolParams s reg active v := by simp only [step, if_neg hc]
    rw [e]
    have := in_params_master hs h0 hp v
    exact ⟨(in_params hs hp v).1, this.2, this.1⟩
  | caughtUp reg active v =>
    have e : step s (.caughtUp reg active v) = setPoolParams (dropPrimaries (restoreReplicas s)) reg active v := by
      simp only [step, if_neg hc]
    rw [e]
    have hd := in_drop a1
    have := in_params_master hd.wf ((in_has_iff hd.keys).2 hr0) hp v
    exact ⟨(in_params hd.wf hp v).1, this.2, in_kept_trans (in_kept_trans hrk (hd.kept 0)) this.1⟩
  | removed i =>
    have e : step s (.removed i) = if i = 0 then s else removeReplica s i := by simp only [step, if_neg hc]
    rw [e]
    by_cases hi : i = 0
    · rw [if_pos hi]; exact ⟨hs, h0, in_kept_refl s 0⟩
    · rw [if_neg hi]; exact rem i hi
  | check i =>
    have e : step s (.check i) = if i = 0 then s else removeIfLost s i := by simp only [step, if_neg hc]
    rw [e]
    by_cases hi : i = 0
    · rw [if_pos hi]; exact ⟨hs, h0, in_kept_refl s 0⟩
    · rw [if_neg hi]
      unfold removeIfLost
      split
      · split
        · exact rem i hi
        · exact ⟨hs, h0, in_kept_refl s 0⟩
      · exact ⟨hs, h0, in_kept_refl s 0⟩
  | connection i up =>
    cases hr : s.replicas.get? i with
    | none =>
      have e : step s (.connection i up) = s := by simp only [step, if_neg hc, hr]
      rw [e]; exact ⟨hs, h0, in_kept_refl s 0⟩
    | some r =>
      have e : step s (.connection i up) =
          { s with replicas := s.replicas.set i { r with lost := if up then none else some s.now } } := by
        simp only [step, if_neg hc, hr]
      rw [e]
      exact mild _ ⟨in_set_wf hs hr rfl, keys_set_has (in_has hr) _, in_set_kept hr rfl List.prefix_rfl, rfl, rfl⟩
  | tick n =>
    have e : step s (.tick n) = { s with now := s.now + n } := by simp only [step, if_neg hc]
    rw [e]
    exact mild _ ⟨⟨hs.nodup, hs.stash, hs.serial⟩, rfl, fun j => in_kept_refl _ j, rfl, rfl⟩

theorem in_empty : Wf {} := ⟨List.nodup_nil, (fun _ _ h => nomatch h), (fun _ _ h => nomatch h)⟩

/-- A node that runs the first instances takes new parameters of the pool: it runs those of the new
pool, and each has a primary. -/
theorem in_params_ok {s : State} (hs : Wf s) {k : Nat} (hk : Runs s k) (hc : s.crashed = false)
    {reg : Dict Nat (List Node)} {active : List Node} (h : PoolOk reg active) (v : Nat) {ps : List Node}
    (hps : selectPrimaries reg active v = some ps) :
    let t := setPoolParams s reg active v
    t.crashed = false ∧ t.required = wanted active.length ∧ Runs t (wanted active.length) ∧
    (∀ i, i < k → i < wanted active.length →
      t.replicas.get? i = (s.replicas.get? i).map (fun r => withPrimary r ps[i]?)) ∧
    ∀ i, k ≤ i → i < wanted active.length →
      t.replicas.get? i = some (withPrimary (fresh (s.nextSerial + (i - k)) s.now (s.stash.get? i)) ps[i]?) := by
  have hlen : s.replicas.length = k := hk.length hs.nodup
  obtain ⟨a1, a2, _, _, a5, a6, _⟩ := in_adjusted hs active
  rw [hlen] at a6
  obtain ⟨ps', hps', hpl, _⟩ := select_some h v
  rw [hps] at hps'; cases hps'
  have hruns : Runs (adjusted s active) (wanted active.length) := by
    intro i
    rw [Dict.has_iff, a6 i]
    by_cases h1 : k ≤ i ∧ i < wanted active.length
    · rw [if_pos h1]; exact ⟨fun _ => h1.2, fun _ => ⟨_, rfl⟩⟩
    · rw [if_neg h1]
      by_cases h2 : wanted active.length ≤ i ∧ i < k
      · rw [if_pos h2]; exact ⟨(fun h => nomatch h), fun h => by omega⟩
      · rw [if_neg h2, ← Dict.has_iff, hk i]; omega
  have hl : ¬ (adjusted s active).replicas.length ≠ ps.length := by
    rw [hruns.length a1.nodup, hpl]; simp
  have hmem : ∀ i, i ∈ sortedIds (adjusted s active).replicas ↔ i < wanted active.length := fun i =>
    (mem_sortedIds _ _).trans (hruns i)
  obtain ⟨b1, b2, _, _, _, b6, b7⟩ := gp_fold ps (sortedIds (adjusted s active).replicas)
    (a5.trans hc) (fun i hi _ _ _ => by rw [hpl]; exact (hmem i).1 hi)
  have e := params_eq (s := s) h v hps
  rw [if_neg hl] at e
  intro t
  have e : t = _ := e
  rw [e]
  refine ⟨b1, b2.trans a2, fun i => (in_has_iff b6).trans (hruns i), ?_, ?_⟩
  · intro i h1 h2
    rw [b7 i, a6 i, if_neg (by omega), if_neg (by omega)]
    simp only [(hmem i).2 h2, if_true]
  · intro i h1 h2
    rw [b7 i, a6 i, if_pos ⟨h1, h2⟩]
    simp only [(hmem i).2 h2, if_true, Option.map_some]

/-! ## Histories -/

theorem in_run_cons (s : State) (e : Ev) (evs : List Ev) : run s (e :: evs) = run (step s e) evs := rfl

theorem in_run_one (s : State) (e : Ev) : run s [e] = step s e := rfl

theorem in_run_append (s : State) (a b : List Ev) : run s (a ++ b) = run (run s a) b := List.foldl_append

theorem in_run {s : State} (hs : Wf s) (h0 : s.replicas.has 0 = true) (evs : List Ev) (hp : ∀ e ∈ evs, Proper e) :
    Wf (run s evs) ∧ (run s evs).replicas.has 0 = true ∧ ReplicaKept s (run s evs) 0 := by
  induction evs generalizing s with
  | nil => exact ⟨hs, h0, in_kept_refl s 0⟩
  | cons e evs ih =>
    obtain ⟨a1, a2, a3⟩ := in_step hs h0 e (hp e List.mem_cons_self)
    obtain ⟨b1, b2, b3⟩ := ih a1 a2 (fun x hx => hp x (List.mem_cons_of_mem _ hx))
    exact ⟨b1, b2, in_kept_trans a3 b3⟩

theorem in_pool {active : List Node} (hd : active.Nodup) (hne : active ≠ []) : PoolOk [(0, active)] active := by
  refine ⟨hd, hne, rfl, ?_⟩
  intro v r h
  rw [Dict.get?_cons] at h
  by_cases e : (0 : Nat) = v
  · simp only [e, if_true, Option.some.injEq] at h; rw [← h]; exact hne
  · simp [e] at h

theorem in_runs_empty : Runs {} 0 := fun i => ⟨(fun h => nomatch h), fun h => absurd h (Nat.not_lt_zero i)⟩

theorem in_init {active : List Node} (hd : active.Nodup) (hne : active ≠ []) :
    Wf (init active) ∧ (init active).crashed = false ∧ (init active).required = wanted active.length ∧
    Runs (init active) (wanted active.length) ∧ (init active).replicas.has 0 = true := by
  have hp := in_pool hd hne
  obtain ⟨ps, hps, _⟩ := select_some hp 0
  obtain ⟨a1, a2, a3, _⟩ := in_params_ok in_empty in_runs_empty rfl hp 0 hps
  exact ⟨(in_params in_empty hp 0).1, a1, a2, a3, (a3 0).2 (in_wanted_pos _)⟩

/-- The master keeps its replica, with all it was given, in every history. -/
theorem C100_master_kept (active : List Node) (hd : active.Nodup) (hne : active ≠ []) (pre evs : List Ev)
    (hp : ∀ e ∈ pre ++ evs, Proper e) :
    ∃ r r', (run (init active) pre).replicas.get? 0 = some r ∧ (run (init active) (pre ++ evs)).replicas.get? 0 = some r' ∧
      r'.serial = r.serial ∧ r.inbox <+: r'.inbox := by
  obtain ⟨a1, _, _, _, a5⟩ := in_init hd hne
  obtain ⟨b1, b2, _⟩ := in_run a1 a5 pre (fun e he => hp e (List.mem_append_left _ he))
  obtain ⟨_, _, c3⟩ := in_run b1 b2 evs (fun e he => hp e (List.mem_append_right _ he))
  obtain ⟨r, hr⟩ := (Dict.has_iff _ _).1 b2
  obtain ⟨r', h1, h2, h3⟩ := c3 r hr
  exact ⟨r, r', hr, by rw [in_run_append]; exact h1, h2, h3⟩

/-- What holds along a careful history. -/
structure Fine (s : State) (b : Bool) (n : Nat) : Prop where
  wf : Wf s
  master : s.replicas.has 0 = true
  alive : s.crashed = false
  required : s.required = wanted n
  below : ∀ i, s.replicas.has i = true → i < wanted n
  whole : b = false → Runs s (wanted n)

theorem in_fine_mild {s t : State} {b : Bool} {n : Nat} (h : Fine s b n) (m : Mild s t) : Fine t b n :=
  ⟨m.wf, (in_has_iff m.keys).2 h.master, m.crashed.trans h.alive, m.required.trans h.required,
    fun i hi => h.below i ((in_has_iff m.keys).1 hi), fun hb i => (in_has_iff m.keys).trans (h.whole hb i)⟩

theorem in_fine_restore {s : State} {b : Bool} {n : Nat} (h : Fine s b n) : Fine (restoreReplicas s) false n := by
  obtain ⟨a1, a2, a3, _, _, _, a7, _⟩ := in_restore h.wf
  have hr : Runs (restoreReplicas s) (wanted n) := fun i => by
    rw [a7 i, h.required]
    exact ⟨fun x => x.elim (h.below i) id, .inr⟩
  exact ⟨a1, (a7 0).2 (.inl h.master), a3.trans h.alive, a2.trans h.required, fun i hi => (hr i).1 hi, fun _ => hr⟩

theorem in_fine_params {s : State} {n : Nat} (h : Fine s false n) {reg : Dict Nat (List Node)} {active : List Node}
    (hp : PoolOk reg active) (v : Nat) : Fine (setPoolParams s reg active v) false active.length := by
  obtain ⟨ps, hps, _⟩ := select_some hp v
  obtain ⟨a1, a2, a3, _⟩ := in_params_ok h.wf (h.whole rfl) h.alive hp v hps
  exact ⟨(in_params h.wf hp v).1, (a3 0).2 (in_wanted_pos _), a1, a2, fun i hi => (a3 i).1 hi, fun _ => a3⟩

theorem in_fine_remove {s : State} {b : Bool} {n : Nat} (h : Fine s b n) {i : Nat} (hi : i ≠ 0) :
    Fine (removeReplica s i) true n := by
  have hh : ∀ j, (removeReplica s i).replicas.has j = true ↔ j ≠ i ∧ s.replicas.has j = true := by
    intro j
    unfold Dict.has
    simp only [removeReplica, Dict.get?_erase]
    by_cases e : i = j
    · simp [e]
    · simp [e, Ne.symm e]
  exact ⟨erase_wf h.wf i, (hh 0).2 ⟨Ne.symm hi, h.master⟩, h.alive, h.required, fun j hj => h.below j ((hh j).1 hj).2,
    fun hb => by cases hb⟩

theorem in_fine_weaken {s : State} {b : Bool} {n : Nat} (h : Fine s b n) : Fine s true n :=
  ⟨h.wf, h.master, h.alive, h.required, h.below, fun hb => by cases hb⟩

/-- The size of the pool after an event. -/
def poolNext (n : Nat) (e : Ev) : Nat := poolAfter n [e]

theorem in_fine_step {s : State} {b : Bool} {n : Nat} (h : Fine s b n) (e : Ev) (hp : Proper e)
    (hb : ∀ reg active v, e = .firstBatch reg active v → b = false) : Fine (step s e) (holes b e) (poolNext n e) := by
  have hc : ¬ s.crashed = true := by rw [h.alive]; exact Bool.false_ne_true
  cases e with
  | msg m given =>
    have e : step s (.msg m given) = sendToReplica s m given := by simp only [step, if_neg hc]
    rw [e]; exact in_fine_mild h (in_send h.wf h.master m given hp)
  | viewChange reg v =>
    have e : step s (.viewChange reg v) = newViewPrimaries (restoreReplicas s) (selectMaster reg v) := by
      simp only [step, if_neg hc]
    rw [e]
    exact in_fine_mild (in_fine_restore h) (in_newView (in_fine_restore h).wf _)
  | firstBatch reg active v =>
    have e : step s (.firstBatch reg active v) = setPoolParams s reg active v := by simp only [step, if_neg hc]
    rw [e]
    cases hb reg active v rfl
    exact in_fine_params h hp v
  | caughtUp reg active v =>
    have e : step s (.caughtUp reg active v) = setPoolParams (dropPrimaries (restoreReplicas s)) reg active v := by
      simp only [step, if_neg hc]
    rw [e]
    exact in_fine_params (in_fine_mild (in_fine_restore h) (in_drop (in_fine_restore h).wf)) hp v
  | removed i =>
    have e : step s (.removed i) = if i = 0 then s else removeReplica s i := by simp only [step, if_neg hc]
    rw [e]
    by_cases hi : i = 0
    · rw [if_pos hi]; exact in_fine_weaken h
    · rw [if_neg hi]; exact in_fine_remove h hi
  | check i =>
    have e : step s (.check i) = if i = 0 then s else removeIfLost s i := by simp only [step, if_neg hc]
    rw [e]
    by_cases hi : i = 0
    · rw [if_pos hi]; exact in_fine_weaken h
    · rw [if_neg hi]
      unfold removeIfLost
      split
      · split
        · exact in_fine_remove h hi
        · exact in_fine_weaken h
      · exact in_fine_weaken h
  | connection i up =>
    cases hr : s.replicas.get? i with
    | none =>
      have e : step s (.connection i up) = s := by simp only [step, if_neg hc, hr]
      rw [e]; exact h
    | some r =>
      have e : step s (.connection i up) =
          { s with replicas := s.replicas.set i { r with lost := if up then none else some s.now } } := by
        simp only [step, if_neg hc, hr]
      rw [e]
      exact in_fine_mild h ⟨in_set_wf h.wf hr rfl, keys_set_has (in_has hr) _, in_set_kept hr rfl List.prefix_rfl, rfl, rfl⟩
  | tick n =>
    have e : step s (.tick n) = { s with now := s.now + n } := by simp only [step, if_neg hc]
    rw [e]
    exact in_fine_mild h ⟨⟨h.wf.nodup, h.wf.stash, h.wf.serial⟩, rfl, fun j => in_kept_refl _ j, rfl, rfl⟩

theorem in_careful {b : Bool} {e : Ev} {evs : List Ev} (h : Careful b (e :: evs)) :
    (∀ reg active v, e = .firstBatch reg active v → b = false) ∧ Careful (holes b e) evs := by
  cases e with
  | firstBatch reg active v => exact ⟨fun _ _ _ _ => h.1, h.2⟩
  | _ => exact ⟨(fun _ _ _ h => nomatch h), h⟩

theorem in_fine_run {s : State} {b : Bool} {n : Nat} (h : Fine s b n) (evs : List Ev) (hp : ∀ e ∈ evs, Proper e)
    (hc : Careful b evs) : Fine (run s evs) (evs.foldl holes b) (poolAfter n evs) := by
  induction evs generalizing s b n with
  | nil => exact h
  | cons e evs ih =>
    obtain ⟨h1, h2⟩ := in_careful hc
    exact ih (in_fine_step h e (hp e List.mem_cons_self) h1) (fun x hx => hp x (List.mem_cons_of_mem _ hx)) h2

theorem in_fine_init {active : List Node} (hd : active.Nodup) (hne : active ≠ []) :
    Fine (init active) false active.length := by
  obtain ⟨a1, a2, a3, a4, a5⟩ := in_init hd hne
  exact ⟨a1, a5, a2, a3, fun i hi => (a4 i).1 hi, fun _ => a4⟩

/-- In every history in which no first batch of a view comes after a removal that no view change or
catchup made good, a node raises no exception for its instances, it runs none that the pool does not
have, and it runs all of them when none has been removed since the last view change or catchup.
Not so in every history: `C100_first_batch_exact`. -/
theorem C100_history_partial (active : List Node) (hd : active.Nodup) (hne : active ≠ []) (evs : List Ev)
    (hp : ∀ e ∈ evs, Proper e) (hc : Careful false evs) :
    let s := run (init active) evs
    s.crashed = false ∧ (∀ i, s.replicas.has i = true → i < wanted (poolAfter active.length evs)) ∧
    (mayMiss evs = false → Runs s (wanted (poolAfter active.length evs))) := by
  have h := in_fine_run (in_fine_init hd hne) evs hp hc
  exact ⟨h.alive, h.below, h.whole⟩

/-- After a catchup that ends in such a history, each instance of the pool runs with the primary that
the rule selects for it. -/
theorem C100_caught_up_partial (active : List Node) (hd : active.Nodup) (hne : active ≠ []) (evs : List Ev)
    (hp : ∀ e ∈ evs, Proper e) (hc : Careful false evs) (reg : Dict Nat (List Node)) (active' : List Node) (v : Nat)
    (hp' : PoolOk reg active') :
    ∃ ps, selectPrimaries reg active' v = some ps ∧ ps.length = wanted active'.length ∧
      let s := run (init active) (evs ++ [.caughtUp reg active' v])
      s.crashed = false ∧ Runs s ps.length ∧ ∀ i r, s.replicas.get? i = some r → r.primary = ps[i]? := by
  obtain ⟨ps, hps, hpl, _⟩ := select_some hp' v
  refine ⟨ps, hps, hpl, ?_⟩
  have h := in_fine_run (in_fine_init hd hne) evs hp hc
  have h1 := in_fine_restore h
  have h2 := in_fine_mild h1 (in_drop h1.wf)
  have hgen : ∀ u : State, ¬ u.crashed = true →
      run u [.caughtUp reg active' v] = setPoolParams (dropPrimaries (restoreReplicas u)) reg active' v := by
    intro u hu
    rw [in_run_one]
    simp only [step, if_neg hu]
  obtain ⟨a1, a2, a3, a4, a5⟩ := in_params_ok h2.wf (h2.whole rfl) h2.alive hp' v hps
  intro s
  have hs : s = setPoolParams (dropPrimaries (restoreReplicas (run (init active) evs))) reg active' v := by
    show run (init active) (evs ++ [.caughtUp reg active' v]) = _
    rw [in_run_append]
    exact hgen _ (by rw [h.alive]; exact Bool.false_ne_true)
  rw [hs]
  refine ⟨a1, by rw [hpl]; exact a3, ?_⟩
  intro i r hr
  have hi : i < wanted active'.length := (a3 i).1 (in_has hr)
  by_cases hk : i < wanted (poolAfter active.length evs)
  · rw [a4 i hk hi] at hr
    obtain ⟨q, hq, rfl⟩ := Option.map_eq_some_iff.1 hr
    simp only [dropPrimaries] at hq
    rw [get?_mapv _ (fun r => { r with primary := none })] at hq
    obtain ⟨q', _, rfl⟩ := Option.map_eq_some_iff.1 hq
    rfl
  · rw [a5 i (by omega) hi] at hr
    cases hr; rfl

/-! ## What new parameters do when an instance is missing -/

/-- No backup has a primary. -/
def BackupsBare (s : State) : Prop := ∀ i r, i ≠ 0 → s.replicas.get? i = some r → r.primary = none

theorem in_hole_iff {s : State} (hn : s.replicas.keys.Nodup) :
    (∃ j, j < s.replicas.length ∧ s.replicas.has j = false) ↔
      ∃ i j, i < j ∧ s.replicas.has i = false ∧ s.replicas.has j = true := by
  constructor
  · rintro ⟨j, h1, h2⟩
    obtain ⟨i, h3, h4⟩ := later_of_hole hn h1 h2
    exact ⟨j, i, by omega, h2, h4⟩
  · rintro ⟨i, j, h1, h2, h3⟩
    apply Classical.byContradiction
    intro hc
    have hall : ∀ j, j < s.replicas.length → s.replicas.has j = true := fun j hj => by
      cases hh : s.replicas.has j with
      | true => rfl
      | false => exact absurd ⟨j, hj, hh⟩ hc
    have hr := runs_of_prefix hall
    have h4 := (hr j).1 h3
    rw [hall i (by omega)] at h2; cases h2

theorem in_crash_iff {s : State} (hs : Wf s) (hc : s.crashed = false) (hb : BackupsBare s)
    {reg : Dict Nat (List Node)} {active : List Node} (hp : PoolOk reg active) (v : Nat) :
    (setPoolParams s reg active v).crashed = true ↔
      ∃ i j, i < j ∧ s.replicas.has i = false ∧ s.replicas.has j = true := by
  rw [← in_hole_iff hs.nodup]
  obtain ⟨ps, hps, hpl, _⟩ := select_some hp v
  constructor
  · intro h
    apply Classical.byContradiction
    intro hn
    have hall : ∀ j, j < s.replicas.length → s.replicas.has j = true := fun j hj => by
      cases hh : s.replicas.has j with
      | true => rfl
      | false => exact absurd ⟨j, hj, hh⟩ hn
    have := (in_params_ok hs (runs_of_prefix hall) hc hp v hps).1
    rw [this] at h; cases h
  · rintro ⟨j, h1, h2⟩
    obtain ⟨i, h3, h4⟩ := later_of_hole hs.nodup h1 h2
    obtain ⟨a1, a2, _, _, a5, a6, _⟩ := in_adjusted hs active
    rw [params_eq hp v hps]
    by_cases hl : (adjusted s active).replicas.length ≠ ps.length
    · rw [if_pos hl]
    · rw [if_neg hl]
      have hlen : (adjusted s active).replicas.length = wanted active.length := by
        rw [hpl] at hl; exact Classical.not_not.1 hl
      -- one that is missing stays missing, so a replica has a number that is too high
      have hbig : ∃ k, wanted active.length ≤ k ∧ (adjusted s active).replicas.has k = true := by
        by_cases hk : wanted active.length ≤ i
        · refine ⟨i, hk, ?_⟩
          rw [Dict.has, a6 i, if_neg (by omega), if_neg (by omega)]; exact h4
        · have hj : (adjusted s active).replicas.has j = false := by
            rw [Dict.has, a6 j, if_neg (by omega), if_neg (by omega)]; exact h2
          obtain ⟨k, hk1, hk2⟩ := later_of_hole a1.nodup (j := j) (by omega) hj
          exact ⟨k, by omega, hk2⟩
      obtain ⟨k, hk1, hk2⟩ := hbig
      obtain ⟨r, hr⟩ := (Dict.has_iff _ _).1 hk2
      refine gp_crash ps _ ((mem_sortedIds _ _).2 hk2) hr ?_ (by omega)
      have hr' := hr
      rw [a6 k, if_neg (by omega)] at hr'
      by_cases hx : wanted active.length ≤ k ∧ k < s.replicas.length
      · rw [if_pos hx] at hr'; cases hr'
      · rw [if_neg hx] at hr'
        exact hb k r (by have := in_wanted_pos active.length; omega) hr'

/-- Events between the start of a view change and the first batch of the view. -/
def Between : Ev → Prop
  | .msg _ _ => True
  | .removed _ => True
  | .check _ => True
  | .connection _ _ => True
  | .tick _ => True
  | _ => False

theorem in_bare_remove {s : State} (h : BackupsBare s) (i : Nat) : BackupsBare (removeReplica s i) := by
  intro j r hj hr
  simp only [removeReplica, Dict.get?_erase] at hr
  by_cases e : i = j
  · rw [if_pos e] at hr; cases hr
  · rw [if_neg e] at hr; exact h j r hj hr

theorem in_bare_set {s : State} (h : BackupsBare s) {i : Nat} {r r' : Replica} (hr : s.replicas.get? i = some r)
    (hp : r'.primary = r.primary) : BackupsBare { s with replicas := s.replicas.set i r' } := by
  intro j q hj hq
  simp only [Dict.get?_set] at hq
  by_cases e : i = j
  · subst e; rw [if_pos rfl] at hq; cases hq; rw [hp]; exact h i r hj hr
  · rw [if_neg e] at hq; exact h j q hj hq

theorem in_bare_step {s : State} (hc : s.crashed = false) (h : BackupsBare s) (e : Ev) (hq : Between e) :
    BackupsBare (step s e) ∧ (step s e).crashed = false := by
  have hc' : ¬ s.crashed = true := by rw [hc]; exact Bool.false_ne_true
  cases e with
  | msg m given =>
    have e : step s (.msg m given) = sendToReplica s m given := by simp only [step, if_neg hc']
    rw [e]
    unfold sendToReplica
    cases target m given with
    | none =>
      refine ⟨?_, hc⟩
      intro j q hj hq
      simp only [passMessage] at hq
      rw [get?_mapv s.replicas (fun r => { r with inbox := r.inbox ++ [m] })] at hq
      obtain ⟨r, hr, rfl⟩ := Option.map_eq_some_iff.1 hq
      exact h j r hj hr
    | some i =>
      dsimp only
      by_cases hi : s.replicas.has i = true
      · rw [if_pos hi]
        obtain ⟨r, hr⟩ := (Dict.has_iff _ _).1 hi
        simp only [passMessage, hr]
        exact ⟨in_bare_set h hr rfl, hc⟩
      · rw [if_neg hi]
        unfold stashIfNeeded
        split
        · exact ⟨h, hc⟩
        · exact ⟨h, hc⟩
  | removed i =>
    have e : step s (.removed i) = if i = 0 then s else removeReplica s i := by simp only [step, if_neg hc']
    rw [e]
    split
    · exact ⟨h, hc⟩
    · exact ⟨in_bare_remove h i, hc⟩
  | check i =>
    have e : step s (.check i) = if i = 0 then s else removeIfLost s i := by simp only [step, if_neg hc']
    rw [e]
    split
    · exact ⟨h, hc⟩
    · unfold removeIfLost
      split
      · split
        · exact ⟨in_bare_remove h i, hc⟩
        · exact ⟨h, hc⟩
      · exact ⟨h, hc⟩
  | connection i up =>
    cases hr : s.replicas.get? i with
    | none =>
      have e : step s (.connection i up) = s := by simp only [step, if_neg hc', hr]
      rw [e]; exact ⟨h, hc⟩
    | some r =>
      have e : step s (.connection i up) =
          { s with replicas := s.replicas.set i { r with lost := if up then none else some s.now } } := by
        simp only [step, if_neg hc', hr]
      rw [e]
      exact ⟨in_bare_set h hr rfl, hc⟩
  | tick n =>
    have e : step s (.tick n) = { s with now := s.now + n } := by simp only [step, if_neg hc']
    rw [e]; exact ⟨h, hc⟩
  | viewChange _ _ => exact hq.elim
  | firstBatch _ _ _ => exact hq.elim
  | caughtUp _ _ _ => exact hq.elim

theorem in_bare_run {s : State} (hc : s.crashed = false) (h : BackupsBare s) (evs : List Ev) (hq : ∀ e ∈ evs, Between e) :
    BackupsBare (run s evs) ∧ (run s evs).crashed = false := by
  induction evs generalizing s with
  | nil => exact ⟨h, hc⟩
  | cons e evs ih =>
    obtain ⟨a, b⟩ := in_bare_step hc h e (hq e List.mem_cons_self)
    exact ih b a (fun x hx => hq x (List.mem_cons_of_mem _ hx))

theorem in_bare_newView (s : State) (master : Option Node) : BackupsBare (newViewPrimaries s master) := by
  have hd : BackupsBare (dropPrimaries s) := by
    intro j q hj hq
    simp only [dropPrimaries] at hq
    rw [get?_mapv s.replicas (fun r => { r with primary := none })] at hq
    obtain ⟨r, _, rfl⟩ := Option.map_eq_some_iff.1 hq
    rfl
  unfold newViewPrimaries
  dsimp only
  cases hr : (dropPrimaries s).replicas.get? 0 with
  | none => exact hd
  | some r =>
    intro j q hj hq
    simp only [Dict.get?_set, if_neg (Ne.symm hj)] at hq
    exact hd j q hj hq

/-- The first batch of a view raises an exception exactly when an instance runs and an earlier one
does not, that is when a backup other than the last ones has been removed since the view change began. -/
theorem C100_first_batch_exact (active : List Node) (hd : active.Nodup) (hne : active ≠ []) (pre mid : List Ev)
    (reg reg' : Dict Nat (List Node)) (active' : List Node) (v v' : Nat)
    (hp : ∀ e ∈ pre ++ mid, Proper e) (halive : (run (init active) pre).crashed = false) (hq : ∀ e ∈ mid, Between e)
    (hp' : PoolOk reg' active') :
    let s := run (init active) (pre ++ .viewChange reg v :: mid)
    (step s (.firstBatch reg' active' v')).crashed = true ↔
      ∃ i j, i < j ∧ s.replicas.has i = false ∧ s.replicas.has j = true := by
  intro s
  obtain ⟨a1, _, _, _, a5⟩ := in_init hd hne
  obtain ⟨b1, b2, _⟩ := in_run a1 a5 pre (fun e he => hp e (List.mem_append_left _ he))
  obtain ⟨c1, c2, _⟩ := in_step b1 b2 (.viewChange reg v) trivial
  have hstep : step (run (init active) pre) (.viewChange reg v) =
      newViewPrimaries (restoreReplicas (run (init active) pre)) (selectMaster reg v) := by
    simp only [step, halive, if_neg Bool.false_ne_true]
  have hcr : (step (run (init active) pre) (.viewChange reg v)).crashed = false := by
    rw [hstep, (in_newView (in_restore b1).1 _).crashed, (in_restore b1).2.2.1, halive]
  have hbare : BackupsBare (step (run (init active) pre) (.viewChange reg v)) := by
    rw [hstep]; exact in_bare_newView _ _
  have hs : s = run (step (run (init active) pre) (.viewChange reg v)) mid := by
    simp only [s, in_run_append, in_run_cons]
  obtain ⟨d1, d2⟩ := in_bare_run hcr hbare mid hq
  obtain ⟨e1, _, _⟩ := in_run c1 c2 mid (fun e he => hp e (List.mem_append_right _ he))
  rw [← hs] at d1 d2 e1
  have : step s (.firstBatch reg' active' v') = setPoolParams s reg' active' v' := by
    simp only [step, d2, if_neg Bool.false_ne_true]
  rw [this]
  exact in_crash_iff e1 d2 d1 hp' v'

/-- In every pool that runs three instances or more, the removal of a backup other than the last one
between the start of a view change and the first batch of the view makes the node raise an exception. -/
theorem C100_removal_crash (active : List Node) (hd : active.Nodup) (hne : active ≠ []) (i : Nat) (h0 : 0 < i)
    (hi : i + 1 < wanted active.length) (v : Nat) :
    (run (init active) [.viewChange [(0, active)] v, .removed i, .firstBatch [(0, active)] active v]).crashed = true := by
  have hp := in_pool hd hne
  have hx := C100_first_batch_exact active hd hne [] [.removed i] [(0, active)] [(0, active)] active v v
    (by simp [Proper]) (in_init hd hne).2.1 (by simp [Between]) hp
  refine hx.2 ⟨i, i + 1, Nat.lt_succ_self i, ?_, ?_⟩
  all_goals
    have hf := in_fine_step (in_fine_init hd hne) (.viewChange [(0, active)] v) trivial (fun _ _ _ h => nomatch h)
    have hr : Runs (step (init active) (.viewChange [(0, active)] v)) (wanted active.length) := hf.whole rfl
    have hc : ¬ (step (init active) (.viewChange [(0, active)] v)).crashed = true := by
      rw [hf.alive]; exact Bool.false_ne_true
    have hs : run (init active) ([] ++ .viewChange [(0, active)] v :: [.removed i]) =
        removeReplica (step (init active) (.viewChange [(0, active)] v)) i := by
      have hgen : ∀ u : State, ¬ u.crashed = true → step u (.removed i) = removeReplica u i := by
        intro u hu
        have hi0 : ¬ i = 0 := by omega
        simp only [step, if_neg hu, if_neg hi0]
      exact hgen _ hc
    rw [hs, Dict.has]
    simp only [removeReplica, Dict.get?_erase]
  · simp
  · rw [if_neg (by omega)]; exact (hr (i + 1)).2 hi

theorem in_gps_inbox (ps : List Node) (l : List Nat) (s : State) (j : Nat) (r' : Replica)
    (h : (l.foldl (givePrimary ps) s).replicas.get? j = some r') :
    ∃ r, s.replicas.get? j = some r ∧ r'.inbox = r.inbox ∧ r'.serial = r.serial := by
  induction l generalizing s with
  | nil => exact ⟨r', h, rfl, rfl⟩
  | cons i l ih =>
    obtain ⟨q, hq, e1, e2⟩ := ih (givePrimary ps s i) h
    unfold givePrimary at hq
    split at hq
    · exact ⟨q, hq, e1, e2⟩
    · split at hq
      · rename_i r hr
        split at hq
        · exact ⟨q, hq, e1, e2⟩
        · split at hq
          · simp only [Dict.get?_set] at hq
            by_cases e : i = j
            · subst e
              rw [if_pos rfl] at hq; cases hq
              exact ⟨r, hr, e1, e2⟩
            · rw [if_neg e] at hq; exact ⟨q, hq, e1, e2⟩
          · exact ⟨q, hq, e1, e2⟩
      · exact ⟨q, hq, e1, e2⟩

/-- One lost connection is enough: the primary of a backup is lost, a view change begins before the time
that is tolerated is over, and the check that was scheduled then comes before the first batch of the view. -/
theorem C100_lost_primary_crash :
    ∃ evs, (∀ e ∈ evs, Proper e) ∧ (∀ e ∈ evs, ∀ i, e ≠ .removed i) ∧
      (run (init (List.range 7)) evs).crashed = false ∧
      (step (run (init (List.range 7)) evs) (.firstBatch [(0, List.range 7)] (List.range 7) 1)).crashed = true := by
  refine ⟨[.connection 1 true, .connection 1 false, .tick 170, .viewChange [(0, List.range 7)] 1, .tick 10, .check 1], ?_, ?_, ?_, ?_⟩
  · simp [Proper]
  · simp
  · decide
  · decide

/-- When new parameters of the pool come, a replica whose number is not below the number of replicas is
replaced by a new one though it runs: all it was given is lost. The new one has only what was kept
for an instance not there yet. -/
theorem C100_replaced {s : State} (hs : Wf s) {reg : Dict Nat (List Node)} {active : List Node}
    (hp : PoolOk reg active) (v : Nat) {i : Nat} {r : Replica} (hr : s.replicas.get? i = some r)
    (h1 : s.replicas.length ≤ i) (h2 : i < wanted active.length) :
    ∃ r', (setPoolParams s reg active v).replicas.get? i = some r' ∧ r'.serial ≠ r.serial ∧
      r'.inbox = ((s.stash.get? i).getD []).filter (fun m => m.kind = .threePhase) := by
  obtain ⟨ps, hps, _⟩ := select_some hp v
  obtain ⟨_, b2, b3, _⟩ := in_params hs hp v
  have hg := (in_adjusted hs active).2.2.2.2.2.1 i
  rw [if_pos ⟨h1, h2⟩] at hg
  obtain ⟨r', a1, a2, _⟩ := b3 i _ hg
  refine ⟨r', a1, ?_, ?_⟩
  · have := hs.serial i r hr
    rw [a2]
    simp only [fresh]
    omega
  · rw [params_eq hp v hps] at a1
    split at a1
    · rw [hg] at a1; cases a1; rfl
    · obtain ⟨q, hq, e1, _⟩ := in_gps_inbox _ _ _ _ _ a1
      rw [hg] at hq; cases hq
      exact e1

/-! ## The check for lost primaries -/

theorem in_times {s : State} {k : Nat} (h : Runs s k) (i : Nat) (hi : i < k) :
    (disconnectionTimes s)[i]? = some ((s.replicas.get? i).bind (·.lost)) := by
  unfold disconnectionTimes
  rw [sortedIds_runs h, List.getElem?_map, List.getElem?_range hi]
  rfl

/-- When no instance is missing, the check removes a backup exactly when its own primary has been lost
for as long as is tolerated, and no other. Not so otherwise: `C100_check_wrong`. -/
theorem C100_check_partial (active : List Node) (hd : active.Nodup) (hne : active ≠ []) (evs : List Ev)
    (hp : ∀ e ∈ evs, Proper e) (hc : Careful false evs) (hm : mayMiss evs = false) (i : Nat) (hi : i ≠ 0) :
    let s := run (init active) evs
    (∀ j, j ≠ i → (step s (.check i)).replicas.get? j = s.replicas.get? j) ∧
    ∀ r, s.replicas.get? i = some r →
      ((step s (.check i)).replicas.has i = false ↔ ∃ t, r.lost = some t ∧ 180 ≤ s.now - t) := by
  have h := in_fine_run (in_fine_init hd hne) evs hp hc
  intro s
  have hr := h.whole hm
  have hc' : ¬ s.crashed = true := by have := h.alive; rw [this]; exact Bool.false_ne_true
  have e : step s (.check i) = removeIfLost s i := by simp only [step, if_neg hc', if_neg hi]
  rw [e]
  have hrem : ∀ j, j ≠ i → (removeReplica s i).replicas.get? j = s.replicas.get? j := fun j hj => by
    simp only [removeReplica, Dict.get?_erase, if_neg (Ne.symm hj)]
  constructor
  · intro j hj
    unfold removeIfLost
    split
    · split
      · exact hrem j hj
      · rfl
    · rfl
  · intro r hri
    have hik : i < wanted (poolAfter active.length evs) := h.below i (in_has hri)
    have ht := in_times hr i hik
    have ht : (disconnectionTimes s)[i]? = some r.lost := by
      rw [ht]; show some ((s.replicas.get? i).bind _) = _; rw [hri]; rfl
    have hhas : s.replicas.has i = true := in_has hri
    unfold removeIfLost
    rw [ht]
    cases hl : r.lost with
    | none =>
      dsimp only
      rw [hhas]
      exact ⟨(fun h => nomatch h), fun ⟨_, h, _⟩ => (nomatch h)⟩
    | some t =>
      dsimp only
      by_cases hq : tolerance ≤ s.now - t
      · rw [if_pos hq]
        refine ⟨fun _ => ⟨t, rfl, hq⟩, fun _ => ?_⟩
        rw [Dict.has]
        simp only [removeReplica, Dict.get?_erase, if_true]
        rfl
      · rw [if_neg hq, hhas]
        exact ⟨fun h => (nomatch h), fun ⟨t', h, h'⟩ => by cases h; exact absurd h' hq⟩

/-- Once a backup has been removed, the check looks at the primary of another instance: it removes an
instance whose primary is connected, and leaves one whose primary has been lost for long. -/
theorem C100_check_wrong :
    ∃ evs, (∀ e ∈ evs, Proper e) ∧ Careful false evs ∧
      let s := run (init (List.range 10)) evs
      s.crashed = false ∧
      (∃ r, s.replicas.get? 2 = some r ∧ r.lost = none ∧ (step s (.check 2)).replicas.has 2 = false) ∧
      ∃ r t, s.replicas.get? 3 = some r ∧ r.lost = some t ∧ 180 ≤ s.now - t ∧ (step s (.check 3)).replicas.has 3 = true := by
  refine ⟨[.connection 1 true, .connection 2 true, .connection 3 true, .removed 1, .connection 3 false, .tick 500], ?_, ?_, ?_⟩
  · simp [Proper]
  · simp [Careful]
  · refine ⟨by decide, ⟨⟨2, [], some 2, none⟩, by decide, rfl, by decide⟩, ⟨3, [], some 3, some 0⟩, 0, by decide, rfl, by decide, by decide⟩

/-! ## Messages for instances that are not there -/

/-- The messages of a list that are for an instance. -/
def forInstance (i : Nat) (ms : List (Msg × Option Nat)) : List Msg :=
  (ms.filter (fun e => target e.1 e.2 = some i)).map Prod.fst

theorem in_send_stash {s : State} (m : Msg) (given : Option Nat) (i : Nat) (hi : s.replicas.has i = false) (hr : s.required ≤ i) :
    ((sendToReplica s m given).stash.get? i).getD [] = (s.stash.get? i).getD [] ++ forInstance i [(m, given)] := by
  unfold sendToReplica
  cases ht : target m given with
  | none => simp [passMessage, forInstance, ht]
  | some k =>
    dsimp only
    by_cases e : k = i
    · subst e
      rw [if_neg (by rw [hi]; exact Bool.false_ne_true), stashIfNeeded, if_pos hr]
      simp [Dict.get?_set, forInstance, ht]
    · have hf : forInstance i [(m, given)] = [] := by simp [forInstance, ht, e]
      rw [hf, List.append_nil]
      split
      · unfold passMessage; dsimp only; split <;> rfl
      · unfold stashIfNeeded
        split
        · simp only [Dict.get?_set, if_neg e]
        · rfl

theorem in_sends {s : State} {n : Nat} (h : Fine s false n) (ms : List (Msg × Option Nat))
    (hp : ∀ e ∈ ms, Proper (.msg e.1 e.2)) (i : Nat) (hi : wanted n ≤ i) :
    let t := run s (ms.map (fun e => .msg e.1 e.2))
    Fine t false n ∧ (t.stash.get? i).getD [] = (s.stash.get? i).getD [] ++ forInstance i ms := by
  induction ms generalizing s with
  | nil => exact ⟨h, by simp [forInstance, run]⟩
  | cons e ms ih =>
    have hf := in_fine_step h (.msg e.1 e.2) (hp e List.mem_cons_self) (fun _ _ _ h => nomatch h)
    have hc : ¬ s.crashed = true := by rw [h.alive]; exact Bool.false_ne_true
    have hs : step s (.msg e.1 e.2) = sendToReplica s e.1 e.2 := by simp only [step, if_neg hc]
    have hno : s.replicas.has i = false := by
      cases hh : s.replicas.has i with
      | false => rfl
      | true => have := h.below i hh; omega
    obtain ⟨a, b⟩ := ih (s := step s (.msg e.1 e.2)) hf (fun x hx => hp x (List.mem_cons_of_mem _ hx))
    refine ⟨a, ?_⟩
    rw [List.map_cons, in_run_cons, b, hs,
      in_send_stash e.1 e.2 i hno (by rw [h.required]; exact hi), List.append_assoc]
    congr 1
    simp only [forInstance, List.filter_cons, List.filter_nil]
    split <;> rfl

/-- When the pool grows, a new instance is given the three-phase messages for it that came before it
was there, each once and in their order, and nothing else: other messages for it are lost. -/
theorem C100_stash_partial (active : List Node) (hd : active.Nodup) (hne : active ≠ []) (ms : List (Msg × Option Nat))
    (hp : ∀ e ∈ ms, Proper (.msg e.1 e.2)) (reg : Dict Nat (List Node)) (active' : List Node) (v : Nat)
    (hp' : PoolOk reg active') (i : Nat) (h1 : wanted active.length ≤ i) (h2 : i < wanted active'.length) :
    ∃ r, (run (init active) (ms.map (fun e => .msg e.1 e.2) ++ [.firstBatch reg active' v])).replicas.get? i = some r ∧
      r.inbox = (forInstance i ms).filter (fun m => m.kind = .threePhase) := by
  obtain ⟨a, b⟩ := in_sends (in_fine_init hd hne) ms hp i h1
  obtain ⟨ps, hps, _⟩ := select_some hp' v
  have hg := (in_params_ok a.wf (a.whole rfl) a.alive hp' v hps).2.2.2.2 i h1 h2
  have hinit : (init active).stash.get? i = none := by
    have hp := in_pool hd hne
    obtain ⟨ps, hps, hpl, _⟩ := select_some hp 0
    obtain ⟨a1, a2, _, _, a5, a6, a7⟩ := in_adjusted in_empty active
    have e := params_eq (s := {}) hp 0 hps
    have hst : (setPoolParams {} [(0, active)] active 0).stash = (adjusted {} active).stash := by
      rw [e]
      split
      · rfl
      · refine (gp_fold ps _ (a5.trans rfl) ?_).2.2.1
        intro k hk r hr _
        rw [hpl]
        rw [a6 k] at hr
        by_cases hx : k < wanted active.length
        · exact hx
        · rw [if_neg (fun h => hx h.2)] at hr; split at hr <;> cases hr
    rw [init, hst, a7 i]; split <;> rfl
  rw [hinit, Option.getD_none, List.nil_append] at b
  have hgen : ∀ u : State, ¬ u.crashed = true → run u [.firstBatch reg active' v] = setPoolParams u reg active' v := by
    intro u hu
    rw [in_run_one]
    simp only [step, if_neg hu]
  rw [in_run_append, hgen _ (by rw [a.alive]; exact Bool.false_ne_true)]
  refine ⟨_, hg, ?_⟩
  show delivered (((run (init active) (ms.map (fun e => .msg e.1 e.2))).stash.get? i).getD []) = _
  rw [b]; rfl

/-- Messages for instances the pool does not have are all kept, whoever sends them: there is no bound
on them. -/
theorem C100_stash_unbounded (active : List Node) (hd : active.Nodup) (hne : active ≠ []) (frm : Node) (i n : Nat)
    (hi : wanted active.length ≤ i) :
    n ≤ (((run (init active) ((List.range n).map (fun b => .msg ⟨.other, some i, frm, b⟩ none))).stash.get? i).getD []).length := by
  have h := in_sends (in_fine_init hd hne) ((List.range n).map (fun b => (⟨.other, some i, frm, b⟩, none)))
    (by
      intro e he
      obtain ⟨b, _, rfl⟩ := List.mem_map.1 he
      exact fun _ => rfl) i hi
  rw [List.map_map] at h
  have e : (fun b => Ev.msg ⟨.other, some i, frm, b⟩ none) =
      (fun e : Msg × Option Nat => Ev.msg e.1 e.2) ∘ (fun b => (⟨.other, some i, frm, b⟩, none)) := rfl
  rw [e, h.2, List.length_append]
  have : (forInstance i ((List.range n).map (fun b => (⟨.other, some i, frm, b⟩, none)))).length = n := by
    unfold forInstance
    rw [List.filter_eq_self.2, List.length_map, List.length_map, List.length_range]
    intro x hx
    obtain ⟨b, _, rfl⟩ := List.mem_map.1 hx
    simp [target]
  omega

/-- Messages for an instance that has been removed are lost, though it comes back with the next view
change or catchup. -/
theorem C100_removed_lost (s : State) (m : Msg) (given : Option Nat) (i : Nat) (ht : target m given = some i)
    (hr : i < s.required) (hi : s.replicas.has i = false) : step s (.msg m given) = s := by
  unfold step
  split
  · rfl
  · simp only [sendToReplica, ht, hi, stashIfNeeded]
    rw [if_neg Bool.false_ne_true, if_neg (by omega)]

/-- Who gets a message: the instance named by the caller, else the one in the message, else all; and the
master alone gets an InstanceChange. -/
theorem C100_addressed (s : State) (m : Msg) (given : Option Nat) (hc : s.crashed = false) (j : Nat) :
    (m.kind = .instanceChange → s.replicas.has 0 = true →
      (step s (.msg m given)).replicas.get? j =
        (s.replicas.get? j).map (fun r => if j = 0 then { r with inbox := r.inbox ++ [m] } else r)) ∧
    (∀ i, m.kind ≠ .instanceChange → (given = some i ∨ (given = none ∧ m.inst = some i)) → s.replicas.has i = true →
      (step s (.msg m given)).replicas.get? j =
        (s.replicas.get? j).map (fun r => if j = i then { r with inbox := r.inbox ++ [m] } else r)) ∧
    (m.kind ≠ .instanceChange → given = none → m.inst = none →
      (step s (.msg m given)).replicas.get? j =
        (s.replicas.get? j).map (fun r => { r with inbox := r.inbox ++ [m] })) := by
  have one : ∀ i, target m given = some i → s.replicas.has i = true →
      (step s (.msg m given)).replicas.get? j =
        (s.replicas.get? j).map (fun r => if j = i then { r with inbox := r.inbox ++ [m] } else r) := by
    intro i ht hi
    obtain ⟨r, hr⟩ := (Dict.has_iff _ _).1 hi
    have e : step s (.msg m given) =
        { s with replicas := s.replicas.set i { r with inbox := r.inbox ++ [m] } } := by
      simp [step, hc, sendToReplica, ht, hi, passMessage, hr]
    rw [e]
    show Dict.get? (Dict.set _ _ _) j = _
    rw [Dict.get?_set]
    by_cases h : i = j
    · subst h; simp [hr]
    · have h' : ¬ j = i := fun q => h q.symm
      simp only [h, h', if_false]
      cases s.replicas.get? j <;> rfl
  refine ⟨fun hk => one 0 (by simp [target, hk]), fun i hk hg => one i ?_, fun hk hg hm => ?_⟩
  · rcases hg with rfl | ⟨rfl, hm⟩
    · simp [target, hk]
    · simp [target, hk, hm]
  · have ht : target m given = none := by simp [target, hk, hg, hm]
    have e : step s (.msg m given) = passMessage s m none := by
      simp [step, hc, sendToReplica, ht]
    rw [e]
    exact Insts.get?_mapv s.replicas (fun r => { r with inbox := r.inbox ++ [m] }) j

/-! ## The hypotheses are met -/

/-- Seven nodes; a backup is removed, a view change begins, and the pool grows to ten nodes. -/
def inGrows : List Ev :=
  [.removed 1, .viewChange [(0, List.range 7)] 1, .firstBatch [(0, List.range 7)] (List.range 10) 1]

example : (∀ e ∈ inGrows, Proper e) ∧ Careful false inGrows ∧ mayMiss inGrows = false ∧
    poolAfter 7 inGrows = 10 ∧ sortedIds (run (init (List.range 7)) inGrows).replicas = [0, 1, 2, 3] := by
  refine ⟨?_, by simp [inGrows, Careful, holes], by decide, by decide, by decide⟩
  have hp : PoolOk [(0, List.range 7)] (List.range 10) := by
    refine ⟨List.nodup_range, by decide, by decide, ?_⟩
    intro v r h
    rw [Dict.get?_cons] at h
    by_cases e : (0 : Nat) = v
    · simp only [e, if_true, Option.some.injEq] at h; rw [← h]; decide
    · simp [e] at h
  intro e he
  simp only [inGrows, List.mem_cons, List.not_mem_nil, or_false] at he
  rcases he with rfl | rfl | rfl
  · trivial
  · trivial
  · exact hp

/-- The removal of the last backup does no harm; the removal of another does, and it resets the last. -/
example :
    (run (init (List.range 7)) [.viewChange [(0, List.range 7)] 1, .removed 2, .firstBatch [(0, List.range 7)] (List.range 7) 1]).crashed = false ∧
    (run (init (List.range 7)) [.viewChange [(0, List.range 7)] 1, .removed 1, .firstBatch [(0, List.range 7)] (List.range 7) 1]).crashed = true ∧
    sortedIds (run (init (List.range 7)) [.viewChange [(0, List.range 7)] 1, .removed 1]).replicas = [0, 2] ∧
    ((run (init (List.range 7)) [.viewChange [(0, List.range 7)] 1, .removed 1]).replicas.get? 2).map (·.serial) = some 2 ∧
    ((run (init (List.range 7)) [.viewChange [(0, List.range 7)] 1, .removed 1, .firstBatch [(0, List.range 7)] (List.range 7) 1]).replicas.get? 2).map (·.serial) = some 3 := by
  decide

example : 0 < 1 ∧ 1 + 1 < wanted (List.range 7).length := by decide

/-- Messages for the third instance of a pool of four nodes that grows to seven. -/
example :
    ((run (init (List.range 4)) [.msg ⟨.threePhase, some 2, 5, 1⟩ none, .msg ⟨.other, some 2, 5, 2⟩ none,
      .msg ⟨.threePhase, some 2, 6, 3⟩ none, .firstBatch [(0, List.range 4)] (List.range 7) 0]).replicas.get? 2).map
      (fun r => r.inbox.map (·.body)) = some [1, 3] := by
  decide

/-- A message that names the second instance and is given to the first. -/
example : ((step (init (List.range 4)) (.msg ⟨.threePhase, some 1, 5, 1⟩ (some 0))).replicas.map
    (fun e => (e.1, e.2.inbox.length))) = [(0, 1), (1, 0)] := by
  decide

/-- A name counts once. -/
example : sortedIds (run (init (List.range 4)) [.firstBatch [(0, List.range 4)] [0, 1, 2, 3, 0, 1, 2, 3] 0]).replicas = [0, 1] := by
  decide

/-- A message for a removed instance. -/
example : target ⟨.threePhase, some 1, 5, 1⟩ none = some 1 ∧
    (run (init (List.range 4)) [.removed 1]).required = 2 ∧
    (run (init (List.range 4)) [.removed 1]).replicas.has 1 = false := by
  decide

end Verif.Props
