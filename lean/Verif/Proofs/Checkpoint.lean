import Verif.Model.Checkpoint
import Verif.Proofs.Count
/-! Invariants of the checkpoint service. -/
namespace Verif.CP

open VC (Checkpoint Node)

/-- `n - f - 1` distinct nodes sent the checkpoint to this instance. -/
def Voted (cfg : Cfg) (evs : List Event) (k : Checkpoint) : Prop :=
  ∃ Q : List Node, Q.Nodup ∧ cfg.n - getMaxFailures cfg.n - 1 ≤ Q.length ∧
    ∀ w ∈ Q, .checkpoint cfg.instId k w ∈ evs

/-- The replica ordered the batch the checkpoint is for, with its root. -/
def OwnOrdered (evs : List Event) (k : Checkpoint) : Prop :=
  ∃ root pre, k.digest = some root ∧ .ordered k.seqNoEnd root pre ∈ evs

/-- Why a checkpoint is stable. -/
def Justified (cfg : Cfg) (evs : List Event) (s : Nat) : Prop :=
  s = 0 ∨
  (∃ k : Checkpoint, k.seqNoEnd = s ∧ Voted cfg evs k ∧ OwnOrdered evs k) ∨
  (cfg.isMaster = true ∧ ∃ m c, .catchup m c ∈ evs ∧ s = c.2 / cfg.chkFreq * cfg.chkFreq) ∨
  (cfg.isMaster = true ∧ ∃ cp : Checkpoint, .newView cp ∈ evs ∧ cp.seqNoEnd = s) ∨
  (cfg.isMaster = false ∧ ∃ k k' : Checkpoint, k ≠ k' ∧ Voted cfg evs k ∧ Voted cfg evs k' ∧
    s = k.seqNoEnd / cfg.chkFreq * cfg.chkFreq)

structure CInv (cfg : Cfg) (evs : List Event) (s : State) : Prop where
  nodup : s.received.keys.Nodup
  votes : ∀ k ws, s.received.get? k = some ws → ws.Nodup ∧ ∀ w ∈ ws, .checkpoint cfg.instId k w ∈ evs
  above : ∀ k ∈ s.received.keys, s.stable < k.seqNoEnd
  own : ∀ cp ∈ s.checkpoints, cp.seqNoEnd ≤ s.stable ∨ OwnOrdered evs cp
  mult : ∀ cp ∈ s.checkpoints, cfg.chkFreq ∣ cp.seqNoEnd
  smult : cfg.chkFreq ∣ s.stable
  just : Justified cfg evs s.stable
  cpsM : cfg.isMaster = true → ∀ cp ∈ s.checkpoints, s.stable ≤ cp.seqNoEnd ∧ cp.seqNoEnd ≤ s.lastOrdered.2
  ordM : cfg.isMaster = true → s.stable ≤ s.low ∧ s.low ≤ s.lastOrdered.2 ∧ s.high = some (s.low + cfg.logSize)

theorem Voted.mono {cfg evs evs'} {k} (h : ∀ e ∈ evs, e ∈ evs') : Voted cfg evs k → Voted cfg evs' k
  | ⟨Q, a, b, c⟩ => ⟨Q, a, b, fun w hw => h _ (c w hw)⟩

theorem OwnOrdered.mono {evs evs'} {k} (h : ∀ e ∈ evs, e ∈ evs') : OwnOrdered evs k → OwnOrdered evs' k
  | ⟨a, b, c, d⟩ => ⟨a, b, c, h _ d⟩

theorem Justified.mono {cfg evs evs'} {s} (h : ∀ e ∈ evs, e ∈ evs') : Justified cfg evs s → Justified cfg evs' s
  | .inl a => .inl a
  | .inr (.inl ⟨k, a, b, c⟩) => .inr (.inl ⟨k, a, b.mono h, c.mono h⟩)
  | .inr (.inr (.inl ⟨m, a, b, c, d⟩)) => .inr (.inr (.inl ⟨m, a, b, h _ c, d⟩))
  | .inr (.inr (.inr (.inl ⟨m, a, c, d⟩))) => .inr (.inr (.inr (.inl ⟨m, a, h _ c, d⟩)))
  | .inr (.inr (.inr (.inr ⟨m, k, k', a, b, c, d⟩))) => .inr (.inr (.inr (.inr ⟨m, k, k', a, b.mono h, c.mono h, d⟩)))

theorem CInv.mono {cfg evs evs' s} (h : ∀ e ∈ evs, e ∈ evs') (i : CInv cfg evs s) : CInv cfg evs' s where
  nodup := i.nodup
  votes k ws hk := ⟨(i.votes k ws hk).1, fun w hw => h _ ((i.votes k ws hk).2 w hw)⟩
  above := i.above
  own cp hc := (i.own cp hc).imp id (·.mono h)
  mult := i.mult
  smult := i.smult
  just := i.just.mono h
  cpsM := i.cpsM
  ordM := i.ordM

theorem CInv.init (cfg : Cfg) : CInv cfg [] (State.init cfg) where
  nodup := List.nodup_nil
  votes k ws hk := by cases hk
  above k hk := by cases hk
  own cp hc := by simp [State.init] at hc; subst hc; exact .inl (Nat.le_refl _)
  mult cp hc := by simp [State.init] at hc; subst hc; exact Nat.dvd_zero _
  smult := Nat.dvd_zero _
  just := .inl rfl
  cpsM _ cp hc := by simp [State.init] at hc; subst hc; exact ⟨Nat.le_refl _, Nat.le_refl _⟩
  ordM _ := ⟨Nat.le_refl _, Nat.le_refl _, by simp [State.init]⟩

theorem keys_filter {κ α : Type} (d : Dict κ α) (p : κ × α → Bool) (k : κ) (h : k ∈ Dict.keys (d.filter p)) :
    ∃ v, (k, v) ∈ d ∧ p (k, v) = true := by
  obtain ⟨⟨a, b⟩, hm, rfl⟩ := List.mem_map.1 h
  exact ⟨b, List.mem_filter.1 hm⟩

theorem CInv.markStable {cfg : Cfg} {evs : List Event} {s : State} (i : CInv cfg evs s) {p : Nat}
    (hm : cfg.chkFreq ∣ p) (hle : s.stable ≤ p) (hj : Justified cfg evs p)
    (ho : cfg.isMaster = true → p ≤ s.lastOrdered.2) : CInv cfg evs (s.markStable cfg p) where
  nodup := Dict.nodup_keys_filter i.nodup _
  votes k ws hk := by
    simp only [State.markStable, State.removeReceived, State.setWatermarks] at hk
    rw [Dict.get?_filter s.received (fun k => !isBelow k (s.view, p)) k] at hk
    split at hk
    · exact i.votes k ws hk
    · cases hk
  above k hk := by
    obtain ⟨v, -, h⟩ := keys_filter _ _ _ hk
    simp only [isBelow, ge_iff_le, Bool.not_eq_true', decide_eq_false_iff_not, Nat.not_le] at h
    exact h
  own cp hc := by
    have hc := (List.mem_filter.1 hc).1
    split at hc
    · rcases i.own cp hc with h | h
      · exact .inl (Nat.le_trans h hle)
      · exact .inr h
    · rcases List.mem_append.1 hc with hc | hc
      · rcases i.own cp hc with h | h
        · exact .inl (Nat.le_trans h hle)
        · exact .inr h
      · cases List.mem_singleton.1 hc; exact .inl (Nat.le_refl _)
  mult cp hc := by
    have hc := (List.mem_filter.1 hc).1
    split at hc
    · exact i.mult cp hc
    · rcases List.mem_append.1 hc with hc | hc
      · exact i.mult cp hc
      · cases List.mem_singleton.1 hc; exact hm
  smult := hm
  just := hj
  cpsM hM cp hc := by
    obtain ⟨hc, hf⟩ := List.mem_filter.1 hc
    simp only [Bool.not_eq_true', decide_eq_false_iff_not, Nat.not_lt] at hf
    refine ⟨hf, ?_⟩
    show cp.seqNoEnd ≤ s.lastOrdered.2
    split at hc
    · exact (i.cpsM hM cp hc).2
    · rcases List.mem_append.1 hc with hc | hc
      · exact (i.cpsM hM cp hc).2
      · cases List.mem_singleton.1 hc; exact ho hM
  ordM hM := ⟨Nat.le_refl _, ho hM, rfl⟩

theorem CInv.voted {cfg : Cfg} {evs : List Event} {s : State} (i : CInv cfg evs s) {k : CKey}
    (h : s.haveQuorum cfg k = true) : Voted cfg evs k := by
  simp only [State.haveQuorum, Quorum.isReached, Quorums.ofN, ge_iff_le, decide_eq_true_eq] at h
  cases hk : s.received.get? k with
  | none => rw [hk] at h; exact ⟨[], List.nodup_nil, h, by simp⟩
  | some ws => rw [hk] at h; exact ⟨ws, (i.votes k ws hk).1, h, (i.votes k ws hk).2⟩

theorem haveOwn_mem {s : State} {k : CKey} (h : s.haveOwn k = true) : k ∈ s.checkpoints := by
  obtain ⟨cp, hc, h⟩ := List.any_eq_true.1 h
  simp only [Bool.and_eq_true, decide_eq_true_eq] at h
  have : cp = k := by cases cp; cases k; simp_all
  exact this ▸ hc

/-- A quorum of a pool of two or more nodes is not empty. -/
theorem CInv.quorum_above {cfg : Cfg} {evs : List Event} {s : State} (i : CInv cfg evs s) (h2 : 2 ≤ cfg.n) {k : CKey}
    (h : s.haveQuorum cfg k = true) : s.stable < k.seqNoEnd := by
  simp only [State.haveQuorum, Quorum.isReached, Quorums.ofN, ge_iff_le, decide_eq_true_eq] at h
  cases hk : s.received.get? k with
  | none =>
    rw [hk] at h
    have hp : 0 < cfg.n - getMaxFailures cfg.n - 1 := by unfold getMaxFailures; split <;> omega
    simp at h
    omega
  | some ws => exact i.above k ((Dict.mem_keys _ _).2 ⟨ws, hk⟩)

theorem CInv.tryStabilize {cfg : Cfg} {evs : List Event} {s : State} (i : CInv cfg evs s) (h2 : 2 ≤ cfg.n) {k : CKey}
    (ho : k ∈ s.checkpoints → OwnOrdered evs k) :
    CInv cfg evs (s.tryStabilize cfg k) := by
  unfold State.tryStabilize
  split
  · exact i
  · next hq =>
    split
    · exact i
    · next hw =>
      simp only [Bool.not_eq_true', Bool.not_eq_false] at hq hw
      have hw := haveOwn_mem hw
      exact i.markStable (i.mult k hw) (Nat.le_of_lt (i.quorum_above h2 hq)) (.inr (.inl ⟨k, rfl, i.voted hq, ho hw⟩)) (fun hM => (i.cpsM hM k hw).2)

theorem lastKey_mem : ∀ {l : List CKey} {k : CKey}, lastKey l = some k → k ∈ l
  | k :: ks, m, h => by
    simp only [lastKey] at h
    split at h
    · cases h; exact List.mem_cons_self
    · next m' hm =>
      split at h
      · cases h; exact List.mem_cons_of_mem _ (lastKey_mem hm)
      · cases h; exact List.mem_cons_self

theorem floor_le {c a b : Nat} (hd : c ∣ a) (h : a ≤ b) : a ≤ b / c * c := by
  obtain ⟨m, rfl⟩ := hd
  rcases Nat.eq_zero_or_pos c with rfl | hc
  · simp
  · have : m ≤ b / c := (Nat.le_div_iff_mul_le hc).2 (by rw [Nat.mul_comm]; exact h)
    rw [Nat.mul_comm c m]
    exact Nat.mul_le_mul_right _ this

theorem exists_other {l : List CKey} (hn : l.Nodup) (hl : ¬ l.length ≤ 1) {k : CKey} (hk : k ∈ l) :
    ∃ k' ∈ l, k ≠ k' := by
  match l, hn, hl with
  | a :: b :: l, hn, _ =>
    rcases List.nodup_cons.1 hn with ⟨h, -⟩
    by_cases e : k = a
    · exact ⟨b, by simp, fun h' => h (by rw [← e, h']; simp)⟩
    · exact ⟨a, by simp, e⟩
  | [a], _, h => simp at h
  | [], _, h => simp at h

theorem CInv.startCatchup {cfg : Cfg} {evs : List Event} {s : State} (i : CInv cfg evs s) (k : CKey) :
    CInv cfg evs (s.startCatchup cfg k) := by
  unfold State.startCatchup
  split
  · exact i
  · simp only
    split
    · exact i
    · next hu =>
      split
      · split
        · exact i
        · exact { i with }
      · next hM =>
        split
        · exact i
        · next l hl =>
          have hl := lastKey_mem hl
          obtain ⟨k', hk', hne⟩ := exists_other (i.nodup.filter _) hu hl
          have hl1 := List.mem_filter.1 hl
          have hk1 := List.mem_filter.1 hk'
          have hq := hl1.2
          have hq' := hk1.2
          simp only [Bool.and_eq_true] at hq hq'
          have i' : CInv cfg evs { s with lastOrdered := (s.view, l.seqNoEnd) } :=
            { i with cpsM := fun h => absurd h hM, ordM := fun h => absurd h hM }
          refine i'.markStable (Nat.dvd_mul_left _ _) (floor_le i.smult (Nat.le_of_lt (i.above l hl1.1))) ?_
            (fun h => absurd h hM)
          exact .inr (.inr (.inr (.inr ⟨by simpa using hM, l, k', hne, i.voted hq.1.1, i.voted hq'.1.1, rfl⟩)))

theorem validate_process {cfg : Cfg} {s : State} {inst : Nat} {cp : Checkpoint}
    (h : validate cfg s inst cp = .process) : inst = cfg.instId ∧ s.stable < cp.seqNoEnd ∧ s.view ≤ cp.viewNo := by
  unfold validate at h
  split at h
  · cases h
  · split at h
    · cases h
    · split at h
      · cases h
      · refine ⟨?_, ?_, ?_⟩ <;> omega

theorem CInv.processCheckpoint {cfg : Cfg} {evs : List Event} {s : State} (i : CInv cfg evs s) (h2 : 2 ≤ cfg.n)
    (inst : Nat) (cp : Checkpoint) (w : Node) (he : .checkpoint inst cp w ∈ evs) :
    CInv cfg evs (s.processCheckpoint cfg inst cp w) := by
  unfold State.processCheckpoint
  split
  · next hv =>
    obtain ⟨rfl, hs, -⟩ := validate_process hv
    have i' : CInv cfg evs { s with received := addVote s.received cp w } :=
      { i with
        nodup := Dict.nodup_keys_set i.nodup _ _
        votes := by
          intro k ws hk
          simp only [addVote] at hk
          rw [Dict.get?_set] at hk
          split at hk
          · next e =>
            subst e
            cases hk
            have base : ((s.received.get? cp).getD []).Nodup ∧
                ∀ w ∈ (s.received.get? cp).getD [], .checkpoint cfg.instId cp w ∈ evs := by
              cases hk : s.received.get? cp with
              | none => simp
              | some ws => exact i.votes cp ws hk
            split
            · exact base
            · next hni =>
              refine ⟨List.nodup_append.2 ⟨base.1, by simp, ?_⟩, ?_⟩
              · intro a ha b hb e
                rw [List.mem_singleton] at hb
                exact hni (hb ▸ e ▸ ha)
              · intro x hx
                rcases List.mem_append.1 hx with hx | hx
                · exact base.2 x hx
                · cases List.mem_singleton.1 hx; exact he
          · exact i.votes k ws hk
        above := by
          intro k hk
          rcases ((Dict.mem_keys _ _).1 hk) with ⟨v, hv⟩
          simp only [addVote] at hv
          rw [Dict.get?_set] at hv
          split at hv
          · next e => subst e; exact hs
          · exact i.above k ((Dict.mem_keys _ _).2 ⟨v, hv⟩) }
    refine (i'.tryStabilize h2 ?_).startCatchup cp
    intro hm
    rcases i.own cp hm with h | h
    · omega
    · exact h
  · exact i

theorem CInv.processOrdered {cfg : Cfg} {evs : List Event} {s : State} (i : CInv cfg evs s) (h2 : 2 ≤ cfg.n)
    (n root : Nat) (pre : List BatchID) (he : .ordered n root pre ∈ evs)
    (hn : cfg.isMaster = true → s.lastOrdered.2 = n ∧ s.stable ≤ n) :
    CInv cfg evs (s.processOrdered cfg n root pre) := by
  unfold State.processOrdered
  split
  · next b hb =>
    unfold State.addToCheckpoint
    split
    · exact i
    · next hd =>
      have hO : OwnOrdered evs ⟨b.viewNo, n, some root⟩ := ⟨root, pre, rfl, he⟩
      have hd : cfg.chkFreq ∣ n := Nat.dvd_of_mod_eq_zero (by omega)
      refine CInv.tryStabilize ?_ h2 (fun _ => hO)
      refine { i with own := fun cp hc => ?_, mult := fun cp hc => ?_, cpsM := fun hM cp hc => ?_ }
      · rcases List.mem_append.1 hc with hc | hc
        · exact i.own cp hc
        · cases List.mem_singleton.1 hc; exact .inr hO
      · rcases List.mem_append.1 hc with hc | hc
        · exact i.mult cp hc
        · cases List.mem_singleton.1 hc; exact hd
      · rcases List.mem_append.1 hc with hc | hc
        · exact i.cpsM hM cp hc
        · cases List.mem_singleton.1 hc
          obtain ⟨a, b⟩ := hn hM
          exact ⟨b, Nat.le_of_eq a.symm⟩
  · exact i

theorem CInv.step {cfg : Cfg} {evs : List Event} {s : State} (i : CInv cfg evs s) (h2 : 2 ≤ cfg.n) (e : Event) :
    CInv cfg (evs ++ [e]) (s.step cfg e) := by
  have he : e ∈ evs ++ [e] := by simp
  have i := i.mono (evs' := evs ++ [e]) (fun x hx => List.mem_append_left _ hx)
  generalize evs ++ [e] = evs at *
  cases e with
  | checkpoint inst cp w => exact i.processCheckpoint h2 inst cp w he
  | ordered n root pre =>
    simp only [State.step]
    split
    · next hn =>
      have i' : CInv cfg evs { s with lastOrdered := (s.view, n) } :=
        { i with
          cpsM := fun hM cp hc => ⟨(i.cpsM hM cp hc).1, Nat.le_of_lt (Nat.lt_of_le_of_lt (i.cpsM hM cp hc).2 hn)⟩
          ordM := fun hM => ⟨(i.ordM hM).1, Nat.le_of_lt (Nat.lt_of_le_of_lt (i.ordM hM).2.1 hn), (i.ordM hM).2.2⟩ }
      refine i'.processOrdered h2 n root pre he (fun hM => ⟨rfl, ?_⟩)
      have := i.ordM hM
      show s.stable ≤ n
      omega
    · exact i
  | auditTxn t => exact { i with }
  | newView cp =>
    simp only [State.step, State.newViewAccepted]
    split
    · next hM =>
      split
      · next hc =>
        have := i.cpsM hM cp hc
        have m := i.markStable (i.mult cp hc) this.1 (.inr (.inr (.inr (.inl ⟨hM, cp, he, rfl⟩)))) (fun _ => this.2)
        exact { m with }
      · exact i
    · next hM =>
      exact { nodup := List.nodup_nil
              votes := fun k ws hk => by cases hk
              above := fun k hk => by cases hk
              own := fun cp hc => by cases List.mem_singleton.1 hc; exact .inl (Nat.le_refl _)
              mult := fun cp hc => by cases List.mem_singleton.1 hc; exact Nat.dvd_zero _
              smult := Nat.dvd_zero _
              just := .inl rfl
              cpsM := fun h => absurd h hM
              ordM := fun h => absurd h hM }
  | catchup m c =>
    simp only [State.step, State.catchupFinished]
    by_cases hM : cfg.isMaster = true
    · simp only [hM, if_true]
      split
      · next hc =>
        have ho := i.ordM hM
        have i' : CInv cfg evs { s with lastOrdered := c } :=
          { i with
            cpsM := fun hM cp hc' => ⟨(i.cpsM hM cp hc').1, Nat.le_of_lt (Nat.lt_of_le_of_lt (i.cpsM hM cp hc').2 hc)⟩
            ordM := fun hM => ⟨ho.1, Nat.le_of_lt (Nat.lt_of_le_of_lt ho.2.1 hc), ho.2.2⟩ }
        have := i'.markStable (p := c.2 / cfg.chkFreq * cfg.chkFreq) (Nat.dvd_mul_left _ _)
          (floor_le i.smult (by show s.stable ≤ c.2; omega)) (.inr (.inr (.inl ⟨hM, m, c, he, rfl⟩)))
          (fun _ => Nat.div_mul_le_self _ _)
        exact { this with }
      · exact i
    · have hM' : cfg.isMaster = false := by simpa using hM
      simp only [hM', Bool.false_eq_true, if_false]
      split
      · split
        · exact i
        · exact { nodup := List.nodup_nil
                  votes := fun k ws hk => by cases hk
                  above := fun k hk => by cases hk
                  own := fun cp hc => by cases List.mem_singleton.1 hc; exact .inl (Nat.zero_le _)
                  mult := fun cp hc => by cases List.mem_singleton.1 hc; exact Nat.dvd_zero _
                  smult := i.smult
                  just := i.just
                  cpsM := fun h => absurd h hM
                  ordM := fun h => absurd h hM }
      · exact i
  | primaryDone =>
    simp only [State.step, State.propagatePrimaryDone]
    split
    · next hM =>
      unfold State.updateWatermark
      split
      · have := i.ordM hM
        exact { i with ordM := fun _ => ⟨by show s.stable ≤ s.lastOrdered.2; omega, Nat.le_refl _, rfl⟩ }
      · exact i
    · next hM =>
      split
      · exact i
      · exact { i with ordM := fun h => absurd h hM }
  | backupSetup n =>
    simp only [State.step]
    split
    · exact i
    · next hM =>
      unfold State.updateWatermark
      split
      · exact { i with cpsM := fun h => absurd h hM, ordM := fun h => absurd h hM }
      · exact { i with cpsM := fun h => absurd h hM, ordM := fun h => absurd h hM }
  | backupClear =>
    simp only [State.step]
    split
    · exact i
    · next hM => exact { i with cpsM := fun h => absurd h hM, ordM := fun h => absurd h hM }
  | setView v w => exact { i with }
  | setMode p => exact { i with }
  | setPrimary p => exact { i with }

theorem run_snoc (cfg : Cfg) (evs : List Event) (e : Event) : run cfg (evs ++ [e]) = (run cfg evs).step cfg e := by
  simp [run]

theorem CInv.run {cfg : Cfg} (h2 : 2 ≤ cfg.n) (evs : List Event) : CInv cfg evs (run cfg evs) := by
  induction evs using snoc_induction with
  | nil => exact CInv.init cfg
  | snoc evs e ih => rw [run_snoc]; exact ih.step h2 e

/-! ### Monotonicity on the master -/

theorem startCatchup_master {cfg : Cfg} {s : State} (hM : cfg.isMaster = true) (k : CKey) :
    (s.startCatchup cfg k).stable = s.stable ∧ (s.startCatchup cfg k).low = s.low := by
  unfold State.startCatchup
  split
  · exact ⟨rfl, rfl⟩
  · simp only
    split
    · exact ⟨rfl, rfl⟩
    · split <;> exact ⟨rfl, rfl⟩

/-- The stable checkpoint of the master only moves forward. -/
theorem stable_mono {cfg : Cfg} {evs : List Event} {s : State} (i : CInv cfg evs s)
    (hM : cfg.isMaster = true) (e : Event) : s.stable ≤ (s.step cfg e).stable := by
  cases e with
  | checkpoint inst cp w =>
    simp only [State.step, State.processCheckpoint]
    split
    · next hv =>
      rw [(startCatchup_master hM cp).1]
      unfold State.tryStabilize
      split
      · exact Nat.le_refl _
      · split
        · exact Nat.le_refl _
        · exact Nat.le_of_lt (validate_process hv).2.1
    · exact Nat.le_refl _
  | ordered n root pre =>
    simp only [State.step]
    split
    · next hn =>
      unfold State.processOrdered
      split
      · unfold State.addToCheckpoint
        split
        · exact Nat.le_refl _
        · unfold State.tryStabilize
          split
          · exact Nat.le_refl _
          · split
            · exact Nat.le_refl _
            · have := i.ordM hM
              show s.stable ≤ n
              omega
      · exact Nat.le_refl _
    · exact Nat.le_refl _
  | newView cp =>
    simp only [State.step, State.newViewAccepted, hM, if_true]
    split
    · next hc => exact (i.cpsM hM cp hc).1
    · exact Nat.le_refl _
  | catchup m c =>
    simp only [State.step, State.catchupFinished, hM, if_true]
    split
    · next hc =>
      have ho := i.ordM hM
      exact floor_le i.smult (by omega)
    · exact Nat.le_refl _
  | primaryDone =>
    simp only [State.step, State.propagatePrimaryDone, hM, if_true, State.updateWatermark]
    split <;> exact Nat.le_refl _
  | backupSetup n => simp only [State.step, hM, if_true]; exact Nat.le_refl _
  | backupClear => simp only [State.step, hM, if_true]; exact Nat.le_refl _
  | _ => exact Nat.le_refl _

/-- While no catchup ends, the low watermark of the master is its stable checkpoint. -/
theorem low_eq_stable {cfg : Cfg} (hM : cfg.isMaster = true) (evs : List Event) (hn : .primaryDone ∉ evs) :
    (run cfg evs).low = (run cfg evs).stable := by
  induction evs using snoc_induction with
  | nil => rfl
  | snoc evs e ih =>
    have ih := ih (fun h => hn (List.mem_append_left _ h))
    have he : e ≠ .primaryDone := fun h => hn (by simp [h])
    rw [run_snoc]
    revert ih
    generalize run cfg evs = s
    intro ih
    cases e with
    | checkpoint inst cp w =>
      simp only [State.step, State.processCheckpoint]
      split
      · rw [(startCatchup_master hM cp).1, (startCatchup_master hM cp).2]
        unfold State.tryStabilize
        split
        · exact ih
        · split
          · exact ih
          · rfl
      · exact ih
    | ordered n root pre =>
      simp only [State.step]
      split
      · unfold State.processOrdered
        split
        · unfold State.addToCheckpoint
          split
          · exact ih
          · unfold State.tryStabilize
            split
            · exact ih
            · split
              · exact ih
              · rfl
        · exact ih
      · exact ih
    | newView cp =>
      simp only [State.step, State.newViewAccepted, hM, if_true]
      split
      · rfl
      · exact ih
    | catchup m c =>
      simp only [State.step, State.catchupFinished, hM, if_true]
      split
      · rfl
      · exact ih
    | primaryDone => exact absurd rfl he
    | backupSetup n => simp only [State.step, hM, if_true]; exact ih
    | backupClear => simp only [State.step, hM, if_true]; exact ih
    | _ => exact ih

end Verif.CP
