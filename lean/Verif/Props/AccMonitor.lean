import Verif.Proofs.AccMonitor
/-!
# C109: with the accumulating monitor, an instance is called slow exactly when it was too far behind for too long
-/
namespace Verif.Props
open Verif Verif.AccMonitor Verif.AccMonitor.Spec

theorem acc_split_last {α : Type} {a b : List α} {x y : α} {r : List α} (h : a ++ [x] = b ++ y :: r) :
    (r = [] ∧ a = b ∧ x = y) ∨ ∃ r', r = r' ++ [x] ∧ a = b ++ y :: r' := by
  rcases List.eq_nil_or_concat r with hr | ⟨r', z, hr⟩
  · subst hr
    have := List.append_inj' h rfl
    exact .inl ⟨rfl, this.1, by simpa using this.2⟩
  · subst hr
    right
    have h' : a ++ [x] = (b ++ y :: r') ++ [z] := by simpa using h
    have := List.append_inj' h' rfl
    have hz : x = z := by simpa using this.2
    exact ⟨r', by simp [hz], this.1⟩

theorem acc_behind_snoc {c : Cfg} {st : Nat} {l : List Inst} {h : List Ev} {i : Inst} {t0 : Nat} {e : Ev}
    (hb : BehindSince c st l h i t0) (hn : e ≠ .reset)
    (he : ∀ t, e = .time t → i ∈ members l h → behind c st l (h ++ [e]) i) :
    BehindSince c st l (h ++ [e]) i t0 := by
  obtain ⟨h1, h2, rfl, hm, hr, hall⟩ := hb
  refine ⟨h1, h2 ++ [e], by simp, hm, ?_, ?_⟩
  · intro hx
    rcases List.mem_append.1 hx with hx | hx
    · exact hr hx
    · exact hn (List.mem_singleton.1 hx).symm
  · intro g t r hg hi
    rw [← List.cons_append] at hg
    rcases acc_split_last hg with ⟨_, ha, rfl⟩ | ⟨r', _, ha⟩
    · have := he t rfl (by rw [ha]; exact hi)
      rw [ha] at this
      exact this
    · exact hall g t r' ha hi

theorem acc_alert_same {c : Cfg} {s s' : State} {e : Ev} (hs : s.step c e = some s') (h1 : e ≠ .reset)
    (h2 : ∀ t, e ≠ .time t) (i : Inst) : s'.alertOf i = s.alertOf i := by
  cases e with
  | time t => exact absurd rfl (h2 t)
  | reset => exact absurd rfl h1
  | remove j =>
    simp only [State.step, State.removeInstance] at hs
    split at hs
    · cases hs; rfl
    · cases hs
  | _ => cases hs; rfl

theorem acc_reset_get (l : List Inst) (i : Inst) :
    Dict.get? (l.map (fun i => (i, (none : Option Nat)))) i = if i ∈ l then some none else none := by
  induction l with
  | nil => rfl
  | cons x r ih =>
    simp only [List.map_cons, Dict.get?_cons, List.mem_cons]
    by_cases e : x = i
    · simp [e]
    · have e' : ¬ i = x := fun h => e h.symm
      simp [e, e', ih]

theorem acc_alert_reset (s : State) (i : Inst) :
    s.reset.alertOf i = if i ∈ s.instances then some none else none := by
  simp only [State.alertOf, State.reset, acc_reset_get]
  split <;> simp_all

theorem acc_sound {c : Cfg} (hc : Sane c) {st : Nat} {l : List Inst} {h : List Ev} {i : Inst} :
    ∀ {s : State} {a : Nat}, run c (State.init st l) h = some s → Forward st h → s.alertOf i = some (some a) →
      BehindSince c st l h i a ∧ a ≤ clock st h := by
  refine snoc_induction (P := fun h => ∀ {s : State} {a : Nat}, run c (State.init st l) h = some s → Forward st h →
    s.alertOf i = some (some a) → BehindSince c st l h i a ∧ a ≤ clock st h) ?_ ?_ h
  · intro s a hr _ ha
    cases hr; cases ha
  · intro h e ih s a hr hf ha
    obtain ⟨s1, h1, h2⟩ := run_snoc hr
    obtain ⟨f1, f2⟩ := forward_snoc hf
    by_cases hx : e = .reset
    · subst hx
      simp only [State.step, Option.some.injEq] at h2
      rw [← h2, acc_alert_reset] at ha
      split at ha <;> cases ha
    by_cases hy : ∃ t, e = .time t
    · obtain ⟨t, rfl⟩ := hy
      obtain ⟨k1, k2, k3⟩ := alert_time hc h1 h2 hf i
      have hle := f2 t rfl
      by_cases hi : i ∈ members l h
      · by_cases hb : behind c st l (h ++ [.time t]) i
        · rw [k3 hi hb] at ha
          cases hs : s1.alertOf i with
          | none => rw [hs] at ha; cases ha
          | some b =>
            rw [hs] at ha
            cases b with
            | none =>
              have : t = a := by simpa using ha
              subst this
              refine ⟨⟨h, [], rfl, hi, List.not_mem_nil, ?_⟩, by rw [clock_snoc]; exact Nat.le_refl _⟩
              intro g u r hg _
              have : g = [] ∧ u = t := by
                cases g with
                | nil => simp at hg; exact ⟨rfl, hg.1.symm⟩
                | cons x g => simp at hg
              obtain ⟨rfl, rfl⟩ := this
              simpa using hb
            | some b =>
              have : b = a := by simpa using ha
              subst this
              obtain ⟨x, y⟩ := ih h1 f1 hs
              refine ⟨acc_behind_snoc x hx (fun _ _ _ => hb), ?_⟩
              rw [clock_snoc]; simp only; omega
        · rw [k2 hi hb] at ha
          cases hs : s1.alertOf i with
          | none => rw [hs] at ha; cases ha
          | some b => rw [hs] at ha; cases ha
      · rw [k1 hi] at ha
        obtain ⟨x, y⟩ := ih h1 f1 ha
        refine ⟨acc_behind_snoc x hx (fun _ _ h => absurd h hi), ?_⟩
        rw [clock_snoc]; simp only; omega
    · have hy' : ∀ t, e ≠ .time t := fun t h => hy ⟨t, h⟩
      rw [acc_alert_same h2 hx hy'] at ha
      obtain ⟨x, y⟩ := ih h1 f1 ha
      refine ⟨acc_behind_snoc x hx (fun t h => absurd h (hy' t)), ?_⟩
      rw [clock_snoc]
      cases e <;> first | exact y | exact absurd rfl (hy' _)

theorem acc_complete {c : Cfg} (hc : Sane c) {st : Nat} {l : List Inst} {i : Inst} {t0 : Nat} (h1 h2 : List Ev) :
    ∀ {s : State}, run c (State.init st l) (h1 ++ .time t0 :: h2) = some s → Forward st (h1 ++ .time t0 :: h2) →
      i ∈ members l h1 → Ev.reset ∉ h2 →
      (∀ g t r, Ev.time t0 :: h2 = g ++ .time t :: r → i ∈ members l (h1 ++ g) →
        behind c st l (h1 ++ g ++ [.time t]) i) →
      ∃ a, s.alertOf i = some (some a) ∧ a ≤ t0 := by
  refine snoc_induction (P := fun h2 => ∀ {s : State}, run c (State.init st l) (h1 ++ .time t0 :: h2) = some s →
      Forward st (h1 ++ .time t0 :: h2) →
      i ∈ members l h1 → Ev.reset ∉ h2 →
      (∀ g t r, Ev.time t0 :: h2 = g ++ .time t :: r → i ∈ members l (h1 ++ g) →
        behind c st l (h1 ++ g ++ [.time t]) i) →
      ∃ a, s.alertOf i = some (some a) ∧ a ≤ t0) ?_ ?_ h2
  · intro s hr hf hi _ hall
    obtain ⟨s1, k1, k2⟩ := run_snoc hr
    obtain ⟨f1, f2⟩ := forward_snoc hf
    have hle := f2 t0 rfl
    have hb := hall [] t0 [] rfl (by simpa using hi)
    simp only [List.append_nil] at hb
    have hal := (alert_time hc k1 k2 hf i).2.2 hi hb
    have H := holds hc k1 f1
    obtain ⟨a, ha⟩ := lookAll_some (by simpa only [State.step, State.updateTime] using k2) i
      (by rw [H.instances]; exact hi)
    have ha : s1.alertOf i = some a := ha
    rw [ha] at hal
    cases a with
    | none => exact ⟨t0, hal, Nat.le_refl _⟩
    | some a => exact ⟨a, hal, Nat.le_trans (acc_sound hc k1 f1 ha).2 hle⟩
  · intro h2 e ih s hr hf hi hn hall
    have assoc : h1 ++ Ev.time t0 :: (h2 ++ [e]) = (h1 ++ Ev.time t0 :: h2) ++ [e] := by simp
    rw [assoc] at hr hf
    obtain ⟨s1, k1, k2⟩ := run_snoc hr
    obtain ⟨f1, f2⟩ := forward_snoc hf
    have hx : e ≠ .reset := fun h => hn (by simp [h])
    obtain ⟨a, ha, hle⟩ := ih k1 f1 hi (fun h => hn (by simp [h]))
      (fun g t r hg hm => hall g t (r ++ [e]) (by rw [← List.cons_append, hg]; simp) hm)
    by_cases hy : ∃ t, e = .time t
    · obtain ⟨t, rfl⟩ := hy
      obtain ⟨j1, _, j3⟩ := alert_time hc k1 k2 hf i
      by_cases hm : i ∈ members l (h1 ++ .time t0 :: h2)
      · have hb := hall (.time t0 :: h2) t [] (by simp) hm
        refine ⟨a, ?_, hle⟩
        rw [j3 hm hb, ha]; rfl
      · exact ⟨a, by rw [j1 hm, ha], hle⟩
    · exact ⟨a, by rw [acc_alert_same k2 hx (fun t h => hy ⟨t, h⟩), ha], hle⟩

/-- C109. The rate of incoming requests which the monitor uses is the moving average, over the windows since the last
reset, of the requests which came in per window. -/
theorem C109_rate {c : Cfg} (hc : Sane c) {st : Nat} {l : List Inst} {h : List Ev} {s : State}
    (hr : run c (State.init st l) h = some s) (hf : Forward st h) :
    s.threshold c = c.k * inputRate c st h := by
  unfold State.threshold; rw [(holds hc hr hf).value]

/-- C109. After any history of calls an instance is called slow exactly if, since some look longer ago than the timeout,
it was behind the best instance by more than the allowed number of requests at every look. -/
theorem C109_degraded {c : Cfg} (hc : Sane c) {st : Nat} {l : List Inst} {h : List Ev} {s : State}
    (hr : run c (State.init st l) h = some s) (hf : Forward st h) (i : Inst) :
    s.isInstanceDegraded c i = some true ↔
      ∃ t0, BehindSince c st l h i t0 ∧ clock st h > t0 + c.timeout := by
  have hts := (holds hc hr hf).timestamp
  constructor
  · intro hd
    unfold State.isInstanceDegraded at hd
    cases ha : s.alertOf i with
    | none => rw [ha] at hd; cases hd
    | some a =>
      rw [ha] at hd
      cases a with
      | none => cases hd
      | some a =>
        simp only [Option.some.injEq, decide_eq_true_eq] at hd
        exact ⟨a, (acc_sound hc hr hf ha).1, by omega⟩
  · rintro ⟨t0, ⟨h1, h2, rfl, hm, hn, hall⟩, hgt⟩
    obtain ⟨a, ha, hle⟩ := acc_complete hc h1 h2 hr hf hm hn hall
    unfold State.isInstanceDegraded
    rw [ha]
    simp only [Option.some.injEq, decide_eq_true_eq]
    omega

/-- C109. What the node asks for the master: the answer is yes exactly if the master was behind at every look, including
the one made now, since one longer ago than the timeout. -/
theorem C109_master {c : Cfg} (hc : Sane c) {st : Nat} {l : List Inst} {h : List Ev} {s s' : State} {now : Nat} {b : Bool}
    (hr : run c (State.init st l) h = some s) (hf : Forward st (h ++ [.time now]))
    (hm : s.monitorMasterDegraded c now = some (s', b)) :
    b = true ↔ ∃ t0, BehindSince c st l (h ++ [.time now]) 0 t0 ∧ now > t0 + c.timeout := by
  unfold State.monitorMasterDegraded at hm
  cases hu : s.updateTime c now with
  | none => rw [hu] at hm; cases hm
  | some s1 =>
    rw [hu] at hm
    simp only [State.isMasterDegraded, Option.map_eq_some_iff, Prod.mk.injEq] at hm
    obtain ⟨b', h1, rfl, rfl⟩ := hm
    have hr' : run c (State.init st l) (h ++ [.time now]) = some s1 := by
      rw [run_append, hr]; simp only [Option.bind_some, run, State.step, hu]
    have := C109_degraded hc hr' hf 0
    rw [h1] at this
    rw [clock_snoc] at this
    simpa using this

/-- C109. The backups which are called slow are those which were behind at every look since one longer ago than the
timeout, in the order in which they are asked. -/
theorem C109_backups {c : Cfg} (hc : Sane c) {st : Nat} {l : List Inst} {h : List Ev} {s : State}
    (hr : run c (State.init st l) h = some s) (hf : Forward st h) {backups slow : List Inst}
    (hb : s.monitorBackupsDegraded c backups = some slow) :
    slow.Sublist backups ∧
      ∀ i ∈ backups, i ∈ slow ↔ ∃ t0, BehindSince c st l h i t0 ∧ clock st h > t0 + c.timeout := by
  have key : ∀ (backups slow : List Inst), s.monitorBackupsDegraded c backups = some slow →
      slow = backups.filter (fun i => s.isInstanceDegraded c i == some true) := by
    intro backups
    induction backups with
    | nil => intro slow h; cases h; rfl
    | cons x r ih =>
      intro slow h
      simp only [State.monitorBackupsDegraded] at h
      cases h1 : s.isInstanceDegraded c x with
      | none => rw [h1] at h; cases h
      | some b =>
        cases h2 : s.monitorBackupsDegraded c r with
        | none => rw [h1, h2] at h; cases h
        | some l =>
          rw [h1, h2] at h
          cases h
          rw [List.filter_cons, ← ih l h2, h1]
          cases b <;> simp
  rw [key _ _ hb]
  refine ⟨List.filter_sublist, fun i hi => ?_⟩
  rw [← C109_degraded hc hr hf i]
  simp [hi]

/-- C109. An instance which has ordered as many requests as any other is not called slow after the next look, and one
which is watched alone neither. -/
theorem C109_best {c : Cfg} (hc : Sane c) {st : Nat} {l : List Inst} {h : List Ev} {s : State} {t : Nat}
    (hr : run c (State.init st l) (h ++ [.time t]) = some s) (hf : Forward st (h ++ [.time t])) {i : Inst}
    (hi : i ∈ members l h) (hbest : ∀ j ∈ members l h, orderedBy h j ≤ orderedBy h i) :
    s.isInstanceDegraded c i = some false := by
  obtain ⟨s1, k1, k2⟩ := run_snoc hr
  have hn : ¬ behind c st l (h ++ [.time t]) i := by
    rintro ⟨j, hj, hgt⟩
    rw [members_snoc] at hj
    have h1 := hbest j hj
    rw [orderedBy_snoc, orderedBy_snoc] at hgt
    simp only [reduceCtorEq, if_false, Nat.add_zero] at hgt
    have h2 : (orderedBy h j : Rat) ≤ (orderedBy h i : Rat) := by exact_mod_cast h1
    have h3 : 0 ≤ c.k * inputRate c st (h ++ [.time t]) := Rat.mul_nonneg hc.k (ema_nonneg hc _ _)
    grind
  have H := holds hc k1 (forward_snoc hf).1
  obtain ⟨a, ha⟩ := lookAll_some (by simpa only [State.step, State.updateTime] using k2) i
    (by rw [H.instances]; exact hi)
  have ha : s1.alertOf i = some a := ha
  have := (alert_time hc k1 k2 hf i).2.1 hi hn
  rw [ha] at this
  simp only [State.isInstanceDegraded, this, Option.map_some]

/-- C109. Right after a reset no instance is called slow. -/
theorem C109_reset (c : Cfg) (s : State) {i : Inst} (hi : i ∈ s.instances) :
    s.reset.isInstanceDegraded c i = some false := by
  simp only [State.isInstanceDegraded, acc_alert_reset, hi, if_true]

theorem acc_orderly {c : Cfg} : ∀ (n : Nat) (h : List Ev), h.length ≤ n → ∀ {l : List Inst} {s : State},
    s.instances = l → (∀ i ∈ l, ∃ a, s.alertOf i = some a) → Orderly l h →
    ∃ s', run c s h = some s' ∧ s'.instances = members l h ∧ ∀ i ∈ s'.instances, ∃ a, s'.alertOf i = some a := by
  intro n
  induction n with
  | zero =>
    intro h hn l s hl ha _
    have : h = [] := List.length_eq_zero_iff.1 (by omega)
    subst this
    exact ⟨s, rfl, hl, by rw [hl]; exact ha⟩
  | succ n ih =>
    intro h hn l s hl ha ho
    subst hl
    match h with
    | [] => exact ⟨s, rfl, rfl, ha⟩
    | .add i :: .reset :: r =>
      simp only [Orderly] at ho
      have hins : (s.addInstance i).reset.instances = if i ∈ s.instances then s.instances else s.instances ++ [i] := by
        simp [State.reset, State.addInstance]
      obtain ⟨s', h1, h2, h3⟩ := ih r (by simp at hn; omega) hins
        (by intro j hj; rw [← hins] at hj; exact ⟨none, by rw [acc_alert_reset, if_pos (by exact hj)]⟩) ho
      exact ⟨s', h1, h2, h3⟩
    | .add _ :: [] => exact absurd ho (by simp [Orderly])
    | .add _ :: .add _ :: _ => exact absurd ho (by simp [Orderly])
    | .add _ :: .remove _ :: _ => exact absurd ho (by simp [Orderly])
    | .add _ :: .time _ :: _ => exact absurd ho (by simp [Orderly])
    | .add _ :: .received :: _ => exact absurd ho (by simp [Orderly])
    | .add _ :: .ordered _ :: _ => exact absurd ho (by simp [Orderly])
    | .remove i :: r =>
      obtain ⟨hi, ho⟩ := ho
      have hs : s.step c (.remove i) = some { s with instances := s.instances.filter (fun j => j != i) } := by
        simp [State.step, State.removeInstance, hi]
      have he : s.instances.filter (fun j => j != i) = s.instances.filter (· ≠ i) := by
        congr 1; funext j; by_cases e : j = i <;> simp [e]
      obtain ⟨s', h1, h2, h3⟩ := ih r (by simp at hn; omega)
        (s := { s with instances := s.instances.filter (fun j => j != i) }) he
        (by intro j hj; exact ha j (List.mem_filter.1 hj).1) ho
      exact ⟨s', by simp only [run, hs]; exact h1, h2, h3⟩
    | .reset :: r =>
      obtain ⟨s', h1, h2, h3⟩ := ih r (by simp at hn; omega) (s := s.reset) (l := s.instances) rfl
        (by intro j hj; exact ⟨none, by rw [acc_alert_reset, if_pos hj]⟩) ho
      exact ⟨s', h1, h2, h3⟩
    | .time t :: r =>
      obtain ⟨s1, hs1⟩ := lookAll_ok (c := c) (l := s.instances)
        (s := { s with timestamp := t, rate := s.rate.updateTime c t }) ha
      obtain ⟨b1, _, _, _, _, b6⟩ := lookAll_spec hs1
      have hs : s.step c (.time t) = some s1 := hs1
      obtain ⟨s', h1, h2, h3⟩ := ih r (by simp at hn; omega) (s := s1) (l := s.instances) b1
        (by
          intro j hj
          rw [b6, if_pos hj]
          obtain ⟨a, h⟩ := ha j hj
          exact ⟨_, by rw [show State.alertOf { s with timestamp := t, rate := s.rate.updateTime c t } j = some a from h]; rfl⟩)
        ho
      exact ⟨s', by simp only [run, hs]; exact h1, h2, h3⟩
    | .received :: r =>
      obtain ⟨s', h1, h2, h3⟩ := ih r (by simp at hn; omega) (s := s.requestReceived) (l := s.instances) rfl ha ho
      exact ⟨s', h1, h2, h3⟩
    | .ordered i :: r =>
      obtain ⟨s', h1, h2, h3⟩ := ih r (by simp at hn; omega) (s := s.requestOrdered i) (l := s.instances) rfl ha ho
      exact ⟨s', h1, h2, h3⟩

/-- C109. If every added instance is followed by a reset, as a node does it, no call raises an error, and every watched
instance can be asked for. -/
theorem C109_no_error (c : Cfg) (st : Nat) (l : List Inst) (h : List Ev) (ho : Orderly l h) :
    ∃ s, run c (State.init st l) h = some s ∧ ∀ i ∈ members l h, ∃ b, s.isInstanceDegraded c i = some b := by
  obtain ⟨s, h1, h2, h3⟩ := acc_orderly (c := c) h.length h (Nat.le_refl _) (l := l) (s := State.init st l) rfl
    (fun i _ => ⟨none, rfl⟩) ho
  refine ⟨s, h1, fun i hi => ?_⟩
  rw [← h2] at hi
  obtain ⟨a, ha⟩ := h3 i hi
  unfold State.isInstanceDegraded
  rw [ha]
  cases a <;> exact ⟨_, rfl⟩

/-- C109, the other side: after a reset, an instance which is added makes every later look raise an error until the
next reset. -/
theorem C109_added_without_reset (c : Cfg) (s : State) {i : Inst} (hi : i ∉ s.instances) (t : Nat) :
    run c s [.reset, .add i, .time t] = none ∧ (s.reset.addInstance i).isInstanceDegraded c i = none := by
  have ha : ∀ (u : Nat) (e : Est),
      State.alertOf { s.reset.addInstance i with timestamp := u, rate := e } i = none := by
    intro u e
    have := acc_alert_reset s i
    rw [if_neg hi] at this
    exact this
  constructor
  · simp only [run, State.step]
    cases hu : (s.reset.addInstance i).updateTime c t with
    | none => rfl
    | some s' =>
      obtain ⟨a, h⟩ := lookAll_some hu i (by
        simp only [State.addInstance]
        have : s.reset.instances.contains i = false := by
          simpa [State.reset] using hi
        rw [this]; simp)
      rw [ha] at h; cases h
  · have := ha (s.reset.addInstance i).timestamp (s.reset.addInstance i).rate
    unfold State.isInstanceDegraded
    rw [show (s.reset.addInstance i).alertOf i = none from this]

/-! ## A run

Three instances, 100 requests allowed per request and tick, a timeout of 300, windows of 30 and a weight of 7/100. -/

def accCfg : Cfg := { k := 100, timeout := 300, window := 30, alpha := 7 / 100 }

theorem accCfg_sane : Sane accCfg := ⟨by decide +kernel, by decide, by decide +kernel, by decide +kernel⟩

/-- A request comes in at 10; the backups order it, the master does not; the monitor looks again and again. -/
def accHist : List Ev :=
  [.time 10, .received, .time 20, .ordered 1, .ordered 2, .time 45, .time 200, .time 345]

example : Forward 0 accHist ∧ Orderly [0, 1, 2] accHist := by
  simp [Forward, Orderly, accHist]

/-- At 45 the rate is 7/3000; the difference 1 is more than 100 times that. At 345 the master is not yet slow. -/
example : (run accCfg (State.init 0 [0, 1, 2]) (accHist.take 6)).map (fun s => (s.rate.value, s.alertOf 0, s.alertOf 1))
    = some (7 / 3000, some (some 45), some none) := by decide +kernel

example : (run accCfg (State.init 0 [0, 1, 2]) accHist).map (fun s => s.isMasterDegraded accCfg) = some (some false) := by
  decide +kernel

/-- One tick later it is (C109_master). -/
example : ((run accCfg (State.init 0 [0, 1, 2]) accHist).bind (fun s => s.monitorMasterDegraded accCfg 346)).map (·.2)
    = some true := by decide +kernel

/-- Had the master ordered the request in between, it would not be (C109_best). -/
example : ((run accCfg (State.init 0 [0, 1, 2]) (accHist ++ [.ordered 0])).bind
    (fun s => s.monitorMasterDegraded accCfg 346)).map (·.2) = some false := by decide +kernel

/-- Nor after a reset, nor with many more requests coming in. -/
example : ((run accCfg (State.init 0 [0, 1, 2]) (accHist ++ [.reset])).bind
    (fun s => s.monitorMasterDegraded accCfg 346)).map (·.2) = some false := by decide +kernel

example : ((run accCfg (State.init 0 [0, 1, 2]) (.time 10 :: List.replicate 6 .received ++ accHist.drop 2)).bind
    (fun s => s.monitorMasterDegraded accCfg 346)).map (fun p => (p.2, p.1.alertOf 0)) = some (false, some (some 200)) := by
  decide +kernel

/-- The slow backups: backup 2 ordered nothing (C109_backups). -/
example : (run accCfg (State.init 0 [0, 1, 2]) [.time 10, .received, .ordered 0, .ordered 1, .time 20, .time 321]).map
    (fun s => s.monitorBackupsDegraded accCfg [1, 2]) = some (some [2]) := by decide +kernel

/-- Instances come and go as a node does it (C109_no_error). -/
example : Orderly [0] [.add 1, .reset, .time 5, .remove 1, .time 6, .add 1, .reset, .ordered 1, .time 7] := by
  simp [Orderly]

end Verif.Props
