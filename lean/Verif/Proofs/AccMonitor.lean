import Verif.Spec.AccMonitor
import Verif.Proofs.Count
/-! # Lemmas on the accumulating monitor -/
namespace Verif.AccMonitor
open Verif Verif.AccMonitor.Spec

theorem ema_congr {w : Nat} {a : Rat} {f g : Nat → Nat} {n : Nat} (h : ∀ m, m < n → f m = g m) :
    ema w a f n = ema w a g n := by
  induction n with
  | zero => rfl
  | succ n ih => simp only [ema, h n (by omega), ih (fun m hm => h m (by omega))]

theorem ema_nonneg {c : Cfg} (hc : Sane c) (f : Nat → Nat) (n : Nat) : 0 ≤ ema c.window c.alpha f n := by
  induction n with
  | zero => exact Rat.le_refl
  | succ n ih =>
    have h1 : (0 : Rat) ≤ (f n : Rat) / (c.window : Rat) := by
      rw [Rat.div_def]
      refine Rat.mul_nonneg (by exact_mod_cast Nat.zero_le _) ?_
      exact Rat.le_of_lt (Rat.inv_pos.2 (by exact_mod_cast hc.window))
    have h2 : (0 : Rat) ≤ 1 - c.alpha := by have := hc.alpha1; grind
    have := Rat.mul_nonneg h1 hc.alpha0
    have := Rat.mul_nonneg ih h2
    simp only [ema]
    grind

theorem loop_spec (c : Cfg) (hw : 0 < c.window) (S t : Nat) (cnt : Nat → Nat) :
    ∀ (f n : Nat) (e : Est), e.start = S + n * c.window → e.sum = cnt n →
      e.value = ema c.window c.alpha cnt n → (∀ m, n < m → cnt m = 0) → n ≤ windowOf c.window S t →
      t ≤ S + (n + 1 + f) * c.window →
      let N := windowOf c.window S t
      (Est.loop c t f e).start = S + N * c.window ∧ (Est.loop c t f e).sum = cnt N ∧
        (Est.loop c t f e).value = ema c.window c.alpha cnt N := by
  intro f
  have last : ∀ n, n ≤ windowOf c.window S t → t ≤ S + (n + 1) * c.window → n = windowOf c.window S t := by
    intro n hn ht
    have h0 : 0 < (n + 1) * c.window := Nat.mul_pos (by omega) hw
    have : windowOf c.window S t < n + 1 := by
      unfold windowOf
      rw [Nat.div_lt_iff_lt_mul hw]
      omega
    omega
  induction f with
  | zero =>
    intro n e h1 h2 h3 _ h5 h6
    have := last n h5 (by simpa using h6)
    simp only [Est.loop]
    rw [← this]
    exact ⟨h1, h2, h3⟩
  | succ f ih =>
    intro n e h1 h2 h3 h4 h5 h6
    simp only [Est.loop]
    have hs : (n + 1) * c.window = n * c.window + c.window := Nat.succ_mul _ _
    split
    · rename_i hgt
      refine ih (n + 1) _ ?_ ?_ ?_ ?_ ?_ ?_
      · simp only [h1]; omega
      · exact (h4 (n + 1) (by omega)).symm
      · simp only [average, ema, h2, h3]
      · intro m hm; exact h4 m (by omega)
      · unfold windowOf
        rw [Nat.le_div_iff_mul_le hw]
        omega
      · have : n + 1 + 1 + f = n + 1 + (f + 1) := by omega
        rw [this]; exact h6
    · rename_i hle
      have := last n h5 (by omega)
      rw [← this]
      exact ⟨h1, h2, h3⟩

/-- What one pass of the loop does to the alert of the instance. -/
def State.upd (c : Cfg) (s : State) (i : Inst) (a : Option Nat) : Option Nat :=
  if s.lags c i then some (a.getD s.timestamp) else none

theorem look_spec {c : Cfg} {s s' : State} {i : Inst} (h : s.look c i = some s') :
    s'.instances = s.instances ∧ s'.ordered = s.ordered ∧ s'.timestamp = s.timestamp ∧ s'.dflt = s.dflt ∧
    s'.rate = s.rate ∧ ∀ j, s'.alertOf j = if j = i then (s.alertOf i).map (s.upd c i) else s.alertOf j := by
  unfold State.look at h
  cases ha : s.alertOf i with
  | none => rw [ha] at h; cases h
  | some a =>
    rw [ha] at h
    have key : ∀ v, ∀ j, State.alertOf { s with alert := s.alert.set i v } j = if j = i then some v else s.alertOf j := by
      intro v j
      simp only [State.alertOf, Dict.get?_set]
      by_cases e : j = i
      · simp [e]
      · have e' : ¬ i = j := fun x => e x.symm
        simp [e, e']
    by_cases hl : s.lags c i = true
    · cases a with
      | none =>
        simp only [hl, Option.isSome_none, Bool.false_and, Bool.not_false, Bool.true_and, if_true] at h
        cases h
        refine ⟨rfl, rfl, rfl, rfl, rfl, fun j => ?_⟩
        rw [key]; simp [State.upd, hl]
      | some b =>
        simp only [hl, Option.isSome_some, Bool.not_true, Bool.and_false, Bool.false_and] at h
        cases h
        refine ⟨rfl, rfl, rfl, rfl, rfl, fun j => ?_⟩
        by_cases e : j = i
        · subst e; simp [State.upd, hl, ha]
        · simp [e]
    · have hl' : s.lags c i = false := by simpa using hl
      cases a with
      | none =>
        simp only [hl', Option.isSome_none, Bool.and_false, Bool.false_and] at h
        cases h
        refine ⟨rfl, rfl, rfl, rfl, rfl, fun j => ?_⟩
        by_cases e : j = i
        · subst e; simp [State.upd, hl', ha]
        · simp [e]
      | some b =>
        simp only [hl', Option.isSome_some, Bool.not_false, Bool.and_true, if_true] at h
        cases h
        refine ⟨rfl, rfl, rfl, rfl, rfl, fun j => ?_⟩
        rw [key]; simp [State.upd, hl']

theorem lags_congr {c : Cfg} {s s' : State} (h1 : s'.instances = s.instances) (h2 : s'.ordered = s.ordered)
    (h3 : s'.rate = s.rate) (i : Inst) : s'.lags c i = s.lags c i := by
  cases s; cases s'
  simp only at h1 h2 h3
  subst h1 h2 h3
  rfl

theorem lookAll_spec {c : Cfg} : ∀ {l : List Inst} {s s' : State}, State.lookAll c l s = some s' →
    s'.instances = s.instances ∧ s'.ordered = s.ordered ∧ s'.timestamp = s.timestamp ∧ s'.dflt = s.dflt ∧
    s'.rate = s.rate ∧ ∀ j, s'.alertOf j = if j ∈ l then (s.alertOf j).map (s.upd c j) else s.alertOf j := by
  intro l
  induction l with
  | nil => intro s s' h; cases h; simp
  | cons i r ih =>
    intro s s' h
    simp only [State.lookAll] at h
    cases hl : s.look c i with
    | none => rw [hl] at h; cases h
    | some s1 =>
      rw [hl] at h
      obtain ⟨a1, a2, a3, a4, a5, a6⟩ := look_spec hl
      obtain ⟨b1, b2, b3, b4, b5, b6⟩ := ih h
      refine ⟨b1.trans a1, b2.trans a2, b3.trans a3, b4.trans a4, b5.trans a5, fun j => ?_⟩
      have hu : ∀ k, s1.upd c k = s.upd c k := by
        intro k; funext a
        simp only [State.upd, lags_congr a1 a2 a5, a3]
      rw [b6, a6, hu]
      by_cases e : j = i
      · subst e
        simp only [if_true, List.mem_cons, true_or]
        split
        · cases s.alertOf j with
          | none => rfl
          | some a =>
            simp only [Option.map_some, State.upd]
            split <;> simp
        · rfl
      · simp [e]

theorem lookAll_some {c : Cfg} : ∀ {l : List Inst} {s s' : State}, State.lookAll c l s = some s' →
    ∀ i ∈ l, ∃ a, s.alertOf i = some a := by
  intro l
  induction l with
  | nil => intro s s' _ i hi; cases hi
  | cons x r ih =>
    intro s s' h i hi
    simp only [State.lookAll] at h
    cases hl : s.look c x with
    | none => rw [hl] at h; cases h
    | some s1 =>
      rw [hl] at h
      by_cases e : i = x
      · subst e
        cases ha : s.alertOf i with
        | none => simp [State.look, ha] at hl
        | some a => exact ⟨a, rfl⟩
      · have hi' : i ∈ r := by
          cases hi with
          | head => exact absurd rfl e
          | tail _ h => exact h
        obtain ⟨a, ha⟩ := ih h i hi'
        rw [(look_spec hl).2.2.2.2.2, if_neg e] at ha
        exact ⟨a, ha⟩

/-- The loop ends without an error if each instance can be looked up. -/
theorem lookAll_ok {c : Cfg} : ∀ {l : List Inst} {s : State}, (∀ i ∈ l, ∃ a, s.alertOf i = some a) →
    ∃ s', State.lookAll c l s = some s' := by
  intro l
  induction l with
  | nil => intro s _; exact ⟨s, rfl⟩
  | cons x r ih =>
    intro s h
    obtain ⟨a, ha⟩ := h x (.head _)
    have : ∃ s1, s.look c x = some s1 := by
      unfold State.look
      rw [ha]
      simp only
      split
      · exact ⟨_, rfl⟩
      · split
        · exact ⟨_, rfl⟩
        · exact ⟨_, rfl⟩
    obtain ⟨s1, h1⟩ := this
    simp only [State.lookAll, h1]
    refine ih fun i hi => ?_
    rw [(look_spec h1).2.2.2.2.2]
    split
    · exact ⟨_, by rw [ha]; rfl⟩
    · exact h i (.tail _ hi)

theorem foldl_max (f : Inst → Nat) : ∀ (l : List Inst) (a : Nat),
    a ≤ l.foldl (fun m j => max m (f j)) a ∧ (∀ j ∈ l, f j ≤ l.foldl (fun m j => max m (f j)) a) ∧
    (l.foldl (fun m j => max m (f j)) a = a ∨ ∃ j ∈ l, l.foldl (fun m j => max m (f j)) a = f j) := by
  intro l
  induction l with
  | nil => intro a; simp
  | cons x r ih =>
    intro a
    obtain ⟨h1, h2, h3⟩ := ih (max a (f x))
    simp only [List.foldl_cons]
    refine ⟨by omega, ?_, ?_⟩
    · intro j hj
      cases hj with
      | head => omega
      | tail _ hj => exact h2 j hj
    · rcases h3 with h3 | ⟨j, hj, h3⟩
      · rw [h3]
        by_cases h : f x ≤ a
        · left; omega
        · right; exact ⟨x, .head _, by omega⟩
      · right; exact ⟨j, .tail _ hj, h3⟩

theorem lags_iff {c : Cfg} {s : State} {i : Inst} (hi : i ∈ s.instances) (ht : 0 ≤ s.threshold c) :
    s.lags c i = true ↔ ∃ j ∈ s.instances, (s.orderedOf j : Rat) > (s.orderedOf i : Rat) + s.threshold c := by
  unfold State.lags
  split
  · rename_i hlen
    constructor
    · intro h; cases h
    · rintro ⟨j, hj, hgt⟩
      have : j = i := by
        match hs : s.instances, hlen with
        | [], _ => rw [hs] at hi; cases hi
        | [x], _ => rw [hs] at hi hj; simp at hi hj; rw [hi, hj]
        | _ :: _ :: _, hlen => exact absurd hlen (by simp)
      subst this
      grind
  · obtain ⟨_, h2, h3⟩ := foldl_max s.orderedOf s.instances 0
    rw [decide_eq_true_iff]
    have hm : s.maxOrdered = s.instances.foldl (fun m j => max m (s.orderedOf j)) 0 := rfl
    rw [← hm] at h2 h3
    constructor
    · intro h
      rcases h3 with h3 | ⟨j, hj, h3⟩
      · rw [h3] at h
        have : (0 : Rat) ≤ (s.orderedOf i : Rat) := by exact_mod_cast Nat.zero_le _
        exact absurd h (by simp; grind)
      · exact ⟨j, hj, by rw [h3] at h; grind⟩
    · rintro ⟨j, hj, h⟩
      have : (s.orderedOf j : Rat) ≤ (s.maxOrdered : Rat) := by exact_mod_cast h2 j hj
      grind

/-! ## Histories, from the end -/

theorem run_append (c : Cfg) : ∀ (h g : List Ev) (s : State),
    run c s (h ++ g) = (run c s h).bind (fun s' => run c s' g) := by
  intro h g
  induction h with
  | nil => intro s; rfl
  | cons e r ih =>
    intro s
    simp only [List.cons_append, run]
    cases s.step c e with
    | none => rfl
    | some s' => exact ih s'

theorem run_snoc {c : Cfg} {s s' : State} {h : List Ev} {e : Ev} (hr : run c s (h ++ [e]) = some s') :
    ∃ s1, run c s h = some s1 ∧ s1.step c e = some s' := by
  rw [run_append] at hr
  cases h1 : run c s h with
  | none => rw [h1] at hr; cases hr
  | some s1 =>
    rw [h1] at hr
    refine ⟨s1, rfl, ?_⟩
    simp only [Option.bind_some, run] at hr
    cases h2 : s1.step c e with
    | none => rw [h2] at hr; cases hr
    | some s2 => rw [h2] at hr; exact hr

theorem forward_snoc {h : List Ev} {e : Ev} : ∀ {st : Nat}, Forward st (h ++ [e]) →
    Forward st h ∧ ∀ t, e = .time t → clock st h ≤ t := by
  induction h with
  | nil =>
    intro st hf
    refine ⟨trivial, ?_⟩
    intro t he; subst he
    exact hf.1
  | cons x r ih =>
    intro st hf
    cases x with
    | time t =>
      obtain ⟨h1, h2⟩ := hf
      obtain ⟨a, b⟩ := ih h2
      exact ⟨⟨h1, a⟩, b⟩
    | _ =>
      obtain ⟨a, b⟩ := ih (st := st) hf
      exact ⟨a, b⟩

theorem pair_clock (st : Nat) (h : List Ev) :
    (h.foldl (fun (p : Nat × Nat) e => match e with
      | .time u => (u, p.2)
      | .reset => (p.1, p.1)
      | _ => p) (st, st)).1 = clock st h := by
  refine snoc_induction (P := fun h => (h.foldl (fun (p : Nat × Nat) e => match e with
      | .time u => (u, p.2)
      | .reset => (p.1, p.1)
      | _ => p) (st, st)).1 = clock st h) rfl ?_ h
  intro h e ih
  rw [List.foldl_append]
  unfold clock at *
  rw [List.foldl_append]
  cases e <;> simp [ih]

theorem pair_clock' (st : Nat) (h : List Ev) :
    (h.foldl (fun (p : Nat × List Nat) e => match e with
      | .time u => (u, p.2)
      | .reset => (p.1, [])
      | .received => (p.1, p.2 ++ [p.1])
      | _ => p) (st, [])).1 = clock st h := by
  refine snoc_induction (P := fun h => (h.foldl (fun (p : Nat × List Nat) e => match e with
      | .time u => (u, p.2)
      | .reset => (p.1, [])
      | .received => (p.1, p.2 ++ [p.1])
      | _ => p) (st, [])).1 = clock st h) rfl ?_ h
  intro h e ih
  rw [List.foldl_append]
  unfold clock at *
  rw [List.foldl_append]
  cases e <;> simp [ih]

theorem clock_snoc (st : Nat) (h : List Ev) (e : Ev) :
    clock st (h ++ [e]) = match e with | .time u => u | _ => clock st h := by
  unfold clock; rw [List.foldl_append]; rfl

theorem since_snoc (st : Nat) (h : List Ev) (e : Ev) :
    since st (h ++ [e]) = if e = .reset then clock st h else since st h := by
  have := pair_clock st h
  unfold since; rw [List.foldl_append]
  cases e <;> first | rfl | exact this

theorem arrivals_snoc (st : Nat) (h : List Ev) (e : Ev) :
    arrivals st (h ++ [e]) = match e with
      | .reset => []
      | .received => arrivals st h ++ [clock st h]
      | _ => arrivals st h := by
  have := pair_clock' st h
  unfold arrivals; rw [List.foldl_append]
  cases e <;> first | rfl | exact congrArg (fun x => _ ++ [x]) this

theorem members_snoc (l : List Inst) (h : List Ev) (e : Ev) :
    members l (h ++ [e]) = match e with
      | .add i => if i ∈ members l h then members l h else members l h ++ [i]
      | .remove i => (members l h).filter (· ≠ i)
      | _ => members l h := by
  unfold members; rw [List.foldl_append]; rfl

theorem current_snoc (h : List Ev) (e : Ev) :
    current (h ++ [e]) = if e = .reset then [] else current h ++ [e] := by
  unfold current; rw [List.foldl_append]; rfl

theorem orderedBy_snoc (h : List Ev) (e : Ev) (i : Inst) :
    orderedBy (h ++ [e]) i = if e = .reset then 0 else orderedBy h i + if e = .ordered i then 1 else 0 := by
  unfold orderedBy
  rw [current_snoc]
  split
  · rfl
  · rw [List.count_append]
    simp [List.count_cons]

/-! ## What the state holds -/

/-- The counts of the windows. -/
def cntOf (c : Cfg) (st : Nat) (h : List Ev) (m : Nat) : Nat :=
  (arrivals st h).countP (fun t => windowOf c.window (since st h) t = m)

/-- What the state holds after the calls `h`. -/
structure Holds (c : Cfg) (st : Nat) (l : List Inst) (h : List Ev) (s : State) : Prop where
  instances : s.instances = members l h
  ordered : ∀ i, s.orderedOf i = orderedBy h i
  timestamp : s.timestamp = clock st h
  since : since st h ≤ clock st h
  early : ∀ t ∈ arrivals st h, t ≤ clock st h
  start : s.rate.start = Spec.since st h + windowOf c.window (Spec.since st h) (clock st h) * c.window
  sum : s.rate.sum = cntOf c st h (windowOf c.window (Spec.since st h) (clock st h))
  value : s.rate.value = inputRate c st h

theorem windowOf_mono (w S : Nat) {a b : Nat} (h : a ≤ b) : windowOf w S a ≤ windowOf w S b :=
  Nat.div_le_div_right (by omega)

theorem windowOf_self (w S : Nat) : windowOf w S S = 0 := by
  unfold windowOf; simp

theorem holds {c : Cfg} (hc : Sane c) {st : Nat} {l : List Inst} {h : List Ev} :
    ∀ {s : State}, run c (State.init st l) h = some s → Forward st h → Holds c st l h s := by
  refine snoc_induction (P := fun h => ∀ {s : State}, run c (State.init st l) h = some s → Forward st h →
    Holds c st l h s) ?_ ?_ h
  · intro s hr _
    cases hr
    refine ⟨rfl, fun _ => rfl, rfl, Nat.le_refl _, (by intro t ht; cases ht), ?_, rfl, ?_⟩
    · show st = st + windowOf c.window st st * c.window
      rw [windowOf_self]; simp
    · show (0 : Rat) = ema _ _ _ (windowOf c.window st st)
      rw [windowOf_self]; rfl
  · intro h e ih s hr hf
    obtain ⟨s1, h1, h2⟩ := run_snoc hr
    obtain ⟨f1, f2⟩ := forward_snoc hf
    have H := ih h1 f1
    cases e with
    | add i =>
      simp only [State.step, Option.some.injEq] at h2
      subst h2
      refine ⟨?_, ?_, ?_, ?_, ?_, ?_, ?_, ?_⟩
      · rw [members_snoc, ← H.instances]; simp [State.addInstance]
      · intro j; rw [orderedBy_snoc]; simp only [reduceCtorEq, if_false, Nat.add_zero]; exact H.ordered j
      · rw [clock_snoc]; exact H.timestamp
      · rw [clock_snoc, since_snoc]; simp only [reduceCtorEq, if_false]; exact H.since
      · rw [clock_snoc, arrivals_snoc]; exact H.early
      · rw [clock_snoc, since_snoc]; simp only [reduceCtorEq, if_false]; exact H.start
      · unfold cntOf; rw [clock_snoc, since_snoc, arrivals_snoc]; simp only [reduceCtorEq, if_false]; exact H.sum
      · unfold inputRate; rw [clock_snoc, since_snoc, arrivals_snoc]; simp only [reduceCtorEq, if_false]; exact H.value
    | remove i =>
      simp only [State.step, State.removeInstance] at h2
      split at h2
      · cases h2
        refine ⟨?_, ?_, ?_, ?_, ?_, ?_, ?_, ?_⟩
        · rw [members_snoc, ← H.instances]
          show s1.instances.filter (fun j => j != i) = _
          congr 1
          funext j
          by_cases e : j = i <;> simp [e]
        · intro j; rw [orderedBy_snoc]; simp only [reduceCtorEq, if_false, Nat.add_zero]; exact H.ordered j
        · rw [clock_snoc]; exact H.timestamp
        · rw [clock_snoc, since_snoc]; simp only [reduceCtorEq, if_false]; exact H.since
        · rw [clock_snoc, arrivals_snoc]; exact H.early
        · rw [clock_snoc, since_snoc]; simp only [reduceCtorEq, if_false]; exact H.start
        · unfold cntOf; rw [clock_snoc, since_snoc, arrivals_snoc]; simp only [reduceCtorEq, if_false]; exact H.sum
        · unfold inputRate; rw [clock_snoc, since_snoc, arrivals_snoc]; simp only [reduceCtorEq, if_false]; exact H.value
      · cases h2
    | reset =>
      simp only [State.step, Option.some.injEq] at h2
      subst h2
      refine ⟨?_, ?_, ?_, ?_, ?_, ?_, ?_, ?_⟩
      · rw [members_snoc]; exact H.instances
      · intro j; rw [orderedBy_snoc]; rfl
      · rw [clock_snoc]; exact H.timestamp
      · rw [clock_snoc, since_snoc]; simp
      · rw [arrivals_snoc]; intro t ht; cases ht
      · rw [clock_snoc, since_snoc]
        simp only [if_true, windowOf_self]
        show s1.timestamp = _
        rw [H.timestamp]; simp
      · unfold cntOf; rw [arrivals_snoc]; rfl
      · unfold inputRate; rw [clock_snoc, since_snoc]
        simp only [if_true, windowOf_self]; rfl
    | time t =>
      simp only [State.step, State.updateTime] at h2
      obtain ⟨b1, b2, b3, b4, b5, _⟩ := lookAll_spec h2
      have hle := f2 t rfl
      have hw0 := H.since
      have L := loop_spec c hc.window (since st h) t (cntOf c st h) t
        (windowOf c.window (since st h) (clock st h)) s1.rate H.start H.sum H.value ?_
        (windowOf_mono _ _ hle) ?_
      · refine ⟨?_, ?_, ?_, ?_, ?_, ?_, ?_, ?_⟩
        · rw [members_snoc, b1]; exact H.instances
        · intro j; rw [orderedBy_snoc]
          simp only [State.orderedOf, b2]
          simp only [reduceCtorEq, if_false, Nat.add_zero]
          exact H.ordered j
        · rw [clock_snoc, b3]
        · rw [clock_snoc, since_snoc]; simp; omega
        · rw [clock_snoc, arrivals_snoc]; intro u hu; have := H.early u hu; simp only; omega
        · rw [clock_snoc, since_snoc, b5]; exact L.1
        · unfold cntOf; rw [clock_snoc, since_snoc, arrivals_snoc, b5]; exact L.2.1
        · unfold inputRate; rw [clock_snoc, since_snoc, arrivals_snoc, b5]; exact L.2.2
      · intro m hm
        unfold cntOf
        rw [List.countP_eq_zero]
        intro u hu
        have := windowOf_mono c.window (since st h) (H.early u hu)
        simp only [decide_eq_true_eq]
        omega
      · have : t * 1 ≤ t * c.window := Nat.mul_le_mul_left _ hc.window
        have : t * c.window ≤ (windowOf c.window (since st h) (clock st h) + 1 + t) * c.window :=
          Nat.mul_le_mul_right _ (by omega)
        omega
    | received =>
      simp only [State.step, Option.some.injEq] at h2
      subst h2
      have key : ∀ m, cntOf c st (h ++ [.received]) m
          = cntOf c st h m + if windowOf c.window (since st h) (clock st h) = m then 1 else 0 := by
        intro m
        unfold cntOf
        rw [arrivals_snoc, since_snoc]
        simp [List.countP_append, List.countP_cons]
      refine ⟨?_, ?_, ?_, ?_, ?_, ?_, ?_, ?_⟩
      · rw [members_snoc]; exact H.instances
      · intro j; rw [orderedBy_snoc]; simp only [reduceCtorEq, if_false, Nat.add_zero]; exact H.ordered j
      · rw [clock_snoc]; exact H.timestamp
      · rw [clock_snoc, since_snoc]; simp only [reduceCtorEq, if_false]; exact H.since
      · rw [clock_snoc, arrivals_snoc]
        intro t ht
        simp only [List.mem_append, List.mem_singleton] at ht
        rcases ht with ht | ht
        · exact H.early t ht
        · rw [ht]; exact Nat.le_refl _
      · rw [clock_snoc, since_snoc]; simp only [reduceCtorEq, if_false]; exact H.start
      · rw [key, clock_snoc, since_snoc]
        show s1.rate.sum + 1 = _
        rw [H.sum]; simp
      · show s1.rate.value = _
        rw [H.value]
        show ema _ _ (cntOf c st h) _ = ema _ _ (cntOf c st (h ++ [.received])) _
        rw [clock_snoc, since_snoc]
        simp only [reduceCtorEq, if_false]
        apply ema_congr
        intro m hm
        rw [key, if_neg (by omega)]
        rfl
    | ordered i =>
      simp only [State.step, Option.some.injEq] at h2
      subst h2
      refine ⟨?_, ?_, ?_, ?_, ?_, ?_, ?_, ?_⟩
      · rw [members_snoc]; exact H.instances
      · intro j; rw [orderedBy_snoc]
        have := H.ordered j
        have hi := H.ordered i
        simp only [State.orderedOf] at this hi
        simp only [State.orderedOf, State.requestOrdered, Dict.get?_set, hi]
        by_cases e : i = j
        · subst e; simp
        · simp [e, this]
      · rw [clock_snoc]; exact H.timestamp
      · rw [clock_snoc, since_snoc]; simp only [reduceCtorEq, if_false]; exact H.since
      · rw [clock_snoc, arrivals_snoc]; exact H.early
      · rw [clock_snoc, since_snoc]; simp only [reduceCtorEq, if_false]; exact H.start
      · unfold cntOf; rw [clock_snoc, since_snoc, arrivals_snoc]; simp only [reduceCtorEq, if_false]; exact H.sum
      · unfold inputRate; rw [clock_snoc, since_snoc, arrivals_snoc]; simp only [reduceCtorEq, if_false]; exact H.value

/-- The alert after a call of `time`. -/
theorem alert_time {c : Cfg} (hc : Sane c) {st : Nat} {l : List Inst} {h : List Ev} {t : Nat} {s s' : State}
    (hr : run c (State.init st l) h = some s) (hs : s.step c (.time t) = some s')
    (hf : Forward st (h ++ [.time t])) (i : Inst) :
    (i ∉ members l h → s'.alertOf i = s.alertOf i) ∧
    (i ∈ members l h → ¬ behind c st l (h ++ [.time t]) i → s'.alertOf i = (s.alertOf i).map (fun _ => none)) ∧
    (i ∈ members l h → behind c st l (h ++ [.time t]) i →
      s'.alertOf i = (s.alertOf i).map (fun a => some (a.getD t))) := by
  have H := holds hc hr (forward_snoc hf).1
  have hr' : run c (State.init st l) (h ++ [.time t]) = some s' := by
    rw [run_append, hr]; simp only [Option.bind_some, run, hs]
  have H' := holds hc hr' hf
  simp only [State.step, State.updateTime] at hs
  obtain ⟨b1, b2, b3, b4, b5, b6⟩ := lookAll_spec hs
  have hm : members l (h ++ [.time t]) = members l h := by rw [members_snoc]
  have ht : 0 ≤ s'.threshold c := by
    unfold State.threshold
    rw [H'.value]
    exact Rat.mul_nonneg hc.k (ema_nonneg hc _ _)
  have hb : i ∈ members l h → (s'.lags c i = true ↔ behind c st l (h ++ [.time t]) i) := by
    intro hi
    rw [lags_iff (by rw [H'.instances, hm]; exact hi) ht]
    unfold behind State.threshold
    rw [H'.value, H'.instances]
    simp only [H'.ordered]
  have hl : ∀ j, s'.lags c j = State.lags c { s with timestamp := t, rate := s.rate.updateTime c t } j :=
    fun j => lags_congr b1 b2 b5 j
  have b6 := b6 i
  have ha : State.alertOf { s with timestamp := t, rate := s.rate.updateTime c t } i = s.alertOf i := rfl
  rw [ha] at b6
  refine ⟨?_, ?_, ?_⟩
  · intro hi
    rw [b6, if_neg (by rw [H.instances]; exact hi)]
  · intro hi hn
    rw [b6, if_pos (by rw [H.instances]; exact hi)]
    congr 1
    funext a
    unfold State.upd
    rw [← hl, if_neg (fun x => hn ((hb hi).1 x))]
  · intro hi hn
    rw [b6, if_pos (by rw [H.instances]; exact hi)]
    congr 1
    funext a
    unfold State.upd
    rw [← hl, if_pos ((hb hi).2 hn)]

end Verif.AccMonitor
