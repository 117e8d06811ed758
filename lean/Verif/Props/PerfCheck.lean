import Verif.Spec.PerfCheck
import Verif.Props.AccMonitor
/-!
# C110: the performance check votes against a slow master, if something was ordered since the last check
-/
namespace Verif.Props
open Verif Verif.PerfCheck Verif.PerfCheck.Spec
open Verif.AccMonitor (Inst Cfg State)
open Verif.AccMonitor.Spec (members orderedBy clock Forward Sane BehindSince)

theorem perf_set_map {l : List Inst} (hn : l.Nodup) {i : Inst} (hi : i ∈ l) (f : Inst → Nat) (v : Nat) :
    Dict.set (l.map (fun j => (j, f j))) i v = l.map (fun j => (j, if j = i then v else f j)) := by
  induction l with
  | nil => cases hi
  | cons x r ih =>
    rw [List.nodup_cons] at hn
    simp only [List.map_cons, Dict.set]
    by_cases e : x = i
    · subst e
      simp only [if_true]
      congr 1
      apply List.map_congr_left
      intro j hj
      have : j ≠ x := fun h => hn.1 (h ▸ hj)
      simp [this]
    · have hi' : i ∈ r := by
        cases hi with
        | head => exact absurd rfl e
        | tail _ h => exact h
      simp only [e, if_false]
      rw [ih hn.2 hi']

theorem perf_get_map (l : List Inst) (f : Inst → Nat) (i : Inst) {x : Nat}
    (h : Dict.get? (l.map (fun j => (j, f j))) i = some x) : i ∈ l ∧ x = f i := by
  induction l with
  | nil => cases h
  | cons y r ih =>
    simp only [List.map_cons, Dict.get?_cons] at h
    by_cases e : y = i
    · subst e
      simp only [if_true, Option.some.injEq] at h
      exact ⟨.head _, h.symm⟩
    · simp only [e, if_false] at h
      obtain ⟨a, b⟩ := ih h
      exact ⟨.tail _ a, b⟩

/-! ## What a history means for the monitor -/

theorem perf_forward_append {st : Nat} : ∀ {h x : List AccMonitor.Ev}, Forward st h → Forward (clock st h) x →
    Forward st (h ++ x) := by
  intro h
  induction h generalizing st with
  | nil => intro x _ hx; exact hx
  | cons e r ih =>
    intro x hf hx
    cases e with
    | time t => exact ⟨hf.1, ih (st := t) hf.2 hx⟩
    | _ => exact ih (st := st) (x := x) hf hx

theorem perf_clock_append (st : Nat) (h x : List AccMonitor.Ev) : clock st (h ++ x) = clock (clock st h) x := by
  unfold AccMonitor.Spec.clock; rw [List.foldl_append]

theorem perf_clock_replicate (st k : Nat) (i : Inst) : clock st (List.replicate k (.ordered i)) = st := by
  induction k with
  | zero => rfl
  | succ k ih => rw [List.replicate_succ]; exact ih

theorem perf_forward_replicate (st k : Nat) (i : Inst) : Forward st (List.replicate k (.ordered i)) := by
  induction k with
  | zero => trivial
  | succ k ih => rw [List.replicate_succ]; exact ih

theorem perf_run_replicate (c : Cfg) (i : Inst) (k : Nat) : ∀ m : State,
    AccMonitor.run c m (List.replicate k (.ordered i)) = some (countOrdered i k m) := by
  induction k with
  | zero => intro m; rfl
  | succ k ih => intro m; rw [List.replicate_succ]; exact ih _

theorem perf_members_append (h x : List AccMonitor.Ev) :
    members [] (h ++ x) = members (members [] h) x := by
  unfold AccMonitor.Spec.members; rw [List.foldl_append]

theorem perf_ordered_replicate (h : List AccMonitor.Ev) (i j : Inst) (k : Nat) :
    orderedBy (h ++ List.replicate k (.ordered i)) j = orderedBy h j + if j = i then k else 0 := by
  induction k with
  | zero => simp
  | succ k ih =>
    rw [List.replicate_succ', ← List.append_assoc, AccMonitor.orderedBy_snoc, ih]
    by_cases e : j = i
    · subst e; simp; omega
    · have : ¬ i = j := fun h => e h.symm
      simp [e, this]

theorem perf_members_replicate (l : List Inst) (i : Inst) (k : Nat) :
    members l (List.replicate k (.ordered i)) = l := by
  induction k with
  | zero => rfl
  | succ k ih => rw [List.replicate_succ]; exact ih

/-- The times up to `t` of a history that goes on. -/
def _root_.Verif.PerfCheck.lastTime (st : Nat) (es : List Ev) : Nat := (es.filterMap timeOf).foldl (fun _ t => t) st

theorem perf_ahead_snoc {st : Nat} {es : List Ev} {e : Ev} (h : Ahead st (es ++ [e])) :
    Ahead st es ∧ ∀ t, timeOf e = some t → lastTime st es ≤ t := by
  unfold Ahead at *
  rw [List.filterMap_append] at h
  have h' : ((st :: es.filterMap timeOf) ++ [e].filterMap timeOf).Pairwise (· ≤ ·) := by simpa using h
  rw [List.pairwise_append] at h'
  refine ⟨h'.1, fun t ht => ?_⟩
  have hm : t ∈ [e].filterMap timeOf := by simp [ht]
  have hl : lastTime st es ∈ st :: es.filterMap timeOf := by
    unfold lastTime
    generalize es.filterMap timeOf = l
    clear h' h
    induction l generalizing st with
    | nil => exact .head _
    | cons x r ih => exact .tail _ (ih (st := x))
  exact h'.2.2 _ hl _ hm

theorem perf_lastTime_snoc (st : Nat) (es : List Ev) (e : Ev) :
    lastTime st (es ++ [e]) = (timeOf e).getD (lastTime st es) := by
  unfold lastTime
  rw [List.filterMap_append, List.foldl_append]
  cases h : timeOf e <;> simp [h]

/-- What the node holds: the monitor has seen the calls `h`, and the numbers are those of `h`. -/
structure PerfHolds (c : Cfg) (st : Nat) (es : List Ev) (h : List AccMonitor.Ev) (n : Node) : Prop where
  unfolds : Unfolds es h
  mon : AccMonitor.run c (State.init st []) h = some n.mon
  forward : Forward st h
  clock : clock st h ≤ lastTime st es
  nodup : (members [] h).Nodup
  nums : n.nums = (members [] h).map (fun i => (i, orderedBy h i))

theorem PerfHolds.instances {c : Cfg} (hc : Sane c) {st : Nat} {es : List Ev} {h : List AccMonitor.Ev} {n : Node}
    (H : PerfHolds c st es h n) : n.mon.instances = members [] h := (AccMonitor.holds hc H.mon H.forward).instances

theorem perf_run_more {c : Cfg} {st : Nat} {h x : List AccMonitor.Ev} {m m' : State}
    (h1 : AccMonitor.run c (State.init st []) h = some m) (h2 : AccMonitor.run c m x = some m') :
    AccMonitor.run c (State.init st []) (h ++ x) = some m' := by
  rw [AccMonitor.run_append, h1]; exact h2

theorem perf_step {c : Cfg} (hc : Sane c) {st : Nat} {es : List Ev} {h : List AccMonitor.Ev} {n n' : Node} {e : Ev}
    {o : Option Outcome} (H : PerfHolds c st es h n) (hs : n.step c e = some (n', o)) (ha : Ahead st (es ++ [e])) :
    ∃ x, Meaning e x ∧ PerfHolds c st (es ++ [e]) (h ++ x) n' := by
  have hins := H.instances hc
  have hcl := H.clock
  have hto := (perf_ahead_snoc ha).2
  -- a look at the monitor
  have look : ∀ {now : Nat} {m : State}, timeOf e = some now → n.mon.updateTime c now = some m →
      AccMonitor.run c (State.init st []) (h ++ [.time now]) = some m ∧ Forward st (h ++ [.time now]) ∧
      clock st (h ++ [.time now]) = now := by
    intro now m ht hu
    refine ⟨perf_run_more H.mon (by simp only [AccMonitor.run, AccMonitor.State.step, hu]), ?_, by rw [AccMonitor.clock_snoc]⟩
    exact perf_forward_append H.forward ⟨Nat.le_trans hcl (hto now ht), trivial⟩
  cases e with
  | received now =>
    simp only [Node.step, Node.received, Option.map_map, Option.map_eq_some_iff] at hs
    obtain ⟨m, hu, hm⟩ := hs
    simp only [Function.comp, Prod.mk.injEq] at hm
    obtain ⟨rfl, _⟩ := hm
    obtain ⟨k1, k2, k3⟩ := look rfl hu
    refine ⟨_, rfl, .snoc H.unfolds rfl, ?_, ?_, ?_, ?_, ?_⟩
    · rw [show h ++ [AccMonitor.Ev.time now, .received] = (h ++ [.time now]) ++ [.received] by simp]
      exact perf_run_more k1 rfl
    · rw [show h ++ [AccMonitor.Ev.time now, .received] = (h ++ [.time now]) ++ [.received] by simp]
      exact perf_forward_append k2 trivial
    · rw [perf_lastTime_snoc, perf_clock_append]; exact Nat.le_refl _
    · rw [perf_members_append]; exact H.nodup
    · rw [perf_members_append]
      show n.nums = _
      rw [H.nums]
      apply List.map_congr_left
      intro j _
      rw [show h ++ [AccMonitor.Ev.time now, .received] = (h ++ [.time now]) ++ [.received] by simp,
        AccMonitor.orderedBy_snoc, AccMonitor.orderedBy_snoc]
      simp
  | ordered now i k =>
    simp only [Node.step, Node.ordered, Option.map_eq_some_iff] at hs
    obtain ⟨n1, hs, hm⟩ := hs
    simp only [Prod.mk.injEq] at hm
    obtain ⟨rfl, _⟩ := hm
    cases hu : n.mon.updateTime c now with
    | none => rw [hu] at hs; cases hs
    | some m =>
      cases hg : n.nums.get? i with
      | none => rw [hu, hg] at hs; cases hs
      | some x =>
        rw [hu, hg] at hs
        cases hs
        obtain ⟨k1, k2, k3⟩ := look rfl hu
        rw [H.nums] at hg
        obtain ⟨hi, hx⟩ := perf_get_map _ _ _ hg
        have assoc : h ++ AccMonitor.Ev.time now :: List.replicate k (.ordered i)
            = (h ++ [.time now]) ++ List.replicate k (.ordered i) := by simp
        refine ⟨_, rfl, .snoc H.unfolds rfl, ?_, ?_, ?_, ?_, ?_⟩
        · rw [assoc]
          exact perf_run_more k1 (perf_run_replicate c i k m)
        · rw [assoc]
          exact perf_forward_append k2 (perf_forward_replicate _ _ _)
        · rw [assoc, perf_lastTime_snoc, perf_clock_append, perf_clock_replicate, k3]; exact Nat.le_refl _
        · rw [assoc, perf_members_append, perf_members_replicate, AccMonitor.members_snoc]; exact H.nodup
        · rw [assoc, perf_members_append, perf_members_replicate, AccMonitor.members_snoc]
          show n.nums.set i (x + k) = _
          rw [H.nums, perf_set_map H.nodup hi]
          apply List.map_congr_left
          intro j _
          rw [perf_ordered_replicate, AccMonitor.orderedBy_snoc, hx]
          by_cases e : j = i
          · subst e; simp
          · simp [e]
  | add i =>
    cases hs
    have assoc : h ++ [AccMonitor.Ev.add i, .reset] = (h ++ [.add i]) ++ [.reset] := by simp
    refine ⟨_, rfl, .snoc H.unfolds rfl, perf_run_more H.mon rfl, perf_forward_append H.forward trivial, ?_, ?_, ?_⟩
    · rw [perf_lastTime_snoc, perf_clock_append]; exact hcl
    · rw [assoc, AccMonitor.members_snoc, AccMonitor.members_snoc]
      simp only
      split
      · exact H.nodup
      · rename_i hn
        rw [List.nodup_append]
        refine ⟨H.nodup, by simp, ?_⟩
        intro a hq b hb hab
        rw [List.mem_singleton] at hb
        rw [hab, hb] at hq
        exact hn hq
    · rw [assoc, AccMonitor.members_snoc, AccMonitor.members_snoc]
      show (n.mon.addInstance i).instances.map (fun i => (i, 0)) = _
      simp only [State.addInstance, hins, List.contains_iff_mem]
      apply List.map_congr_left
      intro j _
      rw [AccMonitor.orderedBy_snoc]; simp
  | remove i =>
    simp only [Node.step, Node.removeReplica, Option.map_eq_some_iff] at hs
    obtain ⟨n1, hs, hm⟩ := hs
    simp only [Prod.mk.injEq] at hm
    obtain ⟨rfl, _⟩ := hm
    split at hs
    · rw [Option.map_eq_some_iff] at hs
      obtain ⟨m, hm, rfl⟩ := hs
      refine ⟨_, .inl rfl, .snoc H.unfolds (.inl rfl),
        perf_run_more H.mon (by simp only [AccMonitor.run, AccMonitor.State.step, hm]),
        perf_forward_append H.forward trivial, ?_, ?_, ?_⟩
      · rw [perf_lastTime_snoc, perf_clock_append]; exact hcl
      · rw [AccMonitor.members_snoc]; exact H.nodup.filter _
      · rw [AccMonitor.members_snoc]
        show n.nums.erase i = _
        rw [H.nums, Dict.erase, List.filter_map]
        simp only
        have : ((fun e : Inst × Nat => decide (¬ e.1 = i)) ∘ fun j => (j, orderedBy h j)) = fun j => decide (j ≠ i) := by
          funext j; rfl
        rw [this]
        apply List.map_congr_left
        intro j _
        rw [AccMonitor.orderedBy_snoc]; simp
    · cases hs
      refine ⟨[], .inr rfl, .snoc H.unfolds (.inr rfl), ?_, ?_, ?_, ?_, ?_⟩
      · simpa using H.mon
      · simpa using H.forward
      · rw [perf_lastTime_snoc]; simpa [timeOf] using hcl
      · simpa using H.nodup
      · simpa using H.nums
  | reset =>
    cases hs
    refine ⟨_, rfl, .snoc H.unfolds rfl, perf_run_more H.mon rfl, perf_forward_append H.forward trivial, ?_, ?_, ?_⟩
    · rw [perf_lastTime_snoc, perf_clock_append]; exact hcl
    · rw [AccMonitor.members_snoc]; exact H.nodup
    · rw [AccMonitor.members_snoc]
      show n.mon.instances.map (fun i => (i, 0)) = _
      rw [hins]
      apply List.map_congr_left
      intro j _
      rw [AccMonitor.orderedBy_snoc]; simp
  | check p v now =>
    simp only [Node.step, Option.map_eq_some_iff, Prod.mk.injEq] at hs
    obtain ⟨⟨n1, out⟩, hs, rfl, _⟩ := hs
    have same : ∀ n2 : Node, n2.mon = n.mon → n2.nums = n.nums →
        ∃ x, Meaning (.check p v now) x ∧ PerfHolds c st (es ++ [.check p v now]) (h ++ x) n2 := by
      intro n2 e1 e2
      refine ⟨[], .inr rfl, .snoc H.unfolds (.inr rfl), ?_, ?_, ?_, ?_, ?_⟩
      · rw [e1]; simpa using H.mon
      · simpa using H.forward
      · rw [perf_lastTime_snoc]
        simp only [timeOf, Option.getD_some, List.append_nil]
        exact Nat.le_trans hcl (hto now rfl)
      · simpa using H.nodup
      · rw [e2]; simpa using H.nums
    have looked : ∀ (n2 : Node) (m : State), n.mon.updateTime c now = some m → n2.mon = m → n2.nums = n.nums →
        ∃ x, Meaning (.check p v now) x ∧ PerfHolds c st (es ++ [.check p v now]) (h ++ x) n2 := by
      intro n2 m hu e1 e2
      obtain ⟨k1, k2, k3⟩ := look rfl hu
      refine ⟨_, .inl rfl, .snoc H.unfolds (.inl rfl), by rw [e1]; exact k1, k2, ?_, ?_, ?_⟩
      · rw [perf_lastTime_snoc, k3]; exact Nat.le_refl _
      · rw [AccMonitor.members_snoc]; exact H.nodup
      · rw [AccMonitor.members_snoc, e2, H.nums]
        apply List.map_congr_left
        intro j _
        rw [AccMonitor.orderedBy_snoc]; simp
    unfold Node.check at hs
    split at hs
    · cases hs; exact same _ rfl rfl
    split at hs
    · cases hs; exact same _ rfl rfl
    have hu1 : n.updateCount.1.mon = n.mon ∧ n.updateCount.1.nums = n.nums := by
      unfold Node.updateCount; split <;> exact ⟨rfl, rfl⟩
    simp only at hs
    split at hs
    · cases hs; exact same _ hu1.1 hu1.2
    split at hs
    · split at hs
      · cases hs
      · unfold AccMonitor.State.monitorMasterDegraded at hs
        cases hu : n.updateCount.1.mon.updateTime c now with
        | none => rw [hu] at hs; cases hs
        | some m =>
          rw [hu] at hs
          simp only at hs
          cases hd : m.isMasterDegraded c with
          | none => rw [hd] at hs; cases hs
          | some b =>
            rw [hd] at hs
            rw [hu1.1] at hu
            cases b <;> (cases hs; exact looked _ m hu rfl hu1.2)
    · cases hs; exact same _ hu1.1 hu1.2

theorem perf_run_snoc {c : Cfg} {e : Ev} {n' : Node} : ∀ {es : List Ev} {n : Node} {outs : List Outcome},
    run c n (es ++ [e]) = some (n', outs) →
    ∃ n1 o1 o, run c n es = some (n1, o1) ∧ n1.step c e = some (n', o) ∧ outs = o1 ++ o.toList := by
  intro es
  induction es with
  | nil =>
    intro n outs h
    simp only [List.nil_append, run] at h
    cases hs : n.step c e with
    | none => rw [hs] at h; cases h
    | some p =>
      rw [hs] at h
      simp only [Option.map_some, Option.some.injEq, Prod.mk.injEq, List.append_nil] at h
      exact ⟨n, [], p.2, rfl, by rw [hs, ← h.1], by rw [← h.2]; rfl⟩
  | cons x r ih =>
    intro n outs h
    simp only [List.cons_append, run] at h ⊢
    cases hs : n.step c x with
    | none => rw [hs] at h; cases h
    | some p =>
      rw [hs] at h
      simp only [Option.map_eq_some_iff] at h
      obtain ⟨⟨q1, q2⟩, hq, he⟩ := h
      simp only [Prod.mk.injEq] at he
      obtain ⟨rfl, rfl⟩ := he
      obtain ⟨n1, o1, o, h1, h2, h3⟩ := ih hq
      exact ⟨n1, p.2.toList ++ o1, o, by simp [h1], h2, by rw [h3]; simp⟩

theorem perf_holds {c : Cfg} (hc : Sane c) {st : Nat} {es : List Ev} : ∀ {n : Node} {outs : List Outcome},
    run c (Node.init st) es = some (n, outs) → Ahead st es → ∃ h, PerfHolds c st es h n := by
  refine snoc_induction (P := fun es => ∀ {n : Node} {outs : List Outcome},
    run c (Node.init st) es = some (n, outs) → Ahead st es → ∃ h, PerfHolds c st es h n) ?_ ?_ es
  · intro n outs hr _
    cases hr
    exact ⟨[], .nil, rfl, trivial, Nat.le_refl _, List.nodup_nil, rfl⟩
  · intro es e ih n outs hr ha
    obtain ⟨n1, o1, o, h1, h2, _⟩ := perf_run_snoc hr
    obtain ⟨h, H⟩ := ih h1 (perf_ahead_snoc ha).1
    obtain ⟨x, _, H'⟩ := perf_step hc H h2 ha
    exact ⟨_, H'⟩

/-- C110. What the monitor and the numbers of a node are after any history: those of the calls which the history means. -/
theorem C110_history {c : Cfg} (hc : Sane c) {st : Nat} {es : List Ev} {n : Node} {outs : List Outcome}
    (hr : run c (Node.init st) es = some (n, outs)) (ha : Ahead st es) :
    ∃ h, Unfolds es h ∧ Forward st h ∧ AccMonitor.run c (State.init st []) h = some n.mon ∧ n.numOrdered = total h := by
  obtain ⟨h, H⟩ := perf_holds hc hr ha
  refine ⟨h, H.unfolds, H.forward, H.mon, ?_⟩
  unfold Node.numOrdered total
  rw [H.nums, List.map_map]
  rfl

/-- C110. After any history, a check votes against the master exactly if the node participates, no view change is going
on, the number of ordered requests is not the one noted at the last check, and the master was behind at every look,
including the one made now, since one longer ago than the timeout. -/
theorem C110_vote {c : Cfg} (hc : Sane c) {st : Nat} {es : List Ev} {n : Node} {outs : List Outcome}
    (hr : run c (Node.init st) es = some (n, outs)) (ha : Ahead st es) :
    ∃ h, Unfolds es h ∧ n.numOrdered = total h ∧
      ∀ (p v : Bool) (now : Nat) (n' : Node) (o : Outcome), Ahead st (es ++ [.check p v now]) → 0 ∈ members [] h →
        n.check c p v now = some (n', o) →
        ((∃ slow, o = .vote slow) ↔ p = true ∧ v = false ∧ n.last ≠ some (total h) ∧
          ∃ t0, BehindSince c st [] (h ++ [.time now]) 0 t0 ∧ now > t0 + c.timeout) := by
  obtain ⟨h, H⟩ := perf_holds hc hr ha
  have htot : n.numOrdered = total h := by
    unfold Node.numOrdered total
    rw [H.nums, List.map_map]
    rfl
  refine ⟨h, H.unfolds, htot, ?_⟩
  intro p v now n' o hah h0 hch
  have hfw : Forward st (h ++ [.time now]) :=
    perf_forward_append H.forward ⟨Nat.le_trans H.clock ((perf_ahead_snoc hah).2 now rfl), trivial⟩
  unfold Node.check at hch
  cases p with
  | false => cases hch; simp
  | true =>
    cases v with
    | true => cases hch; simp
    | false =>
      simp only [Bool.not_true, Bool.false_eq_true, if_false] at hch
      by_cases hl : n.last = some n.numOrdered
      · have : n.updateCount = (n, false) := by unfold Node.updateCount; simp [hl]
        rw [this] at hch
        cases hch
        rw [htot] at hl
        simp [hl]
      · have : n.updateCount = ({ n with last := some n.numOrdered }, true) := by unfold Node.updateCount; simp [hl]
        rw [this] at hch
        simp only [Bool.not_true, Bool.false_eq_true, if_false] at hch
        have hc0 : n.mon.instances.contains 0 = true := by
          rw [H.instances hc]; simpa using h0
        rw [if_pos hc0] at hch
        rw [htot] at hl
        split at hch
        · cases hch
        · cases hm : n.mon.monitorMasterDegraded c now with
          | none => rw [hm] at hch; cases hch
          | some q =>
            obtain ⟨m, b⟩ := q
            rw [hm] at hch
            have := C109_master hc H.mon hfw hm
            cases b with
            | true =>
              cases hch
              simp only [true_iff] at this
              simp [hl, this]
            | false =>
              cases hch
              simp only [Bool.false_eq_true, false_iff] at this
              simp [this]

/-- C110. The backups which a check reports as slow are those which were behind at every look before this check since one
longer ago than the timeout: the time of the check itself does not count for them. -/
theorem C110_backups {c : Cfg} (hc : Sane c) {st : Nat} {es : List Ev} {n : Node} {outs : List Outcome}
    (hr : run c (Node.init st) es = some (n, outs)) (ha : Ahead st es) :
    ∃ h, Unfolds es h ∧
      ∀ (p v : Bool) (now : Nat) (n' : Node) (slow : List Inst), 0 ∈ members [] h →
        (n.check c p v now = some (n', .vote slow) ∨ n.check c p v now = some (n', .fine slow)) →
        ∀ i, i ∈ slow ↔ (i ∈ members [] h ∧ i ≠ 0) ∧ ∃ t0, BehindSince c st [] h i t0 ∧ clock st h > t0 + c.timeout := by
  obtain ⟨h, H⟩ := perf_holds hc hr ha
  refine ⟨h, H.unfolds, ?_⟩
  intro p v now n' slow h0 hch
  have key : n.mon.monitorBackupsDegraded c (n.mon.instances.filter (fun i => i != 0)) = some slow := by
    have hc0 : n.mon.instances.contains 0 = true := by
      rw [H.instances hc]; simpa using h0
    have hu1 : n.updateCount.1.mon = n.mon := by
      unfold Node.updateCount; split <;> rfl
    unfold Node.check at hch
    cases p with
    | false => rcases hch with hch | hch <;> cases hch
    | true =>
      cases v with
      | true => rcases hch with hch | hch <;> cases hch
      | false =>
        simp only [Bool.not_true, Bool.false_eq_true, if_false, hu1, hc0, if_true] at hch
        cases hnew : n.updateCount.2 with
        | false =>
          rw [hnew] at hch
          rcases hch with hch | hch <;> cases hch
        | true =>
          rw [hnew] at hch
          simp only [Bool.not_true, Bool.false_eq_true, if_false] at hch
          cases hb : n.mon.monitorBackupsDegraded c (n.mon.instances.filter (fun i => i != 0)) with
          | none => rw [hb] at hch; rcases hch with hch | hch <;> cases hch
          | some l =>
            rw [hb] at hch
            simp only at hch
            cases hm : n.mon.monitorMasterDegraded c now with
            | none => rw [hm] at hch; rcases hch with hch | hch <;> cases hch
            | some q =>
              obtain ⟨m, b⟩ := q
              rw [hm] at hch
              cases b <;> rcases hch with hch | hch <;> cases hch <;> rfl
  obtain ⟨hs, hall⟩ := C109_backups hc H.mon H.forward key
  have hmem : ∀ i, i ∈ n.mon.instances.filter (fun i => i != 0) ↔ i ∈ members [] h ∧ i ≠ 0 := by
    intro i; rw [H.instances hc]; simp
  intro i
  constructor
  · intro hi
    have hi' := hs.subset hi
    exact ⟨(hmem i).1 hi', (hall i hi').1 hi⟩
  · rintro ⟨h1, h2⟩
    exact (hall i ((hmem i).2 h1)).2 h2

/-- C110. A check of a node which participates, without a view change, is left out exactly if the number of ordered
requests is the one noted before; if it is made, the number is noted. -/
theorem C110_skipped {c : Cfg} {n n' : Node} {now : Nat} {o : Outcome} (h : n.check c true false now = some (n', o)) :
    (o = .skipped ↔ n.last = some n.numOrdered) ∧ n'.last = some n.numOrdered ∧ n'.numOrdered = n.numOrdered := by
  unfold Node.check at h
  simp only [Bool.not_true, Bool.false_eq_true, if_false] at h
  by_cases hl : n.last = some n.numOrdered
  · have : n.updateCount = (n, false) := by unfold Node.updateCount; simp [hl]
    rw [this] at h
    cases h
    exact ⟨by simp [hl], hl, rfl⟩
  · have : n.updateCount = ({ n with last := some n.numOrdered }, true) := by unfold Node.updateCount; simp [hl]
    rw [this] at h
    simp only [Bool.not_true, Bool.false_eq_true, if_false] at h
    split at h
    · split at h
      · cases h
      · cases hm : n.mon.monitorMasterDegraded c now with
        | none => rw [hm] at h; cases h
        | some q =>
          obtain ⟨m, b⟩ := q
          rw [hm] at h
          cases b <;> (cases h; exact ⟨by simp [hl], rfl, rfl⟩)
    · cases h
      exact ⟨by simp [hl], rfl, rfl⟩

theorem perf_sum_set {d : Dict Inst Nat} {i : Inst} {x : Nat} (h : d.get? i = some x) (k : Nat) :
    ((d.set i (x + k)).map (·.2)).sum = (d.map (·.2)).sum + k := by
  induction d with
  | nil => cases h
  | cons e r ih =>
    rw [Dict.get?_cons] at h
    simp only [Dict.set]
    by_cases hk : e.1 = i
    · rw [if_pos hk] at h ⊢
      cases h
      simp only [List.map_cons, List.sum_cons]
      omega
    · rw [if_neg hk] at h ⊢
      simp only [List.map_cons, List.sum_cons, ih h]
      omega

/-- C110. If requests were ordered since the last check, and the monitor was not reset and no instance came or went, the
next check is made. -/
theorem C110_made {c : Cfg} {n n' n2 : Node} {es : List Ev} {outs : List Outcome} {now : Nat} {o : Outcome}
    (hl : n.last = some n.numOrdered) (hes : ∀ e ∈ es, Traffic e) (hk : 0 < (es.map ordering).sum)
    (hr : run c n es = some (n', outs)) (hc : n'.check c true false now = some (n2, o)) : o ≠ .skipped := by
  have key : ∀ (es : List Ev) (n n' : Node) (outs : List Outcome), (∀ e ∈ es, Traffic e) → run c n es = some (n', outs) →
      n'.last = n.last ∧ n'.numOrdered = n.numOrdered + (es.map ordering).sum := by
    intro es
    induction es with
    | nil => intro n n' outs _ h; cases h; exact ⟨rfl, rfl⟩
    | cons e r ih =>
      intro n n' outs ht h
      simp only [run] at h
      cases hs : n.step c e with
      | none => rw [hs] at h; cases h
      | some p =>
        obtain ⟨n1, o1⟩ := p
        rw [hs] at h
        simp only [Option.map_eq_some_iff] at h
        obtain ⟨⟨q1, q2⟩, hq, he⟩ := h
        simp only [Prod.mk.injEq] at he
        obtain ⟨rfl, _⟩ := he
        obtain ⟨a, b⟩ := ih n1 q1 q2 (fun e h => ht e (.tail _ h)) hq
        have hte := ht e (.head _)
        have : n1.last = n.last ∧ n1.numOrdered = n.numOrdered + ordering e := by
          cases e with
          | received t =>
            simp only [Node.step, Node.received, Option.map_map, Option.map_eq_some_iff] at hs
            obtain ⟨m, _, hm⟩ := hs
            simp only [Function.comp, Prod.mk.injEq] at hm
            obtain ⟨rfl, _⟩ := hm
            exact ⟨rfl, rfl⟩
          | ordered t i k =>
            simp only [Node.step, Node.ordered, Option.map_eq_some_iff] at hs
            obtain ⟨n3, hs, hm⟩ := hs
            simp only [Prod.mk.injEq] at hm
            obtain ⟨rfl, _⟩ := hm
            cases hu : n.mon.updateTime c t with
            | none => rw [hu] at hs; cases hs
            | some m =>
              cases hg : n.nums.get? i with
              | none => rw [hu, hg] at hs; cases hs
              | some x =>
                rw [hu, hg] at hs
                cases hs
                exact ⟨rfl, perf_sum_set hg k⟩
          | _ => exact absurd hte (by simp [Traffic])
        simp only [List.map_cons, List.sum_cons]
        refine ⟨a.trans this.1, ?_⟩
        rw [b, this.2]; omega
  obtain ⟨a, b⟩ := key es n n' outs hes hr
  intro ho
  have := (C110_skipped hc).1.1 ho
  rw [a, hl, b] at this
  simp only [Option.some.injEq] at this
  omega

/-- C110, the other side: once the number of ordered requests is noted, no check votes, for however long, as long as nothing
is ordered, whatever requests come in and however slow the master is. -/
theorem C110_unnoticed {c : Cfg} : ∀ (es : List Ev) {n n' : Node} {outs : List Outcome},
    n.last = some n.numOrdered → (∀ e ∈ es, Quiet e) → run c n es = some (n', outs) → ∀ o ∈ outs, o = .skipped := by
  intro es
  induction es with
  | nil => intro n n' outs _ _ h; cases h; intro o ho; cases ho
  | cons e r ih =>
    intro n n' outs hl hq h
    simp only [run] at h
    cases hs : n.step c e with
    | none => rw [hs] at h; cases h
    | some p =>
      obtain ⟨n1, o1⟩ := p
      rw [hs] at h
      simp only [Option.map_eq_some_iff] at h
      obtain ⟨⟨q1, q2⟩, hr, he⟩ := h
      simp only [Prod.mk.injEq] at he
      obtain ⟨rfl, rfl⟩ := he
      have hqe := hq e (.head _)
      have : (n1.last = some n1.numOrdered) ∧ (o1 = none ∨ o1 = some .skipped) := by
        cases e with
        | received t =>
          simp only [Node.step, Node.received, Option.map_map, Option.map_eq_some_iff] at hs
          obtain ⟨m, _, hm⟩ := hs
          simp only [Function.comp, Prod.mk.injEq] at hm
          obtain ⟨rfl, rfl⟩ := hm
          exact ⟨hl, .inl rfl⟩
        | check p v t =>
          have hsk : n.check c p v t = some (n, .skipped) := by
            unfold Node.check
            have : n.updateCount = (n, false) := by unfold Node.updateCount; simp [hl]
            rw [this]
            cases p <;> cases v <;> rfl
          simp only [Node.step, hsk, Option.map_some, Option.some.injEq, Prod.mk.injEq] at hs
          obtain ⟨rfl, rfl⟩ := hs
          exact ⟨hl, .inr rfl⟩
        | _ => exact absurd hqe (by simp [Quiet])
      have hrest := ih this.1 (fun e h => hq e (.tail _ h)) hr
      intro o ho
      rcases List.mem_append.1 ho with ho | ho
      · rcases this.2 with h | h
        · rw [h] at ho; cases ho
        · rw [h] at ho; simpa using ho
      · exact hrest o ho

/-! ## Runs -/

/-- Two backups order one request, which the master does not; checks at 30, and, when one more request is ordered by a
backup, at 400. -/
def perfHist : List Ev :=
  [.add 0, .add 1, .add 2, .received 10, .ordered 20 1 1, .ordered 20 2 1, .check true false 30, .received 390,
   .ordered 395 1 1, .check true false 400]

example : Ahead 0 perfHist := by unfold Ahead; decide

example : (run accCfg (Node.init 0) perfHist).map (·.2) = some [.fine [], .vote []] := by decide +kernel

/-- The same without the last request: the master is behind for as long, and nothing is noticed (C110_unnoticed). -/
example : (run accCfg (Node.init 0)
    [.add 0, .add 1, .add 2, .received 10, .ordered 20 1 1, .ordered 20 2 1, .check true false 30, .received 390,
     .check true false 400, .check true false 9000]).map (fun r => (r.2, r.1.mon.alertOf 0))
    = some ([.fine [], .skipped, .skipped], some (some 20)) := by decide +kernel

/-- C110, the other side: the number noted at a check before a reset can be the number reached after it, and then a check is
left out although requests were ordered since, and although the master is behind for longer than the timeout. -/
theorem C110_same_count : ∃ (es : List Ev) (n n' : Node) (outs : List Outcome),
    Ahead 0 (es ++ [.ordered 700 1 1, .check true false 800]) ∧
    run accCfg (Node.init 0) (es ++ [.ordered 700 1 1]) = some (n, outs) ∧
    n.check accCfg true false 800 = some (n', .skipped) ∧
    (n.mon.monitorMasterDegraded accCfg 800).map (·.2) = some true := by
  have h : ∀ r : Option (Node × List Outcome), (r.map (fun p =>
      ((p.1.check accCfg true false 800).map (·.2), (p.1.mon.monitorMasterDegraded accCfg 800).map (·.2))))
        = some (some .skipped, some true) →
      ∃ n n' outs, r = some (n, outs) ∧ n.check accCfg true false 800 = some (n', .skipped) ∧
        (n.mon.monitorMasterDegraded accCfg 800).map (·.2) = some true := by
    intro r hr
    cases r with
    | none => cases hr
    | some p =>
      simp only [Option.map_some, Option.some.injEq, Prod.mk.injEq] at hr
      obtain ⟨h1, h2⟩ := hr
      rw [Option.map_eq_some_iff] at h1
      obtain ⟨⟨q1, q2⟩, h1, h3⟩ := h1
      simp only at h3
      subst h3
      exact ⟨p.1, q1, p.2, rfl, h1, h2⟩
  obtain ⟨n, n', outs, h1, h2, h3⟩ := h (run accCfg (Node.init 0)
    ([.add 0, .add 1, .add 2, .received 10, .ordered 20 1 1, .ordered 20 2 1, .check true false 30, .reset,
      .received 40, .ordered 50 2 1, .received 60] ++ [.ordered 700 1 1])) (by decide +kernel)
  exact ⟨_, n, n', outs, by unfold Ahead; decide, h1, h2, h3⟩

/-- Requests ordered in between: the next check is made (C110_made). -/
example : (∀ e ∈ [Ev.received 390, .ordered 395 1 1], Traffic e) ∧
    0 < ([Ev.received 390, .ordered 395 1 1].map ordering).sum := by
  simp [Traffic, ordering]

/-- A backup that is slow at the time of the check but not yet at the last look before it is reported only by the next check
(C110_backups). -/
example : (run accCfg (Node.init 0)
    [.add 0, .add 1, .add 2, .received 10, .ordered 20 0 1, .ordered 20 1 1, .ordered 30 0 0, .ordered 320 0 1,
     .check true false 400, .ordered 401 0 1, .check true false 402]).map (·.2) = some [.fine [], .fine [2]] := by
  decide +kernel

end Verif.Props
