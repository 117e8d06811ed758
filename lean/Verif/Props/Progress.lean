import Verif.Proofs.ThreePCPool
/-!
# C93: batches are ordered

Specification: `Verif.Spec.Progress`. The out-of-order timer
(`orderStashed`) is the only event after the messages.
-/
namespace Verif.Props

open Verif.TPC

/-! ## Theorems -/

/-- **C93.** For every pool with at most `f` Byzantine nodes and every history of
it: if `n - f` honest nodes, with the primary among them, get each other's
messages about the batches `base + 1, …, s` of the primary, and none of these
batches is lost on the others when one of the nodes orders it (`Spread`), then
each of the nodes orders all of them, the batches of the primary and in their
order, after at most `s - base` rounds of the timer.

Missing: the condition `Spread` and the one on catchups in `Works`; without them
the property is false (`C93_stall`, `C93_stuck_after_catchup`). -/
theorem C93_progress_partial (P : Pool) (ok : P.Ok) (hn : 2 ≤ P.n) (v base s : Nat) (L : List Node) (pp : Nat → PrePrepare)
    (works : P.Works v base s L pp) (spread : ∀ t, base < t → t ≤ s → P.Spread v t L (pp t)) :
    ∀ i ∈ L, s ≤ (run (P.cfg i) (P.hist i ++ List.replicate (s - base) .orderStashed)).lastOrdered.2 ∧
      ∀ t, (P.node i).lastOrdered.2 < t → t ≤ s →
        pp t ∈ (run (P.cfg i) (P.hist i ++ List.replicate (s - base) .orderStashed)).ordLog :=
  fun _ hi => works.orders ok hn spread hi

/-- **C93, one node.** Without `Spread`: at least one of the nodes orders all of
the batches. -/
theorem C93_someone_orders (P : Pool) (ok : P.Ok) (hn : 2 ≤ P.n) (v base s : Nat) (L : List Node) (pp : Nat → PrePrepare)
    (works : P.Works v base s L pp) :
    ∃ i ∈ L, s ≤ (run (P.cfg i) (P.hist i ++ List.replicate (s - base) .orderStashed)).lastOrdered.2 ∧
      ∀ t, (P.node i).lastOrdered.2 < t → t ≤ s →
        pp t ∈ (run (P.cfg i) (P.hist i ++ List.replicate (s - base) .orderStashed)).ordLog := by
  -- the one that is furthest
  have hmax : ∀ (L : List Node) (x : Node), ∃ i, i ∈ x :: L ∧ ∀ j ∈ x :: L, (P.node j).lastOrdered.2 ≤ (P.node i).lastOrdered.2 := by
    intro L
    induction L with
    | nil => intro x; exact ⟨x, by simp, by simp⟩
    | cons y L ih =>
      intro x
      obtain ⟨i, i1, i2⟩ := ih y
      by_cases h : (P.node x).lastOrdered.2 ≤ (P.node i).lastOrdered.2
      · refine ⟨i, List.mem_cons_of_mem _ i1, fun j hj => ?_⟩
        rcases List.mem_cons.1 hj with e | e
        · rw [e]; exact h
        · exact i2 j e
      · refine ⟨x, List.mem_cons_self, fun j hj => ?_⟩
        rcases List.mem_cons.1 hj with e | e
        · rw [e]; exact Nat.le_refl _
        · have := i2 j e; omega
  have hne : L ≠ [] := by intro h; have := works.primary; rw [h] at this; simp at this
  obtain ⟨x, M, rfl⟩ : ∃ x M, L = x :: M := by
    cases L with
    | nil => exact absurd rfl hne
    | cons x M => exact ⟨x, M, rfl⟩
  obtain ⟨i, hi, hbest⟩ := hmax M x
  refine ⟨i, hi, works.orders_of ok hi (fun t t1 t2 => ?_)⟩
  have hb := works.start i hi
  refine works.quorum ok hn (by omega) t2 (.inl ?_) hi t1
  intro j hj hl
  have := hbest j hj
  omega

/-- **C93, without faults.** When all nodes of the pool are among the nodes that
work, and have ordered themselves what they have ordered, nothing else is
needed. -/
theorem C93_without_faults (P : Pool) (ok : P.Ok) (hn : 2 ≤ P.n) (v base s : Nat) (L : List Node) (pp : Nat → PrePrepare)
    (works : P.Works v base s L pp) (all : ∀ i, i < P.n → i ∈ L)
    (own : ∀ j ∈ L, ∀ t, base < t → t ≤ s → t ≤ (P.node j).lastOrdered.2 → pp t ∈ P.orderedBy j) :
    ∀ i ∈ L, s ≤ (run (P.cfg i) (P.hist i ++ List.replicate (s - base) .orderStashed)).lastOrdered.2 ∧
      ∀ t, (P.node i).lastOrdered.2 < t → t ≤ s →
        pp t ∈ (run (P.cfg i) (P.hist i ++ List.replicate (s - base) .orderStashed)).ordLog := by
  refine C93_progress_partial P ok hn v base s L pp works (fun t h1 h2 => ?_)
  by_cases h : ∃ j ∈ L, t ≤ (P.node j).lastOrdered.2
  · obtain ⟨j, hj, hl⟩ := h
    refine .inr ⟨j, hj, own j hj t h1 h2 hl, ?_⟩
    intro i hi w c hw hk hd
    obtain ⟨w1, -, w3⟩ := ok.net j (works.honest j hj) w _ hd
    have hwL := all w w1
    exact works.commits i hi w hwL (fun e => hw e.symm) t h1 h2 c (w3 (works.honest w hwL).2) hk
  · exact .inl (fun j hj hl => absurd ⟨j, hj, hl⟩ h)

/-- **C93, votes.** Under the same conditions every one of the nodes other than
the primary that has not ordered a batch has sent its PREPARE for it, with the
content of the PRE-PREPARE. -/
theorem C93_prepares_sent (P : Pool) (ok : P.Ok) (v base s : Nat) (L : List Node) (pp : Nat → PrePrepare)
    (works : P.Works v base s L pp) :
    ∀ i ∈ L, i ≠ P.primary v → ∀ t, base < t → t ≤ s → (P.node i).lastOrdered.2 < t →
      ∃ p : Prepare, .prepare p ∈ P.sent i ∧ p.key = (v, t) ∧ p.content = (pp t).content := by
  intro i hi hp t h1 h2 hl
  obtain ⟨p, p1, p2⟩ := (works.ownPrepare ok hi h1 h2 hp hl).2
  exact ⟨p, p1, p2, works.prepareContent ok hi h1 h2 p1 p2⟩

/-- A round of the timer that changes nothing. -/
theorem timer_same {cfg : Cfg} {r : Replica} (h : r.processOutOfOrder cfg = r) (m : Nat) :
    (List.replicate m Event.orderStashed).foldl (Replica.step cfg) r = r := by
  induction m with
  | zero => rfl
  | succ m ih =>
    rw [List.replicate_succ, List.foldl_cons]
    show List.foldl _ (r.processOutOfOrder cfg) _ = r
    rw [h]; exact ih

theorem timer_run {cfg : Cfg} {evs : List Event} (h : (run cfg evs).processOutOfOrder cfg = run cfg evs) (m : Nat) :
    run cfg (evs ++ List.replicate m .orderStashed) = run cfg evs := by
  have := timer_same h m
  unfold run at this ⊢
  rw [List.foldl_append]; exact this

/-- Nothing out of order waits. -/
theorem timer_idle {cfg : Cfg} {r : Replica} (h : r.outOfOrder = []) : r.processOutOfOrder cfg = r := by
  unfold Replica.processOutOfOrder
  split
  · rfl
  · obtain ⟨⟩ := r
    simp only at h
    subst h
    rfl

/-! ## Deciding the conditions for a concrete pool -/

/-- Event number `x` is an arrival. -/
def arrivesB (P : Pool) (i w : Node) (m : Msg) (x : Nat) : Bool :=
  (match (P.hist i)[x]? with
    | some (.deliver m' w' env) => m' = m && (w' = w && env = {})
    | _ => false) &&
  ((P.after i x).admits m.key.1 m.key.2 || m.key.2 ≤ (P.after i x).lastOrdered.2)

theorem arrives_of {P : Pool} {i w : Node} {m : Msg} {x : Nat} (h : arrivesB P i w m x = true) : P.Arrives i w m x := by
  unfold arrivesB at h
  rw [Bool.and_eq_true] at h
  obtain ⟨h1, h2⟩ := h
  refine ⟨?_, by simpa using h2⟩
  split at h1
  · next m' w' env he =>
    simp only [Bool.and_eq_true, decide_eq_true_eq] at h1
    obtain ⟨a, b, c⟩ := h1
    subst a; subst b; subst c
    exact ⟨_, he, fun _ _ => rfl⟩
  · cases h1

def getsB (P : Pool) (i w : Node) (m : Msg) (pp : PrePrepare) : Bool :=
  (List.range (P.hist i).length).any (fun x => arrivesB P i w m x &&
    (i != P.primary pp.viewNo || (P.after i x).out.contains (.prePrepare pp)))

theorem gets_of {P : Pool} {i w : Node} {m : Msg} {pp : PrePrepare} (h : getsB P i w m pp = true) : P.Gets i w m pp := by
  obtain ⟨x, -, hx⟩ := List.any_eq_true.1 h
  rw [Bool.and_eq_true] at hx
  refine ⟨x, arrives_of hx.1, fun hi => ?_⟩
  have := hx.2
  simp only [Bool.or_eq_true, bne_iff_ne] at this
  exact List.contains_iff_mem.1 (this.resolve_left (fun f => f hi))

def sentB (P : Pool) (v t : Nat) (i j : Node) (pp : PrePrepare) (m : Msg) : Bool :=
  match m with
  | .prePrepare _ => true
  | .prepare p => p.key != (v, t) || getsB P i j m pp
  | .commit c => c.key != (v, t) || getsB P i j m pp

def worksB (P : Pool) (v base s : Nat) (L : List Node) (pp : Nat → PrePrepare) (x : Node → Nat → Nat) : Bool :=
  (L.all (fun i => i < P.n && !P.bad.contains i && (P.node i).view == v && (P.node i).participating &&
      base ≤ (P.node i).lastOrdered.2 && (P.hist i).all (fun e => match e with | .caughtUp _ _ => false | _ => true))) &&
  (List.range P.n).all (fun i => P.bad.contains i || P.top i v ≤ base) &&
  (List.range (s + 1)).all (fun t => t ≤ base ||
    ((pp t).key == (v, t) && (P.sent (P.primary v)).contains (.prePrepare (pp t)) &&
      L.all (fun i => (i == P.primary v ||
          (arrivesB P i (P.primary v) (.prePrepare (pp t)) (x i t) &&
            if t = base + 1 then base ≤ (P.after i (x i t)).lastOrdered.2 else x i (t - 1) < x i t)) &&
        L.all (fun j => i == j || (P.sent j).all (sentB P v t i j (pp t))))))

theorem works_of {P : Pool} {v base s : Nat} {L : List Node} {pp : Nat → PrePrepare} {x : Node → Nat → Nat}
    (h : worksB P v base s L pp x = true) (hd : L.Nodup) (he : P.n - getMaxFailures P.n ≤ L.length) (hp : P.primary v ∈ L) :
    P.Works v base s L pp := by
  unfold worksB at h
  simp only [Bool.and_eq_true] at h
  obtain ⟨⟨h1, h2⟩, h3⟩ := h
  have a1 : ∀ i ∈ L, _ := fun i hi => List.all_eq_true.1 h1 i hi
  simp only [Bool.and_eq_true, decide_eq_true_eq, beq_iff_eq, Bool.not_eq_true'] at a1
  have a3 : ∀ t, base < t → t ≤ s → _ := fun t t1 t2 =>
    (Bool.or_eq_true _ _ ▸ List.all_eq_true.1 h3 t (List.mem_range.2 (by omega))).resolve_left (by simpa using t1)
  simp only [Bool.and_eq_true, beq_iff_eq] at a3
  have a4 : ∀ t, base < t → t ≤ s → ∀ i ∈ L, _ := fun t t1 t2 i hi => List.all_eq_true.1 (a3 t t1 t2).2 i hi
  simp only [Bool.and_eq_true, Bool.or_eq_true, beq_iff_eq] at a4
  have a5 : ∀ t, base < t → t ≤ s → ∀ i ∈ L, ∀ j ∈ L, i ≠ j → ∀ m ∈ P.sent j, sentB P v t i j (pp t) m = true := by
    intro t t1 t2 i hi j hj hij m hm
    have := List.all_eq_true.1 (a4 t t1 t2 i hi).2 j hj
    simp only [Bool.or_eq_true, beq_iff_eq] at this
    exact List.all_eq_true.1 (this.resolve_left hij) m hm
  refine ⟨hd, ?_, he, hp, ?_, ?_, ?_, ?_, ?_, ?_, ?_, ?_⟩
  · intro i hi
    obtain ⟨⟨⟨⟨⟨b1, b2⟩, -⟩, -⟩, -⟩, -⟩ := a1 i hi
    refine ⟨b1, fun hb => ?_⟩
    rw [List.contains_iff_mem.2 hb] at b2
    cases b2
  · intro i hi
    obtain ⟨⟨⟨⟨-, b3⟩, b4⟩, -⟩, -⟩ := a1 i hi
    exact ⟨b3, b4⟩
  · intro i hi
    have := List.all_eq_true.1 h2 i (List.mem_range.2 hi.1)
    simp only [Bool.or_eq_true, decide_eq_true_eq] at this
    exact this.resolve_left (fun hb => hi.2 (List.contains_iff_mem.1 hb))
  · intro i hi
    exact (a1 i hi).1.2
  · intro i hi a b k l hx
    have := List.all_eq_true.1 (a1 i hi).2 (.caughtUp k l) (by rw [hx]; simp)
    cases this
  · intro t t1 t2
    exact ⟨(a3 t t1 t2).1.1, List.contains_iff_mem.1 (a3 t t1 t2).1.2⟩
  · intro i hi hip
    refine ⟨x i, fun t t1 t2 => ?_⟩
    have := (a4 t t1 t2 i hi).1.resolve_left hip
    refine ⟨arrives_of this.1, ?_⟩
    have h2 := this.2
    split at h2
    · next hb => rw [if_pos hb]; exact of_decide_eq_true h2
    · next hb => rw [if_neg hb]; exact of_decide_eq_true h2
  · intro i hi j hj hij t t1 t2 p hp hk
    have := a5 t t1 t2 i hi j hj hij _ hp
    simp only [sentB, Bool.or_eq_true, bne_iff_ne] at this
    exact gets_of (this.resolve_left (fun f => f hk))
  · intro i hi j hj hij t t1 t2 p hp hk
    have := a5 t t1 t2 i hi j hj hij _ hp
    simp only [sentB, Bool.or_eq_true, bne_iff_ne] at this
    exact gets_of (this.resolve_left (fun f => f hk))

/-! ## A pool that works -/

namespace Flow

open Fork (dl)

def pp : Nat → PrePrepare := fun t => ⟨0, t, 0, 100, [5], 1, 3, ⟨1, 7, 8, t⟩⟩
def prep (t : Nat) : Prepare := ⟨0, t, 100, ⟨1, 7, 8, t⟩⟩
def com (t : Nat) : Commit := ⟨0, t, some ⟨1, 7, 3, 8, 100⟩⟩
def batch (t : Nat) : NewBatch := ⟨100, [5], 1, 3, 7, 8, t⟩

/-- Four nodes, node 3 is silent. The COMMITs of the second batch are first at
node 1; node 2 gets a PREPARE before the PRE-PREPARE. -/
def pool : Pool where
  n := 4
  primary := fun v => v % 4
  digest := fun reqs _ _ => reqs.length
  bls := true
  maxInFlight := some 4
  cert := fun _ _ => 0
  bad := [3]
  hist := fun i => match i with
    | 0 => [.createBatch (batch 1), .createBatch (batch 2), dl (.prepare (prep 1)) 1, dl (.prepare (prep 1)) 2,
        dl (.prepare (prep 2)) 1, dl (.prepare (prep 2)) 2, dl (.commit (com 1)) 1, dl (.commit (com 1)) 2,
        dl (.commit (com 2)) 1, dl (.commit (com 2)) 2]
    | 1 => [dl (.prePrepare (pp 1)) 0, dl (.prePrepare (pp 2)) 0, dl (.prepare (prep 1)) 2, dl (.prepare (prep 2)) 2,
        dl (.commit (com 2)) 0, dl (.commit (com 2)) 2, dl (.commit (com 1)) 0, dl (.commit (com 1)) 2]
    | 2 => [dl (.prepare (prep 1)) 1, dl (.prePrepare (pp 1)) 0, dl (.prePrepare (pp 2)) 0, dl (.prepare (prep 2)) 1,
        dl (.commit (com 1)) 0, dl (.commit (com 1)) 1, dl (.commit (com 2)) 0, dl (.commit (com 2)) 1]
    | _ => []

theorem ok : pool.Ok where
  pos := by decide
  few := by decide
  prim := fun v => Nat.mod_lt _ (by decide)
  cert0 := fun _ _ => rfl
  net := Pool.net_of_okB (by decide +kernel)

theorem works : pool.Works 0 0 2 [0, 1, 2] pp :=
  works_of (x := fun i t => if i = 1 then t - 1 else t) (by decide +kernel) (by decide) (by decide) (by decide)

/-- Every node that has ordered a batch sent its COMMIT. -/
theorem spread : ∀ t, 0 < t → t ≤ 2 → pool.Spread 0 t [0, 1, 2] (pp t) := by
  intro t h1 h2
  refine .inl (fun j hj _ => ⟨com t, ?_, rfl⟩)
  have : t = 1 ∨ t = 2 := by omega
  simp only [List.mem_cons, List.not_mem_nil, or_false] at hj
  rcases this with e | e <;> subst e <;> rcases hj with e | e | e <;> subst e <;> decide +kernel

/-- Node 1 has not ordered the second batch before the timer. -/
theorem before : (pool.node 1).lastOrdered = (0, 1) := by decide +kernel

end Flow

example : Flow.pp 2 ∈ (run (Flow.pool.cfg 1) (Flow.pool.hist 1 ++ List.replicate 2 .orderStashed)).ordLog :=
  (C93_progress_partial Flow.pool Flow.ok (by decide) 0 0 2 [0, 1, 2] Flow.pp Flow.works Flow.spread 1 (by decide)).2 2
    (by rw [Flow.before]; decide) (by decide)

example : ∃ i ∈ [0, 1, 2], 2 ≤ (run (Flow.pool.cfg i) (Flow.pool.hist i ++ List.replicate 2 .orderStashed)).lastOrdered.2 :=
  (C93_someone_orders Flow.pool Flow.ok (by decide) 0 0 2 [0, 1, 2] Flow.pp Flow.works).imp fun _ h => ⟨h.1, h.2.1⟩

example : ∃ p : Prepare, .prepare p ∈ Flow.pool.sent 1 ∧ p.key = (0, 2) ∧ p.content = (Flow.pp 2).content :=
  C93_prepares_sent Flow.pool Flow.ok 0 0 2 [0, 1, 2] Flow.pp Flow.works 1 (by decide) (by decide) 2 (by decide) (by decide)
    (by rw [Flow.before]; decide)

namespace Two

open Fork (dl)
open Flow (pp prep com batch)

/-- Two nodes, none faulty. -/
def pool : Pool where
  n := 2
  primary := fun v => v % 2
  digest := fun reqs _ _ => reqs.length
  bls := true
  maxInFlight := some 4
  cert := fun _ _ => 0
  bad := []
  hist := fun i => match i with
    | 0 => [.createBatch (batch 1), .createBatch (batch 2), dl (.prepare (prep 1)) 1, dl (.prepare (prep 2)) 1,
        dl (.commit (com 2)) 1, dl (.commit (com 1)) 1]
    | 1 => [dl (.prePrepare (pp 1)) 0, dl (.prePrepare (pp 2)) 0, dl (.commit (com 1)) 0, dl (.commit (com 2)) 0]
    | _ => []

theorem ok : pool.Ok where
  pos := by decide
  few := by decide
  prim := fun v => Nat.mod_lt _ (by decide)
  cert0 := fun _ _ => rfl
  net := Pool.net_of_okB (by decide +kernel)

theorem works : pool.Works 0 0 2 [0, 1] pp :=
  works_of (x := fun _ t => t - 1) (by decide +kernel) (by decide) (by decide) (by decide)

theorem own : ∀ j ∈ [0, 1], ∀ t, 0 < t → t ≤ 2 → t ≤ (pool.node j).lastOrdered.2 → pp t ∈ pool.orderedBy j := by
  intro j hj t h1 h2 h3
  have : t = 1 ∨ t = 2 := by omega
  simp only [List.mem_cons, List.not_mem_nil, or_false] at hj
  rcases hj with e | e <;> subst e <;> rcases this with e | e <;> subst e
  · decide +kernel
  · exact absurd h3 (by decide +kernel)
  · decide +kernel
  · decide +kernel

end Two

example : 2 ≤ (run (Two.pool.cfg 0) (Two.pool.hist 0 ++ List.replicate 2 .orderStashed)).lastOrdered.2 :=
  (C93_without_faults Two.pool Two.ok (by decide) 0 0 2 [0, 1] Flow.pp Two.works
    (fun i hi => by have : i = 0 ∨ i = 1 := by (have : i < 2 := hi); omega
                    rcases this with e | e <;> subst e <;> decide) Two.own 0 (by decide)).1

/-! ## Without `Spread` -/

namespace Stall

open Flow (pp prep com batch)
open Fork (dl)

/-- Seven nodes; 5 and 6 are Byzantine and send their COMMITs to node 2 only. The
messages of node 4 are slow on the way to node 2, which orders with the COMMITs of
0, 1, 3, 5 and 6 when it has three of the four PREPAREs it needs for its own
COMMIT. The PREPARE of node 4 is then too late. On every link messages arrive in
the order in which they were sent. -/
def pool : Pool where
  n := 7
  primary := fun v => v % 7
  digest := fun reqs _ _ => reqs.length
  bls := true
  maxInFlight := some 4
  cert := fun _ _ => 0
  bad := [5, 6]
  hist := fun i => match i with
    | 0 => [.createBatch (batch 1), dl (.prepare (prep 1)) 1, dl (.prepare (prep 1)) 2, dl (.prepare (prep 1)) 3,
        dl (.prepare (prep 1)) 4, dl (.commit (com 1)) 1, dl (.commit (com 1)) 3, dl (.commit (com 1)) 4]
    | 1 => [dl (.prePrepare (pp 1)) 0, dl (.prepare (prep 1)) 2, dl (.prepare (prep 1)) 3, dl (.prepare (prep 1)) 4,
        dl (.commit (com 1)) 0, dl (.commit (com 1)) 3, dl (.commit (com 1)) 4]
    | 2 => [dl (.prePrepare (pp 1)) 0, dl (.prepare (prep 1)) 1, dl (.prepare (prep 1)) 3, dl (.commit (com 1)) 0,
        dl (.commit (com 1)) 1, dl (.commit (com 1)) 3, dl (.commit (com 1)) 5, dl (.commit (com 1)) 6,
        dl (.prepare (prep 1)) 4, dl (.commit (com 1)) 4]
    | 3 => [dl (.prePrepare (pp 1)) 0, dl (.prepare (prep 1)) 1, dl (.prepare (prep 1)) 2, dl (.prepare (prep 1)) 4,
        dl (.commit (com 1)) 0, dl (.commit (com 1)) 1, dl (.commit (com 1)) 4]
    | 4 => [dl (.prePrepare (pp 1)) 0, dl (.prepare (prep 1)) 1, dl (.prepare (prep 1)) 2, dl (.prepare (prep 1)) 3,
        dl (.commit (com 1)) 0, dl (.commit (com 1)) 1, dl (.commit (com 1)) 3]
    | _ => []

theorem ok : pool.Ok where
  pos := by decide
  few := by decide
  prim := fun v => Nat.mod_lt _ (by decide)
  cert0 := fun _ _ => rfl
  net := Pool.net_of_okB (by decide +kernel)

theorem works : pool.Works 0 0 1 [0, 1, 2, 3, 4] pp :=
  works_of (x := fun _ _ => 0) (by decide +kernel) (by decide) (by decide) (by decide)

theorem idle : (pool.node 0).lastOrdered = (0, 0) ∧ (pool.node 0).outOfOrder = [] := by decide +kernel

theorem ordered : pool.orderedBy 2 = [pp 1] := by decide +kernel

end Stall

/-- **C93 fails without `Spread`.** In a pool with `f` Byzantine nodes in which all
honest nodes get all of each other's messages, a batch may be ordered by one
honest node and by no other, however long the timer runs: a node orders on COMMITs
alone, and one that does before it has its PREPAREs never sends its own COMMIT. -/
theorem C93_stall : ∃ (P : Pool) (L : List Node) (pp : Nat → PrePrepare), P.Ok ∧ 2 ≤ P.n ∧ P.Works 0 0 1 L pp ∧
    (∃ j ∈ L, P.orderedBy j = [pp 1]) ∧
    ∃ i ∈ L, ∀ m, (run (P.cfg i) (P.hist i ++ List.replicate m .orderStashed)).lastOrdered.2 = 0 := by
  refine ⟨Stall.pool, [0, 1, 2, 3, 4], Flow.pp, Stall.ok, by decide, Stall.works, ⟨2, by decide, Stall.ordered⟩, 0, by decide, fun m => ?_⟩
  rw [timer_run (timer_idle Stall.idle.2)]
  exact congrArg Prod.snd Stall.idle.1

/-! ## With one node -/

namespace Alone

def pool : Pool where
  n := 1
  primary := fun _ => 0
  digest := fun reqs _ _ => reqs.length
  bls := true
  maxInFlight := some 4
  cert := fun _ _ => 0
  bad := []
  hist := fun i => match i with
    | 0 => [.createBatch (Flow.batch 1)]
    | _ => []

theorem ok : pool.Ok where
  pos := by decide
  few := by decide
  prim := fun _ => Nat.one_pos
  cert0 := fun _ _ => rfl
  net := Pool.net_of_okB (by decide)

theorem works : pool.Works 0 0 1 [0] Flow.pp :=
  works_of (x := fun _ _ => 0) (by decide +kernel) (by decide) (by decide) (by decide)

theorem spread : pool.Spread 0 1 [0] (Flow.pp 1) := by
  refine .inl (fun j hj hl => ?_)
  simp only [List.mem_cons, List.not_mem_nil, or_false] at hj
  subst hj
  exact absurd hl (by decide +kernel)

theorem idle : (pool.node 0).lastOrdered = (0, 0) ∧ (pool.node 0).outOfOrder = [] := by decide

end Alone

/-- **C93 fails for one node.** In a pool of one node no PREPARE is ever sent and so no
COMMIT. -/
theorem C93_alone : ∃ (P : Pool) (pp : Nat → PrePrepare), P.Ok ∧ P.n = 1 ∧ P.Works 0 0 1 [0] pp ∧ P.Spread 0 1 [0] (pp 1) ∧
    ∀ m, (run (P.cfg 0) (P.hist 0 ++ List.replicate m .orderStashed)).lastOrdered.2 = 0 := by
  refine ⟨Alone.pool, Flow.pp, Alone.ok, rfl, Alone.works, Alone.spread, fun m => ?_⟩
  rw [timer_run (timer_idle Alone.idle.2)]
  exact congrArg Prod.snd Alone.idle.1

/-! ## Catchups across a view change -/

namespace Caught

open Fork (dl)

def old : PrePrepare := ⟨0, 1, 0, 100, [5], 1, 3, ⟨1, 7, 8, 1⟩⟩
def pp : PrePrepare := ⟨1, 2, 1, 100, [5], 1, 3, ⟨1, 7, 8, 2⟩⟩
def prep : Prepare := ⟨1, 2, 100, ⟨1, 7, 8, 2⟩⟩
def com : Commit := ⟨1, 2, some ⟨1, 7, 3, 8, 100⟩⟩

def cfg : Cfg where
  name := 2
  n := 4
  primary := fun v => v % 4
  digest := fun reqs _ _ => reqs.length
  bls := true
  maxInFlight := some 4
  cert := fun v => v

/-- The node missed the first batch in view 0. It comes to view 1, where that batch
is to be ordered again, gets the second batch with all its votes, and then the
first one by a catchup, from nodes which ordered it in view 0. -/
def evs : List Event :=
  [.startViewChange 1, .acceptNewView, .oldViewPP old {}, dl (.prePrepare pp) 1, dl (.prepare prep) 0, dl (.prepare prep) 3,
   dl (.commit com) 0, dl (.commit com) 1, dl (.commit com) 3, .startCatchup, .caughtUp (0, 1) []]

/-- A COMMIT of a later view that is not for the first batch is passed over. -/
theorem passed {cfg : Cfg} {r : Replica} {e : Key × Commit} (h : r.outOfOrder = [e]) (h1 : r.lastOrdered.1 < e.1.1)
    (h2 : e.1.2 ≠ 1) (h3 : r.ordered.contains e.1 = false) (h4 : r.alreadyOrdered e.2.seqNo = false) :
    r.processOutOfOrder cfg = r := by
  unfold Replica.processOutOfOrder
  split
  · rfl
  · have hs : Replica.orderStashed cfg (r, r.lastOrdered, []) e = (r, r.lastOrdered, []) := by
      unfold Replica.orderStashed
      simp only [h3, h4]
      rw [if_neg (by omega), if_neg (by simp), if_neg]
      simp only [Bool.or_eq_true, Bool.and_eq_true, beq_iff_eq]
      omega
    rw [h, List.foldl_cons, List.foldl_nil, hs]
    obtain ⟨⟩ := r
    simp only at h
    subst h
    rfl

theorem waits : (run cfg evs).outOfOrder = [((1, 2), com)] ∧ (run cfg evs).ordered = [] := by decide +kernel

theorem stays : (run cfg evs).processOutOfOrder cfg = run cfg evs ∧ (run cfg evs).lastOrdered = (0, 1) ∧
    (run cfg evs).view = 1 ∧ (run cfg evs).participating = true ∧ (run cfg evs).getPP (1, 2) = some pp ∧
    hasQuorum (run cfg evs).commits (1, 2) (Quorums.ofN 4).commit.value = true := by
  refine ⟨passed waits.1 (by decide +kernel) (by decide) (by rw [waits.2]; rfl) (by decide +kernel), by decide +kernel, by decide +kernel, by decide +kernel, by decide +kernel, by decide +kernel⟩

theorem votes : ∀ w ∈ [0, 1, 2, 3], hasVote (run cfg evs).commits (1, 2) w = true := by decide +kernel

end Caught

/-- **C93 fails after a catchup across a view change.** The node is in view 1, takes part,
has batch 1, and the PRE-PREPARE and all COMMITs of batch 2; the timer never orders it. (A
further COMMIT for it would.) -/
theorem C93_stuck_after_catchup : ∃ (cfg : Cfg) (evs : List Event), (run cfg evs).participating = true ∧
    (run cfg evs).view = 1 ∧ (run cfg evs).lastOrdered.2 = 1 ∧ (∃ pp, (run cfg evs).getPP (1, 2) = some pp) ∧
    (∀ w ∈ [0, 1, 2, 3], hasVote (run cfg evs).commits (1, 2) w = true) ∧ cfg.n = 4 ∧
    ∀ m, (run cfg (evs ++ List.replicate m .orderStashed)).lastOrdered.2 = 1 := by
  obtain ⟨h1, h2, h3, h4, h5, -⟩ := Caught.stays
  refine ⟨Caught.cfg, Caught.evs, h4, h3, by rw [h2], ⟨_, h5⟩, Caught.votes, rfl, fun m => ?_⟩
  rw [timer_run h1, h2]

end Verif.Props
