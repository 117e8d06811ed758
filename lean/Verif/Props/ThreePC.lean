import Verif.Model.Network
import Verif.Proofs.ThreePCOrder
/-!
# C17, C18, C19, C29: three-phase commit
-/
namespace Verif.Props

open Verif.TPC

/-! ## From the replica's invariant to the pool -/

theorem inv_node {P : Pool} (ok : P.Ok) {i : Node} (hi : P.Honest i) :
    Inv (P.cfg i) (Delivered (P.hist i)) (P.node i) :=
  Inv.run (cfg := P.cfg i) (ok.cert0 i hi) (P.hist i) (fun w m hd => (ok.net i hi w m hd).2.1)

theorem seen_of_src {P : Pool} {i w : Node} {m : Msg}
    (h : Src (P.cfg i) (Delivered (P.hist i)) (P.node i).out w m) : P.Seen i w m := by
  rcases h with h | h
  · exact .inl h
  · exact .inr h.2

/-- A message of an honest node, seen anywhere honest, was sent by it. -/
theorem sent_of_seen {P : Pool} (ok : P.Ok) {i w : Node} {m : Msg} (hi : P.Honest i) (h : P.Seen i w m) :
    w < P.n ∧ (w ∉ P.bad → m ∈ P.sent w) := by
  rcases h with ⟨h1, h2⟩ | h
  · subst h1; exact ⟨hi.1, fun _ => h2⟩
  · have := ok.net i hi w m h; exact ⟨this.1, this.2.2⟩

theorem prepared_of_certified {P : Pool} {i : Node} {k : Key} {pp : PrePrepare}
    (h : Certified (P.cfg i) (Delivered (P.hist i)) (P.node i).out k pp) : pp.key = k ∧ P.Prepared i pp := by
  obtain ⟨e, a, Q, b, c, d⟩ := h
  subst e
  refine ⟨rfl, seen_of_src a, Q, b, c, fun q hq => ⟨(d q hq).1, ?_⟩⟩
  obtain ⟨p, p1, p2, p3⟩ := (d q hq).2
  exact ⟨p, p1, p2, seen_of_src p3⟩

/-! ## C17 -/

/-- **C17.** An honest node never sends two different PRE-PREPAREs, PREPAREs or
COMMITs for one (view, sequence number), for every history. (PREPAREs and
COMMITs: above what the view's NEW_VIEW brought over.) -/
theorem C17_no_equivocation (P : Pool) (ok : P.Ok) (i : Node) (hi : P.Honest i) :
    (∀ p q, Msg.prePrepare p ∈ P.sent i → .prePrepare q ∈ P.sent i → p.key = q.key → p = q) ∧
    (∀ p q, Msg.prepare p ∈ P.sent i → .prepare q ∈ P.sent i → p.key = q.key → P.top i p.viewNo < p.seqNo → p = q) ∧
    (∀ p q, Msg.commit p ∈ P.sent i → .commit q ∈ P.sent i → p.key = q.key → P.top i p.viewNo < p.seqNo → p = q) :=
  have h := inv_node ok hi
  ⟨h.ppu, h.uniqP, h.uniqC⟩

/-- **C17.** Two prepare certificates for one (view, sequence number), at any
two honest nodes, are for the same digest and roots: at most `f` Byzantine
nodes, the primary possibly among them, every schedule. -/
theorem C17_prepared_agree (P : Pool) (ok : P.Ok) (i j : Node) (hi : P.Honest i) (hj : P.Honest j)
    (pp qq : PrePrepare) (hk : pp.key = qq.key) (hf : P.Fresh pp.key)
    (h1 : P.Prepared i pp) (h2 : P.Prepared j qq) : pp.content = qq.content := by
  have ev : qq.viewNo = pp.viewNo := (congrArg Prod.fst hk).symm
  obtain ⟨a1, A, a2, a3, a4⟩ := h1
  obtain ⟨b1, B, b2, b3, b4⟩ := h2
  rw [ev] at b1 b4
  by_cases hp : P.primary pp.viewNo ∈ P.bad
  · -- a Byzantine primary: the two sets of PREPARE senders share an honest node
    have hf3 : 3 * getMaxFailures P.n < P.n := by
      have := ok.pos
      unfold getMaxFailures; split <;> omega
    have hlen : ((List.range P.n).erase (P.primary pp.viewNo)).length = P.n - 1 := by
      rw [List.length_erase_of_mem (List.mem_range.2 (ok.prim _)), List.length_range]
    have hlen' : (P.bad.erase (P.primary pp.viewNo)).length = P.bad.length - 1 :=
      List.length_erase_of_mem hp
    have hbad : 0 < P.bad.length := List.length_pos_of_mem hp
    have := ok.few
    obtain ⟨q, qA, qB, qF⟩ := intersect_outside (U := (List.range P.n).erase (P.primary pp.viewNo))
      (F := P.bad.erase (P.primary pp.viewNo)) a2 b2
      (fun x hx => by
        obtain ⟨x1, p, -, -, x2⟩ := a4 x hx
        exact (List.mem_erase_of_ne x1).2 (List.mem_range.2 (sent_of_seen ok hi x2).1))
      (fun x hx => by
        obtain ⟨x1, p, -, -, x2⟩ := b4 x hx
        exact (List.mem_erase_of_ne x1).2 (List.mem_range.2 (sent_of_seen ok hj x2).1))
      (by omega)
    obtain ⟨x1, p, p1, p2, p3⟩ := a4 q qA
    obtain ⟨-, p', p1', p2', p3'⟩ := b4 q qB
    have hq : q ∉ P.bad := fun h => qF ((List.mem_erase_of_ne x1).2 h)
    have s1 := sent_of_seen ok hi p3
    have s2 := sent_of_seen ok hj p3'
    have := (C17_no_equivocation P ok q ⟨s1.1, hq⟩).2.1 p p' (s1.2 hq) (s2.2 hq)
      (by rw [p1, p1', hk]) (by
        have e : p.key = pp.key := p1
        have e1 : p.viewNo = pp.viewNo := congrArg Prod.fst e
        have e2 : p.seqNo = pp.seqNo := congrArg Prod.snd e
        rw [e1, e2]; exact hf q ⟨s1.1, hq⟩)
    rw [← p2, ← p2', this]
  · -- an honest primary makes one PRE-PREPARE per key
    have s1 := (sent_of_seen ok hi a1).2 hp
    have s2 := (sent_of_seen ok hj b1).2 hp
    have := (C17_no_equivocation P ok _ ⟨ok.prim _, hp⟩).1 pp qq s1 s2 hk
    rw [this]

/-- **C17.** An honest node sends a COMMIT for a key only with a prepare
certificate for a batch at that key. -/
theorem C17_commit_prepared (P : Pool) (ok : P.Ok) (i : Node) (hi : P.Honest i) (c : Commit)
    (hc : Msg.commit c ∈ P.sent i) (hf : P.Fresh c.key) :
    ∃ pp, pp.key = c.key ∧ P.Prepared i pp ∧ c.bls = if P.bls then some (blsValue pp) else none := by
  obtain ⟨pp, h1, h2⟩ := (inv_node ok hi).cmt c hc (hf i hi)
  obtain ⟨h3, h4⟩ := prepared_of_certified h1
  exact ⟨pp, h3, h4, h2⟩

/-- **C17**, for nodes that sent their own COMMIT: two honest nodes that
committed and ordered a batch at the same (view, sequence number) ordered the
same digest and roots. Missing for the full claim: a node may order without
having sent a COMMIT (see `C17_fork`). -/
theorem C17_agreement_partial (P : Pool) (ok : P.Ok) (i j : Node) (hi : P.Honest i) (hj : P.Honest j)
    (pp qq : PrePrepare) (h1 : pp ∈ P.orderedBy i) (h2 : qq ∈ P.orderedBy j) (hk : pp.key = qq.key)
    (hf : P.Fresh pp.key)
    (c d : Commit) (hc : Msg.commit c ∈ P.sent i) (hck : c.key = pp.key)
    (hd : Msg.commit d ∈ P.sent j) (hdk : d.key = qq.key) : pp.content = qq.content := by
  have a := (prepared_of_certified ((inv_node ok hi).ordC pp h1 c hc hck (hf i hi))).2
  have b := (prepared_of_certified ((inv_node ok hj).ordC qq h2 d hd hdk (by
    have := hf j hj; rw [hk] at this; exact this))).2
  exact C17_prepared_agree P ok i j hi hj pp qq hk hf a b

/-- **C17** under an honest primary: two honest nodes that order a batch at the
same (view, sequence number) order the same batch. -/
theorem C17_honest_primary_partial (P : Pool) (ok : P.Ok) (i j : Node) (hi : P.Honest i) (hj : P.Honest j)
    (pp qq : PrePrepare) (h1 : pp ∈ P.orderedBy i) (h2 : qq ∈ P.orderedBy j) (hk : pp.key = qq.key)
    (hf : P.Fresh pp.key) (hp : P.primary pp.viewNo ∉ P.bad) : pp = qq := by
  have ev : qq.viewNo = pp.viewNo := (congrArg Prod.fst hk).symm
  obtain ⟨a, -⟩ := (inv_node ok hi).ord pp h1 (hf i hi)
  obtain ⟨b, -⟩ := (inv_node ok hj).ord qq h2 (by have := hf j hj; rw [hk] at this; exact this)
  have s1 := (sent_of_seen ok hi (seen_of_src a)).2 hp
  have s2 := (sent_of_seen ok hj (seen_of_src b)).2 (by
    show P.primary qq.viewNo ∉ P.bad
    rw [ev]; exact hp)
  have s2 : Msg.prePrepare qq ∈ P.sent (P.primary pp.viewNo) := by rw [← ev]; exact s2
  exact (C17_no_equivocation P ok _ ⟨ok.prim _, hp⟩).1 pp qq s1 s2 hk

/-- **C17** with BLS signatures on COMMITs: two honest nodes that order a batch
at the same (view, sequence number) agree on its ledger, state root, pool state
root, transaction root and time, even under a Byzantine primary. Missing: the
batch digest and the audit root, which no COMMIT signature covers
(`C17_fork`). -/
theorem C17_bls_value_partial (P : Pool) (ok : P.Ok) (hb : P.bls = true) (i j : Node) (hi : P.Honest i)
    (hj : P.Honest j) (pp qq : PrePrepare) (h1 : pp ∈ P.orderedBy i) (h2 : qq ∈ P.orderedBy j)
    (hk : pp.key = qq.key) (hf : P.Fresh pp.key) :
    pp.ledger = qq.ledger ∧ pp.content.stateRoot = qq.content.stateRoot ∧ pp.poolRoot = qq.poolRoot ∧
      pp.content.txnRoot = qq.content.txnRoot ∧ pp.time = qq.time := by
  obtain ⟨-, A, a2, a3, a4⟩ := (inv_node ok hi).ord pp h1 (hf i hi)
  obtain ⟨-, B, b2, b3, b4⟩ := (inv_node ok hj).ord qq h2 (by have := hf j hj; rw [hk] at this; exact this)
  have hf3 : 3 * getMaxFailures P.n < P.n := by
    have := ok.pos
    unfold getMaxFailures; split <;> omega
  have := ok.few
  have a3 : P.n - getMaxFailures P.n ≤ A.length := a3
  have b3 : P.n - getMaxFailures P.n ≤ B.length := b3
  obtain ⟨q, qA, qB, qF⟩ := intersect_outside (U := List.range P.n) (F := P.bad) a2 b2
    (fun x hx => by
      obtain ⟨c, -, -, x2⟩ := a4 x hx
      exact List.mem_range.2 (sent_of_seen ok hi (seen_of_src x2)).1)
    (fun x hx => by
      obtain ⟨c, -, -, x2⟩ := b4 x hx
      exact List.mem_range.2 (sent_of_seen ok hj (seen_of_src x2)).1)
    (by rw [List.length_range]; omega)
  obtain ⟨c, c1, c2, c3⟩ := a4 q qA
  obtain ⟨d, d1, d2, d3⟩ := b4 q qB
  have s1 := sent_of_seen ok hi (seen_of_src c3)
  have s2 := sent_of_seen ok hj (seen_of_src d3)
  have hq : P.Honest q := ⟨s1.1, qF⟩
  have hfc : P.top q c.viewNo < c.seqNo := by
    have e1 : c.viewNo = pp.viewNo := congrArg Prod.fst c1
    have e2 : c.seqNo = pp.seqNo := congrArg Prod.snd c1
    rw [e1, e2]; exact hf q hq
  have hcd := (C17_no_equivocation P ok q hq).2.2 c d (s1.2 qF) (s2.2 qF) (by rw [c1, d1, hk]) hfc
  obtain ⟨p, -, hp⟩ := (inv_node ok hq).cmt c (s1.2 qF) hfc
  rw [show (P.cfg q).bls = true from hb, if_pos rfl] at hp
  rw [← hcd] at d2
  unfold blsAccepts at c2 d2
  rw [hp] at c2 d2
  have e : blsValue pp = blsValue qq := by
    have e1 : blsValue p = blsValue pp := of_decide_eq_true c2
    have e2 : blsValue p = blsValue qq := of_decide_eq_true d2
    rw [← e1, e2]
  simp only [blsValue, BlsValue.mk.injEq] at e
  exact e

/-! ### A concrete pool: a Byzantine primary splits four nodes -/

namespace Fork

/-- One valid request `5`; the second batch also names a request `6` that is
rejected on application, so that the state and transaction roots are the same
and only the digest and the audit root (which records the digest) differ. -/
def pp1 : PrePrepare := ⟨0, 1, 0, 100, [5], 1, 3, ⟨1, 7, 8, 9⟩⟩
def pp2 : PrePrepare := ⟨0, 1, 0, 100, [5, 6], 1, 3, ⟨2, 7, 8, 10⟩⟩
def prep2 : Prepare := ⟨0, 1, 100, ⟨2, 7, 8, 10⟩⟩
def com : Commit := ⟨0, 1, some ⟨1, 7, 3, 8, 100⟩⟩

def dl (m : Msg) (w : Node) : Event := .deliver m w {}

/-- Node 0 is the Byzantine primary of view 0. It sends `pp1` to node 1 and
`pp2` to nodes 2 and 3. -/
def pool : Pool where
  n := 4
  primary := fun v => v % 4
  digest := fun reqs _ _ => reqs.length
  bls := true
  maxInFlight := none
  cert := fun _ _ => 0
  bad := [0]
  hist := fun i => match i with
    | 1 => [dl (.prePrepare pp1) 0, dl (.commit com) 2, dl (.commit com) 3, dl (.commit com) 0]
    | 2 => [dl (.prePrepare pp2) 0, dl (.prepare prep2) 3, dl (.commit com) 3, dl (.commit com) 0]
    | 3 => [dl (.prePrepare pp2) 0, dl (.prepare prep2) 2, dl (.commit com) 2, dl (.commit com) 0]
    | _ => []

theorem ok : pool.Ok where
  pos := by decide
  few := by decide
  prim := fun v => Nat.mod_lt _ (by decide)
  cert0 := fun _ _ => rfl
  net := Pool.net_of_okB (by decide)

theorem ordered1 : pool.orderedBy 1 = [pp1] := by decide
theorem ordered2 : pool.orderedBy 2 = [pp2] := by decide
theorem ordered3 : pool.orderedBy 3 = [pp2] := by decide

theorem honest (i : Node) (h : i = 1 ∨ i = 2 ∨ i = 3) : pool.Honest i := by
  rcases h with h | h | h <;> subst h <;> exact ⟨by decide, by decide⟩

theorem fresh : pool.Fresh (0, 1) := fun _ _ => Nat.zero_lt_one

end Fork

/-- **C17 does not hold of the code.** A COMMIT names no digest and
`_can_order` asks only for COMMITs, so with one Byzantine node (the primary)
among four, and BLS signatures on, two honest nodes order different batches at
the same (view, sequence number). -/
theorem C17_fork : ∃ P : Pool, P.Ok ∧ P.bls = true ∧ ∃ i j, P.Honest i ∧ P.Honest j ∧
    ∃ pp ∈ P.orderedBy i, ∃ qq ∈ P.orderedBy j, pp.key = qq.key ∧ P.Fresh pp.key ∧
      pp.content.digest ≠ qq.content.digest ∧ pp.content.auditRoot ≠ qq.content.auditRoot :=
  ⟨Fork.pool, Fork.ok, rfl, 1, 2, Fork.honest 1 (by simp), Fork.honest 2 (by simp), Fork.pp1,
    by rw [Fork.ordered1]; simp, Fork.pp2, by rw [Fork.ordered2]; simp, rfl, Fork.fresh, by decide, by decide⟩

/-- Nodes 2 and 3 of that pool meet the hypotheses of the agreement theorems. -/
example : Fork.pp2.content = Fork.pp2.content :=
  C17_agreement_partial Fork.pool Fork.ok 2 3 (Fork.honest 2 (by simp)) (Fork.honest 3 (by simp)) Fork.pp2 Fork.pp2
    (by rw [Fork.ordered2]; simp) (by rw [Fork.ordered3]; simp) rfl Fork.fresh Fork.com Fork.com
    (by decide) rfl (by decide) rfl

example : Fork.pp1.content.stateRoot = Fork.pp2.content.stateRoot :=
  (C17_bls_value_partial Fork.pool Fork.ok rfl 1 3 (Fork.honest 1 (by simp)) (Fork.honest 3 (by simp)) Fork.pp1
    Fork.pp2 (by rw [Fork.ordered1]; simp) (by rw [Fork.ordered3]; simp) rfl Fork.fresh).2.1

example : ∃ pp, pp.key = (0, 1) ∧ Fork.pool.Prepared 2 pp ∧
    Fork.com.bls = if Fork.pool.bls then some (blsValue pp) else none :=
  C17_commit_prepared Fork.pool Fork.ok 2 (Fork.honest 2 (by simp)) Fork.com (by decide) Fork.fresh

/-! ### The same with an honest primary -/

namespace Good

def batch : NewBatch := ⟨100, [5], 1, 3, 7, 8, 9⟩
def pp : PrePrepare := ⟨0, 1, 0, 100, [5], 1, 3, ⟨1, 7, 8, 9⟩⟩
def prep : Prepare := ⟨0, 1, 100, ⟨1, 7, 8, 9⟩⟩
def com : Commit := ⟨0, 1, some ⟨1, 7, 3, 8, 100⟩⟩

open Fork (dl)

/-- Node 3 is Byzantine and silent; COMMITs reach node 1 before its second
PREPARE. -/
def pool : Pool where
  n := 4
  primary := fun v => v % 4
  digest := fun reqs _ _ => reqs.length
  bls := true
  maxInFlight := some 4
  cert := fun _ _ => 0
  bad := [3]
  hist := fun i => match i with
    | 0 => [.createBatch batch, dl (.prepare prep) 1, dl (.prepare prep) 2, dl (.commit com) 2, dl (.commit com) 1]
    | 1 => [dl (.commit com) 2, dl (.prePrepare pp) 0, dl (.commit com) 0, dl (.prepare prep) 2]
    | 2 => [dl (.prepare prep) 1, dl (.prePrepare pp) 0, dl (.commit com) 1, dl (.commit com) 0]
    | _ => []

theorem ok : pool.Ok where
  pos := by decide
  few := by decide
  prim := fun v => Nat.mod_lt _ (by decide)
  cert0 := fun _ _ => rfl
  net := Pool.net_of_okB (by decide)

theorem ordered0 : pool.orderedBy 0 = [pp] := by decide
theorem ordered1 : pool.orderedBy 1 = [pp] := by decide
theorem ordered2 : pool.orderedBy 2 = [pp] := by decide

theorem honest (i : Node) (h : i = 0 ∨ i = 1 ∨ i = 2) : pool.Honest i := by
  rcases h with h | h | h <;> subst h <;> exact ⟨by decide, by decide⟩

end Good

example : Good.pp = Good.pp :=
  C17_honest_primary_partial Good.pool Good.ok 0 1 (Good.honest 0 (by simp)) (Good.honest 1 (by simp)) Good.pp Good.pp
    (by rw [Good.ordered0]; simp) (by rw [Good.ordered1]; simp) rfl (fun _ _ => Nat.zero_lt_one) (by decide)

/-! ## C19 -/

/-- **C19.** For every history, each batch a node orders (above what the view's
NEW_VIEW brought over) came from the primary of its view, and COMMITs for its
key, with BLS signatures that fit it, were seen from `n - f` distinct nodes; if
the node sent a COMMIT itself, it holds a prepare certificate for exactly this
batch. Missing for the full claim: the prepare certificate when the node sent
no COMMIT (see `C19_without_prepares`). -/
theorem C19_order_evidence_partial (P : Pool) (ok : P.Ok) (i : Node) (hi : P.Honest i) (pp : PrePrepare)
    (ho : pp ∈ P.orderedBy i) (hf : P.top i pp.viewNo < pp.seqNo) :
    P.Seen i (P.primary pp.viewNo) (.prePrepare pp) ∧
    (∃ Q : List Node, Q.Nodup ∧ P.n - getMaxFailures P.n ≤ Q.length ∧ ∀ q ∈ Q, q < P.n ∧
      ∃ c : Commit, c.key = pp.key ∧ (∀ v, c.bls = some v → v = blsValue pp) ∧ P.Seen i q (.commit c)) ∧
    ((∃ c : Commit, c.key = pp.key ∧ Msg.commit c ∈ P.sent i) → P.Prepared i pp) := by
  have h := inv_node ok hi
  obtain ⟨a, Q, b, c, d⟩ := h.ord pp ho hf
  refine ⟨seen_of_src a, ⟨Q, b, c, fun q hq => ?_⟩, ?_⟩
  · obtain ⟨m, m1, m2, m3⟩ := d q hq
    refine ⟨(sent_of_seen ok hi (seen_of_src m3)).1, m, m1, fun v hv => ?_, seen_of_src m3⟩
    unfold blsAccepts at m2
    rw [hv] at m2
    exact of_decide_eq_true m2
  · rintro ⟨m, m1, m2⟩
    exact (prepared_of_certified (h.ordC pp ho m m2 m1 hf)).2

/-- **C19.** So at least one honest node (in fact all but `f` of the `n - f`)
holds a prepare certificate for some batch at an ordered key. -/
theorem C19_some_honest_prepared (P : Pool) (ok : P.Ok) (i : Node) (hi : P.Honest i) (pp : PrePrepare)
    (ho : pp ∈ P.orderedBy i) (hf : P.Fresh pp.key) :
    ∃ j qq, P.Honest j ∧ qq.key = pp.key ∧ P.Prepared j qq ∧ (P.bls = true → blsValue qq = blsValue pp) := by
  obtain ⟨-, ⟨Q, b, c, d⟩, -⟩ := C19_order_evidence_partial P ok i hi pp ho (hf i hi)
  have hf3 : 3 * getMaxFailures P.n < P.n := by
    have := ok.pos
    unfold getMaxFailures; split <;> omega
  have := ok.few
  obtain ⟨q, q1, q2⟩ := mem_of_length_lt (B := P.bad) b (by omega)
  obtain ⟨q3, m, m1, m2, m3⟩ := d q q1
  have hq : P.Honest q := ⟨q3, q2⟩
  obtain ⟨qq, e1, e2, e3⟩ := C17_commit_prepared P ok q hq m ((sent_of_seen ok hi m3).2 q2) (by rw [m1]; exact hf)
  refine ⟨q, qq, hq, by rw [e1, m1], e2, fun hb => m2 _ ?_⟩
  rw [e3, hb, if_pos rfl]

example : Fork.pool.Prepared 2 Fork.pp2 :=
  (C19_order_evidence_partial Fork.pool Fork.ok 2 (Fork.honest 2 (by simp)) Fork.pp2 (by rw [Fork.ordered2]; simp)
    (by decide)).2.2 ⟨Fork.com, rfl, by decide⟩

example : ∃ j qq, Fork.pool.Honest j ∧ qq.key = Fork.pp1.key ∧ Fork.pool.Prepared j qq ∧
    (Fork.pool.bls = true → blsValue qq = blsValue Fork.pp1) :=
  C19_some_honest_prepared Fork.pool Fork.ok 1 (Fork.honest 1 (by simp)) Fork.pp1 (by rw [Fork.ordered1]; simp)
    Fork.fresh

/-- **C19 does not hold of the code**: a node orders a batch without a prepare
certificate for it (its only PREPARE is its own). -/
theorem C19_without_prepares : ∃ P : Pool, P.Ok ∧ ∃ i, P.Honest i ∧ ∃ pp ∈ P.orderedBy i,
    P.Fresh pp.key ∧ ¬ P.Prepared i pp := by
  refine ⟨Fork.pool, Fork.ok, 1, Fork.honest 1 (by simp), Fork.pp1, by rw [Fork.ordered1]; simp, Fork.fresh, ?_⟩
  rintro ⟨-, Q, h1, h2, h3⟩
  have hall : ∀ q ∈ Q, q ∈ [1] := by
    intro q hq
    obtain ⟨-, p, -, -, hs⟩ := h3 q hq
    rcases hs with ⟨h, -⟩ | ⟨env, h⟩
    · simp [h]
    · have h : Event.deliver (.prepare p) q env ∈ [Fork.dl (.prePrepare Fork.pp1) 0, Fork.dl (.commit Fork.com) 2,
        Fork.dl (.commit Fork.com) 3, Fork.dl (.commit Fork.com) 0] := h
      simp [Fork.dl] at h
  have := length_le_of_subset h1 hall
  have h2 : 4 - getMaxFailures 4 - 1 ≤ Q.length := h2
  simp [getMaxFailures] at h2 this
  omega

/-! ## C18 -/

/-- **C18.** Whatever happens to a replica, the sequence numbers it orders are
strictly increasing: no batch position is ordered twice, across views,
catchups and checkpoints. -/
theorem C18_at_most_once (cfg : Cfg) (evs : List Event) :
    ((run cfg evs).ordLog.map (·.seqNo)).Pairwise (· < ·) := by
  obtain ⟨-, new, h1, h2, -⟩ := run_up (cfg := cfg) evs
  rw [h1]
  simpa using h2

/-- **C18.** In every state reached by any history, every event other than the
end of a catchup orders exactly the batches `last + 1, …, last + k` of the
current view, for some `k`, where `last` is the last ordered sequence number.
Missing for the full claim: the primary of the current view must not have
started a catchup in the middle of an earlier view (see
`C18_gap_after_catchup`). -/
theorem C18_contiguous_partial (cfg : Cfg) (evs : List Event) (e : Event) (he : ∀ k l, e ≠ .caughtUp k l)
    (hc : .startCatchup ∉ evs ++ [e] ∨ cfg.primary (run cfg evs).view ≠ cfg.name) :
    ∃ new : List PrePrepare,
      (run cfg (evs ++ [e])).ordLog = (run cfg evs).ordLog ++ new ∧
      new.map (·.seqNo) = List.range' ((run cfg evs).lastOrdered.2 + 1) new.length ∧
      (run cfg (evs ++ [e])).lastOrdered.2 = (run cfg evs).lastOrdered.2 + new.length ∧
      ∀ o ∈ new, o.viewNo = (run cfg evs).view := by
  have h := Ctg.run (cfg := cfg) (nc := Event.startCatchup ∉ evs ++ [e]) evs
    (fun x y => x (List.mem_append_left _ y))
  have := (h.step e (fun x y => x (by simp [y]))).2.2 he hc
  unfold run at this ⊢
  rw [List.foldl_append]
  exact this

/-- **C18.** With no catchup at all, a replica orders exactly 1, 2, 3, … -/
theorem C18_no_gaps (cfg : Cfg) (evs : List Event) (hc : .startCatchup ∉ evs) (hu : ∀ k l, .caughtUp k l ∉ evs) :
    (run cfg evs).ordLog.map (·.seqNo) = List.range' 1 (run cfg evs).ordLog.length ∧
    (run cfg evs).lastOrdered.2 = (run cfg evs).ordLog.length := by
  induction evs using snoc_induction with
  | nil => exact ⟨rfl, rfl⟩
  | snoc evs e ih =>
    obtain ⟨i1, i2⟩ := ih (fun h => hc (List.mem_append_left _ h)) (fun k l h => hu k l (List.mem_append_left _ h))
    obtain ⟨new, h1, h2, h3, -⟩ := C18_contiguous_partial cfg evs e
      (fun k l h => hu k l (by simp [h])) (.inl hc)
    rw [h1, h3, i2, List.length_append, List.map_append, i1, h2, i2, ← List.range'_append_1]
    exact ⟨by rw [Nat.add_comm 1], rfl⟩

namespace Order

open Fork (dl)

def mkPP (v s : Nat) : PrePrepare := ⟨v, s, v, 100, [5], 1, 3, ⟨1, 7, 8, 9⟩⟩
def cm (v s : Nat) : Commit := ⟨v, s, none⟩

def cfg1 : Cfg := { (Good.pool.cfg 1) with bls := false, cert := fun v => if v = 0 then 0 else 3 }

/-- COMMITs for batch 2 arrive before those for batch 1. -/
def evs : List Event :=
  [dl (.prePrepare (mkPP 0 1)) 0, dl (.prePrepare (mkPP 0 2)) 0,
   dl (.commit (cm 0 2)) 0, dl (.commit (cm 0 2)) 2, dl (.commit (cm 0 2)) 3,
   dl (.commit (cm 0 1)) 0, dl (.commit (cm 0 1)) 2, dl (.commit (cm 0 1)) 3]

/-- Batch 2 waits for batch 1 and is ordered by the timer. -/
example : (run cfg1 (evs ++ [.orderStashed])).ordLog.map (·.seqNo) = [1, 2] ∧
    (run cfg1 evs).ordLog.map (·.seqNo) = [1] := by decide

example : ∃ new : List PrePrepare,
    (run cfg1 (evs ++ [.orderStashed])).ordLog = (run cfg1 evs).ordLog ++ new ∧
    new.map (·.seqNo) = List.range' ((run cfg1 evs).lastOrdered.2 + 1) new.length ∧
    (run cfg1 (evs ++ [.orderStashed])).lastOrdered.2 = (run cfg1 evs).lastOrdered.2 + new.length ∧
    ∀ o ∈ new, o.viewNo = (run cfg1 evs).view :=
  C18_contiguous_partial cfg1 evs .orderStashed (by simp) (.inr (by decide))

/-- PRE-PREPAREs 1-3 are held, a catchup reverts them without finding them
ordered, PRE-PREPARE 4 is accepted; then the replica becomes primary. -/
def gap : List Event :=
  [dl (.prePrepare (mkPP 0 1)) 0, dl (.prePrepare (mkPP 0 2)) 0, dl (.prePrepare (mkPP 0 3)) 0,
   .startCatchup, .caughtUp (0, 0) [], dl (.prePrepare (mkPP 0 4)) 0,
   .startViewChange 1, .acceptNewView, .createBatch Good.batch,
   dl (.commit (cm 1 4)) 0, dl (.commit (cm 1 4)) 2, dl (.commit (cm 1 4)) 3]

end Order

/-- The condition of `C18_contiguous_partial` is needed: a replica that kept
PRE-PREPAREs over a mid-view catchup, and then becomes primary, can order a
batch above a gap if it is sent the COMMITs for it. -/
theorem C18_gap_after_catchup : ∃ (cfg : Cfg) (evs : List Event),
    (∀ k l, .caughtUp k l ∈ evs → k = (0, 0)) ∧ (run cfg evs).ordLog.map (·.seqNo) = [4] :=
  ⟨Order.cfg1, Order.gap, by intro k l hk; simp [Order.gap, Fork.dl] at hk; exact hk.1, by decide⟩

/-! ## C29 -/

/-- **C29.** The full decision table for a 3PC message (PRE-PREPARE, PREPARE or
COMMIT): for every state and every instance, view and sequence number, exactly
the first matching line applies. -/
theorem C29_decision_table (d : SharedData) (i v s : Nat) :
    let code := (d.validate3pc i v s).1
    let own := i = d.instId ∧ 0 < s ∧ d.lowWatermark < s
    let current := own ∧ v = d.viewNo ∧ d.participating = true
    let open_ := current ∧ d.waitingForNewView = false ∧ s ≤ d.highWatermark
    let stale := s ≤ d.lastOrdered.2 ∧ d.prevViewPrepareCert < s
    let early := 0 < v ∧ d.prevViewPrepareCert + 1 < s ∧ d.lastOrdered.2 ≤ d.prevViewPrepareCert
    (code = .discard ↔ ¬ own ∨ (own ∧ v < d.viewNo) ∨ (open_ ∧ stale)) ∧
    (code = .stashView ↔ (own ∧ d.viewNo < v) ∨ (current ∧ d.waitingForNewView = true)) ∧
    (code = .stashCatchUp ↔ own ∧ v = d.viewNo ∧ d.participating = false) ∧
    (code = .stashWatermarks ↔ current ∧ d.waitingForNewView = false ∧ d.highWatermark < s) ∧
    (code = .stashWaitingFirstBatch ↔ open_ ∧ ¬ stale ∧ early) ∧
    (code = .process ↔ open_ ∧ ¬ stale ∧ ¬ early) := by
  simp only
  unfold SharedData.validate3pc SharedData.validateBase SharedData.hasAlreadyOrdered
  by_cases h1 : i = d.instId <;> simp only [h1, ne_eq, not_true, if_false, not_false_iff, if_true]
  case neg => simp
  by_cases h2 : s = 0 <;> simp only [h2, if_true, if_false]
  case pos => simp
  by_cases h3 : s ≤ d.lowWatermark <;> simp only [h3, if_true, if_false]
  case pos => simp; omega
  by_cases h4 : v < d.viewNo <;> simp only [h4, if_true, if_false]
  case pos => simp; omega
  by_cases h5 : v > d.viewNo <;> simp only [h5, if_true, if_false]
  case pos => simp; omega
  by_cases h6 : d.participating <;> simp only [h6, Bool.not_true, Bool.not_false, if_true, if_false, Bool.false_eq_true]
  case neg => simp; omega
  by_cases h7 : d.waitingForNewView <;> simp only [h7, not_true, if_true, if_false, Bool.false_eq_true]
  case pos => simp; omega
  by_cases h8 : s > d.highWatermark <;> simp only [h8, if_true, if_false]
  case pos => simp; omega
  by_cases h9 : s ≤ d.lastOrdered.2 ∧ d.prevViewPrepareCert < s
  · rw [if_pos (by simpa using h9)]; simp; omega
  · rw [if_neg (by simpa using h9)]
    by_cases h10 : (0 < v ∧ d.prevViewPrepareCert + 1 < s) ∧ d.lastOrdered.2 < d.prevViewPrepareCert + 1
    · rw [if_pos (by simpa using h10)]; simp; omega
    · rw [if_neg (by simpa using h10)]; simp; omega

/-- **C29.** In the words of the property: what is processed is for this
instance and view, inside the watermarks, after the node is synced and knows the
NEW_VIEW; if it is already ordered, it is inside the previous view's prepared
certificate. Processing has no reason attached and everything else has one. -/
theorem C29_processed (d : SharedData) (i v s : Nat) :
    ((d.validate3pc i v s).1 = .process →
      i = d.instId ∧ v = d.viewNo ∧ d.participating = true ∧ d.waitingForNewView = false ∧
      d.lowWatermark < s ∧ s ≤ d.highWatermark ∧ (s ≤ d.lastOrdered.2 → s ≤ d.prevViewPrepareCert)) ∧
    ((d.validate3pc i v s).2 = none ↔ (d.validate3pc i v s).1 = .process) := by
  refine ⟨fun h => ?_, ?_⟩
  · obtain ⟨h1, h2, h3, h4, h5, h6, h7, h8, h9⟩ := (validate3pc_process d i v s).1 h
    exact ⟨h1, h5, h6, h7, h3, h4, h8⟩
  · unfold SharedData.validate3pc SharedData.validateBase
    simp only
    repeat' split
    all_goals simp_all

/-- **C29.** Messages about batches of old views: requests are answered only by
the synced master instance, replies are used only by the synced master instance
in a view whose NEW_VIEW is known. -/
theorem C29_old_view (d : SharedData) (i : Nat) :
    ((d.validateOldViewReq i).1 = .process ↔ i = d.instId ∧ d.isMaster = true ∧ d.participating = true) ∧
    ((d.validateOldViewRep i).1 = .process ↔
      i = d.instId ∧ d.isMaster = true ∧ d.participating = true ∧ d.waitingForNewView = false) ∧
    ((d.validateOldViewRep i).1 = .stashView ↔ i = d.instId ∧ d.isMaster = true ∧ d.waitingForNewView = true) := by
  unfold SharedData.validateOldViewReq SharedData.validateOldViewRep
  by_cases h1 : i = d.instId <;> cases h2 : d.isMaster <;> cases h3 : d.participating <;>
    cases h4 : d.waitingForNewView <;> simp_all

/-- A state in view 2, just after a view change with certificate 10. -/
def exampleShared : SharedData :=
  { instId := 0, isMaster := true, viewNo := 2, participating := true, waitingForNewView := false
    lowWatermark := 5, highWatermark := 305, prevViewPrepareCert := 10, lastOrdered := (1, 8) }

example : (exampleShared.validate3pc 0 2 7).1 = .process ∧ (exampleShared.validate3pc 0 2 11).1 = .process ∧
    (exampleShared.validate3pc 0 2 12).1 = .stashWaitingFirstBatch ∧ (exampleShared.validate3pc 0 2 5).1 = .discard ∧
    (exampleShared.validate3pc 0 2 306).1 = .stashWatermarks ∧ (exampleShared.validate3pc 0 3 11).1 = .stashView ∧
    (exampleShared.validate3pc 0 1 11).1 = .discard := by decide

end Verif.Props
