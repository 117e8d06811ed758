import Verif.Proofs.ViewChange
import Verif.Props.ThreePC
/-!
# C20, C21: view change
-/
namespace Verif.Props

open Verif.VC

/-! ## C20 -/

/-- **C20**, one view change: take any VIEW_CHANGE messages of distinct nodes,
at most `f` of them Byzantine with arbitrary content. If from the chosen
checkpoint up to `s` every sequence number is locked by the honest messages
(`Locked`), the computed NEW_VIEW has at `s` exactly the locked batch. -/
theorem C20_locked_batch_kept (n : Nat) (hn : 0 < n) (bad : List Node) (hbad : bad.length ≤ getMaxFailures n)
    (nvs : List (Node × ViewChange)) (hd : (nvs.map Prod.fst).Nodup) (hlt : ∀ e ∈ nvs, e.1 < n)
    (logSize : Nat) (cp : Checkpoint) (batches : List BatchID)
    (hb : calcBatches (Quorums.ofN n) logSize cp (nvs.map Prod.snd) = some batches)
    (s : Nat) (h1 : cp.seqNoEnd < s) (h2 : s ≤ cp.seqNoEnd + logSize) (v d : Nat → Nat)
    (hl : ∀ t, cp.seqNoEnd < t → t ≤ s → Locked n bad nvs (v t) t (d t)) :
    ∃ b ∈ batches, b.ppSeqNo = s ∧ b.ppDigest = d s ∧ ∀ b' ∈ batches, b'.ppSeqNo = s → b' = b := by
  obtain ⟨new, e, a, f, g⟩ := calcBatches_spec hb
  -- the loop does not stop before `s`
  have hlen : s - cp.seqNoEnd ≤ new.length := by
    apply Classical.byContradiction
    intro hc
    have hc : new.length < s - cp.seqNoEnd := by omega
    have := (g (by omega)).2
    rw [(hl (cp.seqNoEnd + 1 + new.length) (by omega) (by omega)).not_null hn hd hlt] at this
    cases this
  have hi : s - cp.seqNoEnd - 1 < new.length := by omega
  have hf := f _ hi
  rw [show cp.seqNoEnd + 1 + (s - cp.seqNoEnd - 1) = s by omega] at hf
  refine ⟨new[s - cp.seqNoEnd - 1], (e _).2 (List.getElem_mem hi), (tryFindBatch_some hf).2.1,
    (hl s h1 (Nat.le_refl _)).found hn hbad hd hlt hf, ?_⟩
  intro b' hb' hs
  obtain ⟨i, hi', rfl⟩ := List.mem_iff_getElem.1 ((e _).1 hb')
  have := f i hi'
  have he := (tryFindBatch_some this).2.1
  have : i = s - cp.seqNoEnd - 1 := by omega
  subst this
  rfl

/-- **C20.** The NEW_VIEW invents nothing: each of its batches lies in the
window above the checkpoint, was reported prepared by some node, and was
pre-prepared by an honest node (when `n ≥ 1` and at most `f` are faulty); the
sequence numbers are the consecutive ones after the checkpoint. -/
theorem C20_batches_justified (n : Nat) (bad : List Node) (hbad : bad.length ≤ getMaxFailures n)
    (nvs : List (Node × ViewChange)) (hd : (nvs.map Prod.fst).Nodup)
    (logSize : Nat) (cp : Checkpoint) (batches : List BatchID)
    (hb : calcBatches (Quorums.ofN n) logSize cp (nvs.map Prod.snd) = some batches) :
    (∀ b ∈ batches, (∃ e ∈ nvs, b ∈ e.2.prepared) ∧
      ∃ e ∈ nvs, e.1 ∉ bad ∧ ∃ c ∈ e.2.preprepared, c.ppSeqNo = b.ppSeqNo ∧ c.ppDigest = b.ppDigest ∧
        c.ppViewNo = b.ppViewNo ∧ b.viewNo ≤ c.viewNo) ∧
    ∃ k ≤ logSize, ∀ s, (∃ b ∈ batches, b.ppSeqNo = s) ↔ cp.seqNoEnd < s ∧ s ≤ cp.seqNoEnd + k := by
  obtain ⟨new, e, a, f, g⟩ := calcBatches_spec hb
  refine ⟨fun b hb => ?_, new.length, a, fun s => ⟨?_, ?_⟩⟩
  · obtain ⟨i, hi, rfl⟩ := List.mem_iff_getElem.1 ((e _).1 hb)
    obtain ⟨⟨vc, h1, h2⟩, h3, -, h4⟩ := tryFindBatch_some (f i hi)
    obtain ⟨x, hx, rfl⟩ := List.mem_map.1 h1
    refine ⟨⟨x, hx, h2⟩, ?_⟩
    unfold isBatchPreprepared at h4
    rw [← passing_length] at h4
    simp only [Quorum.isReached, Quorums.ofN, ge_iff_le, decide_eq_true_eq] at h4
    obtain ⟨y, hy, hyb⟩ := mem_of_length_lt (B := bad) (passing_nodup hd _) (Nat.lt_of_lt_of_le (Nat.lt_succ_of_le hbad) h4)
    obtain ⟨vc', y1, y2⟩ := mem_passing.1 hy
    simp only [List.any_eq_true, Bool.and_eq_true, decide_eq_true_eq] at y2
    obtain ⟨c, c1, ⟨⟨c2, c3⟩, c4⟩, c5⟩ := y2
    exact ⟨_, y1, hyb, c, c1, c2, c4, c3, c5⟩
  · rintro ⟨b, hb, rfl⟩
    obtain ⟨i, hi, rfl⟩ := List.mem_iff_getElem.1 ((e _).1 hb)
    have := (tryFindBatch_some (f i hi)).2.1
    omega
  · rintro ⟨h1, h2⟩
    have hi : s - cp.seqNoEnd - 1 < new.length := by omega
    have := f _ hi
    rw [show cp.seqNoEnd + 1 + (s - cp.seqNoEnd - 1) = s by omega] at this
    exact ⟨_, (e _).2 (List.getElem_mem hi), (tryFindBatch_some this).2.1⟩

/-- `vc` is the VIEW_CHANGE node `x` of the pool sends on leaving view `v`: it is
built from the node's prepared and pre-prepared batches and stable checkpoint,
and from batches it kept from view changes before view `v`. -/
def VcOf (P : TPC.Pool) (v : Nat) (x : Node) (vc : ViewChange) : Prop :=
  ∃ s : Service, (∀ e ∈ s.oldPreprepared, ∀ b ∈ e.2, b.viewNo ≤ v) ∧
    s.stableCheckpoint = (P.node x).stable ∧
    vc = (s.buildViewChange (P.node x).prepared (P.node x).preprepared).2

/-- What an ordered batch leaves behind: it is locked. -/
theorem locked_of_ordered (P : TPC.Pool) (ok : P.Ok) (v : Nat)
    (hv : ∀ w, P.Honest w → (P.node w).view = v ∧ (P.node w).caught = 0)
    (nvs : List (Node × ViewChange)) (hlt : ∀ e ∈ nvs, e.1 < P.n) (hvc : ∀ e ∈ nvs, e.1 ∉ P.bad → VcOf P v e.1 e.2)
    (i : Node) (hi : P.Honest i) (s : Nat) (hs : 0 < s) (hf : P.Fresh (v, s)) (o : TPC.PrePrepare)
    (ho : o ∈ P.orderedBy i) (hk : o.key = (v, s)) :
    ∃ d, Locked P.n P.bad nvs v s d ∧ (∀ j pp, P.Honest j → P.Prepared j pp → pp.key = (v, s) → pp.content.digest = d) ∧
      (P.primary v ∉ P.bad → ∀ j pp, P.Honest j → pp ∈ P.orderedBy j → pp.key = (v, s) → pp.content.digest = d) := by
  have hfo : P.Fresh o.key := by rw [hk]; exact hf
  obtain ⟨j0, qq, hj0, hq1, hq2, -⟩ := C19_some_honest_prepared P ok i hi o ho hfo
  have hqk : qq.key = (v, s) := hq1.trans hk
  have huniq : ∀ j pp, P.Honest j → P.Prepared j pp → pp.key = (v, s) → pp.content.digest = qq.content.digest := by
    intro j pp hj hp e
    rw [C17_prepared_agree P ok j j0 hj hj0 pp qq (by rw [e, hqk]) (by rw [e]; exact hf) hp hq2]
  refine ⟨qq.content.digest, ⟨?_, ?_⟩, huniq, ?_⟩
  · obtain ⟨-, ⟨Q, b, c, d⟩, -⟩ := C19_order_evidence_partial P ok i hi o ho (by
      have := hfo i hi; exact this)
    refine ⟨Q.filter (fun x => !P.bad.contains x), b.filter _, ?_, ?_⟩
    · have hb : (Q.filter (fun x => P.bad.contains x)).length ≤ P.bad.length :=
        length_le_of_subset (b.filter _) (fun x hx => by simpa using (List.mem_filter.1 hx).2)
      have hsum := length_filter_split Q (fun x => P.bad.contains x)
      have := ok.few
      have hle : P.n - 2 * getMaxFailures P.n ≤ (Q.filter (fun x => !P.bad.contains x)).length := by omega
      exact hle
    · intro x hx
      obtain ⟨h1, h2⟩ := List.mem_filter.1 hx
      have hx2 : x ∉ P.bad := by simpa using h2
      obtain ⟨h3, m, m1, -, m3⟩ := d x h1
      refine ⟨h3, hx2, fun vc hm => ?_⟩
      have hsx := (sent_of_seen ok hi m3).2 hx2
      have hon : P.Honest x := ⟨h3, hx2⟩
      obtain ⟨hvx, hcx⟩ := hv x hon
      obtain ⟨sv, -, s2, s3⟩ := hvc _ hm hx2
      have inv := inv_node ok hon
      have e1 : m.viewNo = v := congrArg Prod.fst (m1.trans hk)
      have e2 : m.seqNo = s := congrArg Prod.snd (m1.trans hk)
      have hcert : P.top x v < s := hf x hon
      simp only at s2 s3
      rcases inv.rep m hsx (by rw [hvx]; exact e1) (by rw [hvx, e2]; exact hcert) with x1 | x1 | ⟨pp, x1, x2⟩
      · left
        rw [s3]
        show s ≤ sv.stableCheckpoint
        rw [s2, ← e2]; exact x1
      · rw [hcx] at x1; omega
      · right
        obtain ⟨b', b1, b2, b3⟩ := buildViewChange_prepared sv (P.node x).prepared (P.node x).preprepared x1
        have ekey : pp.key = (v, s) := by rw [x2.1, m1, hk]
        have es : b'.ppSeqNo = s := by rw [b3]; exact congrArg Prod.snd ekey
        obtain ⟨pp', y1, y2⟩ := inv.prp hcx b' b2 (by rw [hvx, es]; exact hcert)
        obtain ⟨z1, z2⟩ := prepared_of_certified y2
        rw [hvx, es] at z1
        refine ⟨b', by rw [s3]; exact b1, es, ?_, ?_⟩
        · rw [← y1]; exact huniq x pp' hon z2 z1
        · rw [← y1]; exact Nat.le_of_eq (congrArg Prod.fst z1).symm
  · intro x vc hm hx b hb _ hlt'
    exfalso
    have hon : P.Honest x := ⟨hlt _ hm, hx⟩
    obtain ⟨hvx, hcx⟩ := hv x hon
    obtain ⟨sv, s1, -, s3⟩ := hvc _ hm hx
    simp only at s3
    rw [s3] at hb
    rcases buildViewChange_preprepared sv _ _ hb with hb | ⟨e, he, hb⟩
    · have := (inv_node ok hon).trk hcx b hb
      omega
    · have := s1 e he b hb
      omega
  · intro hp j pp hj hpo e
    -- an honest primary sent one PRE-PREPARE for the key
    have ev : pp.viewNo = v := congrArg Prod.fst e
    have eq : qq.viewNo = v := congrArg Prod.fst hqk
    obtain ⟨a, -⟩ := C19_order_evidence_partial P ok j hj pp hpo (by
      have := hf j hj; rw [ev, show pp.seqNo = s from congrArg Prod.snd e]; exact this)
    have h1 := (sent_of_seen ok hj a).2 (by rw [ev]; exact hp)
    have h2 := (sent_of_seen ok hj0 hq2.1).2 (by rw [eq]; exact hp)
    rw [ev] at h1; rw [eq] at h2
    have hpn : P.Honest (P.primary v) := ⟨ok.prim v, hp⟩
    rw [(C17_no_equivocation P ok _ hpn).1 pp qq h1 h2 (by rw [e, hqk])]

/-- **C20**, from the three-phase commit to the NEW_VIEW, for batches ordered in
the view being left. The pool's histories end when the nodes leave view `v`; at
most `f` nodes are Byzantine and their VIEW_CHANGEs arbitrary. A honest node
ordered in view `v` every batch from the chosen checkpoint up to `s`. Then any
NEW_VIEW computed has exactly one batch at `s`, and its digest is the one every
honest node ordered there, if it sent its own COMMIT or the primary of `v` is
honest. Missing for the full claim: batches brought over from an earlier view
(`C20_later_view_conflict`), nodes that caught up in between, and, with a
Byzantine primary, nodes that ordered without a COMMIT of their own
(`C17_fork`). -/
theorem C20_ordered_batch_kept_partial (P : TPC.Pool) (ok : P.Ok) (v : Nat)
    (hv : ∀ w, P.Honest w → (P.node w).view = v ∧ (P.node w).caught = 0)
    (nvs : List (Node × ViewChange)) (hd : (nvs.map Prod.fst).Nodup) (hlt : ∀ e ∈ nvs, e.1 < P.n)
    (hvc : ∀ e ∈ nvs, e.1 ∉ P.bad → VcOf P v e.1 e.2)
    (logSize : Nat) (cp : Checkpoint) (batches : List BatchID)
    (hb : calcBatches (Quorums.ofN P.n) logSize cp (nvs.map Prod.snd) = some batches)
    (i : Node) (hi : P.Honest i) (s : Nat) (h1 : cp.seqNoEnd < s) (h2 : s ≤ cp.seqNoEnd + logSize)
    (ho : ∀ t, cp.seqNoEnd < t → t ≤ s → P.Fresh (v, t) ∧ ∃ o ∈ P.orderedBy i, o.key = (v, t)) :
    ∃ b ∈ batches, b.ppSeqNo = s ∧ (∀ b' ∈ batches, b'.ppSeqNo = s → b' = b) ∧
      ∀ j pp, P.Honest j → pp ∈ P.orderedBy j → pp.key = (v, s) →
        ((∃ c : TPC.Commit, c.key = (v, s) ∧ .commit c ∈ P.sent j) ∨ P.primary v ∉ P.bad) →
        b.ppDigest = pp.content.digest := by
  have hl : ∀ t, ∃ d, cp.seqNoEnd < t → t ≤ s → Locked P.n P.bad nvs v t d ∧
      (∀ j pp, P.Honest j → P.Prepared j pp → pp.key = (v, t) → pp.content.digest = d) ∧
      (P.primary v ∉ P.bad → ∀ j pp, P.Honest j → pp ∈ P.orderedBy j → pp.key = (v, t) → pp.content.digest = d) := by
    intro t
    by_cases ht : cp.seqNoEnd < t ∧ t ≤ s
    · obtain ⟨hf, o, o1, o2⟩ := ho t ht.1 ht.2
      obtain ⟨d, hd⟩ := locked_of_ordered P ok v hv nvs hlt hvc i hi t (by omega) hf o o1 o2
      exact ⟨d, fun _ _ => hd⟩
    · exact ⟨0, fun a b => (ht ⟨a, b⟩).elim⟩
  obtain ⟨b, b1, b2, b3, b4⟩ := C20_locked_batch_kept P.n ok.pos P.bad ok.few nvs hd hlt logSize cp batches hb s h1 h2
    (fun _ => v) (fun t => (hl t).choose) (fun t a b => ((hl t).choose_spec a b).1)
  refine ⟨b, b1, b2, b4, fun j pp hj hp hk hor => ?_⟩
  obtain ⟨-, c1, c2⟩ := (hl s).choose_spec h1 (Nat.le_refl _)
  rw [b3]
  rcases hor with ⟨c, k1, k2⟩ | hor
  · have hf := (ho s h1 (Nat.le_refl _)).1
    have := (C19_order_evidence_partial P ok j hj pp hp (by
      have := hf j hj
      rw [show pp.viewNo = v from congrArg Prod.fst hk, show pp.seqNo = s from congrArg Prod.snd hk]
      exact this)).2.2 ⟨c, by rw [k1, hk], k2⟩
    exact (c1 j pp hj this hk).symm
  · exact (c2 hor j pp hj hp hk).symm

/-! The pool of `Props/ThreePC.lean` whose nodes 0, 1, 2 ordered one batch. The
VIEW_CHANGEs of nodes 0 and 1 and one of the Byzantine node 3 that hides the
batch. -/
namespace KeptExample

open Good (pool)

def vc (x : Node) : ViewChange := (({} : Service).buildViewChange (pool.node x).prepared (pool.node x).preprepared).2
def nvs : List (Node × ViewChange) := [(3, ⟨1, 0, [], [], [⟨0, 0, none⟩]⟩), (0, vc 0), (1, vc 1)]

theorem vcOf (x : Node) (h : x < 3) : VcOf pool 0 x (vc x) := by
  refine ⟨{}, by simp, ?_, rfl⟩
  match x, h with
  | 0, _ => decide
  | 1, _ => decide
  | 2, _ => decide

theorem batches : calcBatches (Quorums.ofN 4) 300 ⟨0, 0, none⟩ (nvs.map Prod.snd) = some [⟨0, 0, 1, 1⟩] := by decide

theorem views (w : Node) (h : pool.Honest w) : (pool.node w).view = 0 ∧ (pool.node w).caught = 0 := by
  obtain ⟨h1, h2⟩ := h
  have h1 : w < 4 := h1
  match w, h1 with
  | 0, _ => decide
  | 1, _ => decide
  | 2, _ => decide
  | 3, _ => exact (h2 (by decide)).elim

end KeptExample

open KeptExample in
example : ∃ b ∈ [(⟨0, 0, 1, 1⟩ : BatchID)], b.ppSeqNo = 1 ∧ (∀ b' ∈ [(⟨0, 0, 1, 1⟩ : BatchID)], b'.ppSeqNo = 1 → b' = b) ∧
      ∀ j pp, Good.pool.Honest j → pp ∈ Good.pool.orderedBy j → pp.key = (0, 1) →
        ((∃ c : TPC.Commit, c.key = (0, 1) ∧ .commit c ∈ Good.pool.sent j) ∨ Good.pool.primary 0 ∉ Good.pool.bad) →
        b.ppDigest = pp.content.digest :=
  C20_ordered_batch_kept_partial Good.pool Good.ok 0 views nvs (by decide) (by decide)
    (by
      intro e he hb
      simp only [nvs, List.mem_cons, List.not_mem_nil, or_false] at he
      rcases he with rfl | rfl | rfl
      · exact (hb (by decide)).elim
      · exact vcOf 0 (by decide)
      · exact vcOf 1 (by decide))
    300 ⟨0, 0, none⟩ _ batches 0 (Good.honest 0 (by simp)) 1 (by decide) (by decide)
    (fun t h1 h2 => by
      have : t = 1 := by simp only at h1; omega
      subst this
      exact ⟨fun _ _ => Nat.zero_lt_one, Good.pp, by rw [Good.ordered0]; simp, rfl⟩)

/-! ### A later view -/

namespace Later

open TPC (Pool)
open Fork (dl)
open Good (batch pp prep com)

/-- What the Byzantine primary of view 1 proposes at sequence number 1. -/
def bad : TPC.PrePrepare := ⟨1, 1, 1, 200, [6, 7], 1, 3, ⟨2, 17, 18, 19⟩⟩

/-- In view 0, with primary 0, a batch is ordered by nodes 0 and 2; node 3 gets
none of it. Node 1 is Byzantine. -/
def hist0 : Node → List TPC.Event
  | 0 => [.createBatch batch, dl (.prepare prep) 1, dl (.prepare prep) 2, dl (.commit com) 2, dl (.commit com) 1]
  | 2 => [dl (.prePrepare pp) 0, dl (.prepare prep) 1, dl (.commit com) 0, dl (.commit com) 1]
  | _ => []

def mk (hist : Node → List TPC.Event) : Pool where
  n := 4
  primary := fun v => v % 4
  digest := fun reqs _ _ => reqs.length
  bls := true
  maxInFlight := none
  cert := fun _ v => v
  bad := [1]
  hist := hist

/-- The pool when view 0 is left, and when view 1 is left: node 0 and 2
pre-prepared the batch again, node 3 the one the Byzantine primary sent. -/
def P0 : Pool := mk hist0
def P1 : Pool := mk (fun i => hist0 i ++ [.startViewChange 1, .acceptNewView] ++ match i with
  | 0 => [.oldViewPP pp {}]
  | 2 => [.oldViewPP pp {}]
  | 3 => [dl (.prePrepare bad) 1]
  | _ => [])

theorem mkOk (hist : Node → List TPC.Event) (h : (mk hist).okB = true) : (mk hist).Ok where
  pos := (by decide : 0 < 4)
  few := (by decide : 1 ≤ getMaxFailures 4)
  prim := fun v => Nat.mod_lt _ (by decide : 0 < 4)
  cert0 := fun _ _ => rfl
  net := Pool.net_of_okB h

/-- The service of a node when view 0 is left, and its messages. -/
def s0 (x : Node) : Service × ViewChange :=
  ({ viewNo := 1 } : Service).buildViewChange (P0.node x).prepared (P0.node x).preprepared
def s1 (x : Node) : Service × ViewChange :=
  { (s0 x).1 with viewNo := 2 }.buildViewChange (P1.node x).prepared (P1.node x).preprepared

def nvs0 : List (Node × ViewChange) := [(0, (s0 0).2), (2, (s0 2).2), (3, (s0 3).2)]
def nvs1 : List (Node × ViewChange) :=
  [(0, (s1 0).2), (3, (s1 3).2), (1, ⟨2, 0, [⟨1, 1, 1, 2⟩], [⟨1, 1, 1, 2⟩], [⟨0, 0, none⟩]⟩)]

theorem ok0 : P0.Ok := mkOk _ (by decide)
theorem ok1 : P1.Ok := mkOk _ (by decide)

theorem vcOf0 (x : Node) (h : (P0.node x).stable = 0) : VcOf P0 0 x (s0 x).2 := ⟨_, by simp, h.symm, rfl⟩

theorem vcOf1 (x : Node) (h : (P1.node x).stable = 0)
    (h2 : ∀ e ∈ (s0 x).1.oldPreprepared, ∀ b ∈ e.2, b.viewNo ≤ 1) : VcOf P1 1 x (s1 x).2 :=
  ⟨{ (s0 x).1 with viewNo := 2 }, h2, h.symm, rfl⟩

end Later

/-- **C20 does not hold of the code over several view changes.** One Byzantine
node of four. A batch is ordered in view 0 by an honest node, and the NEW_VIEW
of view 1 has it. An honest node that lags behind accepts, from the Byzantine
primary of view 1, another batch for that sequence number, since a PRE-PREPARE
is not compared with the NEW_VIEW. In the next view change the Byzantine node
claims to have prepared that one, and the NEW_VIEW computed from the
VIEW_CHANGEs of three distinct nodes has it in place of the ordered batch. -/
theorem C20_later_view_conflict : ∃ P0 P1 : TPC.Pool, P0.Ok ∧ P1.Ok ∧ P0.bad = P1.bad ∧ P0.n = P1.n ∧
    (∀ i, P0.hist i <+: P1.hist i) ∧
    ∃ nvs0 nvs1 : List (Node × ViewChange),
      (nvs0.map Prod.fst).Nodup ∧ (nvs1.map Prod.fst).Nodup ∧
      (∀ e ∈ nvs0, e.1 ∉ P0.bad → VcOf P0 0 e.1 e.2) ∧ (∀ e ∈ nvs1, e.1 ∉ P1.bad → VcOf P1 1 e.1 e.2) ∧
      ∃ cp batches0 batches1,
        calcCheckpoint (Quorums.ofN P0.n) (nvs0.map Prod.snd) = some cp ∧
        calcCheckpoint (Quorums.ofN P1.n) (nvs1.map Prod.snd) = some cp ∧
        calcBatches (Quorums.ofN P0.n) 300 cp (nvs0.map Prod.snd) = some batches0 ∧
        (∀ w, batches0.getLast?.map (·.ppSeqNo) = some (P1.cert w 1)) ∧
        calcBatches (Quorums.ofN P1.n) 300 cp (nvs1.map Prod.snd) = some batches1 ∧
        ∃ i, P0.Honest i ∧ ∃ o ∈ P0.orderedBy i, (∃ b ∈ batches0, b.ppSeqNo = o.seqNo ∧ b.ppDigest = o.content.digest) ∧
          ∃ b ∈ batches1, b.ppSeqNo = o.seqNo ∧ b.ppDigest ≠ o.content.digest :=
  ⟨Later.P0, Later.P1, Later.ok0, Later.ok1, rfl, rfl, fun i => by
      show Later.hist0 i <+: Later.hist0 i ++ [_, _] ++ _
      rw [List.append_assoc]; exact List.prefix_append _ _,
    Later.nvs0, Later.nvs1, by decide, by decide,
    by
      intro e he _
      simp only [Later.nvs0, List.mem_cons, List.not_mem_nil, or_false] at he
      rcases he with rfl | rfl | rfl <;> exact Later.vcOf0 _ (by decide),
    by
      intro e he hb
      simp only [Later.nvs1, List.mem_cons, List.not_mem_nil, or_false] at he
      rcases he with rfl | rfl | rfl
      · exact Later.vcOf1 _ (by decide) (by decide)
      · exact Later.vcOf1 _ (by decide) (by decide)
      · exact (hb (by decide)).elim,
    ⟨0, 0, none⟩, [⟨0, 0, 1, 1⟩], [⟨1, 1, 1, 2⟩], by decide, by decide, by decide, fun _ => rfl, by decide,
    0, ⟨by decide, by decide⟩, Good.pp, by decide, by decide, by decide⟩

end Verif.Props
