import Verif.Proofs.JoinLast
/-!
# C94: joining a view change of others

Statements are about runs of the view change service of one node with its
queues, on any list of events; messages of other nodes are arbitrary.
-/
namespace Verif.Props
open Verif Verif.VC

/-- **C94**, if no node's VIEW_CHANGE for a view arrives twice: an event makes the
node leave its view because of VIEW_CHANGEs for view `v` only if those of `n - f`
different nodes arrived. Missing for the full claim: the messages are counted,
not the nodes (`C94_one_node_moves`). -/
theorem C94_quorum_partial (cfg : Cfg) (evs : List JEvent) (e : JEvent) (once : OnceEach (evs ++ [e])) :
    ∃ l, (runJ cfg (evs ++ [e])).joined = (runJ cfg evs).joined ++ l ∧
      ∀ v ∈ l, ∃ Q : List Node, Q.Nodup ∧ cfg.n - getMaxFailures cfg.n ≤ Q.length ∧
        ∀ w ∈ Q, ∃ vc p pp, vc.viewNo = v ∧ .deliver (.viewChange vc) w p pp ∈ evs ++ [e] := by
  obtain ⟨-, h⟩ := (JInv.run cfg evs).step cfg e
  rw [← runJ_snoc, ← arrived_snoc] at h
  rcases h with h | ⟨m, w, v, j0, hj, h1, h2, h3, -, h5⟩
  · exact ⟨[], by rw [h, List.append_nil], fun v hv => nomatch hv⟩
  · refine ⟨[v], by rw [hj.joined, h1], fun v' hv' => ?_⟩
    obtain rfl := List.mem_singleton.1 hv'
    refine ⟨((((runJ cfg evs).later ++ [(m, w)]).filter (isFor v')).map Prod.snd), nodup_senders fun x => ?_, ?_, ?_⟩
    · have a := h5 (fun y => isFor v' y && y.2 == x)
      have b := once v' x
      rw [List.countP_filter]
      refine Nat.le_trans (Nat.le_of_eq ?_) (Nat.le_trans a b)
      congr 1
      funext y
      rw [Bool.and_comm]
    · rw [List.length_map, ← List.countP_eq_length_filter, List.countP_append, List.countP_singleton, if_pos hj.msg]
      have := hj.enough
      omega
    · intro x hx
      obtain ⟨⟨m', x'⟩, hm, rfl⟩ := List.mem_map.1 hx
      obtain ⟨hm, hf⟩ := List.mem_filter.1 hm
      have hin : 0 < (arrived (evs ++ [e])).countP (· == (m', x')) :=
        Nat.lt_of_lt_of_le (List.countP_pos_iff.2 ⟨_, hm, by simp⟩) (h5 _)
      obtain ⟨y, hy, hyy⟩ := List.countP_pos_iff.1 hin
      obtain rfl := eq_of_beq hyy
      obtain ⟨p, pp, hp⟩ := mem_arrived hy
      cases m' with
      | viewChange vc => exact ⟨vc, p, pp, by simpa [isFor] using hf, hp⟩
      | ack => cases hf
      | newView => cases hf

/-- **C94**, when: a node joins a view change only while it takes part, is in no
view change, and for a later view; it is then in the view change to that view. -/
theorem C94_when (cfg : Cfg) (evs : List JEvent) (e : JEvent) :
    ∃ l, (runJ cfg (evs ++ [e])).joined = (runJ cfg evs).joined ++ l ∧
      ∀ v ∈ l, (runJ cfg evs).svc.participating = true ∧ (runJ cfg evs).svc.waiting = false ∧ (runJ cfg evs).svc.viewNo < v ∧
        (runJ cfg (evs ++ [e])).svc.viewNo = v ∧ (runJ cfg (evs ++ [e])).svc.waiting = true := by
  obtain ⟨-, h⟩ := (JInv.run cfg evs).step cfg e
  rw [← runJ_snoc] at h
  rcases h with h | ⟨m, w, v, j0, hj, h1, -, -, h4, -⟩
  · exact ⟨[], by rw [h, List.append_nil], fun v hv => nomatch hv⟩
  · refine ⟨[v], by rw [hj.joined, h1], fun v' hv' => ?_⟩
    obtain rfl := List.mem_singleton.1 hv'
    rw [← h4]
    exact ⟨hj.part, hj.idle, hj.view, hj.view', hj.waiting'⟩

/-- **C94**, the other way: a node that takes part and gets `n - f` VIEW_CHANGEs
for a later view is in a view change at some time meanwhile. -/
theorem C94_enough (cfg : Cfg) (hn : 0 < cfg.n) (evs evs2 : List JEvent) (v : Nat) (hv : (runJ cfg evs).svc.viewNo < v)
    (works : ∀ a, a <+: evs2 → (runJ cfg (evs ++ a)).svc.crashed = false ∧ (runJ cfg (evs ++ a)).svc.participating = true)
    (many : cfg.n - getMaxFailures cfg.n ≤ (arrived evs2).countP (isFor v)) :
    ∃ a, a <+: evs2 ∧ (runJ cfg (evs ++ a)).svc.waiting = true := by
  refine Classical.byContradiction fun hno => ?_
  have idle : ∀ a, a <+: evs2 → (runJ cfg (evs ++ a)).svc.waiting = false := by
    intro a ha
    cases h : (runJ cfg (evs ++ a)).svc.waiting with
    | false => rfl
    | true => exact absurd ⟨a, ha, h⟩ hno
  have key : ∀ a, a <+: evs2 → (runJ cfg (evs ++ a)).svc.viewNo = (runJ cfg evs).svc.viewNo ∧
      (arrived a).countP (isFor v) ≤ (runJ cfg (evs ++ a)).count v ∧
      ((runJ cfg evs).count v < (runJ cfg (evs ++ a)).count v → (runJ cfg (evs ++ a)).count v < cfg.n - getMaxFailures cfg.n) ∧
      (runJ cfg evs).count v + (arrived a).countP (isFor v) ≤ (runJ cfg (evs ++ a)).count v := by
    intro a
    induction a using snoc_induction with
    | nil => intro _; simp [arrived]
    | snoc a e ih =>
      intro ha
      have hpre : a <+: evs2 := (List.prefix_append a [e]).trans ha
      obtain ⟨h1, h2, h3, h4⟩ := ih hpre
      have s := idle_step cfg (e := e) (works a hpre).1 (works a hpre).2 (idle a hpre)
        (by rw [← runJ_snoc, List.append_assoc]; exact idle _ ha) v (by rw [h1]; exact hv)
      rw [← runJ_snoc, List.append_assoc] at s
      obtain ⟨s1, s2, s3⟩ := s
      rw [arrived_snoc, List.countP_append]
      refine ⟨s1.trans h1, by omega, fun h => ?_, by omega⟩
      rcases Nat.lt_or_ge ((runJ cfg (evs ++ a)).count v) ((runJ cfg (evs ++ (a ++ [e]))).count v) with hlt | hge
      · exact s3 hlt
      · have := h3 (by omega)
        omega
  have k := key evs2 (List.prefix_refl _)
  have hp : 0 < cfg.n - getMaxFailures cfg.n := by unfold getMaxFailures; split <;> omega
  have := k.2.2.1 (by omega)
  omega

/-- **C94 does not hold of the code.** `process_view_change_message` counts the
VIEW_CHANGEs for a later view, not their senders: any one node, by sending the
same VIEW_CHANGE `n - f` times, makes any node that takes part leave its view for
any later view. -/
theorem C94_one_node_moves (cfg : Cfg) (hn : 0 < cfg.n) (evs : List JEvent) (w : Node) (vc : ViewChange) (p pp : List BatchID)
    (alive : (runJ cfg evs).svc.crashed = false) (part : (runJ cfg evs).svc.participating = true)
    (idle : (runJ cfg evs).svc.waiting = false) (hv : (runJ cfg evs).svc.viewNo < vc.viewNo) :
    ∃ k, k ≤ cfg.n - getMaxFailures cfg.n ∧
      (runJ cfg (evs ++ List.replicate k (.deliver (.viewChange vc) w p pp))).svc.viewNo = vc.viewNo ∧
      (runJ cfg (evs ++ List.replicate k (.deliver (.viewChange vc) w p pp))).svc.waiting = true := by
  have hp : 0 < cfg.n - getMaxFailures cfg.n := by unfold getMaxFailures; split <;> omega
  have step : ∀ evs : List JEvent, (runJ cfg evs).svc.crashed = false → (runJ cfg evs).svc.participating = true →
      (runJ cfg evs).svc.waiting = false → (runJ cfg evs).svc.viewNo < vc.viewNo →
      ((runJ cfg (evs ++ [.deliver (.viewChange vc) w p pp])).svc = (runJ cfg evs).svc ∧
        (runJ cfg (evs ++ [.deliver (.viewChange vc) w p pp])).count vc.viewNo = (runJ cfg evs).count vc.viewNo + 1 ∧
        (runJ cfg evs).count vc.viewNo + 1 < cfg.n - getMaxFailures cfg.n) ∨
      ((runJ cfg (evs ++ [.deliver (.viewChange vc) w p pp])).svc.viewNo = vc.viewNo ∧
        (runJ cfg (evs ++ [.deliver (.viewChange vc) w p pp])).svc.waiting = true) := by
    intro evs alive part idle hv
    rw [runJ_snoc]
    unfold Joiner.step
    rw [if_neg (by simp [alive])]
    have hst : (runJ cfg evs).svc.validate (VMsg.viewChange vc).viewNo = .stash := by
      show (runJ cfg evs).svc.validate vc.viewNo = .stash
      unfold Service.validate
      rw [if_neg (by omega), if_neg (by simp; omega), if_neg (by simp [part]), if_pos hv]
    simp only [Joiner.handle, Joiner.process, hst, part, Bool.not_true, Bool.false_eq_true, if_false]
    rcases countLater_cases cfg (runJ cfg evs) vc.viewNo p pp with ⟨h, hlt⟩ | ⟨h, -, -⟩ <;> rw [h]
    · refine .inl ⟨rfl, ?_, ?_⟩
      · have := count_set (runJ cfg evs) vc.viewNo ((runJ cfg evs).count vc.viewNo + 1) vc.viewNo
        rw [if_pos rfl] at this
        exact this
      · rcases hlt with hlt | hlt
        · exact hlt
        · rw [idle] at hlt; cases hlt
    · exact .inr ⟨rfl, rfl⟩
  have go : ∀ d (evs : List JEvent), cfg.n - getMaxFailures cfg.n - (runJ cfg evs).count vc.viewNo ≤ d → 0 < d →
      (runJ cfg evs).svc.crashed = false → (runJ cfg evs).svc.participating = true →
      (runJ cfg evs).svc.waiting = false → (runJ cfg evs).svc.viewNo < vc.viewNo →
      ∃ k, k ≤ d ∧ (runJ cfg (evs ++ List.replicate k (.deliver (.viewChange vc) w p pp))).svc.viewNo = vc.viewNo ∧
        (runJ cfg (evs ++ List.replicate k (.deliver (.viewChange vc) w p pp))).svc.waiting = true := by
    intro d
    induction d with
    | zero => intro _ _ h; cases h
    | succ d ih =>
      intro evs hd _ alive part idle hv
      rcases step evs alive part idle hv with ⟨h1, h2, h3⟩ | h
      · obtain ⟨k, hk, h⟩ := ih (evs ++ [.deliver (.viewChange vc) w p pp]) (by omega) (by omega) (by rw [h1]; exact alive)
          (by rw [h1]; exact part) (by rw [h1]; exact idle) (by rw [h1]; exact hv)
        refine ⟨k + 1, by omega, ?_⟩
        rw [List.replicate_succ]
        rw [List.append_assoc] at h
        exact h
      · exact ⟨1, by omega, h⟩
  exact go _ evs (Nat.sub_le _ _) hp alive part idle hv

/-- **C94 does not hold of the code**, the last message. The VIEW_CHANGE that
makes a node join is put back for later after the view change was started, and
what is kept for later is looked at only when another view change starts: if it
came once, the node has no VIEW_CHANGE of its sender during the whole view
change. -/
theorem C94_last_unused (cfg : Cfg) (evs evs2 : List JEvent) (e : JEvent) (v : Nat)
    (hj : (runJ cfg (evs ++ [e])).joined = (runJ cfg evs).joined ++ [v])
    (once : OnceEach (evs ++ [e] ++ evs2))
    (same : (runJ cfg (evs ++ [e] ++ evs2)).svc.sentVC.length = (runJ cfg (evs ++ [e])).svc.sentVC.length) :
    ∃ vc w, vc.viewNo = v ∧ (∃ p pp, .deliver (.viewChange vc) w p pp ∈ evs ++ [e]) ∧
      (w ≠ cfg.name → ((runJ cfg (evs ++ [e] ++ evs2)).svc.votes.of w).vc = none) := by
  obtain ⟨-, h⟩ := (JInv.run cfg evs).step cfg e
  have inv := JInv.run cfg (evs ++ [e])
  rw [← runJ_snoc, ← arrived_snoc] at h
  rcases h with h | ⟨m, w, v', j0, J, h1, h2, h3, h4, h5⟩
  · rw [h] at hj
    have := congrArg List.length hj
    simp at this
  · have hv' : v' = v := by
      have := J.joined
      rw [h1, hj] at this
      simpa using (List.append_cancel_left this).symm
    subst hv'
    have hmem : (m, w) ∈ arrived (evs ++ [e]) := by
      obtain ⟨y, hy, hyy⟩ := List.countP_pos_iff.1 (Nat.lt_of_lt_of_le
        (List.countP_pos_iff.2 ⟨(m, w), by simp, by simp⟩ : 0 < ((runJ cfg evs).later ++ [(m, w)]).countP (· == (m, w))) (h5 _))
      obtain rfl := eq_of_beq hyy
      exact hy
    obtain ⟨p, pp, hd⟩ := mem_arrived hmem
    cases m with
    | ack => cases J.msg
    | newView => cases J.msg
    | viewChange vc =>
      have hvc : vc.viewNo = v' := by simpa [isFor] using J.msg
      refine ⟨vc, w, hvc, ⟨p, pp, hd⟩, fun hw => ?_⟩
      have start : Unused (runJ cfg (evs ++ [e])) (.viewChange vc) w := by
        refine ⟨by rw [J.view']; exact J.msg, J.last, ?_, J.votes w hw⟩
        have := once (runJ cfg (evs ++ [e])).svc.viewNo w
        rw [arrived, List.filterMap_append, List.countP_append] at this
        have := inv.kept (fun y => isFor (runJ cfg (evs ++ [e])).svc.viewNo y && y.2 == w)
        simp only [arrived] at this
        omega
      have grows : ∀ a b, (runJ cfg a).svc.sentVC.length ≤ (runJ cfg (a ++ b)).svc.sentVC.length := by
        intro a b
        induction b using snoc_induction with
        | nil => simp
        | snoc b x ih => rw [← List.append_assoc, runJ_snoc]; exact Nat.le_trans ih (sent_grows cfg _ _)
      have go : ∀ a, a <+: evs2 → Unused (runJ cfg (evs ++ [e] ++ a)) (.viewChange vc) w ∧
          (runJ cfg (evs ++ [e] ++ a)).svc.viewNo = v' := by
        intro a
        induction a using snoc_induction with
        | nil => intro _; rw [List.append_nil]; exact ⟨start, J.view'⟩
        | snoc a x ih =>
          intro ha
          have hpre : a <+: evs2 := (List.prefix_append a [x]).trans ha
          obtain ⟨u, hvw⟩ := ih hpre
          obtain ⟨t, rfl⟩ := ha
          have g1 := grows (evs ++ [e]) a
          have g2 := grows (evs ++ [e] ++ a) [x]
          have g3 := grows (evs ++ [e] ++ (a ++ [x])) t
          have eq1 : evs ++ [e] ++ (a ++ [x] ++ t) = evs ++ [e] ++ (a ++ [x]) ++ t := by simp
          rw [eq1] at same
          have eq2 : evs ++ [e] ++ (a ++ [x]) = evs ++ [e] ++ a ++ [x] := by simp
          rw [eq2] at same g3 ⊢
          rw [runJ_snoc cfg (evs ++ [e] ++ a) x] at g2 g3 ⊢
          have hs : ((runJ cfg (evs ++ [e] ++ a)).step cfg x).svc.sentVC.length = (runJ cfg (evs ++ [e] ++ a)).svc.sentVC.length := by
            omega
          have u' := u.step cfg x (fun p pp m' hx => ?_) hs
          · refine ⟨u', ?_⟩
            have := u'.msg
            simp only [isFor, beq_iff_eq] at this
            rw [← this, hvc]
          · cases hf : isFor (runJ cfg (evs ++ [e] ++ a)).svc.viewNo (m', w) with
            | false => rfl
            | true =>
              exfalso
              rw [hvw] at hf
              have o := once v' w
              rw [eq1, eq2, hx] at o
              have c1 : 0 < (arrived (evs ++ [e])).countP (fun y => isFor v' y && y.2 == w) :=
                List.countP_pos_iff.2 ⟨_, hmem, by simp [J.msg]⟩
              have c2 : (arrived [JEvent.deliver m' w p pp]).countP (fun y => isFor v' y && y.2 == w) = 1 := by
                simp [arrived, hf]
              simp only [arrived, List.filterMap_append, List.countP_append] at o c1 c2
              omega
      exact (go evs2 (List.prefix_refl _)).1.vote

/-! ## Cases -/

namespace Late

def cp0 : Checkpoint := ⟨0, 0, none⟩

/-- Digests tell VIEW_CHANGEs with and without batches apart. -/
def cfg (name : Node) : Cfg where
  name := name
  n := 4
  primary := fun v => v % 4
  vd := fun vc => vc.prepared.length
  logSize := 2

def vc : ViewChange := ⟨1, 0, [], [], [cp0]⟩
/-- The VIEW_CHANGE that node 3, Byzantine, sends to node 1; to others it sends `vc`. -/
def vc3 : ViewChange := ⟨1, 0, [⟨0, 0, 1, 7⟩], [⟨0, 0, 1, 7⟩], [cp0]⟩

def from0 : JEvent := .deliver (.viewChange vc) 0 [] []
def from2 : JEvent := .deliver (.viewChange vc) 2 [] []
def from3 : JEvent := .deliver (.viewChange vc3) 3 [] []

/-- What nodes 0 and 2 acknowledge to node 1, the primary of view 1. -/
def acks : List JEvent := [.deliver (.ack 1 1 0) 0 [] [], .deliver (.ack 1 1 0) 2 [] [], .deliver (.ack 1 2 0) 0 [] [],
  .deliver (.ack 1 0 0) 2 [] [], .deliver (.ack 1 3 0) 0 [] [], .deliver (.ack 1 3 0) 2 [] []]

def nexts : List JEvent := [.next [] [], .next [] []]

theorem once : OnceEach ([from3, from0] ++ [from2] ++ (nexts ++ acks)) := by
  intro v w
  have h : arrived ([from3, from0] ++ [from2] ++ (nexts ++ acks)) = [(.viewChange vc3, 3), (.viewChange vc, 0), (.viewChange vc, 2)] ++
    arrived acks := rfl
  have h0 : (arrived acks).countP (fun x => isFor v x && x.2 == w) = 0 := rfl
  rw [h, List.countP_append, h0]
  simp only [List.countP_cons, List.countP_nil, isFor, vc, vc3]
  by_cases h1 : 3 = w
  · subst h1; simp; split <;> omega
  · by_cases h2 : 0 = w
    · subst h2; simp; split <;> omega
    · by_cases h3 : 2 = w
      · subst h3; simp; split <;> omega
      · have a1 : (3 == w) = false := by simpa using h1
        have a2 : (0 == w) = false := by simpa using h2
        have a3 : (2 == w) = false := by simpa using h3
        simp [a1, a2, a3]

theorem joins : (runJ (cfg 1) ([from3, from0] ++ [from2])).joined = (runJ (cfg 1) [from3, from0]).joined ++ [1] := by decide

end Late

/-- **C94 does not hold of the code**, what the unused message costs. Node 1 is
the primary of view 1 and joins when the third VIEW_CHANGE comes. If that is one
of an honest node and node 3 is Byzantine, the primary cannot send a NEW_VIEW,
although every message of the other honest nodes arrived; the same messages in
another order let it. -/
theorem C94_late_primary_stuck : ∃ (cfg : Cfg) (evs evs' rest : List JEvent),
    cfg.n = 4 ∧ cfg.primary 1 = cfg.name ∧ evs.Perm evs' ∧
    (runJ cfg (evs ++ rest)).inbox = [] ∧ (runJ cfg (evs' ++ rest)).inbox = [] ∧
    (runJ cfg (evs ++ rest)).svc.waiting = true ∧ (runJ cfg (evs ++ rest)).svc.sentNV = [] ∧
    (runJ cfg (evs' ++ rest)).svc.waiting = false ∧ (runJ cfg (evs' ++ rest)).svc.viewNo = 1 :=
  ⟨Late.cfg 1, [Late.from3, Late.from0, Late.from2], [Late.from0, Late.from2, Late.from3], Late.nexts ++ Late.acks,
    rfl, rfl, by
      refine List.Perm.trans (List.Perm.swap _ _ _) (List.Perm.cons _ (List.Perm.swap _ _ _)),
    by decide, by decide, by decide, by decide, by decide, by decide⟩

open Late in
example : ∃ vc w, vc.viewNo = 1 ∧ (∃ p pp, JEvent.deliver (.viewChange vc) w p pp ∈ [from3, from0] ++ [from2]) ∧
    (w ≠ 1 → ((runJ (cfg 1) ([from3, from0] ++ [from2] ++ (nexts ++ acks))).svc.votes.of w).vc = none) :=
  C94_last_unused (cfg 1) [from3, from0] (nexts ++ acks) from2 1 joins once (by decide)

open Late in
/-- With other messages the votes are there. -/
example : ((runJ (cfg 1) ([from3, from0] ++ [from2] ++ (nexts ++ acks))).svc.votes.of 0).vc = some vc ∧
    ((runJ (cfg 1) ([from3, from0] ++ [from2] ++ (nexts ++ acks))).svc.votes.of 2).vc = none := by decide

open Late in
example : ∃ l, (runJ (cfg 1) ([from3, from0] ++ [from2])).joined = (runJ (cfg 1) [from3, from0]).joined ++ l ∧
      ∀ v ∈ l, ∃ Q : List Node, Q.Nodup ∧ 3 ≤ Q.length ∧
        ∀ w ∈ Q, ∃ vc p pp, vc.viewNo = v ∧ JEvent.deliver (.viewChange vc) w p pp ∈ [from3, from0] ++ [from2] :=
  C94_quorum_partial (cfg 1) [from3, from0] from2 fun v w => by
    have := once v w
    rw [arrived, List.filterMap_append, List.countP_append] at this
    simp only [arrived]
    omega

open Late in
/-- Three nodes make node 1 join; one node, sending three times, does too. -/
example : (runJ (cfg 1) [from3, from0, from2]).svc.viewNo = 1 ∧ (runJ (cfg 1) [from3, from0]).svc.viewNo = 0 ∧
    (runJ (cfg 1) [from3, from3, from3]).svc.viewNo = 1 := by decide

open Late in
example : ∃ k, k ≤ 3 ∧ (runJ (cfg 0) ([from2] ++ List.replicate k (.deliver (.viewChange { vc with viewNo := 1000 }) 3 [] []))).svc.viewNo = 1000 ∧
    (runJ (cfg 0) ([from2] ++ List.replicate k (.deliver (.viewChange { vc with viewNo := 1000 }) 3 [] []))).svc.waiting = true :=
  C94_one_node_moves (cfg 0) (by decide) [from2] 3 { vc with viewNo := 1000 } [] [] (by decide) (by decide) (by decide) (by decide)

open Late in
example : ∃ a, a <+: [from3, from0, from2] ∧ (runJ (cfg 1) ([] ++ a)).svc.waiting = true :=
  C94_enough (cfg 1) (by decide) [] [from3, from0, from2] 1 (by decide) (by
    intro a ha
    have hl := ha.length_le
    rw [List.prefix_iff_eq_take.1 ha]
    generalize a.length = k at hl
    match k, hl with
    | 0, _ | 1, _ | 2, _ | 3, _ => decide
    | k + 4, h => simp at h) (by decide)

end Verif.Props
