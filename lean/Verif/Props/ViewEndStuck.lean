import Verif.Props.ViewEnd
/-!
# C96: view changes among honest nodes that do not end
-/
namespace Verif.Props
open Verif Verif.VC

/-! Four nodes, node 3 down. Nodes 1 and 2 have stabilized the checkpoint at 100
and dropped the first one; node 0 is behind. -/
namespace Lagging

def c0 : Checkpoint := ⟨0, 0, none⟩
def c1 : Checkpoint := ⟨0, 100, some 7⟩
def x : ViewChange := ⟨1, 0, [], [], [c0]⟩
def y : ViewChange := ⟨1, 100, [], [], [c1]⟩

def C : Change where
  n := 4
  primary := fun v => v % 4
  vd := fun vc => vc.stableCheckpoint
  logSize := 300
  view := 1
  before := fun i => if i = 0 then [] else [.shared true 100 [c1]]
  prepared := fun _ => []
  preprepared := fun _ => []
  after := fun i => match i with
    | 0 => [.viewChange y 1, .viewChange y 2]
    | 1 => [.viewChange x 0, .viewChange y 2, .ack 1 1 100 0, .ack 1 2 100 0, .ack 1 0 0 2, .ack 1 1 100 2]
    | _ => [.viewChange x 0, .viewChange y 1]

def v : Node → ViewChange := fun i => if i = 0 then x else y

theorem vcs : ∀ i ∈ [0, 1, 2], C.vc i = v i := by decide +kernel
theorem sent : ∀ i ∈ [0, 1, 2], (C.final i).sentVC = [v i] := by decide +kernel
theorem acked : C.acks 0 = [(1, 1, 100), (1, 2, 100)] ∧ C.acks 2 = [(1, 0, 0), (1, 1, 100)] := by decide +kernel

theorem live : C.Live [0, 1, 2] where
  nodup := by decide
  two := by decide
  members := by decide
  many := by decide
  prim := by decide
  runs := by decide
  once := by
    intro i hi v p pp hm
    rcases Quorum3.cases hi with rfl | rfl | rfl <;> simp [C] at hm
  steady := by
    intro i hi pt st cps hm
    rcases Quorum3.cases hi with rfl | rfl | rfl <;> simp [C] at hm
  realVC := by
    intro i hi j hj z hm
    rw [sent j hj]
    rcases Quorum3.cases hi with rfl | rfl | rfl <;> simp [C] at hm <;> rcases hm with hm | hm <;> simp [hm, v]
  realNV := by
    intro i hi z hm
    rcases Quorum3.cases hi with rfl | rfl | rfl <;> simp [C] at hm
  noNV := by intro z j hm; simp [C, Change.prim] at hm
  members' := by
    intro z j hm
    simp [C, Change.prim] at hm
    rcases hm with hm | hm <;> rw [hm.2] <;> decide
  gotVC := by
    intro i hi j hj hne
    rw [vcs j hj]
    rcases Quorum3.cases hi with rfl | rfl | rfl <;> rcases Quorum3.cases hj with rfl | rfl | rfl <;>
      first | exact absurd rfl hne | simp [C, v]
  gotAck := by
    intro i hi hne k d hm
    rcases Quorum3.cases hi with rfl | rfl | rfl
    · rw [acked.1] at hm
      simp [C, Change.prim] at hm ⊢
      omega
    · exact absurd rfl hne
    · rw [acked.2] at hm
      simp [C, Change.prim] at hm ⊢
      omega

end Lagging

/-- **C96 does not hold of the code.** Of four nodes one is down and one has not
reached the last stable checkpoint of the others. All their messages arrive, and
no NEW_VIEW is sent: the others no longer list a checkpoint that the node behind
lists. -/
theorem C96_checkpoints_differ : ∃ (C : Change) (L : List Node), C.Live L ∧ C.n = 4 ∧ L = [0, 1, 2] ∧
    (∀ i ∈ L, (C.final i).waiting = true) ∧ (C.final C.prim).sentNV = [] :=
  ⟨Lagging.C, [0, 1, 2], Lagging.live, rfl, rfl, by decide +kernel, by decide +kernel⟩

open Lagging in
example : (C.final 1).waiting = true ∧ (C.final 1).sentNV = (C.leaving 1).sentNV :=
  C96_needs_common C [0, 1, 2] live rfl
    (fun z j hm => by
      simp [C, Change.prim] at hm
      rcases hm with hm | hm <;> simp [hm.2])
    (by
      rintro ⟨c, hc⟩
      have h0 := hc 0 (by decide)
      have h1 := hc 1 (by decide)
      rw [vcs 0 (by decide)] at h0
      rw [vcs 1 (by decide)] at h1
      rw [List.mem_singleton.1 h0] at h1
      exact absurd h1 (by decide))

/-! Four nodes, all of them honest and running. The others have reached the
checkpoint at 100, which is not stable yet; the primary of view 1 has not. -/
namespace Behind

def c0 : Checkpoint := ⟨0, 0, none⟩
def c1 : Checkpoint := ⟨0, 100, some 7⟩
def x : ViewChange := ⟨1, 0, [], [], [c0, c1]⟩
def y : ViewChange := ⟨1, 0, [], [], [c0]⟩

def C : Change where
  n := 4
  primary := fun v => v % 4
  vd := fun vc => vc.checkpoints.length
  logSize := 300
  view := 1
  before := fun i => if i = 1 then [] else [.shared true 0 [c0, c1]]
  prepared := fun _ => []
  preprepared := fun _ => []
  after := fun i => match i with
    | 0 => [.viewChange y 1, .viewChange x 2, .viewChange x 3]
    | 1 => [.viewChange x 0, .ack 1 0 2 2, .viewChange x 2, .ack 1 2 2 0, .viewChange x 3, .ack 1 3 2 0,
            .ack 1 1 1 0, .ack 1 1 1 2, .ack 1 3 2 2, .ack 1 0 2 3, .ack 1 1 1 3, .ack 1 2 2 3]
    | 2 => [.viewChange x 0, .viewChange y 1, .viewChange x 3]
    | _ => [.viewChange x 0, .viewChange y 1, .viewChange x 2]

def v : Node → ViewChange := fun i => if i = 1 then y else x

theorem vcs : ∀ i ∈ [0, 1, 2, 3], C.vc i = v i := by decide +kernel
theorem sent : ∀ i ∈ [0, 1, 2, 3], (C.final i).sentVC = [v i] := by decide +kernel
theorem acked : C.acks 0 = [(1, 1, 1), (1, 2, 2), (1, 3, 2)] ∧ C.acks 2 = [(1, 0, 2), (1, 1, 1), (1, 3, 2)] ∧
    C.acks 3 = [(1, 0, 2), (1, 1, 1), (1, 2, 2)] := by decide +kernel

theorem cases {i : Node} (h : i ∈ [0, 1, 2, 3]) : i = 0 ∨ i = 1 ∨ i = 2 ∨ i = 3 := by simpa using h

theorem live : C.Live [0, 1, 2, 3] where
  nodup := by decide
  two := by decide
  members := by decide
  many := by decide
  prim := by decide
  runs := by decide
  once := by
    intro i hi w p pp hm
    rcases cases hi with rfl | rfl | rfl | rfl <;> simp [C] at hm
  steady := by
    intro i hi pt st cps hm
    rcases cases hi with rfl | rfl | rfl | rfl <;> simp [C] at hm
  realVC := by
    intro i hi j hj z hm
    rw [sent j hj]
    rcases cases hi with rfl | rfl | rfl | rfl <;> simp [C] at hm <;> rcases hm with hm | hm | hm <;> simp [hm, v]
  realNV := by
    intro i hi z hm
    rcases cases hi with rfl | rfl | rfl | rfl <;> simp [C] at hm
  noNV := by intro z j hm; simp [C, Change.prim] at hm
  members' := by
    intro z j hm
    simp [C, Change.prim] at hm
    rcases hm with hm | hm | hm <;> rw [hm.2] <;> decide
  gotVC := by
    intro i hi j hj hne
    rw [vcs j hj]
    rcases cases hi with rfl | rfl | rfl | rfl <;> rcases cases hj with rfl | rfl | rfl | rfl <;>
      first | exact absurd rfl hne | simp [C, v]
  gotAck := by
    intro i hi hne k d hm
    rcases cases hi with rfl | rfl | rfl | rfl
    · rw [acked.1] at hm
      have hm : (1, k, d) ∈ _ := hm
      simp only [List.mem_cons, Prod.mk.injEq, true_and, List.not_mem_nil, or_false] at hm
      rcases hm with ⟨rfl, rfl⟩ | ⟨rfl, rfl⟩ | ⟨rfl, rfl⟩ <;> decide
    · exact absurd rfl hne
    · rw [acked.2.1] at hm
      have hm : (1, k, d) ∈ _ := hm
      simp only [List.mem_cons, Prod.mk.injEq, true_and, List.not_mem_nil, or_false] at hm
      rcases hm with ⟨rfl, rfl⟩ | ⟨rfl, rfl⟩ | ⟨rfl, rfl⟩ <;> decide
    · rw [acked.2.2] at hm
      have hm : (1, k, d) ∈ _ := hm
      simp only [List.mem_cons, Prod.mk.injEq, true_and, List.not_mem_nil, or_false] at hm
      rcases hm with ⟨rfl, rfl⟩ | ⟨rfl, rfl⟩ | ⟨rfl, rfl⟩ <;> decide

theorem fits : C.Fits [0, 1, 2, 3] c0 where
  listed := fun i hi => by rw [vcs i hi]; revert i; decide
  stable := fun i hi => by rw [vcs i hi]; revert i; decide
  same := fun i hi j hj b1 h1 b2 h2 _ _ _ => by
    rw [vcs i hi] at h1
    rcases cases hi with rfl | rfl | rfl | rfl <;> simp [v, x, y] at h1
  backed := fun i hi b1 h1 _ => by
    rw [vcs i hi] at h1
    rcases cases hi with rfl | rfl | rfl | rfl <;> simp [v, x, y] at h1

end Behind

/-- **C96 does not hold of the code.** All four nodes are honest, all their
messages arrive and they have a checkpoint in common. The primary of the new view
has not reached a later checkpoint that the three others list: it chooses that
one, does not have it, and no NEW_VIEW is sent. -/
theorem C96_primary_behind : ∃ (C : Change) (L : List Node) (c : Checkpoint), C.Live L ∧ C.Fits L c ∧ C.n = 4 ∧ L = [0, 1, 2, 3] ∧
    (∀ i ∈ L, (C.final i).waiting = true) ∧ (C.final C.prim).sentNV = [] :=
  ⟨Behind.C, [0, 1, 2, 3], Behind.c0, Behind.live, Behind.fits, rfl, rfl, by decide +kernel, by decide +kernel⟩

end Verif.Props
