import Verif.Proofs.Checkpoint
/-!
# C22: stable checkpoints and watermarks

All statements are about runs of the checkpoint service of one replica on any
list of events; CHECKPOINTs of other nodes are arbitrary.
-/
namespace Verif.Props

open Verif.CP
open Verif.VC (Checkpoint Node)

/-- Every reason for which a checkpoint at `s` may be stable: it is the initial
one; `n - f - 1` distinct nodes sent the same checkpoint for `s` (same view and
digest) and this replica ordered `s` with that digest; the master caught up to
it, or accepted a NEW_VIEW starting from it; or, on a backup, two different
checkpoints were each sent by `n - f - 1` distinct nodes. -/
def MayBeStable (cfg : Cfg) (evs : List Event) (s : Nat) : Prop :=
  let Sent (k : Checkpoint) := ∃ Q : List Node, Q.Nodup ∧ cfg.n - getMaxFailures cfg.n - 1 ≤ Q.length ∧
    ∀ w ∈ Q, .checkpoint cfg.instId k w ∈ evs
  s = 0 ∨
  (∃ k : Checkpoint, k.seqNoEnd = s ∧ Sent k ∧ ∃ root pre, k.digest = some root ∧ .ordered s root pre ∈ evs) ∨
  (cfg.isMaster = true ∧ ∃ m c, .catchup m c ∈ evs ∧ s = c.2 / cfg.chkFreq * cfg.chkFreq) ∨
  (cfg.isMaster = true ∧ ∃ cp : Checkpoint, .newView cp ∈ evs ∧ cp.seqNoEnd = s) ∨
  (cfg.isMaster = false ∧ ∃ k k' : Checkpoint, k ≠ k' ∧ Sent k ∧ Sent k' ∧
    s = k.seqNoEnd / cfg.chkFreq * cfg.chkFreq)

/-- **C22**, first part: the stable checkpoint of a replica, whatever happened to
it, is at a sequence number it may be at. -/
theorem C22_stable_justified (cfg : Cfg) (h2 : 2 ≤ cfg.n) (evs : List Event) :
    MayBeStable cfg evs (run cfg evs).stable := by
  have := (CInv.run h2 evs).just
  rcases this with h | ⟨k, e, a, b⟩ | h | h | h
  · exact .inl h
  · exact .inr (.inl ⟨k, e, a, by rw [← e]; exact b⟩)
  · exact .inr (.inr (.inl h))
  · exact .inr (.inr (.inr (.inl h)))
  · exact .inr (.inr (.inr (.inr h)))

/-- **C22**, second part, for the master instance: the stable checkpoint never
moves back, the window has the configured length, and it starts between the
stable checkpoint and the last ordered batch. -/
theorem C22_master_window (cfg : Cfg) (h2 : 2 ≤ cfg.n) (hM : cfg.isMaster = true) (evs more : List Event) :
    (run cfg evs).stable ≤ (run cfg (evs ++ more)).stable ∧
    (run cfg evs).high = some ((run cfg evs).low + cfg.logSize) ∧
    (run cfg evs).stable ≤ (run cfg evs).low ∧ (run cfg evs).low ≤ (run cfg evs).lastOrdered.2 := by
  have i := CInv.run h2 evs
  refine ⟨?_, (i.ordM hM).2.2, (i.ordM hM).1, (i.ordM hM).2.1⟩
  induction more using snoc_induction with
  | nil => simp
  | snoc more e ih =>
    rw [← List.append_assoc, run_snoc]
    exact Nat.le_trans ih (stable_mono (CInv.run h2 _) hM e)

/-- **C22**, third part: on the master, the low watermark never moves back as
long as no catchup ended. Missing for the full claim: runs with catchups
(`C22_low_watermark_moves_back`) and backups, which reset their window. -/
theorem C22_low_watermark_partial (cfg : Cfg) (h2 : 2 ≤ cfg.n) (hM : cfg.isMaster = true) (evs more : List Event)
    (hn : .primaryDone ∉ evs ++ more) : (run cfg evs).low ≤ (run cfg (evs ++ more)).low := by
  rw [low_eq_stable hM _ hn, low_eq_stable hM _ (fun h => hn (List.mem_append_left _ h))]
  exact (C22_master_window cfg h2 hM evs more).1

namespace Watermark

def cfg : Cfg where
  instId := 0
  isMaster := true
  n := 4
  chkFreq := 100
  logSize := 300

def b (s : Nat) : BatchID := ⟨0, 0, s, 7⟩

/-- The replica orders 100 and 150, a catchup that brings nothing ends, and only
then two CHECKPOINTs for 100 arrive. -/
def evs : List Event := [.setMode true, .ordered 100 5 [b 100], .ordered 150 6 [b 100, b 150],
  .setMode false, .catchup (0, 150) (0, 150), .setMode true, .primaryDone]
def more : List Event := [.checkpoint 0 ⟨0, 100, some 5⟩ 1, .checkpoint 0 ⟨0, 100, some 5⟩ 2]

end Watermark

/-- **C22 does not hold of the code.** When a catchup ends the master moves the
window to the last ordered batch; a checkpoint that becomes stable afterwards
moves it back, in the same view. -/
theorem C22_low_watermark_moves_back : ∃ (cfg : Cfg) (evs more : List Event), cfg.n = 4 ∧ cfg.isMaster = true ∧
    (∀ v w, .setView v w ∉ evs ++ more) ∧ (run cfg evs).low = 150 ∧ (run cfg (evs ++ more)).low = 100 :=
  ⟨Watermark.cfg, Watermark.evs, Watermark.more, rfl, rfl, by simp [Watermark.evs, Watermark.more], by decide, by decide⟩

/-- One CHECKPOINT short, or the same node twice: nothing happens. -/
example : (run Watermark.cfg (Watermark.evs ++ [.checkpoint 0 ⟨0, 100, some 5⟩ 1, .checkpoint 0 ⟨0, 100, some 5⟩ 1])).stable
    = 0 := by decide

example : (run Watermark.cfg (Watermark.evs ++ Watermark.more)).stable = 100 := by decide

example : (run { Watermark.cfg with isMaster := false, instId := 1 } [.setMode true,
    .checkpoint 1 ⟨0, 100, none⟩ 1, .checkpoint 1 ⟨0, 100, none⟩ 2,
    .checkpoint 1 ⟨0, 200, none⟩ 1, .checkpoint 1 ⟨0, 200, none⟩ 2]).stable = 200 := by decide

end Verif.Props
