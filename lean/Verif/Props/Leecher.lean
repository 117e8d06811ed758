import Verif.Proofs.Leecher
/-!
# C84: a catchup goes through all ledgers, in order, and up to what the audit ledger says
-/
namespace Verif.Props

open Verif.Leecher
open Verif.Audit (Own Till Txn)
open Verif.Spec (visited lastStart plan HasRoot)

/-! ## A concrete pool -/

/-- An audit transaction: four pool transactions, two in the domain ledger, none in config. -/
def leechTxn : Txn :=
  { viewNo := 0, ppSeqNo := 1, sizes := [(0, 4), (1, 2), (2, 0)], roots := [(0, .here "p4"), (1, .here "d2"), (2, .here "c0")],
    states := [], primaries := .here [], nodeReg := none, digest := "x" }

/-- Own ledgers: the genesis transactions. -/
def leechOwn : Nat → Option Own
  | 0 => some ⟨4, "p4"⟩
  | 1 => some ⟨1, "d1"⟩
  | 2 => some ⟨0, "c0"⟩
  | _ => none

def leechIds : List Nat := [AUDIT, POOL, CONFIG, DOMAIN]

theorem leechIds_ok : Registered leechIds := by unfold Registered; decide

theorem leechOwn_ok : ∀ lid ∈ leechIds, lid ≠ AUDIT → (leechOwn lid).isSome := by decide

def leechFresh : St := fresh leechIds [] leechOwn []

/-- A node starts, finds one audit transaction and one domain transaction missing, gets both. -/
def leechEvs : List Ev :=
  [.start true, .decided POOL none [], .settle,
   .decided AUDIT (some ⟨0, 1, some "a1"⟩) [("n1", 1), ("n2", 1)], .replyAudit [leechTxn], .settle,
   .settle, .settle, .reply DOMAIN ⟨2, "d2"⟩ [], .settle]

theorem leechEvs_allowed : AllAllowed leechFresh leechEvs := by
  simp only [leechEvs, AllAllowed, Allowed]
  decide +kernel

/-- **C84, all ledgers, in order.** Whenever a catchup ends, the ledgers finished since it was
started are, in this order: the pool ledger if the node was just started, the audit ledger,
pool, config, and each other registered ledger that is not frozen, each exactly once. A node
is only started (`start_catchup(just_started=True)`) when no catchup runs. -/
theorem C84_visits_partial (ids : List Nat) (audit : List Txn) (own : Nat → Option Own) (frozen : List Nat)
    (hi : Registered ids) (ho : ∀ lid ∈ ids, lid ≠ AUDIT → (own lid).isSome)
    (l : List Ev) (e : Ev) (ha : AllAllowed (fresh ids audit own frozen) l) (r : List Out)
    (hend : (((fresh ids audit own frozen).run l).step e).log =
      ((fresh ids audit own frozen).run l).log ++ .complete :: r) :
    ∃ initial others,
      lastStart ((fresh ids audit own frozen).run l).log = some initial ∧
      (visited ((fresh ids audit own frozen).run l).log).reverse = plan initial others ∧ others.Nodup ∧
      ∀ lid, lid ∈ others ↔ lid ∈ ids ∧ lid ≠ AUDIT ∧ lid ≠ POOL ∧ lid ≠ CONFIG ∧
        lid ∉ (((fresh ids audit own frozen).run l).step e).frozen := by
  have h := (Inv.fresh (audit := audit) (frozen := frozen) hi ho).run l ha
  have hids : ((fresh ids audit own frozen).run l).ids = ids := by
    rw [run_ids]; rfl
  generalize (fresh ids audit own frozen).run l = s at h hend hids ⊢
  obtain ⟨⟨_, hfz, _, _⟩, ⟨i, ls, h1, h2, h3⟩, _, _⟩ := h.ended hend
  obtain ⟨ls', h4, h5, h6⟩ := rest_some h.ids
  rw [h2] at h4; cases h4
  refine ⟨i, ls, h1, h3, h5, ?_⟩
  rw [hfz, ← hids]; exact h6

/-- The concrete node ends its first catchup with the tenth event. -/
example : (((leechFresh.run (leechEvs.take 9)).step .settle).log =
      (leechFresh.run (leechEvs.take 9)).log ++ .complete :: []) ∧
    (visited (leechFresh.run (leechEvs.take 9)).log).reverse = [POOL, AUDIT, POOL, CONFIG, DOMAIN] ∧
    AllAllowed leechFresh (leechEvs.take 9) := by
  refine ⟨by decide +kernel, by decide +kernel, ?_⟩
  simp only [leechEvs, List.take, AllAllowed, Allowed]
  decide +kernel

/-- **C84, as far as the audit ledger says.** Whenever a catchup ends, each ledger that is
registered and not frozen has at least the size the last audit transaction gives for it, or
that transaction gives the size of some ledger without a root. -/
theorem C84_reaches_partial (ids : List Nat) (audit : List Txn) (own : Nat → Option Own) (frozen : List Nat)
    (hi : Registered ids) (ho : ∀ lid ∈ ids, lid ≠ AUDIT → (own lid).isSome)
    (l : List Ev) (e : Ev) (ha : AllAllowed (fresh ids audit own frozen) l) (r : List Out)
    (hend : (((fresh ids audit own frozen).run l).step e).log =
      ((fresh ids audit own frozen).run l).log ++ .complete :: r)
    (last : Txn) (hlast : (((fresh ids audit own frozen).run l).step e).audit.getLast? = some last)
    (hnd : (Dict.keys last.sizes).Nodup) :
    (∃ lid n, (lid, n) ∈ last.sizes ∧
      ¬ HasRoot (((fresh ids audit own frozen).run l).step e).audit last lid) ∨
    ∀ lid n, lid ∈ ids → lid ≠ AUDIT → lid ∉ (((fresh ids audit own frozen).run l).step e).frozen →
      last.sizes.get? lid = some n → n ≤ (((fresh ids audit own frozen).run l).step e).size lid := by
  have h := (Inv.fresh (audit := audit) (frozen := frozen) hi ho).run l ha
  have hids : ((fresh ids audit own frozen).run l).ids = ids := by
    rw [run_ids]; rfl
  generalize (fresh ids audit own frozen).run l = s at h hend hlast hids ⊢
  obtain ⟨⟨_, hfz, hau, how⟩, _, hr, ht⟩ := h.ended hend
  rw [hau] at hlast
  rcases ht last hlast hnd with hx | hx
  · rw [hau]; exact .inl hx
  · refine .inr ?_
    intro lid n hm hne hf hs
    obtain ⟨t, h1, h2⟩ := hx lid n hs (by rw [hids]; exact hm) hne
    rw [size_congr hau how, ← h2]
    exact hr lid hne (.inr (.inr ⟨by rw [hids]; exact hm, by rw [← hfz]; exact hf⟩)) hne t h1

/-- The concrete node has both domain transactions in the end, one before. -/
example : (leechFresh.run leechEvs).audit.getLast? = some leechTxn ∧ (leechFresh.run leechEvs).size DOMAIN = 2 ∧
    leechFresh.size DOMAIN = 1 ∧ HasRoot (leechFresh.run leechEvs).audit leechTxn DOMAIN :=
  ⟨by decide +kernel, by decide +kernel, by decide +kernel, "d2", .inl (by decide +kernel)⟩

/-- **C84, no exception.** Nothing is raised between the leechers, whatever they report. -/
theorem C84_no_exception_partial (ids : List Nat) (audit : List Txn) (own : Nat → Option Own) (frozen : List Nat)
    (hi : Registered ids) (ho : ∀ lid ∈ ids, lid ≠ AUDIT → (own lid).isSome)
    (l : List Ev) (ha : AllAllowed (fresh ids audit own frozen) l) :
    ((fresh ids audit own frozen).run l).raised = false :=
  ((Inv.fresh (audit := audit) (frozen := frozen) hi ho).run l ha).raised

example : AllAllowed leechFresh leechEvs ∧ (leechFresh.run leechEvs).phase = .idle ∧
    (leechFresh.run leechEvs).synced = true := ⟨leechEvs_allowed, by decide +kernel, by decide +kernel⟩

/-- **C84, one ledger at a time.** While a catchup runs, exactly one ledger is being caught up or
has just been finished; there is always something the catchup waits for. When none runs, no
leecher does anything. -/
theorem C84_one_at_a_time_partial (ids : List Nat) (audit : List Txn) (own : Nat → Option Own) (frozen : List Nat)
    (hi : Registered ids) (ho : ∀ lid ∈ ids, lid ≠ AUDIT → (own lid).isSome)
    (l : List Ev) (ha : AllAllowed (fresh ids audit own frozen) l) :
    let s := (fresh ids audit own frozen).run l
    (s.phase = .idle → s.pending = none ∧ ∀ lid, s.job lid = .none) ∧
    (s.phase ≠ .idle → ∃ a, (∀ lid, lid ≠ a → s.job lid = .none ∧ s.pending ≠ some lid) ∧
      (s.pending = some a ↔ s.job a = .none) ∧ (s.pending = none ↔ s.job a ≠ .none)) := by
  have h := (Inv.fresh (audit := audit) (frozen := frozen) hi ho).run l ha
  refine ⟨h.idle, fun hp => ?_⟩
  obtain ⟨_, a, _, h1, h2⟩ := h.busy hp
  refine ⟨a, fun lid hne => ⟨h1 lid hne, ?_⟩, ?_, ?_⟩
  · rcases h2 with ⟨h2, _⟩ | ⟨h2, _⟩
    · rw [h2]; intro e; exact hne (Option.some.inj e).symm
    · rw [h2]; intro e; cases e
  · rcases h2 with ⟨h2, h3⟩ | ⟨h2, h3⟩
    · exact ⟨fun _ => h3, fun _ => h2⟩
    · exact ⟨fun e => by (rw [h2] at e; cases e), fun e => absurd e h3⟩
  · rcases h2 with ⟨h2, h3⟩ | ⟨h2, h3⟩
    · exact ⟨fun e => by (rw [h2] at e; cases e), fun e => absurd h3 e⟩
    · exact ⟨fun _ => h3, fun _ => h2⟩

/-- In the concrete run the audit ledger is being fetched after four events. -/
example : (leechFresh.run (leechEvs.take 4)).phase = .audit ∧
    (leechFresh.run (leechEvs.take 4)).job AUDIT = .fetching 1 ∧
    (leechFresh.run (leechEvs.take 4)).pending = none := by decide +kernel

/-- **C84, a second catchup is refused.** A catchup asked for while one runs changes nothing. -/
theorem C84_refused (ids : List Nat) (audit : List Txn) (own : Nat → Option Own) (frozen : List Nat)
    (hi : Registered ids) (ho : ∀ lid ∈ ids, lid ≠ AUDIT → (own lid).isSome)
    (l : List Ev) (ha : AllAllowed (fresh ids audit own frozen) l)
    (hp : ((fresh ids audit own frozen).run l).phase ≠ .idle) :
    ((fresh ids audit own frozen).run l).step (.start false) = (fresh ids audit own frozen).run l := by
  have h := (Inv.fresh (audit := audit) (frozen := frozen) hi ho).run l ha
  generalize (fresh ids audit own frozen).run l = s at h hp ⊢
  have hs := (h.busy hp).1
  unfold St.step
  rw [if_neg (by rw [h.raised]; intro h; cases h)]
  rcases hq : s.pending with _ | a
  · show s.start false = s
    unfold St.start
    rw [if_pos (by rw [hs]; exact ⟨by simp, by simp⟩)]
  · rfl

/-! ## What is false -/

/-- A node stopped while it fetches the domain ledger and started again, as the same object. -/
def leechRestart : List Ev :=
  leechEvs.take 8 ++
  [.start true, .decided POOL none [], .settle, .decided AUDIT none [("n1", 1), ("n2", 1)], .settle,
   .settle, .settle]

/-- **C84 is false of a node started again while a catchup runs.** `NodeLeecherService.start`
keeps the ledger the interrupted catchup was at. The second catchup takes it as finished and
ends without having touched the domain ledger, which is shorter than the audit ledger says. -/
theorem C84_restart_skips :
    (leechFresh.run leechRestart).synced = true ∧ (leechFresh.run leechRestart).phase = .idle ∧
    (leechFresh.run leechRestart).log.getLast? = some .complete ∧
    (visited (leechFresh.run leechRestart).log).reverse = [POOL, AUDIT, POOL, CONFIG] ∧
    leechTxn.sizes.get? DOMAIN = some 2 ∧ (leechFresh.run leechRestart).size DOMAIN = 1 := by
  decide +kernel

/-- A node with one more ledger. -/
def leechOwn7 : Nat → Option Own
  | 7 => some ⟨1, "e1"⟩
  | n => leechOwn n

def leechTxn7 : Txn := { leechTxn with sizes := [(0, 4), (1, 2), (2, 0), (7, 2)]
                                       roots := [(0, .here "p4"), (1, .here "d2"), (2, .here "c0"), (7, .here "e2")] }

/-- The next audit transaction, for a request in the config ledger. -/
def leechTxn8 : Txn := { leechTxn with sizes := [(0, 4), (1, 2), (2, 1), (7, 2)]
                                       roots := [(0, .back 1), (1, .back 1), (2, .here "c1"), (7, .back 1)] }

def leechFresh7 : St := fresh [AUDIT, POOL, CONFIG, 7, DOMAIN] [] leechOwn7 []

/-- The node is stopped while it fetches ledger 7; the pool freezes that ledger; the node is
started again. -/
def leechRestart7 : List Ev :=
  [.start true, .decided POOL none [], .settle,
   .decided AUDIT (some ⟨0, 1, some "a1"⟩) [("n1", 1)], .replyAudit [leechTxn7], .settle, .settle, .settle,
   .start true, .decided POOL none [], .settle,
   .decided AUDIT (some ⟨1, 2, some "a2"⟩) [("n1", 2)], .replyAudit [leechTxn8], .settle, .settle,
   .reply CONFIG ⟨1, "c1"⟩ [7], .settle]

/-- **C84, an exception after a restart.** If the ledger the interrupted catchup was at has been
frozen since, `index` raises a `ValueError` instead of the catchup going on. -/
theorem C84_restart_raises :
    (leechFresh7.run (leechRestart7.take 8)).job 7 = .fetching 2 ∧
    (leechFresh7.run leechRestart7).raised = true := by
  decide +kernel

end Verif.Props
