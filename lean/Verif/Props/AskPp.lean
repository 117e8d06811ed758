import Verif.Proofs.AskPp
/-!
# C105: asking for a missing PRE-PREPARE
-/
namespace Verif.Props
open Verif Verif.AskPp
open Verif.MsgReq (Data Msg Stash)

/-- What a PRE-PREPARE says: its digest and roots. -/
def says (m : Msg) : Stash := (m.digest, m.stateRoot, m.txnRoot)

/-- The number of a PRE-PREPARE. -/
def numberOf (m : Msg) : MsgReq.Key := (m.viewNo, m.seqNo)

theorem prepare_value (n : Nat) : (Quorums.ofN n).prepare.value = n - getMaxFailures n - 1 := rfl

/-- The common part: whatever prefix of the PREPAREs a request may be made from, it is made for `st`. -/
theorem asked_for {d : Data} {k : MsgReq.Key} {st : Stash} {h0 h1 : List Ev} (hw : Wait d.n k h0 h1)
    (hp : ∀ p t, preparesOf k h1 = p ++ t → d.n - getMaxFailures d.n - 1 ≤ p.length → p ≠ [] → acceptable p = some st)
    (hf : allFree k h1) (hq : d.n - getMaxFailures d.n - 1 ≤ (preparesOf k h1).length) (hne : preparesOf k h1 ≠ []) :
    let s := run d (h0 ++ h1)
    k ∈ s.sent ∧
    (∀ m, numberOf m = k → says m = st → fresh s.msgs.data k → takes s m = true) ∧
    ((∀ c, Ev.missing k c ∉ h1) → ∀ m, numberOf m = k → says m ≠ st → takes s m = false) := by
  intro s
  have hd : During d.n k h1 s := during_run hw
  cases hg : s.msgs.reqPP.get? k with
  | none => exact absurd hg (hd.asked hf hq hne)
  | some v =>
    have hv := hd.req v hg
    have hv' : ∀ st', v = some st' → st' = st := by
      intro st' e
      rcases hv with ⟨c, h1, _⟩ | ⟨st1, p, t, h1, h2, h3, h4⟩
      · rw [e] at h1; cases h1
      · rw [e] at h1; cases h1
        have hpne : p ≠ [] := fun e => by subst e; simp [acceptable, bySender, mostCommon] at h4
        have := hp p t h2 h3 hpne
        rw [this] at h4; cases h4; rfl
    refine ⟨hd.sent v hg, fun m hm hs hfr => ?_, fun hmiss m hm hs => ?_⟩
    · subst hm
      exact (takes_eq (m := m) hg hfr).2 fun st' e => by rw [hv' st' e]; exact hs
    · subst hm
      rcases hv with ⟨c, _, h2⟩ | ⟨st1, p, t, h1, _⟩
      · exact absurd h2 (hmiss c)
      · have := hv' st1 h1
        subst this h1
        exact takes_other (m := m) hg hs

/-- **C105**, in part: no PREPARE for the batch says anything else. As soon as `n - f - 1` PREPAREs have come and nothing
keeps the replica from asking, it has asked the primary for the PRE-PREPARE; it takes one that says what the
PREPAREs say, and no other, unless it had asked before because a later PRE-PREPARE came. -/
theorem C105_same_partial (d : Data) (k : MsgReq.Key) (st : Stash) (h0 h1 : List Ev) (hw : Wait d.n k h0 h1)
    (hs : ∀ m ∈ preparesOf k h1, m.1 = st)
    (hf : allFree k h1) (hq : d.n - getMaxFailures d.n - 1 ≤ (preparesOf k h1).length) (hne : preparesOf k h1 ≠ []) :
    let s := run d (h0 ++ h1)
    k ∈ s.sent ∧
    (∀ m, numberOf m = k → says m = st → fresh s.msgs.data k → takes s m = true) ∧
    ((∀ c, Ev.missing k c ∉ h1) → ∀ m, numberOf m = k → says m ≠ st → takes s m = false) :=
  asked_for hw (fun p t e _ hp => acceptable_same hp fun m hm => hs m (by rw [e]; exact List.mem_append_left _ hm)) hf hq hne

/-- **C105**, in part: each node has sent one PREPARE for the batch, and less than half of `n - f - 1` of them say anything
but `st`. -/
theorem C105_majority_partial (d : Data) (k : MsgReq.Key) (st : Stash) (h0 h1 : List Ev) (hw : Wait d.n k h0 h1)
    (h1n : ((preparesOf k h1).map Prod.snd).Nodup)
    (hs : 2 * ((preparesOf k h1).filter (fun m => m.1 ≠ st)).length < d.n - getMaxFailures d.n - 1)
    (hf : allFree k h1) (hq : d.n - getMaxFailures d.n - 1 ≤ (preparesOf k h1).length) :
    let s := run d (h0 ++ h1)
    k ∈ s.sent ∧
    (∀ m, numberOf m = k → says m = st → fresh s.msgs.data k → takes s m = true) ∧
    ((∀ c, Ev.missing k c ∉ h1) → ∀ m, numberOf m = k → says m ≠ st → takes s m = false) := by
  refine asked_for hw (fun p t e hp _ => ?_) hf hq (fun e => by rw [e] at hq; simp at hq; omega)
  rw [e] at h1n hs
  rw [List.map_append, List.nodup_append] at h1n
  refine acceptable_majority h1n.1 ?_
  rw [List.filter_append, List.length_append] at hs
  have hsplit : ∀ q : List (Stash × Nat), (q.map Prod.fst).count st + (q.filter (fun m => m.1 ≠ st)).length = q.length := by
    intro q
    induction q with
    | nil => rfl
    | cons a q ih =>
      rw [List.map_cons, List.count_cons, List.filter_cons, List.length_cons]
      by_cases ha : a.1 = st
      · simp [ha] at ih ⊢; omega
      · simp [ha] at ih ⊢; omega
  have := hsplit p
  omega

/-- A PREPARE from a node that finds nothing in the way. -/
def prep (k : MsgReq.Key) (st : Stash) (x : Nat) : Ev := .prepare k st x {}

theorem free_default : (({} : Ctx)).free := ⟨rfl, rfl, rfl, rfl, rfl⟩

/-- A pool of 7, four PREPAREs needed, one of them wrong; some other things happen. -/
example : let d : Data := { n := 7 }
    let h0 : List Ev := [prep (0, 4) (9, 9, 9) 3, .viewChangeStarted]
    let h1 : List Ev := [prep (1, 5) (1, 2, 3) 2, prep (1, 5) (7, 7, 7) 3, .arrived (0, 4), prep (1, 5) (1, 2, 3) 4, prep (1, 5) (1, 2, 3) 5]
    Wait d.n (1, 5) h0 h1 ∧ ((preparesOf (1, 5) h1).map Prod.snd).Nodup ∧
    2 * ((preparesOf (1, 5) h1).filter (fun m => m.1 ≠ (1, 2, 3))).length < d.n - getMaxFailures d.n - 1 ∧
    allFree (1, 5) h1 ∧ d.n - getMaxFailures d.n - 1 ≤ (preparesOf (1, 5) h1).length ∧
    fresh (run d (h0 ++ h1)).msgs.data (1, 5) ∧
    takes (run d (h0 ++ h1)) { inst := 0, viewNo := 1, seqNo := 5, digest := 1, stateRoot := 2, txnRoot := 3 } = true ∧
    takes (run d (h0 ++ h1)) { inst := 0, viewNo := 1, seqNo := 5, digest := 7, stateRoot := 7, txnRoot := 7 } = false := by
  refine ⟨⟨by decide, by decide, ?_⟩, by decide, by decide, ?_, by decide, ⟨by decide, by decide⟩, by decide, by decide⟩
  · intro e he
    simp only [prep, List.cons_append, List.nil_append, List.mem_cons, List.not_mem_nil, or_false] at he
    rcases he with rfl | rfl | rfl | rfl | rfl | rfl | rfl <;> trivial
  · intro st x c hc
    simp [prep] at hc
    rcases hc with h | h | h | h <;> (obtain ⟨_, _, rfl⟩ := h; exact free_default)

/-! ## Where it fails -/

/-- The state a request is for, after PREPAREs that all find nothing in the way. -/
theorem request_after {d : Data} {k : MsgReq.Key} {h1 : List Ev} {st : Stash}
    (hw : Wait d.n k [] h1) (hmiss : ∀ c, Ev.missing k c ∉ h1)
    (hf : allFree k h1) (hq : d.n - getMaxFailures d.n - 1 = (preparesOf k h1).length) (hne : preparesOf k h1 ≠ [])
    (hacc : acceptable (preparesOf k h1) = some st) : (run d h1).msgs.reqPP.get? k = some (some st) := by
  have hd : During d.n k h1 (run d h1) := during_run (h0 := []) hw
  cases hg : (run d h1).msgs.reqPP.get? k with
  | none => exact absurd hg (hd.asked hf (Nat.le_of_eq hq) hne)
  | some v =>
    rcases hd.req v hg with ⟨c, _, h2⟩ | ⟨st1, p, t, h1', h2, h3, h4⟩
    · exact absurd h2 (hmiss c)
    · have hlen := congrArg List.length h2
      rw [List.length_append] at hlen
      rw [prepare_value] at h3
      have ht : t = [] := List.length_eq_zero_iff.1 (by omega)
      subst ht
      rw [List.append_nil] at h2
      rw [← h2, hacc] at h4
      cases h4
      rw [h1']

/-- Once a replica has asked for a PRE-PREPARE that says `w`, it takes no other from a reply and does not ask again, whatever
comes, until the PRE-PREPARE is there, ordered or covered by a checkpoint, or a view change starts. -/
theorem C105_locked (s : AskPp.State) (k : MsgReq.Key) (w : Stash) (hg : s.msgs.reqPP.get? k = some (some w))
    (h : List Ev) (hh : ∀ e ∈ h, ends k e = false) :
    (h.foldl AskPp.step s).sent.count k = s.sent.count k ∧
    ∀ m, numberOf m = k → says m ≠ w → takes (h.foldl AskPp.step s) m = false := by
  obtain ⟨h1, h2⟩ := locked h hg hh
  refine ⟨h2, fun m hm hs => ?_⟩
  subst hm
  exact takes_other (m := m) h1 hs

theorem preparesOf_replicate (k : MsgReq.Key) (w : Stash) (x j : Nat) :
    preparesOf k (List.replicate j (prep k w x)) = List.replicate j (w, x) := by
  induction j with
  | zero => rfl
  | succ j ih =>
    rw [List.replicate_succ, List.replicate_succ, ← ih]
    simp [preparesOf, prep]

/-- One node is enough to make a replica wait for the wrong PRE-PREPARE. PREPAREs are counted by message, so that `n - f - 1`
copies of one make it ask for what this one says; then all other nodes may send the right PREPARE: the right
PRE-PREPARE is not taken from a reply, and not asked for again. -/
theorem C105_copies (d : Data) (k : MsgReq.Key) (w : Stash) (x : Nat) (hn : 0 < d.n - getMaxFailures d.n - 1)
    (h : List Ev) (hh : ∀ e ∈ h, ends k e = false) :
    let start := List.replicate (d.n - getMaxFailures d.n - 1) (prep k w x)
    (run d (start ++ h)).sent.count k = (run d start).sent.count k ∧
    ∀ m, numberOf m = k → says m ≠ w → takes (run d (start ++ h)) m = false := by
  intro start
  have hmem : ∀ e ∈ start, e = prep k w x := fun e he => List.eq_of_mem_replicate he
  have hpre : preparesOf k start = List.replicate (d.n - getMaxFailures d.n - 1) (w, x) := preparesOf_replicate k w x _
  have hne : preparesOf k start ≠ [] := by
    rw [hpre]; intro e
    have := congrArg List.length e
    rw [List.length_replicate] at this
    simp at this; omega
  have hg : (run d start).msgs.reqPP.get? k = some (some w) := by
    refine request_after ⟨fun e he => (by cases he), fun e he => (by rw [hmem e he]; rfl),
      fun e he => (by rw [hmem e he]; trivial)⟩ (fun c hc => by have := hmem _ hc; cases this) ?_ (by rw [hpre, List.length_replicate]) hne ?_
    · intro st y c hc
      have := hmem _ hc
      cases this; exact free_default
    · exact acceptable_same hne fun m hm => by rw [hpre] at hm; rw [List.eq_of_mem_replicate hm]
  have := C105_locked (run d start) k w hg h hh
  unfold run at this ⊢
  rw [List.foldl_append]
  exact this

/-- Four nodes: two copies of a wrong PREPARE of node 3, then the right ones of nodes 2 and 4; the right PRE-PREPARE is not taken.
Without the copies it is. -/
example : takes (run { n := 4 } [prep (0, 1) (7, 7, 7) 3, prep (0, 1) (7, 7, 7) 3, prep (0, 1) (1, 2, 3) 2, prep (0, 1) (1, 2, 3) 4])
      { inst := 0, viewNo := 0, seqNo := 1, digest := 1, stateRoot := 2, txnRoot := 3 } = false ∧
    takes (run { n := 4 } [prep (0, 1) (1, 2, 3) 2, prep (0, 1) (1, 2, 3) 4])
      { inst := 0, viewNo := 0, seqNo := 1, digest := 1, stateRoot := 2, txnRoot := 3 } = true ∧
    (run { n := 4 } [prep (0, 1) (7, 7, 7) 3, prep (0, 1) (7, 7, 7) 3, prep (0, 1) (1, 2, 3) 2, prep (0, 1) (1, 2, 3) 4]).sent = [(0, 1)] := by
  decide

/-- The PREPAREs of nodes that all say the same. -/
def votes (k : MsgReq.Key) (st : Stash) (xs : List Nat) : List Ev := xs.map (prep k st)

theorem preparesOf_votes (k : MsgReq.Key) (st : Stash) (xs : List Nat) : preparesOf k (votes k st xs) = xs.map (fun x => (st, x)) := by
  induction xs with
  | nil => rfl
  | cons x xs ih =>
    have : preparesOf k (votes k st (x :: xs)) = (st, x) :: preparesOf k (votes k st xs) := by simp [votes, preparesOf, prep]
    rw [this, ih, List.map_cons]

theorem map_const_replicate (st : Stash) (xs : List Nat) : (xs.map (fun x => (st, x))).map Prod.fst = List.replicate xs.length st := by
  induction xs with
  | nil => rfl
  | cons x xs ih => rw [List.map_cons, List.map_cons, ih, List.length_cons, List.replicate_succ]

/-- `f` faulty nodes of `3 f + 1` are enough, without copies. Their PREPAREs and those of `f` other nodes are the `n - f - 1`
that make the replica ask; as many say the wrong as the right, and the first to come win. That more than `f` agree is
not looked at. -/
theorem C105_tie (d : Data) (k : MsgReq.Key) (w r : Stash) (hwr : w ≠ r) (f : Nat) (hf : 0 < f) (hn : d.n = 3 * f + 1)
    (xs ys : List Nat) (hx : xs.length = f) (hy : ys.length = f) (hnd : (xs ++ ys).Nodup)
    (h : List Ev) (hh : ∀ e ∈ h, ends k e = false) :
    let start := votes k w xs ++ votes k r ys
    (run d (start ++ h)).sent.count k = (run d start).sent.count k ∧
    ∀ m, numberOf m = k → says m = r → takes (run d (start ++ h)) m = false := by
  intro start
  have hmem : ∀ e ∈ start, ∃ st x, e = prep k st x := by
    intro e he
    rcases List.mem_append.1 he with he | he
    · obtain ⟨x, _, rfl⟩ := List.mem_map.1 he; exact ⟨w, x, rfl⟩
    · obtain ⟨x, _, rfl⟩ := List.mem_map.1 he; exact ⟨r, x, rfl⟩
  have hpre : preparesOf k start = xs.map (fun x => (w, x)) ++ ys.map (fun x => (r, x)) := by
    rw [preparesOf_append, preparesOf_votes, preparesOf_votes]
  have hlen : (preparesOf k start).length = 2 * f := by rw [hpre, List.length_append, List.length_map, List.length_map]; omega
  have hmf : getMaxFailures d.n = f := by unfold getMaxFailures; rw [hn, if_pos (by omega)]; omega
  have hacc : acceptable (preparesOf k start) = some w := by
    have hnd' : ((preparesOf k start).map Prod.snd).Nodup := by
      rw [hpre, List.map_append, List.map_map, List.map_map]
      have e1 : xs.map (Prod.snd ∘ fun x => (w, x)) = xs := by simp [Function.comp_def]
      have e2 : ys.map (Prod.snd ∘ fun x => (r, x)) = ys := by simp [Function.comp_def]
      rw [e1, e2]; exact hnd
    unfold acceptable
    rw [values_nodup _ hnd', hpre, List.map_append, map_const_replicate, map_const_replicate, hx, hy]
    have hc : ∀ z, (List.replicate f w ++ List.replicate f r).count z ≤ (List.replicate f w ++ List.replicate f r).count w := by
      intro z
      simp only [List.count_append, List.count_replicate]
      have hrw : (r == w) = false := by simpa using fun e => hwr e.symm
      rw [hrw]
      simp only [beq_self_eq_true, if_true, Bool.false_eq_true, if_false, Nat.add_zero]
      by_cases h1 : w = z
      · subst h1; rw [hrw]; simp
      · have : (w == z) = false := by simpa using h1
        rw [this]
        simp only [Bool.false_eq_true, if_false, Nat.zero_add]
        split <;> omega
    obtain ⟨j, rfl⟩ : ∃ j, f = j + 1 := ⟨f - 1, by omega⟩
    rw [List.replicate_succ, List.cons_append] at hc ⊢
    exact mostCommon_first hc
  have hg : (run d start).msgs.reqPP.get? k = some (some w) := by
    refine request_after ⟨fun e he => (by cases he), fun e he => (by obtain ⟨st, x, rfl⟩ := hmem e he; rfl),
      fun e he => (by obtain ⟨st, x, rfl⟩ := hmem e he; trivial)⟩ (fun c hc => by obtain ⟨st, x, e⟩ := hmem _ hc; cases e) ?_
      (by rw [hlen, hmf, hn]; omega) (fun e => by rw [e] at hlen; simp at hlen; omega) hacc
    intro st y c hc
    obtain ⟨st', x', e⟩ := hmem _ hc
    cases e; exact free_default
  have := C105_locked (run d start) k w hg h hh
  unfold run at this ⊢
  rw [List.foldl_append]
  exact ⟨this.1, fun m hm hs => this.2 m hm (by rw [hs]; exact fun e => hwr e.symm)⟩

example : takes (run { n := 4 } (votes (0, 1) (7, 7, 7) [3] ++ votes (0, 1) (1, 2, 3) [2] ++ votes (0, 1) (1, 2, 3) [4]))
      { inst := 0, viewNo := 0, seqNo := 1, digest := 1, stateRoot := 2, txnRoot := 3 } = false ∧
    takes (run { n := 4 } (votes (0, 1) (1, 2, 3) [2] ++ votes (0, 1) (7, 7, 7) [3] ++ votes (0, 1) (1, 2, 3) [4]))
      { inst := 0, viewNo := 0, seqNo := 1, digest := 1, stateRoot := 2, txnRoot := 3 } = true := by
  decide

end Verif.Props
