import Verif.Proofs.ViewEndBack
/-! A view change in a pool. -/
namespace Verif.VC

theorem finish_sent (s : Service) : s.finish.sentVC = s.sentVC ∧ s.finish.sentNV = s.sentNV ∧ s.finish.viewNo = s.viewNo := by
  unfold Service.finish; split <;> exact ⟨rfl, rfl, rfl⟩

/-- What was sent is of the current view or an earlier one. -/
structure SentLe (s : Service) : Prop where
  vc : ∀ x ∈ s.sentVC, x.viewNo ≤ s.viewNo
  nv : ∀ x ∈ s.sentNV, x.viewNo ≤ s.viewNo

theorem SentLe.finish {s : Service} (h : SentLe s) : SentLe s.finish := by
  obtain ⟨h1, h2, h3⟩ := finish_sent s
  exact ⟨by rw [h1, h3]; exact h.vc, by rw [h2, h3]; exact h.nv⟩

theorem SentLe.finishIf {cfg : Cfg} {s : Service} (h : SentLe s) : SentLe (s.finishIfNeeded cfg) := by
  rcases Props.finishIfNeeded_cases cfg s with e | e <;> rw [e]
  · exact h
  · exact h.finish

theorem SentLe.send {cfg : Cfg} {s : Service} (h : SentLe s) : SentLe (s.sendNewViewIfNeeded cfg) := by
  unfold Service.sendNewViewIfNeeded
  dsimp only
  split
  · exact h
  split
  · exact h
  split
  · exact h
  split
  · exact h
  · apply SentLe.finish
    refine ⟨h.vc, fun x hx => ?_⟩
    rcases List.mem_append.1 hx with hx | hx
    · exact h.nv x hx
    · rw [List.mem_singleton.1 hx]; exact Nat.le_refl _

theorem SentLe.step {cfg : Cfg} {s : Service} (h : SentLe s) (e : Event) : SentLe (s.step cfg e) := by
  unfold Service.step
  split
  · exact h
  cases e with
  | need v p pp =>
    simp only [Service.handle]
    split
    · exact h
    · next hv =>
      constructor
      · intro x hx
        rcases List.mem_append.1 hx with hx | hx
        · have := h.vc x hx
          show x.viewNo ≤ v
          omega
        · rw [List.mem_singleton.1 hx]; exact Nat.le_refl _
      · intro x hx
        have := h.nv x hx
        show x.viewNo ≤ v
        omega
  | viewChange x j =>
    simp only [Service.handle, Service.processViewChange]
    split
    · exact h
    · split
      · exact SentLe.send ⟨h.vc, h.nv⟩
      · exact SentLe.finishIf ⟨h.vc, h.nv⟩
  | ack w k d i =>
    simp only [Service.handle, Service.processAck]
    split
    · exact h
    · split
      · exact h
      · exact SentLe.send ⟨h.vc, h.nv⟩
  | newView nv j =>
    simp only [Service.handle, Service.processNewView]
    split
    · exact h
    · exact SentLe.finishIf ⟨h.vc, h.nv⟩
  | shared pt st cps => exact ⟨h.vc, h.nv⟩

theorem sentLe (cfg : Cfg) (evs : List Event) : SentLe (run cfg evs) := by
  unfold run
  induction evs using snoc_induction with
  | nil => exact ⟨fun _ h => by simp at h, fun _ h => by simp at h⟩
  | snoc evs e ih => rw [List.foldl_append]; exact ih.step e

namespace Change

variable {C : Change} {L : List Node}

/-- The state of the node when it has started. -/
def started (C : Change) (i : Node) : Service :=
  (C.leaving i).needViewChange (C.cfg i) C.view (C.prepared i) (C.preprepared i)

theorem Live.run_started (h : C.Live L) {i : Node} (hi : i ∈ L) (evs : List Event) :
    run (C.cfg i) (C.before i ++ .need C.view (C.prepared i) (C.preprepared i) :: evs) =
      evs.foldl (Service.step (C.cfg i)) (C.started i) := by
  obtain ⟨h1, -, h3⟩ := h.runs i hi
  show List.foldl _ _ _ = _
  rw [List.foldl_append, List.foldl_cons]
  congr 1
  show Service.step (C.cfg i) (C.leaving i) _ = _
  unfold Service.step
  rw [if_neg (by simp [h1])]
  simp only [Service.handle]
  rw [if_neg (by omega)]
  rfl

theorem Live.start (h : C.Live L) {i : Node} (hi : i ∈ L) :
    (C.started i).sentVC = (C.leaving i).sentVC ++ [C.vc i] ∧ (C.vc i).viewNo = C.view ∧
      (C.vc i).checkpoints = (C.leaving i).checkpoints ∧ Waits (C.cfg i) C.view (C.started i) ∧
      Kept (C.cfg i) C.view (C.vc i) [] (C.started i).votes ∧ (C.started i).newViews = {} ∧
      (C.started i).accepted = (C.leaving i).accepted ∧ (C.started i).sentNV = (C.leaving i).sentNV ∧
      (C.started i).checkpoints = (C.leaving i).checkpoints := by
  obtain ⟨h1, h2, -⟩ := h.runs i hi
  obtain ⟨own, a, b, c, -, d, e, f, g, k, l⟩ := need_starts (cfg := C.cfg i) (C.leaving i) C.view (C.prepared i) (C.preprepared i) h1 h2
  have : C.vc i = own := by
    unfold Change.vc
    rw [h.run_started hi []]
    show (((C.started i).sentVC).getLast?).getD _ = own
    unfold Change.started
    rw [a]
    simp
  rw [this]
  exact ⟨a, b, c, d, e, f, g, k, l⟩

theorem Live.final_eq (h : C.Live L) {i : Node} (hi : i ∈ L) :
    C.final i = (C.after i).foldl (Service.step (C.cfg i)) (C.started i) := h.run_started hi (C.after i)

theorem Live.acks_mem (h : C.Live L) {i : Node} (hi : i ∈ L) {a : Nat × Node × Nat}
    (ha : a ∈ acksFrom (C.cfg i) (C.started i) (C.after i)) : a ∈ C.acks i := by
  unfold Change.acks
  rw [acksFrom_append]
  apply List.mem_append_right
  unfold acksFrom
  apply List.mem_append_right
  have := h.run_started hi []
  show a ∈ acksFrom _ _ _
  have e : Service.step (C.cfg i) ((C.before i).foldl (Service.step (C.cfg i)) {}) (.need C.view (C.prepared i) (C.preprepared i)) = C.started i := by
    have h2 : run (C.cfg i) (C.before i ++ [.need C.view (C.prepared i) (C.preprepared i)]) = C.started i := this
    rw [← h2]
    unfold run
    rw [List.foldl_append]
    rfl
  rw [e]
  exact ha

theorem Live.prim_cases (h : C.Live L) :
    PrimWaits (C.cfg C.prim) C.view (C.vc C.prim) (C.started C.prim) (C.after C.prim) (C.final C.prim) ∨
      ∃ nv, PrimSent (C.cfg C.prim) C.view (C.vc C.prim) (C.started C.prim) (C.after C.prim) (C.final C.prim) nv := by
  rw [h.final_eq h.prim]
  obtain ⟨h1, h2, h3, h4, h5, h6, h7, h8, h9⟩ := h.start h.prim
  have hs : ¬ Sendable (C.cfg C.prim) (C.vc C.prim).checkpoints (confirmedVCs (C.cfg C.prim) (C.started C.prim).votes) := by
    rintro ⟨x, -⟩
    have x : C.n - getMaxFailures C.n ≤ _ := x
    have h2n := h.two
    have hle := length_le_of_subset (confirmedVCs_nodup (cfg := C.cfg C.prim) h5.keys) (B := [C.prim]) (by
      intro y hy
      obtain ⟨e, he, rfl⟩ := List.mem_map.1 hy
      rcases h5.from' e.1 e.2 ((confirmedVCs_mem h5.keys).1 he).1 with z | z
      · simp [z.1]; rfl
      · simp at z)
    rw [List.length_map] at hle
    simp only [List.length_cons, List.length_nil] at hle
    unfold getMaxFailures at x
    split at x <;> omega
  exact prim_run rfl ⟨h4, h5, fun _ _ _ hm => by simp at hm, h6, rfl, rfl, rfl, fun c hc => by rw [h9, ← h3]; exact hc, hs⟩
    _ (h.once _ h.prim) h.noNV (h.steady _ h.prim)

theorem Live.back_cases (h : C.Live L) {i : Node} (hi : i ∈ L) (hne : C.prim ≠ i) :
    BackWaits (C.cfg i) C.view (C.vc i) (C.started i) (C.after i) (C.final i) ∨
      ∃ nv, BackOver (C.cfg i) C.view (C.started i) (C.after i) (C.final i) nv := by
  rw [h.final_eq hi]
  obtain ⟨h1, h2, h3, h4, h5, h6, h7, h8, h9⟩ := h.start hi
  refine back_run hne ⟨h4, h5, fun _ _ hm => by simp at hm, ?_, rfl, rfl, rfl, ?_⟩ _ (h.once _ hi) (fun pt st cps hm => (h.steady i hi pt st cps hm).1)
  · rw [h6]
    exact ⟨fun e he => by simp at he, fun nv he => by simp at he, fun nv w hm => by simp at hm⟩
  · have hf : Service.finishIfNeeded (C.cfg i) (C.started i) = C.started i := by
      unfold Service.finishIfNeeded
      rw [h6]; rfl
    rw [hf]; exact h4.waiting

/-- The VIEW_CHANGEs the node ever sent: the one for this view is the last. -/
theorem Live.sentVC (h : C.Live L) {i : Node} (hi : i ∈ L) : (C.final i).sentVC = (C.leaving i).sentVC ++ [C.vc i] := by
  have h1 := (h.start hi).1
  by_cases hp : C.prim = i
  · subst hp
    rcases h.prim_cases with x | ⟨nv, x⟩
    · exact x.sentVC.trans h1
    · exact x.sentVC.trans h1
  · rcases h.back_cases hi hp with x | ⟨nv, x⟩
    · exact x.sentVC.trans h1
    · exact x.sentVC.trans h1

/-- A VIEW_CHANGE for this view of a node of `L` is the one it sent. -/
theorem Live.vc_of (h : C.Live L) {i j : Node} (hi : i ∈ L) (hj : j ∈ L) {x : ViewChange} (hx : .viewChange x j ∈ C.after i)
    (hv : x.viewNo = C.view) : x = C.vc j := by
  have := h.realVC i hi j hj x hx
  rw [h.sentVC hj] at this
  rcases List.mem_append.1 this with y | y
  · have := (sentLe (C.cfg j) (C.before j)).vc x y
    have := (h.runs j hj).2.2
    have : (run (C.cfg j) (C.before j)).viewNo < C.view := this
    omega
  · exact List.mem_singleton.1 y

/-- What a node holds of the VIEW_CHANGEs of `L`. -/
theorem Live.holds (h : C.Live L) {i : Node} (hi : i ∈ L) {votes : Votes}
    (k : Kept (C.cfg i) C.view (C.vc i) (C.after i) votes) {j : Node} (hj : j ∈ L) : (votes.of j).vc = some (C.vc j) := by
  by_cases e : j = i
  · subst e; exact k.mine
  · obtain ⟨y, hy⟩ := k.got (C.vc j) j (h.gotVC i hi j hj e) (h.start hj).2.1
    rw [hy]
    rcases k.from' j y hy with ⟨z, -⟩ | ⟨z1, z2⟩
    · exact absurd z e
    · rw [h.vc_of hi hj z1 z2]

/-- While the primary has sent no NEW_VIEW for the view, nobody has one from it. -/
theorem Live.no_nv (h : C.Live L) (hs : (C.final C.prim).sentNV = (C.leaving C.prim).sentNV) {i : Node} (hi : i ∈ L) {nv : NewView}
    (hm : .newView nv C.prim ∈ C.after i) : nv.viewNo < C.view := by
  have := h.realNV i hi nv hm
  rw [hs] at this
  have := (sentLe (C.cfg C.prim) (C.before C.prim)).nv nv this
  have : (run (C.cfg C.prim) (C.before C.prim)).viewNo < C.view := (h.runs C.prim h.prim).2.2
  omega

/-- The primary sends a NEW_VIEW. -/
theorem Live.sends (h : C.Live L) {c : Checkpoint} (hf : C.Fits L c)
    (hknown : ∀ (nvs : List (Node × ViewChange)) cp, (nvs.map Prod.fst).Nodup →
      (∀ e ∈ nvs, (e.1 = C.prim ∧ e.2 = C.vc C.prim) ∨ (.viewChange e.2 e.1 ∈ C.after C.prim ∧ e.2.viewNo = C.view)) →
      calcCheckpoint (Quorums.ofN C.n) (msgs nvs) = some cp → cp ∈ (C.vc C.prim).checkpoints)
    (hnv : ∀ i ∈ L, i ≠ C.prim → ∀ nv, nv.viewNo = C.view → Came (C.cfg i) C.view (C.after i) nv →
      .newView nv C.prim ∈ C.after i) :
    ∃ nv, PrimSent (C.cfg C.prim) C.view (C.vc C.prim) (C.started C.prim) (C.after C.prim) (C.final C.prim) nv := by
  rcases h.prim_cases with w | w
  · exfalso
    have hs : (C.final C.prim).sentNV = (C.leaving C.prim).sentNV := w.sentNV.trans (h.start h.prim).2.2.2.2.2.2.2.1
    -- the others wait, so have acknowledged what they got
    have hb : ∀ i ∈ L, i ≠ C.prim → BackWaits (C.cfg i) C.view (C.vc i) (C.started i) (C.after i) (C.final i) := by
      intro i hi hne
      rcases h.back_cases hi (Ne.symm hne) with x | ⟨nv, x⟩
      · exact x
      · have := h.no_nv hs hi (hnv i hi hne nv x.came.1 x.came.2)
        have := x.came.1
        omega
    have hack : ∀ i ∈ L, ∀ j ∈ L, i ≠ j → i ∈ ((C.final C.prim).votes.of j).acksFor (C.vd (C.vc j)) := by
      intro i hi j hj hij
      by_cases hp : i = C.prim
      · subst hp
        exact w.kept.self (C.vc j) j (h.gotVC _ hi j hj (Ne.symm hij)) (h.start hj).2.1
      · apply w.acks
        apply h.gotAck i hi hp
        exact h.acks_mem hi ((hb i hi hp).acked (C.vc j) j (h.gotVC i hi j hj (Ne.symm hij)) (h.start hj).2.1)
    have hconf : ∀ j ∈ L, (j, C.vc j) ∈ confirmedVCs (C.cfg C.prim) (C.final C.prim).votes := by
      intro j hj
      rw [confirmedVCs_mem w.kept.keys]
      have hv := h.holds h.prim w.kept hj
      refine ⟨hv, ?_⟩
      unfold NodeVotes.isConfirmed
      rw [hv]
      have hle := length_le_of_subset (B := ((C.final C.prim).votes.of j).acksFor (C.vd (C.vc j)))
        (h.nodup.erase j) (fun i hi => by
          rw [h.nodup.mem_erase_iff] at hi
          exact hack i hi.2 j hj hi.1)
      rw [List.length_erase_of_mem hj] at hle
      have hm := h.many
      apply decide_eq_true
      show C.n - getMaxFailures C.n - 1 ≤ _
      have : (C.cfg C.prim).vd = C.vd := rfl
      rw [this]
      omega
    have hfit : FitIn C.n (confirmedVCs (C.cfg C.prim) (C.final C.prim).votes) L C.vc c :=
      ⟨h.nodup, h.many, hconf, hf.listed, hf.stable, hf.same, hf.backed⟩
    obtain ⟨cp, h1, h2⟩ := hfit.checkpoint (by have := h.two; omega)
    obtain ⟨bs, h3⟩ := hfit.batches C.logSize h2
    refine w.cannot ⟨?_, cp, bs, h1, h3, ?_⟩
    · have hle := length_le_of_subset (A := L) (B := (confirmedVCs (C.cfg C.prim) (C.final C.prim).votes).map Prod.fst) h.nodup
        (fun i hi => List.mem_map.2 ⟨_, hconf i hi, rfl⟩)
      rw [List.length_map] at hle
      have hm := h.many
      show C.n - getMaxFailures C.n ≤ _
      omega
    · exact hknown _ cp (confirmedVCs_nodup w.kept.keys) (fun e he => w.kept.from' e.1 e.2 ((confirmedVCs_mem w.kept.keys).1 he).1) h1
  · exact w

end Change
end Verif.VC
