import Verif.Proofs.ViewEndPool
/-!
# C96: a view change ends when the honest nodes hear each other
-/
namespace Verif.Props
open Verif Verif.VC

/-- A list of names splits into those in `L` and those not. -/
theorem names_split {n : Nat} {L P : List Node} (hL : L.Nodup) (hl : ∀ i ∈ L, i < n) (hP : P.Nodup) (hp : ∀ i ∈ P, i < n) :
    P.length + L.length ≤ (L.filter (fun i => P.contains i)).length + n := by
  have h1 := length_filter_split P (fun i => L.contains i)
  have h2 : (P.filter (fun i => L.contains i)).length ≤ (L.filter (fun i => P.contains i)).length := by
    refine length_le_of_subset (hP.filter _) (fun i hi => ?_)
    obtain ⟨a, b⟩ := List.mem_filter.1 hi
    exact List.mem_filter.2 ⟨by simpa using b, by simpa using a⟩
  have h3 : (P.filter (fun i => !L.contains i) ++ L).length ≤ (List.range n).length := by
    refine length_le_of_subset ?_ (fun i hi => ?_)
    · rw [List.nodup_append]
      refine ⟨hP.filter _, hL, fun a ha b hb e => ?_⟩
      subst e
      have := (List.mem_filter.1 ha).2
      simp [hb] at this
    · rcases List.mem_append.1 hi with hi | hi
      · exact List.mem_range.2 (hp i (List.mem_filter.1 hi).1)
      · exact List.mem_range.2 (hl i hi)
  rw [List.length_append, List.length_range] at h3
  omega

/-- The nodes listing the checkpoint chosen. -/
theorem chosen_listed {n : Nat} {nvs : List (Node × ViewChange)} {cp : Checkpoint}
    (h : calcCheckpoint (Quorums.ofN n) (msgs nvs) = some cp) :
    n - getMaxFailures n ≤ (passing nvs (fun vc => vc.checkpoints.contains cp)).length := by
  have := (calcCheckpoint_some h).1
  unfold cpCandidate at this
  simp only [Bool.and_eq_true, Quorum.isReached, Quorums.ofN, ge_iff_le, decide_eq_true_eq] at this
  rw [passing_length]
  exact this.2

/-- **C96**, the part of the primary. Enough honest nodes `L` with an honest
primary carry out a view change and hear each other; their VIEW_CHANGEs have a
checkpoint `c` in common. At most `f` other nodes send the honest ones whatever
they like, but no NEW_VIEW to the primary. If the primary lists every checkpoint
that all but `f` of `L` list, it sends a NEW_VIEW for the view and ends its view
change with it. Missing for the full claim: the checkpoints may differ
(`C96_checkpoints_differ`, `C96_primary_behind`), and the others need not end
(`C96_ends_partial`, `vc_equivocation_blocks`, `C61_order_matters`). -/
theorem C96_primary_sends_partial (C : Change) (L bad : List Node) (c : Checkpoint) (h : C.Live L) (hf : C.Fits L c)
    (hfew : bad.length ≤ getMaxFailures C.n)
    (hnv : ∀ i ∈ L, ∀ nv j, Event.newView nv j ∈ C.after i → j = C.prim ∨ j ∈ bad)
    (hknown : ∀ cp, L.length - getMaxFailures C.n ≤ (L.filter (fun i => (C.vc i).checkpoints.contains cp)).length →
      cp ∈ (C.vc C.prim).checkpoints) :
    ∃ nv, nv.viewNo = C.view ∧ nv ∈ (C.final C.prim).sentNV ∧ C.Ended C.prim nv := by
  have h3 := three_f C.n (by have := h.two; omega)
  obtain ⟨nv, x⟩ := h.sends hf (fun nvs cp hd hsrc hcp => by
      apply hknown
      have hp := chosen_listed hcp
      have hs := names_split (n := C.n) h.nodup h.members (passing_nodup hd (fun vc => vc.checkpoints.contains cp)) (fun i hi => by
        obtain ⟨vc, h1, -⟩ := mem_passing.1 hi
        rcases hsrc _ h1 with y | y
        · have e : i = C.prim := y.1; rw [e]; exact h.members _ h.prim
        · exact h.members' _ _ y.1)
      have hsub : (L.filter (fun i => (passing nvs (fun vc => vc.checkpoints.contains cp)).contains i)).length ≤
          (L.filter (fun i => (C.vc i).checkpoints.contains cp)).length := by
        refine length_le_of_subset (h.nodup.filter _) (fun i hi => ?_)
        obtain ⟨a, b⟩ := List.mem_filter.1 hi
        refine List.mem_filter.2 ⟨a, ?_⟩
        obtain ⟨vc, h1, h2⟩ := mem_passing.1 (by simpa using b)
        have : vc = C.vc i := by
          rcases hsrc _ h1 with ⟨y1, y2⟩ | ⟨y1, y2⟩
          · simp only at y1 y2; rw [y1, y2]
          · exact h.vc_of h.prim a y1 y2
        rw [← this]; simpa using h2
      omega)
    (fun i hi hne nv hv hc => by
      rcases hc with hc | ⟨Q, q1, q2, q3⟩
      · exact hc
      · apply Classical.byContradiction
        intro hn
        have : Q.length ≤ bad.length := length_le_of_subset q1 (fun w hw => by
          rcases hnv i hi nv w (q3 w hw) with e | e
          · exact absurd (e ▸ q3 w hw) hn
          · exact e)
        have q2 : C.n - getMaxFailures C.n ≤ Q.length := q2
        omega)
  obtain ⟨nvs, m, -⟩ := x.made
  refine ⟨nv, m.view, by rw [x.sentNV]; simp, x.over.alive, x.over.waiting, x.over.view, ?_⟩
  rw [x.acc, (h.start h.prim).2.2.2.2.2.2.1]

/-- **C96**, when the nodes outside `L` are down. `n - f` honest nodes, the
primary of the new view among them, carry out a view change, hear each other's
VIEW_CHANGEs, acknowledgements and the NEW_VIEW, and nothing else; their
VIEW_CHANGEs have a checkpoint in common, and the primary does not list two that
end at the same place. Then they all end the view change, with the same
NEW_VIEW. Missing for the full claim: as for `C96_primary_sends_partial`. -/
theorem C96_ends_partial (C : Change) (L : List Node) (c : Checkpoint) (h : C.Live L) (hf : C.Fits L c)
    (hL : L.length = C.n - getMaxFailures C.n)
    (hvc : ∀ i ∈ L, ∀ x j, Event.viewChange x j ∈ C.after i → j ∈ L)
    (hnv : ∀ i ∈ L, ∀ nv j, Event.newView nv j ∈ C.after i → j = C.prim)
    (hgot : ∀ i ∈ L, i ≠ C.prim → ∀ nv ∈ (C.final C.prim).sentNV, nv.viewNo = C.view → Event.newView nv C.prim ∈ C.after i)
    (hcps : ∀ a ∈ (C.vc C.prim).checkpoints, ∀ b ∈ (C.vc C.prim).checkpoints, a.seqNoEnd = b.seqNoEnd → a = b) :
    ∃ nv, nv.viewNo = C.view ∧ ∀ i ∈ L, C.Ended i nv := by
  -- a checkpoint that can be chosen is listed by all
  have hall : ∀ nvs : List (Node × ViewChange), (nvs.map Prod.fst).Nodup →
      (∀ e ∈ nvs, e.1 ∈ L ∧ e.2 = C.vc e.1) → ∀ cp, Startable C.n (msgs nvs) cp → cp ∈ (C.vc C.prim).checkpoints := by
    intro nvs hd hsrc cp hcp
    have hp : C.n - getMaxFailures C.n ≤ (passing nvs (fun vc => vc.checkpoints.contains cp)).length := by
      rw [passing_length]
      have := hcp.2
      rw [List.countP_eq_length_filter] at this
      unfold witnesses
      simpa using this
    have hin : C.prim ∈ passing nvs (fun vc => vc.checkpoints.contains cp) := by
      apply Classical.byContradiction
      intro hn
      have := length_le_of_subset (passing_nodup hd (fun vc => vc.checkpoints.contains cp)) (B := L.erase C.prim) (fun i hi => by
        rw [h.nodup.mem_erase_iff]
        refine ⟨fun e => hn (e ▸ hi), ?_⟩
        obtain ⟨vc, h1, -⟩ := mem_passing.1 hi
        exact (hsrc _ h1).1)
      rw [List.length_erase_of_mem h.prim] at this
      have := List.length_pos_of_mem h.prim
      omega
    obtain ⟨vc, h1, h2⟩ := mem_passing.1 hin
    have e : vc = C.vc C.prim := (hsrc _ h1).2
    rw [e] at h2
    simpa using h2
  have hsrc : ∀ e : Node × ViewChange, (e.1 = C.prim ∧ e.2 = C.vc C.prim) ∨ (.viewChange e.2 e.1 ∈ C.after C.prim ∧ e.2.viewNo = C.view) →
      e.1 ∈ L ∧ e.2 = C.vc e.1 := by
    rintro e (⟨y1, y2⟩ | ⟨y1, y2⟩)
    · rw [y1, y2]; exact ⟨h.prim, rfl⟩
    · have := hvc _ h.prim _ _ y1
      exact ⟨this, h.vc_of h.prim this y1 y2⟩
  have hn0 : 0 < C.n := by have := h.two; omega
  obtain ⟨nv, x⟩ := h.sends hf (fun nvs cp hd hs hcp => hall nvs hd (fun e he => hsrc e (hs e he)) cp
      ((C63_checkpoint_chosen C.n hn0 (msgs nvs)).1 cp hcp).1)
    (fun i hi hne nv hv hc => by
      rcases hc with hc | ⟨Q, q1, q2, q3⟩
      · exact hc
      · have h3 := three_f C.n hn0
        have q2 : C.n - getMaxFailures C.n ≤ Q.length := q2
        obtain ⟨w, hw⟩ := List.exists_mem_of_length_pos (l := Q) (by omega)
        have := q3 w hw
        rw [hnv i hi nv w this] at this
        exact this)
  obtain ⟨nvs, m, m2⟩ := x.made
  have hsent : (C.final C.prim).sentNV = (C.leaving C.prim).sentNV ++ [nv] := by
    rw [x.sentNV, (h.start h.prim).2.2.2.2.2.2.2.1]
  have hone : ∀ y ∈ (C.final C.prim).sentNV, y.viewNo = C.view → y = nv := by
    intro y hy hv
    rw [hsent] at hy
    rcases List.mem_append.1 hy with hy | hy
    · have := (sentLe (C.cfg C.prim) (C.before C.prim)).nv y hy
      have : (run (C.cfg C.prim) (C.before C.prim)).viewNo < C.view := (h.runs C.prim h.prim).2.2
      omega
    · exact List.mem_singleton.1 hy
  have hnvs : ∀ e ∈ nvs, e.1 ∈ L ∧ e.2 = C.vc e.1 := fun e he => hsrc e (m2 e he)
  refine ⟨nv, m.view, fun i hi => ?_⟩
  by_cases hp : i = C.prim
  · subst hp
    refine ⟨x.over.alive, x.over.waiting, x.over.view, ?_⟩
    rw [x.acc, (h.start h.prim).2.2.2.2.2.2.1]
  · rcases h.back_cases hi (Ne.symm hp) with w | ⟨y, w⟩
    · exfalso
      -- the node has the NEW_VIEW and no other one
      have hev := hgot i hi hp nv (by rw [hsent]; simp) m.view
      have honly : ∀ y j, Event.newView y j ∈ C.after i → y.viewNo = C.view → y = nv ∧ j = C.prim := by
        intro y j hy hv
        have hj := hnv i hi y j hy
        subst hj
        exact ⟨hone y (h.realNV i hi y hy) hv, rfl⟩
      have hone' : ∀ e ∈ (C.final i).newViews.votes, e.1 = nv ∧ e.2 = [C.prim] ∨ e.2 = [] := by
        intro e he
        obtain ⟨e1, e2, e3⟩ := w.nvs.votes e he
        cases hl : e.2 with
        | nil => exact .inr rfl
        | cons a l =>
          left
          rw [hl] at e2 e3
          obtain ⟨a1, a2⟩ := honly e.1 a (e3 a List.mem_cons_self) e1
          refine ⟨a1, ?_⟩
          cases l with
          | nil => rw [a2]
          | cons b l =>
            have := (honly e.1 b (e3 b (by simp)) e1).2
            rw [a2, this] at e2
            simp at e2
      have hget : (C.final i).newViews.get (C.final i).primaryName = some nv := by
        rw [w.wait.prim]
        unfold NewViewVotes.get
        cases hc : (C.final i).newViews.newView with
        | some y =>
          obtain ⟨y1, Q, q1, q2, q3⟩ := w.nvs.chosen y hc
          have h3 := three_f C.n hn0
          have q2 : C.n - getMaxFailures C.n ≤ Q.length := q2
          obtain ⟨u, hu⟩ := List.exists_mem_of_length_pos (l := Q) (by omega)
          dsimp only
          rw [(honly y u (q3 u hu) y1).1]
        | none =>
          dsimp only
          obtain ⟨l, l1, l2⟩ := w.nvs.got nv C.prim hev m.view
          have hmem := Dict.mem_of_get? l1
          have hl : l = [C.prim] := by
            rcases hone' _ hmem with z | z
            · exact z.2
            · simp only at z; rw [z] at l2; simp at l2
          subst hl
          have hfs : ((C.final i).newViews.votes.find? (fun e => e.2 == [(C.cfg i).primary C.view] && e.1.primary.isNone)).isSome := by
            rw [List.find?_isSome]
            refine ⟨_, hmem, ?_⟩
            simp only [m.prim, Option.isNone_none, Bool.and_true, beq_iff_eq]
            rfl
          obtain ⟨e, he⟩ := Option.isSome_iff_exists.1 hfs
          rw [he]
          have he1 := List.mem_of_find?_eq_some he
          have he2 := List.find?_some he
          rcases hone' e he1 with z | z
          · simp [z.1]
          · simp [z] at he2
      -- and the VIEW_CHANGEs it names
      have hnames : ∀ e ∈ nv.viewChanges, e.1 ∈ L ∧ e.2 = C.vd (C.vc e.1) := by
        intro e he
        rw [m.named] at he
        have he := (sortVotes_perm _).mem_iff.1 he
        obtain ⟨z, hz, rfl⟩ := List.mem_map.1 he
        obtain ⟨z1, z2⟩ := hnvs z hz
        refine ⟨z1, ?_⟩
        simp only [z2]
        rfl
      have hmap : nv.viewChanges.mapM (fun e => (C.final i).votes.getViewChange (C.cfg i).vd e.1 e.2) =
          some (nv.viewChanges.map (fun e => C.vc e.1)) := by
        have key : ∀ l : List (Node × Nat), (∀ e ∈ l, e.1 ∈ L ∧ e.2 = C.vd (C.vc e.1)) →
            l.mapM (fun e => (C.final i).votes.getViewChange (C.cfg i).vd e.1 e.2) = some (l.map (fun e => C.vc e.1)) := by
          intro l
          induction l with
          | nil => intro _; rfl
          | cons a l ih =>
            intro hl
            rw [List.mapM_cons, ih (fun e he => hl e (List.mem_cons_of_mem _ he))]
            obtain ⟨a1, a2⟩ := hl a List.mem_cons_self
            have : (C.final i).votes.getViewChange (C.cfg i).vd a.1 a.2 = some (C.vc a.1) := by
              unfold Votes.getViewChange
              rw [h.holds hi w.kept a1]
              simp [a2, Change.cfg]
            rw [this]
            rfl
        exact key _ hnames
      have hperm : (msgs nvs).Perm (nv.viewChanges.map (fun e => C.vc e.1)) := by
        have e1 : msgs nvs = (nvs.map (fun e => (e.1, (C.cfg C.prim).vd e.2))).map (fun e => C.vc e.1) := by
          unfold msgs
          rw [List.map_map]
          apply List.map_congr_left
          intro e he
          exact (hnvs e he).2
        rw [e1, m.named]
        exact ((sortVotes_perm _).map _).symm
      have hlen : (msgs nvs).length = C.n - getMaxFailures C.n := by
        have h1 := m.many
        have h1 : C.n - getMaxFailures C.n ≤ nvs.length := h1
        have h2 := length_le_of_subset m.nodup (B := L) (fun y hy => by
          obtain ⟨e, he, rfl⟩ := List.mem_map.1 hy
          exact (hnvs e he).1)
        rw [List.length_map] at h2
        unfold msgs
        rw [List.length_map]
        omega
      have hcp := calcCheckpoint_perm hn0 hperm
        (fun a b ha hb => hcps a (hall nvs m.nodup hnvs a ha) b (hall nvs m.nodup hnvs b hb)) m.cp
      have hbs := m.bs
      rw [show (C.cfg C.prim).n = C.n from rfl, C61_order_irrelevant_partial C.n _ _ _ _ hlen hperm] at hbs
      have hfin : (C.final i).finishIfNeeded (C.cfg i) = (C.final i).finish := by
        unfold Service.finishIfNeeded
        simp only [hget, hmap]
        rw [show (C.cfg i).n = C.n from rfl, hcp]
        simp only [ne_eq, not_true, if_false]
        rw [if_neg]
        intro hc
        exact hc hbs
      have hi := w.idle
      rw [hfin, (finish_some hget).2.1] at hi
      cases hi
    · have hy : y = nv := by
        rcases w.came.2 with z | ⟨Q, q1, q2, q3⟩
        · exact hone y (h.realNV i hi y z) w.came.1
        · have h3 := three_f C.n hn0
          have q2 : C.n - getMaxFailures C.n ≤ Q.length := q2
          obtain ⟨u, hu⟩ := List.exists_mem_of_length_pos (l := Q) (by omega)
          have := q3 u hu
          rw [hnv i hi y u this] at this
          exact hone y (h.realNV i hi y this) w.came.1
      subst hy
      refine ⟨w.over.alive, w.over.waiting, w.over.view, ?_⟩
      rw [w.acc, (h.start hi).2.2.2.2.2.2.1]

/-- A view change does not end without a checkpoint that all `n - f` nodes heard
list, whatever else they say and however often. -/
theorem C96_needs_common (C : Change) (L : List Node) (h : C.Live L) (hL : L.length = C.n - getMaxFailures C.n)
    (hvc : ∀ x j, Event.viewChange x j ∈ C.after C.prim → j ∈ L) (hno : ¬ ∃ c, ∀ i ∈ L, c ∈ (C.vc i).checkpoints) :
    (C.final C.prim).waiting = true ∧ (C.final C.prim).sentNV = (C.leaving C.prim).sentNV := by
  rcases h.prim_cases with w | ⟨nv, x⟩
  · exact ⟨w.wait.waiting, w.sentNV.trans (h.start h.prim).2.2.2.2.2.2.2.1⟩
  · exfalso
    obtain ⟨nvs, m, m2⟩ := x.made
    refine hno ⟨nv.checkpoint, fun i hi => ?_⟩
    have hsrc : ∀ e ∈ nvs, e.1 ∈ L ∧ e.2 = C.vc e.1 := by
      intro e he
      rcases m2 e he with ⟨y1, y2⟩ | ⟨y1, y2⟩
      · rw [y1, y2]; exact ⟨h.prim, rfl⟩
      · have := hvc _ _ y1
        exact ⟨this, h.vc_of h.prim this y1 y2⟩
    have hp := chosen_listed m.cp
    have hp : C.n - getMaxFailures C.n ≤ _ := hp
    have hin : i ∈ passing nvs (fun vc => vc.checkpoints.contains nv.checkpoint) := by
      apply Classical.byContradiction
      intro hn
      have := length_le_of_subset (passing_nodup m.nodup (fun vc => vc.checkpoints.contains nv.checkpoint)) (B := L.erase i) (fun j hj => by
        rw [h.nodup.mem_erase_iff]
        refine ⟨fun e => hn (e ▸ hj), ?_⟩
        obtain ⟨vc, h1, -⟩ := mem_passing.1 hj
        exact (hsrc _ h1).1)
      rw [List.length_erase_of_mem hi] at this
      have := List.length_pos_of_mem hi
      omega
    obtain ⟨vc, h1, h2⟩ := mem_passing.1 hin
    have e : vc = C.vc i := (hsrc _ h1).2
    rw [e] at h2
    simpa using h2

deriving instance DecidableEq for Event

/-! Four nodes, node 3 down. The others prepared one batch; the primary of view 1
is node 1. -/
namespace Quorum3

def b : BatchID := ⟨0, 0, 1, 7⟩
def x : ViewChange := ⟨1, 0, [b], [b], [⟨0, 0, none⟩]⟩
def nv : NewView := ⟨1, [(0, 1), (1, 1), (2, 1)], ⟨0, 0, none⟩, [b], none⟩

def C : Change where
  n := 4
  primary := fun v => v % 4
  vd := fun vc => vc.prepared.length
  logSize := 3
  view := 1
  before := fun _ => []
  prepared := fun _ => [b]
  preprepared := fun _ => [b]
  after := fun i => match i with
    | 0 => [.viewChange x 1, .viewChange x 2, .newView nv 1]
    | 1 => [.ack 1 1 1 0, .ack 1 2 1 0, .viewChange x 0, .ack 1 0 1 2, .viewChange x 2, .shared true 0 [⟨0, 0, none⟩], .ack 1 1 1 2]
    | _ => [.newView nv 1, .viewChange x 0, .viewChange x 1]

theorem vcs : ∀ i ∈ [0, 1, 2], C.vc i = x := by decide +kernel
theorem sent : ∀ i ∈ [0, 1, 2], (C.final i).sentVC = [x] := by decide +kernel
theorem sentN : (C.final 1).sentNV = [nv] := by decide +kernel
theorem acked : C.acks 0 = [(1, 1, 1), (1, 2, 1)] ∧ C.acks 2 = [(1, 0, 1), (1, 1, 1)] := by decide +kernel

theorem cases {i : Node} (h : i ∈ [0, 1, 2]) : i = 0 ∨ i = 1 ∨ i = 2 := by simpa using h

theorem live : C.Live [0, 1, 2] where
  nodup := by decide
  two := by decide
  members := by decide
  many := by decide
  prim := by decide
  runs := by decide
  once := by
    intro i hi v p pp hm
    rcases cases hi with rfl | rfl | rfl <;> simp [C] at hm
  steady := by
    intro i hi pt st cps hm
    rw [vcs i hi]
    rcases cases hi with rfl | rfl | rfl <;> simp [C] at hm
    rw [hm.1, hm.2.2]; exact ⟨rfl, by decide⟩
  realVC := by
    intro i hi j hj y hm
    rw [sent j hj]
    rcases cases hi with rfl | rfl | rfl <;> simp [C] at hm <;> rcases hm with hm | hm <;> simp [hm.1]
  realNV := by
    intro i hi y hm
    show y ∈ (C.final 1).sentNV
    rw [sentN]
    rcases cases hi with rfl | rfl | rfl <;> simp [C] at hm <;> simp [hm.1]
  noNV := by intro y j hm; simp [C, Change.prim] at hm
  members' := by
    intro y j hm
    simp [C, Change.prim] at hm
    rcases hm with hm | hm <;> rw [hm.2] <;> decide
  gotVC := by
    intro i hi j hj hne
    rw [vcs j hj]
    rcases cases hi with rfl | rfl | rfl <;> rcases cases hj with rfl | rfl | rfl <;> first | exact absurd rfl hne | simp [C]
  gotAck := by
    intro i hi hne k d hm
    rcases cases hi with rfl | rfl | rfl
    · rw [acked.1] at hm
      simp [C, Change.prim] at hm ⊢
      omega
    · exact absurd rfl hne
    · rw [acked.2] at hm
      simp [C, Change.prim] at hm ⊢
      omega

theorem fits : C.Fits [0, 1, 2] ⟨0, 0, none⟩ where
  listed := fun i hi => by rw [vcs i hi]; decide
  stable := fun i hi => by rw [vcs i hi]; decide
  same := fun i hi j hj b1 h1 b2 h2 _ _ _ => by
    rw [vcs i hi] at h1
    rw [vcs j hj] at h2
    rw [List.mem_singleton.1 h1, List.mem_singleton.1 h2]
    exact ⟨rfl, rfl⟩
  backed := fun i hi b1 h1 _ => by
    rw [vcs i hi] at h1
    rw [List.mem_singleton.1 h1]
    exact ⟨[0, 1, 2], by decide, by decide, fun j hj => ⟨hj, b, by rw [vcs j hj]; decide, rfl, rfl, rfl, Nat.le_refl _⟩⟩

end Quorum3

open Quorum3 in
example : ∃ nv, nv.viewNo = 1 ∧ ∀ i ∈ [0, 1, 2], C.Ended i nv :=
  C96_ends_partial C [0, 1, 2] ⟨0, 0, none⟩ live fits rfl
    (fun i hi y j hm => by
      rcases Quorum3.cases hi with rfl | rfl | rfl <;> simp [C] at hm <;> rcases hm with hm | hm <;> simp [hm.2])
    (fun i hi y j hm => by
      rcases Quorum3.cases hi with rfl | rfl | rfl <;> simp [C] at hm <;> exact hm.2)
    (fun i hi hne y hy _ => by
      have hy : y ∈ (C.final 1).sentNV := hy
      rw [sentN] at hy
      rw [List.mem_singleton.1 hy]
      rcases Quorum3.cases hi with rfl | rfl | rfl
      · simp [C, Change.prim]
      · exact absurd rfl hne
      · simp [C, Change.prim])
    (by rw [vcs _ (by decide)]; decide)

open Quorum3 in
example : ∃ nv, nv.viewNo = 1 ∧ nv ∈ (C.final 1).sentNV ∧ C.Ended 1 nv :=
  C96_primary_sends_partial C [0, 1, 2] [3] ⟨0, 0, none⟩ live fits (by decide)
    (fun i hi y j hm => by
      rcases Quorum3.cases hi with rfl | rfl | rfl <;> simp [C] at hm <;> exact .inl hm.2)
    (fun cp hcp => by
      rw [vcs _ (by decide)]
      have : 0 < ([0, 1, 2].filter (fun i => (C.vc i).checkpoints.contains cp)).length := Nat.lt_of_lt_of_le (by decide) hcp
      obtain ⟨i, hi⟩ := List.exists_mem_of_length_pos this
      obtain ⟨a, b⟩ := List.mem_filter.1 hi
      rw [vcs i a] at b
      simpa using b)

end Verif.Props
