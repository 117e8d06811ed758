import Verif.Model.Views
import Verif.Proofs.ViewsTPC
import Verif.Proofs.ViewsVC
import Verif.Proofs.ThreePCOrder
/-! A node through its view changes: what its two services agree on. -/
namespace Verif.Views

variable (C : Cfg) (w : Node)

/-! ### Lifting facts about the services -/

/-- Events other than those of a catchup. -/
def Plain (evs : List TPC.Event) : Prop := .startCatchup ∉ evs ∧ ∀ k l, .caughtUp k l ∉ evs

structure Closed (Q : St → Prop) : Prop where
  order : ∀ s evs, Plain evs → Q s → Q (s.order C w evs)
  serve : ∀ s e, Q s → Q (s.serve C w e)
  rest : ∀ s old asked, Q s → Q { s with old := old, asked := asked }

variable {C w}

theorem plain_one {e : TPC.Event} (h1 : e ≠ .startCatchup) (h2 : ∀ k l, e ≠ .caughtUp k l) : Plain [e] :=
  ⟨by simpa using h1.symm, fun k l => by simpa using (h2 k l).symm⟩

theorem Closed.stabilize {Q : St → Prop} (h : Closed C w Q) {s : St} (hs : Q s) (till : Nat) : Q (s.stabilize C w till) := by
  unfold St.stabilize
  split
  · exact h.rest _ _ _ (h.serve _ _ (h.order _ _ ⟨by simp, by simp⟩ hs))
  · exact hs

theorem Closed.takeOver {Q : St → Prop} (h : Closed C w Q) {s : St} (hs : Q s) (b : BatchID) (env : Nat → TPC.PPEnv) :
    Q (s.takeOver C w b env) := by
  unfold St.takeOver
  split
  · exact h.order _ _ ⟨by simp, by simp⟩ hs
  · exact h.rest _ _ _ hs

theorem fold_keeps {α : Type} {Q : St → Prop} (f : St → α → St) (hf : ∀ s a, Q s → Q (f s a)) (l : List α) {s : St}
    (hs : Q s) : Q (l.foldl f s) := by
  induction l generalizing s with
  | nil => exact hs
  | cons a l ih => exact ih (hf s a hs)

theorem Closed.newViewAccepted {Q : St → Prop} (h : Closed C w Q) {s : St} (hs : Q s) (nv : VC.NewView)
    (env : Nat → TPC.PPEnv) : Q (s.newViewAccepted C w nv env) := by
  unfold St.newViewAccepted
  have h1 := h.order s [.acceptNewView] ⟨by simp, by simp⟩ hs
  simp only
  split
  · exact h1
  · exact fold_keeps (Q := Q) (fun s b => s.takeOver C w b env) (fun s b hs => h.takeOver hs b env) _ (h.stabilize h1 _)

theorem Closed.viewChange {Q : St → Prop} (h : Closed C w Q) {s : St} (hs : Q s) (e : VC.Event)
    (env : Nat → TPC.PPEnv) : Q (s.viewChange C w e env) := by
  unfold St.viewChange
  have h1 := h.serve s e hs
  simp only
  split
  · split
    · exact h.newViewAccepted h1 _ _
    · exact h1
  · exact h1

theorem Closed.handle {Q : St → Prop} (h : Closed C w Q) {s : St} (hs : Q s) (e : Event) : Q (s.handle C w e) := by
  cases e with
  | msg m frm env => exact h.order _ _ ⟨by simp, by simp⟩ hs
  | batch b => exact h.order _ _ ⟨by simp, by simp⟩ hs
  | tick => exact h.order _ _ ⟨by simp, by simp⟩ hs
  | stable till => exact h.stabilize hs till
  | checkpoints cps => exact h.serve _ _ hs
  | need v =>
    show Q (s.need C w v)
    unfold St.need
    split
    · exact hs
    · exact h.order _ _ ⟨by simp, by simp⟩ (h.rest _ _ _ (h.serve _ _ hs))
  | viewChange vc frm env => exact h.viewChange hs _ env
  | ack v name d frm env => exact h.viewChange hs _ env
  | newView nv frm env => exact h.viewChange hs _ env
  | reply pps env =>
    refine fold_keeps (Q := Q) (fun s pp => s.replied C w pp env) (fun s pp hs => ?_) pps hs
    unfold St.replied
    split
    · exact h.order _ _ ⟨by simp, by simp⟩ hs
    · exact hs
  | again b env =>
    show Q (if b ∈ s.named then s.takeOver C w b env else s)
    split
    · exact h.takeOver hs b env
    · exact hs

theorem Closed.step {Q : St → Prop} (h : Closed C w Q) {s : St} (hs : Q s) (e : Event) : Q (s.step C w e) := by
  unfold St.step
  split
  · exact hs
  · exact h.handle hs e

/-! ### What was sent, accepted and ordered stays so -/

structure Grow (s s' : St) : Prop where
  out : ∀ m ∈ s.tpc.out, m ∈ s'.tpc.out
  vc : ∀ x ∈ s.vc.sentVC, x ∈ s'.vc.sentVC
  nv : ∀ x ∈ s.vc.sentNV, x ∈ s'.vc.sentNV
  acc : ∀ x ∈ s.vc.accepted, x ∈ s'.vc.accepted

theorem Grow.refl (s : St) : Grow s s := ⟨fun _ h => h, fun _ h => h, fun _ h => h, fun _ h => h⟩

theorem Grow.trans {a b c : St} (h : Grow a b) (g : Grow b c) : Grow a c :=
  ⟨fun x hx => g.1 x (h.1 x hx), fun x hx => g.2 x (h.2 x hx), fun x hx => g.3 x (h.3 x hx), fun x hx => g.4 x (h.4 x hx)⟩

theorem out_step (cfg : TPC.Cfg) (r : TPC.Replica) (e : TPC.Event) (h1 : e ≠ .startCatchup) (h2 : ∀ k l, e ≠ .caughtUp k l) :
    ∀ m ∈ r.out, m ∈ (r.step cfg e).out := by
  cases e with
  | deliver m frm env =>
    cases m with
    | prePrepare pp => exact (TPC.quiet_processPrePrepare r pp frm env).keep
    | prepare p => exact (TPC.quiet_processPrepare r p frm).keep
    | commit c => exact (TPC.quiet_of (TPC.frame_processCommit r c frm) (TPC.frame2_processCommit r c frm)).keep
  | createBatch b => exact (TPC.quiet_createBatch r b).keep
  | orderStashed => exact (TPC.quiet_processOutOfOrder r).keep
  | stabilize till =>
    unfold TPC.Replica.step
    simp only
    split
    · exact fun _ h => h
    · exact fun _ h => h
  | watermarks a b => exact fun _ h => h
  | startCatchup => exact (h1 rfl).elim
  | caughtUp k l => exact (h2 k l rfl).elim
  | startViewChange v =>
    show ∀ m ∈ r.out, m ∈ (r.startViewChange v).out
    unfold TPC.Replica.startViewChange
    split
    · exact fun _ h => h
    · exact fun _ h => h
  | acceptNewView =>
    show ∀ m ∈ r.out, m ∈ (r.acceptNewView cfg).out
    unfold TPC.Replica.acceptNewView
    split
    · exact fun _ h => h
    · exact fun _ h => h
  | oldViewPP pp env => exact (TPC.quiet_oldViewPP r pp env).keep

theorem grow_closed (s0 : St) : Closed C w (Grow s0) where
  order := by
    intro s evs hp h
    refine h.trans ⟨?_, fun _ h => h, fun _ h => h, fun _ h => h⟩
    unfold St.order
    simp only
    generalize tcfg C w s = cfg
    have : ∀ (evs : List TPC.Event) (r : TPC.Replica), Plain evs →
        ∀ m ∈ r.out, m ∈ (evs.foldl (TPC.Replica.step cfg) r).out := by
      intro evs
      induction evs with
      | nil => intro r _ m hm; exact hm
      | cons e evs ih =>
        intro r hp m hm
        refine ih _ ⟨fun h => hp.1 (List.mem_cons_of_mem _ h), fun k l h => hp.2 k l (List.mem_cons_of_mem _ h)⟩ m ?_
        exact out_step cfg r e (fun h => hp.1 (by rw [← h]; exact List.mem_cons_self))
          (fun k l h => hp.2 k l (by rw [← h]; exact List.mem_cons_self)) m hm
    exact this evs _ hp
  serve := by
    intro s e h
    have g := VC.grow_step (cfg := vcfg C w) s.vc e
    exact h.trans ⟨fun _ h => h, g.vc, g.nv, g.acc⟩
  rest := fun s _ _ h => ⟨h.1, h.2, h.3, h.4⟩

theorem grow_step (s : St) (e : Event) : Grow s (s.step C w e) := (grow_closed s).step (.refl s) e

/-! ### Schedules -/

theorem mine_append (a b : Schedule) (i : Node) : mine (a ++ b) i = mine a i ++ mine b i := by
  unfold mine; rw [List.filter_append, List.map_append]

theorem node_append (a b : Schedule) (i : Node) : node C (a ++ b) i = (mine b i).foldl (St.step C i) (node C a i) := by
  unfold node run; rw [mine_append, List.foldl_append]

theorem node_snoc (a : Schedule) (i : Node) (e : Event) : node C (a ++ [(i, e)]) i = (node C a i).step C i e := by
  rw [node_append]; unfold mine; simp

theorem node_snoc_ne (a : Schedule) {i j : Node} (e : Event) (h : j ≠ i) : node C (a ++ [(j, e)]) i = node C a i := by
  rw [node_append]
  unfold mine; simp [h]

theorem node_grow (a b : Schedule) (i : Node) : Grow (node C a i) (node C (a ++ b) i) := by
  rw [node_append]
  generalize node C a i = s
  induction mine b i generalizing s with
  | nil => exact .refl s
  | cons e l ih => exact (grow_step s e).trans (ih _)

/-- Induction over the prefixes of a schedule, for one node. -/
theorem prefix_induction {σ : Schedule} {i : Node} {P : Schedule → St → Prop} (h0 : P [] {})
    (hs : ∀ pre e post, σ = pre ++ (i, e) :: post → P pre (node C pre i) → P (pre ++ [(i, e)]) ((node C pre i).step C i e))
    (hm : ∀ pre x post, σ = pre ++ x :: post → x.1 ≠ i → P pre (node C pre i) → P (pre ++ [x]) (node C pre i)) :
    ∀ pre post, σ = pre ++ post → P pre (node C pre i) := by
  intro pre
  induction pre using snoc_induction with
  | nil => intro post _; exact h0
  | snoc pre x ih =>
    intro post e
    obtain ⟨j, ev⟩ := x
    rw [List.append_assoc] at e
    have hp := ih _ e
    by_cases hj : j = i
    · subst hj
      rw [node_snoc]
      exact hs pre ev post e hp
    · rw [node_snoc_ne _ _ hj]
      exact hm pre (j, ev) post e hj hp

end Verif.Views
