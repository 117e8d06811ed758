import Verif.Proofs.Views
/-! What the two services of a node agree on, and where the NEW_VIEWs it accepts come from. -/
namespace Verif.Views

variable (C : Cfg) (w : Node)

/-- The view change service and its agreement with the ordering service on the
view and the stable checkpoint. -/
structure Sync0 (s : St) : Prop where
  run : s.vc = VC.run (vcfg C w) s.vlog
  self : ∀ nv, .newView nv w ∉ s.vlog
  view : s.tpc.view = s.vc.viewNo
  st : s.tpc.stable = s.vc.stableCheckpoint
  accI : s.vc.accepted.Pairwise (fun a b => a.viewNo < b.viewNo)
  accL : ∀ nv ∈ s.vc.accepted, 0 < nv.viewNo ∧ nv.viewNo ≤ s.vc.viewNo ∧ (s.vc.waiting = true → nv.viewNo < s.vc.viewNo)
  cur : s.vc.waiting = false → s.vc.viewNo ≠ 0 → ∃ nv, s.vc.accepted.getLast? = some nv ∧ nv.viewNo = s.vc.viewNo ∧
    s.vc.prevViewPrepareCert = nv.cert
  zero : s.vc.viewNo = 0 → s.vc.waiting = false ∧ s.vc.prevViewPrepareCert = 0 ∧ s.vc.newViews = {}
  nvI : s.vc.sentNV.Pairwise (fun a b => a.viewNo < b.viewNo)
  nvL : ∀ nv ∈ s.vc.sentNV, nv.viewNo ≤ s.vc.viewNo ∧
    (s.vc.waiting = true → s.vc.crashed = false → nv.viewNo < s.vc.viewNo) ∧ C.primary nv.viewNo = w ∧ nv.primary = none
  pn : s.vc.viewNo ≠ 0 → s.vc.primaryName = C.primary s.vc.viewNo ∨
    (s.vc.waiting = false ∧ ∃ nv ∈ s.vc.accepted, nv.viewNo = s.vc.viewNo ∧ nv.primary = some s.vc.primaryName)
  prov : ∀ nv ∈ s.vc.accepted, VC.Prov (vcfg C w) s.vlog s.vc.sentNV (C.primary nv.viewNo) nv

structure Sync (s : St) : Prop extends Sync0 C w s where
  wt : s.tpc.waiting = s.vc.waiting
  pc : s.tpc.prevCert = s.vc.prevViewPrepareCert

variable {C w}

theorem Sync0.sinv {s : St} (h : Sync0 C w s) : VC.SInv (vcfg C w) s.vlog s.vc := by
  rw [h.run]; exact VC.SInv.run s.vlog h.self

theorem prov_mono {evs evs' : List VC.Event} {a b : List VC.NewView} (h1 : ∀ x ∈ evs, x ∈ evs') (h2 : ∀ x ∈ a, x ∈ b)
    {cfg p nv} (h : VC.Prov cfg evs a p nv) : VC.Prov cfg evs' b p nv :=
  h.imp (fun x => x.mono h1 h2) (fun x => ⟨x.1.mono h1 h2, x.2⟩)

theorem Sync0.init : Sync0 C w {} where
  run := rfl
  self := by simp
  view := rfl
  st := rfl
  accI := .nil
  accL := by simp
  cur := fun _ h => (h rfl).elim
  zero := fun _ => ⟨rfl, rfl, rfl⟩
  nvI := .nil
  nvL := by simp
  pn := fun h => (h rfl).elim
  prov := by simp

theorem Sync.init : Sync C w {} := ⟨.init, rfl, rfl⟩

/-! ### The ordering service -/

/-- The ordering service handled something quietly. -/
theorem Sync0.quiet {s : St} (h : Sync0 C w s) {evs : List TPC.Event} (q : TPC.Quiet s.tpc (s.order C w evs).tpc) :
    Sync0 C w (s.order C w evs) :=
  { h with view := q.view.trans h.view, st := q.stable.trans h.st }

theorem Sync.quiet {s : St} (h : Sync C w s) {evs : List TPC.Event} (q : TPC.Quiet s.tpc (s.order C w evs).tpc) :
    Sync C w (s.order C w evs) :=
  ⟨h.toSync0.quiet q, q.waiting.trans h.wt, q.prevCert.trans h.pc⟩

theorem quiet_msg (s : St) (m : TPC.Msg) (frm : Node) (env : TPC.PPEnv) :
    TPC.Quiet s.tpc (s.order C w [.deliver m frm env]).tpc := by
  cases m with
  | prePrepare pp => exact TPC.quiet_processPrePrepare s.tpc pp frm env
  | prepare p => exact TPC.quiet_processPrepare s.tpc p frm
  | commit c => exact TPC.quiet_of (TPC.frame_processCommit s.tpc c frm) (TPC.frame2_processCommit s.tpc c frm)

theorem Sync.rest {s : St} (h : Sync C w s) (old : Dict OldKey TPC.PrePrepare) (asked : List BatchID) :
    Sync C w { s with old := old, asked := asked } := { h with }

theorem Sync.takeOver {s : St} (h : Sync C w s) (b : BatchID) (env : Nat → TPC.PPEnv) : Sync C w (s.takeOver C w b env) := by
  unfold St.takeOver
  split
  · exact h.quiet (TPC.quiet_oldViewPP s.tpc _ _)
  · exact h.rest _ _

theorem Sync.replied {s : St} (h : Sync C w s) (pp : TPC.PrePrepare) (env : Nat → TPC.PPEnv) :
    Sync C w (s.replied C w pp env) := by
  unfold St.replied
  split
  · exact h.quiet (TPC.quiet_oldViewPP s.tpc _ _)
  · exact h

theorem vc_run_snoc {s : St} (h : s.vc = VC.run (vcfg C w) s.vlog) (e : VC.Event) :
    s.vc.step (vcfg C w) e = VC.run (vcfg C w) (s.vlog ++ [e]) := by
  unfold VC.run
  rw [List.foldl_append, h]; rfl

/-- Serving `shared`. -/
theorem Sync.shared {s : St} (h : Sync C w s) (hc : s.vc.crashed = false) (cps : List VC.Checkpoint) :
    Sync C w (s.serve C w (.shared true s.vc.stableCheckpoint cps)) := by
  have e : s.vc.step (vcfg C w) (.shared true s.vc.stableCheckpoint cps) =
      { s.vc with participating := true, checkpoints := cps } := by
    unfold VC.Service.step; rw [hc]; rfl
  have hr := vc_run_snoc h.run (.shared true s.vc.stableCheckpoint cps)
  unfold St.serve
  rw [e] at hr ⊢
  exact { h with
    run := hr
    self := by intro nv hn; simp at hn; exact h.self nv hn
    prov := fun nv hn => prov_mono (fun _ h => List.mem_append_left _ h) (fun _ h => h) (h.prov nv hn) }

theorem stabilize_tpc (s : St) {till : Nat} (hg : s.tpc.stable ≤ till ∧ till ≤ s.tpc.lastOrdered.2) :
    (s.stabilize C w till).tpc = { s.tpc.dropKeys (fun k => k.2 ≤ till) with
      ordered := s.tpc.ordered.filter (fun k => !(k.1 < s.tpc.view - 1)), stable := till, lowWM := till, highWM := till + 300 } := by
  unfold St.stabilize
  rw [if_pos hg]
  simp only [St.serve, St.order, List.foldl_cons, List.foldl_nil, TPC.Replica.step]
  rw [if_pos hg]
  rfl

theorem stabilize_vc (s : St) {till : Nat} (hg : s.tpc.stable ≤ till ∧ till ≤ s.tpc.lastOrdered.2) (hc : s.vc.crashed = false) :
    (s.stabilize C w till).vc = { s.vc with participating := true, stableCheckpoint := till } ∧
    (s.stabilize C w till).vlog = s.vlog ++ [.shared true till s.vc.checkpoints] := by
  unfold St.stabilize
  rw [if_pos hg]
  refine ⟨?_, rfl⟩
  show s.vc.step (vcfg C w) (.shared true till s.vc.checkpoints) = _
  unfold VC.Service.step; rw [hc]; rfl

theorem stabilize_skip (s : St) {till : Nat} (hg : ¬ (s.tpc.stable ≤ till ∧ till ≤ s.tpc.lastOrdered.2)) :
    s.stabilize C w till = s := by
  unfold St.stabilize; rw [if_neg hg]

theorem Sync.stabilize {s : St} (h : Sync C w s) (hc : s.vc.crashed = false) (till : Nat) :
    Sync C w (s.stabilize C w till) := by
  by_cases hg : s.tpc.stable ≤ till ∧ till ≤ s.tpc.lastOrdered.2
  · have e1 := stabilize_tpc (C := C) (w := w) s hg
    obtain ⟨e2, e3⟩ := stabilize_vc (C := C) (w := w) s hg hc
    have hr : (s.stabilize C w till).vc = VC.run (vcfg C w) (s.stabilize C w till).vlog := by
      rw [e3, ← vc_run_snoc h.run, e2]
      unfold VC.Service.step; rw [hc]; rfl
    generalize s.stabilize C w till = t at *
    obtain ⟨tpc, vc, old, asked, tlog, vlog⟩ := t
    simp only at e1 e2 e3 hr
    exact {
      run := hr
      self := by intro nv hn; simp only [e3] at hn; simp at hn; exact h.self nv hn
      view := by simp only [e1, e2]; exact h.view
      st := by simp only [e1, e2]
      accI := by simp only [e2]; exact h.accI
      accL := by simp only [e2]; exact h.accL
      cur := by simp only [e2]; exact h.cur
      zero := by simp only [e2]; exact h.zero
      nvI := by simp only [e2]; exact h.nvI
      nvL := by simp only [e2]; exact h.nvL
      pn := by simp only [e2]; exact h.pn
      prov := by
        simp only [e2, e3]
        exact fun nv hn => prov_mono (fun _ h => List.mem_append_left _ h) (fun _ h => h) (h.prov nv hn)
      wt := by simp only [e1, e2]; exact h.wt
      pc := by simp only [e1, e2]; exact h.pc }
  · rw [stabilize_skip s hg]; exact h

theorem stabilize_crashed (s : St) (till : Nat) : (s.stabilize C w till).vc.crashed = s.vc.crashed := by
  cases hc : s.vc.crashed with
  | true =>
    unfold St.stabilize
    split
    · simp only [St.serve, St.order, VC.Service.step, hc, if_true]
    · exact hc
  | false =>
    by_cases hg : s.tpc.stable ≤ till ∧ till ≤ s.tpc.lastOrdered.2
    · rw [(stabilize_vc s hg hc).1]; exact hc
    · rw [stabilize_skip s hg]; exact hc

/-- After the view change service finished a view change. -/
theorem Sync0.newViewAccepted {s : St} (h : Sync0 C w s) (hc : s.vc.crashed = false) (h1 : s.tpc.waiting = true)
    (h2 : s.vc.waiting = false) (nv : VC.NewView) (env : Nat → TPC.PPEnv) : Sync C w (s.newViewAccepted C w nv env) := by
  unfold St.newViewAccepted
  have e : s.tpc.acceptNewView (tcfg C w s) = { s.tpc with waiting := false, prevCert := s.vc.prevViewPrepareCert } := by
    unfold TPC.Replica.acceptNewView; rw [if_pos h1]; rfl
  have h3 : Sync C w (s.order C w [.acceptNewView]) := by
    unfold St.order
    simp only [List.foldl_cons, List.foldl_nil, TPC.Replica.step]
    rw [e]
    exact { h with wt := h2.symm, pc := rfl }
  simp only
  split
  · exact h3
  · exact fold_keeps (Q := Sync C w) (fun s b => s.takeOver C w b env) (fun s b hs => hs.takeOver b env) _ (h3.stabilize hc _)

/-! ### Messages of the view change -/

theorem Sync.serve {s : St} (h : Sync C w s) (hc : s.vc.crashed = false) (e : VC.Event)
    (h1 : ∀ v p pp, e ≠ .need v p pp) (h2 : ∀ a b c, e ≠ .shared a b c) (h3 : ∀ nv, e ≠ .newView nv w) :
    ((s.serve C w e).vc.accepted = s.vc.accepted ∧ Sync C w (s.serve C w e)) ∨
    (∃ nv, (s.serve C w e).vc.accepted = s.vc.accepted ++ [nv] ∧ (s.serve C w e).vc.waiting = false ∧
      (s.serve C w e).vc.crashed = false ∧ s.tpc.waiting = true ∧ Sync0 C w (s.serve C w e)) := by
  have hself : ∀ nv, VC.Event.newView nv w ∉ s.vlog ++ [e] := by
    intro nv hn
    rcases List.mem_append.1 hn with hn | hn
    · exact h.self nv hn
    · exact h3 nv (List.mem_singleton.1 hn).symm
  have hsub : ∀ x ∈ s.vlog, x ∈ s.vlog ++ [e] := fun _ h => List.mem_append_left _ h
  have heff := VC.effect (h.sinv.mono hsub) hself e (by simp) h1 h2
  have hstep : s.vc.step (vcfg C w) e = s.vc.handle (vcfg C w) e := by
    unfold VC.Service.step; rw [hc]; rfl
  have hr := vc_run_snoc h.run e
  rw [hstep] at hr
  have hz : s.vc.viewNo = 0 → s.vc.handle (vcfg C w) e = s.vc := by
    intro h0
    have hn := VC.handle_not_waiting (cfg := vcfg C w) (h.zero h0).1
    cases e with
    | need v p pp => exact (h1 v p pp rfl).elim
    | shared a b c => exact (h2 a b c rfl).elim
    | viewChange vc frm => exact hn.1 vc frm
    | ack v nm d frm => exact hn.2.1 v nm d frm
    | newView nv frm => exact hn.2.2 nv frm
  unfold St.serve
  rw [hstep]
  generalize s.vc.handle (vcfg C w) e = v' at *
  cases heff with
  | quiet same wt acc sent pn pc cr =>
    refine .inl ⟨acc, ?_⟩
    exact {
      run := hr
      self := hself
      view := h.view.trans same.viewNo.symm
      st := h.st.trans same.stable.symm
      accI := by simp only [acc]; exact h.accI
      accL := by simp only [acc, same.viewNo, wt]; exact h.accL
      cur := by simp only [acc, same.viewNo, wt, pc]; exact h.cur
      zero := by
        intro h0
        simp only [same.viewNo] at h0
        simp only [hz h0]
        exact h.zero h0
      nvI := by simp only [sent]; exact h.nvI
      nvL := by simp only [sent, same.viewNo, wt, cr]; exact h.nvL
      pn := by simp only [same.viewNo, pn, wt, acc]; exact h.pn
      prov := by
        simp only [acc, sent]
        exact fun nv hn => prov_mono hsub (fun _ h => h) (h.prov nv hn)
      wt := h.wt.trans wt.symm
      pc := h.pc.trans pc.symm }
  | stopped same wt0 wt acc pn pc cr sent =>
    refine .inl ⟨acc, ?_⟩
    have hnz : s.vc.viewNo ≠ 0 := fun h0 => by rw [(h.zero h0).1] at wt0; cases wt0
    have hpn : s.vc.primaryName = C.primary s.vc.viewNo := by
      rcases h.pn hnz with x | ⟨x, -⟩
      · exact x
      · rw [wt0] at x; cases x
    have hsn : ∀ x ∈ s.vc.sentNV, x ∈ v'.sentNV := by
      intro x hx
      rcases sent with sent | ⟨y, sent, -⟩
      · rw [sent]; exact hx
      · rw [sent]; exact List.mem_append_left _ hx
    exact {
      run := hr
      self := hself
      view := h.view.trans same.viewNo.symm
      st := h.st.trans same.stable.symm
      accI := by simp only [acc]; exact h.accI
      accL := by
        intro nv hn
        simp only [acc] at hn
        simp only [same.viewNo]
        exact ⟨(h.accL nv hn).1, (h.accL nv hn).2.1, fun _ => (h.accL nv hn).2.2 wt0⟩
      cur := by intro x; simp only [wt] at x; cases x
      zero := by intro h0; simp only [same.viewNo] at h0; exact (hnz h0).elim
      nvI := by
        rcases sent with sent | ⟨y, sent, sv, -⟩
        · simp only [sent]; exact h.nvI
        · simp only [sent]
          rw [List.pairwise_append]
          refine ⟨h.nvI, by simp, fun a ha b hb => ?_⟩
          rw [List.mem_singleton.1 hb, sv]
          exact (h.nvL a ha).2.1 wt0 hc
      nvL := by
        intro nv hn
        refine (?_ : nv.viewNo ≤ s.vc.viewNo ∧ C.primary nv.viewNo = w ∧ nv.primary = none) |> fun x =>
          ⟨by simp only [same.viewNo]; exact x.1, (fun _ y => by rw [cr] at y; cases y), x.2⟩
        rcases sent with sent | ⟨y, sent, sv, sp, sn⟩
        · simp only [sent] at hn
          exact ⟨(h.nvL nv hn).1, (h.nvL nv hn).2.2⟩
        · simp only [sent] at hn
          rcases List.mem_append.1 hn with hn | hn
          · exact ⟨(h.nvL nv hn).1, (h.nvL nv hn).2.2⟩
          · rw [List.mem_singleton.1 hn, sv]
            exact ⟨Nat.le_refl _, hpn.symm.trans sp, sn⟩
      pn := by intro _; simp only [pn, same.viewNo]; exact .inl hpn
      prov := by
        simp only [acc]
        exact fun nv hn => prov_mono hsub hsn (h.prov nv hn)
      wt := h.wt.trans (wt0.trans wt.symm)
      pc := h.pc.trans pc.symm }
  | finished nv0 same wt0 wt acc view pc pn cr sent prov =>
    have hnz : s.vc.viewNo ≠ 0 := fun h0 => by rw [(h.zero h0).1] at wt0; cases wt0
    have hpn : s.vc.primaryName = C.primary s.vc.viewNo := by
      rcases h.pn hnz with x | ⟨x, -⟩
      · exact x
      · rw [wt0] at x; cases x
    have hsn : ∀ x ∈ s.vc.sentNV, x ∈ v'.sentNV := by
      intro x hx
      rcases sent with sent | ⟨y, sent, -⟩
      · rw [sent]; exact hx
      · rw [sent]; exact List.mem_append_left _ hx
    refine .inr ⟨nv0, acc, wt, cr.trans hc, h.wt.trans wt0, ?_⟩
    exact {
      run := hr
      self := hself
      view := h.view.trans same.viewNo.symm
      st := h.st.trans same.stable.symm
      accI := by
        simp only [acc]
        rw [List.pairwise_append]
        refine ⟨h.accI, by simp, fun a ha b hb => ?_⟩
        rw [List.mem_singleton.1 hb, view]
        exact (h.accL a ha).2.2 wt0
      accL := by
        intro nv hn
        simp only [acc] at hn
        simp only [same.viewNo, wt]
        rcases List.mem_append.1 hn with hn | hn
        · exact ⟨(h.accL nv hn).1, (h.accL nv hn).2.1, by intro x; cases x⟩
        · rw [List.mem_singleton.1 hn, view]
          exact ⟨Nat.pos_of_ne_zero hnz, Nat.le_refl _, by intro x; cases x⟩
      cur := by
        intro _ _
        exact ⟨nv0, by simp only [acc]; simp, by simp only [same.viewNo]; exact view, pc⟩
      zero := by intro h0; simp only [same.viewNo] at h0; exact (hnz h0).elim
      nvI := by
        rcases sent with sent | ⟨y, sent, sv, -⟩
        · simp only [sent]; exact h.nvI
        · simp only [sent]
          rw [List.pairwise_append]
          refine ⟨h.nvI, by simp, fun a ha b hb => ?_⟩
          rw [List.mem_singleton.1 hb, sv]
          exact (h.nvL a ha).2.1 wt0 hc
      nvL := by
        intro nv hn
        refine (?_ : nv.viewNo ≤ s.vc.viewNo ∧ C.primary nv.viewNo = w ∧ nv.primary = none) |> fun x =>
          ⟨by simp only [same.viewNo]; exact x.1, (fun y _ => by rw [wt] at y; cases y), x.2⟩
        rcases sent with sent | ⟨y, sent, sv, sp, sn⟩
        · simp only [sent] at hn
          exact ⟨(h.nvL nv hn).1, (h.nvL nv hn).2.2⟩
        · simp only [sent] at hn
          rcases List.mem_append.1 hn with hn | hn
          · exact ⟨(h.nvL nv hn).1, (h.nvL nv hn).2.2⟩
          · rw [List.mem_singleton.1 hn, sv]
            exact ⟨Nat.le_refl _, hpn.symm.trans sp, sn⟩
      pn := by
        intro _
        simp only [pn, same.viewNo]
        cases hp : nv0.primary with
        | none => exact .inl hpn
        | some p => exact .inr ⟨wt, nv0, by simp only [acc]; simp, view, hp⟩
      prov := by
        intro nv hn
        simp only [acc] at hn
        rcases List.mem_append.1 hn with hn | hn
        · exact prov_mono hsub hsn (h.prov nv hn)
        · rw [List.mem_singleton.1 hn, view, ← hpn]; exact prov }

theorem Sync.viewChange {s : St} (h : Sync C w s) (hc : s.vc.crashed = false) (e : VC.Event)
    (h1 : ∀ v p pp, e ≠ .need v p pp) (h2 : ∀ a b c, e ≠ .shared a b c) (h3 : ∀ nv, e ≠ .newView nv w)
    (env : Nat → TPC.PPEnv) : Sync C w (s.viewChange C w e env) := by
  unfold St.viewChange
  simp only
  rcases h.serve hc e h1 h2 h3 with ⟨a, b⟩ | ⟨nv, a, b, c, d, f⟩
  · rw [a, if_neg (Nat.lt_irrefl _)]; exact b
  · rw [a, if_pos (by simp)]
    simp only [List.getLast?_append, List.getLast?_singleton, Option.some_or]
    exact f.newViewAccepted c d b nv env

theorem Sync.need {s : St} (h : Sync C w s) (hc : s.vc.crashed = false) (v : Nat) : Sync C w (s.need C w v) := by
  unfold St.need
  split
  · exact h
  · next hv =>
    have hv' : ¬ v < s.vc.viewNo := by rw [← h.view]; omega
    have hlt : s.vc.viewNo < v := by rw [← h.view]; omega
    have e1 : s.vc.step (vcfg C w) (.need v s.tpc.prepared s.tpc.preprepared) =
        s.vc.needViewChange (vcfg C w) v s.tpc.prepared s.tpc.preprepared := by
      unfold VC.Service.step VC.Service.handle
      rw [hc]
      simp only [Bool.false_eq_true, if_false, if_neg hv']
    have hr := vc_run_snoc h.run (.need v s.tpc.prepared s.tpc.preprepared)
    have hsub : ∀ x ∈ s.vlog, x ∈ s.vlog ++ [VC.Event.need v s.tpc.prepared s.tpc.preprepared] :=
      fun _ h => List.mem_append_left _ h
    simp only [St.serve, St.order, List.foldl_cons, List.foldl_nil, TPC.Replica.step]
    unfold TPC.Replica.startViewChange
    simp only [if_neg hv, TPC.Replica.revertUnordered]
    rw [e1] at hr ⊢
    unfold VC.Service.needViewChange VC.Service.buildViewChange at hr ⊢
    exact {
      run := hr
      self := by intro nv hn; simp at hn; exact h.self nv hn
      view := rfl
      st := h.st
      accI := h.accI
      accL := fun nv hn => by
        have := h.accL nv hn
        exact ⟨this.1, by simp only; omega, fun _ => by simp only; omega⟩
      cur := by intro x; cases x
      zero := by intro h0; simp only at h0; omega
      nvI := h.nvI
      nvL := fun nv hn => by
        have := h.nvL nv hn
        exact ⟨by simp only; omega, fun _ _ => by simp only; omega, this.2.2⟩
      pn := fun _ => .inl rfl
      prov := fun nv hn => prov_mono hsub (fun _ h => h) (h.prov nv hn)
      wt := rfl
      pc := h.pc }

theorem Sync.handle {s : St} (h : Sync C w s) (hc : s.vc.crashed = false) (e : Event)
    (he : ∀ nv env, e ≠ .newView nv w env) : Sync C w (s.handle C w e) := by
  cases e with
  | msg m frm env => exact h.quiet (quiet_msg s m frm env)
  | batch b => exact h.quiet (TPC.quiet_createBatch s.tpc b)
  | tick => exact h.quiet (TPC.quiet_processOutOfOrder s.tpc)
  | stable till => exact h.stabilize hc till
  | checkpoints cps => exact h.shared hc cps
  | need v => exact h.need hc v
  | viewChange vc frm env => exact h.viewChange hc _ (by simp) (by simp) (by simp) env
  | ack v name d frm env => exact h.viewChange hc _ (by simp) (by simp) (by simp) env
  | newView nv frm env =>
    refine h.viewChange hc _ (by simp) (by simp) ?_ env
    intro nv' hn
    simp only [VC.Event.newView.injEq] at hn
    rw [hn.2] at he
    exact he nv env rfl
  | reply pps env =>
    exact fold_keeps (Q := Sync C w) (fun s pp => s.replied C w pp env) (fun s pp hs => hs.replied pp env) pps h
  | again b env =>
    show Sync C w (if b ∈ s.named then s.takeOver C w b env else s)
    split
    · exact h.takeOver b env
    · exact h

theorem Sync.step {s : St} (h : Sync C w s) (e : Event) (he : ∀ nv env, e ≠ .newView nv w env) :
    Sync C w (s.step C w e) := by
  unfold St.step
  split
  · exact h
  · next hc => exact h.handle (by simpa using hc) e he

theorem sync {σ : Schedule} (hok : Ok C σ) {i : Node} (hi : C.Honest i) :
    ∀ pre post, σ = pre ++ post → Sync C i (node C pre i) := by
  refine prefix_induction (P := fun _ s => Sync C i s) Sync.init ?_ (fun _ _ _ _ _ h => h)
  intro pre e post hs h
  refine h.step e ?_
  rintro nv env rfl
  exact (hok.net pre i _ post hs hi).2.1 rfl

end Verif.Views
