import Verif.Spec.Views
import Verif.Proofs.ViewsSync
/-! Where the NEW_VIEWs and VIEW_CHANGEs come from that honest nodes use. -/
namespace Verif.Views

variable {C : Cfg} {w : Node}

/-! ### The log of the view change service -/

/-- Not a message of the view change. -/
def Inner (e : VC.Event) : Prop := (∀ nv x, e ≠ .newView nv x) ∧ ∀ vc x, e ≠ .viewChange vc x

/-- The messages `t` has beyond those of `s` are `M`. -/
def Logs (M : VC.Event → Prop) (s t : St) : Prop := ∀ e ∈ t.vlog, e ∈ s.vlog ∨ Inner e ∨ M e

theorem Logs.refl (M : VC.Event → Prop) (s : St) : Logs M s s := fun _ h => .inl h

theorem Logs.eq {M : VC.Event → Prop} {s t : St} (h : t.vlog = s.vlog) : Logs M s t := fun _ x => .inl (h ▸ x)

theorem Logs.trans {M : VC.Event → Prop} {a b c : St} (h : Logs M a b) (g : Logs M b c) : Logs M a c := by
  intro e he
  rcases g e he with x | x
  · exact h e x
  · exact .inr x

theorem Logs.serve {M : VC.Event → Prop} (s : St) (e : VC.Event) (h : Inner e ∨ M e) : Logs M s (s.serve C w e) := by
  intro x hx
  rcases List.mem_append.1 hx with hx | hx
  · exact .inl hx
  · rw [List.mem_singleton.1 hx]; exact .inr h

theorem Logs.stabilize (M : VC.Event → Prop) (s : St) (till : Nat) : Logs M s (s.stabilize C w till) := by
  unfold St.stabilize
  split
  · exact Logs.serve (C := C) (w := w) (s.order C w _) _ (.inl ⟨by simp, by simp⟩)
  · exact .refl M s

theorem Logs.takeOver (M : VC.Event → Prop) (s : St) (b : BatchID) (env : Nat → TPC.PPEnv) :
    Logs M s (s.takeOver C w b env) := by
  unfold St.takeOver
  split
  · exact .eq rfl
  · exact .eq rfl

theorem Logs.newViewAccepted (M : VC.Event → Prop) (s : St) (nv : VC.NewView) (env : Nat → TPC.PPEnv) :
    Logs M s (s.newViewAccepted C w nv env) := by
  unfold St.newViewAccepted
  simp only
  split
  · exact .eq rfl
  · refine fold_keeps (Q := Logs M s) (fun s b => s.takeOver C w b env) (fun t b ht => ht.trans (.takeOver M t b env)) _ ?_
    exact Logs.trans (b := s.order C w [.acceptNewView]) (.eq rfl) (.stabilize M _ _)

theorem Logs.viewChange (s : St) (e : VC.Event) (env : Nat → TPC.PPEnv) :
    Logs (· = e) s (s.viewChange C w e env) := by
  have h := Logs.serve (C := C) (w := w) (M := (· = e)) s e (.inr rfl)
  unfold St.viewChange
  simp only
  split
  · split
    · exact h.trans (.newViewAccepted _ _ _ env)
    · exact h
  · exact h

/-- The message of the view change in an event. -/
def Event.vmsg : Event → Option VC.Event
  | .viewChange vc frm _ => some (.viewChange vc frm)
  | .newView nv frm _ => some (.newView nv frm)
  | _ => none

theorem Logs.handle (s : St) (e : Event) : Logs (fun x => e.vmsg = some x) s (s.handle C w e) := by
  cases e with
  | msg m frm env => exact .eq rfl
  | batch b => exact .eq rfl
  | tick => exact .eq rfl
  | stable till => exact .stabilize _ s till
  | checkpoints cps => exact Logs.serve s _ (.inl ⟨by simp, by simp⟩)
  | need v =>
    show Logs _ s (s.need C w v)
    unfold St.need
    split
    · exact .refl _ s
    · exact Logs.serve (C := C) (w := w) s (.need v s.tpc.prepared s.tpc.preprepared) (.inl ⟨by simp, by simp⟩)
  | viewChange vc frm env =>
    intro x hx
    rcases Logs.viewChange s _ env x hx with h | h | h
    · exact .inl h
    · exact .inr (.inl h)
    · exact .inr (.inr (by rw [h]; rfl))
  | ack v name d frm env =>
    intro x hx
    rcases Logs.viewChange s _ env x hx with h | h | h
    · exact .inl h
    · exact .inr (.inl h)
    · exact .inr (.inl (by rw [h]; exact ⟨by simp, by simp⟩))
  | newView nv frm env =>
    intro x hx
    rcases Logs.viewChange s _ env x hx with h | h | h
    · exact .inl h
    · exact .inr (.inl h)
    · exact .inr (.inr (by rw [h]; rfl))
  | reply pps env =>
    refine fold_keeps (Q := Logs _ s) (fun s pp => s.replied C w pp env) (fun t pp ht => ht.trans ?_) pps (.refl _ s)
    unfold St.replied
    split
    · exact .eq rfl
    · exact .eq rfl
  | again b env =>
    show Logs _ s (if b ∈ s.named then s.takeOver C w b env else s)
    split
    · exact .takeOver _ s b env
    · exact .refl _ s

theorem Logs.step (s : St) (e : Event) : Logs (fun x => e.vmsg = some x) s (s.step C w e) := by
  unfold St.step
  split
  · exact .refl _ s
  · exact .handle s e

/-- A message in the log was delivered. -/
theorem logged {i : Node} (pre : Schedule) (x : VC.Event) (hx : x ∈ (node C pre i).vlog) (hi : ¬ Inner x) :
    ∃ a e b, pre = a ++ (i, e) :: b ∧ e.vmsg = some x := by
  refine prefix_induction (C := C) (σ := pre) (i := i)
    (P := fun p s => x ∈ s.vlog → ∃ a e b, p = a ++ (i, e) :: b ∧ e.vmsg = some x) (fun h => by cases h) ?_ ?_ pre []
    (List.append_nil _).symm hx
  · intro p e post _ ih h
    rcases Logs.step (C := C) (w := i) (node C p i) e x h with h | h | h
    · obtain ⟨a, e', b, h1, h2⟩ := ih h
      exact ⟨a, e', b ++ [(i, e)], by rw [h1]; simp, h2⟩
    · exact (hi h).elim
    · exact ⟨p, e, [], rfl, h⟩
  · intro p y post _ _ ih h
    obtain ⟨a, e', b, h1, h2⟩ := ih h
    exact ⟨a, e', b ++ [y], by rw [h1]; simp, h2⟩

/-! ### Delivered messages -/

variable {σ : Schedule}

/-- A NEW_VIEW delivered to an honest node. -/
theorem logged_nv (hok : Ok C σ) {i : Node} (hi : C.Honest i) {pre post : Schedule} (hs : σ = pre ++ post)
    {nv : VC.NewView} {x : Node} (hx : .newView nv x ∈ (node C pre i).vlog) :
    x < C.n ∧ ∃ a b, pre = a ++ b ∧ b ≠ [] ∧ (x ∉ C.bad → nv ∈ (node C a x).vc.sentNV ∨ (node C a x).newViewReply = some nv) := by
  obtain ⟨a, e, b, h1, h2⟩ := logged pre _ hx (fun h => h.1 nv x rfl)
  cases e <;> simp only [Event.vmsg, Option.some.injEq, reduceCtorEq, VC.Event.newView.injEq] at h2
  obtain ⟨rfl, rfl⟩ := h2
  have := hok.net a i _ (b ++ post) (by rw [hs, h1, List.append_assoc, List.cons_append]) hi
  exact ⟨this.1, a, _, h1, by simp, this.2.2⟩

/-- A VIEW_CHANGE delivered to an honest node. -/
theorem logged_vc (hok : Ok C σ) {i : Node} (hi : C.Honest i) {pre post : Schedule} (hs : σ = pre ++ post)
    {vc : VC.ViewChange} {x : Node} (hx : .viewChange vc x ∈ (node C pre i).vlog) :
    x < C.n ∧ (x ∉ C.bad → vc ∈ (node C pre x).vc.sentVC) := by
  obtain ⟨a, e, b, h1, h2⟩ := logged pre _ hx (fun h => h.2 vc x rfl)
  cases e <;> simp only [Event.vmsg, Option.some.injEq, reduceCtorEq, VC.Event.viewChange.injEq] at h2
  obtain ⟨rfl, rfl⟩ := h2
  have := hok.net a i _ (b ++ post) (by rw [hs, h1, List.append_assoc, List.cons_append]) hi
  refine ⟨this.1, fun hb => ?_⟩
  rw [h1]
  exact (node_grow a _ _).vc _ (this.2.2 hb)

theorem hasVC (hok : Ok C σ) {i : Node} (hi : C.Honest i) {vc : VC.ViewChange} {x : Node}
    (h : VC.HasVC (vcfg C i) (node C σ i).vlog (node C σ i).vc.sentVC x vc) :
    x < C.n ∧ (x ∉ C.bad → vc ∈ (node C σ x).vc.sentVC) := by
  rcases h with h | ⟨rfl, h⟩
  · exact logged_vc hok hi (List.append_nil _).symm h
  · exact ⟨hi.1, fun _ => h⟩

/-! ### NEW_VIEWs -/

/-- The same checkpoint and batches for the same view. -/
def Like (a b : VC.NewView) : Prop := a.viewNo = b.viewNo ∧ a.checkpoint = b.checkpoint ∧ a.batches = b.batches

/-- What is known of a NEW_VIEW that came from an honest node. -/
structure Known (C : Cfg) (pre : Schedule) (nv : VC.NewView) : Prop where
  tag : nv.primary = none ∨ nv.primary = some (C.primary nv.viewNo)
  sent : C.Honest (C.primary nv.viewNo) → ∃ nv' ∈ (node C pre (C.primary nv.viewNo)).vc.sentNV, Like nv nv'

theorem Known.mono {pre : Schedule} {nv : VC.NewView} (h : Known C pre nv) (b : Schedule) : Known C (pre ++ b) nv :=
  ⟨h.tag, fun hp => by
    obtain ⟨x, x1, x2⟩ := h.sent hp
    exact ⟨x, (node_grow pre b _).nv x x1, x2⟩⟩

theorem honest_in (hok : Ok C σ) {Q : List Node} (hq : Q.Nodup) (hl : C.n - getMaxFailures C.n ≤ Q.length)
    (hn : ∀ q ∈ Q, q < C.n) : ∃ q ∈ Q, C.Honest q := by
  have h3 := VC.three_f C.n hok.pos
  have hb := hok.few
  obtain ⟨q, h1, h2⟩ := mem_of_length_lt (B := C.bad) hq (by omega)
  exact ⟨q, h1, hn q h1, h2⟩

/-- Every NEW_VIEW of an honest node. -/
theorem known (hok : Ok C σ) : ∀ (k : Nat) (pre post : Schedule), pre.length = k → σ = pre ++ post →
    ∀ i, C.Honest i → ∀ nv x, VC.HasNV (vcfg C i) (node C pre i).vlog (node C pre i).vc.sentNV x nv → C.Honest x →
      Known C pre nv := by
  intro k
  induction k using Nat.strongRecOn with
  | ind k ih =>
    intro pre post hk hs i hi nv x hx hhx
    -- the NEW_VIEWs an honest node sent
    have own : ∀ (a b : Schedule), pre = a ++ b → ∀ y, C.Honest y → ∀ m ∈ (node C a y).vc.sentNV, Known C a m := by
      intro a b hab y hy m hm
      have hS := sync hok hy a (b ++ post) (by rw [hs, hab]; simp)
      have := hS.nvL m hm
      exact ⟨.inl this.2.2.2, fun _ => ⟨m, by rw [this.2.2.1]; exact hm, rfl, rfl, rfl⟩⟩
    rcases hx with hx | ⟨rfl, hx⟩
    · obtain ⟨-, a, b, hab, hb, hsend⟩ := logged_nv hok hi hs hx
      have hs' : σ = a ++ (b ++ post) := by rw [hs, hab]; simp
      have hlt : a.length < k := by
        rw [← hk, hab, List.length_append]
        have := List.length_pos_iff.2 hb
        omega
      have ihx := ih a.length hlt a _ rfl hs' x hhx
      have hS := sync hok hhx a _ hs'
      rw [hab]
      refine Known.mono ?_ b
      rcases hsend hhx.2 with hsend | hsend
      · exact own a b hab x hhx nv hsend
      · unfold St.newViewReply at hsend
        obtain ⟨nv0, hg, rfl⟩ := Option.map_eq_some_iff.1 hsend
        obtain ⟨g1, g2⟩ := hS.sinv.get' hg
        have hnz : (node C a x).vc.viewNo ≠ 0 := by
          intro h0
          rw [(hS.zero h0).2.2] at hg
          cases hg
        -- what it has of a quorum or of the primary
        have kn : ∀ m, VC.Quorumed (vcfg C x) (node C a x).vlog (node C a x).vc.sentNV m → Known C a m := by
          rintro m ⟨Q, q1, q2, q3⟩
          obtain ⟨q, q4, q5⟩ := honest_in hok q1 q2 (fun q hq => by
            rcases q3 q hq with y | ⟨y, -⟩
            · exact (logged_nv hok hhx hs' y).1
            · rw [y]; exact hhx.1)
          exact ihx m q (q3 q q4) q5
        have hpn : (node C a x).vc.primaryName = C.primary (node C a x).vc.viewNo := by
          rcases hS.pn hnz with y | ⟨-, m, m1, m2, m3⟩
          · exact y
          · rcases hS.prov m m1 with y | y
            · rcases (kn m y).tag with z | z
              · rw [m3] at z; cases z
              · rw [m3] at z; simp only [Option.some.injEq] at z
                rw [z, m2]
            · rw [m3] at y; cases y.2
        have hk0 : C.Honest (C.primary nv0.viewNo) → ∃ nv' ∈ (node C a (C.primary nv0.viewNo)).vc.sentNV, Like nv0 nv' := by
          intro hp
          rcases g2 with y | y
          · exact (kn nv0 y).sent hp
          · have hp' : C.Honest (node C a x).vc.primaryName := by rw [hpn, ← g1]; exact hp
            exact (ihx nv0 _ y.1 hp').sent hp
        exact ⟨.inr (by simp only; rw [hpn, g1]), fun hp => by
          obtain ⟨y, y1, y2⟩ := hk0 hp
          exact ⟨y, y1, y2⟩⟩
    · exact own pre [] (List.append_nil _).symm _ hi nv hx

/-- A NEW_VIEW an honest node accepted is like one the honest primary sent. -/
theorem accepted_sent (hok : Ok C σ) {i : Node} (hi : C.Honest i) {pre post : Schedule} (hs : σ = pre ++ post)
    {nv : VC.NewView} (hn : nv ∈ (node C pre i).vc.accepted) (hp : C.Honest (C.primary nv.viewNo)) :
    ∃ nv' ∈ (node C pre (C.primary nv.viewNo)).vc.sentNV, Like nv nv' := by
  have kn := known hok pre.length pre post rfl hs i hi
  rcases (sync hok hi pre post hs).prov nv hn with ⟨Q, q1, q2, q3⟩ | ⟨h, -⟩
  · obtain ⟨q, q4, q5⟩ := honest_in hok q1 q2 (fun q hq => by
      rcases q3 q hq with y | ⟨y, -⟩
      · exact (logged_nv hok hi hs y).1
      · rw [y]; exact hi.1)
    exact (kn nv q (q3 q q4) q5).sent hp
  · exact (kn nv _ h hp).sent hp

theorem pairwise_lt_unique {l : List VC.NewView} (h : l.Pairwise (fun a b => a.viewNo < b.viewNo)) {a b : VC.NewView}
    (ha : a ∈ l) (hb : b ∈ l) (e : a.viewNo = b.viewNo) : a = b := by
  induction l with
  | nil => cases ha
  | cons x l ih =>
    rw [List.pairwise_cons] at h
    rcases List.mem_cons.1 ha with ha | ha <;> rcases List.mem_cons.1 hb with hb | hb
    · rw [ha, hb]
    · have := h.1 b hb; rw [← ha] at this; omega
    · have := h.1 a ha; rw [← hb] at this; omega
    · exact ih h.2 ha hb

/-- Honest nodes take over the same batches in a view with an honest primary. -/
theorem accepted_like (hok : Ok C σ) {i j : Node} (hi : C.Honest i) (hj : C.Honest j) {a b : VC.NewView}
    (ha : a ∈ (node C σ i).vc.accepted) (hb : b ∈ (node C σ j).vc.accepted) (e : a.viewNo = b.viewNo)
    (hp : C.Honest (C.primary a.viewNo)) : Like a b := by
  obtain ⟨x, x1, x2⟩ := accepted_sent hok hi (List.append_nil _).symm ha hp
  obtain ⟨y, y1, y2⟩ := accepted_sent hok hj (List.append_nil _).symm hb (e ▸ hp)
  rw [← e] at y1
  have hS := sync hok hp σ [] (List.append_nil _).symm
  have := pairwise_lt_unique hS.nvI x1 y1 (by rw [← x2.1, ← y2.1]; exact e)
  subst this
  exact ⟨e, x2.2.1.trans y2.2.1.symm, x2.2.2.trans y2.2.2.symm⟩

/-- What the batches and the checkpoint of a NEW_VIEW were computed from: at
least `n - f` VIEW_CHANGEs of distinct nodes, those of honest nodes as they sent
them. -/
def NvOk (C : Cfg) (σ : Schedule) (nv : VC.NewView) : Prop :=
  ∃ nvs : List (Node × VC.ViewChange), (nvs.map Prod.fst).Nodup ∧
    (∀ e ∈ nvs, e.2.viewNo = nv.viewNo ∧ e.1 < C.n ∧ (e.1 ∉ C.bad → e.2 ∈ (node C σ e.1).vc.sentVC)) ∧
    VC.calcCheckpoint (Quorums.ofN C.n) (nvs.map Prod.snd) = some nv.checkpoint ∧
    VC.calcBatches (Quorums.ofN C.n) logSize nv.checkpoint (nvs.map Prod.snd) = some nv.batches

theorem nvOk (hok : Ok C σ) (hd : Distinct C σ) {i : Node} (hi : C.Honest i) {nv : VC.NewView}
    (hn : nv ∈ (node C σ i).vc.accepted) : NvOk C σ nv := by
  have hS := (sync hok hi σ [] (List.append_nil _).symm).sinv
  have key : ∀ m : VC.NewView, VC.Justified (vcfg C i) (node C σ i).vlog (node C σ i).vc.sentVC m →
      (m.viewChanges.map Prod.fst).Nodup → NvOk C σ m := by
    rintro m ⟨nvs, j1, j2, j3, j4⟩ hm
    exact ⟨nvs, j1.symm.nodup hm, fun e he => ⟨(j2 e he).1, hasVC hok hi (j2 e he).2⟩, j3, j4⟩
  rcases hS.acc nv hn with h | ⟨h, -⟩
  · exact key nv h (hd i hi nv hn)
  · have hp : C.Honest (C.primary nv.viewNo) := by
      have : C.primary nv.viewNo = i := h
      rw [this]; exact hi
    obtain ⟨x, x1, x2⟩ := accepted_sent hok hi (List.append_nil _).symm hn hp
    have hx : x ∈ (node C σ i).vc.sentNV := by
      have : C.primary nv.viewNo = i := h
      rw [this] at x1; exact x1
    have := hS.sentNV x hx
    obtain ⟨nvs, y1, y2, y3, y4⟩ := key x this.1 this.2
    refine ⟨nvs, y1, fun e he => ⟨(y2 e he).1.trans x2.1.symm, (y2 e he).2⟩, ?_, ?_⟩
    · rw [x2.2.1]; exact y3
    · rw [x2.2.1, x2.2.2]; exact y4

end Verif.Views
