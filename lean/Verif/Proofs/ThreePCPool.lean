import Verif.Proofs.ThreePCProgress
import Verif.Props.ThreePC
/-!
# Progress of a pool
-/
namespace Verif.TPC

open Verif.Props

variable {P : Pool} {v base s : Nat} {L : List Node} {pp : Nat → PrePrepare}

theorem Pool.Ok.cq (ok : P.Ok) (i : Node) : 0 < (P.cfg i).cq := by
  have := ok.pos
  show 0 < P.n - getMaxFailures P.n
  unfold getMaxFailures
  split <;> omega

section node

variable (ok : P.Ok) (hw : P.Works v base s L pp)
include ok hw

theorem Pool.Works.inv {i : Node} (hi : i ∈ L) {a b : List Event} (he : P.hist i = a ++ b) :
    Inv (P.cfg i) (Delivered (P.hist i)) (run (P.cfg i) a) := by
  have hh := hw.honest i hi
  have := Inv.run (cfg := P.cfg i) (ok.cert0 i hh) a
    (fun w m hd => (ok.net i hh w m (by rw [he]; exact hd.append)).2.1)
  exact this.mono fun w m h => by rw [he]; exact h.append

theorem Pool.Works.li {i : Node} (hi : i ∈ L) {a b : List Event} (he : P.hist i = a ++ b) :
    LI (P.cfg i) v (fun _ => False) (run (P.cfg i) a) := by
  have hc : Caught (P.cfg i) v (P.hist i) := hw.caught i hi
  exact LI.run (ok.cq i) a (hc.prefix he)

theorem Pool.Works.outi {i : Node} (hi : i ∈ L) {a b : List Event} (he : P.hist i = a ++ b) :
    OutI (P.cfg i) (Delivered (P.hist i)) (run (P.cfg i) a) := by
  have hh := hw.honest i hi
  have hc : Caught (P.cfg i) v (P.hist i) := hw.caught i hi
  have := OutI.run (cfg := P.cfg i) (v := v) (ok.cert0 i hh) (ok.cq i) a
    (fun w m hd => (ok.net i hh w m (by rw [he]; exact hd.append)).2.1) (hc.prefix he)
  exact this.mono fun w m h => by rw [he]; exact h.append

/-- A PRE-PREPARE of the primary is the one of its number. -/
theorem Pool.Works.unique {t : Nat} (h1 : base < t) (h2 : t ≤ s) {q : PrePrepare} (hq : q.key = (v, t))
    (hs : .prePrepare q ∈ P.sent (P.primary v)) : q = pp t := by
  have hp := hw.honest _ hw.primary
  obtain ⟨m1, m2⟩ := hw.made t h1 h2
  exact (inv_node ok hp).ppu q (pp t) hs m2 (hq.trans m1.symm)

/-- The PRE-PREPARE held for a number is the one of the primary. -/
theorem Pool.Works.held {i : Node} (hi : i ∈ L) {a b : List Event} (he : P.hist i = a ++ b) {t : Nat} (h1 : base < t) (h2 : t ≤ s)
    {q : PrePrepare} (hq : (run (P.cfg i) a).getPP (v, t) = some q) : q = pp t ∧ (run (P.cfg i) a).view = v := by
  have hh := hw.honest i hi
  have iv := hw.inv ok hi he
  have hheld : Held (run (P.cfg i) a) (v, t) := ⟨q, hq⟩
  have hview : v = (run (P.cfg i) a).view :=
    iv.kv (v, t) (((held_iff _ _).1 hheld).imp id .inl)
  have hf : (P.cfg i).top (run (P.cfg i) a).view < t := by
    rw [← hview]
    have : (P.cfg i).top v ≤ base := hw.fresh i hh
    omega
  refine ⟨?_, hview.symm⟩
  have hcases : (run (P.cfg i) a).sentPP.get? (v, t) = some q ∨ (run (P.cfg i) a).recvPP.get? (v, t) = some q := by
    unfold Replica.getPP at hq
    cases hx : (run (P.cfg i) a).sentPP.get? (v, t) with
    | none => rw [hx] at hq; exact .inr (by simpa using hq)
    | some y => rw [hx] at hq; exact .inl (by simpa using hq)
  have hk := iv.ppk _ _ hcases
  rcases hcases with hx | hx
  · obtain ⟨p1, p2⟩ := iv.pps _ _ hx hf
    have hpi : P.primary v = i := p1
    refine hw.unique ok h1 h2 hk ?_
    rw [hpi]
    show _ ∈ (run (P.cfg i) (P.hist i)).out
    rw [he]; exact run_out a b _ p2
  · obtain ⟨p1, p2⟩ := iv.ppr _ _ hx hf
    refine hw.unique ok h1 h2 hk ?_
    exact (ok.net i hh _ _ p2).2.2 (hw.honest _ hw.primary).2

theorem Pool.Works.lo {i : Node} (hi : i ∈ L) {a b c : List Event} (he : P.hist i = (a ++ b) ++ c) :
    (run (P.cfg i) a).lastOrdered.2 ≤ (run (P.cfg i) (a ++ b)).lastOrdered.2 := by
  have hc : Caught (P.cfg i) v (P.hist i) := hw.caught i hi
  exact lo_mono (ok.cq i) a b (hc.prefix he)

omit ok in
theorem Pool.Works.view {i : Node} (hi : i ∈ L) {a b : List Event} (he : P.hist i = a ++ b) : (run (P.cfg i) a).view ≤ v := by
  have := view_mono (cfg := P.cfg i) a b
  rw [← he] at this
  have h2 : (run (P.cfg i) (P.hist i)).view = v := (hw.inView i hi).1
  omega

omit ok in
/-- From a moment in view `v` to a later one. -/
theorem Pool.Works.lasts (Q : Replica → Prop) {i : Node} (hi : i ∈ L) {a b c : List Event} (he : P.hist i = (a ++ b) ++ c)
    (hv : (run (P.cfg i) a).view = v)
    (hstep : ∀ x e y, P.hist i = (x ++ [e]) ++ y → (run (P.cfg i) x).view = v →
      ((run (P.cfg i) x).step (P.cfg i) e).view = (run (P.cfg i) x).view → Q (run (P.cfg i) x) →
        Q ((run (P.cfg i) x).step (P.cfg i) e))
    (h : Q (run (P.cfg i) a)) : Q (run (P.cfg i) (a ++ b)) ∧ (run (P.cfg i) (a ++ b)).view = v := by
  have h1 := hw.view hi (a := a ++ b) (b := c) he
  have h2 := view_mono (cfg := P.cfg i) a b
  have hab : (run (P.cfg i) (a ++ b)).view = v := by omega
  refine ⟨?_, hab⟩
  refine Verif.TPC.lasts Q rfl (hab.trans hv.symm) ?_ h
  intro x e y hx hxv hev hq
  rw [run_snoc] at hev ⊢
  exact hstep x e (y ++ c) (by rw [he, hx]; simp) (hxv.trans hab) hev hq

/-! ### PRE-PREPAREs -/

/-- Pre-prepared in view `v`, or ordered. -/
def Got (v : Nat) (r : Replica) (t : Nat) : Prop := t ≤ r.lastOrdered.2 ∨ (r.view = v ∧ HeldOr r (v, t))

omit ok hw in
theorem Got.heldOr {r : Replica} {t : Nat} (h : Got v r t) : HeldOr r (v, t) := h.elim .inr And.right

theorem Pool.Works.got {i : Node} (hi : i ∈ L) {a b c : List Event} (he : P.hist i = (a ++ b) ++ c) {t : Nat}
    (h : Got v (run (P.cfg i) a) t) : Got v (run (P.cfg i) (a ++ b)) t := by
  rcases h with h | ⟨h1, h2⟩
  · exact .inl (Nat.le_trans h (hw.lo ok hi he))
  · obtain ⟨x, y⟩ := hw.lasts (fun r => HeldOr r (v, t)) hi he h1 (fun x e y hx _ hev hq =>
      hq.step e (ok.cq i) (hw.li ok hi (a := x) (b := e :: y) (by rw [hx]; simp)) hev) h2
    exact .inr ⟨y, x⟩

omit ok hw in
theorem take_succ_split {evs : List Event} {x : Nat} {e : Event} (h : evs[x]? = some e) :
    evs.take (x + 1) = evs.take x ++ [e] := by
  rw [List.take_add_one, h]; rfl

omit ok hw in
theorem take_split {evs : List Event} {x y : Nat} (h : x ≤ y) : ∃ b, evs.take y = evs.take x ++ b := by
  refine ⟨(evs.take y).drop x, ?_⟩
  have := List.take_append_drop x (evs.take y)
  rw [List.take_take, Nat.min_eq_left h] at this
  exact this.symm

theorem Pool.Works.pre {i : Node} (hi : i ∈ L) {t : Nat} (h1 : base < t) (h2 : t ≤ s) : Got v (P.node i) t := by
  by_cases hp : i = P.primary v
  · obtain ⟨m1, m2⟩ := hw.made t h1 h2
    have o := hw.outi ok hi (a := P.hist i) (b := []) (by simp)
    have hv := (hw.inView i hi).1
    refine .inr ⟨hv, ?_⟩
    rw [← m1]
    refine o.ph (pp t) ?_ ?_
    · rw [← hp] at m2; exact m2
    · have : (pp t).viewNo = v := congrArg Prod.fst m1
      rw [this]; exact hv.symm
  · obtain ⟨x, hx⟩ := hw.prePrepares i hi hp
    have key : ∀ t, base < t → t ≤ s → Got v (P.after i (x t + 1)) t := by
      intro t
      induction t with
      | zero => intro h _; omega
      | succ t ih =>
        intro h1 h2
        obtain ⟨⟨⟨env, ev, henv⟩, hready⟩, hprev⟩ := hx (t + 1) h1 h2
        have henv := henv _ rfl
        subst henv
        obtain ⟨m1, m2⟩ := hw.made (t + 1) h1 h2
        have mv : (pp (t + 1)).viewNo = v := congrArg Prod.fst m1
        have ms : (pp (t + 1)).seqNo = t + 1 := congrArg Prod.snd m1
        have hsplit : P.hist i = (P.hist i).take (x (t + 1)) ++ (P.hist i).drop (x (t + 1)) := (List.take_append_drop _ _).symm
        have htk := take_succ_split ev
        have hsplit' : P.hist i = ((P.hist i).take (x (t + 1)) ++ [Event.deliver (.prePrepare (pp (t + 1))) (P.primary v) {}]) ++
            (P.hist i).drop (x (t + 1) + 1) := by
          rw [← htk]; exact (List.take_append_drop _ _).symm
        unfold Pool.after
        rw [htk]
        by_cases hlo : t + 1 ≤ (P.after i (x (t + 1))).lastOrdered.2
        · exact .inl (Nat.le_trans hlo (hw.lo ok hi hsplit'))
        have hadm : (P.after i (x (t + 1))).admits v (t + 1) = true := by
          rcases hready with h | h
          · simp only [Msg.key] at h; rw [m1] at h; exact h
          · simp only [Msg.key] at h; rw [m1] at h; exact absurd h hlo
        have hview : (P.after i (x (t + 1))).view = v := (admits_iff _ _ _ hadm).1.symm
        have hprevGot : HeldOr (P.after i (x (t + 1))) (v, t) := by
          by_cases hb : t + 1 = base + 1
          · rw [if_pos hb] at hprev
            exact .inr (show t ≤ _ by omega)
          · rw [if_neg hb] at hprev
            simp only [Nat.add_sub_cancel] at hprev
            obtain ⟨b, hb'⟩ := take_split (evs := P.hist i) (show x t + 1 ≤ x (t + 1) by omega)
            have := hw.got ok hi (a := (P.hist i).take (x t + 1)) (b := b) (c := (P.hist i).drop (x (t + 1)))
              (by rw [← hb']; exact hsplit) (ih (by omega) (by omega))
            rw [← hb'] at this
            exact this.heldOr
        have hctg : Ctg (P.cfg i) False (P.after i (x (t + 1))) := Ctg.run _ (fun h => h.elim)
        have hli := hw.li ok hi hsplit
        have harr := HeldOr.arrive (cfg := P.cfg i) (r := P.after i (x (t + 1))) (ok.cq i) hli hctg (pp (t + 1))
          (.inl (by rw [mv, ms]; exact hadm)) ?_ ?_ ?_
        · have hst : run (P.cfg i) ((P.hist i).take (x (t + 1)) ++ [Event.deliver (.prePrepare (pp (t + 1))) (P.primary v) {}]) =
              (P.after i (x (t + 1))).processPrePrepare (P.cfg i) (pp (t + 1)) ((P.cfg i).primary (P.after i (x (t + 1))).view) {} := by
            rw [run_snoc, hview]; rfl
          rw [hst]
          rw [m1] at harr
          by_cases hl2 : t + 1 ≤ ((P.after i (x (t + 1))).processPrePrepare (P.cfg i) (pp (t + 1))
              ((P.cfg i).primary (P.after i (x (t + 1))).view) {}).lastOrdered.2
          · exact .inl hl2
          · refine .inr ⟨?_, harr⟩
            rcases processPrePrepare_cases (cfg := P.cfg i) (P.after i (x (t + 1))) (pp (t + 1))
              ((P.cfg i).primary (P.after i (x (t + 1))).view) {} with h | ⟨r1, g1, -⟩
            · rw [h]; exact hview
            · rw [g1.view]; exact hview
        · rw [hview]; exact fun h => hp h.symm
        · have o := hw.outi ok hw.primary (a := P.hist (P.primary v)) (b := []) (by simp)
          exact o.pd _ m2
        · rw [hview, ms]; exact hprevGot
    have hfin := hw.got ok hi (a := (P.hist i).take (x t + 1)) (b := (P.hist i).drop (x t + 1)) (c := []) (by simp) (key t h1 h2)
    rw [List.take_append_drop] at hfin
    exact hfin

/-- Held at the end, unless ordered; and what is held. -/
theorem Pool.Works.holds {i : Node} (hi : i ∈ L) {t : Nat} (h1 : base < t) (h2 : t ≤ s) (hlo : (P.node i).lastOrdered.2 < t) :
    (P.node i).getPP (v, t) = some (pp t) := by
  rcases (hw.pre ok hi h1 h2).heldOr with ⟨q, h⟩ | h
  · obtain ⟨e, -⟩ := hw.held ok hi (a := P.hist i) (b := []) (by simp) h1 h2 h
    rw [← e]; exact h
  · exact absurd h (by show ¬ t ≤ _; omega)

/-! ### PREPAREs and COMMITs -/

theorem Pool.Works.prepareContent {j : Node} (hj : j ∈ L) {t : Nat} (h1 : base < t) (h2 : t ≤ s) {p : Prepare}
    (hp : .prepare p ∈ P.sent j) (hk : p.key = (v, t)) : p.content = (pp t).content := by
  have o := hw.outi ok hj (a := P.hist j) (b := []) (by simp)
  have pv : p.viewNo = v := congrArg Prod.fst hk
  have ps : p.seqNo = t := congrArg Prod.snd hk
  have hf : (P.cfg j).top p.viewNo < p.seqNo := by
    have : (P.cfg j).top v ≤ base := hw.fresh j (hw.honest j hj)
    rw [pv, ps]; omega
  obtain ⟨q, q1, q2, q3⟩ := o.pc p hp hf
  have : (P.cfg j).primary p.viewNo = P.primary v := by rw [pv]; rfl
  rw [this] at q3
  rw [q2, hw.unique ok h1 h2 (q1.trans hk) ((ok.net j (hw.honest j hj) _ _ q3).2.2 (hw.honest _ hw.primary).2)]

/-- A PREPARE that arrives is counted unless the batch is ordered first. -/
theorem Pool.Works.prepareCounted {i w : Node} (hi : i ∈ L) {t : Nat} (h1 : base < t) (h2 : t ≤ s) {p : Prepare}
    (hk : p.key = (v, t)) (hc : p.content = (pp t).content) (hwp : w ≠ P.primary v) (hg : P.Gets i w (.prepare p) (pp t))
    (hlo : (P.node i).lastOrdered.2 < t) : hasVote (P.node i).prepares (v, t) w = true := by
  obtain ⟨x, ⟨⟨env, ev, -⟩, hready⟩, hprim⟩ := hg
  have m1 := (hw.made t h1 h2).1
  have mv : (pp t).viewNo = v := congrArg Prod.fst m1
  have pv : p.viewNo = v := congrArg Prod.fst hk
  have ps : p.seqNo = t := congrArg Prod.snd hk
  have hsplit : P.hist i = (P.hist i).take x ++ (P.hist i).drop x := (List.take_append_drop _ _).symm
  have htk := take_succ_split ev
  have hend : P.hist i = ((P.hist i).take x ++ (P.hist i).drop x) ++ [] := by rw [List.append_nil]; exact hsplit
  have hadm : (P.after i x).admits v t = true := by
    rcases hready with h | h
    · simp only [Msg.key] at h; rw [hk] at h; exact h
    · simp only [Msg.key] at h; rw [hk] at h
      have := hw.lo ok hi hend
      rw [List.take_append_drop] at this
      have : t ≤ (P.node i).lastOrdered.2 := Nat.le_trans h this
      omega
  have hview : (P.after i x).view = v := (admits_iff _ _ _ hadm).1.symm
  have hcont : ∀ a b, P.hist i = a ++ b → ∀ q, (run (P.cfg i) a).getPP p.key = some q → p.content = q.content := by
    intro a b he q hq
    rw [hk] at hq
    rw [(hw.held ok hi he h1 h2 hq).1, hc]
  have harr := GotP.arrive (cfg := P.cfg i) (r := P.after i x) p w (.inl (by rw [pv, ps]; exact hadm)) ?_
    (hcont _ _ hsplit) (by rw [hview]; exact hwp)
  · have hst : (P.after i x).processPrepare (P.cfg i) p w = run (P.cfg i) ((P.hist i).take (x + 1)) := by
      rw [htk, run_snoc]; rfl
    rw [hst] at harr
    have hv1 : (run (P.cfg i) ((P.hist i).take (x + 1))).view = v := by
      rw [← hst, (fr_processPrepare (cfg := P.cfg i) (P.after i x) p w).view]; exact hview
    obtain ⟨hfin, -⟩ := hw.lasts (fun r => GotP (P.cfg i) r p w) hi (a := (P.hist i).take (x + 1)) (b := (P.hist i).drop (x + 1)) (c := [])
      (by simp) hv1 (fun a e b hx hav hev hq =>
        hq.step e (ok.cq i) (hw.li ok hi (a := a) (b := e :: b) (by rw [hx]; simp)) hev (by rw [hav]; exact hwp)
          (by rw [← run_snoc]; exact hcont _ _ hx)) harr
    rw [List.take_append_drop] at hfin
    rcases hfin with (h | h) | ⟨h, -⟩
    · rw [hk] at h; exact h
    · rw [hk] at h
      have h : t ≤ (P.node i).lastOrdered.2 := h
      omega
    · exact absurd ⟨_, by rw [hk]; exact hw.holds ok hi h1 h2 hlo⟩ h
  · intro hpi
    have : i = P.primary (pp t).viewNo := by rw [mv]; rw [hview] at hpi; exact hpi.symm
    rw [hk, ← m1]
    exact (hw.outi ok hi hsplit).ph (pp t) (hprim this) (by rw [mv]; exact hview.symm)

/-- A COMMIT that arrives is counted unless the batch is ordered first. -/
theorem Pool.Works.commitCounted {i w : Node} (hi : i ∈ L) {t : Nat} (h1 : base < t) (h2 : t ≤ s) {c : Commit}
    (hk : c.key = (v, t)) (hc : blsAccepts (pp t) c = true) (hg : P.Gets i w (.commit c) (pp t))
    (hlo : (P.node i).lastOrdered.2 < t) : hasVote (P.node i).commits (v, t) w = true := by
  obtain ⟨x, ⟨⟨env, ev, -⟩, hready⟩, hprim⟩ := hg
  have m1 := (hw.made t h1 h2).1
  have mv : (pp t).viewNo = v := congrArg Prod.fst m1
  have pv : c.viewNo = v := congrArg Prod.fst hk
  have ps : c.seqNo = t := congrArg Prod.snd hk
  have hsplit : P.hist i = (P.hist i).take x ++ (P.hist i).drop x := (List.take_append_drop _ _).symm
  have htk := take_succ_split ev
  have hend : P.hist i = ((P.hist i).take x ++ (P.hist i).drop x) ++ [] := by rw [List.append_nil]; exact hsplit
  have hadm : (P.after i x).admits v t = true := by
    rcases hready with h | h
    · simp only [Msg.key] at h; rw [hk] at h; exact h
    · simp only [Msg.key] at h; rw [hk] at h
      have := hw.lo ok hi hend
      rw [List.take_append_drop] at this
      have : t ≤ (P.node i).lastOrdered.2 := Nat.le_trans h this
      omega
  have hview : (P.after i x).view = v := (admits_iff _ _ _ hadm).1.symm
  have hcont : ∀ a b, P.hist i = a ++ b → ∀ q, (run (P.cfg i) a).getPP c.key = some q → blsAccepts q c = true := by
    intro a b he q hq
    rw [hk] at hq
    rw [(hw.held ok hi he h1 h2 hq).1]; exact hc
  have hno : ∀ a b, P.hist i = a ++ b → (run (P.cfg i) a).view = v → ¬ Held (run (P.cfg i) a) c.key →
      hasVote (run (P.cfg i) a).prepares c.key (P.cfg i).name = false := by
    intro a b he hav hh
    rw [← Bool.not_eq_true, hasVote_iff]
    rintro ⟨vs, m, g1, -⟩
    have hf : (P.cfg i).top (run (P.cfg i) a).view < c.key.2 := by
      have : (P.cfg i).top v ≤ base := hw.fresh i (hw.honest i hi)
      rw [hav, hk]; show _ < t; omega
    obtain ⟨-, q, g2, -⟩ := (hw.inv ok hi he).vot _ vs m g1 hf
    exact hh ⟨q, g2⟩
  have harr := GotC.arrive (cfg := P.cfg i) (r := P.after i x) (hw.li ok hi hsplit) c w (.inl (by rw [pv, ps]; exact hadm)) ?_
    (hcont _ _ hsplit)
  · have hst : (P.after i x).processCommit (P.cfg i) c w = run (P.cfg i) ((P.hist i).take (x + 1)) := by
      rw [htk, run_snoc]; rfl
    rw [hst] at harr
    have hv1 : (run (P.cfg i) ((P.hist i).take (x + 1))).view = v := by
      rw [← hst, (fr_processCommit (cfg := P.cfg i) (P.after i x) c w).view]; exact hview
    obtain ⟨hfin, -⟩ := hw.lasts (fun r => GotC (P.cfg i) r c w) hi (a := (P.hist i).take (x + 1)) (b := (P.hist i).drop (x + 1)) (c := [])
      (by simp) hv1 (fun a e b hx hav hev hq =>
        hq.step e (ok.cq i) (hw.li ok hi (a := a) (b := e :: b) (by rw [hx]; simp)) hev
          (hno a (e :: b) (by rw [hx]; simp) hav) (by rw [← run_snoc]; exact hcont _ _ hx)) harr
    rw [List.take_append_drop] at hfin
    rcases hfin with (h | h) | ⟨h, -⟩
    · rw [hk] at h; exact h
    · rw [hk] at h
      have h : t ≤ (P.node i).lastOrdered.2 := h
      omega
    · exact absurd ⟨_, by rw [hk]; exact hw.holds ok hi h1 h2 hlo⟩ h
  · intro hpi
    have : i = P.primary (pp t).viewNo := by rw [mv]; rw [hview] at hpi; exact hpi.symm
    rw [hk, ← m1]
    exact (hw.outi ok hi hsplit).ph (pp t) (hprim this) (by rw [mv]; exact hview.symm)

omit ok in
theorem Pool.Works.top {i : Node} (hi : i ∈ L) {t : Nat} (h1 : base < t) : (P.cfg i).top (P.node i).view < t := by
  have : (P.cfg i).top v ≤ base := hw.fresh i (hw.honest i hi)
  rw [(hw.inView i hi).1]; omega

/-- A node that has not ordered the batch sent its PREPARE, and counts it. -/
theorem Pool.Works.ownPrepare {i : Node} (hi : i ∈ L) {t : Nat} (h1 : base < t) (h2 : t ≤ s) (hp : i ≠ P.primary v)
    (hlo : (P.node i).lastOrdered.2 < t) :
    hasVote (P.node i).prepares (v, t) i = true ∧ ∃ p : Prepare, .prepare p ∈ P.sent i ∧ p.key = (v, t) := by
  have iv := inv_node ok (hw.honest i hi)
  have hli := hw.li ok hi (a := P.hist i) (b := []) (by simp)
  have hheld : Held (P.node i) (v, t) := ⟨_, hw.holds ok hi h1 h2 hlo⟩
  have hf := hw.top hi h1
  constructor
  · rcases (held_iff _ _).1 hheld with ⟨q, hq⟩ | ⟨q, hq⟩
    · exact absurd (iv.pps _ _ hq hf).1.symm hp
    · exact hli.pi.own _ _ (fun x => x) hq
  · exact (own_prepare (k := (v, t)) iv hli hheld hf).resolve_left (fun h => hp h.symm)

/-- Enough PREPAREs: the own COMMIT was sent, and counts. -/
theorem Pool.Works.ownCommit {i : Node} (hi : i ∈ L) {t : Nat} (h1 : base < t)
    {e : List Node × Prepare} (he : (P.node i).prepares.get? (v, t) = some e) (hq : (P.cfg i).pq ≤ e.1.length) :
    hasVote (P.node i).commits (v, t) i = true ∧ ∃ c : Commit, .commit c ∈ P.sent i ∧ c.key = (v, t) := by
  have iv := inv_node ok (hw.honest i hi)
  have hli := hw.li ok hi (a := P.hist i) (b := []) (by simp)
  have hf := hw.top hi h1
  have hv := hli.pi.com _ _ he hq
  refine ⟨hv, ?_⟩
  obtain ⟨vs, m, g1, g2⟩ := (hasVote_iff _ _ _).1 hv
  obtain ⟨-, q, -, g3⟩ := iv.com _ vs m g1 hf
  obtain ⟨c, c1, -, c3⟩ := g3 _ g2
  rcases c3 with c3 | c3
  · exact ⟨c, c3.2, c1⟩
  · exact absurd rfl c3.1

/-- A COMMIT of one of `L` is accepted by all. -/
theorem Pool.Works.commitBls {j : Node} (hj : j ∈ L) {t : Nat} (h1 : base < t) (h2 : t ≤ s) {c : Commit}
    (hc : .commit c ∈ P.sent j) (hk : c.key = (v, t)) : blsAccepts (pp t) c = true := by
  have iv := inv_node ok (hw.honest j hj)
  have cv : c.viewNo = v := congrArg Prod.fst hk
  have cs : c.seqNo = t := congrArg Prod.snd hk
  have hf : (P.cfg j).top c.viewNo < c.seqNo := by
    have : (P.cfg j).top v ≤ base := hw.fresh j (hw.honest j hj)
    rw [cv, cs]; omega
  obtain ⟨q, q1, q2⟩ := iv.cmt c hc hf
  obtain ⟨k1, k2, -⟩ := q1
  have hs : .prePrepare q ∈ P.sent (P.primary v) := by
    have := (sent_of_seen ok (hw.honest j hj) (seen_of_src k2)).2
    rw [hk] at this
    exact this (hw.honest _ hw.primary).2
  have := hw.unique ok h1 h2 (k1.trans hk) hs
  subst this
  unfold blsAccepts
  rw [q2]
  by_cases hb : (P.cfg j).bls = true
  · rw [if_pos hb]; simp
  · rw [if_neg hb]

end node

omit P v base s L pp in
theorem votes_of {μ : Type} {d : Dict Key (List Node × μ)} {k : Key} {Q : List Node} {m : Nat} (hq : Q.Nodup) (hm : m ≤ Q.length)
    (hne : Q ≠ []) (h : ∀ w ∈ Q, hasVote d k w = true) : ∃ e, d.get? k = some e ∧ m ≤ e.1.length := by
  cases Q with
  | nil => exact absurd rfl hne
  | cons a Q =>
    obtain ⟨vs, x, g1, -⟩ := (hasVote_iff _ _ _).1 (h a List.mem_cons_self)
    refine ⟨(vs, x), g1, Nat.le_trans hm (length_le_of_subset hq ?_)⟩
    intro w hw
    obtain ⟨vs', x', g2, g3⟩ := (hasVote_iff _ _ _).1 (h w hw)
    rw [g1] at g2
    cases g2
    exact g3

/-- Enough COMMITs at every node that has not ordered the batch. -/
theorem Pool.Works.quorum (ok : P.Ok) (hw : P.Works v base s L pp) (h2n : 2 ≤ P.n) {t : Nat} (h1 : base < t) (h2 : t ≤ s)
    (hs : P.Spread v t L (pp t)) {i : Node} (hi : i ∈ L) (hlo : (P.node i).lastOrdered.2 < t) :
    ∃ x, (P.node i).commits.get? (v, t) = some x ∧ (P.cfg i).cq ≤ x.1.length := by
  have hL2 : 2 ≤ L.length := by
    have := hw.enough
    unfold getMaxFailures at this
    split at this <;> omega
  have hLne : L ≠ [] := by intro h; rw [h] at hL2; simp at hL2
  rcases hs with hs | ⟨j, hj, hj1, hj2⟩
  · -- every node sent its PREPARE
    have hprep : ∀ j ∈ L, j ≠ P.primary v → ∃ p : Prepare, .prepare p ∈ P.sent j ∧ p.key = (v, t) := by
      intro j hj hp
      by_cases hl : t ≤ (P.node j).lastOrdered.2
      · obtain ⟨c, c1, c2⟩ := hs j hj hl
        have o := hw.outi ok hj (a := P.hist j) (b := []) (by simp)
        have cv : c.viewNo = v := congrArg Prod.fst c2
        have cs : c.seqNo = t := congrArg Prod.snd c2
        have hf : (P.cfg j).top c.viewNo < c.seqNo := by
          have : (P.cfg j).top v ≤ base := hw.fresh j (hw.honest j hj)
          rw [cv, cs]; omega
        rcases o.cp c c1 hf with h | ⟨p, p1, p2⟩
        · rw [cv] at h; exact absurd h.symm hp
        · exact ⟨p, p1, p2.trans c2⟩
      · exact (hw.ownPrepare ok hj h1 h2 hp (by omega)).2
    -- so every node that has not ordered the batch sent its COMMIT
    have hcom : ∀ j ∈ L, (P.node j).lastOrdered.2 < t →
        hasVote (P.node j).commits (v, t) j = true ∧ ∃ c : Commit, .commit c ∈ P.sent j ∧ c.key = (v, t) := by
      intro j hj hl
      have hvotes : ∀ w ∈ L.erase (P.primary v), hasVote (P.node j).prepares (v, t) w = true := by
        intro w hwm
        obtain ⟨w1, w2⟩ := (hw.nodup.mem_erase_iff).1 hwm
        by_cases hwj : j = w
        · subst hwj; exact (hw.ownPrepare ok hj h1 h2 w1 hl).1
        · obtain ⟨p, p1, p2⟩ := hprep w w2 w1
          exact hw.prepareCounted ok hj h1 h2 p2 (hw.prepareContent ok w2 h1 h2 p1 p2) w1
            (hw.prepares j hj w w2 hwj t h1 h2 p p1 p2) hl
      have hlen : (L.erase (P.primary v)).length = L.length - 1 := List.length_erase_of_mem hw.primary
      obtain ⟨e, e1, e2⟩ := votes_of (m := (P.cfg j).pq) (hw.nodup.erase _)
        (by rw [hlen]; show P.n - getMaxFailures P.n - 1 ≤ _; have := hw.enough; omega)
        (by intro h; rw [h] at hlen; simp at hlen; omega) hvotes
      exact hw.ownCommit ok hj h1 e1 e2
    refine votes_of hw.nodup hw.enough hLne ?_
    intro w hwL
    by_cases hwi : i = w
    · subst hwi; exact (hcom i hi hlo).1
    · have : ∃ c : Commit, .commit c ∈ P.sent w ∧ c.key = (v, t) := by
        by_cases hl : t ≤ (P.node w).lastOrdered.2
        · exact hs w hwL hl
        · exact (hcom w hwL (by omega)).2
      obtain ⟨c, c1, c2⟩ := this
      exact hw.commitCounted ok hi h1 h2 c2 (hw.commitBls ok hwL h1 h2 c1 c2) (hw.commits i hi w hwL hwi t h1 h2 c c1 c2) hlo
  · -- the COMMITs of a node that ordered it
    have m1 := (hw.made t h1 h2).1
    have mv : (pp t).viewNo = v := congrArg Prod.fst m1
    have ms : (pp t).seqNo = t := congrArg Prod.snd m1
    have iv := inv_node ok (hw.honest j hj)
    have hf : (P.cfg j).top (pp t).viewNo < (pp t).seqNo := by
      have : (P.cfg j).top v ≤ base := hw.fresh j (hw.honest j hj)
      rw [mv, ms]; omega
    obtain ⟨-, Q, q1, q2, q3⟩ := iv.ord _ hj1 hf
    refine votes_of q1 q2 ?_ ?_
    · intro h
      have := ok.cq j
      have q2 : (P.cfg j).cq ≤ Q.length := q2
      rw [h] at q2
      simp only [List.length_nil] at q2
      omega
    · intro w hwq
      obtain ⟨c, c1, c2, c3⟩ := q3 w hwq
      have hk : c.key = (v, t) := c1.trans m1
      by_cases hwi : w = i
      · subst hwi
        have hsent : .commit c ∈ P.sent w :=
          (sent_of_seen ok (hw.honest j hj) (seen_of_src c3)).2 (hw.honest w hi).2
        have ii := inv_node ok (hw.honest w hi)
        have cv : c.viewNo = v := congrArg Prod.fst hk
        have cs : c.seqNo = t := congrArg Prod.snd hk
        rcases ii.ownC c hsent (cv.trans (hw.inView w hi).1.symm) (by rw [cs]; exact hw.top hi h1) with h | h
        · omega
        · rw [hk] at h; exact h
      · refine hw.commitCounted ok hi h1 h2 hk c2 ?_ hlo
        rcases c3 with ⟨c3, c4⟩ | ⟨-, c4⟩
        · have : w = j := c3
          subst this
          exact hw.commits i hi w hj (fun h => hwi h.symm) t h1 h2 c c4 hk
        · exact hj2 i hi w c hwi hk c4

theorem Pool.Works.orders_of (ok : P.Ok) (hw : P.Works v base s L pp) {i : Node} (hi : i ∈ L)
    (hq : ∀ t, (P.node i).lastOrdered.2 < t → t ≤ s →
      ∃ x, (P.node i).commits.get? (v, t) = some x ∧ (P.cfg i).cq ≤ x.1.length) :
    s ≤ (run (P.cfg i) (P.hist i ++ List.replicate (s - base) .orderStashed)).lastOrdered.2 ∧
    ∀ t, (P.node i).lastOrdered.2 < t → t ≤ s →
      pp t ∈ (run (P.cfg i) (P.hist i ++ List.replicate (s - base) .orderStashed)).ordLog := by
  have hli := hw.li ok hi (a := P.hist i) (b := []) (by simp)
  have hb := hw.start i hi
  obtain ⟨a, -, c⟩ := drain (ok.cq i) s (s - base) (P.node i) hli.ci (hw.inView i hi).2 (hw.inView i hi).1 hq (by omega)
  have hrun : run (P.cfg i) (P.hist i ++ List.replicate (s - base) .orderStashed) =
      (List.replicate (s - base) Event.orderStashed).foldl (Replica.step (P.cfg i)) (P.node i) := by
    unfold Pool.node run; rw [List.foldl_append]
  rw [hrun]
  refine ⟨a, fun t t1 t2 => ?_⟩
  obtain ⟨q, x, y⟩ := c t t1 t2
  rw [hw.holds ok hi (by omega) t2 t1] at x
  cases x; exact y

theorem Pool.Works.orders (ok : P.Ok) (hw : P.Works v base s L pp) (h2n : 2 ≤ P.n)
    (hs : ∀ t, base < t → t ≤ s → P.Spread v t L (pp t)) {i : Node} (hi : i ∈ L) :
    s ≤ (run (P.cfg i) (P.hist i ++ List.replicate (s - base) .orderStashed)).lastOrdered.2 ∧
    ∀ t, (P.node i).lastOrdered.2 < t → t ≤ s →
      pp t ∈ (run (P.cfg i) (P.hist i ++ List.replicate (s - base) .orderStashed)).ordLog := by
  have hb := hw.start i hi
  exact hw.orders_of ok hi (fun t t1 t2 => hw.quorum ok h2n (by omega) t2 (hs t (by omega) t2) hi t1)

end Verif.TPC
