import Verif.Spec.ActionQueue
import Verif.Proofs.Count
/-! The record of an action queue and its state. -/
namespace Verif.AQ

def askedId : Entry → Option Nat
  | .asked aid _ _ _ => some aid
  | _ => none

theorem waiting_snoc {h : List Entry} {e : Entry} {aid : Nat} {act : Act} {t s : Nat} :
    Waiting (h ++ [e]) aid act t s ↔
      (Waiting h aid act t s ∧ e ≠ .cancelAct act ∧ e ≠ .cancelAid aid ∧ ∀ x, e ≠ .ran aid act x) ∨ e = .asked aid act t s := by
  constructor
  · rintro ⟨a, b, h1, h2, h3, h4⟩
    rcases List.eq_nil_or_concat b with rfl | ⟨b', y, rfl⟩
    · have h1 : h ++ [e] = a ++ [Entry.asked aid act t s] := h1
      exact .inr (List.append_inj_right' h1 rfl |> List.singleton_inj.1)
    · rw [List.concat_eq_append] at *
      have h1' : h ++ [e] = (a ++ Entry.asked aid act t s :: b') ++ [y] := by rw [h1]; simp
      obtain ⟨e1, e2⟩ := List.append_inj' h1' rfl
      have e3 : e = y := List.singleton_inj.1 e2
      subst e3
      simp only [List.mem_append, List.mem_singleton, not_or] at h2 h3 h4
      exact .inl ⟨⟨a, b', e1, h2.1, h3.1, fun x => (h4 x).1⟩, Ne.symm h2.2, Ne.symm h3.2, fun x => Ne.symm (h4 x).2⟩
  · rintro (⟨⟨a, b, h1, h2, h3, h4⟩, n1, n2, n3⟩ | rfl)
    · refine ⟨a, b ++ [e], by rw [h1]; simp, ?_, ?_, fun x => ?_⟩ <;>
        simp only [List.mem_append, List.mem_singleton, not_or]
      · exact ⟨h2, Ne.symm n1⟩
      · exact ⟨h3, Ne.symm n2⟩
      · exact ⟨h4 x, Ne.symm (n3 x)⟩
    · exact ⟨h, [], by simp, by simp, by simp, by simp⟩

theorem Waiting.mem {h : List Entry} {aid act t s} (w : Waiting h aid act t s) : .asked aid act t s ∈ h := by
  obtain ⟨a, b, e, -⟩ := w
  rw [e]; simp

/-- Each `ran` in the record is of an action asked for before, due, not
cancelled and not run before. -/
def RanOk (h : List Entry) : Prop :=
  ∀ a b aid act t, h = a ++ .ran aid act t :: b →
    (∃ at' s, Waiting a aid act at' s ∧ (s = 0 ∨ at' + s < t)) ∧ ∀ act' t', .ran aid act' t' ∉ a

structure Inv (q : Q) : Prop where
  uniq : (q.hist.filterMap askedId).Nodup
  top : ∀ aid act t s, .asked aid act t s ∈ q.hist → aid ≤ q.aid ∧ t ≤ q.now
  keys : (q.scheduled.map Prod.fst).Nodup
  nd : ∀ act, (q.ids act).Nodup
  live : ∀ aid act, aid ∈ q.ids act ↔ ∃ t s, Waiting q.hist aid act t s
  pend : ∀ aid act t s, Waiting q.hist aid act t s → (0 < s ∧ (t + s, act, aid) ∈ q.stash) ∨ (act, aid) ∈ q.queue
  stashOk : ∀ e ∈ q.stash, ∃ t s, .asked e.2.2 e.2.1 t s ∈ q.hist ∧ e.1 = t + s ∧ 0 < s
  queueOk : ∀ e ∈ q.queue, ∃ t s, .asked e.2 e.1 t s ∈ q.hist ∧ (s = 0 ∨ t + s < q.now)
  next : ∀ e ∈ q.stash, ∃ c, q.nextCheck = some c ∧ c ≤ e.1
  ran : RanOk q.hist
  ranAsked : ∀ aid act t, .ran aid act t ∈ q.hist → ∃ t' s, .asked aid act t' s ∈ q.hist

theorem asked_mem {h : List Entry} {aid act t s} (w : .asked aid act t s ∈ h) : aid ∈ h.filterMap askedId :=
  List.mem_filterMap.2 ⟨_, w, rfl⟩

/-- One id, one request. -/
theorem asked_inj {h : List Entry} (hu : (h.filterMap askedId).Nodup) {aid act t s act' t' s'}
    (h1 : .asked aid act t s ∈ h) (h2 : .asked aid act' t' s' ∈ h) : act = act' ∧ t = t' ∧ s = s' := by
  induction h with
  | nil => simp at h1
  | cons e h ih =>
    rcases List.mem_cons.1 h1 with g1 | g1 <;> rcases List.mem_cons.1 h2 with g2 | g2
    · rw [← g1] at g2; cases g2; exact ⟨rfl, rfl, rfl⟩
    · subst g1
      rw [List.filterMap_cons_some (show askedId (Entry.asked aid act t s) = some aid from rfl)] at hu
      exact absurd (asked_mem (h := h) g2) (List.nodup_cons.1 hu).1
    · subst g2
      rw [List.filterMap_cons_some (show askedId (Entry.asked aid act' t' s') = some aid from rfl)] at hu
      exact absurd (asked_mem (h := h) g1) (List.nodup_cons.1 hu).1
    · refine ih ?_ g1 g2
      cases hk : askedId e with
      | none => rwa [List.filterMap_cons_none hk] at hu
      | some k => rw [List.filterMap_cons_some hk] at hu; exact (List.nodup_cons.1 hu).2

/-- The place of a request in the record is one. -/
theorem asked_split {h a b a' b' : List Entry} (hu : (h.filterMap askedId).Nodup) {aid act t s}
    (h1 : h = a ++ .asked aid act t s :: b) (h2 : h = a' ++ .asked aid act t s :: b') : a = a' ∧ b = b' := by
  subst h1
  induction a generalizing a' with
  | nil =>
    cases a' with
    | nil => simp at h2; exact ⟨rfl, h2⟩
    | cons x a' =>
      simp only [List.nil_append, List.cons_append, List.cons.injEq] at h2
      obtain ⟨rfl, h2⟩ := h2
      rw [List.nil_append, List.filterMap_cons_some (show askedId (Entry.asked aid act t s) = some aid from rfl), h2] at hu
      exact absurd (asked_mem (act := act) (t := t) (s := s) (by simp)) (List.nodup_cons.1 hu).1
  | cons x a ih =>
    cases a' with
    | nil =>
      simp only [List.nil_append, List.cons_append, List.cons.injEq] at h2
      obtain ⟨rfl, h2⟩ := h2
      rw [List.cons_append, List.filterMap_cons_some (show askedId (Entry.asked aid act t s) = some aid from rfl)] at hu
      exact absurd (asked_mem (act := act) (t := t) (s := s) (by simp)) (List.nodup_cons.1 hu).1
    | cons y a' =>
      simp only [List.cons_append, List.cons.injEq] at h2
      obtain ⟨rfl, h2⟩ := h2
      have hu' : ((a ++ Entry.asked aid act t s :: b).filterMap askedId).Nodup := by
        rw [List.cons_append] at hu
        cases hk : askedId x with
        | none => rwa [List.filterMap_cons_none hk] at hu
        | some k => rw [List.filterMap_cons_some hk] at hu; exact (List.nodup_cons.1 hu).2
      obtain ⟨e1, e2⟩ := ih hu' h2
      exact ⟨by rw [e1], e2⟩

theorem RanOk.snoc {h : List Entry} (hr : RanOk h) {e : Entry}
    (he : ∀ aid act t, e = .ran aid act t → (∃ at' s, Waiting h aid act at' s ∧ (s = 0 ∨ at' + s < t)) ∧ ∀ act' t', .ran aid act' t' ∉ h) :
    RanOk (h ++ [e]) := by
  intro a b aid act t hh
  rcases List.eq_nil_or_concat b with rfl | ⟨b', y, rfl⟩
  · obtain ⟨e1, e2⟩ := List.append_inj' (show h ++ [e] = a ++ [Entry.ran aid act t] from hh) rfl
    subst e1
    exact he _ _ _ (List.singleton_inj.1 e2)
  · rw [List.concat_eq_append] at hh
    obtain ⟨e1, -⟩ := List.append_inj' (show h ++ [e] = (a ++ Entry.ran aid act t :: b') ++ [y] by rw [hh]; simp) rfl
    exact hr a b' aid act t e1

/-- What runs was not run before. -/
theorem Inv.not_ran {q : Q} (h : Inv q) {aid act t s} (w : Waiting q.hist aid act t s) (act' t') : .ran aid act' t' ∉ q.hist := by
  intro hm
  obtain ⟨a, b, e⟩ := List.append_of_mem hm
  obtain ⟨⟨t2, s2, ⟨a1, a2, e1, -⟩, -⟩, -⟩ := h.ran a b aid act' t' e
  have m2 : .asked aid act' t2 s2 ∈ q.hist := by rw [e, e1]; simp
  obtain ⟨rfl, rfl, rfl⟩ := asked_inj h.uniq w.mem m2
  obtain ⟨c, d, e3, -, -, e4⟩ := w
  have : b = b := rfl
  obtain ⟨-, e6⟩ := asked_split h.uniq e3 (show q.hist = a1 ++ Entry.asked aid act t s :: (a2 ++ Entry.ran aid act t' :: b) by rw [e, e1]; simp)
  exact e4 t' (by rw [e6]; simp)

theorem filterMap_snoc {h : List Entry} {e : Entry} (he : askedId e = none) : (h ++ [e]).filterMap askedId = h.filterMap askedId := by
  rw [List.filterMap_append, List.filterMap_cons_none he]; simp

/-! ### One thing at a time -/

theorem Inv.pass {q : Q} (h : Inv q) (d : Nat) : Inv { q with now := q.now + d } :=
  { h with
    top := fun aid act t s hm => ⟨(h.top aid act t s hm).1, Nat.le_trans (h.top aid act t s hm).2 (Nat.le_add_right _ _)⟩
    queueOk := fun e he => by
      obtain ⟨t, s, h1, h2⟩ := h.queueOk e he
      exact ⟨t, s, h1, h2.imp id (fun x => Nat.lt_of_lt_of_le x (Nat.le_add_right _ _))⟩ }

theorem Inv.stop {q : Q} (h : Inv q) (r : List Nat) (g : Nat) : Inv { q with repeating := r, gens := g } := { h with }

theorem ids_set {q : Q} {act act' : Act} {l : List Nat} :
    ({ q with scheduled := q.scheduled.set act l } : Q).ids act' = if act' = act then l else q.ids act' := by
  unfold Q.ids
  simp only [Dict.get?_set]
  split
  · next e => rw [if_pos (by first | exact e | exact e.symm)]; rfl
  · next e => rw [if_neg (by first | exact e | exact fun x => e x.symm)]

theorem Inv.schedule {q : Q} (h : Inv q) (act : Act) (secs : Nat) : Inv (q.schedule act secs) := by
  have hfresh : q.aid + 1 ∉ q.hist.filterMap askedId := by
    intro hm
    obtain ⟨e, he, hk⟩ := List.mem_filterMap.1 hm
    cases e <;> simp only [askedId, reduceCtorEq, Option.some.injEq] at hk
    rename_i aid x t s
    have := (h.top aid x t s he).1
    omega
  have hnew : ∀ act, q.aid + 1 ∉ q.ids act := by
    intro x hx
    obtain ⟨t, s, w⟩ := (h.live _ _).1 hx
    exact hfresh (asked_mem w.mem)
  have hw : ∀ aid x t s, Waiting (q.hist ++ [.asked (q.aid + 1) act q.now secs]) aid x t s ↔
      Waiting q.hist aid x t s ∨ (aid = q.aid + 1 ∧ x = act ∧ t = q.now ∧ s = secs) := by
    intro aid x t s
    rw [waiting_snoc]
    constructor
    · rintro (⟨w, -⟩ | w)
      · exact .inl w
      · cases w; exact .inr ⟨rfl, rfl, rfl, rfl⟩
    · rintro (w | ⟨rfl, rfl, rfl, rfl⟩)
      · exact .inl ⟨w, by simp, by simp, by simp⟩
      · exact .inr rfl
  have hS : (q.schedule act secs).scheduled = q.scheduled.set act (q.ids act ++ [q.aid + 1]) := by
    unfold Q.schedule; dsimp only; split <;> rfl
  have hH : (q.schedule act secs).hist = q.hist ++ [.asked (q.aid + 1) act q.now secs] := by
    unfold Q.schedule; dsimp only; split <;> rfl
  have hN : (q.schedule act secs).now = q.now := by unfold Q.schedule; dsimp only; split <;> rfl
  have hA : (q.schedule act secs).aid = q.aid + 1 := by unfold Q.schedule; dsimp only; split <;> rfl
  have hI : ∀ x, (q.schedule act secs).ids x = if x = act then q.ids act ++ [q.aid + 1] else q.ids x := by
    intro x
    have := ids_set (q := q) (act := act) (act' := x) (l := q.ids act ++ [q.aid + 1])
    rw [← this]
    unfold Q.ids
    rw [hS]; rfl
  have hst : ∀ e, e ∈ (q.schedule act secs).stash ↔ e ∈ q.stash ∨ (0 < secs ∧ e = (q.now + secs, act, q.aid + 1)) := by
    intro e
    unfold Q.schedule; dsimp only
    split
    · next h0 => simp [h0]
    · next h0 => simp [h0]
  have hqu : ∀ e, e ∈ (q.schedule act secs).queue ↔ e ∈ q.queue ∨ (¬ 0 < secs ∧ e = (act, q.aid + 1)) := by
    intro e
    unfold Q.schedule; dsimp only
    split
    · next h0 => simp [h0]
    · next h0 => simp [h0]
  refine ⟨?_, ?_, ?_, ?_, ?_, ?_, ?_, ?_, ?_, ?_, ?_⟩
  · rw [hH, List.filterMap_append, List.nodup_append]
    refine ⟨h.uniq, by simp [askedId], fun x hx y hy e => ?_⟩
    simp [askedId] at hy
    subst hy; subst e; exact hfresh hx
  · intro aid x t s hm
    rw [hH] at hm
    rw [hA, hN]
    rcases List.mem_append.1 hm with hm | hm
    · have := h.top aid x t s hm; omega
    · simp at hm; omega
  · rw [hS]; exact Dict.nodup_keys_set h.keys _ _
  · intro x
    rw [hI]
    split
    · rw [List.nodup_append]
      exact ⟨h.nd _, by simp, fun a ha b hb e => by simp at hb; subst hb; subst e; exact hnew _ ha⟩
    · exact h.nd x
  · intro aid x
    rw [hI, hH]
    constructor
    · intro hm
      split at hm
      · next e =>
        subst e
        rcases List.mem_append.1 hm with hm | hm
        · obtain ⟨t, s, w⟩ := (h.live _ _).1 hm
          exact ⟨t, s, (hw ..).2 (.inl w)⟩
        · simp at hm
          exact ⟨_, _, (hw ..).2 (.inr ⟨hm, rfl, rfl, rfl⟩)⟩
      · obtain ⟨t, s, w⟩ := (h.live _ _).1 hm
        exact ⟨t, s, (hw ..).2 (.inl w)⟩
    · rintro ⟨t, s, w⟩
      rcases (hw ..).1 w with w | ⟨rfl, rfl, -⟩
      · have := (h.live _ _).2 ⟨t, s, w⟩
        split
        · next e => subst e; exact List.mem_append_left _ this
        · exact this
      · rw [if_pos rfl]; simp
  · intro aid x t s w
    rw [hH] at w
    rcases (hw ..).1 w with w | ⟨rfl, rfl, rfl, rfl⟩
    · rcases h.pend _ _ _ _ w with y | y
      · exact .inl ⟨y.1, (hst _).2 (.inl y.2)⟩
      · exact .inr ((hqu _).2 (.inl y))
    · by_cases h0 : 0 < s
      · exact .inl ⟨h0, (hst _).2 (.inr ⟨h0, rfl⟩)⟩
      · exact .inr ((hqu _).2 (.inr ⟨h0, rfl⟩))
  · intro e he
    rw [hH]
    rcases (hst e).1 he with y | ⟨y, rfl⟩
    · obtain ⟨t, s, h1, h2⟩ := h.stashOk e y
      exact ⟨t, s, List.mem_append_left _ h1, h2⟩
    · exact ⟨q.now, secs, by simp, rfl, y⟩
  · intro e he
    rw [hH, hN]
    rcases (hqu e).1 he with y | ⟨y, rfl⟩
    · obtain ⟨t, s, h1, h2⟩ := h.queueOk e y
      exact ⟨t, s, List.mem_append_left _ h1, h2⟩
    · exact ⟨q.now, secs, by simp, .inl (by omega)⟩
  · intro e he
    have hnx : (q.schedule act secs).nextCheck = if 0 < secs then (if below (q.now + secs) q.nextCheck then some (q.now + secs) else q.nextCheck) else q.nextCheck := by
      unfold Q.schedule; dsimp only; split <;> rfl
    rw [hnx]
    rcases (hst e).1 he with y | ⟨y, rfl⟩
    · obtain ⟨c, h1, h2⟩ := h.next e y
      rw [h1]
      unfold below
      dsimp only
      split
      · split
        · next h3 => exact ⟨_, rfl, by simp at h3; omega⟩
        · exact ⟨_, rfl, h2⟩
      · exact ⟨_, rfl, h2⟩
    · rw [if_pos y]
      unfold below
      cases hn : q.nextCheck with
      | none => exact ⟨_, rfl, Nat.le_refl _⟩
      | some c =>
        dsimp only
        split
        · exact ⟨_, rfl, Nat.le_refl _⟩
        · next h3 => exact ⟨_, rfl, by simp at h3; omega⟩
  · rw [hH]; exact h.ran.snoc (by intro _ _ _ e; simp at e)
  · intro aid x t hm
    rw [hH] at hm ⊢
    rcases List.mem_append.1 hm with hm | hm
    · obtain ⟨t', s, h1⟩ := h.ranAsked _ _ _ hm
      exact ⟨t', s, List.mem_append_left _ h1⟩
    · simp at hm

/-- The record grows by something that is neither a request nor a run, and the
ids of what it cancels are dropped. -/
theorem Inv.ends {q : Q} (h : Inv q) (sc : Dict Act (List Nat)) (e : Entry) (he : askedId e = none) (hr : ∀ aid act t, e ≠ .ran aid act t)
    (hk : (sc.map Prod.fst).Nodup) (hnd : ∀ act, ((sc.get? act).getD []).Nodup)
    (hl : ∀ aid act, aid ∈ (sc.get? act).getD [] ↔ aid ∈ q.ids act ∧ e ≠ .cancelAct act ∧ e ≠ .cancelAid aid) :
    Inv { q with scheduled := sc, hist := q.hist ++ [e] } := by
  have hne : ∀ aid act t s, e ≠ .asked aid act t s := by rintro aid act t s rfl; simp [askedId] at he
  refine ⟨?_, ?_, hk, hnd, ?_, ?_, ?_, ?_, h.next, h.ran.snoc (fun a b c x => absurd x (hr a b c)), ?_⟩
  · show ((q.hist ++ [e]).filterMap askedId).Nodup
    rw [filterMap_snoc he]; exact h.uniq
  · intro aid act t s hm
    rcases List.mem_append.1 hm with hm | hm
    · exact h.top _ _ _ _ hm
    · exact absurd (List.mem_singleton.1 hm).symm (hne _ _ _ _)
  · intro aid act
    refine (hl aid act).trans ?_
    show _ ↔ ∃ t s, Waiting (q.hist ++ [e]) aid act t s
    rw [h.live]
    constructor
    · rintro ⟨⟨t, s, w⟩, h1, h2⟩
      exact ⟨t, s, waiting_snoc.2 (.inl ⟨w, h1, h2, hr _ _⟩)⟩
    · rintro ⟨t, s, w⟩
      rcases waiting_snoc.1 w with ⟨w, h1, h2, -⟩ | w
      · exact ⟨⟨t, s, w⟩, h1, h2⟩
      · exact absurd w (hne _ _ _ _)
  · intro aid act t s w
    rcases waiting_snoc.1 w with ⟨w, -⟩ | w
    · exact h.pend _ _ _ _ w
    · exact absurd w (hne _ _ _ _)
  · intro x hx
    obtain ⟨t, s, h1, h2⟩ := h.stashOk x hx
    exact ⟨t, s, List.mem_append_left _ h1, h2⟩
  · intro x hx
    obtain ⟨t, s, h1, h2⟩ := h.queueOk x hx
    exact ⟨t, s, List.mem_append_left _ h1, h2⟩
  · intro aid x t hm
    rcases List.mem_append.1 hm with hm | hm
    · obtain ⟨t', s, h1⟩ := h.ranAsked _ _ _ hm
      exact ⟨t', s, List.mem_append_left _ h1⟩
    · exact absurd (List.mem_singleton.1 hm).symm (hr _ _ _)

theorem Inv.body {q : Q} (h : Inv q) (aid a t : Nat) : Inv { q with hist := q.hist ++ [.body aid a t] } :=
  h.ends q.scheduled _ rfl (by simp) h.keys h.nd (by intro aid act; show _ ↔ aid ∈ q.ids act ∧ _; simp [Q.ids])

theorem Inv.cancelAct {q : Q} (h : Inv q) (act : Act) : Inv (q.cancelAct act) := by
  unfold Q.cancelAct
  dsimp only
  cases hg : q.scheduled.get? act with
  | none =>
    refine h.ends q.scheduled _ rfl (by simp) h.keys h.nd (fun aid x => ?_)
    show aid ∈ q.ids x ↔ _
    simp only [ne_eq, reduceCtorEq, not_false_eq_true, and_true, Entry.cancelAct.injEq]
    refine ⟨fun hx => ⟨hx, ?_⟩, fun hx => hx.1⟩
    rintro rfl
    simp [Q.ids, hg] at hx
  | some l =>
    refine h.ends (q.scheduled.set act []) _ rfl (by simp) (Dict.nodup_keys_set h.keys _ _) ?_ ?_
    · intro x
      rw [Dict.get?_set]
      split
      · simp
      · exact h.nd x
    · intro aid x
      rw [Dict.get?_set]
      split
      · next e => simp [e]
      · next e =>
        show aid ∈ q.ids x ↔ _
        simp [e]

theorem dropAid_keys (aid : Nat) (d : Dict Act (List Nat)) : (dropAid aid d).map Prod.fst = d.map Prod.fst := by
  induction d with
  | nil => rfl
  | cons e d ih =>
    unfold dropAid
    split
    · rfl
    · simp [ih]

theorem get?_cons' {act : Act} {e : Act × List Nat} {d : Dict Act (List Nat)} :
    Dict.get? (e :: d) act = if e.1 = act then some e.2 else Dict.get? d act := by
  simp [Dict.get?]

theorem get?_dropAid (aid : Nat) (d : Dict Act (List Nat)) (hk : (d.map Prod.fst).Nodup)
    (hu : ∀ e ∈ d, ∀ e' ∈ d, aid ∈ e.2 → aid ∈ e'.2 → e.1 = e'.1) (act : Act) :
    (dropAid aid d).get? act = (d.get? act).map (·.erase aid) := by
  induction d with
  | nil => rfl
  | cons e d ih =>
    rw [List.map_cons, List.nodup_cons] at hk
    unfold dropAid
    split
    · next hm =>
      rw [get?_cons', get?_cons']
      dsimp only
      split
      · rfl
      · next hne =>
        cases hg : Dict.get? d act with
        | none => rfl
        | some l =>
          have hml := Dict.mem_of_get? hg
          have : aid ∉ l := by
            intro hx
            have := hu e (List.mem_cons_self ..) _ (List.mem_cons_of_mem _ hml) hm hx
            exact hne this
          simp [List.erase_of_not_mem this]
    · next hm =>
      rw [get?_cons', get?_cons']
      dsimp only
      split
      · simp [List.erase_of_not_mem hm]
      · exact ih hk.2 (fun x hx y hy => hu x (List.mem_cons_of_mem _ hx) y (List.mem_cons_of_mem _ hy))

theorem Inv.one {q : Q} (h : Inv q) {aid act act'} (h1 : aid ∈ q.ids act) (h2 : aid ∈ q.ids act') : act = act' := by
  obtain ⟨t, s, w⟩ := (h.live _ _).1 h1
  obtain ⟨t', s', w'⟩ := (h.live _ _).1 h2
  exact (asked_inj h.uniq w.mem w'.mem).1

theorem Inv.cancelAid {q : Q} (h : Inv q) (aid : Nat) : Inv (q.cancelAid aid) := by
  have hg : ∀ act, ((dropAid aid q.scheduled).get? act).getD [] = (q.ids act).erase aid := by
    intro act
    rw [get?_dropAid aid q.scheduled h.keys ?_ act]
    · unfold Q.ids; cases q.scheduled.get? act <;> rfl
    · intro e he e' he' h1 h2
      refine h.one (aid := aid) (act := e.1) (act' := e'.1) ?_ ?_
      · unfold Q.ids; rw [Dict.get?_of_mem h.keys he]; exact h1
      · unfold Q.ids; rw [Dict.get?_of_mem h.keys he']; exact h2
  refine h.ends (dropAid aid q.scheduled) _ rfl (by simp) (by rw [dropAid_keys]; exact h.keys) ?_ ?_
  · intro act; rw [hg]; exact (h.nd act).erase _
  · intro x act
    rw [hg, (h.nd act).mem_erase_iff]
    simp only [ne_eq, reduceCtorEq, not_false_eq_true, true_and, Entry.cancelAid.injEq]
    exact ⟨fun y => ⟨y.2, fun e => y.1 e.symm⟩, fun y => ⟨fun e => y.2 e.symm, y.1⟩⟩

theorem Inv.call {q : Q} (h : Inv q) (c : Call) : Inv (q.call c) := by
  cases c with
  | schedule a s => exact h.schedule _ _
  | cancel a => exact h.cancelAct _
  | cancelAid a => exact h.cancelAid _
  | start a s =>
    show Inv (q.startRepeating a s)
    unfold Q.startRepeating
    split
    · exact h
    · exact (h.stop _ _).schedule _ _
  | stop a => exact h.stop _ q.gens
  | pass d => exact h.pass d

theorem Inv.calls {q : Q} (h : Inv q) (cs : List Call) : Inv (cs.foldl Q.call q) := by
  induction cs generalizing q with
  | nil => exact h
  | cons c cs ih => exact ih (h.call c)

/-! ### Looking for what is due -/

theorem lookAll (l : List (Nat × Act × Nat)) (q : Q) :
    let q' := l.foldl Q.lookAt q
    q' = { q with queue := q'.queue, stash := q'.stash } ∧
    (∀ e, e ∈ q'.queue ↔ e ∈ q.queue ∨ ∃ n, n < q.now ∧ (n, e) ∈ l) ∧
    (∀ e, e ∈ q'.stash → e ∈ q.stash) ∧ (∀ e, e ∈ q.stash → ¬ e.1 < q.now ∨ e ∉ l → e ∈ q'.stash) ∧
    q'.queue = ((l.filter (fun d => d.1 < q.now)).map Prod.snd).reverse ++ q.queue := by
  induction l generalizing q with
  | nil => simp
  | cons d l ih =>
    obtain ⟨i1, i2, i3, i4, i5⟩ := ih (q.lookAt d)
    simp only [List.foldl_cons]
    by_cases hd : d.1 < q.now
    · have e : q.lookAt d = { q with queue := d.2 :: q.queue, stash := q.stash.erase d } := by
        unfold Q.lookAt; rw [if_pos hd]
      rw [e] at i1 i2 i3 i4 i5 ⊢
      refine ⟨i1, ?_, fun x hx => List.mem_of_mem_erase (i3 x hx), ?_, ?_⟩
      · intro x
        rw [i2]
        constructor
        · rintro (y | ⟨n, y1, y2⟩)
          · rcases List.mem_cons.1 y with rfl | y
            · exact .inr ⟨d.1, hd, List.mem_cons_self ..⟩
            · exact .inl y
          · exact .inr ⟨n, y1, List.mem_cons_of_mem _ y2⟩
        · rintro (y | ⟨n, y1, y2⟩)
          · exact .inl (List.mem_cons_of_mem _ y)
          · rcases List.mem_cons.1 y2 with y2 | y2
            · exact .inl (by rw [← y2]; exact List.mem_cons_self ..)
            · exact .inr ⟨n, y1, y2⟩
      · intro x hx hc
        refine i4 x ?_ ?_
        · refine (List.mem_erase_of_ne ?_).2 hx
          rintro rfl
          rcases hc with hc | hc
          · exact hc hd
          · exact hc (List.mem_cons_self ..)
        · exact hc.imp id (fun y z => y (List.mem_cons_of_mem _ z))
      · rw [i5, List.filter_cons_of_pos (by simpa using hd)]
        simp
    · have e : q.lookAt d = q := by unfold Q.lookAt; rw [if_neg hd]
      rw [e] at i1 i2 i3 i4 i5 ⊢
      refine ⟨i1, ?_, i3, ?_, ?_⟩
      · intro x
        rw [i2]
        constructor
        · rintro (y | ⟨n, y1, y2⟩)
          · exact .inl y
          · exact .inr ⟨n, y1, List.mem_cons_of_mem _ y2⟩
        · rintro (y | ⟨n, y1, y2⟩)
          · exact .inl y
          · rcases List.mem_cons.1 y2 with y2 | y2
            · rw [← y2] at hd; exact absurd y1 hd
            · exact .inr ⟨n, y1, y2⟩
      · intro x hx hc
        exact i4 x hx (hc.imp id (fun y z => y (List.mem_cons_of_mem _ z)))
      · rw [i5, List.filter_cons_of_neg (by simpa using hd)]

theorem earliest_le (l : List (Nat × Act × Nat)) : ∀ e ∈ l, ∃ c, earliest l = some c ∧ c ≤ e.1 := by
  have key : ∀ (l : List (Nat × Act × Nat)) (o : Option Nat),
      (∀ y, o = some y → ∃ c, l.foldl (fun e d => if below d.1 e then some d.1 else e) o = some c ∧ c ≤ y) ∧
      ∀ e ∈ l, ∃ c, l.foldl (fun e d => if below d.1 e then some d.1 else e) o = some c ∧ c ≤ e.1 := by
    intro l
    induction l with
    | nil => intro o; exact ⟨fun y hy => ⟨y, hy, Nat.le_refl _⟩, by simp⟩
    | cons d l ih =>
      intro o
      have hstep : ∃ c, (if below d.1 o then some d.1 else o) = some c ∧ c ≤ d.1 ∧ ∀ y, o = some y → c ≤ y := by
        unfold below
        cases o with
        | none => exact ⟨d.1, rfl, Nat.le_refl _, by simp⟩
        | some y =>
          dsimp only
          split
          · next h => exact ⟨d.1, rfl, Nat.le_refl _, fun z hz => by simp at h hz; omega⟩
          · next h => exact ⟨y, rfl, by simp at h; omega, fun z hz => by simp at hz; omega⟩
      obtain ⟨c, c1, c2, c3⟩ := hstep
      rw [List.foldl_cons, c1]
      obtain ⟨c', d1, d2⟩ := (ih (some c)).1 c rfl
      refine ⟨fun y hy => ⟨c', d1, Nat.le_trans d2 (c3 y hy)⟩, fun e he => ?_⟩
      rcases List.mem_cons.1 he with rfl | he
      · exact ⟨c', d1, Nat.le_trans d2 c2⟩
      · exact (ih (some c)).2 e he
  exact (key l none).2

theorem Inv.look {q : Q} (h : Inv q) : Inv q.look := by
  unfold Q.look
  split
  · obtain ⟨i1, i2, i3, i4, -⟩ := lookAll q.stash q
    generalize q.stash.foldl Q.lookAt q = q' at *
    have e1 : q'.hist = q.hist := by rw [i1]
    have e2 : q'.scheduled = q.scheduled := by rw [i1]
    have e3 : q'.now = q.now := by rw [i1]
    have e4 : q'.aid = q.aid := by rw [i1]
    have e5 : ∀ act, q'.ids act = q.ids act := by intro act; unfold Q.ids; rw [e2]
    refine ⟨by rw [e1]; exact h.uniq, ?_, by rw [e2]; exact h.keys, ?_, ?_, ?_, ?_, ?_, ?_, by rw [e1]; exact h.ran, by rw [e1]; exact h.ranAsked⟩
    · rw [e1, e3, e4]; exact h.top
    · intro act; show (q'.ids act).Nodup; rw [e5]; exact h.nd act
    · intro aid act
      show aid ∈ q'.ids act ↔ _
      rw [e5, e1]; exact h.live aid act
    · intro aid act t s w
      rw [e1] at w
      rcases h.pend _ _ _ _ w with ⟨y1, y2⟩ | y
      · by_cases hd : t + s < q.now
        · exact .inr ((i2 _).2 (.inr ⟨_, hd, y2⟩))
        · exact .inl ⟨y1, i4 _ y2 (.inl hd)⟩
      · exact .inr ((i2 _).2 (.inl y))
    · intro e he
      rw [e1]; exact h.stashOk e (i3 e he)
    · intro e he
      rw [e1, e3]
      rcases (i2 e).1 he with y | ⟨n, y1, y2⟩
      · exact h.queueOk e y
      · obtain ⟨t, s, z1, z2, z3⟩ := h.stashOk _ y2
        refine ⟨t, s, z1, .inr ?_⟩
        have : n = t + s := z2
        omega
    · intro e he
      exact earliest_le q.stash e (i3 e he)
  · exact h

/-- What is due is queued. -/
theorem Inv.look_due {q : Q} (h : Inv q) {aid act t s} (w : Waiting q.hist aid act t s) (hd : t + s < q.now) :
    (act, aid) ∈ q.look.queue := by
  rcases h.pend _ _ _ _ w with ⟨y1, y2⟩ | y
  · obtain ⟨c, c1, c2⟩ := h.next _ y2
    unfold Q.look
    rw [if_pos]
    · exact ((lookAll q.stash q).2.1 _).2 (.inr ⟨_, hd, y2⟩)
    · refine ⟨fun e => by rw [e] at y2; simp at y2, ?_⟩
      rw [c1]
      simp only [past, decide_eq_true_eq]
      have : c ≤ t + s := c2
      omega
  · unfold Q.look
    split
    · exact ((lookAll q.stash q).2.1 _).2 (.inl y)
    · exact y

/-! ### Running what is queued -/

/-- The first of the queue is taken and marked as run. -/
theorem Inv.take {q : Q} (h : Inv q) {act aid rest} (hq : q.queue = (act, aid) :: rest) (hm : aid ∈ q.ids act) :
    Inv { q with queue := rest, scheduled := q.scheduled.set act ((q.ids act).erase aid), hist := q.hist ++ [.ran aid act q.now] } := by
  obtain ⟨t0, s0, w0⟩ := (h.live _ _).1 hm
  have hw : ∀ x y t s, Waiting (q.hist ++ [.ran aid act q.now]) x y t s ↔ Waiting q.hist x y t s ∧ ¬ (x = aid) := by
    intro x y t s
    rw [waiting_snoc]
    constructor
    · rintro (⟨w, -, -, n⟩ | w)
      · refine ⟨w, ?_⟩
        rintro rfl
        obtain ⟨rfl, -⟩ := asked_inj h.uniq w.mem w0.mem
        exact n q.now rfl
      · simp at w
    · rintro ⟨w, n⟩
      exact .inl ⟨w, by simp, by simp, fun z e => by cases e; exact n rfl⟩
  refine ⟨?_, ?_, Dict.nodup_keys_set h.keys _ _, ?_, ?_, ?_, ?_, ?_, h.next, ?_, ?_⟩
  · show ((q.hist ++ [_]).filterMap askedId).Nodup
    rw [filterMap_snoc rfl]; exact h.uniq
  · intro x y t s hx
    rcases List.mem_append.1 hx with hx | hx
    · exact h.top _ _ _ _ hx
    · simp at hx
  · intro x
    show Q.ids _ x |>.Nodup
    have := ids_set (q := q) (act := act) (act' := x) (l := (q.ids act).erase aid)
    refine (congrArg List.Nodup this).mpr ?_
    split
    · exact (h.nd act).erase _
    · exact h.nd x
  · intro x y
    refine (iff_of_eq (congrArg (x ∈ ·) (ids_set (q := q) (act := act) (act' := y) (l := (q.ids act).erase aid)))).trans ?_
    show _ ↔ ∃ t s, Waiting (q.hist ++ [.ran aid act q.now]) x y t s
    simp only [hw]
    constructor
    · intro hx
      split at hx
      · next e =>
        subst e
        rw [(h.nd y).mem_erase_iff] at hx
        obtain ⟨t, s, w⟩ := (h.live _ _).1 hx.2
        exact ⟨t, s, w, hx.1⟩
      · next e =>
        obtain ⟨t, s, w⟩ := (h.live _ _).1 hx
        refine ⟨t, s, w, ?_⟩
        rintro rfl
        exact e (h.one hx hm)
    · rintro ⟨t, s, w, n⟩
      have := (h.live _ _).2 ⟨t, s, w⟩
      split
      · next e => subst e; exact (h.nd y).mem_erase_iff.2 ⟨n, this⟩
      · exact this
  · intro x y t s w
    obtain ⟨w, n⟩ := (hw ..).1 w
    rcases h.pend _ _ _ _ w with z | z
    · exact .inl z
    · rw [hq] at z
      rcases List.mem_cons.1 z with z | z
      · simp at z; exact absurd z.2 n
      · exact .inr z
  · intro e he
    obtain ⟨t, s, h1, h2⟩ := h.stashOk e he
    exact ⟨t, s, List.mem_append_left _ h1, h2⟩
  · intro e he
    obtain ⟨t, s, h1, h2⟩ := h.queueOk e (by rw [hq]; exact List.mem_cons_of_mem _ he)
    exact ⟨t, s, List.mem_append_left _ h1, h2⟩
  · refine h.ran.snoc ?_
    intro x y t e
    cases e
    obtain ⟨t, s, h1, h2⟩ := h.queueOk (act, aid) (by rw [hq]; exact List.mem_cons_self ..)
    obtain ⟨-, rfl, rfl⟩ := asked_inj h.uniq h1 w0.mem
    exact ⟨⟨_, _, w0, h2⟩, h.not_ran w0⟩
  · intro x y t hx
    rcases List.mem_append.1 hx with hx | hx
    · obtain ⟨t', s, h1⟩ := h.ranAsked _ _ _ hx
      exact ⟨t', s, List.mem_append_left _ h1⟩
    · simp at hx
      obtain ⟨rfl, rfl, rfl⟩ := hx
      exact ⟨_, _, List.mem_append_left _ w0.mem⟩

/-- The first of the queue was cancelled. -/
theorem Inv.skip {q : Q} (h : Inv q) {act aid rest} (hq : q.queue = (act, aid) :: rest) (hm : aid ∉ q.ids act) :
    Inv { q with queue := rest } :=
  { h with
    pend := fun x y t s w => by
      rcases h.pend _ _ _ _ w with z | z
      · exact .inl z
      · rw [hq] at z
        rcases List.mem_cons.1 z with z | z
        · simp at z
          obtain ⟨rfl, rfl⟩ := z
          exact absurd ((h.live _ _).2 ⟨t, s, w⟩) hm
        · exact .inr z
    queueOk := fun e he => h.queueOk e (by rw [hq]; exact List.mem_cons_of_mem _ he) }

/-- What `pop` does, in parts. -/
theorem pop_cases (q : Q) (does : List Call) :
    (q.queue = [] ∧ q.pop does = q) ∨
    ∃ act aid rest, q.queue = (act, aid) :: rest ∧
      ((aid ∉ q.ids act ∧ q.pop does = { q with queue := rest }) ∨
       (aid ∈ q.ids act ∧ ∃ q1, q1 = { q with queue := rest, scheduled := q.scheduled.set act ((q.ids act).erase aid), hist := q.hist ++ [.ran aid act q.now] } ∧
        ((∃ a, act = .plain a ∧ q.pop does = does.foldl Q.call q1) ∨
         ∃ a g s, act = .rep a g s ∧
          ((a ∉ q.repeating ∧ q.pop does = q1) ∨
           (a ∈ q.repeating ∧ q.pop does = (does.foldl Q.call { q1 with hist := q1.hist ++ [.body aid a q.now] }).schedule act s))))) := by
  cases hq : q.queue with
  | nil => exact .inl ⟨rfl, by unfold Q.pop; rw [hq]⟩
  | cons x rest =>
    obtain ⟨act, aid⟩ := x
    refine .inr ⟨act, aid, rest, rfl, ?_⟩
    have hi : ({ q with queue := rest } : Q).ids act = q.ids act := rfl
    by_cases hm : aid ∈ q.ids act
    · refine .inr ⟨hm, _, rfl, ?_⟩
      cases act with
      | plain a =>
        refine .inl ⟨a, rfl, ?_⟩
        unfold Q.pop; rw [hq]; dsimp only; rw [if_pos (by rw [hi]; exact hm)]; rfl
      | rep a g s =>
        refine .inr ⟨a, g, s, rfl, ?_⟩
        by_cases hr : a ∈ q.repeating
        · refine .inr ⟨hr, ?_⟩
          unfold Q.pop; rw [hq]; dsimp only; rw [if_pos (by rw [hi]; exact hm), if_pos hr]; rfl
        · refine .inl ⟨hr, ?_⟩
          unfold Q.pop; rw [hq]; dsimp only; rw [if_pos (by rw [hi]; exact hm), if_neg hr]; rfl
    · refine .inl ⟨hm, ?_⟩
      unfold Q.pop; rw [hq]; dsimp only; rw [if_neg (by rw [hi]; exact hm)]

theorem Inv.pop {q : Q} (h : Inv q) (does : List Call) : Inv (q.pop does) := by
  rcases pop_cases q does with ⟨-, e⟩ | ⟨act, aid, rest, hq, ⟨hm, e⟩ | ⟨hm, q1, e1, ⟨a, -, e⟩ | ⟨a, g, s, -, ⟨-, e⟩ | ⟨-, e⟩⟩⟩⟩ <;> rw [e]
  · exact h
  · exact h.skip hq hm
  all_goals (have h1 := h.take hq hm; rw [← e1] at h1)
  · exact h1.calls _
  · exact h1
  · exact ((h1.body _ _ _).calls _).schedule _ _

theorem Inv.step {q : Q} (h : Inv q) (e : Event) : Inv (q.step e) := by
  cases e with
  | call c => exact h.call c
  | look => exact h.look
  | pop d => exact h.pop d

theorem inv_run (evs : List Event) : Inv (run evs) := by
  have : ∀ q, Inv q → Inv (evs.foldl Q.step q) := by
    induction evs with
    | nil => exact fun q h => h
    | cons e evs ih => exact fun q h => ih _ (h.step e)
  refine this _ ⟨by simp, by simp, by simp, by simp [Q.ids, Dict.get?], ?_, ?_, by simp, by simp, by simp, ?_, by simp⟩
  · intro aid act
    refine ⟨by simp [Q.ids, Dict.get?], ?_⟩
    rintro ⟨t, s, a, b, e, -⟩
    simp at e
  · rintro aid act t s ⟨a, b, e, -⟩
    simp at e
  · intro a b aid act t e
    simp at e

/-! ### The record only grows -/

theorem hist_schedule (q : Q) (act : Act) (s : Nat) :
    (q.schedule act s).hist = q.hist ++ [.asked (q.aid + 1) act q.now s] := by
  unfold Q.schedule; dsimp only; split <;> rfl

theorem hist_call (q : Q) (c : Call) : ∃ l, (q.call c).hist = q.hist ++ l := by
  cases c with
  | schedule a s => exact ⟨_, hist_schedule ..⟩
  | cancel a =>
    refine ⟨[.cancelAct (.plain a)], ?_⟩
    show (q.cancelAct _).hist = _
    unfold Q.cancelAct; dsimp only; cases q.scheduled.get? (Act.plain a) <;> rfl
  | cancelAid a => exact ⟨_, rfl⟩
  | start a s =>
    show ∃ l, (q.startRepeating a s).hist = _
    unfold Q.startRepeating
    split
    · exact ⟨[], by simp⟩
    · exact ⟨_, hist_schedule ..⟩
  | stop a => exact ⟨[], by simp [Q.call, Q.stopRepeating]⟩
  | pass d => exact ⟨[], by simp [Q.call]⟩

theorem hist_calls (q : Q) (cs : List Call) : ∃ l, (cs.foldl Q.call q).hist = q.hist ++ l := by
  induction cs generalizing q with
  | nil => exact ⟨[], by simp⟩
  | cons c cs ih =>
    obtain ⟨l, h⟩ := hist_call q c
    obtain ⟨l', h'⟩ := ih (q.call c)
    exact ⟨l ++ l', by rw [List.foldl_cons, h', h, List.append_assoc]⟩

theorem look_same (q : Q) : q.look = { q with queue := q.look.queue, stash := q.look.stash, nextCheck := q.look.nextCheck } := by
  unfold Q.look
  split
  · have := (lookAll q.stash q).1
    generalize q.stash.foldl Q.lookAt q = q' at *
    rw [this]
  · rfl

theorem hist_step (q : Q) (e : Event) : ∃ l, (q.step e).hist = q.hist ++ l := by
  cases e with
  | call c => exact hist_call q c
  | look =>
    refine ⟨[], ?_⟩
    show q.look.hist = _
    rw [look_same]; simp
  | pop d =>
    show ∃ l, (q.pop d).hist = _
    rcases pop_cases q d with ⟨-, e⟩ | ⟨act, aid, rest, hq, ⟨hm, e⟩ | ⟨hm, q1, e1, ⟨a, -, e⟩ | ⟨a, g, s, -, ⟨-, e⟩ | ⟨-, e⟩⟩⟩⟩ <;> rw [e]
    · exact ⟨[], by simp⟩
    · exact ⟨[], by simp⟩
    · obtain ⟨l, h⟩ := hist_calls q1 d
      exact ⟨_, by rw [h, e1, List.append_assoc]⟩
    · exact ⟨_, by rw [e1]⟩
    · obtain ⟨l, h⟩ := hist_calls ({ q1 with hist := q1.hist ++ [.body aid a q.now] } : Q) d
      exact ⟨_, by rw [hist_schedule, h, e1, List.append_assoc, List.append_assoc, List.append_assoc]⟩

theorem hist_foldl (q : Q) (evs : List Event) : ∃ l, (evs.foldl Q.step q).hist = q.hist ++ l := by
  induction evs generalizing q with
  | nil => exact ⟨[], by simp⟩
  | cons c cs ih =>
    obtain ⟨l, h⟩ := hist_step q c
    obtain ⟨l', h'⟩ := ih (q.step c)
    exact ⟨l ++ l', by rw [List.foldl_cons, h', h, List.append_assoc]⟩

theorem run_append (a b : List Event) : run (a ++ b) = b.foldl Q.step (run a) := by
  unfold run; rw [List.foldl_append]

end Verif.AQ
