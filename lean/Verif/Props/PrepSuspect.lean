import Verif.Spec.PrepSuspect
/-!
# C117: who is reported for a PREPARE, and who is counted
-/
namespace Verif.Props
open Verif.PrepSuspect Verif.Spec.PrepSuspect

theorem prs_snoc {α : Type} {P : List α → Prop} (h0 : P []) (h1 : ∀ l a, P l → P (l ++ [a])) (l : List α) : P l := by
  suffices H : ∀ k, ∀ l : List α, l.length = k → P l from H _ l rfl
  intro k
  induction k with
  | zero => intro l hl; rw [List.length_eq_zero_iff.1 hl]; exact h0
  | succ k ih =>
    intro l hl
    rcases List.eq_nil_or_concat l with rfl | ⟨l', a, h⟩
    · simp at hl
    · rw [List.concat_eq_append] at h
      subst h
      exact h1 _ _ (ih l' (by simpa using hl))

theorem prs_run_snoc (cfg : Cfg) (h : List Ev) (e : Ev) : run cfg (h ++ [e]) = (run cfg h).step cfg e := by
  simp [run, List.foldl_append]

theorem prs_pp_append (h g : List Ev) : ppOf (h ++ g) = (ppOf h).or (ppOf g) := by
  induction h with
  | nil => rfl
  | cons e h ih => cases e <;> simp [ppOf, ih]

theorem prs_sent_append (h g : List Ev) (x : Node) : sentBy (h ++ g) x = sentBy h x ++ sentBy g x := by
  simp [sentBy, List.filterMap_append]

theorem prs_sent_one (c : Content) (y x : Node) : sentBy [.prepare c y] x = if y = x then [c] else [] := by
  by_cases h : y = x <;> simp [sentBy, h]

theorem prs_sent_pp (p : Content) (x : Node) : sentBy [.preprepare p] x = [] := rfl

/-- Nothing is wrong exactly if all fields agree. -/
theorem C117_wrong_iff (c p : Content) : wrong c p = none ↔ c = p := by
  cases c; cases p
  unfold wrong
  simp only [Content.mk.injEq]
  constructor
  · intro h
    split at h
    · cases h
    · split at h
      · cases h
      · split at h
        · cases h
        · split at h
          · cases h
          · exact ⟨by omega, by omega, by omega, by omega⟩
  · rintro ⟨rfl, rfl, rfl, rfl⟩
    simp

/-! ### With a PRE-PREPARE -/

theorem prs_recv_known (cfg : Cfg) (s : State) (p : Content) (hp : s.pp = some p) (c : Content) (x : Node) :
    (s.recv cfg c x).pp = some p ∧ (s.recv cfg c x).waiting = s.waiting ∧
      (s.recv cfg c x).votes = (if x ≠ cfg.primary ∧ x ∉ s.votes ∧ c = p then s.votes ++ [x] else s.votes) ∧
      (∀ e ∈ s.reports, e ∈ (s.recv cfg c x).reports) ∧
      (∀ y r, (y, r) ∈ (s.recv cfg c x).reports → (y, r) ∈ s.reports ∨ y = x) ∧
      ((x = cfg.primary ∨ x ∈ s.votes ∨ c ≠ p) ↔ (s.recv cfg c x).reports ≠ s.reports) ∧
      ((x = cfg.primary ∨ x ∈ s.votes ∨ c ≠ p) → Reported (s.recv cfg c x) x) := by
  unfold State.recv
  by_cases h1 : x = cfg.primary
  · rw [if_pos h1]
    simp [State.report, hp, h1, Reported]
    grind
  · rw [if_neg h1]
    by_cases h2 : x ∈ s.votes
    · rw [if_pos h2]
      simp [State.report, hp, h2, Reported, h1]
      grind
    · rw [if_neg h2, hp]
      simp only
      cases hw : wrong c p with
      | none =>
        have hc := (C117_wrong_iff c p).1 hw
        simp [h1, h2, hc]
        intro y r h
        exact .inl h
      | some r =>
        have hc : c ≠ p := fun e => by rw [(C117_wrong_iff c p).2 e] at hw; cases hw
        simp [State.report, hp, h1, h2, hc, Reported]
        grind

/-- PREPAREs taken in one after the other. -/
def prs_all (cfg : Cfg) (s : State) (q : List (Content × Node)) : State := q.foldl (fun s e => s.recv cfg e.1 e.2) s

theorem prs_all_known (cfg : Cfg) (q : List (Content × Node)) (s : State) (p : Content) (hp : s.pp = some p)
    (hn : s.votes.Nodup) :
    (prs_all cfg s q).pp = some p ∧ (prs_all cfg s q).waiting = s.waiting ∧ (prs_all cfg s q).votes.Nodup ∧
      (∀ x, x ∈ (prs_all cfg s q).votes ↔ x ∈ s.votes ∨ (x ≠ cfg.primary ∧ (p, x) ∈ q)) ∧
      (∀ e ∈ s.reports, e ∈ (prs_all cfg s q).reports) ∧
      (∀ c x, (c, x) ∈ q → c ≠ p → Reported (prs_all cfg s q) x) ∧
      (∀ c, (c, cfg.primary) ∈ q → Reported (prs_all cfg s q) cfg.primary) ∧
      (∀ x, x ≠ cfg.primary → x ∉ s.votes → (q.filter (fun e => e.2 = x)).length ≤ 1 → (∀ c, (c, x) ∈ q → c = p) →
        Reported (prs_all cfg s q) x → Reported s x) := by
  induction q generalizing s with
  | nil => exact ⟨hp, rfl, hn, by simp [prs_all], by simp [prs_all], by simp, by simp, fun _ _ _ _ _ h => h⟩
  | cons e q ih =>
    obtain ⟨c, x⟩ := e
    obtain ⟨a1, a2, a3, a4, a5, a6, a7⟩ := prs_recv_known cfg s p hp c x
    have hn' : (s.recv cfg c x).votes.Nodup := by
      rw [a3]
      split
      · next h =>
        refine List.nodup_append.2 ⟨hn, by simp, fun a ha b hb => ?_⟩
        simp only [List.mem_singleton] at hb
        subst hb
        exact fun e => h.2.1 (e ▸ ha)
      · exact hn
    obtain ⟨b1, b2, b3, b4, b5, b6, b7, b8⟩ := ih (s.recv cfg c x) a1 hn'
    rw [show prs_all cfg s ((c, x) :: q) = prs_all cfg (s.recv cfg c x) q from rfl]
    have hrep : ∀ y, Reported (s.recv cfg c x) y → Reported (prs_all cfg (s.recv cfg c x) q) y :=
      fun y ⟨r, hr⟩ => ⟨r, b5 _ hr⟩
    refine ⟨b1, b2.trans a2, b3, fun y => ?_, fun z hz => b5 z (a4 z hz), ?_, ?_, ?_⟩
    · rw [b4, a3]
      split
      · next h =>
        simp only [List.mem_append, List.mem_cons, List.not_mem_nil, or_false, Prod.mk.injEq]
        constructor
        · rintro ((h1 | rfl) | h1)
          · exact .inl h1
          · exact .inr ⟨h.1, .inl ⟨h.2.2.symm, rfl⟩⟩
          · exact .inr ⟨h1.1, .inr h1.2⟩
        · rintro (h1 | ⟨h1, h2 | h2⟩)
          · exact .inl (.inl h1)
          · exact .inl (.inr h2.2)
          · exact .inr ⟨h1, h2⟩
      · next h =>
        simp only [List.mem_cons, Prod.mk.injEq]
        constructor
        · rintro (h1 | h1)
          · exact .inl h1
          · exact .inr ⟨h1.1, .inr h1.2⟩
        · rintro (h1 | ⟨h1, h2 | h2⟩)
          · exact .inl h1
          · left
            refine Classical.byContradiction (fun hv => h ⟨h2.2 ▸ h1, h2.2 ▸ hv, h2.1.symm⟩)
          · exact .inr ⟨h1, h2⟩
    · intro c' x' hm hne
      rcases List.mem_cons.1 hm with h | h
      · cases h
        exact hrep _ (a7 (.inr (.inr hne)))
      · exact b6 c' x' h hne
    · intro c' hm
      rcases List.mem_cons.1 hm with h | h
      · cases h
        exact hrep _ (a7 (.inl rfl))
      · exact b7 c' h
    · intro y h1 h2 h3 h4 h5
      by_cases hxy : x = y
      · subst hxy
        rw [List.filter_cons, if_pos (by simp), List.length_cons] at h3
        have hq : q.filter (fun e => e.2 = x) = [] := List.length_eq_zero_iff.1 (by omega)
        have hno : ∀ c', (c', x) ∉ q := fun c' hc' => by
          have : (c', x) ∈ q.filter (fun e => e.2 = x) := List.mem_filter.2 ⟨hc', by simp⟩
          rw [hq] at this
          cases this
        have hcp : c = p := h4 c (by simp)
        have hsame : (s.recv cfg c x).reports = s.reports := by
          refine Classical.byContradiction (fun hh => ?_)
          rcases a6.2 hh with h | h | h
          · exact h1 h
          · exact h2 h
          · exact h hcp
        -- nothing of `x` is left, so no report on it is added
        have key : ∀ (q : List (Content × Node)) (t : State), t.pp = some p → (∀ c', (c', x) ∉ q) →
            ∀ r, (x, r) ∈ (prs_all cfg t q).reports → (x, r) ∈ t.reports := by
          intro q
          induction q with
          | nil => intro t _ _ r hr; exact hr
          | cons e q ihq =>
            intro t ht hno' r hr
            obtain ⟨c', x'⟩ := e
            obtain ⟨k1, _, _, _, k5, _, _⟩ := prs_recv_known cfg t p ht c' x'
            have := ihq (t.recv cfg c' x') k1 (fun c2 h2 => hno' c2 (by simp [h2])) r hr
            rcases k5 x r this with h | h
            · exact h
            · subst h
              exact absurd (by simp) (hno' c')
        obtain ⟨r, hr⟩ := h5
        have := key q _ a1 hno r hr
        rw [hsame] at this
        exact ⟨r, this⟩
      · rw [List.filter_cons, if_neg (by simpa using hxy)] at h3
        have hv : y ∉ (s.recv cfg c x).votes := by
          rw [a3]
          split
          · simp only [List.mem_append, List.mem_singleton, not_or]
            exact ⟨h2, fun e => hxy e.symm⟩
          · exact h2
        obtain ⟨r, hr⟩ := b8 y h1 hv h3 (fun c' hc' => h4 c' (by simp [hc'])) h5
        rcases a5 y r hr with h | h
        · exact ⟨r, h⟩
        · exact absurd h.symm hxy

/-! ### Over a history -/

/-- The PREPAREs that wait, in order. -/
def prs_waits (cfg : Cfg) (h : List Ev) : List (Content × Node) :=
  h.filterMap (fun e => match e with
    | .prepare c y => if y ≠ cfg.primary then some (c, y) else none
    | .preprepare _ => none)

theorem prs_mem_waits (cfg : Cfg) (h : List Ev) (c : Content) (x : Node) :
    (c, x) ∈ prs_waits cfg h ↔ x ≠ cfg.primary ∧ c ∈ sentBy h x := by
  unfold prs_waits sentBy
  simp only [List.mem_filterMap]
  constructor
  · rintro ⟨e, he, h1⟩
    cases e with
    | preprepare _ => cases h1
    | prepare c' y =>
      simp only at h1
      split at h1
      · next hy => cases h1; exact ⟨hy, _, he, by simp⟩
      · cases h1
  · rintro ⟨hx, e, he, h1⟩
    cases e with
    | preprepare _ => cases h1
    | prepare c' y =>
      simp only at h1
      split at h1
      · next hy => cases h1; subst hy; exact ⟨_, he, by simp [hx]⟩
      · cases h1

theorem prs_waits_len (cfg : Cfg) (h : List Ev) (x : Node) :
    ((prs_waits cfg h).filter (fun e => e.2 = x)).length ≤ (sentBy h x).length := by
  induction h with
  | nil => simp [prs_waits]
  | cons e h ih =>
    rw [show sentBy (e :: h) x = sentBy [e] x ++ sentBy h x from prs_sent_append [e] h x]
    cases e with
    | preprepare p => simpa [prs_waits, prs_sent_pp] using ih
    | prepare c y =>
      rw [prs_sent_one]
      unfold prs_waits at ih ⊢
      rw [List.filterMap_cons]
      by_cases hy : y ≠ cfg.primary
      · simp only [if_pos hy, List.filter_cons]
        by_cases hyx : y = x
        · rw [if_pos (by simpa using hyx), if_pos hyx]
          simp only [List.length_cons, List.length_append, List.length_nil]
          omega
        · rw [if_neg (by simpa using hyx), if_neg hyx]
          simpa using ih
      · simp only [if_neg hy]
        rw [List.length_append]
        omega

/-- What holds of the replica before it has the PRE-PREPARE. -/
theorem prs_before (cfg : Cfg) (h : List Ev) (hp : ppOf h = none) :
    (run cfg h).pp = none ∧ (run cfg h).votes = [] ∧ (Keeps cfg → (run cfg h).waiting = prs_waits cfg h) ∧
      (¬ Keeps cfg → (run cfg h).waiting = [] ∧ ∀ x, sentBy h x ≠ [] → Reported (run cfg h) x) ∧
      (∀ x, Reported (run cfg h) x → sentBy h x ≠ [] ∧ (x = cfg.primary ∨ ¬ Keeps cfg)) ∧
      (sentBy h cfg.primary ≠ [] → Reported (run cfg h) cfg.primary) := by
  induction h using prs_snoc with
  | h0 =>
    refine ⟨rfl, rfl, fun _ => rfl, fun _ => ⟨rfl, fun x hx => absurd rfl hx⟩, ?_, fun hx => absurd rfl hx⟩
    rintro x ⟨r, hr⟩
    cases hr
  | h1 h e ih =>
    rw [prs_pp_append] at hp
    have hp0 : ppOf h = none := by
      cases hq : ppOf h with
      | none => rfl
      | some p => rw [hq] at hp; cases hp
    obtain ⟨i1, i2, i3, i4, i5, i6⟩ := ih hp0
    cases e with
    | preprepare p => rw [hp0] at hp; cases hp
    | prepare c y =>
      rw [prs_run_snoc]
      have hw : prs_waits cfg (h ++ [.prepare c y]) =
          prs_waits cfg h ++ (if y ≠ cfg.primary then [(c, y)] else []) := by
        unfold prs_waits
        rw [List.filterMap_append]
        congr 1
        by_cases hy : y = cfg.primary <;> simp [hy]
      have hs : ∀ x, sentBy (h ++ [.prepare c y]) x = sentBy h x ++ (if y = x then [c] else []) := fun x => by
        rw [prs_sent_append, prs_sent_one]
      simp only [State.step, State.recv]
      by_cases hy : y = cfg.primary
      · rw [if_pos hy]
        have hmono : ∀ x, Reported (run cfg h) x → Reported ((run cfg h).report y .frmPrimary) x :=
          fun x ⟨r, hr⟩ => ⟨r, List.mem_append_left _ hr⟩
        refine ⟨i1, i2, fun hk => ?_, fun hk => ⟨(i4 hk).1, fun x hx => ?_⟩, ?_, fun _ => ⟨.frmPrimary, by simp [State.report, hy]⟩⟩
        · rw [hw, if_neg (by simpa using hy), List.append_nil]
          exact i3 hk
        · by_cases hyx : y = x
          · subst hyx; exact ⟨.frmPrimary, by simp [State.report]⟩
          · rw [hs, if_neg hyx, List.append_nil] at hx
            exact hmono _ ((i4 hk).2 x hx)
        · rintro x ⟨r, hr⟩
          rcases List.mem_append.1 hr with hr | hr
          · obtain ⟨j1, j2⟩ := i5 x ⟨r, hr⟩
            exact ⟨by rw [hs]; simp [j1], j2⟩
          · simp only [List.mem_singleton, Prod.mk.injEq] at hr
            exact ⟨by rw [hs, hr.1]; simp, .inl (hr.1.trans hy)⟩
      · rw [if_neg hy, i2, if_neg (by simp), i1]
        simp only
        by_cases hk : Keeps cfg
        · have hen : (if cfg.me = cfg.primary then
              if cfg.certified = true then (run cfg h).enqueue c y else (run cfg h).report y .unknown
              else (run cfg h).enqueue c y) = (run cfg h).enqueue c y := by
            rcases hk with hk | hk
            · rw [if_neg hk]
            · rw [if_pos hk]; split <;> rfl
          rw [hen]
          refine ⟨i1, i2, fun _ => ?_, fun hk' => absurd hk hk', ?_, ?_⟩
          · rw [hw, if_pos hy]
            show (run cfg h).waiting ++ [(c, y)] = _
            rw [i3 hk]
          · intro x hx
            obtain ⟨j1, j2⟩ := i5 x hx
            exact ⟨by rw [hs]; simp [j1], j2⟩
          · intro hx
            rw [hs, if_neg hy, List.append_nil] at hx
            exact i6 hx
        · have hen : (if cfg.me = cfg.primary then
              if cfg.certified = true then (run cfg h).enqueue c y else (run cfg h).report y .unknown
              else (run cfg h).enqueue c y) = (run cfg h).report y .unknown := by
            unfold Keeps at hk
            rw [if_pos (Classical.byContradiction fun h => hk (.inl h)), if_neg (fun h => hk (.inr h))]
          rw [hen]
          have hmono : ∀ x, Reported (run cfg h) x → Reported ((run cfg h).report y .unknown) x :=
            fun x ⟨r, hr⟩ => ⟨r, List.mem_append_left _ hr⟩
          refine ⟨i1, i2, fun hk' => absurd hk' hk, fun _ => ⟨(i4 hk).1, fun x hx => ?_⟩, ?_, ?_⟩
          · by_cases hyx : y = x
            · subst hyx; exact ⟨.unknown, by simp [State.report]⟩
            · rw [hs, if_neg hyx, List.append_nil] at hx
              exact hmono _ ((i4 hk).2 x hx)
          · rintro x ⟨r, hr⟩
            rcases List.mem_append.1 hr with hr | hr
            · obtain ⟨j1, j2⟩ := i5 x ⟨r, hr⟩
              exact ⟨by rw [hs]; simp [j1], j2⟩
            · simp only [List.mem_singleton, Prod.mk.injEq] at hr
              exact ⟨by rw [hs, hr.1]; simp, .inr hk⟩
          · intro hx
            rw [hs, if_neg hy, List.append_nil] at hx
            exact hmono _ (i6 hx)

/-- A history with a PRE-PREPARE: what came before it, and after it. -/
theorem prs_split (h : List Ev) (p : Content) (hp : ppOf h = some p) :
    ∃ h1 h2, h = h1 ++ .preprepare p :: h2 ∧ ppOf h1 = none := by
  induction h with
  | nil => cases hp
  | cons e h ih =>
    cases e with
    | preprepare p' => cases hp; exact ⟨[], h, rfl, rfl⟩
    | prepare c y =>
      obtain ⟨h1, h2, e1, e2⟩ := ih hp
      exact ⟨.prepare c y :: h1, h2, by rw [e1]; rfl, e2⟩

/-- The PREPAREs after the PRE-PREPARE, which are taken in at once. -/
def prs_after (h : List Ev) : List (Content × Node) :=
  h.filterMap (fun e => match e with
    | .prepare c y => some (c, y)
    | .preprepare _ => none)

theorem prs_mem_after (h : List Ev) (c : Content) (x : Node) : (c, x) ∈ prs_after h ↔ c ∈ sentBy h x := by
  unfold prs_after sentBy
  simp only [List.mem_filterMap]
  constructor
  · rintro ⟨e, he, h1⟩
    cases e with
    | preprepare _ => cases h1
    | prepare c' y => cases h1; exact ⟨_, he, by simp⟩
  · rintro ⟨e, he, h1⟩
    cases e with
    | preprepare _ => cases h1
    | prepare c' y =>
      simp only at h1
      split at h1
      · next hy => cases h1; subst hy; exact ⟨_, he, rfl⟩
      · cases h1

theorem prs_after_len (h : List Ev) (x : Node) :
    ((prs_after h).filter (fun e => e.2 = x)).length = (sentBy h x).length := by
  induction h with
  | nil => rfl
  | cons e h ih =>
    rw [show sentBy (e :: h) x = sentBy [e] x ++ sentBy h x from prs_sent_append [e] h x]
    cases e with
    | preprepare p => simpa [prs_after, prs_sent_pp] using ih
    | prepare c y =>
      rw [prs_sent_one]
      unfold prs_after at ih ⊢
      rw [List.filterMap_cons]
      simp only [List.filter_cons]
      by_cases hyx : y = x
      · rw [if_pos (by simpa using hyx), if_pos hyx]
        simp only [List.length_cons, List.length_append, List.length_nil]
        omega
      · rw [if_neg (by simpa using hyx), if_neg hyx]
        simpa using ih

theorem prs_run_after (cfg : Cfg) (h : List Ev) (s : State) (p : Content) (hp : s.pp = some p) :
    h.foldl (State.step cfg) s = prs_all cfg s (prs_after h) := by
  induction h generalizing s with
  | nil => rfl
  | cons e h ih =>
    cases e with
    | preprepare p' =>
      rw [List.foldl_cons]
      have : s.step cfg (.preprepare p') = s := by simp [State.step, State.accept, hp]
      rw [this, ih s hp]
      rfl
    | prepare c y =>
      rw [List.foldl_cons]
      exact ih _ (prs_recv_known cfg s p hp c y).1

/-- The state when the PRE-PREPARE is accepted, before what waits is taken in. -/
def prs_start (cfg : Cfg) (s : State) (p : Content) : State :=
  { s with pp := some p, votes := if cfg.me = cfg.primary then [] else [cfg.me], waiting := [] }

theorem prs_run_split (cfg : Cfg) (h1 h2 : List Ev) (p : Content) (hp : ppOf h1 = none) :
    run cfg (h1 ++ .preprepare p :: h2) =
      prs_all cfg (prs_start cfg (run cfg h1) p) ((run cfg h1).waiting ++ prs_after h2) := by
  obtain ⟨i1, i2, _⟩ := prs_before cfg h1 hp
  have hacc : (run cfg h1).step cfg (.preprepare p) = prs_all cfg (prs_start cfg (run cfg h1) p) (run cfg h1).waiting := by
    simp only [State.step, State.accept, i1, State.dequeue, prs_all, prs_start, i2, List.nil_append]
  have hn : (prs_start cfg (run cfg h1) p).votes.Nodup := by
    unfold prs_start
    simp only
    split <;> simp
  have hk := (prs_all_known cfg (run cfg h1).waiting (prs_start cfg (run cfg h1) p) p rfl hn).1
  show (h1 ++ .preprepare p :: h2).foldl (State.step cfg) {} = _
  rw [List.foldl_append, List.foldl_cons]
  show h2.foldl (State.step cfg) ((run cfg h1).step cfg (.preprepare p)) = _
  rw [hacc, prs_run_after cfg h2 _ p hk]
  simp [prs_all, List.foldl_append]

theorem prs_start_votes (cfg : Cfg) (s : State) (p : Content) (x : Node) :
    x ∈ (prs_start cfg s p).votes ↔ x = cfg.me ∧ cfg.me ≠ cfg.primary := by
  unfold prs_start
  simp only
  split
  · next h => simp [h]
  · next h => simp [h]

theorem prs_start_nodup (cfg : Cfg) (s : State) (p : Content) : (prs_start cfg s p).votes.Nodup := by
  unfold prs_start
  simp only
  split <;> simp

/-- Counted are, each once: the replica itself unless it is the primary, and the nodes other than the primary that sent a
PREPARE for the PRE-PREPARE it has, whether before or after that one came. So who is counted does not depend on the order in
which messages come, nor on wrong PREPAREs beside the right one. -/
theorem C117_counted (cfg : Cfg) (h : List Ev) (p : Content) (hp : ppOf h = some p) (hk : Keeps cfg) :
    (run cfg h).votes.Nodup ∧ (run cfg h).waiting = [] ∧
      ∀ x, x ∈ (run cfg h).votes ↔ (x = cfg.me ∧ cfg.me ≠ cfg.primary) ∨ (x ≠ cfg.primary ∧ p ∈ sentBy h x) := by
  obtain ⟨h1, h2, rfl, e2⟩ := prs_split h p hp
  rw [prs_run_split cfg h1 h2 p e2]
  obtain ⟨_, _, i3, _⟩ := prs_before cfg h1 e2
  obtain ⟨_, b2, b3, b4, _⟩ := prs_all_known cfg ((run cfg h1).waiting ++ prs_after h2) (prs_start cfg (run cfg h1) p) p rfl
    (prs_start_nodup ..)
  refine ⟨b3, b2, fun x => ?_⟩
  rw [b4, prs_start_votes, List.mem_append, i3 hk, prs_mem_waits, prs_mem_after, prs_sent_append,
    show sentBy (Ev.preprepare p :: h2) x = sentBy h2 x from rfl, List.mem_append]
  constructor
  · rintro (h | ⟨h3, h4 | h4⟩)
    · exact .inl h
    · exact .inr ⟨h3, .inl h4.2⟩
    · exact .inr ⟨h3, .inr h4⟩
  · rintro (h | ⟨h3, h4 | h4⟩)
    · exact .inl h
    · exact .inr ⟨h3, .inl ⟨h3, h4⟩⟩
    · exact .inr ⟨h3, .inr h4⟩

/-- Before the PRE-PREPARE nobody is counted. -/
theorem C117_none_before (cfg : Cfg) (h : List Ev) (hp : ppOf h = none) : (run cfg h).votes = [] :=
  (prs_before cfg h hp).2.1

/-- Who sends a PREPARE that does not match the PRE-PREPARE is reported, whether it came before or after that one. -/
theorem C117_wrong_reported (cfg : Cfg) (h : List Ev) (p : Content) (hp : ppOf h = some p) (x : Node) (c : Content)
    (hc : c ∈ sentBy h x) (hne : c ≠ p) : Reported (run cfg h) x := by
  obtain ⟨h1, h2, rfl, e2⟩ := prs_split h p hp
  rw [prs_run_split cfg h1 h2 p e2]
  obtain ⟨_, _, i3, i4, _, i6⟩ := prs_before cfg h1 e2
  obtain ⟨_, _, _, _, b5, b6, _⟩ := prs_all_known cfg ((run cfg h1).waiting ++ prs_after h2) (prs_start cfg (run cfg h1) p) p
    rfl (prs_start_nodup ..)
  have up : Reported (run cfg h1) x → Reported (prs_all cfg (prs_start cfg (run cfg h1) p) _) x :=
    fun ⟨r, hr⟩ => ⟨r, b5 _ hr⟩
  rw [prs_sent_append, show sentBy (Ev.preprepare p :: h2) x = sentBy h2 x from rfl] at hc
  rcases List.mem_append.1 hc with hc | hc
  · by_cases hx : x = cfg.primary
    · subst hx
      exact up (i6 (List.ne_nil_of_mem hc))
    · by_cases hk : Keeps cfg
      · exact b6 c x (List.mem_append_left _ (by rw [i3 hk, prs_mem_waits]; exact ⟨hx, hc⟩)) hne
      · exact up ((i4 hk).2 x (List.ne_nil_of_mem hc))
  · exact b6 c x (List.mem_append_right _ ((prs_mem_after ..).2 hc)) hne

/-- A primary that sends a PREPARE is reported. -/
theorem C117_primary_reported (cfg : Cfg) (h : List Ev) (hs : sentBy h cfg.primary ≠ []) : Reported (run cfg h) cfg.primary := by
  cases hp : ppOf h with
  | none => exact (prs_before cfg h hp).2.2.2.2.2 hs
  | some p =>
    obtain ⟨h1, h2, rfl, e2⟩ := prs_split h p hp
    rw [prs_run_split cfg h1 h2 p e2]
    obtain ⟨_, _, _, _, _, i6⟩ := prs_before cfg h1 e2
    obtain ⟨_, _, _, _, b5, _, b7, _⟩ := prs_all_known cfg ((run cfg h1).waiting ++ prs_after h2)
      (prs_start cfg (run cfg h1) p) p rfl (prs_start_nodup ..)
    rw [prs_sent_append, show sentBy (Ev.preprepare p :: h2) cfg.primary = sentBy h2 cfg.primary from rfl] at hs
    by_cases h0 : sentBy h1 cfg.primary = []
    · rw [h0, List.nil_append] at hs
      obtain ⟨c, hc⟩ := List.exists_mem_of_ne_nil _ hs
      exact b7 c (List.mem_append_right _ ((prs_mem_after ..).2 hc))
    · obtain ⟨r, hr⟩ := i6 h0
      exact ⟨r, b5 _ hr⟩

/-- An honest backup is never reported, in whatever order messages come and whatever others send. -/
theorem C117_honest_partial (cfg : Cfg) (h : List Ev) (x : Node) (hx : Honest cfg h x) : ¬ Reported (run cfg h) x := by
  intro hr
  cases hp : ppOf h with
  | none =>
    obtain ⟨j1, j2⟩ := (prs_before cfg h hp).2.2.2.2.1 x hr
    rcases hx.after with hk | ha
    · exact j2.elim hx.backup.1 (fun h => h hk)
    · obtain ⟨c, hc⟩ := List.exists_mem_of_ne_nil _ j1
      obtain ⟨e, he, h1⟩ := List.mem_filterMap.1 hc
      cases e with
      | preprepare _ => cases h1
      | prepare c' y =>
        simp only at h1
        split at h1
        · next hy =>
          subst hy
          obtain ⟨g1, g2, rfl⟩ := List.append_of_mem he
          have := ha g1 g2 c' rfl
          rw [prs_pp_append] at hp
          cases hq : ppOf g1 with
          | none => rw [hq] at this; cases this
          | some q => rw [hq] at hp; cases hp
        · cases h1
  | some p =>
    obtain ⟨h1, h2, rfl, e2⟩ := prs_split h p hp
    rw [prs_run_split cfg h1 h2 p e2] at hr
    obtain ⟨_, _, i3, i4, i5, _⟩ := prs_before cfg h1 e2
    obtain ⟨_, _, _, _, _, _, _, b8⟩ := prs_all_known cfg ((run cfg h1).waiting ++ prs_after h2)
      (prs_start cfg (run cfg h1) p) p rfl (prs_start_nodup ..)
    have hsent : sentBy (h1 ++ .preprepare p :: h2) x = sentBy h1 x ++ sentBy h2 x := by
      rw [prs_sent_append]; rfl
    have honce := hx.once
    rw [hsent, List.length_append] at honce
    -- a report on an honest node can only be from before the PRE-PREPARE
    have h0 : ¬ Keeps cfg → sentBy h1 x = [] := by
      intro hk
      refine Classical.byContradiction (fun hne => ?_)
      rcases hx.after with h | ha
      · exact hk h
      · obtain ⟨c, hc⟩ := List.exists_mem_of_ne_nil _ hne
        obtain ⟨e, he, h3⟩ := List.mem_filterMap.1 hc
        cases e with
        | preprepare _ => cases h3
        | prepare c' y =>
          simp only at h3
          split at h3
          · next hy =>
            subst hy
            obtain ⟨g1, g2, rfl⟩ := List.append_of_mem he
            have := ha g1 (g2 ++ .preprepare p :: h2) c' (by simp)
            rw [prs_pp_append] at e2
            cases hq : ppOf g1 with
            | none => rw [hq] at this; cases this
            | some q => rw [hq] at e2; cases e2
          · cases h3
    have hw : ((run cfg h1).waiting.filter (fun e => e.2 = x)).length ≤ (sentBy h1 x).length := by
      by_cases hk : Keeps cfg
      · rw [i3 hk]; exact prs_waits_len cfg h1 x
      · rw [(i4 hk).1]; simp
    have hs : Reported (prs_start cfg (run cfg h1) p) x := by
      refine b8 x hx.backup.1 (fun hv => hx.backup.2 ((prs_start_votes ..).1 hv).1) ?_ ?_ hr
      · rw [List.filter_append, List.length_append, prs_after_len]
        omega
      · intro c hc
        refine hx.same c ?_ p hp
        rw [hsent]
        rcases List.mem_append.1 hc with hc | hc
        · by_cases hk : Keeps cfg
          · rw [i3 hk, prs_mem_waits] at hc
            exact List.mem_append_left _ hc.2
          · rw [(i4 hk).1] at hc; cases hc
        · exact List.mem_append_right _ ((prs_mem_after ..).1 hc)
    obtain ⟨j1, j2⟩ := i5 x hs
    rcases j2 with j2 | j2
    · exact hx.backup.1 j2
    · exact j1 (h0 j2)

/-! ### What the codes say -/

structure PrsTrue (cfg : Cfg) (h : List Ev) (s : State) : Prop where
  pp : s.pp = none ∨ s.pp = ppOf h
  votes : ∀ x ∈ s.votes, ∃ p, ppOf h = some p ∧ (x = cfg.me ∨ p ∈ sentBy h x)
  waiting : ∀ c x, (c, x) ∈ s.waiting → c ∈ sentBy h x
  reports : ∀ x r, (x, r) ∈ s.reports → Justified cfg h x r

theorem prs_true_report (cfg : Cfg) (h : List Ev) (s : State) (hs : PrsTrue cfg h s) (x : Node) (r : Susp)
    (hj : Justified cfg h x r) : PrsTrue cfg h (s.report x r) := by
  refine ⟨hs.pp, hs.votes, hs.waiting, fun y q hq => ?_⟩
  rcases List.mem_append.1 hq with hq | hq
  · exact hs.reports y q hq
  · simp only [List.mem_singleton, Prod.mk.injEq] at hq
    rw [hq.1, hq.2]
    exact hj

theorem prs_true_enqueue (cfg : Cfg) (h : List Ev) (s : State) (hs : PrsTrue cfg h s) (c : Content) (x : Node)
    (hc : c ∈ sentBy h x) : PrsTrue cfg h (s.enqueue c x) := by
  refine ⟨hs.pp, hs.votes, fun d y hq => ?_, hs.reports⟩
  rcases List.mem_append.1 hq with hq | hq
  · exact hs.waiting d y hq
  · simp only [List.mem_singleton, Prod.mk.injEq] at hq
    rw [hq.1, hq.2]
    exact hc

theorem prs_true_recv (cfg : Cfg) (h : List Ev) (s : State) (hs : PrsTrue cfg h s) (c : Content) (x : Node)
    (hc : c ∈ sentBy h x) : PrsTrue cfg h (s.recv cfg c x) := by
  unfold State.recv
  have hne : sentBy h x ≠ [] := List.ne_nil_of_mem hc
  by_cases h1 : x = cfg.primary
  · rw [if_pos h1]
    exact prs_true_report cfg h s hs x _ ⟨h1, hne⟩
  · rw [if_neg h1]
    by_cases h2 : x ∈ s.votes
    · rw [if_pos h2]
      exact prs_true_report cfg h s hs x _ ⟨h1, hs.votes x h2⟩
    · rw [if_neg h2]
      cases hp : s.pp with
      | none =>
        simp only
        split
        · next h3 =>
          split
          · exact prs_true_enqueue cfg h s hs c x hc
          · next h4 => exact prs_true_report cfg h s hs x _ ⟨h1, h3, by simpa using h4, hne⟩
        · exact prs_true_enqueue cfg h s hs c x hc
      | some p =>
        have hph : ppOf h = some p := by
          rcases hs.pp with h | h
          · rw [hp] at h; cases h
          · rw [← h, hp]
        simp only
        cases hw : wrong c p with
        | none =>
          have hcp := (C117_wrong_iff c p).1 hw
          refine ⟨.inr hph.symm, fun y hy => ?_, hs.waiting, hs.reports⟩
          rcases List.mem_append.1 hy with hy | hy
          · exact hs.votes y hy
          · rw [List.mem_singleton.1 hy]
            exact ⟨p, hph, .inr (hcp ▸ hc)⟩
        | some r =>
          refine prs_true_report cfg h s hs x r ?_
          unfold wrong at hw
          split at hw
          · next hd => cases hw; exact ⟨h1, p, hph, c, hc, hd⟩
          · split at hw
            · next hd => cases hw; exact ⟨h1, p, hph, c, hc, hd⟩
            · split at hw
              · next hd => cases hw; exact ⟨h1, p, hph, c, hc, hd⟩
              · split at hw
                · next hd => cases hw; exact ⟨h1, p, hph, c, hc, hd⟩
                · cases hw

theorem prs_true_all (cfg : Cfg) (h : List Ev) (q : List (Content × Node)) (hq : ∀ c x, (c, x) ∈ q → c ∈ sentBy h x) (s : State)
    (hs : PrsTrue cfg h s) : PrsTrue cfg h (prs_all cfg s q) := by
  induction q generalizing s with
  | nil => exact hs
  | cons e q ih =>
    obtain ⟨c, x⟩ := e
    exact ih (fun c x hm => hq c x (by simp [hm])) _ (prs_true_recv cfg h s hs c x (hq c x (by simp)))

theorem prs_true_mono (cfg : Cfg) (h : List Ev) (e : Ev) (s : State) (hs : PrsTrue cfg h s) : PrsTrue cfg (h ++ [e]) s := by
  have hp : ∀ p, ppOf h = some p → ppOf (h ++ [e]) = some p := fun p hp => by rw [prs_pp_append, hp]; rfl
  have hm : ∀ c x, c ∈ sentBy h x → c ∈ sentBy (h ++ [e]) x := fun c x hc => by
    rw [prs_sent_append]; exact List.mem_append_left _ hc
  have hn : ∀ x, sentBy h x ≠ [] → sentBy (h ++ [e]) x ≠ [] := fun x hx => by
    rw [prs_sent_append]; simp [hx]
  refine ⟨?_, ?_, fun c x hc => hm c x (hs.waiting c x hc), fun x r hr => ?_⟩
  · rcases hs.pp with h | h'
    · exact .inl h
    · cases hq : ppOf h with
      | none => exact .inl (h'.trans hq)
      | some p => exact .inr (by rw [h', hq, hp p hq])
  · intro x hx
    obtain ⟨p, h1, h2⟩ := hs.votes x hx
    exact ⟨p, hp p h1, h2.imp id (hm p x)⟩
  · have := hs.reports x r hr
    cases r with
    | frmPrimary => exact ⟨this.1, hn x this.2⟩
    | duplicate =>
      obtain ⟨h0, p, h1, h2⟩ := this
      exact ⟨h0, p, hp p h1, h2.imp id (hm p x)⟩
    | unknown => exact ⟨this.1, this.2.1, this.2.2.1, hn x this.2.2.2⟩
    | digestWrong => obtain ⟨h0, p, h1, c, h2, h3⟩ := this; exact ⟨h0, p, hp p h1, c, hm c x h2, h3⟩
    | stateWrong => obtain ⟨h0, p, h1, c, h2, h3⟩ := this; exact ⟨h0, p, hp p h1, c, hm c x h2, h3⟩
    | txnWrong => obtain ⟨h0, p, h1, c, h2, h3⟩ := this; exact ⟨h0, p, hp p h1, c, hm c x h2, h3⟩
    | auditWrong => obtain ⟨h0, p, h1, c, h2, h3⟩ := this; exact ⟨h0, p, hp p h1, c, hm c x h2, h3⟩

theorem prs_true_run (cfg : Cfg) (h : List Ev) : PrsTrue cfg h (run cfg h) := by
  induction h using prs_snoc with
  | h0 =>
    refine ⟨.inl rfl, ?_, ?_, ?_⟩
    · intro x hx; cases hx
    · intro c x hx; cases hx
    · intro x r hx; cases hx
  | h1 h e ih =>
    have ih' := prs_true_mono cfg h e _ ih
    rw [prs_run_snoc]
    cases e with
    | prepare c x =>
      refine prs_true_recv cfg _ _ ih' c x ?_
      rw [prs_sent_append, prs_sent_one]
      simp
    | preprepare p =>
      simp only [State.step, State.accept]
      cases hp : (run cfg h).pp with
      | some _ => exact ih'
      | none =>
        simp only
        have hnone : ppOf h = none := by
          cases hq : ppOf h with
          | none => rfl
          | some q =>
            obtain ⟨h1, h2, rfl, e2⟩ := prs_split h q hq
            rw [prs_run_split cfg h1 h2 q e2] at hp
            rw [(prs_all_known cfg _ (prs_start cfg (run cfg h1) q) q rfl (prs_start_nodup ..)).1] at hp
            cases hp
        have hpp : ppOf (h ++ [.preprepare p]) = some p := by rw [prs_pp_append, hnone]; rfl
        refine prs_true_all cfg _ (run cfg h).waiting ih'.waiting _ ⟨.inr hpp.symm, ?_, ?_, ih'.reports⟩
        · intro x hx
          simp only at hx
          split at hx
          · exact ih'.votes x hx
          · rcases List.mem_append.1 hx with hx | hx
            · exact ih'.votes x hx
            · exact ⟨p, hpp, .inl (List.mem_singleton.1 hx)⟩
        · intro c x hx; cases hx

/-- What a report says of a node is true: the code names something the node did. -/
theorem C117_reports_true (cfg : Cfg) (h : List Ev) (x : Node) (r : Susp) (hr : (x, r) ∈ (run cfg h).reports) :
    Justified cfg h x r :=
  (prs_true_run cfg h).reports x r hr

/-- Replica 1 of four with primary 0: a right PREPARE of 2 before the PRE-PREPARE, a wrong one and a right one of 3 after it. -/
def prs_hist : List Ev :=
  [.prepare ⟨1, 2, 3, 4⟩ 2, .preprepare ⟨1, 2, 3, 4⟩, .prepare ⟨1, 2, 9, 4⟩ 3, .prepare ⟨1, 2, 3, 4⟩ 3, .prepare ⟨1, 2, 3, 4⟩ 0]

example : (run ⟨1, 0, false⟩ prs_hist).votes = [1, 2, 3] ∧
    (run ⟨1, 0, false⟩ prs_hist).reports = [(3, .txnWrong), (0, .frmPrimary)] := by
  decide

example : Honest ⟨1, 0, false⟩ prs_hist 2 :=
  ⟨by decide, by decide, by simp [prs_hist, sentBy, ppOf], .inl (.inl (by decide))⟩

/-- A node that sends its PREPARE again, as it does when asked for it, is reported although it is honest otherwise. -/
theorem C117_resent_reported :
    ∃ (cfg : Cfg) (h : List Ev) (p : Content) (x : Node), ppOf h = some p ∧ x ≠ cfg.primary ∧ x ≠ cfg.me ∧
      (∀ c ∈ sentBy h x, c = p) ∧ Reported (run cfg h) x :=
  ⟨⟨1, 0, false⟩, [.preprepare ⟨1, 2, 3, 4⟩, .prepare ⟨1, 2, 3, 4⟩ 2, .prepare ⟨1, 2, 3, 4⟩ 2], ⟨1, 2, 3, 4⟩, 2,
    rfl, by decide, by decide, by simp [sentBy], ⟨.duplicate, by decide⟩⟩

/-- Before the PRE-PREPARE nothing keeps a node from having any number of its PREPAREs wait. -/
theorem C117_waiting_unbounded (cfg : Cfg) (hk : Keeps cfg) (x : Node) (hx : x ≠ cfg.primary) (c : Content) (n : Nat) :
    (run cfg (List.replicate n (.prepare c x))).waiting.length = n ∧
      (run cfg (List.replicate n (.prepare c x))).reports = [] := by
  have hp : ppOf (List.replicate n (Ev.prepare c x)) = none := by
    induction n with
    | zero => rfl
    | succ n ih => exact ih
  obtain ⟨_, _, i3, _, i5, _⟩ := prs_before cfg _ hp
  have hl : ∀ n, (prs_waits cfg (List.replicate n (Ev.prepare c x))).length = n := by
    intro n
    induction n with
    | zero => rfl
    | succ n ih =>
      rw [List.replicate_succ]
      unfold prs_waits at ih ⊢
      rw [List.filterMap_cons]
      simp only [if_pos hx, List.length_cons]
      rw [ih]
  constructor
  · rw [i3 hk]
    exact hl n
  · cases hr : (run cfg (List.replicate n (.prepare c x))).reports with
    | nil => rfl
    | cons e l =>
      obtain ⟨y, r⟩ := e
      obtain ⟨j1, j2⟩ := i5 y ⟨r, by rw [hr]; simp⟩
      rcases j2 with j2 | j2
      · refine absurd ?_ j1
        unfold sentBy
        refine List.filterMap_eq_nil_iff.2 (fun e he => ?_)
        rw [List.eq_of_mem_replicate he]
        simp only
        rw [if_neg (fun e => hx (e.trans j2))]
      · exact absurd hk j2

end Verif.Props
