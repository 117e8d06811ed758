import Verif.Spec.Ready
import Verif.Proofs.Count
/-!
# C112: a node is ready while it has enough connections, and warns once each time it loses the pool
-/
namespace Verif.Props
open Verif Verif.Ready Verif.Ready.Spec

theorem rdy_run_snoc (me : Name) (pool : List Name) (h : List Ev) (e : Ev) :
    Ready.run me pool (h ++ [e]) = (Ready.run me pool h).step e := by
  simp [Ready.run]

theorem rdy_seen_snoc (h : List Ev) (e : Ev) : seen (h ++ [e]) = see (seen h) e := by simp [seen]

theorem rdy_same {a b : List Name} (ha : a.Nodup) (hb : b.Nodup) (h : ∀ x, x ∈ a ↔ x ∈ b) : a.length = b.length :=
  Nat.le_antisymm (length_le_of_subset ha fun x hx => (h x).1 hx) (length_le_of_subset hb fun x hx => (h x).2 hx)

theorem rdy_same_of_empty {c d : List Name} (hc : c.Nodup) (hd : d.Nodup)
    (h : ((c.filter (fun x => decide (x ∉ d))).isEmpty && (d.filter (fun x => decide (x ∉ c))).isEmpty) = true) :
    (∀ x, x ∈ c ↔ x ∈ d) ∧ c.length = d.length := by
  simp only [Bool.and_eq_true, List.isEmpty_iff, List.filter_eq_nil_iff, decide_eq_true_eq, Decidable.not_not] at h
  have : ∀ x, x ∈ c ↔ x ∈ d := fun x => ⟨h.1 x, h.2 x⟩
  exact ⟨this, rdy_same hc hd this⟩

/-- The status after a look. -/
def rdyJudge (total k : Nat) : Status :=
  if k + 1 = total then .started else if k + 1 ≥ minimum total then .hungry else .starting

theorem rdy_inv (me : Name) (pool : List Name) (hp : 4 ≤ pool.length) (h : List Ev)
    (hn : ∀ l, .pool l ∉ h) (hc : ∀ c, .check c ∈ h → c.Nodup) :
    (Ready.run me pool h).total = pool.length ∧
    (Ready.run me pool h).conns = (seen h).2 ∧ (seen h).2.Nodup ∧
    (Ready.run me pool h).status = (if (seen h).1 then rdyJudge pool.length (seen h).2.length else .stopped) ∧
    ((seen h).1 = false → (seen h).2 = []) := by
  induction h using snoc_induction with
  | nil => exact ⟨rfl, rfl, List.nodup_nil, rfl, fun _ => rfl⟩
  | snoc h e ih =>
    obtain ⟨h1, h2, h3, h4, h5⟩ := ih (fun l hl => hn l (by simp [hl])) (fun c hm => hc c (by simp [hm]))
    rw [rdy_run_snoc, rdy_seen_snoc]
    have hg : (Ready.run me pool h).status.going = (seen h).1 := by
      rw [h4]
      cases (seen h).1
      · rfl
      · simp only [if_true, rdyJudge]
        split
        · rfl
        · split <;> rfl
    have hf : 1 ≤ getMaxFailures pool.length := by
      unfold getMaxFailures; rw [if_pos hp]; omega
    have hmin : ¬ (0 + 1 ≥ minimum pool.length) := by unfold minimum; omega
    clear ih
    generalize seen h = p at h1 h2 h3 h4 h5 hg
    obtain ⟨g, cn⟩ := p
    simp only at h2 h3 h4 h5 hg
    cases e with
    | start =>
      simp only [State.step, State.start, see, hg]
      cases g with
      | true => exact ⟨h1, h2, h3, h4, fun e => by cases e⟩
      | false =>
        refine ⟨h1, h2, h3, ?_, fun e => by cases e⟩
        rw [h5 rfl]
        simp only [rdyJudge, List.length_nil, if_true, Bool.false_eq_true, if_false]
        rw [if_neg (show ¬ (0 + 1 = pool.length) by omega), if_neg hmin]
    | stop =>
      simp only [State.step, State.stop, see, hg]
      cases g with
      | true => exact ⟨h1, rfl, List.nodup_nil, rfl, by simp⟩
      | false => exact ⟨h1, h2.trans (h5 rfl), List.nodup_nil, h4, by simp⟩
    | pool l => exact absurd (by simp) (hn l)
    | check c =>
      have hcn : c.Nodup := hc c (by simp)
      simp only [State.step, State.check, see, hg]
      cases g with
      | false => exact ⟨h1, h2, h3, h4, h5⟩
      | true =>
        simp only [Bool.not_true, Bool.false_eq_true, if_false, if_true]
        by_cases hsame : ((c.filter (fun x => decide (x ∉ (Ready.run me pool h).conns))).isEmpty &&
            ((Ready.run me pool h).conns.filter (fun x => decide (x ∉ c))).isEmpty) = true
        · rw [if_pos hsame]
          refine ⟨h1, rfl, hcn, ?_, fun e => by cases e⟩
          have := (rdy_same_of_empty hcn (h2 ▸ h3) hsame).2
          rw [h2] at this
          rw [this]
          exact h4
        · rw [if_neg hsame]
          refine ⟨h1, rfl, hcn, ?_, fun e => by cases e⟩
          simp only [State.onConnsChanged, hg, if_true, h1]
          rfl

/-- C112. In a pool of four or more nodes that does not change, a node that goes is ready just while it is connected, with
itself, to at least 2f + 1 nodes; it is fully started just while it counts as many as the pool has; and a node that was stopped,
or not started, is not ready. -/
theorem C112_ready_partial (me : Name) (pool : List Name) (hp : 4 ≤ pool.length) (h : List Ev)
    (hn : ∀ l, .pool l ∉ h) (hc : ∀ c, .check c ∈ h → c.Nodup) :
    ((Ready.run me pool h).status.ready = true ↔
      (seen h).1 = true ∧ 2 * getMaxFailures pool.length + 1 ≤ (seen h).2.length + 1) ∧
    ((Ready.run me pool h).status = .started ↔ (seen h).1 = true ∧ (seen h).2.length + 1 = pool.length) := by
  obtain ⟨_, _, _, h4, _⟩ := rdy_inv me pool hp h hn hc
  rw [h4]
  have hm : minimum pool.length ≤ pool.length := by
    unfold minimum getMaxFailures; rw [if_pos hp]; omega
  cases (seen h).1 with
  | false => simp [Status.ready]
  | true =>
    simp only [if_true, true_and, rdyJudge, ge_iff_le]
    change _ ∧ _
    have hd : 2 * getMaxFailures pool.length + 1 = minimum pool.length := rfl
    rw [hd]
    by_cases ha : (seen h).2.length + 1 = pool.length
    · rw [if_pos ha]
      exact ⟨⟨fun _ => by omega, fun _ => rfl⟩, ⟨fun _ => ha, fun _ => rfl⟩⟩
    · rw [if_neg ha]
      by_cases hb : minimum pool.length ≤ (seen h).2.length + 1
      · rw [if_pos hb]
        exact ⟨⟨fun _ => hb, fun _ => rfl⟩, ⟨(fun e => by cases e), fun e => absurd e ha⟩⟩
      · rw [if_neg hb]
        exact ⟨⟨(fun e => by cases e), fun e => absurd e hb⟩, ⟨(fun e => by cases e), fun e => absurd e ha⟩⟩

/-- C112. In a pool of 3f + 1 nodes, a ready node has, with itself, the n - f nodes it takes to order. -/
theorem C112_quorum (me : Name) (pool : List Name) (f : Nat) (hf : 1 ≤ f) (hp : pool.length = 3 * f + 1) (h : List Ev)
    (hn : ∀ l, .pool l ∉ h) (hc : ∀ c, .check c ∈ h → c.Nodup)
    (hr : (Ready.run me pool h).status.ready = true) :
    (Quorums.ofN pool.length).strong.isReached ((seen h).2.length + 1) = true := by
  have hk := ((C112_ready_partial me pool (by omega) h hn hc).1.1 hr).2
  have : getMaxFailures pool.length = f := by
    unfold getMaxFailures; rw [if_pos (by omega)]; omega
  simp only [Quorum.isReached, Quorums.ofN, this, decide_eq_true_eq] at hk ⊢
  omega

/-- C112, the other side: in a pool of another size, 2f + 1 nodes can be fewer than n - f, and even no more than half of the
pool: a node with three of six is ready. -/
theorem C112_ready_half (me a b : Name) (hab : a ≠ b) (pool : List Name) (hp : pool.length = 6) :
    (Ready.run me pool [.start, .check [a, b]]).status.ready = true ∧
    (Quorums.ofN pool.length).strong.isReached ([a, b].length + 1) = false := by
  constructor
  · rw [(C112_ready_partial me pool (by omega) _ (by simp) (by simp [hab])).1]
    rw [hp]
    simp [seen, see, getMaxFailures]
  · rw [hp]; simp [Quorums.ofN, Quorum.isReached, getMaxFailures]

/-- C112, the other side: a change of the pool does not change the status, which stays as it is until the connections change. -/
theorem C112_pool_changed (me : Name) (pool : List Name) (h : List Ev) (l c : List Name)
    (hc : ∀ x, x ∈ c ↔ x ∈ (Ready.run me pool h).conns) :
    (Ready.run me pool (h ++ [.pool l])).status = (Ready.run me pool h).status ∧
    (Ready.run me pool (h ++ [.pool l] ++ [.check c])).status = (Ready.run me pool h).status := by
  have h1 : (Ready.run me pool (h ++ [.pool l])).status = (Ready.run me pool h).status := by
    rw [rdy_run_snoc]; rfl
  refine ⟨h1, ?_⟩
  rw [rdy_run_snoc, ← h1]
  have hcn : (Ready.run me pool (h ++ [.pool l])).conns = (Ready.run me pool h).conns := by
    rw [rdy_run_snoc]; rfl
  simp only [State.step, State.check]
  split
  · rfl
  · rw [hcn, if_pos]
    simp only [Bool.and_eq_true, List.isEmpty_iff, List.filter_eq_nil_iff, decide_eq_true_eq, Decidable.not_not]
    exact ⟨fun x hx => (hc x).1 hx, fun x hx => (hc x).2 hx⟩

/-- C112, the other side: a node that is all of its pool never gets ready, however long it goes, as its connections never
change. -/
theorem C112_alone (me : Name) (pool : List Name) (k : Nat) :
    (Ready.run me pool (.start :: List.replicate k (.check []))).status = .starting := by
  have : ∀ k, Ready.run me pool (.start :: List.replicate k (.check [])) = (init me pool).start := by
    intro k
    induction k with
    | zero => rfl
    | succ k ih =>
      rw [List.replicate_succ', ← List.cons_append, rdy_run_snoc, ih]
      rfl
  rw [this]
  rfl

/-! ## Warnings -/

theorem rdy_disconnects (left : List Name) : ∀ (w : Watcher),
    (w.reached = true → getMaxFailures w.n + 1 ≤ w.connected.length) →
    left.foldl Watcher.disconnect w =
      { connected := w.connected.filter (fun y => decide (y ∉ left)), n := w.n
        reached := w.reached && decide (getMaxFailures w.n + 1 ≤ (w.connected.filter (fun y => decide (y ∉ left))).length)
        warned := w.warned + (if w.reached = true ∧
          (w.connected.filter (fun y => decide (y ∉ left))).length < getMaxFailures w.n + 1 then 1 else 0) } := by
  induction left with
  | nil =>
    intro w hw
    have hfil : w.connected.filter (fun y => decide (y ∉ ([] : List Name))) = w.connected := by
      rw [List.filter_eq_self]; simp
    rw [hfil]
    cases hr : w.reached with
    | false =>
      obtain ⟨_, _, _, _⟩ := w
      simp only at hr
      simp [hr]
    | true =>
      have := hw hr
      obtain ⟨c, n, r, k⟩ := w
      simp only at hr this
      have h2 : ¬ c.length < getMaxFailures n + 1 := by omega
      simp [hr, this, h2]
  | cons x l ih =>
    intro w hw
    have hff : w.connected.filter (fun y => decide (y ∉ x :: l))
        = (w.connected.filter (fun y => decide (y ≠ x))).filter (fun y => decide (y ∉ l)) := by
      rw [List.filter_filter]
      apply List.filter_congr
      intro y _
      simp [Bool.and_comm]
    have hle : (w.connected.filter (fun y => decide (y ∉ x :: l))).length
        ≤ (w.connected.filter (fun y => decide (y ≠ x))).length := by
      rw [hff]; exact List.length_filter_le _ _
    rw [List.foldl_cons]
    simp only [Watcher.disconnect, Quorums.ofN, Quorum.isReached]
    cases hr : w.reached with
    | false =>
      simp only [Bool.false_and, Bool.false_eq_true, if_false, false_and, Nat.add_zero]
      rw [ih _ (by simp [hr]), hff]
      simp [hr]
    | true =>
      by_cases hk : getMaxFailures w.n + 1 ≤ (w.connected.filter (fun y => decide (y ≠ x))).length
      · simp only [Bool.true_and, ge_iff_le, hk, decide_true, Bool.not_true, Bool.false_eq_true, if_false, true_and]
        rw [ih _ (fun _ => hk), hff]
        simp [hr]
      · have hk' : ¬ getMaxFailures w.n + 1 ≤ (w.connected.filter (fun y => decide (y ∉ x :: l))).length := by omega
        have hk2 : (w.connected.filter (fun y => decide (y ∉ x :: l))).length < getMaxFailures w.n + 1 := by omega
        simp only [Bool.true_and, ge_iff_le, hk, decide_false, Bool.not_false, if_true, true_and, hk', hk2]
        rw [ih _ (by simp), hff]
        simp

theorem rdy_connects (joined : List Name) : ∀ (w : Watcher),
    joined.Nodup → (∀ x ∈ joined, x ∉ w.connected) →
    (w.n - getMaxFailures w.n ≤ w.connected.length → w.reached = true) →
    joined.foldl Watcher.connect w =
      { connected := w.connected ++ joined, n := w.n, warned := w.warned
        reached := w.reached || decide (w.n - getMaxFailures w.n ≤ (w.connected ++ joined).length) } := by
  induction joined with
  | nil =>
    intro w _ _ hw
    obtain ⟨c, n, r, k⟩ := w
    simp only at hw
    simp only [List.foldl_nil, List.append_nil]
    cases r with
    | true => simp
    | false =>
      have : ¬ n - getMaxFailures n ≤ c.length := fun e => by cases hw e
      simp only [this, decide_false, Bool.or_false]
  | cons x l ih =>
    intro w hnd hdis hw
    have hx : x ∉ w.connected := hdis x (.head _)
    rw [List.foldl_cons]
    simp only [Watcher.connect, hx, if_false, Quorums.ofN, Quorum.isReached]
    rw [ih _ (List.nodup_cons.1 hnd).2]
    · simp only [List.append_assoc, List.singleton_append, ge_iff_le]
      congr 1
      rw [Bool.or_assoc]
      congr 1
      by_cases hk : w.n - getMaxFailures w.n ≤ (w.connected ++ [x]).length
      · have : w.n - getMaxFailures w.n ≤ (w.connected ++ x :: l).length := by
          simp at hk ⊢; omega
        rw [decide_eq_true this, decide_eq_true hk]; rfl
      · rw [decide_eq_false hk]; rfl
    · intro y hy
      simp only [List.mem_append, List.mem_singleton, not_or]
      exact ⟨hdis y (.tail _ hy), fun e => (List.nodup_cons.1 hnd).1 (e ▸ hy)⟩
    · intro hk
      simp only [ge_iff_le] at hk ⊢
      rw [decide_eq_true hk, Bool.or_true]

theorem rdy_strong_weak {n : Nat} (hn : 1 ≤ n) : getMaxFailures n + 1 ≤ n - getMaxFailures n := by
  unfold getMaxFailures
  split <;> omega

theorem rdy_armed_snoc (n : Nat) (cs : List (List Name)) (c : List Name) :
    Armed n (cs ++ [c]) ↔ n - getMaxFailures n ≤ c.length + 1 ∨
      (Armed n cs ∧ getMaxFailures n + 1 ≤ kept (cs.getLastD []) c + 1) := by
  constructor
  · rintro ⟨a, b, hab, hs, hk⟩
    rcases List.eq_nil_or_concat b with rfl | ⟨b', d, rfl⟩
    · left
      rw [List.append_nil] at hab
      rw [← hab] at hs
      simpa using hs
    · right
      rw [List.concat_eq_append] at hab hk
      rw [← List.append_assoc] at hab
      obtain ⟨rfl, hd⟩ := List.append_inj' hab rfl
      cases hd
      refine ⟨⟨a, b', rfl, hs, ?_⟩, ?_⟩
      · intro x e y he
        exact hk x e (y ++ [c]) (by rw [he]; simp)
      · exact hk b' c [] rfl
  · rintro (h | ⟨⟨a, b, rfl, hs, hk⟩, hw⟩)
    · refine ⟨cs ++ [c], [], by simp, by simpa using h, ?_⟩
      intro x e y he
      have := congrArg List.length he
      simp at this
    · refine ⟨a, b ++ [c], by simp, hs, ?_⟩
      intro x e y he
      rcases List.eq_nil_or_concat y with rfl | ⟨y', d, rfl⟩
      · obtain ⟨rfl, he'⟩ := List.append_inj' he rfl
        cases he'
        exact hw
      · rw [List.concat_eq_append, ← List.cons_append, ← List.append_assoc] at he
        obtain ⟨rfl, _⟩ := List.append_inj' he rfl
        exact hk x e y' rfl

/-- What the watcher holds after looks at the connections. -/
structure RdyInv (me : Name) (n : Nat) (cs : List (List Name)) (s : State) : Prop where
  going : s.status.going = true
  conns : s.conns = cs.getLastD []
  nodup : s.conns.Nodup
  notMe : me ∉ s.conns
  size : s.watcher.n = n
  wnodup : s.watcher.connected.Nodup
  wmem : ∀ x, x ∈ s.watcher.connected ↔ x = me ∨ x ∈ s.conns
  armed : s.watcher.reached = true ↔ Armed n cs
  weak : s.watcher.reached = true → getMaxFailures n + 1 ≤ s.conns.length + 1
  strong : n - getMaxFailures n ≤ s.conns.length + 1 → s.watcher.reached = true

theorem RdyInv.wlen {me n cs s} (h : RdyInv me n cs s) : s.watcher.connected.length = s.conns.length + 1 := by
  have := rdy_same h.wnodup (List.nodup_cons.2 ⟨h.notMe, h.nodup⟩) (b := me :: s.conns)
    (fun x => by rw [h.wmem, List.mem_cons])
  simpa using this

theorem rdy_going_judge (s : State) (hg : s.status.going = true) (j l : List Name) :
    (s.onConnsChanged j l).status.going = true := by
  simp only [State.onConnsChanged, hg, if_true]
  split
  · rfl
  · split <;> rfl

theorem rdy_step {me : Name} {n : Nat} (hn : 1 ≤ n) {cs : List (List Name)} {s : State} (h : RdyInv me n cs s)
    {c : List Name} (hc : c.Nodup) (hme : me ∉ c) :
    RdyInv me n (cs ++ [c]) (s.check c) ∧
    (s.check c).watcher.warned = s.watcher.warned +
      (if s.watcher.reached = true ∧ kept s.conns c + 1 < getMaxFailures n + 1 then 1 else 0) := by
  have hlast : (cs ++ [c]).getLastD [] = c := by simp
  have hsw := rdy_strong_weak hn
  unfold State.check
  rw [h.going]
  simp only [Bool.not_true, Bool.false_eq_true, if_false]
  by_cases hsame : ((c.filter (fun x => decide (x ∉ s.conns))).isEmpty &&
      (s.conns.filter (fun x => decide (x ∉ c))).isEmpty) = true
  · obtain ⟨hm, hl⟩ := rdy_same_of_empty hc h.nodup hsame
    have hkept : kept s.conns c = s.conns.length := by
      unfold kept
      rw [List.filter_eq_self.2]
      intro x hx
      simpa using (hm x).2 hx
    rw [if_pos hsame]
    refine ⟨⟨h.going, hlast.symm, hc, hme, h.size, h.wnodup, ?_, ?_, ?_, ?_⟩, ?_⟩
    · intro x
      rw [h.wmem]
      simp only [hm]
    · rw [rdy_armed_snoc n, ← h.conns, hkept]
      constructor
      · intro hr
        exact .inr ⟨h.armed.1 hr, h.weak hr⟩
      · rintro (hs | ⟨ha, _⟩)
        · exact h.strong (by omega)
        · exact h.armed.2 ha
    · intro hr
      have := h.weak hr
      simp only
      omega
    · intro hs
      simp only at hs
      exact h.strong (by omega)
    · rw [hkept]
      have : ¬ (s.watcher.reached = true ∧ s.conns.length + 1 < getMaxFailures n + 1) := by
        rintro ⟨hr, hlt⟩
        have := h.weak hr
        omega
      rw [if_neg this]
      rfl
  · rw [if_neg hsame]
    have hD := rdy_disconnects (s.conns.filter (fun x => decide (x ∉ c))) s.watcher
      (fun hr => by rw [h.size, h.wlen]; exact h.weak hr)
    have hmem1 : ∀ x, x ∈ s.watcher.connected.filter
        (fun y => decide (y ∉ s.conns.filter (fun x => decide (x ∉ c)))) ↔ x = me ∨ (x ∈ s.conns ∧ x ∈ c) := by
      intro x
      simp only [List.mem_filter, h.wmem, decide_eq_true_eq, not_and, Decidable.not_not]
      constructor
      · rintro ⟨hx | hx, h2⟩
        · exact .inl hx
        · exact .inr ⟨hx, h2 hx⟩
      · rintro (rfl | ⟨h1, h2⟩)
        · exact ⟨.inl rfl, fun hx => absurd hx h.notMe⟩
        · exact ⟨.inr h1, fun _ => h2⟩
    have hnd1 := h.wnodup.filter (fun y => decide (y ∉ s.conns.filter (fun x => decide (x ∉ c))))
    have hlen1 : (s.watcher.connected.filter
        (fun y => decide (y ∉ s.conns.filter (fun x => decide (x ∉ c))))).length = kept s.conns c + 1 := by
      have := rdy_same hnd1 (b := me :: s.conns.filter (fun x => decide (x ∈ c)))
        (List.nodup_cons.2 ⟨fun hx => h.notMe (List.mem_filter.1 hx).1, h.nodup.filter _⟩)
        (fun x => by rw [hmem1]; simp)
      simpa [kept] using this
    rw [hlen1, h.size] at hD
    generalize hw1 : s.watcher.connected.filter
        (fun y => decide (y ∉ s.conns.filter (fun x => decide (x ∉ c)))) = l1 at hD hmem1 hnd1 hlen1
    have hJnd : (c.filter (fun x => decide (x ∉ s.conns))).Nodup := hc.filter _
    have hJdis : ∀ x ∈ c.filter (fun x => decide (x ∉ s.conns)), x ∉ l1 := by
      intro x hx
      rw [hmem1]
      rw [List.mem_filter, decide_eq_true_eq] at hx
      rintro (rfl | ⟨h1, _⟩)
      · exact hme hx.1
      · exact hx.2 h1
    have hkle : kept s.conns c ≤ s.conns.length := List.length_filter_le _ _
    have hC := rdy_connects (c.filter (fun x => decide (x ∉ s.conns)))
      ((s.conns.filter (fun x => decide (x ∉ c))).foldl Watcher.disconnect s.watcher) hJnd
      (by rw [hD]; exact hJdis)
      (by
        rw [hD]
        simp only [hlen1]
        intro hs
        rw [h.strong (by omega), Bool.true_and, decide_eq_true_eq]
        omega)
    have hmem2 : ∀ x, x ∈ l1 ++ c.filter (fun x => decide (x ∉ s.conns)) ↔ x = me ∨ x ∈ c := by
      intro x
      rw [List.mem_append, hmem1, List.mem_filter, decide_eq_true_eq]
      constructor
      · rintro ((h1 | ⟨_, h1⟩) | ⟨h1, _⟩)
        · exact .inl h1
        · exact .inr h1
        · exact .inr h1
      · rintro (h1 | h1)
        · exact .inl (.inl h1)
        · by_cases hx : x ∈ s.conns
          · exact .inl (.inr ⟨hx, h1⟩)
          · exact .inr ⟨h1, hx⟩
    have hnd2 : (l1 ++ c.filter (fun x => decide (x ∉ s.conns))).Nodup :=
      List.nodup_append.2 ⟨hnd1, hJnd, fun a ha b hb hab => hJdis b hb (hab ▸ ha)⟩
    have hlen2 : (l1 ++ c.filter (fun x => decide (x ∉ s.conns))).length = c.length + 1 := by
      have := rdy_same hnd2 (b := me :: c) (List.nodup_cons.2 ⟨hme, hc⟩) (fun x => by rw [hmem2]; simp)
      simpa using this
    rw [hD] at hC
    simp only [hlen2] at hC
    have hkc : kept s.conns c ≤ c.length := by
      have := hlen2
      rw [List.length_append, hlen1] at this
      omega
    refine ⟨⟨rdy_going_judge { s with conns := c } h.going _ _, hlast.symm, hc, hme, ?_, ?_, ?_, ?_, ?_, ?_⟩, ?_⟩
    · simp only [State.onConnsChanged]; rw [hD, hC]
    · simp only [State.onConnsChanged]; rw [hD, hC]; exact hnd2
    · simp only [State.onConnsChanged]; rw [hD, hC]; exact hmem2
    · simp only [State.onConnsChanged]; rw [hD, hC]
      simp only
      rw [rdy_armed_snoc n, ← h.conns, ← h.armed, Bool.or_eq_true, Bool.and_eq_true, decide_eq_true_eq,
        decide_eq_true_eq]
      exact or_comm
    · simp only [State.onConnsChanged]; rw [hD, hC]
      simp only [Bool.or_eq_true, Bool.and_eq_true, decide_eq_true_eq]
      rintro (⟨_, h1⟩ | h1) <;> omega
    · simp only [State.onConnsChanged]; rw [hD, hC]
      simp only [Bool.or_eq_true, Bool.and_eq_true, decide_eq_true_eq]
      exact .inr
    · simp only [State.onConnsChanged]; rw [hD, hC]

theorem rdy_watch (me : Name) (pool : List Name) (hp : 1 ≤ pool.length) (cs : List (List Name))
    (hcs : ∀ c ∈ cs, c.Nodup ∧ me ∉ c) :
    RdyInv me pool.length cs (Ready.run me pool (.start :: cs.map .check)) := by
  induction cs using snoc_induction with
  | nil =>
    refine ⟨rfl, rfl, List.nodup_nil, by simp [Ready.run, State.step, State.start, init, Status.going], rfl, ?_, ?_, ?_, ?_, ?_⟩
    · simp [Ready.run, State.step, State.start, init, Status.going, Watcher.connect, Watcher.setNodes]
    · intro x
      simp [Ready.run, State.step, State.start, init, Status.going, Watcher.connect, Watcher.setNodes]
    · simp only [List.map_nil, Ready.run, List.foldl, State.step, State.start, init, Status.going, Watcher.connect,
        Watcher.setNodes, Quorums.ofN, Quorum.isReached]
      constructor
      · intro hr
        refine ⟨[], [], rfl, by simpa using hr, ?_⟩
        intro x c y e
        have := congrArg List.length e
        simp at this
      · rintro ⟨a, b, hab, hs, _⟩
        obtain ⟨rfl, rfl⟩ := List.append_eq_nil_iff.1 hab.symm
        simpa using hs
    · intro hr
      have hs := rdy_strong_weak hp
      have : pool.length - getMaxFailures pool.length ≤ 1 := by
        simpa [Ready.run, State.step, State.start, init, Status.going, Watcher.connect, Watcher.setNodes, Quorums.ofN,
          Quorum.isReached] using hr
      simp only [List.map_nil, Ready.run, List.foldl, State.step, State.start, init, Status.going, Bool.false_eq_true,
        if_false, List.length_nil]
      omega
    · intro hs
      simpa [Ready.run, State.step, State.start, init, Status.going, Watcher.connect, Watcher.setNodes, Quorums.ofN,
          Quorum.isReached] using hs
  | snoc cs c ih =>
    rw [List.map_append, List.map_singleton, ← List.cons_append, rdy_run_snoc]
    obtain ⟨h1, h2⟩ := hcs c (by simp)
    exact (rdy_step hp (ih fun d hd => hcs d (by simp [hd])) h1 h2).1

/-- C112. In a pool that does not change, a node that was started warns at a look at its connections just if it had n - f
nodes, with itself, at a look since the last warning, and now no more than f, with itself, are left of those it had; and then
it warns once. -/
theorem C112_warns (me : Name) (pool : List Name) (hp : 1 ≤ pool.length) (cs : List (List Name)) (c : List Name)
    (hcs : ∀ d ∈ cs ++ [c], d.Nodup ∧ me ∉ d) :
    (Armed pool.length cs ∧ kept (cs.getLastD []) c + 1 ≤ getMaxFailures pool.length →
      (Ready.run me pool (.start :: (cs ++ [c]).map .check)).watcher.warned
        = (Ready.run me pool (.start :: cs.map .check)).watcher.warned + 1) ∧
    (¬ (Armed pool.length cs ∧ kept (cs.getLastD []) c + 1 ≤ getMaxFailures pool.length) →
      (Ready.run me pool (.start :: (cs ++ [c]).map .check)).watcher.warned
        = (Ready.run me pool (.start :: cs.map .check)).watcher.warned) := by
  have hi := rdy_watch me pool hp cs (fun d hd => hcs d (by simp [hd]))
  obtain ⟨h1, h2⟩ := hcs c (by simp)
  have hw := (rdy_step hp hi h1 h2).2
  rw [List.map_append, List.map_singleton, ← List.cons_append, rdy_run_snoc]
  simp only [State.step]
  rw [hw, hi.conns]
  constructor
  · rintro ⟨h1, h2⟩; rw [if_pos ⟨hi.armed.2 h1, by omega⟩]
  · intro h
    rw [if_neg (fun e => h ⟨hi.armed.1 e.1, by omega⟩)]
    rfl

/-- C112, the other side: whether the pool was lost is asked before the nodes that joined are counted: a node of four that is
connected to the others, and at the next look to as many others, none of them the same, warns. -/
theorem C112_replaced (me : Name) (pool a b : List Name) (hp : pool.length = 4) (ha : a.length = 3)
    (hna : a.Nodup ∧ me ∉ a) (hnb : b.Nodup ∧ me ∉ b) (hdis : ∀ x ∈ a, x ∉ b) :
    (Ready.run me pool [.start, .check a, .check b]).watcher.warned
      = (Ready.run me pool [.start, .check a]).watcher.warned + 1 := by
  refine (C112_warns me pool (by omega) [a] b (by simp [hna, hnb])).1 ⟨⟨[a], [], rfl, ?_, ?_⟩, ?_⟩
  · simp [ha, hp]
  · intro x c y e
    have := congrArg List.length e
    simp at this
  · have : kept a b = 0 := by
      unfold kept
      rw [List.length_eq_zero_iff, List.filter_eq_nil_iff]
      intro x hx
      simpa using hdis x hx
    rw [hp]
    simp [this, getMaxFailures]

/-- C112, the other side: stopping drops the connections without a word to the watcher, so after a stop and a start it goes on
counting nodes that are gone. -/
theorem C112_stop (me : Name) (pool : List Name) (h : List Ev) :
    (Ready.run me pool (h ++ [.stop] ++ [.start])).watcher = (Ready.run me pool h).watcher := by
  rw [rdy_run_snoc, rdy_run_snoc]
  simp only [State.step, State.stop, State.start]
  split
  · rfl
  · simp

/-! ## Cases -/

example : (Ready.run 0 [0, 1, 2, 3] [.start, .check [1]]).status = .starting ∧
    (Ready.run 0 [0, 1, 2, 3] [.start, .check [1, 2]]).status = .hungry ∧
    (Ready.run 0 [0, 1, 2, 3] [.start, .check [1, 2], .check [3, 2, 1]]).status = .started ∧
    (Ready.run 0 [0, 1, 2, 3] [.start, .check [1, 2], .check []]).status = .starting ∧
    (Ready.run 0 [0, 1, 2, 3] [.start, .check [1, 2], .stop]).status = .stopped := by decide

/-- A pool that grows: the node stays started with four of seven, although it takes five to be ready. -/
example : (Ready.run 0 [0, 1, 2, 3] [.start, .check [1, 2, 3], .pool [0, 1, 2, 3, 4, 5, 6]]).status = .started ∧
    minimum 7 = 5 := by decide

/-- One warning, no second one while the pool is not reached again, then another one. -/
example : (Ready.run 0 [0, 1, 2, 3] [.start, .check [1, 2], .check []]).watcher.warned = 1 ∧
    (Ready.run 0 [0, 1, 2, 3] [.start, .check [1, 2], .check [], .check [1], .check []]).watcher.warned = 1 ∧
    (Ready.run 0 [0, 1, 2, 3] [.start, .check [1, 2], .check [], .check [1, 3], .check []]).watcher.warned = 2 := by decide

/-- After a change of the pool the new size counts for the warning, but only at the next change of connections. -/
example : (Ready.run 0 [0, 1, 2, 3] [.start, .check [1, 2, 3], .check [1]]).watcher.warned = 0 ∧
    (Ready.run 0 [0, 1, 2, 3] [.start, .check [1, 2, 3], .pool [0, 1, 2, 3, 4, 5, 6], .check [1]]).watcher.warned = 1 ∧
    (Ready.run 0 [0, 1, 2, 3] [.start, .check [1, 2, 3], .check [1], .pool [0, 1, 2, 3, 4, 5, 6], .check [1]]).watcher.warned
      = 0 := by decide

example : Armed 4 [[1, 2], [2]] :=
  ⟨[[1, 2]], [[2]], rfl, by decide, by
    intro x c y e
    cases x with
    | nil => simp at e; obtain ⟨rfl, _⟩ := e; decide
    | cons a x =>
      have := congrArg List.length e
      simp at this⟩

end Verif.Props
