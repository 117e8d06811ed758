import Verif.Model.Throttler
/-!
# C58: throttled actions respect the window
-/
namespace Verif.Props
open Verif.Throttler

/-- The times of the granted calls. -/
def grants (l : List (Int × Bool × Int)) : List Int := (l.filter (fun e => e.2.1)).map (fun e => e.1)

/-- The granted calls that lie in the window ending at `now`. -/
def inWindow (window now : Int) (g : List Int) : List Int := g.filter (fun t => now - t ≤ window)

/-- A throttler that has not been used. -/
def freshThrottler (window : Int) (delay : Nat → Int) : State := ⟨window, delay, []⟩

theorem trim_eq_inWindow (w now : Int) : ∀ l : List Int, l.Pairwise (· ≤ ·) → trim w now l = inWindow w now l
  | [], _ => rfl
  | t :: r, h => by
    unfold trim inWindow
    rw [List.filter_cons]
    have hr := List.pairwise_cons.1 h
    split
    · next hg =>
      rw [if_neg (by simpa using hg)]
      exact trim_eq_inWindow w now r hr.2
    · next hg =>
      rw [if_pos (by simpa using hg)]
      congr 1
      refine (List.filter_eq_self.2 ?_).symm
      intro x hx
      have := hr.1 x hx
      simp only [decide_eq_true_eq]
      omega

theorem inWindow_suffix (w now : Int) (l : List Int) (h : l.Pairwise (· ≤ ·)) : inWindow w now l <:+ l := by
  rw [← trim_eq_inWindow w now l h]
  clear h
  induction l with
  | nil => exact List.suffix_refl _
  | cons t r ih =>
    unfold trim
    split
    · exact ih.trans (List.suffix_cons _ _)
    · exact List.suffix_refl _

theorem inWindow_inWindow (w a b : Int) (h : a ≤ b) (l : List Int) : inWindow w b (inWindow w a l) = inWindow w b l := by
  unfold inWindow
  rw [List.filter_filter]
  refine List.filter_congr ?_
  intro x _
  by_cases h1 : b - x ≤ w
  · have : a - x ≤ w := by omega
    simp [h1, this]
  · simp [h1]

/-- What the log holds: the grants so far, without some that are out of the window. -/
structure LogOk (s : State) (g : List Int) (now : Int) : Prop where
  log : s.actionsLog = inWindow s.windowSize now g
  sorted : g.Pairwise (· ≤ ·)
  past : ∀ t ∈ g, t ≤ now

/-- The decision as it should be: `g` are the earlier grants. -/
def decideAt (window : Int) (delay : Nat → Int) (g : List Int) (now : Int) : Bool × Int :=
  match (inWindow window now g).getLast? with
  | none => (true, 0)
  | some last =>
    if now - last > delay (inWindow window now g).length then (true, 0)
    else (false, last + delay (inWindow window now g).length - now)

theorem acquire_ok {s : State} {g : List Int} {t now : Int} (h : LogOk s g t) (hn : t ≤ now) :
    (acquire s now).1 = decideAt s.windowSize s.delayFunction g now ∧
    (acquire s now).2.windowSize = s.windowSize ∧ (acquire s now).2.delayFunction = s.delayFunction ∧
    (0 ≤ s.windowSize → LogOk (acquire s now).2 (if (acquire s now).1.1 then g ++ [now] else g) now) := by
  have hlog : trim s.windowSize now s.actionsLog = inWindow s.windowSize now g := by
    rw [h.log, trim_eq_inWindow s.windowSize now (inWindow s.windowSize t g) (h.sorted.sublist List.filter_sublist),
      inWindow_inWindow _ _ _ hn]
  have hs : (g ++ [now]).Pairwise (· ≤ ·) := by
    refine List.pairwise_append.2 ⟨h.sorted, List.pairwise_singleton _ _, ?_⟩
    intro a ha b hb
    have := h.past a ha
    rw [List.mem_singleton.1 hb]; omega
  have hp : ∀ x ∈ g ++ [now], x ≤ now := by
    intro x hx
    rcases List.mem_append.1 hx with hx | hx
    · have := h.past x hx; omega
    · rw [List.mem_singleton.1 hx]; omega
  have hp' : ∀ x ∈ g, x ≤ now := fun x hx => hp x (List.mem_append_left _ hx)
  have hw : 0 ≤ s.windowSize → inWindow s.windowSize now (g ++ [now]) = inWindow s.windowSize now g ++ [now] := by
    intro h0
    unfold inWindow
    rw [List.filter_append]
    simp [h0]
  unfold decideAt
  cases hl : (inWindow s.windowSize now g).getLast? with
  | none =>
    have he : acquire s now = ((true, 0), { s with actionsLog := inWindow s.windowSize now g ++ [now] }) := by
      unfold acquire; simp only [hlog, hl]
    rw [he]
    exact ⟨rfl, rfl, rfl, fun h0 => ⟨(hw h0).symm, hs, hp⟩⟩
  | some last =>
    simp only
    by_cases hd : s.delayFunction (inWindow s.windowSize now g).length < now - last
    · have he : acquire s now = ((true, 0), { s with actionsLog := inWindow s.windowSize now g ++ [now] }) := by
        unfold acquire; simp only [hlog, hl, if_pos hd]
      rw [he, if_pos hd]
      exact ⟨rfl, rfl, rfl, fun h0 => ⟨(hw h0).symm, hs, hp⟩⟩
    · have he : acquire s now = ((false, s.delayFunction (inWindow s.windowSize now g).length - (now - last)),
          { s with actionsLog := inWindow s.windowSize now g }) := by
        unfold acquire; simp only [hlog, hl, if_neg hd]
      rw [he, if_neg hd]
      refine ⟨?_, rfl, rfl, fun h0 => ⟨rfl, h.sorted, hp'⟩⟩
      show (false, _) = (false, _)
      congr 1
      omega

theorem run_log {s : State} {g : List Int} {t : Int} (h : LogOk s g t) (h0 : 0 ≤ s.windowSize) :
    ∀ times : List Int, (∀ x ∈ times, t ≤ x) → times.Pairwise (· ≤ ·) →
      ∃ t', LogOk (run s times).2 (g ++ grants (run s times).1) t' ∧ (t' = t ∨ t' ∈ times) ∧
        (run s times).2.windowSize = s.windowSize ∧ (run s times).2.delayFunction = s.delayFunction := by
  intro times
  induction times generalizing s g t with
  | nil => intro _ _; exact ⟨t, by simpa [run, grants] using h, .inl rfl, rfl, rfl⟩
  | cons x r ih =>
    intro ha hs
    have hs' := List.pairwise_cons.1 hs
    obtain ⟨_, e2, e3, h4⟩ := acquire_ok h (ha x List.mem_cons_self)
    obtain ⟨t', k1, k2, k3, k4⟩ := ih (h4 h0) (by rw [e2]; exact h0) hs'.1 hs'.2
    refine ⟨t', ?_, ?_, by rw [← e2]; exact k3, by rw [← e3]; exact k4⟩
    · have : g ++ grants (run s (x :: r)).1 =
          (if (acquire s x).1.1 then g ++ [x] else g) ++ grants (run (acquire s x).2 r).1 := by
        have hr : (run s (x :: r)).1 = (x, (acquire s x).1) :: (run (acquire s x).2 r).1 := rfl
        rw [hr]
        unfold grants
        simp only [List.filter_cons]
        cases (acquire s x).1.1 <;> simp
      rw [this]
      exact k1
    · rcases k2 with k2 | k2
      · exact .inr (by rw [k2]; exact List.mem_cons_self)
      · exact .inr (List.mem_cons_of_mem _ k2)

/-- Every answer, for any window, delay function and call times that do not go back:
with `g` the calls granted so far and `k` those of them within the last `window`,
the call is granted if `k = 0` or more than `delay k` passed since the latest one,
and otherwise the time to wait is what is left of it. -/
theorem throttle_decision (window : Int) (h0 : 0 ≤ window) (delay : Nat → Int) (times : List Int) (now : Int)
    (hs : (times ++ [now]).Pairwise (· ≤ ·)) :
    let r := run (freshThrottler window delay) times
    (acquire r.2 now).1 = decideAt window delay (grants r.1) now := by
  have hs' := List.pairwise_append.1 hs
  cases times with
  | nil => rfl
  | cons x l =>
    have hx : ∀ y ∈ x :: l, x ≤ y := by
      intro y hy
      rcases List.mem_cons.1 hy with hy | hy
      · rw [hy]; omega
      · exact (List.pairwise_cons.1 hs'.1).1 y hy
    obtain ⟨t', k1, k2, k3, k4⟩ := run_log (s := freshThrottler window delay) (g := []) (t := x)
      ⟨rfl, List.Pairwise.nil, by simp⟩ h0 (x :: l) hx hs'.1
    have hle : t' ≤ now := by
      rcases k2 with k2 | k2
      · rw [k2]; exact hs'.2.2 x List.mem_cons_self now (List.mem_singleton.2 rfl)
      · exact hs'.2.2 t' k2 now (List.mem_singleton.2 rfl)
    have := (acquire_ok k1 hle).1
    rw [k3, k4, List.nil_append] at this
    exact this

theorem getLast_suffix {l g : List Int} (h : l <:+ g) {x : Int} (hx : l.getLast? = some x) : g.getLast? = some x := by
  obtain ⟨p, rfl⟩ := h
  rw [List.getLast?_append, hx]
  rfl

theorem run_append (s : State) (a b : List Int) :
    run s (a ++ b) = ((run s a).1 ++ (run (run s a).2 b).1, (run (run s a).2 b).2) := by
  induction a generalizing s with
  | nil => rfl
  | cons x r ih => simp only [List.cons_append, run, ih]

theorem grants_sorted (window : Int) (h0 : 0 ≤ window) (delay : Nat → Int) (times : List Int)
    (hs : times.Pairwise (· ≤ ·)) : (grants (run (freshThrottler window delay) times).1).Pairwise (· ≤ ·) := by
  cases times with
  | nil => exact List.Pairwise.nil
  | cons x l =>
    have hx : ∀ y ∈ x :: l, x ≤ y := by
      intro y hy
      rcases List.mem_cons.1 hy with hy | hy
      · rw [hy]; omega
      · exact (List.pairwise_cons.1 hs).1 y hy
    obtain ⟨t', k1, _⟩ := run_log (s := freshThrottler window delay) (g := []) (t := x)
      ⟨rfl, List.Pairwise.nil, by simp⟩ h0 (x :: l) hx hs
    simpa using k1.sorted

/-- A call that is granted comes more than the required delay after every call granted
before it within the window. -/
theorem throttle_separation (window : Int) (h0 : 0 ≤ window) (delay : Nat → Int) (times : List Int) (now : Int)
    (hs : (times ++ [now]).Pairwise (· ≤ ·)) :
    let r := run (freshThrottler window delay) times
    (acquire r.2 now).1.1 = true → ∀ t ∈ grants r.1, now - t ≤ window →
      now - t > delay (inWindow window now (grants r.1)).length := by
  intro r hg t ht hw
  have hd := throttle_decision window h0 delay times now hs
  simp only at hd
  rw [hd] at hg
  have hsorted := grants_sorted window h0 delay times (List.pairwise_append.1 hs).1
  have hmem : t ∈ inWindow window now (grants r.1) := List.mem_filter.2 ⟨ht, by simpa using hw⟩
  unfold decideAt at hg
  cases hl : (inWindow window now (grants r.1)).getLast? with
  | none =>
    rw [List.getLast?_eq_none_iff] at hl
    rw [hl] at hmem
    simp at hmem
  | some last =>
    rw [show grants (run (freshThrottler window delay) times).1 = grants r.1 from rfl, hl] at hg
    simp only at hg
    split at hg
    · next hgt =>
      have hle : t ≤ last := by
        obtain ⟨ini, he⟩ : ∃ ini, inWindow window now (grants r.1) = ini ++ [last] := by
          refine ⟨(inWindow window now (grants r.1)).dropLast, ?_⟩
          rw [List.getLast?_eq_some_iff] at hl
          obtain ⟨ys, hy⟩ := hl
          rw [hy]; simp
        have hsw := hsorted.sublist (List.filter_sublist (p := fun x => decide (now - x ≤ window)))
        have hsw' : (ini ++ [last]).Pairwise (· ≤ ·) := he ▸ hsw
        rw [he] at hmem
        rcases List.mem_append.1 hmem with hm | hm
        · exact (List.pairwise_append.1 hsw').2.2 t hm last (List.mem_singleton.2 rfl)
        · rw [List.mem_singleton.1 hm]; omega
      omega
    · simp at hg

/-- After a refusal, a retry later than the returned wait is granted, if no more time
is required when fewer actions are in the window. -/
theorem throttle_retry_partial (window : Int) (h0 : 0 ≤ window) (delay : Nat → Int)
    (hmono : ∀ a b, a ≤ b → delay a ≤ delay b) (times : List Int) (now later : Int)
    (hs : (times ++ [now]).Pairwise (· ≤ ·)) (hl : now ≤ later) :
    let r := run (freshThrottler window delay) times
    (acquire r.2 now).1.1 = false → later > now + (acquire r.2 now).1.2 →
      (acquire (acquire r.2 now).2 later).1 = (true, 0) := by
  intro r hf hw
  have hd := throttle_decision window h0 delay times now hs
  simp only at hd
  have hs2 : ((times ++ [now]) ++ [later]).Pairwise (· ≤ ·) := by
    refine List.pairwise_append.2 ⟨hs, List.pairwise_singleton _ _, ?_⟩
    intro a ha b hb
    rw [List.mem_singleton.1 hb]
    rcases List.mem_append.1 ha with ha | ha
    · have := (List.pairwise_append.1 hs).2.2 a ha now (List.mem_singleton.2 rfl)
      omega
    · rw [List.mem_singleton.1 ha]; omega
  have hd2 := throttle_decision window h0 delay (times ++ [now]) later hs2
  simp only [run_append] at hd2
  have hg : grants ((run (freshThrottler window delay) times).1 ++
      (run (run (freshThrottler window delay) times).2 [now]).1) = grants r.1 := by
    unfold grants
    rw [List.filter_append]
    have : (acquire (run (freshThrottler window delay) times).2 now).1.1 = false := hf
    simp [run, this, r]
  rw [hg] at hd2
  rw [hd] at hf hw
  rw [show (acquire (acquire r.2 now).2 later).1 = decideAt window delay (grants r.1) later from hd2]
  have hsorted := grants_sorted window h0 delay times (List.pairwise_append.1 hs).1
  have hnow : inWindow window now (grants r.1) <:+ grants r.1 := inWindow_suffix _ _ _ hsorted
  have hlater : inWindow window later (grants r.1) <:+ grants r.1 := inWindow_suffix _ _ _ hsorted
  have hlen : (inWindow window later (grants r.1)).length ≤ (inWindow window now (grants r.1)).length := by
    rw [← inWindow_inWindow window now later hl]
    exact List.length_filter_le _ _
  unfold decideAt at hf hw ⊢
  rw [show grants (run (freshThrottler window delay) times).1 = grants r.1 from rfl] at hf hw
  cases hk : (inWindow window later (grants r.1)).getLast? with
  | none => rfl
  | some l1 =>
    cases hj : (inWindow window now (grants r.1)).getLast? with
    | none => rw [hj] at hf; simp at hf
    | some l2 =>
      have e : some l1 = some l2 := by rw [← getLast_suffix hlater hk, ← getLast_suffix hnow hj]
      cases e
      rw [hj] at hf hw
      simp only at hf hw ⊢
      split at hf
      · simp at hf
      · next hng =>
        rw [if_neg hng] at hw
        simp only at hw
        have := hmono _ _ hlen
        rw [if_pos (by omega)]

/-- A retry after exactly the returned wait is refused: the wait is one tick short. -/
theorem throttle_exact_wait_refused :
    let s := (acquire (freshThrottler 10 (fun _ => 5)) 0).2
    (acquire s 3).1 = (false, 2) ∧ (acquire (acquire s 3).2 (3 + 2)).1 = (false, 0) := by decide +kernel

/-- Without the condition on the delay function a retry after the wait may be refused. -/
theorem throttle_retry_needs_monotone :
    let s := (run (freshThrottler 10 (fun n => if n = 1 then 9 else 5)) [0, 10]).2
    (acquire s 10).1.1 = false ∧ (acquire (acquire s 10).2 (10 + (acquire s 10).1.2 + 1)).1.1 = false := by
  decide +kernel

/-- Hypotheses met: one action is granted, two are refused, one more is granted. -/
example : (run (freshThrottler 10 (fun n => 2 * n)) [0, 1, 2, 3]).1 =
    [(0, true, 0), (1, false, 1), (2, false, 0), (3, true, 0)] ∧
    ([0, 1, 2, 3] ++ [5] : List Int).Pairwise (· ≤ ·) := by decide +kernel

end Verif.Props
