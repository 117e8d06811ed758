import Verif.Proofs.MonitorMeas
/-! # Bounds for the throughput -/
namespace Verif.Monitor
open Verif Verif.Spec.Monitor

/-- What is left of a value after one window. -/
def Cfg.keep (c : Cfg) : Rat := 1 - c.alpha

/-- Settings for which measuring makes sense. -/
structure Cfg.Ok (c : Cfg) : Prop where
  window : 0 < c.window
  minCnt : 2 ≤ c.minCnt

theorem alpha_pos (c : Cfg) : 0 < c.alpha := by
  unfold Cfg.alpha
  have : (0 : Rat) ≤ (c.minCnt : Rat) := Rat.natCast_nonneg
  rw [Rat.lt_div_iff (by grind)]
  grind

theorem alpha_lt {c : Cfg} (h : c.Ok) : c.alpha < 1 := by
  unfold Cfg.alpha
  have h2 : ((2 : Nat) : Rat) ≤ (c.minCnt : Rat) := Rat.natCast_le_natCast.mpr h.minCnt
  have e : ((2 : Nat) : Rat) = 2 := rfl
  rw [Rat.div_lt_iff (by grind)]
  grind

theorem keep_pos {c : Cfg} (h : c.Ok) : 0 < c.keep := by
  have := alpha_lt h
  unfold Cfg.keep
  grind

theorem keep_lt (c : Cfg) : c.keep < 1 := by
  have := alpha_pos c
  unfold Cfg.keep
  grind

theorem keep_alpha (c : Cfg) : c.alpha = 1 - c.keep := by
  unfold Cfg.keep
  grind

theorem pow_nonneg {c : Cfg} (h : c.Ok) (n : Nat) : 0 ≤ c.keep ^ n := Rat.pow_nonneg (Rat.le_of_lt (keep_pos h))

theorem pow_step {c : Cfg} (h : c.Ok) (n : Nat) : c.keep ^ (n + 1) ≤ c.keep ^ n := by
  rw [Rat.pow_succ]
  have h1 := Rat.mul_le_mul_of_nonneg_right (Rat.le_of_lt (keep_lt c)) (pow_nonneg h n)
  grind

theorem pow_anti {c : Cfg} (h : c.Ok) {a b : Nat} (hab : a ≤ b) : c.keep ^ b ≤ c.keep ^ a := by
  induction hab with
  | refl => exact Rat.le_refl
  | step _ ih => exact Rat.le_trans (pow_step h _) ih

theorem pow_le_one {c : Cfg} (h : c.Ok) (n : Nat) : c.keep ^ n ≤ 1 := by
  have := pow_anti h (Nat.zero_le n)
  rwa [Rat.pow_zero] at this

theorem acc_some (c : Cfg) (o x : Rat) : acc c (some o) x = some (c.keep * o + (1 - c.keep) * x) := by
  unfold acc Cfg.keep
  simp
  grind

theorem accN_some (c : Cfg) (x : Rat) (n : Nat) (o : Rat) : accN c x n (some o) = some (c.keep ^ n * o + (1 - c.keep ^ n) * x) := by
  induction n generalizing o with
  | zero =>
    simp [accN, Rat.pow_zero]
    grind
  | succ n ih =>
    show accN c x n (acc c (some o) x) = _
    rw [acc_some, ih, Rat.pow_succ]
    congr 1
    grind

theorem rate_zero (c : Cfg) : rate c 0 = 0 := by
  unfold rate
  show (0 : Rat) / _ = 0
  rw [Rat.div_def, Rat.zero_mul]

theorem div_le_div {a b w : Rat} (hw : 0 < w) (h : a ≤ b) : a / w ≤ b / w := by
  rw [Rat.div_def, Rat.div_def]
  exact Rat.mul_le_mul_of_nonneg_right h (Rat.le_of_lt (Rat.inv_pos.mpr hw))

theorem cast_pos {n : Nat} (h : 0 < n) : (0 : Rat) < (n : Rat) := Rat.natCast_pos.mpr h

theorem rate_mono {c : Cfg} (h : c.Ok) {a b : Nat} (hab : a ≤ b) : rate c a ≤ rate c b :=
  div_le_div (cast_pos h.window) (Rat.natCast_le_natCast.mpr hab)

theorem rate_nonneg {c : Cfg} (h : c.Ok) (n : Nat) : 0 ≤ rate c n := by
  have := rate_mono h (Nat.zero_le n)
  rwa [rate_zero] at this

/-- The rate in a levelled window. -/
def levelRate (c : Cfg) (reqs n : Nat) : Rat := (reqs : Rat) / (n : Rat) / (c.window : Rat)

theorem levelRate_le {c : Cfg} (h : c.Ok) {reqs n a : Nat} (hn : 0 < n) (hr : reqs ≤ a * n) : levelRate c reqs n ≤ rate c a := by
  apply div_le_div (cast_pos h.window)
  have h1 : (reqs : Rat) ≤ ((a * n : Nat) : Rat) := Rat.natCast_le_natCast.mpr hr
  have h2 := div_le_div (cast_pos hn) h1
  refine Rat.le_trans h2 ?_
  rw [Rat.natCast_mul, Rat.div_def, Rat.mul_assoc, Rat.mul_inv_cancel _ (by have := cast_pos hn; grind), Rat.mul_one]
  exact Rat.le_refl

theorem levelRate_ge {c : Cfg} (h : c.Ok) {reqs n a : Nat} (hn : 0 < n) (hr : a * n ≤ reqs) : rate c a ≤ levelRate c reqs n := by
  apply div_le_div (cast_pos h.window)
  have h1 : ((a * n : Nat) : Rat) ≤ (reqs : Rat) := Rat.natCast_le_natCast.mpr hr
  have h2 := div_le_div (cast_pos hn) h1
  refine Rat.le_trans ?_ h2
  rw [Rat.natCast_mul, Rat.div_def, Rat.mul_assoc, Rat.mul_inv_cancel _ (by have := cast_pos hn; grind), Rat.mul_one]
  exact Rat.le_refl

theorem levelRate_nonneg {c : Cfg} (h : c.Ok) {reqs n : Nat} (hn : 0 < n) : 0 ≤ levelRate c reqs n := by
  have := levelRate_ge h (a := 0) (reqs := reqs) hn (by omega)
  rwa [rate_zero] at this

/-! ## The seven kinds of window -/

theorem normal_some {c : Cfg} {m : Meas} {n : Nat} (hp : m.phase = .normal) (hn : 0 < n) :
    windowOf c m n = { m with thr := acc c m.thr (rate c n), start := m.start + c.window, reqs := 0 } := by
  unfold windowOf window process windowNormal
  simp [hp, show n ≠ 0 by omega]

theorem normal_none {c : Cfg} {m : Meas} (hp : m.phase = .normal) :
    windowOf c m 0 =
      { m with phase := .idle, before := m.thr, empty := 1, thr := acc c m.thr 0, start := m.start + c.window, reqs := 0 } := by
  unfold windowOf window process windowNormal
  simp [hp, rate_zero]

theorem idle_some {c : Cfg} {m : Meas} {n : Nat} (hp : m.phase = .idle) (hn : 0 < n) :
    windowOf c m n = { m with phase := .normal, thr := acc c m.thr (rate c n), start := m.start + c.window, reqs := 0 } := by
  unfold windowOf window process windowIdle
  simp [hp, show n ≠ 0 by omega]

theorem idle_none {c : Cfg} {m : Meas} (hp : m.phase = .idle) :
    windowOf c m 0 =
      { m with phase := if m.empty + 1 = c.minCnt then .faded else .idle, empty := m.empty + 1, thr := acc c m.thr 0,
               start := m.start + c.window, reqs := 0 } := by
  unfold windowOf window process windowIdle
  simp [hp, rate_zero]

theorem faded_some {c : Cfg} {m : Meas} {n : Nat} (hp : m.phase = .faded) (hn : 0 < n) :
    windowOf c m n =
      { m with phase := .revival, revWins := 1, revReqs := n, thr := none, start := m.start + c.window, reqs := 0 } := by
  unfold windowOf window process windowFaded
  simp [hp, show n ≠ 0 by omega]

theorem faded_none {c : Cfg} {m : Meas} (hp : m.phase = .faded) :
    windowOf c m 0 = { m with empty := m.empty + 1, thr := acc c m.thr 0, start := m.start + c.window, reqs := 0 } := by
  unfold windowOf window process windowFaded
  simp [hp]

theorem revival_some {c : Cfg} {m : Meas} {n : Nat} (hp : m.phase = .revival) (hn : 0 < n) (hr : m.revWins + 1 ≠ c.minCnt) :
    windowOf c m n = { m with revWins := m.revWins + 1, revReqs := m.revReqs + n, start := m.start + c.window, reqs := 0 } := by
  unfold windowOf window process windowRevival
  simp [hp, hn, hr]

theorem revival_done {c : Cfg} {m : Meas} {n : Nat} (hp : m.phase = .revival) (hn : 0 < n) (hr : m.revWins + 1 = c.minCnt) :
    windowOf c m n =
      { m with revWins := m.revWins + 1, revReqs := m.revReqs + n, start := m.start + c.window, reqs := 0, phase := .normal,
               thr := accN c (levelRate c (m.revReqs + n) (m.empty + (m.revWins + 1))) (m.empty + (m.revWins + 1)) m.before } := by
  unfold windowOf window process windowRevival level levelRate
  simp [hp, hn, hr]

theorem revival_none {c : Cfg} {m : Meas} (hp : m.phase = .revival) :
    windowOf c m 0 =
      { m with start := m.start + c.window, reqs := 0, phase := .idle, empty := 1,
               before := accN c (levelRate c m.revReqs (m.empty + m.revWins)) (m.empty + m.revWins) m.before,
               thr := acc c (accN c (levelRate c m.revReqs (m.empty + m.revWins)) (m.empty + m.revWins) m.before) 0 } := by
  unfold windowOf window process windowRevival revivalEnd level levelRate
  simp [hp]

/-! ## A shape that always holds -/

/-- The value is there except during a revival. -/
def Shape (c : Cfg) (m : Meas) : Prop :=
  ∃ b : Rat, m.before = some b ∧ 0 ≤ b ∧
    (m.phase = .revival ∧ m.thr = none ∧ 1 ≤ m.revWins ∧ m.revWins < c.minCnt ∨
     m.phase ≠ .revival ∧ ∃ x : Rat, m.thr = some x ∧ 0 ≤ x) ∧
    (m.phase = .idle → 1 ≤ m.empty ∧ m.empty < c.minCnt)

theorem mix_nonneg {q x y : Rat} (h0 : 0 ≤ q) (h1 : q ≤ 1) (hx : 0 ≤ x) (hy : 0 ≤ y) : 0 ≤ q * x + (1 - q) * y := by
  have a := Rat.mul_nonneg h0 hx
  have b := Rat.mul_nonneg (show 0 ≤ 1 - q by grind) hy
  grind

theorem mix_le {q x y X Y : Rat} (h0 : 0 ≤ q) (h1 : q ≤ 1) (hx : x ≤ X) (hy : y ≤ Y) : q * x + (1 - q) * y ≤ q * X + (1 - q) * Y := by
  have a := Rat.mul_le_mul_of_nonneg_left hx h0
  have b := Rat.mul_le_mul_of_nonneg_left hy (show 0 ≤ 1 - q by grind)
  grind

theorem shape_window {c : Cfg} (h : c.Ok) {m : Meas} (n : Nat) (hs : Shape c m) : Shape c (windowOf c m n) := by
  obtain ⟨b, hb, b0, hph, hid⟩ := hs
  have k0 := Rat.le_of_lt (keep_pos h)
  have k1 := Rat.le_of_lt (keep_lt c)
  have h2 := h.minCnt
  rcases hph with ⟨hp, ht, h1, hlt⟩ | ⟨hp, x, hx, x0⟩
  · rcases Nat.eq_zero_or_pos n with hn | hn
    · subst hn
      rw [revival_none hp]
      have hl : 0 ≤ levelRate c m.revReqs (m.empty + m.revWins) := levelRate_nonneg h (by omega)
      have hv := mix_nonneg (pow_nonneg h (m.empty + m.revWins)) (pow_le_one h _) b0 hl
      refine ⟨_, by dsimp only; rw [hb, accN_some], hv, Or.inr ⟨nofun, ?_⟩, fun _ => ⟨Nat.le_refl _, h2⟩⟩
      exact ⟨_, by dsimp only; rw [hb, accN_some, acc_some], mix_nonneg k0 k1 hv Rat.le_refl⟩
    · by_cases hd : m.revWins + 1 = c.minCnt
      · rw [revival_done hp hn hd]
        have hl : 0 ≤ levelRate c (m.revReqs + n) (m.empty + (m.revWins + 1)) := levelRate_nonneg h (by omega)
        exact ⟨b, hb, b0, Or.inr ⟨nofun, _, by dsimp only; rw [hb, accN_some],
          mix_nonneg (pow_nonneg h _) (pow_le_one h _) b0 hl⟩, nofun⟩
      · rw [revival_some hp hn hd]
        refine ⟨b, hb, b0, Or.inl ⟨hp, ht, ?_, ?_⟩, fun hh => ?_⟩
        · show 1 ≤ m.revWins + 1
          omega
        · show m.revWins + 1 < _
          omega
        · rw [show _ = m.phase from rfl, hp] at hh
          nomatch hh
  · rcases hq : m.phase with _ | _ | _ | _
    · rcases Nat.eq_zero_or_pos n with hn | hn
      · subst hn
        rw [normal_none hq]
        exact ⟨x, hx, x0, Or.inr ⟨nofun, _, by dsimp only; rw [hx, acc_some], mix_nonneg k0 k1 x0 Rat.le_refl⟩,
          fun _ => ⟨Nat.le_refl _, h2⟩⟩
      · rw [normal_some hq hn]
        exact ⟨b, hb, b0, Or.inr ⟨hp, _, by dsimp only; rw [hx, acc_some], mix_nonneg k0 k1 x0 (rate_nonneg h n)⟩, hid⟩
    · rcases Nat.eq_zero_or_pos n with hn | hn
      · subst hn
        rw [idle_none hq]
        have := hid hq
        refine ⟨b, hb, b0, Or.inr ⟨?_, _, by dsimp only; rw [hx, acc_some], mix_nonneg k0 k1 x0 Rat.le_refl⟩, fun hh => ?_⟩
        · dsimp only
          split <;> nofun
        · dsimp only at hh ⊢
          split at hh
          · nomatch hh
          · omega
      · rw [idle_some hq hn]
        exact ⟨b, hb, b0, Or.inr ⟨nofun, _, by dsimp only; rw [hx, acc_some], mix_nonneg k0 k1 x0 (rate_nonneg h n)⟩, nofun⟩
    · rcases Nat.eq_zero_or_pos n with hn | hn
      · subst hn
        rw [faded_none hq]
        refine ⟨b, hb, b0, Or.inr ⟨hp, _, by dsimp only; rw [hx, acc_some], mix_nonneg k0 k1 x0 Rat.le_refl⟩, fun hh => ?_⟩
        rw [show _ = m.phase from rfl, hq] at hh
        nomatch hh
      · rw [faded_some hq hn]
        exact ⟨b, hb, b0, Or.inl ⟨rfl, rfl, Nat.le_refl _, h2⟩, nofun⟩
    · exact absurd hq hp

theorem shape_new (c : Cfg) (t : Nat) : Shape c (newMeas t) :=
  ⟨0, rfl, Rat.le_refl, Or.inr ⟨nofun, 0, rfl, Rat.le_refl⟩, nofun⟩

theorem shape_replay {c : Cfg} (h : c.Ok) (ns : List Nat) {m : Meas} (hs : Shape c m) : Shape c (replay c m ns) := by
  induction ns generalizing m with
  | nil => exact hs
  | cons n ns ih => exact ih (shape_window h n hs)

/-! ## At most -/

/-- All values are at most what `B` says, `k` windows after the rate has become `a`. -/
def Below (c : Cfg) (a M : Nat) (B : Nat → Rat) (k : Nat) (m : Meas) : Prop :=
  (∀ x, m.thr = some x → x ≤ B k) ∧
  ((m.phase = .idle ∨ m.phase = .faded) → ∀ b, m.before = some b → b ≤ B (k - m.empty)) ∧
  (m.phase = .revival →
    (m.revReqs ≤ a * m.revWins ∧ ∀ b, m.before = some b → b ≤ B (k - m.empty - m.revWins)) ∨
    (k < m.revWins ∧ m.revReqs ≤ M * m.revWins ∧ ∀ b, m.before = some b → b ≤ rate c M))

/-- What is asked of `B`. -/
structure Falls (c : Cfg) (a M : Nat) (B : Nat → Rat) : Prop where
  anti : ∀ i j, i ≤ j → B j ≤ B i
  step : ∀ j, c.keep * B j + (1 - c.keep) * rate c a ≤ B (j + 1)
  top : ∀ j, j ≤ c.minCnt → rate c M ≤ B j
  low : ∀ j, rate c a ≤ B j

theorem Falls.steps {c : Cfg} (h : c.Ok) {a M : Nat} {B : Nat → Rat} (hB : Falls c a M B) (n j : Nat) :
    c.keep ^ n * B j + (1 - c.keep ^ n) * rate c a ≤ B (j + n) := by
  induction n with
  | zero =>
    rw [Rat.pow_zero, Nat.add_zero]
    grind
  | succ n ih =>
    have h1 := mix_le (Rat.le_of_lt (keep_pos h)) (Rat.le_of_lt (keep_lt c)) ih (Rat.le_refl (a := rate c a))
    have h2 := hB.step (j + n)
    rw [Rat.pow_succ]
    rw [Nat.add_assoc] at h2
    grind

theorem some_eq {α} {x y : α} (h : some x = some y) : x = y := by cases h; rfl

theorem below_window {c : Cfg} (h : c.Ok) {a M : Nat} (haM : a ≤ M) {B : Nat → Rat} (hB : Falls c a M B) {k : Nat} {m : Meas} {n : Nat}
    (hs : Shape c m) (hm : Below c a M B k m) (hn : n ≤ a) : Below c a M B (k + 1) (windowOf c m n) := by
  obtain ⟨b, hb, b0, hph, hid⟩ := hs
  obtain ⟨h1, h2, h3⟩ := hm
  have k0 := Rat.le_of_lt (keep_pos h)
  have k1 := Rat.le_of_lt (keep_lt c)
  have next : ∀ x, x ≤ B k → ∀ r, r ≤ rate c a → c.keep * x + (1 - c.keep) * r ≤ B (k + 1) := fun x hx r hr =>
    Rat.le_trans (mix_le k0 k1 hx hr) (hB.step k)
  have r0 : (0 : Rat) ≤ rate c a := rate_nonneg h a
  have rn : rate c n ≤ rate c a := rate_mono h hn
  rcases hph with ⟨hp, ht, r1, rlt⟩ | ⟨hp, x, hx, x0⟩
  · rcases Nat.eq_zero_or_pos n with hz | hn0
    · subst hz
      rw [revival_none hp]
      have hlev : c.keep ^ (m.empty + m.revWins) * b + (1 - c.keep ^ (m.empty + m.revWins)) * levelRate c m.revReqs (m.empty + m.revWins) ≤ B k := by
        rcases h3 hp with ⟨hr, hbb⟩ | ⟨hk, hr, hbb⟩
        · have hr' : m.revReqs ≤ a * (m.empty + m.revWins) := Nat.le_trans hr (Nat.mul_le_mul_left a (by omega))
          have e := mix_le (pow_nonneg h (m.empty + m.revWins)) (pow_le_one h _) (hbb b hb) (levelRate_le h (by omega) hr')
          exact Rat.le_trans e (Rat.le_trans (hB.steps h _ _) (hB.anti _ _ (by omega)))
        · have hr' : m.revReqs ≤ M * (m.empty + m.revWins) := Nat.le_trans hr (Nat.mul_le_mul_left M (by omega))
          have e := mix_le (pow_nonneg h (m.empty + m.revWins)) (pow_le_one h _) (hbb b hb) (levelRate_le h (by omega) hr')
          have := hB.top k (by omega)
          grind
      refine ⟨fun y hy => ?_, fun _ y hy => ?_, nofun⟩
      · dsimp only at hy
        rw [hb, accN_some, acc_some] at hy
        rw [← some_eq hy]
        exact next _ hlev 0 r0
      · dsimp only at hy ⊢
        rw [hb, accN_some] at hy
        rw [← some_eq hy]
        exact hlev
    · by_cases hd : m.revWins + 1 = c.minCnt
      · rw [revival_done hp hn0 hd]
        refine ⟨fun y hy => ?_, fun hh => ?_, nofun⟩
        · dsimp only at hy
          rw [hb, accN_some] at hy
          rw [← some_eq hy]
          rcases h3 hp with ⟨hr, hbb⟩ | ⟨hk, hr, hbb⟩
          · have hr' : m.revReqs + n ≤ a * (m.empty + (m.revWins + 1)) := by
              have := Nat.mul_le_mul_left a (show m.revWins + 1 ≤ m.empty + (m.revWins + 1) by omega)
              rw [Nat.mul_add a m.revWins 1] at this
              omega
            have e := mix_le (pow_nonneg h (m.empty + (m.revWins + 1))) (pow_le_one h _) (hbb b hb) (levelRate_le h (by omega) hr')
            exact Rat.le_trans e (Rat.le_trans (hB.steps h _ _) (hB.anti _ _ (by omega)))
          · have hr' : m.revReqs + n ≤ M * (m.empty + (m.revWins + 1)) := by
              have := Nat.mul_le_mul_left M (show m.revWins + 1 ≤ m.empty + (m.revWins + 1) by omega)
              rw [Nat.mul_add M m.revWins 1] at this
              omega
            have e := mix_le (pow_nonneg h (m.empty + (m.revWins + 1))) (pow_le_one h _) (hbb b hb) (levelRate_le h (by omega) hr')
            have := hB.top (k + 1) (by omega)
            grind
        · rcases hh with hh | hh <;> nomatch hh
      · rw [revival_some hp hn0 hd]
        refine ⟨fun y hy => ?_, fun hh => ?_, fun _ => ?_⟩
        · rw [show _ = m.thr from rfl, ht] at hy
          nomatch hy
        · rw [show _ = m.phase from rfl, hp] at hh
          rcases hh with hh | hh <;> nomatch hh
        · dsimp only
          rcases h3 hp with ⟨hr, hbb⟩ | ⟨hk, hr, hbb⟩
          · left
            refine ⟨?_, fun y hy => ?_⟩
            · rw [Nat.mul_add]
              omega
            · have := hbb y hy
              rwa [show k + 1 - m.empty - (m.revWins + 1) = k - m.empty - m.revWins by omega]
          · right
            refine ⟨by omega, ?_, hbb⟩
            rw [Nat.mul_add]
            omega
  · have hx1 := h1 x hx
    rcases hq : m.phase with _ | _ | _ | _
    · rcases Nat.eq_zero_or_pos n with hz | hn0
      · subst hz
        rw [normal_none hq]
        refine ⟨fun y hy => ?_, fun _ y hy => ?_, nofun⟩
        · dsimp only at hy
          rw [hx, acc_some] at hy
          rw [← some_eq hy]
          exact next x hx1 0 r0
        · exact h1 y hy
      · rw [normal_some hq hn0]
        refine ⟨fun y hy => ?_, fun hh => ?_, fun hh => absurd hh hp⟩
        · dsimp only at hy
          rw [hx, acc_some] at hy
          rw [← some_eq hy]
          exact next x hx1 _ rn
        · rw [show _ = m.phase from rfl, hq] at hh
          rcases hh with hh | hh <;> nomatch hh
    · rcases Nat.eq_zero_or_pos n with hz | hn0
      · subst hz
        rw [idle_none hq]
        refine ⟨fun y hy => ?_, fun _ y hy => ?_, fun hh => ?_⟩
        · dsimp only at hy
          rw [hx, acc_some] at hy
          rw [← some_eq hy]
          exact next x hx1 0 r0
        · dsimp only
          rw [show k + 1 - (m.empty + 1) = k - m.empty by omega]
          exact h2 (Or.inl hq) y hy
        · dsimp only at hh
          split at hh <;> nomatch hh
      · rw [idle_some hq hn0]
        refine ⟨fun y hy => ?_, fun hh => ?_, nofun⟩
        · dsimp only at hy
          rw [hx, acc_some] at hy
          rw [← some_eq hy]
          exact next x hx1 _ rn
        · rcases hh with hh | hh <;> nomatch hh
    · rcases Nat.eq_zero_or_pos n with hz | hn0
      · subst hz
        rw [faded_none hq]
        refine ⟨fun y hy => ?_, fun _ y hy => ?_, fun hh => absurd hh hp⟩
        · dsimp only at hy
          rw [hx, acc_some] at hy
          rw [← some_eq hy]
          exact next x hx1 0 r0
        · dsimp only
          rw [show k + 1 - (m.empty + 1) = k - m.empty by omega]
          exact h2 (Or.inr hq) y hy
      · rw [faded_some hq hn0]
        refine ⟨nofun, fun hh => ?_, fun _ => Or.inl ⟨?_, fun y hy => ?_⟩⟩
        · rcases hh with hh | hh <;> nomatch hh
        · dsimp only
          omega
        · dsimp only
          rw [show k + 1 - m.empty - 1 = k - m.empty by omega]
          exact h2 (Or.inr hq) y hy
    · exact absurd hq hp

theorem below_replay {c : Cfg} (h : c.Ok) {a M : Nat} (haM : a ≤ M) {B : Nat → Rat} (hB : Falls c a M B) {k : Nat} {m : Meas} {ns : List Nat}
    (hs : Shape c m) (hm : Below c a M B k m) (hn : AtMost a ns) : Below c a M B (k + ns.length) (replay c m ns) := by
  induction ns generalizing m k with
  | nil => exact hm
  | cons n ns ih =>
    have := ih (shape_window h n hs) (below_window h haM hB hs hm (hn n (List.mem_cons_self ..)))
      fun x hx => hn x (List.mem_cons_of_mem _ hx)
    rw [List.length_cons, show k + (ns.length + 1) = k + 1 + ns.length by omega]
    exact this

/-- The same bound all the time. -/
theorem falls_const {c : Cfg} (M : Nat) : Falls c M M fun _ => rate c M :=
  ⟨fun _ _ _ => Rat.le_refl, fun _ => by grind, fun _ _ => Rat.le_refl, fun _ => Rat.le_refl⟩

theorem below_new {c : Cfg} (h : c.Ok) (M t0 : Nat) : Below c M M (fun _ => rate c M) 0 (newMeas t0) := by
  refine ⟨fun x hx => ?_, fun _ x hx => ?_, nofun⟩ <;> · rw [← some_eq hx]; exact rate_nonneg h M

/-- No more than so many requests in a window: the throughput is no more than that. -/
theorem replay_le {c : Cfg} (h : c.Ok) {M t0 : Nat} {ns : List Nat} (hn : AtMost M ns) :
    ∀ x, (replay c (newMeas t0) ns).thr = some x → x ≤ rate c M :=
  (below_replay h (Nat.le_refl M) (falls_const M) (shape_new c t0) (below_new h M t0) hn).1

/-- What is left of an earlier rate. -/
def fall (c : Cfg) (a M k : Nat) : Rat := c.keep ^ (k - c.minCnt) * rate c M + rate c a

theorem falls_fall {c : Cfg} (h : c.Ok) {a M : Nat} : Falls c a M (fall c a M) := by
  have hM := rate_nonneg h M
  have ha := rate_nonneg h a
  refine ⟨fun i j hij => ?_, fun j => ?_, fun j hj => ?_, fun j => ?_⟩
  · unfold fall
    have := Rat.mul_le_mul_of_nonneg_right (pow_anti h (show i - c.minCnt ≤ j - c.minCnt by omega)) hM
    grind
  · unfold fall
    by_cases hj : c.minCnt ≤ j
    · rw [show j + 1 - c.minCnt = j - c.minCnt + 1 by omega, Rat.pow_succ]
      grind
    · rw [show j + 1 - c.minCnt = 0 by omega, show j - c.minCnt = 0 by omega, Rat.pow_zero]
      have := Rat.mul_le_mul_of_nonneg_right (Rat.le_of_lt (keep_lt c)) hM
      grind
  · unfold fall
    rw [show j - c.minCnt = 0 by omega, Rat.pow_zero]
    grind
  · unfold fall
    have := Rat.mul_nonneg (pow_nonneg h (j - c.minCnt)) hM
    grind

/-- Whatever was before: with few requests in each window the throughput falls. -/
theorem replay_falls {c : Cfg} (h : c.Ok) {a M t0 : Nat} (haM : a ≤ M) {pre ns : List Nat} (hp : AtMost M pre) (hn : AtMost a ns) :
    ∀ x, (replay c (newMeas t0) (pre ++ ns)).thr = some x → x ≤ fall c a M ns.length := by
  have h0 := below_replay h (Nat.le_refl M) (falls_const M) (shape_new c t0) (below_new h M t0) hp
  have hs := shape_replay h pre (shape_new c t0)
  have hB := falls_fall (a := a) (M := M) h
  have : Below c a M (fall c a M) 0 (replay c (newMeas t0) pre) := by
    refine ⟨fun x hx => Rat.le_trans (h0.1 x hx) (hB.top 0 (Nat.zero_le _)), fun hh b hb => ?_, fun hh => Or.inr ?_⟩
    · rw [Nat.zero_sub]
      exact Rat.le_trans (h0.2.1 hh b hb) (hB.top 0 (Nat.zero_le _))
    · obtain ⟨_, _, _, hph, _⟩ := hs
      rcases hph with ⟨_, _, h1, _⟩ | ⟨hh', _⟩
      · rcases h0.2.2 hh with ⟨x, y⟩ | ⟨_, x, y⟩
        · exact ⟨by omega, x, y⟩
        · exact ⟨by omega, x, y⟩
      · exact absurd hh hh'
  have := (below_replay h haM hB hs this hn).1
  rw [Nat.zero_add] at this
  rw [replay_append]
  exact this

/-! ## At least -/

/-- After `k` windows with at least `b` requests each. -/
def Above (c : Cfg) (b k : Nat) (m : Meas) : Prop :=
  (m.phase = .normal ∧ ∃ x, m.thr = some x ∧ (1 - c.keep ^ (k - c.minCnt)) * rate c b ≤ x) ∨
  (m.phase = .revival ∧ k ≤ m.revWins)

theorem above_window {c : Cfg} (h : c.Ok) {b k : Nat} (hb1 : 0 < b) {m : Meas} {n : Nat} (hs : Shape c m) (hk : k = 0 ∨ Above c b k m) (hn : b ≤ n) :
    Above c b (k + 1) (windowOf c m n) := by
  have hs' := shape_window h n hs
  have hn0 : 0 < n := by omega
  have k0 := Rat.le_of_lt (keep_pos h)
  have k1 := Rat.le_of_lt (keep_lt c)
  have rb := rate_nonneg h b
  have rn := rate_mono h hn
  have h2 := h.minCnt
  -- an early window needs no bound
  have early : (windowOf c m n).phase = .normal → k + 1 ≤ c.minCnt → Above c b (k + 1) (windowOf c m n) := by
    intro hp hk
    obtain ⟨_, _, _, hph, _⟩ := hs'
    rcases hph with ⟨hh, _⟩ | ⟨_, x, hx, x0⟩
    · rw [hp] at hh
      nomatch hh
    · refine Or.inl ⟨hp, x, hx, ?_⟩
      rw [show k + 1 - c.minCnt = 0 by omega, Rat.pow_zero]
      grind
  obtain ⟨bf, hbf, b0, hph, hid⟩ := hs
  rcases hk with hk | hk
  · subst hk
    rcases hph with ⟨hp, ht, r1, rlt⟩ | ⟨hp, x, hx, x0⟩
    · by_cases hd : m.revWins + 1 = c.minCnt
      · exact early (by rw [revival_done hp hn0 hd]) (by omega)
      · rw [revival_some hp hn0 hd]
        refine Or.inr ⟨hp, ?_⟩
        dsimp only
        omega
    · rcases hq : m.phase with _ | _ | _ | _
      · exact early (by rw [normal_some hq hn0]; exact hq) (by omega)
      · exact early (by rw [idle_some hq hn0]) (by omega)
      · rw [faded_some hq hn0]
        exact Or.inr ⟨rfl, Nat.le_refl _⟩
      · exact absurd hq hp
  · rcases hk with ⟨hp, x, hx, hle⟩ | ⟨hp, hle⟩
    · by_cases hkm : c.minCnt ≤ k
      · rw [normal_some hp hn0]
        refine Or.inl ⟨hp, _, by dsimp only; rw [hx, acc_some], ?_⟩
        have := mix_le k0 k1 hle rn
        rw [show k + 1 - c.minCnt = k - c.minCnt + 1 by omega, Rat.pow_succ]
        grind
      · exact early (by rw [normal_some hp hn0]; exact hp) (by omega)
    · rcases hph with ⟨_, ht, r1, rlt⟩ | ⟨hp', _⟩
      · by_cases hd : m.revWins + 1 = c.minCnt
        · exact early (by rw [revival_done hp hn0 hd]) (by omega)
        · rw [revival_some hp hn0 hd]
          refine Or.inr ⟨hp, ?_⟩
          dsimp only
          omega
      · exact absurd hp hp'

theorem above_replay {c : Cfg} (h : c.Ok) {b k : Nat} (hb1 : 0 < b) {m : Meas} {ns : List Nat} (hs : Shape c m) (hk : k = 0 ∨ Above c b k m)
    (hn : AtLeast b ns) : k + ns.length = 0 ∨ Above c b (k + ns.length) (replay c m ns) := by
  induction ns generalizing m k with
  | nil => exact hk
  | cons n ns ih =>
    have := ih (shape_window h n hs) (Or.inr (above_window h hb1 hs hk (hn n (List.mem_cons_self ..))))
      fun x hx => hn x (List.mem_cons_of_mem _ hx)
    rw [List.length_cons, show k + (ns.length + 1) = k + 1 + ns.length by omega]
    exact this

/-- Whatever was before: with many requests in each of enough windows the throughput rises. -/
theorem replay_rises {c : Cfg} (h : c.Ok) {b : Nat} (hb1 : 0 < b) {m : Meas} (hs : Shape c m) {ns : List Nat} (hn : AtLeast b ns) (hl : c.minCnt ≤ ns.length) :
    ∃ x, (replay c m ns).thr = some x ∧ (1 - c.keep ^ (ns.length - c.minCnt)) * rate c b ≤ x := by
  have h2 := h.minCnt
  rcases above_replay h hb1 hs (k := 0) (Or.inl rfl) hn with h0 | h0
  · omega
  · rw [Nat.zero_add] at h0
    rcases h0 with ⟨_, x, hx, hle⟩ | ⟨hp, hle⟩
    · exact ⟨x, hx, hle⟩
    · obtain ⟨_, _, _, hph, _⟩ := shape_replay h ns hs
      rcases hph with ⟨_, _, _, h4⟩ | ⟨hp', _⟩
      · omega
      · exact absurd hp hp'

/-- From the start, with at least `b` requests in each window. -/
def Fresh (c : Cfg) (b k : Nat) (m : Meas) : Prop :=
  (k < c.minCnt ∧ m.phase = .revival ∧ m.revWins = k ∧ b * k ≤ m.revReqs ∧ m.empty = 0 ∧ m.before = some 0) ∨
  (c.minCnt ≤ k ∧ m.phase = .normal ∧ ∃ x, m.thr = some x ∧ (1 - c.keep ^ k) * rate c b ≤ x)

theorem fresh_window {c : Cfg} (h : c.Ok) {b k : Nat} (hb1 : 0 < b) {m : Meas} {n : Nat} (hm : Fresh c b k m) (hn : b ≤ n) : Fresh c b (k + 1) (windowOf c m n) := by
  have hn0 : 0 < n := by omega
  have k0 := Rat.le_of_lt (keep_pos h)
  have k1 := Rat.le_of_lt (keep_lt c)
  rcases hm with ⟨hk, hp, hw, hr, he, hbf⟩ | ⟨hk, hp, x, hx, hle⟩
  · by_cases hd : m.revWins + 1 = c.minCnt
    · rw [revival_done hp hn0 hd]
      refine Or.inr ⟨by omega, rfl, _, by dsimp only; rw [hbf, accN_some], ?_⟩
      have hr' : b * (m.empty + (m.revWins + 1)) ≤ m.revReqs + n := by
        rw [he, hw, Nat.zero_add, Nat.mul_add]
        omega
      have e := levelRate_ge h (by omega) hr'
      have := Rat.mul_le_mul_of_nonneg_left e (show 0 ≤ 1 - c.keep ^ (m.empty + (m.revWins + 1)) by have := pow_le_one h (m.empty + (m.revWins + 1)); grind)
      rw [show m.empty + (m.revWins + 1) = k + 1 by omega] at this ⊢
      grind
    · rw [revival_some hp hn0 hd]
      refine Or.inl ⟨by omega, hp, by dsimp only; omega, ?_, he, hbf⟩
      dsimp only
      rw [Nat.mul_add]
      omega
  · rw [normal_some hp hn0]
    refine Or.inr ⟨by omega, hp, _, by dsimp only; rw [hx, acc_some], ?_⟩
    have := mix_le k0 k1 hle (rate_mono h hn)
    rw [Rat.pow_succ]
    grind

theorem fresh_replay {c : Cfg} (h : c.Ok) {b k : Nat} (hb1 : 0 < b) {m : Meas} {ns : List Nat} (hm : Fresh c b k m) (hn : AtLeast b ns) :
    Fresh c b (k + ns.length) (replay c m ns) := by
  induction ns generalizing m k with
  | nil => exact hm
  | cons n ns ih =>
    have := ih (fresh_window h hb1 hm (hn n (List.mem_cons_self ..))) fun x hx => hn x (List.mem_cons_of_mem _ hx)
    rw [List.length_cons, show k + (ns.length + 1) = k + 1 + ns.length by omega]
    exact this

/-- Enough requests in every window from the start. -/
theorem replay_steady {c : Cfg} (h : c.Ok) {b t0 : Nat} (hb1 : 0 < b) {ns : List Nat} (hn : AtLeast b ns) (hl : c.minCnt ≤ ns.length) :
    ∃ x, (replay c (newMeas t0) ns).thr = some x ∧ (1 - c.keep ^ ns.length) * rate c b ≤ x := by
  have h2 := h.minCnt
  cases ns with
  | nil => simp at hl; omega
  | cons n ns =>
    have h0 : Fresh c b 1 (windowOf c (newMeas t0) n) := by
      have hn1 := hn n (List.mem_cons_self ..)
      rw [faded_some rfl (by omega)]
      exact Or.inl ⟨by omega, rfl, rfl, by dsimp only; omega, rfl, rfl⟩
    have := fresh_replay h hb1 h0 fun x hx => hn x (List.mem_cons_of_mem _ hx)
    rw [Nat.add_comm, ← List.length_cons (a := n)] at this
    rcases this with ⟨hlt, _⟩ | ⟨_, _, x, hx, hle⟩
    · omega
    · exact ⟨x, hx, hle⟩

end Verif.Monitor
