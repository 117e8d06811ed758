import Verif.Model.Monitor
import Verif.Spec.Monitor
import Verif.Proofs.Count
/-! # The throughput of an instance only depends on how many requests were ordered in each window -/
namespace Verif.Monitor
open Verif Verif.Spec.Monitor

/-- A window with so many requests. -/
def windowOf (c : Cfg) (m : Meas) (n : Nat) : Meas := window c { m with reqs := n }

/-- Windows with so many requests. -/
def replay (c : Cfg) (m : Meas) (ns : List Nat) : Meas := ns.foldl (windowOf c) m

/-- Requests at these times. -/
def addAll (c : Cfg) (m : Meas) (ts : List Nat) : Meas := ts.foldl (fun m t => addRequest c t m) m

theorem process_start (c : Cfg) (m : Meas) : (process c m).first = m.first := by
  unfold process windowNormal windowIdle windowFaded windowRevival revivalEnd level
  grind

theorem windowOf_first (c : Cfg) (m : Meas) (n : Nat) : (windowOf c m n).first = m.first := by
  unfold windowOf window
  dsimp only
  rw [process_start]

theorem replay_first (c : Cfg) (m : Meas) (ns : List Nat) : (replay c m ns).first = m.first := by
  induction ns generalizing m with
  | nil => rfl
  | cons n ns ih =>
    show (replay c (windowOf c m n) ns).first = _
    rw [ih, windowOf_first]

theorem replay_start (c : Cfg) (m : Meas) (ns : List Nat) : (replay c m ns).start = m.start + c.window * ns.length := by
  induction ns generalizing m with
  | nil => simp [replay]
  | cons n ns ih =>
    show (replay c (windowOf c m n) ns).start = _
    rw [ih]
    show m.start + c.window + _ = _
    rw [List.length_cons, Nat.mul_add]
    omega

theorem replay_append (c : Cfg) (m : Meas) (a b : List Nat) : replay c m (a ++ b) = replay c (replay c m a) b := by
  simp [replay]

theorem counts_length (t0 w : Nat) (ts : List Nat) (n : Nat) : (counts t0 w ts n).length = n := by simp [counts]

theorem counts_succ (t0 w : Nat) (ts : List Nat) (n : Nat) : counts t0 w ts (n + 1) = counts t0 w ts n ++ [inWindow t0 w ts n] := by
  simp [counts, List.range_succ]

/-- The state of the measurement when `n` windows are over. -/
def stateAt (c : Cfg) (t0 : Nat) (ts : List Nat) (n : Nat) : Meas :=
  { replay c (newMeas t0) (counts t0 c.window ts n) with reqs := inWindow t0 c.window ts n }

theorem stateAt_start (c : Cfg) (t0 : Nat) (ts : List Nat) (n : Nat) : (stateAt c t0 ts n).start = t0 + c.window * n := by
  show (replay c _ _).start = _
  rw [replay_start, counts_length]
  rfl

theorem stateAt_first (c : Cfg) (t0 : Nat) (ts : List Nat) (n : Nat) : (stateAt c t0 ts n).first = t0 := by
  show (replay c _ _).first = _
  rw [replay_first]
  rfl

theorem inWindow_zero {t0 w : Nat} {ts : List Nat} {j : Nat} (h : ∀ t ∈ ts, t < t0 + w * j) : inWindow t0 w ts j = 0 := by
  unfold inWindow
  rw [List.length_eq_zero_iff, List.filter_eq_nil_iff]
  intro t ht hh
  simp at hh
  have := h t ht
  omega

theorem replay_reqs (c : Cfg) (m : Meas) (ns : List Nat) (h : m.reqs = 0) : (replay c m ns).reqs = 0 := by
  induction ns generalizing m with
  | nil => exact h
  | cons n ns ih => exact ih _ rfl

theorem stateAt_window (c : Cfg) (t0 : Nat) (ts : List Nat) (n : Nat) (h : ∀ t ∈ ts, t < t0 + c.window * (n + 1)) :
    window c (stateAt c t0 ts n) = stateAt c t0 ts (n + 1) := by
  have e : replay c (newMeas t0) (counts t0 c.window ts (n + 1)) = window c (stateAt c t0 ts n) := by
    rw [counts_succ, replay_append]
    rfl
  unfold stateAt
  rw [e, inWindow_zero h]
  rfl

theorem stateAt_windows (c : Cfg) (t0 : Nat) (ts : List Nat) (k n : Nat) (h : ∀ t ∈ ts, t < t0 + c.window * (n + 1)) :
    windows c k (stateAt c t0 ts n) = stateAt c t0 ts (n + k) := by
  induction k generalizing n with
  | zero => rfl
  | succ k ih =>
    show windows c k (window c _) = _
    rw [stateAt_window c t0 ts n h, ih (n + 1)]
    · congr 1
      omega
    · intro t ht
      have := h t ht
      rw [Nat.mul_add c.window (n + 1) 1]
      omega

/-- The number of windows which are over at a time. -/
def over (c : Cfg) (t0 t : Nat) : Nat := (t - t0) / c.window

theorem over_le {c : Cfg} {t0 t : Nat} (h0 : t0 ≤ t) : t0 + c.window * over c t0 t ≤ t := by
  have := Nat.mul_div_le (t - t0) c.window
  unfold over
  omega

theorem lt_over {c : Cfg} (hw : 0 < c.window) {t0 t : Nat} : t < t0 + c.window * (over c t0 t + 1) := by
  have := Nat.lt_mul_div_succ (t - t0) hw
  unfold over
  omega

theorem over_mono (c : Cfg) (t0 : Nat) {t t' : Nat} (h : t ≤ t') : over c t0 t ≤ over c t0 t' :=
  Nat.div_le_div_right (by omega)

theorem stateAt_update (c : Cfg) (t0 : Nat) (ts : List Nat) (n t : Nat) (h : ∀ x ∈ ts, x < t0 + c.window * (n + 1))
    (hn : n ≤ over c t0 t) : update c t (stateAt c t0 ts n) = stateAt c t0 ts (over c t0 t) := by
  unfold update
  rw [stateAt_start, stateAt_windows c t0 ts _ n h]
  congr 1
  have e : t - (t0 + c.window * n) = t - t0 - c.window * n := by omega
  have := Nat.sub_mul_div (t - t0) c.window n
  rw [e, this]
  unfold over at hn ⊢
  omega

theorem inWindow_snoc_lt {t0 w : Nat} {ts : List Nat} {j t : Nat} (h : t0 + w * (j + 1) ≤ t) :
    inWindow t0 w (ts ++ [t]) j = inWindow t0 w ts j := by
  unfold inWindow
  rw [List.filter_append, List.filter_cons]
  have : ¬ t < t0 + w * (j + 1) := by omega
  simp [this]

theorem inWindow_snoc_eq {t0 w : Nat} {ts : List Nat} {j t : Nat} (h : t0 + w * j ≤ t) (h' : t < t0 + w * (j + 1)) :
    inWindow t0 w (ts ++ [t]) j = inWindow t0 w ts j + 1 := by
  unfold inWindow
  rw [List.filter_append, List.filter_cons]
  simp [h, h']

theorem counts_snoc {t0 w : Nat} {ts : List Nat} {n t : Nat} (h : t0 + w * n ≤ t) : counts t0 w (ts ++ [t]) n = counts t0 w ts n := by
  unfold counts
  apply List.map_congr_left
  intro j hj
  rw [List.mem_range] at hj
  apply inWindow_snoc_lt
  have : w * (j + 1) ≤ w * n := Nat.mul_le_mul_left w hj
  omega

theorem stateAt_add (c : Cfg) (hw : 0 < c.window) (t0 : Nat) (ts : List Nat) (t : Nat) (h0 : t0 ≤ t) :
    { stateAt c t0 ts (over c t0 t) with reqs := (stateAt c t0 ts (over c t0 t)).reqs + 1 } = stateAt c t0 (ts ++ [t]) (over c t0 t) := by
  unfold stateAt
  rw [counts_snoc (over_le h0), inWindow_snoc_eq (over_le h0) (lt_over hw)]

/-- Times which do not go back. -/
def Ascending (t0 : Nat) (ts : List Nat) (t : Nat) : Prop := ts.Pairwise (· ≤ ·) ∧ ∀ x ∈ ts, t0 ≤ x ∧ x ≤ t

theorem addAll_eq (c : Cfg) (hw : 0 < c.window) (t0 : Nat) (ts : List Nat) (t : Nat) (h : Ascending t0 ts t) :
    ∃ n, addAll c (newMeas t0) ts = stateAt c t0 ts n ∧ n ≤ over c t0 t ∧ ∀ x ∈ ts, x < t0 + c.window * (n + 1) := by
  induction ts using snoc_induction generalizing t with
  | nil => exact ⟨0, rfl, Nat.zero_le _, nofun⟩
  | snoc ts x ih =>
    obtain ⟨hp, hb⟩ := h
    rw [List.pairwise_append] at hp
    obtain ⟨n, e, hn, hx⟩ := ih x ⟨hp.1, fun y hy => ⟨(hb y (List.mem_append_left _ hy)).1, hp.2.2 y hy x (List.mem_singleton_self x)⟩⟩
    have hxb := hb x (List.mem_append_right _ (List.mem_singleton_self x))
    refine ⟨over c t0 x, ?_, over_mono c t0 hxb.2, ?_⟩
    · show (ts ++ [x]).foldl _ _ = _
      rw [List.foldl_append]
      show addRequest c x (addAll c (newMeas t0) ts) = _
      rw [e]
      unfold addRequest
      dsimp only
      rw [stateAt_update c t0 ts n x hx hn, stateAt_add c hw t0 ts x hxb.1]
    · intro y hy
      have hyx : y ≤ x := by
        rcases List.mem_append.mp hy with hy | hy
        · exact hp.2.2 y hy x (List.mem_singleton_self x)
        · rw [List.mem_singleton.mp hy]
          exact Nat.le_refl _
      exact Nat.lt_of_le_of_lt hyx (lt_over hw)

/-- The measurement at a time is the one of the windows which are over. -/
theorem addAll_get (c : Cfg) (hw : 0 < c.window) (t0 : Nat) (ts : List Nat) (t : Nat) (h : Ascending t0 ts t) :
    (addAll c (newMeas t0) ts).get c t =
      if t < t0 + c.window * c.minCnt then none else (replay c (newMeas t0) (counts t0 c.window ts (over c t0 t))).thr := by
  obtain ⟨n, e, hn, hx⟩ := addAll_eq c hw t0 ts t h
  unfold Meas.get
  rw [e, stateAt_first, stateAt_update c t0 ts n t hx hn]
  rfl

/-- To bring the windows up to date earlier makes no difference. -/
theorem windows_add (c : Cfg) (a b : Nat) (m : Meas) : windows c (a + b) m = windows c b (windows c a m) := by
  induction a generalizing m with
  | zero => rw [Nat.zero_add]; rfl
  | succ a ih =>
    rw [Nat.succ_add]
    exact ih _

theorem windows_start (c : Cfg) (a : Nat) (m : Meas) : (windows c a m).start = m.start + c.window * a := by
  induction a generalizing m with
  | zero => rfl
  | succ a ih =>
    show (windows c a (window c m)).start = _
    rw [ih]
    show m.start + c.window + _ = _
    rw [Nat.mul_add]
    omega

theorem update_update (c : Cfg) {t t' : Nat} (h : t ≤ t') (m : Meas) : update c t' (update c t m) = update c t' m := by
  unfold update
  rw [windows_start, ← windows_add]
  congr 1
  by_cases hle : m.start ≤ t
  · have e : t' - (m.start + c.window * ((t - m.start) / c.window)) = t' - m.start - c.window * ((t - m.start) / c.window) := by omega
    have := Nat.sub_mul_div (t' - m.start) c.window ((t - m.start) / c.window)
    rw [e, this]
    have : (t - m.start) / c.window ≤ (t' - m.start) / c.window := Nat.div_le_div_right (by omega)
    omega
  · have : t - m.start = 0 := by omega
    simp [this]

end Verif.Monitor
