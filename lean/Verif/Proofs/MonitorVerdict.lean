import Verif.Proofs.MonitorBack
import Verif.Proofs.MonitorMedian
import Verif.Proofs.MonitorRun
/-! # The verdicts -/
namespace Verif.Monitor
open Verif Verif.Spec.Monitor

/-- The instance is measured since `t0`. -/
def Since (s : Mon) (es : List Ev) (i : Inst) (t0 : Nat) : Prop :=
  s.insts.get? i = some { meas := newMeas t0 } ∧ ∀ e ∈ es, e.quiet i = true

/-- The value for an instance is the one of its windows. -/
theorem thr_eq {c : Cfg} (h : c.Ok) {s s' : Mon} {es : List Ev} {out : List Key} {i : Inst} {t0 t : Nat}
    (hr : run c s es = some (s', out)) (hs : Since s es i t0) (hc : Clock t0 es t) :
    getThr c t s' i = if t < t0 + c.window * c.minCnt then none
      else (replay c (newMeas t0) (counts t0 c.window (times c i s es) (over c t0 t))).thr := by
  obtain ⟨r', g, hm, _, _⟩ := run_rec hr hs.2 hs.1
  unfold getThr
  rw [g]
  dsimp only
  rw [hm]
  exact addAll_get c h.window t0 _ t (times_ascending hc)

theorem not_lt_of_over {c : Cfg} (h : c.Ok) {t0 t n : Nat} (hn : n ≤ over c t0 t) (hn0 : 0 < n) : ¬ t < t0 + c.window * n := by
  have h1 : c.window * n ≤ c.window * over c t0 t := Nat.mul_le_mul_left _ hn
  have h2 : c.window * over c t0 t ≤ t - t0 := Nat.mul_div_le _ _
  have h3 : 0 < c.window * n := Nat.mul_pos h.window hn0
  omega

theorem thr_over {c : Cfg} (h : c.Ok) {s s' : Mon} {es : List Ev} {out : List Key} {i : Inst} {t0 t : Nat}
    (hr : run c s es = some (s', out)) (hs : Since s es i t0) (hc : Clock t0 es t) (hn : c.minCnt ≤ over c t0 t) :
    getThr c t s' i = (replay c (newMeas t0) (counts t0 c.window (times c i s es) (over c t0 t))).thr := by
  rw [thr_eq h hr hs hc, if_neg (not_lt_of_over h hn (by have := h.minCnt; omega))]

theorem counts_split {t0 w : Nat} {ts : List Nat} {k n : Nat} (hkn : k ≤ n) :
    counts t0 w ts n = counts t0 w ts k ++ (List.range' k (n - k)).map (inWindow t0 w ts) := by
  unfold counts
  rw [List.range_eq_range', List.range_eq_range', ← List.map_append]
  congr 1
  have := List.range'_append (s := 0) (m := k) (n := n - k) (step := 1)
  rw [show k + (n - k) = n by omega] at this
  rw [← this]
  simp

theorem atMost_range {hi t0 w : Nat} {ts : List Nat} {k n : Nat} (hkn : k ≤ n) (h : AtMostIn hi t0 w ts k n) :
    AtMost hi ((List.range' k (n - k)).map (inWindow t0 w ts)) := by
  intro x hx
  obtain ⟨j, hj, rfl⟩ := List.mem_map.mp hx
  rw [List.mem_range'_1] at hj
  exact h j (by omega) (by omega)

theorem atLeast_range {lo t0 w : Nat} {ts : List Nat} {k n : Nat} (hkn : k ≤ n) (h : AtLeastIn lo t0 w ts k n) :
    AtLeast lo ((List.range' k (n - k)).map (inWindow t0 w ts)) := by
  intro x hx
  obtain ⟨j, hj, rfl⟩ := List.mem_map.mp hx
  rw [List.mem_range'_1] at hj
  exact h j (by omega) (by omega)

theorem atMost_counts {hi t0 w : Nat} {ts : List Nat} {n : Nat} (h : AtMostIn hi t0 w ts 0 n) : AtMost hi (counts t0 w ts n) := by
  intro x hx
  obtain ⟨j, hj, rfl⟩ := List.mem_map.mp hx
  rw [List.mem_range] at hj
  exact h j (Nat.zero_le _) hj

theorem atLeast_counts {lo t0 w : Nat} {ts : List Nat} {n : Nat} (h : AtLeastIn lo t0 w ts 0 n) : AtLeast lo (counts t0 w ts n) := by
  intro x hx
  obtain ⟨j, hj, rfl⟩ := List.mem_map.mp hx
  rw [List.mem_range] at hj
  exact h j (Nat.zero_le _) hj

/-! ## How many batches -/

theorem busy_batches {c : Cfg} (h : c.Ok) {i : Inst} {s : Mon} {es : List Ev} {t0 t k n : Nat} (hc : Clock t0 es t)
    (hb : AtLeastIn 1 t0 c.window (times c i s es) k n) (hkn : k ≤ n) : n - k ≤ (batches c i s es).length := by
  have hnd : (List.range' k (n - k)).Nodup := List.nodup_range'
  have hsub : ∀ j ∈ List.range' k (n - k), j ∈ (batches c i s es).map (over c t0) := by
    intro j hj
    rw [List.mem_range'_1] at hj
    have h1 := hb j (by omega) (by omega)
    unfold inWindow at h1
    obtain ⟨x, hx⟩ := List.exists_mem_of_length_pos (show 0 < _ from h1)
    rw [List.mem_filter] at hx
    simp only [Bool.and_eq_true, decide_eq_true_eq] at hx
    refine List.mem_map.mpr ⟨x, times_batches x hx.1, ?_⟩
    have ht := (times_ascending (c := c) (i := i) (s := s) hc).2 x hx.1
    have hw := h.window
    have l1 := over_le (c := c) ht.1
    have l2 := lt_over hw (t0 := t0) (t := x)
    have a1 : ¬ over c t0 x < j := by
      intro hlt
      have := Nat.mul_le_mul_left c.window (show over c t0 x + 1 ≤ j from hlt)
      omega
    have a2 : ¬ j < over c t0 x := by
      intro hlt
      have := Nat.mul_le_mul_left c.window (show j + 1 ≤ over c t0 x from hlt)
      omega
    omega
  have := length_le_of_subset hnd hsub
  rw [List.length_map, List.length_range'] at this
  exact this

/-! ## Counting instances -/

theorem countP_ge {G K : List Inst} (hG : G.Nodup) (p : Inst → Bool) (h : ∀ g ∈ G, g ∈ K ∧ p g = true) : G.length ≤ K.countP p := by
  rw [List.countP_eq_length_filter]
  exact length_le_of_subset hG fun g hg => List.mem_filter.mpr (h g hg)

theorem countP_split (K : List Inst) (p q : Inst → Bool) : K.countP p = K.countP (fun k => p k && q k) + K.countP (fun k => p k && !q k) := by
  induction K with
  | nil => rfl
  | cons k K ih =>
    simp only [List.countP_cons, ih]
    cases p k <;> cases q k <;> simp <;> omega

/-- The number of others. -/
theorem others_length {s : Mon} (hn : s.insts.keys.Nodup) (h0 : s.insts.has 0 = true) :
    (s.insts.keys.filter (· ≠ 0)).length + 1 = s.insts.length := by
  have h1 := length_filter_split s.insts.keys (fun k => decide (k ≠ 0))
  have h2 : (s.insts.keys.filter (fun k => !decide (k ≠ 0))).length = 1 := by
    apply Nat.le_antisymm
    · have := length_le_of_subset (A := s.insts.keys.filter (fun k => !decide (k ≠ 0))) (B := [0]) (hn.filter _) fun x hx => by
        have := (List.mem_filter.mp hx).2
        simp at this
        rw [this]
        exact List.mem_singleton_self _
      exact this
    · obtain ⟨v, hv⟩ := (Dict.has_iff _ _).mp h0
      have hm : (0 : Inst) ∈ s.insts.keys := (Dict.mem_keys _ _).mpr ⟨v, hv⟩
      have : (0 : Inst) ∈ s.insts.keys.filter (fun k => !decide (k ≠ 0)) := List.mem_filter.mpr ⟨hm, rfl⟩
      exact List.length_pos_of_mem this
  have h3 : s.insts.keys.length = s.insts.length := List.length_map ..
  omega

/-- Good backups. -/
structure Backups (s : Mon) (G : List Inst) : Prop where
  nodup : G.Nodup
  others : 0 ∉ G
  there : ∀ g ∈ G, s.insts.has g = true

theorem backups_mem {s : Mon} {G : List Inst} (hG : Backups s G) : ∀ g ∈ G, g ∈ s.insts.keys.filter (· ≠ 0) := by
  intro g hg
  obtain ⟨v, hv⟩ := (Dict.has_iff _ _).mp (hG.there g hg)
  refine List.mem_filter.mpr ⟨(Dict.mem_keys _ _).mpr ⟨v, hv⟩, ?_⟩
  have : g ≠ 0 := fun e => hG.others (e ▸ hg)
  simpa using this

/-- Enough good backups: the low median of others is as high as they are. -/
theorem others_ge (K : List Inst) (f : Inst → Option Rat) {G : List Inst} (hG : G.Nodup) {Y : Rat} (hK : K.length + 1 ≤ 2 * G.length)
    (hy : ∀ g ∈ G, g ∈ K ∧ ∃ y, f g = some y ∧ Y ≤ y) : 0 < (K.filterMap f).length ∧ Y ≤ medianLow (K.filterMap f) := by
  have hl : (K.filterMap f).length = K.countP fun k => (f k).isSome := by
    rw [← List.countP_true, List.countP_filterMap]
    congr 1
    funext k
    cases f k <;> rfl
  have hb : (K.filterMap f).countP (fun y => decide (y < Y)) = K.countP fun k => (f k).isSome && (f k).any fun y => decide (y < Y) := by
    rw [List.countP_filterMap]
    congr 1
    funext k
    cases f k <;> rfl
  have hs := countP_split K (fun k => (f k).isSome) fun k => (f k).any fun y => decide (y < Y)
  have hg := countP_ge hG (K := K) (fun k => (f k).isSome && !(f k).any fun y => decide (y < Y)) fun g hg => by
    obtain ⟨hk, y, e, hle⟩ := hy g hg
    refine ⟨hk, ?_⟩
    rw [e]
    simp
    grind
  have hle : K.countP (fun k => (f k).isSome) ≤ K.length := List.countP_le_length
  have hpos : 0 < (K.filterMap f).length := by omega
  refine ⟨hpos, medianLow_ge hpos ?_⟩
  omega

/-- Enough good backups: the low median of others is as low as they are. -/
theorem others_le (K : List Inst) (f : Inst → Option Rat) {G : List Inst} (hG : G.Nodup) {Y : Rat} (hK : K.length ≤ 2 * G.length)
    (hK0 : 0 < K.length) (hy : ∀ g ∈ G, g ∈ K ∧ ∃ y, f g = some y ∧ y ≤ Y) : medianLow (K.filterMap f) ≤ Y := by
  have hl : (K.filterMap f).length ≤ K.length := List.length_filterMap_le ..
  have hb : (K.filterMap f).countP (fun y => decide (y ≤ Y)) = K.countP fun k => (f k).any fun y => decide (y ≤ Y) := by
    rw [List.countP_filterMap]
    congr 1
    funext k
    cases f k <;> rfl
  have hg := countP_ge hG (K := K) (fun k => (f k).any fun y => decide (y ≤ Y)) fun g hg => by
    obtain ⟨hk, y, e, hle⟩ := hy g hg
    refine ⟨hk, ?_⟩
    rw [e]
    simpa using hle
  exact medianLow_le (by omega)

/-- The same for the high median. -/
theorem others_high_le (K : List Inst) (f : Inst → Option Rat) {G : List Inst} (hG : G.Nodup) {Y : Rat} (hK : K.length + 1 ≤ 2 * G.length)
    (hy : ∀ g ∈ G, g ∈ K ∧ ∃ y, f g = some y ∧ y ≤ Y) : 0 < (K.filterMap f).length ∧ medianHigh (K.filterMap f) ≤ Y := by
  have hl : (K.filterMap f).length ≤ K.length := List.length_filterMap_le ..
  have hb : (K.filterMap f).countP (fun y => decide (y ≤ Y)) = K.countP fun k => (f k).any fun y => decide (y ≤ Y) := by
    rw [List.countP_filterMap]
    congr 1
    funext k
    cases f k <;> rfl
  have hg := countP_ge hG (K := K) (fun k => (f k).any fun y => decide (y ≤ Y)) fun g hg => by
    obtain ⟨hk, y, e, hle⟩ := hy g hg
    refine ⟨hk, ?_⟩
    rw [e]
    simpa using hle
  have hc : (K.filterMap f).countP (fun y => decide (y ≤ Y)) ≤ (K.filterMap f).length := List.countP_le_length
  exact ⟨by omega, medianHigh_le (by omega)⟩

/-! ## Too low -/

theorem otherNum_ge {s : Mon} {G : List Inst} (hG : Backups s G) {m : Nat} (hm : ∀ g ∈ G, ∃ r, s.insts.get? g = some r ∧ m ≤ r.num.1) :
    m * G.length ≤ otherNum s 0 := by
  have h1 : G.length ≤ ((s.insts.filter fun e => decide (e.1 ≠ 0)).filter fun e => decide (m ≤ e.2.num.1)).length := by
    rw [← List.length_map (f := Prod.fst)]
    apply length_le_of_subset hG.nodup
    intro g hg
    obtain ⟨r, hr, hle⟩ := hm g hg
    refine List.mem_map.mpr ⟨(g, r), List.mem_filter.mpr ⟨List.mem_filter.mpr ⟨Dict.mem_of_get? hr, ?_⟩, by simpa using hle⟩, rfl⟩
    have : g ≠ 0 := fun e => hG.others (e ▸ hg)
    simpa using this
  have h2 : ∀ l : List (Inst × Rec), m * (l.filter fun e => decide (m ≤ e.2.num.1)).length ≤ (l.map fun e => e.2.num.1).sum := by
    intro l
    induction l with
    | nil => simp
    | cons e l ih =>
      rw [List.filter_cons, List.map_cons, List.sum_cons]
      split
      · rename_i he
        have : m ≤ e.2.num.1 := by simpa using he
        rw [List.length_cons, Nat.mul_add]
        omega
      · omega
  exact Nat.le_trans (Nat.mul_le_mul_left m h1) (h2 _)

/-- Slow against enough good backups. -/
theorem tooLow_of {c : Cfg} {t : Nat} {s : Mon} {G : List Inst} (hn : s.insts.keys.Nodup) (h0 : s.insts.has 0 = true) (hG : Backups s G)
    (hK : s.insts.length ≤ 2 * G.length) {x Y : Rat} (hx : getThr c t s 0 = some x) (hY : 0 < Y)
    (hy : ∀ g ∈ G, ∃ y, getThr c t s g = some y ∧ Y ≤ y) (hd : 0 ≤ c.delta) (hlt : x < c.delta * Y)
    (hnum : s.insts.length < otherNum s 0) : tooLow c t s 0 = true := by
  have hl := others_length hn h0
  obtain ⟨hpos, hmed⟩ := others_ge (s.insts.keys.filter (· ≠ 0)) (getThr c t s) hG.nodup (Y := Y) (by omega)
    fun g hg => ⟨backups_mem hG g hg, hy g hg⟩
  have hlen : s.insts.length > 1 := by
    have := List.length_filterMap_le (getThr c t s) (s.insts.keys.filter (· ≠ 0))
    omega
  have he : (otherThrs c t s 0).isEmpty = false := by
    rw [List.isEmpty_eq_false_iff]
    exact List.ne_nil_of_length_pos hpos
  have hfar : decide (otherNum s 0 ≤ s.insts.length) = false := by simpa using hnum
  have hT : getThroughputs c t s 0 = (some x, some (medianLow (otherThrs c t s 0))) := by
    unfold getThroughputs
    dsimp only
    rw [hx, if_pos hlen, he, hfar]
    simp
  have hmed' : Y ≤ medianLow (otherThrs c t s 0) := hmed
  revert hmed' hT
  generalize medianLow (otherThrs c t s 0) = B
  intro hT hmed'
  have hB : 0 < B := by grind
  unfold tooLow ratio
  rw [hT]
  dsimp only
  rw [if_neg (by grind)]
  simp only [decide_eq_true_eq]
  rw [Rat.div_lt_iff hB]
  have := Rat.mul_le_mul_of_nonneg_left hmed' hd
  grind

/-! ## What holds in all states -/

/-- No instance twice, and all measurements have the right shape. -/
structure Good (c : Cfg) (s : Mon) : Prop where
  nodup : s.insts.keys.Nodup
  shape : ∀ i r, s.insts.get? i = some r → Shape c r.meas

theorem shape_windows {c : Cfg} (h : c.Ok) (n : Nat) {m : Meas} (hs : Shape c m) : Shape c (windows c n m) := by
  induction n generalizing m with
  | zero => exact hs
  | succ n ih => exact ih (shape_window h m.reqs hs)

theorem shape_addAll {c : Cfg} (h : c.Ok) (ts : List Nat) {m : Meas} (hs : Shape c m) : Shape c (addAll c m ts) := by
  induction ts generalizing m with
  | nil => exact hs
  | cons t ts ih => exact ih (shape_windows h _ hs)

theorem nodup_map_keys {α : Type} (d : Dict Inst α) (f : Inst × α → α) :
    Dict.keys (d.map fun e => (e.1, f e)) = d.keys := by
  unfold Dict.keys
  rw [List.map_map]
  rfl

theorem get?_map_mem {α : Type} {d : Dict Inst α} {f : Inst × α → α} {i : Inst} {v : α} (h : Dict.get? (d.map fun e => (e.1, f e)) i = some v) :
    ∃ e ∈ d, v = f e := by
  have := Dict.mem_of_get? h
  obtain ⟨e, he, h2⟩ := List.mem_map.mp this
  exact ⟨e, he, (Prod.mk.inj h2).2.symm⟩

theorem good_step {c : Cfg} (h : c.Ok) {s s' : Mon} {out : List Key} {e : Ev} (hs : step c s e = some (s', out)) (hg : Good c s) : Good c s' := by
  cases e with
  | add t j =>
    cases hs
    refine ⟨Dict.nodup_keys_set hg.nodup _ _, fun i r hr => ?_⟩
    replace hr : (s.insts.set j _).get? i = some r := hr
    rw [Dict.get?_set] at hr
    split at hr
    · rw [← Option.some.inj hr]
      exact shape_new c t
    · exact hg.shape i r hr
  | remove j =>
    replace hs : (removeInstance j s).map (fun s => (s, ([] : List Key))) = some (s', out) := hs
    unfold removeInstance at hs
    split at hs
    · cases hs
      exact hg
    · split at hs
      · cases hs
        refine ⟨?_, fun i r hr => ?_⟩
        · rw [drop_insts]
          exact Dict.nodup_keys_erase hg.nodup j
        · rw [drop_insts] at hr
          replace hr : (s.insts.erase j).get? i = some r := hr
          rw [Dict.get?_erase] at hr
          split at hr
          · nomatch hr
          · exact hg.shape i r hr
      · nomatch hs
  | reset t =>
    cases hs
    refine ⟨?_, fun i r hr => ?_⟩
    · show (Dict.keys (s.insts.map fun e => (e.1, _))).Nodup
      rw [nodup_map_keys s.insts (fun _ => { meas := newMeas t })]
      exact hg.nodup
    · obtain ⟨e, _, rfl⟩ := get?_map_mem (d := s.insts) (f := fun _ => ({ meas := newMeas t } : Rec)) hr
      exact shape_new c t
  | came t k =>
    cases hs
    exact ⟨hg.nodup, hg.shape⟩
  | dropped k =>
    cases hs
    exact ⟨hg.nodup, hg.shape⟩
  | check t =>
    replace hs : checkUnordered c t s = some (s', out) := hs
    unfold checkUnordered at hs
    split at hs
    · nomatch hs
    · cases hs
      exact ⟨by rw [handles_insts]; exact hg.nodup, fun i r hr => hg.shape i r (by rwa [handles_insts] at hr)⟩
  | ordered t j ks known =>
    have hs0 := hs
    replace hs : (ordered c known t j ks s).map (fun x => (x.1, ([] : List Key))) = some (s', out) := hs
    unfold ordered at hs
    split at hs
    · nomatch hs
    · rename_i q hj
      cases hs
      have hb := batch_rec c known t j ks s q []
      refine ⟨?_, fun i r hr => ?_⟩
      · apply Dict.nodup_keys_set
        rw [hb.2]
        exact hg.nodup
      · replace hr : Dict.get? (Dict.set (List.foldl (orderOne c known t j) (s, q, []) ks).1.insts j _) i = some r := hr
        rw [Dict.get?_set] at hr
        split at hr
        · rw [← Option.some.inj hr]
          dsimp only
          rw [hb.1, foldl_meas]
          exact shape_addAll h _ (hg.shape j q hj)
        · rw [hb.2] at hr
          exact hg.shape i r hr

theorem good_run {c : Cfg} (h : c.Ok) {es : List Ev} {s s' : Mon} {out : List Key} (hs : run c s es = some (s', out)) (hg : Good c s) : Good c s' := by
  induction es generalizing s out with
  | nil =>
    cases hs
    exact hg
  | cons e es ih =>
    unfold run at hs
    split at hs
    · nomatch hs
    · rename_i x hx
      split at hs
      · nomatch hs
      · rename_i y hy
        cases hs
        exact ih hy (good_step h hx hg)

theorem good_empty (c : Cfg) : Good c {} := ⟨List.Pairwise.nil, nofun⟩

theorem getThr_nonneg {c : Cfg} (h : c.Ok) {s : Mon} (hg : Good c s) {t : Nat} {i : Inst} {y : Rat} (hy : getThr c t s i = some y) : 0 ≤ y := by
  unfold getThr at hy
  split at hy
  · nomatch hy
  · rename_i r hr
    unfold Meas.get at hy
    split at hy
    · nomatch hy
    · obtain ⟨_, _, _, hph, _⟩ := shape_windows h ((t - r.meas.start) / c.window) (hg.shape i r hr)
      rcases hph with ⟨_, hn, _⟩ | ⟨_, x, hx, x0⟩
      · unfold update at hy
        rw [hn] at hy
        nomatch hy
      · unfold update at hy
        rw [hx] at hy
        rw [← Option.some.inj hy]
        exact x0

theorem otherThrs_nonneg {c : Cfg} (h : c.Ok) {s : Mon} (hg : Good c s) {t : Nat} {i : Inst} (hne : (otherThrs c t s i).isEmpty = false) :
    0 ≤ medianLow (otherThrs c t s i) := by
  apply medianLow_ge
  · exact List.length_pos_iff.mpr (List.isEmpty_eq_false_iff.mp hne)
  · have : (otherThrs c t s i).countP (fun y => decide (y < 0)) = 0 := by
      rw [List.countP_eq_zero]
      intro y hy hlt
      obtain ⟨j, _, hj⟩ := List.mem_filterMap.mp hy
      have := getThr_nonneg h hg hj
      simp at hlt
      grind
    omega

/-- Fast enough against enough backups. -/
theorem not_tooLow_of {c : Cfg} (h : c.Ok) {t : Nat} {s : Mon} (hg : Good c s) {G : List Inst} (h0 : s.insts.has 0 = true) (hG : Backups s G)
    (hK : s.insts.length ≤ 2 * G.length + 1) {x Y : Rat} (hx : getThr c t s 0 = some x)
    (hy : ∀ g ∈ G, ∃ y, getThr c t s g = some y ∧ y ≤ Y) (hd : 0 ≤ c.delta) (hle : c.delta * Y ≤ x) : tooLow c t s 0 = false := by
  have hl := others_length hg.nodup h0
  unfold tooLow ratio getThroughputs
  dsimp only
  rw [hx]
  split
  · rfl
  · rename_i r hr
    split at hr
    · rename_i a b hab
      split at hr
      · nomatch hr
      · rename_i hb0
        have hr' := Option.some.inj hr
        rw [Prod.mk.injEq] at hab
        obtain ⟨ha, hb⟩ := hab
        split at ha
        · nomatch ha
        · have ha' := Option.some.inj ha
          split at hb
          · rename_i hlen
            split at hb
            · nomatch hb
            · rename_i hne
              simp only [if_true] at hb
              have hb' := Option.some.inj hb
              have hmed : medianLow (otherThrs c t s 0) ≤ Y := others_le (s.insts.keys.filter (· ≠ 0)) (getThr c t s) hG.nodup (Y := Y)
                (by omega) (by omega) fun g hg => ⟨backups_mem hG g hg, hy g hg⟩
              subst ha'
              rw [← hr']
              rw [hb'] at hmed
              simp only [decide_eq_false_iff_not]
              intro hlt
              have m1 := Rat.mul_le_mul_of_nonneg_left hmed hd
              by_cases hbp : 0 < b
              · rw [Rat.div_lt_iff hbp] at hlt
                grind
              · have := otherThrs_nonneg h hg (t := t) (i := 0) (by simpa using hne)
                rw [hb'] at this
                exact hb0 (by grind)
          · nomatch hb
    · nomatch hr


/-! ## From histories to verdicts -/

theorem scale_lt {a b w : Rat} (hw : 0 < w) (h : a < b) : a / w < b / w := by
  rw [Rat.div_def, Rat.div_def]
  exact Rat.mul_lt_mul_of_pos_right h (Rat.inv_pos.mpr hw)

/-- All that is said of the good backups. -/
structure Setting (c : Cfg) (s s' : Mon) (es : List Ev) (out : List Key) (G : List Inst) (t0 t : Nat) : Prop where
  good : Good c s
  run : run c s es = some (s', out)
  clock : Clock t0 es t
  master : Since s es 0 t0
  backup : ∀ g ∈ G, Since s es g t0
  nodup : G.Nodup
  others : 0 ∉ G

theorem Setting.good' {c : Cfg} (h : c.Ok) {s s' : Mon} {es : List Ev} {out : List Key} {G : List Inst} {t0 t : Nat}
    (hS : Setting c s s' es out G t0 t) : Good c s' := good_run h hS.run hS.good

theorem since_there {c : Cfg} {s s' : Mon} {es : List Ev} {out : List Key} {i : Inst} {t0 : Nat} (hr : run c s es = some (s', out))
    (hs : Since s es i t0) : s'.insts.has i = true := by
  obtain ⟨r', g, _⟩ := run_rec hr hs.2 hs.1
  exact (Dict.has_iff _ _).mpr ⟨r', g⟩

theorem Setting.backups {c : Cfg} {s s' : Mon} {es : List Ev} {out : List Key} {G : List Inst} {t0 t : Nat}
    (hS : Setting c s s' es out G t0 t) : Backups s' G := ⟨hS.nodup, hS.others, fun g hg => since_there hS.run (hS.backup g hg)⟩

/-- Busy backups have ordered enough for a verdict. -/
theorem Setting.num {c : Cfg} (h : c.Ok) {s s' : Mon} {es : List Ev} {out : List Key} {G : List Inst} {t0 t k : Nat}
    (hS : Setting c s s' es out G t0 t) (h3 : 3 ≤ c.minCnt) (hk : k + c.minCnt ≤ over c t0 t)
    (hb : ∀ g ∈ G, AtLeastIn 1 t0 c.window (times c g s es) k (over c t0 t)) (hK : s'.insts.length ≤ 2 * G.length) :
    s'.insts.length < otherNum s' 0 := by
  have hnum := otherNum_ge hS.backups (m := c.minCnt) fun g hg => by
    obtain ⟨r', hr', _, _, hn⟩ := run_rec hS.run (hS.backup g hg).2 (hS.backup g hg).1
    refine ⟨r', hr', ?_⟩
    have := busy_batches h hS.clock (hb g hg) (by omega)
    dsimp only at hn
    omega
  have h0 := others_length (hS.good' h).nodup (since_there hS.run hS.master)
  have h1 : 0 < G.length := by omega
  have h2 : 3 * G.length ≤ c.minCnt * G.length := Nat.mul_le_mul_right _ h3
  omega

/-- A master which has become slow. -/
theorem slow_tooLow {c : Cfg} (h : c.Ok) {s s' : Mon} {es : List Ev} {out : List Key} {G : List Inst} {t0 t k M a b : Nat}
    (hS : Setting c s s' es out G t0 t) (h3 : 3 ≤ c.minCnt) (hK : s'.insts.length ≤ 2 * G.length) (hk : k + c.minCnt ≤ over c t0 t)
    (haM : a ≤ M) (hM : AtMostIn M t0 c.window (times c 0 s es) 0 k) (ha : AtMostIn a t0 c.window (times c 0 s es) k (over c t0 t))
    (hb1 : 0 < b) (hb : ∀ g ∈ G, AtLeastIn b t0 c.window (times c g s es) k (over c t0 t))
    (hlt : c.keep ^ (over c t0 t - k - c.minCnt) * (M : Rat) + (a : Rat) < c.delta * ((1 - c.keep ^ (over c t0 t - k - c.minCnt)) * (b : Rat)))
    {x : Rat} (hx : getThr c t s' 0 = some x) : tooLow c t s' 0 = true := by
  have h2 := h.minCnt
  have hw : (0 : Rat) < (c.window : Rat) := cast_pos h.window
  generalize hj : over c t0 t - k - c.minCnt = j at hlt
  have hq0 := pow_nonneg h j
  have hq1 := pow_le_one h j
  have hM0 : (0 : Rat) ≤ (M : Rat) := Rat.natCast_nonneg
  have ha0 : (0 : Rat) ≤ (a : Rat) := Rat.natCast_nonneg
  have hb0 : (0 : Rat) < (b : Rat) := cast_pos hb1
  have l0 := Rat.mul_nonneg hq0 hM0
  have hr0 : 0 ≤ (1 - c.keep ^ j) * (b : Rat) := Rat.mul_nonneg (by grind) (Rat.le_of_lt hb0)
  have hpos : 0 < c.delta * ((1 - c.keep ^ j) * (b : Rat)) := by grind
  have hd : 0 ≤ c.delta := by
    by_cases hd : 0 ≤ c.delta
    · exact hd
    · have := Rat.mul_nonneg (show 0 ≤ -c.delta by grind) hr0
      grind
  have hr1 : 0 < (1 - c.keep ^ j) * (b : Rat) := by
    by_cases hz : (1 - c.keep ^ j) * (b : Rat) = 0
    · rw [hz, Rat.mul_zero] at hpos
      grind
    · grind
  have hxle : x ≤ fall c a M (over c t0 t - k) := by
    rw [thr_over h hS.run hS.master hS.clock (by omega), counts_split (k := k) (by omega)] at hx
    have := replay_falls h haM (atMost_counts hM) (atMost_range (by omega) ha) x hx
    simpa using this
  have hY : ∀ g ∈ G, ∃ y, getThr c t s' g = some y ∧ (1 - c.keep ^ j) * rate c b ≤ y := by
    intro g hg
    rw [thr_over h hS.run (hS.backup g hg) hS.clock (by omega), counts_split (k := k) (by omega), replay_append]
    have := replay_rises h hb1 (shape_replay h (counts t0 c.window (times c g s es) k) (shape_new c t0)) (atLeast_range (by omega) (hb g hg))
      (by simp; omega)
    rw [List.length_map, List.length_range', hj] at this
    exact this
  have e1 : fall c a M (over c t0 t - k) = (c.keep ^ j * (M : Rat) + (a : Rat)) / (c.window : Rat) := by
    unfold fall rate
    rw [hj]
    grind
  have e2 : c.delta * ((1 - c.keep ^ j) * rate c b) = c.delta * ((1 - c.keep ^ j) * (b : Rat)) / (c.window : Rat) := by
    unfold rate
    grind
  have hlt' := scale_lt hw hlt
  rw [← e1, ← e2] at hlt'
  refine tooLow_of (hS.good' h).nodup (since_there hS.run hS.master) hS.backups hK hx (Y := (1 - c.keep ^ j) * rate c b) ?_ hY hd (by grind)
    (hS.num h h3 hk (fun g hg j' h1 h2 => Nat.le_trans hb1 (hb g hg j' h1 h2)) hK)
  have := scale_lt hw hr1
  have e0 : (0 : Rat) / (c.window : Rat) = 0 := by rw [Rat.div_def, Rat.zero_mul]
  rw [e0] at this
  unfold rate
  grind

/-- A master which is slow from the start. -/
theorem slow_start {c : Cfg} (h : c.Ok) {s s' : Mon} {es : List Ev} {out : List Key} {G : List Inst} {t0 t a b : Nat}
    (hS : Setting c s s' es out G t0 t) (h3 : 3 ≤ c.minCnt) (hK : s'.insts.length ≤ 2 * G.length) (hk : c.minCnt ≤ over c t0 t)
    (ha : AtMostIn a t0 c.window (times c 0 s es) 0 (over c t0 t))
    (hb1 : 0 < b) (hb : ∀ g ∈ G, AtLeastIn b t0 c.window (times c g s es) 0 (over c t0 t))
    (hlt : (a : Rat) < c.delta * ((1 - c.keep ^ over c t0 t) * (b : Rat)))
    {x : Rat} (hx : getThr c t s' 0 = some x) : tooLow c t s' 0 = true := by
  have h2 := h.minCnt
  have hw : (0 : Rat) < (c.window : Rat) := cast_pos h.window
  generalize hj : over c t0 t = n at hlt
  have hq0 := pow_nonneg h n
  have hq1 := pow_le_one h n
  have ha0 : (0 : Rat) ≤ (a : Rat) := Rat.natCast_nonneg
  have hb0 : (0 : Rat) < (b : Rat) := cast_pos hb1
  have hr0 : 0 ≤ (1 - c.keep ^ n) * (b : Rat) := Rat.mul_nonneg (by grind) (Rat.le_of_lt hb0)
  have hpos : 0 < c.delta * ((1 - c.keep ^ n) * (b : Rat)) := by grind
  have hd : 0 ≤ c.delta := by
    by_cases hd : 0 ≤ c.delta
    · exact hd
    · have := Rat.mul_nonneg (show 0 ≤ -c.delta by grind) hr0
      grind
  have hr1 : 0 < (1 - c.keep ^ n) * (b : Rat) := by
    by_cases hz : (1 - c.keep ^ n) * (b : Rat) = 0
    · rw [hz, Rat.mul_zero] at hpos
      grind
    · grind
  have hxle : x ≤ rate c a := by
    rw [thr_over h hS.run hS.master hS.clock (by omega)] at hx
    exact replay_le h (atMost_counts ha) x hx
  have hY : ∀ g ∈ G, ∃ y, getThr c t s' g = some y ∧ (1 - c.keep ^ n) * rate c b ≤ y := by
    intro g hg
    rw [thr_over h hS.run (hS.backup g hg) hS.clock (by omega)]
    have := replay_steady h (t0 := t0) hb1 (atLeast_counts (hb g hg)) (by rw [counts_length]; omega)
    rw [counts_length, hj] at this
    rw [hj]
    exact this
  have e2 : c.delta * ((1 - c.keep ^ n) * rate c b) = c.delta * ((1 - c.keep ^ n) * (b : Rat)) / (c.window : Rat) := by
    unfold rate
    grind
  have hlt' := scale_lt hw hlt
  rw [← e2] at hlt'
  replace hlt' : rate c a < _ := hlt'
  refine tooLow_of (hS.good' h).nodup (since_there hS.run hS.master) hS.backups hK hx (Y := (1 - c.keep ^ n) * rate c b) ?_ hY hd (by grind)
    (hS.num h h3 (k := 0) (by omega) (fun g hg j' h1 h2 => Nat.le_trans hb1 (hb g hg j' h1 h2)) hK)
  have := scale_lt hw hr1
  have e0 : (0 : Rat) / (c.window : Rat) = 0 := by rw [Rat.div_def, Rat.zero_mul]
  rw [e0] at this
  unfold rate
  grind

/-- A master which is never silent and is fast enough. -/
theorem fast_start {c : Cfg} (h : c.Ok) {s s' : Mon} {es : List Ev} {out : List Key} {G : List Inst} {t0 t M b : Nat}
    (hS : Setting c s s' es out G t0 t) (hK : s'.insts.length ≤ 2 * G.length + 1) (hk : c.minCnt ≤ over c t0 t)
    (hb1 : 0 < b) (hb : AtLeastIn b t0 c.window (times c 0 s es) 0 (over c t0 t))
    (hM : ∀ g ∈ G, AtLeastIn 1 t0 c.window (times c g s es) 0 (over c t0 t) ∧ AtMostIn M t0 c.window (times c g s es) 0 (over c t0 t))
    (hd : 0 ≤ c.delta) (hle : c.delta * (M : Rat) ≤ (1 - c.keep ^ over c t0 t) * (b : Rat)) : tooLow c t s' 0 = false := by
  have hw : (0 : Rat) < (c.window : Rat) := cast_pos h.window
  obtain ⟨x, hx, hxle⟩ := replay_steady h (t0 := t0) hb1 (atLeast_counts hb) (by rw [counts_length]; omega)
  rw [counts_length] at hxle
  rw [← thr_over h hS.run hS.master hS.clock hk] at hx
  refine not_tooLow_of h (hS.good' h) (since_there hS.run hS.master) hS.backups hK hx (Y := rate c M) (fun g hg => ?_) hd ?_
  · obtain ⟨y, hy, _⟩ := replay_steady h (t0 := t0) (Nat.zero_lt_one) (atLeast_counts (hM g hg).1) (by rw [counts_length]; omega)
    refine ⟨y, ?_, replay_le h (atMost_counts (hM g hg).2) y hy⟩
    rw [thr_over h hS.run (hS.backup g hg) hS.clock hk]
    exact hy
  · have := div_le_div hw hle
    unfold rate at hxle ⊢
    grind

/-- The same after any history. -/
theorem fast_tooLow {c : Cfg} (h : c.Ok) {s s' : Mon} {es : List Ev} {out : List Key} {G : List Inst} {t0 t k M a b : Nat}
    (hS : Setting c s s' es out G t0 t) (hK : s'.insts.length ≤ 2 * G.length + 1) (hk : k + c.minCnt ≤ over c t0 t)
    (hb1 : 0 < b) (hb : AtLeastIn b t0 c.window (times c 0 s es) k (over c t0 t)) (haM : a ≤ M)
    (hM : ∀ g ∈ G, AtMostIn M t0 c.window (times c g s es) 0 k ∧ AtLeastIn 1 t0 c.window (times c g s es) k (over c t0 t) ∧
      AtMostIn a t0 c.window (times c g s es) k (over c t0 t))
    (hd : 0 ≤ c.delta)
    (hle : c.delta * (c.keep ^ (over c t0 t - k - c.minCnt) * (M : Rat) + (a : Rat)) ≤ (1 - c.keep ^ (over c t0 t - k - c.minCnt)) * (b : Rat)) :
    tooLow c t s' 0 = false := by
  have hw : (0 : Rat) < (c.window : Rat) := cast_pos h.window
  generalize hj : over c t0 t - k - c.minCnt = j at hle
  have rise : ∀ i, Since s es i t0 → ∀ lo, 0 < lo → AtLeastIn lo t0 c.window (times c i s es) k (over c t0 t) →
      ∃ x, getThr c t s' i = some x ∧ (1 - c.keep ^ j) * rate c lo ≤ x := by
    intro i hi lo hlo hin
    rw [thr_over h hS.run hi hS.clock (by omega), counts_split (k := k) (by omega), replay_append]
    have := replay_rises h hlo (shape_replay h (counts t0 c.window (times c i s es) k) (shape_new c t0)) (atLeast_range (by omega) hin)
      (by simp; omega)
    rw [List.length_map, List.length_range', hj] at this
    exact this
  obtain ⟨x, hx, hxle⟩ := rise 0 hS.master b hb1 hb
  refine not_tooLow_of h (hS.good' h) (since_there hS.run hS.master) hS.backups hK hx (Y := fall c a M (over c t0 t - k)) (fun g hg => ?_) hd ?_
  · obtain ⟨h1, h2, h3⟩ := hM g hg
    obtain ⟨y, hy, _⟩ := rise g (hS.backup g hg) 1 Nat.zero_lt_one h2
    refine ⟨y, hy, ?_⟩
    rw [thr_over h hS.run (hS.backup g hg) hS.clock (by omega), counts_split (k := k) (by omega)] at hy
    have := replay_falls h haM (atMost_counts h1) (atMost_range (by omega) h3) y hy
    simpa using this
  · have := div_le_div hw hle
    unfold fall rate at *
    rw [hj]
    grind

end Verif.Monitor
