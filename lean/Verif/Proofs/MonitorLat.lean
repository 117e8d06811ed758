import Verif.Proofs.MonitorVerdict
/-! # Latency -/
namespace Verif.Monitor
open Verif Verif.Spec.Monitor

theorem beta_pos (c : Cfg) : 0 < c.beta := by
  unfold Cfg.beta
  have : (0 : Rat) ≤ (c.minLat : Rat) := Rat.natCast_nonneg
  rw [Rat.lt_div_iff (by grind)]
  grind

theorem beta_le (c : Cfg) : c.beta ≤ 1 := by
  unfold Cfg.beta
  have : (0 : Rat) ≤ (c.minLat : Rat) := Rat.natCast_nonneg
  have h : (0 : Rat) < (c.minLat : Rat) + 1 := by grind
  have := div_le_div h (show (1 : Rat) ≤ (c.minLat : Rat) + 1 by grind)
  rw [Rat.div_def ((c.minLat : Rat) + 1), Rat.mul_inv_cancel _ (by grind)] at this
  exact this

/-- What is left of a value after one request. -/
def Cfg.keepLat (c : Cfg) : Rat := 1 - c.beta

theorem keepLat_nonneg (c : Cfg) : 0 ≤ c.keepLat := by
  have := beta_le c
  unfold Cfg.keepLat
  grind

theorem keepLat_lt (c : Cfg) : c.keepLat < 1 := by
  have := beta_pos c
  unfold Cfg.keepLat
  grind

theorem keepLat_pow (c : Cfg) (n : Nat) : 0 ≤ c.keepLat ^ n ∧ c.keepLat ^ n ≤ 1 := by
  have h0 := keepLat_nonneg c
  refine ⟨Rat.pow_nonneg h0, ?_⟩
  induction n with
  | zero =>
    rw [Rat.pow_zero]
    exact Rat.le_refl
  | succ n ih =>
    rw [Rat.pow_succ]
    have := Rat.mul_le_mul_of_nonneg_right ih h0
    have := keepLat_lt c
    grind

theorem keepLat_pow_lt (c : Cfg) {n : Nat} (hn : 0 < n) : c.keepLat ^ n < 1 := by
  cases n with
  | zero => omega
  | succ n =>
    rw [Rat.pow_succ]
    have := Rat.mul_le_mul_of_nonneg_right (keepLat_pow c n).2 (keepLat_nonneg c)
    have := keepLat_lt c
    grind

theorem Lat.add_avg (c : Cfg) (l : Lat) (d : Nat) : (l.add c d).avg = c.keepLat * l.avg + (1 - c.keepLat) * (d : Rat) := by
  unfold Lat.add Cfg.keepLat
  dsimp only
  grind

/-- The durations one after another. -/
def lats (c : Cfg) (l : Lat) (ds : List Nat) : Lat := ds.foldl (fun a d => a.add c d) l

theorem lats_total (c : Cfg) (l : Lat) (ds : List Nat) : (lats c l ds).total = l.total + ds.length := by
  induction ds generalizing l with
  | nil => rfl
  | cons d ds ih =>
    show (lats c (l.add c d) ds).total = _
    rw [ih, List.length_cons]
    show l.total + 1 + _ = _
    omega

theorem lats_nonneg {c : Cfg} {l : Lat} (h : 0 ≤ l.avg) (ds : List Nat) : 0 ≤ (lats c l ds).avg := by
  induction ds generalizing l with
  | nil => exact h
  | cons d ds ih =>
    apply ih
    rw [Lat.add_avg]
    exact mix_nonneg (keepLat_nonneg c) (Rat.le_of_lt (keepLat_lt c)) h Rat.natCast_nonneg

theorem lats_le {c : Cfg} {l : Lat} {D : Nat} (h : l.avg ≤ (D : Rat)) {ds : List Nat} (hd : ∀ d ∈ ds, d ≤ D) : (lats c l ds).avg ≤ (D : Rat) := by
  induction ds generalizing l with
  | nil => exact h
  | cons d ds ih =>
    refine ih ?_ fun x hx => hd x (List.mem_cons_of_mem _ hx)
    rw [Lat.add_avg]
    have := mix_le (keepLat_nonneg c) (Rat.le_of_lt (keepLat_lt c)) h (Rat.natCast_le_natCast.mpr (hd d (List.mem_cons_self ..)))
    grind

theorem lats_ge {c : Cfg} {D : Nat} {ds : List Nat} (hd : ∀ d ∈ ds, D ≤ d) :
    ∀ l : Lat, 0 ≤ l.avg → (1 - c.keepLat ^ ds.length) * (D : Rat) ≤ (lats c l ds).avg := by
  induction ds using snoc_induction with
  | nil =>
    intro l h
    rw [List.length_nil, Rat.pow_zero]
    show _ ≤ l.avg
    grind
  | snoc ds d ih =>
    intro l h
    have h1 := ih (fun x hx => hd x (List.mem_append_left _ hx)) l h
    have e : lats c l (ds ++ [d]) = (lats c l ds).add c d := by simp [lats]
    rw [e, Lat.add_avg, List.length_append, List.length_singleton, Rat.pow_succ]
    have := mix_le (keepLat_nonneg c) (Rat.le_of_lt (keepLat_lt c)) h1
      (Rat.natCast_le_natCast.mpr (hd d (List.mem_append_right _ (List.mem_singleton_self d))))
    grind

/-- The latency of an instance is the one of the requests it ordered. -/
theorem lat_eq {c : Cfg} {s s' : Mon} {es : List Ev} {out : List Key} {i : Inst} {t0 : Nat} (hr : run c s es = some (s', out))
    (hs : Since s es i t0) : getLat c s' i = (lats c {} (durs (log c i s es))).get c := by
  obtain ⟨r', g, _, hl, _⟩ := run_rec hr hs.2 hs.1
  unfold getLat
  rw [g]
  dsimp only
  rw [hl]
  rfl

/-! ## All states -/

/-- No latency is below zero. -/
def LatOk (s : Mon) : Prop := ∀ i r, s.insts.get? i = some r → 0 ≤ r.lat.avg

theorem latOk_step {c : Cfg} {s s' : Mon} {out : List Key} {e : Ev} (hs : step c s e = some (s', out)) (hg : LatOk s) : LatOk s' := by
  cases e with
  | add t j =>
    cases hs
    intro i r hr
    replace hr : (s.insts.set j _).get? i = some r := hr
    rw [Dict.get?_set] at hr
    split at hr
    · rw [← Option.some.inj hr]
      exact Rat.le_refl
    · exact hg i r hr
  | remove j =>
    replace hs : (removeInstance j s).map (fun s => (s, ([] : List Key))) = some (s', out) := hs
    unfold removeInstance at hs
    split at hs
    · cases hs
      exact hg
    · split at hs
      · cases hs
        intro i r hr
        rw [drop_insts] at hr
        replace hr : (s.insts.erase j).get? i = some r := hr
        rw [Dict.get?_erase] at hr
        split at hr
        · nomatch hr
        · exact hg i r hr
      · nomatch hs
  | reset t =>
    cases hs
    intro i r hr
    obtain ⟨e, _, rfl⟩ := get?_map_mem (d := s.insts) (f := fun _ => ({ meas := newMeas t } : Rec)) hr
    exact Rat.le_refl
  | came t k =>
    cases hs
    exact hg
  | dropped k =>
    cases hs
    exact hg
  | check t =>
    replace hs : checkUnordered c t s = some (s', out) := hs
    unfold checkUnordered at hs
    split at hs
    · nomatch hs
    · cases hs
      intro i r hr
      rw [handles_insts] at hr
      exact hg i r hr
  | ordered t j ks known =>
    replace hs : (ordered c known t j ks s).map (fun x => (x.1, ([] : List Key))) = some (s', out) := hs
    unfold ordered at hs
    split at hs
    · nomatch hs
    · rename_i q hj
      cases hs
      have hb := batch_rec c known t j ks s q []
      intro i r hr
      replace hr : Dict.get? (Dict.set (List.foldl (orderOne c known t j) (s, q, []) ks).1.insts j _) i = some r := hr
      rw [Dict.get?_set] at hr
      split at hr
      · rw [← Option.some.inj hr]
        dsimp only
        rw [hb.1, foldl_lat]
        exact lats_nonneg (hg j q hj) _
      · rw [hb.2] at hr
        exact hg i r hr

theorem latOk_run {c : Cfg} {es : List Ev} {s s' : Mon} {out : List Key} (hs : run c s es = some (s', out)) (hg : LatOk s) : LatOk s' := by
  induction es generalizing s out with
  | nil =>
    cases hs
    exact hg
  | cons e es ih =>
    unfold run at hs
    split at hs
    · nomatch hs
    · rename_i x hx
      split at hs
      · nomatch hs
      · rename_i y hy
        cases hs
        exact ih hy (latOk_step hx hg)

theorem getLat_nonneg {c : Cfg} {s : Mon} (hg : LatOk s) {i : Inst} {y : Rat} (hy : getLat c s i = some y) : 0 ≤ y := by
  unfold getLat at hy
  split at hy
  · nomatch hy
  · rename_i r hr
    unfold Lat.get at hy
    split at hy
    · nomatch hy
    · rw [← Option.some.inj hy]
      exact hg i r hr

theorem otherLats_pos {c : Cfg} {s : Mon} (hg : LatOk s) {y : Rat} (hy : y ∈ otherLats c s) : 0 < y := by
  obtain ⟨j, _, hj⟩ := List.mem_filterMap.mp hy
  rw [Option.filter_eq_some_iff] at hj
  have := getLat_nonneg hg hj.1
  have h0 : y ≠ 0 := by simpa using hj.2
  grind

theorem sortUp_mem {x : Rat} {l : List Rat} (h : x ∈ sortUp l) : x ∈ l := by
  induction l with
  | nil => exact h
  | cons y l ih =>
    rcases insertUp_mem h with h | h
    · exact h ▸ List.mem_cons_self ..
    · exact List.mem_cons_of_mem _ (ih h)

theorem medianHigh_mem {l : List Rat} (h : l ≠ []) : medianHigh l ∈ l := by
  apply sortUp_mem
  have hl := List.length_pos_iff.mpr h
  have hlt : l.length / 2 < (sortUp l).length := by
    rw [sortUp_length]
    omega
  have e : medianHigh l = (sortUp l)[l.length / 2] := by simp [medianHigh, List.getD, hlt]
  rw [e]
  exact List.getElem_mem hlt

/-- Requests wait for too long at the master and not at enough good backups. -/
theorem latHigh_of {c : Cfg} {s : Mon} (hg : LatOk s) {G : List Inst} (hn : s.insts.keys.Nodup) (h0 : s.insts.has 0 = true) (hG : Backups s G)
    (hK : s.insts.length ≤ 2 * G.length) {x Y : Rat} (hx : getLat c s 0 = some x) (hx0 : 0 < x)
    (hy : ∀ g ∈ G, ∃ y, getLat c s g = some y ∧ 0 < y ∧ y ≤ Y) (hle : c.omega ≤ x - Y) : latHigh c s = true := by
  have hl := others_length hn h0
  obtain ⟨hpos, hmed⟩ := others_high_le (s.insts.keys.filter (· ≠ 0)) (fun j => (getLat c s j).filter (· ≠ 0)) hG.nodup (Y := Y) (by omega)
    fun g hg' => by
      obtain ⟨y, e, y0, hle⟩ := hy g hg'
      refine ⟨backups_mem hG g hg', y, ?_, hle⟩
      rw [e, Option.filter_eq_some_iff]
      refine ⟨rfl, ?_⟩
      have : y ≠ 0 := by grind
      simpa using this
  replace hmed : medianHigh (otherLats c s) ≤ Y := hmed
  have hne : otherLats c s ≠ [] := List.ne_nil_of_length_pos hpos
  have hmp := otherLats_pos hg (medianHigh_mem hne)
  unfold latHigh
  rw [hx]
  dsimp only
  have e1 : (x = 0 || (otherLats c s).isEmpty || medianHigh (otherLats c s) = 0) = false := by
    simp only [Bool.or_eq_false_iff, decide_eq_false_iff_not]
    refine ⟨⟨by grind, by simpa using hne⟩, by grind⟩
  rw [e1]
  simp
  grind

/-- Requests do not wait for long at the master. -/
theorem not_latHigh_of {c : Cfg} {s : Mon} (hg : LatOk s) (hx : ∀ x, getLat c s 0 = some x → x < c.omega) : latHigh c s = false := by
  unfold latHigh
  split
  · rfl
  · rename_i a ha
    dsimp only
    split
    · rfl
    · rename_i hh
      have hne : otherLats c s ≠ [] := by
        intro e
        rw [e] at hh
        simp at hh
      have := otherLats_pos hg (medianHigh_mem hne)
      have := hx a ha
      simp
      grind

theorem slow_latHigh {c : Cfg} (h : c.Ok) {s s' : Mon} {es : List Ev} {out : List Key} {G : List Inst} {t0 t D d : Nat}
    (hS : Setting c s s' es out G t0 t) (hL : LatOk s) (hK : s'.insts.length ≤ 2 * G.length) {pre suf : List Nat}
    (hpre : durs (log c 0 s es) = pre ++ suf) (hmin : c.minLat ≤ (durs (log c 0 s es)).length) (hD : ∀ x ∈ suf, D ≤ x)
    (hd : ∀ g ∈ G, 0 < (durs (log c g s es)).length ∧ c.minLat ≤ (durs (log c g s es)).length ∧ ∀ x ∈ durs (log c g s es), 1 ≤ x ∧ x ≤ d)
    (hle : (d : Rat) + c.omega ≤ (1 - c.keepLat ^ suf.length) * (D : Rat)) (ho : 0 < c.omega) : latHigh c s' = true := by
  have hv : 0 ≤ (lats c {} pre).avg := lats_nonneg Rat.le_refl _
  have hge := lats_ge hD (c := c) _ hv
  have e : lats c {} (durs (log c 0 s es)) = lats c (lats c {} pre) suf := by rw [hpre]; simp [lats]
  rw [← e] at hge
  have hx : getLat c s' 0 = some (lats c {} (durs (log c 0 s es))).avg := by
    rw [lat_eq hS.run hS.master]
    unfold Lat.get
    rw [lats_total, if_neg (by simpa using hmin)]
  have hd0 : (0 : Rat) ≤ (d : Rat) := Rat.natCast_nonneg
  refine latHigh_of (latOk_run hS.run hL) (hS.good' h).nodup (since_there hS.run hS.master) hS.backups hK hx (by grind) (Y := (d : Rat)) (fun g hg => ?_) (by grind)
  obtain ⟨h0, h1, h2⟩ := hd g hg
  refine ⟨(lats c {} (durs (log c g s es))).avg, ?_, ?_, ?_⟩
  · rw [lat_eq hS.run (hS.backup g hg)]
    unfold Lat.get
    rw [lats_total, if_neg (by simpa using h1)]
  · have := lats_ge (D := 1) (fun x hx => (h2 x hx).1) (c := c) {} Rat.le_refl
    have h3 := keepLat_pow_lt c h0
    have e1 : ((1 : Nat) : Rat) = 1 := rfl
    rw [e1] at this
    grind
  · exact lats_le hd0 fun x hx => (h2 x hx).2

theorem fast_latHigh {c : Cfg} {s s' : Mon} {es : List Ev} {out : List Key} {t0 D : Nat} (hr : run c s es = some (s', out)) (hL : LatOk s)
    (hs : Since s es 0 t0) (hD : ∀ x ∈ durs (log c 0 s es), x ≤ D) (ho : (D : Rat) < c.omega) : latHigh c s' = false := by
  refine not_latHigh_of (latOk_run hr hL) fun x hx => ?_
  rw [lat_eq hr hs] at hx
  unfold Lat.get at hx
  split at hx
  · nomatch hx
  · rw [← Option.some.inj hx]
    have := lats_le (c := c) (l := {}) (D := D) Rat.natCast_nonneg hD
    grind

end Verif.Monitor
