import Verif.Proofs.Metrics
/-!
# C115: the metrics of a node say what was measured
-/
namespace Verif.Props
open Verif.Metrics Verif.Spec.Metrics

/-! ## One accumulator -/

/-- Samples added one by one are summed up. -/
theorem C115_add (vs : List Rat) : Sums (vs.foldl Acc.add Acc.empty) vs := by
  suffices H : ∀ (ws : List Rat) (a : Acc), Sums a ws → Sums (vs.foldl Acc.add a) (ws ++ vs) by
    simpa using H [] Acc.empty sums_empty
  induction vs with
  | nil => intro ws a h; simpa using h
  | cons v vs ih =>
    intro ws a h
    have := ih (ws ++ [v]) (a.add v) (sums_add h v)
    simpa using this

/-- So are the samples of a list, and a single one. -/
theorem C115_list (vs : List Rat) : Sums (Acc.ofList vs) vs := sums_ofList vs

theorem C115_value (v : Rat) : Sums (Acc.ofValue v) [v] := sums_ofValue v

/-- Merging two accumulators sums up the samples of both. -/
theorem C115_merge {a b : Acc} {vs ws : List Rat} (ha : Sums a vs) (hb : Sums b ws) : Sums (a.merge b) (vs ++ ws) :=
  sums_merge ha hb

/-- What is said does not depend on the order of the samples, nor on the way in which they were brought together. -/
theorem C115_order {a b : Acc} {vs ws : List Rat} (ha : Sums a vs) (hb : Sums b ws) (h : vs.Perm ws) : a = b :=
  sums_unique (sums_perm h ha) hb

example : ((Acc.empty.add 3).add (1 / 2)).merge (Acc.ofValue 2) = Acc.ofList [2, 3, 1 / 2] :=
  C115_order (C115_merge (C115_add [3, 1 / 2]) (C115_value 2)) (C115_list _) (by decide +kernel)

example : (Acc.ofList [3, 1, 2]).min = some 1 ∧ (Acc.ofList [3, 1, 2]).max = some 3 ∧ (Acc.ofList [3, 1, 2]).sumsq = 14 := by
  decide +kernel

/-- What is stored of an accumulator with samples is read back as it was. -/
theorem C115_bytes {a : Acc} {vs : List Rat} (h : Sums a vs) (hn : vs ≠ []) : ∃ p, a.toBytes = some p ∧ fromBytes p = a :=
  toBytes_of_sums h hn

/-- An accumulator without samples cannot be stored. -/
theorem C115_empty_raises {a : Acc} (h : Sums a []) : a.toBytes = none := by
  rw [sums_unique h sums_empty]; rfl

example : (Acc.ofList [3]).toBytes = some (.one 3) ∧ (Acc.ofList [3, 1]).toBytes = some (.all 4 2 1 3 10) := by
  decide +kernel

theorem met_le_div {x y b : Rat} (hb : 0 < b) (h : x * b ≤ y) : x ≤ y / b := by
  rcases Rat.le_total (a := x) (b := y / b) with h1 | h1
  · exact h1
  · have h2 : y / b * b ≤ x * b := by
      have := Rat.mul_nonneg (a := x - y / b) (b := b) (by grind) (by grind)
      grind
    have h3 : y / b * b = y := by grind
    have h4 : x * b = y := by grind
    have : x = y / b := by grind
    grind

theorem met_div_le {x y b : Rat} (hb : 0 < b) (h : y ≤ x * b) : y / b ≤ x := by
  have := met_le_div (x := -x) (y := -y) hb (by grind)
  grind

theorem met_avg {a : Acc} {vs : List Rat} (h : Sums a vs) (hn : vs ≠ []) :
    a.avg = some (vs.sum / vs.length) ∧ (0 : Rat) < vs.length := by
  have hl : 0 < vs.length := List.length_pos_iff.2 hn
  refine ⟨?_, by exact_mod_cast hl⟩
  unfold Acc.avg
  rw [if_neg (by rw [h.count]; omega), h.count, h.sum]

theorem met_ends {a : Acc} {vs : List Rat} (h : Sums a vs) (hn : vs ≠ []) :
    ∃ mn mx, a.min = some mn ∧ a.max = some mx ∧ mn ∈ vs ∧ mx ∈ vs ∧ (∀ v ∈ vs, mn ≤ v) ∧ ∀ v ∈ vs, v ≤ mx := by
  have h4 := h.min
  have h5 := h.max
  cases h1 : a.min with
  | none => rw [h1] at h4; exact absurd h4 hn
  | some mn =>
    cases h2 : a.max with
    | none => rw [h2] at h5; exact absurd h5 hn
    | some mx =>
      rw [h1] at h4; rw [h2] at h5
      exact ⟨mn, mx, rfl, rfl, h4.1, h5.1, h4.2, h5.2⟩

/-- The average is the sum by the number, and lies between the least and the greatest sample. -/
theorem C115_avg {a : Acc} {vs : List Rat} (h : Sums a vs) (hn : vs ≠ []) :
    ∃ m mn mx, a.avg = some m ∧ a.min = some mn ∧ a.max = some mx ∧ m * vs.length = vs.sum ∧ mn ≤ m ∧ m ≤ mx := by
  obtain ⟨h1, h0⟩ := met_avg h hn
  obtain ⟨mn, mx, e1, e2, _, _, l1, l2⟩ := met_ends h hn
  have g1 := sum_ge mn vs l1
  have g2 := sum_le mx vs l2
  refine ⟨_, mn, mx, h1, e1, e2, by grind, ?_, ?_⟩
  · exact met_le_div h0 (by grind)
  · exact met_div_le h0 (by grind)

/-- Without samples there is no average. -/
theorem C115_no_avg {a : Acc} (h : Sums a []) : a.avg = none := by
  rw [sums_unique h sums_empty]; rfl

theorem met_squares (m : Rat) (vs : List Rat) :
    (vs.map (fun v => (v - m) * (v - m))).sum = (vs.map (fun v => v * v)).sum - 2 * m * vs.sum + (vs.length : Rat) * (m * m) := by
  induction vs with
  | nil => simp only [List.map_nil, List.length_nil, List.sum_nil]; grind
  | cons v vs ih =>
    simp only [List.map_cons, List.length_cons, List.sum_cons, Rat.natCast_add]
    grind

/-- The square of the deviation: the squares of the distances from the average, by the number less one. It is not negative,
so that cutting it off at 0 changes nothing. -/
theorem C115_variance {a : Acc} {vs : List Rat} (h : Sums a vs) (hn : 2 ≤ vs.length) :
    ∃ m d, a.avg = some m ∧ a.variance = some d ∧ 0 ≤ d ∧
      d * (vs.length - 1) = (vs.map (fun v => (v - m) * (v - m))).sum := by
  have hne : vs ≠ [] := by intro e; subst e; simp at hn
  obtain ⟨h1, h0⟩ := met_avg h hne
  have h2 : (1 : Rat) < vs.length := by
    have : ((1 : Nat) : Rat) < (vs.length : Rat) := by exact_mod_cast hn
    simpa using this
  have hs := met_squares (vs.sum / vs.length) vs
  have hp := sumsq_ge (vs.sum / vs.length) vs
  have hm : vs.sum / vs.length * vs.length = vs.sum := by grind
  refine ⟨_, (a.sumsq - a.count * (vs.sum / vs.length * (vs.sum / vs.length))) / (a.count - 1), h1, ?_, ?_, ?_⟩
  · unfold Acc.variance
    rw [if_neg (by rw [h.count]; omega), h1]
  · rw [h.count, h.sumsq]
    refine met_le_div (by grind) ?_
    generalize vs.sum / (vs.length : Rat) = m at hp hm
    rw [← hm] at hp
    grind
  · rw [h.count, h.sumsq, hs]
    grind

/-- With fewer than two samples there is no deviation. -/
theorem C115_no_variance {a : Acc} {vs : List Rat} (h : Sums a vs) (hn : vs.length < 2) : a.variance = none := by
  unfold Acc.variance
  rw [if_pos (by rw [h.count]; exact hn)]

/-- The range never raises, whatever the deviation; it lies between the least and the greatest sample with the average in it,
and is as wide as the deviation if that fits. -/
theorem C115_range {a : Acc} {vs : List Rat} (h : Sums a vs) (hn : vs ≠ []) (std : Option Rat) (hs : ∀ s, std = some s → 0 ≤ s) :
    ∃ lo hi m mn mx, a.stdRange std = some (some lo, some hi) ∧ a.avg = some m ∧ a.min = some mn ∧ a.max = some mx ∧
      mn ≤ lo ∧ lo ≤ m ∧ m ≤ hi ∧ hi ≤ mx ∧ ∀ s, std = some s → s ≤ mx - mn → hi - lo = s := by
  obtain ⟨m, mn, mx, e0, e1, e2, hm, l1, l2⟩ := C115_avg h hn
  obtain ⟨mn', mx', e1', e2', i1, i2, g1, g2⟩ := met_ends h hn
  have q1 : mn = mn' := by rw [e1] at e1'; exact Option.some.inj e1'
  have q2 : mx = mx' := by rw [e2] at e2'; exact Option.some.inj e2'
  subst q1 q2
  obtain ⟨_, h0⟩ := met_avg h hn
  cases std with
  | none => exact ⟨m, m, m, mn, mx, by simp [Acc.stdRange, e0], e0, e1, e2, l1, by grind, by grind, l2, fun s h => by cases h⟩
  | some s =>
    have hs0 := hs s rfl
    by_cases hc : s = 0 ∨ a.min = a.max
    · refine ⟨m, m, m, mn, mx, by simp only [Acc.stdRange]; rw [if_pos hc, e0], e0, e1, e2, l1, by grind, by grind, l2, ?_⟩
      intro s' hs' hle
      cases hs'
      rcases hc with hc | hc
      · grind
      · rw [e1, e2] at hc
        have := Option.some.inj hc
        grind
    · have hne : mn ≠ mx := by
        intro e
        exact hc (.inr (by rw [e1, e2, e]))
      have hlt : mn < mx := by grind
      have hgt : mn < m := by
        have := sum_gt mn vs g1 mx i2 hlt
        rcases Rat.le_total (a := m) (b := mn) with hq | hq
        · have e : m = mn := by grind
          rw [e] at hm
          grind
        · rcases Rat.le_iff_lt_or_eq.1 hq with hq | hq
          · exact hq
          · rw [← hq] at hm
            grind
      have hinv : 1 / (1 + (mx - m) / (m - mn)) = (m - mn) / (mx - mn) := by grind
      have hinv2 : 1 / (1 + (mx - m) / (m - mn)) * ((mx - m) / (m - mn)) = (mx - m) / (mx - mn) := by grind
      have hnz : 1 + (mx - m) / (m - mn) ≠ 0 := by grind
      generalize hS : (if mx - mn < s then mx - mn else s) = S
      have S0 : 0 ≤ S := by grind
      have S1 : S ≤ mx - mn := by grind
      refine ⟨m - S * ((m - mn) / (mx - mn)), m + S * ((mx - m) / (mx - mn)), m, mn, mx, ?_, e0, e1, e2, ?_, ?_, ?_, ?_, ?_⟩
      · simp only [Acc.stdRange]
        rw [if_neg hc, e0, e1, e2]
        simp only
        rw [if_neg (by grind), if_neg hnz, hS, hinv]
        congr 3
        rw [← hinv2, ← hinv]
        grind
      · have k : (m - mn) / (mx - mn) * (mx - mn) = m - mn := by grind
        have k0 : 0 ≤ (m - mn) / (mx - mn) := met_le_div (by grind) (by grind)
        have := Rat.mul_nonneg (a := (mx - mn) - S) (b := (m - mn) / (mx - mn)) (by grind) k0
        grind
      · have k0 : 0 ≤ (m - mn) / (mx - mn) := met_le_div (by grind) (by grind)
        have := Rat.mul_nonneg S0 k0
        grind
      · have k0 : 0 ≤ (mx - m) / (mx - mn) := met_le_div (by grind) (by grind)
        have := Rat.mul_nonneg S0 k0
        grind
      · have k : (mx - m) / (mx - mn) * (mx - mn) = mx - m := by grind
        have k0 : 0 ≤ (mx - m) / (mx - mn) := met_le_div (by grind) (by grind)
        have := Rat.mul_nonneg (a := (mx - mn) - S) (b := (mx - m) / (mx - mn)) (by grind) k0
        grind
      · intro s' hs' hle
        cases hs'
        have : S = s := by grind
        subst this
        grind

example : (Acc.ofList [1, 2, 6]).avg = some 3 ∧ (Acc.ofList [1, 2, 6]).variance = some 7 := by decide +kernel

example : (Acc.ofList [1, 2, 6]).stdRange (some 2) = some (some (11 / 5), some (21 / 5)) := by decide +kernel

/-! ## Stored and read back -/

/-- Two metrics get the same key exactly if time and number agree, the number modulo 2048. -/
theorem C115_keys (t seq t' seq' : Nat) (h : t < 2 ^ 53) (h' : t' < 2 ^ 53) :
    encodeKey t seq = encodeKey t' seq' ↔ t = t' ∧ seq % 2048 = seq' % 2048 := by
  rw [encodeKey_inj, Nat.mod_eq_of_lt h, Nat.mod_eq_of_lt h']

theorem met_start (m t seq : Nat) (h : m < 2 ^ 53) (h' : t < 2 ^ 53) : encodeKey m 0 ≤ encodeKey t seq ↔ m ≤ t := by
  rw [encodeKey_eq, encodeKey_eq, Nat.mod_eq_of_lt h, Nat.mod_eq_of_lt h']
  have := Nat.mod_lt seq (show 2 ^ 11 > 0 by decide)
  constructor <;> intro _ <;> omega

theorem met_run (es : List Ev) (ha : Apart (stored [] 0 false es)) (ht : InTime (stored [] 0 false es)) :
    Holds (({} : Coll).run es).store (stored [] 0 false es) :=
  run_holds es {} [] 0 [] rfl rfl ⟨List.Pairwise.nil, List.Perm.refl _⟩ ha ht

theorem met_sorted_filter {st : Store} (h : Sorted st) (q : Nat × Name × Packed → Bool) : Sorted (st.filter q) :=
  List.Pairwise.filter q h

/-- The entries that are read, as records. -/
theorem met_read (known : Name → Bool) (es : List Ev) (minTs maxTs : Option Time) (hmin : ∀ m, minTs = some m → m < 2 ^ 53)
    (ha : Apart (stored [] 0 false es)) (ht : InTime (stored [] 0 false es)) (q : Time → Bool) :
    ((((({} : Coll).run es).store.filter (fun e => minTs.all (fun m => encodeKey m 0 ≤ e.1))).filter
        (fun e => known e.2.1 && maxTs.all (fun m => decodeTime e.1 ≤ m))).filter (fun e => q (decodeTime e.1))).Perm
      (((stored [] 0 false es).filter (fun r => known r.name && within minTs maxTs r.time && q r.time)).map entryOf) := by
  have h := met_run es ha ht
  rw [List.filter_filter, List.filter_filter]
  refine (holds_filter h _).trans ?_
  rw [List.filter_congr (q := fun r => known r.name && within minTs maxTs r.time && q r.time)]
  intro r hr
  have hlt := (ht r hr).2
  have hd : decodeTime (encodeKey r.time r.seq) = r.time := by
    rw [decodeTime_encodeKey, Nat.mod_eq_of_lt hlt]
  simp only [entryOf, hd, within]
  cases minTs with
  | none => simp [Bool.and_comm]
  | some m =>
    have := met_start m r.time r.seq (hmin m rfl) hlt
    simp only [Option.all_some, this]
    cases q r.time <;> cases known r.name <;> cases decide (m ≤ r.time) <;> simp

theorem met_load (known : Name → Bool) (es : List Ev) (minTs maxTs : Option Time) (step : Nat)
    (ha : Apart (stored [] 0 false es)) (ht : InTime (stored [] 0 false es)) :
    load known minTs maxTs step (({} : Coll).run es).store =
      addAll step [] (((({} : Coll).run es).store.filter (fun e => minTs.all (fun m => encodeKey m 0 ≤ e.1))).filter
        (fun e => known e.2.1 && maxTs.all (fun m => decodeTime e.1 ≤ m))) := by
  unfold load
  exact loadFrom_eq _ _ _ _ (met_sorted_filter (met_run es ha ht).1 _) _

theorem met_pick (n : Name) (p p' : Rec → Bool) (rs : List Rec) (h : ∀ r ∈ rs, r.name = n → p r = p' r) :
    pick n p rs = pick n p' rs := by
  unfold pick
  rw [List.filter_congr]
  intro r hr
  by_cases hn : r.name = n
  · simp [hn, h r hr hn]
  · simp [hn]

/-- The total that is read for a name sums up the samples of that name which were stored within the given times, over every
history with restarts and a closed store: none is left out and none is counted twice. -/
theorem C115_total_partial (known : Name → Bool) (es : List Ev) (minTs maxTs : Option Time) (step : Nat) (n : Name)
    (hmin : ∀ m, minTs = some m → m < 2 ^ 53)
    (ha : Apart (stored [] 0 false es)) (ht : InTime (stored [] 0 false es)) :
    Sums ((load known minTs maxTs step (({} : Coll).run es).store).total.get n)
      (pick n (fun r => known n && within minTs maxTs r.time) (stored [] 0 false es)) := by
  rw [met_load known es minTs maxTs step ha ht, total_addAll _ _ [] ⟨List.nodup_nil, by simp⟩]
  have hp := met_read known es minTs maxTs hmin ha ht (fun _ => true)
  rw [List.filter_eq_self.2 (by simp)] at hp
  rw [show sumFrames n (List.map Prod.snd ([] : Stats)) = Acc.empty from rfl, empty_merge, accOf_perm n hp]
  have := sums_accOf n (fun r => known r.name && within minTs maxTs r.time && true) _ (samples_ne_nil es [] 0 false)
  rw [met_pick n _ (fun r => known n && within minTs maxTs r.time)] at this
  · exact this
  · intro r _ hn
    rw [hn]
    simp

theorem met_round (x : Nat) :
    (946684800000000 + x * 1000000 + 500000) / 1000000 * 1000000 = 946684800000000 + x * 1000000 := by
  omega

theorem met_frame (s : Nat) (hs : 0 < s) (t u : Time) :
    truncTs t (s * 1000000) = truncTs u (s * 1000000) ↔ sameFrame (s * 1000000) t u = true := by
  have hv : ∀ t : Time, truncTs t (s * 1000000) = base + (t - base) / (s * 1000000) * s * 1000000 := by
    intro t
    unfold truncTs
    rw [← Nat.mul_assoc]
    exact met_round _
  rw [hv, hv]
  unfold sameFrame
  rw [beq_iff_eq]
  constructor
  · intro h
    have : (t - base) / (s * 1000000) * s = (u - base) / (s * 1000000) * s :=
      Nat.eq_of_mul_eq_mul_right (show 0 < 1000000 by decide) (Nat.add_left_cancel h)
    exact Nat.eq_of_mul_eq_mul_right hs this
  · intro h
    rw [h]

/-- A frame of a whole number of seconds sums up the samples that were stored in the time of the frame. -/
theorem C115_frame_partial (known : Name → Bool) (es : List Ev) (minTs maxTs : Option Time) (s : Nat) (hs : 0 < s) (n : Name)
    (t : Time) (hmin : ∀ m, minTs = some m → m < 2 ^ 53)
    (ha : Apart (stored [] 0 false es)) (ht : InTime (stored [] 0 false es)) :
    Sums (((load known minTs maxTs (s * 1000000) (({} : Coll).run es).store).frame (s * 1000000) t).get n)
      (pick n (fun r => known n && within minTs maxTs r.time && sameFrame (s * 1000000) r.time t) (stored [] 0 false es)) := by
  rw [met_load known es minTs maxTs (s * 1000000) ha ht, frame_addAll]
  have hp := met_read known es minTs maxTs hmin ha ht (fun u => truncTs u (s * 1000000) = truncTs t (s * 1000000))
  rw [show (Stats.frame ([] : Stats) (s * 1000000) t).get n = Acc.empty from rfl, empty_merge, accOf_perm n hp]
  have := sums_accOf n (fun r => known r.name && within minTs maxTs r.time &&
    decide (truncTs r.time (s * 1000000) = truncTs t (s * 1000000))) _ (samples_ne_nil es [] 0 false)
  rw [met_pick n _ (fun r => known n && within minTs maxTs r.time && sameFrame (s * 1000000) r.time t)] at this
  · exact this
  · intro r _ hn
    rw [hn]
    congr 1
    rw [Bool.eq_iff_iff, decide_eq_true_iff]
    exact met_frame s hs r.time t

/-- A history: three samples of two names in two flushes, a restart, and a flush after closing. -/
def met_hist : List Ev :=
  [.add 7 3, .add 8 1, .add 7 5, .flush (fun _ => base + 10), .restart, .add 7 2, .flush (fun _ => base + 61000000), .close,
    .add 7 9, .flush (fun _ => base + 62000000)]

example : Apart (stored [] 0 false met_hist) ∧ InTime (stored [] 0 false met_hist) := by
  constructor
  · simp [met_hist, stored, namesOf, recsOf, Apart, base]
  · simp [met_hist, stored, namesOf, recsOf, InTime, base]

example : (load (fun _ => true) none none 60000000 (({} : Coll).run met_hist).store).total.get 7 = Acc.ofList [3, 5, 2] := by
  decide +kernel

example :
    ((load (fun _ => true) none none 60000000 (({} : Coll).run met_hist).store).frame 60000000 (base + 70000000)).get 7 =
      Acc.ofValue 2 := by
  decide +kernel

/-- Not so for all histories: a node that is started again counts from 0, and what it stores in the microsecond of an earlier
record replaces that one. -/
theorem C115_lost_sample :
    ∃ es : List Ev, InTime (stored [] 0 false es) ∧
      ¬ Sums ((load (fun _ => true) none none 60000000 (({} : Coll).run es).store).total.get 7)
        (pick 7 (fun _ => true) (stored [] 0 false es)) := by
  refine ⟨[.add 7 3, .flush (fun _ => base), .restart, .add 7 5, .flush (fun _ => base)], ?_, fun h => ?_⟩
  · simp [stored, namesOf, recsOf, InTime, base]
  · have := h.count
    revert this
    decide +kernel

end Verif.Props
