import Verif.Proofs.MonitorLat
import Verif.Proofs.MonitorLate
import Verif.Proofs.MonitorBack
import Verif.Proofs.MonitorBackup
/-!
# C89: a slow primary is noticed, a good one is not accused

A monitor has gone through any events before (`past`). Then instances 0 (the master) and `G` (backups)
are measured from `t0` on, while `es` happens, until `t`.
-/
namespace Verif.Props
open Verif Verif.Monitor Verif.Spec.Monitor

/-- The history in question. `s'` is the monitor at the end. -/
structure Watched (c : Cfg) (past es : List Ev) (s s' : Mon) (G : List Inst) (t0 t : Nat) : Prop where
  past : ∃ out, run c {} past = some (s, out)
  run : ∃ out, run c s es = some (s', out)
  clock : Clock t0 es t
  master : Since s es 0 t0
  backup : ∀ g ∈ G, Since s es g t0
  nodup : G.Nodup
  others : 0 ∉ G

theorem Watched.setting {c : Cfg} (h : c.Ok) {past es : List Ev} {s s' : Mon} {G : List Inst} {t0 t : Nat} (hW : Watched c past es s s' G t0 t) :
    ∃ out, Setting c s s' es out G t0 t := by
  obtain ⟨o, ho⟩ := hW.past
  obtain ⟨o', ho'⟩ := hW.run
  exact ⟨o', good_run h ho (good_empty c), ho', hW.clock, hW.master, hW.backup, hW.nodup, hW.others⟩

theorem Watched.latOk {c : Cfg} {past es : List Ev} {s s' : Mon} {G : List Inst} {t0 t : Nat} (hW : Watched c past es s s' G t0 t) : LatOk s := by
  obtain ⟨o, ho⟩ := hW.past
  exact latOk_run ho (fun _ _ h => nomatch h)

theorem Watched.there {c : Cfg} {past es : List Ev} {s s' : Mon} {G : List Inst} {t0 t : Nat} (hW : Watched c past es s s' G t0 t) :
    s'.insts.has 0 = true := by
  obtain ⟨o, ho⟩ := hW.run
  exact since_there ho hW.master

/-! ## What is measured -/

/-- **C89 (when a throughput is known).** It is unknown before `minCnt` windows have passed, and while an instance which was silent for so long, or
from the start, has not ordered in `minCnt` windows in a row. Otherwise it is known. -/
theorem C89_measured {c : Cfg} (h : c.Ok) {s s' : Mon} {es : List Ev} {out : List Key} {i : Inst} {t0 t : Nat} (hr : run c s es = some (s', out))
    (hs : Since s es i t0) (hc : Clock t0 es t) :
    getThr c t s' i = none ↔ (t < t0 + c.window * c.minCnt ∨ Back c.minCnt (counts t0 c.window (times c i s es) (over c t0 t))) := by
  rw [thr_eq h hr hs hc]
  split
  · rename_i hlt
    exact ⟨fun _ => Or.inl hlt, fun _ => rfl⟩
  · rename_i hlt
    rw [replay_none h]
    exact ⟨Or.inr, fun hh => hh.resolve_left hlt⟩

/-- **C89 (it is known often enough).** Among any `minCnt` windows in a row there is one after which the throughput is known. -/
theorem C89_measured_often {m : Nat} (hm : 2 ≤ m) (before : List Nat) (ns : List Nat) (hl : m ≤ ns.length) :
    ∃ k, k < m ∧ ¬ Back m (before ++ ns.take (k + 1)) := by
  have h : Cfg.Ok { window := 1, minCnt := m, delta := 0, omega := 0, minLat := 0, freq := 0 } := ⟨Nat.zero_lt_one, hm⟩
  obtain ⟨k, hk, x, hx⟩ := replay_some h 0 before ns hl
  refine ⟨k, hk, fun hb => ?_⟩
  rw [(replay_none h 0 _).mpr hb] at hx
  nomatch hx

/-- **C89 (the throughput is right).** With between `lo` and `hi` requests in each of `n ≥ minCnt` windows, the throughput is at most `hi` per window,
and at least `lo` per window except for a part which gets small. -/
theorem C89_bounds {c : Cfg} (h : c.Ok) {s s' : Mon} {es : List Ev} {out : List Key} {i : Inst} {t0 t lo hi : Nat} (hr : run c s es = some (s', out))
    (hs : Since s es i t0) (hc : Clock t0 es t) (hn : c.minCnt ≤ over c t0 t) (h1 : 0 < lo)
    (hlo : AtLeastIn lo t0 c.window (times c i s es) 0 (over c t0 t)) (hhi : AtMostIn hi t0 c.window (times c i s es) 0 (over c t0 t)) :
    ∃ x, getThr c t s' i = some x ∧ (1 - c.keep ^ over c t0 t) * ((lo : Rat) / (c.window : Rat)) ≤ x ∧ x ≤ (hi : Rat) / (c.window : Rat) := by
  rw [thr_over h hr hs hc hn]
  obtain ⟨x, hx, hle⟩ := replay_steady h (t0 := t0) h1 (atLeast_counts hlo) (by rw [counts_length]; exact hn)
  rw [counts_length] at hle
  exact ⟨x, hx, hle, replay_le h (atMost_counts hhi) x hx⟩

/-- **C89 (no arithmetic with None).** In all histories: except during a revival, in which the value is not used, there is a throughput to go on
with, and there is always one from before the silence. -/
theorem C89_never_none {c : Cfg} (h : c.Ok) {es : List Ev} {s : Mon} {out : List Key} (hr : run c {} es = some (s, out)) {i : Inst} {r : Rec}
    (hi : s.insts.get? i = some r) : (r.meas.phase ≠ .revival → r.meas.thr ≠ none) ∧ r.meas.before ≠ none := by
  obtain ⟨b, hb, _, hph, _⟩ := (good_run h hr (good_empty c)).shape i r hi
  refine ⟨fun hne hn => ?_, fun hn => by rw [hb] at hn; nomatch hn⟩
  rcases hph with ⟨hp, _⟩ | ⟨_, x, hx, _⟩
  · exact hne hp
  · rw [hx] at hn
    nomatch hn

/-- **C89 (what is counted).** A request is counted for instance `i` when `i` orders it, with the right time since it came: when it came while `i` was there,
`i` had not ordered it, and it was not dropped meanwhile. -/
theorem C89_counted {c : Cfg} {past es : List Ev} {s s' : Mon} {o o' : List Key} {i : Inst} {k : Key} {t1 t : Nat} {ks : List Key} {known : Key → Bool}
    (hp : run c {} past = some (s, o)) (hi : s.insts.has i = true) (hr : run c s (.came t1 k :: es) = some (s', o'))
    (hl : ∀ e ∈ es, e.leaves i k = true) (hk : k ∈ ks) : (⟨t, t - t1, known k⟩ : Entry) ∈ evLog s' i (.ordered t i ks known) := by
  obtain ⟨s1, o1, o2, h1, h2, _⟩ := run_cons hr
  cases h1
  have hn : (came t1 k s).reqs.keys.Nodup := reqs_nodup_step (c := c) (e := .came t1 k) rfl (reqs_nodup_run hp List.Pairwise.nil)
  show _ ∈ if i = i then _ else _
  rw [if_pos rfl]
  exact waits_counted (run_waits hn h2 hl (came_waits hi)) hk

/-- **C89 (what is counted, exactly).** Of a batch of different requests those which are tracked are counted, once each. -/
theorem C89_counted_once {s : Mon} {i : Inst} {t : Nat} {ks : List Key} {known : Key → Bool} (hn : ks.Nodup) :
    evLog s i (.ordered t i ks known) = ks.filterMap fun k => (s.reqs.get? k).map fun r => ⟨t, t - r.since, known k⟩ := by
  show (if i = i then _ else _) = _
  rw [if_pos rfl]
  exact batchLog_eq hn

/-- Two instances, of which one has ordered a request. -/
def monAfterStart : Mon := ((run conf {} [.add 0 0, .add 0 1, .came 1 7, .ordered 2 1 [7] (fun _ => true)]).map Prod.fst).getD {}

/-- **C89 (measuring starts anew).** After an instance is added, it is measured from then on, with nothing from before; after a reset this is so for all instances, and no request from before is tracked. -/
theorem C89_starts {c : Cfg} {s s' : Mon} {o : List Key} {t : Nat} :
    (∀ i, step c s (.add t i) = some (s', o) → Since s' [] i t ∧ ∀ j, j ≠ i → s'.insts.get? j = s.insts.get? j) ∧
    (step c s (.reset t) = some (s', o) → (∀ i, s.insts.has i = true → Since s' [] i t) ∧ s'.insts.keys = s.insts.keys ∧ s'.reqs = []) := by
  refine ⟨fun i h => ?_, fun h => ?_⟩
  · cases h
    refine ⟨⟨(Dict.get?_set ..).trans (if_pos rfl), nofun⟩, fun j hj => (Dict.get?_set ..).trans (if_neg (Ne.symm hj))⟩
  · cases h
    refine ⟨fun i hi => ⟨?_, nofun⟩, nodup_map_keys s.insts fun _ => ({ meas := newMeas t } : Rec), rfl⟩
    show Dict.get? (s.insts.map fun e => (e.1, ({ meas := newMeas t } : Rec))) i = _
    obtain ⟨v, hv⟩ := (Dict.has_iff _ _).mp hi
    clear hi
    generalize s.insts = d at hv
    induction d with
    | nil => nomatch hv
    | cons e d ih =>
      rw [List.map_cons, Dict.get?_cons]
      rw [Dict.get?_cons] at hv
      split at hv
      · rename_i he
        rw [if_pos he]
      · rename_i he
        rw [if_neg he]
        exact ih hv

/-- **C89 (measuring ends).** An instance which is removed is not measured and not compared with any more, and the others go on; a request which is dropped is neither counted nor reported until it comes again. -/
theorem C89_ends {c : Cfg} {s s' : Mon} {o : List Key} :
    (∀ i, s.insts.has i = true → step c s (.remove i) = some (s', o) →
      s'.insts.has i = false ∧ (∀ k r, s'.reqs.get? k = some r → r.ordered.has i = false) ∧ ∀ j, j ≠ i → s'.insts.get? j = s.insts.get? j) ∧
    (∀ k, step c s (.dropped k) = some (s', o) → s'.reqs.has k = false ∧ ∀ j, j ≠ k → s'.reqs.get? j = s.reqs.get? j) := by
  refine ⟨fun i hi h => ?_, fun k h => ?_⟩
  · replace h : (removeInstance i s).map (fun s => (s, ([] : List Key))) = some (s', o) := h
    unfold removeInstance at h
    split at h
    · rename_i he
      rw [List.isEmpty_iff] at he
      rw [he] at hi
      nomatch hi
    · cases h
      refine ⟨?_, fun k r hr => ?_, fun j hj => ?_⟩
      · rw [drop_insts, Dict.has_false_iff]
        exact (Dict.get?_erase ..).trans (if_pos rfl)
      · rw [drops_get] at hr
        split at hr
        · nomatch hr
        · replace hr : (without i s.reqs).get? k = some r := hr
          rw [without_get] at hr
          obtain ⟨q, _, rfl⟩ := Option.map_eq_some_iff.mp hr
          rw [Dict.has_false_iff]
          exact (Dict.get?_erase ..).trans (if_pos rfl)
      · rw [drop_insts]
        exact (Dict.get?_erase ..).trans (if_neg (Ne.symm hj))
  · cases h
    exact ⟨(Dict.has_false_iff _ _).mpr ((Dict.get?_erase ..).trans (if_pos rfl)), fun j hj => (Dict.get?_erase ..).trans (if_neg (Ne.symm hj))⟩

/-- A reset and a removal in a history. -/
example : ∃ s o, step conf (monAfterStart) (.reset 30) = some (s, o) ∧ Since s [] 1 30 ∧ s.reqs = [] := by
  refine ⟨_, _, rfl, ?_, rfl⟩
  exact ((C89_starts (c := conf) (s := monAfterStart)).2 rfl).1 1 (by decide +kernel)

/-! ## A slow master -/

/-- **C89 (slow from the start).** The master orders at most `a` requests in each window, and more than half of all instances are backups which order at least `b`.
Then the master is found to be degraded whenever its throughput is known, if `a` is below `delta` times `b`, less a part which gets small. -/
theorem C89_slow_from_start {c : Cfg} (h : c.Ok) {past es : List Ev} {s s' : Mon} {G : List Inst} {t0 t a b : Nat} (hW : Watched c past es s s' G t0 t)
    (h3 : 3 ≤ c.minCnt) (hK : s'.insts.length ≤ 2 * G.length) (hn : c.minCnt ≤ over c t0 t)
    (ha : AtMostIn a t0 c.window (times c 0 s es) 0 (over c t0 t))
    (hb1 : 0 < b) (hb : ∀ g ∈ G, AtLeastIn b t0 c.window (times c g s es) 0 (over c t0 t))
    (hlt : (a : Rat) < c.delta * ((1 - c.keep ^ over c t0 t) * (b : Rat)))
    (hknown : ¬ Back c.minCnt (counts t0 c.window (times c 0 s es) (over c t0 t))) : masterDegraded c t s' = true := by
  obtain ⟨o, hS⟩ := hW.setting h
  cases hx : getThr c t s' 0 with
  | none =>
    rcases (C89_measured h hS.run hW.master hW.clock).mp hx with hlt' | hb'
    · exact absurd hlt' (not_lt_of_over h hn (by omega))
    · exact absurd hb' hknown
  | some x =>
    unfold masterDegraded
    rw [hW.there, slow_start h hS h3 hK hn ha hb1 hb hlt hx]
    rfl

/-- **C89 (slow after any history).** Whatever happened in the first `k` windows, with at most `M` requests of the master in each: when the master orders at most `a` in each
window after them, it is found to be degraded whenever its throughput is known, as soon as the bound is met. -/
theorem C89_slow_noticed {c : Cfg} (h : c.Ok) {past es : List Ev} {s s' : Mon} {G : List Inst} {t0 t k M a b : Nat} (hW : Watched c past es s s' G t0 t)
    (h3 : 3 ≤ c.minCnt) (hK : s'.insts.length ≤ 2 * G.length) (hk : k + c.minCnt ≤ over c t0 t)
    (haM : a ≤ M) (hM : AtMostIn M t0 c.window (times c 0 s es) 0 k) (ha : AtMostIn a t0 c.window (times c 0 s es) k (over c t0 t))
    (hb1 : 0 < b) (hb : ∀ g ∈ G, AtLeastIn b t0 c.window (times c g s es) k (over c t0 t))
    (hlt : c.keep ^ (over c t0 t - k - c.minCnt) * (M : Rat) + (a : Rat) < c.delta * ((1 - c.keep ^ (over c t0 t - k - c.minCnt)) * (b : Rat)))
    (hknown : ¬ Back c.minCnt (counts t0 c.window (times c 0 s es) (over c t0 t))) : masterDegraded c t s' = true := by
  obtain ⟨o, hS⟩ := hW.setting h
  cases hx : getThr c t s' 0 with
  | none =>
    rcases (C89_measured h hS.run hW.master hW.clock).mp hx with hlt' | hb'
    · exact absurd hlt' (not_lt_of_over h (by omega) (by omega))
    · exact absurd hb' hknown
  | some x =>
    unfold masterDegraded
    rw [hW.there, slow_tooLow h hS h3 hK hk haM hM ha hb1 hb hlt hx]
    rfl

/-- **C89 (late).** The last `suf.length` requests of the master each took at least `D`; more than half of the instances are backups for which each took at most `d`, and
more than nothing. Then the master is found to be degraded, if `D` is more than `d + omega`, less a part which gets small. -/
theorem C89_latency_noticed {c : Cfg} (h : c.Ok) {past es : List Ev} {s s' : Mon} {G : List Inst} {t0 t D d : Nat} (hW : Watched c past es s s' G t0 t)
    (hK : s'.insts.length ≤ 2 * G.length) {pre suf : List Nat}
    (hpre : durs (log c 0 s es) = pre ++ suf) (hmin : c.minLat ≤ (durs (log c 0 s es)).length) (hD : ∀ x ∈ suf, D ≤ x)
    (hd : ∀ g ∈ G, 0 < (durs (log c g s es)).length ∧ c.minLat ≤ (durs (log c g s es)).length ∧ ∀ x ∈ durs (log c g s es), 1 ≤ x ∧ x ≤ d)
    (hle : (d : Rat) + c.omega ≤ (1 - c.keepLat ^ suf.length) * (D : Rat)) (ho : 0 < c.omega) : masterDegraded c t s' = true := by
  obtain ⟨o, hS⟩ := hW.setting h
  unfold masterDegraded
  rw [hW.there, slow_latHigh h hS hW.latOk hK hpre hmin hD hd hle ho, Bool.or_true]
  rfl

/-! ## A good master -/

/-- **C89 (a good master is not accused), partial.** The master orders at least `b` requests in each window; at least half of the backups order something, but at most
`M`, in each. With `delta * M` at most `b`, less a part which gets small, and no request of the master taking `omega`, it is not found to be degraded. Missing: windows without requests,
for which it is not true, see `C89_counterexample_false_alarm`. -/
theorem C89_good_master_partial {c : Cfg} (h : c.Ok) {past es : List Ev} {s s' : Mon} {G : List Inst} {t0 t M b D : Nat} (hW : Watched c past es s s' G t0 t)
    (hK : s'.insts.length ≤ 2 * G.length + 1) (hk : c.minCnt ≤ over c t0 t)
    (hb1 : 0 < b) (hb : AtLeastIn b t0 c.window (times c 0 s es) 0 (over c t0 t))
    (hM : ∀ g ∈ G, AtLeastIn 1 t0 c.window (times c g s es) 0 (over c t0 t) ∧ AtMostIn M t0 c.window (times c g s es) 0 (over c t0 t))
    (hd : 0 ≤ c.delta) (hle : c.delta * (M : Rat) ≤ (1 - c.keep ^ over c t0 t) * (b : Rat))
    (hD : ∀ x ∈ durs (log c 0 s es), x ≤ D) (ho : (D : Rat) < c.omega) : masterDegraded c t s' = false := by
  obtain ⟨o, hS⟩ := hW.setting h
  unfold masterDegraded
  rw [fast_start h hS hK hk hb1 hb hM hd hle, fast_latHigh hS.run hW.latOk hW.master hD ho]
  simp

/-- **C89 (the same after any history), partial.** In the first `k` windows the backups may have ordered up to `M` in each, and the master anything. -/
theorem C89_good_again_partial {c : Cfg} (h : c.Ok) {past es : List Ev} {s s' : Mon} {G : List Inst} {t0 t k M a b D : Nat} (hW : Watched c past es s s' G t0 t)
    (hK : s'.insts.length ≤ 2 * G.length + 1) (hk : k + c.minCnt ≤ over c t0 t)
    (hb1 : 0 < b) (hb : AtLeastIn b t0 c.window (times c 0 s es) k (over c t0 t)) (haM : a ≤ M)
    (hM : ∀ g ∈ G, AtMostIn M t0 c.window (times c g s es) 0 k ∧ AtLeastIn 1 t0 c.window (times c g s es) k (over c t0 t) ∧
      AtMostIn a t0 c.window (times c g s es) k (over c t0 t))
    (hd : 0 ≤ c.delta)
    (hle : c.delta * (c.keep ^ (over c t0 t - k - c.minCnt) * (M : Rat) + (a : Rat)) ≤ (1 - c.keep ^ (over c t0 t - k - c.minCnt)) * (b : Rat))
    (hD : ∀ x ∈ durs (log c 0 s es), x ≤ D) (ho : (D : Rat) < c.omega) : masterDegraded c t s' = false := by
  obtain ⟨o, hS⟩ := hW.setting h
  unfold masterDegraded
  rw [fast_tooLow h hS hK hk hb1 hb haM hM hd hle, fast_latHigh hS.run hW.latOk hW.master hD ho]
  simp

/-! ## Backups -/

/-- **C89 (a slow backup is listed).** A backup with a throughput below `delta` times that of each other instance is listed, when the others have ordered more than one request
for each instance. -/
theorem C89_slow_backup {c : Cfg} {t : Nat} {s : Mon} {i : Inst} (hi : s.insts.has i = true) (hi0 : i ≠ 0) {x Y : Rat} (hx : getThr c t s i = some x)
    (hnum : s.insts.length < otherNum s i) {j : Inst} (hj : s.insts.has j = true) (hji : j ≠ i) {z : Rat} (hz : getThr c t s j = some z)
    (hY : 0 < Y) (hd : 0 ≤ c.delta) (hall : ∀ j y, s.insts.has j = true → j ≠ i → getThr c t s j = some y → Y ≤ y) (hlt : x < c.delta * Y) :
    i ∈ backupsDegraded c t s := backup_degraded hi hi0 hx hnum hj hji hz hY hd hall hlt

/-- **C89 (a good backup is not listed).** In all histories: a backup with a throughput of at least `delta` times that of each other instance is not listed, and the master never is. -/
theorem C89_good_backup {c : Cfg} (h : c.Ok) {es : List Ev} {s : Mon} {out : List Key} (hr : run c {} es = some (s, out)) {t : Nat} {i : Inst} {x Y : Rat}
    (hx : getThr c t s i = some x) (hd : 0 ≤ c.delta) (hall : ∀ j y, s.insts.has j = true → j ≠ i → getThr c t s j = some y → y ≤ Y)
    (hle : c.delta * Y ≤ x) : i ∉ backupsDegraded c t s := by
  by_cases hi0 : i = 0
  · subst hi0
    intro hm
    have := (List.mem_filter.mp (List.mem_filter.mp hm).1).2
    simp at this
  · exact backup_fine h (good_run h hr (good_empty c)) hi0 hx hd hall hle

/-! ## Reports of late requests -/

/-- **C89 (a late request is reported).** A request which came while the master was there and which the master has not ordered since is reported by the time of a
check more than `freq` after it came, unless it was dropped or measuring was started anew. -/
theorem C89_late_reported {c : Cfg} {past es : List Ev} {s s' : Mon} {o o' : List Key} {k : Key} {t1 t : Nat} (hp : run c {} past = some (s, o))
    (h0 : s.insts.has 0 = true) (hl : ∀ e ∈ es, e.leaves 0 k = true) (hr : run c s (.came t1 k :: (es ++ [.check t])) = some (s', o'))
    (ht : t > t1 + c.freq) : k ∈ o' := by
  obtain ⟨s1, o1, o2, h1, h2, rfl⟩ := run_cons hr
  cases h1
  have hn : (came t1 k s).reqs.keys.Nodup := reqs_nodup_step (c := c) (e := .came t1 k) rfl (reqs_nodup_run hp List.Pairwise.nil)
  have hw := came_waits (t := t1) (k := k) h0
  generalize came t1 k s = s2 at h2 hn hw
  generalize hf : false = said at hw
  suffices said = true ∨ k ∈ o2 from List.mem_append_right _ (this.resolve_left (by rw [← hf]; nofun))
  clear hf hr
  induction es generalizing s2 o2 said with
  | nil =>
    obtain ⟨s3, o3, o4, h3, h4, rfl⟩ := run_cons h2
    cases said with
    | true => exact Or.inl rfl
    | false => exact Or.inr (List.mem_append_left _ ((waits_reported hn hw h3).mpr (by omega)))
  | cons e es ih =>
    obtain ⟨s3, o3, o4, h3, h4, rfl⟩ := run_cons h2
    have h5 := step_waits hn h3 (hl e (List.mem_cons_self ..)) hw
    rcases ih (fun x hx => hl x (List.mem_cons_of_mem _ hx)) _ s3 h4 (reqs_nodup_step h3 hn) _ h5 with h6 | h6
    · rcases Bool.or_eq_true_iff.mp h6 with h6 | h6
      · exact Or.inl h6
      · exact Or.inr (List.mem_append_left _ (by simpa using h6))
    · exact Or.inr (List.mem_append_right _ h6)

/-- **C89 (a report is true).** What a check reports came more than `freq` ago, and the master has not ordered it since. -/
theorem C89_late_true {c : Cfg} {es : List Ev} {s s' : Mon} {o o' : List Key} {k : Key} {t : Nat} (hr : run c {} es = some (s, o))
    (hs : step c s (.check t) = some (s', o')) (hk : k ∈ o') :
    ∃ es1 t1 es2, es = es1 ++ .came t1 k :: es2 ∧ t - t1 > c.freq ∧ ∀ e ∈ es2, ∀ t ks known, e = .ordered t 0 ks known → k ∉ ks := by
  have h1 : Came ([] ++ es) s := came_run (es0 := []) (s := {}) List.Pairwise.nil hr (fun _ _ h => nomatch h)
  exact reported_came (reqs_nodup_run hr List.Pairwise.nil) h1 hs hk

/-- **C89 (a report is made once).** A request is reported at most as often as it came. -/
theorem C89_late_once {c : Cfg} {es : List Ev} {s : Mon} {out : List Key} (hr : run c {} es = some (s, out)) (k : Key) :
    out.count k ≤ (es.filter (Ev.isCame k)).length := by
  have := run_open (s := {}) List.Pairwise.nil hr k
  have e : open? {} k = 0 := rfl
  rw [e] at this
  unfold cameCount at this
  rw [List.countP_eq_length_filter] at this
  omega

/-- **C89 (no exception).** When the master is added first and never taken away, and only instances which are there order or are taken away, nothing raises. -/
theorem C89_no_exception (c : Cfg) (t : Nat) {es : List Ev} (h : Fits [0] es) : ∃ s out, run c {} (.add t 0 :: es) = some (s, out) := by
  have h1 : (addInstance t 0 {}).insts.has 0 = true := rfl
  obtain ⟨s, out, hr⟩ := tracks_run (c := c) (s := addInstance t 0 {}) List.Pairwise.nil h1
    (fun i hi => by rw [List.mem_singleton.mp hi]; exact h1) (fun _ _ h => nomatch h) h
  refine ⟨s, [] ++ out, ?_⟩
  unfold run
  show (match run c (addInstance t 0 {}) es with | none => none | some y => some (y.1, [] ++ y.2)) = _
  rw [hr]

/-! ## Cases -/

/-- `b` requests which come in window `j`; the backup 1 orders them all, the master `a` of them. -/
def monRound (w b a j : Nat) : List Ev :=
  let ks := (List.range b).map (100 * j + ·)
  ks.map (Ev.came (w * j)) ++ [.ordered (w * j + 1) 1 ks (fun _ => true), .ordered (w * j + 1) 0 (ks.take a) (fun _ => true)]

def monRounds (w b a n : Nat) : List Ev := (List.range n).flatMap (monRound w b a)

def monPast : List Ev := [.add 0 0, .add 0 1]

/-- The monitor after events, if none raises. -/
def monAfter (c : Cfg) (s : Mon) (es : List Ev) : Mon := ((run c s es).map Prod.fst).getD {}

def monTiny : Cfg := { window := 2, minCnt := 3, delta := 1 / 10, omega := 20, minLat := 3, freq := 5 }

theorem confOk : conf.Ok := ⟨by decide, by decide⟩
theorem monTinyOk : monTiny.Ok := ⟨by decide, by decide⟩

theorem monRun {c : Cfg} {s : Mon} {es : List Ev} (h : (run c s es).isSome = true) : ∃ out, run c s es = some (monAfter c s es, out) := by
  obtain ⟨x, hx⟩ := Option.isSome_iff_exists.mp h
  exact ⟨x.2, by unfold monAfter; rw [hx]; rfl⟩

theorem monAtMost {hi t0 w : Nat} {ts : List Nat} {k n : Nat} (h : ∀ j, j < n → k ≤ j → inWindow t0 w ts j ≤ hi) : AtMostIn hi t0 w ts k n :=
  fun j h1 h2 => h j h2 h1
theorem monAtLeast {lo t0 w : Nat} {ts : List Nat} {k n : Nat} (h : ∀ j, j < n → k ≤ j → lo ≤ inWindow t0 w ts j) : AtLeastIn lo t0 w ts k n :=
  fun j h1 h2 => h j h2 h1

theorem monWatched {c : Cfg} {es : List Ev} {t : Nat} (h1 : (run c {} monPast).isSome = true) (h2 : (run c (monAfter c {} monPast) es).isSome = true)
    (h3 : (es.flatMap Ev.time).Pairwise (· ≤ ·)) (h4 : ∀ x ∈ es.flatMap Ev.time, 0 ≤ x ∧ x ≤ t) (h5 : ∀ i, (i = 0 ∨ i = 1) → ∀ e ∈ es, e.quiet i = true)
    (h6 : ∀ i, (i = 0 ∨ i = 1) → (monAfter c {} monPast).insts.get? i = some { meas := newMeas 0 }) :
    Watched c monPast es (monAfter c {} monPast) (monAfter c (monAfter c {} monPast) es) [1] 0 t where
  past := monRun h1
  run := monRun h2
  clock := ⟨h3, h4⟩
  master := ⟨h6 0 (Or.inl rfl), h5 0 (Or.inl rfl)⟩
  backup := fun g hg => by rw [List.mem_singleton.mp hg]; exact ⟨h6 1 (Or.inr rfl), h5 1 (Or.inr rfl)⟩
  nodup := by decide
  others := by decide

/-- Rounds in which two requests come; the master orders none. -/
def monSlow : List Ev := monRounds 15 2 0 20

theorem monSlow_watched : Watched conf monPast monSlow (monAfter conf {} monPast) (monAfter conf (monAfter conf {} monPast) monSlow) [1] 0 300 :=
  monWatched (by decide +kernel) (by decide +kernel) (by decide +kernel) (by decide +kernel)
    (fun i hi => by rcases hi with rfl | rfl <;> decide +kernel) (fun i hi => by rcases hi with rfl | rfl <;> decide +kernel)

/-- `C89_slow_from_start` with the settings of the code: the master orders nothing. -/
example : masterDegraded conf 300 (monAfter conf (monAfter conf {} monPast) monSlow) = true := by
  refine C89_slow_from_start (a := 0) (b := 2) confOk monSlow_watched (by decide) (by decide +kernel) (by decide) (monAtMost (by decide +kernel)) (by decide)
    (fun g hg => by rw [List.mem_singleton.mp hg]; exact monAtLeast (by decide +kernel)) (by decide +kernel) ?_
  rw [← replay_none confOk 0]
  decide +kernel

/-- Rounds in which 12 requests come; the master orders one. -/
def monSlower : List Ev := monRounds 2 12 1 5

/-- `C89_slow_from_start` with a master which orders one of twelve. -/
example : masterDegraded monTiny 10 (monAfter monTiny (monAfter monTiny {} monPast) monSlower) = true := by
  have hW : Watched monTiny monPast monSlower (monAfter monTiny {} monPast) (monAfter monTiny (monAfter monTiny {} monPast) monSlower) [1] 0 10 :=
    monWatched (by decide +kernel) (by decide +kernel) (by decide +kernel) (by decide +kernel)
      (fun i hi => by rcases hi with rfl | rfl <;> decide +kernel) (fun i hi => by rcases hi with rfl | rfl <;> decide +kernel)
  refine C89_slow_from_start (a := 1) (b := 12) monTinyOk hW (by decide) (by decide +kernel) (by decide) (monAtMost (by decide +kernel)) (by decide)
    (fun g hg => by rw [List.mem_singleton.mp hg]; exact monAtLeast (by decide +kernel)) (by decide +kernel) ?_
  rw [← replay_none monTinyOk 0]
  decide +kernel

/-- `C89_measured` and `C89_bounds`: the backup orders two requests in each window of 15. -/
example : ∃ x, getThr conf 300 (monAfter conf (monAfter conf {} monPast) monSlow) 1 = some x ∧
    (1 - conf.keep ^ 20) * ((2 : Rat) / 15) ≤ x ∧ x ≤ (2 : Rat) / 15 := by
  obtain ⟨o, ho⟩ := monSlow_watched.run
  exact C89_bounds (lo := 2) (hi := 2) confOk ho (monSlow_watched.backup 1 (List.mem_singleton.mpr rfl)) monSlow_watched.clock (by decide) (by decide)
    (monAtLeast (by decide +kernel)) (monAtMost (by decide +kernel))

/-- ... and before 16 windows nothing is known. -/
example : getThr conf 239 (monAfter conf (monAfter conf {} monPast) (monRounds 15 2 1 15)) 1 = none ∧
    getThr conf 240 (monAfter conf (monAfter conf {} monPast) (monRounds 15 2 1 15)) 1 ≠ none ∧
    getThr conf 240 (monAfter conf (monAfter conf {} monPast) ((monRounds 15 2 1 16).drop 4)) 1 = none := by decide +kernel

/-- `C89_counted`: instance 0 orders a request after instance 1. -/
example : (⟨9, 6, true⟩ : Entry) ∈ evLog (monAfter conf (monAfter conf {} monPast) [.came 3 7, .ordered 5 1 [7] (fun _ => true)]) 0
    (.ordered 9 0 [8, 7] (fun _ => true)) := by
  obtain ⟨o, ho⟩ := monRun (c := conf) (s := {}) (es := monPast) (by decide +kernel)
  obtain ⟨o', ho'⟩ := monRun (c := conf) (s := monAfter conf {} monPast) (es := [.came 3 7, .ordered 5 1 [7] (fun _ => true)]) (by decide +kernel)
  exact C89_counted ho (by decide +kernel) ho' (fun e he => by rw [List.mem_singleton.mp he]; decide) (by decide)

/-- Two rounds in which the master orders four of five, then 14 in which it orders nothing. -/
def monTurn : List Ev := monRounds 2 5 4 2 ++ (List.range' 2 14).flatMap (monRound 2 5 0)

theorem monTurn_watched : Watched monTiny monPast monTurn (monAfter monTiny {} monPast) (monAfter monTiny (monAfter monTiny {} monPast) monTurn) [1] 0 32 :=
  monWatched (by decide +kernel) (by decide +kernel) (by decide +kernel) (by decide +kernel)
    (fun i hi => by rcases hi with rfl | rfl <;> decide +kernel) (fun i hi => by rcases hi with rfl | rfl <;> decide +kernel)

/-- `C89_slow_noticed`. -/
example : masterDegraded monTiny 32 (monAfter monTiny (monAfter monTiny {} monPast) monTurn) = true := by
  refine C89_slow_noticed (k := 2) (M := 4) (a := 0) (b := 5) monTinyOk monTurn_watched (by decide) (by decide +kernel) (by decide) (by decide)
    (monAtMost (by decide +kernel)) (monAtMost (by decide +kernel)) (by decide)
    (fun g hg => by rw [List.mem_singleton.mp hg]; exact monAtLeast (by decide +kernel)) (by decide +kernel) ?_
  rw [← replay_none monTinyOk 0]
  decide +kernel

/-- Requests which the backup orders at once and the master after 40. -/
def monLate : List Ev :=
  [.came 0 1, .came 0 2, .came 0 3, .ordered 1 1 [1, 2, 3] (fun _ => true), .ordered 40 0 [1, 2, 3] (fun _ => true)]

/-- `C89_latency_noticed`. -/
example : masterDegraded monTiny 40 (monAfter monTiny (monAfter monTiny {} monPast) monLate) = true := by
  have hW : Watched monTiny monPast monLate (monAfter monTiny {} monPast) (monAfter monTiny (monAfter monTiny {} monPast) monLate) [1] 0 40 :=
    monWatched (by decide +kernel) (by decide +kernel) (by decide +kernel) (by decide +kernel)
      (fun i hi => by rcases hi with rfl | rfl <;> decide +kernel) (fun i hi => by rcases hi with rfl | rfl <;> decide +kernel)
  exact C89_latency_noticed (D := 40) (d := 1) (pre := []) (suf := [40, 40, 40]) monTinyOk hW (by decide +kernel) (by decide +kernel) (by decide +kernel)
    (by decide +kernel) (fun g hg => by rw [List.mem_singleton.mp hg]; decide +kernel) (by decide +kernel) (by decide +kernel)

/-- Rounds in which all is ordered. -/
def monGood : List Ev := monRounds 15 2 2 20

/-- `C89_good_master_partial` with the settings of the code. -/
example : masterDegraded conf 300 (monAfter conf (monAfter conf {} monPast) monGood) = false := by
  have hW : Watched conf monPast monGood (monAfter conf {} monPast) (monAfter conf (monAfter conf {} monPast) monGood) [1] 0 300 :=
    monWatched (by decide +kernel) (by decide +kernel) (by decide +kernel) (by decide +kernel)
      (fun i hi => by rcases hi with rfl | rfl <;> decide +kernel) (fun i hi => by rcases hi with rfl | rfl <;> decide +kernel)
  exact C89_good_master_partial (M := 2) (b := 2) (D := 1) confOk hW (by decide +kernel) (by decide) (by decide) (monAtLeast (by decide +kernel))
    (fun g hg => by rw [List.mem_singleton.mp hg]; exact ⟨monAtLeast (by decide +kernel), monAtMost (by decide +kernel)⟩) (by decide +kernel)
    (by decide +kernel) (by decide +kernel) (by decide +kernel)

/-- A master which is slow for two rounds and then good. -/
def monBetter : List Ev := monRounds 2 12 0 2 ++ (List.range' 2 8).flatMap (monRound 2 6 6)

/-- `C89_good_again_partial`. -/
example : masterDegraded monTiny 20 (monAfter monTiny (monAfter monTiny {} monPast) monBetter) = false := by
  have hW : Watched monTiny monPast monBetter (monAfter monTiny {} monPast) (monAfter monTiny (monAfter monTiny {} monPast) monBetter) [1] 0 20 :=
    monWatched (by decide +kernel) (by decide +kernel) (by decide +kernel) (by decide +kernel)
      (fun i hi => by rcases hi with rfl | rfl <;> decide +kernel) (fun i hi => by rcases hi with rfl | rfl <;> decide +kernel)
  exact C89_good_again_partial (k := 2) (M := 12) (a := 6) (b := 6) (D := 1) monTinyOk hW (by decide +kernel) (by decide) (by decide)
    (monAtLeast (by decide +kernel)) (by decide)
    (fun g hg => by
      rw [List.mem_singleton.mp hg]
      exact ⟨monAtMost (by decide +kernel), monAtLeast (by decide +kernel), monAtMost (by decide +kernel)⟩) (by decide +kernel)
    (by decide +kernel) (by decide +kernel) (by decide +kernel)

/-- Rounds in which only the master orders. -/
def monIdleBackup : List Ev :=
  monPast ++ (List.range 5).flatMap fun j => [.came (2 * j) j, .ordered (2 * j + 1) 0 [j] (fun _ => true)]

/-- `C89_slow_backup` and `C89_good_backup`. -/
example : 1 ∈ backupsDegraded monTiny 10 (monAfter monTiny {} monIdleBackup) := by
  have hall : ∀ j, (monAfter monTiny {} monIdleBackup).insts.has j = true → j = 0 ∨ j = 1 := by
    intro j hj
    have h1 := (Dict.mem_keys _ _).mpr ((Dict.has_iff _ _).mp hj)
    have h2 : (monAfter monTiny {} monIdleBackup).insts.keys = [0, 1] := by decide +kernel
    rw [h2] at h1
    simpa using h1
  obtain ⟨z, hz⟩ : ∃ z, getThr monTiny 10 (monAfter monTiny {} monIdleBackup) 0 = some z :=
    Option.isSome_iff_exists.mp (by decide +kernel)
  refine C89_slow_backup (x := 0) (Y := 1 / 10) (j := 0) (by decide +kernel) (by decide) (by decide +kernel) (by decide +kernel) (by decide +kernel) (by decide) hz
    (by decide +kernel) (by decide +kernel) (fun j y hj hne hy => ?_) (by decide +kernel)
  rcases hall j hj with rfl | rfl
  · have : (getThr monTiny 10 (monAfter monTiny {} monIdleBackup) 0).all (fun y => decide (1 / 10 ≤ y)) = true := by decide +kernel
    rw [hy] at this
    simpa using this
  · exact absurd rfl hne

example : backupsDegraded conf 300 (monAfter conf {} (monPast ++ monGood)) = [] := by decide +kernel

/-- `C89_late_reported`, `C89_late_true` and `C89_late_once`: one report at the first check after the time, none at the next, none when the master has ordered. -/
example : run monTiny (monAfter monTiny {} monPast) [.came 1 7, .ordered 2 1 [7] (fun _ => true), .check 6, .check 7, .check 20] =
    some (monAfter monTiny (monAfter monTiny {} monPast) [.came 1 7, .ordered 2 1 [7] (fun _ => true), .check 7], [7]) ∧
    (run monTiny (monAfter monTiny {} monPast) [.came 1 7, .ordered 2 0 [7] (fun _ => true), .check 7]).map Prod.snd = some [] := by decide +kernel

example : 7 ∈ (((run monTiny (monAfter monTiny {} monPast) (.came 1 7 :: ([.ordered 2 1 [7] (fun _ => true)] ++ [.check 7]))).map Prod.snd).getD []) := by
  obtain ⟨o, ho⟩ := monRun (c := monTiny) (s := {}) (es := monPast) (by decide +kernel)
  obtain ⟨x, hx⟩ := Option.isSome_iff_exists.mp
    (show (run monTiny (monAfter monTiny {} monPast) (.came 1 7 :: ([.ordered 2 1 [7] (fun _ => true)] ++ [.check 7]))).isSome = true by decide +kernel)
  rw [hx]
  exact C89_late_reported (t1 := 1) (t := 7) (es := [.ordered 2 1 [7] (fun _ => true)]) (s' := x.1) ho (by decide +kernel)
    (fun e he => by rw [List.mem_singleton.mp he]; decide) hx (by decide)

/-- `C89_no_exception`: backups come and go. -/
example : Fits [0] [.add 0 1, .came 1 7, .ordered 2 1 [7] (fun _ => true), .remove 1, .reset 3, .check 4] := by
  simp [Fits]

/-- ... but a batch of an instance which is gone raises. -/
example : run conf {} (monPast ++ [.remove 1, .ordered 2 1 [] (fun _ => true)]) = none := by decide +kernel

/-! ## What goes wrong -/

/-- After a silence of 100 windows one request comes in each of 16 windows, and then a hundred at once; the master orders each of the 16
one window after the backup does, and the hundred together with it. -/
def monBurst : List Ev :=
  let burst := (List.range 100).map (200 + ·)
  (List.range 16).flatMap (fun j =>
    (if j = 0 then [] else [Ev.ordered (1500 + 15 * j) 0 [j - 1] (fun _ => true)]) ++
      [.came (1510 + 15 * j) j, .ordered (1511 + 15 * j) 1 [j] (fun _ => true)]) ++
  burst.map (.came 1740) ++ [.ordered 1741 0 (15 :: burst) (fun _ => true), .ordered 1742 1 burst (fun _ => true)]

/-- **C89 counterexample (false alarm).** With the settings of the code: both instances have ordered the same 116 requests, the master each within six seconds of its coming, and the hundred
before the backup. The master is found to be degraded. -/
theorem C89_counterexample_false_alarm :
    let s := monAfter conf {} (monPast ++ monBurst)
    masterDegraded conf 1755 s = true ∧ s.reqs = [] ∧ (s.insts.get? 0).map (fun r => r.num.1) = some 116 ∧
      (s.insts.get? 1).map (fun r => r.num.1) = some 116 ∧
      (∀ d ∈ durs (log conf 0 {} (monPast ++ monBurst)), d ≤ 6) := by decide +kernel

/-- A round for three instances: the master and backup 1 order one of the twelve requests which come, backup 2 all of them. -/
def monTwoSlow (j : Nat) : List Ev :=
  let ks := (List.range 12).map (100 * j + ·)
  ks.map (Ev.came (15 * j)) ++ [.ordered (15 * j + 1) 2 ks (fun _ => true), .ordered (15 * j + 1) 1 (ks.take 1) (fun _ => true),
    .ordered (15 * j + 1) 0 (ks.take 1) (fun _ => true)]

/-- **C89 counterexample (two slow primaries).** Seven nodes have three instances and stand two faulty nodes. When the primaries of the master and of one backup are slow, nothing is noticed,
though the third instance is twelve times as fast. `C89_good_master_partial` says the same of any numbers: the median takes the lower of two. -/
theorem C89_counterexample_two_slow :
    let s := monAfter conf {} ([.add 0 0, .add 0 1, .add 0 2] ++ (List.range 20).flatMap monTwoSlow)
    masterDegraded conf 300 s = false ∧ backupsDegraded conf 300 s = [] ∧
      (s.insts.get? 0).map (fun r => r.num.1) = some 20 ∧ (s.insts.get? 2).map (fun r => r.num.1) = some 240 := by decide +kernel

/-- A round in which one request comes; the backup repeats it in its batch. -/
def monRepeat (j : Nat) : List Ev :=
  [.came (15 * j) j, .ordered (15 * j + 1) 1 (List.replicate 12 j) (fun _ => true), .ordered (15 * j + 2) 0 [j] (fun _ => true)]

/-- **C89 counterexample (repetitions).** A batch of a backup in which requests are repeated counts each time. The master has ordered all requests there are, within two seconds, and is found to be degraded. -/
theorem C89_counterexample_repeats :
    let s := monAfter conf {} (monPast ++ (List.range 20).flatMap monRepeat)
    masterDegraded conf 300 s = true ∧ s.reqs = [] ∧ (s.insts.get? 0).map (fun r => r.num.1) = some 20 := by decide +kernel

/-- **C89 counterexample (one request).** A request which the backup has ordered and the master never orders is never held against the master, however long it waits. -/
theorem C89_counterexample_one_request (t : Nat) :
    masterDegraded conf (2 + t) (monAfter conf {} (monPast ++ [.came 1 7, .ordered 2 1 [7] (fun _ => true)])) = false := by
  obtain ⟨o, ho⟩ := monRun (c := conf) (s := {}) (es := monPast) (by decide +kernel)
  obtain ⟨o', ho'⟩ := monRun (c := conf) (s := monAfter conf {} monPast) (es := [.came 1 7, .ordered 2 1 [7] (fun _ => true)]) (by decide +kernel)
  have e : monAfter conf (monAfter conf {} monPast) [.came 1 7, .ordered 2 1 [7] (fun _ => true)] =
      monAfter conf {} (monPast ++ [.came 1 7, .ordered 2 1 [7] (fun _ => true)]) := by decide +kernel
  rw [e] at ho'
  have hsince : Since (monAfter conf {} monPast) [.came 1 7, .ordered 2 1 [7] (fun _ => true)] 0 0 := by
    constructor <;> decide +kernel
  have hclock : Clock 0 [.came 1 7, .ordered 2 1 [7] (fun _ => true)] (2 + t) := by
    refine ⟨by decide, fun x hx => ⟨Nat.zero_le _, ?_⟩⟩
    have : x = 1 ∨ x = 2 := by simpa [Ev.time] using hx
    omega
  have ht : times conf 0 (monAfter conf {} monPast) [.came 1 7, .ordered 2 1 [7] (fun _ => true)] = [] := by decide +kernel
  have hthr := thr_eq confOk ho' hsince hclock
  rw [ht] at hthr
  have hg := good_run confOk ho' (good_run confOk ho (good_empty conf))
  have hz : ∀ x, getThr conf (2 + t) (monAfter conf {} (monPast ++ [.came 1 7, .ordered 2 1 [7] (fun _ => true)])) 0 = some x → x = 0 := by
    intro x hx
    have h0 := getThr_nonneg confOk hg hx
    rw [hthr] at hx
    split at hx
    · nomatch hx
    · have := replay_le confOk (M := 0) (fun n hn => by
        obtain ⟨j, _, rfl⟩ := List.mem_map.mp hn
        exact Nat.le_refl _) x hx
      have e0 : rate conf 0 = 0 := by decide +kernel
      grind
  have hlat : latHigh conf (monAfter conf {} (monPast ++ [.came 1 7, .ordered 2 1 [7] (fun _ => true)])) = false := by decide +kernel
  have hnum : decide (((monAfter conf {} (monPast ++ [.came 1 7, .ordered 2 1 [7] (fun _ => true)])).insts.get? 0).map Rec.num = some (0, 0)) &&
      decide (otherNum (monAfter conf {} (monPast ++ [.came 1 7, .ordered 2 1 [7] (fun _ => true)])) 0 ≤
        (monAfter conf {} (monPast ++ [.came 1 7, .ordered 2 1 [7] (fun _ => true)])).insts.length) = true := by decide +kernel
  revert hz hlat hnum
  generalize monAfter conf {} (monPast ++ [.came 1 7, .ordered 2 1 [7] (fun _ => true)]) = s
  intro hz hlat hnum
  have hlow : tooLow conf (2 + t) s 0 = false := by
    have hT : (getThroughputs conf (2 + t) s 0).1 = none := by
      unfold getThroughputs
      dsimp only
      cases hx : getThr conf (2 + t) s 0 with
      | none => simp
      | some x =>
        simp only [Bool.and_eq_true, decide_eq_true_eq] at hnum
        rw [hz x hx, hnum.1]
        simp [hnum.2]
    unfold tooLow ratio
    generalize getThroughputs conf (2 + t) s 0 = p at hT
    obtain ⟨a, b⟩ := p
    subst hT
    rfl
  unfold masterDegraded
  rw [hlow, hlat]
  simp

end Verif.Props
