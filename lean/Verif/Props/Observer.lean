import Verif.Spec.Observer
import Verif.Proofs.Count
/-!
# C45: what an observer applies
-/
namespace Verif.Props
open Verif Verif.Obs Verif.Spec.Obs

/-! ## Counting -/

theorem foldl_max_le (l : List Nat) : ∀ (a q : Nat), q ≤ l.foldl max a ↔ q ≤ a ∨ ∃ x ∈ l, q ≤ x := by
  induction l with
  | nil => intro a q; simp
  | cons y r ih =>
    intro a q
    rw [List.foldl_cons, ih]
    simp only [List.mem_cons, exists_eq_or_imp]
    rw [show (q ≤ max a y ↔ q ≤ a ∨ q ≤ y) from by omega, or_assoc]

theorem maxCount_iff (l : List Batch) (q : Nat) : q + 1 ≤ maxCount l ↔ ∃ b ∈ l, q + 1 ≤ l.count b := by
  unfold maxCount
  rw [foldl_max_le]
  simp only [List.mem_map]
  constructor
  · rintro (h | ⟨x, ⟨b, hb, rfl⟩, h⟩)
    · omega
    · exact ⟨b, hb, h⟩
  · rintro ⟨b, hb, h⟩
    exact .inr ⟨_, ⟨b, hb, rfl⟩, h⟩

theorem maxCount_le (l : List Batch) : maxCount l ≤ l.length := by
  cases hm : maxCount l with
  | zero => omega
  | succ q =>
    obtain ⟨b, _, h⟩ := (maxCount_iff l q).1 (by omega)
    have := List.count_le_length (a := b) (l := l)
    omega

/-- The senders of `b` in a dict of reports. -/
def sendersOf (d : Dict Nat Batch) (b : Batch) : List Nat := (d.filter (fun e => e.2 = b)).map Prod.fst

theorem sendersOf_length (d : Dict Nat Batch) (b : Batch) : (sendersOf d b).length = (d.map Prod.snd).count b := by
  unfold sendersOf
  induction d with
  | nil => rfl
  | cons e r ih =>
    rw [List.filter_cons]
    simp only [List.map_cons, List.count_cons, List.length_map] at ih ⊢
    by_cases h : e.2 = b
    · simp [h, ih]
    · simp [h, ih]

theorem sendersOf_nodup {d : Dict Nat Batch} (h : d.keys.Nodup) (b : Batch) : (sendersOf d b).Nodup :=
  Dict.nodup_keys_filter h _

theorem mem_sendersOf {d : Dict Nat Batch} {b : Batch} {x : Nat} : x ∈ sendersOf d b ↔ (x, b) ∈ d := by
  unfold sendersOf
  simp only [List.mem_map, List.mem_filter, decide_eq_true_eq]
  constructor
  · rintro ⟨e, ⟨h1, h2⟩, rfl⟩; rw [← h2]; exact h1
  · intro h; exact ⟨(x, b), ⟨h, rfl⟩, rfl⟩

theorem obs_quorum (n k : Nat) : (Quorums.ofN n).observerData.isReached k = true ↔ getMaxFailures n + 1 ≤ k := by
  unfold Quorum.isReached; simp [Quorums.ofN]

theorem canApplyQuorumed_iff (s : State) (b : Batch) :
    canApplyQuorumed s b = true ↔
    ∃ d, s.batches.get? b.start = some d ∧ getMaxFailures s.n + 1 ≤ maxCount (d.map Prod.snd) := by
  unfold canApplyQuorumed
  cases h : s.batches.get? b.start with
  | none => simp
  | some d =>
    simp only [Bool.and_eq_true, obs_quorum, Option.some.injEq, exists_eq_left']
    have := maxCount_le (d.map Prod.snd)
    rw [List.length_map] at this
    omega

theorem canApply_iff (s : State) (b : Batch) :
    canApply s b = true ↔ nextSeqNo s = some b.start ∧
      ∃ d, s.batches.get? b.start = some d ∧ getMaxFailures s.n + 1 ≤ maxCount (d.map Prod.snd) := by
  unfold canApply
  rw [Bool.and_eq_true, canApplyQuorumed_iff]
  simp

/-! ## Every history -/

theorem push_length (k : Nat) (l : List Nat) : (push k l).length = l.length + 1 := by
  induction l with
  | nil => rfl
  | cons x r ih => unfold push; split <;> simp [ih]

theorem dict_set_length_some {α : Type} {d : Dict Nat α} {k : Nat} {v w : α} (h : d.get? k = some w) : (d.set k v).length = d.length := by
  induction d with
  | nil => cases h
  | cons e r ih =>
    obtain ⟨k', v'⟩ := e
    unfold Dict.set
    split
    · rfl
    · next hne =>
      rw [Dict.get?_cons, if_neg hne] at h
      simp [ih h]

theorem dict_set_length_none {α : Type} {d : Dict Nat α} {k : Nat} {v : α} (h : d.get? k = none) : (d.set k v).length = d.length + 1 := by
  induction d with
  | nil => rfl
  | cons e r ih =>
    obtain ⟨k', v'⟩ := e
    unfold Dict.set
    rw [Dict.get?_cons] at h
    split
    · next he => rw [if_pos he] at h; cases h
    · next hne =>
      rw [if_neg hne] at h
      simp [ih h]

theorem dict_erase_length {α : Type} {d : Dict Nat α} (hn : d.keys.Nodup) {k : Nat} {v : α} (h : d.get? k = some v) :
    (d.erase k).length + 1 = d.length := by
  induction d with
  | nil => cases h
  | cons e r ih =>
    have hn' : (Dict.keys r).Nodup := (List.nodup_cons.1 hn).2
    rw [Dict.get?_cons] at h
    unfold Dict.erase
    rw [List.filter_cons]
    split at h
    · next he =>
      have hnot : ∀ e' ∈ r, e'.1 ≠ k := by
        intro e' h1 h2
        apply (List.nodup_cons.1 hn).1
        rw [he, ← h2]; exact List.mem_map_of_mem h1
      have : r.filter (fun e => ¬ e.1 = k) = r := by
        rw [List.filter_eq_self]; intro e' h1; simpa using hnot e' h1
      simp [he]
      intro a b h1; exact hnot (a, b) h1
    · next he =>
      have := ih hn' h
      unfold Dict.erase at this
      simp only [he, not_false_eq_true, decide_true, if_true, List.length_cons]
      omega

/-- What holds after any history with the reports `R`. -/
structure ObsInv (R : List (Nat × Batch)) (s : State) : Prop where
  nodup : s.batches.keys.Nodup
  sizes : s.heap.length = s.batches.length
  inner : ∀ k d, s.batches.get? k = some d → d ≠ [] ∧ d.keys.Nodup ∧ ∀ x b, (x, b) ∈ d → (x, b) ∈ R ∧ b.start = k
  last : s.last = s.applied.getLast?.map (fun e => e.1.stop)
  log : ∀ e ∈ s.applied, (∃ x, (x, e.1) ∈ R) ∧ ∃ c, c.start = e.1.start ∧ Confirmed R e.2 c
  chain : ∀ pre a b post, s.applied.map Prod.fst = pre ++ a :: b :: post → a.stop = 0 ∨ b.start = a.stop + 1

theorem snoc_split {α : Type} {l : List α} {x : α} {pre : List α} {a b : α} {post : List α}
    (h : l ++ [x] = pre ++ a :: b :: post) :
    (∃ post', l = pre ++ a :: b :: post') ∨ (l.getLast? = some a ∧ b = x) := by
  rcases List.eq_nil_or_concat post with rfl | ⟨p, y, rfl⟩
  · right
    have : l ++ [x] = (pre ++ [a]) ++ [b] := by simp [h]
    have := List.append_inj' this rfl
    obtain ⟨h1, h2⟩ := this
    injection h2 with h2
    exact ⟨by rw [h1]; simp, h2.symm⟩
  · left
    have : l ++ [x] = (pre ++ a :: b :: p) ++ [y] := by simp [h]
    obtain ⟨h1, _⟩ := List.append_inj' this rfl
    exact ⟨p, h1⟩

theorem lastTruthy_some {s : State} {l : Nat} : s.lastTruthy = some l ↔ s.last = some l ∧ l ≠ 0 := by
  unfold State.lastTruthy
  split
  · next h => rw [h]; simp; omega
  · next h =>
    constructor
    · intro hl; exact ⟨hl, fun e => h (by rw [hl, e])⟩
    · exact fun hl => hl.1

theorem lastTruthy_none {s : State} : s.lastTruthy = none ↔ s.last = none ∨ s.last = some 0 := by
  unfold State.lastTruthy
  split
  · next h => simp [h]
  · next h =>
    constructor
    · exact .inl
    · rintro (hl | hl)
      · exact hl
      · exact absurd hl h

theorem doApply_eq {s : State} {k : Nat} {h : List Nat} (hh : s.heap = k :: h) (b : Batch) :
    doApplyData s b = { s with
      applied := s.applied ++ [(b, s.n)], batches := s.batches.erase b.start, heap := h, last := some b.stop } := by
  unfold doApplyData; rw [hh]

theorem heap_nonempty {R : List (Nat × Batch)} {s : State} (hi : ObsInv R s) {k : Nat} {d : Dict Nat Batch}
    (hg : s.batches.get? k = some d) : ∃ m h, s.heap = m :: h := by
  have := Dict.mem_of_get? hg
  have hl := List.length_pos_of_mem this
  rw [← hi.sizes] at hl
  cases hs : s.heap with
  | nil => rw [hs] at hl; simp at hl
  | cons m h => exact ⟨m, h, rfl⟩

theorem doApply_inv {R : List (Nat × Batch)} {s : State} (hi : ObsInv R s) {b : Batch} (hc : canApply s b = true)
    (hb : ∃ x, (x, b) ∈ R) : ObsInv R (doApplyData s b) := by
  obtain ⟨hn, d, hd, hq⟩ := (canApply_iff s b).1 hc
  obtain ⟨m, h, hh⟩ := heap_nonempty hi hd
  rw [doApply_eq hh]
  obtain ⟨c, hcm, hcc⟩ := (maxCount_iff _ _).1 hq
  obtain ⟨_, dn, dm⟩ := hi.inner _ _ hd
  have hconf : c.start = b.start ∧ Confirmed R s.n c := by
    obtain ⟨e, he, rfl⟩ := List.mem_map.1 hcm
    refine ⟨(dm e.1 e.2 he).2, sendersOf d e.2, sendersOf_nodup dn _, by rw [sendersOf_length]; exact hcc, ?_⟩
    intro x hx
    exact (dm x _ (mem_sendersOf.1 hx)).1
  refine ⟨Dict.nodup_keys_erase hi.nodup _, ?_, ?_, by simp, ?_, ?_⟩
  · have := dict_erase_length hi.nodup hd
    have := hi.sizes
    rw [hh] at this
    simp at this ⊢; omega
  · intro k d' hk
    simp only [Dict.get?_erase] at hk
    split at hk
    · cases hk
    · exact hi.inner k d' hk
  · intro e he
    simp only [List.mem_append, List.mem_singleton] at he
    rcases he with he | rfl
    · exact hi.log e he
    · exact ⟨hb, c, hconf⟩
  · intro pre a b' post he
    simp only [List.map_append, List.map_cons, List.map_nil] at he
    rcases snoc_split he with ⟨post', he⟩ | ⟨hl, rfl⟩
    · exact hi.chain pre a b' post' he
    · have hlast : s.last = some a.stop := by
        rw [hi.last]
        rw [List.getLast?_map] at hl
        cases hg : s.applied.getLast? with
        | none => rw [hg] at hl; cases hl
        | some e => rw [hg] at hl; injection hl with hl; rw [← hl]; rfl
      by_cases h0 : a.stop = 0
      · exact .inl h0
      · right
        unfold nextSeqNo at hn
        rw [lastTruthy_some.2 ⟨hlast, h0⟩] at hn
        injection hn with hn; exact hn.symm

theorem obs_mono {R R' : List (Nat × Batch)} (hR : ∀ e ∈ R, e ∈ R') {s : State} (hi : ObsInv R s) : ObsInv R' s :=
  ⟨hi.nodup, hi.sizes, fun k d h => ⟨(hi.inner k d h).1, (hi.inner k d h).2.1, fun x b hm => ⟨hR _ ((hi.inner k d h).2.2 x b hm).1, ((hi.inner k d h).2.2 x b hm).2⟩⟩,
   hi.last, fun e he => ⟨(hi.log e he).1.imp (fun x hx => hR _ hx), by
    obtain ⟨c, h1, S, h2, h3, h4⟩ := (hi.log e he).2
    exact ⟨c, h1, S, h2, h3, fun x hx => hR _ (h4 x hx)⟩⟩, hi.chain⟩

theorem addBatch_inv {R : List (Nat × Batch)} {s : State} (hi : ObsInv R s) {b : Batch} {x : Nat} (hm : (x, b) ∈ R) :
    ObsInv R (addBatch s b x) := by
  unfold addBatch
  split
  · next hg =>
    refine ⟨Dict.nodup_keys_set hi.nodup _ _, ?_, ?_, hi.last, hi.log, hi.chain⟩
    · simp only [push_length, dict_set_length_none hg]; rw [hi.sizes]
    · intro k d hk
      simp only [Dict.get?_set] at hk
      split at hk
      · next he =>
        injection hk with hk; subst hk
        refine ⟨by simp, by simp [Dict.keys], ?_⟩
        intro y c hc
        rw [List.mem_singleton] at hc
        injection hc with h1 h2; subst h1; subst h2
        exact ⟨hm, he⟩
      · exact hi.inner k d hk
  · next d0 hg =>
    refine ⟨Dict.nodup_keys_set hi.nodup _ _, ?_, ?_, hi.last, hi.log, hi.chain⟩
    · simp only [dict_set_length_some hg]; rw [hi.sizes]
    · intro k d hk
      simp only [Dict.get?_set] at hk
      split at hk
      · next he =>
        injection hk with hk; subst hk
        obtain ⟨h1, h2, h3⟩ := hi.inner _ _ hg
        refine ⟨?_, Dict.nodup_keys_set h2 _ _, ?_⟩
        · intro hz
          have := Dict.mem_set_self d0 x b
          rw [hz] at this; cases this
        · intro y c hc
          rcases Dict.mem_set hc with hc | hc
          · exact ⟨(h3 y c hc).1, (h3 y c hc).2.trans he⟩
          · injection hc with h1 h2; subst h1; subst h2
            exact ⟨hm, he⟩
      · exact hi.inner k d hk

theorem nextStashed_some {s : State} {b : Batch} (h : nextStashed s = some b) :
    ∃ k t d x r, s.heap = k :: t ∧ s.batches.get? k = some d ∧ d = (x, b) :: r := by
  unfold nextStashed at h
  split at h
  · cases h
  · next k t hk =>
    split at h
    · next x b' r hg => injection h with h; subst h; exact ⟨k, t, _, x, r, hk, hg, rfl⟩
    · cases h

theorem processStashed_inv {R : List (Nat × Batch)} (fuel : Nat) : ∀ {s : State}, ObsInv R s → ObsInv R (processStashed fuel s) := by
  induction fuel with
  | zero => intro s h; exact h
  | succ n ih =>
    intro s h
    unfold processStashed
    split
    · exact h
    · next b hb =>
      split
      · next hc =>
        obtain ⟨k, t, d, x, r, h1, h2, h3⟩ := nextStashed_some hb
        exact ih (doApply_inv h hc ⟨x, ((h.inner _ _ h2).2.2 x b (by simp [h3])).1⟩)
      · exact h

theorem applyData_inv {R : List (Nat × Batch)} {s : State} (hi : ObsInv R s) (b : Batch) (x : Nat) :
    ObsInv (R ++ [(x, b)]) (applyData s b x) := by
  have hi' := obs_mono (R' := R ++ [(x, b)]) (fun e he => List.mem_append_left _ he) hi
  unfold applyData
  split
  · exact hi'
  · have ha := addBatch_inv hi' (b := b) (x := x) (by simp)
    simp only
    split
    · exact ha
    · next hc =>
      have hc : canApply (addBatch s b x) b = true := by simpa using hc
      exact processStashed_inv _ (doApply_inv ha hc ⟨x, by simp⟩)

theorem reports_append (h h' : List Event) : reports (h ++ h') = reports h ++ reports h' := by
  induction h with
  | nil => rfl
  | cons e r ih => cases e <;> simp [reports, ih]

theorem obs_inv (n : Nat) (h : List Event) : ObsInv (reports h) (Obs.run n h) := by
  induction h using snoc_induction with
  | nil => exact ⟨by simp [Obs.run, init, Dict.keys], rfl, fun k d hd => (by cases hd), rfl, fun e he => (by cases he), fun pre a b post he => (by
      have := congrArg List.length he; simp [Obs.run, init] at this)⟩
  | snoc l e ih =>
    have hr : Obs.run n (l ++ [e]) = Obs.step (Obs.run n l) e := by unfold Obs.run; rw [List.foldl_append]; rfl
    rw [hr, reports_append]
    cases e with
    | report x b => exact applyData_inv ih b x
    | pool m =>
      have : reports l ++ reports [.pool m] = reports l := by simp [reports]
      rw [this]
      exact ⟨ih.nodup, ih.sizes, ih.inner, ih.last, ih.log, ih.chain⟩

/-- C45, the part that holds for every history: for each applied batch, some batch with
the same first sequence number was reported by f+1 different senders, and the applied
batch itself was reported by someone. It need not be the confirmed one. -/
theorem observer_confirmed_partial (n : Nat) (h : List Event) (b : Batch) (m : Nat) (hb : (b, m) ∈ (Obs.run n h).applied) :
    (∃ x, (x, b) ∈ reports h) ∧ ∃ c, c.start = b.start ∧ Confirmed (reports h) m c :=
  (obs_inv n h).log _ hb

/-- C45, if no two different batches with the same first sequence number are reported:
each applied batch was reported by f+1 different senders. -/
theorem observer_confirmed_agreeing_partial (n : Nat) (h : List Event) (b : Batch) (m : Nat)
    (hb : (b, m) ∈ (Obs.run n h).applied)
    (hagree : ∀ e ∈ reports h, ∀ e' ∈ reports h, e.2.start = e'.2.start → e.2 = e'.2) :
    Confirmed (reports h) m b := by
  obtain ⟨⟨x, hx⟩, c, hc, S, h1, h2, h3⟩ := (obs_inv n h).log _ hb
  have : b = c := by
    cases S with
    | nil => simp at h2
    | cons y t => exact hagree _ hx _ (h3 y (by simp)) hc.symm
  exact this ▸ ⟨S, h1, h2, h3⟩

/-- C45: the applied batches are in sequence without gaps, whatever is reported, as
long as no batch claims to end at 0. -/
theorem observer_in_sequence (n : Nat) (h : List Event) (h0 : ∀ e ∈ reports h, e.2.stop ≠ 0) :
    InSequence ((Obs.run n h).applied.map Prod.fst) := by
  intro pre a b post he
  rcases (obs_inv n h).chain pre a b post he with hz | hz
  · exfalso
    have : a ∈ (Obs.run n h).applied.map Prod.fst := by rw [he]; simp
    obtain ⟨e, hem, rfl⟩ := List.mem_map.1 this
    obtain ⟨⟨x, hx⟩, _⟩ := (obs_inv n h).log e hem
    exact h0 _ hx hz
  · exact hz

/-- The claim fails: of four nodes one reports a false batch 2, two report the right
one, then the same two report batch 1. The observer applies batch 1 and then the false
batch 2, which only one node reported. -/
theorem observer_applies_unconfirmed :
    let h : List Event := [.report 4 ⟨2, 2, 666⟩, .report 1 ⟨2, 2, 20⟩, .report 1 ⟨1, 1, 10⟩, .report 2 ⟨2, 2, 20⟩, .report 2 ⟨1, 1, 10⟩]
    (Obs.run 4 h).applied = [(⟨1, 1, 10⟩, 4), (⟨2, 2, 666⟩, 4)] ∧ ¬ Confirmed (reports h) 4 ⟨2, 2, 666⟩ := by
  refine ⟨by decide +kernel, ?_⟩
  rintro ⟨S, h1, h2, h3⟩
  have hs : ∀ x ∈ S, x ∈ [4] := by
    intro x hx
    have := h3 x hx
    simp [reports] at this
    simp [this]
  have := length_le_of_subset h1 hs
  have h4 : getMaxFailures 4 = 1 := by decide +kernel
  rw [h4] at h2
  simp at this
  omega

/-! ## Honest reports -/

theorem mem_push {k j : Nat} {l : List Nat} : j ∈ push k l ↔ j = k ∨ j ∈ l := by
  induction l with
  | nil => simp [push]
  | cons x r ih =>
    unfold push
    split
    · simp
    · simp only [List.mem_cons, ih]; constructor
      · rintro (h | h | h)
        · exact .inr (.inl h)
        · exact .inl h
        · exact .inr (.inr h)
      · rintro (h | h | h)
        · exact .inr (.inl h)
        · exact .inl h
        · exact .inr (.inr h)

theorem push_sorted {k : Nat} {l : List Nat} (hs : l.Pairwise (· < ·)) (hk : k ∉ l) : (push k l).Pairwise (· < ·) := by
  induction l with
  | nil => simp [push]
  | cons x r ih =>
    unfold push
    obtain ⟨h1, h2⟩ := List.pairwise_cons.1 hs
    have hkx : k ≠ x := fun e => hk (by simp [e])
    have hkr : k ∉ r := fun e => hk (by simp [e])
    split
    · next hle =>
      refine List.pairwise_cons.2 ⟨?_, hs⟩
      intro y hy
      rcases List.mem_cons.1 hy with rfl | hy
      · omega
      · have := h1 y hy; omega
    · next hle =>
      refine List.pairwise_cons.2 ⟨?_, ih h2 hkr⟩
      intro y hy
      rcases mem_push.1 hy with rfl | hy
      · omega
      · exact h1 y hy

/-- What holds in addition with honest reports. -/
structure HonInv (R : List (Nat × Batch)) (s : State) : Prop where
  base : ObsInv R s
  sorted : s.heap.Pairwise (· < ·)
  keys : ∀ k, k ∈ s.heap ↔ ∃ d, s.batches.get? k = some d
  above : ∀ l k d, s.lastTruthy = some l → s.batches.get? k = some d → l < k
  recorded : ∀ x b, (x, b) ∈ R → (∀ l, s.lastTruthy = some l → l < b.start) →
    ∃ d, s.batches.get? b.start = some d ∧ d.get? x = some b

/-- The next batch is not confirmed yet. -/
def Waiting (s : State) : Prop :=
  ∀ l d, s.lastTruthy = some l → s.batches.get? (l + 1) = some d → maxCount (d.map Prod.snd) < getMaxFailures s.n + 1

theorem doApply_hon {R : List (Nat × Batch)} (hR : Honest R) {s : State} (hi : HonInv R s) {b : Batch} (hc : canApply s b = true)
    (hb : ∃ x, (x, b) ∈ R) : HonInv R (doApplyData s b) := by
  have hbase := doApply_inv hi.base hc hb
  obtain ⟨hn, d, hd, hq⟩ := (canApply_iff s b).1 hc
  obtain ⟨m, h, hh⟩ := heap_nonempty hi.base hd
  obtain ⟨x0, hx0⟩ := hb
  obtain ⟨hb1, hb2⟩ := hR.1 _ hx0
  simp only at hb1 hb2
  have hs := hi.sorted
  rw [hh] at hs
  obtain ⟨s1, s2⟩ := List.pairwise_cons.1 hs
  have hm : m = b.start := by
    unfold nextSeqNo at hn
    cases hl : s.lastTruthy with
    | none => rw [hl, hh] at hn; simpa using hn
    | some l =>
      rw [hl] at hn
      injection hn with hn
      obtain ⟨dm, hdm⟩ := (hi.keys m).1 (by simp [hh])
      have := hi.above l m dm hl hdm
      have hbm : b.start ∈ s.heap := (hi.keys _).2 ⟨d, hd⟩
      rw [hh] at hbm
      rcases List.mem_cons.1 hbm with e | e
      · exact e.symm
      · have := s1 _ e; omega
  subst hm
  have hlt : (doApplyData s b).lastTruthy = some b.stop := by
    rw [doApply_eq hh]; exact lastTruthy_some.2 ⟨rfl, by omega⟩
  have hoth : ∀ k d', s.batches.get? k = some d' → k ≠ b.start → b.stop < k := by
    intro k d' hk hne
    obtain ⟨h1, _, h3⟩ := hi.base.inner _ _ hk
    have hkh : k ∈ s.heap := (hi.keys k).2 ⟨d', hk⟩
    rw [hh] at hkh
    have hlt : b.start < k := by
      rcases List.mem_cons.1 hkh with e | e
      · exact absurd e hne
      · exact s1 _ e
    cases d' with
    | nil => exact absurd rfl h1
    | cons e r =>
      obtain ⟨y, c⟩ := e
      obtain ⟨h4, h5⟩ := h3 y c (by simp)
      have := (hR.1 _ h4).2
      simp only at this
      rcases hR.2 _ hx0 _ h4 with e | e | e
      · simp only at e; rw [e] at hne; exact absurd h5.symm hne
      · simp only at e; omega
      · simp only at e; omega
  refine ⟨hbase, ?_, ?_, ?_, ?_⟩
  · rw [doApply_eq hh]; exact s2
  · intro k
    rw [doApply_eq hh]
    simp only [Dict.get?_erase]
    constructor
    · intro hk
      have hkb : b.start ≠ k := by have := s1 _ hk; omega
      rw [if_neg hkb]
      exact (hi.keys k).1 (by rw [hh]; exact List.mem_cons_of_mem _ hk)
    · rintro ⟨d', hk⟩
      split at hk
      · cases hk
      · next hne =>
        have := (hi.keys k).2 ⟨d', hk⟩
        rw [hh] at this
        rcases List.mem_cons.1 this with e | e
        · exact absurd e.symm hne
        · exact e
  · intro l k d' hl hk
    rw [hlt] at hl
    injection hl with hl; subst hl
    rw [doApply_eq hh] at hk
    simp only [Dict.get?_erase] at hk
    split at hk
    · cases hk
    · next hne => exact hoth k d' hk (fun e => hne e.symm)
  · intro y c hc' hl
    have hlt' := hl b.stop hlt
    have hne : b.start ≠ c.start := by omega
    rw [doApply_eq hh]
    simp only [Dict.get?_erase, if_neg hne]
    apply hi.recorded y c hc'
    intro l hl'
    have := hi.above l b.start d hl' hd
    omega

theorem processStashed_hon {R : List (Nat × Batch)} (hR : Honest R) (fuel : Nat) : ∀ {s : State}, HonInv R s → s.heap.length ≤ fuel →
    HonInv R (processStashed fuel s) ∧ Waiting (processStashed fuel s) := by
  have stuck : ∀ {s : State}, HonInv R s → (∀ b, nextStashed s = some b → canApply s b = false) → Waiting s := by
    intro s h hcan l d hl hd
    apply Classical.byContradiction
    intro hq
    obtain ⟨m, t, hh⟩ := heap_nonempty h.base hd
    have hmem : l + 1 ∈ s.heap := (h.keys _).2 ⟨d, hd⟩
    have hs := h.sorted
    rw [hh] at hs hmem
    obtain ⟨s1, _⟩ := List.pairwise_cons.1 hs
    obtain ⟨dm, hdm⟩ := (h.keys m).1 (by simp [hh])
    have hab := h.above l m dm hl hdm
    have hm : m = l + 1 := by
      rcases List.mem_cons.1 hmem with e | e
      · exact e.symm
      · have := s1 _ e; omega
    subst hm
    rw [hdm] at hd
    injection hd with hd; subst hd
    obtain ⟨h1, _, h3⟩ := h.base.inner _ _ hdm
    cases dm with
    | nil => exact absurd rfl h1
    | cons e r =>
      obtain ⟨x, b⟩ := e
      have hns : nextStashed s = some b := by unfold nextStashed; rw [hh]; simp only; rw [hdm]
      have hc := hcan b hns
      have hbs := (h3 x b (by simp)).2
      have : canApply s b = true := by
        rw [canApply_iff]
        refine ⟨?_, _, by rw [hbs]; exact hdm, by omega⟩
        unfold nextSeqNo; rw [hl, hbs]
      rw [this] at hc; cases hc
  induction fuel with
  | zero =>
    intro s h hf
    refine ⟨h, stuck h ?_⟩
    intro b hb
    change nextStashed s = some b at hb
    obtain ⟨k, t, _, _, _, hk, _⟩ := nextStashed_some hb
    rw [hk] at hf; simp at hf
  | succ n ih =>
    intro s h hf
    unfold processStashed
    split
    · next hn => exact ⟨h, stuck h (fun b hb => by rw [hn] at hb; cases hb)⟩
    · next b hb =>
      split
      · next hc =>
        obtain ⟨k, t, d, x, r, h1, h2, h3⟩ := nextStashed_some hb
        apply ih (doApply_hon hR h hc ⟨x, ((h.base.inner _ _ h2).2.2 x b (by simp [h3])).1⟩)
        rw [doApply_eq h1]
        rw [h1] at hf; simpa using hf
      · next hc =>
        refine ⟨h, stuck h ?_⟩
        intro b' hb'
        rw [hb] at hb'; injection hb' with hb'; subst hb'
        simpa using hc

theorem addBatch_frame (s : State) (b : Batch) (x : Nat) :
    (addBatch s b x).last = s.last ∧ (addBatch s b x).n = s.n ∧
    (∀ k, k ≠ b.start → (addBatch s b x).batches.get? k = s.batches.get? k) ∧
    (∃ d, (addBatch s b x).batches.get? b.start = some d ∧ d.get? x = some b ∧
      ∀ y, y ≠ x → d.get? y = (s.batches.get? b.start).bind (fun d => d.get? y)) := by
  unfold addBatch
  split
  · next hg =>
    refine ⟨rfl, rfl, fun k hk => by simp only [Dict.get?_set, if_neg (Ne.symm hk)], [(x, b)], by simp [Dict.get?_set], by simp [Dict.get?_cons], ?_⟩
    intro y hy
    simp [hg, Dict.get?_cons, Ne.symm hy]
  · next d hg =>
    refine ⟨rfl, rfl, fun k hk => by simp only [Dict.get?_set, if_neg (Ne.symm hk)], d.set x b, by simp [Dict.get?_set], by simp [Dict.get?_set], ?_⟩
    intro y hy
    simp [hg, Dict.get?_set, Ne.symm hy]

theorem addBatch_heap (s : State) (b : Batch) (x : Nat) :
    (addBatch s b x).heap = match s.batches.get? b.start with | none => push b.start s.heap | some _ => s.heap := by
  unfold addBatch; split <;> simp_all

theorem addBatch_hon {R : List (Nat × Batch)} {x : Nat} {b : Batch} (hR : Honest (R ++ [(x, b)])) {s : State} (hi : HonInv R s)
    (hp : ∀ l, s.lastTruthy = some l → l < b.start) : HonInv (R ++ [(x, b)]) (addBatch s b x) := by
  obtain ⟨f1, f2, f3, d, f4, f5, f6⟩ := addBatch_frame s b x
  have hlt : (addBatch s b x).lastTruthy = s.lastTruthy := by unfold State.lastTruthy; rw [f1]
  refine ⟨addBatch_inv (obs_mono (fun e he => List.mem_append_left _ he) hi.base) (by simp), ?_, ?_, ?_, ?_⟩
  · rw [addBatch_heap]
    cases hg : s.batches.get? b.start with
    | none =>
      apply push_sorted hi.sorted
      intro hm
      obtain ⟨d, hd⟩ := (hi.keys _).1 hm
      rw [hg] at hd; cases hd
    | some _ => exact hi.sorted
  · intro k
    rw [addBatch_heap]
    by_cases hk : k = b.start
    · subst hk
      constructor
      · intro _; exact ⟨d, f4⟩
      · intro _
        cases hg : s.batches.get? b.start with
        | none => exact mem_push.2 (.inl rfl)
        | some d => exact (hi.keys _).2 ⟨d, hg⟩
    · rw [f3 k hk, ← hi.keys]
      cases hg : s.batches.get? b.start with
      | none => simp only [mem_push]; exact ⟨fun h => h.resolve_left hk, .inr⟩
      | some d => exact Iff.rfl
  · intro l k d' hl hk
    rw [hlt] at hl
    by_cases he : k = b.start
    · rw [he]; exact hp l hl
    · rw [f3 k he] at hk; exact hi.above l k d' hl hk
  · intro y c hm hl
    rw [hlt] at hl
    have hsame : c.start = b.start → c = b := by
      intro he
      have h1 := (hR.1 (x, b) (by simp)).2
      have h2 := (hR.1 _ hm).2
      simp only at h1 h2
      rcases hR.2 _ hm (x, b) (by simp) with e | e | e
      · exact e
      · simp only at e; omega
      · simp only at e; omega
    rcases List.mem_append.1 hm with hm' | hm'
    · obtain ⟨d', h1, h2⟩ := hi.recorded y c hm' hl
      by_cases he : c.start = b.start
      · rw [he]
        refine ⟨d, f4, ?_⟩
        by_cases hy : y = x
        · rw [hy, f5, hsame he]
        · rw [f6 y hy, ← he, h1]; exact h2
      · rw [f3 _ he]; exact ⟨d', h1, h2⟩
    · rw [List.mem_singleton] at hm'
      injection hm' with h1 h2; subst h1; subst h2
      exact ⟨d, f4, f5⟩

theorem applyData_hon {R : List (Nat × Batch)} {x : Nat} {b : Batch} (hR : Honest (R ++ [(x, b)])) {s : State} (hi : HonInv R s)
    (hw : Waiting s) : HonInv (R ++ [(x, b)]) (applyData s b x) ∧ Waiting (applyData s b x) := by
  unfold applyData
  split
  · next hc =>
    have : canProcess s b = false := by simpa using hc
    unfold canProcess at this
    split at this
    · cases this
    · next l hl =>
      have hge : l ≥ b.start := by simpa using this
      refine ⟨⟨obs_mono (fun e he => List.mem_append_left _ he) hi.base, hi.sorted, hi.keys, hi.above, ?_⟩, hw⟩
      intro y c hm hlc
      rcases List.mem_append.1 hm with hm' | hm'
      · exact hi.recorded y c hm' hlc
      · rw [List.mem_singleton] at hm'
        injection hm' with h1 h2; subst h1; subst h2
        have := hlc l hl; omega
  · next hc =>
    have hp : ∀ l, s.lastTruthy = some l → l < b.start := by
      intro l hl
      have : canProcess s b = true := by simpa using hc
      unfold canProcess at this
      rw [hl] at this
      simpa using this
    have ha := addBatch_hon hR hi hp
    obtain ⟨f1, f2, f3, d, f4, f5, f6⟩ := addBatch_frame s b x
    have hlt : (addBatch s b x).lastTruthy = s.lastTruthy := by unfold State.lastTruthy; rw [f1]
    simp only
    split
    · next hno =>
      refine ⟨ha, ?_⟩
      intro l d' hl hd'
      by_cases he : l + 1 = b.start
      · apply Classical.byContradiction
        intro hq
        have : canApply (addBatch s b x) b = true := by
          rw [canApply_iff]
          refine ⟨?_, d', by rw [← he]; exact hd', by omega⟩
          unfold nextSeqNo; rw [hl]; simp [he]
        rw [this] at hno; simp at hno
      · rw [f3 _ he] at hd'
        rw [f2]
        exact hw l d' (hlt ▸ hl) hd'
    · next hno =>
      have hcan : canApply (addBatch s b x) b = true := by simpa using hno
      exact processStashed_hon hR _ (doApply_hon hR ha hcan ⟨x, by simp⟩) (Nat.le_refl _)

theorem hon_run (n : Nat) (h : List Event) (hall : ∀ e ∈ h, ∃ x b, e = .report x b) (hR : Honest (reports h)) :
    HonInv (reports h) (Obs.run n h) ∧ Waiting (Obs.run n h) := by
  induction h using snoc_induction with
  | nil =>
    refine ⟨⟨obs_inv n [], List.Pairwise.nil, ?_, ?_, ?_⟩, ?_⟩
    · intro k; simp [Obs.run, init]
    · intro l k d hl; cases hl
    · intro x b hm; cases hm
    · intro l d hl; cases hl
  | snoc l e ih =>
    obtain ⟨x, b, rfl⟩ := hall e (by simp)
    have hr : Obs.run n (l ++ [.report x b]) = applyData (Obs.run n l) b x := by unfold Obs.run; rw [List.foldl_append]; rfl
    rw [reports_append] at hR
    have hR' : Honest (reports l) := ⟨fun e he => hR.1 e (List.mem_append_left _ he),
      fun e he e' he' => hR.2 e (List.mem_append_left _ he) e' (List.mem_append_left _ he')⟩
    obtain ⟨i1, i2⟩ := ih (fun e he => hall e (List.mem_append_left _ he)) hR'
    rw [hr, reports_append]
    exact applyData_hon hR i1 i2

theorem run_n (n : Nat) (h : List Event) (hall : ∀ e ∈ h, ∃ x b, e = .report x b) : (Obs.run n h).n = n := by
  induction h using snoc_induction with
  | nil => rfl
  | snoc l e ih =>
    obtain ⟨x, b, rfl⟩ := hall e (by simp)
    have hr : Obs.run n (l ++ [.report x b]) = applyData (Obs.run n l) b x := by unfold Obs.run; rw [List.foldl_append]; rfl
    rw [hr]
    have ih := ih (fun e he => hall e (List.mem_append_left _ he))
    have da : ∀ (s : State) (b : Batch), (doApplyData s b).n = s.n := by
      intro s b; unfold doApplyData; split <;> rfl
    have ps : ∀ (f : Nat) (s : State), (processStashed f s).n = s.n := by
      intro f
      induction f with
      | zero => intro s; rfl
      | succ f ih =>
        intro s
        unfold processStashed
        split
        · rfl
        · split
          · rw [ih, da]
          · rfl
    have f2 := (addBatch_frame (Obs.run n l) b x).2.1
    unfold applyData
    split
    · exact ih
    · simp only
      split
      · rw [f2, ih]
      · rw [ps, da, f2, ih]

/-- With honest reports in any order, from any nodes, the observer does not lag: once
it applied something, the batch that follows in sequence is applied as soon as f+1
nodes reported it. -/
theorem observer_prompt (n : Nat) (h : List Event) (hall : ∀ e ∈ h, ∃ x b, e = .report x b) (hR : Honest (reports h))
    (b a : Batch) (m : Nat) (ha : (Obs.run n h).applied.getLast? = some (a, m)) (hnext : b.start = a.stop + 1) :
    ¬ Confirmed (reports h) n b := by
  rintro ⟨S, h1, h2, h3⟩
  obtain ⟨hi, hw⟩ := hon_run n h hall hR
  have hlast : (Obs.run n h).last = some a.stop := by rw [hi.base.last, ha]; rfl
  obtain ⟨⟨x, hx⟩, _⟩ := hi.base.log (a, m) (List.mem_of_getLast? ha)
  have hpos := hR.1 _ hx
  simp only at hpos
  have hl := lastTruthy_some.2 ⟨hlast, (by omega : a.stop ≠ 0)⟩
  have hrec : ∀ y ∈ S, ∃ d, (Obs.run n h).batches.get? b.start = some d ∧ d.get? y = some b := by
    intro y hy
    apply hi.recorded y b (h3 y hy)
    intro l hl'
    rw [hl] at hl'; injection hl' with hl'; omega
  cases S with
  | nil => simp at h2
  | cons y t =>
    obtain ⟨d, hd, _⟩ := hrec y (by simp)
    have hsub : ∀ z ∈ y :: t, z ∈ sendersOf d b := by
      intro z hz
      obtain ⟨d', hd', hg⟩ := hrec z hz
      rw [hd] at hd'; injection hd' with hd'; subst hd'
      exact mem_sendersOf.2 (Dict.mem_of_get? hg)
    have hlen := length_le_of_subset h1 hsub
    rw [sendersOf_length] at hlen
    have hwait := hw a.stop d hl (hnext ▸ hd)
    rw [run_n n h hall] at hwait
    have hin : b ∈ d.map Prod.snd := by
      have := mem_sendersOf.1 (hsub y (by simp))
      exact List.mem_map.2 ⟨_, this, rfl⟩
    have := (maxCount_iff (d.map Prod.snd) (getMaxFailures n)).2 ⟨b, hin, by omega⟩
    omega

/-- Batches reported out of order, by four nodes, are applied in order. -/
example : let h : List Event := [.report 1 ⟨3, 4, 30⟩, .report 1 ⟨1, 2, 10⟩, .report 2 ⟨3, 4, 30⟩, .report 3 ⟨5, 5, 50⟩, .report 4 ⟨1, 2, 10⟩]
    Honest (reports h) ∧ (Obs.run 4 h).applied = [(⟨1, 2, 10⟩, 4), (⟨3, 4, 30⟩, 4)] := by
  refine ⟨⟨?_, ?_⟩, by decide +kernel⟩ <;> simp [reports]

end Verif.Props
