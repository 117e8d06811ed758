import Verif.Spec.ConsAsk
import Verif.Props.ConsProof
/-!
# Lemmas about asking for consistency proofs (C106)
-/
namespace Verif.ConsAsk
open Verif.Catchup (Name)
open Verif.ConsProof (Proof Status Msg Key)
open Verif.ConsAsk.Spec

/-! ### The rest of the service is as in `Model/ConsProof.lean` -/

theorem tryAsk_cp (a : Ask) : a.tryAsk.cp = a.cp := by
  unfold Ask.tryAsk
  split
  · rfl
  · split
    · rfl
    · split
      · rfl
      · split <;> rfl

theorem sched_cp (a : Ask) : (if a.shouldSchedule then a.schedule else a).cp = a.cp := by
  split <;> rfl

theorem sched_sent (a : Ask) : (if a.shouldSchedule then a.schedule else a).sent = a.sent := by
  split <;> rfl

theorem sched_asked (a : Ask) : (if a.shouldSchedule then a.schedule else a).asked = a.asked := by
  split <;> rfl

/-- The state after a proof was noted. -/
def Ask.note (a : Ask) (p : Proof) (x : Name) : Ask :=
  { a with cp := { a.cp with proofs := a.cp.proofs.set x (some p) } }

theorem processProof_cp (a : Ask) (p : Proof) (x : Name) :
    (a.processProof p x).cp = a.cp.processProof p x := by
  unfold Ask.processProof ConsProof.State.processProof
  by_cases h1 : ¬ a.cp.working
  · rw [if_pos h1, if_pos h1]
  · rw [if_neg h1, if_neg h1]
    by_cases h2 : p.seqStart > a.cp.size
    · rw [if_pos h2, if_pos h2]
    · rw [if_neg h2, if_neg h2]
      by_cases h3 : p.seqEnd ≤ p.seqStart
      · rw [if_pos h3, if_pos h3]
      · rw [if_neg h3, if_neg h3]
        dsimp only
        split
        · rfl
        · rw [sched_cp, tryAsk_cp]
          dsimp only
          generalize ConsProof.State.proofForCatchup _ = o
          cases o with
          | none => dsimp only; rw [sched_cp, tryAsk_cp]
          | some t => rfl

theorem processStatus_cp (a : Ask) (st : Status) (x : Name) :
    (a.processStatus st x).cp = a.cp.processStatus st x := by
  unfold Ask.processStatus
  by_cases h1 : ¬ a.cp.working
  · rw [if_pos h1]; unfold ConsProof.State.processStatus; rw [if_pos h1]
  · rw [if_neg h1]
    by_cases h2 : a.cp.size < st.size
    · rw [if_pos h2]; unfold ConsProof.State.processStatus; rw [if_neg h1, if_pos h2]
    · rw [if_neg h2]
      dsimp only
      split <;> rfl

theorem tickCp_cp (a : Ask) : a.tickCp.cp = a.cp := by
  unfold Ask.tickCp
  split
  · rfl
  · dsimp only
    split
    · rfl
    · split
      · rfl
      · split
        · rfl
        · split
          · rfl
          · split
            · rfl
            · split <;> rfl

theorem run_snoc (a : Ask) (evs : List Ev) (e : Ev) : a.run (evs ++ [e]) = (a.run evs).step e := by
  simp [Ask.run]

theorem msgs_snoc_msg (evs : List Ev) (x : Name) (m : Msg) : msgs (evs ++ [.msg x m]) = msgs evs ++ [(x, m)] := by
  simp [msgs, List.filterMap_append]

theorem run_cp (a : Ask) (evs : List Ev) : (a.run evs).cp = a.cp.run (msgs evs) := by
  induction evs using snoc_induction with
  | nil => rfl
  | snoc evs e ih =>
    rw [run_snoc]
    cases e with
    | msg x m =>
      rw [msgs_snoc_msg]
      have : a.cp.run (msgs evs ++ [(x, m)]) = (a.cp.run (msgs evs)).step (x, m) := by simp [ConsProof.State.run]
      rw [this, ← ih]
      cases m with
      | status st => exact processStatus_cp _ _ _
      | proof p => exact processProof_cp _ _ _
    | tickStatus =>
      have hm : msgs (evs ++ [.tickStatus]) = msgs evs := by simp [msgs, List.filterMap_append]
      rw [hm, ← ih]
      show (Ask.tickStatus _).cp = _
      unfold Ask.tickStatus
      split <;> rfl
    | tickProof =>
      have hm : msgs (evs ++ [.tickProof]) = msgs evs := by simp [msgs, List.filterMap_append]
      rw [hm, ← ih]
      show (Ask.tickProof _).cp = _
      unfold Ask.tickProof
      split <;> rfl
    | tickCp =>
      have hm : msgs (evs ++ [.tickCp]) = msgs evs := by simp [msgs, List.filterMap_append]
      rw [hm, ← ih]
      exact tickCp_cp _

/-! ### What is noted is what was said last -/

theorem lastSaid_snoc (size : Nat) (ms : List (Name × Msg)) (y : Name) (m : Msg) (x : Name) :
    lastSaid size (ms ++ [(y, m)]) x =
      if y = x then (says size m).or (lastSaid size ms x) else lastSaid size ms x := by
  unfold lastSaid
  rw [List.filterMap_append]
  by_cases h : y = x
  · subst h
    rw [if_pos rfl]
    cases hs : says size m with
    | none => simp [hs]
    | some o => simp [hs]
  · rw [if_neg h]; simp [h]

/-- What is noted while the service works. -/
structure Noted (n size : Nat) (ms : List (Name × Msg)) (s : ConsProof.State) : Prop where
  hn : s.n = n
  hsize : s.size = size
  keys : s.proofs.keys.Nodup
  said : ∀ x, s.proofs.get? x = lastSaid size ms x
  few : ∀ p, p.seqStart = size → ∀ X : List Name, X.Nodup →
    (∀ x ∈ X, lastSaid size ms x = some (some p)) → X.length ≤ getMaxFailures n

theorem latest_some (size : Nat) : ∀ (l : List ((Nat × Nat) × Key)) (acc : Option ((Nat × Nat) × Key)),
    (acc.isSome ∨ ∃ e ∈ l, e.1.1 = size) → (l.foldl (ConsProof.latestStep size) acc).isSome
  | [], acc, h => by
    rcases h with h | ⟨e, he, _⟩
    · exact h
    · cases he
  | e :: l, acc, h => by
    rw [List.foldl_cons]
    apply latest_some size l
    by_cases hs : e.1.1 = size
    · left
      unfold ConsProof.latestStep
      rw [if_neg (by simpa using hs)]
      split
      · rfl
      · split <;> rfl
    · rcases h with h | ⟨e', he', hs'⟩
      · left; unfold ConsProof.latestStep; rw [if_pos hs]; exact h
      · right
        rcases List.mem_cons.1 he' with rfl | he'
        · exact absurd hs' hs
        · exact ⟨e', he', hs'⟩

theorem length_keys {α β : Type} (d : Dict α β) : (Dict.keys d).length = d.length := by simp [Dict.keys]

theorem reliable_of_many {s : ConsProof.State} {p : Proof} (hp : p.seqStart = s.size)
    {X : List Name} (hX : X.Nodup) (hlen : getMaxFailures s.n + 1 ≤ X.length)
    (hx : ∀ x ∈ X, s.proofs.get? x = some (some p)) :
    (s.latestReliable (ConsProof.group s.proofs)).isSome ∧ getMaxFailures s.n + 1 ≤ s.proofs.length := by
  constructor
  · have hsub : ∀ x ∈ X, x ∈ Props.holders s.proofs
        (fun q => decide ((q.seqStart, q.seqEnd) = (p.seqStart, p.seqEnd) ∧ q.key = p.key)) := by
      intro x h
      unfold Props.holders
      refine List.mem_map.2 ⟨(x, some p), List.mem_filter.2 ⟨Dict.mem_of_get? (hx x h), ?_⟩, rfl⟩
      simp
    have h1 := length_le_of_subset hX hsub
    rw [Props.holders_length] at h1
    have hc : Props.counted (ConsProof.group s.proofs) (p.seqStart, p.seqEnd) p.key =
        ((s.proofs.filterMap Prod.snd).filter
          (fun q => decide ((q.seqStart, q.seqEnd) = (p.seqStart, p.seqEnd) ∧ q.key = p.key))).length := by
      unfold ConsProof.group
      rw [Props.counted_foldl]
      simp [Props.counted, Dict.get?_nil]
    have hc : getMaxFailures s.n + 1 ≤ Props.counted (ConsProof.group s.proofs) (p.seqStart, p.seqEnd) p.key := by
      omega
    unfold Props.counted at hc
    cases hg : (ConsProof.group s.proofs).get? (p.seqStart, p.seqEnd) with
    | none => rw [hg] at hc; simp [Dict.get?_nil] at hc
    | some r =>
      rw [hg] at hc
      simp only [Option.getD_some] at hc
      cases hr : Dict.get? r p.key with
      | none => rw [hr] at hc; simp at hc
      | some c =>
        rw [hr] at hc
        simp only [Option.getD_some] at hc
        have hf : (r.find? (fun k => s.q.sameConsistencyProof.isReached k.2)).isSome := by
          rw [List.find?_isSome]
          exact ⟨_, Dict.mem_of_get? hr, by simpa [Quorum.isReached, ConsProof.State.q, Quorums.ofN] using hc⟩
        obtain ⟨k, hk'⟩ := Option.isSome_iff_exists.1 hf
        unfold ConsProof.State.latestReliable
        apply latest_some
        right
        refine ⟨((p.seqStart, p.seqEnd), k.1), ?_, hp⟩
        unfold ConsProof.State.reliable
        refine List.mem_filterMap.2 ⟨_, Dict.mem_of_get? hg, ?_⟩
        simp only
        rw [hk']; rfl
  · have : X.length ≤ (Dict.keys s.proofs).length := by
      apply length_le_of_subset hX
      intro x h
      exact (Dict.mem_keys _ _).2 ⟨_, hx x h⟩
    rw [length_keys] at this
    omega

theorem Noted.start (s0 : ConsProof.State) (n size root : Nat) : Noted n size [] (s0.start n size root) := by
  refine ⟨rfl, rfl, by simp [ConsProof.State.start, Dict.keys], ?_, ?_⟩
  · intro x; rfl
  · intro p _ X hX h
    cases X with
    | nil => simp
    | cons x X => exact absurd (h x List.mem_cons_self) (by simp [lastSaid])

theorem finishNo_working (s : ConsProof.State) : s.finishNoCatchup.working = false := by
  unfold ConsProof.State.finishNoCatchup
  split <;> rfl

theorem says_none_snoc {size : Nat} {ms : List (Name × Msg)} {y : Name} {m : Msg} (h : says size m = none) (x : Name) :
    lastSaid size (ms ++ [(y, m)]) x = lastSaid size ms x := by
  rw [lastSaid_snoc, h]; simp

theorem Noted.same {n size : Nat} {ms : List (Name × Msg)} {s : ConsProof.State} (h : Noted n size ms s)
    {y : Name} {m : Msg} (hm : says size m = none) : Noted n size (ms ++ [(y, m)]) s := by
  refine ⟨h.hn, h.hsize, h.keys, ?_, ?_⟩
  · intro x; rw [says_none_snoc hm]; exact h.said x
  · intro p hp X hX hx
    exact h.few p hp X hX (fun x hxX => by rw [← says_none_snoc (y := y) hm]; exact hx x hxX)

/-- What is noted right after a proof was noted, before it is decided on. -/
theorem Noted.set {n size : Nat} {ms : List (Name × Msg)} {s : ConsProof.State} (h : Noted n size ms s)
    {y : Name} {m : Msg} {o : Option Proof} (hm : says size m = some o) (x : Name) :
    (s.proofs.set y o).get? x = lastSaid size (ms ++ [(y, m)]) x := by
  rw [Dict.get?_set, lastSaid_snoc, hm]
  by_cases hx : y = x
  · rw [if_pos hx, if_pos hx]; rfl
  · rw [if_neg hx, if_neg hx]; exact h.said x

theorem Noted.step {n size : Nat} {ms : List (Name × Msg)} {s : ConsProof.State} (h : Noted n size ms s)
    (y : Name) (m : Msg) (hw : (s.step (y, m)).working = true) (hw0 : s.working = true) :
    Noted n size (ms ++ [(y, m)]) (s.step (y, m)) := by
  cases m with
  | status st =>
    have e : s.step (y, .status st) = s.processStatus st y := rfl
    rw [e] at hw ⊢
    unfold ConsProof.State.processStatus at hw ⊢
    rw [if_neg (by simp [hw0])] at hw ⊢
    by_cases h2 : s.size < st.size
    · rw [if_pos h2]
      have h2' := h2
      rw [h.hsize] at h2'
      exact h.same (by simp [says, h2'])
    · rw [if_neg h2] at hw ⊢
      dsimp only at hw ⊢
      have hs : says size (.status st) = some none := by
        have h2' := h2
        rw [h.hsize] at h2'
        simp only [says]; rw [if_pos (by omega)]
      have hfew : ∀ p, p.seqStart = size → ∀ X : List Name, X.Nodup →
          (∀ x ∈ X, lastSaid size (ms ++ [(y, .status st)]) x = some (some p)) → X.length ≤ getMaxFailures n := by
        intro p hp X hX hx
        apply h.few p hp X hX
        intro x hxX
        have := hx x hxX
        rw [lastSaid_snoc, hs] at this
        by_cases hyx : y = x
        · rw [if_pos hyx] at this; simp at this
        · rw [if_neg hyx] at this; exact this
      generalize (if y ∈ s.same then s.same else s.same ++ [y]) = sm at hw ⊢
      by_cases h3 : s.size = st.size
      · rw [if_pos h3] at hw ⊢
        split at hw
        · rename_i hc
          rw [if_pos hc]
          exact ⟨h.hn, h.hsize, Dict.nodup_keys_set h.keys _ _, fun x => h.set hs x, hfew⟩
        · rw [finishNo_working] at hw; cases hw
      · rw [if_neg h3] at hw ⊢
        split at hw
        · rename_i hc
          rw [if_pos hc]
          exact ⟨h.hn, h.hsize, Dict.nodup_keys_set h.keys _ _, fun x => h.set hs x, hfew⟩
        · rw [finishNo_working] at hw; cases hw
  | proof p =>
    have e : s.step (y, .proof p) = s.processProof p y := rfl
    rw [e] at hw ⊢
    unfold ConsProof.State.processProof at hw ⊢
    rw [if_neg (by simp [hw0])] at hw ⊢
    by_cases h2 : p.seqStart > s.size
    · rw [if_pos h2]
      refine h.same ?_
      rw [h.hsize] at h2
      simp only [says]; rw [if_neg (by omega)]
    · rw [if_neg h2] at hw ⊢
      by_cases h3 : p.seqEnd ≤ p.seqStart
      · rw [if_pos h3]
        refine h.same ?_
        simp only [says]; rw [if_neg (by omega)]
      · rw [if_neg h3] at hw ⊢
        have hs : says size (.proof p) = some (some p) := by
          rw [h.hsize] at h2
          simp only [says]; rw [if_pos (by omega)]
        dsimp only at hw ⊢
        have hk := Dict.nodup_keys_set h.keys y (some p)
        have hsaid := fun x => h.set hs (y := y) x
        split at hw
        · rw [finishNo_working] at hw; cases hw
        · rename_i hc
          rw [if_neg hc]
          cases hpf : ConsProof.State.proofForCatchup { s with proofs := s.proofs.set y (some p) } with
          | some t => rw [hpf] at hw; cases hw
          | none =>
            dsimp only
            refine ⟨h.hn, h.hsize, hk, hsaid, ?_⟩
            intro p' hp' X hX hx
            apply Classical.byContradiction
            intro hlt
            obtain ⟨r1, r2⟩ := reliable_of_many (s := { s with proofs := s.proofs.set y (some p) })
              (p := p') (by rw [hp']; exact h.hsize.symm) hX (by dsimp only; rw [h.hn]; omega)
              (fun x hxX => by rw [← hx x hxX]; exact hsaid x)
            unfold ConsProof.State.proofForCatchup at hpf
            rw [if_neg (by simpa [Quorum.isReached, ConsProof.State.q, Quorums.ofN] using r2)] at hpf
            obtain ⟨v, hv⟩ := Option.isSome_iff_exists.1 r1
            rw [hv] at hpf
            cases hpf

theorem step_stopped (s : ConsProof.State) (m : Name × Msg) (h : s.working = false) : s.step m = s := by
  obtain ⟨y, m⟩ := m
  cases m with
  | status st => show s.processStatus st y = s; unfold ConsProof.State.processStatus; rw [if_pos (by simp [h])]
  | proof p => show s.processProof p y = s; unfold ConsProof.State.processProof; rw [if_pos (by simp [h])]

theorem Noted.run (s0 : ConsProof.State) (n size root : Nat) (ms : List (Name × Msg)) :
    ((s0.start n size root).run ms).working = true → Noted n size ms ((s0.start n size root).run ms) := by
  induction ms using snoc_induction with
  | nil => intro _; exact Noted.start s0 n size root
  | snoc ms m ih =>
    obtain ⟨y, m⟩ := m
    have e : (s0.start n size root).run (ms ++ [(y, m)]) = ((s0.start n size root).run ms).step (y, m) := by
      simp [ConsProof.State.run]
    rw [e]
    intro hw
    cases hw0 : ((s0.start n size root).run ms).working with
    | false => rw [step_stopped _ _ hw0, hw0] at hw; cases hw
    | true => exact (ih hw0).step y m hw hw0

/-! ### Sorting -/

theorem insertDesc_perm (x : Nat) : ∀ l : List Nat, (insertDesc x l).Perm (x :: l)
  | [] => .refl _
  | y :: l => by
    unfold insertDesc
    split
    · exact .refl _
    · exact ((insertDesc_perm x l).cons y).trans (.swap x y l)

theorem sortDesc_perm : ∀ l : List Nat, (sortDesc l).Perm l
  | [] => .refl _
  | x :: l => (insertDesc_perm x _).trans ((sortDesc_perm l).cons x)

theorem insertDesc_sorted (x : Nat) : ∀ l : List Nat, l.Pairwise (· ≥ ·) → (insertDesc x l).Pairwise (· ≥ ·)
  | [], _ => by simp [insertDesc]
  | y :: l, h => by
    have h' := List.pairwise_cons.1 h
    unfold insertDesc
    split
    · rename_i hxy
      refine List.pairwise_cons.2 ⟨?_, h⟩
      intro z hz
      rcases List.mem_cons.1 hz with rfl | hz
      · exact hxy
      · have := h'.1 z hz; omega
    · rename_i hxy
      refine List.pairwise_cons.2 ⟨?_, insertDesc_sorted x l h'.2⟩
      intro z hz
      rcases List.mem_cons.1 ((insertDesc_perm x l).mem_iff.1 hz) with rfl | hz
      · omega
      · exact h'.1 z hz

theorem sortDesc_sorted : ∀ l : List Nat, (sortDesc l).Pairwise (· ≥ ·)
  | [] => .nil
  | x :: l => insertDesc_sorted x _ (sortDesc_sorted l)

theorem sorted_at : ∀ (l : List Nat) (f e : Nat), l.Pairwise (· ≥ ·) → l[f]? = some e →
    f + 1 ≤ (l.filter (fun v => decide (e ≤ v))).length ∧ (l.filter (fun v => decide (e < v))).length ≤ f
  | [], f, e, _, h => by simp at h
  | x :: l, 0, e, hs, h => by
    simp only [List.getElem?_cons_zero, Option.some.injEq] at h
    subst h
    have hs := List.pairwise_cons.1 hs
    constructor
    · simp
    · have : (List.filter (fun v => decide (x < v)) (x :: l)) = [] := by
        rw [List.filter_eq_nil_iff]
        intro v hv
        rcases List.mem_cons.1 hv with rfl | hv
        · simp
        · have := hs.1 v hv; simp; omega
      rw [this]; simp
  | x :: l, f + 1, e, hs, h => by
    have hs := List.pairwise_cons.1 hs
    rw [List.getElem?_cons_succ] at h
    obtain ⟨h1, h2⟩ := sorted_at l f e hs.2 h
    have hx : e ≤ x := hs.1 e (List.mem_of_getElem? h)
    constructor
    · rw [List.filter_cons, if_pos (by simpa using hx)]
      simp only [List.length_cons]; omega
    · rw [List.filter_cons]
      split
      · simp only [List.length_cons]; omega
      · omega

theorem sortDesc_at {l : List Nat} {f e : Nat} (h : (sortDesc l)[f]? = some e) :
    f + 1 ≤ (l.filter (fun v => decide (e ≤ v))).length ∧ (l.filter (fun v => decide (e < v))).length ≤ f := by
  have := sorted_at _ f e (sortDesc_sorted l) h
  rw [((sortDesc_perm l).filter _).length_eq, ((sortDesc_perm l).filter _).length_eq] at this
  exact this

/-- The size in an entry. -/
def entrySize (own : Nat) (e : Name × Option Proof) : Nat :=
  match e.2 with | some p => p.seqEnd | none => own

theorem sizes_filter (own : Nat) (d : Dict Name (Option Proof)) (c : Nat → Bool) :
    ((sizes own d).filter c).length = ((d.filter (fun e => c (entrySize own e))).map Prod.fst).length := by
  have : sizes own d = d.map (entrySize own) := rfl
  rw [this, List.filter_map, List.length_map, List.length_map]
  rfl

/-- The size asked for: at least `f+1` nodes claim it, and at most `f` claim more. -/
theorem sizes_at {d : Dict Name (Option Proof)} (hk : (Dict.keys d).Nodup) {own f e : Nat}
    (h : (sortDesc (sizes own d))[f]? = some e) (he : own < e) :
    (∃ X : List Name, X.Nodup ∧ f + 1 ≤ X.length ∧
      ∀ x ∈ X, ∃ p, Dict.get? d x = some (some p) ∧ e ≤ p.seqEnd) ∧
    (∀ Y : List Name, Y.Nodup → (∀ y ∈ Y, ∃ p, Dict.get? d y = some (some p) ∧ e < p.seqEnd) → Y.length ≤ f) := by
  obtain ⟨h1, h2⟩ := sortDesc_at h
  rw [sizes_filter] at h1 h2
  constructor
  · refine ⟨_, hk.sublist ((List.filter_sublist).map _), h1, ?_⟩
    intro x hx
    obtain ⟨⟨z, o⟩, hz, rfl⟩ := List.mem_map.1 hx
    obtain ⟨hz, hc⟩ := List.mem_filter.1 hz
    have hc : e ≤ entrySize own (z, o) := of_decide_eq_true hc
    cases o with
    | none => exact absurd (show e ≤ own from hc) (by omega)
    | some p => exact ⟨p, Dict.get?_of_mem hk hz, hc⟩
  · intro Y hY hy
    refine Nat.le_trans (length_le_of_subset hY ?_) h2
    intro y hyY
    obtain ⟨p, hp, hlt⟩ := hy y hyY
    exact List.mem_map.2 ⟨(y, some p), List.mem_filter.2 ⟨Dict.mem_of_get? hp, decide_eq_true (show e < entrySize own (y, some p) from hlt)⟩, rfl⟩

/-- There is always a reply with that index. -/
theorem tryAsk_in_range {n : Nat} {d : Dict Name (Option Proof)} (hne : d ≠ []) (own : Nat)
    (h : n - getMaxFailures n - 1 ≤ d.length) : ∃ e, (sortDesc (sizes own d))[getMaxFailures n]? = some e := by
  have hl : (sortDesc (sizes own d)).length = d.length := by
    rw [(sortDesc_perm _).length_eq]; simp [sizes]
  have hpos : 0 < d.length := List.length_pos_iff.2 hne
  have : getMaxFailures n < (sortDesc (sizes own d)).length := by
    rw [hl]
    by_cases hn : n ≥ 4
    · have : getMaxFailures n = (n - 1) / 3 := by unfold getMaxFailures; rw [if_pos hn]
      omega
    · have : getMaxFailures n = 0 := by unfold getMaxFailures; rw [if_neg hn]
      omega
  exact ⟨_, List.getElem?_eq_getElem this⟩

/-! ### What is sent -/

theorem processProof_sent (a : Ask) (p : Proof) (x : Name) :
    (a.processProof p x).sent = a.sent ∨
    (a.cp.working = true ∧ p.seqStart ≤ a.cp.size ∧ p.seqStart < p.seqEnd ∧
      (a.processProof p x).sent = (a.note p x).tryAsk.sent ∧
      (a.processProof p x).asked = (a.note p x).tryAsk.asked) := by
  unfold Ask.processProof
  by_cases h1 : ¬ a.cp.working
  · rw [if_pos h1]; exact .inl rfl
  · rw [if_neg h1]
    by_cases h2 : p.seqStart > a.cp.size
    · rw [if_pos h2]; exact .inl rfl
    · rw [if_neg h2]
      by_cases h3 : p.seqEnd ≤ p.seqStart
      · rw [if_pos h3]; exact .inl rfl
      · rw [if_neg h3]
        dsimp only
        split
        · exact .inl rfl
        · right
          refine ⟨by simpa using h1, by omega, by omega, ?_⟩
          show _ = ((a.note p x).tryAsk.sent) ∧ _ = (a.note p x).tryAsk.asked
          rw [show ({ a with cp := { a.cp with proofs := a.cp.proofs.set x (some p) } } : Ask) = a.note p x from rfl]
          generalize (a.note p x).tryAsk = b
          split
          · exact ⟨sched_sent b, sched_asked b⟩
          · exact ⟨sched_sent b, sched_asked b⟩

end Verif.ConsAsk
